import Verif.Lemmas.PyArrays
import Verif.Props.PyField
import Verif.Props.FieldMap
/-
Property C80: a python program with a field collection behaves as a program with a dictionary of numpy arrays.
The dictionary is defined in `Verif.Spec.PyArrays`.
-/
set_option linter.unusedSectionVars false

namespace Verif.Props
open Verif Verif.Ccoord Verif.Layout Verif.Layout.FieldLayout Verif.RawMemory Verif.Numpy Verif.Collection
  Verif.Collection.Coll Verif.PyField Verif.PySession Verif.PyArrays

variable {α U : Type} [Inhabited α] [DecidableEq U]

/-- A field shows an array. -/
structure Displayed (c : Coll α U) (grid : List Int) (f : Field α U) (a : Arr α U) : Prop where
  ty : f.ty = a.ty
  comps : f.shape = a.comps
  pos : Pos a.comps
  nb : f.nbSub = a.nb
  tag : f.tag = a.tag
  unit : f.unit = a.unit
  vals : ∀ ms, (c.layout f).strides .subPt 1 = .ok ms → ∀ y, InBox (a.comps ++ a.nb :: grid) y →
    f.vals[(dot ms y).toNat]? = some (a.val y)

/-- The shape and the strides of the pixels of a collection. -/
def pixShapeOf (c : Coll α U) : List Int := if c.global then c.pixels.nb else [c.nbPixels]
def pixStridesOf (c : Coll α U) : List Int := if c.global then c.pixels.strides else [1]

/-- A collection shows a dictionary of arrays. -/
structure Displays (c : Coll α U) (d : Dict α U) : Prop where
  size : SizeInv c
  init : c.initialised = true
  order : c.order = .colMajor ∨ c.order = .rowMajor
  grid : pixShapeOf c = d.grid
  pos : Pos d.grid
  ne : d.grid ≠ []
  addr : Addressing d.grid (pixStridesOf c) c.nbBuf
  tags : ∀ t n, d.tags t = some n ↔ c.subPts.find t = some n ∧ n ≠ Unknown
  names : ∀ name, c.fields.find name = none ↔ d.arrs name = none
  disp : ∀ name f a, c.fields.find name = some f → d.arrs name = some a → Displayed c d.grid f a

/-- The two views of a field: shapes, strides and addresses. -/
structure ViewOf (c : Coll α U) (f : Field α U) (a : Arr α U) (grid : List Int) (it : IterUnit) (sh ms mv : List Int) :
    Prop where
  strides : (c.layout f).strides .subPt 1 = .ok ms
  view : (c.layout f).strides it 1 = .ok mv
  ok : ViewOk (c.layout f) it
  pix : Addressing (c.layout f).pixShape (c.layout f).pixStrides c.nbBuf
  shape : (c.layout f).shape it = sh
  pos : Pos sh
  ne : sh ≠ []
  addr : Addressing sh mv (f.vals.length - f.pad)
  toV : ∀ y, InBox (a.comps ++ a.nb :: grid) y → InBox sh (a.toView it y) ∧ a.ofView it (a.toView it y) = y ∧
    dot mv (a.toView it y) = dot ms y
  ofV : ∀ z, InBox sh z → InBox (a.comps ++ a.nb :: grid) (a.ofView it z) ∧ a.toView it (a.ofView it z) = z

theorem shapeP_pos {comps grid : List Int} {nb : Int} (h : Pos comps) (hn : 1 ≤ nb) (hg : Pos grid) :
    Pos (shapeP comps nb grid) := by
  match comps with
  | [] => exact hg
  | [n] =>
    have := h n (by simp)
    intro k hk
    rcases List.mem_cons.1 hk with rfl | hk
    · positivity
    · exact hg k hk
  | n :: m :: comps =>
    rw [shapeP_cons2]
    intro k hk
    rcases List.mem_cons.1 hk with rfl | hk
    · exact h _ (by simp)
    · exact shapeP_pos (comps := m :: comps) (fun x hx => h x (by simp [hx])) hn hg k hk

theorem shapeP_ne {comps grid : List Int} {nb : Int} (hg : grid ≠ []) : shapeP comps nb grid ≠ [] := by
  match comps with
  | [] => exact hg
  | [n] => simp [shapeP]
  | n :: m :: comps => rw [shapeP_cons2]; simp

theorem Displays.sub_pos {c : Coll α U} {d : Dict α U} (h : Displays c d) {name : String} {f : Field α U}
    (hf : c.fields.find name = some f) : 1 ≤ f.nbSub := by
  have h1 := h.size.sub_pos hf
  have h2 := (h.size.size h.init name f hf).1
  tauto

/-- Uses of `f.p` for which its indices are those of the specification: in a column-major collection (the default), or
with one sub-point.  `C80_false`, `C80_row_major_aliases` and `C19_exact` show what happens in the other ones. -/
def PixelUse (order : StorageOrder) (d : Dict α U) (name : String) (it : IterUnit) : Prop :=
  it = .pixel → order = .colMajor ∨ ∀ a, d.arrs name = some a → a.nb = 1

theorem Displays.viewOf {c : Coll α U} {d : Dict α U} (h : Displays c d) {name : String} {f : Field α U} {a : Arr α U}
    (hf : c.fields.find name = some f) (ha : d.arrs name = some a) (it : IterUnit)
    (hit : PixelUse c.order d name it) {sh : List Int} (hsh : a.shape d.grid it = some sh) :
    ∃ ms mv, ViewOf c f a d.grid it sh ms mv := by
  have hs := h.disp name f a hf ha
  have hsub := h.sub_pos hf
  obtain ⟨s1, s2, s3⟩ := h.size.size h.init name f hf
  have hpix : Addressing (c.layout f).pixShape (c.layout f).pixStrides c.nbBuf := by
    have := h.addr; rw [← h.grid] at this; exact this
  have hpe : (c.layout f).pixShape = d.grid := h.grid
  have hce : (c.layout f).comps = a.comps := hs.comps
  have hne : (c.layout f).nbSub = a.nb := hs.nb
  have hnc : (c.layout f).nbComp = f.nbComp := (h.size.wf.comps name f hf).symm
  have hsz : (c.layout f).nbComp * (c.layout f).nbSub * (c.layout f).nbBuf = f.vals.length - f.pad := by
    rw [hnc, show (c.layout f).nbSub = f.nbSub from rfl, show (c.layout f).nbBuf = c.nbBuf from rfl]; omega
  have hok0 : ViewOk (c.layout f) .subPt := Or.inl rfl
  have ho : (c.layout f).order = .colMajor ∨ (c.layout f).order = .rowMajor := h.order
  obtain ⟨ms, hms, hA⟩ := hok0.addressing ho hpix
  have hnb : 1 ≤ a.nb := by rw [← hs.nb]; exact hsub
  cases it with
  | subPt =>
    simp only [Arr.shape, Option.some.injEq] at hsh
    subst hsh
    have hshape : (c.layout f).shape .subPt = a.comps ++ a.nb :: d.grid := by
      rw [shape_subPt, hce, hne, hpe]; simp
    refine ⟨ms, ms, hms, hms, hok0, hpix, hshape, ?_, by simp, ?_, fun y hy => ⟨hy, rfl, rfl⟩, fun z hz => ⟨hz, rfl⟩⟩
    · intro n hn
      simp only [List.mem_append, List.mem_cons] at hn
      rcases hn with hn | rfl | hn
      · exact hs.pos n hn
      · omega
      · exact h.pos n hn
    · rw [hsz, hshape] at hA; exact hA
  | pixel =>
    have huse : (c.layout f).order = .colMajor ∨ (c.layout f).order = .rowMajor ∧ a.nb = 1 := by
      rcases hit rfl with e | e
      · exact Or.inl e
      · rcases ho with e' | e'
        · exact Or.inl e'
        · exact Or.inr ⟨e', e a ha⟩
    simp only [Arr.shape] at hsh
    split at hsh
    · cases hsh
    · rename_i hnot
      cases hsh
      have hone : a.comps = [] → a.nb = 1 := fun e => Classical.byContradiction fun e2 => hnot ⟨e, e2⟩
      have hok : ViewOk (c.layout f) .pixel := by
        refine Or.inr ⟨by rw [hne]; omega, ?_⟩
        rcases huse with hcol | ⟨_, hn1⟩
        · by_cases e : a.comps = []
          · exact Or.inl (by rw [hne]; exact hone e)
          · exact Or.inr ⟨by rw [hce]; exact e, Or.inl hcol⟩
        · exact Or.inl (by rw [hne]; exact hn1)
      obtain ⟨mv, hmv, hB⟩ := hok.addressing ho hpix
      have hshape : (c.layout f).shape .pixel = shapeP a.comps a.nb d.grid := by
        rw [shape_pixel (c.layout f) hsub (by rw [hce, hne]; exact hone), hce, hne, hpe]
      refine ⟨ms, mv, hms, hmv, hok, hpix, hshape, shapeP_pos hs.pos hnb h.pos, shapeP_ne h.ne, ?_, ?_, ?_⟩
      · rw [hsz, hshape] at hB; exact hB
      · intro y hy
        obtain ⟨k1, k2⟩ := toP_box hs.pos hone hy
        refine ⟨k1, k2, ?_⟩
        rcases huse with hcol | ⟨hrow, hn1⟩
        · have e1 := strides_col (c.layout f) hcol
          rw [hms] at e1
          have e2 := strides_pixel_col (c.layout f) hcol
          rw [hmv] at e2
          have e1' := Res.ok.inj e1
          have e2' := Res.ok.inj e2
          have := dot_toP (acc := 1) (P := (c.layout f).pixStrides.map (· * ((c.layout f).comps.prod * (c.layout f).nbSub)))
            hone hy
          rw [e1', e2', hce]
          rw [hce] at this
          simp only [one_mul] at this
          simpa [Arr.toView] using this
        · have e1 := strides_row (c.layout f) hrow
          rw [hms] at e1
          have e2 := strides_pixel_row (c.layout f) hrow
          rw [hmv] at e2
          have e1' := Res.ok.inj e1
          have e2' := Res.ok.inj e2
          rw [hn1] at hy
          obtain ⟨cc, x, f1, f2, f3⟩ := toP_one hy
          have hcl : cc.length = (c.layout f).comps.length := by rw [f2.length_eq, hce]
          rw [e1', e2', hne, hn1]
          show dot _ (toP a.comps y) = _
          rw [f3, f1, dot_append (by simp [accStrides_length, hcl]), List.map_append, List.append_assoc,
            dot_append (by simp [accStrides_length, hcl])]
          simp [dot]
      · intro z hz
        exact fromP_box hs.pos hone hz

/-! ### Calls -/

theorem layout_of_base {c c' : Coll α U} (h : c'.base = c.base) (f : Field α U) : c'.layout f = c.layout f := by
  simp only [base, Prod.mk.injEq] at h
  obtain ⟨b1, b2, b3, b4, b5, b6, b7, b8, b9, b10⟩ := h
  simp only [Coll.layout, b1, b3, b4, b5, b9]

/-- The attributes that the calls do not change. -/
theorem Displays.frame {c c' : Coll α U} {d : Dict α U} (h : Displays c d) (hb : c'.base = c.base) :
    c'.initialised = true ∧ c'.order = c.order ∧ pixShapeOf c' = pixShapeOf c ∧ pixStridesOf c' = pixStridesOf c ∧
      c'.nbBuf = c.nbBuf := by
  have hi := h.init
  simp only [base, Prod.mk.injEq] at hb
  obtain ⟨b1, b2, b3, b4, b5, b6, b7, b8, b9, b10⟩ := hb
  simp only [pixShapeOf, pixStridesOf, b1, b3, b4, b5, b7, b9, hi, and_self]

/-- New values of one field. -/
theorem Displays.put {c : Coll α U} {d : Dict α U} (h : Displays c d) {name : String} {f : Field α U} {a : Arr α U}
    (hf : c.fields.find name = some f) (ha : d.arrs name = some a) (vs : List α) (hl : vs.length = f.vals.length)
    (val : List Int → α) (hv : ∀ ms, (c.layout f).strides .subPt 1 = .ok ms →
      ∀ y, InBox (a.comps ++ a.nb :: d.grid) y → vs[(dot ms y).toNat]? = some (val y)) :
    Displays ({ c with fields := c.fields.insert name { f with vals := vs } } : Coll α U)
      (d.put name { a with val := val }) := by
  have hs := h.disp name f a hf ha
  have hz := h.size.size h.init name f hf
  refine ⟨?_, h.init, h.order, h.grid, h.pos, h.ne, h.addr, h.tags, ?_, ?_⟩
  · exact h.size.insertField name _ (h.size.wf.comps name f hf) (h.size.wf.tags name f hf) (h.size.comp name f hf)
      (fun _ => by rw [hl]; exact hz)
  · intro n
    simp only [SMap.find_insert, Dict.put]
    by_cases e : n = name
    · simp [e]
    · simp only [e, if_false]; exact h.names n
  · intro n g b hg hb
    simp only [SMap.find_insert, Dict.put] at hg hb
    by_cases e : n = name
    · simp only [e, if_true, Option.some.injEq] at hg hb
      subst hg; subst hb
      exact ⟨hs.ty, hs.comps, hs.pos, hs.nb, hs.tag, hs.unit, hv⟩
    · simp only [e, if_false] at hg hb
      obtain ⟨k1, k2, k3, k4, k5, k6, k7⟩ := h.disp n g b hg hb
      exact ⟨k1, k2, k3, k4, k5, k6, k7⟩

/-- The array called `name` exists exactly if the field does. -/
theorem Displays.arr {c : Coll α U} {d : Dict α U} (h : Displays c d) {name : String} {f : Field α U}
    (hf : c.fields.find name = some f) : ∃ a, d.arrs name = some a := by
  cases ha : d.arrs name with
  | some a => exact ⟨a, rfl⟩
  | none => rw [(h.names name).2 ha] at hf; cases hf

theorem Displays.item_pos {c : Coll α U} {size : ElemType → Int} (hz : ∀ ty, 0 < size ty) (name : String) :
    0 < itemOf size c name := by
  unfold itemOf
  split
  · exact hz _
  · decide

theorem Displays.window {c : Coll α U} {d : Dict α U} (h : Displays c d) {name : String} {f : Field α U} {a : Arr α U}
    (hf : c.fields.find name = some f) {it : IterUnit} {sh ms mv : List Int}
    (hv : ViewOf c f a d.grid it sh ms mv) (item : Int) :
    ∃ b : NpArray, view c name it item = .ok (.window b) ∧ b.shape = sh ∧
      ∀ x, InBox sh x → linearIndex x b.strides = item * dot mv x := by
  obtain ⟨b, mv', h1, -, h2, h3, h4⟩ := view_of_size h.size h.init h.order hf it item hv.ok hv.pix
    (by rw [hv.shape]; exact hv.pos)
  rw [hv.view] at h3
  cases h3
  rw [hv.shape] at h2
  refine ⟨b, h1, h2, fun x hx => ?_⟩
  rw [linearIndex_eq_dot]
  exact (h4 x (by rw [h2]; exact hx)).1

/-- `f.p` of a field without components but with several sub-points. -/
theorem Displays.no_view {c : Coll α U} {d : Dict α U} (h : Displays c d) {name : String} {f : Field α U} {a : Arr α U}
    (hf : c.fields.find name = some f) (ha : d.arrs name = some a) {it : IterUnit} (item : Int)
    (hsh : a.shape d.grid it = none) :
    it = .pixel ∧ view c name it item = .throw .runtimeError ∧ (c.layout f).comps = [] ∧ 1 < (c.layout f).nbSub ∧
      (c.layout f).pixStrides.length = (c.layout f).pixShape.length := by
  have hs := h.disp name f a hf ha
  have hsub := h.sub_pos hf
  cases it with
  | subPt => simp [Arr.shape] at hsh
  | pixel =>
    simp only [Arr.shape, ite_eq_left_iff, reduceCtorEq, imp_false, not_not] at hsh
    have hce : (c.layout f).comps = [] := hs.comps.trans hsh.1
    have hn : 1 < (c.layout f).nbSub := by
      have h1 : f.nbSub = a.nb := hs.nb
      have h2 := hsh.2
      show 1 < f.nbSub
      omega
    have hpix : (c.layout f).pixStrides.length = (c.layout f).pixShape.length := by
      have := h.addr.length_eq; rw [← h.grid] at this; exact this
    refine ⟨rfl, ?_, hce, hn, hpix⟩
    have hst : ∃ s, (c.layout f).strides .pixel 1 = .ok s ∧ s.length = (c.layout f).pixStrides.length := by
      rcases h.order with ho | ho
      · exact ⟨_, strides_pixel_col (c.layout f) ho, by simp [hce, FieldLayout.accStrides]⟩
      · exact ⟨_, strides_pixel_row (c.layout f) ho, by simp [hce, FieldLayout.accStrides]⟩
    obtain ⟨s, e1, e2⟩ := hst
    have hshl : ((c.layout f).shape .pixel).length = (c.layout f).pixShape.length + 1 := by
      have : (c.layout f).shape .pixel = (c.layout f).nbSub :: (c.layout f).pixShape := by
        simp [FieldLayout.shape, FieldLayout.subPtShape, hn, hce]
      rw [this]; rfl
    have he := (C18_element_size (c.layout f) .pixel item).1 s e1
    have hw : numpyWrap ⟨c.layout f, []⟩ .pixel item = .ok ⟨(c.layout f).shape .pixel, s.map (· * item), item⟩ := by
      have : Wrapped.strides ⟨c.layout f, []⟩ .pixel item = .ok (s.map (· * item)) := he
      rw [numpyWrap, this, Res.ok_bind]; rfl
    simp only [view, hf, hw, Res.ok_bind]
    rw [if_pos]
    simp only [List.length_map]
    omega

theorem Displays.getItem {c : Coll α U} {d : Dict α U} (h : Displays c d) {size : ElemType → Int}
    (hz : ∀ ty, 0 < size ty) (name : String) (it : IterUnit) (hit : PixelUse c.order d name it)
    (idx : List Int) :
    (match PySession.getItem c name it (itemOf size c name) idx with
      | .ok l => .ok (.values l) | .throw e => .throw e | .ub => .ub : Res (Out α)) = d.getItem name it idx := by
  unfold PySession.getItem Dict.getItem
  cases hf : c.fields.find name with
  | none => simp only [(h.names name).1 hf]
  | some f =>
    obtain ⟨a, ha⟩ := h.arr hf
    have hi : 0 < itemOf size c name := Displays.item_pos hz name
    simp only [ha]
    generalize itemOf size c name = item at hi
    cases hsh : a.shape d.grid it with
    | none => simp only [(h.no_view hf ha item hsh).2.1]
    | some sh =>
      obtain ⟨ms, mv, hv⟩ := h.viewOf hf ha it hit hsh
      obtain ⟨b, h1, h2, h3⟩ := h.window hf hv item
      simp only [h1, h2]
      cases hx : npIndex sh idx with
      | none => rfl
      | some i =>
        simp only
        rw [addresses, h2, loadAll_map (g := fun r => a.val (a.ofView it (i ++ r)))]
        intro r hr
        have hbox : InBox sh (i ++ r) := ((npIndex_box hx).2 r).2 (mem_npAll.1 hr)
        rw [h3 _ hbox]
        obtain ⟨k1, k2⟩ := hv.ofV _ hbox
        have k3 := (hv.toV _ k1).2.2
        rw [k2] at k3
        have hb := hv.addr.bounds _ hbox
        refine load_mul hi hb.1 ?_
        rw [k3]
        exact (h.disp name f a hf ha).vals ms hv.strides _ k1

theorem Displays.setItem {c : Coll α U} {d : Dict α U} (h : Displays c d) {size : ElemType → Int}
    (hz : ∀ ty, 0 < size ty) (name : String) (it : IterUnit) (hit : PixelUse c.order d name it)
    (idx : List Int) (v : α) :
    (quiet (PySession.setItem c name it (itemOf size c name) idx v)).1 = (d.setItem name it idx v).1 ∧
    Displays (PySession.setItem c name it (itemOf size c name) idx v).2 (d.setItem name it idx v).2 ∧
    (PySession.setItem c name it (itemOf size c name) idx v).2.base = c.base := by
  unfold PySession.setItem Dict.setItem
  cases hf : c.fields.find name with
  | none => simp only [(h.names name).1 hf]; exact ⟨rfl, h, trivial⟩
  | some f =>
    obtain ⟨a, ha⟩ := h.arr hf
    have hi : 0 < itemOf size c name := Displays.item_pos hz name
    simp only [ha]
    generalize itemOf size c name = item at hi
    cases hsh : a.shape d.grid it with
    | none => simp only [(h.no_view hf ha item hsh).2.1]; exact ⟨rfl, h, trivial⟩
    | some sh =>
      obtain ⟨ms, mv, hv⟩ := h.viewOf hf ha it hit hsh
      obtain ⟨b, h1, h2, h3⟩ := h.window hf hv item
      simp only [h1, h2]
      cases hx : npIndex sh idx with
      | none => exact ⟨rfl, h, rfl⟩
      | some i =>
        simp only
        have hbox : ∀ r ∈ npAll (sh.drop i.length), InBox sh (i ++ r) := fun r hr =>
          ((npIndex_box hx).2 r).2 (mem_npAll.1 hr)
        have hadr : addresses b i = (npAll (sh.drop i.length)).map (fun r => item * dot mv (i ++ r)) := by
          rw [addresses, h2]
          exact List.map_congr_left fun r hr => h3 _ (hbox r hr)
        obtain ⟨vs, k1, k2, k3⟩ := storeAll_mul (ad := fun r => dot mv (i ++ r)) (v := v) hi
          (npAll (sh.drop i.length)) f.vals (fun r hr => by have := hv.addr.bounds _ (hbox r hr); omega)
        rw [hadr, k1]
        refine ⟨rfl, h.put hf ha vs k2 _ ?_, rfl⟩
        intro ms' hms' y hy
        rw [hv.strides] at hms'
        cases hms'
        obtain ⟨t1, t2, t3⟩ := hv.toV y hy
        have hb := hv.addr.bounds _ t1
        obtain ⟨m1, m2⟩ := k3 (dot ms y).toNat (by omega)
        by_cases hp : i <+: a.toView it y
        · rw [if_pos hp]
          obtain ⟨r, hr, e⟩ := (mem_part hx t1).1 hp
          exact m1 ⟨r, hr, by rw [← e]; omega⟩
        · rw [if_neg hp, m2]
          · exact (h.disp name f a hf ha).vals ms hv.strides y hy
          · intro r hr e
            apply hp
            have : dot mv (i ++ r) = dot mv (a.toView it y) := by omega
            exact (mem_part hx t1).2 ⟨r, hr, (hv.addr.inj _ _ (hbox r hr) t1 this).symm⟩

theorem Displays.assign {srt : SortFn} (hsrt : SortSpec srt) {c : Coll α U} {d : Dict α U} (h : Displays c d)
    (name : String) (it : IterUnit) (hit : PixelUse c.order d name it) (b : NpArray) (inp : Mem α)
    (hb : Plain b) (hin : ∀ x, InBox b.shape x → (inp (dot b.strides x)).isSome) :
    (quiet (setArray srt c name it b inp)).1 = (d.assign name it b inp).1 ∧
    Displays (setArray srt c name it b inp).2 (d.assign name it b inp).2 ∧
    (setArray srt c name it b inp).2.base = c.base := by
  cases hf : c.fields.find name with
  | none =>
    simp only [setArray, Dict.assign, hf, (h.names name).1 hf]; exact ⟨rfl, h, trivial⟩
  | some f =>
    obtain ⟨a, ha⟩ := h.arr hf
    simp only [Dict.assign, ha]
    cases hsh : a.shape d.grid it with
    | none =>
      obtain ⟨hp, -, h1, h2, h3⟩ := h.no_view hf ha 1 hsh
      subst hp
      have : setArray srt c name .pixel b inp = (.throw .runtimeError, c) := by
        simp only [setArray, hf]
        by_cases e : b.shape = (c.layout f).shape .pixel
        · have hst : ∃ s, (c.layout f).strides .pixel 1 = .ok s ∧ s.length = (c.layout f).pixStrides.length := by
            rcases h.order with ho | ho
            · exact ⟨_, strides_pixel_col (c.layout f) ho, by simp [h1, FieldLayout.accStrides]⟩
            · exact ⟨_, strides_pixel_row (c.layout f) ho, by simp [h1, FieldLayout.accStrides]⟩
          obtain ⟨s, e1, e2⟩ := hst
          have hshl : ((c.layout f).shape .pixel).length = (c.layout f).pixShape.length + 1 := by
            have : (c.layout f).shape .pixel = (c.layout f).nbSub :: (c.layout f).pixShape := by
              simp [FieldLayout.shape, FieldLayout.subPtShape, h2, h1]
            rw [this]; rfl
          have hthrow : stridedCopy srt ((c.layout f).shape .pixel) (b.strides.map (elemStride b.item)) s
              (fun i => inp (b.item * i)) (Field.mem f) = .throw .runtimeError := by
            unfold stridedCopy
            split
            · rfl
            · rw [if_pos (by omega)]
          simp only [e, ne_eq, not_true_eq_false, if_false, e1, Res.ok_bind, hthrow]
        · simp [e]
      rw [this, if_neg (by simp)]
      exact ⟨rfl, h, rfl⟩
    | some sh =>
      obtain ⟨ms, mv, hv⟩ := h.viewOf hf ha it hit hsh
      by_cases e : sh = b.shape
      · subst e
        rw [if_pos rfl]
        obtain ⟨m, mv', k1, k2, k3, k4, -⟩ := setArray_of_size hsrt h.size h.init h.order hf it hv.ok hv.pix
          (by rw [hv.shape]; exact hv.pos) (by rw [hv.shape]; exact hv.ne) b inp hb hv.shape.symm hin
        rw [hv.view] at k2
        cases k2
        rw [k1]
        refine ⟨rfl, h.put hf ha _ k3 _ ?_, rfl⟩
        intro ms' hms' y hy
        rw [hv.strides] at hms'
        cases hms'
        obtain ⟨t1, t2, t3⟩ := hv.toV y hy
        have := k4 _ t1
        rw [t3] at this
        rw [this]
        obtain ⟨w, hw⟩ := Option.isSome_iff_exists.1 (hin _ t1)
        rw [hw]; rfl
      · rw [if_neg (by simpa using e)]
        have : setArray srt c name it b inp = (.throw .runtimeError, c) := by
          simp only [setArray, hf, hv.shape]
          rw [if_pos (fun h => e h.symm)]
        rw [this]
        exact ⟨rfl, h, rfl⟩

theorem nbPixels_eq_getSize (s : List Int) : nbPixels s = getSize s := by
  rw [getSize_eq_prod]
  induction s with
  | nil => rfl
  | cons n s ih => rw [nbPixels, ih, List.prod_cons]

theorem Displays.getSub {c : Coll α U} {d : Dict α U} (h : Displays c d) (tag : String) :
    Displays (c.getSub tag).2 d := by
  obtain ⟨hb, hfe, -⟩ := c.getSub_frame tag
  obtain ⟨f1, f2, f3, f4, f5⟩ := h.frame hb
  refine ⟨h.size.getSub tag, f1, by rw [f2]; exact h.order, by rw [f3]; exact h.grid, h.pos, h.ne,
    by rw [f4, f5]; exact h.addr, ?_, by rw [hfe]; exact h.names, ?_⟩
  · intro t n
    rw [h.tags, getSub_find, getSub_fst]
    by_cases e : t = tag
    · subst e
      simp only [if_true, Option.some.injEq]
      cases hk : c.subPts.find t with
      | none => simp only [Option.getD_none, reduceCtorEq, false_and, false_iff, not_and, not_not]; exact fun e => e.symm
      | some k => simp
    · simp [e]
  · intro name f a hf ha
    rw [hfe] at hf
    obtain ⟨k1, k2, k3, k4, k5, k6, k7⟩ := h.disp name f a hf ha
    exact ⟨k1, k2, k3, k4, k5, k6, by rw [layout_of_base hb]; exact k7⟩

/-- Registration in an initialised collection succeeds exactly for known numbers of sub-points. -/
theorem register_known {c : Coll α U} (h : SizeInv c) (hi : c.initialised = true) {name : String} {ty : ElemType}
    {comps : Comps} {tag : String} {unit : U} {allow : Bool} (hf : c.fields.find name = none) (hc : 1 ≤ comps.toNb) :
    ((c.getSub tag).1 = Unknown →
      c.register name ty comps tag unit allow = (.throw .fieldError, (c.getSub tag).2)) ∧
    ((c.getSub tag).1 ≠ Unknown → (c.register name ty comps tag unit allow).1 = .ok ()) := by
  obtain ⟨hb, -, -⟩ := c.getSub_frame tag
  simp only [base, Prod.mk.injEq] at hb
  obtain ⟨b1, b2, b3, b4, b5, b6, b7, b8, b9, b10⟩ := hb
  constructor
  · intro hu
    simp only [register, hf, b7, hi, if_true, Field.resize, Field.new, Field.hasSub, hu]
    simp
  · intro hu
    have hn : (c.getSub tag).1 = Unknown ∨ 1 ≤ (c.getSub tag).1 := by
      rw [getSub_fst]
      cases hk : c.subPts.find tag with
      | none => exact Or.inl rfl
      | some k => exact h.sub tag k hk
    have hn' : 1 ≤ (c.getSub tag).1 := hn.resolve_left hu
    have hbuf := h.buf hi
    have h0 : ¬ ((c.getSub tag).1 * c.nbBuf * comps.toNb + ((0 : Nat) : Int) < 0) := by
      have := mul_nonneg (mul_nonneg (show (0 : Int) ≤ (c.getSub tag).1 by omega) hbuf) (show (0 : Int) ≤ comps.toNb by omega)
      simp only [Nat.cast_zero, add_zero, not_lt]; exact this
    simp only [register, hf, b7, hi, if_true, b5, Field.resize, Field.new, Field.hasSub, bne_iff_ne, ne_eq, hu,
      not_false_eq_true, not_true_eq_false, if_false, h0]
    split
    · rfl
    · rename_i h1
      split at h1
      all_goals
        simp only [Prod.mk.injEq] at h1
        exact h1.1.symm

theorem Displays.field {c : Coll α U} {d : Dict α U} (h : Displays c d) (name : String) (ty : ElemType) (comps : Comps)
    (tag : String) (unit : U) (new : Bool) (hp : Pos comps.toShape) :
    (quiet (c.register name ty comps tag unit (!new))).1 = (d.field name ty comps tag unit new).1 ∧
    Displays (c.register name ty comps tag unit (!new)).2 (d.field name ty comps tag unit new).2 ∧
    (c.register name ty comps tag unit (!new)).2.base = c.base := by
  have hc : 1 ≤ comps.toNb := by
    rw [toNb_eq, getSize_eq_prod]; have := prod_pos_of_pos hp; omega
  cases hf : c.fields.find name with
  | some f =>
    obtain ⟨a, ha⟩ := h.arr hf
    have hs := h.disp name f a hf ha
    have hnc : f.nbComp = nbPixels a.comps := by
      rw [h.size.wf.comps name f hf, hs.comps, nbPixels_eq_getSize]
    unfold register Dict.field
    simp only [hf, ha]
    cases new with
    | true => exact ⟨rfl, h, rfl⟩
    | false =>
      simp only [Bool.not_false, if_true, Bool.false_eq_true, if_false, hs.ty, hs.tag, hs.unit, hnc, hs.comps]
      by_cases h1 : a.ty = ty
      · simp only [h1, ne_eq, not_true_eq_false, if_false]
        cases comps with
        | num n =>
          by_cases h2 : nbPixels a.comps = n
          · by_cases h3 : a.tag = tag
            · by_cases h4 : a.unit = unit <;> simp [Dict.Describes, h2, h3, h4, quiet, h]
            · simp [Dict.Describes, h2, h3, quiet, h]
          · simp [Dict.Describes, h2, quiet, h]
        | shape s =>
          by_cases h2 : a.comps = s
          · by_cases h3 : a.tag = tag
            · by_cases h4 : a.unit = unit <;> simp [Dict.Describes, h2, h3, h4, quiet, h]
            · simp [Dict.Describes, h2, h3, quiet, h]
          · simp [Dict.Describes, h2, quiet, h]
      · simp [h1, quiet, h]
  | none =>
    have ha := (h.names name).1 hf
    have hfr := (c.register_frame name ty comps tag unit (!new)).1
    obtain ⟨r1, r2⟩ := register_known (name := name) (ty := ty) (unit := unit) (allow := !new) (tag := tag)
      h.size h.init hf hc
    simp only [Dict.field, ha]
    cases ht : d.tags tag with
    | none =>
      have hu : (c.getSub tag).1 = Unknown := by
        rw [getSub_fst]
        cases hk : c.subPts.find tag with
        | none => rfl
        | some k =>
          refine Classical.byContradiction fun hne => ?_
          rw [(h.tags tag k).2 ⟨hk, hne⟩] at ht
          cases ht
      rw [r1 hu]
      exact ⟨rfl, h.getSub tag, (c.getSub_frame tag).1⟩
    | some n =>
      obtain ⟨t1, t2⟩ := (h.tags tag n).1 ht
      have hgn : (c.getSub tag).1 = n := by rw [getSub_fst, t1]; rfl
      have hok := r2 (by rw [hgn]; exact t2)
      rcases c.register_cases name ty comps tag unit (!new) with ⟨g, h1, _⟩ | ⟨_, f, ⟨g1, g2, g3, g4, g5, g6, g7⟩, h2, _, h4⟩ |
        ⟨_, _, ⟨e, h3⟩, _⟩
      · rw [hf] at h1; cases h1
      · have hd := h.getSub tag
        have hsz := h.size.register name ty comps tag unit (!new) hc
        obtain ⟨z1, z2, z3, z4, z5⟩ := h4 h.init
        rw [h2] at hfr hsz ⊢
        refine ⟨rfl, ?_, hfr⟩
        have hlay : ({ (c.getSub tag).2 with fields := c.fields.insert name f } : Coll α U).layout =
          c.layout := by funext k; exact layout_of_base hfr k
        obtain ⟨f1, f2, f3, f4, f5⟩ := h.frame hfr
        refine ⟨hsz, f1, by rw [f2]; exact h.order, by rw [f3]; exact h.grid, h.pos, h.ne,
          by rw [f4, f5]; exact h.addr, hd.tags, ?_, ?_⟩
        · intro m
          simp only [SMap.find_insert, Dict.put]
          by_cases e : m = name
          · simp [e]
          · simp only [e, if_false]; exact h.names m
        · intro m g b hg hb
          simp only [SMap.find_insert, Dict.put] at hg hb
          by_cases e : m = name
          · simp only [e, if_true, Option.some.injEq] at hg hb
            subst hg; subst hb
            refine ⟨g1, g2, hp, by rw [g4, hgn], g5, g6, ?_⟩
            intro ms hms y hy
            rw [hlay] at hms
            have hpix : Addressing (c.layout f).pixShape (c.layout f).pixStrides c.nbBuf := by
              have := h.addr; rw [← h.grid] at this; exact this
            obtain ⟨ms', k1, k2, k3, -⟩ := C18_sub_pt_strides (c.layout f) h.order hpix
            rw [hms] at k1; cases k1
            have hbx : InBox ((c.layout f).shape .subPt) y := by
              rw [k2, show (c.layout f).comps = comps.toShape from g2, show (c.layout f).nbSub = n by rw [← hgn]; exact g4,
                show (c.layout f).pixShape = d.grid from h.grid]
              exact hy
            have hb := k3.bounds y hbx
            have hnc : (c.layout f).nbComp = f.nbComp := by
              rw [g3, toNb_eq, ← g2]; rfl
            have hlen : ((c.layout f).nbComp * (c.layout f).nbSub * (c.layout f).nbBuf) = f.vals.length := by
              rw [z4, hnc]; simp only [Coll.layout]; ring
            have hlt : (dot ms y).toNat < f.vals.length := by omega
            rw [List.getElem?_eq_getElem hlt, z5 _ (List.getElem_mem hlt)]
          · simp only [e, if_false] at hg hb
            obtain ⟨k1, k2, k3, k4, k5, k6, k7⟩ := h.disp m g b hg hb
            exact ⟨k1, k2, k3, k4, k5, k6, by rw [hlay]; exact k7⟩
      · rw [hok] at h3; cases h3

theorem Displays.setNbSubPts {c : Coll α U} {d : Dict α U} (h : Displays c d) (tag : String) (n : Int) :
    (quiet (c.setNbSubPts tag n)).1 = (d.setNbSubPts tag n).1 ∧
    Displays (c.setNbSubPts tag n).2 (d.setNbSubPts tag n).2 ∧ (c.setNbSubPts tag n).2.base = c.base := by
  have hkn : (d.tags tag).isSome ∧ d.tags tag ≠ some n ↔ ∃ k, c.subPts.find tag = some k ∧ k ≠ Unknown ∧ k ≠ n := by
    constructor
    · rintro ⟨h1, h2⟩
      obtain ⟨k, hk⟩ := Option.isSome_iff_exists.1 h1
      obtain ⟨k1, k2⟩ := (h.tags tag k).1 hk
      exact ⟨k, k1, k2, fun e => h2 (by rw [hk, e])⟩
    · rintro ⟨k, k1, k2, k3⟩
      have := (h.tags tag k).2 ⟨k1, k2⟩
      rw [this]
      exact ⟨rfl, fun e => k3 (Option.some.inj e)⟩
  have hst := h.size.step (srt := stableSort) (.setNbSubPts tag n) trivial
  simp only [Coll.step] at hst
  unfold Dict.setNbSubPts
  rcases c.setNbSubPts_cases tag n with ⟨h1, h2⟩ | ⟨h1, h2, h3⟩
  · rw [h1, if_pos (by rw [hkn]; exact h2)]
    exact ⟨rfl, h, rfl⟩
  · rw [if_neg]
    · rw [h3] at hst ⊢
      refine ⟨rfl, ?_, rfl⟩
      have hkeep : ∀ m g, c.fields.find m = some g → g.setSub tag n = g := by
        intro m g hg
        unfold Field.setSub
        split
        · rename_i e
          have ht := h.size.wf.tags m g hg
          rw [e] at ht
          rcases h2 _ ht with h4 | h4
          · exact absurd h4 (h.size.size h.init m g hg).1
          · rw [← h4]
        · rfl
      have hfind : ∀ m, SMap.find (c.fields.map (fun e => (e.1, e.2.setSub tag n))) m = c.fields.find m := by
        intro m
        rw [SMap.find_map c.fields (fun g => g.setSub tag n)]
        cases hg : c.fields.find m with
        | none => rfl
        | some g => simp only [Option.map_some, hkeep m g hg]
      refine ⟨hst (by simp), h.init, h.order, h.grid, h.pos, h.ne, h.addr, ?_, ?_, ?_⟩
      · intro t k
        simp only [SMap.find_insert]
        by_cases e : t = tag
        · simp only [e, if_true, Option.some.injEq]
          constructor
          · rintro rfl; exact ⟨rfl, by simp only [Unknown]; omega⟩
          · exact fun h => h.1
        · simp only [e, if_false]; exact h.tags t k
      · intro m; simp only [hfind]; exact h.names m
      · intro m g b hg hb
        simp only [hfind] at hg
        obtain ⟨k1, k2, k3, k4, k5, k6, k7⟩ := h.disp m g b hg hb
        exact ⟨k1, k2, k3, k4, k5, k6, k7⟩
    · rw [hkn]
      rintro (h4 | ⟨k, k1, k2, k3⟩)
      · omega
      · rcases h2 k k1 with e | e
        · exact k2 e
        · exact k3 e

theorem Displays.setZero {c : Coll α U} {d : Dict α U} (h : Displays c d) (name : String) :
    (quiet (c.onField name Field.setZero)).1 = (d.setZero name).1 ∧
    Displays (c.onField name Field.setZero).2 (d.setZero name).2 ∧ (c.onField name Field.setZero).2.base = c.base := by
  unfold onField Dict.setZero
  cases hf : c.fields.find name with
  | none => simp only [(h.names name).1 hf]; exact ⟨rfl, h, trivial⟩
  | some f =>
    obtain ⟨a, ha⟩ := h.arr hf
    simp only [ha]
    refine ⟨rfl, h.put hf ha _ (by simp) _ ?_, rfl⟩
    intro ms hms y hy
    have := (h.disp name f a hf ha).vals ms hms y hy
    have hlt := (List.getElem?_eq_some_iff.1 this).1
    rw [List.getElem?_replicate, if_pos hlt]

/-- What is asked of a call: positive component numbers; arrays with non-negative strides that are multiples of
the element size, with memory for their elements; `f.p` as in `PixelUse`. -/
def CallOk (order : StorageOrder) (d : Dict α U) : PyCall α U → Prop
  | .field _ _ comps _ _ _ => Pos comps.toShape
  | .assign name it a inp => PixelUse order d name it ∧ Plain a ∧ ∀ x, InBox a.shape x → (inp (dot a.strides x)).isSome
  | .setItem name it _ _ => PixelUse order d name it
  | .getItem name it _ => PixelUse order d name it
  | _ => True

/-- What is asked of a program. -/
def ProgramOk (order : StorageOrder) : Dict α U → List (PyCall α U) → Prop
  | _, [] => True
  | d, op :: ops => CallOk order d op ∧ ProgramOk order (d.call op).2 ops

/-- **C80** One call: what it returns or throws, and what it leaves behind, is what it would be with a dictionary
of arrays. -/
theorem C80_call_partial {srt : SortFn} (hsrt : SortSpec srt) {size : ElemType → Int} (hz : ∀ ty, 0 < size ty)
    {c : Coll α U} {d : Dict α U} (h : Displays c d) (op : PyCall α U) (hop : CallOk c.order d op) :
    (call srt size c op).1 = (d.call op).1 ∧ Displays (call srt size c op).2 (d.call op).2 ∧
      (call srt size c op).2.order = c.order := by
  have hord : ∀ {c' : Coll α U}, c'.base = c.base → c'.order = c.order := fun hb => (h.frame hb).2.1
  cases op with
  | field name ty comps tag unit new =>
    obtain ⟨h1, h2, h3⟩ := h.field name ty comps tag unit new hop
    exact ⟨h1, h2, hord h3⟩
  | setNbSubPts tag n =>
    obtain ⟨h1, h2, h3⟩ := h.setNbSubPts tag n
    exact ⟨h1, h2, hord h3⟩
  | assign name it a inp =>
    obtain ⟨h1, h2, h3⟩ := h.assign hsrt name it hop.1 a inp hop.2.1 hop.2.2
    exact ⟨h1, h2, hord h3⟩
  | setItem name it idx v =>
    obtain ⟨h1, h2, h3⟩ := h.setItem hz name it hop idx v
    exact ⟨h1, h2, hord h3⟩
  | getItem name it idx => exact ⟨h.getItem hz name it hop idx, h, rfl⟩
  | setZero name =>
    obtain ⟨h1, h2, h3⟩ := h.setZero name
    exact ⟨h1, h2, hord h3⟩
  | «exists» name =>
    refine ⟨?_, h, rfl⟩
    show Res.ok (Out.truth (c.fields.find name).isSome) = Res.ok (Out.truth (d.arrs name).isSome)
    cases hf : c.fields.find name with
    | none => rw [(h.names name).1 hf]; rfl
    | some f => obtain ⟨a, ha⟩ := h.arr hf; rw [ha]; rfl

theorem Dict.call_ne_ub (d : Dict α U) (op : PyCall α U) : (d.call op).1 ≠ .ub := by
  cases op <;> simp only [Dict.call, Dict.field, Dict.setNbSubPts, Dict.assign, Dict.setItem, Dict.getItem, Dict.setZero] <;>
    repeat' split
  all_goals simp

/-- **C80** A python program with a field collection behaves as with a dictionary of numpy arrays: every call
returns the same values and throws the same exceptions, for programs of any length. -/
theorem C80_program_partial {srt : SortFn} (hsrt : SortSpec srt) {size : ElemType → Int} (hz : ∀ ty, 0 < size ty)
    (ops : List (PyCall α U)) {c : Coll α U} {d : Dict α U} (h : Displays c d) (hop : ProgramOk c.order d ops) :
    (PySession.run srt size c ops).1 = (d.run ops).1 ∧ Displays (PySession.run srt size c ops).2 (d.run ops).2 := by
  induction ops generalizing c d with
  | nil => exact ⟨rfl, h⟩
  | cons op ops ih =>
    obtain ⟨h1, h2, h3⟩ := C80_call_partial hsrt hz h op hop.1
    obtain ⟨k1, k2⟩ := ih h2 (by rw [h3]; exact hop.2)
    have hub := Dict.call_ne_ub d op
    rw [← h1] at hub
    have hrun : PySession.run srt size c (op :: ops) =
        ((call srt size c op).1 :: (PySession.run srt size (call srt size c op).2 ops).1,
          (PySession.run srt size (call srt size c op).2 ops).2) := by
      rw [PySession.run]
      split
      · rename_i e; rw [e] at hub; exact absurd rfl hub
      · rename_i e; rw [e]
    rw [hrun]
    simp only [Dict.run]
    exact ⟨by rw [h1, k1], k2⟩

theorem nested_order {order : StorageOrder} {nb : List Int} (hp : Pos nb) :
    NestedStrides nb (if order = .colMajor then colMajorStrides nb else rowMajorStrides nb) := by
  have hid : ∀ l : List Int, pick (List.range l.length) l = l := fun l => pick_range l
  split
  · refine ⟨colMajorStrides_length nb, (List.range nb.length).reverse, List.reverse_perm _, ?_⟩
    have h1 : pick (List.range nb.length).reverse nb = nb.reverse := by
      rw [show pick (List.range nb.length).reverse nb = (pick (List.range nb.length) nb).reverse from
        List.map_reverse, hid]
    have h2 : pick (List.range nb.length).reverse (colMajorStrides nb) = (colMajorStrides nb).reverse := by
      rw [show pick (List.range nb.length).reverse (colMajorStrides nb) =
        (pick (List.range nb.length) (colMajorStrides nb)).reverse from List.map_reverse,
        ← colMajorStrides_length nb, hid]
    rw [h1, h2]
    exact (dense_colMajor hp).sd
  · refine ⟨rowMajorStrides_length nb, List.range nb.length, List.Perm.refl _, ?_⟩
    rw [hid, ← rowMajorStrides_length nb, hid]
    exact (dense_rowMajor hp).sd

/-- **C80** The python constructor of global collections, for every grid of one to three dimensions with positive
extents, both storage orders and any numbers of sub-points: the collection is made, and it shows no array. -/
theorem C80_start {srt : SortFn} (hsrt : SortSpec srt) {dom sub loc : List Int} {subPts : SMap String Int}
    {order : StorageOrder} (hs : subPts.Sorted) (hv : ∀ tag n, subPts.find tag = some n → 1 ≤ n)
    (hpix : subPts.find "pixel" = none ∨ subPts.find "pixel" = some 1)
    (ho : order = .colMajor ∨ order = .rowMajor) (hdom : Pos dom) (hp : Pos (subdomainOr dom sub))
    (hd : (subdomainOr dom sub).length = 1 ∨ (subdomainOr dom sub).length = 2 ∨ (subdomainOr dom sub).length = 3)
    (hl : loc.length = 0 ∨ loc.length = (subdomainOr dom sub).length) :
    ∃ c : Coll α U, newGlobal srt dom sub loc subPts order = .ok c ∧
      Displays c (Dict.start (subdomainOr dom sub) subPts) ∧ c.order = order := by
  obtain ⟨c0, hc0⟩ : ∃ c0 : Coll α U, Coll.mk' true dom.length order subPts = .ok c0 := by
    unfold mk'
    rcases (Coll.empty true dom.length order subPts : Coll α U).setNbSubPts_cases pixelTag 1 with
      ⟨_, h | ⟨k, hk, hk1, hk2⟩⟩ | ⟨_, _, h⟩
    · omega
    · rw [show (Coll.empty true dom.length order subPts : Coll α U).subPts.find pixelTag = subPts.find "pixel" from rfl] at hk
      rcases hpix with e | e
      · rw [e] at hk; cases hk
      · rw [e] at hk; cases hk; exact absurd rfl hk2
    · rw [h]; exact ⟨_, rfl⟩
  have hsz := mk'_sizeInv hs (fun t n h => Or.inr (hv t n h)) hc0
  have he := (mk'_spec hc0).2
  generalize hsub : subdomainOr dom sub = grid at *
  have hsub' : subdomainOr dom grid = grid := by
    have : grid.length ≠ 0 := by omega
    simp [subdomainOr, this]
  have hstr : (if order = .colMajor then dynColMajorStrides grid else dynRowMajorStrides grid) =
      .ok (if order = .colMajor then colMajorStrides grid else rowMajorStrides grid) := by
    unfold dynColMajorStrides dynRowMajorStrides
    split <;> rcases hd with h | h | h <;> simp [h]
  have hnest := nested_order (order := order) hp
  generalize hst : (if order = .colMajor then colMajorStrides grid else rowMajorStrides grid) = strides at *
  have hne : grid ≠ [] := by rintro rfl; simp at hd
  obtain ⟨nb, hbuf, haddr⟩ := C18_global_pixels hnest hne
  have hfl : (DynamicPixels.fillLoc grid loc).length = grid.length := by
    unfold DynamicPixels.fillLoc
    split
    · simp
    · rcases hl with e | e
      · contradiction
      · exact e
  obtain ⟨b, hpx, _⟩ := DynamicPixels.mkStrided_spec hsrt (loc := loc) hp hnest.1 hfl
  generalize hpxe : (⟨grid, DynamicPixels.fillLoc grid loc, strides, srt (axesLt grid strides) (List.range grid.length), b⟩ :
    DynamicPixels) = px at hpx
  have hauto : c0.order = order := by rw [he]; rfl
  have hsize : 0 < getSize dom := by rw [getSize_eq_prod]; exact prod_pos_of_pos hdom
  have hsizeg : 0 < getSize grid := by rw [getSize_eq_prod]; exact prod_pos_of_pos hp
  have hinit : c0.initGlobalOrder srt dom sub loc .automatic = (.ok (), { c0 with
      domainPts := dom, pixels := px, nbPixels := getSize grid, nbBuf := nb,
      pixelIndices := (List.range (getSize grid).toNat).map (fun i : Nat => (i : Int)), initialised := true }) := by
    unfold initGlobalOrder
    simp only [if_true, hauto, hsub, hstr]
    unfold initGlobal
    rw [if_neg (show ¬ getSize dom ≤ 0 by omega)]
    simp only [hsub', hpx, hbuf]
    rw [if_neg (show ¬ getSize grid < 0 by omega), he]
    simp [allocateFields, allocate, Coll.empty]
  refine ⟨_, by unfold newGlobal; rw [hc0]; simp only [hinit]; rfl, ?_, by rw [he]; rfl⟩
  have hg : c0.global = true := by rw [he]; rfl
  have hstep := hsz.step (srt := srt) (.initGlobalOrder dom sub loc .automatic) trivial
    (by simp only [Coll.step, hg, if_true, hinit]; simp)
  rw [show c0.step srt (.initGlobalOrder dom sub loc .automatic) = c0.initGlobalOrder srt dom sub loc .automatic by
    simp only [Coll.step, hg, if_true], hinit] at hstep
  refine ⟨hstep, rfl, ?_, ?_, hp, hne, ?_, ?_, ?_, ?_⟩
  · rw [he]; exact ho
  · simp only [pixShapeOf, hg, if_true, ← hpxe]; rfl
  · simp only [pixStridesOf, hg, if_true, ← hpxe]; exact haddr
  · intro t n
    rw [he]
    simp only [Dict.start, Coll.empty, SMap.find_insert, pixelTag]
    by_cases e : t = "pixel"
    · simp only [e, if_true, Option.some.injEq]
      constructor
      · rintro rfl; exact ⟨rfl, by decide⟩
      · exact fun h => h.1
    · simp only [e, if_false]
      constructor
      · intro h; have := hv t n h; exact ⟨h, by simp only [Unknown]; omega⟩
      · exact fun h => h.1
  · intro name
    rw [he]
    exact ⟨fun _ => rfl, fun _ => rfl⟩
  · intro name f a hf
    rw [he] at hf
    cases hf

/-- **C80** Every initialised collection (global with any strides that give the pixels their own places, or local
with a pixel) whose fields have positive component numbers shows some dictionary of arrays, so that programs may
start from there. -/
theorem C80_shows {srt : SortFn} {c : Coll α U} (hb : Built srt c) (hi : c.initialised = true)
    (ho : c.order = .colMajor ∨ c.order = .rowMajor)
    (hg : c.global = true → NestedStrides c.pixels.nb c.pixels.strides ∧ c.pixels.nb ≠ [])
    (hl : c.global = false → 1 ≤ c.nbPixels)
    (hc : ∀ name f, c.fields.find name = some f → Pos f.shape) :
    ∃ d, Displays c d := by
  have hsz := hb.size
  have hpix : Pos (pixShapeOf c) ∧ pixShapeOf c ≠ [] ∧ Addressing (pixShapeOf c) (pixStridesOf c) c.nbBuf := by
    cases e : c.global with
    | true =>
      obtain ⟨h1, h2⟩ := hg e
      obtain ⟨_, _, _, _, h5, _⟩ := hb.pix.glob e hi
      obtain ⟨m, h6, h7⟩ := C18_global_pixels h1 h2
      rw [h5] at h6; cases h6
      simp only [pixShapeOf, pixStridesOf, e, if_true]
      exact ⟨fun n hn => by
        obtain ⟨_, o, hperm, hsd⟩ := h1
        have hm : n ∈ pick o c.pixels.nb := by
          have := (hperm.map (fun k => c.pixels.nb.getD k 0)).symm.subset
            (show n ∈ (List.range c.pixels.nb.length).map (fun k => c.pixels.nb.getD k 0) by
              have := pick_range c.pixels.nb
              rw [← this] at hn; exact hn)
          exact this
        exact hsd.pos n hm, h2, h7⟩
    | false =>
      obtain ⟨h1, h2⟩ := hb.pix.loc e hi
      have hn := hl e
      simp only [pixShapeOf, pixStridesOf, e, Bool.false_eq_true, if_false]
      refine ⟨fun n h => ?_, by simp, ?_⟩
      · simp only [List.mem_singleton] at h; omega
      · rw [h2, ← h1]; exact (C18_local_pixels c.nbPixels).1
  obtain ⟨p1, p2, p3⟩ := hpix
  let ms : Field α U → List Int := fun f => match (c.layout f).strides .subPt 1 with | .ok m => m | _ => []
  refine ⟨⟨pixShapeOf c, fun t => match c.subPts.find t with | some n => if n = Unknown then none else some n | none => none,
    fun name => (c.fields.find name).map fun f =>
      ⟨f.ty, f.shape, f.tag, f.nbSub, f.unit, fun y => (f.vals[(dot (ms f) y).toNat]?).getD default⟩⟩,
    hsz, hi, ho, rfl, p1, p2, p3, ?_, ?_, ?_⟩
  · intro t n
    dsimp only
    cases c.subPts.find t with
    | none => simp
    | some k =>
      by_cases e : k = Unknown
      · simp only [e, if_true, Option.some.injEq, reduceCtorEq, false_iff]
        rintro ⟨h1, h2⟩; exact h2 h1.symm
      · simp only [e, if_false, Option.some.injEq]
        exact ⟨fun h => ⟨h, h ▸ e⟩, fun h => h.1⟩
  · intro name; simp
  · intro name f a hf ha
    simp only [hf, Option.map_some, Option.some.injEq] at ha
    subst ha
    refine ⟨rfl, rfl, hc name f hf, rfl, rfl, rfl, ?_⟩
    intro m hm y hy
    have hms : ms f = m := by simp only [ms, hm]
    obtain ⟨m', k1, k2, k3, -⟩ := C18_sub_pt_strides (c.layout f) ho p3
    rw [hm] at k1; cases k1
    have hbx := k3.bounds y (by rw [k2]; exact hy)
    obtain ⟨s1, s2, s3⟩ := hsz.size hi name f hf
    have hnc : (c.layout f).nbComp = f.nbComp := (hsz.wf.comps name f hf).symm
    have hlen : (c.layout f).nbComp * (c.layout f).nbSub * (c.layout f).nbBuf + f.pad = f.vals.length := by
      rw [s2, hnc]; rfl
    have hlt : (dot m y).toNat < f.vals.length := by omega
    simp only [hms, List.getElem?_eq_getElem hlt, Option.getD_some]

theorem Dict.shape_box {c : Coll α U} {d : Dict α U} (h : Displays c d) {name : String} {a : Arr α U}
    (ha : d.arrs name = some a) {it : IterUnit} {sh : List Int} (hsh : a.shape d.grid it = some sh) :
    (∀ z, InBox sh z → InBox (a.comps ++ a.nb :: d.grid) (a.ofView it z) ∧ a.toView it (a.ofView it z) = z) ∧
    (∀ y, InBox (a.comps ++ a.nb :: d.grid) y → InBox sh (a.toView it y) ∧ a.ofView it (a.toView it y) = y) := by
  have hpc : Pos a.comps := by
    cases hf : c.fields.find name with
    | none => rw [(h.names name).1 hf] at ha; cases ha
    | some f => exact (h.disp name f a hf ha).pos
  cases it with
  | subPt =>
    simp only [Arr.shape, Option.some.injEq] at hsh
    subst hsh
    exact ⟨fun z hz => ⟨hz, rfl⟩, fun y hy => ⟨hy, rfl⟩⟩
  | pixel =>
    simp only [Arr.shape] at hsh
    split at hsh
    · cases hsh
    · rename_i hno
      cases hsh
      have h1 : a.comps = [] → a.nb = 1 := fun e => Classical.byContradiction fun hn => hno ⟨e, hn⟩
      exact ⟨fun z hz => fromP_box hpc h1 hz, fun y hy => toP_box hpc h1 hy⟩

/-- **C80** What is stored through one handle is read through another one: after `f.s[idx] = v` (or `f.p`), `g.s[idx]`
shows `v` only, also if `g` has been asked for again, with any grid, components and storage order. -/
theorem C80_store_load {srt : SortFn} (hsrt : SortSpec srt) {size : ElemType → Int} (hz : ∀ ty, 0 < size ty)
    {c : Coll α U} {d : Dict α U} (h : Displays c d) {name : String} {a : Arr α U} (ha : d.arrs name = some a)
    {it : IterUnit} (hit : PixelUse c.order d name it) {sh : List Int} (hsh : a.shape d.grid it = some sh)
    {idx i : List Int} (hidx : npIndex sh idx = some i) (v : α) :
    (PySession.run srt size c [.setItem name it idx v, .field name a.ty (.shape a.comps) a.tag a.unit false,
      .getItem name it idx]).1 =
        [.ok .nothing, .ok .nothing, .ok (.values (List.replicate (npAll (sh.drop i.length)).length v))] := by
  have hpc : Pos a.comps := by
    cases hf : c.fields.find name with
    | none => rw [(h.names name).1 hf] at ha; cases ha
    | some f => exact (h.disp name f a hf ha).pos
  obtain ⟨hv1, hv2⟩ := Dict.shape_box h ha hsh
  have hsh' : ∀ val, ({ a with val := val } : Arr α U).shape d.grid it = some sh := by
    intro val; cases it <;> exact hsh
  rw [(C80_program_partial hsrt hz
    [.setItem name it idx v, .field name a.ty (.shape a.comps) a.tag a.unit false, .getItem name it idx] h ⟨hit, hpc, by
    intro e
    refine (hit e).imp id fun h1 b hb => ?_
    simp only [Dict.call, Dict.setItem, ha, hsh, hidx, Dict.put, Dict.field, if_true, Bool.false_eq_true, if_false,
      ne_eq, not_true_eq_false, Dict.Describes, and_self, Option.some.injEq] at hb
    rw [← hb]
    exact h1 a ha, trivial⟩).1]
  simp only [Dict.run, Dict.call, Dict.setItem, ha, hsh, hidx, Dict.put, Dict.field, if_true, Bool.false_eq_true, if_false,
    ne_eq, not_true_eq_false, Dict.Describes, and_self, Dict.getItem, hsh']
  congr 5
  rw [List.eq_replicate_iff]
  refine ⟨by simp, ?_⟩
  intro b hb
  obtain ⟨r, hr, rfl⟩ := List.mem_map.1 hb
  have hbox : InBox sh (i ++ r) := ((npIndex_box hidx).2 r).2 (mem_npAll.1 hr)
  have := (hv1 _ hbox).2
  have hpre : i <+: a.toView it (a.ofView it (i ++ r)) := by rw [this]; exact ⟨r, rfl⟩
  rw [if_pos]
  cases it <;> exact hpre

/-- **C80** What an index of numpy denotes, on every axis it names: the element with this number, or, for a
negative number, the element with this distance from the end.  Everything else is an `IndexError`. -/
theorem C80_index {shape idx i : List Int} :
    npIndex shape idx = some i ↔ i.length = idx.length ∧ ∀ (k : Nat) (a : Int), idx[k]? = some a →
      ∃ n j : Int, shape[k]? = some n ∧ i[k]? = some j ∧ 0 ≤ j ∧ j < n ∧ (a = j ∨ a = j - n) := by
  induction idx generalizing shape i with
  | nil => simp only [npIndex]; constructor
           · intro h; simp at h; subst h; simp
           · intro h; have := List.length_eq_zero_iff.1 h.1; rw [this]
  | cons a idx ih =>
    cases shape with
    | nil =>
      simp only [npIndex]
      refine ⟨(fun h => nomatch h), fun h => ?_⟩
      obtain ⟨n, j, h1, _⟩ := h.2 0 a rfl
      simp at h1
    | cons n shape =>
      have ha : ∀ j, npAxis n a = some j ↔ 0 ≤ j ∧ j < n ∧ (a = j ∨ a = j - n) := by
        intro j
        unfold npAxis
        constructor
        · intro h; split at h
          · simp at h; omega
          · split at h
            · simp at h; omega
            · simp at h
        · rintro ⟨h1, h2, rfl | rfl⟩
          · rw [if_pos ⟨h1, h2⟩]
          · rw [if_neg (show ¬ (0 ≤ j - n ∧ j - n < n) by omega),
              if_pos (show -n ≤ j - n ∧ j - n < 0 by omega)]
            simp
      constructor
      · intro h
        simp only [npIndex] at h
        split at h
        · rename_i j js h1 h2
          simp at h
          subst h
          have := ih.1 h2
          refine ⟨by simp [this.1], ?_⟩
          intro k b hk
          cases k with
          | zero => simp at hk; subst hk; exact ⟨n, j, rfl, rfl, (ha j).1 h1⟩
          | succ k => simpa using this.2 k b (by simpa using hk)
        · simp at h
      · rintro ⟨hl, h⟩
        cases i with
        | nil => simp at hl
        | cons j js =>
          obtain ⟨n', j', h1, h2, h3⟩ := h 0 a rfl
          simp at h1 h2
          subst h1 h2
          have hjs := (ih (shape := shape) (i := js)).2 ⟨by simpa using hl, fun k b hk => by
            simpa using h (k + 1) b (by simpa using hk)⟩
          simp only [npIndex, (ha j).2 h3, hjs]

example : npIndex [2, 3, 4] [-2, -1] = some [0, 2] ∧ npIndex [2, 3, 4] [-3] = none ∧
    npIndex [2, 3, 4] [1, 3] = none := by decide

/-- **C80** `f.p` and `f.s` show the same values: what is stored at an index of `f.p` is read at the corresponding index
of `f.s` (the sub-points counted with the last component), and at no other one. -/
theorem C80_pixel_sub_pt {srt : SortFn} (hsrt : SortSpec srt) {size : ElemType → Int} (hz : ∀ ty, 0 < size ty)
    {c : Coll α U} {d : Dict α U} (h : Displays c d) {name : String} (ho : PixelUse c.order d name .pixel) {a : Arr α U}
    (ha : d.arrs name = some a) (hsh : a.comps = [] → a.nb = 1) {y y' : List Int}
    (hy : InBox (a.comps ++ a.nb :: d.grid) y) (hy' : InBox (a.comps ++ a.nb :: d.grid) y') (v : α) :
    (PySession.run srt size c [.setItem name .pixel (toP a.comps y) v, .getItem name .subPt y']).1 =
      [.ok .nothing, .ok (.values [if y' = y then v else a.val y'])] := by
  have hs : a.shape d.grid .pixel = some (shapeP a.comps a.nb d.grid) := by
    simp only [Arr.shape]; rw [if_neg]; rintro ⟨h1, h2⟩; exact h2 (hsh h1)
  obtain ⟨hv1, hv2⟩ := Dict.shape_box h ha hs
  obtain ⟨b1, b2⟩ := hv2 y hy
  obtain ⟨b3, b4⟩ := hv2 y' hy'
  rw [(C80_program_partial hsrt hz
    [.setItem name .pixel (toP a.comps y) v, .getItem name .subPt y'] h ⟨ho, fun e => (by cases e), trivial⟩).1]
  have n1 := npIndex_self b1
  have n2 := npIndex_self hy'
  simp only [Arr.toView] at n1 b1 b2 b3 b4
  have hs2 : ∀ val, ({ a with val := val } : Arr α U).shape d.grid .subPt = some (a.comps ++ a.nb :: d.grid) :=
    fun _ => rfl
  simp only [Dict.run, Dict.call, Dict.setItem, ha, hs, n1, Dict.put, if_true, Dict.getItem, hs2, n2]
  have hd : (a.comps ++ a.nb :: d.grid).drop y'.length = [] := by
    rw [hy'.length_eq]; simp
  rw [hd]
  simp only [npAll, List.map_cons, List.map_nil, List.append_nil, Arr.ofView, Arr.toView]
  congr 5
  have : toP a.comps y <+: toP a.comps y' ↔ y' = y := by
    constructor
    · intro hpre
      have := hpre.eq_of_length (by rw [b1.length_eq, b3.length_eq])
      rw [← b2, ← b4]
      exact congrArg (fromP a.comps) this.symm
    · rintro rfl; exact List.prefix_rfl
  by_cases e : y' = y
  · rw [if_pos (this.2 e), if_pos e]
  · rw [if_neg (fun h => e (this.1 h)), if_neg e]

/-- A 3 × 2 grid with two sub-points called `q`, in either storage order. -/
def exFc (order : StorageOrder) : Coll Int String :=
  match (newGlobal stableSort [3, 2] [] [] [("q", 2)] order : Res (Coll Int String)) with
  | .ok c => c
  | _ => exColl

/-- The example `field_collection.py` and `sub_points.py` in one: fields, stores and loads through both views, calls
that are refused. -/
def exSession : List (PyCall Int String) :=
  [.field "strain" .real (.shape [2]) "q" "" false, .setItem "strain" .subPt [] 3, .setItem "strain" .pixel [2] 7,
    .setItem "strain" .pixel [1, -1, 1] 5, .field "strain" .real (.num 2) "q" "" false, .getItem "strain" .subPt [0],
    .getItem "strain" .pixel [1, -1], .getItem "strain" .pixel [4], .field "strain" .real (.num 3) "q" "" false,
    .field "t" .real (.shape []) "nowhere" "" true, .setNbSubPts "q" 3, .setZero "strain", .exists "t",
    .getItem "strain" .subPt [1, 1, 2]]

/-- What the calls of the example return. -/
def exReturned : List (Res (Out Int)) :=
  [.ok .nothing, .ok .nothing, .ok .nothing, .ok .nothing, .ok .nothing,
    .ok (.values [3, 3, 3, 3, 3, 3, 7, 7, 7, 7, 7, 7]), .ok (.values [3, 5]), .throw .outOfRange,
    .throw .fieldCollectionError, .throw .fieldError, .throw .fieldCollectionError, .ok .nothing, .ok (.truth false),
    .ok (.values [0, 0])]

theorem exFc_new (order : StorageOrder) (ho : order = .colMajor ∨ order = .rowMajor) :
    (newGlobal stableSort [3, 2] [] [] [("q", 2)] order : Res (Coll Int String)) = .ok (exFc order) ∧
      Displays (exFc order) (Dict.start [3, 2] [("q", 2)]) ∧ (exFc order).order = order := by
  have hv : ∀ tag n, SMap.find [("q", (2 : Int))] tag = some n → 1 ≤ n := by
    intro tag n h
    simp only [SMap.find] at h
    split at h
    · cases h; decide
    · cases h
  obtain ⟨c, h1, h2, h3⟩ := C80_start (α := Int) (U := String) stableSort_spec (dom := [3, 2]) (sub := []) (loc := [])
    (subPts := [("q", 2)]) (order := order) (by simp [SMap.Sorted]) hv (Or.inl (by decide)) ho (by decide) (by decide)
    (Or.inr (Or.inl rfl)) (Or.inl rfl)
  have : exFc order = c := by unfold exFc; rw [h1]
  rw [this]
  exact ⟨h1, h2, h3⟩

example : (PySession.run stableSort (fun _ => 8) (exFc .colMajor) exSession).1 = exReturned ∧
    ((Dict.start [3, 2] [("q", 2)]).run exSession).1 = exReturned := by decide +kernel

example : ProgramOk .colMajor (Dict.start [3, 2] [("q", 2)]) exSession := by
  refine ⟨?_, ?_, ?_, ?_, ?_, ?_, ?_, ?_, ?_, ?_, ?_, ?_, ?_, ?_, trivial⟩
  all_goals first | exact trivial | exact fun _ => Or.inl rfl | (simp only [CallOk]; decide)

/-- **C80** in full: also for `f.p` of fields with several sub-points in row-major collections. -/
def C80_statement : Prop :=
  ∀ (order : StorageOrder) (ops : List (PyCall Int String)), order = .colMajor ∨ order = .rowMajor →
    (∀ op ∈ ops, match op with
      | .field _ _ comps _ _ _ => Pos comps.toShape
      | .assign _ _ _ _ => False
      | _ => True) →
    (PySession.run stableSort (fun _ => 8) (exFc order) ops).1 = ((Dict.start [3, 2] [("q", 2)]).run ops).1

/-- **C80** is false of the code: in a row-major collection `f.p` counts the sub-points before the components, so that the
same python program gives other results than in a column-major one. -/
theorem C80_false : ¬ C80_statement := by
  intro h
  have h1 := h .rowMajor [.field "strain" .real (.shape [2]) "q" "" false, .setItem "strain" .pixel [1] 7,
    .getItem "strain" .subPt [0, 1]] (Or.inr rfl) (by simp [Pos, Comps.toShape])
  revert h1
  decide +kernel

/-- **C80** With two component axes the row-major `f.p` is not even an array of the field's elements: two of its indices
show one element, so that a store at one of them is seen at the other. -/
theorem C80_row_major_aliases :
    (PySession.run stableSort (fun _ => 8) (exFc .rowMajor) [.field "strain" .real (.shape [2, 2]) "q" "" false,
      .setItem "strain" .pixel [0, 2] 7, .getItem "strain" .pixel [1, 0]]).1 =
    [.ok .nothing, .ok .nothing, .ok (.values [7, 7, 7, 7, 7, 7])] := by decide +kernel

/-- Row-major collections with one sub-point are covered. -/
example : ProgramOk .rowMajor (Dict.start [3, 2] [("q", 2)] : Dict Int String)
    [.field "u" .real (.shape [2, 2]) "pixel" "" false, .setItem "u" .pixel [1, 0, 2] 7, .getItem "u" .subPt [1, 0, 0]] := by
  refine ⟨by simp only [CallOk]; decide, ?_, ?_, trivial⟩
  · intro _
    refine Or.inr fun a ha => ?_
    simp only [Dict.call, Dict.field, Dict.start, Dict.put, if_true, Option.some.injEq] at ha
    rw [← ha]
  · intro e; cases e

/-- The hypotheses of `C80_store_load` and `C80_pixel_sub_pt`. -/
example : ((Dict.start [3, 2] [("q", 2)] : Dict Int String).call
      (.field "strain" .real (.shape [2]) "q" "" false)).2.arrs "strain" =
    some ⟨.real, [2], "q", 2, "", fun _ => 0⟩ ∧
    npIndex [2, 2, 3, 2] [1, -1] = some [1, 1] ∧ InBox ([2] ++ 2 :: [3, 2]) [1, 1, 2, 0] ∧
    toP [2] [1, 1, 2, 0] = [3, 2, 0] ∧ shapeP [2] 2 [3, 2] = [4, 3, 2] := by
  refine ⟨rfl, by decide, by decide, by decide, by decide⟩

/-- The hypotheses of `C80_shows`: a collection with padded strides. -/
example : Built stableSort exAfter ∧ exAfter.initialised = true ∧ exAfter.order = .colMajor ∧ exAfter.global = true ∧
    NestedStrides exAfter.pixels.nb exAfter.pixels.strides :=
  ⟨exAfter_built, by decide +kernel, by decide +kernel, by decide +kernel, by
    rw [show exAfter.pixels.nb = [3, 2] by decide +kernel, show exAfter.pixels.strides = colMajorStrides [3, 2] by decide +kernel]
    exact nested_order (order := .colMajor) (by decide)⟩

end Verif.Props
