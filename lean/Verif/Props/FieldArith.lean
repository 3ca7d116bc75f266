import Verif.Model.FieldArith
import Verif.Props.FieldOps
/-
Property C73: arithmetic of fields.
-/
set_option linter.unusedSectionVars false

namespace Verif.Props
open Verif Verif.Ccoord Verif.Layout Verif.RawMemory Verif.Collection Verif.Collection.Coll Verif.FieldArith

variable {α U : Type} [Inhabited α] [DecidableEq U] [Add α] [Sub α] [Neg α]

/-! ### What a program sees of its fields -/

/-- The worlds that programs reach: collections are made, calls are made on them, and fields are combined. -/
inductive Worlds (srt : SortFn) : World α U → Prop
  | start : Worlds srt []
  | make {w : World α U} {global : Bool} {dim : Int} {order : StorageOrder} {sub : SMap String Int} {c : Coll α U} :
      Worlds srt w → sub.Sorted → (∀ tag n, sub.find tag = some n → n = Unknown ∨ 1 ≤ n) →
      mk' global dim order sub = .ok c → Worlds srt (w ++ [c])
  | call {w : World α U} {k : Nat} {c : Coll α U} (op : Op α U) : Worlds srt w → w[k]? = some c → Adm c op →
      (c.step srt op).1 ≠ .ub → Worlds srt (w.set k (c.step srt op).2)
  | arith {w : World α U} (op : ArithOp α) : Worlds srt w → (arith srt w op).1 ≠ .ub → Worlds srt (arith srt w op).2

/-- What arithmetic does not change: everything but values. -/
structure Skel where
  init : Bool
  global : Bool
  nbPixels : Int
  layout : FieldLayout
  deriving DecidableEq

/-- What a program knows of a field without looking at its values. -/
def skel (w : World α U) (r : Ref) : Option Skel :=
  (FieldArith.get w r).map (fun p => ⟨p.1.initialised, p.1.global, p.1.nbPixels, p.1.layout p.2⟩)

/-- A field of an initialised collection whose pixels have places of their own. -/
structure Skel.Fit (s : Skel) : Prop where
  init : s.init = true
  order : s.layout.order = .colMajor ∨ s.layout.order = .rowMajor
  pix : Addressing s.layout.pixShape s.layout.pixStrides s.layout.nbBuf
  pos : Pos (s.layout.shape .subPt)

/-- The elements of all fields: `env r x` is element `x` (components, sub-point, pixel) of the field `r`. -/
def ShowsAll (w : World α U) (env : Ref → List Int → α) : Prop :=
  ∀ r c f ms, FieldArith.get w r = some (c, f) → Skel.Fit ⟨c.initialised, c.global, c.nbPixels, c.layout f⟩ →
    (c.layout f).strides .subPt 1 = .ok ms →
    ∀ x, InBox ((c.layout f).shape .subPt) x → f.vals[(dot ms x).toNat]? = some (env r x)

/-- The element-wise meaning of a statement, as on arrays.  `zero` is the value of `T{}`; the statement `matrix`
is not of this kind (`C73_matrix`). -/
def _root_.Verif.FieldArith.ArithOp.eval (zero : α) (env : Ref → List Int → α) : ArithOp α → Ref → List Int → α
  | .assign a b => fun r x => if r = a then env b x else env r x
  | .neg a b => fun r x => if r = a then -env b x else env r x
  | .plus a b => fun r x => if r = a then env a x + env b x else env r x
  | .minus a b => fun r x => if r = a then env a x - env b x else env r x
  | .zero a => fun r x => if r = a then zero else env r x
  | .matrix _ _ _ _ => env

/-- Same shape, same places, and no unused places between the pixels: what the vector operations need. -/
structure Skel.Alike (s t : Skel) : Prop where
  left : s.Fit
  right : t.Fit
  shape : s.layout.shape .subPt = t.layout.shape .subPt
  strides : s.layout.strides .subPt 1 = t.layout.strides .subPt 1
  dense : s.layout.nbBuf = s.nbPixels
  dense' : t.layout.nbBuf = t.nbPixels

/-- The conditions of the element-wise meaning: assignment to a global field needs the same shape only, the
other statements need fields that are alike. -/
def _root_.Verif.FieldArith.ArithOp.Fits (sk : Ref → Option Skel) : ArithOp α → Prop
  | .assign a b => ∃ s t, sk a = some s ∧ sk b = some t ∧
      ((s.global = true ∧ s.Fit ∧ t.Fit ∧ s.layout.shape .subPt = t.layout.shape .subPt) ∨ s.Alike t)
  | .neg a b => ∃ s t, sk a = some s ∧ sk b = some t ∧ s.Alike t
  | .plus a b => ∃ s t, sk a = some s ∧ sk b = some t ∧ s.Alike t
  | .minus a b => ∃ s t, sk a = some s ∧ sk b = some t ∧ s.Alike t
  | .zero a => ∃ s, sk a = some s ∧ s.Fit
  | .matrix _ _ _ _ => False

/-! ### Helper lemmas -/

/-- The collection after a field was replaced. -/
abbrev withField (c : Coll α U) (name : String) (g : Field α U) : Coll α U :=
  { c with fields := c.fields.insert name g }

theorem arith_get_some {w : World α U} {r : Ref} {c : Coll α U} {f : Field α U} :
    FieldArith.get w r = some (c, f) ↔ w[r.coll]? = some c ∧ c.fields.find r.name = some f := by
  unfold FieldArith.get
  cases hc : w[r.coll]? with
  | none => simp
  | some d =>
    simp only [Option.map_eq_some_iff, Prod.mk.injEq, Option.some.injEq]
    constructor
    · rintro ⟨a, h1, rfl, rfl⟩; exact ⟨rfl, h1⟩
    · rintro ⟨rfl, h⟩; exact ⟨f, h, rfl, rfl⟩

theorem arith_put_coll (w : World α U) (r : Ref) (g : Field α U) (k : Nat) :
    (FieldArith.put w r g)[k]? = if r.coll = k then w[k]?.map (fun c => withField c r.name g) else w[k]? := by
  unfold FieldArith.put
  rw [List.getElem?_modify]
  split
  · rfl
  · cases w[k]? <;> rfl

theorem arith_get_put {w : World α U} {r : Ref} {c : Coll α U} {f : Field α U} (h : FieldArith.get w r = some (c, f))
    (g : Field α U) : FieldArith.get (FieldArith.put w r g) r = some (withField c r.name g, g) := by
  rw [arith_get_some] at h ⊢
  rw [arith_put_coll, if_pos rfl, h.1]
  exact ⟨rfl, SMap.find_insert_self _ _ _⟩

theorem arith_get_put_ne {w : World α U} {r r' : Ref} (hne : r' ≠ r) (g : Field α U) :
    FieldArith.get (FieldArith.put w r g) r' =
      (FieldArith.get w r').map (fun p => (if r.coll = r'.coll then withField p.1 r.name g else p.1, p.2)) := by
  unfold FieldArith.get
  rw [arith_put_coll]
  cases hc : w[r'.coll]? with
  | none => simp
  | some c =>
    by_cases h : r.coll = r'.coll
    · have hn : r'.name ≠ r.name := by
        intro hn; apply hne
        cases r; cases r'; simp only at h hn; rw [h, hn]
      simp only [if_pos h, Option.map_some, SMap.find_insert, if_neg hn, Option.map_map]
      rfl
    · simp only [if_neg h, Option.map_map]
      rfl

theorem vecOp_ok {op : α → α → α} {c d : Coll α U} {f g h : Field α U} (hr : vecOp op c f d g = .ok h) :
    ∃ n : Nat, eigenVec c f = .ok n ∧ eigenVec d g = .ok n ∧ n ≤ f.vals.length ∧ n ≤ g.vals.length ∧
      h = { f with vals := List.zipWith op (f.vals.take n) (g.vals.take n) ++ f.vals.drop n } := by
  unfold vecOp at hr
  rw [Res.bind_eq_ok] at hr
  obtain ⟨n, h1, hr⟩ := hr
  rw [Res.bind_eq_ok] at hr
  obtain ⟨m, h2, hr⟩ := hr
  split_ifs at hr with hc
  obtain ⟨rfl, h0, h3, h4, -, -⟩ := hc
  rw [Res.pure_eq, Res.ok.injEq] at hr
  refine ⟨n.toNat, ?_, ?_, by omega, by omega, hr.symm⟩
  · rw [Int.toNat_of_nonneg h0]; exact h1
  · rw [Int.toNat_of_nonneg h0]; exact h2

theorem assignMat_ok {c : Coll α U} {f h : Field α U} {rows cols : Nat} {data : List α}
    (hr : assignMat c f rows cols data = .ok h) :
    eigenVec c f = .ok rows ∧ data.length = rows ∧ rows ≤ f.vals.length ∧
      h = { f with vals := data ++ f.vals.drop rows } := by
  unfold assignMat at hr
  rw [Res.bind_eq_ok] at hr
  obtain ⟨n, h1, hr⟩ := hr
  split_ifs at hr with hc
  obtain ⟨rfl, rfl, h3, h4, -⟩ := hc
  rw [Res.pure_eq, Res.ok.injEq] at hr
  exact ⟨h1, by omega, by omega, hr.symm⟩

/-- The new field differs from the old one in its values only, and has as many. -/
theorem result_shape {srt : SortFn} {w : World α U} {op : ArithOp α} {g : Field α U}
    (h : op.result srt w = .ok g) : ∃ c f, FieldArith.get w op.dst = some (c, f) ∧ g.vals.length = f.vals.length ∧
      g = { f with vals := g.vals } := by
  have hv : ∀ {o : α → α → α} {c d : Coll α U} {f g h : Field α U}, vecOp o c f d g = .ok h →
      h.vals.length = f.vals.length ∧ h = { f with vals := h.vals } := by
    intro o c d f g h hr
    obtain ⟨n, -, -, h1, h2, rfl⟩ := vecOp_ok hr
    refine ⟨?_, rfl⟩
    simp only [List.length_append, List.length_zipWith, List.length_take, List.length_drop]
    omega
  cases op with
  | assign a b =>
    simp only [ArithOp.result] at h
    split at h
    · rename_i c f d g' ha hb
      refine ⟨c, f, ha, ?_⟩
      unfold assignTo at h
      split at h
      · rw [Res.bind_eq_ok] at h
        obtain ⟨m, -, hm⟩ := h
        rw [Res.pure_eq, Res.ok.injEq] at hm
        subst hm
        exact ⟨by simp [Field.ofMem], rfl⟩
      · exact hv h
    · cases h
  | neg a b =>
    simp only [ArithOp.result] at h
    split at h
    · rename_i c f d g' ha hb
      exact ⟨c, f, ha, hv h⟩
    · cases h
  | plus a b =>
    simp only [ArithOp.result] at h
    split at h
    · rename_i c f d g' ha hb
      exact ⟨c, f, ha, hv h⟩
    · cases h
  | minus a b =>
    simp only [ArithOp.result] at h
    split at h
    · rename_i c f d g' ha hb
      exact ⟨c, f, ha, hv h⟩
    · cases h
  | zero a =>
    simp only [ArithOp.result] at h
    split at h
    · rename_i c f ha
      rw [Res.ok.injEq] at h
      subst h
      exact ⟨c, f, ha, by simp, rfl⟩
    · cases h
  | matrix a rows cols data =>
    simp only [ArithOp.result] at h
    split at h
    · rename_i c f ha
      obtain ⟨-, h1, h2, rfl⟩ := assignMat_ok h
      refine ⟨c, f, ha, ?_, rfl⟩
      simp only [List.length_append, List.length_drop]
      omega
    · cases h

/-- A statement changes nothing, or stores a field with new values. -/
theorem arith_cases (srt : SortFn) (w : World α U) (op : ArithOp α) :
    ((FieldArith.arith srt w op).1 ≠ .ok () ∧ (FieldArith.arith srt w op).2 = w) ∨
    ∃ c f g, FieldArith.get w op.dst = some (c, f) ∧ g.vals.length = f.vals.length ∧ g = { f with vals := g.vals } ∧
      op.result srt w = .ok g ∧ FieldArith.arith srt w op = (.ok (), FieldArith.put w op.dst g) := by
  cases h : op.result srt w with
  | ok g =>
    obtain ⟨c, f, h1, h2, h3⟩ := result_shape h
    exact Or.inr ⟨c, f, g, h1, h2, h3, rfl, by rw [FieldArith.arith, h]⟩
  | throw e => exact Or.inl (by rw [FieldArith.arith, h]; exact ⟨by simp, rfl⟩)
  | ub => exact Or.inl (by rw [FieldArith.arith, h]; exact ⟨by simp, rfl⟩)

theorem worlds_inv {srt : SortFn} {w : World α U} (h : Worlds srt w) :
    ∀ (k : Nat) (c : Coll α U), w[k]? = some c → SizeInv c ∧ PixInv srt c := by
  induction h with
  | start => intro k c hk; simp at hk
  | @make w global dim order sub c _ hs hv hc ih =>
    intro k d hk
    rw [List.getElem?_append] at hk
    split at hk
    · exact ih k d hk
    · have : d = c := by
        cases hj : k - w.length with
        | zero => rw [hj] at hk; simpa using hk.symm
        | succ j => rw [hj] at hk; simp at hk
      subst this
      exact ⟨mk'_sizeInv hs hv hc, mk'_pixInv srt hc⟩
  | @call w k c op _ hk ha hub ih =>
    intro j d hj
    rw [List.getElem?_set] at hj
    split at hj
    · split at hj
      · cases hj
        exact ⟨(ih k c hk).1.step op ha hub, (ih k c hk).2.step op⟩
      · cases hj
    · exact ih j d hj
  | @arith w op _ hub ih =>
    rcases arith_cases srt w op with ⟨-, h2⟩ | ⟨c, f, g, h1, h2, h3, h4, h5⟩
    · rw [h2]; exact ih
    · rw [h5]
      intro k d hk
      rw [arith_put_coll] at hk
      split at hk
      · rename_i hkk
        subst hkk
        rw [arith_get_some] at h1
        rw [h1.1] at hk
        cases hk
        obtain ⟨i1, i2⟩ := ih _ c h1.1
        refine ⟨i1.insertField _ g ?_ ?_ ?_ ?_, i2.of_base rfl⟩
        · rw [h3]; exact i1.wf.comps _ f h1.2
        · rw [h3]; exact i1.wf.tags _ f h1.2
        · rw [h3]; exact i1.comp _ f h1.2
        · intro hi
          have := i1.size hi _ f h1.2
          rw [h3]
          simp only
          rw [h2]
          exact this
      · exact ih k d hk

omit [Inhabited α] [DecidableEq U] [Add α] [Sub α] [Neg α] in
theorem arith_nbPixels {srt : SortFn} {c : Coll α U} (h : PixInv srt c) (hi : c.initialised = true) (f : Field α U) :
    (c.layout f).pixShape.prod = c.nbPixels := by
  simp only [layout]
  cases hg : c.global with
  | true =>
    obtain ⟨-, -, -, h4, -, -⟩ := h.glob hg hi
    rw [if_pos rfl, h4, getSize_eq_prod]
  | false => simp

/-- The vector of a field in an initialised collection: as long as it has elements. -/
theorem arith_eigenVec {srt : SortFn} {c : Coll α U} (hs : SizeInv c) (h : PixInv srt c) (hi : c.initialised = true)
    {name : String} {f : Field α U} (hf : c.fields.find name = some f) (hp : Pos ((c.layout f).shape .subPt)) :
    eigenVec c f = .ok ((c.layout f).shape .subPt).prod ∧
      ((c.layout f).shape .subPt).prod = (c.layout f).nbComp * (c.layout f).nbSub * c.nbPixels := by
  have hsh : (c.layout f).shape .subPt = f.shape ++ [f.nbSub] ++ (c.layout f).pixShape := rfl
  have hprod : ((c.layout f).shape .subPt).prod = f.nbComp * f.nbSub * c.nbPixels := by
    rw [hsh, List.prod_append, List.prod_append, arith_nbPixels h hi f, hs.wf.comps name f hf, getSize_eq_prod]
    simp
  have hpos := prod_pos_of_pos hp
  have hsub : f.nbSub ≠ Unknown := (hs.size hi name f hf).1
  have he : f.nbEntries c.nbPixels = f.nbSub * c.nbPixels := if_pos (by simpa [Field.hasSub] using hsub)
  have hc := hs.comp name f hf
  have hnu : f.nbEntries c.nbPixels ≠ Unknown := by
    rw [he]
    intro h0
    have : f.nbComp * f.nbSub * c.nbPixels = f.nbComp * (f.nbSub * c.nbPixels) := by ring
    rw [hprod, this, h0] at hpos
    simp only [Unknown] at hpos
    omega
  refine ⟨?_, ?_⟩
  · rw [eigenVec, if_neg hnu, if_neg (by simp [hi]), he, hprod]
    congr 1; ring
  · rw [hprod]
    congr 2
    exact hs.wf.comps name f hf

theorem vecOp_elem {srt : SortFn} {op : α → α → α} {c d : Coll α U} {f g : Field α U} {n m : String}
    (hc : SizeInv c) (hc' : PixInv srt c) (hd : SizeInv d) (hd' : PixInv srt d)
    (hf : c.fields.find n = some f) (hg : d.fields.find m = some g)
    (ha : Skel.Alike ⟨c.initialised, c.global, c.nbPixels, c.layout f⟩ ⟨d.initialised, d.global, d.nbPixels, d.layout g⟩) :
    ∃ h ms, vecOp op c f d g = .ok h ∧ (c.layout f).strides .subPt 1 = .ok ms ∧
      ∀ x, InBox ((c.layout f).shape .subPt) x → ∀ u v, f.vals[(dot ms x).toNat]? = some u →
        g.vals[(dot ms x).toNat]? = some v → h.vals[(dot ms x).toNat]? = some (op u v) := by
  obtain ⟨⟨i1, o1, a1, p1⟩, ⟨i2, o2, a2, p2⟩, hsh, hst, d1, d2⟩ := ha
  dsimp only at i1 i2 o1 o2 a1 a2 p1 p2 hsh hst d1 d2
  obtain ⟨ms, hms, -, hA, -⟩ := C18_sub_pt_strides _ o1 a1
  obtain ⟨e1, q1⟩ := arith_eigenVec hc hc' i1 hf p1
  obtain ⟨e2, q2⟩ := arith_eigenVec hd hd' i2 hg p2
  rw [← hsh] at e2 q2
  obtain ⟨-, z1, f1⟩ := hc.size i1 n f hf
  obtain ⟨-, z2, f2⟩ := hd.size i2 m g hg
  have hpos := prod_pos_of_pos p1
  have w1 : (c.layout f).nbComp = f.nbComp := (hc.wf.comps n f hf).symm
  have w2 : (d.layout g).nbComp = g.nbComp := (hd.wf.comps m g hg).symm
  have w1' : (c.layout f).nbSub = f.nbSub := rfl
  have w2' : (d.layout g).nbSub = g.nbSub := rfl
  have y1 : c.nbBuf = c.nbPixels := d1
  have y2 : d.nbBuf = d.nbPixels := d2
  rw [w1, w1', ← y1] at q1
  rw [w2, w2', ← y2] at q2
  have hle1 : ((c.layout f).shape .subPt).prod ≤ f.vals.length := by omega
  have hle2 : ((c.layout f).shape .subPt).prod ≤ g.vals.length := by omega
  refine ⟨{ f with vals := (List.zipWith op (f.vals.take ((c.layout f).shape .subPt).prod.toNat)
      (g.vals.take ((c.layout f).shape .subPt).prod.toNat) ++ f.vals.drop ((c.layout f).shape .subPt).prod.toNat) },
    ms, ?_, hms, ?_⟩
  · unfold vecOp
    rw [e1, Res.ok_bind, e2, Res.ok_bind, if_pos ⟨rfl, le_of_lt hpos, hle1, hle2, f1, f2⟩, Res.pure_eq]
  · intro x hx u v hu hv
    obtain ⟨b1, b2⟩ := hA.bounds x hx
    have b3 : dot ms x < ((c.layout f).shape .subPt).prod := by
      rw [q1]
      have : (c.layout f).nbComp * (c.layout f).nbSub * (c.layout f).nbBuf = f.nbComp * f.nbSub * c.nbBuf := by
        rw [w1]; rfl
      omega
    dsimp only
    rw [List.getElem?_append_left (by
      simp only [List.length_zipWith, List.length_take]; omega)]
    rw [List.getElem?_zipWith_eq_some]
    refine ⟨u, v, ?_, ?_, rfl⟩
    · rw [List.getElem?_take_of_lt (by omega)]; exact hu
    · rw [List.getElem?_take_of_lt (by omega)]; exact hv

theorem skel_put {w : World α U} {r : Ref} {c : Coll α U} {f g : Field α U} (h : FieldArith.get w r = some (c, f))
    (hg : g = { f with vals := g.vals }) (r' : Ref) : skel (FieldArith.put w r g) r' = skel w r' := by
  unfold skel
  by_cases hr : r' = r
  · subst hr
    rw [arith_get_put h, h]
    simp only [Option.map_some, Option.some.injEq, Skel.mk.injEq, true_and]
    rw [hg]; rfl
  · rw [arith_get_put_ne hr]
    cases hw : FieldArith.get w r' with
    | none => rfl
    | some p =>
      simp only [Option.map_some, Option.some.injEq]
      split <;> rfl

/-- After the values of one field were replaced, it shows them and all others show what they showed. -/
theorem showsAll_put {w : World α U} {env env' : Ref → List Int → α} {r : Ref} {c : Coll α U} {f g : Field α U}
    (h : FieldArith.get w r = some (c, f)) (hg : g = { f with vals := g.vals }) (hs : ShowsAll w env)
    (hne : ∀ r', r' ≠ r → env' r' = env r')
    (hel : ∀ ms, (c.layout f).strides .subPt 1 = .ok ms → ∀ x, InBox ((c.layout f).shape .subPt) x →
      g.vals[(dot ms x).toNat]? = some (env' r x)) : ShowsAll (FieldArith.put w r g) env' := by
  intro r' d k ms hk hfit hms x hx
  by_cases hr : r' = r
  · subst hr
    rw [arith_get_put h] at hk
    cases hk
    have hl : (withField c r'.name g).layout g = c.layout f := by rw [hg]; rfl
    rw [hl] at hms hx
    exact hel ms hms x hx
  · rw [arith_get_put_ne hr] at hk
    cases hw : FieldArith.get w r' with
    | none => rw [hw] at hk; cases hk
    | some p =>
      rw [hw] at hk
      simp only [Option.map_some, Option.some.injEq, Prod.mk.injEq] at hk
      obtain ⟨hk1, rfl⟩ := hk
      have hl : d.layout p.2 = p.1.layout p.2 := by rw [← hk1]; split <;> rfl
      have hi : d.initialised = p.1.initialised ∧ d.global = p.1.global ∧ d.nbPixels = p.1.nbPixels := by
        rw [← hk1]; split <;> exact ⟨rfl, rfl, rfl⟩
      rw [hl, hi.1, hi.2.1, hi.2.2] at hfit
      rw [hl] at hms hx
      rw [hne r' hr]
      exact hs r' p.1 p.2 ms hw hfit hms x hx

/-! ### The property -/

/-- **C73** One statement on fields that fit: it succeeds, the elements of the left-hand side are the element-wise
result, and every other field is unchanged. -/
theorem C73_one {srt : SortFn} (hsrt : SortSpec srt) {w : World α U} (hw : Worlds srt w) (op : ArithOp α)
    (hfit : op.Fits (skel w)) {env : Ref → List Int → α} (hs : ShowsAll w env) :
    ∃ w', FieldArith.arith srt w op = (.ok (), w') ∧ ShowsAll w' (op.eval default env) ∧
      (∀ r, skel w' r = skel w r) ∧
      ∀ r, r ≠ op.dst → (FieldArith.get w' r).map (·.2) = (FieldArith.get w r).map (·.2) := by
  -- the new field suffices
  suffices key : ∃ c f g, FieldArith.get w op.dst = some (c, f) ∧ op.result srt w = .ok g ∧
      ∀ ms, (c.layout f).strides .subPt 1 = .ok ms → ∀ x, InBox ((c.layout f).shape .subPt) x →
        g.vals[(dot ms x).toNat]? = some (op.eval default env op.dst x) by
    obtain ⟨c, f, g, k1, k2, k3⟩ := key
    obtain ⟨c', f', h1, h2, h3⟩ := result_shape k2
    rw [k1] at h1; cases h1
    refine ⟨FieldArith.put w op.dst g, by rw [FieldArith.arith, k2], showsAll_put k1 h3 hs ?_ k3, skel_put k1 h3, ?_⟩
    · intro r hr
      cases op <;> funext x <;> simp only [ArithOp.eval] <;> first | rfl | exact if_neg hr
    · intro r hr
      rw [arith_get_put_ne hr, Option.map_map]
      rfl
  have hinv := worlds_inv hw
  have hsk : ∀ {r s}, skel w r = some s → ∃ c f, FieldArith.get w r = some (c, f) ∧
      s = ⟨c.initialised, c.global, c.nbPixels, c.layout f⟩ := by
    intro r s h
    unfold skel at h
    rw [Option.map_eq_some_iff] at h
    obtain ⟨⟨c, f⟩, h1, h2⟩ := h
    exact ⟨c, f, h1, h2.symm⟩
  have vec : ∀ (o : α → α → α) (a b : Ref), (∃ s t, skel w a = some s ∧ skel w b = some t ∧ s.Alike t) →
      ∃ c f d g h, FieldArith.get w a = some (c, f) ∧ FieldArith.get w b = some (d, g) ∧ vecOp o c f d g = .ok h ∧
        ∀ ms, (c.layout f).strides .subPt 1 = .ok ms → ∀ x, InBox ((c.layout f).shape .subPt) x →
          h.vals[(dot ms x).toNat]? = some (o (env a x) (env b x)) := by
    rintro o a b ⟨s, t, h1, h2, h3⟩
    obtain ⟨c, f, g1, rfl⟩ := hsk h1
    obtain ⟨d, g, g2, rfl⟩ := hsk h2
    have g1' := arith_get_some.1 g1
    have g2' := arith_get_some.1 g2
    obtain ⟨i1, i2⟩ := hinv _ c g1'.1
    obtain ⟨j1, j2⟩ := hinv _ d g2'.1
    obtain ⟨h, ms, e1, e2, e3⟩ := vecOp_elem (op := o) i1 i2 j1 j2 g1'.2 g2'.2 h3
    refine ⟨c, f, d, g, h, g1, g2, e1, ?_⟩
    intro ms' hms x hx
    rw [e2] at hms; cases hms
    refine e3 x hx _ _ (hs a c f ms g1 h3.left e2 x hx) (hs b d g ms g2 h3.right ?_ x ?_)
    · rw [← h3.strides]; exact e2
    · rw [← h3.shape]; exact hx
  cases op with
  | assign a b =>
    obtain ⟨s, t, h1, h2, h3⟩ := hfit
    obtain ⟨c, f, g1, rfl⟩ := hsk h1
    obtain ⟨d, g, g2, rfl⟩ := hsk h2
    have g1' := arith_get_some.1 g1
    have g2' := arith_get_some.1 g2
    obtain ⟨i1, i2⟩ := hinv _ c g1'.1
    obtain ⟨j1, j2⟩ := hinv _ d g2'.1
    cases hgl : c.global with
    | false =>
      rcases h3 with ⟨h3, -⟩ | h3
      · simp only at h3; rw [hgl] at h3; cases h3
      · obtain ⟨c', f', d', g', h, k1, k2, k3, k4⟩ := vec (fun _ y => y) a b ⟨_, _, h1, h2, h3⟩
        rw [g1] at k1; rw [g2] at k2; cases k1; cases k2
        refine ⟨c, f, h, g1, ?_, ?_⟩
        · simp only [ArithOp.result, g1, g2, assignTo, hgl, Bool.false_eq_true, if_false]
          exact k3
        · intro ms hms x hx
          rw [k4 ms hms x hx]
          simp [ArithOp.eval, ArithOp.dst]
    | true =>
      have h4 : Skel.Fit ⟨c.initialised, c.global, c.nbPixels, c.layout f⟩ ∧
          Skel.Fit ⟨d.initialised, d.global, d.nbPixels, d.layout g⟩ ∧
          (c.layout f).shape .subPt = (d.layout g).shape .subPt := by
        rcases h3 with ⟨-, h4, h5, h6⟩ | h3
        · exact ⟨h4, h5, h6⟩
        · exact ⟨h3.left, h3.right, h3.shape⟩
      obtain ⟨⟨f1, f2, f3, f4⟩, ⟨f5, f6, f7, f8⟩, f9⟩ := h4
      dsimp only at f1 f2 f3 f4 f5 f6 f7 f8 f9
      obtain ⟨-, z1, y1⟩ := i1.size f1 _ f g1'.2
      obtain ⟨-, z2, y2⟩ := j1.size f5 _ g g2'.2
      have w1 : (c.layout f).nbComp * (c.layout f).nbSub * (c.layout f).nbBuf = f.nbComp * f.nbSub * c.nbBuf := by
        have : (c.layout f).nbComp = f.nbComp := (i1.wf.comps _ f g1'.2).symm
        rw [this]; rfl
      have w2 : (d.layout g).nbComp * (d.layout g).nbSub * (d.layout g).nbBuf = g.nbComp * g.nbSub * d.nbBuf := by
        have : (d.layout g).nbComp = g.nbComp := (j1.wf.comps _ g g2'.2).symm
        rw [this]; rfl
      obtain ⟨ms, os, m, e1, e2, e3, e4, e5⟩ := C20_assign hsrt (c.layout f) (d.layout g) (Field.mem g) (Field.mem f)
        f2 f6 f3 f7 f4 f9
        (fun i h0 h1 => by
          simp only [Field.mem, y2, h0, and_self, if_true]
          rw [List.getElem?_eq_getElem (by omega)]; rfl)
        (fun i h0 h1 => by
          simp only [Field.mem, y1, h0, and_self, if_true]
          rw [List.getElem?_eq_getElem (by omega)]; rfl)
      obtain ⟨_, e1', -, hA, -⟩ := C18_sub_pt_strides _ f2 f3
      rw [e1] at e1'; cases e1'
      obtain ⟨_, e2', -, hB, -⟩ := C18_sub_pt_strides _ f6 f7
      rw [e2] at e2'; cases e2'
      refine ⟨c, f, Field.ofMem f m, g1, ?_, ?_⟩
      · simp only [ArithOp.result, g1, g2, assignTo, hgl, if_true, e3, Res.ok_bind, Res.pure_eq]
      · intro ms' hms x hx
        rw [e1] at hms; cases hms
        obtain ⟨b1, b2⟩ := hA.bounds x hx
        obtain ⟨b3, b4⟩ := hB.bounds x (by rw [← f9]; exact hx)
        have hlt : (dot ms x).toNat < f.vals.length := by omega
        simp only [Field.ofMem, List.getElem?_map]
        rw [List.getElem?_eq_getElem (by simpa using hlt)]
        simp only [List.getElem_range, Option.map_some]
        rw [show ((dot ms x).toNat : Int) = dot ms x by omega, e4 x hx]
        have hv := hs b d g os g2 ⟨f5, f6, f7, f8⟩ e2 x (by rw [← f9]; exact hx)
        simp only [Field.mem, y2, b3, and_self, if_true, hv, ArithOp.eval, ArithOp.dst, Option.getD_some]
  | neg a b =>
    obtain ⟨c, f, d, g, h, k1, k2, k3, k4⟩ := vec (fun _ y => -y) a b hfit
    refine ⟨c, f, h, k1, by simp only [ArithOp.result, k1, k2, k3], fun ms hms x hx => ?_⟩
    rw [k4 ms hms x hx]; simp [ArithOp.eval, ArithOp.dst]
  | plus a b =>
    obtain ⟨c, f, d, g, h, k1, k2, k3, k4⟩ := vec (· + ·) a b hfit
    refine ⟨c, f, h, k1, by simp only [ArithOp.result, k1, k2, k3], fun ms hms x hx => ?_⟩
    rw [k4 ms hms x hx]; simp [ArithOp.eval, ArithOp.dst]
  | minus a b =>
    obtain ⟨c, f, d, g, h, k1, k2, k3, k4⟩ := vec (· - ·) a b hfit
    refine ⟨c, f, h, k1, by simp only [ArithOp.result, k1, k2, k3], fun ms hms x hx => ?_⟩
    rw [k4 ms hms x hx]; simp [ArithOp.eval, ArithOp.dst]
  | zero a =>
    obtain ⟨s, h1, h2⟩ := hfit
    obtain ⟨c, f, g1, rfl⟩ := hsk h1
    have g1' := arith_get_some.1 g1
    obtain ⟨i1, i2⟩ := hinv _ c g1'.1
    refine ⟨c, f, { f with vals := List.replicate f.vals.length default }, g1, by simp only [ArithOp.result, g1], ?_⟩
    intro ms hms x hx
    have hv := hs a c f ms g1 h2 hms x hx
    have hlt := (List.getElem?_eq_some_iff.1 hv).1
    dsimp only
    rw [List.getElem?_replicate, if_pos hlt]
    simp [ArithOp.eval, ArithOp.dst]
  | matrix a rows cols data => exact absurd hfit id

/-- **C73** Programs of field arithmetic mean what the same statements mean for arrays: for any sequence of
statements on fields that fit, in any world that a program reaches, the elements of all fields at the end are
those of the element-wise evaluation.  Missing: fields that are stored differently or with gaps (`C73_false`,
`C73_gap`). -/
theorem C73_programs_partial {srt : SortFn} (hsrt : SortSpec srt) (ops : List (ArithOp α)) :
    ∀ {w : World α U}, Worlds srt w → (∀ op ∈ ops, op.Fits (skel w)) → ∀ {env : Ref → List Int → α}, ShowsAll w env →
    ∃ w', runArith srt w ops = .ok w' ∧ Worlds srt w' ∧
      ShowsAll w' (ops.foldl (fun e op => op.eval default e) env) ∧ (∀ r, skel w' r = skel w r) ∧
      ∀ r, (∀ op ∈ ops, r ≠ op.dst) → (FieldArith.get w' r).map (·.2) = (FieldArith.get w r).map (·.2) := by
  induction ops with
  | nil => intro w hw _ env hs; exact ⟨w, rfl, hw, hs, fun _ => rfl, fun _ _ => rfl⟩
  | cons op ops ih =>
    intro w hw hfit env hs
    obtain ⟨w1, h1, h2, h3, h4⟩ := C73_one hsrt hw op (hfit op (by simp)) hs
    have hsk : skel w1 = skel w := funext h3
    have hw1 : Worlds srt w1 := by
      have := Worlds.arith op hw (by rw [h1]; simp)
      rw [h1] at this; exact this
    obtain ⟨w2, k1, k2, k3, k4, k5⟩ := ih hw1 (fun o ho => by rw [hsk]; exact hfit o (by simp [ho])) h2
    refine ⟨w2, by rw [runArith, h1]; exact k1, k2, k3, fun r => by rw [k4, hsk], fun r hr => ?_⟩
    rw [k5 r fun o ho => hr o (by simp [ho]), h4 r (hr op (by simp))]

/-- **C73** A statement that throws ends the program with its exception: no later statement is carried out and
the exception is not lost. -/
theorem C73_stops {srt : SortFn} (ops : List (ArithOp α)) (op : ArithOp α) (more : List (ArithOp α)) (e : Err) :
    ∀ {w w' : World α U}, runArith srt w ops = .ok w' → (FieldArith.arith srt w' op).1 = .throw e →
      runArith srt w (ops ++ op :: more) = .throw e := by
  induction ops with
  | nil =>
    intro w w' h1 h2
    cases h1
    rw [List.nil_append, runArith]
    cases h : FieldArith.arith srt w op with
    | mk r w1 => rw [h] at h2; cases h2; rfl
  | cons o ops ih =>
    intro w w' h1 h2
    rw [runArith] at h1
    rw [List.cons_append, runArith]
    cases h : FieldArith.arith srt w o with
    | mk r w1 =>
      rw [h] at h1
      cases r with
      | ok u => cases u; exact ih h1 h2
      | throw e' => cases h1
      | ub => cases h1

/-- In every world the fields of initialised collections have elements, which are stored in their buffers. -/
theorem C73_elements {srt : SortFn} {w : World α U} (hw : Worlds srt w) : ∃ env, ShowsAll w env := by
  classical
  refine ⟨fun r x => match FieldArith.get w r with
    | none => default
    | some (c, f) => match (c.layout f).strides .subPt 1 with
      | .ok ms => (f.vals[(dot ms x).toNat]?).getD default
      | _ => default, ?_⟩
  intro r c f ms hg hfit hms x hx
  have hg' := arith_get_some.1 hg
  obtain ⟨i1, i2⟩ := worlds_inv hw _ c hg'.1
  obtain ⟨-, z1, -⟩ := i1.size hfit.init _ f hg'.2
  obtain ⟨ms', h1, -, hA, -⟩ := C18_sub_pt_strides _ hfit.order hfit.pix
  dsimp only at h1 hA
  rw [hms] at h1; cases h1
  have w1 : (c.layout f).nbComp * (c.layout f).nbSub * (c.layout f).nbBuf = f.nbComp * f.nbSub * c.nbBuf := by
    have : (c.layout f).nbComp = f.nbComp := (i1.wf.comps _ f hg'.2).symm
    rw [this]; rfl
  obtain ⟨b1, b2⟩ := hA.bounds x hx
  simp only [hg, hms]
  rw [List.getElem?_eq_getElem (by omega), Option.getD_some]

/-- **C73** Whatever the layouts, the vector operations combine the entries of the two buffers that have the same
offset, for as many offsets as the fields have elements; entries behind stay.  So an element is combined with the
same element of the other field if and only if both have the same offset, and that offset is less than the number
of elements. -/
theorem C73_offsets (o : α → α → α) (c d : Coll α U) (f g h : Field α U) (hr : vecOp o c f d g = .ok h) :
    ∃ n : Nat, (n : Int) = f.nbSub * c.nbPixels * f.nbComp ∧ (n : Int) = g.nbSub * d.nbPixels * g.nbComp ∧
      h = { f with vals := h.vals } ∧
      (∀ i < n, ∃ u v, f.vals[i]? = some u ∧ g.vals[i]? = some v ∧ h.vals[i]? = some (o u v)) ∧
      ∀ i, n ≤ i → h.vals[i]? = f.vals[i]? := by
  have hev : ∀ {c : Coll α U} {f : Field α U} {n : Nat}, eigenVec c f = .ok (n : Int) →
      (n : Int) = f.nbSub * c.nbPixels * f.nbComp := by
    intro c f n h
    unfold eigenVec at h
    split_ifs at h with h1 h2
    rw [Res.ok.injEq] at h
    rw [← h]
    congr 1
    unfold Field.nbEntries at h1 ⊢
    split_ifs at h1 ⊢ with h3
    · rfl
    · exact absurd rfl h1
  obtain ⟨n, e1, e2, l1, l2, rfl⟩ := vecOp_ok hr
  refine ⟨n, hev e1, hev e2, rfl, ?_, ?_⟩
  · intro i hi
    refine ⟨f.vals[i]'(by omega), g.vals[i]'(by omega), List.getElem?_eq_getElem (by omega),
      List.getElem?_eq_getElem (by omega), ?_⟩
    dsimp only
    rw [List.getElem?_append_left (by simp only [List.length_zipWith, List.length_take]; omega),
      List.getElem?_zipWith_eq_some]
    refine ⟨_, _, ?_, ?_, rfl⟩
    · rw [List.getElem?_take_of_lt hi]; exact List.getElem?_eq_getElem (by omega)
    · rw [List.getElem?_take_of_lt hi]; exact List.getElem?_eq_getElem (by omega)
  · intro i hi
    dsimp only
    have hl : (List.zipWith o (List.take n f.vals) (List.take n g.vals)).length = n := by
      simp only [List.length_zipWith, List.length_take]; omega
    rw [List.getElem?_append_right (by omega), hl, List.getElem?_drop]
    congr 1; omega

/-- **C73** A statement that fails changes nothing; before the initialisation of one of the collections, vector
operations throw; operands of different numbers of elements are undefined (an assertion of Eigen). -/
theorem C73_refused (srt : SortFn) (w : World α U) :
    (∀ op : ArithOp α, (FieldArith.arith srt w op).1 ≠ .ok () → (FieldArith.arith srt w op).2 = w) ∧
    (∀ (o : α → α → α) (c d : Coll α U) (f g : Field α U), (c.initialised = false ∨ d.initialised = false) →
      vecOp o c f d g = .throw .fieldError) ∧
    (∀ (o : α → α → α) (c d : Coll α U) (f g : Field α U) (n m : Int), eigenVec c f = .ok n → eigenVec d g = .ok m →
      n ≠ m → vecOp o c f d g = .ub) := by
  refine ⟨fun op h => ?_, fun o c d f g h => ?_, fun o c d f g n m h1 h2 h3 => ?_⟩
  · rcases arith_cases srt w op with ⟨-, h2⟩ | ⟨c, f, g, -, -, -, -, h5⟩
    · exact h2
    · rw [h5] at h; exact absurd rfl h
  · have hcase : ∀ (c : Coll α U) (f : Field α U), c.initialised = false → eigenVec c f = .throw .fieldError := by
      intro c f h
      unfold eigenVec
      split
      · rfl
      · rw [if_pos (by simp [h])]
    have hany : ∀ (c : Coll α U) (f : Field α U), eigenVec c f = .throw .fieldError ∨ ∃ n, eigenVec c f = .ok n := by
      intro c f
      unfold eigenVec
      split
      · exact Or.inl rfl
      · split
        · exact Or.inl rfl
        · exact Or.inr ⟨_, rfl⟩
    unfold vecOp
    rcases h with h | h
    · rw [hcase c f h]; rfl
    · rcases hany c f with h1 | ⟨n, h1⟩
      · rw [h1]; rfl
      · rw [h1, Res.ok_bind, hcase d g h]; rfl
  · unfold vecOp
    rw [h1, Res.ok_bind, h2, Res.ok_bind, if_neg (by tauto)]

/-- **C73** Assignment of a matrix: only a matrix of one column with as many rows as the field has elements is
accepted, and its entries are taken in the order of the buffer. -/
theorem C73_matrix {srt : SortFn} {w : World α U} (hw : Worlds srt w) {a : Ref} {c : Coll α U} {f : Field α U}
    (hg : FieldArith.get w a = some (c, f)) (hfit : Skel.Fit ⟨c.initialised, c.global, c.nbPixels, c.layout f⟩)
    (hd : c.nbBuf = c.nbPixels) (rows cols : Nat) (data : List α) (hl : data.length = rows * cols) :
    ((rows : Int) = ((c.layout f).shape .subPt).prod ∧ cols = 1 →
      ∃ g ms, FieldArith.arith srt w (.matrix a rows cols data) = (.ok (), FieldArith.put w a g) ∧
        (c.layout f).strides .subPt 1 = .ok ms ∧
        ∀ x, InBox ((c.layout f).shape .subPt) x → g.vals[(dot ms x).toNat]? = data[(dot ms x).toNat]?) ∧
    (¬ ((rows : Int) = ((c.layout f).shape .subPt).prod ∧ cols = 1) →
      (FieldArith.arith srt w (.matrix a rows cols data)).1 = .ub) := by
  have hg' := arith_get_some.1 hg
  obtain ⟨i1, i2⟩ := worlds_inv hw _ c hg'.1
  obtain ⟨e1, q1⟩ := arith_eigenVec i1 i2 hfit.init hg'.2 hfit.pos
  obtain ⟨-, z1, f1⟩ := i1.size hfit.init _ f hg'.2
  obtain ⟨ms, hms, -, hA, -⟩ := C18_sub_pt_strides _ hfit.order hfit.pix
  dsimp only at hms hA
  have w1 : (c.layout f).nbComp * (c.layout f).nbSub * c.nbPixels = f.nbComp * f.nbSub * c.nbBuf := by
    have : (c.layout f).nbComp = f.nbComp := (i1.wf.comps _ f hg'.2).symm
    rw [this, ← hd]; rfl
  have w2 : (c.layout f).nbComp * (c.layout f).nbSub * (c.layout f).nbBuf = f.nbComp * f.nbSub * c.nbBuf := by
    have : (c.layout f).nbComp = f.nbComp := (i1.wf.comps _ f hg'.2).symm
    rw [this]; rfl
  constructor
  · rintro ⟨h1, rfl⟩
    refine ⟨{ f with vals := data ++ f.vals.drop rows }, ms, ?_, hms, ?_⟩
    · have : assignMat c f rows 1 data = .ok { f with vals := data ++ f.vals.drop rows } := by
        rw [assignMat, e1, Res.ok_bind, if_pos ⟨h1.symm, rfl, hl, by omega, f1⟩, Res.pure_eq]
      simp only [FieldArith.arith, ArithOp.result, hg, this, ArithOp.dst]
    · intro x hx
      obtain ⟨b1, b2⟩ := hA.bounds x hx
      dsimp only
      rw [List.getElem?_append_left (by omega)]
  · intro h
    have : assignMat c f rows cols data = .ub := by
      rw [assignMat, e1, Res.ok_bind, if_neg (fun hh => h ⟨hh.1.symm, hh.2.1⟩)]
    simp only [FieldArith.arith, ArithOp.result, hg, this]

/-! ### Examples -/

/-- Whatever calls a new collection goes through, adding it to the world gives a world that programs reach. -/
theorem worlds_reachable {srt : SortFn} {w : World α U} (hw : Worlds srt w) {global : Bool} {dim : Int}
    {order : StorageOrder} {sub : SMap String Int} {c0 c : Coll α U} (hs : sub.Sorted)
    (hv : ∀ tag n, sub.find tag = some n → n = Unknown ∨ 1 ≤ n) (hc : mk' global dim order sub = .ok c0)
    (hr : Reachable srt Adm c0 c) : Worlds srt (w ++ [c]) := by
  induction hr with
  | start => exact .make hw hs hv hc
  | @call c op _ ha hu ih =>
    have := Worlds.call (k := w.length) op ih (by simp) ha hu
    rw [List.set_append_right _ _ (Nat.le_refl _), Nat.sub_self] at this
    exact this

/-- A collection for the examples: the empty one of dimension 2 after some calls. -/
def arithColl (global : Bool) (order : StorageOrder) (ops : List (Op Int String)) : Coll Int String :=
  ((Coll.empty global 2 order [("pixel", 1)]).run stableSort ops).getD (Coll.empty global 2 order [("pixel", 1)])

/-- Calls: a 2 × 2 grid with the default strides and two fields `x` and `y`; `x` has the given values. -/
def arithCalls (a b c d : Int) : List (Op Int String) :=
  [.register "x" .real (.num 1) "pixel" "" false, .initGlobalOrder [2, 2] [] [] .automatic,
   .write "x" 0 a, .write "x" 1 b, .write "x" 2 c, .write "x" 3 d, .register "y" .real (.num 1) "pixel" "" false]

/-- The same grid with strides `1, 3`: one place between the two columns is not used. -/
def arithGap : List (Op Int String) :=
  [.register "x" .real (.num 1) "pixel" "" false, .initGlobal [2, 2] [] [] [1, 3],
   .write "x" 0 1, .write "x" 1 2, .write "x" 3 3, .write "x" 4 4]

/-- One pixel with a 2 × 2 matrix. -/
def arithLocal (a b c d : Int) : List (Op Int String) :=
  [.register "m" .real (.shape [2, 2]) "pixel" "" false, .addPixel 7, .initLocal,
   .write "m" 0 a, .write "m" 1 b, .write "m" 2 c, .write "m" 3 d]

/-- The world of the examples: the 2 × 2 grid column-major, row-major and with a gap, and one local pixel,
column-major and row-major. -/
def arithWorld : World Int String :=
  [arithColl true .colMajor (arithCalls 1 2 3 4), arithColl true .rowMajor (arithCalls 10 20 30 40),
   arithColl true .colMajor arithGap, arithColl false .colMajor (arithLocal 0 0 0 0),
   arithColl false .rowMajor (arithLocal 1 2 3 4)]

theorem arithColl_world {w : World Int String} (hw : Worlds stableSort w) (global : Bool) (order : StorageOrder)
    (ops : List (Op Int String)) (hadm : ∀ d, ∀ op ∈ ops, Adm d op)
    (hr : ((Coll.empty global 2 order [("pixel", 1)] : Coll Int String).run stableSort ops).isSome = true) :
    Worlds stableSort (w ++ [arithColl global order ops]) := by
  refine worlds_reachable hw (global := global) (dim := 2) (order := order) (sub := [])
    (c0 := Coll.empty global 2 order [("pixel", 1)]) (by simp [SMap.Sorted]) (by intro tag n h; simp [SMap.find] at h) ?_ ?_
  · with_unfolding_all rfl
  · rw [Option.isSome_iff_exists] at hr
    obtain ⟨c, hc⟩ := hr
    refine reachable_of_run hadm Reachable.start ?_
    rw [arithColl, hc]; rfl

theorem arithWorld_reached : Worlds stableSort arithWorld := by
  have h0 : Worlds stableSort ([] : World Int String) := .start
  have h1 := arithColl_world h0 true .colMajor (arithCalls 1 2 3 4)
    (by intro d op hop; simp [arithCalls] at hop; rcases hop with rfl | rfl | rfl | rfl | rfl | rfl | rfl <;>
          simp [Adm, Comps.toNb]) (by decide +kernel)
  have h2 := arithColl_world h1 true .rowMajor (arithCalls 10 20 30 40)
    (by intro d op hop; simp [arithCalls] at hop; rcases hop with rfl | rfl | rfl | rfl | rfl | rfl | rfl <;>
          simp [Adm, Comps.toNb]) (by decide +kernel)
  have h3 := arithColl_world h2 true .colMajor arithGap
    (by intro d op hop; simp [arithGap] at hop; rcases hop with rfl | rfl | rfl | rfl | rfl | rfl <;>
          simp [Adm, Comps.toNb]) (by decide +kernel)
  have h4 := arithColl_world h3 false .colMajor (arithLocal 0 0 0 0)
    (by intro d op hop; simp [arithLocal] at hop; rcases hop with rfl | rfl | rfl | rfl | rfl | rfl | rfl <;>
          simp [Adm, Comps.toNb, getSize]) (by decide +kernel)
  exact arithColl_world h4 false .rowMajor (arithLocal 1 2 3 4)
    (by intro d op hop; simp [arithLocal] at hop; rcases hop with rfl | rfl | rfl | rfl | rfl | rfl | rfl <;>
          simp [Adm, Comps.toNb, getSize]) (by decide +kernel)

/-- The pixels of a 2 × 2 grid, by cases. -/
theorem box22 {x : List Int} (h : InBox [2, 2] x) : x = [0, 0] ∨ x = [1, 0] ∨ x = [0, 1] ∨ x = [1, 1] := by
  match x, h with
  | [a, b], ⟨h1, h2, h3, h4, _⟩ =>
    have ha : a = 0 ∨ a = 1 := by omega
    have hb : b = 0 ∨ b = 1 := by omega
    rcases ha with rfl | rfl <;> rcases hb with rfl | rfl <;> simp

theorem addressing22 {p q n : Int} (h : (p, q, n) = (1, 2, 4) ∨ (p, q, n) = (2, 1, 4) ∨ (p, q, n) = (1, 3, 6)) :
    Addressing [2, 2] [p, q] n := by
  refine ⟨rfl, ?_, ?_⟩
  · intro x hx
    rcases h with h | h | h <;> simp only [Prod.mk.injEq] at h <;> obtain ⟨rfl, rfl, rfl⟩ := h <;>
      rcases box22 hx with rfl | rfl | rfl | rfl <;> decide
  · intro x y hx hy
    rcases h with h | h | h <;> simp only [Prod.mk.injEq] at h <;> obtain ⟨rfl, rfl, rfl⟩ := h <;>
      rcases box22 hx with rfl | rfl | rfl | rfl <;> rcases box22 hy with rfl | rfl | rfl | rfl <;> decide

/-- What the example world's global fields look like. -/
def arithSkel (order : StorageOrder) (strides : List Int) (nbBuf : Int) : Skel :=
  ⟨true, true, 4, ⟨order, [1], 1, [2, 2], strides, nbBuf⟩⟩

theorem arithSkel_fit {order : StorageOrder} (ho : order = .colMajor ∨ order = .rowMajor) {p q n : Int}
    (h : (p, q, n) = (1, 2, 4) ∨ (p, q, n) = (2, 1, 4) ∨ (p, q, n) = (1, 3, 6)) : (arithSkel order [p, q] n).Fit :=
  ⟨rfl, ho, addressing22 h, by show Pos ([1] ++ [1] ++ [2, 2]); decide⟩

/-- `ShowsAll` for one element. -/
theorem showsAll_at {w : World α U} {env : Ref → List Int → α} (hs : ShowsAll w env) {r : Ref} {s : Skel}
    (hk : skel w r = some s) (hf : s.Fit) {ms : List Int} (hms : s.layout.strides .subPt 1 = .ok ms) {vs : List α}
    (hv : (FieldArith.get w r).map (fun p => p.2.vals) = some vs) {x : List Int}
    (hx : InBox (s.layout.shape .subPt) x) : vs[(dot ms x).toNat]? = some (env r x) := by
  unfold skel at hk
  cases hg : FieldArith.get w r with
  | none => rw [hg] at hk; cases hk
  | some p =>
    obtain ⟨c, f⟩ := p
    rw [hg, Option.map_some, Option.some.injEq] at hk hv
    subst hk; subst hv
    exact hs r c f ms hg hf hms x hx

/-- The statements of the example: on the column-major grid `y = x`, `y += x`, `y -= x`, `x = -y`, then the result
is assigned to the row-major grid and `y` is set to zero. -/
def arithProgram : List (ArithOp Int) :=
  [.assign ⟨0, "y"⟩ ⟨0, "x"⟩, .plus ⟨0, "y"⟩ ⟨0, "x"⟩, .minus ⟨0, "y"⟩ ⟨0, "x"⟩, .neg ⟨0, "x"⟩ ⟨0, "y"⟩,
   .assign ⟨1, "x"⟩ ⟨0, "x"⟩, .zero ⟨0, "y"⟩]

-- The example world is reached by a program, and the statements fit.
theorem arithProgram_fits : ∀ op ∈ arithProgram, op.Fits (skel arithWorld) := by
  have k0 : skel arithWorld ⟨0, "x"⟩ = some (arithSkel .colMajor [1, 2] 4) := by decide +kernel
  have k1 : skel arithWorld ⟨0, "y"⟩ = some (arithSkel .colMajor [1, 2] 4) := by decide +kernel
  have k2 : skel arithWorld ⟨1, "x"⟩ = some (arithSkel .rowMajor [2, 1] 4) := by decide +kernel
  have f0 : (arithSkel .colMajor [1, 2] 4).Fit := arithSkel_fit (Or.inl rfl) (Or.inl rfl)
  have f1 : (arithSkel .rowMajor [2, 1] 4).Fit := arithSkel_fit (Or.inr rfl) (Or.inr (Or.inl rfl))
  have al : (arithSkel .colMajor [1, 2] 4).Alike (arithSkel .colMajor [1, 2] 4) := ⟨f0, f0, rfl, rfl, rfl, rfl⟩
  intro op hop
  simp only [arithProgram, List.mem_cons, List.mem_nil_iff, or_false] at hop
  rcases hop with rfl | rfl | rfl | rfl | rfl | rfl
  · exact ⟨_, _, k1, k0, Or.inr al⟩
  · exact ⟨_, _, k1, k0, al⟩
  · exact ⟨_, _, k1, k0, al⟩
  · exact ⟨_, _, k0, k1, al⟩
  · exact ⟨_, _, k2, k0, Or.inl ⟨rfl, f1, f0, rfl⟩⟩
  · exact ⟨_, k1, f0⟩

example : ∃ w' env, runArith stableSort arithWorld arithProgram = .ok w' ∧ ShowsAll arithWorld env ∧
    ShowsAll w' (arithProgram.foldl (fun e op => op.eval default e) env) := by
  obtain ⟨env, henv⟩ := C73_elements arithWorld_reached
  obtain ⟨w', h1, -, h2, -⟩ := C73_programs_partial stableSort_spec arithProgram arithWorld_reached
    arithProgram_fits henv
  exact ⟨w', env, h1, henv, h2⟩

-- The row-major field has the same elements in another order.
example : (match runArith stableSort arithWorld arithProgram with
      | .ok w' => (FieldArith.get w' ⟨0, "x"⟩).map (fun p => p.2.vals)
      | _ => none) = some [-1, -2, -3, -4] ∧
    (match runArith stableSort arithWorld arithProgram with
      | .ok w' => (FieldArith.get w' ⟨1, "x"⟩).map (fun p => p.2.vals)
      | _ => none) = some [-1, -3, -2, -4] := by decide +kernel

-- A statement that is refused ends the program.
example : (FieldArith.arith stableSort arithWorld (.assign ⟨0, "x"⟩ ⟨4, "m"⟩)).1 = .throw .fieldError ∧
    runArith stableSort arithWorld [.zero ⟨0, "x"⟩, .assign ⟨0, "x"⟩ ⟨4, "m"⟩, .zero ⟨0, "y"⟩] =
      .throw .fieldError := by decide +kernel

-- Entries behind the number of elements stay; a matrix must be a vector of the right length.
example : (FieldArith.arith stableSort arithWorld (.matrix ⟨0, "y"⟩ 4 1 [5, 6, 7, 8])).1 = .ok () ∧
    (FieldArith.arith stableSort arithWorld (.matrix ⟨0, "y"⟩ 2 2 [5, 6, 7, 8])).1 = .ub ∧
    (FieldArith.arith stableSort arithWorld (.plus ⟨0, "x"⟩ ⟨4, "m"⟩)).1 = .ok () := by decide +kernel

/-! ### What fails -/

/-- The full claim: `+=` on two fields of the same shape in initialised collections adds element by element. -/
def C73_statement : Prop :=
  ∀ (w : World Int String), Worlds stableSort w → ∀ (a b : Ref) (s t : Skel) (env : Ref → List Int → Int),
    skel w a = some s → skel w b = some t → s.Fit → t.Fit → s.layout.shape .subPt = t.layout.shape .subPt →
    ShowsAll w env → ∃ w', FieldArith.arith stableSort w (.plus a b) = (.ok (), w') ∧
      ShowsAll w' (fun r x => if r = a then env a x + env b x else env r x)

/-- **C73** is false: adding a field of a row-major grid to one of a column-major grid adds the values of other
pixels (`+=` works on the buffers, field_typed.cc 428-433, although `=` respects the strides). -/
theorem C73_false : ¬ C73_statement := by
  intro h
  have k0 : skel arithWorld ⟨0, "x"⟩ = some (arithSkel .colMajor [1, 2] 4) := by decide +kernel
  have k1 : skel arithWorld ⟨1, "x"⟩ = some (arithSkel .rowMajor [2, 1] 4) := by decide +kernel
  have f0 : (arithSkel .colMajor [1, 2] 4).Fit := arithSkel_fit (Or.inl rfl) (Or.inl rfl)
  have f1 : (arithSkel .rowMajor [2, 1] 4).Fit := arithSkel_fit (Or.inr rfl) (Or.inr (Or.inl rfl))
  obtain ⟨env, henv⟩ := C73_elements arithWorld_reached
  obtain ⟨w', h1, h2⟩ := h arithWorld arithWorld_reached ⟨0, "x"⟩ ⟨1, "x"⟩ _ _ env k0 k1 f0 f1 rfl henv
  have hw' : w' = (FieldArith.arith stableSort arithWorld (.plus ⟨0, "x"⟩ ⟨1, "x"⟩)).2 := by rw [h1]
  have k2 : skel w' ⟨0, "x"⟩ = some (arithSkel .colMajor [1, 2] 4) := by rw [hw']; decide +kernel
  have v2 : (FieldArith.get w' ⟨0, "x"⟩).map (fun p => p.2.vals) = some [11, 22, 33, 44] := by
    rw [hw']; decide +kernel
  have e0 := showsAll_at henv k0 f0 (ms := [1, 1, 1, 2]) (by decide +kernel) (vs := [1, 2, 3, 4]) (by decide +kernel)
    (x := [0, 0, 1, 0]) (by decide)
  have e1 := showsAll_at henv k1 f1 (ms := [4, 4, 2, 1]) (by decide +kernel) (vs := [10, 20, 30, 40]) (by decide +kernel)
    (x := [0, 0, 1, 0]) (by decide)
  have e2 := showsAll_at h2 k2 f0 (ms := [1, 1, 1, 2]) (by decide +kernel) v2 (x := [0, 0, 1, 0]) (by decide)
  simp [dot] at e0 e1 e2
  omega

/-- **C73** Within one collection too: on a grid with a gap between its columns `x += x` does not double the last
pixel.  The buffer starts with the pixels `(0,0)` and `(1,0)`, the gap, then `(0,1)` and `(1,1)`. -/
theorem C73_gap :
    Skel.Fit (arithSkel .colMajor [1, 3] 6) ∧ skel arithWorld ⟨2, "x"⟩ = some (arithSkel .colMajor [1, 3] 6) ∧
    (FieldArith.get arithWorld ⟨2, "x"⟩).map (fun p => p.2.vals) = some [1, 2, 0, 3, 4, 0] ∧
    (FieldArith.arith stableSort arithWorld (.plus ⟨2, "x"⟩ ⟨2, "x"⟩)).1 = .ok () ∧
    (FieldArith.get (FieldArith.arith stableSort arithWorld (.plus ⟨2, "x"⟩ ⟨2, "x"⟩)).2 ⟨2, "x"⟩).map
      (fun p => p.2.vals) = some [2, 4, 0, 6, 4, 0] :=
  ⟨arithSkel_fit (Or.inl rfl) (Or.inr (Or.inr rfl)), by decide +kernel, by decide +kernel, by decide +kernel,
    by decide +kernel⟩

/-- **C73** Local collections: `=` copies buffers (field_typed.cc 381-384).  From a row-major to a column-major
collection every matrix is transposed: element `(1, 0)` is at offset 1 on the left and 2 on the right. -/
theorem C73_local :
    (skel arithWorld ⟨3, "m"⟩).map (fun s => (s.layout.shape .subPt, s.layout.strides .subPt 1)) =
      some ([2, 2, 1, 1], .ok [1, 2, 4, 4]) ∧
    (skel arithWorld ⟨4, "m"⟩).map (fun s => (s.layout.shape .subPt, s.layout.strides .subPt 1)) =
      some ([2, 2, 1, 1], .ok [2, 1, 1, 1]) ∧
    (FieldArith.get arithWorld ⟨4, "m"⟩).map (fun p => p.2.vals) = some [1, 2, 3, 4] ∧
    (FieldArith.arith stableSort arithWorld (.assign ⟨3, "m"⟩ ⟨4, "m"⟩)).1 = .ok () ∧
    (FieldArith.get (FieldArith.arith stableSort arithWorld (.assign ⟨3, "m"⟩ ⟨4, "m"⟩)).2 ⟨3, "m"⟩).map
      (fun p => p.2.vals) = some [1, 2, 3, 4] := by
  decide +kernel

/-- **C73** The shape is not compared either: a field of 2 × 2 matrices on one pixel is added to a scalar field on
four pixels, while the assignment of the same fields is refused. -/
theorem C73_shape :
    (FieldArith.arith stableSort arithWorld (.plus ⟨0, "x"⟩ ⟨4, "m"⟩)).1 = .ok () ∧
    (FieldArith.get (FieldArith.arith stableSort arithWorld (.plus ⟨0, "x"⟩ ⟨4, "m"⟩)).2 ⟨0, "x"⟩).map
      (fun p => p.2.vals) = some [2, 4, 6, 8] ∧
    (FieldArith.arith stableSort arithWorld (.assign ⟨0, "x"⟩ ⟨4, "m"⟩)).1 = .throw .fieldError := by
  decide +kernel

end Verif.Props
