import Verif.Model.Indices
import Verif.Props.Collection
import Verif.Props.Layout
/-
Properties C17, C47, C48, C49 and C53: iteration over indices, cloning, reshaping, empty clones and
appending.
-/
set_option linter.unusedSectionVars false

namespace Verif.Props
open Verif Verif.Ccoord Verif.Layout Verif.Collection Verif.Collection.Coll

variable {α U : Type} [Inhabited α] [DecidableEq U]

theorem reachable_size {srt : SortFn} {global : Bool} {dim : Int} {order : StorageOrder}
    {sub : SMap String Int} (hs : sub.Sorted)
    (hv : ∀ tag n, sub.find tag = some n → n = Unknown ∨ 1 ≤ n) {c0 c : Coll α U}
    (hc : mk' global dim order sub = .ok c0) (hr : Reachable srt Adm c0 c) : SizeInv c := by
  induction hr with
  | start => exact mk'_sizeInv hs hv hc
  | call op _ ha hub ih => exact ih.step op ha hub

theorem reachable_pix {srt : SortFn} {adm : Coll α U → Op α U → Prop} {global : Bool} {dim : Int}
    {order : StorageOrder} {sub : SMap String Int} {c0 c : Coll α U}
    (hc : mk' global dim order sub = .ok c0) (hr : Reachable srt adm c0 c) : PixInv srt c := by
  induction hr with
  | start => exact mk'_pixInv srt hc
  | call op _ ha hub ih => exact ih.step op

/-! ## C47 -/

/-- The collection with one more (or a replaced) field. -/
abbrev put (c : Coll α U) (name : String) (f : Field α U) : Coll α U :=
  { c with fields := c.fields.insert name f }

/-- Cloning to a new name registers the field and assigns. -/
theorem clone_new {srt : SortFn} {c : Coll α U} (hinv : SizeInv c) (hi : c.initialised = true)
    {src dst : String} {f : Field α U} (hf : c.fields.find src = some f)
    (hd : c.fields.find dst = none) (ow : Bool) :
    ∃ g : Field α U, (g.ty = f.ty ∧ g.shape = [f.nbComp] ∧ g.nbComp = f.nbComp ∧ g.nbSub = f.nbSub ∧
        g.tag = f.tag ∧ g.unit = f.unit ∧ g.pad = 0 ∧ g.fresh = true) ∧
      (g.vals.length : Int) = f.nbComp * f.nbSub * c.nbBuf ∧ (∀ v ∈ g.vals, v = default) ∧
      c.clone srt src dst ow =
        (((put c dst g).assignField srt f g).1,
          put (put c dst g) dst ((put c dst g).assignField srt f g).2) := by
  obtain ⟨s1, s2, s3⟩ := hinv.size hi src f hf
  have hcomp := hinv.comp src f hf
  have hbuf := hinv.buf hi
  have hpos : 1 ≤ f.nbSub := (hinv.sub_pos hf).resolve_left s1
  have htag := hinv.wf.tags src f hf
  have hreg := C10_register_new_ok c dst hd f.ty (.num f.nbComp) f.tag f.unit false
    (Or.inr ⟨f.nbSub, htag, s1, by simp only [Comps.toNb]; positivity⟩)
  have hget : c.getSub f.tag = (f.nbSub, c) := by
    rcases c.getSub_cases f.tag with ⟨n, _, h2, h3⟩ | ⟨h2, _⟩
    · rw [htag] at h2; cases h2; exact h3
    · rw [htag] at h2
      rcases h2 with h2 | h2
      · cases h2
      · exact absurd (Option.some.inj h2) s1
  rcases c.register_cases dst f.ty (.num f.nbComp) f.tag f.unit false with
    ⟨g, h1, _⟩ | ⟨_, g, ⟨f1, f2, f3, f4, f5, f6, f7⟩, h2, h3, h4⟩ | ⟨_, _, ⟨e, h2⟩, h3⟩
  · rw [hd] at h1; cases h1
  · obtain ⟨e1, e2, e3, e4, e5⟩ := h4 hi
    rw [hget] at f4 h2
    simp only at f4 h2
    refine ⟨g, ⟨f1, f2, f3, f4, f5, f6, f7, e3⟩, ?_, e5, ?_⟩
    · rw [e4, f4, f3]; simp only [Comps.toNb]; ring
    · unfold clone
      simp only [hf, hd, h2, SMap.find_insert_self]
  · rw [hreg] at h2; cases h2

/-- The full claim: a successful or attempted clone of a field of an initialised collection to a new name
yields a field of the same shape, sub-division, unit and values. -/
def C47_statement : Prop :=
  ∀ (srt : SortFn), SortSpec srt → ∀ (global : Bool) (dim : Int) (order : StorageOrder)
    (sub : SMap String Int) (c0 c : Coll Int String), sub.Sorted →
    (∀ tag n, sub.find tag = some n → 1 ≤ n) → mk' global dim order sub = .ok c0 →
    Reachable srt Adm c0 c → c.initialised = true →
    ∀ src dst f, c.fields.find src = some f → c.fields.find dst = none →
      ∃ g, (c.clone srt src dst false).2.fields.find dst = some g ∧
        (c.clone srt src dst false).1 = .ok () ∧ g.shape = f.shape ∧ g.vals = f.vals

/-- **C47** On a local collection a clone to a new name succeeds, registers exactly one field, of the same
type, sub-division and unit, holding the values of the original.  Missing: its component shape is
`{nb_components}`, which is the original's only if that has one axis. -/
theorem C47_local_partial {srt : SortFn} {dim : Int} {order : StorageOrder}
    {sub : SMap String Int} (hs : sub.Sorted)
    (hv : ∀ tag n, sub.find tag = some n → n = Unknown ∨ 1 ≤ n) {c0 c : Coll α U}
    (hc : mk' false dim order sub = .ok c0) (hr : Reachable srt Adm c0 c) (hg : c.global = false)
    (hi : c.initialised = true)
    {src dst : String} {f : Field α U} (hf : c.fields.find src = some f)
    (hd : c.fields.find dst = none) (ow : Bool) :
    ∃ g : Field α U, c.clone srt src dst ow = (.ok (), put c dst g) ∧
      g.ty = f.ty ∧ g.shape = [f.nbComp] ∧ g.nbSub = f.nbSub ∧ g.tag = f.tag ∧ g.unit = f.unit ∧
      g.vals = f.vals.take (f.nbComp * f.nbSub * c.nbPixels).toNat ∧
      (g.vals.length : Int) = f.nbComp * f.nbSub * c.nbPixels := by
  have hinv := reachable_size hs hv hc hr
  have hpix := reachable_pix hc hr
  obtain ⟨hp1, hp2⟩ := hpix.loc hg hi
  have hnn : c.nbBuf = c.nbPixels := by rw [hp1, hp2]
  obtain ⟨s1, s2, s3⟩ := hinv.size hi src f hf
  have hcomp := hinv.comp src f hf
  have hbuf := hinv.buf hi
  have hpos : 1 ≤ f.nbSub := (hinv.sub_pos hf).resolve_left s1
  obtain ⟨g, ⟨g1, g2, g3, g4, g5, g6, g7, g8⟩, gl, gd, hcl⟩ := clone_new (srt := srt) hinv hi hf hd ow
  rw [hnn] at gl s2 hbuf
  have hent : 0 ≤ f.nbSub * c.nbPixels := by positivity
  have hN : 0 ≤ f.nbSub * c.nbPixels * f.nbComp := by positivity
  have hNe : f.nbSub * c.nbPixels * f.nbComp = f.nbComp * f.nbSub * c.nbPixels := by ring
  have hass : (put c dst g).assignField srt f g =
      (.ok (), { g with vals := f.vals.take (f.nbComp * f.nbSub * c.nbPixels).toNat ++ g.vals.drop (f.nbComp * f.nbSub * c.nbPixels).toNat }) := by
    have e1 : f.nbEntries c.nbPixels = f.nbSub * c.nbPixels := by simp [Field.nbEntries, Field.hasSub, s1]
    have e2 : g.nbEntries c.nbPixels = f.nbSub * c.nbPixels := by
      simp [Field.nbEntries, Field.hasSub, g4, s1]
    unfold assignField
    simp only [hg, hi, e1, e2, g3, g8, s3]
    have hu : ¬ f.nbSub * c.nbPixels = Unknown := by unfold Unknown; omega
    have h1 : f.nbSub * c.nbPixels * f.nbComp ≤ f.vals.length := by omega
    have h2 : f.nbSub * c.nbPixels * f.nbComp ≤ g.vals.length := by omega
    simp only [Bool.false_eq_true, if_false, not_true_eq_false, hu, or_self, hN, h1, h2, and_self, if_true]
    rw [hNe]
  rw [hcl, hass]
  simp only
  have hdrop : g.vals.drop (f.nbComp * f.nbSub * c.nbPixels).toNat = [] := by
    apply List.drop_eq_nil_of_le; omega
  rw [hdrop, List.append_nil]
  have hins : ∀ (x y : Field α U), (c.fields.insert dst x).insert dst y = c.fields.insert dst y := by
    intro x y
    apply SMap.ext_find (SMap.sorted_insert (SMap.sorted_insert hinv.wf.fields_sorted _ _) _ _)
      (SMap.sorted_insert hinv.wf.fields_sorted _ _)
    intro k
    simp only [SMap.find_insert]
    split <;> simp_all
  refine ⟨{ g with vals := f.vals.take (f.nbComp * f.nbSub * c.nbPixels).toNat }, ?_, g1, g2, g4, g5, g6, rfl, ?_⟩
  · simp only [put, hins]
  · simp only [List.length_take]; omega

/-- The full statement's values: taking `nb_components*nb_sub_pts*nb_pixels` entries is everything if
there is no padding. -/
theorem C47_local_values {f : Field α U} {n : Int} (h : (f.vals.length : Int) = n + f.pad)
    (hp : f.pad = 0) : f.vals.take n.toNat = f.vals := by
  apply List.take_of_length_le; omega

/-- A local collection with a field of two components. -/
def exLocalProgram : List (Op Int String) :=
  [.addPixel 3, .addPixel 8, .register "a" .int (.num 2) "pixel" "" false, .initLocal, .write "a" 2 7]

example : (exLocal.run stableSort exLocalProgram).map (fun c => (c.clone stableSort "a" "b" false).1) =
      some (.ok ()) ∧
    (exLocal.run stableSort exLocalProgram).map
      (fun c => (c.clone stableSort "a" "b" false).2.fields.map (fun e => (e.1, e.2.vals))) =
    some [("a", [0, 0, 7, 0]), ("b", [0, 0, 7, 0])] := by
  decide +kernel

/-- **C47** On a global collection a clone to a new name of a field whose components have one axis
succeeds: exactly one field is added, with the same attributes, and with the value of the original at
every element; entries between elements (row padding of strided pixels) are zero. -/
theorem C47_global_partial {srt : SortFn} (hsrt : SortSpec srt) {dim : Int} {order : StorageOrder}
    {sub : SMap String Int} (hs : sub.Sorted)
    (hv : ∀ tag n, sub.find tag = some n → n = Unknown ∨ 1 ≤ n) {c0 c : Coll α U}
    (hc : mk' true dim order sub = .ok c0) (hr : Reachable srt Adm c0 c) (hg : c.global = true)
    (hi : c.initialised = true) (ho : c.order = .colMajor ∨ c.order = .rowMajor)
    (hpp : Pos c.pixels.nb) (ha : Addressing c.pixels.nb c.pixels.strides c.nbBuf)
    {src dst : String} {f : Field α U} (hf : c.fields.find src = some f) (hrank : f.shape.length = 1)
    (hd : c.fields.find dst = none) (ow : Bool) :
    ∃ (g : Field α U) (ms : List Int), c.clone srt src dst ow = (.ok (), put c dst g) ∧
      g.ty = f.ty ∧ g.shape = f.shape ∧ g.nbSub = f.nbSub ∧ g.tag = f.tag ∧ g.unit = f.unit ∧
      (g.vals.length : Int) = f.nbComp * f.nbSub * c.nbBuf ∧
      (c.layout f).strides .subPt 1 = .ok ms ∧
      (∀ x, InBox ((c.layout f).shape .subPt) x →
        g.vals[(dot ms x).toNat]? = f.vals[(dot ms x).toNat]? ∧ (f.vals[(dot ms x).toNat]?).isSome) ∧
      (∀ i : Nat, i < g.vals.length → (∀ x, InBox ((c.layout f).shape .subPt) x → dot ms x ≠ i) →
        g.vals[i]? = some default) := by
  have hinv := reachable_size hs hv hc hr
  obtain ⟨s1, s2, s3⟩ := hinv.size hi src f hf
  have hcomp := hinv.comp src f hf
  have hbuf := hinv.buf hi
  have hpos : 1 ≤ f.nbSub := (hinv.sub_pos hf).resolve_left s1
  obtain ⟨g, ⟨g1, g2, g3, g4, g5, g6, g7, g8⟩, gl, gd, hcl⟩ := clone_new (srt := srt) hinv hi hf hd ow
  have hshape : f.shape = [f.nbComp] := by
    have := hinv.wf.comps src f hf
    match hfs : f.shape, hrank with
    | [n], _ => rw [hfs] at this; simp [getSize] at this; rw [this]
  have hlay : (put c dst g).layout g = c.layout f := by
    simp [Coll.layout, g2, g4, hshape]
  have hlay' : (put c dst g).layout f = c.layout f := rfl
  have hps : (c.layout f).pixShape = c.pixels.nb := by simp [Coll.layout, hg]
  have hpt : (c.layout f).pixStrides = c.pixels.strides := by simp [Coll.layout, hg]
  have hnc : (c.layout f).nbComp = f.nbComp := (hinv.wf.comps src f hf).symm
  have hcompsL : (c.layout f).comps = f.shape := rfl
  have hsubL : (c.layout f).nbSub = f.nbSub := rfl
  have hbufL : (c.layout f).nbBuf = c.nbBuf := rfl
  have hsize : (c.layout f).nbComp * (c.layout f).nbSub * (c.layout f).nbBuf =
      f.nbComp * f.nbSub * c.nbBuf := by rw [hnc]; rfl
  have haL : Addressing (c.layout f).pixShape (c.layout f).pixStrides (c.layout f).nbBuf := by
    rw [hps, hpt]; exact ha
  have hmem : ∀ (h : Field α U), h.fresh = true → f.nbComp * f.nbSub * c.nbBuf ≤ h.vals.length →
      ∀ i, 0 ≤ i → i < (c.layout f).nbComp * (c.layout f).nbSub * (c.layout f).nbBuf →
        (Field.mem h i).isSome := by
    intro h hfr hl i h0 h1
    rw [hsize] at h1
    simp only [Field.mem, hfr, h0, and_self, if_true]
    rw [List.getElem?_eq_getElem (by omega)]; rfl
  have hposShape : Pos ((c.layout f).shape .subPt) := by
    obtain ⟨_, _, hsh, _⟩ := C18_sub_pt_strides (c.layout f) ho haL
    rw [hsh, hcompsL, hsubL, hps, hshape]
    intro m hm
    simp only [List.cons_append, List.nil_append, List.mem_cons] at hm
    rcases hm with rfl | rfl | hm
    · omega
    · omega
    · exact hpp m hm
  obtain ⟨ms, os, dst', h1, h2, h3, h4, h5⟩ := C20_assign hsrt (c.layout f) (c.layout f) (Field.mem f)
    (Field.mem g) ho ho haL haL hposShape rfl (hmem f s3 (by omega)) (hmem g g8 (by omega))
  rw [h1] at h2; cases h2
  obtain ⟨ms', k1, _, k3, _⟩ := C18_sub_pt_strides (c.layout f) ho haL
  rw [h1] at k1; cases k1
  have hass : (put c dst g).assignField srt f g =
      (.ok (), Field.ofMem g dst') := by
    unfold assignField
    rw [if_pos hg, hlay, hlay', h3]
  have hins : ∀ (x y : Field α U), (c.fields.insert dst x).insert dst y = c.fields.insert dst y := by
    intro x y
    apply SMap.ext_find (SMap.sorted_insert (SMap.sorted_insert hinv.wf.fields_sorted _ _) _ _)
      (SMap.sorted_insert hinv.wf.fields_sorted _ _)
    intro k
    simp only [SMap.find_insert]
    split <;> simp_all
  refine ⟨Field.ofMem g dst', ms, ?_, g1, by simp only [Field.ofMem]; rw [g2, hshape], g4, g5, g6, ?_, h1, ?_, ?_⟩
  · rw [hcl, hass]; simp only [put, hins]
  · simp only [Field.ofMem, List.length_map, List.length_range]; exact gl
  · intro x hx
    have hb := k3.bounds x hx
    rw [hsize] at hb
    have hlt : (dot ms x).toNat < g.vals.length := by omega
    have hlt' : (dot ms x).toNat < f.vals.length := by omega
    have hfm : Field.mem f (dot ms x) = f.vals[(dot ms x).toNat]? := by
      simp [Field.mem, s3, hb.1]
    refine ⟨?_, by rw [List.getElem?_eq_getElem hlt']; rfl⟩
    simp only [Field.ofMem, List.getElem?_map]
    rw [List.getElem?_eq_getElem (by simpa using hlt)]
    simp only [List.getElem_range, Option.map_some]
    rw [show ((dot ms x).toNat : Int) = dot ms x by omega, h4 x hx, hfm]
    rw [List.getElem?_eq_getElem hlt']; rfl
  · intro i hi' hx
    simp only [Field.ofMem, List.length_map, List.length_range] at hi'
    simp only [Field.ofMem, List.getElem?_map]
    rw [List.getElem?_eq_getElem (by simpa using hi')]
    simp only [List.getElem_range, Option.map_some]
    rw [h5 i hx]
    have : Field.mem g (i : Int) = some g.vals[i] := by
      simp [Field.mem, g8, List.getElem?_eq_getElem hi']
    rw [this]
    simp [gd _ (List.getElem_mem hi')]

example : exAfter.fields.find "flag" =
      some ⟨.int, [1], 1, 1, "pixel", "", 0, 6, [0, 0, 0, 0, 0, 0], true⟩ ∧
    exAfter.pixels.nb = [3, 2] ∧ exAfter.pixels.strides = [1, 3] ∧ exAfter.nbBuf = 6 ∧
    ((exAfter.step stableSort (.write "flag" 4 9)).2.clone stableSort "flag" "copy" false).1 = .ok () ∧
    ((exAfter.step stableSort (.write "flag" 4 9)).2.clone stableSort "flag" "copy" false).2.fields.find
      "copy" = some ⟨.int, [1], 1, 1, "pixel", "", 0, 6, [0, 0, 0, 0, 9, 0], true⟩ := by
  decide +kernel

/-- On a global collection cloning a field whose components do not have exactly one axis always fails, and
leaves a new field behind: `clone` registers it with a flat component shape (field_typed.cc 315-337),
and the following assignment requires equal shapes. -/
theorem C47_global_rank_fails {srt : SortFn} {dim : Int} {order : StorageOrder}
    {sub : SMap String Int} (hs : sub.Sorted)
    (hv : ∀ tag n, sub.find tag = some n → n = Unknown ∨ 1 ≤ n) {c0 c : Coll α U}
    (hc : mk' true dim order sub = .ok c0) (hr : Reachable srt Adm c0 c) (hg : c.global = true)
    (hi : c.initialised = true)
    {src dst : String} {f : Field α U} (hf : c.fields.find src = some f) (hrank : f.shape.length ≠ 1)
    (hd : c.fields.find dst = none) (ow : Bool) :
    (c.clone srt src dst ow).1 = .throw .fieldError ∧
      ((c.clone srt src dst ow).2.fields.find dst).isSome := by
  have hinv := reachable_size hs hv hc hr
  obtain ⟨g, ⟨g1, g2, g3, g4, g5, g6, g7, g8⟩, gl, gd, hcl⟩ := clone_new (srt := srt) hinv hi hf hd ow
  have hass : (put c dst g).assignField srt f g =
      (.throw .fieldError, g) := by
    unfold assignField
    rw [if_pos hg]
    have hne : ((put c dst g).layout g).shape .subPt ≠
        ((put c dst g).layout f).shape .subPt := by
      intro heq
      have := congrArg List.length heq
      simp [FieldLayout.shape, FieldLayout.subPtShape, Coll.layout, g2] at this
      omega
    rw [C20_shape_mismatch srt _ _ _ _ hne]
  rw [hcl, hass]
  refine ⟨rfl, ?_⟩
  simp [SMap.find_insert_self]

example : (exAfter.fields.find "strain").map (fun f => f.shape) = some [2, 2] ∧
    exAfter.fields.find "copy" = none := by decide +kernel

theorem exAfter_reachable : Reachable stableSort Adm exColl exAfter := by
  refine reachable_of_run (ops := exProgram) ?_ Reachable.start exAfter_run
  intro d op hop
  simp only [exProgram, List.mem_cons, List.mem_nil_iff, or_false] at hop
  rcases hop with rfl | rfl | rfl | rfl <;> simp [Adm, Comps.toNb, getSize]

/-- **C47** is false: a field of 2 × 2 components on a global collection. -/
theorem C47_false : ¬ C47_statement := by
  intro h
  have hv : ∀ tag n, SMap.find [("quad", (4 : Int))] tag = some n → 1 ≤ n := by
    intro tag n hn; simp [SMap.find] at hn; omega
  obtain ⟨f, hf⟩ : ∃ f, exAfter.fields.find "strain" = some f :=
    Option.isSome_iff_exists.1 (by decide +kernel)
  have hd : exAfter.fields.find "copy" = none := by decide +kernel
  obtain ⟨g, _, h2, _⟩ := h stableSort stableSort_spec true 2 .colMajor [("quad", 4)] exColl exAfter
    (by simp [SMap.Sorted]) hv exColl_made exAfter_reachable (by decide +kernel) "strain" "copy" f hf hd
  have hsh : f.shape.length ≠ 1 := by
    have : (exAfter.fields.find "strain").map (fun f => f.shape.length) = some 2 := by decide +kernel
    rw [hf] at this
    simp at this; omega
  have := C47_global_rank_fails (srt := stableSort) (by simp [SMap.Sorted]) (fun t n h => Or.inr (hv t n h))
    exColl_made exAfter_reachable (by decide +kernel) (by decide +kernel) hf hsh hd false
  rw [this.1] at h2
  cases h2

/-! ## C48 -/

/-- **C48** `reshape(shape)` succeeds exactly if the number of components is unchanged; then nothing but
the shape changes.  Otherwise it raises `FieldError` and changes nothing. -/
theorem C48_reshape (f : Field α U) (shape : List Int) :
    (getSize shape = f.nbComp ∧ f.reshape shape = (.ok (), { f with shape := shape })) ∨
    (getSize shape ≠ f.nbComp ∧ f.reshape shape = (.throw .fieldError, f)) := by
  unfold Field.reshape
  by_cases h : getSize shape = f.nbComp
  · left; simp [h]
  · right; simp [h]

example : (⟨.real, [2, 2], 4, 1, "pixel", "", 0, 0, [], false⟩ : Field Int String).reshape [4] =
    (.ok (), ⟨.real, [4], 4, 1, "pixel", "", 0, 0, [], false⟩) := by decide +kernel

/-- **C48** `reshape(shape, tag)` succeeds exactly if the number of degrees of freedom per pixel is
unchanged; then type, unit, padding and all values stay, so the buffer has the size the new shape asks
for if it had it before.  Otherwise all fields are as before. -/
theorem C48_reshape_tag (c : Coll α U) {name : String} {f : Field α U}
    (hf : c.fields.find name = some f) (shape : List Int) (tag : String) :
    (getSize shape * (c.getSub tag).1 = f.nbComp * f.nbSub ∧
      (c.reshapeTag name shape tag).1 = .ok () ∧
      (∃ f', (c.reshapeTag name shape tag).2.fields.find name = some f' ∧
        f' = { f with shape := shape, nbComp := getSize shape, nbSub := (c.getSub tag).1, tag := tag } ∧
        f'.vals = f.vals ∧ f'.nbComp * f'.nbSub = f.nbComp * f.nbSub ∧
        (∀ b : Int, (f.vals.length : Int) = f.nbComp * f.nbSub * b + f.pad →
          (f'.vals.length : Int) = f'.nbComp * f'.nbSub * b + f'.pad)) ∧
      (∀ name', name' ≠ name →
        (c.reshapeTag name shape tag).2.fields.find name' = c.fields.find name')) ∨
    (getSize shape * (c.getSub tag).1 ≠ f.nbComp * f.nbSub ∧
      (c.reshapeTag name shape tag).1 = .throw .fieldError ∧
      (c.reshapeTag name shape tag).2.fields = c.fields) := by
  rcases c.reshapeTag_cases name shape tag with ⟨h1, _⟩ | ⟨g, h1, h2, h3⟩ | ⟨g, h1, h2, h3⟩
  · rw [hf] at h1; cases h1
  · rw [hf] at h1; cases h1
    right
    rw [h3]
    exact ⟨h2, rfl, (c.getSub_frame tag).2.1⟩
  · rw [hf] at h1; cases h1
    left
    rw [h3]
    refine ⟨h2, rfl, ⟨_, SMap.find_insert_self _ _ _, rfl, rfl, h2, ?_⟩, ?_⟩
    · intro b hb
      simp only
      rw [h2]; exact hb
    · intro name' hn
      exact SMap.find_insert_ne _ _ hn

example : (exAfter.reshapeTag "strain" [16] "pixel").1 = .ok () ∧
    (exAfter.reshapeTag "strain" [8] "quad").1 = .throw .fieldError := by decide +kernel

/-- `reshape(shape, tag)` does not adjust `current_nb_entries`: entries pushed to a field before it is
reshaped make the initialisation fail, which succeeds without the reshape. -/
theorem C48_stale_count :
    (exLocal.run stableSort [.addPixel 3, .register "a" .int (.num 1) "quad" "" false,
      .pushBack "a" false [5], .reshapeTag "a" [4] "pixel"]).map (fun c => c.initLocal.1) =
        some (.throw .fieldCollectionError) ∧
    (exLocal.run stableSort [.addPixel 3, .register "a" .int (.num 1) "quad" "" false,
      .pushBack "a" false [5]]).map (fun c => c.initLocal.1) = some (.ok ()) := by
  decide +kernel

/-! ## C53 -/

/-- **C53** `push_back` succeeds exactly on a field of a local collection with known sub-points and for a
value with the right number of components; then the value is appended once per sub-point
(`push_back_single`: once), all earlier entries stay, and no attribute changes. -/
theorem C53_push_back (f : Field α U) (global single : Bool) (value : List α) :
    (global = false ∧ f.nbSub ≠ Unknown ∧ f.nbComp = value.length ∧
      (f.pushBack global single value).1 = .ok () ∧
      (f.pushBack global single value).2.vals =
        f.vals ++ (List.replicate (if single then 1 else f.nbSub.toNat) value).flatten ∧
      (f.pushBack global single value).2.cur = f.cur + (if single then 1 else f.nbSub) ∧
      (f.pushBack global single value).2 = { f with
        cur := (f.pushBack global single value).2.cur,
        vals := (f.pushBack global single value).2.vals, fresh := false }) ∨
    (¬ (global = false ∧ f.nbSub ≠ Unknown ∧ f.nbComp = value.length) ∧
      f.pushBack global single value = (.throw .fieldError, f)) := by
  unfold Field.pushBack Field.hasSub
  by_cases h1 : global = false
  · by_cases h2 : f.nbSub = Unknown
    · right; simp [h1, h2]
    · by_cases h3 : f.nbComp = value.length
      · left
        refine ⟨h1, h2, h3, ?_⟩
        cases single <;> simp [h1, h2, h3]
      · right; simp [h1, h2, h3]
  · right
    have h1' : global = true := by simpa using h1
    simp [h1']

example : (⟨.int, [2], 2, 3, "quad", "", 0, 0, [], false⟩ : Field Int String).pushBack false false [1, 2] =
    (.ok (), ⟨.int, [2], 2, 3, "quad", "", 0, 3, [1, 2, 1, 2, 1, 2], false⟩) := by decide +kernel

/-- **C53** A sequence of `push_back` appends the values in order, one block per call, whatever else is
appended to other fields in between. -/
theorem C53_sequence {srt : SortFn} {c c' : Coll α U} (hg : c.global = false) {name : String}
    {f : Field α U} (hf : c.fields.find name = some f) (hsub : f.nbSub ≠ Unknown)
    (calls : List (String × List α)) (hlen : ∀ e ∈ calls, e.1 = name → f.nbComp = e.2.length)
    (hr : c.run srt (calls.map (fun e => Op.pushBack e.1 false e.2)) = some c') :
    ∃ f', c'.fields.find name = some f' ∧
      f'.vals = f.vals ++ ((calls.filter (fun e => e.1 = name)).map
        (fun e => (List.replicate f.nbSub.toNat e.2).flatten)).flatten ∧
      f'.cur = f.cur + f.nbSub * (calls.filter (fun e => e.1 = name)).length := by
  induction calls generalizing c f with
  | nil => simp [run] at hr; subst hr; exact ⟨f, hf, by simp, by simp⟩
  | cons e calls ih =>
    have hrun : (c.step srt (.pushBack e.1 false e.2)).2.run srt
        (calls.map (fun e => Op.pushBack e.1 false e.2)) = some c' := by
      simp only [List.map_cons] at hr
      unfold run at hr
      rcases hst : c.step srt (.pushBack e.1 false e.2) with ⟨r, c1⟩
      rw [hst] at hr
      cases r with
      | ub => simp at hr
      | ok u => exact hr
      | throw e => exact hr
    have hg1 : (c.step srt (.pushBack e.1 false e.2)).2.global = false := by
      have := (onField_frame c e.1 (fun f => f.pushBack c.global false e.2)).1
      simp only [base, Prod.mk.injEq] at this
      exact this.1.trans hg
    by_cases he : e.1 = name
    · have hl := hlen e (by simp) he
      have hst : (c.step srt (.pushBack e.1 false e.2)).2.fields.find name =
          some (f.pushBack false false e.2).2 := by
        simp only [Coll.step, onField, he, hf, hg]
        exact SMap.find_insert_self _ _ _
      rcases C53_push_back f false false e.2 with ⟨_, _, _, _, h5, h6, h7⟩ | ⟨h, _⟩
      · have hcomp : (f.pushBack false false e.2).2.nbComp = f.nbComp := (congrArg Field.nbComp h7 :)
        have hns : (f.pushBack false false e.2).2.nbSub = f.nbSub := (congrArg Field.nbSub h7 :)
        obtain ⟨f', k1, k2, k3⟩ := ih hg1 hst (by rw [hns]; exact hsub)
          (fun x hx hxn => by rw [hcomp]; exact hlen x (by simp [hx]) hxn) hrun
        refine ⟨f', k1, ?_, ?_⟩
        · rw [k2, h5, hns]
          simp [he]
        · rw [k3, h6, hns]
          simp only [Bool.false_eq_true, if_false, List.filter_cons, he, decide_true, if_true,
            List.length_cons]
          push_cast; ring
      · exact absurd ⟨rfl, hsub, hl⟩ h
    · have hst : (c.step srt (.pushBack e.1 false e.2)).2.fields.find name = some f := by
        simp only [Coll.step]
        rcases c.onField_cases e.1 (fun f => f.pushBack c.global false e.2) with ⟨_, h2⟩ | ⟨x, h1, h2⟩
        · rw [h2]; exact hf
        · rw [h2]
          simp only [SMap.find_insert_ne _ _ (Ne.symm he)]; exact hf
      obtain ⟨f', k1, k2, k3⟩ := ih hg1 hst hsub (fun x hx hxn => hlen x (by simp [hx]) hxn) hrun
      refine ⟨f', k1, ?_, ?_⟩
      · rw [k2]; simp [he]
      · rw [k3]; simp [he]

example : (exLocal.run stableSort [.register "a" .int (.num 1) "pixel" "" false]).map
    (fun c => (c.run stableSort ([("a", [5]), ("b", [1]), ("a", [6])].map
      (fun e => Op.pushBack e.1 false e.2))).map (fun c => c.fields.map (fun e => e.2.vals))) =
    some (some [[5, 6]]) := by decide +kernel

/-- **C53** A successful `initialise` of a local collection requires the number of entries of every field
to be zero or the number of pixels times its sub-points; a filled field (without padding) keeps exactly
its values, an empty one is filled with zeros. -/
theorem C53_initialise {c c' : Coll α U} (hi : c.initialised = false) (h : c.initLocal = (.ok (), c')) :
    ∀ name f, c.fields.find name = some f →
      (f.cur = 0 ∨ f.cur = f.nbSub * c.pixelIndices.length) ∧
      ∃ f', c'.fields.find name = some f' ∧
        (∀ i, i < f.vals.length → i < f'.vals.length → f'.vals[i]? = f.vals[i]?) ∧
        (∀ i, f.vals.length ≤ i → i < f'.vals.length → f'.vals[i]? = some default) ∧
        ((f.vals.length : Int) = f.nbSub * c.pixelIndices.length * f.nbComp → f.pad = 0 →
          f'.vals = f.vals) := by
  intro name f hf
  have he := initLocal_effect c hi
  have hb := initLocal_base hi
  simp only [base, Prod.mk.injEq] at hb
  obtain ⟨b1, b2, b3, b4, b5, b6, b7, b8, b9, b10⟩ := hb
  obtain ⟨cur, vals, fresh, hfo⟩ := he.forth name f hf
  obtain ⟨g, hg, hres, hcur⟩ := he.resized (by rw [h]) name _ hfo
  rw [hf] at hg
  cases hg
  obtain ⟨r1, r2, r3, r4, r5, r6⟩ := Field.resize_ok hres
  rw [b4] at hcur
  rw [b5] at r3
  simp only [Field.nbEntries, Field.hasSub, bne_iff_ne, ne_eq, r1, not_false_eq_true, if_true] at hcur
  rw [h] at hfo
  refine ⟨hcur, _, hfo, r5, r6, ?_⟩
  intro hl hp
  simp only at r3 ⊢
  rw [hp] at r3
  apply List.ext_getElem?
  intro i
  by_cases hil : i < f.vals.length
  · exact r5 i hil (by simp only; omega)
  · rw [List.getElem?_eq_none (by omega), List.getElem?_eq_none (by omega)]

/-- **C53** If some field has another number of entries, `initialise` fails. -/
theorem C53_initialise_fails {c : Coll α U} (hi : c.initialised = false) {name : String}
    {f : Field α U} (hf : c.fields.find name = some f) (h0 : f.cur ≠ 0)
    (h1 : f.cur ≠ f.nbSub * c.pixelIndices.length) : c.initLocal.1 ≠ .ok () := by
  intro hok
  rcases hl : c.initLocal with ⟨r, c'⟩
  rw [hl] at hok
  simp only at hok
  subst hok
  obtain ⟨h, _⟩ := C53_initialise hi hl name f hf
  rcases h with h | h
  · exact h0 h
  · exact h1 h

example : (exLocal.run stableSort [.addPixel 3, .addPixel 4, .register "a" .int (.num 1) "pixel" "" false,
      .pushBack "a" false [5], .pushBack "a" false [6]]).map (fun c => (c.initialised, c.initLocal.1,
        c.initLocal.2.fields.map (fun e => e.2.vals))) = some (false, .ok (), [[5, 6]]) ∧
    (exLocal.run stableSort exBad).map (fun c => c.initLocal.1) = some (.throw .fieldCollectionError) := by
  decide +kernel

/-! ## C49 -/

/-- The full claim: an empty clone of an initialised global collection has the same layout. -/
def C49_statement : Prop :=
  ∀ (srt : SortFn), SortSpec srt → ∀ (dim : Int) (order : StorageOrder) (sub : SMap String Int)
    (c0 c : Coll Int String) (ops : List (Op Int String)), sub.Sorted →
    mk' true dim order sub = .ok c0 → c0.run srt ops = some c → c.initialised = true →
    ∃ d, c.emptyCloneGlobal srt = .ok d ∧ d.fields = [] ∧ d.subPts = c.subPts ∧
      d.pixelIndices = c.pixelIndices ∧ d.pixels = c.pixels ∧ d.order = c.order ∧ d.nbBuf = c.nbBuf

theorem mkStrided_eq {srt : SortFn} {nb loc strides : List Int} {px : DynamicPixels}
    (h : DynamicPixels.mkStrided srt nb loc strides = .ok px) : px.loc.length = px.nb.length := by
  unfold DynamicPixels.mkStrided at h
  simp only at h
  split at h
  · cases h
  · rw [Res.bind_eq_ok] at h
    obtain ⟨axes, _, h⟩ := h
    rw [Res.bind_eq_ok] at h
    obtain ⟨b, _, h⟩ := h
    split at h
    · cases h
    · rename_i hl
      simp at h; subst h
      simp only
      by_contra hc
      exact hl (fun h => hc h.symm)

/-- **C49** The empty clone of an initialised global collection of one to three dimensions has no fields,
the same sub-point numbers, domain, subdomain, locations and pixels.  Its storage order and the order
of its pixels are column-major *whatever those of the original are*; so the layout is that of
the original exactly if this is column-major with default strides. -/
theorem C49_global_partial {srt : SortFn} (hsrt : SortSpec srt) {dim : Int} {order : StorageOrder}
    {sub : SMap String Int} (hs : sub.Sorted) {c0 c : Coll α U} (hc : mk' true dim order sub = .ok c0)
    {ops : List (Op α U)} (hr : c0.run srt ops = some c) (hg : c.global = true)
    (hi : c.initialised = true) (hp : Pos c.pixels.nb)
    (hd : c.pixels.nb.length = 1 ∨ c.pixels.nb.length = 2 ∨ c.pixels.nb.length = 3) :
    ∃ d, c.emptyCloneGlobal srt = .ok d ∧ d.fields = [] ∧ d.states = [] ∧ d.subPts = c.subPts ∧
      d.dim = c.dim ∧ d.domainPts = c.domainPts ∧ d.pixelIndices = c.pixelIndices ∧
      d.nbPixels = c.nbPixels ∧ d.pixels.nb = c.pixels.nb ∧ d.pixels.loc = c.pixels.loc ∧
      d.initialised = true ∧ d.order = .colMajor ∧ d.pixels.strides = colMajorStrides c.pixels.nb ∧
      (c.pixels.strides = colMajorStrides c.pixels.nb → d.pixels = c.pixels ∧ d.nbBuf = c.nbBuf) := by
  have hw := run_induct srt WF (mk'_wf hs hc) (fun d op hd _ => hd.step srt op) hr
  have hinv : PixInv srt c := run_induct srt (PixInv srt) (mk'_pixInv srt hc)
    (fun d op hd _ => hd.step op) hr
  obtain ⟨h1, h2, ⟨loc, h3⟩, h4, h5, h6⟩ := hinv.glob hg hi
  have hloc := mkStrided_eq h3
  have hne : c.pixels.nb.length ≠ 0 := by omega
  have hsub' : subdomainOr c.domainPts c.pixels.nb = c.pixels.nb := by simp [subdomainOr, hne]
  have hfill : DynamicPixels.fillLoc c.pixels.nb c.pixels.loc = c.pixels.loc := by
    unfold DynamicPixels.fillLoc
    rw [if_neg (by omega)]
  have hmk : (mk' true c.dim .colMajor c.subPts : Res (Coll α U)) = .ok (Coll.empty true c.dim .colMajor c.subPts) := by
    unfold mk'
    rcases (Coll.empty true c.dim .colMajor c.subPts : Coll α U).setNbSubPts_cases pixelTag 1 with
      ⟨_, h | ⟨k, hk, hk1, hk2⟩⟩ | ⟨_, _, h⟩
    · omega
    · have := hw.pixel
      rw [show (Coll.empty true c.dim .colMajor c.subPts : Coll α U).subPts = c.subPts from rfl, this] at hk
      cases hk; exact absurd rfl hk2
    · rw [h]
      have hins : c.subPts.insert pixelTag 1 = c.subPts := SMap.insert_mem hw.sub_sorted hw.pixel
      simp only [Coll.empty, hins]
      rfl
  have hstr : dynColMajorStrides c.pixels.nb = .ok (colMajorStrides c.pixels.nb) := by
    unfold dynColMajorStrides
    rcases hd with h | h | h <;> simp [h]
  have hcl : (colMajorStrides c.pixels.nb).length = c.pixels.nb.length := colMajorStrides_length _
  obtain ⟨b, hb, _⟩ := DynamicPixels.mkStrided_spec hsrt hp hcl
    (by rw [hfill]; exact hloc : (DynamicPixels.fillLoc c.pixels.nb c.pixels.loc).length = c.pixels.nb.length)
  rw [hfill] at hb
  have hbuf : getBufferSize c.pixels.nb (colMajorStrides c.pixels.nb) =
      .ok (bufferSizeAux 0 c.pixels.nb (colMajorStrides c.pixels.nb)) := by
    unfold getBufferSize; rw [if_neg (by simp [hcl])]
  obtain ⟨px, hpx⟩ : ∃ px, DynamicPixels.mkStrided srt c.pixels.nb c.pixels.loc (colMajorStrides c.pixels.nb) = .ok px :=
    ⟨_, hb⟩
  have hpx' := hb
  rw [hpx] at hpx'
  have hpxe := Res.ok.inj hpx'
  have hclone : c.emptyCloneGlobal srt = .ok { (Coll.empty true c.dim .colMajor c.subPts : Coll α U) with
      domainPts := c.domainPts, pixels := px, nbPixels := getSize c.pixels.nb,
      nbBuf := bufferSizeAux 0 c.pixels.nb (colMajorStrides c.pixels.nb),
      pixelIndices := (List.range (getSize c.pixels.nb).toNat).map (fun i : Nat => (i : Int)),
      initialised := true } := by
    unfold emptyCloneGlobal
    rw [hmk]
    simp only [initGlobalOrder, Coll.empty, if_true, hsub', hstr]
    unfold initGlobal
    rw [if_neg (by omega)]
    simp only [hsub', hpx, hbuf]
    rw [if_neg (by omega)]
    simp [allocateFields, allocate]
  refine ⟨_, hclone, rfl, rfl, rfl, rfl, rfl, h6.symm, h4.symm, ?_, ?_, rfl, rfl, ?_, ?_⟩
  · simp only; rw [hpxe]
  · simp only; rw [hpxe]
  · simp only; rw [hpxe]
  · intro hdef
    simp only
    constructor
    · have hl2 : (DynamicPixels.fillLoc c.pixels.nb loc) = c.pixels.loc := ((mkStrided_nb h3).2.2).symm
      have : DynamicPixels.mkStrided srt c.pixels.nb loc c.pixels.strides =
          DynamicPixels.mkStrided srt c.pixels.nb c.pixels.loc c.pixels.strides := by
        unfold DynamicPixels.mkStrided
        simp only [hl2, hfill]
      rw [this, hdef, hpx] at h3
      exact Res.ok.inj h3
    · rw [hdef, hbuf] at h5
      exact Res.ok.inj h5

example : exAfter.pixels.nb = [3, 2] ∧ exAfter.pixels.strides = colMajorStrides [3, 2] ∧
    exAfter.initialised = true ∧ exAfter.global = true := by decide +kernel

/-- A row-major collection on a 3 × 2 grid. -/
def exRow : Coll Int String := Coll.empty true 2 .rowMajor [("pixel", 1)]

/-- **C49** is false: the clone of a row-major collection is column-major. -/
theorem C49_false : ¬ C49_statement := by
  intro h
  have hr : exRow.run stableSort [.initGlobalOrder [3, 2] [] [] .automatic] =
      some ((exRow.run stableSort [.initGlobalOrder [3, 2] [] [] .automatic]).getD exRow) := by
    decide +kernel
  obtain ⟨d, h1, _, _, _, _, h6, _⟩ := h stableSort stableSort_spec 2 .rowMajor [] exRow _ _
    (by simp [SMap.Sorted]) (by decide +kernel) hr (by decide +kernel)
  obtain ⟨d', k1, _, _, _, _, _, _, _, _, _, _, k12, _⟩ := C49_global_partial (srt := stableSort)
    stableSort_spec (c0 := exRow) (dim := 2) (order := .rowMajor) (sub := []) (by simp [SMap.Sorted])
    (by decide +kernel) hr (by decide +kernel) (by decide +kernel)
    (by unfold Pos; decide +kernel) (by decide +kernel)
  rw [h1] at k1
  cases k1
  rw [k12] at h6
  revert h6
  decide +kernel

theorem addPixels_spec {srt : SortFn} : ∀ (ids : List Int) (d : Coll α U), PixInv srt d →
    d.initialised = false → d.global = false →
    PixInv srt (ids.foldl (fun d id => (d.addPixel id).2) d) ∧
    (ids.foldl (fun d id => (d.addPixel id).2) d).pixelIndices = d.pixelIndices ++ ids ∧
    (ids.foldl (fun d id => (d.addPixel id).2) d).global = false ∧
    (ids.foldl (fun d id => (d.addPixel id).2) d).fields = d.fields ∧
    (ids.foldl (fun d id => (d.addPixel id).2) d).subPts = d.subPts ∧
    (ids.foldl (fun d id => (d.addPixel id).2) d).order = d.order ∧
    (ids.foldl (fun d id => (d.addPixel id).2) d).initialised = false := by
  intro ids
  induction ids with
  | nil => intro d h hi hg; simp [h, hi, hg]
  | cons id ids ih =>
    intro d h hi hg
    have hstep : (d.step srt (.addPixel id)).2 = (d.addPixel id).2 := by simp [Coll.step, hg]
    have hinv := h.step (.addPixel id)
    rw [hstep] at hinv
    have hd : (d.addPixel id).2.pixelIndices = d.pixelIndices ++ [id] ∧ (d.addPixel id).2.global = false ∧
        (d.addPixel id).2.fields = d.fields ∧ (d.addPixel id).2.subPts = d.subPts ∧
        (d.addPixel id).2.order = d.order ∧ (d.addPixel id).2.initialised = false := by
      simp [addPixel, hi, hg]
    obtain ⟨d1, d2, d3, d4, d5, d6⟩ := hd
    obtain ⟨k1, k2, k3, k4, k5, k6, k7⟩ := ih (d.addPixel id).2 hinv d6 d2
    simp only [List.foldl_cons]
    exact ⟨k1, by rw [k2, d1]; simp, k3, by rw [k4, d3], by rw [k5, d4], by rw [k6, d5], k7⟩

/-- **C49** The empty clone of a local collection has no fields, the same sub-point numbers, pixels and
numbering; its storage order is column-major whatever that of the original is, and it is not
initialised. -/
theorem C49_local_partial {srt : SortFn} {dim : Int} {order : StorageOrder}
    {sub : SMap String Int} (hs : sub.Sorted) {c0 c : Coll α U} (hc : mk' false dim order sub = .ok c0)
    {ops : List (Op α U)} (hr : c0.run srt ops = some c) (hg : c.global = false) :
    ∃ d, c.emptyCloneLocal = .ok d ∧ d.fields = [] ∧ d.subPts = c.subPts ∧
      d.pixelIndices = c.pixelIndices ∧ d.g2l = c.g2l ∧ d.order = .colMajor ∧ d.initialised = false := by
  have hw := run_induct srt WF (mk'_wf hs hc) (fun d op hd _ => hd.step srt op) hr
  have hinv : PixInv srt c := run_induct srt (PixInv srt) (mk'_pixInv srt hc)
    (fun d op hd _ => hd.step op) hr
  have hins : c.subPts.insert pixelTag 1 = c.subPts := SMap.insert_mem hw.sub_sorted hw.pixel
  have hmk : ∃ e : Coll α U, mk' false c.dim .colMajor c.subPts = .ok e := by
    unfold mk'
    rcases (Coll.empty false c.dim .colMajor c.subPts : Coll α U).setNbSubPts_cases pixelTag 1 with
      ⟨_, h | ⟨k, hk, hk1, hk2⟩⟩ | ⟨_, _, h⟩
    · omega
    · have := hw.pixel
      rw [show (Coll.empty false c.dim .colMajor c.subPts : Coll α U).subPts = c.subPts from rfl, this] at hk
      cases hk; exact absurd rfl hk2
    · rw [h]; exact ⟨_, rfl⟩
  obtain ⟨e, he⟩ := hmk
  have hee := (mk'_spec he).2
  obtain ⟨k1, k2, k3, k4, k5, k6, k7⟩ := addPixels_spec (srt := srt) c.pixelIndices e (mk'_pixInv srt he)
    (by rw [hee]; rfl) (by rw [hee]; rfl)
  have hpi : (c.pixelIndices.foldl (fun d id => (d.addPixel id).2) e).pixelIndices = c.pixelIndices := by
    rw [k2, hee]; simp [Coll.empty]
  refine ⟨_, by unfold emptyCloneLocal; rw [he], by rw [k4, hee]; rfl, ?_, hpi, ?_, by rw [k6, hee]; rfl, k7⟩
  · rw [k5, hee]; exact hins
  · apply SMap.ext_find k1.sorted hinv.sorted
    intro id
    apply Option.ext
    intro k
    rw [k1.first k3, hinv.first hg, hpi]

example : (exLocal.run stableSort exLocalProgram).map (fun c => (c.global, c.pixelIndices)) =
    some (false, [3, 8]) := by decide +kernel

/-! ## C17 -/

/-- The entries of a pixel with `n` sub-points. -/
def pixelEntries (n : Int) (p : Int) : List Int := (List.range n.toNat).map (fun k : Nat => p * n + k)

theorem indexLoop_pixel {pix : List Int} {n : Int} (hn : 1 ≤ n) (pos : Nat) (p : Int)
    (hp : pix[pos]? = some p) (k : Nat) : ∀ fuel (rest : List Int), (k : Int) ≤ n →
      IndexIter.loop pix n fuel ⟨pos + 1, 0⟩ = .ok rest → 1 ≤ k →
      IndexIter.loop pix n (fuel + k) ⟨pos, n - k⟩ =
        .ok ((List.range k).map (fun j : Nat => p * n + (n - k) + j) ++ rest) := by
  induction k with
  | zero => intro _ _ _ _ h; omega
  | succ k ih =>
    intro fuel rest hk hrest _
    have hposlt : pos < pix.length := by
      by_contra hc
      rw [List.getElem?_eq_none (by omega)] at hp; cases hp
    have hne : ¬ (⟨pos, n - ((k + 1 : Nat) : Int)⟩ : IndexIter) = ⟨pix.length, 0⟩ := by
      intro h
      have := congrArg IndexIter.pos h
      simp only at this; omega
    rw [show fuel + (k + 1) = (fuel + k) + 1 by omega]
    unfold IndexIter.loop
    rw [if_neg hne]
    simp only [IndexIter.deref, hp, Res.ok_bind]
    by_cases hk0 : k = 0
    · subst hk0
      have hmod : (n - ((0 + 1 : Nat) : Int) + 1).tmod n = 0 := by
        rw [show n - ((0 + 1 : Nat) : Int) + 1 = n by push_cast; ring]; simp
      have hnx : IndexIter.next n ⟨pos, n - ((0 + 1 : Nat) : Int)⟩ = .ok ⟨pos + 1, 0⟩ := by
        unfold IndexIter.next
        rw [if_neg (by omega)]
        simp only [hmod, if_true]
      rw [hnx, Res.ok_bind, add_zero, hrest]
      simp
    · have hmod : (n - ((k + 1 : Nat) : Int) + 1).tmod n = n - k := by
        rw [show n - ((k + 1 : Nat) : Int) + 1 = n - k by push_cast; ring]
        exact Int.tmod_eq_of_lt (by push_cast at hk; omega) (by omega)
      have hnx : IndexIter.next n ⟨pos, n - ((k + 1 : Nat) : Int)⟩ = .ok ⟨pos, n - k⟩ := by
        unfold IndexIter.next
        rw [if_neg (by omega)]
        simp only [hmod]
        rw [if_neg (by push_cast at hk; omega)]
      rw [hnx, Res.ok_bind, ih fuel rest (by push_cast at hk; omega) hrest (by omega)]
      simp only [Res.ok_bind, Res.pure_eq, Res.ok.injEq]
      rw [List.range_succ_eq_map]
      simp only [List.map_cons, List.map_map, List.cons_append, List.cons.injEq]
      refine ⟨by push_cast; ring, ?_⟩
      congr 1
      apply List.map_congr_left
      intro j _
      simp only [Function.comp]
      push_cast; ring

theorem indexLoop_spec {n : Int} (hn : 1 ≤ n) (pix : List Int) : ∀ (m pos : Nat) (extra : Nat),
    pos + m = pix.length →
    IndexIter.loop pix n (m * n.toNat + extra) ⟨pos, 0⟩ = .ok ((pix.drop pos).flatMap (pixelEntries n)) := by
  intro m
  induction m with
  | zero =>
    intro pos extra h
    have hp : pos = pix.length := by omega
    subst hp
    cases extra <;> simp [IndexIter.loop]
  | succ m ih =>
    intro pos extra h
    have hlt : pos < pix.length := by omega
    have := indexLoop_pixel hn pos pix[pos] (List.getElem?_eq_getElem hlt) n.toNat
      (m * n.toNat + extra) _ (by omega) (ih (pos + 1) extra (by omega)) (by omega)
    rw [show n - (n.toNat : Int) = 0 by omega] at this
    rw [show (m + 1) * n.toNat + extra = m * n.toNat + extra + n.toNat by ring, this]
    rw [List.drop_eq_getElem_cons hlt, List.flatMap_cons]
    simp [pixelEntries]

/-- **C17** Iterating over the sub-point indices of a collection gives, pixel by pixel in order, the
numbers `pixel*nb_sub_pts + offset`, `offset = 0 … nb_sub_pts-1`, and ends after
`nb_pixels*nb_sub_pts` steps. -/
theorem C17_sub_pt_indices (c : Coll α U) {tag : String} {n : Int} (hn : 1 ≤ n)
    (h : c.subPts.find tag = some n) (fuel : Nat) (hfuel : c.pixelIndices.length * n.toNat ≤ fuel) :
    c.subPtIndices tag fuel = .ok (c.pixelIndices.flatMap (fun p =>
      (List.range n.toNat).map (fun k : Nat => p * n + k))) := by
  have hne : n ≠ Unknown := by unfold Unknown; omega
  have := indexLoop_spec hn c.pixelIndices c.pixelIndices.length 0
    (fuel - c.pixelIndices.length * n.toNat) (by omega)
  rw [show c.pixelIndices.length * n.toNat + (fuel - c.pixelIndices.length * n.toNat) = fuel by omega] at this
  simp only [subPtIndices, checkInitialisedSubPt, Coll.hasSub, h, getSubConst]
  simp only [bne_iff_ne, ne_eq, hne, not_false_eq_true, not_true_eq_false, if_false, false_and, Res.ok_bind,
    Res.pure_eq]
  rw [this]
  simp only [List.drop_zero]
  rfl

/-- **C17** A tag without a known number of points is rejected. -/
theorem C17_unknown_tag (c : Coll α U) {tag : String} (fuel : Nat)
    (h : c.subPts.find tag = none ∨ c.subPts.find tag = some Unknown) :
    c.subPtIndices tag fuel = .throw .fieldCollectionError := by
  rcases h with h | h <;> simp [subPtIndices, checkInitialisedSubPt, Coll.hasSub, h]

example : (exLocal.run stableSort [.addPixel 9, .addPixel 4]).map (fun c => c.subPtIndices "quad" 8) =
    some (.ok [36, 37, 38, 39, 16, 17, 18, 19]) ∧ exLocal.subPts.find "quad" = some 4 ∧
    exLocal.subPtIndices "node" 9 = .throw .fieldCollectionError := by decide +kernel

/-- **C17** On an initialised global collection these are exactly the numbers
`0, 1, …, nb_pixels*nb_sub_pts - 1` in order. -/
theorem C17_global {srt : SortFn} {dim : Int} {order : StorageOrder} {sub : SMap String Int}
    {c0 c : Coll α U} (hc : mk' true dim order sub = .ok c0) {ops : List (Op α U)}
    (hr : c0.run srt ops = some c) (hg : c.global = true) (hi : c.initialised = true) {tag : String}
    {n : Int} (hn : 1 ≤ n) (h : c.subPts.find tag = some n) :
    ∃ fuel, c.subPtIndices tag fuel =
      .ok ((List.range (c.nbPixels * n).toNat).map (fun i : Nat => (i : Int))) ∧
      c.subPtIndicesSize tag = .ok (c.nbPixels * n) := by
  have hinv : PixInv srt c := run_induct srt (PixInv srt) (mk'_pixInv srt hc)
    (fun d op hd _ => hd.step op) hr
  obtain ⟨_, h2, _, h4, _, h6⟩ := hinv.glob hg hi
  refine ⟨_, (C17_sub_pt_indices c hn h _ (le_refl _)).trans ?_, ?_⟩
  · congr 1
    rw [h6, h4]
    obtain ⟨m, hm⟩ : ∃ m : Nat, getSize c.pixels.nb = m := ⟨_, (Int.toNat_of_nonneg h2).symm⟩
    obtain ⟨k, rfl⟩ : ∃ k : Nat, n = k := ⟨n.toNat, by omega⟩
    rw [hm]
    have : ((m : Int) * (k : Int)).toNat = m * k := by
      rw [show (m : Int) * (k : Int) = ((m * k : Nat) : Int) by push_cast; ring]; omega
    rw [this]
    simp only [Int.toNat_natCast]
    clear hm h4 h6 this h2
    induction m with
    | zero => simp
    | succ m ih =>
      rw [List.range_succ, List.map_append, List.flatMap_append, ih]
      rw [show (m + 1) * k = m * k + k by ring, List.range_add, List.map_append, List.map_map]
      congr 1
      simp only [List.map_cons, List.map_nil, List.flatMap_cons, List.flatMap_nil, List.append_nil]
      apply List.map_congr_left
      intro j _
      simp only [Function.comp]; push_cast; ring
  · have hne : n ≠ Unknown := by unfold Unknown; omega
    simp [subPtIndicesSize, checkInitialisedSubPt, Coll.hasSub, h, getSubConst, hne]

/-- **C17** Iterating over the pixel indices of an initialised global collection gives 0, 1, …, nb_pixels - 1 in order. -/
theorem C17_pixel_indices {srt : SortFn} {dim : Int} {order : StorageOrder} {sub : SMap String Int}
    {c0 c : Coll α U} (hc : mk' true dim order sub = .ok c0) {ops : List (Op α U)}
    (hr : c0.run srt ops = some c) (hg : c.global = true) (hi : c.initialised = true) :
    c.pixelIndexList = (List.range c.nbPixels.toNat).map (fun i : Nat => (i : Int)) := by
  have hinv : PixInv srt c := run_induct srt (PixInv srt) (mk'_pixInv srt hc)
    (fun d op hd _ => hd.step op) hr
  obtain ⟨_, h2, _, h4, _, h6⟩ := hinv.glob hg hi
  rw [pixelIndexList, h6, h4]

example : exAfter.pixelIndexList = [0, 1, 2, 3, 4, 5] := by decide +kernel

/-- **C17** and of a local collection the pixels in the order in which they were added. -/
theorem C17_pixel_indices_local {srt : SortFn} {c : Coll α U} {c' : Coll α U} {ops : List (Op α U)}
    (hl : c.global = false) (he : c.pixelIndices = []) (hr : c.run srt ops = some c') :
    c'.pixelIndexList = addedPixels srt c ops := by
  have := C16_order hl hr
  rw [pixelIndexList, this, he, List.nil_append]

example : (exLocal.run stableSort [.addPixel 9, .addPixel 4]).map (fun c => c.pixelIndexList) = some [9, 4] := by decide +kernel

example : exAfter.global = true ∧ exAfter.initialised = true ∧ exAfter.subPts.find "quad" = some 4 ∧
    exAfter.nbPixels = 6 := by decide +kernel

end Verif.Props
