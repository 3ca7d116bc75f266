import Verif.Model.MapLife
import Verif.Props.FieldMap
/-! Lemmas on the life of field maps. -/
set_option linter.unusedSectionVars false

namespace Verif.Collection
open Verif Verif.Ccoord Verif.Layout Verif.Collection.Coll

variable {α U : Type} [Inhabited α] [DecidableEq U]

/-- Calls that neither remove the field `name`, nor divide its pixels in another way, nor enlarge its
buffer once the collection is initialised. -/
def Spares (c : Coll α U) (name : String) : Coll.Op α U → Prop
  | .pop n => n ≠ name
  | .reshapeTag n _ _ => n ≠ name
  | .pushBack n _ _ => n = name → c.initialised = false
  | .setPadSize n p => n = name → c.initialised = true → ∀ f, c.fields.find name = some f → p ≤ f.pad
  | _ => True

/-- What a map relies on: the field is there with as many components, as many sub-points if their number
was known, and a buffer that did not grow if there was one. -/
def Stays (init : Bool) (f f' : Field α U) : Prop :=
  f'.nbComp = f.nbComp ∧ (f.nbSub ≠ Unknown → f'.nbSub = f.nbSub) ∧
    (init = true → f'.vals.length ≤ f.vals.length)

theorem Stays.refl (b : Bool) (f : Field α U) : Stays b f f := ⟨rfl, fun _ => rfl, fun _ => le_refl _⟩

theorem setPadSize_stays {c : Coll α U} (hinv : SizeInv c) {name : String} {f : Field α U}
    (hf : c.fields.find name = some f) {p : Nat} (hp : c.initialised = true → p ≤ f.pad) :
    Stays c.initialised f (f.setPadSize c.nbBuf p).2 := by
  refine ⟨(keeps_setPadSize c.nbBuf p f (hinv.wf.comps name f hf)).2.1,
    fun _ => (keeps_setPadSize c.nbBuf p f (hinv.wf.comps name f hf)).2.2.1, ?_⟩
  intro hi
  obtain ⟨s1, s2, s3⟩ := hinv.size hi name f hf
  have hp' := hp hi
  rcases hr : f.setPadSize c.nbBuf p with ⟨r, f'⟩
  cases r with
  | ok u =>
    obtain ⟨_, _, r3, _⟩ := Field.resize_ok (u := u) hr
    simp only at r3
    have e : f.nbSub * c.nbBuf * f.nbComp = f.nbComp * f.nbSub * c.nbBuf := by ring
    simp only
    omega
  | throw e =>
    unfold Field.setPadSize Field.resize at hr
    split at hr
    · simp only [Prod.mk.injEq] at hr; rw [← hr.2]
    · simp only at hr
      split at hr
      · simp only [Prod.mk.injEq] at hr; rw [← hr.2]
      · split at hr <;> simp at hr
  | ub => exact absurd (congrArg Prod.fst hr) (Field.resize_ne_ub _ _)

theorem step_stays (srt : SortFn) {c : Coll α U} (hinv : SizeInv c) {name : String} {f : Field α U}
    (hf : c.fields.find name = some f) (op : Coll.Op α U) (hs : Spares c name op) :
    ∃ f', (c.step srt op).2.fields.find name = some f' ∧ Stays c.initialised f f' := by
  have hd := hinv.wf
  have hsame : ∃ f', c.fields.find name = some f' ∧ Stays c.initialised f f' := ⟨f, hf, Stays.refl _ _⟩
  have hupd : ∀ (n : String) (x y : Field α U), c.fields.find n = some x →
      (n = name → Stays c.initialised x y) →
      ∃ f', (c.fields.insert n y).find name = some f' ∧ Stays c.initialised f f' := by
    intro n x y hx hxy
    rw [SMap.find_insert]
    split
    · rename_i hn
      subst hn
      rw [hf] at hx; cases hx
      exact ⟨y, rfl, hxy rfl⟩
    · exact hsame
  have hon : ∀ (n : String) (o : Field α U → Res Unit × Field α U),
      (n = name → Stays c.initialised f (o f).2) →
      ∃ f', (c.onField n o).2.fields.find name = some f' ∧ Stays c.initialised f f' := by
    intro n o ho
    rcases c.onField_cases n o with ⟨_, h2⟩ | ⟨x, h1, h2⟩
    · rw [h2]; exact hsame
    · rw [h2]
      refine hupd n x _ h1 ?_
      intro hn
      subst hn
      rw [hf] at h1; cases h1
      exact ho rfl
  have heff : c.initialised = false → ∀ r : Res Unit × Coll α U, InitEffect c r →
      ∃ f', r.2.fields.find name = some f' ∧ Stays c.initialised f f' := by
    intro hi r he
    obtain ⟨_, _, _, h⟩ := he.forth name f hf
    exact ⟨_, h, rfl, fun _ => rfl, by rw [hi]; intro h; cases h⟩
  cases op with
  | register _ _ _ _ _ _ =>
    exact ⟨f, Props.C10_registration_keeps hd.fields_sorted _ (Or.inl ⟨_, _, _, _, _, _, rfl⟩) hf, Stays.refl _ _⟩
  | registerState _ _ _ _ _ _ _ =>
    exact ⟨f, Props.C10_registration_keeps hd.fields_sorted _ (Or.inr (Or.inl ⟨_, _, _, _, _, _, _, rfl⟩)) hf,
      Stays.refl _ _⟩
  | detached _ _ _ _ _ =>
    exact ⟨f, Props.C10_registration_keeps hd.fields_sorted _ (Or.inr (Or.inr ⟨_, _, _, _, _, rfl⟩)) hf,
      Stays.refl _ _⟩
  | pop n =>
    simp only [Coll.step]
    rcases c.pop_cases n with ⟨_, h2⟩ | ⟨x, _, h2⟩ <;> rw [h2]
    · exact hsame
    · refine ⟨f, ?_, Stays.refl _ _⟩
      simp only [SMap.find_erase hd.fields_sorted]
      rw [if_neg (Ne.symm hs)]; exact hf
  | setNbSubPts tag n =>
    simp only [Coll.step]
    rcases c.setNbSubPts_cases tag n with ⟨h1, _⟩ | ⟨_, hk, h1⟩ <;> rw [h1]
    · exact hsame
    · simp only [SMap.find_map (f := fun f : Field α U => f.setSub tag n), hf]
      refine ⟨f.setSub tag n, rfl, ?_⟩
      unfold Field.setSub
      split
      · rename_i ht
        refine ⟨rfl, fun hu => ?_, fun _ => le_refl _⟩
        rcases hk f.nbSub (by rw [← ht]; exact hd.tags name f hf) with h | h
        · exact absurd h hu
        · exact h.symm
      · exact Stays.refl _ _
  | getSub tag => simp only [Coll.step, (c.getSub_frame tag).2.1]; exact hsame
  | initGlobal dom sub loc strides =>
    simp only [Coll.step]
    split
    · cases hi : c.initialised with
      | true => rw [(initGlobal_init hi).2, ← hi]; exact hsame
      | false => rw [← hi]; exact heff hi _ (initGlobal_effect srt c dom sub loc strides hi)
    · exact hsame
  | initGlobalOrder dom sub loc order =>
    simp only [Coll.step]
    split
    · cases hi : c.initialised with
      | true => rw [(initGlobalOrder_init hi).1, ← hi]; exact hsame
      | false => rw [← hi]; exact heff hi _ (initGlobalOrder_effect srt c dom sub loc order hi)
    · exact hsame
  | addPixel id =>
    simp only [Coll.step, addPixel]
    split
    · exact hsame
    · split <;> exact hsame
  | initLocal =>
    simp only [Coll.step]
    split
    · exact hsame
    · cases hi : c.initialised with
      | true => rw [initLocal_init hi, ← hi]; exact hsame
      | false => rw [← hi]; exact heff hi _ (initLocal_effect c hi)
  | reshape n shape =>
    refine hon n (fun f => f.reshape shape) (fun _ => ?_)
    have := keeps_reshape shape f (hd.comps name f hf)
    refine ⟨this.2.1, fun _ => this.2.2.1, fun _ => ?_⟩
    simp only [Field.reshape]; split <;> exact le_refl _
  | reshapeTag n shape tag =>
    simp only [Coll.step]
    rcases c.reshapeTag_cases n shape tag with ⟨_, h2⟩ | ⟨x, _, _, h2⟩ | ⟨x, h0, _, h2⟩ <;> rw [h2]
    · exact hsame
    · rw [(c.getSub_frame tag).2.1]; exact hsame
    · exact hupd n x _ h0 (fun hn => absurd hn hs)
  | pushBack n single value =>
    refine hon n (fun f => f.pushBack c.global single value) (fun hn => ?_)
    have := keeps_pushBack c.global single value f (hd.comps name f hf)
    refine ⟨this.2.1, fun _ => this.2.2.1, fun hi => ?_⟩
    rw [hs hn] at hi; cases hi
  | setPadSize n pad =>
    exact hon n (fun f => f.setPadSize c.nbBuf pad)
      (fun hn => setPadSize_stays hinv hf (fun hi => hs hn hi f hf))
  | setZero n => exact hon n Field.setZero (fun _ => ⟨rfl, fun _ => rfl, fun _ => by simp [Field.setZero]⟩)
  | write n i v =>
    refine hon n (fun f => f.write i v) (fun _ => ?_)
    simp only [Field.write]
    split
    · exact ⟨rfl, fun _ => rfl, fun _ => by simp⟩
    · exact Stays.refl _ _
  | cycle pre =>
    simp only [Coll.step, cycle]
    split <;> exact hsame
  | clone src dst ow =>
    simp only [Coll.step]
    rcases clone_cases srt c src dst ow with h1 | ⟨x, h1, _, h2⟩ | ⟨x, vals, h1, h2, _, h3⟩ |
      ⟨x, y, vals, c1, h1, h1', h2, h3, h4, h5⟩
    · rw [h1]; exact hsame
    · rw [h2]; exact ⟨f, register_keeps _ _ _ _ _ _ _ hf, Stays.refl _ _⟩
    · rw [h3]; exact hupd dst x _ h1 (fun _ => ⟨rfl, fun _ => rfl, fun _ => by simp [h2]⟩)
    · rw [h5]
      have hne : name ≠ dst := by rintro rfl; rw [hf] at h1'; cases h1'
      refine ⟨f, ?_, Stays.refl _ _⟩
      simp only [SMap.find_insert]
      rw [if_neg hne, h2]
      exact register_keeps _ _ _ _ _ _ _ hf

/-- An initialised collection stays so, and does not change its storage order. -/
theorem step_init_order (srt : SortFn) (c : Coll α U) (op : Coll.Op α U) :
    (c.initialised = true → (c.step srt op).2.initialised = true) ∧
      (c.step srt op).2.order = c.order := by
  cases hsp : op.setsPixels with
  | false =>
    have := step_base_other (c := c) srt op hsp
    simp only [base, Prod.mk.injEq] at this
    exact ⟨fun h => by rw [this.2.2.2.2.2.2.1]; exact h, this.2.2.1⟩
  | true =>
    cases hi : c.initialised with
    | true =>
      cases op <;> simp only [Op.setsPixels] at hsp <;> try cases hsp
      · simp only [Coll.step]
        split
        · rw [(initGlobal_init hi).2]; exact ⟨fun _ => hi, rfl⟩
        · exact ⟨fun _ => hi, rfl⟩
      · simp only [Coll.step]
        split
        · rw [(initGlobalOrder_init hi).1]; exact ⟨fun _ => hi, rfl⟩
        · exact ⟨fun _ => hi, rfl⟩
      · simp only [Coll.step, addPixel, hi, if_true]
        split <;> exact ⟨fun _ => hi, rfl⟩
      · simp only [Coll.step]
        split
        · exact ⟨fun _ => hi, rfl⟩
        · rw [initLocal_init hi]; exact ⟨fun _ => hi, rfl⟩
    | false =>
      refine ⟨fun h => by simp at h, ?_⟩
      cases op <;> simp only [Op.setsPixels] at hsp <;> try cases hsp
      · simp only [Coll.step]
        split
        · exact (initGlobal_effect srt c _ _ _ _ hi).kind.2.2.1
        · rfl
      · simp only [Coll.step]
        split
        · exact (initGlobalOrder_effect srt c _ _ _ _ hi).kind.2.2.1
        · rfl
      · simp only [Coll.step, addPixel]
        split
        · rfl
        · split <;> rfl
      · simp only [Coll.step]
        split
        · rfl
        · exact (initLocal_effect c hi).kind.2.2.1

/-! ### maps and fields -/

/-- The shape of the iterates of a map suits a field. -/
structure Fits (f : Field α U) (m : FieldMap) : Prop where
  rows : 0 ≤ m.rows
  cols : 0 ≤ m.cols
  shape : m.rows * m.cols = m.stride
  stride : m.stride = Props.perIter f m.iter
  known : m.iter = .pixel → f.nbSub ≠ Unknown

theorem Fits.stays {f f' : Field α U} {m : FieldMap} {b : Bool} (h : Fits f m) (hs : Stays b f f') :
    Fits f' m := by
  refine ⟨h.rows, h.cols, h.shape, ?_, ?_⟩
  · rw [h.stride]
    unfold Props.perIter
    split
    · rename_i hi
      rw [hs.1, hs.2.1 (h.known hi)]
    · rw [hs.1]
  · intro hi
    rw [hs.2.1 (h.known hi)]; exact h.known hi

/-- Rows are given as a positive number. -/
def MapKind.ok : MapKind → Prop
  | .default => True
  | .rows r => 1 ≤ r
  | .static r _ => 1 ≤ r

theorem hasSub_iff {c : Coll α U} (hw : c.WF) {name : String} {f : Field α U}
    (hf : c.fields.find name = some f) : c.hasSub f.tag = true ↔ f.nbSub ≠ Unknown := by
  simp [Coll.hasSub, hw.tags name f hf]

theorem fieldStride_per {c : Coll α U} (hinv : SizeInv c) {name : String} {f : Field α U}
    (hf : c.fields.find name = some f) {it : IterUnit} {st : Int}
    (h : FieldMap.fieldStride c f it = .ok st) :
    st = (Props.perIter f it : Int) ∧ (it = .pixel → f.nbSub ≠ Unknown) := by
  have hc := hinv.comp name f hf
  cases it with
  | pixel =>
    simp only [FieldMap.fieldStride] at h
    split at h
    · rename_i hh
      have hu := (hasSub_iff hinv.wf hf).1 hh
      have hp := (hinv.sub_pos hf).resolve_left hu
      have : 0 ≤ f.nbComp * f.nbSub := by positivity
      simp only [Res.ok.injEq] at h
      simp only [Props.perIter]
      exact ⟨by omega, fun _ => hu⟩
    · simp at h
  | subPt =>
    simp only [FieldMap.fieldStride, Res.ok.injEq] at h
    simp only [Props.perIter]
    exact ⟨by omega, fun h => by cases h⟩

theorem mkRows_fits {c : Coll α U} (hinv : SizeInv c) {name : String} {it : IterUnit} {m : FieldMap}
    {r : Int} (hr : 1 ≤ r) (hm : FieldMap.mkRows c name r it = .ok m) :
    ∃ f, c.fields.find name = some f ∧ Fits f m ∧ m.name = name ∧ m.iter = it ∧
      m.ready = c.initialised ∧ c.order = .colMajor := by
  unfold FieldMap.mkRows at hm
  cases hf : c.fields.find name with
  | none => rw [hf] at hm; simp at hm
  | some f =>
    rw [hf] at hm
    obtain ⟨st, hst, hm⟩ := Res.bind_eq_ok.1 hm
    obtain ⟨h1, h2⟩ := fieldStride_per hinv hf hst
    rw [if_neg (by omega)] at hm
    simp only at hm
    split at hm
    · simp at hm
    · rename_i ho
      split at hm
      · simp at hm
      · rename_i hsh
        simp only [Res.pure_eq, Res.ok.injEq] at hm
        subst hm
        refine ⟨f, rfl, ⟨by simp only; omega, Int.tdiv_nonneg (by omega) (by omega), by simpa using hsh, h1, h2⟩,
          rfl, rfl, rfl, by simpa using ho⟩

theorem mkMap_fits {c : Coll α U} (hinv : SizeInv c) {name : String} {it : IterUnit} {m : FieldMap}
    {k : MapKind} (hk : k.ok) (hm : Maps.mkMap c name it k = .ok m) :
    ∃ f, c.fields.find name = some f ∧ Fits f m ∧ m.name = name ∧ m.iter = it ∧
      m.ready = c.initialised ∧ c.order = .colMajor := by
  cases k with
  | default =>
    simp only [Maps.mkMap, FieldMap.mkDefault] at hm
    cases hf : c.fields.find name with
    | none => rw [hf] at hm; simp at hm
    | some f =>
      rw [hf] at hm
      obtain ⟨st, hst, hm⟩ := Res.bind_eq_ok.1 hm
      obtain ⟨h1, h2⟩ := fieldStride_per hinv hf hst
      have hc := hinv.comp name f hf
      split at hm
      · simp at hm
      · rename_i ho
        simp only [Res.pure_eq, Res.ok.injEq] at hm
        subst hm
        refine ⟨f, rfl, ⟨by simp only; omega, ?_, ?_, h1, h2⟩, rfl, rfl, rfl, by simpa using ho⟩
        · simp only
          split
          · rename_i hi
            have := (hinv.sub_pos hf).resolve_left (h2 hi)
            omega
          · omega
        · simp only
          cases it with
          | pixel =>
            simp only [FieldMap.fieldStride] at hst
            split at hst
            · simp only [Res.ok.injEq] at hst
              simp [hst]
            · simp at hst
          | subPt =>
            simp only [FieldMap.fieldStride, Res.ok.injEq] at hst
            simp [hst]
  | rows r => exact mkRows_fits hinv hk hm
  | static r k =>
    simp only [Maps.mkMap, FieldMap.mkStatic] at hm
    obtain ⟨m', hm', hm⟩ := Res.bind_eq_ok.1 hm
    split at hm
    · simp at hm
    · simp only [Res.pure_eq, Res.ok.injEq] at hm
      subst hm
      exact mkRows_fits hinv hk hm'

namespace Maps

/-- What holds of a live map. -/
structure MapInv (s : Maps α U) (h : Nat) (o : MapObj) (f : Field α U) : Prop where
  find : s.coll.fields.find o.map.name = some f
  obj : s.objs o.map.name = o.obj
  fits : Fits f o.map
  ready : s.coll.initialised = true → o.map.ready = true ∧ o.ptr = some (s.bufs o.map.name)
  waits : s.coll.initialised = false → o.map.ready = false ∧ h ∈ s.pending

/-- The invariant. -/
structure Good (s : Maps α U) : Prop where
  size : SizeInv s.coll
  order : ∀ h o, s.live h = some o → s.coll.order = .colMajor
  maps : ∀ h o, s.live h = some o → ∃ f, MapInv s h o f

theorem live_lt {s : Maps α U} {h : Nat} {o : MapObj} (hl : s.live h = some o) : h < s.maps.length := by
  unfold live at hl
  by_contra hn
  rw [List.getElem?_eq_none (by omega)] at hl
  simp at hl

theorem live_add (s : Maps α U) (o : MapObj) (h : Nat) :
    (s.add o).live h = if h = s.maps.length then some o else s.live h := by
  unfold live add
  simp only
  split
  · rename_i e; subst e; simp
  · rename_i e
    by_cases hl : h < s.maps.length
    · rw [List.getElem?_append_left hl]
    · rw [List.getElem?_eq_none (by simp; omega), List.getElem?_eq_none (by omega)]

theorem live_set {s : Maps α U} {h : Nat} {o : MapObj} (hl : s.live h = some o) (v : Option MapObj)
    (j : Nat) : ({ s with maps := s.maps.set h v } : Maps α U).live j = if j = h then v else s.live j := by
  have := live_lt hl
  unfold live
  simp only [List.getElem?_set]
  by_cases e : h = j
  · subst e; simp [this]
  · rw [if_neg e, if_neg (Ne.symm e)]

theorem setPtr_ok {s : Maps α U} {o : MapObj} {f : Field α U} (hi : s.coll.initialised = true)
    (hf : s.coll.fields.find o.map.name = some f) (ho : s.objs o.map.name = o.obj)
    (hfr : f.fresh = true) :
    s.setPtr o = .ok { o with map := { o.map with ready := true }, ptr := some (s.bufs o.map.name) } := by
  unfold setPtr
  simp only [hf, ho, hi, hfr, ne_eq, not_true_eq_false, if_false, if_true]

/-- What the callback makes of a map. -/
def settled (s : Maps α U) (o : MapObj) : MapObj :=
  { o with map := { o.map with ready := true }, ptr := some (s.bufs o.map.name) }

theorem callbacks_ok (hs : List Nat) : ∀ {s : Maps α U}, s.coll.initialised = true →
    (∀ h o, s.live h = some o → ∃ f, s.coll.fields.find o.map.name = some f ∧
      s.objs o.map.name = o.obj ∧ f.fresh = true) →
    ∃ s', s.callbacks hs = .ok s' ∧ s'.coll = s.coll ∧ s'.objs = s.objs ∧ s'.bufs = s.bufs ∧
      s'.pending = s.pending ∧
      ∀ h, s'.live h = if h ∈ hs then (s.live h).map (settled s) else s.live h := by
  induction hs with
  | nil => intro s _ _; exact ⟨s, rfl, rfl, rfl, rfl, rfl, fun h => by simp⟩
  | cons h hs ih =>
    intro s hi hm
    unfold callbacks
    cases hl : s.live h with
    | none =>
      obtain ⟨s', h1, h2, h3, h4, h5, h6⟩ := ih hi hm
      refine ⟨s', h1, h2, h3, h4, h5, fun j => ?_⟩
      rw [h6 j]
      by_cases hj : j = h
      · subst hj; simp [hl]
      · simp [hj]
    | some o =>
      obtain ⟨f, f1, f2, f3⟩ := hm h o hl
      simp only [setPtr_ok hi f1 f2 f3]
      obtain ⟨s', h1, h2, h3, h4, h5, h6⟩ := ih
        (s := { s with maps := s.maps.set h (some (settled s o)) }) hi (by
          intro j o' hj
          rw [live_set hl] at hj
          split at hj
          · cases hj; exact ⟨f, f1, f2, f3⟩
          · exact hm j o' hj)
      refine ⟨s', h1, h2, h3, h4, h5, fun j => ?_⟩
      rw [h6 j, live_set hl]
      by_cases hj : j = h
      · subst hj
        simp only [hl, if_true, List.mem_cons, true_or, Option.map_some]
        split <;> rfl
      · simp only [hj, if_false, List.mem_cons, false_or]
        rfl

/-- A call that makes a collection initialised succeeds. -/
theorem step_becomes_init (srt : SortFn) {c : Coll α U} (op : Coll.Op α U) (hi : c.initialised = false)
    (hi' : (c.step srt op).2.initialised = true) : (c.step srt op).1 = .ok () := by
  cases hsp : op.setsPixels with
  | false =>
    have := step_base_other (c := c) srt op hsp
    simp only [base, Prod.mk.injEq] at this
    rw [this.2.2.2.2.2.2.1, hi] at hi'
    cases hi'
  | true =>
    cases op <;> simp only [Op.setsPixels] at hsp <;> try cases hsp
    · simp only [Coll.step] at hi' ⊢
      split
      · rename_i hg
        rw [if_pos hg] at hi'
        exact (initGlobal_effect srt c _ _ _ _ hi).init.1 hi'
      · rfl
    · simp only [Coll.step] at hi' ⊢
      split
      · rename_i hg
        rw [if_pos hg] at hi'
        exact (initGlobalOrder_effect srt c _ _ _ _ hi).init.1 hi'
      · rfl
    · simp only [Coll.step, addPixel, hi] at hi' ⊢
      split <;> simp
    · simp only [Coll.step] at hi' ⊢
      split
      · rfl
      · rename_i hg
        rw [if_neg hg] at hi'
        exact (initLocal_effect c hi).init.1 hi'

/-- What programs that keep their maps valid do. -/
def Careful (s : Maps α U) : Op α U → Prop
  | .call op => Adm s.coll op ∧ ∀ h o, s.live h = some o → Spares s.coll o.map.name op
  | .make _ _ k => k.ok
  | _ => True

/-- The parts of a map that never change. -/
def _root_.Verif.Collection.MapObj.fixed (o : MapObj) : FieldMap × Nat :=
  ({ o.map with ready := false }, o.obj)

theorem call_good {srt : SortFn} {s : Maps α U} (hg : Good s) {op : Coll.Op α U} (ha : Adm s.coll op)
    (hsp : ∀ h o, s.live h = some o → Spares s.coll o.map.name op)
    (hub : (s.coll.step srt op).1 ≠ .ub) :
    ∃ s', s.call srt op = ((s.coll.step srt op).1, s') ∧ s'.coll = (s.coll.step srt op).2 ∧ Good s' ∧
      ∀ h, (s'.live h).map MapObj.fixed = (s.live h).map MapObj.fixed := by
  have hsize := hg.size.step op ha hub
  obtain ⟨hmono, hord⟩ := step_init_order srt s.coll op
  have hbec := step_becomes_init srt (c := s.coll) op
  have hst := fun name f hf => step_stays srt hg.size (name := name) (f := f) hf op
  rcases hr : s.coll.step srt op with ⟨r, c'⟩
  rw [hr] at hsize hmono hord hbec hst hub
  simp only at hsize hmono hord hbec hst hub
  unfold call
  rw [hr]
  simp only
  -- live maps after the call, before the callbacks
  have hmaps : ∀ h o, s.live h = some o → ∃ f f', s.coll.fields.find o.map.name = some f ∧
      c'.fields.find o.map.name = some f' ∧ (s.refresh c').objs o.map.name = o.obj ∧ Fits f' o.map ∧
      (s.coll.initialised = true → (s.refresh c').bufs o.map.name = s.bufs o.map.name) := by
    intro h o hl
    obtain ⟨f, hm⟩ := hg.maps h o hl
    obtain ⟨f', hf', hstay⟩ := hst o.map.name f hm.find (hsp h o hl)
    refine ⟨f, f', hm.find, hf', ?_, hm.fits.stays hstay, ?_⟩
    · simp only [refresh, hf', Option.isSome_some, if_true]; exact hm.obj
    · intro hi
      simp only [refresh, hm.find, hf', if_pos (hstay.2.2 hi)]
  by_cases hcond : ¬ s.coll.initialised = true ∧ c'.initialised = true
  · rw [if_pos hcond]
    have hi : s.coll.initialised = false := by simpa using hcond.1
    obtain ⟨s', h1, h2, h3, h4, h5, h6⟩ := callbacks_ok (s.refresh c').pending (s := s.refresh c') hcond.2 (by
      intro h o hl
      obtain ⟨f, f', _, hf', ho, _, _⟩ := hmaps h o hl
      exact ⟨f', hf', ho, (hsize.size hcond.2 _ _ hf').2.2⟩)
    rw [h1]
    refine ⟨_, rfl, h2, ⟨by simp only [h2]; exact hsize, ?_, ?_⟩, ?_⟩
    · intro h o hl
      have hl' : s'.live h = some o := hl
      rw [h6] at hl'
      simp only [h2]
      have : ∃ o', s.live h = some o' := by
        split at hl'
        · cases hh : s.live h with
          | none =>
            have hh' : (s.refresh c').live h = none := hh
            rw [hh'] at hl'; simp at hl'
          | some o' => exact ⟨o', rfl⟩
        · exact ⟨o, hl'⟩
      obtain ⟨o', ho'⟩ := this
      have := hg.order h o' ho'
      show c'.order = .colMajor
      rw [hord]; exact this
    · intro h o hl
      have hl' : s'.live h = some o := hl
      rw [h6] at hl'
      cases hh : s.live h with
      | none =>
        have hh' : (s.refresh c').live h = none := hh
        rw [hh'] at hl'
        simp at hl'
      | some o' =>
        have hh' : (s.refresh c').live h = some o' := hh
        obtain ⟨f0, hm⟩ := hg.maps h o' hh
        have hp : h ∈ (s.refresh c').pending := (hm.waits hi).2
        rw [if_pos hp, hh'] at hl'
        simp only [Option.map_some, Option.some.injEq] at hl'
        obtain ⟨f, f', _, hf', ho, hfit, _⟩ := hmaps h o' hh
        subst hl'
        refine ⟨f', ?_, ?_, ⟨hfit.rows, hfit.cols, hfit.shape, hfit.stride, hfit.known⟩, ?_, ?_⟩
        · show s'.coll.fields.find o'.map.name = some f'
          rw [h2]; exact hf'
        · show s'.objs o'.map.name = o'.obj
          rw [h3]; exact ho
        · intro _
          refine ⟨rfl, ?_⟩
          show some ((s.refresh c').bufs o'.map.name) = some (s'.bufs o'.map.name)
          rw [h4]
        · intro hn
          have hn' : s'.coll.initialised = false := hn
          rw [h2] at hn'
          have : c'.initialised = false := hn'
          rw [hcond.2] at this; cases this
    · intro h
      show (s'.live h).map MapObj.fixed = _
      rw [h6]
      split
      · have : (s.refresh c').live h = s.live h := rfl
        rw [this]
        cases s.live h <;> rfl
      · rfl
  · rw [if_neg hcond]
    refine ⟨_, rfl, rfl, ⟨hsize, ?_, ?_⟩, fun h => rfl⟩
    · intro h o hl
      show c'.order = .colMajor
      rw [hord]; exact hg.order h o hl
    · intro h o hl
      have hl' : s.live h = some o := hl
      obtain ⟨f0, hm⟩ := hg.maps h o hl'
      obtain ⟨f, f', _, hf', ho, hfit, hb⟩ := hmaps h o hl'
      refine ⟨f', hf', ho, hfit, ?_, ?_⟩
      · intro hi'
        have hi : s.coll.initialised = true := by
          by_contra hn; exact hcond ⟨hn, hi'⟩
        rw [hb hi]; exact hm.ready hi
      · intro hi'
        have hi : s.coll.initialised = false := by
          cases hh : s.coll.initialised with
          | false => rfl
          | true =>
            have h9 := hmono hh
            have h10 : c'.initialised = false := hi'
            rw [h9] at h10; cases h10
        exact hm.waits hi

theorem add_good {s : Maps α U} (hg : Good s) {o : MapObj} {f : Field α U}
    (hord : s.coll.order = .colMajor)
    (hf : s.coll.fields.find o.map.name = some f) (hobj : s.objs o.map.name = o.obj)
    (hfit : Fits f o.map)
    (hr : s.coll.initialised = true → o.map.ready = true ∧ o.ptr = some (s.bufs o.map.name))
    (hn : s.coll.initialised = false → o.map.ready = false) : Good (s.add o) := by
  refine ⟨hg.size, fun _ _ _ => hord, ?_⟩
  intro h o' hl
  rw [live_add] at hl
  split at hl
  · rename_i he
    cases hl
    refine ⟨f, hf, hobj, hfit, hr, fun hi => ⟨hn hi, ?_⟩⟩
    have hi' : s.coll.initialised = false := hi
    simp [add, hi', he]
  · obtain ⟨g, hm⟩ := hg.maps h o' hl
    refine ⟨g, hm.find, hm.obj, hm.fits, hm.ready, fun hi => ⟨(hm.waits hi).1, ?_⟩⟩
    have hi' : s.coll.initialised = false := hi
    simp only [add, hi']
    exact List.mem_append_left _ (hm.waits hi).2

theorem make_good {s : Maps α U} (hg : Good s) {name : String} {it : IterUnit} {k : MapKind}
    (hk : k.ok) : Good (s.make name it k).2 := by
  unfold make
  cases hm : mkMap s.coll name it k with
  | throw e => exact hg
  | ub => exact hg
  | ok m =>
    obtain ⟨f, hf, hfit, hname, hit, hready, hord⟩ := mkMap_fits hg.size hk hm
    simp only
    subst hname
    by_cases hi : s.coll.initialised = true
    · rw [if_pos hi, setPtr_ok (f := f) hi hf rfl (hg.size.size hi _ _ hf).2.2]
      exact add_good hg (f := f) hord hf rfl ⟨hfit.rows, hfit.cols, hfit.shape, hfit.stride, hfit.known⟩
        (fun _ => ⟨rfl, rfl⟩) (fun hn => by rw [hi] at hn; cases hn)
    · rw [if_neg hi]
      have hi' : s.coll.initialised = false := by simpa using hi
      refine add_good hg hord hf rfl hfit (fun h => absurd h hi) (fun _ => ?_)
      rw [hready]; exact hi'

theorem move_good {s : Maps α U} (hg : Good s) (h : Nat) : Good (s.move h).2 := by
  unfold move
  cases hl : s.live h with
  | none => exact hg
  | some o =>
    simp only
    split
    · exact hg
    · rename_i ho
      obtain ⟨f, hm⟩ := hg.maps h o hl
      exact add_good hg (by simpa using ho) hm.find hm.obj hm.fits hm.ready (fun hi => (hm.waits hi).1)

theorem drop_good {s : Maps α U} (hg : Good s) (h : Nat) : Good (s.drop h).2 := by
  unfold drop
  cases hl : s.live h with
  | none => exact hg
  | some o =>
    simp only
    refine ⟨hg.size, fun j o' hj => ?_, fun j o' hj => ?_⟩
    · rw [live_set hl] at hj
      split at hj
      · cases hj
      · exact hg.order j o' hj
    · rw [live_set hl] at hj
      split at hj
      · cases hj
      · obtain ⟨f, hm⟩ := hg.maps j o' hj
        exact ⟨f, hm.find, hm.obj, hm.fits, hm.ready, hm.waits⟩

/-- A list with the `i`-th piece of length `k` replaced. -/
def setChunk (l : List α) (k i : Nat) (v : List α) : List α := l.take (i * k) ++ v ++ l.drop ((i + 1) * k)

theorem setChunk_length {l v : List α} {k i : Nat} (hv : v.length = k) (h : (i + 1) * k ≤ l.length) :
    (setChunk l k i v).length = l.length := by
  have e : (i + 1) * k = i * k + k := by ring
  simp only [setChunk, List.length_append, List.length_take, List.length_drop, hv]
  omega

theorem modifyAt_ok {c : Coll α U} {m : FieldMap} {f : Field α U} {k : Nat} (h : FieldMap.On c m f k)
    {i : Nat} (hi : (i + 1) * k ≤ f.vals.length) (v : List α) :
    FieldMap.modifyAt c m (fun _ => v) i =
      .ok (c.withField m.name (f.withVals (setChunk f.vals k i v))) := by
  have e : (i + 1) * k = i * k + k := by ring
  have e2 : ((i : Int) * (k : Int)).toNat = i * k := by
    rw [← Nat.cast_mul]; exact Int.toNat_natCast _
  unfold FieldMap.modifyAt
  simp only [h.find, FieldMap.access_ok h hi, Res.ok_bind, Res.pure_eq, h.stride, e2, chunk_length hi,
    setChunk, e]

theorem modifyAt_ub {c : Coll α U} {m : FieldMap} {f : Field α U} {k : Nat} (h : FieldMap.On c m f k)
    {i : Nat} (hi : f.vals.length < (i + 1) * k) (g : List α → List α) :
    FieldMap.modifyAt c m g i = .ub := by
  unfold FieldMap.modifyAt
  simp only [h.find, FieldMap.access_ub h hi, Res.ub_bind]

theorem MapInv.on {s : Maps α U} (hg : Good s) {h : Nat} {o : MapObj} {f : Field α U}
    (hm : MapInv s h o f) (hi : s.coll.initialised = true) :
    FieldMap.On s.coll o.map f (Props.perIter f o.map.iter) ∧ s.good o = true := by
  refine ⟨⟨hm.find, (hm.ready hi).1, (hg.size.size hi _ _ hm.find).2.2, hm.fits.rows, hm.fits.cols,
    by rw [hm.fits.shape, hm.fits.stride], hm.fits.stride⟩, ?_⟩
  simp [good, hm.find, hm.obj, (hm.ready hi).2]

/-- Writing through a map: either it stays in the buffer, or it is undefined. -/
theorem put_cases {s : Maps α U} (hg : Good s) (h i : Nat) (v : List α) :
    (s.put h i v).1 = .ub ∧ (s.put h i v).2 = s ∨
    ∃ o f, s.live h = some o ∧ MapInv s h o f ∧ s.coll.initialised = true ∧
      v.length = Props.perIter f o.map.iter ∧
      (i + 1) * Props.perIter f o.map.iter ≤ f.vals.length ∧
      s.put h i v = (.ok (), { s with
        coll := s.coll.withField o.map.name
          (f.withVals (setChunk f.vals (Props.perIter f o.map.iter) i v)) }) := by
  unfold put
  cases hl : s.live h with
  | none => left; exact ⟨rfl, rfl⟩
  | some o =>
    simp only
    obtain ⟨f, hm⟩ := hg.maps h o hl
    cases hi : s.coll.initialised with
    | false =>
      left
      split
      · have hacc : FieldMap.access s.coll o.map i = .ub := by
          unfold FieldMap.access
          simp only [hm.find, (hm.waits hi).1]
          simp
        have : FieldMap.modifyAt s.coll o.map (fun _ => v) i = .ub := by
          unfold FieldMap.modifyAt
          simp only [hm.find, hacc, Res.ub_bind]
        rw [this]; exact ⟨rfl, rfl⟩
      · exact ⟨rfl, rfl⟩
    | true =>
      obtain ⟨hon, hgood⟩ := hm.on hg hi
      by_cases hv : v.length = Props.perIter f o.map.iter
      · rw [if_pos ⟨hgood, by rw [hon.shape, hv]⟩]
        by_cases hlen : (i + 1) * Props.perIter f o.map.iter ≤ f.vals.length
        · right
          rw [modifyAt_ok hon hlen]
          exact ⟨o, f, rfl, hm, rfl, hv, hlen, rfl⟩
        · left
          rw [modifyAt_ub hon (by omega)]
          exact ⟨rfl, rfl⟩
      · left
        rw [if_neg (by rw [hon.shape]; rintro ⟨_, h2⟩; exact hv (by exact_mod_cast h2))]
        exact ⟨rfl, rfl⟩

theorem put_good {s : Maps α U} (hg : Good s) (h i : Nat) (v : List α) : Good (s.put h i v).2 := by
  rcases put_cases hg h i v with ⟨_, h2⟩ | ⟨o, f, hl, hm, hi, hv, hlen, h2⟩
  · rw [h2]; exact hg
  · rw [h2]
    have hsz := hg.size.size hi _ _ hm.find
    refine ⟨?_, hg.order, ?_⟩
    · refine hg.size.insertField o.map.name _ (hg.size.wf.comps o.map.name f hm.find)
        (hg.size.wf.tags o.map.name f hm.find)
        (hg.size.comp o.map.name f hm.find) (fun _ => ⟨hsz.1, ?_, hsz.2.2⟩)
      simp only [setChunk_length hv hlen]
      exact hsz.2.1
    · intro j o' hj
      obtain ⟨f', hm'⟩ := hg.maps j o' hj
      by_cases hn : o'.map.name = o.map.name
      · have : f' = f := by
          have := hm'.find
          rw [hn, hm.find] at this; exact (Option.some.inj this).symm
        subst this
        refine ⟨f'.withVals (setChunk f'.vals (Props.perIter f' o.map.iter) i v),
          by simp only [SMap.find_insert, hn, if_true], hm'.obj, ⟨hm'.fits.rows, hm'.fits.cols,
          hm'.fits.shape, hm'.fits.stride, hm'.fits.known⟩, hm'.ready, hm'.waits⟩
      · refine ⟨f', by simp only [SMap.find_insert, if_neg hn]; exact hm'.find, hm'.obj, hm'.fits, hm'.ready,
          hm'.waits⟩

theorem Good.step {srt : SortFn} {s : Maps α U} (hg : Good s) {op : Op α U} (hc : Careful s op)
    (hub : (s.step srt op).1 ≠ .ub) : Good (s.step srt op).2 := by
  cases op with
  | call op =>
    by_cases h : (s.coll.step srt op).1 = .ub
    · exfalso
      apply hub
      have hne : ¬ (¬ s.coll.initialised = true ∧ (s.coll.step srt op).2.initialised = true) := by
        rintro ⟨h1, h2⟩
        rw [step_becomes_init srt op (by simpa using h1) h2] at h; cases h
      simp only [Maps.step, call]
      rcases hr : s.coll.step srt op with ⟨r, c'⟩
      rw [hr] at h hne
      simp only at h hne ⊢
      rw [if_neg hne]; exact h
    · obtain ⟨s', h1, _, h3, _⟩ := call_good hg hc.1 hc.2 h
      simp only [Maps.step, h1]; exact h3
  | make name it k => exact make_good hg hc
  | move h => exact move_good hg h
  | drop h => exact drop_good hg h
  | put h i v => exact put_good hg h i v

end Maps
end Verif.Collection
