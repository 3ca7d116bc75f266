import Verif.Lemmas.PyFileRun
/-
Helper lemmas for C82: collections made in python, and the table after a frame has been written.
-/
set_option linter.unusedSectionVars false

namespace Verif.Props
open Verif Verif.Ccoord Verif.Layout Verif.Layout.FieldLayout Verif.RawMemory Verif.Numpy Verif.Collection
  Verif.Collection.Coll Verif.PyField Verif.PySession Verif.PyArrays Verif.NetCDF Verif.PyFile Verif.FileIO

variable {α U : Type} [Inhabited α] [DecidableEq U]

theorem call_states (srt : SortFn) (size : ElemType → Int) (c : Coll α U) (op : PyCall α U) :
    (call srt size c op).2.states = c.states := by
  cases op with
  | field name ty comps tag unit new => exact (c.register_frame name ty comps tag unit (!new)).2.1
  | setNbSubPts tag n =>
    show (c.setNbSubPts tag n).2.states = _
    rcases c.setNbSubPts_cases tag n with ⟨h, _⟩ | ⟨_, _, h⟩ <;> rw [h]
  | assign name it a inp =>
    show (setArray srt c name it a inp).2.states = _
    unfold setArray
    split
    · rfl
    · split
      · rfl
      · split <;> rfl
  | setItem name it idx v =>
    show (PySession.setItem c name it _ idx v).2.states = _
    unfold PySession.setItem
    split
    · rfl
    · split
      · rfl
      · rfl
      · split <;> rfl
      · split
        · rfl
        · split <;> rfl
  | getItem name it idx => rfl
  | setZero name => exact (c.onField_frame name _).2.1
  | «exists» name => rfl

theorem OnPart.call {srt : SortFn} (hsrt : SortSpec srt) {size : ElemType → Int} (hz : ∀ ty, 0 < size ty) {dom : List Int}
    {c : Coll α U} {p : Part α U} (h : OnPart dom c p) (op : PyCall α U) (hop : CallOk c.order p.dict op) :
    (PySession.call srt size c op).1 = (p.dict.call op).1 ∧ (PySession.call srt size c op).2.order = c.order ∧
      OnPart dom (PySession.call srt size c op).2 { p with dict := (p.dict.call op).2 } := by
  obtain ⟨h1, h2, h3⟩ := C80_call_partial hsrt hz h.shows op hop
  have hb := call_base hsrt hz h.shows op hop
  simp only [Coll.base, Prod.mk.injEq] at hb
  obtain ⟨b1, b2, b3, b4, b5, b6, b7, b8, b9, b10⟩ := hb
  refine ⟨h1, h3, h2, by rw [b1]; exact h.isGlobal, by rw [b8]; exact h.domain, by rw [b9]; exact h.loc, ?_⟩
  rw [call_states]; exact h.states

theorem OnPart.run {srt : SortFn} (hsrt : SortSpec srt) {size : ElemType → Int} (hz : ∀ ty, 0 < size ty) {dom loc : List Int}
    (ops : List (PyCall α U)) {c : Coll α U} {d : Dict α U} (h : OnPart dom c ⟨loc, d⟩) (hop : ProgramOk c.order d ops) :
    (PySession.run srt size c ops).1 = (d.run ops).1 ∧ (PySession.run srt size c ops).2.order = c.order ∧
      OnPart dom (PySession.run srt size c ops).2 ⟨loc, (d.run ops).2⟩ := by
  induction ops generalizing c d with
  | nil => exact ⟨rfl, rfl, h⟩
  | cons op ops ih =>
    obtain ⟨h1, h2, h3⟩ := h.call hsrt hz op hop.1
    obtain ⟨k1, k2, k3⟩ := ih (d := (d.call op).2) h3 (by rw [h2]; exact hop.2)
    have hub := Dict.call_ne_ub d op
    have h1' : (PySession.call srt size c op).1 = (d.call op).1 := h1
    rw [← h1'] at hub
    have hrun : PySession.run srt size c (op :: ops) =
        ((PySession.call srt size c op).1 :: (PySession.run srt size (PySession.call srt size c op).2 ops).1,
          (PySession.run srt size (PySession.call srt size c op).2 ops).2) := by
      rw [PySession.run]
      split
      · rename_i e; rw [e] at hub; exact absurd rfl hub
      · rename_i e; rw [e]
    rw [hrun]
    simp only [Dict.run]
    exact ⟨by rw [h1', k1], k2.trans h2, k3⟩

theorem mkStrided_loc {srt : SortFn} {nb loc strides : List Int} {px : DynamicPixels}
    (h : DynamicPixels.mkStrided srt nb loc strides = .ok px) : px.loc = DynamicPixels.fillLoc nb loc := by
  unfold DynamicPixels.mkStrided at h
  dsimp only at h
  split at h
  · cases h
  · obtain ⟨a, -, h⟩ := Res.bind_eq_ok.1 h
    obtain ⟨b, -, h⟩ := Res.bind_eq_ok.1 h
    split at h
    · cases h
    · rw [Res.pure_eq] at h
      cases h
      rfl

theorem newGlobal_frame {srt : SortFn} {dom sub loc : List Int} {subPts : SMap String Int} {order : StorageOrder} {c : Coll α U}
    (h : newGlobal srt dom sub loc subPts order = .ok c) : c.global = true ∧ c.domainPts = dom ∧ c.states = [] ∧
      c.pixels.loc = DynamicPixels.fillLoc (subdomainOr dom sub) loc := by
  have hsub : subdomainOr dom (subdomainOr dom sub) = subdomainOr dom sub := by
    unfold subdomainOr
    split
    · split <;> rfl
    · simp
  unfold newGlobal at h
  split at h
  · cases h
  · cases h
  · rename_i c0 hc0
    have he := (mk'_spec hc0).2
    subst he
    unfold initGlobalOrder at h
    dsimp only at h
    split at h
    · rename_i hx
      split at hx
      · cases hx
      · cases hx
      · unfold initGlobal at hx
        split at hx
        · cases hx
        · dsimp only at hx
          split at hx
          · cases hx
          · split at hx
            · cases hx
            · split at hx
              · cases hx
              · cases hx
              · rename_i px hpx
                have hl := mkStrided_loc hpx
                rw [hsub] at hl
                split at hx
                · cases hx
                · cases hx
                · split at hx
                  · rename_i c3 hal
                    simp only [allocateFields, allocate, Coll.empty, Prod.mk.injEq] at hal
                    cases h
                    cases hx
                    obtain ⟨-, rfl⟩ := hal
                    exact ⟨rfl, rfl, rfl, hl⟩
                  · rename_i hno hal
                    cases hx
                    exact (hno _ rfl).elim
    · cases h
    · cases h

/-! ### Tables -/

theorem Table.write_all {V : Type} {known : List String} {frame fr : Int} : ∀ (names : List String) (t : Table V),
    (∀ n ∈ names, n ∈ known) → t.writable = true → meantFrame t.nb frame = some fr →
    ∃ cell, t.write known frame names = (true, { t with cell := cell }) ∧ (∀ n ∈ names, cell fr n = some (t.cur n)) ∧
      ∀ f n, t.cell f n = some (t.cur n) → cell f n = some (t.cur n)
  | [], t, _, _, _ => ⟨t.cell, rfl, by simp, fun _ _ h => h⟩
  | n :: ns, t, hk, hw, hm => by
    obtain ⟨cell, h1, h2, h3⟩ := Table.write_all ns (t.put fr n) (fun m hm' => hk m (by simp [hm'])) hw hm
    refine ⟨cell, ?_, ?_, ?_⟩
    · rw [Table.write, if_pos ⟨hw, hk n (by simp)⟩, hm]
      exact h1
    · intro m hm'
      rcases List.mem_cons.1 hm' with rfl | hm'
      · exact h3 fr m (by simp [Table.put])
      · exact h2 m hm'
    · intro f m hfm
      refine h3 f m ?_
      simp only [Table.put]
      split
      · rename_i e; rw [e.2]
      · exact hfm

end Verif.Props
