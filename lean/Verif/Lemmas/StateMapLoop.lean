import Verif.Model.StateMapLoop
import Verif.Props.StateFieldMap
import Verif.Props.NetCDFState
import Verif.Spec.StateMapLoop
/-! # Lemmas on loops over maps of state fields -/
set_option linter.unusedSectionVars false

namespace Verif.Props
open Verif Verif.Ccoord Verif.Layout Verif.Collection Verif.Collection.Coll

variable {α U : Type} [Inhabited α] [DecidableEq U]

theorem chunk_entry (l : List α) (K j q : Nat) : (chunk l K j)[q]? = if q < K then l[j * K + q]? else none := by
  unfold chunk
  rw [List.getElem?_take]
  split
  · rw [List.getElem?_drop]
  · rfl

/-- Pieces after one of them was overwritten. -/
theorem chunk_splice {l v : List α} {K i : Nat} (hv : v.length = K) (hl : (i + 1) * K ≤ l.length) (j : Nat) :
    chunk (l.take (i * K) ++ v ++ l.drop (i * K + K)) K j = if j = i then v else chunk l K j := by
  have e : (i + 1) * K = i * K + K := by ring
  apply List.ext_getElem?
  intro q
  rw [chunk_entry]
  by_cases hq : q < K
  · rw [if_pos hq]
    have hL : (l.take (i * K)).length = i * K := by rw [List.length_take]; omega
    by_cases hj : j = i
    · subst hj
      rw [if_pos rfl, List.append_assoc, List.getElem?_append_right (by omega), hL,
        List.getElem?_append_left (by omega)]
      congr 1
      omega
    · rw [if_neg hj, chunk_entry, if_pos hq]
      rcases lt_or_gt_of_ne hj with h | h
      · have : (j + 1) * K ≤ i * K := Nat.mul_le_mul_right K h
        have e' : (j + 1) * K = j * K + K := by ring
        rw [List.append_assoc, List.getElem?_append_left (by omega), List.getElem?_take, if_pos (by omega)]
      · have : (i + 1) * K ≤ j * K := Nat.mul_le_mul_right K h
        rw [List.getElem?_append_right (by rw [List.length_append]; omega), List.length_append, hL, hv,
          List.getElem?_drop]
        congr 1
        omega
  · rw [if_neg hq]
    symm
    split
    · exact List.getElem?_eq_none (by omega)
    · rw [chunk_entry, if_neg hq]

/-- A map over a state field, ready to be used: `X k i` is what was current `k` steps ago, at entry `i < n`. -/
structure Running (c : Coll α U) (sm : StateFieldMap) (N K n b : Nat) (X : Nat → Nat → List α) : Prop where
  le : b ≤ N
  state : ∃ s, c.states.find sm.pre = some s ∧ s.nbMemory = N ∧ s.indices = (List.range (N + 1)).map (slotOf N b)
  maps : ∃ (m : Nat → FieldMap) (f : Nat → Field α U), (∀ j ≤ N, sm.maps[j]? = some (m j) ∧
      FieldMap.On c (m j) (f j) K ∧ n * K ≤ (f j).vals.length) ∧
    (∀ j ≤ N, ∀ j' ≤ N, (m j).name = (m j').name → j = j') ∧
    (∀ k ≤ N, ∀ i < n, chunk (f (slotOf N b k)).vals K i = X k i)
  stop : StateFieldMap.endIndex c sm = .ok n

theorem Running.mapAt {c : Coll α U} {sm : StateFieldMap} {N K n b : Nat} {X : Nat → Nat → List α}
    (h : Running c sm N K n b X) {m : Nat → FieldMap} (hm : ∀ j ≤ N, sm.maps[j]? = some (m j)) {k : Nat}
    (hk : k ≤ N) : StateFieldMap.mapAt c sm k = .ok (m (slotOf N b k)) := by
  obtain ⟨s, hs, -, hx⟩ := h.state
  have hlt := slotOf_lt h.le hk
  unfold StateFieldMap.mapAt
  simp only [hs, hx, List.getElem?_map, List.getElem?_range (show k < N + 1 by omega), Option.map_some,
    hm _ (Nat.lt_succ_iff.1 hlt)]

theorem Running.get {c : Coll α U} {sm : StateFieldMap} {N K n b : Nat} {X : Nat → Nat → List α}
    (h : Running c sm N K n b X) {i : Nat} (hi : i < n) :
    StateFieldMap.get c sm i = .ok ((List.range (N + 1)).map fun k => X k i) := by
  obtain ⟨s, hs, hN, hx⟩ := h.state
  obtain ⟨m, f, h1, h2, h3⟩ := h.maps
  unfold StateFieldMap.get StateFieldMap.wrapper
  simp only [hs, hN, Int.toNat_natCast]
  refine mapM_ok ?_
  intro k hk
  have hk' : k ≤ N := by simpa [Nat.lt_succ_iff] using hk
  rw [h.mapAt (fun j hj => (h1 j hj).1) hk', Res.ok_bind]
  obtain ⟨-, g2, g3⟩ := h1 _ (Nat.lt_succ_iff.1 (slotOf_lt h.le hk'))
  rw [FieldMap.access_ok g2 (le_trans (Nat.mul_le_mul_right K hi) g3), h3 k hk' i hi]

/-- One round of the loop. -/
theorem Running.updateAt {c : Coll α U} {sm : StateFieldMap} {N K n b : Nat} {X : Nat → Nat → List α}
    (h : Running c sm N K n b X) {F : Nat → List (List α) → List α} {i : Nat} (hi : i < n)
    (hF : (F i ((List.range (N + 1)).map fun k => X k i)).length = K) :
    ∃ c', StateFieldMap.updateAt c sm F i = .ok c' ∧ Running c' sm N K n b fun k j =>
      if k = 0 ∧ j = i then F i ((List.range (N + 1)).map fun k => X k i) else X k j := by
  obtain ⟨s, hs, hN, hx⟩ := h.state
  obtain ⟨m, f, h1, h2, h3⟩ := h.maps
  have hb : slotOf N b 0 = b := by simp [slotOf]
  obtain ⟨g1, g2, g3⟩ := h1 b h.le
  have hle : (i + 1) * K ≤ (f b).vals.length := le_trans (Nat.mul_le_mul_right K hi) g3
  have e : (i + 1) * K = i * K + K := by ring
  have hacc := FieldMap.access_ok g2 hle
  have hcl := chunk_length hle
  set v := F i ((List.range (N + 1)).map fun k => X k i) with hv
  have e2 : ((i : Int) * (K : Int)).toNat = i * K := by rw [← Nat.cast_mul]; exact Int.toNat_natCast _
  let f' : Field α U := { f b with vals := (f b).vals.take (i * K) ++ v ++ (f b).vals.drop (i * K + K) }
  refine ⟨{ c with fields := c.fields.insert (m b).name f' }, ?_, h.le, ⟨s, hs, hN, hx⟩, ?_, ?_⟩
  · unfold StateFieldMap.updateAt
    rw [h.get hi, Res.ok_bind, h.mapAt (fun j hj => (h1 j hj).1) (Nat.zero_le N), Res.ok_bind, hb]
    unfold FieldMap.modifyAt
    simp only [g2.find, hacc, Res.ok_bind, g2.stride, Res.pure_eq, hcl, e2]
    rfl
  · refine ⟨m, fun j => if j = b then f' else f j, ?_, h2, ?_⟩
    · intro j hj
      obtain ⟨k1, k2, k3⟩ := h1 j hj
      by_cases hjb : j = b
      · subst hjb
        refine ⟨k1, ?_, ?_⟩
        · simp only [if_true]
          exact ⟨by simp [SMap.find_insert], k2.ready, k2.fresh, k2.rows, k2.cols, k2.shape, k2.stride⟩
        · simp only [if_true, f', List.length_append, List.length_take, List.length_drop, hF]
          omega
      · simp only [if_neg hjb]
        refine ⟨k1, ⟨?_, k2.ready, k2.fresh, k2.rows, k2.cols, k2.shape, k2.stride⟩, k3⟩
        simp only [SMap.find_insert]
        rw [if_neg (fun he => hjb (h2 j hj b h.le he))]
        exact k2.find
    · intro k hk j hj
      by_cases hk0 : k = 0
      · subst hk0
        simp only [hb, if_true, f', true_and]
        rw [chunk_splice hF hle]
        by_cases hji : j = i
        · rw [if_pos hji, if_pos hji]
        · rw [if_neg hji, if_neg hji, ← h3 0 hk j hj, hb]
      · have hne : slotOf N b k ≠ b := fun he => hk0 (slotOf_inj hk (Nat.zero_le N) (he.trans hb.symm))
        simp only [if_neg hne, hk0, false_and, if_false]
        exact h3 k hk j hj
  · have hstop := h.stop
    unfold StateFieldMap.endIndex at hstop ⊢
    cases hmaps : sm.maps with
    | nil => rw [hmaps] at hstop; cases hstop
    | cons m0 ms =>
      rw [hmaps] at hstop
      simp only at hstop ⊢
      have hm0 : m0 = m 0 := by
        have := (h1 0 (Nat.zero_le N)).1
        rw [hmaps] at this
        simpa using this
      unfold FieldMap.size at hstop ⊢
      simp only [SMap.find_insert]
      by_cases hn : m0.name = (m b).name
      · rw [if_pos hn]
        rw [hn, g2.find] at hstop
        simpa [f', Field.nbEntries, Field.hasSub] using hstop
      · rw [if_neg hn]
        exact hstop

/-- The loop. -/
theorem Running.updateLoop {sm : StateFieldMap} {N K n b : Nat} {F : Nat → List (List α) → List α} (fuel : Nat) :
    ∀ {c : Coll α U} {X : Nat → Nat → List α} (i : Nat), Running c sm N K n b X → i + fuel = n →
    (∀ j, i ≤ j → j < n → (F j ((List.range (N + 1)).map fun k => X k j)).length = K) →
    ∃ c', StateFieldMap.updateLoop sm F n fuel i c = .ok c' ∧ Running c' sm N K n b fun k j =>
      if k = 0 ∧ i ≤ j then F j ((List.range (N + 1)).map fun k => X k j) else X k j := by
  induction fuel with
  | zero =>
    intro c X i h hi hF
    refine ⟨c, ?_, h.le, h.state, ?_, h.stop⟩
    · unfold StateFieldMap.updateLoop
      rw [if_pos (by omega)]
    · obtain ⟨m, f, h1, h2, h3⟩ := h.maps
      refine ⟨m, f, h1, h2, ?_⟩
      intro k hk j hj
      rw [if_neg (by omega)]
      exact h3 k hk j hj
  | succ fuel ih =>
    intro c X i h hi hF
    obtain ⟨c1, h1, h2⟩ := h.updateAt (F := F) (show i < n by omega) (hF i (le_refl i) (by omega))
    obtain ⟨c2, h3, h4⟩ := ih (i + 1) h2 (by omega) (by
      intro j hj hjn
      have : ∀ k, (if k = 0 ∧ j = i then F i ((List.range (N + 1)).map fun k => X k i) else X k j) = X k j :=
        fun k => if_neg (by omega)
      simp only [this]
      exact hF j (by omega) hjn)
    refine ⟨c2, ?_, h4.le, h4.state, ?_, h4.stop⟩
    · unfold StateFieldMap.updateLoop
      rw [if_neg (by omega), h1, Res.ok_bind, h3]
    · obtain ⟨m, f, k1, k2, k3⟩ := h4.maps
      refine ⟨m, f, k1, k2, ?_⟩
      intro k hk j hj
      rw [k3 k hk j hj]
      by_cases hk0 : k = 0
      · subst hk0
        by_cases hji : i + 1 ≤ j
        · rw [if_pos ⟨rfl, hji⟩, if_pos ⟨rfl, by omega⟩]
          congr 1
          apply List.map_congr_left
          intro k' _
          exact if_neg (by omega)
        · rw [if_neg (by omega)]
          by_cases he : j = i
          · subst he
            rw [if_pos ⟨rfl, rfl⟩, if_pos ⟨rfl, le_refl _⟩]
          · rw [if_neg (by omega), if_neg (by omega)]
      · rw [if_neg (by omega), if_neg (by omega), if_neg (by omega)]

theorem Running.update {c : Coll α U} {sm : StateFieldMap} {N K n b : Nat} {X : Nat → Nat → List α}
    (h : Running c sm N K n b X) {F : Nat → List (List α) → List α}
    (hF : ∀ j < n, (F j ((List.range (N + 1)).map fun k => X k j)).length = K) :
    ∃ c', StateFieldMap.update c sm F = .ok c' ∧ Running c' sm N K n b fun k j =>
      if k = 0 then F j ((List.range (N + 1)).map fun k => X k j) else X k j := by
  obtain ⟨c', h1, h2⟩ := Running.updateLoop (F := F) n 0 h (by omega) (fun j _ hj => hF j hj)
  refine ⟨c', ?_, by simpa using h2⟩
  unfold StateFieldMap.update
  rw [h.stop, Res.ok_bind, h1]

/-- `cycle`. -/
theorem Running.cycle {c : Coll α U} {sm : StateFieldMap} {N K n b : Nat} {X : Nat → Nat → List α}
    (h : Running c sm N K n b X) :
    ∃ c', c.cycle sm.pre = (.ok (), c') ∧ Running c' sm N K n (nextSlot N b) fun k j =>
      if k = 0 then X N j else X (k - 1) j := by
  obtain ⟨s, hs, hN, hx⟩ := h.state
  obtain ⟨m, f, h1, h2, h3⟩ := h.maps
  let s' : StateField U := { s with indices := s.indices.map (fun v => (v + 1) % (s.nbMemory.toNat + 1)) }
  refine ⟨{ c with states := c.states.insert sm.pre s' },
    by simp only [Coll.cycle, hs]; rfl, nextSlot_le h.le, ?_, ⟨m, f, ?_, h2, ?_⟩, h.stop⟩
  · refine ⟨s', SMap.find_insert_self _ _ _, hN, ?_⟩
    simp only [s']
    rw [hx, hN, List.map_map]
    apply List.map_congr_left
    intro k hk
    have hk' : k ≤ N := by simpa [Nat.lt_succ_iff] using hk
    simpa using cycle_slot h.le hk'
  · intro j hj
    obtain ⟨k1, k2, k3⟩ := h1 j hj
    exact ⟨k1, ⟨k2.find, k2.ready, k2.fresh, k2.rows, k2.cols, k2.shape, k2.stride⟩, k3⟩
  · intro k hk j hj
    cases k with
    | zero => rw [slotOf_next_zero h.le, if_pos rfl]; exact h3 N (le_refl N) j hj
    | succ k => rw [slotOf_next_succ hk, if_neg (by omega)]; exact h3 k (by omega) j hj

theorem Running.congr {c : Coll α U} {sm : StateFieldMap} {N K n b : Nat} {X Y : Nat → Nat → List α}
    (h : Running c sm N K n b X) (he : ∀ k ≤ N, ∀ i < n, X k i = Y k i) : Running c sm N K n b Y := by
  obtain ⟨m, f, h1, h2, h3⟩ := h.maps
  exact ⟨h.le, h.state, ⟨m, f, h1, h2, fun k hk i hi => (h3 k hk i hi).trans (he k hk i hi)⟩, h.stop⟩

/-- One time step computes the next element of the recurrence. -/
theorem Running.timeStep {c : Coll α U} {sm : StateFieldMap} {N K n b t : Nat} {x : Nat → Nat → List α}
    {G : Nat → List (List α) → List α} (hrec : Recurrence G N x) (hlen : ∀ t, ∀ i < n, (x t i).length = K)
    (h : Running c sm N K n b fun k i => x (t + N - k) i) :
    ∃ c' b', StateFieldMap.timeStep c sm G = .ok c' ∧ Running c' sm N K n b' fun k i => x (t + 1 + N - k) i := by
  obtain ⟨c1, h1, h2⟩ := h.cycle
  have htail : ∀ j, ((List.range (N + 1)).map fun k =>
      if k = 0 then x (t + N - N) j else x (t + N - (k - 1)) j).tail = (List.range N).map fun k => x (t + N - k) j := by
    intro j
    rw [List.range_succ_eq_map]
    simp [Function.comp_def]
  obtain ⟨c2, h3, h4⟩ := h2.update (F := fun i w => G i w.tail) (by
    intro j hj
    simp only [htail]
    rw [← hrec t j]
    exact hlen _ j hj)
  refine ⟨c2, _, ?_, h4.congr ?_⟩
  · unfold StateFieldMap.timeStep
    rw [h1]
    exact h3
  · intro k hk i hi
    by_cases hk0 : k = 0
    · subst hk0
      simp only [if_true, htail]
      rw [← hrec t i]
      congr 1
      omega
    · simp only [if_neg hk0]
      congr 1
      omega

theorem Running.timeSteps {sm : StateFieldMap} {N K n : Nat} {x : Nat → Nat → List α}
    {G : Nat → List (List α) → List α} (hrec : Recurrence G N x) (hlen : ∀ t, ∀ i < n, (x t i).length = K) (T : Nat) :
    ∀ {c : Coll α U} {b t : Nat}, (Running c sm N K n b fun k i => x (t + N - k) i) →
    ∃ c' b', StateFieldMap.timeSteps sm G T c = .ok c' ∧ Running c' sm N K n b' fun k i => x (t + T + N - k) i := by
  induction T with
  | zero => intro c b t h; exact ⟨c, b, rfl, h⟩
  | succ T ih =>
    intro c b t h
    obtain ⟨c1, b1, h1, h2⟩ := h.timeStep hrec hlen
    obtain ⟨c2, b2, h3, h4⟩ := ih h2
    refine ⟨c2, b2, ?_, by simpa [Nat.add_assoc, Nat.add_comm 1 T] using h4⟩
    unfold StateFieldMap.timeSteps
    rw [h1, Res.ok_bind, h3]

/-- Which slots a state field uses, for memories one less than a power of two. -/
theorem cycled_slots {N j : Nat} (h : N + 1 = 2 ^ j) (t : Nat) :
    ∃ b ≤ N, cycled N t = (List.range (N + 1)).map (slotOf N b) := by
  induction t with
  | zero =>
    refine ⟨0, Nat.zero_le N, ?_⟩
    rw [← initialIndices_pow2 h, cycled]
    conv_rhs => rw [← List.map_id (initialIndices N)]
    apply List.map_congr_left
    intro v hv
    simpa using Nat.mod_eq_of_lt (initialIndices_lt v hv)
  | succ t ih =>
    obtain ⟨b, hb, he⟩ := ih
    refine ⟨nextSlot N b, nextSlot_le hb, ?_⟩
    have hc : cycled N (t + 1) = (cycled N t).map fun v => (v + 1) % (N + 1) := by
      simp [cycled, List.map_map, Function.comp_def, Nat.add_assoc]
    rw [hc, he, List.map_map]
    apply List.map_congr_left
    intro k hk
    have hk' : k ≤ N := by simpa [Nat.lt_succ_iff] using hk
    simpa using cycle_slot hb hk'

/-- What the registration of sub-fields leaves in an initialised collection: fields of the size of the collection
that hold zeros. -/
theorem registerSubFields_zero {pre : String} {ty : ElemType} {nbComp : Int} {tag : String} {unit : U} (n : Nat) :
    ∀ {c c' : Coll α U} {i : Nat}, c.initialised = true →
      c.registerSubFields pre ty nbComp tag unit i n = (.ok (), c') →
      c'.base = c.base ∧ (∀ m f, c.fields.find m = some f → c'.fields.find m = some f) ∧
      ∀ j, i ≤ j → j < i + n → ∃ f, c'.fields.find (subFieldName pre j) = some f ∧ f.nbComp = nbComp ∧
        f.nbSub = (c.getSub tag).1 ∧ f.cur = f.nbSub * c.nbBuf ∧
        (f.vals.length : Int) = f.nbSub * c.nbBuf * f.nbComp ∧ ∀ v ∈ f.vals, v = default := by
  induction n with
  | zero =>
    intro c c' i _ h
    simp only [registerSubFields, Prod.mk.injEq, true_and] at h
    subst h
    exact ⟨rfl, fun _ _ h => h, fun j h1 h2 => by omega⟩
  | succ n ih =>
    intro c c' i hi h
    unfold registerSubFields at h
    rcases hr : c.register (subFieldName pre i) ty (.num nbComp) tag unit false with ⟨r, c1⟩
    rw [hr] at h
    have hk := fun m f (hf : c.fields.find m = some f) =>
      c.register_keeps (subFieldName pre i) ty (.num nbComp) tag unit false hf
    have hfr := (c.register_frame (subFieldName pre i) ty (.num nbComp) tag unit false).1
    rw [hr] at hk hfr
    cases r with
    | throw e => simp at h
    | ub => simp at h
    | ok u =>
      have hb := hfr
      simp only [base, Prod.mk.injEq] at hb
      obtain ⟨b1, b2, b3, b4, b5, b6, b7, b8, b9, b10⟩ := hb
      obtain ⟨h1, h2, h3⟩ := ih (b7.trans hi) h
      refine ⟨h1.trans hfr, fun m f hf => h2 m f (hk m f hf), ?_⟩
      rcases c.register_cases (subFieldName pre i) ty (.num nbComp) tag unit false with
        ⟨f, _, _, _, hx⟩ | ⟨_, f, hft, hx, _, hz⟩ | ⟨_, _, ⟨e, hx⟩, _⟩
      · rw [hr] at hx; simp at hx
      · rw [hr] at hx
        have hx2 : c1 = _ := congrArg Prod.snd hx
        intro j hj hj'
        by_cases hji : j = i
        · subst hji
          obtain ⟨z1, z2, z3, z4, z5⟩ := hz hi
          refine ⟨f, h2 _ _ ?_, hft.2.2.1, hft.2.2.2.1, z2, z4, z5⟩
          rw [hx2]
          exact SMap.find_insert_self _ _ _
        · obtain ⟨g, g1, g2, g3, g4, g5, g6⟩ := h3 j (by omega) (by omega)
          refine ⟨g, g1, g2, ?_, by rw [g4, b5], by rw [g5, b5], g6⟩
          rw [g3, getSub_fst, hx2]
          show ((c.getSub tag).2.subPts.find tag).getD Unknown = _
          rw [getSub_find, if_pos rfl]
          rfl
      · rw [hr] at hx; simp at hx

/-- A new state field in an initialised collection. -/
theorem registerState_zero {c c1 : Coll α U} (hi : c.initialised = true) {pre : String} {ty : ElemType} {N : Nat}
    {nbComp : Int} {tag : String} {unit : U}
    (h : c.registerState pre ty N nbComp tag unit false = (.ok (), c1)) :
    ∀ j ≤ N, ∃ f, c1.fields.find (subFieldName pre j) = some f ∧ f.nbComp = nbComp ∧
      f.nbSub = (c.subPts.find tag).getD Unknown ∧ f.cur = f.nbSub * c.nbBuf ∧
      (f.vals.length : Int) = f.nbSub * c.nbBuf * f.nbComp ∧ ∀ v ∈ f.vals, v = default := by
  unfold registerState at h
  cases hp : c.states.find pre with
  | some s => rw [hp] at h; simp at h
  | none =>
    rw [hp] at h
    simp only at h
    split at h
    · simp at h
    · obtain ⟨hb, -, -⟩ := c.getSub_frame tag
      simp only [base, Prod.mk.injEq] at hb
      obtain ⟨b1, b2, b3, b4, b5, b6, b7, b8, b9, b10⟩ := hb
      rcases hr : (c.getSub tag).2.registerSubFields pre ty nbComp tag unit 0 ((N : Int).toNat + 1) with ⟨r, c2⟩
      rw [hr] at h
      cases r with
      | throw e => simp at h
      | ub => simp at h
      | ok u =>
        simp only [Prod.mk.injEq, true_and] at h
        subst h
        obtain ⟨-, -, h3⟩ := registerSubFields_zero _ (b7.trans hi) hr
        intro j hj
        obtain ⟨f, g1, g2, g3, g4, g5, g6⟩ := h3 j (Nat.zero_le j) (by simp; omega)
        refine ⟨f, g1, g2, ?_, by rw [g4, b5], by rw [g5, b5], g6⟩
        rw [g3, getSub_fst, getSub_find, if_pos rfl, Option.getD_some, getSub_fst]

end Verif.Props
