import Verif.Model.Numpy
import Verif.Lemmas.Address
/-
Helper lemmas on wrapped numpy arrays.
-/
namespace Verif.Numpy
open Verif Verif.Ccoord Verif.Layout Verif.Layout.FieldLayout Verif.RawMemory

theorem firstMin_spec : ∀ {l : List Int}, l ≠ [] → ∃ m, firstMin l = .ok m ∧ (∀ x ∈ l, m.1 ≤ x) ∧ m.1 ∈ l
  | [x], _ => ⟨(x, 0), rfl, by simp, by simp⟩
  | x :: y :: l, _ => by
      obtain ⟨m, h1, h2, h3⟩ := firstMin_spec (l := y :: l) (by simp)
      rw [firstMin, h1, Res.ok_bind]
      by_cases h : m.1 < x
      · rw [if_pos h]
        refine ⟨_, rfl, ?_, List.mem_cons_of_mem _ h3⟩
        intro z hz
        rcases List.mem_cons.1 hz with rfl | hz
        · exact le_of_lt h
        · exact h2 z hz
      · rw [if_neg h]
        refine ⟨_, rfl, ?_, List.mem_cons_self ..⟩
        intro z hz
        rcases List.mem_cons.1 hz with rfl | hz
        · exact le_refl _
        · have := h2 z hz
          simp only
          omega

theorem lastMax_spec : ∀ {l : List Int}, l ≠ [] → ∃ m, lastMax l = .ok m ∧ (∀ x ∈ l, x ≤ m.1) ∧ m.1 ∈ l
  | [x], _ => ⟨(x, 0), rfl, by simp, by simp⟩
  | x :: y :: l, _ => by
      obtain ⟨m, h1, h2, h3⟩ := lastMax_spec (l := y :: l) (by simp)
      rw [lastMax, h1, Res.ok_bind]
      by_cases h : m.1 < x
      · rw [if_pos h]
        refine ⟨_, rfl, ?_, List.mem_cons_self ..⟩
        intro z hz
        rcases List.mem_cons.1 hz with rfl | hz
        · exact le_refl _
        · have := h2 z hz
          simp only
          omega
      · rw [if_neg h]
        refine ⟨_, rfl, ?_, List.mem_cons_of_mem _ h3⟩
        intro z hz
        rcases List.mem_cons.1 hz with rfl | hz
        · simp only
          omega
        · exact h2 z hz

/-- What a detected native order means. -/
def Guess (o : StorageOrder) (cs ps : List Int) : Prop :=
  o = .unknown ∨ (o = .rowMajor ∧ ∀ x ∈ cs, ∀ y ∈ ps, y < x) ∨ (o = .colMajor ∧ ∀ x ∈ cs, ∀ y ∈ ps, x ≤ y)

theorem guessOrder_spec {srt : SortFn} {nb comps cs ps : List Int} {r : StorageOrder × List Int}
    (hc : cs ≠ []) (hp : ps ≠ []) (h : guessOrder srt nb comps cs ps = .ok r) : Guess r.1 cs ps := by
  obtain ⟨cmin, c1, c2, -⟩ := firstMin_spec hc
  obtain ⟨cmax, c3, c4, -⟩ := lastMax_spec hc
  obtain ⟨pmin, p1, p2, -⟩ := firstMin_spec hp
  obtain ⟨pmax, p3, p4, -⟩ := lastMax_spec hp
  rw [guessOrder, if_neg hc, c1, Res.ok_bind, c3, Res.ok_bind, p1, Res.ok_bind, p3, Res.ok_bind] at h
  obtain ⟨o, ho, h⟩ := Res.bind_eq_ok.1 h
  obtain ⟨b, hb, h⟩ := Res.bind_eq_ok.1 h
  have hg : Guess o cs ps := by
    unfold pixelsOrder at ho
    split at ho
    · next hlt =>
        obtain ⟨n, -, ho⟩ := Res.bind_eq_ok.1 ho
        rw [← Res.ok.inj ho]
        split
        · refine .inr (.inl ⟨rfl, ?_⟩)
          intro x hx y hy
          have := c2 x hx
          have := p4 y hy
          omega
        · exact .inl rfl
    · split at ho
      · next hle =>
          obtain ⟨n, -, ho⟩ := Res.bind_eq_ok.1 ho
          rw [← Res.ok.inj ho]
          split
          · refine .inr (.inr ⟨rfl, ?_⟩)
            intro x hx y hy
            have := c4 x hx
            have := p2 y hy
            omega
          · exact .inl rfl
      · rw [← Res.ok.inj ho]
        exact .inl rfl
  rw [← Res.ok.inj h]
  cases b
  · exact .inl rfl
  · exact hg

theorem checkComponents_spec (o : StorageOrder) (cs : List Int) :
    checkComponents o cs = o ∨ checkComponents o cs = .unknown := by
  unfold checkComponents
  split
  · split <;> split <;> simp
  · exact .inl rfl

/-- The parts of a successful detection. -/
theorem detect_spec {srt : SortFn} {nb cA : List Int} {nbSub : Int} {a : NpArray}
    {det : StorageOrder × List Int × List Int} (hsh : a.shape = cA ++ nb) (hst : a.strides.length = a.shape.length)
    (h : detectStorageOrder srt nb cA nbSub a = .ok det) :
    ∃ cs ps sm, a.strides = cs ++ ps ∧ cs.length = cA.length ∧ ps.length = nb.length ∧ ps ≠ [] ∧
      firstMin ps = .ok sm ∧ det.2.1 = normalise sm.1 ps ∧
      ((det.1 = .unknown ∧ cA ≠ [] ∧ ¬ 1 < nbSub ∧ det.2.2 = cs.map (Int.tdiv · a.item) ++
          (if cA ≠ [] ∧ nbSub = 1 then [0] else []) ++ ps.map (Int.tdiv · a.item)) ∨
        (det.1 = .rowMajor ∧ det.2.2 = [] ∧ cA ≠ [] ∧ ∀ x ∈ cs, ∀ y ∈ ps, y < x) ∨
        (det.1 = .colMajor ∧ det.2.2 = [] ∧ ∀ x ∈ cs, ∀ y ∈ ps, x ≤ y)) := by
  unfold detectStorageOrder at h
  rw [if_neg (by rw [hsh]; simp; omega)] at h
  have hlen : a.strides.length = cA.length + nb.length := by rw [hst, hsh]; simp
  have hdrop : a.shape.length - nb.length = cA.length := by rw [hsh]; simp
  rw [hdrop] at h
  refine ⟨a.strides.take cA.length, a.strides.drop cA.length, ?_⟩
  have hcl : (a.strides.take cA.length).length = cA.length := by rw [List.length_take]; omega
  have hpl : (a.strides.drop cA.length).length = nb.length := by rw [List.length_drop]; omega
  have hcat := List.take_append_drop cA.length a.strides
  revert h
  generalize a.strides.take cA.length = cs at hcl hcat ⊢
  generalize a.strides.drop cA.length = ps at hpl hcat ⊢
  intro h
  obtain ⟨g, hg, h⟩ := Res.bind_eq_ok.1 h
  obtain ⟨sm, hsm, h⟩ := Res.bind_eq_ok.1 h
  have hps : ps ≠ [] := by rintro rfl; simp [firstMin] at hsm
  refine ⟨sm, hcat.symm, hcl, hpl, hps, hsm, ?_⟩
  have hguess : (cs = [] ∧ checkComponents g.1 g.2 = .colMajor) ∨
      (cs ≠ [] ∧ Guess (checkComponents g.1 g.2) cs ps) := by
    by_cases hc : cs = []
    · rw [guessOrder, if_pos hc] at hg
      rw [← Res.ok.inj hg, hc]
      exact .inl ⟨rfl, rfl⟩
    · have h1 := guessOrder_spec hc hps hg
      rcases checkComponents_spec g.1 g.2 with h2 | h2
      · exact .inr ⟨hc, h2.symm ▸ h1⟩
      · exact .inr ⟨hc, .inl h2⟩
  have hcA : cs ≠ [] → cA ≠ [] := by
    rintro hc rfl
    exact hc (List.length_eq_zero_iff.1 hcl)
  dsimp only at h
  split at h
  · simp at h
  · next hn =>
      have h' := Res.ok.inj h
      subst h'
      refine ⟨rfl, ?_⟩
      rcases hguess with ⟨hc, h1⟩ | ⟨hc, h1 | ⟨h1, h2⟩ | ⟨h1, h2⟩⟩
      · refine .inr (.inr ⟨h1, by simp [h1], ?_⟩)
        rw [hc]; simp
      · refine .inl ⟨h1, hcA hc, fun h => hn ⟨h, h1⟩, by simp [h1]⟩
      · exact .inr (.inl ⟨h1, by simp [h1], hcA hc, h2⟩)
      · exact .inr (.inr ⟨h1, by simp [h1], h2⟩)

/-- The parts of a successful construction. -/
theorem makeProxy_spec {srt : SortFn} {domain nb loc comps : List Int} {nbSub : Int} {a : NpArray}
    {det : StorageOrder × List Int × List Int} {w : Wrapped}
    (h : makeProxy srt domain nb loc comps nbSub a det = .ok w) :
    ∃ nbBuf, getBufferSize nb det.2.1 = .ok nbBuf ∧ w = ⟨⟨det.1, comps, nbSub, nb, det.2.1, nbBuf⟩, det.2.2⟩ ∧
      ∃ s, w.strides .subPt 1 = .ok s ∧ s.length = comps.length + 1 + nb.length := by
  unfold makeProxy at h
  split at h
  · simp at h
  split at h
  · simp at h
  obtain ⟨_, -, h⟩ := Res.bind_eq_ok.1 h
  obtain ⟨nbBuf, hb, h⟩ := Res.bind_eq_ok.1 h
  unfold wrapField at h
  split at h
  · simp at h
  obtain ⟨s, hs, h⟩ := Res.bind_eq_ok.1 h
  split at h
  · simp at h
  next hl =>
  split at h
  · simp at h
  split at h
  · simp at h
  refine ⟨nbBuf, hb, (Res.ok.inj h).symm, s, ?_, ?_⟩
  · rw [← Res.ok.inj h]; exact hs
  · simp [FieldLayout.shape, subPtShape] at hl
    omega

/-- Dividing and multiplying by the smallest stride. -/
theorem tdiv_map {l : List Int} {k : Int} (c : List Int) (h : ∀ x ∈ l, k ∣ x) :
    k * dot (l.map (Int.tdiv · k)) c = dot l c := by
  induction l generalizing c with
  | nil => simp [dot]
  | cons x l ih =>
      cases c with
      | nil => simp [dot]
      | cons y c =>
          have h1 : k * x.tdiv k = x := Int.mul_tdiv_cancel' (h x (List.mem_cons_self ..))
          have h2 := ih c fun z hz => h z (List.mem_cons_of_mem _ hz)
          simp only [List.map_cons, dot]
          rw [mul_add, h2, ← mul_assoc, h1]

theorem cStrides_cons (n : Int) (s : List Int) : cStrides (n :: s) = s.prod :: cStrides s := by
  rw [cStrides, accStrides_reverse_cons]
  simp [cStrides]

theorem cStrides_length (s : List Int) : (cStrides s).length = s.length := by
  simp [cStrides, accStrides_length]

theorem cStrides_append (s t : List Int) : cStrides (s ++ t) = (cStrides s).map (· * t.prod) ++ cStrides t := by
  induction s with
  | nil => simp [cStrides, accStrides]
  | cons n s ih => rw [List.cons_append, cStrides_cons, ih, cStrides_cons]; simp

end Verif.Numpy
