import Mathlib.Algebra.BigOperators.Group.List.Basic
import Verif.Lemmas.Gradient
/-
The accesses of the gradient operator on a periodic grid with origin zero.
-/
namespace Verif.Ccoord.DynamicPixels

/-- The constructor with default strides gives the same pixels as the one with those strides spelled
out, if the latter reports a contiguous buffer. -/
theorem mkDefault_of_mkOrdered {srt : SortFn} {nb loc : List Int} {p : DynamicPixels}
    (h : mkOrdered srt true nb (fillLoc nb loc) = .ok p) (hne : nb ≠ []) (hc : p.contiguous = true) :
    mkDefault srt nb loc = .ok p := by
  have hf : fillLoc nb (fillLoc nb loc) = fillLoc nb loc := by
    unfold fillLoc
    have := List.length_pos_iff.2 hne
    split
    · rw [if_neg (by simp; omega)]
    · rfl
  simp only [mkOrdered, if_true, mkStrided, hf, Res.bind_eq_ok] at h
  obtain ⟨s, h1, h2⟩ := h
  split at h2
  · cases h2
  · simp only [Res.bind_eq_ok] at h2
    obtain ⟨ax, h3, b, h4, h5⟩ := h2
    split at h5
    · cases h5
    · rename_i h6
      cases h5
      simp only at hc
      subst hc
      simp only [mkDefault, h1, h3, Res.ok_bind, if_neg h6]
      rfl

end Verif.Ccoord.DynamicPixels

namespace Verif

open Verif.Ccoord

theorem corner_length (d k : Nat) : (corner d k).length = d := by
  induction d generalizing k with
  | zero => rfl
  | succ d ih => simp [corner, ih]

theorem corner_inBox (d k : Nat) : InBoxAt (List.replicate d 2) (List.replicate d 0) (corner d k) := by
  induction d generalizing k with
  | zero => trivial
  | succ d ih =>
    refine ⟨by omega, by omega, ih _⟩

theorem corner_number (d k : Nat) (hk : k < 2 ^ d) :
    colMajorNumber (List.replicate d 2) (List.replicate d 0) (corner d k) = k := by
  induction d generalizing k with
  | zero => simp at hk; subst hk; rfl
  | succ d ih =>
    simp only [List.replicate_succ, corner, colMajorNumber]
    rw [ih (k / 2) (by rw [pow_succ] at hk; omega)]
    omega

theorem wrap_inBox {nb loc x o : List Int} (hp : Pos nb) (hx : x.length = nb.length)
    (ho : o.length = nb.length) (hl : loc = List.replicate nb.length 0) : InBoxAt nb loc (wrap nb x o) := by
  subst hl
  induction nb generalizing x o with
  | nil => cases x <;> cases o <;> simp_all [InBoxAt, wrap]
  | cons n nb ih =>
    obtain ⟨a, x, rfl⟩ := List.exists_cons_of_length_eq_add_one hx
    obtain ⟨b, o, rfl⟩ := List.exists_cons_of_length_eq_add_one ho
    have hn := hp n (by simp)
    refine ⟨Int.emod_nonneg _ (by omega), ?_, ih (fun m hm => hp m (by simp [hm])) (by simpa using hx) (by simpa using ho)⟩
    have := Int.emod_lt_of_pos (a + b) hn
    show (a + b) % n < 0 + n
    omega

/-- Displacements on a periodic grid commute. -/
theorem wrap_comm (nb x o t : List Int) :
    wrap nb (wrap nb x o) t = wrap nb (wrap nb x t) o := by
  induction nb generalizing x o t with
  | nil => simp [wrap]
  | cons n nb ih =>
    cases x with
    | nil => simp [wrap]
    | cons a x =>
      cases o with
      | nil => simp [wrap]
      | cons b o =>
        cases t with
        | nil => simp [wrap]
        | cons c t =>
          have h := ih x o t
          simp only [wrap] at h
          simp only [wrap, List.zipWith_cons_cons, h, List.cons.injEq, and_true]
          rw [Int.emod_add_emod, Int.emod_add_emod]
          congr 1; ring

/-- Going back. -/
theorem wrap_add_neg {nb loc x o : List Int} (hl : loc = List.replicate nb.length 0) (hx : InBoxAt nb loc x)
    (ho : o.length = nb.length) : wrap nb (wrap nb x o) (o.map (fun b => -b)) = x := by
  subst hl
  induction nb generalizing x o with
  | nil => cases x <;> simp_all [InBoxAt, wrap]
  | cons n nb ih =>
    cases x with
    | nil => simp [List.replicate_succ, InBoxAt] at hx
    | cons a x =>
      obtain ⟨b, o, rfl⟩ := List.exists_cons_of_length_eq_add_one ho
      simp only [List.length_cons, List.replicate_succ, InBoxAt] at hx
      have h := ih (o := o) (by simpa using ho) hx.2.2
      simp only [wrap] at h
      simp only [wrap, List.map_cons, List.zipWith_cons_cons, h, List.cons.injEq, and_true]
      rw [Int.emod_add_emod, show a + b + -b = a by ring]
      exact Int.emod_eq_of_lt hx.1 (by omega)

theorem wrap_neg_add {nb loc x o : List Int} (hl : loc = List.replicate nb.length 0) (hx : InBoxAt nb loc x)
    (ho : o.length = nb.length) : wrap nb (wrap nb x (o.map (fun b => -b))) o = x := by
  rw [wrap_comm]
  exact wrap_add_neg hl hx ho

namespace GradOp

theorem noInnerUnit_cube (d : Nat) : Props.NoInnerUnit (List.replicate d 2) := by
  intro a b c x y z hab hbc ha hb hc hx hz
  have := List.mem_of_getElem? hb
  have := List.eq_of_mem_replicate this
  omega

theorem offsets_eq {srt : SortFn} (hsrt : SortSpec srt) {d : Nat} (h1 : 1 ≤ d) (h3 : d ≤ 3) :
    offsets srt d = .ok ((List.range (2 ^ d)).map (fun k => (k, corner d k))) := by
  have hp : Pos (List.replicate d 2) := by
    intro n hn; have := List.eq_of_mem_replicate hn; omega
  have hfl : DynamicPixels.fillLoc (List.replicate d 2) [] = List.replicate d 0 := by
    simp [DynamicPixels.fillLoc]
  obtain ⟨p, hk, hg, hc, hn, hl, hs⟩ := Props.ordered_good hsrt true (nb := List.replicate d 2)
    (loc := List.replicate d 0) hp (by simpa) (by simpa) (by simp) (noInnerUnit_cube d)
  have hk' := DynamicPixels.mkDefault_of_mkOrdered (loc := []) (by rw [hfl]; exact hk)
    (by simp; omega) hc
  obtain ⟨L, h4, h5, h6, h7, h8, -⟩ := hg.visited hc
  have hprod : p.nb.prod.toNat = 2 ^ d := by
    rw [hn, List.prod_replicate]
    exact Int.toNat_natCast (2 ^ d)
  simp only [offsets, hk', h4, Res.ok_bind, Res.pure_eq, Res.ok.injEq]
  apply List.ext_getElem
  · simp [h5, hprod]
  · intro k hk1 hk2
    have hk3 : k < 2 ^ d := by simpa using hk2
    have hk4 : k < L.length := by rw [h5, hprod]; exact hk3
    have e : L[k] = corner d k := by
      have hb := (h7 L[k]).1 (List.getElem_mem hk4)
      obtain ⟨i, i1, -, -, i4⟩ := hg.coord hb
      rw [h8 k hk4] at i1
      cases i1
      have hb' : InBoxAt p.nb p.loc (corner d k) := by rw [hn, hl]; exact corner_inBox d k
      obtain ⟨j, j1, -, -, j4⟩ := hg.coord hb'
      have hj : p.getIndex (corner d k) = .ok (k : Int) := by
        rw [DynamicPixels.getIndex_of_inBox hg.strides_len hb', hs, hl]
        simp only [if_true, colMajorStrides]
        rw [dot_colMajorAux (by simp) (by simp [corner_length]), one_mul, corner_number d k hk3]
      rw [hj] at j1
      cases j1
      rw [i4] at j4
      exact Res.ok.inj j4
    simp [e]

theorem shiftCcoord_eq {nb loc x o : List Int} (hp : Pos nb) (hl : loc = List.replicate nb.length 0)
    (hx : InBoxAt nb loc x) (ho : o.length = nb.length) (ho0 : ∀ a ∈ o, 0 ≤ a) :
    shiftCcoord x o nb = .ok (wrap nb x o) := by
  have hlen := InBoxAt.lengths hx
  unfold shiftCcoord
  rw [if_neg (by omega), if_neg]
  · congr 1
    subst hl
    unfold wrap
    clear hlen
    induction nb generalizing x o with
    | nil => simp
    | cons n nb ih =>
      cases x with
      | nil => simp
      | cons a x =>
        cases o with
        | nil => simp
        | cons b o =>
          simp only [List.length_cons, List.replicate_succ, InBoxAt] at hx
          simp only [List.zipWith_cons_cons]
          rw [ih (fun m hm => hp m (by simp [hm])) (by simpa using ho) (fun c hc => ho0 c (by simp [hc])) hx.2.2]
          congr 1
          have := ho0 b (by simp)
          exact Int.tmod_eq_emod_of_nonneg (by omega)
  · simp only [List.any_eq_true, beq_iff_eq, not_exists, not_and]
    intro n hn h0
    have := hp n hn
    omega

theorem corner_nonneg (d k : Nat) : ∀ a ∈ corner d k, 0 ≤ a := by
  induction d generalizing k with
  | zero => simp [corner]
  | succ d ih =>
    intro a ha
    simp only [corner, List.mem_cons] at ha
    rcases ha with rfl | ha
    · omega
    · exact ih _ a ha

theorem _root_.Verif.Ccoord.DynamicPixels.Good.pos {p : DynamicPixels} (h : p.Good) : Pos p.nb := by
  have key : ∀ nb s : List Int, Dense nb s → ∀ n ∈ nb, 0 < n := by
    intro nb
    induction nb with
    | nil => simp
    | cons n nb ih =>
      intro s hs
      cases s with
      | nil => exact absurd hs (by simp [Dense])
      | cons s ss =>
        intro m hm
        rcases List.mem_cons.1 hm with rfl | hm
        · exact hs.1
        · exact ih ss hs.2.2 m hm
  intro n hn
  refine key _ _ h.dense n ?_
  obtain ⟨i, hi, rfl⟩ := List.getElem_of_mem hn
  refine List.mem_map.2 ⟨i, ?_, by simp [hi]⟩
  rw [List.mem_reverse, h.perm.mem_iff]
  exact List.mem_range.2 hi

/-- The number of a pixel. -/
def num (p : DynamicPixels) (c : List Int) : Int := dot p.strides (sub c p.loc)

theorem offTriples_eq {p : DynamicPixels} {id : Int} {x : List Int} {f : Nat → Nat × List Int}
    {g : List Int → List Int} {l : List Nat}
    (h : ∀ k ∈ l, shiftCcoord x (f k).2 p.nb = .ok (g (f k).2) ∧ p.getIndex (g (f k).2) = .ok (num p (g (f k).2))) :
    offTriples p id x (l.map f) = .ok (l.map (fun k => (id, (f k).1, num p (g (f k).2)))) := by
  induction l with
  | nil => rfl
  | cons k l ih =>
    simp only [List.map_cons, offTriples, (h k (by simp)).1, (h k (by simp)).2, Res.ok_bind,
      ih (fun k' hk' => h k' (by simp [hk'])), Res.pure_eq]

theorem triples_eq {p : DynamicPixels} {offs : List (Nat × List Int)} {f : Nat → Int × List Int}
    {g : Nat → List (Int × Nat × Int)} {l : List Nat}
    (h : ∀ i ∈ l, offTriples p (f i).1 (f i).2 offs = .ok (g i)) :
    triples p offs (l.map f) = .ok (l.flatMap g) := by
  induction l with
  | nil => rfl
  | cons i l ih =>
    simp only [List.map_cons, triples, h i (by simp), ih (fun i' hi' => h i' (by simp [hi'])), Res.ok_bind,
      Res.pure_eq, List.flatMap_cons]

/-- A periodic grid with origin zero, numbered densely. -/
structure Periodic (p : DynamicPixels) (dim : Nat) : Prop where
  good : p.Good
  contiguous : p.contiguous = true
  origin : p.loc = List.replicate p.nb.length 0
  dim_eq : p.nb.length = dim
  dim_pos : 1 ≤ dim
  dim_le : dim ≤ 3

theorem Periodic.wrap_inBox {p : DynamicPixels} {dim : Nat} (h : Periodic p dim) {x o : List Int}
    (hx : InBoxAt p.nb p.loc x) (ho : o.length = dim) : InBoxAt p.nb p.loc (wrap p.nb x o) :=
  Verif.wrap_inBox h.good.pos (InBoxAt.lengths hx).2 (by rw [ho, h.dim_eq]) h.origin

/-- The accesses: for every pixel `x` in order and every corner, that corner's pixel. -/
theorem Periodic.visits {srt : SortFn} (hsrt : SortSpec srt) {p : DynamicPixels} {dim : Nat}
    (h : Periodic p dim) :
    ∃ L : List (List Int), L.length = p.nb.prod.toNat ∧ (∀ c, c ∈ L ↔ InBoxAt p.nb p.loc c) ∧
      (∀ (k : Nat) (hk : k < L.length), p.getIndex L[k] = .ok (k : Int)) ∧
      GradOp.visits srt dim p = .ok ((List.range L.length).flatMap (fun i : Nat =>
        (List.range (2 ^ dim)).map (fun o =>
          ((i : Int), o, num p (wrap p.nb ((L[i]?).getD []) (corner dim o)))))) := by
  obtain ⟨L, h4, h5, h6, h7, h8, h9⟩ := h.good.visited h.contiguous
  refine ⟨L, h5, h7, h8, ?_⟩
  simp only [GradOp.visits, offsets_eq hsrt h.dim_pos h.dim_le, h9, Res.ok_bind]
  refine triples_eq fun i hi => ?_
  have hi' : i < L.length := List.mem_range.1 hi
  have hx : InBoxAt p.nb p.loc L[i] := (h7 _).1 (List.getElem_mem hi')
  simp only [List.getElem?_eq_getElem hi', Option.getD_some]
  refine offTriples_eq (g := wrap p.nb L[i]) fun k _ => ⟨?_, ?_⟩
  · exact shiftCcoord_eq h.good.pos h.origin hx (by simp [corner_length, h.dim_eq]) (corner_nonneg _ _)
  · exact DynamicPixels.getIndex_of_inBox h.good.strides_len (h.wrap_inBox hx (corner_length _ _))

theorem Periodic.num_bounds {p : DynamicPixels} {dim : Nat} (h : Periodic p dim) {x : List Int}
    (hx : InBoxAt p.nb p.loc x) : 0 ≤ num p x ∧ num p x < (p.nb.prod.toNat : Int) := by
  obtain ⟨i, h1, h2, h3, -⟩ := h.good.coord hx
  rw [DynamicPixels.getIndex_of_inBox h.good.strides_len hx] at h1
  have h1' : num p x = i := Res.ok.inj h1
  rw [h1']
  omega

/-! ### Loops that cannot throw -/

theorem offsetLoop_noThrow {σ : Type} {p : DynamicPixels} {base : List Int} {body : Nat → Int → σ → Res σ}
    (hb : ∀ i k s e, body i k s ≠ .throw e) (hs : p.loc.length = p.strides.length)
    (hn : p.nb.length = p.strides.length) (hbase : base.length = p.nb.length) (offs : List (Nat × List Int))
    (ho : ∀ o ∈ offs, o.2.length = p.nb.length) (s : σ) (e : Err) :
    offsetLoop p base body offs s ≠ .throw e := by
  induction offs generalizing s with
  | nil => simp [offsetLoop]
  | cons x rest ih =>
    obtain ⟨i, o⟩ := x
    have hol : o.length = p.nb.length := ho (i, o) (by simp)
    simp only [offsetLoop]
    unfold shiftCcoord
    rw [if_neg (by omega)]
    split
    · simp
    · simp only [Res.ok_bind, DynamicPixels.getIndex, getIndexFromStrides]
      rw [if_neg (by omega), if_neg (by simp; omega)]
      simp only [Res.ok_bind]
      cases h : body i (indexSum p.strides p.loc
          (List.zipWith Int.tmod (List.zipWith (· + ·) base o) p.nb)) s with
      | ok s' => exact ih (fun o' ho' => ho o' (by simp [ho'])) s'
      | throw e' => exact absurd h (hb _ _ _ _)
      | ub => simp

theorem pixelLoop_noThrow {σ : Type} {p : DynamicPixels} {body : Int → Nat → Int → σ → Res σ}
    (hb : ∀ id i k s e, body id i k s ≠ .throw e) (hs : p.loc.length = p.strides.length)
    (hn : p.nb.length = p.strides.length) (offs : List (Nat × List Int))
    (ho : ∀ o ∈ offs, o.2.length = p.nb.length) (pixels : List (Int × List Int))
    (hp : ∀ x ∈ pixels, x.2.length = p.nb.length) (s : σ) (e : Err) :
    pixelLoop p offs body pixels s ≠ .throw e := by
  induction pixels generalizing s with
  | nil => simp [pixelLoop]
  | cons x rest ih =>
    obtain ⟨id, base⟩ := x
    simp only [pixelLoop]
    cases h : offsetLoop p base (body id) offs s with
    | ok s' => exact ih (fun o' ho' => hp o' (by simp [ho'])) s'
    | throw e' => exact absurd h (offsetLoop_noThrow (hb id) hs hn (hp (id, base) (by simp)) offs ho s e')
    | ub => simp

/-- Strides of a dense grid are positive. -/
theorem _root_.Verif.Ccoord.DynamicPixels.Good.strides_pos {p : DynamicPixels} (h : p.Good) : Pos p.strides := by
  have key : ∀ nb s : List Int, Dense nb s → (0 ≤ maxIdx nb s ∧ ∀ n ∈ s, 0 < n) := by
    intro nb
    induction nb with
    | nil => intro s hs; cases s <;> simp_all [Dense, maxIdx]
    | cons n nb ih =>
      intro s hs
      cases s with
      | nil => exact absurd hs (by simp [Dense])
      | cons s ss =>
        obtain ⟨h1, h2, h3⟩ := hs
        obtain ⟨i1, i2⟩ := ih ss h3
        have hs0 : 0 < s := by omega
        refine ⟨?_, ?_⟩
        · simp only [maxIdx]
          have := mul_nonneg (show 0 ≤ n - 1 by omega) hs0.le
          omega
        · intro m hm
          rcases List.mem_cons.1 hm with rfl | hm
          · exact hs0
          · exact i2 m hm
  intro n hn
  refine (key _ _ h.dense).2 n ?_
  obtain ⟨i, hi, rfl⟩ := List.getElem_of_mem hn
  refine List.mem_map.2 ⟨i, ?_, by simp [hi]⟩
  rw [List.mem_reverse, h.perm.mem_iff]
  exact List.mem_range.2 (by rw [← h.strides_len]; exact hi)

/-- The pixel of a subdomain whose coordinates are multiples of the extents. -/
theorem multiple_exists {nb loc : List Int} (hp : Pos nb) (hl : loc.length = nb.length) (h0 : ∀ l ∈ loc, 0 ≤ l) :
    ∃ x, InBoxAt nb loc x ∧ (∀ a ∈ x, 0 ≤ a) ∧
      List.zipWith Int.tmod (List.zipWith (· + ·) x (List.replicate nb.length 0)) nb =
        List.replicate nb.length 0 := by
  induction nb generalizing loc with
  | nil =>
    obtain rfl : loc = [] := List.length_eq_zero_iff.1 hl
    exact ⟨[], trivial, by simp, rfl⟩
  | cons n nb ih =>
    obtain ⟨l, loc, rfl⟩ := List.exists_cons_of_length_eq_add_one hl
    obtain ⟨x, h1, h2, h3⟩ := ih (loc := loc) (fun m hm => hp m (by simp [hm])) (by simpa using hl)
      (fun m hm => h0 m (by simp [hm]))
    have hn := hp n (by simp)
    have hl0 := h0 l (by simp)
    have e1 := Int.emod_nonneg (-l) (show n ≠ 0 by omega)
    have e2 := Int.emod_lt_of_pos (-l) hn
    refine ⟨(l + (-l) % n) :: x, ⟨by omega, by omega, h1⟩, ?_, ?_⟩
    · intro a ha
      rcases List.mem_cons.1 ha with rfl | ha
      · omega
      · exact h2 a ha
    · simp only [List.length_cons, List.replicate_succ, List.zipWith_cons_cons, h3, List.cons.injEq, and_true]
      rw [Int.tmod_eq_emod_of_nonneg (by omega)]
      rw [show l + -l % n + 0 = -l % n + l by ring, Int.emod_add_emod]
      simp

theorem corner_zero (d : Nat) : corner d 0 = List.replicate d 0 := by
  induction d with
  | zero => rfl
  | succ d ih => simp [corner, ih, List.replicate_succ]

theorem dot_neg_of_loc {s loc : List Int} (hl : loc.length = s.length) (hs : Pos s) (h0 : ∀ l ∈ loc, 0 ≤ l)
    (h1 : ∃ l ∈ loc, 0 < l) : dot s (sub (List.replicate s.length 0) loc) < 0 := by
  have key : ∀ {s loc : List Int}, loc.length = s.length → Pos s → (∀ l ∈ loc, 0 ≤ l) →
      dot s (sub (List.replicate s.length 0) loc) ≤ 0 := by
    intro s
    induction s with
    | nil => intros; simp [dot]
    | cons a s ih =>
      intro loc hl hs h0
      obtain ⟨l, loc, rfl⟩ := List.exists_cons_of_length_eq_add_one hl
      have := ih (loc := loc) (by simpa using hl) (fun m hm => hs m (by simp [hm])) (fun m hm => h0 m (by simp [hm]))
      simp only [sub] at this
      simp only [List.length_cons, List.replicate_succ, sub, List.zipWith_cons_cons, dot]
      have := mul_nonneg (hs a (by simp)).le (h0 l (by simp))
      have e : a * (0 - l) = -(a * l) := by ring
      omega
  induction s generalizing loc with
  | nil => obtain ⟨l, hl', -⟩ := h1; cases loc <;> simp_all
  | cons a s ih =>
    obtain ⟨l, loc, rfl⟩ := List.exists_cons_of_length_eq_add_one hl
    have hl' : loc.length = s.length := by simpa using hl
    have hs' : Pos s := fun m hm => hs m (by simp [hm])
    have h0' : ∀ m ∈ loc, 0 ≤ m := fun m hm => h0 m (by simp [hm])
    have e : a * (0 - l) = -(a * l) := by ring
    have ha := hs a (by simp)
    simp only [List.length_cons, List.replicate_succ, sub, List.zipWith_cons_cons, dot, e]
    obtain ⟨m, hm, hm0⟩ := h1
    rcases List.mem_cons.1 hm with rfl | hm
    · have := mul_pos ha hm0
      have := key hl' hs' h0'
      simp only [sub] at this
      omega
    · have := mul_nonneg ha.le (h0 l (by simp))
      have := ih hl' hs' h0' ⟨m, hm, hm0⟩
      simp only [sub] at this
      omega

theorem sum_map_range {β : Type} [AddCommMonoid β] (M : Nat) (F : Nat → β) :
    ((List.range M).map F).sum = ∑ o ∈ Finset.range M, F o := by
  induction M with
  | zero => simp
  | succ M ih => rw [List.range_succ, List.map_append, List.sum_append, ih, Finset.sum_range_succ]; simp

/-- Sum over all accesses. -/
theorem sum_flat {β τ : Type} [AddCommMonoid β] (N M : Nat) (f : Nat → Nat → τ) (F : τ → β) :
    (((List.range N).flatMap (fun i => (List.range M).map (f i))).map F).sum =
      ∑ i ∈ Finset.range N, ∑ o ∈ Finset.range M, F (f i o) := by
  induction N with
  | zero => simp
  | succ N ih =>
    rw [List.range_succ, List.flatMap_append, List.map_append, List.sum_append, ih, Finset.sum_range_succ]
    simp only [List.flatMap_cons, List.flatMap_nil, List.append_nil, List.map_map]
    rw [sum_map_range]; rfl

end GradOp

end Verif
