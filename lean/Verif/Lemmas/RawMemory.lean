import Verif.Model.RawMemory
import Verif.Lemmas.Pixels
/-
Helper lemmas on the odometer loop.
-/
namespace Verif.RawMemory
open Verif Verif.Ccoord

/-- The unreduced carry chain along the remaining axes. -/
def rawChain : Int → Int → List Int → List Int → List Int
  | x, n, m :: ns, c :: cs => (c + Int.tdiv x n) :: rawChain (c + Int.tdiv x n) m ns cs
  | _, _, _, _ => []

theorem carryLoop_spec {shape : List Int} {p : Nat} {as : List Nat} {idx : List Int}
    (hnd : (p :: as).Nodup) (h1 : ∀ a ∈ p :: as, a < shape.length)
    (hl : idx.length = shape.length) (hp : Pos shape) :
    ∃ r, carryLoop shape p as idx = .ok r ∧ r.length = idx.length ∧
      (∀ b, b ∉ as → r[b]? = idx[b]?) ∧
      pick as r = rawChain (idx[p]?.getD 0) (shape[p]?.getD 0) (pick as shape) (pick as idx) := by
  induction as generalizing p idx with
  | nil => exact ⟨idx, by simp [carryLoop, pick, rawChain]⟩
  | cons a as ih =>
    have hps : p < shape.length := h1 p (by simp)
    have has : a < shape.length := h1 a (by simp)
    have hpi : p < idx.length := by omega
    have hai : a < idx.length := by omega
    have hnd2 := List.nodup_cons.1 hnd
    have hnd3 := List.nodup_cons.1 hnd2.2
    have hpa : p ≠ a := fun h => hnd2.1 (by simp [h])
    have hz : shape[p] ≠ 0 := by have := hp _ (List.getElem_mem hps); omega
    obtain ⟨r, r1, r2, r3, r4⟩ := ih (p := a) (idx := idx.set a (idx[a] + Int.tdiv idx[p] shape[p]))
      hnd2.2 (fun b hb => h1 b (by simp [List.mem_cons.1 hb])) (by simpa using hl)
    refine ⟨r, ?_, by simpa using r2, ?_, ?_⟩
    · simp only [carryLoop, at!_eq_ok hpi, at!_eq_ok hps, at!_eq_ok hai, Res.ok_bind, hz, if_false, r1]
    · intro b hb
      rw [r3 b (fun h => hb (by simp [h]))]
      rw [List.getElem?_set_ne (fun h => hb (by simp [h]))]
    · have hpick : pick as (idx.set a (idx[a] + Int.tdiv idx[p] shape[p])) = pick as idx := by
        simp only [pick, List.map_inj_left]
        intro b hb
        rw [List.getElem?_set_ne (fun h => hnd3.1 (by rw [h]; exact hb))]
      have hra : r[a]?.getD 0 = idx[a] + Int.tdiv idx[p] shape[p] := by
        rw [r3 a hnd3.1]; simp [hai]
      simp only [pick, List.map_cons] at r4 hpick ⊢
      rw [r4, hra, hpick]
      simp [rawChain, hpi, hps, hai, has]

theorem modLoop_eq {shape idx : List Int} (hl : idx.length = shape.length) (hp : Pos shape) :
    modLoop shape idx = .ok (List.zipWith (fun x n => Int.tmod x n) idx shape) := by
  induction shape generalizing idx with
  | nil =>
    have : idx = [] := List.length_eq_zero_iff.1 hl
    subst this; simp [modLoop]
  | cons n shape ih =>
    cases idx with
    | nil => simp at hl
    | cons x idx =>
      have h := Pos.cons.1 hp
      have hn : n ≠ 0 := by omega
      simp [modLoop, hn, ih (by simpa using hl) h.2]

/-- Zero origin. -/
def zeros (l : List Int) : List Int := List.replicate l.length 0

@[simp] theorem zeros_cons (n : Int) (l : List Int) : zeros (n :: l) = 0 :: zeros l := by
  simp [zeros, List.replicate_succ]

@[simp] theorem zeros_length (l : List Int) : (zeros l).length = l.length := by simp [zeros]

theorem inBoxAt_zeros {nb c : List Int} : InBoxAt nb (zeros nb) c ↔ InBox nb c := by
  induction nb generalizing c with
  | nil => cases c <;> simp [zeros, InBoxAt, InBox]
  | cons n nb ih => cases c <;> simp [InBoxAt, InBox, ih]

/-- Reducing the carry chain gives the digits of the number plus carry. -/
theorem rawChain_digits {ns cs : List Int} (h : InBox ns cs) {x n : Int} (hx : 0 ≤ x) (hn : 0 < n) :
    List.zipWith (fun x n => Int.tmod x n) (rawChain x n ns cs) ns =
      digitsFast ns (zeros ns) (colMajorNumber ns (zeros ns) cs + x / n) := by
  induction ns generalizing cs x n with
  | nil => cases cs <;> simp_all [InBox, rawChain, digitsFast]
  | cons m ns ih =>
    cases cs with
    | nil => simp [InBox] at h
    | cons c cs =>
      obtain ⟨h1, h2, h3⟩ := h
      have hm : 0 < m := by omega
      have hd : Int.tdiv x n = x / n := Int.tdiv_eq_ediv_of_nonneg hx
      have hd0 : 0 ≤ x / n := Int.ediv_nonneg hx hn.le
      have hc0 : 0 ≤ c + x / n := by omega
      simp only [rawChain, hd, List.zipWith_cons_cons, zeros_cons, digitsFast, colMajorNumber,
        ih h3 hc0 hm, Int.tmod_eq_emod_of_nonneg hc0]
      have e : c - 0 + m * colMajorNumber ns (zeros ns) cs + x / n =
          (c + x / n) + m * colMajorNumber ns (zeros ns) cs := by ring
      rw [e, Int.add_mul_emod_self_left, Int.add_mul_ediv_left _ _ (by omega)]
      congr 2
      · omega
      · omega

/-- `pick` of an element-wise combination. -/
theorem pick_zipWith {ax : List Nat} {a b : List Int} (f : Int → Int → Int)
    (h : ∀ i ∈ ax, i < a.length ∧ i < b.length) :
    pick ax (List.zipWith f a b) = List.zipWith f (pick ax a) (pick ax b) := by
  induction ax with
  | nil => simp [pick]
  | cons i ax ih =>
    have hi := h i (by simp)
    have := ih (fun j hj => h j (by simp [hj]))
    simp only [pick, List.map_cons, List.zipWith_cons_cons] at this ⊢
    rw [this]
    simp [hi]

/-- The number of a multi-index along an axes order. -/
def rank (shape : List Int) (axes : List Nat) (idx : List Int) : Int :=
  colMajorNumber (pick axes shape) (zeros (pick axes shape)) (pick axes idx)

/-- One step of the odometer adds one to the number of the index. -/
theorem incr_spec {shape : List Int} {axes : List Nat} {idx : List Int} (hp : Pos shape)
    (hperm : axes.Perm (List.range shape.length)) (hne : shape ≠ []) (hi : InBox shape idx) :
    ∃ r, incr shape axes idx = .ok r ∧ r.length = shape.length ∧
      pick axes r = digitsFast (pick axes shape) (zeros (pick axes shape))
        (rank shape axes idx + 1) := by
  cases axes with
  | nil =>
    have := hperm.length_eq
    simp at this
    exact absurd (List.length_eq_zero_iff.1 this.symm) hne
  | cons a as =>
    have hl := hi.length_eq
    have hlt := fun b (hb : b ∈ a :: as) => perm_range_lt hperm hb
    have hnd := perm_range_nodup hperm
    have has : a < shape.length := hlt a (by simp)
    have hai : a < idx.length := by omega
    obtain ⟨r, r1, r2, r3, r4⟩ := carryLoop_spec (idx := idx.set a (idx[a] + 1)) hnd hlt
      (by simpa using hl) hp
    have hrl : r.length = shape.length := by simpa [hl] using r2
    refine ⟨List.zipWith (fun x n => Int.tmod x n) r shape, ?_, ?_, ?_⟩
    · simp only [incr, at!_eq_ok hai, Res.ok_bind, r1]
      exact modLoop_eq hrl hp
    · simp [hrl]
    · rw [pick_zipWith _ (fun i hi => ⟨by rw [hrl]; exact hlt i hi, hlt i hi⟩)]
      have hnd2 := List.nodup_cons.1 hnd
      have hpick : pick as (idx.set a (idx[a] + 1)) = pick as idx := by
        simp only [pick, List.map_inj_left]
        intro b hb
        rw [List.getElem?_set_ne (fun h => hnd2.1 (by rw [h]; exact hb))]
      have hra : r[a]?.getD 0 = idx[a] + 1 := by
        rw [r3 a hnd2.1]; simp [hai]
      have hbox := (inBox_pick hperm hl).2 hi
      have ea : idx[a]?.getD 0 = idx[a] := by simp [hai]
      have es : shape[a]?.getD 0 = shape[a] := by simp [has]
      have e0 : (idx.set a (idx[a] + 1))[a]?.getD 0 = idx[a] + 1 := by simp [hai]
      rw [hpick, e0, es] at r4
      simp only [rank]
      simp only [pick, List.map_cons] at r4 hbox ⊢
      rw [hra, r4]
      simp only [ea, es, InBox] at hbox ⊢
      have hn : 0 < shape[a] := by omega
      have hx : 0 ≤ idx[a] + 1 := by omega
      have h2 := rawChain_digits hbox.2.2 hx hn
      simp only [List.zipWith_cons_cons, zeros_cons, digitsFast, colMajorNumber]
      simp only [h2]
      have e : idx[a] - 0 + shape[a] * colMajorNumber (as.map fun a => shape[a]?.getD 0)
            (zeros (as.map fun a => shape[a]?.getD 0)) (as.map fun a => idx[a]?.getD 0) + 1 =
          (idx[a] + 1) + shape[a] * colMajorNumber (as.map fun a => shape[a]?.getD 0)
            (zeros (as.map fun a => shape[a]?.getD 0)) (as.map fun a => idx[a]?.getD 0) := by ring
      rw [e, Int.add_mul_emod_self_left, Int.add_mul_ediv_left _ _ (by omega),
        Int.tmod_eq_emod_of_nonneg hx]
      congr 2
      · omega
      · omega

/-- The multi-index with a given number along an axes order. -/
noncomputable def unrank (shape : List Int) (axes : List Nat) (k : Int) : List Int :=
  (List.range shape.length).map (fun i =>
    (digitsFast (pick axes shape) (zeros (pick axes shape)) k)[axes.idxOf i]?.getD 0)

theorem digitsFast_length {nb loc : List Int} (hl : loc.length = nb.length) (k : Int) :
    (digitsFast nb loc k).length = nb.length := by
  induction nb generalizing loc k with
  | nil => simp [digitsFast]
  | cons n nb ih =>
    cases loc with
    | nil => simp at hl
    | cons l loc => simp [digitsFast, ih (by simpa using hl)]

theorem unrank_length (shape : List Int) (axes : List Nat) (k : Int) :
    (unrank shape axes k).length = shape.length := by simp [unrank]

theorem pick_unrank {shape : List Int} {axes : List Nat}
    (hperm : axes.Perm (List.range shape.length)) (k : Int) :
    pick axes (unrank shape axes k) =
      digitsFast (pick axes shape) (zeros (pick axes shape)) k := by
  have hnd := perm_range_nodup hperm
  have hlen : (digitsFast (pick axes shape) (zeros (pick axes shape)) k).length = axes.length := by
    rw [digitsFast_length (by simp), pick_length]
  apply List.ext_getElem
  · rw [hlen, pick_length]
  · intro i h1 h2
    have hi : i < axes.length := by omega
    have hlt := perm_range_lt hperm (List.getElem_mem hi)
    have e : (pick axes (unrank shape axes k))[i] = (unrank shape axes k)[axes[i]]?.getD 0 := by
      simp [pick]
    rw [e, unrank, List.getElem?_map, List.getElem?_range hlt]
    simp [hnd.idxOf_getElem, h2]

theorem unrank_unique {shape : List Int} {axes : List Nat} {k : Int} {r : List Int}
    (hperm : axes.Perm (List.range shape.length)) (hl : r.length = shape.length)
    (h : pick axes r = digitsFast (pick axes shape) (zeros (pick axes shape)) k) :
    r = unrank shape axes k := by
  refine pick_inj (ax := axes) (by rw [hl]; exact hperm) (by rw [unrank_length, hl]) ?_
  rw [h, pick_unrank hperm]

theorem unrank_inBox {shape : List Int} {axes : List Nat} (hp : Pos shape)
    (hperm : axes.Perm (List.range shape.length)) (k : Int) : InBox shape (unrank shape axes k) := by
  rw [← inBox_pick hperm (unrank_length _ _ _), pick_unrank hperm, ← inBoxAt_zeros]
  exact digitsFast_inBox (by simp) (pick_pos hperm hp) k

theorem rank_unrank {shape : List Int} {axes : List Nat} (hp : Pos shape)
    (hperm : axes.Perm (List.range shape.length)) {k : Int} (h0 : 0 ≤ k) (hk : k < shape.prod) :
    rank shape axes (unrank shape axes k) = k := by
  rw [rank, pick_unrank hperm]
  exact colMajorNumber_digitsFast (by simp) (pick_pos hperm hp) h0 (by rw [pick_prod hperm]; exact hk)

theorem unrank_rank {shape : List Int} {axes : List Nat}
    (hperm : axes.Perm (List.range shape.length)) {idx : List Int} (hi : InBox shape idx) :
    unrank shape axes (rank shape axes idx) = idx := by
  symm
  refine unrank_unique hperm hi.length_eq ?_
  rw [rank]
  exact (digitsFast_colMajorNumber (inBoxAt_zeros.2 ((inBox_pick hperm hi.length_eq).2 hi))).symm

theorem rank_bounds {shape : List Int} {axes : List Nat}
    (hperm : axes.Perm (List.range shape.length)) {idx : List Int} (hi : InBox shape idx) :
    0 ≤ rank shape axes idx ∧ rank shape axes idx < shape.prod := by
  have := colMajorNumber_bounds (inBoxAt_zeros.2 ((inBox_pick hperm hi.length_eq).2 hi))
  rw [pick_prod hperm] at this
  exact this

theorem digitsFast_zero (nb : List Int) : digitsFast nb (zeros nb) 0 = zeros nb := by
  induction nb with
  | nil => simp [digitsFast, zeros]
  | cons n nb ih => simp [digitsFast, ih]

theorem unrank_zero {shape : List Int} {axes : List Nat}
    (hperm : axes.Perm (List.range shape.length)) :
    unrank shape axes 0 = List.replicate shape.length 0 := by
  symm
  refine unrank_unique hperm (by simp) ?_
  rw [digitsFast_zero]
  apply List.ext_getElem
  · simp [pick]
  · intro i h1 h2
    simp only [pick_length] at h1
    have := perm_range_lt hperm (List.getElem_mem h1)
    simp [pick, zeros, this]

/-- One step of the odometer, in terms of numbers. -/
theorem incr_unrank {shape : List Int} {axes : List Nat} (hp : Pos shape)
    (hperm : axes.Perm (List.range shape.length)) (hne : shape ≠ []) {k : Int} (h0 : 0 ≤ k)
    (hk : k < shape.prod) : incr shape axes (unrank shape axes k) = .ok (unrank shape axes (k + 1)) := by
  obtain ⟨r, r1, r2, r3⟩ := incr_spec hp hperm hne (unrank_inBox hp hperm k)
  rw [rank_unrank hp hperm h0 hk] at r3
  rw [r1, unrank_unique hperm r2 r3]

/-- Run a computation over a list of multi-indices, threading a state. -/
def foldRes {σ : Type} (body : List Int → σ → Res σ) : List (List Int) → σ → Res σ
  | [], s => .ok s
  | i :: is, s => do
      let s' ← body i s
      foldRes body is s'

theorem visitLoop_eq {σ : Type} {shape : List Int} {axes : List Nat} (hp : Pos shape)
    (hperm : axes.Perm (List.range shape.length)) (hne : shape ≠ []) (body : List Int → σ → Res σ)
    (n k : Nat) (hk : ((k + n : Nat) : Int) ≤ shape.prod) (s : σ) :
    visitLoop shape axes body n (unrank shape axes k) s =
      foldRes body ((List.range' k n).map (fun j : Nat => unrank shape axes j)) s := by
  induction n generalizing k s with
  | zero => rfl
  | succ n ih =>
    have h := incr_unrank hp hperm hne (k := k) (by omega) (by omega)
    have := fun s => ih (k + 1) (by omega) s
    simp only [visitLoop, List.range'_succ, List.map_cons, foldRes, h, Res.ok_bind]
    congr 1
    funext s'
    have e : ((k : Int) + 1) = ((k + 1 : Nat) : Int) := by push_cast; rfl
    rw [e]
    exact this s'

/-- The multi-indices of a box in the order of their number. -/
noncomputable def boxList (shape : List Int) (axes : List Nat) : List (List Int) :=
  (List.range shape.prod.toNat).map (fun j : Nat => unrank shape axes j)

theorem visit_eq {σ : Type} {shape : List Int} {axes : List Nat} (hp : Pos shape)
    (hperm : axes.Perm (List.range shape.length)) (hne : shape ≠ []) (body : List Int → σ → Res σ)
    (s : σ) : visit shape axes body s = foldRes body (boxList shape axes) s := by
  have hpos := prod_pos_of_pos hp
  have h0 : ¬ shape.prod < 0 := by omega
  have := visitLoop_eq hp hperm hne body shape.prod.toNat 0 (by omega) s
  simp only [visit, h0, if_false, getSize_eq_prod, boxList]
  rw [← unrank_zero hperm, List.range_eq_range']
  simpa using this

theorem mem_boxList {shape : List Int} {axes : List Nat} (hp : Pos shape)
    (hperm : axes.Perm (List.range shape.length)) {idx : List Int} :
    idx ∈ boxList shape axes ↔ InBox shape idx := by
  simp only [boxList, List.mem_map, List.mem_range]
  constructor
  · rintro ⟨j, -, rfl⟩; exact unrank_inBox hp hperm _
  · intro h
    have hb := rank_bounds hperm h
    refine ⟨(rank shape axes idx).toNat, by omega, ?_⟩
    rw [Int.toNat_of_nonneg hb.1, unrank_rank hperm h]

theorem nodup_boxList {shape : List Int} {axes : List Nat} (hp : Pos shape)
    (hperm : axes.Perm (List.range shape.length)) : (boxList shape axes).Nodup := by
  refine List.Nodup.map_on ?_ List.nodup_range
  intro x hx y hy he
  simp only [List.mem_range] at hx hy
  have := congrArg (rank shape axes) he
  rw [rank_unrank hp hperm (by omega) (by omega), rank_unrank hp hperm (by omega) (by omega)] at this
  omega

theorem foldRes_append {σ : Type} (body : List Int → σ → Res σ) (l l' : List (List Int)) (s : σ) :
    foldRes body (l ++ l') s = (foldRes body l s >>= foldRes body l') := by
  induction l generalizing s with
  | nil => rfl
  | cons i l ih =>
    simp only [List.cons_append, foldRes]
    cases body i s with
    | ok s' => simpa using ih s'
    | throw => rfl
    | ub => rfl

theorem foldRes_collect (l acc : List (List Int)) :
    foldRes (fun idx acc => .ok (acc ++ [idx])) l acc = .ok (acc ++ l) := by
  induction l generalizing acc with
  | nil => simp [foldRes]
  | cons i l ih => simp [foldRes, ih]

theorem getSize_eq_zero {shape : List Int} (h : (0 : Int) ∈ shape) : getSize shape = 0 := by
  induction shape with
  | nil => simp at h
  | cons n shape ih =>
    rcases List.mem_cons.1 h with rfl | h
    · simp [getSize]
    · simp [getSize, ih h]

theorem linearIndex_eq_dot (idx strides : List Int) : linearIndex idx strides = dot strides idx := by
  induction idx generalizing strides with
  | nil => cases strides <;> simp [linearIndex, dot]
  | cons c idx ih =>
    cases strides with
    | nil => simp [linearIndex, dot]
    | cons s strides => simp [linearIndex, dot, ih, Int.mul_comm]

/-- The copies along a list of indices succeed iff all cells are accessible, and then each written
cell holds the input element of the last index addressing it. -/
theorem foldRes_copy {α : Type} {is os : List Int} {inp : Mem α} (l : List (List Int)) (out : Mem α) :
    ((∀ i ∈ l, (inp (dot is i)).isSome ∧ (out (dot os i)).isSome) →
      ∃ out', foldRes (copyBody is os inp) l out = .ok out' ∧
        (∀ a, (out' a).isSome = (out a).isSome) ∧
        (∀ a, (∀ i ∈ l, dot os i ≠ a) → out' a = out a) ∧
        (∀ i ∈ l, ∃ j ∈ l, dot os j = dot os i ∧ out' (dot os i) = inp (dot is j))) ∧
    ((∃ i ∈ l, (inp (dot is i)).isSome = false ∨ (out (dot os i)).isSome = false) →
      foldRes (copyBody is os inp) l out = .ub) := by
  induction l generalizing out with
  | nil => simp [foldRes]
  | cons i l ih =>
    simp only [foldRes, copyBody, linearIndex_eq_dot]
    cases hi : inp (dot is i) with
    | none => simp [hi]
    | some x =>
      cases ho : out (dot os i) with
      | none => simp [ho]
      | some y =>
        have hsome : ∀ a, ((out.write (dot os i) x) a).isSome = (out a).isSome := by
          intro a; simp only [Mem.write]; split
          · rename_i h; simp [h, ho]
          · rfl
        obtain ⟨ih1, ih2⟩ := ih (out.write (dot os i) x)
        simp only [Res.ok_bind]
        constructor
        · intro h
          obtain ⟨out', o1, o2, o3, o4⟩ := ih1 (by
            intro j hj; rw [hsome]; exact h j (by simp [hj]))
          refine ⟨out', o1, fun a => by rw [o2, hsome], ?_, ?_⟩
          · intro a ha
            rw [o3 a (fun j hj => ha j (by simp [hj]))]
            have := ha i (by simp)
            simp [Mem.write, Ne.symm this]
          · intro j hj
            rcases List.mem_cons.1 hj with rfl | hj
            · by_cases hex : ∃ k ∈ l, dot os k = dot os j
              · obtain ⟨k, hk, hke⟩ := hex
                obtain ⟨m, hm, hme, hmv⟩ := o4 k hk
                exact ⟨m, by simp [hm], by rw [hme, hke], by rw [← hke]; exact hmv⟩
              · refine ⟨j, by simp, rfl, ?_⟩
                rw [o3 _ (fun k hk he => hex ⟨k, hk, he⟩)]
                simp [Mem.write, hi]
            · obtain ⟨m, hm, hme, hmv⟩ := o4 j hj
              exact ⟨m, by simp [hm], hme, hmv⟩
        · rintro ⟨j, hj, hc⟩
          rcases List.mem_cons.1 hj with rfl | hj
          · simp [hi, ho] at hc
          · exact ih2 ⟨j, hj, by rw [hsome]; exact hc⟩

end Verif.RawMemory
