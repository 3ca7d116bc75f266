import Verif.Lemmas.PyField
import Verif.Props.Numpy
import Verif.Props.FieldOps
import Verif.Props.RawMemory
/-
Property C72: python views of fields and assignment of arrays.
-/
set_option linter.unusedSectionVars false

namespace Verif.Props
open Verif Verif.Ccoord Verif.Layout Verif.RawMemory Verif.Numpy Verif.Collection Verif.Collection.Coll Verif.PyField

/-- The views whose tuples have addresses of their own: all of `s`; of `p` those of C19. -/
def ViewOk (l : FieldLayout) (it : IterUnit) : Prop := it = .subPt ∨ (0 < l.nbSub ∧ PixelViewOk l)

theorem ViewOk.addressing {l : FieldLayout} {it : IterUnit} (h : ViewOk l it)
    (ho : l.order = .colMajor ∨ l.order = .rowMajor) (hpix : Addressing l.pixShape l.pixStrides l.nbBuf) :
    ∃ s, l.strides it 1 = .ok s ∧ Addressing (l.shape it) s (l.nbComp * l.nbSub * l.nbBuf) := by
  have h1 := C18_sub_pt_strides l ho hpix
  cases it with
  | subPt => obtain ⟨s, a, _, b, _⟩ := h1; exact ⟨s, a, b⟩
  | pixel =>
    rcases h with h | ⟨h2, h3⟩
    · cases h
    · exact C19_pixel_strides_partial l ho h2 hpix h3

/-- Array strides that the division by the element size keeps: not negative, and multiples of the size. -/
def Plain (a : NpArray) : Prop :=
  0 < a.item ∧ a.strides.length = a.shape.length ∧ ∀ s ∈ a.strides, 0 ≤ s ∧ s < 2 ^ 63 ∧ a.item ∣ s

theorem Plain.dot_eq {a : NpArray} (h : Plain a) (c : List Int) :
    a.item * dot (a.strides.map (elemStride a.item)) c = dot a.strides c :=
  dot_elemStride _ _ fun b hb => elemStride_exact (h.2.2 b hb).1 (h.2.2 b hb).2.1 h.1 (h.2.2 b hb).2.2

/-- The full claim, as for any assignment of arrays: after `f.s = a`, the elements of `f.s` are the elements
that `a` had before, and nothing else changes. -/
def C72_statement (srt : SortFn) : Prop :=
  ∀ (l : FieldLayout) (it : IterUnit) (a : NpArray) (p q : Int) (heap : Mem Int),
    (l.order = .colMajor ∨ l.order = .rowMajor) → Addressing l.pixShape l.pixStrides l.nbBuf → ViewOk l it →
    Pos (l.shape it) → l.shape it ≠ [] → Plain a → a.shape = l.shape it →
    (∀ c, InBox a.shape c → (heap (p + dot a.strides c)).isSome) →
    (∀ i, 0 ≤ i → i < l.nbComp * l.nbSub * l.nbBuf → (heap (q + a.item * i)).isSome) →
    ∃ b heap', numpyWrap ⟨l, []⟩ it a.item = .ok b ∧ arraySetter srt l it q a p heap = .ok heap' ∧
      (∀ c, InBox a.shape c → heap' (q + dot b.strides c) = heap (p + dot a.strides c)) ∧
      ∀ x, (∀ c, InBox a.shape c → x ≠ q + dot b.strides c) → heap' x = heap x

/-- **C72** Assignment of an array to `f.s` or `f.p`: afterwards the view shows the elements that the array had
before, and no other memory changes.  Missing: arrays that show the field's own memory in other places
(`C72_false`). -/
theorem C72_assign_partial {α : Type} {srt : SortFn} (hsrt : SortSpec srt) (l : FieldLayout) (it : IterUnit)
    (a : NpArray) (p q : Int) (heap : Mem α) (ho : l.order = .colMajor ∨ l.order = .rowMajor)
    (hpix : Addressing l.pixShape l.pixStrides l.nbBuf) (hv : ViewOk l it) (hp : Pos (l.shape it))
    (hne : l.shape it ≠ []) (ha : Plain a) (hsh : a.shape = l.shape it)
    (hin : ∀ c, InBox a.shape c → (heap (p + dot a.strides c)).isSome)
    (hout : ∀ i, 0 ≤ i → i < l.nbComp * l.nbSub * l.nbBuf → (heap (q + a.item * i)).isSome)
    (hni : ∀ b, numpyWrap ⟨l, []⟩ it a.item = .ok b → ∀ c c', InBox a.shape c → InBox a.shape c' →
      p + dot a.strides c = q + dot b.strides c' → p + dot a.strides c' = q + dot b.strides c') :
    ∃ b heap', numpyWrap ⟨l, []⟩ it a.item = .ok b ∧ b.shape = a.shape ∧
      arraySetter srt l it q a p heap = .ok heap' ∧
      (∀ c, InBox a.shape c → heap' (q + dot b.strides c) = heap (p + dot a.strides c)) ∧
      ∀ x, (∀ c, InBox a.shape c → x ≠ q + dot b.strides c) → heap' x = heap x := by
  obtain ⟨s, hs, hA⟩ := hv.addressing ho hpix
  obtain ⟨b, hb, hw1, -, fs, hfs, hw⟩ := C60_wrap l ho it a.item
  have hfs' : l.strides it 1 = .ok fs := hfs
  rw [hs] at hfs'; cases hfs'
  replace hw1 : b.shape = l.shape it := hw1
  rw [hw1] at hw
  rw [hsh] at hin hni ⊢
  obtain ⟨bl, hm, he⟩ := stridedCopyAt_eq hsrt (item := a.item) (p := p) (q := q)
    (is := a.strides.map (elemStride a.item)) (os := s) heap hp hne
    (by rw [List.length_map, ha.2.1, hsh]) hA.length_eq
  obtain ⟨h', k1, k2, k3⟩ := foldRes_copyAt (item := a.item) (p := p) (q := q)
    (is := a.strides.map (elemStride a.item)) (os := s) bl heap
    (fun i hi => by
      have hi := (hm i).1 hi
      have := hA.bounds i hi
      rw [ha.dot_eq]
      exact ⟨hin i hi, hout _ this.1 this.2⟩)
    (fun i hi j hj e => by
      apply hA.inj i j ((hm i).1 hi) ((hm j).1 hj)
      have h1 := ha.1
      have : a.item * dot s i = a.item * dot s j := by omega
      exact Int.eq_of_mul_eq_mul_left (by omega) this)
    (fun i hi j hj e => by
      have hi := (hm i).1 hi
      have hj := (hm j).1 hj
      have := hni b hb i j hi hj
      rw [hw j hj] at this
      rw [ha.dot_eq] at e ⊢
      exact this e)
  refine ⟨b, h', hb, hw1, ?_, ?_, ?_⟩
  · rw [arraySetter, if_neg (by simp [hsh]), hs, Res.ok_bind, he, k1]
  · intro c hc
    rw [hw c hc, k2 c ((hm c).2 hc), ha.dot_eq]
  · intro x hx
    refine k3 x fun i hi e => hx i ((hm i).1 hi) ?_
    rw [hw i ((hm i).1 hi), e]

/-- A 2×2 field of floats at the address 0, and an array of another place. -/
def exSquare : FieldLayout := ⟨.colMajor, [], 1, [2, 2], [1, 2], 4⟩

def exHeap : Mem Int := fun x => if x % 8 = 0 ∧ 0 ≤ x ∧ x < 128 then some (x / 8) else none

/-- Four cells of a memory. -/
def cells (r : Res (Mem Int)) (p : Int) : Res (List (Option Int)) := do
  let h ← r
  pure [h p, h (p + 8), h (p + 16), h (p + 24)]

example : exSquare.shape .subPt = [1, 2, 2] ∧ numpyWrap ⟨exSquare, []⟩ .subPt 8 = .ok ⟨[1, 2, 2], [8, 8, 16], 8⟩ ∧
    cells (arraySetter stableSort exSquare .subPt 0 ⟨[1, 2, 2], [0, 16, 8], 8⟩ 64 exHeap) 0 =
      .ok [some 8, some 10, some 9, some 11] ∧
    -- the first column for both columns: an array that shows the field itself, with zero strides
    cells (arraySetter stableSort exSquare .subPt 0 ⟨[1, 2, 2], [0, 8, 0], 8⟩ 0 exHeap) 0 =
      .ok [some 0, some 1, some 0, some 1] := by decide +kernel

example : Plain ⟨[1, 2, 2], [0, 16, 8], 8⟩ := by
  refine ⟨by decide, by decide, ?_⟩
  intro s hs
  simp only [List.mem_cons, List.not_mem_nil, or_false] at hs
  rcases hs with rfl | rfl | rfl <;> decide

/-- **C72** `f.s = transpose of f.s`: one of the two exchanged elements is lost. -/
theorem C72_false : ¬ C72_statement stableSort := by
  intro h
  obtain ⟨b, h', h1, h2, h3, -⟩ := h exSquare .subPt ⟨[1, 2, 2], [8, 16, 8], 8⟩ 0 0 exHeap (by decide)
    (by
      refine ⟨rfl, ?_, ?_⟩
      · intro c hc
        match c, hc with
        | [x, y], hc =>
          simp only [exSquare, InBox, and_true] at hc
          simp only [exSquare, dot]; omega
      · intro c c' hc hc' e
        match c, c', hc, hc' with
        | [x, y], [z, w], hc, hc' =>
          simp only [exSquare, InBox, and_true] at hc hc'
          simp only [exSquare, dot] at e
          have : x = z ∧ y = w := by omega
          rw [this.1, this.2])
    (Or.inl rfl) (by decide) (by decide)
    ⟨by decide, by decide, by
      intro s hs
      simp only [List.mem_cons, List.not_mem_nil, or_false] at hs
      rcases hs with rfl | rfl | rfl <;> decide⟩ (by decide)
    (by
      intro c hc
      match c, hc with
      | [z, x, y], hc =>
        simp only [InBox, and_true] at hc
        have hx : exHeap (0 + dot [8, 16, 8] [z, x, y]) = some ((0 + dot [8, 16, 8] [z, x, y]) / 8) :=
          if_pos (by simp only [dot]; omega)
        exact hx ▸ rfl)
    (by
      intro i h0 h1
      have h1' : i < 4 := h1
      simp only [exHeap]
      rw [if_pos (by omega)]; rfl)
  have hb : numpyWrap ⟨exSquare, []⟩ .subPt 8 = .ok ⟨[1, 2, 2], [8, 8, 16], 8⟩ := by decide +kernel
  have hb' : numpyWrap ⟨exSquare, []⟩ .subPt 8 = .ok b := h1
  rw [hb] at hb'; cases hb'
  have hw : cells (arraySetter stableSort exSquare .subPt 0 ⟨[1, 2, 2], [8, 16, 8], 8⟩ 0 exHeap) 0 =
      .ok [some 0, some 2, some 2, some 3] := by decide +kernel
  rw [h2] at hw
  simp only [cells, Res.ok_bind, Res.pure_eq, Res.ok.injEq, List.cons.injEq] at hw
  have h4 := h3 [0, 0, 1] (by simp [InBox])
  simp only [dot] at h4
  have e1 : h' 16 = some 2 := hw.2.2.1
  have e2 : exHeap 8 = some 1 := by decide
  norm_num at h4
  rw [e1, e2] at h4
  cases h4

/-- **C72** Assigning a view to itself (`f.s = f.s`, also by `f.s += x`) changes nothing. -/
theorem C72_self {α : Type} {srt : SortFn} (hsrt : SortSpec srt) (l : FieldLayout) (it : IterUnit)
    (a : NpArray) (q : Int) (heap : Mem α) (ho : l.order = .colMajor ∨ l.order = .rowMajor)
    (hpix : Addressing l.pixShape l.pixStrides l.nbBuf) (hv : ViewOk l it) (hp : Pos (l.shape it))
    (hne : l.shape it ≠ []) (item : Int) (hb : numpyWrap ⟨l, []⟩ it item = .ok a) (ha : Plain a)
    (hout : ∀ i, 0 ≤ i → i < l.nbComp * l.nbSub * l.nbBuf → (heap (q + item * i)).isSome) :
    arraySetter srt l it q a q heap = .ok heap := by
  obtain ⟨s, hs, hA⟩ := hv.addressing ho hpix
  obtain ⟨b, hb1, hw1, hi, fs, hfs, hw⟩ := C60_wrap l ho it item
  have hfs' : l.strides it 1 = .ok fs := hfs
  rw [hs] at hfs'; cases hfs'
  rw [hb] at hb1; cases hb1
  have hsh : a.shape = l.shape it := hw1
  have hin : ∀ c, InBox a.shape c → (heap (q + dot a.strides c)).isSome := by
    intro c hc
    rw [hw c hc]
    rw [hsh] at hc
    exact hout _ (hA.bounds c hc).1 (hA.bounds c hc).2
  subst hi
  obtain ⟨b, h', k1, k2, k3, k4, k5⟩ := C72_assign_partial hsrt l it a q q heap ho hpix hv hp hne ha hsh hin hout
    (by intro b hb' c c' _ _ _; rw [hb] at hb'; cases hb'; rfl)
  rw [hb] at k1; cases k1
  rw [k3]
  congr 1
  funext x
  by_cases hx : ∃ c, InBox a.shape c ∧ x = q + dot a.strides c
  · obtain ⟨c, hc, rfl⟩ := hx
    exact k4 c hc
  · exact k5 x fun c hc e => hx ⟨c, hc, e⟩

example : cells (arraySetter stableSort exSquare .subPt 0 ⟨[1, 2, 2], [8, 8, 16], 8⟩ 0 exHeap) 0 =
    .ok [some 0, some 1, some 2, some 3] := by decide +kernel

/-- **C72** There is no broadcasting: an array of any other shape is refused, and no memory is written. -/
theorem C72_shape {α : Type} (srt : SortFn) (l : FieldLayout) (it : IterUnit) (a : NpArray) (p q : Int)
    (heap : Mem α) (h : a.shape ≠ l.shape it) : arraySetter srt l it q a p heap = .throw .runtimeError :=
  if_pos h

example : cells (arraySetter stableSort exSquare .subPt 0 ⟨[2, 2], [8, 16], 8⟩ 64 exHeap) 0 =
    .throw .runtimeError := by decide +kernel

/-- **C72** The view `p` of a field without component axes but with several sub-points has an axis more than
strides: reading it and assigning to it is refused. -/
theorem C72_pixel_rejected {α : Type} (srt : SortFn) (l : FieldLayout) (a : NpArray) (p q : Int)
    (heap : Mem α) (ho : l.order = .colMajor ∨ l.order = .rowMajor) (hc : l.comps = []) (hs : 1 < l.nbSub)
    (hl : l.pixStrides.length = l.pixShape.length) :
    arraySetter srt l .pixel q a p heap = .throw .runtimeError := by
  by_cases h : a.shape = l.shape .pixel
  · have hst : ∃ s, l.strides .pixel 1 = .ok s ∧ s.length = l.pixStrides.length := by
      rcases ho with h | h
      · exact ⟨_, strides_pixel_col l h, by simp [hc, FieldLayout.accStrides]⟩
      · exact ⟨_, strides_pixel_row l h, by simp [hc, FieldLayout.accStrides]⟩
    obtain ⟨s, e1, e2⟩ := hst
    have hshl : (l.shape .pixel).length = l.pixShape.length + 1 := by
      have : l.shape .pixel = l.nbSub :: l.pixShape := by
        simp [FieldLayout.shape, FieldLayout.subPtShape, hs, hc]
      rw [this]; simp
    rw [arraySetter, if_neg (by simp [h]), e1, Res.ok_bind, stridedCopyAt]
    split
    · rfl
    · rw [if_pos (by omega)]
  · exact C72_shape srt l .pixel a p q heap h

example : (FieldLayout.mk .colMajor [] 2 [3] [1] 3).shape .pixel = [2, 3] ∧
    cells (arraySetter stableSort ⟨.colMajor, [], 2, [3], [1], 3⟩ .pixel 0 ⟨[2, 3], [8, 16], 8⟩ 64 exHeap) 0 =
      .throw .runtimeError := by decide +kernel

/-- **C72** Negative strides (`f.s = a[::-1]`) of elements longer than one byte are divided as unsigned
numbers; the addresses read are beyond any memory. -/
theorem C72_negative {α : Type} {srt : SortFn} (hsrt : SortSpec srt) (l : FieldLayout) (it : IterUnit)
    (a : NpArray) (p q : Int) (heap : Mem α) (ho : l.order = .colMajor ∨ l.order = .rowMajor)
    (hpix : Addressing l.pixShape l.pixStrides l.nbBuf) (hv : ViewOk l it) (hp : Pos (l.shape it))
    (hsh : a.shape = l.shape it) (hl : a.strides.length = a.shape.length) (hi : 2 ≤ a.item) (hi' : a.item < 2 ^ 32)
    (hmem : ∀ x, (heap x).isSome → x < 2 ^ 63) (h0 : 0 ≤ p) (k : Nat) (s n : Int) (hk : a.strides[k]? = some s)
    (hn : a.shape[k]? = some n) (h2 : 2 ≤ n) (hneg : s < 0) (hs : -2 ^ 62 ≤ s) :
    arraySetter srt l it q a p heap = .ub := by
  obtain ⟨t, ht, hA⟩ := hv.addressing ho hpix
  have hkl : k < a.shape.length := (List.getElem?_eq_some_iff.1 hn).1
  have hne : l.shape it ≠ [] := by
    rw [← hsh]; intro h; rw [h] at hkl; simp at hkl
  obtain ⟨bl, hm, he⟩ := stridedCopyAt_eq hsrt (item := a.item) (p := p) (q := q)
    (is := a.strides.map (elemStride a.item)) (os := t) heap hp hne
    (by rw [List.length_map, hl, hsh]) hA.length_eq
  rw [arraySetter, if_neg (by simp [hsh]), ht, Res.ok_bind, he]
  refine foldRes_copyAt_ub bl heap ⟨_, (hm _).2 (inBox_unit hp (n := n) (by rw [← hsh]; exact hn) h2), Or.inl ?_⟩
  have hd := dot_unitTuple (ss := a.strides.map (elemStride a.item)) (k := k) (s := elemStride a.item s) (by simp [hk])
  rw [List.length_map, hl, hsh] at hd
  rw [hd]
  have hmod : s % 2 ^ 64 = s + 2 ^ 64 := by omega
  have hq : (s + 2 ^ 64) / a.item < 2 ^ 63 := by
    apply Int.ediv_lt_of_lt_mul (by omega)
    nlinarith
  have hge : 2 ^ 63 ≤ a.item * ((s + 2 ^ 64) / a.item) := by
    have h1 := Int.mul_ediv_add_emod (s + 2 ^ 64) a.item
    have h2 := Int.emod_lt_of_pos (s + 2 ^ 64) (show 0 < a.item by omega)
    omega
  have he : elemStride a.item s = (s + 2 ^ 64) / a.item := by
    rw [elemStride, hmod, if_pos hq]
  rw [he]
  by_contra hc
  have := hmem (p + a.item * ((s + 2 ^ 64) / a.item)) (by
    cases hh : heap (p + a.item * ((s + 2 ^ 64) / a.item)) with
    | none => rw [hh] at hc; exact absurd rfl hc
    | some _ => rfl)
  omega

example : cells (arraySetter stableSort exSquare .subPt 0 ⟨[1, 2, 2], [8, 8, -16], 8⟩ 80 exHeap) 0 = .ub := by
  decide +kernel

/-- **C72** On a machine whose addresses have 64 bits and wrap around, the quotients of negative strides lead
to the right elements, if elements have a power of two of bytes. -/
theorem C72_wraps {item : Int} {j : Nat} (hi : item = 2 ^ j) (hj : j ≤ 64) (strides : List Int)
    (hd : ∀ s ∈ strides, item ∣ s) (c : List Int) :
    (item * dot (strides.map (elemStride item)) c) % 2 ^ 64 = dot strides c % 2 ^ 64 := by
  have hpos : 0 < item := by rw [hi]; positivity
  have hd64 : item ∣ 2 ^ 64 := by rw [hi]; exact pow_dvd_pow 2 hj
  have hone : ∀ s ∈ strides, (2 : Int) ^ 64 ∣ item * elemStride item s - s := by
    intro s hs
    have h1 : item ∣ s % 2 ^ 64 := by
      rw [Int.emod_def]; exact Int.dvd_sub (hd s hs) (Dvd.dvd.mul_right hd64 _)
    have h2 : item * (s % 2 ^ 64 / item) = s % 2 ^ 64 := Int.mul_ediv_cancel' h1
    have h3 : (2 : Int) ^ 64 ∣ s % 2 ^ 64 - s := by omega
    rw [elemStride]
    split
    · rw [h2]; exact h3
    · rw [mul_sub, h2]
      have : s % 2 ^ 64 - item * 2 ^ 64 - s = (s % 2 ^ 64 - s) - item * 2 ^ 64 := by ring
      rw [this]
      exact Int.dvd_sub h3 (Dvd.intro_left _ rfl)
  refine Int.emod_eq_emod_iff_emod_sub_eq_zero.2 (Int.emod_eq_zero_of_dvd ?_)
  induction strides generalizing c with
  | nil => simp [dot]
  | cons s strides ih =>
    cases c with
    | nil => simp [dot]
    | cons x c =>
      have h1 := hone s (by simp)
      have h2 := ih (fun s hs => hd s (by simp [hs])) c (fun s hs => hone s (by simp [hs]))
      have : item * dot ((s :: strides).map (elemStride item)) (x :: c) - dot (s :: strides) (x :: c) =
          x * (item * elemStride item s - s) + (item * dot (strides.map (elemStride item)) c - dot strides c) := by
        simp only [List.map_cons, dot]; ring
      rw [this]
      exact Int.dvd_add (Dvd.dvd.mul_left h1 x) h2

example : elemStride 8 (-16) = 2 ^ 61 - 2 ∧ (80 + 8 * elemStride 8 (-16)) % 2 ^ 64 = 64 ∧ elemStride 1 (-16) = -16 := by
  decide +kernel

/-- **C72** A stride that is no multiple of the element size (a member of a structured array) is rounded
down: where the second element of that axis is read, no element of the array starts. -/
theorem C72_packed {α : Type} {srt : SortFn} (hsrt : SortSpec srt) (l : FieldLayout) (it : IterUnit)
    (a : NpArray) (p q : Int) (heap : Mem α) (ho : l.order = .colMajor ∨ l.order = .rowMajor)
    (hpix : Addressing l.pixShape l.pixStrides l.nbBuf) (hv : ViewOk l it) (hp : Pos (l.shape it))
    (hsh : a.shape = l.shape it) (hl : a.strides.length = a.shape.length) (hi : 0 < a.item)
    (k : Nat) (s n : Int) (hk : a.strides[k]? = some s)
    (hn : a.shape[k]? = some n) (h2 : 2 ≤ n) (hs : 0 ≤ s) (hs' : s < 2 ^ 63) (hd : ¬ a.item ∣ s)
    -- elements do not overlap in part
    (hov : ∀ x y, (heap x).isSome → (heap y).isSome → x < y → x + a.item ≤ y)
    (hin : ∀ c, InBox a.shape c → (heap (p + dot a.strides c)).isSome) :
    arraySetter srt l it q a p heap = .ub := by
  obtain ⟨t, ht, hA⟩ := hv.addressing ho hpix
  have hkl : k < a.shape.length := (List.getElem?_eq_some_iff.1 hn).1
  have hne : l.shape it ≠ [] := by
    rw [← hsh]; intro h; rw [h] at hkl; simp at hkl
  obtain ⟨bl, hm, he⟩ := stridedCopyAt_eq hsrt (item := a.item) (p := p) (q := q)
    (is := a.strides.map (elemStride a.item)) (os := t) heap hp hne
    (by rw [List.length_map, hl, hsh]) hA.length_eq
  rw [arraySetter, if_neg (by simp [hsh]), ht, Res.ok_bind, he]
  have hb := inBox_unit hp (n := n) (by rw [← hsh]; exact hn) h2
  refine foldRes_copyAt_ub bl heap ⟨_, (hm _).2 hb, Or.inl ?_⟩
  have hd1 := dot_unitTuple (ss := a.strides.map (elemStride a.item)) (k := k) (s := elemStride a.item s)
    (by simp [hk])
  rw [List.length_map, hl, hsh] at hd1
  have hd2 := dot_unitTuple hk
  rw [hl, hsh] at hd2
  have hx := hin _ (by rw [hsh]; exact hb)
  rw [hd2] at hx
  rw [hd1]
  have hmod : s % 2 ^ 64 = s := Int.emod_eq_of_lt hs (by omega)
  have hq : s / a.item ≤ s := Int.ediv_le_self _ hs
  rw [show elemStride a.item s = s / a.item by rw [elemStride, hmod, if_pos (by omega)]]
  by_contra hc
  have hy : (heap (p + a.item * (s / a.item))).isSome := by
    cases hh : heap (p + a.item * (s / a.item)) with
    | none => rw [hh] at hc; exact absurd rfl hc
    | some _ => rfl
  have h1 := Int.mul_ediv_add_emod s a.item
  have h3 := Int.emod_lt_of_pos s hi
  have h4 := Int.emod_nonneg s (show a.item ≠ 0 by omega)
  have h5 : s % a.item ≠ 0 := fun h => hd (Int.dvd_of_emod_eq_zero h)
  have := hov _ _ hy hx (by omega)
  omega

/-- Pairs of a 32 bit and a 16 bit number from the address 96, and four numbers of 32 bits from 0. -/
def exPacked : Mem Int := fun x =>
  if 0 ≤ x ∧ x < 16 ∧ x % 4 = 0 then some 0 else if 96 ≤ x ∧ x < 120 ∧ x % 6 = 0 then some x else none

example : cells (arraySetter stableSort exSquare .subPt 0 ⟨[1, 2, 2], [24, 6, 12], 4⟩ 96 exPacked) 0 = .ub ∧
    elemStride 4 6 = 1 ∧ exPacked 96 = some 96 ∧ exPacked 102 = some 102 ∧ exPacked 100 = none := by
  decide +kernel

/-! ### Fields of collections -/

variable {α U : Type} [Inhabited α] [DecidableEq U]

/-- Whatever happens, `f.s = a` only changes values of the field `f`. -/
theorem setArray_cases (srt : SortFn) (c : Coll α U) (name : String) (it : IterUnit) (a : NpArray) (inp : Mem α) :
    ((setArray srt c name it a inp).1 ≠ .ok () ∧ (setArray srt c name it a inp).2 = c) ∨
    ∃ f m, c.fields.find name = some f ∧ setArray srt c name it a inp = (.ok (), put c name (Field.ofMem f m)) := by
  unfold setArray
  split
  · exact Or.inl ⟨by simp, rfl⟩
  · rename_i f hf
    split
    · exact Or.inl ⟨by simp, rfl⟩
    · split
      · rename_i m _
        exact Or.inr ⟨f, m, hf, rfl⟩
      · exact Or.inl ⟨by simp, rfl⟩
      · exact Or.inl ⟨by simp, rfl⟩

/-- States of a python session with one collection: calls, and assignments of arrays to fields. -/
inductive Session (srt : SortFn) (c0 : Coll α U) : Coll α U → Prop
  | start : Session srt c0 c0
  | call {c : Coll α U} (op : Op α U) : Session srt c0 c → Adm c op → (c.step srt op).1 ≠ .ub →
      Session srt c0 (c.step srt op).2
  | assign {c : Coll α U} (name : String) (it : IterUnit) (a : NpArray) (inp : Mem α) : Session srt c0 c →
      (setArray srt c name it a inp).1 ≠ .ub → Session srt c0 (setArray srt c name it a inp).2

theorem session_size {srt : SortFn} {global : Bool} {dim : Int} {order : StorageOrder} {sub : SMap String Int}
    (hs : sub.Sorted) (hv : ∀ tag n, sub.find tag = some n → n = Unknown ∨ 1 ≤ n) {c0 c : Coll α U}
    (hc : mk' global dim order sub = .ok c0) (hr : Session srt c0 c) : SizeInv c := by
  induction hr with
  | start => exact mk'_sizeInv hs hv hc
  | call op _ ha hub ih => exact ih.step op ha hub
  | @assign c name it a inp _ hub ih =>
    rcases setArray_cases srt c name it a inp with ⟨_, h⟩ | ⟨f, m, hf, h⟩
    · rw [h]; exact ih
    · rw [h]
      refine ih.insertField name _ (ih.wf.comps name f hf) (ih.wf.tags name f hf) (ih.comp name f hf) ?_
      intro hi
      have := ih.size hi name f hf
      simpa [Field.ofMem] using this

/-- `C72_view` from the sizes of the buffers. -/
theorem view_of_size {c : Coll α U} (hinv : SizeInv c) (hi : c.initialised = true)
    (ho : c.order = .colMajor ∨ c.order = .rowMajor) {name : String} {f : Field α U}
    (hf : c.fields.find name = some f) (it : IterUnit) (item : Int) (hok : ViewOk (c.layout f) it)
    (ha : Addressing (c.layout f).pixShape (c.layout f).pixStrides c.nbBuf) (hp : Pos ((c.layout f).shape it)) :
    ∃ b ms, view c name it item = .ok (.window b) ∧ (it = .subPt → buffer c name item = .ok b) ∧
      b.shape = (c.layout f).shape it ∧ (c.layout f).strides it 1 = .ok ms ∧
      ∀ x, InBox b.shape x → dot b.strides x = item * dot ms x ∧ 0 ≤ dot ms x ∧ dot ms x < f.vals.length - f.pad := by
  obtain ⟨s1, s2, s3⟩ := hinv.size hi name f hf
  obtain ⟨ms, hms, hA⟩ := hok.addressing (l := c.layout f) ho ha
  have he := (C18_element_size (c.layout f) it item).1 ms hms
  have hw : numpyWrap ⟨c.layout f, []⟩ it item = .ok ⟨(c.layout f).shape it, ms.map (· * item), item⟩ := by
    have : Wrapped.strides ⟨c.layout f, []⟩ it item = .ok (ms.map (· * item)) := he
    rw [numpyWrap, this, Res.ok_bind]; rfl
  have hnc : (c.layout f).nbComp = f.nbComp := (hinv.wf.comps name f hf).symm
  refine ⟨⟨(c.layout f).shape it, ms.map (· * item), item⟩, ms, ?_, ?_, rfl, hms, ?_⟩
  · simp only [view, hf, hw, Res.ok_bind]
    rw [if_neg (by simp [hA.length_eq]), if_neg, if_pos s3]
    · rfl
    · simp only [List.any_eq_true, decide_eq_true_eq, not_exists, not_and, not_lt]
      intro n hn
      have := hp n hn
      omega
  · intro hit
    subst hit
    simp only [buffer, hf, hi, not_true_eq_false, if_false, he, Res.ok_bind]
    rfl
  · intro x hx
    have hb := hA.bounds x hx
    have hsz : (c.layout f).nbComp * (c.layout f).nbSub * (c.layout f).nbBuf = f.nbComp * f.nbSub * c.nbBuf := by
      rw [hnc]; rfl
    refine ⟨by simp only [dot_map_mul], hb.1, ?_⟩
    omega

/-- **C72** The getters show the values of a field of an initialised collection: element `x` of the array is
the entry at the offset of `x` in the field's buffer; the buffer protocol gives the same array. -/
theorem C72_view {srt : SortFn} {global : Bool} {dim : Int} {order : StorageOrder} {sub : SMap String Int}
    (hs : sub.Sorted) (hv : ∀ tag n, sub.find tag = some n → n = Unknown ∨ 1 ≤ n) {c0 c : Coll α U}
    (hc : mk' global dim order sub = .ok c0) (hr : Session srt c0 c) (hi : c.initialised = true)
    (ho : c.order = .colMajor ∨ c.order = .rowMajor) {name : String} {f : Field α U}
    (hf : c.fields.find name = some f) (it : IterUnit) (item : Int) (hok : ViewOk (c.layout f) it)
    (ha : Addressing (c.layout f).pixShape (c.layout f).pixStrides c.nbBuf) (hp : Pos ((c.layout f).shape it)) :
    ∃ b ms, view c name it item = .ok (.window b) ∧ (it = .subPt → buffer c name item = .ok b) ∧
      b.shape = (c.layout f).shape it ∧ (c.layout f).strides it 1 = .ok ms ∧
      ∀ x, InBox b.shape x → dot b.strides x = item * dot ms x ∧ 0 ≤ dot ms x ∧ dot ms x < f.vals.length - f.pad :=
  view_of_size (session_size hs hv hc hr) hi ho hf it item hok ha hp

/-- `C72_set` from the sizes of the buffers. -/
theorem setArray_of_size {srt : SortFn} (hsrt : SortSpec srt) {c : Coll α U} (hinv : SizeInv c)
    (hi : c.initialised = true) (ho : c.order = .colMajor ∨ c.order = .rowMajor) {name : String} {f : Field α U}
    (hf : c.fields.find name = some f) (it : IterUnit) (hok : ViewOk (c.layout f) it)
    (ha : Addressing (c.layout f).pixShape (c.layout f).pixStrides c.nbBuf) (hp : Pos ((c.layout f).shape it))
    (hne : (c.layout f).shape it ≠ []) (a : NpArray) (inp : Mem α) (hpl : Plain a)
    (hsh : a.shape = (c.layout f).shape it) (hin : ∀ x, InBox a.shape x → (inp (dot a.strides x)).isSome) :
    ∃ m ms, setArray srt c name it a inp = (.ok (), put c name (Field.ofMem f m)) ∧
      (c.layout f).strides it 1 = .ok ms ∧ (Field.ofMem f m).vals.length = f.vals.length ∧
      (∀ x, InBox a.shape x → (Field.ofMem f m).vals[(dot ms x).toNat]? = inp (dot a.strides x)) ∧
      (∀ i : Nat, (∀ x, InBox a.shape x → dot ms x ≠ i) → (Field.ofMem f m).vals[i]? = f.vals[i]?) := by
  obtain ⟨s1, s2, s3⟩ := hinv.size hi name f hf
  obtain ⟨ms, hms, hA⟩ := hok.addressing (l := c.layout f) ho ha
  have hnc : (c.layout f).nbComp = f.nbComp := (hinv.wf.comps name f hf).symm
  have hsz : (c.layout f).nbComp * (c.layout f).nbSub * (c.layout f).nbBuf = f.nbComp * f.nbSub * c.nbBuf := by
    rw [hnc]; rfl
  have hpad : (0 : Int) ≤ f.pad := by omega
  rw [hsz] at hA
  rw [hsh] at hin ⊢
  obtain ⟨m, k1, k2, -, k3⟩ := C08_strided_copy hsrt ((c.layout f).shape it) (a.strides.map (elemStride a.item)) ms
    (fun i => inp (a.item * i)) (Field.mem f) hp hne (by rw [List.length_map, hpl.2.1, hsh]) hA.length_eq
    (fun x hx => by simp only [hpl.dot_eq]; exact hin x hx)
    (fun x hx => by
      have hb := hA.bounds x hx
      simp only [Field.mem, s3, hb.1, and_self, if_true]
      rw [List.getElem?_eq_getElem (by omega)]; rfl)
  have hset : setArray srt c name it a inp = (.ok (), put c name (Field.ofMem f m)) := by
    simp only [setArray, hf, hsh, ne_eq, not_true_eq_false, if_false, hms, Res.ok_bind, k1]
  refine ⟨m, ms, hset, hms, by simp [Field.ofMem], ?_, ?_⟩
  · intro x hx
    have hb := hA.bounds x hx
    have hlt : (dot ms x).toNat < f.vals.length := by omega
    simp only [Field.ofMem, List.getElem?_map]
    rw [List.getElem?_eq_getElem (by simpa using hlt)]
    simp only [List.getElem_range, Option.map_some]
    rw [show ((dot ms x).toNat : Int) = dot ms x by omega, k2 hA.inj x hx, hpl.dot_eq]
    obtain ⟨v, hv⟩ := Option.isSome_iff_exists.1 (hin x hx)
    rw [hv]; rfl
  · intro i hx
    simp only [Field.ofMem, List.getElem?_map]
    by_cases hlt : i < f.vals.length
    · rw [List.getElem?_eq_getElem (by simpa using hlt)]
      simp only [List.getElem_range, Option.map_some]
      rw [k3 i hx]
      simp [Field.mem, s3, List.getElem?_eq_getElem hlt]
    · rw [List.getElem?_eq_none (by simpa using hlt), List.getElem?_eq_none (by omega)]; rfl

/-- **C72** Assignment of an array in memory of its own to the field of an initialised collection, at any
point of any python session: it succeeds, afterwards the view shows the array, entries that the view does not
show (row padding, pad region) and all other fields keep their values. -/
theorem C72_set {srt : SortFn} (hsrt : SortSpec srt) {global : Bool} {dim : Int} {order : StorageOrder}
    {sub : SMap String Int} (hs : sub.Sorted) (hv : ∀ tag n, sub.find tag = some n → n = Unknown ∨ 1 ≤ n)
    {c0 c : Coll α U} (hc : mk' global dim order sub = .ok c0) (hr : Session srt c0 c)
    (hi : c.initialised = true) (ho : c.order = .colMajor ∨ c.order = .rowMajor) {name : String} {f : Field α U}
    (hf : c.fields.find name = some f) (it : IterUnit) (hok : ViewOk (c.layout f) it)
    (ha : Addressing (c.layout f).pixShape (c.layout f).pixStrides c.nbBuf) (hp : Pos ((c.layout f).shape it))
    (hne : (c.layout f).shape it ≠ []) (a : NpArray) (inp : Mem α) (hpl : Plain a)
    (hsh : a.shape = (c.layout f).shape it) (hin : ∀ x, InBox a.shape x → (inp (dot a.strides x)).isSome) :
    ∃ c' g ms, setArray srt c name it a inp = (.ok (), c') ∧ c'.fields.find name = some g ∧
      (∀ n, n ≠ name → c'.fields.find n = c.fields.find n) ∧ c'.layout g = c.layout f ∧
      (c.layout f).strides it 1 = .ok ms ∧ g.vals.length = f.vals.length ∧
      (∀ x, InBox a.shape x → g.vals[(dot ms x).toNat]? = inp (dot a.strides x)) ∧
      (∀ i : Nat, (∀ x, InBox a.shape x → dot ms x ≠ i) → g.vals[i]? = f.vals[i]?) := by
  obtain ⟨m, ms, h1, h2, h3, h4, h5⟩ :=
    setArray_of_size hsrt (session_size hs hv hc hr) hi ho hf it hok ha hp hne a inp hpl hsh hin
  refine ⟨_, Field.ofMem f m, ms, h1, SMap.find_insert_self _ _ _, ?_, rfl, h2, h3, h4, h5⟩
  intro n hn
  simp only [SMap.find_insert]
  rw [if_neg hn]

/-- Numbers from the address 0 on. -/
def exArr : Mem Int := fun x => if x % 8 = 0 ∧ 0 ≤ x ∧ x < 48 then some (10 + x / 8) else none

/-- A 3×2 integer field and an array of shape (1, 1, 3, 2) in row-major order. -/
example : (exAfter.fields.find "flag").map (fun f => (exAfter.layout f).shape .subPt) = some [1, 1, 3, 2] ∧
    view exAfter "flag" .subPt 8 = .ok (.window ⟨[1, 1, 3, 2], [8, 8, 8, 24], 8⟩) ∧
    buffer exAfter "flag" 8 = .ok ⟨[1, 1, 3, 2], [8, 8, 8, 24], 8⟩ ∧
    (setArray stableSort exAfter "flag" .subPt ⟨[1, 1, 3, 2], [48, 48, 16, 8], 8⟩ exArr).1 = .ok () ∧
    ((setArray stableSort exAfter "flag" .subPt ⟨[1, 1, 3, 2], [48, 48, 16, 8], 8⟩ exArr).2.fields.find
      "flag").map (·.vals) = some [10, 12, 14, 11, 13, 15] := by
  decide +kernel

/-- **C72** An assignment that is refused changes nothing; one to a name that is not known, or with an array of
another shape, is refused. -/
theorem C72_refused (srt : SortFn) (c : Coll α U) (name : String) (it : IterUnit) (a : NpArray) (inp : Mem α) :
    ((setArray srt c name it a inp).1 ≠ .ok () → (setArray srt c name it a inp).2 = c) ∧
    (c.fields.find name = none → (setArray srt c name it a inp).1 = .throw .fieldCollectionError) ∧
    (∀ f, c.fields.find name = some f → a.shape ≠ (c.layout f).shape it →
      (setArray srt c name it a inp).1 = .throw .runtimeError) := by
  refine ⟨fun h => ?_, fun h => by simp [setArray, h], fun f hf h => by simp [setArray, hf, h]⟩
  rcases setArray_cases srt c name it a inp with ⟨_, h1⟩ | ⟨f, m, hf, h1⟩
  · exact h1
  · rw [h1] at h; exact absurd rfl h

example : (setArray stableSort exAfter "flag" .subPt ⟨[3, 2], [16, 8], 8⟩ exArr).1 = .throw .runtimeError ∧
    (setArray stableSort exAfter "flags" .subPt ⟨[3, 2], [16, 8], 8⟩ exArr).1 = .throw .fieldCollectionError := by
  decide +kernel

/-- **C72** Before the collection is initialised a field has no memory: the getters never show the field but
an array of their own, the buffer protocol throws, and an assignment is refused or writes through a null
pointer. -/
theorem C72_before {srt : SortFn} (hsrt : SortSpec srt) (c : Coll α U) {name : String} {f : Field α U}
    (hf : c.fields.find name = some f) (hi : c.initialised = false) (hfr : f.fresh = false) (hvl : f.vals = [])
    (it : IterUnit) (item : Int) (a : NpArray) (inp : Mem α) :
    (∀ b, view c name it item ≠ .ok (.window b)) ∧ buffer c name item = .throw .runtimeError ∧
    ((∀ n ∈ (c.layout f).shape it, 0 < n) → (c.layout f).shape it ≠ [] →
      (setArray srt c name it a inp).1 ≠ .ok ()) := by
  refine ⟨?_, by simp [buffer, hf, hi], ?_⟩
  · intro b h
    simp only [view, hf, hfr, hvl, Bool.false_eq_true, if_false, List.length_nil, if_true] at h
    cases hw : numpyWrap ⟨c.layout f, []⟩ it item with
    | ub => rw [hw] at h; cases h
    | throw e => rw [hw] at h; cases h
    | ok b' =>
      rw [hw, Res.ok_bind] at h
      split_ifs at h
      cases h
  · intro hp hne h
    unfold setArray at h
    simp only [hf] at h
    split at h
    · cases h
    · cases hst : (c.layout f).strides it 1 with
      | ub => rw [hst] at h; cases h
      | throw e => rw [hst] at h; cases h
      | ok s =>
        rw [hst, Res.ok_bind] at h
        by_cases h1 : ((c.layout f).shape it).length = (a.strides.map (elemStride a.item)).length
        · by_cases h2 : ((c.layout f).shape it).length = s.length
          · rw [C08_out_of_bounds hsrt _ _ s _ _ hp hne h1.symm h2.symm
              _ (inBox_zero hp) (Or.inr (by simp [Field.mem, hfr]))] at h
            cases h
          · rw [stridedCopy, if_neg (by simpa using h1), if_pos h2] at h
            cases h
        · rw [stridedCopy, if_pos h1] at h
          cases h

/-- A registered field of a global collection before `initialise`: `f.s` is a detached array, and assigning
an array of its shape is a write through a null pointer. -/
example : (exColl.run stableSort [.register "a" .real (.num 2) "pixel" "" false]).map (fun c =>
      (c.initialised, c.fields.find "a" |>.map (fun f => (f.fresh, f.vals)), view c "a" .subPt 8,
        (setArray stableSort c "a" .subPt ⟨[2, 1], [8, 8], 8⟩ exArr).1)) =
    some (false, some (false, []), .ok (.detached ⟨[2, 1], [8, 16], 8⟩), .ub) := by decide +kernel

end Verif.Props
