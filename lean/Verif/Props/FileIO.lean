import Verif.Lemmas.FileNames
import Verif.Spec.Names
import Mathlib.Tactic.Ring
import Std.Data.String.ToNat
/-
Properties C34 (frames of a file) and C38 (names of fields in files).
-/
namespace Verif.Props
open Verif Verif.FileIO Verif.NetCDF

/-! ## C34 -/

/-- **C34**, first part: a file with `n` frames accepts exactly the indices `-n ≤ i < n`. -/
def C34_statement : Prop :=
  ∀ n i : Int, 0 ≤ n → ((∃ f, frameAt n i = .ok f) ↔ -n ≤ i ∧ i < n)

/-- The existing frames are accessible, by their number and counted from the end; every index outside
`-n ≤ i ≤ n` raises an error.  Missing: the index `n` is accepted as well. -/
theorem C34_index_partial (n i : Int) (hn : 0 ≤ n) :
    (-n ≤ i → i < n → frameAt n i = .ok (i % n)) ∧
      (i < -n ∨ n < i → frameAt n i = .throw .fileIOError) := by
  constructor
  · intro h1 h2
    unfold frameAt
    by_cases hi : i < 0
    · rw [if_pos hi, if_neg (by omega), if_neg (by omega)]
      rw [← Int.add_emod_left, Int.emod_eq_of_lt (by omega) (by omega)]
    · rw [if_neg hi, if_neg (by omega), Int.emod_eq_of_lt (by omega) h2]
  · rintro (h | h)
    · unfold frameAt
      rw [if_pos (by omega), if_pos (by omega)]
    · unfold frameAt
      rw [if_neg (by omega), if_pos h]

example : frameAt 4 (-1) = .ok 3 ∧ frameAt 4 2 = .ok 2 ∧ frameAt 4 5 = .throw .fileIOError ∧
    frameAt 4 (-5) = .throw .fileIOError := by decide

/-- The index one past the last frame is accepted. -/
theorem C34_past_end (n : Int) (hn : 0 ≤ n) : frameAt n n = .ok n := by
  unfold frameAt
  rw [if_neg (by omega), if_neg (by omega)]

theorem C34_false : ¬ C34_statement := by
  intro h
  have := (h 0 0 (by omega)).1 ⟨0, C34_past_end 0 (by omega)⟩
  omega

/-- **C34** Reading or writing fields through `file[i]` accesses a frame exactly for `-n ≤ i < n`,
and it is frame `i mod n`; every other index raises an error. -/
theorem C34_access (n i : Int) (hn : 0 ≤ n) :
    useFrame n i = if -n ≤ i ∧ i < n then .ok (i % n) else .throw .fileIOError := by
  have hv : ∀ f, 0 ≤ f → f < n → varFrame n f = .ok f := by
    intro f h0 h1
    unfold varFrame handleFrame
    simp only [if_neg (show ¬ f < 0 by omega), if_neg (show ¬ f ≥ n by omega), Res.ok_bind]
  by_cases h : -n ≤ i ∧ i < n
  · rw [if_pos h]
    unfold useFrame
    have hp : 0 < n := by omega
    rw [(C34_index_partial n i hn).1 h.1 h.2]
    exact hv _ (Int.emod_nonneg _ (by omega)) (Int.emod_lt_of_pos _ hp)
  · rw [if_neg h]
    unfold useFrame
    by_cases he : i = n
    · subst he
      rw [C34_past_end i hn]
      simp only [Res.ok_bind]
      unfold varFrame handleFrame
      simp only [if_neg (show ¬ i < 0 by omega), if_pos (show i ≥ i by omega), Res.throw_bind]
    · rw [(C34_index_partial n i hn).2 (by omega)]
      rfl

example : useFrame 4 (-1) = .ok 3 ∧ useFrame 4 4 = .throw .fileIOError := by decide

/-- **C34** The same for the functions that take a frame number, `read(frame, names)` and
`write(frame, names)`. -/
theorem C34_direct (n i : Int) (hn : 0 ≤ n) :
    varFrame n i = if -n ≤ i ∧ i < n then .ok (i % n) else .throw .fileIOError := by
  unfold varFrame handleFrame
  by_cases hi : i < 0
  · simp only [if_pos hi]
    rw [if_neg (by omega)]
    simp only [Res.ok_bind]
    by_cases h : -n ≤ i
    · rw [if_neg (by omega), if_pos ⟨h, by omega⟩]
      rw [← Int.add_emod_left, Int.emod_eq_of_lt (by omega) (by omega)]
    · rw [if_pos (by omega), if_neg (by omega)]
  · simp only [if_neg hi]
    by_cases h : i < n
    · rw [if_neg (by omega), if_pos (by omega)]
      simp only [Res.ok_bind]
      rw [if_neg hi, Int.emod_eq_of_lt (by omega) h]
    · rw [if_pos (by omega), if_neg (by omega)]
      rfl

example : varFrame 4 (-1) = .ok 3 ∧ varFrame 4 (-5) = .throw .fileIOError := by decide

/-- The numbers of frames and the returned `FileFrame`s of `k` calls of `append_frame`. -/
def appends : Nat → Int → List Int × Int
  | 0, n => ([], n)
  | k + 1, n =>
      let (f, n') := appendFrame n
      let (fs, m) := appends k n'
      (f :: fs, m)

/-- **C34** `k` calls of `append_frame` on a file with `n` frames return the frames `n, n+1, …` and
the file then has `n + k` frames. -/
theorem C34_append (k : Nat) (n : Int) :
    appends k n = ((List.range k).map (fun (j : Nat) => n + j), n + k) ∧
      size (appends k n).2 = n + k := by
  have key : ∀ (k : Nat) (n : Int),
      appends k n = ((List.range k).map (fun (j : Nat) => n + j), n + k) := by
    intro k
    induction k with
    | zero => intro n; simp [appends]
    | succ k ih =>
      intro n
      simp only [appends, appendFrame, ih, List.range_succ_eq_map, List.map_cons, List.map_map]
      refine Prod.ext ?_ (by push_cast; ring)
      simp only [Nat.cast_zero, add_zero, List.cons.injEq, true_and]
      refine List.map_congr_left fun j _ => ?_
      simp only [Function.comp_apply, Nat.succ_eq_add_one, Nat.cast_add, Nat.cast_one]
      ring
  exact ⟨key k n, by rw [key]; rfl⟩

/-- **C34** A frame stays the same frame when more frames are appended: the number held by a
`FileFrame` is accessed as such in any longer file. -/
theorem C34_stable (n m f : Int) (h0 : 0 ≤ f) (h1 : f < n) (h : n ≤ m) : varFrame m f = .ok f := by
  rw [C34_direct m f (by omega), if_pos (by omega), Int.emod_eq_of_lt h0 (by omega)]

example : appends 3 2 = ([2, 3, 4], 5) := by decide
example : varFrame 5 3 = .ok 3 := C34_stable 4 5 3 (by omega) (by omega) (by omega)

/-- **C34** Iterating over a file visits the frames `0, …, n-1`, and each of them can be accessed. -/
theorem C34_iterate (n : Nat) :
    iterate n = .ok ((List.range n).map (fun (j : Nat) => (j : Int))) ∧
      ∀ f ∈ (List.range n).map (fun (j : Nat) => (j : Int)), varFrame n f = .ok f := by
  have key : ∀ (k i : Nat), i + k = n →
      iterFrom n i = .ok ((List.range k).map (fun (j : Nat) => (i : Int) + j)) := by
    intro k
    induction k with
    | zero =>
      intro i h
      rw [iterFrom, if_pos (by simp only [size]; omega)]
      rfl
    | succ k ih =>
      intro i h
      rw [iterFrom, if_neg (by simp only [size]; omega), if_neg (by simp only [size]; omega),
        (C34_index_partial n i (by omega)).1 (by omega) (by omega)]
      have := ih (i + 1) (by omega)
      push_cast at this
      simp only [Res.ok_bind, this, Res.pure_eq]
      congr 1
      rw [Int.emod_eq_of_lt (by omega) (by omega), List.range_succ_eq_map, List.map_cons,
        List.map_map]
      simp only [Nat.cast_zero, add_zero, List.cons.injEq, true_and]
      refine List.map_congr_left fun j _ => ?_
      simp only [Function.comp_apply, Nat.succ_eq_add_one, Nat.cast_add, Nat.cast_one]
      ring
  constructor
  · have := key n 0 (by omega)
    rw [iterate]
    simpa using this
  · intro f hf
    simp only [List.mem_map, List.mem_range] at hf
    obtain ⟨j, hj, rfl⟩ := hf
    exact C34_stable n n j (by omega) (by omega) (by omega)

example : iterate 3 = .ok [0, 1, 2] := by decide +kernel

/-! ## C38 -/

/-- The dimension name of index `k` of the component shape of the field `name`. -/
def tensorDimName (name : String) (k : Nat) : String :=
  dimName "tensor_dim" (name ++ "-" ++ toString k)

/-- **C38** For every field name and tensor index, the dimension name is mapped back to base name and
index, and different pairs have different names. -/
def C38_statement : Prop :=
  (∀ name k, k ≤ 2147483647 →
    baseName (tensorDimName name k) = "tensor_dim" ∧ tensorDimIndex (tensorDimName name k) = .ok k) ∧
  ∀ name name' k k', tensorDimName name k = tensorDimName name' k' → name = name' ∧ k = k'

/-- The base name is recovered from `base__suffix` exactly if the suffix contains no double underscore
and does not begin with an underscore. -/
theorem C38_base_name (base suffix : String) (h : suffix ≠ "") :
    baseName (dimName base suffix) = base ↔ Clean suffix := by
  unfold baseName Clean
  rw [← rfindSep_sep base.toList, toList_dimName h]
  constructor
  · intro hb
    cases hr : rfindSep (base.toList ++ '_' :: '_' :: suffix.toList) with
    | none =>
      exfalso
      rw [rfindSep_eq_none_iff] at hr
      exact hr ⟨base.toList, suffix.toList, by simp⟩
    | some p =>
      rw [hr] at hb
      simp only at hb
      have := congrArg (fun s : String => s.toList.length) hb
      simp only [String.toList_ofList, List.length_take, List.length_append, List.length_cons] at this
      congr 1
      have hp : p ≤ base.toList.length ∨ base.toList.length < p := by omega
      rcases hp with hp | hp
      · omega
      · omega
  · intro hr
    rw [hr]
    simp

example : baseName (dimName "tensor_dim" "strain-1") = "tensor_dim" :=
  (C38_base_name _ _ (by decide)).2 (by decide +kernel)
example : baseName (dimName "tensor_dim" "my__field-1") = "tensor_dim__my" := by decide +kernel
example : baseName (dimName "tensor_dim" "_field-1") = "tensor_dim_" := by decide +kernel

theorem name_ne_empty (name : String) (k : Nat) : name ++ "-" ++ toString k ≠ "" := by
  intro h
  have := congrArg String.toList h
  simp at this

theorem clean_name_iff (name : String) (k : Nat) : Clean (name ++ "-" ++ toString k) ↔ Clean name := by
  unfold Clean
  have : '_' :: (name ++ "-" ++ toString k).toList =
      ('_' :: name.toList) ++ ('-' :: (toString k).toList) := by simp
  rw [this, infix_append_digits]
  simp only [List.mem_cons, not_or]
  exact ⟨by decide, underscore_notMem k⟩

/-- The tensor index is recovered from every name. -/
theorem C38_index (name : String) (k : Nat) (hk : k ≤ 2147483647) :
    tensorDimIndex (tensorDimName name k) = .ok k := by
  unfold tensorDimIndex tensorDimName
  rw [toList_dimName (name_ne_empty name k)]
  have : "tensor_dim".toList ++ '_' :: '_' :: (name ++ "-" ++ toString k).toList =
      ("tensor_dim".toList ++ '_' :: '_' :: name.toList) ++ '-' :: (toString k).toList := by simp
  rw [this, afterLastDash_append _ _ (dash_notMem k), stoi_toString k hk]

example : tensorDimIndex (tensorDimName "a-7__b" 12) = .ok 12 := C38_index _ _ (by omega)

/-- Different pairs of field name and index have different dimension names. -/
theorem C38_injective (name name' : String) (k k' : Nat)
    (h : tensorDimName name k = tensorDimName name' k') : name = name' ∧ k = k' := by
  have h1 := congrArg String.toList h
  unfold tensorDimName at h1
  rw [toList_dimName (name_ne_empty name k), toList_dimName (name_ne_empty name' k')] at h1
  have h2 := List.append_cancel_left h1
  simp only [List.cons.injEq, true_and] at h2
  have e : ∀ (n : String) (j : Nat), (n ++ "-" ++ toString j).toList =
      n.toList ++ '-' :: (toString j).toList := by intro n j; simp
  rw [e, e] at h2
  obtain ⟨ha, hb⟩ := split_dash (dash_notMem k) (dash_notMem k') h2
  exact ⟨String.toList_injective ha, Nat.repr_injective (String.toList_injective hb)⟩

/-- **C38** (partial) For names without double underscore and leading underscore everything holds.
Missing: other names, whose dimensions are not recognised. -/
theorem C38_names_partial (name : String) (k : Nat) (hk : k ≤ 2147483647) (h : Clean name) :
    baseName (tensorDimName name k) = "tensor_dim" ∧ tensorDimIndex (tensorDimName name k) = .ok k ∧
      ∀ name' k', tensorDimName name k = tensorDimName name' k' → name = name' ∧ k = k' :=
  ⟨(C38_base_name _ _ (name_ne_empty name k)).2 ((clean_name_iff name k).2 h), C38_index name k hk,
    fun name' k' => C38_injective name name' k k'⟩

example : Clean "first_Piola-Kirchhoff 2" := by decide +kernel

theorem C38_false : ¬ C38_statement := by
  intro h
  exact absurd (h.1 "a__b" 0 (by omega)).1 (by decide +kernel)

/-- Dimensions of different kinds never share a name: tensor, sub-point, point and history dimensions
and the grid and frame dimensions. -/
theorem C38_kinds (s t : String) (hs : s ≠ "") (ht : t ≠ "") :
    ∀ b ∈ ["tensor_dim", "subpt", "pts", "history_index"], ∀ b' ∈ ["tensor_dim", "subpt", "pts", "history_index"],
      (dimName b s = dimName b' t → b = b') ∧ ∀ n ∈ ["frame", "nx", "ny", "nz"], dimName b s ≠ n := by
  have key : ∀ (b : String) (n : String), dimName b s = n → b.toList ++ '_' :: '_' :: s.toList = n.toList := by
    intro b n h
    rw [← h, toList_dimName hs]
  intro b hb b' hb'
  simp only [List.mem_cons, List.not_mem_nil, or_false] at hb hb'
  refine ⟨fun h => ?_, fun n hn h => ?_⟩
  · have h1 := key _ _ h
    rw [toList_dimName ht] at h1
    rcases hb with rfl | rfl | rfl | rfl <;> rcases hb' with rfl | rfl | rfl | rfl <;> simp at h1 ⊢
  · have h1 := key _ _ h
    simp only [List.mem_cons, List.not_mem_nil, or_false] at hn
    rcases hb with rfl | rfl | rfl | rfl <;> rcases hn with rfl | rfl | rfl | rfl <;> simp at h1

end Verif.Props
