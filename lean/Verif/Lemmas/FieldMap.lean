import Mathlib.Tactic.Ring
import Verif.Model.FieldMap
import Verif.Lemmas.CollectionInv
/-! Lemmas on field maps. -/
set_option linter.unusedSectionVars false

namespace Verif.Collection
open Verif Verif.Ccoord Verif.Layout

variable {α U : Type}

/-- The `i`-th piece of length `k` of a list. -/
def chunk (l : List α) (k i : Nat) : List α := (l.drop (i * k)).take k

theorem chunk_length {l : List α} {k i : Nat} (h : (i + 1) * k ≤ l.length) : (chunk l k i).length = k := by
  have : (i + 1) * k = i * k + k := by ring
  simp [chunk]; omega

/-- The pieces in order make up the front of the list. -/
theorem chunks_flatten (l : List α) (k n : Nat) :
    ((List.range n).map (chunk l k)).flatten = l.take (n * k) := by
  induction n with
  | zero => simp
  | succ n ih =>
    rw [List.range_succ, List.map_append, List.flatten_append, ih]
    have e : (n + 1) * k = n * k + k := by ring
    simp only [List.map_cons, List.map_nil, List.flatten_cons, List.flatten_nil, List.append_nil, chunk]
    rw [e, List.take_add]

theorem _root_.Verif.SMap.insert_insert {κ β : Type} [LinearOrder κ] {m : SMap κ β} (hs : m.Sorted) (k : κ)
    (v w : β) : (m.insert k v).insert k w = m.insert k w := by
  induction m with
  | nil => simp [SMap.insert]
  | cons e m ih =>
    obtain ⟨k', v'⟩ := e
    simp only [SMap.insert]
    split
    · simp [SMap.insert]
    · split
      · simp [SMap.insert]
      · rename_i h1 h2
        simp only [SMap.insert, h1, h2, if_false]
        rw [ih (List.pairwise_cons.1 hs).2]

/-- The field with other values. -/
abbrev Field.withVals (f : Field α U) (l : List α) : Field α U := { f with vals := l }

/-- The collection with one field replaced. -/
abbrev Coll.withField (c : Coll α U) (name : String) (f : Field α U) : Coll α U :=
  { c with fields := c.fields.insert name f }

namespace FieldMap
variable [Inhabited α] [DecidableEq U]

theorem toSizeT_of_nonneg {v : Int} (h0 : 0 ≤ v) (h1 : v < 18446744073709551616) :
    toSizeT v = v.toNat := by
  unfold toSizeT
  rw [Int.emod_eq_of_lt h0 h1]

/-- A map that can be used on a field. -/
structure On (c : Coll α U) (m : FieldMap) (f : Field α U) (k : Nat) : Prop where
  find : c.fields.find m.name = some f
  ready : m.ready = true
  fresh : f.fresh = true
  rows : 0 ≤ m.rows
  cols : 0 ≤ m.cols
  shape : m.rows * m.cols = k
  stride : m.stride = k

theorem access_ok {c : Coll α U} {m : FieldMap} {f : Field α U} {k : Nat} (h : On c m f k) {i : Nat}
    (hi : (i + 1) * k ≤ f.vals.length) : access c m i = .ok (chunk f.vals k i) := by
  unfold access
  simp only [h.find, h.shape, h.stride]
  have e : (i + 1) * k = i * k + k := by ring
  have e2 : (i : Int) * k = ((i * k : Nat) : Int) := by push_cast; rfl
  rw [if_pos ⟨h.ready, h.fresh, h.rows, h.cols, by rw [e2]; omega, by rw [e2]; omega⟩]
  have e3 : ((i : Int) * k).toNat = i * k := by rw [e2]; exact Int.toNat_natCast _
  rw [e3, Int.toNat_natCast]; rfl

theorem access_ub {c : Coll α U} {m : FieldMap} {f : Field α U} {k : Nat} (h : On c m f k) {i : Nat}
    (hi : f.vals.length < (i + 1) * k) : access c m i = .ub := by
  unfold access
  simp only [h.find, h.shape, h.stride]
  have e : (i + 1) * k = i * k + k := by ring
  have e2 : (i : Int) * k = ((i * k : Nat) : Int) := by push_cast; rfl
  rw [if_neg]
  rintro ⟨_, _, _, _, _, h6⟩
  rw [e2] at h6; omega

theorem loop_ok {c : Coll α U} {m : FieldMap} {stop : Nat} {g : Nat → List α} (fuel : Nat) :
    ∀ i, i + fuel = stop → (∀ j, i ≤ j → j < stop → access c m j = .ok (g j)) →
      loop c m stop fuel i = .ok ((List.range' i fuel).map g) := by
  induction fuel with
  | zero => intro i hi _; unfold loop; rw [if_pos (by omega)]; rfl
  | succ n ih =>
    intro i hi h
    unfold loop
    rw [if_neg (by omega), h i (le_refl i) (by omega), ih (i + 1) (by omega)
      (fun j hj hj' => h j (by omega) hj')]
    rfl

theorem iterate_ok {c : Coll α U} {m : FieldMap} {f : Field α U} {k n : Nat} (h : On c m f k)
    (hs : size c m = .ok n) (hn : n * k ≤ f.vals.length) :
    iterate c m = .ok ((List.range n).map (chunk f.vals k)) := by
  unfold iterate
  rw [if_neg (by simp [h.ready]), hs, Res.ok_bind, loop_ok (g := chunk f.vals k) n 0 (by omega)]
  · rw [List.range_eq_range']
  · intro j _ hj
    exact access_ok h (le_trans (Nat.mul_le_mul_right k hj) hn)

/-- Overwriting the pieces from the `i`-th on. -/
theorem modifyLoop_ok {m : FieldMap} {g : List α → List α} {k stop : Nat} {f : Field α U}
    (hg : ∀ l, l.length = k → (g l).length = k) (hstop : stop * k ≤ f.vals.length) (fuel : Nat) :
    ∀ (i : Nat) (c : Coll α U) (done : List α), i + fuel = stop → done.length = i * k →
      On c m (f.withVals (done ++ f.vals.drop (i * k))) k → c.fields.Sorted →
      modifyLoop m g stop fuel i c = .ok (c.withField m.name (f.withVals
        (done ++ ((List.range' i fuel).map (fun j => g (chunk f.vals k j))).flatten ++
          f.vals.drop (stop * k)))) := by
  induction fuel with
  | zero =>
    intro i c done hi hd hon hsort
    have : i = stop := by omega
    subst this
    unfold modifyLoop
    rw [if_pos rfl]
    have hin : c.fields.insert m.name (f.withVals (done ++ f.vals.drop (i * k))) = c.fields :=
      SMap.insert_mem hsort hon.find
    simp only [List.range'_zero, List.map_nil, List.flatten_nil, List.append_nil]
    simp only [Coll.withField, hin]
  | succ n ih =>
    intro i c done hi hd hon hsort
    have hle : (i + 1) * k ≤ stop * k := Nat.mul_le_mul_right k (by omega)
    have e : (i + 1) * k = i * k + k := by ring
    have hlen : (done ++ f.vals.drop (i * k)).length = f.vals.length := by simp; omega
    have hacc : access c m i = .ok (chunk f.vals k i) := by
      rw [access_ok hon (by simp only [hlen]; omega)]
      unfold chunk
      simp only
      rw [List.drop_append_of_le_length (by omega), List.drop_eq_nil_of_le (by omega)]
      simp
    have hcl : (chunk f.vals k i).length = k := chunk_length (by omega)
    unfold modifyLoop
    rw [if_neg (by omega)]
    unfold modifyAt
    simp only [hon.find, hacc, Res.ok_bind, hon.stride, Res.pure_eq, hcl]
    have e2 : ((i : Int) * (k : Int)).toNat = i * k := by
      rw [← Nat.cast_mul]; exact Int.toNat_natCast _
    rw [e2]
    have hv1 : (done ++ f.vals.drop (i * k)).take (i * k) = done := by
      rw [← hd]; simp
    have hv2 : (done ++ f.vals.drop (i * k)).drop (i * k + k) = f.vals.drop ((i + 1) * k) := by
      rw [← List.drop_drop, ← hd, List.drop_left, hd, List.drop_drop, e]
    rw [hv1, hv2]
    have hon' : On (c.withField m.name
        (f.withVals (done ++ g (chunk f.vals k i) ++ f.vals.drop ((i + 1) * k)))) m
        (f.withVals ((done ++ g (chunk f.vals k i)) ++ f.vals.drop ((i + 1) * k))) k :=
      ⟨SMap.find_insert_self _ _ _, hon.ready, hon.fresh, hon.rows, hon.cols, hon.shape, hon.stride⟩
    have h1 := ih (i + 1) _ (done ++ g (chunk f.vals k i)) (by omega)
      (by simp [hd, hg _ hcl, e]) hon' (SMap.sorted_insert hsort _ _)
    rw [h1]
    simp only [List.range'_succ, List.map_cons, List.flatten_cons, Coll.withField,
      SMap.insert_insert hsort, List.append_assoc]

end FieldMap
end Verif.Collection
