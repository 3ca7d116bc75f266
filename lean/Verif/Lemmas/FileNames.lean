import Verif.Model.NetCDF
import Mathlib.Data.List.Infix
/-
Lemmas about the names of NetCDF dimensions.
-/
namespace Verif.NetCDF
open Verif

theorem rfindSep_isSome_iff (l : List Char) : (rfindSep l).isSome ↔ ['_', '_'] <:+: l := by
  induction l with
  | nil => simp [rfindSep]
  | cons a t ih =>
    cases t with
    | nil => simp [rfindSep, List.infix_cons_iff, List.prefix_iff_eq_take]
    | cons b t =>
      rw [rfindSep, List.infix_cons_iff]
      cases h : rfindSep (b :: t) with
      | some p => rw [h] at ih; simp [ih.1 rfl]
      | none =>
        rw [h] at ih
        have hn : ¬ ['_', '_'] <:+: b :: t := fun hc => by simpa using ih.2 hc
        simp only [hn, or_false]
        by_cases hab : a = '_' ∧ b = '_'
        · obtain ⟨rfl, rfl⟩ := hab; simp
        · rw [if_neg hab]
          simp only [Option.isSome_none, Bool.false_eq_true, false_iff]
          intro hp
          obtain ⟨r, hr⟩ := hp
          simp only [List.cons_append, List.nil_append, List.cons.injEq] at hr
          exact hab ⟨hr.1.symm, hr.2.1.symm⟩

theorem rfindSep_eq_none_iff (l : List Char) : rfindSep l = none ↔ ¬ ['_', '_'] <:+: l := by
  rw [← rfindSep_isSome_iff]; simp

theorem rfindSep_append_of_some {a l : List Char} {p : Nat} (h : rfindSep l = some p) :
    rfindSep (a ++ l) = some (a.length + p) := by
  induction a with
  | nil => simpa using h
  | cons x a ih =>
    have : ∃ y t, a ++ l = y :: t := by
      cases hal : a ++ l with
      | nil =>
        have : l = [] := (List.append_eq_nil_iff.1 hal).2
        subst this; simp [rfindSep] at h
      | cons y t => exact ⟨y, t, rfl⟩
    obtain ⟨y, t, ht⟩ := this
    rw [List.cons_append, ht, rfindSep, ← ht, ih]
    simp only [List.length_cons, Option.some.injEq]
    omega

/-- Where the last separator of `base__suffix` is. -/
theorem rfindSep_sep (base suffix : List Char) :
    rfindSep (base ++ '_' :: '_' :: suffix) = some base.length ↔ ¬ ['_', '_'] <:+: '_' :: suffix := by
  have key : rfindSep ('_' :: '_' :: suffix) =
      match rfindSep ('_' :: suffix) with | some p => some (p + 1) | none => some 0 := by
    rw [rfindSep]; cases rfindSep ('_' :: suffix) <;> simp
  rw [← rfindSep_eq_none_iff]
  cases h : rfindSep ('_' :: suffix) with
  | none =>
    rw [h] at key
    simp [rfindSep_append_of_some key]
  | some p =>
    rw [h] at key
    simp [rfindSep_append_of_some key]

theorem toList_dimName {base suffix : String} (h : suffix ≠ "") :
    (dimName base suffix).toList = base.toList ++ '_' :: '_' :: suffix.toList := by
  rw [dimName, if_neg h]
  simp

theorem afterLastDash_append (a l : List Char) (h : '-' ∉ l) : afterLastDash (a ++ '-' :: l) = l := by
  induction a with
  | nil => simp [afterLastDash, h]
  | cons x a ih =>
    rw [List.cons_append, afterLastDash, if_pos (by simp)]
    exact ih

theorem isDigit_of_mem_toString {k : Nat} {c : Char} (h : c ∈ (toString k).toList) : c.isDigit := by
  rw [show toString k = k.repr from rfl, Nat.toList_repr] at h
  exact Nat.isDigit_of_mem_toDigits (by omega) (by omega) h

theorem dash_notMem (k : Nat) : '-' ∉ (toString k).toList := fun h => by
  simpa using isDigit_of_mem_toString h

theorem underscore_notMem (k : Nat) : '_' ∉ (toString k).toList := fun h => by
  simpa using isDigit_of_mem_toString h

theorem takeWhile_all {p : Char → Bool} {l : List Char} (h : ∀ c ∈ l, p c = true) :
    l.takeWhile p = l := by
  induction l with
  | nil => rfl
  | cons a l ih =>
    rw [List.takeWhile_cons_of_pos (h a (by simp)), ih fun c hc => h c (by simp [hc])]

theorem stoi_toString (k : Nat) (hk : k ≤ 2147483647) : stoi (toString k).toList = .ok k := by
  have h1 : (toString k).toList.takeWhile Char.isDigit = (toString k).toList :=
    takeWhile_all fun c hc => isDigit_of_mem_toString hc
  have h2 : digitsVal (toString k).toList = k := by
    rw [show toString k = k.repr from rfl, Nat.toList_repr]
    have := Nat.ofDigitChars_ten_toDigits (n := k)
    rw [Nat.ofDigitChars_eq_foldl] at this
    exact this
  have h3 : (toString k).toList ≠ [] := by
    rw [show toString k = k.repr from rfl, Nat.toList_repr]
    exact Nat.toDigits_ne_nil
  unfold stoi
  simp only [h1, h2]
  rw [if_neg h3, if_neg (by omega)]

theorem infix_append_digits {s d : List Char} (hd : '_' ∉ d) :
    ['_', '_'] <:+: s ++ d ↔ ['_', '_'] <:+: s := by
  constructor
  · rintro ⟨a, b, hab⟩
    have hlen := congrArg List.length hab
    simp only [List.length_append, List.length_cons, List.length_nil] at hlen
    by_cases hb : d.length ≤ b.length
    · refine ⟨a, b.take (b.length - d.length), ?_⟩
      have := congrArg (List.take s.length) hab
      rw [List.take_append_of_le_length (Nat.le_refl _), List.take_length] at this
      have e : s.length - (a ++ ['_', '_']).length = b.length - d.length := by
        simp only [List.length_append, List.length_cons, List.length_nil]; omega
      have e2 : (a ++ ['_', '_']).length ≤ s.length := by
        simp only [List.length_append, List.length_cons, List.length_nil]; omega
      rw [List.take_append, List.take_of_length_le e2, e] at this
      exact this
    · exfalso
      apply hd
      have hmem : (a ++ ['_', '_'] ++ b)[a.length + 1]? = some '_' := by
        rw [List.append_assoc, List.getElem?_append_right (by omega)]
        simp
      rw [hab, List.getElem?_append_right (by omega)] at hmem
      exact List.mem_of_getElem? hmem
  · rintro ⟨a, b, rfl⟩
    exact ⟨a, b ++ d, by simp⟩

/-- Text before and after the last dash. -/
theorem split_dash {a b c d : List Char} (hb : '-' ∉ b) (hd : '-' ∉ d)
    (h : a ++ '-' :: b = c ++ '-' :: d) : a = c ∧ b = d := by
  have e1 := congrArg afterLastDash h
  rw [afterLastDash_append _ _ hb, afterLastDash_append _ _ hd] at e1
  subst e1
  exact ⟨List.append_cancel_right h, rfl⟩

end Verif.NetCDF
