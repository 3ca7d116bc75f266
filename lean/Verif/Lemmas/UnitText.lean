import Std.Data.String.ToNat
import Verif.Model.UnitText
import Verif.Lemmas.Units
/-
Helper lemmas on the text of a unit.
-/
namespace Verif.Units
open Verif

/-- The characters of integers. -/
def IntChar (c : Char) : Prop := c.isDigit = true ∨ c = '-'

theorem digits_injective {m n : Nat} (h : Nat.toDigits 10 m = Nat.toDigits 10 n) : m = n := by
  apply Nat.repr_injective
  unfold Nat.repr
  rw [h]

theorem digit_of_mem {n : Nat} {c : Char} (h : c ∈ Nat.toDigits 10 n) : c.isDigit = true :=
  Nat.isDigit_of_mem_toDigits (by decide) (by decide) h

theorem intText_char {n : Int} {c : Char} (h : c ∈ intText n) : IntChar c := by
  unfold intText at h
  split at h
  · rcases List.mem_cons.1 h with rfl | h
    · exact .inr rfl
    · exact .inl (digit_of_mem h)
  · exact .inl (digit_of_mem h)

theorem minus_not_mem (n : Nat) : '-' ∉ Nat.toDigits 10 n := fun h =>
  absurd (digit_of_mem h) (by decide)

theorem intText_injective {m n : Int} (h : intText m = intText n) : m = n := by
  unfold intText at h
  split at h <;> split at h
  · have := digits_injective (List.cons.inj h).2
    omega
  · exact absurd (h ▸ List.mem_cons_self ..) (minus_not_mem n.natAbs)
  · exact absurd (h ▸ List.mem_cons_self ..) (minus_not_mem m.natAbs)
  · have := digits_injective h
    omega

theorem digit_cases {c : Char} (h : c.isDigit = true) :
    c = '0' ∨ c = '1' ∨ c = '2' ∨ c = '3' ∨ c = '4' ∨ c = '5' ∨ c = '6' ∨ c = '7' ∨ c = '8' ∨ c = '9' := by
  have h1 : 48 ≤ c.toNat ∧ c.toNat ≤ 57 := by
    simp only [Char.isDigit, Bool.and_eq_true, decide_eq_true_eq, ge_iff_le, UInt32.le_iff_toNat_le] at h
    exact h
  have h2 : c.toNat = 48 ∨ c.toNat = 49 ∨ c.toNat = 50 ∨ c.toNat = 51 ∨ c.toNat = 52 ∨ c.toNat = 53 ∨
    c.toNat = 54 ∨ c.toNat = 55 ∨ c.toNat = 56 ∨ c.toNat = 57 := by omega
  have h3 : ∀ d : Char, c.toNat = d.toNat → c = d := fun d h => Char.toNat_inj.1 h
  rcases h2 with h | h | h | h | h | h | h | h | h | h
  · exact .inl (h3 '0' h)
  · exact .inr (.inl (h3 '1' h))
  · exact .inr (.inr (.inl (h3 '2' h)))
  · exact .inr (.inr (.inr (.inl (h3 '3' h))))
  · exact .inr (.inr (.inr (.inr (.inl (h3 '4' h)))))
  · exact .inr (.inr (.inr (.inr (.inr (.inl (h3 '5' h))))))
  · exact .inr (.inr (.inr (.inr (.inr (.inr (.inl (h3 '6' h)))))))
  · exact .inr (.inr (.inr (.inr (.inr (.inr (.inr (.inl (h3 '7' h))))))))
  · exact .inr (.inr (.inr (.inr (.inr (.inr (.inr (.inr (.inl (h3 '8' h)))))))))
  · exact .inr (.inr (.inr (.inr (.inr (.inr (.inr (.inr (.inr (h3 '9' h)))))))))

theorem intChar_cases {c : Char} (h : IntChar c) :
    c ∈ ['0', '1', '2', '3', '4', '5', '6', '7', '8', '9', '-'] := by
  rcases h with h | rfl
  · rcases digit_cases h with rfl | rfl | rfl | rfl | rfl | rfl | rfl | rfl | rfl | rfl <;> decide
  · decide

/-- The inverse of `supChar`. -/
def subChar (c : Char) : Char :=
  if c = '⁰' then '0' else if c = '¹' then '1' else if c = '²' then '2' else if c = '³' then '3'
  else if c = '⁴' then '4' else if c = '⁵' then '5' else if c = '⁶' then '6' else if c = '⁷' then '7'
  else if c = '⁸' then '8' else if c = '⁹' then '9' else if c = '⁻' then '-' else ' '

/-- The characters of names. -/
def NameChar (c : Char) : Prop := c ∈ ['l', 'm', 't', 'T', 'I', 'ᵥ', 'o']

instance (c : Char) : Decidable (NameChar c) := inferInstanceAs (Decidable (_ ∈ _))

/-- The characters of exponents are neither those of names nor separators. -/
def ExpChar (c : Char) : Prop := ¬ NameChar c ∧ c ≠ '·' ∧ c ≠ ','

instance (c : Char) : Decidable (ExpChar c) := inferInstanceAs (Decidable (_ ∧ _))

theorem supChar_ok {c : Char} (h : IntChar c) :
    ∃ d, supChar c = .ok d ∧ subChar d = c ∧ ExpChar d ∧ d ≠ '^' := by
  have := intChar_cases h
  simp only [List.mem_cons, List.not_mem_nil, or_false] at this
  rcases this with rfl | rfl | rfl | rfl | rfl | rfl | rfl | rfl | rfl | rfl | rfl <;>
    exact ⟨_, rfl, by decide, by decide, by decide⟩

theorem supText_ok : ∀ {l : List Char}, (∀ c ∈ l, IntChar c) →
    ∃ t, supText l = .ok t ∧ t.map subChar = l ∧ (∀ c ∈ t, ExpChar c ∧ c ≠ '^')
  | [], _ => ⟨[], rfl, rfl, by simp⟩
  | c :: cs, h => by
      obtain ⟨d, h1, h2, h3⟩ := supChar_ok (h c (List.mem_cons_self ..))
      obtain ⟨t, h4, h5, h6⟩ := supText_ok fun c' hc => h c' (List.mem_cons_of_mem _ hc)
      refine ⟨d :: t, ?_, ?_, ?_⟩
      · rw [supText, h1, Res.ok_bind, h4]; rfl
      · rw [List.map_cons, h2, h5]
      · intro c' hc
        rcases List.mem_cons.1 hc with rfl | hc
        · exact h3
        · exact h6 c' hc

theorem intChar_exp {c : Char} (h : IntChar c) : ExpChar c ∧ c ≠ '/' ∧ c ≠ ')' := by
  have := intChar_cases h
  simp only [List.mem_cons, List.not_mem_nil, or_false] at this
  rcases this with rfl | rfl | rfl | rfl | rfl | rfl | rfl | rfl | rfl | rfl | rfl <;> decide

theorem intText_ne_nil (n : Int) : intText n ≠ [] := by
  unfold intText
  split
  · simp
  · exact Nat.toDigits_ne_nil

/-- Two texts up to a separator: equal before and behind it. -/
theorem split_eq {p : Char → Prop} [DecidablePred p] {a b x y : List Char} (ha : ∀ c ∈ a, p c)
    (hb : ∀ c ∈ b, p c) (hx : ∀ c ∈ x.head?, ¬ p c) (hy : ∀ c ∈ y.head?, ¬ p c) (h : a ++ x = b ++ y) :
    a = b ∧ x = y := by
  have key : ∀ {a x : List Char}, (∀ c ∈ a, p c) → (∀ c ∈ x.head?, ¬ p c) →
      (a ++ x).takeWhile (fun c => decide (p c)) = a := by
    intro a x ha hx
    rw [List.takeWhile_append_of_pos (by simpa using ha)]
    cases x with
    | nil => simp
    | cons c x => rw [List.takeWhile_cons_of_neg (by simpa using hx c (by simp))]; simp
  have : a = b := by rw [← key ha hx, h, key hb hy]
  subst this
  exact ⟨rfl, List.append_cancel_left h⟩

theorem exp_text (e : UnitExponent) : ∃ t, e.text = .ok t ∧ ∀ c ∈ t, ExpChar c := by
  unfold UnitExponent.text
  split
  · split
    · obtain ⟨t, h1, _, h3⟩ := supText_ok (l := intText e.num) fun c h => intText_char h
      exact ⟨t, h1, fun c hc => (h3 c hc).1⟩
    · exact ⟨[], rfl, by simp⟩
  · refine ⟨_, rfl, ?_⟩
    intro c hc
    simp only [List.mem_append, List.mem_cons, List.not_mem_nil, or_false] at hc
    rcases hc with ((((rfl | rfl) | hc) | rfl) | hc) | rfl
    · decide
    · decide
    · exact (intChar_exp (intText_char hc)).1
    · decide
    · exact (intChar_exp (intText_char hc)).1
    · decide

theorem exp_text_injective {e f : UnitExponent} (h : e.text = f.text) : e = f := by
  obtain ⟨t, h1, h2, h3⟩ := supText_ok (l := intText e.num) fun c h => intText_char h
  obtain ⟨t', h1', h2', h3'⟩ := supText_ok (l := intText f.num) fun c h => intText_char h
  have hne : t ≠ [] := fun h0 => intText_ne_nil e.num (by rw [← h2, h0]; rfl)
  have hne' : t' ≠ [] := fun h0 => intText_ne_nil f.num (by rw [← h2', h0]; rfl)
  have hc : ∀ {r}, t ≠ '^' :: r := fun h0 => (h3 '^' (by rw [h0]; simp)).2 rfl
  have hc' : ∀ {r}, t' ≠ '^' :: r := fun h0 => (h3' '^' (by rw [h0]; simp)).2 rfl
  obtain ⟨n, d⟩ := e
  obtain ⟨n', d'⟩ := f
  unfold UnitExponent.text at h
  simp only at h h1 h1' h2 h2'
  rw [h1, h1'] at h
  by_cases hd : d = 1 <;> by_cases hd' : d' = 1
  · rw [if_pos hd, if_pos hd'] at h
    by_cases hn : n = 1 <;> by_cases hn' : n' = 1
    · rw [hn, hn', hd, hd']
    · rw [if_neg (by simp [hn]), if_pos hn'] at h
      exact absurd (Res.ok.inj h).symm hne'
    · rw [if_pos hn, if_neg (by simp [hn'])] at h
      exact absurd (Res.ok.inj h) hne
    · rw [if_pos hn, if_pos hn'] at h
      have : t = t' := Res.ok.inj h
      subst this
      rw [intText_injective (h2.symm.trans h2'), hd, hd']
  · rw [if_pos hd, if_neg hd'] at h
    by_cases hn : n = 1
    · rw [if_neg (by simp [hn])] at h
      exact absurd (Res.ok.inj h) (by simp)
    · rw [if_pos hn] at h
      exact absurd (Res.ok.inj h) hc
  · rw [if_neg hd, if_pos hd'] at h
    by_cases hn : n' = 1
    · rw [if_neg (c := n' ≠ 1) (by simp [hn])] at h
      exact absurd (Res.ok.inj h) (by simp)
    · rw [if_pos hn] at h
      exact absurd (Res.ok.inj h).symm hc'
  · rw [if_neg hd, if_neg hd'] at h
    have h' := Res.ok.inj h
    simp only [List.append_assoc, List.cons_append, List.nil_append, List.cons.injEq, true_and] at h'
    have hi : ∀ k : Int, ∀ c ∈ intText k, c ≠ '/' ∧ c ≠ ')' := fun k c hc => (intChar_exp (intText_char hc)).2
    obtain ⟨h4, h5⟩ := split_eq (p := fun c => c ≠ '/' ∧ c ≠ ')') (hi n) (hi n') (by simp) (by simp) h'
    obtain ⟨h6, _⟩ := split_eq (p := fun c => c ≠ '/' ∧ c ≠ ')') (hi d) (hi d') (by simp) (by simp)
      (List.cons.inj h5).2
    rw [intText_injective h4, intText_injective h6]

/-- Names as the code has them. -/
def NamesOk (ns : List (List Char)) : Prop := ns.Nodup ∧ ∀ n ∈ ns, n ≠ [] ∧ ∀ c ∈ n, NameChar c

/-- What stands before a factor. -/
def sep (first : Bool) : List Char := if first then [] else ['·']

theorem textLoop_ok : ∀ (first : Bool) (ns : List (List Char)) (es : List UnitExponent),
    ∃ r, textLoop first ns es = .ok r
  | first, n :: ns, e :: es => by
      rw [textLoop]
      split
      · obtain ⟨t, ht, _⟩ := exp_text e
        obtain ⟨r, hr⟩ := textLoop_ok false ns es
        exact ⟨_, by rw [ht, Res.ok_bind, hr]; rfl⟩
      · exact textLoop_ok first ns es
  | first, [], [] => ⟨_, rfl⟩
  | first, [], _ :: _ => ⟨_, rfl⟩
  | first, _ :: _, [] => ⟨_, rfl⟩

theorem textLoop_zero : ∀ {first : Bool} {ns : List (List Char)} {es : List UnitExponent},
    (∀ e ∈ es, e.num = 0) → textLoop first ns es = .ok ([], first)
  | first, n :: ns, e :: es, h => by
      rw [textLoop, if_neg (by simp [h e (List.mem_cons_self ..)])]
      exact textLoop_zero fun e he => h e (List.mem_cons_of_mem _ he)
  | first, [], [], _ => rfl
  | first, [], _ :: _, _ => rfl
  | first, _ :: _, [], _ => rfl

/-- The text of the loop is empty, or starts with one of the names. -/
theorem textLoop_shape : ∀ {first : Bool} {ns : List (List Char)} {es : List UnitExponent}
    {r : List Char × Bool}, ns.length = es.length → textLoop first ns es = .ok r →
    (r = ([], first) ∧ ∀ e ∈ es, e.num = 0) ∨
    (r.2 = false ∧ (∃ e ∈ es, e.num ≠ 0) ∧
      ∃ n ∈ ns, ∃ y, r.1 = sep first ++ (n ++ y) ∧ ∀ c ∈ y.head?, ¬ NameChar c)
  | first, n :: ns, e :: es, r, hl, h => by
      rw [textLoop] at h
      have hl' : ns.length = es.length := by simpa using hl
      by_cases he : e.num = 0
      · rw [if_neg (by simp [he])] at h
        rcases textLoop_shape hl' h with ⟨h1, h2⟩ | ⟨h1, ⟨e', he', hn'⟩, n', hn, y, h3⟩
        · refine .inl ⟨h1, ?_⟩
          intro e' he'
          rcases List.mem_cons.1 he' with rfl | he'
          · exact he
          · exact h2 e' he'
        · exact .inr ⟨h1, ⟨e', List.mem_cons_of_mem _ he', hn'⟩, n', List.mem_cons_of_mem _ hn, y, h3⟩
      · obtain ⟨t, ht, hc⟩ := exp_text e
        obtain ⟨r', hr'⟩ := textLoop_ok false ns es
        rw [if_pos he, ht, Res.ok_bind, hr', Res.ok_bind] at h
        have h' := Res.ok.inj h
        subst h'
        have hf : r'.2 = false := by
          rcases textLoop_shape hl' hr' with ⟨h1, _⟩ | ⟨h1, _⟩
          · rw [h1]
          · exact h1
        refine .inr ⟨hf, ⟨e, List.mem_cons_self .., he⟩, n, List.mem_cons_self .., t ++ r'.1, rfl, ?_⟩
        intro c hc'
        cases t with
        | cons d t =>
            simp only [List.cons_append, List.head?_cons, Option.mem_some_iff] at hc'
            subst hc'
            exact (hc d (List.mem_cons_self ..)).1
        | nil =>
            rcases textLoop_shape hl' hr' with ⟨h1, _⟩ | ⟨_, _, n', _, y, h2, _⟩
            · simp [h1] at hc'
            · rw [h2] at hc'
              simp [sep] at hc'
              subst hc'
              decide
  | first, [], [], r, _, h => by
      rw [textLoop] at h
      · exact .inl ⟨(Res.ok.inj h).symm, by simp⟩
      · simp

/-- The end of a text: nothing, or a comma and more. -/
def Ending (x : List Char) : Prop := ∀ c ∈ x.head?, c = ','

/-- What follows the name and exponent of a factor does not go on with an exponent. -/
theorem rest_head {ns : List (List Char)} {es : List UnitExponent} {r : List Char × Bool}
    (hl : ns.length = es.length) (h : textLoop false ns es = .ok r) {x : List Char} (hx : Ending x) :
    ∀ c ∈ (r.1 ++ x).head?, c = '·' ∨ c = ',' := by
  intro c hc
  rcases textLoop_shape hl h with ⟨h1, _⟩ | ⟨_, _, n', _, y, h2, _⟩
  · rw [h1] at hc
    exact .inr (hx c hc)
  · rw [h2] at hc
    simp [sep] at hc
    exact .inl hc.symm

theorem head_append {y x : List Char} {p : Char → Prop} (hy : ∀ c ∈ y.head?, p c) (hx : ∀ c ∈ x.head?, p c) :
    ∀ c ∈ (y ++ x).head?, p c := by
  cases y with
  | nil => exact hx
  | cons d y => exact hy

/-- One text with a factor named `n` cannot be one without. -/
theorem other_name {first : Bool} {n : List Char} {ns : List (List Char)} (hn : NamesOk (n :: ns))
    {es : List UnitExponent} {r : List Char × Bool} (hl : ns.length = es.length)
    (h : textLoop first ns es = .ok r) {x : List Char} (hx : Ending x) {y : List Char}
    (hy : ∀ c ∈ y.head?, ¬ NameChar c) : r.1 ++ x ≠ sep first ++ (n ++ y) := by
  intro heq
  obtain ⟨hn1, hn2⟩ := hn.2 n (List.mem_cons_self ..)
  rcases textLoop_shape hl h with ⟨h1, _⟩ | ⟨_, _, n', hn', y', h2, h3⟩
  · rw [h1] at heq
    have hx' : x = sep first ++ (n ++ y) := heq
    obtain ⟨c, n, rfl⟩ := List.exists_cons_of_ne_nil hn1
    cases first with
    | true =>
        have hc := hn2 c (List.mem_cons_self ..)
        rw [hx c (by rw [hx']; rfl)] at hc
        exact absurd hc (by decide)
    | false =>
        have := hx '·' (by rw [hx']; rfl)
        exact absurd this (by decide)
  · rw [h2, List.append_assoc, List.append_assoc] at heq
    have hnx : ∀ c ∈ x.head?, ¬ NameChar c := by
      intro c hc
      rw [hx c hc]
      decide
    have := split_eq (p := NameChar) (hn.2 n' (List.mem_cons_of_mem _ hn')).2 hn2 (head_append h3 hnx) hy
      (List.append_cancel_left heq)
    exact (List.nodup_cons.1 hn.1).1 (this.1 ▸ hn')

/-- The text of the loop determines the exponents and what follows. -/
theorem textLoop_injective : ∀ {first : Bool} {ns : List (List Char)} {es fs : List UnitExponent}
    {r r' : List Char × Bool} {x x' : List Char}, NamesOk ns → ns.length = es.length →
    ns.length = fs.length → (∀ e ∈ es, e.Reduced) → (∀ e ∈ fs, e.Reduced) → Ending x → Ending x' →
    textLoop first ns es = .ok r → textLoop first ns fs = .ok r' → r.1 ++ x = r'.1 ++ x' → es = fs ∧ x = x'
  | first, n :: ns, e :: es, f :: fs, r, r', x, x', hn, hl, hl', he, hf, hx, hx', h, h', heq => by
      have hl1 : ns.length = es.length := by simpa using hl
      have hl2 : ns.length = fs.length := by simpa using hl'
      have hn1 : NamesOk ns := ⟨(List.nodup_cons.1 hn.1).2, fun m hm => hn.2 m (List.mem_cons_of_mem _ hm)⟩
      have he1 : ∀ e ∈ es, e.Reduced := fun e h => he e (List.mem_cons_of_mem _ h)
      have hf1 : ∀ e ∈ fs, e.Reduced := fun e h => hf e (List.mem_cons_of_mem _ h)
      have hzero : ∀ {e : UnitExponent}, e.Reduced → e.num = 0 → e = ⟨0, 1⟩ := by
        intro e hr h0
        have h1 := hr.coprime
        rw [h0, Int.natAbs_zero, Nat.coprime_zero_left] at h1
        have := hr.pos
        have : e.den = 1 := by omega
        cases e
        simp_all
      -- the text of a factor and what follows
      have hfac : ∀ {e : UnitExponent} {es : List UnitExponent} {r : List Char × Bool} {x : List Char},
          ns.length = es.length → Ending x → e.num ≠ 0 → textLoop first (n :: ns) (e :: es) = .ok r →
          ∃ t r1, e.text = .ok t ∧ (∀ c ∈ t, ExpChar c) ∧ textLoop false ns es = .ok r1 ∧
            r.1 ++ x = sep first ++ (n ++ (t ++ (r1.1 ++ x))) ∧
            (∀ c ∈ (r1.1 ++ x).head?, ¬ ExpChar c) ∧ (∀ c ∈ (t ++ (r1.1 ++ x)).head?, ¬ NameChar c) := by
        intro e es r x hl hx h0 h
        obtain ⟨t, ht, hc⟩ := exp_text e
        obtain ⟨r1, hr1⟩ := textLoop_ok false ns es
        rw [textLoop, if_pos h0, ht, Res.ok_bind, hr1, Res.ok_bind] at h
        have h' := Res.ok.inj h
        subst h'
        have hh := rest_head hl hr1 hx
        refine ⟨t, r1, ht, hc, hr1, ?_, ?_, ?_⟩
        · simp [sep]
        · intro c hc
          rcases hh c hc with rfl | rfl <;> decide
        · apply head_append
          · intro c hc'
            exact (hc c (List.mem_of_mem_head? hc')).1
          · intro c hc
            rcases hh c hc with rfl | rfl <;> decide
      by_cases h0 : e.num = 0 <;> by_cases h0' : f.num = 0
      · rw [textLoop, if_neg (by simp [h0])] at h
        rw [textLoop, if_neg (by simp [h0'])] at h'
        obtain ⟨h1, h2⟩ := textLoop_injective hn1 hl1 hl2 he1 hf1 hx hx' h h' heq
        rw [h1, hzero (he e (List.mem_cons_self ..)) h0, hzero (hf f (List.mem_cons_self ..)) h0']
        exact ⟨rfl, h2⟩
      · obtain ⟨t, r1, _, _, _, h3, _, h4⟩ := hfac hl2 hx' h0' h'
        rw [textLoop, if_neg (by simp [h0])] at h
        exact absurd (heq.trans h3) (other_name hn hl1 h hx h4)
      · obtain ⟨t, r1, _, _, _, h3, _, h4⟩ := hfac hl1 hx h0 h
        rw [textLoop, if_neg (by simp [h0'])] at h'
        exact absurd (heq.symm.trans h3) (other_name hn hl2 h' hx' h4)
      · obtain ⟨t, r1, h1, h2, h3, h4, h5, h6⟩ := hfac hl1 hx h0 h
        obtain ⟨t', r1', h1', h2', h3', h4', h5', h6'⟩ := hfac hl2 hx' h0' h'
        rw [h4, h4'] at heq
        have h7 := List.append_cancel_left (List.append_cancel_left heq)
        obtain ⟨rfl, h8⟩ := split_eq (p := ExpChar) h2 h2' h5 h5' h7
        obtain ⟨h9, h10⟩ := textLoop_injective hn1 hl1 hl2 he1 hf1 hx hx' h3 h3' h8
        rw [h9, exp_text_injective (h1.trans h1'.symm)]
        exact ⟨rfl, h10⟩
  | first, [], [], [], r, r', x, x', _, _, _, _, _, _, _, h, h', heq => by
      rw [textLoop] at h h'
      · rw [← Res.ok.inj h, ← Res.ok.inj h'] at heq
        exact ⟨rfl, heq⟩
      all_goals simp

end Verif.Units
