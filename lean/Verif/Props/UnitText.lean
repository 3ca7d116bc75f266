import Verif.Lemmas.UnitText
import Verif.Props.Units
/-
Properties of the text of units: C59.
-/
namespace Verif.Props
open Verif Verif.Units

/-- Printing a unit never raises an error: the branch for unknown characters in `superscript` is not
reached. -/
theorem C59_total (u : MUnit) : ∃ s, u.text = .ok s := by
  obtain ⟨r, hr⟩ := textLoop_ok true unitNames u.units
  unfold MUnit.text
  rw [hr, Res.ok_bind]
  by_cases ht : u.tag = 0 <;> cases hf : r.2 <;> simp [ht, hf]

/-- The full statement: different units have different texts. -/
def C59_statement : Prop := ∀ u v : MUnit, Proper u → Proper v → u.text = v.text → u = v

/-- **C59** is false: the text of every dimensionless unit with a tag is empty. -/
theorem C59_false : ¬ C59_statement := by
  intro h
  have := h (MUnit.unitless 1) (MUnit.unitless 2) (unitless_proper 1) (unitless_proper 2) (by decide +kernel)
  exact absurd this (by decide)

theorem names_ok : NamesOk unitNames := by
  refine ⟨by decide, ?_⟩
  intro n hn
  simp only [unitNames, List.mem_cons, List.not_mem_nil, or_false] at hn
  rcases hn with rfl | rfl | rfl | rfl | rfl | rfl | rfl <;> exact ⟨by decide, by decide⟩

/-- The text after the exponents, if there are any. -/
def tagText (tag : Int) : List Char :=
  if tag = 0 then [] else [',', ' ', 't', 'a', 'g', '('] ++ intText tag ++ [')']

theorem tagText_ending (tag : Int) : Ending (tagText tag) := by
  intro c hc
  unfold tagText at hc
  split at hc
  · simp at hc
  · simpa using hc.symm

theorem tagText_injective {s t : Int} (h : tagText s = tagText t) : s = t := by
  unfold tagText at h
  by_cases h0 : s = 0 <;> by_cases h1 : t = 0
  · rw [h0, h1]
  · rw [if_pos h0, if_neg h1] at h; simp at h
  · rw [if_neg h0, if_pos h1] at h; simp at h
  · rw [if_neg h0, if_neg h1, List.append_assoc, List.append_assoc] at h
    exact intText_injective (List.append_cancel_right (List.append_cancel_left h))

/-- A unit without dimension. -/
def Dimensionless (u : MUnit) : Prop := ∀ e ∈ u.units, e.num = 0

/-- The text of a unit with a dimension is the text of the loop and that of the tag; it starts with a letter
of the names. -/
theorem text_dim {u : MUnit} (hu : Proper u) (hd : ¬ Dimensionless u) :
    ∃ r, textLoop true unitNames u.units = .ok r ∧ u.text = .ok (r.1 ++ tagText u.tag) ∧
      ∃ c ∈ r.1.head?, NameChar c := by
  obtain ⟨r, hr⟩ := textLoop_ok true unitNames u.units
  rcases textLoop_shape (ns := unitNames) (es := u.units) hu.length.symm hr with ⟨_, h⟩ | ⟨h1, _, n, hn, y, h3, _⟩
  · exact absurd h hd
  · refine ⟨r, hr, ?_, ?_⟩
    · unfold MUnit.text
      rw [hr, Res.ok_bind]
      by_cases ht : u.tag = 0 <;> simp [ht, h1, tagText]
    · obtain ⟨hne, hc⟩ := names_ok.2 n hn
      obtain ⟨c, n', rfl⟩ := List.exists_cons_of_ne_nil hne
      exact ⟨c, by rw [h3]; rfl, hc c (List.mem_cons_self ..)⟩

theorem text_nodim {u : MUnit} (hd : Dimensionless u) :
    u.text = .ok (if u.tag = 0 then "no unit provided".toList else []) := by
  unfold MUnit.text
  rw [textLoop_zero hd, Res.ok_bind]
  by_cases ht : u.tag = 0 <;> simp [ht]

theorem dim_nodim {u v : MUnit} (hu : Proper u) (hd : ¬ Dimensionless u) (hd' : Dimensionless v) :
    u.text ≠ v.text := by
  intro h
  obtain ⟨r, _, h2, c, hc, hn⟩ := text_dim hu hd
  rw [h2, text_nodim hd'] at h
  have h' := Res.ok.inj h
  have hm : c ∈ (r.1 ++ tagText u.tag).head? := by
    cases hr : r.1 with
    | nil => rw [hr] at hc; simp at hc
    | cons d l => rw [hr] at hc; exact hc
  rw [h'] at hm
  split at hm
  · simp at hm
    subst hm
    exact absurd hn (by decide)
  · simp at hm

theorem nodim_units {u : MUnit} (hu : Proper u) (hd : Dimensionless u) :
    u.units = List.replicate 7 ⟨0, 1⟩ := by
  rw [List.eq_replicate_iff]
  refine ⟨hu.length, ?_⟩
  intro e he
  have hr := C25_reduced (hu.computed e he)
  have h1 := hr.coprime
  rw [hd e he, Int.natAbs_zero, Nat.coprime_zero_left] at h1
  have := hr.pos
  have h2 : e.den = 1 := by omega
  have h3 := hd e he
  cases e
  simp_all

/-- **C59** (what holds) Two units that programs can build have the same text exactly if they are equal, or if
both are without dimension and have tags. -/
theorem C59_text_partial {u v : MUnit} (hu : Proper u) (hv : Proper v) :
    u.text = v.text ↔ u = v ∨ (Dimensionless u ∧ Dimensionless v ∧ u.tag ≠ 0 ∧ v.tag ≠ 0) := by
  constructor
  · intro h
    by_cases hd : Dimensionless u <;> by_cases hd' : Dimensionless v
    · by_cases h1 : u.tag = 0 <;> by_cases h2 : v.tag = 0
      · left
        cases u; cases v
        have := nodim_units hu hd
        have := nodim_units hv hd'
        simp_all
      · rw [text_nodim hd, text_nodim hd', if_pos h1, if_neg h2] at h
        exact absurd (Res.ok.inj h) (by simp)
      · rw [text_nodim hd, text_nodim hd', if_neg h1, if_pos h2] at h
        exact absurd (Res.ok.inj h) (by simp)
      · exact .inr ⟨hd, hd', h1, h2⟩
    · exact absurd h.symm (dim_nodim hv hd' hd)
    · exact absurd h (dim_nodim hu hd hd')
    · left
      obtain ⟨r, h1, h2, _⟩ := text_dim hu hd
      obtain ⟨r', h1', h2', _⟩ := text_dim hv hd'
      rw [h2, h2'] at h
      obtain ⟨h3, h4⟩ := textLoop_injective names_ok hu.length.symm hv.length.symm
        (fun e he => C25_reduced (hu.computed e he)) (fun e he => C25_reduced (hv.computed e he))
        (tagText_ending _) (tagText_ending _) h1 h1' (Res.ok.inj h)
      cases u; cases v
      simp only [MUnit.mk.injEq]
      exact ⟨h3, tagText_injective h4⟩
  · rintro (rfl | ⟨hd, hd', h1, h2⟩)
    · rfl
    · rw [text_nodim hd, text_nodim hd', if_neg h1, if_neg h2]

/-- The unit of acceleration with the tag 3, and that with the square root of the time. -/
def exAccel : MUnit := ⟨[⟨1, 1⟩, ⟨0, 1⟩, ⟨-2, 1⟩, ⟨0, 1⟩, ⟨0, 1⟩, ⟨0, 1⟩, ⟨0, 1⟩], 3⟩
def exRootTime : MUnit := ⟨[⟨1, 1⟩, ⟨0, 1⟩, ⟨-1, 2⟩, ⟨0, 1⟩, ⟨0, 1⟩, ⟨0, 1⟩, ⟨0, 1⟩], 3⟩

example : exAccel.text = .ok "l·t⁻², tag(3)".toList ∧ exRootTime.text = .ok "l·t^(-1/2), tag(3)".toList := by
  decide +kernel

theorem exAccel_proper : Proper exAccel := by
  refine ⟨rfl, ?_⟩
  intro e he
  simp only [exAccel, List.mem_cons, List.not_mem_nil, or_false] at he
  rcases he with rfl | rfl | rfl | rfl | rfl | rfl | rfl
  all_goals first
    | exact zero_computed
    | exact .mk (n := 1) (d := 1) (by decide) (by decide) (by decide +kernel)
    | exact .mk (n := -2) (d := 1) (by decide) (by decide) (by decide +kernel)

theorem exRootTime_proper : Proper exRootTime := by
  refine ⟨rfl, ?_⟩
  intro e he
  simp only [exRootTime, List.mem_cons, List.not_mem_nil, or_false] at he
  rcases he with rfl | rfl | rfl | rfl | rfl | rfl | rfl
  all_goals first
    | exact zero_computed
    | exact .mk (n := 1) (d := 1) (by decide) (by decide) (by decide +kernel)
    | exact .mk (n := -1) (d := 2) (by decide) (by decide) (by decide +kernel)

example : exAccel.text ≠ exRootTime.text := by
  rw [Ne, C59_text_partial exAccel_proper exRootTime_proper]
  rintro (h | ⟨h, _⟩)
  · exact absurd h (by decide)
  · exact absurd (h ⟨1, 1⟩ (List.mem_cons_self ..)) (by decide)

end Verif.Props
