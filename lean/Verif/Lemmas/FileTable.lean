import Verif.Lemmas.FileSession
/-
Lemmas about the table that describes a file.
-/
namespace Verif
open Verif.NetCDF

theorem Table.read_filled {V : Type} {known : List String} {frame fr : Int} {val : String → V} :
    ∀ (names : List String) (t : Table V), (∀ n ∈ names, n ∈ known) → meantFrame t.nb frame = some fr →
    (∀ n ∈ names, t.cell fr n = some (val n)) → ∃ cur', t.read known frame names = (true, { t with cur := cur' }) ∧
      (∀ n ∈ names, cur' n = val n) ∧ ∀ n, t.cur n = val n → cur' n = val n
  | [], t, _, _, _ => ⟨t.cur, rfl, by simp, fun _ h => h⟩
  | n :: ns, t, hk, hm, hv => by
    obtain ⟨cur', h1, h2, h3⟩ := Table.read_filled ns (t.set n (val n)) (fun m hm' => hk m (by simp [hm'])) hm
      fun m hm' => hv m (by simp [hm'])
    refine ⟨cur', ?_, ?_, fun m hm' => h3 m ?_⟩
    · rw [Table.read, if_pos (hk n (by simp)), hm]
      dsimp only
      rw [hv n (by simp)]
      exact h1
    · intro m hm'
      rcases List.mem_cons.1 hm' with rfl | hm'
      · exact h3 m (by simp [Table.set])
      · exact h2 m hm'
    · simp only [Table.set]
      split
      · next h => rw [h]
      · exact hm'

/-- Frames that have values are below the number of frames. -/
def Table.Below {V : Type} (t : Table V) : Prop := 0 ≤ t.nb ∧ ∀ fr n v, t.cell fr n = some v → fr < t.nb

theorem Table.write_below {V : Type} {known : List String} {frame : Int} : ∀ (names : List String) (t : Table V),
    t.Below → (t.write known frame names).2.Below
  | [], _, h => h
  | n :: ns, t, h => by
    rw [Table.write]
    split
    · cases hm : meantFrame t.nb frame with
      | none => exact h
      | some fr =>
        refine Table.write_below ns _ ⟨h.1, ?_⟩
        intro f m v hv
        simp only [Table.put] at hv ⊢
        split at hv
        · next he =>
          have := (Props.meantFrame_some h.1 hm).2
          omega
        · exact h.2 _ _ _ hv
    · exact h

theorem Table.read_below {V : Type} {known : List String} {frame : Int} : ∀ (names : List String) (t : Table V),
    t.Below → (t.read known frame names).2.Below
  | [], _, h => h
  | n :: ns, t, h => by
    rw [Table.read]
    split
    · cases hm : meantFrame t.nb frame with
      | none => exact h
      | some fr =>
        dsimp only
        cases hc : t.cell fr n with
        | none => exact h
        | some v => exact Table.read_below ns _ h
    · exact h

theorem Table.run_below {V : Type} {known : List String} : ∀ (ops : List (FileOp (String → V))) (t : Table V),
    t.Below → (t.run known ops).2.Below
  | [], _, h => h
  | op :: ops, t, h => by
    rw [Table.run]
    refine Table.run_below ops _ ?_
    cases op with
    | appendFrame =>
      refine ⟨by have := h.1; simp only [Table.step]; omega, fun fr n v hv => ?_⟩
      have := h.2 fr n v hv
      simp only [Table.step]
      omega
    | write frame names => exact Table.write_below names t h
    | writeAll frame => exact Table.write_below known t h
    | read frame names => exact Table.read_below names t h
    | readAll frame => exact Table.read_below known t h
    | compute c => exact h

end Verif
