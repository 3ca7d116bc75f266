import Verif.Model.NetCDFState
import Verif.Lemmas.NetCDF
import Verif.Lemmas.NetCDFLocal
import Verif.Lemmas.StateField
/-
Helper lemmas for state fields in files.
-/
namespace Verif.NetCDF
open Verif Verif.RawMemory Verif.Collection

variable {α : Type}

theorem writeRanks_global (nb frame : Int) (k : Nat) (ws : List (Var × List Int × Mem α))
    (h : ∀ w ∈ ws, w.1.field.isGlobal = true) (fv : FileVar α) :
    Var.writeRanks nb frame k ws fv = Var.writeAll nb frame k (ws.map fun w => (w.1, w.2.2)) fv := by
  induction ws generalizing fv with
  | nil => rfl
  | cons w ws ih =>
    obtain ⟨v, marks, buf⟩ := w
    rw [Var.writeRanks, List.map_cons, Var.writeAll, Var.write, if_pos (h (v, marks, buf) (by simp))]
    congr 1
    funext fv'
    exact ih (fun w hw => h w (by simp [hw])) fv'

theorem writeRanks_local (nb frame : Int) (k : Nat) (ws : List (Var × List Int × Mem α))
    (h : ∀ w ∈ ws, w.1.field.isGlobal = false) (fv : FileVar α) :
    Var.writeRanks nb frame k ws fv = Var.writeAllLocal nb frame k ws fv := by
  induction ws generalizing fv with
  | nil => rfl
  | cons w ws ih =>
    obtain ⟨v, marks, buf⟩ := w
    rw [Var.writeRanks, Var.writeAllLocal, Var.write, if_neg (by simpa using h (v, marks, buf) (by simp))]
    congr 1
    funext fv'
    exact ih (fun w hw => h w (by simp [hw])) fv'

theorem mapRes_ok {β γ : Type} (g : β → Res γ) (g' : β → γ) (l : List β) (h : ∀ x ∈ l, g x = .ok (g' x)) :
    mapRes g l = .ok (l.map g') := by
  induction l with
  | nil => rfl
  | cons x xs ih =>
    rw [mapRes, h x (by simp), Res.ok_bind, ih fun y hy => h y (by simp [hy]), Res.ok_bind]
    rfl

theorem mapRes_of_map {β γ δ : Type} (g : γ → Res δ) (h : β → γ) (l : List β) :
    mapRes g (l.map h) = mapRes (fun x => g (h x)) l := by
  induction l with
  | nil => rfl
  | cons x xs ih => rw [List.map_cons, mapRes, mapRes, ih]

/-- Writing the entries of the history one after the other: step `k` makes `C k` true, which depends on
the places `P k` only. -/
theorem histLoop_write {S : Form} {step : Nat → FileVar α → Res (FileVar α)} (ks : List Nat)
    (hnd : ks.Nodup) (P : Nat → List Int → Prop) (C : Nat → (List Int → α) → Prop)
    (hstep : ∀ k ∈ ks, ∀ fv, fv.form = S → ∃ fv', step k fv = .ok fv' ∧ fv'.form = S ∧
      C k fv'.data ∧ ∀ y, ¬ P k y → fv'.data y = fv.data y)
    (hC : ∀ k ∈ ks, ∀ d d', C k d → (∀ y, P k y → d' y = d y) → C k d')
    (hdis : ∀ k ∈ ks, ∀ k' ∈ ks, ∀ y, P k y → P k' y → k = k') (fv : FileVar α) (hs : fv.form = S) :
    ∃ fv', histLoop step ks fv = .ok fv' ∧ fv'.form = S ∧ (∀ k ∈ ks, C k fv'.data) ∧
      ∀ y, (∀ k ∈ ks, ¬ P k y) → fv'.data y = fv.data y := by
  induction ks generalizing fv with
  | nil => exact ⟨fv, rfl, hs, by simp, fun _ _ => rfl⟩
  | cons k ks ih =>
    rw [List.nodup_cons] at hnd
    obtain ⟨fv1, h1, h2, h3, h4⟩ := hstep k (by simp) fv hs
    obtain ⟨fv2, e1, e2, e3, e4⟩ := ih hnd.2 (fun k' h => hstep k' (by simp [h]))
      (fun k' h => hC k' (by simp [h])) (fun a ha b hb => hdis a (by simp [ha]) b (by simp [hb])) fv1 h2
    refine ⟨fv2, by rw [histLoop, h1, Res.ok_bind, e1], e2, ?_, ?_⟩
    · intro k' hk'
      rcases List.mem_cons.1 hk' with rfl | hk'
      · refine hC k' (by simp) _ _ h3 fun y hy => e4 y ?_
        intro k2 hk2 hy2
        exact hnd.1 (hdis k' (by simp) k2 (by simp [hk2]) y hy hy2 ▸ hk2)
      · exact e3 k' hk'
    · intro y hy
      rw [e4 y fun k' h => hy k' (by simp [h]), h4 y (hy k (by simp))]

/-- Reading the entries of the history one after the other: `Q k` says that a memory has the values of
entry `k`.  Entries in the same place must have the same values. -/
theorem histLoop_read {idx : List Nat} {rd : Nat → Mem α → Res (Mem α)} (ks : List Nat)
    (H : Mem α → Prop) (Q : Nat → Mem α → Prop)
    (hstep : ∀ k ∈ ks, ∀ b, H b → ∃ b', rd k b = .ok b' ∧ Q k b' ∧ H b')
    (hsame : ∀ k k', k < idx.length → k' < idx.length → idx[k]? = idx[k']? → ∀ b, Q k b → Q k' b)
    (hk : ∀ k ∈ ks, k < idx.length) (bufs : List (Mem α)) (hidx : ∀ j ∈ idx, j < bufs.length)
    (hH : ∀ b ∈ bufs, H b) :
    ∃ bufs', histLoop (fun k bufs => do
        let j ← stateSlot idx k
        let b ← at! bufs j
        let b' ← rd k b
        pure (bufs.set j b')) ks bufs = .ok bufs' ∧ bufs'.length = bufs.length ∧ (∀ b ∈ bufs', H b) ∧
      (∀ k, k < idx.length → (k ∈ ks ∨ ∀ j b, idx[k]? = some j → bufs[j]? = some b → Q k b) →
        ∃ j b, idx[k]? = some j ∧ bufs'[j]? = some b ∧ Q k b) ∧
      ∀ j, (∀ k ∈ ks, idx[k]? ≠ some j) → bufs'[j]? = bufs[j]? := by
  induction ks generalizing bufs with
  | nil =>
    refine ⟨bufs, rfl, rfl, hH, ?_, fun _ _ => rfl⟩
    intro k hkl h
    have h1 : idx[k]? = some idx[k] := List.getElem?_eq_getElem hkl
    have h2 := hidx idx[k] (List.getElem_mem hkl)
    have h3 : bufs[idx[k]]? = some bufs[idx[k]] := List.getElem?_eq_getElem h2
    exact ⟨_, _, h1, h3, (h.resolve_left (by simp)) _ _ h1 h3⟩
  | cons k ks ih =>
    have hkl := hk k (by simp)
    have h1 : idx[k]? = some idx[k] := List.getElem?_eq_getElem hkl
    have h2 := hidx idx[k] (List.getElem_mem hkl)
    obtain ⟨b', e1, e2, e3⟩ := hstep k (by simp) bufs[idx[k]] (hH _ (List.getElem_mem h2))
    obtain ⟨bufs', d1, d2, d3, d4, d5⟩ := ih (fun k' h => hstep k' (by simp [h])) (fun k' h => hk k' (by simp [h]))
      (bufs.set idx[k] b') (by simpa using hidx) (by
        intro b hb
        rcases List.mem_or_eq_of_mem_set hb with hb | rfl
        · exact hH b hb
        · exact e3)
    refine ⟨bufs', ?_, by simpa using d2, d3, ?_, ?_⟩
    · rw [histLoop]
      simp only [stateSlot, h1, Res.ok_bind, at!_eq_ok h2, e1, Res.pure_eq]
      rw [← d1]
      rfl
    · intro k' hk'l h
      apply d4 k' hk'l
      by_cases hk' : k' ∈ ks
      · exact Or.inl hk'
      · right
        intro j b hj hb
        by_cases hji : j = idx[k]
        · subst hji
          rw [List.getElem?_set_self h2] at hb
          cases hb
          exact hsame k k' hkl hk'l (h1.trans hj.symm) b' e2
        · rw [List.getElem?_set_ne (Ne.symm hji)] at hb
          rcases h with h | h
          · rcases List.mem_cons.1 h with rfl | h
            · rw [h1] at hj; exact absurd (Option.some.inj hj).symm hji
            · exact absurd h hk'
          · exact h j b hj hb
    · intro j hj
      rw [d5 j fun k' h => hj k' (by simp [h]), List.getElem?_set_ne]
      intro he
      exact hj k (by simp) (by rw [h1, he])

end Verif.NetCDF
