import Verif.Spec.FrameObjects
import Verif.Props.FileRanks
/-
Programs with frame objects follow the table.
-/
namespace Verif.Props
open Verif Verif.Ccoord Verif.Layout Verif.Layout.FieldLayout Verif.RawMemory Verif.FileIO Verif.NetCDF

section
variable {V : Type} {known : List String} {late : Bool}

theorem put_nb (n : String) (fr : Int) (t : Table V) : (t.put fr n).nb = t.nb := rfl

theorem table_write_nb (frame : Int) : ∀ (ns : List String) (t : Table V), (t.write known frame ns).2.nb = t.nb
  | [], _ => rfl
  | n :: ns, t => by
    simp only [Table.write]
    split
    · split
      · exact (table_write_nb frame ns _).trans (put_nb n _ t)
      · rfl
    · rfl

theorem table_read_nb (frame : Int) : ∀ (ns : List String) (t : Table V), (t.read known frame ns).2.nb = t.nb
  | [], _ => rfl
  | n :: ns, t => by
    simp only [Table.read]
    split
    · split
      · split
        · exact (table_read_nb frame ns _).trans rfl
        · rfl
      · rfl
    · rfl

theorem table_step_nb (t : Table V) (op : FileOp (String → V)) : t.nb ≤ (t.step known op).2.nb := by
  cases op with
  | appendFrame => show t.nb ≤ t.nb + 1; omega
  | write frame names => exact le_of_eq (table_write_nb frame names t).symm
  | writeAll frame => exact le_of_eq (table_write_nb frame known t).symm
  | read frame names => exact le_of_eq (table_read_nb frame names t).symm
  | readAll frame => exact le_of_eq (table_read_nb frame known t).symm
  | compute c => exact le_refl _

theorem after_nb {r : Bool × Table V} {k : Table V → Bool × Table V} {nb : Int} (h : nb ≤ r.2.nb)
    (hk : ∀ t, t.nb ≤ (k t).2.nb) : nb ≤ (Table.after r k).2.nb := by
  unfold Table.after
  split
  · exact h.trans (hk _)
  · exact h

theorem forRows_nb {body : Nat → Table V → Bool × Table V} (hb : ∀ row t, t.nb ≤ (body row t).2.nb) :
    ∀ (rows : List Nat) (t : Table V), t.nb ≤ (Table.forRows body rows t).2.nb
  | [], _ => le_refl _
  | row :: rows, t => after_nb (hb row t) (forRows_nb hb rows)

/-- Frames do not go away. -/
theorem exec_nb (p : FrameProg (String → V)) : ∀ (rows : List Nat) (t : Table V), t.nb ≤ (Table.exec late known p rows t).2.nb := by
  induction p with
  | done => exact fun _ _ => le_refl _
  | take i p ih =>
    intro rows t
    rw [Table.exec]
    split
    · exact ih _ _
    · exact le_refl _
  | append p ih =>
    intro rows t
    rw [Table.exec]
    exact (table_step_nb t .appendFrame).trans (ih _ _)
  | use h u p ih =>
    intro rows t
    rw [Table.exec]
    split
    · exact after_nb (table_step_nb _ _) (ih _)
    · exact le_refl _
  | compute c p ih =>
    intro rows t
    rw [Table.exec]
    exact after_nb (table_step_nb _ _) (ih _)
  | forEach body p ihb ih =>
    intro rows t
    rw [Table.exec]
    exact after_nb (forRows_nb (fun row t => ihb _ _) _ _) (ih _)
  | attempt body p ihb ih =>
    intro rows t
    rw [Table.exec]
    exact (ihb _ _).trans (ih _ _)

end

theorem frameAt_inside {nb i : Int} (h0 : 0 ≤ i) (h1 : i < nb) : frameAt nb i = .ok i := by
  rw [frameAt, if_neg (by omega), if_neg (by omega)]

theorem handed_of_ne {nb i : Int} (h : i ≠ nb) : handedRow late nb i = meantFrame nb i := by
  unfold handedRow
  rw [if_neg (fun e => h e.2)]

theorem rows_same {f g : Nat → Table V → Bool × Table V} {ok ok' : Nat → Table V → Prop}
    (hfg : ∀ row t, ok row t → ok' row t ∧ g row t = f row t) (rows : List Nat) (t : Table V)
    (h : Table.FitsRows f ok rows t) : Table.FitsRows g ok' rows t ∧ Table.forRows g rows t = Table.forRows f rows t := by
  induction rows generalizing t with
  | nil => exact ⟨trivial, rfl⟩
  | cons row rows ih =>
    obtain ⟨h1, h2⟩ := h
    obtain ⟨k1, k2⟩ := hfg row t h1
    rw [Table.FitsRows, Table.forRows, Table.forRows, k2]
    refine ⟨⟨k1, fun e => (ih _ (h2 e)).1⟩, ?_⟩
    unfold Table.after
    split_ifs with e
    · exact (ih _ (h2 e)).2
    · rfl

theorem exec_late (p : FrameProg (String → V)) : ∀ (rows : List Nat) (t : Table V), Table.Fits false known p rows t →
    Table.Fits true known p rows t ∧ Table.exec true known p rows t = Table.exec false known p rows t := by
  induction p with
  | done => exact fun _ _ _ => ⟨trivial, rfl⟩
  | take i p ih =>
    intro rows t h
    have hi : i ≠ t.nb := h.1.resolve_left (by decide)
    rw [Table.Fits, Table.exec, Table.exec, handed_of_ne hi, handed_of_ne hi]
    have h2 := h.2
    rw [handed_of_ne hi] at h2
    refine ⟨⟨Or.inl rfl, fun row hr => (ih _ _ (h2 row hr)).1⟩, ?_⟩
    cases hm : meantFrame t.nb i with
    | none => rfl
    | some row => exact (ih _ _ (h2 row hm)).2
  | append p ih => exact fun rows t h => ih _ _ h
  | use k u p ih =>
    intro rows t ⟨row, h1, h2, h3⟩
    refine ⟨⟨row, h1, h2, fun e => (ih _ _ (h3 e)).1⟩, ?_⟩
    rw [Table.exec, Table.exec, h1]
    dsimp only
    unfold Table.after
    split_ifs with e
    · exact (ih _ _ (h3 e)).2
    · rfl
  | compute c p ih =>
    intro rows t h
    refine ⟨(ih _ _ h).1, ?_⟩
    rw [Table.exec, Table.exec]
    unfold Table.after
    split_ifs with e
    · exact (ih _ _ h).2
    · rfl
  | forEach body p ihb ih =>
    intro rows t ⟨h1, h2⟩
    obtain ⟨k1, k2⟩ := rows_same (g := fun row => Table.exec true known body (row :: rows))
      (ok' := fun row => Table.Fits true known body (row :: rows)) (fun row t h => ihb _ _ h) _ _ h1
    rw [Table.Fits, Table.exec, Table.exec, k2]
    refine ⟨⟨k1, fun e => (ih _ _ (h2 e)).1⟩, ?_⟩
    unfold Table.after
    split_ifs with e
    · exact (ih _ _ (h2 e)).2
    · rfl
  | attempt body p ihb ih =>
    intro rows t ⟨h1, h2⟩
    obtain ⟨k1, k2⟩ := ihb _ _ h1
    rw [Table.Fits, Table.exec, Table.exec, k2]
    exact ⟨⟨k1, (ih _ _ h2).1⟩, (ih _ _ h2).2⟩

/-- `operator[]` finds the frame that is meant, except for the index past the end. -/
theorem frameAt_meant {nb i : Int} (hnb : 0 ≤ nb) (hi : i ≠ nb) :
    (∀ row, meantFrame nb i = some row → 0 ≤ row ∧ frameAt nb i = .ok row) ∧
      (meantFrame nb i = none → frameAt nb i = .throw .fileIOError) := by
  unfold meantFrame frameAt
  constructor
  · intro row h
    split at h
    · cases h
      rw [if_neg (by omega), if_neg (by omega)]
      exact ⟨by omega, rfl⟩
    · split at h
      · cases h
        rw [if_pos (by omega), if_neg (by omega), if_neg (by omega)]
        exact ⟨by omega, rfl⟩
      · cases h
  · intro h
    split at h
    · cases h
    · split at h
      · cases h
      · by_cases h1 : i < 0
        · rw [if_pos h1, if_pos (by omega)]
        · rw [if_neg h1, if_pos (by omega)]

section
variable {α : Type} {D : FileDesc} {P : Program} {vars : List SessVar} {hidden : String → Option (List Var)} {mode : OpenMode}
  {I : Sess → NcFile α → (String → Prop) → Prop} {w : World α} {t : Table (Values α)}

/-- The file object, the file and the memory agree with the table. -/
structure Agree (D : FileDesc) (P : Program) (vars : List SessVar) (hidden : String → Option (List Var)) (mode : OpenMode)
    (I : Sess → NcFile α → (String → Prop) → Prop) (w : World α) (t : Table (Values α)) : Prop where
  inv : SessInv (relations D P) vars hidden mode I w.sess w.file t
  holds : ∀ x ∈ vars, VarHolds P x (w.mem x.name) (t.cur x.name)

theorem agree_step (hreg : Registered D P vars hidden) (hE : EntryLaw vars hidden mode (marksFor D P) I)
    {op : FileOp (Memory α)} {sop : FileOp (String → Values α)}
    (hop : SameOp (fun mem c => ∀ x ∈ vars, VarHolds P x (mem x.name) (c x.name)) op sop)
    (hhid : NoHidden vars hidden op) (hro : mode = .read → Refused vars op)
    (hgap : t.ReadsFilled (vars.map SessVar.name) sop) (h : Agree D P vars hidden mode I w t) :
    AsExpected (w.step op).1 (t.step (vars.map SessVar.name) sop).1 ∧
      Agree D P vars hidden mode I (w.step op).2 (t.step (vars.map SessVar.name) sop).2 := by
  obtain ⟨k1, k2, k3⟩ := run_agrees (R := relations D P) hreg.nodup hreg.writes hreg.reads hE (.cons hop .nil)
    (fun o ho => by rw [List.mem_singleton] at ho; subst ho; exact hhid)
    (fun e o ho => by rw [List.mem_singleton] at ho; subst ho; exact hro e)
    (t := t) ⟨hgap, trivial⟩ h.inv h.holds
  cases k1 with
  | cons a _ => exact ⟨a, k2, k3⟩

theorem agree_then {r : Res Unit × World α} {s : Bool × Table (Values α)} {k : World α → Res Unit × World α}
    {k' : Table (Values α) → Bool × Table (Values α)}
    (h : AsExpected r.1 s.1 ∧ Agree D P vars hidden mode I r.2 s.2)
    (hk : s.1 = true → AsExpected (k r.2).1 (k' s.2).1 ∧ Agree D P vars hidden mode I (k r.2).2 (k' s.2).2) :
    AsExpected (unlessThrown r k).1 (Table.after s k').1 ∧
      Agree D P vars hidden mode I (unlessThrown r k).2 (Table.after s k').2 := by
  obtain ⟨o, w'⟩ := r
  obtain ⟨b, t'⟩ := s
  obtain ⟨h1, h2⟩ := h
  cases o with
  | ok u =>
    have hb : b = true := h1
    subst hb
    exact hk rfl
  | throw e =>
    have hb : b = false := h1.2
    subst hb
    exact ⟨h1, h2⟩
  | ub => exact absurd h1 id

theorem agree_loop {body : Int → World α → Res Unit × World α} {sbody : Nat → Table (Values α) → Bool × Table (Values α)}
    {ok : Nat → Table (Values α) → Prop} (hnb : ∀ row t, t.nb ≤ (sbody row t).2.nb)
    (hb : ∀ row w t, ok row t → Agree D P vars hidden mode I w t →
      AsExpected (body row w).1 (sbody row t).1 ∧ Agree D P vars hidden mode I (body row w).2 (sbody row t).2)
    {stop : Int} (n : Nat) : ∀ (i : Nat) (w : World α) (t : Table (Values α)), stop = (i : Int) + n → stop ≤ t.nb →
    Table.FitsRows sbody ok (List.range' i n) t → Agree D P vars hidden mode I w t →
    AsExpected (forFrames body stop n i w).1 (Table.forRows sbody (List.range' i n) t).1 ∧
      Agree D P vars hidden mode I (forFrames body stop n i w).2 (Table.forRows sbody (List.range' i n) t).2 := by
  induction n with
  | zero =>
    intro i w t hs hle hf h
    rw [forFrames, if_pos (by omega)]
    exact ⟨rfl, h⟩
  | succ n ih =>
    intro i w t hs hle hf h
    rw [List.range'_succ] at hf ⊢
    rw [forFrames, if_neg (by omega)]
    rw [h.inv.frames, frameAt_inside (by omega) (by omega), Table.forRows]
    refine agree_then (hb i w t hf.1 h) fun hok => ?_
    have := ih (i + 1) (body i w).2 (sbody i t).2 (by push_cast at hs ⊢; omega) (hle.trans (hnb i t)) (hf.2 hok) (hb i w t hf.1 h).2
    push_cast at this
    exact this

theorem use_noHidden {u : FrameUse} {fr : Int} (h : NoHidden vars hidden (u.op (C := Memory α) 0)) :
    NoHidden vars hidden (u.op (C := Memory α) fr) := by
  cases u <;> exact h

theorem use_refused {u : FrameUse} {fr : Int} (h : Refused vars (u.op (C := Memory α) 0)) : Refused vars (u.op (C := Memory α) fr) := by
  cases u <;> exact h

theorem use_same {C D : Type} {R : C → D → Prop} (u : FrameUse) (fr : Int) : SameOp R (u.op fr) (u.op fr) := by
  cases u <;> constructor

theorem frameAt_handed {nb i : Int} (hnb : 0 ≤ nb) (hi : late = true ∨ i ≠ nb) :
    (∀ row, handedRow late nb i = some row → 0 ≤ row ∧ frameAt nb i = .ok row) ∧
      (handedRow late nb i = none → frameAt nb i = .throw .fileIOError) := by
  unfold handedRow
  split_ifs with h
  · refine ⟨?_, fun h => by cases h⟩
    intro row hr
    cases hr
    obtain ⟨-, rfl⟩ := h
    rw [frameAt, if_neg (by omega), if_neg (by omega)]
    exact ⟨hnb, rfl⟩
  · exact frameAt_meant hnb (fun e => h ⟨hi.resolve_right (fun h => h e), e⟩)

theorem agree_exec (hreg : Registered D P vars hidden) (hE : EntryLaw vars hidden mode (marksFor D P) I)
    {p : FrameProg (Memory α)} {q : FrameProg (String → Values α)}
    (hs : SameProg (fun mem c => ∀ x ∈ vars, VarHolds P x (mem x.name) (c x.name)) p q)
    (hhid : p.Uses fun u => NoHidden vars hidden (u.op (C := Memory α) 0))
    (hro : mode = .read → p.Uses fun u => Refused vars (u.op (C := Memory α) 0)) :
    ∀ (rows : List Nat) (w : World α) (t : Table (Values α)), t.Fits late (vars.map SessVar.name) q rows →
      Agree D P vars hidden mode I w t →
      AsExpected (World.exec p (rows.map Int.ofNat) w).1 (t.exec late (vars.map SessVar.name) q rows).1 ∧
        Agree D P vars hidden mode I (World.exec p (rows.map Int.ofNat) w).2 (t.exec late (vars.map SessVar.name) q rows).2 := by
  induction hs with
  | done => exact fun rows w t _ h => ⟨rfl, h⟩
  | take i _ ih =>
    intro rows w t hf h
    have hk := frameAt_handed h.inv.nonneg hf.1
    rw [World.exec, Table.exec, h.inv.frames]
    cases hm : handedRow late t.nb i with
    | none =>
      rw [hk.2 hm]
      exact ⟨⟨rfl, rfl⟩, h⟩
    | some row =>
      obtain ⟨h0, h1⟩ := hk.1 row hm
      rw [h1]
      have := ih hhid hro (row.toNat :: rows) w t (hf.2 row hm) h
      rw [List.map_cons, show Int.ofNat row.toNat = row from Int.toNat_of_nonneg h0] at this
      exact this
  | append _ ih =>
    intro rows w t hf h
    rw [World.exec, Table.exec]
    have hs := agree_step hreg hE (SameOp.appendFrame) trivial (fun _ => trivial) trivial h
    have := ih hhid hro (t.nb.toNat :: rows) _ _ hf hs.2
    rw [List.map_cons, show Int.ofNat t.nb.toNat = t.nb from Int.toNat_of_nonneg h.inv.nonneg] at this
    rw [appendFrame, h.inv.frames]
    exact this
  | use k u _ ih =>
    intro rows w t hf h
    obtain ⟨row, hr, hf1, hf2⟩ := hf
    rw [World.exec, Table.exec, List.getElem?_map, hr]
    dsimp only [Option.map_some]
    refine agree_then (agree_step hreg hE (use_same u _) (use_noHidden hhid.1) (fun e => use_refused (hro e).1) hf1 h) fun hok => ?_
    exact ih hhid.2 (fun e => (hro e).2) rows _ _ (hf2 hok)
      (agree_step hreg hE (use_same u _) (use_noHidden hhid.1) (fun e => use_refused (hro e).1) hf1 h).2
  | compute hc _ ih =>
    intro rows w t hf h
    rw [World.exec, Table.exec]
    have hs := agree_step hreg hE (SameOp.compute hc) trivial (fun _ => trivial) trivial h
    exact agree_then hs fun _ => ih hhid hro rows _ _ hf hs.2
  | forEach hb _ ihb ih =>
    intro rows w t hf h
    rw [World.exec, Table.exec]
    have key := agree_loop (stop := t.nb) (body := fun fr => World.exec _ (fr :: rows.map Int.ofNat))
      (ok := fun row => Table.Fits late (vars.map SessVar.name) _ (row :: rows)) (fun row t => exec_nb _ _ t)
      (fun row w t hok h => ihb hhid.1 (fun e => (hro e).1) (row :: rows) w t hok h) t.nb.toNat 0 w t
      (by have := h.inv.nonneg; omega) (le_refl _) (by rw [← List.range_eq_range']; exact hf.1) h
    rw [← List.range_eq_range'] at key
    rw [size, h.inv.frames]
    exact agree_then key fun hok => ih hhid.2 (fun e => (hro e).2) rows _ _ (hf.2 hok) key.2
  | attempt hb _ ihb ih =>
    intro rows w t hf h
    rw [World.exec, Table.exec]
    obtain ⟨k1, k2⟩ := ihb hhid.1 (fun e => (hro e).1) rows w t hf.1 h
    have key := ih hhid.2 (fun e => (hro e).2) rows _ _ hf.2 k2
    split
    · rename_i e
      rw [e] at k1
      exact absurd k1 id
    · exact key

end
end Verif.Props
