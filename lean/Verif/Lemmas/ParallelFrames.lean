import Verif.Spec.ParallelFrames
import Verif.Lemmas.FrameObjects
import Verif.Lemmas.ParallelRefused
/-
Lemmas for C104.
-/
namespace Verif.Props
open Verif Verif.Ccoord Verif.Layout Verif.Layout.FieldLayout Verif.RawMemory Verif.FileIO Verif.NetCDF

variable {α : Type} {D : FileDesc} {P : Program} {vars : List SessVar} {hidden : String → Option (List Var)} {mode : OpenMode} {late : Bool}
  {I : Sess → NcFile α → (String → Prop) → Prop} {w : World α} {t : Table (Values α)} {conv : Conv α} {convI : Conv Int}

theorem BothReady.agree (h : BothReady D P vars hidden mode I w t) : Agree D P vars hidden mode I w t := ⟨h.inv, h.holds⟩

/-- One call. -/
theorem par_step_both (hreg : Registered D P vars hidden) (hE : EntryLaw vars hidden mode (marksFor D P) I) (hc : conv.Faithful)
    (hcI : convI.Faithful) {op : FileOp (Memory α)} {sop : FileOp (String → Values α)}
    (hop : SameOp (fun mem c => ∀ x ∈ vars, VarHolds P x (mem x.name) (c x.name)) op sop)
    (hhid : NoHidden vars hidden op) (hro : mode = .read → Refused vars op)
    (hgap : t.ReadsFilled (vars.map SessVar.name) sop)
    (hreach : t.InReach (fun n => ∃ x ∈ vars, x.name = n ∧ x.localName ≠ none) (vars.map SessVar.name) sop)
    (h : BothReady D P vars hidden mode I w t) :
    SameInBoth (ParWorld.step conv convI ⟨w, false⟩ op) (w.step op).1 (w.step op).2 ∧
      BothReady D P vars hidden mode I (w.step op).2 (t.step (vars.map SessVar.name) sop).2 := by
  have hnm : w.sess.names = vars.map SessVar.name := by rw [Sess.names, h.inv.vars_eq]
  obtain ⟨-, k⟩ := agree_step hreg hE hop hhid hro hgap h.agree
  have key : SameInBoth (ParWorld.step conv convI ⟨w, false⟩ op) (w.step op).1 (w.step op).2 ∧ ParKeeps w (w.step op).2 := by
    cases hop with
    | appendFrame => exact ⟨rfl, rfl, rfl, rfl, fun _ fv h => ⟨fv, h, rfl⟩, fun _ fv h => ⟨fv, h, rfl⟩⟩
    | compute hcmp => exact ⟨rfl, keeps_mem _ _⟩
    | write frame names =>
      exact ⟨par_write_all hreg hE hc hcI frame hhid (fun e n hn => hro e n hn) h, wrote_keeps frame names w⟩
    | writeAll frame =>
      refine ⟨par_write_all hreg hE hc hcI frame (ns := w.sess.names) (fun n hn => .inl (hnm ▸ hn)) (fun e n hn => ?_) h,
        wrote_keeps frame w.sess.names w⟩
      rw [hnm] at hn
      exact hro e n hn
    | read frame names =>
      exact ⟨par_read_all hreg hE hc hcI frame hhid hreach hgap h, gotten_keeps frame names w⟩
    | readAll frame =>
      refine ⟨par_read_all hreg hE hc hcI frame (ns := w.sess.names) (fun n hn => .inl (hnm ▸ hn)) ?_ ?_ h,
        gotten_keeps frame w.sess.names w⟩
      · rw [hnm]; exact hreach
      · rw [hnm]; exact hgap
  exact ⟨key.1, k.inv, k.holds, key.2.ready h.ready⟩

theorem both_then {r : Joint Unit × ParWorld α} {s : Res Unit × World α} {b : Bool} {k : ParWorld α → Joint Unit × ParWorld α}
    {k' : World α → Res Unit × World α} (hr : SameInBoth r s.1 s.2) (he : AsExpected s.1 b)
    (hk : b = true → SameInBoth (k ⟨s.2, false⟩) (k' s.2).1 (k' s.2).2) :
    SameInBoth (Joint.next r k) (unlessThrown s k').1 (unlessThrown s k').2 := by
  obtain ⟨o, w'⟩ := s
  rw [SameInBoth] at hr
  subst hr
  cases o with
  | ok u =>
    have hb : b = true := he
    exact hk hb
  | throw e => rfl
  | ub => exact absurd he id

theorem ready_then {s : Res Unit × World α} {b : Bool × Table (Values α)} {k' : World α → Res Unit × World α}
    {k'' : Table (Values α) → Bool × Table (Values α)} (he : AsExpected s.1 b.1) (hs : BothReady D P vars hidden mode I s.2 b.2)
    (hk : b.1 = true → BothReady D P vars hidden mode I (k' s.2).2 (k'' b.2).2) :
    BothReady D P vars hidden mode I (unlessThrown s k').2 (Table.after b k'').2 := by
  obtain ⟨o, w'⟩ := s
  obtain ⟨b, t'⟩ := b
  cases o with
  | ok u =>
    have hb : b = true := he
    subst hb
    exact hk rfl
  | throw e =>
    have hb : b = false := he.2
    subst hb
    exact hs
  | ub => exact absurd he id

/-- What holds of a part of a program and its counterparts. -/
structure BothDo (D : FileDesc) (P : Program) (vars : List SessVar) (hidden : String → Option (List Var)) (mode : OpenMode)
    (I : Sess → NcFile α → (String → Prop) → Prop) (r : Joint Unit × ParWorld α) (s : Res Unit × World α)
    (b : Bool × Table (Values α)) : Prop where
  same : SameInBoth r s.1 s.2
  expected : AsExpected s.1 b.1
  ready : BothReady D P vars hidden mode I s.2 b.2

theorem BothDo.next {r : Joint Unit × ParWorld α} {s : Res Unit × World α} {b : Bool × Table (Values α)}
    {k : ParWorld α → Joint Unit × ParWorld α} {k' : World α → Res Unit × World α}
    {k'' : Table (Values α) → Bool × Table (Values α)} (h : BothDo D P vars hidden mode I r s b)
    (hk : b.1 = true → BothDo D P vars hidden mode I (k ⟨s.2, false⟩) (k' s.2) (k'' b.2)) :
    BothDo D P vars hidden mode I (Joint.next r k) (unlessThrown s k') (Table.after b k'') :=
  ⟨both_then h.same h.expected fun e => (hk e).same,
    (agree_then ⟨h.expected, h.ready.agree⟩ fun e => ⟨(hk e).expected, (hk e).ready.agree⟩).1,
    ready_then h.expected h.ready fun e => (hk e).ready⟩

theorem both_loop {pbody : Int → ParWorld α → Joint Unit × ParWorld α} {body : Int → World α → Res Unit × World α}
    {sbody : Nat → Table (Values α) → Bool × Table (Values α)}
    {ok : Nat → Table (Values α) → Prop} (hnb : ∀ row t, t.nb ≤ (sbody row t).2.nb)
    (hb : ∀ row w t, ok row t → BothReady D P vars hidden mode I w t →
      BothDo D P vars hidden mode I (pbody row ⟨w, false⟩) (body row w) (sbody row t))
    {stop : Int} (n : Nat) : ∀ (i : Nat) (w : World α) (t : Table (Values α)), stop = (i : Int) + n → stop ≤ t.nb →
    Table.FitsRows sbody ok (List.range' i n) t → BothReady D P vars hidden mode I w t →
    BothDo D P vars hidden mode I (forFramesPar pbody stop n i ⟨w, false⟩) (forFrames body stop n i w)
      (Table.forRows sbody (List.range' i n) t) := by
  induction n with
  | zero =>
    intro i w t hs hle hf h
    rw [forFrames, forFramesPar, if_pos (by omega), if_pos (by omega)]
    exact ⟨rfl, rfl, h⟩
  | succ n ih =>
    intro i w t hs hle hf h
    rw [List.range'_succ] at hf ⊢
    have hin : frameAt w.sess.nbFrames i = .ok (i : Int) := frameAt_inside (by omega) (by rw [h.inv.frames]; omega)
    rw [forFrames, forFramesPar, if_neg (by omega), if_neg (by omega), Table.forRows]
    dsimp only
    rw [hin]
    dsimp only
    have h1 := hb i w t hf.1 h
    refine h1.next fun e => ?_
    exact ih (i + 1) _ _ (by push_cast; omega) (hle.trans (hnb i t)) (hf.2 e) h1.ready

theorem use_inReach {p : String → Prop} {known : List String} (hnb : 0 ≤ t.nb) (u : FrameUse) (row : Nat) :
    t.InReach p known (u.op (row : Int)) := by
  cases u with
  | readAll => exact Or.inl (by omega)
  | read names => exact Or.inl (by omega)
  | writeAll => trivial
  | write names => trivial

theorem par_exec (hreg : Registered D P vars hidden) (hE : EntryLaw vars hidden mode (marksFor D P) I) (hc : conv.Faithful)
    (hcI : convI.Faithful) {p : FrameProg (Memory α)} {q : FrameProg (String → Values α)}
    (hs : SameProg (fun mem c => ∀ x ∈ vars, VarHolds P x (mem x.name) (c x.name)) p q)
    (hhid : p.Uses fun u => NoHidden vars hidden (u.op (C := Memory α) 0))
    (hro : mode = .read → p.Uses fun u => Refused vars (u.op (C := Memory α) 0)) :
    ∀ (rows : List Nat) (w : World α) (t : Table (Values α)), t.Fits late (vars.map SessVar.name) q rows →
      BothReady D P vars hidden mode I w t →
      BothDo D P vars hidden mode I (ParWorld.exec conv convI p (rows.map Int.ofNat) ⟨w, false⟩)
        (World.exec p (rows.map Int.ofNat) w) (t.exec late (vars.map SessVar.name) q rows) := by
  have step : ∀ {op : FileOp (Memory α)} {sop : FileOp (String → Values α)} {w : World α} {t : Table (Values α)},
      SameOp (fun mem c => ∀ x ∈ vars, VarHolds P x (mem x.name) (c x.name)) op sop →
      NoHidden vars hidden op → (mode = .read → Refused vars op) → t.ReadsFilled (vars.map SessVar.name) sop →
      t.InReach (fun n => ∃ x ∈ vars, x.name = n ∧ x.localName ≠ none) (vars.map SessVar.name) sop →
      BothReady D P vars hidden mode I w t →
      BothDo D P vars hidden mode I (ParWorld.step conv convI ⟨w, false⟩ op) (w.step op) (t.step (vars.map SessVar.name) sop) := by
    intro op sop w t h1 h2 h3 h4 h5 h
    obtain ⟨k1, k2⟩ := par_step_both hreg hE hc hcI h1 h2 h3 h4 h5 h
    exact ⟨k1, (agree_step hreg hE h1 h2 h3 h4 h.agree).1, k2⟩
  induction hs with
  | done => exact fun rows w t _ h => ⟨rfl, rfl, h⟩
  | take i _ ih =>
    intro rows w t hf h
    have hk := frameAt_handed h.inv.nonneg hf.1
    rw [World.exec, ParWorld.exec, Table.exec, h.inv.frames]
    cases hm : handedRow late t.nb i with
    | none =>
      rw [hk.2 hm]
      exact ⟨rfl, ⟨rfl, rfl⟩, h⟩
    | some row =>
      obtain ⟨h0, h1⟩ := hk.1 row hm
      rw [h1]
      have := ih hhid hro (row.toNat :: rows) w t (hf.2 row hm) h
      rw [List.map_cons, show Int.ofNat row.toNat = row from Int.toNat_of_nonneg h0] at this
      exact this
  | append _ ih =>
    intro rows w t hf h
    rw [World.exec, ParWorld.exec, Table.exec]
    have hs := step (SameOp.appendFrame) trivial (fun _ => trivial) trivial trivial h
    have := ih hhid hro (t.nb.toNat :: rows) _ _ hf hs.ready
    rw [List.map_cons, show Int.ofNat t.nb.toNat = t.nb from Int.toNat_of_nonneg h.inv.nonneg] at this
    dsimp only
    rw [appendFrame, h.inv.frames]
    exact this
  | use k u _ ih =>
    intro rows w t hf h
    obtain ⟨row, hr, hf1, hf2⟩ := hf
    rw [World.exec, ParWorld.exec, Table.exec, List.getElem?_map, hr]
    dsimp only [Option.map_some]
    have hs := step (use_same u _) (use_noHidden hhid.1) (fun e => use_refused (hro e).1) hf1
      (use_inReach h.inv.nonneg u row) h
    exact hs.next fun hok => ih hhid.2 (fun e => (hro e).2) rows _ _ (hf2 hok) hs.ready
  | compute hc _ ih =>
    intro rows w t hf h
    rw [World.exec, ParWorld.exec, Table.exec]
    have hs := step (SameOp.compute hc) trivial (fun _ => trivial) trivial trivial h
    exact hs.next fun _ => ih hhid hro rows _ _ hf hs.ready
  | forEach hb _ ihb ih =>
    intro rows w t hf h
    rw [World.exec, ParWorld.exec, Table.exec]
    have key := both_loop (stop := t.nb) (pbody := fun fr => ParWorld.exec conv convI _ (fr :: rows.map Int.ofNat))
      (body := fun fr => World.exec _ (fr :: rows.map Int.ofNat))
      (ok := fun row => Table.Fits late (vars.map SessVar.name) _ (row :: rows)) (fun row t => exec_nb _ _ t)
      (fun row w t hok h => ihb hhid.1 (fun e => (hro e).1) (row :: rows) w t hok h) t.nb.toNat 0 w t
      (by have := h.inv.nonneg; omega) (le_refl _) (by rw [← List.range_eq_range']; exact hf.1) h
    rw [← List.range_eq_range'] at key
    dsimp only
    rw [size, h.inv.frames]
    exact key.next fun hok => ih hhid.2 (fun e => (hro e).2) rows _ _ (hf.2 hok) key.ready
  | attempt hb _ ihb ih =>
    intro rows w t hf h
    rw [World.exec, ParWorld.exec, Table.exec]
    have k := ihb hhid.1 (fun e => (hro e).1) rows w t hf.1 h
    have key := ih hhid.2 (fun e => (hro e).2) rows _ _ hf.2 k.ready
    have e1 := k.same
    rw [SameInBoth] at e1
    have e2 := k.expected
    rw [e1]
    revert e2 key
    generalize World.exec _ (rows.map Int.ofNat) w = s
    obtain ⟨o, w'⟩ := s
    intro key e2
    cases o with
    | ok u => exact key
    | throw e => exact key
    | ub => exact absurd e2 id

end Verif.Props
