import Verif.Spec.FileBoth
import Verif.Lemmas.FileAtts
/-
Helper lemmas for data and global attributes of one file.
-/
namespace Verif.NetCDF
open Verif Verif.NetCDFAtt Verif.Props

variable {α V : Type}

theorem lib_registered {t : AttTable V} {s : AttFile V} (h : AttRel t s) (hr : t.registered = true) : s.libDefine = false := by
  cases hn : t.isNew with
  | false => exact (h.old hn).2
  | true =>
    cases hl : s.libDefine with
    | false => rfl
    | true =>
      have := (h.new hn).2.1.1 hl
      rw [(h.new hn).2.2 (by rw [← h.registered, hr])] at this
      cases this

theorem meets_expected {o : Res Unit} {b : Bool} (h : Meets o b) : AsExpected o b := by
  unfold Meets at h
  subst h
  cases b
  · exact ⟨rfl, rfl⟩
  · exact rfl

theorem registered_step (t : AttTable V) (op : AttOp V) (h : t.registered = true) : (t.step op).2.registered = true := by
  cases op with
  | register => rfl
  | writeData => rw [AttTable.step]; split <;> exact h
  | writeAtt n ty v => rw [AttTable.step]; split <;> exact h
  | updateAtt old new ty v =>
    rw [AttTable.step]
    split
    · split <;> exact h
    · exact h

/-- The state of the program and the table after one call. -/
structure BothRel (t : AttTable V) (a : AttFile V) : Prop where
  rel : AttRel t a
  registered : t.registered = true

theorem sameOp_isWrite {W : Type} {R : Memory α → (String → W) → Prop} {op : FileOp (Memory α)} {sop : FileOp (String → W)}
    (h : SameOp R op sop) (d : World α) : sop.isWrite = (d.toWrite op).isSome := by
  cases h <;> rfl

theorem markChanged_rel {t : AttTable V} {s : AttFile V} (h : AttRel t s) :
    AttRel { t with touched := t.touched || t.writable } s.markChanged := by
  by_cases hr : s.mode = .read
  · rw [AttFile.markChanged, if_neg (by simpa using hr)]
    have : t.writable = false := by rw [h.writable]; simpa using hr
    rw [show (t.touched || t.writable) = t.touched by rw [this, Bool.or_false]]
    exact h
  · have : t.writable = true := by rw [h.writable]; simpa using hr
    rw [show (t.touched || t.writable) = true by rw [this, Bool.or_true]]
    exact touch_rel h hr

theorem data_step {W : Type} {R : Memory α → (String → W) → Prop} {known : List String} {t : BothTable W V} {w : BothWorld α V}
    (h : BothRel t.atts w.atts) {op : FileOp (Memory α)} {sop : FileOp (String → W)} (hop : SameOp R op sop)
    (ho : AsExpected (w.data.step op).1 (t.data.step known sop).1) :
    AsExpected (w.step (.data op)).1 (t.step known (.data sop)).1 ∧
      (w.step (.data op)).2.data = (w.data.step op).2 ∧
      BothRel (t.step known (.data sop)).2.atts (w.step (.data op)).2.atts := by
  have hw := sameOp_isWrite hop w.data
  have hl := lib_registered h.rel h.registered
  simp only [BothWorld.step, BothTable.step]
  rw [hw]
  cases hn : w.data.toWrite op with
  | none =>
    simp only [BothWorld.otherCall, hl, Bool.false_eq_true, false_and, if_false, Option.isSome_none]
    exact ⟨ho, trivial, h⟩
  | some names =>
    obtain ⟨a, h1, h2, h3, h4, h5⟩ := saveCall_rel h.rel
    simp only [BothWorld.writeCall, h1, BothWorld.writeLoop, h4, hl, Bool.false_eq_true, false_and, if_false,
      Option.isSome_some, if_true]
    rcases hs : w.data.step op with ⟨o, d'⟩
    rw [hs] at ho
    cases o with
    | ub => exact ho.elim
    | throw e =>
      have hb : (t.data.step known sop).1 = false := ho.2
      simp only [hb, Bool.false_and, Bool.or_false]
      exact ⟨⟨ho.1, rfl⟩, trivial, h5, h.registered⟩
    | ok u =>
      have hb : (t.data.step known sop).1 = true := ho
      simp only [hb, Bool.true_and]
      exact ⟨rfl, trivial, markChanged_rel h5, h.registered⟩

/-- Any sequence of calls on a file with registered collections: the data calls behave as they would without the others, and
the attributes are those of the table. -/
theorem both_run {W : Type} {R : Memory α → (String → W) → Prop} {known : List String} {ops : List (BothOp (Memory α) V)}
    {sops : List (BothOp (String → W) V)} (hops : List.Forall₂ (SameBoth R) ops sops) {t : BothTable W V} {w : BothWorld α V}
    (h : BothRel t.atts w.atts) (hty : ∀ op ∈ ops, BothTyped op) (hnc : t.NoClash known sops)
    (hd : List.Forall₂ AsExpected (w.data.run (dataOps ops)).1 (t.data.run known (dataOps sops)).1) :
    List.Forall₂ AsExpected (w.run ops).1 (t.run known sops).1 ∧ (w.run ops).2.data = (w.data.run (dataOps ops)).2 ∧
      (t.run known sops).2.data = (t.data.run known (dataOps sops)).2 ∧
      BothRel (t.run known sops).2.atts (w.run ops).2.atts := by
  induction hops generalizing t w with
  | nil => exact ⟨.nil, rfl, rfl, h⟩
  | @cons op sop ops sops hop _ ih =>
    have hty' : ∀ op ∈ ops, BothTyped op := fun o ho => hty o (List.mem_cons_of_mem _ ho)
    cases hop with
    | data hs =>
      obtain ⟨hd1, hd2⟩ := List.forall₂_cons.1 hd
      obtain ⟨h1, h2, h3⟩ := data_step h hs hd1
      have := ih h3 hty' hnc.2 (by rw [h2]; exact hd2)
      rw [h2] at this
      obtain ⟨k1, k2, k3, k4⟩ := this
      exact ⟨.cons h1 k1, k2, k3, k4⟩
    | writeAtt n ty v =>
      obtain ⟨h1, h2, h3, h4⟩ := write_rel (name := n) (v := v) h.rel
        (show ty.stored = true from hty (.writeAtt n ty v) List.mem_cons_self)
      have := ih (t := (t.step known (.writeAtt n ty v)).2) (w := (w.step (.writeAtt n ty v)).2)
        ⟨h2, registered_step _ _ h.registered⟩ hty' hnc.2 hd
      obtain ⟨k1, k2, k3, k4⟩ := this
      exact ⟨.cons (meets_expected h1) k1, k2, k3, k4⟩
    | updateAtt old new ty v =>
      obtain ⟨h1, h2, h3, h4⟩ := update_rel (old := old) (new := new) (ty := ty) (v := v) h.rel hnc.1
      have := ih (t := (t.step known (.updateAtt old new ty v)).2) (w := (w.step (.updateAtt old new ty v)).2)
        ⟨h2, registered_step _ _ h.registered⟩ hty' hnc.2 hd
      obtain ⟨k1, k2, k3, k4⟩ := this
      exact ⟨.cons (meets_expected h1) k1, k2, k3, k4⟩

theorem table_run_data {W : Type} (known : List String) : ∀ (sops : List (BothOp (String → W) V)) (t : BothTable W V),
    (t.run known sops).2.data = (t.data.run known (dataOps sops)).2
  | [], _ => rfl
  | .data op :: sops, t => table_run_data known sops (t.step known (.data op)).2
  | .writeAtt n ty v :: sops, t => table_run_data known sops (t.step known (.writeAtt n ty v)).2
  | .updateAtt old new ty v :: sops, t => table_run_data known sops (t.step known (.updateAtt old new ty v)).2

end Verif.NetCDF
