import Verif.Lemmas.ConcurrentCalls
import Verif.Lemmas.NetCDFState
import Verif.Props.NetCDFLocal
/-
Which places of the file a call writes; serving the processes one after the other is what the other models do.
-/
set_option linter.unusedSectionVars false

namespace Verif.Concurrent
open Verif Verif.NetCDF Verif.RawMemory Verif.Ccoord Verif.FileIO Verif.Props

variable {α : Type} {n : Nat}

theorem copies_eq {x : Call} {l : List (Act Cell Addr)} (h : x.acts = .ok l) : x.copies = l := by
  simp [Call.copies, h]

/-- A call that writes only writes, one that reads only reads, and both only in their variable. -/
theorem copies_mem {x : Call} {a : Act Cell Addr} (h : a ∈ x.copies) :
    ∃ p q, a = if x.isWrite then .store (x.name, p) q else .load (x.name, p) q := by
  unfold Call.copies at h
  split at h
  · rename_i l hl
    unfold Call.acts at hl
    rw [Res.bind_eq_ok] at hl
    obtain ⟨p, -, hp⟩ := hl
    simp only [Res.pure_eq, Res.ok.injEq] at hp
    rw [← hp, List.mem_map] at h
    obtain ⟨q, -, hq⟩ := h
    exact ⟨q.1, _, hq.symm⟩
  · simp at h

theorem stores_write {x : Call} {c : Cell} (h : Stores x.copies c) : x.isWrite = true ∧ c.1 = x.name := by
  obtain ⟨a, ha⟩ := h
  obtain ⟨p, q, he⟩ := copies_mem ha
  cases hw : x.isWrite with
  | false => rw [hw] at he; simp at he
  | true =>
    rw [hw] at he
    simp only [if_true, Act.store.injEq] at he
    exact ⟨rfl, by rw [he.1]⟩

theorem touches_write {x : Call} (hw : x.isWrite = true) {c : Cell} (h : Touches x.copies c) : Stores x.copies c := by
  obtain ⟨a, ha | ha⟩ := h
  · exact ⟨a, ha⟩
  · obtain ⟨p, q, he⟩ := copies_mem ha
    rw [hw] at he
    simp at he

/-- Reading never races. -/
theorem raceFree_reads {x : Fin n → Call} (h : ∀ i, (x i).isWrite = false) : RaceFree fun i => (x i).copies := by
  intro i j _ c hs
  have := (stores_write hs).1
  rw [h i] at this
  cases this

theorem solo_true {as : List (Act Cell Addr)} {d d' : Cell → Bool} {M M' : Addr → Option Bool}
    (hM : ∀ a, M a ≠ some false) (hl : ∀ c a, Act.load c a ∉ as) (h : solo as d M = some (d', M')) :
    (∀ c, Stores as c → d' c = true) ∧ ∀ c, d c = true → d' c = true := by
  induction as generalizing d with
  | nil =>
    simp only [solo, Option.some.injEq, Prod.mk.injEq] at h
    refine ⟨fun c hc => ?_, fun c hc => h.1 ▸ hc⟩
    obtain ⟨a, ha⟩ := hc
    simp at ha
  | cons a as ih =>
    cases a with
    | load c a => exact absurd (by simp) (hl c a)
    | sync t => simp [solo, exec] at h
    | store c a =>
      cases hx : M a with
      | none => simp [solo, exec, hx] at h
      | some v =>
        have hv : v = true := by
          cases v with
          | true => rfl
          | false => exact absurd hx (hM a)
        simp only [solo, exec, hx, Option.map_some, Option.bind_some] at h
        obtain ⟨h1, h2⟩ := ih (fun c' a' hm => hl c' a' (by simp [hm])) h
        refine ⟨fun c' hc' => ?_, fun c' hc' => ?_⟩
        · obtain ⟨a', ha'⟩ := hc'
          simp only [List.mem_cons, Act.store.injEq] at ha'
          rcases ha' with ⟨rfl, rfl⟩ | ha'
          · exact h2 _ (by simp [hv])
          · exact h1 c' ⟨a', ha'⟩
        · refine h2 c' ?_
          simp only [hv]
          split
          · rfl
          · exact hc'

/-- If writing leaves a place of every file as it is, the call does not write there. -/
theorem not_stored {x : Call} (hw : x.isWrite = true) {buf : Mem Bool} (hb : ∀ a, buf a ≠ some false)
    {fv fv' : FileVar Bool} (hf : ∀ y, fv.data y = false)
    (h : x.part.write x.nb x.frame x.k x.marks buf fv = .ok fv') {c : Cell} (hc : Stores x.copies c) :
    c.1 = x.name ∧ fv'.data c.2 = true := by
  obtain ⟨l, hl, hs⟩ := write_acts (D := fun _ => false) (M := fun a => if a.1 = x.buf then buf a.2 else none) hw
    (by funext a; simp) h
  rw [copies_eq hl] at hc
  have hn := (stores_write (by rw [copies_eq hl]; exact hc)).2
  obtain ⟨h1, -⟩ := solo_true (by
    intro a
    split
    · exact hb _
    · simp) (by
    intro c' a' hm
    obtain ⟨p, q, he⟩ := copies_mem (x := x) (a := Act.load c' a') (by rw [copies_eq hl]; exact hm)
    rw [hw] at he
    simp at he) hs
  have := h1 c hc
  simp only [upd, hn, if_true] at this
  exact ⟨hn, this⟩

/-- A memory of the same size with `true` everywhere. -/
def marksOf (buf : Mem α) : Mem Bool := fun a => (buf a).map fun _ => true

theorem marksOf_ne (buf : Mem α) (a : Int) : marksOf buf a ≠ some false := by
  unfold marksOf
  cases buf a <;> simp

theorem holds_marksOf {f : IoField} {buf : Mem α} {val : List Int → Int → List Int → α} (h : Holds f buf val) :
    Holds f (marksOf buf) (fun _ _ _ => true) := by
  obtain ⟨st, h1, h2⟩ := h
  exact ⟨st, h1, fun cc s g hin => by simp [marksOf, h2 cc s g hin]⟩

/-- Where a call writes a global field: at the places of its elements. -/
theorem stored_global {x : Call} {r : Rank α} {vname : String} {hidden : Bool} {hist : Option Nat}
    (hr : r.Ready vname hidden hist) (hv : x.part = r.v) {fr : Int} (hfr : varFrame x.nb x.frame = .ok fr)
    (hk : HistIdx x.k hist) {c : Cell} (hc : Stores x.copies c) :
    c.1 = x.name ∧ ∃ cc s g, InField r.f cc s g ∧ c.2 = filePos r.f (leadPos hidden fr x.k hist) cc s g := by
  obtain ⟨hw, hn⟩ := stores_write hc
  refine ⟨hn, ?_⟩
  obtain ⟨grid, grid', hreg⟩ := hr.registered
  have hg : r.v.field.isGlobal = true := by
    rw [(registered hr.field hr.scalar hreg).1.field]; exact hr.field.is_global
  obtain ⟨fv', h1, -, -, h4⟩ := C35_write hr.field hr.scalar hreg hfr hk (holds_marksOf hr.holds)
    (fv := ⟨r.v.form.1, r.v.form.2, fun _ => false⟩) rfl
  have h1' : x.part.write x.nb x.frame x.k x.marks (marksOf r.buf) ⟨r.v.form.1, r.v.form.2, fun _ => false⟩ = .ok fv' := by
    rw [hv, Var.write, if_pos hg]; exact h1
  obtain ⟨-, ht⟩ := not_stored hw (marksOf_ne _) (fun _ => rfl) h1' hc
  apply Classical.byContradiction
  intro hno
  rw [h4 c.2 fun cc s g hin he => hno ⟨cc, s, g, hin, he⟩] at ht
  cases ht

/-- Where a call writes a local field: at the entries of its pixels. -/
theorem stored_local {x : Call} {vname : String} {f : IoField} {hist : Option Nat} {total : Int} {size : Nat} {off : Int}
    {ids : List Int} (hr : LocalReady x.part vname f hist total size off ids x.marks) {buf : Mem α}
    {val : List Int → Int → List Int → α} (hb : Holds f buf val) {fr : Int} (hfr : varFrame x.nb x.frame = .ok fr)
    (hk : HistIdx x.k hist) {c : Cell} (hc : Stores x.copies c) :
    c.1 = x.name ∧ ∃ m cc s, off ≤ m ∧ m < off + ids.length ∧ InBox f.layout.comps cc ∧
      c.2 = filePos f (leadPos false fr x.k hist) cc s [m] := by
  obtain ⟨hw, hn⟩ := stores_write hc
  refine ⟨hn, ?_⟩
  obtain ⟨hv, hs, hlen, hnd, ho⟩ := hr.facts
  obtain ⟨hmk, -, -, hrange⟩ := marked_facts hr.nodup hr.off_nonneg hr.inside hr.marked
  obtain ⟨fv', h1, -, -, h4⟩ := writeLocal_spec hv hs hr.field hr.order (by omega) hnd ho hfr hk (holds_marksOf hb)
    (fv := ⟨x.part.form.1, x.part.form.2, fun _ => false⟩) rfl
  rw [← leadPos_eq] at h4
  have hg : x.part.field.isGlobal = false := by rw [hv.field]; exact hr.field.is_local
  have h1' : x.part.write x.nb x.frame x.k x.marks (marksOf buf) ⟨x.part.form.1, x.part.form.2, fun _ => false⟩ =
      .ok fv' := by
    rw [Var.write, if_neg (by simp [hg])]; exact h1
  obtain ⟨-, ht⟩ := not_stored hw (marksOf_ne _) (fun _ => rfl) h1' hc
  apply Classical.byContradiction
  intro hno
  rw [h4 c.2 fun m hm cc s hcc _ _ he => hno ⟨m, cc, s, (hrange m hm).1, (hrange m hm).2, hcc, he⟩] at ht
  cases ht

/-- Serving the processes one after the other, all writing one variable, is `Var.writeRanks`. -/
theorem serveRanks_write {x : Fin n → Call} {r nb frame : Int} {k : Nat} {name : String} (hw : ∀ i, (x i).isWrite = true)
    (hname : ∀ i, (x i).name = name) (hnb : ∀ i, (x i).nb = nb) (hfr : ∀ i, (x i).frame = frame) (hk : ∀ i, (x i).k = k) :
    ∀ (is : List (Fin n)) {s : State n α} {fv' : FileVar α},
      Var.writeRanks nb frame k (is.map fun i => ((x i).part, (x i).marks, s.mem i (x i).buf)) (s.file name) = .ok fv' →
      serveRanks x r is s = .ok ⟨fun m => if m = name then fv' else s.file m, s.mem⟩
  | [], s, fv', h => by
    simp only [List.map_nil, Var.writeRanks, Res.ok.injEq] at h
    subst h
    simp only [serveRanks, Res.ok.injEq]
    cases s with
    | mk file mem =>
      congr 1
      funext m
      by_cases hm : m = name <;> simp [hm]
  | i :: is, s, fv', h => by
    simp only [List.map_cons, Var.writeRanks, Res.bind_eq_ok] at h
    obtain ⟨fv1, h1, h2⟩ := h
    rw [serveRanks, Call.serve, if_pos (hw i), hname i, hnb i, hfr i, hk i, h1]
    simp only [Res.ok_bind, Res.pure_eq]
    rw [serveRanks_write hw hname hnb hfr hk is (fv' := fv') (by simpa using h2)]
    congr 2
    funext m
    by_cases hm : m = name <;> simp [hm]

/-- Serving the processes one after the other, all reading: every process reads the same file. -/
theorem serveRanks_read {x : Fin n → Call} {r : Int} (hw : ∀ i, (x i).isWrite = false) {b : Fin n → Mem α} :
    ∀ (is : List (Fin n)), is.Nodup → ∀ {s : State n α},
      (∀ i ∈ is, (x i).part.read (x i).nb (x i).frame (x i).k (x i).marks r (s.file (x i).name) (s.mem i (x i).buf) =
        .ok (b i)) →
      serveRanks x r is s = .ok ⟨s.file, fun j c => if j ∈ is ∧ c = (x j).buf then b j else s.mem j c⟩
  | [], _, s, _ => by simp [serveRanks]
  | i :: is, hnd, s, h => by
    obtain ⟨hi, hnd'⟩ := List.nodup_cons.1 hnd
    rw [serveRanks, Call.serve, if_neg (by simp [hw i]), h i (by simp)]
    simp only [Res.ok_bind, Res.pure_eq]
    rw [serveRanks_read hw is hnd' (s := ⟨s.file, fun j c => if j = i ∧ c = (x i).buf then b i else s.mem j c⟩) (by
      intro j hj
      have hji : j ≠ i := fun he => hi (he ▸ hj)
      simpa [hji] using h j (by simp [hj]))]
    congr 2
    funext j c
    by_cases hj : j = i
    · subst hj
      simp [hi]
    · simp [hj]

end Verif.Concurrent
