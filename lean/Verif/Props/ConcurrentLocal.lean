import Verif.Props.Concurrent
/-
C87 for local fields: processes that write and read the values of their pixels at the same time.
-/
namespace Verif.Props
open Verif Verif.NetCDF Verif.RawMemory Verif.Ccoord Verif.FileIO Verif.Layout Verif.Layout.FieldLayout Verif.Concurrent

variable {α : Type} {n : Nat}

/-- A process that reads a local field into the memory `buf`: `coord p` is the pixel of the domain with the number `p`,
`ids` are the pixels of the collection and `marks` the entries of all pixels of the subdomain. -/
structure LocalReader (α G : Type) where
  v : Var
  f : IoField
  size : Nat
  ids : List Int
  marks : List Int
  buf : Mem α
  coord : Int → G

/-- The reading process has registered the same field; its entries `M` are those of the file; its collection has exactly the
pixels that belong to the collection of some writing process, in ascending order. -/
structure LocalReader.Fits {G : Type} (q : LocalReader α G) (r : Fin n → LocalRank α G) (vname : String) (hist : Option Nat)
    (total : Int) (M : G → Int) : Prop where
  field : LocalField q.f q.ids.length
  order : q.f.layout.order = .colMajor ∨ q.f.layout.nbDof = 1
  registered : ∃ lname marks0, registerLocalVar vname q.f hist total lname marks0 = .ok q.v
  ty : ∀ i, (r i).f.ty = q.f.ty
  comps : ∀ i, (r i).f.layout.comps = q.f.layout.comps
  subPts : ∀ i, (r i).f.layout.nbSub = q.f.layout.nbSub
  ascending : q.ids.Pairwise (· < ·)
  inside : ∀ p ∈ q.ids, 0 ≤ p ∧ p < (q.size : Int)
  entries : q.marks = (List.range q.size).map fun (p : Nat) => M (q.coord p)
  cover : ∀ p : Nat, p < q.size → ∃ i, ∃ p' : Nat, p' < (r i).size ∧ (r i).coord p' = q.coord p
  pixels : ∀ p : Nat, p < q.size → ((p : Int) ∈ q.ids ↔ ∃ i, ∃ p' ∈ (r i).ids, (r i).coord p' = q.coord p)
  holds : ∃ val, Holds q.f q.buf val

theorem local_not_global {v : Var} {vname : String} {f : IoField} {hist : Option Nat} {total : Int} {m : Nat}
    (hf : LocalField f m) (ht : 0 < total) {lname : String} {marks0 : List Int}
    (hreg : registerLocalVar vname f hist total lname marks0 = .ok v) : v.field.isGlobal = false := by
  obtain ⟨hv, -⟩ := registered_local hf ht hreg
  rw [hv.field]
  exact hf.is_local

/-- **C87** All processes write the values of their pixels of a local field at the same time, then all read the same frame,
each for other pixels.  If every process has entries of its own, the pixels are in ascending order everywhere and the
reading processes have the pixels that were written, then in every execution each process has at the end, for each of its
pixels, the values of the process that wrote this pixel; and no execution stops before. -/
theorem C87_local_write_read {G : Type} (hn : 0 < n) {w d : Fin n → Call} {r : Fin n → LocalRank α G}
    {q : Fin n → LocalReader α G} {vname name : String} {hist : Option Nat} {total fr : Int} {k : Nat} {nb frame : Int}
    {val : List Int → Int → G → α} {M : G → Int} (hw : ∀ i, (w i).isWrite = true) (hwp : ∀ i, (w i).part = (r i).v)
    (hwm : ∀ i, (w i).marks = (r i).marks) (hwn : ∀ i, (w i).name = name) (hnb : ∀ i, (w i).nb = nb)
    (hfr : ∀ i, (w i).frame = frame) (hwk : ∀ i, (w i).k = k) (hf0 : varFrame nb frame = .ok fr) (hhist : HistIdx k hist)
    (hr : ∀ i, (r i).Ready vname hist total val) (hap : ∀ i j, i ≠ j → (r i).Apart (r j))
    (hM : ∀ i, ∀ p : Nat, p < (r i).size → (r i).marks[p]? = some (M ((r i).coord p)))
    (hd : ∀ i, (d i).isWrite = false) (hdp : ∀ i, (d i).part = (q i).v) (hdm : ∀ i, (d i).marks = (q i).marks)
    (hdn : ∀ i, (d i).name = name) (hdf : ∀ i, varFrame (d i).nb (d i).frame = .ok fr) (hdk : ∀ i, (d i).k = k)
    (hq : ∀ i, (q i).Fits r vname hist total M)
    {s : State n α} (hbuf : ∀ i, s.mem i (w i).buf = (r i).buf) (hqb : ∀ i, s.mem i (d i).buf = (q i).buf)
    (hform : ∀ i, (s.file name).form = (r i).v.form) :
    (∀ t, Steps (start s [w, d]) t → Ended t ∨ ∃ u, Step t u) ∧
    ∀ t, Steps (start s [w, d]) t → Ended t → ∀ i,
      Holds (q i).f (fun a => (t.procs i).mem ((d i).buf, a)) (atPixels (q i).ids fun cc s p => val cc s ((q i).coord p)) := by
  have hfrn : 0 ≤ fr := varFrame_nonneg hf0
  have htot : 0 < total := (hr ⟨0, hn⟩).ready.total_pos
  have hrl : ∀ i, (r i).v.field.isGlobal = false := by
    intro i
    obtain ⟨lname, marks0, hreg⟩ := (hr i).ready.registered
    exact local_not_global (hr i).ready.field htot hreg
  have hql : ∀ i, (q i).v.field.isGlobal = false := by
    intro i
    obtain ⟨lname, marks0, hreg⟩ := (hq i).registered
    exact local_not_global (hq i).field htot hreg
  have hpw : ((List.finRange n).map r).Pairwise LocalRank.Apart := by
    rw [List.pairwise_map]
    exact (List.nodup_finRange n).imp fun hne => hap _ _ hne
  -- what each process reads when they are served in turn
  have hboth : ∀ i, ∃ fv' buf', Var.writeAllLocal nb frame k (((List.finRange n).map r).map fun r => (r.v, r.marks, r.buf))
      (s.file name) = .ok fv' ∧
      (q i).v.readLocal (d i).nb (d i).frame k (q i).marks (fr + 1) fv' (q i).buf = .ok buf' ∧
      Holds (q i).f buf' (atPixels (q i).ids fun cc s p => val cc s ((q i).coord p)) := by
    intro i
    obtain ⟨lname, marks0, hreg⟩ := (hq i).registered
    obtain ⟨val', hh⟩ := (hq i).holds
    refine C37_redistribute_partial ((List.finRange n).map r) ?_ (by simp [hr]) hpw hf0 (hdf i) hhist (by omega)
      (by simpa using hform) (by simpa using hM) (hq i).field (hq i).order hreg (by simpa using (hq i).ty)
      (by simpa using (hq i).comps) (by simpa using (hq i).subPts) (hq i).ascending (hq i).inside (hq i).entries ?_ ?_ hh
    · intro he
      have := congrArg List.length he
      simp at this
      omega
    · intro p hp
      obtain ⟨j, p', h1, h2⟩ := (hq i).cover p hp
      exact ⟨r j, List.mem_map.2 ⟨j, List.mem_finRange j, rfl⟩, p', h1, h2⟩
    · intro p hp
      rw [(hq i).pixels p hp]
      simp
  obtain ⟨fv', -, hwr, -, -⟩ := hboth ⟨0, hn⟩
  have hser := serveRanks_write (r := 0) hw hwn hnb hfr hwk (List.finRange n) (s := s) (fv' := fv') (by
    rw [writeRanks_local]
    · rw [← hwr]
      simp only [List.map_map]
      congr 1
      refine List.map_congr_left fun i _ => ?_
      simp [hwp i, hwm i, hbuf i]
    · simp only [List.mem_map, forall_exists_index, and_imp]
      rintro _ i - rfl
      show (w i).part.field.isGlobal = false
      rw [hwp i]
      exact hrl i)
  have hread : ∀ i, ∃ buf', (d i).part.read (d i).nb (d i).frame (d i).k (d i).marks (fr + 1) fv' (s.mem i (d i).buf) =
      .ok buf' ∧ Holds (q i).f buf' (atPixels (q i).ids fun cc s p => val cc s ((q i).coord p)) := by
    intro i
    obtain ⟨fv2, buf', e1, e2, e3⟩ := hboth i
    rw [hwr] at e1
    cases e1
    refine ⟨buf', ?_, e3⟩
    rw [hdp i, Var.read, if_neg (by simp [hql i]), hdk i, hqb i, hdm i]
    exact e2
  choose buf' hb1 hb2 using hread
  have hser2 := serveRanks_read (r := fr + 1) hd (List.finRange n) (List.nodup_finRange n) (b := buf')
    (s := ⟨fun m => if m = name then fv' else s.file m, s.mem⟩) (by
      intro i _
      simpa [hdn i] using hb1 i)
  have hall : serveAll [(w, (0 : Int)), (d, fr + 1)] s = .ok ⟨fun m => if m = name then fv' else s.file m,
      fun j c => if j ∈ List.finRange n ∧ c = (d j).buf then buf' j else s.mem j c⟩ := by
    simp only [serveAll, hser, Res.ok_bind, hser2]
  have hlw : LocalWrite w (fun i => (r i).f) vname hist total (fun i => (r i).off) (fun i => (r i).ids)
      (fun i => (r i).buf) fr k := by
    refine ⟨hw, fun i => ⟨(r i).size, ?_⟩, fun i => ⟨_, (hr i).holds⟩, fun i j => ?_, hap, fun i => ?_, hwk, hhist⟩
    · rw [hwp i, hwm i]; exact (hr i).ready
    · rw [(hq i).comps i, (hq i).comps j]
    · rw [hnb i, hfr i]; exact hf0
  have hmain := C87_calls hn (xs := [(w, (0 : Int)), (d, fr + 1)]) (by
    intro x hx
    simp only [List.mem_cons, List.not_mem_nil, or_false] at hx
    rcases hx with rfl | rfl
    · intro i j
      exact ⟨by rw [hw i, hw j], by rw [hwp i, hwp j, hrl i, hrl j], by rw [hwn i, hwn j]⟩
    · intro i j
      exact ⟨by rw [hd i, hd j], by rw [hdp i, hdp j, hql i, hql j], by rw [hdn i, hdn j]⟩) (by
    intro x hx
    simp only [List.mem_cons, List.not_mem_nil, or_false] at hx
    rcases hx with rfl | rfl
    · exact C87_local_race_free hlw
    · exact C87_reads_race_free hd) hall
  refine ⟨fun t ht => (hmain t ht).imp (fun h => h.1) fun h => h.2, fun t ht he i => ?_⟩
  rcases hmain t ht with ⟨-, -, hm⟩ | ⟨hne, -⟩
  · have : (fun a => (t.procs i).mem ((d i).buf, a)) = buf' i := by
      funext a
      rw [hm i]
      simp [List.mem_finRange]
    rw [this]
    exact hb2 i
  · exact absurd he hne

/-! ### An example: two processes write one pixel each, then both read both -/

def exPairRank (i : Fin 2) : LocalRank Int Int := if i = 0 then exRankA else exRankB

def exPairReader : LocalReader Int Int :=
  ⟨exScalarVar 2, exScalar 2, 4, [1, 2], [-1, 0, 1, -1], fun a => if 0 ≤ a ∧ a < 2 then some 0 else none, fun p => p⟩

def exPairRead (_ : Fin 2) : Call := ⟨false, "c", 1, 0, 0, exScalarVar 2, [-1, 0, 1, -1], 1⟩

def exPairState : State 2 Int :=
  ⟨fun _ => ⟨fileShape (exScalarVar 1).dims, .double, fun _ => 0⟩,
    fun i b => if b = 0 then (exPairRank i).buf else exPairReader.buf⟩

theorem exPairReader_fits : exPairReader.Fits exPairRank "c" none 2 exScalarEntry := by
  refine ⟨exScalar_field 2, Or.inl rfl, ⟨"inc", [], by decide +kernel⟩, ?_, ?_, ?_, by decide, by decide, by decide, ?_, ?_,
    fun _ _ _ => 0, [1, 1, 1], by decide, ?_⟩
  · intro i; match i with | 0 => rfl | 1 => rfl
  · intro i; match i with | 0 => rfl | 1 => rfl
  · intro i; match i with | 0 => rfl | 1 => rfl
  · intro p hp
    by_cases h : p < 2
    · exact ⟨0, p, h, rfl⟩
    · have hp' : p < 4 := hp
      exact ⟨1, p - 2, by show p - 2 < 2; omega, by show ((p - 2 : Nat) : Int) + 2 = p; omega⟩
  · intro p hp
    have hp' : p < 4 := hp
    have he : ∀ P : Fin 2 → Prop, (∃ i, P i) ↔ P 0 ∨ P 1 := by
      intro P
      constructor
      · rintro ⟨i, hi⟩
        match i, hi with
        | 0, hi => exact .inl hi
        | 1, hi => exact .inr hi
      · rintro (h | h)
        · exact ⟨0, h⟩
        · exact ⟨1, h⟩
    rw [he]
    show (p : Int) ∈ [1, 2] ↔ (∃ p' ∈ [(1 : Int)], p' = (p : Int)) ∨ ∃ p' ∈ [(0 : Int)], p' + 2 = (p : Int)
    simp
    omega
  · intro cc s g hin
    obtain ⟨hcc, hs0, hs1, i, hi0, hi1, rfl⟩ := (local_inField (exScalar_field 2)).1 hin
    rcases cc with _ | ⟨x, _ | ⟨y, cc⟩⟩ <;> simp [exScalar, InBox] at hcc hs1 hi1
    obtain rfl : x = 0 := by omega
    obtain rfl : s = 0 := by omega
    have : memPos (exScalar 2) [1, 1, 1] [0] 0 [i] = i := by
      simp [memPos, exScalar, relCoord, dot]
    show exPairReader.buf (memPos (exScalar 2) [1, 1, 1] [0] 0 [i]) = _
    rw [this]
    exact if_pos ⟨hi0, hi1⟩

example : ∀ t, Steps (start exPairState [exEntriesWrite, exPairRead]) t → Ended t → ∀ i : Fin 2,
    Holds (exScalar 2) (fun a => (t.procs i).mem (1, a)) (atPixels [1, 2] fun cc s p => exScalarVal cc s p) := by
  refine (C87_local_write_read (by decide) (w := exEntriesWrite) (d := exPairRead) (r := exPairRank) (q := fun _ => exPairReader)
    (vname := "c") (name := "c") (hist := none) (total := 2) (fr := 0) (k := 0) (nb := 1) (frame := 0) (val := exScalarVal)
    (M := exScalarEntry) (fun _ => rfl) ?_ ?_ (fun _ => rfl) (fun _ => rfl) (fun _ => rfl) (fun _ => rfl) rfl rfl ?_ ?_ ?_
    (fun _ => rfl) (fun _ => rfl) (fun _ => rfl) (fun _ => rfl) (fun _ => rfl) (fun _ => rfl) (fun _ => exPairReader_fits) ?_
    (fun _ => rfl) ?_).2
  · intro i; match i with | 0 => rfl | 1 => rfl
  · intro i; match i with | 0 => rfl | 1 => rfl
  · intro i; match i with | 0 => exact exRankA_ready | 1 => exact exRankB_ready
  · intro i j hij
    match i, j with
    | 0, 0 => exact absurd rfl hij
    | 1, 1 => exact absurd rfl hij
    | 0, 1 => simp [LocalRank.Apart, exPairRank, exRankA, exRankB]
    | 1, 0 => simp [LocalRank.Apart, exPairRank, exRankA, exRankB]
  · intro i p hp
    match i with
    | 0 =>
      have : p = 0 ∨ p = 1 := by change p < 2 at hp; omega
      rcases this with rfl | rfl <;> decide
    | 1 =>
      have : p = 0 ∨ p = 1 := by change p < 2 at hp; omega
      rcases this with rfl | rfl <;> decide
  · intro i; match i with | 0 => rfl | 1 => rfl
  · intro i; match i with | 0 => rfl | 1 => rfl

end Verif.Props
