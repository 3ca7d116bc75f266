import Verif.Lemmas.ConcurrentRaces
/-
C87: processes that write and read a file at the same time.
-/
namespace Verif.Props
open Verif Verif.NetCDF Verif.RawMemory Verif.Ccoord Verif.FileIO Verif.Layout Verif.Layout.FieldLayout Verif.Concurrent

variable {α : Type} {n : Nat}

/-- All processes have done all they had to do. -/
def Ended (t : Config n Cell Addr α) : Prop := ∀ i, (t.procs i).prog = []

/-- The file and the memories are those of `s`. -/
def IsState (t : Config n Cell Addr α) (s : State n α) : Prop :=
  (∀ name pos, t.data (name, pos) = (s.file name).data pos) ∧ ∀ i b a, (t.procs i).mem (b, a) = s.mem i b a

/-- In all executions, from every state that is reached: the processes are at the end in the state `s'`, or they go on. -/
def AlwaysReaches (c : Config n Cell Addr α) (s' : State n α) : Prop :=
  ∀ t, Steps c t → (Ended t ∧ IsState t s') ∨ (¬ Ended t ∧ ∃ u, Step t u)

/-- **C87** The processes make the same calls of `write` and `read` in the same order, none writes to a place of the file
that another one uses in the same call, and no call fails if the processes are served in turn.  Then no execution stops
before the end (no process waits for ever, none leaves its memory), and every execution that has come to its end has the
file and the memories that serving the processes in turn gives. -/
theorem C87_calls (hn : 0 < n) {xs : List ((Fin n → Call) × Int)} {s s' : State n α} (ht : ∀ x ∈ xs, Together x.1)
    (hr : ∀ x ∈ xs, RaceFree fun i => (x.1 i).copies) (h : serveAll xs s = .ok s') :
    AlwaysReaches (start s (xs.map (·.1))) s' := by
  intro t hst
  rcases ((good_calls hn ht hr h).steps hn hst).progress hn with ⟨h1, h2, h3⟩ | ⟨⟨i, hi⟩, h2⟩
  · exact .inl ⟨h1, fun name pos => by rw [h2]; rfl, fun i b a => by rw [h3 i]; rfl⟩
  · exact .inr ⟨fun he => hi (he i), h2⟩

/-- **C87** No execution goes on for ever, whatever the calls. -/
theorem C87_finite (hn : 0 < n) (run : Nat → Config n Cell Addr α) : ¬ ∀ k, Step (run k) (run (k + 1)) := by
  intro h
  have hk : ∀ k, (run k).left + k ≤ (run 0).left := by
    intro k
    induction k with
    | zero => omega
    | succ k ih =>
      have := (h k).left_lt hn
      omega
  have := hk ((run 0).left + 1)
  omega

theorem reaches_end (hn : 0 < n) {c : Config n Cell Addr α} {s' : State n α} (h : AlwaysReaches c s') :
    ∀ (k : Nat) (t : Config n Cell Addr α), t.left ≤ k → Steps c t → ∃ u, Steps c u ∧ Ended u ∧ IsState u s' := by
  intro k
  induction k with
  | zero =>
    intro t hk ht
    rcases h t ht with ⟨h1, h2⟩ | ⟨-, u, hu⟩
    · exact ⟨t, ht, h1, h2⟩
    · have := hu.left_lt hn
      omega
  | succ k ih =>
    intro t hk ht
    rcases h t ht with ⟨h1, h2⟩ | ⟨-, u, hu⟩
    · exact ⟨t, ht, h1, h2⟩
    · have := hu.left_lt hn
      exact ih u (by omega) (ht.tail hu)

/-- **C87** From every state that such a program reaches, the end is reached. -/
theorem C87_ends (hn : 0 < n) {xs : List ((Fin n → Call) × Int)} {s s' : State n α} (ht : ∀ x ∈ xs, Together x.1)
    (hr : ∀ x ∈ xs, RaceFree fun i => (x.1 i).copies) (h : serveAll xs s = .ok s') :
    ∃ t, Steps (start s (xs.map (·.1))) t ∧ Ended t ∧ IsState t s' :=
  reaches_end hn (C87_calls hn ht hr h) _ _ (Nat.le_refl _) .refl

/-! ### Which calls do not race -/

/-- **C87** Processes that read do not race. -/
theorem C87_reads_race_free {x : Fin n → Call} (h : ∀ i, (x i).isWrite = false) : RaceFree fun i => (x i).copies :=
  raceFree_reads h

/-- The processes write their parts of one frame (and entry of a state field) of a global field. -/
structure GlobalWrite (x : Fin n → Call) (r : Fin n → Rank α) (vname : String) (hidden : Bool) (hist : Option Nat)
    (fr : Int) (k : Nat) : Prop where
  isWrite : ∀ i, (x i).isWrite = true
  part : ∀ i, (x i).part = (r i).v
  ready : ∀ i, (r i).Ready vname hidden hist
  same : ∀ i j, SameField (r i).f (r j).f
  apart : ∀ i j, i ≠ j → Disjoint (r i) (r j)
  frame : ∀ i, varFrame (x i).nb (x i).frame = .ok fr
  entry : ∀ i, (x i).k = k
  inHist : HistIdx k hist

/-- **C87** Processes that write their parts of a global field do not race if their subdomains do not overlap. -/
theorem C87_global_race_free {x : Fin n → Call} {r : Fin n → Rank α} {vname : String} {hidden : Bool} {hist : Option Nat}
    {fr : Int} {k : Nat} (h : GlobalWrite x r vname hidden hist fr k) : RaceFree fun i => (x i).copies := by
  intro i j hij c hs ht
  have hs' := touches_write (h.isWrite j) ht
  obtain ⟨-, cc, s, g, hin, he⟩ := stored_global (h.ready i) (h.part i) (h.frame i) ((h.entry i).symm ▸ h.inHist) hs
  obtain ⟨-, cc', s', g', hin', he'⟩ := stored_global (h.ready j) (h.part j) (h.frame j) ((h.entry j).symm ▸ h.inHist) hs'
  rw [he, h.entry i, h.entry j] at he'
  obtain ⟨-, rfl⟩ := filePos_inj (h.same i j) hin.1 hin'.1 he'
  exact h.apart i j hij g hin.2.2.2 hin'.2.2.2

/-- The processes write their parts of a local field: pixels, number of the first entry. -/
structure LocalWrite (x : Fin n → Call) (f : Fin n → IoField) (vname : String) (hist : Option Nat) (total : Int)
    (off : Fin n → Int) (ids : Fin n → List Int) (buf : Fin n → Mem α) (fr : Int) (k : Nat) : Prop where
  isWrite : ∀ i, (x i).isWrite = true
  ready : ∀ i, ∃ size, LocalReady (x i).part vname (f i) hist total size (off i) (ids i) (x i).marks
  holds : ∀ i, ∃ val, Holds (f i) (buf i) val
  comps : ∀ i j, (f i).layout.comps = (f j).layout.comps
  apart : ∀ i j, i ≠ j → off i + ((ids i).length : Int) ≤ off j ∨ off j + ((ids j).length : Int) ≤ off i
  frame : ∀ i, varFrame (x i).nb (x i).frame = .ok fr
  entry : ∀ i, (x i).k = k
  inHist : HistIdx k hist

/-- **C87** Processes that write their parts of a local field do not race if the ranges of their entries do not overlap
(as `C33_offsets` computes them). -/
theorem C87_local_race_free {x : Fin n → Call} {f : Fin n → IoField} {vname : String} {hist : Option Nat} {total : Int}
    {off : Fin n → Int} {ids : Fin n → List Int} {buf : Fin n → Mem α} {fr : Int} {k : Nat}
    (h : LocalWrite x f vname hist total off ids buf fr k) : RaceFree fun i => (x i).copies := by
  intro i j hij c hs ht
  have hs' := touches_write (h.isWrite j) ht
  obtain ⟨si, hi⟩ := h.ready i
  obtain ⟨sj, hj⟩ := h.ready j
  obtain ⟨vi, hbi⟩ := h.holds i
  obtain ⟨vj, hbj⟩ := h.holds j
  obtain ⟨-, m, cc, s, h0, h1, hcc, he⟩ := stored_local hi hbi (h.frame i) ((h.entry i).symm ▸ h.inHist) hs
  obtain ⟨-, m', cc', s', h0', h1', hcc', he'⟩ := stored_local hj hbj (h.frame j) ((h.entry j).symm ▸ h.inHist) hs'
  rw [he, h.entry i, h.entry j, filePos_comps (h.comps j i)] at he'
  have hm := filePos_off hcc (by rw [h.comps i j]; exact hcc') he'
  rcases h.apart i j hij with ha | ha <;> omega

/-! ### Writing and reading at the same time -/

theorem forall_isGlobal {r : Rank α} {vname : String} {hidden : Bool} {hist : Option Nat} (h : r.Ready vname hidden hist) :
    r.v.field.isGlobal = true := by
  obtain ⟨grid, grid', hreg⟩ := h.registered
  rw [(NetCDF.registered h.field h.scalar hreg).1.field]
  exact h.field.is_global

theorem pairwise_ranks {r : Fin n → Rank α} (h : ∀ i j, i ≠ j → Disjoint (r i) (r j)) :
    ((List.finRange n).map r).Pairwise Disjoint := by
  rw [List.pairwise_map]
  exact (List.nodup_finRange n).imp fun hne => h _ _ hne

/-- **C87** All processes write their parts of a field into the file at the same time, then all read the same frame, each
for another part of the field (any decomposition, any storage order).  If the parts that are written do not overlap and
cover the domain, then in every execution each process has at the end, for all elements of the part that it has read, the
values of the processes that wrote them; and no execution stops before. -/
theorem C87_write_read (hn : 0 < n) {w d : Fin n → Call} {r q : Fin n → Rank α} {vname name : String} {hidden : Bool}
    {hist : Option Nat} {fr : Int} {k : Nat} {nb frame : Int} (hw : GlobalWrite w r vname hidden hist fr k)
    (hnb : ∀ i, (w i).nb = nb) (hfr : ∀ i, (w i).frame = frame) (hwn : ∀ i, (w i).name = name)
    (hdr : ∀ i, (d i).isWrite = false) (hdp : ∀ i, (d i).part = (q i).v) (hdn : ∀ i, (d i).name = name)
    (hdf : ∀ i, varFrame (d i).nb (d i).frame = .ok fr) (hdk : ∀ i, (d i).k = k)
    (hq : ∀ i, (q i).Ready vname hidden hist) (hqs : ∀ i j, SameField (r i).f (q j).f)
    {dom : List Int} (hdom : ∀ i, (q i).f.nbDomain = dom)
    (hcov : ∀ g, InBox dom g → ∃ i, InBoxAt (r i).f.layout.pixShape (r i).f.loc g)
    {val : List Int → Int → List Int → α}
    (hval : ∀ i cc s g, InField (r i).f cc s g → (r i).val cc s g = val cc s g)
    {s : State n α} (hbuf : ∀ i, s.mem i (w i).buf = (r i).buf) (hqb : ∀ i, s.mem i (d i).buf = (q i).buf)
    (hform : ∀ i, (s.file name).form = (r i).v.form) :
    (∀ t, Steps (start s [w, d]) t → Ended t ∨ ∃ u, Step t u) ∧
    ∀ t, Steps (start s [w, d]) t → Ended t → ∀ i, Holds (q i).f (fun a => (t.procs i).mem ((d i).buf, a)) val := by
  have hhist := hw.inHist
  have hfr0 : varFrame nb frame = .ok fr := by
    have := hw.frame ⟨0, hn⟩
    rwa [hnb, hfr] at this
  have hfrn : 0 ≤ fr := varFrame_nonneg hfr0
  -- the write
  obtain ⟨fv', h1, h2, h3, h4⟩ := C36_values ((List.finRange n).map r) (vname := vname) (hidden := hidden) (hist := hist)
    (by simp [hw.ready]) (by simp [hw.same]) (pairwise_ranks hw.apart) (k := k) hfr0 hhist (fv := s.file name) (by simpa using hform)
  have hser := serveRanks_write (r := 0) hw.isWrite hwn hnb hfr hw.entry (List.finRange n) (s := s) (fv' := fv') (by
    rw [writeRanks_global]
    · rw [← h1]
      simp only [List.map_map]
      congr 1
      refine List.map_congr_left fun i _ => ?_
      simp [hw.part i, hbuf i]
    · simp only [List.mem_map, forall_exists_index, and_imp]
      rintro _ i - rfl
      show (w i).part.field.isGlobal = true
      rw [hw.part i]
      exact forall_isGlobal (hw.ready i))
  -- the read
  have hread : ∀ i, ∃ buf', (d i).part.read (d i).nb (d i).frame (d i).k (d i).marks (fr + 1) fv' (s.mem i (d i).buf) =
      .ok buf' ∧ Holds (q i).f buf' val := by
    intro i
    obtain ⟨fv2, buf', e1, e2, e3⟩ := C36_round_trip ((List.finRange n).map r) (vname := vname) (hidden := hidden)
      (hist := hist) (by simp [hw.ready]) (by simp [hw.same]) (pairwise_ranks hw.apart) (dom := dom)
      (by
        intro g hg
        obtain ⟨j, hj⟩ := hcov g hg
        exact ⟨r j, List.mem_map.2 ⟨j, List.mem_finRange j, rfl⟩, hj⟩)
      (val := val) (by simpa using fun j => hval j) hfr0 (hdf i) (k := k) hhist (numrecs := fr + 1) (by omega)
      (fv := s.file name) (by simpa using hform) (reader := q i) (hq i) (by simp [hqs]) (hdom i)
      (by
        intro he
        have := congrArg List.length he
        simp at this
        omega)
    rw [h1] at e1
    cases e1
    refine ⟨buf', ?_, e3⟩
    rw [hdp i, Var.read, if_pos (forall_isGlobal (hq i)), hdk i, hqb i]
    exact e2
  choose buf' hb1 hb2 using hread
  have hser2 := serveRanks_read (r := fr + 1) hdr (List.finRange n) (List.nodup_finRange n) (b := buf')
    (s := ⟨fun m => if m = name then fv' else s.file m, s.mem⟩) (by
      intro i _
      simpa [hdn i] using hb1 i)
  have hall : serveAll [(w, (0 : Int)), (d, fr + 1)] s = .ok ⟨fun m => if m = name then fv' else s.file m,
      fun j c => if j ∈ List.finRange n ∧ c = (d j).buf then buf' j else s.mem j c⟩ := by
    simp only [serveAll, hser, Res.ok_bind, hser2]
  have hmain := C87_calls hn (xs := [(w, (0 : Int)), (d, fr + 1)]) (by
    intro x hx
    simp only [List.mem_cons, List.not_mem_nil, or_false] at hx
    rcases hx with rfl | rfl
    · intro i j
      exact ⟨by rw [hw.isWrite i, hw.isWrite j], by
        rw [hw.part i, hw.part j, forall_isGlobal (hw.ready i), forall_isGlobal (hw.ready j)], by rw [hwn i, hwn j]⟩
    · intro i j
      exact ⟨by rw [hdr i, hdr j], by
        rw [hdp i, hdp j, forall_isGlobal (hq i), forall_isGlobal (hq j)], by rw [hdn i, hdn j]⟩) (by
    intro x hx
    simp only [List.mem_cons, List.not_mem_nil, or_false] at hx
    rcases hx with rfl | rfl
    · exact C87_global_race_free hw
    · exact C87_reads_race_free hdr) hall
  refine ⟨fun t ht => (hmain t ht).imp (fun h => h.1) fun h => h.2, fun t ht he i => ?_⟩
  rcases hmain t ht with ⟨-, -, hm⟩ | ⟨hne, -⟩
  · have : (fun a => (t.procs i).mem ((d i).buf, a)) = buf' i := by
      funext a
      rw [hm i]
      simp [List.mem_finRange]
    rw [this]
    exact hb2 i
  · exact absurd he hne

/-! ### An example: four pixels, two processes -/

/-- A scalar on two of the four pixels of a line, from pixel `l` on. -/
def exStrip (l : Int) : IoField := ⟨"T", "", ⟨.colMajor, [1], 1, [2], [1], 2⟩, 2, true, [4], [l], .real⟩

def exStripVar (l : Int) : Var :=
  ⟨"T", exStrip l, none, [⟨"frame", 0⟩, ⟨"tensor_dim__T-0", 1⟩, ⟨"nx", 4⟩], false, ""⟩

/-- The pixel `p` has the value `10 p`. -/
def exStripRank (l : Int) : Rank Int :=
  ⟨exStripVar l, exStrip l, fun a => if a = 0 then some (10 * l) else if a = 1 then some (10 * l + 10) else none,
    fun _ _ g => 10 * g.headD 0⟩

/-- The memory for reading, with zeros. -/
def exStripEmpty (l : Int) : Rank Int :=
  ⟨exStripVar l, exStrip l, fun a => if a = 0 ∨ a = 1 then some 0 else none, fun _ _ _ => 0⟩

theorem exStrip_inField {l : Int} {cc : List Int} {s : Int} {g : List Int} (h : InField (exStrip l) cc s g) :
    cc = [0] ∧ s = 0 ∧ (g = [l] ∨ g = [l + 1]) := by
  obtain ⟨hcc, hs0, hs1, hg⟩ := h
  rcases cc with _ | ⟨x, _ | ⟨y, cc⟩⟩ <;> simp [exStrip, InBox] at hcc
  rcases g with _ | ⟨z, _ | ⟨y, g⟩⟩ <;> simp [exStrip, InBoxAt] at hg
  simp only [exStrip] at hs1
  refine ⟨by rw [show x = 0 by omega], by omega, ?_⟩
  simp only [List.cons.injEq, and_true]
  omega

theorem exStripRank_ready {l : Int} (hl : l = 0 ∨ l = 2) : (exStripRank l).Ready "T" false none := by
  refine ⟨?_, by simp, ?_, [1, 1, 1], rfl, ?_⟩
  · rcases hl with rfl | rfl <;>
      exact ⟨by decide, by decide, by decide, by decide, rfl, by decide, by decide, addressing_acc [2]⟩
  · rcases hl with rfl | rfl <;> exact ⟨[0], [4], by decide +kernel⟩
  · intro cc s g hin
    obtain ⟨rfl, rfl, rfl | rfl⟩ := exStrip_inField hin <;>
      simp [exStripRank, exStrip, memPos, relCoord, dot]
    omega

theorem exStripEmpty_ready {l : Int} (hl : l = 0 ∨ l = 2) : (exStripEmpty l).Ready "T" false none := by
  refine ⟨?_, by simp, ?_, [1, 1, 1], rfl, ?_⟩
  · rcases hl with rfl | rfl <;>
      exact ⟨by decide, by decide, by decide, by decide, rfl, by decide, by decide, addressing_acc [2]⟩
  · rcases hl with rfl | rfl <;> exact ⟨[0], [4], by decide +kernel⟩
  · intro cc s g hin
    obtain ⟨rfl, rfl, rfl | rfl⟩ := exStrip_inField hin <;>
      simp [exStripEmpty, exStrip, memPos, relCoord, dot]

/-- Process `i` writes its memory 0: the left or the right half. -/
def exStripWrite (i : Fin 2) : Call := ⟨true, "T", 1, 0, 0, exStripVar (2 * i.val), [], 0⟩

/-- Then it reads the other half into its memory 1. -/
def exStripRead (i : Fin 2) : Call := ⟨false, "T", 1, 0, 0, exStripVar (2 - 2 * i.val), [], 1⟩

def exStripState : State 2 Int :=
  ⟨fun _ => ⟨fileShape (exStripVar 0).dims, .double, fun _ => 0⟩,
    fun i b => if b = 0 then (exStripRank (2 * i.val)).buf else (exStripEmpty (2 - 2 * i.val)).buf⟩

theorem exStrip_write : GlobalWrite exStripWrite (fun i => exStripRank (2 * i.val)) "T" false none 0 0 := by
  refine ⟨fun _ => rfl, fun _ => rfl, fun i => exStripRank_ready (by omega), fun _ _ => ⟨rfl, rfl, rfl, rfl⟩, ?_,
    fun _ => rfl, fun _ => rfl, rfl⟩
  intro i j hij g h1 h2
  rcases g with _ | ⟨z, _ | ⟨y, g⟩⟩ <;> simp [exStripRank, exStrip, InBoxAt] at h1 h2
  omega

/-- Two processes write the halves of the line and read each other's half, at any speed: both see the values of the
other. -/
example : (∀ t, Steps (start exStripState [exStripWrite, exStripRead]) t → Ended t ∨ ∃ u, Step t u) ∧
    ∀ t, Steps (start exStripState [exStripWrite, exStripRead]) t → Ended t →
      ∀ i : Fin 2, Holds (exStripEmpty (2 - 2 * i.val)).f (fun a => (t.procs i).mem (1, a)) fun _ _ g => 10 * g.headD 0 := by
  refine C87_write_read (by decide) (d := exStripRead) (q := fun i => exStripEmpty (2 - 2 * i.val)) (nb := 1) (frame := 0)
    (name := "T") (dom := [4]) exStrip_write (fun _ => rfl) (fun _ => rfl) (fun _ => rfl) (fun _ => rfl) (fun _ => rfl)
    (fun _ => rfl) (fun _ => rfl) (fun _ => rfl) (fun i => exStripEmpty_ready (by omega))
    (fun _ _ => ⟨rfl, rfl, rfl, rfl⟩) (fun _ => rfl) ?_ (fun _ _ _ _ _ => rfl) (fun _ => rfl) (fun _ => rfl)
    (fun _ => rfl)
  intro g hg
  rcases g with _ | ⟨z, _ | ⟨y, g⟩⟩ <;> simp [InBox] at hg
  by_cases hz : z < 2
  · exact ⟨0, by simp [exStripRank, exStrip, InBoxAt]; omega⟩
  · exact ⟨1, by simp [exStripRank, exStrip, InBoxAt]; omega⟩

/-- Two processes with one pixel each of a local field (`exRankA`, `exRankB`) write their entries 0 and 1. -/
def exEntriesWrite (i : Fin 2) : Call :=
  ⟨true, "c", 1, 0, 0, exScalarVar 1, if i = 0 then [-1, 0] else [1, -1], 0⟩

example : LocalWrite exEntriesWrite (fun _ => exScalar 1) "c" none 2 (fun i => i.val)
    (fun i => if i = 0 then [1] else [0]) (fun i => if i = 0 then exRankA.buf else exRankB.buf) 0 0 := by
  refine ⟨fun _ => rfl, ?_, ?_, fun _ _ => rfl, ?_, fun _ => rfl, fun _ => rfl, rfl⟩
  · intro i
    match i with
    | 0 => exact ⟨2, exRankA_ready.ready⟩
    | 1 => exact ⟨2, exRankB_ready.ready⟩
  · intro i
    match i with
    | 0 => exact ⟨_, exRankA_ready.holds⟩
    | 1 => exact ⟨_, exRankB_ready.holds⟩
  · intro i j hij
    match i, j with
    | 0, 0 => exact absurd rfl hij
    | 1, 1 => exact absurd rfl hij
    | 0, 1 => left; decide
    | 1, 0 => right; decide

/-! ### What goes wrong otherwise -/

/-- The actions of a call begin with a collective call. -/
theorem prog_head (x : Call) : x.prog.1 = [] ∨ ∃ t rest, x.prog.1 = .sync t :: rest := by
  unfold Call.prog
  split
  · split
    · exact .inr ⟨_, _, rfl⟩
    · exact .inr ⟨_, _, rfl⟩
  · split
    · split
      · exact .inr ⟨_, _, rfl⟩
      · exact .inl rfl
    · exact .inl rfl

/-- **C87** If the next call throws on one process because of its frame (for instance because only the others have called
`append_frame`) and not on another one, that other process waits for ever: nothing moves any more. -/
theorem C87_hangs {x : Fin n → Call} (xs : List (Fin n → Call)) (s : State n α) {i j : Fin n}
    (hi : ∀ f, handleFrame (x i).frame (x i).nb ≠ .ok f) {l : List (Act Cell Addr)} (hj : (x j).acts = .ok l) :
    ¬ Ended (start s (x :: xs)) ∧ ¬ ∃ u, Step (start s (x :: xs)) u := by
  have hpi : ((start s (x :: xs)).procs i).prog = [] := by
    have ha : ∀ l, (x i).acts ≠ .ok l := by
      intro l hl
      unfold Call.acts cells at hl
      rw [Res.bind_eq_ok] at hl
      obtain ⟨p, hp, -⟩ := hl
      split at hp <;>
      · rw [Res.bind_eq_ok] at hp
        obtain ⟨f, hf, -⟩ := hp
        exact hi f hf
    have hp : (x i).prog = ([], false) := by
      unfold Call.prog
      split
      · rename_i l hl
        exact absurd hl (ha l)
      · split
        · rename_i f hf
          exact absurd hf (hi f)
        · rfl
    simp [start, program, hp]
  have hhead : ∀ m, ((start s (x :: xs)).procs m).prog = [] ∨
      ∃ t rest, ((start s (x :: xs)).procs m).prog = .sync t :: rest := by
    intro m
    show program (x m :: xs.map fun x => x m) = [] ∨ ∃ t rest, program (x m :: xs.map fun x => x m) = .sync t :: rest
    rw [program]
    rcases prog_head (x m) with h | ⟨t, rest, h⟩
    · have hf : (x m).prog.2 = false := by
        unfold Call.prog at h ⊢
        split at h
        · split at h <;> simp at h
        · split at h
          · split at h
            · simp at h
            · rename_i hc
              simp [hc]
          · rfl
      rw [hf, h]
      exact .inl rfl
    · right
      rw [h]
      split
      · exact ⟨t, _, rfl⟩
      · exact ⟨t, rest, rfl⟩
  refine ⟨fun he => ?_, ?_⟩
  · have := he j
    have hp : (x j).prog.1 ≠ [] := by
      unfold Call.prog
      rw [hj]
      dsimp only
      split <;> simp
    change program (x j :: xs.map fun x => x j) = [] at this
    rw [program] at this
    split at this
    · exact hp (List.append_eq_nil_iff.1 this).1
    · exact hp this
  · rintro ⟨u, hu⟩
    cases hu with
    | @act m a rest d' m' hp he =>
      rcases hhead m with h | ⟨t, rest', h⟩
      · rw [h] at hp; cases hp
      · rw [h] at hp
        cases hp
        simp [exec] at he
    | collective t hall =>
      obtain ⟨rest, hr⟩ := hall i
      rw [hpi] at hr
      cases hr

/-- Process 0 has appended a frame, process 1 has not; both write frame 0. -/
example : ¬ Ended (start exStripState [fun i => { exStripWrite i with nb := 1 - i.val }]) ∧
    ¬ ∃ u, Step (start exStripState [fun i => { exStripWrite i with nb := 1 - i.val }]) u := by
  refine C87_hangs [] exStripState (i := 1) (j := 0) ?_ (l := (exStripWrite 0).copies) (by decide +kernel)
  intro f
  show handleFrame 0 (1 - 1) ≠ .ok f
  simp [handleFrame]

/-- An execution with a given order: `some i` is a step of the process, `none` a collective call. -/
def fire (s : Config 2 Cell Addr Int) : Option (Fin 2) → Option (Config 2 Cell Addr Int)
  | some i =>
      match (s.procs i).prog with
      | [] => none
      | a :: rest => (exec s.data (s.procs i).mem a).map fun p => ⟨p.1, Function.update s.procs i ⟨rest, p.2⟩⟩
  | none =>
      match (s.procs 0).prog, (s.procs 1).prog with
      | .sync t :: _, .sync u :: _ =>
          if t = u then some ⟨s.data, fun i => ⟨(s.procs i).prog.tail, (s.procs i).mem⟩⟩ else none
      | _, _ => none

/-- Several of them. -/
def fires : List (Option (Fin 2)) → Config 2 Cell Addr Int → Option (Config 2 Cell Addr Int)
  | [], s => some s
  | o :: os, s => (fire s o).bind (fires os)

theorem fire_step {s t : Config 2 Cell Addr Int} {o : Option (Fin 2)} (h : fire s o = some t) : Step s t := by
  cases o with
  | some i =>
    simp only [fire] at h
    cases hp : (s.procs i).prog with
    | nil => rw [hp] at h; cases h
    | cons a rest =>
      rw [hp] at h
      simp only [Option.map_eq_some_iff] at h
      obtain ⟨p, hp2, rfl⟩ := h
      exact .act i hp hp2
  | none =>
    simp only [fire] at h
    split at h
    · rename_i t1 r1 t2 r2 h1 h2
      split at h
      · rename_i he
        cases h
        refine .collective t1 fun i => ?_
        match i with
        | 0 => exact ⟨r1, h1⟩
        | 1 => exact ⟨r2, he ▸ h2⟩
      · cases h
    · cases h

theorem fires_steps {os : List (Option (Fin 2))} {s t u : Config 2 Cell Addr Int} (hs : Steps s t)
    (h : fires os t = some u) : Steps s u := by
  induction os generalizing t with
  | nil => cases h; exact hs
  | cons o os ih =>
    simp only [fires] at h
    cases ho : fire t o with
    | none => rw [ho] at h; cases h
    | some v =>
      rw [ho] at h
      exact ih (hs.tail (fire_step ho)) h

/-- Both processes write the left half; the memory of process 1 has other values. -/
def exClash (_ : Fin 2) : Call := ⟨true, "T", 1, 0, 0, exStripVar 0, [], 0⟩

theorem exClash_run (os : List (Option (Fin 2))) (v : Int)
    (h : (fires os (start exStripState [exClash])).map (fun t => (t.data ("T", [0, 0, 1]), (t.procs 0).prog.length,
      (t.procs 1).prog.length)) = some (v, 0, 0)) : ∃ t, Steps (start exStripState [exClash]) t ∧ Ended t ∧ t.data ("T", [0, 0, 1]) = v := by
  rw [Option.map_eq_some_iff] at h
  obtain ⟨t, ht, he⟩ := h
  simp only [Prod.mk.injEq] at he
  refine ⟨t, fires_steps .refl ht, fun i => ?_, he.1⟩
  match i with
  | 0 => exact List.length_eq_zero_iff.1 he.2.1
  | 1 => exact List.length_eq_zero_iff.1 he.2.2

/-- **C87** If the parts overlap, the file at the end depends on the speed of the processes: here pixel 1 gets the value 10
of the one process or the value 30 of the other. -/
theorem C87_overlap : (∃ t, Steps (start exStripState [exClash]) t ∧ Ended t ∧ t.data ("T", [0, 0, 1]) = 10) ∧
    ∃ t, Steps (start exStripState [exClash]) t ∧ Ended t ∧ t.data ("T", [0, 0, 1]) = 30 :=
  ⟨exClash_run [none, some 1, some 1, some 0, some 0] 10 (by decide +kernel),
    exClash_run [none, some 0, some 1, some 0, some 1] 30 (by decide +kernel)⟩

end Verif.Props
