import Verif.Lemmas.Concurrent
/-
The calls of all processes, one process after the other, are the sequential run of the actions.
-/
set_option linter.unusedSectionVars false

namespace Verif.Concurrent
open Verif Verif.NetCDF Verif.RawMemory Verif.Ccoord Verif.FileIO

variable {α : Type} {n : Nat}

/-- A file in which one variable is exchanged. -/
def upd (D : Cell → α) (name : String) (d : List Int → α) : Cell → α := fun c => if c.1 = name then d c.2 else D c

/-- A memory in which one buffer is exchanged. -/
def updM (M : Addr → Option α) (b : Nat) (buf : Mem α) : Addr → Option α :=
  fun a => if a.1 = b then buf a.2 else M a

theorem put_solo (D : Cell → α) (name : String) (M : Addr → Option α) (b : Nat) (start stride imap : List Int) (off : Int) :
    ∀ (cs : List (List Int)) {d d' : List Int → α},
      putLoop start stride imap (fun a => M (b, off + a)) cs d = .ok d' →
      solo (cs.map fun c => Act.store (name, target start stride c) (b, off + linearIndex c imap)) (upd D name d) M =
        some (upd D name d', M)
  | [], d, d', h => by
    simp only [putLoop, Res.ok.injEq] at h
    simp [solo, h]
  | c :: cs, d, d', h => by
    simp only [putLoop] at h
    cases hx : M (b, off + linearIndex c imap) with
    | none => rw [hx] at h; simp at h
    | some v =>
      rw [hx] at h
      have ih := put_solo D name M b start stride imap off cs h
      simp only [List.map_cons, solo, exec, hx, Option.map_some, Option.bind_some]
      rw [← ih]
      congr 1
      funext y
      obtain ⟨y1, y2⟩ := y
      simp only [upd, Prod.mk.injEq]
      by_cases h1 : y1 = name <;> simp [h1]

theorem get_solo (D : Cell → α) (name : String) (M : Addr → Option α) (b : Nat) (start stride imap : List Int) (off : Int)
    (d : List Int → α) : ∀ (cs : List (List Int)) {buf buf' : Mem α},
      getLoop start stride imap d cs (fun a => buf (off + a)) = .ok buf' →
      solo (cs.map fun c => Act.load (name, target start stride c) (b, off + linearIndex c imap)) (upd D name d)
        (updM M b buf) = some (upd D name d, updM M b (fun a => buf' (a - off)))
  | [], buf, buf', h => by
    simp only [getLoop, Res.ok.injEq] at h
    subst h
    simp only [List.map_nil, solo, Option.some.injEq, Prod.mk.injEq, true_and]
    congr 1
    funext a
    congr 1
    omega
  | c :: cs, buf, buf', h => by
    simp only [getLoop] at h
    cases hx : buf (off + linearIndex c imap) with
    | none => rw [hx] at h; simp at h
    | some v =>
      rw [hx] at h
      have hw : Mem.write (fun a => buf (off + a)) (linearIndex c imap) (d (target start stride c)) =
          fun a => (buf.write (off + linearIndex c imap) (d (target start stride c))) (off + a) := by
        funext a
        simp only [Mem.write, Int.add_right_inj]
      simp only [hw] at h
      have ih := get_solo D name M b start stride imap off d cs h
      have hu : updM M b buf (b, off + linearIndex c imap) = some v := by simp [updM, hx]
      simp only [List.map_cons, solo, exec, hu, Option.map_some, Option.bind_some]
      rw [← ih]
      congr 1
      funext y
      obtain ⟨y1, y2⟩ := y
      simp only [upd, updM, Mem.write, Prod.mk.injEq]
      by_cases h1 : y1 = b <;> simp [h1]

theorem putVarm_ok {fv fv' : FileVar α} {start count stride imap : List Int} {buf : Mem α}
    (h : putVarm fv start count stride imap buf = .ok fv') :
    ∃ d, putLoop start stride imap buf (boxIndices count) fv.data = .ok d ∧ fv' = { fv with data := d } := by
  unfold putVarm at h
  rw [Res.bind_eq_ok] at h
  obtain ⟨u, -, h⟩ := h
  split at h
  · simp at h
  · rw [Res.bind_eq_ok] at h
    obtain ⟨d, hd, h⟩ := h
    exact ⟨d, hd, by simpa using h.symm⟩

theorem getVarm_ok {fv : FileVar α} {numrecs : Int} {start count stride imap : List Int} {buf buf' : Mem α}
    (h : getVarm fv numrecs start count stride imap buf = .ok buf') :
    getLoop start stride imap fv.data (boxIndices count) buf = .ok buf' := by
  unfold getVarm at h
  rw [Res.bind_eq_ok] at h
  obtain ⟨u, -, h⟩ := h
  split at h
  · simp at h
  · exact h

theorem putRequests_solo (D : Cell → α) (name : String) (M : Addr → Option α) (b : Nat) (stride imap : List Int) :
    ∀ (rs : List (List Int × List Int)) (off : Int) {fv fv' : FileVar α},
      Var.putRequests stride imap (fun a => M (b, a)) rs off fv = .ok fv' →
      solo ((requestsCells stride imap rs off).map fun p => Act.store (name, p.1) (b, p.2)) (upd D name fv.data) M =
        some (upd D name fv'.data, M)
  | [], off, fv, fv', h => by
    simp only [Var.putRequests, Res.ok.injEq] at h
    simp [requestsCells, solo, h]
  | (start, count) :: rest, off, fv, fv', h => by
    simp only [Var.putRequests, Res.bind_eq_ok] at h
    obtain ⟨fv1, h1, h2⟩ := h
    obtain ⟨d, hd, rfl⟩ := putVarm_ok h1
    simp only [requestsCells, requestCells, List.map_append, List.map_map, solo_append]
    rw [show ((fun p : List Int × Int => Act.store (name, p.1) (b, p.2)) ∘ fun c =>
      (target start stride c, off + linearIndex c imap)) =
      fun c => Act.store (name, target start stride c) (b, off + linearIndex c imap) from rfl,
      put_solo D name M b start stride imap off _ hd]
    exact putRequests_solo D name M b stride imap rest _ h2

theorem getRequests_solo (D : Cell → α) (name : String) (M : Addr → Option α) (b : Nat) (stride imap : List Int)
    (fv : FileVar α) (numrecs : Int) :
    ∀ (rs : List (List Int × List Int)) (off : Int) {buf buf' : Mem α},
      Var.getRequests stride imap fv numrecs rs off buf = .ok buf' →
      solo ((requestsCells stride imap rs off).map fun p => Act.load (name, p.1) (b, p.2)) (upd D name fv.data)
        (updM M b buf) = some (upd D name fv.data, updM M b buf')
  | [], off, buf, buf', h => by
    simp only [Var.getRequests, Res.ok.injEq] at h
    simp [requestsCells, solo, h]
  | (start, count) :: rest, off, buf, buf', h => by
    simp only [Var.getRequests, Res.bind_eq_ok] at h
    obtain ⟨b1, h1, h2⟩ := h
    have h1 := getVarm_ok h1
    simp only [requestsCells, requestCells, List.map_append, List.map_map, solo_append]
    rw [show ((fun p : List Int × Int => Act.load (name, p.1) (b, p.2)) ∘ fun c =>
      (target start stride c, off + linearIndex c imap)) =
      fun c => Act.load (name, target start stride c) (b, off + linearIndex c imap) from rfl,
      get_solo D name M b start stride imap off fv.data _ h1]
    exact getRequests_solo D name M b stride imap fv numrecs rest _ h2

/-- The places of all variables. -/
def fileData (file : String → FileVar α) : Cell → α := fun c => (file c.1).data c.2

/-- The addresses of all memories. -/
def memData (mem : Nat → Mem α) : Addr → Option α := fun a => mem a.1 a.2

theorem upd_fileData (file : String → FileVar α) (name : String) : upd (fileData file) name (file name).data = fileData file := by
  funext c
  obtain ⟨c1, c2⟩ := c
  simp only [upd, fileData]
  by_cases h : c1 = name <;> simp [h]

theorem upd_fileData' (file : String → FileVar α) (name : String) (fv : FileVar α) :
    upd (fileData file) name fv.data = fileData (fun m => if m = name then fv else file m) := by
  funext c
  obtain ⟨c1, c2⟩ := c
  simp only [upd, fileData]
  by_cases h : c1 = name <;> simp [h]

theorem updM_memData (mem : Nat → Mem α) (b : Nat) : updM (memData mem) b (mem b) = memData mem := by
  funext c
  obtain ⟨c1, c2⟩ := c
  simp only [updM, memData]
  by_cases h : c1 = b <;> simp [h]

theorem updM_memData' (mem : Nat → Mem α) (b : Nat) (buf : Mem α) :
    updM (memData mem) b buf = memData (fun c => if c = b then buf else mem c) := by
  funext c
  obtain ⟨c1, c2⟩ := c
  simp only [updM, memData]
  by_cases h : c1 = b <;> simp [h]

theorem zero_shift (M : Mem α) : (fun a => M (0 + a)) = M := by
  funext a
  rw [Int.zero_add]

theorem write_acts {x : Call} (hw : x.isWrite = true) {buf : Mem α} {fv fv' : FileVar α} {D : Cell → α}
    {M : Addr → Option α} (hM : (fun a => M (x.buf, a)) = buf)
    (h : x.part.write x.nb x.frame x.k x.marks buf fv = .ok fv') :
    ∃ l, x.acts = .ok l ∧ solo l (upd D x.name fv.data) M = some (upd D x.name fv'.data, M) := by
  subst hM
  unfold Var.write at h
  unfold Call.acts cells
  by_cases hg : x.part.field.isGlobal = true
  · rw [if_pos hg] at h ⊢
    simp only [Var.writeGlobal, Res.bind_eq_ok] at h
    obtain ⟨f, hf, st, hst, ct, hct, sd, hsd, im, him, u, hu, h⟩ := h
    obtain ⟨d, hd, rfl⟩ := putVarm_ok h
    simp only [hf, hst, hct, hsd, him, Res.ok_bind, Res.pure_eq, hw, if_true]
    refine ⟨_, rfl, ?_⟩
    simp only [requestCells, List.map_map]
    refine put_solo D x.name M x.buf st sd im 0 (boxIndices ct) ?_
    simpa only [Int.zero_add] using hd
  · rw [if_neg hg] at h ⊢
    simp only [Var.writeLocal, Res.bind_eq_ok] at h
    obtain ⟨f, hf, st, hst, ct, hct, sd, hsd, im, him, u, hu, h⟩ := h
    simp only [hf, hst, hct, hsd, him, Res.ok_bind, Res.pure_eq, hw, if_true]
    exact ⟨_, rfl, putRequests_solo D x.name M x.buf sd im _ 0 h⟩

theorem read_acts {x : Call} (hw : x.isWrite = false) {buf buf' : Mem α} {fv : FileVar α} {numrecs : Int} {D : Cell → α}
    {M : Addr → Option α}
    (h : x.part.read x.nb x.frame x.k x.marks numrecs fv buf = .ok buf') :
    ∃ l, x.acts = .ok l ∧
      solo l (upd D x.name fv.data) (updM M x.buf buf) = some (upd D x.name fv.data, updM M x.buf buf') := by
  unfold Var.read at h
  unfold Call.acts cells
  by_cases hg : x.part.field.isGlobal = true
  · rw [if_pos hg] at h ⊢
    simp only [Var.readGlobal, Res.bind_eq_ok] at h
    obtain ⟨f, hf, st, hst, ct, hct, sd, hsd, im, him, u, hu, h⟩ := h
    have h := getVarm_ok h
    simp only [hf, hst, hct, hsd, him, Res.ok_bind, Res.pure_eq, hw]
    refine ⟨_, rfl, ?_⟩
    simp only [requestCells, List.map_map]
    have := get_solo D x.name M x.buf st sd im 0 fv.data (boxIndices ct) (buf := buf) (buf' := buf')
      (by simpa only [Int.zero_add] using h)
    simp only [Int.sub_zero] at this
    exact this
  · rw [if_neg hg] at h ⊢
    simp only [Var.readLocal, Res.bind_eq_ok] at h
    obtain ⟨f, hf, st, hst, ct, hct, sd, hsd, im, him, u, hu, h⟩ := h
    simp only [hf, hst, hct, hsd, him, Res.ok_bind, Res.pure_eq, hw]
    exact ⟨_, rfl, getRequests_solo D x.name M x.buf sd im fv numrecs _ 0 h⟩

/-- The copies of a call, none if the call fails. -/
def Call.copies (x : Call) : List (Act Cell Addr) :=
  match x.acts with
  | .ok l => l
  | _ => []

theorem serve_solo {x : Call} {i : Fin n} {r : Int} {s s' : State n α} (h : x.serve i r s = .ok s') :
    x.acts = .ok x.copies ∧
    solo x.copies (fileData s.file) (memData (s.mem i)) = some (fileData s'.file, memData (s'.mem i)) ∧
    ∀ j, j ≠ i → s'.mem j = s.mem j := by
  unfold Call.serve at h
  cases hw : x.isWrite with
  | true =>
    simp only [hw, if_true, Res.bind_eq_ok] at h
    obtain ⟨fv, hfv, h⟩ := h
    simp only [Res.pure_eq, Res.ok.injEq] at h
    subst h
    obtain ⟨l, hl, hs⟩ := write_acts (D := fileData s.file) (M := memData (s.mem i)) hw rfl hfv
    have hc : x.copies = l := by simp [Call.copies, hl]
    rw [upd_fileData, upd_fileData'] at hs
    exact ⟨by rw [hc]; exact hl, by rw [hc]; exact hs, fun _ _ => rfl⟩
  | false =>
    rw [hw] at h
    simp only [Bool.false_eq_true, if_false, Res.bind_eq_ok] at h
    obtain ⟨b, hb, h⟩ := h
    simp only [Res.pure_eq, Res.ok.injEq] at h
    subst h
    obtain ⟨l, hl, hs⟩ := read_acts (D := fileData s.file) (M := memData (s.mem i)) hw hb
    have hc : x.copies = l := by simp [Call.copies, hl]
    rw [upd_fileData, updM_memData, updM_memData'] at hs
    refine ⟨by rw [hc]; exact hl, ?_, fun j hj => ?_⟩
    · rw [hc, hs]
      simp
    · funext c
      simp [hj]

theorem serveRanks_seq {x : Fin n → Call} {r : Int} : ∀ {is : List (Fin n)} {s s' : State n α},
    serveRanks x r is s = .ok s' →
    (∀ i ∈ is, (x i).acts = .ok (x i).copies) ∧
    seqRun (fun i => (x i).copies) is (fileData s.file) (fun i => memData (s.mem i)) =
      some (fileData s'.file, fun i => memData (s'.mem i))
  | [], s, s', h => by
    simp only [serveRanks, Res.ok.injEq] at h
    subst h
    exact ⟨by simp, rfl⟩
  | i :: is, s, s', h => by
    simp only [serveRanks, Res.bind_eq_ok] at h
    obtain ⟨s1, h1, h2⟩ := h
    obtain ⟨ha, hs, hm⟩ := serve_solo h1
    obtain ⟨hb, ht⟩ := serveRanks_seq h2
    refine ⟨?_, ?_⟩
    · intro j hj
      rcases List.mem_cons.1 hj with rfl | hj
      · exact ha
      · exact hb j hj
    · simp only [seqRun, hs, Option.bind_some]
      rw [← ht]
      congr 1
      funext j
      by_cases hj : j = i
      · subst hj; simp
      · rw [Function.update_of_ne hj, hm j hj]

/-- All processes make the same call: all write or all read, a global field or a local one, the same variable. -/
def Together (x : Fin n → Call) : Prop :=
  ∀ i j, (x i).isWrite = (x j).isWrite ∧ (x i).part.field.isGlobal = (x j).part.field.isGlobal ∧ (x i).name = (x j).name

/-- The phases of a call. -/
def phasesOf (hn : 0 < n) (x : Fin n → Call) : List (Phase n Cell Addr) :=
  if (x ⟨0, hn⟩).part.field.isGlobal then [⟨(x ⟨0, hn⟩).globalTag, fun i => (x i).copies⟩]
  else [⟨"begin_indep_data", fun i => (x i).copies⟩, ⟨"end_indep_data", fun _ => []⟩]

theorem prog_phases (hn : 0 < n) {x : Fin n → Call} (ht : Together x) (i : Fin n)
    (ha : (x i).acts = .ok (x i).copies) : (x i).prog = (progOf (phasesOf hn x) i, true) := by
  obtain ⟨h1, h2, h3⟩ := ht i ⟨0, hn⟩
  unfold Call.prog phasesOf
  rw [ha, ← h2]
  by_cases hg : (x i).part.field.isGlobal = true
  · simp only [hg, if_true]
    simp only [progOf, List.flatMap_cons, List.flatMap_nil, List.append_nil, Call.globalTag, h1, h3]
  · simp only [hg]
    simp [progOf]

theorem seqRun_nil (is : List (Fin n)) (d : Cell → α) (m : Fin n → Addr → Option α) :
    seqRun (fun _ => ([] : List (Act Cell Addr))) is d m = some (d, m) := by
  induction is generalizing m with
  | nil => rfl
  | cons i is ih =>
    show seqRun _ is d (Function.update m i (m i)) = _
    rw [Function.update_eq_self]
    exact ih m

theorem serveAll_seq (hn : 0 < n) : ∀ {xs : List ((Fin n → Call) × Int)} {s s' : State n α},
    (∀ x ∈ xs, Together x.1) → serveAll xs s = .ok s' →
    (∀ i, program (xs.map fun x => x.1 i) = progOf (xs.flatMap fun x => phasesOf hn x.1) i) ∧
    seqPhases (xs.flatMap fun x => phasesOf hn x.1) (fileData s.file) (fun i => memData (s.mem i)) =
      some (fileData s'.file, fun i => memData (s'.mem i))
  | [], s, s', _, h => by
    simp only [serveAll, Res.ok.injEq] at h
    subst h
    exact ⟨fun _ => rfl, rfl⟩
  | (x, r) :: xs, s, s', ht, h => by
    simp only [serveAll, Res.bind_eq_ok] at h
    obtain ⟨s1, h1, h2⟩ := h
    obtain ⟨ha, hb⟩ := serveRanks_seq h1
    obtain ⟨hc, hd⟩ := serveAll_seq hn (fun y hy => ht y (by simp [hy])) h2
    refine ⟨fun i => ?_, ?_⟩
    · have hp := prog_phases hn (ht (x, r) (by simp)) i (ha i (List.mem_finRange i))
      simp only [List.map_cons, program, hp, if_true, hc i, List.flatMap_cons]
      simp [progOf]
    · rw [List.flatMap_cons, seqPhases_append]
      have hx : seqPhases (phasesOf hn x) (fileData s.file) (fun i => memData (s.mem i)) =
          some (fileData s1.file, fun i => memData (s1.mem i)) := by
        unfold phasesOf
        by_cases hg : (x ⟨0, hn⟩).part.field.isGlobal = true
        · simp only [hg, if_true, seqPhases, hb, Option.bind_some]
        · simp only [hg]
          simp only [seqPhases, hb, Option.bind_some, seqRun_nil, Bool.false_eq_true, if_false]
      rw [hx]
      exact hd

theorem copies_copies (x : Call) : Copies x.copies := by
  intro t h
  unfold Call.copies at h
  split at h
  · rename_i l hl
    unfold Call.acts at hl
    rw [Res.bind_eq_ok] at hl
    obtain ⟨p, -, hp⟩ := hl
    simp only [Res.pure_eq, Res.ok.injEq] at hp
    rw [← hp, List.mem_map] at h
    obtain ⟨q, -, hq⟩ := h
    split at hq <;> simp at hq
  · simp at h

theorem phasesOf_raceFree (hn : 0 < n) {x : Fin n → Call} (hr : RaceFree fun i => (x i).copies) :
    ∀ p ∈ phasesOf hn x, RaceFree p.acts ∧ ∀ i, Copies (p.acts i) := by
  have h1 : RaceFree (fun _ : Fin n => ([] : List (Act Cell Addr))) := by
    rintro i j - c ⟨a, ha⟩; simp at ha
  have h2 : ∀ _ : Fin n, Copies ([] : List (Act Cell Addr)) := fun _ t ht => by simp at ht
  have h3 : ∀ i, Copies ((x i).copies) := fun i => copies_copies (x i)
  intro p hp
  unfold phasesOf at hp
  split at hp
  · rw [List.mem_singleton] at hp
    subst hp
    exact ⟨hr, h3⟩
  · simp only [List.mem_cons, List.not_mem_nil, or_false] at hp
    rcases hp with rfl | rfl
    · exact ⟨hr, h3⟩
    · exact ⟨h1, h2⟩

/-- The state before the first call is good, and the goal is the state after serving the processes in turn. -/
theorem good_calls (hn : 0 < n) {xs : List ((Fin n → Call) × Int)} {s s' : State n α} (ht : ∀ x ∈ xs, Together x.1)
    (hr : ∀ x ∈ xs, RaceFree fun i => (x.1 i).copies) (h : serveAll xs s = .ok s') :
    Good (fileData s'.file) (fun i => memData (s'.mem i)) (start s (xs.map (·.1))) := by
  obtain ⟨hp, hs⟩ := serveAll_seq hn ht h
  have hg := good_start (ps := xs.flatMap fun x => phasesOf hn x.1) (fun p hp => by
    obtain ⟨x, hx, hpx⟩ := List.mem_flatMap.1 hp
    exact phasesOf_raceFree hn (hr x hx) p hpx) hs
  have he : start s (xs.map (·.1)) = ⟨fileData s.file, fun i => ⟨progOf (xs.flatMap fun x => phasesOf hn x.1) i,
      memData (s.mem i)⟩⟩ := by
    unfold start
    congr 1
    funext i
    rw [← hp i]
    simp only [List.map_map]
    rfl
  rw [he]
  exact hg

end Verif.Concurrent
