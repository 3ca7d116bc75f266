import Verif.Props.CollectiveSession
import Verif.Props.ParallelRefused
/-
**C101** The processes of programs that also make calls that are refused.
-/
namespace Verif.Props
open Verif Verif.Ccoord Verif.Layout Verif.Layout.FieldLayout Verif.RawMemory Verif.FileIO Verif.NetCDF

variable {α : Type} {conv : Conv α} {convI : Conv Int} {dom : List Int} {rs rs' : List FileRank} {mode : OpenMode}

theorem agreed_expected {l : List (Res Unit)} {bs : List Bool} (h : List.Forall₂ AsExpected l bs) :
    ∀ o ∈ l.map together, o.Agreed := by
  induction h with
  | nil => intro o ho; cases ho
  | @cons o b l bs hob _ ih =>
    intro p hp
    rw [List.map_cons] at hp
    rcases List.mem_cons.1 hp with rfl | hp
    · cases o with
      | ok u => trivial
      | throw e => trivial
      | ub => exact absurd hob id
    · exact ih p hp

theorem uses_expected (h : ProgramOk dom rs) (hm : mode = .write ∨ mode = .overwrite) {D : FileDesc} (us : List (FileUse α))
    {d : Disk α} {cell : Int → String → Option (Values α)} (hd : FileHas dom rs mode D d cell) (hus : UsesOk dom rs cell us) :
    (∀ u ∈ us, u.Ok dom rs) ∧ ∀ p ∈ runUses d us, ∃ bs, List.Forall₂ AsExpected p.results bs := by
  induction us generalizing d cell with
  | nil => exact ⟨fun u hu => (by cases hu), fun p hp => (by cases hp)⟩
  | cons u us ih =>
    obtain ⟨h1, h2, h3⟩ := hus
    obtain ⟨h4, h5⟩ := h3 _ hd.nbFrames
    obtain ⟨-, k2, -, -, k5⟩ := use_has h hm hd h1 h2 h4
    obtain ⟨i1, i2⟩ := ih k5 h5
    refine ⟨fun v hv => ?_, fun p hp => ?_⟩
    · rcases List.mem_cons.1 hv with rfl | hv
      · exact h1
      · exact i1 v hv
    · rw [runUses] at hp
      rcases List.mem_cons.1 hp with rfl | hp
      · exact ⟨_, k2⟩
      · exact i2 p hp

/-- **C101** A program creates a file, and other programs open it one after the other for reading or appending, each with any
number of processes and any decomposition.  Their calls may succeed or be refused.  The processes of all programs come to their
end, as long as nothing is read that has not been written, no field of a local collection is read at a frame before the first
one, and no program begins to write such a field to a file that is open for reading. -/
theorem C101_refused_partial (hc : conv.Faithful) (hcI : convI.Faithful) (h : ProgramOk dom rs) (hn : Numbered rs)
    (hcount : Counted rs) (hal : CallsAlike rs) (hm : mode = .write ∨ mode = .overwrite)
    (garbage : String → List Int → α) (garbageInt : String → List Int → Int) {mem : Memory α} {cur : String → Values α}
    (hmem : ProgramHolds rs mem cur) {ops : List (FileOp (Memory α))} {sops : List (FileOp (String → Values α))}
    (hops : List.Forall₂ (SameOp (ProgramHolds rs)) ops sops) (hnames : ∀ op ∈ ops, NoLocalNames rs op)
    (hgap : Table.NoGaps (storedNames rs) ⟨true, 0, cur, fun _ _ => none⟩ sops)
    (hreach : Table.StaysInReach (FieldOfLocal rs) (storedNames rs) ⟨true, 0, cur, fun _ _ => none⟩ sops)
    {us : List (FileUse α)}
    (hus : UsesOk dom rs (Table.run (storedNames rs) ⟨true, 0, cur, fun _ _ => none⟩ sops).2.cell us)
    (hreaches : UsesInReach rs (Table.run (storedNames rs) ⟨true, 0, cur, fun _ _ => none⟩ sops).2.cell us)
    (hcounts : ∀ u ∈ us, Counted u.ranks) (hals : ∀ u ∈ us, CallsAlike u.ranks) :
    (AllReturn fun i : Fin rs.length =>
      createTrace conv convI mode (rs.map FileRank.colls) garbage garbageInt mem ops i) ∧
    UsesReturn conv convI (createFilePar conv convI mode (rs.map FileRank.colls) garbage garbageInt mem ops).disk us := by
  obtain ⟨e1, e2⟩ := C99_programs_refused_partial hc hcI h hn hcount hm garbage garbageInt hmem hops hnames hgap hreach hus
    hreaches hcounts
  obtain ⟨-, k2, -, -, D, hD⟩ := create_has h hn hm garbage garbageInt hmem hops hnames hgap
  obtain ⟨o1, o2⟩ := uses_expected h hm us hD hus
  refine C101_programs_partial h hn hcount hal hm garbage garbageInt (memoryOf_holds hmem) hnames (sized_holds hops)
    (fun u hu => ?_) ?_ ?_
  · have hu' := o1 u hu
    exact ⟨hu'.ok, hu'.data, hu'.mode, memoryOf_holds hu'.mem, sized_holds hu'.ops, hu'.names, hcounts u hu, hals u hu⟩
  · rw [e1]; exact agreed_expected k2
  · rw [e2]
    intro p hp
    obtain ⟨q, hq, rfl⟩ := List.mem_map.1 hp
    obtain ⟨bs, hb⟩ := o2 q hq
    exact agreed_expected hb

/-- The programs of `C66_programs`, with calls that are refused. -/
example :
    (AllReturn fun i : Fin 2 =>
      createTrace exConv exConv .write (exRanks.map FileRank.colls) (fun _ _ => 77) (fun _ _ => 78) (exMem 5) exOps i) ∧
    UsesReturn exConv exConv (createFilePar exConv exConv .write (exRanks.map FileRank.colls) (fun _ _ => 77) (fun _ _ => 78)
      (exMem 5) exOps).disk exUses :=
  C101_refused_partial exConv_faithful exConv_faithful exRanks_ok exNumbered exRanks_counted exRanks_alike (Or.inl rfl) _ _
    (exRanks_hold 5) exRanks_same exRanks_names exRanks_gaps exSops_reach exUses_ok (exUses_reach _)
    (by simp [exUses, exRanks_counted, exRanks_counted']) (by simp [exUses, exRanks_alike, exRanks_alike'])

end Verif.Props
