import Verif.Lemmas.FileSessionGlobal
/-
Open files with fields and state fields of local collections: helper lemmas.
-/
namespace Verif.Props
open Verif Verif.Ccoord Verif.Layout Verif.Layout.FieldLayout Verif.RawMemory Verif.FileIO Verif.NetCDF
open Verif.Collection Verif.Collection.Coll

variable {α : Type}

theorem marked_of_ids {size : Nat} {ids : List Int} {m : Int → Int} (hasc : ids.Pairwise (· < ·))
    (hin : ∀ id ∈ ids, 0 ≤ id ∧ id < (size : Int)) (hm : ∀ q : Nat, q < size → ((q : Int) ∈ ids ↔ m q ≠ -1)) :
    Var.marked ((List.range size).map fun q : Nat => m q) = ids.map m := by
  have h1 := marked_map size ids (fun p => if p ∈ ids then m p else -1) ?_ ?_
    ((List.range size).map fun q : Nat => m q) (by simp) ?_
  · rw [h1, sortedIds_of_sorted hasc hin]
    exact List.map_congr_left fun p hp => if_pos hp
  · intro p hp
    rw [if_pos hp]
    obtain ⟨h0, h1⟩ := hin p hp
    obtain ⟨q, rfl⟩ := Int.eq_ofNat_of_zero_le h0
    exact (hm q (by omega)).1 hp
  · intro p hp; exact if_neg hp
  · intro p hp
    simp only [List.getElem?_map, List.getElem?_range hp, Option.map_some]
    by_cases hpi : (p : Int) ∈ ids
    · rw [if_pos hpi]
    · rw [if_neg hpi]
      have := mt (hm p hp).2 hpi
      push Not at this
      rw [this]

section
variable {x : SessVar} {f : IoField} {l : String} {ps : List LocalPart} {dom : List Int} {M : List Int → Int}
  {total : Int}

theorem LocalVar.marked_eq (hx : LocalVar x f l ps dom M total) {p : LocalPart} (hp : p ∈ ps) :
    Var.marked (p.entries M) = p.ids.map fun q => M (p.coord q) :=
  marked_of_ids (m := fun q => M (p.coord q)) (hx.ascending p hp) (hx.inside p hp) (hx.marked p hp)

theorem LocalVar.mem_ids (hx : LocalVar x f l ps dom M total) {p : LocalPart} (hp : p ∈ ps) {id : Int}
    (hid : id ∈ p.ids) : ∃ q : Nat, id = q ∧ q < p.size ∧ InBox dom (p.coord id) ∧ M (p.coord id) ≠ -1 := by
  obtain ⟨h0, h1⟩ := hx.inside p hp id hid
  obtain ⟨q, rfl⟩ := Int.eq_ofNat_of_zero_le h0
  exact ⟨q, rfl, by omega, hx.inDomain p hp q (by omega), (hx.marked p hp q (by omega)).1 hid⟩

theorem LocalVar.marked_facts (hx : LocalVar x f l ps dom M total) {p : LocalPart} (hp : p ∈ ps) :
    (Var.marked (p.entries M)).length = p.ids.length ∧ (Var.marked (p.entries M)).Nodup ∧
      ∀ o ∈ Var.marked (p.entries M), 0 ≤ o ∧ o < total := by
  rw [hx.marked_eq hp]
  refine ⟨by simp, ?_, ?_⟩
  · refine List.Nodup.map_on ?_ ((hx.ascending p hp).imp (fun h => ne_of_lt h))
    intro a ha b hb he
    obtain ⟨qa, rfl, h1, h2, h3⟩ := hx.mem_ids hp ha
    obtain ⟨qb, rfl, h1', h2', -⟩ := hx.mem_ids hp hb
    rw [hx.distinct p hp qa qb h1 h1' (hx.inj _ _ h2 h2' h3 he)]
  · intro o ho
    obtain ⟨id, hid, rfl⟩ := List.mem_map.1 ho
    obtain ⟨q, rfl, h1, h2, h3⟩ := hx.mem_ids hp hid
    exact hx.range _ h2 h3

/-- The shape of the variable in the file. -/
theorem LocalVar.shape_eq (hx : LocalVar x f l ps dom M total) :
    ∀ p ∈ ps, varForm x = p.v.form := by
  intro p hp
  cases hps : ps with
  | nil => exact absurd hps hx.nonempty
  | cons p0 ps' =>
    rw [varForm, hx.parts, hps]
    have h0 : p0 ∈ ps := by rw [hps]; simp
    obtain ⟨l1, m1, r1⟩ := hx.registered p0 h0
    obtain ⟨l2, m2, r2⟩ := hx.registered p hp
    obtain ⟨hv1, hs1⟩ := registered_local (hx.field p0 h0) hx.total_pos r1
    obtain ⟨hv2, hs2⟩ := registered_local (hx.field p hp) hx.total_pos r2
    exact form_local_congr hv1 hs1 hv2 hs2 ((hx.ty p0 h0).trans (hx.ty p hp).symm) ((hx.comps p0 h0).trans (hx.comps p hp).symm)
      ((hx.sub p0 h0).trans (hx.sub p hp).symm)

/-- The shape in the file is the same for all programs. -/
theorem LocalVar.shape_unique (hx : LocalVar x f l ps dom M total) {x' : SessVar} {ps' : List LocalPart}
    (hx' : LocalVar x' f l ps' dom M total) (hh : x.hist = x'.hist) : varForm x = varForm x' := by
  obtain ⟨p, hp⟩ := List.exists_mem_of_ne_nil _ hx.nonempty
  obtain ⟨p', hp'⟩ := List.exists_mem_of_ne_nil _ hx'.nonempty
  rw [hx.shape_eq p hp, hx'.shape_eq p' hp']
  obtain ⟨l1, m1, r1⟩ := hx.registered p hp
  obtain ⟨l2, m2, r2⟩ := hx'.registered p' hp'
  rw [← hh] at r2
  obtain ⟨hv1, hs1⟩ := registered_local (hx.field p hp) hx.total_pos r1
  obtain ⟨hv2, hs2⟩ := registered_local (hx'.field p' hp') hx.total_pos r2
  exact form_local_congr hv1 hs1 hv2 hs2 ((hx.ty p hp).trans (hx'.ty p' hp').symm) ((hx.comps p hp).trans (hx'.comps p' hp').symm)
    ((hx.sub p hp).trans (hx'.sub p' hp').symm)

/-- One entry of the history is written by all processes. -/
theorem LocalVar.collective (hx : LocalVar x f l ps dom M total) {k : Nat} (hk : HistIdx k x.hist)
    {nb frame fr : Int} (hfr : varFrame nb frame = .ok fr) (pv : List Int → Int → List Int → α)
    (ws : List (LocalPart × Mem α)) (hws : ∀ w ∈ ws, w.1 ∈ ps)
    (hap : ws.Pairwise fun w w' => ∀ q q' : Nat, q < w.1.size → q' < w'.1.size → w.1.coord q ≠ w'.1.coord q')
    (hb : ∀ w ∈ ws, Holds w.1.v.field w.2 fun cc s g => pv cc s (w.1.view g))
    {fv : FileVar α} (hsh : fv.form = varForm x) :
    ∃ fv', Var.writeRanks nb frame k (ws.map fun w => (w.1.v, w.1.entries M, w.2)) fv = .ok fv' ∧
      fv'.form = varForm x ∧
      (∀ w ∈ ws, ∀ id ∈ w.1.ids, ∀ cc s, InBox f.layout.comps cc → 0 ≤ s → s < f.layout.nbSub →
        fv'.data (filePos f (leadPos false fr k x.hist) cc s [M (w.1.coord id)]) = pv cc s (w.1.coord id)) ∧
      ∀ y, (∀ w ∈ ws, ∀ id ∈ w.1.ids, ∀ cc s, InBox f.layout.comps cc → 0 ≤ s → s < f.layout.nbSub →
        y ≠ filePos f (leadPos false fr k x.hist) cc s [M (w.1.coord id)]) → fv'.data y = fv.data y := by
  induction ws generalizing fv with
  | nil => exact ⟨fv, rfl, hsh, by simp, fun _ _ => rfl⟩
  | cons w ws ih =>
    rw [List.pairwise_cons] at hap
    have hp := hws w (by simp)
    obtain ⟨lname, marks0, hreg⟩ := hx.registered _ hp
    obtain ⟨hv, hs⟩ := registered_local (hx.field _ hp) hx.total_pos hreg
    obtain ⟨f1, f2, f3⟩ := hx.marked_facts hp
    obtain ⟨fv1, h1, h2, h3, h4⟩ := writeLocal_spec hv hs (hx.field _ hp) (hx.order _ hp) (by omega) f2 f3 hfr hk
      (hb w (by simp)) (hsh.trans (hx.shape_eq _ hp))
    obtain ⟨fv2, e1, e2, e3, e4⟩ := ih (fun w' h => hws w' (by simp [h])) hap.2 (fun w' h => hb w' (by simp [h]))
      (fv := fv1) (h2.trans hsh)
    have hcf : ∀ lead cc s g, filePos w.1.v.field lead cc s g = filePos f lead cc s g := fun lead cc s g =>
      filePos_comps (hx.comps _ hp) lead cc s g
    have hmk := hx.marked_eq hp
    refine ⟨fv2, ?_, e2, ?_, ?_⟩
    · rw [List.map_cons, Var.writeRanks, Var.write, if_neg (by rw [hv.field]; simp [(hx.field _ hp).is_local]), h1,
        Res.ok_bind, e1]
    · intro w' hw' id hid cc s hcc hs0 hs1
      rcases List.mem_cons.1 hw' with rfl | hw'
      · have : fv1.data (filePos f (leadPos false fr k x.hist) cc s [M (w'.1.coord id)]) = pv cc s (w'.1.coord id) := by
          obtain ⟨j, hj, rfl⟩ := List.getElem_of_mem hid
          have hj' : j < (Var.marked (w'.1.entries M)).length := by omega
          have := h3 j hj' cc s ((hx.comps _ hp).symm ▸ hcc) hs0 ((hx.sub _ hp).symm ▸ hs1)
          have hmj : (Var.marked (w'.1.entries M))[j] = M (w'.1.coord w'.1.ids[j]) := by
            simp only [hmk, List.getElem_map]
          rw [hmj, ← leadPos_eq, hcf] at this
          rw [this]
          simp [LocalPart.view, hj]
        rw [e4, this]
        intro w2 hw2 id2 hid2 cc2 s2 hcc2 _ _ he
        have hp2 := hws w2 (by simp [hw2])
        have hM := filePos_off hcc hcc2 he
        obtain ⟨q, rfl, q1, q2, q3⟩ := hx.mem_ids hp hid
        obtain ⟨q', rfl, q1', q2', q3'⟩ := hx.mem_ids hp2 hid2
        exact hap.1 w2 hw2 q q' q1 q1' (hx.inj _ _ q2 q2' q3 hM)
      · exact e3 w' hw' id hid cc s hcc hs0 hs1
    · intro y hy
      rw [e4 y fun w' hw' => hy w' (by simp [hw'])]
      refine h4 y ?_
      intro o ho cc s hcc hs0 hs1
      rw [hmk] at ho
      obtain ⟨id, hid, rfl⟩ := List.mem_map.1 ho
      rw [hcf, ← leadPos_eq]
      exact hy w (by simp) id hid cc s (hx.comps _ hp ▸ hcc) hs0 (hx.sub _ hp ▸ hs1)

end

theorem LocalStored.keep {hist : Option Nat} {f : IoField} {dom : List Int} {M : List Int → Int} {fr : Int}
    {val : Values α} {d d' : List Int → α} (hd : ∀ y, y.head? = some fr → d' y = d y)
    (h : LocalStored hist f dom M fr val d) : LocalStored hist f dom M fr val d' :=
  ⟨fun k hk cc s g hcc h0 h1 hg hM => (hd _ (head_filePos ..)).trans (h.values k hk cc s g hcc h0 h1 hg hM),
    h.aliased⟩

/-- The memories written for entry `k`. -/
theorem procData_bufs {x : SessVar} {M : List Int → Int} {val : Values α} {k : Nat} (hk : HistIdx k x.hist)
    (ps : List LocalPart) {ms : List (ProcMem α)}
    (hm : List.Forall₂ (fun p m => PartHolds x.hist val p.v.field p.view m) ps ms) :
    ∃ ws : List (LocalPart × Mem α), ws.map Prod.fst = ps ∧
      (∀ w ∈ ws, Holds w.1.v.field w.2 fun cc s g => val k cc s (w.1.view g)) ∧
      mapRes (fun w : StateData α => do
        let b ← (match x.hist with | some _ => stateBuf w.idx w.bufs k | none => at! w.bufs 0)
        pure (w.v, w.marks, b)) (procData (ps.map LocalPart.v) (ps.map fun p : LocalPart => p.entries M) ms) =
        .ok (ws.map fun w => (w.1.v, w.1.entries M, w.2)) := by
  induction hm with
  | nil => exact ⟨[], rfl, by simp, rfl⟩
  | @cons p m ps ms h _ ih =>
    obtain ⟨ws, h1, h2, h3⟩ := ih
    have : ∃ b, (match x.hist with | some _ => stateBuf m.idx m.bufs k | none => at! m.bufs 0) = .ok b ∧
        Holds p.v.field b fun cc s g => val k cc s (p.view g) := by
      cases hh : x.hist with
      | none =>
        rw [hh] at h hk
        obtain rfl : k = 0 := hk
        obtain ⟨b, hb, hold⟩ := h
        exact ⟨b, by simp only [hb]; exact at!_eq_ok (by simp), hold⟩
      | some N =>
        rw [hh] at h hk
        obtain ⟨c, hi, hl, ha, hold⟩ := h
        obtain ⟨j, b, d1, d2, d3⟩ := hold k hk
        obtain ⟨hj, rfl⟩ := List.getElem?_eq_some_iff.1 d2
        refine ⟨m.bufs[j], ?_, d3⟩
        simp only [hi, stateBuf, stateSlot, d1]
        exact at!_eq_ok hj
    obtain ⟨b, hb1, hb2⟩ := this
    refine ⟨(p, b) :: ws, by rw [List.map_cons, h1], ?_, ?_⟩
    · intro w hw
      rcases List.mem_cons.1 hw with rfl | hw
      · exact hb2
      · exact h2 w hw
    · simp only [List.map_cons, procData, mapRes, h3, hb1]
      rfl

section
variable {x : SessVar} {f : IoField} {l : String} {ps : List LocalPart} {dom : List Int} {M : List Int → Int}
  {total : Int}

/-- A pixel of the collection lies on some process. -/
theorem LocalVar.find (hx : LocalVar x f l ps dom M total) {g : List Int} (hg : InBox dom g) (hM : M g ≠ -1) :
    ∃ p ∈ ps, ∃ id ∈ p.ids, p.coord id = g := by
  obtain ⟨p, hp, q, hq, rfl⟩ := hx.cover g hg
  exact ⟨p, hp, q, (hx.marked p hp q hq).2 hM, rfl⟩

theorem LocalVar.inField (hx : LocalVar x f l ps dom M total) {p : LocalPart} (hp : p ∈ ps) {cc : List Int} {s : Int}
    {g : List Int} (hin : InField p.v.field cc s g) : InBox f.layout.comps cc ∧ 0 ≤ s ∧ s < f.layout.nbSub ∧
      ∃ j, ∃ h : j < p.ids.length, g = [(j : Int)] ∧ p.view g = p.coord p.ids[j] := by
  obtain ⟨hcc, hs0, hs1, i, hi0, hi1, rfl⟩ := (local_inField (hx.field p hp)).1 hin
  obtain ⟨j, rfl⟩ := Int.eq_ofNat_of_zero_le hi0
  have hj : j < p.ids.length := by omega
  exact ⟨hx.comps p hp ▸ hcc, hs0, hx.sub p hp ▸ hs1, j, hj, rfl, by simp [LocalPart.view, hj]⟩

theorem LocalVar.aliased (hx : LocalVar x f l ps dom M total) {ms : List (ProcMem α)} {val : Values α}
    (hm : LocalHold x ps ms val) : Aliased x.hist f (fun g => InBox dom g ∧ M g ≠ -1) val := by
  rintro N hN k hk k' hk' he cc s g hcc hs0 hs1 ⟨hg, hM⟩
  obtain ⟨p, hp, id, hid, rfl⟩ := hx.find hg hM
  obtain ⟨i, hi, rfl⟩ := List.getElem_of_mem hp
  have hi' : i < ms.length := by rw [← hm.length_eq]; exact hi
  have := List.Forall₂.get hm hi hi'
  simp only [List.get_eq_getElem, hN] at this
  obtain ⟨j, hj, rfl⟩ := List.getElem_of_mem hid
  have := this.aliased hk hk' he (cc := cc) (s := s) (g := [(j : Int)])
    ((local_inField (hx.field _ hp)).2 ⟨(hx.comps _ hp).symm ▸ hcc, hs0, (hx.sub _ hp).symm ▸ hs1, j, by omega,
      by omega, rfl⟩)
  simpa [LocalPart.view, hj] using this

theorem LocalVar.writes (hx : LocalVar x f l ps dom M total) :
    Writes (α := α) x (ps.map fun p : LocalPart => p.entries M) (varForm x) (LocalHold x ps) (LocalStored x.hist f dom M) := by
  refine ⟨?_, fun hd h => h.keep hd⟩
  intro nb frame fr ms val fv hm hfr hsh
  rw [hx.parts]
  have hcol : ∀ k, HistIdx k x.hist → ∀ fv0 : FileVar α, fv0.form = varForm x → ∃ fv1,
      (do let rs ← mapRes (fun w : StateData α => do
            let b ← (match x.hist with | some _ => stateBuf w.idx w.bufs k | none => at! w.bufs 0)
            pure (w.v, w.marks, b)) (procData (ps.map LocalPart.v) (ps.map fun p : LocalPart => p.entries M) ms)
          Var.writeRanks nb frame k rs fv0) = .ok fv1 ∧ fv1.form = varForm x ∧
      (∀ cc s g, InBox f.layout.comps cc → 0 ≤ s → s < f.layout.nbSub → InBox dom g → M g ≠ -1 →
        fv1.data (filePos f (leadPos false fr k x.hist) cc s [M g]) = val k cc s g) ∧
      ∀ y, (∀ cc s g, InBox f.layout.comps cc → InBox dom g → M g ≠ -1 →
        y ≠ filePos f (leadPos false fr k x.hist) cc s [M g]) → fv1.data y = fv0.data y := by
    intro k hk fv0 hs0
    obtain ⟨ws, w1, w2, w3⟩ := procData_bufs (M := M) hk ps hm
    have hws : ∀ w ∈ ws, w.1 ∈ ps := fun w hw => by rw [← w1]; exact List.mem_map_of_mem hw
    obtain ⟨fv1, h1, h2, h3, h4⟩ := hx.collective hk hfr (val k) ws hws
      (by have := hx.apart; rw [← w1, List.pairwise_map] at this; exact this) w2 hs0
    refine ⟨fv1, by rw [w3, Res.ok_bind, h1], h2, ?_, ?_⟩
    · intro cc s g hcc hs0 hs1 hg hM
      obtain ⟨p, hp, id, hid, rfl⟩ := hx.find hg hM
      rw [← w1] at hp
      obtain ⟨w, hw, rfl⟩ := List.mem_map.1 hp
      exact h3 w hw id hid cc s hcc hs0 hs1
    · intro y hy
      refine h4 y ?_
      intro w hw id hid cc s hcc _ _
      obtain ⟨q, -, -, q1, q2⟩ := hx.mem_ids (hws w hw) hid
      exact hy cc s _ hcc q1 q2
  have hkeep : ∀ k y, y.head? ≠ some fr → ∀ cc s g, InBox f.layout.comps cc → InBox dom g → M g ≠ -1 →
      y ≠ filePos f (leadPos false fr k x.hist) cc s [M g] := by
    rintro k y hy cc s g - - - rfl
    exact hy (head_filePos ..)
  cases hh : x.hist with
  | none =>
    rw [hh] at hcol hkeep
    obtain ⟨fv', h1, h2, h3, h4⟩ := hcol 0 rfl fv hsh
    refine ⟨fv', ?_, h2, ⟨?_, hh ▸ hx.aliased hm⟩, fun y hy => h4 y (hkeep 0 y hy)⟩
    · simp only [SessVar.put, hh]
      exact h1
    · intro k hk
      obtain rfl : k = 0 := hk
      exact h3
  | some N =>
    rw [hh] at hcol hkeep
    have hk : ∀ {k}, k ∈ List.range (N + 1) ↔ k ≤ N := by simp [Nat.lt_succ_iff]
    obtain ⟨fv', e1, e2, e3, e4⟩ := histLoop_write (S := varForm x) (List.range (N + 1)) List.nodup_range
      (fun k y => ∃ cc s g, InBox f.layout.comps cc ∧ InBox dom g ∧ M g ≠ -1 ∧
        y = filePos f (leadPos false fr k (some N)) cc s [M g])
      (fun k d => ∀ cc s g, InBox f.layout.comps cc → 0 ≤ s → s < f.layout.nbSub → InBox dom g → M g ≠ -1 →
        d (filePos f (leadPos false fr k (some N)) cc s [M g]) = val k cc s g)
      (step := fun k fv => do
        let rs ← mapRes (fun w : StateData α => do let b ← stateBuf w.idx w.bufs k; pure (w.v, w.marks, b))
          (procData (ps.map LocalPart.v) (ps.map fun p : LocalPart => p.entries M) ms)
        Var.writeRanks nb frame k rs fv) (by
        intro k hkm fv0 hs0
        obtain ⟨fv1, h1, h2, h3, h4⟩ := hcol k (hk.1 hkm) fv0 hs0
        refine ⟨fv1, h1, h2, h3, fun y hy => h4 y ?_⟩
        intro cc s g hcc hg hM he
        exact hy ⟨cc, s, g, hcc, hg, hM, he⟩) (by
        intro k _ d d' hC hd cc s g hcc hs0 hs1 hg hM
        rw [hd _ ⟨cc, s, g, hcc, hg, hM, rfl⟩, hC cc s g hcc hs0 hs1 hg hM]) (by
        rintro k _ k' _ y ⟨cc, s, g, _, _, _, rfl⟩ ⟨cc', s', g', _, _, _, he⟩
        exact (leadPos_inj he).2) fv hsh
    refine ⟨fv', ?_, e2, ⟨fun k hkN => e3 k (hk.2 hkN), hh ▸ hx.aliased hm⟩, fun y hy => e4 y ?_⟩
    · simp only [SessVar.put, hh]
      exact e1
    · rintro k hkm ⟨cc, s, g, hcc, hg, hM, he⟩
      exact hkeep k y hy cc s g hcc hg hM he

/-- The memories of all processes are allocated. -/
def LocalAllocated (x : SessVar) (ps : List LocalPart) (ms : List (ProcMem α)) : Prop :=
  List.Forall₂ (fun p m => ∃ val0, PartHolds x.hist val0 p.v.field p.view m) ps ms

theorem LocalVar.reads (hx : LocalVar x f l ps dom M total) :
    Reads (α := α) x (ps.map fun p : LocalPart => p.entries M) (varForm x) (LocalAllocated x ps) (LocalHold x ps)
      (LocalStored x.hist f dom M) := by
  refine ⟨?_, fun h => h.imp fun _ _ h => ⟨_, h⟩, ?_⟩
  case refine_2 =>
    intro nb frame numrecs ms fv hm hfr
    unfold LocalAllocated at hm
    rw [hx.parts]
    cases hp : ps with
    | nil => exact absurd hp hx.nonempty
    | cons p ps' =>
      rw [hp] at hm
      obtain ⟨m, ms', ⟨val0, h⟩, -, rfl⟩ := List.forall₂_cons_left_iff.1 hm
      simp only [SessVar.get, List.map_cons, procData, mapRes,
        get1_throw (fun k b => read_throw hfr k (p.entries M) numrecs fv b) h]
      rfl
  intro nb frame fr numrecs ms val fv hm hfr hn hsh hst
  rw [hx.parts]
  have key : ∀ qs : List LocalPart, (∀ p ∈ qs, p ∈ ps) → ∀ {ms : List (ProcMem α)},
      List.Forall₂ (fun p m => ∃ val0, PartHolds x.hist val0 p.v.field p.view m) qs ms →
      ∃ ms', x.get nb frame numrecs (procData (qs.map LocalPart.v) (qs.map fun p : LocalPart => p.entries M) ms) fv = .ok ms' ∧
        List.Forall₂ (fun p m => PartHolds x.hist val p.v.field p.view m) qs ms' := by
    intro qs hq ms hm
    induction hm with
    | nil => exact ⟨[], rfl, .nil⟩
    | @cons p m qs ms h _ ih =>
      obtain ⟨ms', h1, h2⟩ := ih fun v hv => hq v (by simp [hv])
      obtain ⟨val0, h⟩ := h
      have hp := hq p (by simp)
      obtain ⟨lname, marks0, hreg⟩ := hx.registered p hp
      obtain ⟨hv, hs⟩ := registered_local (hx.field p hp) hx.total_pos hreg
      obtain ⟨f1, -, f3⟩ := hx.marked_facts hp
      have hmk := hx.marked_eq hp
      obtain ⟨m', g1, g2⟩ := get1_spec (x := x) (f := p.v.field) (v := p.v) (m := m) (val := val) (view := p.view)
        (nb := nb) (frame := frame) (numrecs := numrecs) (marks := p.entries M) (fv := fv) (by
          rintro k hk b ⟨w, hb⟩
          obtain ⟨b', val', e1, ⟨st, e2, e3⟩, -, e5, -⟩ := readLocal_spec hv hs (hx.field p hp) (hx.order p hp)
            (by omega) f3 hfr hk hn hb (hsh.trans (hx.shape_eq p hp))
          refine ⟨b', by rw [Var.read, if_neg (by simp [(hx.field p hp).is_local]), e1], st, e2, ?_⟩
          intro cc s g hin
          obtain ⟨a1, a2, a3, j, hj, rfl, a4⟩ := hx.inField hp hin
          obtain ⟨q, -, -, q1, q2⟩ := hx.mem_ids hp (List.getElem_mem hj)
          have hj' : j < (Var.marked (p.entries M)).length := by omega
          have hmj : (Var.marked (p.entries M))[j] = M (p.coord p.ids[j]) := by simp only [hmk, List.getElem_map]
          rw [e3 cc s _ hin, e5 j hj' cc s, hmj, ← leadPos_eq, filePos_comps (hx.comps p hp),
            hst.values k hk cc s _ a1 a2 a3 q1 q2]
          dsimp only
          rw [a4]) (by
          intro N hN k hk k' hk' he cc s g hin
          obtain ⟨a1, a2, a3, j, hj, rfl, a4⟩ := hx.inField hp hin
          obtain ⟨q, -, -, q1, q2⟩ := hx.mem_ids hp (List.getElem_mem hj)
          rw [a4]
          exact hst.aliased N hN k hk k' hk' he cc s _ a1 a2 a3 ⟨q1, q2⟩) h
      refine ⟨m' :: ms', ?_, .cons g2 h2⟩
      simp only [SessVar.get] at h1 ⊢
      simp only [List.map_cons, procData, mapRes, g1, h1, Res.ok_bind]
      rfl
  exact key ps (fun v hv => hv) hm

end

end Verif.Props
