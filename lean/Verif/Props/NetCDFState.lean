import Verif.Lemmas.NetCDFState
import Verif.Props.NetCDF
import Verif.Props.NetCDFLocal
import Verif.Props.StateField
import Mathlib.Data.Nat.ModEq
/-
Properties of state fields in files: C52.
-/
namespace Verif.Props
open Verif Verif.Ccoord Verif.Layout Verif.Layout.FieldLayout Verif.RawMemory Verif.FileIO Verif.NetCDF
open Verif.Collection Verif.Collection.Coll

variable {α : Type}

/-- The indices of a state field after `c` calls of `cycle`. -/
def cycled (N c : Nat) : List Nat := (initialIndices N).map fun v => (v + c) % (N + 1)

theorem cycled_length (N c : Nat) : (cycled N c).length = N + 1 := by simp [cycled, initialIndices]

theorem cycled_lt {N c : Nat} : ∀ j ∈ cycled N c, j < N + 1 := by
  intro j hj
  obtain ⟨v, -, rfl⟩ := List.mem_map.1 hj
  exact Nat.mod_lt _ (by omega)

theorem cycled_zero (N : Nat) : cycled N 0 = initialIndices N := by
  rw [cycled]
  conv_rhs => rw [← List.map_id (initialIndices N)]
  exact List.map_congr_left fun v hv => by simpa using Nat.mod_eq_of_lt (initialIndices_lt v hv)

theorem cycled_succ (N c : Nat) : (cycled N c).map (fun v => (v + 1) % (N + 1)) = cycled N (c + 1) := by
  rw [cycled, cycled, List.map_map]
  exact List.map_congr_left fun v _ => by simp [Nat.add_assoc]

/-- Whether two entries of the history share a field depends on the size of the memory only. -/
theorem cycled_same {N c k k' : Nat} :
    (cycled N c)[k]? = (cycled N c)[k']? ↔ (initialIndices N)[k]? = (initialIndices N)[k']? := by
  simp only [cycled, List.getElem?_map]
  cases h : (initialIndices N)[k]? with
  | none => cases h' : (initialIndices N)[k']? <;> simp
  | some v =>
    cases h' : (initialIndices N)[k']? with
    | none => simp
    | some v' =>
      have h1 := initialIndices_lt v (List.mem_of_getElem? h)
      have h2 := initialIndices_lt v' (List.mem_of_getElem? h')
      simp only [Option.map_some, Option.some.injEq]
      refine ⟨fun he => ?_, fun he => by rw [he]⟩
      have : v ≡ v' [MOD N + 1] := Nat.ModEq.add_right_cancel' c he
      rwa [Nat.ModEq, Nat.mod_eq_of_lt h1, Nat.mod_eq_of_lt h2] at this

/-- The indices of a registered state field are always of this form. -/
theorem C52_indices {U : Type} [Inhabited α] [DecidableEq U] {N : Nat} {c c1 c2 : Coll α U} {pre : String}
    {ty : ElemType} {nbComp : Int} {tag : String} {unit : U}
    (hreg : c.registerState pre ty N nbComp tag unit false = (.ok (), c1)) {ops : List (StOp α U)}
    (hrun : c1.stRun pre ops = some c2) :
    ∃ s n, c2.states.find pre = some s ∧ s.nbMemory = N ∧ s.indices = cycled N n := by
  obtain ⟨-, s, hs, hm, -, hx, -⟩ := registerState_new hreg
  rw [← cycled_zero] at hx
  clear hreg
  generalize 0 = n at hx
  induction ops generalizing c1 s n with
  | nil => cases hrun; exact ⟨s, n, hs, hm, hx⟩
  | cons op ops ih =>
    have hon : ∀ (c : Coll α U) name f, (c.onField name f).2.states = c.states := by
      intro c name f
      unfold onField
      split <;> rfl
    rw [stRun] at hrun
    have key : ∃ s' n', (c1.stStep pre op).2.states.find pre = some s' ∧ s'.nbMemory = N ∧
        s'.indices = cycled N n' := by
      cases op with
      | onCurrent f =>
        refine ⟨s, n, ?_, hm, hx⟩
        rw [stStep]
        split
        · rw [hon, hs]
        · exact hs
        · exact hs
      | cycle =>
        refine ⟨{ s with indices := s.indices.map fun v => (v + 1) % (s.nbMemory.toNat + 1) }, n + 1, ?_, hm, ?_⟩
        · simp only [stStep, Coll.cycle, hs]
          exact SMap.find_insert_self ..
        · simp only [hm, Int.toNat_natCast, hx, cycled_succ]
      | onOther name f =>
        exact ⟨s, n, by rw [stStep, hon, hs], hm, hx⟩
    obtain ⟨s', n', k1, k2, k3⟩ := key
    generalize c1.stStep pre op = r at hrun k1
    obtain ⟨r1, r2⟩ := r
    cases r1 with
    | ub => simp at hrun
    | ok u => exact ih hrun s' k1 k2 n' k3
    | throw e => exact ih hrun s' k1 k2 n' k3

/-! ## Global state fields -/

/-- A process with its part of a state field. -/
structure StateRank (α : Type) where
  v : Var
  f : IoField
  /-- how often `cycle` has been called -/
  cycles : Nat
  /-- the memories of the fields -/
  bufs : List (Mem α)
  /-- the values of entry `k` of the history -/
  val : Nat → List Int → Int → List Int → α

def StateRank.data (r : StateRank α) (N : Nat) (marks : List Int) : StateData α :=
  ⟨r.v, cycled N r.cycles, r.bufs, marks⟩

/-- `old(k)` (or `current()`) has the values `val k`, in the memories `bufs`. -/
def HoldsHistory (f : IoField) (N cycles : Nat) (bufs : List (Mem α))
    (val : Nat → List Int → Int → List Int → α) : Prop :=
  ∀ k ≤ N, ∃ j b, (cycled N cycles)[k]? = some j ∧ bufs[j]? = some b ∧ Holds f b (val k)

/-- The process has registered its part of the state field `vname`; the fields have memory and hold the
history `val`. -/
structure StateRank.Ready (r : StateRank α) (vname : String) (N : Nat) : Prop where
  field : GlobalField r.f
  registered : ∃ grid grid', registerGlobalVar vname r.f false (some N) grid = .ok (r.v, grid')
  slots : r.bufs.length = N + 1
  all : ∀ b ∈ r.bufs, ∃ w, Holds r.f b w
  holds : HoldsHistory r.f N r.cycles r.bufs r.val

/-- The part of entry `k`. -/
def StateRank.rank (r : StateRank α) (N k : Nat) : Rank α :=
  ⟨r.v, r.f, (r.bufs[((cycled N r.cycles)[k]?).getD 0]?).getD (fun _ => none), r.val k⟩

theorem StateRank.Ready.rank_ready {r : StateRank α} {vname : String} {N : Nat} (h : r.Ready vname N) {k : Nat}
    (hk : k ≤ N) : (r.rank N k).Ready vname false (some N) ∧
      stateBuf (cycled N r.cycles) r.bufs k = .ok (r.rank N k).buf := by
  obtain ⟨j, b, h1, h2, h3⟩ := h.holds k hk
  have hb : (r.rank N k).buf = b := by simp [StateRank.rank, h1, h2]
  refine ⟨⟨h.field, by simp, h.registered, by rw [hb]; exact h3⟩, ?_⟩
  obtain ⟨hj, rfl⟩ := List.getElem?_eq_some_iff.1 h2
  rw [stateBuf, stateSlot, h1, hb]
  exact at!_eq_ok hj

theorem leadPos_inj {fr fr' : Int} {k k' : Nat} {N : Nat} {f f' : IoField} {cc cc' : List Int} {s s' : Int}
    {g g' : List Int} (h : filePos f (leadPos false fr k (some N)) cc s g =
      filePos f' (leadPos false fr' k' (some N)) cc' s' g') : fr = fr' ∧ k = k' := by
  simp only [filePos, leadPos, List.cons_append, List.nil_append, List.cons.injEq] at h
  exact ⟨h.1, by exact_mod_cast h.2.1⟩

/-- **C52** Writing a state field stores the current and all remembered values of all processes, each at its
index into the history; values of other frames do not change. -/
theorem C52_write {vname : String} {N : Nat} (ws : List (StateRank α)) (hr : ∀ r ∈ ws, r.Ready vname N)
    (hsame : ∀ r ∈ ws, ∀ r' ∈ ws, SameField r.f r'.f)
    (hdis : ws.Pairwise fun r r' => ∀ g, InBoxAt r.f.layout.pixShape r.f.loc g →
      ¬ InBoxAt r'.f.layout.pixShape r'.f.loc g)
    {nb frame fr : Int} (hfr : varFrame nb frame = .ok fr)
    {fv : FileVar α} (hsh : ∀ r ∈ ws, fv.form = r.v.form) :
    ∃ fv', writeState nb frame N (ws.map fun r : StateRank α => r.data N []) fv = .ok fv' ∧ fv'.form = fv.form ∧
      (∀ r ∈ ws, ∀ k ≤ N, ∀ cc s g, InField r.f cc s g →
        fv'.data (filePos r.f (leadPos false fr k (some N)) cc s g) = r.val k cc s g) ∧
      ∀ y, (∀ r ∈ ws, ∀ k ≤ N, ∀ cc s g, InField r.f cc s g →
        y ≠ filePos r.f (leadPos false fr k (some N)) cc s g) → fv'.data y = fv.data y := by
  -- the places of entry `k`
  let P : Nat → List Int → Prop := fun k y =>
    ∃ r ∈ ws, ∃ cc s g, InField r.f cc s g ∧ y = filePos r.f (leadPos false fr k (some N)) cc s g
  have hk : ∀ {k}, k ∈ List.range (N + 1) ↔ k ≤ N := by simp [Nat.lt_succ_iff]
  have hpre : ∀ k ≤ N, ∀ fv0 : FileVar α, fv0.form = fv.form → ∃ fv1,
      (do let rs ← mapRes (fun w : StateData α => do let b ← stateBuf w.idx w.bufs k; pure (w.v, w.marks, b))
            (ws.map fun r : StateRank α => r.data N [])
          Var.writeRanks nb frame k rs fv0) = .ok fv1 ∧ fv1.form = fv.form ∧
      (∀ r ∈ ws, ∀ cc s g, InField r.f cc s g →
        fv1.data (filePos r.f (leadPos false fr k (some N)) cc s g) = r.val k cc s g) ∧
      ∀ y, ¬ P k y → fv1.data y = fv0.data y := by
    intro k hkN fv0 hs0
    obtain ⟨fv1, h1, h2, h3, h4⟩ := C36_values (ws.map fun r => r.rank N k) (vname := vname) (hidden := false)
      (hist := some N) (by
        intro r hrm
        obtain ⟨r', hrm', rfl⟩ := List.mem_map.1 hrm
        exact ((hr r' hrm').rank_ready hkN).1) (by
        intro r hrm r' hrm'
        obtain ⟨r1, hrm1, rfl⟩ := List.mem_map.1 hrm
        obtain ⟨r2, hrm2, rfl⟩ := List.mem_map.1 hrm'
        exact hsame r1 hrm1 r2 hrm2) (by
        rw [List.pairwise_map]
        exact hdis) hfr (k := k) hkN (fv := fv0) (by
        intro r hrm
        obtain ⟨r', hrm', rfl⟩ := List.mem_map.1 hrm
        exact hs0.trans (hsh r' hrm'))
    refine ⟨fv1, ?_, h2.trans hs0, ?_, ?_⟩
    · rw [mapRes_of_map, mapRes_ok _ (fun r : StateRank α => (r.v, [], (r.rank N k).buf)) ws ?_, Res.ok_bind,
        writeRanks_global, ← h1]
      · congr 1
        rw [List.map_map, List.map_map]
        rfl
      · intro w hw
        obtain ⟨r, hrm, rfl⟩ := List.mem_map.1 hw
        obtain ⟨grid, grid', hreg⟩ := (hr r hrm).registered
        rw [(registered (hr r hrm).field (by simp) hreg).1.field]
        exact (hr r hrm).field.is_global
      · intro r hrm
        simp only [StateRank.data, ((hr r hrm).rank_ready hkN).2]
        rfl
    · intro r hrm
      exact h3 _ (List.mem_map_of_mem hrm)
    · intro y hy
      refine h4 y ?_
      intro r hrm cc s g hin he
      obtain ⟨r', hrm', rfl⟩ := List.mem_map.1 hrm
      exact hy ⟨r', hrm', cc, s, g, hin, he⟩
  obtain ⟨fv', e1, e2, e3, e4⟩ := histLoop_write (S := fv.form) (List.range (N + 1)) List.nodup_range P
    (fun k d => ∀ r ∈ ws, ∀ cc s g, InField r.f cc s g →
        d (filePos r.f (leadPos false fr k (some N)) cc s g) = r.val k cc s g)
    (fun k hkm => hpre k (hk.1 hkm)) (by
      intro k _ d d' hC hd r hrm cc s g hin
      rw [hd _ ⟨r, hrm, cc, s, g, hin, rfl⟩, hC r hrm cc s g hin]) (by
      rintro k _ k' _ y ⟨r, _, cc, s, g, _, rfl⟩ ⟨r', _, cc', s', g', _, he⟩
      exact (leadPos_inj he).2) fv rfl
  refine ⟨fv', e1, e2, fun r hrm k hkN => e3 k (hk.2 hkN) r hrm, ?_⟩
  intro y hy
  refine e4 y ?_
  rintro k hkm ⟨r, hrm, cc, s, g, hin, he⟩
  exact hy r hrm k (hk.1 hkm) cc s g hin he

/-- **C52** Reading gives each entry of the history the values at its index in the file, if the file has the
same values for entries that share a field. -/
theorem C52_read {vname : String} {N : Nat} {r : StateRank α} (hr : r.Ready vname N)
    {nb frame fr numrecs : Int} (hfr : varFrame nb frame = .ok fr) (hn : fr < numrecs)
    {fv : FileVar α} (hsh : fv.form = r.v.form)
    (hal : ∀ k ≤ N, ∀ k' ≤ N, (initialIndices N)[k]? = (initialIndices N)[k']? → ∀ cc s g, InField r.f cc s g →
      fv.data (filePos r.f (leadPos false fr k (some N)) cc s g) =
        fv.data (filePos r.f (leadPos false fr k' (some N)) cc s g)) :
    ∃ bufs', readState nb frame N (r.data N []) numrecs fv = .ok bufs' ∧ bufs'.length = N + 1 ∧
      HoldsHistory r.f N r.cycles bufs' fun k cc s g =>
        fv.data (filePos r.f (leadPos false fr k (some N)) cc s g) := by
  obtain ⟨grid, grid', hreg⟩ := hr.registered
  have hg : r.v.field.isGlobal = true := by
    rw [(registered hr.field (by simp) hreg).1.field]; exact hr.field.is_global
  have hlen := cycled_length N r.cycles
  obtain ⟨bufs', h1, h2, -, h4, -⟩ := histLoop_read (idx := cycled N r.cycles)
    (rd := fun k b => r.v.read nb frame k [] numrecs fv b) (List.range (N + 1)) (fun b => ∃ w, Holds r.f b w)
    (fun k b => Holds r.f b fun cc s g => fv.data (filePos r.f (leadPos false fr k (some N)) cc s g)) (by
      rintro k hk b ⟨w, hb⟩
      have hkN : k ≤ N := by simpa [Nat.lt_succ_iff] using hk
      obtain ⟨b', e1, e2, -⟩ := C35_read hr.field (by simp) hreg hfr (k := k) hkN hn hb hsh
      exact ⟨b', by rw [Var.read, if_pos hg, e1], e2, _, e2⟩) (by
      rintro k k' hk hk' he b ⟨st, hs, hb⟩
      refine ⟨st, hs, fun cc s g hin => ?_⟩
      exact (hb cc s g hin).trans
        (congrArg some (hal k (by omega) k' (by omega) (cycled_same.1 he) cc s g hin)))
    (by simp [hlen]) r.bufs (by rw [hr.slots]; exact cycled_lt) hr.all
  refine ⟨bufs', h1, h2.trans hr.slots, ?_⟩
  intro k hk
  exact h4 k (by omega) (Or.inl (by simpa [Nat.lt_succ_iff] using hk))

/-- **C52** If the subdomains partition the domain, then after a collective write of a state field any
process, with any decomposition, storage order and number of cycles, has after reading the current and all
remembered values that the state field had on the processes that wrote it. -/
theorem C52_round_trip {vname : String} {N : Nat} (ws : List (StateRank α)) (hr : ∀ r ∈ ws, r.Ready vname N)
    (hsame : ∀ r ∈ ws, ∀ r' ∈ ws, SameField r.f r'.f)
    (hdis : ws.Pairwise fun r r' => ∀ g, InBoxAt r.f.layout.pixShape r.f.loc g →
      ¬ InBoxAt r'.f.layout.pixShape r'.f.loc g) {dom : List Int}
    (hcov : ∀ g, InBox dom g → ∃ r ∈ ws, InBoxAt r.f.layout.pixShape r.f.loc g)
    {val : Nat → List Int → Int → List Int → α}
    (hval : ∀ r ∈ ws, ∀ k ≤ N, ∀ cc s g, InField r.f cc s g → r.val k cc s g = val k cc s g)
    {nb nb' frame frame' fr numrecs : Int} (hfr : varFrame nb frame = .ok fr)
    (hfr' : varFrame nb' frame' = .ok fr) (hn : fr < numrecs)
    {fv : FileVar α} (hsh : ∀ r ∈ ws, fv.form = r.v.form)
    {reader : StateRank α} (hread : reader.Ready vname N) (hrs : ∀ r ∈ ws, SameField r.f reader.f)
    (hrd : reader.f.nbDomain = dom) (hne : ws ≠ []) :
    ∃ fv' bufs', writeState nb frame N (ws.map fun r : StateRank α => r.data N []) fv = .ok fv' ∧
      readState nb' frame' N (reader.data N []) numrecs fv' = .ok bufs' ∧
      HoldsHistory reader.f N reader.cycles bufs' val := by
  obtain ⟨fv', h1, h2, h3, -⟩ := C52_write ws hr hsame hdis hfr hsh
  obtain ⟨r0, hr0⟩ := List.exists_mem_of_ne_nil ws hne
  obtain ⟨g1, g1', hreg0⟩ := (hr r0 hr0).registered
  obtain ⟨g2, g2', hregr⟩ := hread.registered
  obtain ⟨hv, hs, hg⟩ := registered (hr r0 hr0).field (by simp) hreg0
  obtain ⟨hv', hs', hg'⟩ := registered hread.field (by simp) hregr
  have hfind : ∀ {cc s g}, InField reader.f cc s g → ∃ r ∈ ws, InField r.f cc s g := by
    intro cc s g hin
    have hgd : InBox dom g := by
      rw [← hrd]; exact inBoxAt_of_within hread.field.inside hin.2.2.2
    obtain ⟨r, hrm, hrg⟩ := hcov g hgd
    have := hrs r hrm
    exact ⟨r, hrm, by rw [this.comps]; exact hin.1, hin.2.1, by rw [this.sub]; exact hin.2.2.1, hrg⟩
  have hdata : ∀ k ≤ N, ∀ cc s g, InField reader.f cc s g →
      fv'.data (filePos reader.f (leadPos false fr k (some N)) cc s g) = val k cc s g := by
    intro k hk cc s g hin
    obtain ⟨r, hrm, hin'⟩ := hfind hin
    exact (congrArg fv'.data (filePos_congr (hrs r hrm) _ cc s g).symm).trans
      ((h3 r hrm k hk cc s g hin').trans (hval r hrm k hk cc s g hin'))
  obtain ⟨bufs', e1, -, e3⟩ := C52_read hread hfr' hn
    (h2.trans ((hsh r0 hr0).trans (form_congr hv hs hg hv' hs' hg' (hrs r0 hr0)))) (by
      intro k hk k' hk' he cc s g hin
      obtain ⟨r, hrm, hin'⟩ := hfind hin
      rw [hdata k hk cc s g hin, hdata k' hk' cc s g hin, ← hval r hrm k hk cc s g hin',
        ← hval r hrm k' hk' cc s g hin']
      obtain ⟨j, b, d1, d2, st, d3, d4⟩ := (hr r hrm).holds k hk
      obtain ⟨j', b', d1', d2', st', d3', d4'⟩ := (hr r hrm).holds k' hk'
      rw [cycled_same.2 he, d1'] at d1
      cases d1
      rw [d2'] at d2
      cases d2
      rw [d3'] at d3
      cases d3
      exact Option.some.inj ((d4 cc s g hin').symm.trans (d4' cc s g hin')))
  refine ⟨fv', bufs', h1, e1, ?_⟩
  intro k hk
  obtain ⟨j, b, d1, d2, st, d3, d4⟩ := e3 k hk
  exact ⟨j, b, d1, d2, st, d3, fun cc s g hin => (d4 cc s g hin).trans
    (congrArg some (hdata k hk cc s g hin))⟩

/-- A scalar field on a grid with three points. -/
def exLine : IoField :=
  ⟨"t", "", ⟨.colMajor, [1], 1, [3], [1], 3⟩, 3, true, [3], [0], .real⟩

def exLineBuf (x : Int) : Mem Int := fun a => if 0 ≤ a ∧ a < 3 then some x else none

theorem exLine_holds (x : Int) : Holds exLine (exLineBuf x) fun _ _ _ => x := by
  refine ⟨[1, 1, 1], by decide, ?_⟩
  intro cc s g ⟨hcc, hs0, hs1, hg⟩
  rcases cc with _ | ⟨c, _ | ⟨y, cc⟩⟩ <;> simp [exLine, InBox] at hcc hs1
  rcases g with _ | ⟨i, _ | ⟨y, g⟩⟩ <;> simp [exLine, InBoxAt] at hg
  have : memPos exLine [1, 1, 1] [c] s [i] = c + (s + i) := by simp [memPos, exLine, relCoord, dot]
  rw [this]
  exact if_pos (by omega)

/-- Two remembered values, after one `cycle`: the indices are 0, 0 and 1. -/
def exStateRank : StateRank Int :=
  ⟨⟨"t", exLine, some 2, [⟨"frame", 0⟩, ⟨"history_index__3", 3⟩, ⟨"tensor_dim__t-0", 1⟩, ⟨"nx", 3⟩], false, ""⟩,
    exLine, 1, [exLineBuf 10, exLineBuf 20, exLineBuf 30], fun k _ _ _ => if k = 2 then 20 else 10⟩

example : cycled 2 1 = [0, 0, 1] ∧ cycled 3 1 = [1, 0, 3, 2] := by decide

/-- The hypotheses on a process are met, also with a memory whose size is not a power of two minus one. -/
example : exStateRank.Ready "t" 2 := by
  refine ⟨⟨by decide, by decide, by decide, by decide, rfl, by decide, by decide, addressing_acc [3]⟩,
    ⟨[0, 0, 0], [3, 0, 0], by decide +kernel⟩, rfl, ?_, ?_⟩
  · intro b hb
    simp only [exStateRank, List.mem_cons, List.not_mem_nil, or_false] at hb
    rcases hb with rfl | rfl | rfl <;> exact ⟨_, exLine_holds _⟩
  · intro k hk
    have : k = 0 ∨ k = 1 ∨ k = 2 := by omega
    rcases this with rfl | rfl | rfl
    · exact ⟨0, _, by decide, rfl, exLine_holds 10⟩
    · exact ⟨0, _, by decide, rfl, exLine_holds 10⟩
    · exact ⟨1, _, by decide, rfl, exLine_holds 20⟩

/-! ## Local state fields -/

/-- **C52** (part) A state field of a local collection: if the pixels were added in the same order to the
collection that reads, it has after reading the current and all remembered values.  Missing: other orders
of the pixels, see `C37_false`. -/
theorem C52_local_partial {v v' : Var} {vname : String} {f f' : IoField} {N : Nat} {total : Int}
    {size : Nat} {off : Int} {ids marks : List Int}
    (hw : LocalReady v vname f (some N) total size off ids marks) (hf' : LocalField f' ids.length)
    (hcol' : f'.layout.order = .colMajor ∨ f'.layout.nbDof = 1) {lname' : String} {marks0 : List Int}
    (hreg' : registerLocalVar vname f' (some N) total lname' marks0 = .ok v')
    (hty : f.ty = f'.ty) (hc : f.layout.comps = f'.layout.comps) (hsub : f.layout.nbSub = f'.layout.nbSub)
    {nb nb' frame frame' fr numrecs : Int} (hfr : varFrame nb frame = .ok fr)
    (hfr' : varFrame nb' frame' = .ok fr) (hn : fr < numrecs)
    {bufs bufs' : List (Mem α)} {cycles cycles' : Nat} {pval : Nat → List Int → Int → Int → α}
    (hb : HoldsHistory f N cycles bufs fun k => atPixels ids (pval k))
    (hb' : ∀ b ∈ bufs', ∃ w, Holds f' b w) (hl' : bufs'.length = N + 1)
    {fv : FileVar α} (hsh : fv.form = v.form) :
    ∃ fv' bufs'', writeState nb frame N [⟨v, cycled N cycles, bufs, marks⟩] fv = .ok fv' ∧
      readState nb' frame' N ⟨v', cycled N cycles', bufs', marks⟩ numrecs fv' = .ok bufs'' ∧
      HoldsHistory f' N cycles' bufs'' fun k => atPixels ids (pval k) := by
  obtain ⟨hv, hs, hlen, hnd, ho⟩ := hw.facts
  obtain ⟨hv', hs'⟩ := registered_local hf' hw.total_pos hreg'
  have hk : ∀ {k}, k ∈ List.range (N + 1) ↔ k ≤ N := by simp [Nat.lt_succ_iff]
  have hloc : v.field.isGlobal = false := by rw [hv.field]; exact hw.field.is_local
  have hloc' : v'.field.isGlobal = false := by rw [hv'.field]; exact hf'.is_local
  obtain ⟨fv', e1, e2, e3, -⟩ := histLoop_write (S := fv.form) (List.range (N + 1)) List.nodup_range
    (fun k y => ∃ o ∈ Var.marked marks, ∃ cc s, InBox f.layout.comps cc ∧ 0 ≤ s ∧ s < f.layout.nbSub ∧
      y = filePos f (leadPos false fr k (some N)) cc s [o])
    (fun k d => ∀ j (h : j < (Var.marked marks).length), ∀ cc s, InBox f.layout.comps cc → 0 ≤ s →
      s < f.layout.nbSub → d (filePos f (leadPos false fr k (some N)) cc s [(Var.marked marks)[j]]) =
        atPixels ids (pval k) cc s [(j : Int)])
    (step := fun k fv => do
      let rs ← mapRes (fun w : StateData α => do let b ← stateBuf w.idx w.bufs k; pure (w.v, w.marks, b))
        [⟨v, cycled N cycles, bufs, marks⟩]
      Var.writeRanks nb frame k rs fv) (by
      intro k hkm fv0 hs0
      obtain ⟨j, b, d1, d2, d3⟩ := hb k (hk.1 hkm)
      obtain ⟨hj, rfl⟩ := List.getElem?_eq_some_iff.1 d2
      obtain ⟨fv1, h1, h2, h3, h4⟩ := writeLocal_spec hv hs hw.field hw.order (by omega) hnd ho hfr (k := k)
        (hk.1 hkm) d3 (hs0.trans hsh)
      refine ⟨fv1, ?_, h2.trans hs0, ?_, ?_⟩
      · have hsb : stateBuf (cycled N cycles) bufs k = .ok bufs[j] := by
          rw [stateBuf, stateSlot, d1]; exact at!_eq_ok hj
        simp only [mapRes, hsb, Res.ok_bind, Res.pure_eq]
        rw [writeRanks_local _ _ _ _ (by simp [hloc]), Var.writeAllLocal, h1]
        rfl
      · simp only [leadPos_eq]; exact h3
      · intro y hy
        refine h4 y ?_
        intro o hom cc s hcc hs0 hs1 he
        exact hy ⟨o, hom, cc, s, hcc, hs0, hs1, by rw [leadPos_eq]; exact he⟩) (by
      intro k _ d d' hC hd j hj cc s hcc hs0 hs1
      rw [hd _ ⟨_, List.getElem_mem hj, cc, s, hcc, hs0, hs1, rfl⟩, hC j hj cc s hcc hs0 hs1]) (by
      rintro k _ k' _ y ⟨o, _, cc, s, _, _, _, rfl⟩ ⟨o', _, cc', s', _, _, _, he⟩
      exact (leadPos_inj he).2) fv rfl
  have hlc := cycled_length N cycles'
  obtain ⟨bufs'', d1, d2, -, d4, -⟩ := histLoop_read (idx := cycled N cycles')
    (rd := fun k b => v'.read nb' frame' k marks numrecs fv' b) (List.range (N + 1))
    (fun b => ∃ w, Holds f' b w) (fun k b => Holds f' b (atPixels ids (pval k))) (by
      rintro k hkm b ⟨w, hbw⟩
      obtain ⟨b', val'', h1, ⟨su, h2, h3⟩, -, h5, -⟩ := readLocal_spec hv' hs' hf' hcol' (marks := marks)
        (by omega) ho hfr' (k := k) (hk.1 hkm) hn hbw
        (e2.trans (hsh.trans (form_local_congr hv hs hv' hs' hty hc hsub)))
      have hh : Holds f' b' (atPixels ids (pval k)) := by
        refine ⟨su, h2, ?_⟩
        intro cc s g hin
        rw [h3 cc s g hin]
        obtain ⟨hcc, hs0, hs1, i, hi0, hi1, rfl⟩ := (local_inField hf').1 hin
        obtain ⟨j, rfl⟩ := Int.eq_ofNat_of_zero_le hi0
        have hj : j < (Var.marked marks).length := by omega
        have := e3 k hkm j hj cc s (hc ▸ hcc) hs0 (hsub ▸ hs1)
        rw [leadPos_eq] at this
        rw [h5 j hj cc s, ← filePos_comps hc, this]
      exact ⟨b', by rw [Var.read, if_neg (by simp [hloc']), h1], hh, _, hh⟩) (by
      rintro k k' hkl hkl' he b ⟨st, hs1, hb1⟩
      refine ⟨st, hs1, fun cc s g hin => (hb1 cc s g hin).trans (congrArg some ?_)⟩
      obtain ⟨hcc, hs0, hs2, i, hi0, hi1, rfl⟩ := (local_inField hf').1 hin
      have hin' : InField f cc s [i] :=
        (local_inField hw.field).2 ⟨hc ▸ hcc, hs0, hsub ▸ hs2, i, hi0, hi1, rfl⟩
      obtain ⟨j, b, d1, d2, st, d3, d4⟩ := hb k (by omega)
      obtain ⟨j', b', d1', d2', st', d3', d4'⟩ := hb k' (by omega)
      rw [cycled_same.2 (cycled_same.1 he), d1'] at d1
      cases d1
      rw [d2'] at d2
      cases d2
      rw [d3'] at d3
      cases d3
      exact Option.some.inj ((d4 cc s _ hin').symm.trans (d4' cc s _ hin')))
    (by simp [hlc]) bufs' (by rw [hl']; exact cycled_lt) hb'
  refine ⟨fv', bufs'', e1, d1, ?_⟩
  intro k hkN
  exact d4 k (by omega) (Or.inl (hk.2 hkN))

/-- The hypotheses are met: three local pixels, one remembered value. -/
example : (∃ v, LocalReady v "plastic" exLocalField (some 1) 10 6 7 [4, 1, 3] [-1, 8, -1, 9, 7, -1]) ∧
    HoldsHistory exLocalField 1 0
      [fun a => if 0 ≤ a ∧ a < 12 then some a else none, fun a => if 0 ≤ a ∧ a < 12 then some a else none]
      fun _ => atPixels [4, 1, 3] fun cc s p =>
        dot [1, 2, 4] (cc ++ [s, if p = 4 then 0 else if p = 1 then 1 else 2]) := by
  refine ⟨⟨⟨"plastic", exLocalField, some 1, [⟨"frame", 0⟩, ⟨"history_index__2", 2⟩,
    ⟨"tensor_dim__plastic-0", 2⟩, ⟨"subpt__quad-2", 2⟩, ⟨"pts__plastic", 10⟩], false, "inclusion"⟩,
    ⟨exLocalField_field, by decide, by decide, by decide, by decide, by decide, by decide, by decide,
      ⟨"inclusion", [], by decide +kernel⟩⟩⟩, ?_⟩
  intro k hk
  have : k = 0 ∨ k = 1 := by omega
  rcases this with rfl | rfl
  · exact ⟨0, _, by decide, rfl, exLocalField_holds⟩
  · exact ⟨1, _, by decide, rfl, exLocalField_holds⟩

/-! ### The full statement is false -/

/-- The full statement for local collections: the order in which pixels were added to the two collections does
not matter. -/
def C52_statement : Prop :=
  ∀ (v v' : Var) (vname : String) (f f' : IoField) (N : Nat) (total : Int) (size : Nat) (off : Int)
    (ids ids' marks : List Int), LocalReady v vname f (some N) total size off ids marks → ids'.Perm ids →
    LocalField f' ids'.length → (f'.layout.order = .colMajor ∨ f'.layout.nbDof = 1) →
    (∃ lname' marks0, registerLocalVar vname f' (some N) total lname' marks0 = .ok v') →
    f.ty = f'.ty → f.layout.comps = f'.layout.comps → f.layout.nbSub = f'.layout.nbSub →
    ∀ (nb frame fr numrecs : Int), varFrame nb frame = .ok fr → fr < numrecs →
    ∀ (bufs bufs' : List (Mem Int)) (cycles cycles' : Nat) (pval : Nat → List Int → Int → Int → Int),
    HoldsHistory f N cycles bufs (fun k => atPixels ids (pval k)) →
    (∀ b ∈ bufs', ∃ w, Holds f' b w) → bufs'.length = N + 1 →
    ∀ fv : FileVar Int, fv.form = v.form →
    ∃ fv' bufs'', writeState nb frame N [⟨v, cycled N cycles, bufs, marks⟩] fv = .ok fv' ∧
      readState nb frame N ⟨v', cycled N cycles', bufs', marks⟩ numrecs fv' = .ok bufs'' ∧
      HoldsHistory f' N cycles' bufs'' fun k => atPixels ids' (pval k)

/-- A state field with one remembered value on three local pixels. -/
def exLocalState : Var :=
  ⟨"plastic", exLocalField, some 1, [⟨"frame", 0⟩, ⟨"history_index__2", 2⟩, ⟨"tensor_dim__plastic-0", 2⟩,
    ⟨"subpt__quad-2", 2⟩, ⟨"pts__plastic", 10⟩], false, "inclusion"⟩

/-- **C52** does not hold for local collections: with the pixels added in the order 4, 1, 3 and read into a
collection with the order 1, 3, 4, pixel 1 gets the current and the remembered values of pixel 4. -/
theorem C52_false : ¬ C52_statement := by
  intro h
  have hreg : registerLocalVar "plastic" exLocalField (some 1) 10 "inclusion" [] = .ok exLocalState := by
    decide +kernel
  have hw : LocalReady exLocalState "plastic" exLocalField (some 1) 10 6 7 [4, 1, 3] [-1, 8, -1, 9, 7, -1] :=
    ⟨exLocalField_field, by decide, by decide, by decide, by decide, by decide, by decide, by decide,
      ⟨"inclusion", [], hreg⟩⟩
  have hh : HoldsHistory exLocalField 1 0
      [fun a => if 0 ≤ a ∧ a < 12 then some a else none, fun a => if 0 ≤ a ∧ a < 12 then some a else none]
      fun _ => atPixels [4, 1, 3] fun cc s p =>
        dot [1, 2, 4] (cc ++ [s, if p = 4 then 0 else if p = 1 then 1 else 2]) := by
    intro k hk
    have : k = 0 ∨ k = 1 := by omega
    rcases this with rfl | rfl
    · exact ⟨0, _, by decide, rfl, exLocalField_holds⟩
    · exact ⟨1, _, by decide, rfl, exLocalField_holds⟩
  have hb : ∀ b ∈ [fun a : Int => if 0 ≤ a ∧ a < 12 then some a else none,
      fun a : Int => if 0 ≤ a ∧ a < 12 then some a else none], ∃ w, Holds exLocalField b w := by
    intro b hb
    simp only [List.mem_cons, List.not_mem_nil, or_false, or_self] at hb
    exact ⟨_, hb ▸ exLocalField_holds⟩
  obtain ⟨fv', bufs'', h1, h2, h3⟩ := h exLocalState exLocalState "plastic" exLocalField exLocalField 1 10 6 7
    [4, 1, 3] [1, 3, 4] _ hw (by decide) exLocalField_field (by decide) ⟨_, _, hreg⟩ rfl rfl rfl 3 (-1) 2 3
    (by decide) (by decide) _ _ 0 0 (fun _ => _) hh hb rfl
    ⟨fileShape exLocalState.dims, .double, fun _ => 0⟩ rfl
  obtain ⟨fv2, bufs2, e1, e2, e3⟩ := C52_local_partial hw exLocalField_field (by decide) hreg rfl rfl rfl
    (nb := 3) (nb' := 3) (frame := -1) (frame' := -1) (fr := 2) (numrecs := 3) (by decide) (by decide) (by decide)
    hh hb rfl (cycles' := 0) (fv := ⟨fileShape exLocalState.dims, .double, fun _ => 0⟩) rfl
  rw [h1] at e1
  cases e1
  rw [h2] at e2
  cases e2
  obtain ⟨j, b, a1, a2, su, a3, a4⟩ := h3 0 (by decide)
  obtain ⟨j', b', c1, c2, su', c3, c4⟩ := e3 0 (by decide)
  rw [a1] at c1
  cases c1
  rw [a2] at c2
  cases c2
  rw [a3] at c3
  cases c3
  have hin : InField exLocalField [0] 0 [0] := by
    rw [local_inField exLocalField_field]
    exact ⟨by decide, by decide, by decide, 0, by decide, by decide, rfl⟩
  have := (a4 _ _ _ hin).symm.trans (c4 _ _ _ hin)
  revert this
  decide

end Verif.Props
