import Verif.Props.FileSession
import Verif.Props.FileEntries
/-
Two programs that use the same file, as an example for C62.
-/
namespace Verif.Props
open Verif Verif.Ccoord Verif.Layout Verif.Layout.FieldLayout Verif.RawMemory Verif.FileIO Verif.NetCDF
open Verif.Collection Verif.Collection.Coll

/-- A scalar field on a part of a grid with three points. -/
def exG (name : String) (order : StorageOrder) (n loc : Int) : IoField :=
  ⟨name, "pixel", ⟨order, [1], 1, [n], [1], n⟩, n, true, [3], [loc], if name = "L" then .index else .real⟩

/-- A field with two components on `n` local pixels. -/
def exL (n : Int) : IoField := ⟨"p", "pixel", ⟨.colMajor, [2], 1, [n], [1], n⟩, n, false, [], [0], .real⟩

def exVarU (order : StorageOrder) (n loc : Int) : Var :=
  ⟨"u", exG "u" order n loc, none, [⟨"frame", 0⟩, ⟨"tensor_dim__u-0", 1⟩, ⟨"nx", 3⟩], false, ""⟩
def exVarT (order : StorageOrder) (n loc : Int) : Var :=
  ⟨"T", exG "T" order n loc, some 1,
    [⟨"frame", 0⟩, ⟨"history_index__2", 2⟩, ⟨"tensor_dim__T-0", 1⟩, ⟨"nx", 3⟩], false, ""⟩
def exVarP (n : Int) : Var :=
  ⟨"p", exL n, none, [⟨"frame", 0⟩, ⟨"tensor_dim__p-0", 2⟩, ⟨"subpt__pixel-1", 1⟩, ⟨"pts__p", 2⟩], false, "L"⟩
def exVarL (n loc : Int) : Var :=
  ⟨"L", exG "L" .colMajor n loc, none, [⟨"tensor_dim__L-0", 1⟩, ⟨"nx", 3⟩], true, ""⟩

/-- Pixels 1 and 2 belong to the local collection. -/
def exEntry (g : List Int) : Int := if g = [1] then 0 else if g = [2] then 1 else -1

def exDesc : FileDesc :=
  ⟨[3], fun n => if n = "p" then exL 2 else exG n .colMajor 3 0, fun _ => exEntry, fun _ => 2⟩

/-- Two processes, with two pixels and one pixel. -/
def exWriter : Program :=
  ⟨fun _ => [⟨exVarP 1, 2, [1], fun q => [q]⟩, ⟨exVarP 1, 1, [0], fun q => [q + 2]⟩],
   fun _ => [⟨exVarL 2 0, 2, fun q => [q]⟩, ⟨exVarL 1 2, 1, fun q => [q + 2]⟩]⟩

def exVars : List SessVar :=
  [⟨"T", some 1, [exVarT .colMajor 2 0, exVarT .colMajor 1 2], none⟩,
   ⟨"u", none, [exVarU .colMajor 2 0, exVarU .rowMajor 1 2], none⟩,
   ⟨"p", none, [exVarP 1, exVarP 1], some "L"⟩]

def exHidden (l : String) : Option (List Var) := if l = "L" then some [exVarL 2 0, exVarL 1 2] else none

/-- One process. -/
def exReader : Program :=
  ⟨fun _ => [⟨exVarP 2, 3, [1, 2], fun q => [q]⟩], fun _ => [⟨exVarL 3 0, 3, fun q => [q]⟩]⟩

def exVars' : List SessVar :=
  [⟨"T", some 1, [exVarT .rowMajor 3 0], none⟩, ⟨"u", none, [exVarU .colMajor 3 0], none⟩,
   ⟨"p", none, [exVarP 2], some "L"⟩]

def exHidden' (l : String) : Option (List Var) := if l = "L" then some [exVarL 3 0] else none

theorem exBox {g : List Int} (h : InBox [3] g) : g = [0] ∨ g = [1] ∨ g = [2] := by
  rcases g with _ | ⟨i, _ | ⟨j, g⟩⟩ <;> simp [InBox] at h
  have : i = 0 ∨ i = 1 ∨ i = 2 := by omega
  simpa using this

theorem exRange : ∀ g, InBox [3] g → exEntry g ≠ -1 → 0 ≤ exEntry g ∧ exEntry g < 2 := by
  intro g hg h
  rcases exBox hg with rfl | rfl | rfl <;> revert h <;> decide

theorem exInj : ∀ g g', InBox [3] g → InBox [3] g' → exEntry g ≠ -1 → exEntry g = exEntry g' → g = g' := by
  intro g g' hg hg'
  rcases exBox hg with rfl | rfl | rfl <;> rcases exBox hg' with rfl | rfl | rfl <;> decide

theorem exG_field (name : String) {order : StorageOrder} (ho : order = .colMajor ∨ order = .rowMajor) {n loc : Int}
    (h0 : 0 ≤ n) (h1 : 0 ≤ loc) (h2 : loc + n ≤ 3) : GlobalField (exG name order n loc) :=
  ⟨ho, by simp [exG, Pos], by simp [exG], by simp [exG], rfl, by simp [exG, Pos], ⟨h0, h1, h2, trivial⟩, by
    simpa [exG, accStrides] using addressing_acc [n]⟩

theorem exL_field (n : Nat) : LocalField (exL n) n :=
  ⟨Or.inl rfl, by simp [exL, Pos], by simp [exL], by simp [exL], rfl, rfl, rfl, rfl, rfl, by omega⟩

theorem exAt {n loc : Int} {g : List Int} (h : InBoxAt [n] [loc] g) : ∃ i, g = [i] ∧ loc ≤ i ∧ i < loc + n := by
  rcases g with _ | ⟨i, _ | ⟨j, g⟩⟩ <;> simp [InBoxAt] at h
  exact ⟨i, rfl, h⟩

theorem exRegistered : Registered exDesc exWriter exVars exHidden := by
  refine ⟨by decide, ?_, ?_, ?_, ?_, ?_⟩
  · intro x hx hl
    simp only [exVars, List.mem_cons, List.not_mem_nil, or_false] at hx
    rcases hx with rfl | rfl | rfl
    · refine ⟨rfl, by simp, ?_, ?_, ?_, ?_, ?_⟩
      · intro v hv
        simp only [List.mem_cons, List.not_mem_nil, or_false] at hv
        rcases hv with rfl | rfl <;> exact exG_field _ (by simp) (by decide) (by decide) (by decide)
      · intro v hv
        simp only [List.mem_cons, List.not_mem_nil, or_false] at hv
        rcases hv with rfl | rfl <;> exact ⟨[0, 0, 0], [3, 0, 0], by decide +kernel⟩
      · intro v hv
        simp only [List.mem_cons, List.not_mem_nil, or_false] at hv
        rcases hv with rfl | rfl <;> exact ⟨rfl, rfl, rfl, rfl⟩
      · simp only [List.pairwise_cons, List.mem_singleton, forall_eq, List.not_mem_nil, false_imp_iff, implies_true,
          List.Pairwise.nil, and_true]
        intro g h1 h2
        obtain ⟨i, rfl, h3, h4⟩ := exAt h1
        obtain ⟨j, hj, h5, h6⟩ := exAt h2
        simp at hj
        omega
      · intro g hg
        rcases exBox hg with rfl | rfl | rfl
        · exact ⟨exVarT .colMajor 2 0, by simp, by decide⟩
        · exact ⟨exVarT .colMajor 2 0, by simp, by decide⟩
        · exact ⟨exVarT .colMajor 1 2, by simp, by decide⟩
    · refine ⟨rfl, by simp, ?_, ?_, ?_, ?_, ?_⟩
      · intro v hv
        simp only [List.mem_cons, List.not_mem_nil, or_false] at hv
        rcases hv with rfl | rfl <;> exact exG_field _ (by simp) (by decide) (by decide) (by decide)
      · intro v hv
        simp only [List.mem_cons, List.not_mem_nil, or_false] at hv
        rcases hv with rfl | rfl <;> exact ⟨[0, 0, 0], [3, 0, 0], by decide +kernel⟩
      · intro v hv
        simp only [List.mem_cons, List.not_mem_nil, or_false] at hv
        rcases hv with rfl | rfl <;> exact ⟨rfl, rfl, rfl, rfl⟩
      · simp only [List.pairwise_cons, List.mem_singleton, forall_eq, List.not_mem_nil, false_imp_iff, implies_true,
          List.Pairwise.nil, and_true]
        intro g h1 h2
        obtain ⟨i, rfl, h3, h4⟩ := exAt h1
        obtain ⟨j, hj, h5, h6⟩ := exAt h2
        simp at hj
        omega
      · intro g hg
        rcases exBox hg with rfl | rfl | rfl
        · exact ⟨exVarU .colMajor 2 0, by simp, by decide⟩
        · exact ⟨exVarU .colMajor 2 0, by simp, by decide⟩
        · exact ⟨exVarU .rowMajor 1 2, by simp, by decide⟩
    · simp at hl
  · intro x hx l hl
    simp only [exVars, List.mem_cons, List.not_mem_nil, or_false] at hx
    rcases hx with rfl | rfl | rfl
    · simp at hl
    · simp at hl
    · simp only [Option.some.injEq] at hl
      subst hl
      refine ⟨rfl, rfl, by simp [exWriter], ?_, by decide, ?_, by decide, by decide, by decide, by decide, by decide, by decide,
        by decide, ?_, ?_, ?_, by decide, exRange, exInj⟩
      · intro p hp
        simp only [exWriter, List.mem_cons, List.not_mem_nil, or_false] at hp
        rcases hp with rfl | rfl <;> exact exL_field 1
      · intro p hp
        simp only [exWriter, List.mem_cons, List.not_mem_nil, or_false] at hp
        rcases hp with rfl | rfl
        · exact ⟨"L", [-1, 0], by decide +kernel⟩
        · exact ⟨"L", [1], by decide +kernel⟩
      · intro p hp q q' h1 h2
        simp only [exWriter, List.mem_cons, List.not_mem_nil, or_false] at hp
        rcases hp with rfl | rfl <;> simp
      · simp only [exWriter, List.pairwise_cons, List.mem_singleton, forall_eq, List.not_mem_nil, false_imp_iff,
          implies_true, List.Pairwise.nil, and_true]
        intro q q' h1 h2
        simp
        omega
      · intro g hg
        rcases exBox hg with rfl | rfl | rfl
        · exact ⟨⟨exVarP 1, 2, [1], fun q => [q]⟩, by simp [exWriter], 0, by decide, by decide⟩
        · exact ⟨⟨exVarP 1, 2, [1], fun q => [q]⟩, by simp [exWriter], 1, by decide, by decide⟩
        · exact ⟨⟨exVarP 1, 1, [0], fun q => [q + 2]⟩, by simp [exWriter], 0, by decide, by decide⟩
  · intro x hx l hl
    simp only [exVars, List.mem_cons, List.not_mem_nil, or_false] at hx
    rcases hx with rfl | rfl | rfl <;> simp at hl
    subst hl
    rfl
  · intro x hx l hl
    simp only [exVars, List.mem_cons, List.not_mem_nil, or_false] at hx
    rcases hx with rfl | rfl | rfl <;> simp at hl
    subst hl
    refine ⟨by simp [exWriter], ?_, ?_, by decide, by decide, by decide, by decide, by decide, ?_, ?_, ?_, ?_⟩
    · intro v hv
      simp only [exWriter, List.mem_cons, List.not_mem_nil, or_false] at hv
      rcases hv with rfl | rfl <;> exact exG_field _ (by simp) (by decide) (by decide) (by decide)
    · intro v hv
      simp only [exWriter, List.mem_cons, List.not_mem_nil, or_false] at hv
      rcases hv with rfl | rfl <;> exact ⟨[0, 0, 0], [3, 0, 0], by decide +kernel⟩
    · simp only [exWriter, List.pairwise_cons, List.mem_singleton, forall_eq, List.not_mem_nil, false_imp_iff,
        implies_true, List.Pairwise.nil, and_true]
      intro g h1 h2
      obtain ⟨i, rfl, h3, h4⟩ := exAt h1
      obtain ⟨j, hj, h5, h6⟩ := exAt h2
      simp at hj
      omega
    · intro g hg
      rcases exBox hg with rfl | rfl | rfl
      · exact ⟨⟨exVarL 2 0, 2, fun q => [q]⟩, by simp [exWriter], by decide⟩
      · exact ⟨⟨exVarL 2 0, 2, fun q => [q]⟩, by simp [exWriter], by decide⟩
      · exact ⟨⟨exVarL 1 2, 1, fun q => [q + 2]⟩, by simp [exWriter], by decide⟩
    · decide
    · intro p hp g hg
      simp only [exWriter, List.mem_cons, List.not_mem_nil, or_false] at hp
      rcases hp with rfl | rfl
      · obtain ⟨i, rfl, h3, h4⟩ := exAt hg
        exact ⟨i.toNat, by simp; omega, by simp; omega⟩
      · obtain ⟨i, rfl, h3, h4⟩ := exAt hg
        exact ⟨(i - 2).toNat, by simp; omega, by simp; omega⟩
  · intro x hx l hl
    simp only [exVars, List.mem_cons, List.not_mem_nil, or_false] at hx
    rcases hx with rfl | rfl | rfl <;> simp at hl
    subst hl
    rfl

theorem exRegistered' : Registered exDesc exReader exVars' exHidden' := by
  refine ⟨by decide, ?_, ?_, ?_, ?_, ?_⟩
  · intro x hx hl
    simp only [exVars', List.mem_cons, List.not_mem_nil, or_false] at hx
    rcases hx with rfl | rfl | rfl
    · refine ⟨rfl, by simp, ?_, ?_, ?_, by simp, ?_⟩
      · intro v hv
        simp only [List.mem_cons, List.not_mem_nil, or_false] at hv
        subst hv
        exact exG_field _ (by simp) (by decide) (by decide) (by decide)
      · intro v hv
        simp only [List.mem_cons, List.not_mem_nil, or_false] at hv
        subst hv
        exact ⟨[0, 0, 0], [3, 0, 0], by decide +kernel⟩
      · intro v hv
        simp only [List.mem_cons, List.not_mem_nil, or_false] at hv
        subst hv
        exact ⟨rfl, rfl, rfl, rfl⟩
      · intro g hg
        refine ⟨exVarT .rowMajor 3 0, by simp, ?_⟩
        rcases exBox hg with rfl | rfl | rfl <;> decide
    · refine ⟨rfl, by simp, ?_, ?_, ?_, by simp, ?_⟩
      · intro v hv
        simp only [List.mem_cons, List.not_mem_nil, or_false] at hv
        subst hv
        exact exG_field _ (by simp) (by decide) (by decide) (by decide)
      · intro v hv
        simp only [List.mem_cons, List.not_mem_nil, or_false] at hv
        subst hv
        exact ⟨[0, 0, 0], [3, 0, 0], by decide +kernel⟩
      · intro v hv
        simp only [List.mem_cons, List.not_mem_nil, or_false] at hv
        subst hv
        exact ⟨rfl, rfl, rfl, rfl⟩
      · intro g hg
        refine ⟨exVarU .colMajor 3 0, by simp, ?_⟩
        rcases exBox hg with rfl | rfl | rfl <;> decide
    · simp at hl
  · intro x hx l hl
    simp only [exVars', List.mem_cons, List.not_mem_nil, or_false] at hx
    rcases hx with rfl | rfl | rfl
    · simp at hl
    · simp at hl
    · simp only [Option.some.injEq] at hl
      subst hl
      refine ⟨rfl, rfl, by simp [exReader], ?_, by decide, ?_, by decide, by decide, by decide, by decide, by decide, by decide,
        by decide, ?_, by simp [exReader], ?_, by decide, exRange, exInj⟩
      · intro p hp
        simp only [exReader, List.mem_cons, List.not_mem_nil, or_false] at hp
        subst hp
        exact exL_field 2
      · intro p hp
        simp only [exReader, List.mem_cons, List.not_mem_nil, or_false] at hp
        subst hp
        exact ⟨"L", [-1, -1, -1], by decide +kernel⟩
      · intro p hp q q' h1 h2
        simp only [exReader, List.mem_cons, List.not_mem_nil, or_false] at hp
        subst hp
        simp
      · intro g hg
        refine ⟨⟨exVarP 2, 3, [1, 2], fun q => [q]⟩, by simp [exReader], ?_⟩
        rcases exBox hg with rfl | rfl | rfl
        · exact ⟨0, by decide, by decide⟩
        · exact ⟨1, by decide, by decide⟩
        · exact ⟨2, by decide, by decide⟩
  · intro x hx l hl
    simp only [exVars', List.mem_cons, List.not_mem_nil, or_false] at hx
    rcases hx with rfl | rfl | rfl <;> simp at hl
    subst hl
    rfl
  · intro x hx l hl
    simp only [exVars', List.mem_cons, List.not_mem_nil, or_false] at hx
    rcases hx with rfl | rfl | rfl <;> simp at hl
    subst hl
    refine ⟨by simp [exReader], ?_, ?_, by decide, by decide, by decide, by decide, by decide,
      by simp [exReader], ?_, ?_, ?_⟩
    · intro v hv
      simp only [exReader, List.mem_cons, List.not_mem_nil, or_false] at hv
      subst hv
      exact exG_field _ (by simp) (by decide) (by decide) (by decide)
    · intro v hv
      simp only [exReader, List.mem_cons, List.not_mem_nil, or_false] at hv
      subst hv
      exact ⟨[0, 0, 0], [3, 0, 0], by decide +kernel⟩
    · intro g hg
      refine ⟨⟨exVarL 3 0, 3, fun q => [q]⟩, by simp [exReader], ?_⟩
      rcases exBox hg with rfl | rfl | rfl <;> decide
    · decide
    · intro p hp g hg
      simp only [exReader, List.mem_cons, List.not_mem_nil, or_false] at hp
      subst hp
      obtain ⟨i, rfl, h3, h4⟩ := exAt hg
      exact ⟨i.toNat, by simp; omega, by simp; omega⟩
  · intro x hx l hl
    simp only [exVars', List.mem_cons, List.not_mem_nil, or_false] at hx
    rcases hx with rfl | rfl | rfl <;> simp at hl
    subst hl
    rfl

/-! ### Memory -/

/-- The values: `a`, the pixel, ten times the component and hundred times the entry of the history. -/
def exVal (a : Int) : String → Values Int := fun _ k cc _ g => a + 10 * cc.headD 0 + 100 * k + g.headD 0

/-- `n` values beginning with `x`, each one more than the one before. -/
def exRamp (n x : Int) : Mem Int := fun i => if 0 ≤ i ∧ i < n then some (x + i) else none

/-- Two components of `n` pixels. -/
def exPairs (n x : Int) : Mem Int := fun j => if 0 ≤ j ∧ j < 2 * n then some (x + 10 * (j % 2) + j / 2) else none

theorem exG_holds {name : String} {order : StorageOrder} (ho : order = .colMajor ∨ order = .rowMajor) {n loc : Int}
    (a : Int) (k : Nat) {x : Int} (hx : x = a + 100 * k + loc) :
    Holds (exG name order n loc) (exRamp n x) fun cc s g => exVal a name k cc s (id g) := by
  subst hx
  have hst : ∃ x y, (exG name order n loc).layout.strides .subPt 1 = .ok [x, y, 1] := by
    rcases ho with rfl | rfl
    · exact ⟨1, 1, (strides_col _ rfl).trans (by simp [exG, accStrides])⟩
    · exact ⟨n, n, (strides_row _ rfl).trans (by simp [exG, accStrides])⟩
  obtain ⟨x, y, hst⟩ := hst
  refine ⟨_, hst, ?_⟩
  intro cc s g ⟨hcc, hs0, hs1, hg⟩
  rcases cc with _ | ⟨c, _ | ⟨y, cc⟩⟩ <;> simp [exG, InBox] at hcc hs1
  obtain ⟨i, rfl, h3, h4⟩ := exAt hg
  have hc : c = 0 := by omega
  have hs : s = 0 := by omega
  subst hc hs
  simp [memPos, exG, relCoord, dot, exRamp, exVal]
  constructor <;> omega

theorem exL_holds (n : Nat) (a first : Int) (ids : List Int) (coord : Int → List Int) (v : Var) (size : Nat)
    (hc : ∀ i : Nat, i < n → coord (ids.getD i 0) = [first + i]) :
    Holds (exL n) (exPairs n (a + first)) fun cc s g =>
      exVal a "p" 0 cc s (LocalPart.view ⟨v, size, ids, coord⟩ g) := by
  refine ⟨[1, 2, 2], by simp [strides_col, exL, accStrides], ?_⟩
  intro cc s g ⟨hcc, hs0, hs1, hg⟩
  rcases cc with _ | ⟨c, _ | ⟨y, cc⟩⟩ <;> simp [exL, InBox] at hcc hs1
  obtain ⟨i, rfl, h3, h4⟩ := exAt hg
  have hs : s = 0 := by omega
  subst hs
  have hi : (i.toNat : Int) = i := by omega
  have hi' : i.toNat < n := by omega
  have := hc i.toNat hi'
  simp only [LocalPart.view, List.headD_cons, this, exVal, hi, memPos, exL, relCoord, List.zipWith_cons_cons,
    List.zipWith_nil_left, List.cons_append, List.nil_append, dot]
  rw [exPairs, if_pos (by constructor <;> omega)]
  congr 1
  omega

/-- The memory of the two processes. -/
def exMem (a : Int) : Memory Int := fun n =>
  if n = "T" then [⟨cycled 1 0, [exRamp 2 a, exRamp 2 (a + 100)]⟩, ⟨cycled 1 0, [exRamp 1 (a + 2), exRamp 1 (a + 102)]⟩]
  else if n = "u" then [⟨[], [exRamp 2 a]⟩, ⟨[], [exRamp 1 (a + 2)]⟩]
  else [⟨[], [exPairs 1 (a + 1)]⟩, ⟨[], [exPairs 1 (a + 2)]⟩]

/-- The memory of the one process, after one `cycle`. -/
def exMem' (a : Int) : Memory Int := fun n =>
  if n = "T" then [⟨cycled 1 1, [exRamp 3 (a + 100), exRamp 3 a]⟩]
  else if n = "u" then [⟨[], [exRamp 3 a]⟩]
  else [⟨[], [exPairs 2 (a + 1)]⟩]

theorem exHolds (a : Int) : ∀ x ∈ exVars, VarHolds exWriter x (exMem a x.name) (exVal a x.name) := by
  intro x hx
  simp only [exVars, List.mem_cons, List.not_mem_nil, or_false] at hx
  rcases hx with rfl | rfl | rfl
  · refine .cons ?_ (.cons ?_ .nil)
    · refine ⟨0, rfl, rfl, ?_, ?_⟩
      · intro b hb
        simp only [List.mem_cons, List.not_mem_nil, or_false] at hb
        rcases hb with rfl | rfl
        · exact ⟨_, exG_holds (Or.inl rfl) a 0 (by simp; try omega)⟩
        · exact ⟨_, exG_holds (Or.inl rfl) a 1 (by simp; try omega)⟩
      · intro k hk
        have : k = 0 ∨ k = 1 := by omega
        rcases this with rfl | rfl
        · exact ⟨0, _, by decide, rfl, exG_holds (Or.inl rfl) a 0 (by simp; try omega)⟩
        · exact ⟨1, _, by decide, rfl, exG_holds (Or.inl rfl) a 1 (by simp; try omega)⟩
    · refine ⟨0, rfl, rfl, ?_, ?_⟩
      · intro b hb
        simp only [List.mem_cons, List.not_mem_nil, or_false] at hb
        rcases hb with rfl | rfl
        · exact ⟨_, exG_holds (Or.inl rfl) a 0 (by simp; try omega)⟩
        · exact ⟨_, exG_holds (Or.inl rfl) a 1 (by simp; try omega)⟩
      · intro k hk
        have : k = 0 ∨ k = 1 := by omega
        rcases this with rfl | rfl
        · exact ⟨0, _, by decide, rfl, exG_holds (Or.inl rfl) a 0 (by simp; try omega)⟩
        · exact ⟨1, _, by decide, rfl,
            exG_holds (Or.inl rfl) a 1 (by simp; try omega)⟩
  · refine .cons ⟨_, rfl, ?_⟩ (.cons ⟨_, rfl, ?_⟩ .nil)
    · exact exG_holds (Or.inl rfl) a 0 (by simp)
    · exact exG_holds (Or.inr rfl) a 0 (by simp)
  · refine .cons ⟨_, rfl, ?_⟩ (.cons ⟨_, rfl, ?_⟩ .nil)
    · exact exL_holds 1 a 1 [1] _ _ _ (by simp)
    · exact exL_holds 1 a 2 [0] _ _ _ (by simp)

theorem exHolds' (a : Int) : ∀ x ∈ exVars', VarHolds exReader x (exMem' a x.name) (exVal a x.name) := by
  intro x hx
  simp only [exVars', List.mem_cons, List.not_mem_nil, or_false] at hx
  have h0 : Holds (exG "T" .rowMajor 3 0) (exRamp 3 a) fun cc s g => exVal a "T" 0 cc s (id g) := by
    exact exG_holds (Or.inr rfl) a 0 (by simp)
  have h1 : Holds (exG "T" .rowMajor 3 0) (exRamp 3 (a + 100)) fun cc s g => exVal a "T" 1 cc s (id g) := by
    exact exG_holds (Or.inr rfl) a 1 (by simp)
  rcases hx with rfl | rfl | rfl
  · refine .cons ?_ .nil
    refine ⟨1, rfl, rfl, ?_, ?_⟩
    · intro b hb
      simp only [List.mem_cons, List.not_mem_nil, or_false] at hb
      rcases hb with rfl | rfl
      · exact ⟨_, h1⟩
      · exact ⟨_, h0⟩
    · intro k hk
      have : k = 0 ∨ k = 1 := by omega
      rcases this with rfl | rfl
      · exact ⟨1, _, by decide, rfl, h0⟩
      · exact ⟨0, _, by decide, rfl, h1⟩
  · refine .cons ⟨_, rfl, ?_⟩ .nil
    exact exG_holds (Or.inl rfl) a 0 (by simp)
  · refine .cons ⟨_, rfl, ?_⟩ .nil
    exact exL_holds 2 a 1 [1, 2] _ _ _ (by
      intro i hi
      have : i = 0 ∨ i = 1 := by omega
      rcases this with rfl | rfl <;> simp)

/-- The entries that the two processes give to their pixels. -/
def exMarks : String → List (List Int) := fun _ => [[-1, 0], [1]]

/-- The numbers given on registration: the first process has one local pixel, its second one, and the
second process has one. -/
example : markPixels 2 0 [1] = .ok [-1, 0] ∧ markPixels 1 1 [0] = .ok [1] := by decide

/-- What the writing program does: two frames; the second gets `u` and `p` first, then the first frame is read
again, a frame that does not exist is tried, and the second frame is completed with the values of the first. -/
def exOps : List (FileOp (Memory Int)) :=
  [.appendFrame, .writeAll 0, .appendFrame, .compute (exMem 1000), .write (-1) ["u", "p"], .write 2 ["u"],
    .write 1 ["x"], .read 0 ["p", "T"], .write (-1) ["T"]]
def exSops : List (FileOp (String → Values Int)) :=
  [.appendFrame, .writeAll 0, .appendFrame, .compute (exVal 1000), .write (-1) ["u", "p"], .write 2 ["u"],
    .write 1 ["x"], .read 0 ["p", "T"], .write (-1) ["T"]]

theorem exSame : List.Forall₂ (SameOp fun mem c => ∀ x ∈ exVars, VarHolds exWriter x (mem x.name) (c x.name))
    exOps exSops :=
  .cons .appendFrame (.cons (.writeAll 0) (.cons .appendFrame (.cons (.compute (exHolds 1000))
    (.cons (.write _ _) (.cons (.write _ _) (.cons (.write _ _) (.cons (.read _ _) (.cons (.write _ _) .nil))))))))

/-- The table afterwards. -/
def exTable : Table (Values Int) :=
  (Table.run (exVars.map SessVar.name) ⟨true, 0, exVal 5, fun _ _ => none⟩ exSops).2

/-- The hypotheses of `C62_new` and `C62_round_trip` are met; what is expected of the operations; the second
frame has values of both times. -/
example :
    (∀ x ∈ exVars, ∀ l, x.localName = some l →
      exMarks l = (exWriter.hid l).map fun p : HiddenPart => p.entries (exDesc.entry l)) ∧
    (∀ op ∈ exOps, NoHidden exVars exHidden op) ∧
    Table.NoGaps (exVars.map SessVar.name) ⟨true, 0, exVal 5, fun _ _ => none⟩ exSops ∧
    exVars.map signature = exVars'.map signature ∧
    (∀ x ∈ exVars', ∀ l, x.localName = some l → ([[0, 0, 0]] : List (List Int)).map List.length =
      (exReader.hid l).map HiddenPart.size) ∧
    (Table.run (exVars.map SessVar.name) ⟨true, 0, exVal 5, fun _ _ => none⟩ exSops).1 =
      [true, true, true, true, true, false, false, true, true] ∧
    (∀ x ∈ exVars, exTable.cell 1 x.name = some (exVal (if x.name = "T" then 5 else 1000) x.name)) := by
  refine ⟨?_, ?_, ?_, by decide, ?_, ?_, ?_⟩
  · intro x hx l hl
    simp only [exVars, List.mem_cons, List.not_mem_nil, or_false] at hx
    rcases hx with rfl | rfl | rfl <;> simp at hl
    subst hl
    decide
  · simp [exOps, NoHidden, exVars, exHidden]
  · simp [exSops, exVars, Table.NoGaps, Table.step, Table.write, Table.read, Table.put, Table.set, meantFrame,
      Table.ReadsFilled, Table.Filled]
  · intro x hx l hl
    simp only [exVars', List.mem_cons, List.not_mem_nil, or_false] at hx
    rcases hx with rfl | rfl | rfl <;> simp at hl
    subst hl
    decide
  · simp [exSops, exVars, Table.run, Table.step, Table.write, Table.read, Table.put, Table.set, meantFrame]
  · simp [exTable, exSops, exVars, Table.run, Table.step, Table.write, Table.read, Table.put, Table.set, meantFrame]

/-- The round trip for the example: the program with one process has afterwards the values that the other
program wrote into the second frame. -/
example :
    let w := World.run ⟨Sess.created .write exVars exHidden exMarks,
      NcFile.created exVars exHidden (fun _ _ => 77) (fun _ _ => 78), exMem 5⟩ exOps
    let r := World.run ⟨Sess.opened .read exVars' exHidden' (fun _ => [[0, 0, 0]]) w.2.file, w.2.file, exMem' 0⟩
      [.readAll 1]
    r.1 = [.ok ()] ∧ (r.2.mem "p").map (fun m => m.bufs.map fun b => [b 0, b 1, b 2, b 3]) =
        [[[some 1001, some 1011, some 1002, some 1012]]] ∧
      (r.2.mem "T").map (fun m => (m.idx, m.bufs.map fun b => [b 0, b 1, b 2])) =
        [([1, 0], [[some 105, some 106, some 107], [some 5, some 6, some 7]])] := by
  decide +kernel

/-- The hypothesis of `C62_append` on local collections is met, and the program with one process continues the
file: it adds a frame and replaces `u` in the first. -/
example : (∀ x ∈ exVars', ∀ l, x.localName = some l →
      ∃ y ∈ exVars', y.localName = some l ∧ HasCell exTable.cell y.name) ∧
    let w := World.run ⟨Sess.created .write exVars exHidden exMarks,
      NcFile.created exVars exHidden (fun _ _ => 77) (fun _ _ => 78), exMem 5⟩ exOps
    let r := World.run ⟨Sess.opened .append exVars' exHidden' (fun _ => [[0, 0, 0]]) w.2.file, w.2.file, exMem' 30⟩
      [.appendFrame, .writeAll (-1), .write 0 ["u"], .read 0 ["p"], .write 3 ["u"]]
    r.1 = [.ok (), .ok (), .ok (), .ok (), .throw .fileIOError] ∧ r.2.file.numrecs = 3 := by
  refine ⟨?_, by decide +kernel⟩
  intro x hx l hl
  refine ⟨x, hx, hl, 0, exVal 5 x.name, ?_⟩
  simp only [exVars', List.mem_cons, List.not_mem_nil, or_false] at hx
  rcases hx with rfl | rfl | rfl <;>
    simp [exTable, exSops, exVars, Table.run, Table.step, Table.write, Table.read, Table.put, Table.set, meantFrame]

/-- The hypotheses of `C62_entries` are met by the example, and those of `C62_places`. -/
example : (∀ p ∈ exWriter.parts "p", p.ids.Nodup) ∧
    (∀ p ∈ exWriter.parts "p", ∀ id ∈ p.ids, 0 ≤ id ∧ id < (p.size : Int)) ∧
    (Communicator.cumulativeSum ((exWriter.parts "p").map fun p => p.ids.length)) = [1, 2] ∧
    (∀ q : Nat, q < 1 → getCcoord [1] [2] q = .ok [(q : Int) + 2]) := by
  refine ⟨by decide, by decide, by decide, by decide⟩

/-! ## C63 -/

/-- **C63** The full statement: as `C62_new`, but the program may also read what has not been written; this is
expected to fail. -/
def C63_statement : Prop :=
  ∀ (D : FileDesc) (P : Program) (vars : List SessVar) (hidden : String → Option (List Var)),
    Registered D P vars hidden → ∀ (marks : String → List (List Int)),
    (∀ x ∈ vars, ∀ l, x.localName = some l →
      marks l = (P.hid l).map fun p : HiddenPart => p.entries (D.entry l)) →
    ∀ (g : String → List Int → Int) (gi : String → List Int → Int) (mem : Memory Int) (cur : String → Values Int),
    (∀ x ∈ vars, VarHolds P x (mem x.name) (cur x.name)) →
    ∀ (ops : List (FileOp (Memory Int))) (sops : List (FileOp (String → Values Int))),
    List.Forall₂ (SameOp fun mem c => ∀ x ∈ vars, VarHolds P x (mem x.name) (c x.name)) ops sops →
    (∀ op ∈ ops, NoHidden vars hidden op) →
    List.Forall₂ AsExpected
      (World.run ⟨Sess.created .write vars hidden marks, NcFile.created vars hidden g gi, mem⟩ ops).1
      (Table.run (vars.map SessVar.name) ⟨true, 0, cur, fun _ _ => none⟩ sops).1

/-- A variable that has not been written at a frame that another variable has: reading succeeds, and the memory
gets whatever is in the file. -/
theorem C63_unwritten (g : String → List Int → Int) (gi : String → List Int → Int) (a : Int) :
    let w := World.run ⟨Sess.created .write exVars exHidden exMarks, NcFile.created exVars exHidden g gi, exMem a⟩
      [.appendFrame, .write 0 ["T"], .read 0 ["u"]]
    w.1 = [.ok (), .ok (), .ok ()] ∧
      (w.2.mem "u").map (fun m => m.bufs.map fun b => [b 0, b 1]) =
        [[[some (g "u" [0, 0, 0]), some (g "u" [0, 0, 1])]], [[some (g "u" [0, 0, 2]), none]]] := by
  intro w
  exact ⟨by with_unfolding_all rfl, by with_unfolding_all rfl⟩

theorem exMarks_eq : ∀ x ∈ exVars, ∀ l, x.localName = some l →
    exMarks l = (exWriter.hid l).map fun p : HiddenPart => p.entries (exDesc.entry l) := by
  intro x hx l hl
  simp only [exVars, List.mem_cons, List.not_mem_nil, or_false] at hx
  rcases hx with rfl | rfl | rfl <;> simp at hl
  subst hl
  decide

/-- **C63** The full statement is false. -/
theorem C63_false : ¬ C63_statement := by
  intro h
  have h1 := h exDesc exWriter exVars exHidden exRegistered exMarks exMarks_eq (fun _ _ => 0) (fun _ _ => 0)
    (exMem 5) (exVal 5) (exHolds 5) [.appendFrame, .write 0 ["T"], .read 0 ["u"]]
    [.appendFrame, .write 0 ["T"], .read 0 ["u"]]
    (.cons .appendFrame (.cons (.write _ _) (.cons (.read _ _) .nil))) (by simp [NoHidden, exVars])
  rw [(C63_unwritten (fun _ _ => 0) (fun _ _ => 0) 5).1] at h1
  have h2 : (Table.run (exVars.map SessVar.name) ⟨true, 0, exVal 5, fun _ _ => none⟩
      [.appendFrame, .write 0 ["T"], .read 0 ["u"]]).1 = [true, true, false] := by
    simp [exVars, Table.run, Table.step, Table.write, Table.read, Table.put, meantFrame]
  rw [h2] at h1
  simp [AsExpected] at h1

/-- **C63** (part) Programs that read only what has been written; missing are those that read other values. -/
theorem C63_written_partial {D : FileDesc} {P : Program} {vars : List SessVar} {hidden : String → Option (List Var)}
    (hreg : Registered D P vars hidden) {marks : String → List (List Int)}
    (hmarks : ∀ x ∈ vars, ∀ l, x.localName = some l →
      marks l = (P.hid l).map fun p : HiddenPart => p.entries (D.entry l))
    (g : String → List Int → Int) (gi : String → List Int → Int) {mem : Memory Int} {cur : String → Values Int}
    (hmem : ∀ x ∈ vars, VarHolds P x (mem x.name) (cur x.name))
    {ops : List (FileOp (Memory Int))} {sops : List (FileOp (String → Values Int))}
    (hops : List.Forall₂ (SameOp fun mem c => ∀ x ∈ vars, VarHolds P x (mem x.name) (c x.name)) ops sops)
    (hhid : ∀ op ∈ ops, NoHidden vars hidden op)
    (hgap : Table.NoGaps (vars.map SessVar.name) ⟨true, 0, cur, fun _ _ => none⟩ sops) :
    List.Forall₂ AsExpected
      (World.run ⟨Sess.created .write vars hidden marks, NcFile.created vars hidden g gi, mem⟩ ops).1
      (Table.run (vars.map SessVar.name) ⟨true, 0, cur, fun _ _ => none⟩ sops).1 :=
  (C62_new hreg (Or.inl rfl) hmarks g gi hmem hops hhid hgap).1

/-- **C63** Frames that are appended at the end and not written are lost when the file is opened again. -/
theorem C63_trailing (g : String → List Int → Int) (gi : String → List Int → Int) (a : Int) (mode : OpenMode) :
    let w := World.run ⟨Sess.created .write exVars exHidden exMarks, NcFile.created exVars exHidden g gi, exMem a⟩
      [.appendFrame, .writeAll 0, .appendFrame, .appendFrame]
    w.1 = [.ok (), .ok (), .ok (), .ok ()] ∧ w.2.sess.nbFrames = 3 ∧
      (Sess.opened mode exVars exHidden exMarks w.2.file).nbFrames = 1 := by
  intro w
  exact ⟨by with_unfolding_all rfl, by with_unfolding_all rfl, by with_unfolding_all rfl⟩

/-- **C63** A program opens a file with `Append` in which the local collection has not been written, and
writes it.  The entries of the pixels are then those that happen to be in the file: if these are 0, memory
outside the fields is read; if they are -1, the write succeeds, but the values are not in the file. -/
theorem C63_append_entries (g : String → List Int → Int) (a b : Int) (e : Int) :
    let w := World.run ⟨Sess.created .write exVars exHidden exMarks, NcFile.created exVars exHidden g (fun _ _ => e), exMem a⟩
      [.appendFrame, .write 0 ["u"]]
    let r := World.run ⟨Sess.opened .append exVars exHidden (fun _ => [[-1, -1], [-1]]) w.2.file, w.2.file, exMem b⟩
      [.write 0 ["p"]]
    w.1 = [.ok (), .ok ()] ∧ (e = 0 → r.1 = [.ub]) ∧
      (e = -1 → r.1 = [.ok ()] ∧ ∀ fv y, r.2.file.vars "p" = some fv → fv.data y = g "p" y) := by
  intro w r
  refine ⟨by with_unfolding_all rfl, ?_, ?_⟩
  · intro he
    subst he
    with_unfolding_all rfl
  · intro he
    subst he
    refine ⟨by with_unfolding_all rfl, ?_⟩
    intro fv y h
    have : r.2.file.vars "p" = some (newVar (g "p") [exVarP 1, exVarP 1]) := by with_unfolding_all rfl
    rw [this] at h
    cases h
    rfl

/-- **C63** A program that reads a variable of a local collection before it has written one loses the entries
of the pixels: what it writes afterwards is not in the file, although `write` succeeds. -/
theorem C63_read_first (g : String → List Int → Int) (a : Int) :
    let w := World.run
      ⟨Sess.created .write exVars exHidden exMarks, NcFile.created exVars exHidden g (fun _ _ => -1), exMem a⟩
      [.appendFrame, .read 0 ["p"], .write 0 ["p"]]
    w.1 = [.ok (), .ok (), .ok ()] ∧ w.2.sess.marks "L" = [[-1, -1], [-1]] ∧
      ∀ fv y, w.2.file.vars "p" = some fv → fv.data y = g "p" y := by
  intro w
  refine ⟨by with_unfolding_all rfl, by with_unfolding_all rfl, ?_⟩
  intro fv y h
  have : w.2.file.vars "p" = some (newVar (g "p") [exVarP 1, exVarP 1]) := by with_unfolding_all rfl
  rw [this] at h
  cases h
  rfl

end Verif.Props
