import Verif.Lemmas.DictMemoryStep
import Mathlib.Data.Fintype.Pigeonhole
import Mathlib.Logic.Relation
/-
C89: a value of a dictionary exists exactly as long as a `Dictionary` object of the program leads to it.
-/
namespace Verif.Props
open Verif Verif.MState
open Relation (ReflTransGen TransGen)

variable {R : Type}

/-- The value at `n` exists. -/
def InMemory (s : MState R) (n : Nat) : Prop := ∃ v, HasVal s.heap n v

/-- A living object of the program leads to the value at `n`, along entries of dictionaries. -/
inductive LedTo (s : MState R) : Nat → Prop
  | handle {h n : Nat} : s.handles[h]? = some (.ref n) → LedTo s n
  | entry {a b : Nat} : LedTo s a → Refers s.heap a b → LedTo s b

/-- A state some program reaches from nothing. -/
def Reached (s : MState R) : Prop := ∃ ops, (⟨[], []⟩ : MState R).run ops = some s

/-- No dictionary contains itself, directly or through others. -/
def NoCycle (s : MState R) : Prop := ∀ n, ¬ TransGen (Refers s.heap) n n

/-- C89 in full: in every state of every program the values that exist are those to which an object leads. -/
def C89_statement : Prop := ∀ s : MState Int, Reached s → ∀ n, InMemory s n ↔ LedTo s n

private theorem ok_nil : (⟨[], []⟩ : MState R).Ok := ⟨by intro n; simp [countOf], by intro n nd h; simp at h⟩

private theorem ok_run : ∀ {ops : List (MState.Op R)} {s s' : MState R}, s.Ok → s.run ops = some s' → s'.Ok := by
  intro ops
  induction ops with
  | nil => intro s s' hs h; cases h; exact hs
  | cons op ops ih =>
    intro s s' hs h
    by_cases hu : s.Uses op
    · obtain ⟨r, t, h1, h2, h3, -⟩ := step_ok hs hu
      unfold MState.run at h
      rw [h1] at h
      cases r with
      | ub => exact absurd rfl h2
      | ok u => exact ih h3 h
      | throw e => exact ih h3 h
    · have := step_undefined hs hu
      unfold MState.run at h
      split at h
      · cases h
      · rename_i r t hne heq
        rw [heq] at this
        exact absurd this hne

private theorem Reached.ok {s : MState R} (h : Reached s) : s.Ok := by
  obtain ⟨ops, h⟩ := h
  exact ok_run ok_nil h

/-- **C89** Which statements are defined, in every state a program reaches: those that use living objects (and no matrix assigned
to the value that holds it).  In particular no value is used after its destruction and none is destroyed twice. -/
theorem C89_defined {s : MState R} (h : Reached s) (op : MState.Op R) : (s.step op).1 ≠ .ub ↔ s.Uses op := by
  constructor
  · intro hd
    by_contra hu
    exact hd (step_undefined h.ok hu)
  · intro hu
    obtain ⟨r, t, h1, h2, -⟩ := step_ok h.ok hu
    rw [h1]
    exact h2

/-- **C89** What an object leads to exists. -/
theorem C89_exists {s : MState R} (h : Reached s) {n : Nat} (hn : LedTo s n) : InMemory s n := by
  cases hn with
  | handle hh =>
    obtain ⟨v, c, e⟩ := h.ok.handle hh
    exact ⟨v, _, e⟩
  | entry _ hr =>
    obtain ⟨v, hv, hb⟩ := hr
    obtain ⟨w, c, e⟩ := h.ok.kid hv hb
    exact ⟨w, _, e⟩

/-- Every value that exists is pointed to. -/
private theorem pointed {s : MState R} (hs : s.Ok) {n : Nat} (hn : InMemory s n) :
    (∃ h : Nat, s.handles[h]? = some (.ref n)) ∨ ∃ a, Refers s.heap a n := by
  obtain ⟨v, c, hc⟩ := hn
  have hpos := (hs.alive n _ hc).1 rfl
  have hcount := hs.counts n
  rw [countOf_some hc] at hcount
  simp only at hcount hpos
  by_cases hz : 0 < (s.handles.flatMap MHandle.target).count n
  · left
    obtain ⟨p, hp, hm⟩ := List.mem_flatMap.1 (List.count_pos_iff.1 hz)
    obtain ⟨h, hh⟩ := List.mem_iff_getElem?.1 hp
    cases p with
    | gone => simp [MHandle.target] at hm
    | null => simp [MHandle.target] at hm
    | ref m =>
      simp only [MHandle.target, List.mem_singleton] at hm
      exact ⟨h, by rw [hh, hm]⟩
  · right
    have : 0 < (s.heap.flatMap MNode.kids).count n := by omega
    obtain ⟨nd, hnd, hm⟩ := List.mem_flatMap.1 (List.count_pos_iff.1 this)
    obtain ⟨a, ha⟩ := List.mem_iff_getElem?.1 hnd
    obtain ⟨val, cnt⟩ := nd
    cases val with
    | none => simp [MNode.kids] at hm
    | some w => exact ⟨a, w, ⟨cnt, ha⟩, hm⟩

private theorem refers_lt {s : MState R} {a b : Nat} (h : Refers s.heap a b) : a < s.heap.length := by
  obtain ⟨v, ⟨c, hc⟩, -⟩ := h
  exact (List.getElem?_eq_some_iff.1 hc).1

/-- **C89** What remains although nothing leads to it: only what is contained in a dictionary that contains itself. -/
theorem C89_leak {s : MState R} (h : Reached s) {n : Nat} (hn : InMemory s n) (hl : ¬ LedTo s n) :
    ∃ m, TransGen (Refers s.heap) m m ∧ ReflTransGen (Refers s.heap) m n := by
  have hs := h.ok
  -- a value to which nothing leads is contained in another one
  have back : ∀ x : {x // InMemory s x ∧ ¬ LedTo s x}, ∃ y : {x // InMemory s x ∧ ¬ LedTo s x}, Refers s.heap y.1 x.1 := by
    rintro ⟨x, hx, hlx⟩
    rcases pointed hs hx with ⟨h, hh⟩ | ⟨a, ha⟩
    · exact absurd (.handle hh) hlx
    · obtain ⟨v, hv, hb⟩ := ha
      exact ⟨⟨a, ⟨v, hv⟩, fun hla => hlx (.entry hla ⟨v, hv, hb⟩)⟩, v, hv, hb⟩
  choose f hf using back
  let g : Nat → {x // InMemory s x ∧ ¬ LedTo s x} := fun i => f^[i] ⟨n, hn, hl⟩
  have hg : ∀ i, Refers s.heap (g (i + 1)).1 (g i).1 := by
    intro i
    show Refers s.heap (f^[i + 1] _).1 _
    rw [Function.iterate_succ_apply']
    exact hf _
  have chain : ∀ i k, ReflTransGen (Refers s.heap) (g (i + k)).1 (g i).1 := by
    intro i k
    induction k with
    | zero => exact .refl
    | succ k ih => exact .head (hg (i + k)) ih
  -- two of them are the same
  let F : Nat → Fin s.heap.length := fun i => ⟨(g (i + 1)).1, refers_lt (hg i)⟩
  obtain ⟨i, j, hne, he⟩ := Finite.exists_ne_map_eq_of_infinite F
  have he' : (g (i + 1)).1 = (g (j + 1)).1 := congrArg Fin.val he
  have main : ∀ i j, i < j → (g (i + 1)).1 = (g (j + 1)).1 →
      ∃ m, TransGen (Refers s.heap) m m ∧ ReflTransGen (Refers s.heap) m n := by
    intro i j hij e
    obtain ⟨k, rfl⟩ : ∃ k, j = i + 1 + k := ⟨j - i - 1, by omega⟩
    refine ⟨(g (i + 1)).1, ?_, by have := chain 0 (i + 1); rw [Nat.zero_add] at this; exact this⟩
    have h1 : ReflTransGen (Refers s.heap) (g (i + 1 + k)).1 (g (i + 1)).1 := chain (i + 1) k
    have h2 : Refers s.heap (g (i + 1 + k + 1)).1 (g (i + 1 + k)).1 := hg (i + 1 + k)
    rw [← e] at h2
    exact TransGen.head' h2 h1
  rcases Nat.lt_or_gt_of_ne hne with h | h
  · exact main i j h he'
  · exact main j i h he'.symm

/-- **C89** As long as no dictionary contains itself, exactly the values to which an object leads exist.  Missing: dictionaries that
contain themselves, for which `C89_false` shows that the claim fails, and `C89_leak` what is lost. -/
theorem C89_values_partial {s : MState R} (h : Reached s) (hc : NoCycle s) (n : Nat) : InMemory s n ↔ LedTo s n := by
  refine ⟨fun hn => ?_, C89_exists h⟩
  by_contra hl
  obtain ⟨m, hm, -⟩ := C89_leak h hn hl
  exact hc m hm

/-- **C89** When all objects are gone all values have been destroyed. -/
theorem C89_end_partial {s : MState R} (h : Reached s) (hc : NoCycle s) (hg : ∀ p ∈ s.handles, p = .gone ∨ p = .null) (n : Nat) :
    ¬ InMemory s n := by
  intro hn
  have hl := (C89_values_partial h hc n).1 hn
  clear hn
  induction hl with
  | handle hh => rcases hg _ (List.mem_of_getElem? hh) with e | e <;> cases e
  | entry _ _ ih => exact ih

/-- A path that may use one more entry. -/
private theorem path_new {r r' : Nat → Nat → Prop} {a b : Nat} (h : ∀ x y, r' x y → r x y ∨ (x = a ∧ y = b)) {x y : Nat}
    (hp : TransGen r' x y) : TransGen r x y ∨ (ReflTransGen r x a ∧ ReflTransGen r b y) := by
  induction hp with
  | single e =>
    rcases h _ _ e with e | ⟨rfl, rfl⟩
    · exact Or.inl (.single e)
    · exact Or.inr ⟨.refl, .refl⟩
  | tail _ e ih =>
    rcases h _ _ e with e | ⟨rfl, rfl⟩
    · rcases ih with ih | ⟨h1, h2⟩
      · exact Or.inl (ih.tail e)
      · exact Or.inr ⟨h1, h2.tail e⟩
    · rcases ih with ih | ⟨h1, _⟩
      · exact Or.inr ⟨ih.to_reflTransGen, .refl⟩
      · exact Or.inr ⟨h1, .refl⟩

/-- **C89** The only statement after which a dictionary contains itself is `a.add(key, b)` with a `b` that is or contains `a`. -/
theorem C89_no_cycle {s : MState R} (h : Reached s) (hc : NoCycle s) {op : MState.Op R} (hu : s.Uses op)
    (ha : ∀ g key g2 a b, op = .op (.addDict g key g2) → s.handles[g]? = some (.ref a) → s.handles[g2]? = some (.ref b) →
      ¬ ReflTransGen (Refers s.heap) b a) : NoCycle (s.step op).2 := by
  obtain ⟨r, t, h1, -, -, hr, -⟩ := step_ok h.ok hu
  rw [h1]
  intro n hn
  -- nothing leads away from a place where there is no value
  have none : ∀ {x y : Nat}, s.heap.length ≤ x → ReflTransGen (Refers s.heap) x y → x = y := by
    intro x y hx hp
    rcases hp.cases_head with e | ⟨z, hz, -⟩
    · exact e
    · have := refers_lt hz; omega
  have old : (∀ a b, ¬ NewEntry s op a b) → False := by
    intro hno
    refine hc n (TransGen.mono ?_ n n hn)
    intro a b hab
    rcases hr a b hab with e | e
    · exact e
    · exact absurd e (hno a b)
  have new : ∀ a b, (∀ x y, NewEntry s op x y → x = a ∧ y = b) → ¬ ReflTransGen (Refers s.heap) b a → False := by
    intro a b he hno
    rcases path_new (r := Refers s.heap) (a := a) (b := b) (fun x y e => (hr x y e).imp id (he x y)) hn with hp | ⟨hp, hq⟩
    · exact hc n hp
    · exact hno (hq.trans hp)
  match op with
  | .op .empty => exact old (fun _ _ e => e)
  | .op (.single _ _) =>
    exact new _ _ (fun x y e => e) (fun hp => by have := none (Nat.le_refl _) hp; omega)
  | .op (.copy _) => exact old (fun _ _ e => e)
  | .op (.rebind _ _) => exact old (fun _ _ e => e)
  | .op (.index _ _) => exact old (fun _ _ e => e)
  | .op (.add g _ _) =>
    obtain ⟨a, hg⟩ := hu
    obtain ⟨v, c, hv⟩ := h.ok.handle hg
    have hlt := (List.getElem?_eq_some_iff.1 hv).1
    refine new a s.heap.length (fun x y e => ?_) (fun hp => by have := none (Nat.le_refl _) hp; omega)
    obtain ⟨e1, e2⟩ := e
    rw [hg] at e1
    simp only [Option.some.injEq, MHandle.ref.injEq] at e1
    exact ⟨e1.symm, e2⟩
  | .op (.addDict g key g2) =>
    obtain ⟨⟨a, hg⟩, ⟨b, hg2⟩⟩ := hu
    refine new a b (fun x y e => ?_) (ha g key g2 a b rfl hg hg2)
    obtain ⟨e1, e2⟩ := e
    rw [hg] at e1
    rw [hg2] at e2
    simp only [Option.some.injEq, MHandle.ref.injEq] at e1 e2
    exact ⟨e1.symm, e2.symm⟩
  | .op (.assign _ _) => exact old (fun _ _ e => e)
  | .op (.assignFrom _ _) => exact old (fun _ _ e => e)
  | .move _ => exact old (fun _ _ e => e)
  | .drop _ => exact old (fun _ _ e => e)

/-- The outcomes of the statements of a program, but for the ends of lives. -/
def outcomesM (s : MState R) : List (MState.Op R) → List (Res Unit)
  | [] => []
  | op :: ops => (match op.plain with | some _ => [(s.step op).1] | none => []) ++ outcomesM (s.step op).2 ops

/-- The outcomes without destruction. -/
def outcomesD (d : DState R) : List (DState.Op R) → List (Res Unit)
  | [] => []
  | op :: ops => (d.step op).1 :: outcomesD (d.step op).2 ops

/-- **C89** The destruction of values is not observable: without it the statements of a program have the same outcomes, and the
objects that live at the end show the same values. -/
theorem C89_same {ops : List (MState.Op R)} {s : MState R} (h : (⟨[], []⟩ : MState R).run ops = some s) :
    ∃ d, (⟨[], []⟩ : DState R).run (ops.filterMap MState.Op.plain) = some d ∧
      outcomesM ⟨[], []⟩ ops = outcomesD ⟨[], []⟩ (ops.filterMap MState.Op.plain) ∧
      (∀ (h n : Nat), s.handles[h]? = some (.ref n) → d.handles[h]? = some n) ∧
      (∀ (n : Nat) (v : DVal R), HasVal s.heap n v → d.heap[n]? = some v) := by
  have key : ∀ (ops : List (MState.Op R)) (s0 s : MState R) (d0 : DState R), s0.Ok → Sim s0 d0 → s0.run ops = some s →
      ∃ d, d0.run (ops.filterMap MState.Op.plain) = some d ∧
        outcomesM s0 ops = outcomesD d0 (ops.filterMap MState.Op.plain) ∧ Sim s d := by
    intro ops
    induction ops with
    | nil => intro s0 s d0 _ hsim h; cases h; exact ⟨d0, rfl, rfl, hsim⟩
    | cons op ops ih =>
      intro s0 s d0 hok hsim h
      have hu : s0.Uses op := by
        by_contra hu
        have := step_undefined hok hu
        unfold MState.run at h
        split at h
        · cases h
        · rename_i r t hne heq
          rw [heq] at this
          exact absurd this hne
      obtain ⟨r, t, h1, h2, h3, -, h4⟩ := step_ok hok hu
      have hrun : t.run ops = some s := by
        unfold MState.run at h
        rw [h1] at h
        cases r with
        | ub => exact absurd rfl h2
        | ok u => exact h
        | throw e => exact h
      have h4 := h4 d0 hsim
      cases hp : op.plain with
      | none =>
        rw [hp] at h4
        obtain ⟨d, e1, e2, e3⟩ := ih t s d0 h3 h4 hrun
        refine ⟨d, by simpa [hp] using e1, ?_, e3⟩
        simp only [outcomesM, hp, h1, List.nil_append, List.filterMap_cons]
        exact e2
      | some o =>
        rw [hp] at h4
        obtain ⟨e0, h4⟩ := h4
        obtain ⟨d, e1, e2, e3⟩ := ih t s _ h3 h4 hrun
        refine ⟨d, ?_, ?_, e3⟩
        · simp only [List.filterMap_cons, hp]
          unfold DState.run
          generalize d0.step o = q at e0 e1
          obtain ⟨q1, q2⟩ := q
          simp only at e0 e1
          subst e0
          cases q1 with
          | ub => exact absurd rfl h2
          | ok u => exact e1
          | throw e => exact e1
        · simp only [outcomesM, outcomesD, hp, h1, List.filterMap_cons, e0, e2, List.singleton_append]
  obtain ⟨d, e1, e2, e3⟩ := key ops _ s ⟨[], []⟩ ok_nil
    ⟨⟨by simp, by intro n k c h; simp [childAt] at h⟩, rfl, rfl, by rintro n v ⟨c, h⟩; simp at h, by intro h n hh; simp at hh⟩ h
  exact ⟨d, e1, e2, e3.handle, e3.val⟩

/-- A dictionary with an entry that is itself, and the object that led to it gone. -/
def exCycle : List (MState.Op Int) := [.op .empty, .op (.addDict 0 "me" 0), .drop 0]

/-- **C89** The full claim is false: a dictionary that was added to itself is never destroyed. -/
theorem C89_false : ¬ C89_statement := by
  intro h
  have hr : (⟨[], []⟩ : MState Int).run exCycle = some ⟨[⟨some (.dict [("me", 0)]), 1⟩], [.gone]⟩ := by decide +kernel
  have hl := (h _ ⟨exCycle, hr⟩ 0).1 ⟨.dict [("me", 0)], 1, rfl⟩
  have key : ∀ n, LedTo (⟨[⟨some (.dict [("me", 0)]), 1⟩], [.gone]⟩ : MState Int) n → False := by
    intro n hn
    induction hn with
    | @handle k n hh =>
      cases k with
      | zero => simp at hh
      | succ k => simp at hh
    | entry _ _ ih => exact ih
  exact key 0 hl

/-- Nested dictionaries, with a shared one, an object moved and a value replaced. -/
def exNested : List (MState.Op Int) :=
  [.op .empty, .op (.single "x" (.int 1)), .op (.addDict 0 "a" 1), .op (.addDict 0 "b" 1), .drop 1,
    .op (.index 0 "a"), .move 2, .op (.assign 0 (.int 7))]

/-- The dictionary "a" survives the assignment, by the object it was moved to; it goes with that object. -/
example : ((⟨[], []⟩ : MState Int).run exNested).map (fun s => (s.heap, s.handles)) =
    some ([⟨some (.int 7), 1⟩, ⟨some (.int 1), 1⟩, ⟨some (.dict [("x", 1)]), 1⟩], [.ref 0, .gone, .null, .ref 2]) := by
  decide +kernel
example : ((⟨[], []⟩ : MState Int).run (exNested ++ [.drop 3])).map (·.heap) =
    some [⟨some (.int 7), 1⟩, ⟨none, 0⟩, ⟨none, 0⟩] := by decide +kernel
example : ((⟨[], []⟩ : MState Int).run (exNested ++ [.drop 3, .drop 0, .drop 2])).map (·.heap) =
    some [⟨none, 0⟩, ⟨none, 0⟩, ⟨none, 0⟩] := by decide +kernel
/-- The object moved from can be assigned to, but not used. -/
example : ((⟨[], []⟩ : MState Int).run exNested).map (fun s => ((s.step (.op (.rebind 2 3))).1, (s.step (.op (.index 2 "x"))).1)) =
    some (.ok (), .ub) := by decide +kernel
/-- Such a state has no cycle. -/
example : NoCycle (⟨[⟨some (.int 7), 1⟩, ⟨some (.int 1), 1⟩, ⟨some (.dict [("x", 1)]), 1⟩], [.ref 0, .gone, .null, .ref 2]⟩ : MState Int) := by
  have lt : ∀ a b, Refers ([⟨some (.int 7), 1⟩, ⟨some (.int 1), 1⟩, ⟨some (.dict [("x", 1)]), 1⟩] : List (MNode Int)) a b → b < a := by
    rintro a b ⟨v, ⟨c, hc⟩, hb⟩
    match a, hc with
    | 0, hc => simp at hc; rw [← hc.1] at hb; simp [DVal.kids] at hb
    | 1, hc => simp at hc; rw [← hc.1] at hb; simp [DVal.kids] at hb
    | 2, hc => simp at hc; rw [← hc.1] at hb; simp [DVal.kids] at hb; omega
    | a + 3, hc => simp at hc
  intro n hn
  have : ∀ a b, TransGen (Refers ([⟨some (.int 7), 1⟩, ⟨some (.int 1), 1⟩, ⟨some (.dict [("x", 1)]), 1⟩] : List (MNode Int))) a b → b < a := by
    intro a b h
    induction h with
    | single h => exact lt _ _ h
    | tail _ h ih => exact (lt _ _ h).trans ih
  exact absurd (this n n hn) (Nat.lt_irrefl n)

/-- The theorems at the state after the nested dictionaries were made. -/
def exNestedState : MState Int := ((⟨[], []⟩ : MState Int).run exNested).getD ⟨[], []⟩
theorem exNested_run : (⟨[], []⟩ : MState Int).run exNested = some exNestedState := by decide +kernel
theorem exNested_eq : exNestedState =
    ⟨[⟨some (.int 7), 1⟩, ⟨some (.int 1), 1⟩, ⟨some (.dict [("x", 1)]), 1⟩], [.ref 0, .gone, .null, .ref 2]⟩ := by
  decide +kernel
theorem exNested_lt (a b : Nat) (h : Refers exNestedState.heap a b) : a = 2 ∧ b = 1 := by
  obtain ⟨v, ⟨c, hc⟩, hb⟩ := h
  rw [exNested_eq] at hc
  match a, hc with
  | 0, hc => simp at hc; rw [← hc.1] at hb; simp [DVal.kids] at hb
  | 1, hc => simp at hc; rw [← hc.1] at hb; simp [DVal.kids] at hb
  | 2, hc => simp at hc; rw [← hc.1] at hb; simp [DVal.kids] at hb; exact ⟨rfl, hb⟩
  | a + 3, hc => simp at hc
theorem exNested_noCycle : NoCycle exNestedState := by
  intro n hn
  have : ∀ a b, TransGen (Refers exNestedState.heap) a b → b < a := by
    intro a b h
    induction h with
    | single h => obtain ⟨rfl, rfl⟩ := exNested_lt _ _ h; decide
    | tail _ h ih => obtain ⟨rfl, rfl⟩ := exNested_lt _ _ h; omega
  exact absurd (this n n hn) (Nat.lt_irrefl n)
/-- The number 1 in the inner dictionary exists, as handle 3 leads to it. -/
example : InMemory exNestedState 1 := by
  refine C89_exists ⟨_, exNested_run⟩ (.entry (a := 2) (.handle (h := 3) ?_) ?_)
  · rw [exNested_eq]; rfl
  · rw [exNested_eq]; exact ⟨.dict [("x", 1)], ⟨1, rfl⟩, by simp [DVal.kids]⟩
example : LedTo exNestedState 2 ↔ InMemory exNestedState 2 := (C89_values_partial ⟨_, exNested_run⟩ exNested_noCycle 2).symm
/-- Handle 2 was moved from: only assigning to it is defined. -/
example : (exNestedState.step (.op (.index 2 "x"))).1 = .ub := by
  by_contra h
  have := (C89_defined ⟨_, exNested_run⟩ _).1 h
  rw [exNested_eq] at this
  simp [MState.Uses, MState.Points] at this
/-- Adding the dictionary to the value of handle 0 fails, and makes no cycle. -/
example : NoCycle (exNestedState.step (.op (.addDict 3 "y" 0))).2 := by
  refine C89_no_cycle ⟨_, exNested_run⟩ exNested_noCycle ?_ ?_
  · rw [exNested_eq]; simp [MState.Uses, MState.Points]
  · intro g key g2 a b e ha hb hr
    cases e
    rw [exNested_eq] at ha hb
    simp at ha hb
    subst ha hb
    rcases Relation.ReflTransGen.cases_head hr with h | ⟨c, h, -⟩
    · exact absurd h (by decide)
    · exact absurd (exNested_lt _ _ h).1 (by decide)
example : ∃ d, (⟨[], []⟩ : DState Int).run (exNested.filterMap MState.Op.plain) = some d ∧ d.handles[3]? = some 2 := by
  obtain ⟨d, h1, -, h2, -⟩ := C89_same exNested_run
  exact ⟨d, h1, h2 3 2 (by rw [exNested_eq]; rfl)⟩
/-- All objects gone: nothing remains. -/
example (n : Nat) : ¬ InMemory (⟨[⟨none, 0⟩, ⟨none, 0⟩, ⟨none, 0⟩], [.gone, .gone, .gone, .gone]⟩ : MState Int) n := by
  refine C89_end_partial ⟨exNested ++ [.drop 3, .drop 0, .drop 2], by decide +kernel⟩ ?_ (by simp) n
  intro m hm
  obtain ⟨b, ⟨v, ⟨c, hc⟩, -⟩, -⟩ := Relation.TransGen.head'_iff.1 hm
  match m, hc with
  | 0, hc => simp at hc
  | 1, hc => simp at hc
  | 2, hc => simp at hc
  | m + 3, hc => simp at hc
/-- What remains of the dictionary that contains itself. -/
example : ∃ m, TransGen (Refers ([⟨some (.dict [("me", 0)]), 1⟩] : List (MNode Int))) m m := by
  obtain ⟨m, h, -⟩ := C89_leak (s := (⟨[⟨some (.dict [("me", 0)]), 1⟩], [.gone]⟩ : MState Int)) (n := 0)
    ⟨exCycle, by decide +kernel⟩ ⟨.dict [("me", 0)], 1, rfl⟩ (by
      intro h
      have : ∀ n, LedTo (⟨[⟨some (.dict [("me", 0)]), 1⟩], [.gone]⟩ : MState Int) n → False := by
        intro n h
        induction h with
        | @handle h n hh => match h, hh with
          | 0, hh => simp at hh
          | h + 1, hh => simp at hh
        | entry _ _ ih => exact ih
      exact this 0 h)
  exact ⟨m, h⟩

end Verif.Props
