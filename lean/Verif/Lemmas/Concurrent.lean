import Verif.Model.Concurrent
import Mathlib.Algebra.BigOperators.Fin
import Mathlib.Algebra.Order.BigOperators.Group.Finset
/-
Programs without races: every execution ends, in the state of the execution that serves the processes one after the
other.
-/
set_option linter.unusedSectionVars false

namespace Verif.Concurrent
open Verif

variable {C A V : Type} [DecidableEq C] [DecidableEq A] {n : Nat}

/-- The actions write to the place. -/
def Stores (as : List (Act C A)) (c : C) : Prop := ∃ a, Act.store c a ∈ as

/-- The actions write to or read from the place. -/
def Touches (as : List (Act C A)) (c : C) : Prop := ∃ a, Act.store c a ∈ as ∨ Act.load c a ∈ as

/-- No collective call among the actions. -/
def Copies (as : List (Act C A)) : Prop := ∀ t, Act.sync t ∉ as

/-- What one process writes no other process reads or writes. -/
def RaceFree (as : Fin n → List (Act C A)) : Prop := ∀ i j, i ≠ j → ∀ c, Stores (as i) c → ¬ Touches (as j) c

theorem Stores.touches {as : List (Act C A)} {c : C} (h : Stores as c) : Touches as c :=
  h.imp fun _ h => .inl h

/-- A process alone. -/
def solo : List (Act C A) → (C → V) → (A → Option V) → Option ((C → V) × (A → Option V))
  | [], d, m => some (d, m)
  | a :: as, d, m => (exec d m a).bind fun p => solo as p.1 p.2

theorem solo_append (as bs : List (Act C A)) (d : C → V) (m : A → Option V) :
    solo (as ++ bs) d m = (solo as d m).bind fun p => solo bs p.1 p.2 := by
  induction as generalizing d m with
  | nil => rfl
  | cons a as ih =>
    simp only [List.cons_append, solo]
    cases exec d m a with
    | none => rfl
    | some p => exact ih _ _

theorem exec_congr {d d' : C → V} {m : A → Option V} {a : Act C A} {d1 : C → V} {m1 : A → Option V}
    {T : C → Prop} (hT : ∀ c, Touches [a] c → T c) (h : ∀ c, T c → d c = d' c)
    (he : exec d m a = some (d1, m1)) : ∃ d1', exec d' m a = some (d1', m1) ∧ ∀ c, T c → d1 c = d1' c := by
  cases a with
  | store c a =>
    simp only [exec, Option.map_eq_some_iff] at he ⊢
    obtain ⟨v, hv, hp⟩ := he
    cases hp
    refine ⟨_, ⟨v, hv, rfl⟩, fun y hy => ?_⟩
    by_cases hyc : y = c
    · simp [hyc]
    · simp [hyc, h y hy]
  | load c a =>
    simp only [exec, Option.map_eq_some_iff] at he ⊢
    obtain ⟨v, hv, hp⟩ := he
    cases hp
    have hc : d c = d' c := h c (hT c ⟨a, .inr (by simp)⟩)
    exact ⟨d', ⟨v, hv, by rw [hc]⟩, h⟩
  | sync t => simp [exec] at he

theorem exec_frame {d : C → V} {m : A → Option V} {a : Act C A} {d1 : C → V} {m1 : A → Option V}
    (he : exec d m a = some (d1, m1)) {c : C} (hc : ¬ Stores [a] c) : d1 c = d c := by
  cases a with
  | store c' a =>
    simp only [exec, Option.map_eq_some_iff] at he
    obtain ⟨v, hv, hp⟩ := he
    cases hp
    have : c ≠ c' := fun h => hc ⟨a, by simp [h]⟩
    simp [this]
  | load c' a =>
    simp only [exec, Option.map_eq_some_iff] at he
    obtain ⟨v, hv, hp⟩ := he
    cases hp
    rfl
  | sync t => simp [exec] at he

/-- Whether an action is possible depends on the memory of the process only. -/
theorem exec_possible {d d' : C → V} {m : A → Option V} {a : Act C A} (h : (exec d m a).isSome) :
    (exec d' m a).isSome := by
  cases a <;> simpa [exec] using h

theorem solo_congr {as : List (Act C A)} {d d' : C → V} {m : A → Option V} {d1 : C → V} {m1 : A → Option V}
    {T : C → Prop} (hT : ∀ c, Touches as c → T c) (h : ∀ c, T c → d c = d' c)
    (he : solo as d m = some (d1, m1)) : ∃ d1', solo as d' m = some (d1', m1) ∧ ∀ c, T c → d1 c = d1' c := by
  induction as generalizing d d' m with
  | nil => simp only [solo, Option.some.injEq, Prod.mk.injEq] at he ⊢
           obtain ⟨rfl, rfl⟩ := he
           exact ⟨d', ⟨rfl, rfl⟩, h⟩
  | cons a as ih =>
    simp only [solo] at he
    cases hx : exec d m a with
    | none => rw [hx] at he; simp at he
    | some p =>
      rw [hx] at he
      obtain ⟨d2, h2, h3⟩ := exec_congr (T := T) (d' := d') (d1 := p.1) (m1 := p.2)
        (fun c hc => hT c (by obtain ⟨x, hx⟩ := hc; exact ⟨x, by simp at hx ⊢; tauto⟩)) h hx
      obtain ⟨d3, h4, h5⟩ := ih (d := p.1) (d' := d2) (fun c hc => hT c (by
        obtain ⟨x, hx⟩ := hc; exact ⟨x, by simp; tauto⟩)) h3 he
      exact ⟨d3, by simp only [solo, h2]; exact h4, h5⟩

theorem solo_frame {as : List (Act C A)} {d : C → V} {m : A → Option V} {d1 : C → V} {m1 : A → Option V}
    (he : solo as d m = some (d1, m1)) {c : C} (hc : ¬ Stores as c) : d1 c = d c := by
  induction as generalizing d m with
  | nil => simp only [solo, Option.some.injEq, Prod.mk.injEq] at he; rw [he.1]
  | cons a as ih =>
    simp only [solo] at he
    cases hx : exec d m a with
    | none => rw [hx] at he; simp at he
    | some p =>
      rw [hx] at he
      rw [ih (d := p.1) (m := p.2) he (fun h => hc (by obtain ⟨x, hx⟩ := h; exact ⟨x, by simp [hx]⟩)),
        exec_frame (d1 := p.1) (m1 := p.2) hx (fun h => hc (by
          obtain ⟨x, hx⟩ := h; exact ⟨x, by simp at hx; simp [hx]⟩))]

/-- The processes one after the other. -/
def seqRun (as : Fin n → List (Act C A)) : List (Fin n) → (C → V) → (Fin n → A → Option V) →
    Option ((C → V) × (Fin n → A → Option V))
  | [], d, m => some (d, m)
  | i :: is, d, m => (solo (as i) d (m i)).bind fun p => seqRun as is p.1 (Function.update m i p.2)

/-- A part of the program between two collective calls: the call it begins with, and what each process copies before the
next one. -/
structure Phase (n : Nat) (C A : Type) where
  tag : String
  acts : Fin n → List (Act C A)

/-- The program of a process that goes through the phases. -/
def progOf {n : Nat} (ps : List (Phase n C A)) (i : Fin n) : List (Act C A) :=
  ps.flatMap fun p => .sync p.tag :: p.acts i

/-- The phases one after the other. -/
def seqPhases : List (Phase n C A) → (C → V) → (Fin n → A → Option V) → Option ((C → V) × (Fin n → A → Option V))
  | [], d, m => some (d, m)
  | p :: ps, d, m => (seqRun p.acts (List.finRange n) d m).bind fun q => seqPhases ps q.1 q.2

theorem seqPhases_append (ps qs : List (Phase n C A)) (d : C → V) (m : Fin n → A → Option V) :
    seqPhases (ps ++ qs) d m = (seqPhases ps d m).bind fun q => seqPhases qs q.1 q.2 := by
  induction ps generalizing d m with
  | nil => rfl
  | cons p ps ih =>
    simp only [List.cons_append, seqPhases]
    cases seqRun p.acts (List.finRange n) d m with
    | none => rfl
    | some q => exact ih _ _

theorem seqRun_spec {as : Fin n → List (Act C A)} (hr : RaceFree as) {is : List (Fin n)} (hnd : is.Nodup)
    {d : C → V} {m : Fin n → A → Option V} {d' : C → V} {m' : Fin n → A → Option V}
    (h : seqRun as is d m = some (d', m')) :
    (∀ i ∈ is, ∃ e, solo (as i) d (m i) = some (e, m' i) ∧ ∀ c, Touches (as i) c → d' c = e c) ∧
    (∀ i, i ∉ is → m' i = m i) ∧ ∀ c, (∀ i ∈ is, ¬ Stores (as i) c) → d' c = d c := by
  induction is generalizing d m with
  | nil =>
    simp only [seqRun, Option.some.injEq, Prod.mk.injEq] at h
    obtain ⟨rfl, rfl⟩ := h
    exact ⟨by simp, fun _ _ => rfl, fun _ _ => rfl⟩
  | cons i is ih =>
    simp only [seqRun] at h
    cases hx : solo (as i) d (m i) with
    | none => rw [hx] at h; simp at h
    | some p =>
      rw [hx] at h
      obtain ⟨hi, hnd'⟩ := List.nodup_cons.1 hnd
      obtain ⟨h1, h2, h3⟩ := ih hnd' h
      refine ⟨?_, ?_, ?_⟩
      · intro j hj
        rcases List.mem_cons.1 hj with rfl | hj
        · refine ⟨p.1, ?_, ?_⟩
          · rw [h2 j hi, Function.update_self]; exact hx
          · intro c hc
            refine h3 c fun k hk hs => ?_
            exact hr k j (fun he => hi (he ▸ hk)) c hs hc
        · obtain ⟨e, he, hc⟩ := h1 j hj
          have hne : j ≠ i := fun hh => hi (hh ▸ hj)
          rw [Function.update_of_ne hne] at he
          obtain ⟨e', he', hc'⟩ := solo_congr (d' := d) (T := Touches (as j)) (fun _ h => h) (fun c hcj => by
            exact solo_frame (d1 := p.1) (m1 := p.2) hx (fun hs => hr i j (Ne.symm hne) c hs hcj)) he
          exact ⟨e', he', fun c hcj => (hc c hcj).trans (hc' c hcj)⟩
      · intro j hj
        rw [List.mem_cons, not_or] at hj
        rw [h2 j hj.2, Function.update_of_ne hj.1]
      · intro c hc
        rw [h3 c fun j hj => hc j (by simp [hj]), solo_frame (d1 := p.1) (m1 := p.2) hx (hc i (by simp))]

/-- In the middle of a phase that began with the state `d0`, `m0`. -/
structure Mid (d0 : C → V) (m0 : Fin n → A → Option V) (as : Fin n → List (Act C A)) (later : List (Phase n C A))
    (done todo : Fin n → List (Act C A)) (e : Fin n → C → V) (s : Config n C A V) : Prop where
  split : ∀ i, as i = done i ++ todo i
  prog : ∀ i, (s.procs i).prog = todo i ++ progOf later i
  own : ∀ i, solo (done i) d0 (m0 i) = some (e i, (s.procs i).mem)
  seen : ∀ i c, Touches (as i) c → s.data c = e i c
  rest : ∀ c, (∀ i, ¬ Stores (as i) c) → s.data c = d0 c

theorem Mid.begin (d0 : C → V) (m0 : Fin n → A → Option V) (as : Fin n → List (Act C A)) (later : List (Phase n C A))
    {s : Config n C A V} (hd : s.data = d0) (hm : ∀ i, (s.procs i).mem = m0 i)
    (hp : ∀ i, (s.procs i).prog = as i ++ progOf later i) :
    Mid d0 m0 as later (fun _ => []) as (fun _ => d0) s :=
  ⟨fun _ => rfl, hp, fun i => by rw [hm i]; rfl, fun _ _ _ => by rw [hd], fun _ _ => by rw [hd]⟩

/-- The end of a phase is the state after serving the processes one after the other. -/
theorem Mid.done_eq {d0 : C → V} {m0 : Fin n → A → Option V} {as : Fin n → List (Act C A)}
    {later : List (Phase n C A)} {done todo : Fin n → List (Act C A)} {e : Fin n → C → V} {s : Config n C A V}
    (hr : RaceFree as) (h : Mid d0 m0 as later done todo e s) (hend : ∀ i, todo i = [])
    {d' : C → V} {m' : Fin n → A → Option V} (hseq : seqRun as (List.finRange n) d0 m0 = some (d', m')) :
    s.data = d' ∧ ∀ i, (s.procs i).mem = m' i := by
  obtain ⟨h1, -, h3⟩ := seqRun_spec hr (List.nodup_finRange n) hseq
  have hd : ∀ i, done i = as i := fun i => by rw [h.split i, hend i, List.append_nil]
  have hs : ∀ i, solo (as i) d0 (m0 i) = some (e i, (s.procs i).mem) := fun i => hd i ▸ h.own i
  refine ⟨?_, fun i => ?_⟩
  · funext c
    by_cases hc : ∃ i, Stores (as i) c
    · obtain ⟨i, hi⟩ := hc
      obtain ⟨e', he', hc'⟩ := h1 i (List.mem_finRange i)
      rw [hs i] at he'
      simp only [Option.some.injEq, Prod.mk.injEq] at he'
      rw [h.seen i c hi.touches, hc' c hi.touches, he'.1]
    · have hc' : ∀ i, ¬ Stores (as i) c := fun i hi => hc ⟨i, hi⟩
      rw [h.rest c hc', h3 c fun i _ => hc' i]
  · obtain ⟨e', he', -⟩ := h1 i (List.mem_finRange i)
    rw [hs i] at he'
    simp only [Option.some.injEq, Prod.mk.injEq] at he'
    exact he'.2

/-- What every reachable state looks like: the phases before are over, and what is left leads to `d1`, `m1`. -/
def Good (d1 : C → V) (m1 : Fin n → A → Option V) (s : Config n C A V) : Prop :=
  ∃ (d0 : C → V) (m0 : Fin n → A → Option V) (as : Fin n → List (Act C A)) (later : List (Phase n C A))
    (done todo : Fin n → List (Act C A)) (e : Fin n → C → V) (d' : C → V) (m' : Fin n → A → Option V),
    RaceFree as ∧ (∀ i, Copies (as i)) ∧ (∀ p ∈ later, RaceFree p.acts ∧ ∀ i, Copies (p.acts i)) ∧
    seqRun as (List.finRange n) d0 m0 = some (d', m') ∧ seqPhases later d' m' = some (d1, m1) ∧
    Mid d0 m0 as later done todo e s

theorem progOf_nil (i : Fin n) : progOf ([] : List (Phase n C A)) i = [] := rfl

theorem progOf_cons (p : Phase n C A) (ps : List (Phase n C A)) (i : Fin n) :
    progOf (p :: ps) i = .sync p.tag :: (p.acts i ++ progOf ps i) := by
  simp [progOf]

theorem solo_snoc {done : List (Act C A)} {a : Act C A} {d0 : C → V} {m0 : A → Option V} {e : C → V}
    {m : A → Option V} (h : solo done d0 m0 = some (e, m)) {e' : C → V} {m' : A → Option V}
    (ha : exec e m a = some (e', m')) : solo (done ++ [a]) d0 m0 = some (e', m') := by
  rw [solo_append, h]
  show (exec e m a).bind _ = _
  rw [ha]
  rfl

theorem Good.step {d1 : C → V} {m1 : Fin n → A → Option V} {s t : Config n C A V} (hn : 0 < n)
    (h : Good d1 m1 s) (hs : Step s t) : Good d1 m1 t := by
  obtain ⟨d0, m0, as, later, done, todo, e, d', m', hr, hcp, hlat, hseq, hph, hm⟩ := h
  cases hs with
  | @act i a rest d2 m2 hp he =>
    -- one process
    cases ht : todo i with
    | nil =>
      rw [hm.prog i, ht, List.nil_append] at hp
      cases hl : later with
      | nil => rw [hl, progOf_nil] at hp; simp at hp
      | cons p ps =>
        rw [hl, progOf_cons] at hp
        simp only [List.cons.injEq] at hp
        rw [← hp.1] at he
        simp [exec] at he
    | cons b bs =>
      rw [hm.prog i, ht, List.cons_append] at hp
      simp only [List.cons.injEq] at hp
      obtain ⟨rfl, rfl⟩ := hp
      have hmem : b ∈ as i := by rw [hm.split i, ht]; simp
      obtain ⟨e2, he2, hag⟩ := exec_congr (d' := e i) (T := Touches (as i)) (fun c hc => by
        obtain ⟨x, hx⟩ := hc
        refine ⟨x, ?_⟩
        simp only [List.mem_singleton] at hx
        rcases hx with hx | hx
        · exact .inl (hx ▸ hmem)
        · exact .inr (hx ▸ hmem)) (fun c hc => hm.seen i c hc) he
      refine ⟨d0, m0, as, later, Function.update done i (done i ++ [b]), Function.update todo i bs,
        Function.update e i e2, d', m', hr, hcp, hlat, hseq, hph, ?_, ?_, ?_, ?_, ?_⟩
      · intro j
        by_cases hj : j = i
        · subst hj; simp [hm.split j, ht]
        · simp [hj, hm.split j]
      · intro j
        by_cases hj : j = i
        · subst hj; simp
        · simp [hj, hm.prog j]
      · intro j
        by_cases hj : j = i
        · subst hj; simp only [Function.update_self]; exact solo_snoc (hm.own j) he2
        · simp only [Function.update_of_ne hj]; exact hm.own j
      · intro j c hc
        by_cases hj : j = i
        · subst hj; simp only [Function.update_self]; exact hag c hc
        · simp only [Function.update_of_ne hj]
          rw [← hm.seen j c hc]
          refine exec_frame he fun hst => hr i j (Ne.symm hj) c ?_ hc
          obtain ⟨x, hx⟩ := hst
          simp only [List.mem_singleton] at hx
          exact ⟨x, hx ▸ hmem⟩
      · intro c hc
        rw [← hm.rest c hc]
        refine exec_frame he fun hst => hc i ?_
        obtain ⟨x, hx⟩ := hst
        simp only [List.mem_singleton] at hx
        exact ⟨x, hx ▸ hmem⟩
  | @collective tag hall =>
    have hend : ∀ i, todo i = [] := by
      intro i
      cases ht : todo i with
      | nil => rfl
      | cons b bs =>
        obtain ⟨rest, hrest⟩ := hall i
        rw [hm.prog i, ht, List.cons_append] at hrest
        simp only [List.cons.injEq] at hrest
        exfalso
        exact hcp i tag (by rw [hm.split i, ht, hrest.1]; simp)
    obtain ⟨hd, hmm⟩ := hm.done_eq hr hend hseq
    cases hl : later with
    | nil =>
      obtain ⟨rest, hrest⟩ := hall ⟨0, hn⟩
      rw [hm.prog, hend, hl, progOf_nil] at hrest
      simp at hrest
    | cons p ps =>
      rw [hl, seqPhases] at hph
      cases hq : seqRun p.acts (List.finRange n) d' m' with
      | none => rw [hq] at hph; simp at hph
      | some q =>
        rw [hq] at hph
        obtain ⟨hp1, hp2⟩ := hlat p (by rw [hl]; simp)
        refine ⟨d', m', p.acts, ps, fun _ => [], p.acts, fun _ => d', q.1, q.2, hp1, hp2,
          fun p' hp' => hlat p' (by rw [hl]; simp [hp']), hq, hph, Mid.begin d' m' p.acts ps hd hmm ?_⟩
        intro i
        show (s.procs i).prog.tail = _
        rw [hm.prog i, hend i, hl, progOf_cons]
        rfl

theorem Good.steps {d1 : C → V} {m1 : Fin n → A → Option V} {s t : Config n C A V} (hn : 0 < n)
    (h : Good d1 m1 s) (hs : Steps s t) : Good d1 m1 t := by
  induction hs with
  | refl => exact h
  | tail _ h2 ih => exact ih.step hn h2

/-- A good state is the end, or the program goes on. -/
theorem Good.progress {d1 : C → V} {m1 : Fin n → A → Option V} {s : Config n C A V} (hn : 0 < n)
    (h : Good d1 m1 s) :
    ((∀ i, (s.procs i).prog = []) ∧ s.data = d1 ∧ ∀ i, (s.procs i).mem = m1 i) ∨
      ((∃ i, (s.procs i).prog ≠ []) ∧ ∃ t, Step s t) := by
  obtain ⟨d0, m0, as, later, done, todo, e, d', m', hr, hcp, hlat, hseq, hph, hm⟩ := h
  by_cases hend : ∀ i, todo i = []
  · cases hl : later with
    | nil =>
      left
      obtain ⟨hd, hmm⟩ := hm.done_eq hr hend hseq
      rw [hl] at hph
      simp only [seqPhases, Option.some.injEq, Prod.mk.injEq] at hph
      refine ⟨fun i => by rw [hm.prog i, hend i, hl, progOf_nil]; rfl, hd.trans hph.1, fun i => ?_⟩
      rw [hmm i, ← hph.2]
    | cons p ps =>
      right
      have hp : ∀ i, (s.procs i).prog = .sync p.tag :: (p.acts i ++ progOf ps i) := fun i => by
        rw [hm.prog i, hend i, hl, progOf_cons]; rfl
      exact ⟨⟨⟨0, hn⟩, by rw [hp]; simp⟩, _, Step.collective p.tag fun i => ⟨_, hp i⟩⟩
  · right
    obtain ⟨i, hi⟩ := not_forall.1 hend
    cases ht : todo i with
    | nil => exact absurd ht hi
    | cons b bs =>
      have hp : (s.procs i).prog = b :: (bs ++ progOf later i) := by rw [hm.prog i, ht]; rfl
      obtain ⟨h1, -, -⟩ := seqRun_spec hr (List.nodup_finRange n) hseq
      obtain ⟨e', he', -⟩ := h1 i (List.mem_finRange i)
      rw [hm.split i, ht, solo_append, hm.own i] at he'
      have hsome : (exec (e i) (s.procs i).mem b).isSome := by
        cases hx : exec (e i) (s.procs i).mem b with
        | some p => rfl
        | none =>
          exfalso
          have : solo (b :: bs) (e i) (s.procs i).mem = some (e', m' i) := he'
          simp only [solo, hx] at this
          simp at this
      obtain ⟨q, hq⟩ := Option.isSome_iff_exists.1 (exec_possible (d' := s.data) hsome)
      exact ⟨⟨i, by rw [hp]; simp⟩, _, Step.act i hp (d' := q.1) (m' := q.2) hq⟩

/-- The number of actions that are left. -/
def Config.left (s : Config n C A V) : Nat := ∑ i, (s.procs i).prog.length

theorem Step.left_lt {s t : Config n C A V} (hn : 0 < n) (h : Step s t) : t.left < s.left := by
  unfold Config.left
  cases h with
  | @act i a rest d' m' hp he =>
    refine Finset.sum_lt_sum (fun j _ => ?_) ⟨i, Finset.mem_univ i, ?_⟩
    · by_cases hj : j = i
      · subst hj; simp [hp]
      · simp [hj]
    · simp [hp]
  | @collective t hall =>
    refine Finset.sum_lt_sum (fun j _ => ?_) ⟨⟨0, hn⟩, Finset.mem_univ _, ?_⟩
    · simp
    · obtain ⟨rest, hr⟩ := hall ⟨0, hn⟩
      simp [hr]

theorem good_start {ps : List (Phase n C A)} (hps : ∀ p ∈ ps, RaceFree p.acts ∧ ∀ i, Copies (p.acts i))
    {d : C → V} {m : Fin n → A → Option V} {d1 : C → V} {m1 : Fin n → A → Option V}
    (h : seqPhases ps d m = some (d1, m1)) :
    Good d1 m1 ⟨d, fun i => ⟨progOf ps i, m i⟩⟩ := by
  have hnil : ∀ (is : List (Fin n)) (d : C → V) (m : Fin n → A → Option V),
      seqRun (fun _ => ([] : List (Act C A))) is d m = some (d, m) := by
    intro is
    induction is with
    | nil => intros; rfl
    | cons i is ih =>
      intro d m
      show seqRun _ is d (Function.update m i (m i)) = _
      rw [Function.update_eq_self]
      exact ih d m
  refine ⟨d, m, fun _ => [], ps, fun _ => [], fun _ => [], fun _ => d, d, m, ?_, ?_, hps, hnil _ d m, h,
    Mid.begin d m (fun _ => []) ps rfl (fun _ => rfl) fun _ => rfl⟩
  · rintro i j - c ⟨a, ha⟩; simp at ha
  · intro i t ht; simp at ht

end Verif.Concurrent
