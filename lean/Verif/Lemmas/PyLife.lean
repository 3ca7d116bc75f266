import Verif.Model.PyLife
/-
Lemmas on the lifetimes of python objects: the sweep finds what can be reached; invariants of programs.
-/
namespace Verif.PyLife
open Verif

/-- Reachable from `acc` along the references that objects keep. -/
inductive Reach (objs : List PyObj) (acc : List Nat) : Nat → Prop
  | base {i : Nat} : i ∈ acc → Reach objs acc i
  | keep {i j : Nat} {o : PyObj} : Reach objs acc i → objs[i]? = some o → j ∈ o.keeps → Reach objs acc j

theorem Reach.mono {objs : List PyObj} {a b : List Nat} (h : ∀ i ∈ a, Reach objs b i) {i : Nat}
    (hr : Reach objs a i) : Reach objs b i := by
  induction hr with
  | base h' => exact h _ h'
  | keep _ h1 h2 ih => exact .keep ih h1 h2

/-- Objects keep older objects only. -/
def Older (objs : List PyObj) : Prop := ∀ (i : Nat) (o : PyObj), objs[i]? = some o → ∀ k ∈ o.keeps, k < i

theorem mem_heldFrom {objs : List PyObj} (ho : Older objs) (k : Nat) : ∀ {acc : List Nat},
    (∀ j o, k ≤ j → objs[j]? = some o → j ∈ acc → ∀ x ∈ o.keeps, x ∈ acc) → ∀ i,
      (i ∈ heldFrom objs k acc ↔ Reach objs acc i) := by
  induction k with
  | zero =>
    intro acc hs i
    refine ⟨fun h => .base h, fun h => ?_⟩
    unfold heldFrom
    induction h with
    | base h => exact h
    | keep _ h1 h2 ih => exact hs _ _ (Nat.zero_le _) h1 ih _ h2
  | succ k ih =>
    intro acc hs i
    unfold heldFrom
    cases hk : objs[k]? with
    | none =>
      dsimp only
      refine ih (fun j o hj h1 h2 => ?_) i
      rcases Nat.eq_or_lt_of_le hj with rfl | hj
      · rw [hk] at h1; cases h1
      · exact hs j o hj h1 h2
    | some o =>
      dsimp only
      by_cases hm : k ∈ acc
      · rw [if_pos hm, ih]
        · constructor
          · refine Reach.mono (fun x hx => ?_)
            rcases List.mem_append.1 hx with hx | hx
            · exact .keep (.base hm) hk hx
            · exact .base hx
          · exact Reach.mono (fun x hx => .base (List.mem_append.2 (Or.inr hx)))
        · intro j p hj h1 h2 x hx
          rw [List.mem_append]
          rcases Nat.eq_or_lt_of_le hj with rfl | hj
          · rw [hk] at h1; cases h1; exact Or.inl hx
          · rcases List.mem_append.1 h2 with h2 | h2
            · have := ho k o hk j h2; omega
            · exact Or.inr (hs j p hj h1 h2 x hx)
      · rw [if_neg hm]
        refine ih (fun j p hj h1 h2 => ?_) i
        rcases Nat.eq_or_lt_of_le hj with rfl | hj
        · exact absurd h2 hm
        · exact hs j p hj h1 h2

/-- Along the references that objects keep, `j` is reached from `i`. -/
def Kept (objs : List PyObj) (i j : Nat) : Prop := Reach objs [i] j

/-- Objects that keep alive whose memory they use. -/
inductive Strong (objs : List PyObj) : Nat → Prop
  | coll {i : Nat} {o : PyObj} : objs[i]? = some o → o.what = .coll → Strong objs i
  | field {i c : Nat} {n : String} {o : PyObj} : objs[i]? = some o → o.what = .field c n → Strong objs i
  | state {i c : Nat} {n : String} {o : PyObj} : objs[i]? = some o → o.what = .state c n → Strong objs i
  | pixels {i c : Nat} {o : PyObj} : objs[i]? = some o → o.what = .pixels c → Strong objs i
  | array {i : Nat} {o : PyObj} : objs[i]? = some o → o.what = .array → Strong objs i
  | buffer {i : Nat} {o : PyObj} : objs[i]? = some o → o.what = .buffer → Strong objs i
  | slice {i a : Nat} {o : PyObj} : objs[i]? = some o → o.what = .slice a → Strong objs a → Strong objs i

/-- What is true of every object of a program. -/
structure ObjOk (objs : List PyObj) (i : Nat) (o : PyObj) : Prop where
  older : ∀ k ∈ o.keeps, k < i
  /-- Memory belongs to collections, for frames and iterators over frames to files. -/
  owner : ∀ n ∈ o.needs, ∃ p, objs[n]? = some p ∧
    ((o.what = .frame ∨ o.what = .frameIter) ∧ p.what = .file ∨
      (o.what ≠ .frame ∧ o.what ≠ .frameIter) ∧ p.what = .coll)
  coll : o.what = .coll → o.needs = []
  field : ∀ c n, o.what = .field c n → o.needs = [c]
  state : ∀ c n, o.what = .state c n → o.needs = [c]
  pixels : ∀ c, o.what = .pixels c → o.needs = [c]
  base : ∀ a, o.what = .slice a → a < i
  strong : Strong objs i → ∀ n ∈ o.needs, Kept objs i n

structure Inv (s : Py) : Prop where
  obj : ∀ i o, s.objs[i]? = some o → ObjOk s.objs i o
  names : ∀ i ∈ s.names, i < s.objs.length

theorem Inv.older {s : Py} (h : Inv s) : Older s.objs := fun i o hi => (h.obj i o hi).older

theorem mem_held {s : Py} (h : Inv s) (i : Nat) : i ∈ s.held ↔ Reach s.objs s.names i := by
  unfold Py.held
  refine mem_heldFrom h.older _ (fun j o hj h1 => ?_) i
  have := (List.getElem?_eq_some_iff.1 h1).1
  omega

theorem held_lt {s : Py} (h : Inv s) {i : Nat} (hi : i ∈ s.held) : i < s.objs.length := by
  rw [mem_held h] at hi
  induction hi with
  | base hm => exact h.names _ hm
  | keep _ h1 h2 _ =>
    have := (h.obj _ _ h1).older _ h2
    have := (List.getElem?_eq_some_iff.1 h1).1
    omega

theorem inv_start : Inv start := ⟨fun i o h => by simp [start] at h, fun i h => by simp [start] at h⟩

/-! ### A new object -/

theorem Reach.grow {objs objs' : List PyObj} {acc : List Nat}
    (h : ∀ (i : Nat) o, objs[i]? = some o → ∃ o', objs'[i]? = some o' ∧ o'.keeps = o.keeps) {i : Nat}
    (hr : Reach objs acc i) : Reach objs' acc i := by
  induction hr with
  | base hm => exact .base hm
  | keep _ h1 h2 ih =>
    obtain ⟨o', e1, e2⟩ := h _ _ h1
    exact .keep ih e1 (by rw [e2]; exact h2)

/-- The classes and kept objects of the objects that exist are the same in both lists. -/
def Same (objs objs' : List PyObj) : Prop :=
  ∀ (i : Nat) o, objs[i]? = some o → ∃ o', objs'[i]? = some o' ∧ o'.keeps = o.keeps ∧ o'.what = o.what

theorem Same.append (objs : List PyObj) (o : PyObj) : Same objs (objs ++ [o]) := by
  intro i p hi
  have := (List.getElem?_eq_some_iff.1 hi).1
  exact ⟨p, by rw [List.getElem?_append_left this]; exact hi, rfl, rfl⟩

theorem Strong.back {objs objs' : List PyObj} (hs : Same objs objs') (hb : ∀ (i : Nat) (o : PyObj) (a : Nat), objs[i]? = some o →
    o.what = .slice a → a < i) {i : Nat} (h : Strong objs' i) : i < objs.length → Strong objs i := by
  have key : ∀ {i : Nat} {o' : PyObj}, objs'[i]? = some o' → i < objs.length →
      ∃ o, objs[i]? = some o ∧ o.what = o'.what := by
    intro i o' h1 hlt
    obtain ⟨p, e1, e2, e3⟩ := hs i objs[i] (List.getElem?_eq_getElem hlt)
    rw [e1] at h1
    cases h1
    exact ⟨_, List.getElem?_eq_getElem hlt, e3.symm⟩
  induction h with
  | coll h1 h2 => intro hlt; obtain ⟨o, e1, e2⟩ := key h1 hlt; exact .coll e1 (e2.trans h2)
  | field h1 h2 => intro hlt; obtain ⟨o, e1, e2⟩ := key h1 hlt; exact .field e1 (e2.trans h2)
  | state h1 h2 => intro hlt; obtain ⟨o, e1, e2⟩ := key h1 hlt; exact .state e1 (e2.trans h2)
  | pixels h1 h2 => intro hlt; obtain ⟨o, e1, e2⟩ := key h1 hlt; exact .pixels e1 (e2.trans h2)
  | array h1 h2 => intro hlt; obtain ⟨o, e1, e2⟩ := key h1 hlt; exact .array e1 (e2.trans h2)
  | buffer h1 h2 => intro hlt; obtain ⟨o, e1, e2⟩ := key h1 hlt; exact .buffer e1 (e2.trans h2)
  | slice h1 h2 _ ih =>
    intro hlt
    obtain ⟨o, e1, e2⟩ := key h1 hlt
    have := hb _ _ _ e1 (e2.trans h2)
    exact .slice e1 (e2.trans h2) (ih (by omega))

/-- What a new object must fulfil. -/
structure NewOk (objs : List PyObj) (o : PyObj) : Prop where
  older : ∀ k ∈ o.keeps, k < objs.length
  owner : ∀ n ∈ o.needs, ∃ p, objs[n]? = some p ∧
    ((o.what = .frame ∨ o.what = .frameIter) ∧ p.what = .file ∨
      (o.what ≠ .frame ∧ o.what ≠ .frameIter) ∧ p.what = .coll)
  coll : o.what = .coll → o.needs = []
  field : ∀ c n, o.what = .field c n → o.needs = [c]
  state : ∀ c n, o.what = .state c n → o.needs = [c]
  pixels : ∀ c, o.what = .pixels c → o.needs = [c]
  base : ∀ a, o.what = .slice a → a < objs.length
  strong : (o.what ≠ .window ∧ o.what ≠ .map ∧ o.what ≠ .enumerator ∧ o.what ≠ .pixIter ∧ o.what ≠ .file ∧
    o.what ≠ .frame ∧ o.what ≠ .frameIter) → (∀ a, o.what = .slice a → Strong objs a) →
    ∀ n ∈ o.needs, ∃ k ∈ o.keeps, Kept objs k n

theorem inv_give {s : Py} (h : Inv s) {o : PyObj} (ho : NewOk s.objs o) : Inv (s.give o) := by
  have hs := Same.append s.objs o
  have hb : ∀ (i : Nat) o a, s.objs[i]? = some o → o.what = .slice a → a < i :=
    fun i o a hi ha => (h.obj i o hi).base a ha
  have hg : ∀ {acc : List Nat} {x : Nat}, Reach s.objs acc x → Reach (s.objs ++ [o]) acc x := fun hr =>
    hr.grow fun i p hi => by obtain ⟨q, e1, e2, _⟩ := hs i p hi; exact ⟨q, e1, e2⟩
  constructor
  · intro i p hi
    have hi' : (s.objs ++ [o])[i]? = some p := hi
    show ObjOk (s.objs ++ [o]) i p
    by_cases hlt : i < s.objs.length
    · rw [List.getElem?_append_left hlt] at hi'
      have hp := h.obj i p hi'
      refine ⟨hp.older, fun n hn => ?_, hp.coll, hp.field, hp.state, hp.pixels, hp.base, fun hst n hn => ?_⟩
      · obtain ⟨q, e1, e2⟩ := hp.owner n hn
        obtain ⟨q', f1, _, f3⟩ := hs n q e1
        exact ⟨q', f1, by rw [f3]; exact e2⟩
      · exact hg (hp.strong (hst.back hs hb hlt) n hn)
    · have hlen := (List.getElem?_eq_some_iff.1 hi').1
      simp only [List.length_append, List.length_singleton] at hlen
      have hi2 : i = s.objs.length := by omega
      subst hi2
      have hself : (s.objs ++ [o])[s.objs.length]? = some o := by simp
      rw [hself] at hi'
      cases hi'
      refine ⟨ho.older, fun n hn => ?_, ho.coll, ho.field, ho.state, ho.pixels, ho.base, fun hst n hn => ?_⟩
      · obtain ⟨q, e1, e2⟩ := ho.owner n hn
        obtain ⟨q', f1, _, f3⟩ := hs n q e1
        exact ⟨q', f1, by rw [f3]; exact e2⟩
      · obtain ⟨k, hk1, hk2⟩ := ho.strong (by
            cases hst with
            | coll h1 h2 => rw [hself] at h1; cases h1; simp [h2]
            | field h1 h2 => rw [hself] at h1; cases h1; simp [h2]
            | state h1 h2 => rw [hself] at h1; cases h1; simp [h2]
            | pixels h1 h2 => rw [hself] at h1; cases h1; simp [h2]
            | array h1 h2 => rw [hself] at h1; cases h1; simp [h2]
            | buffer h1 h2 => rw [hself] at h1; cases h1; simp [h2]
            | slice h1 h2 => rw [hself] at h1; cases h1; simp [h2])
          (fun a ha => by
            cases hst with
            | coll h1 h2 => rw [hself] at h1; cases h1; rw [ha] at h2; cases h2
            | field h1 h2 => rw [hself] at h1; cases h1; rw [ha] at h2; cases h2
            | state h1 h2 => rw [hself] at h1; cases h1; rw [ha] at h2; cases h2
            | pixels h1 h2 => rw [hself] at h1; cases h1; rw [ha] at h2; cases h2
            | array h1 h2 => rw [hself] at h1; cases h1; rw [ha] at h2; cases h2
            | buffer h1 h2 => rw [hself] at h1; cases h1; rw [ha] at h2; cases h2
            | slice h1 h2 h3 =>
              rw [hself] at h1; cases h1; rw [ha] at h2; cases h2
              exact h3.back hs hb (ho.base a ha)) n hn
        refine Reach.mono (fun x hx => ?_) (hg hk2)
        rw [List.mem_singleton] at hx
        subst hx
        exact .keep (.base (List.mem_singleton.2 rfl)) hself hk1
  · intro i hi
    simp only [Py.give, List.mem_cons, List.length_append, List.length_singleton] at hi ⊢
    rcases hi with rfl | hi
    · omega
    · have := h.names i hi; omega

theorem inv_names {s : Py} (h : Inv s) {l : List Nat} (hl : ∀ i ∈ l, i < s.objs.length) :
    Inv { s with names := l } := ⟨h.obj, hl⟩

theorem inv_wrap {s : Py} (h : Inv s) {o : PyObj} (ho : NewOk s.objs o) : Inv (s.wrap o) := by
  unfold Py.wrap
  split
  · rename_i j hj
    refine inv_names h fun i hi => ?_
    rcases List.mem_cons.1 hi with rfl | hi
    · exact held_lt h (List.mem_of_find?_eq_some hj)
    · exact h.names i hi
  · exact inv_give h ho

theorem Same.addNeed {s : Py} (fi c : Nat) : Same s.objs (s.addNeed fi c).objs := by
  intro i p hi
  unfold Py.addNeed
  cases hfi : s.objs[fi]? with
  | none => exact ⟨p, hi, rfl, rfl⟩
  | some o =>
    by_cases he : fi = i
    · subst he
      rw [hfi] at hi
      cases hi
      have := (List.getElem?_eq_some_iff.1 hfi).1
      refine ⟨_, List.getElem?_set_self this, rfl, rfl⟩
    · exact ⟨p, by simp only; rw [List.getElem?_set_ne he]; exact hi, rfl, rfl⟩

theorem inv_addNeed {s : Py} (h : Inv s) {fi c : Nat} {o p : PyObj} (ho : s.objs[fi]? = some o)
    (hf : o.what = .file) (hp : s.objs[c]? = some p) (hc : p.what = .coll) : Inv (s.addNeed fi c) := by
  have hs := Same.addNeed (s := s) fi c
  have hlen : (s.addNeed fi c).objs.length = s.objs.length := by
    unfold Py.addNeed; rw [ho]; simp
  have hb : ∀ (i : Nat) o a, s.objs[i]? = some o → o.what = .slice a → a < i :=
    fun i o a hi ha => (h.obj i o hi).base a ha
  have hg : ∀ {acc : List Nat} {x : Nat}, Reach s.objs acc x → Reach (s.addNeed fi c).objs acc x := fun hr =>
    hr.grow fun i p hi => by obtain ⟨q, e1, e2, _⟩ := hs i p hi; exact ⟨q, e1, e2⟩
  constructor
  · intro i q hi
    have hlt := (List.getElem?_eq_some_iff.1 hi).1
    rw [hlen] at hlt
    by_cases he : fi = i
    · subst he
      have hq : q = { o with needs := c :: o.needs } := by
        unfold Py.addNeed at hi
        rw [ho] at hi
        simp only at hi
        rw [List.getElem?_set_self hlt] at hi
        exact (Option.some.inj hi).symm
      have hoo := h.obj fi o ho
      subst hq
      refine ⟨hoo.older, fun n hn => ?_, fun hw => ?_, fun c n hw => ?_, fun c n hw => ?_, fun c hw => ?_,
        fun a hw => ?_, fun hst n hn => ?_⟩
      · rcases List.mem_cons.1 hn with rfl | hn
        · obtain ⟨p', f1, _, f3⟩ := hs n p hp
          exact ⟨p', f1, Or.inr ⟨by simp [hf], by rw [f3, hc]⟩⟩
        · obtain ⟨p0, e1, e2⟩ := hoo.owner n hn
          obtain ⟨p', f1, _, f3⟩ := hs n p0 e1
          exact ⟨p', f1, by simp only [f3]; exact e2⟩
      · rw [show o.what = .coll from hw] at hf; cases hf
      · rw [show o.what = .field c n from hw] at hf; cases hf
      · rw [show o.what = .state c n from hw] at hf; cases hf
      · rw [show o.what = .pixels c from hw] at hf; cases hf
      · rw [show o.what = .slice a from hw] at hf; cases hf
      · have := hst.back hs hb hlt
        cases this with
        | coll h1 h2 => rw [ho] at h1; cases h1; rw [hf] at h2; cases h2
        | field h1 h2 => rw [ho] at h1; cases h1; rw [hf] at h2; cases h2
        | state h1 h2 => rw [ho] at h1; cases h1; rw [hf] at h2; cases h2
        | pixels h1 h2 => rw [ho] at h1; cases h1; rw [hf] at h2; cases h2
        | array h1 h2 => rw [ho] at h1; cases h1; rw [hf] at h2; cases h2
        | buffer h1 h2 => rw [ho] at h1; cases h1; rw [hf] at h2; cases h2
        | slice h1 h2 => rw [ho] at h1; cases h1; rw [hf] at h2; cases h2
    · have hi' : s.objs[i]? = some q := by
        unfold Py.addNeed at hi
        rw [ho] at hi
        simp only at hi
        rwa [List.getElem?_set_ne he] at hi
      have hq := h.obj i q hi'
      refine ⟨hq.older, fun n hn => ?_, hq.coll, hq.field, hq.state, hq.pixels, hq.base, fun hst n hn => ?_⟩
      · obtain ⟨p0, e1, e2⟩ := hq.owner n hn
        obtain ⟨p', f1, _, f3⟩ := hs n p0 e1
        exact ⟨p', f1, by rw [f3]; exact e2⟩
      · exact hg (hq.strong (hst.back hs hb hlt) n hn)
  · intro i hi
    rw [hlen]
    unfold Py.addNeed at hi
    rw [ho] at hi
    exact h.names i hi

/-! ### Every action -/

theorem named_ok {s : Py} {i : Nat} {o : PyObj} (h : s.named i = .ok o) : s.objs[i]? = some o ∧ i ∈ s.names := by
  unfold Py.named at h
  cases hi : s.objs[i]? with
  | none => rw [hi] at h; cases h
  | some p =>
    rw [hi] at h
    simp only at h
    split at h
    · cases h; exact ⟨rfl, by assumption⟩
    · cases h

theorem use_ok {s : Py} {i : Nat} {o : PyObj} (h : s.use i = .ok o) :
    s.objs[i]? = some o ∧ i ∈ s.names ∧ ∀ n ∈ s.touch i, n ∈ s.held := by
  unfold Py.use at h
  obtain ⟨p, h1, h2⟩ := Res.bind_eq_ok.1 h
  split at h2
  · cases h2
    exact ⟨(named_ok h1).1, (named_ok h1).2, by assumption⟩
  · cases h2

/-- The ways in which an action changes the state. -/
inductive Change (s : Py) : Py → Prop
  | same : Change s s
  | name {i : Nat} : i ∈ s.held → Change s { s with names := i :: s.names }
  | drop {i : Nat} : i ∈ s.names → Change s { s with names := s.names.erase i }
  | give {o : PyObj} : NewOk s.objs o → (∀ k ∈ o.keeps, k ∈ s.names) → Change s (s.give o)
  | wrap {o : PyObj} : NewOk s.objs o → (∀ k ∈ o.keeps, k ∈ s.names) → Change s (s.wrap o)
  | need {fi c : Nat} {o p : PyObj} : s.objs[fi]? = some o → o.what = .file → s.objs[c]? = some p →
      p.what = .coll → Change s (s.addNeed fi c)

theorem inv_change {s s' : Py} (h : Inv s) (hc : Change s s') : Inv s' := by
  cases hc with
  | same => exact h
  | name hi =>
    refine inv_names h fun j hj => ?_
    rcases List.mem_cons.1 hj with rfl | hj
    · exact held_lt h hi
    · exact h.names j hj
  | drop _ => exact inv_names h fun j hj => h.names j (List.mem_of_mem_erase hj)
  | give ho _ => exact inv_give h ho
  | wrap ho _ => exact inv_wrap h ho
  | need h1 h2 h3 h4 => exact inv_addNeed h h1 h2 h3 h4

theorem kept_self (objs : List PyObj) (i : Nat) : Kept objs i i := .base (List.mem_singleton.2 rfl)

theorem step_change {s s' : Py} (h : Inv s) {op : Op} (hs : s.step op = .ok s') : Change s s' := by
  have hlt : ∀ {i : Nat} {o : PyObj}, s.objs[i]? = some o → i < s.objs.length := fun h1 =>
    (List.getElem?_eq_some_iff.1 h1).1
  cases op with
  | collection =>
    cases hs
    refine .give ⟨?_, ?_, ?_, ?_, ?_, ?_, ?_, ?_⟩ ?_ <;> simp
  | file =>
    cases hs
    refine .give ⟨?_, ?_, ?_, ?_, ?_, ?_, ?_, ?_⟩ ?_ <;> simp
  | field c name | stateField c name | pixels c =>
    obtain ⟨o, h1, h2⟩ := Res.bind_eq_ok.1 hs
    obtain ⟨e1, e2, e3⟩ := use_ok h1
    split at h2 <;> cases h2
    rename_i hw
    refine .wrap ⟨?_, ?_, ?_, ?_, ?_, ?_, ?_, ?_⟩ ?_
    · simp [hlt e1]
    · intro n hn; simp only [List.mem_singleton] at hn; subst hn
      exact ⟨o, e1, Or.inr ⟨by simp, hw⟩⟩
    all_goals first
      | (intro _ _ n hn; simp only [List.mem_singleton] at hn; subst hn
         exact ⟨n, by simp, kept_self _ _⟩)
      | (simp [e2]; done)
      | (intro a b he; cases he; rfl)
      | (intro a he; cases he; rfl)
      | (intro a b he; cases he)
      | (intro a he; cases he)
      | (intro he; cases he)
  | current st name =>
    obtain ⟨o, h1, h2⟩ := Res.bind_eq_ok.1 hs
    obtain ⟨e1, e2, e3⟩ := use_ok h1
    split at h2 <;> cases h2
    rename_i c pre hw
    have hn := (h.obj st o e1).state c pre hw
    have hown := (h.obj st o e1).owner c (by rw [hn]; simp)
    refine .wrap ⟨?_, ?_, ?_, ?_, ?_, ?_, ?_, ?_⟩ ?_
    · simp [hlt e1]
    · intro n hm; simp only [List.mem_singleton] at hm; subst hm
      obtain ⟨p, f1, f2⟩ := hown
      rw [hw] at f2
      exact ⟨p, f1, Or.inr ⟨by simp, by simpa using f2⟩⟩
    · intro he; cases he
    · intro a b he; cases he; rfl
    · intro a b he; cases he
    · intro a he; cases he
    · intro a he; cases he
    · intro _ _ n hm; simp only [List.mem_singleton] at hm; subst hm
      exact ⟨st, by simp, (h.obj st o e1).strong (.state e1 hw) n (by rw [hn]; simp)⟩
    · simp [e2]
  | clone f name =>
    obtain ⟨o, h1, h2⟩ := Res.bind_eq_ok.1 hs
    obtain ⟨e1, e2, e3⟩ := use_ok h1
    split at h2 <;> cases h2
    rename_i c pre hw
    have hn := (h.obj f o e1).field c pre hw
    have hown := (h.obj f o e1).owner c (by rw [hn]; simp)
    refine .wrap ⟨?_, ?_, ?_, ?_, ?_, ?_, ?_, ?_⟩ ?_
    · simp [hlt e1]
    · intro n hm; simp only [List.mem_singleton] at hm; subst hm
      obtain ⟨p, f1, f2⟩ := hown
      rw [hw] at f2
      exact ⟨p, f1, Or.inr ⟨by simp, by simpa using f2⟩⟩
    · intro he; cases he
    · intro a b he; cases he; rfl
    · intro a b he; cases he
    · intro a he; cases he
    · intro a he; cases he
    · intro _ _ n hm; simp only [List.mem_singleton] at hm; subst hm
      exact ⟨f, by simp, (h.obj f o e1).strong (.field e1 hw) n (by rw [hn]; simp)⟩
    · simp [e2]
  | collectionOf f =>
    obtain ⟨o, h1, h2⟩ := Res.bind_eq_ok.1 hs
    obtain ⟨e1, e2, e3⟩ := use_ok h1
    split at h2 <;> cases h2
    rename_i c pre hw
    have hn := (h.obj f o e1).field c pre hw
    refine .name (e3 c ?_)
    unfold Py.touch
    rw [e1]
    simp [hw, hn]
  | array f | buffer f =>
    obtain ⟨o, h1, h2⟩ := Res.bind_eq_ok.1 hs
    obtain ⟨e1, e2, e3⟩ := use_ok h1
    split at h2 <;> cases h2
    rename_i c pre hw
    have hn := (h.obj f o e1).field c pre hw
    have hown := (h.obj f o e1).owner c (by rw [hn]; simp)
    refine .give ⟨?_, ?_, ?_, ?_, ?_, ?_, ?_, ?_⟩ ?_
    · simp [hlt e1]
    · intro n hm; simp only [List.mem_singleton] at hm; subst hm
      obtain ⟨p, f1, f2⟩ := hown
      rw [hw] at f2
      exact ⟨p, f1, Or.inr ⟨by simp, by simpa using f2⟩⟩
    · intro he; cases he
    · intro a b he; cases he
    · intro a b he; cases he
    · intro a he; cases he
    · intro a he; cases he
    · intro _ _ n hm; simp only [List.mem_singleton] at hm; subst hm
      exact ⟨f, by simp, (h.obj f o e1).strong (.field e1 hw) n (by rw [hn]; simp)⟩
    · simp [e2]
  | window f | map f =>
    obtain ⟨o, h1, h2⟩ := Res.bind_eq_ok.1 hs
    obtain ⟨e1, e2, e3⟩ := use_ok h1
    split at h2 <;> cases h2
    rename_i c pre hw
    have hn := (h.obj f o e1).field c pre hw
    have hown := (h.obj f o e1).owner c (by rw [hn]; simp)
    refine .give ⟨?_, ?_, ?_, ?_, ?_, ?_, ?_, ?_⟩ ?_
    · simp
    · intro n hm; simp only [List.mem_singleton] at hm; subst hm
      obtain ⟨p, f1, f2⟩ := hown
      rw [hw] at f2
      exact ⟨p, f1, Or.inr ⟨by simp, by simpa using f2⟩⟩
    all_goals simp
  | enumerate f =>
    obtain ⟨o, h1, h2⟩ := Res.bind_eq_ok.1 hs
    obtain ⟨e1, e2, e3⟩ := use_ok h1
    split at h2 <;> cases h2
    rename_i c hw
    have hn := (h.obj f o e1).pixels c hw
    have hown := (h.obj f o e1).owner c (by rw [hn]; simp)
    refine .give ⟨?_, ?_, ?_, ?_, ?_, ?_, ?_, ?_⟩ ?_
    · simp
    · intro n hm; simp only [List.mem_singleton] at hm; subst hm
      obtain ⟨p, f1, f2⟩ := hown
      rw [hw] at f2
      exact ⟨p, f1, Or.inr ⟨by simp, by simpa using f2⟩⟩
    all_goals simp
  | iterPixels f =>
    obtain ⟨o, h1, h2⟩ := Res.bind_eq_ok.1 hs
    obtain ⟨e1, e2, e3⟩ := use_ok h1
    have hown := (h.obj f o e1).owner
    split at h2 <;> cases h2 <;> rename_i hw
    all_goals
      refine .give ⟨?_, ?_, ?_, ?_, ?_, ?_, ?_, ?_⟩ ?_
      · simp
      · intro n hm
        obtain ⟨p, f1, f2⟩ := hown n hm
        rw [hw] at f2
        exact ⟨p, f1, Or.inr ⟨by simp, by simpa using f2⟩⟩
      all_goals simp
  | slice a =>
    obtain ⟨o, h1, h2⟩ := Res.bind_eq_ok.1 hs
    obtain ⟨e1, e2, e3⟩ := use_ok h1
    have hown := (h.obj a o e1).owner
    split at h2 <;> cases h2 <;> rename_i hw
    all_goals
      refine .give ⟨?_, ?_, ?_, ?_, ?_, ?_, ?_, ?_⟩ ?_
      · simp [hlt e1]
      · intro n hm
        obtain ⟨p, f1, f2⟩ := hown n hm
        rw [hw] at f2
        exact ⟨p, f1, Or.inr ⟨by simp, by simpa using f2⟩⟩
      · intro he; cases he
      · intro a b he; cases he
      · intro a b he; cases he
      · intro a he; cases he
      · intro b he; cases he; exact hlt e1
      · intro _ hst n hm
        exact ⟨a, by simp, (h.obj a o e1).strong (hst a rfl) n hm⟩
      · simp [e2]
  | register fi c =>
    obtain ⟨o, h1, h2⟩ := Res.bind_eq_ok.1 hs
    obtain ⟨p, h3, h4⟩ := Res.bind_eq_ok.1 h2
    split at h4 <;> cases h4
    rename_i hw
    exact .need (named_ok h1).1 hw.1 (use_ok h3).1 hw.2
  | frame fi | iterFile fi =>
    obtain ⟨o, h1, h2⟩ := Res.bind_eq_ok.1 hs
    obtain ⟨e1, e2⟩ := named_ok h1
    split at h2 <;> cases h2
    rename_i hw
    refine .give ⟨?_, ?_, ?_, ?_, ?_, ?_, ?_, ?_⟩ ?_
    · simp
    · intro n hm; simp only [List.mem_singleton] at hm; subst hm
      exact ⟨o, e1, Or.inl ⟨by simp, hw⟩⟩
    all_goals simp
  | nextFrame it =>
    obtain ⟨o, h1, h2⟩ := Res.bind_eq_ok.1 hs
    obtain ⟨e1, e2, e3⟩ := use_ok h1
    split at h2 <;> cases h2
    rename_i hw
    have hown := (h.obj it o e1).owner
    refine .give ⟨?_, ?_, ?_, ?_, ?_, ?_, ?_, ?_⟩ ?_
    · simp
    · intro n hm
      obtain ⟨p, f1, f2⟩ := hown n hm
      rw [hw] at f2
      exact ⟨p, f1, Or.inl ⟨by simp, by simpa using f2⟩⟩
    all_goals simp
  | use i =>
    obtain ⟨o, h1, h2⟩ := Res.bind_eq_ok.1 hs
    cases h2
    exact .same
  | hold i =>
    obtain ⟨o, h1, h2⟩ := Res.bind_eq_ok.1 hs
    cases h2
    exact .name ((mem_held h i).2 (.base (named_ok h1).2))
  | drop i =>
    obtain ⟨o, h1, h2⟩ := Res.bind_eq_ok.1 hs
    cases h2
    exact .drop (named_ok h1).2

theorem inv_run {ops : List Op} : ∀ {s s' : Py}, Inv s → s.run ops = some s' → Inv s' := by
  induction ops with
  | nil => intro s s' h hr; cases hr; exact h
  | cons op ops ih =>
    intro s s' h hr
    unfold Py.run at hr
    cases ho : s.step op with
    | ok s1 => rw [ho] at hr; exact ih (inv_change h (step_change h ho)) hr
    | throw e => rw [ho] at hr; exact ih h hr
    | ub => rw [ho] at hr; cases hr

end Verif.PyLife
