import Verif.Spec.FileRegister
/-
What a call of `register_field_collection` does to the list of names, whether it succeeds or not.
-/
namespace Verif.NetCDF
open Verif Verif.Ccoord

/-- Variables are only added, none of them for a complex field, and the names that `get_names` lists remain distinct. -/
structure Grows (s s' : Reg) : Prop where
  vars : ∃ new, s'.vars.map Prod.fst = s.vars.map Prod.fst ++ new
  nodup : s.names.Nodup → s'.names.Nodup
  real : (∀ v ∈ s.vars.map Prod.fst, v.field.ty ≠ .complex) → ∀ v ∈ s'.vars.map Prod.fst, v.field.ty ≠ .complex

theorem names_eq (s : Reg) : s.names = ((s.vars.map Prod.fst).filter fun v => !v.hidden).map Var.name := by
  rw [List.filter_map, List.map_map]; rfl

theorem Grows.names {s s' : Reg} (h : Grows s s') : ∃ new, s'.names = s.names ++ new := by
  obtain ⟨new, hn⟩ := h.vars
  exact ⟨(new.filter fun v => !v.hidden).map Var.name, by
    rw [names_eq, hn, List.filter_append, List.map_append, ← names_eq]⟩

theorem Grows.of_vars {s s' : Reg} (h : s'.vars.map Prod.fst = s.vars.map Prod.fst) : Grows s s' :=
  ⟨⟨[], by rw [h, List.append_nil]⟩, by rw [names_eq s', h, ← names_eq]; exact id, by rw [h]; exact id⟩

theorem Grows.refl (s : Reg) : Grows s s := .of_vars rfl

theorem Grows.trans {s s' s'' : Reg} (h : Grows s s') (h' : Grows s' s'') : Grows s s'' := by
  obtain ⟨n, hn⟩ := h.vars
  obtain ⟨n', hn'⟩ := h'.vars
  exact ⟨⟨n ++ n', by rw [hn', hn, List.append_assoc]⟩, fun hs => h'.nodup (h.nodup hs),
    fun hs => h'.real (h.real hs)⟩

theorem Grows.mem {s s' : Reg} (h : Grows s s') {n : String} (hn : n ∈ s.names) : n ∈ s'.names := by
  obtain ⟨new, e⟩ := h.names
  rw [e]; exact List.mem_append_left _ hn

theorem Grows.add {s s' : Reg} {v : Var} (h : s'.vars.map Prod.fst = s.vars.map Prod.fst ++ [v])
    (hv : v.name ∉ s.names) {t : NetCDFAtt.NcType} (ht : ncTypeOf v.field.ty = .ok t) : Grows s s' := by
  refine ⟨⟨[v], h⟩, fun hn => ?_, fun hr w hw => ?_⟩
  swap
  · rw [h, List.mem_append, List.mem_singleton] at hw
    rcases hw with hw | rfl
    · exact hr w hw
    · intro e
      rw [e] at ht
      cases ht
  rw [names_eq, h, List.filter_append, List.map_append, ← names_eq]
  rw [List.nodup_append]
  refine ⟨hn, ?_, ?_⟩
  · by_cases hh : v.hidden <;> simp [hh]
  · rintro n hm _ hm' rfl
    by_cases hh : v.hidden
    · simp [hh] at hm'
    · simp only [hh, List.filter_cons, List.filter_nil, Bool.not_false, if_true, List.map_cons, List.map_nil,
        List.mem_singleton] at hm'
      exact hv (hm' ▸ hm)

theorem addGlobal_grows (s : Reg) (vname : String) (f : IoField) (hidden : Bool) (hist : Option Nat)
    (subs : List String) (h : vname ∉ s.names) : Grows s (s.addGlobal vname f hidden hist subs).2 := by
  unfold Reg.addGlobal
  dsimp only
  cases (gridLoop gridNames s.grid f.nbDomain).1 with
  | ok _ =>
    cases ht : ncTypeOf f.ty with
    | ok _ => exact Grows.add (v := ⟨vname, f, hist, _, hidden, ""⟩) (by simp; rfl) h ht
    | throw e => exact .of_vars rfl
    | ub => exact .of_vars rfl
  | throw e => exact .of_vars rfl
  | ub => exact .of_vars rfl

theorem addLocal_grows (s : Reg) (vname : String) (f : IoField) (hist : Option Nat) (total : Int) (lname : String)
    (marks : List Int) (subs : List String) (h : vname ∉ s.names) :
    Grows s (s.addLocal vname f hist total lname marks subs).2 := by
  unfold Reg.addLocal
  dsimp only
  cases ht : ncTypeOf f.ty with
  | ok _ => exact Grows.add (v := ⟨vname, f, hist, localDims vname f hist total, false, lname⟩) (by simp) h ht
  | throw e => exact .of_vars rfl
  | ub => exact .of_vars rfl

theorem andThen_grows {s : Reg} {r : Res Unit × Reg} {k : Reg → Res Unit × Reg} (h : Grows s r.2)
    (hk : Grows r.2 (k r.2).2) : Grows s (andThen r k).2 := by
  unfold andThen
  cases r.1 with
  | ok _ => exact h.trans hk
  | throw e => exact h
  | ub => exact h

theorem forEach_grows {β : Type} {f : Reg → β → Res Unit × Reg} {l : List β}
    (h : ∀ s, ∀ b ∈ l, Grows s (f s b).2) (s : Reg) : Grows s (forEach f l s).2 := by
  induction l generalizing s with
  | nil => exact .refl s
  | cons b l ih =>
    exact andThen_grows (h s b (by simp)) (ih (fun s b hb => h s b (List.mem_cons_of_mem _ hb)) _)

theorem stateRound_grows {c : IoColl} {add : Reg → StateGroup → Res Unit × Reg}
    (h : ∀ s g, g.pre ∉ s.names → Grows s (add s g).2) (s : Reg) (p : String) :
    Grows s (Reg.stateRound c add s p).2 := by
  unfold Reg.stateRound
  by_cases hp : p ∈ s.names
  · rw [if_pos hp]; exact .refl s
  · rw [if_neg hp]
    unfold IoColl.getState
    cases hf : c.states.find? (fun g => g.pre = p) with
    | none => exact .refl s
    | some g =>
      have : g.pre = p := by simpa using List.find?_some hf
      exact h s g (this ▸ hp)

theorem fieldRound_grows {c : IoColl} {add : Reg → IoField → Res Unit × Reg}
    (h : ∀ s (f : IoField), f.name ∉ s.names → Grows s (add s f).2) (s : Reg) (p : String) :
    Grows s (Reg.fieldRound c add s p).2 := by
  unfold Reg.fieldRound
  by_cases hp : p ∈ s.names
  · rw [if_pos hp]; exact .refl s
  · rw [if_neg hp]
    by_cases hq : p ∈ s.stateNames
    · rw [if_pos hq]; exact .refl s
    · rw [if_neg hq]
      unfold IoColl.getField
      cases hf : c.fields.find? (fun f => f.name = p) with
      | none => exact .refl s
      | some f =>
        have : f.name = p := by simpa using List.find?_some hf
        exact h s f (this ▸ hp)

theorem registerGlobal_grows (s : Reg) (c : IoColl) (dom : List Int × List Int × List Int) (fs ps : List String) :
    Grows s (s.registerGlobal c dom fs ps).2 := by
  unfold Reg.registerGlobal
  refine andThen_grows (forEach_grows (fun s b _ => stateRound_grows
    (fun s g hg => addGlobal_grows s _ _ _ _ _ hg) s b) s) ?_
  refine andThen_grows (forEach_grows (fun s b _ => fieldRound_grows
    (fun s g hg => addGlobal_grows s _ _ _ _ _ hg) s b) _) ?_
  refine .of_vars ?_
  dsimp only
  split <;> rfl

theorem registerLocal_grows (s : Reg) (c : IoColl) (ids : List Int) (total off : Int) (fs ps : List String) :
    Grows s (s.registerLocal c ids total off fs ps).2 := by
  unfold Reg.registerLocal
  cases s.pixels with
  | none => exact .refl s
  | some dom =>
    dsimp only
    by_cases hc : c.name ∈ s.gfc.map Prod.fst
    · rw [if_pos hc]; exact .refl s
    · rw [if_neg hc]
      cases (if s.mode = .write ∨ s.mode = .overwrite then markPixels (getSize dom.2.1).toNat off ids
        else .ok (List.replicate (getSize dom.2.1).toNat (-1 : Int))) with
      | throw e => exact .of_vars rfl
      | ub => exact .of_vars rfl
      | ok m =>
        dsimp only
        refine andThen_grows (Grows.trans (s' := { s with pixels := some dom, gfc := s.gfc ++ [(c.name, m)] }) (.of_vars rfl)
          (registerGlobal_grows _ _ _ _ _)) ?_
        refine andThen_grows (forEach_grows (fun s b _ => stateRound_grows
          (fun s g hg => addLocal_grows s _ _ _ _ _ _ _ hg) s b) _) ?_
        exact forEach_grows (fun s b _ => fieldRound_grows
          (fun s g hg => addLocal_grows s _ _ _ _ _ _ _ hg) s b) _

theorem defineVars_fst (vs : List (Var × Bool)) (file : List String) :
    (defineVars vs file).2.1.map Prod.fst = vs.map Prod.fst := by
  induction vs generalizing file with
  | nil => rfl
  | cons v vs ih =>
    obtain ⟨v, b⟩ := v
    cases b with
    | true => simp [defineVars, ih]
    | false =>
      rw [defineVars]
      split
      · rfl
      · simp [ih]

theorem inquireVars_fst (vs : List (Var × Bool)) (file : List String) :
    (inquireVars file vs).2.map Prod.fst = vs.map Prod.fst := by
  induction vs with
  | nil => rfl
  | cons v vs ih =>
    obtain ⟨v, b⟩ := v
    cases b with
    | true => simp [inquireVars, ih]
    | false =>
      rw [inquireVars]
      split
      · simp [ih]
      · rfl

theorem define_grows (s : Reg) : Grows s s.define.2 :=
  andThen_grows (.of_vars rfl) (.of_vars (defineVars_fst _ _))

theorem inquire_grows (s : Reg) : Grows s s.inquire.2 := by
  unfold Reg.inquire
  split
  · exact .refl s
  · refine andThen_grows (.of_vars rfl) ?_
    dsimp only
    split
    · exact .refl _
    · exact .of_vars (inquireVars_fst _ _)

theorem finish_grows (s : Reg) :
    Grows s (if s.mode = .write ∨ s.mode = .overwrite then s.define else s.inquire).2 := by
  split
  · exact define_grows _
  · exact inquire_grows _

theorem register_grows (s : Reg) (c : IoColl) (fs ps : List String) : Grows s (s.register c fs ps).2 := by
  unfold Reg.register
  split
  · exact .refl s
  · dsimp only
    refine andThen_grows ?_ (finish_grows _)
    cases c.domain with
    | global nb sh loc => exact registerGlobal_grows s c _ _ _
    | isLocal ids total off => exact registerLocal_grows s c _ _ _ _ _

theorem step_grows (s : Reg) (op : RegOp) : Grows s (s.step op).2 := by
  cases op with
  | register c fs ps => exact register_grows s c fs ps
  | appendFrame => exact .of_vars rfl

theorem run_grows (s : Reg) (ops : List RegOp) : Grows s (s.run ops).2 := by
  induction ops generalizing s with
  | nil => exact .refl s
  | cons op ops ih => exact (step_grows s op).trans (ih _)

/-! ## Names that are in use -/

theorem andThen_not_ok {r : Res Unit × Reg} {k : Reg → Res Unit × Reg}
    (h : r.1 = .ok () → (k r.2).1 ≠ .ok ()) : (andThen r k).1 ≠ .ok () := by
  unfold andThen
  cases hr : r.1 with
  | ok _ => exact h hr
  | throw e => simp
  | ub => simp

theorem forEach_taken {β : Type} {f : Reg → β → Res Unit × Reg} {n : String} {x : β}
    (hg : ∀ s b, Grows s (f s b).2) (ht : ∀ s, n ∈ s.names → (f s x).1 ≠ .ok ()) {l : List β} (hx : x ∈ l) {s : Reg}
    (hn : n ∈ s.names) : (forEach f l s).1 ≠ .ok () := by
  induction l generalizing s with
  | nil => simp at hx
  | cons b l ih =>
    refine andThen_not_ok fun hok => ?_
    rcases List.mem_cons.1 hx with rfl | hx
    · exact absurd hok (ht s hn)
    · exact ih hx ((hg s b).mem hn)

theorem stateRound_taken {c : IoColl} {add : Reg → StateGroup → Res Unit × Reg} {s : Reg} {p : String}
    (h : p ∈ s.names) : (Reg.stateRound c add s p).1 ≠ .ok () := by
  rw [Reg.stateRound, if_pos h]; simp

theorem fieldRound_taken {c : IoColl} {add : Reg → IoField → Res Unit × Reg} {s : Reg} {p : String}
    (h : p ∈ s.names) : (Reg.fieldRound c add s p).1 ≠ .ok () := by
  rw [Reg.fieldRound, if_pos h]; simp

theorem registerGlobal_taken {s : Reg} {c : IoColl} {dom : List Int × List Int × List Int} {fs ps : List String}
    {n : String} (hn : n ∈ s.names) (h : n ∈ ps ∨ n ∈ fs) : (s.registerGlobal c dom fs ps).1 ≠ .ok () := by
  unfold Reg.registerGlobal
  have hg : ∀ s b, Grows s (Reg.stateRound c (fun s g => s.addGlobal g.pre g.field false (some g.nbMem) g.subNames)
      s b).2 := stateRound_grows (fun s g hg => addGlobal_grows s _ _ _ _ _ hg)
  refine andThen_not_ok fun hok => andThen_not_ok fun hok' => ?_
  rcases h with h | h
  · exact absurd hok (forEach_taken hg (fun s hs => stateRound_taken hs) h hn)
  · exact absurd hok' (forEach_taken (fieldRound_grows (fun s g hg => addGlobal_grows s _ _ _ _ _ hg))
      (fun s hs => fieldRound_taken hs) h ((forEach_grows (fun s b _ => hg s b) s).mem hn))

theorem registerLocal_taken {s : Reg} {c : IoColl} {ids : List Int} {total off : Int} {fs ps : List String}
    {n : String} (hn : n ∈ s.names) (h : n ∈ ps ∨ n ∈ fs) : (s.registerLocal c ids total off fs ps).1 ≠ .ok () := by
  unfold Reg.registerLocal
  cases s.pixels with
  | none => simp
  | some dom =>
    dsimp only
    by_cases hc : c.name ∈ s.gfc.map Prod.fst
    · rw [if_pos hc]; simp
    · rw [if_neg hc]
      cases (if s.mode = .write ∨ s.mode = .overwrite then markPixels (getSize dom.2.1).toNat off ids
        else .ok (List.replicate (getSize dom.2.1).toNat (-1 : Int))) with
      | throw e => simp
      | ub => simp
      | ok m =>
        dsimp only
        have h0 : Grows s { s with pixels := some dom, gfc := s.gfc ++ [(c.name, m)] } := .of_vars rfl
        have h1 := registerGlobal_grows { s with pixels := some dom, gfc := s.gfc ++ [(c.name, m)] }
          ⟨"", true, [pixelField c.name dom], [], .global dom.1 dom.2.1 dom.2.2⟩ dom [c.name] []
        have h2 := h1.mem (h0.mem hn)
        have hg : ∀ s b, Grows s (Reg.stateRound c (fun s g =>
            s.addLocal g.pre g.field (some g.nbMem) total c.name m g.subNames) s b).2 :=
          stateRound_grows (fun s g hg => addLocal_grows s _ _ _ _ _ _ _ hg)
        refine andThen_not_ok fun _ => andThen_not_ok fun hok => ?_
        rcases h with h | h
        · exact absurd hok (forEach_taken hg (fun s hs => stateRound_taken hs) h h2)
        · exact forEach_taken (fieldRound_grows (fun s g hg => addLocal_grows s _ _ _ _ _ _ _ hg))
            (fun s hs => fieldRound_taken hs) h ((forEach_grows (fun s b _ => hg s b) _).mem h2)

theorem register_taken {s : Reg} {c : IoColl} {fs ps : List String} {n : String} (hn : n ∈ s.names)
    (h : n ∈ c.asked fs ps) : (s.register c fs ps).1 ≠ .ok () := by
  unfold Reg.register
  split
  · simp
  · dsimp only
    have h' : n ∈ resolve "REGISTER_ALL_STATE_FIELDS" (c.states.map StateGroup.pre) ps ∨
        n ∈ resolve "REGISTER_ALL_FIELDS" (c.fields.map IoField.name) fs := List.mem_append.1 h
    refine andThen_not_ok fun hok => absurd hok ?_
    cases c.domain with
    | global nb sh loc => exact registerGlobal_taken hn h'
    | isLocal ids total off => exact registerLocal_taken hn h'

/-! ## Complex fields -/

/-- The names of fields that are skipped are among `l`. -/
def SkipsOnly (l : List String) (s : Reg) : Prop := ∀ n ∈ s.stateNames, n ∈ l

theorem forEach_refuses {β : Type} {f : Reg → β → Res Unit × Reg} {P : Reg → Prop} {x : β} {l : List β}
    (hp : ∀ s, ∀ b ∈ l, P s → P (f s b).2) (hr : ∀ s, P s → (f s x).1 ≠ .ok ()) (hx : x ∈ l) {s : Reg} (hs : P s) :
    (forEach f l s).1 ≠ .ok () := by
  induction l generalizing s with
  | nil => simp at hx
  | cons b l ih =>
    refine andThen_not_ok fun hok => ?_
    rcases List.mem_cons.1 hx with rfl | hx
    · exact absurd hok (hr s hs)
    · exact ih (fun s b hb => hp s b (List.mem_cons_of_mem _ hb)) hx (hp s b (by simp) hs)

theorem forEach_inv {β : Type} {f : Reg → β → Res Unit × Reg} {P : Reg → Prop} {l : List β}
    (hp : ∀ s, ∀ b ∈ l, P s → P (f s b).2) {s : Reg} (hs : P s) : P (forEach f l s).2 := by
  induction l generalizing s with
  | nil => exact hs
  | cons b l ih =>
    have h1 := hp s b (by simp) hs
    unfold forEach andThen
    cases (f s b).1 with
    | ok _ => exact ih (fun s b hb => hp s b (List.mem_cons_of_mem _ hb)) h1
    | throw e => exact h1
    | ub => exact h1

theorem addGlobal_complex {s : Reg} {vname : String} {f : IoField} {hidden : Bool} {hist : Option Nat} {subs : List String}
    (h : f.ty = .complex) : (s.addGlobal vname f hidden hist subs).1 ≠ .ok () := by
  unfold Reg.addGlobal
  dsimp only
  cases (gridLoop gridNames s.grid f.nbDomain).1 with
  | ok _ => rw [h]; simp [ncTypeOf]
  | throw e => simp
  | ub => simp

theorem addLocal_complex {s : Reg} {vname : String} {f : IoField} {hist : Option Nat} {total : Int} {lname : String}
    {marks : List Int} {subs : List String} (h : f.ty = .complex) :
    (s.addLocal vname f hist total lname marks subs).1 ≠ .ok () := by
  unfold Reg.addLocal
  dsimp only
  rw [h]
  simp [ncTypeOf]

theorem addGlobal_skips {l : List String} {s : Reg} {vname : String} {f : IoField} {hidden : Bool} {hist : Option Nat}
    {subs : List String} (hs : SkipsOnly l s) (h : ∀ n ∈ subs, n ∈ l) :
    SkipsOnly l (s.addGlobal vname f hidden hist subs).2 := by
  unfold Reg.addGlobal
  dsimp only
  cases (gridLoop gridNames s.grid f.nbDomain).1 with
  | ok _ =>
    cases ncTypeOf f.ty with
    | ok _ => exact fun n hn => (List.mem_append.1 hn).elim (hs n) (h n)
    | throw e => exact hs
    | ub => exact hs
  | throw e => exact hs
  | ub => exact hs

theorem addLocal_skips {l : List String} {s : Reg} {vname : String} {f : IoField} {hist : Option Nat} {total : Int}
    {lname : String} {marks : List Int} {subs : List String} (hs : SkipsOnly l s) (h : ∀ n ∈ subs, n ∈ l) :
    SkipsOnly l (s.addLocal vname f hist total lname marks subs).2 := by
  unfold Reg.addLocal
  dsimp only
  cases ncTypeOf f.ty with
  | ok _ => exact fun n hn => (List.mem_append.1 hn).elim (hs n) (h n)
  | throw e => exact hs
  | ub => exact hs

theorem stateRound_skips {l : List String} {c : IoColl} {add : Reg → StateGroup → Res Unit × Reg}
    (h : ∀ s, ∀ g ∈ c.states, SkipsOnly l s → SkipsOnly l (add s g).2) {s : Reg} (p : String) (hs : SkipsOnly l s) :
    SkipsOnly l (Reg.stateRound c add s p).2 := by
  unfold Reg.stateRound
  split
  · exact hs
  · unfold IoColl.getState
    cases hf : c.states.find? (fun g => g.pre = p) with
    | none => exact hs
    | some g => exact h s g (List.mem_of_find?_eq_some hf) hs

theorem fieldRound_skips {l : List String} {c : IoColl} {add : Reg → IoField → Res Unit × Reg}
    (h : ∀ s f, SkipsOnly l s → SkipsOnly l (add s f).2) {s : Reg} (p : String) (hs : SkipsOnly l s) :
    SkipsOnly l (Reg.fieldRound c add s p).2 := by
  unfold Reg.fieldRound
  split
  · exact hs
  · split
    · exact hs
    · unfold IoColl.getField
      cases hf : c.fields.find? (fun f => f.name = p) with
      | none => exact hs
      | some f => exact h s f hs

theorem stateRound_complex {c : IoColl} {add : Reg → StateGroup → Res Unit × Reg} {s : Reg} {p : String} {g : StateGroup}
    (hg : c.getState p = .ok g) (h : (add s g).1 ≠ .ok ()) : (Reg.stateRound c add s p).1 ≠ .ok () := by
  unfold Reg.stateRound
  split
  · simp
  · rw [hg]; exact h

theorem fieldRound_complex {l : List String} {c : IoColl} {add : Reg → IoField → Res Unit × Reg} {s : Reg} {p : String}
    {f : IoField} (hg : c.getField p = .ok f) (hs : SkipsOnly l s) (hl : p ∉ l) (h : (add s f).1 ≠ .ok ()) :
    (Reg.fieldRound c add s p).1 ≠ .ok () := by
  unfold Reg.fieldRound
  split
  · simp
  · rw [if_neg fun hm => hl (hs p hm), hg]; exact h

/-- A complex field among those that are asked for: a state field, or a field whose name is not skipped. -/
def AskedComplex (c : IoColl) (l fs ps : List String) : Prop :=
  (∃ p ∈ ps, ∃ g, c.getState p = .ok g ∧ g.field.ty = .complex) ∨
    ∃ n ∈ fs, n ∉ l ∧ ∃ f, c.getField n = .ok f ∧ f.ty = .complex

theorem loops_refuse {c : IoColl} {l fs ps : List String} {addS : Reg → StateGroup → Res Unit × Reg}
    {addF : Reg → IoField → Res Unit × Reg} {k : Reg → Res Unit × Reg} (h : AskedComplex c l fs ps)
    (hS : ∀ s, ∀ g ∈ c.states, SkipsOnly l s → SkipsOnly l (addS s g).2)
    (hF : ∀ s f, SkipsOnly l s → SkipsOnly l (addF s f).2)
    (cS : ∀ s (g : StateGroup), g.field.ty = .complex → (addS s g).1 ≠ .ok ())
    (cF : ∀ s (f : IoField), f.ty = .complex → (addF s f).1 ≠ .ok ()) {s : Reg} (hs : SkipsOnly l s) :
    (andThen (forEach (Reg.stateRound c addS) ps s) fun s1 => andThen (forEach (Reg.fieldRound c addF) fs s1) k).1
      ≠ .ok () := by
  refine andThen_not_ok fun hok => andThen_not_ok fun hok' => ?_
  rcases h with ⟨p, hp, g, hg, hc⟩ | ⟨n, hn, hl, f, hf, hc⟩
  · exact absurd hok (forEach_refuses (P := fun _ => True) (fun _ _ _ _ => trivial)
      (fun s _ => stateRound_complex hg (cS s g hc)) hp trivial)
  · exact absurd hok' (forEach_refuses (P := SkipsOnly l) (fun s b _ hs => fieldRound_skips hF b hs)
      (fun s hs => fieldRound_complex hf hs hl (cF s f hc)) hn
      (forEach_inv (fun s b _ hs => stateRound_skips hS b hs) hs))

theorem andThen_right (r : Res Unit × Reg) : andThen r (fun s => (.ok (), s)) = r := by
  unfold andThen
  rcases r with ⟨_ | _ | _, s⟩ <;> rfl

theorem andThen_inv {P : Reg → Prop} {r : Res Unit × Reg} {k : Reg → Res Unit × Reg} (h : P r.2) (hk : P (k r.2).2) :
    P (andThen r k).2 := by
  unfold andThen
  cases r.1 with
  | ok _ => exact hk
  | throw e => exact h
  | ub => exact h

theorem registerGlobal_skips {l : List String} {s : Reg} {c : IoColl} {dom : List Int × List Int × List Int}
    {fs ps : List String} (h : ∀ g ∈ c.states, ∀ n ∈ g.subNames, n ∈ l) (hs : SkipsOnly l s) :
    SkipsOnly l (s.registerGlobal c dom fs ps).2 := by
  unfold Reg.registerGlobal
  have h1 : SkipsOnly l (forEach (Reg.stateRound c fun s g => s.addGlobal g.pre g.field false (some g.nbMem) g.subNames)
      ps s).2 := forEach_inv (fun s b _ hs => stateRound_skips (fun s g hg hs => addGlobal_skips hs (h g hg)) b hs) hs
  refine andThen_inv (P := SkipsOnly l) h1 ?_
  have h2 := forEach_inv (P := SkipsOnly l) (l := fs) (f := Reg.fieldRound c fun s' f => s'.addGlobal f.name f
    (decide (f.name ∈ s.gfc.map Prod.fst)) none [])
    (fun s b _ hs => fieldRound_skips (fun s f hs => addGlobal_skips hs (by simp)) b hs) h1
  refine andThen_inv (P := SkipsOnly l) h2 ?_
  dsimp only
  split
  · exact h2
  · exact h2

theorem register_complex {s : Reg} {c : IoColl} {fs ps : List String}
    (h : AskedComplex c (s.stateNames ++ c.subs) (resolve "REGISTER_ALL_FIELDS" (c.fields.map IoField.name) fs)
      (resolve "REGISTER_ALL_STATE_FIELDS" (c.states.map StateGroup.pre) ps)) : (s.register c fs ps).1 ≠ .ok () := by
  have hsub : ∀ g ∈ c.states, ∀ n ∈ g.subNames, n ∈ s.stateNames ++ c.subs := fun g hg n hn =>
    List.mem_append_right _ (List.mem_flatMap.2 ⟨g, hg, hn⟩)
  have h0 : SkipsOnly (s.stateNames ++ c.subs) s := fun n hn => List.mem_append_left _ hn
  unfold Reg.register
  split
  · simp
  · dsimp only
    refine andThen_not_ok fun hok => absurd hok ?_
    cases hd : c.domain with
    | global nb sh loc =>
      exact loops_refuse h (fun s g hg hs => addGlobal_skips hs (hsub g hg)) (fun s f hs => addGlobal_skips hs (by simp))
        (fun s g hc => addGlobal_complex hc) (fun s f hc => addGlobal_complex hc) h0
    | isLocal ids total off =>
      dsimp only
      unfold Reg.registerLocal
      cases s.pixels with
      | none => simp
      | some dom =>
        dsimp only
        by_cases hc : c.name ∈ s.gfc.map Prod.fst
        · rw [if_pos hc]; simp
        · rw [if_neg hc]
          cases (if s.mode = .write ∨ s.mode = .overwrite then markPixels (getSize dom.2.1).toNat off ids
            else .ok (List.replicate (getSize dom.2.1).toNat (-1 : Int))) with
          | throw e => simp
          | ub => simp
          | ok m =>
            dsimp only
            refine andThen_not_ok fun _ => ?_
            refine (congrArg (fun r : Res Unit × Reg => r.1 ≠ .ok ()) (congrArg (andThen _) (funext fun s3 =>
              (andThen_right _).symm))).mpr ?_
            refine loops_refuse h (fun s g hg hs => addLocal_skips hs (hsub g hg))
              (fun s f hs => addLocal_skips hs (by simp)) (fun s g hc => addLocal_complex hc)
              (fun s f hc => addLocal_complex hc) ?_
            exact registerGlobal_skips (by simp) h0

end Verif.NetCDF
