import Std.Data.String.ToNat
import Verif.Model.Collection
import Verif.Lemmas.SMap
import Verif.Lemmas.Ccoord
/-! Lemmas on the collection state machine. -/
set_option linter.unusedSectionVars false

namespace Verif.Collection
open Verif Verif.Ccoord Verif.Layout

variable {α U : Type}

namespace Coll

/-- Everything of a collection but its fields, state fields and sub-point numbers. -/
def base (c : Coll α U) :
    Bool × Int × StorageOrder × Int × Int × List Int × Bool × List Int × DynamicPixels × SMap Int Int :=
  (c.global, c.dim, c.order, c.nbPixels, c.nbBuf, c.pixelIndices, c.initialised, c.domainPts, c.pixels,
    c.g2l)

/-- Properties of a collection that hold after any sequence of calls. -/
structure WF (c : Coll α U) : Prop where
  fields_sorted : c.fields.Sorted
  states_sorted : c.states.Sorted
  sub_sorted : c.subPts.Sorted
  pixel : c.subPts.find pixelTag = some 1
  comps : ∀ name f, c.fields.find name = some f → f.nbComp = getSize f.shape
  tags : ∀ name f, c.fields.find name = some f → c.subPts.find f.tag = some f.nbSub

/-- `c'` knows all sub-point numbers `c` knows. -/
def SubMono (c c' : Coll α U) : Prop :=
  ∀ tag n, c.subPts.find tag = some n → n ≠ Unknown → c'.subPts.find tag = some n

theorem SubMono.refl (c : Coll α U) : SubMono c c := fun _ _ h _ => h

theorem SubMono.trans {a b c : Coll α U} (h1 : SubMono a b) (h2 : SubMono b c) : SubMono a c :=
  fun t n h hn => h2 t n (h1 t n h hn) hn

/-! ### the non-const getter -/

theorem getSub_cases (c : Coll α U) (tag : String) :
    (∃ n, n ≠ Unknown ∧ c.subPts.find tag = some n ∧ c.getSub tag = (n, c)) ∨
    ((c.subPts.find tag = none ∨ c.subPts.find tag = some Unknown) ∧
      c.getSub tag = (Unknown, { c with subPts := c.subPts.insert tag Unknown })) := by
  unfold getSub
  cases h : c.subPts.find tag with
  | none => right; simp
  | some n =>
    by_cases hn : n = Unknown
    · right; simp [hn]
    · left; exact ⟨n, hn, rfl, by simp [hn]⟩

theorem getSub_find (c : Coll α U) (tag t : String) :
    (c.getSub tag).2.subPts.find t = if t = tag then some (c.getSub tag).1 else c.subPts.find t := by
  rcases c.getSub_cases tag with ⟨n, _, h2, h3⟩ | ⟨h2, h3⟩
  · rw [h3]
    by_cases ht : t = tag
    · subst ht; simp [h2]
    · simp [ht]
  · rw [h3]
    simp only [SMap.find_insert]

theorem getSub_fst (c : Coll α U) (tag : String) :
    (c.getSub tag).1 = (c.subPts.find tag).getD Unknown := by
  rcases c.getSub_cases tag with ⟨n, _, h2, h3⟩ | ⟨h2 | h2, h3⟩ <;> simp [h2, h3]

theorem getSub_frame (c : Coll α U) (tag : String) :
    (c.getSub tag).2.base = c.base ∧ (c.getSub tag).2.fields = c.fields ∧
      (c.getSub tag).2.states = c.states := by
  rcases c.getSub_cases tag with ⟨n, _, h2, h3⟩ | ⟨h2, h3⟩ <;> simp [h3, base]

theorem getSub_mono (c : Coll α U) (tag : String) : SubMono c (c.getSub tag).2 := by
  intro t n h hn
  rw [getSub_find]
  split
  · rename_i ht; subst ht
    rw [getSub_fst, h]; rfl
  · exact h

/-- A field of a collection whose tag is known to the collection keeps agreeing with it. -/
theorem getSub_tags {c : Coll α U} {t : String} {k : Int} (tag : String)
    (h : c.subPts.find t = some k) : (c.getSub tag).2.subPts.find t = some k := by
  rw [getSub_find]
  split
  · rename_i ht; subst ht; rw [getSub_fst, h]; rfl
  · exact h

theorem WF.getSub {c : Coll α U} (h : c.WF) (tag : String) : (c.getSub tag).2.WF := by
  obtain ⟨h1, h2, h3⟩ := c.getSub_frame tag
  refine ⟨by rw [h2]; exact h.fields_sorted, by rw [h3]; exact h.states_sorted, ?_, ?_, ?_, ?_⟩
  · rcases c.getSub_cases tag with ⟨n, _, _, h3⟩ | ⟨_, h3⟩
    · rw [h3]; exact h.sub_sorted
    · rw [h3]; exact SMap.sorted_insert h.sub_sorted _ _
  · exact getSub_tags tag h.pixel
  · rw [h2]; exact h.comps
  · rw [h2]; intro name f hf; exact getSub_tags tag (h.tags name f hf)

/-! ### inserting and removing fields -/

theorem WF.insertField {c : Coll α U} (h : c.WF) (name : String) (f : Field α U)
    (hc : f.nbComp = getSize f.shape) (ht : c.subPts.find f.tag = some f.nbSub) :
    ({ c with fields := c.fields.insert name f } : Coll α U).WF := by
  refine ⟨SMap.sorted_insert h.fields_sorted _ _, h.states_sorted, h.sub_sorted, h.pixel, ?_, ?_⟩
  · intro n g hg
    simp only [SMap.find_insert] at hg
    split at hg
    · cases hg; exact hc
    · exact h.comps n g hg
  · intro n g hg
    simp only [SMap.find_insert] at hg
    split at hg
    · cases hg; exact ht
    · exact h.tags n g hg

theorem WF.insertState {c : Coll α U} (h : c.WF) (pre : String) (s : StateField U) :
    ({ c with states := c.states.insert pre s } : Coll α U).WF :=
  ⟨h.fields_sorted, SMap.sorted_insert h.states_sorted _ _, h.sub_sorted, h.pixel, h.comps, h.tags⟩

variable [Inhabited α] [DecidableEq U]

theorem toNb_eq (comps : Comps) : comps.toNb = getSize comps.toShape := by
  cases comps <;> simp [Comps.toNb, Comps.toShape, getSize_eq_prod]

/-! ### resizing -/

theorem _root_.Verif.Collection.Field.resizeVals_length (l : List α) (n : Nat) :
    (Field.resizeVals l n).length = n := by
  simp [Field.resizeVals]; omega

theorem _root_.Verif.Collection.Field.resize_ok {f f' : Field α U} {nbBuf : Int} {u : Unit}
    (h : f.resize nbBuf = (.ok u, f')) :
    f.nbSub ≠ Unknown ∧ 0 ≤ f.nbSub * nbBuf * f.nbComp + f.pad ∧
    (f'.vals.length : Int) = f.nbSub * nbBuf * f.nbComp + f.pad ∧
    f' = { f with cur := f.nbSub * nbBuf, vals := f'.vals, fresh := true } ∧
    (∀ i, i < f.vals.length → i < f'.vals.length → f'.vals[i]? = f.vals[i]?) ∧
    (∀ i, f.vals.length ≤ i → i < f'.vals.length → f'.vals[i]? = some default) := by
  unfold Field.resize at h
  split at h
  · simp at h
  · rename_i hs
    have hs' : f.nbSub ≠ Unknown := by simpa [Field.hasSub] using hs
    simp only at h
    split at h
    · simp at h
    · rename_i h0
      have h0' : 0 ≤ f.nbSub * nbBuf * f.nbComp + f.pad := by omega
      split at h
      · rename_i h1
        simp only [Prod.mk.injEq, true_and] at h
        subst h
        refine ⟨hs', h0', ?_, rfl, ?_, ?_⟩
        · simp only [Field.resizeVals_length]; omega
        · intro i hi hi'
          simp only [Field.resizeVals_length] at hi'
          simp only [Field.resizeVals]
          rw [List.getElem?_append_left (by simp; omega), List.getElem?_take_of_lt hi']
        · intro i hi hi'
          simp only [Field.resizeVals_length] at hi'
          simp only [Field.resizeVals]
          rw [List.getElem?_append_right (by simp; omega), List.getElem?_replicate]
          rw [if_pos]; simp; omega
      · rename_i h1
        simp only [Prod.mk.injEq, true_and] at h
        subst h
        push Not at h1
        refine ⟨hs', h0', by simpa using h1.1, ?_, fun _ _ _ => rfl, fun i hi hi' => by simp at hi'; omega⟩
        simp only
        rw [← h1.2]

theorem _root_.Verif.Collection.Field.resize_ne_ub (f : Field α U) (nbBuf : Int) :
    (f.resize nbBuf).1 ≠ .ub := by
  unfold Field.resize
  split
  · simp
  · simp only
    split
    · simp
    · split <;> simp

/-- What `resize` never changes. -/
theorem _root_.Verif.Collection.Field.resize_frame (f : Field α U) (nbBuf : Int) :
    ∃ cur vals fresh, (f.resize nbBuf).2 = { f with cur := cur, vals := vals, fresh := fresh } := by
  unfold Field.resize
  split
  · exact ⟨_, _, _, rfl⟩
  · simp only
    split
    · exact ⟨_, _, _, rfl⟩
    · split <;> exact ⟨_, _, _, rfl⟩

/-! ### register -/

/-- The outcome of `register` in terms of the collection it is called on. -/
theorem register_cases (c : Coll α U) (name : String) (ty : ElemType) (comps : Comps) (tag : String)
    (unit : U) (allow : Bool) :
    (∃ f, c.fields.find name = some f ∧ (c.register name ty comps tag unit allow).2 = c ∧
      (c.register name ty comps tag unit allow).1 ≠ .ub ∧
      ((c.register name ty comps tag unit allow).1 = .ok () ↔
        allow = true ∧ f.ty = ty ∧ (match comps with | .num n => f.nbComp = n | .shape s => f.shape = s) ∧
          f.tag = tag ∧ f.unit = unit)) ∨
    (c.fields.find name = none ∧ ∃ f : Field α U,
      (f.ty = ty ∧ f.shape = comps.toShape ∧ f.nbComp = comps.toNb ∧ f.nbSub = (c.getSub tag).1 ∧
        f.tag = tag ∧ f.unit = unit ∧ f.pad = 0) ∧
      c.register name ty comps tag unit allow =
        (.ok (), { (c.getSub tag).2 with fields := c.fields.insert name f }) ∧
      (c.initialised = false → f.cur = 0 ∧ f.vals = [] ∧ f.fresh = false) ∧
      (c.initialised = true → f.nbSub ≠ Unknown ∧ f.cur = f.nbSub * c.nbBuf ∧ f.fresh = true ∧
        (f.vals.length : Int) = f.nbSub * c.nbBuf * f.nbComp ∧ ∀ v ∈ f.vals, v = default)) ∨
    (c.fields.find name = none ∧ c.initialised = true ∧
      (∃ e, (c.register name ty comps tag unit allow).1 = .throw e) ∧
      (c.register name ty comps tag unit allow).2 = (c.getSub tag).2) := by
  unfold register
  cases hf : c.fields.find name with
  | some f =>
    left
    refine ⟨f, rfl, ?_⟩
    cases allow with
    | false => simp
    | true =>
      simp only [if_true, true_and]
      by_cases h1 : f.ty = ty
      · cases comps with
        | num n =>
          by_cases h2 : f.nbComp = n
          · by_cases h3 : f.tag = tag
            · by_cases h4 : f.unit = unit <;> simp [h1, h2, h3, h4]
            · simp [h1, h2, h3]
          · simp [h1, h2]
        | shape s =>
          by_cases h2 : f.shape = s
          · by_cases h3 : f.tag = tag
            · by_cases h4 : f.unit = unit <;> simp [h1, h2, h3, h4]
            · simp [h1, h2, h3]
          · simp [h1, h2]
      · simp [h1]
  | none =>
    right
    obtain ⟨hb, hfe, -⟩ := c.getSub_frame tag
    simp only [base, Prod.mk.injEq] at hb
    obtain ⟨b1, b2, b3, b4, b5, b6, b7, b8, b9, b10⟩ := hb
    simp only
    rw [b7, hfe, b5]
    by_cases hi : c.initialised
    · simp only [hi, if_true]
      generalize hfd : (Field.new ty comps (c.getSub tag).1 tag unit : Field α U) = f
      rcases hr : f.resize c.nbBuf with ⟨r, f'⟩
      cases r with
      | ok u =>
        left
        obtain ⟨r1, r2, r3, r4, r5, r6⟩ := Field.resize_ok hr
        refine ⟨trivial, f', ?_, rfl, by simp, fun _ => ?_⟩
        · rw [r4]; subst hfd; exact ⟨rfl, rfl, rfl, rfl, rfl, rfl, rfl⟩
        · have e1 : f'.nbSub = f.nbSub := (congrArg Field.nbSub r4 :)
          have e2 : f'.nbComp = f.nbComp := (congrArg Field.nbComp r4 :)
          have e3 : f.pad = 0 := by rw [← hfd]; rfl
          have e4 : f.vals = [] := by rw [← hfd]; rfl
          refine ⟨by rw [e1]; exact r1, by rw [e1]; exact congrArg Field.cur r4,
            congrArg Field.fresh r4, ?_, ?_⟩
          · rw [r3, e1, e2, e3]; simp
          · intro v hv
            obtain ⟨i, hi, rfl⟩ := List.mem_iff_getElem.1 hv
            have := r6 i (by simp [e4]) hi
            rw [List.getElem?_eq_getElem hi] at this
            exact Option.some.inj this
      | throw e => right; exact ⟨trivial, trivial, ⟨e, rfl⟩, rfl⟩
      | ub => exact absurd (congrArg Prod.fst hr) (Field.resize_ne_ub f _)
    · left
      simp only [hi]
      exact ⟨trivial, Field.new ty comps (c.getSub tag).1 tag unit, ⟨rfl, rfl, rfl, rfl, rfl, rfl, rfl⟩,
        rfl, fun _ => ⟨rfl, rfl, rfl⟩, by simp⟩

theorem WF.register {c : Coll α U} (h : c.WF) (name : String) (ty : ElemType) (comps : Comps)
    (tag : String) (unit : U) (allow : Bool) : (c.register name ty comps tag unit allow).2.WF := by
  rcases c.register_cases name ty comps tag unit allow with
    ⟨f, _, h2, _⟩ | ⟨_, f, ⟨_, f2, f3, f4, f5, _⟩, h2, _⟩ | ⟨_, _, _, h2⟩
  · rw [h2]; exact h
  · rw [h2]
    have hg := (h.getSub tag)
    have := hg.insertField name f (by rw [f2, f3, toNb_eq]) (by rw [f5, f4, getSub_find, if_pos rfl])
    rwa [(c.getSub_frame tag).2.1] at this
  · rw [h2]; exact h.getSub tag

theorem register_frame (c : Coll α U) (name : String) (ty : ElemType) (comps : Comps)
    (tag : String) (unit : U) (allow : Bool) :
    (c.register name ty comps tag unit allow).2.base = c.base ∧
    (c.register name ty comps tag unit allow).2.states = c.states ∧
    SubMono c (c.register name ty comps tag unit allow).2 := by
  rcases c.register_cases name ty comps tag unit allow with
    ⟨f, _, h2, _⟩ | ⟨_, f, _, h2, _⟩ | ⟨_, _, _, h2⟩
  · rw [h2]; exact ⟨rfl, rfl, SubMono.refl c⟩
  · rw [h2]
    exact ⟨(c.getSub_frame tag).1, (c.getSub_frame tag).2.2, c.getSub_mono tag⟩
  · rw [h2]
    exact ⟨(c.getSub_frame tag).1, (c.getSub_frame tag).2.2, c.getSub_mono tag⟩

/-- `register` leaves every registered field exactly as it is. -/
theorem register_keeps (c : Coll α U) (name : String) (ty : ElemType) (comps : Comps)
    (tag : String) (unit : U) (allow : Bool) {n : String} {f : Field α U}
    (hf : c.fields.find n = some f) :
    (c.register name ty comps tag unit allow).2.fields.find n = some f := by
  rcases c.register_cases name ty comps tag unit allow with
    ⟨_, _, h2, _⟩ | ⟨h1, g, _, h2, _⟩ | ⟨_, _, _, h2⟩
  · rw [h2]; exact hf
  · rw [h2]
    simp only [SMap.find_insert]
    split
    · rename_i hn; subst hn; rw [h1] at hf; cases hf
    · exact hf
  · rw [h2, (c.getSub_frame tag).2.1]; exact hf

theorem register_ne_ub (c : Coll α U) (name : String) (ty : ElemType) (comps : Comps)
    (tag : String) (unit : U) (allow : Bool) : (c.register name ty comps tag unit allow).1 ≠ .ub := by
  rcases c.register_cases name ty comps tag unit allow with
    ⟨_, _, _, h2, _⟩ | ⟨_, _, _, h2, _⟩ | ⟨_, _, ⟨e, h2⟩, _⟩
  · exact h2
  · rw [h2]; simp
  · rw [h2]; simp

/-! ### state fields -/

/-- Loop induction for `registerSubFields`: a relation kept by every `register` call with these
parameters is kept by the loop. -/
theorem registerSubFields_induct (P : Coll α U → Prop) (pre : String) (ty : ElemType) (nbComp : Int)
    (tag : String) (unit : U)
    (hstep : ∀ c name, P c → P (c.register name ty (.num nbComp) tag unit false).2)
    (n : Nat) : ∀ (c : Coll α U) (i : Nat), P c →
      P (c.registerSubFields pre ty nbComp tag unit i n).2 := by
  induction n with
  | zero => intro c i h; exact h
  | succ n ih =>
    intro c i h
    unfold registerSubFields
    have := hstep c (subFieldName pre i) h
    rcases hr : c.register (subFieldName pre i) ty (.num nbComp) tag unit false with ⟨r, c1⟩
    rw [hr] at this
    cases r with
    | ok u => exact ih c1 (i + 1) this
    | throw e => exact this
    | ub => exact this

/-- What a relation must satisfy to be kept by `registerState`. -/
theorem registerState_induct (P : Coll α U → Prop) (c : Coll α U) (pre : String) (ty : ElemType)
    (nbMemory nbComp : Int) (tag : String) (unit : U) (allow : Bool) (h0 : P c)
    (hget : P (c.getSub tag).2)
    (hstep : ∀ c name, P c → P (c.register name ty (.num nbComp) tag unit false).2)
    (hins : ∀ (c : Coll α U) (s : StateField U), P c → P { c with states := c.states.insert pre s }) :
    P (c.registerState pre ty nbMemory nbComp tag unit allow).2 := by
  unfold registerState
  cases c.states.find pre with
  | some s =>
    simp only
    split
    · split
      · exact h0
      · split
        · exact h0
        · split
          · exact h0
          · split
            · exact h0
            · split <;> exact h0
    · exact h0
  | none =>
    simp only
    split
    · exact hget
    · have := registerSubFields_induct P pre ty nbComp tag unit hstep (nbMemory.toNat + 1)
        (c.getSub tag).2 0 hget
      rcases hr : (c.getSub tag).2.registerSubFields pre ty nbComp tag unit 0 (nbMemory.toNat + 1)
        with ⟨r, c2⟩
      rw [hr] at this
      cases r with
      | ok u => exact hins c2 _ this
      | throw e => exact this
      | ub => exact this

theorem WF.registerState {c : Coll α U} (h : c.WF) (pre : String) (ty : ElemType)
    (nbMemory nbComp : Int) (tag : String) (unit : U) (allow : Bool) :
    (c.registerState pre ty nbMemory nbComp tag unit allow).2.WF :=
  registerState_induct WF c pre ty nbMemory nbComp tag unit allow h (h.getSub tag)
    (fun _ name hc => hc.register name ty _ tag unit false) (fun _ s hc => hc.insertState pre s)

theorem registerState_frame (c : Coll α U) (pre : String) (ty : ElemType)
    (nbMemory nbComp : Int) (tag : String) (unit : U) (allow : Bool) :
    (c.registerState pre ty nbMemory nbComp tag unit allow).2.base = c.base ∧
    SubMono c (c.registerState pre ty nbMemory nbComp tag unit allow).2 ∧
    (∀ n f, c.fields.find n = some f →
      (c.registerState pre ty nbMemory nbComp tag unit allow).2.fields.find n = some f) := by
  refine registerState_induct (fun c' => c'.base = c.base ∧ SubMono c c' ∧
    (∀ n f, c.fields.find n = some f → c'.fields.find n = some f)) c pre ty nbMemory nbComp tag unit
    allow ⟨rfl, SubMono.refl c, fun _ _ h => h⟩ ?_ ?_ ?_
  · refine ⟨(c.getSub_frame tag).1, c.getSub_mono tag, ?_⟩
    rw [(c.getSub_frame tag).2.1]; exact fun _ _ h => h
  · rintro c' name ⟨h1, h2, h3⟩
    obtain ⟨g1, _, g3⟩ := c'.register_frame name ty (.num nbComp) tag unit false
    exact ⟨g1.trans h1, h2.trans g3, fun n f hf => register_keeps _ _ _ _ _ _ _ (h3 n f hf)⟩
  · rintro c' s ⟨h1, h2, h3⟩
    exact ⟨h1, h2, h3⟩

theorem registerSubFields_ne_ub (pre : String) (ty : ElemType) (nbComp : Int) (tag : String) (unit : U)
    (n : Nat) : ∀ (c : Coll α U) (i : Nat),
      (c.registerSubFields pre ty nbComp tag unit i n).1 ≠ .ub := by
  induction n with
  | zero => intro c i; simp [registerSubFields]
  | succ n ih =>
    intro c i
    unfold registerSubFields
    have := c.register_ne_ub (subFieldName pre i) ty (.num nbComp) tag unit false
    rcases hr : c.register (subFieldName pre i) ty (.num nbComp) tag unit false with ⟨r, c1⟩
    rw [hr] at this
    cases r with
    | ok u => exact ih c1 (i + 1)
    | throw e => simp
    | ub => exact absurd rfl this

/-! ### pop and detached -/

theorem WF.eraseField {c : Coll α U} (h : c.WF) (name : String) :
    ({ c with fields := c.fields.erase name } : Coll α U).WF := by
  refine ⟨SMap.sorted_erase h.fields_sorted _, h.states_sorted, h.sub_sorted, h.pixel, ?_, ?_⟩
  · intro n f hf
    simp only [SMap.find_erase h.fields_sorted] at hf
    split at hf
    · cases hf
    · exact h.comps n f hf
  · intro n f hf
    simp only [SMap.find_erase h.fields_sorted] at hf
    split at hf
    · cases hf
    · exact h.tags n f hf

theorem take_cases (c : Coll α U) (name : String) :
    (c.fields.find name = none ∧ c.take name = (.throw .fieldCollectionError, c)) ∨
    (∃ f, c.fields.find name = some f ∧
      c.take name = (.ok f, { c with fields := c.fields.erase name })) := by
  unfold take
  cases c.fields.find name with
  | none => left; exact ⟨rfl, rfl⟩
  | some f => right; exact ⟨f, rfl, rfl⟩

theorem pop_cases (c : Coll α U) (name : String) :
    (c.fields.find name = none ∧ c.pop name = (.throw .fieldCollectionError, c)) ∨
    (∃ f, c.fields.find name = some f ∧
      c.pop name = (.ok f, { c with
        fields := c.fields.erase name
        states := c.states.map (fun e => (e.1, e.2.forget name)) })) := by
  unfold pop
  rcases c.take_cases name with ⟨h1, h2⟩ | ⟨f, h1, h2⟩
  · left; rw [h2]; exact ⟨h1, rfl⟩
  · right; rw [h2]; exact ⟨f, h1, rfl⟩

theorem WF.mapStates {c : Coll α U} (h : c.WF) (g : StateField U → StateField U) :
    WF { c with states := c.states.map (fun e => (e.1, g e.2)) } :=
  ⟨h.fields_sorted, SMap.sorted_map h.states_sorted g, h.sub_sorted, h.pixel, h.comps, h.tags⟩

theorem WF.pop {c : Coll α U} (h : c.WF) (name : String) : (c.pop name).2.WF := by
  rcases c.pop_cases name with ⟨_, h2⟩ | ⟨f, _, h2⟩
  · rw [h2]; exact h
  · rw [h2]; exact (h.eraseField name).mapStates _

/-- `detached_field` either throws or returns the field and leaves all registered fields as they
were. -/
theorem detached_cases {c : Coll α U} (hs : c.fields.Sorted) (name : String) (ty : ElemType)
    (shape : List Int) (tag : String) (unit : U) :
    ((∃ f : Field α U, (c.detached name ty shape tag unit).1 = .ok f ∧ c.fields.find name = none ∧
        f.ty = ty ∧ f.shape = shape ∧ f.tag = tag ∧ f.unit = unit ∧
        (c.detached name ty shape tag unit).2 = (c.getSub tag).2)) ∨
    ((∃ e, (c.detached name ty shape tag unit).1 = .throw e) ∧
      ((c.detached name ty shape tag unit).2 = c ∨
        (c.detached name ty shape tag unit).2 = (c.getSub tag).2)) := by
  unfold detached
  rcases c.register_cases name ty (.shape shape) tag unit false with
    ⟨f, h1, h2, h3, h4⟩ | ⟨h1, f, hf, h2, _⟩ | ⟨_, _, ⟨e, h1⟩, h2⟩
  · right
    rcases hr : c.register name ty (.shape shape) tag unit false with ⟨r, c1⟩
    rw [hr] at h2 h3 h4
    simp only at h2; subst h2
    cases r with
    | ok u => simp at h4
    | throw e => exact ⟨⟨e, rfl⟩, Or.inl rfl⟩
    | ub => exact absurd rfl h3
  · left
    rw [h2]
    simp only [take, SMap.find_insert_self]
    refine ⟨f, rfl, h1, hf.1, hf.2.1, hf.2.2.2.2.1, hf.2.2.2.2.2.1, ?_⟩
    rw [SMap.erase_insert hs f h1, ← (c.getSub_frame tag).2.1]
  · right
    rcases hr : c.register name ty (.shape shape) tag unit false with ⟨r, c1⟩
    rw [hr] at h1 h2
    simp only at h1 h2; subst h1
    exact ⟨⟨e, rfl⟩, Or.inr h2⟩

theorem WF.detached {c : Coll α U} (h : c.WF) (name : String) (ty : ElemType)
    (shape : List Int) (tag : String) (unit : U) : (c.detached name ty shape tag unit).2.WF := by
  rcases detached_cases h.fields_sorted name ty shape tag unit with
    ⟨_, _, _, _, _, _, _, h2⟩ | ⟨_, h2 | h2⟩ <;> rw [h2]
  · exact h.getSub tag
  · exact h
  · exact h.getSub tag

/-! ### set_nb_sub_pts -/

theorem setNbSubPts_cases (c : Coll α U) (tag : String) (n : Int) :
    (c.setNbSubPts tag n = (.throw .fieldCollectionError, c) ∧
      (n < 1 ∨ ∃ k, c.subPts.find tag = some k ∧ k ≠ Unknown ∧ k ≠ n)) ∨
    (1 ≤ n ∧ (∀ k, c.subPts.find tag = some k → k = Unknown ∨ k = n) ∧
      c.setNbSubPts tag n = (.ok (), { c with
        subPts := c.subPts.insert tag n,
        fields := c.fields.map (fun e => (e.1, e.2.setSub tag n)) })) := by
  unfold setNbSubPts hasSub
  cases hk : c.subPts.find tag with
  | none =>
    by_cases hn : n < 1
    · left; simp [hn]
    · right; simp [hn]; omega
  | some k =>
    by_cases hu : k = Unknown
    · by_cases hn : n < 1
      · left; simp [hu, hn]
      · right; simp [hu, hn]; omega
    · by_cases hkn : k = n
      · by_cases hn : n < 1
        · left; simp [hkn, hn]
        · right; simp [hkn, hn]; omega
      · left; simp [hu, hkn]

theorem WF.setNbSubPts {c : Coll α U} (h : c.WF) (tag : String) (n : Int) :
    (c.setNbSubPts tag n).2.WF := by
  rcases c.setNbSubPts_cases tag n with ⟨h1, _⟩ | ⟨h0, h1, h2⟩
  · rw [h1]; exact h
  · rw [h2]
    refine ⟨SMap.sorted_map h.fields_sorted (fun f => f.setSub tag n), h.states_sorted, SMap.sorted_insert h.sub_sorted _ _, ?_,
      ?_, ?_⟩
    · simp only [SMap.find_insert]
      split
      · rename_i ht; subst ht
        have := h1 1 h.pixel
        simp only [Unknown] at this
        rcases this with h3 | h3
        · omega
        · rw [h3]
      · exact h.pixel
    · intro name f hf
      simp only [SMap.find_map (f := fun f : Field α U => f.setSub tag n),
        Option.map_eq_some_iff] at hf
      obtain ⟨g, hg, rfl⟩ := hf
      have := h.comps name g hg
      unfold Field.setSub
      split <;> exact this
    · intro name f hf
      simp only [SMap.find_map (f := fun f : Field α U => f.setSub tag n),
        Option.map_eq_some_iff] at hf
      obtain ⟨g, hg, rfl⟩ := hf
      simp only [SMap.find_insert]
      by_cases ht : g.tag = tag
      · simp [Field.setSub, ht]
      · simp [Field.setSub, ht, h.tags name g hg]

theorem setNbSubPts_mono (c : Coll α U) (tag : String) (n : Int) :
    SubMono c (c.setNbSubPts tag n).2 := by
  rcases c.setNbSubPts_cases tag n with ⟨h1, _⟩ | ⟨h0, h1, h2⟩
  · rw [h1]; exact SubMono.refl c
  · rw [h2]
    intro t k hk hu
    simp only [SMap.find_insert]
    split
    · rename_i ht; subst ht
      rcases h1 k hk with h3 | h3
      · exact absurd h3 hu
      · rw [h3]
    · exact hk

/-! ### operations on one field -/

/-- A field operation that keeps the number of components, sub-points and the tag. -/
def KeepsLayout (op : Field α U → Res Unit × Field α U) : Prop :=
  ∀ f, f.nbComp = getSize f.shape →
    (op f).2.nbComp = getSize (op f).2.shape ∧ (op f).2.nbComp = f.nbComp ∧
      (op f).2.nbSub = f.nbSub ∧ (op f).2.tag = f.tag ∧ (op f).2.ty = f.ty ∧ (op f).2.unit = f.unit

theorem keeps_reshape (shape : List Int) : KeepsLayout (fun f : Field α U => f.reshape shape) := by
  intro f hf
  simp only [Field.reshape]
  split
  · exact ⟨hf, rfl, rfl, rfl, rfl, rfl⟩
  · rename_i h; push Not at h; exact ⟨rfl, h, rfl, rfl, rfl, rfl⟩

theorem keeps_pushBack (g s : Bool) (v : List α) :
    KeepsLayout (fun f : Field α U => f.pushBack g s v) := by
  intro f hf
  have e : (f.pushBack g s v).2.shape = f.shape ∧ (f.pushBack g s v).2.nbComp = f.nbComp ∧
      (f.pushBack g s v).2.nbSub = f.nbSub ∧ (f.pushBack g s v).2.tag = f.tag ∧
      (f.pushBack g s v).2.ty = f.ty ∧ (f.pushBack g s v).2.unit = f.unit := by
    unfold Field.pushBack
    split
    · exact ⟨rfl, rfl, rfl, rfl, rfl, rfl⟩
    · split
      · exact ⟨rfl, rfl, rfl, rfl, rfl, rfl⟩
      · split <;> exact ⟨rfl, rfl, rfl, rfl, rfl, rfl⟩
  obtain ⟨e1, e2, e3, e4, e5, e6⟩ := e
  exact ⟨by rw [e1, e2]; exact hf, e2, e3, e4, e5, e6⟩

theorem keeps_setPadSize (nb : Int) (p : Nat) :
    KeepsLayout (fun f : Field α U => f.setPadSize nb p) := by
  intro f hf
  simp only [Field.setPadSize]
  obtain ⟨cur, vals, fresh, h⟩ := Field.resize_frame { f with pad := p } nb
  rw [h]
  exact ⟨hf, rfl, rfl, rfl, rfl, rfl⟩

theorem keeps_setZero : KeepsLayout (Field.setZero : Field α U → _) :=
  fun _ hf => ⟨hf, rfl, rfl, rfl, rfl, rfl⟩

theorem keeps_write (i : Nat) (v : α) : KeepsLayout (fun f : Field α U => f.write i v) := by
  intro f hf
  simp only [Field.write]
  split <;> exact ⟨hf, rfl, rfl, rfl, rfl, rfl⟩

theorem onField_cases (c : Coll α U) (name : String) (op : Field α U → Res Unit × Field α U) :
    (c.fields.find name = none ∧ c.onField name op = (.throw .fieldCollectionError, c)) ∨
    (∃ f, c.fields.find name = some f ∧ c.onField name op =
      ((op f).1, { c with fields := c.fields.insert name (op f).2 })) := by
  unfold onField
  cases c.fields.find name with
  | none => left; exact ⟨rfl, rfl⟩
  | some f => right; exact ⟨f, rfl, rfl⟩

theorem WF.onField {c : Coll α U} (h : c.WF) (name : String) {op : Field α U → Res Unit × Field α U}
    (hop : KeepsLayout op) : (c.onField name op).2.WF := by
  rcases c.onField_cases name op with ⟨_, h2⟩ | ⟨f, h1, h2⟩
  · rw [h2]; exact h
  · rw [h2]
    obtain ⟨k1, k2, k3, k4, _⟩ := hop f (h.comps name f h1)
    exact h.insertField name _ k1 (by rw [k3, k4]; exact h.tags name f h1)

theorem onField_frame (c : Coll α U) (name : String) (op : Field α U → Res Unit × Field α U) :
    (c.onField name op).2.base = c.base ∧ (c.onField name op).2.states = c.states ∧
      (c.onField name op).2.subPts = c.subPts := by
  rcases c.onField_cases name op with ⟨_, h2⟩ | ⟨f, _, h2⟩ <;> rw [h2] <;> exact ⟨rfl, rfl, rfl⟩

/-! ### reshape with a tag -/

theorem reshapeTag_cases (c : Coll α U) (name : String) (shape : List Int) (tag : String) :
    (c.fields.find name = none ∧ c.reshapeTag name shape tag = (.throw .fieldCollectionError, c)) ∨
    (∃ f, c.fields.find name = some f ∧ getSize shape * (c.getSub tag).1 ≠ f.nbComp * f.nbSub ∧
      c.reshapeTag name shape tag = (.throw .fieldError, (c.getSub tag).2)) ∨
    (∃ f, c.fields.find name = some f ∧ getSize shape * (c.getSub tag).1 = f.nbComp * f.nbSub ∧
      c.reshapeTag name shape tag = (.ok (), { (c.getSub tag).2 with
        fields := c.fields.insert name { f with
          shape := shape, nbComp := getSize shape, nbSub := (c.getSub tag).1, tag := tag } })) := by
  unfold reshapeTag
  cases c.fields.find name with
  | none => left; exact ⟨rfl, rfl⟩
  | some f =>
    right
    simp only [Field.nbDof]
    by_cases h : getSize shape * (c.getSub tag).1 = f.nbComp * f.nbSub
    · right
      refine ⟨f, rfl, h, ?_⟩
      simp only [h, ne_eq, not_true_eq_false, if_false, (c.getSub_frame tag).2.1]
    · left
      exact ⟨f, rfl, h, by simp [h]⟩

theorem WF.reshapeTag {c : Coll α U} (h : c.WF) (name : String) (shape : List Int) (tag : String) :
    (c.reshapeTag name shape tag).2.WF := by
  rcases c.reshapeTag_cases name shape tag with ⟨_, h2⟩ | ⟨f, _, _, h2⟩ | ⟨f, h0, _, h2⟩
  · rw [h2]; exact h
  · rw [h2]; exact h.getSub tag
  · rw [h2]
    have := (h.getSub tag).insertField name
      { f with shape := shape, nbComp := getSize shape, nbSub := (c.getSub tag).1, tag := tag } rfl
      (by rw [getSub_find, if_pos rfl])
    rwa [(c.getSub_frame tag).2.1] at this

/-! ### allocation -/

theorem allocate_frame (nbPixels nbBuf : Int) (fs : SMap String (Field α U)) :
    ∃ upd : List (Int × List α × Bool), upd.length = fs.length ∧
      (allocate nbPixels nbBuf fs).2 = List.zipWith (fun e u =>
        (e.1, { e.2 with cur := u.1, vals := u.2.1, fresh := u.2.2 })) fs upd := by
  have keep : ∀ fs : SMap String (Field α U), fs = List.zipWith (fun e (u : Int × List α × Bool) =>
      (e.1, { e.2 with cur := u.1, vals := u.2.1, fresh := u.2.2 })) fs
      (fs.map (fun e => (e.2.cur, e.2.vals, e.2.fresh))) := by
    intro fs
    induction fs with
    | nil => rfl
    | cons e fs ih => simp [← ih]
  induction fs with
  | nil => exact ⟨[], rfl, rfl⟩
  | cons e fs ih =>
    obtain ⟨name, f⟩ := e
    unfold allocate
    split
    · exact ⟨_, by rw [List.length_map], keep _⟩
    · obtain ⟨cur, vals, fresh, hfr⟩ := Field.resize_frame f nbBuf
      obtain ⟨upd, hl, hu⟩ := ih
      rcases hr : f.resize nbBuf with ⟨r, f'⟩
      rw [hr] at hfr
      simp only at hfr
      cases r with
      | ok u =>
        refine ⟨(cur, vals, fresh) :: upd, by simp [hl], ?_⟩
        simp only [List.zipWith, hfr, hu]
      | throw e =>
        refine ⟨(cur, vals, fresh) :: fs.map (fun e => (e.2.cur, e.2.vals, e.2.fresh)), by simp, ?_⟩
        simp only [List.zipWith, hfr, ← keep fs]
      | ub =>
        refine ⟨(cur, vals, fresh) :: fs.map (fun e => (e.2.cur, e.2.vals, e.2.fresh)), by simp, ?_⟩
        simp only [List.zipWith, hfr, ← keep fs]

theorem zipWith_find (fs : SMap String (Field α U)) (upd : List (Int × List α × Bool))
    (hl : upd.length = fs.length) (name : String) :
    (∀ f', SMap.find (List.zipWith (fun e (u : Int × List α × Bool) =>
        (e.1, { e.2 with cur := u.1, vals := u.2.1, fresh := u.2.2 })) fs upd) name = some f' →
      ∃ f cur vals fresh, fs.find name = some f ∧
        f' = { f with cur := cur, vals := vals, fresh := fresh }) ∧
    (fs.find name = none → SMap.find (List.zipWith (fun e (u : Int × List α × Bool) =>
        (e.1, { e.2 with cur := u.1, vals := u.2.1, fresh := u.2.2 })) fs upd) name = none) ∧
    (∀ f, fs.find name = some f → ∃ cur vals fresh, SMap.find (List.zipWith (fun e (u : Int × List α × Bool) =>
        (e.1, { e.2 with cur := u.1, vals := u.2.1, fresh := u.2.2 })) fs upd) name =
          some { f with cur := cur, vals := vals, fresh := fresh }) := by
  induction fs generalizing upd with
  | nil =>
    refine ⟨by simp, by simp, by simp⟩
  | cons e fs ih =>
    obtain ⟨k, g⟩ := e
    cases upd with
    | nil => simp at hl
    | cons u upd =>
      have hl' : upd.length = fs.length := by simpa using hl
      obtain ⟨i1, i2, i3⟩ := ih upd hl'
      simp only [List.zipWith, SMap.find_cons]
      by_cases hk : k = name
      · simp only [hk, if_true]
        refine ⟨?_, by simp, ?_⟩
        · intro f' hf'; cases hf'; exact ⟨g, _, _, _, rfl, rfl⟩
        · intro f hf; cases hf; exact ⟨_, _, _, rfl⟩
      · simp only [hk, if_false]
        exact ⟨i1, i2, i3⟩

/-- Allocation changes only sizes and contents of fields. -/
theorem allocateFields_frame (c : Coll α U) :
    ∃ fs', c.allocateFields.2 = { c with fields := fs' } ∧ fs'.keys = c.fields.keys ∧
      (c.fields.Sorted → fs'.Sorted) ∧
      (∀ name f', fs'.find name = some f' → ∃ f cur vals fresh, c.fields.find name = some f ∧
        f' = { f with cur := cur, vals := vals, fresh := fresh }) ∧
      (∀ name f, c.fields.find name = some f → ∃ cur vals fresh,
        fs'.find name = some { f with cur := cur, vals := vals, fresh := fresh }) := by
  obtain ⟨upd, hl, hu⟩ := allocate_frame c.nbPixels c.nbBuf c.fields
  have hkeys : (allocate c.nbPixels c.nbBuf c.fields).2.map (·.1) = c.fields.map (·.1) := by
    rw [hu]
    clear hu
    generalize c.fields = fs at hl
    induction fs generalizing upd with
    | nil => simp
    | cons e fs ih =>
      cases upd with
      | nil => simp at hl
      | cons u upd => simp [List.zipWith, ih upd (by simpa using hl)]
  refine ⟨(allocate c.nbPixels c.nbBuf c.fields).2, ?_, hkeys, ?_, ?_, ?_⟩
  · unfold allocateFields
    rcases allocate c.nbPixels c.nbBuf c.fields with ⟨r, fs⟩
    rfl
  · intro hs
    unfold SMap.Sorted at *
    have : ((allocate c.nbPixels c.nbBuf c.fields).2.map (·.1)).Pairwise (· < ·) := by
      rw [hkeys, List.pairwise_map]; exact hs
    rwa [List.pairwise_map] at this
  · intro name f' hf'
    rw [hu] at hf'
    exact (zipWith_find _ upd hl name).1 f' hf'
  · intro name f hf
    rw [hu]
    exact (zipWith_find _ upd hl name).2.2 f hf

/-- After a successful allocation every field has been resized. -/
theorem allocate_ok {nbPixels nbBuf : Int} {fs fs' : SMap String (Field α U)} {u : Unit}
    (h : allocate nbPixels nbBuf fs = (.ok u, fs')) :
    ∀ name f', fs'.find name = some f' → ∃ f, fs.find name = some f ∧
      f.resize nbBuf = (.ok (), f') ∧ (f.cur = 0 ∨ f.cur = f.nbEntries nbPixels) := by
  induction fs generalizing fs' with
  | nil =>
    intro name f' hf'
    simp only [allocate, Prod.mk.injEq, true_and] at h
    subst h; simp at hf'
  | cons e fs ih =>
    obtain ⟨k, g⟩ := e
    unfold allocate at h
    split at h
    · simp at h
    · rename_i hc
      rcases hr : g.resize nbBuf with ⟨r, g'⟩
      rw [hr] at h
      cases r with
      | ok u' =>
        rcases ha : allocate nbPixels nbBuf fs with ⟨r2, fs2⟩
        rw [ha] at h
        simp only [Prod.mk.injEq] at h
        obtain ⟨h1, h2⟩ := h
        subst h1; subst h2
        intro name f' hf'
        rw [SMap.find_cons] at hf'
        split at hf'
        · rename_i hk; subst hk
          cases hf'
          refine ⟨g, by simp [SMap.find_cons], hr, ?_⟩
          by_contra hn; exact hc ⟨fun h0 => hn (Or.inl h0), fun h0 => hn (Or.inr h0)⟩
        · rename_i hk
          obtain ⟨f, hf, hrf⟩ := ih ha name f' hf'
          exact ⟨f, by rw [SMap.find_cons, if_neg hk]; exact hf, hrf⟩
      | throw e => simp at h
      | ub => simp at h

theorem WF.allocateFields {c : Coll α U} (h : c.WF) : c.allocateFields.2.WF := by
  obtain ⟨fs', h1, _, h3, h4, _⟩ := c.allocateFields_frame
  rw [h1]
  refine ⟨h3 h.fields_sorted, h.states_sorted, h.sub_sorted, h.pixel, ?_, ?_⟩
  · intro name f' hf'
    obtain ⟨f, cur, vals, fresh, hf, rfl⟩ := h4 name f' hf'
    exact h.comps name f hf
  · intro name f' hf'
    obtain ⟨f, cur, vals, fresh, hf, rfl⟩ := h4 name f' hf'
    exact h.tags name f hf

/-! ### initialisation -/

theorem initGlobal_init {srt : SortFn} {c : Coll α U} {dom sub loc strides : List Int}
    (h : c.initialised = true) :
    (∃ e, (c.initGlobal srt dom sub loc strides).1 = .throw e) ∧
      (c.initGlobal srt dom sub loc strides).2 = c := by
  unfold initGlobal
  split
  · exact ⟨⟨_, rfl⟩, rfl⟩
  · simp only
    split
    · exact ⟨⟨_, rfl⟩, rfl⟩
    · simp [h]

theorem initLocal_init {c : Coll α U} (h : c.initialised = true) :
    c.initLocal = (.throw .fieldCollectionError, c) := by
  simp [initLocal, h]

theorem initGlobalOrder_init {srt : SortFn} {c : Coll α U} {dom sub loc : List Int}
    {order : StorageOrder} (h : c.initialised = true) :
    (c.initGlobalOrder srt dom sub loc order).2 = c ∧
      (c.initGlobalOrder srt dom sub loc order).1 ≠ .ok () := by
  unfold initGlobalOrder
  simp only
  split
  · exact ⟨rfl, by simp⟩
  · exact ⟨rfl, by simp⟩
  · rename_i st _
    obtain ⟨⟨e, h1⟩, h2⟩ := initGlobal_init (srt := srt) (dom := dom) (sub := subdomainOr dom sub)
      (loc := loc) (strides := st) h
    exact ⟨h2, by rw [h1]; simp⟩

/-- What `initialise` can do to an uninitialised collection: either it fails and leaves the
collection uninitialised, or it succeeds; in both cases only pixel data and the sizes and contents of
fields change. -/
structure InitEffect (c : Coll α U) (r : Res Unit × Coll α U) : Prop where
  states : r.2.states = c.states
  sub : r.2.subPts = c.subPts
  kind : r.2.global = c.global ∧ r.2.dim = c.dim ∧ r.2.order = c.order ∧ r.2.g2l = c.g2l
  keys : r.2.fields.keys = c.fields.keys
  sorted : c.fields.Sorted → r.2.fields.Sorted
  back : ∀ name f', r.2.fields.find name = some f' → ∃ f cur vals fresh,
    c.fields.find name = some f ∧ f' = { f with cur := cur, vals := vals, fresh := fresh }
  forth : ∀ name f, c.fields.find name = some f → ∃ cur vals fresh,
    r.2.fields.find name = some { f with cur := cur, vals := vals, fresh := fresh }
  init : r.2.initialised = true ↔ r.1 = .ok ()
  resized : r.1 = .ok () → ∀ name f', r.2.fields.find name = some f' → ∃ f,
    c.fields.find name = some f ∧ f.resize r.2.nbBuf = (.ok (), f') ∧
      (f.cur = 0 ∨ f.cur = f.nbEntries r.2.nbPixels)

theorem InitEffect.wf {c : Coll α U} {r : Res Unit × Coll α U} (he : InitEffect c r) (h : c.WF) :
    r.2.WF := by
  refine ⟨he.sorted h.fields_sorted, by rw [he.states]; exact h.states_sorted,
    by rw [he.sub]; exact h.sub_sorted, by rw [he.sub]; exact h.pixel, ?_, ?_⟩
  · intro name f' hf'
    obtain ⟨f, cur, vals, fresh, hf, rfl⟩ := he.back name f' hf'
    exact h.comps name f hf
  · intro name f' hf'
    obtain ⟨f, cur, vals, fresh, hf, rfl⟩ := he.back name f' hf'
    rw [he.sub]
    exact h.tags name f hf

/-- An outcome that changes only pixel data. -/
theorem InitEffect.trivial {c c' : Coll α U} {r : Res Unit} (hi : c.initialised = false)
    (hr : r ≠ .ok ()) (h1 : c'.states = c.states) (h2 : c'.subPts = c.subPts)
    (h3 : c'.global = c.global ∧ c'.dim = c.dim ∧ c'.order = c.order ∧ c'.g2l = c.g2l)
    (h4 : c'.fields = c.fields) (h5 : c'.initialised = c.initialised) : InitEffect c (r, c') := by
  refine ⟨h1, h2, h3, by rw [h4], by rw [h4]; exact id, ?_, ?_, ?_, fun h => absurd h hr⟩
  · rw [h4]; intro name f hf; exact ⟨f, f.cur, f.vals, f.fresh, hf, rfl⟩
  · rw [h4]; intro name f hf; exact ⟨f.cur, f.vals, f.fresh, hf⟩
  · simp [h5, hi, hr]

theorem initEffect_alloc (c c1 : Coll α U) (hi : c.initialised = false)
    (h1 : c1.states = c.states) (h2 : c1.subPts = c.subPts)
    (h3 : c1.global = c.global ∧ c1.dim = c.dim ∧ c1.order = c.order ∧ c1.g2l = c.g2l)
    (h4 : c1.fields = c.fields) (h5 : c1.initialised = c.initialised)
    (fin : Coll α U → Coll α U) (hfin : ∀ d : Coll α U, fin d = { d with
      pixelIndices := (fin d).pixelIndices, initialised := true }) :
    InitEffect c (match c1.allocateFields with
      | (.ok _, c3) => (.ok (), fin c3)
      | (r, c3) => (r, c3)) := by
  obtain ⟨fs', a1, a2, a3, a4, a5⟩ := c1.allocateFields_frame
  have halloc : c1.allocateFields = ((allocate c1.nbPixels c1.nbBuf c1.fields).1,
      { c1 with fields := (allocate c1.nbPixels c1.nbBuf c1.fields).2 }) := by
    unfold allocateFields
    rcases allocate c1.nbPixels c1.nbBuf c1.fields with ⟨r, fs⟩
    rfl
  have hfs : fs' = (allocate c1.nbPixels c1.nbBuf c1.fields).2 := by
    rw [halloc] at a1
    exact (congrArg Coll.fields a1).symm
  rw [h4] at a2 a3 a4 a5
  rcases ha : allocate c1.nbPixels c1.nbBuf c1.fields with ⟨r, fs⟩
  rw [ha] at hfs halloc
  simp only at hfs halloc
  subst hfs
  rw [halloc]
  cases r with
  | ok u =>
    simp only
    rw [hfin]
    refine ⟨h1, h2, h3, a2, a3, a4, a5, by simp, ?_⟩
    intro _ name f' hf'
    have := allocate_ok ha name f' hf'
    rwa [h4] at this
  | throw e =>
    refine ⟨h1, h2, h3, a2, a3, a4, a5, ?_, by simp⟩
    simp [h5, hi]
  | ub =>
    refine ⟨h1, h2, h3, a2, a3, a4, a5, ?_, by simp⟩
    simp [h5, hi]

theorem initGlobal_effect (srt : SortFn) (c : Coll α U) (dom sub loc strides : List Int)
    (hi : c.initialised = false) : InitEffect c (c.initGlobal srt dom sub loc strides) := by
  unfold initGlobal
  split
  · exact InitEffect.trivial hi (by simp) rfl rfl ⟨rfl, rfl, rfl, rfl⟩ rfl rfl
  · simp only
    split
    · exact InitEffect.trivial hi (by simp) rfl rfl ⟨rfl, rfl, rfl, rfl⟩ rfl rfl
    · split
      · exact InitEffect.trivial hi (by simp) rfl rfl ⟨rfl, rfl, rfl, rfl⟩ rfl rfl
      · cases DynamicPixels.mkStrided srt (subdomainOr dom sub) loc strides with
        | throw e => exact InitEffect.trivial hi (by simp) rfl rfl ⟨rfl, rfl, rfl, rfl⟩ rfl rfl
        | ub => exact InitEffect.trivial hi (by simp) rfl rfl ⟨rfl, rfl, rfl, rfl⟩ rfl rfl
        | ok px =>
          simp only
          cases getBufferSize (subdomainOr dom sub) strides with
          | throw e => exact InitEffect.trivial hi (by simp) rfl rfl ⟨rfl, rfl, rfl, rfl⟩ rfl rfl
          | ub => exact InitEffect.trivial hi (by simp) rfl rfl ⟨rfl, rfl, rfl, rfl⟩ rfl rfl
          | ok nb =>
            exact initEffect_alloc c { c with
                domainPts := dom, pixels := px, nbPixels := getSize (subdomainOr dom sub),
                nbBuf := nb } hi rfl rfl ⟨rfl, rfl, rfl, rfl⟩ rfl rfl
              (fun c3 => { c3 with
                pixelIndices := (List.range (getSize (subdomainOr dom sub)).toNat).map
                  (fun i : Nat => (i : Int)),
                initialised := true }) (fun d => rfl)

theorem initGlobalOrder_effect (srt : SortFn) (c : Coll α U) (dom sub loc : List Int)
    (order : StorageOrder) (hi : c.initialised = false) :
    InitEffect c (c.initGlobalOrder srt dom sub loc order) := by
  unfold initGlobalOrder
  simp only
  split
  · exact InitEffect.trivial hi (by simp) rfl rfl ⟨rfl, rfl, rfl, rfl⟩ rfl rfl
  · exact InitEffect.trivial hi (by simp) rfl rfl ⟨rfl, rfl, rfl, rfl⟩ rfl rfl
  · exact initGlobal_effect srt c dom _ loc _ hi

theorem initLocal_effect (c : Coll α U) (hi : c.initialised = false) : InitEffect c c.initLocal := by
  unfold initLocal
  rw [if_neg (by simp [hi])]
  exact initEffect_alloc c { c with nbPixels := c.pixelIndices.length, nbBuf := c.pixelIndices.length }
    hi rfl rfl ⟨rfl, rfl, rfl, rfl⟩ rfl rfl
    (fun c3 => { c3 with initialised := true }) (fun d => rfl)

/-! ### clone -/

theorem assignField_frame (srt : SortFn) (c : Coll α U) (src dst : Field α U) :
    ∃ vals, (c.assignField srt src dst).2 = { dst with vals := vals } ∧
      vals.length = dst.vals.length := by
  unfold assignField
  split
  · split
    · exact ⟨_, rfl, by simp⟩
    · exact ⟨dst.vals, rfl, rfl⟩
    · exact ⟨dst.vals, rfl, rfl⟩
  · split
    · exact ⟨dst.vals, rfl, rfl⟩
    · simp only
      split
      · rename_i h
        refine ⟨_, rfl, ?_⟩
        obtain ⟨h1, h2, h3, h4, _⟩ := h
        simp only [List.length_append, List.length_take, List.length_drop]
        omega
      · exact ⟨dst.vals, rfl, rfl⟩

/-- `clone` is a registration (or nothing), followed by an overwrite of the values of one field. -/
theorem clone_cases (srt : SortFn) (c : Coll α U) (src dst : String) (ow : Bool) :
    (c.clone srt src dst ow).2 = c ∨
    (∃ f, c.fields.find src = some f ∧ c.fields.find dst = none ∧
      (c.clone srt src dst ow).2 = (c.register dst f.ty (.num f.nbComp) f.tag f.unit false).2) ∨
    (∃ g vals, c.fields.find dst = some g ∧ vals.length = g.vals.length ∧ ow = true ∧
      (c.clone srt src dst ow).2 = { c with fields := c.fields.insert dst { g with vals := vals } }) ∨
    (∃ f g vals c1, c.fields.find src = some f ∧ c.fields.find dst = none ∧
      c1 = (c.register dst f.ty (.num f.nbComp) f.tag f.unit false).2 ∧
      c1.fields.find dst = some g ∧ vals.length = g.vals.length ∧
      (c.clone srt src dst ow).2 = { c1 with fields := c1.fields.insert dst { g with vals := vals } }) := by
  unfold clone
  cases hs : c.fields.find src with
  | none => left; rfl
  | some f =>
    simp only
    cases hd : c.fields.find dst with
    | some g =>
      simp only
      split
      · left; rfl
      · split
        · left; rfl
        · split
          · left; rfl
          · split
            · left; rfl
            · right; right; left
              obtain ⟨vals, h1, h2⟩ := assignField_frame srt c f g
              refine ⟨g, vals, rfl, h2, ?_, ?_⟩
              · rename_i h _ _ _; simpa using h
              · rw [← h1]
    | none =>
      right
      rcases hr : c.register dst f.ty (.num f.nbComp) f.tag f.unit false with ⟨r, c1⟩
      cases r with
      | throw e => left; exact ⟨f, rfl, rfl, by rw [hr]⟩
      | ub => left; exact ⟨f, rfl, rfl, by rw [hr]⟩
      | ok u =>
        cases hg : c1.fields.find dst with
        | none => left; refine ⟨f, rfl, rfl, ?_⟩; rw [hr]; simp only [hg]
        | some g =>
          right; right
          obtain ⟨vals, h1, h2⟩ := assignField_frame srt c1 f g
          refine ⟨f, g, vals, c1, rfl, rfl, by rw [hr], hg, h2, ?_⟩
          simp only [hg]
          rw [← h1]

theorem WF.clone {c : Coll α U} (h : c.WF) (srt : SortFn) (src dst : String) (ow : Bool) :
    (c.clone srt src dst ow).2.WF := by
  rcases c.clone_cases srt src dst ow with
    h1 | ⟨f, _, _, h1⟩ | ⟨g, vals, hg, _, _, h1⟩ | ⟨f, g, vals, c1, _, _, hc1, hg, _, h1⟩
  · rw [h1]; exact h
  · rw [h1]; exact h.register _ _ _ _ _ _
  · rw [h1]; exact h.insertField dst _ (h.comps dst g hg) (h.tags dst g hg)
  · rw [h1]
    have hw : c1.WF := hc1 ▸ h.register _ _ _ _ _ _
    exact hw.insertField dst _ (hw.comps dst g hg) (hw.tags dst g hg)

theorem clone_frame (srt : SortFn) (c : Coll α U) (src dst : String) (ow : Bool) :
    (c.clone srt src dst ow).2.base = c.base ∧ (c.clone srt src dst ow).2.states = c.states ∧
      SubMono c (c.clone srt src dst ow).2 := by
  rcases c.clone_cases srt src dst ow with
    h1 | ⟨f, _, _, h1⟩ | ⟨g, vals, hg, _, _, h1⟩ | ⟨f, g, vals, c1, _, _, hc1, hg, _, h1⟩
  · rw [h1]; exact ⟨rfl, rfl, SubMono.refl c⟩
  · rw [h1]; exact register_frame _ _ _ _ _ _ _
  · rw [h1]; exact ⟨rfl, rfl, SubMono.refl c⟩
  · rw [h1]
    have := c.register_frame dst f.ty (.num f.nbComp) f.tag f.unit false
    rw [← hc1] at this
    exact this

/-! ### one step -/

theorem WF.step {c : Coll α U} (h : c.WF) (srt : SortFn) (op : Op α U) : (c.step srt op).2.WF := by
  cases op with
  | register name ty comps tag unit allow => exact h.register name ty comps tag unit allow
  | registerState pre ty m n tag unit allow => exact h.registerState pre ty m n tag unit allow
  | pop name => exact h.pop name
  | detached name ty shape tag unit => exact h.detached name ty shape tag unit
  | setNbSubPts tag n => exact h.setNbSubPts tag n
  | getSub tag => exact h.getSub tag
  | initGlobal dom sub loc strides =>
    simp only [Coll.step]
    split
    · cases hi : c.initialised with
      | true => rw [(initGlobal_init hi).2]; exact h
      | false => exact (initGlobal_effect srt c dom sub loc strides hi).wf h
    · exact h
  | initGlobalOrder dom sub loc order =>
    simp only [Coll.step]
    split
    · cases hi : c.initialised with
      | true => rw [(initGlobalOrder_init hi).1]; exact h
      | false => exact (initGlobalOrder_effect srt c dom sub loc order hi).wf h
    · exact h
  | addPixel id =>
    simp only [Coll.step]
    split
    · exact h
    · unfold addPixel
      split
      · exact h
      · exact ⟨h.fields_sorted, h.states_sorted, h.sub_sorted, h.pixel, h.comps, h.tags⟩
  | initLocal =>
    simp only [Coll.step]
    split
    · exact h
    · cases hi : c.initialised with
      | true => rw [initLocal_init hi]; exact h
      | false => exact (initLocal_effect c hi).wf h
  | reshape name shape => exact h.onField name (keeps_reshape shape)
  | reshapeTag name shape tag => exact h.reshapeTag name shape tag
  | pushBack name single value => exact h.onField name (keeps_pushBack _ _ _)
  | setPadSize name pad => exact h.onField name (keeps_setPadSize _ _)
  | setZero name => exact h.onField name keeps_setZero
  | write name i v => exact h.onField name (keeps_write i v)
  | cycle pre =>
    simp only [Coll.step, cycle]
    split
    · exact h
    · exact h.insertState pre _
  | clone src dst ow => exact h.clone srt src dst ow

theorem step_mono (c : Coll α U) (srt : SortFn) (op : Op α U) : SubMono c (c.step srt op).2 := by
  have hfr : ∀ r : Res Unit × Coll α U, r.2.subPts = c.subPts → SubMono c r.2 := by
    intro r h t n ht hn; rw [h]; exact ht
  cases op with
  | register name ty comps tag unit allow => exact (register_frame _ _ _ _ _ _ _).2.2
  | registerState pre ty m n tag unit allow => exact (registerState_frame _ _ _ _ _ _ _ _).2.1
  | pop name =>
    simp only [Coll.step]
    rcases c.pop_cases name with ⟨_, h2⟩ | ⟨f, _, h2⟩ <;> rw [h2] <;> exact SubMono.refl c
  | detached name ty shape tag unit =>
    simp only [Coll.step, detached]
    have hm := (c.register_frame name ty (.shape shape) tag unit false).2.2
    rcases hr : c.register name ty (.shape shape) tag unit false with ⟨r, c1⟩
    rw [hr] at hm
    cases r with
    | ok u =>
      simp only
      rcases c1.take_cases name with ⟨_, h2⟩ | ⟨f, _, h2⟩ <;> rw [h2] <;> exact hm
    | throw e => exact hm
    | ub => exact hm
  | setNbSubPts tag n => exact setNbSubPts_mono c tag n
  | getSub tag => exact getSub_mono c tag
  | initGlobal dom sub loc strides =>
    simp only [Coll.step]
    split
    · cases hi : c.initialised with
      | true => rw [(initGlobal_init hi).2]; exact SubMono.refl c
      | false => exact hfr _ (initGlobal_effect srt c dom sub loc strides hi).sub
    · exact SubMono.refl c
  | initGlobalOrder dom sub loc order =>
    simp only [Coll.step]
    split
    · cases hi : c.initialised with
      | true => rw [(initGlobalOrder_init hi).1]; exact SubMono.refl c
      | false => exact hfr _ (initGlobalOrder_effect srt c dom sub loc order hi).sub
    · exact SubMono.refl c
  | addPixel id =>
    simp only [Coll.step, addPixel]
    split
    · exact SubMono.refl c
    · split <;> exact SubMono.refl c
  | initLocal =>
    simp only [Coll.step]
    split
    · exact SubMono.refl c
    · cases hi : c.initialised with
      | true => rw [initLocal_init hi]; exact SubMono.refl c
      | false => exact hfr _ (initLocal_effect c hi).sub
  | reshape name shape => exact hfr _ (onField_frame _ _ _).2.2
  | reshapeTag name shape tag =>
    simp only [Coll.step]
    rcases c.reshapeTag_cases name shape tag with ⟨_, h2⟩ | ⟨f, _, _, h2⟩ | ⟨f, h0, _, h2⟩ <;> rw [h2]
    · exact SubMono.refl c
    · exact getSub_mono c tag
    · exact getSub_mono c tag
  | pushBack name single value => exact hfr _ (onField_frame _ _ _).2.2
  | setPadSize name pad => exact hfr _ (onField_frame _ _ _).2.2
  | setZero name => exact hfr _ (onField_frame _ _ _).2.2
  | write name i v => exact hfr _ (onField_frame _ _ _).2.2
  | cycle pre =>
    simp only [Coll.step, cycle]
    split <;> exact SubMono.refl c
  | clone src dst ow => exact (clone_frame srt c src dst ow).2.2

/-- On an initialised collection no operation changes anything but fields, state fields and
sub-point numbers. -/
theorem step_base {c : Coll α U} (h : c.initialised = true) (srt : SortFn) (op : Op α U) :
    (c.step srt op).2.base = c.base := by
  cases op with
  | register name ty comps tag unit allow => exact (register_frame _ _ _ _ _ _ _).1
  | registerState pre ty m n tag unit allow => exact (registerState_frame _ _ _ _ _ _ _ _).1
  | pop name =>
    simp only [Coll.step]
    rcases c.pop_cases name with ⟨_, h2⟩ | ⟨f, _, h2⟩ <;> rw [h2] <;> rfl
  | detached name ty shape tag unit =>
    simp only [Coll.step, detached]
    have hm := (c.register_frame name ty (.shape shape) tag unit false).1
    rcases hr : c.register name ty (.shape shape) tag unit false with ⟨r, c1⟩
    rw [hr] at hm
    cases r with
    | ok u =>
      simp only
      rcases c1.take_cases name with ⟨_, h2⟩ | ⟨f, _, h2⟩ <;> rw [h2] <;> exact hm
    | throw e => exact hm
    | ub => exact hm
  | setNbSubPts tag n =>
    simp only [Coll.step]
    rcases c.setNbSubPts_cases tag n with ⟨h1, _⟩ | ⟨_, _, h1⟩ <;> rw [h1] <;> rfl
  | getSub tag => exact (getSub_frame c tag).1
  | initGlobal dom sub loc strides =>
    simp only [Coll.step]
    split
    · rw [(initGlobal_init h).2]
    · rfl
  | initGlobalOrder dom sub loc order =>
    simp only [Coll.step]
    split
    · rw [(initGlobalOrder_init h).1]
    · rfl
  | addPixel id =>
    simp only [Coll.step, addPixel, h, if_true]
    split <;> rfl
  | initLocal =>
    simp only [Coll.step]
    split
    · rfl
    · rw [initLocal_init h]
  | reshape name shape => exact (onField_frame _ _ _).1
  | reshapeTag name shape tag =>
    simp only [Coll.step]
    rcases c.reshapeTag_cases name shape tag with ⟨_, h2⟩ | ⟨f, _, _, h2⟩ | ⟨f, h0, _, h2⟩ <;> rw [h2]
    · exact (getSub_frame c tag).1
    · exact (getSub_frame c tag).1
  | pushBack name single value => exact (onField_frame _ _ _).1
  | setPadSize name pad => exact (onField_frame _ _ _).1
  | setZero name => exact (onField_frame _ _ _).1
  | write name i v => exact (onField_frame _ _ _).1
  | cycle pre =>
    simp only [Coll.step, cycle]
    split <;> rfl
  | clone src dst ow => exact (clone_frame srt c src dst ow).1

/-- Induction over programs. -/
theorem run_induct (srt : SortFn) (P : Coll α U → Prop) {ops : List (Op α U)} :
    ∀ {c c' : Coll α U}, P c → (∀ d op, P d → op ∈ ops → P (d.step srt op).2) →
      c.run srt ops = some c' → P c' := by
  induction ops with
  | nil => intro c c' h _ hr; simp [run] at hr; subst hr; exact h
  | cons op ops ih =>
    intro c c' h hstep hr
    unfold run at hr
    have h1 := hstep c op h (by simp)
    rcases hs : c.step srt op with ⟨r, c1⟩
    rw [hs] at h1 hr
    cases r with
    | ub => simp at hr
    | ok u => exact ih h1 (fun d o hd ho => hstep d o hd (by simp [ho])) hr
    | throw e => exact ih h1 (fun d o hd ho => hstep d o hd (by simp [ho])) hr

/-- The state of a freshly constructed collection. -/
theorem mk'_spec {global : Bool} {dim : Int} {order : StorageOrder} {sub : SMap String Int}
    {c : Coll α U} (h : mk' global dim order sub = .ok c) :
    (∀ k, sub.find pixelTag = some k → k = Unknown ∨ k = 1) ∧
    c = empty global dim order (sub.insert pixelTag 1) := by
  unfold mk' at h
  rcases (empty global dim order sub : Coll α U).setNbSubPts_cases pixelTag 1 with
    ⟨h1, _⟩ | ⟨_, h2, h1⟩
  · rw [h1] at h; cases h
  · rw [h1] at h
    simp only [Res.ok.injEq] at h
    exact ⟨h2, h.symm⟩

theorem mk'_wf {global : Bool} {dim : Int} {order : StorageOrder} {sub : SMap String Int}
    (hs : sub.Sorted) {c : Coll α U} (h : mk' global dim order sub = .ok c) : c.WF := by
  rw [(mk'_spec h).2]
  exact ⟨List.Pairwise.nil, List.Pairwise.nil, SMap.sorted_insert hs _ _,
    SMap.find_insert_self _ _ _, (fun _ _ h => by cases h), (fun _ _ h => by cases h)⟩

end Coll
end Verif.Collection
