import Verif.Spec.CollDefined
import Verif.Props.FieldOps
import Verif.Props.PySession
/-
Lemmas for C96.
-/
set_option linter.unusedSectionVars false
namespace Verif.Collection.Coll
open Verif Verif.Ccoord Verif.Layout Verif.Props

variable {α U : Type} [Inhabited α] [DecidableEq U]

theorem getSize_pos {s : List Int} (h : Pos s) : 1 ≤ getSize s := by
  rw [getSize_eq_prod]; exact prod_pos_of_pos h

theorem Sane.adm {c : Coll α U} {op : Op α U} (h : c.Sane op) : Adm c op := by
  cases op with
  | register name ty comps tag unit allow =>
    cases comps with
    | num n => exact h
    | shape s => exact getSize_pos h
  | registerState pre ty m n tag unit allow => exact h
  | detached name ty shape tag unit => exact getSize_pos h
  | reshapeTag name shape tag => exact getSize_pos h
  | pushBack name single value => exact h
  | _ => trivial

/-- All component shapes are positive. -/
def ShapesPos (c : Coll α U) : Prop := ∀ name f, c.fields.find name = some f → Pos f.shape

theorem ShapesPos.of_fields {c c' : Coll α U} (h : ShapesPos c) (e : c'.fields = c.fields) : ShapesPos c' := by
  intro n f hf; rw [e] at hf; exact h n f hf

theorem ShapesPos.insert {c c' : Coll α U} (h : ShapesPos c) {name : String} {f : Field α U} (hp : Pos f.shape)
    (e : c'.fields = c.fields.insert name f) : ShapesPos c' := by
  intro n g hg
  rw [e, SMap.find_insert] at hg
  split at hg
  · cases hg; exact hp
  · exact h n g hg

theorem ShapesPos.getSub {c : Coll α U} (h : ShapesPos c) (tag : String) : ShapesPos (c.getSub tag).2 :=
  h.of_fields (c.getSub_frame tag).2.1

theorem ShapesPos.register {c : Coll α U} (h : ShapesPos c) (name : String) (ty : ElemType) (comps : Comps)
    (tag : String) (unit : U) (allow : Bool) (hp : Pos comps.toShape) :
    ShapesPos (c.register name ty comps tag unit allow).2 := by
  rcases c.register_cases name ty comps tag unit allow with
    ⟨g, h1, h2, _⟩ | ⟨_, f, ⟨f1, f2, _⟩, h2, _⟩ | ⟨_, _, _, h3⟩
  · rw [h2]; exact h
  · rw [h2]; exact h.insert (by rw [f2]; exact hp) rfl
  · rw [h3]; exact h.getSub tag

theorem ShapesPos.take {c : Coll α U} (h : ShapesPos c) (hw : c.WF) (name : String) : ShapesPos (c.take name).2 := by
  rcases c.take_cases name with ⟨_, h2⟩ | ⟨f, _, h2⟩ <;> rw [h2]
  · exact h
  · intro n g hg
    simp only [SMap.find_erase hw.fields_sorted] at hg
    split at hg
    · cases hg
    · exact h n g hg

theorem ShapesPos.onField {c : Coll α U} (h : ShapesPos c) (name : String) (op : Field α U → Res Unit × Field α U)
    (hop : ∀ f, Pos f.shape → Pos (op f).2.shape) : ShapesPos (c.onField name op).2 := by
  rcases c.onField_cases name op with ⟨_, h2⟩ | ⟨f, h1, h2⟩ <;> rw [h2]
  · exact h
  · exact h.insert (hop f (h name f h1)) rfl

theorem ShapesPos.init {c : Coll α U} (h : ShapesPos c) {r : Res Unit × Coll α U} (he : InitEffect c r) : ShapesPos r.2 := by
  intro n f hf
  obtain ⟨g, cur, vals, fresh, hg, e⟩ := he.back n f hf
  rw [e]; exact h n g hg

theorem pos_single {n : Int} (h : 1 ≤ n) : Pos [n] := by
  intro m hm
  rw [List.mem_singleton] at hm
  omega

theorem ShapesPos.step {srt : SortFn} {c : Coll α U} (h : ShapesPos c) (hi : SizeInv c) (op : Op α U) (ha : c.Sane op) :
    ShapesPos (c.step srt op).2 := by
  cases op with
  | register name ty comps tag unit allow =>
    refine h.register _ _ _ _ _ _ ?_
    cases comps with
    | num n => exact pos_single ha
    | shape s => exact ha
  | registerState pre ty m n tag unit allow =>
    exact registerState_induct ShapesPos c pre ty m n tag unit allow h (h.getSub tag)
      (fun d name hd => hd.register _ _ _ _ _ _ (pos_single ha)) (fun d s hd => hd.of_fields rfl)
  | pop name =>
    simp only [Coll.step]
    have := h.take hi.wf name
    rcases c.pop_cases name with ⟨_, h2⟩ | ⟨f, h1, h2⟩ <;> rw [h2]
    · exact h
    · rcases c.take_cases name with ⟨h3, _⟩ | ⟨f', _, h3⟩
      · rw [h1] at h3; cases h3
      · rw [h3] at this
        exact this.of_fields rfl
  | detached name ty shape tag unit =>
    simp only [Coll.step, detached]
    have hm := h.register name ty (.shape shape) tag unit false ha
    have hs := hi.register name ty (.shape shape) tag unit false (getSize_pos ha)
    rcases hr : c.register name ty (.shape shape) tag unit false with ⟨r, c1⟩
    rw [hr] at hm hs
    cases r with
    | ok u => exact ShapesPos.take hm hs.wf name
    | throw e => exact hm
    | ub => exact hm
  | setNbSubPts tag n =>
    simp only [Coll.step]
    rcases c.setNbSubPts_cases tag n with ⟨h1, _⟩ | ⟨_, _, h1⟩ <;> rw [h1]
    · exact h
    · intro nm f hf
      simp only [SMap.find_map] at hf
      cases hg : c.fields.find nm with
      | none => rw [hg] at hf; cases hf
      | some g =>
        rw [hg] at hf
        cases hf
        unfold Field.setSub
        split <;> exact h nm g hg
  | getSub tag => exact h.getSub tag
  | initGlobal dom sub loc strides =>
    simp only [Coll.step]
    split
    · cases hi : c.initialised with
      | true => rw [(initGlobal_init hi).2]; exact h
      | false => exact h.init (initGlobal_effect srt c dom sub loc strides hi)
    · exact h
  | initGlobalOrder dom sub loc order =>
    simp only [Coll.step]
    split
    · cases hi : c.initialised with
      | true => rw [(initGlobalOrder_init hi).1]; exact h
      | false => exact h.init (initGlobalOrder_effect srt c dom sub loc order hi)
    · exact h
  | addPixel id =>
    simp only [Coll.step, addPixel]
    split
    · exact h
    · split
      · exact h
      · exact h.of_fields rfl
  | initLocal =>
    simp only [Coll.step]
    split
    · exact h
    · cases hi : c.initialised with
      | true => rw [initLocal_init hi]; exact h
      | false => exact h.init (initLocal_effect c hi)
  | reshape name shape =>
    refine h.onField name (fun f => f.reshape shape) fun f hf => ?_
    unfold Field.reshape
    split
    · exact hf
    · exact ha
  | reshapeTag name shape tag =>
    simp only [Coll.step]
    rcases c.reshapeTag_cases name shape tag with ⟨_, h2⟩ | ⟨f, _, _, h2⟩ | ⟨f, h0, h1, h2⟩ <;> rw [h2]
    · exact h
    · exact h.getSub tag
    · exact h.insert (name := name) (f := { f with
        shape := shape, nbComp := getSize shape, nbSub := (c.getSub tag).1, tag := tag }) ha rfl
  | pushBack name single value =>
    refine h.onField name (fun f => f.pushBack c.global single value) fun f hf => ?_
    unfold Field.pushBack
    split
    · exact hf
    · split
      · exact hf
      · split <;> exact hf
  | setPadSize name pad =>
    refine h.onField name (fun f => f.setPadSize c.nbBuf pad) fun f hf => ?_
    obtain ⟨a, b, d, e⟩ := Field.resize_frame { f with pad := pad } c.nbBuf
    unfold Field.setPadSize
    beta_reduce
    rw [e]; exact hf
  | setZero name => exact h.onField name _ fun f hf => hf
  | write name i v =>
    refine h.onField name (fun f => f.write i v) fun f hf => ?_
    unfold Field.write
    split <;> exact hf
  | cycle pre =>
    simp only [Coll.step, cycle]
    split
    · exact h
    · exact h.of_fields rfl
  | clone src dst ow =>
    have hreg : ∀ f, c.fields.find src = some f →
        ShapesPos (c.register dst f.ty (.num f.nbComp) f.tag f.unit false).2 :=
      fun f hf => h.register _ _ _ _ _ _ (pos_single (hi.comp src f hf))
    simp only [Coll.step]
    rcases clone_cases srt c src dst ow with h1 | ⟨f, h1, _, h2⟩ | ⟨g, vals, h1, h2, _, h3⟩ |
      ⟨f, g, vals, c1, h1, _, h2, h3, h4, h5⟩
    · rw [h1]; exact h
    · rw [h2]; exact hreg f h1
    · rw [h3]; exact h.insert (name := dst) (f := { g with vals := vals }) (h dst g h1) rfl
    · rw [h5]
      subst h2
      exact (hreg f h1).insert (name := dst) (f := { g with vals := vals }) (hreg f h1 dst g h3) rfl

/-- The pixels of an initialised global collection have their own places. -/
def AddrInv (c : Coll α U) : Prop :=
  c.global = true → c.initialised = true → (∀ n ∈ c.pixels.nb, 0 ≤ n) ∧ Addressing c.pixels.nb c.pixels.strides c.nbBuf

theorem subdomainOr_eq (dom sub : List Int) : subdomainOr dom sub = if sub = [] then dom else sub := by
  unfold subdomainOr
  by_cases h : sub = [] <;> simp [h]

theorem AddrInv.initGlobal {srt : SortFn} {c : Coll α U} (h : AddrInv c) {dom sub loc strides : List Int}
    (h0 : ∀ n ∈ subdomainOr dom sub, 0 ≤ n)
    (ha : ∀ size, getBufferSize (subdomainOr dom sub) strides = .ok size → Addressing (subdomainOr dom sub) strides size) :
    AddrInv (c.initGlobal srt dom sub loc strides).2 := by
  cases hi : c.initialised with
  | true => rw [(initGlobal_init hi).2]; exact h
  | false =>
    by_cases hok : (c.initGlobal srt dom sub loc strides).1 = .ok ()
    · obtain ⟨_, h1, h2, px, nb, h3, h4, h5⟩ := initGlobal_pixels hok
      simp only [base, Prod.mk.injEq] at h5
      obtain ⟨b1, b2, b3, b4, b5, b6, b7, b8, b9, b10⟩ := h5
      obtain ⟨p1, p2, p3⟩ := mkStrided_nb h3
      intro _ _
      rw [b5, b9, p1, p2]
      exact ⟨h0, ha nb h4⟩
    · intro _ hc
      rw [(initGlobal_notok_base hi hok).1] at hc; cases hc

/-- Default strides give the pixels their own places, also if there are none. -/
theorem addressing_default {nb : List Int} (h0 : ∀ n ∈ nb, 0 ≤ n) (hne : nb ≠ []) (order : StorageOrder) {size : Int}
    (hs : getBufferSize nb (if order = .colMajor then colMajorStrides nb else rowMajorStrides nb) = .ok size) :
    Addressing nb (if order = .colMajor then colMajorStrides nb else rowMajorStrides nb) size := by
  by_cases hp : Pos nb
  · obtain ⟨m, h1, h2⟩ := C18_global_pixels (nested_order (order := order) hp) hne
    rw [h1] at hs; cases hs; exact h2
  · have hno : ∀ c, ¬ InBox nb c := by
      intro c hc
      apply hp
      intro n hn
      clear hs hne h0 hp
      induction nb generalizing c with
      | nil => cases hn
      | cons m nb ih =>
        cases c with
        | nil => simp [InBox] at hc
        | cons x c =>
          simp only [InBox] at hc
          rcases List.mem_cons.1 hn with rfl | hn
          · omega
          · exact ih c hc.2.2 hn
    refine ⟨?_, fun c hc => absurd hc (hno c), fun c _ hc => absurd hc (hno c)⟩
    split
    · exact colMajorStrides_length nb
    · exact rowMajorStrides_length nb

theorem AddrInv.step {srt : SortFn} {c : Coll α U} (h : AddrInv c) (op : Op α U) (ha : c.Sane op) :
    AddrInv (c.step srt op).2 := by
  by_cases hs : op.setsPixels = false
  · have hb := step_base_other (c := c) srt op hs
    simp only [base, Prod.mk.injEq] at hb
    obtain ⟨b1, b2, b3, b4, b5, b6, b7, b8, b9, b10⟩ := hb
    unfold AddrInv
    rw [b1, b5, b7, b9]
    exact h
  · cases op with
    | initGlobal dom sub loc strides =>
      simp only [Coll.step]
      split
      · refine h.initGlobal ?_ ?_ <;> rw [subdomainOr_eq]
        · exact ha.1
        · exact ha.2
      · exact h
    | initGlobalOrder dom sub loc order =>
      simp only [Coll.step]
      split
      · unfold initGlobalOrder
        simp only
        have hsd : ∀ n ∈ subdomainOr dom sub, 0 ≤ n := by rw [subdomainOr_eq]; exact ha
        have hsub : subdomainOr dom (subdomainOr dom sub) = subdomainOr dom sub := by
          unfold subdomainOr
          split <;> simp_all
        have key : ∀ o : StorageOrder, AddrInv
            (match (if o = StorageOrder.colMajor then dynColMajorStrides (subdomainOr dom sub)
              else dynRowMajorStrides (subdomainOr dom sub)) with
            | Res.throw e => (Res.throw e, c)
            | Res.ub => (Res.ub, c)
            | Res.ok strides => c.initGlobal srt dom (subdomainOr dom sub) loc strides).2 := by
          intro o
          by_cases hl : (subdomainOr dom sub).length = 1 ∨ (subdomainOr dom sub).length = 2 ∨ (subdomainOr dom sub).length = 3
          · have hne : subdomainOr dom sub ≠ [] := by
              intro he; rw [he] at hl; simp at hl
            have he : (if o = .colMajor then dynColMajorStrides (subdomainOr dom sub)
                else dynRowMajorStrides (subdomainOr dom sub)) =
                .ok (if o = .colMajor then colMajorStrides (subdomainOr dom sub)
                  else rowMajorStrides (subdomainOr dom sub)) := by
              unfold dynColMajorStrides dynRowMajorStrides
              rw [if_pos hl, if_pos hl]
              split <;> rfl
            rw [he]
            refine h.initGlobal (by rw [hsub]; exact hsd) ?_
            rw [hsub]
            intro size hsz
            exact addressing_default hsd hne o hsz
          · have he : (if o = .colMajor then dynColMajorStrides (subdomainOr dom sub)
                else dynRowMajorStrides (subdomainOr dom sub)) = .throw .runtimeError := by
              unfold dynColMajorStrides dynRowMajorStrides
              rw [if_neg hl, if_neg hl]
              split <;> rfl
            rw [he]
            exact h
        exact key _
      · exact h
    | addPixel id =>
      simp only [Coll.step]
      split
      · exact h
      · rename_i hg
        unfold addPixel
        split
        · exact h
        · intro hg'; exact absurd hg' hg
    | initLocal =>
      simp only [Coll.step]
      split
      · exact h
      · rename_i hg
        cases hi : c.initialised with
        | true => rw [initLocal_init hi]; exact h
        | false =>
          intro hg'
          have := initLocal_base hi
          simp only [base, Prod.mk.injEq] at this
          rw [this.1] at hg'
          exact absurd hg' hg
    | _ => simp [Op.setsPixels] at hs

/-! ### No call is undefined -/

theorem resize_not_ub (f : Field α U) (n : Int) : (f.resize n).1 ≠ .ub := by
  unfold Field.resize
  split
  · simp
  · simp only
    split
    · simp
    · split <;> simp

theorem allocate_not_ub (p n : Int) (fs : SMap String (Field α U)) : (allocate p n fs).1 ≠ .ub := by
  induction fs with
  | nil => simp [allocate]
  | cons e fs ih =>
    obtain ⟨name, f⟩ := e
    unfold allocate
    split
    · simp
    · have hr := resize_not_ub f n
      rcases hr' : f.resize n with ⟨r, f'⟩
      rw [hr'] at hr
      cases r with
      | ok u =>
        simp only
        exact ih
      | throw e => simp
      | ub => exact absurd rfl hr

theorem allocateFields_not_ub (c : Coll α U) : c.allocateFields.1 ≠ .ub := by
  have := allocate_not_ub c.nbPixels c.nbBuf c.fields
  unfold allocateFields
  rcases ha : allocate c.nbPixels c.nbBuf c.fields with ⟨r, fs⟩
  rw [ha] at this
  exact this

theorem register_not_ub (c : Coll α U) (name : String) (ty : ElemType) (comps : Comps) (tag : String) (unit : U)
    (allow : Bool) : (c.register name ty comps tag unit allow).1 ≠ .ub := by
  rcases c.register_cases name ty comps tag unit allow with ⟨g, _, _, h3, _⟩ | ⟨_, f, _, h2, _⟩ | ⟨_, _, ⟨e, h2⟩, _⟩
  · exact h3
  · rw [h2]; simp
  · rw [h2]; simp

theorem registerSubFields_not_ub (c : Coll α U) (pre : String) (ty : ElemType) (n : Int) (tag : String) (unit : U) (i k : Nat) :
    (c.registerSubFields pre ty n tag unit i k).1 ≠ .ub := by
  induction k generalizing c i with
  | zero => simp [registerSubFields]
  | succ k ih =>
    unfold registerSubFields
    have := c.register_not_ub (subFieldName pre i) ty (.num n) tag unit false
    rcases hr : c.register (subFieldName pre i) ty (.num n) tag unit false with ⟨r, c1⟩
    rw [hr] at this
    cases r with
    | ok u => exact ih c1 (i + 1)
    | throw e => simp
    | ub => exact absurd rfl this

theorem registerState_not_ub (c : Coll α U) (pre : String) (ty : ElemType) (m n : Int) (tag : String) (unit : U) (allow : Bool) :
    (c.registerState pre ty m n tag unit allow).1 ≠ .ub := by
  unfold registerState
  cases c.states.find pre with
  | some s =>
    simp only
    repeat' split
    all_goals simp
  | none =>
    simp only
    split
    · simp
    · have := (c.getSub tag).2.registerSubFields_not_ub pre ty n tag unit 0 (m.toNat + 1)
      rcases hr : (c.getSub tag).2.registerSubFields pre ty n tag unit 0 (m.toNat + 1) with ⟨r, c2⟩
      rw [hr] at this
      cases r with
      | ok u => simp
      | throw e => simp
      | ub => exact absurd rfl this

theorem mkStrided_not_ub {srt : SortFn} (hsrt : SortSpec srt) (nb loc strides : List Int) :
    DynamicPixels.mkStrided srt nb loc strides ≠ .ub := by
  unfold DynamicPixels.mkStrided
  simp only
  split
  · simp
  · rename_i hl
    have hl' : strides.length = nb.length := by simpa using hl
    have hax : computeAxesOrder srt nb strides = .ok (srt (axesLt nb strides) (List.range nb.length)) := by
      unfold computeAxesOrder
      rw [if_neg (by omega)]
    have hperm := (hsrt _ (List.range nb.length) (axesLt_strictWeak nb strides)).1
    have hmem : ∀ a ∈ srt (axesLt nb strides) (List.range nb.length), a < nb.length := by
      intro a ha
      exact List.mem_range.1 (hperm.mem_iff.1 ha)
    have hb : ∃ b, isBufferContiguous srt nb strides = .ok b := by
      unfold isBufferContiguous
      split
      · exact ⟨_, rfl⟩
      · split
        · exact ⟨_, rfl⟩
        · rw [hax, Res.ok_bind]
          obtain ⟨b, h1, _⟩ := contiguousLoop_eq (nb := nb) (strides := strides)
            (as := srt (axesLt nb strides) (List.range nb.length)) (st := 1) (acc := true) hmem
            (fun a ha => by rw [hl']; exact hmem a ha)
          exact ⟨b, h1⟩
    obtain ⟨b, hb⟩ := hb
    rw [hax, Res.ok_bind, hb, Res.ok_bind]
    split <;> simp

theorem initGlobal_not_ub {srt : SortFn} (hsrt : SortSpec srt) (c : Coll α U) (dom sub loc strides : List Int) :
    (c.initGlobal srt dom sub loc strides).1 ≠ .ub := by
  unfold initGlobal
  simp only
  split
  · simp
  · split
    · simp
    · split
      · simp
      · have hm := mkStrided_not_ub hsrt (subdomainOr dom sub) loc strides
        cases hpx : DynamicPixels.mkStrided srt (subdomainOr dom sub) loc strides with
        | ub => exact absurd hpx hm
        | throw e => simp
        | ok px =>
          simp only
          cases hb : getBufferSize (subdomainOr dom sub) strides with
          | ub => unfold getBufferSize at hb; split at hb <;> cases hb
          | throw e => simp
          | ok nb =>
            simp only
            have := allocateFields_not_ub (c := ({ c with
                domainPts := dom, pixels := px, nbPixels := getSize (subdomainOr dom sub), nbBuf := nb } : Coll α U))
            rcases ha : Coll.allocateFields ({ c with
                domainPts := dom, pixels := px, nbPixels := getSize (subdomainOr dom sub), nbBuf := nb } : Coll α U) with ⟨r, c3⟩
            rw [ha] at this
            cases r with
            | ok u => simp
            | throw e => simp
            | ub => exact absurd rfl this

theorem initGlobalOrder_not_ub {srt : SortFn} (hsrt : SortSpec srt) (c : Coll α U) (dom sub loc : List Int)
    (order : StorageOrder) : (c.initGlobalOrder srt dom sub loc order).1 ≠ .ub := by
  unfold initGlobalOrder
  simp only
  split
  · simp
  · rename_i h
    exfalso
    unfold dynColMajorStrides dynRowMajorStrides at h
    repeat' split at h
    all_goals cases h
  · exact initGlobal_not_ub hsrt c _ _ _ _

theorem initLocal_not_ub (c : Coll α U) : c.initLocal.1 ≠ .ub := by
  unfold initLocal
  split
  · simp
  · have := allocateFields_not_ub (c := ({ c with nbPixels := c.pixelIndices.length, nbBuf := c.pixelIndices.length } : Coll α U))
    rcases ha : ({ c with nbPixels := c.pixelIndices.length, nbBuf := c.pixelIndices.length } : Coll α U).allocateFields with ⟨r, c3⟩
    rw [ha] at this
    cases r with
    | ok u => simp
    | throw e => simp
    | ub => exact absurd rfl this

theorem onField_not_ub (c : Coll α U) (name : String) (op : Field α U → Res Unit × Field α U)
    (hop : ∀ f, c.fields.find name = some f → (op f).1 ≠ .ub) : (c.onField name op).1 ≠ .ub := by
  rcases c.onField_cases name op with ⟨_, h2⟩ | ⟨f, h1, h2⟩ <;> rw [h2]
  · simp
  · exact hop f h1

/-- Every call but writing to memory and cloning is defined, on every collection. -/
theorem step_not_ub {srt : SortFn} (hsrt : SortSpec srt) (c : Coll α U) (op : Op α U) (hw : ∀ name i v, op ≠ .write name i v)
    (hc : ∀ src dst ow, op ≠ .clone src dst ow) : (c.step srt op).1 ≠ .ub := by
  cases op with
  | register name ty comps tag unit allow => exact c.register_not_ub _ _ _ _ _ _
  | registerState pre ty m n tag unit allow => exact c.registerState_not_ub _ _ _ _ _ _ _
  | pop name =>
    simp only [Coll.step]
    rcases c.pop_cases name with ⟨_, h2⟩ | ⟨f, _, h2⟩ <;> rw [h2] <;> simp [unitOf]
  | detached name ty shape tag unit =>
    simp only [Coll.step, detached]
    have hm := c.register_not_ub name ty (.shape shape) tag unit false
    rcases hr : c.register name ty (.shape shape) tag unit false with ⟨r, c1⟩
    rw [hr] at hm
    cases r with
    | ok u =>
      simp only
      rcases c1.take_cases name with ⟨_, h2⟩ | ⟨f, _, h2⟩ <;> rw [h2] <;> simp [unitOf]
    | throw e => simp [unitOf]
    | ub => exact absurd rfl hm
  | setNbSubPts tag n =>
    simp only [Coll.step]
    rcases c.setNbSubPts_cases tag n with ⟨h1, _⟩ | ⟨_, _, h1⟩ <;> rw [h1] <;> simp
  | getSub tag => simp [Coll.step]
  | initGlobal dom sub loc strides =>
    simp only [Coll.step]
    split
    · exact initGlobal_not_ub hsrt c _ _ _ _
    · simp
  | initGlobalOrder dom sub loc order =>
    simp only [Coll.step]
    split
    · exact initGlobalOrder_not_ub hsrt c _ _ _ _
    · simp
  | addPixel id =>
    simp only [Coll.step, addPixel]
    repeat' split
    all_goals simp
  | initLocal =>
    simp only [Coll.step]
    split
    · simp
    · exact initLocal_not_ub c
  | reshape name shape =>
    refine onField_not_ub c name (fun f => f.reshape shape) fun f _ => ?_
    unfold Field.reshape
    split <;> simp
  | reshapeTag name shape tag =>
    simp only [Coll.step]
    rcases c.reshapeTag_cases name shape tag with ⟨_, h2⟩ | ⟨f, _, _, h2⟩ | ⟨f, h0, h1, h2⟩ <;> rw [h2] <;> simp
  | pushBack name single value =>
    refine onField_not_ub c name (fun f => f.pushBack c.global single value) fun f _ => ?_
    unfold Field.pushBack
    repeat' split
    all_goals simp
  | setPadSize name pad => exact onField_not_ub c name _ fun f _ => resize_not_ub _ _
  | setZero name => exact onField_not_ub c name _ fun f _ => by simp [Field.setZero]
  | write name i v => exact absurd rfl (hw name i v)
  | cycle pre =>
    simp only [Coll.step, cycle]
    split <;> simp
  | clone src dst ow => exact absurd rfl (hc src dst ow)

/-- Assignment between two fields of an initialised collection is defined. -/
theorem assignField_not_ub {srt : SortFn} (hsrt : SortSpec srt) {c : Coll α U} (hinv : SizeInv c) (hpix : PixInv srt c)
    (hsh : ShapesPos c) (had : AddrInv c) (hi : c.global = true → c.initialised = true) {s d : String} {f g : Field α U}
    (hf : c.fields.find s = some f) (hg : c.fields.find d = some g) (ht : g.tag = f.tag) (hn : g.nbComp = f.nbComp) :
    (c.assignField srt f g).1 ≠ .ub := by
  have hsub : g.nbSub = f.nbSub := by
    have h1 := hinv.wf.tags s f hf
    have h2 := hinv.wf.tags d g hg
    rw [ht, h1] at h2
    exact (Option.some.inj h2).symm
  unfold assignField
  split
  · rename_i hgl
    have hin := hi hgl
    obtain ⟨hnn, haddr⟩ := had hgl hin
    obtain ⟨f1, f2, f3⟩ := hinv.size hin s f hf
    obtain ⟨g1, g2, g3⟩ := hinv.size hin d g hg
    have hposf : 1 ≤ f.nbSub := (hinv.sub_pos hf).resolve_left f1
    have hps : ∀ h : Field α U, (c.layout h).pixShape = c.pixels.nb := fun h => by simp [Coll.layout, hgl]
    have hpt : ∀ h : Field α U, (c.layout h).pixStrides = c.pixels.strides := fun h => by simp [Coll.layout, hgl]
    have haL : ∀ h : Field α U, Addressing (c.layout h).pixShape (c.layout h).pixStrides (c.layout h).nbBuf := by
      intro h; rw [hps, hpt]; exact haddr
    by_cases hs : (c.layout g).shape .subPt = (c.layout f).shape .subPt
    · by_cases ho : c.order = .colMajor ∨ c.order = .rowMajor
      · by_cases h0 : (0 : Int) ∈ (c.layout g).shape .subPt
        · rw [C20_empty srt (c.layout g) (c.layout f) _ _ ho ho (haL g).length_eq (haL f).length_eq hs h0]
          simp
        · have hpos : Pos ((c.layout g).shape .subPt) := by
            intro m hm
            have hm0 : m ≠ 0 := fun e => h0 (e ▸ hm)
            rw [FieldLayout.shape_subPt, List.mem_append, List.mem_append] at hm
            rcases hm with (hm | hm) | hm
            · exact hsh d g hg m hm
            · rw [List.mem_singleton] at hm
              have : m = g.nbSub := hm
              omega
            · rw [hps] at hm
              have := hnn m hm
              omega
          have hmem : ∀ (h : Field α U) (nm : String), c.fields.find nm = some h → h.fresh = true →
              (h.vals.length : Int) = h.nbComp * h.nbSub * c.nbBuf + h.pad → ∀ i, 0 ≤ i →
              i < (c.layout h).nbComp * (c.layout h).nbSub * (c.layout h).nbBuf → (Field.mem h i).isSome := by
            intro h nm hfind hfr hl i i0 i1
            have hnc : (c.layout h).nbComp = h.nbComp := (hinv.wf.comps nm h hfind).symm
            have i2 : i < h.nbComp * h.nbSub * c.nbBuf := by rw [hnc] at i1; exact i1
            simp only [Field.mem, hfr, i0, and_self, if_true]
            rw [List.getElem?_eq_getElem (by omega)]; rfl
          obtain ⟨ms, os, dst', _, _, h3, _⟩ := C20_assign hsrt (c.layout g) (c.layout f) (Field.mem f) (Field.mem g)
            ho ho (haL g) (haL f) hpos hs (hmem f s hf f3 f2) (hmem g d hg g3 g2)
          rw [h3]; simp
      · have ho' : c.order ≠ .colMajor ∧ c.order ≠ .rowMajor := not_or.1 ho
        have hthrow : FieldLayout.assign srt (c.layout g) (c.layout f) (Field.mem f) (Field.mem g) = .throw .fieldError := by
          unfold FieldLayout.assign
          rw [if_neg (by simp [hs])]
          have hstr : (c.layout g).strides .subPt 1 = .throw .fieldError := by
            unfold FieldLayout.strides FieldLayout.subPtStrides FieldLayout.componentsStrides
            have e : (c.layout g).order = c.order := rfl
            rw [e]
            rcases hco : c.order <;> simp_all
          rw [hstr, Res.throw_bind]
        rw [hthrow]; simp
    · rw [C20_shape_mismatch srt _ _ _ _ hs]; simp
  · rename_i hgl
    have hgl' : c.global = false := by simpa using hgl
    split
    · simp
    · rename_i hne
      push Not at hne
      obtain ⟨hin, hfe, hge⟩ := hne
      have hin : c.initialised = true := by simpa using hin
      obtain ⟨f1, f2, f3⟩ := hinv.size hin s f hf
      obtain ⟨g1, g2, g3⟩ := hinv.size hin d g hg
      obtain ⟨hp1, hp2⟩ := hpix.loc hgl' hin
      have hposf : 1 ≤ f.nbSub := (hinv.sub_pos hf).resolve_left f1
      have hcomp := hinv.comp s f hf
      have e1 : f.nbEntries c.nbPixels * f.nbComp = f.nbComp * f.nbSub * c.nbBuf := by
        unfold Field.nbEntries Field.hasSub
        rw [if_pos (by simpa using f1), hp1, hp2]; ring
      have e2 : g.nbEntries c.nbPixels * g.nbComp = f.nbComp * f.nbSub * c.nbBuf := by
        unfold Field.nbEntries Field.hasSub
        rw [if_pos (by simpa using g1), hp1, hp2, hsub, hn]; ring
      rw [hsub, hn] at g2
      have h0 : 0 ≤ f.nbComp * f.nbSub * c.nbBuf := by
        have := hinv.buf hin
        positivity
      simp only [e1, e2]
      rw [if_pos ⟨trivial, h0, by omega, by omega, f3, g3⟩]
      simp

theorem PixInv.of_fields {srt : SortFn} {c c' : Coll α U} (h : PixInv srt c) (e : c'.base = c.base) : PixInv srt c' := h.of_base e

theorem clone_not_ub {srt : SortFn} (hsrt : SortSpec srt) {c : Coll α U} (hinv : SizeInv c) (hpix : PixInv srt c)
    (hsh : ShapesPos c) (had : AddrInv c) (hi : c.global = true → c.initialised = true) (src dst : String) (ow : Bool) :
    (c.clone srt src dst ow).1 ≠ .ub := by
  unfold clone
  cases hf : c.fields.find src with
  | none => simp
  | some f =>
    simp only
    cases hd : c.fields.find dst with
    | some g =>
      simp only
      split
      · simp
      · split
        · simp
        · rename_i hn
          split
          · simp
          · rename_i ht
            split
            · simp
            · have := assignField_not_ub hsrt hinv hpix hsh had hi hf hd (by simpa using ht) (by simpa using hn)
              exact this
    | none =>
      simp only
      have hreg := c.register_not_ub dst f.ty (.num f.nbComp) f.tag f.unit false
      have hinv' := hinv.register dst f.ty (.num f.nbComp) f.tag f.unit false (hinv.comp src f hf)
      have hsh' := hsh.register dst f.ty (.num f.nbComp) f.tag f.unit false (pos_single (hinv.comp src f hf))
      have hfr := (c.register_frame dst f.ty (.num f.nbComp) f.tag f.unit false).1
      rcases c.register_cases dst f.ty (.num f.nbComp) f.tag f.unit false with
        ⟨g, h1, _⟩ | ⟨_, g, ⟨f1, f2, f3, f4, f5, f6, f7⟩, h2, _, _⟩ | ⟨_, _, ⟨e, h2⟩, _⟩
      · rw [hd] at h1; cases h1
      · rw [h2] at hinv' hsh' hfr ⊢
        simp only [SMap.find_insert_self]
        have hne : src ≠ dst := by rintro rfl; rw [hf] at hd; cases hd
        have hb := hfr
        simp only [base, Prod.mk.injEq] at hb
        obtain ⟨b1, b2, b3, b4, b5, b6, b7, b8, b9, b10⟩ := hb
        have had' : AddrInv ({ (c.getSub f.tag).2 with fields := c.fields.insert dst g } : Coll α U) := by
          unfold AddrInv
          simp only at b1 b5 b7 b9 ⊢
          rw [b1, b5, b7, b9]; exact had
        have := assignField_not_ub (srt := srt) hsrt hinv' (hpix.of_base hfr) hsh' had'
          (by simp only at b1 b7 ⊢; rw [b1, b7]; exact hi) (s := src) (d := dst) (f := f) (g := g)
          (by simp only [SMap.find_insert, if_neg hne]; exact hf) (by simp only [SMap.find_insert_self])
          f5 f3
        rcases ha : ({ (c.getSub f.tag).2 with fields := c.fields.insert dst g } : Coll α U).assignField srt f g with ⟨r, g'⟩
        rw [ha] at this
        exact this
      · rcases hr : c.register dst f.ty (.num f.nbComp) f.tag f.unit false with ⟨r, c1⟩
        rw [hr] at h2
        cases h2
        simp

end Verif.Collection.Coll
