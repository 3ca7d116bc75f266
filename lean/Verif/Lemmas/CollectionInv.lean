import Mathlib.Data.List.Nodup
import Mathlib.Data.List.Perm.Subperm
import Verif.Lemmas.Collection
/-
Invariants of field collections: sizes of fields, description of the pixels.
-/
set_option linter.unusedSectionVars false

namespace Verif.Collection
open Verif Verif.Ccoord Verif.Layout

namespace Coll
variable {α U : Type} [Inhabited α] [DecidableEq U]

/-- Calls that change the description of the pixels. -/
def _root_.Verif.Collection.Coll.Op.setsPixels : Op α U → Bool
  | .initGlobal _ _ _ _ => true
  | .initGlobalOrder _ _ _ _ => true
  | .addPixel _ => true
  | .initLocal => true
  | _ => false

theorem step_base_other {c : Coll α U} (srt : SortFn) (op : Op α U) (h : op.setsPixels = false) :
    (c.step srt op).2.base = c.base := by
  cases op with
  | register name ty comps tag unit allow => exact (register_frame _ _ _ _ _ _ _).1
  | registerState pre ty m n tag unit allow => exact (registerState_frame _ _ _ _ _ _ _ _).1
  | pop name =>
    simp only [Coll.step]
    rcases c.pop_cases name with ⟨_, h2⟩ | ⟨f, _, h2⟩ <;> rw [h2] <;> rfl
  | detached name ty shape tag unit =>
    simp only [Coll.step, detached]
    have hm := (c.register_frame name ty (.shape shape) tag unit false).1
    rcases hr : c.register name ty (.shape shape) tag unit false with ⟨r, c1⟩
    rw [hr] at hm
    cases r with
    | ok u =>
      simp only
      rcases c1.take_cases name with ⟨_, h2⟩ | ⟨f, _, h2⟩ <;> rw [h2] <;> exact hm
    | throw e => exact hm
    | ub => exact hm
  | setNbSubPts tag n =>
    simp only [Coll.step]
    rcases c.setNbSubPts_cases tag n with ⟨h1, _⟩ | ⟨_, _, h1⟩ <;> rw [h1] <;> rfl
  | getSub tag => exact (getSub_frame c tag).1
  | initGlobal dom sub loc strides => simp [Op.setsPixels] at h
  | initGlobalOrder dom sub loc order => simp [Op.setsPixels] at h
  | addPixel id => simp [Op.setsPixels] at h
  | initLocal => simp [Op.setsPixels] at h
  | reshape name shape => exact (onField_frame _ _ _).1
  | reshapeTag name shape tag =>
    simp only [Coll.step]
    rcases c.reshapeTag_cases name shape tag with ⟨_, h2⟩ | ⟨f, _, _, h2⟩ | ⟨f, h0, _, h2⟩ <;> rw [h2]
    · exact (getSub_frame c tag).1
    · exact (getSub_frame c tag).1
  | pushBack name single value => exact (onField_frame _ _ _).1
  | setPadSize name pad => exact (onField_frame _ _ _).1
  | setZero name => exact (onField_frame _ _ _).1
  | write name i v => exact (onField_frame _ _ _).1
  | cycle pre =>
    simp only [Coll.step, cycle]
    split <;> rfl
  | clone src dst ow => exact (clone_frame srt c src dst ow).1

theorem bufferSizeAux_ge (nb : List Int) : ∀ (acc : Int) (ss : List Int), acc ≤ bufferSizeAux acc nb ss := by
  induction nb with
  | nil => intro acc ss; cases ss <;> simp [bufferSizeAux]
  | cons n nb ih =>
    intro acc ss
    cases ss with
    | nil => simp [bufferSizeAux]
    | cons s ss =>
      have := ih (max acc (n * s)) ss
      simp only [bufferSizeAux]
      omega

theorem getBufferSize_nonneg {nb ss : List Int} {n : Int} (h : getBufferSize nb ss = .ok n) : 0 ≤ n := by
  unfold getBufferSize at h
  split at h
  · cases h
  · cases h; exact bufferSizeAux_ge nb 0 ss

/-- What initialisation makes of the pixels. -/
structure PixInv (srt : SortFn) (c : Coll α U) : Prop where
  /-- global collections -/
  glob : c.global = true → c.initialised = true →
    0 < getSize c.domainPts ∧ 0 ≤ getSize c.pixels.nb ∧
    (∃ loc, DynamicPixels.mkStrided srt c.pixels.nb loc c.pixels.strides = .ok c.pixels) ∧
    c.nbPixels = getSize c.pixels.nb ∧ getBufferSize c.pixels.nb c.pixels.strides = .ok c.nbBuf ∧
    c.pixelIndices = (List.range (getSize c.pixels.nb).toNat).map (fun i : Nat => (i : Int))
  /-- local collections -/
  loc : c.global = false → c.initialised = true →
    c.nbPixels = c.pixelIndices.length ∧ c.nbBuf = c.pixelIndices.length
  /-- the map from global to local indices -/
  sorted : c.g2l.Sorted
  first : c.global = false → ∀ id k, c.g2l.find id = some k ↔
    ∃ i : Nat, k = i ∧ c.pixelIndices[i]? = some id ∧ ∀ j < i, c.pixelIndices[j]? ≠ some id

theorem PixInv.of_base {srt : SortFn} {c c' : Coll α U} (h : PixInv srt c) (hb : c'.base = c.base) :
    PixInv srt c' := by
  simp only [base, Prod.mk.injEq] at hb
  obtain ⟨b1, b2, b3, b4, b5, b6, b7, b8, b9, b10⟩ := hb
  refine ⟨?_, ?_, ?_, ?_⟩
  · rw [b1, b7, b8, b9, b4, b5, b6]; exact h.glob
  · rw [b1, b7, b4, b5, b6]; exact h.loc
  · rw [b10]; exact h.sorted
  · rw [b1, b10, b6]; exact h.first

theorem allocateFields_base (c : Coll α U) : c.allocateFields.2.base = c.base := by
  obtain ⟨fs, h, _⟩ := c.allocateFields_frame
  rw [h]; rfl

theorem mkStrided_nb {srt : SortFn} {nb loc strides : List Int} {px : DynamicPixels}
    (h : DynamicPixels.mkStrided srt nb loc strides = .ok px) :
    px.nb = nb ∧ px.strides = strides ∧ px.loc = DynamicPixels.fillLoc nb loc := by
  unfold DynamicPixels.mkStrided at h
  simp only at h
  split at h
  · cases h
  · rw [Res.bind_eq_ok] at h
    obtain ⟨axes, _, h⟩ := h
    rw [Res.bind_eq_ok] at h
    obtain ⟨b, _, h⟩ := h
    split at h
    · cases h
    · simp at h; subst h; exact ⟨rfl, rfl, rfl⟩

/-- What `initialise` does to the pixels of a global collection. -/
theorem initGlobal_pixels {srt : SortFn} {c : Coll α U} {dom sub loc strides : List Int}
    (h : (c.initGlobal srt dom sub loc strides).1 = .ok ()) :
    c.initialised = false ∧ 0 < getSize dom ∧ 0 ≤ getSize (subdomainOr dom sub) ∧ ∃ px nb,
      DynamicPixels.mkStrided srt (subdomainOr dom sub) loc strides = .ok px ∧
      getBufferSize (subdomainOr dom sub) strides = .ok nb ∧
      (c.initGlobal srt dom sub loc strides).2.base =
        (c.global, c.dim, c.order, getSize (subdomainOr dom sub), nb,
          (List.range (getSize (subdomainOr dom sub)).toNat).map (fun i : Nat => (i : Int)), true, dom,
          px, c.g2l) := by
  have key : ∀ r : Res Unit × Coll α U, c.initGlobal srt dom sub loc strides = r → r.1 = .ok () →
    c.initialised = false ∧ 0 < getSize dom ∧ 0 ≤ getSize (subdomainOr dom sub) ∧ ∃ px nb,
      DynamicPixels.mkStrided srt (subdomainOr dom sub) loc strides = .ok px ∧
      getBufferSize (subdomainOr dom sub) strides = .ok nb ∧
      r.2.base =
        (c.global, c.dim, c.order, getSize (subdomainOr dom sub), nb,
          (List.range (getSize (subdomainOr dom sub)).toNat).map (fun i : Nat => (i : Int)), true, dom,
          px, c.g2l) := by
    intro r hr h
    unfold initGlobal at hr
    simp only at hr
    split at hr
    · subst hr; cases h
    · rename_i hd
      split at hr
      · subst hr; cases h
      · rename_i hs
        split at hr
        · subst hr; cases h
        · rename_i hi
          split at hr
          · subst hr; cases h
          · subst hr; cases h
          · rename_i px hpx
            split at hr
            · subst hr; cases h
            · subst hr; cases h
            · rename_i nb hnb
              have hb := allocateFields_base (c := ({ c with
                domainPts := dom, pixels := px, nbPixels := getSize (subdomainOr dom sub),
                nbBuf := nb } : Coll α U))
              split at hr
              · rename_i u c3 hc3
                refine ⟨by simpa using hi, by omega, by omega, px, nb, hpx, hnb, ?_⟩
                rw [hc3] at hb
                subst hr
                simp only [base, Prod.mk.injEq] at hb ⊢
                tauto
              · rename_i r1 c3 hne hc3
                subst hr
                simp only at h
                subst h
                exact absurd rfl (hne ())
  exact key _ rfl h

theorem initGlobal_notok_base {srt : SortFn} {c : Coll α U} {dom sub loc strides : List Int}
    (hi : c.initialised = false) (h : (c.initGlobal srt dom sub loc strides).1 ≠ .ok ()) :
    (c.initGlobal srt dom sub loc strides).2.initialised = false ∧
    (c.initGlobal srt dom sub loc strides).2.global = c.global ∧
    (c.initGlobal srt dom sub loc strides).2.g2l = c.g2l := by
  have he := initGlobal_effect srt c dom sub loc strides hi
  refine ⟨?_, he.kind.1, he.kind.2.2.2⟩
  cases hr : (c.initGlobal srt dom sub loc strides).2.initialised with
  | true => exact absurd (he.init.1 hr) h
  | false => rfl

theorem initGlobal_step (srt : SortFn) {c : Coll α U} (h : PixInv srt c) (hg : c.global = true)
    (dom sub loc strides : List Int) : PixInv srt (c.initGlobal srt dom sub loc strides).2 := by
  cases hi : c.initialised with
  | true => rw [(initGlobal_init hi).2]; exact h
  | false =>
    by_cases hok : (c.initGlobal srt dom sub loc strides).1 = .ok ()
    · obtain ⟨_, h1, h2, px, nb, h3, h4, h5⟩ := initGlobal_pixels hok
      simp only [base, Prod.mk.injEq] at h5
      obtain ⟨b1, b2, b3, b4, b5, b6, b7, b8, b9, b10⟩ := h5
      obtain ⟨p1, p2, p3⟩ := mkStrided_nb h3
      refine ⟨?_, ?_, ?_, ?_⟩
      · intro _ _
        rw [b4, b5, b6, b8, b9]
        rw [p1, p2]
        exact ⟨h1, h2, ⟨loc, h3⟩, rfl, h4, rfl⟩
      · intro hl; rw [b1, hg] at hl; cases hl
      · rw [b10]; exact h.sorted
      · intro hl; rw [b1, hg] at hl; cases hl
    · obtain ⟨n1, n2, n3⟩ := initGlobal_notok_base hi hok
      refine ⟨?_, ?_, ?_, ?_⟩
      · intro _ hc; rw [n1] at hc; cases hc
      · intro _ hc; rw [n1] at hc; cases hc
      · rw [n3]; exact h.sorted
      · intro hl; rw [n2, hg] at hl; cases hl

theorem initLocal_base {c : Coll α U} (hi : c.initialised = false) :
    c.initLocal.2.base = (c.global, c.dim, c.order, (c.pixelIndices.length : Int), (c.pixelIndices.length : Int),
      c.pixelIndices, c.initLocal.2.initialised, c.domainPts, c.pixels, c.g2l) := by
  have hb := allocateFields_base (c := ({ c with nbPixels := c.pixelIndices.length, nbBuf := c.pixelIndices.length } : Coll α U))
  unfold initLocal
  rw [if_neg (by simp [hi])]
  split
  · rename_i u c3 hc3
    rw [hc3] at hb
    simp only [base, Prod.mk.injEq] at hb ⊢
    tauto
  · rename_i r c3 _ hc3
    rw [hc3] at hb
    simp only [base, Prod.mk.injEq] at hb ⊢
    tauto

theorem PixInv.step {srt : SortFn} {c : Coll α U} (h : PixInv srt c) (op : Op α U) :
    PixInv srt (c.step srt op).2 := by
  by_cases hs : op.setsPixels = false
  · exact h.of_base (step_base_other srt op hs)
  cases op with
  | initGlobal dom sub loc strides =>
    simp only [Coll.step]
    split
    · rename_i hg
      exact initGlobal_step srt h hg dom sub loc strides
    · exact h
  | initGlobalOrder dom sub loc order =>
    simp only [Coll.step]
    split
    · rename_i hg
      unfold initGlobalOrder
      simp only
      split
      · exact h
      · exact h
      · exact initGlobal_step srt h hg dom _ loc _
    · exact h
  | addPixel id =>
    simp only [Coll.step, addPixel]
    split
    · exact h
    · split
      · exact h
      · rename_i hg hi
        have hi' : c.initialised = false := by simpa using hi
        refine ⟨?_, ?_, ?_, ?_⟩
        · intro hl; exact absurd hl hg
        · intro _ hc; simp only [hi'] at hc; cases hc
        · simp only [SMap.emplace]
          split
          · exact h.sorted
          · exact SMap.sorted_insert h.sorted _ _
        · intro hl id' k
          have hf := h.first hl
          simp only [SMap.emplace]
          cases hfi : c.g2l.find id with
          | some k0 =>
            simp only
            obtain ⟨i0, e0, e1, e2⟩ := (hf id k0).1 hfi
            have hi0 : i0 < c.pixelIndices.length := by
              by_contra hcon
              rw [List.getElem?_eq_none (by omega)] at e1; cases e1
            rw [hf]
            constructor
            · rintro ⟨i, r0, r1, r2⟩
              have hil : i < c.pixelIndices.length := by
                by_contra hcon
                rw [List.getElem?_eq_none (by omega)] at r1; cases r1
              refine ⟨i, r0, by rw [List.getElem?_append_left hil]; exact r1, ?_⟩
              intro j hj
              rw [List.getElem?_append_left (by omega)]; exact r2 j hj
            · rintro ⟨i, r0, r1, r2⟩
              have hil : i < c.pixelIndices.length := by
                by_contra hcon
                have hlast : i = c.pixelIndices.length := by
                  by_contra hne
                  rw [List.getElem?_eq_none (by simp; omega)] at r1; cases r1
                subst hlast
                simp at r1
                subst r1
                have := r2 i0 hi0
                rw [List.getElem?_append_left hi0] at this
                exact this e1
              refine ⟨i, r0, by rw [List.getElem?_append_left hil] at r1; exact r1, ?_⟩
              intro j hj
              have := r2 j hj
              rw [List.getElem?_append_left (by omega)] at this; exact this
          | none =>
            simp only
            have hno : ∀ j : Nat, c.pixelIndices[j]? ≠ some id := by
              have hmin : ∀ n : Nat, ∀ j < n, c.pixelIndices[j]? ≠ some id := by
                intro n
                induction n with
                | zero => intro j hj; omega
                | succ n ih =>
                  intro j hj hcon
                  have : c.g2l.find id = some (j : Int) :=
                    (hf id j).2 ⟨j, rfl, hcon, fun m hm => ih m (by omega)⟩
                  rw [hfi] at this; cases this
              exact fun j => hmin (j + 1) j (by omega)
            rw [SMap.find_insert]
            split
            · rename_i heq
              subst heq
              constructor
              · intro he
                cases he
                refine ⟨c.pixelIndices.length, rfl, by simp, ?_⟩
                intro j hj
                rw [List.getElem?_append_left hj]; exact hno j
              · rintro ⟨i, r0, r1, r2⟩
                have : i = c.pixelIndices.length := by
                  by_contra hne
                  rcases Nat.lt_or_ge i c.pixelIndices.length with hlt | hge
                  · rw [List.getElem?_append_left hlt] at r1; exact hno i r1
                  · rw [List.getElem?_eq_none (by simp; omega)] at r1; cases r1
                rw [r0, this]
            · rename_i hne
              rw [hf]
              constructor
              · rintro ⟨i, r0, r1, r2⟩
                have hil : i < c.pixelIndices.length := by
                  by_contra hcon
                  rw [List.getElem?_eq_none (by omega)] at r1; cases r1
                refine ⟨i, r0, by rw [List.getElem?_append_left hil]; exact r1, ?_⟩
                intro j hj
                rw [List.getElem?_append_left (by omega)]; exact r2 j hj
              · rintro ⟨i, r0, r1, r2⟩
                have hil : i < c.pixelIndices.length := by
                  by_contra hcon
                  have hlast : i = c.pixelIndices.length := by
                    by_contra hne
                    rw [List.getElem?_eq_none (by simp; omega)] at r1; cases r1
                  subst hlast
                  simp at r1
                  exact hne r1.symm
                refine ⟨i, r0, by rw [List.getElem?_append_left hil] at r1; exact r1, ?_⟩
                intro j hj
                have := r2 j hj
                rw [List.getElem?_append_left (by omega)] at this; exact this
  | initLocal =>
    simp only [Coll.step]
    split
    · exact h
    · rename_i hg
      cases hi : c.initialised with
      | true => rw [initLocal_init hi]; exact h
      | false =>
        have hb := initLocal_base hi
        simp only [base, Prod.mk.injEq] at hb
        obtain ⟨b1, b2, b3, b4, b5, b6, b7, b8, b9, b10⟩ := hb
        refine ⟨?_, ?_, ?_, ?_⟩
        · intro hl; rw [b1] at hl; exact absurd hl hg
        · intro _ _; rw [b4, b5, b6]; exact ⟨rfl, rfl⟩
        · rw [b10]; exact h.sorted
        · rw [b1, b10, b6]; exact h.first
  | _ => exact absurd rfl hs

theorem mk'_pixInv (srt : SortFn) {global : Bool} {dim : Int} {order : StorageOrder}
    {sub : SMap String Int} {c : Coll α U} (h : mk' global dim order sub = .ok c) : PixInv srt c := by
  rw [(mk'_spec h).2]
  refine ⟨?_, ?_, List.Pairwise.nil, ?_⟩
  · intro _ hc; cases hc
  · intro _ hc; cases hc
  · intro _ id k
    constructor
    · intro hc; cases hc
    · rintro ⟨i, _, r1, _⟩; simp [empty] at r1

/-- Sizes of fields: sub-point numbers are positive or unknown, component numbers positive, and after
initialisation every buffer has the size its attributes ask for. -/
structure SizeInv (c : Coll α U) : Prop where
  wf : c.WF
  sub : ∀ tag n, c.subPts.find tag = some n → n = Unknown ∨ 1 ≤ n
  comp : ∀ name f, c.fields.find name = some f → 1 ≤ f.nbComp
  buf : c.initialised = true → 0 ≤ c.nbBuf
  size : c.initialised = true → ∀ name f, c.fields.find name = some f →
    f.nbSub ≠ Unknown ∧ (f.vals.length : Int) = f.nbComp * f.nbSub * c.nbBuf + f.pad ∧ f.fresh = true

/-- Calls whose component numbers are positive; `push_back` only before initialisation. -/
def Adm (c : Coll α U) : Op α U → Prop
  | .register _ _ comps _ _ _ => 1 ≤ comps.toNb
  | .registerState _ _ _ n _ _ _ => 1 ≤ n
  | .detached _ _ shape _ _ => 1 ≤ getSize shape
  | .reshapeTag _ shape _ => 1 ≤ getSize shape
  | .pushBack _ _ _ => c.initialised = false
  | _ => True

theorem SizeInv.sub_pos {c : Coll α U} (h : SizeInv c) {name : String} {f : Field α U}
    (hf : c.fields.find name = some f) : f.nbSub = Unknown ∨ 1 ≤ f.nbSub :=
  h.sub _ _ (h.wf.tags name f hf)

theorem SizeInv.getSub {c : Coll α U} (h : SizeInv c) (tag : String) : SizeInv (c.getSub tag).2 := by
  obtain ⟨hb, hf, _⟩ := c.getSub_frame tag
  simp only [base, Prod.mk.injEq] at hb
  obtain ⟨b1, b2, b3, b4, b5, b6, b7, b8, b9, b10⟩ := hb
  refine ⟨h.wf.getSub tag, ?_, ?_, ?_, ?_⟩
  · intro t n ht
    rw [getSub_find] at ht
    split at ht
    · cases ht
      rw [getSub_fst]
      cases hg : c.subPts.find tag with
      | none => exact Or.inl rfl
      | some k => exact h.sub tag k hg
    · exact h.sub t n ht
  · rw [hf]; exact h.comp
  · rw [b7, b5]; exact h.buf
  · rw [b7, b5, hf]; exact h.size

theorem SizeInv.insertField {c : Coll α U} (h : SizeInv c) (name : String) (f : Field α U)
    (hc : f.nbComp = getSize f.shape) (ht : c.subPts.find f.tag = some f.nbSub) (hp : 1 ≤ f.nbComp)
    (hs : c.initialised = true → f.nbSub ≠ Unknown ∧
      (f.vals.length : Int) = f.nbComp * f.nbSub * c.nbBuf + f.pad ∧ f.fresh = true) :
    SizeInv ({ c with fields := c.fields.insert name f } : Coll α U) := by
  refine ⟨h.wf.insertField name f hc ht, h.sub, ?_, h.buf, ?_⟩
  · intro n g hg
    simp only [SMap.find_insert] at hg
    split at hg
    · cases hg; exact hp
    · exact h.comp n g hg
  · intro hi n g hg
    simp only [SMap.find_insert] at hg
    split at hg
    · cases hg; exact hs hi
    · exact h.size hi n g hg

theorem SizeInv.states {c : Coll α U} (h : SizeInv c) (pre : String) (s : StateField U) :
    SizeInv ({ c with states := c.states.insert pre s } : Coll α U) :=
  ⟨h.wf.insertState pre s, h.sub, h.comp, h.buf, h.size⟩

theorem SizeInv.eraseField {c : Coll α U} (h : SizeInv c) (name : String) :
    SizeInv ({ c with fields := c.fields.erase name } : Coll α U) := by
  have hs := h.wf.fields_sorted
  refine ⟨h.wf.eraseField name, h.sub, ?_, h.buf, ?_⟩
  · intro n g hg
    simp only [SMap.find_erase hs] at hg
    split at hg
    · cases hg
    · exact h.comp n g hg
  · intro hi n g hg
    simp only [SMap.find_erase hs] at hg
    split at hg
    · cases hg
    · exact h.size hi n g hg

theorem SizeInv.mapStates {c : Coll α U} (h : SizeInv c) (g : StateField U → StateField U) :
    SizeInv ({ c with states := c.states.map (fun e => (e.1, g e.2)) } : Coll α U) :=
  ⟨h.wf.mapStates g, h.sub, h.comp, h.buf, h.size⟩

theorem SizeInv.register {c : Coll α U} (h : SizeInv c) (name : String) (ty : ElemType) (comps : Comps)
    (tag : String) (unit : U) (allow : Bool) (hp : 1 ≤ comps.toNb) :
    SizeInv (c.register name ty comps tag unit allow).2 := by
  rcases c.register_cases name ty comps tag unit allow with
    ⟨g, h1, h2, _⟩ | ⟨_, f, ⟨f1, f2, f3, f4, f5, f6, f7⟩, h2, h3, h4⟩ | ⟨_, _, _, h3⟩
  · rw [h2]; exact h
  · rw [h2]
    obtain ⟨hb, hf, _⟩ := c.getSub_frame tag
    simp only [base, Prod.mk.injEq] at hb
    obtain ⟨b1, b2, b3, b4, b5, b6, b7, b8, b9, b10⟩ := hb
    have := (h.getSub tag).insertField name f (by rw [f3, f2, toNb_eq])
      (by rw [f5, getSub_find, if_pos rfl, f4]) (by rw [f3]; exact hp)
      (by
        intro hi
        rw [b7] at hi
        obtain ⟨e1, e2, e3, e4, _⟩ := h4 hi
        refine ⟨e1, ?_, e3⟩
        rw [e4, b5, f7]
        push_cast; ring)
    rw [hf] at this
    exact this
  · rw [h3]; exact h.getSub tag

theorem SizeInv.pop {c : Coll α U} (h : SizeInv c) (name : String) : SizeInv (c.pop name).2 := by
  rcases c.pop_cases name with ⟨_, h2⟩ | ⟨f, _, h2⟩ <;> rw [h2]
  · exact h
  · exact (h.eraseField name).mapStates _

theorem SizeInv.take {c : Coll α U} (h : SizeInv c) (name : String) : SizeInv (c.take name).2 := by
  rcases c.take_cases name with ⟨_, h2⟩ | ⟨f, _, h2⟩ <;> rw [h2]
  · exact h
  · exact h.eraseField name

theorem SizeInv.onField {c : Coll α U} (h : SizeInv c) (name : String)
    {op : Field α U → Res Unit × Field α U} (hop : KeepsLayout op)
    (hn : ∀ f, c.fields.find name = some f → (op f).2.nbComp = f.nbComp)
    (hs : c.initialised = true → ∀ f, c.fields.find name = some f →
      (op f).2.nbSub ≠ Unknown ∧
      ((op f).2.vals.length : Int) = (op f).2.nbComp * (op f).2.nbSub * c.nbBuf + (op f).2.pad ∧
      (op f).2.fresh = true) : SizeInv (c.onField name op).2 := by
  have hw := h.wf.onField name hop
  rcases c.onField_cases name op with ⟨_, h2⟩ | ⟨f, h1, h2⟩
  · rw [h2]; exact h
  · rw [h2] at hw ⊢
    exact h.insertField name _ (hw.comps name _ (SMap.find_insert_self _ _ _))
      (hw.tags name _ (SMap.find_insert_self _ _ _)) (by rw [hn f h1]; exact h.comp name f h1)
      (fun hi => hs hi f h1)

theorem SizeInv.init {c : Coll α U} (h : SizeInv c) {r : Res Unit × Coll α U} (he : InitEffect c r)
    (hb : r.1 = .ok () → 0 ≤ r.2.nbBuf) : SizeInv r.2 := by
  have hw := he.wf h.wf
  refine ⟨hw, ?_, ?_, ?_, ?_⟩
  · rw [he.sub]; exact h.sub
  · intro n f hf
    obtain ⟨g, cur, vals, fresh, hg, e⟩ := he.back n f hf
    rw [e]; exact h.comp n g hg
  · intro hi; exact hb (he.init.1 hi)
  · intro hi n f hf
    obtain ⟨g, hg, hr, _⟩ := he.resized (he.init.1 hi) n f hf
    obtain ⟨r1, r2, r3, r4, _⟩ := Field.resize_ok hr
    have e1 := congrArg Field.nbSub r4
    have e2 := congrArg Field.nbComp r4
    have e3 := congrArg Field.pad r4
    have e4 := congrArg Field.fresh r4
    simp only at e1 e2 e3 e4
    refine ⟨by rw [e1]; exact r1, ?_, e4⟩
    rw [r3, e1, e2, e3]; ring

theorem initGlobal_buf {srt : SortFn} {c : Coll α U} {dom sub loc strides : List Int}
    (h : (c.initGlobal srt dom sub loc strides).1 = .ok ()) :
    0 ≤ (c.initGlobal srt dom sub loc strides).2.nbBuf := by
  obtain ⟨_, _, _, px, nb, _, h4, h5⟩ := initGlobal_pixels h
  simp only [base, Prod.mk.injEq] at h5
  rw [h5.2.2.2.2.1]
  exact getBufferSize_nonneg h4

theorem SizeInv.step {srt : SortFn} {c : Coll α U} (h : SizeInv c) (op : Op α U) (ha : Adm c op)
    (hub : (c.step srt op).1 ≠ .ub) : SizeInv (c.step srt op).2 := by
  cases op with
  | register name ty comps tag unit allow => exact h.register _ _ _ _ _ _ ha
  | registerState pre ty m n tag unit allow =>
    exact registerState_induct SizeInv c pre ty m n tag unit allow h (h.getSub tag)
      (fun d name hd => hd.register _ _ _ _ _ _ ha) (fun d s hd => hd.states pre s)
  | pop name => exact h.pop name
  | detached name ty shape tag unit =>
    simp only [Coll.step, detached]
    have hm := h.register name ty (.shape shape) tag unit false ha
    rcases hr : c.register name ty (.shape shape) tag unit false with ⟨r, c1⟩
    rw [hr] at hm
    cases r with
    | ok u => exact SizeInv.take hm name
    | throw e => exact hm
    | ub => exact hm
  | setNbSubPts tag n =>
    have hw := h.wf.setNbSubPts tag n
    simp only [Coll.step]
    rcases c.setNbSubPts_cases tag n with ⟨h1, _⟩ | ⟨hn, hk, h1⟩
    · rw [h1]; exact h
    · rw [h1] at hw ⊢
      refine ⟨hw, ?_, ?_, h.buf, ?_⟩
      · intro t k ht
        simp only [SMap.find_insert] at ht
        split at ht
        · cases ht; exact Or.inr hn
        · exact h.sub t k ht
      · intro nm f hf
        simp only [SMap.find_map] at hf
        cases hg : c.fields.find nm with
        | none => rw [hg] at hf; cases hf
        | some g =>
          rw [hg] at hf
          cases hf
          unfold Field.setSub
          split <;> exact h.comp nm g hg
      · intro hi nm f hf
        simp only [SMap.find_map] at hf
        cases hg : c.fields.find nm with
        | none => rw [hg] at hf; cases hf
        | some g =>
          rw [hg] at hf
          cases hf
          have hs := h.size hi nm g hg
          unfold Field.setSub
          split
          · rename_i ht
            have hgn : g.nbSub = n := by
              rcases hk g.nbSub (by rw [← ht]; exact h.wf.tags nm g hg) with hu | hu
              · exact absurd hu hs.1
              · exact hu
            subst hgn
            exact hs
          · exact hs
  | getSub tag => exact h.getSub tag
  | initGlobal dom sub loc strides =>
    simp only [Coll.step]
    split
    · cases hi : c.initialised with
      | true => rw [(initGlobal_init hi).2]; exact h
      | false => exact h.init (initGlobal_effect srt c dom sub loc strides hi) initGlobal_buf
    · exact h
  | initGlobalOrder dom sub loc order =>
    simp only [Coll.step]
    split
    · cases hi : c.initialised with
      | true => rw [(initGlobalOrder_init hi).1]; exact h
      | false =>
        refine h.init (initGlobalOrder_effect srt c dom sub loc order hi) ?_
        unfold initGlobalOrder
        simp only
        split
        · intro hc; cases hc
        · intro hc; cases hc
        · exact initGlobal_buf
    · exact h
  | addPixel id =>
    simp only [Coll.step, addPixel]
    split
    · exact h
    · split
      · exact h
      · exact ⟨⟨h.wf.1, h.wf.2, h.wf.3, h.wf.4, h.wf.5, h.wf.6⟩, h.sub, h.comp, h.buf, h.size⟩
  | initLocal =>
    simp only [Coll.step]
    split
    · exact h
    · cases hi : c.initialised with
      | true => rw [initLocal_init hi]; exact h
      | false =>
        refine h.init (initLocal_effect c hi) ?_
        intro _
        have hb := initLocal_base hi
        simp only [base, Prod.mk.injEq] at hb
        rw [hb.2.2.2.2.1]; omega
  | reshape name shape =>
    have hr : ∀ f : Field α U, (f.reshape shape).2.nbComp = f.nbComp ∧
        (f.reshape shape).2.nbSub = f.nbSub ∧ (f.reshape shape).2.vals = f.vals ∧
        (f.reshape shape).2.pad = f.pad ∧ (f.reshape shape).2.fresh = f.fresh := by
      intro f
      unfold Field.reshape
      split
      · exact ⟨rfl, rfl, rfl, rfl, rfl⟩
      · rename_i hc
        exact ⟨by simpa using hc, rfl, rfl, rfl, rfl⟩
    refine h.onField name (op := fun f => f.reshape shape) (keeps_reshape shape) (fun f _ => (hr f).1) ?_
    intro hi f hf
    obtain ⟨r1, r2, r3, r4, r5⟩ := hr f
    beta_reduce
    rw [r1, r2, r3, r4, r5]
    exact h.size hi name f hf
  | reshapeTag name shape tag =>
    have hw := h.wf.reshapeTag name shape tag
    simp only [Coll.step]
    rcases c.reshapeTag_cases name shape tag with ⟨_, h2⟩ | ⟨f, _, _, h2⟩ | ⟨f, h0, h1, h2⟩
    · rw [h2]; exact h
    · rw [h2]; exact h.getSub tag
    · rw [h2] at hw ⊢
      obtain ⟨hb, hf, _⟩ := c.getSub_frame tag
      simp only [base, Prod.mk.injEq] at hb
      obtain ⟨b1, b2, b3, b4, b5, b6, b7, b8, b9, b10⟩ := hb
      rw [← hf] at hw ⊢
      refine (h.getSub tag).insertField name _ rfl (hw.tags name _ (SMap.find_insert_self _ _ _)) ha ?_
      intro hi
      rw [b7] at hi
      obtain ⟨s1, s2, s3⟩ := h.size hi name f h0
      have hpos : 1 ≤ f.nbSub := by
        rcases h.sub_pos h0 with hu | hu
        · exact absurd hu s1
        · exact hu
      have hcomp := h.comp name f h0
      refine ⟨?_, ?_, s3⟩
      · simp only
        intro hu
        rw [hu] at h1
        have : 0 < f.nbComp * f.nbSub := by positivity
        have ha' : 1 ≤ getSize shape := ha
        simp only [Unknown] at h1
        omega
      · simp only
        rw [b5, h1]; exact s2
  | pushBack name single value =>
    refine h.onField name (op := fun f => f.pushBack c.global single value) (keeps_pushBack _ _ _) ?_ ?_
    · intro f _
      beta_reduce
      unfold Field.pushBack
      split
      · rfl
      · split
        · rfl
        · split <;> rfl
    · intro hi
      have : c.initialised = false := ha
      rw [this] at hi; cases hi
  | setPadSize name pad =>
    have hfr : ∀ f : Field α U, (f.setPadSize c.nbBuf pad).2.nbComp = f.nbComp := by
      intro f
      obtain ⟨a, b, d, e⟩ := Field.resize_frame { f with pad := pad } c.nbBuf
      unfold Field.setPadSize
      rw [e]
    refine h.onField name (op := fun f => f.setPadSize c.nbBuf pad) (keeps_setPadSize _ _) (fun f _ => hfr f) ?_
    intro hi f hf
    obtain ⟨s1, s2, s3⟩ := h.size hi name f hf
    have hpos : 1 ≤ f.nbSub := by
      rcases h.sub_pos hf with hu | hu
      · exact absurd hu s1
      · exact hu
    have hcomp := h.comp name f hf
    have hbuf := h.buf hi
    have hok : ∃ u f', Field.resize { f with pad := pad } c.nbBuf = (.ok u, f') := by
      have hge : ¬ f.nbSub * c.nbBuf * f.nbComp + (pad : Int) < 0 := by
        have : 0 ≤ f.nbSub * c.nbBuf * f.nbComp := by positivity
        omega
      unfold Field.resize
      simp only [Field.hasSub, bne_iff_ne, ne_eq, s1, not_false_eq_true, not_true_eq_false, if_false, hge]
      split
      · exact ⟨_, _, rfl⟩
      · exact ⟨_, _, rfl⟩
    obtain ⟨u, f', hr⟩ := hok
    obtain ⟨r1, r2, r3, r4, _⟩ := Field.resize_ok hr
    have e1 := congrArg Field.nbSub r4
    have e2 := congrArg Field.nbComp r4
    have e3 := congrArg Field.pad r4
    have e4 := congrArg Field.fresh r4
    simp only at e1 e2 e3 e4 r3
    beta_reduce
    unfold Field.setPadSize
    rw [hr]
    refine ⟨by simp only [e1]; exact s1, ?_, e4⟩
    simp only [e1, e2, e3, r3]; ring
  | setZero name =>
    refine h.onField name (op := Field.setZero) keeps_setZero (fun f _ => rfl) ?_
    intro hi f hf
    have := h.size hi name f hf
    simpa [Field.setZero] using this
  | write name i v =>
    have hr : ∀ f : Field α U, (f.write i v).2.nbComp = f.nbComp ∧
        (f.write i v).2.nbSub = f.nbSub ∧ (f.write i v).2.vals.length = f.vals.length ∧
        (f.write i v).2.pad = f.pad ∧ (f.write i v).2.fresh = f.fresh := by
      intro f
      unfold Field.write
      split <;> simp
    refine h.onField name (op := fun f => f.write i v) (keeps_write i v) (fun f _ => (hr f).1) ?_
    intro hi f hf
    obtain ⟨r1, r2, r3, r4, r5⟩ := hr f
    beta_reduce
    rw [r1, r2, r3, r4, r5]
    exact h.size hi name f hf
  | cycle pre =>
    simp only [Coll.step, cycle]
    split
    · exact h
    · exact h.states pre _
  | clone src dst ow =>
    have hreg : ∀ f, c.fields.find src = some f →
        SizeInv (c.register dst f.ty (.num f.nbComp) f.tag f.unit false).2 :=
      fun f hf => h.register _ _ _ _ _ _ (h.comp src f hf)
    have hins : ∀ (d : Coll α U) (g : Field α U) (vals : List α), SizeInv d → d.fields.find dst = some g →
        vals.length = g.vals.length →
        SizeInv ({ d with fields := d.fields.insert dst { g with vals := vals } } : Coll α U) := by
      intro d g vals hd hg hl
      refine hd.insertField dst _ (hd.wf.comps dst g hg) (hd.wf.tags dst g hg) (hd.comp dst g hg) ?_
      intro hi
      have := hd.size hi dst g hg
      simpa [hl] using this
    simp only [Coll.step]
    rcases clone_cases srt c src dst ow with h1 | ⟨f, h1, _, h2⟩ | ⟨g, vals, h1, h2, _, h3⟩ |
      ⟨f, g, vals, c1, h1, _, h2, h3, h4, h5⟩
    · rw [h1]; exact h
    · rw [h2]; exact hreg f h1
    · rw [h3]; exact hins c g vals h h1 h2
    · rw [h5]
      subst h2
      exact hins _ g vals (hreg f h1) h3 h4

theorem mk'_sizeInv {global : Bool} {dim : Int} {order : StorageOrder} {sub : SMap String Int}
    (hs : sub.Sorted) (hv : ∀ tag n, sub.find tag = some n → n = Unknown ∨ 1 ≤ n) {c : Coll α U}
    (h : mk' global dim order sub = .ok c) : SizeInv c := by
  have hw := mk'_wf hs h
  have he := (mk'_spec h).2
  refine ⟨hw, ?_, ?_, ?_, ?_⟩
  · intro tag n ht
    rw [he] at ht
    simp only [empty, SMap.find_insert] at ht
    split at ht
    · cases ht; exact Or.inr (by omega)
    · exact hv tag n ht
  · intro n f hf; rw [he] at hf; cases hf
  · intro hi; rw [he] at hi; cases hi
  · intro hi; rw [he] at hi; cases hi

/-- The generated name is new, and the search ends within one more attempt than there are fields. -/
theorem generateName_spec (c : Coll α U) (fuel : Nat) :
    ∀ counter name n, c.generateName fuel counter = some (name, n) →
      c.fieldExists name = false ∧ counter < n ∧ name = "generated_unique_name_" ++ toString (n - 1) := by
  induction fuel with
  | zero => intro counter name n h; simp [generateName] at h
  | succ fuel ih =>
    intro counter name n h
    unfold generateName at h
    simp only at h
    split at h
    · obtain ⟨a, b, d⟩ := ih _ _ _ h
      exact ⟨a, by omega, d⟩
    · rename_i hne
      simp only [Option.some.injEq, Prod.mk.injEq] at h
      obtain ⟨rfl, rfl⟩ := h
      exact ⟨by simpa using hne, by omega, by simp⟩

theorem generateName_none (c : Coll α U) (fuel : Nat) :
    ∀ counter, c.generateName fuel counter = none →
      ∀ i < fuel, c.fieldExists ("generated_unique_name_" ++ toString (counter + i)) = true := by
  induction fuel with
  | zero => intro counter _ i hi; omega
  | succ fuel ih =>
    intro counter h i hi
    unfold generateName at h
    simp only at h
    split at h
    · rename_i he
      cases i with
      | zero => simpa using he
      | succ i =>
        have := ih _ h i (by omega)
        rw [show counter + (i + 1) = counter + 1 + i by omega]; exact this
    · cases h

theorem generateName_total (c : Coll α U) (counter : Nat) :
    (c.generateName (c.fields.length + 1) counter).isSome := by
  by_contra hcon
  have hn : c.generateName (c.fields.length + 1) counter = none := by simpa using hcon
  have hall := generateName_none c _ _ hn
  let names := (List.range (c.fields.length + 1)).map
    (fun i => "generated_unique_name_" ++ toString (counter + i))
  have hnd : names.Nodup := by
    refine List.Nodup.map ?_ List.nodup_range
    intro a b hab
    simp only at hab
    rw [String.append_right_inj] at hab
    have := Nat.repr_injective hab
    omega
  have hsub : names ⊆ c.fields.keys := by
    intro x hx
    simp only [names, List.mem_map, List.mem_range] at hx
    obtain ⟨i, hi, rfl⟩ := hx
    have := hall i hi
    unfold fieldExists at this
    exact SMap.find_isSome_iff.1 this
  have hle := (List.Nodup.subperm hnd hsub).length_le
  simp [names, SMap.keys] at hle

end Coll
end Verif.Collection
