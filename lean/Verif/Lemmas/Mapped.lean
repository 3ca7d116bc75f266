import Verif.Model.Mapped
import Verif.Props.MapLife
import Verif.Props.StateFieldMap
/-! Lemmas on mapped fields. -/
set_option linter.unusedSectionVars false

namespace Verif.Collection
open Verif Verif.Ccoord Verif.Layout Verif.Collection.Coll

variable {α U : Type} [Inhabited α] [DecidableEq U]

namespace MappedKind
/-- Rows of the iterate. -/
def rows : MappedKind → Int
  | .static r _ _ => r
  | .dynamic r _ _ => r

/-- Columns the mapped field is asked for. -/
def cols : MappedKind → Int
  | .static _ k _ => k
  | .dynamic _ k _ => k

/-- Whether the shape is known at compile time. -/
def isStatic : MappedKind → Bool
  | .static _ _ _ => true
  | .dynamic _ _ _ => false

theorem toNb (k : MappedKind) : k.comps.toNb = k.rows * k.cols := by
  cases k with
  | static r k it => rfl
  | dynamic r k it => simp [comps, Comps.toNb, rows, cols, getSize]

end MappedKind

namespace Maps

/-- Registering does not run callbacks. -/
theorem call_register (srt : SortFn) (s : Maps α U) (name : String) (ty : ElemType) (comps : Comps)
    (tag : String) (unit : U) :
    s.call srt (.register name ty comps tag unit false) =
      ((s.coll.register name ty comps tag unit false).1,
        s.refresh (s.coll.register name ty comps tag unit false).2) := by
  have hb := (s.coll.register_frame name ty comps tag unit false).1
  simp only [base, Prod.mk.injEq] at hb
  unfold call
  rw [show s.coll.step srt (.register name ty comps tag unit false) =
    s.coll.register name ty comps tag unit false from rfl]
  rcases hr : s.coll.register name ty comps tag unit false with ⟨r, c'⟩
  rw [hr] at hb
  simp only at hb ⊢
  rw [if_neg]
  rw [hb.2.2.2.2.2.2.1]
  exact fun h => h.1 h.2

end Maps

/-- `mkRows` when the stride is a multiple of the rows. -/
theorem mkRows_mul {c : Coll α U} {name : String} {f : Field α U} (hf : c.fields.find name = some f)
    {it : IterUnit} {r q : Int} (hr : 1 ≤ r) (hst : FieldMap.fieldStride c f it = .ok (r * q)) :
    FieldMap.mkRows c name r it =
      if c.order = .colMajor then .ok ⟨name, it, r * q, r, q, c.initialised⟩ else .throw .runtimeError := by
  unfold FieldMap.mkRows
  simp only [hf, hst, Res.ok_bind]
  rw [if_neg (by omega)]
  have e : (r * q).tdiv r = q := Int.mul_tdiv_cancel_left q (by omega)
  simp only [e]
  by_cases h : c.order = .colMajor
  · rw [if_neg (by simpa using h), if_pos h]; simp
  · rw [if_pos h, if_neg h]

/-- The number of sub-points the pixel iterate of a mapped field spans. -/
def MappedKind.span (k : MappedKind) (n : Int) : Int := if k.iter = .pixel then n else 1

/-- Making the map of a mapped field on its field. -/
theorem mkMap_mapped {c : Coll α U} (hw : c.WF) {name : String} {f : Field α U}
    (hf : c.fields.find name = some f) {k : MappedKind} (hr : 1 ≤ k.rows) (hk : 1 ≤ k.cols)
    (hnb : f.nbComp = k.rows * k.cols) :
    Maps.mkMap c name k.iter k.map =
      if k.iter = .pixel ∧ f.nbSub = Unknown then .throw .fieldError
      else if c.order ≠ .colMajor then .throw .runtimeError
      else if k.isStatic = true ∧ k.iter = .pixel ∧ f.nbSub ≠ 1 then .throw .fieldMapError
      else .ok ⟨name, k.iter, k.rows * k.cols * k.span f.nbSub, k.rows, k.cols * k.span f.nbSub,
        c.initialised⟩ := by
  have hsub := hasSub_iff hw hf
  have hst : FieldMap.fieldStride c f k.iter =
      if k.iter = .pixel ∧ f.nbSub = Unknown then .throw .fieldError
      else .ok (k.rows * (k.cols * k.span f.nbSub)) := by
    unfold MappedKind.span
    cases hit : k.iter with
    | subPt => simp [FieldMap.fieldStride, hnb]
    | pixel =>
      by_cases hu : f.nbSub = Unknown
      · simp [FieldMap.fieldStride, hu]
        rw [hu] at hsub
        simpa using hsub
      · simp only [FieldMap.fieldStride, hsub.2 hu, hu, if_true, and_false, if_false]
        rw [hnb, mul_assoc]
  have hmul : k.rows * (k.cols * k.span f.nbSub) = k.rows * k.cols * k.span f.nbSub := by ring
  by_cases hu : k.iter = .pixel ∧ f.nbSub = Unknown
  · rw [if_pos hu] at hst ⊢
    have : FieldMap.mkRows c name k.rows k.iter = .throw .fieldError := by
      unfold FieldMap.mkRows
      simp only [hf, hst, Res.throw_bind]
    cases k with
    | static r q it =>
      simp only [Maps.mkMap, MappedKind.map, MappedKind.iter, MappedKind.rows, FieldMap.mkStatic] at this ⊢
      rw [this]; rfl
    | dynamic r q it => exact this
  · rw [if_neg hu] at hst ⊢
    have h0 := mkRows_mul hf hr hst
    rw [hmul] at h0
    by_cases ho : c.order = .colMajor
    · rw [if_pos ho] at h0
      rw [if_neg (by simpa using ho)]
      cases k with
      | dynamic r q it =>
        rw [if_neg (by simp [MappedKind.isStatic])]
        exact h0
      | static r q it =>
        have hspan : (MappedKind.static r q it).span f.nbSub = if it = .pixel then f.nbSub else 1 := rfl
        generalize (MappedKind.static r q it).span f.nbSub = n at *
        change FieldMap.mkRows c name r it = .ok ⟨name, it, r * q * n, r, q * n, c.initialised⟩ at h0
        change (FieldMap.mkStatic c name r q it : Res FieldMap) =
          if true = true ∧ it = .pixel ∧ f.nbSub ≠ 1 then .throw .fieldMapError
          else .ok ⟨name, it, r * q * n, r, q * n, c.initialised⟩
        simp only [MappedKind.rows, MappedKind.cols] at hr hk
        have hpos : 0 < r * q := by positivity
        unfold FieldMap.mkStatic
        rw [h0, Res.ok_bind]
        by_cases hc : it = .pixel ∧ f.nbSub ≠ 1
        · rw [if_pos (show true = true ∧ it = .pixel ∧ f.nbSub ≠ 1 from ⟨rfl, hc⟩)]
          rw [if_pos]
          intro e
          rw [if_pos hc.1] at hspan
          simp only [hspan] at e
          exact hc.2 (mul_left_cancel₀ (by omega) (by rw [e, mul_one] : r * q * f.nbSub = r * q * 1))
        · rw [if_neg (show ¬ (true = true ∧ it = .pixel ∧ f.nbSub ≠ 1) from fun h => hc h.2)]
          rw [if_neg]
          · rfl
          · have : n = 1 := by
              rw [hspan]
              split
              · rename_i h; by_contra h1; exact hc ⟨h, h1⟩
              · rfl
            rw [this]; simp
    · rw [if_neg ho] at h0
      rw [if_pos ho]
      cases k with
      | static r q it =>
        simp only [Maps.mkMap, MappedKind.map, MappedKind.iter, MappedKind.rows, FieldMap.mkStatic] at h0 ⊢
        rw [h0]; rfl
      | dynamic r q it => exact h0

end Verif.Collection

namespace Verif.Collection
open Verif Verif.Ccoord Verif.Layout Verif.Collection.Coll

variable {α U : Type} [Inhabited α] [DecidableEq U]

/-- The number of sub-points of a tag is known. -/
def Coll.Known (c : Coll α U) (tag : String) : Prop := ∃ n, c.subPts.find tag = some n ∧ n ≠ Unknown

theorem Coll.known_iff_getSub (c : Coll α U) (tag : String) : c.Known tag ↔ (c.getSub tag).1 ≠ Unknown := by
  rw [getSub_fst]
  unfold Coll.Known
  cases c.subPts.find tag with
  | none => simp
  | some n => simp

theorem Coll.known_getSub (c : Coll α U) (tag : String) : (c.getSub tag).2.Known tag ↔ c.Known tag := by
  rw [known_iff_getSub c]
  unfold Coll.Known
  rw [getSub_find, if_pos rfl]
  simp

/-- When a new field can be registered. -/
theorem register_ok_iff {c : Coll α U} (hinv : SizeInv c) (name : String) (ty : ElemType) {comps : Comps}
    (hc : 1 ≤ comps.toNb) (tag : String) (unit : U) :
    (c.register name ty comps tag unit false).1 = .ok () ↔
      c.fields.find name = none ∧ (c.initialised = true → c.Known tag) := by
  rcases c.register_cases name ty comps tag unit false with
    ⟨f, h1, h2, h3, h4⟩ | ⟨h1, f, ⟨f1, f2, f3, f4, f5, f6, f7⟩, h2, h3, h4⟩ | ⟨h1, h2, ⟨e, h3⟩, h4⟩
  · rw [h1, h4]; simp
  · rw [h2]
    refine ⟨fun _ => ⟨h1, fun hi => ?_⟩, fun _ => rfl⟩
    rw [known_iff_getSub, ← f4]
    exact (h4 hi).1
  · rw [h3]
    refine ⟨fun h => (by cases h), fun ⟨_, h⟩ => ?_⟩
    obtain ⟨n, hn, hu⟩ := h h2
    have hpos : 1 ≤ n := (hinv.sub tag n hn).resolve_left hu
    have hb := hinv.buf h2
    have := Props.C10_register_new_ok c name h1 ty comps tag unit false
      (Or.inr ⟨n, hn, hu, by positivity⟩)
    rw [h3] at this
    exact this

/-- What a successful registration changes. -/
theorem register_ok_eq {c : Coll α U} (hinv : SizeInv c) {name : String} {ty : ElemType} {comps : Comps}
    (hc : 1 ≤ comps.toNb) {tag : String} {unit : U}
    (h : (c.register name ty comps tag unit false).1 = .ok ()) :
    ∃ (f : Field α U) (c1 : Coll α U), c.register name ty comps tag unit false = (.ok (), c1) ∧ SizeInv c1 ∧
      c1.fields = c.fields.insert name f ∧ c1.initialised = c.initialised ∧ c1.order = c.order ∧
      c1.states = c.states ∧ (c1.Known tag ↔ c.Known tag) ∧ c1.subPts.find tag = some ((c.subPts.find tag).getD Unknown) ∧
      f.nbComp = comps.toNb ∧ f.tag = tag ∧ f.ty = ty ∧ f.unit = unit := by
  have hs := hinv.register name ty comps tag unit false hc
  rcases c.register_cases name ty comps tag unit false with
    ⟨f, h1, h2, h3, h4⟩ | ⟨h1, f, ⟨f1, f2, f3, f4, f5, f6, f7⟩, h2, h3, h4⟩ | ⟨h1, h2, ⟨e, h3⟩, h4⟩
  · rw [h4] at h; simp at h
  · rw [h2] at hs
    obtain ⟨hb, _, hst⟩ := c.getSub_frame tag
    simp only [base, Prod.mk.injEq] at hb
    refine ⟨f, _, h2, hs, rfl, hb.2.2.2.2.2.2.1, hb.2.2.1, hst, c.known_getSub tag, ?_, f3, f5, f1, f6⟩
    show (c.getSub tag).2.subPts.find tag = _
    rw [getSub_find, if_pos rfl, getSub_fst]
  · rw [h3] at h; cases h

theorem registerSubFields_iff {pre : String} {ty : ElemType} {nbComp : Int} {tag : String} {unit : U}
    (hc : 1 ≤ nbComp) (n : Nat) : ∀ {c : Coll α U} {i : Nat}, SizeInv c →
      ((c.registerSubFields pre ty nbComp tag unit i n).1 = .ok () ↔
        (∀ j, i ≤ j → j < i + n → c.fields.find (subFieldName pre j) = none) ∧
          (n ≠ 0 → c.initialised = true → c.Known tag)) ∧
      ((c.registerSubFields pre ty nbComp tag unit i n).1 = .ok () →
        SizeInv (c.registerSubFields pre ty nbComp tag unit i n).2 ∧
        (c.registerSubFields pre ty nbComp tag unit i n).2.order = c.order ∧
        (c.registerSubFields pre ty nbComp tag unit i n).2.initialised = c.initialised ∧
        (n ≠ 0 → (c.registerSubFields pre ty nbComp tag unit i n).2.subPts.find tag =
          some ((c.subPts.find tag).getD Unknown)) ∧
        ∀ j, i ≤ j → j < i + n → ∃ f, (c.registerSubFields pre ty nbComp tag unit i n).2.fields.find
          (subFieldName pre j) = some f ∧ f.nbComp = nbComp ∧ f.tag = tag ∧ f.ty = ty ∧ f.unit = unit) := by
  induction n with
  | zero =>
    intro c i hinv
    simp only [registerSubFields, true_iff, ne_eq, not_true_eq_false, false_implies, and_true, true_implies]
    exact ⟨fun j h1 h2 => by omega, hinv, trivial, trivial, trivial, fun j h1 h2 => by omega⟩
  | succ n ih =>
    intro c i hinv
    unfold registerSubFields
    have hok := register_ok_iff hinv (subFieldName pre i) ty (comps := .num nbComp) hc tag unit
    by_cases hr : (c.register (subFieldName pre i) ty (.num nbComp) tag unit false).1 = .ok ()
    · obtain ⟨f, c1, h1, h2, h3, h4, h5, h6, h7, h8, f1, f2, f3, f4⟩ :=
        register_ok_eq (comps := .num nbComp) hinv hc hr
      rw [h1]
      simp only
      obtain ⟨g1, g2⟩ := ih (c := c1) (i := i + 1) h2
      have hfind : ∀ j, i < j → c1.fields.find (subFieldName pre j) = c.fields.find (subFieldName pre j) := by
        intro j hj
        rw [h3, SMap.find_insert, if_neg (fun e => by have := subFieldName_inj e; omega)]
      constructor
      · rw [g1]
        constructor
        · rintro ⟨a1, a2⟩
          refine ⟨fun j hj hj' => ?_, fun _ => (hok.1 hr).2⟩
          by_cases e : j = i
          · subst e; exact (hok.1 hr).1
          · rw [← hfind j (by omega)]; exact a1 j (by omega) (by omega)
        · rintro ⟨a1, a2⟩
          refine ⟨fun j hj hj' => ?_, fun _ hi => h7.2 (a2 (by omega) (by rw [← h4]; exact hi))⟩
          rw [hfind j (by omega)]; exact a1 j (by omega) (by omega)
      · intro hrest
        obtain ⟨b1, b2, b3, b4, b5⟩ := g2 hrest
        have hkeep := (registerSubFields_fields (pre := pre) (ty := ty) (nbComp := nbComp) (tag := tag)
          (unit := unit) n (c := c1) (i := i + 1) (Prod.ext hrest rfl)).2.1
        refine ⟨b1, b2.trans h5, b3.trans h4, fun _ => ?_, ?_⟩
        · by_cases hn : n = 0
          · subst hn; exact h8
          · rw [b4 hn, h8]; rfl
        · intro j hj hj'
          by_cases e : j = i
          · subst e
            exact ⟨f, hkeep _ _ (by rw [h3]; exact SMap.find_insert_self _ _ _), f1, f2, f3, f4⟩
          · exact b5 j (by omega) (by omega)
    · rcases hrr : c.register (subFieldName pre i) ty (.num nbComp) tag unit false with ⟨r, c1⟩
      rw [hrr] at hr hok
      have hne : ∀ x, (match (r, c1) with
          | (.ok _, c1) => c1.registerSubFields pre ty nbComp tag unit (i + 1) n
          | (r, c1) => (r, c1)) = x → x.1 ≠ .ok () := by
        rintro x rfl
        cases r with
        | ok u => exact absurd rfl hr
        | throw e => simp
        | ub => simp
      have hne' := hne _ rfl
      refine ⟨⟨fun h => absurd h hne', fun ⟨a1, a2⟩ => ?_⟩, fun h => absurd h hne'⟩
      exact absurd (hok.2 ⟨a1 i (le_refl i) (by omega), a2 (by omega)⟩) hr

theorem Coll.registerState_ne_ub (c : Coll α U) (pre : String) (ty : ElemType) (N : Int) (nbComp : Int)
    (tag : String) (unit : U) : (c.registerState pre ty N nbComp tag unit false).1 ≠ .ub := by
  unfold registerState
  cases c.states.find pre with
  | some s => simp
  | none =>
    simp only
    split
    · simp
    · have := registerSubFields_ne_ub pre ty nbComp tag unit (N.toNat + 1) (c.getSub tag).2 0
      rcases hr : (c.getSub tag).2.registerSubFields pre ty nbComp tag unit 0 (N.toNat + 1) with ⟨r, c1⟩
      rw [hr] at this
      cases r with
      | ok u => simp
      | throw e => simp
      | ub => exact absurd rfl this

/-- When a new state field can be registered, and what its sub-fields are. -/
theorem registerState_iff {c : Coll α U} (hinv : SizeInv c) {pre : String} {ty : ElemType} {nbComp : Int}
    (hc : 1 ≤ nbComp) {tag : String} {unit : U} (N : Nat) :
    ((c.registerState pre ty N nbComp tag unit false).1 = .ok () ↔
      c.states.find pre = none ∧ 1 ≤ N ∧ (∀ j, j < N + 1 → c.fields.find (subFieldName pre j) = none) ∧
        (c.initialised = true → c.Known tag)) ∧
    ((c.registerState pre ty N nbComp tag unit false).1 = .ok () →
      SizeInv (c.registerState pre ty N nbComp tag unit false).2 ∧
      (c.registerState pre ty N nbComp tag unit false).2.order = c.order ∧
      (c.registerState pre ty N nbComp tag unit false).2.initialised = c.initialised ∧
      (c.registerState pre ty N nbComp tag unit false).2.subPts.find tag =
        some ((c.subPts.find tag).getD Unknown) ∧
      ∀ j, j < N + 1 → ∃ f, (c.registerState pre ty N nbComp tag unit false).2.fields.find
        (subFieldName pre j) = some f ∧ f.nbComp = nbComp ∧ f.tag = tag ∧ f.ty = ty ∧ f.unit = unit) := by
  have hg := hinv.getSub tag
  obtain ⟨hb, hfl, hst⟩ := c.getSub_frame tag
  simp only [base, Prod.mk.injEq] at hb
  have hsize : SizeInv (c.registerState pre ty N nbComp tag unit false).2 :=
    registerState_induct SizeInv c pre ty N nbComp tag unit false hinv hg
      (fun d name hd => hd.register _ _ _ _ _ _ hc) (fun d s hd => hd.states pre s)
  unfold registerState at hsize ⊢
  cases hs : c.states.find pre with
  | some s => simp
  | none =>
    rw [hs] at hsize
    simp only at hsize ⊢
    by_cases hN : (N : Int) < 1
    · rw [if_pos hN]
      simp
      intro _ h; omega
    · rw [if_neg hN] at hsize ⊢
      simp only [Int.toNat_natCast] at hsize ⊢
      obtain ⟨h1, h2⟩ := registerSubFields_iff (pre := pre) (ty := ty) (tag := tag) (unit := unit) hc (N + 1)
        (i := 0) hg
      rcases hr : (c.getSub tag).2.registerSubFields pre ty nbComp tag unit 0 (N + 1) with ⟨r, c2⟩
      rw [hr] at h1 h2 hsize
      rw [hfl, hb.2.2.2.2.2.2.1, known_getSub] at h1
      have hiff : (∀ j, 0 ≤ j → j < 0 + (N + 1) → c.fields.find (subFieldName pre j) = none) ∧
          (N + 1 ≠ 0 → c.initialised = true → c.Known tag) ↔
          1 ≤ N ∧ (∀ j, j < N + 1 → c.fields.find (subFieldName pre j) = none) ∧
            (c.initialised = true → c.Known tag) := by
        constructor
        · rintro ⟨a1, a2⟩
          exact ⟨by omega, fun j hj => a1 j (by omega) (by omega), a2 (by omega)⟩
        · rintro ⟨_, a1, a2⟩
          exact ⟨fun j _ hj => a1 j (by omega), fun _ => a2⟩
      rw [hiff] at h1
      cases r with
      | ok u =>
        simp only at h1 hsize ⊢
        refine ⟨⟨fun _ => ⟨trivial, h1.1 trivial⟩, fun _ => trivial⟩, fun _ => ?_⟩
        obtain ⟨b1, b2, b3, b4, b5⟩ := h2 rfl
        refine ⟨hsize, b2.trans hb.2.2.1, b3.trans hb.2.2.2.2.2.2.1, ?_, fun j hj => b5 j (by omega) (by omega)⟩
        have := b4 (by omega)
        rw [getSub_find, if_pos rfl, getSub_fst] at this
        exact this
      | throw e =>
        simp only at h1 ⊢
        refine ⟨⟨fun h => (by cases h), fun h => ?_⟩, fun h => (by cases h)⟩
        exact h1.2 h.2
      | ub =>
        simp only at h1 ⊢
        refine ⟨⟨fun h => (by cases h), fun h => ?_⟩, fun h => (by cases h)⟩
        exact h1.2 h.2

/-! ### static maps over state fields -/

namespace StateFieldMap

theorem makeStaticMaps_iff {c : Coll α U} {r k : Int} {it : IterUnit} : ∀ {names : List String}
    {maps : List FieldMap}, makeStaticMaps c r k it names = .ok maps ↔
      makeMaps c r it names = .ok maps ∧ ∀ n ∈ names, ∃ m, FieldMap.mkStatic c n r k it = .ok m := by
  intro names
  induction names with
  | nil => intro maps; simp [makeStaticMaps, makeMaps]
  | cons a names ih =>
    intro maps
    unfold makeStaticMaps makeMaps
    constructor
    · intro h
      obtain ⟨m, hm, h⟩ := Res.bind_eq_ok.1 h
      obtain ⟨ms, hms, h⟩ := Res.bind_eq_ok.1 h
      have hm' : FieldMap.mkRows c a r it = .ok m := by
        unfold FieldMap.mkStatic at hm
        obtain ⟨m', hm', hm⟩ := Res.bind_eq_ok.1 hm
        split at hm
        · simp at hm
        · simp only [Res.pure_eq, Res.ok.injEq] at hm; rw [← hm]; exact hm'
      obtain ⟨h1, h2⟩ := ih.1 hms
      refine ⟨by rw [hm', Res.ok_bind, h1, Res.ok_bind]; exact h, ?_⟩
      intro n hn
      rcases List.mem_cons.1 hn with e | hn
      · rw [e]; exact ⟨m, hm⟩
      · exact h2 n hn
    · rintro ⟨h1, h2⟩
      obtain ⟨m, hm, h1⟩ := Res.bind_eq_ok.1 h1
      obtain ⟨ms, hms, h1⟩ := Res.bind_eq_ok.1 h1
      obtain ⟨m', hm'⟩ := h2 a (by simp)
      have e : m' = m := by
        unfold FieldMap.mkStatic at hm'
        rw [hm, Res.ok_bind] at hm'
        split at hm'
        · simp at hm'
        · simp only [Res.pure_eq, Res.ok.injEq] at hm'; exact hm'.symm
      rw [hm', Res.ok_bind, ih.2 ⟨hms, fun n hn => h2 n (by simp [hn])⟩, Res.ok_bind, e]
      exact h1

theorem makeMaps_ok {c : Coll α U} {r : Int} {it : IterUnit} : ∀ {names : List String},
    (∃ maps, makeMaps c r it names = .ok maps) ↔ ∀ n ∈ names, ∃ m, FieldMap.mkRows c n r it = .ok m := by
  intro names
  induction names with
  | nil => simp [makeMaps]
  | cons a names ih =>
    unfold makeMaps
    constructor
    · rintro ⟨maps, h⟩ n hn
      obtain ⟨m, hm, h⟩ := Res.bind_eq_ok.1 h
      obtain ⟨ms, hms, h⟩ := Res.bind_eq_ok.1 h
      rcases List.mem_cons.1 hn with e | hn
      · rw [e]; exact ⟨m, hm⟩
      · exact ih.1 ⟨ms, hms⟩ n hn
    · intro h
      obtain ⟨m, hm⟩ := h a (by simp)
      obtain ⟨ms, hms⟩ := ih.2 (fun n hn => h n (by simp [hn]))
      exact ⟨m :: ms, by rw [hm, Res.ok_bind, hms, Res.ok_bind]; rfl⟩

end StateFieldMap
end Verif.Collection
