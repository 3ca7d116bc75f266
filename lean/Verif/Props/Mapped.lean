import Verif.Lemmas.Mapped
/-
Property C71: mapped fields, optional mapped fields, mapped state fields and the mean of static maps.
-/
set_option linter.unusedSectionVars false

namespace Verif.Props
open Verif Verif.Ccoord Verif.Layout Verif.Collection Verif.Collection.Coll

variable {α U : Type} [Inhabited α] [DecidableEq U]

/-- When a mapped field can be made: the name is free, the storage order is column-major, the number of
sub-points is known if it is needed (by the allocation or by iterates that span a pixel), and it is one if
the iterate has a fixed size and spans a pixel. -/
structure Mappable (c : Coll α U) (name tag : String) (k : MappedKind) : Prop where
  free : c.fields.find name = none
  order : c.order = .colMajor
  known : c.initialised = true ∨ k.iter = .pixel → ∃ n, c.subPts.find tag = some n ∧ n ≠ Unknown
  single : k.isStatic = true → k.iter = .pixel → c.subPts.find tag = some 1

/-- Number of sub-points an iterate spans. -/
def spanOf (c : Coll α U) (tag : String) (k : MappedKind) : Int :=
  k.span ((c.subPts.find tag).getD Unknown)

/-- The three things a constructor of a mapped field can do. -/
theorem mapped_cases {srt : SortFn} {s : Maps α U} (hg : s.Good) (name : String) (ty : ElemType)
    {k : MappedKind} (hr : 1 ≤ k.rows) (hk : 1 ≤ k.cols) (tag : String) (unit : U) :
    (∃ f, s.coll.fields.find name = some f ∧
      s.mapped srt name ty k tag unit = (.throw .fieldCollectionError, s.refresh s.coll)) ∨
    (s.coll.fields.find name = none ∧ s.coll.initialised = true ∧
      (∀ n, s.coll.subPts.find tag = some n → n = Unknown) ∧ ∃ e,
      s.mapped srt name ty k tag unit = (.throw e, s.refresh (s.coll.getSub tag).2)) ∨
    ∃ (f : Field α U) (s1 : Maps α U), s.coll.fields.find name = none ∧
      (s.coll.initialised = true → ∃ n, s.coll.subPts.find tag = some n ∧ n ≠ Unknown) ∧
      f.ty = ty ∧ f.shape = k.comps.toShape ∧ f.nbComp = k.rows * k.cols ∧
      f.nbSub = (s.coll.subPts.find tag).getD Unknown ∧ f.tag = tag ∧ f.unit = unit ∧
      s1 = s.refresh { (s.coll.getSub tag).2 with fields := s.coll.fields.insert name f } ∧
      s.call srt (.register name ty k.comps tag unit false) = (.ok (), s1) ∧
      s1.coll.fields.find name = some f ∧
      s.mapped srt name ty k tag unit = s1.mappedOn name k := by
  have hcall := Maps.call_register srt s name ty k.comps tag unit
  unfold Maps.mapped
  rw [hcall]
  rcases s.coll.register_cases name ty k.comps tag unit false with
    ⟨f, h1, h2, h3, h4⟩ | ⟨h1, f, ⟨f1, f2, f3, f4, f5, f6, f7⟩, h2, h3, h4⟩ | ⟨h1, h2, ⟨e, h3⟩, h4⟩
  · left
    refine ⟨f, h1, ?_⟩
    rw [C10_register_existing s.coll name f h1]
  · right; right
    refine ⟨f, _, h1, ?_, f1, f2, by rw [f3, k.toNb], by rw [f4, getSub_fst], f5, f6, rfl, ?_, ?_, ?_⟩
    · intro hi
      have hn := (h4 hi).1
      rw [f4, getSub_fst] at hn
      cases hs : s.coll.subPts.find tag with
      | none => rw [hs] at hn; exact absurd rfl hn
      | some n => rw [hs] at hn; exact ⟨n, rfl, hn⟩
    · rw [h2]
    · simp only [Maps.refresh, SMap.find_insert_self]
    · rw [h2]
  · right; left
    refine ⟨h1, h2, ?_, e, by rw [h3, h4]⟩
    intro n hn
    by_contra hu
    have hpos : 1 ≤ n := (hg.size.sub tag n hn).resolve_left hu
    have hb := hg.size.buf h2
    have hnb : 1 ≤ k.comps.toNb := by rw [k.toNb]; nlinarith
    have := C10_register_new_ok s.coll name h1 ty k.comps tag unit false
      (Or.inr ⟨n, hn, hu, by positivity⟩)
    rw [h3] at this
    cases this

/-- What making the map on the freshly registered field does. -/
theorem mappedOn_new {s1 : Maps α U} (hg : s1.Good) {name : String} {k : MappedKind} (hr : 1 ≤ k.rows)
    (hk : 1 ≤ k.cols) {f : Field α U} (hf : s1.coll.fields.find name = some f)
    (hnb : f.nbComp = k.rows * k.cols) :
    if k.iter = .pixel ∧ f.nbSub = Unknown ∨ s1.coll.order ≠ .colMajor ∨
        k.isStatic = true ∧ k.iter = .pixel ∧ f.nbSub ≠ 1 then
      ∃ e, s1.mappedOn name k = (.throw e, s1)
    else ∃ o : MapObj, s1.mappedOn name k = (.ok ⟨name, s1.maps.length⟩, s1.add o) ∧
      o.map.name = name ∧ o.map.iter = k.iter ∧ o.map.rows = k.rows ∧
      o.map.cols = k.cols * k.span f.nbSub ∧ o.map.stride = k.rows * k.cols * k.span f.nbSub := by
  have hm := mkMap_mapped hg.size.wf hf hr hk hnb
  unfold Maps.mappedOn Maps.make
  rw [hm]
  by_cases h1 : k.iter = .pixel ∧ f.nbSub = Unknown
  · rw [if_pos (Or.inl h1), if_pos h1]; exact ⟨_, rfl⟩
  by_cases h2 : s1.coll.order ≠ .colMajor
  · rw [if_pos (Or.inr (Or.inl h2)), if_neg h1, if_pos h2]; exact ⟨_, rfl⟩
  by_cases h3 : k.isStatic = true ∧ k.iter = .pixel ∧ f.nbSub ≠ 1
  · rw [if_pos (Or.inr (Or.inr h3)), if_neg h1, if_neg h2, if_pos h3]; exact ⟨_, rfl⟩
  · rw [if_neg (by simp only [h1, h2, h3, or_self, not_false_eq_true]), if_neg h1, if_neg h2, if_neg h3]
    simp only
    cases hi : s1.coll.initialised with
    | false =>
      simp only [Bool.false_eq_true, if_false]
      exact ⟨_, rfl, rfl, rfl, rfl, rfl, rfl⟩
    | true =>
      have hset := Maps.setPtr_ok (s := s1)
        (o := ⟨⟨name, k.iter, k.rows * k.cols * k.span f.nbSub, k.rows, k.cols * k.span f.nbSub, true⟩,
          s1.objs name, none⟩) hi hf rfl (hg.size.size hi _ _ hf).2.2
      simp only [if_true, hset]
      exact ⟨_, rfl, rfl, rfl, rfl, rfl, rfl⟩

theorem Lives.register {srt : SortFn} {s s1 : Maps α U} (hs : Lives srt s) {name : String} {ty : ElemType}
    {k : MappedKind} (hr : 1 ≤ k.rows) (hk : 1 ≤ k.cols) {tag : String} {unit : U} {r : Res Unit}
    (h : s.call srt (.register name ty k.comps tag unit false) = (r, s1)) : Lives srt s1 := by
  have := Lives.step (srt := srt) (.call (.register name ty k.comps tag unit false)) hs
    ⟨by simp only [Adm]; rw [k.toNb]; nlinarith, fun _ _ _ => trivial⟩
    (by
      simp only [Maps.step, Maps.call_register]
      exact s.coll.register_ne_ub name ty k.comps tag unit false)
  simp only [Maps.step, h] at this
  exact this

/-- **C71** A mapped field is made exactly when its name is free, the order is column-major, the needed
number of sub-points is known, and, for a fixed size iterate that spans a pixel, is one; otherwise an
exception is thrown. -/
theorem C71_made_iff {srt : SortFn} {s : Maps α U} (hs : Lives srt s) (name : String) (ty : ElemType)
    {k : MappedKind} (hr : 1 ≤ k.rows) (hk : 1 ≤ k.cols) (tag : String) (unit : U) :
    (Mappable s.coll name tag k ↔ ∃ m, (s.mapped srt name ty k tag unit).1 = .ok m) ∧
      (¬ Mappable s.coll name tag k ↔ ∃ e, (s.mapped srt name ty k tag unit).1 = .throw e) := by
  suffices h : (Mappable s.coll name tag k ∧ ∃ m, (s.mapped srt name ty k tag unit).1 = .ok m) ∨
      (¬ Mappable s.coll name tag k ∧ ∃ e, (s.mapped srt name ty k tag unit).1 = .throw e) by
    rcases h with ⟨h1, m, h2⟩ | ⟨h1, e, h2⟩
    · exact ⟨⟨fun _ => ⟨m, h2⟩, fun _ => h1⟩, fun h => absurd h1 h, fun ⟨e, he⟩ => (by rw [h2] at he; cases he)⟩
    · exact ⟨⟨fun h => absurd h h1, fun ⟨m, hm⟩ => (by rw [h2] at hm; cases hm)⟩, fun _ => ⟨e, h2⟩, fun _ => h1⟩
  rcases mapped_cases (srt := srt) hs.good name ty hr hk tag unit with
    ⟨f, h1, h2⟩ | ⟨h1, h2, h3, e, h4⟩ | ⟨f, s1, h1, h2, f1, f2, f3, f4, f5, f6, hs1, hcall, hf, h7⟩
  · right
    rw [h2]
    exact ⟨fun h => (by rw [h.free] at h1; cases h1), _, rfl⟩
  · right
    rw [h4]
    refine ⟨fun h => ?_, _, rfl⟩
    obtain ⟨n, hn, hu⟩ := h.known (Or.inl h2)
    exact hu (h3 n hn)
  · rw [h7]
    have hl1 := hs.register hr hk hcall
    have hnew := mappedOn_new hl1.good hr hk hf f3
    have hord : s1.coll.order = s.coll.order := by
      have := (s.coll.getSub_frame tag).1
      simp only [base, Prod.mk.injEq] at this
      rw [hs1]
      exact this.2.2.1
    have hiff : Mappable s.coll name tag k ↔ ¬ (k.iter = .pixel ∧ f.nbSub = Unknown ∨
        s1.coll.order ≠ .colMajor ∨ k.isStatic = true ∧ k.iter = .pixel ∧ f.nbSub ≠ 1) := by
      rw [hord, f4]
      constructor
      · rintro ⟨a1, a2, a3, a4⟩ (⟨b1, b2⟩ | b | ⟨b1, b2, b3⟩)
        · obtain ⟨n, hn, hu⟩ := a3 (Or.inr b1)
          rw [hn] at b2
          exact hu b2
        · exact b a2
        · rw [a4 b1 b2] at b3
          exact b3 rfl
      · intro h
        simp only [not_or, not_and, not_not] at h
        obtain ⟨a1, a2, a3⟩ := h
        refine ⟨h1, by simpa using a2, ?_, ?_⟩
        · rintro (hi | hi)
          · exact h2 hi
          · have := a1 hi
            cases hn : s.coll.subPts.find tag with
            | none => rw [hn] at this; exact absurd rfl this
            | some n => rw [hn] at this; exact ⟨n, rfl, this⟩
        · intro b1 b2
          have := a3 b1 b2
          cases hn : s.coll.subPts.find tag with
          | none => rw [hn] at this; simp [Unknown] at this
          | some n => rw [hn] at this; simp at this; rw [this]
    split at hnew
    · rename_i hc
      right
      obtain ⟨e, he⟩ := hnew
      exact ⟨fun h => (hiff.1 h) hc, e, by rw [he]⟩
    · rename_i hc
      left
      obtain ⟨o, ho, _⟩ := hnew
      exact ⟨hiff.2 hc, _, by rw [ho]⟩

/-- **C71** What has been made: a field with the given type, sub-division and unit and `rows * cols`
components, and a map on it with that many rows; no other field and no other map is touched. -/
theorem C71_made {srt : SortFn} {s s' : Maps α U} (hs : Lives srt s) {name : String} {ty : ElemType}
    {k : MappedKind} (hr : 1 ≤ k.rows) (hk : 1 ≤ k.cols) {tag : String} {unit : U} {m : Mapped}
    (h : s.mapped srt name ty k tag unit = (.ok m, s')) :
    Lives srt s' ∧ m.name = name ∧
      (∃ f, s'.coll.fields.find name = some f ∧ f.ty = ty ∧ f.nbComp = k.rows * k.cols ∧ f.tag = tag ∧
        f.unit = unit) ∧
      (∃ o, s'.live m.map = some o ∧ o.map.name = name ∧ o.map.iter = k.iter ∧ o.map.rows = k.rows ∧
        o.map.cols = k.cols * spanOf s.coll tag k ∧
        o.map.stride = k.rows * k.cols * spanOf s.coll tag k) ∧
      (∀ n, n ≠ name → s'.coll.fields.find n = s.coll.fields.find n) ∧
      (∀ j, j ≠ m.map → s'.live j = s.live j) ∧ s.live m.map = none := by
  rcases mapped_cases (srt := srt) hs.good name ty hr hk tag unit with
    ⟨f, h1, h2⟩ | ⟨h1, h2, h3, e, h4⟩ | ⟨f, s1, h1, h2, f1, f2, f3, f4, f5, f6, hs1, hcall, hf, h7⟩
  · rw [h2] at h; simp at h
  · rw [h4] at h; simp at h
  · rw [h7] at h
    have hl1 := hs.register hr hk hcall
    have hnew := mappedOn_new hl1.good hr hk hf f3
    split at hnew
    · obtain ⟨e, he⟩ := hnew
      rw [he] at h; simp at h
    · obtain ⟨o, ho, o1, o2, o3, o4, o5⟩ := hnew
      have hmake : Lives srt (s1.make name k.iter k.map).2 := by
        have hkok : k.map.ok := by cases k <;> exact hr
        refine Lives.step (.make name k.iter k.map) hl1 hkok ?_
        simp only [Maps.step]
        intro hu
        unfold Maps.mappedOn at ho
        rcases hmk : s1.make name k.iter k.map with ⟨r, x⟩
        rw [hmk] at hu ho
        simp only at hu
        subst hu
        simp at ho
      have hsnd : (s1.make name k.iter k.map).2 = s1.add o := by
        unfold Maps.mappedOn at ho
        rcases hmk : s1.make name k.iter k.map with ⟨r, x⟩
        rw [hmk] at ho
        cases r <;> simp at ho
        exact ho
      rw [hsnd] at hmake
      rw [ho] at h
      simp only [Prod.mk.injEq, Res.ok.injEq] at h
      obtain ⟨rfl, rfl⟩ := h
      have hmaps : s1.maps = s.maps := by rw [hs1]; rfl
      have hlive : ∀ j, s1.live j = s.live j := by intro j; unfold Maps.live; rw [hmaps]
      refine ⟨hmake, rfl, ⟨f, hf, f1, f3, f5, f6⟩, ⟨o, ?_, o1, o2, o3, ?_, ?_⟩, ?_, ?_, ?_⟩
      · rw [Maps.live_add, if_pos rfl]
      · rw [o4, f4]; rfl
      · rw [o5, f4]; rfl
      · intro n hn
        rw [hs1]
        simp only [Maps.add, Maps.refresh]
        rw [SMap.find_insert, if_neg hn]
      · intro j hj
        rw [Maps.live_add, if_neg hj, hlive]
      · rw [hmaps]
        unfold Maps.live
        rw [List.getElem?_eq_none (le_refl _)]; rfl

/-- The states a careful program can go to without destroying map `h`. -/
inductive Goes (srt : SortFn) (h : Nat) (s : Maps α U) : Maps α U → Prop
  | refl : Goes srt h s s
  | step {s1 : Maps α U} (op : Maps.Op α U) : Goes srt h s s1 → Maps.Careful s1 op →
      (s1.step srt op).1 ≠ .ub → op ≠ .drop h → Goes srt h s (s1.step srt op).2

theorem Goes.lives {srt : SortFn} {h : Nat} {s s2 : Maps α U} (hs : Lives srt s) (hg : Goes srt h s s2) :
    Lives srt s2 := by
  induction hg with
  | refl => exact hs
  | step op _ hc hub _ ih => exact .step op ih hc hub

theorem Goes.live {srt : SortFn} {h : Nat} {s s2 : Maps α U} (hs : Lives srt s) (hg : Goes srt h s s2)
    {o : MapObj} (hl : s.live h = some o) :
    ∃ o', s2.live h = some o' ∧ o'.map.name = o.map.name ∧ o'.map.iter = o.map.iter ∧
      o'.map.rows = o.map.rows ∧ o'.map.cols = o.map.cols ∧ o'.map.stride = o.map.stride := by
  induction hg with
  | refl => exact ⟨o, hl, rfl, rfl, rfl, rfl, rfl⟩
  | step op hg hc hub hd ih =>
    obtain ⟨o1, h1, a1, a2, a3, a4, a5⟩ := ih
    obtain ⟨o2, h2, b1, b2, b3, b4, b5⟩ := C70_same (hg.lives hs) hc hub h1 hd
    exact ⟨o2, h2, b1.trans a1, b2.trans a2, b3.trans a3, b4.trans a4, b5.trans a5⟩

/-- **C71** From the initialisation of the collection on, whether the mapped field was made before or after
it and whatever happens in between, the mapped field gives access to the buffer of its field in pieces of
`rows * cols` entries (times the number of sub-points if iterates span pixels). -/
theorem C71_view {srt : SortFn} {s s1 s2 : Maps α U} (hs : Lives srt s) {name : String} {ty : ElemType}
    {k : MappedKind} (hr : 1 ≤ k.rows) (hk : 1 ≤ k.cols) {tag : String} {unit : U} {m : Mapped}
    (h : s.mapped srt name ty k tag unit = (.ok m, s1)) (hg : Goes srt m.map s1 s2)
    (hi : s2.coll.initialised = true) :
    ∃ (f : Field α U) (w : Nat), s2.coll.fields.find name = some f ∧
      (w : Int) = k.rows * k.cols * spanOf s.coll tag k ∧
      (∀ i, (i + 1) * w ≤ f.vals.length → ∃ v, s2.get m.map i = .ok v ∧ IsPiece f.vals w i v) ∧
      (∀ i, f.vals.length < (i + 1) * w → s2.get m.map i = .ub) := by
  obtain ⟨hl1, _, _, ⟨o, ho, a1, a2, a3, a4, a5⟩, _⟩ := C71_made hs hr hk h
  obtain ⟨o', ho', b1, b2, b3, b4, b5⟩ := hg.live hl1 ho
  have hl2 := hg.lives hl1
  obtain ⟨f, hf, h1, h2⟩ := C70_shows hl2 ho' hi
  obtain ⟨f', hm⟩ := hl2.good.maps _ _ ho'
  have : f' = f := by have := hm.find; rw [hf] at this; exact (Option.some.inj this).symm
  subst this
  refine ⟨f', perIter f' o'.map.iter, by rw [← a1, ← b1]; exact hf, ?_, h1, h2⟩
  rw [← hm.fits.stride, b5, a5]

/-- **C71** A constructor with a name that is in use throws and leaves fields, sub-points and maps as they
were. -/
theorem C71_in_use {srt : SortFn} {s : Maps α U} {name : String} (hf : (s.coll.fields.find name).isSome)
    (ty : ElemType) (k : MappedKind) (tag : String) (unit : U) :
    (s.mapped srt name ty k tag unit).1 = .throw .fieldCollectionError ∧
      (s.mapped srt name ty k tag unit).2.coll = s.coll ∧
      (s.mapped srt name ty k tag unit).2.maps = s.maps := by
  obtain ⟨f, hf⟩ := Option.isSome_iff_exists.1 hf
  unfold Maps.mapped
  rw [Maps.call_register, C10_register_existing s.coll name f hf]
  exact ⟨rfl, rfl, rfl⟩

/-- **C71, the claim on rejected constructors**: a mapped field whose constructor throws leaves the fields
of the collection as they were. -/
def C71_atomic_statement : Prop :=
  ∀ (s : Maps Int String) (name : String) (ty : ElemType) (k : MappedKind) (tag unit : String) (e : Err),
    Lives stableSort s → 1 ≤ k.rows → 1 ≤ k.cols →
    (s.mapped stableSort name ty k tag unit).1 = .throw e →
    (s.mapped stableSort name ty k tag unit).2.coll.fields = s.coll.fields

/-- **C71** Exactly when a rejected constructor leaves the fields as they were: when the name was in use or
the field could not be allocated.  Otherwise the field stays registered without its mapped field, and the
name is taken. -/
theorem C71_rejected {srt : SortFn} {s : Maps α U} (hs : Lives srt s) {name : String} {ty : ElemType}
    {k : MappedKind} (hr : 1 ≤ k.rows) (hk : 1 ≤ k.cols) {tag : String} {unit : U} {e : Err}
    (h : (s.mapped srt name ty k tag unit).1 = .throw e) :
    if (s.coll.fields.find name).isSome ∨
        (s.coll.initialised = true ∧ ∀ n, s.coll.subPts.find tag = some n → n = Unknown) then
      (s.mapped srt name ty k tag unit).2.coll.fields = s.coll.fields
    else ∃ f, (s.mapped srt name ty k tag unit).2.coll.fields = s.coll.fields.insert name f ∧
      (s.mapped srt name ty k tag unit).2.coll.fields.find name = some f ∧
      (s.mapped srt name ty k tag unit).2.coll.fields ≠ s.coll.fields ∧
      Lives srt (s.mapped srt name ty k tag unit).2 := by
  rcases mapped_cases (srt := srt) hs.good name ty hr hk tag unit with
    ⟨f, h1, h2⟩ | ⟨h1, h2, h3, e, h4⟩ | ⟨f, s1, h1, h2, f1, f2, f3, f4, f5, f6, hs1, hcall, hf, h7⟩
  · rw [if_pos (Or.inl (by simp [h1])), h2]; rfl
  · rw [if_pos (Or.inr ⟨h2, h3⟩), h4]
    exact (s.coll.getSub_frame tag).2.1
  · rw [if_neg]
    · rw [h7] at h ⊢
      have hl1 := hs.register hr hk hcall
      have hnew := mappedOn_new hl1.good hr hk hf f3
      split at hnew
      · obtain ⟨e', he⟩ := hnew
        rw [he]
        refine ⟨f, by rw [hs1]; rfl, hf, ?_, hl1⟩
        intro heq
        simp only at heq
        rw [heq, h1] at hf
        cases hf
      · obtain ⟨o, ho, _⟩ := hnew
        rw [ho] at h; simp at h
    · rintro (hx | ⟨hx, hy⟩)
      · rw [h1] at hx; cases hx
      · obtain ⟨n, hn, hu⟩ := h2 hx
        exact hu (hy n hn)

/-- **C71, what holds of the claim**: iterates that do not span pixels, in a column-major collection. -/
theorem C71_atomic_partial {srt : SortFn} {s : Maps α U} (hs : Lives srt s) {name : String} {ty : ElemType}
    {k : MappedKind} (hr : 1 ≤ k.rows) (hk : 1 ≤ k.cols) {tag : String} {unit : U} {e : Err}
    (hit : k.iter = .subPt) (hord : s.coll.order = .colMajor)
    (h : (s.mapped srt name ty k tag unit).1 = .throw e) :
    (s.mapped srt name ty k tag unit).2.coll.fields = s.coll.fields := by
  have hr' := C71_rejected hs hr hk h
  split at hr'
  · exact hr'
  · rename_i hc
    exfalso
    have hno := (C71_made_iff hs name ty hr hk tag unit).2.2 ⟨e, h⟩
    apply hno
    simp only [not_or, not_and, not_forall] at hc
    refine ⟨by simpa using hc.1, hord, ?_, fun _ hp => by rw [hit] at hp; cases hp⟩
    rintro (hi | hi)
    · obtain ⟨n, hn, hu⟩ := hc.2 hi
      exact ⟨n, hn, hu⟩
    · rw [hit] at hi; cases hi

/-! ### optional mapped fields -/

/-- **C71** `get` on an optional mapped field that has a value returns the same mapped field every time and
changes nothing. -/
theorem C71_optional_again {srt : SortFn} {o : OptionalMapped U} (h : o.hasValue = true) (s : Maps α U) :
    ∃ m, o.held = some m ∧ o.get srt s = (.ok m, o, s) := by
  obtain ⟨m, hm⟩ := Option.isSome_iff_exists.1 h
  exact ⟨m, hm, by simp only [OptionalMapped.get, hm]⟩

/-- **C71** `get` on an empty one makes the mapped field; afterwards, and only if it was made, it has a
value. -/
theorem C71_optional_first {srt : SortFn} {o : OptionalMapped U} (h : o.hasValue = false) (s : Maps α U) :
    (o.get srt s).1 = (s.mapped srt o.name o.ty o.kind o.tag o.unit).1 ∧
      (o.get srt s).2.2 = (s.mapped srt o.name o.ty o.kind o.tag o.unit).2 ∧
      ((o.get srt s).2.1.hasValue = true ↔ ∃ m, (o.get srt s).1 = .ok m) ∧
      (∀ m, (o.get srt s).1 = .ok m → (o.get srt s).2.1 = { o with held := some m }) := by
  have hn : o.held = none := by simpa [OptionalMapped.hasValue] using h
  unfold OptionalMapped.get
  rw [hn]
  simp only
  rcases s.mapped srt o.name o.ty o.kind o.tag o.unit with ⟨r, s'⟩
  cases r with
  | ok m => simp [OptionalMapped.hasValue]
  | throw e => simp [OptionalMapped.hasValue, hn]
  | ub => simp [OptionalMapped.hasValue, hn]

/-- **C71** An empty optional field whose name is taken cannot be filled: `get` throws and changes
nothing. -/
theorem C71_optional_taken {srt : SortFn} {o : OptionalMapped U} (h : o.hasValue = false) {s : Maps α U}
    (hf : (s.coll.fields.find o.name).isSome) :
    (o.get srt s).1 = .throw .fieldCollectionError ∧ (o.get srt s).2.1 = o ∧
      (o.get srt s).2.2.coll = s.coll ∧ (o.get srt s).2.2.maps = s.maps := by
  obtain ⟨h1, h2, h3⟩ := C71_in_use (srt := srt) hf o.ty o.kind o.tag o.unit
  have hn : o.held = none := by simpa [OptionalMapped.hasValue] using h
  unfold OptionalMapped.get
  rw [hn]
  simp only
  rcases hm : s.mapped srt o.name o.ty o.kind o.tag o.unit with ⟨r, s'⟩
  rw [hm] at h1 h2 h3
  simp only at h1
  subst h1
  exact ⟨rfl, rfl, h2, h3⟩

/-- **C71, the claim on repeated attempts**: when `get` has thrown, and what was missing has been provided
(now a mapped field of another name could be made), then `get` succeeds. -/
def C71_retry_statement : Prop :=
  ∀ (o : OptionalMapped String) (s s2 : Maps Int String) (e : Err) (other : String),
    Lives stableSort s → 1 ≤ o.kind.rows → 1 ≤ o.kind.cols → o.hasValue = false →
    (s.coll.fields.find o.name) = none → (o.get stableSort s).1 = .throw e →
    Goes stableSort s.maps.length (o.get stableSort s).2.2 s2 →
    (∃ m, (s2.mapped stableSort other o.ty o.kind o.tag o.unit).1 = .ok m) →
    ∃ m, ((o.get stableSort s).2.1.get stableSort s2).1 = .ok m

/-- **C71, what holds of the claim**: if the failed attempt did not get as far as registering the field, or
the field has been removed in the meantime. -/
theorem C71_retry_partial {srt : SortFn} {o : OptionalMapped U} {s s2 : Maps α U} {e : Err} {other : String}
    (hs2 : Lives srt s2) (hr : 1 ≤ o.kind.rows) (hk : 1 ≤ o.kind.cols) (hv : o.hasValue = false)
    (hthrow : (o.get srt s).1 = .throw e)
    (hfree : s2.coll.fields.find o.name = none)
    (hother : ∃ m, (s2.mapped srt other o.ty o.kind o.tag o.unit).1 = .ok m) :
    ∃ m, ((o.get srt s).2.1.get srt s2).1 = .ok m := by
  have hn : o.held = none := by simpa [OptionalMapped.hasValue] using hv
  have hsame : (o.get srt s).2.1 = o := by
    unfold OptionalMapped.get at hthrow ⊢
    rw [hn] at hthrow ⊢
    rcases hm : s.mapped srt o.name o.ty o.kind o.tag o.unit with ⟨r, s'⟩
    simp only [hm] at hthrow ⊢
    cases r with
    | ok m => simp at hthrow
    | throw e => rfl
    | ub => rfl
  rw [hsame, (C71_optional_first hv s2).1]
  have hm := (C71_made_iff hs2 other o.ty hr hk o.tag o.unit).1.2 hother
  exact (C71_made_iff hs2 o.name o.ty hr hk o.tag o.unit).1.1 ⟨hfree, hm.order, hm.known, hm.single⟩

/-! ### mapped state fields -/

/-- When a mapped state field can be made. -/
structure StateMappable (c : Coll α U) (pre tag : String) (N : Nat) (it : IterUnit) : Prop where
  free : c.states.find pre = none
  memory : 1 ≤ N
  fields : ∀ j, j < N + 1 → c.fields.find (subFieldName pre j) = none
  order : c.order = .colMajor
  known : c.initialised = true → ∃ n, c.subPts.find tag = some n ∧ n ≠ Unknown
  single : it = .pixel → c.subPts.find tag = some 1

theorem makeMaps_throw {c : Coll α U} {rows : Int} {it : IterUnit} {names : List String}
    (hne : names ≠ []) {e : Err} (h : ∀ n ∈ names, FieldMap.mkRows c n rows it = .throw e) :
    StateFieldMap.makeMaps c rows it names = .throw e := by
  cases names with
  | nil => exact absurd rfl hne
  | cons a names =>
    unfold StateFieldMap.makeMaps
    rw [h a (by simp)]; rfl

theorem makeStaticMaps_throw {c : Coll α U} {r k : Int} {it : IterUnit} {names : List String}
    (hne : names ≠ []) {e : Err} (h : ∀ n ∈ names, FieldMap.mkStatic c n r k it = .throw e) :
    StateFieldMap.makeStaticMaps c r k it names = .throw e := by
  cases names with
  | nil => exact absurd rfl hne
  | cons a names =>
    unfold StateFieldMap.makeStaticMaps
    rw [h a (by simp)]; rfl

theorem makeStaticMaps_ok {c : Coll α U} {r k : Int} {it : IterUnit} {names : List String}
    (h : ∀ n ∈ names, ∃ m, FieldMap.mkStatic c n r k it = .ok m) :
    ∃ maps, StateFieldMap.makeStaticMaps c r k it names = .ok maps := by
  induction names with
  | nil => exact ⟨[], rfl⟩
  | cons a names ih =>
    obtain ⟨m, hm⟩ := h a (by simp)
    obtain ⟨ms, hms⟩ := ih (fun n hn => h n (by simp [hn]))
    exact ⟨m :: ms, by unfold StateFieldMap.makeStaticMaps; rw [hm, Res.ok_bind, hms]; rfl⟩

/-- The map on a state field all of whose sub-fields are alike. -/
theorem mkStatic_alike {c : Coll α U} (hinv : SizeInv c) {pre : String} {s : StateField U} {N : Nat}
    (hs : c.states.find pre = some s) (hok : StateOk s N) {r k X : Int} (hr : 1 ≤ r) (hk : 1 ≤ k)
    (hf : ∀ n ∈ s.names, ∃ f, c.fields.find n = some f ∧ f.nbComp = r * k ∧ f.nbSub = X) (it : IterUnit) :
    if (it = .pixel ∧ X ≠ 1) ∨ c.order ≠ .colMajor then ∃ e, StateFieldMap.mkStatic c pre r k N it = .throw e
    else ∃ sm, StateFieldMap.mkStatic c pre r k N it = .ok sm := by
  obtain ⟨o1, o2, o3, o4⟩ := hok
  have hne : s.names ≠ [] := by intro h; rw [h] at o2; simp at o2
  -- the current field
  obtain ⟨f0, hcur, hc1, hc2⟩ : ∃ f0, c.stateCurrent pre = .ok f0 ∧ f0.nbComp = r * k ∧ f0.nbSub = X := by
    have hlt : 0 < s.indices.length := by omega
    have h0 := List.getElem?_eq_getElem hlt
    have hj := o4 s.indices[0] (List.getElem_mem hlt)
    have hj' : s.indices[0] < s.names.length := by omega
    have hn := List.getElem?_eq_getElem hj'
    obtain ⟨f0, g1, g2, g3⟩ := hf _ (List.getElem_mem hj')
    refine ⟨f0, ?_, g2, g3⟩
    unfold Coll.stateCurrent Coll.currentName StateField.slotName
    simp only [hs, h0, hn, g1]
  have hstat : ∀ n ∈ s.names, FieldMap.mkStatic c n r k it =
      if it = .pixel ∧ X = Unknown then .throw .fieldError
      else if c.order ≠ .colMajor then .throw .runtimeError
      else if it = .pixel ∧ X ≠ 1 then .throw .fieldMapError
      else .ok ⟨n, it, r * k * (if it = .pixel then X else 1), r, k * (if it = .pixel then X else 1),
        c.initialised⟩ := by
    intro n hn
    obtain ⟨f, g1, g2, g3⟩ := hf n hn
    have := mkMap_mapped hinv.wf g1 (k := .static r k it) hr hk g2
    rw [g3] at this
    simp only [Maps.mkMap, MappedKind.map, MappedKind.iter, MappedKind.isStatic, MappedKind.rows,
      MappedKind.cols, MappedKind.span, true_and] at this
    rw [this]
    split_ifs <;> simp_all
  have hrk : 1 ≤ r * k := by nlinarith
  unfold StateFieldMap.mkStatic StateFieldMap.mk'
  simp only [hs, hcur, Res.ok_bind]
  by_cases hu : it = .pixel ∧ X = Unknown
  · rw [if_pos (Or.inl ⟨hu.1, by rw [hu.2]; decide⟩)]
    rw [makeMaps_throw hne (e := .fieldError)]
    · exact ⟨.fieldError, rfl⟩
    · intro n hn
      obtain ⟨f, g1, g2, g3⟩ := hf n hn
      have hsub := hasSub_iff hinv.wf g1
      rw [g3, hu.2] at hsub
      have hsub' : c.hasSub f.tag = false := by simpa using hsub
      unfold FieldMap.mkRows
      simp only [g1, hu.1, FieldMap.fieldStride, hsub', Bool.false_eq_true, if_false, Res.throw_bind]
  -- the maps of the base class
  have hbase : ∀ n ∈ s.names, FieldMap.mkRows c n (if it = .pixel then f0.nbComp * f0.nbSub else f0.nbComp) it =
      if c.order = .colMajor then
        .ok ⟨n, it, (if it = .pixel then f0.nbComp * f0.nbSub else f0.nbComp) * 1,
          (if it = .pixel then f0.nbComp * f0.nbSub else f0.nbComp), 1, c.initialised⟩
      else .throw .runtimeError := by
    intro n hn
    obtain ⟨f, g1, g2, g3⟩ := hf n hn
    have hsub := hasSub_iff hinv.wf g1
    apply mkRows_mul g1
    · rw [hc1, hc2]
      split
      · rename_i hp
        have : X ≠ Unknown := fun e => hu ⟨hp, e⟩
        have := (hinv.sub _ _ (hinv.wf.tags n f g1)).resolve_left (by rw [g3]; exact this)
        rw [g3] at this
        nlinarith
      · exact hrk
    · rw [hc1, hc2, mul_one]
      cases it with
      | subPt => simp only [FieldMap.fieldStride, g2]; rfl
      | pixel =>
        have : f.nbSub ≠ Unknown := by rw [g3]; exact fun e => hu ⟨rfl, e⟩
        simp only [FieldMap.fieldStride, hsub.2 this, if_true, g2, g3]
  by_cases ho : c.order ≠ .colMajor
  · rw [if_pos (Or.inr ho)]
    rw [makeMaps_throw hne (e := .runtimeError)]
    · exact ⟨.runtimeError, rfl⟩
    · intro n hn
      rw [hbase n hn, if_neg ho]
  have ho' : c.order = .colMajor := by simpa using ho
  obtain ⟨maps0, hmaps0⟩ := (StateFieldMap.makeMaps_ok (c := c)
    (r := if it = .pixel then f0.nbComp * f0.nbSub else f0.nbComp) (it := it) (names := s.names)).2
    (fun n hn => ⟨_, by rw [hbase n hn, if_pos ho']⟩)
  rw [hmaps0]
  simp only [Res.ok_bind, Res.pure_eq, o1, ne_eq, not_true_eq_false, if_false]
  by_cases hx : it = .pixel ∧ X ≠ 1
  · rw [if_pos (Or.inl hx)]
    rw [makeStaticMaps_throw hne (e := .fieldMapError)]
    · exact ⟨.fieldMapError, rfl⟩
    · intro n hn
      rw [hstat n hn, if_neg hu, if_neg ho, if_pos hx]
  · rw [if_neg (by simp only [hx, ho', not_true_eq_false, or_self, not_false_eq_true])]
    obtain ⟨maps, hmaps⟩ := makeStaticMaps_ok (c := c) (r := r) (k := k) (it := it) (names := s.names)
      (fun n hn => ⟨_, by rw [hstat n hn, if_neg hu, if_neg ho, if_neg hx]⟩)
    rw [hmaps]
    exact ⟨_, rfl⟩

/-- **C71** A mapped state field is made exactly when its prefix and the names of its sub-fields are free,
the memory is at least one, the order is column-major, the number of sub-points is known if the collection
is initialised, and is one if iterates span pixels; otherwise an exception is thrown. -/
theorem C71_state_made_iff {c : Coll α U} (hinv : SizeInv c) (pre : String) (ty : ElemType) {r k : Int}
    (hr : 1 ≤ r) (hk : 1 ≤ k) (N : Nat) (it : IterUnit) (tag : String) (unit : U) :
    (StateMappable c pre tag N it ↔ ∃ sm, (StateFieldMap.mapped c pre ty r k N it tag unit).1 = .ok sm) ∧
    (¬ StateMappable c pre tag N it ↔ ∃ e, (StateFieldMap.mapped c pre ty r k N it tag unit).1 = .throw e) := by
  have hrk : 1 ≤ r * k := by nlinarith
  suffices h : (StateMappable c pre tag N it ∧
        ∃ sm, (StateFieldMap.mapped c pre ty r k N it tag unit).1 = .ok sm) ∨
      (¬ StateMappable c pre tag N it ∧
        ∃ e, (StateFieldMap.mapped c pre ty r k N it tag unit).1 = .throw e) by
    rcases h with ⟨h1, m, h2⟩ | ⟨h1, e, h2⟩
    · exact ⟨⟨fun _ => ⟨m, h2⟩, fun _ => h1⟩, fun h => absurd h1 h, fun ⟨e, he⟩ => (by rw [h2] at he; cases he)⟩
    · exact ⟨⟨fun h => absurd h h1, fun ⟨m, hm⟩ => (by rw [h2] at hm; cases hm)⟩, fun _ => ⟨e, h2⟩, fun _ => h1⟩
  obtain ⟨hiff, hthen⟩ := registerState_iff hinv (pre := pre) (ty := ty) hrk (tag := tag) (unit := unit) N
  have hnub := c.registerState_ne_ub pre ty N (r * k) tag unit
  unfold StateFieldMap.mapped
  rcases hreg : c.registerState pre ty N (r * k) tag unit false with ⟨res, c1⟩
  rw [hreg] at hiff hthen hnub
  cases res with
  | ub => exact absurd rfl hnub
  | throw e =>
    right
    refine ⟨fun h => ?_, e, rfl⟩
    have := hiff.2 ⟨h.free, h.memory, h.fields, h.known⟩
    cases this
  | ok u =>
    simp only
    obtain ⟨a1, a2, a3, a4⟩ := hiff.1 rfl
    obtain ⟨b1, b2, b3, b4, b5⟩ := hthen rfl
    simp only at b1 b2 b3 b4 b5
    obtain ⟨_, s, hs, hN, hnames, hind, _, _⟩ := registerState_new hreg
    have hok : StateOk s N := ⟨hN, by rw [hnames]; simp, by rw [hind]; simp [initialIndices],
      by rw [hind]; exact initialIndices_lt⟩
    have hal := mkStatic_alike b1 hs hok hr hk (X := (c.subPts.find tag).getD Unknown) (by
      intro n hn
      rw [hnames] at hn
      simp only [List.mem_map, List.mem_range] at hn
      obtain ⟨j, hj, rfl⟩ := hn
      obtain ⟨f, f1, f2, f3, _⟩ := b5 j hj
      have := b1.wf.tags _ _ f1
      rw [f3, b4] at this
      exact ⟨f, f1, f2, (Option.some.inj this).symm⟩) it
    rw [b2] at hal
    split at hal
    · rename_i hc
      right
      refine ⟨fun h => ?_, hal⟩
      rcases hc with ⟨hp, hx⟩ | hx
      · rw [h.single hp] at hx; exact hx rfl
      · exact hx h.order
    · rename_i hc
      left
      simp only [not_or, not_and, not_not] at hc
      refine ⟨⟨a1, a2, a3, by simpa using hc.2, a4, fun hp => ?_⟩, hal⟩
      have := hc.1 hp
      cases hn : c.subPts.find tag with
      | none => rw [hn] at this; simp [Unknown] at this
      | some n => rw [hn] at this; simp at this; rw [this]

/-- **C71** The static map is the dynamic map with as many rows, on a state field with the memory it was
compiled for. -/
theorem C71_state_static {c : Coll α U} {pre : String} {r k : Int} {N : Nat} {it : IterUnit}
    {sm : StateFieldMap} (h : StateFieldMap.mkStatic c pre r k N it = .ok sm) :
    StateFieldMap.mk' c pre (some r) it = .ok sm ∧ ∃ s, c.states.find pre = some s ∧ s.nbMemory = N := by
  unfold StateFieldMap.mkStatic at h
  cases hs : c.states.find pre with
  | none => rw [hs] at h; cases h
  | some s =>
    simp only [hs] at h
    obtain ⟨sm0, h0, h⟩ := Res.bind_eq_ok.1 h
    by_cases hN : s.nbMemory ≠ N
    · rw [if_pos hN] at h; cases h
    · rw [if_neg hN] at h
      obtain ⟨maps, hm, h⟩ := Res.bind_eq_ok.1 h
      refine ⟨?_, s, rfl, by simpa using hN⟩
      unfold StateFieldMap.mk' at h0 ⊢
      simp only [hs] at h0 ⊢
      obtain ⟨f0, hf0, _⟩ := Res.bind_eq_ok.1 h0
      rw [hf0, Res.ok_bind, (StateFieldMap.makeStaticMaps_iff.1 hm).1, Res.ok_bind]
      exact h

/-- **C71** A static map is refused on a state field with another memory. -/
theorem C71_state_memory {c : Coll α U} {pre : String} {s : StateField U} (hs : c.states.find pre = some s)
    {N : Nat} (hN : s.nbMemory ≠ N) (r k : Int) (it : IterUnit) :
    ∀ sm, StateFieldMap.mkStatic c pre r k N it ≠ .ok sm := by
  intro sm h
  obtain ⟨_, s', hs', hN'⟩ := C71_state_static h
  rw [hs] at hs'
  exact hN (by rw [Option.some.inj hs']; exact hN')

/-- **C71** A static map follows its state field like the dynamic map does: after any further calls `current`
and `old<k>` are the entries of the fields the state field then has there, in pieces of `r * k` entries. -/
theorem C71_state_follows {srt : SortFn} {c0 c : Coll α U} (hb : Built srt c0) (hi : c0.initialised = true)
    {pre : String} {s : StateField U} {N : Nat} (hs : c0.states.find pre = some s) (hok : StateOk s N)
    {it : IterUnit} {r k : Int} (hr : 1 ≤ r) {sm : StateFieldMap}
    (hm : StateFieldMap.mkStatic c0 pre r k N it = .ok sm) {ops : List (StOp α U)}
    (hrun : c0.stRun pre ops = some c) (i : Nat) {g : Nat → Field α U}
    (hcap : ∀ j ≤ N, c.stateOld pre j = .ok (g j) ∧ (g j).fresh = true ∧
      (i + 1) * (r * k).toNat ≤ (g j).vals.length) :
    ∃ w, StateFieldMap.getStatic c sm N i = .ok w ∧
      StateFieldMap.current w = .ok (chunk (g 0).vals (r * k).toNat i) ∧
      (∀ j, 1 ≤ j → j ≤ N → StateFieldMap.oldStatic w j = .ok (chunk (g j).vals (r * k).toNat i)) := by
  obtain ⟨hdyn, _⟩ := C71_state_static hm
  have hK : ∀ n ∈ s.names, ∃ f, c0.fields.find n = some f ∧ perIter f it = (r * k).toNat := by
    intro n hn
    have hm' := hm
    unfold StateFieldMap.mkStatic at hm'
    simp only [hs, ne_eq, hok.1, not_true_eq_false, if_false] at hm'
    obtain ⟨_, _, hm'⟩ := Res.bind_eq_ok.1 hm'
    obtain ⟨maps, hmaps, _⟩ := Res.bind_eq_ok.1 hm'
    obtain ⟨m, hmm⟩ := (StateFieldMap.makeStaticMaps_iff.1 hmaps).2 n hn
    unfold FieldMap.mkStatic at hmm
    obtain ⟨m', hm1, hmm⟩ := Res.bind_eq_ok.1 hmm
    by_cases hst : m'.stride ≠ r * k
    · rw [if_pos hst] at hmm; cases hmm
    · have hst' : m'.stride = r * k := by simpa using hst
      unfold FieldMap.mkRows at hm1
      cases hf : c0.fields.find n with
      | none => rw [hf] at hm1; cases hm1
      | some f =>
        refine ⟨f, rfl, ?_⟩
        simp only [hf] at hm1
        obtain ⟨st, hst1, hm1⟩ := Res.bind_eq_ok.1 hm1
        have hper := (fieldStride_per hb.size hf hst1).1
        have : m'.stride = st := by
          split at hm1
          · cases hm1
          · split at hm1
            · cases hm1
            · simp only [Res.pure_eq] at hm1
              split at hm1
              · cases hm1
              · simp only [Res.ok.injEq] at hm1; rw [← hm1]
        rw [← hst', this, hper]; simp
  obtain ⟨w, hw, h1, h2, h3⟩ := C51_follows hb hi hs hok hK hr hdyn hrun i hcap
  obtain ⟨s', hs', hok', _⟩ := stRun_state ops hs hok hrun
  have hpre : sm.pre = pre := by
    unfold StateFieldMap.mk' at hdyn
    simp only [hs] at hdyn
    obtain ⟨_, _, hdyn⟩ := Res.bind_eq_ok.1 hdyn
    obtain ⟨_, _, hdyn⟩ := Res.bind_eq_ok.1 hdyn
    simp only [Res.pure_eq, Res.ok.injEq] at hdyn
    rw [← hdyn]
  refine ⟨w, ?_, h1, ?_⟩
  · unfold StateFieldMap.get at hw
    simp only [hpre, hs', hok'.1, Int.toNat_natCast] at hw
    exact hw
  · intro j hj hj'
    have := h2 j hj hj'
    unfold StateFieldMap.old at this
    unfold StateFieldMap.oldStatic
    rw [if_neg (by omega)] at this ⊢
    cases hwj : w[j]? with
    | none => rw [hwj] at this; cases this
    | some v => rw [hwj] at this; exact this

/-- **C71** A rejected mapped state field leaves its sub-fields when the state field itself could be
registered. -/
theorem C71_state_rejected {c : Coll α U} (hinv : SizeInv c) {pre : String} {ty : ElemType} {r k : Int}
    (hr : 1 ≤ r) (hk : 1 ≤ k) {N : Nat} {it : IterUnit} {tag : String} {unit : U} {e : Err}
    (h : (StateFieldMap.mapped c pre ty r k N it tag unit).1 = .throw e)
    (hfree : c.states.find pre = none) (hN : 1 ≤ N)
    (hnames : ∀ j, j < N + 1 → c.fields.find (subFieldName pre j) = none)
    (hknown : c.initialised = true → ∃ n, c.subPts.find tag = some n ∧ n ≠ Unknown) :
    (∃ s, (StateFieldMap.mapped c pre ty r k N it tag unit).2.states.find pre = some s) ∧
      ∀ j, j < N + 1 → ∃ f,
        (StateFieldMap.mapped c pre ty r k N it tag unit).2.fields.find (subFieldName pre j) = some f := by
  have hrk : 1 ≤ r * k := by nlinarith
  obtain ⟨hiff, hthen⟩ := registerState_iff hinv (pre := pre) (ty := ty) hrk (tag := tag) (unit := unit) N
  have hok := hiff.2 ⟨hfree, hN, hnames, hknown⟩
  obtain ⟨_, _, _, _, b5⟩ := hthen hok
  unfold StateFieldMap.mapped
  rcases hreg : c.registerState pre ty N (r * k) tag unit false with ⟨res, c1⟩
  rw [hreg] at hok b5
  simp only at hok
  subst hok
  obtain ⟨_, s, hs, _⟩ := registerState_new hreg
  refine ⟨⟨s, hs⟩, fun j hj => ?_⟩
  obtain ⟨f, hf, _⟩ := b5 j hj
  exact ⟨f, hf⟩

/-! ### the mean of static maps -/

/-- **C71** The mean of a static map with iterates is that of the dynamic map; without iterates its entries
are not numbers, while that of the dynamic map is zero. -/
theorem C71_mean {K : Type} [Inhabited K] [_root_.Field K] [CharZero K] {srt : SortFn} {c : Coll K U}
    (hb : Built srt c) (hi : c.initialised = true) {name : String} {f : Collection.Field K U}
    (hf : c.fields.find name = some f) (hd : c.nbBuf = c.nbPixels) (hcur : f.cur = f.nbSub * c.nbBuf)
    (hsz : f.vals.length < 18446744073709551616) {it : IterUnit} {m : FieldMap} (hm : Made c name it m) :
    ∃ a, FieldMap.mean c m = .ok a ∧
      FieldMap.meanStatic c m = .ok (if nbIter c f it = 0 then none else some a) ∧
      (nbIter c f it = 0 → ∀ v ∈ a, v = 0) := by
  obtain ⟨hon, hit, hname⟩ := made_on hb.size hi hf hm
  obtain ⟨h1, h2⟩ := size_of_map hb.size hi hf hd hcur hsz hname hit
  obtain ⟨s, a, hsum, hmean, _, _, hz⟩ := C23_mean hb hi hf hd hcur hsz hm
  have hiter := FieldMap.iterate_ok hon h1 (by omega)
  refine ⟨a, hmean, ?_, hz⟩
  unfold FieldMap.meanStatic
  rw [hiter, Res.ok_bind, h1, Res.ok_bind]
  by_cases hn : nbIter c f it = 0
  · simp only [hn, if_true, Res.pure_eq]
  · have hrc : ¬ (m.rows < 0 ∨ m.cols < 0) := by have := hon.rows; have := hon.cols; omega
    have h0 : f.nbEntries c.nbPixels ≠ 0 := by
      intro h0
      have hs := h1
      unfold FieldMap.size at hs
      rw [hname, hf] at hs
      simp only [h0, ne_eq, not_true_eq_false, if_false, Res.ok.injEq] at hs
      exact hn hs.symm
    unfold FieldMap.mean FieldMap.sum at hmean
    simp only [hname, hf] at hmean
    rw [if_neg hrc, if_pos h0, if_neg hrc, if_pos h0, hiter, Res.ok_bind] at hmean
    simp only [Res.pure_eq, Res.ok_bind, h1, Res.ok.injEq] at hmean
    simp only [hn, if_false, Res.pure_eq, Res.ok.injEq, Option.some.injEq]
    exact hmean

/-! ### examples -/

/-- A statically sized mapped field on sub-points and a dynamic one on pixels in a collection that is not
initialised, then pixels, initialisation, and another one. -/
def exMapped : Res Mapped × Maps Int String :=
  (Maps.start exLifeColl).mapped stableSort "a" .real (.static 2 2 .subPt) "quad" ""

def exMapped2 : Res Mapped × Maps Int String :=
  exMapped.2.mapped stableSort "b" .real (.dynamic 2 1 .pixel) "quad" ""

def exMappedProgram : List (Maps.Op Int String) :=
  [.call (.addPixel 4), .call (.addPixel 9), .call .initLocal, .put 0 3 [1, 2, 3, 4], .put 1 1 [5, 6, 7, 8]]

example : exMapped.1 = .ok ⟨"a", 0⟩ ∧ exMapped2.1 = .ok ⟨"b", 1⟩ ∧
    (exMapped2.2.run stableSort exMappedProgram).map (fun s => (s.coll.initialised, s.iterate 0, s.iterate 1)) =
      some (true, .ok [[0, 0, 0, 0], [0, 0, 0, 0], [0, 0, 0, 0], [1, 2, 3, 4]],
        .ok [[0, 0, 0, 0], [5, 6, 7, 8]]) := by
  decide +kernel

/-- The sub-points of the tag `nodes` are not known yet. -/
def exOptional : OptionalMapped String := ⟨"c", "nodes", .real, "", .static 2 1 .pixel, none⟩

theorem exStart_lives : Lives stableSort (Maps.start exLifeColl) := .start exLifeColl_built

/-- **C71** The claim on rejected constructors is false: an iterate spanning a pixel before the number of
sub-points is known. -/
theorem C71_atomic_false : ¬ C71_atomic_statement := by
  intro h
  have := h (Maps.start exLifeColl) "c" .real (.static 2 1 .pixel) "nodes" "" .fieldError exStart_lives
    (by decide) (by decide) (by decide +kernel)
  revert this
  decide +kernel

/-- **C71** The claim on repeated attempts is false: `get` before the number of sub-points is known throws,
and after it has been set to one `get` throws again, because of the field the first attempt left. -/
theorem C71_retry_false : ¬ C71_retry_statement := by
  intro h
  obtain ⟨m, hm⟩ := h exOptional (Maps.start exLifeColl)
    ((exOptional.get stableSort (Maps.start exLifeColl)).2.2.step stableSort
      (.call (.setNbSubPts "nodes" 1))).2 .fieldError "other" exStart_lives
    (by decide) (by decide) rfl rfl (by decide +kernel)
    (.step _ .refl ⟨trivial, fun _ _ _ => trivial⟩ (by decide +kernel) (by simp))
    ⟨⟨"other", 0⟩, by decide +kernel⟩
  have : ((exOptional.get stableSort (Maps.start exLifeColl)).2.1.get stableSort
      ((exOptional.get stableSort (Maps.start exLifeColl)).2.2.step stableSort
        (.call (.setNbSubPts "nodes" 1))).2).1 = .throw .fieldCollectionError := by decide +kernel
  rw [this] at hm
  cases hm

/-- A mapped state field with memory one on sub-points, before the pixels are known: `C71_state_made_iff`. -/
def exStateMapped : Res StateFieldMap × Coll Int String :=
  StateFieldMap.mapped exLifeColl "s" .real 2 1 1 .subPt "quad" ""

example : StateMappable exLifeColl "s" "quad" 1 .subPt where
  free := by decide +kernel
  memory := by decide
  fields := by
    intro j hj
    match j, hj with
    | 0, _ => decide +kernel
    | 1, _ => decide +kernel
  order := by decide +kernel
  known := fun h => absurd h (by decide +kernel)
  single := fun h => by cases h

/-- The static map follows the state field through a write, a cycle and another write
(`C71_state_follows`). -/
def exStaticColl : Coll Int String :=
  ((exLocal.run stableSort [.addPixel 3, .addPixel 8, .registerState "s" .real 1 2 "pixel" "" false,
    .initLocal]).getD exLocal)

def exStaticOps : List (StOp Int String) :=
  [.onCurrent (fun f => (.ok (), { f with vals := [5, 6, 7, 8] })), .cycle,
   .onCurrent (fun f => (.ok (), { f with vals := [1, 2, 3, 4] }))]

example : (do
    let sm ← StateFieldMap.mkStatic exStaticColl "s" 2 1 1 .pixel
    match exStaticColl.stRun "s" exStaticOps with
    | some c => StateFieldMap.getStatic c sm 1 1
    | none => .ub) = Res.ok [[3, 4], [7, 8]] := by
  decide +kernel

/-- Two entries are kept where three were compiled in: `C71_state_memory`. -/
example : StateFieldMap.mkStatic exStaticColl "s" 2 1 3 .pixel = .throw .fieldMapError := by decide +kernel

/-- The static mean over three pixels (`C71_mean`; the example of C23 meets its hypotheses), and over none. -/
example : (do
    let m ← FieldMap.mkDefault ((exRatStart.run stableSort exRatProgram).getD exRatStart) "a" .pixel
    FieldMap.meanStatic ((exRatStart.run stableSort exRatProgram).getD exRatStart) m) =
      Res.ok (some [4 / 3, 11 / 3]) := by
  decide +kernel

def exNoPixels : Coll Rat String :=
  (exRatStart.run stableSort [.register "a" .real (.num 2) "pixel" "" false, .initLocal]).getD exRatStart

/-- **C71** The mean over an empty collection: not a number with the static map, zero with the dynamic
one. -/
theorem C71_mean_empty : (do
    let m ← FieldMap.mkDefault exNoPixels "a" .pixel
    FieldMap.meanStatic exNoPixels m) = Res.ok none ∧
    (do let m ← FieldMap.mkDefault exNoPixels "a" .pixel
        FieldMap.mean exNoPixels m) = Res.ok [0, 0] := by
  decide +kernel

end Verif.Props
