import Mathlib.Tactic.Ring
import Verif.Lemmas.FieldMap
import Verif.Lemmas.Gradient
import Verif.Model.GradientField
/-! Lemmas: the gradient operator on stored fields does what it does on functions of pixel, row and
column. -/
set_option linter.unusedSectionVars false

namespace Verif
open Verif.Ccoord Verif.Layout Verif.Collection
open scoped BigOperators

variable {α U : Type}

/-- The buffer `l` has the values `v` of `n` pixels with iterates of `rows × cols` entries. -/
def RepVals (l : List α) (rows cols n : Nat) (v : Nat → Nat → Nat → α) : Prop :=
  ∀ k < n, ∀ c < cols, ∀ r < rows, l[k * (rows * cols) + (c * rows + r)]? = some (v k r c)

theorem entry_pos {rows cols c r : Nat} (hc : c < cols) (hr : r < rows) : c * rows + r < rows * cols := by
  calc c * rows + r < c * rows + rows := by omega
    _ = (c + 1) * rows := by ring
    _ ≤ cols * rows := Nat.mul_le_mul_right _ hc
    _ = rows * cols := by ring

namespace GradOp

theorem pixelLoop_sim {σ τ : Type} {p : DynamicPixels} {offs : List (Nat × List Int)} {R : σ → τ → Prop}
    {b1 : Int → Nat → Int → σ → Res σ} {b2 : Int → Nat → Int → τ → Res τ}
    (hb : ∀ id index k s t t', R s t → b2 id index k t = .ok t' → ∃ s', b1 id index k s = .ok s' ∧ R s' t') :
    ∀ (px : List (Int × List Int)) {s : σ} {t t' : τ}, R s t → pixelLoop p offs b2 px t = .ok t' →
      ∃ s', pixelLoop p offs b1 px s = .ok s' ∧ R s' t' := by
  have ho : ∀ (id : Int) (base : List Int) (os : List (Nat × List Int)) {s : σ} {t t' : τ}, R s t →
      offsetLoop p base (b2 id) os t = .ok t' → ∃ s', offsetLoop p base (b1 id) os s = .ok s' ∧ R s' t' := by
    intro id base os
    induction os with
    | nil => intro s t t' hR h; cases h; exact ⟨s, rfl, hR⟩
    | cons o os ih =>
      intro s t t' hR h
      obtain ⟨index, offset⟩ := o
      simp only [offsetLoop] at h ⊢
      obtain ⟨cc, hcc, h⟩ := Res.bind_eq_ok.1 h
      obtain ⟨k, hk, h⟩ := Res.bind_eq_ok.1 h
      obtain ⟨t1, ht1, h⟩ := Res.bind_eq_ok.1 h
      obtain ⟨s1, hs1, hR1⟩ := hb _ _ _ _ _ _ hR ht1
      simp only [hcc, hk, hs1, Res.ok_bind]
      exact ih hR1 h
  intro px
  induction px with
  | nil => intro s t t' hR h; cases h; exact ⟨s, rfl, hR⟩
  | cons x px ih =>
    intro s t t' hR h
    obtain ⟨id, base⟩ := x
    simp only [pixelLoop] at h ⊢
    obtain ⟨t1, ht1, h⟩ := Res.bind_eq_ok.1 h
    obtain ⟨s1, hs1, hR1⟩ := ho id base offs hR ht1
    simp only [hs1, Res.ok_bind]
    exact ih hR1 h

end GradOp

namespace Collection.FieldMap
variable [Inhabited α] [DecidableEq U]

theorem modifyAt_ok {c : Coll α U} {m : FieldMap} {f : Field α U} {k : Nat} (h : On c m f k) (g : List α → List α)
    {i : Nat} (hi : (i + 1) * k ≤ f.vals.length) :
    modifyAt c m g i = .ok (c.withField m.name (f.withVals
      (f.vals.take (i * k) ++ g (chunk f.vals k i) ++ f.vals.drop (i * k + k)))) := by
  unfold modifyAt
  have e2 : ((i : Int) * (k : Int)).toNat = i * k := by
    rw [← Nat.cast_mul]; exact Int.toNat_natCast _
  simp only [h.find, access_ok h hi, Res.ok_bind, h.stride, chunk_length hi, e2, Res.pure_eq]

end Collection.FieldMap

namespace GradOp
variable [CommRing α]

/-- The buffer after `iterate i += m`. -/
def bumped (rows cols : Nat) (m : Nat → Nat → α) (i : Nat) (l : List α) : List α :=
  l.take (i * (rows * cols)) ++ addMat rows m (chunk l (rows * cols) i) ++ l.drop (i * (rows * cols) + rows * cols)

theorem bumped_length {rows cols i : Nat} {m : Nat → Nat → α} {l : List α}
    (hi : (i + 1) * (rows * cols) ≤ l.length) : (bumped rows cols m i l).length = l.length := by
  have e : (i + 1) * (rows * cols) = i * (rows * cols) + rows * cols := by ring
  have := chunk_length hi
  simp only [bumped, List.length_append, addMat, List.length_mapIdx, this, List.length_take, List.length_drop]
  omega

theorem bumped_get {rows cols i : Nat} {m : Nat → Nat → α} {l : List α}
    (hi : (i + 1) * (rows * cols) ≤ l.length) (pos : Nat) :
    (bumped rows cols m i l)[pos]? =
      if i * (rows * cols) ≤ pos ∧ pos < i * (rows * cols) + rows * cols then
        l[pos]?.map (· + m ((pos - i * (rows * cols)) % rows) ((pos - i * (rows * cols)) / rows))
      else l[pos]? := by
  have e : (i + 1) * (rows * cols) = i * (rows * cols) + rows * cols := by ring
  have hcl := chunk_length hi
  generalize hK : rows * cols = K at *
  unfold bumped
  rw [hK]
  have hal : (addMat rows m (chunk l K i)).length = K := by simp [addMat, hcl]
  have htl : (l.take (i * K)).length = i * K := by simp; omega
  by_cases h1 : pos < i * K
  · rw [if_neg (by omega), List.append_assoc, List.getElem?_append_left (by omega),
      List.getElem?_take_of_lt h1]
  · by_cases h2 : pos < i * K + K
    · rw [if_pos ⟨by omega, h2⟩, List.getElem?_append_left (by simp only [List.length_append]; omega),
        List.getElem?_append_right (by omega), htl]
      simp only [addMat, List.getElem?_mapIdx, chunk]
      rw [List.getElem?_take_of_lt (by omega), List.getElem?_drop]
      have : i * K + (pos - i * K) = pos := by omega
      rw [this]
    · rw [if_neg (by omega), List.getElem?_append_right (by simp only [List.length_append]; omega)]
      simp only [List.length_append, hal, htl, List.getElem?_drop]
      congr 1
      omega

theorem bumped_rep {rows cols n i : Nat} {m : Nat → Nat → α} {l : List α} {v : Nat → Nat → Nat → α}
    (h : RepVals l rows cols n v) (hi : i < n) (hn : n * (rows * cols) ≤ l.length) :
    RepVals (bumped rows cols m i l) rows cols n
      (fun k r c => if k = i then v k r c + m r c else v k r c) := by
  have hi' : (i + 1) * (rows * cols) ≤ l.length := le_trans (Nat.mul_le_mul_right _ hi) hn
  intro k hk c hc r hr
  rw [bumped_get hi', h k hk c hc r hr]
  have hp := entry_pos (cols := cols) hc hr
  generalize hK : rows * cols = K at *
  by_cases hki : k = i
  · subst hki
    rw [if_pos ⟨by omega, by omega⟩]
    have : k * K + (c * rows + r) - k * K = r + c * rows := by omega
    rw [this, Nat.add_mul_mod_self_right, Nat.mod_eq_of_lt hr, Nat.add_mul_div_right _ _ (by omega),
      Nat.div_eq_of_lt hr]
    simp
  · rw [if_neg]
    · simp [hki]
    · rintro ⟨a1, a2⟩
      apply hki
      have hlo : k * K ≤ k * K + (c * rows + r) := by omega
      rcases Nat.lt_or_ge k i with hlt | hge
      · have := Nat.mul_le_mul_right K (show k + 1 ≤ i by omega)
        have e : (k + 1) * K = k * K + K := by ring
        omega
      · have := Nat.mul_le_mul_right K (show i + 1 ≤ k by omega)
        have e : (i + 1) * K = i * K + K := by ring
        omega

theorem bumped_beyond {rows cols n i : Nat} {m : Nat → Nat → α} {l : List α} (hi : i < n)
    (hn : n * (rows * cols) ≤ l.length) {pos : Nat} (hp : n * (rows * cols) ≤ pos) :
    (bumped rows cols m i l)[pos]? = l[pos]? := by
  have h1 := Nat.mul_le_mul_right (rows * cols) (show i + 1 ≤ n from hi)
  have e : (i + 1) * (rows * cols) = i * (rows * cols) + rows * cols := by ring
  rw [bumped_get (by omega), if_neg (by omega)]

theorem entry_chunk {rows cols n k : Nat} {l : List α} {v : Nat → Nat → Nat → α}
    (h : RepVals l rows cols n v) (hk : k < n) {r c : Nat} (hc : c < cols) (hr : r < rows) :
    entry rows (chunk l (rows * cols) k) r c = v k r c := by
  unfold entry chunk
  rw [List.getElem?_take_of_lt (entry_pos hc hr), List.getElem?_drop, h k hk c hc r hr]
  rfl

/-! The state while the loops run: one field of one collection has other values. -/

/-- The collections with other values in the field `o`, which is `f` of the collection `c`. -/
abbrev upd (w : List (Coll α U)) (o : FieldAt) (c : Coll α U) (f : Field α U) (l : List α) : List (Coll α U) :=
  w.set o.coll (c.withField o.name (f.withVals l))

variable [Inhabited α] [DecidableEq U]

theorem upd_at {w : List (Coll α U)} {o : FieldAt} {c : Coll α U} (hw : w[o.coll]? = some c) (f : Field α U)
    (l : List α) : at! (upd w o c f l) o.coll = .ok (c.withField o.name (f.withVals l)) := by
  have hlt : o.coll < w.length := (List.getElem?_eq_some_iff.1 hw).1
  rw [at!_eq_ok (by simpa using hlt)]
  simp

theorem upd_upd {w : List (Coll α U)} {o : FieldAt} {c : Coll α U} (hs : c.fields.Sorted) (f : Field α U)
    (l l' : List α) :
    (upd w o c f l).set o.coll ((c.withField o.name (f.withVals l)).withField o.name
      ((f.withVals l).withVals l')) = upd w o c f l' := by
  simp only [upd, List.set_set, Coll.withField, SMap.insert_insert hs]

theorem upd_self {w : List (Coll α U)} {o : FieldAt} {c : Coll α U} {f : Field α U} (hs : c.fields.Sorted)
    (hw : w[o.coll]? = some c) (hf : c.fields.find o.name = some f) : upd w o c f f.vals = w := by
  obtain ⟨hlt, rfl⟩ := List.getElem?_eq_some_iff.1 hw
  have hin : (w[o.coll]).fields.insert o.name f = (w[o.coll]).fields := SMap.insert_mem hs hf
  have : (w[o.coll]).withField o.name (f.withVals f.vals) = w[o.coll] := by
    show { w[o.coll] with fields := (w[o.coll]).fields.insert o.name f } = _
    rw [hin]
  simp only [upd, this, List.set_getElem_self]

theorem upd_other {w : List (Coll α U)} {o i : FieldAt} (hio : i ≠ o) {c ci : Coll α U} (hw : w[o.coll]? = some c)
    (hi : w[i.coll]? = some ci) {m : FieldMap} {fi : Field α U} {k : Nat} (hon : FieldMap.On ci m fi k)
    (hm : m.name = i.name) (f : Field α U) (l : List α) :
    ∃ ci', at! (upd w o c f l) i.coll = .ok ci' ∧ FieldMap.On ci' m fi k := by
  have hlt : i.coll < w.length := (List.getElem?_eq_some_iff.1 hi).1
  by_cases hc : i.coll = o.coll
  · rw [hc] at hi ⊢
    rw [hw] at hi
    cases hi
    refine ⟨_, upd_at hw f l, ?_, hon.ready, hon.fresh, hon.rows, hon.cols, hon.shape, hon.stride⟩
    have hne : i.name ≠ o.name := by
      intro h
      apply hio
      cases i; cases o
      simp_all
    rw [hm]
    show (c.fields.insert o.name _).find i.name = _
    rw [SMap.find_insert_ne _ _ hne, ← hm]
    exact hon.find
  · refine ⟨ci, ?_, hon⟩
    rw [at!_eq_ok (by simpa using hlt)]
    congr 1
    rw [List.getElem_set_ne (fun h => hc h.symm)]
    exact (List.getElem?_eq_some_iff.1 hi).2

/-- The state `w'` differs from `w` at most in the values of the field `o`, which are those of `t`; the padding of
the buffer is as it was. -/
def Rel (w : List (Coll α U)) (o : FieldAt) (c : Coll α U) (f : Field α U) (rows cols n : Nat)
    (w' : List (Coll α U)) (t : GField α) : Prop :=
  t.nb = n ∧ ∃ l, w' = upd w o c f l ∧ l.length = f.vals.length ∧ RepVals l rows cols n t.val ∧
    ∀ pos, n * (rows * cols) ≤ pos → l[pos]? = f.vals[pos]?

/-- What the loops need of a field: a pixel map with the right numbers of rows and columns, and enough
memory for the `n` pixels. -/
structure Mapped (w : List (Coll α U)) (a : FieldAt) (m : FieldMap) (c : Coll α U) (f : Field α U)
    (rows cols n : Nat) : Prop where
  at_ : w[a.coll]? = some c
  on : FieldMap.On c m f (rows * cols)
  name : m.name = a.name
  rows_eq : m.rows = rows
  cols_eq : m.cols = cols
  size : n * (rows * cols) ≤ f.vals.length
  sorted : c.fields.Sorted

/-- One `matrix += m` on the field `o`. -/
theorem Rel.bump {w w' : List (Coll α U)} {o : FieldAt} {c : Coll α U} {f : Field α U} {rows cols n : Nat}
    {om : FieldMap} {t t' : GField α} (h : Rel w o c f rows cols n w' t) (ho : Mapped w o om c f rows cols n)
    {i : Int} {m m' : Nat → Nat → α} (hmm : ∀ r < rows, ∀ c < cols, m' r c = m r c)
    (ht : t.addAt i m = .ok t') :
    ∃ k c1 c1', mapIndex i = .ok k ∧ at! w' o.coll = .ok c1 ∧ FieldMap.modifyAt c1 om (addMat rows m') k = .ok c1' ∧
      Rel w o c f rows cols n (w'.set o.coll c1') t' := by
  obtain ⟨hnb, l, rfl, hl, hrep, hbey⟩ := h
  unfold GField.addAt at ht
  split at ht
  case isFalse => cases ht
  rename_i hi
  cases ht
  have hk : i.toNat < n := by rw [hnb] at hi; omega
  have hsz : n * (rows * cols) ≤ l.length := by rw [hl]; exact ho.size
  have hk1 : (i.toNat + 1) * (rows * cols) ≤ l.length := le_trans (Nat.mul_le_mul_right _ hk) hsz
  have hon : FieldMap.On (c.withField o.name (f.withVals l)) om (f.withVals l) (rows * cols) :=
    ⟨by rw [ho.name]; exact SMap.find_insert_self _ _ _, ho.on.ready, ho.on.fresh, ho.on.rows, ho.on.cols,
      ho.on.shape, ho.on.stride⟩
  refine ⟨i.toNat, _, _, if_pos hi.1, upd_at ho.at_ f l, FieldMap.modifyAt_ok hon _ hk1, hnb,
    bumped rows cols m' i.toNat l, ?_, ?_, ?_, ?_⟩
  · rw [ho.name]; exact upd_upd ho.sorted f l _
  · rw [bumped_length hk1, hl]
  · have := bumped_rep (m := m') hrep hk hsz
    intro k hk' c' hc' r hr
    rw [this k hk' c' hc' r hr]
    have e : ((k : Int) = i) = (k = i.toNat) := by
      apply propext
      have := hi.1
      omega
    simp only [e, hmm r hr c' hc']
  · intro pos hp
    rw [bumped_beyond hk hsz hp]
    exact hbey pos hp

/-- Reading `map[k]` of the other field. -/
theorem Rel.read {w w' : List (Coll α U)} {o i : FieldAt} (hio : i ≠ o) {c ci : Coll α U} {f fi : Field α U}
    {rows cols colsI n : Nat} {om im : FieldMap} {t g : GField α} (h : Rel w o c f rows cols n w' t)
    (ho : Mapped w o om c f rows cols n) (hi : Mapped w i im ci fi rows colsI n) (hg : g.nb = n)
    (hrep : RepVals fi.vals rows colsI n g.val) {k : Int} {u : Nat → Nat → α} (hu : g.getAt k = .ok u) :
    ∃ k' ci' l, mapIndex k = .ok k' ∧ at! w' i.coll = .ok ci' ∧ FieldMap.access ci' im k' = .ok l ∧
      ∀ r < rows, ∀ c < colsI, entry rows l r c = u r c := by
  obtain ⟨-, l, rfl, -⟩ := h
  unfold GField.getAt at hu
  split at hu
  case isFalse => cases hu
  rename_i hk
  cases hu
  have hk' : k.toNat < n := by rw [hg] at hk; omega
  obtain ⟨ci', h1, h2⟩ := upd_other hio ho.at_ hi.at_ hi.on hi.name f l
  refine ⟨k.toNat, ci', _, if_pos hk.1, h1, FieldMap.access_ok h2
    (le_trans (Nat.mul_le_mul_right _ hk') hi.size), ?_⟩
  intro r hr c' hc'
  exact entry_chunk hrep hk' hc' hr

theorem gradLoop_sim {op : GradOp α} {w : List (Coll α U)} {nref qref : FieldAt} (hne : nref ≠ qref)
    {nm qm : FieldMap} {cn cq : Coll α U} {fn fq : Field α U} {rows n : Nat}
    (hn : Mapped w nref nm cn fn rows op.nbPixNodes n) (hq : Mapped w qref qm cq fq rows op.nbGrad n)
    {nodal quad g : GField α} (hnn : nodal.nb = n) (hqn : quad.nb = n)
    (hnr : RepVals fn.vals rows op.nbPixNodes n nodal.val) (hqr : RepVals fq.vals rows op.nbGrad n quad.val)
    {p : DynamicPixels} {offs : List (Nat × List Int)} {px : List (Int × List Int)} {a : α}
    (h : pixelLoop p offs (fun id index k s => op.gradBody a nodal id index k s) px quad = .ok g) :
    ∃ w', pixelLoop p offs (op.gradBodyF a nref qref nm qm) px w = .ok w' ∧
      Rel w qref cq fq rows op.nbGrad n w' g := by
  refine pixelLoop_sim (R := Rel w qref cq fq rows op.nbGrad n) ?_ px
    ⟨hqn, fq.vals, ?_, rfl, hqr, fun _ _ => rfl⟩ h
  · intro id index k s t t' hR ht
    unfold gradBody at ht
    obtain ⟨u, hu, ht⟩ := Res.bind_eq_ok.1 ht
    obtain ⟨kn, cn', l, r1, r2, r3, r4⟩ := hR.read hne hq hn hnn hnr hu
    obtain ⟨kq, c1, c1', b1, b2, b3, b4⟩ := hR.bump hq
      (m' := fun r c => ∑ j ∈ Finset.range op.nbPixNodes,
        a * entry rows l r j * op.B c (index * op.nbPixNodes + j)) (by
        intro r hr c _
        refine Finset.sum_congr rfl fun j hj => ?_
        rw [r4 r hr j (Finset.mem_range.1 hj)]) ht
    refine ⟨_, ?_, b4⟩
    unfold gradBodyF
    simp only [r1, b1, r2, r3, b2, Res.ok_bind]
    rw [if_neg (by rw [hn.cols_eq, hq.cols_eq, hn.rows_eq, hq.rows_eq]; simp)]
    simp only [hn.rows_eq, Int.toNat_natCast, b3, Res.ok_bind, Res.pure_eq]
  · exact (upd_self hq.sorted hq.at_ (by rw [← hq.name]; exact hq.on.find)).symm

theorem transLoop_sim {op : GradOp α} {w : List (Coll α U)} {nref qref : FieldAt} (hne : nref ≠ qref)
    {nm qm : FieldMap} {cn cq : Coll α U} {fn fq : Field α U} {rows n : Nat}
    (hn : Mapped w nref nm cn fn rows op.nbPixNodes n) (hq : Mapped w qref qm cq fq rows op.nbGrad n)
    {nodal quad g : GField α} (hnn : nodal.nb = n) (hqn : quad.nb = n)
    (hnr : RepVals fn.vals rows op.nbPixNodes n nodal.val) (hqr : RepVals fq.vals rows op.nbGrad n quad.val)
    {p : DynamicPixels} {offs : List (Nat × List Int)} {px : List (Int × List Int)} {a : α} {ws : List α}
    (h : pixelLoop p offs (fun id index k s => op.transBody a quad ws id index k s) px nodal = .ok g) :
    ∃ w', pixelLoop p offs (op.transBodyF a nref qref nm qm ws) px w = .ok w' ∧
      Rel w nref cn fn rows op.nbPixNodes n w' g := by
  refine pixelLoop_sim (R := Rel w nref cn fn rows op.nbPixNodes n) ?_ px
    ⟨hnn, fn.vals, ?_, rfl, hnr, fun _ _ => rfl⟩ h
  · intro id index k s t t' hR ht
    unfold transBody at ht
    obtain ⟨u, hu, ht⟩ := Res.bind_eq_ok.1 ht
    split at ht
    · cases ht
    rename_i h0
    obtain ⟨wt, hwt, ht⟩ := Res.bind_eq_ok.1 ht
    obtain ⟨kq, cq', l, r1, r2, r3, r4⟩ := hR.read (Ne.symm hne) hn hq hqn hqr hu
    obtain ⟨kn, c1, c1', b1, b2, b3, b4⟩ := hR.bump hn
      (m' := fun r j => ∑ c ∈ Finset.range op.nbGrad,
        a * (entry rows l r c * wt) * op.B c (index * op.nbPixNodes + j)) (by
        intro r hr j _
        refine Finset.sum_congr rfl fun c hc => ?_
        rw [r4 r hr c (Finset.mem_range.1 hc)]) ht
    refine ⟨_, ?_, b4⟩
    unfold transBodyF
    simp only [r1, b1, r2, r3, b2, Res.ok_bind]
    rw [if_neg h0]
    simp only [hwt, Res.ok_bind]
    rw [if_neg (by rw [hn.cols_eq, hq.cols_eq, hn.rows_eq, hq.rows_eq]; simp)]
    simp only [hn.rows_eq, Int.toNat_natCast, b3, Res.ok_bind, Res.pure_eq]
  · exact (upd_self hn.sorted hn.at_ (by rw [← hn.name]; exact hn.on.find)).symm

end GradOp
end Verif
