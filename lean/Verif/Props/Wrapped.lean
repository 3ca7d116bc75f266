import Verif.Lemmas.Wrapped
import Verif.Props.Numpy
/-
C91: fields on existing memory.
-/
namespace Verif.Props
open Verif Verif.Ccoord Verif.RawMemory Verif.Layout Verif.Layout.FieldLayout Verif.Numpy Verif.WrappedMemory

variable {α : Type}

/-- **C91** Which memory is accepted: the number of values must be that of the field; own strides must have one entry per axis,
and without own strides the collection must have one of the two storage orders. -/
theorem C91_accept (l : FieldLayout) (custom : List Int) (g : Bool) (size base : Int) (f : WField) (hc : l.nbComp ≠ 0) :
    wrap l custom g size base = .ok f ↔
      f = ⟨⟨l, custom⟩, g, size, base⟩ ∧ size = l.nbComp * (l.nbSub * getSize l.pixShape) ∧
      if custom = [] then (l.order = .colMajor ∨ l.order = .rowMajor) ∧ l.pixStrides.length = l.pixShape.length
      else custom.length = l.comps.length + 1 + l.pixShape.length := by
  have hlen : (l.shape .subPt).length = l.comps.length + 1 + l.pixShape.length := by simp [shape_subPt]; omega
  have hsize : (size = l.nbComp * Int.tdiv size l.nbComp ∧ l.nbSub * getSize l.pixShape = Int.tdiv size l.nbComp) ↔
      size = l.nbComp * (l.nbSub * getSize l.pixShape) := by
    constructor
    · rintro ⟨h1, h2⟩; rw [h2]; exact h1
    · intro h
      have : Int.tdiv size l.nbComp = l.nbSub * getSize l.pixShape := by rw [h, Int.mul_tdiv_cancel_left _ hc]
      rw [this]; exact ⟨h, rfl⟩
  have hmain : ∀ s : List Int, Wrapped.strides ⟨l, custom⟩ .subPt 1 = .ok s →
      (wrap l custom g size base = .ok f ↔ f = ⟨⟨l, custom⟩, g, size, base⟩ ∧
        size = l.nbComp * (l.nbSub * getSize l.pixShape) ∧ (l.shape .subPt).length = s.length) := by
    intro s hs
    rw [← hsize, wrap, wrapField, if_neg hc]
    simp only [hs, Res.ok_bind]
    split
    · next h => simp [h]
    · next h =>
      split
      · next h' => simp [h']
      · next h' =>
        split
        · next h'' => simp [h'']
        · next h'' =>
          push Not at h h' h''
          simp only [Res.ok_bind, Res.pure_eq, Res.ok.injEq]
          constructor
          · rintro rfl; exact ⟨rfl, ⟨h', h''⟩, h⟩
          · rintro ⟨rfl, -, -⟩; rfl
  by_cases he : custom = []
  · subst he
    rw [if_pos rfl]
    by_cases ho : l.order = .colMajor ∨ l.order = .rowMajor
    · have : ∃ s, l.strides .subPt 1 = .ok s ∧ s.length = l.comps.length + 1 + l.pixStrides.length := by
        rcases ho with h | h
        · exact ⟨_, l.strides_col h, by simp [accStrides_length]; omega⟩
        · exact ⟨_, l.strides_row h, by simp [accStrides_length]; omega⟩
      obtain ⟨s, hs, hsl⟩ := this
      rw [hmain s hs, hlen, hsl]
      constructor
      · rintro ⟨h1, h2, h3⟩; exact ⟨h1, h2, ho, by omega⟩
      · rintro ⟨h1, h2, -, h3⟩; exact ⟨h1, h2, by omega⟩
    · have hthrow : Wrapped.strides ⟨l, []⟩ .subPt 1 = .throw .fieldError := by
        show l.strides .subPt 1 = _
        rw [FieldLayout.strides, FieldLayout.subPtStrides, FieldLayout.componentsStrides]
        rcases hl : l.order with _ | _ | _ | _
        · exact absurd (Or.inl hl) ho
        · exact absurd (Or.inr hl) ho
        · rfl
        · rfl
      constructor
      · intro h
        rw [wrap, wrapField, if_neg hc] at h
        simp only [hthrow, Res.throw_bind] at h
        cases h
      · rintro ⟨-, -, h, -⟩; exact absurd h ho
  · rw [if_neg he, hmain custom (if_pos (List.length_pos_of_ne_nil he)), hlen]
    constructor
    · rintro ⟨h1, h2, h3⟩; exact ⟨h1, h2, h3.symm⟩
    · rintro ⟨h1, h2, h3⟩; exact ⟨h1, h2, h3.symm⟩

/-- A field of two components on a grid of 3 × 2 pixels. -/
def exGrid : FieldLayout := ⟨.colMajor, [2], 1, [3, 2], [1, 3], 6⟩

example : ∃ f, wrap exGrid [] true 12 100 = .ok f := ⟨⟨⟨exGrid, []⟩, true, 12, 100⟩, by decide⟩

/-- With own strides: the array `a[:, :, ::2]`. -/
example : ∃ f, wrap exGrid [1, 0, 2, 12] true 12 100 = .ok f := ⟨⟨⟨exGrid, [1, 0, 2, 12]⟩, true, 12, 100⟩, by decide⟩

example : wrap exGrid [] true 11 100 = .throw .fieldError := by decide

theorem accepted_size {l : FieldLayout} {custom : List Int} {g : Bool} {size base : Int} {f : WField}
    (h : wrap l custom g size base = .ok f) : f.size = f.nbValues := by
  by_cases hc : l.nbComp = 0
  · rw [wrap, wrapField, if_pos hc, Res.ub_bind] at h; cases h
  · obtain ⟨rfl, h1, -⟩ := (C91_accept l custom g size base f hc).1 h
    show size = l.nbSub * getSize l.pixShape * l.nbComp
    rw [h1, Int.mul_comm]

/-- **C91** The size of a wrapped field is fixed: padding is refused, and resizing succeeds for every field that was accepted
(it does nothing). -/
theorem C91_fixed {l : FieldLayout} {custom : List Int} {g : Bool} {size base : Int} {f : WField}
    (h : wrap l custom g size base = .ok f) (pad : Nat) : f.setPadSize pad = .throw .fieldError ∧ f.resize = .ok () :=
  ⟨rfl, if_neg (by rw [accepted_size h]; simp)⟩

example : ∃ f, wrap exGrid [] true 12 100 = .ok f ∧ f.resize = .ok () := ⟨⟨⟨exGrid, []⟩, true, 12, 100⟩, by decide, by decide⟩

/-- **C91** Maps can be made exactly for the fields without own strides in a column-major collection; with own strides the
view by pixels is refused. -/
theorem C91_maps (f : WField) :
    (f.mapCheck = .ok () ↔ f.field.custom = [] ∧ f.field.layout.order = .colMajor) ∧
    (f.mapCheck ≠ .ok () → f.mapCheck = .throw .runtimeError) ∧
    (f.field.custom ≠ [] → ∀ e, f.field.strides .pixel e = .throw .fieldError) := by
  have ho : f.order = .colMajor ↔ f.field.custom = [] ∧ f.field.layout.order = .colMajor := by
    unfold WField.order
    by_cases h : f.field.custom = []
    · simp [h]
    · rw [if_pos (List.length_pos_of_ne_nil h)]; simp [h]
  refine ⟨?_, ?_, ?_⟩
  · rw [← ho]
    unfold WField.mapCheck
    split <;> simp_all
  · unfold WField.mapCheck
    split <;> simp
  · intro h e
    rw [Wrapped.strides, if_pos (List.length_pos_of_ne_nil h)]

example : (WField.mapCheck ⟨⟨exGrid, []⟩, true, 12, 100⟩ = .ok ()) ∧
    WField.mapCheck ⟨⟨exGrid, [1, 0, 2, 12]⟩, true, 12, 100⟩ = .throw .runtimeError := by decide

/-- **C91** Assignment between global fields on existing memory, in every order and with all strides: each element receives the
value of the element with the same indices, and no other cell is changed.  The fields must not share cells. -/
theorem C91_assign {srt : SortFn} (hsrt : SortSpec srt) {dst src : WField} {ms os : List Int} {m : Mem α} {old val : List Int → α}
    (hg : dst.isGlobal = true) (hs : dst.field.layout.shape .subPt = src.field.layout.shape .subPt)
    (hp : Pos (dst.field.layout.shape .subPt)) (hd : dst.HasStrides ms) (hr : src.HasStrides os) (ho : Elems dst ms m old)
    (hv : Elems src os m val) (hap : ∀ a, Cell dst ms a → ¬ Cell src os a) :
    ∃ m', WrappedMemory.assign srt dst src m = .ok m' ∧ Elems dst ms m' val ∧ ∀ a, ¬ Cell dst ms a → m' a = m a := by
  obtain ⟨m', h1, h2, h3⟩ := stridedCopyIn_ok hsrt (bi := src.base) (bo := dst.base) (m := m) hp (by rw [shape_subPt]; simp)
    (by rw [hr.length_eq, hs]) hd.length_eq
    (fun c hc => by rw [hv c (by rw [← hs]; exact hc)]; rfl) (fun c hc => by rw [ho c hc]; rfl)
    (fun c c' hc hc' he => hap _ ⟨c', hc', rfl⟩ ⟨c, by rw [← hs]; exact hc, he⟩) hd.inj
  refine ⟨m', ?_, ?_, ?_⟩
  · rw [WrappedMemory.assign, if_pos hg, if_neg (by simp [hs]), hd.strides, Res.ok_bind, hr.strides, Res.ok_bind, h1]
  · intro t ht
    rw [h2 t ht]
    exact hv t (by rw [← hs]; exact ht)
  · intro a ha
    exact h3 a fun c hc he => ha ⟨c, hc, he⟩

/-- Three values from 10 on, and the same cells backwards. -/
def exForward : WField := ⟨⟨⟨.colMajor, [], 1, [3], [1], 3⟩, []⟩, true, 3, 10⟩
def exBackward : WField := ⟨⟨⟨.unknown, [], 1, [3], [1], 3⟩, [0, -1]⟩, true, 3, 12⟩
/-- Every second cell from 20 on. -/
def exSecond : WField := ⟨⟨⟨.unknown, [], 1, [3], [1], 3⟩, [0, 2]⟩, true, 3, 20⟩

theorem exSingle {c : List Int} (h : InBox [1, 3] c) : ∃ p : Int, c = [0, p] ∧ 0 ≤ p ∧ p < 3 := by
  rcases c with _ | ⟨x, _ | ⟨y, _ | ⟨z, c⟩⟩⟩
  · simp [InBox] at h
  · simp [InBox] at h
  · simp only [InBox, and_true] at h
    exact ⟨y, by rw [show x = 0 by omega], by omega, by omega⟩
  · simp [InBox] at h

theorem exForward_strides : exForward.HasStrides [1, 1] := by
  refine ⟨by decide, by decide, fun c c' h h' he => ?_⟩
  obtain ⟨p, rfl, -⟩ := exSingle h
  obtain ⟨p', rfl, -⟩ := exSingle h'
  simpa [dot] using he

theorem exSecond_strides : exSecond.HasStrides [0, 2] := by
  refine ⟨by decide, by decide, fun c c' h h' he => ?_⟩
  obtain ⟨p, rfl, -⟩ := exSingle h
  obtain ⟨p', rfl, -⟩ := exSingle h'
  simpa [dot] using he

/-- The contiguous field is copied to every second cell. -/
example : ∃ m', WrappedMemory.assign stableSort exSecond exForward (fun a => some a) = .ok m' ∧
    (List.range 6).map (fun k : Nat => m' (20 + k)) = [some 10, some 21, some 11, some 23, some 12, some 25] :=
  ⟨_, rfl, by decide +kernel⟩

example : ∃ m', WrappedMemory.assign stableSort exSecond exForward (fun a => some a) = .ok m' ∧
    Elems exSecond [0, 2] m' (fun t => 10 + dot [1, 1] t) ∧ ∀ a, ¬ Cell exSecond [0, 2] a → m' a = some a := by
  refine C91_assign stableSort_spec rfl rfl (by decide) exSecond_strides exForward_strides (fun t _ => rfl) (fun t _ => rfl) ?_
  rintro a ⟨t, ht, rfl⟩ ⟨t', ht', he⟩
  obtain ⟨p, rfl, hp⟩ := exSingle ht
  obtain ⟨p', rfl, hp'⟩ := exSingle ht'
  simp [dot, exSecond, exForward] at he
  omega

/-- **C91** Fields that share cells: after the assignment of the reversed view of its own memory, a field with the values 1, 2, 3
has 3, 2, 3. -/
theorem C91_overlap : ∃ m', WrappedMemory.assign stableSort exForward exBackward
      (fun a => if 10 ≤ a ∧ a < 13 then some (a - 9) else none) = .ok m' ∧
    (List.range 3).map (fun k : Nat => m' (10 + k)) = [some 3, some 2, some (3 : Int)] :=
  ⟨_, rfl, by decide +kernel⟩

/-! ### Operations on the first `size` cells -/

/-- **C91** (part: fields without gaps) `set_zero` sets every element to zero and changes no other cell.  Missing: fields whose
elements are not the first cells from the pointer, where the claim is false. -/
theorem C91_zero_partial [Inhabited α] {f : WField} {s : List Int} {m : Mem α} {val : List Int → α} (ht : Tight f s)
    (hv : Elems f s m val) :
    ∃ m', f.setZero m = .ok m' ∧ Elems f s m' (fun _ => default) ∧ ∀ a, ¬ Cell f s a → m' a = m a := by
  obtain ⟨m', h1, h2, h3⟩ := fillLoop_ok f.base (default : α) f.size.toNat m (fun k h0 h1 => by
    obtain ⟨t, ht', he⟩ := (ht k).2 ⟨h0, by omega⟩
    rw [← he, hv t ht']; rfl)
  refine ⟨m', h1, ?_, ?_⟩
  · intro t hin
    have := (ht (dot s t)).1 ⟨t, hin, rfl⟩
    exact h2 _ this.1 (by omega)
  · intro a ha
    apply h3
    by_contra hc
    push Not at hc
    refine ha ?_
    have := (ht (a - f.base)).2 ⟨by omega, by omega⟩
    rwa [show f.base + (a - f.base) = a by omega] at this

/-- **C91** Exactly for the fields without gaps `set_zero` is right for all contents of the memory. -/
theorem C91_zero_exact {f : WField} {s : List Int} (h0 : 0 ≤ f.size) :
    (∀ m : Mem Int, (∀ a, (m a).isSome) → ∃ m', f.setZero m = .ok m' ∧ (∀ a, Cell f s a → m' a = some 0) ∧
      ∀ a, ¬ Cell f s a → m' a = m a) ↔ Tight f s := by
  constructor
  · intro h k
    obtain ⟨m', h1, h2, h3⟩ := h (fun _ => some 1) (fun _ => rfl)
    obtain ⟨m2, e1, e2, e3⟩ := fillLoop_ok f.base (0 : Int) f.size.toNat (fun _ => some 1) (fun _ _ _ => rfl)
    have : m' = m2 := by
      have h1' : fillLoop f.base (0 : Int) f.size.toNat (fun _ => some 1) = .ok m' := h1
      rw [e1] at h1'
      cases h1'
      rfl
    subst this
    constructor
    · intro hc
      by_contra hn
      have a1 := h2 _ hc
      rw [e3 (f.base + k) (by omega)] at a1
      cases a1
    · rintro ⟨k0, k1⟩
      by_contra hn
      have a1 := h3 _ hn
      rw [e2 k k0 (by omega)] at a1
      cases a1
  · intro ht m hm
    obtain ⟨m', e1, e2, e3⟩ := fillLoop_ok f.base (0 : Int) f.size.toNat m (fun _ _ _ => hm _)
    refine ⟨m', e1, fun a ha => ?_, fun a ha => ?_⟩
    · obtain ⟨t, hin, rfl⟩ := ha
      have := (ht (dot s t)).1 ⟨t, hin, rfl⟩
      exact e2 _ this.1 (by omega)
    · apply e3
      by_contra hc
      push Not at hc
      refine ha ?_
      have := (ht (a - f.base)).2 ⟨by omega, by omega⟩
      rwa [show f.base + (a - f.base) = a by omega] at this

/-- **C91** Fields without own strides, in a collection of either storage order whose pixels fill their buffer, have no gaps. -/
theorem C91_tight {l : FieldLayout} {g : Bool} {size base : Int} {f : WField} (ho : l.order = .colMajor ∨ l.order = .rowMajor)
    (hc : Pos l.comps) (hn : 0 < l.nbSub) (hb : 0 < l.nbBuf) (hpix : Addressing l.pixShape l.pixStrides l.nbBuf)
    (hfill : Fills l.pixShape l.pixStrides l.nbBuf) (hnb : l.nbBuf = getSize l.pixShape) (h : wrap l [] g size base = .ok f) :
    ∃ s, f.HasStrides s ∧ Tight f s := by
  have hc0 : l.nbComp ≠ 0 := by
    have := prod_pos_of_pos hc
    rw [FieldLayout.nbComp, getSize_eq_prod]
    omega
  obtain ⟨rfl, hsz, -⟩ := (C91_accept l [] g size base f hc0).1 h
  obtain ⟨s, h1, -, h3, h4⟩ := C18_sub_pt_strides l ho hpix
  have hfs := h4 hc hn hb hfill
  have hs : l.nbComp * l.nbSub * l.nbBuf = size := by rw [hsz, hnb, Int.mul_assoc]
  rw [hs] at h3 hfs
  refine ⟨s, ⟨h1, h3.length_eq, h3.inj⟩, fun k => ⟨?_, ?_⟩⟩
  · rintro ⟨t, ht, he⟩
    have he' : base + dot s t = base + k := he
    have := h3.bounds t ht
    show 0 ≤ k ∧ k < size
    omega
  · rintro ⟨k0, k1⟩
    obtain ⟨t, ht, he⟩ := hfs k k0 k1
    exact ⟨t, ht, by rw [he]⟩

/-- Two components and two sub-points per pixel on three pixels, column-major. -/
example : ∃ s, WField.HasStrides ⟨⟨⟨.colMajor, [2], 2, [3], [1], 3⟩, []⟩, false, 12, 100⟩ s ∧
    Tight ⟨⟨⟨.colMajor, [2], 2, [3], [1], 3⟩, []⟩, false, 12, 100⟩ s :=
  C91_tight (l := ⟨.colMajor, [2], 2, [3], [1], 3⟩) (g := false) (size := 12) (base := 100) (Or.inl rfl) (by decide) (by decide) (by decide) (addressing_single 3)
    (fills_single 3) (by decide) (by decide)

/-- The full statement of C91 for `set_zero`. -/
def C91_statement : Prop :=
  ∀ (l : FieldLayout) (custom : List Int) (g : Bool) (size base : Int) (f : WField) (s : List Int),
    wrap l custom g size base = .ok f → f.HasStrides s → ∀ m : Mem Int, (∀ a, (m a).isSome) →
    ∃ m', f.setZero m = .ok m' ∧ (∀ a, Cell f s a → m' a = some 0) ∧ ∀ a, ¬ Cell f s a → m' a = m a

/-- **C91** is false: on every second cell of an array, `set_zero` leaves an element unchanged and overwrites a cell between the
elements. -/
theorem C91_false : ¬ C91_statement := by
  intro h
  obtain ⟨m', h1, h2, -⟩ := h ⟨.unknown, [], 1, [3], [1], 3⟩ [0, 2] true 3 20 exSecond [0, 2] (by decide) exSecond_strides
    (fun _ => some 1) (fun _ => rfl)
  obtain ⟨m2, e1, -, e3⟩ := fillLoop_ok (20 : Int) (0 : Int) 3 (fun _ => some 1) (fun _ _ _ => rfl)
  have h1' : fillLoop (20 : Int) (0 : Int) 3 (fun _ => some 1) = .ok m' := h1
  rw [e1] at h1'
  cases h1'
  have := h2 24 ⟨[0, 2], by decide, by decide⟩
  rw [e3 24 (by omega)] at this
  cases this

/-- What `set_zero` does there. -/
theorem C91_zero_gaps : ∃ m', exSecond.setZero (fun a => some a) = .ok m' ∧
    (List.range 6).map (fun k : Nat => m' (20 + k)) = [some 0, some 0, some 0, some 23, some 24, some (25 : Int)] :=
  ⟨_, rfl, by decide +kernel⟩

/-- **C91** (part: fields without gaps and with the same strides) `+=`, `-=`, `= -x` and the assignment of local fields act on
the elements with the same indices and change no other cell.  The two fields are the same memory or share no cell.  Missing:
other fields, where the claim is false. -/
theorem C91_vec_partial (op : α → α → α) {dst src : WField} {s : List Int} {m : Mem α} {x y : List Int → α}
    (hs : dst.field.layout.shape .subPt = src.field.layout.shape .subPt) (hd : dst.HasStrides s)
    (hnd : dst.size = dst.nbValues) (hns : src.size = src.nbValues) (htd : Tight dst s) (hts : Tight src s) (hsz : dst.size = src.size)
    (hx : Elems dst s m x) (hy : Elems src s m y) (hap : dst.base = src.base ∨ ∀ a, Cell dst s a → ¬ Cell src s a) :
    ∃ m', WrappedMemory.vecOp op dst src m = .ok m' ∧ Elems dst s m' (fun t => op (x t) (y t)) ∧
      ∀ a, ¬ Cell dst s a → m' a = m a := by
  by_cases hne : dst.size ≤ 0
  · -- no elements
    have hno : ∀ a, ¬ Cell dst s a := by
      rintro a ⟨t, ht, rfl⟩
      have := (htd (dot s t)).1 ⟨t, ht, rfl⟩
      omega
    refine ⟨m, ?_, fun t ht => absurd ⟨t, ht, rfl⟩ (hno _), fun _ _ => rfl⟩
    rw [WrappedMemory.vecOp, if_neg (by rw [← hnd, ← hns]; simp [hsz]), ← hnd, Int.toNat_of_nonpos hne]
    rfl
  have hat : ∀ k : Int, 0 ≤ k → k < dst.size → ∃ t, InBox (dst.field.layout.shape .subPt) t ∧ dot s t = k := by
    intro k h0 h1
    obtain ⟨t, ht, he⟩ := (htd k).2 ⟨h0, h1⟩
    exact ⟨t, ht, by omega⟩
  classical
  have hidx : ∃ idx : Int → List Int, ∀ k, 0 ≤ k → k < dst.size →
      InBox (dst.field.layout.shape .subPt) (idx k) ∧ dot s (idx k) = k := by
    refine ⟨fun k => if h : 0 ≤ k ∧ k < dst.size then (hat k h.1 h.2).choose else [], fun k h0 h1 => ?_⟩
    simp only [h0, h1, and_self, dif_pos]
    exact (hat k h0 h1).choose_spec
  obtain ⟨idx, hidx⟩ := hidx
  obtain ⟨m', e1, e2, e3⟩ := vecLoop_ok op dst.base src.base dst.nbValues.toNat m (fun k => x (idx k)) (fun k => y (idx k))
    (fun k h0 h1 => by
      obtain ⟨a, b⟩ := hidx k h0 (by omega)
      have := hx _ a
      rwa [b] at this)
    (fun k h0 h1 => by
      obtain ⟨a, b⟩ := hidx k h0 (by omega)
      have := hy _ (by rw [← hs]; exact a)
      rwa [b] at this)
    (hap.imp id fun h j k a b c d he => h _ ((htd j).2 ⟨a, by omega⟩) (by rw [he]; exact (hts k).2 ⟨c, by omega⟩))
  refine ⟨m', ?_, ?_, ?_⟩
  · rw [WrappedMemory.vecOp, if_neg (by rw [← hnd, ← hns]; simp [hsz]), e1]
  · intro t ht
    have hb := (htd (dot s t)).1 ⟨t, ht, rfl⟩
    obtain ⟨a, b⟩ := hidx (dot s t) hb.1 hb.2
    have : idx (dot s t) = t := hd.inj _ _ a ht b
    rw [e2 (dot s t) hb.1 (by omega), this]
  · intro a ha
    apply e3
    by_contra hc
    push Not at hc
    refine ha ?_
    have := (htd (a - dst.base)).2 ⟨by omega, by omega⟩
    rwa [show dst.base + (a - dst.base) = a by omega] at this

theorem exForward_tight (b : Int) : Tight { exForward with base := b } [1, 1] := by
  intro k
  constructor
  · rintro ⟨t, ht, he⟩
    obtain ⟨p, rfl, hp⟩ := exSingle ht
    simp [dot] at he
    show 0 ≤ k ∧ k < 3
    omega
  · rintro ⟨k0, k1⟩
    have k1' : k < 3 := k1
    exact ⟨[0, k], by show InBox [1, 3] [0, k]; simp [InBox, k0, k1'], by simp [dot]⟩

/-- `set_zero` on three cells. -/
example : ∃ m', exForward.setZero (fun a => some a) = .ok m' ∧ Elems exForward [1, 1] m' (fun _ => (0 : Int)) ∧
    ∀ a, ¬ Cell exForward [1, 1] a → m' a = some a :=
  C91_zero_partial (val := fun t => 10 + dot [1, 1] t) (exForward_tight 10) (fun t _ => rfl)

/-- Every second cell is a field with gaps. -/
example : 0 ≤ exForward.size ∧ Tight exForward [1, 1] ∧ ¬ Tight exSecond [0, 2] :=
  ⟨by decide, exForward_tight 10, fun h => by
    obtain ⟨t, ht, he⟩ := (h 1).2 ⟨by decide, by decide⟩
    obtain ⟨p, rfl, hp⟩ := exSingle ht
    simp [dot, exSecond] at he
    omega⟩

/-- The sum of two arrays of three numbers. -/
example : ∃ m', WrappedMemory.vecOp (· + ·) exForward { exForward with base := 30 } (fun a => some a) = .ok m' ∧
    Elems exForward [1, 1] m' (fun t => (10 + dot [1, 1] t) + (30 + dot [1, 1] t)) ∧
    ∀ a, ¬ Cell exForward [1, 1] a → m' a = some a := by
  refine C91_vec_partial (· + ·) rfl exForward_strides (by decide) (by decide) (exForward_tight 10) (exForward_tight 30) rfl
    (fun t _ => rfl) (fun t _ => rfl) (Or.inr ?_)
  rintro a ⟨t, ht, rfl⟩ ⟨t', ht', he⟩
  obtain ⟨p, rfl, hp⟩ := exSingle ht
  obtain ⟨p', rfl, hp'⟩ := exSingle ht'
  simp [dot, exForward] at he
  omega

/-- **C91** `+=` with a field of the other storage order adds elements with other indices (here 2 × 2 pixels with one
component; the column-major field has 0, 1, 2, 3 and the row-major one the same numbers for the same pixels, so that the
sums should be even). -/
theorem C91_plus_orders : ∃ m', WrappedMemory.vecOp (· + ·)
      ⟨⟨⟨.colMajor, [], 1, [2, 2], [1, 2], 4⟩, []⟩, true, 4, 0⟩ ⟨⟨⟨.rowMajor, [], 1, [2, 2], [2, 1], 4⟩, []⟩, true, 4, 4⟩
      (bufferOf [0, 1, 2, 3, 0, 2, 1, 3]) = .ok m' ∧
    (List.range 4).map (fun k : Nat => m' k) = [some 0, some 3, some 3, some (6 : Int)] :=
  ⟨_, rfl, by decide +kernel⟩

/-- **C91** `resize` tells whether the memory has the number of values the field needs now (numbers of sub-points and of
components may have changed since the field was made), and never does anything else. -/
theorem C91_resize (f : WField) :
    (f.resize = .ok () ↔ f.field.layout.nbSub * getSize f.field.layout.pixShape * f.field.layout.nbComp = f.size) ∧
    (f.resize ≠ .ok () → f.resize = .throw .fieldError) := by
  have e : f.nbValues = f.field.layout.nbSub * getSize f.field.layout.pixShape * f.field.layout.nbComp := rfl
  unfold WField.resize
  rw [e]
  split <;> simp_all

example : WField.resize ⟨⟨exGrid, []⟩, true, 12, 100⟩ = .ok () ∧ WField.resize ⟨⟨exGrid, []⟩, true, 13, 100⟩ = .throw .fieldError ∧
    WField.resize ⟨⟨exGrid, []⟩, true, 11, 100⟩ = .throw .fieldError := by decide

/-- **C91** `set_zero` is defined exactly if all cells of the memory that was handed over exist, whatever the strides. -/
theorem C91_zero_defined [Inhabited α] (f : WField) (m : Mem α) :
    ((∃ m', f.setZero m = .ok m') ↔ ∀ k : Int, 0 ≤ k → k < f.size → (m (f.base + k)).isSome) ∧
    ((¬ ∃ m', f.setZero m = .ok m') → f.setZero m = .ub) := by
  by_cases h : ∀ k : Int, 0 ≤ k → k < f.size.toNat → (m (f.base + k)).isSome
  · obtain ⟨m', e, -⟩ := fillLoop_ok f.base (default : α) f.size.toNat m h
    have he : f.setZero m = .ok m' := e
    exact ⟨⟨fun _ k h0 h1 => h k h0 (by omega), fun _ => ⟨m', he⟩⟩, fun hn => absurd ⟨m', he⟩ hn⟩
  · push Not at h
    obtain ⟨k, h0, h1, hk⟩ := h
    have he : f.setZero m = .ub := fillLoop_ub f.base default f.size.toNat m h0 h1 (by simpa using hk)
    refine ⟨⟨fun ⟨m', hm⟩ => ?_, fun hall => ?_⟩, fun _ => he⟩
    · rw [he] at hm; cases hm
    · exact absurd (hall k h0 (by omega)) hk

example : (∃ m', WField.setZero ⟨⟨exGrid, []⟩, true, 2, 0⟩ (bufferOf [5, 6, (7 : Int)]) = .ok m') ∧
    WField.setZero ⟨⟨exGrid, []⟩, true, 4, 0⟩ (bufferOf [5, 6, (7 : Int)]) = .ub := by
  refine ⟨((C91_zero_defined _ _).1).2 ?_, (C91_zero_defined _ _).2 fun h => ?_⟩
  · intro k h0 h1
    obtain rfl | rfl : k = 0 ∨ k = 1 := by simp only [] at h1; omega
    · rfl
    · rfl
  · have := ((C91_zero_defined _ _).1).1 h 3 (by decide) (by decide)
    simp [bufferOf] at this

/-- **C91** `+=`, `-=`, `= -x` and the assignment of local fields are defined exactly if both fields have the same number of
values and all cells they show exist; fields of different sizes are not rejected but undefined. -/
theorem C91_vec_defined (op : α → α → α) (dst src : WField) (m : Mem α) :
    ((∃ m', WrappedMemory.vecOp op dst src m = .ok m') ↔ dst.nbValues = src.nbValues ∧
      ∀ k : Int, 0 ≤ k → k < dst.nbValues → (m (dst.base + k)).isSome ∧ (m (src.base + k)).isSome) ∧
    ((¬ ∃ m', WrappedMemory.vecOp op dst src m = .ok m') → WrappedMemory.vecOp op dst src m = .ub) := by
  by_cases hn : dst.nbValues = src.nbValues
  · have he : WrappedMemory.vecOp op dst src m = vecLoop op dst.base src.base dst.nbValues.toNat m :=
      if_neg (by simpa using hn)
    rw [he]
    by_cases h : ∀ k : Int, 0 ≤ k → k < dst.nbValues.toNat → (m (dst.base + k)).isSome ∧ (m (src.base + k)).isSome
    · obtain ⟨m', e, -⟩ := vecLoop_defined op dst.base src.base dst.nbValues.toNat m h
      exact ⟨⟨fun _ => ⟨hn, fun k h0 h1 => h k h0 (by omega)⟩, fun _ => ⟨m', e⟩⟩, fun hx => absurd ⟨m', e⟩ hx⟩
    · push Not at h
      obtain ⟨k, h0, h1, hk⟩ := h
      have hu := vecLoop_ub op dst.base src.base dst.nbValues.toNat m h0 h1 (fun hb => hk hb.1 hb.2)
      refine ⟨⟨fun ⟨m', hm⟩ => ?_, fun ⟨_, hall⟩ => ?_⟩, fun _ => hu⟩
      · rw [hu] at hm; cases hm
      · exact absurd (hall k h0 (by omega)).2 (hk (hall k h0 (by omega)).1)
  · have he : WrappedMemory.vecOp op dst src m = .ub := if_pos hn
    refine ⟨⟨fun ⟨m', hm⟩ => ?_, fun h => absurd h.1 hn⟩, fun _ => he⟩
    rw [he] at hm; cases hm

example (a b : Int) : WrappedMemory.vecOp (· + ·) ⟨⟨⟨.colMajor, [], 1, [2], [1], 2⟩, []⟩, true, 2, 0⟩
    ⟨⟨⟨.colMajor, [], 1, [3], [1], 3⟩, []⟩, true, 3, 2⟩ (bufferOf [a, b, 3, 4, 5]) = .ub :=
  (C91_vec_defined _ _ _ _).2 fun h => absurd ((C91_vec_defined _ _ _ _).1.1 h).1 (by decide)

/-- **C91** The copy rejects numbers of strides that are not the number of axes, on either side. -/
theorem C91_copy_rejects (srt : SortFn) (shape is os : List Int) (bi bo : Int) (m : Mem α)
    (h : is.length ≠ shape.length ∨ os.length ≠ shape.length) :
    stridedCopyIn srt shape is os bi bo m = .throw .runtimeError := by
  unfold stridedCopyIn
  split
  · rfl
  · rw [if_pos (by rcases h with h | h <;> omega)]

example : [1, 2].length ≠ [(2 : Int)].length ∨ [1].length ≠ [(2 : Int)].length := by decide

/-! ### Programs -/

/-- The fields and the memory of a program: no field has gaps, and different fields share no cell. -/
structure Wraps (fs : Nat → WField) (ss : Nat → List Int) : Prop where
  strides : ∀ i, (fs i).HasStrides (ss i)
  pos : ∀ i, Pos ((fs i).field.layout.shape .subPt)
  size : ∀ i, (fs i).size = (fs i).nbValues
  tight : ∀ i, Tight (fs i) (ss i)
  apart : ∀ i j, i ≠ j → ∀ a, Cell (fs i) (ss i) a → ¬ Cell (fs j) (ss j) a

/-- The two fields of a statement have the same shape; except in assignments of different global fields also the same
strides. -/
def _root_.Verif.WrappedMemory.WOp.Fits (fs : Nat → WField) (ss : Nat → List Int) (op : WOp) : Prop :=
  ∀ b, op.src = some b → (fs op.dst).field.layout.shape .subPt = (fs b).field.layout.shape .subPt ∧
    (ss op.dst = ss b ∧ (fs op.dst).size = (fs b).size ∨ ∃ a, op = .assign a b ∧ a ≠ b ∧ (fs a).isGlobal = true)

theorem wop_assign_self {srt : SortFn} (hsrt : SortSpec srt) {f : WField} {s : List Int} {m : Mem α} {val : List Int → α}
    (hp : Pos (f.field.layout.shape .subPt)) (hd : f.HasStrides s) (hv : Elems f s m val) (hg : f.isGlobal = true) :
    WrappedMemory.assign srt f f m = .ok m := by
  have hperm := DynamicPixels.axes_perm hsrt (f.field.layout.shape .subPt) s (f.field.layout.shape .subPt).length
  have hm := fun c => mem_boxList (idx := c) hp hperm
  rw [WrappedMemory.assign, if_pos hg, if_neg (by simp), hd.strides, Res.ok_bind, Res.ok_bind]
  simp only [stridedCopyIn, hd.length_eq, ne_eq, not_true_eq_false, if_false, computeAxesOrder]
  rw [if_neg (by omega), Res.ok_bind, visit_eq hp hperm (by rw [shape_subPt]; simp)]
  have : ∀ l : List (List Int), (∀ i ∈ l, InBox (f.field.layout.shape .subPt) i) →
      foldRes (copyBodyIn s s f.base f.base) l m = .ok m := by
    intro l
    induction l with
    | nil => intro _; rfl
    | cons i l ih =>
      intro h
      simp only [foldRes, copyBodyIn, linearIndex_eq_dot, hv i (h i (by simp)), Res.ok_bind]
      have : m.write (f.base + dot s i) (val i) = m := by
        funext a
        by_cases ha : a = f.base + dot s i
        · subst ha; rw [write_self, hv i (h i (by simp))]
        · rw [write_other _ _ ha]
      rw [this]
      exact ih fun i hi => h i (by simp [hi])
  exact this _ fun i hi => (hm i).1 hi

/-- **C91** (part: fields without gaps that share no cells) Every program of assignments, additions, subtractions, negations and
`set_zero` computes in the wrapped memory what its statements say, element by element, and changes no cell outside the fields
that it assigns to.  Missing: other fields, where the claim is false. -/
theorem C91_programs_partial [Inhabited α] [Add α] [Sub α] [Neg α] {srt : SortFn} (hsrt : SortSpec srt) {fs : Nat → WField}
    {ss : Nat → List Int} (hw : Wraps fs ss) (ops : List WOp) (hfit : ∀ op ∈ ops, op.Fits fs ss) :
    ∀ {m : Mem α} {env : Nat → List Int → α}, (∀ i, Elems (fs i) (ss i) m (env i)) →
    ∃ m', runW srt fs ops m = .ok m' ∧ (∀ i, Elems (fs i) (ss i) m' (ops.foldl (fun e op => op.eval e) env i)) ∧
      ∀ a, (∀ op ∈ ops, ¬ Cell (fs op.dst) (ss op.dst) a) → m' a = m a := by
  induction ops with
  | nil => intro m env hv; exact ⟨m, rfl, hv, fun _ _ => rfl⟩
  | cons op ops ih =>
    intro m env hv
    -- one statement
    have hone : ∃ m1, op.run srt fs m = .ok m1 ∧ Elems (fs op.dst) (ss op.dst) m1 (op.eval env op.dst) ∧
        (∀ i, i ≠ op.dst → op.eval env i = env i) ∧ ∀ a, ¬ Cell (fs op.dst) (ss op.dst) a → m1 a = m a := by
      have hf := hfit op (by simp)
      have hvec : ∀ (g : α → α → α) (a b : Nat), (fs a).field.layout.shape .subPt = (fs b).field.layout.shape .subPt →
          ss a = ss b → (fs a).size = (fs b).size → ∃ m1, WrappedMemory.vecOp g (fs a) (fs b) m = .ok m1 ∧
            Elems (fs a) (ss a) m1 (fun t => g (env a t) (env b t)) ∧ ∀ c, ¬ Cell (fs a) (ss a) c → m1 c = m c := by
        intro g a b h1 h2 h3
        refine C91_vec_partial g h1 (hw.strides a) (hw.size a) (hw.size b) (hw.tight a) (by rw [h2]; exact hw.tight b) h3 (hv a)
          (by rw [h2]; exact hv b) ?_
        by_cases hab : a = b
        · exact Or.inl (by rw [hab])
        · exact Or.inr fun c hc hc' => hw.apart a b hab c hc (by rwa [← h2])
      cases op with
      | assign a b =>
        obtain ⟨h1, h2⟩ := hf b rfl
        have hupd : ∀ i, i ≠ a → (WOp.assign a b).eval env i = env i := fun i hi => Function.update_of_ne hi _ _
        have hself : (WOp.assign a b).eval env a = env b := Function.update_self _ _ _
        have hlocal : (fs a).isGlobal = false → ∃ m1, WrappedMemory.assign srt (fs a) (fs b) m = .ok m1 ∧
            Elems (fs a) (ss a) m1 (env b) ∧ ∀ c, ¬ Cell (fs a) (ss a) c → m1 c = m c := by
          intro hl
          rcases h2 with ⟨h2, h3⟩ | ⟨a', ha', -, hg⟩
          · obtain ⟨m1, e1, e2, e3⟩ := hvec (fun _ y => y) a b h1 h2 h3
            exact ⟨m1, by rw [WrappedMemory.assign, if_neg (by simp [hl]), e1], e2, e3⟩
          · cases ha'
            rw [hl] at hg
            cases hg
        by_cases hg : (fs a).isGlobal = true
        · by_cases hab : a = b
          · subst hab
            refine ⟨m, wop_assign_self hsrt (hw.pos a) (hw.strides a) (hv a) hg, ?_, hupd, fun _ _ => rfl⟩
            show Elems _ _ _ ((WOp.assign a a).eval env a)
            rw [hself]
            exact hv a
          · obtain ⟨m1, e1, e2, e3⟩ := C91_assign hsrt hg h1 (hw.pos a) (hw.strides a) (hw.strides b) (hv a) (hv b)
              (hw.apart a b hab)
            exact ⟨m1, e1, by rw [show (WOp.assign a b).dst = a from rfl, hself]; exact e2, hupd, e3⟩
        · obtain ⟨m1, e1, e2, e3⟩ := hlocal (by simpa using hg)
          exact ⟨m1, e1, by rw [show (WOp.assign a b).dst = a from rfl, hself]; exact e2, hupd, e3⟩
      | neg a b =>
        obtain ⟨h1, h2⟩ := hf b rfl
        obtain ⟨h2, h3⟩ : ss a = ss b ∧ (fs a).size = (fs b).size := by
          rcases h2 with h | ⟨_, h, -⟩
          · exact h
          · cases h
        obtain ⟨m1, e1, e2, e3⟩ := hvec (fun _ y => -y) a b h1 h2 h3
        refine ⟨m1, e1, ?_, fun i hi => Function.update_of_ne hi _ _, e3⟩
        show Elems _ _ _ ((WOp.neg a b).eval env a)
        rw [show (WOp.neg a b).eval env a = fun t => -env b t from Function.update_self _ _ _]
        exact e2
      | plus a b =>
        obtain ⟨h1, h2⟩ := hf b rfl
        obtain ⟨h2, h3⟩ : ss a = ss b ∧ (fs a).size = (fs b).size := by
          rcases h2 with h | ⟨_, h, -⟩
          · exact h
          · cases h
        obtain ⟨m1, e1, e2, e3⟩ := hvec (· + ·) a b h1 h2 h3
        refine ⟨m1, e1, ?_, fun i hi => Function.update_of_ne hi _ _, e3⟩
        show Elems _ _ _ ((WOp.plus a b).eval env a)
        rw [show (WOp.plus a b).eval env a = fun t => env a t + env b t from Function.update_self _ _ _]
        exact e2
      | minus a b =>
        obtain ⟨h1, h2⟩ := hf b rfl
        obtain ⟨h2, h3⟩ : ss a = ss b ∧ (fs a).size = (fs b).size := by
          rcases h2 with h | ⟨_, h, -⟩
          · exact h
          · cases h
        obtain ⟨m1, e1, e2, e3⟩ := hvec (· - ·) a b h1 h2 h3
        refine ⟨m1, e1, ?_, fun i hi => Function.update_of_ne hi _ _, e3⟩
        show Elems _ _ _ ((WOp.minus a b).eval env a)
        rw [show (WOp.minus a b).eval env a = fun t => env a t - env b t from Function.update_self _ _ _]
        exact e2
      | zero a =>
        obtain ⟨m1, e1, e2, e3⟩ := C91_zero_partial (hw.tight a) (hv a)
        refine ⟨m1, e1, ?_, fun i hi => Function.update_of_ne hi _ _, e3⟩
        show Elems _ _ _ ((WOp.zero a).eval env a)
        rw [show (WOp.zero a).eval env a = fun _ => default from Function.update_self _ _ _]
        exact e2
    obtain ⟨m1, e1, e2, e3, e4⟩ := hone
    obtain ⟨m', f1, f2, f3⟩ := ih (fun o ho => hfit o (by simp [ho])) (m := m1) (env := op.eval env) (by
      intro i
      by_cases hi : i = op.dst
      · subst hi; exact e2
      · rw [e3 i hi]
        intro t ht
        rw [e4 _ (hw.apart i op.dst hi _ ⟨t, ht, rfl⟩)]
        exact hv i t ht)
    refine ⟨m', by rw [runW, e1, Res.ok_bind, f1], f2, fun a ha => ?_⟩
    rw [f3 a fun o ho => ha o (by simp [ho]), e4 a (ha op (by simp))]

/-- A family of arrays of three numbers, one after the other. -/
def exArrays (i : Nat) : WField := { exForward with base := 3 * i }

theorem exArrays_wraps : Wraps exArrays fun _ => [1, 1] := by
  refine ⟨fun i => ⟨exForward_strides.strides, exForward_strides.length_eq, exForward_strides.inj⟩, fun i => (by decide : Pos [1, 3]),
    fun i => (by decide : exForward.size = exForward.nbValues), fun i => exForward_tight _, ?_⟩
  rintro i j hij a ⟨t, ht, rfl⟩ ⟨t', ht', he⟩
  obtain ⟨p, rfl, hp⟩ := exSingle ht
  obtain ⟨p', rfl, hp'⟩ := exSingle ht'
  simp [dot, exArrays] at he
  omega

/-- `c = a; c += b; a.set_zero()` with the numbers of their cells as values. -/
example : ∃ m', runW stableSort exArrays [.assign 2 0, .plus 2 1, .zero 0] (fun a => some a) = .ok m' ∧
    Elems (exArrays 2) [1, 1] m' (fun t => (0 + dot [1, 1] t) + (3 + dot [1, 1] t)) ∧
    Elems (exArrays 0) [1, 1] m' (fun _ => 0) ∧ Elems (exArrays 1) [1, 1] m' (fun t => 3 + dot [1, 1] t) := by
  obtain ⟨m', h1, h2, -⟩ := C91_programs_partial stableSort_spec exArrays_wraps [.assign 2 0, .plus 2 1, .zero 0]
    (by
      intro op hop b hb
      simp only [List.mem_cons, List.not_mem_nil, or_false] at hop
      rcases hop with rfl | rfl | rfl
      · exact ⟨rfl, Or.inl ⟨rfl, rfl⟩⟩
      · exact ⟨rfl, Or.inl ⟨rfl, rfl⟩⟩
      · cases hb)
    (m := fun a => some a) (env := fun i t => 3 * (i : Int) + dot [1, 1] t) (fun i t _ => rfl)
  exact ⟨m', h1, h2 2, h2 0, h2 1⟩

/-! ### Size and matrices -/

/-- The full statement about the size: all elements of an accepted field are among the `size` cells that were given. -/
def C91_inside_statement : Prop :=
  ∀ (l : FieldLayout) (g : Bool) (size base : Int) (f : WField) (s : List Int), NestedStrides l.pixShape l.pixStrides →
    getBufferSize l.pixShape l.pixStrides = .ok l.nbBuf → wrap l [] g size base = .ok f → f.HasStrides s →
    ∀ a, Cell f s a → base ≤ a ∧ a < base + size

/-- **C91** is false in collections with gaps between the pixels: the size is compared with the number of pixels, not of places in
the buffer (here 2 × 2 pixels with strides 1 and 3 on four cells). -/
theorem C91_inside_false : ¬ C91_inside_statement := by
  intro h
  have hn : NestedStrides [2, 2] [1, 3] := ⟨by decide, [1, 0], by decide, by simp [pick, SD, maxIdx]⟩
  obtain ⟨m, hm, hA⟩ := C18_global_pixels hn (by decide)
  have hm6 : getBufferSize [2, 2] [1, 3] = .ok 6 := by decide
  rw [hm6] at hm
  cases hm
  obtain ⟨s, h1, -, h3, -⟩ := C18_sub_pt_strides ⟨.colMajor, [], 1, [2, 2], [1, 3], 6⟩ (Or.inl rfl) hA
  have hs : FieldLayout.strides ⟨.colMajor, [], 1, [2, 2], [1, 3], 6⟩ .subPt 1 = .ok [1, 1, 3] := by decide
  rw [hs] at h1
  cases h1
  have := h ⟨.colMajor, [], 1, [2, 2], [1, 3], 6⟩ true 4 0 ⟨⟨⟨.colMajor, [], 1, [2, 2], [1, 3], 6⟩, []⟩, true, 4, 0⟩ [1, 1, 3] hn
    hm6 (by decide) ⟨hs, h3.length_eq, h3.inj⟩ 4 ⟨[0, 1, 1], by decide, by decide⟩
  omega

/-- **C91** (part: collections without gaps) All elements are among the cells that were given.  Missing: collections with gaps,
where the claim is false. -/
theorem C91_inside_partial {l : FieldLayout} {g : Bool} {size base : Int} {f : WField} {s : List Int}
    (ho : l.order = .colMajor ∨ l.order = .rowMajor) (hc : Pos l.comps) (hn : 0 < l.nbSub) (hb : 0 < l.nbBuf)
    (hpix : Addressing l.pixShape l.pixStrides l.nbBuf) (hfill : Fills l.pixShape l.pixStrides l.nbBuf)
    (hnb : l.nbBuf = getSize l.pixShape) (h : wrap l [] g size base = .ok f) (hs : f.HasStrides s) :
    ∀ a, Cell f s a ↔ base ≤ a ∧ a < base + size := by
  obtain ⟨s', h1, h2⟩ := C91_tight ho hc hn hb hpix hfill hnb h
  have : s' = s := by
    have := h1.strides
    rw [hs.strides] at this
    cases this
    rfl
  subst this
  have hc0 : l.nbComp ≠ 0 := by
    have := prod_pos_of_pos hc
    rw [FieldLayout.nbComp, getSize_eq_prod]
    omega
  obtain ⟨rfl, -, -⟩ := (C91_accept l [] g size base f hc0).1 h
  intro a
  have := h2 (a - base)
  simp only at this
  rw [show base + (a - base) = a by omega] at this
  rw [this]
  omega

example : ∀ a, Cell exForward [1, 1] a ↔ 10 ≤ a ∧ a < 10 + 3 :=
  C91_inside_partial (l := ⟨.colMajor, [], 1, [3], [1], 3⟩) (g := true) (Or.inl rfl) (by decide) (by decide) (by decide)
    (addressing_single 3) (fills_single 3) (by decide) (by decide) exForward_strides

/-- The cell of an entry of a matrix. -/
def _root_.Verif.WrappedMemory.EigenRef.cell (r : EigenRef) (i j : Int) : Int := r.base + i + r.outer * j

/-- **C91** A matrix as memory of a field: entry `(i, j)` is the value number `i + rows * j` of the field, for all entries, exactly
if the columns follow each other without gap (or there is only one). -/
theorem C91_matrix_exact {l : FieldLayout} {custom : List Int} {g : Bool} {r : EigenRef} {f : WField} (hr : 0 < r.rows)
    (h : wrapEigen l custom g r = .ok f) :
    f.size = r.rows * r.cols ∧
    ((∀ i j, 0 ≤ i → i < r.rows → 0 ≤ j → j < r.cols → r.cell i j = f.base + (i + r.rows * j)) ↔
      r.cols ≤ 1 ∨ r.outer = r.rows) := by
  have hc0 : l.nbComp ≠ 0 := by
    intro hc
    rw [wrapEigen, wrap, wrapField, if_pos hc, Res.ub_bind] at h
    cases h
  obtain ⟨rfl, -, -⟩ := (C91_accept l custom g _ _ f hc0).1 h
  refine ⟨rfl, ?_, ?_⟩
  · intro hall
    by_contra hn
    push Not at hn
    have := hall 0 1 (le_refl _) hr (by omega) (by omega)
    simp only [EigenRef.cell] at this
    omega
  · intro hor i j h0 h1 j0 j1
    simp only [EigenRef.cell]
    rcases hor with hc | ho
    · obtain rfl : j = 0 := by omega
      simp
    · rw [ho]; omega

example : ∃ f, wrapEigen exGrid [] true ⟨2, 6, 2, 100⟩ = .ok f := ⟨⟨⟨exGrid, []⟩, true, 12, 100⟩, by decide⟩

/-- **C91** A block of a larger matrix is accepted, but the field shows cells that are not in the block (here the first two of
three rows). -/
theorem C91_matrix_block : ∃ f s, wrapEigen ⟨.colMajor, [2], 1, [2], [1], 2⟩ [] true ⟨2, 2, 3, 0⟩ = .ok f ∧ f.HasStrides s ∧
    Cell f s 2 ∧ ∀ i j, 0 ≤ i → i < 2 → 0 ≤ j → j < 2 → EigenRef.cell ⟨2, 2, 3, 0⟩ i j ≠ 2 := by
  obtain ⟨s, h1, h2⟩ := C91_tight (l := ⟨.colMajor, [2], 1, [2], [1], 2⟩) (g := true) (size := 4) (base := 0) (Or.inl rfl)
    (by decide) (by decide) (by decide) (addressing_single 2) (fills_single 2) (by decide)
    (f := ⟨⟨⟨.colMajor, [2], 1, [2], [1], 2⟩, []⟩, true, 4, 0⟩) (by decide)
  refine ⟨_, s, by decide, h1, ?_, ?_⟩
  · exact (h2 2).2 ⟨by decide, by decide⟩
  · intro i j h0 h1 j0 j1
    simp only [EigenRef.cell]
    omega

end Verif.Props
