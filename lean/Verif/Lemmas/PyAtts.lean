import Verif.Lemmas.FileAtts
import Verif.Spec.PyAtts
/-
Lemmas about global attributes in python.
-/
namespace Verif
open Verif.NetCDFAtt Verif.NetCDF Verif.Reduce Verif.PyAtts

variable {ρ : Type}

theorem strOf_utf8 (s : String) : strOf (ρ := ρ) (utf8 s) = .ok (.str s) := by
  have h : String.fromUTF8? ⟨(utf8 s).toArray⟩ = some s := by
    have h2 : (⟨(utf8 s).toArray⟩ : ByteArray) = s.toByteArray := by simp [utf8]
    rw [h2, String.fromUTF8?]
    split
    · rfl
    · rename_i h3
      exact absurd s.isValidUTF8 (by simpa using h3)
  rw [strOf, h]

theorem utf8_length (s : String) : (utf8 s).length = s.utf8ByteSize := by
  rw [utf8, Array.length_toList]
  rfl

theorem bytesOf_map (b : List UInt8) : bytesOf (b.map (Cell.byte (ρ := ρ))) = .ok b := by
  induction b with
  | nil => rfl
  | cons x b ih => rw [List.map_cons, bytesOf, ih, Res.ok_bind]

theorem intsOf_map (l : List Int) : intsOf (l.map (Cell.int (ρ := ρ))) = .ok (l.map .int) := by
  induction l with
  | nil => rfl
  | cons x b ih => rw [List.map_cons, intsOf, ih, Res.ok_bind, List.map_cons]

theorem realsOf_map (l : List ρ) : realsOf (l.map Cell.real) = .ok (l.map .float) := by
  induction l with
  | nil => rfl
  | cons x b ih => rw [List.map_cons, realsOf, ih, Res.ok_bind, List.map_cons]

/-- The element for a number as an integer. -/
def intPart : PyNum ρ → Int
  | .int v => v
  | _ => 0

/-- The number as a `double`. -/
def realPart (cv : Conv ρ) : PyNum ρ → ρ
  | .int v => (cv.ofInt v).getD cv.zero
  | .float x => x
  | .complex x _ => x
  | .other x => x

theorem loadSeq_all (cv : Conv ρ) (convert : Bool) (t : Ty) (g : PyNum ρ → Cell ρ) :
    ∀ xs : List (PyNum ρ), (∀ x ∈ xs, (load cv convert x t).bind cellOf = some (g x)) →
      loadSeq cv convert t xs = some (xs.map g)
  | [], _ => rfl
  | x :: xs, h => by
    rw [loadSeq, h x (by simp)]
    simp only
    rw [loadSeq_all cv convert t g xs fun y hy => h y (by simp [hy])]
    rfl

theorem loadSeq_none (cv : Conv ρ) (convert : Bool) (t : Ty) :
    ∀ xs : List (PyNum ρ), (∃ x ∈ xs, load cv convert x t = none) → loadSeq cv convert t xs = none
  | [], h => by simp at h
  | x :: xs, h => by
    rw [loadSeq]
    rcases hx : (load cv convert x t).bind cellOf with _ | c
    · rfl
    · simp only
      have : ∃ y ∈ xs, load cv convert y t = none := by
        obtain ⟨y, hy, hn⟩ := h
        rcases List.mem_cons.mp hy with rfl | hy
        · rw [hn] at hx; cases hx
        · exact ⟨y, hy, hn⟩
      rw [loadSeq_none cv convert t xs this]

/-- The values that a python sequence has in a file. -/
def cellsSeq (cv : Conv ρ) (xs : List (PyNum ρ)) : List (Cell ρ) :=
  if ∀ x ∈ xs, IsInt (-2^63) (2^63 - 1) x then xs.map fun x => .int (intPart x) else xs.map fun x => .real (realPart cv x)

/-- The values that a python object has in a file. -/
def cellsVal (cv : Conv ρ) : PyVal ρ → List (Cell ρ)
  | .str s => (utf8 s).map .byte
  | .seq xs => cellsSeq cv xs
  | _ => []

theorem load_int (cv : Conv ρ) (convert : Bool) {t : Ty} (ht : t = .i32 ∨ t = .u32 ∨ t = .i64) {x : PyNum ρ}
    (h : IsInt t.lo t.hi x) : (load cv convert x t).bind cellOf = some (.int (intPart x)) := by
  cases x with
  | int v =>
    have h' : t.fits v := h
    rcases ht with rfl | rfl | rfl <;> simp [load, loadInt, h', cellOf, intPart]
  | float _ => exact h.elim
  | complex _ _ => exact h.elim
  | other _ => exact h.elim

theorem load_none (cv : Conv ρ) (convert : Bool) {t : Ty} (ht : t = .i32 ∨ t = .u32 ∨ t = .i64) {x : PyNum ρ}
    (hx : ∀ y, x ≠ .other y) (h : ¬ IsInt t.lo t.hi x) : load cv convert x t = none := by
  cases x with
  | int v =>
    have h' : ¬ t.fits v := h
    rcases ht with rfl | rfl | rfl <;> simp [load, loadInt, h']
  | float _ => rcases ht with rfl | rfl | rfl <;> rfl
  | complex _ _ => rcases ht with rfl | rfl | rfl <;> rfl
  | other y => exact absurd rfl (hx y)

theorem i32_lim : Ty.i32.lo = -2^31 ∧ Ty.i32.hi = 2^31 - 1 := by decide
theorem u32_lim : Ty.u32.lo = 0 ∧ Ty.u32.hi = 2^32 - 1 := by decide
theorem i64_lim : Ty.i64.lo = -2^63 ∧ Ty.i64.hi = 2^63 - 1 := by decide

theorem isInt_mono {a b c d : Int} (h1 : c ≤ a) (h2 : b ≤ d) {x : PyNum ρ} (h : IsInt a b x) : IsInt c d x := by
  cases x with
  | int v => exact ⟨Int.le_trans h1 h.1, Int.le_trans h.2 h2⟩
  | float _ => exact h.elim
  | complex _ _ => exact h.elim
  | other _ => exact h.elim

/-- The overloads for integers, in either pass, if no element is `np.float32` and the like. -/
theorem loadSeq_ty (cv : Conv ρ) (convert : Bool) {t : Ty} (ht : t = .i32 ∨ t = .u32 ∨ t = .i64) (xs : List (PyNum ρ))
    (hx : ∀ x ∈ xs, ∀ y, x ≠ .other y) :
    loadSeq cv convert t xs =
      if ∀ x ∈ xs, IsInt t.lo t.hi x then some (xs.map fun x => .int (intPart x)) else none := by
  split
  · rename_i h
    exact loadSeq_all cv convert t _ xs fun x hm => load_int cv convert ht (h x hm)
  · rename_i h
    simp only [not_forall] at h
    obtain ⟨x, hm, hn⟩ := h
    exact loadSeq_none cv convert t xs ⟨x, hm, load_none cv convert ht (hx x hm) hn⟩

/-- The overload for `double` with conversions. -/
theorem loadSeq_real (cv : Conv ρ) {eqInt : ρ → Int → Prop} (xs : List (PyNum ρ)) (h : ∀ x ∈ xs, IsReal cv eqInt x) :
    loadSeq cv true .f64 xs = some (xs.map fun x => .real (realPart cv x)) := by
  refine loadSeq_all cv true .f64 _ xs fun x hm => ?_
  have := h x hm
  cases x with
  | int v =>
    obtain ⟨y, hy, -⟩ := this
    simp [load, loadReal, hy, cellOf, realPart]
  | float _ => rfl
  | complex _ _ => exact this.elim
  | other _ => exact this.elim

theorem loadSeq_real_first (cv : Conv ρ) {eqInt : ρ → Int → Prop} (xs : List (PyNum ρ)) (h : ∀ x ∈ xs, IsReal cv eqInt x) :
    loadSeq cv false .f64 xs = some (xs.map fun x => .real (realPart cv x)) ∨ loadSeq cv false .f64 xs = none := by
  by_cases hf : ∀ x ∈ xs, ∃ y, x = .float y
  · refine .inl (loadSeq_all cv false .f64 _ xs fun x hm => ?_)
    obtain ⟨y, rfl⟩ := hf x hm
    rfl
  · simp only [not_forall] at hf
    obtain ⟨x, hm, hn⟩ := hf
    refine .inr (loadSeq_none cv false .f64 xs ⟨x, hm, ?_⟩)
    have := h x hm
    cases x with
    | int v => rfl
    | float y => exact absurd ⟨y, rfl⟩ hn
    | complex _ _ => exact this.elim
    | other _ => exact this.elim

/-- The overload that is chosen and the values it gets. -/
theorem pickAtt_plain (cv : Conv ρ) {eqInt : ρ → Int → Prop} {v : PyVal ρ} (h : PlainVal cv eqInt v) :
    pickAtt cv v = some (kindOf v, cellsVal cv v) := by
  cases v with
  | str s => rfl
  | bytes b => exact h.elim
  | obj => exact h.elim
  | seq xs =>
    have hx : ∀ x ∈ xs, ∀ y, x ≠ .other y := by
      rintro x hm y rfl
      rcases h with h | h
      · exact (h _ hm).elim
      · exact (h _ hm).elim
    have e32 : ∀ b, loadAtt cv b (.seq xs) .int = _ := fun b => loadSeq_ty cv b (t := .i32) (.inl rfl) xs hx
    have eu : ∀ b, loadAtt cv b (.seq xs) .uint = _ := fun b => loadSeq_ty cv b (t := .u32) (.inr (.inl rfl)) xs hx
    have e64 : ∀ b, loadAtt cv b (.seq xs) .int64 = _ := fun b => loadSeq_ty cv b (t := .i64) (.inr (.inr rfl)) xs hx
    rw [i32_lim.1, i32_lim.2] at e32
    rw [u32_lim.1, u32_lim.2] at eu
    rw [i64_lim.1, i64_lim.2] at e64
    have ec : ∀ b, loadAtt cv b (.seq xs) .char = none := fun _ => rfl
    by_cases h64 : ∀ x ∈ xs, IsInt (-2^63) (2^63 - 1) x
    · rw [if_pos h64] at e64
      rw [cellsVal, cellsSeq, if_pos h64, pickAtt, attTys]
      by_cases h32 : ∀ x ∈ xs, IsInt (-2^31) (2^31 - 1) x
      · rw [if_pos h32] at e32
        simp only [firstAtt, ec, e32, kindOf, if_pos h32]
      · rw [if_neg h32] at e32
        by_cases hu : ∀ x ∈ xs, IsInt 0 (2^32 - 1) x
        · rw [if_pos hu] at eu
          simp only [firstAtt, ec, e32, eu, kindOf, if_neg h32, if_pos hu]
        · rw [if_neg hu] at eu
          simp only [firstAtt, ec, e32, eu, e64, kindOf, if_neg h32, if_neg hu, if_pos h64]
    · have hr : ∀ x ∈ xs, IsReal cv eqInt x := h.resolve_left h64
      have h32 : ¬ ∀ x ∈ xs, IsInt (-2^31) (2^31 - 1) x := fun hh =>
        h64 fun x hm => isInt_mono (by decide) (by decide) (hh x hm)
      have hu : ¬ ∀ x ∈ xs, IsInt 0 (2^32 - 1) x := fun hh =>
        h64 fun x hm => isInt_mono (by decide) (by decide) (hh x hm)
      rw [if_neg h64] at e64
      rw [if_neg h32] at e32
      rw [if_neg hu] at eu
      have ed : loadAtt cv true (.seq xs) .double = _ := loadSeq_real cv xs hr
      rw [cellsVal, cellsSeq, if_neg h64, pickAtt, attTys]
      simp only [firstAtt, ec, e32, eu, e64, ed, kindOf, if_neg h32, if_neg hu, if_neg h64]
      rcases loadSeq_real_first cv xs hr with h1 | h1
      · have h1' : loadAtt cv false (.seq xs) .double = _ := h1
        rw [h1']
      · have h1' : loadAtt cv false (.seq xs) .double = _ := h1
        rw [h1']

theorem kindOf_stored (cv : Conv ρ) {eqInt : ρ → Int → Prop} {v : PyVal ρ} (h : PlainVal cv eqInt v) :
    (kindOf v).stored = true := by
  cases v with
  | str s => rfl
  | bytes b => exact h.elim
  | obj => exact h.elim
  | seq xs => rw [kindOf]; split; rfl; split; rfl; split <;> rfl

theorem cellsVal_length (cv : Conv ρ) (v : PyVal ρ) : (cellsVal cv v).length = sizeOfVal v := by
  cases v with
  | str s => rw [cellsVal, List.length_map, utf8_length]; rfl
  | bytes b => rfl
  | obj => rfl
  | seq xs => rw [cellsVal, cellsSeq]; split <;> rw [List.length_map] <;> rfl

theorem same_ints (eqInt : ρ → Int → Prop) {lo hi : Int} : ∀ xs : List (PyNum ρ), (∀ x ∈ xs, IsInt lo hi x) →
    List.Forall₂ (SameNum eqInt) xs (xs.map fun x => .int (intPart x))
  | [], _ => .nil
  | x :: xs, h => by
    refine .cons ?_ (same_ints eqInt xs fun y hy => h y (by simp [hy]))
    have := h x (by simp)
    cases x with
    | int v => rfl
    | float _ => exact this.elim
    | complex _ _ => exact this.elim
    | other _ => exact this.elim

theorem same_reals (cv : Conv ρ) (eqInt : ρ → Int → Prop) : ∀ xs : List (PyNum ρ), (∀ x ∈ xs, IsReal cv eqInt x) →
    List.Forall₂ (SameNum eqInt) xs (xs.map fun x => .float (realPart cv x))
  | [], _ => .nil
  | x :: xs, h => by
    refine .cons ?_ (same_reals cv eqInt xs fun y hy => h y (by simp [hy]))
    have := h x (by simp)
    cases x with
    | int v =>
      obtain ⟨y, hy, he⟩ := this
      simpa [SameNum, realPart, hy] using he
    | float _ => rfl
    | complex _ _ => exact this.elim
    | other _ => exact this.elim

/-- What is read is what was written. -/
theorem pyValue_plain (cv : Conv ρ) {eqInt : ρ → Int → Prop} {v : PyVal ρ} (h : PlainVal cv eqInt v) {a : Att (Cell ρ)}
    (hty : a.ty = kindOf v) (hv : a.value = cellsVal cv v) : ∃ w, pyValue a = .ok w ∧ SameVal eqInt v w := by
  cases v with
  | bytes b => exact h.elim
  | obj => exact h.elim
  | str s =>
    refine ⟨.str s, ?_, rfl⟩
    rw [pyValue, hty, hv]
    simp only [kindOf, cellsVal]
    rw [bytesOf_map, Res.ok_bind, strOf_utf8]
  | seq xs =>
    by_cases h64 : ∀ x ∈ xs, IsInt (-2^63) (2^63 - 1) x
    · refine ⟨.seq (xs.map fun x => .int (intPart x)), ?_, same_ints eqInt xs h64⟩
      have hi : intsOf a.value = .ok (xs.map fun x => .int (intPart x)) := by
        have := intsOf_map (ρ := ρ) (xs.map intPart)
        rw [List.map_map, List.map_map] at this
        rw [hv, cellsVal, cellsSeq, if_pos h64]
        exact this
      have : a.ty = .int ∨ a.ty = .uint ∨ a.ty = .int64 := by
        rw [hty, kindOf, if_pos h64]
        split
        · exact .inl rfl
        · split
          · exact .inr (.inl rfl)
          · exact .inr (.inr rfl)
      rw [pyValue]
      rcases this with h1 | h1 | h1 <;> rw [h1] <;> simp only [hi, Res.ok_bind]
    · have hr : ∀ x ∈ xs, IsReal cv eqInt x := h.resolve_left h64
      have h32 : ¬ ∀ x ∈ xs, IsInt (-2^31) (2^31 - 1) x := fun hh =>
        h64 fun x hm => isInt_mono (by decide) (by decide) (hh x hm)
      have hu : ¬ ∀ x ∈ xs, IsInt 0 (2^32 - 1) x := fun hh =>
        h64 fun x hm => isInt_mono (by decide) (by decide) (hh x hm)
      refine ⟨.seq (xs.map fun x => .float (realPart cv x)), ?_, same_reals cv eqInt xs hr⟩
      have hi : realsOf a.value = .ok (xs.map fun x => .float (realPart cv x)) := by
        have := realsOf_map (ρ := ρ) (xs.map (realPart cv))
        rw [List.map_map, List.map_map] at this
        rw [hv, cellsVal, cellsSeq, if_neg h64]
        exact this
      rw [pyValue, hty, kindOf, if_neg h32, if_neg hu, if_neg h64]
      simp only [hi, Res.ok_bind]

/-! ### The tables -/

/-- The attribute in the file. -/
def toFile (cv : Conv ρ) (e : String × PyVal ρ) : FileAtt (Cell ρ) := ⟨e.1, kindOf e.2, cellsVal cv e.2⟩

/-- The call with the values converted. -/
def toOp (cv : Conv ρ) : PyAttOp ρ → AttOp (Cell ρ)
  | .write n v => .writeAtt n (kindOf v) (cellsVal cv v)
  | .update o n v => .updateAtt o n (kindOf v) (cellsVal cv v)
  | .register => .register
  | .data => .writeData

/-- The table with the values converted. -/
def toTable (cv : Conv ρ) (t : PyTable ρ) : AttTable (Cell ρ) :=
  ⟨t.isNew, t.writable, t.stored, t.touched, t.registered, t.entries.map (toFile cv)⟩

theorem pyStep_plain (cv : Conv ρ) {eqInt : ρ → Int → Prop} {op : PyAttOp ρ} (h : Passes (PlainVal cv eqInt) op)
    (s : AttFile (Cell ρ)) : pyStep cv s op = s.step (toOp cv op) := by
  cases op with
  | write n v => simp only [pyStep, pyWrite, pickAtt_plain cv (eqInt := eqInt) h, toOp, AttFile.step]
  | update o n v => simp only [pyStep, pyUpdate, pickAtt_plain cv (eqInt := eqInt) h, toOp, AttFile.step]
  | register => rfl
  | data => rfl

theorem pyRun_plain (cv : Conv ρ) {eqInt : ρ → Int → Prop} : ∀ (ops : List (PyAttOp ρ)) (s : AttFile (Cell ρ)),
    (∀ op ∈ ops, Passes (PlainVal cv eqInt) op) → pyRun cv s ops = s.run (ops.map (toOp cv))
  | [], _, _ => rfl
  | op :: ops, s, h => by
    rw [pyRun, List.map_cons, AttFile.run, pyStep_plain cv (h op (by simp))]
    simp only
    rw [pyRun_plain cv ops _ fun o ho => h o (by simp [ho])]

theorem toTable_names (cv : Conv ρ) (t : PyTable ρ) : (toTable cv t).names = t.names := by
  rw [AttTable.names, toTable, List.map_map]; rfl

theorem find_toFile (cv : Conv ρ) (n : String) (l : List (String × PyVal ρ)) :
    (l.map (toFile cv)).find? (fun e => e.name = n) = (l.find? fun e => e.1 = n).map (toFile cv) := by
  rw [List.find?_map]; rfl

theorem toTable_replaceable (cv : Conv ρ) (t : PyTable ρ) (e : String × PyVal ρ) (new : String) (v : PyVal ρ) :
    (toTable cv t).Replaceable (toFile cv e) new (kindOf v) (cellsVal cv v) ↔ t.Replaceable e new v := by
  simp only [AttTable.Replaceable, PyTable.Replaceable, toFile, cellsVal_length, toTable_names]
  exact Iff.rfl

theorem toTable_step (cv : Conv ρ) (t : PyTable ρ) (op : PyAttOp ρ) :
    (toTable cv t).step (toOp cv op) = ((t.step op).1, toTable cv (t.step op).2) := by
  cases op with
  | register => rfl
  | data =>
    simp only [toOp, AttTable.step, PyTable.step]
    by_cases h : t.writable ∧ t.registered
    · rw [if_pos h, if_pos (show (toTable cv t).writable ∧ (toTable cv t).registered from h)]; rfl
    · rw [if_neg h, if_neg (show ¬ ((toTable cv t).writable ∧ (toTable cv t).registered) from h)]; rfl
  | write n v =>
    simp only [toOp, AttTable.step, PyTable.step, toTable_names]
    by_cases h : t.isNew ∧ ¬ t.stored ∧ n ∉ t.names
    · rw [if_pos h, if_pos (show (toTable cv t).isNew ∧ ¬ (toTable cv t).stored ∧ n ∉ t.names from h)]
      simp [toTable, toFile]
    · rw [if_neg h, if_neg (show ¬ ((toTable cv t).isNew ∧ ¬ (toTable cv t).stored ∧ n ∉ t.names) from h)]
  | update o n v =>
    simp only [toOp, AttTable.step, PyTable.step]
    have hf : (toTable cv t).entries.find? (fun e => e.name = o) = _ := find_toFile cv o t.entries
    rw [hf]
    rcases he : t.entries.find? (fun e => decide (e.1 = o)) with _ | e
    · simp only [he, Option.map_none]
    · simp only [he, Option.map_some]
      by_cases h : t.Replaceable e n v
      · rw [if_pos h, if_pos ((toTable_replaceable cv t e n v).mpr h)]
        simp only [toTable, List.map_map]
        congr 2
        refine List.map_congr_left fun f _ => ?_
        simp only [Function.comp]
        have : (toFile cv f).name = f.1 := rfl
        rw [this]
        split <;> rfl
      · rw [if_neg h, if_neg fun hh => h ((toTable_replaceable cv t e n v).mp hh)]

theorem toTable_run (cv : Conv ρ) : ∀ (ops : List (PyAttOp ρ)) (t : PyTable ρ),
    (toTable cv t).run (ops.map (toOp cv)) = ((t.run ops).1, toTable cv (t.run ops).2)
  | [], _ => rfl
  | op :: ops, t => by
    rw [List.map_cons, AttTable.run, PyTable.run, toTable_step]
    simp only
    rw [toTable_run cv ops]

theorem toTable_noClash (cv : Conv ρ) : ∀ (ops : List (PyAttOp ρ)) (t : PyTable ρ), t.NoClash ops →
    (toTable cv t).NoClash (ops.map (toOp cv))
  | [], _, _ => trivial
  | op :: ops, t, h => by
    obtain ⟨h1, h2⟩ := h
    have h3 := toTable_noClash cv ops _ h2
    have h4 : ((toTable cv t).step (toOp cv op)).2 = toTable cv (t.step op).2 := by rw [toTable_step]
    rw [← h4] at h3
    refine ⟨?_, h3⟩
    cases op with
    | update o n v =>
      have h1' : n = o ∨ n ∉ t.names := h1
      rw [← toTable_names cv t] at h1'
      exact h1'
    | register => trivial
    | data => trivial
    | write n v => trivial

theorem toOp_typed (cv : Conv ρ) {eqInt : ρ → Int → Prop} {op : PyAttOp ρ} (h : Passes (PlainVal cv eqInt) op) :
    Typed (toOp cv op) := by
  cases op with
  | write n v => exact kindOf_stored cv (eqInt := eqInt) h
  | update o n v => trivial
  | register => trivial
  | data => trivial

theorem toOp_orderly (cv : Conv ρ) : ∀ (ops : List (PyAttOp ρ)) (seen : Bool), PyOrderly seen ops →
    Orderly seen (ops.map (toOp cv))
  | [], _, _ => trivial
  | op :: ops, seen, h => by
    cases op with
    | update o n v => exact toOp_orderly cv ops true h
    | register => exact ⟨h.1, toOp_orderly cv ops seen h.2⟩
    | data => exact toOp_orderly cv ops seen h
    | write n v => exact toOp_orderly cv ops seen h

theorem toTable_closed (cv : Conv ρ) (t : PyTable ρ) (date time : String) :
    (toTable cv t).closed (text date) (text time) =
      ((t.closed date time).1, (t.closed date time).2.map (toFile cv)) := by
  rw [AttTable.closed, PyTable.closed]
  have hc : ((toTable cv t).touched ∧ (toTable cv t).writable) ↔ (t.touched ∧ t.writable) := Iff.rfl
  by_cases h : t.touched ∧ t.writable
  · rw [if_pos h, if_pos (hc.mpr h)]
    have h1 := toTable_step cv { t with stored := true } (.update "last_modified_date" "last_modified_date" (.str date))
    have h1' : ({ toTable cv t with stored := true } : AttTable _).step
        (.updateAtt "last_modified_date" "last_modified_date" .char (text date)) = _ := h1
    simp only [h1']
    have h2 := toTable_step cv (({ t with stored := true } : PyTable ρ).step
      (.update "last_modified_date" "last_modified_date" (.str date))).2
      (.update "last_modified_time" "last_modified_time" (.str time))
    have h2' : (toTable cv (({ t with stored := true } : PyTable ρ).step
      (.update "last_modified_date" "last_modified_date" (.str date))).2).step
        (.updateAtt "last_modified_time" "last_modified_time" .char (text time)) = _ := h2
    simp only [h2']
    rfl
  · rw [if_neg h, if_neg fun hh => h (hc.mp hh)]
    rfl

/-- All values in the table fulfil a condition. -/
def AllVals (P : PyVal ρ → Prop) (l : List (String × PyVal ρ)) : Prop := ∀ e ∈ l, P e.2

theorem allVals_step {P : PyVal ρ → Prop} {t : PyTable ρ} (h : AllVals P t.entries) {op : PyAttOp ρ} (ho : Passes P op) :
    AllVals P (t.step op).2.entries := by
  cases op with
  | register => exact h
  | data => rw [PyTable.step]; split <;> exact h
  | write n v =>
    rw [PyTable.step]
    split
    · intro e he
      rcases List.mem_append.mp he with he | he
      · exact h e he
      · rw [List.mem_singleton.mp he]; exact ho
    · exact h
  | update o n v =>
    rw [PyTable.step]
    split
    · split
      · intro e he
        obtain ⟨f, hf, rfl⟩ := List.mem_map.mp he
        split
        · exact ho
        · exact h f hf
      · exact h
    · exact h

theorem allVals_run {P : PyVal ρ → Prop} : ∀ (ops : List (PyAttOp ρ)) {t : PyTable ρ}, AllVals P t.entries →
    (∀ op ∈ ops, Passes P op) → AllVals P (t.run ops).2.entries
  | [], _, h, _ => h
  | op :: ops, _, h, ho => allVals_run ops (allVals_step h (ho op (by simp))) fun o hm => ho o (by simp [hm])

theorem allVals_closed {P : PyVal ρ → Prop} (hs : ∀ s, P (.str s)) {t : PyTable ρ} (h : AllVals P t.entries)
    (date time : String) : AllVals P (t.closed date time).2 := by
  rw [PyTable.closed]
  split
  · exact allVals_step (P := P) (allVals_step (P := P) (by exact h) (by exact hs date)) (by exact hs time)
  · exact h

/-- Reading one attribute. -/
theorem pyRead_table (cv : Conv ρ) {eqInt : ρ → Int → Prop} {t : PyTable ρ} (h : AllVals (PlainVal cv eqInt) t.entries)
    {s : AttFile (Cell ρ)} (n : String) (hr : (toTable cv t).Reads n (s.readAtt n)) :
    ReadsOne eqInt (pyRead s n) n t.entries := by
  rw [AttTable.Reads] at hr
  have hf : (toTable cv t).entries.find? (fun e => e.name = n) = _ := find_toFile cv n t.entries
  rw [hf] at hr
  rw [ReadsOne]
  rcases he : t.entries.find? (fun e => decide (e.1 = n)) with _ | e
  · rw [he] at hr
    simp only [Option.map_none] at hr
    simp only [he, pyRead, hr, Res.throw_bind]
  · rw [he] at hr
    simp only [Option.map_some] at hr
    simp only [he]
    obtain ⟨a, ha, hb⟩ := hr
    have hm := List.mem_of_find?_eq_some he
    have h1 : a.ty = kindOf e.2 := congrArg FileAtt.ty hb
    have h2 : a.value = cellsVal cv e.2 := congrArg FileAtt.value hb
    obtain ⟨w, hw, hs⟩ := pyValue_plain cv (eqInt := eqInt) (h e hm) h1 h2
    exact ⟨w, by rw [pyRead, ha, Res.ok_bind, hw], hs⟩

theorem find_nodup {l : List (String × PyVal ρ)} (hn : (l.map (·.1)).Nodup) {e : String × PyVal ρ} (he : e ∈ l) :
    l.find? (fun f => f.1 = e.1) = some e := by
  induction l with
  | nil => simp at he
  | cons f l ih =>
    simp only [List.map_cons, List.nodup_cons] at hn
    rw [List.find?_cons]
    rcases List.mem_cons.mp he with rfl | he'
    · simp
    · have : f.1 ≠ e.1 := fun hh => hn.1 (hh ▸ List.mem_map_of_mem he')
      simp only [this, decide_false]
      exact ih hn.2 he'

theorem readNames_table {eqInt : ρ → Int → Prop} {s : AttFile (Cell ρ)} {all : List (String × PyVal ρ)}
    (hn : (all.map (·.1)).Nodup) (hr : ∀ n, ReadsOne eqInt (pyRead s n) n all) :
    ∀ l : List (String × PyVal ρ), (∀ e ∈ l, e ∈ all) → ReadsAll eqInt (readAttNames s (l.map (·.1))) l
  | [], _ => ⟨[], rfl, .nil⟩
  | e :: l, h => by
    obtain ⟨r, h1, h2⟩ := readNames_table hn hr l fun f hf => h f (by simp [hf])
    have := hr e.1
    rw [ReadsOne, find_nodup hn (h e (by simp))] at this
    obtain ⟨w, hw, hs⟩ := this
    refine ⟨(e.1, w) :: r, ?_, .cons ⟨rfl, hs⟩ h2⟩
    rw [List.map_cons, readAttNames, hw, Res.ok_bind, h1, Res.ok_bind]

theorem pyReadAll_table {eqInt : ρ → Int → Prop} {s : AttFile (Cell ρ)} {t : PyTable ρ} (hn : t.names.Nodup)
    (hs : s.names = t.names) (hr : ∀ n, ReadsOne eqInt (pyRead s n) n t.entries) :
    ReadsAll eqInt (pyReadAll s) t.entries := by
  rw [pyReadAll, hs]
  exact readNames_table hn hr t.entries fun _ h => h

theorem auto_atts (cv : Conv ρ) (v : PyAuto) : v.vals.atts = (v.entries (ρ := ρ)).map (toFile cv) := rfl

end Verif
