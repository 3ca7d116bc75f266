import Verif.Lemmas.PyAtts
import Verif.Props.FileAtts
/-
Properties of global attributes in python: C81.
-/
namespace Verif.Props
open Verif Verif.NetCDF Verif.NetCDFAtt Verif.Reduce Verif.PyAtts

variable {ρ : Type}

/-- A new file: what its attributes are expected to be. -/
def newTable (v : PyAuto) : PyTable ρ := ⟨true, true, false, false, false, v.entries⟩

theorem plain_str (cv : Conv ρ) (eqInt : ρ → Int → Prop) (s : String) : PlainVal cv eqInt (.str s) := trivial

theorem auto_plain (cv : Conv ρ) (eqInt : ρ → Int → Prop) (v : PyAuto) :
    AllVals (PlainVal cv eqInt) (v.entries (ρ := ρ)) := by
  intro e he
  simp only [PyAuto.entries, List.mem_cons, List.not_mem_nil, or_false] at he
  rcases he with rfl | rfl | rfl | rfl | rfl | rfl | rfl | rfl <;> trivial

theorem rel_reads (cv : Conv ρ) {eqInt : ρ → Int → Prop} {t : PyTable ρ} {s : AttFile (Cell ρ)}
    (h : AttRel (toTable cv t) s) (hp : AllVals (PlainVal cv eqInt) t.entries) :
    (∀ n, ReadsOne eqInt (pyRead s n) n t.entries) ∧ ReadsAll eqInt (pyReadAll s) t.entries := by
  have h1 : ∀ n, ReadsOne eqInt (pyRead s n) n t.entries := fun n => pyRead_table cv hp n (reads_rel h n)
  have h2 : t.names.Nodup := by
    have := h.ok.nodup
    rw [← toTable_names cv t]
    exact this
  exact ⟨h1, pyReadAll_table h2 ((names_eq h).trans (toTable_names cv t)) h1⟩

theorem table_length (t : PyTable ρ) (hn : t.isNew = false) (op : PyAttOp ρ) :
    (t.step op).2.entries.length = t.entries.length ∧ (t.step op).2.isNew = false := by
  cases op with
  | register => exact ⟨rfl, hn⟩
  | data => rw [PyTable.step]; split <;> exact ⟨rfl, hn⟩
  | write n v => rw [PyTable.step, if_neg (by simp [hn])]; exact ⟨rfl, hn⟩
  | update o n v =>
    rw [PyTable.step]
    split
    · split
      · exact ⟨List.length_map _, hn⟩
      · exact ⟨rfl, hn⟩
    · exact ⟨rfl, hn⟩

theorem table_length_all : ∀ (ops : List (PyAttOp ρ)) (t : PyTable ρ), t.isNew = false →
    (t.run ops).2.entries.length = t.entries.length ∧ (t.run ops).2.isNew = false
  | [], _, h => ⟨rfl, h⟩
  | op :: ops, t, h => by
    obtain ⟨h1, h2⟩ := table_length t h op
    obtain ⟨h3, h4⟩ := table_length_all ops _ h2
    exact ⟨h3.trans h1, h4⟩

theorem table_length_update (t : PyTable ρ) (o n : String) (v : PyVal ρ) :
    (t.step (.update o n v)).2.entries.length = t.entries.length := by
  rw [PyTable.step]
  split
  · split
    · exact List.length_map _
    · rfl
  · rfl

theorem table_length_closed (t : PyTable ρ) (date time : String) :
    (t.closed date time).2.length = t.entries.length := by
  rw [PyTable.closed]
  split
  · dsimp only
    rw [table_length_update, table_length_update]
  · rfl

/-- Any number of uses of a file with at most 30 attributes that were written by python programs. -/
theorem C81_uses_partial [DecidableEq ρ] (cv : Conv ρ) (eqInt : ρ → Int → Prop) :
    ∀ (us : List (PyUse ρ)) (d : List (String × PyVal ρ)), AllVals (PlainVal cv eqInt) d → AttsOk (d.map (toFile cv)) →
      d.length ≤ 30 → PyUsesOk (PlainVal cv eqInt) d us → UsesShow cv eqInt (d.map (toFile cv)) d us
  | [], _, _, _, _, _ => trivial
  | u :: us, d, hp, hok, hl, ⟨hm, hpl, hnc, hord, hrest⟩ => by
    obtain ⟨s, h1, h2, h3, h4⟩ := open_rel hm hok (by rw [List.length_map]; exact hl)
    have h4' : AttRel (toTable cv (u.table d)) s := h4
    obtain ⟨k1, k2, -⟩ := run_rel (seen := false) (u.ops.map (toOp cv)) h4'
      (by
        intro o ho
        obtain ⟨op, hop, rfl⟩ := List.mem_map.mp ho
        exact toOp_typed cv (hpl op hop))
      (toTable_noClash cv _ _ hnc)
      (fun _ => ⟨toOp_orderly cv _ _ hord, fun h => by rw [h3] at h; cases h⟩)
    rw [← pyRun_plain cv u.ops s hpl, toTable_run] at k1 k2
    have hp' : AllVals (PlainVal cv eqInt) ((u.table d).run u.ops).2.entries :=
      allVals_run (P := PlainVal cv eqInt) u.ops (by exact hp) hpl
    obtain ⟨r1, r2⟩ := rel_reads cv k2 hp'
    obtain ⟨c1, c2⟩ := close_rel k2 (text u.date) (text u.time)
    rw [toTable_closed] at c1 c2
    refine ⟨s, h1, (rel_reads cv (t := u.table d) h4' hp).2, k1, r2, r1, c1, fun hc => ?_⟩
    obtain ⟨c3, c4⟩ := c2 hc
    rw [c3]
    refine C81_uses_partial cv eqInt us _ (allVals_closed (plain_str cv eqInt) hp' _ _) c4 ?_ hrest
    rw [table_length_closed, (table_length_all u.ops (u.table d) rfl).1]
    exact hl

/-- A python program that creates a file, writes and updates attributes with plain values, closes the file, and uses it
again any number of times: each call succeeds or fails as expected, what is read is at any time the expected dictionary, and
it is the same one after the file has been closed and opened again. -/
theorem C81_program_partial [DecidableEq ρ] (cv : Conv ρ) (eqInt : ρ → Int → Prop) (mode : OpenMode)
    (hm : mode = .write ∨ mode = .overwrite) (v : PyAuto) (ops : List (PyAttOp ρ))
    (hpl : ∀ op ∈ ops, Passes (PlainVal cv eqInt) op) (hnc : (newTable v).NoClash ops) (date time : String)
    (us : List (PyUse ρ)) :
    let r := pyRun cv (AttFile.create mode v.vals) ops
    let t := (newTable v).run ops
    List.Forall₂ Meets r.1 t.1 ∧ ReadsAll eqInt (pyReadAll r.2) t.2.entries ∧
      (∀ n, ReadsOne eqInt (pyRead r.2 n) n t.2.entries) ∧
      Meets (r.2.close (text date) (text time)).1 (t.2.closed date time).1 ∧
      ((t.2.closed date time).1 = true → t.2.entries.length ≤ 30 →
        PyUsesOk (PlainVal cv eqInt) (t.2.closed date time).2 us →
        UsesShow cv eqInt (r.2.close (text date) (text time)).2.file (t.2.closed date time).2 us) := by
  have hc : creating mode = true := by rcases hm with rfl | rfl <;> rfl
  have h0 : AttRel (toTable cv (newTable v)) (AttFile.create mode v.vals) := create_rel mode hc v.vals
  obtain ⟨k1, k2, -⟩ := run_rel (seen := false) (ops.map (toOp cv)) h0
    (by
      intro o ho
      obtain ⟨op, hop, rfl⟩ := List.mem_map.mp ho
      exact toOp_typed cv (hpl op hop))
    (toTable_noClash cv _ _ hnc) (fun h => by cases h)
  rw [← pyRun_plain cv ops _ hpl, toTable_run] at k1 k2
  have hp' : AllVals (PlainVal cv eqInt) ((newTable v).run ops).2.entries :=
    allVals_run (P := PlainVal cv eqInt) ops (by exact auto_plain cv eqInt v) hpl
  obtain ⟨r1, r2⟩ := rel_reads cv k2 hp'
  obtain ⟨c1, c2⟩ := close_rel k2 (text date) (text time)
  rw [toTable_closed] at c1 c2
  refine ⟨k1, r2, r1, c1, fun hcl hlen hus => ?_⟩
  obtain ⟨c3, c4⟩ := c2 hcl
  rw [c3]
  refine C81_uses_partial cv eqInt us _ (allVals_closed (plain_str cv eqInt) hp' _ _) c4 ?_ hus
  rw [table_length_closed]
  exact hlen

/-! ### Single values -/

/-- The full statement: a value that is accepted is read back as an equal one. -/
def C81_statement : Prop :=
  ∀ (ρ : Type) (cv : Conv ρ) (eqInt : ρ → Int → Prop), (∀ v x, cv.ofInt v = some x → eqInt x v) →
    ∀ (s s' : AttFile (Cell ρ)) (name : String) (v : PyVal ρ), name ∉ s.names → pyWrite cv s name v = (.ok (), s') →
      ∃ w, pyRead s' name = .ok w ∧ SameVal eqInt v w

/-- A value that was accepted is read back as the python object for the chosen type and the converted elements. -/
theorem C81_write_read (cv : Conv ρ) {s s' : AttFile (Cell ρ)} {name : String} {v : PyVal ρ} (hn : name ∉ s.names)
    (h : pyWrite cv s name v = (.ok (), s')) :
    ∃ t cs, pickAtt cv v = some (t, cs) ∧ pyRead s' name = pyValue (.ofValue name t cs) := by
  rw [pyWrite] at h
  rcases hp : pickAtt cv v with _ | ⟨t, cs⟩
  · rw [hp] at h; cases h
  · rw [hp] at h
    refine ⟨t, cs, rfl, ?_⟩
    have h' : s.writeAtt name t cs = (.ok (), s') := h
    rw [AttFile.writeAtt] at h'
    split at h'
    · cases h'
    · split at h'
      · cases h'
      · have hs := (Prod.mk.inj h').2
        rw [pyRead, ← hs, AttFile.readAtt]
        simp only [List.find?_append]
        have : s.atts.find? (fun g => decide (g.att.name = name)) = none := by
          rw [List.find?_eq_none]
          intro g hg
          simp only [decide_eq_true_eq]
          rintro rfl
          exact hn (List.mem_map_of_mem hg)
        simp [this, Att.ofValue, Res.ok_bind]

/-- Texts, lists of `int` of 64 bits, and lists of `float` and of `int` that are exactly a `double`. -/
theorem C81_value_partial (cv : Conv ρ) (eqInt : ρ → Int → Prop) {s s' : AttFile (Cell ρ)} {name : String} {v : PyVal ρ}
    (hv : PlainVal cv eqInt v) (hn : name ∉ s.names) (h : pyWrite cv s name v = (.ok (), s')) :
    ∃ w, pyRead s' name = .ok w ∧ SameVal eqInt v w := by
  obtain ⟨t, cs, h1, h2⟩ := C81_write_read cv hn h
  rw [pickAtt_plain cv hv] at h1
  obtain ⟨rfl, rfl⟩ := Prod.mk.inj (Option.some.inj h1)
  rw [h2]
  exact pyValue_plain cv hv rfl rfl

/-- The type in the file: text, the first integer type that holds all numbers, or `double`. -/
theorem C81_kind (cv : Conv ρ) (eqInt : ρ → Int → Prop) {s s' : AttFile (Cell ρ)} {name : String} {v : PyVal ρ}
    (hv : PlainVal cv eqInt v) (hn : name ∉ s.names) (h : pyWrite cv s name v = (.ok (), s')) :
    ∃ a, s'.readAtt name = .ok a ∧ a.ty = kindOf v ∧ a.nelems = sizeOfVal v := by
  rw [pyWrite, pickAtt_plain cv hv] at h
  have h' : s.writeAtt name (kindOf v) (cellsVal cv v) = (.ok (), s') := h
  rw [AttFile.writeAtt] at h'
  split at h'
  · cases h'
  · split at h'
    · cases h'
    · refine ⟨.ofValue name (kindOf v) (cellsVal cv v), ?_, rfl, cellsVal_length cv v⟩
      rw [← (Prod.mk.inj h').2, AttFile.readAtt]
      simp only [List.find?_append]
      have : s.atts.find? (fun g => decide (g.att.name = name)) = none := by
        rw [List.find?_eq_none]
        intro g hg
        simp only [decide_eq_true_eq]
        rintro rfl
        exact hn (List.mem_map_of_mem hg)
      simp [this, Att.ofValue]

/-- The first pass of the dispatcher takes nothing if some number is neither an `int` nor a `float`. -/
theorem first_other (cv : Conv ρ) {xs : List (PyNum ρ)} (h : ∃ y, PyNum.other y ∈ xs) :
    firstAtt cv false (.seq xs) attTys = none := by
  obtain ⟨y, hy⟩ := h
  have h1 : ∀ t, t = Ty.i32 ∨ t = .u32 ∨ t = .i64 ∨ t = .f64 → loadSeq cv false t xs = none := by
    intro t ht
    refine loadSeq_none cv false t xs ⟨_, hy, ?_⟩
    rcases ht with rfl | rfl | rfl | rfl <;> rfl
  simp [attTys, firstAtt, loadAtt, loadVec, loadStr, h1]

/-- A list of numbers that are neither `int` nor `float`, like the elements of an array of `np.float32`, is stored as the
list of the integers that are left when the fractions are cut off, without an error. -/
theorem C81_truncates (cv : Conv ρ) {s s' : AttFile (Cell ρ)} {name : String} {ys : List ρ} (trunc : ρ → Int)
    (hne : ys ≠ []) (ht : ∀ y ∈ ys, cv.trunc y = some (trunc y) ∧ -2^31 ≤ trunc y ∧ trunc y ≤ 2^31 - 1)
    (hn : name ∉ s.names) (h : pyWrite cv s name (.seq (ys.map .other)) = (.ok (), s')) :
    pyRead s' name = .ok (.seq (ys.map fun y => .int (trunc y))) := by
  obtain ⟨t, cs, h1, h2⟩ := C81_write_read cv hn h
  obtain ⟨y0, hy0⟩ := List.exists_mem_of_ne_nil ys hne
  have h3 : loadSeq cv true .i32 (ys.map .other) = some ((ys.map trunc).map .int) := by
    clear h h2 hn hne hy0 h1
    induction ys with
    | nil => rfl
    | cons y ys ih =>
      obtain ⟨a, b, c⟩ := ht y (by simp)
      have hf : Ty.i32.fits (trunc y) := by
        rw [Ty.fits, i32_lim.1, i32_lim.2]; exact ⟨b, c⟩
      rw [List.map_cons, loadSeq, ih fun z hz => ht z (by simp [hz])]
      simp [load, loadInt, a, hf, cellOf]
  rw [pickAtt, first_other cv ⟨y0, List.mem_map_of_mem hy0⟩] at h1
  have h4 : firstAtt cv true (.seq (ys.map .other)) attTys = some (.int, (ys.map trunc).map .int) := by
    simp [attTys, firstAtt, loadAtt, loadVec, loadStr, h3]
  simp only [h4] at h1
  obtain ⟨rfl, rfl⟩ := Prod.mk.inj (Option.some.inj h1)
  rw [h2, pyValue]
  simp only [Att.ofValue]
  rw [intsOf_map, Res.ok_bind, List.map_map]
  rfl

/-- A list with an `int` beyond 64 bits is stored as a list of `double`, as python rounds them. -/
theorem C81_huge (cv : Conv ρ) {s s' : AttFile (Cell ρ)} {name : String} {l : List Int} (round : Int → ρ)
    (hbig : ∃ v ∈ l, v < -2^63 ∨ 2^63 ≤ v) (hr : ∀ v ∈ l, cv.ofInt v = some (round v))
    (hn : name ∉ s.names) (h : pyWrite cv s name (.seq (l.map .int)) = (.ok (), s')) :
    pyRead s' name = .ok (.seq (l.map fun v => .float (round v))) := by
  obtain ⟨t, cs, h1, h2⟩ := C81_write_read cv hn h
  have hp : PlainVal cv (fun _ _ => True) (.seq (l.map .int)) := by
    refine .inr fun x hx => ?_
    obtain ⟨v, hv, rfl⟩ := List.mem_map.mp hx
    exact ⟨_, hr v hv, trivial⟩
  have h64 : ¬ ∀ x ∈ l.map (PyNum.int (ρ := ρ)), IsInt (-2^63) (2^63 - 1) x := by
    intro hh
    obtain ⟨v, hv, hb⟩ := hbig
    have := hh (.int v) (List.mem_map_of_mem hv)
    obtain ⟨a, b⟩ := this
    omega
  have h32 : ¬ ∀ x ∈ l.map (PyNum.int (ρ := ρ)), IsInt (-2^31) (2^31 - 1) x := fun hh =>
    h64 fun x hm => isInt_mono (by decide) (by decide) (hh x hm)
  have hu : ¬ ∀ x ∈ l.map (PyNum.int (ρ := ρ)), IsInt 0 (2^32 - 1) x := fun hh =>
    h64 fun x hm => isInt_mono (by decide) (by decide) (hh x hm)
  rw [pickAtt_plain cv hp, kindOf, if_neg h32, if_neg hu, if_neg h64, cellsVal, cellsSeq, if_neg h64] at h1
  obtain ⟨rfl, rfl⟩ := Prod.mk.inj (Option.some.inj h1)
  rw [h2, pyValue]
  simp only [Att.ofValue, List.map_map]
  have : l.map ((fun x => Cell.real (realPart cv x)) ∘ PyNum.int) = (l.map round).map .real := by
    rw [List.map_map]
    refine List.map_congr_left fun v hv => ?_
    simp [realPart, hr v hv]
  rw [this, realsOf_map, Res.ok_bind, List.map_map]
  rfl

/-- `bytes` are stored as they are, and are read as the `str` they encode; if they encode none, neither this attribute
nor the dictionary of all attributes can be read. -/
theorem C81_bytes (cv : Conv ρ) {s s' : AttFile (Cell ρ)} {name : String} {b : List UInt8}
    (hn : name ∉ s.names) (h : pyWrite cv s name (.bytes b) = (.ok (), s')) :
    (∀ str : String, str.toByteArray = ⟨b.toArray⟩ → pyRead s' name = .ok (.str str)) ∧
    ((∀ str : String, str.toByteArray ≠ ⟨b.toArray⟩) → pyRead s' name = .throw .valueError ∧
      ∀ d, pyReadAll s' ≠ .ok d) := by
  obtain ⟨t, cs, h1, h2⟩ := C81_write_read cv hn h
  have hp : pickAtt cv (.bytes b) = some (.char, b.map .byte) := rfl
  rw [hp] at h1
  obtain ⟨rfl, rfl⟩ := Prod.mk.inj (Option.some.inj h1)
  have h3 : pyRead s' name = strOf b := by
    rw [h2, pyValue]
    simp only [Att.ofValue]
    rw [bytesOf_map, Res.ok_bind]
  constructor
  · intro str hs
    rw [h3, ← strOf_utf8 (ρ := ρ) str, utf8, hs]
  · intro hno
    have h4 : pyRead s' name = .throw .valueError := by
      rw [h3, strOf]
      have : String.fromUTF8? ⟨b.toArray⟩ = none := by
        rw [String.fromUTF8?]
        split
        · rename_i hv
          exact absurd rfl (hno (String.fromUTF8 ⟨b.toArray⟩ hv))
        · rfl
      rw [this]
    refine ⟨h4, ?_⟩
    have hmem : name ∈ s'.names := by
      rw [pyWrite, hp] at h
      have h' : s.writeAtt name .char (b.map .byte) = (.ok (), s') := h
      rw [AttFile.writeAtt] at h'
      split at h'
      · cases h'
      · split at h'
        · cases h'
        · rw [← (Prod.mk.inj h').2]
          simp [AttFile.names, Att.ofValue]
    have key : ∀ ns : List String, name ∈ ns → ∀ d, readAttNames s' ns ≠ .ok d := by
      intro ns
      induction ns with
      | nil => intro hm; simp at hm
      | cons n ns ih =>
        intro hm d hd
        rw [readAttNames, Res.bind_eq_ok] at hd
        obtain ⟨v, hv, hd⟩ := hd
        rw [Res.bind_eq_ok] at hd
        obtain ⟨r, hr, -⟩ := hd
        rcases List.mem_cons.mp hm with rfl | hm
        · rw [h4] at hv; cases hv
        · exact ih hm r hr
    exact key _ hmem

/-- Other objects, and sequences with a complex number, are rejected, and nothing is changed. -/
theorem C81_rejects (cv : Conv ρ) (s : AttFile (Cell ρ)) (name old : String) {v : PyVal ρ}
    (h : v = .obj ∨ ∃ xs x y, v = .seq xs ∧ PyNum.complex x y ∈ xs) :
    pyWrite cv s name v = (.throw .valueError, s) ∧ pyUpdate cv s old name v = (.throw .valueError, s) := by
  have hp : pickAtt cv v = none := by
    rcases h with rfl | ⟨xs, x, y, rfl, hm⟩
    · rfl
    · have h1 : ∀ b t, t = Ty.i32 ∨ t = .u32 ∨ t = .i64 ∨ t = .f64 → loadSeq cv b t xs = none := by
        intro b t ht
        refine loadSeq_none cv b t xs ⟨_, hm, ?_⟩
        rcases ht with rfl | rfl | rfl | rfl <;> rfl
      simp [pickAtt, attTys, firstAtt, loadAtt, loadVec, loadStr, h1]
  rw [pyWrite, pyUpdate, hp]
  exact ⟨rfl, rfl⟩

/-- The numbers of the examples: halves, written as the number of halves. -/
def halves : Conv Int := ⟨0, fun v => some (2 * v), fun x => some (x.tdiv 2)⟩

/-- A number of halves that is an integer. -/
def halfInt (x v : Int) : Prop := x = 2 * v

instance (x v : Int) : Decidable (halfInt x v) := inferInstanceAs (Decidable (x = 2 * v))

/-- The texts of the examples. -/
def exAuto : PyAuto := ⟨"2026-11-16", "12:00:00", "v0", "abc", "muGrid", "no"⟩

/-- Counterexample: `[np.float32(1.5)]` is accepted and read back as `[1]`. -/
theorem C81_false : ¬ C81_statement := by
  intro h
  obtain ⟨w, h1, h2⟩ := h Int halves halfInt (by intro v x hx; exact (Option.some.inj hx).symm)
    (AttFile.create .write exAuto.vals) _ "spacing" (.seq [.other 3]) (by decide +kernel) rfl
  have h3 := C81_truncates halves (s := AttFile.create .write exAuto.vals) (name := "spacing") (ys := [3])
    (fun x => x.tdiv 2) (by simp) (by decide) (by decide +kernel) rfl
  rw [show pyRead _ "spacing" = _ from h3] at h1
  have h4 := Res.ok.inj h1
  rw [← h4] at h2
  cases h2 with
  | cons a _ => exact absurd (show halfInt 3 (Int.tdiv 3 2) from a) (by decide)

/-- An attribute written as `[1.5]` cannot be updated to `[2]`, nor one written as `[5]` to `[3000000000]`: the type of the
new value is another one.  `[2.0]` and `[6]` are possible. -/
theorem C81_update_types :
    let r := pyRun halves (AttFile.create .write exAuto.vals)
      [.write "dx" (.seq [.float 3]), .write "n" (.seq [.int 5]), .register, .data,
        .update "dx" "dx" (.seq [.int 2]), .update "n" "n" (.seq [.int 3000000000]),
        .update "dx" "dx" (.seq [.float 4]), .update "n" "n" (.seq [.int 6])]
    r.1 = [.ok (), .ok (), .ok (), .ok (), .throw .fileIOError, .throw .fileIOError, .ok (), .ok ()] ∧
      pyRead r.2 "dx" = .ok (.seq [.float 4]) ∧ pyRead r.2 "n" = .ok (.seq [.int 6]) := by decide +kernel

/-! ### Examples -/

instance (P : PyVal ρ → Prop) [DecidablePred P] (op : PyAttOp ρ) : Decidable (Passes P op) := by
  cases op <;> unfold Passes <;> infer_instance

/-- A program: texts with characters beyond ASCII, lists of all kinds, a value that is replaced and a call that fails. -/
def exPyAtts : List (PyAttOp Int) :=
  [.write "author" (.str "Käthe"), .write "n" (.seq [.int 5, .int (-7)]), .write "big" (.seq [.int 4000000000]),
    .write "id" (.seq [.int (-1), .int 1099511627776]), .write "dx" (.seq [.int 1, .float 3]), .write "n" (.seq []),
    .register, .data, .update "n" "m" (.seq [.int 8])]

theorem exPyAtts_plain : ∀ op ∈ exPyAtts, Passes (PlainVal halves halfInt) op := by
  have h1 : ∀ v : Int, ∃ x, halves.ofInt v = some x ∧ halfInt x v := fun v => ⟨2 * v, rfl, rfl⟩
  have h2 : ∀ v : Int, -2^63 ≤ v → v ≤ 2^63 - 1 → IsInt (-2^63) (2^63 - 1) (PyNum.int (ρ := Int) v) := fun _ a b => ⟨a, b⟩
  intro op hop
  simp only [exPyAtts, List.mem_cons, List.not_mem_nil, or_false] at hop
  rcases hop with rfl | rfl | rfl | rfl | rfl | rfl | rfl | rfl | rfl
  · trivial
  · exact .inl (by decide)
  · exact .inl (by decide)
  · exact .inl (by decide)
  · refine .inr fun x hx => ?_
    simp only [List.mem_cons, List.not_mem_nil, or_false] at hx
    rcases hx with rfl | rfl
    · exact h1 1
    · trivial
  · exact .inl (by decide)
  · trivial
  · trivial
  · exact .inl (by decide)

instance decPyNoClash : ∀ (ops : List (PyAttOp ρ)) (t : PyTable ρ), Decidable (t.NoClash ops)
  | [], _ => isTrue trivial
  | op :: ops, t => by
    have := decPyNoClash ops (t.step op).2
    unfold PyTable.NoClash
    cases op <;> infer_instance

example : (newTable (ρ := Int) exAuto).NoClash exPyAtts := by decide +kernel

example : ((newTable (ρ := Int) exAuto).run exPyAtts).1 = [true, true, true, true, true, false, true, true, true] := by
  decide +kernel

example : pyReadAll (pyRun halves (AttFile.create .write exAuto.vals) exPyAtts).2 =
    .ok (exAuto.entries ++ [("author", .str "Käthe"), ("m", .seq [.int 8]), ("big", .seq [.int 4000000000]),
      ("id", .seq [.int (-1), .int 1099511627776]), ("dx", .seq [.float 2, .float 3])]) := by decide +kernel

/-- Uses of this file: one that only reads, and one that appends data and replaces a text. -/
def exPyUses : List (PyUse Int) :=
  [⟨.read, [.register, .update "m" "m" (.seq [.int 1])], "2026-11-17", "08:00:00"⟩,
    ⟨.append, [.register, .data, .update "author" "author" (.str "Kai")], "2026-11-18", "09:00:00"⟩]

example : let t := ((newTable (ρ := Int) exAuto).run exPyAtts).2
    (t.closed "2026-11-16" "13:00:00").1 = true ∧ t.entries.length ≤ 30 ∧
      PyUsesOk (PlainVal halves halfInt) (t.closed "2026-11-16" "13:00:00").2 exPyUses := by
  refine ⟨by decide +kernel, by decide +kernel, .inl rfl, ?_, by decide +kernel, ⟨rfl, trivial⟩, .inr rfl, ?_,
    by decide +kernel, ⟨rfl, trivial⟩, trivial⟩
  · intro op hop
    simp only [List.mem_cons, List.not_mem_nil, or_false] at hop
    rcases hop with rfl | rfl
    · trivial
    · exact .inl (by decide)
  · intro op hop
    simp only [List.mem_cons, List.not_mem_nil, or_false] at hop
    rcases hop with rfl | rfl | rfl <;> trivial

/-- What the second use leaves. -/
example : let t := ((newTable (ρ := Int) exAuto).run exPyAtts).2
    let d := (t.closed "2026-11-16" "13:00:00").2
    ((((exPyUses[1].table d).run exPyUses[1].ops).2.closed "2026-11-18" "09:00:00").2.map (·.2)).drop 8 =
      [.str "Kai", .seq [.int 8], .seq [.int 4000000000], .seq [.int (-1), .int 1099511627776],
        .seq [.int 1, .float 3]] := by decide +kernel

/-- `bytes` that are no text, and numbers beyond 64 bits. -/
example : pyRead (pyWrite halves (AttFile.create .write exAuto.vals) "raw" (.bytes [255])).2 "raw" = .throw .valueError ∧
    pyRead (pyWrite halves (AttFile.create .write exAuto.vals) "raw" (.bytes [75, 195, 164])).2 "raw" = .ok (.str "Kä") ∧
    pyRead (pyWrite halves (AttFile.create .write exAuto.vals) "huge" (.seq [.int (2^64)])).2 "huge" =
      .ok (.seq [.float (2^65)]) ∧
    (pyWrite halves (AttFile.create .write exAuto.vals) "z" (.seq [.complex 1 1])).1 = .throw .valueError := by
  decide +kernel

end Verif.Props
