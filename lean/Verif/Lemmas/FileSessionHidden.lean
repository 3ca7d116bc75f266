import Verif.Lemmas.FileSessionLocal
/-
The hidden variables with the entries of the local pixels: helper lemmas.
-/
namespace Verif.Props
open Verif Verif.Ccoord Verif.Layout Verif.Layout.FieldLayout Verif.RawMemory Verif.FileIO Verif.NetCDF
open Verif.Collection Verif.Collection.Coll

variable {α : Type}

section
variable {l : String} {hs : List HiddenPart} {dom : List Int}

theorem HiddenVar.shape_eq (hx : HiddenVar l hs dom) : ∀ p ∈ hs, hiddenForm hs = p.v.form := by
  intro p hp
  cases hc : hs with
  | nil => exact absurd hc hx.nonempty
  | cons p0 hs' =>
    rw [hiddenForm]
    have h0 : p0 ∈ hs := by rw [hc]; simp
    obtain ⟨g1, g1', r1⟩ := hx.registered p0 h0
    obtain ⟨g2, g2', r2⟩ := hx.registered p hp
    obtain ⟨hv1, hs1, hg1⟩ := Verif.NetCDF.registered (hx.field p0 h0) (fun _ => hx.sub p0 h0) r1
    obtain ⟨hv2, hs2, hg2⟩ := Verif.NetCDF.registered (hx.field p hp) (fun _ => hx.sub p hp) r2
    exact form_congr hv1 hs1 hg1 hv2 hs2 hg2
      ⟨(hx.ty p0 h0).trans (hx.ty p hp).symm, (hx.comps p0 h0).trans (hx.comps p hp).symm, (hx.sub p0 h0).trans (hx.sub p hp).symm,
        (hx.domain p0 h0).trans (hx.domain p hp).symm⟩

/-- The shape in the file is the same for all programs. -/
theorem HiddenVar.shape_unique (hx : HiddenVar l hs dom) {hs' : List HiddenPart} (hx' : HiddenVar l hs' dom) :
    hiddenForm hs = hiddenForm hs' := by
  obtain ⟨p, hp⟩ := List.exists_mem_of_ne_nil _ hx.nonempty
  obtain ⟨p', hp'⟩ := List.exists_mem_of_ne_nil _ hx'.nonempty
  rw [hx.shape_eq p hp, hx'.shape_eq p' hp']
  obtain ⟨g1, g1', r1⟩ := hx.registered p hp
  obtain ⟨g2, g2', r2⟩ := hx'.registered p' hp'
  obtain ⟨hv1, hs1, hg1⟩ := Verif.NetCDF.registered (hx.field p hp) (fun _ => hx.sub p hp) r1
  obtain ⟨hv2, hs2, hg2⟩ := Verif.NetCDF.registered (hx'.field p' hp') (fun _ => hx'.sub p' hp') r2
  exact form_congr hv1 hs1 hg1 hv2 hs2 hg2
    ⟨(hx.ty p hp).trans (hx'.ty p' hp').symm, (hx.comps p hp).trans (hx'.comps p' hp').symm, (hx.sub p hp).trans (hx'.sub p' hp').symm,
      (hx.domain p hp).trans (hx'.domain p' hp').symm⟩

/-- The only component and sub-point. -/
theorem HiddenVar.inField (hx : HiddenVar l hs dom) {p : HiddenPart} (hp : p ∈ hs) {cc : List Int} {s : Int}
    {g : List Int} : InField p.v.field cc s g ↔ cc = [0] ∧ s = 0 ∧ InBoxAt p.v.field.layout.pixShape p.v.field.loc g := by
  rw [InField, hx.comps p hp, hx.sub p hp]
  constructor
  · rintro ⟨h1, h2, h3, h4⟩
    refine ⟨?_, by omega, h4⟩
    rcases cc with _ | ⟨a, _ | ⟨b, cc⟩⟩ <;> simp [InBox] at h1
    rw [show a = 0 by omega]
  · rintro ⟨rfl, rfl, h4⟩
    exact ⟨by simp [InBox], by omega, by omega, h4⟩

/-- The place in memory of the entry of a pixel. -/
theorem HiddenVar.memPos_eq (hx : HiddenVar l hs dom) {p : HiddenPart} (hp : p ∈ hs) :
    ∃ st, p.v.field.layout.strides .subPt 1 = .ok st ∧ ∀ q : Nat, q < p.size →
      memPos p.v.field st [0] 0 (p.coord q) = q := by
  refine ⟨_, strides_col _ (hx.order p hp), ?_⟩
  intro q hq
  have := (hx.place p hp q hq).2
  rw [memPos, hx.comps p hp, hx.sub p hp]
  simp only [accStrides, List.prod_cons, List.prod_nil, mul_one, List.map_cons, List.map_nil, List.map_id',
    List.cons_append, List.nil_append, dot, this]
  omega

/-- The memory with the entries. -/
theorem HiddenVar.holds (hx : HiddenVar l hs dom) {p : HiddenPart} (hp : p ∈ hs) {marks : List Int}
    (hl : marks.length = p.size) : ∃ w, Holds p.v.field (entryBuf marks) w := by
  obtain ⟨st, h1, h2⟩ := hx.memPos_eq hp
  refine ⟨fun cc s g => marks.getD (memPos p.v.field st cc s g).toNat 0, st, h1, ?_⟩
  intro cc s g hin
  obtain ⟨rfl, rfl, hg⟩ := (hx.inField hp).1 hin
  obtain ⟨q, hq, rfl⟩ := hx.pixel p hp g hg
  rw [h2 q hq, entryBuf, if_pos (by omega)]
  have : q < marks.length := by omega
  simp [h2 q hq, this]

theorem HiddenVar.holds_entries (hx : HiddenVar l hs dom) {p : HiddenPart} (hp : p ∈ hs) (M : List Int → Int) :
    Holds p.v.field (entryBuf (p.entries M)) fun _ _ g => M g := by
  obtain ⟨st, h1, h2⟩ := hx.memPos_eq hp
  refine ⟨st, h1, ?_⟩
  intro cc s g hin
  obtain ⟨rfl, rfl, hg⟩ := (hx.inField hp).1 hin
  obtain ⟨q, hq, rfl⟩ := hx.pixel p hp g hg
  rw [h2 q hq, entryBuf, if_pos (by omega)]
  simp [HiddenPart.entries, hq]

theorem HiddenVar.entriesOf_eq (hx : HiddenVar l hs dom) {p : HiddenPart} (hp : p ∈ hs) {M : List Int → Int}
    {b : Mem Int} (hb : Holds p.v.field b fun _ _ g => M g) : entriesOf p.size b = .ok (p.entries M) := by
  obtain ⟨st, h1, h2⟩ := hx.memPos_eq hp
  obtain ⟨st', h1', h3⟩ := hb
  rw [h1] at h1'
  cases h1'
  unfold entriesOf HiddenPart.entries
  refine mapRes_map ?_
  intro q hq
  rw [List.mem_range] at hq
  have := h3 [0] 0 (p.coord q) ((hx.inField hp).2 ⟨rfl, rfl, (hx.place p hp q hq).1⟩)
  rw [h2 q hq] at this
  rw [this]

theorem checkArgs_fixed {lim lim' : Option Int} {shape : List (Option Int)} (h : ∀ n ∈ shape, n ≠ none)
    (start count stride : List Int) : checkArgs lim shape start count stride = checkArgs lim' shape start count stride := by
  induction shape generalizing start count stride with
  | nil =>
    match start, count, stride with
    | [], [], [] => rfl
    | _ :: _, _, _ => simp [checkArgs]
    | [], _ :: _, _ => simp [checkArgs]
    | [], [], _ :: _ => simp [checkArgs]
  | cons n shape ih =>
    match start, count, stride with
    | [], _, _ => simp [checkArgs]
    | _ :: _, [], _ => simp [checkArgs]
    | _ :: _, _ :: _, [] => simp [checkArgs]
    | s :: start, c :: count, m :: stride =>
      obtain ⟨k, rfl⟩ := Option.ne_none_iff_exists'.1 (h n (by simp))
      simp only [checkArgs, ih fun n hn => h n (by simp [hn])]

/-- A hidden variable has no records: the number of records does not matter when it is read. -/
theorem readGlobal_fixed {v : Var} {fv : FileVar α} (h : ∀ n ∈ fv.shape, n ≠ none) (nb frame : Int) (k : Nat)
    (numrecs numrecs' : Int) (buf : Mem α) :
    v.readGlobal nb frame k numrecs fv buf = v.readGlobal nb frame k numrecs' fv buf := by
  simp only [Var.readGlobal, getVarm, checkArgs_fixed h (lim := some numrecs) (lim' := some numrecs')]

theorem HiddenVar.shape_fixed (hx : HiddenVar l hs dom) : ∀ n ∈ (hiddenForm hs).1, n ≠ none := by
  cases hc : hs with
  | nil => simp [hiddenForm]
  | cons p hs' =>
    have hp : p ∈ hs := by rw [hc]; simp
    obtain ⟨g1, g1', r1⟩ := hx.registered p hp
    obtain ⟨hv1, hs1, hg1⟩ := Verif.NetCDF.registered (hx.field p hp) (fun _ => hx.sub p hp) r1
    rw [hiddenForm, show (p.v.form).1 = fileShape p.v.dims from rfl, fileShape_eq hv1 hs1 hg1]
    intro n hn
    simp only [leadShape, if_true, List.nil_append, List.mem_append, List.mem_map] at hn
    rcases hn with ⟨_, _, rfl⟩ | ⟨_, _, rfl⟩ | ⟨_, _, rfl⟩ <;> simp

theorem HiddenVar.filePos_eq (hx : HiddenVar l hs dom) {p : HiddenPart} (hp : p ∈ hs) (fr : Int) (s : Int) (g : List Int) :
    filePos p.v.field (leadPos true fr 0 none) [0] s g = 0 :: g := by
  simp [filePos, leadPos, nbComp_eq, hx.comps p hp]

/-- The hidden variable is written. -/
theorem HiddenVar.putEntries (hx : HiddenVar l hs dom) {s : Sess} {file : NcFile α} {frame fr : Int} {M : List Int → Int}
    (hmode : s.mode ≠ .read) (hh : s.hidden l = some (hs.map HiddenPart.v)) {fv : FileVar Int}
    (hf : file.hidden l = some fv) (hsh : fv.form = hiddenForm hs)
    (hm : s.marks l = hs.map fun p : HiddenPart => p.entries M)
    (hfr : varFrame s.nbFrames frame = .ok fr) :
    ∃ fv', s.putEntries l frame file = .ok { file with hidden := setAt file.hidden l (some fv') } ∧
      fv'.form = hiddenForm hs ∧ EntriesStored dom M fv' := by
  let rk : HiddenPart → Rank Int := fun p => ⟨p.v, p.v.field, entryBuf (p.entries M), fun _ _ g => M g⟩
  obtain ⟨fv', e1, e2, e3, -⟩ := C36_values (vname := l) (hidden := true) (hist := none) (hs.map rk)
    (by
      intro r hr
      obtain ⟨p, hp, rfl⟩ := List.mem_map.1 hr
      exact ⟨hx.field p hp, fun _ => hx.sub p hp, hx.registered p hp, hx.holds_entries hp M⟩)
    (by
      intro r hr r' hr'
      obtain ⟨p, hp, rfl⟩ := List.mem_map.1 hr
      obtain ⟨p', hp', rfl⟩ := List.mem_map.1 hr'
      exact ⟨(hx.ty p hp).trans (hx.ty p' hp').symm, (hx.comps p hp).trans (hx.comps p' hp').symm, (hx.sub p hp).trans (hx.sub p' hp').symm,
        (hx.domain p hp).trans (hx.domain p' hp').symm⟩)
    (by rw [List.pairwise_map]; exact hx.disjoint) hfr (k := 0) rfl (fv := fv)
    (by
      intro r hr
      obtain ⟨p, hp, rfl⟩ := List.mem_map.1 hr
      exact hsh.trans (hx.shape_eq p hp))
  refine ⟨fv', ?_, e2.trans hsh, ?_⟩
  · have hz : List.zipWith (fun v m => (v, entryBuf m)) (hs.map HiddenPart.v) (hs.map fun p : HiddenPart => p.entries M) =
        (hs.map rk).map fun r => (r.v, r.buf) := by
      simp [List.zipWith_map, List.zipWith_self, rk]
    simp only [Sess.putEntries, hh, hf, if_neg hmode, hm]
    rw [hz, e1]
    rfl
  · intro g hg
    obtain ⟨p, hp, hpg⟩ := hx.cover g hg
    have := e3 (rk p) (List.mem_map_of_mem hp) [0] 0 g ((hx.inField hp).2 ⟨rfl, rfl, hpg⟩)
    rw [show (rk p).f = p.v.field from rfl, hx.filePos_eq hp] at this
    exact this

theorem putEntries_throw {l : String} {s : Sess} {file : NcFile α} {frame : Int} {vs : List Var} (hne : vs ≠ [])
    (hh : s.hidden l = some vs) (hlen : (s.marks l).length = vs.length)
    (hfr : varFrame s.nbFrames frame = .throw .fileIOError) : s.putEntries l frame file = .throw .fileIOError := by
  unfold Sess.putEntries
  rw [hh]
  cases hfl : file.hidden l with
  | none => rfl
  | some fv =>
    dsimp only
    split
    · rfl
    · cases hv : vs with
      | nil => exact absurd hv hne
      | cons v vs =>
        cases hm : s.marks l with
        | nil => rw [hm, hv] at hlen; simp at hlen
        | cons m ms =>
          have : v.writeGlobal s.nbFrames frame 0 (entryBuf m) fv = .throw .fileIOError := by
            refine varFrame_throw hfr _ fun f hf => ?_
            rw [Var.startGlobal, if_pos hf, Res.throw_bind]
          simp only [List.zipWith_cons_cons, Var.writeAll, this, Res.throw_bind]

/-- The hidden variable is read. -/
theorem HiddenVar.getEntries (hx : HiddenVar l hs dom) {s : Sess} {file : NcFile α} {frame fr : Int} {M : List Int → Int}
    (hh : s.hidden l = some (hs.map HiddenPart.v)) {fv : FileVar Int}
    (hf : file.hidden l = some fv) (hsh : fv.form = hiddenForm hs) (hst : EntriesStored dom M fv)
    (hm : (s.marks l).map List.length = hs.map HiddenPart.size) (hfr : varFrame s.nbFrames frame = .ok fr) :
    s.getEntries l frame file = .ok { s with marks := setAt s.marks l (hs.map fun p : HiddenPart => p.entries M) } := by
  have key : ∀ (ps : List HiddenPart) (ms : List (List Int)), (∀ p ∈ ps, p ∈ hs) →
      ms.map List.length = ps.map HiddenPart.size →
      mapRes (fun vm : Var × List Int => do
        let b ← vm.1.readGlobal s.nbFrames frame 0 file.numrecs fv (entryBuf vm.2)
        entriesOf vm.2.length b) ((ps.map HiddenPart.v).zip ms) = .ok (ps.map fun p : HiddenPart => p.entries M) := by
    intro ps
    induction ps with
    | nil => intro ms _ _; rfl
    | cons p ps ih =>
      intro ms hin hlen
      match ms, hlen with
      | m :: ms, hlen =>
        simp only [List.map_cons, List.cons.injEq] at hlen
        have hp := hin p (by simp)
        obtain ⟨w, hw⟩ := hx.holds hp hlen.1
        obtain ⟨grid, grid', hreg⟩ := hx.registered p hp
        obtain ⟨b', e1, ⟨st, e2, e3⟩, -⟩ := C35_read (hx.field p hp) (fun _ => hx.sub p hp) hreg hfr (k := 0) rfl
          (numrecs := fr + 1) (by omega) hw (hsh.trans (hx.shape_eq p hp))
        have hb : Holds p.v.field b' fun _ _ g => M g := by
          refine ⟨st, e2, ?_⟩
          intro cc s g hin'
          rw [e3 cc s g hin']
          obtain ⟨rfl, rfl, hg⟩ := (hx.inField hp).1 hin'
          dsimp only
          rw [hx.filePos_eq hp, hst g (hx.domain p hp ▸ inBoxAt_of_within (hx.field p hp).inside hg)]
        have e1' : p.v.readGlobal s.nbFrames frame 0 file.numrecs fv (entryBuf m) = .ok b' := by
          rw [readGlobal_fixed (by rw [show fv.shape = fv.form.1 from rfl, hsh]; exact hx.shape_fixed) _ _ _ _ (fr + 1), e1]
        simp only [List.map_cons, List.zip_cons_cons, mapRes, e1', Res.ok_bind, hlen.1, hx.entriesOf_eq hp hb]
        rw [← hlen.1] at *
        rw [ih ms (fun p hp => hin p (by simp [hp])) hlen.2]
        rfl
  simp only [Sess.getEntries, hh, hf, key hs (s.marks l) (fun p hp => hp) hm, Res.ok_bind]
  rfl

theorem getEntries_throw {l : String} {s : Sess} {file : NcFile α} {frame : Int} {vs : List Var} (hne : vs ≠ [])
    (hh : s.hidden l = some vs) (hlen : (s.marks l).length = vs.length)
    (hfr : varFrame s.nbFrames frame = .throw .fileIOError) : s.getEntries l frame file = .throw .fileIOError := by
  unfold Sess.getEntries
  rw [hh]
  cases hfl : file.hidden l with
  | none => rfl
  | some fv =>
    dsimp only
    cases hv : vs with
    | nil => exact absurd hv hne
    | cons v vs =>
      cases hm : s.marks l with
      | nil => rw [hm, hv] at hlen; simp at hlen
      | cons m ms =>
        have : v.readGlobal s.nbFrames frame 0 file.numrecs fv (entryBuf m) = .throw .fileIOError := by
          refine varFrame_throw hfr _ fun f hf => ?_
          rw [Var.startGlobal, if_pos hf, Res.throw_bind]
        simp only [List.zip_cons_cons, mapRes, this, Res.throw_bind]

end

end Verif.Props
