import Verif.Lemmas.MapLife
/-
Property C70: a field map shows the data of its field from the initialisation of the collection until the
map is destroyed, whether it was made before or after the initialisation, moved, or statically sized.
-/
set_option linter.unusedSectionVars false

namespace Verif.Props
open Verif Verif.Ccoord Verif.Layout Verif.Collection Verif.Collection.Coll

variable {α U : Type} [Inhabited α] [DecidableEq U]

/-- Collections with maps that programs can get to, as long as they follow the rules for valid maps
(`Maps.Careful`): the field of a live map is not popped, its tag is not changed by `reshape`, and after the
initialisation its buffer is not enlarged; iterates are asked for with a positive number of rows. -/
inductive Lives (srt : SortFn) : Maps α U → Prop
  | start {c : Coll α U} : Built srt c → Lives srt (Maps.start c)
  | step {s : Maps α U} (op : Maps.Op α U) : Lives srt s → Maps.Careful s op →
      (s.step srt op).1 ≠ .ub → Lives srt (s.step srt op).2

theorem Lives.good {srt : SortFn} {s : Maps α U} (h : Lives srt s) : s.Good := by
  induction h with
  | start hb =>
    refine ⟨hb.size, ?_, ?_⟩ <;> intro h o hl <;> simp [Maps.live, Maps.start] at hl
  | step op _ hc hub ih => exact ih.step hc hub

/-- The entries of a list seen `k` at a time. -/
def IsPiece (l : List α) (k i : Nat) (v : List α) : Prop :=
  v.length = k ∧ ∀ j, j < k → v[j]? = l[i * k + j]?

theorem chunk_isPiece {l : List α} {k i : Nat} (h : (i + 1) * k ≤ l.length) : IsPiece l k i (chunk l k i) := by
  refine ⟨chunk_length h, fun j hj => ?_⟩
  simp only [chunk]
  rw [List.getElem?_take_of_lt hj, List.getElem?_drop]

/-- **C70** Once the collection is initialised, a live map gives access to exactly the buffer of its
field: iterate `i` consists of the entries `i*k, …, i*k+k-1`, and reading behind the buffer is
undefined. -/
theorem C70_shows {srt : SortFn} {s : Maps α U} (hs : Lives srt s) {h : Nat} {o : MapObj}
    (hl : s.live h = some o) (hi : s.coll.initialised = true) :
    ∃ f, s.coll.fields.find o.map.name = some f ∧
      (∀ i, (i + 1) * perIter f o.map.iter ≤ f.vals.length →
        ∃ v, s.get h i = .ok v ∧ IsPiece f.vals (perIter f o.map.iter) i v) ∧
      (∀ i, f.vals.length < (i + 1) * perIter f o.map.iter → s.get h i = .ub) := by
  obtain ⟨f, hm⟩ := hs.good.maps h o hl
  obtain ⟨hon, hg⟩ := hm.on hs.good hi
  refine ⟨f, hm.find, fun i hle => ⟨_, ?_, chunk_isPiece hle⟩, fun i hlt => ?_⟩
  · simp only [Maps.get, hl, hg, if_true]
    exact FieldMap.access_ok hon hle
  · simp only [Maps.get, hl, hg, if_true]
    exact FieldMap.access_ub hon hlt

/-- **C70** Loops over live maps, dynamic or static, visit the whole buffer up to the padding, piece by
piece (for pixels without gaps and a field whose entry count is up to date, as in C22). -/
theorem C70_iterates {srt : SortFn} {s : Maps α U} (hs : Lives srt s) {h : Nat} {o : MapObj}
    (hl : s.live h = some o) (hi : s.coll.initialised = true) {f : Field α U}
    (hf : s.coll.fields.find o.map.name = some f) (hd : s.coll.nbBuf = s.coll.nbPixels)
    (hcur : f.cur = f.nbSub * s.coll.nbBuf) (hsz : f.vals.length < 18446744073709551616) :
    ∃ pieces, s.iterate h = .ok pieces ∧ s.iterateStatic h = .ok pieces ∧
      pieces.length = nbIter s.coll f o.map.iter ∧
      (∀ i v, pieces[i]? = some v → IsPiece f.vals (perIter f o.map.iter) i v) ∧
      pieces.flatten ++ f.vals.drop (f.vals.length - f.pad) = f.vals := by
  obtain ⟨f', hm⟩ := hs.good.maps h o hl
  have : f' = f := by rw [hm.find] at hf; exact Option.some.inj hf
  subst this
  obtain ⟨hon, hg⟩ := hm.on hs.good hi
  obtain ⟨h1, h2⟩ := size_of_map hs.good.size hi hf hd hcur hsz rfl rfl (m := o.map)
  have hle : ∀ i, i < nbIter s.coll f' o.map.iter →
      (i + 1) * perIter f' o.map.iter ≤ f'.vals.length := by
    intro i hlt
    have := Nat.mul_le_mul_right (perIter f' o.map.iter) (show i + 1 ≤ nbIter s.coll f' o.map.iter from hlt)
    omega
  have hloop := FieldMap.loop_ok (c := s.coll) (m := o.map) (g := chunk f'.vals (perIter f' o.map.iter))
    (stop := nbIter s.coll f' o.map.iter) (nbIter s.coll f' o.map.iter) 0 (by omega)
    (fun j _ hj => FieldMap.access_ok hon (hle j hj))
  rw [← List.range_eq_range'] at hloop
  refine ⟨(List.range (nbIter s.coll f' o.map.iter)).map (chunk f'.vals (perIter f' o.map.iter)), ?_, ?_,
    by simp, ?_, ?_⟩
  · simp only [Maps.iterate, hl, hon.ready, hg, not_true_eq_false, if_false, if_true]
    exact FieldMap.iterate_ok hon h1 (by omega)
  · simp only [Maps.iterateStatic, hl, hm.find, hm.obj, h1]
    rw [if_neg (by simp)]
    generalize hn : nbIter s.coll f' o.map.iter = n at *
    cases n with
    | zero => simp
    | succ n => simp only [hg, if_true]; exact hloop
  · intro i v hv
    rw [List.getElem?_map] at hv
    obtain ⟨j, hj, rfl⟩ := Option.map_eq_some_iff.1 hv
    obtain ⟨hlt, rfl⟩ := List.getElem?_eq_some_iff.1 hj
    simp only [List.length_range] at hlt
    simp only [List.getElem_range]
    exact chunk_isPiece (hle i hlt)
  · rw [chunks_flatten, show f'.vals.length - f'.pad =
      nbIter s.coll f' o.map.iter * perIter f' o.map.iter by omega]
    exact List.take_append_drop _ _

/-- **C70** A map stays the same map: calls on the collection, other maps and moves leave its field,
the shape of its iterates and their order as they were, until it is destroyed. -/
theorem C70_same {srt : SortFn} {s : Maps α U} (hs : Lives srt s) {op : Maps.Op α U}
    (hc : Maps.Careful s op) (hub : (s.step srt op).1 ≠ .ub) {h : Nat} {o : MapObj}
    (hl : s.live h = some o) (hd : op ≠ .drop h) :
    ∃ o', (s.step srt op).2.live h = some o' ∧ o'.map.name = o.map.name ∧ o'.map.iter = o.map.iter ∧
      o'.map.rows = o.map.rows ∧ o'.map.cols = o.map.cols ∧ o'.map.stride = o.map.stride := by
  have hne : h ≠ s.maps.length := by have := Maps.live_lt hl; omega
  have hadd : ∀ o', (s.add o').live h = some o := by
    intro o'; rw [Maps.live_add, if_neg hne]; exact hl
  cases op with
  | call op =>
    have h0 : (s.coll.step srt op).1 ≠ .ub := by
      intro h
      apply hub
      have hne : ¬ (¬ s.coll.initialised = true ∧ (s.coll.step srt op).2.initialised = true) := by
        rintro ⟨h1, h2⟩
        rw [Maps.step_becomes_init srt op (by simpa using h1) h2] at h; cases h
      simp only [Maps.step, Maps.call]
      rcases hr : s.coll.step srt op with ⟨r, c'⟩
      rw [hr] at h hne
      simp only at h hne ⊢
      rw [if_neg hne]; exact h
    obtain ⟨s', h1, _, _, h4⟩ := Maps.call_good hs.good hc.1 hc.2 h0
    simp only [Maps.step, h1]
    have := h4 h
    rw [hl] at this
    obtain ⟨o', ho', hfix⟩ := Option.map_eq_some_iff.1 this
    simp only [MapObj.fixed, Prod.mk.injEq, FieldMap.mk.injEq] at hfix
    exact ⟨o', ho', hfix.1.1, hfix.1.2.1, hfix.1.2.2.2.1, hfix.1.2.2.2.2.1, hfix.1.2.2.1⟩
  | make name it k =>
    refine ⟨o, ?_, rfl, rfl, rfl, rfl, rfl⟩
    simp only [Maps.step, Maps.make]
    split
    · exact hl
    · exact hl
    · split
      · split
        · exact hadd _
        · exact hl
        · exact hl
      · exact hadd _
  | move j =>
    refine ⟨o, ?_, rfl, rfl, rfl, rfl, rfl⟩
    simp only [Maps.step, Maps.move]
    split
    · exact hl
    · split
      · exact hl
      · exact hadd _
  | drop j =>
    refine ⟨o, ?_, rfl, rfl, rfl, rfl, rfl⟩
    have hj : h ≠ j := by rintro rfl; exact hd rfl
    simp only [Maps.step, Maps.drop]
    split
    · exact hl
    · rename_i o' ho'
      rw [Maps.live_set ho', if_neg hj]; exact hl
  | put j i v =>
    refine ⟨o, ?_, rfl, rfl, rfl, rfl, rfl⟩
    simp only [Maps.step]
    rcases Maps.put_cases hs.good j i v with ⟨_, h2⟩ | ⟨_, _, _, _, _, _, _, h2⟩ <;> rw [h2] <;> exact hl

/-- **C70** Before the initialisation nothing can be read or written through a map: loops over dynamic
maps throw; everything else is undefined. -/
theorem C70_before {srt : SortFn} {s : Maps α U} (hs : Lives srt s) {h : Nat} {o : MapObj}
    (hl : s.live h = some o) (hi : s.coll.initialised = false) :
    s.iterate h = .throw .fieldMapError ∧ (∀ i, s.get h i = .ub) ∧ ∀ i v, (s.put h i v).1 = .ub := by
  obtain ⟨f, hm⟩ := hs.good.maps h o hl
  refine ⟨?_, fun i => ?_, fun i v => ?_⟩
  · simp [Maps.iterate, hl, (hm.waits hi).1]
  · simp only [Maps.get, hl]
    split
    · unfold FieldMap.access
      simp [hm.find, (hm.waits hi).1]
    · rfl
  · rcases Maps.put_cases hs.good h i v with ⟨h1, _⟩ | ⟨_, _, _, _, h1, _⟩
    · exact h1
    · rw [hi] at h1; cases h1

/-- **C70** Waiting maps never make the initialisation fail: a call ends as it would without maps, and
leaves the same collection. -/
theorem C70_initialise {srt : SortFn} {s : Maps α U} (hs : Lives srt s) {op : Coll.Op α U}
    (hc : Maps.Careful s (.call op)) (hub : (s.coll.step srt op).1 ≠ .ub) :
    (s.step srt (.call op)).1 = (s.coll.step srt op).1 ∧
      (s.step srt (.call op)).2.coll = (s.coll.step srt op).2 := by
  obtain ⟨s', h1, h2, _, _⟩ := Maps.call_good hs.good hc.1 hc.2 hub
  simp only [Maps.step, h1]
  exact ⟨trivial, h2⟩

/-- **C70** Writing a matrix of the right size within the buffer through a map succeeds, replaces that
piece of the field's buffer, and changes nothing else. -/
theorem C70_put {srt : SortFn} {s : Maps α U} (hs : Lives srt s) {h : Nat} {o : MapObj}
    (hl : s.live h = some o) (hi : s.coll.initialised = true) {f : Field α U}
    (hf : s.coll.fields.find o.map.name = some f) {i : Nat} {v : List α}
    (hv : v.length = perIter f o.map.iter) (hle : (i + 1) * perIter f o.map.iter ≤ f.vals.length) :
    ∃ vals', s.put h i v = (.ok (), { s with coll := s.coll.withField o.map.name (f.withVals vals') }) ∧
      vals'.length = f.vals.length ∧
      ∀ p, vals'[p]? = if i * perIter f o.map.iter ≤ p ∧ p < (i + 1) * perIter f o.map.iter then
        v[p - i * perIter f o.map.iter]? else f.vals[p]? := by
  obtain ⟨f', hm⟩ := hs.good.maps h o hl
  have : f' = f := by rw [hm.find] at hf; exact Option.some.inj hf
  subst this
  obtain ⟨hon, hg⟩ := hm.on hs.good hi
  refine ⟨Maps.setChunk f'.vals (perIter f' o.map.iter) i v, ?_, Maps.setChunk_length hv hle, ?_⟩
  · unfold Maps.put
    simp only [hl]
    rw [if_pos ⟨hg, by rw [hon.shape, hv]⟩, Maps.modifyAt_ok hon hle]
  · intro p
    generalize perIter f' o.map.iter = k at *
    have e : (i + 1) * k = i * k + k := by ring
    rw [e] at hle ⊢
    simp only [Maps.setChunk, e]
    have hlen : (f'.vals.take (i * k)).length = i * k := by simp; omega
    by_cases h1 : p < i * k
    · rw [if_neg (by omega), List.append_assoc, List.getElem?_append_left (by omega),
        List.getElem?_take_of_lt h1]
    · by_cases h2 : p < i * k + k
      · rw [if_pos ⟨by omega, h2⟩, List.append_assoc, List.getElem?_append_right (by omega), hlen,
          List.getElem?_append_left (by omega)]
      · rw [if_neg (by omega), List.getElem?_append_right (by simp; omega)]
        simp only [List.length_append, hlen, hv, List.getElem?_drop]
        congr 1; omega

/-- **C70** Maps on one field agree: what is written through one of them is read through every other,
whenever and however they were made. -/
theorem C70_coherent {srt : SortFn} {s : Maps α U} (hs : Lives srt s) {h h' : Nat} {o o' : MapObj}
    (hl : s.live h = some o) (hl' : s.live h' = some o') (hname : o'.map.name = o.map.name)
    (hiter : o'.map.iter = o.map.iter) (hi : s.coll.initialised = true) {f : Field α U}
    (hf : s.coll.fields.find o.map.name = some f) {i : Nat} {v : List α}
    (hv : v.length = perIter f o.map.iter) (hle : (i + 1) * perIter f o.map.iter ≤ f.vals.length) :
    (s.put h i v).1 = .ok () ∧ (s.put h i v).2.get h' i = .ok v := by
  obtain ⟨vals', h1, h2, h3⟩ := C70_put hs hl hi hf hv hle
  have hs' : Lives srt (s.put h i v).2 :=
    Lives.step (.put h i v) hs trivial (by simp only [Maps.step, h1]; simp)
  rw [h1] at hs' ⊢
  refine ⟨rfl, ?_⟩
  obtain ⟨g, g1, g2, _⟩ := C70_shows hs' (h := h') (o := o') hl' hi
  simp only [hname, Coll.withField, SMap.find_insert_self, Option.some.injEq] at g1
  have hper : perIter g o'.map.iter = perIter f o.map.iter := by
    rw [← g1, hiter]
    cases o.map.iter <;> rfl
  obtain ⟨w, w1, w2, w3⟩ := g2 i (by rw [hper, ← g1]; simpa [h2] using hle)
  simp only at w1 ⊢
  rw [w1]
  congr 1
  rw [hper] at w2 w3
  apply List.ext_getElem?
  intro j
  by_cases hj : j < perIter f o.map.iter
  · have e : (i + 1) * perIter f o.map.iter = i * perIter f o.map.iter + perIter f o.map.iter := by ring
    rw [w3 j hj, ← g1]
    simp only
    rw [h3, if_pos ⟨by omega, by omega⟩, Nat.add_sub_cancel_left]
  · rw [List.getElem?_eq_none (by omega), List.getElem?_eq_none (by omega)]

/-- **C70** All maps on one field with the same kind of iterate show the same. -/
theorem C70_agree {srt : SortFn} {s : Maps α U} (hs : Lives srt s) {h h' : Nat} {o o' : MapObj}
    (hl : s.live h = some o) (hl' : s.live h' = some o') (hname : o'.map.name = o.map.name)
    (hiter : o'.map.iter = o.map.iter) (hi : s.coll.initialised = true) (i : Nat) :
    s.get h' i = s.get h i := by
  obtain ⟨f, hm⟩ := hs.good.maps h o hl
  obtain ⟨f', hm'⟩ := hs.good.maps h' o' hl'
  have : f' = f := by
    have := hm'.find
    rw [hname, hm.find] at this; exact (Option.some.inj this).symm
  subst this
  obtain ⟨hon, hg⟩ := hm.on hs.good hi
  obtain ⟨hon', hg'⟩ := hm'.on hs.good hi
  simp only [Maps.get, hl, hl', hg, hg', if_true]
  by_cases hle : (i + 1) * perIter f' o.map.iter ≤ f'.vals.length
  · rw [FieldMap.access_ok hon hle, FieldMap.access_ok hon' (by rw [hiter]; exact hle), hiter]
  · rw [FieldMap.access_ub hon (by omega), FieldMap.access_ub hon' (by rw [hiter]; omega)]

/-! ### an example -/

/-- Operations that are allowed whatever the state. -/
def SafeOp : Maps.Op α U → Prop
  | .call op => (∀ c, Adm c op) ∧ ∀ (c : Coll α U) name, Spares c name op
  | .make _ _ k => k.ok
  | _ => True

theorem lives_of_run {srt : SortFn} {ops : List (Maps.Op α U)} (hops : ∀ op ∈ ops, SafeOp op) :
    ∀ {s s' : Maps α U}, Lives srt s → s.run srt ops = some s' → Lives srt s' := by
  induction ops with
  | nil => intro s s' h hr; simp [Maps.run] at hr; subst hr; exact h
  | cons op ops ih =>
    intro s s' h hr
    unfold Maps.run at hr
    have hc : Maps.Careful s op := by
      have := hops op (by simp)
      cases op with
      | call op => exact ⟨this.1 _, fun _ _ _ => this.2 _ _⟩
      | make _ _ _ => exact this
      | move _ => trivial
      | drop _ => trivial
      | put _ _ _ => trivial
    have hstep := Lives.step (srt := srt) op h hc
    rcases hs : s.step srt op with ⟨r, s1⟩
    rw [hs] at hr hstep
    have ih' := fun h => ih (fun o ho => hops o (by simp [ho])) (s := s1) (s' := s') h
    cases r with
    | ok u => exact ih' (hstep (by simp)) hr
    | throw e => exact ih' (hstep (by simp)) hr
    | ub => simp at hr

/-- A local collection. -/
def exLifeColl : Coll Int String := (Coll.empty false 2 .colMajor [("pixel", 1), ("quad", 2)])

theorem exLifeColl_built : Built stableSort exLifeColl := by
  refine ⟨false, 2, .colMajor, [("quad", 2)], exLifeColl, by simp [SMap.Sorted], ?_, by decide +kernel, .start⟩
  intro tag n h
  simp only [SMap.find] at h
  split at h
  · cases h; exact Or.inr (by decide)
  · cases h

/-- A field with 2 components and 2 sub-points; a dynamic map, a static map and a map with one row per
pixel made before the pixels are known; the first is moved and destroyed; then the pixels 5 and 7 are added,
the collection is initialised, another map is made, and data are written through the static map. -/
def exLifeProgram : List (Maps.Op Int String) :=
  [.call (.register "u" .real (.num 2) "quad" "m" false),
   .make "u" .subPt .default, .make "u" .subPt (.static 2 1), .make "u" .pixel (.rows 1),
   .move 0, .drop 0,
   .call (.addPixel 5), .call (.addPixel 7), .call .initLocal,
   .make "u" .subPt (.rows 2), .put 1 2 [8, 9]]

def exLife : Maps Int String :=
  ((Maps.start exLifeColl).run stableSort exLifeProgram).getD (Maps.start exLifeColl)

theorem exLife_run : (Maps.start exLifeColl).run stableSort exLifeProgram = some exLife := by
  have h : ((Maps.start exLifeColl).run stableSort exLifeProgram).isSome = true := by decide +kernel
  obtain ⟨s, hs⟩ := Option.isSome_iff_exists.1 h
  unfold exLife
  rw [hs]; rfl

theorem exLife_lives : Lives stableSort exLife := by
  refine lives_of_run (ops := exLifeProgram) ?_ (.start exLifeColl_built) exLife_run
  intro op hop
  simp only [exLifeProgram, List.mem_cons, List.mem_nil_iff, or_false] at hop
  rcases hop with rfl | rfl | rfl | rfl | rfl | rfl | rfl | rfl | rfl | rfl | rfl <;>
    simp [SafeOp, Adm, Spares, Comps.toNb, MapKind.ok]

/-- Map 0 is gone, maps 1, 3 and 4 show the sub-points, map 2 the pixels. -/
example : exLife.coll.initialised = true ∧ exLife.live 0 = none ∧
    (exLife.live 4).isSome = true ∧
    (exLife.coll.fields.find "u").map (·.vals) = some [0, 0, 0, 0, 8, 9, 0, 0] ∧
    exLife.get 3 2 = .ok [8, 9] ∧ exLife.get 4 2 = .ok [8, 9] ∧ exLife.get 2 1 = .ok [8, 9, 0, 0] ∧
    exLife.get 3 4 = .ub ∧
    exLife.iterate 2 = .ok [[0, 0, 0, 0], [8, 9, 0, 0]] ∧
    exLife.iterateStatic 1 = .ok [[0, 0], [0, 0], [8, 9], [0, 0]] := by
  decide +kernel

/-- The hypotheses of `C70_iterates` and `C70_coherent` hold there. -/
example : exLife.coll.nbBuf = exLife.coll.nbPixels ∧
    (exLife.coll.fields.find "u").map (fun f => decide (f.cur = f.nbSub * exLife.coll.nbBuf ∧
      perIter f .subPt = 2 ∧ (3 + 1) * perIter f .subPt ≤ f.vals.length)) = some true ∧
    (exLife.live 1).map (fun o => (o.map.name, o.map.iter)) =
      (exLife.live 4).map (fun o => (o.map.name, o.map.iter)) := by
  decide +kernel

/-- Before the initialisation. -/
example : (((Maps.start exLifeColl).run stableSort (exLifeProgram.take 5)).map (fun s =>
    decide (s.coll.initialised = false ∧ (s.live 3).isSome = true ∧
      s.iterate 3 = .throw .fieldMapError))) = some true := by decide +kernel

/-! ### what the rules forbid, and static maps before the initialisation -/

/-- **C70, the rule on buffers is needed.**  `set_pad_size` on an initialised collection moves the buffer
without telling the maps (their pointer dangles), although maps made afterwards work. -/
theorem C70_stale_pad :
    ((exLife.run stableSort [.call (.setPadSize "u" 4), .make "u" .subPt .default]).map
      (fun s => (s.get 1 2, s.get 5 2))) = some (.ub, .ok [8, 9]) := by
  decide +kernel

/-- **C70, the rule on buffers is needed.**  Likewise `push_back`; and maps made afterwards do not work
either, because the field's own pointer is not refreshed. -/
theorem C70_stale_push :
    ((exLife.run stableSort [.call (.pushBack "u" true [1, 1]), .make "u" .subPt .default]).map
      (fun s => (s.get 1 2, s.get 5 2))) = some (.ub, .ub) := by
  decide +kernel

/-- **C70, the rule on removal is needed.**  When a field with a waiting map is popped, initialising the
collection is undefined (the callback uses a dangling reference), although the collection alone could be
initialised; destroying the map first makes it defined. -/
theorem C70_popped :
    let pre : List (Maps.Op Int String) := [.call (.register "u" .real (.num 2) "quad" "m" false),
      .make "u" .subPt .default, .call (.pop "u"), .call (.addPixel 5)]
    ((Maps.start exLifeColl).run stableSort pre).map (fun s =>
      ((s.step stableSort (.call .initLocal)).1, (s.coll.step stableSort .initLocal).1,
        ((s.drop 0).2.step stableSort (.call .initLocal)).1)) = some (.ub, .ok (), .ok ()) := by
  decide +kernel

/-- **C70, the rule on removal is needed.**  Registering another field of that name does not help: the map
still refers to the field that is gone. -/
theorem C70_popped_again :
    let pre : List (Maps.Op Int String) := [.call (.register "u" .real (.num 2) "quad" "m" false),
      .make "u" .subPt .default, .call (.pop "u"), .call (.register "u" .real (.num 2) "quad" "m" false),
      .call (.addPixel 5)]
    ((Maps.start exLifeColl).run stableSort pre).map (fun s =>
      ((s.step stableSort (.call .initLocal)).1, (s.coll.step stableSort .initLocal).1)) = some (.ub, .ok ()) := by
  decide +kernel

/-- **C70, the rule on tags is needed.**  After `reshape` with another tag, a pixel map still steps by the
old number of scalars, which is the same; but a sub-point map steps by the old number of components and
shows other pieces than a map made afterwards. -/
theorem C70_reshaped :
    ((exLife.run stableSort [.call (.reshapeTag "u" [4] "pixel"), .make "u" .subPt .default]).map
      (fun s => (s.get 1 1, s.get 5 1))) = some (.ok [0, 0], .ok [8, 9, 0, 0]) := by
  decide +kernel

/-- **C70** A loop over a static map that is not const does not notice that the collection is not
initialised: over sub-points of a field without entries it does nothing at all, where a dynamic map
throws. -/
theorem C70_static_before {srt : SortFn} {s : Maps α U} (hs : Lives srt s) {h : Nat} {o : MapObj}
    (hl : s.live h = some o) (hi : s.coll.initialised = false) (hit : o.map.iter = .subPt)
    {f : Field α U} (hf : s.coll.fields.find o.map.name = some f) (hcur : f.cur = 0) :
    s.iterateStatic h = .ok [] ∧ s.iterate h = .throw .fieldMapError := by
  refine ⟨?_, (C70_before hs hl hi).1⟩
  obtain ⟨f', hm⟩ := hs.good.maps h o hl
  have hsize : FieldMap.size s.coll o.map = .ok 0 := by
    unfold FieldMap.size
    simp only [hf, hit, hcur]
    split <;> simp [FieldMap.toSizeT]
  simp only [Maps.iterateStatic, hl, hf, hm.obj, hsize]
  simp

/-- An instance, and what happens for pixels: the loop runs through a null pointer. -/
example : (((Maps.start exLifeColl).run stableSort (exLifeProgram.take 4)).map (fun s =>
    (s.iterateStatic 1, s.iterateStatic 2))) = some (.ok [], .ub) := by decide +kernel

end Verif.Props
