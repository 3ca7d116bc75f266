import Verif.Spec.FileRanks
import Verif.Props.FileRegister
import Verif.Props.FileSession
import Verif.Props.FileEntries
import Mathlib.Data.List.Pairwise
/-
From the collections of the processes to the variables of the file object of the program.
-/
namespace Verif
open Verif.Ccoord Verif.Layout Verif.Layout.FieldLayout Verif.RawMemory Verif.NetCDF Verif.Props Verif.Communicator

theorem find_unique {β : Type} {p : β → Bool} {l : List β} {x : β} (hx : x ∈ l) (hp : p x = true)
    (hu : ∀ y ∈ l, p y = true → y = x) : l.find? p = some x := by
  cases h : l.find? p with
  | none => exact absurd hp (by simpa using List.find?_eq_none.1 h x hx)
  | some y => rw [hu y (List.mem_of_find?_eq_some h) (List.find?_some h)]

theorem eq_of_key {β κ : Type} {key : β → κ} {l : List β} (hnd : (l.map key).Nodup) {x y : β} (hx : x ∈ l) (hy : y ∈ l)
    (h : key x = key y) : x = y := List.inj_on_of_nodup_map hnd hx hy h

theorem inBox_of_within {dom nb loc g : List Int} (h : Within dom nb loc) (hg : InBoxAt nb loc g) : InBox dom g := by
  induction nb generalizing dom loc g with
  | nil =>
    cases dom <;> cases loc <;> cases g <;> first | trivial | exact h.elim | exact hg.elim
  | cons n nb ih =>
    cases dom with
    | nil => exact h.elim
    | cons N dom =>
      cases loc with
      | nil => exact h.elim
      | cons l loc =>
        cases g with
        | nil => exact hg.elim
        | cons c g =>
          obtain ⟨h1, h2, h3, h4⟩ := h
          obtain ⟨g1, g2, g3⟩ := hg
          exact ⟨by omega, by omega, ih h4 g3⟩

theorem prod_eq_zero_of_mem {l : List Int} (h : (0 : Int) ∈ l) : l.prod = 0 := by
  induction l with
  | nil => simp at h
  | cons a l ih =>
    rw [List.prod_cons]
    rcases List.mem_cons.1 h with e | h
    · rw [← e, zero_mul]
    · rw [ih h, mul_zero]

namespace FileRank

/-! ### The pixels of a part -/

theorem places {r : FileRank} (hin : Within r.dom.1 r.dom.2.1 r.dom.2.2) :
    (∀ q : Nat, q < r.size → r.Here (r.coord q) ∧
      dot (colMajorStrides r.dom.2.1) (relCoord (r.coord q) r.dom.2.2) = q) ∧
    ∀ g, r.Here g → ∃ q : Nat, q < r.size ∧ r.coord q = g := by
  have hl := hin.lengths
  have hnn : ∀ n ∈ r.dom.2.1, 0 ≤ n := by
    generalize r.dom.1 = a at hin
    generalize r.dom.2.1 = b at hin
    generalize r.dom.2.2 = c at hin
    clear hl
    induction b generalizing a c with
    | nil => simp
    | cons n b ih =>
      cases a with
      | nil => exact hin.elim
      | cons N a =>
        cases c with
        | nil => exact hin.elim
        | cons l c =>
          intro m hm
          rcases List.mem_cons.1 hm with rfl | hm
          · exact hin.1
          · exact ih _ _ hin.2.2.2 m hm
  by_cases hp : Pos r.dom.2.1
  · have hs : (r.size : Int) = nbPixels r.dom.2.1 := by
      have := prod_pos_of_pos hp
      rw [size, getSize_eq_prod, nbPixels_eq_prod]
      omega
    have hc : ∀ q : Nat, q < r.size → getCcoord r.dom.2.1 r.dom.2.2 q = .ok (r.coord q) := by
      intro q hq
      obtain ⟨c, e, -⟩ := (C01_col_major_round_trip r.dom.2.1 r.dom.2.2 hp (by omega)).1 q (by omega) (by omega)
      rw [coord, e]
    have := C62_places (f := pixelField "" r.dom) hp (by show r.dom.2.2.length = _; omega) rfl
      (accStrides_eq_colMajor 1 _).symm hs hc
    exact this
  · refine ⟨fun q hq => ?_, fun g hg => absurd (InBoxAt.pos hg) hp⟩
    exfalso
    have : r.dom.2.1.prod = 0 := by
      have : ∃ n ∈ r.dom.2.1, n = 0 := by
        by_contra hne
        exact hp fun n hn => lt_of_le_of_ne (hnn n hn) fun e => hne ⟨n, hn, e.symm⟩
      obtain ⟨n, hn, rfl⟩ := this
      exact prod_eq_zero_of_mem hn
    rw [size, getSize_eq_prod, this] at hq
    simp at hq

theorem coord_inj {r : FileRank} (hin : Within r.dom.1 r.dom.2.1 r.dom.2.2) {q q' : Nat} (hq : q < r.size) (hq' : q' < r.size)
    (h : r.coord q = r.coord q') : q = q' := by
  have h1 := ((places hin).1 q hq).2
  have h2 := ((places hin).1 q' hq').2
  rw [h] at h1
  omega

end FileRank

/-! ### Collections -/

section
variable {dom : List Int × List Int × List Int} {cs : List IoColl}

theorem CollsOk.entries_nodup {r : FileRank} (h : CollsOk dom r.colls) : (r.entries.map fun e => e.2.1).Nodup := by
  have hn := h.names
  rw [FileRank.entries]
  clear h
  generalize r.colls = cs at hn
  induction cs with
  | nil => simp
  | cons c cs ih =>
    rw [List.flatMap_cons, List.nodup_append] at hn
    rw [List.flatMap_cons, List.map_append, List.nodup_append]
    have h1 := hn.1
    rw [fileNames_eq, List.nodup_append] at h1
    refine ⟨by rw [List.map_map]; exact h1.2.1, ih hn.2.1, ?_⟩
    intro a ha b hb
    refine hn.2.2 a ?_ b ?_
    · rw [List.map_map] at ha
      exact List.mem_append_right _ ha
    · obtain ⟨e, he, rfl⟩ := List.mem_map.1 hb
      obtain ⟨c', hc', he⟩ := List.mem_flatMap.1 he
      obtain ⟨x, hx, rfl⟩ := List.mem_map.1 he
      exact List.mem_flatMap.2 ⟨c', hc', List.mem_append_right _ (List.mem_map.2 ⟨x, hx, rfl⟩)⟩

theorem CollsOk.name_unique (h : CollsOk dom cs) {c c' : IoColl} (hc : c ∈ cs) (hc' : c' ∈ cs) {n : String}
    (hn : n ∈ c.fileNames) (hn' : n ∈ c'.fileNames) : c = c' := by
  have hnd := h.names
  clear h
  induction cs with
  | nil => simp at hc
  | cons a cs ih =>
    rw [List.flatMap_cons, List.nodup_append] at hnd
    rcases List.mem_cons.1 hc with e | hm
    · rcases List.mem_cons.1 hc' with e' | hm'
      · exact e.trans e'.symm
      · exact absurd rfl (hnd.2.2 n (e ▸ hn) n (List.mem_flatMap.2 ⟨_, hm', hn'⟩))
    · rcases List.mem_cons.1 hc' with e' | hm'
      · exact absurd rfl (hnd.2.2 n (e' ▸ hn') n (List.mem_flatMap.2 ⟨_, hm, hn⟩))
      · exact ih hm hm' hnd.2.1

theorem CollsOk.localColl {r : FileRank} (h : CollsOk dom r.colls) {c : IoColl} (hc : c ∈ r.colls) {ids : List Int}
    {total off : Int} (hd : c.domain = .isLocal ids total off) : r.localColl c.name = some (ids, total, off) := by
  have hcn : c.name ∈ c.fileNames := by rw [IoColl.fileNames, hd]; simp
  rw [FileRank.localColl]
  have key : ∀ l : List IoColl, (∀ x ∈ l, x ∈ r.colls) → c ∈ l →
      (l.findSome? fun c' => match c'.domain with
        | .isLocal ids total off => if c'.name = c.name then some (ids, total, off) else none
        | .global .. => none) = some (ids, total, off) := by
    intro l hl hcl
    induction l with
    | nil => simp at hcl
    | cons a l ih =>
      rw [List.findSome?_cons]
      by_cases hac : a = c
      · rw [hac, hd]; simp
      · have : (match a.domain with
            | .isLocal ids total off => if a.name = c.name then some (ids, total, off) else none
            | .global .. => none) = none := by
          cases had : a.domain with
          | global nb sh loc => rfl
          | isLocal ids' total' off' =>
            dsimp only
            rw [if_neg]
            intro e
            have han : c.name ∈ a.fileNames := by rw [IoColl.fileNames, had, ← e]; simp
            exact hac (h.name_unique (hl a (by simp)) hc han hcn)
        rw [this]
        exact ih (fun x hx => hl x (by simp [hx])) (by
          rcases List.mem_cons.1 hcl with e | e
          · exact absurd e.symm hac
          · exact e)
  exact key _ (fun _ hx => hx) hc

theorem FileRank.localColl_mem {r : FileRank} {l : String} {ids : List Int} {total off : Int}
    (h : r.localColl l = some (ids, total, off)) : ∃ c ∈ r.colls, c.name = l ∧ c.domain = .isLocal ids total off := by
  obtain ⟨c, hc, h⟩ := List.exists_of_findSome?_eq_some h
  refine ⟨c, hc, ?_⟩
  cases hd : c.domain with
  | global nb sh loc => rw [hd] at h; simp at h
  | isLocal ids' total' off' =>
    rw [hd] at h
    dsimp only at h
    split at h
    · next e => cases h; exact ⟨e, rfl⟩
    · cases h

end

/-- The variable for something stored. -/
def entryVar (e : Option (String × Int) × String × IoField × Option Nat) : Var :=
  match e.1 with
  | none => globalVar e.2.1 e.2.2.1 false e.2.2.2
  | some (l, total) => localVar e.2.1 e.2.2.1 e.2.2.2 total l

theorem entryVar_name (e) : (entryVar e).name = e.2.1 := by
  unfold entryVar; split <;> rfl

theorem entryVar_field (e) : (entryVar e).field = e.2.2.1 := by
  unfold entryVar; split <;> rfl

theorem entryVar_hist (e) : (entryVar e).hist = e.2.2.2 := by
  unfold entryVar; split <;> rfl

theorem collVars_visible (dom : List Int × List Int × List Int) (cs : List IoColl) :
    ((cs.flatMap (collVars dom)).filter fun v => !v.hidden) =
      (cs.flatMap fun c => c.toStore.map fun x => (c.kind, x)).map entryVar := by
  induction cs with
  | nil => rfl
  | cons c cs ih =>
    rw [List.flatMap_cons, List.filter_append, ih, List.flatMap_cons, List.map_append]
    congr 1
    unfold collVars IoColl.kind
    cases c.domain with
    | global nb sh loc =>
      dsimp only
      rw [List.filter_eq_self.2 (by
        intro v hv
        obtain ⟨x, -, rfl⟩ := List.mem_map.1 hv
        rfl), List.map_map]
      rfl
    | isLocal ids total off =>
      dsimp only
      rw [List.filter_cons_of_neg (by simp [globalVar]), List.filter_eq_self.2 (by
        intro v hv
        obtain ⟨x, -, rfl⟩ := List.mem_map.1 hv
        rfl), List.map_map]
      rfl

/-- The file object of one process after registration. -/
structure RegOf (mode : OpenMode) (r : FileRank) (s : Reg) : Prop where
  vars : s.vars = (r.colls.flatMap (collVars r.dom)).map (·, true)
  gfc : s.gfc = r.colls.flatMap (collMarks mode r.dom)

theorem RegOf.visible {mode : OpenMode} {r : FileRank} {s : Reg} (h : RegOf mode r s) : s.visible = r.entries.map entryVar := by
  rw [Reg.visible, h.vars, List.map_map]
  have : (Prod.fst ∘ fun x : Var => (x, true)) = id := rfl
  rw [this, List.map_id, collVars_visible]
  rfl

theorem RegOf.find {mode : OpenMode} {r : FileRank} {s : Reg} (h : RegOf mode r s) (hc : CollsOk r.dom r.colls)
    {e} (he : e ∈ r.entries) : (s.visible.find? fun w => w.name = e.2.1) = some (entryVar e) := by
  rw [h.visible]
  refine find_unique (List.mem_map_of_mem he) (by simp [entryVar_name]) fun y hy hp => ?_
  obtain ⟨e', he', rfl⟩ := List.mem_map.1 hy
  rw [decide_eq_true_eq, entryVar_name] at hp
  rw [eq_of_key hc.entries_nodup he' he hp]

theorem RegOf.hiddenVar {mode : OpenMode} {r : FileRank} {s : Reg} (h : RegOf mode r s) (hc : CollsOk r.dom r.colls)
    {l : String} {x} (hl : r.localColl l = some x) :
    s.hiddenVar l = some (globalVar l (pixelField l r.dom) true none) := by
  obtain ⟨ids, total, off⟩ := x
  obtain ⟨c, hcm, rfl, hd⟩ := FileRank.localColl_mem hl
  have hv : s.vars.map Prod.fst = r.colls.flatMap (collVars r.dom) := by
    rw [h.vars]; simp [Function.comp_def]
  have hnd : ((r.colls.flatMap (collVars r.dom)).map Var.name).Nodup := by
    rw [all_names]; exact hc.names
  rw [Reg.hiddenVar, hv]
  have hx : globalVar c.name (pixelField c.name r.dom) true none ∈ r.colls.flatMap (collVars r.dom) :=
    List.mem_flatMap.2 ⟨c, hcm, by rw [collVars, hd]; simp⟩
  refine find_unique hx (by simp [globalVar]) fun y hy hp => ?_
  simp only [Bool.and_eq_true, beq_iff_eq] at hp
  exact eq_of_key hnd hy hx hp.2

theorem RegOf.hiddenVar_none {mode : OpenMode} {r : FileRank} {s : Reg} (h : RegOf mode r s)
    {l : String} (hl : r.localColl l = none) : s.hiddenVar l = none := by
  have hv : s.vars.map Prod.fst = r.colls.flatMap (collVars r.dom) := by
    rw [h.vars]; simp [Function.comp_def]
  rw [Reg.hiddenVar, hv, List.find?_eq_none]
  intro v hvm hp
  simp only [Bool.and_eq_true, beq_iff_eq] at hp
  obtain ⟨c, hc, hvc⟩ := List.mem_flatMap.1 hvm
  have := List.findSome?_eq_none_iff.1 hl c hc
  cases hd : c.domain with
  | global nb sh loc =>
    rw [collVars, hd] at hvc
    obtain ⟨x, -, rfl⟩ := List.mem_map.1 hvc
    simp [globalVar] at hp
  | isLocal ids total off =>
    rw [hd] at this
    rw [collVars, hd] at hvc
    rcases List.mem_cons.1 hvc with rfl | hvc
    · simp [globalVar] at hp
      simp [hp] at this
    · obtain ⟨x, -, rfl⟩ := List.mem_map.1 hvc
      simp [localVar] at hp

theorem RegOf.marks {mode : OpenMode} {r : FileRank} {s : Reg} (h : RegOf mode r s) (hc : CollsOk r.dom r.colls)
    {l : String} {ids total off} (hl : r.localColl l = some (ids, total, off)) :
    ((s.gfc.find? fun e => e.1 = l).map Prod.snd).getD [] = pixelMarks mode r.dom ids off := by
  obtain ⟨c, hcm, rfl, hd⟩ := FileRank.localColl_mem hl
  rw [h.gfc]
  have : (r.colls.flatMap (collMarks mode r.dom)).find? (fun e => e.1 = c.name) =
      some (c.name, pixelMarks mode r.dom ids off) := by
    refine find_unique (List.mem_flatMap.2 ⟨c, hcm, by rw [collMarks, hd]; simp⟩) (by simp) fun y hy hp => ?_
    rw [decide_eq_true_eq] at hp
    obtain ⟨c', hc', hyc⟩ := List.mem_flatMap.1 hy
    cases hd' : c'.domain with
    | global nb sh loc => rw [collMarks, hd'] at hyc; simp at hyc
    | isLocal ids' total' off' =>
      rw [collMarks, hd', List.mem_singleton] at hyc
      rw [hyc] at hp
      have e : c' = c := hc.name_unique hc' hcm (n := c.name)
        (by rw [IoColl.fileNames, hd', ← show c'.name = c.name from hp]; simp) (by rw [IoColl.fileNames, hd]; simp)
      subst e
      rw [hd] at hd'
      cases hd'
      exact hyc
  rw [this]
  rfl

/-! ### The same collections -/

theorem sig_coll {cs cs' : List IoColl} (h : cs.map IoColl.sig = cs'.map IoColl.sig) {c : IoColl} (hc : c ∈ cs) :
    ∃ c' ∈ cs', c'.sig = c.sig := by
  have : c.sig ∈ cs'.map IoColl.sig := h ▸ List.mem_map_of_mem hc
  exact List.mem_map.1 this

theorem sig_stored {c c' : IoColl} (h : c'.sig = c.sig) {x} (hx : x ∈ c.toStore) :
    ∃ x' ∈ c'.toStore, x'.1 = x.1 ∧ x'.2.2 = x.2.2 ∧ x'.2.1.tag = x.2.1.tag ∧
      x'.2.1.layout.comps = x.2.1.layout.comps ∧ x'.2.1.layout.nbSub = x.2.1.layout.nbSub ∧ x'.2.1.ty = x.2.1.ty := by
  have h2 := congrArg Prod.snd h
  have : (x.1, x.2.2, x.2.1.tag, x.2.1.layout.comps, x.2.1.layout.nbSub, x.2.1.ty) ∈ c'.sig.2 := by
    rw [h2]; exact List.mem_map.2 ⟨x, hx, rfl⟩
  obtain ⟨x', hx', e⟩ := List.mem_map.1 this
  simp only [Prod.mk.injEq] at e
  exact ⟨x', hx', e⟩

theorem sig_entry {r r' : FileRank} (h : r.colls.map IoColl.sig = r'.colls.map IoColl.sig) {e} (he : e ∈ r.entries) :
    ∃ e' ∈ r'.entries, e'.1 = e.1 ∧ e'.2.1 = e.2.1 ∧ e'.2.2.2 = e.2.2.2 ∧
      e'.2.2.1.layout.comps = e.2.2.1.layout.comps ∧ e'.2.2.1.layout.nbSub = e.2.2.1.layout.nbSub ∧
      e'.2.2.1.ty = e.2.2.1.ty := by
  obtain ⟨c, hc, he⟩ := List.mem_flatMap.1 he
  obtain ⟨x, hx, rfl⟩ := List.mem_map.1 he
  obtain ⟨c', hc', hs⟩ := sig_coll h hc
  obtain ⟨x', hx', e1, e2, e3, e4, e5, e6⟩ := sig_stored hs hx
  exact ⟨(c'.kind, x'), List.mem_flatMap.2 ⟨c', hc', List.mem_map.2 ⟨x', hx', rfl⟩⟩,
    show c'.kind = c.kind from congrArg Prod.fst hs, e1, e2, e4, e5, e6⟩

theorem kind_some {c : IoColl} {l : String} {total : Int} (h : c.kind = some (l, total)) :
    c.name = l ∧ ∃ ids off, c.domain = .isLocal ids total off := by
  rw [IoColl.kind] at h
  cases hd : c.domain with
  | global nb sh loc => rw [hd] at h; cases h
  | isLocal ids t off => rw [hd] at h; cases h; exact ⟨rfl, ids, off, rfl⟩

theorem kind_none {c : IoColl} (h : c.kind = none) : ∃ nb sh loc, c.domain = .global nb sh loc := by
  rw [IoColl.kind] at h
  cases hd : c.domain with
  | global nb sh loc => exact ⟨nb, sh, loc, rfl⟩
  | isLocal ids t off => rw [hd] at h; cases h

theorem sig_local {dom : List Int × List Int × List Int} {r r' : FileRank} (h : r.colls.map IoColl.sig = r'.colls.map IoColl.sig) (hc' : CollsOk dom r'.colls)
    {l : String} {ids : List Int} {total off : Int} (hl : r.localColl l = some (ids, total, off)) :
    ∃ ids' off', r'.localColl l = some (ids', total, off') := by
  obtain ⟨c, hc, rfl, hd⟩ := FileRank.localColl_mem hl
  obtain ⟨c', hcm, hs⟩ := sig_coll h hc
  have hk : c'.kind = some (c.name, total) := by
    have : c'.kind = c.kind := congrArg Prod.fst hs
    rw [this, IoColl.kind, hd]
  obtain ⟨e, ids', off', hd'⟩ := kind_some hk
  exact ⟨ids', off', e ▸ hc'.localColl hcm hd'⟩

/-- An entry of a local collection. -/
theorem entry_local {dom : List Int × List Int × List Int} {r : FileRank} (hc : CollsOk dom r.colls) {e} (he : e ∈ r.entries) {l : String} {total : Int}
    (hk : e.1 = some (l, total)) : ∃ c ∈ r.colls, ∃ ids off, c.name = l ∧ c.domain = .isLocal ids total off ∧
      r.localColl l = some (ids, total, off) ∧ e.2 ∈ c.toStore := by
  obtain ⟨c, hcm, he⟩ := List.mem_flatMap.1 he
  obtain ⟨x, hx, rfl⟩ := List.mem_map.1 he
  obtain ⟨e1, ids, off, hd⟩ := kind_some hk
  exact ⟨c, hcm, ids, off, e1, hd, e1 ▸ hc.localColl hcm hd, hx⟩

/-- An entry of a global collection. -/
theorem entry_global {r : FileRank} {e} (he : e ∈ r.entries) (hk : e.1 = none) :
    ∃ c ∈ r.colls, ∃ nb sh loc, c.domain = .global nb sh loc ∧ e.2 ∈ c.toStore := by
  obtain ⟨c, hcm, he⟩ := List.mem_flatMap.1 he
  obtain ⟨x, hx, rfl⟩ := List.mem_map.1 he
  obtain ⟨nb, sh, loc, hd⟩ := kind_none hk
  exact ⟨c, hcm, nb, sh, loc, hd, hx⟩

/-! ### The program -/

/-- The part of a process of the variable `n`. -/
def FileRank.part (r : FileRank) (n : String) : LocalPart :=
  match r.entries.find? fun e => e.2.1 = n with
  | some e => ⟨entryVar e, r.size, match e.1 with | some (l, _) => r.ids l | none => [], r.coord⟩
  | none => ⟨globalVar n (pixelField n r.dom) false none, r.size, [], r.coord⟩

/-- The distribution to the processes. -/
def progOf (rs : List FileRank) : Program where
  parts n := rs.map fun r => r.part n
  hid l := rs.map fun r => ⟨globalVar l (pixelField l r.dom) true none, r.size, r.coord⟩

theorem FileRank.part_eq {dom : List Int × List Int × List Int} {r : FileRank} (hc : CollsOk dom r.colls) {e} (he : e ∈ r.entries) :
    r.part e.2.1 = ⟨entryVar e, r.size, match e.1 with | some (l, _) => r.ids l | none => [], r.coord⟩ := by
  have : (r.entries.find? fun e' => e'.2.1 = e.2.1) = some e := find_nodup (fun e => e.2.1) hc.entries_nodup he
  rw [FileRank.part, this]

theorem FileRank.part_size (r : FileRank) (n : String) : (r.part n).size = r.size := by
  unfold FileRank.part; split <;> rfl

theorem FileRank.part_coord (r : FileRank) (n : String) : (r.part n).coord = r.coord := by
  unfold FileRank.part; split <;> rfl

theorem filterMap_eq_map {β γ δ : Type} {l : List β} {F : β → γ} {g : γ → Option δ} {h : β → δ}
    (hg : ∀ x ∈ l, g (F x) = some (h x)) : (l.map F).filterMap g = l.map h := by
  induction l with
  | nil => rfl
  | cons a l ih =>
    rw [List.map_cons, List.filterMap_cons, hg a (by simp), List.map_cons, ih fun x hx => hg x (by simp [hx])]

/-- The variables of the program. -/
def varOf (rs : List FileRank) (e : Option (String × Int) × String × IoField × Option Nat) : SessVar :=
  ⟨e.2.1, e.2.2.2, rs.map fun r => (r.part e.2.1).v, e.1.map Prod.fst⟩

section
variable {dom : List Int} {mode : OpenMode} {rs : List FileRank} {F : FileRank → Reg}

theorem ProgramOk.entry_global (h : ProgramOk dom rs) {r : FileRank} (hr : r ∈ rs) {e} (he : e ∈ r.entries) (hk : e.1 = none) :
    GlobalField e.2.2.1 ∧ e.2.2.1.nbDomain = dom ∧ CanStore e.2.1 e.2.2.1 ∧ e.2.2.1.layout.pixShape = r.dom.2.1 ∧
      e.2.2.1.loc = r.dom.2.2 := by
  obtain ⟨c, hc, nb, sh, loc, hd, hx⟩ := Verif.entry_global he hk
  obtain ⟨h1, h2, h3⟩ := ((h.colls r hr).each c hc).global _ _ _ hd _ hx
  obtain ⟨h4, h5⟩ := h.global r hr c hc _ _ _ hd _ hx
  exact ⟨h1, by rw [h2]; exact h.domain r hr, h3, h4, h5⟩

theorem ProgramOk.entry_local (h : ProgramOk dom rs) {r : FileRank} (hr : r ∈ rs) {e} (he : e ∈ r.entries) {l : String}
    {total : Int} (hk : e.1 = some (l, total)) :
    ∃ ids off, r.localColl l = some (ids, total, off) ∧ r.ids l = ids ∧ 0 < total ∧
      (∀ id ∈ ids, 0 ≤ id ∧ id < (r.size : Int)) ∧ ids.Pairwise (· < ·) ∧ Clean l ∧ LocalField e.2.2.1 ids.length ∧
      Clean e.2.1 ∧ CanStore e.2.1 e.2.2.1 ∧
      (e.2.2.1.layout.order = .colMajor ∨ e.2.2.1.layout.nbDof = 1) := by
  obtain ⟨c, hc, ids, off, rfl, hd, hl, hx⟩ := Verif.entry_local (h.colls r hr) he hk
  obtain ⟨h1, h2, h3, h4⟩ := ((h.colls r hr).each c hc).isLocal _ _ _ hd
  obtain ⟨h5, h6⟩ := h.isLocal r hr c hc _ _ _ hd
  obtain ⟨h7, h8, h9⟩ := h4 _ hx
  refine ⟨ids, off, hl, by rw [FileRank.ids, hl]; rfl, h1, fun id hid => ?_, h5, h3, h7, h8, h9, h6 _ hx⟩
  have := h2 id hid
  rw [FileRank.size]
  omega

theorem ProgramOk.entry_isGlobal (h : ProgramOk dom rs) {r : FileRank} (hr : r ∈ rs) {e} (he : e ∈ r.entries) :
    (if (entryVar e).field.isGlobal then none else some (entryVar e).localName) = e.1.map Prod.fst := by
  rw [entryVar_field]
  cases hk : e.1 with
  | none => rw [if_pos (h.entry_global hr he hk).1.is_global]; rfl
  | some x =>
    obtain ⟨l, total⟩ := x
    obtain ⟨ids, off, -, -, -, -, -, -, h1, -⟩ := h.entry_local hr he hk
    rw [if_neg (by rw [h1.is_local]; simp), entryVar, hk]
    rfl

theorem joinVars_eq (h : ProgramOk dom rs) (hF : ∀ r ∈ rs, RegOf mode r (F r)) {r0 : FileRank} {rest : List FileRank}
    (hrs : rs = r0 :: rest) : joinVars (rs.map F) = r0.entries.map (varOf rs) := by
  have h0 : r0 ∈ rs := by rw [hrs]; simp
  have e : joinVars (rs.map F) = (F r0).visible.map fun v =>
      ⟨v.name, v.hist, (rs.map F).filterMap fun s => s.visible.find? fun w => w.name = v.name,
        if v.field.isGlobal then none else some v.localName⟩ := by
    rw [hrs]; rfl
  rw [e, (hF r0 h0).visible, List.map_map]
  refine List.map_congr_left fun e he => ?_
  rw [Function.comp_apply, varOf, h.entry_isGlobal h0 he, entryVar_name, entryVar_hist]
  congr 1
  refine filterMap_eq_map fun r hr => ?_
  obtain ⟨e', he', e1, e2, -⟩ := sig_entry (h.same r0 h0 r hr) he
  rw [← e2, (hF r hr).find (h.colls r hr) he', FileRank.part_eq (h.colls r hr) he']

theorem joinHidden_eq (h : ProgramOk dom rs) (hF : ∀ r ∈ rs, RegOf mode r (F r)) {r : FileRank} (hr : r ∈ rs) {l : String}
    {x} (hl : r.localColl l = some x) : joinHidden (rs.map F) l = some (((progOf rs).hid l).map HiddenPart.v) := by
  obtain ⟨ids, total, off⟩ := x
  have hall : ∀ r' ∈ rs, (F r').hiddenVar l = some (globalVar l (pixelField l r'.dom) true none) := by
    intro r' hr'
    obtain ⟨ids', off', hl'⟩ := sig_local (h.same r hr r' hr') (h.colls r' hr') hl
    exact (hF r' hr').hiddenVar (h.colls r' hr') hl'
  have hm : (rs.map F).filterMap (fun r => r.hiddenVar l) = rs.map fun r => globalVar l (pixelField l r.dom) true none :=
    filterMap_eq_map hall
  rw [joinHidden, if_pos, hm, progOf, List.map_map]
  · rfl
  · rw [List.all_map, List.all_eq_true]
    intro r' hr'
    rw [Function.comp_apply, hall r' hr']
    rfl

theorem joinHidden_none (hne : rs ≠ []) (hF : ∀ r ∈ rs, RegOf mode r (F r)) {l : String} (hl : ∀ r ∈ rs, r.localColl l = none) :
    joinHidden (rs.map F) l = none := by
  rw [joinHidden, if_neg]
  intro hall
  rw [List.all_map, List.all_eq_true] at hall
  obtain ⟨r, hr⟩ := List.exists_mem_of_ne_nil rs hne
  have := hall r hr
  rw [Function.comp_apply, (hF r hr).hiddenVar_none (hl r hr)] at this
  cases this

theorem joinMarks_eq (h : ProgramOk dom rs) (hF : ∀ r ∈ rs, RegOf mode r (F r)) {l : String} {ids off : FileRank → _}
    {total : Int} (hl : ∀ r ∈ rs, r.localColl l = some (ids r, total, off r)) :
    joinMarks (rs.map F) l = rs.map fun r => pixelMarks mode r.dom (ids r) (off r) := by
  rw [joinMarks, List.map_map]
  refine List.map_congr_left fun r hr => ?_
  rw [Function.comp_apply, (hF r hr).marks (h.colls r hr) (hl r hr)]

/-- The description of the file fits the program. -/
structure Fits (D : FileDesc) (dom : List Int) (rs : List FileRank) : Prop where
  dom_eq : D.dom = dom
  fld : ∀ r ∈ rs, ∀ e ∈ r.entries, e.2.2.1.layout.comps = (D.fld e.2.1).layout.comps ∧
    e.2.2.1.layout.nbSub = (D.fld e.2.1).layout.nbSub ∧ e.2.2.1.ty = (D.fld e.2.1).ty
  fld_dom : ∀ n, (D.fld n).nbDomain = dom
  total : ∀ r ∈ rs, ∀ l ids t off, r.localColl l = some (ids, t, off) → D.total l = t
  marked : ∀ r ∈ rs, ∀ l x, r.localColl l = some x → ∀ q : Nat, q < r.size →
    ((q : Int) ∈ r.ids l ↔ D.entry l (r.coord q) ≠ -1)
  range : ∀ r ∈ rs, ∀ l x, r.localColl l = some x → ∀ g, InBox dom g → D.entry l g ≠ -1 →
    0 ≤ D.entry l g ∧ D.entry l g < D.total l
  inj : ∀ r ∈ rs, ∀ l x, r.localColl l = some x → ∀ g g', InBox dom g → InBox dom g' → D.entry l g ≠ -1 →
    D.entry l g = D.entry l g' → g = g'

theorem registered_of {D : FileDesc} (h : ProgramOk dom rs) (hD : Fits D dom rs)
    (hF : ∀ r ∈ rs, RegOf mode r (F r)) :
    Registered D (progOf rs) (joinVars (rs.map F)) (joinHidden (rs.map F)) := by
  obtain ⟨r0, rest, hrs⟩ : ∃ r0 rest, rs = r0 :: rest := by
    cases hrs : rs with
    | nil => exact absurd hrs h.nonempty
    | cons a l => exact ⟨a, l, rfl⟩
  have h0 : r0 ∈ rs := by rw [hrs]; simp
  have hvars := joinVars_eq h hF hrs
  have hin : ∀ r ∈ rs, Within r.dom.1 r.dom.2.1 r.dom.2.2 := fun r hr => (h.colls r hr).inside
  have hsame : ∀ r ∈ rs, ∀ e ∈ r0.entries, ∃ e' ∈ r.entries, e'.1 = e.1 ∧ e'.2.1 = e.2.1 ∧ e'.2.2.2 = e.2.2.2 ∧
      e'.2.2.1.layout.comps = e.2.2.1.layout.comps ∧ e'.2.2.1.layout.nbSub = e.2.2.1.layout.nbSub ∧
      e'.2.2.1.ty = e.2.2.1.ty :=
    fun r hr e he => sig_entry (h.same r0 h0 r hr) he
  have hbox : ∀ r ∈ rs, ∀ g, r.Here g → InBox dom g := by
    intro r hr g hg
    have := hin r hr
    rw [h.domain r hr] at this
    exact inBox_of_within this hg
  have hpart : ∀ r ∈ rs, ∀ e ∈ r0.entries, ∃ e' ∈ r.entries, e'.1 = e.1 ∧ e'.2.1 = e.2.1 ∧ e'.2.2.2 = e.2.2.2 ∧
      r.part e.2.1 = ⟨entryVar e', r.size, match e.1 with | some (l, _) => r.ids l | none => [], r.coord⟩ := by
    intro r hr e he
    obtain ⟨e', he', e1, e2, e3, -⟩ := hsame r hr e he
    exact ⟨e', he', e1, e2, e3, by rw [← e2, FileRank.part_eq (h.colls r hr) he', e1]⟩
  have hlocal : ∀ e ∈ r0.entries, ∀ l, e.1.map Prod.fst = some l → ∃ total, e.1 = some (l, total) := by
    intro e _ l hl
    cases hk : e.1 with
    | none => rw [hk] at hl; cases hl
    | some x => rw [hk] at hl; cases hl; exact ⟨x.2, rfl⟩
  refine ⟨?_, ?_, ?_, ?_, ?_, ?_⟩
  · rw [hvars, List.map_map]
    exact (h.colls r0 h0).entries_nodup
  · intro x hx hl
    rw [hvars] at hx
    obtain ⟨e, he, rfl⟩ := List.mem_map.1 hx
    have hk : e.1 = none := by
      cases hk : e.1 with
      | none => rfl
      | some x => rw [varOf, hk] at hl; cases hl
    have hp : ∀ r ∈ rs, ∃ e' ∈ r.entries, (r.part e.2.1).v = globalVar e.2.1 e'.2.2.1 false e.2.2.2 ∧ e'.1 = none ∧
        e'.2.1 = e.2.1 := by
      intro r hr
      obtain ⟨e', he', e1, e2, e3, e4⟩ := hpart r hr e he
      refine ⟨e', he', ?_, e1.trans hk, e2⟩
      rw [e4]
      show entryVar e' = _
      rw [entryVar, e1, hk, e2, e3]
    have hmem : ∀ v ∈ (varOf rs e).parts, ∃ r ∈ rs, ∃ e' ∈ r.entries, v = globalVar e.2.1 e'.2.2.1 false e.2.2.2 ∧
        e'.1 = none ∧ e'.2.1 = e.2.1 := by
      intro v hv
      obtain ⟨r, hr, rfl⟩ := List.mem_map.1 hv
      exact ⟨r, hr, hp r hr⟩
    refine ⟨hl, ?_, ?_, ?_, ?_, ?_, ?_⟩
    · show rs.map _ ≠ []
      rw [hrs]; simp
    · intro v hv
      obtain ⟨r, hr, e', he', rfl, hk', -⟩ := hmem v hv
      exact (h.entry_global hr he' hk').1
    · intro v hv
      obtain ⟨r, hr, e', he', rfl, hk', hn⟩ := hmem v hv
      obtain ⟨g1, g2, g3, -⟩ := h.entry_global hr he' hk'
      have h3 : e'.2.2.1.nbDomain.length ≤ 3 := by
        rw [g2, ← h.domain r hr]; exact (h.colls r hr).dom_dim
      refine ⟨[0, 0, 0], e'.2.2.1.nbDomain ++ [0, 0, 0].drop e'.2.2.1.nbDomain.length, ?_⟩
      show registerGlobalVar e.2.1 e'.2.2.1 false e.2.2.2 _ = _
      obtain ⟨t, ht⟩ := ncTypeOf_of_ne g3.real
      rw [registerGlobalVar, globalDims, gridDims_ok (names := gridNames) (grid := [0, 0, 0]) h3 h3 (gridFor_zero _).2,
        Res.ok_bind, Res.pure_eq, Res.ok_bind, ht, Res.ok_bind]
      have := checkGlobal_ok (v := globalVar e.2.1 e'.2.2.1 false e.2.2.2) (hist := e.2.2.2) ⟨rfl, rfl, rfl, g3.real⟩ (hn ▸ g3.storable g1)
        (g1.onGrid h3)
      exact (congrArg (fun x => Bind.bind x _) this).trans rfl
    · intro v hv
      obtain ⟨r, hr, e', he', rfl, hk', hn⟩ := hmem v hv
      obtain ⟨g1, g2, -⟩ := h.entry_global hr he' hk'
      obtain ⟨f1, f2, f3⟩ := hD.fld r hr e' he'
      rw [hn] at f1 f2 f3
      exact ⟨f3, f1, f2, by rw [show (varOf rs e).name = e.2.1 from rfl, hD.fld_dom]; exact g2⟩
    · show (rs.map fun r => (r.part e.2.1).v).Pairwise _
      rw [List.pairwise_map]
      refine List.Pairwise.imp_of_mem ?_ h.apart
      intro r r' hr hr' hap g hg
      obtain ⟨e1, he1, q1, q2, -⟩ := hp r hr
      obtain ⟨e2, he2, q3, q4, -⟩ := hp r' hr'
      obtain ⟨-, -, -, a1, a2⟩ := h.entry_global hr he1 q2
      obtain ⟨-, -, -, a3, a4⟩ := h.entry_global hr' he2 q4
      rw [q1] at hg
      rw [q3]
      change InBoxAt e1.2.2.1.layout.pixShape e1.2.2.1.loc g at hg
      change ¬ InBoxAt e2.2.2.1.layout.pixShape e2.2.2.1.loc g
      rw [a1, a2] at hg
      rw [a3, a4]
      exact hap g hg
    · intro g hg
      rw [hD.fld_dom] at hg
      obtain ⟨r, hr, hh⟩ := h.cover g hg
      obtain ⟨e1, he1, q1, q2, -⟩ := hp r hr
      obtain ⟨-, -, -, a1, a2⟩ := h.entry_global hr he1 q2
      refine ⟨(r.part e.2.1).v, List.mem_map.2 ⟨r, hr, rfl⟩, ?_⟩
      rw [q1]
      change InBoxAt e1.2.2.1.layout.pixShape e1.2.2.1.loc g
      rw [a1, a2]
      exact hh
  · intro x hx l hl
    rw [hvars] at hx
    obtain ⟨e, he, rfl⟩ := List.mem_map.1 hx
    obtain ⟨total, hk⟩ := hlocal e he l hl
    obtain ⟨ids0, off0, hl0, -, htot, -⟩ := h.entry_local h0 he hk
    have hp : ∀ r ∈ rs, ∃ e' ∈ r.entries, r.part e.2.1 = ⟨localVar e.2.1 e'.2.2.1 e.2.2.2 total l, r.size, r.ids l, r.coord⟩ ∧
        e'.1 = some (l, total) ∧ e'.2.1 = e.2.1 := by
      intro r hr
      obtain ⟨e', he', e1, e2, e3, e4⟩ := hpart r hr e he
      refine ⟨e', he', ?_, e1.trans hk, e2⟩
      rw [e4, entryVar, e1, hk, e2, e3]
    have hmem : ∀ p ∈ (progOf rs).parts e.2.1, ∃ r ∈ rs, ∃ e' ∈ r.entries,
        p = ⟨localVar e.2.1 e'.2.2.1 e.2.2.2 total l, r.size, r.ids l, r.coord⟩ ∧ e'.1 = some (l, total) ∧
          e'.2.1 = e.2.1 := by
      intro p hpp
      obtain ⟨r, hr, rfl⟩ := List.mem_map.1 hpp
      exact ⟨r, hr, hp r hr⟩
    have hD' : D.total l = total := hD.total r0 h0 l _ _ _ hl0
    have hsize : ∀ n : String, ∀ r : FileRank, (r.part n).size = r.size := fun n r => r.part_size n
    refine ⟨hl, ?_, ?_, ?_, ?_, ?_, ?_, ?_, ?_, ?_, ?_, ?_, ?_, ?_, ?_, ?_, ?_, ?_, ?_⟩
    · show (rs.map _) = (rs.map _).map _
      rw [List.map_map]
      rfl
    · show rs.map _ ≠ []
      rw [hrs]; simp
    · intro p hpp
      obtain ⟨r, hr, e', he', rfl, hk', -⟩ := hmem p hpp
      obtain ⟨ids, off, -, hi, -, -, -, -, hf, -⟩ := h.entry_local hr he' hk'
      show LocalField e'.2.2.1 (r.ids l).length
      rw [hi]
      exact hf
    · intro p hpp
      obtain ⟨r, hr, e', he', rfl, hk', -⟩ := hmem p hpp
      obtain ⟨ids, off, -, -, -, -, -, -, -, -, -, ho⟩ := h.entry_local hr he' hk'
      exact ho
    · intro p hpp
      obtain ⟨r, hr, e', he', rfl, hk', hn⟩ := hmem p hpp
      obtain ⟨ids, off, -, -, ht, -, -, -, hf, hcl, hcs, -⟩ := h.entry_local hr he' hk'
      rw [hn] at hcl hcs
      refine ⟨l, [], ?_⟩
      have hv : IsLocalVar (localVar e.2.1 e'.2.2.1 e.2.2.2 total l) e.2.1 e'.2.2.1 e.2.2.2 total :=
        ⟨rfl, rfl, by rw [localVar, localDims, if_pos (by omega)], hcl, by omega, hcs.real⟩
      have := checkLocal_ok hf hv (hcs.storableLocal hf) []
      obtain ⟨t, hty⟩ := ncTypeOf_of_ne hcs.real
      rw [hD', registerLocalVar]
      show (ncTypeOf e'.2.2.1.ty >>= _) = _
      rw [hty, Res.ok_bind]
      exact (congrArg (fun x => Bind.bind x _) this).trans rfl
    · intro p hpp
      obtain ⟨r, hr, e', he', rfl, hk', hn⟩ := hmem p hpp
      have := (hD.fld r hr e' he').2.2
      rw [hn] at this
      exact this
    · intro p hpp
      obtain ⟨r, hr, e', he', rfl, hk', hn⟩ := hmem p hpp
      have := (hD.fld r hr e' he').1
      rw [hn] at this
      exact this
    · intro p hpp
      obtain ⟨r, hr, e', he', rfl, hk', hn⟩ := hmem p hpp
      have := (hD.fld r hr e' he').2.1
      rw [hn] at this
      exact this
    · intro p hpp
      obtain ⟨r, hr, e', he', rfl, hk', hn⟩ := hmem p hpp
      obtain ⟨ids, off, -, hi, -, -, ha, -⟩ := h.entry_local hr he' hk'
      show (r.ids l).Pairwise _
      rw [hi]
      exact ha
    · intro p hpp
      obtain ⟨r, hr, e', he', rfl, hk', hn⟩ := hmem p hpp
      obtain ⟨ids, off, -, hi, -, hin, -⟩ := h.entry_local hr he' hk'
      show ∀ id ∈ r.ids l, _
      rw [hi]
      exact hin
    · intro p hpp q hq
      obtain ⟨r, hr, e', he', rfl, hk', hn⟩ := hmem p hpp
      obtain ⟨ids, off, hl', -⟩ := h.entry_local hr he' hk'
      exact hD.marked r hr l _ hl' q hq
    · intro p hpp q hq
      obtain ⟨r, hr, e', he', rfl, hk', hn⟩ := hmem p hpp
      rw [hD.dom_eq]
      exact hbox r hr _ ((FileRank.places (hin r hr)).1 q hq).1
    · intro p hpp q q' hq hq'
      obtain ⟨r, hr, e', he', rfl, hk', hn⟩ := hmem p hpp
      exact FileRank.coord_inj (hin r hr) hq hq'
    · show (rs.map fun r => r.part e.2.1).Pairwise _
      rw [List.pairwise_map]
      refine List.Pairwise.imp_of_mem ?_ h.apart
      intro r r' hr hr' hap q q' hq hq' heq
      rw [FileRank.part_size] at hq hq'
      rw [FileRank.part_coord, FileRank.part_coord] at heq
      exact hap _ ((FileRank.places (hin r hr)).1 q hq).1 (heq ▸ ((FileRank.places (hin r' hr')).1 q' hq').1)
    · intro g hg
      rw [hD.dom_eq] at hg
      obtain ⟨r, hr, hh⟩ := h.cover g hg
      obtain ⟨q, hq, e'⟩ := (FileRank.places (hin r hr)).2 g hh
      exact ⟨r.part e.2.1, List.mem_map.2 ⟨r, hr, rfl⟩, q, by rw [FileRank.part_size]; exact hq, by
        rw [FileRank.part_coord]; exact e'⟩
    · rw [hD']; exact htot
    · intro g hg
      rw [hD.dom_eq] at hg
      exact hD.range r0 h0 l _ hl0 g hg
    · intro g g' hg hg'
      rw [hD.dom_eq] at hg hg'
      exact hD.inj r0 h0 l _ hl0 g g' hg hg'
  · intro x hx l hl
    rw [hvars] at hx
    obtain ⟨e, he, rfl⟩ := List.mem_map.1 hx
    obtain ⟨total, hk⟩ := hlocal e he l hl
    obtain ⟨ids0, off0, hl0, -⟩ := h.entry_local h0 he hk
    exact joinHidden_eq h hF h0 hl0
  · intro x hx l hl
    rw [hvars] at hx
    obtain ⟨e, he, rfl⟩ := List.mem_map.1 hx
    obtain ⟨total, hk⟩ := hlocal e he l hl
    obtain ⟨-, -, -, -, -, -, -, hcl, -⟩ := h.entry_local h0 he hk
    have hmem : ∀ p ∈ (progOf rs).hid l, ∃ r ∈ rs, p = ⟨globalVar l (pixelField l r.dom) true none, r.size, r.coord⟩ := by
      intro p hp
      obtain ⟨r, hr, rfl⟩ := List.mem_map.1 hp
      exact ⟨r, hr, rfl⟩
    refine ⟨?_, ?_, ?_, ?_, ?_, ?_, ?_, ?_, ?_, ?_, ?_, ?_⟩
    · show rs.map _ ≠ []
      rw [hrs]; simp
    · intro p hp
      obtain ⟨r, hr, rfl⟩ := hmem p hp
      have h1 := pixelField_onGrid (l := l) (h.colls r hr).dom_dim (h.colls r hr).dom_pos (hin r hr)
      have h2 := pixelField_storable r.dom hcl
      exact ⟨h2.order, h2.comps_pos, h2.comps_len, h2.sub_pos, h1.is_global, h1.dom_pos, h1.inside, h1.addressing⟩
    · intro p hp
      obtain ⟨r, hr, rfl⟩ := hmem p hp
      have h1 := pixelField_onGrid (l := l) (h.colls r hr).dom_dim (h.colls r hr).dom_pos (hin r hr)
      have h2 := pixelField_storable r.dom hcl
      have h3 : (pixelField l r.dom).nbDomain.length ≤ 3 := h1.dim
      refine ⟨[0, 0, 0], (pixelField l r.dom).nbDomain ++ [0, 0, 0].drop (pixelField l r.dom).nbDomain.length, ?_⟩
      show registerGlobalVar l (pixelField l r.dom) true none _ = _
      rw [registerGlobalVar, globalDims, gridDims_ok (names := gridNames) (grid := [0, 0, 0]) h3 h3 (gridFor_zero _).2,
        Res.ok_bind, Res.pure_eq, Res.ok_bind, show ncTypeOf (pixelField l r.dom).ty = .ok .int64 from rfl, Res.ok_bind]
      have := checkGlobal_ok (v := globalVar l (pixelField l r.dom) true none) ⟨rfl, rfl, rfl, fun h => nomatch h⟩ h2 h1
      exact (congrArg (fun x => Bind.bind x _) this).trans rfl
    · intro p hp
      obtain ⟨r, hr, rfl⟩ := hmem p hp
      rfl
    · intro p hp
      obtain ⟨r, hr, rfl⟩ := hmem p hp
      rfl
    · intro p hp
      obtain ⟨r, hr, rfl⟩ := hmem p hp
      rfl
    · intro p hp
      obtain ⟨r, hr, rfl⟩ := hmem p hp
      rfl
    · intro p hp
      obtain ⟨r, hr, rfl⟩ := hmem p hp
      rw [hD.dom_eq]
      exact h.domain r hr
    · show (rs.map _).Pairwise _
      rw [List.pairwise_map]
      exact h.apart
    · intro g hg
      rw [hD.dom_eq] at hg
      obtain ⟨r, hr, hh⟩ := h.cover g hg
      exact ⟨_, List.mem_map.2 ⟨r, hr, rfl⟩, hh⟩
    · intro p hp q hq
      obtain ⟨r, hr, rfl⟩ := hmem p hp
      exact (FileRank.places (hin r hr)).1 q hq
    · intro p hp g hg
      obtain ⟨r, hr, rfl⟩ := hmem p hp
      exact (FileRank.places (hin r hr)).2 g hg
  · intro x hx l hl
    rw [hvars] at hx
    obtain ⟨e, he, rfl⟩ := List.mem_map.1 hx
    show (rs.map _).map _ = (rs.map _).map _
    rw [List.map_map, List.map_map]
    refine List.map_congr_left fun r hr => ?_
    show ((r.part _).size, (r.part _).coord) = _
    rw [FileRank.part_size, FileRank.part_coord]
    rfl

/-! ### The description of the file -/

theorem FileRank.ids_of {r : FileRank} {l : String} {ids : List Int} {total off : Int} (h : r.localColl l = some (ids, total, off)) :
    r.ids l = ids := by rw [FileRank.ids, h]; rfl

theorem ProgramOk.ids_ok (h : ProgramOk dom rs) {r : FileRank} (hr : r ∈ rs) (l : String) :
    (r.ids l).Pairwise (· < ·) ∧ ∀ id ∈ r.ids l, 0 ≤ id ∧ id < (r.size : Int) := by
  cases hl : r.localColl l with
  | none => rw [FileRank.ids, hl]; simp
  | some x =>
    obtain ⟨ids, total, off⟩ := x
    rw [FileRank.ids_of hl]
    obtain ⟨c, hc, rfl, hd⟩ := FileRank.localColl_mem hl
    refine ⟨(h.isLocal r hr c hc _ _ _ hd).1, fun id hid => ?_⟩
    have := (((h.colls r hr).each c hc).isLocal _ _ _ hd).2.1 id hid
    rw [FileRank.size]
    omega

theorem ProgramOk.hereOf (h : ProgramOk dom rs) {r r' : FileRank} (hr : r ∈ rs) (hr' : r' ∈ rs) {g : List Int} (hg : r.Here g)
    (hg' : r'.Here g) : r = r' := by
  by_contra hne
  have hsym : ∀ a ∈ rs, ∀ b ∈ rs, a ≠ b → ∀ g, a.Here g → ¬ b.Here g := by
    haveI : Std.Symm (fun a b : FileRank => ∀ g, a.Here g → ¬ b.Here g) := ⟨fun a b hab g hb ha => hab g ha hb⟩
    intro a ha b hb
    exact List.Pairwise.forall h.apart ha hb
  exact hsym r hr r' hr' hne g hg hg'

theorem exists_fits (h : ProgramOk dom rs) (hn : Numbered rs) :
    ∃ D : FileDesc, Fits D dom rs ∧ ∀ r ∈ rs, ∀ l ids total off, r.localColl l = some (ids, total, off) →
      markPixels r.size off ids = .ok ((List.range r.size).map fun q : Nat => D.entry l (r.coord q)) := by
  obtain ⟨r0, rest, hrs⟩ : ∃ r0 rest, rs = r0 :: rest := by
    cases hrs : rs with
    | nil => exact absurd hrs h.nonempty
    | cons a l => exact ⟨a, l, rfl⟩
  have h0 : r0 ∈ rs := by rw [hrs]; simp
  have hin : ∀ r ∈ rs, Within r.dom.1 r.dom.2.1 r.dom.2.2 := fun r hr => (h.colls r hr).inside
  let part (l : String) (r : FileRank) : LocalPart := ⟨globalVar "" (pixelField "" r.dom) false none, r.size, r.ids l, r.coord⟩
  have hex := fun l => C62_entries (ps := rs.map (part l))
    (fun p hp => by
      obtain ⟨r, hr, rfl⟩ := List.mem_map.1 hp
      exact (h.ids_ok hr l).1.imp fun h => ne_of_lt h)
    (fun p hp => by
      obtain ⟨r, hr, rfl⟩ := List.mem_map.1 hp
      exact (h.ids_ok hr l).2)
    (fun p hp q q' hq hq' => by
      obtain ⟨r, hr, rfl⟩ := List.mem_map.1 hp
      exact FileRank.coord_inj (hin r hr) hq hq')
    (by
      rw [List.pairwise_map]
      refine List.Pairwise.imp_of_mem ?_ h.apart
      intro r r' hr hr' hap q q' hq hq' heq
      exact hap _ ((FileRank.places (hin r hr)).1 q hq).1
        ((show r.coord q = r'.coord q' from heq) ▸ ((FileRank.places (hin r' hr')).1 q' hq').1))
  choose M hM using hex
  have hsum : ∀ l, ((rs.map (part l)).map fun p => p.ids.length) = rs.map fun q => (q.ids l).length := by
    intro l; rw [List.map_map]; rfl
  refine ⟨⟨dom, fun n => match r0.entries.find? fun e => e.2.1 = n with
      | some e => { e.2.2.1 with nbDomain := dom }
      | none => { pixelField "" r0.dom with nbDomain := dom }, M,
      fun l => ((rs.map fun q => (q.ids l).length).sum : Nat)⟩, ⟨rfl, ?_, ?_, ?_, ?_, ?_, ?_⟩, ?_⟩
  · intro r hr e he
    obtain ⟨e', he', e1, e2, e3, e4, e5, e6⟩ := sig_entry (h.same r hr r0 h0) he
    have : (r0.entries.find? fun e' => e'.2.1 = e.2.1) = some e' := by
      rw [← e2]
      exact find_nodup (fun e => e.2.1) (h.colls r0 h0).entries_nodup he'
    dsimp only
    rw [this]
    exact ⟨e4.symm, e5.symm, e6.symm⟩
  · intro n
    dsimp only
    split <;> rfl
  · intro r hr l ids t off hl
    obtain ⟨a, b, hab⟩ := List.append_of_mem hr
    exact (hn a r b hab l ids t off hl).2.symm
  · intro r hr l x hl q hq
    exact (hM l).2.1 (part l r) (List.mem_map_of_mem hr) q hq
  · intro r hr l x hl g hg hne
    have := (hM l).2.2.1 g hne
    rw [hsum] at this
    exact this
  · intro r hr l x hl g g' hg hg' hne he
    exact (hM l).2.2.2 g g' hne he
  · intro r hr l ids total off hl
    obtain ⟨a, b, hab⟩ := List.append_of_mem hr
    have ho := (hn a r b hab l ids total off hl).1
    have hlen : a.length < (rs.map (part l)).length := by rw [hab]; simp
    have hget : (rs.map (part l))[a.length] = part l r := by
      simp [hab]
    have hcum : (cumulativeSum ((rs.map (part l)).map fun p => p.ids.length))[a.length]? =
        some ((a.map fun q => (q.ids l).length).sum + (r.ids l).length) := by
      have ht : (rs.map fun q => (q.ids l).length).take (a.length + 1) = (a ++ [r]).map fun q => (q.ids l).length := by
        rw [hab, show a ++ r :: b = (a ++ [r]) ++ b by simp, List.map_append,
          List.take_append_of_le_length (by simp), List.take_of_length_le (by simp)]
      rw [C33_scan _ _ (by simpa using hlen), hsum, ht]
      simp
    have := (hM l).1 a.length hlen _ hcum
    rw [hget] at this
    have e : (((a.map fun q => (q.ids l).length).sum + (r.ids l).length : Nat) : Int) - ((part l r).ids.length : Nat) = off := by
      rw [ho]
      show _ - ((r.ids l).length : Int) = _
      omega
    rw [e] at this
    rw [← FileRank.ids_of hl]
    exact this

theorem mem_localNames {r0 : FileRank} {rest : List FileRank} {l : String} :
    l ∈ localNames (r0 :: rest) ↔ r0.localColl l ≠ none := by
  rw [localNames, FileRank.localColl, ne_eq, List.findSome?_eq_none_iff, List.mem_flatMap]
  constructor
  · rintro ⟨c, hc, hl⟩ hall
    have := hall c hc
    cases hd : c.domain with
    | global nb sh loc => rw [hd] at hl; simp at hl
    | isLocal ids total off =>
      rw [hd] at hl this
      rw [List.mem_singleton] at hl
      simp [hl] at this
  · intro hne
    by_contra hno
    refine hne fun c hc => ?_
    cases hd : c.domain with
    | global nb sh loc => rfl
    | isLocal ids total off =>
      dsimp only
      rw [if_neg]
      intro e
      exact hno ⟨c, hc, by rw [hd, List.mem_singleton]; exact e.symm⟩

theorem ProgramOk.localNames_iff (h : ProgramOk dom rs) {r : FileRank} (hr : r ∈ rs) {l : String} :
    l ∈ localNames rs ↔ r.localColl l ≠ none := by
  obtain ⟨r0, rest, hrs⟩ : ∃ r0 rest, rs = r0 :: rest := by
    cases hrs : rs with
    | nil => exact absurd hrs h.nonempty
    | cons a l => exact ⟨a, l, rfl⟩
  have h0 : r0 ∈ rs := by rw [hrs]; simp
  rw [hrs, mem_localNames]
  have key : ∀ r ∈ rs, ∀ r' ∈ rs, r.localColl l ≠ none → r'.localColl l ≠ none := by
    intro r hr r' hr' hne
    cases hl : r.localColl l with
    | none => exact absurd hl hne
    | some x =>
      obtain ⟨ids, total, off⟩ := x
      obtain ⟨ids', off', hl'⟩ := sig_local (h.same r hr r' hr') (h.colls r' hr') hl
      rw [hl']
      simp
  exact ⟨key r0 h0 r hr, key r hr r0 h0⟩

theorem fits_of_same {D : FileDesc} {rs' : List FileRank} (h : ProgramOk dom rs) (hD : Fits D dom rs) (h' : ProgramOk dom rs')
    (hs : SameData rs rs') : Fits D dom rs' := by
  obtain ⟨r0, h0⟩ := List.exists_mem_of_ne_nil rs h.nonempty
  have hloc : ∀ r' ∈ rs', ∀ l ids t off, r'.localColl l = some (ids, t, off) →
      ∀ r ∈ rs, ∃ ids off, r.localColl l = some (ids, t, off) := fun r' hr' l ids t off hl r hr =>
    sig_local (hs.same r hr r' hr').symm (h.colls r hr) hl
  have hbox : ∀ r' ∈ rs', ∀ g, r'.Here g → InBox dom g := by
    intro r hr g hg
    have := (h'.colls r hr).inside
    rw [h'.domain r hr] at this
    exact inBox_of_within this hg
  refine ⟨hD.dom_eq, ?_, hD.fld_dom, ?_, ?_, ?_, ?_⟩
  · intro r' hr' e he
    obtain ⟨e', he', e1, e2, e3, e4, e5, e6⟩ := sig_entry (hs.same r0 h0 r' hr').symm he
    obtain ⟨f1, f2, f3⟩ := hD.fld r0 h0 e' he'
    rw [e2] at f1 f2 f3
    exact ⟨e4.symm.trans f1, e5.symm.trans f2, e6.symm.trans f3⟩
  · intro r' hr' l ids t off hl
    obtain ⟨ids0, off0, hl0⟩ := hloc r' hr' l _ _ _ hl r0 h0
    exact hD.total r0 h0 l _ _ _ hl0
  · intro r' hr' l x hl q hq
    obtain ⟨ids, t, off⟩ := x
    have hname : l ∈ localNames rs := by
      obtain ⟨ids0, off0, hl0⟩ := hloc r' hr' l _ _ _ hl r0 h0
      rw [h.localNames_iff h0, hl0]; simp
    have hpl := FileRank.places (h'.colls r' hr').inside
    constructor
    · intro hm
      obtain ⟨r, hr, id, hid, hc⟩ := (hs.pixels l hname _).2 ⟨r', hr', q, hm, rfl⟩
      obtain ⟨ids0, off0, hl0⟩ := hloc r' hr' l _ _ _ hl r hr
      have hb := (h.ids_ok hr l).2 id hid
      have := (hD.marked r hr l _ hl0 id.toNat (by omega)).1 (by rw [Int.toNat_of_nonneg hb.1]; exact hid)
      rw [Int.toNat_of_nonneg hb.1, hc] at this
      exact this
    · intro hne
      have hh := (hpl.1 q hq).1
      obtain ⟨r, hr, hhr⟩ := h.cover _ (hbox r' hr' _ hh)
      obtain ⟨q1, hq1, hc1⟩ := (FileRank.places (h.colls r hr).inside).2 _ hhr
      obtain ⟨ids0, off0, hl0⟩ := hloc r' hr' l _ _ _ hl r hr
      rw [← hc1] at hne
      have hm1 := (hD.marked r hr l _ hl0 q1 hq1).2 hne
      obtain ⟨r2, hr2, id2, hid2, hc2⟩ := (hs.pixels l hname _).1 ⟨r, hr, q1, hm1, hc1⟩
      have hb := (h'.ids_ok hr2 l).2 id2 hid2
      have e2 : ((id2.toNat : Nat) : Int) = id2 := Int.toNat_of_nonneg hb.1
      have hpl2 := FileRank.places (h'.colls r2 hr2).inside
      have hh2 := (hpl2.1 id2.toNat (by omega)).1
      rw [e2, hc2] at hh2
      have er := h'.hereOf hr' hr2 hh hh2
      subst er
      have := FileRank.coord_inj (h'.colls r' hr').inside hq (show id2.toNat < r'.size by omega) (by rw [e2, hc2])
      rw [this, e2]
      exact hid2
  · intro r' hr' l x hl g hg
    obtain ⟨ids, t, off⟩ := x
    obtain ⟨ids0, off0, hl0⟩ := hloc r' hr' l _ _ _ hl r0 h0
    exact hD.range r0 h0 l _ hl0 g hg
  · intro r' hr' l x hl g g' hg hg'
    obtain ⟨ids, t, off⟩ := x
    obtain ⟨ids0, off0, hl0⟩ := hloc r' hr' l _ _ _ hl r0 h0
    exact hD.inj r0 h0 l _ hl0 g g' hg hg'

/-! ### Values -/

theorem forall₂_congr_mem {β γ : Type} {R S : β → γ → Prop} {l : List β} {l' : List γ}
    (h : ∀ x ∈ l, ∀ y, R x y ↔ S x y) : List.Forall₂ R l l' ↔ List.Forall₂ S l l' := by
  induction l generalizing l' with
  | nil => simp
  | cons a l ih =>
    cases l' with
    | nil => simp
    | cons b l' =>
      rw [List.forall₂_cons, List.forall₂_cons, h a (by simp), ih fun x hx => h x (by simp [hx])]

theorem varHolds_iff {α : Type} (h : ProgramOk dom rs) {r0 : FileRank} (h0 : r0 ∈ rs) {e} (he : e ∈ r0.entries)
    (ms : List (ProcMem α)) (val : Values α) :
    VarHolds (progOf rs) (varOf rs e) ms val ↔ List.Forall₂ (fun r m => r.Holds e.2.1 val m) rs ms := by
  have hone : ∀ r ∈ rs, ∃ e' ∈ r.entries, e'.1 = e.1 ∧ e'.2.1 = e.2.1 ∧ e'.2.2.2 = e.2.2.2 ∧
      ∀ m : ProcMem α, r.Holds e.2.1 val m ↔ PartHolds e'.2.2.2 val e'.2.2.1 (r.view e'.1) m := by
    intro r hr
    obtain ⟨e', he', e1, e2, e3, -⟩ := sig_entry (h.same r0 h0 r hr) he
    refine ⟨e', he', e1, e2, e3, fun m => ⟨?_, fun hh => ⟨e', he', e2, hh⟩⟩⟩
    rintro ⟨e'', he'', n, hh⟩
    rwa [eq_of_key (h.colls r hr).entries_nodup he'' he' (n.trans e2.symm)] at hh
  cases hk : e.1 with
  | none =>
    have hl : (varOf rs e).localName = none := by rw [varOf, hk]; rfl
    rw [VarHolds, hl]
    show List.Forall₂ _ (rs.map _) ms ↔ _
    rw [List.forall₂_map_left_iff]
    refine forall₂_congr_mem fun r hr m => ?_
    obtain ⟨e', he', e1, e2, e3, hiff⟩ := hone r hr
    rw [hiff, ← e2, FileRank.part_eq (h.colls r hr) he', e1, hk]
    show PartHolds e.2.2.2 val (entryVar e').field id m ↔ _
    rw [entryVar_field, e3]
    rfl
  | some x =>
    obtain ⟨l, total⟩ := x
    have hl : (varOf rs e).localName = some l := by rw [varOf, hk]; rfl
    rw [VarHolds, hl]
    show List.Forall₂ _ (rs.map _) ms ↔ _
    rw [List.forall₂_map_left_iff]
    refine forall₂_congr_mem fun r hr m => ?_
    obtain ⟨e', he', e1, e2, e3, hiff⟩ := hone r hr
    rw [hiff, show (varOf rs e).name = e.2.1 from rfl, ← e2, FileRank.part_eq (h.colls r hr) he', e1, hk]
    show PartHolds e.2.2.2 val (entryVar e').field _ m ↔ _
    rw [entryVar_field, e3]
    rfl

theorem programHolds_iff {α : Type} (h : ProgramOk dom rs) (hF : ∀ r ∈ rs, RegOf mode r (F r)) (mem : Memory α)
    (cur : String → Values α) :
    ProgramHolds rs mem cur ↔ ∀ x ∈ joinVars (rs.map F), VarHolds (progOf rs) x (mem x.name) (cur x.name) := by
  obtain ⟨r0, rest, hrs⟩ : ∃ r0 rest, rs = r0 :: rest := by
    cases hrs : rs with
    | nil => exact absurd hrs h.nonempty
    | cons a l => exact ⟨a, l, rfl⟩
  have h0 : r0 ∈ rs := by rw [hrs]; simp
  have hnames : storedNames rs = r0.entries.map fun e => e.2.1 := by rw [hrs]; rfl
  rw [joinVars_eq h hF hrs, ProgramHolds, hnames]
  constructor
  · intro hh x hx
    obtain ⟨e, he, rfl⟩ := List.mem_map.1 hx
    exact (varHolds_iff h h0 he _ _).2 (hh e.2.1 (List.mem_map.2 ⟨e, he, rfl⟩))
  · intro hh n hn
    obtain ⟨e, he, rfl⟩ := List.mem_map.1 hn
    exact (varHolds_iff h h0 he _ _).1 (hh _ (List.mem_map.2 ⟨e, he, rfl⟩))

theorem storedNames_eq (h : ProgramOk dom rs) (hF : ∀ r ∈ rs, RegOf mode r (F r)) :
    (joinVars (rs.map F)).map SessVar.name = storedNames rs := by
  obtain ⟨r0, rest, hrs⟩ : ∃ r0 rest, rs = r0 :: rest := by
    cases hrs : rs with
    | nil => exact absurd hrs h.nonempty
    | cons a l => exact ⟨a, l, rfl⟩
  rw [joinVars_eq h hF hrs, List.map_map, hrs]
  rfl

theorem sameOp_congr {C E : Type} {R S : C → E → Prop} (h : ∀ c d, R c d → S c d) {l : List (FileOp C)} {l' : List (FileOp E)}
    (hl : List.Forall₂ (SameOp R) l l') : List.Forall₂ (SameOp S) l l' := by
  refine hl.imp fun a b hab => ?_
  cases hab with
  | appendFrame => exact .appendFrame
  | write fr ns => exact .write fr ns
  | writeAll fr => exact .writeAll fr
  | read fr ns => exact .read fr ns
  | readAll fr => exact .readAll fr
  | compute hc => exact .compute (h _ _ hc)

theorem noHidden_of (h : ProgramOk dom rs) (hF : ∀ r ∈ rs, RegOf mode r (F r)) (vars : List SessVar) {C : Type} {op : FileOp C}
    (ho : NoLocalNames rs op) : NoHidden vars (joinHidden (rs.map F)) op := by
  have key : ∀ n, n ∉ localNames rs → joinHidden (rs.map F) n = none := by
    intro n hn
    refine joinHidden_none h.nonempty hF fun r hr => ?_
    rw [h.localNames_iff hr] at hn
    exact not_not.1 hn
  cases op with
  | write fr ns => exact fun n hn => Or.inr (key n (ho n hn))
  | read fr ns => exact fun n hn => Or.inr (key n (ho n hn))
  | appendFrame => trivial
  | writeAll fr => trivial
  | readAll fr => trivial
  | compute c => trivial

theorem refused_of (h : ProgramOk dom rs) (hF : ∀ r ∈ rs, RegOf mode r (F r)) {C : Type} {op : FileOp C}
    (ho : RefusedBy rs op) : Refused (joinVars (rs.map F)) op := by
  obtain ⟨r0, rest, hrs⟩ : ∃ r0 rest, rs = r0 :: rest := by
    cases hrs : rs with
    | nil => exact absurd hrs h.nonempty
    | cons a l => exact ⟨a, l, rfl⟩
  have key : ∀ n, (∃ x ∈ joinVars (rs.map F), x.name = n ∧ x.localName ≠ none) →
      ∃ r ∈ rs, ∃ e ∈ r.entries, e.2.1 = n ∧ e.1 ≠ none := by
    rintro n ⟨x, hx, rfl, hl⟩
    rw [joinVars_eq h hF hrs] at hx
    obtain ⟨e, he, rfl⟩ := List.mem_map.1 hx
    refine ⟨r0, by rw [hrs]; simp, e, he, rfl, fun hk => hl ?_⟩
    rw [varOf, hk]; rfl
  unfold RefusedBy at ho
  unfold Refused
  rw [storedNames_eq h hF]
  cases op <;> first | trivial | exact fun n hn hx => ho n hn (key n hx)

/-- The parts of the hidden variable and the entries have one number per pixel. -/
theorem marks_lengths (h : ProgramOk dom rs) (hF : ∀ r ∈ rs, RegOf mode r (F r)) (hm : mode = .read ∨ mode = .append) {r : FileRank} (hr : r ∈ rs)
    {l : String} {x} (hl : r.localColl l = some x) :
    (joinMarks (rs.map F) l).map List.length = ((progOf rs).hid l).map HiddenPart.size := by
  obtain ⟨ids, total, off⟩ := x
  rw [joinMarks, progOf, List.map_map, List.map_map, List.map_map]
  refine List.map_congr_left fun r' hr' => ?_
  obtain ⟨ids', off', hl'⟩ := sig_local (h.same r hr r' hr') (h.colls r' hr') hl
  simp only [Function.comp_apply]
  rw [(hF r' hr').marks (h.colls r' hr') hl', pixelMarks, if_neg (by rcases hm with rfl | rfl <;> simp)]
  simp [FileRank.size]

theorem marks_entries (h : ProgramOk dom rs) (hF : ∀ r ∈ rs, RegOf mode r (F r)) (hm : mode = .write ∨ mode = .overwrite) {r : FileRank} (hr : r ∈ rs)
    {l : String} {x} (hl : r.localColl l = some x) {M : List Int → Int}
    (hM : ∀ r ∈ rs, ∀ ids total off, r.localColl l = some (ids, total, off) →
      markPixels r.size off ids = .ok ((List.range r.size).map fun q : Nat => M (r.coord q))) :
    joinMarks (rs.map F) l = ((progOf rs).hid l).map fun p : HiddenPart => p.entries M := by
  obtain ⟨ids, total, off⟩ := x
  rw [joinMarks, progOf, List.map_map, List.map_map]
  refine List.map_congr_left fun r' hr' => ?_
  obtain ⟨ids', off', hl'⟩ := sig_local (h.same r hr r' hr') (h.colls r' hr') hl
  simp only [Function.comp_apply]
  rw [(hF r' hr').marks (h.colls r' hr') hl', pixelMarks, if_pos hm]
  have := hM r' hr' ids' total off' hl'
  rw [FileRank.size] at this
  rw [this]
  rfl

theorem var_local (h : ProgramOk dom rs) (hF : ∀ r ∈ rs, RegOf mode r (F r)) {x : SessVar} (hx : x ∈ joinVars (rs.map F)) {l : String}
    (hl : x.localName = some l) : ∃ r ∈ rs, ∃ y, r.localColl l = some y := by
  obtain ⟨r0, rest, hrs⟩ : ∃ r0 rest, rs = r0 :: rest := by
    cases hrs : rs with
    | nil => exact absurd hrs h.nonempty
    | cons a l => exact ⟨a, l, rfl⟩
  have h0 : r0 ∈ rs := by rw [hrs]; simp
  rw [joinVars_eq h hF hrs] at hx
  obtain ⟨e, he, rfl⟩ := List.mem_map.1 hx
  cases hk : e.1 with
  | none => rw [varOf, hk] at hl; cases hl
  | some x =>
    rw [varOf, hk] at hl
    cases hl
    obtain ⟨ids, off, h1, -⟩ := h.entry_local h0 he (l := x.1) (total := x.2) hk
    exact ⟨r0, h0, _, h1⟩

theorem signature_eq {rs' : List FileRank} {mode' : OpenMode} {F' : FileRank → Reg} (h : ProgramOk dom rs) (hF : ∀ r ∈ rs, RegOf mode r (F r))
    (h' : ProgramOk dom rs') (hF' : ∀ r ∈ rs', RegOf mode' r (F' r)) (hs : SameData rs rs') :
    (joinVars (rs.map F)).map signature = (joinVars (rs'.map F')).map signature := by
  obtain ⟨r0, rest, hrs⟩ : ∃ r0 rest, rs = r0 :: rest := by
    cases hrs : rs with
    | nil => exact absurd hrs h.nonempty
    | cons a l => exact ⟨a, l, rfl⟩
  obtain ⟨r0', rest', hrs'⟩ : ∃ r0 rest, rs' = r0 :: rest := by
    cases hrs' : rs' with
    | nil => exact absurd hrs' h'.nonempty
    | cons a l => exact ⟨a, l, rfl⟩
  rw [joinVars_eq h hF hrs, joinVars_eq h' hF' hrs', List.map_map, List.map_map]
  have hsig := hs.same r0 (by rw [hrs]; simp) r0' (by rw [hrs']; simp)
  rw [FileRank.entries, FileRank.entries]
  generalize r0.colls = cs at hsig
  generalize r0'.colls = cs' at hsig
  have key : ∀ (rs : List FileRank) (cs : List IoColl), (cs.flatMap fun c => c.toStore.map fun x => (c.kind, x)).map (signature ∘ varOf rs) =
      (cs.map IoColl.sig).flatMap fun p => p.2.map fun y => (y.1, y.2.1, p.1.map Prod.fst) := by
    intro rs cs
    induction cs with
    | nil => rfl
    | cons c cs ih =>
      rw [List.flatMap_cons, List.map_append, ih, List.map_cons, List.flatMap_cons]
      congr 1
      rw [List.map_map, IoColl.sig, List.map_map]
      rfl
  rw [key, key, hsig]

/-! ### Registration on all processes -/

/-- The state of a process after registration. -/
def regOf (mode : OpenMode) (dims : List Dim) (vars : List String) (numrecs : Int) (r : FileRank) : Reg :=
  ((Reg.opened mode dims vars numrecs).run (registerAll r.colls)).2

theorem registerRanks_snd (mode : OpenMode) (dims : List Dim) (vars : List String) (numrecs : Int) (rs : List FileRank) :
    (registerRanks mode dims vars numrecs (rs.map FileRank.colls)).map Prod.snd = rs.map (regOf mode dims vars numrecs) := by
  rw [registerRanks, List.map_map, List.map_map]
  rfl

theorem sameStored_of_sig {c c' : IoColl} (h : c.sig = c'.sig) : SameStored c c' := by
  refine ⟨?_, fun x' hx' => by
    obtain ⟨x, hx, e1, e2, e3, e4, e5, -⟩ := sig_stored h hx'
    exact ⟨x, hx, e1, e2, e3, e4, e5⟩⟩
  have hk : c.kind = c'.kind := congrArg Prod.fst h
  rw [IoColl.kind, IoColl.kind] at hk
  cases hd : c.domain <;> cases hd' : c'.domain <;> rw [hd, hd'] at hk <;> simp at hk ⊢
  exact ⟨hk.2, hk.1⟩

/-- What the file has for a variable depends only on what all processes agree on. -/
theorem collVars_sig {d d' : List Int × List Int × List Int} (hd : d.1 = d'.1) {c c' : IoColl} (h : c.sig = c'.sig)
    (hc : CollOk d c) (hc' : CollOk d' c') :
    (collVars d c).map (fun v => (v.name, v.hist, v.dims, v.dataType)) = (collVars d' c').map fun v => (v.name, v.hist, v.dims, v.dataType) := by
  have hk : c.kind = c'.kind := congrArg Prod.fst h
  have hs := congrArg Prod.snd h
  have hsub : ∀ f : IoField, subPtDims f = subPtDims
      { f with layout := ⟨.colMajor, f.layout.comps, f.layout.nbSub, [], [], 0⟩ } := fun f => rfl
  cases hdom : c.domain with
  | global nb sh loc =>
    rw [IoColl.kind, hdom] at hk
    obtain ⟨nb', sh', loc', hdom'⟩ := kind_none hk.symm
    let G : List Int → String × Option Nat × String × List Int × Int × Collection.ElemType →
        String × Option Nat × List Dim × NetCDFAtt.NcType := fun dm y =>
      (y.1, y.2.1, leadDims false y.2.1 ++ (tensorDims y.1 0 y.2.2.2.1 ++ (subPtDims
        ⟨"", y.2.2.1, ⟨.colMajor, y.2.2.2.1, y.2.2.2.2.1, [], [], 0⟩, 0, true, [], [], y.2.2.2.2.2⟩ ++
          List.zipWith (fun nm n => ⟨dimName nm "", n⟩) gridNames dm)),
        match ncTypeOf y.2.2.2.2.2 with | .ok t => t | _ => .other)
    have key : ∀ {d : List Int × List Int × List Int} {c : IoColl} {nb sh loc}, CollOk d c → c.domain = .global nb sh loc →
        (collVars d c).map (fun v => (v.name, v.hist, v.dims, v.dataType)) = c.sig.2.map (G d.1) := by
      intro d c nb sh loc hc hdom
      rw [collVars, hdom, IoColl.sig, List.map_map, List.map_map]
      refine List.map_congr_left fun x hx => ?_
      have := (hc.global _ _ _ hdom x hx).2.1
      simp only [Function.comp_apply, globalVar, G, Prod.mk.injEq, true_and]
      rw [this]
      exact ⟨rfl, rfl⟩
    rw [key hc hdom, key hc' hdom', hs, hd]
  | isLocal ids total off =>
    rw [IoColl.kind, hdom] at hk
    obtain ⟨hn, ids', off', hdom'⟩ := kind_some hk.symm
    let G : String × Option Nat × String × List Int × Int × Collection.ElemType →
        String × Option Nat × List Dim × NetCDFAtt.NcType := fun y =>
      (y.1, y.2.1, localDims y.1 ⟨"", y.2.2.1, ⟨.colMajor, y.2.2.2.1, y.2.2.2.2.1, [], [], 0⟩, 0, true, [], [], y.2.2.2.2.2⟩ y.2.1 total,
        match ncTypeOf y.2.2.2.2.2 with | .ok t => t | _ => .other)
    have key : ∀ {d : List Int × List Int × List Int} {c : IoColl} {ids off}, c.domain = .isLocal ids total off →
        (collVars d c).map (fun v => (v.name, v.hist, v.dims, v.dataType)) =
          (c.name, none, (globalVar c.name (pixelField c.name d) true none).dims, .int64) :: c.sig.2.map G := by
      intro d c ids off hdom
      rw [collVars, hdom, IoColl.sig, List.map_cons, List.map_map, List.map_map]
      rfl
    rw [key hdom, key hdom', hs, hn]
    simp only [globalVar, pixelField, subPtDims, hd]
    rfl

theorem allVars_sig {d d' : List Int × List Int × List Int} (hd : d.1 = d'.1) {cs cs' : List IoColl}
    (h : cs.map IoColl.sig = cs'.map IoColl.sig) (hc : ∀ c ∈ cs, CollOk d c) (hc' : ∀ c ∈ cs', CollOk d' c) :
    (cs.flatMap (collVars d)).map (fun v => (v.name, v.hist, v.dims, v.dataType)) =
      (cs'.flatMap (collVars d')).map fun v => (v.name, v.hist, v.dims, v.dataType) := by
  induction cs generalizing cs' with
  | nil =>
    cases cs' with
    | nil => rfl
    | cons c cs => cases h
  | cons c cs ih =>
    cases cs' with
    | nil => cases h
    | cons c' cs' =>
      rw [List.map_cons, List.map_cons, List.cons.injEq] at h
      rw [List.flatMap_cons, List.flatMap_cons, List.map_append, List.map_append,
        collVars_sig hd h.1 (hc c (by simp)) (hc' c' (by simp)),
        ih h.2 (fun x hx => hc x (by simp [hx])) fun x hx => hc' x (by simp [hx])]

theorem regOf_writing (h : ProgramOk dom rs) (hm : mode = .write ∨ mode = .overwrite) {r : FileRank} (hr : r ∈ rs) :
    (∀ o ∈ ((Reg.opened mode [] [] 0).run (registerAll r.colls)).1, o = .ok ()) ∧
      Writing (dimsOf r.dom.1 r.colls) r.dom r.colls (regOf mode [] [] 0 r) :=
  run_writing (h.colls r hr) (pre := []) rfl (created_writing r.dom r.colls hm)

theorem collMarks_congr {m m' : OpenMode} (h : (m = .write ∨ m = .overwrite) ↔ (m' = .write ∨ m' = .overwrite))
    (d : List Int × List Int × List Int) : collMarks m d = collMarks m' d := by
  funext c
  rw [collMarks, collMarks]
  cases c.domain with
  | global nb sh loc => rfl
  | isLocal ids total off =>
    simp only [pixelMarks, h]

theorem regOf_new (h : ProgramOk dom rs) (hm : mode = .write ∨ mode = .overwrite) {r : FileRank} (hr : r ∈ rs) :
    RegOf mode r (regOf mode [] [] 0 r) := by
  obtain ⟨-, hw⟩ := regOf_writing h hm hr
  exact ⟨hw.vars, by rw [hw.gfc, collMarks_congr (m' := mode) ⟨fun _ => hm, fun _ => hw.mode⟩]⟩

theorem colls_ne_nil (h : ProgramOk dom rs) {r : FileRank} (hr : r ∈ rs) : r.colls ≠ [] := by
  obtain ⟨c, rest, e, -⟩ := (h.colls r hr).first
  rw [e]; simp

theorem regOf_fileDims (h : ProgramOk dom rs) (hm : mode = .write ∨ mode = .overwrite) {r : FileRank} (hr : r ∈ rs) :
    (regOf mode [] [] 0 r).fileDims = addNew [⟨"frame", 0⟩] ((r.colls.flatMap (collVars r.dom)).flatMap Var.dims) := by
  obtain ⟨-, hw⟩ := regOf_writing h hm hr
  obtain ⟨A, B, h1, h2, h3⟩ := hw.marked
  rw [h2, ← hw.order, h1, h3 (colls_ne_nil h hr)]
  simp [Function.comp_def]

/-- All processes define the same. -/
theorem header_eq (h : ProgramOk dom rs) (hm : mode = .write ∨ mode = .overwrite) {r r' : FileRank} (hr : r ∈ rs) (hr' : r' ∈ rs) :
    (regOf mode [] [] 0 r).fileDims = (regOf mode [] [] 0 r').fileDims ∧
    (regOf mode [] [] 0 r).fileVars = (regOf mode [] [] 0 r').fileVars ∧
    (regOf mode [] [] 0 r).vars.map (fun v => (v.1.name, v.1.hist, v.1.dims, v.1.dataType)) =
      (regOf mode [] [] 0 r').vars.map fun v => (v.1.name, v.1.hist, v.1.dims, v.1.dataType) := by
  have key := allVars_sig ((h.domain r hr).trans (h.domain r' hr').symm) (h.same r hr r' hr') (h.colls r hr).each
    (h.colls r' hr').each
  refine ⟨?_, ?_, ?_⟩
  · rw [regOf_fileDims h hm hr, regOf_fileDims h hm hr']
    have := congrArg (List.flatMap fun x => x.2.2.1) key
    rw [List.flatMap_map, List.flatMap_map] at this
    rw [this]
  · rw [(regOf_writing h hm hr).2.fileVars, (regOf_writing h hm hr').2.fileVars]
    have := congrArg (List.map Prod.fst) key
    rwa [List.map_map, List.map_map] at this
  · rw [(regOf_writing h hm hr).2.vars, (regOf_writing h hm hr').2.vars, List.map_map, List.map_map]
    exact key

theorem regOf_again (h : ProgramOk dom rs) (hm : mode = .write ∨ mode = .overwrite) {r : FileRank} (hr : r ∈ rs)
    {rs' : List FileRank} (h' : ProgramOk dom rs') (hs : SameData rs rs') {mode' : OpenMode} (hm' : mode' = .read ∨ mode' = .append)
    (numrecs : Int) {r' : FileRank} (hr' : r' ∈ rs') :
    let w := regOf mode [] [] 0 r
    let s := regOf mode' w.fileDims w.fileVars numrecs r'
    (∀ o ∈ ((Reg.opened mode' w.fileDims w.fileVars numrecs).run (registerAll r'.colls)).1, o = .ok ()) ∧
      RegOf mode' r' s ∧ s.fileDims = w.fileDims ∧ s.fileVars = w.fileVars ∧ s.nbFrames = numrecs := by
  intro w s
  obtain ⟨h1, K, h2⟩ := run_again (h.colls r hr) hm (h'.colls r' hr') ((h'.domain r' hr').trans (h.domain r hr).symm)
    (fun c' hc' => by
      obtain ⟨c, hc, e⟩ := sig_coll (hs.same r hr r' hr').symm hc'
      exact ⟨c, hc, sameStored_of_sig e⟩) hm' numrecs
  have hnot : ∀ {m : OpenMode}, (m = .read ∨ m = .append) → ¬ (m = .write ∨ m = .overwrite) := by
    rintro m (rfl | rfl) <;> simp
  refine ⟨h1, ⟨h2.vars, ?_⟩, h2.fileDims_eq, h2.fileVars_eq, h2.nbFrames⟩
  exact h2.gfc.trans (by rw [collMarks_congr (m' := mode') ⟨fun e => absurd e (hnot h2.mode), fun e => absurd e (hnot hm')⟩])

theorem headerOf_map {F : FileRank → Reg} {r0 : FileRank} {rest : List FileRank} (hrs : rs = r0 :: rest) :
    headerOf (rs.map F) = ((F r0).fileDims, (F r0).fileVars) := by
  rw [hrs]; rfl

theorem ok_all {mode : OpenMode} {dims : List Dim} {vars : List String} {numrecs : Int}
    (h : ∀ r ∈ rs, ∀ o ∈ ((Reg.opened mode dims vars numrecs).run (registerAll r.colls)).1, o = .ok ()) :
    ∀ os ∈ (registerRanks mode dims vars numrecs (rs.map FileRank.colls)).map Prod.fst, ∀ o ∈ os, o = .ok () := by
  intro os hos
  rw [registerRanks, List.map_map, List.map_map] at hos
  obtain ⟨r, hr, rfl⟩ := List.mem_map.1 hos
  exact h r hr

theorem joinSess_created {F : FileRank → Reg} (hne : rs ≠ []) (h0 : ∀ r ∈ rs, (F r).nbFrames = n) :
    joinSess mode (rs.map F) = ⟨mode, joinVars (rs.map F), joinHidden (rs.map F), n, joinMarks (rs.map F), [], []⟩ := by
  cases rs with
  | nil => exact absurd rfl hne
  | cons r0 rest =>
    rw [← h0 r0 (by simp)]
    rfl

end

end Verif
