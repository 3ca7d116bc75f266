import Verif.Spec.PyFile
import Verif.Props.PySession
import Verif.Props.FileRanks
/-
Helper lemmas for C82: the collections of a python program as the collections of a program that uses a file.
-/
set_option linter.unusedSectionVars false

namespace Verif.SMap
variable {κ β γ : Type} [LinearOrder κ]

theorem find_mapKey (m : SMap κ β) (f : κ → β → γ) (k : κ) :
    find (m.map (fun e => (e.1, f e.1 e.2)) : SMap κ γ) k = (m.find k).map (f k) := by
  induction m with
  | nil => rfl
  | cons e m ih =>
    obtain ⟨k', v'⟩ := e
    simp only [List.map_cons, find_cons, ih]
    split
    · rename_i h; rw [h]; rfl
    · rfl

theorem sorted_mapKey {m : SMap κ β} (hs : m.Sorted) (f : κ → β → γ) :
    Sorted (m.map (fun e => (e.1, f e.1 e.2)) : SMap κ γ) := by
  unfold Sorted at *
  rw [List.pairwise_map]
  exact hs.imp (fun h => h)

theorem find_units (l : List κ) (k : κ) :
    (k ∈ l → find (l.map fun n => (n, ()) : SMap κ Unit) k = some ()) ∧
      (k ∉ l → find (l.map fun n => (n, ()) : SMap κ Unit) k = none) := by
  induction l with
  | nil => exact ⟨fun h => absurd h (by simp), fun _ => rfl⟩
  | cons m l ih =>
    rw [List.map_cons, find_cons]
    by_cases h : m = k
    · subst h; simp
    · have : ¬ k = m := fun e => h e.symm
      simp only [h, if_false, List.mem_cons, this, false_or]
      exact ih

end Verif.SMap

namespace Verif.Props
open Verif Verif.Ccoord Verif.Layout Verif.Layout.FieldLayout Verif.RawMemory Verif.Numpy Verif.Collection
  Verif.Collection.Coll Verif.PyField Verif.PySession Verif.PyArrays Verif.NetCDF Verif.PyFile Verif.FileIO

variable {α U : Type} [Inhabited α] [DecidableEq U]

/-- The process with this collection. -/
def rankOf (c : Coll α U) : FileRank := ⟨(c.domainPts, c.pixels.nb, c.pixels.loc), [ioColl c]⟩

/-- The collection of a process shows the arrays of the part. -/
structure OnPart (dom : List Int) (c : Coll α U) (p : Part α U) : Prop where
  shows : Displays c p.dict
  isGlobal : c.global = true
  domain : c.domainPts = dom
  loc : c.pixels.loc = p.loc
  states : c.states = []

theorem OnPart.nb {dom : List Int} {c : Coll α U} {p : Part α U} (h : OnPart dom c p) : c.pixels.nb = p.dict.grid := by
  have := h.shows.grid
  rwa [pixShapeOf, h.isGlobal, if_pos rfl] at this

theorem toStore_ioColl (c : Coll α U) :
    (ioColl c).toStore = c.fields.map fun e => (e.1, ioField c e, none) := by
  simp [IoColl.toStore, ioColl, IoColl.plain, IoColl.subs, ioField, List.map_map, Function.comp_def]

theorem fileNames_ioColl (c : Coll α U) : (ioColl c).fileNames = c.fields.keys := by
  rw [IoColl.fileNames, toStore_ioColl]
  simp [ioColl, SMap.keys, List.map_map, Function.comp_def]

theorem sig_ioColl (c : Coll α U) :
    (ioColl c).sig = (none, c.fields.map fun e => (e.1, none, e.2.tag, e.2.shape, e.2.nbSub, e.2.ty)) := by
  rw [IoColl.sig, toStore_ioColl, List.map_map]
  rfl

theorem entries_rankOf (c : Coll α U) :
    (rankOf c).entries = c.fields.map fun e => (none, e.1, ioField c e, none) := by
  simp only [FileRank.entries, rankOf, List.flatMap_cons, List.flatMap_nil, List.append_nil, toStore_ioColl, List.map_map]
  rfl

theorem OnPart.collOk {dom : List Int} {names : List String} {ps : List (Part α U)} (ht : Together dom names ps)
    {c : Coll α U} {p : Part α U} (hp : p ∈ ps) (h : OnPart dom c p) :
    CollsOk (c.domainPts, c.pixels.nb, c.pixels.loc) [ioColl c] := by
  have hin := ht.inside p hp
  rw [← h.nb, ← h.loc] at hin
  have hnd := SMap.sorted_nodup h.shows.size.wf.fields_sorted
  refine ⟨by rw [h.domain]; exact ht.pos, by rw [h.domain]; exact ht.dim, by rw [h.domain]; exact hin,
    ⟨_, _, rfl, rfl⟩, ?_, ?_, ?_⟩
  · intro c' hc'
    rw [List.mem_singleton] at hc'
    subst hc'
    refine ⟨h.shows.init, ?_, List.nodup_nil, ?_, ?_⟩
    · simpa [ioColl, ioField, SMap.keys, List.map_map, Function.comp_def] using hnd
    · intro nb sh loc _ x hx
      rw [toStore_ioColl] at hx
      obtain ⟨⟨n, f⟩, he, rfl⟩ := List.mem_map.1 hx
      have hf := SMap.find_of_mem h.shows.size.wf.fields_sorted he
      obtain ⟨a, ha⟩ := h.shows.arr hf
      have hd := h.shows.disp n f a hf ha
      have hst := ht.store p hp n a ha
      have hsub := h.shows.sub_pos hf
      have haddr := h.shows.addr
      rw [← h.shows.grid] at haddr
      have hc : nbPixels a.comps = (ioField c (n, f)).layout.nbComp := by
        rw [nbPixels_eq_getSize, ← hd.comps]; rfl
      refine ⟨⟨h.shows.order, ?_, ?_, ?_, h.isGlobal, ?_, ?_, haddr⟩, rfl, ?_, ?_, ?_, ?_⟩
      · show Pos f.shape
        rw [hd.comps]; exact hd.pos
      · show f.shape.length ≤ _
        rw [hd.comps]; exact hst.rank
      · show 0 < f.nbSub
        omega
      · show Pos c.domainPts
        rw [h.domain]; exact ht.pos
      · show Within c.domainPts (if c.global then c.pixels.nb else [c.nbPixels]) c.pixels.loc
        rw [h.isGlobal, if_pos rfl, h.domain]; exact hin
      · show f.ty ≠ .complex
        rw [hd.ty]; exact hst.real
      · intro e
        rw [← hc] at e
        exact hd.nb.trans (hst.scalar e)
      · intro e
        exact hst.name (by rw [← hd.comps]; exact e)
      · intro e
        rw [← hc] at e
        show Clean f.tag
        rw [hd.tag]; exact hst.tag e
    · intro ids total off e
      cases e
  · simpa [fileNames_ioColl] using hnd
  · intro n hn
    simp [IoColl.subs, ioColl] at hn

theorem OnPart.sig_eq {dom : List Int} {names : List String} {ps : List (Part α U)} (ht : Together dom names ps)
    {dom' : List Int} {ps' : List (Part α U)} (ht' : Together dom' names ps')
    (hs : ∀ p ∈ ps, ∀ p' ∈ ps', ∀ n a a', p.dict.arrs n = some a → p'.dict.arrs n = some a' → a.stored = a'.stored)
    {c c' : Coll α U} {p p' : Part α U} (hp : p ∈ ps) (hp' : p' ∈ ps') (h : OnPart dom c p) (h' : OnPart dom' c' p') :
    (ioColl c).sig = (ioColl c').sig := by
  rw [sig_ioColl, sig_ioColl]
  congr 1
  refine SMap.ext_find (m := (c.fields.map fun e => (e.1, none, e.2.tag, e.2.shape, e.2.nbSub, e.2.ty) :
    SMap String (Option Nat × String × List Int × Int × Collection.ElemType))) (SMap.sorted_map h.shows.size.wf.fields_sorted
      fun f => ((none : Option Nat), f.tag, f.shape, f.nbSub, f.ty))
    (SMap.sorted_map h'.shows.size.wf.fields_sorted fun f => ((none : Option Nat), f.tag, f.shape, f.nbSub, f.ty)) fun n => ?_
  rw [SMap.find_map c.fields (fun f => ((none : Option Nat), f.tag, f.shape, f.nbSub, f.ty)),
    SMap.find_map c'.fields (fun f => ((none : Option Nat), f.tag, f.shape, f.nbSub, f.ty))]
  have e1 := ht.called p hp n
  have e2 := ht'.called p' hp' n
  cases hf : c.fields.find n with
  | none =>
    have h1 := (h.shows.names n).1 hf
    rw [h1] at e1
    have h2 : p'.dict.arrs n = none := by
      cases hx : p'.dict.arrs n with
      | none => rfl
      | some a => rw [hx] at e2; simp at e1 e2; exact absurd e2 e1
    rw [(h'.shows.names n).2 h2]
  | some f =>
    obtain ⟨a, ha⟩ := h.shows.arr hf
    rw [ha] at e1
    have hn : n ∈ names := e1.2 rfl
    obtain ⟨a', ha'⟩ := Option.isSome_iff_exists.1 (e2.1 hn)
    cases hf' : c'.fields.find n with
    | none => rw [(h'.shows.names n).1 hf'] at ha'; cases ha'
    | some f' =>
      have d1 := h.shows.disp n f a hf ha
      have d2 := h'.shows.disp n f' a' hf' ha'
      have := hs p hp p' hp' n a a' ha ha'
      simp only [Arr.stored, Prod.mk.injEq] at this
      simp only [Option.map_some, d1.tag, d2.tag, d1.comps, d2.comps, d1.nb, d2.nb, d1.ty, d2.ty, this.1, this.2.1, this.2.2.1,
        this.2.2.2]

theorem forall₂_mem_left {β γ : Type} {R : β → γ → Prop} {l : List β} {l' : List γ} (h : List.Forall₂ R l l') {x : β}
    (hx : x ∈ l) : ∃ y ∈ l', R x y := by
  induction h with
  | nil => cases hx
  | cons h1 _ ih =>
    rcases List.mem_cons.1 hx with rfl | hx
    · exact ⟨_, by simp, h1⟩
    · obtain ⟨y, hy, hr⟩ := ih hx
      exact ⟨y, by simp [hy], hr⟩

theorem pairwise_forall₂ {β γ : Type} {R : β → γ → Prop} {S : γ → γ → Prop} {T : β → β → Prop} {l : List β} {l' : List γ}
    (h : List.Forall₂ R l l') (hp : l'.Pairwise S) (hi : ∀ x x' y y', R x y → R x' y' → S y y' → T x x') : l.Pairwise T := by
  induction h with
  | nil => exact List.Pairwise.nil
  | cons h1 h2 ih =>
    rw [List.pairwise_cons] at hp ⊢
    refine ⟨fun x hx => ?_, ih hp.2⟩
    obtain ⟨y, hy, hr⟩ := forall₂_mem_left h2 hx
    exact hi _ _ _ _ h1 hr (hp.1 y hy)

theorem OnPart.here {dom : List Int} {c : Coll α U} {p : Part α U} (h : OnPart dom c p) (g : List Int) :
    (rankOf c).Here g ↔ p.Here g := by
  show InBoxAt c.pixels.nb c.pixels.loc g ↔ _
  rw [h.nb, h.loc]
  rfl

theorem programOk_of {dom : List Int} {names : List String} {cs : List (Coll α U)} {ps : List (Part α U)}
    (ht : Together dom names ps) (h : List.Forall₂ (OnPart dom) cs ps) :
    Verif.ProgramOk dom (cs.map rankOf) ∧ Numbered (cs.map rankOf) ∧ storedNames (cs.map rankOf) = names ∧
      localNames (cs.map rankOf) = [] := by
  have hmem : ∀ r ∈ cs.map rankOf, ∃ c p, c ∈ cs ∧ p ∈ ps ∧ OnPart dom c p ∧ r = rankOf c := by
    intro r hr
    obtain ⟨c, hc, rfl⟩ := List.mem_map.1 hr
    obtain ⟨p, hp, ho⟩ := forall₂_mem_left h hc
    exact ⟨c, p, hc, hp, ho, rfl⟩
  refine ⟨⟨?_, ?_, ?_, ?_, ?_, ?_, ?_, ?_⟩, ?_, ?_, ?_⟩
  · intro e
    have := h.length_eq
    rw [List.map_eq_nil_iff] at e
    subst e
    exact ht.nonempty (List.length_eq_zero_iff.1 this.symm)
  · intro r hr
    obtain ⟨c, p, -, -, ho, rfl⟩ := hmem r hr
    exact ho.domain
  · intro r hr
    obtain ⟨c, p, -, hp, ho, rfl⟩ := hmem r hr
    exact ho.collOk ht hp
  · rw [List.pairwise_map]
    exact pairwise_forall₂ h ht.apart fun c c' p p' h1 h2 hs g hg hg' => hs g ((h1.here g).1 hg) ((h2.here g).1 hg')
  · intro g hg
    obtain ⟨p, hp, hh⟩ := ht.cover g hg
    obtain ⟨c, hc, ho⟩ := forall₂_mem_left h.flip hp
    exact ⟨rankOf c, List.mem_map_of_mem hc, (ho.here g).2 hh⟩
  · intro r hr r' hr'
    obtain ⟨c, p, -, hp, ho, rfl⟩ := hmem r hr
    obtain ⟨c', p', -, hp', ho', rfl⟩ := hmem r' hr'
    show [(ioColl c).sig] = [(ioColl c').sig]
    rw [OnPart.sig_eq ht ht ht.same hp hp' ho ho']
  · intro r hr c' hc' nb sh loc hd x hx
    obtain ⟨c, p, -, hp, ho, rfl⟩ := hmem r hr
    have : c' = ioColl c := by simpa [rankOf] using hc'
    subst this
    rw [toStore_ioColl] at hx
    obtain ⟨⟨n, f⟩, -, rfl⟩ := List.mem_map.1 hx
    refine ⟨?_, rfl⟩
    show (if c.global then c.pixels.nb else [c.nbPixels]) = c.pixels.nb
    rw [ho.isGlobal, if_pos rfl]
  · intro r hr c' hc' ids total off hd
    obtain ⟨c, p, -, hp, ho, rfl⟩ := hmem r hr
    have : c' = ioColl c := by simpa [rankOf] using hc'
    subst this
    cases hd
  · intro before r after e l ids total off hl
    have hr : r ∈ cs.map rankOf := by rw [e]; simp
    obtain ⟨c, p, -, hp, ho, rfl⟩ := hmem r hr
    cases hl
  · cases h with
    | nil => exact absurd rfl ht.nonempty
    | @cons c p cs ps h1 h2 =>
      show (rankOf c).entries.map (fun e => e.2.1) = names
      rw [entries_rankOf, List.map_map]
      have e1 : (c.fields.map fun e => (e.1, ()) : SMap String Unit) = names.map fun n => (n, ()) := by
        refine SMap.ext_find (SMap.sorted_map h1.shows.size.wf.fields_sorted fun _ => ()) ?_ fun n => ?_
        · rw [SMap.Sorted, List.pairwise_map]; exact ht.sorted
        · rw [SMap.find_map c.fields fun _ => ()]
          have hn := ht.called p (by simp) n
          have hu := SMap.find_units names n
          cases hf : c.fields.find n with
          | none =>
            rw [(h1.shows.names n).1 hf] at hn
            rw [hu.2 (by rw [hn]; simp)]; rfl
          | some f =>
            obtain ⟨a, ha⟩ := h1.shows.arr hf
            rw [ha] at hn
            rw [hu.1 (hn.2 rfl)]; rfl
      have := congrArg (List.map Prod.fst) e1
      simpa [List.map_map, Function.comp_def] using this
  · cases h with
    | nil => rfl
    | cons h1 h2 => rfl

/-! ### The collections while the program runs -/

/-- The collection `c` of a process that has registered `c0`, and the arrays it shows. -/
structure Now (c0 c : Coll α U) (p : Part α U) : Prop where
  shows : Displays c p.dict
  base : c.base = c0.base
  loc : p.loc = c0.pixels.loc
  len : p.loc.length = p.dict.grid.length
  keeps : ∀ n f0, c0.fields.find n = some f0 →
    ∃ f, c.fields.find n = some f ∧ f.shape = f0.shape ∧ f.nbSub = f0.nbSub

theorem OnPart.now {dom : List Int} {c : Coll α U} {p : Part α U} (h : OnPart dom c p)
    (hl : p.loc.length = p.dict.grid.length) : Now c c p :=
  ⟨h.shows, rfl, h.loc.symm, hl, fun _ f0 h0 => ⟨f0, h0, rfl, rfl⟩⟩

theorem Now.layout {c0 c : Coll α U} {p : Part α U} (h : Now c0 c p) {f f0 : Field α U} (h1 : f.shape = f0.shape)
    (h2 : f.nbSub = f0.nbSub) : c.layout f = c0.layout f0 := by
  rw [layout_of_base h.base]
  simp only [Coll.layout, h1, h2]

theorem Now.grid {c0 c : Coll α U} {p : Part α U} (h : Now c0 c p) (hg : c0.global = true) : c0.pixels.nb = p.dict.grid := by
  have e := h.shows.grid
  have hb := h.base
  simp only [Coll.base, Prod.mk.injEq] at hb
  obtain ⟨b1, b2, b3, b4, b5, b6, b7, b8, b9, b10⟩ := hb
  rwa [pixShapeOf, b1, b9, hg, if_pos rfl] at e

/-- The places of the elements. -/
theorem places_of {c : Coll α U} {d : Dict α U} (h : Displays c d) {n : String} {f : Field α U} {a : Arr α U}
    (hf : c.fields.find n = some f) (ha : d.arrs n = some a) :
    ∃ ms, (c.layout f).strides .subPt 1 = .ok ms ∧ ∀ y, InBox (a.comps ++ a.nb :: d.grid) y →
      0 ≤ dot ms y ∧ (dot ms y).toNat < f.vals.length ∧ f.vals[(dot ms y).toNat]? = some (a.val y) := by
  obtain ⟨ms, mv, hv⟩ := h.viewOf hf ha .subPt (fun e => by cases e) (sh := a.comps ++ a.nb :: d.grid) rfl
  have e : ms = mv := by
    have h1 := hv.strides
    rw [hv.view] at h1
    cases h1; rfl
  subst e
  refine ⟨ms, hv.strides, fun y hy => ?_⟩
  have hb := hv.addr.bounds y hy
  exact ⟨hb.1, by omega, (h.disp n f a hf ha).vals ms hv.strides y hy⟩

theorem index_of {comps grid loc cc g : List Int} {nb s : Int} (hl : loc.length = grid.length) (hc : InBox comps cc)
    (h0 : 0 ≤ s) (h1 : s < nb) (hg : InBoxAt grid loc g) : InBox (comps ++ nb :: grid) (cc ++ s :: relCoord g loc) :=
  inBox_append.2 ⟨cc, _, rfl, hc, h0, h1, ((inBoxAt_iff_rel hl).1 hg).2⟩

theorem Now.holds {c0 c : Coll α U} {p : Part α U} (h : Now c0 c p) (hg : c0.global = true) {n : String}
    {f0 : Field α U} (h0 : c0.fields.find n = some f0) {val : Values α}
    (hv : ∀ a, p.dict.arrs n = some a → ∀ cc s g, InBox a.comps cc → 0 ≤ s → s < a.nb → p.Here g →
      p.at n cc s g = val 0 cc s g) : (rankOf c0).Holds n val (memOf c n) := by
  obtain ⟨f, hf, e1, e2⟩ := h.keeps n f0 h0
  obtain ⟨a, ha⟩ := h.shows.arr hf
  have hd := h.shows.disp n f a hf ha
  obtain ⟨ms, hms, hpl⟩ := places_of h.shows hf ha
  have hfr := (h.shows.size.size h.shows.init n f hf).2.2
  have hlay := h.layout e1 e2
  refine ⟨(none, n, ioField c0 (n, f0), none), ?_, rfl, ?_⟩
  · rw [entries_rankOf]
    exact List.mem_map.2 ⟨(n, f0), SMap.mem_of_find h0, rfl⟩
  · refine ⟨Coll.Field.mem f, by simp only [memOf, hf], ms, ?_, ?_⟩
    · show (c0.layout f0).strides .subPt 1 = _
      rw [← hlay]; exact hms
    · rintro cc s g ⟨i1, i2, i3, i4⟩
      have j1 : InBox a.comps cc := by rw [← hd.comps, e1]; exact i1
      have j3 : s < a.nb := by rw [← hd.nb, e2]; exact i3
      have j4 : p.Here g := by
        have : InBoxAt (if c0.global then c0.pixels.nb else [c0.nbPixels]) c0.pixels.loc g := i4
        rw [hg, if_pos rfl, h.grid hg, ← h.loc] at this
        exact this
      have hbox := index_of (InBoxAt.lengths j4).1 j1 i2 j3 j4
      obtain ⟨k1, k2, k3⟩ := hpl _ hbox
      show Coll.Field.mem f (dot ms (cc ++ s :: relCoord g c0.pixels.loc)) = some (val 0 cc s ((rankOf c0).view none g))
      rw [← h.loc]
      unfold Coll.Field.mem
      rw [if_pos ⟨hfr, k1⟩, k3]
      have := hv a ha cc s g j1 i2 j3 j4
      rw [Part.at, ha] at this
      exact congrArg some this

theorem received_attrs (f : Field α U) (m : Option (ProcMem α)) :
    ∃ vs, received f m = { f with vals := vs } ∧ vs.length = f.vals.length := by
  unfold received
  split
  · exact ⟨_, rfl, by simp⟩
  · exact ⟨f.vals, rfl, rfl⟩

theorem find_receive (names : List String) (m : String → Option (ProcMem α)) (c : Coll α U) (n : String) :
    (receive names m c).fields.find n = (c.fields.find n).map fun f => if n ∈ names then received f (m n) else f :=
  SMap.find_mapKey c.fields (fun k f => if k ∈ names then received f (m k) else f) n

theorem receive_attrs {names : List String} {m : String → Option (ProcMem α)} {c : Coll α U} {n : String} {f' : Field α U}
    (h : (receive names m c).fields.find n = some f') :
    ∃ f vs, c.fields.find n = some f ∧ f' = { f with vals := vs } ∧ vs.length = f.vals.length := by
  rw [find_receive] at h
  obtain ⟨f, hf, e⟩ := Option.map_eq_some_iff.1 h
  split at e
  · obtain ⟨vs, e1, e2⟩ := received_attrs f (m n)
    exact ⟨f, vs, hf, e.symm.trans e1, e2⟩
  · exact ⟨f, f.vals, hf, e.symm, rfl⟩

theorem sizeInv_receive {names : List String} {m : String → Option (ProcMem α)} {c : Coll α U} (h : SizeInv c) :
    SizeInv (receive names m c) := by
  refine ⟨⟨SMap.sorted_mapKey h.wf.fields_sorted (fun k f => if k ∈ names then received f (m k) else f),
    h.wf.states_sorted, h.wf.sub_sorted, h.wf.pixel, ?_, ?_⟩, h.sub, ?_, h.buf, ?_⟩
  · intro n f' hf'
    obtain ⟨f, vs, hf, rfl, -⟩ := receive_attrs hf'
    exact h.wf.comps n f hf
  · intro n f' hf'
    obtain ⟨f, vs, hf, rfl, -⟩ := receive_attrs hf'
    exact h.wf.tags n f hf
  · intro n f' hf'
    obtain ⟨f, vs, hf, rfl, -⟩ := receive_attrs hf'
    exact h.comp n f hf
  · intro hi n f' hf'
    obtain ⟨f, vs, hf, rfl, e⟩ := receive_attrs hf'
    obtain ⟨s1, s2, s3⟩ := h.size hi n f hf
    refine ⟨s1, ?_, s3⟩
    show (vs.length : Int) = _
    rw [e]
    exact s2

theorem Now.give {c0 c : Coll α U} {p : Part α U} (h : Now c0 c p) (hg : c0.global = true) (hs0 : c0.fields.Sorted)
    {names : List String} {m : String → Option (ProcMem α)} {cur : String → Values α}
    (hh : ∀ n ∈ names, ∃ x, m n = some x ∧ (rankOf c0).Holds n (cur n) x) :
    Now c0 (receive names m c) (p.give names cur) := by
  have hd := h.shows
  refine ⟨⟨sizeInv_receive hd.size, hd.init, hd.order, hd.grid, hd.pos, hd.ne, hd.addr, hd.tags, ?_, ?_⟩, h.base, h.loc, h.len, ?_⟩
  · intro n
    rw [find_receive, Option.map_eq_none_iff, hd.names n]
    simp only [Part.give]
    split
    · rw [Option.map_eq_none_iff]
    · rfl
  · intro n f' a' hf' ha'
    have hlay : ∀ f : Field α U, (receive names m c).layout f = c.layout f := fun f => rfl
    rw [find_receive] at hf'
    obtain ⟨f, hf, e⟩ := Option.map_eq_some_iff.1 hf'
    obtain ⟨a, ha⟩ := hd.arr hf
    have hda := hd.disp n f a hf ha
    by_cases hn : n ∈ names
    · rw [if_pos hn] at e
      obtain ⟨x, hx, en, hen, e1, e2⟩ := hh n hn
      rw [entries_rankOf] at hen
      obtain ⟨⟨n', f0⟩, hm0, rfl⟩ := List.mem_map.1 hen
      have e1' : n' = n := e1
      subst e1'
      obtain ⟨b, hb, st, hst, hval⟩ := e2
      have h0 := SMap.find_of_mem hs0 hm0
      obtain ⟨f1, hf1, k1, k2⟩ := h.keeps _ f0 h0
      rw [hf] at hf1
      cases hf1
      have hl := h.layout k1 k2
      have hrec : received f (m n') = { f with vals := (List.range f.vals.length).map fun i : Nat => (b i).getD default } := by
        obtain ⟨xi, xb⟩ := x
        have hb' : xb = [b] := hb
        rw [hx, hb']
        rfl
      have ea : a' = { a with val := atPart (cur n') a.comps.length p.loc } := by
        simp only [Part.give, hn, if_true, ha, Option.map_some, Option.some.injEq] at ha'
        exact ha'.symm
      rw [← e, hrec, ea]
      refine ⟨hda.ty, hda.comps, hda.pos, hda.nb, hda.tag, hda.unit, ?_⟩
      intro ms hms y hy
      have hms' : (c.layout f).strides .subPt 1 = .ok ms := hms
      obtain ⟨ms', hms2, hpl⟩ := places_of hd hf ha
      obtain rfl : ms' = ms := by rw [hms'] at hms2; cases hms2; rfl
      obtain ⟨q1, q2, -⟩ := hpl y hy
      have hst' : (c.layout f).strides .subPt 1 = .ok st := by rw [hl]; exact hst
      obtain rfl : st = ms' := by rw [hms'] at hst'; cases hst'; rfl
      obtain ⟨cc, z0, rfl, hc, hz⟩ := inBox_append.1 hy
      obtain ⟨s, z, rfl⟩ : ∃ s z, z0 = s :: z := by
        cases z0 with
        | nil => exact hz.elim
        | cons s z => exact ⟨s, z, rfl⟩
      obtain ⟨hz1, hz2, hz3⟩ := hz
      have hz3' : InBox p.dict.grid z := hz3
      have hgr := h.grid hg
      have hll := h.len
      have hzl := InBox.length_eq hz3'
      have hrel := relCoord_add (loc := p.loc) (c := z) (by rw [hzl, hll])
      have hgl : (List.zipWith (· + ·) p.loc z).length = p.dict.grid.length := by
        simp [hll, hzl]
      have hin : InField (ioField c0 (n', f0)) cc s (List.zipWith (· + ·) p.loc z) := by
        refine ⟨?_, hz1, ?_, ?_⟩
        · show InBox f0.shape cc
          rw [← k1, hda.comps]; exact hc
        · show s < f0.nbSub
          rw [← k2, hda.nb]; exact hz2
        · show InBoxAt (if c0.global then c0.pixels.nb else [c0.nbPixels]) c0.pixels.loc _
          rw [hg, if_pos rfl, hgr, ← h.loc, inBoxAt_iff_rel hll, hrel]
          exact ⟨hgl, hz3'⟩
      have hv := hval _ _ _ hin
      have hpos : memPos (ioField c0 (n', f0)) st cc s (List.zipWith (· + ·) p.loc z) = dot st (cc ++ s :: z) := by
        show dot st (cc ++ s :: relCoord _ c0.pixels.loc) = _
        rw [← h.loc, hrel]
      rw [hpos] at hv
      show ((List.range f.vals.length).map fun i : Nat => (b i).getD default)[(dot st (cc ++ s :: z)).toNat]? = _
      rw [List.getElem?_map, List.getElem?_range q2]
      simp only [Option.map_some, Option.some.injEq]
      rw [Int.toNat_of_nonneg q1, hv]
      have hcl := InBox.length_eq hc
      simp only [Option.getD_some, atPart]
      rw [← hcl, List.take_left, show List.drop (cc.length + 1) (cc ++ s :: z) = z by simp,
        show (cc ++ s :: z).getD cc.length 0 = s by simp [List.getD_eq_getElem?_getD]]
      show cur n' 0 cc s (List.zipWith (· + ·) p.loc z) = _
      rw [List.zipWith_comm]
      simp only [Int.add_comm]
    · rw [if_neg hn] at e
      rw [← e]
      have ea : p.dict.arrs n = some a' := by
        have := ha'
        simp only [Part.give, hn, if_false] at this
        exact this
      have hx := hd.disp n f a' hf ea
      exact ⟨hx.ty, hx.comps, hx.pos, hx.nb, hx.tag, hx.unit, hx.vals⟩
  · intro n f0 h0
    obtain ⟨f, hf, k1, k2⟩ := h.keeps n f0 h0
    refine ⟨_, by rw [find_receive, hf]; rfl, ?_, ?_⟩
    · split
      · obtain ⟨vs, e1, e2⟩ := received_attrs f (m n)
        show (received f (m n)).shape = _
        rw [e1]; exact k1
      · exact k1
    · split
      · obtain ⟨vs, e1, e2⟩ := received_attrs f (m n)
        show (received f (m n)).nbSub = _
        rw [e1]; exact k2
      · exact k2

end Verif.Props
