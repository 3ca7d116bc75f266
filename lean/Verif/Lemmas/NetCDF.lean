import Verif.Props.FileIO
import Verif.Props.Layout
import Verif.Spec.File
/-
Lemmas about the NetCDF model.
-/
namespace Verif.NetCDF
open Verif Verif.Ccoord Verif.Layout Verif.Layout.FieldLayout Verif.RawMemory Verif.FileIO Verif.Props

/-- Fields of this shape can be stored under the name `vname`: a known storage order, positive shapes,
not a scalar on several sub-points, names that can be part of a dimension name. -/
structure StorableShape (vname : String) (f : IoField) : Prop where
  order : f.layout.order = .colMajor ∨ f.layout.order = .rowMajor
  comps_pos : Pos f.layout.comps
  comps_len : f.layout.comps.length ≤ 2147483647
  sub_pos : 0 < f.layout.nbSub
  sub_scalar : f.layout.nbComp = 1 → f.layout.nbSub = 1
  clean_name : f.layout.comps ≠ [] → Clean vname
  clean_tag : f.layout.nbComp ≠ 1 → Clean f.tag

/-- A field of a global collection on a subdomain of a grid in up to three dimensions; the pixels
have their own places in the buffer. -/
structure OnGrid (f : IoField) : Prop where
  is_global : f.isGlobal = true
  dim : f.nbDomain.length ≤ 3
  dom_pos : Pos f.nbDomain
  inside : Within f.nbDomain f.layout.pixShape f.loc
  addressing : Addressing f.layout.pixShape f.layout.pixStrides f.layout.nbBuf

/-! ### Boxes -/

theorem mem_boxIndices {nb c : List Int} : c ∈ boxIndices nb ↔ InBox nb c := by
  induction nb generalizing c with
  | nil => cases c <;> simp [boxIndices, InBox]
  | cons n nb ih =>
    rw [boxIndices, List.mem_flatMap]
    constructor
    · rintro ⟨k, hk, hc⟩
      obtain ⟨c', hc', rfl⟩ := List.mem_map.1 hc
      rw [List.mem_range] at hk
      exact ⟨by omega, by omega, ih.1 hc'⟩
    · intro h
      cases c with
      | nil => exact h.elim
      | cons x c =>
        obtain ⟨h0, h1, h2⟩ := h
        refine ⟨x.toNat, List.mem_range.2 (by omega), List.mem_map.2 ⟨c, ih.2 h2, ?_⟩⟩
        rw [Int.toNat_of_nonneg h0]

theorem target_append {s1 s2 m1 m2 c1 c2 : List Int} (h1 : m1.length = s1.length)
    (h2 : c1.length = s1.length) :
    target (s1 ++ s2) (m1 ++ m2) (c1 ++ c2) = target s1 m1 c1 ++ target s2 m2 c2 := by
  induction s1 generalizing m1 c1 with
  | nil =>
    rw [List.length_eq_zero_iff.1 h1, List.length_eq_zero_iff.1 h2]
    simp [target]
  | cons s s1 ih =>
    cases m1 with
    | nil => simp at h1
    | cons m m1 =>
      cases c1 with
      | nil => simp at h2
      | cons c c1 =>
        simp only [List.cons_append, target]
        rw [ih (by simpa using h1) (by simpa using h2)]

theorem target_zeros_ones {n : Nat} {c : List Int} (h : c.length = n) :
    target (List.replicate n 0) (List.replicate n 1) c = c := by
  induction n generalizing c with
  | zero => rw [List.length_eq_zero_iff.1 h]; rfl
  | succ n ih =>
    cases c with
    | nil => simp at h
    | cons x c =>
      simp only [List.replicate_succ, target]
      rw [ih (by simpa using h)]; simp

theorem target_loc {loc c : List Int} (h : c.length = loc.length) :
    target loc (List.replicate loc.length 1) c = List.zipWith (· + ·) loc c := by
  induction loc generalizing c with
  | nil => rfl
  | cons l loc ih =>
    cases c with
    | nil => simp at h
    | cons x c =>
      simp only [List.length_cons, List.replicate_succ, target, List.zipWith_cons_cons]
      rw [ih (by simpa using h)]; simp

theorem target_inj {start stride c c' : List Int} (hm : ∀ m ∈ stride, 0 < m)
    (h1 : stride.length = start.length) (h2 : c.length = start.length) (h3 : c'.length = start.length)
    (h : target start stride c = target start stride c') : c = c' := by
  induction start generalizing stride c c' with
  | nil => rw [List.length_eq_zero_iff.1 h2, List.length_eq_zero_iff.1 h3]
  | cons s start ih =>
    match stride, c, c', h1, h2, h3 with
    | m :: stride, x :: c, y :: c', h1, h2, h3 =>
      simp only [target, List.cons.injEq] at h
      have hm0 : 0 < m := hm m (by simp)
      have : x = y := by
        have h' : x * m = y * m := by linarith [h.1]
        exact mul_right_cancel₀ (by omega) h'
      subst this
      rw [ih (fun m hm' => hm m (by simp [hm'])) (by simpa using h1) (by simpa using h2)
        (by simpa using h3) h.2]

theorem zipWith_add_relCoord {loc g : List Int} (h : g.length = loc.length) :
    List.zipWith (· + ·) loc (relCoord g loc) = g := by
  induction loc generalizing g with
  | nil => rw [List.length_eq_zero_iff.1 h]; rfl
  | cons l loc ih =>
    cases g with
    | nil => simp at h
    | cons x g =>
      simp only [relCoord, List.zipWith_cons_cons] at ih ⊢
      rw [ih (by simpa using h)]; simp

theorem relCoord_add {loc c : List Int} (h : c.length = loc.length) :
    relCoord (List.zipWith (· + ·) loc c) loc = c := by
  induction loc generalizing c with
  | nil => rw [List.length_eq_zero_iff.1 h]; rfl
  | cons l loc ih =>
    cases c with
    | nil => simp at h
    | cons x c =>
      simp only [relCoord, List.zipWith_cons_cons] at ih ⊢
      rw [ih (by simpa using h)]; simp

theorem inBoxAt_iff_rel {nb loc g : List Int} (h : loc.length = nb.length) :
    InBoxAt nb loc g ↔ g.length = nb.length ∧ InBox nb (relCoord g loc) := by
  induction nb generalizing loc g with
  | nil =>
    rw [List.length_eq_zero_iff.1 h]
    cases g <;> simp [InBoxAt, relCoord, InBox]
  | cons n nb ih =>
    cases loc with
    | nil => simp at h
    | cons l loc =>
      cases g with
      | nil => simp [InBoxAt]
      | cons x g =>
        have hl : loc.length = nb.length := by simpa using h
        simp only [InBoxAt, relCoord, List.zipWith_cons_cons, InBox, List.length_cons,
          Nat.add_right_cancel_iff]
        rw [ih hl, relCoord]
        constructor
        · rintro ⟨h1, h2, h3, h4⟩; exact ⟨h3, by omega, by omega, h4⟩
        · rintro ⟨h3, h1, h2, h4⟩; exact ⟨by omega, by omega, h3, h4⟩

theorem _root_.Verif.Within.lengths {dom nb loc : List Int} (h : Within dom nb loc) :
    nb.length = dom.length ∧ loc.length = dom.length := by
  induction dom generalizing nb loc with
  | nil => cases nb <;> cases loc <;> simp_all [Within]
  | cons N dom ih =>
    cases nb with
    | nil => cases loc <;> exact h.elim
    | cons n nb =>
      cases loc with
      | nil => exact h.elim
      | cons l loc =>
        have := ih h.2.2.2
        simp [this.1, this.2]

/-! ### The copy loops of the library -/

variable {α : Type}

theorem putLoop_spec {start stride imap : List Int} {buf : Mem α} (cs : List (List Int))
    (hinj : ∀ c ∈ cs, ∀ c' ∈ cs, target start stride c = target start stride c' → c = c')
    (hacc : ∀ c ∈ cs, buf (linearIndex c imap) ≠ none) (d : List Int → α) :
    ∃ d', putLoop start stride imap buf cs d = .ok d' ∧
      (∀ c ∈ cs, buf (linearIndex c imap) = some (d' (target start stride c))) ∧
      ∀ y, (∀ c ∈ cs, y ≠ target start stride c) → d' y = d y := by
  induction cs generalizing d with
  | nil => exact ⟨d, rfl, by simp, fun _ _ => rfl⟩
  | cons c cs ih =>
    obtain ⟨x, hx⟩ := Option.ne_none_iff_exists'.1 (hacc c (by simp))
    obtain ⟨d', h1, h2, h3⟩ := ih (fun c hc c' hc' => hinj c (by simp [hc]) c' (by simp [hc']))
      (fun c hc => hacc c (by simp [hc])) (fun y => if y = target start stride c then x else d y)
    refine ⟨d', by rw [putLoop, hx]; exact h1, ?_, ?_⟩
    · intro c' hc'
      rcases List.mem_cons.1 hc' with rfl | hc'
      · by_cases hm : c' ∈ cs
        · exact h2 c' hm
        · rw [h3 _ fun c'' hc'' he => hm ((hinj c' (by simp) c'' (by simp [hc'']) he) ▸ hc''), if_pos rfl, hx]
      · exact h2 c' hc'
    · intro y hy
      rw [h3 y fun c' hc' => hy c' (by simp [hc']), if_neg (hy c (by simp))]

theorem getLoop_spec {start stride imap : List Int} {d : List Int → α} (cs : List (List Int))
    (hinj : ∀ c ∈ cs, ∀ c' ∈ cs, linearIndex c imap = linearIndex c' imap → c = c')
    (buf : Mem α) (hacc : ∀ c ∈ cs, buf (linearIndex c imap) ≠ none) :
    ∃ buf', getLoop start stride imap d cs buf = .ok buf' ∧
      (∀ c ∈ cs, buf' (linearIndex c imap) = some (d (target start stride c))) ∧
      ∀ a, (∀ c ∈ cs, a ≠ linearIndex c imap) → buf' a = buf a := by
  induction cs generalizing buf with
  | nil => exact ⟨buf, rfl, by simp, fun _ _ => rfl⟩
  | cons c cs ih =>
    obtain ⟨x, hx⟩ := Option.ne_none_iff_exists'.1 (hacc c (by simp))
    obtain ⟨b', h1, h2, h3⟩ := ih (fun c hc c' hc' => hinj c (by simp [hc]) c' (by simp [hc']))
      (buf.write (linearIndex c imap) (d (target start stride c))) (by
        intro c' hc'
        unfold Mem.write
        split
        · simp
        · exact hacc c' (by simp [hc']))
    refine ⟨b', by rw [getLoop, hx]; exact h1, ?_, ?_⟩
    · intro c' hc'
      rcases List.mem_cons.1 hc' with rfl | hc'
      · by_cases hm : c' ∈ cs
        · exact h2 c' hm
        · rw [h3 _ fun c'' hc'' he => hm ((hinj c' (by simp) c'' (by simp [hc'']) he) ▸ hc'')]
          simp [Mem.write]
      · exact h2 c' hc'
    · intro a ha
      rw [h3 a fun c' hc' => ha c' (by simp [hc'])]
      simp [Mem.write, ha c (by simp)]

/-! ### Applying functions to lists of dimensions -/

theorem mapRes_append {β γ : Type} (g : β → Res γ) (a b : List β) {x y : List γ}
    (ha : mapRes g a = .ok x) (hb : mapRes g b = .ok y) : mapRes g (a ++ b) = .ok (x ++ y) := by
  induction a generalizing x with
  | nil => cases ha; exact hb
  | cons u a ih =>
    rw [mapRes] at ha
    obtain ⟨p, hp, ha⟩ := Res.bind_eq_ok.1 ha
    obtain ⟨q, hq, ha⟩ := Res.bind_eq_ok.1 ha
    cases ha
    rw [List.cons_append, mapRes, hp, Res.ok_bind, ih hq, Res.ok_bind]
    rfl

theorem mapRes_map {β γ : Type} {g : β → Res γ} {h : β → γ} {l : List β}
    (hl : ∀ x ∈ l, g x = .ok (h x)) : mapRes g l = .ok (l.map h) := by
  induction l with
  | nil => rfl
  | cons a l ih =>
    rw [mapRes, hl a (by simp), Res.ok_bind, ih fun x hx => hl x (by simp [hx])]
    rfl

theorem mapRes_length {β γ : Type} {g : β → Res γ} {l : List β} {r : List γ}
    (h : mapRes g l = .ok r) : r.length = l.length := by
  induction l generalizing r with
  | nil => cases h; rfl
  | cons a l ih =>
    rw [mapRes] at h
    obtain ⟨p, hp, h⟩ := Res.bind_eq_ok.1 h
    obtain ⟨q, hq, h⟩ := Res.bind_eq_ok.1 h
    cases h
    simp [ih hq]

/-! ### The names of the dimensions of a registered variable -/

theorem clean_digits (n : Nat) : Clean (toString n) := by
  unfold Clean
  rw [show '_' :: (toString n).toList = ['_'] ++ (toString n).toList from rfl,
    infix_append_digits (underscore_notMem n)]
  decide

theorem digits_ne_empty (n : Nat) : toString n ≠ "" := by
  intro h
  have := congrArg String.toList h
  rw [show toString n = n.repr from rfl, Nat.toList_repr] at this
  exact Nat.toDigits_ne_nil this

theorem base_frame : baseName "frame" = "frame" := by decide +kernel

theorem base_history (m : Nat) : baseName ("history_index__" ++ toString m) = "history_index" := by
  have e : "history_index__" ++ toString m = dimName "history_index" (toString m) := by
    rw [dimName, if_neg (digits_ne_empty m)]
    rfl
  rw [e]
  exact (C38_base_name _ _ (digits_ne_empty m)).2 (clean_digits m)

theorem base_tensor {name : String} (h : Clean name) (k : Nat) :
    baseName (dimName "tensor_dim" (name ++ "-" ++ toString k)) = "tensor_dim" :=
  (C38_base_name _ _ (name_ne_empty name k)).2 ((clean_name_iff name k).2 h)

theorem base_subpt {tag : String} (h : Clean tag) {n : Int} (hn : 0 ≤ n) :
    baseName (dimName "subpt" (tag ++ "-" ++ toString n)) = "subpt" := by
  obtain ⟨k, rfl⟩ := Int.eq_ofNat_of_zero_le hn
  have : toString (k : Int) = toString k := rfl
  rw [this]
  exact (C38_base_name _ _ (name_ne_empty tag k)).2 ((clean_name_iff tag k).2 h)

theorem base_pts {name : String} (h : Clean name) (hne : name ≠ "") :
    baseName (dimName "pts" name) = "pts" := (C38_base_name _ _ hne).2 h

theorem gridDims_spec {names : List String} {grid nb : List Int} {ds : List Dim} {grid' : List Int}
    (h : gridDims names grid nb = .ok (ds, grid')) :
    nb.length ≤ names.length ∧ ds = List.zipWith (fun nm n => ⟨dimName nm "", n⟩) names nb := by
  induction nb generalizing names grid ds grid' with
  | nil => cases names <;> cases grid <;> simp [gridDims] at h ⊢ <;> exact h.1
  | cons n nb ih =>
    match names, grid with
    | [], _ => simp [gridDims] at h
    | _ :: _, [] => simp [gridDims] at h
    | nm :: names, g :: grid =>
      rw [gridDims] at h
      split at h
      · cases h
      · obtain ⟨⟨ds', gr'⟩, h1, h⟩ := Res.bind_eq_ok.1 h
        cases h
        obtain ⟨h2, h3⟩ := ih h1
        exact ⟨by simpa using h2, by simp [h3]⟩

/-- Registration of the grid directions succeeds with a fresh or matching domain. -/
theorem gridDims_ok {names : List String} {grid nb : List Int} (h1 : nb.length ≤ names.length)
    (h2 : nb.length ≤ grid.length) (h3 : ∀ p ∈ List.zip grid nb, p.1 = 0 ∨ p.1 = p.2) :
    gridDims names grid nb = .ok (List.zipWith (fun nm n => ⟨dimName nm "", n⟩) names nb,
      nb ++ grid.drop nb.length) := by
  induction nb generalizing names grid with
  | nil => cases names <;> cases grid <;> simp [gridDims]
  | cons n nb ih =>
    match names, grid with
    | [], _ => simp at h1
    | _ :: _, [] => simp at h2
    | nm :: names, g :: grid =>
      have hg := h3 (g, n) (by simp)
      rw [gridDims, if_neg (by simp only at hg; omega),
        ih (by simpa using h1) (by simpa using h2) fun p hp => h3 p (by simp [hp])]
      simp

theorem base_nx : baseName (dimName "nx" "") = "nx" := by decide +kernel
theorem base_ny : baseName (dimName "ny" "") = "ny" := by decide +kernel
theorem base_nz : baseName (dimName "nz" "") = "nz" := by decide +kernel

/-- Split a list of at most three elements. -/
theorem list_le_three {β : Type} {l : List β} (h : l.length ≤ 3) :
    l = [] ∨ (∃ a, l = [a]) ∨ (∃ a b, l = [a, b]) ∨ ∃ a b c, l = [a, b, c] := by
  match l, h with
  | [], _ => simp
  | [a], _ => simp
  | [a, b], _ => simp
  | [a, b, c], _ => simp
  | _ :: _ :: _ :: _ :: _, h => simp at h

/-- Values over the grid dimensions: the entries of the list used for the directions. -/
theorem mapRes_grid {g : Dim → Res Int} {nb out : List Int} (hl : out.length = nb.length)
    (h3 : nb.length ≤ 3)
    (hx : ∀ n, g ⟨dimName "nx" "", n⟩ = at! out 0) (hy : ∀ n, g ⟨dimName "ny" "", n⟩ = at! out 1)
    (hz : ∀ n, g ⟨dimName "nz" "", n⟩ = at! out 2) :
    mapRes g (List.zipWith (fun nm n => ⟨dimName nm "", n⟩) gridNames nb) = .ok out := by
  have h3' : out.length ≤ 3 := by omega
  rcases list_le_three h3 with rfl | ⟨a, rfl⟩ | ⟨a, b, rfl⟩ | ⟨a, b, c, rfl⟩ <;>
    rcases list_le_three h3' with rfl | ⟨x, rfl⟩ | ⟨x, y, rfl⟩ | ⟨x, y, z, rfl⟩ <;>
    simp at hl <;> simp [gridNames, mapRes, hx, hy, hz, at!]

theorem mapRes_const {β γ : Type} {g : β → Res γ} {l : List β} {x : γ}
    (hl : ∀ d ∈ l, g d = .ok x) : mapRes g l = .ok (List.replicate l.length x) := by
  induction l with
  | nil => rfl
  | cons a l ih =>
    rw [mapRes, hl a (by simp), Res.ok_bind, ih fun d hd => hl d (by simp [hd]), Res.ok_bind]
    rfl

theorem tensorDims_length (vname : String) (k : Nat) (comps : List Int) :
    (tensorDims vname k comps).length = comps.length := by
  induction comps generalizing k with
  | nil => rfl
  | cons n comps ih => simp [tensorDims, ih]

theorem mem_tensorDims {vname : String} {k : Nat} {comps : List Int} {d : Dim}
    (h : d ∈ tensorDims vname k comps) :
    ∃ i n, i < k + comps.length ∧ n ∈ comps ∧ d = ⟨dimName "tensor_dim" (vname ++ "-" ++ toString i), n⟩ := by
  induction comps generalizing k with
  | nil => simp [tensorDims] at h
  | cons n comps ih =>
    rw [tensorDims] at h
    rcases List.mem_cons.1 h with rfl | h
    · exact ⟨k, n, by simp, by simp, rfl⟩
    · obtain ⟨i, m, hi, hm, rfl⟩ := ih h
      exact ⟨i, m, by simp only [List.length_cons]; omega, by simp [hm], rfl⟩

theorem mapRes_tensor {vname : String} {g : Dim → Res Int} {all : List Int}
    (hg : ∀ i n, i < all.length →
      g ⟨dimName "tensor_dim" (vname ++ "-" ++ toString i), n⟩ = at! all i) :
    mapRes g (tensorDims vname 0 all) = .ok all := by
  have key : ∀ (comps pre : List Int), pre ++ comps = all →
      mapRes g (tensorDims vname pre.length comps) = .ok comps := by
    intro comps
    induction comps with
    | nil => intro pre _; rfl
    | cons n comps ih =>
      intro pre h
      have hlt : pre.length < all.length := by rw [← h]; simp
      have h2 := ih (pre ++ [n]) (by simpa using h)
      rw [List.length_append, List.length_singleton] at h2
      rw [tensorDims, mapRes, hg _ _ hlt, at!_eq_ok hlt, Res.ok_bind, h2, Res.ok_bind]
      have : all[pre.length] = n := by simp [← h]
      rw [this]
      rfl
  exact key all [] (by simp)

theorem gridList_length {nb : List Int} (h : nb.length ≤ 3) :
    (List.zipWith (fun nm n => (⟨dimName nm "", n⟩ : Dim)) gridNames nb).length = nb.length := by
  simp [gridNames]; omega

theorem mem_gridList {nb : List Int} {d : Dim}
    (h : d ∈ List.zipWith (fun nm n => (⟨dimName nm "", n⟩ : Dim)) gridNames nb) :
    baseName d.name = "nx" ∨ baseName d.name = "ny" ∨ baseName d.name = "nz" := by
  rw [gridNames] at h
  rcases nb with _ | ⟨a, _ | ⟨b, _ | ⟨c, t⟩⟩⟩ <;> simp at h
  · subst h; simp [base_nx]
  · rcases h with rfl | rfl <;> simp [base_nx, base_ny]
  · rcases h with rfl | rfl | rfl <;> simp [base_nx, base_ny, base_nz]

/-! ### The arguments for a registered variable of a global field -/

/-- The index of the sub-point in the file, for variables that have that dimension. -/
def subIdx (f : IoField) (s : Int) : List Int := if f.layout.nbComp = 1 then [] else [s]

theorem subIdx_length (f : IoField) (s t : Int) : (subIdx f s).length = (subIdx f t).length := by
  unfold subIdx; split <;> rfl

theorem ncTypeOf_ok {t : Collection.ElemType} {x : NetCDFAtt.NcType} (h : ncTypeOf t = .ok x) : t ≠ .complex := by
  rintro rfl; cases h

theorem ncTypeOf_of_ne {t : Collection.ElemType} (h : t ≠ .complex) : ∃ x, ncTypeOf t = .ok x := by
  cases t <;> first | exact ⟨_, rfl⟩ | exact absurd rfl h

/-- Data of the type of the file variable can be moved. -/
theorem sameType_ok {α : Type} {v : Var} {f : IoField} {fv : FileVar α} (hv : v.field = f) (h : f.ty ≠ .complex)
    (hf : fv.form = v.form) : v.sameType fv = .ok () := by
  have he : fv.ty = v.dataType := congrArg Prod.snd hf
  rw [Var.sameType, if_pos]
  rw [he, Var.dataType, hv]
  cases ht : f.ty <;> first | rfl | exact absurd ht h

/-- The variable as built by the registration of a global field. -/
structure IsGlobalVar (v : Var) (vname : String) (f : IoField) (hidden : Bool) (hist : Option Nat) :
    Prop where
  field : v.field = f
  hist_eq : v.hist = hist
  dims : v.dims = leadDims hidden hist ++ (tensorDims vname 0 f.layout.comps ++ (subPtDims f ++
    List.zipWith (fun nm n => ⟨dimName nm "", n⟩) gridNames f.nbDomain))
  ty : f.ty ≠ .complex

section
variable {v : Var} {vname : String} {f : IoField} {hidden : Bool} {hist : Option Nat}

theorem subPtDims_eq (hs : StorableShape vname f) : subPtDims f =
    if f.layout.nbComp = 1 then [] else
      [⟨dimName "subpt" (f.tag ++ "-" ++ toString f.layout.nbSub), f.layout.nbSub⟩] := by
  unfold subPtDims
  have := hs.sub_scalar
  by_cases h : f.layout.nbComp = 1
  · rw [if_neg (by simp [h, this h]), if_pos h]
  · rw [if_pos (Or.inr h), if_neg h]

theorem mapRes_sub (hs : StorableShape vname f) {g : Dim → Res Int} {x : Int}
    (hg : ∀ d : Dim, baseName d.name = "subpt" → g d = .ok x) :
    mapRes g (subPtDims f) = .ok (subIdx f x) := by
  rw [subPtDims_eq hs]
  by_cases h : f.layout.nbComp = 1
  · rw [if_pos h, subIdx, if_pos h]; rfl
  · rw [if_neg h, subIdx, if_neg h]
    have hb := base_subpt (hs.clean_tag h) hs.sub_pos.le
    generalize dimName "subpt" (f.tag ++ "-" ++ toString f.layout.nbSub) = nm at hb ⊢
    rw [mapRes, hg _ hb]
    rfl

/-- A list with the leading entries. -/
def leadList (hidden : Bool) (a b : Int) : Option Nat → List Int
  | none => if hidden then [] else [a]
  | some _ => [a, b]

theorem mapRes_lead {g : Dim → Res Int} {a b : Int}
    (h1 : ∀ d : Dim, baseName d.name = "frame" → g d = .ok a)
    (h2 : hist.isSome → ∀ d : Dim, baseName d.name = "history_index" → g d = .ok b) :
    mapRes g (leadDims hidden hist) = .ok (leadList hidden a b hist) := by
  cases hist with
  | none =>
    cases hidden
    · rw [leadDims, if_neg (by simp), mapRes, h1 _ base_frame]; rfl
    · rfl
  | some m =>
    have hb := base_history (m + 1)
    rw [leadDims]
    generalize "history_index__" ++ toString (m + 1) = nm at hb
    rw [mapRes, h1 _ base_frame, mapRes, h2 rfl _ hb]
    rfl

theorem mapRes_tensorDims_const (hs : StorableShape vname f) {g : Dim → Res Int} {x : Int}
    (hg : ∀ d : Dim, baseName d.name = "tensor_dim" → g d = .ok x) :
    mapRes g (tensorDims vname 0 f.layout.comps) = .ok (List.replicate f.layout.comps.length x) := by
  rw [← tensorDims_length vname 0]
  refine mapRes_const fun d hd => hg d ?_
  obtain ⟨i, n, _, hn, rfl⟩ := mem_tensorDims hd
  have : f.layout.comps ≠ [] := fun h => by simp [h] at hn
  exact base_tensor (hs.clean_name this) i

theorem startGlobal_eq (hv : IsGlobalVar v vname f hidden hist) (hs : StorableShape vname f)
    (hg : OnGrid f) {frame : Int} (hf : 0 ≤ frame) (k : Nat) :
    v.startGlobal frame k = .ok (leadList hidden frame k hist ++
      (List.replicate f.layout.comps.length 0 ++ (subIdx f 0 ++ f.loc))) := by
  obtain ⟨hfi, hhi, hd⟩ := hv
  have hl := hg.inside.lengths
  rw [Var.startGlobal, if_neg (by omega), hd]
  refine mapRes_append _ _ _ (mapRes_lead ?_ ?_) (mapRes_append _ _ _
    (mapRes_tensorDims_const hs ?_) (mapRes_append _ _ _ (mapRes_sub hs ?_)
      (mapRes_grid hl.2 hg.dim ?_ ?_ ?_)))
  · intro d h; simp [Var.startGlobal1, h]
  · intro hsome d h; simp [Var.startGlobal1, h, hhi, hsome]
  · intro d h; simp [Var.startGlobal1, h, gridAxis]
  · intro d h; simp [Var.startGlobal1, h, gridAxis]
  all_goals intro n; simp [Var.startGlobal1, base_nx, base_ny, base_nz, gridAxis, hfi, hg.is_global]

theorem countGlobal_eq (hv : IsGlobalVar v vname f hidden hist) (hs : StorableShape vname f)
    (hg : OnGrid f) :
    v.countGlobal = .ok (leadList hidden 1 1 hist ++
      (f.layout.comps ++ (subIdx f f.layout.nbSub ++ f.layout.pixShape))) := by
  obtain ⟨hfi, hhi, hd⟩ := hv
  have hl := hg.inside.lengths
  rw [Var.countGlobal, hd]
  refine mapRes_append _ _ _ (mapRes_lead ?_ ?_) (mapRes_append _ _ _
    (mapRes_tensor ?_) (mapRes_append _ _ _ (mapRes_sub hs ?_)
      (mapRes_grid hl.1 hg.dim ?_ ?_ ?_)))
  · intro d h; simp [Var.countGlobal1, h]
  · intro hsome d h; simp [Var.countGlobal1, h]
  · intro i n hi
    have hne : f.layout.comps ≠ [] := fun h => by simp [h] at hi
    have hi' : i ≤ 2147483647 := by have := hs.comps_len; omega
    have hidx := C38_index vname i hi'
    have hb := base_tensor (hs.clean_name hne) i
    rw [tensorDimName] at hidx
    generalize dimName "tensor_dim" (vname ++ "-" ++ toString i) = nm at hb hidx ⊢
    simp [Var.countGlobal1, hb, gridAxis, hidx, hfi]
  · intro d h; simp [Var.countGlobal1, h, gridAxis, hfi]
  all_goals intro n; simp [Var.countGlobal1, base_nx, base_ny, base_nz, gridAxis, hfi, hg.is_global]

theorem ncStride_eq (hv : IsGlobalVar v vname f hidden hist) (hs : StorableShape vname f)
    (hg : OnGrid f) :
    v.ncStride = .ok (leadList hidden 1 ((hist.getD 0 : Nat) + 1) hist ++
      (List.replicate f.layout.comps.length 1 ++ (subIdx f 1 ++ List.replicate f.loc.length 1))) := by
  obtain ⟨hfi, hhi, hd⟩ := hv
  have hl := hg.inside.lengths
  rw [Var.ncStride, hd]
  refine mapRes_append _ _ _ (mapRes_lead ?_ ?_) (mapRes_append _ _ _
    (mapRes_tensorDims_const hs ?_) (mapRes_append _ _ _ (mapRes_sub hs ?_) ?_))
  · intro d h; simp [Var.ncStride1, h]
  · intro hsome d h; simp [Var.ncStride1, h, hhi, hsome]
  · intro d h; simp [Var.ncStride1, h, gridAxis]
  · intro d h; simp [Var.ncStride1, h, gridAxis]
  · rw [hl.2, ← gridList_length hg.dim]
    refine mapRes_const fun d hd => ?_
    rcases mem_gridList hd with h | h | h <;> simp [Var.ncStride1, h, gridAxis]

end

/-! ### The strides of the memory -/

section
variable {v : Var} {vname : String} {f : IoField} {hidden : Bool} {hist : Option Nat}

/-- The strides handed to the library address the same memory as the sub-point view. -/
theorem strides_iterUnit (ho : f.layout.order = .colMajor ∨ f.layout.order = .rowMajor)
    (hsc : f.layout.nbComp = 1 → f.layout.nbSub = 1)
    (hal : f.layout.pixStrides.length = f.layout.pixShape.length) :
    ∃ st su, f.layout.strides (if f.layout.nbComp = 1 then .pixel else .subPt) 1 = .ok st ∧
      f.layout.strides .subPt 1 = .ok su ∧
      st.length = f.layout.comps.length + ((subIdx f 0).length + f.layout.pixShape.length) ∧
      ∀ cc s pc, InBox f.layout.comps cc → 0 ≤ s → s < f.layout.nbSub →
        dot st (cc ++ (subIdx f s ++ pc)) = dot su (cc ++ s :: pc) := by
  by_cases h : f.layout.nbComp = 1
  · have h1 := hsc h
    have hp : f.layout.comps.prod = 1 := by rw [← nbComp_eq]; exact h
    simp only [if_pos h, subIdx]
    rcases ho with ho | ho
    · refine ⟨_, _, strides_pixel_col _ ho, strides_col _ ho, by simp [accStrides_length, hal], ?_⟩
      intro cc s pc hcc h0 hs
      obtain rfl : s = 0 := by omega
      rw [List.nil_append, dot_append (by rw [hcc.length_eq, accStrides_length]), List.append_assoc,
        dot_append (by rw [hcc.length_eq, accStrides_length])]
      simp [dot]
    · refine ⟨_, _, strides_pixel_row _ ho, strides_row _ ho, by simp [accStrides_length, hal], ?_⟩
      intro cc s pc hcc h0 hs
      obtain rfl : s = 0 := by omega
      rw [List.map_append, List.nil_append, dot_append (by simp [hcc.length_eq, accStrides_length]),
        List.append_assoc, dot_append (by simp [hcc.length_eq, accStrides_length])]
      simp [dot, h1]
  · simp only [if_neg h, subIdx]
    rcases ho with ho | ho
    · exact ⟨_, _, strides_col _ ho, strides_col _ ho, by simp [accStrides_length, hal]; omega,
        fun _ _ _ _ _ _ => rfl⟩
    · exact ⟨_, _, strides_row _ ho, strides_row _ ho, by simp [accStrides_length, hal]; omega,
        fun _ _ _ _ _ _ => rfl⟩

theorem frame_notMem_tail (hs : StorableShape vname f) :
    "frame" ∉ (tensorDims vname 0 f.layout.comps ++ (subPtDims f ++
      List.zipWith (fun nm n => (⟨dimName nm "", n⟩ : Dim)) gridNames f.nbDomain)).map Dim.name := by
  intro h
  obtain ⟨d, hd, hn⟩ := List.mem_map.1 h
  have hb : baseName d.name = "frame" := by rw [hn]; exact base_frame
  rcases List.mem_append.1 hd with hd | hd
  · obtain ⟨i, n, _, hm, rfl⟩ := mem_tensorDims hd
    have hne : f.layout.comps ≠ [] := fun h => by simp [h] at hm
    rw [base_tensor (hs.clean_name hne)] at hb
    exact absurd hb (by decide)
  · rcases List.mem_append.1 hd with hd | hd
    · rw [subPtDims_eq hs] at hd
      by_cases h1 : f.layout.nbComp = 1
      · simp [h1] at hd
      · rw [if_neg h1, List.mem_singleton] at hd
        subst hd
        rw [base_subpt (hs.clean_tag h1) hs.sub_pos.le] at hb
        exact absurd hb (by decide)
    · rcases mem_gridList hd with h | h | h <;> rw [h] at hb <;> exact absurd hb (by decide)

theorem subPtDims_length (hs : StorableShape vname f) (x : Int) :
    (subPtDims f).length = (subIdx f x).length := by
  rw [subPtDims_eq hs, subIdx]; split <;> rfl

theorem leadList_length (a b : Int) : (leadList hidden a b hist).length = (leadDims hidden hist).length := by
  cases hist <;> cases hidden <;> rfl

theorem imapGlobal_eq (hv : IsGlobalVar v vname f hidden hist) (hs : StorableShape vname f)
    (hg : OnGrid f) :
    ∃ il st su, v.imapGlobal = .ok (il ++ st) ∧ il.length = (leadDims hidden hist).length ∧
      f.layout.strides .subPt 1 = .ok su ∧
      st.length = f.layout.comps.length + ((subIdx f 0).length + f.layout.pixShape.length) ∧
      ∀ cc s pc, InBox f.layout.comps cc → 0 ≤ s → s < f.layout.nbSub →
        dot st (cc ++ (subIdx f s ++ pc)) = dot su (cc ++ s :: pc) := by
  obtain ⟨st, su, h1, h2, h3, h4⟩ := strides_iterUnit hs.order hs.sub_scalar hg.addressing.length_eq
  obtain ⟨rfl, rfl, hd⟩ := hv
  have hl := hg.inside.lengths
  rw [Var.imapGlobal, Var.iterUnit, h1, Res.ok_bind]
  cases hh : v.hist with
  | some m =>
    have key : ∀ a b, ∃ il : List Int, v.cutImap (a :: b :: st) = .ok (il ++ st) ∧ il.length = 2 := by
      intro a b
      refine ⟨[a, b], ?_, rfl⟩
      rw [Var.cutImap, if_pos (by rw [hd, hh]; simp [leadDims])]
      rfl
    obtain ⟨il, h5, h6⟩ := key _ _
    exact ⟨il, st, su, h5, h6, h2, h3, h4⟩
  | none =>
    cases hidden with
    | false =>
      refine ⟨[v.field.nbPixels * v.field.layout.nbDof], st, su, ?_, rfl, h2, h3, h4⟩
      simp only [Var.cutImap]
      rw [if_pos (by rw [hd, hh]; simp [leadDims])]
      rfl
    | true =>
      refine ⟨[], st, su, ?_, rfl, h2, h3, h4⟩
      have e : v.dims.length = st.length := by
        rw [hd, hh, h3, List.length_append, List.length_append, List.length_append,
          gridList_length hg.dim, tensorDims_length, subPtDims_length hs 0, hl.1]
        simp [leadDims]
      have hnm : "frame" ∉ v.dims.map Dim.name := by
        rw [hd, hh]
        exact frame_notMem_tail hs
      simp only [Var.cutImap]
      rw [if_neg hnm, if_neg (by simp [e]), e]
      simp

end

/-! ### The checks of the library -/

theorem checkArgs_append {lim : Option Int} {sh1 sh2 : List (Option Int)} {st1 st2 c1 c2 m1 m2 : List Int}
    (h1 : checkArgs lim sh1 st1 c1 m1 = .ok ()) (h2 : checkArgs lim sh2 st2 c2 m2 = .ok ()) :
    checkArgs lim (sh1 ++ sh2) (st1 ++ st2) (c1 ++ c2) (m1 ++ m2) = .ok () := by
  induction sh1 generalizing st1 c1 m1 with
  | nil =>
    match st1, c1, m1 with
    | [], [], [] => simpa using h2
    | _ :: _, _, _ => simp [checkArgs] at h1
    | [], _ :: _, _ => simp [checkArgs] at h1
    | [], [], _ :: _ => simp [checkArgs] at h1
  | cons n sh1 ih =>
    match st1, c1, m1 with
    | [], _, _ => simp [checkArgs] at h1
    | _ :: _, [], _ => simp [checkArgs] at h1
    | _ :: _, _ :: _, [] => simp [checkArgs] at h1
    | s :: st1, c :: c1, m :: m1 =>
      simp only [List.cons_append, checkArgs] at h1 ⊢
      split at h1
      · cases h1
      · rename_i hneg
        rw [if_neg hneg]
        split at h1
        · exact ih h1
        · split at h1
          · cases h1
          · rename_i hneg2
            rw [if_neg hneg2]
            exact ih h1

theorem checkArgs_box (lim : Option Int) {nb : List Int} (h : ∀ n ∈ nb, 0 ≤ n) :
    checkArgs lim (nb.map some) (List.replicate nb.length 0) nb (List.replicate nb.length 1) = .ok () := by
  induction nb with
  | nil => rfl
  | cons n nb ih =>
    have hn := h n (by simp)
    simp only [List.map_cons, List.length_cons, List.replicate_succ, checkArgs]
    rw [if_neg (by omega), if_neg (by omega)]
    exact ih fun m hm => h m (by simp [hm])

theorem checkArgs_within (lim : Option Int) {dom nb loc : List Int} (h : Within dom nb loc) :
    checkArgs lim (dom.map some) loc nb (List.replicate loc.length 1) = .ok () := by
  induction dom generalizing nb loc with
  | nil =>
    match nb, loc, h with
    | [], [], _ => rfl
  | cons N dom ih =>
    match nb, loc, h with
    | n :: nb, l :: loc, h =>
      obtain ⟨h1, h2, h3, h4⟩ := h
      simp only [List.map_cons, List.length_cons, List.replicate_succ, checkArgs]
      rw [if_neg (by omega), if_neg (by omega)]
      exact ih h4

/-- The shape in the file of the leading dimensions. -/
def leadShape (hidden : Bool) : Option Nat → List (Option Int)
  | none => if hidden then [] else [none]
  | some m => [none, some ((m : Int) + 1)]

theorem checkArgs_lead {lim : Option Int} {hidden : Bool} {frame : Int} {k : Nat} {hist : Option Nat}
    (hf : 0 ≤ frame) (hlim : ∀ n, lim = some n → frame < n) (hk : HistIdx k hist) :
    checkArgs lim (leadShape hidden hist) (leadList hidden frame k hist) (leadList hidden 1 1 hist)
      (leadList hidden 1 ((hist.getD 0 : Nat) + 1) hist) = .ok () := by
  have h1 : ∀ (sh : List (Option Int)) (a b c : List Int), checkArgs lim sh a b c = .ok () →
      checkArgs lim (none :: sh) (frame :: a) (1 :: b) (1 :: c) = .ok () := by
    intro sh a b c h
    simp only [checkArgs]
    rw [if_neg (by omega)]
    cases lim with
    | none => exact h
    | some n =>
      have := hlim n rfl
      simp only
      rw [if_neg (by omega)]
      exact h
  cases hist with
  | none =>
    cases hidden
    · exact h1 _ _ _ _ rfl
    · rfl
  | some m =>
    refine h1 _ _ _ _ ?_
    have hk' : k ≤ m := hk
    simp only [Option.getD_some, checkArgs]
    rw [if_neg (by omega), if_neg (by omega)]

theorem fileShape_append (a b : List Dim) : fileShape (a ++ b) = fileShape a ++ fileShape b := by
  simp [fileShape]

theorem fileShape_tensor (vname : String) {comps : List Int} (h : Pos comps) (k : Nat) :
    fileShape (tensorDims vname k comps) = comps.map some := by
  induction comps generalizing k with
  | nil => rfl
  | cons n comps ih =>
    have hn := Pos.cons.1 h
    have := ih hn.2 (k + 1)
    simp only [fileShape] at this
    simp only [tensorDims, fileShape, List.map_cons, this]
    rw [if_neg (by omega)]

theorem fileShape_grid {nb : List Int} (h3 : nb.length ≤ 3) (h : Pos nb) :
    fileShape (List.zipWith (fun nm n => (⟨dimName nm "", n⟩ : Dim)) gridNames nb) = nb.map some := by
  have hne : ∀ n ∈ nb, n ≠ 0 := fun n hn => by have := h n hn; omega
  rcases list_le_three h3 with rfl | ⟨a, rfl⟩ | ⟨a, b, rfl⟩ | ⟨a, b, c, rfl⟩ <;>
    simp at hne <;> simp [gridNames, fileShape, hne]

theorem fileShape_lead (hidden : Bool) (hist : Option Nat) :
    fileShape (leadDims hidden hist) = leadShape hidden hist := by
  cases hist with
  | none => cases hidden <;> rfl
  | some m =>
    have : ((m : Int) + 1) ≠ 0 := by omega
    simp [leadDims, fileShape, leadShape, this]

theorem fileShape_eq {v : Var} {vname : String} {f : IoField} {hidden : Bool} {hist : Option Nat}
    (hv : IsGlobalVar v vname f hidden hist) (hs : StorableShape vname f) (hg : OnGrid f) :
    fileShape v.dims = leadShape hidden hist ++ (f.layout.comps.map some ++
      ((subIdx f f.layout.nbSub).map some ++ f.nbDomain.map some)) := by
  rw [hv.dims, fileShape_append, fileShape_append, fileShape_append, fileShape_lead,
    fileShape_tensor _ hs.comps_pos, fileShape_grid hg.dim hg.dom_pos, subPtDims_eq hs, subIdx]
  have := hs.sub_pos
  split
  · rfl
  · simp only [fileShape, List.map_cons, List.map_nil]
    rw [if_neg (by omega)]

theorem checkArgs_global {f : IoField} {vname : String} {hidden : Bool} {hist : Option Nat}
    {lim : Option Int} {frame : Int} {k : Nat} (hs : StorableShape vname f) (hg : OnGrid f)
    (hf : 0 ≤ frame) (hlim : ∀ n, lim = some n → frame < n) (hk : HistIdx k hist) :
    checkArgs lim (leadShape hidden hist ++ (f.layout.comps.map some ++
        ((subIdx f f.layout.nbSub).map some ++ f.nbDomain.map some)))
      (leadList hidden frame k hist ++
        (List.replicate f.layout.comps.length 0 ++ (subIdx f 0 ++ f.loc)))
      (leadList hidden 1 1 hist ++
        (f.layout.comps ++ (subIdx f f.layout.nbSub ++ f.layout.pixShape)))
      (leadList hidden 1 ((hist.getD 0 : Nat) + 1) hist ++
        (List.replicate f.layout.comps.length 1 ++ (subIdx f 1 ++ List.replicate f.loc.length 1)))
      = .ok () := by
  refine checkArgs_append (checkArgs_lead hf hlim hk) (checkArgs_append
    (checkArgs_box lim fun n hn => (hs.comps_pos n hn).le) (checkArgs_append ?_
      (checkArgs_within lim hg.inside)))
  have := hs.sub_pos
  unfold subIdx
  split
  · rfl
  · simpa using checkArgs_box lim (nb := [f.layout.nbSub]) (by simp; omega)

/-! ### What a successful registration says -/

theorem mapRes_mem {β γ : Type} {g : β → Res γ} {l : List β} {r : List γ} (h : mapRes g l = .ok r)
    {x : β} (hx : x ∈ l) : ∃ y, g x = .ok y := by
  induction l generalizing r with
  | nil => simp at hx
  | cons a l ih =>
    rw [mapRes] at h
    obtain ⟨p, hp, h⟩ := Res.bind_eq_ok.1 h
    obtain ⟨q, hq, h⟩ := Res.bind_eq_ok.1 h
    rcases List.mem_cons.1 hx with rfl | hx
    · exact ⟨p, hp⟩
    · exact ih hq hx

theorem baseName_unclean {base suffix : String} (h : suffix ≠ "") (hc : ¬ Clean suffix) :
    ∃ r, (baseName (dimName base suffix)).toList = base.toList ++ '_' :: r := by
  unfold Clean at hc
  rw [not_not, ← rfindSep_isSome_iff] at hc
  obtain ⟨q, hq⟩ := Option.isSome_iff_exists.1 hc
  have h1 : rfindSep ('_' :: '_' :: suffix.toList) = some (q + 1) := by
    rw [rfindSep, hq]
  have h2 := rfindSep_append_of_some (a := base.toList) h1
  refine ⟨('_' :: suffix.toList).take q, ?_⟩
  rw [baseName, toList_dimName h, h2]
  simp only [String.toList_ofList]
  rw [List.take_append, List.take_of_length_le (by omega)]
  simp

theorem startGlobal1_unclean (v : Var) (frame : Int) (k : Nat) (nm : String) (n : Int) (b : String)
    (hb : b = "tensor_dim" ∨ b = "subpt") (r : List Char)
    (h : (baseName nm).toList = b.toList ++ '_' :: r) :
    v.startGlobal1 frame k ⟨nm, n⟩ = .throw .fileIOError := by
  have key : ∀ s : String, s.toList ≠ b.toList ++ '_' :: r → baseName nm ≠ s := by
    rintro s hs rfl
    exact hs h
  have h1 := key "frame" (by rcases hb with rfl | rfl <;> simp)
  have h2 := key "history_index" (by rcases hb with rfl | rfl <;> simp)
  have h3 := key "nx" (by rcases hb with rfl | rfl <;> simp)
  have h4 := key "ny" (by rcases hb with rfl | rfl <;> simp)
  have h5 := key "nz" (by rcases hb with rfl | rfl <;> simp)
  have h6 := key "subpt" (by rcases hb with rfl | rfl <;> simp)
  have h7 := key "tensor_dim" (by rcases hb with rfl | rfl <;> simp)
  simp [Var.startGlobal1, gridAxis, h1, h2, h3, h4, h5, h6, h7]

theorem strides_pixel_length {l : FieldLayout} (hal : l.pixStrides.length = l.pixShape.length)
    {st : List Int} (h : l.strides .pixel 1 = .ok st) :
    st.length = l.comps.length + l.pixShape.length := by
  rcases ho : l.order
  · rw [strides_pixel_col l ho] at h; cases h; simp [accStrides_length, hal]
  · rw [strides_pixel_row l ho] at h; cases h; simp [accStrides_length, hal]
  all_goals simp [strides, subPtStrides, componentsStrides, ho] at h

theorem cutImap_frame {v : Var} {l : List Int} (h : "frame" ∈ v.dims.map Dim.name) :
    v.cutImap l = .ok l := by rw [Var.cutImap, if_pos h]

/-- Success of the registration of a user's variable shows that the field can be stored. -/
theorem registered {v : Var} {vname : String} {f : IoField} {hidden : Bool} {hist : Option Nat}
    {grid grid' : List Int}
    (hf : GlobalField f) (hh : hidden = true → f.layout.nbSub = 1)
    (h : registerGlobalVar vname f hidden hist grid = .ok (v, grid')) :
    IsGlobalVar v vname f hidden hist ∧ StorableShape vname f ∧ OnGrid f := by
  obtain ⟨⟨ds, gr⟩, h1, h⟩ := Res.bind_eq_ok.1 h
  obtain ⟨t, hty, h⟩ := Res.bind_eq_ok.1 h
  obtain ⟨u, hchk, h⟩ := Res.bind_eq_ok.1 h
  rw [Res.pure_eq, Res.ok.injEq, Prod.mk.injEq] at h
  obtain ⟨h, -⟩ := h
  obtain ⟨⟨gd, gr'⟩, hgd, h1⟩ := Res.bind_eq_ok.1 h1
  rw [Res.pure_eq, Res.ok.injEq, Prod.mk.injEq] at h1
  obtain ⟨hdim, hgd⟩ := gridDims_spec hgd
  have hdim : f.nbDomain.length ≤ 3 := hdim
  have hl := hf.inside.lengths
  have hds : v.dims = leadDims hidden hist ++ (tensorDims vname 0 f.layout.comps ++ (subPtDims f ++
      List.zipWith (fun nm n => ⟨dimName nm "", n⟩) gridNames f.nbDomain)) := by
    rw [← h, ← hgd, ← h1.1]
  have hvf : v.field = f := by rw [← h]
  have hvh : v.hist = hist := by rw [← h]
  rw [h] at hchk
  refine ⟨⟨hvf, hvh, hds, ncTypeOf_ok hty⟩, ?_, hf.is_global, hdim, hf.dom_pos, hf.inside, hf.addressing⟩
  rw [Var.checkGlobal] at hchk
  split at hchk
  · cases hchk
  obtain ⟨start, hst, hchk⟩ := Res.bind_eq_ok.1 hchk
  obtain ⟨count, hct, hchk⟩ := Res.bind_eq_ok.1 hchk
  obtain ⟨stride, hsd, hchk⟩ := Res.bind_eq_ok.1 hchk
  obtain ⟨imap, him, hchk⟩ := Res.bind_eq_ok.1 hchk
  split at hchk
  case isFalse => cases hchk
  rename_i hlen
  rw [Var.startGlobal, if_neg (by omega)] at hst
  have hname : f.layout.comps ≠ [] → Clean vname := by
    intro hne
    by_contra hc
    obtain ⟨n, rest, hcomps⟩ := List.exists_cons_of_ne_nil hne
    obtain ⟨r, hr⟩ := baseName_unclean (base := "tensor_dim") (name_ne_empty vname 0)
      (fun hcl => hc ((clean_name_iff vname 0).1 hcl))
    have hmem : (⟨dimName "tensor_dim" (vname ++ "-" ++ toString 0), n⟩ : Dim) ∈ v.dims := by
      rw [hds, hcomps]
      exact List.mem_append_right _ (List.mem_append_left _ (by rw [tensorDims]; exact List.mem_cons_self))
    generalize dimName "tensor_dim" (vname ++ "-" ++ toString 0) = nm at hr hmem
    obtain ⟨y, hy⟩ := mapRes_mem hst hmem
    rw [startGlobal1_unclean v 0 0 nm n "tensor_dim" (Or.inl rfl) r hr] at hy
    cases hy
  have htag : f.layout.nbComp ≠ 1 → Clean f.tag := by
    intro hne
    by_contra hc
    obtain ⟨m, hm⟩ := Int.eq_ofNat_of_zero_le hf.sub_pos.le
    obtain ⟨r, hr⟩ := baseName_unclean (base := "subpt") (name_ne_empty f.tag m)
      (fun hcl => hc ((clean_name_iff f.tag m).1 hcl))
    have hmem : (⟨dimName "subpt" (f.tag ++ "-" ++ toString m), f.layout.nbSub⟩ : Dim) ∈ v.dims := by
      rw [hds]
      refine List.mem_append_right _ (List.mem_append_right _ (List.mem_append_left _ ?_))
      rw [subPtDims, if_pos (Or.inr hne), hm]
      exact List.mem_singleton.2 rfl
    generalize dimName "subpt" (f.tag ++ "-" ++ toString m) = nm at hr hmem
    obtain ⟨y, hy⟩ := mapRes_mem hst hmem
    rw [startGlobal1_unclean v 0 0 nm _ "subpt" (Or.inr rfl) r hr] at hy
    cases hy
  have hsc : f.layout.nbComp = 1 → f.layout.nbSub = 1 := by
    intro hc1
    by_contra hn
    obtain rfl : hidden = false := by
      cases hidden
      · rfl
      · exact absurd (hh rfl) hn
    have hlst := mapRes_length hst
    have hfr : "frame" ∈ v.dims.map Dim.name := by
      rw [hds]; cases hist <;> simp [leadDims]
    rw [Var.imapGlobal, Var.iterUnit, hvf, if_pos hc1] at him
    obtain ⟨s, hs1, him⟩ := Res.bind_eq_ok.1 him
    have hls := strides_pixel_length hf.addressing.length_eq hs1
    rw [hvh] at him
    have hdl : v.dims.length = (leadDims false hist).length + (f.layout.comps.length +
        (1 + f.nbDomain.length)) := by
      rw [hds, List.length_append, List.length_append, List.length_append, tensorDims_length,
        gridList_length hdim, subPtDims, if_pos (Or.inl hn)]
      rfl
    cases hist with
    | none =>
      simp only [cutImap_frame hfr, Res.ok.injEq] at him
      have := congrArg List.length him
      simp only [List.length_cons, leadDims] at this hdl
      simp at hdl
      omega
    | some m =>
      simp only [cutImap_frame hfr, Res.ok.injEq] at him
      have := congrArg List.length him
      simp only [List.length_cons, leadDims, List.length_nil] at this hdl
      omega
  exact ⟨hf.order, hf.comps_pos, hf.comps_len, hf.sub_pos, hsc, hname, htag⟩

/-! ### Writing and reading -/

section
variable {v : Var} {vname : String} {f : IoField} {hidden : Bool} {hist : Option Nat}

/-- The multi-index of an element within the box handed to the library. -/
def boxIdx (f : IoField) (hidden : Bool) (hist : Option Nat) (cc : List Int) (s : Int) (g : List Int) :
    List Int := leadList hidden 0 0 hist ++ (cc ++ (subIdx f s ++ relCoord g f.loc))

theorem inBox_lead {c : List Int} : InBox (leadList hidden 1 1 hist) c ↔ c = leadList hidden 0 0 hist := by
  cases hist with
  | none =>
    cases hidden
    · rcases c with _ | ⟨x, _ | ⟨y, c⟩⟩ <;> simp [leadList, InBox]; omega
    · cases c <;> simp [leadList, InBox]
  | some m =>
    rcases c with _ | ⟨x, _ | ⟨y, _ | ⟨z, c⟩⟩⟩ <;> simp [leadList, InBox]; omega

theorem inBox_sub (hs : StorableShape vname f) {c : List Int} :
    InBox (subIdx f f.layout.nbSub) c ↔ ∃ s, 0 ≤ s ∧ s < f.layout.nbSub ∧ c = subIdx f s := by
  have h1 := hs.sub_pos
  unfold subIdx
  split
  · cases c with
    | nil => simp only [InBox, and_true, true_iff]; exact ⟨0, le_refl _, h1⟩
    | cons x c => simp [InBox]
  · rcases c with _ | ⟨x, _ | ⟨y, c⟩⟩ <;> simp [InBox]

theorem box_mem (hs : StorableShape vname f) (hg : OnGrid f) {c : List Int} :
    c ∈ boxIndices (leadList hidden 1 1 hist ++
        (f.layout.comps ++ (subIdx f f.layout.nbSub ++ f.layout.pixShape))) ↔
      ∃ cc s g, InField f cc s g ∧ c = boxIdx f hidden hist cc s g := by
  have hl := hg.inside.lengths
  have hll : f.loc.length = f.layout.pixShape.length := by omega
  rw [mem_boxIndices, inBox_append]
  constructor
  · rintro ⟨c1, c2, rfl, h1, h2⟩
    obtain ⟨cc, c3, rfl, hcc, h3⟩ := inBox_append.1 h2
    obtain ⟨c4, pc, rfl, h4, hpc⟩ := inBox_append.1 h3
    obtain ⟨s, h0, hlt, rfl⟩ := (inBox_sub hs).1 h4
    rw [inBox_lead] at h1
    have hpl := hpc.length_eq
    have e := relCoord_add (loc := f.loc) (c := pc) (by omega)
    refine ⟨cc, s, List.zipWith (· + ·) f.loc pc, ⟨hcc, h0, hlt, ?_⟩, ?_⟩
    · rw [inBoxAt_iff_rel hll, e]
      exact ⟨by simp; omega, hpc⟩
    · rw [boxIdx, e, h1]
  · rintro ⟨cc, s, g, ⟨hcc, h0, hlt, hgg⟩, rfl⟩
    rw [inBoxAt_iff_rel hll] at hgg
    exact ⟨_, _, rfl, inBox_lead.2 rfl, inBox_append.2 ⟨_, _, rfl, hcc, inBox_append.2
      ⟨_, _, rfl, (inBox_sub hs).2 ⟨s, h0, hlt, rfl⟩, hgg.2⟩⟩⟩

theorem target_lead (frame : Int) (k : Nat) (y : Int) :
    target (leadList hidden frame k hist) (leadList hidden 1 y hist) (leadList hidden 0 0 hist) =
      leadList hidden frame k hist := by
  cases hist <;> cases hidden <;> simp [leadList, target]

theorem target_global (hg : OnGrid f) {cc : List Int} {s : Int} {g : List Int} (hin : InField f cc s g)
    (frame : Int) (k : Nat) (y : Int) :
    target (leadList hidden frame k hist ++
        (List.replicate f.layout.comps.length 0 ++ (subIdx f 0 ++ f.loc)))
      (leadList hidden 1 y hist ++
        (List.replicate f.layout.comps.length 1 ++ (subIdx f 1 ++ List.replicate f.loc.length 1)))
      (boxIdx f hidden hist cc s g) =
    filePos f (leadList hidden frame k hist) cc s g := by
  have hl := hg.inside.lengths
  obtain ⟨hcc, -, -, hgg⟩ := hin
  rw [inBoxAt_iff_rel (by omega)] at hgg
  have hcl := hcc.length_eq
  have hrl := hgg.2.length_eq
  rw [boxIdx, target_append (by rw [leadList_length, leadList_length])
      (by rw [leadList_length, leadList_length]), target_lead,
    target_append (by simp) (by simp [hcl]), target_zeros_ones hcl,
    target_append (subIdx_length _ _ _) (subIdx_length _ _ _), target_loc (by omega),
    zipWith_add_relCoord (by omega), filePos]
  congr 3
  unfold subIdx
  split <;> simp [target]

theorem linear_global {il st su : List Int} (hil : il.length = (leadDims hidden hist).length)
    (haddr : ∀ cc s pc, InBox f.layout.comps cc → 0 ≤ s → s < f.layout.nbSub →
        dot st (cc ++ (subIdx f s ++ pc)) = dot su (cc ++ s :: pc))
    {cc : List Int} {s : Int} {g : List Int} (hin : InField f cc s g) :
    linearIndex (boxIdx f hidden hist cc s g) (il ++ st) = memPos f su cc s g := by
  rw [linearIndex_eq_dot, boxIdx, dot_append (by rw [leadList_length, hil]),
    haddr _ _ _ hin.1 hin.2.1 hin.2.2.1, memPos]
  have : leadList hidden 0 0 hist = List.replicate (leadDims hidden hist).length 0 := by
    cases hist <;> cases hidden <;> rfl
  rw [this, dot_replicate_zero, zero_add]

theorem boxIdx_inj (hg : OnGrid f) {cc cc' : List Int} {s s' : Int} {g g' : List Int}
    (h1 : InField f cc s g) (h2 : InField f cc' s' g')
    (h : boxIdx f hidden hist cc s g = boxIdx f hidden hist cc' s' g') :
    cc = cc' ∧ subIdx f s = subIdx f s' ∧ g = g' := by
  have hl := hg.inside.lengths
  have e1 := (inBoxAt_iff_rel (by omega)).1 h1.2.2.2
  have e2 := (inBoxAt_iff_rel (by omega)).1 h2.2.2.2
  have h' := List.append_cancel_left h
  obtain ⟨ha, hb⟩ := List.append_inj h' (by rw [h1.1.length_eq, h2.1.length_eq])
  obtain ⟨hc, hd⟩ := List.append_inj hb (subIdx_length _ _ _)
  refine ⟨ha, hc, ?_⟩
  rw [← zipWith_add_relCoord (loc := f.loc) (g := g) (by omega), hd,
    zipWith_add_relCoord (by omega)]

/-- Different elements have different addresses. -/
theorem memPos_inj (ho : f.layout.order = .colMajor ∨ f.layout.order = .rowMajor)
    (hin : Within f.nbDomain f.layout.pixShape f.loc)
    (ha : Addressing f.layout.pixShape f.layout.pixStrides f.layout.nbBuf)
    {su : List Int} (hsu : f.layout.strides .subPt 1 = .ok su)
    {cc cc' : List Int} {s s' : Int} {g g' : List Int}
    (h1 : InField f cc s g) (h2 : InField f cc' s' g')
    (h : memPos f su cc s g = memPos f su cc' s' g') : cc = cc' ∧ s = s' ∧ g = g' := by
  have hl := hin.lengths
  obtain ⟨su', hsu', hsh, hadd, -⟩ := C18_sub_pt_strides f.layout ho ha
  rw [hsu] at hsu'
  cases hsu'
  have e1 := (inBoxAt_iff_rel (by omega)).1 h1.2.2.2
  have e2 := (inBoxAt_iff_rel (by omega)).1 h2.2.2.2
  have hbox : ∀ cc s g, InField f cc s g → InBox f.layout.pixShape (relCoord g f.loc) →
      InBox (f.layout.shape .subPt) (cc ++ s :: relCoord g f.loc) := by
    intro cc s g hi hr
    rw [hsh]
    exact inBox_append.2 ⟨_, _, rfl, hi.1, hi.2.1, hi.2.2.1, hr⟩
  have := hadd.inj _ _ (hbox _ _ _ h1 e1.2) (hbox _ _ _ h2 e2.2) h
  obtain ⟨ha, hb⟩ := List.append_inj this (by rw [h1.1.length_eq, h2.1.length_eq])
  simp only [List.cons.injEq] at hb
  refine ⟨ha, hb.1, ?_⟩
  rw [← zipWith_add_relCoord (loc := f.loc) (g := g) (by omega), hb.2,
    zipWith_add_relCoord (by omega)]

/-- The arguments for the library, all together. -/
theorem write_args (hv : IsGlobalVar v vname f hidden hist) (hs : StorableShape vname f)
    (hg : OnGrid f) {α : Type} {nb frame fr : Int} (k : Nat) (hfr : varFrame nb frame = .ok fr)
    (buf : Mem α) (fv : FileVar α) (hty : fv.form = v.form) :
    ∃ il st su, il.length = (leadDims hidden hist).length ∧
      f.layout.strides .subPt 1 = .ok su ∧
      st.length = f.layout.comps.length + ((subIdx f 0).length + f.layout.pixShape.length) ∧
      (∀ cc s g, InField f cc s g →
        linearIndex (boxIdx f hidden hist cc s g) (il ++ st) = memPos f su cc s g) ∧
      v.writeGlobal nb frame k buf fv = putVarm fv
        (leadList hidden fr k hist ++
          (List.replicate f.layout.comps.length 0 ++ (subIdx f 0 ++ f.loc)))
        (leadList hidden 1 1 hist ++
          (f.layout.comps ++ (subIdx f f.layout.nbSub ++ f.layout.pixShape)))
        (leadList hidden 1 ((hist.getD 0 : Nat) + 1) hist ++
          (List.replicate f.layout.comps.length 1 ++ (subIdx f 1 ++ List.replicate f.loc.length 1)))
        (il ++ st) buf ∧
      ∀ numrecs, v.readGlobal nb frame k numrecs fv buf = getVarm fv numrecs
        (leadList hidden fr k hist ++
          (List.replicate f.layout.comps.length 0 ++ (subIdx f 0 ++ f.loc)))
        (leadList hidden 1 1 hist ++
          (f.layout.comps ++ (subIdx f f.layout.nbSub ++ f.layout.pixShape)))
        (leadList hidden 1 ((hist.getD 0 : Nat) + 1) hist ++
          (List.replicate f.layout.comps.length 1 ++ (subIdx f 1 ++ List.replicate f.loc.length 1)))
        (il ++ st) buf := by
  obtain ⟨il, st, su, h1, h2, h3, h4, h5⟩ := imapGlobal_eq hv hs hg
  rw [varFrame] at hfr
  obtain ⟨f', hf', hfr⟩ := Res.bind_eq_ok.1 hfr
  split at hfr
  · cases hfr
  · cases hfr
    refine ⟨il, st, su, h2, h3, h4, fun cc s g hin => linear_global h2 h5 hin, ?_, ?_⟩
    · rw [Var.writeGlobal, hf', Res.ok_bind, startGlobal_eq hv hs hg (by omega) k, Res.ok_bind,
        countGlobal_eq hv hs hg, Res.ok_bind, ncStride_eq hv hs hg, Res.ok_bind, h1, Res.ok_bind,
        sameType_ok hv.field hv.ty hty, Res.ok_bind]
    · intro numrecs
      rw [Var.readGlobal, hf', Res.ok_bind, startGlobal_eq hv hs hg (by omega) k, Res.ok_bind,
        countGlobal_eq hv hs hg, Res.ok_bind, ncStride_eq hv hs hg, Res.ok_bind, h1, Res.ok_bind,
        sameType_ok hv.field hv.ty hty, Res.ok_bind]

theorem varFrame_nonneg {nb frame fr : Int} (h : varFrame nb frame = .ok fr) : 0 ≤ fr := by
  rw [varFrame] at h
  obtain ⟨f', hf', h⟩ := Res.bind_eq_ok.1 h
  split at h
  · cases h
  · cases h; omega

theorem global_lengths (hg : OnGrid f) (frame : Int) (k : Nat) (y : Int)
    {il st : List Int} (hil : il.length = (leadDims hidden hist).length)
    (hst : st.length = f.layout.comps.length + ((subIdx f 0).length + f.layout.pixShape.length)) :
    (leadList hidden 1 y hist ++
          (List.replicate f.layout.comps.length 1 ++ (subIdx f 1 ++ List.replicate f.loc.length 1))).length
      = (leadList hidden frame k hist ++
          (List.replicate f.layout.comps.length 0 ++ (subIdx f 0 ++ f.loc))).length ∧
    (il ++ st).length = (leadList hidden 1 1 hist ++
          (f.layout.comps ++ (subIdx f f.layout.nbSub ++ f.layout.pixShape))).length ∧
    ∀ cc s g, InField f cc s g → (boxIdx f hidden hist cc s g).length =
      (leadList hidden frame k hist ++
          (List.replicate f.layout.comps.length 0 ++ (subIdx f 0 ++ f.loc))).length := by
  have hl := hg.inside.lengths
  refine ⟨?_, ?_, ?_⟩
  · simp only [List.length_append, leadList_length, List.length_replicate, subIdx_length f 1 0]
  · simp only [List.length_append, leadList_length, subIdx_length f f.layout.nbSub 0, hil, hst]
  · intro cc s g hin
    have e1 := (inBoxAt_iff_rel (by omega)).1 hin.2.2.2
    simp only [boxIdx, List.length_append, leadList_length, List.length_replicate,
      subIdx_length f s 0, hin.1.length_eq, e1.2.length_eq]
    omega

theorem putVarm_spec (hs : StorableShape vname f) (hg : OnGrid f) {α : Type} {fr : Int} {k : Nat}
    (hfr : 0 ≤ fr) (hk : HistIdx k hist) {il st su : List Int}
    (h1 : il.length = (leadDims hidden hist).length) (h2 : f.layout.strides .subPt 1 = .ok su)
    (h3 : st.length = f.layout.comps.length + ((subIdx f 0).length + f.layout.pixShape.length))
    (h4 : ∀ cc s g, InField f cc s g →
        linearIndex (boxIdx f hidden hist cc s g) (il ++ st) = memPos f su cc s g)
    {buf : Mem α} {val : List Int → Int → List Int → α} (hb : Holds f buf val)
    {fv : FileVar α} (hsh : fv.shape = leadShape hidden hist ++ (f.layout.comps.map some ++
      ((subIdx f f.layout.nbSub).map some ++ f.nbDomain.map some))) :
    ∃ fv', putVarm fv
        (leadList hidden fr k hist ++
          (List.replicate f.layout.comps.length 0 ++ (subIdx f 0 ++ f.loc)))
        (leadList hidden 1 1 hist ++
          (f.layout.comps ++ (subIdx f f.layout.nbSub ++ f.layout.pixShape)))
        (leadList hidden 1 ((hist.getD 0 : Nat) + 1) hist ++
          (List.replicate f.layout.comps.length 1 ++ (subIdx f 1 ++ List.replicate f.loc.length 1)))
        (il ++ st) buf = .ok fv' ∧ fv'.form = fv.form ∧
      (∀ cc s g, InField f cc s g →
        fv'.data (filePos f (leadList hidden fr k hist) cc s g) = val cc s g) ∧
      ∀ y, (∀ cc s g, InField f cc s g → y ≠ filePos f (leadList hidden fr k hist) cc s g) →
        fv'.data y = fv.data y := by
  obtain ⟨st', hst', hval⟩ := hb
  rw [h2] at hst'
  cases hst'
  obtain ⟨hl1, hl2, hl3⟩ := global_lengths (f := f) (hidden := hidden) (hist := hist) hg fr k
    ((hist.getD 0 : Nat) + 1) h1 h3
  rw [putVarm, hsh, checkArgs_global hs hg hfr (by simp) hk, Res.ok_bind,
    if_neg (by rw [hl2]; omega)]
  obtain ⟨d', e1, e2, e3⟩ := putLoop_spec (buf := buf) (imap := il ++ st)
    (start := leadList hidden fr k hist ++
        (List.replicate f.layout.comps.length 0 ++ (subIdx f 0 ++ f.loc)))
    (stride := leadList hidden 1 ((hist.getD 0 : Nat) + 1) hist ++
        (List.replicate f.layout.comps.length 1 ++ (subIdx f 1 ++ List.replicate f.loc.length 1)))
    (boxIndices (leadList hidden 1 1 hist ++
          (f.layout.comps ++ (subIdx f f.layout.nbSub ++ f.layout.pixShape))))
    (by
      intro c hc c' hc' he
      obtain ⟨cc, s, g, hin, rfl⟩ := (box_mem hs hg).1 hc
      obtain ⟨cc', s', g', hin', rfl⟩ := (box_mem hs hg).1 hc'
      refine target_inj ?_ hl1 (hl3 _ _ _ hin) (hl3 _ _ _ hin') he
      intro m hm
      simp only [List.mem_append, List.mem_replicate, subIdx] at hm
      rcases hm with hm | ⟨-, rfl⟩ | hm | ⟨-, rfl⟩
      · cases hist <;> cases hidden <;> simp [leadList] at hm <;> omega
      · omega
      · split at hm <;> simp at hm; omega
      · omega)
    (by
      intro c hc
      obtain ⟨cc, s, g, hin, rfl⟩ := (box_mem hs hg).1 hc
      rw [h4 _ _ _ hin, hval _ _ _ hin]
      simp) fv.data
  rw [e1, Res.ok_bind]
  refine ⟨_, rfl, hsh ▸ rfl, ?_, ?_⟩
  · intro cc s g hin
    have := e2 _ ((box_mem hs hg).2 ⟨cc, s, g, hin, rfl⟩)
    rw [h4 _ _ _ hin, hval _ _ _ hin, target_global hg hin] at this
    exact (Option.some.inj this).symm
  · intro y hy
    refine e3 y fun c hc => ?_
    obtain ⟨cc, s, g, hin, rfl⟩ := (box_mem hs hg).1 hc
    rw [target_global hg hin]
    exact hy _ _ _ hin

theorem getVarm_spec (hs : StorableShape vname f) (hg : OnGrid f) {α : Type} {fr : Int} {k : Nat}
    (hfr : 0 ≤ fr) (hk : HistIdx k hist) {numrecs : Int} (hn : fr < numrecs) {il st su : List Int}
    (h1 : il.length = (leadDims hidden hist).length) (h2 : f.layout.strides .subPt 1 = .ok su)
    (h3 : st.length = f.layout.comps.length + ((subIdx f 0).length + f.layout.pixShape.length))
    (h4 : ∀ cc s g, InField f cc s g →
        linearIndex (boxIdx f hidden hist cc s g) (il ++ st) = memPos f su cc s g)
    {buf : Mem α} {val : List Int → Int → List Int → α} (hb : Holds f buf val)
    {fv : FileVar α} (hsh : fv.shape = leadShape hidden hist ++ (f.layout.comps.map some ++
      ((subIdx f f.layout.nbSub).map some ++ f.nbDomain.map some))) :
    ∃ buf', getVarm fv numrecs
        (leadList hidden fr k hist ++
          (List.replicate f.layout.comps.length 0 ++ (subIdx f 0 ++ f.loc)))
        (leadList hidden 1 1 hist ++
          (f.layout.comps ++ (subIdx f f.layout.nbSub ++ f.layout.pixShape)))
        (leadList hidden 1 ((hist.getD 0 : Nat) + 1) hist ++
          (List.replicate f.layout.comps.length 1 ++ (subIdx f 1 ++ List.replicate f.loc.length 1)))
        (il ++ st) buf = .ok buf' ∧
      Holds f buf' (fun cc s g => fv.data (filePos f (leadList hidden fr k hist) cc s g)) ∧
      SameOutside f buf buf' := by
  obtain ⟨st', hst', hval⟩ := hb
  rw [h2] at hst'
  cases hst'
  obtain ⟨hl1, hl2, hl3⟩ := global_lengths (f := f) (hidden := hidden) (hist := hist) hg fr k
    ((hist.getD 0 : Nat) + 1) h1 h3
  rw [getVarm, hsh, checkArgs_global hs hg hfr (by intro n hn'; cases hn'; exact hn) hk, Res.ok_bind,
    if_neg (by rw [hl2]; omega)]
  obtain ⟨b', e1, e2, e3⟩ := getLoop_spec (d := fv.data) (imap := il ++ st)
    (start := leadList hidden fr k hist ++
        (List.replicate f.layout.comps.length 0 ++ (subIdx f 0 ++ f.loc)))
    (stride := leadList hidden 1 ((hist.getD 0 : Nat) + 1) hist ++
        (List.replicate f.layout.comps.length 1 ++ (subIdx f 1 ++ List.replicate f.loc.length 1)))
    (boxIndices (leadList hidden 1 1 hist ++
          (f.layout.comps ++ (subIdx f f.layout.nbSub ++ f.layout.pixShape))))
    (by
      intro c hc c' hc' he
      obtain ⟨cc, s, g, hin, rfl⟩ := (box_mem hs hg).1 hc
      obtain ⟨cc', s', g', hin', rfl⟩ := (box_mem hs hg).1 hc'
      rw [h4 _ _ _ hin, h4 _ _ _ hin'] at he
      obtain ⟨rfl, rfl, rfl⟩ := memPos_inj hs.order hg.inside hg.addressing h2 hin hin' he
      rfl) buf
    (by
      intro c hc
      obtain ⟨cc, s, g, hin, rfl⟩ := (box_mem hs hg).1 hc
      rw [h4 _ _ _ hin, hval _ _ _ hin]
      simp)
  refine ⟨b', e1, ⟨su, h2, ?_⟩, ⟨su, h2, ?_⟩⟩
  · intro cc s g hin
    have := e2 _ ((box_mem hs hg).2 ⟨cc, s, g, hin, rfl⟩)
    rwa [h4 _ _ _ hin, target_global hg hin] at this
  · intro a ha
    refine e3 a fun c hc => ?_
    obtain ⟨cc, s, g, hin, rfl⟩ := (box_mem hs hg).1 hc
    rw [h4 _ _ _ hin]
    exact ha _ _ _ hin

theorem writeGlobal_spec (hv : IsGlobalVar v vname f hidden hist) (hs : StorableShape vname f)
    (hg : OnGrid f) {α : Type} {nb frame fr : Int} {k : Nat} (hfr : varFrame nb frame = .ok fr)
    (hk : HistIdx k hist) {buf : Mem α} {val : List Int → Int → List Int → α} (hb : Holds f buf val)
    {fv : FileVar α} (hsh : fv.form = v.form) :
    ∃ fv', v.writeGlobal nb frame k buf fv = .ok fv' ∧ fv'.form = fv.form ∧
      (∀ cc s g, InField f cc s g →
        fv'.data (filePos f (leadList hidden fr k hist) cc s g) = val cc s g) ∧
      ∀ y, (∀ cc s g, InField f cc s g → y ≠ filePos f (leadList hidden fr k hist) cc s g) →
        fv'.data y = fv.data y := by
  obtain ⟨il, st, su, h1, h2, h3, h4, h5, -⟩ := write_args hv hs hg k hfr buf fv hsh
  rw [h5]
  exact putVarm_spec hs hg (varFrame_nonneg hfr) hk h1 h2 h3 h4 hb
    ((congrArg Prod.fst hsh).trans (fileShape_eq hv hs hg))

theorem readGlobal_spec (hv : IsGlobalVar v vname f hidden hist) (hs : StorableShape vname f)
    (hg : OnGrid f) {α : Type} {nb frame fr : Int} {k : Nat} (hfr : varFrame nb frame = .ok fr)
    (hk : HistIdx k hist) {numrecs : Int} (hn : fr < numrecs) {buf : Mem α}
    {val : List Int → Int → List Int → α} (hb : Holds f buf val)
    {fv : FileVar α} (hsh : fv.form = v.form) :
    ∃ buf', v.readGlobal nb frame k numrecs fv buf = .ok buf' ∧
      Holds f buf' (fun cc s g => fv.data (filePos f (leadList hidden fr k hist) cc s g)) ∧
      SameOutside f buf buf' := by
  obtain ⟨il, st, su, h1, h2, h3, h4, -, h5⟩ := write_args hv hs hg k hfr buf fv hsh
  rw [h5]
  exact getVarm_spec hs hg (varFrame_nonneg hfr) hk hn h1 h2 h3 h4 hb
    ((congrArg Prod.fst hsh).trans (fileShape_eq hv hs hg))

end

end Verif.NetCDF
