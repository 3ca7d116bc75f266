import Verif.Lemmas.FileCheck
import Verif.Model.FileRegister
/-
The names of the dimensions in a file: two dimensions with the same name have the same size.
-/
namespace Verif.NetCDF
open Verif Verif.Ccoord Verif.Layout Verif.Props

/-- The dimensions that the variables of a file can have, for given component shapes and numbers of local points of
the variables and given extents of the domain. -/
inductive KnownDim (comps : String → List Int) (total : String → Int) (dom : List Int) : Dim → Prop
  | frame : KnownDim comps total dom ⟨"frame", 0⟩
  | history (m : Nat) : KnownDim comps total dom ⟨"history_index__" ++ toString (m + 1), (m : Int) + 1⟩
  | tensor (vname : String) (k : Nat) (n : Int) (h : (comps vname)[k]? = some n) (hn : 0 < n) :
      KnownDim comps total dom ⟨dimName "tensor_dim" (vname ++ "-" ++ toString k), n⟩
  | sub (tag : String) (n : Nat) (hn : 0 < n) :
      KnownDim comps total dom ⟨dimName "subpt" (tag ++ "-" ++ toString n), n⟩
  | grid (i : Nat) (nm : String) (n : Int) (hi : gridNames[i]? = some nm) (h : dom[i]? = some n) (hn : 0 < n) :
      KnownDim comps total dom ⟨dimName nm "", n⟩
  | pts (vname : String) (hn : 0 < total vname) : KnownDim comps total dom ⟨dimName "pts" vname, total vname⟩

theorem toString_nat_inj {a b : Nat} (h : toString a = toString b) : a = b := by
  have ha := Nat.ofDigitChars_ten_toDigits (n := a)
  have hb := Nat.ofDigitChars_ten_toDigits (n := b)
  have := congrArg String.toList h
  rw [show toString a = a.repr from rfl, show toString b = b.repr from rfl, Nat.toList_repr, Nat.toList_repr] at this
  rw [← ha, ← hb, this]

theorem suffix_inj {a b : String} {k l : Nat} (h : a ++ "-" ++ toString k = b ++ "-" ++ toString l) :
    a = b ∧ k = l := by
  have := congrArg String.toList h
  simp only [String.toList_append, List.append_assoc] at this
  obtain ⟨h1, h2⟩ := split_dash (dash_notMem k) (dash_notMem l) this
  exact ⟨String.toList_inj.1 h1, toString_nat_inj (String.toList_inj.1 h2)⟩

theorem dimName_inj {base a b : String} (ha : a ≠ "") (hb : b ≠ "") (h : dimName base a = dimName base b) : a = b := by
  have := congrArg String.toList h
  rw [toList_dimName ha, toList_dimName hb] at this
  have := List.append_cancel_left this
  simp only [List.cons.injEq, true_and] at this
  exact String.toList_inj.1 this

theorem head_dimName (base suffix : String) (c : Char) (h : base.toList.head? = some c) :
    (dimName base suffix).toList.head? = some c := by
  by_cases hs : suffix = ""
  · rw [dimName, if_pos hs, h]
  · rw [toList_dimName hs, List.head?_append, h]; rfl

/-- The first letter tells the kinds of dimensions apart. -/
theorem head_grid {i : Nat} {nm : String} (h : gridNames[i]? = some nm) : (dimName nm "").toList.head? = some 'n' := by
  apply head_dimName
  have := List.mem_of_getElem? h
  simp only [gridNames, List.mem_cons, List.not_mem_nil, or_false] at this
  rcases this with rfl | rfl | rfl <;> rfl

theorem head_history (m : Nat) : ("history_index__" ++ toString m).toList.head? = some 'h' := by
  rw [String.toList_append, List.head?_append]; rfl

theorem pts_inj {a b : String} (h : dimName "pts" a = dimName "pts" b) : a = b := by
  by_cases ha : a = ""
  · by_cases hb : b = ""
    · rw [ha, hb]
    · have := congrArg String.toList h
      rw [toList_dimName hb, dimName, if_pos ha] at this
      simp at this
  · by_cases hb : b = ""
    · have := congrArg String.toList h
      rw [toList_dimName ha, dimName, if_pos hb] at this
      simp at this
    · exact dimName_inj ha hb h

theorem grid_inj {i j : Nat} {a b : String} (ha : gridNames[i]? = some a) (hb : gridNames[j]? = some b)
    (h : dimName a "" = dimName b "") : i = j := by
  rw [dimName, if_pos rfl, dimName, if_pos rfl] at h
  subst h
  have hi := (List.getElem?_eq_some_iff.1 ha).1
  have : gridNames.Nodup := by decide
  exact (List.getElem?_inj hi this).1 (ha.trans hb.symm)

theorem KnownDim.coherent {comps : String → List Int} {total : String → Int} {dom : List Int} {d e : Dim}
    (hd : KnownDim comps total dom d) (he : KnownDim comps total dom e) (h : d.name = e.name) : d = e := by
  have hh := congrArg (fun s : String => s.toList.head?) h
  have hfr : "frame".toList.head? = some 'f' := rfl
  have ht := fun s => head_dimName "tensor_dim" s 't' rfl
  have hs := fun s => head_dimName "subpt" s 's' rfl
  have hp := fun s => head_dimName "pts" s 'p' rfl
  cases hd <;> cases he <;> simp only [head_history, hfr, ht, hs, hp] at hh <;>
    try (first
      | (rw [head_grid (by assumption)] at hh; simp at hh)
      | simp at hh)
  case frame.frame => rfl
  case history.history m n =>
    simp only [String.append_right_inj] at h
    obtain rfl : m = n := Nat.succ_injective (toString_nat_inj h)
    rfl
  case tensor.tensor v k n hc hn w l m hc' hm =>
    obtain ⟨rfl, rfl⟩ := suffix_inj (dimName_inj (name_ne_empty _ _) (name_ne_empty _ _) h)
    rw [hc] at hc'
    cases hc'
    rfl
  case sub.sub t n hn u m hm =>
    obtain ⟨rfl, rfl⟩ := suffix_inj (dimName_inj (name_ne_empty _ _) (name_ne_empty _ _) h)
    rfl
  case grid.grid i a n hi hn _ j b m hj hm _ =>
    obtain rfl := grid_inj hi hj h
    rw [hn] at hm; cases hm
    rw [hi] at hj; cases hj
    rfl
  case pts.pts v hv w hw =>
    obtain rfl := pts_inj h
    rfl

theorem KnownDim.size_zero {comps : String → List Int} {total : String → Int} {dom : List Int} {d : Dim}
    (hd : KnownDim comps total dom d) (h : d.size = 0) : d = ⟨"frame", 0⟩ := by
  cases hd <;> simp only at h <;> first | rfl | omega

/-! ### The dimensions of a variable -/

theorem mem_tensor_known {comps : String → List Int} {total : String → Int} {dom : List Int} {vname : String}
    {rest : List Int} {k : Nat} (h : ∀ i n, rest[i]? = some n → (comps vname)[k + i]? = some n) (hp : Pos rest) :
    ∀ d ∈ tensorDims vname k rest, KnownDim comps total dom d := by
  induction rest generalizing k with
  | nil => simp [tensorDims]
  | cons n rest ih =>
    intro d hd
    rw [tensorDims, List.mem_cons] at hd
    rcases hd with rfl | hd
    · exact .tensor _ _ _ (h 0 n rfl) (hp n (by simp))
    · refine ih (fun i m hi => ?_) (fun x hx => hp x (by simp [hx])) d hd
      have := h (i + 1) m (by simpa using hi)
      rwa [show k + (i + 1) = k + 1 + i by omega] at this

theorem mem_grid_known {comps : String → List Int} {total : String → Int} {dom : List Int} (hp : Pos dom) :
    ∀ d ∈ List.zipWith (fun nm n => (⟨dimName nm "", n⟩ : Dim)) gridNames dom, KnownDim comps total dom d := by
  intro d hd
  obtain ⟨i, hi⟩ := List.mem_iff_getElem?.1 hd
  rw [List.getElem?_zipWith] at hi
  cases h1 : gridNames[i]? with
  | none => simp [h1] at hi
  | some nm =>
    cases h2 : dom[i]? with
    | none => simp [h1, h2] at hi
    | some n =>
      simp only [h1, h2, Option.some.injEq] at hi
      rw [← hi]
      exact .grid i nm n h1 h2 (hp n (List.mem_of_getElem? h2))

theorem mem_lead_known {comps : String → List Int} {total : String → Int} {dom : List Int} (hidden : Bool)
    (hist : Option Nat) : ∀ d ∈ leadDims hidden hist, KnownDim comps total dom d := by
  intro d hd
  cases hist with
  | none =>
    cases hidden
    · simp only [leadDims, Bool.false_eq_true, if_false, List.mem_singleton] at hd
      subst hd; exact .frame
    · simp [leadDims] at hd
  | some m =>
    simp only [leadDims, List.mem_cons, List.not_mem_nil, or_false] at hd
    rcases hd with rfl | rfl
    · exact .frame
    · exact .history m

theorem mem_sub_known {comps : String → List Int} {total : String → Int} {dom : List Int} {f : IoField}
    (h : 0 < f.layout.nbSub) : ∀ d ∈ subPtDims f, KnownDim comps total dom d := by
  intro d hd
  rw [subPtDims] at hd
  split at hd
  · obtain ⟨n, hn⟩ := Int.eq_ofNat_of_zero_le h.le
    rw [hn, List.mem_singleton] at hd
    subst hd
    exact .sub f.tag n (by omega)
  · simp at hd

/-- The dimensions of a variable for a global field. -/
theorem globalVar_known {comps : String → List Int} {total : String → Int} {v : Var} {vname : String} {f : IoField}
    {hidden : Bool} {hist : Option Nat} (hv : IsGlobalVar v vname f hidden hist) (hc : comps vname = f.layout.comps)
    (hp : Pos f.layout.comps) (hs : 0 < f.layout.nbSub) (hd : Pos f.nbDomain) :
    ∀ d ∈ v.dims, KnownDim comps total f.nbDomain d := by
  intro d hm
  rw [hv.dims, List.mem_append, List.mem_append, List.mem_append] at hm
  rcases hm with hm | hm | hm | hm
  · exact mem_lead_known _ _ d hm
  · exact mem_tensor_known (fun i n hi => by rw [hc, Nat.zero_add]; exact hi) hp d hm
  · exact mem_sub_known hs d hm
  · exact mem_grid_known hd d hm

/-- The dimensions of a variable for a local field. -/
theorem localDims_known {comps : String → List Int} {total : String → Int} {dom : List Int} {vname : String}
    {f : IoField} {hist : Option Nat} (hc : comps vname = f.layout.comps)
    (hp : Pos f.layout.comps) (hs : 0 < f.layout.nbSub) (ht : 0 < total vname) :
    ∀ d ∈ localDims vname f hist (total vname), KnownDim comps total dom d := by
  intro d hm
  rw [localDims, if_pos (by omega), List.mem_append, List.mem_append, List.mem_append] at hm
  rcases hm with hm | hm | hm | hm
  · exact mem_lead_known _ _ d hm
  · exact mem_tensor_known (fun i n hi => by rw [hc, Nat.zero_add]; exact hi) hp d hm
  · exact mem_sub_known hs d hm
  · rw [List.mem_singleton] at hm
    subst hm
    exact .pts vname ht

end Verif.NetCDF
