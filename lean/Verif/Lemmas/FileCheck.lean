import Verif.Lemmas.NetCDFLocal
/-
The checks at the end of the registration of a variable succeed for every field that can be stored.
-/
namespace Verif.NetCDF
open Verif Verif.Ccoord Verif.Layout Verif.Layout.FieldLayout Verif.RawMemory Verif.FileIO

theorem checkGlobal_ok {v : Var} {vname : String} {f : IoField} {hidden : Bool} {hist : Option Nat}
    (hv : IsGlobalVar v vname f hidden hist) (hs : StorableShape vname f) (hg : OnGrid f) : v.checkGlobal = .ok () := by
  obtain ⟨il, st, su, e1, e2, e3, e4, e5⟩ := imapGlobal_eq hv hs hg
  obtain ⟨hl1, hl2, -⟩ := global_lengths (f := f) (hidden := hidden) (hist := hist) hg 0 0
    ((hist.getD 0 : Nat) + 1) e2 e4
  have hl := hg.inside.lengths
  rw [Var.checkGlobal, hv.field, if_neg (by simp [hg.is_global]),
    startGlobal_eq hv hs hg (le_refl 0) 0, Res.ok_bind, countGlobal_eq hv hs hg, Res.ok_bind,
    ncStride_eq hv hs hg, Res.ok_bind, e1, Res.ok_bind, if_pos]
  have : (leadList hidden 0 0 hist ++
      (List.replicate f.layout.comps.length 0 ++ (subIdx f 0 ++ f.loc))).length =
      (leadList hidden 1 1 hist ++
      (f.layout.comps ++ (subIdx f f.layout.nbSub ++ f.layout.pixShape))).length := by
    simp only [List.length_append, leadList_length, List.length_replicate,
      subIdx_length f f.layout.nbSub 0]
    omega
  exact ⟨this, hl1.symm, this.trans hl2.symm⟩

theorem flatten_length_const {β : Type} (l : List β) (g : β → List Int) (k : Nat) (h : ∀ x, (g x).length = k) :
    (l.map g).flatten.length = l.length * k := by
  induction l with
  | nil => simp
  | cons x l ih =>
    rw [List.map_cons, List.flatten_cons, List.length_append, ih, h, List.length_cons, Nat.add_mul]
    omega

theorem checkLocal_ok {v : Var} {vname : String} {f : IoField} {hist : Option Nat} {total n : Int}
    (hf : LocalField f n) (hv : IsLocalVar v vname f hist total) (hs : StorableShape vname f) (marks : List Int) :
    v.checkLocal marks = .ok () := by
  have hal : f.layout.pixStrides.length = f.layout.pixShape.length := by rw [hf.shape, hf.strides]; rfl
  obtain ⟨st, su, e1, -, e3, -⟩ := strides_iterUnit hs.order hs.sub_scalar hal
  obtain ⟨il, e4, e5⟩ := imapLocal_eq hv e1
  have hk : (strideOf f hist).length = (leadDims false hist).length +
      (f.layout.comps.length + ((subIdx f 0).length + 1)) := by
    simp only [strideOf, List.length_append, leadList_length, List.length_replicate, subIdx_length f 1 0,
      List.length_singleton]
  have hp : f.layout.pixShape.length = 1 := by rw [hf.shape]; rfl
  have h1 : ∀ off, (startOf f hist 0 0 off).length = (strideOf f hist).length := by
    intro off
    rw [hk]
    simp [startOf, leadList_length]
  have h2 : (countOf f hist).length = (strideOf f hist).length := by
    rw [hk]
    simp [countOf, leadList_length, subIdx_length f f.layout.nbSub 0]
  rw [Var.checkLocal, hv.field, if_neg (by simp [hf.is_local]), startLocal_eq hv hs (le_refl 0), Res.ok_bind,
    countLocal_eq hv hs, Res.ok_bind, ncStrideLocal_eq hv hs, Res.ok_bind, e4, Res.ok_bind, if_neg (by omega), if_pos]
  rw [flatten_length_const _ _ _ h1, flatten_length_const _ _ _ fun _ => h2]
  refine ⟨by simp, by simp, ?_, rfl⟩
  rw [hk, List.length_append, e5, e3, hp]

end Verif.NetCDF
