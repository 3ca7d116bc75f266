import Verif.Spec.CollectiveSession
import Verif.Lemmas.ParallelSession
/-
All processes make the same collective calls as long as the outcomes of their calls agree.
-/
namespace Verif.NetCDF
open Verif Verif.Ccoord Verif.RawMemory Verif.FileIO Verif.Props

/-- The first `n` processes make the same calls. -/
def Same (n : Nat) (t : Nat → List CollCall) : Prop := ∃ c, ∀ i, i < n → t i = c

theorem Same.append {n : Nat} {t u : Nat → List CollCall} (h : Same n t) (h' : Same n u) : Same n fun i => t i ++ u i := by
  obtain ⟨c, h⟩ := h
  obtain ⟨d, h'⟩ := h'
  exact ⟨c ++ d, fun i hi => by show t i ++ u i = _; rw [h i hi, h' i hi]⟩

theorem Same.nil (n : Nat) : Same n fun _ => [] := ⟨[], fun _ _ => rfl⟩

theorem jointly_agreed {β : Type} {rs : List (Res β)} (h : (jointly rs).Agreed) : ∃ b, ∀ r ∈ rs, isOk r = b := by
  cases hj : jointly rs with
  | ok xs =>
    have h' := jointly_ok.1 hj
    refine ⟨true, fun r hr => ?_⟩
    clear hj h
    induction h' with
    | nil => cases hr
    | cons a _ ih =>
      rcases List.mem_cons.1 hr with rfl | hr
      · rw [a]; rfl
      · exact ih hr
  | throw e =>
    refine ⟨false, fun r hr => ?_⟩
    unfold jointly at hj
    split at hj
    · cases hj
    · split at hj
      · cases hj
      · split at hj
        · rename_i hall
          have := List.all_eq_true.1 hall r hr
          cases r with
          | ok x => cases this
          | throw e => rfl
          | ub => rfl
        · cases hj
      · cases hj
  | ub => rw [hj] at h; cases h
  | apart => rw [hj] at h; cases h

theorem apart_differ {β : Type} {rs : List (Res β)} (h : jointly rs = .apart) :
    (∃ r ∈ rs, isOk r = true) ∧ ∃ r ∈ rs, isOk r = false := by
  unfold jointly at h
  split at h
  · cases h
  · rename_i hub
    split at h
    · cases h
    · rename_i e hm
      split at h
      · cases h
      · rename_i hall
        constructor
        · by_contra hn
          apply hall
          rw [List.all_eq_true]
          intro r hr
          cases hr' : r with
          | ok x => exact absurd ⟨r, hr, by rw [hr']; rfl⟩ hn
          | throw e => rfl
          | ub =>
            exfalso
            apply hub
            rw [List.any_eq_true]
            exact ⟨r, hr, by rw [hr']; rfl⟩
        · by_contra hn
          have key : ∀ (l : List (Res β)), (∀ r ∈ l, isOk r = true) → ∃ xs, mapRes id l = .ok xs := by
            intro l
            induction l with
            | nil => intro _; exact ⟨[], rfl⟩
            | cons r l ih =>
              intro hl
              obtain ⟨xs, hx⟩ := ih fun r hr => hl r (List.mem_cons_of_mem _ hr)
              cases hr : r with
              | ok x => exact ⟨x :: xs, by rw [mapRes, hx]; rfl⟩
              | throw e => have := hl r (List.mem_cons_self ..); rw [hr] at this; cases this
              | ub => have := hl r (List.mem_cons_self ..); rw [hr] at this; cases this
          obtain ⟨xs, hx⟩ := key rs fun r hr => by
            cases hb : isOk r with
            | true => rfl
            | false => exact absurd ⟨r, hr, hb⟩ hn
          rw [hx] at hm
          cases hm
    · cases h

/-! ### One transfer -/

theorem asks_eq {v : Var} (h : v.Registered) (hg : v.field.isGlobal = true) (nb frame : Int) (k : Nat) :
    v.asks nb frame k = isOk (varFrame nb frame) := by
  rcases h.cases with ⟨-, vname, f, hidden, hist, hv, hs, hgr, hn⟩ | ⟨hg', -⟩
  · have hty : v.field.ty ≠ .complex := by rw [hv.field]; exact hv.ty
    obtain ⟨t, ht, -, -⟩ := mpi_dataType hty
    obtain ⟨il, st, su, hi, -⟩ := imapGlobal_eq hv hs hgr
    unfold Var.asks varFrame
    cases handleFrame frame nb with
    | throw e => rfl
    | ub => rfl
    | ok fr =>
      simp only [Res.ok_bind]
      by_cases h0 : fr < 0
      · rw [if_pos h0, Var.startGlobal, if_pos h0]; rfl
      · rw [if_neg h0, startGlobal_eq hv hs hgr (by omega), Res.ok_bind, countGlobal_eq hv hs hgr, Res.ok_bind,
          ncStride_eq hv hs hgr, Res.ok_bind, hi, Res.ok_bind, ht]
        rfl
  · rw [hg] at hg'; cases hg'

theorem prepareLocal_isOk {v : Var} (h : v.Registered) (hg : v.field.isGlobal = false) (nb frame : Int) (k : Nat)
    (marks : List Int) : isOk (v.prepareLocal nb frame k marks) = isOk (varFrame nb frame) := by
  rcases h with ⟨vname, f, hidden, hist, grid, grid', hf, hh, hn, hreg⟩ | ⟨vname, f, n, hist, total, lname, marks0, hf, ht, hreg⟩
  · obtain ⟨hv, hs, hgr⟩ := registered hf hh hreg
    rw [hv.field, hf.is_global] at hg; cases hg
  · obtain ⟨hv, hs⟩ := registered_local hf ht hreg
    have hty : v.field.ty ≠ .complex := by rw [hv.field]; exact hv.ty
    obtain ⟨t, ht, -, -⟩ := mpi_dataType hty
    obtain ⟨st, su, h1, -⟩ := strides_iterUnit hs.order hs.sub_scalar (by rw [hf.shape, hf.strides]; rfl)
    obtain ⟨il, h5, -⟩ := imapLocal_eq hv h1
    unfold Var.prepareLocal varFrame
    cases handleFrame frame nb with
    | throw e => rfl
    | ub => rfl
    | ok fr =>
      simp only [Res.ok_bind]
      by_cases h0 : fr < 0
      · rw [if_pos h0, Var.startLocal, if_pos h0]; rfl
      · rw [if_neg h0, startLocal_eq hv hs (by omega), Res.ok_bind, countLocal_eq hv hs, Res.ok_bind,
          ncStrideLocal_eq hv hs, Res.ok_bind, h5, Res.ok_bind, ht]
        rfl

/-- The calls of a transfer, from what all processes agree on. -/
def commonCalls (read : Bool) (nb frame : Int) (name : String) (g ok : Bool) : List CollCall :=
  if g then
    if isOk (varFrame nb frame) then [if read then .getAll name else .putAll name] else []
  else if (if read then isOk (handleFrame frame nb) else isOk (varFrame nb frame)) then .beginIndep :: if ok then [.endIndep] else []
  else []

theorem transferCalls_eq {v : Var} (h : v.Registered) (read : Bool) (nb frame : Int) (k : Nat) (marks : List Int) (ok : Bool) :
    v.transferCalls read nb frame k marks ok = commonCalls read nb frame v.name v.field.isGlobal ok := by
  unfold Var.transferCalls commonCalls
  cases hg : v.field.isGlobal with
  | true => simp only [if_true, asks_eq h hg]
  | false =>
    simp only [Bool.false_eq_true, if_false]
    have : v.switches read nb frame k marks =
        if read then isOk (handleFrame frame nb) else isOk (varFrame nb frame) := by
      rw [← prepareLocal_isOk h hg nb frame k marks]
      unfold Var.switches
      rw [hg]
      cases read with
      | true => cases handleFrame frame nb <;> rfl
      | false => cases v.prepareLocal nb frame k marks <;> rfl
    rw [this]

/-- Parts of one variable. -/
def PartsOf (nm : String) (g : Bool) (vs : List Var) : Prop := ∀ v ∈ vs, v.Registered ∧ v.name = nm ∧ v.field.isGlobal = g

section
variable {α : Type} {conv : Conv α} {n : Nat} {nm : String} {g : Bool}

theorem putParts_length (writable indep : Bool) (nb frame : Int) (k : Nat) (ws : List (Var × List Int × Mem α)) (fv : FileVar α) :
    (putParts conv writable indep nb frame k ws fv).1.length = ws.length := by
  induction ws generalizing fv with
  | nil => rfl
  | cons w ws ih =>
    obtain ⟨v, marks, buf⟩ := w
    rw [putParts]
    split <;> simp only [List.length_cons, ih]

theorem putTrace_at {writable indep : Bool} {nb frame : Int} {k : Nat} {ws : List (Var × List Int × Mem α)} {fv : FileVar α}
    (hv : PartsOf nm g (ws.map Prod.fst)) {i : Nat} (hi : i < ws.length) :
    ∃ r, (putParts conv writable indep nb frame k ws fv).1[i]? = some r ∧
      putTrace conv writable indep nb frame k ws fv i = commonCalls false nb frame nm g (isOk r) := by
  have hl := putParts_length (conv := conv) writable indep nb frame k ws fv
  refine ⟨(putParts conv writable indep nb frame k ws fv).1[i], List.getElem?_eq_getElem (by omega), ?_⟩
  unfold putTrace
  rw [List.getElem?_eq_getElem hi, List.getElem?_eq_getElem (by omega)]
  dsimp only
  obtain ⟨a, b, c⟩ := hv ws[i].1 (List.mem_map.2 ⟨_, List.getElem_mem hi, rfl⟩)
  rw [transferCalls_eq a, b, c]

theorem getTrace_at {indep : Bool} {nb frame : Int} {k : Nat} {numrecs : Int} {ws : List (Var × List Int × Mem α)} {fv : FileVar α}
    (hv : PartsOf nm g (ws.map Prod.fst)) {i : Nat} (hi : i < ws.length) :
    ∃ r, (ws.map fun w => w.1.getPart conv indep nb frame k w.2.1 numrecs fv w.2.2)[i]? = some r ∧
      getTrace conv indep nb frame k numrecs fv ws i = commonCalls true nb frame nm g (isOk r) := by
  refine ⟨_, List.getElem?_eq_getElem (by simpa using hi), ?_⟩
  unfold getTrace
  rw [List.getElem?_eq_getElem hi]
  dsimp only
  obtain ⟨a, b, c⟩ := hv ws[i].1 (List.mem_map.2 ⟨_, List.getElem_mem hi, rfl⟩)
  rw [transferCalls_eq a, b, c, List.getElem_map]

theorem putTrace_same {writable indep : Bool} {nb frame : Int} {k : Nat} {ws : List (Var × List Int × Mem α)} {fv : FileVar α}
    (hl : ws.length = n) (hv : PartsOf nm g (ws.map Prod.fst)) (ha : (putCall conv writable indep nb frame k ws fv).1.Agreed) :
    Same n (putTrace conv writable indep nb frame k ws fv) := by
  obtain ⟨b, hb⟩ := jointly_agreed ha
  refine ⟨commonCalls false nb frame nm g b, fun i hi => ?_⟩
  obtain ⟨r, h1, h2⟩ := putTrace_at (conv := conv) (writable := writable) (indep := indep) (nb := nb) (frame := frame) (k := k)
    (fv := fv) hv (by omega : i < ws.length)
  rw [h2, hb r (List.mem_of_getElem? h1)]

theorem getTrace_same {indep : Bool} {nb frame : Int} {k : Nat} {numrecs : Int} {ws : List (Var × List Int × Mem α)}
    {fv : FileVar α} (hl : ws.length = n) (hv : PartsOf nm g (ws.map Prod.fst))
    (ha : (getCall conv indep nb frame k numrecs fv ws).1.Agreed) : Same n (getTrace conv indep nb frame k numrecs fv ws) := by
  obtain ⟨b, hb⟩ := jointly_agreed ha
  refine ⟨commonCalls true nb frame nm g b, fun i hi => ?_⟩
  obtain ⟨r, h1, h2⟩ := getTrace_at (conv := conv) (indep := indep) (nb := nb) (frame := frame) (k := k) (numrecs := numrecs)
    (fv := fv) hv (by omega : i < ws.length)
  rw [h2, hb r (List.mem_of_getElem? h1)]

/-! ### Histories -/

theorem bring_facts {ws : List (StateData α)} {h : StateData α → Res (Mem α)} {rs : List (Var × List Int × Mem α)}
    (hm : mapRes (fun w : StateData α => do let b ← h w; pure (w.v, w.marks, b)) ws = .ok rs) :
    rs.length = ws.length ∧ rs.map Prod.fst = sources ws := by
  have h' := mapRes_iff.1 hm
  clear hm
  induction h' with
  | nil => exact ⟨rfl, rfl⟩
  | cons a _ ih =>
    obtain ⟨b, -, a⟩ := Res.bind_eq_ok.1 a
    cases a
    simp only [List.length_cons, List.map_cons, sources, ih.1] at ih ⊢
    exact ⟨trivial, by rw [ih.2]⟩

theorem putHistTrace_same {writable : Bool} {nb frame : Int} {ws : List (StateData α)} (hl : ws.length = n)
    (hv : PartsOf nm g (sources ws)) (ks : List Nat) (indep : Bool) (fv : FileVar α)
    (ha : (putHist conv writable nb frame ws ks indep fv).1.Agreed) :
    Same n fun i => putHistTrace conv writable nb frame ws i ks indep fv := by
  induction ks generalizing indep fv with
  | nil => exact Same.nil n
  | cons k ks ih =>
    simp only [putHistTrace]
    rw [putHist] at ha
    cases hm : mapRes (fun w : StateData α => do let b ← stateBuf w.idx w.bufs k; pure (w.v, w.marks, b)) ws with
    | throw e => exact Same.nil n
    | ub => exact Same.nil n
    | ok rs =>
      rw [hm] at ha
      dsimp only at ha ⊢
      obtain ⟨l1, l2⟩ := bring_facts hm
      have hv' : PartsOf nm g (rs.map Prod.fst) := by rw [l2]; exact hv
      rcases hp : putCall conv writable indep nb frame k rs fv with ⟨j, i', g'⟩
      rw [hp] at ha
      cases j with
      | ok us =>
        dsimp only at ha ⊢
        exact (putTrace_same (l1.trans hl) hv' (by rw [hp]; trivial)).append (ih _ _ ha)
      | throw e => exact (putTrace_same (l1.trans hl) hv' (by rw [hp]; trivial)).append (Same.nil n)
      | ub => cases ha
      | apart => cases ha

theorem slot_facts {k : Nat} {ws : List (StateData α)} {rs : List (StateData α × Nat × Mem α)}
    (hm : mapRes (StateData.slot k) ws = .ok rs) : rs.length = ws.length ∧ rs.map (fun r => r.1.v) = sources ws := by
  have h' := mapRes_iff.1 hm
  clear hm
  induction h' with
  | nil => exact ⟨rfl, rfl⟩
  | cons a _ ih =>
    obtain ⟨j, -, a⟩ := Res.bind_eq_ok.1 a
    obtain ⟨b, -, a⟩ := Res.bind_eq_ok.1 a
    cases a
    simp only [List.length_cons, List.map_cons, sources, ih.1] at ih ⊢
    exact ⟨trivial, by rw [ih.2]⟩

theorem getCall_length {indep : Bool} {nb frame : Int} {k : Nat} {numrecs : Int} {ws : List (Var × List Int × Mem α)}
    {fv : FileVar α} {bs : List (Mem α)} {i : Bool} (h : getCall conv indep nb frame k numrecs fv ws = (.ok bs, i)) :
    bs.length = ws.length := by
  have h1 := congrArg Prod.fst h
  have := (jointly_ok.1 h1).length_eq
  rw [List.length_map] at this
  exact this.symm

theorem zip_sources {rs : List (StateData α × Nat × Mem α)} {bs : List (Mem α)} (h : bs.length = rs.length) :
    (List.zipWith (fun r b => { r.1 with bufs := r.1.bufs.set r.2.1 b }) rs bs).length = rs.length ∧
    sources (List.zipWith (fun r b => { r.1 with bufs := r.1.bufs.set r.2.1 b }) rs bs) = rs.map fun r => r.1.v := by
  induction rs generalizing bs with
  | nil => exact ⟨by simp, by simp [sources]⟩
  | cons r rs ih =>
    cases bs with
    | nil => cases h
    | cons b bs =>
      obtain ⟨a, c⟩ := ih (bs := bs) (by simpa using h)
      refine ⟨by simp only [List.zipWith_cons_cons, List.length_cons, a], ?_⟩
      simp only [List.zipWith_cons_cons, sources, List.map_cons] at c ⊢
      rw [c]

theorem getHistTrace_same {nb frame numrecs : Int} {fv : FileVar α} (ks : List Nat) (indep : Bool) (ws : List (StateData α))
    (hl : ws.length = n) (hv : PartsOf nm g (sources ws)) (ha : (getHist conv nb frame numrecs fv ks indep ws).1.Agreed) :
    Same n fun i => getHistTrace conv nb frame numrecs fv i ks indep ws := by
  induction ks generalizing indep ws with
  | nil => exact Same.nil n
  | cons k ks ih =>
    simp only [getHistTrace]
    rw [getHist] at ha
    cases hm : mapRes (StateData.slot k) ws with
    | throw e => exact Same.nil n
    | ub => exact Same.nil n
    | ok rs =>
      rw [hm] at ha
      dsimp only at ha ⊢
      obtain ⟨l1, l2⟩ := slot_facts hm
      have hv' : PartsOf nm g ((rs.map fun r => (r.1.v, r.1.marks, r.2.2)).map Prod.fst) := by
        rw [List.map_map]
        show PartsOf nm g (rs.map fun r => r.1.v)
        rw [l2]; exact hv
      have hl' : (rs.map fun r => (r.1.v, r.1.marks, r.2.2)).length = n := by rw [List.length_map, l1, hl]
      rcases hp : getCall conv indep nb frame k numrecs fv (rs.map fun r => (r.1.v, r.1.marks, r.2.2)) with ⟨j, i'⟩
      rw [hp] at ha
      simp only [hp]
      cases j with
      | ok bs =>
        dsimp only at ha ⊢
        have hb := getCall_length hp
        rw [List.length_map] at hb
        obtain ⟨z1, z2⟩ := zip_sources hb
        exact (getTrace_same hl' hv' (by rw [hp]; trivial)).append
          (ih _ _ (by rw [z1, l1, hl]) (by rw [z2, l2]; exact hv) ha)
      | throw e => exact (getTrace_same hl' hv' (by rw [hp]; trivial)).append (Same.nil n)
      | ub => cases ha
      | apart => cases ha

theorem getHist_length {nb frame numrecs : Int} {fv : FileVar α} (ks : List Nat) (indep : Bool) (ws : List (StateData α))
    {ws' : List (StateData α)} {i : Bool} (h : getHist conv nb frame numrecs fv ks indep ws = (.ok ws', i)) :
    ws'.length = ws.length := by
  induction ks generalizing indep ws with
  | nil => cases h; rfl
  | cons k ks ih =>
    rw [getHist] at h
    cases hm : mapRes (StateData.slot k) ws with
    | throw e => rw [hm] at h; cases h
    | ub => rw [hm] at h; cases h
    | ok rs =>
      rw [hm] at h
      dsimp only at h
      obtain ⟨l1, l2⟩ := slot_facts hm
      rcases hp : getCall conv indep nb frame k numrecs fv (rs.map fun r => (r.1.v, r.1.marks, r.2.2)) with ⟨j, i'⟩
      rw [hp] at h
      cases j with
      | ok bs =>
        have hb := getCall_length hp
        rw [List.length_map] at hb
        rw [ih _ _ h, (zip_sources hb).1, l1]
      | throw e => cases h
      | ub => cases h
      | apart => cases h

/-! ### Variables -/

theorem SessVar.putTrace_same {writable indep : Bool} {x : SessVar} {nb frame : Int} {ws : List (StateData α)} {fv : FileVar α}
    (hl : ws.length = n) (hv : PartsOf nm g (sources ws)) (ha : (x.putPar conv writable indep nb frame ws fv).1.Agreed) :
    Same n (x.putTrace conv writable indep nb frame ws fv) := by
  unfold SessVar.putPar at ha
  unfold SessVar.putTrace
  cases hx : x.hist with
  | some m =>
    rw [hx] at ha
    exact putHistTrace_same hl hv _ _ _ ha
  | none =>
    rw [hx] at ha
    dsimp only at ha ⊢
    cases hm : mapRes (fun w : StateData α => do let b ← at! w.bufs 0; pure (w.v, w.marks, b)) ws with
    | throw e => exact Same.nil n
    | ub => exact Same.nil n
    | ok rs =>
      rw [hm] at ha
      obtain ⟨l1, l2⟩ := bring_facts hm
      exact NetCDF.putTrace_same (l1.trans hl) (by rw [l2]; exact hv) ha

theorem SessVar.getTrace_same {indep : Bool} {x : SessVar} {nb frame numrecs : Int} {ws : List (StateData α)} {fv : FileVar α}
    (hl : ws.length = n) (hv : PartsOf nm g (sources ws)) (ha : (x.getPar conv indep nb frame numrecs ws fv).1.Agreed) :
    Same n (x.getTrace conv indep nb frame numrecs ws fv) := by
  unfold SessVar.getPar at ha
  unfold SessVar.getTrace
  cases hx : x.hist with
  | some m =>
    rw [hx] at ha
    dsimp only at ha ⊢
    refine getHistTrace_same _ _ _ hl hv ?_
    rcases hp : getHist conv nb frame numrecs fv (List.range (m + 1)) indep ws with ⟨j, i⟩
    rw [hp] at ha
    cases j <;> exact ha
  | none =>
    rw [hx] at ha
    dsimp only at ha ⊢
    cases hm : mapRes (fun w : StateData α => do let b ← at! w.bufs 0; pure (w.v, w.marks, b)) ws with
    | throw e => exact Same.nil n
    | ub => exact Same.nil n
    | ok rs =>
      rw [hm] at ha
      dsimp only at ha ⊢
      obtain ⟨l1, l2⟩ := bring_facts hm
      refine NetCDF.getTrace_same (l1.trans hl) (by rw [l2]; exact hv) ?_
      rcases hp : getCall conv indep nb frame 0 numrecs fv rs with ⟨j, i⟩
      rw [hp] at ha
      cases j <;> exact ha

theorem SessVar.getPar_length {indep : Bool} {x : SessVar} {nb frame numrecs : Int} {ws : List (StateData α)} {fv : FileVar α}
    {ms : List (ProcMem α)} {i : Bool} (h : x.getPar conv indep nb frame numrecs ws fv = (.ok ms, i)) : ms.length = ws.length := by
  unfold SessVar.getPar at h
  cases hx : x.hist with
  | some m =>
    rw [hx] at h
    dsimp only at h
    rcases hp : getHist conv nb frame numrecs fv (List.range (m + 1)) indep ws with ⟨j, i⟩
    rw [hp] at h
    cases j with
    | ok ws' => cases h; rw [List.length_map, getHist_length _ _ _ hp]
    | throw e => cases h
    | ub => cases h
    | apart => cases h
  | none =>
    rw [hx] at h
    dsimp only at h
    cases hm : mapRes (fun w : StateData α => do let b ← at! w.bufs 0; pure (w.v, w.marks, b)) ws with
    | throw e => rw [hm] at h; cases h
    | ub => rw [hm] at h; cases h
    | ok rs =>
      rw [hm] at h
      dsimp only at h
      rcases hp : getCall conv indep nb frame 0 numrecs fv rs with ⟨j, i⟩
      rw [hp] at h
      cases j with
      | ok bs =>
        cases h
        have := getCall_length hp
        have := (bring_facts hm).1
        simp only [List.length_zipWith]
        omega
      | throw e => cases h
      | ub => cases h
      | apart => cases h

theorem procData_facts {vs : List Var} {ms : List (List Int)} {ps : List (ProcMem α)} (h1 : vs.length = n) (h2 : ms.length = n)
    (h3 : ps.length = n) : (procData vs ms ps).length = n ∧ sources (procData vs ms ps) = vs := by
  induction vs generalizing ms ps n with
  | nil => simp only [List.length_nil] at h1; subst h1; exact ⟨rfl, rfl⟩
  | cons v vs ih =>
    subst h1
    cases ms with
    | nil => cases h2
    | cons m ms =>
      cases ps with
      | nil => cases h3
      | cons p ps =>
        obtain ⟨a, b⟩ := ih (n := vs.length) (ms := ms) (ps := ps) rfl (by simpa using h2) (by simpa using h3)
        refine ⟨by simp only [procData, List.length_cons, a], ?_⟩
        simp only [procData, sources, List.map_cons] at b ⊢
        rw [b]

end
end Verif.NetCDF
