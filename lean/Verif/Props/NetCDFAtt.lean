import Verif.Model.NetCDFAtt
/-
Properties of attributes of variables in files: C39.
-/
namespace Verif.Props
open Verif Verif.NetCDFAtt

variable {V : Type} [Zero V] [DecidableEq V]

/-- The attributes of a variable with the text `u` of the unit of its field, `add_attribute_unit`. -/
def unitAtts (u : List Int) : List (Att Int) := [Att.ofValue "unit" .char u]

/-- The attributes of a variable in a file written with the unit text `u`. -/
def unitFile (u : List Int) : List (FileAtt Int) := [⟨"unit", .char, u⟩]

/-- The full statement: registering a field whose unit differs from the one in the file raises an error. -/
def C39_statement : Prop :=
  ∀ u u' : List Int, u ≠ u' → registerAtts (unitFile u') (unitAtts u) = .throw .fileIOError

/-- What happens instead, for all unit texts: if the text in the file is not longer, it is accepted and replaces
the text of the field (padded with zeros); if it is longer, it is written beyond the end of the
memory. -/
theorem C39_outcome (u u' : List Int) :
    registerAtts (unitFile u') (unitAtts u) =
      if u'.length ≤ u.length then
        .ok [⟨"unit", .char, u.length, u' ++ List.replicate (u.length - u'.length) 0, true⟩]
      else .ub := by
  unfold registerAtts unitFile unitAtts
  simp only [List.take, registerAttNames, registerAtt, Att.ofValue, List.map_cons, List.map_nil, List.mem_cons,
    List.not_mem_nil, or_false, if_true, Res.ok_bind, registerAttValues, registerAttValue, Att.reserve,
    NcType.stored, getAtt, List.find?_cons, decide_true, List.length_replicate, ne_eq, not_true, false_or]
  by_cases h : u'.length ≤ u.length
  · rw [if_pos h, if_neg (by omega)]
    simp only [Res.ok_bind, if_true, Att.equalValue, NcType.stored, takePtr, List.drop_replicate,
      List.length_append, List.length_replicate, Res.pure_eq]
    rw [if_neg (by omega), List.take_of_length_le (by simp; omega)]
    simp
  · rw [if_neg h, if_pos (by omega)]
    rfl

/-- **C39** is false: a field whose unit is a length ("l") and a file whose unit is a time ("t"). -/
theorem C39_false : ¬ C39_statement := by
  intro h
  have := h [108] [116] (by decide)
  rw [C39_outcome] at this
  simp at this

/-- No two unit texts are ever told apart by an error. -/
theorem C39_never (u u' : List Int) (e : Err) : registerAtts (unitFile u') (unitAtts u) ≠ .throw e := by
  rw [C39_outcome]
  split <;> simp

/-- An attribute as the constructors with a value make it. -/
def Att.Full (a : Att V) : Prop := a.ty.stored = true ∧ a.value.length = a.nelems ∧ a.valueInit = true

/-- **C39** (what holds of one attribute, of any type) An attribute that the file does not have is an error;
else the value of the file is taken if it has the same type and is not longer, whatever the value was
before. -/
theorem C39_value {file : List (FileAtt V)} {a : Att V} (hs : a.ty.stored = true) :
    registerAttValue file a =
      match file.find? fun f => f.name = a.name with
      | none => .throw .fileIOError
      | some f =>
          if f.ty = a.ty ∧ f.value.length ≤ a.nelems then
            .ok { a with value := f.value ++ List.replicate (a.nelems - f.value.length) 0, valueInit := true }
          else .ub := by
  unfold registerAttValue Att.reserve
  rw [if_pos hs, Res.ok_bind]
  unfold getAtt
  cases hf : file.find? fun f => f.name = a.name with
  | none => rfl
  | some f =>
      dsimp only
      by_cases h : f.ty = a.ty ∧ f.value.length ≤ a.nelems
      · have h' : ¬ (f.ty ≠ a.ty ∨ (List.replicate a.nelems (0 : V)).length < f.value.length) := by
          rw [List.length_replicate]
          rintro (h1 | h1)
          · exact h1 h.1
          · omega
        have hl : (f.value ++ List.replicate (a.nelems - f.value.length) (0 : V)).length = a.nelems := by
          rw [List.length_append, List.length_replicate]; omega
        rw [if_pos h, if_neg h', Res.ok_bind, List.drop_replicate]
        unfold Att.equalValue Att.registerValue takePtr
        dsimp only
        generalize f.value ++ List.replicate (a.nelems - f.value.length) (0 : V) = w at hl ⊢
        have hw : ¬ w.length < a.nelems := by omega
        rw [if_pos hs, if_pos hs, if_neg hw, List.take_of_length_le (Nat.le_of_eq hl)]
        simp only [Res.ok_bind, Res.pure_eq, decide_true, if_true]
        split
        · next hv => rw [hv]
        · rfl
      · have h' : f.ty ≠ a.ty ∨ (List.replicate a.nelems (0 : V)).length < f.value.length := by
          rw [List.length_replicate]
          by_cases h1 : f.ty = a.ty
          · exact .inr (Nat.lt_of_not_le fun h2 => h ⟨h1, h2⟩)
          · exact .inl h1
        rw [if_neg h, if_pos h']
        rfl

example : registerAttValue [⟨"unit", .char, [116, 116]⟩, ⟨"pad", .char, [1]⟩] (Att.ofValue "unit" .char [108, (109 : Int)]) =
    .ok { Att.ofValue "unit" .char [108, 109] with value := [116, 116] } :=
  (C39_value (a := Att.ofValue "unit" .char [108, (109 : Int)]) rfl).trans rfl

/-- So there is no error for an attribute that the file has: a differing value is never reported. -/
theorem C39_never_value {file : List (FileAtt V)} {a : Att V} (hs : a.ty.stored = true)
    {f : FileAtt V} (hf : (file.find? fun f => f.name = a.name) = some f) (e : Err) :
    registerAttValue file a ≠ .throw e := by
  rw [C39_value hs, hf]
  dsimp only
  split <;> simp

example (e : Err) : registerAttValue [⟨"unit", .char, [116, 116]⟩] (Att.ofValue "unit" .char [(108 : Int)]) ≠ .throw e :=
  C39_never_value (a := Att.ofValue "unit" .char [(108 : Int)]) rfl rfl e

omit [Zero V] [DecidableEq V] in
theorem defineAtts_eq : ∀ (atts : List (Att V)) (file : List (FileAtt V)),
    (file.map FileAtt.name ++ atts.map Att.name).Nodup →
    atts.foldl putAtt file = file ++ atts.map fun a => (⟨a.name, a.ty, a.value⟩ : FileAtt V)
  | [], file, _ => by simp
  | a :: as, file, h => by
      have h1 : a.name ∉ file.map FileAtt.name := by
        intro hm
        rw [List.map_cons, List.nodup_append] at h
        exact h.2.2 _ hm _ (List.mem_cons_self ..) rfl
      rw [List.foldl_cons, putAtt, if_neg h1, defineAtts_eq as]
      · simp
      · simpa using h

omit [Zero V] [DecidableEq V] in
theorem registerAttNames_known : ∀ (fs : List (FileAtt V)) (atts : List (Att V)),
    (∀ f ∈ fs, f.name ∈ atts.map Att.name) → registerAttNames atts fs = .ok atts
  | [], _, _ => rfl
  | f :: fs, atts, h => by
      rw [registerAttNames, registerAtt, if_pos (h f (List.mem_cons_self ..)), Res.ok_bind]
      exact registerAttNames_known fs atts fun g hg => h g (List.mem_cons_of_mem _ hg)

theorem registerAttValues_same {file : List (FileAtt V)} : ∀ atts : List (Att V),
    (∀ a ∈ atts, registerAttValue file a = .ok a) → registerAttValues file atts = .ok atts
  | [], _ => rfl
  | a :: as, h => by
      rw [registerAttValues, h a (List.mem_cons_self ..), Res.ok_bind,
        registerAttValues_same as fun b hb => h b (List.mem_cons_of_mem _ hb)]
      rfl

omit [Zero V] [DecidableEq V] in
theorem find_name : ∀ {atts : List (Att V)} {a : Att V}, (atts.map Att.name).Nodup → a ∈ atts →
    ((atts.map fun a => (⟨a.name, a.ty, a.value⟩ : FileAtt V)).find? fun f => f.name = a.name) =
      some ⟨a.name, a.ty, a.value⟩
  | b :: bs, a, hn, hm => by
      rw [List.map_cons, List.nodup_cons] at hn
      rw [List.map_cons, List.find?_cons]
      rcases List.mem_cons.1 hm with rfl | hm'
      · simp
      · have : b.name ≠ a.name := fun e => hn.1 (e ▸ List.mem_map_of_mem hm')
        simp only [this, decide_false]
        exact find_name hn.2 hm'

/-- **C39** (part: equal values) The attributes of a variable, of any number and types, written to a file and
registered again with the same values, are accepted and unchanged. -/
theorem C39_equal_partial {atts : List (Att V)} (hf : ∀ a ∈ atts, Att.Full a)
    (hn : (atts.map Att.name).Nodup) : registerAtts (defineAtts atts) atts = .ok atts := by
  have hd : defineAtts atts = atts.map fun a => (⟨a.name, a.ty, a.value⟩ : FileAtt V) := by
    rw [defineAtts, defineAtts_eq atts [] (by simpa using hn), List.nil_append]
  rw [registerAtts, registerAttNames_known, Res.ok_bind]
  · apply registerAttValues_same
    intro a ha
    obtain ⟨h1, h2, h3⟩ := hf a ha
    rw [C39_value h1, hd, find_name hn ha]
    dsimp only
    rw [if_pos ⟨rfl, Nat.le_of_eq h2⟩, h2, Nat.sub_self]
    simp [← h3]
  · intro f hm
    have hm' := List.mem_of_mem_take hm
    rw [hd] at hm'
    obtain ⟨a, ha, rfl⟩ := List.mem_map.1 hm'
    exact List.mem_map_of_mem ha

/-- Two attributes of different types, as those of a variable of a local field. -/
def exAtts : List (Att Int) := [Att.ofValue "unit" .char [108], Att.ofValue "local_pixels_field" .char [97, 98]]

example : registerAtts (defineAtts exAtts) exAtts = .ok exAtts :=
  C39_equal_partial (by intro a ha; simp [exAtts] at ha; rcases ha with rfl | rfl <;> exact ⟨rfl, rfl, rfl⟩)
    (by decide)

example : registerAtts (unitFile [116]) (unitAtts [108]) = .ok (unitAtts [116]) := by decide

example : registerAtts (unitFile [116, 116]) (unitAtts [108]) = .ub := by decide

/-- **C39** (part: missing attributes) A file whose variable has no unit at all is rejected. -/
theorem C39_missing_partial {file : List (FileAtt Int)} {u : List Int} {rest : List (Att Int)}
    (h : ∀ f ∈ file, f.name ≠ "unit") :
    registerAttValues file (unitAtts u ++ rest) = .throw .fileIOError := by
  have : (file.find? fun f => f.name = "unit") = none := by
    rw [List.find?_eq_none]
    intro f hf
    simpa using h f hf
  show registerAttValues file (Att.ofValue "unit" .char u :: rest) = _
  rw [registerAttValues, C39_value rfl]
  have h' : (file.find? fun f => f.name = (Att.ofValue "unit" NcType.char u).name) = none := this
  rw [h']
  rfl

example : registerAttValues [⟨"local_pixels_field", .char, [97]⟩] exAtts = .throw .fileIOError :=
  C39_missing_partial (u := [108]) (rest := [_]) (by decide)

omit [Zero V] [DecidableEq V] in
/-- **C39** Writing an attribute: the file has the new value under that name, whether or not there was one, and
the other attributes are as before. -/
theorem C39_put (file : List (FileAtt V)) (a : Att V) (name : String) :
    ((putAtt file a).find? fun f => f.name = name) =
      if name = a.name then some ⟨a.name, a.ty, a.value⟩ else file.find? fun f => f.name = name := by
  unfold putAtt
  split
  · rename_i h
    induction file with
    | nil => simp at h
    | cons f fs ih =>
      rw [List.map_cons, List.find?_cons, List.find?_cons]
      by_cases hf : f.name = a.name
      · by_cases hn : name = a.name
        · simp [hf, hn]
        · have h1 : ¬ a.name = name := fun e => hn e.symm
          have h2 : ¬ f.name = name := fun e => hn (e.symm.trans hf)
          simp only [if_pos hf, h1, h2, decide_false, if_neg hn]
          by_cases hm : a.name ∈ fs.map FileAtt.name
          · rw [ih hm, if_neg hn]
          · congr 1
            refine (List.map_congr_left fun g hg => ?_).trans (List.map_id fs)
            have : ¬ g.name = a.name := fun e => hm (e ▸ List.mem_map_of_mem hg)
            exact if_neg this
      · have hm : a.name ∈ fs.map FileAtt.name := by
          rcases List.mem_cons.1 h with h | h
          · exact absurd h.symm hf
          · exact h
        simp only [if_neg hf]
        by_cases hn : name = a.name
        · have : ¬ f.name = name := fun e => hf (e.trans hn)
          simp only [this, decide_false, if_pos hn]
          rw [ih hm, if_pos hn]
        · rw [ih hm, if_neg hn, if_neg hn]
  · rename_i h
    rw [List.find?_append]
    by_cases hn : name = a.name
    · have : file.find? (fun f => f.name = name) = none := by
        rw [List.find?_eq_none]
        intro f hf e
        exact h (hn ▸ (of_decide_eq_true e) ▸ List.mem_map_of_mem hf)
      rw [this, if_pos hn]
      simp [hn]
    · rw [if_neg hn]
      have h1 : ¬ a.name = name := fun e => hn e.symm
      simp [h1]

omit [Zero V] [DecidableEq V] in
theorem registerAttNames_new : ∀ (fs : List (FileAtt V)) (atts : List (Att V)),
    (∀ f ∈ fs, f.ty.stored = true) → (atts.map Att.name ++ fs.map FileAtt.name).Nodup →
    registerAttNames atts fs = .ok (atts ++ fs.map fun f => ⟨f.name, f.ty, f.value.length, [], false⟩)
  | [], atts, _, _ => by simp [registerAttNames]
  | f :: fs, atts, hs, hn => by
      have h1 : f.name ∉ atts.map Att.name := by
        intro hm
        rw [List.map_cons, List.nodup_append] at hn
        exact hn.2.2 _ hm _ (List.mem_cons_self ..) rfl
      have h2 : f.ty ≠ .other := by
        intro e
        have := hs f (List.mem_cons_self ..)
        rw [e] at this
        cases this
      rw [registerAttNames, registerAtt, if_neg h1, Att.ofName, if_neg h2]
      simp only [Res.ok_bind, Res.pure_eq]
      rw [registerAttNames_new fs _ fun g hg => hs g (List.mem_cons_of_mem _ hg)]
      · simp
      · simpa using hn

/-- **C39** The attributes of a variable that the program does not know (of the types that can be stored, at most
ten) are taken over from the file with their values. -/
theorem C39_taken_over {file : List (FileAtt V)} (hs : ∀ f ∈ file, f.ty.stored = true)
    (hn : (file.map FileAtt.name).Nodup) (hl : file.length ≤ 10) :
    registerAtts file [] = .ok (file.map fun f => Att.ofValue f.name f.ty f.value) := by
  rw [registerAtts, List.take_of_length_le hl, registerAttNames_new file [] hs (by simpa using hn), Res.ok_bind,
    List.nil_append]
  have key : ∀ fs : List (FileAtt V), (∀ f ∈ fs, f ∈ file) →
      registerAttValues file (fs.map fun f => (⟨f.name, f.ty, f.value.length, [], false⟩ : Att V)) =
        .ok (fs.map fun f => Att.ofValue f.name f.ty f.value) := by
    intro fs hfs
    induction fs with
    | nil => rfl
    | cons f fs ih =>
      have hf := hfs f (List.mem_cons_self ..)
      have hfind : (file.find? fun g => g.name = f.name) = some f := by
        clear ih hfs hs hl
        induction file with
        | nil => cases hf
        | cons g gs ih =>
          rw [List.map_cons, List.nodup_cons] at hn
          rw [List.find?_cons]
          rcases List.mem_cons.1 hf with rfl | h
          · simp
          · have : ¬ g.name = f.name := fun e => hn.1 (e ▸ List.mem_map_of_mem h)
            simp only [this, decide_false]
            exact ih hn.2 h
      rw [List.map_cons, registerAttValues, C39_value (hs f hf)]
      dsimp only
      rw [hfind]
      dsimp only
      rw [if_pos ⟨rfl, Nat.le_refl _⟩, Res.ok_bind, ih fun g hg => hfs g (List.mem_cons_of_mem _ hg)]
      simp [Att.ofValue]
  exact key file fun _ h => h

example : registerAtts (defineAtts exAtts) [] = .ok exAtts :=
  C39_taken_over (file := defineAtts exAtts) (by decide) (by decide) (by decide)

example : ((putAtt (defineAtts exAtts) (Att.ofValue "unit" .char [116])).find? fun f => f.name = "unit") =
    some ⟨"unit", .char, [116]⟩ := by
  rw [C39_put]; rfl

end Verif.Props
