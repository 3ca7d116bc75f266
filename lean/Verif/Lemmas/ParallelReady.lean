import Verif.Lemmas.ParallelRun
import Verif.Props.FileRanks
/-
The file object of a program after the registration of its collections is ready for the parallel build.
-/
namespace Verif.Props
open Verif Verif.Ccoord Verif.Layout Verif.Layout.FieldLayout Verif.RawMemory Verif.FileIO Verif.NetCDF

variable {α : Type}

theorem dataType_congr {v v' : Var} (h : v.field.ty = v'.field.ty) : v.dataType = v'.dataType := by
  unfold Var.dataType; rw [h]

theorem ready_of {D : FileDesc} {P : Program} {vars : List SessVar} {hidden : String → Option (List Var)}
    (hreg : Registered D P vars hidden)
    (hn : ∀ x ∈ vars, x.localName = none → ∀ v ∈ x.parts, v.field.nbPixels = getSize v.field.layout.pixShape)
    (hnh : ∀ x ∈ vars, ∀ l, x.localName = some l → ∀ p ∈ P.hid l, p.v.field.nbPixels = getSize p.v.field.layout.pixShape)
    {s : Sess} (hs : s.vars = vars) (hh : s.hidden = hidden) {file : NcFile α} {cell : Int → String → Option (Values α)}
    (hc : Contains D P vars file cell) (mem : Memory α) : ParWorld.Ready ⟨⟨s, file, mem⟩, false⟩ := by
  subst hs hh
  refine ⟨rfl, ?_, ?_, ?_, ?_, ?_⟩
  · intro x hx v hv
    cases hl : x.localName with
    | none =>
      have g := hreg.global x hx hl
      obtain ⟨grid, grid', hr⟩ := g.registered v hv
      exact .inl ⟨_, _, _, _, _, _, g.field v hv, fun h => (by cases h), hn x hx hl v hv, hr⟩
    | some l =>
      have g := hreg.isLocal x hx l hl
      rw [g.parts] at hv
      obtain ⟨p, hp, rfl⟩ := List.mem_map.1 hv
      obtain ⟨lname, marks0, hr⟩ := g.registered p hp
      exact .inr ⟨_, _, _, _, _, _, _, g.field p hp, g.total_pos, hr⟩
  · intro x hx fv hf v hv
    obtain ⟨fv', h1, h2, -⟩ := hc.each x hx
    cases hf.symm.trans h1
    have ty : ∀ v ∈ x.parts, v.field.ty = (D.fld x.name).ty := by
      intro v hv
      cases hl : x.localName with
      | none => exact ((hreg.global x hx hl).same v hv).ty
      | some l =>
        have g := hreg.isLocal x hx l hl
        rw [g.parts] at hv
        obtain ⟨p, hp, rfl⟩ := List.mem_map.1 hv
        exact g.ty p hp
    have h3 := congrArg Prod.snd h2
    unfold varForm at h3
    cases hp : x.parts with
    | nil => rw [hp] at hv; cases hv
    | cons u us =>
      rw [hp] at h3
      rw [show fv.ty = u.dataType from h3]
      exact dataType_congr ((ty u (by rw [hp]; exact List.mem_cons_self ..)).trans (ty v hv).symm)
  · intro x hx l hl vs hvs v hv
    cases hvs.symm.trans (hreg.hidden_eq x hx l hl)
    have g := hreg.hid x hx l hl
    obtain ⟨p, hp, rfl⟩ := List.mem_map.1 hv
    obtain ⟨grid, grid', hr⟩ := g.registered p hp
    exact ⟨.inl ⟨_, _, _, _, _, _, g.field p hp, fun _ => g.sub p hp, hnh x hx l hl p hp, hr⟩, (g.field p hp).is_global⟩
  · intro x hx l hl vs hvs fv hf v hv
    cases hvs.symm.trans (hreg.hidden_eq x hx l hl)
    have g := hreg.hid x hx l hl
    obtain ⟨fv', h1, h2, -⟩ := hc.entries x hx l hl
    cases hf.symm.trans h1
    have h3 := congrArg Prod.snd h2
    unfold hiddenForm at h3
    obtain ⟨p, hp, rfl⟩ := List.mem_map.1 hv
    cases hq : P.hid l with
    | nil => rw [hq] at hp; cases hp
    | cons q qs =>
      rw [hq] at h3
      rw [show fv.ty = q.v.dataType from h3]
      exact dataType_congr ((g.ty q (by rw [hq]; exact List.mem_cons_self ..)).trans (g.ty p hp).symm)
  · intro x hx hl v hv
    obtain ⟨l, hl⟩ := Option.ne_none_iff_exists'.1 hl
    have g := hreg.isLocal x hx l hl
    rw [g.parts] at hv
    obtain ⟨p, hp, rfl⟩ := List.mem_map.1 hv
    exact (g.field p hp).is_local

section
variable {dom : List Int} {rs : List FileRank} {mode : OpenMode} {F : FileRank → Reg}

theorem counted_vars (h : ProgramOk dom rs) (hF : ∀ r ∈ rs, RegOf mode r (F r)) (hcount : Counted rs) :
    ∀ x ∈ joinVars (rs.map F), x.localName = none → ∀ v ∈ x.parts, v.field.nbPixels = getSize v.field.layout.pixShape := by
  obtain ⟨r0, rest, hrs⟩ : ∃ r0 rest, rs = r0 :: rest := by
    cases hrs : rs with
    | nil => exact absurd hrs h.nonempty
    | cons a l => exact ⟨a, l, rfl⟩
  have h0 : r0 ∈ rs := by rw [hrs]; simp
  intro x hx hl v hv
  rw [joinVars_eq h hF hrs] at hx
  obtain ⟨e, he, rfl⟩ := List.mem_map.1 hx
  have hk : e.1 = none := by
    cases hk : e.1 with
    | none => rfl
    | some x => rw [varOf, hk] at hl; cases hl
  obtain ⟨r, hr, rfl⟩ := List.mem_map.1 hv
  obtain ⟨e', he', e1, e2, e3, -⟩ := sig_entry (h.same r0 h0 r hr) he
  rw [← e2, FileRank.part_eq (h.colls r hr) he']
  show (entryVar e').field.nbPixels = getSize (entryVar e').field.layout.pixShape
  rw [entryVar_field]
  exact hcount r hr e' he' (e1.trans hk)

theorem counted_hidden (rs : List FileRank) (l : String) :
    ∀ p ∈ (progOf rs).hid l, p.v.field.nbPixels = getSize p.v.field.layout.pixShape := by
  intro p hp
  obtain ⟨r, hr, rfl⟩ := List.mem_map.1 hp
  rfl

end
end Verif.Props
