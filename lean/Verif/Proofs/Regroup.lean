import Verif.Spec.Input
import Verif.Proofs.RefineParse

/-!
Regrouping a script is the same as having the same atoms.
-/

namespace Verif

theorem Ev.atoms_data_append {a b : Bytes} (ha : a ≠ []) (hb : b ≠ []) :
    (Ev.data (a ++ b)).atoms = (Ev.data a).atoms ++ (Ev.data b).atoms := by
  cases a with
  | nil => exact absurd rfl ha
  | cons x a =>
    cases b with
    | nil => exact absurd rfl hb
    | cons y b => simp [Ev.atoms]

theorem Regroup.atoms {s t : List Ev} (h : Regroup s t) : s.flatMap Ev.atoms = t.flatMap Ev.atoms := by
  induction h with
  | refl s => rfl
  | symm _ ih => exact ih.symm
  | trans _ _ ih1 ih2 => exact ih1.trans ih2
  | cut s t a b ha hb => simp [Ev.atoms_data_append ha hb]

/-- One event per atom. -/
def single : Atom → Ev
  | .byte b => .data [b]
  | .eof => .data []
  | .err e => .err e

theorem Regroup.prepend (p : List Ev) {s t : List Ev} (h : Regroup s t) : Regroup (p ++ s) (p ++ t) := by
  induction h with
  | refl s => exact .refl _
  | symm _ ih => exact ih.symm
  | trans _ _ ih1 ih2 => exact ih1.trans ih2
  | cut s t a b ha hb =>
    simpa using Regroup.cut (p ++ s) t a b ha hb

theorem Regroup.append {s t : List Ev} (h : Regroup s t) (p : List Ev) : Regroup (s ++ p) (t ++ p) := by
  induction h with
  | refl s => exact .refl _
  | symm _ ih => exact ih.symm
  | trans _ _ ih1 ih2 => exact ih1.trans ih2
  | cut s t a b ha hb =>
    simpa using Regroup.cut s (t ++ p) a b ha hb

theorem regroup_single (e : Ev) : Regroup [e] (e.atoms.map single) := by
  cases e with
  | err e => exact .refl _
  | data b =>
    induction b with
    | nil => exact .refl _
    | cons x t ih =>
      cases t with
      | nil => exact .refl _
      | cons y t =>
        have h := Regroup.cut [] [] [x] (y :: t) (by simp) (by simp)
        simp only [List.nil_append, List.cons_append] at h
        refine h.trans ?_
        have := ih.prepend [Ev.data [x]]
        simpa [Ev.atoms, single] using this

theorem regroup_singles (s : List Ev) : Regroup s ((s.flatMap Ev.atoms).map single) := by
  induction s with
  | nil => exact .refl _
  | cons e s ih =>
    have h1 := (regroup_single e).append s
    have h2 := ih.prepend (e.atoms.map single)
    simpa using h1.trans h2

theorem regroup_iff {s t : List Ev} : Regroup s t ↔ s.flatMap Ev.atoms = t.flatMap Ev.atoms :=
  ⟨Regroup.atoms, fun h => (regroup_singles s).trans (by rw [h]; exact (regroup_singles t).symm)⟩

theorem pending_atoms (r : Rd) : r.pending.flatMap Ev.atoms = r.src.atoms := by
  unfold Rd.pending Src.atoms
  cases h : r.src.buf with
  | nil => simp
  | cons b t => simp [Ev.atoms]

theorem sameInput_iff {r₁ r₂ : Rd} : SameInput r₁ r₂ ↔ r₁.abs = r₂.abs := by
  unfold SameInput
  rw [regroup_iff, pending_atoms, pending_atoms]
  simp [Rd.abs]

end Verif
