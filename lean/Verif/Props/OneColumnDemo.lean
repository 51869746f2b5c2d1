import Verif.Props.OneColumn
import Verif.Props.ObjectsDemo
import Verif.Props.ObjectFitDemo
/-
Objects that meet the hypotheses of C101.
-/
set_option autoImplicit false

namespace Verif.OneColumnDemo
open FloatLike XF Spec ObjectsDemo ObjectFitDemo

/-- `GaussianHMM` with two features. -/
theorem gauss_fitted (c : NdArray XF) : FittedWith (gaussDiagSub (α := XF) fun _ _ _ => 0).checkFitted 2 (gauss c) :=
  ⟨_, (gauss_holds c).chain.fitted.trans (gauss_holds c).check, rfl⟩

/-- Two numbers are scored as two points on the diagonal. -/
example (c : NdArray XF) : (gaussDiagSub fun _ _ _ => 0).score (realsX [![1], ![5 / 2]]) none (gauss c) =
    (gaussDiagSub fun _ _ _ => 0).score (realsX [![1, 1], ![5 / 2, 5 / 2]]) none (gauss c) := by
  have h := (C101_gauss_diag (R := lib) fun _ _ _ => 0).one.score 2 [![1], ![5 / 2]] none (gauss c) two_pos (gauss_fitted c)
  refine h.trans ?_
  have : ∀ x : ℝ, (fun _ : Fin 2 => x) = ![x, x] := fun x => by funext i; fin_cases i <;> rfl
  have h2 : repeated 2 [![(1 : ℝ)], ![5 / 2]] = [![1, 1], ![5 / 2, 5 / 2]] := by simp [repeated, this]
  rw [h2]
  rfl

/-- Three columns raise. -/
example (c : NdArray XF) : ∃ err, ((gaussDiagSub fun _ _ _ => 0).score (realsX [![1, 2, 3]]) none (gauss c)).1 = .error err := by
  obtain ⟨e', h1, h2⟩ := gauss_fitted c
  obtain ⟨err, h, -⟩ := ((C101_gauss_diag (R := lib) fun _ _ _ => 0).other 3 2 (by norm_num) (by norm_num) (by norm_num)).score
    [![1, 2, 3]] none (gauss c) e' h1 h2
  exact ⟨err, h⟩

end Verif.OneColumnDemo
