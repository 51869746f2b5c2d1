import Verif.Spec.Train
import Verif.Spec.Calls
import Verif.Num.XF

/-!
# Specification: which fitted models can be used
-/

namespace Verif.Spec
variable {nc : ℕ} {D : Type}

/-- Expected number of visits to state `i` at samples that are not the last of their sequence. -/
noncomputable def beforeLast (π : Fin nc → ℝ) (A : Fin nc → Fin nc → ℝ) (b : D → Fin nc → ℝ)
    (ss : List (ObsSeq D)) (i : Fin nc) : ℝ :=
  (ss.map fun s => ∑ t : Fin s.n, posterior π A (s.weights b) t.castSucc i).sum

/-- Every state is on a path of positive joint probability of some sequence, at a sample that is
not the last one. -/
def UsedBeforeLast (π : Fin nc → ℝ) (A : Fin nc → Fin nc → ℝ) (b : D → Fin nc → ℝ)
    (ss : List (ObsSeq D)) : Prop :=
  ∀ i, ∃ s ∈ ss, ∃ (z : Fin (s.n + 1) → Fin nc) (t : Fin s.n),
    0 < joint π A (s.weights b) z ∧ z t.castSucc = i

variable {α G P : Type} [FloatLike α]

/-- Parameter validation passes and changes nothing. -/
def Accepted (S : Sub α G P) (e : Est α G P) : Prop := S.checkFitted e = (.ok (), e)

/-- Every inference call, whatever its arguments, raises the same `ValueError`. -/
def Unusable (S : Sub α G P) (e : Est α G P) : Prop :=
  ∃ msg, ∀ (R : RandomLib α G) (glob : G) (c : Call α),
    c.run S R ⟨e, glob⟩ = (.error (.valueError msg), ⟨e, glob⟩)

end Verif.Spec
