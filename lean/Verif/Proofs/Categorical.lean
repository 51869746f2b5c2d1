import Verif.Model.Categorical
import Verif.Proofs.Inference

/-!
# `CategoricalHMM` represents the HMM with emission weights `e i k`
-/

namespace Verif
open FloatLike XF Spec

namespace Categorical
variable {nc nf : ℕ}

theorem index_fin (k : Fin nf) : index nf (k.val : Int) = some k := by
  have h : (0 : Int) ≤ (k.val : Int) ∧ (k.val : Int) < nf := ⟨by omega, by exact_mod_cast k.2⟩
  simp [index, h]

theorem computeLikelihood_fin {α : Type} [FloatLike α] (e : Params α nc nf) (X : List (Fin nf)) :
    computeLikelihood e (X.map fun k => (k.val : Int)) = .ok (X.map fun k i => e i k) := by
  induction X with
  | nil => rfl
  | cons k ks ih => simp [computeLikelihood, index_fin, ih]

/-- The parameters `π, A, e` as estimator attributes. -/
noncomputable def params (π : Fin nc → ℝ) (A : Fin nc → Fin nc → ℝ) (e : Fin nc → Fin nf → ℝ) :
    Theta XF nc (Params XF nc nf) :=
  ⟨fun i => fin (π i), fun i j => fin (A i j), fun i k => fin (e i k)⟩

/-- A symbol as an entry of the integer array `X`. -/
def sym (k : Fin nf) : Int := (k.val : Int)

theorem represents (prior : Params XF nc nf) (impl : Impl) {π : Fin nc → ℝ}
    {A : Fin nc → Fin nc → ℝ} {e : Fin nc → Fin nf → ℝ} (hπ : ∀ i, 0 ≤ π i)
    (hA : ∀ i j, 0 ≤ A i j) (he : ∀ i k, 0 ≤ e i k) :
    Represents ((emission prior).toHmm impl (params π A e)) sym π A (fun k i => e i k) where
  startprob_eq := rfl
  transmat_eq := rfl
  π_nonneg := hπ
  A_nonneg := hA
  b_nonneg := fun k i => he i k
  lik_eq X := computeLikelihood_fin _ X
  loglik_eq X := by
    show logRows (computeLikelihood _ (X.map sym)) = _
    have : X.map sym = X.map fun k => (k.val : Int) := rfl
    rw [this, computeLikelihood_fin]
    simp [logRows, Except.map, params]

end Categorical
end Verif
