import Verif.Spec.Variational
import Verif.Model.Covars

/-!
# Specification: variational Bayes for Gaussian HMMs

Bishop, "Pattern recognition and machine learning", 10.2 (Gruhl and Sick, "Variational Bayesian
inference for hidden Markov models with multivariate Gaussian output distributions", the reference
of vhmm.py): normal–Wishart posteriors over the mean and the precision matrix of every state.
-/

set_option autoImplicit false

namespace Verif.Spec
open scoped Matrix
variable {nc nf : ℕ}

/-- The normal–Wishart law `Λ ~ W(ν, S⁻¹)`, `μ | Λ ~ N(m, (β Λ)⁻¹)`. -/
@[ext] structure NW (nf : ℕ) where
  β : ℝ
  m : Fin nf → ℝ
  ν : ℝ
  S : Matrix (Fin nf) (Fin nf) ℝ

/-- The law exists. -/
structure NW.Proper (p : NW nf) : Prop where
  β : 0 < p.β
  ν : (nf : ℝ) - 1 < p.ν
  S : p.S.PosDef

/-- `exp E[ln N(x | μ, Λ⁻¹)]`, up to the factor `(2π)^(-nf/2)`: the mean of `ln |Λ|` is
`Σ_k ψ((ν - k)/2) + nf ln 2 - ln |S|` and the mean of `(x - μ)ᵀ Λ (x - μ)` is
`ν (x - m)ᵀ S⁻¹ (x - m) + nf / β`. -/
noncomputable def NW.weight (p : NW nf) (x : Fin nf → ℝ) : ℝ :=
  Real.exp (1 / 2 * (∑ k : Fin nf, digamma ((p.ν - k) / 2) + nf * Real.log 2 - Real.log p.S.det) -
    1 / 2 * (p.ν * ((x - p.m) ⬝ᵥ (p.S⁻¹ *ᵥ (x - p.m))) + nf / p.β))

/-- The mean over `Λ` of `KL(N(m, (βΛ)⁻¹) ‖ N(m₀, (β₀Λ)⁻¹))`. -/
noncomputable def NW.klMean (p p₀ : NW nf) : ℝ :=
  1 / 2 * (nf * Real.log (p.β / p₀.β) + nf * (p₀.β / p.β) - nf +
    p₀.β * p.ν * ((p.m - p₀.m) ⬝ᵥ (p.S⁻¹ *ᵥ (p.m - p₀.m))))

/-- Divergence of the Wishart laws; one law for all states if `tied`. -/
noncomputable def klPrecisions [NeZero nc] (ty : CovType) (p p₀ : Fin nc → NW nf) : ℝ :=
  if ty = .tied then klWishart (p 0).ν (p 0).S (p₀ 0).ν (p₀ 0).S
  else ∑ i, klWishart (p i).ν (p i).S (p₀ i).ν (p₀ i).S

/-- Divergence of the posterior over the emission parameters from the prior. -/
noncomputable def klGauss [NeZero nc] (ty : CovType) (p p₀ : Fin nc → NW nf) : ℝ :=
  ∑ i, (p i).klMean (p₀ i) + klPrecisions ty p p₀

/-- The inverse scale matrices the covariance type allows. -/
def Allowed [NeZero nc] (ty : CovType) (p : Fin nc → NW nf) : Prop :=
  match ty with
  | .full => True
  | .tied => ∀ i, (p i).ν = (p 0).ν ∧ (p i).S = (p 0).S
  | .diag => ∀ i, (p i).S = Matrix.diagonal (p i).S.diag
  | .spherical => ∀ i, ∃ c : ℝ, (p i).S = c • (1 : Matrix (Fin nf) (Fin nf) ℝ)

/-- The part of the scatter matrices the covariance type sees. -/
noncomputable def shareScatter (ty : CovType) (C : Fin nc → Matrix (Fin nf) (Fin nf) ℝ) (i : Fin nc) :
    Matrix (Fin nf) (Fin nf) ℝ :=
  match ty with
  | .full => C i
  | .tied => ∑ j, C j
  | .diag => Matrix.diagonal (C i).diag
  | .spherical => ((C i).trace / nf) • (1 : Matrix (Fin nf) (Fin nf) ℝ)

/-- The part of the counts the covariance type sees. -/
noncomputable def shareCount (ty : CovType) (N : Fin nc → ℝ) (i : Fin nc) : ℝ :=
  if ty = .tied then ∑ j, N j else N i

/-- The conjugate update: `T i f` is the expected value of `Σ_t f(x_t)` over the visits to state
`i`.  Precision `β₀ + N`, mean the weighted average, degrees of freedom `ν₀ + N`, inverse scale
`S₀` plus the scatter of the data and of the prior mean about the new mean. -/
noncomputable def nwUpdate (ty : CovType) (params : List Char) (p₀ p : Fin nc → NW nf)
    (T : Fin nc → ((Fin nf → ℝ) → ℝ) → ℝ) (i : Fin nc) : NW nf :=
  let β : Fin nc → ℝ := fun j => (p₀ j).β + T j fun _ => 1
  let m : Fin nc → Fin nf → ℝ := fun j k => ((p₀ j).β * (p₀ j).m k + T j fun x => x k) / β j
  let C : Fin nc → Matrix (Fin nf) (Fin nf) ℝ := fun j =>
    (p₀ j).β • Matrix.vecMulVec (m j - (p₀ j).m) (m j - (p₀ j).m) +
      Matrix.of fun k l => T j fun x => (x k - m j k) * (x l - m j l)
  { β := if 'm' ∈ params then β i else (p i).β
    m := if 'm' ∈ params then m i else (p i).m
    ν := if 'c' ∈ params then (p₀ i).ν + shareCount ty (fun j => T j fun _ => 1) i else (p i).ν
    S := if 'c' ∈ params then (p₀ i).S + shareScatter ty C i else (p i).S }

/-- The covariance matrix of the point model: the inverse of the mean precision. -/
noncomputable def NW.covar (p : NW nf) : Matrix (Fin nf) (Fin nf) ℝ := p.ν⁻¹ • p.S

/-- Emission weights of the E-step. -/
noncomputable def nwB (p : Fin nc → NW nf) (x : Fin nf → ℝ) (i : Fin nc) : ℝ := (p i).weight x

/-- `s k`, `t k`, `p k` are the posteriors after `k` conjugate updates. -/
structure GaussUpdates (ty : CovType) (sp : Fin nc → ℝ) (tp : Fin nc → Fin nc → ℝ) (p₀ : Fin nc → NW nf)
    (params : List Char) (ss : List (ObsSeq (Fin nf → ℝ))) (s : ℕ → Fin nc → ℝ)
    (t : ℕ → Fin nc → Fin nc → ℝ) (p : ℕ → Fin nc → NW nf) : Prop where
  start : ∀ k, s (k + 1) = if 's' ∈ params then
    fun i => sp i + startStat (expWeight (s k)) (fun i => expWeight (t k i)) (nwB (p k)) ss i else s k
  trans : ∀ k, t (k + 1) = if 't' ∈ params then
    fun i j => tp i j + transStat (expWeight (s k)) (fun i => expWeight (t k i)) (nwB (p k)) ss i j
    else t k
  emit : ∀ k, p (k + 1) = nwUpdate ty params p₀ (p k)
    (obsStat (expWeight (s k)) (fun i => expWeight (t k i)) (nwB (p k)) ss)

/-- The variational lower bound of a Gaussian model, up to the constant `-(nf/2) ln 2π` per
sample. -/
noncomputable def gaussLowerBound [NeZero nc] (ty : CovType) (sp : Fin nc → ℝ) (tp : Fin nc → Fin nc → ℝ)
    (p₀ : Fin nc → NW nf) (ss : List (ObsSeq (Fin nf → ℝ))) (s : Fin nc → ℝ) (t : Fin nc → Fin nc → ℝ)
    (p : Fin nc → NW nf) : ℝ :=
  lowerBound sp tp ss s t (nwB p) (klGauss ty p p₀)

end Verif.Spec
