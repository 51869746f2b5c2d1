import Verif.Proofs.Dirichlet
import Verif.Proofs.Kl

/-!
# The evidence of a categorical model and the variational lower bound
-/

set_option autoImplicit false

namespace Verif
open MeasureTheory ProbabilityTheory Spec

variable {nc nf : ℕ}

/-! ## The likelihood as a sum of monomials -/

/-- How often each parameter occurs in a product. -/
structure Exps (nc nf : ℕ) where
  s : Fin nc → ℕ
  t : Fin nc → Fin nc → ℕ
  e : Fin nc → Fin nf → ℕ

/-- A product of parameters. -/
noncomputable def Exps.val (c : Exps nc nf) (θ : CatTheta nc nf) : ℝ :=
  (∏ i, θ.1 i ^ c.s i) * ((∏ i, ∏ j, θ.2.1 i j ^ c.t i j) * ∏ i, ∏ k, θ.2.2 i k ^ c.e i k)

/-- A function of the parameters that is a product of parameters. -/
def IsMono (f : CatTheta nc nf → ℝ) : Prop := ∃ c : Exps nc nf, f = c.val

/-- A function of the parameters that is a sum of products of parameters. -/
def IsPoly (f : CatTheta nc nf → ℝ) : Prop := ∃ l : List (Exps nc nf), ∀ θ, f θ = (l.map fun c => c.val θ).sum

theorem Exps.val_mul (c d : Exps nc nf) (θ : CatTheta nc nf) :
    (Exps.mk (fun i => c.s i + d.s i) (fun i j => c.t i j + d.t i j) fun i k => c.e i k + d.e i k).val θ =
      c.val θ * d.val θ := by
  simp only [Exps.val, pow_add, Finset.prod_mul_distrib]
  ring

theorem IsMono.one : IsMono (fun _ : CatTheta nc nf => 1) := ⟨⟨0, 0, 0⟩, by funext θ; simp [Exps.val]⟩

theorem IsMono.mul {f g : CatTheta nc nf → ℝ} (hf : IsMono f) (hg : IsMono g) : IsMono fun θ => f θ * g θ := by
  obtain ⟨c, rfl⟩ := hf
  obtain ⟨d, rfl⟩ := hg
  exact ⟨_, funext fun θ => (Exps.val_mul c d θ).symm⟩

theorem IsMono.prod {ι : Type} (u : Finset ι) {f : ι → CatTheta nc nf → ℝ} (hf : ∀ t, IsMono (f t)) :
    IsMono fun θ => ∏ t ∈ u, f t θ := by
  classical
  induction u using Finset.induction_on with
  | empty => simpa using IsMono.one
  | insert t u ht ih => simp only [Finset.prod_insert ht]; exact (hf t).mul ih

theorem IsMono.start (i : Fin nc) : IsMono (fun θ : CatTheta nc nf => θ.1 i) := by
  classical
  refine ⟨⟨Pi.single i 1, 0, 0⟩, funext fun θ => ?_⟩
  simp [Exps.val, Pi.single_apply, pow_ite, Finset.prod_ite_eq']

theorem IsMono.trans (i j : Fin nc) : IsMono (fun θ : CatTheta nc nf => θ.2.1 i j) := by
  classical
  refine ⟨⟨0, fun i' j' => if i' = i then if j' = j then 1 else 0 else 0, 0⟩, funext fun θ => ?_⟩
  have : ∀ i', ∏ j', θ.2.1 i' j' ^ (if i' = i then if j' = j then 1 else 0 else 0) =
      if i' = i then θ.2.1 i j else 1 := by
    intro i'
    by_cases h : i' = i
    · subst h; simp [pow_ite, Finset.prod_ite_eq']
    · simp [h]
  simp only [Exps.val, this]
  simp [Finset.prod_ite_eq']

theorem IsMono.emit (i : Fin nc) (k : Fin nf) : IsMono (fun θ : CatTheta nc nf => θ.2.2 i k) := by
  classical
  refine ⟨⟨0, 0, fun i' j' => if i' = i then if j' = k then 1 else 0 else 0⟩, funext fun θ => ?_⟩
  have : ∀ i', ∏ j', θ.2.2 i' j' ^ (if i' = i then if j' = k then 1 else 0 else 0) =
      if i' = i then θ.2.2 i k else 1 := by
    intro i'
    by_cases h : i' = i
    · subst h; simp [pow_ite, Finset.prod_ite_eq']
    · simp [h]
  simp only [Exps.val, this]
  simp [Finset.prod_ite_eq']

theorem IsMono.isPoly {f : CatTheta nc nf → ℝ} (hf : IsMono f) : IsPoly f := by
  obtain ⟨c, rfl⟩ := hf
  exact ⟨[c], fun θ => by simp⟩

theorem IsPoly.zero : IsPoly (fun _ : CatTheta nc nf => 0) := ⟨[], fun θ => by simp⟩

theorem IsPoly.add {f g : CatTheta nc nf → ℝ} (hf : IsPoly f) (hg : IsPoly g) : IsPoly fun θ => f θ + g θ := by
  obtain ⟨l, hl⟩ := hf
  obtain ⟨m, hm⟩ := hg
  exact ⟨l ++ m, fun θ => by simp [hl, hm]⟩

theorem IsPoly.mul_mono {f g : CatTheta nc nf → ℝ} (hf : IsPoly f) (hg : IsMono g) : IsPoly fun θ => f θ * g θ := by
  obtain ⟨l, hl⟩ := hf
  obtain ⟨d, rfl⟩ := hg
  refine ⟨l.map fun c => ⟨fun i => c.s i + d.s i, fun i j => c.t i j + d.t i j, fun i k => c.e i k + d.e i k⟩,
    fun θ => ?_⟩
  simp only [hl, List.map_map, Function.comp_def, Exps.val_mul, List.sum_map_mul_right]

theorem IsPoly.mul {f g : CatTheta nc nf → ℝ} (hf : IsPoly f) (hg : IsPoly g) : IsPoly fun θ => f θ * g θ := by
  obtain ⟨m, hm⟩ := hg
  simp only [hm]
  clear hm
  induction m with
  | nil => simpa using IsPoly.zero
  | cons c m ih =>
    simp only [List.map_cons, List.sum_cons, mul_add]
    exact (hf.mul_mono ⟨c, rfl⟩).add ih

theorem IsPoly.sum {ι : Type} (u : Finset ι) {f : ι → CatTheta nc nf → ℝ} (hf : ∀ t, IsPoly (f t)) :
    IsPoly fun θ => ∑ t ∈ u, f t θ := by
  classical
  induction u using Finset.induction_on with
  | empty => simpa using IsPoly.zero
  | insert t u ht ih => simp only [Finset.sum_insert ht]; exact (hf t).add ih

theorem isPoly_dataLikelihood (ss : List (ObsSeq (Fin nf))) :
    IsPoly fun θ : CatTheta nc nf => dataLikelihood θ.1 θ.2.1 (catB θ.2.2) ss := by
  induction ss with
  | nil => simpa [dataLikelihood] using IsMono.one.isPoly
  | cons s ss ih =>
    have h1 : IsPoly fun θ : CatTheta nc nf => likelihood θ.1 θ.2.1 (s.weights (catB θ.2.2)) := by
      refine IsPoly.sum _ fun z => IsMono.isPoly ?_
      exact ((IsMono.start _).mul (IsMono.prod _ fun t => IsMono.trans _ _)).mul
        (IsMono.prod _ fun t => IsMono.emit _ _)
    simpa [dataLikelihood] using h1.mul ih

/-! ## Monomials under the prior -/

section Prior
variable [NeZero nc] [NeZero nf] {sp : Fin nc → ℝ} {tp : Fin nc → Fin nc → ℝ} {ep : Fin nc → Fin nf → ℝ}
  (hsp : ∀ i, 0 < sp i) (htp : ∀ i j, 0 < tp i j) (hep : ∀ i k, 0 < ep i k)
include hsp htp hep

theorem integral_mono (c : Exps nc nf) :
    ∫ θ, c.val θ ∂catPrior sp tp ep = (∫ x, ∏ i, x i ^ c.s i ∂dirichlet sp) *
      ((∏ i, ∫ x, ∏ j, x j ^ c.t i j ∂dirichlet (tp i)) * ∏ i, ∫ x, ∏ k, x k ^ c.e i k ∂dirichlet (ep i)) := by
  have := isProbabilityMeasure_dirichlet hsp
  have := fun i => isProbabilityMeasure_dirichlet (htp i)
  have := fun i => isProbabilityMeasure_dirichlet (hep i)
  have h1 := integral_fintype_prod_eq_prod (μ := fun i => dirichlet (tp i))
    (f := fun i (x : Fin nc → ℝ) => ∏ j, x j ^ c.t i j)
  have h2 := integral_fintype_prod_eq_prod (μ := fun i => dirichlet (ep i))
    (f := fun i (x : Fin nf → ℝ) => ∏ j, x j ^ c.e i j)
  rw [← h1, ← h2, ← integral_prod_mul, ← integral_prod_mul]
  rfl

theorem integrable_mono (c : Exps nc nf) : Integrable c.val (catPrior sp tp ep) := by
  have := isProbabilityMeasure_dirichlet hsp
  have := fun i => isProbabilityMeasure_dirichlet (htp i)
  have := fun i => isProbabilityMeasure_dirichlet (hep i)
  have h1 := Integrable.fintype_prod (μ := fun i => dirichlet (tp i))
    (f := fun i (x : Fin nc → ℝ) => ∏ j, x j ^ c.t i j) fun i => integrable_dirichlet (htp i) _
  have h2 := Integrable.fintype_prod (μ := fun i => dirichlet (ep i))
    (f := fun i (x : Fin nf → ℝ) => ∏ j, x j ^ c.e i j) fun i => integrable_dirichlet (hep i) _
  exact (integrable_dirichlet hsp c.s).mul_prod (h1.mul_prod h2)

end Prior

/-! ## One Dirichlet -/

/-- The weights of any other Dirichlet distribution, with its divergence from the prior, bound the
moments of the prior from below. -/
theorem weights_le_moment {n : ℕ} [NeZero n] {a p : Fin n → ℝ} (ha : ∀ i, 0 < a i) (hp : ∀ i, 0 < p i)
    (k : Fin n → ℕ) :
    (∏ i, expWeight a i ^ k i) * Real.exp (-klDirichlet a p) ≤ ∫ x, ∏ i, x i ^ k i ∂dirichlet p := by
  rw [integral_dirichlet hp]
  have hs : ∀ i, 0 < p i + k i := fun i => by have := hp i; positivity
  have hP : 0 < ∑ i, p i := Finset.sum_pos (fun i _ => hp i) Finset.univ_nonempty
  have hB : 0 < ∑ i, (p i + k i) := Finset.sum_pos (fun i _ => hs i) Finset.univ_nonempty
  have hc : 0 < ∏ i, Real.Gamma (p i + k i) / Real.Gamma (p i) :=
    Finset.prod_pos fun i _ => div_pos (Real.Gamma_pos_of_pos (hs i)) (Real.Gamma_pos_of_pos (hp i))
  have hd : 0 < Real.Gamma (∑ i, p i) / Real.Gamma (∑ i, (p i + k i)) :=
    div_pos (Real.Gamma_pos_of_pos hP) (Real.Gamma_pos_of_pos hB)
  have e1 : (∏ i, expWeight a i ^ k i) = Real.exp (∑ i, k i * (digamma (a i) - digamma (∑ k, a k))) := by
    rw [Real.exp_sum]
    exact Finset.prod_congr rfl fun i _ => by rw [expWeight, ← Real.exp_nat_mul]
  rw [e1, ← Real.exp_add, ← Real.le_log_iff_exp_le (mul_pos hc hd), Real.log_mul hc.ne' hd.ne',
    Real.log_div (Real.Gamma_pos_of_pos hP).ne' (Real.Gamma_pos_of_pos hB).ne',
    Real.log_prod fun i _ => (div_pos (Real.Gamma_pos_of_pos (hs i)) (Real.Gamma_pos_of_pos (hp i))).ne']
  have e2 : ∀ i, Real.log (Real.Gamma (p i + k i) / Real.Gamma (p i)) = lnGamma (p i + k i) - lnGamma (p i) :=
    fun i => Real.log_div (Real.Gamma_pos_of_pos (hs i)).ne' (Real.Gamma_pos_of_pos (hp i)).ne'
  simp only [e2]
  have h := klDirichlet_nonneg ha hs
  have e3 : klDirichlet a (fun i => p i + k i) = klDirichlet a p +
      (∑ i, (lnGamma (p i + k i) - lnGamma (p i)) +
        (Real.log (Real.Gamma (∑ i, p i)) - Real.log (Real.Gamma (∑ i, (p i + k i))))) -
      ∑ i, k i * (digamma (a i) - digamma (∑ k, a k)) := by
    simp only [klDirichlet, lnGamma, Finset.sum_sub_distrib, sub_mul, add_mul, Finset.sum_add_distrib]
    ring
  rw [e3] at h
  linarith

/-! ## The bound -/

section Bound
variable [NeZero nc] [NeZero nf] {sp : Fin nc → ℝ} {tp : Fin nc → Fin nc → ℝ} {ep : Fin nc → Fin nf → ℝ}
  (hsp : ∀ i, 0 < sp i) (htp : ∀ i j, 0 < tp i j) (hep : ∀ i k, 0 < ep i k)
  {s : Fin nc → ℝ} {t : Fin nc → Fin nc → ℝ} {e : Fin nc → Fin nf → ℝ}
  (hs : ∀ i, 0 < s i) (ht : ∀ i j, 0 < t i j) (he : ∀ i k, 0 < e i k)
include hsp htp hep hs ht he

theorem mono_le_integral (c : Exps nc nf) :
    c.val (expWeight s, expWeights t, expWeights e) *
      Real.exp (-(klDirichlet s sp + ∑ i, klDirichlet (t i) (tp i) + ∑ i, klDirichlet (e i) (ep i))) ≤
      ∫ θ, c.val θ ∂catPrior sp tp ep := by
  rw [integral_mono hsp htp hep]
  have h1 := weights_le_moment hs hsp c.s
  have h2 : ∏ i, ((∏ j, expWeight (t i) j ^ c.t i j) * Real.exp (-klDirichlet (t i) (tp i))) ≤ _ :=
    Finset.prod_le_prod (s := Finset.univ)
    (fun i _ => mul_nonneg (Finset.prod_nonneg fun j _ => pow_nonneg (Real.exp_pos _).le _) (Real.exp_pos _).le)
    fun i _ => weights_le_moment (ht i) (htp i) (c.t i)
  have h3 : ∏ i, ((∏ j, expWeight (e i) j ^ c.e i j) * Real.exp (-klDirichlet (e i) (ep i))) ≤ _ :=
    Finset.prod_le_prod (s := Finset.univ)
    (fun i _ => mul_nonneg (Finset.prod_nonneg fun j _ => pow_nonneg (Real.exp_pos _).le _) (Real.exp_pos _).le)
    fun i _ => weights_le_moment (he i) (hep i) (c.e i)
  have n1 : 0 ≤ (∏ i, expWeight s i ^ c.s i) * Real.exp (-klDirichlet s sp) :=
    mul_nonneg (Finset.prod_nonneg fun j _ => pow_nonneg (Real.exp_pos _).le _) (Real.exp_pos _).le
  have n2 : 0 ≤ ∏ i, ((∏ j, expWeight (t i) j ^ c.t i j) * Real.exp (-klDirichlet (t i) (tp i))) :=
    Finset.prod_nonneg fun i _ =>
      mul_nonneg (Finset.prod_nonneg fun j _ => pow_nonneg (Real.exp_pos _).le _) (Real.exp_pos _).le
  have n3 : 0 ≤ ∏ i, ((∏ j, expWeight (e i) j ^ c.e i j) * Real.exp (-klDirichlet (e i) (ep i))) :=
    Finset.prod_nonneg fun i _ =>
      mul_nonneg (Finset.prod_nonneg fun j _ => pow_nonneg (Real.exp_pos _).le _) (Real.exp_pos _).le
  refine le_trans (le_of_eq ?_) (mul_le_mul h1 (mul_le_mul h2 h3 n3 (n2.trans h2)) (mul_nonneg n2 n3) (n1.trans h1))
  rw [Finset.prod_mul_distrib, Finset.prod_mul_distrib, ← Real.exp_sum, ← Real.exp_sum]
  simp only [Exps.val, expWeights, neg_add, Real.exp_add, Finset.sum_neg_distrib]
  ring

theorem likelihood_le_evidence (ss : List (ObsSeq (Fin nf))) :
    dataLikelihood (expWeight s) (expWeights t) (catB (expWeights e)) ss *
      Real.exp (-(klDirichlet s sp + ∑ i, klDirichlet (t i) (tp i) + ∑ i, klDirichlet (e i) (ep i))) ≤
      catEvidence sp tp ep ss := by
  obtain ⟨l, hl⟩ := isPoly_dataLikelihood (nc := nc) ss
  have h0 := hl (expWeight s, expWeights t, expWeights e)
  simp only at h0
  rw [catEvidence, h0]
  simp only [hl]
  clear hl h0
  have hint : ∀ l : List (Exps nc nf), Integrable (fun θ => (l.map fun c => c.val θ).sum) (catPrior sp tp ep) := by
    intro l
    induction l with
    | nil => simp
    | cons c l ih =>
      simp only [List.map_cons, List.sum_cons]
      exact (integrable_mono hsp htp hep c).add ih
  induction l with
  | nil => simp
  | cons c l ih =>
    simp only [List.map_cons, List.sum_cons, add_mul]
    rw [integral_add (integrable_mono hsp htp hep c) (hint l)]
    exact add_le_add (mono_le_integral hsp htp hep hs ht he c) ih

end Bound

end Verif
