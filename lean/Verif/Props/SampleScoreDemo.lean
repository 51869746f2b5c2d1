import Verif.Props.SampleScore
import Verif.Props.ObjectsDemo

/-!
# Libraries and objects that meet the hypotheses of C87
-/

set_option autoImplicit false

namespace Verif
open FloatLike XF MeasureTheory Spec

namespace NormalLib

/-- The real number a value stands for. -/
def val : XF → ℝ
  | .fin x => x
  | _ => 0

/-- The arguments of `multivariate_normal`. -/
structure Call where
  k : ℕ
  m : Fin k → XF
  S : Fin k → Fin k → XF

/-- What is drawn: a normal vector. -/
noncomputable def Call.law (c : Call) : Measure (Fin c.k → ℝ) :=
  mvnLaw (fun a => val (c.m a)) (Matrix.of fun a b => val (c.S a b))

instance (c : Call) : IsProbabilityMeasure c.law := by unfold Call.law; infer_instance

/-- Enough randomness for one call: a uniform number and a normal vector for every mean and covariance. -/
abbrev Ω := ℝ × ((c : Call) → Fin c.k → ℝ)

noncomputable def μ : Measure Ω := uniform.prod (Measure.infinitePi Call.law)

instance : IsProbabilityMeasure μ := by unfold μ; infer_instance

/-- **C87.** The assumptions on the library hold together: a generator whose `rand` is uniform and whose
`multivariate_normal` draws from the normal distribution of every mean and covariance, and a measurable structure
on the arrays of floats that makes the real ones a measurable copy of the real vectors. -/
theorem C87_library_exists (R : RandomLib XF (ℕ → Ω)) :
    ∃ R' : RandomLib XF (ℕ → Ω), IdealRand (IdealStream.lawOf μ) R' (fun g => (g 0).1) (fun g n => g (n + 1)) ∧
      ∀ k : ℕ, ∃ _ : MeasurableSpace (Fin k → XF), MeasurableEmbedding (Gaussian.row (nf := k)) ∧
        ∀ (m : Fin k → ℝ) (S : Matrix (Fin k) (Fin k) ℝ), DrawsNormal (IdealStream.lawOf μ) R' m S := by
  have h := IdealStream.drawsOf μ
  refine ⟨{ R with
    rand := fun g => (.fin (g 0).1, fun n => g (n + 1))
    normal := fun {k} m S g => (Gaussian.row ((g 0).2 ⟨k, m, S⟩), fun n => g (n + 1)) }, ⟨fun g => rfl, ?_⟩, fun k => ?_⟩
  · have h1 := h.map (f := Prod.fst) measurable_fst
    have h2 : μ.map Prod.fst = uniform := by
      unfold μ
      rw [Measure.map_fst_prod, measure_univ, one_smul]
    rw [h2] at h1
    exact h1
  · refine ⟨MeasurableSpace.map Gaussian.row inferInstance, ?_⟩
    letI : MeasurableSpace (Fin k → XF) := MeasurableSpace.map Gaussian.row inferInstance
    have hi : Function.Injective (Gaussian.row (nf := k)) := fun a b hab => funext fun l => XF.fin.inj (congrFun hab l)
    have hm : Measurable (Gaussian.row (nf := k)) := fun s hs => hs
    refine ⟨⟨hi, hm, fun s hs => ?_⟩, fun m S => ?_⟩
    · show MeasurableSet (Gaussian.row ⁻¹' (Gaussian.row '' s))
      rwa [hi.preimage_image]
    · let c : Call := ⟨k, fun a => fin (m a), fun a b => fin (S a b)⟩
      have hc : μ.map (fun w : Ω => w.2 c) = mvnLaw m S := by
        have : (fun w : Ω => w.2 c) = (fun v : (c : Call) → Fin c.k → ℝ => v c) ∘ Prod.snd := rfl
        rw [this, ← Measure.map_map (measurable_pi_apply c) measurable_snd]
        unfold μ
        rw [Measure.map_snd_prod, measure_univ, one_smul]
        exact Measure.infinitePi_map_eval _ c
      have hmc : Measurable fun w : Ω => (w.2 c : Fin k → ℝ) := (measurable_pi_apply c).comp measurable_snd
      have h1 := h.map (hm.comp hmc)
      rw [← Measure.map_map hm hmc, hc] at h1
      exact h1

end NormalLib

namespace ObjectsDemo

theorem exact {G P : Type} (p : P) : Exact (est (G := G) p) π A where
  π_sum := by
    show ∑ i : Fin 2, π i = 1
    norm_num [Fin.sum_univ_two, π]
  A_sum i := by
    change Fin 2 at i
    show ∑ j : Fin 2, A i j = 1
    fin_cases i <;> norm_num [Fin.sum_univ_two, A]
  impl := rfl
  global := rfl

/-- Two states in the plane, with variances per feature. -/
example (R : RandomLib XF (ℕ → NormalLib.Ω)) : ∃ (R' : RandomLib XF (ℕ → NormalLib.Ω)) (e : Est XF (ℕ → NormalLib.Ω) (GaussAttrs XF)),
    SampleMatchesScore (IdealStream.lawOf NormalLib.μ) (fun n g => rowsOf (O := fun nf => Fin nf → XF) 2
        ((gaussDiagSub fun _ _ _ => 0).sample R' n none none ⟨e, g⟩).1)
      (fun l => ((gaussDiagSub fun _ _ _ => 0).score (realsX l) none e).1) (Gaussian.row (nf := 2)) volume := by
  obtain ⟨R', hR, hN⟩ := NormalLib.C87_library_exists R
  obtain ⟨_, he, hN⟩ := hN 2
  let p : GaussAttrs XF :=
    { minCovar := 0, meansPrior := fun _ _ => 0, meansWeight := 0, covarsPrior := fun _ _ _ => 0, covarsWeight := 1,
      means := some (mat mu), covars := some (mat ![![1, 2], ![3, 1]]) }
  refine ⟨R', est p, ?_⟩
  exact C87_gaussian_diag (est p) π A mu hR he (by norm_num) ![![1, 2], ![3, 1]]
    (fun i k => tiny_le (by change Fin 2 at i; fin_cases i <;> fin_cases k <;> norm_num)) ⟨chain p, rfl, rfl⟩ (exact p)
    fun i => hN _ _

/-- Two states and three symbols. -/
example (R : RandomLib XF (ℕ → NormalLib.Ω)) : ∃ (R' : RandomLib XF (ℕ → NormalLib.Ω)) (e : Est XF (ℕ → NormalLib.Ω) (CatAttrs XF)),
    SampleMatchesScore (IdealStream.lawOf NormalLib.μ) (fun n g => rowsOf (O := fun _ => ℤ) 3 (catSub.sample R' n none none ⟨e, g⟩).1)
      (fun l => (catSub.score (symbolsX l) none e).1) (Categorical.sym (nf := 3)) Measure.count := by
  obtain ⟨R', hR, -⟩ := NormalLib.C87_library_exists R
  refine ⟨R', est { emissionprobPrior := fun _ _ => 1, emissionprob := some (mat B) }, ?_⟩
  exact C87_categorical hR (est _) π A B ⟨chain _, features _ 3, rfl, B_nonneg, fun i => (B_sum i) ▸ near_one⟩ (exact _) B_sum

end ObjectsDemo

end Verif
