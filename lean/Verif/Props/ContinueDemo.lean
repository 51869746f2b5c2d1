import Verif.Props.ContinueClasses
import Verif.Props.SampleScoreDemo

/-!
# Cases that meet the hypotheses of C103
-/

set_option autoImplicit false

namespace Verif.ObjectsDemo
open FloatLike XF MeasureTheory Spec

/-- Two states and three symbols. -/
example (R : RandomLib XF (ℕ → NormalLib.Ω)) : ∃ (R' : RandomLib XF (ℕ → NormalLib.Ω)) (e : Est XF (ℕ → NormalLib.Ω) (CatAttrs XF)),
    Continues (IdealStream.lawOf NormalLib.μ) catSub R' e 3 := by
  obtain ⟨R', hR, -⟩ := NormalLib.C87_library_exists R
  refine ⟨R', est { emissionprobPrior := fun _ _ => 1, emissionprob := some (mat B) }, ?_⟩
  exact C103_categorical hR (est _) π A B ⟨chain _, features _ 3, rfl, B_nonneg, fun i => (B_sum i) ▸ near_one⟩ (exact _) B_sum

/-- Two states in the plane, with variances per feature. -/
example (R : RandomLib XF (ℕ → NormalLib.Ω)) : ∃ (R' : RandomLib XF (ℕ → NormalLib.Ω)) (e : Est XF (ℕ → NormalLib.Ω) (GaussAttrs XF))
    (_ : MeasurableSpace (Fin 2 → XF)), Continues (IdealStream.lawOf NormalLib.μ) (gaussDiagSub fun _ _ _ => 0) R' e 2 := by
  obtain ⟨R', hR, hN⟩ := NormalLib.C87_library_exists R
  obtain ⟨hm, -, hN⟩ := hN 2
  let p : GaussAttrs XF :=
    { minCovar := 0, meansPrior := fun _ _ => 0, meansWeight := 0, covarsPrior := fun _ _ _ => 0, covarsWeight := 1,
      means := some (mat mu), covars := some (mat ![![1, 2], ![3, 1]]) }
  exact ⟨R', est p, hm, C103_gaussian_diag (est p) π A mu hR ![![1, 2], ![3, 1]] ⟨chain p, rfl, rfl⟩ (exact p) fun i => hN _ _⟩

/-- `PoissonHMM` with `random_state=7`. -/
noncomputable def poisSeeded {G : Type} : Est XF G (PoisAttrs XF) :=
  { est (G := G) { lambdasPrior := fun _ _ => 0, lambdasWeight := fun _ _ => 0, lambdas := some (mat B) } with randomState := .seed 7 }

theorem sample_seed_run {G P : Type} {S : Sub XF G P} {R : RandomLib XF G} {e e' : Est XF G P} {k : ℕ}
    (hc : S.checkFitted e = (.ok (), e')) (hrs : e'.randomState = .seed k) (n : Int) (c : Option ℕ) (g : G) :
    S.sample R n none c ⟨e, g⟩ = ((S.sampleFrom R e' n c (R.ofSeed k)).1, ⟨e', g⟩) := by
  simp only [Sub.sample, Sub.sampleBody, onEst, Py.bind_apply, hc, Py.get_apply, withSelfGen, hrs, Py.lift_apply]

theorem poisSeeded_samples {G : Type} (R : RandomLib XF G) (n : Int) (c : Option ℕ) (hc : ∀ k, c = some k → k < 2) (g : G)
    (e : Est XF G (PoisAttrs XF)) (he : e = poisSeeded ∨ e = { poisSeeded with nFeatures := some 3 }) :
    ∃ o, poisSub.sample R n none c ⟨e, g⟩ = (.ok o, ⟨{ poisSeeded with nFeatures := some 3 }, g⟩) := by
  have hk : poisSub.checkFitted e = (.ok (), { poisSeeded with nFeatures := some 3 }) := by
    have key : poisSub.checkFitted (poisSeeded (G := G)) = (.ok (), { poisSeeded with nFeatures := some 3 }) := by
      have hc := chain (G := G) (poisSeeded (G := G)).sub
      exact (HoldsChain.fitted (S := poisSub) (e := poisSeeded (G := G)) (π := π) (A := A) ⟨hc.startprob, hc.transmat, hc.π_nonneg,
        hc.A_nonneg, hc.π_sum, hc.A_sum⟩).trans rfl
    rcases he with rfl | rfl
    · exact key
    · have := poisSub_lawful.fitted_idem (poisSeeded (G := G))
      rw [key] at this
      exact this
  have hr := Sub.ready_of (S := poisSub) (e := { (poisSeeded (G := G)) with nFeatures := some 3 }) (π := π) (A := A)
    (p := fun i k => fin (B i k)) (by decide : (2 : ℕ) ≠ 0) rfl rfl rfl (asMat_mat B)
  obtain ⟨o, g', h⟩ := C36_total (R := R) hr (fun z g => ⟨_, _, rfl⟩) n c hc (R.ofSeed 7)
  refine ⟨o, ?_⟩
  exact (sample_seed_run hk rfl n c g).trans (congrArg (fun r => (r, _)) (congrArg Prod.fst h))

/-- Objects with an integer seed can be continued for ever, so their samples repeat. -/
example {G : Type} (R : RandomLib XF G) (n : Int) (g : G) : ∃ (w : ℕ → World XF G (PoisAttrs XF)) (b : ℕ → Sampled poisSub),
    (w 0).est = poisSeeded ∧ Chained poisSub R n w b ∧ ∃ i j, i < j ∧ j ≤ 2 ∧ ∀ t, b (i + 1 + t) = b (j + 1 + t) := by
  obtain ⟨o, ho⟩ := poisSeeded_samples R n none (by simp) g _ (.inl rfl)
  have hlast : ∀ {c : Option ℕ} {e : Est XF G (PoisAttrs XF)} {o : Sampled poisSub} {w' : World XF G (PoisAttrs XF)},
      e.nComponents = 2 → poisSub.sample R n none c ⟨e, g⟩ = (.ok o, w') → ∀ k, o.1.getLast? = some k → k < 2 := by
    intro c e o w' he h k hk
    have := (C36_sample poisSub_lawful n none c _ _ h).1.2.2.1 k (List.mem_of_getLast? hk)
    rwa [he] at this
  have hex : ∀ c : Option ℕ, ∃ o : Sampled (poisSub (α := XF) (G := G)), (∀ k, c = some k → k < 2) →
      poisSub.sample R n none c ⟨{ poisSeeded with nFeatures := some 3 }, g⟩ = (.ok o, ⟨{ poisSeeded with nFeatures := some 3 }, g⟩) := by
    intro c
    by_cases hc : ∀ k, c = some k → k < 2
    · obtain ⟨o, ho⟩ := poisSeeded_samples R n c hc g _ (.inr rfl)
      exact ⟨o, fun _ => ho⟩
    · exact ⟨o, fun h => absurd h hc⟩
  choose f hf using hex
  let b : ℕ → Sampled (poisSub (α := XF) (G := G)) := fun i => Nat.rec o (fun _ o => f o.1.getLast?) i
  have hb : ∀ i, ∀ k, (b i).1.getLast? = some k → k < 2 := by
    intro i
    induction i with
    | zero => exact hlast (e := poisSeeded) rfl ho
    | succ i ih => exact hlast (e := { poisSeeded with nFeatures := some 3 }) rfl (hf _ ih)
  let w : ℕ → World XF G (PoisAttrs XF) := fun i => match i with
    | 0 => ⟨poisSeeded, g⟩
    | _ + 1 => ⟨{ poisSeeded with nFeatures := some 3 }, g⟩
  have hch : Chained poisSub R n w b := ⟨ho, fun i => hf _ (hb i)⟩
  exact ⟨w, b, rfl, hch, C103_seeded poisSub_lawful n w b (k := 7) rfl hch⟩

end Verif.ObjectsDemo
