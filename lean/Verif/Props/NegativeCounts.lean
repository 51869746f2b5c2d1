import Verif.Props.Rejects

/-!
# C94, continued: parameters given as vectors, and negative counts
-/

set_option autoImplicit false

namespace Verif
open FloatLike XF Spec

variable {G P : Type}

/-! ## A vector of emission parameters is one row -/

/-- Two objects that `_check` turns into the same object give the same answers. -/
structure SameAnswers (S : Sub XF G P) (e₁ e₂ : Est XF G P) : Prop where
  scoreSamples : ∀ X ls p, (S.scoreSamples X ls p e₁).1 = (S.scoreSamples X ls p e₂).1
  decode : ∀ X ls alg, (S.decode X ls alg e₁).1 = (S.decode X ls alg e₂).1

theorem sameAnswers_of {S : Sub XF G P} {e₁ e₂ : Est XF G P} (hs : e₁.startprob = e₂.startprob)
    (hb : checkBase e₁ = checkBase e₂) (h : S.checkSub e₁ = S.checkSub e₂) : SameAnswers S e₁ e₂ := by
  have key : ∀ {β : Type} (k : Py (Est XF G P) β), ((S.checkFitted >>= fun _ => k) e₁).1 =
      ((S.checkFitted >>= fun _ => k) e₂).1 := by
    intro β k
    simp only [Py.bind_apply, Sub.checkFitted_eq, Sub.check_eq, hs, hb, h]
    by_cases h0 : e₂.startprob.isNone
    · simp [h0]
    · simp only [h0]
      cases checkBase e₂ <;> rfl
  exact ⟨fun X ls p => key _, fun X ls alg => key _⟩

/-- **C94** A one-dimensional `emissionprob_` of `CategoricalHMM` is a matrix of one row. -/
theorem C94_vector_categorical {nf : ℕ} (e : Est XF G (CatAttrs XF)) (b : Fin nf → ℝ) :
    SameAnswers catSub { e with sub := { e.sub with emissionprob := some (vec b) } }
      { e with sub := { e.sub with emissionprob := some (mat fun _ : Fin 1 => b) } } :=
  sameAnswers_of rfl rfl rfl

/-- **C94** So is that of `MultinomialHMM`. -/
theorem C94_vector_multinomial {nf : ℕ} (e : Est XF G (MultiAttrs XF)) (b : Fin nf → ℝ) :
    SameAnswers multiSub { e with sub := { e.sub with emissionprob := some (vec b) } }
      { e with sub := { e.sub with emissionprob := some (mat fun _ : Fin 1 => b) } } :=
  sameAnswers_of rfl rfl rfl

/-- **C94** So are `lambdas_` of `PoissonHMM`; a number is one row with one entry. -/
theorem C94_vector_poisson {nf : ℕ} (e : Est XF G (PoisAttrs XF)) (b : Fin nf → ℝ) (x : ℝ) :
    SameAnswers poisSub { e with sub := { e.sub with lambdas := some (vec b) } }
      { e with sub := { e.sub with lambdas := some (mat fun _ : Fin 1 => b) } } ∧
    SameAnswers poisSub { e with sub := { e.sub with lambdas := some (.d0 (fin x)) } }
      { e with sub := { e.sub with lambdas := some (mat fun _ _ : Fin 1 => x) } } :=
  ⟨sameAnswers_of rfl rfl rfl, sameAnswers_of rfl rfl rfl⟩

/-! ## Negative counts -/

namespace Poisson

theorem poissonWeight_nonneg {l : ℝ} (hl : 0 ≤ l) (k : ℤ) : 0 ≤ poissonWeight l k := by
  unfold poissonWeight
  split
  · exact poissonPmf_nonneg hl _
  · exact le_rfl

theorem logpmf_int (k : ℤ) {l : ℝ} (hl : 0 ≤ l) : logpmf k (fin l) = lg (poissonWeight l k) := by
  unfold poissonWeight
  by_cases hk : 0 ≤ k
  · rw [if_pos hk]
    obtain ⟨n, rfl⟩ := Int.eq_ofNat_of_zero_le hk
    rw [logpmf_fin n hl]; rfl
  · rw [if_neg hk]
    have h1 : k < 0 := not_le.1 hk
    unfold logpmf
    simp only [zero_def, fin_le, hl, decide_true, Bool.not_true, Bool.false_eq_true, if_false, h1, if_true]
    exact lg_zero.symm

theorem pmf_int (k : ℤ) {l : ℝ} (hl : 0 ≤ l) : pmf k (fin l) = fin (poissonWeight l k) := by
  unfold poissonWeight
  by_cases hk : 0 ≤ k
  · rw [if_pos hk]
    obtain ⟨n, rfl⟩ := Int.eq_ofNat_of_zero_le hk
    rw [pmf_fin n hl]; rfl
  · rw [if_neg hk]
    have h1 : k < 0 := not_le.1 hk
    unfold pmf
    simp only [zero_def, fin_le, hl, decide_true, Bool.not_true, Bool.false_eq_true, if_false, h1, if_true]

end Poisson

theorem ints_data {nf : ℕ} (hf : nf ≠ 0) (l : List (Fin nf → ℤ)) (hl : l ≠ []) :
    ∃ X', checkArray (intsX l) = .ok X' ∧ poisRows (α := XF) nf X' = .ok (l.map id) := by
  refine ⟨_, checkArray_ints_of _ (by simpa using hl) hf, ?_⟩
  simp only [poisRows, poisRowsOf, dite_true, List.map_ofFn, Function.comp_def]
  congr 1
  exact ofFn_get_map l id

/-- **C94** `PoissonHMM` does not look at its data: its methods answer for the model in which a negative count has
probability zero. -/
theorem C94_poisson {nf : ℕ} (hf : nf ≠ 0) (e : Est XF G (PoisAttrs XF)) (π : Fin e.nComponents → ℝ)
    (A : Fin e.nComponents → Fin e.nComponents → ℝ) (l : Fin e.nComponents → Fin nf → ℝ) (h : HoldsPois e π A l) :
    Answers poisSub e intsX π A (poissonZ l) := by
  haveI : NeZero e.nComponents := ⟨nc_pos h.chain.π_sum⟩
  have hc : poisSub.checkSub e = (.ok (), { e with nFeatures := some nf, sub := { e.sub with lambdas := some (mat l) } }) := by
    have hn : e.nFeatures.getD nf = nf := by
      cases hn : e.nFeatures with
      | none => rfl
      | some n => exact h.features n hn
    have hsh : (mat l).shape = [e.nComponents, nf] := rfl
    have ha : atleast2d (mat l) = mat l := rfl
    simp [poisSub, poisCheck, h.lambdas, ha, hsh, hn]
  refine answers_of h.chain (S := poisSub) hc (asMat_mat l) id (fun impl => ?_) (ints_data hf)
  exact {
    startprob_eq := rfl, transmat_eq := rfl, π_nonneg := h.chain.π_nonneg, A_nonneg := h.chain.A_nonneg
    b_nonneg := fun x i => Finset.prod_nonneg fun k _ => Poisson.poissonWeight_nonneg (h.nonneg i k) _
    lik_eq := fun X => by
      show Except.ok (Poisson.computeLikelihood _ _) = _
      simp only [Poisson.computeLikelihood, List.map_map, memo_eq]
      rw [List.map_id]
      congr 1
      refine List.map_congr_left fun x _ => ?_
      funext i
      simp only [Function.comp, id, Poisson.pmf_int _ (h.nonneg i _), prodF_fin]
      rfl
    loglik_eq := fun X => by
      show Except.ok (Poisson.computeLogLikelihood _ _) = _
      simp only [Poisson.computeLogLikelihood, List.map_map, memo_eq]
      rw [List.map_id]
      congr 1
      refine List.map_congr_left fun x _ => ?_
      funext i
      simp only [Function.comp, id, Poisson.logpmf_int _ (h.nonneg i _)]
      rw [sumF_lg _ fun k => Poisson.poissonWeight_nonneg (h.nonneg i k) _]
      rfl }

/-- A sample without weight in any state makes the sequence impossible. -/
theorem likelihood_impossible {nc n : ℕ} {π : Fin nc → ℝ} {A : Fin nc → Fin nc → ℝ} {B : Fin (n + 1) → Fin nc → ℝ}
    (t : Fin (n + 1)) (h : ∀ i, B t i = 0) : likelihood π A B = 0 := by
  unfold likelihood
  refine Finset.sum_eq_zero fun z _ => ?_
  unfold joint
  rw [mul_eq_zero]
  exact .inr (Finset.prod_eq_zero (Finset.mem_univ t) (h _))

theorem underflow_impossible {nc n : ℕ} {π : Fin nc → ℝ} {A : Fin nc → Fin nc → ℝ} {B : Fin (n + 1) → Fin nc → ℝ}
    (t : Fin (n + 1)) (h : ∀ i, B t i = 0) : ¬ NoUnderflow π A B := by
  rintro ⟨h0, h1⟩
  have hz : prefixLikelihood π A B t = 0 := by
    unfold prefixLikelihood
    exact likelihood_impossible ⟨t.val, by omega⟩ h
  have hp : (0 : ℝ) < 1 / 10 ^ 300 := by positivity
  cases t using Fin.cases with
  | zero => rw [hz] at h0; linarith
  | succ t =>
    have := h1 t
    rw [hz, zero_div] at this
    linarith

/-- A row with a negative count has no weight. -/
theorem poissonZ_negative {nc nf : ℕ} (l : Fin nc → Fin nf → ℝ) {x : Fin nf → ℤ} {k : Fin nf} (hk : x k < 0)
    (i : Fin nc) : poissonZ l x i = 0 :=
  Finset.prod_eq_zero (Finset.mem_univ k) (by unfold poissonWeight; rw [if_neg (not_le.2 hk)])

/-- **C94** A negative count anywhere makes `score` minus infinity (`implementation="log"`) or raises
(`implementation="scaling"`). -/
theorem C94_negative {nf : ℕ} (hf : nf ≠ 0) (e : Est XF G (PoisAttrs XF)) (π : Fin e.nComponents → ℝ)
    (A : Fin e.nComponents → Fin e.nComponents → ℝ) (l : Fin e.nComponents → Fin nf → ℝ) (h : HoldsPois e π A l)
    (ss : List (ObsSeq (Fin nf → ℤ))) (ls : Option (List Int)) (hl : LengthsFor ss ls) {s : ObsSeq (Fin nf → ℤ)}
    (hs : s ∈ ss) (t : Fin (s.n + 1)) (k : Fin nf) (hk : s.x t k < 0) :
    (e.implementation = "log" → (poisSub.score (intsX (samples ss)) ls e).1 = .ok ninf) ∧
    (e.implementation = "scaling" → (poisSub.score (intsX (samples ss)) ls e).1 = .error .underflow) := by
  have hne : ss ≠ [] := List.ne_nil_of_mem hs
  have h0 : dataLikelihood π A (poissonZ l) ss = 0 := by
    unfold dataLikelihood
    exact List.prod_eq_zero (List.mem_map.2 ⟨s, hs, likelihood_impossible t fun i => poissonZ_negative l hk i⟩)
  refine ⟨fun hi => ?_, fun hi => ?_⟩
  · have := (C94_poisson hf e π A l h).score hi ss ls hne hl
    rw [h0] at this
    simpa [xlog] using this
  · have := (C94_poisson hf e π A l h).score_scaling hi ss ls hne hl
    rw [if_neg] at this
    · exact this
    · exact fun hu => underflow_impossible t (fun i => poissonZ_negative l hk i) (hu s hs)

end Verif
