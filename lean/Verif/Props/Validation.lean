import Verif.Proofs.Estimator
import Verif.Spec.Validation
import Verif.Spec.Calls

/-!
# C30: what parameter validation accepts
-/

namespace Verif
open FloatLike XF Spec
open scoped Classical

variable {α G P : Type}

theorem isclose_one (s : ℝ) : isclose (fin s) (1 : XF) = true ↔ NearOne s := by
  have h1 : (1 : XF) = fin 1 := rfl
  simp only [isclose, h1, fin_sub, fin_abs, ofRat_def, abs_one, fin_mul, fin_add, fin_le, fin_eq,
    Gaussian.isFinite_fin, Bool.and_true, Bool.or_eq_true, decide_eq_true_eq, NearOne]
  constructor
  · rintro (h | h)
    · refine h.trans (le_of_eq ?_); push_cast; ring
    · rw [h]; norm_num
  · intro h
    left
    refine h.trans (le_of_eq ?_); push_cast; ring

theorem checkSum1_vec {n : ℕ} (v : Fin n → ℝ) :
    checkSum1 (vec v) = if NearOne (∑ i, v i) then .ok () else .error (.valueError "must sum to 1") := by
  simp only [checkSum1, vec, rowSums, sumF_fin, List.all_cons, List.all_nil, Bool.and_true, isclose_one]

theorem checkSum1_mat {m n : ℕ} (v : Fin m → Fin n → ℝ) :
    checkSum1 (mat v) = if ∀ i, NearOne (∑ j, v i j) then .ok () else .error (.valueError "must sum to 1") := by
  simp only [checkSum1, mat, rowSums, sumF_fin, List.all_eq_true, List.mem_ofFn]
  refine if_congr ?_ rfl rfl
  constructor
  · intro h i; exact (isclose_one _).1 (h _ ⟨i, rfl⟩)
  · rintro h _ ⟨i, rfl⟩; exact (isclose_one _).2 (h i)

/-- **C30** `BaseHMM._check` on a vector `startprob_` and a matrix `transmat_` of any shapes and any
real entries: accepted exactly when the shapes agree with `n_components` and each distribution sums
to one within `1e-8 + 1e-5`; everything else is a `ValueError`. -/
theorem C30_check {n k l : ℕ} (e : Est XF G P) (π : Fin n → ℝ) (A : Fin k → Fin l → ℝ)
    (hs : e.startprob = some (vec π)) (ht : e.transmat = some (mat A)) :
    (checkBase e = .ok () ↔ n = e.nComponents ∧ k = e.nComponents ∧ l = e.nComponents ∧
      NearOne (∑ i, π i) ∧ ∀ i, NearOne (∑ j, A i j)) ∧
    (checkBase e ≠ .ok () → ∃ msg, checkBase e = .error (.valueError msg)) := by
  have hsh : (vec π).shape = [n] := rfl
  have hsh' : (mat A).shape = [k, l] := rfl
  simp only [checkBase, hs, ht, hsh, hsh', checkSum1_vec, checkSum1_mat]
  by_cases h1 : n = e.nComponents
  · by_cases h2 : NearOne (∑ i, π i)
    · by_cases h3 : k = e.nComponents
      · by_cases h4 : l = e.nComponents
        · by_cases h5 : ∀ i, NearOne (∑ j, A i j)
          · simp only [ne_eq, h1, h2, h3, h4, h5, not_true_eq_false, if_false, if_true, bind,
              Except.bind, implies_true, and_true, iff_true, not_true_eq_false, false_implies]
          · simp only [ne_eq, h1, h2, h3, h4, h5, not_true_eq_false, if_false, if_true, bind,
              Except.bind, and_false, iff_false, not_false_eq_true]
            exact ⟨by simp, fun _ => ⟨_, rfl⟩⟩
        · have : [k, l] ≠ [e.nComponents, e.nComponents] := by simp [h4]
          simp only [h1, h2, h4, this, ne_eq, not_true_eq_false, not_false_eq_true, if_false, if_true,
            bind, Except.bind, false_and, and_false, iff_false]
          exact ⟨by simp, fun _ => ⟨_, rfl⟩⟩
      · have : [k, l] ≠ [e.nComponents, e.nComponents] := by simp [h3]
        simp only [h1, h2, h3, this, ne_eq, not_true_eq_false, not_false_eq_true, if_false, if_true,
          bind, Except.bind, false_and, and_false, iff_false]
        exact ⟨by simp, fun _ => ⟨_, rfl⟩⟩
    · simp only [h1, h2, ne_eq, not_true_eq_false, if_false, bind, Except.bind, false_and, and_false,
        iff_false]
      exact ⟨by simp, fun _ => ⟨_, rfl⟩⟩
  · simp only [h1, ne_eq, not_false_eq_true, if_true, false_and, iff_false]
    exact ⟨by simp, fun _ => ⟨_, rfl⟩⟩

/-- **C30** Valid distributions are always accepted. -/
theorem C30_valid (e : Est XF G P) (π : Fin e.nComponents → ℝ) (A : Fin e.nComponents → Fin e.nComponents → ℝ)
    (hs : e.startprob = some (vec π)) (ht : e.transmat = some (mat A)) (hπ : ∑ i, π i = 1)
    (hA : ∀ i, ∑ j, A i j = 1) : checkBase e = .ok () := by
  refine ((C30_check e π A hs ht).1).2 ⟨rfl, rfl, rfl, ?_, fun i => ?_⟩
  · simp [NearOne, hπ]; positivity
  · simp [NearOne, hA]; positivity

/-- **C30** For every class: what `_check` rejects, every inference method rejects with the same
error, whatever the data, and without side effects. -/
theorem C30_rejects [FloatLike α] (S : Sub α G P) (R : RandomLib α G) (w : World α G P) (err : PyErr)
    (hs : w.est.startprob.isSome) (hc : checkBase w.est = .error err) (c : Call α) :
    c.run S R w = (.error err, w) := by
  have h : S.checkFitted w.est = (.error err, w.est) := by
    rw [S.checkFitted_eq, S.check_eq, hc]
    cases h : w.est.startprob with
    | none => simp [h] at hs
    | some a => rfl
  cases c <;>
    simp only [Call.run, Sub.score, Sub.scoreSamples, Sub.scoreBody, Sub.predictProba, Sub.decode, Sub.decodeBody, Sub.predict,
      Sub.sample, Sub.sampleBody, Py.bind_apply, onEst, h]

/-- **C30** Before `startprob_` is set (neither assigned nor fitted), every inference method raises
`NotFittedError`. -/
theorem C30_not_fitted [FloatLike α] (S : Sub α G P) (R : RandomLib α G) (w : World α G P)
    (hs : w.est.startprob = none) (c : Call α) : c.run S R w = (.error .notFitted, w) := by
  have h : S.checkFitted w.est = (.error .notFitted, w.est) := by
    rw [S.checkFitted_eq, hs]; rfl
  cases c <;>
    simp only [Call.run, Sub.score, Sub.scoreSamples, Sub.scoreBody, Sub.predictProba, Sub.decode, Sub.decodeBody, Sub.predict,
      Sub.sample, Sub.sampleBody, Py.bind_apply, onEst, h]

/-- **C30** The emission check of `CategoricalHMM`, for a two-dimensional `emissionprob_`. -/
theorem C30_categorical {k l : ℕ} (e : Est XF G (CatAttrs XF)) (B : Fin k → Fin l → ℝ)
    (hb : checkBase e = .ok ()) (hs : e.startprob.isSome) (he : e.sub.emissionprob = some (mat B)) :
    ((catSub.checkFitted e).1 = .ok () ↔ k = e.nComponents ∧ l = e.nFeatures.getD l ∧
      ∀ i, NearOne (∑ j, B i j)) ∧
    ((catSub.checkFitted e).1 = .ok () → (catSub.checkFitted e).2 =
      { e with nFeatures := some l, sub := { e.sub with emissionprob := some (mat B) } }) ∧
    ((catSub.checkFitted e).1 ≠ .ok () → ∃ msg, (catSub.checkFitted e).1 = .error (.valueError msg)) := by
  have h0 : catSub.checkFitted e = catCheck e := by
    rw [Sub.checkFitted_eq, Sub.check_eq, hb]
    cases h : e.startprob with
    | none => simp [h] at hs
    | some a => rfl
  have ha : atleast2d (mat B) = mat B := rfl
  have hsh : (mat B).shape = [k, l] := rfl
  rw [h0]
  unfold catCheck
  simp only [he, ha, hsh, List.getElem?_cons_succ, List.getElem?_cons_zero, checkSum1_mat]
  by_cases h1 : k = e.nComponents
  · cases hn : e.nFeatures with
    | none =>
      by_cases h5 : ∀ i, NearOne (∑ j, B i j)
      · simp [h1, h5]
      · simp [h1, h5]
    | some nf =>
      by_cases h2 : l = nf
      · by_cases h5 : ∀ i, NearOne (∑ j, B i j)
        · simp [h1, h2, h5, hn]
        · simp [h1, h2, h5, hn]
      · simp [h1, h2, hn]
  · cases hn : e.nFeatures with
    | none => simp [h1]
    | some nf => simp [h1, hn]

/-- A `BaseHMM` with given `startprob_` and `transmat_`. -/
noncomputable def demoEst {P : Type} (nc : ℕ) (sp tm : Option (NdArray XF)) (p : P) : Est XF Unit P where
  nComponents := nc
  startprobPrior _ := 1
  transmatPrior _ _ := 1
  algorithm := "viterbi"
  randomState := .seed 0
  nIter := 10
  tol := 0
  params := ['s', 't', 'e']
  initParams := ['s', 't', 'e']
  implementation := "log"
  monitor := { tol := 0, nIter := 10 }
  startprob := sp
  transmat := tm
  sub := p

/-- Negative "probabilities" are accepted. -/
example : checkBase (demoEst 2 (some (vec ![2, -1])) (some (mat ![![3, -2], ![0, 1]])) ()) = .ok () :=
  ((C30_check (n := 2) (k := 2) (l := 2) (demoEst 2 (some (vec ![2, -1]))
    (some (mat ![![3, -2], ![0, 1]])) ()) ![2, -1] ![![3, -2], ![0, 1]] rfl rfl).1).2
    ⟨rfl, rfl, rfl, by norm_num [NearOne, Fin.sum_univ_two], fun i => by
      fin_cases i <;> norm_num [NearOne, Fin.sum_univ_two]⟩

/-- A vector whose sum is off by two parts in a hundred thousand is rejected. -/
example : checkBase (demoEst 2 (some (vec ![1/2, 1/2 + 2/10^5])) (some (mat ![![1, 0], ![0, 1]])) ()) ≠ .ok () :=
  fun h => by
    have := ((C30_check (n := 2) (k := 2) (l := 2) _ ![1/2, 1/2 + 2/10^5] ![![1, 0], ![0, 1]] rfl rfl).1).1 h
    have h2 := this.2.2.2.1
    norm_num [NearOne, Fin.sum_univ_two, abs_of_pos] at h2

/-- Only the first axis of `startprob_` is compared with `n_components`: a matrix whose rows are
distributions passes `_check`. -/
example : checkBase (demoEst 2 (some (mat ![![1, 0, 0], ![0, 1, 0]])) (some (mat ![![1, 0], ![0, 1]])) ()) = .ok () := by
  have h1 : checkSum1 (mat ![![(1:ℝ), 0, 0], ![0, 1, 0]]) = .ok () := by
    rw [checkSum1_mat, if_pos]
    intro i; fin_cases i <;> simp [NearOne, Fin.sum_univ_three] <;> norm_num
  have h2 : checkSum1 (mat ![![(1:ℝ), 0], ![0, 1]]) = .ok () := by
    rw [checkSum1_mat, if_pos]
    intro i; fin_cases i <;> norm_num [NearOne, Fin.sum_univ_two]
  have h3 : checkBase (demoEst 2 (some (mat ![![1, 0, 0], ![0, 1, 0]])) (some (mat ![![1, 0], ![0, 1]])) ()) =
      (checkSum1 (mat ![![(1:ℝ), 0, 0], ![0, 1, 0]])).bind fun _ => checkSum1 (mat ![![(1:ℝ), 0], ![0, 1]]) := by
    simp only [checkBase, demoEst, mat, NdArray.shape, ne_eq, not_true_eq_false, if_false, bind]
  rw [h3, h1]
  exact h2

end Verif
