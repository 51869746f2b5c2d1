import Verif.Spec.FloatCounts
import Verif.Props.IntData
import Verif.Props.NegativeCounts
import Verif.Props.OneColumn
/-
C102: counts given in floating point.
-/
set_option autoImplicit false

namespace Verif
open FloatLike XF Spec

variable {G P : Type} {R : RandomLib XF G} {nf : ℕ}

theorem toInt?_int (k : ℤ) : toInt? (ofInt' k : XF) = some k := by
  rw [ofInt'_def]
  show (if (⌊(k : ℝ)⌋ : ℝ) = k then some ⌊(k : ℝ)⌋ else none) = some k
  rw [Int.floor_intCast, if_pos rfl]

theorem countOf_int (k : ℤ) : countOf (ofInt' k : XF) = k := by
  unfold countOf
  rw [toInt?_int]
  rfl

/-- A float counts as an integer of the same weight. -/
theorem countOf_weight (l x : ℝ) : poissonWeight l (countOf (fin x)) = poissonWeightR l x := by
  have h : countOf (fin x) = (if (⌊x⌋ : ℝ) = x then some ⌊x⌋ else none).getD (-1) := rfl
  unfold poissonWeight poissonWeightR
  by_cases hx : (⌊x⌋ : ℝ) = x
  · rw [h, if_pos hx]
    by_cases h0 : 0 ≤ ⌊x⌋
    · have : ∃ k : ℕ, x = k := by
        refine ⟨⌊x⌋.toNat, ?_⟩
        conv_lhs => rw [← hx]
        rw [← Int.cast_natCast, Int.toNat_of_nonneg h0]
      rw [if_pos this]
      exact if_pos h0
    · have : ¬ ∃ k : ℕ, x = k := by
        rintro ⟨k, rfl⟩
        exact h0 (by rw [Int.floor_natCast]; exact Int.natCast_nonneg k)
      rw [if_neg this]
      exact if_neg h0
  · have : ¬ ∃ k : ℕ, x = k := by
      rintro ⟨k, rfl⟩
      exact hx (by rw [Int.floor_natCast]; norm_cast)
    rw [h, if_neg hx, if_neg this]
    rfl

theorem poisRows_floats {d : ℕ} (l : List (Fin d → ℤ)) (nf : ℕ) :
    poisRows nf (.ints (α := XF) l) = poisRows nf (.floats (toFloats l)) := by
  show poisRowsOf nf l = poisRowsOf nf ((toFloats l).map fun r j => countOf (r j))
  unfold toFloats
  rw [List.map_map]
  congr 1
  refine ((List.map_congr_left fun r _ => ?_).trans (List.map_id l)).symm
  funext j
  exact countOf_int _

theorem countRows_floats {d : ℕ} (l : List (Fin d → ℤ)) (nf : ℕ) :
    countRows nf (.ints (α := XF) l) = countRows nf (.floats (toFloats l)) := by
  have h1 : (toFloats l).all (fun r => (List.finRange d).all fun j => (toInt? (r j)).isSome) = true := by
    simp only [toFloats, List.all_map, List.all_eq_true, Function.comp]
    intro r _ j _
    rw [toInt?_int]
    rfl
  unfold countRows
  dsimp only
  rw [if_pos h1]
  unfold toFloats
  rw [List.map_map]
  congr 1
  refine ((List.map_congr_left fun r _ => ?_).trans (List.map_id l)).symm
  funext j
  show (toInt? (ofInt' (r j) : XF)).getD 0 = r j
  rw [toInt?_int]
  rfl

theorem flat_floats {d : ℕ} (l : List (Fin d → ℤ)) : (XArr.floats (toFloats l)).flat = (XArr.ints (α := XF) l).flat := by
  show ((toFloats l).map fun r => (List.finRange d).map r).flatten = (l.map fun r => (List.finRange d).map fun j => ofInt' (r j)).flatten
  unfold toFloats
  rw [List.map_map]
  rfl

theorem poisInit_floats {d : ℕ} (l : List (Fin d → ℤ)) : poisInit R (.ints l) = poisInit R (.floats (toFloats l)) := by
  unfold poisInit
  simp only [flat_floats]

theorem infers_of {S : Sub XF G P}
    (h : ∀ {d : ℕ} (l : List (Fin d → ℤ)) (nf : ℕ), S.rows nf (.ints l) = S.rows nf (.floats (toFloats l))) :
    InfersFromFloats S := by
  have hs : ∀ (nf : ℕ) (l : List (Fin nf → ℤ)) (ls b),
      S.scoreSamples (realsX (asReals l)) ls b = S.scoreSamples (intsX l) ls b := by
    intro nf l ls b
    unfold Sub.scoreSamples
    rw [scoreBody_ints h]
  have hd : ∀ (nf : ℕ) (l : List (Fin nf → ℤ)) (ls alg),
      S.decode (realsX (asReals l)) ls alg = S.decode (intsX l) ls alg := by
    intro nf l ls alg
    unfold Sub.decode
    rw [decodeBody_ints h]
  refine ⟨hs, ?_, ?_, hd, ?_⟩
  · intro nf l ls; unfold Sub.score; rw [hs]
  · intro nf l ls; unfold Sub.predictProba; rw [hs]
  · intro nf l ls; unfold Sub.predict; rw [hd]

/-- **C102** `PoissonHMM`. -/
theorem C102_poisson : TrainsFromFloats (poisSub (G := G)) R := by
  have h : (poisSub (α := XF) (G := G)).ReadsAsFloats R := ⟨features_ints, poisInit_floats, poisRows_floats⟩
  refine ⟨infers_of poisRows_floats, ?_⟩
  intro nf l ls
  unfold Sub.fit
  rcases checkArray_ints_reals l with ⟨e, h1, h2⟩ | ⟨h1, h2⟩
  · rw [h1, h2]
  · rw [h1, h2]
    show (poisSub.init R (.floats (toFloats l)) >>= fun _ => onEst poisSub.check >>= fun _ =>
        onEst (poisSub.loop (.floats (toFloats l)) ls)) =
      (poisSub.init R (.ints l) >>= fun _ => onEst poisSub.check >>= fun _ => onEst (poisSub.loop (.ints l) ls))
    rw [loop_ints_reals h]
    unfold Sub.init Sub.initBase
    rw [h.init, h.features]

/-- **C102** `MultinomialHMM` infers from floats that are integers, but does not train on them. -/
theorem C102_multinomial : InfersFromFloats (multiSub (G := G)) ∧ RefusesFloats (multiSub (G := G)) R := by
  refine ⟨infers_of countRows_floats, ?_⟩
  intro nf l ls w
  unfold Sub.fit
  by_cases h : l.length = 0 ∨ nf = 0
  · rw [arrives_reals.empty _ _ h]
    exact ⟨_, _, rfl, w.est.nFeatures, rfl⟩
  · rw [arrives_reals.array _ _ h]
    have hc : ∃ msg w', onEst (multiSub.checkFeatures (.floats (l.map Gaussian.row))) w = (.error (.valueError msg), w') ∧
        ∃ f, w' = { w with est := { w.est with nFeatures := f } } := by
      show ∃ msg w', onEst (checkFeaturesBase (.floats (l.map Gaussian.row)) >>= fun _ =>
        multiCheckCounts (.floats (l.map Gaussian.row))) w = (.error (.valueError msg), w') ∧ _
      unfold onEst
      rw [Py.bind_apply]
      unfold checkFeaturesBase
      cases hn : w.est.nFeatures with
      | none => exact ⟨_, _, rfl, _, rfl⟩
      | some n =>
        dsimp only
        by_cases hne : n ≠ (XArr.floats (l.map Gaussian.row)).d
        · rw [if_pos hne]
          exact ⟨_, _, rfl, w.est.nFeatures, rfl⟩
        · rw [if_neg hne]
          exact ⟨_, _, rfl, w.est.nFeatures, rfl⟩
    obtain ⟨msg, w', hc, hw⟩ := hc
    have hb : multiSub.initBase R (.floats (l.map Gaussian.row)) w = (.error (.valueError msg), w') := Py.bind_error hc
    have hi : multiSub.init R (.floats (l.map Gaussian.row)) w = (.error (.valueError msg), w') := Py.bind_error hb
    exact ⟨msg, w', (Py.bind_ok (x := Py.lift (.ok (XArr.floats (l.map Gaussian.row)))) (s' := w) rfl).trans (Py.bind_error hi), hw⟩

/-! ## Numbers that are no counts -/

/-- A row of numbers as counts. -/
noncomputable def counted (x : Fin nf → ℝ) : Fin nf → ℤ := fun k => countOf (fin (x k))

theorem poisson_reals_data {nf : ℕ} (hf : nf ≠ 0) (l : List (Fin nf → ℝ)) (hl : l ≠ []) : ∃ X', checkArray (realsX l) = .ok X' ∧
    poisRows (α := XF) nf X' = .ok (l.map counted) := by
  refine ⟨_, arrives_reals.array _ l (by simp [hl, hf]), ?_⟩
  show poisRowsOf nf ((l.map Gaussian.row).map fun r j => countOf (r j)) = _
  refine (dif_pos rfl).trans (congrArg Except.ok ?_)
  rw [List.map_map, List.map_map]
  rfl

/-- **C102** The methods of `PoissonHMM` answer, on any finite numbers, for the model in which a number that is no
count has probability zero. -/
theorem C102_poisson_reals {nf : ℕ} (hf : nf ≠ 0) (e : Est XF G (PoisAttrs XF)) (π : Fin e.nComponents → ℝ)
    (A : Fin e.nComponents → Fin e.nComponents → ℝ) (l : Fin e.nComponents → Fin nf → ℝ) (h : HoldsPois e π A l) :
    Answers poisSub e realsX π A (poissonR l) := by
  haveI : NeZero e.nComponents := ⟨nc_pos h.chain.π_sum⟩
  have hc : poisSub.checkSub e = (.ok (), { e with nFeatures := some nf, sub := { e.sub with lambdas := some (mat l) } }) := by
    have hn : e.nFeatures.getD nf = nf := by
      cases hn : e.nFeatures with
      | none => rfl
      | some n => exact h.features n hn
    have hsh : (mat l).shape = [e.nComponents, nf] := rfl
    have ha : atleast2d (mat l) = mat l := rfl
    simp [poisSub, poisCheck, h.lambdas, ha, hsh, hn]
  refine answers_of h.chain (S := poisSub) hc (asMat_mat l) (counted (nf := nf)) (fun impl => ?_)
    (poisson_reals_data hf)
  exact {
    startprob_eq := rfl, transmat_eq := rfl, π_nonneg := h.chain.π_nonneg, A_nonneg := h.chain.A_nonneg
    b_nonneg := fun x i => Finset.prod_nonneg fun k _ => by
      rw [← countOf_weight]
      exact Poisson.poissonWeight_nonneg (h.nonneg i k) _
    lik_eq := fun X => by
      show Except.ok (Poisson.computeLikelihood _ _) = _
      simp only [Poisson.computeLikelihood, List.map_map, memo_eq]
      refine congrArg Except.ok ((List.map_map (f := counted (nf := nf))).trans (List.map_congr_left fun x _ => ?_))
      funext i
      simp only [Function.comp, counted, Poisson.pmf_int _ (h.nonneg i _), prodF_fin, countOf_weight]
      rfl
    loglik_eq := fun X => by
      show Except.ok (Poisson.computeLogLikelihood _ _) = _
      simp only [Poisson.computeLogLikelihood, List.map_map, memo_eq]
      refine congrArg Except.ok ((List.map_map (f := counted (nf := nf))).trans (List.map_congr_left fun x _ => ?_))
      funext i
      simp only [Function.comp, counted, Poisson.logpmf_int _ (h.nonneg i _)]
      rw [sumF_lg _ fun k => Poisson.poissonWeight_nonneg (h.nonneg i k) _]
      simp only [countOf_weight]
      rfl }

/-- **C102** One number that is no count makes `score` minus infinity (`implementation="log"`) or raises
(`implementation="scaling"`). -/
theorem C102_poisson_impossible {nf : ℕ} (hf : nf ≠ 0) (e : Est XF G (PoisAttrs XF)) (π : Fin e.nComponents → ℝ)
    (A : Fin e.nComponents → Fin e.nComponents → ℝ) (l : Fin e.nComponents → Fin nf → ℝ) (h : HoldsPois e π A l)
    (ss : List (ObsSeq (Fin nf → ℝ))) (ls : Option (List Int)) (hl : LengthsFor ss ls) {s : ObsSeq (Fin nf → ℝ)}
    (hs : s ∈ ss) (t : Fin (s.n + 1)) (k : Fin nf) (hk : ∀ m : ℕ, s.x t k ≠ m) :
    (e.implementation = "log" → (poisSub.score (realsX (samples ss)) ls e).1 = .ok ninf) ∧
    (e.implementation = "scaling" → (poisSub.score (realsX (samples ss)) ls e).1 = .error .underflow) := by
  have hne : ss ≠ [] := List.ne_nil_of_mem hs
  have hz : ∀ i, poissonR l (s.x t) i = 0 := fun i =>
    Finset.prod_eq_zero (Finset.mem_univ k) (by unfold poissonWeightR; rw [if_neg (fun ⟨m, hm⟩ => hk m hm)])
  have h0 : dataLikelihood π A (poissonR l) ss = 0 := by
    unfold dataLikelihood
    exact List.prod_eq_zero (List.mem_map.2 ⟨s, hs, likelihood_impossible t fun i => hz i⟩)
  refine ⟨fun hi => ?_, fun hi => ?_⟩
  · have := (C102_poisson_reals hf e π A l h).score hi ss ls hne hl
    rw [h0] at this
    simpa [xlog] using this
  · have := (C102_poisson_reals hf e π A l h).score_scaling hi ss ls hne hl
    rw [if_neg] at this
    · exact this
    · exact fun hu => underflow_impossible t (fun i => hz i) (hu s hs)

end Verif
