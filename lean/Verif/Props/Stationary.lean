import Verif.Proofs.Stationary

/-!
# C52: `get_stationary_distribution`
-/

namespace Verif
open FloatLike Spec

section
variable {n : ℕ} [NeZero n] {A : Fin n → Fin n → ℝ}

/-- **C52.** With a solver that meets its specification, the result is the stationary distribution:
real, non-negative, of sum one, invariant, and the only such vector. -/
theorem C52_stationary {eig : Eig XF} (he : EigSpec eig) (h : StochasticRows A) (hs : SimpleOne A) :
    ∃ p : Fin n → ℝ, stationary eig (fun i j => XF.fin (A i j)) = (fun i => ⟨.fin (p i), .fin 0⟩) ∧
      Stationary A p ∧ ∀ q, Stationary A q → q = p := by
  obtain ⟨w, V, h1, h2, h3, h4⟩ := he n fun i j => A j i
  set k := Cx.argmax fun k => cxFin (w k) with hk
  -- the greatest eigenvalue is 1
  obtain ⟨u, hu0, hu⟩ := h.exists_invariant (NeZero.ne n)
  have hpair : EigenPair (fun i j => A j i) 1 fun i => (u i : ℂ) := by
    refine ⟨fun h => hu0 ?_, fun i => ?_⟩
    · funext i
      exact Complex.ofReal_eq_zero.1 (congrFun h i)
    · change ∑ j, (A j i : ℂ) * (u j : ℂ) = 1 * (u i : ℂ)
      rw [one_mul, ← hu i]
      push_cast
      exact Finset.sum_congr rfl fun j _ => mul_comm _ _
  obtain ⟨m, hm⟩ := h3 _ _ hpair
  have hge := cx_argmax w m
  rw [← hk, cx_ge, hm, Complex.one_re, Complex.one_im] at hge
  have hnorm := h.norm_le (h2 k)
  have hre : (w k).re ≤ 1 := (Complex.re_le_norm _).trans hnorm
  have hre1 : (w k).re = 1 := by rcases hge with h | h <;> linarith
  have him : (w k).im = 0 := by
    have h5 : ‖w k‖ ^ 2 = (w k).re ^ 2 + (w k).im ^ 2 := by rw [Complex.sq_norm, Complex.normSq_apply]; ring
    have h6 : ‖w k‖ ^ 2 ≤ 1 := by
      have := norm_nonneg (w k)
      nlinarith
    have h7 : (w k).im ^ 2 ≤ 0 := by rw [h5, hre1] at h6; linarith
    exact pow_eq_zero_iff two_ne_zero |>.1 (le_antisymm h7 (sq_nonneg _))
  have hw1 : w k = 1 := Complex.ext hre1 him
  -- its eigenvector is real
  have hVim := h4 k him
  set v : Fin n → ℝ := fun i => (V i k).re with hv
  have hV : ∀ i, V i k = (v i : ℂ) := fun i => Complex.ext rfl (hVim i)
  have hv0 : v ≠ 0 := by
    intro h0
    refine (h2 k).1 ?_
    funext i
    rw [hV, h0]
    rfl
  have hvA : ∀ j, ∑ i, v i * A i j = v j := by
    intro j
    have := (h2 k).2 j
    simp only [hV, hw1, one_mul] at this
    have h8 : ((∑ i, v i * A i j : ℝ) : ℂ) = (v j : ℂ) := by
      rw [← this]
      push_cast
      exact Finset.sum_congr rfl fun i _ => mul_comm _ _
    exact_mod_cast h8
  obtain ⟨hsum, hst⟩ := h.normalise hs hvA hv0
  refine ⟨fun i => v i / ∑ i, v i, ?_, hst, ?_⟩
  · have hst : stationary eig (fun i j => XF.fin (A i j)) = Cx.normalise fun i => cxFin (V i k) := by
      unfold stationary
      rw [h1]
    rw [hst]
    unfold Cx.normalise
    rw [if_pos]
    · funext i
      have : (cxFin (V i k)).re = .fin (v i) := rfl
      have hsf : (sumF fun i => (cxFin (V i k)).re) = .fin (∑ i, v i) := sumF_fin v
      rw [hsf, this, XF.fin_div _ _ hsum]
      rfl
    · rw [List.all_eq_true]
      intro i _
      have : (cxFin (V i k)).im = .fin 0 := congrArg XF.fin (hVim i)
      rw [this]
      simp [Cx.closeTol, XF.fin_lt]
  · intro q hq
    obtain ⟨c, hc⟩ := hs v q hvA hq.invariant hv0
    have h9 : c * ∑ i, v i = 1 := by
      rw [Finset.mul_sum, ← hq.sum_one]
      exact Finset.sum_congr rfl fun i _ => (hc i).symm
    funext i
    rw [hc i, eq_div_iff hsum]
    linear_combination v i * h9

/-- A state that can be reached in one step from every state makes the eigenvalue simple. -/
theorem SimpleOne_of_column (h : StochasticRows A) (k : Fin n) (hk : ∀ i, 0 < A i k) : SimpleOne A := by
  -- an invariant vector of sum zero vanishes
  have key : ∀ u : Fin n → ℝ, (∀ j, ∑ i, u i * A i j = u j) → ∑ i, u i = 0 → u = 0 := by
    intro u hu h0
    have ha := h.abs hu
    have hp : ∑ i, (|u i| + u i) * A i k = |u k| + u k := by
      simp only [add_mul, Finset.sum_add_distrib, ha, hu]
    have hm : ∑ i, (|u i| - u i) * A i k = |u k| - u k := by
      simp only [sub_mul, Finset.sum_sub_distrib, ha, hu]
    have hn1 : ∀ i, 0 ≤ |u i| + u i := fun i => by linarith [neg_abs_le (u i)]
    have hn2 : ∀ i, 0 ≤ |u i| - u i := fun i => by linarith [le_abs_self (u i)]
    have hz : (∀ i, |u i| + u i = 0) ∨ ∀ i, |u i| - u i = 0 := by
      rcases le_total 0 (u k) with hk' | hk'
      · right
        rw [abs_of_nonneg hk', sub_self] at hm
        intro i
        have := (Finset.sum_eq_zero_iff_of_nonneg fun i _ => mul_nonneg (hn2 i) (hk i).le).1 hm i (Finset.mem_univ i)
        exact (mul_eq_zero.1 this).resolve_right (hk i).ne'
      · left
        rw [abs_of_nonpos hk', neg_add_cancel] at hp
        intro i
        have := (Finset.sum_eq_zero_iff_of_nonneg fun i _ => mul_nonneg (hn1 i) (hk i).le).1 hp i (Finset.mem_univ i)
        exact (mul_eq_zero.1 this).resolve_right (hk i).ne'
    have hs : ∑ i, |u i| = 0 := by
      rcases hz with hz | hz
      · have : ∑ i, (|u i| + u i) = 0 := Finset.sum_eq_zero fun i _ => hz i
        rw [Finset.sum_add_distrib, h0, add_zero] at this
        exact this
      · have : ∑ i, (|u i| - u i) = 0 := Finset.sum_eq_zero fun i _ => hz i
        rw [Finset.sum_sub_distrib, h0, sub_zero] at this
        exact this
    funext i
    exact abs_eq_zero.1 ((Finset.sum_eq_zero_iff_of_nonneg fun i _ => abs_nonneg _).1 hs i (Finset.mem_univ i))
  intro v w hv hw hv0
  have hsv : ∑ i, v i ≠ 0 := fun h0 => hv0 (key v hv h0)
  have h1 := key (fun i => (∑ i, v i) * w i - (∑ i, w i) * v i) (fun j => by
      have e : ∀ i, ((∑ i, v i) * w i - (∑ i, w i) * v i) * A i j =
          (∑ i, v i) * (w i * A i j) - (∑ i, w i) * (v i * A i j) := fun i => by ring
      simp only [e, Finset.sum_sub_distrib, ← Finset.mul_sum, hv, hw]) (by
      rw [Finset.sum_sub_distrib, ← Finset.mul_sum, ← Finset.mul_sum]; ring)
  refine ⟨(∑ i, w i) / ∑ i, v i, fun i => ?_⟩
  have h2 : (∑ i, v i) * w i - (∑ i, w i) * v i = 0 := congrFun h1 i
  field_simp
  linarith

end

section
variable {α G P : Type} [FloatLike α]

/-- **C52, the method.** Without `transmat_` it raises NotFittedError; otherwise, on a matrix of
real numbers, it is `stationary`. -/
theorem C52_method (eig : Eig XF) (e : Est XF G P) :
    (e.transmat = none → getStationary eig e = .error .notFitted) ∧
    ∀ (n : ℕ) [NeZero n] (A : Fin n → Fin n → ℝ), e.transmat = some (.d2 fun i j => .fin (A i j)) →
      getStationary eig e = .ok (List.ofFn (stationary eig fun i j => XF.fin (A i j))) := by
  constructor
  · intro h
    unfold getStationary
    rw [h]
  · intro n _ A h
    unfold getStationary
    rw [h]
    simp only [dif_pos, dif_neg (NeZero.ne n)]
    rw [if_pos]
    simp [isFinite, FloatLike.isInf, FloatLike.isNaN, XF.isInf, XF.isNaN]

end

/-! ## A solver that meets the specification exists -/

theorem exists_pairs {n : ℕ} (M : Fin n → Fin n → ℝ) : ∃ (w : Fin n → ℂ) (V : Fin n → Fin n → ℂ),
    (∀ k, EigenPair M (w k) fun i => V i k) ∧ (∀ μ v, EigenPair M μ v → ∃ k, w k = μ) ∧
      ∀ k, (w k).im = 0 → ∀ i, (V i k).im = 0 := by
  let MC : Matrix (Fin n) (Fin n) ℂ := Matrix.of fun i j => (M i j : ℂ)
  have hroot : ∀ μ : ℂ, μ ∈ MC.charpoly.roots ↔ ∃ v, EigenPair M μ v := by
    intro μ
    rw [Polynomial.mem_roots (Matrix.charpoly_monic MC).ne_zero, Polynomial.IsRoot, Matrix.eval_charpoly,
      ← Matrix.exists_mulVec_eq_zero_iff]
    refine exists_congr fun v => and_congr_right fun _ => ?_
    rw [Matrix.sub_mulVec, sub_eq_zero, funext_iff]
    refine forall_congr' fun i => ?_
    have h1 : (Matrix.scalar (Fin n) μ).mulVec v i = μ * v i := by
      simp [Matrix.scalar_apply, Matrix.mulVec_diagonal]
    rw [h1, eq_comm]
    rfl
  have hlen : MC.charpoly.roots.toList.length = n := by
    rw [Multiset.length_toList, IsAlgClosed.card_roots_eq_natDegree, Matrix.charpoly_natDegree_eq_dim, Fintype.card_fin]
  let w : Fin n → ℂ := fun k => MC.charpoly.roots.toList.get (Fin.cast hlen.symm k)
  have hw : ∀ k, w k ∈ MC.charpoly.roots := fun k => Multiset.mem_toList.1 (List.get_mem _ _)
  -- real eigenvectors for real eigenvalues
  have hv : ∀ k, ∃ v, EigenPair M (w k) v ∧ ((w k).im = 0 → ∀ i, (v i).im = 0) := by
    intro k
    obtain ⟨v, h0, hv⟩ := (hroot (w k)).1 (hw k)
    by_cases him : (w k).im = 0
    · have hre : ∀ i, ∑ j, M i j * (v j).re = (w k).re * (v i).re := by
        intro i
        have := congrArg Complex.re (hv i)
        simpa [Complex.re_sum, him] using this
      have hi : ∀ i, ∑ j, M i j * (v j).im = (w k).re * (v i).im := by
        intro i
        have := congrArg Complex.im (hv i)
        simpa [Complex.im_sum, him] using this
      have hwk : w k = ((w k).re : ℂ) := Complex.ext rfl him
      by_cases hz : (fun i => ((v i).re : ℂ)) = 0
      · refine ⟨fun i => ((v i).im : ℂ), ⟨fun h1 => h0 ?_, fun i => ?_⟩, fun _ i => Complex.ofReal_im _⟩
        · funext i
          exact Complex.ext (Complex.ofReal_eq_zero.1 (congrFun hz i)) (Complex.ofReal_eq_zero.1 (congrFun h1 i))
        · rw [hwk]
          dsimp only
          exact_mod_cast hi i
      · refine ⟨fun i => ((v i).re : ℂ), ⟨hz, fun i => ?_⟩, fun _ i => Complex.ofReal_im _⟩
        rw [hwk]
        dsimp only
        exact_mod_cast hre i
    · exact ⟨v, ⟨h0, hv⟩, fun h => absurd h him⟩
  choose V hV using hv
  refine ⟨w, fun i k => V k i, fun k => (hV k).1, fun μ v h => ?_, fun k => (hV k).2⟩
  have h1 := Multiset.mem_toList.2 ((hroot μ).2 ⟨v, h⟩)
  obtain ⟨k, hk⟩ := List.get_of_mem h1
  exact ⟨Fin.cast hlen k, hk⟩

/-- A solver may return any eigenpairs it likes for one given matrix. -/
theorem exists_eig_with (m : ℕ) (M₀ : Fin m → Fin m → ℝ) (w₀ : Fin m → ℂ) (V₀ : Fin m → Fin m → ℂ)
    (h1 : ∀ k, EigenPair M₀ (w₀ k) fun i => V₀ i k) (h2 : ∀ μ v, EigenPair M₀ μ v → ∃ k, w₀ k = μ)
    (h3 : ∀ k, (w₀ k).im = 0 → ∀ i, (V₀ i k).im = 0) :
    ∃ eig : Eig XF, EigSpec eig ∧
      eig m (fun i j => .fin (M₀ i j)) = (fun k => cxFin (w₀ k), fun i k => cxFin (V₀ i k)) := by
  classical
  have hex : ∀ (n : ℕ) (a : Fin n → Fin n → XF), ∃ r : (Fin n → Cx XF) × (Fin n → Fin n → Cx XF),
      (∀ M : Fin n → Fin n → ℝ, a = (fun i j => .fin (M i j)) → ∃ (w : Fin n → ℂ) (V : Fin n → Fin n → ℂ),
        r = (fun k => cxFin (w k), fun i k => cxFin (V i k)) ∧ (∀ k, EigenPair M (w k) fun i => V i k) ∧
        (∀ μ v, EigenPair M μ v → ∃ k, w k = μ) ∧ ∀ k, (w k).im = 0 → ∀ i, (V i k).im = 0) ∧
      ∀ h : n = m, a = (fun i j => .fin (M₀ (h ▸ i) (h ▸ j))) →
        r = (fun k => cxFin (w₀ (h ▸ k)), fun i k => cxFin (V₀ (h ▸ i) (h ▸ k))) := by
    intro n a
    have hinj : ∀ M M' : Fin n → Fin n → ℝ, (fun i j => XF.fin (M i j)) = (fun i j => XF.fin (M' i j)) → M = M' := by
      intro M M' h
      funext i j
      exact XF.fin.inj (congrFun (congrFun h i) j)
    by_cases hn : n = m
    · subst hn
      by_cases ha : a = fun i j => .fin (M₀ i j)
      · refine ⟨(fun k => cxFin (w₀ k), fun i k => cxFin (V₀ i k)), fun M hM => ?_, fun _ _ => rfl⟩
        have : M = M₀ := hinj _ _ (hM.symm.trans ha)
        subst this
        exact ⟨w₀, V₀, rfl, h1, h2, h3⟩
      · by_cases hM : ∃ M : Fin n → Fin n → ℝ, a = fun i j => .fin (M i j)
        · obtain ⟨M, hM⟩ := hM
          obtain ⟨w, V, h⟩ := exists_pairs M
          refine ⟨(fun k => cxFin (w k), fun i k => cxFin (V i k)), fun M' hM' => ?_, fun _ h => absurd h ha⟩
          have : M' = M := hinj _ _ (hM'.symm.trans hM)
          subst this
          exact ⟨w, V, rfl, h⟩
        · exact ⟨(fun _ => cxFin 0, fun _ _ => cxFin 0), fun M h => absurd ⟨M, h⟩ hM, fun _ h => absurd h ha⟩
    · by_cases hM : ∃ M : Fin n → Fin n → ℝ, a = fun i j => .fin (M i j)
      · obtain ⟨M, hM⟩ := hM
        obtain ⟨w, V, h⟩ := exists_pairs M
        refine ⟨(fun k => cxFin (w k), fun i k => cxFin (V i k)), fun M' hM' => ?_, fun h => absurd h hn⟩
        have : M' = M := hinj _ _ (hM'.symm.trans hM)
        subst this
        exact ⟨w, V, rfl, h⟩
      · exact ⟨(fun _ => cxFin 0, fun _ _ => cxFin 0), fun M h => absurd ⟨M, h⟩ hM, fun h => absurd h hn⟩
  choose eig he using hex
  exact ⟨eig, fun n M => (he n _).1 M rfl, (he m _).2 rfl rfl⟩

theorem exists_eig : ∃ eig : Eig XF, EigSpec eig := by
  obtain ⟨w, V, h1, h2, h3⟩ := exists_pairs (n := 0) fun i => i.elim0
  obtain ⟨eig, h, -⟩ := exists_eig_with 0 (fun i => i.elim0) w V h1 h2 h3
  exact ⟨eig, h⟩

/-- Without the hypothesis that the eigenvalue is simple the result can be meaningless: for the
identity matrix a solver may return the eigenvector `(1, -1)` first, whose sum is zero. -/
theorem C52_identity_bad : ∃ eig : Eig XF, EigSpec eig ∧
    stationary eig (fun i j : Fin 2 => XF.fin (if i = j then 1 else 0)) 0 = ⟨.pinf, .fin 0⟩ := by
  have hI : ∀ μ v, EigenPair (n := 2) (fun i j => if i = j then 1 else 0) μ v → μ = 1 := by
    rintro μ v ⟨h0, hv⟩
    obtain ⟨k, hk⟩ := Function.ne_iff.1 h0
    have := hv k
    have e : ∑ j, ((if k = j then (1 : ℝ) else 0 : ℝ) : ℂ) * v j = v k := by
      rw [Finset.sum_eq_single k]
      · simp
      · intro b _ hb
        simp [Ne.symm hb]
      · simp
    rw [e] at this
    exact (mul_right_cancel₀ hk ((one_mul _).trans this)).symm
  obtain ⟨eig, he, h⟩ := exists_eig_with 2 (fun i j => if i = j then 1 else 0) (fun _ => 1)
    (fun i _ => ![1, -1] i) (fun k => ⟨fun h => by simpa using congrFun h 0, fun i => by fin_cases i <;> simp⟩)
    (fun μ v hv => ⟨0, (hI μ v hv).symm⟩) (fun k _ i => by fin_cases i <;> simp)
  refine ⟨eig, he, ?_⟩
  have hsym : (fun i j : Fin 2 => XF.fin (if j = i then (1 : ℝ) else 0)) =
      fun i j => XF.fin (if i = j then (1 : ℝ) else 0) := by
    funext i j
    simp only [eq_comm]
  unfold stationary
  rw [hsym, h]
  dsimp only
  unfold Cx.normalise
  rw [if_pos]
  · have hs : (sumF fun i : Fin 2 => (cxFin (![1, -1] i)).re) = .fin 0 := by
      have : (fun i : Fin 2 => (cxFin (![1, -1] i)).re) = fun i => XF.fin ((![1, -1] : Fin 2 → ℝ) i) := by
        funext i
        fin_cases i <;> simp [cxFin]
      rw [this, sumF_fin]
      simp [Fin.sum_univ_two]
    rw [hs]
    simp [cxFin, XF.fin_div_eq, XF.infMul]
  · rw [List.all_eq_true]
    intro i _
    have : (cxFin (![1, -1] i)).im = .fin 0 := by fin_cases i <;> simp [cxFin]
    rw [this]
    simp [Cx.closeTol, XF.fin_lt]

/-- Example: the two-state chain with rows `[9/10, 1/10]` and `[1/2, 1/2]`. -/
example : ∃ eig : Eig XF, EigSpec eig ∧
    stationary eig (fun i j : Fin 2 => XF.fin (![![9/10, 1/10], ![1/2, 1/2]] i j)) =
      fun i => ⟨.fin (![5/6, 1/6] i), .fin 0⟩ := by
  obtain ⟨eig, he⟩ := exists_eig
  have hA : StochasticRows ![![(9/10 : ℝ), 1/10], ![1/2, 1/2]] :=
    ⟨fun i j => by fin_cases i <;> fin_cases j <;> norm_num,
      fun i => by fin_cases i <;> norm_num [Fin.sum_univ_two]⟩
  obtain ⟨p, h1, -, h3⟩ := C52_stationary he hA (SimpleOne_of_column hA 0 fun i => by fin_cases i <;> norm_num)
  refine ⟨eig, he, ?_⟩
  rw [h1, ← h3 ![5/6, 1/6] ⟨fun i => by fin_cases i <;> norm_num, by norm_num [Fin.sum_univ_two],
    fun j => by fin_cases j <;> norm_num [Fin.sum_univ_two]⟩]

end Verif
