import Verif.Props.SmallStep
import Verif.Props.Variational
import Mathlib.Topology.Algebra.GroupWithZero

/-!
# C92: training approaches the solutions of the likelihood equations
-/
set_option autoImplicit false

namespace Verif
open FloatLike XF Hmmc Spec
open scoped Classical

variable {nc nf : ℕ} [NeZero nc]

/-- Counts against a distribution: the residual is bounded by the length of the step. -/
theorem residual_le {ι : Type*} [Fintype ι] {c p q : ι → ℝ} {N M S : ℝ} (hc : ∀ i, 0 ≤ c i) (hp : ∀ i, 0 ≤ p i)
    (hp1 : ∑ i, p i ≤ 1) (hN : ∑ i, c i = N) (hq : q = fun i => c i / ∑ j, c j) (hM : N ≤ M) (hS0 : 0 ≤ S)
    (hS : N * hellinger q p ≤ S) (i : ι) : |c i - N * p i| ≤ 2 * √(M * S) := by
  have hN0 : 0 ≤ N := hN ▸ Finset.sum_nonneg fun i _ => hc i
  have hMS : 0 ≤ M * S := mul_nonneg (hN0.trans hM) hS0
  rcases hN0.eq_or_lt with h0 | hpos
  · have : c i = 0 := by
      rw [← h0] at hN
      exact (Finset.sum_eq_zero_iff_of_nonneg fun i _ => hc i).1 hN i (Finset.mem_univ i)
    rw [this, ← h0]
    simp
  · subst hq
    rw [hN] at hS
    have hci : c i = N * (c i / N) := by field_simp
    have hq0 : 0 ≤ c i / N := div_nonneg (hc i) hN0
    have hq1 : c i / N ≤ 1 := by
      rw [div_le_one hpos, ← hN]
      exact Finset.single_le_sum (fun j _ => hc j) (Finset.mem_univ i)
    have hpi : p i ≤ 1 := (Finset.single_le_sum (fun j _ => hp j) (Finset.mem_univ i)).trans hp1
    have h1 : (√(c i / N) - √(p i)) ^ 2 ≤ hellinger (fun i => c i / N) p :=
      Finset.single_le_sum (f := fun i => (√(c i / N) - √(p i)) ^ 2) (fun j _ => sq_nonneg _) (Finset.mem_univ i)
    have a0 := Real.sqrt_nonneg (c i / N)
    have b0 := Real.sqrt_nonneg (p i)
    have a1 : √(c i / N) ≤ 1 := Real.sqrt_le_one.2 hq1
    have b1 : √(p i) ≤ 1 := Real.sqrt_le_one.2 hpi
    have h2 : c i - N * p i = N * ((√(c i / N) - √(p i)) * (√(c i / N) + √(p i))) := by
      have e1 := Real.sq_sqrt hq0
      have e2 := Real.sq_sqrt (hp i)
      have : (√(c i / N) - √(p i)) * (√(c i / N) + √(p i)) = c i / N - p i := by
        linear_combination e1 - e2
      rw [this]
      field_simp
    have h3 : (c i - N * p i) ^ 2 ≤ (2 * √(M * S)) ^ 2 := by
      rw [h2, mul_pow, mul_pow, mul_pow, Real.sq_sqrt hMS]
      have h4 : (√(c i / N) + √(p i)) ^ 2 ≤ 4 := by nlinarith
      have h5 : (√(c i / N) - √(p i)) ^ 2 * (√(c i / N) + √(p i)) ^ 2 ≤ hellinger (fun i => c i / N) p * 4 :=
        mul_le_mul h1 h4 (sq_nonneg _) (hellinger_nonneg _ _)
      calc N ^ 2 * ((√(c i / N) - √(p i)) ^ 2 * (√(c i / N) + √(p i)) ^ 2)
          ≤ N ^ 2 * (hellinger (fun i => c i / N) p * 4) := mul_le_mul_of_nonneg_left h5 (sq_nonneg _)
        _ = 4 * (N * (N * hellinger (fun i => c i / N) p)) := by ring
        _ ≤ 4 * (N * S) := by
            have := mul_le_mul_of_nonneg_left hS hN0
            linarith
        _ ≤ 2 ^ 2 * (M * S) := by
            have := mul_le_mul_of_nonneg_right hM hS0
            linarith
    exact abs_le_of_sq_le_sq h3 (by positivity)

section
variable (params : List Char) {ss : List (ObsSeq (Fin nf))}

omit [NeZero nc] in
theorem length_le_numSamples {D : Type} (ss : List (ObsSeq D)) : (ss.length : ℝ) ≤ numSamples ss := by
  unfold numSamples
  induction ss with
  | nil => simp
  | cons s ss ih =>
    simp only [List.length_cons, List.map_cons, List.sum_cons, Nat.cast_add, Nat.cast_one] at ih ⊢
    have : (0 : ℝ) ≤ s.n := Nat.cast_nonneg _
    linarith

theorem numTransitions_le_numSamples {D : Type} (ss : List (ObsSeq D)) :
    (numTransitions ss : ℝ) ≤ numSamples ss := by
  unfold numSamples numTransitions
  induction ss with
  | nil => simp
  | cons s ss ih =>
    simp only [List.map_cons, List.sum_cons, Nat.cast_add, Nat.cast_one] at ih ⊢
    linarith

theorem visitCount_le {θ : CatParams nc nf} (h : CatInv (fun _ _ => 1) ss θ) (i : Fin nc) :
    visitCount θ.π θ.A θ.e ss i ≤ numSamples ss := by
  have h0 : ∀ i, 0 ≤ visitCount θ.π θ.A θ.e ss i := fun i => by
    rw [← sum_emitCount]; exact Finset.sum_nonneg fun k _ => h.model.emitCount_nonneg i k
  refine (Finset.single_le_sum (fun i _ => h0 i) (Finset.mem_univ i)).trans (le_of_eq ?_)
  have hp := h.pos_each
  unfold visitCount numSamples
  clear h0
  induction ss with
  | nil => simp
  | cons s ss ih =>
    have ih := ih (h := ?_) fun s' hs' => hp s' (List.mem_cons_of_mem _ hs')
    · simp only [List.map_cons, List.sum_cons, Finset.sum_add_distrib, Nat.cast_add] at ih ⊢
      rw [ih, Finset.sum_comm, Finset.sum_congr rfl fun t _ => sum_posterior (hp s (by simp)).ne' t]
      simp
    · refine ⟨h.model, ?_, h.zero⟩
      refine lt_of_le_of_ne ?_ fun h0 => ?_
      · exact List.prod_nonneg fun x hx => by
          obtain ⟨s', hs', rfl⟩ := List.mem_map.1 hx
          exact (hp s' (List.mem_cons_of_mem _ hs')).le
      · have := h.pos
        simp only [catL, dataLikelihood, List.map_cons, List.prod_cons] at this h0
        rw [← h0, mul_zero] at this
        exact lt_irrefl _ this

/-- **C92** The parameters of a model solve the likelihood equations up to a multiple of the square root of the
length of the step that the next iteration makes. -/
theorem C92_residual {θ : CatParams nc nf} (hm : CatModel θ.π θ.A θ.e) (hL : 0 < catL ss θ.π θ.A θ.e) :
    NearlySolves params ss (2 * √(numSamples ss * flatStep ss θ
      (catEM params (fun _ => 1) (fun _ _ => 1) (fun _ _ => 1) ss θ))) θ := by
  have h : CatInv (fun _ _ => 1) ss θ := ⟨hm, hL, fun _ _ _ => rfl⟩
  set θ' := catEM params (fun _ => 1) (fun _ _ => 1) (fun _ _ => 1) ss θ with hθ'
  have n1 : 0 ≤ (ss.length : ℝ) * hellinger θ'.π θ.π := mul_nonneg (Nat.cast_nonneg _) (hellinger_nonneg _ _)
  have n2 : ∀ i, 0 ≤ (∑ j, transStat θ.π θ.A (catB θ.e) ss i j) * hellinger (θ'.A i) (θ.A i) := fun i =>
    mul_nonneg (Finset.sum_nonneg fun j _ => hm.transStat_nonneg i j) (hellinger_nonneg _ _)
  have n3 : ∀ i, 0 ≤ visitCount θ.π θ.A θ.e ss i * hellinger (θ'.e i) (θ.e i) := fun i =>
    mul_nonneg (by rw [← sum_emitCount]; exact Finset.sum_nonneg fun k _ => hm.emitCount_nonneg i k)
      (hellinger_nonneg _ _)
  have s2 := Finset.sum_nonneg fun i (_ : i ∈ Finset.univ) => n2 i
  have s3 := Finset.sum_nonneg fun i (_ : i ∈ Finset.univ) => n3 i
  have hS0 : 0 ≤ flatStep ss θ θ' := flatStep_nonneg hm
  refine ⟨fun hs i => ?_, fun ht i j => ?_, fun he i k => ?_⟩
  · refine residual_le hm.startStat_nonneg hm.π_nonneg hm.π_sum (sum_startStat ss h.pos_each) (q := θ'.π) ?_
      (length_le_numSamples ss) hS0 ?_ i
    · simp only [hθ', catEM, hs, if_true]
      funext i
      unfold mapUpdate
      rw [hm.mapCounts_start]
    · unfold flatStep; linarith
  · refine residual_le (hm.transStat_nonneg i) (hm.A_nonneg i) (hm.A_sum i) rfl (q := θ'.A i) ?_ ?_ hS0 ?_ j
    · simp only [hθ', catEM, ht, if_true]
      funext j
      unfold mapUpdate
      rw [hm.mapCounts_trans]
    · refine le_trans ?_ (numTransitions_le_numSamples ss)
      rw [← sum_transStat_total ss h.pos_each]
      exact Finset.single_le_sum (f := fun i => ∑ j, transStat θ.π θ.A (catB θ.e) ss i j)
        (fun i _ => Finset.sum_nonneg fun j _ => hm.transStat_nonneg i j) (Finset.mem_univ i)
    · have := Finset.single_le_sum (fun i _ => n2 i) (Finset.mem_univ i)
      unfold flatStep; linarith
  · refine residual_le (hm.emitCount_nonneg i) (hm.e_nonneg i) (hm.e_sum i) (sum_emitCount ss i) (q := θ'.e i) ?_
      (visitCount_le h i) hS0 ?_ k
    · simp only [hθ', catEM, he, if_true]
      rw [show mapUpdate (fun _ => 1) (fun _ => 1) (emitCount θ.π θ.A θ.e ss i) = _ from
        Categorical.updRow_eq (old := θ.e i) (fun k hk => by
          rw [← emitCount_eq]; exact Categorical.obsStat_zero_of_weight (b := catB θ.e) hk ss) fun _ _ => rfl]
      funext k
      unfold mapUpdate
      rw [hm.mapCounts_emit]
    · have := Finset.single_le_sum (fun i _ => n3 i) (Finset.mem_univ i)
      unfold flatStep; linarith

/-- **C92** If two consecutive log-likelihoods are equal, the parameters solve the likelihood equations. -/
theorem C92_equal {θ : CatParams nc nf} (hm : CatModel θ.π θ.A θ.e) (hL : 0 < catL ss θ.π θ.A θ.e)
    (h : logL ss (catEM params (fun _ => 1) (fun _ _ => 1) (fun _ _ => 1) ss θ) = logL ss θ) :
    LikelihoodEquations params ss θ := by
  have h1 := flat_gain params hm hL 0
  simp only [flatIter, Function.iterate_zero, id_eq, zero_add, Function.iterate_one] at h1
  have h2 : flatStep ss θ (catEM params (fun _ => 1) (fun _ _ => 1) (fun _ _ => 1) ss θ) = 0 :=
    le_antisymm (by linarith) (flatStep_nonneg hm)
  have := C92_residual params hm hL
  rw [h2, mul_zero, Real.sqrt_zero, mul_zero] at this
  exact this

omit [NeZero nc] in
theorem Spec.NearlySolves.mono {θ : CatParams nc nf} {ε ε' : ℝ} (h : NearlySolves params ss ε θ) (hε : ε ≤ ε') :
    NearlySolves params ss ε' θ :=
  ⟨fun hs i => (h.start hs i).trans hε, fun ht i j => (h.trans ht i j).trans hε,
    fun he i k => (h.emit he i k).trans hε⟩

theorem flat_residual {θ0 : CatParams nc nf} (hm : CatModel θ0.π θ0.A θ0.e) (hL : 0 < catL ss θ0.π θ0.A θ0.e)
    (k : ℕ) {τ : ℝ} (h : flatStep ss (flatIter params ss θ0 k) (flatIter params ss θ0 (k + 1)) ≤ τ) :
    NearlySolves params ss (2 * √(numSamples ss * τ)) (flatIter params ss θ0 k) := by
  have hk := flatInv params hm hL k
  refine (C92_residual params hk.model hk.pos).mono params ?_
  rw [flatIter, flatIter, Function.iterate_succ_apply'] at h
  gcongr

/-- **C92** `fit` with flat priors, a positive tolerance and enough iterations: the parameters that gave the last
but one value of the history solve the likelihood equations up to `2 √(n_samples · tol)`. -/
theorem C92_stop (impl : Impl) (nIter : ℕ) (hne : ss ≠ []) {θ0 : CatParams nc nf}
    (hm : CatModel θ0.π θ0.A θ0.e) (hL : 0 < catL ss θ0.π θ0.A θ0.e) (mon : Monitor XF) {τ : ℝ} (hτ : 0 < τ)
    (htol : mon.tol = fin τ) (hmon : mon.nIter = nIter) (hbig : 2 + (0 - logL ss θ0) / τ < nIter) :
    let out := catFit (fun _ => 1) (fun _ _ => 1) (fun _ _ => 1) params impl nIter ss
      (Categorical.params θ0.π θ0.A θ0.e) mon
    (impl = .log → out.raised = none) ∧
    (out.raised = none → ∃ n, out.state = Categorical.params (flatIter params ss θ0 (n + 2)).π
        (flatIter params ss θ0 (n + 2)).A (flatIter params ss θ0 (n + 2)).e ∧
      NearlySolves params ss (2 * √(numSamples ss * τ)) (flatIter params ss θ0 n)) := by
  intro out
  refine ⟨(C91_stop params impl nIter hne hm hL mon hτ htol hmon hbig).1, fun hr => ?_⟩
  obtain ⟨n, h1, h2⟩ := (C91_stop params impl nIter hne hm hL mon hτ htol hmon hbig).2 hr
  exact ⟨n, h1, flat_residual params hm hL n h2.le⟩

/-- **C92** A rate: among the first `K` iterates one solves the likelihood equations up to
`2 √(n_samples · (-log L) / K)`. -/
theorem C92_rate {θ0 : CatParams nc nf} (hm : CatModel θ0.π θ0.A θ0.e) (hL : 0 < catL ss θ0.π θ0.A θ0.e)
    (K : ℕ) (hK : 0 < K) :
    ∃ k < K, NearlySolves params ss (2 * √(numSamples ss * (-logL ss θ0 / K))) (flatIter params ss θ0 k) := by
  by_contra hcon
  push Not at hcon
  have hall : ∀ k ∈ Finset.range K, -logL ss θ0 / K <
      flatStep ss (flatIter params ss θ0 k) (flatIter params ss θ0 (k + 1)) := by
    intro k hk
    by_contra hle
    exact hcon k (Finset.mem_range.1 hk) (flat_residual params hm hL k (not_lt.1 hle))
  have h1 := Finset.sum_lt_sum_of_nonempty (Finset.nonempty_range_iff.2 hK.ne') hall
  have h2 := C91_total params hm hL K
  rw [Finset.sum_const, Finset.card_range, nsmul_eq_mul, mul_div_cancel₀ _ (by positivity)] at h1
  linarith

/-! ## Limit points -/

open Filter Topology

/-- Entrywise convergence of parameters. -/
structure ConvergesTo (θ : ℕ → CatParams nc nf) (θ' : CatParams nc nf) : Prop where
  start : ∀ i, Tendsto (fun k => (θ k).π i) atTop (𝓝 (θ'.π i))
  trans : ∀ i j, Tendsto (fun k => (θ k).A i j) atTop (𝓝 (θ'.A i j))
  emit : ∀ i o, Tendsto (fun k => (θ k).e i o) atTop (𝓝 (θ'.e i o))

variable {θ : ℕ → CatParams nc nf} {θ' : CatParams nc nf}

omit [NeZero nc] in
theorem ConvergesTo.tendsto_joint (h : ConvergesTo θ θ') (s : ObsSeq (Fin nf)) (z : Fin (s.n + 1) → Fin nc) :
    Tendsto (fun k => joint (θ k).π (θ k).A (s.weights (catB (θ k).e)) z) atTop
      (𝓝 (joint θ'.π θ'.A (s.weights (catB θ'.e)) z)) :=
  ((h.start _).mul (tendsto_finsetProd _ fun _ _ => h.trans _ _)).mul
    (tendsto_finsetProd _ fun _ _ => h.emit _ _)

omit [NeZero nc] in
theorem ConvergesTo.tendsto_likelihood (h : ConvergesTo θ θ') (s : ObsSeq (Fin nf)) :
    Tendsto (fun k => likelihood (θ k).π (θ k).A (s.weights (catB (θ k).e))) atTop
      (𝓝 (likelihood θ'.π θ'.A (s.weights (catB θ'.e)))) :=
  tendsto_finsetSum _ fun z _ => h.tendsto_joint s z

omit [NeZero nc] in
theorem tendsto_list_sum {D : Type} {f : ℕ → D → ℝ} {g : D → ℝ} (l : List D)
    (h : ∀ s ∈ l, Tendsto (fun k => f k s) atTop (𝓝 (g s))) :
    Tendsto (fun k => (l.map (f k)).sum) atTop (𝓝 (l.map g).sum) := by
  induction l with
  | nil => simp
  | cons s l ih =>
    simp only [List.map_cons, List.sum_cons]
    exact (h s (by simp)).add (ih fun s' hs' => h s' (List.mem_cons_of_mem _ hs'))

omit [NeZero nc] in
theorem ConvergesTo.tendsto_catL (h : ConvergesTo θ θ') (ss : List (ObsSeq (Fin nf))) :
    Tendsto (fun k => catL ss (θ k).π (θ k).A (θ k).e) atTop (𝓝 (catL ss θ'.π θ'.A θ'.e)) := by
  unfold catL dataLikelihood
  induction ss with
  | nil => simp
  | cons s l ih =>
    simp only [List.map_cons, List.prod_cons]
    exact (h.tendsto_likelihood s).mul ih

section
variable (h : ConvergesTo θ θ') (hp : ∀ s ∈ ss, 0 < likelihood θ'.π θ'.A (s.weights (catB θ'.e)))
include h hp

omit [NeZero nc] in
theorem ConvergesTo.tendsto_posterior {s : ObsSeq (Fin nf)} (hs : s ∈ ss) (t : Fin (s.n + 1)) (i : Fin nc) :
    Tendsto (fun k => posterior (θ k).π (θ k).A (s.weights (catB (θ k).e)) t i) atTop
      (𝓝 (posterior θ'.π θ'.A (s.weights (catB θ'.e)) t i)) :=
  (tendsto_finsetSum _ fun z _ => h.tendsto_joint s z).div (h.tendsto_likelihood s) (hp s hs).ne'

omit [NeZero nc] in
theorem ConvergesTo.tendsto_startStat (i : Fin nc) :
    Tendsto (fun k => startStat (θ k).π (θ k).A (catB (θ k).e) ss i) atTop
      (𝓝 (startStat θ'.π θ'.A (catB θ'.e) ss i)) :=
  tendsto_list_sum ss fun _ hs => h.tendsto_posterior hp hs 0 i

omit [NeZero nc] in
theorem ConvergesTo.tendsto_transStat (i j : Fin nc) :
    Tendsto (fun k => transStat (θ k).π (θ k).A (catB (θ k).e) ss i j) atTop
      (𝓝 (transStat θ'.π θ'.A (catB θ'.e) ss i j)) :=
  tendsto_list_sum ss fun s hs => tendsto_finsetSum _ fun _ _ =>
    (tendsto_finsetSum _ fun z _ => h.tendsto_joint s z).div (h.tendsto_likelihood s) (hp s hs).ne'

omit [NeZero nc] in
theorem ConvergesTo.tendsto_emitCount (i : Fin nc) (o : Fin nf) :
    Tendsto (fun k => emitCount (θ k).π (θ k).A (θ k).e ss i o) atTop (𝓝 (emitCount θ'.π θ'.A θ'.e ss i o)) :=
  tendsto_list_sum ss fun s hs => tendsto_finsetSum _ fun t _ => by
    by_cases hx : s.x t = o
    · simp only [hx, if_true]; exact h.tendsto_posterior hp hs t i
    · simp [hx]

omit [NeZero nc] in
theorem ConvergesTo.tendsto_visitCount (i : Fin nc) :
    Tendsto (fun k => visitCount (θ k).π (θ k).A (θ k).e ss i) atTop (𝓝 (visitCount θ'.π θ'.A θ'.e ss i)) :=
  tendsto_list_sum ss fun _ hs => tendsto_finsetSum _ fun t _ => h.tendsto_posterior hp hs t i

omit [NeZero nc] in
/-- Limits of approximate solutions are solutions. -/
theorem ConvergesTo.solves {ε : ℕ → ℝ} (hε : Tendsto ε atTop (𝓝 0)) (hs : ∀ k, NearlySolves params ss (ε k) (θ k)) :
    LikelihoodEquations params ss θ' := by
  refine ⟨fun hc i => ?_, fun hc i j => ?_, fun hc i o => ?_⟩
  · exact le_of_tendsto_of_tendsto
      ((h.tendsto_startStat hp i).sub ((h.start i).const_mul _)).abs hε (Eventually.of_forall fun k => (hs k).start hc i)
  · exact le_of_tendsto_of_tendsto
      ((h.tendsto_transStat hp i j).sub ((tendsto_finsetSum _ fun l _ => h.tendsto_transStat hp i l).mul (h.trans i j))).abs hε
      (Eventually.of_forall fun k => (hs k).trans hc i j)
  · exact le_of_tendsto_of_tendsto
      ((h.tendsto_emitCount hp i o).sub ((h.tendsto_visitCount hp i).mul (h.emit i o))).abs hε
      (Eventually.of_forall fun k => (hs k).emit hc i o)

end

omit [NeZero nc] in
theorem ConvergesTo.model (h : ConvergesTo θ θ') (hm : ∀ k, CatModel (θ k).π (θ k).A (θ k).e) :
    CatModel θ'.π θ'.A θ'.e where
  π_nonneg i := ge_of_tendsto' (h.start i) fun k => (hm k).π_nonneg i
  A_nonneg i j := ge_of_tendsto' (h.trans i j) fun k => (hm k).A_nonneg i j
  e_nonneg i j := ge_of_tendsto' (h.emit i j) fun k => (hm k).e_nonneg i j
  π_sum := le_of_tendsto' (tendsto_finsetSum _ fun i _ => h.start i) fun k => (hm k).π_sum
  A_sum i := le_of_tendsto' (tendsto_finsetSum _ fun j _ => h.trans i j) fun k => (hm k).A_sum i
  e_sum i := le_of_tendsto' (tendsto_finsetSum _ fun j _ => h.emit i j) fun k => (hm k).e_sum i

theorem flat_mono {θ0 : CatParams nc nf} (hm : CatModel θ0.π θ0.A θ0.e) (hL : 0 < catL ss θ0.π θ0.A θ0.e) (k : ℕ) :
    catL ss θ0.π θ0.A θ0.e ≤ catL ss (flatIter params ss θ0 k).π (flatIter params ss θ0 k).A
      (flatIter params ss θ0 k).e := by
  induction k with
  | zero => exact le_rfl
  | succ k ih =>
    have hk := flatInv params hm hL k
    rw [flatIter, Function.iterate_succ_apply']
    exact ih.trans (catEM_mono params ss hk.model hk.pos).2

/-- **C92** Every limit point of unlimited training with flat priors is a model that solves the likelihood
equations, under which the data are at least as likely as at the start. -/
theorem C92_limit {θ0 : CatParams nc nf} (hm : CatModel θ0.π θ0.A θ0.e) (hL : 0 < catL ss θ0.π θ0.A θ0.e)
    {φ : ℕ → ℕ} (hφ : StrictMono φ) (h : ConvergesTo (fun k => flatIter params ss θ0 (φ k)) θ') :
    CatModel θ'.π θ'.A θ'.e ∧ catL ss θ0.π θ0.A θ0.e ≤ catL ss θ'.π θ'.A θ'.e ∧
      LikelihoodEquations params ss θ' := by
  have hmod := h.model fun k => (flatInv params hm hL (φ k)).model
  have hle : catL ss θ0.π θ0.A θ0.e ≤ catL ss θ'.π θ'.A θ'.e :=
    ge_of_tendsto' (h.tendsto_catL ss) fun k => flat_mono params hm hL (φ k)
  have hinv : CatInv (fun _ _ => 1) ss θ' := ⟨hmod, hL.trans_le hle, fun _ _ _ => rfl⟩
  refine ⟨hmod, hle, h.solves params hinv.pos_each (ε := fun k => 2 * √(numSamples ss * flatStep ss
    (flatIter params ss θ0 (φ k)) (flatIter params ss θ0 (φ k + 1)))) ?_ fun k =>
      flat_residual params hm hL (φ k) le_rfl⟩
  have := (C91_tendsto params hm hL).comp hφ.tendsto_atTop
  have h2 := ((Real.continuous_sqrt.tendsto _).comp (this.const_mul (numSamples ss : ℝ))).const_mul 2
  simpa using h2

/-- Parameters within `ε` of each other, entry by entry. -/
structure EntriesWithin (ε : ℝ) (θ θ' : CatParams nc nf) : Prop where
  start : ∀ i, |θ.π i - θ'.π i| ≤ ε
  trans : ∀ i j, |θ.A i j - θ'.A i j| ≤ ε
  emit : ∀ i k, |θ.e i k - θ'.e i k| ≤ ε

omit [NeZero nc] in
/-- Models are a compact set. -/
theorem exists_limit (hm : ∀ k, CatModel (θ k).π (θ k).A (θ k).e) :
    ∃ θ' : CatParams nc nf, ∃ φ : ℕ → ℕ, StrictMono φ ∧ ConvergesTo (fun k => θ (φ k)) θ' := by
  let K : Set ((Fin nc → ℝ) × (Fin nc → Fin nc → ℝ) × (Fin nc → Fin nf → ℝ)) := Set.Icc 0 1
  have hK : IsCompact K := isCompact_Icc
  have hx : ∀ k, ((θ k).π, (θ k).A, (θ k).e) ∈ K := fun k => by
    refine ⟨⟨fun i => (hm k).π_nonneg i, fun i j => (hm k).A_nonneg i j, fun i j => (hm k).e_nonneg i j⟩,
      ⟨fun i => ?_, fun i j => ?_, fun i j => ?_⟩⟩
    · exact (Finset.single_le_sum (fun i _ => (hm k).π_nonneg i) (Finset.mem_univ i)).trans (hm k).π_sum
    · exact (Finset.single_le_sum (fun j _ => (hm k).A_nonneg i j) (Finset.mem_univ j)).trans ((hm k).A_sum i)
    · exact (Finset.single_le_sum (fun j _ => (hm k).e_nonneg i j) (Finset.mem_univ j)).trans ((hm k).e_sum i)
  obtain ⟨⟨p, a, q⟩, -, φ, hφ, ht⟩ := hK.tendsto_subseq hx
  refine ⟨⟨p, a, q⟩, φ, hφ, ⟨fun i => ?_, fun i j => ?_, fun i j => ?_⟩⟩
  · exact (((continuous_apply i).comp continuous_fst).tendsto _).comp ht
  · exact (((continuous_apply j).comp ((continuous_apply i).comp
      (continuous_fst.comp continuous_snd))).tendsto _).comp ht
  · exact (((continuous_apply j).comp ((continuous_apply i).comp
      (continuous_snd.comp continuous_snd))).tendsto _).comp ht

omit [NeZero nc] in
theorem ConvergesTo.within (h : ConvergesTo θ θ') {ε : ℝ} (hε : 0 < ε) : ∀ᶠ k in atTop, EntriesWithin ε (θ k) θ' := by
  have h1 : ∀ᶠ k in atTop, ∀ i, |(θ k).π i - θ'.π i| ≤ ε := eventually_all.2 fun i =>
    ((Metric.tendsto_nhds.1 (h.start i)) ε hε).mono fun k hk => (Real.dist_eq _ _ ▸ hk).le
  have h2 : ∀ᶠ k in atTop, ∀ i j, |(θ k).A i j - θ'.A i j| ≤ ε := eventually_all.2 fun i => eventually_all.2 fun j =>
    ((Metric.tendsto_nhds.1 (h.trans i j)) ε hε).mono fun k hk => (Real.dist_eq _ _ ▸ hk).le
  have h3 : ∀ᶠ k in atTop, ∀ i j, |(θ k).e i j - θ'.e i j| ≤ ε := eventually_all.2 fun i => eventually_all.2 fun j =>
    ((Metric.tendsto_nhds.1 (h.emit i j)) ε hε).mono fun k hk => (Real.dist_eq _ _ ▸ hk).le
  filter_upwards [h1, h2, h3] with k a b c using ⟨a, b, c⟩

/-- **C92** `fit` with flat priors that makes enough iterations returns parameters as close as one likes to a
solution of the likelihood equations. -/
theorem C92_approaches (impl : Impl) (hne : ss ≠ []) {θ0 : CatParams nc nf}
    (hm : CatModel θ0.π θ0.A θ0.e) (hL : 0 < catL ss θ0.π θ0.A θ0.e) {ε : ℝ} (hε : 0 < ε) :
    ∃ K, ∀ (nIter : ℕ) (mon : Monitor XF),
      let out := catFit (fun _ => 1) (fun _ _ => 1) (fun _ _ => 1) params impl nIter ss
        (Categorical.params θ0.π θ0.A θ0.e) mon
      K ≤ out.monitor.history.length → ∃ θ θ' : CatParams nc nf, out.state = Categorical.params θ.π θ.A θ.e ∧
        EntriesWithin ε θ θ' ∧ CatModel θ'.π θ'.A θ'.e ∧ catL ss θ0.π θ0.A θ0.e ≤ catL ss θ'.π θ'.A θ'.e ∧
        LikelihoodEquations params ss θ' := by
  have key : ∃ K, ∀ n ≥ K, ∃ θ' : CatParams nc nf, EntriesWithin ε (flatIter params ss θ0 n) θ' ∧
      CatModel θ'.π θ'.A θ'.e ∧ catL ss θ0.π θ0.A θ0.e ≤ catL ss θ'.π θ'.A θ'.e ∧
      LikelihoodEquations params ss θ' := by
    by_contra hcon
    push Not at hcon
    obtain ⟨ψ, hψ, hbad⟩ := Nat.exists_strictMono_subsequence (P := fun n => ∀ θ' : CatParams nc nf,
      EntriesWithin ε (flatIter params ss θ0 n) θ' → CatModel θ'.π θ'.A θ'.e →
      catL ss θ0.π θ0.A θ0.e ≤ catL ss θ'.π θ'.A θ'.e → ¬ LikelihoodEquations params ss θ') (by
        intro N
        obtain ⟨n, hn, hb⟩ := hcon (N + 1)
        exact ⟨n, hn, hb⟩)
    obtain ⟨θ', φ, hφ, hc⟩ := exists_limit (θ := fun k => flatIter params ss θ0 (ψ k))
      fun k => (flatInv params hm hL _).model
    obtain ⟨a, b, c⟩ := C92_limit params hm hL (hψ.comp hφ) hc
    obtain ⟨k, hk⟩ := (hc.within hε).exists
    exact hbad (φ k) θ' hk a b c
  obtain ⟨K, hK⟩ := key
  refine ⟨K, fun nIter mon => ?_⟩
  intro out hn
  have h : CatInv (fun _ _ => 1) ss θ0 := ⟨hm, hL, fun _ _ _ => rfl⟩
  obtain ⟨h1, -, -⟩ := catFit_iter (sp := fun _ => 1) (tp := fun _ _ => 1) params (fun _ => le_rfl)
    (fun _ _ => le_rfl) (fun _ _ => le_rfl) impl nIter hne h mon
  obtain ⟨θ', a, b, c, d⟩ := hK _ hn
  exact ⟨_, θ', h1, a, b, c, d⟩

/-- **C92** Parameters under which the data are as likely as under any model solve the likelihood equations. -/
theorem C92_maximum {θ : CatParams nc nf} (hm : CatModel θ.π θ.A θ.e) (hL : 0 < catL ss θ.π θ.A θ.e)
    (hmax : ∀ θ' : CatParams nc nf, CatModel θ'.π θ'.A θ'.e → catL ss θ'.π θ'.A θ'.e ≤ catL ss θ.π θ.A θ.e) :
    LikelihoodEquations params ss θ := by
  have h := catEM_mono params ss hm hL
  exact C92_equal params hm hL (congrArg Real.log (le_antisymm (hmax _ h.1) h.2))

end
end Verif
