import Verif.Props.Approach
import Verif.Proofs.Score
import Verif.Props.FitLogEM
import Mathlib.Analysis.Complex.ExponentialBounds

/-!
# C93: solutions of the likelihood equations are the critical points of the likelihood
-/
set_option autoImplicit false

namespace Verif
open FloatLike XF Hmmc Spec
open scoped Classical

variable {nc nf : ℕ} [NeZero nc]

/-- The directional derivative in one row, at proportional counts. -/
theorem row_solves {ι : Type*} [Fintype ι] {c p q : ι → ℝ} {N : ℝ} (hc : ∀ i, 0 ≤ c i) (hN : ∑ i, c i = N)
    (he : ∀ i, c i = N * p i) (hz : ∀ i, p i = 0 → q i = 0) (hq1 : ∑ i, q i ≤ 1) :
    ∑ i, c i * (q i / p i - 1) ≤ 0 := by
  have h1 : ∀ i, c i * (q i / p i - 1) = N * (q i - p i) := by
    intro i
    by_cases h : p i = 0
    · simp [he i, h, hz i h]
    · rw [he i]; field_simp
  simp only [h1, ← Finset.mul_sum, Finset.sum_sub_distrib]
  have hN0 : 0 ≤ N := hN ▸ Finset.sum_nonneg fun i _ => hc i
  have h2 : N = N * ∑ i, p i := by
    rw [Finset.mul_sum, ← hN]; exact Finset.sum_congr rfl fun i _ => by rw [hN]; exact he i
  have h3 : N * ∑ i, q i ≤ N * 1 := mul_le_mul_of_nonneg_left hq1 hN0
  linarith

/-- The directional derivative in one row towards the normalised counts. -/
theorem row_slope {ι : Type*} [Fintype ι] {c p q : ι → ℝ} {N : ℝ} (hc : ∀ i, 0 ≤ c i) (hp : ∀ i, 0 ≤ p i)
    (hp1 : ∑ i, p i ≤ 1) (hN : ∑ i, c i = N) (hz : ∀ i, p i = 0 → c i = 0) (hq : q = fun i => c i / ∑ j, c j) :
    0 ≤ ∑ i, c i * (q i / p i - 1) ∧ (∑ i, c i * (q i / p i - 1) = 0 → ∀ i, c i = N * p i) := by
  have hN0 : 0 ≤ N := hN ▸ Finset.sum_nonneg fun i _ => hc i
  subst hq
  rw [hN]
  rcases hN0.eq_or_lt with h0 | hpos
  · have : ∀ i, c i = 0 := fun i => by
      rw [← h0] at hN
      exact (Finset.sum_eq_zero_iff_of_nonneg fun i _ => hc i).1 hN i (Finset.mem_univ i)
    simp [this, ← h0]
  · have h1 : ∀ i, c i * (c i / N / p i - 1) = (c i - N * p i) + (c i - N * p i) ^ 2 / (N * p i) := by
      intro i
      by_cases h : p i = 0
      · simp [h, hz i h]
      · field_simp; ring
    have e : ∑ i, c i * (c i / N / p i - 1) = N * (1 - ∑ i, p i) + ∑ i, (c i - N * p i) ^ 2 / (N * p i) := by
      simp only [h1, Finset.sum_add_distrib, Finset.sum_sub_distrib, ← Finset.mul_sum, hN]
      ring
    have n1 : 0 ≤ N * (1 - ∑ i, p i) := mul_nonneg hN0 (by linarith)
    have n2 : ∀ i, 0 ≤ (c i - N * p i) ^ 2 / (N * p i) := fun i =>
      div_nonneg (sq_nonneg _) (mul_nonneg hN0 (hp i))
    have n3 := Finset.sum_nonneg fun i (_ : i ∈ Finset.univ) => n2 i
    rw [e]
    refine ⟨by linarith, fun h i => ?_⟩
    have h2 : ∑ i, (c i - N * p i) ^ 2 / (N * p i) = 0 := by linarith
    have h3 := (Finset.sum_eq_zero_iff_of_nonneg fun i _ => n2 i).1 h2 i (Finset.mem_univ i)
    by_cases hpi : p i = 0
    · simp [hpi, hz i hpi]
    · have := (div_eq_zero_iff.1 h3).resolve_right (mul_ne_zero hpos.ne' hpi)
      have := pow_eq_zero_iff (two_ne_zero) |>.1 this
      linarith

theorem row_fixed {ι : Type*} [Fintype ι] {c p : ι → ℝ} (hz : ∀ i, p i = 0 → c i = 0) :
    ∑ i, c i * (p i / p i - 1) = 0 :=
  Finset.sum_eq_zero fun i _ => by
    by_cases h : p i = 0
    · simp [hz i h]
    · simp [h]

section
variable (params : List Char) {ss : List (ObsSeq (Fin nf))}

theorem emitCount_zero {θ : CatParams nc nf} {i : Fin nc} {k : Fin nf} (hk : θ.e i k = 0) :
    emitCount θ.π θ.A θ.e ss i k = 0 := by
  rw [← emitCount_eq]; exact Categorical.obsStat_zero_of_weight (b := catB θ.e) hk ss

/-- Derivative of the log-likelihood at `θ` in the direction of `θ'`. -/
noncomputable def slope (ss : List (ObsSeq (Fin nf))) (θ θ' : CatParams nc nf) : ℝ :=
  deriv (fun t => logL ss (towards θ θ' t)) 0

/-- **C93** The log-likelihood is differentiable at every model of the data in every feasible direction, and
the derivative is given by the expected counts that the E-step computes. -/
theorem C93_derivative {θ θ' : CatParams nc nf} (hm : CatModel θ.π θ.A θ.e) (hL : 0 < catL ss θ.π θ.A θ.e)
    (hf : Feasible params θ θ') :
    HasDerivAt (fun t => logL ss (towards θ θ' t))
      (∑ i, startStat θ.π θ.A (catB θ.e) ss i * (θ'.π i / θ.π i - 1) +
        ∑ i, ∑ j, transStat θ.π θ.A (catB θ.e) ss i j * (θ'.A i j / θ.A i j - 1) +
        ∑ i, ∑ k, emitCount θ.π θ.A θ.e ss i k * (θ'.e i k / θ.e i k - 1)) 0 := by
  have hinv : CatInv (fun _ _ => 1) ss θ := ⟨hm, hL, fun _ _ _ => rfl⟩
  have := hasDerivAt_logL (b := catB θ.e) (b' := catB θ'.e) hf.start_zero hf.trans_zero
    (fun o i => hf.emit_zero i o) ss hinv.pos_each
  refine HasDerivAt.congr_deriv this ?_
  congr 1
  refine Finset.sum_congr rfl fun i _ => ?_
  rw [Categorical.obsStat_fintype]
  refine Finset.sum_congr rfl fun k _ => ?_
  rw [emitCount_eq]
  rfl

/-- The iteration goes in a feasible direction. -/
theorem feasible_catEM {θ : CatParams nc nf} (hm : CatModel θ.π θ.A θ.e) (hL : 0 < catL ss θ.π θ.A θ.e) :
    Feasible params θ (catEM params (fun _ => 1) (fun _ _ => 1) (fun _ _ => 1) ss θ) where
  model := (catEM_mono params ss hm hL).1
  start_zero i hi := by
    by_cases hs : 's' ∈ params <;> simp [catEM, hs, hi, mapUpdate, mapCounts]
  trans_zero i j hi := by
    by_cases hs : 't' ∈ params <;> simp [catEM, hs, hi, mapUpdate, mapCounts]
  emit_zero i k hi := by
    by_cases hs : 'e' ∈ params <;> simp [catEM, hs, hi, mapUpdate, mapCounts, emitCount_zero hi]
  start_fixed hs := by simp [catEM, hs]
  trans_fixed hs := by simp [catEM, hs]
  emit_fixed hs := by simp [catEM, hs]

/-- **C93** Parameters solve the likelihood equations exactly when they are a critical point of the likelihood:
in no feasible direction does the log-likelihood increase to first order. -/
theorem C93_critical {θ : CatParams nc nf} (hm : CatModel θ.π θ.A θ.e) (hL : 0 < catL ss θ.π θ.A θ.e) :
    LikelihoodEquations params ss θ ↔ ∀ θ', Feasible params θ θ' → slope ss θ θ' ≤ 0 := by
  have hinv : CatInv (fun _ _ => 1) ss θ := ⟨hm, hL, fun _ _ _ => rfl⟩
  have z1 : ∀ i, θ.π i = 0 → startStat θ.π θ.A (catB θ.e) ss i = 0 := fun i hi => startStat_zero_of_start hi ss
  have z2 : ∀ i j, θ.A i j = 0 → transStat θ.π θ.A (catB θ.e) ss i j = 0 :=
    fun i j hi => transStat_zero_of_trans hi ss
  have z3 : ∀ i k, θ.e i k = 0 → emitCount θ.π θ.A θ.e ss i k = 0 := fun i k hi => emitCount_zero hi
  constructor
  · intro h θ' hf
    rw [slope, (C93_derivative params hm hL hf).deriv]
    have h1 : ∑ i, startStat θ.π θ.A (catB θ.e) ss i * (θ'.π i / θ.π i - 1) ≤ 0 := by
      by_cases hs : 's' ∈ params
      · refine row_solves hm.startStat_nonneg (sum_startStat ss hinv.pos_each) (fun i => ?_) hf.start_zero
          hf.model.π_sum
        have := h.start hs i
        rw [abs_nonpos_iff, sub_eq_zero] at this
        exact this
      · rw [hf.start_fixed hs, row_fixed z1]
    have h2 : ∑ i, ∑ j, transStat θ.π θ.A (catB θ.e) ss i j * (θ'.A i j / θ.A i j - 1) ≤ 0 := by
      refine Finset.sum_nonpos fun i _ => ?_
      by_cases hs : 't' ∈ params
      · refine row_solves (hm.transStat_nonneg i) rfl (fun j => ?_) (hf.trans_zero i) (hf.model.A_sum i)
        have := h.trans hs i j
        rw [abs_nonpos_iff, sub_eq_zero] at this
        exact this
      · rw [hf.trans_fixed hs, row_fixed (z2 i)]
    have h3 : ∑ i, ∑ k, emitCount θ.π θ.A θ.e ss i k * (θ'.e i k / θ.e i k - 1) ≤ 0 := by
      refine Finset.sum_nonpos fun i _ => ?_
      by_cases hs : 'e' ∈ params
      · refine row_solves (hm.emitCount_nonneg i) (sum_emitCount ss i) (fun k => ?_) (hf.emit_zero i)
          (hf.model.e_sum i)
        have := h.emit hs i k
        rw [abs_nonpos_iff, sub_eq_zero] at this
        exact this
      · rw [hf.emit_fixed hs, row_fixed (z3 i)]
    linarith
  · intro h
    set θ' := catEM params (fun _ => 1) (fun _ _ => 1) (fun _ _ => 1) ss θ with hθ'
    have hf : Feasible params θ θ' := feasible_catEM params hm hL
    have hd := h θ' hf
    rw [slope, (C93_derivative params hm hL hf).deriv] at hd
    have r1 : 0 ≤ ∑ i, startStat θ.π θ.A (catB θ.e) ss i * (θ'.π i / θ.π i - 1) ∧
        (∑ i, startStat θ.π θ.A (catB θ.e) ss i * (θ'.π i / θ.π i - 1) = 0 → 's' ∈ params →
          ∀ i, startStat θ.π θ.A (catB θ.e) ss i = ss.length * θ.π i) := by
      by_cases hs : 's' ∈ params
      · have := row_slope (q := θ'.π) hm.startStat_nonneg hm.π_nonneg hm.π_sum (sum_startStat ss hinv.pos_each) z1 (by
          simp only [hθ', catEM, hs, if_true]
          funext i
          unfold mapUpdate
          rw [hm.mapCounts_start])
        exact ⟨this.1, fun h0 _ => this.2 h0⟩
      · rw [hf.start_fixed hs, row_fixed z1]
        exact ⟨le_rfl, fun _ h => absurd h hs⟩
    have r2 : ∀ i, 0 ≤ ∑ j, transStat θ.π θ.A (catB θ.e) ss i j * (θ'.A i j / θ.A i j - 1) ∧
        (∑ j, transStat θ.π θ.A (catB θ.e) ss i j * (θ'.A i j / θ.A i j - 1) = 0 → 't' ∈ params →
          ∀ j, transStat θ.π θ.A (catB θ.e) ss i j = (∑ k, transStat θ.π θ.A (catB θ.e) ss i k) * θ.A i j) := by
      intro i
      by_cases hs : 't' ∈ params
      · have := row_slope (q := θ'.A i) (hm.transStat_nonneg (ss := ss) i) (hm.A_nonneg i) (hm.A_sum i) rfl (z2 i) (by
          simp only [hθ', catEM, hs, if_true]
          funext j
          unfold mapUpdate
          rw [hm.mapCounts_trans])
        exact ⟨this.1, fun h0 _ => this.2 h0⟩
      · rw [hf.trans_fixed hs, row_fixed (z2 i)]
        exact ⟨le_rfl, fun _ h => absurd h hs⟩
    have r3 : ∀ i, 0 ≤ ∑ k, emitCount θ.π θ.A θ.e ss i k * (θ'.e i k / θ.e i k - 1) ∧
        (∑ k, emitCount θ.π θ.A θ.e ss i k * (θ'.e i k / θ.e i k - 1) = 0 → 'e' ∈ params →
          ∀ k, emitCount θ.π θ.A θ.e ss i k = visitCount θ.π θ.A θ.e ss i * θ.e i k) := by
      intro i
      by_cases hs : 'e' ∈ params
      · have := row_slope (q := θ'.e i) (hm.emitCount_nonneg (ss := ss) i) (hm.e_nonneg i) (hm.e_sum i)
          (sum_emitCount ss i) (z3 i) (by
            simp only [hθ', catEM, hs, if_true]
            rw [show mapUpdate (fun _ => 1) (fun _ => 1) (emitCount θ.π θ.A θ.e ss i) = _ from
              Categorical.updRow_eq (old := θ.e i) (z3 i) fun _ _ => rfl]
            funext k
            unfold mapUpdate
            rw [hm.mapCounts_emit])
        exact ⟨this.1, fun h0 _ => this.2 h0⟩
      · rw [hf.emit_fixed hs, row_fixed (z3 i)]
        exact ⟨le_rfl, fun _ h => absurd h hs⟩
    have p2 := Finset.sum_nonneg fun i (_ : i ∈ Finset.univ) => (r2 i).1
    have p3 := Finset.sum_nonneg fun i (_ : i ∈ Finset.univ) => (r3 i).1
    have q2 : ∑ i, ∑ j, transStat θ.π θ.A (catB θ.e) ss i j * (θ'.A i j / θ.A i j - 1) = 0 := by linarith [r1.1]
    have q3 : ∑ i, ∑ k, emitCount θ.π θ.A θ.e ss i k * (θ'.e i k / θ.e i k - 1) = 0 := by linarith [r1.1]
    refine ⟨fun hs i => ?_, fun ht i j => ?_, fun he i k => ?_⟩
    · rw [abs_nonpos_iff, sub_eq_zero]
      exact r1.2 (by linarith [r1.1]) hs i
    · rw [abs_nonpos_iff, sub_eq_zero]
      exact (r2 i).2 ((Finset.sum_eq_zero_iff_of_nonneg fun i _ => (r2 i).1).1 q2 i (Finset.mem_univ i)) ht j
    · rw [abs_nonpos_iff, sub_eq_zero]
      exact (r3 i).2 ((Finset.sum_eq_zero_iff_of_nonneg fun i _ => (r3 i).1).1 q3 i (Finset.mem_univ i)) he k

/-- **C93** Limit points of training are critical points of the likelihood. -/
theorem C93_limit {θ0 θ' : CatParams nc nf} (hm : CatModel θ0.π θ0.A θ0.e) (hL : 0 < catL ss θ0.π θ0.A θ0.e)
    {φ : ℕ → ℕ} (hφ : StrictMono φ) (h : ConvergesTo (fun k => flatIter params ss θ0 (φ k)) θ') :
    ∀ θ'', Feasible params θ' θ'' → slope ss θ' θ'' ≤ 0 := by
  obtain ⟨a, b, c⟩ := C92_limit params hm hL hφ h
  exact (C93_critical params a (hL.trans_le b)).1 c

/-- **C93** An iteration strictly increases the likelihood unless the parameters are a critical point. -/
theorem C93_strict {θ : CatParams nc nf} (hm : CatModel θ.π θ.A θ.e) (hL : 0 < catL ss θ.π θ.A θ.e)
    (h : ∃ θ', Feasible params θ θ' ∧ 0 < slope ss θ θ') :
    logL ss θ < logL ss (catEM params (fun _ => 1) (fun _ _ => 1) (fun _ _ => 1) ss θ) := by
  obtain ⟨θ', hf, hs⟩ := h
  have hle : logL ss θ ≤ logL ss (catEM params (fun _ => 1) (fun _ _ => 1) (fun _ _ => 1) ss θ) :=
    Real.log_le_log hL (catEM_mono params ss hm hL).2
  refine lt_of_le_of_ne hle fun he => ?_
  have := (C93_critical params hm hL).1 (C92_equal params hm hL he.symm) θ' hf
  linarith

end

/-! ## Cases -/

namespace StepDemo

theorem logL_ge : -8 ≤ logL [Demo.seq, Demo.seq] ⟨Demo.π, Demo.A, Demo.e⟩ := by
  have h1 : logL [Demo.seq, Demo.seq] ⟨Demo.π, Demo.A, Demo.e⟩ = 2 * Real.log (8403 / 250000) := by
    have e : catL [Demo.seq, Demo.seq] Demo.π Demo.A Demo.e = 8403 / 250000 * (8403 / 250000) := by
      simp only [catL, dataLikelihood, List.map_cons, List.map_nil, List.prod_cons, List.prod_nil, mul_one]
      rw [show catB Demo.e = Demo.b from rfl, Demo.seq_likelihood]
    rw [logL, e, Real.log_mul (by norm_num) (by norm_num)]
    ring
  have h2 : Real.log (1 / 32) ≤ Real.log (8403 / 250000) := Real.log_le_log (by norm_num) (by norm_num)
  have h3 : Real.log (1 / 32) = -(5 * Real.log 2) := by
    rw [show (1 / 32 : ℝ) = (2 ^ 5)⁻¹ by norm_num, Real.log_inv, Real.log_pow]; norm_num
  have := Real.log_two_lt_d9
  rw [h1]
  linarith

/-- Two sequences of three samples, two states, three symbols, tolerance 1, at most 11 iterations: the last but
one recorded step was shorter than 1 and the likelihood equations held up to `2 √6`. -/
example : let ss := [Demo.seq, Demo.seq]
    let θ0 : CatParams 2 3 := ⟨Demo.π, Demo.A, Demo.e⟩
    let out := catFit (fun _ => 1) (fun _ _ => 1) (fun _ _ => 1) ['s', 't', 'e'] .log 11 ss
      (Categorical.params Demo.π Demo.A Demo.e) { tol := fin 1, nIter := 11 }
    ∃ n, out.state = Categorical.params (flatIter ['s', 't', 'e'] ss θ0 (n + 2)).π
        (flatIter ['s', 't', 'e'] ss θ0 (n + 2)).A (flatIter ['s', 't', 'e'] ss θ0 (n + 2)).e ∧
      NearlySolves ['s', 't', 'e'] ss (2 * √6) (flatIter ['s', 't', 'e'] ss θ0 n) := by
  intro ss θ0 out
  obtain ⟨h1, h2⟩ := C92_stop ['s', 't', 'e'] .log 11 (ss := ss) (by simp [ss]) (θ0 := θ0) Demo.catModel
    Demo.catL_pos { tol := fin 1, nIter := 11 } zero_lt_one rfl rfl (by
      have := logL_ge
      simp only [div_one]
      push_cast
      linarith)
  have e : ((numSamples ss : ℕ) : ℝ) * 1 = 6 := by simp [numSamples, ss, Demo.seq]
  rw [e] at h2
  exact h2 (h1 rfl)

/-- The rate on the same data. -/
example := C92_rate ['s', 't', 'e'] (ss := [Demo.seq, Demo.seq]) (θ0 := ⟨Demo.π, Demo.A, Demo.e⟩)
  Demo.catModel Demo.catL_pos 100 (by norm_num)

open DemoOne in
theorem model_one : CatModel θ.π θ.A θ.e where
  π_nonneg i := by simp [θ]
  A_nonneg i j := by simp [θ]
  e_nonneg i k := by simp [θ]
  π_sum := by simp [θ]
  A_sum i := by simp [θ]
  e_sum i := by simp [θ]

open DemoOne in
theorem pos_one (e : Fin 1 → Fin 2 → ℝ) : catL ss (fun _ => 1) (fun _ _ => 1) e = e 0 0 := by
  simp only [catL, dataLikelihood, ss, List.map_cons, List.map_nil, List.prod_cons, List.prod_nil, mul_one]
  exact like e

open DemoOne in
/-- One state, two equally likely symbols, one observation: the log-likelihood increases with slope 1 towards
the model that always emits the observed symbol, so an iteration strictly increases the likelihood. -/
example : logL ss θ < logL ss (catEM ['e'] (fun _ => 1) (fun _ _ => 1) (fun _ _ => 1) ss θ) := by
  have hL : 0 < catL ss θ.π θ.A θ.e := by
    have := pos_one θ.e
    have h2 : θ.e 0 0 = 1 / 2 := rfl
    rw [h2] at this
    exact this.symm ▸ (by norm_num)
  have hf := feasible_catEM ['e'] model_one hL
  refine C93_strict ['e'] model_one hL ⟨_, hf, ?_⟩
  have hs : ∀ t, logL ss (towards θ (catEM ['e'] (fun _ => 1) (fun _ _ => 1) (fun _ _ => 1) ss θ) t) =
      Real.log (1 / 2 + t * (1 / 2)) := by
    intro t
    have e1 : towards θ (catEM ['e'] (fun _ => 1) (fun _ _ => 1) (fun _ _ => 1) ss θ) t =
        ⟨fun _ => 1, fun _ _ => 1, fun _ k => 1 / 2 + t * ((![1, 0] : Fin 2 → ℝ) k - 1 / 2)⟩ := by
      rw [DemoOne.em]; simp [towards, θ]
    rw [e1, logL]
    simp only
    rw [pos_one]
    norm_num
  have hd : HasDerivAt (fun t : ℝ => Real.log (1 / 2 + t * (1 / 2))) ((1 / 2) / (1 / 2 + 0 * (1 / 2))) 0 := by
    refine HasDerivAt.log ?_ (by norm_num)
    simpa using ((hasDerivAt_id (0 : ℝ)).mul_const (1 / 2 : ℝ)).const_add (1 / 2)
  unfold slope
  simp only [hs]
  rw [hd.deriv]
  norm_num

end StepDemo
end Verif
