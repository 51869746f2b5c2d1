import Verif.Model.Train
import Verif.Proofs.Inference
import Verif.Proofs.Split
import Verif.Spec.Train

/-!
# The E-step computes the expected statistics
-/

namespace Verif
open FloatLike XF Hmmc Spec

variable {nc n : ℕ} {Obs D P S : Type} [NeZero nc]

/-- Posterior rows of a sequence, as the E-step produces them. -/
noncomputable def postRows (π : Fin nc → ℝ) (A : Fin nc → Fin nc → ℝ)
    (B : Fin (n + 1) → Fin nc → ℝ) : List (Row XF nc) :=
  List.ofFn fun t i => fin (posterior π A B t i)

theorem EstepOk.likelihood_pos {impl : Impl} {π : Fin nc → ℝ} {A : Fin nc → Fin nc → ℝ}
    {B : Fin (n + 1) → Fin nc → ℝ} (h : EstepOk impl π A B) : 0 < likelihood π A B := by
  cases impl with
  | log => exact h
  | scaling => exact NoUnderflow.likelihood_pos h

theorem fitOne_spec {m : Hmm XF nc Obs} {obs : D → Obs} {π : Fin nc → ℝ} {A : Fin nc → Fin nc → ℝ}
    {b : D → Fin nc → ℝ} (h : Represents m obs π A b) (x : Fin (n + 1) → D)
    (hok : EstepOk m.implementation π A fun t => b (x t)) :
    ∃ r, fitOne m (List.ofFn fun t => obs (x t)) = .ok r ∧
      r.logProb = lg (likelihood π A fun t => b (x t)) ∧
      r.posteriors = postRows π A (fun t => b (x t)) ∧
      r.lattice.length = n + 1 ∧
      xiSum m.implementation m.transmat r =
        .ok fun i j => fin (expectedTransitions π A (fun t => b (x t)) i j) := by
  unfold fitOne
  cases hi : m.implementation with
  | log =>
    rw [hi] at hok
    have hL : 0 < likelihood π A fun t => b (x t) := hok
    have h1 := forwardLog_ofFn (B := fun t => b (x t)) h.π_nonneg h.A_nonneg (fun t => h.b_nonneg _)
    have h2 := backwardLog_ofFn (B := fun t => b (x t)) h.A_nonneg (fun t => h.b_nonneg _)
    have h3 := computePosteriorsLog_posterior (B := fun t => b (x t)) h.π_nonneg h.A_nonneg
      (fun t => h.b_nonneg _) hL
    have h4 := computeLogXiSum_ofFn (B := fun t => b (x t)) h.π_nonneg h.A_nonneg
      (fun t => h.b_nonneg _) hL
    unfold fitLog
    rw [ofFn_map_obs, h.loglik_eq, map_ofFn_lgRow, h.startprob_finRow, h.transmat_finMat]
    simp only [bind, Except.bind, h1, h2, h3]
    refine ⟨_, rfl, rfl, rfl, by simp, ?_⟩
    simp only [xiSum, h4, Except.map, memo_eq]
    congr 1; funext i j
    refine lg_exp ?_
    unfold expectedTransitions pairPosterior
    exact Finset.sum_nonneg fun t _ => div_nonneg (pairMass_nonneg h.π_nonneg h.A_nonneg
      (fun t => h.b_nonneg _) t i j) hL.le
  | scaling =>
    rw [hi] at hok
    have hu : NoUnderflow π A fun t => b (x t) := hok
    have h1 := forwardScaling_ofFn π A (fun t => b (x t))
    have h2 := backwardScaling_ofFn hu
    have h3 := computePosteriorsScaling_posterior hu
    have h4 := computeScalingXiSum_ofFn hu
    unfold fitScaling
    rw [ofFn_map_obs, h.lik_eq, map_ofFn_row, h.startprob_finRow, h.transmat_finMat]
    simp only [bind, Except.bind, h1, hu, if_true, h2, h3]
    exact ⟨_, rfl, rfl, rfl, by simp, h4⟩

omit [NeZero nc] in
theorem add_zero_xf (a : XF) : a + XF.fin 0 = a := by
  cases a <;> first | rfl | (show XF.fin (_ + 0) = _; rw [add_zero])

/-- Real statistics as the program's statistics. -/
noncomputable def finBase (k : ℕ) (s : Fin nc → ℝ) (t : Fin nc → Fin nc → ℝ) : BaseStats XF nc :=
  ⟨k, fun i => fin (s i), fun i j => fin (t i j)⟩

/-- Value kept only when the parameter code `c` is fitted. -/
noncomputable def gate (params : List Char) (c : Char) (v : ℝ) : ℝ := if c ∈ params then v else 0

theorem accumulateBase_spec {params : List Char} {impl : Impl} {A : Mat XF nc}
    {r : FitOne XF nc} {k : ℕ} {s : Fin nc → ℝ} {t : Fin nc → Fin nc → ℝ}
    {p : Fin nc → ℝ} {ps : List (Row XF nc)} {xi : Fin nc → Fin nc → ℝ}
    (hp : r.posteriors = (fun i => fin (p i)) :: ps)
    (hxi : xiSum impl A r = .ok fun i j => fin (xi i j))
    (hlen : r.lattice.length ≤ 1 → ∀ i j, xi i j = 0) :
    accumulateBase params impl A (finBase k s t) r =
      .ok (finBase (k + 1) (fun i => s i + gate params 's' (p i))
        (fun i j => t i j + gate params 't' (xi i j))) := by
  unfold accumulateBase gate
  by_cases hs : 's' ∈ params <;> by_cases ht : 't' ∈ params <;> by_cases hl : r.lattice.length ≤ 1 <;>
    simp [hs, ht, hl, hp, hxi, finBase, bind, Except.bind, pure, Except.pure, hlen]

theorem rows_eq_cons_postRows (π : Fin nc → ℝ) (A : Fin nc → Fin nc → ℝ)
    (B : Fin (n + 1) → Fin nc → ℝ) :
    postRows π A B = (fun i => fin (posterior π A B 0 i)) ::
      List.ofFn fun (t : Fin n) i => fin (posterior π A B t.succ i) := by
  rw [postRows, List.ofFn_succ]

theorem expectedTransitions_one (π : Fin nc → ℝ) (A : Fin nc → Fin nc → ℝ)
    (B : Fin (0 + 1) → Fin nc → ℝ) (i j : Fin nc) : expectedTransitions π A B i j = 0 := by
  simp [expectedTransitions]

section Estep
variable {E : Emission XF nc Obs P S} {θ : Theta XF nc P} {impl : Impl} {obs : D → Obs}
  {π : Fin nc → ℝ} {A : Fin nc → Fin nc → ℝ} {b : D → Fin nc → ℝ}

/-- The emission statistics accumulated over the sequences. -/
noncomputable def emFold (E : Emission XF nc Obs P S) (params : List Char) (p : P) (obs : D → Obs)
    (π : Fin nc → ℝ) (A : Fin nc → Fin nc → ℝ) (b : D → Fin nc → ℝ) (ss : List (ObsSeq D)) (st : S) :
    Except PyErr S :=
  ss.foldlM (fun st s => E.acc params p st (s.rows obs) (postRows π A (s.weights b))) st

theorem estepOne_spec (h : Represents (E.toHmm impl θ) obs π A b) (params : List Char) (s : ObsSeq D)
    (hok : EstepOk impl π A (s.weights b)) (k : ℕ) (u : Fin nc → ℝ) (t : Fin nc → Fin nc → ℝ)
    (em : S) :
    estepOne E params impl θ ⟨finBase k u t, em⟩ (s.rows obs) =
      (E.acc params θ.emission em (s.rows obs) (postRows π A (s.weights b))).map fun em' =>
        (⟨finBase (k + 1) (fun i => u i + gate params 's' (posterior π A (s.weights b) 0 i))
          (fun i j => t i j + gate params 't' (expectedTransitions π A (s.weights b) i j)), em'⟩,
          lg (likelihood π A (s.weights b))) := by
  obtain ⟨m, x⟩ := s
  obtain ⟨r, h1, h2, h3, h4, h5⟩ := fitOne_spec h x hok
  unfold estepOne
  have hacc := accumulateBase_spec (params := params) (k := k) (s := u) (t := t)
    (h3.trans (rows_eq_cons_postRows _ _ _)) h5 (by
      rw [h4]; intro hm i j
      obtain rfl : m = 0 := by omega
      exact expectedTransitions_one _ _ _ _ _)
  have h1' : fitOne (E.toHmm impl θ) (ObsSeq.rows obs ⟨m, x⟩) = .ok r := h1
  have hacc' : accumulateBase params impl θ.transmat (finBase k u t) r = _ := hacc
  simp only [h1', bind, Except.bind, hacc', h3]
  show _ = Except.map _ (E.acc params θ.emission em _ (postRows π A fun t => b (x t)))
  cases E.acc params θ.emission em _ (postRows π A fun t => b (x t)) with
  | error e => rfl
  | ok em' => simp only [Except.map, h2]; rfl

theorem estepLoop_spec (h : Represents (E.toHmm impl θ) obs π A b) (params : List Char)
    (ss : List (ObsSeq D)) (hok : ∀ s ∈ ss, EstepOk impl π A (s.weights b)) (k : ℕ)
    (u : Fin nc → ℝ) (t : Fin nc → Fin nc → ℝ) (em : S) (L : ℝ) (hL : 0 ≤ L) :
    estepLoop E params impl θ (ss.map (ObsSeq.rows obs)) ⟨finBase k u t, em⟩ (lg L) =
      (emFold E params θ.emission obs π A b ss em).map fun em' =>
        (⟨finBase (k + ss.length) (fun i => u i + gate params 's' (startStat π A b ss i))
          (fun i j => t i j + gate params 't' (transStat π A b ss i j)), em'⟩,
          lg (L * dataLikelihood π A b ss)) := by
  induction ss generalizing k u t em L with
  | nil =>
    simp [estepLoop, emFold, Except.map, pure, Except.pure, startStat, transStat, gate,
      dataLikelihood]
  | cons s ss ih =>
    have hs := hok s List.mem_cons_self
    have hLs := EstepOk.likelihood_pos hs
    simp only [List.map_cons, estepLoop]
    rw [estepOne_spec h params s hs]
    simp only [emFold, List.foldlM_cons, bind, Except.bind]
    cases E.acc params θ.emission em (s.rows obs) (postRows π A (s.weights b)) with
    | error e => rfl
    | ok em' =>
      simp only [Except.map]
      rw [lg_mul hL hLs.le, ih (fun s hs => hok s (List.mem_cons_of_mem _ hs)) _ _ _ _ _
        (mul_nonneg hL hLs.le)]
      show Except.map _ (emFold E params θ.emission obs π A b ss em') =
        Except.map _ (emFold E params θ.emission obs π A b ss em')
      cases emFold E params θ.emission obs π A b ss em' with
      | error e => rfl
      | ok em'' =>
        simp only [Except.map]
        congr 2
        · congr 2
          · simp only [List.length_cons]; omega
          · funext i
            unfold gate startStat
            split <;> simp [add_assoc]
          · funext i j
            unfold gate transStat
            split <;> simp [add_assoc]
        · congr 1; simp [dataLikelihood, mul_assoc]

/-- **The E-step.**  Statistics and log-likelihood of a whole data set. -/
theorem doEstep_spec {cfg : Config XF nc} (h : Represents (E.toHmm cfg.implementation θ) obs π A b)
    (ss : List (ObsSeq D)) (hne : ss ≠ [])
    (hok : ∀ s ∈ ss, EstepOk cfg.implementation π A (s.weights b)) :
    doEstep E cfg θ (dataX obs ss) (dataLengths ss) =
      (emFold E cfg.params θ.emission obs π A b ss (E.zero cfg.params θ.emission)).map fun em =>
        (⟨finBase ss.length (fun i => gate cfg.params 's' (startStat π A b ss i))
          (fun i j => gate cfg.params 't' (transStat π A b ss i j)), em⟩,
          lg (dataLikelihood π A b ss)) := by
  unfold doEstep
  simp only [splitXLengths_data obs ss hne, bind, Except.bind]
  have := estepLoop_spec h cfg.params ss hok 0 (fun _ => 0) (fun _ _ => 0)
    (E.zero cfg.params θ.emission) 1 zero_le_one
  simp only [lg_one, Nat.zero_add, zero_add, one_mul] at this
  exact this

end Estep
end Verif
