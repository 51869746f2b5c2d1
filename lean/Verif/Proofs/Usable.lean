import Verif.Proofs.FitSeq
import Verif.Spec.Usable

/-!
# Row sums of the re-estimated transition matrix
-/

namespace Verif
open FloatLike XF Hmmc Spec
open scoped Classical

variable {nc : ℕ} {Obs D P S Q : Type}

theorem sum_transStat (π : Fin nc → ℝ) (A : Fin nc → Fin nc → ℝ) (b : D → Fin nc → ℝ)
    (ss : List (ObsSeq D)) (i : Fin nc) : ∑ j, transStat π A b ss i j = beforeLast π A b ss i := by
  unfold transStat beforeLast
  induction ss with
  | nil => simp
  | cons s ss ih =>
    simp only [List.map_cons, List.sum_cons, Finset.sum_add_distrib, ih]
    congr 1
    simp only [expectedTransitions, pairPosterior]
    rw [Finset.sum_comm]
    refine Finset.sum_congr rfl fun t _ => ?_
    rw [← Finset.sum_div, sum_pairMass_right]; rfl

theorem beforeLast_nonneg {π : Fin nc → ℝ} {A : Fin nc → Fin nc → ℝ} {b : D → Fin nc → ℝ}
    (hπ : ∀ i, 0 ≤ π i) (hA : ∀ i j, 0 ≤ A i j) (hb : ∀ o i, 0 ≤ b o i)
    (ss : List (ObsSeq D)) (i : Fin nc) : 0 ≤ beforeLast π A b ss i := by
  rw [← sum_transStat]
  exact Finset.sum_nonneg fun j _ => transStat_nonneg hπ hA hb ss i j

/-- Expected visits before the last samples are at most all expected visits. -/
theorem beforeLast_le {π : Fin nc → ℝ} {A : Fin nc → Fin nc → ℝ} {b : D → Fin nc → ℝ}
    (hπ : ∀ i, 0 ≤ π i) (hA : ∀ i j, 0 ≤ A i j) (hb : ∀ o i, 0 ≤ b o i)
    (ss : List (ObsSeq D)) (i : Fin nc) :
    beforeLast π A b ss i ≤ obsStat π A b ss i fun _ => 1 := by
  unfold beforeLast obsStat
  induction ss with
  | nil => simp
  | cons s ss ih =>
    simp only [List.map_cons, List.sum_cons]
    refine add_le_add ?_ ih
    rw [Fin.sum_univ_castSucc]
    simp only [mul_one]
    exact le_add_of_nonneg_right (div_nonneg (stateMass_nonneg hπ hA (fun t => hb _) _ _)
      (likelihood_nonneg hπ hA fun t => hb _))

/-- With a flat prior a row of the update sums to one exactly if the statistic is positive, and is
zero otherwise. -/
theorem mapUpdate_flat {ι : Type*} [Fintype ι] {old stat : ι → ℝ} (hs : ∀ j, 0 ≤ stat j)
    (hz : ∀ j, old j = 0 → stat j = 0) :
    (0 < ∑ j, stat j → ∑ j, mapUpdate (fun _ => 1) old stat j = 1) ∧
    (∑ j, stat j = 0 → ∀ j, mapUpdate (fun _ => 1) old stat j = 0) := by
  have hc : ∀ j, mapCounts (fun _ => 1) old stat j = stat j := by
    intro j; unfold mapCounts; split
    · next h => rw [hz j h]
    · simp [hs j]
  have hsum : ∑ j, mapCounts (fun _ => 1) old stat j = ∑ j, stat j :=
    Finset.sum_congr rfl fun j _ => hc j
  refine ⟨fun h => sum_mapUpdate (by rw [hsum]; exact h.ne'), fun h j => ?_⟩
  simp only [mapUpdate, hsum, h, div_zero]

namespace Family
variable [NeZero nc] {E : Emission XF nc Obs P S} {obs : D → Obs} {params : List Char}
  (F : Family E obs params Q)

/-- One EM iteration, as far as `startprob_` and `transmat_` are concerned: nothing is required of
the emission update. -/
theorem emStep_chain (c : RConfig nc) (ss : List (ObsSeq D)) (hne : ss ≠ []) {r : RParams nc Q}
    (h : r.Valid) (hok : F.Ok c.impl ss r) (hp : 's' ∈ params → ∀ i, 1 ≤ c.sp i) :
    ∃ p : P, emStep E (c.toConfig params) (dataX obs ss) (dataLengths ss) (F.theta r) =
      .ok (⟨fun i => fin ((F.rstep c ss r).π i), fun i j => fin ((F.rstep c ss r).A i j), p⟩,
        lg (F.L ss r)) := by
  -- the same family with nothing required of the emission update
  refine ⟨E.mstep params (F.embed r.q) (F.stat r.q (obsStat r.π r.A (F.b r.q) ss)), ?_⟩
  unfold emStep
  simp only [F.doEstep_real c ss hne h hok, bind, Except.bind, pure, Except.pure]
  congr 2
  unfold doMstep
  congr 1
  · show (if 's' ∈ params then _ else _) = _
    by_cases hs : 's' ∈ params
    · simp only [hs, if_true, rstep]
      have : (fun i => fin (gate params 's' (startStat r.π r.A (F.b r.q) ss i))) =
        fun i => fin (startStat r.π r.A (F.b r.q) ss i) := by simp [gate, hs]
      show mstepStart (fun i => fin (c.sp i)) (fun i => fin (r.π i))
        (fun i => fin (gate params 's' _)) = _
      rw [this, mstepStart_fin, if_neg]
      exact F.startCounts_ne_zero c ss hne h (fun s hs => EstepOk.likelihood_pos (hok s hs)) (hp hs)
    · simp only [hs, if_false, rstep]; rfl
  · show (if 't' ∈ params then _ else _) = _
    by_cases ht : 't' ∈ params
    · simp only [ht, if_true, rstep, memo_eq]
      funext i
      have : (fun j => fin (gate params 't' (transStat r.π r.A (F.b r.q) ss i j))) =
        fun j => fin (transStat r.π r.A (F.b r.q) ss i j) := by simp [gate, ht]
      show mstepTransRow (fun j => fin (c.tp i j)) (fun j => fin (r.A i j))
        (fun j => fin (gate params 't' _)) = _
      rw [this, mstepTransRow_fin]
    · simp only [ht, if_false, rstep]; rfl

omit [NeZero nc] in
/-- Rows of the new transition matrix, flat prior. -/
theorem rstep_row (c : RConfig nc) (ss : List (ObsSeq D)) {r : RParams nc Q} (h : r.Valid)
    (ht : 't' ∈ params) (hflat : ∀ i j, c.tp i j = 1) (i : Fin nc) :
    (0 < beforeLast r.π r.A (F.b r.q) ss i → ∑ j, (F.rstep c ss r).A i j = 1) ∧
    (beforeLast r.π r.A (F.b r.q) ss i = 0 → ∀ j, (F.rstep c ss r).A i j = 0) := by
  have hf : c.tp i = fun _ => 1 := funext fun j => hflat i j
  simp only [rstep, ht, if_true, hf, ← sum_transStat]
  exact mapUpdate_flat (transStat_nonneg h.π_nonneg h.A_nonneg (F.b_nonneg _) ss i)
    fun j hj => transStat_zero_of_trans hj ss

omit [NeZero nc] in
/-- The new start distribution. -/
theorem rstep_start (c : RConfig nc) (ss : List (ObsSeq D)) (hne : ss ≠ []) {r : RParams nc Q}
    (h : r.Valid) (hok : F.Ok .log ss r) (hp : 's' ∈ params → ∀ i, 1 ≤ c.sp i)
    (hπ : 's' ∉ params → ∑ i, r.π i = 1) : ∑ i, (F.rstep c ss r).π i = 1 := by
  by_cases hs : 's' ∈ params
  · simp only [rstep, hs, if_true]
    exact sum_mapUpdate (F.startCounts_ne_zero c ss hne h (fun s hs => hok s hs) (hp hs))
  · simp only [rstep, hs, if_false]; exact hπ hs

omit [NeZero nc] in
/-- Possible paths give positive expected visits. -/
theorem beforeLast_pos {ss : List (ObsSeq D)} {r : RParams nc Q} (h : r.Valid) (hL : F.Ok .log ss r)
    {i : Fin nc} {s : ObsSeq D} (hs : s ∈ ss) {z : Fin (s.n + 1) → Fin nc} {t : Fin s.n}
    (hz : 0 < joint r.π r.A (s.weights (F.b r.q)) z) (hzt : z t.castSucc = i) :
    0 < beforeLast r.π r.A (F.b r.q) ss i := by
  have hB : ∀ (s : ObsSeq D) t i, 0 ≤ s.weights (F.b r.q) t i := fun s t i => F.b_nonneg _ _ _
  have pn : ∀ s ∈ ss, ∀ t i, 0 ≤ posterior r.π r.A (s.weights (F.b r.q)) t i := fun s hs t i =>
    div_nonneg (stateMass_nonneg h.π_nonneg h.A_nonneg (hB s) t i)
      (likelihood_nonneg h.π_nonneg h.A_nonneg (hB s))
  unfold beforeLast
  refine lt_of_lt_of_le ?_ (le_list_sum ss
    (f := fun s => ∑ t : Fin s.n, posterior r.π r.A (s.weights (F.b r.q)) t.castSucc i)
    (fun s hs => Finset.sum_nonneg fun t _ => pn s hs _ i) hs)
  refine lt_of_lt_of_le ?_ (Finset.single_le_sum
    (f := fun t : Fin s.n => posterior r.π r.A (s.weights (F.b r.q)) t.castSucc i)
    (fun t _ => pn s hs _ i) (Finset.mem_univ t))
  subst hzt
  exact div_pos (hz.trans_le (joint_le_stateMass h.π_nonneg h.A_nonneg (hB s) z t.castSucc)) (hL s hs)

omit [NeZero nc] in
/-- Paths that are possible at the start of `fit` remain possible. -/
theorem used_iter {c : RConfig nc} {ss : List (ObsSeq D)} {I : RParams nc Q → Prop}
    (hI : ∀ r, I r → r.Valid ∧ F.Ok .log ss r ∧ F.Ac ss r) (hnext : ∀ r, I r → I (F.rstep c ss r))
    (hp : 's' ∈ params → ∀ i, 1 ≤ c.sp i) (ht : 't' ∈ params → ∀ i j, 1 ≤ c.tp i j)
    {r : RParams nc Q} (hr : I r) (hu : UsedBeforeLast r.π r.A (F.b r.q) ss) (k : ℕ) :
    UsedBeforeLast ((F.rstep c ss)^[k] r).π ((F.rstep c ss)^[k] r).A
      (F.b ((F.rstep c ss)^[k] r).q) ss := by
  induction k with
  | zero => exact hu
  | succ k ih =>
    have hk : I ((F.rstep c ss)^[k] r) := F.iter_inv hr hnext k
    obtain ⟨h1, h2, h3⟩ := hI _ hk
    have := (F.rstep_gain c ss h1 h2 hp ht ⟨h3, le_rfl⟩).2.1
    rw [Function.iterate_succ_apply']
    intro i
    obtain ⟨s, hs, z, t, hz, hzt⟩ := ih i
    exact ⟨s, hs, z, t, this s hs z hz, hzt⟩

end Family
end Verif
