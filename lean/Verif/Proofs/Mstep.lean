import Verif.Proofs.Train
import Verif.Proofs.EM
import Verif.Spec.Mstep
import Verif.Spec.Runs

/-!
# The M-step and the fit loop
-/

namespace Verif
open FloatLike XF Hmmc Spec
open scoped Classical

variable {nc n : ℕ} {Obs D P S : Type}

theorem npMaximum_fin (a b : ℝ) : npMaximum (fin a) (fin b) = fin (max a b) := by
  simp only [npMaximum, fin_isNaN, fin_lt]
  by_cases h : a < b
  · simp [h, max_eq_right h.le]
  · simp [h, max_eq_left (not_lt.1 h)]

theorem mapCounts_nonneg {ι : Type*} (prior old stat : ι → ℝ) (i : ι) :
    0 ≤ mapCounts prior old stat i := by
  unfold mapCounts; split <;> simp

theorem mapUpdate_nonneg {ι : Type*} [Fintype ι] (prior old stat : ι → ℝ) (i : ι) :
    0 ≤ mapUpdate prior old stat i :=
  div_nonneg (mapCounts_nonneg _ _ _ _) (Finset.sum_nonneg fun _ _ => mapCounts_nonneg _ _ _ _)

theorem mapCounts_all_zero {ι : Type*} [Fintype ι] {prior old stat : ι → ℝ}
    (h : ∑ j, mapCounts prior old stat j = 0) (i : ι) : mapCounts prior old stat i = 0 :=
  (Finset.sum_eq_zero_iff_of_nonneg fun i _ => mapCounts_nonneg prior old stat i).1 h i
    (Finset.mem_univ i)

theorem sum_mapUpdate {ι : Type*} [Fintype ι] {prior old stat : ι → ℝ}
    (h : ∑ j, mapCounts prior old stat j ≠ 0) : ∑ i, mapUpdate prior old stat i = 1 := by
  simp only [mapUpdate, ← Finset.sum_div]
  exact div_self h

theorem sum_mapUpdate_le {ι : Type*} [Fintype ι] (prior old stat : ι → ℝ) :
    ∑ i, mapUpdate prior old stat i ≤ 1 := by
  by_cases h : ∑ j, mapCounts prior old stat j = 0
  · simp only [mapUpdate, h, div_zero, Finset.sum_const_zero]; exact zero_le_one
  · exact (sum_mapUpdate h).le

theorem where_fin (old v : ℝ) :
    (if FloatLike.eq (fin old) 0 then (0 : XF) else fin v) = fin (if old = 0 then 0 else v) := by
  by_cases h : old = 0 <;> simp [h]

theorem mstepCounts_fin (prior old stat : Fin n → ℝ) :
    (fun i => if FloatLike.eq (fin (old i)) 0 then (0 : XF)
      else npMaximum (fin (prior i) - 1 + fin (stat i)) 0) =
      fun i => fin (mapCounts prior old stat i) := by
  funext i
  simp only [zero_def, one_def, fin_sub, fin_add, npMaximum_fin]
  rw [← zero_def, where_fin]
  rfl

/-- The new `startprob_`. -/
theorem mstepStart_fin (prior old stat : Fin n → ℝ) :
    mstepStart (fun i => fin (prior i)) (fun i => fin (old i)) (fun i => fin (stat i)) =
      if ∑ j, mapCounts prior old stat j = 0 then fun _ => .nan
      else fun i => fin (mapUpdate prior old stat i) := by
  simp only [mstepStart, memo_eq, mstepCounts_fin, normalizeVec, sumF_fin]
  split
  · next h =>
    funext i
    rw [h, mapCounts_all_zero h i, fin_zero_div_zero]
  · next h => funext i; rw [fin_div _ _ h]; rfl

/-- A row of the new `transmat_`. -/
theorem mstepTransRow_fin (prior old stat : Fin n → ℝ) :
    mstepTransRow (fun i => fin (prior i)) (fun i => fin (old i)) (fun i => fin (stat i)) =
      fun i => fin (mapUpdate prior old stat i) := by
  simp only [mstepTransRow, memo_eq, mstepCounts_fin]
  funext i
  by_cases h : ∑ j, mapCounts prior old stat j = 0
  · rw [normalizeRow_fin_zero _ h, mapUpdate, h, mapCounts_all_zero h i, div_zero]
  · rw [normalizeRow_fin _ h]; rfl

/-! ## Positivity of statistics -/

section Stat
variable {π : Fin nc → ℝ} {A : Fin nc → Fin nc → ℝ} {b : D → Fin nc → ℝ}

theorem stateMass_zero_of_start {B : Fin (n + 1) → Fin nc → ℝ} {i : Fin nc} (h : π i = 0) :
    stateMass π A B 0 i = 0 := by
  refine Finset.sum_eq_zero fun z hz => ?_
  simp only [Finset.mem_filter, Finset.mem_univ, true_and] at hz
  simp [joint, hz, h]

theorem pairMass_zero_of_trans {B : Fin (n + 1) → Fin nc → ℝ} {i j : Fin nc} (h : A i j = 0)
    (t : Fin n) : pairMass π A B t i j = 0 := by
  refine Finset.sum_eq_zero fun z hz => ?_
  simp only [Finset.mem_filter, Finset.mem_univ, true_and] at hz
  have : ∏ t : Fin n, A (z t.castSucc) (z t.succ) = 0 :=
    Finset.prod_eq_zero (Finset.mem_univ t) (by rw [hz.1, hz.2, h])
  simp [joint, this]

theorem startStat_zero_of_start {i : Fin nc} (h : π i = 0) (ss : List (ObsSeq D)) :
    startStat π A b ss i = 0 := by
  unfold startStat
  have : (fun s : ObsSeq D => posterior π A (s.weights b) 0 i) = fun _ => 0 := by
    funext s; simp [posterior, stateMass_zero_of_start h]
  rw [this]; simp

theorem transStat_zero_of_trans {i j : Fin nc} (h : A i j = 0) (ss : List (ObsSeq D)) :
    transStat π A b ss i j = 0 := by
  unfold transStat
  have : (fun s : ObsSeq D => expectedTransitions π A (s.weights b) i j) = fun _ => 0 := by
    funext s; simp [expectedTransitions, pairPosterior, pairMass_zero_of_trans h]
  rw [this]; simp

theorem startStat_nonneg (hπ : ∀ i, 0 ≤ π i) (hA : ∀ i j, 0 ≤ A i j) (hb : ∀ o i, 0 ≤ b o i)
    (ss : List (ObsSeq D)) (i : Fin nc) : 0 ≤ startStat π A b ss i :=
  list_sum_nonneg _ fun s _ => div_nonneg (stateMass_nonneg hπ hA (fun t => hb _) _ _)
    (likelihood_nonneg hπ hA fun t => hb _)

theorem transStat_nonneg (hπ : ∀ i, 0 ≤ π i) (hA : ∀ i j, 0 ≤ A i j) (hb : ∀ o i, 0 ≤ b o i)
    (ss : List (ObsSeq D)) (i j : Fin nc) : 0 ≤ transStat π A b ss i j :=
  list_sum_nonneg _ fun s _ => Finset.sum_nonneg fun t _ =>
    div_nonneg (pairMass_nonneg hπ hA (fun t => hb _) _ _ _) (likelihood_nonneg hπ hA fun t => hb _)

theorem obsStat_nonneg (hπ : ∀ i, 0 ≤ π i) (hA : ∀ i j, 0 ≤ A i j) (hb : ∀ o i, 0 ≤ b o i)
    (ss : List (ObsSeq D)) (i : Fin nc) {f : D → ℝ} (hf : ∀ o, 0 ≤ f o) :
    0 ≤ obsStat π A b ss i f :=
  list_sum_nonneg _ fun s _ => Finset.sum_nonneg fun t _ => mul_nonneg
    (div_nonneg (stateMass_nonneg hπ hA (fun t => hb _) _ _)
      (likelihood_nonneg hπ hA fun t => hb _)) (hf _)

theorem sum_startStat (ss : List (ObsSeq D)) (hL : ∀ s ∈ ss, 0 < likelihood π A (s.weights b)) :
    ∑ i, startStat π A b ss i = ss.length := by
  unfold startStat
  rw [← list_sum_fintype_comm, List.map_congr_left (g := fun _ => (1 : ℝ))
    fun s hs => sum_posterior (hL s hs).ne' 0]
  simp

end Stat

/-! ## One Dirichlet update never hurts -/

/-- With priors at least one: the update is positive wherever the (allowed) count is, and it gains
against the old value. -/
theorem mapUpdate_gain {ι : Type*} [Fintype ι] {prior old stat : ι → ℝ} (hold : ∀ i, 0 ≤ old i)
    (hsum : ∑ i, old i ≤ 1) (hp : ∀ i, 1 ≤ prior i) (hs : ∀ i, 0 ≤ stat i)
    (hz : ∀ i, old i = 0 → stat i = 0) :
    (∀ i, 0 < stat i → 0 < mapUpdate prior old stat i) ∧
    0 ≤ ∑ i, (prior i - 1 + stat i) * Real.log (mapUpdate prior old stat i / old i) := by
  have hc : ∀ i, old i ≠ 0 → mapCounts prior old stat i = prior i - 1 + stat i := by
    intro i hi
    have := hp i; have := hs i
    simp only [mapCounts, hi, if_false]
    exact max_eq_left (by linarith)
  constructor
  · intro i hi
    have hne : old i ≠ 0 := fun h => hi.ne' (hz i h)
    have hci : 0 < mapCounts prior old stat i := by
      rw [hc i hne]; have := hp i; linarith
    exact div_pos hci (lt_of_lt_of_le hci (Finset.single_le_sum
      (f := mapCounts prior old stat) (fun j _ => mapCounts_nonneg _ _ _ _) (Finset.mem_univ i)))
  · have := gibbs_counts (c := mapCounts prior old stat) (p := old)
      (mapCounts_nonneg prior old stat) hold (fun i hi => (hold i).lt_of_ne' (by
        intro h; simp [mapCounts, h] at hi)) hsum
    refine this.trans (le_of_eq (Finset.sum_congr rfl fun i _ => ?_))
    by_cases hi : old i = 0
    · simp [hi]
    · rw [hc i hi]; simp only [mapUpdate, hc i hi]

/-! ## The fit loop -/

section Loop
variable {α σ : Type} [FloatLike α] {step : σ → Except PyErr (σ × α)}

theorem Spec.Runs.head {h : List α} {s s' s'' : σ} {v : α} (h1 : step s = .ok (s', v))
    (h2 : Runs step h s' s'') : Runs step (v :: h) s s'' := by
  induction h2 with
  | nil => exact Runs.snoc (h := []) (Runs.nil s) h1
  | snoc _ hs ih => exact Runs.snoc (h := v :: _) (ih h1) hs

/-- The value of `converged` only depends on `tol`, `n_iter`, `iter` and the last two entries. -/
theorem fitLoop_spec (n : ℕ) (s : σ) (mon : Monitor α) (hfresh : mon.iter = mon.history.length) :
    ∃ h : List α, Runs step h s (fitLoop step n s mon).state ∧ h.length ≤ n ∧
      (fitLoop step n s mon).monitor = { mon with
        history := mon.history ++ h, iter := mon.iter + h.length } ∧
      (∀ k, 0 < k → k < h.length →
        ({ mon with history := mon.history ++ h.take k, iter := mon.iter + k } :
          Monitor α).converged = false) ∧
      ((fitLoop step n s mon).raised = none →
        h.length = n ∨ (fitLoop step n s mon).monitor.converged = true) ∧
      (∀ e, (fitLoop step n s mon).raised = some e →
        h.length < n ∧ step (fitLoop step n s mon).state = .error e ∧
        (0 < h.length → (fitLoop step n s mon).monitor.converged = false)) := by
  induction n generalizing s mon with
  | zero => exact ⟨[], Runs.nil s, le_rfl, by simp [fitLoop], by simp, by simp [fitLoop],
      by simp [fitLoop]⟩
  | succ n ih =>
    cases hs : step s with
    | error e =>
      refine ⟨[], ?_, Nat.zero_le _, ?_, by simp, ?_, ?_⟩
      · simp only [fitLoop, hs]; exact Runs.nil s
      · simp [fitLoop, hs]
      · simp [fitLoop, hs]
      · simp [fitLoop, hs]
    | ok p =>
      obtain ⟨s', v⟩ := p
      by_cases hc : (mon.report v).converged = true
      · refine ⟨[v], ?_, ?_, ?_, ?_, ?_, ?_⟩
        · simp only [fitLoop, hs, hc, if_true]; exact Runs.snoc (h := []) (Runs.nil s) hs
        · simp
        · simp only [fitLoop, hs, hc, if_true]; rfl
        · intro k h0 h1; simp only [List.length_singleton] at h1; omega
        · intro _; right; simp only [fitLoop, hs, hc, if_true]
        · simp [fitLoop, hs, hc]
      · have hf : (mon.report v).iter = (mon.report v).history.length := by
          simp [Monitor.report, hfresh]
        obtain ⟨h, h1, h2, h3, h4, h5, h6⟩ := ih s' (mon.report v) hf
        have e : fitLoop step (n + 1) s mon = fitLoop step n s' (mon.report v) := by
          simp only [fitLoop, hs, hc]; simp
        rw [e]
        refine ⟨v :: h, h1.head hs, by simp; omega, ?_, ?_, ?_, ?_⟩
        · rw [h3]; simp only [Monitor.report, List.append_assoc, List.singleton_append,
            List.length_cons, Monitor.mk.injEq, true_and]; omega
        · intro k hk0 hk
          cases k with
          | zero => omega
          | succ k =>
            cases k with
            | zero =>
              simp only [Bool.not_eq_true] at hc
              simpa [Monitor.report] using hc
            | succ k =>
              have := h4 (k + 1) (by omega) (by simpa using hk)
              simp only [Monitor.report, List.append_assoc, List.singleton_append] at this
              rw [← this]
              simp only [List.take_succ_cons]
              congr 2; omega
        · intro hr
          rcases h5 hr with h5 | h5
          · left; simp [h5]
          · exact Or.inr h5
        · intro e he
          obtain ⟨a, b, c⟩ := h6 e he
          refine ⟨by simp; omega, b, fun _ => ?_⟩
          by_cases h0 : 0 < h.length
          · exact c h0
          · have : h = [] := List.eq_nil_of_length_eq_zero (by omega)
            subst this
            rw [h3]
            simp only [Bool.not_eq_true] at hc
            simpa using hc

end Loop

end Verif
