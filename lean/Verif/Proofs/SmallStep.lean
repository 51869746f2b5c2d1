import Verif.Proofs.CategoricalFamily
import Verif.Spec.SmallStep

/-!
# The gain of an EM iteration is at least the length of its step
-/
set_option autoImplicit false

namespace Verif
open Finset Spec

theorem Spec.hellinger_nonneg {ι : Type*} [Fintype ι] (p q : ι → ℝ) : 0 ≤ hellinger p q :=
  Finset.sum_nonneg fun _ _ => sq_nonneg _

theorem Spec.hellinger_self {ι : Type*} [Fintype ι] (p : ι → ℝ) : hellinger p p = 0 := by
  simp [hellinger]

theorem Spec.hellinger_eq_zero {ι : Type*} [Fintype ι] {p q : ι → ℝ} (hp : ∀ i, 0 ≤ p i) (hq : ∀ i, 0 ≤ q i)
    (h : hellinger p q = 0) : p = q := by
  funext i
  have := (Finset.sum_eq_zero_iff_of_nonneg fun i _ => sq_nonneg _).1 h i (mem_univ i)
  have h2 : √(p i) = √(q i) := by nlinarith [pow_eq_zero_iff (two_ne_zero) |>.1 this]
  rw [← Real.sq_sqrt (hp i), ← Real.sq_sqrt (hq i), h2]

theorem Spec.evidenceOf_nonneg {ι : Type*} [Fintype ι] (prior old stat : ι → ℝ) :
    0 ≤ evidenceOf prior old stat := Finset.sum_nonneg fun _ _ => mapCounts_nonneg _ _ _ _

/-- Relative entropy from counts is at least the squared Hellinger distance. -/
theorem gibbs_hellinger {ι : Type*} [Fintype ι] {c p : ι → ℝ} (hc : ∀ i, 0 ≤ c i)
    (hp : ∀ i, 0 ≤ p i) (hac : ∀ i, 0 < c i → 0 < p i) (hp1 : ∑ i, p i ≤ 1) :
    (∑ j, c j) * hellinger (fun i => c i / ∑ j, c j) p ≤
      ∑ i, c i * Real.log ((c i / ∑ j, c j) / p i) := by
  rcases (Finset.sum_nonneg fun i _ => hc i).eq_or_lt with h0 | hC
  · have : ∀ i, c i = 0 := fun i =>
      (Finset.sum_eq_zero_iff_of_nonneg fun i _ => hc i).1 h0.symm i (mem_univ i)
    simp [this]
  · set C := ∑ j, c j with hCdef
    have hterm : ∀ i, 2 * c i - 2 * C * (√(c i / C) * √(p i)) ≤ c i * Real.log ((c i / C) / p i) := by
      intro i
      rcases (hc i).eq_or_lt with h0 | hi
      · simp [← h0]
      · have hpi := hac i hi
        have hq : 0 < c i / C := div_pos hi hC
        have sq : 0 < √(c i / C) := Real.sqrt_pos.2 hq
        have sp : 0 < √(p i) := Real.sqrt_pos.2 hpi
        have h1 : Real.log ((c i / C) / p i) = -(2 * Real.log (√(p i) / √(c i / C))) := by
          rw [Real.log_div hq.ne' hpi.ne', Real.log_div sp.ne' sq.ne', Real.log_sqrt hpi.le,
            Real.log_sqrt hq.le]
          ring
        have h2 := Real.log_le_sub_one_of_pos (div_pos sp sq)
        have h3 : C * (√(c i / C) * √(p i)) = c i * (√(p i) / √(c i / C)) := by
          rw [mul_div_assoc', eq_div_iff sq.ne']
          have : √(c i / C) * √(c i / C) = c i / C := Real.mul_self_sqrt hq.le
          calc C * (√(c i / C) * √(p i)) * √(c i / C) = C * (√(c i / C) * √(c i / C)) * √(p i) := by ring
            _ = c i * √(p i) := by rw [this]; field_simp
        rw [h1]
        nlinarith
    have hH : hellinger (fun i => c i / C) p = 1 + ∑ i, p i - 2 * ∑ i, √(c i / C) * √(p i) := by
      unfold hellinger
      have : ∀ i, (√(c i / C) - √(p i)) ^ 2 = c i / C + p i - 2 * (√(c i / C) * √(p i)) := by
        intro i
        rw [sub_sq, Real.sq_sqrt (div_nonneg (hc i) hC.le), Real.sq_sqrt (hp i)]
        ring
      simp only [this, Finset.sum_sub_distrib, Finset.sum_add_distrib, ← Finset.mul_sum]
      rw [← Finset.sum_div, ← hCdef, div_self hC.ne']
    have hs := Finset.sum_le_sum fun i (_ : i ∈ univ) => hterm i
    rw [Finset.sum_sub_distrib, ← Finset.mul_sum, ← Finset.mul_sum, ← hCdef] at hs
    refine le_trans ?_ hs
    rw [hH]
    nlinarith

namespace Family

/-- The gain of an update of one distribution. -/
theorem mapUpdate_gain_step {ι : Type*} [Fintype ι] {prior old stat : ι → ℝ} (hold : ∀ i, 0 ≤ old i)
    (hsum : ∑ i, old i ≤ 1) (hp : ∀ i, 1 ≤ prior i) (hs : ∀ i, 0 ≤ stat i) :
    logDirichlet prior old - logDirichlet prior (mapUpdate prior old stat) +
        evidenceOf prior old stat * hellinger (mapUpdate prior old stat) old ≤
      ∑ i, stat i * Real.log (mapUpdate prior old stat i / old i) := by
  have h := gibbs_hellinger (c := mapCounts prior old stat) (p := old)
      (mapCounts_nonneg prior old stat) hold (fun i hi => (hold i).lt_of_ne' (by
        intro h; simp [mapCounts, h] at hi)) hsum
  have hc : ∀ i, old i ≠ 0 → mapCounts prior old stat i = prior i - 1 + stat i := by
    intro i hi
    have := hp i; have := hs i
    simp only [mapCounts, hi, if_false]
    exact max_eq_left (by linarith)
  have e : ∑ i, mapCounts prior old stat i *
        Real.log ((mapCounts prior old stat i / ∑ j, mapCounts prior old stat j) / old i) =
      (logDirichlet prior (mapUpdate prior old stat) - logDirichlet prior old) +
      ∑ i, stat i * Real.log (mapUpdate prior old stat i / old i) := by
    unfold logDirichlet
    rw [← Finset.sum_sub_distrib, ← Finset.sum_add_distrib]
    refine Finset.sum_congr rfl fun i _ => ?_
    change _ * Real.log (mapUpdate prior old stat i / old i) = _
    by_cases h0 : old i = 0
    · have : mapUpdate prior old stat i = 0 := by simp [mapUpdate, mapCounts, h0]
      simp [h0, this]
    · rw [hc i h0, add_mul]
      congr 1
      by_cases h1 : mapUpdate prior old stat i = 0
      · have hc0 : mapCounts prior old stat i = 0 := by
          by_cases hS : ∑ j, mapCounts prior old stat j = 0
          · exact mapCounts_all_zero hS i
          · exact (div_eq_zero_iff.1 h1).resolve_right hS
        have h2 : prior i - 1 + stat i ≤ 0 := by rw [← hc i h0, hc0]
        have h3 : prior i = 1 := by have := hp i; have := hs i; linarith
        simp [h3]
      · rw [Real.log_div h1 h0]; ring
  rw [e] at h
  change evidenceOf prior old stat * hellinger (mapUpdate prior old stat) old ≤ _ at h
  linarith

variable {nc : ℕ} {Obs D P S Q : Type} {E : Emission XF nc Obs P S} {obs : D → Obs} {params : List Char}

/-- Length of the step of an iteration in the start and transition probabilities. -/
noncomputable def chainStep (F : Family E obs params Q) (c : RConfig nc) (ss : List (ObsSeq D)) (r : RParams nc Q) :
    ℝ :=
  evidenceOf c.sp r.π (startStat r.π r.A (F.b r.q) ss) * hellinger (F.rstep c ss r).π r.π +
  ∑ i, evidenceOf (c.tp i) (r.A i) (transStat r.π r.A (F.b r.q) ss i) *
    hellinger ((F.rstep c ss r).A i) (r.A i)

/-- **The gain of an EM iteration is at least the length of its step.** -/
theorem rstep_gain_step (F : Family E obs params Q) (c : RConfig nc) (ss : List (ObsSeq D))
    {r : RParams nc Q} (h : r.Valid)
    (hL : ∀ s ∈ ss, 0 < likelihood r.π r.A (s.weights (F.b r.q)))
    (hp : 's' ∈ params → ∀ i, 1 ≤ c.sp i) (ht : 't' ∈ params → ∀ i j, 1 ≤ c.tp i j)
    {gain : ℝ} (hg : F.Gains ss r gain) :
    Real.log (F.L ss r) + logDirichlet c.sp r.π + ∑ i, logDirichlet (c.tp i) (r.A i) + gain +
        F.chainStep c ss r ≤
      Real.log (F.L ss (F.rstep c ss r)) + logDirichlet c.sp (F.rstep c ss r).π +
        ∑ i, logDirichlet (c.tp i) ((F.rstep c ss r).A i) := by
  have hv := F.rstep_valid c ss h
  have gs : (∀ i, 0 < startStat r.π r.A (F.b r.q) ss i → 0 < (F.rstep c ss r).π i) ∧
      logDirichlet c.sp r.π - logDirichlet c.sp (F.rstep c ss r).π +
        evidenceOf c.sp r.π (startStat r.π r.A (F.b r.q) ss) * hellinger (F.rstep c ss r).π r.π ≤
        ∑ i, startStat r.π r.A (F.b r.q) ss i * Real.log ((F.rstep c ss r).π i / r.π i) := by
    by_cases hs : 's' ∈ params
    · simp only [rstep, hs, if_true]
      exact ⟨(mapUpdate_gain h.π_nonneg h.π_sum (hp hs) (startStat_nonneg h.π_nonneg h.A_nonneg
          (F.b_nonneg _) ss) fun i hi => startStat_zero_of_start hi ss).1,
        mapUpdate_gain_step h.π_nonneg h.π_sum (hp hs) (startStat_nonneg h.π_nonneg h.A_nonneg
          (F.b_nonneg _) ss)⟩
    · simp only [rstep, hs, if_false, sub_self, hellinger_self, mul_zero, add_zero]
      refine ⟨fun i hi => (h.π_nonneg i).lt_of_ne' fun h0 =>
        hi.ne' (startStat_zero_of_start h0 ss), le_of_eq (Finset.sum_eq_zero fun i _ => ?_).symm⟩
      by_cases h0 : r.π i = 0 <;> simp [h0]
  have gt : (∀ i j, 0 < transStat r.π r.A (F.b r.q) ss i j → 0 < (F.rstep c ss r).A i j) ∧
      ∑ i, logDirichlet (c.tp i) (r.A i) - ∑ i, logDirichlet (c.tp i) ((F.rstep c ss r).A i) +
        ∑ i, evidenceOf (c.tp i) (r.A i) (transStat r.π r.A (F.b r.q) ss i) *
          hellinger ((F.rstep c ss r).A i) (r.A i) ≤
        ∑ i, ∑ j, transStat r.π r.A (F.b r.q) ss i j *
          Real.log ((F.rstep c ss r).A i j / r.A i j) := by
    by_cases hs : 't' ∈ params
    · simp only [rstep, hs, if_true]
      refine ⟨fun i => (mapUpdate_gain (h.A_nonneg i) (h.A_sum i) (ht hs i) (transStat_nonneg
        h.π_nonneg h.A_nonneg (F.b_nonneg _) ss i) fun j hj => transStat_zero_of_trans hj ss).1, ?_⟩
      rw [← Finset.sum_sub_distrib, ← Finset.sum_add_distrib]
      exact Finset.sum_le_sum fun i _ => mapUpdate_gain_step (h.A_nonneg i) (h.A_sum i) (ht hs i)
        (transStat_nonneg h.π_nonneg h.A_nonneg (F.b_nonneg _) ss i)
    · simp only [rstep, hs, if_false, sub_self, hellinger_self, mul_zero, Finset.sum_const_zero, add_zero]
      refine ⟨fun i j hi => (h.A_nonneg i j).lt_of_ne' fun h0 =>
        hi.ne' (transStat_zero_of_trans h0 ss), le_of_eq (Finset.sum_eq_zero fun i _ =>
          Finset.sum_eq_zero fun j _ => ?_).symm⟩
      by_cases h0 : r.A i j = 0 <;> simp [h0]
  obtain ⟨b1, b3, b2⟩ := baumWelch (b' := F.b (F.rstep c ss r).q) h.π_nonneg h.A_nonneg (F.b_nonneg _)
    hv.π_nonneg hv.A_nonneg (F.b_nonneg _) ss hL gs.1 gt.1 hg.ac
  have := hg.gain_le
  have e : F.b (F.rstep c ss r).q = F.b (F.next r.q (obsStat r.π r.A (F.b r.q) ss)) := rfl
  rw [e] at b2
  unfold L chainStep
  rw [e]
  linarith [gs.2, gt.2]

end Family

namespace Categorical
variable {nc nf : ℕ} {ep : Fin nc → Fin nf → ℝ} {ps : List Char}

/-- The emission update gains at least what the emission prior loses and the length of its step. -/
theorem gains_step [NeZero nc] (ss : List (ObsSeq (Fin nf))) {r : RParams nc (Rows nc nf)} (h : r.Valid)
    (hp : 'e' ∈ ps → ∀ i k, 1 ≤ ep i k) (h1 : 'e' ∈ ps → ∀ i k, r.q.e i k = 0 → ep i k = 1) :
    (family ep ps).Gains ss r (∑ i, logDirichlet (ep i) (r.q.e i) -
      ∑ i, logDirichlet (ep i) (((family ep ps).next r.q
        (obsStat r.π r.A ((family ep ps).b r.q) ss)).e i) +
      ∑ i, evidenceOf (ep i) (r.q.e i) (emitCount r.π r.A r.q.e ss i) *
        hellinger (((family ep ps).next r.q (obsStat r.π r.A ((family ep ps).b r.q) ss)).e i)
          (r.q.e i)) := by
  refine ⟨(gains ss h hp h1).ac, ?_⟩
  have hb : ∀ o i, 0 ≤ (family ep ps).b r.q o i := (family ep ps).b_nonneg r.q
  by_cases he : 'e' ∈ ps
  · have hnext : ∀ i, ((family ep ps).next r.q (obsStat r.π r.A ((family ep ps).b r.q) ss)).e i =
        mapUpdate (ep i) (r.q.e i) fun k => obsStat r.π r.A ((family ep ps).b r.q) ss i (ind k) := by
      intro i
      rw [← updRow_eq (old := r.q.e i) (fun k hk => obsStat_zero_of_weight
        (b := (family ep ps).b r.q) hk ss) (h1 he i)]
      simp [family, he]
    have hst : ∀ i k, 0 ≤ obsStat r.π r.A ((family ep ps).b r.q) ss i (ind k) := fun i k =>
      obsStat_nonneg h.π_nonneg h.A_nonneg hb ss i fun o => by unfold ind; split <;> norm_num
    have hem : ∀ i, emitCount r.π r.A r.q.e ss i =
        fun k => obsStat r.π r.A ((family ep ps).b r.q) ss i (ind k) := by
      intro i
      funext k
      unfold obsStat emitCount ind
      congr 2; funext s
      exact Finset.sum_congr rfl fun t _ => by split <;> simp [family] <;> rfl
    rw [emissionGain_eq, ← Finset.sum_sub_distrib, ← Finset.sum_add_distrib]
    refine Finset.sum_le_sum fun i _ => ?_
    rw [obsStat_fintype, hnext, hem]
    refine (Family.mapUpdate_gain_step (r.q.nonneg i) (r.q.sum_le i) (hp he i) (hst i)).trans (le_of_eq ?_)
    refine Finset.sum_congr rfl fun k _ => ?_
    have : (family ep ps).b ((family ep ps).next r.q (obsStat r.π r.A ((family ep ps).b r.q) ss)) k i
      = mapUpdate (ep i) (r.q.e i)
        (fun k => obsStat r.π r.A ((family ep ps).b r.q) ss i (ind k)) k := congrFun (hnext i) k
    rw [this]; rfl
  · have hn : (family ep ps).next r.q (obsStat r.π r.A ((family ep ps).b r.q) ss) = r.q := by
      simp [family, he]
    have := (gains ss h hp h1).gain_le
    rw [hn] at this ⊢
    simpa [hellinger_self] using this

end Categorical
end Verif
