import Verif.Model.Poisson
import Verif.Proofs.EmissionUtil
import Verif.Proofs.CategoricalFamily
import Verif.Spec.Poisson

/-!
# EM for `PoissonHMM`
-/

namespace Verif
open FloatLike XF Hmmc Spec
open scoped Classical

variable {nc nf : ℕ}

namespace Poisson

/-- Counts as a row of `X`. -/
def row (x : Fin nf → ℕ) : Obs nf := fun k => (x k : Int)

theorem logpmf_fin (k : ℕ) {l : ℝ} (hl : 0 ≤ l) :
    logpmf (k : Int) (fin l) = lg (poissonPmf l k) := by
  unfold logpmf
  have h1 : ¬ ((k : Int) < 0) := by omega
  simp only [zero_def, fin_le, hl, decide_true, Bool.not_true, Bool.false_eq_true, if_false, h1,
    Int.toNat_natCast]
  rw [xlogy_fin k hl, logFactorial_eq, lg_div (pow_nonneg hl k) (by positivity),
    lg_sub_fin (by positivity)]
  unfold poissonPmf
  congr 1; ring

theorem poissonPmf_nonneg {l : ℝ} (hl : 0 ≤ l) (k : ℕ) : 0 ≤ poissonPmf l k := by
  unfold poissonPmf; positivity

theorem pmf_fin (k : ℕ) {l : ℝ} (hl : 0 ≤ l) : pmf (k : Int) (fin l) = fin (poissonPmf l k) := by
  unfold pmf
  have h1 : ¬ ((k : Int) < 0) := by omega
  simp only [zero_def, fin_le, hl, decide_true, Bool.not_true, Bool.false_eq_true, if_false, h1,
    logpmf_fin k hl, lg_exp (poissonPmf_nonneg hl k)]

/-- Non-negative rates. -/
structure Rates (nc nf : ℕ) where
  l : Fin nc → Fin nf → ℝ
  nonneg : ∀ i k, 0 ≤ l i k

/-- The rate update on expected counts. -/
noncomputable def upd (al be : Fin nc → Fin nf → ℝ) (T : Fin nc → ((Fin nf → ℕ) → ℝ) → ℝ)
    (i : Fin nc) (k : Fin nf) : ℝ :=
  (al i k + (∑ j, T j fun _ => 1) * (T i (fun x => (x k : ℝ)) / T i fun _ => 1)) /
    (be i k + ∑ j, T j fun _ => 1)

/-- The Poisson family. -/
noncomputable def family [NeZero nc] (al be : Fin nc → Fin nf → ℝ) (hal : ∀ i k, 0 ≤ al i k)
    (hbe : ∀ i k, 0 ≤ be i k) (ps : List Char) :
    Family (emission (nc := nc) (fun i k => fin (al i k)) fun i k => fin (be i k)) (row (nf := nf))
      ps (Rates nc nf) where
  embed q i k := fin (q.l i k)
  b q x i := poissonB q.l x i
  b_nonneg q x i := Finset.prod_nonneg fun k _ => poissonPmf_nonneg (q.nonneg i k) _
  lik_eq q X := by
    simp only [emission, computeLikelihood, List.map_map, memo_eq]
    congr 1
    refine List.map_congr_left fun x _ => ?_
    funext i
    simp only [Function.comp, row, pmf_fin _ (q.nonneg i _), prodF_fin]
    rfl
  loglik_eq q X := by
    simp only [emission, computeLogLikelihood, List.map_map, memo_eq]
    congr 1
    refine List.map_congr_left fun x _ => ?_
    funext i
    simp only [Function.comp, row, logpmf_fin _ (q.nonneg i _)]
    rw [sumF_lg _ fun k => poissonPmf_nonneg (q.nonneg i k) _]
    rfl
  stat q T := ⟨fun i => fin (gate ps 'l' (T i fun _ => 1)),
    fun i k => fin (gate ps 'l' (T i fun x => (x k : ℝ)))⟩
  emFold_eq q π A ss := by
    refine emFold_of_acc (fun T => (⟨fun i => fin (gate ps 'l' (T i fun _ => 1)),
      fun i k => fin (gate ps 'l' (T i fun x => (x k : ℝ)))⟩ : Stats XF nc nf)) ?_ ?_ ss
    · simp [emission, gate]
    · intro T s
      by_cases hl : 'l' ∈ ps
      · simp only [emission, hl, if_true, gate, memo_eq, postRows, ObsSeq.rows]
        congr 2
        · funext i
          rw [sumPost_ofFn]; simp
        · funext i k
          rw [dotPost_ofFn _ _ _ (fun t => ((s.x t k : ℕ) : ℝ)) (fun t => by simp [row])]
          simp
      · simp [emission, hl, gate]
  next q T := if 'l' ∈ ps then ⟨fun i k => max 0 (upd al be T i k), fun i k => le_max_left _ _⟩ else q
  Good q T := 'l' ∈ ps → ∀ i, T i (fun _ => 1) ≠ 0
  mstep_eq q T hT hg := by
    by_cases hl : 'l' ∈ ps
    · have hpos : ∀ i, 0 < T i fun _ => 1 := fun i =>
        lt_of_le_of_ne (hT.nonneg i _ fun _ => zero_le_one) (hg hl i).symm
      have hn : 0 < ∑ j, T j fun _ => 1 := Finset.sum_pos (fun j _ => hpos j) ⟨0, Finset.mem_univ _⟩
      simp only [emission, hl, if_true, gate, mstepLambdas, memo_eq, sumF_fin]
      funext i k
      have h1 : 0 < be i k + ∑ j, T j fun _ => 1 := by have := hbe i k; linarith
      rw [fin_div _ _ (hpos i).ne', fin_mul, fin_add, fin_add, fin_div _ _ h1.ne']
      congr 1
      rw [max_eq_right]; rfl
      refine div_nonneg (add_nonneg (hal i k) (mul_nonneg hn.le (div_nonneg
        (hT.nonneg i _ fun x => Nat.cast_nonneg _) (hpos i).le))) h1.le
    · simp [emission, hl]

end Poisson
end Verif

namespace Verif
open FloatLike XF Hmmc Spec
open scoped Classical

variable {nc nf : ℕ}

namespace Poisson

theorem poissonPmf_pos {l : ℝ} (hl : 0 < l) (k : ℕ) : 0 < poissonPmf l k := by
  unfold poissonPmf; positivity

theorem poissonPmf_pos_iff {l : ℝ} (hl : 0 ≤ l) (k : ℕ) : 0 < poissonPmf l k ↔ (l = 0 → k = 0) := by
  rcases hl.eq_or_lt with h0 | hpos
  · subst h0
    unfold poissonPmf
    by_cases hk : k = 0
    · simp [hk]
    · simp [hk, zero_pow hk]
  · exact ⟨fun _ h => absurd h hpos.ne', fun _ => poissonPmf_pos hpos k⟩

variable [NeZero nc] {al be : Fin nc → Fin nf → ℝ} {hal : ∀ i k, 0 ≤ al i k}
  {hbe : ∀ i k, 0 ≤ be i k} {ps : List Char}

theorem good (ss : List (ObsSeq (Fin nf → ℕ))) (r : RParams nc (Rates nc nf)) (h : r.Valid)
    (hL : (family al be hal hbe ps).Ok .log ss r) (ho : (family al be hal hbe ps).Occupied ss r) :
    (family al be hal hbe ps).Good r.q (obsStat r.π r.A ((family al be hal hbe ps).b r.q) ss) :=
  fun _ i => (ho.pos h hL i).ne'

theorem upd_pos (ss : List (ObsSeq (Fin nf → ℕ))) (r : RParams nc (Rates nc nf)) (h : r.Valid)
    (ho : ∀ i, 0 < obsStat r.π r.A (poissonB r.q.l) ss i fun _ => 1)
    (hal : ∀ i k, 0 ≤ al i k) (hbe : ∀ i k, 0 ≤ be i k) {i : Fin nc} {k : Fin nf}
    (hk : obsStat r.π r.A (poissonB r.q.l) ss i (fun x => (x k : ℝ)) ≠ 0) :
    0 < upd al be (obsStat r.π r.A (poissonB r.q.l) ss) i k := by
  have hT := obsStat_posLin (b := poissonB r.q.l) h.π_nonneg h.A_nonneg
    (fun o i => Finset.prod_nonneg fun k _ => poissonPmf_nonneg (r.q.nonneg i k) _) ss
  have hn : 0 < ∑ j, obsStat r.π r.A (poissonB r.q.l) ss j fun _ => 1 :=
    Finset.sum_pos (fun j _ => ho j) ⟨0, Finset.mem_univ _⟩
  have hx := lt_of_le_of_ne (hT.nonneg i (fun x => (x k : ℝ)) fun x => Nat.cast_nonneg _) hk.symm
  refine div_pos (add_pos_of_nonneg_of_pos (hal i k) (mul_pos hn (div_pos hx (ho i)))) ?_
  have := hbe i k
  linarith

/-- The new rates give positive weight to every frame the state may have emitted. -/
theorem ac (ss : List (ObsSeq (Fin nf → ℕ))) (r : RParams nc (Rates nc nf)) (h : r.Valid)
    (hL : (family al be hal hbe ps).Ok .log ss r) (ho : (family al be hal hbe ps).Occupied ss r) :
    (family al be hal hbe ps).Ac ss r := by
  have hb : ∀ o i, 0 ≤ poissonB r.q.l o i := (family al be hal hbe ps).b_nonneg r.q
  intro s hs t i hpos
  by_cases hl : 'l' ∈ ps
  · show 0 < poissonB ((family al be hal hbe ps).next r.q _).l (s.x t) i
    refine Finset.prod_pos fun k _ => ?_
    have hnext : ((family al be hal hbe ps).next r.q (obsStat r.π r.A
        ((family al be hal hbe ps).b r.q) ss)).l i k =
        max 0 (upd al be (obsStat r.π r.A (poissonB r.q.l) ss) i k) := by
      simp only [family, hl, if_true]
    rw [poissonPmf_pos_iff (Rates.nonneg _ i k)]
    intro h0
    by_contra hne
    rw [hnext] at h0
    have hx : obsStat r.π r.A (poissonB r.q.l) ss i (fun x => (x k : ℝ)) ≠ 0 := by
      intro h1
      have := eq_zero_of_obsStat h.π_nonneg h.A_nonneg hb (f := fun x => (x k : ℝ))
        (fun x => Nat.cast_nonneg (x k)) h1 s hs t hpos.ne'
      exact hne (Nat.cast_eq_zero.1 this)
    have := upd_pos ss r h (fun i => ho.pos h hL i) hal hbe hx
    rw [max_eq_right this.le] at h0
    exact this.ne' h0
  · have hn : (family al be hal hbe ps).next r.q
        (obsStat r.π r.A ((family al be hal hbe ps).b r.q) ss) = r.q := by
      simp [family, hl]
    rw [hn]
    refine lt_of_le_of_ne (hb _ _) fun h0 => hpos.ne' ?_
    exact posterior_zero_of_weight h0.symm

theorem mul_log_sub {a b : ℝ} (ha : 0 ≤ a) (hb : 0 ≤ b) (hab : b = 0 → a = 0) :
    0 ≤ a * Real.log (a / b) - a + b := by
  rcases ha.eq_or_lt with h0 | hpos
  · subst h0; simpa using hb
  · have hb' : 0 < b := lt_of_le_of_ne hb fun h => hpos.ne' (hab h.symm)
    have h2 := Real.one_sub_inv_le_log_of_pos (div_pos hpos hb')
    have h3 : a * (1 - (a / b)⁻¹) ≤ a * Real.log (a / b) := mul_le_mul_of_nonneg_left h2 ha
    have h4 : a * (1 - (a / b)⁻¹) = a - b := by field_simp
    linarith

/-- With a zero prior the rate update gains. -/
theorem gains (ss : List (ObsSeq (Fin nf → ℕ))) (r : RParams nc (Rates nc nf)) (h : r.Valid)
    (hz : 'l' ∈ ps → (∀ i k, al i k = 0) ∧ ∀ i k, be i k = 0)
    (hL : (family al be hal hbe ps).Ok .log ss r) (ho : (family al be hal hbe ps).Occupied ss r) :
    (family al be hal hbe ps).Gains ss r 0 := by
  refine ⟨ac ss r h hL ho, ?_⟩
  have hb : ∀ o i, 0 ≤ poissonB r.q.l o i := (family al be hal hbe ps).b_nonneg r.q
  have hac := ac ss r h hL ho
  rw [emissionGain_eq]
  refine Finset.sum_nonneg fun i _ => ?_
  by_cases hl : 'l' ∈ ps
  · set T := obsStat r.π r.A (poissonB r.q.l) ss with hTdef
    have hT : PosLin T := obsStat_posLin h.π_nonneg h.A_nonneg hb ss
    have hpos : ∀ i, 0 < T i fun _ => 1 := fun i => ho.pos h hL i
    have hn : 0 < ∑ j, T j fun _ => 1 := Finset.sum_pos (fun j _ => hpos j) ⟨0, Finset.mem_univ _⟩
    have hx0 : ∀ k, 0 ≤ T i fun x => (x k : ℝ) := fun k => hT.nonneg i _ fun x => Nat.cast_nonneg _
    set l' := ((family al be hal hbe ps).next r.q T).l with hl'
    have hnext : ∀ k, l' i k = T i (fun x => (x k : ℝ)) / T i fun _ => 1 := by
      intro k
      have e1 : l' i k = max 0 (upd al be T i k) := by simp only [hl', family, hl, if_true]
      have e2 : upd al be T i k = T i (fun x => (x k : ℝ)) / T i fun _ => 1 := by
        unfold upd
        rw [(hz hl).1, (hz hl).2, zero_add, zero_add, mul_div_cancel_left₀ _ hn.ne']
      rw [e1, e2, max_eq_right (div_nonneg (hx0 k) (hpos i).le)]
    have hzero : ∀ k, r.q.l i k = 0 → T i (fun x => (x k : ℝ)) = 0 := by
      intro k hk
      have : T i (fun x => (x k : ℝ)) = T i fun _ => 0 := by
        refine obsStat_congr fun s hs t hne => ?_
        by_contra hx
        refine hne (posterior_zero_of_weight ?_)
        refine Finset.prod_eq_zero (Finset.mem_univ k) ?_
        have := poissonPmf_pos_iff (l := r.q.l i k) (r.q.nonneg i k) (s.x t k)
        refine le_antisymm (not_lt.1 fun hlt => ?_) (poissonPmf_nonneg (r.q.nonneg i k) _)
        exact hx (by exact_mod_cast this.1 hlt hk)
      rw [this, hT.zero]
    have key : T i (fun o => Real.log (poissonB l' o i / poissonB r.q.l o i)) =
        T i fun o => ∑ k, ((o k : ℝ) * Real.log (l' i k / r.q.l i k) - (l' i k - r.q.l i k)) := by
      refine obsStat_congr fun s hs t hne => ?_
      have hpp : 0 < posterior r.π r.A (s.weights (poissonB r.q.l)) t i :=
        lt_of_le_of_ne (posterior_nonneg' h.π_nonneg h.A_nonneg hb s t i) (Ne.symm hne)
      have hb' : 0 < poissonB l' (s.x t) i := hac s hs t i hpp
      have hb0 : 0 < poissonB r.q.l (s.x t) i :=
        lt_of_le_of_ne (hb _ _) fun h0 => hne (posterior_zero_of_weight h0.symm)
      have hf' : ∀ k, 0 < poissonPmf (l' i k) (s.x t k) := fun k =>
        lt_of_le_of_ne (poissonPmf_nonneg (Rates.nonneg _ i k) _) fun h0 =>
          hb'.ne' (Finset.prod_eq_zero (Finset.mem_univ k) h0.symm)
      have hf0 : ∀ k, 0 < poissonPmf (r.q.l i k) (s.x t k) := fun k =>
        lt_of_le_of_ne (poissonPmf_nonneg (r.q.nonneg i k) _) fun h0 =>
          hb0.ne' (Finset.prod_eq_zero (Finset.mem_univ k) h0.symm)
      unfold poissonB
      rw [← Finset.prod_div_distrib, Real.log_prod fun k _ => (div_pos (hf' k) (hf0 k)).ne']
      refine Finset.sum_congr rfl fun k _ => ?_
      have e : poissonPmf (l' i k) (s.x t k) / poissonPmf (r.q.l i k) (s.x t k) =
          Real.exp (-(l' i k - r.q.l i k)) * (l' i k / r.q.l i k) ^ (s.x t k) := by
        unfold poissonPmf
        rw [show -(l' i k - r.q.l i k) = -l' i k - -r.q.l i k by ring, Real.exp_sub, div_pow]
        have : ((s.x t k).factorial : ℝ) ≠ 0 := by positivity
        have h2 := (Real.exp_pos (-r.q.l i k)).ne'
        by_cases h0 : r.q.l i k ^ (s.x t k) = 0
        · rw [h0]; simp
        · field_simp
      rw [e]
      by_cases hx : s.x t k = 0
      · rw [hx]; simp
      · have h1 : r.q.l i k ≠ 0 := fun h0 =>
          hx ((poissonPmf_pos_iff (r.q.nonneg i k) _).1 (hf0 k) h0)
        have h2 : l' i k ≠ 0 := fun h0 =>
          hx ((poissonPmf_pos_iff (Rates.nonneg _ i k) _).1 (hf' k) h0)
        rw [Real.log_mul (Real.exp_pos _).ne' (pow_ne_zero _ (div_ne_zero h2 h1)), Real.log_exp,
          Real.log_pow]
        ring
    have e0 : T i (fun o => Real.log ((family al be hal hbe ps).b ((family al be hal hbe ps).next r.q
        (obsStat r.π r.A ((family al be hal hbe ps).b r.q) ss)) o i /
        (family al be hal hbe ps).b r.q o i)) =
        T i (fun o => Real.log (poissonB l' o i / poissonB r.q.l o i)) := rfl
    have goal : 0 ≤ T i fun o =>
        ∑ k, ((o k : ℝ) * Real.log (l' i k / r.q.l i k) - (l' i k - r.q.l i k)) := by
      rw [hT.sum]
      refine Finset.sum_nonneg fun k _ => ?_
      rw [hT.sub, hT.mul_const, hT.const]
      have e1 : T i (fun x => (x k : ℝ)) = (T i fun _ => 1) * l' i k := by
        rw [hnext]; field_simp [(hpos i).ne']
      rw [e1]
      have := mul_nonneg (hpos i).le (mul_log_sub (Rates.nonneg _ i k : 0 ≤ l' i k) (r.q.nonneg i k)
        fun h0 => (hnext k).trans (by rw [hzero k h0, zero_div]))
      linarith
    exact goal.trans_eq (e0.trans key).symm
  · have hn : (family al be hal hbe ps).next r.q
        (obsStat r.π r.A ((family al be hal hbe ps).b r.q) ss) = r.q := by
      simp [family, hl]
    rw [hn]
    refine le_of_eq ?_
    have : (fun o => Real.log ((family al be hal hbe ps).b r.q o i /
        (family al be hal hbe ps).b r.q o i)) = fun _ => 0 := by
      funext o
      by_cases h0 : (family al be hal hbe ps).b r.q o i = 0 <;> simp [h0]
    rw [this]
    exact (PosLin.zero (obsStat_posLin h.π_nonneg h.A_nonneg hb ss) i).symm

end Poisson
end Verif
