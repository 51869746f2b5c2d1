import Verif.Model.Multinomial
import Verif.Proofs.EmissionUtil
import Verif.Proofs.CategoricalFamily
import Verif.Spec.Multinomial

/-!
# EM for `MultinomialHMM`
-/

namespace Verif
open FloatLike XF Hmmc Spec
open scoped Classical

variable {nc nf : ℕ}

namespace Multinomial

/-- Counts as a row of `X`. -/
def row (x : Fin nf → ℕ) : Obs nf := fun k => (x k : Int)

theorem adjusted_fin (p : Fin nf → ℝ) (hsum : ∑ k, p k = 1) (k : Fin nf) (hk : k.val + 1 = nf) :
    adjusted (fun k => fin (p k)) = fin (p k) := by
  cases nf with
  | zero => exact k.elim0
  | succ m =>
    unfold adjusted
    rw [one_def, sumF_fin, fin_sub]
    rw [Fin.sum_univ_castSucc] at hsum
    have e : k = Fin.last m := Fin.ext (by simpa using hk)
    subst e
    congr 1
    have : ∑ j : Fin (m + 1 - 1), p ⟨j.val, by omega⟩ = ∑ j : Fin m, p j.castSucc := rfl
    rw [this]; linarith

/-- On a probability vector scipy's adjustment of the last entry does nothing. -/
theorem processParams_fin (p : Fin nf → ℝ) (hsum : ∑ k, p k = 1) :
    processParams (fun k => fin (p k)) = fun k => fin (p k) := by
  funext k
  unfold processParams
  split
  · next h =>
    simp only [Bool.and_eq_true, decide_eq_true_eq] at h
    exact adjusted_fin p hsum k h.1
  · rfl

theorem logpmf_fin (p : Fin nf → ℝ) (hp : ∀ k, 0 ≤ p k) (hsum : ∑ k, p k = 1) (x : Fin nf → ℕ) :
    logpmf (row x) (fun k => fin (p k)) = lg (multinomialPmf p x) := by
  unfold logpmf
  rw [processParams_fin p hsum]
  have hle : ∀ k, p k ≤ 1 := fun k => hsum ▸
    Finset.single_le_sum (f := p) (fun k _ => hp k) (Finset.mem_univ k)
  have hn : ((List.finRange nf).map (row x)).sum = ((∑ k, x k : ℕ) : Int) := by
    rw [← List.ofFn_eq_map, List.sum_ofFn]; simp [row]
  have h1 : (List.finRange nf).any (fun k => lt (fin (p k)) 0 || lt (1 : XF) (fin (p k))) = false := by
    rw [List.any_eq_false]
    intro k _
    simp [hp k, hle k]
  have h2 : (List.finRange nf).any (fun k => decide (row x k < 0)) = false := by
    rw [List.any_eq_false]
    intro k _
    have : ¬ ((x k : Int) < 0) := by omega
    simp only [row]
    exact fun hd => this (of_decide_eq_true hd)
  have h3 : ¬ (((∑ k, x k : ℕ) : Int) < 0) := by omega
  simp only [hn, h1, h2, h3, decide_false, Bool.or_false, Bool.false_eq_true, if_false,
    Int.toNat_natCast]
  have h4 : ∀ k, (xlogy (row x k).toNat (fin (p k)) - logFactorial (row x k).toNat : XF) =
      lg (p k ^ x k / (x k).factorial) := by
    intro k
    simp only [row, Int.toNat_natCast]
    rw [xlogy_fin _ (hp k), logFactorial_eq, lg_div (pow_nonneg (hp k) _) (by positivity)]
  simp only [h4]
  rw [sumF_lg _ fun k => div_nonneg (pow_nonneg (hp k) _) (by positivity), logFactorial_eq,
    lg_mul (by positivity) (Finset.prod_nonneg fun k _ =>
      div_nonneg (pow_nonneg (hp k) _) (by positivity))]
  rfl

theorem multinomialPmf_nonneg {p : Fin nf → ℝ} (hp : ∀ k, 0 ≤ p k) (x : Fin nf → ℕ) :
    0 ≤ multinomialPmf p x :=
  mul_nonneg (by positivity) (Finset.prod_nonneg fun k _ => div_nonneg (pow_nonneg (hp k) _)
    (by positivity))

/-- Rows of emission probabilities, each summing to one. -/
structure Rows (nc nf : ℕ) where
  e : Fin nc → Fin nf → ℝ
  nonneg : ∀ i k, 0 ≤ e i k
  sum_one : ∀ i, ∑ k, e i k = 1

/-- The row update on expected counts. -/
noncomputable def upd (T : Fin nc → ((Fin nf → ℕ) → ℝ) → ℝ) (i : Fin nc) (k : Fin nf) : ℝ :=
  T i (fun x => (x k : ℝ)) / ∑ j, T i fun x => (x j : ℝ)

/-- The multinomial family. -/
noncomputable def family [NeZero nc] (ps : List Char) :
    Family (emission (α := XF) (nc := nc)) (row (nf := nf)) ps (Rows nc nf) where
  embed q i k := fin (q.e i k)
  b q x i := multinomialB q.e x i
  b_nonneg q x i := multinomialPmf_nonneg (q.nonneg i) x
  lik_eq q X := by
    simp only [emission, computeLikelihood, List.map_map, memo_eq]
    congr 1
    refine List.map_congr_left fun x _ => ?_
    funext i
    simp only [Function.comp, logpmf_fin _ (q.nonneg i) (q.sum_one i)]
    rw [lg_exp (multinomialPmf_nonneg (q.nonneg i) x)]; rfl
  loglik_eq q X := by
    simp only [emission, computeLogLikelihood, List.map_map, memo_eq]
    congr 1
    refine List.map_congr_left fun x _ => ?_
    funext i
    simp only [Function.comp, logpmf_fin _ (q.nonneg i) (q.sum_one i)]
    rfl
  stat q T i k := fin (gate ps 'e' (T i fun x => (x k : ℝ)))
  emFold_eq q π A ss := by
    refine emFold_of_acc (S := Params XF nc nf)
      (fun T i k => fin (gate ps 'e' (T i fun x => (x k : ℝ)))) ?_ ?_ ss
    · simp [emission, gate]
    · intro T s
      by_cases hl : 'e' ∈ ps
      · simp only [emission, hl, if_true, gate, memo_eq, postRows, ObsSeq.rows]
        congr 1
        funext i k
        rw [dotPost_ofFn _ _ _ (fun t => ((s.x t k : ℕ) : ℝ)) (fun t => by simp [row])]
        simp
      · simp [emission, hl, gate]
  next q T := if h : 'e' ∈ ps ∧ (∀ i k, 0 ≤ upd T i k) ∧ ∀ i, ∑ k, upd T i k = 1 then
      ⟨upd T, h.2.1, h.2.2⟩ else q
  Good q T := 'e' ∈ ps → ∀ i, ∑ k, T i (fun x => (x k : ℝ)) ≠ 0
  mstep_eq q T hT hg := by
    by_cases hl : 'e' ∈ ps
    · have h0 : ∀ i k, 0 ≤ T i fun x => (x k : ℝ) := fun i k => hT.nonneg i _ fun x => Nat.cast_nonneg _
      have h1 : ∀ i k, 0 ≤ upd T i k := fun i k => div_nonneg (h0 i k)
        (Finset.sum_nonneg fun j _ => h0 i j)
      have h2 : ∀ i, ∑ k, upd T i k = 1 := fun i => by
        simp only [upd]; rw [← Finset.sum_div, div_self (hg hl i)]
      rw [dif_pos ⟨hl, h1, h2⟩]
      simp only [emission, hl, if_true, gate, mstepRow, memo_eq, sumF_fin]
      funext i k
      rw [fin_div _ _ (hg hl i)]; rfl
    · rw [dif_neg (fun h => hl h.1)]
      simp [emission, hl]

variable [NeZero nc] {ps : List Char}

/-- Every state has positive probability of having emitted some positive count. -/
def Emits (ss : List (ObsSeq (Fin nf → ℕ))) (r : RParams nc (Rows nc nf)) : Prop :=
  ∀ i, ∃ s ∈ ss, ∃ (z : Fin (s.n + 1) → Fin nc) (t : Fin (s.n + 1)) (k : Fin nf),
    0 < joint r.π r.A (s.weights (multinomialB r.q.e)) z ∧ z t = i ∧ s.x t k ≠ 0

theorem emits_pos {ss : List (ObsSeq (Fin nf → ℕ))} {r : RParams nc (Rows nc nf)} (h : r.Valid)
    (hL : (family ps).Ok .log ss r) (ho : Emits ss r) (i : Fin nc) :
    0 < ∑ k, obsStat r.π r.A (multinomialB r.q.e) ss i fun x => (x k : ℝ) := by
  have hb : ∀ o i, 0 ≤ multinomialB r.q.e o i := (family ps).b_nonneg r.q
  have hT := obsStat_posLin (b := multinomialB r.q.e) h.π_nonneg h.A_nonneg hb ss
  have h0 : ∀ i k, 0 ≤ obsStat r.π r.A (multinomialB r.q.e) ss i fun x => (x k : ℝ) :=
    fun i k => hT.nonneg i _ fun x => Nat.cast_nonneg _
  obtain ⟨s, hs, z, t, k, hz, hzt, hk⟩ := ho i
  refine Finset.sum_pos' (fun k _ => h0 i k) ⟨k, Finset.mem_univ k, ?_⟩
  refine lt_of_le_of_ne (h0 i k) fun he => ?_
  have := eq_zero_of_obsStat h.π_nonneg h.A_nonneg hb (f := fun x => (x k : ℝ))
    (fun x => Nat.cast_nonneg (x k)) he.symm s hs t ?_
  · exact hk (Nat.cast_eq_zero.1 this)
  · subst hzt
    refine (div_pos (hz.trans_le (joint_le_stateMass h.π_nonneg h.A_nonneg (fun t i => hb _ _) z t))
      (hL s hs)).ne'

theorem next_eq {ss : List (ObsSeq (Fin nf → ℕ))} {r : RParams nc (Rows nc nf)} (h : r.Valid)
    (hL : (family ps).Ok .log ss r) (ho : Emits ss r) (he : 'e' ∈ ps) :
    ((family ps).next r.q (obsStat r.π r.A (multinomialB r.q.e) ss)).e =
      upd (obsStat r.π r.A (multinomialB r.q.e) ss) := by
  have hT := obsStat_posLin (b := multinomialB r.q.e) h.π_nonneg h.A_nonneg
    ((family ps).b_nonneg r.q) ss
  have h0 : ∀ i k, 0 ≤ obsStat r.π r.A (multinomialB r.q.e) ss i fun x => (x k : ℝ) :=
    fun i k => hT.nonneg i _ fun x => Nat.cast_nonneg _
  have : 'e' ∈ ps ∧ (∀ i k, 0 ≤ upd (obsStat r.π r.A (multinomialB r.q.e) ss) i k) ∧
      ∀ i, ∑ k, upd (obsStat r.π r.A (multinomialB r.q.e) ss) i k = 1 := by
    refine ⟨he, fun i k => div_nonneg (h0 i k) (Finset.sum_nonneg fun j _ => h0 i j), fun i => ?_⟩
    simp only [upd]; rw [← Finset.sum_div, div_self (emits_pos h hL ho i).ne']
  simp only [family, dif_pos this]

theorem multinomialPmf_pos_iff {p : Fin nf → ℝ} (hp : ∀ k, 0 ≤ p k) (x : Fin nf → ℕ) :
    0 < multinomialPmf p x ↔ ∀ k, p k = 0 → x k = 0 := by
  have hf : ∀ k, 0 ≤ p k ^ x k / (x k).factorial := fun k =>
    div_nonneg (pow_nonneg (hp k) _) (by positivity)
  have hn : (0 : ℝ) < ((∑ k, x k).factorial : ℝ) := by positivity
  unfold multinomialPmf
  rw [mul_pos_iff_of_pos_left hn]
  constructor
  · intro h k hk
    by_contra hne
    refine h.ne' (Finset.prod_eq_zero (Finset.mem_univ k) ?_)
    rw [hk, zero_pow hne, zero_div]
  · intro h
    refine Finset.prod_pos fun k _ => ?_
    rcases (hp k).eq_or_lt with h0 | hpos
    · rw [h k h0.symm]; simp
    · positivity

/-- The multinomial update is the Dirichlet one with a flat prior. -/
theorem upd_eq_mapUpdate {ss : List (ObsSeq (Fin nf → ℕ))} {r : RParams nc (Rows nc nf)} (h : r.Valid)
    (i : Fin nc) : (∀ k, r.q.e i k = 0 →
      obsStat r.π r.A (multinomialB r.q.e) ss i (fun x => (x k : ℝ)) = 0) ∧
    upd (obsStat r.π r.A (multinomialB r.q.e) ss) i =
      mapUpdate (fun _ => 1) (r.q.e i) fun k =>
        obsStat r.π r.A (multinomialB r.q.e) ss i fun x => (x k : ℝ) := by
  have hb : ∀ o i, 0 ≤ multinomialB r.q.e o i := (family (nc := nc) (nf := nf) []).b_nonneg r.q
  have hT := obsStat_posLin (b := multinomialB r.q.e) h.π_nonneg h.A_nonneg hb ss
  have h0 : ∀ k, 0 ≤ obsStat r.π r.A (multinomialB r.q.e) ss i fun x => (x k : ℝ) :=
    fun k => hT.nonneg i _ fun x => Nat.cast_nonneg _
  have hz : ∀ k, r.q.e i k = 0 →
      obsStat r.π r.A (multinomialB r.q.e) ss i (fun x => (x k : ℝ)) = 0 := by
    intro k hk
    have : obsStat r.π r.A (multinomialB r.q.e) ss i (fun x => (x k : ℝ)) =
        obsStat r.π r.A (multinomialB r.q.e) ss i fun _ => 0 := by
      refine obsStat_congr fun s hs t hne => ?_
      have hpos : 0 < multinomialPmf (r.q.e i) (s.x t) :=
        lt_of_le_of_ne (hb _ _) fun h0 => hne (posterior_zero_of_weight h0.symm)
      have := (multinomialPmf_pos_iff (r.q.nonneg i) (s.x t)).1 hpos k hk
      simp [this]
    rw [this, hT.zero]
  refine ⟨hz, ?_⟩
  have hc : mapCounts (fun _ => 1) (r.q.e i) (fun k =>
      obsStat r.π r.A (multinomialB r.q.e) ss i fun x => (x k : ℝ)) =
      fun k => obsStat r.π r.A (multinomialB r.q.e) ss i fun x => (x k : ℝ) := by
    funext k
    unfold mapCounts
    split
    · next hk => rw [hz k hk]
    · rw [sub_self, zero_add, max_eq_left (h0 k)]
  funext k
  simp only [upd, mapUpdate, hc]

/-- The new rows give positive weight to every frame the state may have emitted. -/
theorem ac (ss : List (ObsSeq (Fin nf → ℕ))) (r : RParams nc (Rows nc nf)) (h : r.Valid)
    (hL : (family ps).Ok .log ss r) (ho : Emits ss r) : (family ps).Ac ss r := by
  have hb : ∀ o i, 0 ≤ multinomialB r.q.e o i := (family ps).b_nonneg r.q
  intro s hs t i hpos
  by_cases hl : 'e' ∈ ps
  · show 0 < multinomialPmf (((family ps).next r.q (obsStat r.π r.A (multinomialB r.q.e) ss)).e i)
      (s.x t)
    rw [multinomialPmf_pos_iff (Rows.nonneg _ i), next_eq h hL ho hl]
    intro k hk
    have hS := emits_pos h hL ho i
    have h1 : obsStat r.π r.A (multinomialB r.q.e) ss i (fun x => (x k : ℝ)) = 0 :=
      (div_eq_zero_iff.1 hk).resolve_right hS.ne'
    have := eq_zero_of_obsStat h.π_nonneg h.A_nonneg hb (f := fun x => (x k : ℝ))
      (fun x => Nat.cast_nonneg (x k)) h1 s hs t hpos.ne'
    exact Nat.cast_eq_zero.1 this
  · have hn : (family ps).next r.q (obsStat r.π r.A ((family ps).b r.q) ss) = r.q := by
      simp [family, hl]
    rw [hn]
    refine lt_of_le_of_ne (hb _ _) fun h0 => hpos.ne' ?_
    exact posterior_zero_of_weight h0.symm

/-- The emission update gains. -/
theorem gains (ss : List (ObsSeq (Fin nf → ℕ))) (r : RParams nc (Rows nc nf)) (h : r.Valid)
    (hL : (family ps).Ok .log ss r) (ho : Emits ss r) : (family ps).Gains ss r 0 := by
  have hac := ac ss r h hL ho
  refine ⟨hac, ?_⟩
  have hb : ∀ o i, 0 ≤ multinomialB r.q.e o i := (family ps).b_nonneg r.q
  rw [emissionGain_eq]
  refine Finset.sum_nonneg fun i _ => ?_
  by_cases hl : 'e' ∈ ps
  · set T := obsStat r.π r.A (multinomialB r.q.e) ss with hTdef
    have hT : PosLin T := obsStat_posLin h.π_nonneg h.A_nonneg hb ss
    set e' := ((family ps).next r.q T).e with he'
    have hnext : e' = upd T := next_eq h hL ho hl
    obtain ⟨hz, hmap⟩ := upd_eq_mapUpdate (ss := ss) h i
    have key : T i (fun o => Real.log (multinomialB e' o i / multinomialB r.q.e o i)) =
        T i fun o => ∑ k, (o k : ℝ) * Real.log (e' i k / r.q.e i k) := by
      refine obsStat_congr fun s hs t hne => ?_
      have hpp : 0 < posterior r.π r.A (s.weights (multinomialB r.q.e)) t i :=
        lt_of_le_of_ne (posterior_nonneg' h.π_nonneg h.A_nonneg hb s t i) (Ne.symm hne)
      have hb' : 0 < multinomialPmf (e' i) (s.x t) := hac s hs t i hpp
      have hb0 : 0 < multinomialPmf (r.q.e i) (s.x t) :=
        lt_of_le_of_ne (hb _ _) fun h0 => hne (posterior_zero_of_weight h0.symm)
      have hx' := (multinomialPmf_pos_iff (Rows.nonneg _ i) (s.x t)).1 hb'
      have hx0 := (multinomialPmf_pos_iff (r.q.nonneg i) (s.x t)).1 hb0
      have hpw : ∀ k, (e' i k / r.q.e i k) ^ (s.x t k) ≠ 0 := by
        intro k
        by_cases hx : s.x t k = 0
        · simp [hx]
        · exact pow_ne_zero _ (div_ne_zero (fun h0 => hx (hx' k h0)) fun h0 => hx (hx0 k h0))
      have e : multinomialB e' (s.x t) i / multinomialB r.q.e (s.x t) i =
          ∏ k, (e' i k / r.q.e i k) ^ (s.x t k) := by
        unfold multinomialB multinomialPmf
        rw [mul_div_mul_left _ _ (by positivity), ← Finset.prod_div_distrib]
        refine Finset.prod_congr rfl fun k _ => ?_
        rw [div_div_div_cancel_right₀ (by positivity), div_pow]
      show Real.log (multinomialB e' (s.x t) i / multinomialB r.q.e (s.x t) i) = _
      rw [e, Real.log_prod fun k _ => hpw k]
      exact Finset.sum_congr rfl fun k _ => Real.log_pow _ _
    have e0 : T i (fun o => Real.log ((family ps).b ((family ps).next r.q
        (obsStat r.π r.A ((family ps).b r.q) ss)) o i / (family ps).b r.q o i)) =
        T i (fun o => Real.log (multinomialB e' o i / multinomialB r.q.e o i)) := rfl
    refine le_of_le_of_eq ?_ (e0.trans key).symm
    rw [hT.sum]
    simp only [hT.mul_const]
    have h0 : ∀ k, 0 ≤ T i fun x => (x k : ℝ) := fun k => hT.nonneg i _ fun x => Nat.cast_nonneg _
    have := Family.mapUpdate_gain_split (r.q.nonneg i) (r.q.sum_one i).le (prior := fun _ => 1)
      (fun _ => le_rfl) h0 hz
    rw [← hmap] at this
    rw [hnext]
    simpa [logDirichlet] using this
  · have hn : (family ps).next r.q (obsStat r.π r.A ((family ps).b r.q) ss) = r.q := by
      simp [family, hl]
    rw [hn]
    refine le_of_eq ?_
    have : (fun o => Real.log ((family ps).b r.q o i / (family ps).b r.q o i)) = fun _ => 0 := by
      funext o
      by_cases h0 : (family ps).b r.q o i = 0 <;> simp [h0]
    rw [this]
    exact (PosLin.zero (obsStat_posLin h.π_nonneg h.A_nonneg hb ss) i).symm

/-- The set on which EM stays. -/
theorem closed (c : RConfig nc) (ss : List (ObsSeq (Fin nf → ℕ)))
    (hp : 's' ∈ ps → ∀ i, 1 ≤ c.sp i) (ht : 't' ∈ ps → ∀ i j, 1 ≤ c.tp i j) :
    (family ps).Closed c ss fun r => r.Valid ∧ (family ps).Ok .log ss r ∧ Emits ss r where
  valid r h := h.1
  ok hi r h := h.2.1
  good r h _ _ i := (emits_pos h.1 h.2.1 h.2.2 i).ne'
  next r h _ := by
    have := (family ps).rstep_gain c ss h.1 h.2.1 hp ht ⟨ac ss r h.1 h.2.1 h.2.2, le_rfl⟩
    refine ⟨(family ps).rstep_valid c ss h.1, this.1, fun i => ?_⟩
    obtain ⟨s, hs, z, t, k, hz, hzt, hk⟩ := h.2.2 i
    exact ⟨s, hs, z, t, k, this.2.1 s hs z hz, hzt, hk⟩

end Multinomial
end Verif
