import Verif.Proofs.Categorical
import Verif.Proofs.FitRuns

/-!
# EM for `CategoricalHMM`
-/

namespace Verif
open FloatLike XF Hmmc Spec
open scoped Classical

variable {nc nf : ℕ}

namespace Categorical

/-- Expected number of times each state emitted the symbol `k`: the weight function. -/
noncomputable def ind (k o : Fin nf) : ℝ := if o = k then 1 else 0

theorem addAt_ofFn {m : ℕ} (st : Fin nc → Fin nf → ℝ) (x : Fin m → Fin nf) (p : Fin m → Fin nc → ℝ) :
    addAt (fun i k => fin (st i k)) (List.ofFn fun t => sym (x t))
      (List.ofFn fun t i => fin (p t i)) =
      .ok fun i k => fin (st i k + ∑ t, p t i * ind k (x t)) := by
  induction m generalizing st with
  | zero => simp [addAt]
  | succ m ih =>
    rw [List.ofFn_succ, List.ofFn_succ]
    have hidx : index nf (sym (x 0)) = some (x 0) := index_fin _
    simp only [addAt, hidx, memo_eq]
    have e : (fun i c => if c = x 0 then (fin (st i c) + fin (p 0 i) : XF) else fin (st i c)) =
        fun i c => fin (st i c + p 0 i * ind c (x 0)) := by
      funext i c
      by_cases h : c = x 0
      · simp [h, ind]
      · simp [h, ind, Ne.symm h]
    rw [e, ih (fun i c => st i c + p 0 i * ind c (x 0)) (fun t => x t.succ) fun t => p t.succ]
    congr 1; funext i k
    rw [Fin.sum_univ_succ, add_assoc]

theorem emFold_acc [NeZero nc] (prior : Params XF nc nf) (ps : List Char) (e : Params XF nc nf)
    (π : Fin nc → ℝ) (A : Fin nc → Fin nc → ℝ) (b : Fin nf → Fin nc → ℝ) (ss : List (ObsSeq (Fin nf)))
    (st : Fin nc → Fin nf → ℝ) :
    emFold (emission prior) ps e sym π A b ss (fun i k => fin (st i k)) =
      .ok fun i k => fin (st i k + gate ps 'e' (obsStat π A b ss i (ind k))) := by
  induction ss generalizing st with
  | nil => simp [emFold, obsStat, gate, pure, Except.pure]
  | cons s ss ih =>
    simp only [emFold, List.foldlM_cons, bind, Except.bind]
    have h1 : (emission prior).acc ps e (fun i k => fin (st i k)) (s.rows sym)
        (postRows π A (s.weights b)) =
        .ok fun i k => fin (st i k + gate ps 'e'
          (∑ t, posterior π A (s.weights b) t i * ind k (s.x t))) := by
      by_cases he : 'e' ∈ ps
      · simp only [emission, he, if_true, gate]
        exact addAt_ofFn st s.x _
      · simp [emission, he, gate]
    rw [h1]
    have := ih fun i k => st i k + gate ps 'e'
      (∑ t, posterior π A (s.weights b) t i * ind k (s.x t))
    simp only [emFold] at this
    simp only
    rw [this]
    congr 1; funext i k
    by_cases he : 'e' ∈ ps
    · simp [gate, he, obsStat, add_assoc]
    · simp [gate, he]

/-- Rows of emission probabilities. -/
structure Rows (nc nf : ℕ) where
  e : Fin nc → Fin nf → ℝ
  nonneg : ∀ i k, 0 ≤ e i k
  sum_le : ∀ i, ∑ k, e i k ≤ 1

/-- New emission row: pseudo-counts `max(prior - 1 + count, 0)`, normalised. -/
noncomputable def updRow (prior stat : Fin nf → ℝ) : Fin nf → ℝ := mapUpdate prior (fun _ => 1) stat

theorem mstepRow_fin (prior stat : Fin nf → ℝ) :
    mstepRow (fun k => fin (prior k)) (fun k => fin (stat k)) = fun k => fin (updRow prior stat k) := by
  have h := mstepTransRow_fin prior (fun _ => 1) stat
  rw [updRow, ← h]
  simp [mstepRow, mstepTransRow]

/-- The categorical family. -/
noncomputable def family [NeZero nc] (ep : Fin nc → Fin nf → ℝ) (ps : List Char) :
    Family (emission (nc := nc) fun i k => fin (ep i k)) (sym (nf := nf)) ps (Rows nc nf) where
  embed q i k := fin (q.e i k)
  b q k i := q.e i k
  b_nonneg q o i := q.nonneg i o
  lik_eq q X := computeLikelihood_fin _ X
  loglik_eq q X := by
    show logRows (computeLikelihood _ (X.map sym)) = _
    have : X.map sym = X.map fun k => (k.val : Int) := rfl
    rw [this, computeLikelihood_fin]
    simp [logRows, Except.map]
  stat q T i k := fin (gate ps 'e' (T i (ind k)))
  emFold_eq q π A ss := by
    have := emFold_acc (fun i k => fin (ep i k)) ps (fun i k => fin (q.e i k)) π A
      (fun k i => q.e i k) ss fun _ _ => 0
    simp only [zero_add] at this
    exact this
  next q T := if 'e' ∈ ps then
      ⟨fun i => updRow (ep i) fun k => T i (ind k),
        fun i k => mapUpdate_nonneg _ _ _ _, fun i => sum_mapUpdate_le _ _ _⟩
    else q
  Good _ _ := True
  mstep_eq q T hT _ := by
    by_cases he : 'e' ∈ ps
    · simp only [emission, he, if_true, gate, memo_eq]
      funext i
      exact mstepRow_fin _ _
    · simp [emission, he]

variable {ep : Fin nc → Fin nf → ℝ} {ps : List Char}

theorem obsStat_fintype (π : Fin nc → ℝ) (A : Fin nc → Fin nc → ℝ) (b : Fin nf → Fin nc → ℝ)
    (ss : List (ObsSeq (Fin nf))) (i : Fin nc) (f : Fin nf → ℝ) :
    obsStat π A b ss i f = ∑ k, obsStat π A b ss i (ind k) * f k := by
  unfold obsStat
  simp only [← list_sum_mul]
  rw [← list_sum_fintype_comm]
  congr 2; funext s
  simp only [Finset.sum_mul]
  rw [Finset.sum_comm]
  refine Finset.sum_congr rfl fun t _ => ?_
  simp only [mul_assoc, ← Finset.mul_sum]
  congr 1
  simp [ind]

theorem _root_.Verif.emissionGain_eq {D : Type} (π : Fin nc → ℝ) (A : Fin nc → Fin nc → ℝ) (b b' : D → Fin nc → ℝ)
    (ss : List (ObsSeq D)) :
    emissionGain π A b b' ss = ∑ i, obsStat π A b ss i fun o => Real.log (b' o i / b o i) := by
  unfold emissionGain obsStat
  rw [← list_sum_fintype_comm]
  congr 2; funext s
  rw [Finset.sum_comm]

theorem _root_.Verif.posterior_zero_of_weight {n : ℕ} {π : Fin nc → ℝ} {A : Fin nc → Fin nc → ℝ}
    {B : Fin (n + 1) → Fin nc → ℝ} {t : Fin (n + 1)} {i : Fin nc} (h : B t i = 0) :
    posterior π A B t i = 0 := by
  have : stateMass π A B t i = 0 := by
    refine Finset.sum_eq_zero fun z hz => ?_
    simp only [Finset.mem_filter, Finset.mem_univ, true_and] at hz
    have : ∏ t, B t (z t) = 0 := Finset.prod_eq_zero (Finset.mem_univ t) (by rw [hz, h])
    simp [joint, this]
  simp [posterior, this]

theorem obsStat_zero_of_weight {π : Fin nc → ℝ} {A : Fin nc → Fin nc → ℝ} {b : Fin nf → Fin nc → ℝ}
    {k : Fin nf} {i : Fin nc} (h : b k i = 0) (ss : List (ObsSeq (Fin nf))) :
    obsStat π A b ss i (ind k) = 0 := by
  unfold obsStat
  have : (fun s : ObsSeq (Fin nf) => ∑ t, posterior π A (s.weights b) t i * ind k (s.x t)) =
      fun _ => 0 := by
    funext s
    refine Finset.sum_eq_zero fun t _ => ?_
    by_cases hk : s.x t = k
    · rw [posterior_zero_of_weight (by simp [ObsSeq.weights, hk, h]), zero_mul]
    · simp [ind, hk]
  rw [this]; simp

theorem obsStat_pos_of_posterior {π : Fin nc → ℝ} {A : Fin nc → Fin nc → ℝ} {b : Fin nf → Fin nc → ℝ}
    (hπ : ∀ i, 0 ≤ π i) (hA : ∀ i j, 0 ≤ A i j) (hb : ∀ o i, 0 ≤ b o i)
    {ss : List (ObsSeq (Fin nf))} {s : ObsSeq (Fin nf)} (hs : s ∈ ss) {t : Fin (s.n + 1)} {i : Fin nc}
    (h : 0 < posterior π A (s.weights b) t i) : 0 < obsStat π A b ss i (ind (s.x t)) := by
  have pn : ∀ (s : ObsSeq (Fin nf)) t i, 0 ≤ posterior π A (s.weights b) t i := fun s t i =>
    div_nonneg (stateMass_nonneg hπ hA (fun t => hb _) t i) (likelihood_nonneg hπ hA fun t => hb _)
  have inn : ∀ a c : Fin nf, 0 ≤ ind a c := fun a c => by unfold ind; split <;> norm_num
  refine lt_of_lt_of_le ?_ (le_list_sum ss
    (f := fun s' => ∑ t', posterior π A (s'.weights b) t' i * ind (s.x t) (s'.x t'))
    (fun s _ => Finset.sum_nonneg fun t _ => mul_nonneg (pn s t i) (inn _ _)) hs)
  refine lt_of_lt_of_le ?_ (Finset.single_le_sum
    (f := fun t' => posterior π A (s.weights b) t' i * ind (s.x t) (s.x t'))
    (fun t' _ => mul_nonneg (pn s t' i) (inn _ _)) (Finset.mem_univ t))
  simpa [ind] using h

theorem updRow_eq {prior old stat : Fin nf → ℝ} (hz : ∀ k, old k = 0 → stat k = 0)
    (h1 : ∀ k, old k = 0 → prior k = 1) : updRow prior stat = mapUpdate prior old stat := by
  have : mapCounts prior (fun _ => 1) stat = mapCounts prior old stat := by
    funext k
    by_cases h : old k = 0
    · simp [mapCounts, h, hz k h, h1 k h]
    · simp [mapCounts, h]
  funext k
  simp only [updRow, mapUpdate, this]

/-- The emission update gains at least what the emission prior loses. -/
theorem gains [NeZero nc] (ss : List (ObsSeq (Fin nf))) {r : RParams nc (Rows nc nf)} (h : r.Valid)
    (hp : 'e' ∈ ps → ∀ i k, 1 ≤ ep i k) (h1 : 'e' ∈ ps → ∀ i k, r.q.e i k = 0 → ep i k = 1) :
    (family ep ps).Gains ss r (∑ i, logDirichlet (ep i) (r.q.e i) -
      ∑ i, logDirichlet (ep i) (((family ep ps).next r.q
        (obsStat r.π r.A ((family ep ps).b r.q) ss)).e i)) := by
  have hb : ∀ o i, 0 ≤ (family ep ps).b r.q o i := (family ep ps).b_nonneg r.q
  by_cases he : 'e' ∈ ps
  · have hnext : ∀ i, ((family ep ps).next r.q (obsStat r.π r.A ((family ep ps).b r.q) ss)).e i =
        mapUpdate (ep i) (r.q.e i) fun k => obsStat r.π r.A ((family ep ps).b r.q) ss i (ind k) := by
      intro i
      rw [← updRow_eq (old := r.q.e i) (fun k hk => obsStat_zero_of_weight
        (b := (family ep ps).b r.q) hk ss) (h1 he i)]
      simp [family, he]
    have hst : ∀ i k, 0 ≤ obsStat r.π r.A ((family ep ps).b r.q) ss i (ind k) := fun i k =>
      obsStat_nonneg h.π_nonneg h.A_nonneg hb ss i fun o => by unfold ind; split <;> norm_num
    constructor
    · intro s hs t i hpos
      show 0 < ((family ep ps).next r.q (obsStat r.π r.A ((family ep ps).b r.q) ss)).e i (s.x t)
      rw [hnext]
      exact (mapUpdate_gain (r.q.nonneg i) (r.q.sum_le i) (hp he i) (hst i)
        fun k hk => obsStat_zero_of_weight (b := (family ep ps).b r.q) hk ss).1 _
        (obsStat_pos_of_posterior h.π_nonneg h.A_nonneg hb hs hpos)
    · rw [emissionGain_eq, ← Finset.sum_sub_distrib]
      refine Finset.sum_le_sum fun i _ => ?_
      rw [obsStat_fintype, hnext]
      refine (Family.mapUpdate_gain_split (r.q.nonneg i) (r.q.sum_le i) (hp he i) (hst i)
        fun k hk => obsStat_zero_of_weight (b := (family ep ps).b r.q) hk ss).trans (le_of_eq ?_)
      refine Finset.sum_congr rfl fun k _ => ?_
      have : (family ep ps).b ((family ep ps).next r.q (obsStat r.π r.A ((family ep ps).b r.q) ss)) k i
        = mapUpdate (ep i) (r.q.e i)
          (fun k => obsStat r.π r.A ((family ep ps).b r.q) ss i (ind k)) k := congrFun (hnext i) k
      rw [this]; rfl
  · have hn : (family ep ps).next r.q (obsStat r.π r.A ((family ep ps).b r.q) ss) = r.q := by
      simp [family, he]
    constructor
    · intro s hs t i hpos
      rw [hn]
      refine lt_of_le_of_ne (hb _ _) fun h0 => hpos.ne' ?_
      exact posterior_zero_of_weight h0.symm
    · rw [hn, sub_self, emissionGain_eq]
      refine le_of_eq (Finset.sum_eq_zero fun i _ => ?_).symm
      rw [obsStat_fintype]
      refine Finset.sum_eq_zero fun k _ => ?_
      by_cases h0 : (family ep ps).b r.q k i = 0 <;> simp [h0]

end Categorical
end Verif
