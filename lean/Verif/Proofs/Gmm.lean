import Verif.Model.Gmm
import Verif.Spec.Gmm
import Verif.Proofs.GaussianTied

/-!
# `GMMHMM` on real parameters

Everything that does not depend on the covariance type; `RKind` says what a covariance type has to
provide.
-/

namespace Verif
open FloatLike XF Hmmc Spec Gaussian
open scoped Classical

namespace Gmm
variable {nc nm nf : ℕ} {C V : Type}

/-- Per state and component functionals: how expected counts act. -/
abbrev Fun2 (nc nm nf : ℕ) := Fin nc → Fin nm → ((Fin nf → ℝ) → ℝ) → ℝ

/-- Real-valued counterpart of a covariance type. -/
structure RKind (K : Kind XF nc nm nf C) (V : Type) where
  embed : V → C
  dens : V → Means ℝ nc nm nf → (Fin nf → ℝ) → Fin nc → Fin nm → ℝ
  dens_pos : ∀ v mu x i k, 0 < dens v mu x i k
  logDens_eq : ∀ v (mu : Means ℝ nc nm nf) i (X : List (Fin nf → ℝ)),
    K.logDens (fun k l => fin (mu i k l)) (embed v) i (X.map row) =
      .ok (X.map fun x k => FloatLike.log (fin (dens v mu x i k)))
  stat : Means ℝ nc nm nf → Fun2 nc nm nf → C
  zero_eq : ∀ mu, K.zero = stat mu fun _ _ _ => 0
  acc_eq : ∀ (mu : Means ℝ nc nm nf) T m (p : Fin m → Fin nc → Fin nm → ℝ) (x : Fin m → Fin nf → ℝ),
    K.acc (fun i k l => fin (mu i k l)) (List.ofFn fun t i k => fin (p t i k))
      (List.ofFn fun t => row (x t)) (stat mu T) =
    stat mu fun i k f => T i k f + ∑ t, p t i k * f (x t)
  /-- from `means_weight`, `centered_means`, old means, expected counts -/
  next : Mix ℝ nc nm → Means ℝ nc nm nf → Means ℝ nc nm nf → Fun2 nc nm nf → (Fin nc → ℝ) → V → V
  Good : Mix ℝ nc nm → Means ℝ nc nm nf → Means ℝ nc nm nf → Fun2 nc nm nf → (Fin nc → ℝ) → Prop
  upd_eq : ∀ lam cm mu T N v, Good lam cm mu T N →
    K.upd (fun i k => fin (lam i k)) (fun i k l => fin (cm i k l))
      (fun i k => fin (T i k fun _ => 1)) (fun i => fin (N i)) (stat mu T) =
    embed (next lam cm mu T N v)

/-- Weights, means and covariances. -/
structure RGmm (nc nm nf : ℕ) (V : Type) where
  w : Mix ℝ nc nm
  mu : Means ℝ nc nm nf
  v : V
  w_nonneg : ∀ i k, 0 ≤ w i k
  w_ex : ∀ i, ∃ k, 0 < w i k

theorem dotMix_ofFn {m : ℕ} (p : Fin m → Fin nc → Fin nm → ℝ) (x : Fin m → Obs XF nf)
    (f : Obs XF nf → XF) (g : Fin m → ℝ) (hf : ∀ t, f (x t) = fin (g t)) (i : Fin nc) (k : Fin nm) :
    dotMix (List.ofFn fun t i k => fin (p t i k)) (List.ofFn x) f i k = fin (∑ t, p t i k * g t) := by
  unfold dotMix
  have : List.zipWith (fun (p : Mix XF nc nm) x => p i k * f x) (List.ofFn fun t i k => fin (p t i k))
      (List.ofFn x) = List.ofFn fun t => fin (p t i k * g t) := by
    apply List.ext_getElem
    · simp
    · intro j h1 h2
      simp [hf]
  rw [this, sumL_ofFn]

theorem sideBySide_map {α : Type} [FloatLike α] {D : Type} (X : List D) (g : D → Fin nc → Fin nm → α) :
    sideBySide X.length (fun i => X.map fun x => g x i) = X.map g := by
  unfold sideBySide
  apply List.ext_getElem
  · simp
  · intro t h1 h2
    simp only [List.length_map, List.length_range] at h1
    simp [h1]

theorem mixture_pos {w d : Fin nm → ℝ} (hw : ∀ k, 0 ≤ w k) (he : ∃ k, 0 < w k) (hd : ∀ k, 0 < d k) :
    0 < mixture w d := by
  obtain ⟨k, hk⟩ := he
  exact Finset.sum_pos' (fun k _ => mul_nonneg (hw k) (hd k).le) ⟨k, Finset.mem_univ k, mul_pos hk (hd k)⟩

theorem responsibility_nonneg {w d : Fin nm → ℝ} (hw : ∀ k, 0 ≤ w k) (hd : ∀ k, 0 < d k) (k : Fin nm) :
    0 ≤ responsibility w d k :=
  div_nonneg (mul_nonneg (hw k) (hd k).le) (Finset.sum_nonneg fun k _ => mul_nonneg (hw k) (hd k).le)

theorem sum_responsibility {w d : Fin nm → ℝ} (h : 0 < mixture w d) :
    ∑ k, responsibility w d k = 1 := by
  unfold responsibility
  rw [← Finset.sum_div]
  exact div_self h.ne'

section
variable {K : Kind XF nc nm nf C} (R : RKind K V)

/-- Real parameters as attributes. -/
noncomputable def RKind.params (q : RGmm nc nm nf V) : Params XF nc nm nf C :=
  ⟨fun i k => fin (q.w i k), fun i k l => fin (q.mu i k l), R.embed q.v⟩

/-- The emission density of a state. -/
noncomputable def RKind.b (q : RGmm nc nm nf V) (x : Fin nf → ℝ) (i : Fin nc) : ℝ :=
  mixture (q.w i) (R.dens q.v q.mu x i)

/-- Responsibilities. -/
noncomputable def RKind.resp (q : RGmm nc nm nf V) (x : Fin nf → ℝ) (i : Fin nc) (k : Fin nm) : ℝ :=
  responsibility (q.w i) (R.dens q.v q.mu x i) k

theorem RKind.b_pos (q : RGmm nc nm nf V) (x : Fin nf → ℝ) (i : Fin nc) : 0 < R.b q x i :=
  mixture_pos (q.w_nonneg i) (q.w_ex i) (R.dens_pos _ _ _ _)

theorem RKind.resp_nonneg (q : RGmm nc nm nf V) (x : Fin nf → ℝ) (i : Fin nc) (k : Fin nm) :
    0 ≤ R.resp q x i k := responsibility_nonneg (q.w_nonneg i) (R.dens_pos _ _ _ _) k

theorem RKind.sum_resp (q : RGmm nc nm nf V) (x : Fin nf → ℝ) (i : Fin nc) :
    ∑ k, R.resp q x i k = 1 := sum_responsibility (R.b_pos q x i)

variable [NeZero nm]

theorem logWeighted_fin (q : RGmm nc nm nf V) (X : List (Fin nf → ℝ)) (i : Fin nc) :
    logWeighted K (R.params q) (X.map row) i =
      .ok (X.map fun x k => lg (q.w i k * R.dens q.v q.mu x i k)) := by
  unfold logWeighted
  simp only [RKind.params, R.logDens_eq, Except.map, List.map_map, memo_eq]
  congr 1
  refine List.map_congr_left fun x _ => ?_
  funext k
  simp only [Function.comp_apply, lg_def]
  rw [lg_mul (R.dens_pos _ _ _ _ _).le (q.w_nonneg _ _), mul_comm]

theorem allOk_logWeighted (q : RGmm nc nm nf V) (X : List (Fin nf → ℝ)) :
    allOk (logWeighted K (R.params q) (X.map row)) =
      .ok fun i => X.map fun x k => lg (q.w i k * R.dens q.v q.mu x i k) :=
  allOk_ok _ _ fun i => logWeighted_fin R q X i

theorem loglik_fin (q : RGmm nc nm nf V) (X : List (Fin nf → ℝ)) :
    loglik K (R.params q) (X.map row) = .ok (X.map fun x i => FloatLike.log (fin (R.b q x i))) := by
  unfold loglik
  rw [allOk_logWeighted]
  simp only [bind, Except.bind, pure, Except.pure, List.length_map, memo_eq]
  rw [sideBySide_map X fun x i k => lg (q.w i k * R.dens q.v q.mu x i k), List.map_map]
  congr 1
  refine List.map_congr_left fun x _ => ?_
  funext i
  exact scipyLogsumexp_lg _ fun k => mul_nonneg (q.w_nonneg _ _) (R.dens_pos _ _ _ _ _).le

theorem postMix_fin (q : RGmm nc nm nf V) (X : List (Fin nf → ℝ)) :
    postMix K (R.params q) (X.map row) = .ok (X.map fun x i k => fin (R.resp q x i k)) := by
  unfold postMix
  rw [allOk_logWeighted]
  simp only [bind, Except.bind, pure, Except.pure, List.length_map, memo_eq]
  rw [sideBySide_map X fun x i k => lg (q.w i k * R.dens q.v q.mu x i k), List.map_map]
  congr 1
  refine List.map_congr_left fun x _ => ?_
  funext i k
  exact exp_logNormalizeRow_lg _ (fun k => mul_nonneg (q.w_nonneg _ _) (R.dens_pos _ _ _ _ _).le)
    (R.b_pos q x i) k

/-! ## Statistics and updates -/

/-- Expected counts per component. -/
noncomputable def RKind.split (q : RGmm nc nm nf V) (T : Fin nc → ((Fin nf → ℝ) → ℝ) → ℝ) :
    Fun2 nc nm nf := fun i k f => T i fun x => R.resp q x i k * f x

/-- The prior as constructor arguments. -/
noncomputable def prior (g : GmmPrior nc nm nf) : Prior XF nc nm nf :=
  ⟨fun i k => fin (g.wp i k), fun i k l => fin (g.mp i k l), fun i k => fin (g.mw i k)⟩

/-- Statistics. -/
noncomputable def RKind.gstat (g : GmmPrior nc nm nf) (ps : List Char) (q : RGmm nc nm nf V)
    (T : Fin nc → ((Fin nf → ℝ) → ℝ) → ℝ) : Stats XF nc nm nf C where
  postMixSum i k := fin (R.split q T i k fun _ => 1)
  postSum i := fin (T i fun _ => 1)
  mN i k l := fin (gate ps 'm' (g.mw i k * g.mp i k l + R.split q T i k fun x => x l))
  cN := if 'c' ∈ ps then R.stat q.mu (R.split q T) else K.zero

omit [NeZero nm] in
theorem zero_stat (g : GmmPrior nc nm nf) (ps : List Char) (q : RGmm nc nm nf V) :
    zero K (prior g) ps = R.gstat g ps q fun _ _ => 0 := by
  unfold zero RKind.gstat
  congr 1
  · simp only [prior, RKind.split, gate, fin_mul]
    by_cases hm : 'm' ∈ ps <;> simp [hm]
  · by_cases hc : 'c' ∈ ps
    · simp only [hc, if_true]; exact R.zero_eq _
    · simp only [hc, if_false]

theorem acc_stat (g : GmmPrior nc nm nf) (ps : List Char) (q : RGmm nc nm nf V)
    (T : Fin nc → ((Fin nf → ℝ) → ℝ) → ℝ) (π : Fin nc → ℝ) (A : Fin nc → Fin nc → ℝ)
    (s : ObsSeq (Fin nf → ℝ)) :
    acc K ps (R.params q) (R.gstat g ps q T) (s.rows row) (postRows π A (s.weights (R.b q))) =
      .ok (R.gstat g ps q fun i f => T i f + ∑ t, posterior π A (s.weights (R.b q)) t i * f (s.x t)) := by
  have hrows : s.rows row = (List.ofFn s.x).map row := by
    unfold ObsSeq.rows; rw [List.map_ofFn]; rfl
  have hpm := postMix_fin R q (List.ofFn s.x)
  rw [← hrows] at hpm
  unfold acc
  simp only [hpm, bind, Except.bind, pure, Except.pure, memo_eq]
  have hpcm : postCompMix (postRows π A (s.weights (R.b q)))
      ((List.ofFn s.x).map fun x i k => fin (R.resp q x i k)) =
      List.ofFn fun t i k => fin (posterior π A (s.weights (R.b q)) t i * R.resp q (s.x t) i k) := by
    unfold postCompMix postRows
    apply List.ext_getElem
    · simp
    · intro j h1 h2
      simp only [List.getElem_zipWith, List.getElem_ofFn, List.getElem_map, memo_eq, fin_mul]
  rw [hpcm]
  have hx : s.rows row = List.ofFn fun t => row (s.x t) := rfl
  rw [hx]
  congr 1
  simp only [RKind.gstat, RKind.split, gate]
  congr 1
  · funext i k
    rw [List.map_ofFn]
    show fin _ + sumL (List.ofFn fun t =>
      fin (posterior π A (s.weights (R.b q)) t i * R.resp q (s.x t) i k)) = _
    rw [sumL_ofFn]
    simp
  · funext i
    unfold postRows
    rw [sumPost_ofFn]; simp
  · by_cases hm : 'm' ∈ ps
    · simp only [hm, if_true]
      funext i k l
      rw [dotMix_ofFn _ _ (fun x : Obs XF nf => x l) (fun t => s.x t l) (fun t => rfl), fin_add]
      congr 1
      rw [add_assoc]
      congr 2
      exact Finset.sum_congr rfl fun t _ => by ring
    · simp [hm]
  · by_cases hc : 'c' ∈ ps
    · simp only [hc, if_true, RKind.params]
      have := R.acc_eq q.mu (fun i k f => T i fun x => R.resp q x i k * f x) _
        (fun t i k => posterior π A (s.weights (R.b q)) t i * R.resp q (s.x t) i k) s.x
      refine this.trans ?_
      congr 1
      funext i k f
      congr 1
      exact Finset.sum_congr rfl fun t _ => by ring
    · simp [hc]

/-- Denominator of the weights. -/
noncomputable def wDen (g : GmmPrior nc nm nf) (T : Fin nc → ((Fin nf → ℝ) → ℝ) → ℝ) (i : Fin nc) : ℝ :=
  (T i fun _ => 1) + ∑ k, (g.wp i k - 1)

/-- New weights. -/
noncomputable def RKind.wNext (g : GmmPrior nc nm nf) (ps : List Char) (q : RGmm nc nm nf V)
    (T : Fin nc → ((Fin nf → ℝ) → ℝ) → ℝ) (i : Fin nc) (k : Fin nm) : ℝ :=
  if 'w' ∈ ps then ((R.split q T i k fun _ => 1) + (g.wp i k - 1)) / wDen g T i else q.w i k

/-- Denominator of the means. -/
noncomputable def RKind.mDen (g : GmmPrior nc nm nf) (ps : List Char) (q : RGmm nc nm nf V)
    (T : Fin nc → ((Fin nf → ℝ) → ℝ) → ℝ) (i : Fin nc) (k : Fin nm) : ℝ :=
  if R.wNext g ps q T i k = 0 ∧ ∀ l, g.mw i k * g.mp i k l + R.split q T i k (fun x => x l) = 0 then 1
  else (R.split q T i k fun _ => 1) + g.mw i k

/-- New means. -/
noncomputable def RKind.muNext (g : GmmPrior nc nm nf) (ps : List Char) (q : RGmm nc nm nf V)
    (T : Fin nc → ((Fin nf → ℝ) → ℝ) → ℝ) (i : Fin nc) (k : Fin nm) (l : Fin nf) : ℝ :=
  if 'm' ∈ ps then (g.mw i k * g.mp i k l + R.split q T i k fun x => x l) / R.mDen g ps q T i k
  else q.mu i k l

/-- New covariances. -/
noncomputable def RKind.vNext (g : GmmPrior nc nm nf) (ps : List Char) (q : RGmm nc nm nf V)
    (T : Fin nc → ((Fin nf → ℝ) → ℝ) → ℝ) : V :=
  if 'c' ∈ ps then R.next g.mw (fun i k l => R.muNext g ps q T i k l - g.mp i k l) q.mu (R.split q T)
    (fun i => T i fun _ => 1) q.v
  else q.v

/-- When the M-step does not divide by zero and yields weights. -/
structure RKind.GoodStep (g : GmmPrior nc nm nf) (ps : List Char) (q : RGmm nc nm nf V)
    (T : Fin nc → ((Fin nf → ℝ) → ℝ) → ℝ) : Prop where
  wden : 'w' ∈ ps → ∀ i, wDen g T i ≠ 0
  w_nonneg : ∀ i k, 0 ≤ R.wNext g ps q T i k
  w_ex : ∀ i, ∃ k, 0 < R.wNext g ps q T i k
  mden : 'm' ∈ ps → ∀ i k, R.mDen g ps q T i k ≠ 0
  cov : 'c' ∈ ps → R.Good g.mw (fun i k l => R.muNext g ps q T i k l - g.mp i k l) q.mu (R.split q T)
    (fun i => T i fun _ => 1)

/-- `GMMHMM`. -/
noncomputable def family [NeZero nc] (g : GmmPrior nc nm nf) (ps : List Char) :
    Family (emission K (prior g)) (row (nf := nf)) ps (RGmm nc nm nf V) where
  embed := R.params
  b := R.b
  b_nonneg q x i := (R.b_pos q x i).le
  lik_eq q X := by
    simp only [emission, loglik_fin, Except.map]
    rw [expRows_log _ fun o i => (R.b_pos q o i).le]
  loglik_eq q X := by simp only [emission, loglik_fin]
  stat q T := R.gstat g ps q T
  emFold_eq q π A ss := by
    refine emFold_of_acc (R.gstat g ps q) (zero_stat R g ps q) ?_ ss
    intro T s
    exact acc_stat R g ps q T π A s
  next q T :=
    if h : (∀ i k, 0 ≤ R.wNext g ps q T i k) ∧ ∀ i, ∃ k, 0 < R.wNext g ps q T i k then
      ⟨R.wNext g ps q T, R.muNext g ps q T, R.vNext g ps q T, h.1, h.2⟩
    else ⟨q.w, R.muNext g ps q T, R.vNext g ps q T, q.w_nonneg, q.w_ex⟩
  Good q T := R.GoodStep g ps q T
  mstep_eq q T hT hg := by
    rw [dif_pos ⟨hg.w_nonneg, hg.w_ex⟩]
    have hw : (if 'w' ∈ ps then mstepWeights (prior g) (R.gstat g ps q T) else
        fun i k => fin (q.w i k)) = fun i k => fin (R.wNext g ps q T i k) := by
      by_cases h : 'w' ∈ ps
      · simp only [h, if_true, mstepWeights, memo_eq, prior, RKind.gstat, one_def, fin_sub, sumF_fin,
          fin_add]
        funext i k
        show _ / fin (wDen g T i) = _
        rw [fin_div _ _ (hg.wden h i)]
        simp only [RKind.wNext, h, if_true, wDen]
      · simp only [h, if_false, RKind.wNext]
    have hm : (if 'm' ∈ ps then mstepMeans (prior g) (fun i k => fin (R.wNext g ps q T i k))
        (R.gstat g ps q T) else fun i k l => fin (q.mu i k l)) =
        fun i k l => fin (R.muNext g ps q T i k l) := by
      by_cases h : 'm' ∈ ps
      · simp only [h, if_true, mstepMeans, memo_eq, prior, RKind.gstat, gate]
        funext i k l
        have : (if (FloatLike.eq (fin (R.wNext g ps q T i k)) 0 && (List.finRange nf).all fun l =>
            FloatLike.eq (fin (g.mw i k * g.mp i k l + R.split q T i k fun x => x l)) 0) = true then
            (1 : XF) else fin (R.split q T i k fun _ => 1) + fin (g.mw i k)) =
            fin (R.mDen g ps q T i k) := by
          simp only [zero_def, one_def, fin_eq, Bool.and_eq_true, decide_eq_true_eq, List.all_eq_true,
            List.mem_finRange, true_imp_iff, fin_add, RKind.mDen]
          split <;> rfl
        rw [this, fin_div _ _ (hg.mden h i k)]
        simp only [RKind.muNext, h, if_true]
      · simp only [h, if_false, RKind.muNext]
    simp only [emission, mstep]
    simp only [RKind.params]
    rw [hw, hm]
    congr 1
    by_cases h : 'c' ∈ ps
    · simp only [h, if_true, RKind.vNext, prior, fin_sub]
      have := R.upd_eq _ _ _ _ _ q.v (hg.cov h)
      refine Eq.trans ?_ this
      simp only [RKind.gstat, h, if_true]
    · simp only [h, if_false, RKind.vNext]

end
end Gmm
end Verif
