import Verif.Proofs.Mstep

/-!
# EM on real-valued models

`Family` relates an emission family of the program to a real-valued one: embedded parameters, and
sufficient statistics that only depend on the expected counts of the data.
-/

namespace Verif
open FloatLike XF Hmmc Spec
open scoped Classical

variable {nc : ℕ} {Obs D P S Q : Type} [NeZero nc]

/-- A positive linear functional for every state: how expected counts act. -/
structure PosLin (T : Fin nc → (D → ℝ) → ℝ) : Prop where
  nonneg : ∀ i f, (∀ o, 0 ≤ f o) → 0 ≤ T i f
  add : ∀ i f g, T i (fun o => f o + g o) = T i f + T i g
  smul : ∀ i c f, T i (fun o => c * f o) = c * T i f

/-- See the module comment. -/
structure Family (E : Emission XF nc Obs P S) (obs : D → Obs) (params : List Char) (Q : Type) where
  embed : Q → P
  b : Q → D → Fin nc → ℝ
  b_nonneg : ∀ q o i, 0 ≤ b q o i
  lik_eq : ∀ q (X : List D), E.lik (embed q) (X.map obs) = .ok (X.map fun o i => fin (b q o i))
  loglik_eq : ∀ q (X : List D), E.loglik (embed q) (X.map obs) =
    .ok (X.map fun o i => FloatLike.log (fin (b q o i)))
  stat : Q → (Fin nc → (D → ℝ) → ℝ) → S
  emFold_eq : ∀ q π A ss, emFold E params (embed q) obs π A (b q) ss (E.zero params (embed q)) =
    .ok (stat q (obsStat π A (b q) ss))
  next : Q → (Fin nc → (D → ℝ) → ℝ) → Q
  /-- when the update is defined (no division by zero) -/
  Good : Q → (Fin nc → (D → ℝ) → ℝ) → Prop
  mstep_eq : ∀ q T, PosLin T → Good q T → E.mstep params (embed q) (stat q T) = embed (next q T)

/-- Real-valued parameters. -/
structure RParams (nc : ℕ) (Q : Type) where
  π : Fin nc → ℝ
  A : Fin nc → Fin nc → ℝ
  q : Q

/-- Non-negative, with distributions or sub-distributions. -/
structure RParams.Valid (r : RParams nc Q) : Prop where
  π_nonneg : ∀ i, 0 ≤ r.π i
  A_nonneg : ∀ i j, 0 ≤ r.A i j
  π_sum : ∑ i, r.π i ≤ 1
  A_sum : ∀ i, ∑ j, r.A i j ≤ 1

/-- Real-valued training configuration. -/
structure RConfig (nc : ℕ) where
  sp : Fin nc → ℝ
  tp : Fin nc → Fin nc → ℝ
  impl : Impl
  nIter : ℕ

/-- The estimator's configuration. -/
noncomputable def RConfig.toConfig (c : RConfig nc) (params : List Char) : Config XF nc where
  startprobPrior i := fin (c.sp i)
  transmatPrior i j := fin (c.tp i j)
  params := params
  implementation := c.impl
  nIter := c.nIter

omit [NeZero nc] in
theorem obsStat_posLin {π : Fin nc → ℝ} {A : Fin nc → Fin nc → ℝ} {b : D → Fin nc → ℝ}
    (hπ : ∀ i, 0 ≤ π i) (hA : ∀ i j, 0 ≤ A i j) (hb : ∀ o i, 0 ≤ b o i) (ss : List (ObsSeq D)) :
    PosLin (obsStat π A b ss) where
  nonneg i f hf := obsStat_nonneg hπ hA hb ss i hf
  add i f g := by
    unfold obsStat
    rw [← list_sum_add]
    simp only [mul_add, Finset.sum_add_distrib]
  smul i c f := by
    unfold obsStat
    rw [mul_comm c, ← list_sum_mul]
    congr 2; funext s; rw [Finset.sum_mul]
    exact Finset.sum_congr rfl fun t _ => by ring

namespace Family
variable {E : Emission XF nc Obs P S} {obs : D → Obs} {params : List Char}
  (F : Family E obs params Q)

/-- Real parameters as estimator attributes. -/
noncomputable def theta (r : RParams nc Q) : Theta XF nc P :=
  ⟨fun i => fin (r.π i), fun i j => fin (r.A i j), F.embed r.q⟩

/-- Data likelihood under real parameters. -/
noncomputable def L (ss : List (ObsSeq D)) (r : RParams nc Q) : ℝ :=
  dataLikelihood r.π r.A (F.b r.q) ss

omit [NeZero nc] in
theorem represents (impl : Impl) {r : RParams nc Q} (h : r.Valid) :
    Represents (E.toHmm impl (F.theta r)) obs r.π r.A (F.b r.q) where
  startprob_eq := rfl
  transmat_eq := rfl
  π_nonneg := h.π_nonneg
  A_nonneg := h.A_nonneg
  b_nonneg := F.b_nonneg r.q
  lik_eq := F.lik_eq r.q
  loglik_eq := F.loglik_eq r.q

/-- One EM update on the real parameters. -/
noncomputable def rstep (c : RConfig nc) (ss : List (ObsSeq D)) (r : RParams nc Q) : RParams nc Q where
  π := if 's' ∈ params then mapUpdate c.sp r.π (startStat r.π r.A (F.b r.q) ss) else r.π
  A := if 't' ∈ params then
      fun i => mapUpdate (c.tp i) (r.A i) (transStat r.π r.A (F.b r.q) ss i)
    else r.A
  q := F.next r.q (obsStat r.π r.A (F.b r.q) ss)

/-- All sequences can be processed. -/
def Ok (impl : Impl) (ss : List (ObsSeq D)) (r : RParams nc Q) : Prop :=
  ∀ s ∈ ss, EstepOk impl r.π r.A (s.weights (F.b r.q))

omit [NeZero nc] in
theorem rstep_valid (c : RConfig nc) (ss : List (ObsSeq D)) {r : RParams nc Q} (h : r.Valid) :
    (F.rstep c ss r).Valid where
  π_nonneg i := by
    simp only [rstep]; split
    · exact mapUpdate_nonneg _ _ _ _
    · exact h.π_nonneg i
  A_nonneg i j := by
    simp only [rstep]; split
    · exact mapUpdate_nonneg _ _ _ _
    · exact h.A_nonneg i j
  π_sum := by
    simp only [rstep]; split
    · exact sum_mapUpdate_le _ _ _
    · exact h.π_sum
  A_sum i := by
    simp only [rstep]; split
    · exact sum_mapUpdate_le _ _ _
    · exact h.A_sum i

/-- The E-step on real parameters. -/
theorem doEstep_real (c : RConfig nc) (ss : List (ObsSeq D)) (hne : ss ≠ []) {r : RParams nc Q}
    (h : r.Valid) (hok : F.Ok c.impl ss r) :
    doEstep E (c.toConfig params) (F.theta r) (dataX obs ss) (dataLengths ss) =
      .ok (⟨finBase ss.length (fun i => gate params 's' (startStat r.π r.A (F.b r.q) ss i))
          (fun i j => gate params 't' (transStat r.π r.A (F.b r.q) ss i j)),
          F.stat r.q (obsStat r.π r.A (F.b r.q) ss)⟩, lg (F.L ss r)) := by
  rw [doEstep_spec (cfg := c.toConfig params) (F.represents c.impl h) ss hne hok]
  have e : emFold E (c.toConfig params).params (F.theta r).emission obs r.π r.A (F.b r.q) ss
      (E.zero (c.toConfig params).params (F.theta r).emission) = _ := F.emFold_eq r.q r.π r.A ss
  rw [e]; rfl

/-- One EM iteration, without assumption on the start counts. -/
theorem emStep_ok (c : RConfig nc) (ss : List (ObsSeq D)) (hne : ss ≠ []) {r : RParams nc Q}
    (h : r.Valid) (hok : F.Ok c.impl ss r) (hg : F.Good r.q (obsStat r.π r.A (F.b r.q) ss)) :
    emStep E (c.toConfig params) (dataX obs ss) (dataLengths ss) (F.theta r) =
      .ok (⟨if 's' ∈ params ∧ ∑ i, mapCounts c.sp r.π (startStat r.π r.A (F.b r.q) ss) i = 0 then
          fun _ => .nan else fun i => fin ((F.rstep c ss r).π i),
        fun i j => fin ((F.rstep c ss r).A i j), F.embed (F.rstep c ss r).q⟩, lg (F.L ss r)) := by
  unfold emStep
  simp only [F.doEstep_real c ss hne h hok, bind, Except.bind, pure, Except.pure]
  congr 2
  unfold doMstep
  congr 1
  · show (if 's' ∈ params then _ else _) = _
    by_cases hs : 's' ∈ params
    · simp only [hs, if_true, true_and, rstep]
      have : (fun i => fin (gate params 's' (startStat r.π r.A (F.b r.q) ss i))) =
        fun i => fin (startStat r.π r.A (F.b r.q) ss i) := by simp [gate, hs]
      show mstepStart (fun i => fin (c.sp i)) (fun i => fin (r.π i))
        (fun i => fin (gate params 's' _)) = _
      rw [this, mstepStart_fin]
    · simp only [hs, if_false, false_and, rstep]; rfl
  · show (if 't' ∈ params then _ else _) = _
    by_cases ht : 't' ∈ params
    · simp only [ht, if_true, rstep, memo_eq]
      funext i
      have : (fun j => fin (gate params 't' (transStat r.π r.A (F.b r.q) ss i j))) =
        fun j => fin (transStat r.π r.A (F.b r.q) ss i j) := by simp [gate, ht]
      show mstepTransRow (fun j => fin (c.tp i j)) (fun j => fin (r.A i j))
        (fun j => fin (gate params 't' _)) = _
      rw [this, mstepTransRow_fin]
    · simp only [ht, if_false, rstep]; rfl
  · exact F.mstep_eq r.q _ (obsStat_posLin h.π_nonneg h.A_nonneg (F.b_nonneg _) ss) hg

omit [NeZero nc] in
/-- With start priors at least one some allowed start entry keeps positive mass. -/
theorem startCounts_ne_zero (c : RConfig nc) (ss : List (ObsSeq D)) (hne : ss ≠ [])
    {r : RParams nc Q} (h : r.Valid) (hL : ∀ s ∈ ss, 0 < likelihood r.π r.A (s.weights (F.b r.q)))
    (hp : ∀ i, 1 ≤ c.sp i) :
    ∑ i, mapCounts c.sp r.π (startStat r.π r.A (F.b r.q) ss) i ≠ 0 := by
  have h1 := sum_startStat ss hL
  have h2 : ∀ i, startStat r.π r.A (F.b r.q) ss i ≤
      mapCounts c.sp r.π (startStat r.π r.A (F.b r.q) ss) i := by
    intro i
    unfold mapCounts
    split
    · next h0 => rw [startStat_zero_of_start h0]
    · refine le_trans ?_ (le_max_left _ _)
      have := hp i; linarith
  have h3 := Finset.sum_le_sum fun i (_ : i ∈ Finset.univ) => h2 i
  rw [h1] at h3
  have : 0 < ss.length := List.length_pos_iff.2 hne
  have : (0 : ℝ) < ss.length := by exact_mod_cast this
  linarith

/-- One EM iteration on real parameters. -/
theorem emStep_real (c : RConfig nc) (ss : List (ObsSeq D)) (hne : ss ≠ []) {r : RParams nc Q}
    (h : r.Valid) (hok : F.Ok c.impl ss r) (hg : F.Good r.q (obsStat r.π r.A (F.b r.q) ss))
    (hp : 's' ∈ params → ∀ i, 1 ≤ c.sp i) :
    emStep E (c.toConfig params) (dataX obs ss) (dataLengths ss) (F.theta r) =
      .ok (F.theta (F.rstep c ss r), lg (F.L ss r)) := by
  rw [F.emStep_ok c ss hne h hok hg, if_neg]
  · rfl
  · rintro ⟨hs, h0⟩
    exact F.startCounts_ne_zero c ss hne h (fun s hs => EstepOk.likelihood_pos (hok s hs)) (hp hs) h0

/-- `scaling` raises when some sequence underflows. -/
theorem emStep_underflow (c : RConfig nc) (hi : c.impl = .scaling) (ss : List (ObsSeq D))
    {r : RParams nc Q} (h : r.Valid) (hok : ¬ F.Ok .scaling ss r) :
    emStep E (c.toConfig params) (dataX obs ss) (dataLengths ss) (F.theta r) =
      .error .underflow := by
  -- the first sequence that fails
  have hex : ∃ pre s post, ss = pre ++ s :: post ∧ F.Ok .scaling pre r ∧
      ¬ NoUnderflow r.π r.A (s.weights (F.b r.q)) := by
    clear hi
    induction ss with
    | nil => exact absurd (fun s hs => by simp at hs) hok
    | cons s ss ih =>
      by_cases h1 : NoUnderflow r.π r.A (s.weights (F.b r.q))
      · have : ¬ F.Ok .scaling ss r := by
          intro h2; refine hok fun x hx => ?_
          rcases List.mem_cons.1 hx with rfl | hx
          · exact h1
          · exact h2 x hx
        obtain ⟨pre, x, post, e, h3, h4⟩ := ih this
        refine ⟨s :: pre, x, post, by rw [e]; rfl, ?_, h4⟩
        intro y hy
        rcases List.mem_cons.1 hy with rfl | hy
        · exact h1
        · exact h3 y hy
      · exact ⟨[], s, ss, rfl, fun s hs => by simp at hs, h1⟩
  obtain ⟨pre, s, post, rfl, hpre, hs⟩ := hex
  have hrep : Represents (E.toHmm c.impl (F.theta r)) obs r.π r.A (F.b r.q) := F.represents c.impl h
  unfold emStep doEstep
  simp only [splitXLengths_data obs (pre ++ s :: post) (by simp), bind, Except.bind]
  have happ : ∀ (l1 l2 : List (List Obs)) st lp,
      estepLoop E params c.impl (F.theta r) (l1 ++ l2) st lp =
      (match estepLoop E params c.impl (F.theta r) l1 st lp with
        | .error e => .error e
        | .ok (st', lp') => estepLoop E params c.impl (F.theta r) l2 st' lp') := by
    intro l1 l2
    induction l1 with
    | nil => intro st lp; rfl
    | cons a l1 ih =>
      intro st lp
      simp only [List.cons_append, estepLoop]
      cases estepOne E params c.impl (F.theta r) st a with
      | error e => rfl
      | ok v => exact ih _ _
  have hloop : estepLoop E params c.impl (F.theta r) (((pre ++ s :: post)).map (ObsSeq.rows obs))
      ⟨BaseStats.zero, E.zero params (F.theta r).emission⟩ 0 = .error .underflow := by
    rw [List.map_append, happ]
    have := estepLoop_spec hrep params pre (by rw [hi]; exact hpre) 0 (fun _ => 0)
      (fun _ _ => 0) (E.zero params (F.theta r).emission) 1 zero_le_one
    rw [lg_one] at this
    have e0 : (⟨BaseStats.zero, E.zero params (F.theta r).emission⟩ : Stats XF nc S) =
      ⟨finBase 0 (fun _ => 0) (fun _ _ => 0), E.zero params (F.theta r).emission⟩ := rfl
    rw [e0, zero_def, this]
    have e1 : emFold E params (F.theta r).emission obs r.π r.A (F.b r.q) pre
      (E.zero params (F.theta r).emission) = _ := F.emFold_eq r.q r.π r.A pre
    rw [e1]
    simp only [Except.map, List.map_cons, estepLoop]
    have hfit : fitOne (E.toHmm c.impl (F.theta r)) (s.rows obs) = .error .underflow := by
      obtain ⟨n, x⟩ := s
      have h1 := forwardScaling_ofFn r.π r.A (fun t => F.b r.q (x t))
      rw [if_neg (show ¬ NoUnderflow r.π r.A (fun t => F.b r.q (x t)) from hs)] at h1
      unfold fitOne
      have : (E.toHmm c.impl (F.theta r)).implementation = .scaling := hi
      rw [this]
      show fitScaling _ (List.ofFn fun t => obs (x t)) = _
      unfold fitScaling
      rw [ofFn_map_obs, hrep.lik_eq, map_ofFn_row, hrep.startprob_finRow, hrep.transmat_finMat]
      simp only [bind, Except.bind, h1]
    simp only [estepOne, hfit, bind, Except.bind]
  have : estepLoop E (c.toConfig params).params (c.toConfig params).implementation (F.theta r) _
      ⟨BaseStats.zero, E.zero (c.toConfig params).params (F.theta r).emission⟩ 0 = _ := hloop
  rw [this]

/-! ## Monotonicity -/

/-- What an emission family has to provide: its update keeps positive weight wherever the
posterior does, and gains at least `gain`. -/
structure Gains (ss : List (ObsSeq D)) (r : RParams nc Q) (gain : ℝ) : Prop where
  ac : ∀ s ∈ ss, ∀ t i, 0 < posterior r.π r.A (s.weights (F.b r.q)) t i →
    0 < F.b (F.next r.q (obsStat r.π r.A (F.b r.q) ss)) (s.x t) i
  gain_le : gain ≤ emissionGain r.π r.A (F.b r.q)
    (F.b (F.next r.q (obsStat r.π r.A (F.b r.q) ss))) ss

omit [NeZero nc] in
theorem mapUpdate_gain_split {ι : Type*} [Fintype ι] {prior old stat : ι → ℝ} (hold : ∀ i, 0 ≤ old i)
    (hsum : ∑ i, old i ≤ 1) (hp : ∀ i, 1 ≤ prior i) (hs : ∀ i, 0 ≤ stat i)
    (hz : ∀ i, old i = 0 → stat i = 0) :
    logDirichlet prior old - logDirichlet prior (mapUpdate prior old stat) ≤
      ∑ i, stat i * Real.log (mapUpdate prior old stat i / old i) := by
  have h := (mapUpdate_gain hold hsum hp hs hz).2
  have e : ∑ i, (prior i - 1 + stat i) * Real.log (mapUpdate prior old stat i / old i) =
      (logDirichlet prior (mapUpdate prior old stat) - logDirichlet prior old) +
      ∑ i, stat i * Real.log (mapUpdate prior old stat i / old i) := by
    unfold logDirichlet
    rw [← Finset.sum_sub_distrib, ← Finset.sum_add_distrib]
    refine Finset.sum_congr rfl fun i _ => ?_
    rw [add_mul]; congr 1
    by_cases h0 : old i = 0
    · have : mapUpdate prior old stat i = 0 := by simp [mapUpdate, mapCounts, h0]
      simp [h0, this]
    · by_cases h1 : mapUpdate prior old stat i = 0
      · -- the count is zero, so the prior is one
        have hc : mapCounts prior old stat i = 0 := by
          by_cases hS : ∑ j, mapCounts prior old stat j = 0
          · exact mapCounts_all_zero hS i
          · exact (div_eq_zero_iff.1 h1).resolve_right hS
        have h2 : prior i - 1 + stat i ≤ 0 := by
          simp only [mapCounts, h0, if_false] at hc
          exact max_eq_right_iff.1 hc
        have h3 : prior i = 1 := by have := hp i; have := hs i; linarith
        simp [h3]
      · rw [Real.log_div h1 h0]; ring
  rw [e] at h
  linarith

omit [NeZero nc] in
/-- **One EM iteration never decreases the penalised likelihood.** -/
theorem rstep_gain (c : RConfig nc) (ss : List (ObsSeq D)) {r : RParams nc Q} (h : r.Valid)
    (hL : ∀ s ∈ ss, 0 < likelihood r.π r.A (s.weights (F.b r.q)))
    (hp : 's' ∈ params → ∀ i, 1 ≤ c.sp i) (ht : 't' ∈ params → ∀ i j, 1 ≤ c.tp i j)
    {gain : ℝ} (hg : F.Gains ss r gain) :
    (∀ s ∈ ss, 0 < likelihood (F.rstep c ss r).π (F.rstep c ss r).A
      (s.weights (F.b (F.rstep c ss r).q))) ∧
    (∀ s ∈ ss, ∀ z, 0 < joint r.π r.A (s.weights (F.b r.q)) z →
      0 < joint (F.rstep c ss r).π (F.rstep c ss r).A (s.weights (F.b (F.rstep c ss r).q)) z) ∧
    Real.log (F.L ss r) + logDirichlet c.sp r.π + ∑ i, logDirichlet (c.tp i) (r.A i) + gain ≤
      Real.log (F.L ss (F.rstep c ss r)) + logDirichlet c.sp (F.rstep c ss r).π +
        ∑ i, logDirichlet (c.tp i) ((F.rstep c ss r).A i) := by
  have hv := F.rstep_valid c ss h
  have gs : (∀ i, 0 < startStat r.π r.A (F.b r.q) ss i → 0 < (F.rstep c ss r).π i) ∧
      logDirichlet c.sp r.π - logDirichlet c.sp (F.rstep c ss r).π ≤
        ∑ i, startStat r.π r.A (F.b r.q) ss i * Real.log ((F.rstep c ss r).π i / r.π i) := by
    by_cases hs : 's' ∈ params
    · simp only [rstep, hs, if_true]
      exact ⟨(mapUpdate_gain h.π_nonneg h.π_sum (hp hs) (startStat_nonneg h.π_nonneg h.A_nonneg
          (F.b_nonneg _) ss) fun i hi => startStat_zero_of_start hi ss).1,
        mapUpdate_gain_split h.π_nonneg h.π_sum (hp hs) (startStat_nonneg h.π_nonneg h.A_nonneg
          (F.b_nonneg _) ss) fun i hi => startStat_zero_of_start hi ss⟩
    · simp only [rstep, hs, if_false, sub_self]
      refine ⟨fun i hi => (h.π_nonneg i).lt_of_ne' fun h0 =>
        hi.ne' (startStat_zero_of_start h0 ss), le_of_eq (Finset.sum_eq_zero fun i _ => ?_).symm⟩
      by_cases h0 : r.π i = 0 <;> simp [h0]
  have gt : (∀ i j, 0 < transStat r.π r.A (F.b r.q) ss i j → 0 < (F.rstep c ss r).A i j) ∧
      ∑ i, logDirichlet (c.tp i) (r.A i) - ∑ i, logDirichlet (c.tp i) ((F.rstep c ss r).A i) ≤
        ∑ i, ∑ j, transStat r.π r.A (F.b r.q) ss i j *
          Real.log ((F.rstep c ss r).A i j / r.A i j) := by
    by_cases hs : 't' ∈ params
    · simp only [rstep, hs, if_true]
      refine ⟨fun i => (mapUpdate_gain (h.A_nonneg i) (h.A_sum i) (ht hs i) (transStat_nonneg
        h.π_nonneg h.A_nonneg (F.b_nonneg _) ss i) fun j hj => transStat_zero_of_trans hj ss).1, ?_⟩
      rw [← Finset.sum_sub_distrib]
      exact Finset.sum_le_sum fun i _ => mapUpdate_gain_split (h.A_nonneg i) (h.A_sum i) (ht hs i)
        (transStat_nonneg h.π_nonneg h.A_nonneg (F.b_nonneg _) ss i)
        fun j hj => transStat_zero_of_trans hj ss
    · simp only [rstep, hs, if_false, sub_self]
      refine ⟨fun i j hi => (h.A_nonneg i j).lt_of_ne' fun h0 =>
        hi.ne' (transStat_zero_of_trans h0 ss), le_of_eq (Finset.sum_eq_zero fun i _ =>
          Finset.sum_eq_zero fun j _ => ?_).symm⟩
      by_cases h0 : r.A i j = 0 <;> simp [h0]
  obtain ⟨b1, b3, b2⟩ := baumWelch (b' := F.b (F.rstep c ss r).q) h.π_nonneg h.A_nonneg (F.b_nonneg _)
    hv.π_nonneg hv.A_nonneg (F.b_nonneg _) ss hL gs.1 gt.1 hg.ac
  refine ⟨b1, b3, ?_⟩
  have := hg.gain_le
  have e : F.b (F.rstep c ss r).q = F.b (F.next r.q (obsStat r.π r.A (F.b r.q) ss)) := rfl
  rw [e] at b2
  unfold L
  rw [e]
  linarith [gs.2, gt.2]

end Family
end Verif
