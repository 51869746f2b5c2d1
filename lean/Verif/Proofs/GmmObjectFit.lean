import Verif.Proofs.GmmStart
import Verif.Props.GaussFit
import Verif.Props.GmmObjects

/-!
# `fit` of a `GMMHMM` object: the loop
-/

set_option autoImplicit false

namespace Verif
open FloatLike XF Hmmc Spec
open scoped Classical

variable {G V : Type} {R : RandomLib XF G} {nm nf : ℕ} [NeZero nm]

/-- The hyper-parameters the M step sees. -/
theorem FlatReads.emission {T : GmmType XF nm} {nc : ℕ} {K : GmmForm nc nm nf V} {kd : Gmm.Kind XF nc nm nf (T.C nc nf)}
    {Rk : Gmm.RKind kd V} (L : GmmLink T K Rk) {p : GmmAttrs XF} (h : FlatReads T.ty nc nm nf p) :
    (gmmSub (G := G) T).emission p nc nf = Gmm.emission kd (Gmm.prior GmmPrior.flat) := by
  obtain ⟨t4, e4, s4, h4⟩ := h.covars
  obtain ⟨t5, e5, s5, h5⟩ := h.covarsWeight
  show gmmInPlace p.meansInt p.covarsInt (Gmm.emission (T.kind nc nf (p.covarsPrior.getD (.scalar 0))
    (p.covarsWeight.getD (.scalar 0)))
    ⟨p.weightsPrior.at2 nc nm, p.meansPrior.at3 nc nm nf, p.meansWeight.at2 nc nm⟩) = _
  rw [h.floats.1, h.floats.2, gmmInPlace_floats, e4, e5, Option.getD_some, Option.getD_some, L.kind_eq t4 t5 h4 h5]
  congr 1
  unfold Gmm.prior GmmPrior.flat
  congr 1
  · funext i k; exact h.weights _ (inShape2 i k)
  · funext i k l; exact h.means _ (inShape3 i k l)
  · funext i k; exact h.meansWeight _ (inShape2 i k)

/-- The parameters an object holds. -/
theorem gmm_read {T : GmmType XF nm} {nc : ℕ} {K : GmmForm nc nm nf V} {kd : Gmm.Kind XF nc nm nf (T.C nc nf)}
    {Rk : Gmm.RKind kd V} (L : GmmLink T K Rk) {p : GmmAttrs XF} {q : Gmm.RGmm nc nm nf V}
    (h1 : ∃ t, p.weights = some t ∧ Is2 t q.w) (h2 : ∃ t, p.means = some t ∧ Is3 t q.mu)
    (h3 : ∃ t, p.covars = some t ∧ K.stored q.v t) : (gmmSub (G := G) T).read p nc nf = some (Rk.params q) := by
  obtain ⟨t1, e1, s1⟩ := h1
  obtain ⟨t2, e2, s2⟩ := h2
  obtain ⟨t3, e3, s3⟩ := h3
  obtain ⟨s4, s5⟩ := L.read _ _ s3
  simp only [gmmSub, e1, e2, e3, Option.bind_eq_bind, Option.bind_some]
  rw [if_pos ⟨s1.1, s2.1, s4⟩, s5]
  have a1 : t1.at2 nc nm = fun i k => fin (q.w i k) := funext fun i => funext fun k => s1.2 i k
  have a2 : t2.at3 nc nm nf = fun i k l => fin (q.mu i k l) := funext fun i => funext fun k => funext fun l => s2.2 i k l
  rw [a1, a2]
  rfl

/-- `_check` accepts a stored model and changes nothing. -/
theorem gmm_checkSub {T : GmmType XF nm} {e : Est XF G (GmmAttrs XF)} {K : GmmForm e.nComponents nm nf V}
    {kd : Gmm.Kind XF e.nComponents nm nf (T.C e.nComponents nf)} {Rk : Gmm.RKind kd V} (L : GmmLink T K Rk)
    (hnf : e.nFeatures = some nf) (hf : FlatReads T.ty e.nComponents nm nf e.sub) {w : Fin e.nComponents → Fin nm → ℝ}
    {mu : Fin e.nComponents → Fin nm → Fin nf → ℝ} {v : V} (h1 : ∃ t, e.sub.weights = some t ∧ Is2 t w)
    (hw : ∀ i, ∑ k, w i k = 1) (h2 : ∃ t, e.sub.means = some t ∧ Is3 t mu)
    (h3 : ∃ t, e.sub.covars = some t ∧ K.stored v t) (hv : K.proper v) : (gmmSub T).checkSub e = (.ok (), e) := by
  obtain ⟨t1, e1, s1⟩ := h1
  obtain ⟨t2, e2, s2⟩ := h2
  obtain ⟨t3, e3, s3⟩ := h3
  obtain ⟨s4, s5⟩ := L.read _ _ s3
  have hcf : gmmCheckFeatures e = .ok nf := by unfold gmmCheckFeatures; rw [hnf]
  show gmmCheck T e = _
  rw [gmmCheck_eq T e hcf, hf.fixed L.checks.tables]
  have harr : gmmCheckArrays T e.nComponents nf e.sub = .ok () := by
    have hsum : ((List.finRange e.nComponents).all fun i => isclose (sumF (t1.at2 e.nComponents nm i)) 1) = true := by
      simp only [List.all_eq_true, List.mem_finRange, true_imp_iff]
      intro i
      have : t1.at2 e.nComponents nm i = fun k => fin (w i k) := funext fun k => s1.2 i k
      rw [this, sumF_fin, hw i, isclose_one]
      unfold NearOne
      norm_num
    simp only [gmmCheckArrays, e1, e2, e3, s1.1, s2.1, s4, hsum, s5, L.valid v hv, ne_eq, not_true_eq_false, if_false,
      Bool.not_true, Bool.false_eq_true]
  simp only [Except.bind, harr]
  rw [← hnf]

/-- What training keeps. -/
def GmmKeeps {nc : ℕ} [NeZero nc] {C : Type} {kd : Gmm.Kind XF nc nm nf C} (K : GmmForm nc nm nf V) (Rk : Gmm.RKind kd V)
    (ps : List Char) (ss : List (ObsSeq (Fin nf → ℝ))) (r : RParams nc (Gmm.RGmm nc nm nf V)) : Prop :=
  Gmm.Inv Rk ps ss r ∧ (∀ i, ∑ k, r.q.w i k = 1) ∧ K.proper r.q.v

theorem gmmKeeps_next {nc : ℕ} [NeZero nc] {C : Type} {kd : Gmm.Kind XF nc nm nf C} {K : GmmForm nc nm nf V} {Rk : Gmm.RKind kd V}
    {ps : List Char} (hreg : Gmm.Regular Rk ps)
    (hnext : ∀ q T, PosLin T → Gmm.Live Rk q T → K.proper q.v → K.proper (Rk.vNext GmmPrior.flat ps q T))
    {c : RConfig nc} {ss : List (ObsSeq (Fin nf → ℝ))} (hp : 's' ∈ ps → ∀ i, 1 ≤ c.sp i) (ht : 't' ∈ ps → ∀ i j, 1 ≤ c.tp i j)
    {r : RParams nc (Gmm.RGmm nc nm nf V)} (h : GmmKeeps K Rk ps ss r) :
    GmmKeeps K Rk ps ss ((Gmm.family Rk GmmPrior.flat ps).rstep c ss r) := by
  obtain ⟨hi, hw, hv⟩ := h
  have hg : Gmm.Inv Rk ps ss ((Gmm.family Rk GmmPrior.flat ps).rstep c ss r) := by
    refine ⟨⟨(Gmm.family Rk GmmPrior.flat ps).rstep_valid c ss hi.1.1,
      ((Gmm.family Rk GmmPrior.flat ps).rstep_gain c ss hi.1.1 hi.1.2.1 hp ht ⟨Gmm.gmm_ac ss r, le_rfl⟩).1,
      fun _ => (Gmm.family Rk GmmPrior.flat ps).occupied_next c ss hp ht hi.1.1 hi.1.2.1 (Gmm.gmm_ac ss r)
        (hi.1.2.2 trivial)⟩, ?_⟩
    have e : ((Gmm.family Rk GmmPrior.flat ps).rstep c ss r).q.w =
        Rk.wNext GmmPrior.flat ps r.q (obsStat r.π r.A (Rk.b r.q) ss) := hi.live.next_w hi.posLin
    rw [e]
    exact ⟨hi.live.wNext_pos hi.posLin ps, hi.live.wNext_sum hi.posLin ps⟩
  refine ⟨hg, fun i => ?_, ?_⟩
  · have e : ((Gmm.family Rk GmmPrior.flat ps).rstep c ss r).q.w =
        Rk.wNext GmmPrior.flat ps r.q (obsStat r.π r.A (Rk.b r.q) ss) := hi.live.next_w hi.posLin
    rw [e]
    simp only [Gmm.wNext_flat]
    by_cases h : 'w' ∈ ps
    · simp only [h, if_true]
      rw [← Finset.sum_div, Gmm.sum_split Rk r.q hi.posLin, div_self (hi.live.total hi.posLin i).ne']
    · simp only [h, if_false]; exact hw i
  · have e : ((Gmm.family Rk GmmPrior.flat ps).rstep c ss r).q.v =
        Rk.vNext GmmPrior.flat ps r.q (obsStat r.π r.A (Rk.b r.q) ss) := Gmm.next_v
    rw [e]
    exact hnext _ _ hi.posLin hi.live hv

/-- What `put` stores. -/
theorem gmm_stores {T : GmmType XF nm} {e : Est XF G (GmmAttrs XF)} [NeZero e.nComponents] {K : GmmForm e.nComponents nm nf V}
    {kd : Gmm.Kind XF e.nComponents nm nf (T.C e.nComponents nf)} {Rk : Gmm.RKind kd V} (L : GmmLink T K Rk)
    (hnf : e.nFeatures = some nf) (r : RParams e.nComponents (Gmm.RGmm e.nComponents nm nf V)) (mon : Monitor XF) :
    StoresGmm K ((gmmSub T).put e ((Gmm.family Rk GmmPrior.flat e.params).theta r) mon) (Gmm.ofR r) :=
  ⟨⟨rfl, hnf, rfl, rfl⟩, ⟨_, rfl, is2_of2 r.q.w⟩, ⟨_, rfl, is3_of3 r.q.mu⟩, ⟨_, rfl, L.write r.q.v⟩⟩

/-- The loop of `fit`. -/
theorem gmm_loop {T : GmmType XF nm} {e : Est XF G (GmmAttrs XF)} [NeZero e.nComponents] {K : GmmForm e.nComponents nm nf V}
    {kd : Gmm.Kind XF e.nComponents nm nf (T.C e.nComponents nf)} {Rk : Gmm.RKind kd V} (L : GmmLink T K Rk)
    (hreg : Gmm.Regular Rk e.params)
    (hnext : ∀ q S, PosLin S → Gmm.Live Rk q S → K.proper q.v → K.proper (Rk.vNext GmmPrior.flat e.params q S))
    {cond : V → Prop} (himp : ∀ q S, PosLin S → Gmm.Live Rk q S →
      ('c' ∈ e.params → cond (Rk.vNext GmmPrior.flat e.params q S)) → Gmm.Improves Rk e.params q S)
    (hf : nf ≠ 0) {impl : Impl} (hset : FlatChain e impl) (hpr : FlatReads T.ty e.nComponents nm nf e.sub)
    {m : GmmPoint e.nComponents nm nf V} (hst : StoresGmm K e m) (h : ChainModel m.π m.A) (hπ : ∑ i, m.π i = 1)
    (hw : ∀ i k, 0 < m.w i k) (hw1 : ∀ i, ∑ k, m.w i k = 1) (hv : K.proper m.v)
    {ss : List (ObsSeq (Fin nf → ℝ))} (hne : ss ≠ []) {ls : Option (List Int)} (hl : LengthsFor ss ls)
    (hL : 0 < m.L K.dens ss) (hu : EveryStateUsed m.π m.A (m.b K.dens) ss) :
    TrainsFrom (gmmTraining K (gmmSub T) e.params ss cond) m e impl
      ((gmmSub T).loop (.floats ((samples ss).map Gaussian.row)) ls e) := by
  have hcfg : e.config impl = (⟨fun _ => 1, fun _ _ => 1, impl, e.nIter⟩ : RConfig e.nComponents).toConfig e.params := by
    simp only [Est.config, RConfig.toConfig]
    congr 1
    · funext i; exact hset.startprobPrior i
    · funext i j; exact hset.transmatPrior i j
  have hd := L.dens
  have hmw : MixWeights m.w := ⟨hw, fun i => (hw1 i).le⟩
  have hcl := Gmm.inv_closed hreg ⟨fun _ => 1, fun _ _ => 1, impl, e.nIter⟩ ss (fun _ _ => le_rfl) fun _ _ _ => le_rfl
  have hJ : (Gmm.family Rk GmmPrior.flat e.params).Closed ⟨fun _ => 1, fun _ _ => 1, impl, e.nIter⟩ ss
      (GmmKeeps K Rk e.params ss) :=
    { valid := fun r h => hcl.valid r h.1, ok := fun i r h => hcl.ok i r h.1, good := fun r h => hcl.good r h.1
      next := fun r h _ => gmmKeeps_next hreg hnext (fun _ _ => le_rfl) (fun _ _ _ => le_rfl) h }
  have hflat : ∀ (θ : Theta XF e.nComponents (Gmm.Params XF e.nComponents nm nf (T.C e.nComponents nf))) mon,
      FlatReads T.ty e.nComponents nm nf ((gmmSub (G := G) T).put (nf := nf) e θ mon).sub := fun θ mon =>
    ⟨hpr.weights, hpr.means, hpr.meansWeight, hpr.covars, hpr.covarsWeight, hpr.s1, hpr.s2, hpr.s3, hpr.floats⟩
  have hcs : ∀ r mon, GmmKeeps K Rk e.params ss r →
      (gmmSub T).checkSub ((gmmSub T).put e ((Gmm.family Rk GmmPrior.flat e.params).theta r) mon) =
        (.ok (), (gmmSub T).put e ((Gmm.family Rk GmmPrior.flat e.params).theta r) mon) := by
    intro r mon hr
    have hs := gmm_stores L hst.1.nFeatures r mon
    exact gmm_checkSub (e := (gmmSub T).put e ((Gmm.family Rk GmmPrior.flat e.params).theta r) mon) L hst.1.nFeatures
      (hflat _ mon) hs.2.1 hr.2.1 hs.2.2.1 hs.2.2.2 hr.2.2
  have key := loop_trains (S := gmmSub T) (gmmTraining K (gmmSub T) e.params ss cond) (Gmm.family Rk GmmPrior.flat e.params)
    (hpr.emission L) (c := ⟨fun _ => 1, fun _ _ => 1, impl, e.nIter⟩)
    hset.implementation hcfg hset.nIter (r := Gmm.toR m hmw) hst.1.nFeatures hst.1.startprob hst.1.transmat
    (gmm_read L hst.2.1 hst.2.2.1 hst.2.2.2) hne (gaussRows_floats _) hl (fun _ _ => le_rfl) hJ
    ⟨Gmm.inv_start h hmw (hd ▸ hL) (hd ▸ hu), hw1, hv⟩ Gmm.ofR (fun r => ?_)
    (fun r hr => (log_dataLikelihood ss hr.1.1.2.1).1) (fun r mon hr => gmm_stores L hst.1.nFeatures r mon)
    (fun r hr _ _ hm => ?_) ?_ ?_
  · exact key
  · show (Gmm.ofR r).L K.dens ss = _
    rw [hd]; rfl
  · have hg := ((Gmm.family Rk GmmPrior.flat e.params).rstep_gain ⟨fun _ => 1, fun _ _ => 1, impl, e.nIter⟩ ss hr.1.1.1 hr.1.1.2.1
      (fun _ _ => le_rfl) (fun _ _ _ => le_rfl) (Gmm.gmm_gains ss r hr.1.1.1 hr.1.live
        (himp _ _ hr.1.posLin hr.1.live fun hc => ?_))).2.2
    · simp only [Family.objective, logDirichlet, sub_self, zero_mul, Finset.sum_const_zero, add_zero] at hg
      show Real.log ((Gmm.ofR r).L K.dens ss) ≤ Real.log (GmmPoint.L K.dens (Gmm.ofR _) ss)
      rw [hd]
      exact hg
    · have := hm hc
      have e1 : ((Gmm.family Rk GmmPrior.flat e.params).rstep ⟨fun _ => 1, fun _ _ => 1, impl, e.nIter⟩ ss r).q.v =
          Rk.vNext GmmPrior.flat e.params r.q (obsStat r.π r.A (Rk.b r.q) ss) := Gmm.next_v
      rw [← e1]
      exact this
  · intro hu' hraise
    obtain ⟨ht, hu'⟩ := hu'
    rw [show (Gmm.ofR (Gmm.toR m hmw)).b K.dens = Rk.b (Gmm.toR m hmw).q from by rw [hd]; rfl] at hu'
    exact C28_checked (gmmSub T) e (Gmm.family Rk GmmPrior.flat e.params)
      (c := ⟨fun _ => 1, fun _ _ => 1, impl, e.nIter⟩) (fun _ _ => rfl) (fun _ _ => le_rfl) ht hne hJ
      (fun r hr => ⟨hr.1.1.2.1, Gmm.gmm_ac ss r, gmmKeeps_next hreg hnext (fun _ _ => le_rfl) (fun _ _ _ => le_rfl) hr⟩)
      (r := Gmm.toR m hmw) ⟨Gmm.inv_start h hmw (hd ▸ hL) (hd ▸ hu), hw1, hv⟩ hπ hu' e.monitor.reset _
      (history_pos hraise hset.nIter) hcs
  · intro r mon hr ha
    show Answers (gmmSub T) _ realsX r.π r.A ((Gmm.ofR r).b K.dens)
    rw [show (Gmm.ofR r).b K.dens = Rk.b r.q from by rw [hd]; rfl]
    have hs := gmm_stores L hst.1.nFeatures r mon
    exact answers_family (S := gmmSub T) (Gmm.family Rk GmmPrior.flat e.params) ha hst.1.nFeatures
      ((hflat _ mon).emission L) hr.1.1.1 (hcs r mon hr) (gmm_read L hs.2.1 hs.2.2.1 hs.2.2.2) (reals_data hf)

end Verif
