import Verif.Spec.PriorAxes
import Verif.Proofs.GmmEstimator
import Verif.Proofs.Estimator

/-!
# C109: `covars_prior` keeps the shape of the `covariance_type` it was first used with
-/
set_option autoImplicit false

namespace Verif
open FloatLike Spec

variable {α G : Type} [FloatLike α] {nm : ℕ} [NeZero nm] {eig : Eigvalsh α} {ty ty' : CovType}

theorem fits_length : ∀ {s t : List ℕ}, Tensor.fits s t = true → s.length ≤ t.length
  | [], _, _ => Nat.zero_le _
  | _ :: _, [], h => by cases h
  | a :: s, b :: t, h => by
    simp only [Tensor.fits, Bool.and_eq_true] at h
    exact Nat.succ_le_succ (fits_length h.2)

omit [FloatLike α] in
/-- An array with more axes than the target has is never broadcast. -/
theorem broadcastTo_axes {t : Tensor α} {s : List ℕ} (h : s.length < t.shape.length) :
    ∃ msg, t.broadcastTo s = .error (.valueError msg) := by
  unfold Tensor.broadcastTo
  rw [if_neg (fun he => by rw [he] at h; exact lt_irrefl _ h), if_neg]
  · exact ⟨_, rfl⟩
  · intro hf
    have := fits_length hf
    simp only [List.length_reverse] at this
    omega

omit [FloatLike α] in
theorem broadcastTo_error {t : Tensor α} {s : List ℕ} {err : PyErr} (h : t.broadcastTo s = .error err) :
    ∃ msg, err = .valueError msg := by
  unfold Tensor.broadcastTo at h
  split at h
  · cases h
  split at h <;> cases h
  exact ⟨_, rfl⟩

omit [NeZero nm] in
theorem priorShape_length (nc nf : ℕ) : ((gmmTypeOf (nm := nm) eig ty).priorShape nc nf).length = covPriorAxes ty := by
  cases ty <;> rfl

omit [NeZero nm] in
/-- What `_fix_priors_shape` leaves behind. -/
theorem gmmPriors_has {T : GmmType α nm} {nc nf : ℕ} {p p' : GmmAttrs α} (h : gmmPriors T nc nf p = (.ok (), p')) :
    ∃ t, p'.covarsPrior = some t ∧ t.shape = T.priorShape nc nf := by
  unfold gmmPriors at h
  generalize gmmInitPriors T nf p = q at h
  obtain ⟨mc, wp, mp, mw, cp, cw, w, m, c⟩ := q
  simp only [gmmFixPriors, fixOne, Py.bind_apply] at h
  rcases h1 : wp.broadcastTo [nc, nm] with err | wp'
  · simp [h1] at h
  simp only [h1] at h
  rcases h2 : mp.broadcastTo [nc, nm, nf] with err | mp'
  · simp [h2] at h
  simp only [h2] at h
  rcases h3 : mw.broadcastTo [nc, nm] with err | mw'
  · simp [h3] at h
  simp only [h3] at h
  rcases h4 : (cp.getD (.scalar 0)).broadcastTo (T.priorShape nc nf) with err | cp'
  · simp [h4] at h
  simp only [h4] at h
  rcases h5 : (cw.getD (.scalar 0)).broadcastTo (T.weightShape nc nf) with err | cw'
  · simp [h5] at h
  simp only [h5, Prod.mk.injEq, true_and] at h
  subst h
  exact ⟨cp', rfl, Tensor.broadcastTo_shape h4⟩

omit [NeZero nm] in
/-- With too many axes it fails, and leaves `covars_prior` as it was. -/
theorem gmmPriors_axes {T : GmmType α nm} {nc nf : ℕ} {p : GmmAttrs α} {t : Tensor α} (hp : p.covarsPrior = some t)
    (ht : (T.priorShape nc nf).length < t.shape.length) :
    ∃ msg p', gmmPriors T nc nf p = (.error (.valueError msg), p') ∧ p'.covarsPrior = some t := by
  obtain ⟨msg, hmsg⟩ := broadcastTo_axes ht
  have hq : (gmmInitPriors T nf p).covarsPrior = some t := by simp [gmmInitPriors, hp]
  unfold gmmPriors
  generalize gmmInitPriors T nf p = q at hq
  obtain ⟨mc, wp, mp, mw, cp, cw, w, m, c⟩ := q
  subst hq
  simp only [gmmFixPriors, fixOne, Py.bind_apply]
  rcases h1 : wp.broadcastTo [nc, nm] with err | wp'
  · obtain ⟨m1, rfl⟩ := broadcastTo_error h1
    exact ⟨m1, _, rfl, rfl⟩
  rcases h2 : mp.broadcastTo [nc, nm, nf] with err | mp'
  · obtain ⟨m1, rfl⟩ := broadcastTo_error h2
    simp only [h2]
    exact ⟨m1, _, rfl, rfl⟩
  rcases h3 : mw.broadcastTo [nc, nm] with err | mw'
  · obtain ⟨m1, rfl⟩ := broadcastTo_error h3
    simp only [h2, h3]
    exact ⟨m1, _, rfl, rfl⟩
  simp only [h2, h3, Option.getD_some, hmsg]
  exact ⟨msg, _, rfl, rfl⟩

/-- The checks of an object whose `covars_prior` has too many axes. -/
theorem checkFitted_axes {k : ℕ} {e : Est α G (GmmAttrs α)} (hk : PriorHas k e.sub) (hty : covPriorAxes ty < k) :
    ∃ err e', (gmmSub (nm := nm) (gmmTypeOf eig ty)).checkFitted e = (.error err, e') ∧ e'.sub.covarsPrior = e.sub.covarsPrior ∧
      (e.startprob ≠ none → checkBase e = .ok () → e.nFeatures ≠ none → ∃ msg, err = .valueError msg) := by
  obtain ⟨t, ht, rfl⟩ := hk
  rw [Sub.checkFitted_eq]
  split
  · next h => exact ⟨_, _, rfl, rfl, fun h' => absurd (Option.isNone_iff_eq_none.1 h) h'⟩
  rw [Sub.check_eq]
  rcases hb : checkBase e with err | u
  · exact ⟨_, _, rfl, rfl, fun _ h => (by cases h)⟩
  show ∃ err e', gmmCheck _ e = _ ∧ _
  unfold gmmCheck
  rcases hf : gmmCheckFeatures e with err | nf
  · refine ⟨_, _, rfl, rfl, fun _ _ h => ?_⟩
    unfold gmmCheckFeatures at hf
    rcases hn : e.nFeatures with _ | n
    · exact absurd hn h
    · rw [hn] at hf; cases hf
  obtain ⟨msg, p', h1, h2⟩ := gmmPriors_axes (T := gmmTypeOf (nm := nm) eig ty) (nc := e.nComponents) (nf := nf) ht
    (by rw [priorShape_length]; exact hty)
  simp only [h1]
  exact ⟨_, _, rfl, h2.trans ht.symm, fun _ _ _ => ⟨msg, rfl⟩⟩

/-- `BaseHMM._init` does not touch the attributes of the subclass. -/
theorem initBase_sub (T : GmmType α nm) (R : RandomLib α G) (X : XArr α) (w : World α G (GmmAttrs α)) :
    ((gmmSub T).initBase R X w).2.est.sub = w.est.sub := by
  have hc : (checkFeaturesBase X w.est).2.sub = w.est.sub := by
    unfold checkFeaturesBase
    rcases w.est.nFeatures with _ | n
    · rfl
    · dsimp only; split <;> rfl
  simp only [Sub.initBase, Py.bind_apply, onEst]
  show (_ : Except PyErr Unit × World α G (GmmAttrs α)).2.est.sub = _
  have hS : (gmmSub (G := G) T).checkFeatures = checkFeaturesBase := rfl
  rw [hS]
  rcases (checkFeaturesBase X w.est).1 with err | u
  · exact hc
  simp only [Py.get_apply, withSelfGen]
  rcases (checkFeaturesBase X w.est).2.randomState with _ | _ | n | g
  all_goals
    simp only [Py.modify_apply, Py.bind_apply, Py.get_apply]
    generalize List.find? _ _ = o
    cases o <;> exact hc

/-- **C109** An object whose `covars_prior` has more axes than its `covariance_type` prescribes: no public method returns. -/
theorem C109_unusable {k : ℕ} {e : Est α G (GmmAttrs α)} (hk : PriorHas k e.sub) (hty : covPriorAxes ty < k) :
    NoneReturns (gmmSub (nm := nm) (gmmTypeOf eig ty)) e := by
  obtain ⟨err, e', h1, -⟩ := checkFitted_axes (nm := nm) (eig := eig) hk hty
  refine ⟨fun X ls => ⟨err, ?_⟩, fun X ls => ⟨err, ?_⟩, fun X ls a => ⟨err, ?_⟩, fun X ls => ⟨err, ?_⟩,
    fun R n seed c g => ⟨err, ?_⟩, fun R X ls g => ?_⟩
  · unfold Sub.score Sub.scoreSamples
    rw [Py.bind_error (Py.bind_error h1)]
  · unfold Sub.predictProba Sub.scoreSamples
    rw [Py.bind_error (Py.bind_error h1)]
  · unfold Sub.decode
    rw [Py.bind_error h1]
  · unfold Sub.predict Sub.decode
    rw [Py.bind_error (Py.bind_error h1)]
  · unfold Sub.sample
    rw [Py.bind_error (s' := ⟨e', g⟩) (e := err)]
    unfold onEst
    rw [h1]
  · unfold Sub.fit
    rw [Py.bind_apply, Py.lift_apply]
    rcases checkArray X with err | X'
    · exact ⟨err, rfl⟩
    have hs := initBase_sub (gmmTypeOf (nm := nm) eig ty) R X' ⟨e, g⟩
    rcases hb : (gmmSub (gmmTypeOf (nm := nm) eig ty)).initBase R X' ⟨e, g⟩ with ⟨err | u, w1⟩
    · have h4 : (gmmSub (gmmTypeOf (nm := nm) eig ty)).init R X' ⟨e, g⟩ = (.error err, w1) := by
        unfold Sub.init
        rw [Py.bind_error hb]
      exact ⟨err, by dsimp only; rw [Py.bind_error h4]⟩
    rw [hb] at hs
    obtain ⟨t, ht, rfl⟩ := hk
    obtain ⟨msg, p', h2, -⟩ := gmmPriors_axes (T := gmmTypeOf (nm := nm) eig ty) (nc := w1.est.nComponents)
      (nf := w1.est.nFeatures.getD 0) (p := w1.est.sub) (t := t) (by rw [hs]; exact ht) (by rw [priorShape_length]; exact hty)
    have h3 : (gmmSub (gmmTypeOf (nm := nm) eig ty)).initSub R X' w1 =
        (.error (.valueError msg), { w1 with est := { w1.est with sub := p' } }) := by
      show gmmInit _ R X' w1 = _
      unfold gmmInit
      rw [Py.bind_apply, Py.get_apply]
      dsimp only
      rw [Py.bind_error (s' := { w1 with est := { w1.est with sub := p' } }) (e := .valueError msg)]
      simp only [onEst, onSub, h2]
    have h4 : (gmmSub (gmmTypeOf (nm := nm) eig ty)).init R X' ⟨e, g⟩ =
        (.error (.valueError msg), { w1 with est := { w1.est with sub := p' } }) := by
      unfold Sub.init
      rw [Py.bind_ok hb, h3]
    exact ⟨_, by dsimp only; rw [Py.bind_error h4]⟩

/-- The successful check gives `covars_prior` the axes of the type. -/
theorem check_has {e e' : Est α G (GmmAttrs α)} (h : (gmmSub (nm := nm) (gmmTypeOf eig ty)).check e = (.ok (), e')) :
    PriorHas (covPriorAxes ty) e'.sub ∧ e'.nFeatures ≠ none ∧ checkBase e = .ok () ∧ e'.startprob = e.startprob ∧
      checkBase e' = .ok () := by
  rw [Sub.check_eq] at h
  rcases hb : checkBase e with err | u
  · rw [hb] at h; cases h
  rw [hb] at h
  change gmmCheck _ e = _ at h
  unfold gmmCheck at h
  rcases hf : gmmCheckFeatures e with err | nf
  · rw [hf] at h; cases h
  rw [hf] at h
  dsimp only at h
  rcases hp : gmmPriors (gmmTypeOf (nm := nm) eig ty) e.nComponents nf e.sub with ⟨err | u, p⟩
  · rw [hp] at h; cases h
  rw [hp] at h
  simp only [Prod.mk.injEq] at h
  obtain ⟨-, rfl⟩ := h
  obtain ⟨t, h1, h2⟩ := gmmPriors_has hp
  exact ⟨⟨t, h1, by rw [h2, priorShape_length]⟩, by simp, rfl, rfl, hb⟩

/-- **C109** Once the check has succeeded for one type, assigning a type with fewer axes makes every public method raise,
whatever `weights_`, `means_` and `covars_` are set to; the inference methods raise `ValueError`. -/
theorem C109_retype {e e' : Est α G (GmmAttrs α)} (h : (gmmSub (nm := nm) (gmmTypeOf eig ty)).checkFitted e = (.ok (), e'))
    (hty : covPriorAxes ty' < covPriorAxes ty) (w m c : Option (Tensor α)) :
    let e'' := { e' with sub := { e'.sub with weights := w, means := m, covars := c } }
    NoneReturns (gmmSub (nm := nm) (gmmTypeOf eig ty')) e'' ∧
      ∀ X ls, ∃ msg, ((gmmSub (nm := nm) (gmmTypeOf eig ty')).score X ls e'').1 = .error (.valueError msg) := by
  intro e''
  rw [Sub.checkFitted_eq] at h
  split at h
  · cases h
  next hn =>
  obtain ⟨h1, h2, -, h4, h5⟩ := check_has h
  have hk : PriorHas (covPriorAxes ty) e''.sub := h1
  refine ⟨C109_unusable hk hty, fun X ls => ?_⟩
  obtain ⟨err, e3, h6, -, h7⟩ := checkFitted_axes (nm := nm) (eig := eig) hk hty
  obtain ⟨msg, rfl⟩ := h7 (fun hh => hn (by rw [← h4]; exact Option.isNone_iff_eq_none.2 hh)) h5 h2
  refine ⟨msg, ?_⟩
  unfold Sub.score Sub.scoreSamples
  rw [Py.bind_error (Py.bind_error h6)]

/-- **C109** The failed call leaves `covars_prior` as it is, so the next one fails too. -/
theorem C109_stays {k : ℕ} {e : Est α G (GmmAttrs α)} (hk : PriorHas k e.sub) (hty : covPriorAxes ty < k) (X : RawX α)
    (ls : Option (List Int)) : PriorHas k ((gmmSub (nm := nm) (gmmTypeOf eig ty)).score X ls e).2.sub := by
  obtain ⟨err, e', h1, h2, -⟩ := checkFitted_axes (nm := nm) (eig := eig) hk hty
  have : (gmmSub (nm := nm) (gmmTypeOf eig ty)).score X ls e = (.error err, e') := by
    unfold Sub.score Sub.scoreSamples
    rw [Py.bind_error (Py.bind_error h1)]
  rw [this]
  obtain ⟨t, ht, hl⟩ := hk
  exact ⟨t, h2.trans ht, hl⟩

/-- **C109** The same after `fit`. -/
theorem C109_after_fit {R : RandomLib α G} {X : RawX α} {ls : Option (List Int)} {w w' : World α G (GmmAttrs α)}
    (h : (gmmSub (nm := nm) (gmmTypeOf eig ty)).fit R X ls w = (.ok (), w')) (hty : covPriorAxes ty' < covPriorAxes ty)
    (wt m c : Option (Tensor α)) : NoneReturns (gmmSub (nm := nm) (gmmTypeOf eig ty'))
      { w'.est with sub := { w'.est.sub with weights := wt, means := m, covars := c } } := by
  unfold Sub.fit at h
  rw [Py.bind_apply, Py.lift_apply] at h
  rcases hX : checkArray X with err | X'
  · rw [hX] at h; cases h
  rw [hX] at h
  dsimp only at h
  rw [Py.bind_apply] at h
  rcases hi : (gmmSub (nm := nm) (gmmTypeOf eig ty)).init R X' w with ⟨err | u, w1⟩
  · rw [hi] at h; cases h
  rw [hi] at h
  dsimp only at h
  rw [Py.bind_apply] at h
  rcases hc : (gmmSub (nm := nm) (gmmTypeOf eig ty)).check w1.est with ⟨err | u, e1⟩
  · simp [onEst, hc] at h
  simp only [onEst, hc, Prod.mk.injEq] at h
  obtain ⟨-, rfl⟩ := h
  obtain ⟨⟨t, h1, h2⟩, -⟩ := check_has hc
  refine C109_unusable (k := covPriorAxes ty) ⟨t, ?_, h2⟩ hty
  show ((gmmSub (nm := nm) (gmmTypeOf eig ty)).loop X' ls e1).2.sub.covarsPrior = _
  unfold Sub.loop Sub.loopFrom
  dsimp only
  repeat' split
  all_goals exact h1

end Verif
