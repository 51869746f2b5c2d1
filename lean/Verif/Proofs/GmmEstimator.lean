import Verif.Model.GmmEstimator
import Verif.Props.Seeding

/-!
# Lemmas on the estimator object of `GMMHMM`
-/

set_option autoImplicit false

namespace Verif
open FloatLike Spec

variable {α G : Type} [FloatLike α] {nm : Nat}

/-! ## Broadcasting -/

namespace Tensor

omit [FloatLike α] in
theorem broadcastTo_shape {t t' : Tensor α} {s : List Nat} (h : t.broadcastTo s = .ok t') : t'.shape = s := by
  unfold broadcastTo at h
  split at h
  · next hs => cases h; exact hs
  · split at h
    · cases h; rfl
    · cases h

omit [FloatLike α] in
theorem broadcastTo_self {t : Tensor α} {s : List Nat} (h : t.shape = s) : t.broadcastTo s = .ok t := by
  unfold broadcastTo
  rw [if_pos h]

omit [FloatLike α] in
theorem broadcastTo_idem {t t' : Tensor α} {s : List Nat} (h : t.broadcastTo s = .ok t') :
    t'.broadcastTo s = .ok t' := broadcastTo_self (broadcastTo_shape h)

end Tensor

/-- Repeating the method after it has run changes nothing and has the same outcome. -/
def Py.Idem {σ β : Type} (m : Py σ β) : Prop := ∀ s, m (m s).2 = m s

theorem fixPriors_idem (T : GmmType α nm) (nc nf : Nat) : Py.Idem (gmmFixPriors (α := α) T nc nf) := by
  intro p
  obtain ⟨mc, wp, mp, mw, cp, cw, w, m, c⟩ := p
  simp only [gmmFixPriors, fixOne, Py.bind_apply]
  cases h1 : wp.broadcastTo [nc, nm] with
  | error e => simp only [h1]
  | ok wp' =>
    have h1' := Tensor.broadcastTo_idem h1
    dsimp only
    cases h2 : mp.broadcastTo [nc, nm, nf] with
    | error e => simp only [h1', h2]
    | ok mp' =>
      have h2' := Tensor.broadcastTo_idem h2
      dsimp only
      cases h3 : mw.broadcastTo [nc, nm] with
      | error e => simp only [h1', h2', h3]
      | ok mw' =>
        have h3' := Tensor.broadcastTo_idem h3
        dsimp only
        cases h4 : (cp.getD (.scalar 0)).broadcastTo (T.priorShape nc nf) with
        | error e => simp only [h1', h2', h3', h4]
        | ok cp' =>
          have h4' := Tensor.broadcastTo_idem h4
          dsimp only
          cases h5 : (cw.getD (.scalar 0)).broadcastTo (T.weightShape nc nf) with
          | error e => simp only [h1', h2', h3', h4', h5, Option.getD_some]
          | ok cw' =>
            have h5' := Tensor.broadcastTo_idem h5
            simp only [h1', h2', h3', h4', h5', Option.getD_some]

/-- Only the five hyper-parameters are assigned, and covariance hyper-parameters stay set. -/
theorem fixPriors_frame (T : GmmType α nm) (nc nf : Nat) (p : GmmAttrs α) :
    ∃ wp mp mw cp cw, (gmmFixPriors T nc nf p).2 =
      { p with weightsPrior := wp, meansPrior := mp, meansWeight := mw, covarsPrior := cp, covarsWeight := cw } ∧
      (p.covarsPrior.isSome → cp.isSome) ∧ (p.covarsWeight.isSome → cw.isSome) := by
  obtain ⟨mc, wp, mp, mw, cp, cw, w, m, c⟩ := p
  simp only [gmmFixPriors, fixOne, Py.bind_apply]
  cases h1 : wp.broadcastTo [nc, nm] with
  | error e => exact ⟨_, _, _, _, _, rfl, id, id⟩
  | ok wp' =>
    dsimp only
    cases h2 : mp.broadcastTo [nc, nm, nf] with
    | error e => exact ⟨_, _, _, _, _, rfl, id, id⟩
    | ok mp' =>
      dsimp only
      cases h3 : mw.broadcastTo [nc, nm] with
      | error e => exact ⟨_, _, _, _, _, rfl, id, id⟩
      | ok mw' =>
        dsimp only
        cases h4 : (cp.getD (.scalar 0)).broadcastTo (T.priorShape nc nf) with
        | error e => exact ⟨_, _, _, _, _, rfl, id, id⟩
        | ok cp' =>
          dsimp only
          cases h5 : (cw.getD (.scalar 0)).broadcastTo (T.weightShape nc nf) with
          | error e => exact ⟨_, _, _, _, _, rfl, fun _ => rfl, id⟩
          | ok cw' => exact ⟨_, _, _, _, _, rfl, fun _ => rfl, fun _ => rfl⟩

theorem initPriors_self (T : GmmType α nm) (nf : Nat) {p : GmmAttrs α} (h1 : p.covarsPrior.isSome)
    (h2 : p.covarsWeight.isSome) : gmmInitPriors T nf p = p := by
  obtain ⟨mc, wp, mp, mw, cp, cw, w, m, c⟩ := p
  obtain ⟨a, rfl⟩ := Option.isSome_iff_exists.1 h1
  obtain ⟨b, rfl⟩ := Option.isSome_iff_exists.1 h2
  rfl

theorem gmmPriors_frame (T : GmmType α nm) (nc nf : Nat) (p : GmmAttrs α) :
    ∃ wp mp mw cp cw, (gmmPriors T nc nf p).2 =
      { p with weightsPrior := wp, meansPrior := mp, meansWeight := mw, covarsPrior := cp, covarsWeight := cw } ∧
      cp.isSome ∧ cw.isSome := by
  obtain ⟨wp, mp, mw, cp, cw, h, h1, h2⟩ := fixPriors_frame T nc nf (gmmInitPriors T nf p)
  exact ⟨wp, mp, mw, cp, cw, h, h1 rfl, h2 rfl⟩

theorem gmmPriors_idem (T : GmmType α nm) (nc nf : Nat) : Py.Idem (gmmPriors (α := α) T nc nf) := by
  intro p
  obtain ⟨wp, mp, mw, cp, cw, h, h1, h2⟩ := gmmPriors_frame T nc nf p
  have : gmmInitPriors T nf (gmmPriors T nc nf p).2 = (gmmPriors T nc nf p).2 :=
    initPriors_self T nf (by rw [h]; exact h1) (by rw [h]; exact h2)
  show gmmFixPriors T nc nf (gmmInitPriors T nf (gmmPriors T nc nf p).2) = _
  rw [this]
  exact fixPriors_idem T nc nf _

/-- Without integer arrays nothing is refused. -/
theorem gmmInPlace_floats {nc nf : Nat} {P S : Type} (E : Emission α nc (Fin nf → α) P S) :
    gmmInPlace false false E = E := by
  have : ∀ x : Except PyErr S, (do let y ← x; .ok y) = x := fun x => by cases x <;> rfl
  unfold gmmInPlace
  simp only [Bool.false_and, Bool.or_self, Bool.false_eq_true, if_false, this]

theorem gmmPriors_ints (T : GmmType α nm) (nc nf : Nat) (p : GmmAttrs α) :
    (gmmPriors T nc nf p).2.meansInt = p.meansInt ∧ (gmmPriors T nc nf p).2.covarsInt = p.covarsInt := by
  obtain ⟨wp, mp, mw, cp, cw, h, -, -⟩ := gmmPriors_frame T nc nf p
  rw [h]
  exact ⟨rfl, rfl⟩

theorem gmmPriors_means (T : GmmType α nm) (nc nf : Nat) (p : GmmAttrs α) :
    (gmmPriors T nc nf p).2.means = p.means ∧ (gmmPriors T nc nf p).2.weights = p.weights ∧
      (gmmPriors T nc nf p).2.covars = p.covars ∧ (gmmPriors T nc nf p).2.minCovar = p.minCovar := by
  obtain ⟨wp, mp, mw, cp, cw, h, -, -⟩ := gmmPriors_frame T nc nf p
  rw [h]
  exact ⟨rfl, rfl, rfl, rfl⟩

/-! ## `_check` -/

/-- `_check` once the number of features is known. -/
theorem gmmCheck_eq (T : GmmType α nm) (e : Est α G (GmmAttrs α)) {nf : Nat}
    (h : gmmCheckFeatures e = .ok nf) :
    gmmCheck T e = ((gmmPriors T e.nComponents nf e.sub).1.bind fun _ =>
        gmmCheckArrays T e.nComponents nf (gmmPriors T e.nComponents nf e.sub).2,
      { e with nFeatures := some nf, sub := (gmmPriors T e.nComponents nf e.sub).2 }) := by
  unfold gmmCheck
  rw [h]
  dsimp only
  rcases gmmPriors T e.nComponents nf e.sub with ⟨_ | _, p⟩ <;> rfl

theorem gmmCheck_error (T : GmmType α nm) (e : Est α G (GmmAttrs α)) {err : PyErr}
    (h : gmmCheckFeatures e = .error err) : gmmCheck T e = (.error err, e) := by
  unfold gmmCheck
  rw [h]

theorem gmmSub_lawful (T : GmmType α nm) [NeZero nm] : (gmmSub (G := G) T).Lawful where
  frame e := by
    show (gmmCheck T e).2 = { e with nFeatures := (gmmCheck T e).2.nFeatures, sub := (gmmCheck T e).2.sub }
    cases h : gmmCheckFeatures e with
    | error err => rw [gmmCheck_error T e h]
    | ok nf => rw [gmmCheck_eq T e h]
  idem e := by
    show gmmCheck T (gmmCheck T e).2 = gmmCheck T e
    cases h : gmmCheckFeatures e with
    | error err => rw [gmmCheck_error T e h, gmmCheck_error T e h]
    | ok nf =>
      rw [gmmCheck_eq T e h]
      have h' : gmmCheckFeatures { e with nFeatures := some nf, sub := (gmmPriors T e.nComponents nf e.sub).2 } =
        .ok nf := rfl
      rw [gmmCheck_eq T _ h']
      dsimp only
      rw [gmmPriors_idem T e.nComponents nf e.sub]

theorem gmmSub_ignoresSeed (T : GmmType α nm) [NeZero nm] : (gmmSub (G := G) T).IgnoresSeed := by
  intro rs e
  show gmmCheck T (e.reseed rs) = ((gmmCheck T e).1, (gmmCheck T e).2.reseed rs)
  have h0 : gmmCheckFeatures (e.reseed rs) = gmmCheckFeatures e := rfl
  cases h : gmmCheckFeatures e with
  | error err => rw [gmmCheck_error T e h, gmmCheck_error T _ (h0.trans h)]
  | ok nf => rw [gmmCheck_eq T e h, gmmCheck_eq T _ (h0.trans h)]; rfl

/-! ## `_init` -/

namespace Py
variable {σ β : Type}

theorem Keeps.seqMany {I : σ → Prop} {f : Nat → Py σ β} (h : ∀ i, Keeps I (f i)) (n : Nat) :
    Keeps I (seqMany f n) := by
  induction n with
  | zero => exact Keeps.pure _
  | succ n ih => exact ih.bind fun _ => (h n).bind fun _ => Keeps.pure _

theorem Comm.seqMany {φ : σ → σ} {f : Nat → Py σ β} (h : ∀ i, Comm φ (f i)) (n : Nat) :
    Comm φ (seqMany f n) := by
  induction n with
  | zero => exact Comm.pure _
  | succ n ih => exact ih.bind fun _ => (h n).bind fun _ => Comm.pure _

end Py

omit [FloatLike α] in
theorem keeps_withGlobalGen {P β : Type} {I : World α G P → Prop} (f : G → β × G)
    (hg : ∀ w g, I w → I { w with glob := g }) : Py.Keeps I (withGlobalGen f) := fun w hw => hg w _ hw

theorem keeps_clusterMeans {I : World α G (GmmAttrs α) → Prop} (R : RandomLib α G) (nm : Nat) (mc : α) {d nc : Nat}
    (rows : List (Fin d → α)) (cs : Fin nc → Fin d → α) (l : Nat) (hg : ∀ w g, I w → I { w with glob := g })
    (hr : ∀ w rs, I w → I { w with est := { w.est with randomState := rs } }) :
    Py.Keeps I (gmmClusterMeans R nm mc rows cs l) := by
  unfold gmmClusterMeans
  dsimp only
  split
  · exact keeps_withSelfGen _ hg hr
  · exact keeps_withGlobalGen _ hg

/-- What `_init` keeps: anything that survives new generators, new hyper-parameters and, at the
end, the assignments. -/
theorem gmmInit_keeps {I : World α G (GmmAttrs α) → Prop} (T : GmmType α nm) (R : RandomLib α G) (X : XArr α)
    (hg : ∀ w g, I w → I { w with glob := g })
    (hr : ∀ w rs, I w → I { w with est := { w.est with randomState := rs } })
    (hp : ∀ (w : World α G (GmmAttrs α)) nc nf, I w →
      I { w with est := { w.est with sub := (gmmPriors T nc nf w.est.sub).2 } })
    (hs : ∀ (w : World α G (GmmAttrs α)) nc (means : Fin nc → Fin nm → Fin X.d → α) ip, I w →
      I { w with est := { w.est with sub := gmmSet T X means ip w.est.sub } }) :
    Py.Keeps I (gmmInit T R X) := by
  refine Py.Keeps.bind Py.Keeps.get fun w => ?_
  refine Py.Keeps.bind (fun w' hw => hp w' _ _ hw) fun _ => ?_
  split
  · exact Py.Keeps.raise _
  · refine Py.Keeps.bind (keeps_withSelfGen _ hg hr) fun cs => ?_
    refine Py.Keeps.bind (Py.Keeps.seqMany (fun l => keeps_clusterMeans R nm _ _ cs l hg hr) _) fun m => ?_
    exact fun w' hw => hs w' _ m _ hw

theorem gmmSub_frames (T : GmmType α nm) [NeZero nm] (R : RandomLib α G) : (gmmSub (G := G) T).Frames R where
  lawful := gmmSub_lawful T
  features := checkFeaturesBase_frames
  init X w := by
    refine gmmInit_keeps (I := fun w' => ∃ p rs g, w' = ⟨{ w.est with sub := p, randomState := rs }, g⟩) T R X
      ?_ ?_ ?_ ?_ w ⟨w.est.sub, w.est.randomState, w.glob, rfl⟩
    · rintro _ g' ⟨p, rs, g, rfl⟩; exact ⟨_, _, _, rfl⟩
    · rintro _ g' ⟨p, rs, g, rfl⟩; exact ⟨_, _, _, rfl⟩
    · rintro _ nc nf ⟨p, rs, g, rfl⟩; exact ⟨_, _, _, rfl⟩
    · rintro _ nc m ip ⟨p, rs, g, rfl⟩; exact ⟨_, _, _, rfl⟩

theorem gmmSub_inv (T : GmmType α nm) [NeZero nm] (R : RandomLib α G) (n : Nat) :
    (gmmSub (G := G) T).Inv R (fun nf _ => nf = some n) (fun X => X.d = n) where
  features X := checkFeaturesBase_keeps X _ n fun _ _ h => h
  accepted X e he h := base_accepted he h
  init X _ := gmmInit_keeps T R X (fun _ _ h => h) (fun _ _ h => h) (fun _ _ _ h => h) fun _ _ _ _ h => h
  check e he := by
    have he : e.nFeatures = some n := he
    have h : gmmCheckFeatures e = .ok n := by unfold gmmCheckFeatures; rw [he]
    show (gmmCheck T e).2.nFeatures = some n
    rw [gmmCheck_eq T e h]
  write _ _ _ _ h := h

theorem gmmSub_oblivious (T : GmmType α nm) [NeZero nm] (R : RandomLib α G) : (gmmSub (G := G) T).Oblivious R where
  features X k t m := checkFeaturesBase_comm X k t m
  init X k t m := by
    show Py.Comm _ (gmmInit T R X)
    refine Py.Comm.get_bind (fun w => rfl) fun w => ?_
    refine Py.Comm.bind (comm_onEst k t m fun e => rfl) fun _ => ?_
    refine Py.Comm.ite (Py.Comm.raise _) ?_
    refine Py.Comm.bind (comm_withSelfGen k t m R _) fun cs => ?_
    refine Py.Comm.bind (Py.Comm.seqMany (fun l => ?_) _) fun _ => ?_
    · unfold gmmClusterMeans
      exact Py.Comm.ite (comm_withSelfGen k t m R _) fun w => rfl
    · exact comm_onEst k t m fun e => rfl
  check k t m e := by
    show gmmCheck T (e.retrain k t m) = ((gmmCheck T e).1, (gmmCheck T e).2.retrain k t m)
    have h0 : gmmCheckFeatures (e.retrain k t m) = gmmCheckFeatures e := rfl
    cases h : gmmCheckFeatures e with
    | error err => rw [gmmCheck_error T e h, gmmCheck_error T _ (h0.trans h)]
    | ok nf => rw [gmmCheck_eq T e h, gmmCheck_eq T _ (h0.trans h)]; rfl
  nFit _ _ _ _ := rfl

end Verif
