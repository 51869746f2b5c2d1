import Verif.Proofs.InitLog
import Verif.Props.GmmClass

/-!
# C95: which warnings initialisation logs
-/

set_option autoImplicit false

namespace Verif
open FloatLike Spec Logged

variable {α G : Type} [FloatLike α] {R : RandomLib α G}

theorem overwrites_append (ip : List Char) (a b : List Announced) :
    overwrites ip (a ++ b) = overwrites ip a ++ overwrites ip b := by
  simp [overwrites]

theorem overwrites_cons (ip : List Char) (a : Announced) (l : List Announced) :
    overwrites ip (a :: l) = overwrites ip [a] ++ overwrites ip l := overwrites_append ip [a] l

/-- A call of `_needs_init` that guards `m`, then `k`. -/
theorem guarded {σ : Type} (ip : List Char) (code : Char) (name : String) (isSet : Bool) (m : Logged σ Unit) (s : σ)
    (hm : (m s).1 = []) :
    ((needsInitLog ip code name isSet >>= fun b => if b = true then m else pure ()) s).1 =
      overwrites ip [⟨name, code, isSet⟩] := by
  rw [bind_apply, needsInitLog_apply]
  simp only
  split
  · rw [hm, List.append_nil]
  · simp

theorem quiet_quiet {σ β : Type} (m : Py σ β) (f : β → Py σ Unit) (s : σ) :
    ((quiet m >>= fun b => quiet (f b)) s).1 = [] := by
  rw [quiet_bind]
  rcases m s with ⟨e | b, s'⟩ <;> rfl

theorem fst_quiet {σ β γ : Type} {m : Py σ β} {f : β → Logged σ γ} {s s' : σ} {b : β} (h : m s = (.ok b, s')) :
    ((quiet m >>= f) s).1 = (f b s').1 := by rw [quiet_bind, h]

theorem snd_of_erase {σ β : Type} {m : Logged σ β} {m' : Py σ β} (h : m.erase = m') (s : σ) : (m s).2 = m' s := by
  rw [← h]; rfl

/-- **C95 (`CategoricalHMM`).** -/
theorem C95_categorical : InitWarns (catSub (α := α) (G := G)) R
    (fun p => [⟨"emissionprob_", 'e', p.emissionprob.isSome⟩]) (catSub.initLog catInitLog R) := by
  have key : ∀ X (w : World α G (CatAttrs α)), (catInitLog R X w).1 =
      overwrites w.est.initParams [⟨"emissionprob_", 'e', w.est.sub.emissionprob.isSome⟩] := fun X w =>
    (fst_quiet (m := storeGen R) (s' := (storeGen R w).2) rfl).trans ((fst_quiet (Py.get_apply _)).trans
      (guarded _ _ _ _ _ _ (quiet_quiet _ _ _)))
  refine initWarns_of (catSub_frames R) (fun _ _ _ => rfl) (fun X e => ?_) (fun X w => snd_of_erase ?_ w)
    (fun X w _ => key X w) (fun X w => by rw [key])
  · show [(⟨_, _, (CatAttrs.emissionprob (catCheckFeatures X e).2.sub).isSome⟩ : Announced)] = _
    unfold catCheckFeatures
    repeat' split
    all_goals rfl
  · show _ = catInit R X
    unfold catInitLog catInit
    simp only [erase_bind, erase_quiet, needsInitLog_erase, py_pure_bind, erase_ite, erase_pure]

/-- **C95 (`MultinomialHMM`)**: `emissionprob_` is overwritten without warning. -/
theorem C95_multinomial : InitWarns (multiSub (α := α) (G := G)) R (fun _ => []) (multiSub.initLog multiInitLog R) :=
  initWarns_of (multiSub_frames R) (fun _ _ _ => rfl) (fun _ _ => rfl) (fun _ _ => rfl) (fun _ _ _ => rfl)
    (fun _ _ => List.nil_prefix)

/-- **C95 (`PoissonHMM`).** -/
theorem C95_poisson : InitWarns (poisSub (α := α) (G := G)) R
    (fun p => [⟨"lambdas_", 'l', p.lambdas.isSome⟩]) (poisSub.initLog poisInitLog R) := by
  have key : ∀ X (w : World α G (PoisAttrs α)), (poisInitLog R X w).1 =
      overwrites w.est.initParams [⟨"lambdas_", 'l', w.est.sub.lambdas.isSome⟩] := fun X w =>
    (fst_quiet (m := storeGen R) (s' := (storeGen R w).2) rfl).trans ((fst_quiet (Py.get_apply _)).trans
      (guarded _ _ _ _ _ _ (quiet_quiet _ _ _)))
  refine initWarns_of (poisSub_frames R) (fun _ _ _ => rfl) (fun X e => ?_) (fun X w => snd_of_erase ?_ w)
    (fun X w _ => key X w) (fun X w => by rw [key])
  · show [(⟨_, _, (PoisAttrs.lambdas (checkFeaturesBase X e).2.sub).isSome⟩ : Announced)] = _
    unfold checkFeaturesBase
    repeat' split
    all_goals rfl
  · show _ = poisInit R X
    unfold poisInitLog poisInit
    simp only [erase_bind, erase_quiet, needsInitLog_erase, py_pure_bind, erase_ite, erase_pure]

/-- The attributes of the emissions of a `GaussianHMM`. -/
def Spec.gaussAttrs (p : GaussAttrs α) : List Announced :=
  [⟨"means_", 'm', p.means.isSome⟩, ⟨"covars_", 'c', p.covars.isSome⟩]

theorem gaussMeansLog (X : XArr α) (w : World α G (GaussAttrs α)) : (gaussInitMeansLog R X w).1 =
    overwrites w.est.initParams [⟨"means_", 'm', w.est.sub.means.isSome⟩] := by
  refine (fst_quiet (Py.get_apply _)).trans (guarded _ _ _ _ _ _ ?_)
  split
  · rfl
  · exact quiet_quiet _ _ _

theorem gaussCovarsLog (eig : Eigvalsh α) (ty : CovType) (X : XArr α) (w : World α G (GaussAttrs α)) :
    (gaussInitCovarsLog eig ty X w).1 = overwrites w.est.initParams [⟨"covars_", 'c', w.est.sub.covars.isSome⟩] :=
  (fst_quiet (Py.get_apply _)).trans (guarded _ _ _ _ _ _ (quiet_quiet _ _ _))

theorem gaussMeansLog_erase (X : XArr α) : (gaussInitMeansLog (G := G) R X).erase = gaussInitMeans R X := by
  unfold gaussInitMeansLog gaussInitMeans
  simp only [erase_bind, erase_quiet, needsInitLog_erase, py_pure_bind, erase_ite, erase_pure]

theorem gaussCovarsLog_erase (eig : Eigvalsh α) (ty : CovType) (X : XArr α) :
    (gaussInitCovarsLog (G := G) eig ty X).erase = gaussInitCovars eig ty X := by
  unfold gaussInitCovarsLog gaussInitCovars
  simp only [erase_bind, erase_quiet, needsInitLog_erase, py_pure_bind, erase_ite, erase_pure]

theorem IsGauss.initWarns {S : Sub α G (GaussAttrs α)} {eig : Eigvalsh α} {ty : CovType} (h : IsGauss S eig ty)
    (hn : ∀ e p rs, S.nFit { e with sub := p, randomState := rs } = S.nFit e) :
    InitWarns S R gaussAttrs (S.initLog (gaussInitLog eig ty) R) := by
  have key : ∀ X (w : World α G (GaussAttrs α)), (gaussInitLog eig ty R X w).1 =
      overwrites w.est.initParams [⟨"means_", 'm', w.est.sub.means.isSome⟩] ++
      match gaussInitMeans R X w with
      | (.ok _, _) => overwrites w.est.initParams [⟨"covars_", 'c', w.est.sub.covars.isSome⟩]
      | (.error _, _) => [] := by
    intro X w
    refine (fst_bind _ _ _).trans ?_
    rw [gaussMeansLog, snd_of_erase (gaussMeansLog_erase X)]
    congr 1
    obtain ⟨rs, g, h1⟩ := gaussInitMeans_eq R X w
    rw [h1]
    split_ifs
    · rfl
    · exact gaussCovarsLog _ _ _ _
    · exact gaussCovarsLog _ _ _ _
  refine initWarns_of (h.frames R) hn (fun X e => ?_) (fun X w => ?_) (fun X w hok => ?_) (fun X w => ?_)
  · rw [h.features]
    unfold checkFeaturesBase
    repeat' split
    all_goals rfl
  · rw [h.init]
    refine snd_of_erase ?_ w
    unfold gaussInitLog gaussInit
    rw [erase_bind, gaussMeansLog_erase]
    congr 1; funext _
    exact gaussCovarsLog_erase _ _ _
  · rw [h.init] at hok
    rw [key, gaussAttrs, overwrites_cons _ _ [_]]
    have hok : (gaussInit eig ty R X w).1 = .ok () := hok
    unfold gaussInit at hok
    rw [Py.bind_apply] at hok
    rcases hm : gaussInitMeans R X w with ⟨e | b, s'⟩
    · rw [hm] at hok; cases hok
    · rfl
  · rw [key, gaussAttrs, overwrites_cons _ _ [_]]
    rcases gaussInitMeans R X w with ⟨e | b, s'⟩
    · simp
    · exact List.prefix_rfl

/-- **C95 (`GaussianHMM`)**, for each covariance type. -/
theorem C95_gaussian (eig : Eigvalsh α) :
    InitWarns (gaussDiagSub (G := G) eig) R gaussAttrs ((gaussDiagSub eig).initLog (gaussInitLog eig .diag) R) ∧
    InitWarns (gaussSphericalSub (G := G) eig) R gaussAttrs
      ((gaussSphericalSub eig).initLog (gaussInitLog eig .spherical) R) ∧
    InitWarns (gaussFullSub (G := G) eig) R gaussAttrs ((gaussFullSub eig).initLog (gaussInitLog eig .full) R) ∧
    InitWarns (gaussTiedSub (G := G) eig) R gaussAttrs ((gaussTiedSub eig).initLog (gaussInitLog eig .tied) R) :=
  ⟨(gaussDiag_isGauss eig).initWarns fun _ _ _ => rfl, (gaussSpherical_isGauss eig).initWarns fun _ _ _ => rfl,
    (gaussFull_isGauss eig).initWarns fun _ _ _ => rfl, (gaussTied_isGauss eig).initWarns fun _ _ _ => rfl⟩

variable {nm : ℕ} [NeZero nm]

/-- The attributes of the emissions of a `GMMHMM`. -/
def Spec.gmmAttrs (p : GmmAttrs α) : List Announced :=
  [⟨"weights_", 'w', p.weights.isSome⟩, ⟨"means_", 'm', p.means.isSome⟩, ⟨"covars_", 'c', p.covars.isSome⟩]

theorem whenInit_apply {σ : Type} (ip : List Char) (code : Char) (name : String) (isSet : Bool) (f : σ → σ) (s : σ) :
    whenInit ip code name isSet (Py.modify f) s =
      (overwrites ip [⟨name, code, isSet⟩], (.ok (), if needsInit ip code isSet = true then f s else s)) := by
  unfold whenInit
  rw [bind_apply, needsInitLog_apply]
  simp only
  split <;> simp

theorem gmmSetLog_apply (T : GmmType α nm) (X : XArr α) {nc : ℕ} (means : Fin nc → Fin nm → Fin X.d → α)
    (ip : List Char) (p : GmmAttrs α) : gmmSetLog T X means ip p =
      (overwrites ip (gmmAttrs p), (.ok (), gmmSet T X means ip p)) := by
  unfold gmmSetLog
  refine (ran_quiet (Py.get_apply _) (ran_bind (whenInit_apply _ _ _ _ _ _) (ran_quiet (Py.get_apply _)
    (ran_bind (whenInit_apply _ _ _ _ _ _) (ran_quiet (Py.get_apply _) (whenInit_apply _ _ _ _ _ _)))))).trans ?_
  rw [gmmAttrs, overwrites_cons ip _ [_, _], overwrites_cons ip _ [_]]
  unfold gmmSet
  by_cases h1 : needsInit ip 'w' p.weights.isSome = true <;> by_cases h2 : needsInit ip 'm' p.means.isSome = true <;>
    by_cases h3 : needsInit ip 'c' p.covars.isSome = true <;> simp [h1, h2, h3]

theorem gmmInitLog_erase (T : GmmType α nm) (X : XArr α) : (gmmInitLog (G := G) T R X).erase = gmmInit T R X := by
  have h : ∀ {nc : ℕ} (means : Fin nc → Fin nm → Fin X.d → α) (ip : List Char),
      (onEstLog (onSubLog (gmmSetLog T X means ip)) : Logged (World α G (GmmAttrs α)) Unit).erase =
        onEst (onSub (Py.modify (gmmSet T X means ip))) := by
    intro nc means ip
    funext w
    have hs := gmmSetLog_apply T X means ip w.est.sub
    simp only [erase, onEstLog, onSubLog, hs]
    rfl
  unfold gmmInitLog gmmInit
  simp only [erase_bind, erase_quiet, erase_ite, h]

/-- **C95 (`GMMHMM`).** -/
theorem C95_gmm (T : GmmType α nm) : InitWarns (gmmSub (G := G) T) R gmmAttrs ((gmmSub T).initLog (gmmInitLog T) R) := by
  have key : ∀ X (w : World α G (GmmAttrs α)),
      (∃ err, gmmInitLog T R X w = ([], (.error err, (gmmInit T R X w).2)) ∧ (gmmInit T R X w).1 = .error err) ∨
      (gmmInitLog T R X w).1 = overwrites w.est.initParams (gmmAttrs w.est.sub) := by
    intro X w
    have he : ∀ w, (gmmInitLog T R X w).2 = gmmInit T R X w := snd_of_erase (gmmInitLog_erase T X)
    have hattr : gmmAttrs (gmmPriors T w.est.nComponents (w.est.nFeatures.getD 0) w.est.sub).2 = gmmAttrs w.est.sub := by
      obtain ⟨a, b, c, -⟩ := gmmPriors_means T w.est.nComponents (w.est.nFeatures.getD 0) w.est.sub
      rw [gmmAttrs, a, b, c]; rfl
    cases hp : gmmPriors T w.est.nComponents (w.est.nFeatures.getD 0) w.est.sub with
    | mk r p =>
      rw [hp] at hattr
      have hattr1 : gmmAttrs p = gmmAttrs w.est.sub := hattr
      cases r with
      | error err =>
        left
        have h1 : onEst (onSub (gmmPriors T w.est.nComponents (w.est.nFeatures.getD 0))) w =
            (.error err, (⟨{ w.est with sub := p }, w.glob⟩ : World α G (GmmAttrs α))) := by
          simp [onEst, onSub, hp]
        have hl : gmmInitLog T R X w = _ := ran_quiet (Py.get_apply _) (ran_error h1)
        rw [← he, hl]
        exact ⟨err, rfl, rfl⟩
      | ok u =>
        have h1 : onEst (onSub (gmmPriors T w.est.nComponents (w.est.nFeatures.getD 0))) w =
            (.ok (), (⟨{ w.est with sub := p }, w.glob⟩ : World α G (GmmAttrs α))) := by
          simp [onEst, onSub, hp]
        by_cases hn : X.n < w.est.nComponents
        · left
          have hl : gmmInitLog T R X w = ([], (.error (.valueError "n_samples should be >= n_clusters"),
              ⟨{ w.est with sub := p }, w.glob⟩)) := by
            refine ran_quiet (Py.get_apply _) (ran_quiet h1 ?_)
            rw [if_pos hn]
            rfl
          rw [← he, hl]
          exact ⟨_, rfl, rfl⟩
        · right
          let w1 : World α G (GmmAttrs α) := ⟨{ w.est with sub := p }, w.glob⟩
          obtain ⟨rs2, g2, h2, -⟩ := withSelfGen_eq R (R.kmeans w.est.nComponents X.floatRows) w1
          generalize hcs : (R.kmeans w.est.nComponents X.floatRows (selfGen R w1)).1 = cs at h2
          obtain ⟨st, hst0, hst, hseq⟩ := seqMany_eq
            (f := gmmClusterMeans R nm w.est.sub.minCovar X.floatRows cs)
            (clusterMeans_eq w.est.sub.minCovar X.floatRows cs) w.est.nComponents
            ⟨{ w1.est with randomState := rs2 }, g2⟩
          have hfr : ∀ i, (st i).est.sub = p := by
            intro i
            induction i with
            | zero => rw [hst0]
            | succ i ih =>
              obtain ⟨rs', g', h⟩ := clusterMeans_frame (R := R) (nm := nm) w.est.sub.minCovar X.floatRows cs i (st i)
              rw [hst, h]; exact ih
          obtain ⟨means, hm⟩ : ∃ means, seqMany (gmmClusterMeans R nm w.est.sub.minCovar X.floatRows cs)
              w.est.nComponents ⟨{ w1.est with randomState := rs2 }, g2⟩ = (.ok means, st w.est.nComponents) := ⟨_, hseq⟩
          have hl : gmmInitLog T R X w =
              onEstLog (onSubLog (gmmSetLog T X means w.est.initParams)) (st w.est.nComponents) := by
            refine ran_quiet (Py.get_apply _) (ran_quiet h1 ?_)
            rw [if_neg hn]
            exact ran_quiet h2 (ran_quiet hm rfl)
          rw [hl]
          show (gmmSetLog T X _ _ (st w.est.nComponents).est.sub).1 = _
          rw [gmmSetLog_apply, hfr, hattr1]
  refine initWarns_of (gmmSub_frames T R) (fun _ _ _ => rfl) (fun X e => ?_)
    (fun X w => snd_of_erase (gmmInitLog_erase T X) w) (fun X w hok => ?_) (fun X w => ?_)
  · rw [gmm_features_sub]
  · have hok : (gmmInit T R X w).1 = .ok () := hok
    rcases key X w with ⟨err, -, h⟩ | h
    · rw [h] at hok; cases hok
    · exact h
  · rcases key X w with ⟨err, h, -⟩ | h
    · rw [h]; exact List.nil_prefix
    · rw [h]

end Verif
