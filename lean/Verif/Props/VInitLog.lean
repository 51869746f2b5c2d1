import Verif.Props.InitLog
import Verif.Props.VObjectFit

/-!
# C95: which warnings initialisation of a variational model logs
-/

set_option autoImplicit false

namespace Verif
open FloatLike Spec Logged

variable {α G Q : Type} [FloatLike α] {R : RandomLib α G}

theorem anyNeedsInitLog_erase {σ : Type} (ip : List Char) (code : Char) (name : String) (isSet : Bool)
    (rest : List (String × Bool)) :
    (anyNeedsInitLog ip code ((name, isSet) :: rest) : Logged σ Bool).erase =
      pure (needsInit ip code isSet || rest.any fun a => needsInit ip code a.2) := by
  funext s
  show (anyNeedsInitLog ip code _ s).2 = _
  rw [anyNeedsInitLog_apply]; rfl

theorem vinitBaseLog_erase (V : VSub α G Q) (X : XArr α) (lens : List Int) :
    (V.initBaseLog R X lens).erase = V.initBase R X lens := by
  unfold VSub.initBaseLog VSub.initBase needsStart needsTrans
  simp only [erase_bind, erase_quiet, anyNeedsInitLog_erase, py_pure_bind, checkSizeLog_erase, List.any_cons,
    List.any_nil, Bool.or_false]
  rfl

/-- What `VariationalBaseHMM._init` logs. -/
theorem vinitBaseLog_fst (V : VSub α G Q) (X : XArr α) (lens : List Int) (w : World α G (VAttrs α Q))
    {e1 : VEst α G Q} (hc : V.core.checkFeatures X w.est = (.ok (), e1)) :
    (∃ err, (V.initBase R X lens w).1 = .error err ∧
      (V.initBaseLog R X lens w).1 <+: overwrites e1.initParams (vchainAttrs e1)) ∨
    (V.initBaseLog R X lens w).1 = overwrites e1.initParams (vchainAttrs e1) ++
      tooSmall (V.core.nFit (V.initBase R X lens w).2.est) e1.params (X.n * X.d) := by
  have herase : (V.initBaseLog R X lens w).2 = V.initBase R X lens w := snd_of_erase (vinitBaseLog_erase V X lens) w
  rw [← herase]
  have hchain : overwrites e1.initParams (vchainAttrs e1) =
      overwrites e1.initParams [⟨"startprob_posterior_", 's', e1.sub.chain.startPost.isSome⟩] ++
      overwrites e1.initParams [⟨"transmat_posterior_", 't', e1.sub.chain.transPost.isSome⟩] :=
    overwrites_append _ [_] [_]
  rw [hchain]
  have h1 : onEst (V.core.checkFeatures X) w = (.ok (), { w with est := e1 }) := by simp [onEst, hc]
  have hs : (anyNeedsInitLog e1.initParams 's' [("startprob_posterior_", e1.sub.chain.startPost.isSome),
      ("startprob_prior_", e1.sub.chain.startPrior.isSome)] : Logged (World α G (VAttrs α Q)) Bool) { w with est := e1 } =
      (overwrites e1.initParams [⟨"startprob_posterior_", 's', e1.sub.chain.startPost.isSome⟩],
        (.ok (needsStart e1), { w with est := e1 })) := by
    rw [anyNeedsInitLog_apply, needsStart]; simp
  have ht : (anyNeedsInitLog e1.initParams 't' [("transmat_posterior_", e1.sub.chain.transPost.isSome),
      ("transmat_prior_", e1.sub.chain.transPrior.isSome)] : Logged (World α G (VAttrs α Q)) Bool) { w with est := e1 } =
      (overwrites e1.initParams [⟨"transmat_posterior_", 't', e1.sub.chain.transPost.isSome⟩],
        (.ok (needsTrans e1), { w with est := e1 })) := by
    rw [anyNeedsInitLog_apply, needsTrans]; simp
  cases hsp : whenNeeded (needsStart e1) (startPriorOf e1.nComponents e1.sub.chain.startprobPrior) with
  | error err =>
    have key : V.initBaseLog R X lens w = _ := ran_quiet h1 (ran_quiet (Py.get_apply _) (ran_bind hs
      (ran_error (by show (_, _) = (_, _); rw [hsp]))))
    rw [key]
    exact .inl ⟨err, rfl, by simp⟩
  | ok sp =>
    obtain ⟨rs, g, h2, -⟩ := withSelfGen_eq R (vinitDraws R e1.nComponents (needsStart e1)
      (needsTrans e1 && (whenNeeded (needsTrans e1) (transPriorOf e1.nComponents e1.sub.chain.transmatPrior)).toBool)
      lens) { w with est := e1 }
    cases htp : whenNeeded (needsTrans e1) (transPriorOf e1.nComponents e1.sub.chain.transmatPrior) with
    | error err =>
      have key : V.initBaseLog R X lens w = _ := ran_quiet h1 (ran_quiet (Py.get_apply _) (ran_bind hs
        (ran_quiet (by show (_, _) = (_, _); rw [hsp]) (ran_bind ht (ran_quiet h2 (ran_quiet rfl
          (ran_error (by show (_, _) = (_, _); rw [htp]))))))))
      rw [key]
      exact .inl ⟨err, rfl, by simp⟩
    | ok tp =>
      have key : V.initBaseLog R X lens w = _ := ran_quiet h1 (ran_quiet (Py.get_apply _) (ran_bind hs
        (ran_quiet (by show (_, _) = (_, _); rw [hsp]) (ran_bind ht (ran_quiet h2 (ran_quiet rfl
          (ran_quiet (by show (_, _) = (_, _); rw [htp]) (ran_quiet rfl (ran_quiet (Py.get_apply _)
            (checkSizeLog_apply _ _ _ _))))))))))
      rw [key]
      refine .inr ?_
      rw [List.append_assoc]
      rfl

/-- The class warns as it should when its own part does. -/
theorem vinitWarns_of {V : VSub α G Q} {own : Q → List Announced}
    {log : RandomLib α G → XArr α → List Int → Logged (World α G (VAttrs α Q)) Unit}
    (hn : ∀ e e' : VEst α G Q, e'.nComponents = e.nComponents → e'.nFeatures = e.nFeatures →
      V.core.nFit e' = V.core.nFit e)
    (hf : ∀ X e, ∃ nf, (V.core.checkFeatures X e).2 = { e with nFeatures := nf })
    (hfr : ∀ X lens w, ((V.initSub R X lens w).2.est.nComponents, (V.initSub R X lens w).2.est.nFeatures) =
      (w.est.nComponents, w.est.nFeatures))
    (h : ∀ X lens w, (log R X lens w).2 = V.initSub R X lens w)
    (hok : ∀ X lens w, (V.initSub R X lens w).1 = .ok () →
      (log R X lens w).1 = overwrites w.est.initParams (own w.est.sub.sub))
    (hpre : ∀ X lens w, (log R X lens w).1 <+: overwrites w.est.initParams (own w.est.sub.sub)) :
    VInitWarns V R own (V.initLog log R) := by
  have hres : ∀ X lens w, (V.initLog log R X lens w).2 = V.init R X lens w := by
    intro X lens w
    refine snd_of_erase ?_ w
    unfold VSub.initLog VSub.init
    rw [erase_bind, vinitBaseLog_erase]
    congr 1; funext _
    exact funext (h X lens)
  have split : ∀ X lens w, ((V.init R X lens w).1 = .ok () →
      (V.initLog log R X lens w).1 = vinitWarnings V R own X lens w) ∧
      (V.initLog log R X lens w).1 <+: vinitWarnings V R own X lens w := by
    intro X lens w
    obtain ⟨nf, hp⟩ := hf X w.est
    have herase : (V.initBaseLog R X lens w).2 = V.initBase R X lens w :=
      snd_of_erase (vinitBaseLog_erase V X lens) w
    have hlog : (V.initLog log R X lens w).1 = _ := fst_bind _ _ _
    have hinit : V.init R X lens w = _ := Py.bind_apply _ _ _
    have hkeep := vinitBase_keeps V R X lens (fun w => by
      obtain ⟨nf, hp⟩ := hf X w.est
      show (V.core.checkFeatures X w.est).2.initParams = _ ∧ (V.core.checkFeatures X w.est).2.sub.sub = _ ∧
        (V.core.checkFeatures X w.est).2.nComponents = _
      rw [hp]; exact ⟨rfl, rfl, rfl⟩) w
    rw [herase] at hlog
    obtain ⟨r, w2, hbb⟩ : ∃ r w2, V.initBase R X lens w = (r, w2) := ⟨_, _, rfl⟩
    rw [hbb] at hlog hinit hkeep
    obtain ⟨k1, k2, -⟩ := hkeep
    have k1 : w2.est.initParams = w.est.initParams := k1
    have k2 : w2.est.sub.sub = w.est.sub.sub := k2
    cases hc : V.core.checkFeatures X w.est with
    | mk rc e1 =>
      rw [hc] at hp
      have hp1 : e1 = _ := hp
      clear hp
      cases rc with
      | error err =>
        have hb : V.initBase R X lens w = (.error err, _) :=
          Py.bind_error (s' := { w with est := e1 }) (by simp [onEst, hc])
        rw [hbb] at hb
        have hr : r = .error err := congrArg Prod.fst hb
        subst hr
        have hl : V.initBaseLog R X lens w = ([], _) :=
          ran_error (s' := { w with est := e1 }) (e := err) (by simp [onEst, hc])
        rw [hlog, hl, hinit]
        exact ⟨fun h => by (cases h), by simp⟩
      | ok u =>
        have hfst := vinitBaseLog_fst (R := R) V X lens w hc
        rw [hbb] at hfst
        have i3 : e1.initParams = w.est.initParams := by rw [hp1]
        have i4 : e1.params = w.est.params := by rw [hp1]
        have i5 : e1.sub = w.est.sub := by rw [hp1]
        have i6 : vchainAttrs e1 = vchainAttrs w.est := by rw [hp1]; rfl
        rw [i3, i4, i6] at hfst
        unfold vinitWarnings
        rw [hlog]
        cases r with
        | error err =>
          rw [hinit]
          simp only [List.append_nil]
          refine ⟨fun h => by (cases h), ?_⟩
          rcases hfst with ⟨_, -, h⟩ | h
          · rw [List.append_assoc]
            exact h.trans (List.prefix_append _ _)
          · rw [h]
            exact List.prefix_append _ _
        | ok u =>
          rcases hfst with ⟨_, h, -⟩ | hfst
          · cases h
          simp only at hinit ⊢
          rw [hinit, hfst]
          have hnf : V.core.nFit (V.initSub R X lens w2).2.est = V.core.nFit w2.est :=
            hn _ _ (congrArg Prod.fst (hfr X lens w2)) (congrArg Prod.snd (hfr X lens w2))
          rw [hnf, ← k2, ← k1]
          exact ⟨fun h => by rw [hok X lens w2 h], (List.prefix_append_right_inj _).2 (hpre X lens w2)⟩
  exact ⟨hres, fun X lens w => (split X lens w).1, fun X lens w => (split X lens w).2⟩

/-! ## The classes -/

/-- A call that logs nothing. -/
def Silent {σ β : Type} (m : Logged σ β) : Prop := ∀ s, (m s).1 = []

theorem Silent.bind {σ β γ : Type} {x : Logged σ β} {f : β → Logged σ γ} (hx : Silent x) (hf : ∀ b, Silent (f b)) :
    Silent (x >>= f) := by
  intro s
  rw [fst_bind, hx s]
  rcases (x s).2 with ⟨e | b, s'⟩
  · rfl
  · exact hf b s'

theorem Silent.quiet {σ β : Type} (m : Py σ β) : Silent (quiet m) := fun _ => rfl

/-- A call that does not change `f`. -/
def PyKeeps {σ τ β : Type} (f : σ → τ) (x : Py σ β) : Prop := ∀ s, f (x s).2 = f s

theorem PyKeeps.bind {σ τ β γ : Type} {f : σ → τ} {x : Py σ β} {k : β → Py σ γ} (hx : PyKeeps f x)
    (hk : ∀ b, PyKeeps f (k b)) : PyKeeps f (x >>= k) := by
  intro s
  have h := hx s
  rw [Py.bind_apply]
  rcases hxw : x s with ⟨r, s'⟩
  rw [hxw] at h
  cases r with
  | error err => exact h
  | ok b => exact (hk b s').trans h

/-- `n_components` and `n_features`. -/
def sizes {P : Type} (e : Est α G P) : ℕ × Option ℕ := (e.nComponents, e.nFeatures)

theorem PyKeeps.gen {P β : Type} (f : G → β × G) :
    PyKeeps (fun w : World α G P => sizes w.est) (withSelfGen R f) := by
  intro w
  obtain ⟨rs, g, h, -⟩ := withSelfGen_eq R f w
  rw [h]
  rfl

theorem vcatInit_keeps (X : XArr α) (lens : List Int) :
    PyKeeps (fun w => sizes w.est) (vcatInit (G := G) R X lens) := by
  unfold vcatInit
  refine PyKeeps.bind (fun w => rfl) fun w => ?_
  dsimp only
  split
  · refine PyKeeps.bind (fun w => rfl) fun p => PyKeeps.bind (fun w => rfl) fun _ => ?_
    split
    · split
      · exact fun w => rfl
      · exact PyKeeps.bind (PyKeeps.gen _) fun v w => rfl
    · exact fun w => rfl
  · exact fun w => rfl

/-- **C95 (`VariationalCategoricalHMM`).** -/
theorem C95_variational_categorical (sci : Sci α) : VInitWarns (vcatSub (α := α) (G := G) sci) R
    (fun q => [⟨"emissionprob_posterior_", 'e', q.emPost.isSome⟩]) ((vcatSub sci).initLog vcatInitLog R) := by
  have key : ∀ X lens (w : World α G (VAttrs α (VCatAttrs α))), (vcatInitLog R X lens w).1 =
      overwrites w.est.initParams [⟨"emissionprob_posterior_", 'e', w.est.sub.sub.emPost.isSome⟩] := by
    intro X lens w
    refine (fst_quiet (Py.get_apply _)).trans (guarded _ _ _ _ _ _ ?_)
    refine Silent.bind (.quiet _) (fun p => Silent.bind (.quiet _) fun _ => ?_) _
    split
    · split
      · exact .quiet _
      · exact Silent.bind (.quiet _) fun v => .quiet _
    · exact .quiet _
  refine vinitWarns_of (fun e e' h1 h2 => ?_) (fun X e => ?_) (fun X lens w => vcatInit_keeps X lens w)
    (fun X lens w => snd_of_erase ?_ w) (fun X lens w _ => key X lens w) (fun X lens w => by rw [key])
  · simp only [vcatSub, vcatCore, h1, h2]
  · show ∃ nf, (catCheckFeatures X e).2 = _
    unfold catCheckFeatures
    repeat' split
    all_goals exact ⟨_, rfl⟩
  · show _ = vcatInit R X lens
    unfold vcatInitLog vcatInit
    simp only [erase_bind, erase_quiet, needsInitLog_erase, py_pure_bind, erase_ite, erase_pure]
    congr 1; funext w
    split
    · generalize w.est.sub.sub.emissionprobPrior.getD (.d0 (1 / ofNat' (w.est.nFeatures.getD 0))) = a
      congr 1; funext p; congr 1; funext _
      cases a
      · simp only [erase_ite, erase_bind, erase_quiet]
      all_goals rfl
    · rfl

/-- The attributes of the emissions of a `VariationalGaussianHMM` that are announced. -/
def Spec.vgaussAttrs (q : VGaussAttrs α) : List Announced :=
  [⟨"means_prior_", 'm', q.meansPri.isSome⟩, ⟨"dof_prior_", 'c', q.dofPri.isSome⟩]

theorem vgaussMeansLog {d : ℕ} (X : List (Fin d → α)) (centres : NdArray α) (counts : List ℕ)
    (e : VEst α G (VGaussAttrs α)) : vgaussInitMeansLog X centres counts e =
      (overwrites e.initParams [⟨"means_prior_", 'm', e.sub.sub.meansPri.isSome⟩],
        (.ok (), vgaussInitMeans X centres counts e)) := by
  have h : (anyNeedsInitLog e.initParams 'm' [("means_prior_", e.sub.sub.meansPri.isSome),
      ("means_posterior_", e.sub.sub.meansPost.isSome), ("beta_prior_", e.sub.sub.betaPri.isSome),
      ("beta_posterior_", e.sub.sub.betaPost.isSome)] : Logged (VEst α G (VGaussAttrs α)) Bool) e =
      (overwrites e.initParams [⟨"means_prior_", 'm', e.sub.sub.meansPri.isSome⟩], (.ok (needsMeans e), e)) := by
    rw [anyNeedsInitLog_apply, needsMeans]
    simp [Bool.or_assoc]
  unfold vgaussInitMeansLog vgaussInitMeans
  refine (ran_quiet (Py.get_apply _) (ran_bind h (l' := []) (out := (.ok (), _)) ?_)).trans (by rw [List.append_nil])
  split <;> rfl

theorem vgaussCovarsLog (eig : Eigvalsh α) (ty : CovType) {d : ℕ} (X : List (Fin d → α)) (counts : List ℕ)
    (e : VEst α G (VGaussAttrs α)) : vgaussInitCovarsLog eig ty X counts e =
      (overwrites e.initParams [⟨"dof_prior_", 'c', e.sub.sub.dofPri.isSome⟩],
        vgaussInitCovars eig ty X counts e) := by
  have h : (anyNeedsInitLog e.initParams 'c' [("dof_prior_", e.sub.sub.dofPri.isSome),
      ("dof_posterior_", e.sub.sub.dofPost.isSome), ("scale_prior_", e.sub.sub.scalePri.isSome),
      ("scale_posterior_", e.sub.sub.scalePost.isSome)] : Logged (VEst α G (VGaussAttrs α)) Bool) e =
      (overwrites e.initParams [⟨"dof_prior_", 'c', e.sub.sub.dofPri.isSome⟩], (.ok (needsCovars e), e)) := by
    rw [anyNeedsInitLog_apply, needsCovars]
    simp [Bool.or_assoc]
  refine Prod.ext ?_ ?_
  · unfold vgaussInitCovarsLog
    refine (congrArg Prod.fst (ran_quiet (Py.get_apply _) (ran_bind h (l' := []) (Prod.ext ?_ rfl)))).trans
      (List.append_nil _)
    split
    · refine Silent.bind (.quiet _) (fun _ => Silent.bind (.quiet _) fun _ => Silent.bind (.quiet _) fun _ =>
        Silent.bind (.quiet _) fun _ => .quiet _) _
    · rfl
  · show (vgaussInitCovarsLog eig ty X counts).erase e = _
    unfold vgaussInitCovarsLog vgaussInitCovars
    simp only [erase_bind, erase_quiet, anyNeedsInitLog_erase, py_pure_bind, erase_ite, erase_pure, needsCovars,
      List.any_cons, List.any_nil, Bool.or_false, Bool.or_assoc]

theorem vgaussInitCovars_size (eig : Eigvalsh α) (ty : CovType) {d : ℕ} (X : List (Fin d → α)) (counts : List ℕ) :
    PyKeeps sizes (vgaussInitCovars (G := G) eig ty X counts) := by
  unfold vgaussInitCovars
  refine PyKeeps.bind (fun w => rfl) fun w => ?_
  split
  · exact PyKeeps.bind (fun w => rfl) fun _ => PyKeeps.bind (fun w => rfl) fun _ => PyKeeps.bind (fun w => rfl) fun _ =>
      PyKeeps.bind (fun w => rfl) fun _ w => rfl
  · exact fun w => rfl

theorem vgaussInit_keeps (eig : Eigvalsh α) (ty : CovType) (X : XArr α) (lens : List Int) :
    PyKeeps (fun w => sizes w.est) (vgaussInit (G := G) eig ty R X lens) := by
  unfold vgaussInit
  refine PyKeeps.bind (fun w => rfl) fun w => ?_
  split
  · exact fun w => rfl
  · split
    · exact fun w => rfl
    · refine PyKeeps.bind (PyKeeps.gen _) fun c => PyKeeps.bind (fun w => ?_) fun _ w =>
        vgaussInitCovars_size eig ty _ _ w.est
      show sizes (vgaussInitMeans _ _ _ _) = _
      unfold vgaussInitMeans
      split <;> rfl

theorem vgaussMeans_others {d : ℕ} (X : List (Fin d → α)) (centres : NdArray α) (counts : List ℕ)
    (e : VEst α G (VGaussAttrs α)) : (vgaussInitMeans X centres counts e).initParams = e.initParams ∧
      (vgaussInitMeans X centres counts e).sub.sub.dofPri = e.sub.sub.dofPri := by
  unfold vgaussInitMeans
  split <;> exact ⟨rfl, rfl⟩

/-- **C95 (`VariationalGaussianHMM`)**, for each covariance type. -/
theorem C95_variational_gaussian (L : VLayout α G) (sci : Sci α) (eig : Eigvalsh α) :
    VInitWarns (vgaussSub L sci eig) R vgaussAttrs ((vgaussSub L sci eig).initLog (vgaussInitLog eig L.ty) R) := by
  have key : ∀ X lens (w : World α G (VAttrs α (VGaussAttrs α))),
      (vgaussInitLog eig L.ty R X lens w).2 = vgaussInit eig L.ty R X lens w ∧
      (((∃ err, (vgaussInit eig L.ty R X lens w).1 = .error err) ∧ (vgaussInitLog eig L.ty R X lens w).1 = []) ∨
      (vgaussInitLog eig L.ty R X lens w).1 = overwrites w.est.initParams (vgaussAttrs w.est.sub.sub)) := by
    intro X lens w
    have hl : vgaussInitLog eig L.ty R X lens w = _ := ran_quiet (Py.get_apply _) rfl
    have hi : vgaussInit eig L.ty R X lens w = _ := Py.bind_ok (Py.get_apply _)
    rw [hl, hi]
    split
    · exact ⟨rfl, .inl ⟨⟨_, rfl⟩, rfl⟩⟩
    · rename_i hnc
      split
      · exact ⟨rfl, .inl ⟨⟨_, rfl⟩, rfl⟩⟩
      · haveI : NeZero w.est.nComponents := ⟨hnc⟩
        obtain ⟨rs, g, h2, -⟩ := withSelfGen_eq R (R.kmeans w.est.nComponents X.floatRows) w
        have hm : ∀ (cs : NdArray α) (counts : List ℕ) (w : World α G (VAttrs α (VGaussAttrs α))),
            onEstLog (vgaussInitMeansLog X.floatRows cs counts) w =
            (overwrites w.est.initParams [⟨"means_prior_", 'm', w.est.sub.sub.meansPri.isSome⟩],
              (.ok (), { w with est := vgaussInitMeans X.floatRows cs counts w.est })) := by
          intro cs counts w
          simp only [onEstLog, vgaussMeansLog]
        have hcv : ∀ (counts : List ℕ) (w : World α G (VAttrs α (VGaussAttrs α))),
            onEstLog (vgaussInitCovarsLog eig L.ty X.floatRows counts) w =
            (overwrites w.est.initParams [⟨"dof_prior_", 'c', w.est.sub.sub.dofPri.isSome⟩],
              onEst (vgaussInitCovars eig L.ty X.floatRows counts) w) := by
          intro counts w
          simp only [onEstLog, onEst, vgaussCovarsLog]
        rw [Py.bind_ok h2]
        generalize hA : (quiet (withSelfGen R _) >>= _ : Logged (World α G (VAttrs α (VGaussAttrs α))) Unit) w = A
        have hA' := hA.symm.trans (ran_quiet h2 (ran_bind (hm _ _ _) (hcv _ _)))
        rw [hA']
        refine ⟨rfl, .inr ?_⟩
        obtain ⟨o1, o2⟩ := vgaussMeans_others X.floatRows
          (.d2 (R.kmeans w.est.nComponents X.floatRows (selfGen R w)).1)
          (clusterCounts (R.kmeans w.est.nComponents X.floatRows (selfGen R w)).1 X.floatRows)
          ({ w.est with randomState := rs } : VEst α G (VGaussAttrs α))
        simp only [o1, o2]
        exact (overwrites_append _ [_] [_]).symm
  refine vinitWarns_of (fun e e' h1 h2 => ?_) (fun X e => ?_) (fun X lens w => vgaussInit_keeps eig L.ty X lens w)
    (fun X lens w => (key X lens w).1) (fun X lens w hok => ?_) (fun X lens w => ?_)
  · show vgaussNFit L.ty e' = vgaussNFit L.ty e
    unfold vgaussNFit
    rw [h1, h2]
  · show ∃ nf, (checkFeaturesBase X e).2 = _
    unfold checkFeaturesBase
    repeat' split
    all_goals exact ⟨_, rfl⟩
  · rcases (key X lens w).2 with ⟨⟨err, h⟩, -⟩ | h
    · have hok : (vgaussInit eig L.ty R X lens w).1 = .ok () := hok
      rw [h] at hok; cases hok
    · exact h
  · rcases (key X lens w).2 with ⟨-, h⟩ | h
    · rw [h]; exact List.nil_prefix
    · rw [h]

end Verif
