import Verif.Spec.CovName

/-!
# C108: `covariance_type` is an attribute that any string can be assigned to
-/
set_option autoImplicit false

namespace Verif
open FloatLike Spec

variable {α G P : Type} [FloatLike α] {eig : Eigvalsh α} {name : String}

theorem covTypeOf_none (h : name ∉ CovNames) : covTypeOf name = none := by
  simp only [CovNames, List.mem_cons, List.not_mem_nil, or_false, not_or] at h
  simp [covTypeOf, h.1, h.2.1, h.2.2.1, h.2.2.2]

theorem gaussNamed_bad (h : name ∉ CovNames) :
    gaussNamed (G := G) eig name = { gaussDiagSub eig with checkSub := gaussBadCheck } := by
  rw [gaussNamed, covTypeOf_none h]

theorem gaussBadCheck_apply (e : Est α G (GaussAttrs α)) : ∃ err e', gaussBadCheck e = (.error err, e') ∧ OnlyChain e e' ∧
    (∀ a nf, e.sub.means = some a → a.shape[1]? = some nf → err = .valueError "covariance_type must be one of") ∧
    (e.sub.means = none → err = .attributeError "means_") := by
  unfold gaussBadCheck
  rw [Py.bind_apply]
  unfold gaussCheck
  rcases hm : e.sub.means with _ | a
  · exact ⟨_, _, rfl, ⟨_, _, _, _, rfl⟩, fun _ _ h => by simp at h, fun _ => rfl⟩
  rcases hs : a.shape[1]? with _ | nf
  · refine ⟨_, _, by simp only [hs]; rfl, ⟨_, _, _, _, rfl⟩, fun b k h hk => ?_, fun h => by simp at h⟩
    obtain rfl := Option.some.inj h
    rw [hs] at hk; cases hk
  · exact ⟨_, _, by simp only [hs]; rfl, ⟨_, _, _, _, rfl⟩, fun _ _ _ _ => rfl, fun h => by simp at h⟩

/-- The checks with an invalid name. -/
theorem checkFitted_bad (h : name ∉ CovNames) (e : Est α G (GaussAttrs α)) :
    ∃ err e', (gaussNamed eig name).checkFitted e = (.error err, e') ∧ OnlyChain e e' ∧
      (e.startprob = none → err = .notFitted) ∧
      (e.startprob ≠ none → ∀ err', checkBase e = .error err' → err = err') ∧
      (checkBase e = .ok () →
        (∀ a nf, e.sub.means = some a → a.shape[1]? = some nf → err = .valueError "covariance_type must be one of") ∧
        (e.sub.means = none → err = .attributeError "means_")) := by
  rw [gaussNamed_bad h]
  unfold Sub.checkFitted Sub.check
  simp only [Py.bind_apply, Py.get_apply]
  rcases hs : e.startprob with _ | s
  · refine ⟨_, _, rfl, ⟨_, _, _, _, rfl⟩, fun _ => rfl, fun h => absurd rfl h, fun h => ?_⟩
    simp [checkBase, hs] at h
  simp only [Option.isNone_some, Bool.false_eq_true, if_false, Py.bind_apply, Py.get_apply, Py.lift_apply]
  rcases hb : checkBase e with err | u
  · exact ⟨err, e, rfl, ⟨_, _, _, _, rfl⟩, fun h => (by simp at h), fun _ _ h => (by cases h; rfl), fun h => (by cases h)⟩
  · obtain ⟨err, e', h1, h2, h3, h4⟩ := gaussBadCheck_apply e
    exact ⟨err, e', h1, h2, fun h => (by simp at h), fun _ _ h => (by cases h), fun _ => ⟨h3, h4⟩⟩

/-- **C108** No inference method of an object with an invalid `covariance_type` returns; nor does `sample`. -/
theorem C108_refused (h : name ∉ CovNames) (X : RawX α) (ls : Option (List Int)) :
    Refuses ((gaussNamed (G := G) eig name).score X ls) ∧ Refuses ((gaussNamed (G := G) eig name).predictProba X ls) ∧
    (∀ a, Refuses ((gaussNamed (G := G) eig name).decode X ls a)) ∧ Refuses ((gaussNamed (G := G) eig name).predict X ls) ∧
    (∀ (R : RandomLib α G) n seed c, Refuses ((gaussNamed (G := G) eig name).sample R n seed c)) ∧
    (∀ missing, Refuses (gaussNamedAic (G := G) eig name missing X ls)) ∧
    ∀ R : RandomLib α G, Refuses (gaussNamedFit eig name R X ls) := by
  have key : ∀ {β : Type} (f : Unit → Py (Est α G (GaussAttrs α)) β), Refuses ((gaussNamed eig name).checkFitted >>= f) := by
    intro β f e
    obtain ⟨err, e', h1, -⟩ := checkFitted_bad (eig := eig) h e
    exact ⟨err, by rw [Py.bind_error h1]⟩
  have lift : ∀ {β γ : Type} {m : Py (Est α G (GaussAttrs α)) β} (f : β → Py (Est α G (GaussAttrs α)) γ), Refuses m → Refuses (m >>= f) := by
    intro β γ m f hm e
    obtain ⟨err, he⟩ := hm e
    exact ⟨err, by rw [Py.bind_error (s' := (m e).2) (Prod.ext he rfl)]⟩
  refine ⟨lift _ (key _), lift _ (key _), fun a => key _, lift _ (key _), fun R n seed c w => ?_, fun m e => ?_, fun R w => ?_⟩
  · obtain ⟨err, e', h1, -⟩ := checkFitted_bad (eig := eig) h w.est
    refine ⟨err, ?_⟩
    unfold Sub.sample
    rw [Py.bind_error (s' := { w with est := e' }) (e := err)]
    unfold onEst
    rw [h1]
  · unfold gaussNamedAic
    rw [covTypeOf_none h]
    by_cases hf : e.nFeatures.isNone
    · exact ⟨m, by simp [hf]⟩
    · exact ⟨.keyError name, by simp [hf]⟩
  · unfold gaussNamedFit
    rw [covTypeOf_none h]
    simp only [Py.bind_apply, Py.lift_apply]
    rcases checkArray X with err | X'
    · exact ⟨err, rfl⟩
    simp only [badInit, Py.bind_apply, onEst]
    rcases (checkFeaturesBase X' w.est).1 with err | u
    · exact ⟨err, rfl⟩
    simp only [Py.get_apply]
    unfold withSelfGen
    cases (checkFeaturesBase X' w.est).2.randomState <;> exact ⟨.keyError name, rfl⟩

/-- **C108** The inference methods of an otherwise valid object raise `ValueError`, and change nothing but `n_features`. -/
theorem C108_score (h : name ∉ CovNames) (X : RawX α) (ls : Option (List Int)) (e : Est α G (GaussAttrs α)) (hb : checkBase e = .ok ())
    {a : NdArray α} {nf : ℕ} (ha : e.sub.means = some a) (hnf : a.shape[1]? = some nf) :
    ((gaussNamed eig name).score X ls e).1 = .error (.valueError "covariance_type must be one of") ∧
      OnlyChain e ((gaussNamed eig name).score X ls e).2 := by
  obtain ⟨err, e', h1, h2, -, -, h3⟩ := checkFitted_bad (eig := eig) h e
  have he := (h3 hb).1 a nf ha hnf
  subst he
  have : (gaussNamed eig name).score X ls e = (.error (.valueError "covariance_type must be one of"), e') := by
    unfold Sub.score Sub.scoreSamples
    rw [Py.bind_error (Py.bind_error h1)]
  rw [this]
  exact ⟨rfl, h2⟩

/-- What `_init` does before the dictionary is looked at. -/
def initDone (R : RandomLib α G) (X : XArr α) : Py (World α G P) Unit := do
  onEst (checkFeaturesBase X)
  let w ← Py.get
  let e := w.est
  let (s, t) ← withSelfGen R (initDraws R e.nComponents (needsInit e.initParams 's' e.startprob.isSome)
    (needsInit e.initParams 't' e.transmat.isSome))
  onEst (Py.modify fun e => { e with startprob := s <|> e.startprob, transmat := t <|> e.transmat })

theorem draws_some (R : RandomLib α G) (nc : ℕ) (l : List Char) (s t : Option (NdArray α)) (g : G) :
    (((initDraws R nc (needsInit l 's' s.isSome) (needsInit l 't' t.isSome) g).1.1 <|> s).isSome) ∧
    (((initDraws R nc (needsInit l 's' s.isSome) (needsInit l 't' t.isSome) g).1.2 <|> t).isSome) := by
  unfold initDraws needsInit
  constructor
  · by_cases h : 's' ∈ l
    · simp [h]
    · cases s <;> simp [h]
  · by_cases h : 't' ∈ l
    · simp [h]
    · cases t <;> simp [h]

theorem initDone_apply (R : RandomLib α G) (X : XArr α) (w : World α G P)
    (hf : w.est.nFeatures = none ∨ w.est.nFeatures = some X.d) : ∃ w', initDone R X w = (.ok (), w') ∧ OnlyChain w.est w'.est ∧
      w'.est.startprob.isSome ∧ w'.est.transmat.isSome ∧ w'.est.nFeatures = some X.d := by
  have hc : checkFeaturesBase X w.est = (.ok (), { w.est with nFeatures := some X.d }) := by
    unfold checkFeaturesBase
    rcases hf with hf | hf
    · rw [hf]
    · rw [hf]; simp [← hf]
  simp only [initDone, Py.bind_apply, onEst, hc, Py.get_apply, withSelfGen]
  rcases hr : w.est.randomState with _ | _ | n | g
  all_goals
    simp only [Py.modify_apply]
    exact ⟨_, rfl, ⟨_, _, _, _, rfl⟩, (draws_some R _ _ _ _ _).1, (draws_some R _ _ _ _ _).2, rfl⟩

theorem badInit_eq (name : String) (R : RandomLib α G) (X : XArr α) (w : World α G P) {w' : World α G P}
    (h : initDone R X w = (.ok (), w')) : badInit name R X w = (.error (.keyError name), w') := by
  have : badInit name R X w = (initDone R X >>= fun _ => Py.raise (.keyError name)) w := by
    simp only [badInit, initDone, Py.bind_apply]
    rcases onEst (checkFeaturesBase X) w with ⟨_ | _, w1⟩
    · rfl
    simp only [Py.get_apply]
    split <;> rfl
  rw [this, Py.bind_ok h]
  rfl

theorem initBase_named (S : Sub α G P) (hS : S.checkFeatures = checkFeaturesBase) (R : RandomLib α G) (X : XArr α)
    (w : World α G P) {w' : World α G P} (h : initDone R X w = (.ok (), w'))
    (hp : ∀ c ∈ w'.est.params, ((S.nFit w'.est).any fun p => p.1 == c) = true) : S.initBase R X w = (.ok (), w') := by
  have : S.initBase R X w = (initDone R X >>= fun _ => do
      let w ← Py.get
      match w.est.params.find? fun c => !((S.nFit w.est).any fun p => p.1 == c) with
      | some c => Py.raise (.keyError (String.ofList [c]))
      | none => pure ()) w := by
    simp only [Sub.initBase, initDone, Py.bind_apply, hS]
    rcases onEst (checkFeaturesBase X) w with ⟨_ | _, w1⟩
    · rfl
    simp only [Py.get_apply]
    split <;> rfl
  rw [this, Py.bind_ok h, Py.bind_apply, Py.get_apply]
  have : (w'.est.params.find? fun c => !((S.nFit w'.est).any fun p => p.1 == c)) = none := by
    rw [List.find?_eq_none]
    intro c hc
    simp [hp c hc]
  simp only [this]
  rfl

/-- **C108** `fit` with an invalid name: `KeyError`, after `startprob_` and `transmat_` have been replaced as they would
be for a valid one. -/
theorem C108_fit (h : name ∉ CovNames) (R : RandomLib α G) (X : RawX α) (ls : Option (List Int)) (w : World α G (GaussAttrs α))
    {X' : XArr α} (hX : checkArray X = .ok X') (hf : w.est.nFeatures = none ∨ w.est.nFeatures = some X'.d) :
    let out := gaussNamedFit eig name R X ls w
    out.1 = .error (.keyError name) ∧ OnlyChain w.est out.2.est ∧ out.2.est.startprob.isSome ∧ out.2.est.transmat.isSome ∧
      out.2.est.nFeatures = some X'.d ∧ ((∀ c ∈ w.est.params, c ∈ ['s', 't', 'm', 'c']) →
        ∀ ty : CovType, (gaussSubOf eig ty).initBase R X' w = (.ok (), out.2)) := by
  obtain ⟨w', h1, h2, h3, h4, h5⟩ := initDone_apply R X' w hf
  have e : gaussNamedFit eig name R X ls w = (.error (.keyError name), w') := by
    unfold gaussNamedFit
    rw [covTypeOf_none h]
    simp only [Py.bind_apply, Py.lift_apply, hX]
    exact badInit_eq name R X' w h1
  rw [e]
  refine ⟨rfl, h2, h3, h4, h5, fun hp ty => initBase_named _ (by cases ty <;> rfl) R X' w h1 fun c hc => ?_⟩
  have hc' : c ∈ w.est.params := by
    obtain ⟨s, t, f, r, he⟩ := h2
    rw [he] at hc; exact hc
  have := hp c hc'
  simp only [List.mem_cons, List.not_mem_nil, or_false] at this
  rcases this with rfl | rfl | rfl | rfl <;> cases ty <;> rfl

/-- **C108** The same for `GMMHMM`. -/
theorem C108_fit_gmm {nm : ℕ} [NeZero nm] (types : CovType → GmmType α nm) (h : name ∉ CovNames) (R : RandomLib α G) (X : RawX α)
    (ls : Option (List Int)) (w : World α G (GmmAttrs α)) {X' : XArr α} (hX : checkArray X = .ok X')
    (hf : w.est.nFeatures = none ∨ w.est.nFeatures = some X'.d) :
    let out := gmmNamedFit types name R X ls w
    out.1 = .error (.keyError name) ∧ OnlyChain w.est out.2.est ∧ out.2.est.startprob.isSome ∧ out.2.est.transmat.isSome ∧
      out.2.est.nFeatures = some X'.d ∧ ((∀ c ∈ w.est.params, c ∈ ['s', 't', 'm', 'c', 'w']) →
        ∀ ty : CovType, (gmmSub (types ty)).initBase R X' w = (.ok (), out.2)) := by
  obtain ⟨w', h1, h2, h3, h4, h5⟩ := initDone_apply R X' w hf
  have e : gmmNamedFit types name R X ls w = (.error (.keyError name), w') := by
    unfold gmmNamedFit
    rw [covTypeOf_none h]
    simp only [Py.bind_apply, Py.lift_apply, hX]
    exact badInit_eq name R X' w h1
  rw [e]
  refine ⟨rfl, h2, h3, h4, h5, fun hp ty => initBase_named _ rfl R X' w h1 fun c hc => ?_⟩
  have hc' : c ∈ w.est.params := by
    obtain ⟨s, t, f, r, he⟩ := h2
    rw [he] at hc; exact hc
  have := hp c hc'
  simp only [List.mem_cons, List.not_mem_nil, or_false] at this
  rcases this with rfl | rfl | rfl | rfl | rfl <;> rfl

theorem checkBase_ne_notFitted (e : Est α G (GaussAttrs α)) : checkBase e ≠ .error .notFitted := by
  have h1 : ∀ a : NdArray α, checkSum1 a ≠ .error .notFitted := by
    intro a
    unfold checkSum1
    split <;> simp
  intro h
  unfold checkBase at h
  rcases hsp : e.startprob with _ | sp
  · rw [hsp] at h; cases h
  rw [hsp] at h
  simp only at h
  rcases hsh : sp.shape with _ | ⟨n, l⟩
  · rw [hsh] at h; cases h
  rw [hsh] at h
  simp only at h
  split at h
  · simp at h
  rcases hs : checkSum1 sp with err | u
  · rw [hs] at h
    cases h
    exact h1 sp hs
  rw [hs] at h
  rcases htm : e.transmat with _ | tm
  · rw [htm] at h; cases h
  rw [htm] at h
  change (if _ then _ else _) = _ at h
  split at h
  · simp at h
  · exact h1 tm h

/-- **C108** What a failed first `fit` leaves behind counts as fitted: `score` does not raise `NotFittedError` any more,
whatever name is assigned afterwards. -/
theorem C108_after_fit (h : name ∉ CovNames) (R : RandomLib α G) (X : RawX α) (ls : Option (List Int)) (w : World α G (GaussAttrs α))
    {X' : XArr α} (hX : checkArray X = .ok X') (hf : w.est.nFeatures = none ∨ w.est.nFeatures = some X'.d) (hm : w.est.sub.means = none)
    (name' : String) (Y : RawX α) (ls' : Option (List Int)) :
    let e := (gaussNamedFit eig name R X ls w).2.est
    (checkBase e = .ok () → ((gaussNamed eig name').score Y ls' e).1 = .error (.attributeError "means_")) ∧
      (∀ err, checkBase e = .error err → ((gaussNamed eig name').score Y ls' e).1 = .error err) ∧
      ((gaussNamed eig name').score Y ls' e).1 ≠ .error .notFitted := by
  intro e
  obtain ⟨-, h2, h3, -⟩ := C108_fit (eig := eig) h R X ls w hX hf
  change OnlyChain w.est e at h2
  change e.startprob.isSome = true at h3
  have hm' : e.sub.means = none := by
    obtain ⟨s, t, f, r, he⟩ := h2
    rw [he]; exact hm
  have hn : e.startprob.isNone = false := by
    cases hs : e.startprob with
    | none => rw [hs] at h3; cases h3
    | some _ => rfl
  have hg : gaussCheck e = (.error (.attributeError "means_"), e) := by
    unfold gaussCheck; rw [hm']
  have hc : ((gaussNamed eig name').checkSub e).1 = .error (.attributeError "means_") := by
    unfold gaussNamed
    rcases covTypeOf name' with _ | ty
    · show (gaussBadCheck e).1 = _
      unfold gaussBadCheck
      rw [Py.bind_error hg]
    · have : (gaussSubOf (G := G) eig ty).checkSub = gaussCheck := by cases ty <;> rfl
      show ((gaussSubOf eig ty).checkSub e).1 = _
      rw [this, hg]
  have hk : ∀ err, checkBase e = .error err → ((gaussNamed eig name').score Y ls' e).1 = .error err := by
    intro err hb
    have : (gaussNamed eig name').checkFitted e = (.error err, e) := by
      unfold Sub.checkFitted Sub.check
      simp only [Py.bind_apply, Py.get_apply, hn, Bool.false_eq_true, if_false, Py.lift_apply, hb]
    unfold Sub.score Sub.scoreSamples
    rw [Py.bind_error (Py.bind_error this)]
  have hok : checkBase e = .ok () → ((gaussNamed eig name').score Y ls' e).1 = .error (.attributeError "means_") := by
    intro hb
    have : (gaussNamed eig name').checkFitted e = (.error (.attributeError "means_"), ((gaussNamed eig name').checkSub e).2) := by
      unfold Sub.checkFitted Sub.check
      simp only [Py.bind_apply, Py.get_apply, hn, Bool.false_eq_true, if_false, Py.lift_apply, hb]
      exact Prod.ext hc rfl
    unfold Sub.score Sub.scoreSamples
    rw [Py.bind_error (Py.bind_error this)]
  refine ⟨hok, hk, ?_⟩
  rcases hb : checkBase e with err | u
  · rw [hk err hb]
    rintro h
    cases h
    exact checkBase_ne_notFitted e hb
  · rw [hok hb]
    simp

theorem withModel_table {β : Type} (e : Est α G (GaussAttrs α)) (impl : Impl) (X : XArr α) (ls : Option (List Int))
    (k : {nc : Nat} → {Obs : Type} → [NeZero nc] → Hmm α nc Obs → List Obs → Except PyErr β)
    (h : ∀ nf, e.nFeatures = some nf → ∃ v : Fin e.nComponents → Fin nf → α, e.sub.covars = some (.d2 v)) :
    (gaussSphericalSub eig).withModel e impl X ls k = (gaussDiagSub eig).withModel e impl X ls k := by
  unfold Sub.withModel Sub.ready
  by_cases h0 : e.nComponents = 0
  · simp only [h0, dif_pos]
  simp only [dif_neg h0]
  rcases hn : e.nFeatures with _ | nf
  · rfl
  obtain ⟨v, hv⟩ := h nf hn
  have hr : (gaussSphericalSub (G := G) eig).read e.sub e.nComponents nf = (gaussDiagSub (G := G) eig).read e.sub e.nComponents nf := by
    simp [gaussSphericalSub, gaussDiagSub, hv, asSpherical, asMat]
  rcases hs : e.startprob with _ | s
  · rfl
  rcases hπ : asRow e.nComponents s with _ | π
  · simp [hπ]
  rcases ht : e.transmat with _ | t
  · simp [hπ]
  rcases hA : asMat e.nComponents e.nComponents t with _ | A
  · simp [hπ, hA]
  rcases hp : (gaussDiagSub (G := G) eig).read e.sub e.nComponents nf with _ | p
  · have hr' := hr.trans hp
    simp only [hπ, hA, hp, Option.bind_eq_bind, Option.bind_some, Option.bind_none]
    rw [hr']
    rfl
  · obtain ⟨p', hr', hpp⟩ : ∃ p' : (gaussSphericalSub (G := G) eig).Params e.nComponents nf,
        (gaussSphericalSub (G := G) eig).read e.sub e.nComponents nf = some p' ∧ p' = p := ⟨p, hr.trans hp, rfl⟩
    have hH : ((gaussSphericalSub (G := G) eig).emission e.sub e.nComponents nf).toHmm impl ⟨π, A, p'⟩ =
        ((gaussDiagSub (G := G) eig).emission e.sub e.nComponents nf).toHmm impl ⟨π, A, p⟩ := by rw [hpp]; rfl
    simp only [hπ, hA, hp, Option.bind_eq_bind, Option.bind_some]
    rw [hr']
    simp only [Option.bind_some, Option.pure_def]
    have g1 : (gaussSphericalSub (G := G) eig).rows nf X = gaussRows nf X := rfl
    have g2 : (gaussDiagSub (G := G) eig).rows nf X = gaussRows nf X := rfl
    rcases hg : gaussRows nf X with err | rows
    · rw [g1.trans hg, g2.trans hg]
    · rw [g1.trans hg, g2.trans hg]
      exact congrArg (fun m => @k _ _ ⟨h0⟩ m rows) hH

/-- **C108** On a table of variances `"diag"` and `"spherical"` are the same model: assigning one for the other changes
no inference method. -/
theorem C108_reassign (X : RawX α) (ls : Option (List Int)) (e : Est α G (GaussAttrs α)) (h : VarianceTable e) :
    (gaussNamed eig "spherical").score X ls e = (gaussNamed eig "diag").score X ls e ∧
    (gaussNamed eig "spherical").predictProba X ls e = (gaussNamed eig "diag").predictProba X ls e ∧
    (∀ a, (gaussNamed eig "spherical").decode X ls a e = (gaussNamed eig "diag").decode X ls a e) ∧
    (gaussNamed eig "spherical").predict X ls e = (gaussNamed eig "diag").predict X ls e := by
  have e1 : gaussNamed (G := G) eig "spherical" = gaussSphericalSub eig := rfl
  have e2 : gaussNamed (G := G) eig "diag" = gaussDiagSub eig := rfl
  rw [e1, e2]
  have hcheck : (gaussSphericalSub eig).checkFitted e = (gaussDiagSub eig).checkFitted e := rfl
  have after : ∀ e', (gaussDiagSub eig).checkFitted e = (.ok (), e') →
      ∀ nf, e'.nFeatures = some nf → ∃ v : Fin e'.nComponents → Fin nf → α, e'.sub.covars = some (.d2 v) := by
    intro e' he nf hnf
    unfold Sub.checkFitted Sub.check at he
    simp only [Py.bind_apply, Py.get_apply] at he
    split at he
    · cases he
    simp only [Py.bind_apply, Py.get_apply, Py.lift_apply] at he
    rcases hb : checkBase e with _ | _
    · rw [hb] at he; cases he
    rw [hb] at he
    have he : gaussCheck e = (.ok (), e') := he
    unfold gaussCheck at he
    rcases hm : e.sub.means with _ | a
    · rw [hm] at he; cases he
    rcases hs : a.shape[1]? with _ | nf'
    · simp only [hm, hs] at he; cases he
    simp only [hm, hs] at he
    cases he
    cases hnf
    exact h a nf hm hs
  have hbind : ∀ {β : Type} (f f' : Unit → Py (Est α G (GaussAttrs α)) β),
      (∀ e', (∀ nf, e'.nFeatures = some nf → ∃ v : Fin e'.nComponents → Fin nf → α, e'.sub.covars = some (.d2 v)) → f () e' = f' () e') →
      ((gaussSphericalSub eig).checkFitted >>= f) e = ((gaussDiagSub eig).checkFitted >>= f') e := by
    intro β f f' hff
    rw [Py.bind_apply, Py.bind_apply, hcheck]
    rcases hc : (gaussDiagSub eig).checkFitted e with ⟨_ | _, e'⟩
    · rfl
    · exact hff e' (after e' hc)
  have hs : ∀ post, (gaussSphericalSub eig).scoreSamples X ls post e = (gaussDiagSub eig).scoreSamples X ls post e := by
    intro post
    refine hbind _ _ fun e' he' => ?_
    simp only [Sub.scoreBody, Py.bind_apply, Py.get_apply, Py.lift_apply]
    rcases checkArray X with _ | X'
    · rfl
    simp only
    rcases implOf e'.implementation with _ | impl
    · rfl
    simp only
    rw [withModel_table e' impl X' ls _ he']
  have hd : ∀ a, (gaussSphericalSub eig).decode X ls a e = (gaussDiagSub eig).decode X ls a e := by
    intro a
    refine hbind _ _ fun e' he' => ?_
    simp only [Sub.decodeBody, Py.bind_apply, Py.get_apply, Py.lift_apply]
    rcases algOf (pyOr a e'.algorithm) with _ | alg
    · rfl
    simp only
    rcases checkArray X with _ | X'
    · rfl
    simp only
    rcases alg
    · simp only [Py.lift_apply]
      rw [withModel_table e' .log X' ls _ he']
    · simp only
      rcases implOf e'.implementation with _ | impl
      · rfl
      simp only [Py.lift_apply]
      rw [withModel_table e' impl X' ls _ he']
  refine ⟨?_, ?_, hd, ?_⟩
  · unfold Sub.score; rw [Py.bind_apply, Py.bind_apply, hs]
  · unfold Sub.predictProba; rw [Py.bind_apply, Py.bind_apply, hs]
  · unfold Sub.predict; rw [Py.bind_apply, Py.bind_apply, hd]

end Verif
