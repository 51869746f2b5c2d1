import Verif.Proofs.EstimatorComm

/-!
# C25: `init_params` decides which parameters are initialised
-/

namespace Verif
open FloatLike Spec

variable {α G P : Type} [FloatLike α]

/-- What the hooks of a class may change. -/
structure Sub.Frames (S : Sub α G P) (R : RandomLib α G) : Prop where
  lawful : S.Lawful
  features : ∀ X e, ∃ nf p, (S.checkFeatures X e).2 = { e with nFeatures := nf, sub := p }
  init : ∀ X w, ∃ p rs g, (S.initSub R X w).2 = ⟨{ w.est with sub := p, randomState := rs }, g⟩

/-- Where `check_random_state(self.random_state)` starts drawing. -/
def Spec.selfGen (R : RandomLib α G) (w : World α G P) : G :=
  match w.est.randomState with
  | .none | .global => w.glob
  | .seed n => R.ofSeed n
  | .gen g => g

/-- The code is in `init_params`, or the attribute was never set. -/
def Spec.Fresh {β : Type} (e : Est α G P) (code : Char) (attr : Option β) : Prop :=
  code ∈ e.initParams ∨ attr = none

theorem needsInit_iff {β : Type} (e : Est α G P) (code : Char) (attr : Option β) :
    needsInit e.initParams code attr.isSome = true ↔ Fresh e code attr := by
  unfold needsInit Fresh
  split
  · next h => simp [h]
  · next h => cases attr <;> simp [h]

omit [FloatLike α] in
theorem withSelfGen_eq {β : Type} (R : RandomLib α G) (f : G → β × G) (w : World α G P) :
    ∃ rs g, withSelfGen R f w = (.ok (f (selfGen R w)).1, ⟨{ w.est with randomState := rs }, g⟩) ∧
      rs = (match w.est.randomState with | .gen g => .gen (f g).2 | rs => rs) ∧
      (∀ k, w.est.randomState = .seed k → g = w.glob) := by
  rcases w with ⟨⟨nc, sp, tp, al, rs, ni, tol, ps, ip, im, mo, s, t, nf, sub⟩, glob⟩
  cases rs <;> exact ⟨_, _, rfl, rfl, fun k h => by first | rfl | cases h⟩

/-- `BaseHMM._init`: the checked state with fresh values where needed; then the look-up of the codes
in `params`. -/
theorem initBase_eq (S : Sub α G P) (R : RandomLib α G) (X : XArr α) (w : World α G P) (e1 : Est α G P)
    (hc : S.checkFeatures X w.est = (.ok (), e1)) :
    ∃ rs g,
      let d := initDraws R e1.nComponents (needsInit e1.initParams 's' e1.startprob.isSome)
        (needsInit e1.initParams 't' e1.transmat.isSome) (selfGen R { w with est := e1 })
      let e2 := { e1 with
        randomState := rs, startprob := d.1.1 <|> e1.startprob, transmat := d.1.2 <|> e1.transmat }
      S.initBase R X w = (match e2.params.find? fun c => !((S.nFit e2).any fun p => p.1 == c) with
        | some c => .error (.keyError (String.ofList [c]))
        | none => .ok (), ⟨e2, g⟩) ∧
      rs = (match e1.randomState with | .gen g => .gen (initDraws R e1.nComponents
        (needsInit e1.initParams 's' e1.startprob.isSome)
        (needsInit e1.initParams 't' e1.transmat.isSome) g).2 | rs => rs) ∧
      (∀ k, e1.randomState = .seed k → g = w.glob) := by
  have h1 : onEst (S.checkFeatures X) w = (.ok (), { w with est := e1 }) := by simp [onEst, hc]
  obtain ⟨rs, g, h2, h3⟩ := withSelfGen_eq R (initDraws R e1.nComponents
    (needsInit e1.initParams 's' e1.startprob.isSome) (needsInit e1.initParams 't' e1.transmat.isSome))
    { w with est := e1 }
  refine ⟨rs, g, ?_, h3⟩
  simp only [Sub.initBase]
  rw [Py.bind_ok h1]
  refine (Py.bind_ok (Py.get_apply _)).trans ?_
  refine (Py.bind_ok h2).trans ?_
  clear h2 h3
  simp only [Py.bind_apply, Py.get_apply, onEst, Py.modify_apply]
  generalize List.find? _ _ = o
  cases o <;> rfl

section base
variable {S : Sub α G P} {R : RandomLib α G} (hS : S.Frames R)
include hS

/-- **C25 (`startprob_`, `transmat_`).** A value the user set, with a code not in `init_params`,
is what `_init` leaves, even when `_init` raises. -/
theorem C25_keeps (X : XArr α) (w : World α G P) :
    (¬ Fresh w.est 's' w.est.startprob → (S.init R X w).2.est.startprob = w.est.startprob) ∧
    (¬ Fresh w.est 't' w.est.transmat → (S.init R X w).2.est.transmat = w.est.transmat) := by
  obtain ⟨nf, p, hf⟩ := hS.features X w.est
  have key : (¬ Fresh w.est 's' w.est.startprob → (S.initBase R X w).2.est.startprob = w.est.startprob) ∧
      (¬ Fresh w.est 't' w.est.transmat → (S.initBase R X w).2.est.transmat = w.est.transmat) := by
    cases hc : S.checkFeatures X w.est with
    | mk r e1 =>
      rw [hc] at hf
      have hf : e1 = _ := hf
      subst hf
      cases r with
      | error err =>
        have h1 : onEst (S.checkFeatures X) w = (.error err, { w with est := { w.est with nFeatures := nf, sub := p } }) := by
          simp [onEst, hc]
        have : S.initBase R X w = _ := Py.bind_error h1
        rw [this]
        exact ⟨fun _ => rfl, fun _ => rfl⟩
      | ok u =>
        obtain ⟨rs, g, h, _⟩ := initBase_eq S R X w _ hc
        rw [h]
        constructor
        · intro hn
          have hb : needsInit w.est.initParams 's' w.est.startprob.isSome = false := by
            rw [← Bool.not_eq_true, needsInit_iff]; exact hn
          simp [initDraws, hb]
        · intro hn
          have hb : needsInit w.est.initParams 't' w.est.transmat.isSome = false := by
            rw [← Bool.not_eq_true, needsInit_iff]; exact hn
          simp [initDraws, hb]
  unfold Sub.init
  rw [Py.bind_apply]
  cases hb : S.initBase R X w with
  | mk r w1 =>
    rw [hb] at key
    cases r with
    | error err => exact key
    | ok u =>
      obtain ⟨p, rs, g, hi⟩ := hS.init X w1
      simp only
      rw [hi]
      exact key

/-- **C25 (`startprob_`, `transmat_`).** Otherwise a fresh value replaces it: a draw from the
Dirichlet distribution with all concentrations `1 / n_components`, one per row. -/
theorem C25_draws (X : XArr α) (w : World α G P) (hX : (S.checkFeatures X w.est).1 = .ok ()) :
    (Fresh w.est 's' w.est.startprob → (S.init R X w).2.est.startprob =
      some (.d1 (R.dirichlet (fun _ : Fin w.est.nComponents => 1 / ofNat' w.est.nComponents) (selfGen R w)).1)) ∧
    (Fresh w.est 't' w.est.transmat → ∃ g, (S.init R X w).2.est.transmat =
      some (.d2 (drawMany (R.dirichlet (fun _ : Fin w.est.nComponents => 1 / ofNat' w.est.nComponents))
        w.est.nComponents g).1) ∧
      (¬ Fresh w.est 's' w.est.startprob → g = selfGen R w)) := by
  obtain ⟨nf, p, hf⟩ := hS.features X w.est
  cases hc : S.checkFeatures X w.est with
  | mk r e1 =>
    rw [hc] at hf hX
    have hf : e1 = _ := hf
    have hX : r = .ok () := hX
    subst hf hX
    have hg : selfGen R { w with est := { w.est with nFeatures := nf, sub := p } } = selfGen R w := rfl
    obtain ⟨rs, g, h, _⟩ := initBase_eq S R X w _ hc
    rw [hg] at h
    have key : (S.init R X w).2.est.startprob = (S.initBase R X w).2.est.startprob ∧
        (S.init R X w).2.est.transmat = (S.initBase R X w).2.est.transmat := by
      unfold Sub.init
      rw [Py.bind_apply]
      cases hb : S.initBase R X w with
      | mk r w1 =>
        cases r with
        | error err => exact ⟨rfl, rfl⟩
        | ok u =>
          obtain ⟨p, rs, g, hi⟩ := hS.init X w1
          simp only
          rw [hi]
          exact ⟨rfl, rfl⟩
    rw [key.1, key.2, h]
    constructor
    · intro hn
      have hb := (needsInit_iff w.est 's' w.est.startprob).2 hn
      simp [initDraws, hb]
    · intro hn
      have hb := (needsInit_iff w.est 't' w.est.transmat).2 hn
      refine ⟨_, by simp only [initDraws, hb, if_true]; rfl, ?_⟩
      intro hn'
      have hb' : needsInit w.est.initParams 's' w.est.startprob.isSome = false := by
        rw [← Bool.not_eq_true, needsInit_iff]; exact hn'
      simp [hb']

/-- **C25.** What `_init` leaves is the starting point: `fit` is the training loop run on it (once
`_check` has accepted it). -/
theorem C25_start {X : RawX α} {X' : XArr α} (hX : checkArray X = .ok X') (ls : Option (List Int))
    (w : World α G P) (hi : (S.init R X' w).1 = .ok ()) (hc : (S.check (S.init R X' w).2.est).1 = .ok ()) :
    ∃ w1 : World α G P, S.fit R X ls w = onEst (S.loop X' ls) w1 ∧
      w1.est.startprob = (S.init R X' w).2.est.startprob ∧
      w1.est.transmat = (S.init R X' w).2.est.transmat ∧
      w1.est = (S.check (S.init R X' w).2.est).2 := by
  refine ⟨(onEst S.check (S.init R X' w).2).2, ?_, ?_, ?_, rfl⟩
  · unfold Sub.fit
    rw [hX]
    refine (Py.bind_ok rfl).trans ?_
    have h1 : S.init R X' w = (.ok (), (S.init R X' w).2) := Prod.ext hi rfl
    refine (Py.bind_ok h1).trans ?_
    have h2 : onEst S.check (S.init R X' w).2 = (.ok (), (onEst S.check (S.init R X' w).2).2) := Prod.ext hc rfl
    exact Py.bind_ok h2
  · show (S.check _).2.startprob = _
    rw [hS.lawful.check_frame]
  · show (S.check _).2.transmat = _
    rw [hS.lawful.check_frame]

/-- **C25.** A letter in `params` that is no code of the class raises `KeyError`. -/
theorem C25_key_error (X : XArr α) (w : World α G P) (hX : (S.checkFeatures X w.est).1 = .ok ())
    (codes : List Char) (hcodes : ∀ e, (S.nFit e).map Prod.fst = codes) :
    (∀ c ∈ w.est.params, c ∈ codes) ∨ ∃ c ∈ w.est.params, c ∉ codes ∧
      (S.init R X w).1 = .error (.keyError (String.ofList [c])) := by
  obtain ⟨nf, p, hf⟩ := hS.features X w.est
  cases hc : S.checkFeatures X w.est with
  | mk r e1 =>
    rw [hc] at hf hX
    have hf : e1 = _ := hf
    have hX : r = .ok () := hX
    subst hf hX
    obtain ⟨rs, g, h, _⟩ := initBase_eq S R X w _ hc
    have hany : ∀ e c, ((S.nFit e).any fun p => p.1 == c) = decide (c ∈ codes) := by
      intro e c
      rw [← hcodes e, Bool.eq_iff_iff]
      simp
    simp only [hany] at h
    cases hfind : w.est.params.find? fun c => !decide (c ∈ codes) with
    | none =>
      left
      intro c hc
      have := List.find?_eq_none.1 hfind c hc
      simpa using this
    | some c =>
      right
      have h1 := List.find?_some hfind
      have h2 := List.mem_of_find?_eq_some hfind
      refine ⟨c, h2, by simpa using h1, ?_⟩
      simp only [hfind] at h
      unfold Sub.init
      rw [Py.bind_error h]

omit hS in
/-- With known letters only, the base class's part succeeds. -/
theorem initBase_ok (X : XArr α) (w : World α G P) (hX : (S.checkFeatures X w.est).1 = .ok ())
    (codes : List Char) (hcodes : ∀ e, (S.nFit e).map Prod.fst = codes) (hp : ∀ e1,
      S.checkFeatures X w.est = (.ok (), e1) → ∀ c ∈ e1.params, c ∈ codes) :
    (S.initBase R X w).1 = .ok () := by
  cases hc : S.checkFeatures X w.est with
  | mk r e1 =>
    rw [hc] at hX
    have hX : r = .ok () := hX
    subst hX
    obtain ⟨rs, g, h, _⟩ := initBase_eq S R X w _ hc
    rw [h]
    have hany : ∀ e c, ((S.nFit e).any fun p => p.1 == c) = decide (c ∈ codes) := by
      intro e c
      rw [← hcodes e, Bool.eq_iff_iff]
      simp
    simp only [hany]
    rw [List.find?_eq_none.2 fun c hc' => by simpa using hp e1 hc c hc']

end base

/-! ## The classes -/

omit [FloatLike α] in
/-- `self.random_state` after `check_random_state` was stored in it and `f` drawn from it. -/
def Spec.storedGen (R : RandomLib α G) (f : G → G) : RandomState G → RandomState G
  | .none | .global => .global
  | .seed n => .gen (f (R.ofSeed n))
  | .gen g => .gen (f g)

omit [FloatLike α] in
theorem storeInit_eq (R : RandomLib α G) (need : Est α G P → Prop) [DecidablePred need]
    (f : (m n : Nat) → G → (Fin m → Fin n → α) × G) (set : NdArray α → P → P) (w : World α G P)
    (hn : ∀ rs, need { w.est with randomState := rs } ↔ need w.est) :
    ∃ g, (do
      storeGen R
      let w ← Py.get
      let e := w.est
      if need e then
        let v ← withSelfGen R (f e.nComponents (e.nFeatures.getD 0))
        onEst (Py.modify fun e => { e with sub := set (.d2 v) e.sub })
      else pure () : Py (World α G P) Unit) w = (.ok (), ⟨{ w.est with
        randomState := storedGen R (fun g => if need w.est then
          (f w.est.nComponents (w.est.nFeatures.getD 0) g).2 else g) w.est.randomState
        sub := if need w.est then
          set (.d2 (f w.est.nComponents (w.est.nFeatures.getD 0) (selfGen R w)).1) w.est.sub
          else w.est.sub }, g⟩) := by
  simp only [storeGen, Py.bind_apply, Py.modify_apply, Py.get_apply, hn]
  by_cases hw : need w.est
  · simp only [hw, if_true]
    rcases w with ⟨⟨nc, sp, tp, al, rs, ni, tol, ps, ip, im, mo, s, t, nf, sub⟩, glob⟩
    clear hn hw
    cases rs <;> exact ⟨_, rfl⟩
  · refine ⟨w.glob, ?_⟩
    simp only [hw, if_false]
    rcases w with ⟨⟨nc, sp, tp, al, rs, ni, tol, ps, ip, im, mo, s, t, nf, sub⟩, glob⟩
    cases rs <;> rfl

theorem catInit_eq (R : RandomLib α G) (X : XArr α) (w : World α G (CatAttrs α)) :
    ∃ g, catInit R X w = (.ok (), ⟨{ w.est with
      randomState := storedGen R (fun g =>
        if needsInit w.est.initParams 'e' w.est.sub.emissionprob.isSome then
          (randRows R w.est.nComponents (w.est.nFeatures.getD 0) g).2 else g) w.est.randomState
      sub := if needsInit w.est.initParams 'e' w.est.sub.emissionprob.isSome then
          { w.est.sub with emissionprob := some (.d2
            (randRows R w.est.nComponents (w.est.nFeatures.getD 0) (selfGen R w)).1) }
        else w.est.sub }, g⟩) :=
  storeInit_eq R (fun e : Est α G (CatAttrs α) => needsInit e.initParams 'e' e.sub.emissionprob.isSome)
    (randRows R) (fun v p => { p with emissionprob := some v }) w (fun _ => Iff.rfl)

theorem multiInit_eq (R : RandomLib α G) (X : XArr α) (w : World α G (MultiAttrs α)) :
    ∃ g, multiInit R X w = (.ok (), ⟨{ w.est with
      randomState := storedGen R (fun g =>
        if 'e' ∈ w.est.initParams then
          (randRows R w.est.nComponents (w.est.nFeatures.getD 0) g).2 else g) w.est.randomState
      sub := if 'e' ∈ w.est.initParams then
          { w.est.sub with emissionprob := some (.d2
            (randRows R w.est.nComponents (w.est.nFeatures.getD 0) (selfGen R w)).1) }
        else w.est.sub }, g⟩) :=
  storeInit_eq R (fun e : Est α G (MultiAttrs α) => 'e' ∈ e.initParams)
    (randRows R) (fun v p => { p with emissionprob := some v }) w (fun _ => Iff.rfl)

/-- Gamma variables with the mean and variance of `X`. -/
def Spec.gammaRows (R : RandomLib α G) (X : XArr α) (m n : Nat) (g : G) : (Fin m → Fin n → α) × G :=
  drawMany (drawMany (R.gamma (meanL X.flat * meanL X.flat / varL X.flat) (varL X.flat / meanL X.flat)) n) m g

theorem poisInit_eq (R : RandomLib α G) (X : XArr α) (w : World α G (PoisAttrs α)) :
    ∃ g, poisInit R X w = (.ok (), ⟨{ w.est with
      randomState := storedGen R (fun g =>
        if needsInit w.est.initParams 'l' w.est.sub.lambdas.isSome then
          (gammaRows R X w.est.nComponents (w.est.nFeatures.getD 0) g).2 else g) w.est.randomState
      sub := if needsInit w.est.initParams 'l' w.est.sub.lambdas.isSome then
          { w.est.sub with lambdas := some (.d2
            (gammaRows R X w.est.nComponents (w.est.nFeatures.getD 0) (selfGen R w)).1) }
        else w.est.sub }, g⟩) :=
  storeInit_eq R (fun e : Est α G (PoisAttrs α) => needsInit e.initParams 'l' e.sub.lambdas.isSome)
    (gammaRows R X) (fun v p => { p with lambdas := some v }) w (fun _ => Iff.rfl)

/-! ### Frames -/

theorem checkFeaturesBase_frames (X : XArr α) (e : Est α G P) :
    ∃ nf p, (checkFeaturesBase X e).2 = { e with nFeatures := nf, sub := p } := by
  unfold checkFeaturesBase
  split
  · split <;> exact ⟨e.nFeatures, e.sub, rfl⟩
  · exact ⟨_, _, rfl⟩

variable (R : RandomLib α G)

theorem catSub_frames : (catSub (α := α) (G := G)).Frames R where
  lawful := catSub_lawful
  features X e := by
    show ∃ nf p, (catCheckFeatures X e).2 = _
    unfold catCheckFeatures
    split
    · exact ⟨e.nFeatures, e.sub, rfl⟩
    · split
      · exact ⟨e.nFeatures, e.sub, rfl⟩
      · split
        · split <;> exact ⟨e.nFeatures, e.sub, rfl⟩
        · exact ⟨_, _, rfl⟩
  init X w := by
    obtain ⟨g, h⟩ := catInit_eq R X w
    exact ⟨_, _, g, congrArg Prod.snd h⟩

theorem multiSub_frames : (multiSub (α := α) (G := G)).Frames R where
  lawful := multiSub_lawful
  features X e := by
    show ∃ nf p, (multiCheckFeatures X e).2 = _
    have h2 : ∀ e : Est α G (MultiAttrs α), ∃ p, (multiCheckCounts X e).2 = { e with sub := p } := by
      intro e
      unfold multiCheckCounts
      split
      · exact ⟨e.sub, rfl⟩
      · split
        · exact ⟨e.sub, rfl⟩
        · split
          · exact ⟨_, rfl⟩
          · split <;> exact ⟨e.sub, rfl⟩
    obtain ⟨nf, p, h1⟩ := checkFeaturesBase_frames X e
    unfold multiCheckFeatures
    rw [Py.bind_apply]
    cases hb : checkFeaturesBase X e with
    | mk r e1 =>
      rw [hb] at h1
      cases r with
      | error err => exact ⟨nf, p, h1⟩
      | ok u =>
        obtain ⟨p2, h3⟩ := h2 e1
        refine ⟨nf, p2, ?_⟩
        have h1 : e1 = _ := h1
        simp only
        rw [h3, h1]
  init X w := by
    obtain ⟨g, h⟩ := multiInit_eq R X w
    exact ⟨_, _, g, congrArg Prod.snd h⟩

theorem poisSub_frames : (poisSub (α := α) (G := G)).Frames R where
  lawful := poisSub_lawful
  features := checkFeaturesBase_frames
  init X w := by
    obtain ⟨g, h⟩ := poisInit_eq R X w
    exact ⟨_, _, g, congrArg Prod.snd h⟩

theorem gaussInitMeans_eq (X : XArr α) (w : World α G (GaussAttrs α)) :
    ∃ rs g, gaussInitMeans R X w =
      if needsInit w.est.initParams 'm' w.est.sub.means.isSome then
        if X.n < w.est.nComponents then (.error (.valueError "n_samples should be >= n_clusters"), w)
        else (.ok (), ⟨{ w.est with randomState := rs, sub := { w.est.sub with
          means := some (.d2 (R.kmeans w.est.nComponents X.floatRows (selfGen R w)).1) } }, g⟩)
      else (.ok (), w) := by
  simp only [gaussInitMeans, Py.bind_apply, Py.get_apply]
  by_cases h1 : needsInit w.est.initParams 'm' w.est.sub.means.isSome
  · simp only [h1, if_true]
    by_cases h2 : X.n < w.est.nComponents
    · simp only [h2, if_true]
      exact ⟨w.est.randomState, w.glob, rfl⟩
    · simp only [h2, if_false]
      obtain ⟨rs, g, h, -⟩ := withSelfGen_eq R (R.kmeans w.est.nComponents X.floatRows) w
      exact ⟨rs, g, (Py.bind_ok h).trans rfl⟩
  · simp only [h1, if_false]
    exact ⟨w.est.randomState, w.glob, rfl⟩

theorem gaussInitCovars_eq (eig : Eigvalsh α) (ty : CovType) (X : XArr α) (w : World α G (GaussAttrs α)) :
    gaussInitCovars eig ty X w =
      if needsInit w.est.initParams 'c' w.est.sub.covars.isSome then
        match setCovars eig ty w.est.nComponents
            (distributeCovar (initCov w.est.sub.minCovar X.floatRows) ty w.est.nComponents) with
        | .error err => (.error err, w)
        | .ok c => (.ok (), { w with est := { w.est with sub := { w.est.sub with covars := some c } } })
      else (.ok (), w) := by
  simp only [gaussInitCovars, Py.bind_apply, Py.get_apply]
  by_cases h1 : needsInit w.est.initParams 'c' w.est.sub.covars.isSome
  · simp only [h1, if_true]
    rw [Py.bind_apply, Py.lift_apply]
    cases setCovars eig ty w.est.nComponents
            (distributeCovar (initCov w.est.sub.minCovar X.floatRows) ty w.est.nComponents) <;> rfl
  · simp only [h1, if_false]
    rfl

theorem gaussInit_frames (eig : Eigvalsh α) (ty : CovType) (X : XArr α) (w : World α G (GaussAttrs α)) :
    ∃ p rs g, (gaussInit eig ty R X w).2 = ⟨{ w.est with sub := p, randomState := rs }, g⟩ := by
  have h2 : ∀ w : World α G (GaussAttrs α), ∃ p, (gaussInitCovars eig ty X w).2 = ⟨{ w.est with sub := p }, w.glob⟩ := by
    intro w
    rw [gaussInitCovars_eq]
    split
    · split
      · exact ⟨w.est.sub, rfl⟩
      · exact ⟨_, rfl⟩
    · exact ⟨w.est.sub, rfl⟩
  obtain ⟨rs, g, h1⟩ := gaussInitMeans_eq R X w
  unfold gaussInit
  by_cases hn : needsInit w.est.initParams 'm' w.est.sub.means.isSome
  · rw [if_pos hn] at h1
    by_cases hlt : X.n < w.est.nComponents
    · rw [if_pos hlt] at h1
      rw [Py.bind_error h1]
      exact ⟨w.est.sub, w.est.randomState, w.glob, rfl⟩
    · rw [if_neg hlt] at h1
      rw [Py.bind_ok h1]
      obtain ⟨p, hp⟩ := h2 ⟨{ w.est with randomState := rs, sub := { w.est.sub with
          means := some (.d2 (R.kmeans w.est.nComponents X.floatRows (selfGen R w)).1) } }, g⟩
      rw [hp]
      exact ⟨_, _, _, rfl⟩
  · rw [if_neg hn] at h1
    rw [Py.bind_ok h1]
    obtain ⟨p, hp⟩ := h2 w
    rw [hp]
    exact ⟨_, w.est.randomState, _, rfl⟩

theorem IsGauss.frames {S : Sub α G (GaussAttrs α)} {eig : Eigvalsh α} {ty : CovType} (h : IsGauss S eig ty) :
    S.Frames R where
  lawful := ⟨by rw [h.check]; exact gaussCheck_frame, by rw [h.check]; exact gaussCheck_idem⟩
  features := by rw [h.features]; exact checkFeaturesBase_frames
  init := by rw [h.init]; exact gaussInit_frames R eig ty

/-! ### The emission parameters -/

variable {R}

/-- `_init` is the class's part run on the state `BaseHMM._init` leaves, unless that raised. -/
theorem init_cases {S : Sub α G P} (hS : S.Frames R) (X : XArr α) (w : World α G P) :
    ∃ w1 : World α G P, w1.est.sub = (S.checkFeatures X w.est).2.sub ∧
      w1.est.nFeatures = (S.checkFeatures X w.est).2.nFeatures ∧
      w1.est.initParams = w.est.initParams ∧ w1.est.nComponents = w.est.nComponents ∧
      (∀ k, w.est.randomState = .seed k → w1.est.randomState = .seed k ∧ w1.glob = w.glob) ∧
      ((∃ err, S.init R X w = (.error err, w1)) ∨ S.init R X w = S.initSub R X w1) := by
  obtain ⟨nf, p, hf⟩ := hS.features X w.est
  cases hc : S.checkFeatures X w.est with
  | mk r e1 =>
    rw [hc] at hf
    have hf : e1 = _ := hf
    subst hf
    cases r with
    | error err =>
      have h1 : onEst (S.checkFeatures X) w =
          (.error err, { w with est := { w.est with nFeatures := nf, sub := p } }) := by simp [onEst, hc]
      have h2 : S.initBase R X w = _ := Py.bind_error h1
      exact ⟨{ w with est := { w.est with nFeatures := nf, sub := p } }, rfl, rfl, rfl, rfl,
        fun _ h => ⟨h, rfl⟩, .inl ⟨err, Py.bind_error h2⟩⟩
    | ok u =>
      obtain ⟨rs, g, h, hrs, hg⟩ := initBase_eq S R X w _ hc
      cases hb : S.initBase R X w with
      | mk r w1 =>
        rw [hb] at h
        have h2 : w1 = _ := congrArg Prod.snd h
        refine ⟨w1, by rw [h2], by rw [h2], by rw [h2], by rw [h2], fun k hk => ?_, ?_⟩
        · rw [h2]
          refine ⟨?_, hg k hk⟩
          show rs = _
          rw [hrs]
          show (match w.est.randomState with | .gen g => _ | rs => rs) = _
          rw [hk]
        cases r with
        | error err => exact .inl ⟨err, Py.bind_error hb⟩
        | ok u => exact .inr (Py.bind_ok hb)

/-- The claim about a parameter: kept if the user set it and its code is not in `init_params`,
otherwise (once `_init` has succeeded) given by `draw`, for some state of the generator. -/
structure Spec.Gated {β : Type} (S : Sub α G P) (R : RandomLib α G) (code : Char) (get : Est α G P → Option β)
    (draw : XArr α → Est α G P → G → β) : Prop where
  keeps : ∀ X w, ¬ Fresh w.est code (get w.est) → get (S.init R X w).2.est = get w.est
  draws : ∀ X w, Fresh w.est code (get w.est) → (S.init R X w).1 = .ok () →
    ∃ g, get (S.init R X w).2.est = some (draw X (S.init R X w).2.est g)

theorem gated_of {β : Type} {S : Sub α G P} (hS : S.Frames R) (code : Char) (get : P → Option β)
    (draw : XArr α → Est α G P → G → β)
    (hf : ∀ X e, get (S.checkFeatures X e).2.sub = get e.sub)
    (hk : ∀ X w, ¬ Fresh w.est code (get w.est.sub) → get (S.initSub R X w).2.est.sub = get w.est.sub)
    (hd : ∀ X w, Fresh w.est code (get w.est.sub) → (S.initSub R X w).1 = .ok () →
      ∃ g, get (S.initSub R X w).2.est.sub = some (draw X (S.initSub R X w).2.est g)) :
    Gated S R code (fun e => get e.sub) draw := by
  have hfresh : ∀ X (w w1 : World α G P), w1.est.sub = (S.checkFeatures X w.est).2.sub →
      w1.est.initParams = w.est.initParams →
      (Fresh w1.est code (get w1.est.sub) ↔ Fresh w.est code (get w.est.sub)) := by
    intro X w w1 h1 h2
    unfold Fresh
    rw [h1, h2, hf]
  constructor
  · intro X w hn
    obtain ⟨w1, h1, -, h3, -, -, ⟨err, h⟩ | h⟩ := init_cases hS X w
    · rw [h]
      exact (congrArg get h1).trans (hf X w.est)
    · rw [h]
      refine (hk X w1 ?_).trans ((congrArg get h1).trans (hf X w.est))
      rwa [hfresh X w w1 h1 h3]
  · intro X w hn hok
    obtain ⟨w1, h1, -, h3, -, -, ⟨err, h⟩ | h⟩ := init_cases hS X w
    · rw [h] at hok
      cases hok
    · rw [h] at hok ⊢
      exact hd X w1 ((hfresh X w w1 h1 h3).2 hn) hok

/-- **C25 (`CategoricalHMM.emissionprob_`)**, code `e`: normalised uniform variables. -/
theorem C25_categorical : Gated catSub R 'e' (fun e => e.sub.emissionprob)
    (fun _ e g => .d2 (randRows R e.nComponents (e.nFeatures.getD 0) g).1) := by
  refine gated_of (catSub_frames R) 'e' CatAttrs.emissionprob _ (fun X e => ?_) (fun X w hn => ?_)
    fun X w hn _ => ?_
  · show CatAttrs.emissionprob (catCheckFeatures X e).2.sub = _
    unfold catCheckFeatures
    repeat' split
    all_goals rfl
  · obtain ⟨g, h⟩ := catInit_eq R X w
    have hb : needsInit w.est.initParams 'e' w.est.sub.emissionprob.isSome = false := by
      rw [← Bool.not_eq_true, needsInit_iff]; exact hn
    show CatAttrs.emissionprob (catInit R X w).2.est.sub = _
    rw [h]; simp [hb]
  · obtain ⟨g, h⟩ := catInit_eq R X w
    have hb := (needsInit_iff w.est 'e' w.est.sub.emissionprob).2 hn
    refine ⟨selfGen R w, ?_⟩
    show CatAttrs.emissionprob (catInit R X w).2.est.sub = some (.d2 (randRows R (catInit R X w).2.est.nComponents
      ((catInit R X w).2.est.nFeatures.getD 0) _).1)
    rw [h]; simp [hb]

/-- **C25 (`PoissonHMM.lambdas_`)**, code `l`: Gamma variables with the mean and variance of `X`. -/
theorem C25_poisson : Gated poisSub R 'l' (fun e => e.sub.lambdas)
    (fun X e g => .d2 (gammaRows R X e.nComponents (e.nFeatures.getD 0) g).1) := by
  refine gated_of (poisSub_frames R) 'l' PoisAttrs.lambdas _ (fun X e => ?_) (fun X w hn => ?_)
    fun X w hn _ => ?_
  · show PoisAttrs.lambdas (checkFeaturesBase X e).2.sub = _
    unfold checkFeaturesBase
    repeat' split
    all_goals rfl
  · obtain ⟨g, h⟩ := poisInit_eq R X w
    have hb : needsInit w.est.initParams 'l' w.est.sub.lambdas.isSome = false := by
      rw [← Bool.not_eq_true, needsInit_iff]; exact hn
    show PoisAttrs.lambdas (poisInit R X w).2.est.sub = _
    rw [h]; simp [hb]
  · obtain ⟨g, h⟩ := poisInit_eq R X w
    have hb := (needsInit_iff w.est 'l' w.est.sub.lambdas).2 hn
    refine ⟨selfGen R w, ?_⟩
    show PoisAttrs.lambdas (poisInit R X w).2.est.sub = some (.d2 (gammaRows R X (poisInit R X w).2.est.nComponents
      ((poisInit R X w).2.est.nFeatures.getD 0) _).1)
    rw [h]; simp [hb]

theorem multiCheckFeatures_emission (X : XArr α) (e : Est α G (MultiAttrs α)) :
    (multiCheckFeatures X e).2.sub.emissionprob = e.sub.emissionprob := by
  unfold multiCheckFeatures
  rcases checkFeaturesBase_eq X e with ⟨n, hn, hd, msg, hb⟩ | ⟨_, hb⟩
  · rw [Py.bind_error hb]
  · rw [Py.bind_ok hb]
    unfold multiCheckCounts
    repeat' split
    all_goals rfl

/-- **C25 (`MultinomialHMM.emissionprob_`)**, code `e`.  The code does not ask whether the attribute
was set: with `e` not in `init_params` it is left alone, set or not. -/
theorem C25_multinomial (X : XArr α) (w : World α G (MultiAttrs α)) :
    ('e' ∉ w.est.initParams → (multiSub.init R X w).2.est.sub.emissionprob = w.est.sub.emissionprob) ∧
    ('e' ∈ w.est.initParams → (multiSub.init R X w).1 = .ok () → ∃ g,
      (multiSub.init R X w).2.est.sub.emissionprob = some (.d2 (randRows R w.est.nComponents
        ((multiSub.init R X w).2.est.nFeatures.getD 0) g).1)) := by
  obtain ⟨w1, h1, -, h3, h4, -, h⟩ := init_cases (multiSub_frames R) X w
  have h1 : w1.est.sub.emissionprob = w.est.sub.emissionprob :=
    (congrArg MultiAttrs.emissionprob h1).trans (multiCheckFeatures_emission X w.est)
  obtain ⟨g, hi⟩ := multiInit_eq R X w1
  constructor
  · intro hn
    rw [← h3] at hn
    rcases h with ⟨err, h⟩ | h
    · rw [h]; exact h1
    · rw [h, ← h1]
      show (multiInit R X w1).2.est.sub.emissionprob = _
      rw [hi]; simp [hn]
  · intro hn hok
    rw [← h3] at hn
    rcases h with ⟨err, h⟩ | h
    · rw [h] at hok; cases hok
    · rw [h]
      refine ⟨selfGen R w1, ?_⟩
      show (multiInit R X w1).2.est.sub.emissionprob = some (.d2 (randRows R w.est.nComponents
        ((multiInit R X w1).2.est.nFeatures.getD 0) _).1)
      rw [hi, ← h4]; simp [hn]

/-- **C25 (`MultinomialHMM`).**  So a model without `emissionprob_` and without `e` in `init_params`
cannot be fitted. -/
theorem C25_multinomial_unset {X : RawX α} {X' : XArr α} (hX : checkArray X = .ok X') (ls : Option (List Int))
    (w : World α G (MultiAttrs α)) (he : 'e' ∉ w.est.initParams) (hu : w.est.sub.emissionprob = none) :
    ∃ err, (multiSub.fit R X ls w).1 = .error err := by
  have hk := (C25_multinomial (R := R) X' w).1 he
  unfold Sub.fit
  rw [hX, Py.bind_apply, Py.lift_apply]
  simp only [Py.bind_apply]
  cases hi : multiSub.init R X' w with
  | mk r w1 =>
    cases r with
    | error err => exact ⟨err, rfl⟩
    | ok u =>
      rw [hi, hu] at hk
      simp only [onEst, Sub.check_eq]
      cases checkBase w1.est with
      | error err => exact ⟨err, rfl⟩
      | ok u =>
        have : multiSub.checkSub w1.est = (.error (.attributeError "emissionprob_"), w1.est) := by
          show multiCheck w1.est = _
          unfold multiCheck
          rw [hk]
        rw [this]
        exact ⟨_, rfl⟩

section gauss
variable {S : Sub α G (GaussAttrs α)} {eig : Eigvalsh α} {ty : CovType}

theorem gauss_features_sub (hS : IsGauss S eig ty) (X : XArr α) (e : Est α G (GaussAttrs α)) :
    (S.checkFeatures X e).2.sub = e.sub := by
  rw [hS.features]
  unfold checkFeaturesBase
  repeat' split
  all_goals rfl

/-- **C25 (`GaussianHMM.means_`)**, code `m`: the cluster centres. -/
theorem C25_gaussian_means (hS : IsGauss S eig ty) : Gated S R 'm' (fun e => e.sub.means)
    (fun X e g => .d2 (R.kmeans e.nComponents X.floatRows g).1) := by
  have hc : ∀ X (w : World α G (GaussAttrs α)), (gaussInitCovars eig ty X w).2.est.sub.means = w.est.sub.means ∧
      (gaussInitCovars eig ty X w).2.est.nComponents = w.est.nComponents := by
    intro X w
    rw [gaussInitCovars_eq]
    repeat' split
    all_goals exact ⟨rfl, rfl⟩
  refine gated_of (hS.frames R) 'm' GaussAttrs.means _
    (fun X e => congrArg GaussAttrs.means (gauss_features_sub hS X e)) (fun X w hn => ?_) fun X w hn hok => ?_
  · have hb : needsInit w.est.initParams 'm' w.est.sub.means.isSome = false := by
      rw [← Bool.not_eq_true, needsInit_iff]; exact hn
    obtain ⟨rs, g, h⟩ := gaussInitMeans_eq R X w
    rw [hb] at h
    have h : gaussInitMeans R X w = (.ok (), w) := h
    rw [hS.init]
    have := Py.bind_ok (f := fun _ => gaussInitCovars eig ty X) h
    show (gaussInit eig ty R X w).2.est.sub.means = _
    unfold gaussInit
    rw [this]
    exact (hc X w).1
  · have hb := (needsInit_iff w.est 'm' w.est.sub.means).2 hn
    obtain ⟨rs, g, h⟩ := gaussInitMeans_eq R X w
    rw [hb, if_pos rfl] at h
    rw [hS.init] at hok ⊢
    by_cases hlt : X.n < w.est.nComponents
    · rw [if_pos hlt] at h
      have := Py.bind_error (f := fun _ => gaussInitCovars eig ty X) h
      unfold gaussInit at hok
      rw [this] at hok
      cases hok
    · rw [if_neg hlt] at h
      have := Py.bind_ok (f := fun _ => gaussInitCovars eig ty X) h
      refine ⟨selfGen R w, ?_⟩
      show (gaussInit eig ty R X w).2.est.sub.means = some (.d2 (R.kmeans (gaussInit eig ty R X w).2.est.nComponents
        X.floatRows _).1)
      unfold gaussInit
      rw [this, (hc X _).1, (hc X _).2]

/-- **C25 (`GaussianHMM.covars_`)**, code `c`: kept, or the value the property setter stores for the
template covariance of the data. -/
theorem C25_gaussian_covars (hS : IsGauss S eig ty) (X : XArr α) (w : World α G (GaussAttrs α)) :
    (¬ Fresh w.est 'c' w.est.sub.covars → (S.init R X w).2.est.sub.covars = w.est.sub.covars) ∧
    (Fresh w.est 'c' w.est.sub.covars → (S.init R X w).1 = .ok () →
      ∃ c, setCovars eig ty w.est.nComponents
          (distributeCovar (initCov w.est.sub.minCovar X.floatRows) ty w.est.nComponents) = .ok c ∧
        (S.init R X w).2.est.sub.covars = some c) := by
  obtain ⟨w1, h1, -, h3, h4, -, h⟩ := init_cases (hS.frames R) X w
  have h1 : w1.est.sub = w.est.sub := h1.trans (gauss_features_sub hS X w.est)
  have hfr : Fresh w1.est 'c' w1.est.sub.covars ↔ Fresh w.est 'c' w.est.sub.covars := by
    unfold Fresh; rw [h1, h3]
  obtain ⟨rs, g, hm⟩ := gaussInitMeans_eq R X w1
  rw [hS.init] at h
  -- the first half raises, or leaves a state `w2` with the same covariances
  have hm' : (∃ err, gaussInit eig ty R X w1 = (.error err, w1)) ∨
      ∃ w2 : World α G (GaussAttrs α), gaussInit eig ty R X w1 = gaussInitCovars eig ty X w2 ∧
        w2.est.sub.covars = w1.est.sub.covars ∧ w2.est.sub.minCovar = w1.est.sub.minCovar ∧
        w2.est.initParams = w1.est.initParams ∧ w2.est.nComponents = w1.est.nComponents := by
    by_cases hn : needsInit w1.est.initParams 'm' w1.est.sub.means.isSome
    · rw [if_pos hn] at hm
      by_cases hlt : X.n < w1.est.nComponents
      · rw [if_pos hlt] at hm
        exact .inl ⟨_, Py.bind_error (f := fun _ => gaussInitCovars eig ty X) hm⟩
      · rw [if_neg hlt] at hm
        exact .inr ⟨_, Py.bind_ok (f := fun _ => gaussInitCovars eig ty X) hm, rfl, rfl, rfl, rfl⟩
    · rw [if_neg hn] at hm
      exact .inr ⟨_, Py.bind_ok (f := fun _ => gaussInitCovars eig ty X) hm, rfl, rfl, rfl, rfl⟩
  constructor
  · intro hn
    rw [← hfr] at hn
    rcases h with ⟨err, h⟩ | h
    · rw [h, ← h1]
    · rw [h, ← h1]
      rcases hm' with ⟨err, hm'⟩ | ⟨w2, hm', a, b, c, d⟩
      · rw [hm']
      · have hb : needsInit w2.est.initParams 'c' w2.est.sub.covars.isSome = false := by
          rw [← Bool.not_eq_true, needsInit_iff]; unfold Fresh; rw [a, c]; exact hn
        rw [hm', gaussInitCovars_eq, hb, ← a]
        rfl
  · intro hn hok
    rw [← hfr] at hn
    rcases h with ⟨err, h⟩ | h
    · rw [h] at hok; cases hok
    · rw [h] at hok ⊢
      rcases hm' with ⟨err, hm'⟩ | ⟨w2, hm', a, b, c, d⟩
      · rw [hm'] at hok; cases hok
      · have hb : needsInit w2.est.initParams 'c' w2.est.sub.covars.isSome = true := by
          rw [needsInit_iff]; unfold Fresh; rw [a, c]; exact hn
        rw [hm', gaussInitCovars_eq, hb, if_pos rfl] at hok
        rw [hm', gaussInitCovars_eq, hb, if_pos rfl, ← h1, ← b, ← h4, ← d]
        cases hs : setCovars eig ty w2.est.nComponents
            (distributeCovar (initCov w2.est.sub.minCovar X.floatRows) ty w2.est.nComponents) with
        | error err => rw [hs] at hok; cases hok
        | ok c => exact ⟨c, rfl, rfl⟩

end gauss

/-- The table of codes of each class, so `C25_key_error` applies. -/
example : (∀ e, ((catSub (α := α) (G := G)).nFit e).map Prod.fst = ['s', 't', 'e']) ∧
    (∀ e, ((multiSub (α := α) (G := G)).nFit e).map Prod.fst = ['s', 't', 'e']) ∧
    (∀ e, ((poisSub (α := α) (G := G)).nFit e).map Prod.fst = ['s', 't', 'l']) ∧
    (∀ eig e, ((gaussDiagSub (α := α) (G := G) eig).nFit e).map Prod.fst = ['s', 't', 'm', 'c']) :=
  ⟨fun _ => rfl, fun _ => rfl, fun _ => rfl, fun _ _ => rfl⟩

/-- `startprob_` is kept, `transmat_` replaced, when `init_params = "t"` and both were set. -/
example : ¬ Fresh { FeaturesDemo.est with initParams := ['t'] } 's' FeaturesDemo.est.startprob ∧
    Fresh { FeaturesDemo.est with initParams := ['t'] } 't' FeaturesDemo.est.transmat := by
  constructor
  · rintro (h | h)
    · exact absurd h (by decide)
    · cases h
  · exact .inl (by decide)

end Verif
