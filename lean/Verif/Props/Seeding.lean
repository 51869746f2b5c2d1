import Verif.Props.Initialise

/-!
# C39: seeds
-/

namespace Verif
open FloatLike Spec

variable {α G P : Type} [FloatLike α] {R : RandomLib α G}

/-! ## `sample` with a seed -/

/-- `est.random_state = rs`. -/
def Est.reseed (rs : RandomState G) (e : Est α G P) : Est α G P := { e with randomState := rs }

/-- The class's part of `_check` does not look at `random_state`. -/
def Sub.IgnoresSeed (S : Sub α G P) : Prop := ∀ rs, Py.Comm (Est.reseed rs) S.checkSub

/-- A history without `fit`: inference, and samples drawn from any generator. -/
def Spec.NoFit : Action α → Prop
  | .fit _ _ => False
  | _ => True

/-- `sample(n, random_state=k)` returns the same whatever was called before (short of `fit`), and
whatever the states of the estimator's own generator and of `np.random` are. -/
def Spec.SeededSample (S : Sub α G P) (R : RandomLib α G) : Prop :=
  ∀ (n : Int) (k : Nat) (c : Option Nat) (as : List (Action α)) (w : World α G P) (rs : RandomState G) (g : G),
    (∀ a ∈ as, NoFit a) →
      (S.sample R n (some k) c (afterActions S R as ⟨w.est.reseed rs, g⟩)).1 = (S.sample R n (some k) c w).1

theorem checkFitted_comm {S : Sub α G P} (h : S.IgnoresSeed) (rs : RandomState G) :
    Py.Comm (Est.reseed rs) S.checkFitted := by
  refine Py.Comm.get_bind (fun e => rfl) fun e => ?_
  refine Py.Comm.ite (Py.Comm.raise _) ?_
  refine Py.Comm.get_bind (fun e => rfl) fun e => ?_
  exact Py.Comm.bind (Py.Comm.lift _) fun _ => h rs

theorem sample_seeded (S : Sub α G P) (R : RandomLib α G) (n : Int) (k : Nat) (c : Option Nat) (w : World α G P) :
    S.sample R n (some k) c w =
      ((S.checkFitted w.est).1.bind fun _ => (S.sampleFrom R (S.checkFitted w.est).2 n c (R.ofSeed k)).1,
        { w with est := (S.checkFitted w.est).2 }) := by
  simp only [Sub.sample, Sub.sampleBody, Py.bind_apply, onEst, Py.get_apply, Py.lift_apply]
  cases (S.checkFitted w.est).1 <;> rfl

theorem noFit_after {S : Sub α G P} (hS : S.Lawful) (hi : S.IgnoresSeed) (as : List (Action α))
    (w : World α G P) (has : ∀ a ∈ as, NoFit a) : ∃ rs g,
      afterActions S R as w = ⟨w.est.reseed rs, g⟩ ∨
      afterActions S R as w = ⟨(S.checkFitted w.est).2.reseed rs, g⟩ := by
  induction as generalizing w with
  | nil => exact ⟨w.est.randomState, w.glob, .inl rfl⟩
  | cons a as ih =>
    have key : ∃ rs g, a.after S R w = ⟨(S.checkFitted w.est).2.reseed rs, g⟩ := by
      cases a with
      | fit X ls => exact absurd (has _ List.mem_cons_self) id
      | infer c =>
        obtain ⟨f, hf⟩ := call_eq S R c
        refine ⟨(S.checkFitted w.est).2.randomState, w.glob, ?_⟩
        show (c.run S R w).2 = _
        rw [hf]
        rfl
      | sample n c => exact C59_sample_unseeded S R n c w
    obtain ⟨rs, g, hk⟩ := key
    obtain ⟨rs', g', h⟩ := ih (a.after S R w) fun b hb => has b (List.mem_cons_of_mem _ hb)
    refine ⟨rs', g', .inr ?_⟩
    show afterActions S R as (a.after S R w) = _
    rcases h with h | h
    · rw [h, hk]; rfl
    · rw [h, hk]
      show (⟨(S.checkFitted (Est.reseed rs (S.checkFitted w.est).2)).2.reseed rs', g'⟩ : World α G P) = _
      rw [checkFitted_comm hi rs, hS.fitted_idem]
      rfl

theorem ready_reseed (S : Sub α G P) (e : Est α G P) (rs : RandomState G) :
    S.ready (e.reseed rs) = (S.ready e).map fun r => ⟨r.nf, r.pos, r.θ⟩ := by
  unfold Sub.ready
  by_cases h0 : e.nComponents = 0
  · rw [dif_pos h0, dif_pos (show (e.reseed rs).nComponents = 0 from h0)]
    rfl
  · rw [dif_neg h0, dif_neg (show ¬ (e.reseed rs).nComponents = 0 from h0)]
    simp only [Est.reseed]
    cases e.nFeatures with
    | none => rfl
    | some nf =>
      cases e.startprob with
      | none => rfl
      | some a =>
        cases h1 : asRow e.nComponents a with
        | none => simp [h1]
        | some π =>
          cases h2 : e.transmat with
          | none => simp [h1]
          | some b =>
            cases h3 : asMat e.nComponents e.nComponents b with
            | none => simp [h1, h3]
            | some A =>
              cases h4 : S.read e.sub e.nComponents nf with
              | none => simp [h1, h3, h4]
              | some p => simp [h1, h3, h4]

theorem sampleFrom_reseed (S : Sub α G P) (e : Est α G P) (rs : RandomState G) (n : Int) (c : Option Nat) (g : G) :
    S.sampleFrom R (e.reseed rs) n c g = S.sampleFrom R e n c g := by
  unfold Sub.sampleFrom
  rw [ready_reseed]
  cases S.ready e with
  | none => rfl
  | some r =>
    cases c <;> rfl

theorem seeded_of {S : Sub α G P} (hS : S.Lawful) (hi : S.IgnoresSeed) : SeededSample S R := by
  intro n k c as w rs g has
  have h1 : ∀ (e : Est α G P) rs, (S.checkFitted (e.reseed rs)).1 = (S.checkFitted e).1 := by
    intro e rs; rw [checkFitted_comm hi rs]
  have h2 : ∀ (e : Est α G P) rs, (S.checkFitted (e.reseed rs)).2 = (S.checkFitted e).2.reseed rs := by
    intro e rs; rw [checkFitted_comm hi rs]
  have h3 : ∀ (e : Est α G P) rs, S.sampleFrom R (e.reseed rs) n c (R.ofSeed k) = S.sampleFrom R e n c (R.ofSeed k) := by
    intro e rs; exact sampleFrom_reseed S e rs n c _
  obtain ⟨rs', g', h | h⟩ := noFit_after (R := R) hS hi as ⟨w.est.reseed rs, g⟩ has
  · rw [h, sample_seeded, sample_seeded]
    simp only [h1, h2, h3]
  · rw [h, sample_seeded, sample_seeded]
    simp only [h1, h2, h3, hS.fitted_idem]

theorem catSub_ignoresSeed : (catSub (α := α) (G := G)).IgnoresSeed := by
  intro rs e
  show catCheck (e.reseed rs) = ((catCheck e).1, (catCheck e).2.reseed rs)
  unfold catCheck
  show (match e.sub.emissionprob with | none => _ | some a => _) = _
  cases e.sub.emissionprob with
  | none => rfl
  | some a =>
    dsimp only [Est.reseed]
    split <;> dsimp only <;> split <;> rfl

theorem multiSub_ignoresSeed : (multiSub (α := α) (G := G)).IgnoresSeed := by
  intro rs e
  show multiCheck (e.reseed rs) = ((multiCheck e).1, (multiCheck e).2.reseed rs)
  unfold multiCheck
  show (match e.sub.emissionprob with | none => _ | some a => _) = _
  cases e.sub.emissionprob with
  | none => rfl
  | some a =>
    dsimp only [Est.reseed]
    split
    · rfl
    · split <;> rfl

theorem poisSub_ignoresSeed : (poisSub (α := α) (G := G)).IgnoresSeed := by
  intro rs e
  show poisCheck (e.reseed rs) = ((poisCheck e).1, (poisCheck e).2.reseed rs)
  unfold poisCheck
  show (match e.sub.lambdas with | none => _ | some a => _) = _
  cases e.sub.lambdas with
  | none => rfl
  | some a =>
    dsimp only [Est.reseed]
    split <;> rfl

theorem gauss_ignoresSeed {S : Sub α G (GaussAttrs α)} {eig : Eigvalsh α} {ty : CovType} (hS : IsGauss S eig ty) :
    S.IgnoresSeed := by
  intro rs e
  rw [hS.check]
  unfold gaussCheck
  show (match e.sub.means with | none => _ | some a => _) = _
  cases e.sub.means with
  | none => rfl
  | some a =>
    dsimp only
    cases a.shape[1]? <;> rfl

/-- **C39 (`sample`).** -/
theorem C39_sample (eig : Eigvalsh α) :
    SeededSample (catSub (α := α) (G := G)) R ∧ SeededSample (multiSub (α := α) (G := G)) R ∧
    SeededSample (poisSub (α := α) (G := G)) R ∧ SeededSample (gaussDiagSub (G := G) eig) R ∧
    SeededSample (gaussSphericalSub (G := G) eig) R ∧ SeededSample (gaussFullSub (G := G) eig) R ∧
    SeededSample (gaussTiedSub (G := G) eig) R :=
  ⟨seeded_of catSub_lawful catSub_ignoresSeed, seeded_of multiSub_lawful multiSub_ignoresSeed,
    seeded_of poisSub_lawful poisSub_ignoresSeed,
    seeded_of (gaussDiagSub_lawful eig) (gauss_ignoresSeed (gaussDiag_isGauss eig)),
    seeded_of (gaussSphericalSub_lawful eig) (gauss_ignoresSeed (gaussSpherical_isGauss eig)),
    seeded_of (gaussFullSub_lawful eig) (gauss_ignoresSeed (gaussFull_isGauss eig)),
    seeded_of (gaussTiedSub_lawful eig) (gauss_ignoresSeed (gaussTied_isGauss eig))⟩

/-- `sample` with a seed advances neither generator. -/
theorem C39_sample_state {S : Sub α G P} (hS : S.Lawful) (n : Int) (k : Nat) (c : Option Nat) (w : World α G P) :
    (S.sample R n (some k) c w).2.est.randomState = w.est.randomState ∧
    (S.sample R n (some k) c w).2.glob = w.glob := by
  rw [sample_seeded]
  refine ⟨?_, rfl⟩
  show (S.checkFitted w.est).2.randomState = _
  rw [hS.fitted_frame]

/-! ## The seed stored on the estimator -/

theorem loop_randomState (S : Sub α G P) (X : XArr α) (ls : Option (List Int)) (e : Est α G P) :
    (S.loop X ls e).2.randomState = e.randomState := by
  unfold Sub.loop Sub.loopFrom
  dsimp only
  repeat' split
  all_goals rfl

/-- After `_init`, `fit` no longer touches `random_state`. -/
theorem fit_randomState {S : Sub α G P} (hS : S.Frames R) {X : RawX α} {X' : XArr α}
    (hX : checkArray X = .ok X') (ls : Option (List Int)) (w : World α G P) :
    (S.fit R X ls w).2.est.randomState = (S.init R X' w).2.est.randomState := by
  have h : S.fit R X ls w = (S.init R X' >>= fun _ => onEst S.check >>= fun _ => onEst (S.loop X' ls)) w := by
    unfold Sub.fit
    rw [hX]
    exact Py.bind_ok rfl
  rw [h, Py.bind_apply]
  cases S.init R X' w with
  | mk r w1 =>
    cases r with
    | error err => rfl
    | ok u =>
      have h1 : (onEst S.check w1).2.est.randomState = w1.est.randomState := by
        show (S.check w1.est).2.randomState = _
        rw [hS.lawful.check_frame]
      dsimp only
      rw [Py.bind_apply]
      cases hc : onEst S.check w1 with
      | mk r w2 =>
        rw [hc] at h1
        cases r with
        | error err => exact h1
        | ok u => exact (loop_randomState S X' ls w2.est).trans h1

/-- The claim: an integer seed `k` is replaced by a generator object, which a later `fit` draws
from; it is the generator that `k` starts, advanced by the draws `adv` of the emission parameters
(a function of the data, the estimator before the call and `n_features`). -/
def Spec.ReplacesSeed (S : Sub α G P) (R : RandomLib α G) (adv : XArr α → Est α G P → Nat → G → G) : Prop :=
  ∀ (X : RawX α) (X' : XArr α) (ls : Option (List Int)) (w : World α G P) (k : Nat),
    checkArray X = .ok X' → (S.init R X' w).1 = .ok () → w.est.randomState = .seed k →
    let g' := adv X' w.est ((S.init R X' w).2.est.nFeatures.getD 0) (R.ofSeed k)
    selfGen R w = R.ofSeed k ∧ (S.fit R X ls w).2.est.randomState = .gen g' ∧
      selfGen R (S.fit R X ls w).2 = g'

theorem replaces_of {S : Sub α G P} (hS : S.Frames R) {adv : XArr α → Est α G P → Nat → G → G}
    (h : ∀ X w, ∃ f, (S.initSub R X w).2.est.randomState = storedGen R f w.est.randomState ∧
      (S.initSub R X w).2.est.nFeatures = w.est.nFeatures ∧
      ∀ w0 : World α G P, w.est.sub = (S.checkFeatures X w0.est).2.sub →
        w.est.initParams = w0.est.initParams → w.est.nComponents = w0.est.nComponents →
        f = adv X w0.est (w.est.nFeatures.getD 0)) : ReplacesSeed S R adv := by
  intro X X' ls w k hX hi hk
  obtain ⟨w1, h1, -, h3, h4, h5, ⟨err, hw⟩ | hw⟩ := init_cases hS X' w
  · rw [hw] at hi; cases hi
  · obtain ⟨f, hf, hn, ha⟩ := h X' w1
    have key : (S.fit R X ls w).2.est.randomState =
        .gen (adv X' w.est ((S.init R X' w).2.est.nFeatures.getD 0) (R.ofSeed k)) := by
      rw [fit_randomState hS hX, hw, hf, (h5 k hk).1, hn, ← ha w h1 h3 h4]
      rfl
    refine ⟨?_, key, ?_⟩
    · unfold selfGen; rw [hk]
    · unfold selfGen; rw [key]

open Classical in
/-- **C39 (`CategoricalHMM.fit`).** -/
theorem C39_categorical : ReplacesSeed catSub R (fun _ e nf g =>
    if Fresh e 'e' e.sub.emissionprob then (randRows R e.nComponents nf g).2 else g) := by
  refine replaces_of (catSub_frames R) fun X w => ?_
  obtain ⟨g, h⟩ := catInit_eq R X w
  refine ⟨fun g => if needsInit w.est.initParams 'e' w.est.sub.emissionprob.isSome then
    (randRows R w.est.nComponents (w.est.nFeatures.getD 0) g).2 else g,
    congrArg (fun p => p.2.est.randomState) h, congrArg (fun p => p.2.est.nFeatures) h, ?_⟩
  intro w0 h1 h2 h3
  have h1 : w.est.sub.emissionprob = w0.est.sub.emissionprob := by
    rw [h1]
    show (catCheckFeatures X w0.est).2.sub.emissionprob = _
    unfold catCheckFeatures
    repeat' split
    all_goals rfl
  funext g
  rw [← needsInit_iff, h1, h2, h3]
  congr

open Classical in
/-- **C39 (`MultinomialHMM.fit`).** -/
theorem C39_multinomial : ReplacesSeed multiSub R (fun _ e nf g =>
    if 'e' ∈ e.initParams then (randRows R e.nComponents nf g).2 else g) := by
  refine replaces_of (multiSub_frames R) fun X w => ?_
  obtain ⟨g, h⟩ := multiInit_eq R X w
  refine ⟨fun g => if 'e' ∈ w.est.initParams then
    (randRows R w.est.nComponents (w.est.nFeatures.getD 0) g).2 else g,
    congrArg (fun p => p.2.est.randomState) h, congrArg (fun p => p.2.est.nFeatures) h, ?_⟩
  intro w0 h1 h2 h3
  funext g
  rw [h2, h3]

open Classical in
/-- **C39 (`PoissonHMM.fit`).** -/
theorem C39_poisson : ReplacesSeed poisSub R (fun X e nf g =>
    if Fresh e 'l' e.sub.lambdas then (gammaRows R X e.nComponents nf g).2 else g) := by
  refine replaces_of (poisSub_frames R) fun X w => ?_
  obtain ⟨g, h⟩ := poisInit_eq R X w
  refine ⟨fun g => if needsInit w.est.initParams 'l' w.est.sub.lambdas.isSome then
    (gammaRows R X w.est.nComponents (w.est.nFeatures.getD 0) g).2 else g,
    congrArg (fun p => p.2.est.randomState) h, congrArg (fun p => p.2.est.nFeatures) h, ?_⟩
  intro w0 h1 h2 h3
  have h1 : w.est.sub.lambdas = w0.est.sub.lambdas := by
    rw [h1]
    show (checkFeaturesBase X w0.est).2.sub.lambdas = _
    unfold checkFeaturesBase
    repeat' split
    all_goals rfl
  funext g
  rw [← needsInit_iff, h1, h2, h3]
  congr

/-- A class whose own part of `_init` leaves a seed alone keeps it through any history of calls. -/
theorem keepsSeed_of {S : Sub α G P} (hL : S.Frames R) {k : Nat}
    (hi : ∀ X (w : World α G P), w.est.randomState = .seed k → (S.initSub R X w).2.est.randomState = .seed k)
    (as : List (Action α)) (w : World α G P) (hk : w.est.randomState = .seed k) :
    (afterActions S R as w).est.randomState = .seed k := by
  have hinit : ∀ X (w : World α G P), w.est.randomState = .seed k →
      (S.init R X w).2.est.randomState = .seed k := by
    intro X w hk
    obtain ⟨w1, -, -, -, -, h5, ⟨err, hw⟩ | hw⟩ := init_cases hL X w
    · rw [hw]; exact (h5 k hk).1
    · rw [hw]; exact hi X w1 (h5 k hk).1
  induction as generalizing w with
  | nil => exact hk
  | cons a as ih =>
    refine ih _ ?_
    cases a with
    | fit X ls =>
      show (S.fit R X ls w).2.est.randomState = _
      cases hX : checkArray X with
      | error err => rw [fit_noarray hX]; exact hk
      | ok X' => rw [fit_randomState hL hX]; exact hinit X' w hk
    | infer c =>
      obtain ⟨f, hf⟩ := call_eq S R c
      show (c.run S R w).2.est.randomState = _
      rw [hf]
      show (S.checkFitted w.est).2.randomState = _
      rw [hL.lawful.fitted_frame]
      exact hk
    | sample n c =>
      show (S.sample R n none c w).2.est.randomState = _
      simp only [Sub.sample, Sub.sampleBody, Py.bind_apply, onEst, Py.get_apply]
      have h1 : (S.checkFitted w.est).2.randomState = .seed k := by
        rw [hL.lawful.fitted_frame]; exact hk
      cases (S.checkFitted w.est).1 with
      | error err => exact h1
      | ok u =>
        simp only [withSelfGen, h1]
        generalize (S.sampleFrom R (S.checkFitted w.est).2 n c (R.ofSeed k)).1 = r
        cases r <;> exact h1

omit [FloatLike α] in
theorem keepsSeed_withSelfGen {β : Type} (k : Nat) (f : G → β × G) : Py.Keeps
    (fun w : World α G P => w.est.randomState = .seed k) (withSelfGen R f) := by
  intro w hw
  unfold withSelfGen
  rw [hw]
  exact hw

/-- **C39 (`GaussianHMM`).** For comparison: the seed stays, through any history of calls. -/
theorem C39_gaussian {S : Sub α G (GaussAttrs α)} {eig : Eigvalsh α} {ty : CovType} (hS : IsGauss S eig ty)
    (as : List (Action α)) (w : World α G (GaussAttrs α)) (k : Nat) (hk : w.est.randomState = .seed k) :
    (afterActions S R as w).est.randomState = .seed k := by
  refine keepsSeed_of (hS.frames R) (fun X w h => ?_) as w hk
  rw [hS.init]
  refine Py.Keeps.bind (I := fun w : World α G (GaussAttrs α) => w.est.randomState = .seed k) ?_ (fun _ => ?_) w h
  · refine Py.Keeps.bind Py.Keeps.get fun w => ?_
    dsimp only
    split
    · split
      · exact Py.Keeps.raise _
      · exact Py.Keeps.bind (keepsSeed_withSelfGen k _) fun _ => keeps_modify fun w h => h
    · exact Py.Keeps.pure _
  · refine Py.Keeps.bind Py.Keeps.get fun w => ?_
    dsimp only
    split
    · exact Py.Keeps.bind (Py.Keeps.lift _) fun _ => keeps_modify fun w h => h
    · exact Py.Keeps.pure _

/-! ## Two fits on one estimator -/

/-- With `s` in `init_params` and accepted data, `fit` draws `startprob_` from where
`self.random_state` stands. -/
theorem second_draw {S : Sub α G P} (hS : S.Frames R) (X : XArr α) (w : World α G P)
    (hX : (S.checkFeatures X w.est).1 = .ok ()) (hs : 's' ∈ w.est.initParams) (g : G) (hg : selfGen R w = g) :
    (S.init R X w).2.est.startprob =
      some (.d1 (R.dirichlet (fun _ : Fin w.est.nComponents => 1 / ofNat' w.est.nComponents) g).1) := by
  rw [← hg]
  exact (C25_draws hS X w hX).1 (.inl hs)

theorem init_frame {S : Sub α G P} (hS : S.Frames R) (X' : XArr α) (w : World α G P) :
    ∃ nf p rs s t g, (S.init R X' w).2 = ⟨{ w.est with
      nFeatures := nf, sub := p, randomState := rs, startprob := s, transmat := t }, g⟩ := by
  obtain ⟨nf, p, hf⟩ := hS.features X' w.est
  have hb : ∃ nf p rs s t g, (S.initBase R X' w).2 = ⟨{ w.est with
      nFeatures := nf, sub := p, randomState := rs, startprob := s, transmat := t }, g⟩ := by
    cases hc : S.checkFeatures X' w.est with
    | mk r e1 =>
      rw [hc] at hf
      have hf : e1 = _ := hf
      subst hf
      cases r with
      | error err =>
        have h1 : onEst (S.checkFeatures X') w =
            (.error err, { w with est := { w.est with nFeatures := nf, sub := p } }) := by simp [onEst, hc]
        have h2 : S.initBase R X' w = _ := Py.bind_error h1
        rw [h2]
        exact ⟨nf, p, w.est.randomState, w.est.startprob, w.est.transmat, w.glob, rfl⟩
      | ok u =>
        obtain ⟨rs, g, h, -⟩ := initBase_eq S R X' w _ hc
        rw [h]
        exact ⟨nf, p, rs, _, _, g, rfl⟩
  obtain ⟨nf, p, rs, s, t, g, hb⟩ := hb
  cases hbb : S.initBase R X' w with
  | mk r w1 =>
    rw [hbb] at hb
    replace hb : w1 = _ := hb
    cases r with
    | error err =>
      have h2 : S.init R X' w = _ := Py.bind_error hbb
      rw [h2]
      exact ⟨nf, p, rs, s, t, g, hb⟩
    | ok u =>
      have h2 : S.init R X' w = S.initSub R X' w1 := Py.bind_ok hbb
      obtain ⟨p', rs', g', h3⟩ := hS.init X' w1
      rw [h2, h3, hb]
      exact ⟨nf, p', rs', s, t, g', rfl⟩

/-- What `fit` may change. -/
theorem fit_frame {S : Sub α G P} (hS : S.Frames R) (X : RawX α) (ls : Option (List Int)) (w : World α G P) :
    ∃ nf p rs s t m g, (S.fit R X ls w).2 = ⟨{ w.est with
      nFeatures := nf, sub := p, randomState := rs, startprob := s, transmat := t, monitor := m }, g⟩ := by
  cases hX : checkArray X with
  | error err =>
    rw [fit_noarray hX]
    exact ⟨w.est.nFeatures, w.est.sub, w.est.randomState, w.est.startprob, w.est.transmat, w.est.monitor, w.glob, rfl⟩
  | ok X' =>
    have hi := init_frame hS X' w
    have hl : ∀ e : Est α G P, ∃ p s t m, (S.loop X' ls e).2 =
        { e with sub := p, startprob := s, transmat := t, monitor := m } := by
      intro e
      unfold Sub.loop Sub.loopFrom
      dsimp only
      repeat' split
      all_goals first
        | exact ⟨e.sub, e.startprob, e.transmat, e.monitor.reset, rfl⟩
        | exact ⟨_, _, _, _, rfl⟩
    obtain ⟨nf, p, rs, s, t, g, hi⟩ := hi
    have h : S.fit R X ls w = (S.init R X' >>= fun _ => onEst S.check >>= fun _ => onEst (S.loop X' ls)) w := by
      unfold Sub.fit
      rw [hX]
      exact Py.bind_ok rfl
    rw [h, Py.bind_apply]
    cases hii : S.init R X' w with
    | mk r w1 =>
      rw [hii] at hi
      replace hi : w1 = _ := hi
      cases r with
      | error err => exact ⟨nf, p, rs, s, t, w.est.monitor, g, hi⟩
      | ok u =>
        dsimp only
        rw [Py.bind_apply]
        have hc2 : (onEst S.check w1).2 = ⟨{ w1.est with
          nFeatures := (S.check w1.est).2.nFeatures, sub := (S.check w1.est).2.sub }, w1.glob⟩ :=
          congrArg (fun e => (⟨e, w1.glob⟩ : World α G P)) (hS.lawful.check_frame w1.est)
        cases hcc : onEst S.check w1 with
        | mk r w2 =>
          rw [hcc] at hc2
          replace hc2 : w2 = _ := hc2
          cases r with
          | error err => 
            rw [hi] at hc2
            exact ⟨_, _, rs, s, t, w.est.monitor, g, hc2⟩
          | ok u =>
            obtain ⟨p', s', t', m', h4⟩ := hl w2.est
            refine ⟨(S.check w1.est).2.nFeatures, p', rs, s', t', m', g, ?_⟩
            show (⟨(S.loop X' ls w2.est).2, w2.glob⟩ : World α G P) = _
            rw [h4, hc2, hi]

theorem fit_zero {S : Sub α G P} (hS : S.Frames R) {X : RawX α} {X' : XArr α} (hX : checkArray X = .ok X')
    (ls : Option (List Int)) (w : World α G P) (h0 : w.est.nIter = 0) :
    (S.fit R X ls w).2.est.startprob = (S.init R X' w).2.est.startprob := by
  have h : S.fit R X ls w = (S.init R X' >>= fun _ => onEst S.check >>= fun _ => onEst (S.loop X' ls)) w := by
    unfold Sub.fit
    rw [hX]
    exact Py.bind_ok rfl
  have h0 : (S.init R X' w).2.est.nIter = 0 := by
    obtain ⟨nf, p, rs, s, t, g, hi⟩ := init_frame hS X' w
    rw [hi]
    exact h0
  rw [h, Py.bind_apply]
  cases hi : S.init R X' w with
  | mk r w1 =>
    rw [hi] at h0
    cases r with
    | error err => rfl
    | ok u =>
      have h1 : (onEst S.check w1).2.est.startprob = w1.est.startprob ∧
          (onEst S.check w1).2.est.nIter = w1.est.nIter := by
        show (S.check w1.est).2.startprob = _ ∧ (S.check w1.est).2.nIter = _
        rw [hS.lawful.check_frame]
        exact ⟨rfl, rfl⟩
      dsimp only
      rw [Py.bind_apply]
      cases hc : onEst S.check w1 with
      | mk r w2 =>
        rw [hc] at h1
        cases r with
        | error err => exact h1.1
        | ok u =>
          have h2 : w2.est.nIter = 0 := h1.2.trans h0
          have h3 : (S.loop X' ls w2.est).2 = { w2.est with monitor := w2.est.monitor.reset } := by
            unfold Sub.loop Sub.loopFrom
            rw [if_pos h2]
          show (S.loop X' ls w2.est).2.startprob = _
          rw [h3]
          exact h1.1

namespace SeedingDemo

/-- A generator that counts its draws; a Dirichlet draw puts all mass on one state, the first state
only at the very beginning. -/
noncomputable def counter : RandomLib XF ℕ where
  ofSeed k := k
  rand g := (.fin (1/2), g + 1)
  dirichlet {n} _ g := (fun i => if i.val = min g (n - 1) then 1 else 0, g + 1)
  gamma _ _ g := (1, g + 1)
  poisson _ g := (0, g + 1)
  multinomial _ _ g := (fun _ => 0, g + 1)
  normal m _ g := (m, g + 1)
  kmeans _ _ _ g := (fun _ _ => 0, g + 1)

/-- `CategoricalHMM(n_components=2, random_state=0)`, to be fitted with `n_iter = 0`. -/
noncomputable def w : World XF ℕ (CatAttrs XF) where
  est := { nComponents := 2, startprobPrior := fun _ => 1, transmatPrior := fun _ _ => 1,
           algorithm := "viterbi", randomState := .seed 0, nIter := 0, tol := 0,
           params := ['s', 't', 'e'], initParams := ['s', 't', 'e'], implementation := "log",
           monitor := { tol := 0, nIter := 10 }, sub := { emissionprobPrior := fun _ _ => 1 } }
  glob := 0

theorem init_w (v : World XF ℕ (CatAttrs XF)) (hp : v.est.params = ['s', 't', 'e']) (hn : ∀ n, v.est.nFeatures = some n → n = 1) :
    (catSub.checkFeatures (.ints (d := 1) [fun _ => 0]) v.est).1 = .ok () ∧
    (catSub.init counter (.ints (d := 1) [fun _ => 0]) v).1 = .ok () ∧
    (catSub.init counter (.ints (d := 1) [fun _ => 0]) v).2.est.nFeatures = some 1 := by
  have hf : catSub.checkFeatures (.ints (d := 1) [fun _ => 0]) v.est = (.ok (), { v.est with nFeatures := some 1 }) := by
    show catCheckFeatures (α := XF) (.ints (d := 1) [fun _ => 0]) v.est = _
    have h1 : anyNeg [fun _ : Fin 1 => (0 : Int)] = false := by decide
    have h2 : maxNat [fun _ : Fin 1 => (0 : Int)] = 0 := by decide
    unfold catCheckFeatures
    simp only [h1, h2]
    cases hv : v.est.nFeatures with
    | none => rfl
    | some n =>
      obtain rfl := hn n hv
      simp only [Bool.false_eq_true, if_false]
      rw [if_neg (by decide), ← hv]
  have hb : (catSub.initBase counter (.ints (d := 1) [fun _ => 0]) v).1 = .ok () := by
    refine initBase_ok _ _ (by rw [hf]) ['s', 't', 'e'] (fun _ => rfl) ?_
    intro e1 he c hc
    rw [hf] at he
    obtain rfl : _ = e1 := (Prod.mk.inj he).2
    rwa [← hp]
  refine ⟨by rw [hf], ?_⟩
  obtain ⟨w1, h1, h2, h3, h4, h5, ⟨err, h⟩ | h⟩ := init_cases (catSub_frames counter) (.ints (d := 1) [fun _ => 0]) v
  · exfalso
    cases hbb : catSub.initBase counter (.ints (d := 1) [fun _ => 0]) v with
    | mk r w2 =>
      rw [hbb] at hb
      have hb : r = .ok () := hb
      subst hb
      have : catSub.init counter (.ints (d := 1) [fun _ => 0]) v = catInit counter (.ints (d := 1) [fun _ => 0]) w2 :=
        Py.bind_ok hbb
      obtain ⟨g, hg⟩ := catInit_eq counter (.ints (d := 1) [fun _ => 0]) w2
      rw [this, hg] at h
      cases (Prod.mk.inj h).1
  · obtain ⟨g, hg⟩ := catInit_eq counter (.ints (d := 1) [fun _ => 0]) w1
    have hg' : catSub.initSub counter (.ints (d := 1) [fun _ => 0]) w1 = _ := hg
    rw [h, hg']
    refine ⟨rfl, ?_⟩
    show w1.est.nFeatures = _
    rw [h2, hf]

theorem symbols_ok (v : World XF ℕ (CatAttrs XF)) (hn : ∀ n, v.est.nFeatures = some n → n = 1) :
    SymbolsOk v.est.nFeatures (.ints (d := 1) [fun _ => 0] : XArr XF) := by
  refine ⟨trivial, ?_, ?_⟩
  · rintro k ⟨r, hr, j, rfl⟩
    simp at hr
    simp [hr]
  · rintro n h k ⟨r, hr, j, rfl⟩
    simp at hr
    simp [hr, hn n h]

/-- **C39, witness.** The same `fit` call twice: the second starts from other values. -/
theorem C39_second_fit_differs :
    let w1 := (catSub.fit counter (column ![0]) none w).2
    let w2 := (catSub.fit counter (column ![0]) none w1).2
    w1.est.startprob = some (vec ![1, 0]) ∧ w2.est.startprob = some (vec ![0, 1]) := by
  intro w1 w2
  have hX : checkArray (column ![0] : RawX XF) = .ok (.ints (d := 1) [fun _ => 0]) := rfl
  obtain ⟨a1, a2, a3⟩ := init_w w rfl (by intro n h; cases h)
  obtain ⟨n, hn, h1, -, h2⟩ := C31_accept counter hX none w (symbols_ok w (by intro n h; cases h))
  obtain ⟨nf, p, rs, s, t, m, g, hw1⟩ := fit_frame (catSub_frames counter) (column ![0]) none w
  have hw1 : w1 = _ := hw1
  have hn : w1.est.nFeatures = some n := hn
  have hn1 : n = 1 := by
    obtain ⟨r, hr, j, hj⟩ := h2 rfl
    simp at hr
    rw [hr] at hj
    have hj : (0 : Int) = (n : Int) - 1 := hj
    omega
  have e1 : w1.est.params = ['s', 't', 'e'] := by rw [hw1]; rfl
  have e2 : w1.est.initParams = ['s', 't', 'e'] := by rw [hw1]; rfl
  have e3 : w1.est.nIter = 0 := by rw [hw1]; rfl
  have e4 : w1.est.nComponents = 2 := by rw [hw1]; rfl
  obtain ⟨b1, b2, b3⟩ := init_w w1 e1 (by intro k h; rw [hn] at h; cases h; exact hn1)
  have hgen : selfGen counter w1 = 2 := by
    have := (C39_categorical (R := counter) (column ![0]) _ none w 0 hX a2 rfl).2.2
    show selfGen counter (catSub.fit counter (column ![0]) none w).2 = 2
    rw [this, a3]
    exact (if_pos (.inl (by decide))).trans rfl
  constructor
  · show (catSub.fit counter (column ![0]) none w).2.est.startprob = _
    rw [fit_zero (catSub_frames counter) hX none w rfl,
      second_draw (catSub_frames counter) _ w a1 (by decide) 0 rfl]
    show some (NdArray.d1 _) = some (NdArray.d1 _)
    congr 2
    funext i
    fin_cases i <;> simp [counter, w, XF.one_def, XF.zero_def]
  · show (catSub.fit counter (column ![0]) none w1).2.est.startprob = _
    rw [fit_zero (catSub_frames counter) hX none w1 e3,
      second_draw (catSub_frames counter) _ w1 b1 (by rw [e2]; decide) 2 hgen, e4]
    show some (NdArray.d1 _) = some (NdArray.d1 _)
    congr 2
    funext i
    fin_cases i <;> simp [counter, XF.one_def, XF.zero_def]

end SeedingDemo
end Verif
