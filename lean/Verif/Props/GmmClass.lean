import Verif.Proofs.GmmEstimator
import Verif.Props.IterCap
import Verif.Props.Criteria

/-!
# `GMMHMM` as an estimator: C24, C25, C34, C39, C51, C59, C69

Everything is stated for any `GmmType`; `gmmSpherical`, `gmmDiag`, `gmmFull` and `gmmTied` are the
four covariance types.
-/

set_option autoImplicit false

namespace Verif
open FloatLike Spec

variable {α G : Type} [FloatLike α] {nm : Nat} [NeZero nm] {R : RandomLib α G} (T : GmmType α nm)

/-- **C59 (`GMMHMM`).** -/
theorem C59_gmm : InferenceIsPure (gmmSub (G := G) T) ∧ InferenceKeepsBase (gmmSub (G := G) T) :=
  ⟨pure_of_lawful (gmmSub_lawful T), keepsBase_of_lawful (gmmSub_lawful T)⟩

/-- **C24 (`GMMHMM`).** -/
theorem C24_gmm : FixedAtConstruction (gmmSub (G := G) T) R := fixedAtConstruction (gmmSub_oblivious T R)

/-- **C34 (`GMMHMM`).** The number of columns is remembered, even if `means_` was set to an array
of another width beforehand (unlike for `GaussianHMM`). -/
theorem C34_gmm {X : RawX α} {X' : XArr α} (hX : checkArray X = .ok X') (ls : Option (List Int))
    (w : World α G (GmmAttrs α)) (h : ∀ n, w.est.nFeatures = some n → X'.d = n) :
    Sticky (gmmSub T) R X'.d (fun Y => Y.d = X'.d) ((gmmSub T).fit R X ls w).2 := by
  rcases checkFeaturesBase_eq X' w.est with ⟨n, hn, hd, _⟩ | ⟨_, hb⟩
  · exact absurd (h n hn) hd
  · exact sticky_of (gmmSub_inv T R X'.d) (fun e he => he) (fun e Y Y' hY he hno => base_reject he hno) _
      (fit_after (gmmSub_inv T R X'.d) hX hb rfl rfl)

/-- **C39 (`GMMHMM.sample`).** -/
theorem C39_gmm_sample : SeededSample (gmmSub (G := G) T) R :=
  seeded_of (gmmSub_lawful T) (gmmSub_ignoresSeed T)

/-- **C39 (`GMMHMM`).** The seed stays, through any history of calls. -/
theorem C39_gmm (as : List (Action α)) (w : World α G (GmmAttrs α)) (k : Nat) (hk : w.est.randomState = .seed k) :
    (afterActions (gmmSub T) R as w).est.randomState = .seed k := by
  refine keepsSeed_of (gmmSub_frames T R) (fun X w h => ?_) as w hk
  show (gmmInit T R X w).2.est.randomState = _
  revert h
  revert w
  show Py.Keeps (fun w : World α G (GmmAttrs α) => w.est.randomState = .seed k) _
  refine Py.Keeps.bind Py.Keeps.get fun w => ?_
  refine Py.Keeps.bind (fun w' hw => hw) fun _ => ?_
  split
  · exact Py.Keeps.raise _
  · refine Py.Keeps.bind (keepsSeed_withSelfGen k _) fun cs => ?_
    refine Py.Keeps.bind (Py.Keeps.seqMany (fun l => ?_) _) fun m => fun w' hw => hw
    unfold gmmClusterMeans
    dsimp only
    split
    · exact keepsSeed_withSelfGen k _
    · exact fun w' hw => hw

/-! ## The initial values -/

namespace Spec

/-- The initial means of the mixture of state `i`: the centres found by k-means among the samples
nearest to the state's centre (`gs` is where `self.random_state` stands), or, if they are fewer
than `n_mix`, normal variables around the mean of all centres (`gg` is where `np.random` stands). -/
def gmmBlock (R : RandomLib α G) (nm : Nat) (minCovar : α) {d nc : Nat} (rows : List (Fin d → α))
    (centres : Fin nc → Fin d → α) (gs gg : G) (i : Nat) : Fin nm → Fin d → α :=
  let mine := rows.filter fun x => nearest centres x == i
  if mine.length < nm then
    (drawMany (R.normal (fun k => meanL ((List.finRange nc).map fun j => centres j k))
      (initCov minCovar rows)) nm gg).1
  else (R.kmeans nm mine gs).1

/-- Where `np.random` stands when the mixture of state `i` is reached. -/
def gmmGlob (R : RandomLib α G) (nm : Nat) (minCovar : α) {d nc : Nat} (rows : List (Fin d → α))
    (centres : Fin nc → Fin d → α) (g : G) : Nat → G
  | 0 => g
  | i + 1 =>
    let mine := rows.filter fun x => nearest centres x == i
    if mine.length < nm then
      (drawMany (R.normal (fun k => meanL ((List.finRange nc).map fun j => centres j k))
        (initCov minCovar rows)) nm (gmmGlob R nm minCovar rows centres g i)).2
    else gmmGlob R nm minCovar rows centres g i

end Spec

omit [FloatLike α] [NeZero nm] in
theorem seqMany_eq {σ β : Type} {f : Nat → Py σ β} {v : Nat → σ → β} {nxt : Nat → σ → σ}
    (h : ∀ i s, f i s = (.ok (v i s), nxt i s)) (n : Nat) (s : σ) :
    ∃ st : Nat → σ, st 0 = s ∧ (∀ i, st (i + 1) = nxt i (st i)) ∧
      seqMany f n s = (.ok fun i => v i (st i), st n) := by
  refine ⟨fun n => Nat.rec s (fun i s => nxt i s) n, rfl, fun i => rfl, ?_⟩
  induction n with
  | zero =>
    show (Except.ok Fin.elim0, s) = _
    congr 2
    funext i
    exact i.elim0
  | succ n ih =>
    unfold seqMany
    rw [Py.bind_ok ih, Py.bind_ok (h n _), Py.pure_apply]
    congr 2
    funext i
    refine Fin.lastCases ?_ (fun j => ?_) i
    · rw [Fin.snoc_last]; rfl
    · rw [Fin.snoc_castSucc]; rfl

omit [FloatLike α] in
/-- The state `withSelfGen` leaves. -/
theorem withSelfGen_val {P β : Type} (R : RandomLib α G) (f : G → β × G) (w : World α G P) :
    withSelfGen R f w = (.ok (f (selfGen R w)).1, (withSelfGen R f w).2) := by
  obtain ⟨rs, g, h, -⟩ := withSelfGen_eq R f w
  rw [h]

omit [FloatLike α] in
theorem withSelfGen_seed {P β : Type} (R : RandomLib α G) (f : G → β × G) (w : World α G P) (k : Nat)
    (hk : w.est.randomState = .seed k) : (withSelfGen R f w).2 = w := by
  unfold withSelfGen
  rw [hk]

omit [NeZero nm] in
theorem clusterMeans_eq (mc : α) {d nc : Nat} (rows : List (Fin d → α)) (cs : Fin nc → Fin d → α) (i : Nat)
    (w : World α G (GmmAttrs α)) :
    gmmClusterMeans R nm mc rows cs i w =
      (.ok (gmmBlock R nm mc rows cs (selfGen R w) w.glob i), (gmmClusterMeans R nm mc rows cs i w).2) := by
  unfold gmmClusterMeans gmmBlock
  dsimp only
  split
  · next h => rw [if_neg (by omega)]; exact withSelfGen_val R _ w
  · next h => rw [if_pos (by omega)]; rfl

omit [NeZero nm] in
theorem clusterMeans_frame (mc : α) {d nc : Nat} (rows : List (Fin d → α)) (cs : Fin nc → Fin d → α) (i : Nat)
    (w : World α G (GmmAttrs α)) :
    ∃ rs g, (gmmClusterMeans R nm mc rows cs i w).2 = ⟨{ w.est with randomState := rs }, g⟩ := by
  unfold gmmClusterMeans
  dsimp only
  split
  · obtain ⟨rs, g, h, -⟩ := withSelfGen_eq R (R.kmeans nm (rows.filter fun x => nearest cs x == i)) w
    exact ⟨rs, g, by rw [h]⟩
  · exact ⟨w.est.randomState, _, rfl⟩

omit [NeZero nm] in
/-- `_init` of `GMMHMM`: it raises after broadcasting the hyper-parameters, or it leaves the state
below. -/
theorem gmmInit_cases (X : XArr α) (w : World α G (GmmAttrs α)) :
    (∃ err, ((gmmPriors T w.est.nComponents (w.est.nFeatures.getD 0) w.est.sub).1 = .error err ∨
      X.n < w.est.nComponents) ∧ gmmInit T R X w = (.error err, ⟨{ w.est with
      sub := (gmmPriors T w.est.nComponents (w.est.nFeatures.getD 0) w.est.sub).2 }, w.glob⟩)) ∨
    ∃ (gs gg : Nat → G) (rs : RandomState G) (g : G),
      let cs := (R.kmeans w.est.nComponents X.floatRows (selfGen R w)).1
      gmmInit T R X w = (.ok (), ⟨{ w.est with
        randomState := rs
        sub := gmmSet T X (fun i : Fin w.est.nComponents =>
            gmmBlock R nm w.est.sub.minCovar X.floatRows cs (gs i) (gg i) i) w.est.initParams
          (gmmPriors T w.est.nComponents (w.est.nFeatures.getD 0) w.est.sub).2 }, g⟩) ∧
      w.est.nComponents ≤ X.n ∧
      ∀ k, w.est.randomState = .seed k → (∀ i, gs i = R.ofSeed k) ∧
        (∀ i, gg i = gmmGlob R nm w.est.sub.minCovar X.floatRows cs w.glob i) ∧
        g = gmmGlob R nm w.est.sub.minCovar X.floatRows cs w.glob w.est.nComponents := by
  cases hp : gmmPriors T w.est.nComponents (w.est.nFeatures.getD 0) w.est.sub with
  | mk r p =>
    cases r with
    | error err =>
      left
      refine ⟨err, .inl rfl, ?_⟩
      unfold gmmInit
      refine (Py.bind_ok (Py.get_apply w)).trans (Py.bind_error ?_)
      simp [onEst, onSub, hp]
    | ok u =>
      have h1 : onEst (onSub (gmmPriors T w.est.nComponents (w.est.nFeatures.getD 0))) w =
          (.ok (), (⟨{ w.est with sub := p }, w.glob⟩ : World α G (GmmAttrs α))) := by
        simp [onEst, onSub, hp]
      by_cases hn : X.n < w.est.nComponents
      · left
        refine ⟨.valueError "n_samples should be >= n_clusters", .inr hn, ?_⟩
        unfold gmmInit
        refine (Py.bind_ok (Py.get_apply w)).trans ((Py.bind_ok h1).trans ?_)
        rw [if_pos hn]
        rfl
      · right
        let w1 : World α G (GmmAttrs α) := ⟨{ w.est with sub := p }, w.glob⟩
        have hsg : selfGen R w1 = selfGen R w := rfl
        let w2 := (withSelfGen R (R.kmeans w.est.nComponents X.floatRows) w1).2
        have h2 := withSelfGen_val R (R.kmeans w.est.nComponents X.floatRows) w1
        rw [hsg] at h2
        obtain ⟨rs2, g2, hw2, -⟩ := withSelfGen_eq R (R.kmeans w.est.nComponents X.floatRows) w1
        have hw2 : w2 = ⟨{ w1.est with randomState := rs2 }, g2⟩ := congrArg Prod.snd hw2
        let cs := (R.kmeans w.est.nComponents X.floatRows (selfGen R w)).1
        obtain ⟨st, hst0, hst, hseq⟩ := seqMany_eq
          (f := gmmClusterMeans R nm w.est.sub.minCovar X.floatRows cs)
          (clusterMeans_eq w.est.sub.minCovar X.floatRows cs) w.est.nComponents w2
        have hfr : ∀ i, ∃ rs g, st i = ⟨{ w.est with sub := p, randomState := rs }, g⟩ := by
          intro i
          induction i with
          | zero => exact ⟨rs2, g2, by rw [hst0, hw2]⟩
          | succ i ih =>
            obtain ⟨rs, g, hi⟩ := ih
            obtain ⟨rs', g', h⟩ := clusterMeans_frame (R := R) (nm := nm) w.est.sub.minCovar X.floatRows cs i (st i)
            exact ⟨rs', g', by rw [hst, h, hi]⟩
        obtain ⟨rs, g, hend⟩ := hfr w.est.nComponents
        refine ⟨fun i => selfGen R (st i), fun i => (st i).glob, rs, g, ?_, Nat.le_of_not_lt hn, ?_⟩
        · unfold gmmInit
          refine (Py.bind_ok (Py.get_apply w)).trans ((Py.bind_ok h1).trans ?_)
          rw [if_neg hn]
          refine (Py.bind_ok h2).trans ((Py.bind_ok hseq).trans ?_)
          rw [hend]
          rfl
        · intro k hk
          have hw2' : w2 = w1 := withSelfGen_seed R _ w1 k hk
          have hseed : ∀ i, st i = ⟨w1.est, gmmGlob R nm w.est.sub.minCovar X.floatRows cs w.glob i⟩ := by
            intro i
            induction i with
            | zero => rw [hst0, hw2']; rfl
            | succ i ih =>
              rw [hst, ih]
              unfold gmmClusterMeans
              conv_rhs => unfold gmmGlob
              dsimp only
              split
              · next h => rw [if_neg (by omega)]; exact withSelfGen_seed R _ _ k hk
              · next h => rw [if_pos (by omega)]; rfl
          refine ⟨fun i => ?_, fun i => ?_, ?_⟩
          · show selfGen R (st i) = _
            rw [hseed]
            show (match w.est.randomState with | .none | .global => _ | .seed n => R.ofSeed n | .gen g => g) = _
            rw [hk]
          · show (st i).glob = _
            rw [hseed]
          · have := hseed w.est.nComponents
            rw [hend] at this
            exact congrArg World.glob this

theorem gmm_features_sub (X : XArr α) (e : Est α G (GmmAttrs α)) :
    ((gmmSub T).checkFeatures X e).2.sub = e.sub := by
  show (checkFeaturesBase X e).2.sub = _
  unfold checkFeaturesBase
  repeat' split
  all_goals rfl

/-- Equal weights for every state. -/
def Spec.equalWeights (α : Type) [FloatLike α] (nc nm : Nat) : Tensor α :=
  .of2 (m := nc) (n := nm) fun _ _ => 1 / ofNat' nm

/-- **C25 (`GMMHMM.weights_`)**, code `w`: equal weights. -/
theorem C25_gmm_weights : Gated (gmmSub T) R 'w' (fun e => e.sub.weights)
    (fun _ e _ => equalWeights α e.nComponents nm) := by
  refine gated_of (gmmSub_frames T R) 'w' GmmAttrs.weights _
    (fun X e => congrArg GmmAttrs.weights (gmm_features_sub T X e)) (fun X w hn => ?_) fun X w hn hok => ?_
  · have hb : needsInit w.est.initParams 'w' w.est.sub.weights.isSome = false := by
      rw [← Bool.not_eq_true, needsInit_iff]; exact hn
    show GmmAttrs.weights (gmmInit T R X w).2.est.sub = _
    have hp := (gmmPriors_means T w.est.nComponents (w.est.nFeatures.getD 0) w.est.sub).2.1
    rcases gmmInit_cases (R := R) T X w with ⟨err, -, h⟩ | ⟨gs, gg, rs, g, h, -⟩
    · rw [h]; exact hp
    · rw [h]
      show (if needsInit _ 'w' _ then _ else _) = _
      rw [hp, hb]
      rfl
  · have hb := (needsInit_iff w.est 'w' w.est.sub.weights).2 hn
    refine ⟨selfGen R w, ?_⟩
    have hok : (gmmInit T R X w).1 = .ok () := hok
    show GmmAttrs.weights (gmmInit T R X w).2.est.sub = some (equalWeights α (gmmInit T R X w).2.est.nComponents nm)
    have hp := (gmmPriors_means T w.est.nComponents (w.est.nFeatures.getD 0) w.est.sub).2.1
    rcases gmmInit_cases (R := R) T X w with ⟨err, -, h⟩ | ⟨gs, gg, rs, g, h, -⟩
    · rw [h] at hok; cases hok
    · rw [h]
      show (if needsInit _ 'w' _ then _ else _) = _
      rw [hp, hb]
      rfl

/-- **C25 (`GMMHMM.covars_`)**, code `c`: every mixture component gets the covariance matrix of the
whole data (`C25_gmm_template` says in which form). -/
theorem C25_gmm_covars : Gated (gmmSub T) R 'c' (fun e => e.sub.covars)
    (fun X e _ => T.init e.nComponents (initCov e.sub.minCovar X.floatRows)) := by
  refine gated_of (gmmSub_frames T R) 'c' GmmAttrs.covars _
    (fun X e => congrArg GmmAttrs.covars (gmm_features_sub T X e)) (fun X w hn => ?_) fun X w hn hok => ?_
  · have hb : needsInit w.est.initParams 'c' w.est.sub.covars.isSome = false := by
      rw [← Bool.not_eq_true, needsInit_iff]; exact hn
    show GmmAttrs.covars (gmmInit T R X w).2.est.sub = _
    have hp := (gmmPriors_means T w.est.nComponents (w.est.nFeatures.getD 0) w.est.sub).2.2.1
    rcases gmmInit_cases (R := R) T X w with ⟨err, -, h⟩ | ⟨gs, gg, rs, g, h, -⟩
    · rw [h]; exact hp
    · rw [h]
      show (if needsInit _ 'c' _ then _ else _) = _
      rw [hp, hb]
      rfl
  · have hb := (needsInit_iff w.est 'c' w.est.sub.covars).2 hn
    refine ⟨selfGen R w, ?_⟩
    have hok : (gmmInit T R X w).1 = .ok () := hok
    show GmmAttrs.covars (gmmInit T R X w).2.est.sub = some (T.init (gmmInit T R X w).2.est.nComponents
      (initCov (gmmInit T R X w).2.est.sub.minCovar X.floatRows))
    have hp := (gmmPriors_means T w.est.nComponents (w.est.nFeatures.getD 0) w.est.sub).2.2.1
    rcases gmmInit_cases (R := R) T X w with ⟨err, -, h⟩ | ⟨gs, gg, rs, g, h, -⟩
    · rw [h] at hok; cases hok
    · rw [h]
      show (if needsInit _ 'c' _ then _ else _) = _
      rw [hp, hb]
      rfl

/-- **C25 (`GMMHMM.means_`)**, code `m`: kept, or for each state the centres found by k-means in the
state's cluster, or normal draws where the cluster is too small; `gs i`, `gg i` are where the two
generators stand. -/
theorem C25_gmm_means (X : XArr α) (w : World α G (GmmAttrs α)) :
    (¬ Fresh w.est 'm' w.est.sub.means → ((gmmSub T).init R X w).2.est.sub.means = w.est.sub.means) ∧
    (Fresh w.est 'm' w.est.sub.means → ((gmmSub T).init R X w).1 = .ok () →
      w.est.nComponents ≤ X.n ∧ ∃ (g : G) (gs gg : Nat → G), ((gmmSub T).init R X w).2.est.sub.means =
        some (.of3 fun i : Fin w.est.nComponents => gmmBlock R nm w.est.sub.minCovar X.floatRows
          (R.kmeans w.est.nComponents X.floatRows g).1 (gs i) (gg i) i)) := by
  obtain ⟨w1, h1, h2, h3, h4, -, h⟩ := init_cases (gmmSub_frames T R) X w
  have h1 : w1.est.sub = w.est.sub := h1.trans (gmm_features_sub T X w.est)
  have hfr : Fresh w1.est 'm' w1.est.sub.means ↔ Fresh w.est 'm' w.est.sub.means := by
    unfold Fresh; rw [h1, h3]
  have hp := (gmmPriors_means T w1.est.nComponents (w1.est.nFeatures.getD 0) w1.est.sub).1
  constructor
  · intro hn
    rw [← hfr] at hn
    have hb : needsInit w1.est.initParams 'm' w1.est.sub.means.isSome = false := by
      rw [← Bool.not_eq_true, needsInit_iff]; exact hn
    rcases h with ⟨err, h⟩ | h
    · rw [h, ← h1]
    · rw [h, ← h1]
      show (gmmInit T R X w1).2.est.sub.means = _
      rcases gmmInit_cases (R := R) T X w1 with ⟨err, -, h⟩ | ⟨gs, gg, rs, g, h, -⟩
      · rw [h]; exact hp
      · rw [h]
        show (if needsInit _ 'm' _ then _ else _) = _
        rw [hp, hb]
        rfl
  · intro hn hok
    rw [← hfr] at hn
    have hb := (needsInit_iff w1.est 'm' w1.est.sub.means).2 hn
    rcases h with ⟨err, h⟩ | h
    · rw [h] at hok; cases hok
    · rw [h] at hok ⊢
      have hok : (gmmInit T R X w1).1 = .ok () := hok
      show _ ∧ ∃ (g : G) (gs gg : Nat → G), (gmmInit T R X w1).2.est.sub.means = _
      rw [← h4, ← h1]
      rcases gmmInit_cases (R := R) T X w1 with ⟨err, -, h⟩ | ⟨gs, gg, rs, g, h, hle, -⟩
      · rw [h] at hok; cases hok
      · rw [h]
        refine ⟨hle, selfGen R w1, gs, gg, ?_⟩
        show (if needsInit _ 'm' _ then _ else _) = _
        rw [hp, hb]
        rfl

/-- **C25 (`GMMHMM`).** The codes, for `C25_key_error`. -/
theorem C25_gmm_codes (e : Est α G (GmmAttrs α)) : ((gmmSub T).nFit e).map Prod.fst = ['s', 't', 'm', 'c', 'w'] := rfl

/-! ## C69: seeds and `np.random` -/

/-- **C69.** With an integer `random_state`, the initial `means_`, in full: the clusters, and the
blocks of clusters with at least `n_mix` samples, come from the seed; a smaller cluster draws from
`np.random`, which is advanced. -/
theorem C69_means (X : XArr α) (w : World α G (GmmAttrs α)) (k : Nat) (hk : w.est.randomState = .seed k)
    (hok : ((gmmSub T).init R X w).1 = .ok ()) :
    let cs := (R.kmeans w.est.nComponents X.floatRows (R.ofSeed k)).1
    let glob := gmmGlob R nm w.est.sub.minCovar X.floatRows cs w.glob
    (Fresh w.est 'm' w.est.sub.means → ((gmmSub T).init R X w).2.est.sub.means =
      some (.of3 fun i : Fin w.est.nComponents =>
        gmmBlock R nm w.est.sub.minCovar X.floatRows cs (R.ofSeed k) (glob i) i)) ∧
    ((gmmSub T).init R X w).2.glob = glob w.est.nComponents := by
  obtain ⟨w1, h1, h2, h3, h4, h5, ⟨err, h⟩ | h⟩ := init_cases (gmmSub_frames T R) X w
  · rw [h] at hok; cases hok
  have h1 : w1.est.sub = w.est.sub := h1.trans (gmm_features_sub T X w.est)
  obtain ⟨h5, h6⟩ := h5 k hk
  rw [h] at hok ⊢
  have hok : (gmmInit T R X w1).1 = .ok () := hok
  have hsg : selfGen R w1 = R.ofSeed k := by unfold selfGen; rw [h5]
  have hp := (gmmPriors_means T w1.est.nComponents (w1.est.nFeatures.getD 0) w1.est.sub).1
  rcases gmmInit_cases (R := R) T X w1 with ⟨err, -, h⟩ | ⟨gs, gg, rs, g, h, hle, hs⟩
  · rw [h] at hok; cases hok
  · obtain ⟨a, b, c⟩ := hs k h5
    rw [hsg] at h b c
    have ha : gs = fun _ => R.ofSeed k := funext a
    have hb : gg = _ := funext b
    subst ha hb
    rw [← h6, ← h1]
    rw [← h4]
    intro cs glob
    show (_ → (gmmInit T R X w1).2.est.sub.means = _) ∧ (gmmInit T R X w1).2.glob = _
    rw [h]
    refine ⟨fun hn => ?_, c⟩
    have hn : Fresh w1.est 'm' w1.est.sub.means := by
      unfold Fresh at hn ⊢; rwa [h3]
    have hb := (needsInit_iff w1.est 'm' w1.est.sub.means).2 hn
    show (if needsInit _ 'm' _ then _ else _) = _
    rw [hp, hb]
    rfl

omit [NeZero nm] in
theorem gmmGlob_const (mc : α) {d nc : Nat} (rows : List (Fin d → α)) (cs : Fin nc → Fin d → α) (g : G) (n : Nat)
    (h : ∀ i < n, nm ≤ (rows.filter fun x => nearest cs x == i).length) : gmmGlob R nm mc rows cs g n = g := by
  induction n with
  | zero => rfl
  | succ n ih =>
    have := h n (Nat.lt_succ_self n)
    unfold gmmGlob
    dsimp only
    rw [if_neg (by omega)]
    exact ih fun i hi => h i (by omega)

/-- **C69.** So a seeded `_init` is reproducible when every cluster has at least `n_mix` samples: two
processes whose `np.random` differ get the same `means_`, and `np.random` is not advanced. -/
theorem C69_reproducible (X : XArr α) (w w' : World α G (GmmAttrs α)) (k : Nat) (hw : w'.est = w.est)
    (hk : w.est.randomState = .seed k)
    (hbig : ∀ i < w.est.nComponents, nm ≤ (X.floatRows.filter fun x =>
      nearest (R.kmeans w.est.nComponents X.floatRows (R.ofSeed k)).1 x == i).length)
    (hok : ((gmmSub T).init R X w).1 = .ok ()) (hok' : ((gmmSub T).init R X w').1 = .ok ()) :
    ((gmmSub T).init R X w').2.est.sub.means = ((gmmSub T).init R X w).2.est.sub.means ∧
    ((gmmSub T).init R X w).2.glob = w.glob := by
  obtain ⟨a, b⟩ := C69_means T X w k hk hok
  obtain ⟨a', b'⟩ := C69_means T X w' k (by rw [hw]; exact hk) hok'
  refine ⟨?_, b.trans (gmmGlob_const _ _ _ _ _ hbig)⟩
  by_cases hn : Fresh w.est 'm' w.est.sub.means
  · have hn' : Fresh w'.est 'm' w'.est.sub.means := by rw [hw]; exact hn
    rw [a hn, a' hn']
    rw [hw]
    congr 2
    funext i
    unfold gmmBlock
    dsimp only
    rw [if_neg (by have := hbig i i.2; omega), if_neg (by have := hbig i i.2; omega)]
  · have hn' : ¬ Fresh w'.est 'm' w'.est.sub.means := by rw [hw]; exact hn
    rw [(C25_gmm_means T X w).1 hn, (C25_gmm_means T X w').1 hn', hw]

/-! ## The template covariance -/

/-- The matrix of component `k` of state `i` as initialised from the template covariance `cv`. -/
def Spec.startCov (T : GmmType α nm) (nc : Nat) {d : Nat} (cv : Fin d → Fin d → α) (i : Fin nc) (k : Fin nm) :
    Fin d → Fin d → α := T.cov (T.read nc d (T.init nc cv)) i k

omit [NeZero nm] in
/-- **C25 (`GMMHMM.covars_`).** The matrix every component of every state starts from, for the
template covariance `cv` of the data: `cv` itself for "full" and "tied", its diagonal for "diag", and
for "spherical" the identity times the mean of *all* entries of `cv`, off-diagonal ones included. -/
theorem C25_gmm_template (eig : Eigvalsh α) (nc d : Nat) (cv : Fin d → Fin d → α) (i : Fin nc) (k : Fin nm)
    (a b : Fin d) :
    startCov (gmmFull eig) nc cv i k a b = cv a b ∧
    startCov (gmmTied eig) nc cv i k a b = cv a b ∧
    startCov gmmDiag nc cv i k a b = (if a = b then cv a a else 0) ∧
    startCov gmmSpherical nc cv i k a b = (if a = b then 1 else 0) *
      (sumL ((List.finRange d).flatMap fun k => (List.finRange d).map fun l => cv k l) / ofNat' (d * d)) := by
  refine ⟨?_, ?_, ?_, ?_⟩
  · show (if h : ((i : Nat) < nc ∧ (k : Nat) < nm) ∧ (a : Nat) < d ∧ (b : Nat) < d then _ else _) = _
    rw [dif_pos ⟨⟨i.2, k.2⟩, a.2, b.2⟩]
  · show (if h : (i : Nat) < nc ∧ (a : Nat) < d ∧ (b : Nat) < d then _ else _) = _
    rw [dif_pos ⟨i.2, a.2, b.2⟩]
  · show (if a = b then (if h : (i : Nat) < nc ∧ (k : Nat) < nm ∧ (a : Nat) < d then _ else _) else 0) = _
    rw [dif_pos ⟨i.2, k.2, a.2⟩]
  · show (if a = b then 1 else 0) * (if h : (i : Nat) < nc ∧ (k : Nat) < nm then meanL _ else 0) = _
    rw [dif_pos ⟨i.2, k.2⟩]
    unfold meanL
    rw [List.flatMap_def]
    congr 2
    simp [Function.comp_def]

/-! ## When `_init` succeeds -/

/-- Hyper-parameters given as numbers always broadcast. -/
theorem gmmPriors_scalar (nc nf : Nat) (p : GmmAttrs α) (h1 : p.weightsPrior.shape = [])
    (h2 : p.meansPrior.shape = []) (h3 : p.meansWeight.shape = []) (h4 : p.covarsPrior = none)
    (h5 : p.covarsWeight = none) : (gmmPriors T nc nf p).1 = .ok () := by
  have key : ∀ (t : Tensor α) s, t.shape = [] → ∃ t', t.broadcastTo s = .ok t' := by
    intro t s h
    unfold Tensor.broadcastTo
    rw [h]
    split
    · exact ⟨t, rfl⟩
    · exact ⟨_, rfl⟩
  obtain ⟨mc, wp, mp, mw, cp, cw, w, m, c⟩ := p
  subst h4 h5
  obtain ⟨t1, e1⟩ := key wp [nc, nm] h1
  obtain ⟨t2, e2⟩ := key mp [nc, nm, nf] h2
  obtain ⟨t3, e3⟩ := key mw [nc, nm] h3
  obtain ⟨t4, e4⟩ := key (.scalar (T.prior nf)) (T.priorShape nc nf) rfl
  obtain ⟨t5, e5⟩ := key (.scalar (T.weight nf)) (T.weightShape nc nf) rfl
  simp [gmmPriors, gmmFixPriors, gmmInitPriors, fixOne, Py.bind_apply, e1, e2, e3, e4, e5]

/-- `_init` succeeds with data of the right width, known codes, hyper-parameters that broadcast, and
at least `n_components` samples. -/
theorem gmm_init_ok (X : XArr α) (w : World α G (GmmAttrs α)) (hX : ((gmmSub T).checkFeatures X w.est).1 = .ok ())
    (hp : ∀ c ∈ w.est.params, c ∈ ['s', 't', 'm', 'c', 'w']) (hn : w.est.nComponents ≤ X.n)
    (hb : ∀ nf, (gmmPriors T w.est.nComponents nf w.est.sub).1 = .ok ()) :
    ((gmmSub T).init R X w).1 = .ok () := by
  obtain ⟨w1, h1, h2, h3, h4, -, h⟩ := init_cases (gmmSub_frames T R) X w
  have h1 : w1.est.sub = w.est.sub := h1.trans (gmm_features_sub T X w.est)
  have hB : ((gmmSub T).initBase R X w).1 = .ok () := by
    refine initBase_ok X w hX _ (C25_gmm_codes T) fun e1 he c hc => hp c ?_
    obtain ⟨nf, p, hf⟩ := (gmmSub_frames T R).features X w.est
    rw [he] at hf
    have hf : e1 = _ := hf
    rw [hf] at hc
    exact hc
  have hsub : ∀ w1 : World α G (GmmAttrs α), w1.est.sub = w.est.sub → w1.est.nComponents = w.est.nComponents →
      ((gmmSub T).initSub R X w1).1 = .ok () := by
    intro w1 h1 h4
    show (gmmInit T R X w1).1 = _
    rcases gmmInit_cases (R := R) T X w1 with ⟨err, h | h, -⟩ | ⟨gs, gg, rs, g, h, -⟩
    · rw [h1, h4, hb] at h; cases h
    · omega
    · rw [h]
  rcases h with ⟨err, h⟩ | h
  · exfalso
    cases hbb : (gmmSub T).initBase R X w with
    | mk r w2 =>
      rw [hbb] at hB
      have hB : r = .ok () := hB
      subst hB
      have e : (gmmSub T).init R X w = (gmmSub T).initSub R X w2 := Py.bind_ok hbb
      obtain ⟨p, rs, g, hi⟩ := (gmmSub_frames T R).init X w2
      rw [e] at h
      rw [h] at hi
      have hi : w1 = _ := hi
      cases hc : (gmmSub T).checkFeatures X w.est with
      | mk r e1 =>
        rw [hc] at hX
        have hX : r = .ok () := hX
        subst hX
        obtain ⟨rs, g, hh, -⟩ := initBase_eq (gmmSub T) R X w e1 hc
        rw [hbb] at hh
        have hh : w2 = _ := congrArg Prod.snd hh
        have : e1.sub = w.est.sub := by have := gmm_features_sub T X w.est; rw [hc] at this; exact this
        have hs := hsub w2 (by rw [hh]; exact this) (by rw [← h4, hi])
        rw [h] at hs
        cases hs
  · rw [h]
    exact hsub w1 h1 h4

/-! ## C69: an example -/

namespace GmmSeedDemo

/-- Every normal draw is the number of draws so far. -/
noncomputable def lib : RandomLib XF ℕ where
  ofSeed k := k
  rand g := (.fin (1/2), g + 1)
  dirichlet _ g := (fun _ => 0, g + 1)
  gamma _ _ g := (1, g + 1)
  poisson _ g := (0, g + 1)
  multinomial _ _ g := (fun _ => 0, g + 1)
  normal _ _ g := (fun _ => .fin g, g + 1)
  kmeans _ _ _ g := (fun _ _ => 0, g + 1)

/-- `GMMHMM(n_components=1, n_mix=3, random_state=0)` in a process where `np.random` is at `g`. -/
noncomputable def w (g : ℕ) : World XF ℕ (GmmAttrs XF) where
  est := { nComponents := 1, startprobPrior := fun _ => 1, transmatPrior := fun _ _ => 1,
           algorithm := "viterbi", randomState := .seed 0, nIter := 10, tol := 0,
           params := ['s', 't', 'm', 'c', 'w'], initParams := ['s', 't', 'm', 'c', 'w'], implementation := "log",
           monitor := { tol := 0, nIter := 10 },
           sub := { minCovar := 0, weightsPrior := .scalar 1, meansPrior := .scalar 0, meansWeight := .scalar 0,
                    covarsPrior := none, covarsWeight := none } }
  glob := g

/-- Two samples, for three mixture components. -/
noncomputable def X : XArr XF := .floats (d := 1) [fun _ => .fin 0, fun _ => .fin 2]

theorem ok (T : GmmType XF 3) (g : ℕ) : ((gmmSub T).init lib X (w g)).1 = .ok () :=
  gmm_init_ok T X (w g) rfl (fun _ h => h) (show 1 ≤ 2 by norm_num) fun nf => gmmPriors_scalar T _ nf _ rfl rfl rfl rfl rfl

end GmmSeedDemo

open GmmSeedDemo in
/-- **C69.** Otherwise it is not: the same estimator with the same seed on the same data starts from
different `means_` in processes whose `np.random` differ. -/
theorem C69_not_reproducible (T : GmmType XF 3) :
    (w 1).est = (w 0).est ∧ (w 0).est.randomState = .seed 0 ∧
    ((gmmSub T).init lib X (w 0)).1 = .ok () ∧ ((gmmSub T).init lib X (w 1)).1 = .ok () ∧
    ((gmmSub T).init lib X (w 0)).2.est.sub.means ≠ ((gmmSub T).init lib X (w 1)).2.est.sub.means := by
  refine ⟨rfl, rfl, ok T 0, ok T 1, ?_⟩
  have key : ∀ g, ∃ t, ((gmmSub T).init lib X (w g)).2.est.sub.means = some t ∧ t.data [0, 0, 0] = .fin g := by
    intro g
    refine ⟨_, (C69_means T X (w g) 0 rfl (ok T g)).1 (.inr rfl), ?_⟩
    unfold Tensor.of3
    dsimp only
    rw [dif_pos ⟨Nat.one_pos, by norm_num, Nat.one_pos⟩]
    unfold gmmBlock
    rw [if_pos ((List.length_filter_le _ _).trans_lt (show 2 < 3 by norm_num))]
    rfl
  obtain ⟨t0, h0, e0⟩ := key 0
  obtain ⟨t1, h1, e1⟩ := key 1
  rw [h0, h1]
  intro h
  cases h
  rw [e0] at e1
  have := XF.fin.inj e1
  norm_num at this

/-! ## C25: the label of a sample -/

/-- **C25 (`GMMHMM.means_`).** A sample belongs to the cluster whose centre is nearest; of several,
to the first. -/
theorem C25_gmm_label {n d : Nat} (c : Fin (n + 1) → Fin d → ℝ) (x : Fin d → ℝ) :
    ∃ i : Fin (n + 1), nearest (fun i k => XF.fin (c i k)) (fun k => XF.fin (x k)) = i.val ∧
      (∀ j, ∑ k, (x k - c i k) ^ 2 ≤ ∑ k, (x k - c j k) ^ 2) ∧
      ∀ j < i, ∑ k, (x k - c i k) ^ 2 < ∑ k, (x k - c j k) ^ 2 := by
  set D : Fin (n + 1) → ℝ := fun j => ∑ k, (x k - c j k) ^ 2 with hD
  have hdist : ∀ j, sumF (fun k => (XF.fin (x k) - XF.fin (c j k)) * (XF.fin (x k) - XF.fin (c j k))) = XF.fin (D j) := by
    intro j
    simp only [XF.fin_sub, XF.fin_mul, sumF_fin, hD, sq]
  have key : ∀ (l : List (Fin (n + 1))) (pre : List (Fin (n + 1))) (b : Option (Fin (n + 1))),
      (match b with
        | none => pre = []
        | some i => i ∈ pre ∧ (∀ j ∈ pre, D i ≤ D j) ∧ ∀ j ∈ pre, j < i → D i < D j) →
      (pre ++ l).Pairwise (· < ·) →
      (match l.foldl (fun (best : Option (Fin (n + 1))) i =>
          match best with
          | none => some i
          | some b => if lt (XF.fin (D i)) (XF.fin (D b)) then some i else some b) b with
        | none => pre ++ l = []
        | some i => i ∈ pre ++ l ∧ (∀ j ∈ pre ++ l, D i ≤ D j) ∧ ∀ j ∈ pre ++ l, j < i → D i < D j) := by
    intro l
    induction l with
    | nil => intro pre b hb _; rw [List.append_nil]; exact hb
    | cons a l ih =>
      intro pre b hb hp
      have hsort : ∀ j ∈ pre, j < a := fun j hj =>
        (List.pairwise_append.1 hp).2.2 j hj a List.mem_cons_self
      have e : pre ++ a :: l = (pre ++ [a]) ++ l := by simp
      rw [e] at hp ⊢
      rw [List.foldl_cons]
      refine ih (pre ++ [a]) _ ?_ hp
      cases b with
      | none =>
        have hb : pre = [] := hb
        subst hb
        simp
      | some b =>
        obtain ⟨h1, h2, h3⟩ := hb
        simp only [XF.fin_lt, decide_eq_true_eq]
        by_cases hlt : D a < D b
        · rw [if_pos hlt]
          refine ⟨by simp, fun j hj => ?_, fun j hj hja => ?_⟩
          · rcases List.mem_append.1 hj with hj | hj
            · exact (hlt.trans_le (h2 j hj)).le
            · rw [List.mem_singleton.1 hj]
          · rcases List.mem_append.1 hj with hj | hj
            · exact hlt.trans_le (h2 j hj)
            · rw [List.mem_singleton.1 hj] at hja; exact absurd hja (lt_irrefl _)
        · rw [if_neg hlt]
          refine ⟨List.mem_append_left _ h1, fun j hj => ?_, fun j hj hja => ?_⟩
          · rcases List.mem_append.1 hj with hj | hj
            · exact h2 j hj
            · rw [List.mem_singleton.1 hj]; exact not_lt.1 hlt
          · rcases List.mem_append.1 hj with hj | hj
            · exact h3 j hj hja
            · rw [List.mem_singleton.1 hj] at hja; exact absurd (hja.trans (hsort b h1)) (lt_irrefl _)
  have h := key (List.finRange (n + 1)) [] none rfl (by simpa using List.pairwise_lt_finRange (n + 1))
  unfold nearest
  dsimp only
  simp only [hdist]
  generalize hg : List.foldl _ none (List.finRange (n + 1)) = r at h
  cases r with
  | none => simp at h
  | some i =>
    simp only [List.nil_append, List.mem_finRange, true_and, true_imp_iff] at h
    refine ⟨i, ?_, h.1, h.2⟩
    convert congrArg (fun o => Option.elim o 0 Fin.val) hg using 3
    all_goals first | rfl | (funext b i; cases b <;> rfl)

/-! ## C51 -/

/-- **C51 (`GMMHMM`).** The count behind `aic` and `bic` is too small by `(nc - 1) * (nm - 1)`. -/
theorem C51_gmm_class (eig : Eigvalsh α) (e : Est α G (GmmAttrs α)) (err : PyErr) {nf : Nat} (hc : e.nComponents ≠ 0)
    (h : e.nFeatures = some nf) :
    (gmmSub (G := G) (nm := nm) gmmSpherical).nParams err e = .ok (dim (gmmSpace e.nComponents nm nf
      (families e.nComponents (families nm positives))) - (e.nComponents - 1) * (nm - 1) : ℤ) ∧
    (gmmSub (G := G) (nm := nm) gmmDiag).nParams err e = .ok (dim (gmmSpace e.nComponents nm nf
      (families e.nComponents (families nm (families nf positives)))) - (e.nComponents - 1) * (nm - 1) : ℤ) ∧
    (gmmSub (G := G) (nm := nm) (gmmFull eig)).nParams err e = .ok (dim (gmmSpace e.nComponents nm nf
      (families e.nComponents (families nm (covariances nf)))) - (e.nComponents - 1) * (nm - 1) : ℤ) ∧
    (gmmSub (G := G) (nm := nm) (gmmTied eig)).nParams err e = .ok (dim (gmmSpace e.nComponents nm nf
      (families e.nComponents (covariances nf))) - (e.nComponents - 1) * (nm - 1) : ℤ) := by
  obtain ⟨a, b, c, d⟩ := C51_gmm (nf := nf) hc (NeZero.ne nm)
  rw [← a, ← b, ← c, ← d]
  simp only [nParams_eq err h, add_sub_cancel_right]
  simp only [gmmSub, h]
  exact ⟨rfl, rfl, rfl, rfl⟩

end Verif
