import Verif.Proofs.ObjectStart
import Verif.Props.Symbols

/-!
# C72: `fit` of an estimator object, from its attributes to its attributes
-/

set_option autoImplicit false

namespace Verif
open FloatLike XF Hmmc Spec
open scoped Classical

variable {D G P M : Type} {R : RandomLib XF G}

/-! ## All classes -/

theorem Spec.TrainsFrom.settings_of {T : Training G P M} {m₀ : M} {e e' : Est XF G P} {impl : Impl}
    {res : Except PyErr Unit × Est XF G P} (h : TrainsFrom T m₀ e' impl res) (hs : SameSettings e e') :
    TrainsFrom T m₀ e impl res where
  returns := h.returns
  settings := ⟨h.settings.1.trans hs.1, h.settings.2.trans hs.2, h.settings.3.trans hs.3, h.settings.4.trans hs.4,
    h.settings.5.trans hs.5, h.settings.6.trans hs.6, h.settings.7.trans hs.7, h.settings.8.trans hs.8,
    h.settings.9.trans hs.9⟩
  run := by
    obtain ⟨n, m, h1, h2, h3⟩ := h.run
    exact ⟨n, m, h1, hs.nIter ▸ h2, h3⟩

/-- The chain of an accepted object. -/
theorem holdsChain_of {S : Sub XF G P} {e : Est XF G P} {π : Fin e.nComponents → ℝ}
    {A : Fin e.nComponents → Fin e.nComponents → ℝ} (ha : Accepted S e) (h1 : e.startprob = some (vec π))
    (h2 : e.transmat = some (mat A)) (h3 : ∀ i, 0 ≤ π i) (h4 : ∀ i j, 0 ≤ A i j) : HoldsChain e π A := by
  unfold Accepted at ha
  rw [S.checkFitted_eq, S.check_eq, h1] at ha
  simp only [Option.isNone_some, Bool.false_eq_true, if_false] at ha
  have hb : checkBase e = .ok () := by
    cases hb : checkBase e with
    | ok u => rfl
    | error err => rw [hb] at ha; cases ha
  obtain ⟨-, -, -, h5, h6⟩ := ((C30_check e π A h1 h2).1).1 hb
  exact ⟨h1, h2, h3, h4, h5, h6⟩

theorem joint_pos {nc : ℕ} {π : Fin nc → ℝ} {A : Fin nc → Fin nc → ℝ} {b : D → Fin nc → ℝ} (h1 : ∀ i, 0 < π i)
    (h2 : ∀ i j, 0 < A i j) (h3 : ∀ o i, 0 < b o i) (s : ObsSeq D) (z : Fin (s.n + 1) → Fin nc) :
    0 < joint π A (s.weights b) z := by
  unfold joint
  exact mul_pos (mul_pos (h1 _) (Finset.prod_pos fun t _ => h2 _ _)) (Finset.prod_pos fun t _ => h3 _ _)

theorem dataLikelihood_pos {nc : ℕ} [NeZero nc] {π : Fin nc → ℝ} {A : Fin nc → Fin nc → ℝ} {b : D → Fin nc → ℝ}
    (h1 : ∀ i, 0 < π i) (h2 : ∀ i j, 0 < A i j) (h3 : ∀ o i, 0 < b o i) (ss : List (ObsSeq D)) :
    0 < dataLikelihood π A b ss := by
  unfold dataLikelihood
  refine List.prod_pos fun x hx => ?_
  obtain ⟨s, hs, rfl⟩ := List.mem_map.1 hx
  exact Finset.sum_pos (fun z _ => joint_pos h1 h2 h3 s z) Finset.univ_nonempty

theorem usedBeforeLast_pos {nc : ℕ} {π : Fin nc → ℝ} {A : Fin nc → Fin nc → ℝ} {b : D → Fin nc → ℝ}
    (h1 : ∀ i, 0 < π i) (h2 : ∀ i j, 0 < A i j) (h3 : ∀ o i, 0 < b o i) {ss : List (ObsSeq D)}
    (h : ∃ s ∈ ss, s.n ≠ 0) : UsedBeforeLast π A b ss := by
  obtain ⟨s, hs, hn⟩ := h
  intro i
  exact ⟨s, hs, fun _ => i, ⟨0, Nat.pos_of_ne_zero hn⟩, joint_pos h1 h2 h3 s _, rfl⟩

/-- What a user sees after `fit`: the score of the training data is at least every value `fit` reported. -/
def Spec.ScoresWell (S : Sub XF G P) (X : RawX XF) (ls : Option (List Int)) (e : Est XF G P) : Prop :=
  ∃ v : ℝ, (S.score X ls e).1 = .ok (fin v) ∧ ∀ h ∈ e.monitor.history, ∃ r : ℝ, h = fin r ∧ r ≤ v

/-- `fit` with the `log` implementation and then `score` on the same data. -/
theorem scores_well {nc : ℕ} {S : Sub XF G P} {params : List Char} {ss : List (ObsSeq D)} {π : M → Fin nc → ℝ}
    {A : M → Fin nc → Fin nc → ℝ} {b : M → D → Fin nc → ℝ} {stores : Est XF G P → M → Prop} {used : M → Prop}
    {X : List D → RawX XF} {m₀ : M} {e : Est XF G P} {res : Except PyErr Unit × Est XF G P}
    (h : TrainsFrom (likTraining params ss π A b stores (fun e m => Answers S e X (π m) (A m) (b m)) used) m₀ e .log res)
    (hi : e.implementation = "log") (hu : 't' ∈ params ∧ UsedBeforeLast (π m₀) (A m₀) (b m₀) ss ∧ used m₀)
    (hne : ss ≠ []) {ls : Option (List Int)} (hl : LengthsFor ss ls) :
    res.1 = .ok () ∧ ScoresWell S (X (samples ss)) ls res.2 := by
  have hok : res.1 = .ok () := by
    rcases h.returns with h | h
    · exact h
    · cases h.1
  obtain ⟨n, m, -, -, -, -, hh, hpos, hmono, hans⟩ := h.run
  refine ⟨hok, Real.log (dataLikelihood (π (m n)) (A (m n)) (b (m n)) ss), ?_, fun v hv => ?_⟩
  · rw [(hans hok hu).score (h.settings.implementation.trans hi) ss ls hne hl]
    exact congrArg Except.ok (if_neg (hpos n le_rfl).ne')
  · rw [hh] at hv
    obtain ⟨k, hk, rfl⟩ := List.mem_map.1 hv
    refine ⟨_, rfl, ?_⟩
    have hk := List.mem_range.1 hk
    have : ∀ j, k ≤ j → j ≤ n → Real.log (dataLikelihood (π (m k)) (A (m k)) (b (m k)) ss) ≤
        Real.log (dataLikelihood (π (m j)) (A (m j)) (b (m j)) ss) := by
      intro j hj
      induction j, hj using Nat.le_induction with
      | base => exact fun _ => le_rfl
      | succ j hj ih => exact fun hn => (ih (by omega)).trans (hmono j (by omega) trivial)
    exact this n hk.le le_rfl

/-! ## CategoricalHMM -/

/-- Uniform draws, normalised. -/
theorem randRows_real (hR : PositiveDraws R) (m n : ℕ) (hn : n ≠ 0) (g : G) :
    ∃ B : Fin m → Fin n → ℝ, (∀ i k, 0 < B i k) ∧ (∀ i, ∑ k, B i k = 1) ∧
      (randRows R m n g).1 = fun i k => fin (B i k) := by
  obtain ⟨v, hv, hve⟩ := drawMany_real (drawMany R.rand n) (fun (q : Fin n → ℝ) i => fin (q i)) (fun q => ∀ k, 0 < q k)
    (fun g => drawMany_real R.rand fin (fun x => 0 < x) hR.rand n g) m g
  haveI : NeZero n := ⟨hn⟩
  have hs : ∀ i, 0 < ∑ k, v i k := fun i => Finset.sum_pos (fun k _ => hv i k) Finset.univ_nonempty
  refine ⟨fun i k => v i k / ∑ k, v i k, fun i k => div_pos (hv i k) (hs i), fun i => ?_, ?_⟩
  · rw [← Finset.sum_div, div_self (hs i).ne']
  · simp only [randRows, hve]
    funext i k
    exact normalizeRow_fin _ (hs i).ne' k

/-- The number of symbols: given, or found in the data. -/
def Spec.SymbolCount {nf : ℕ} (e : Est XF G P) (ss : List (ObsSeq (Fin nf))) : Prop :=
  e.nFeatures = some nf ∨ e.nFeatures = none ∧ ∃ o ∈ samples ss, o.val + 1 = nf

theorem symbol_features {nf : ℕ} {ss : List (ObsSeq (Fin nf))} (hne : ss ≠ []) {e : Est XF G P}
    (h : SymbolCount e ss) : ∃ X', checkArray (symbolsX (samples ss)) = .ok X' ∧ X'.n = (samples ss).length ∧
      catRows X' = .ok ((samples ss).map Categorical.sym) ∧
      catCheckFeatures X' e = (.ok (), { e with nFeatures := some nf }) := by
  have hne' := samples_ne hne
  refine ⟨_, checkArray_ints_of _ (by simpa using hne') one_ne_zero, by simp [XArr.n], ?_, ?_⟩
  · obtain ⟨X', h1, h2⟩ := symbols_data (samples ss) hne'
    have := checkArray_ints_of (d := 1) (fun (t : Fin (samples ss).length) _ => (((samples ss).get t).val : ℤ))
      (by simpa using hne') one_ne_zero
    have e1 : checkArray (symbolsX (samples ss)) = _ := this
    rw [h1] at e1
    rw [Except.ok.inj e1] at h2
    exact h2
  · generalize hrows : (List.ofFn fun (t : Fin (samples ss).length) (_ : Fin 1) => (((samples ss).get t).val : ℤ)) = rows
    have hmem : ∀ r, r ∈ rows ↔ ∃ o ∈ samples ss, r = fun _ => (o.val : ℤ) := by
      intro r
      rw [← hrows, List.mem_ofFn]
      constructor
      · rintro ⟨t, rfl⟩
        exact ⟨_, List.get_mem _ t, rfl⟩
      · rintro ⟨o, ho, rfl⟩
        obtain ⟨t, rfl⟩ := List.get_of_mem ho
        exact ⟨t, rfl⟩
    have hneg : anyNeg rows = false := by
      rw [← Bool.not_eq_true, anyNeg_iff]
      rintro ⟨r, hr, j, hj⟩
      obtain ⟨o, -, rfl⟩ := (hmem r).1 hr
      simp only at hj
      omega
    have hle : ∀ c, maxNat rows ≤ c ↔ ∀ o ∈ samples ss, o.val ≤ c := by
      intro c
      rw [maxNat_le]
      constructor
      · intro h o ho
        have := h _ ((hmem _).2 ⟨o, ho, rfl⟩) 0
        exact_mod_cast this
      · intro h r hr j
        obtain ⟨o, ho, rfl⟩ := (hmem r).1 hr
        exact Int.ofNat_le.2 (h o ho)
    have hlt : maxNat rows < nf := by
      obtain ⟨o, ho⟩ := List.exists_mem_of_ne_nil _ hne'
      have h0 := o.isLt
      have : maxNat rows ≤ nf - 1 := (hle _).2 fun o _ => by have := o.isLt; omega
      omega
    unfold catCheckFeatures
    simp only [hneg, Bool.false_eq_true, if_false]
    rcases h with h | ⟨h, o, ho, hof⟩
    · simp only [h]
      rw [if_neg (by omega)]
      rw [← h]
    · simp only [h]
      have : maxNat rows + 1 = nf := by
        have := (hle (maxNat rows)).1 le_rfl o ho
        omega
      rw [this]

theorem cat_features {nf : ℕ} {ss : List (ObsSeq (Fin nf))} (hne : ss ≠ []) {w : World XF G (CatAttrs XF)}
    (h : SymbolCount w.est ss) : ∃ X', checkArray (symbolsX (samples ss)) = .ok X' ∧
      catSub.rows (G := G) nf X' = .ok ((samples ss).map Categorical.sym) ∧
      catSub.checkFeatures X' w.est = (.ok (), { w.est with nFeatures := some nf, sub := w.est.sub }) :=
  let ⟨X', h1, _, h2, h3⟩ := symbol_features hne h
  ⟨X', h1, h2, h3⟩

theorem catInit_sub (R : RandomLib XF G) (X : XArr XF) (w : World XF G (CatAttrs XF)) :
    ∃ rs g, catInit R X w = (.ok (), ⟨{ w.est with
      randomState := rs
      sub := if needsInit w.est.initParams 'e' w.est.sub.emissionprob.isSome then
          { w.est.sub with emissionprob := some (.d2
            (randRows R w.est.nComponents (w.est.nFeatures.getD 0) (selfGen R w)).1) }
        else w.est.sub }, g⟩) :=
  let ⟨g, h⟩ := catInit_eq R X w
  ⟨_, g, h⟩

/-- `_init` of a `CategoricalHMM`. -/
theorem cat_starts (hR : PositiveDraws R) {nf : ℕ} (hf : nf ≠ 0) {X : XArr XF} {w : World XF G (CatAttrs XF)}
    (hc : catSub.checkFeatures X w.est = (.ok (), { w.est with nFeatures := some nf, sub := w.est.sub }))
    (h0 : w.est.nComponents ≠ 0) (hg : GivenCat w.est nf) (hp : ∀ c ∈ w.est.params, c ∈ ['s', 't', 'e']) :
    ∃ (rs : RandomState G) (g : G) (m : RowsPoint w.est.nComponents nf),
      catSub.init R X w = (.ok (), ⟨{ w.est with
        nFeatures := some nf, sub := { w.est.sub with emissionprob := some (mat m.B) }, randomState := rs
        startprob := some (vec m.π), transmat := some (mat m.A) }, g⟩) ∧ StartsCat w.est m := by
  obtain ⟨rs, g, π, A, h1, h2⟩ := initBase_starts hR hc h0 hg.chain ['s', 't', 'e'] (fun _ => rfl) hp
  obtain ⟨rs', g', h3⟩ := catInit_sub R X ⟨({ w.est with nFeatures := some nf, sub := w.est.sub, randomState := rs, startprob := some (vec π), transmat := some (mat A) }), g⟩
  have key : ∀ g'' : G, ∃ B : Fin w.est.nComponents → Fin nf → ℝ, (∀ i k, 0 ≤ B i k) ∧ (∀ i, ∑ k, B i k = 1) ∧
      StartsRows (Fresh w.est 'e' w.est.sub.emissionprob) w.est.sub.emissionprob B ∧
      (if needsInit w.est.initParams 'e' w.est.sub.emissionprob.isSome then
        { w.est.sub with emissionprob := some (.d2 (randRows R w.est.nComponents nf g'').1) } else w.est.sub) =
      { w.est.sub with emissionprob := some (mat B) } := by
    intro g''
    by_cases hfr : Fresh w.est 'e' w.est.sub.emissionprob
    · obtain ⟨B, k1, k2, k3⟩ := randRows_real hR w.est.nComponents nf hf g''
      refine ⟨B, fun i k => (k1 i k).le, k2, ⟨fun h => absurd hfr h, fun _ => k1⟩, ?_⟩
      rw [if_pos ((needsInit_iff _ _ _).2 hfr), k3]
      rfl
    · obtain ⟨B, k1, k2, k3⟩ := hg.rows hfr
      refine ⟨B, k2, k3, ⟨fun _ => k1, fun h => absurd h hfr⟩, ?_⟩
      rw [if_neg (fun h => hfr ((needsInit_iff _ _ _).1 h)), ← k1]
  obtain ⟨B, k1, k2, k3, k4⟩ := key _
  refine ⟨rs', g', ⟨π, A, B⟩, (Py.bind_ok h1).trans (h3.trans ?_), ⟨h2, k1, k2, k3⟩⟩
  simp only [Option.getD_some]
  rw [k4]

/-- What a `CategoricalHMM` that passed `_check` holds. -/
theorem holdsCat_of {nf : ℕ} {e : Est XF G (CatAttrs XF)} {m : RowsPoint e.nComponents nf} (ha : Accepted catSub e)
    (hst : StoresCat e m) (h3 : ∀ i, 0 ≤ m.π i) (h4 : ∀ i j, 0 ≤ m.A i j) (h5 : ∀ i k, 0 ≤ m.B i k) :
    HoldsCat e m.π m.A m.B := by
  have hch := holdsChain_of ha hst.1.startprob hst.1.transmat h3 h4
  have hok : (catSub.checkFitted e).1 = .ok () := congrArg Prod.fst ha
  obtain ⟨h1, -, -⟩ := C30_categorical e m.B hch.base (by rw [hst.1.startprob]; rfl) hst.2
  exact ⟨hch, fun n hn => by rw [hst.1.nFeatures] at hn; exact (Option.some.inj hn).symm, hst.2, h5, (h1.1 hok).2.2⟩

theorem cat_loop {nf : ℕ} {impl : Impl} {e : Est XF G (CatAttrs XF)} (hset : FlatChain e impl)
    (hprior : ∀ i k, e.sub.emissionprobPrior i k = fin 1) {m : RowsPoint e.nComponents nf} (hst : StoresCat e m)
    (h : CatModel m.π m.A m.B) (hπ : ∑ i, m.π i = 1) (hB : ∀ i, ∑ k, m.B i k = 1) {ss : List (ObsSeq (Fin nf))}
    (hne : ss ≠ []) {X' : XArr XF} (hX : catSub.rows (G := G) nf X' = .ok ((samples ss).map Categorical.sym))
    {ls : Option (List Int)} (hl : LengthsFor ss ls) (hL : 0 < dataLikelihood m.π m.A (catB m.B) ss) :
    TrainsFrom (catTraining e.params ss) m e impl (catSub.loop X' ls e) := by
  haveI : NeZero e.nComponents := ⟨hset.nComponents⟩
  let F := Categorical.family (nc := e.nComponents) (nf := nf) (fun _ _ => 1) e.params
  let c : RConfig e.nComponents := ⟨fun _ => 1, fun _ _ => 1, impl, e.nIter⟩
  have hac : ∀ r : RParams e.nComponents (Categorical.Rows e.nComponents nf), F.Keeps False ss r → F.Ac ss r :=
    fun r hr => Categorical.ac _ e.params (fun _ _ _ => le_rfl) ss r hr.1
  have hI := F.closed_keeps (need := False) c ss (fun _ _ => le_rfl) (fun _ _ _ => le_rfl) (fun _ _ => trivial) hac
  have hcfg : e.config impl = c.toConfig e.params := by
    simp only [Est.config, RConfig.toConfig, c]
    congr 1
    · funext i; exact hset.startprobPrior i
    · funext i j; exact hset.transmatPrior i j
  refine loop_trains (S := catSub) (D := Fin nf) (obs := Categorical.sym) (catTraining e.params ss) F (c := c) (r := h.rp) (I := F.Keeps False ss) ?_
    hset.implementation hcfg hset.nIter hst.1.nFeatures hst.1.startprob hst.1.transmat ?_ hne hX hl (fun _ _ => le_rfl)
    hI ⟨h.valid, likelihoods_pos_of_data h.π_nonneg h.A_nonneg (fun o i => h.e_nonneg i o) hL, False.elim⟩
    (fun r => ⟨r.π, r.A, r.q.e⟩) (fun r => rfl) (fun r hr => (log_dataLikelihood ss hr.2.1).1) (fun r mon hr => ?_) ?_ ?_ ?_
  · show Categorical.emission _ = Categorical.emission _
    congr 1
    funext i k
    exact hprior i k
  · show (e.sub.emissionprob.bind fun a => asMat e.nComponents nf a) = _
    rw [hst.2]
    exact asMat_mat m.B
  · exact ⟨⟨rfl, hst.1.nFeatures, rfl, rfl⟩, rfl⟩
  · intro r hr _ _ _
    have := (F.rstep_gain c ss hr.1 hr.2.1 (fun _ _ => le_rfl) (fun _ _ _ => le_rfl)
      (Categorical.gains ss hr.1 (fun _ _ _ => le_rfl) fun _ _ _ _ => rfl)).2.2
    simp only [logDirichlet_one, Finset.sum_const_zero, sub_self, add_zero, c] at this
    exact this
  · intro hu hr
    exact C28_categorical e hst.1.nFeatures (fun _ => le_rfl) (fun _ _ => le_rfl) hu.1 impl hset.nIter hne h hπ hB hL
      hu.2.1 _ _ hr
  · intro r mon hr ha
    exact C71_categorical _ _ _ _ (holdsCat_of (e := catSub.put (nf := nf) e (F.theta r) mon) (m := ⟨r.π, r.A, r.q.e⟩) ha ⟨⟨rfl, hst.1.nFeatures, rfl, rfl⟩, rfl⟩
      hr.1.π_nonneg hr.1.A_nonneg r.q.nonneg)

/-- **C72** `CategoricalHMM` with flat priors, `fit` on any data set that every possible starting point can
have produced. -/
theorem C72_categorical (hR : PositiveDraws R) {nf : ℕ} {impl : Impl} {w : World XF G (CatAttrs XF)}
    (hset : FlatChain w.est impl) (hprior : ∀ i k, w.est.sub.emissionprobPrior i k = fin 1)
    (hp : ∀ c ∈ w.est.params, c ∈ ['s', 't', 'e']) (hg : GivenCat w.est nf) {ss : List (ObsSeq (Fin nf))} (hne : ss ≠ [])
    (hnf : SymbolCount w.est ss) {ls : Option (List Int)} (hl : LengthsFor ss ls)
    (hL : ∀ m : RowsPoint w.est.nComponents nf, StartsCat w.est m → 0 < dataLikelihood m.π m.A (catB m.B) ss) :
    ∃ m₀ : RowsPoint w.est.nComponents nf, StartsCat w.est m₀ ∧
      TrainsFrom (catTraining w.est.params ss) m₀ w.est impl
        ((catSub.fit R (symbolsX (samples ss)) ls w).1, (catSub.fit R (symbolsX (samples ss)) ls w).2.est) := by
  haveI : NeZero w.est.nComponents := ⟨hset.nComponents⟩
  have hf : nf ≠ 0 := by
    rintro rfl
    obtain ⟨o, -⟩ := List.exists_mem_of_ne_nil _ (samples_ne hne)
    exact o.elim0
  obtain ⟨X', hX, hrows, hcf⟩ := cat_features hne hnf
  obtain ⟨rs, g, m, hinit, hm⟩ := cat_starts hR hf hcf hset.nComponents hg hp
  refine ⟨m, hm, ?_⟩
  generalize hw1 : (⟨{ w.est with
        nFeatures := some nf, sub := { w.est.sub with emissionprob := some (mat m.B) }, randomState := rs
        startprob := some (vec m.π), transmat := some (mat m.A) }, g⟩ : World XF G (CatAttrs XF)) = w1 at hinit
  have hst : StoresCat w1.est m := by subst hw1; exact ⟨⟨rfl, rfl, rfl, rfl⟩, rfl⟩
  have hcat : CatModel m.π m.A m.B := ⟨hm.chain.π_nonneg, hm.chain.A_nonneg, hm.nonneg, hm.chain.π_sum.le,
    fun i => (hm.chain.A_sum i).le, fun i => (hm.sum i).le⟩
  have hs1 : SameSettings w.est w1.est := by subst hw1; exact ⟨rfl, rfl, rfl, rfl, rfl, rfl, rfl, rfl, rfl⟩
  have hcheck : catSub.check w1.est = (.ok (), w1.est) := by
    subst hw1
    have hb : checkBase _ = .ok () := C30_valid ({ w.est with
        nFeatures := some nf, sub := { w.est.sub with emissionprob := some (mat m.B) }, randomState := rs
        startprob := some (vec m.π), transmat := some (mat m.A) } : Est XF G (CatAttrs XF)) m.π m.A rfl rfl
        hm.chain.π_sum hm.chain.A_sum
    obtain ⟨k1, k2, -⟩ := C30_categorical _ m.B hb rfl rfl
    have hok := k1.2 ⟨rfl, rfl, fun i => by rw [hm.sum i]; simp [NearOne]; positivity⟩
    exact Prod.ext hok (k2 hok)
  rw [Sub.fit_eq hX ls hinit hcheck]
  refine TrainsFrom.settings_of ?_ hs1
  have hL' := hL m hm
  subst hw1
  exact cat_loop (e := { w.est with nFeatures := some nf, sub := { w.est.sub with emissionprob := some (mat m.B) }, randomState := rs, startprob := some (vec m.π), transmat := some (mat m.A) })
    ⟨hset.1, hset.2, hset.3, hset.4, hset.5⟩ hprior hst hcat hm.chain.π_sum hm.sum hne hrows hl hL'

/-- **C72** `CategoricalHMM` with flat priors and the default `init_params`: whatever was set before, whatever
the symbols, if some sequence has two samples then `fit` returns, and `score` of the training data is
then at least every log-likelihood `fit` reported. -/
theorem C72_categorical_fresh (hR : PositiveDraws R) {nf : ℕ} {w : World XF G (CatAttrs XF)}
    (hset : FlatChain w.est .log) (hprior : ∀ i k, w.est.sub.emissionprobPrior i k = fin 1)
    (hp : ∀ c ∈ w.est.params, c ∈ ['s', 't', 'e']) (ht : 't' ∈ w.est.params)
    (hi : ∀ c ∈ ['s', 't', 'e'], c ∈ w.est.initParams) {ss : List (ObsSeq (Fin nf))} (hlong : ∃ s ∈ ss, s.n ≠ 0)
    (hnf : SymbolCount w.est ss) {ls : Option (List Int)} (hl : LengthsFor ss ls) :
    (catSub.fit R (symbolsX (samples ss)) ls w).1 = .ok () ∧
      ScoresWell catSub (symbolsX (samples ss)) ls (catSub.fit R (symbolsX (samples ss)) ls w).2.est := by
  haveI : NeZero w.est.nComponents := ⟨hset.nComponents⟩
  have hne : ss ≠ [] := by rintro rfl; simp at hlong
  have h1 : Fresh w.est 's' w.est.startprob := .inl (hi _ (by simp))
  have h2 : Fresh w.est 't' w.est.transmat := .inl (hi _ (by simp))
  have h3 : Fresh w.est 'e' w.est.sub.emissionprob := .inl (hi _ (by simp))
  obtain ⟨m, hm, htr⟩ := C72_categorical hR hset hprior hp ⟨⟨fun h => absurd h1 h, fun h => absurd h2 h⟩,
    fun h => absurd h3 h⟩ hne hnf hl fun m hm => dataLikelihood_pos (hm.chain.startprob.draws h1)
      (hm.chain.transmat.draws h2) (fun o i => hm.rows.draws h3 i o) ss
  exact scores_well htr hset.implementation ⟨ht, usedBeforeLast_pos (hm.chain.startprob.draws h1)
    (hm.chain.transmat.draws h2) (fun o i => hm.rows.draws h3 i o) hlong, trivial⟩ hne hl

end Verif
