import Verif.Props.GmmCheck
import Verif.Props.SampleEmit

/-!
# `GMMHMM`: sampling (C64, C68)
-/

set_option autoImplicit false

namespace Verif
open FloatLike XF Spec MeasureTheory

namespace Spec

/-- The weights numpy's `choice` accepts: none negative, and adding up to one within `2⁻²⁶`. -/
def ChoiceOk {n : ℕ} (p : Fin n → ℝ) : Prop := (∀ j, 0 ≤ p j) ∧ |∑ j, p j - 1| ≤ 1 / 2 ^ 26

/-- The mixture of `μ` with weights `w`. -/
noncomputable def mixtureLaw {nm : ℕ} {β : Type} [MeasurableSpace β] (w : Fin nm → ℝ) (μ : Fin nm → Measure β) : Measure β :=
  Measure.sum fun k => ENNReal.ofReal (w k) • μ k

end Spec

/-! ## `choice` -/

section choice
variable {G : Type} {R : RandomLib XF G} {n : ℕ} [NeZero n] {p : Fin n → ℝ} {g : G}

theorem ChoiceOk.pos (h : ChoiceOk p) : 0 < ∑ j, p j := by
  have := abs_le.1 h.2
  norm_num at this
  linarith [this.1]

theorem cdf_div (p : Fin n → ℝ) (s : ℝ) (k : ℕ) : cdf (fun j => p j / s) k = cdf p k / s := by
  unfold cdf
  rw [Finset.sum_div]

omit [NeZero n] in
theorem ofRat_tol : (ofRat (1 / 2 ^ 26) : XF) = .fin (1 / 2 ^ 26) := by
  show XF.fin (((1 / 2 ^ 26 : ℚ)) : ℝ) = _
  norm_num

theorem npChoice_ok (h : ChoiceOk p) {u : ℝ} {g' : G} (hu : R.rand g = (.fin u, g')) :
    npChoice R (fun j => fin (p j)) g = (.ok (pick (fun j => p j / ∑ j, p j) u), g') := by
  unfold npChoice
  simp only [sumF_fin]
  rw [if_neg (by rw [XF.fin_isNaN]; simp), if_neg, if_neg]
  · change (Except.ok (argmaxBool fun j => lt (R.rand g).1 _), (R.rand g).2) = _
    rw [hu]
    simp only [Prod.mk.injEq, Except.ok.injEq, and_true]
    unfold pick
    congr 1
    funext j
    have hn := NeZero.pos n
    have hl : (Fin.ofNat n (n - 1)).val + 1 = n := by
      show (n - 1) % n + 1 = n
      rw [Nat.mod_eq_of_lt (by omega)]
      omega
    rw [cumsum_fin, cumsum_fin, cumsum_fin, hl, cdf_full, cdf_div, XF.fin_div _ _ (ChoiceOk.pos h).ne']
  · rw [ofRat_tol, XF.one_def, XF.fin_sub]
    show ¬ (lt (XF.fin (1 / 2 ^ 26)) (XF.fin |∑ j, p j - 1|) = true)
    rw [XF.fin_lt]
    simpa using h.2
  · simp only [List.any_eq_true, List.mem_finRange, true_and, not_exists]
    intro j
    rw [XF.zero_def, XF.fin_lt]
    simpa using h.1 j

theorem npChoice_error (h : ¬ ChoiceOk p) :
    ∃ msg, npChoice R (fun j => fin (p j)) g = (.error (.valueError msg), g) := by
  unfold npChoice
  simp only [sumF_fin]
  rw [if_neg (by rw [XF.fin_isNaN]; simp)]
  split
  · exact ⟨_, rfl⟩
  · next h1 =>
    rw [if_pos]
    · exact ⟨_, rfl⟩
    · simp only [List.any_eq_true, List.mem_finRange, true_and, not_exists] at h1
      have h0 : ∀ j, 0 ≤ p j := by
        intro j
        have := h1 j
        rw [XF.zero_def, XF.fin_lt] at this
        simpa using this
      rw [ofRat_tol, XF.one_def, XF.fin_sub]
      show (lt (XF.fin (1 / 2 ^ 26)) (XF.fin |∑ j, p j - 1|) = true)
      rw [XF.fin_lt]
      have : ¬ |∑ j, p j - 1| ≤ 1 / 2 ^ 26 := fun h' => h ⟨h0, h'⟩
      simpa using this

end choice

/-! ## C68: an accepted model that does not sample -/

section c68
variable {G : Type} {R : RandomLib XF G} {nm : ℕ} [NeZero nm] (T : GmmType XF nm)

/-- **C68.** Drawing an observation of state `z` succeeds exactly if `choice` accepts the weights of
the state; otherwise it raises `ValueError`. -/
theorem C68_emission {nc nf : ℕ} (θ : Gmm.Params XF nc nm nf (T.C nc nf)) {w : Fin nc → Fin nm → ℝ}
    (hw : ∀ z k, θ.weights z k = fin (w z k)) (hr : ∀ g, ∃ u, (R.rand g).1 = .fin u) (z : Fin nc) (g : G) :
    (ChoiceOk (w z) → ∃ x g', gmmSample T R θ z g = (.ok x, g')) ∧
    (¬ ChoiceOk (w z) → ∃ msg, gmmSample T R θ z g = (.error (.valueError msg), g)) := by
  have hz : θ.weights z = fun k => fin (w z k) := funext (hw z)
  unfold gmmSample
  rw [hz]
  constructor
  · intro h
    obtain ⟨u, hu⟩ := hr g
    rw [npChoice_ok h (g' := (R.rand g).2) (Prod.ext hu rfl)]
    exact ⟨_, _, rfl⟩
  · intro h
    obtain ⟨msg, h⟩ := npChoice_error (R := R) (g := g) h
    rw [h]
    exact ⟨msg, rfl⟩

/-- `sample` is validation, then drawing with some generator. -/
theorem sample_outcome {α G P : Type} [FloatLike α] (S : Sub α G P) (R : RandomLib α G) (n : Int) (seed c : Option ℕ)
    (w : World α G P) {e : Est α G P} (h : S.checkFitted w.est = (.ok (), e)) :
    ∃ g, (S.sample R n seed c w).1 = (S.sampleFrom R e n c g).1 := by
  unfold Sub.sample Sub.sampleBody
  rw [Py.bind_ok (s' := { w with est := e }) (b := ()) (by simp only [onEst, h])]
  rw [Py.bind_ok (x := Py.get) (s' := { w with est := e }) (b := { w with est := e }) rfl]
  cases seed with
  | some k => exact ⟨_, rfl⟩
  | none =>
    obtain ⟨rs, g, hg, -⟩ := withSelfGen_eq R (S.sampleFrom R e n c) { w with est := e }
    exact ⟨_, by
      dsimp only
      rw [Py.bind_ok hg]
      rfl⟩

/-- What a checked model with `startprob_` and `transmat_` of the right shape samples from. -/
theorem gmm_ready {e : Est XF G (GmmAttrs XF)} {nf : ℕ} (hnf : e.nFeatures = some nf) (h0 : e.nComponents ≠ 0)
    {π : Fin e.nComponents → ℝ} {A : Fin e.nComponents → Fin e.nComponents → ℝ}
    (hπ : e.startprob = some (vec π)) (hA : e.transmat = some (mat A))
    {fw fm fc : List ℕ → ℝ} (hw : e.sub.weights = some (rT [e.nComponents, nm] fw))
    (hm : e.sub.means = some (rT [e.nComponents, nm, nf] fm)) {sc : List ℕ} (hs : sc = T.shape e.nComponents nf)
    (hc : e.sub.covars = some (rT sc fc)) :
    ∃ r, (gmmSub T).ready e = some r ∧
      r.θ.emission.weights = fun z k => fin (fw [z.val, k.val]) := by
  refine ⟨⟨nf, h0, ⟨fun i => fin (π i), fun i j => fin (A i j),
    ⟨(rT [e.nComponents, nm] fw).at2 _ _, (rT [e.nComponents, nm, nf] fm).at3 _ _ _, T.read _ _ (rT sc fc)⟩⟩⟩, ?_, rfl⟩
  unfold Sub.ready
  rw [dif_neg h0]
  have h1 : (gmmSub (G := G) T).read e.sub e.nComponents nf =
      some ⟨(rT [e.nComponents, nm] fw).at2 _ _, (rT [e.nComponents, nm, nf] fm).at3 _ _ _, T.read _ _ (rT sc fc)⟩ := by
    simp only [gmmSub, hw, hm, hc, Option.bind_eq_bind, Option.bind_some]
    rw [if_pos ⟨rfl, rfl, hs⟩]
    rfl
  have h2 : asRow e.nComponents (vec π) = some fun i => fin (π i) := by
    unfold vec asRow
    simp
  have h3 : asMat e.nComponents e.nComponents (mat A) = some fun i j => fin (A i j) := by
    unfold mat asMat
    simp
  simp only [hnf]
  simp only [hπ, hA, Option.bind_eq_bind, Option.bind_some, h2, h3, h1]
  rfl

theorem sampleCore_error {α G Obs : Type} [FloatLike α] {nc : ℕ} [NeZero nc] {R : RandomLib α G} {π : Fin nc → α}
    {A : Fin nc → Fin nc → α} {em : Fin nc → G → Except PyErr Obs × G} (c : Option (Fin nc)) {Q : PyErr → Prop}
    (h : ∀ z, (∀ k, c = some k → z = k) → ∀ g, ∃ err, Q err ∧ em z g = (.error err, g)) (n : Int) (g : G) :
    ∃ err, Q err ∧ (sampleCore R π A em n c g).1 = .error err := by
  unfold sampleCore
  cases c with
  | some k =>
    obtain ⟨err, h1, h2⟩ := h k (fun k' hk => Option.some.inj hk) g
    exact ⟨err, h1, by simp only [h2]⟩
  | none =>
    obtain ⟨err, h1, h2⟩ := h (drawState R π g).1 (fun k' hk => by cases hk) (drawState R π g).2
    exact ⟨err, h1, by simp only [h2]⟩

/-- **C68.** `sample` on a model that `_check` accepts.  If numpy's `choice` accepts the weights of
every state, it succeeds, from any state of the generator and for any number of samples.  If it
refuses the weights of the first state (of `currstate`, or of all states), `sample` raises
`ValueError`. -/
theorem C68_sample (hT : T.Checks) (hr : ∀ g, ∃ u, (R.rand g).1 = .fin u) (w : World XF G (GmmAttrs XF))
    {π : Fin w.est.nComponents → ℝ} {A : Fin w.est.nComponents → Fin w.est.nComponents → ℝ}
    (hπ : w.est.startprob = some (vec π)) (hA : w.est.transmat = some (mat A)) (h0 : w.est.nComponents ≠ 0)
    (hb : checkBase w.est = .ok ())
    {sw sm sc : List ℕ} {fw fm fc : List ℕ → ℝ} (hw : w.est.sub.weights = some (rT sw fw))
    (hm : w.est.sub.means = some (rT sm fm)) (hc : w.est.sub.covars = some (rT sc fc))
    (hok : ((gmmSub T).checkFitted w.est).1 = .ok ()) (n : Int) (seed c : Option ℕ)
    (hcur : ∀ k, c = some k → k < w.est.nComponents) :
    ((∀ z < w.est.nComponents, ChoiceOk fun k : Fin nm => fw [z, k]) →
      ∃ o, ((gmmSub T).sample R n seed c w).1 = .ok o) ∧
    ((∀ z < w.est.nComponents, (∀ k, c = some k → z = k) → ¬ ChoiceOk fun k : Fin nm => fw [z, k]) →
      ∃ msg, ((gmmSub T).sample R n seed c w).1 = .error (.valueError msg)) := by
  obtain ⟨c1, c2⟩ := C30_gmm hT w.est hb (by rw [hπ]; rfl) hw hm hc
  obtain ⟨nf, hnf, -, e1, -, e2, e3, -⟩ := c1.1 hok
  obtain ⟨nf', p, hnf', hst, -, p1, p2, p3⟩ := c2 hok
  obtain rfl : nf = nf' := Option.some.inj (hnf.symm.trans hnf')
  have hcf : (gmmSub T).checkFitted w.est = (.ok (), { w.est with nFeatures := some nf, sub := p }) :=
    Prod.ext hok hst
  obtain ⟨g, hg⟩ := sample_outcome (gmmSub T) R n seed c w hcf
  rw [hg]
  subst e1 e2
  have hsh : sc = T.shape w.est.nComponents nf := by rw [e3, hT.shape]
  obtain ⟨r, hrd, hrw⟩ := gmm_ready T (e := { w.est with nFeatures := some nf, sub := p }) (nf := nf) rfl h0 hπ hA
    (p1.trans hw) (p2.trans hm) hsh (p3.trans hc)
  constructor
  · intro hall
    obtain ⟨o, g', h⟩ := C36_total (R := R) hrd (fun z g => (C68_emission T r.θ.emission (fun z k => congrFun (congrFun hrw z) k)
      hr z g).1 (hall z z.isLt)) n c hcur g
    rw [h]
    exact ⟨o, rfl⟩
  · intro hbad
    unfold Sub.sampleFrom
    rw [hrd]
    haveI : NeZero w.est.nComponents := ⟨h0⟩
    have key : ∀ c' : Option (Fin w.est.nComponents), (∀ k, c = some k → c'.map Fin.val = some k) → (c = none → c' = none) →
        ∃ msg, ((gmmSub T).sampleWith R p r.θ n c' g).1 = .error (.valueError msg) := by
      intro c' h1 h2
      obtain ⟨err, ⟨msg, rfl⟩, h⟩ := sampleCore_error (R := R) (π := r.θ.startprob) (A := r.θ.transmat)
        (em := (gmmSub T).sampleSub R p r.θ.emission) c' (Q := fun err => ∃ msg, err = .valueError msg) (by
          intro z hz g
          obtain ⟨msg, h⟩ := (C68_emission T r.θ.emission (fun z k => congrFun (congrFun hrw z) k) hr z g).2
            (hbad z z.isLt fun k hk => by
              have := h1 k hk
              cases c' with
              | none => cases this
              | some k' => rw [hz k' rfl]; exact Option.some.inj this)
          exact ⟨_, ⟨msg, rfl⟩, h⟩) n g
      refine ⟨msg, ?_⟩
      unfold Sub.sampleWith
      generalize sampleCore R r.θ.startprob r.θ.transmat ((gmmSub T).sampleSub R p r.θ.emission) n c' g = q at h ⊢
      obtain ⟨q1, q2⟩ := q
      have h : q1 = _ := h
      subst h
      rfl
    cases c with
    | none => exact key none (fun k hk => by cases hk) fun _ => rfl
    | some k =>
      dsimp only
      rw [dif_pos (hcur k rfl)]
      exact key (some ⟨k, _⟩) (fun k' hk => by cases hk; rfl) fun hk => by cases hk

/-- **C68.** Two components with weights `0.5` and `0.500005`: `_check` accepts the model, and `sample`
raises `ValueError`, whatever the generator, the seed and the number of samples. -/
theorem C68_accepted_raises (R : RandomLib XF ℕ) (hr : ∀ g, ∃ u, (R.rand g).1 = .fin u) (n : Int) (seed : Option ℕ) :
    ∃ e : Est XF ℕ (GmmAttrs XF), ((gmmSub (nm := 2) gmmDiag).checkFitted e).1 = .ok () ∧
      ∀ glob, ∃ msg, ((gmmSub (nm := 2) gmmDiag).sample R n seed none ⟨e, glob⟩).1 = .error (.valueError msg) := by
  let wt : List ℕ → ℝ := fun i => if i = [0, 0] then 1 / 2 else 1 / 2 + 5 / 10 ^ 6
  have hok : ((gmmSub (nm := 2) gmmDiag).checkFitted (GmmCheckDemo.est wt fun _ => 1)).1 = .ok () := by
    rw [GmmCheckDemo.accepted]
    refine ⟨?_, zero_le_one, zero_le_one⟩
    simp only [wt, NearOne]
    norm_num
  refine ⟨_, hok, fun glob => ?_⟩
  refine (C68_sample (T := gmmDiag) gmmDiag_checks hr ⟨GmmCheckDemo.est wt fun _ => 1, glob⟩ rfl rfl
    (show (1 : ℕ) ≠ 0 from one_ne_zero) (GmmCheckDemo.base wt _) rfl rfl rfl hok n seed none (fun k hk => by cases hk)).2 ?_
  intro z hz _ h
  have hz : z < 1 := hz
  obtain rfl : z = 0 := by omega
  have h := h.2
  rw [Fin.sum_univ_two] at h
  simp only [wt, Fin.val_zero, Fin.val_one] at h
  norm_num at h

/-- **C68.** So does a negative weight: `(2, -1)` is accepted by `_check`. -/
theorem C68_negative (R : RandomLib XF ℕ) (hr : ∀ g, ∃ u, (R.rand g).1 = .fin u) (n : Int) (seed : Option ℕ) :
    ∃ e : Est XF ℕ (GmmAttrs XF), ((gmmSub (nm := 2) gmmDiag).checkFitted e).1 = .ok () ∧
      ∀ glob, ∃ msg, ((gmmSub (nm := 2) gmmDiag).sample R n seed none ⟨e, glob⟩).1 = .error (.valueError msg) := by
  let wt : List ℕ → ℝ := fun i => if i = [0, 0] then 2 else -1
  have hok : ((gmmSub (nm := 2) gmmDiag).checkFitted (GmmCheckDemo.est wt fun _ => 1)).1 = .ok () := by
    rw [GmmCheckDemo.accepted]
    refine ⟨?_, zero_le_one, zero_le_one⟩
    simp only [wt, NearOne]
    norm_num
  refine ⟨_, hok, fun glob => ?_⟩
  refine (C68_sample (T := gmmDiag) gmmDiag_checks hr ⟨GmmCheckDemo.est wt fun _ => 1, glob⟩ rfl rfl
    (show (1 : ℕ) ≠ 0 from one_ne_zero) (GmmCheckDemo.base wt _) rfl rfl rfl hok n seed none (fun k hk => by cases hk)).2 ?_
  intro z hz _ h
  have hz : z < 1 := hz
  obtain rfl : z = 0 := by omega
  have h := h.1 1
  simp only [wt, Fin.val_one] at h
  norm_num at h

/-- Weights `1/4` and `3/4` do sample. -/
example (n : Int) (seed : Option ℕ) (glob : ℕ) : ∃ (e : Est XF ℕ (GmmAttrs XF)) (o : _),
    ((gmmSub (nm := 2) gmmDiag).sample GmmSeedDemo.lib n seed none ⟨e, glob⟩).1 = .ok o := by
  let wt : List ℕ → ℝ := fun i => if i = [0, 0] then 1 / 4 else 3 / 4
  have hok : ((gmmSub (nm := 2) gmmDiag).checkFitted (GmmCheckDemo.est wt fun _ => 1)).1 = .ok () := by
    rw [GmmCheckDemo.accepted]
    refine ⟨?_, zero_le_one, zero_le_one⟩
    simp only [wt, NearOne]
    norm_num
  refine ⟨GmmCheckDemo.est wt fun _ => 1, ?_⟩
  refine (C68_sample (T := gmmDiag) gmmDiag_checks (fun g => ⟨1/2, rfl⟩) ⟨GmmCheckDemo.est wt fun _ => 1, glob⟩ rfl rfl
    (show (1 : ℕ) ≠ 0 from one_ne_zero) (GmmCheckDemo.base wt _) rfl rfl rfl hok n seed none (fun k hk => by cases hk)).1 ?_
  intro z hz
  have hz : z < 1 := hz
  obtain rfl : z = 0 := by omega
  constructor
  · intro k
    fin_cases k <;> norm_num [wt]
  · rw [Fin.sum_univ_two]
    simp only [wt, Fin.val_zero, Fin.val_one]
    norm_num

end c68

/-! ## C64: the observations follow the mixture -/

section c64
variable {G : Type} [MeasurableSpace G] {P : Measure G} [IsProbabilityMeasure P]

/-- Draw an index, then a value from the distribution with that index: a draw from the mixture. -/
theorem Spec.Draws.mix {β : Type} [MeasurableSpace β] {nm : ℕ} {u : G → ℝ} {nx : G → G}
    (h : Draws P (fun g => (u g, nx g)) uniform) {f : ℝ → Fin nm} (hf : Measurable f) {w : Fin nm → ℝ}
    (hw : ∀ k, uniform {x | f x = k} = ENNReal.ofReal (w k)) {e : Fin nm → G → β × G} {μ : Fin nm → Measure β}
    [∀ k, SFinite (μ k)] (he : ∀ k, Draws P (e k) (μ k)) :
    Draws P (fun g => e (f (u g)) (nx g)) (mixtureLaw w μ) := by
  have hm : Measurable fun g => e (f (u g)) (nx g) := by
    have h1 : Measurable fun q : Fin nm × G => e q.1 q.2 :=
      measurable_from_prod_countable_right fun k => (he k).measurable
    have h2 : Measurable fun g => (f (u g), nx g) :=
      (hf.comp (measurable_fst.comp h.measurable)).prodMk (measurable_snd.comp h.measurable)
    exact h1.comp h2
  refine ⟨hm, ?_⟩
  ext s hs
  rw [Measure.map_apply hm hs]
  unfold mixtureLaw
  rw [Measure.prod_sum_left, Measure.sum_apply _ hs, tsum_fintype]
  have hpre : (fun g => e (f (u g)) (nx g)) ⁻¹' s =
      ⋃ k ∈ (Finset.univ : Finset (Fin nm)), {g | u g ∈ {x | f x = k} ∧ nx g ∈ e k ⁻¹' s} := by
    ext g
    simp
  have hms : ∀ k, MeasurableSet {x | f x = k} := fun k => hf (measurableSet_singleton k)
  rw [hpre, measure_biUnion_finset]
  · refine Finset.sum_congr rfl fun k _ => ?_
    rw [h.prob (hms k) ((he k).measurable hs), hw, Measure.prod_smul_left, Measure.smul_apply, smul_eq_mul,
      ← (he k).law, Measure.map_apply (he k).measurable hs]
  · intro a _ b _ hab
    refine Set.disjoint_left.2 fun g ha hb => hab (ha.1.symm.trans hb.1)
  · intro k _
    exact ((hms k).preimage (measurable_fst.comp h.measurable)).inter
      (((he k).measurable hs).preimage (measurable_snd.comp h.measurable))

variable {nc nf nm : ℕ} [NeZero nc] [NeZero nm] {R : RandomLib XF G} {u : G → ℝ} {nx : G → G}
  {π : Fin nc → ℝ} {A : Fin nc → Fin nc → ℝ} [MeasurableSpace (Fin nf → XF)]
  {N : (Fin nf → ℝ) → (Fin nf → Fin nf → ℝ) → Measure (Fin nf → XF)}

instance (T : GmmType XF nm) : MeasurableSpace ((gmmSub (G := G) T).Obs nf) :=
  inferInstanceAs (MeasurableSpace (Fin nf → XF))

/-- **C64 for GMMHMM.** The component is drawn with the weights of the state, the observation from
that component's normal distribution; jointly with the states, observations follow the mixture of
the state. -/
theorem C64_gmm (T : GmmType XF nm) (hr : ∀ g, R.rand g = (.fin (u g), nx g))
    (hu : Draws P (fun g => (u g, nx g)) uniform) (p : GmmAttrs XF) {w : Fin nc → Fin nm → ℝ}
    (hw : ∀ i k, 0 ≤ w i k) (hws : ∀ i, ∑ k, w i k = 1) {m : Fin nc → Fin nm → Fin nf → ℝ} {c : T.C nc nf}
    {S : Fin nc → Fin nm → Fin nf → Fin nf → ℝ} (hS : ∀ i k, T.cov c i k = fun a b => fin (S i k a b))
    [∀ i k, SFinite (N (m i k) (S i k))]
    (hN : ∀ i k, Draws P (R.normal (fun a => fin (m i k a)) fun a b => fin (S i k a b)) (N (m i k) (S i k)))
    (hπ : ∀ i, 0 ≤ π i) (hπs : ∑ i, π i = 1) (hA : ∀ i j, 0 ≤ A i j) (hs : ∀ i, ∑ j, A i j = 1)
    {n : ℕ} (z : Fin (n + 1) → Fin nc) (B : Fin (n + 1) → Set (Fin nf → XF)) (hB : ∀ t, MeasurableSet (B t)) :
    P {g | ∃ y : Fin (n + 1) → Fin nf → XF, ((gmmSub T).sampleWith R p (nc := nc) (nf := nf)
        ⟨fun i => fin (π i), fun i j => fin (A i j), ⟨fun i k => fin (w i k), fun i k a => fin (m i k a), c⟩⟩
          ((n : Int) + 1) none g).1 = .ok (List.ofFn fun t => (z t).val, ⟨nf, List.ofFn y⟩) ∧ ∀ t, y t ∈ B t} =
      ENNReal.ofReal (π (z 0) * ∏ t : Fin n, A (z t.castSucc) (z t.succ)) *
        ∏ t, mixtureLaw (w (z t)) (fun k => N (m (z t) k) (S (z t) k)) (B t) := by
  have hch : ∀ i, ChoiceOk (w i) := fun i => ⟨hw i, by rw [hws, sub_self, abs_zero]; positivity⟩
  let e : (i : Fin nc) → Fin nm → G → (Fin nf → XF) × G := fun i k =>
    R.normal (fun a => fin (m i k a)) fun a b => fin (S i k a b)
  refine C64_joint (gmmSub T) p
    (⟨fun i k => fin (w i k), fun i k a => fin (m i k a), c⟩ : Gmm.Params XF nc nm nf (T.C nc nf))
    (u := u) (nx := nx) (x := fun i g => (e i (pick (w i) (u g)) (nx g)).1)
    (gx := fun i g => (e i (pick (w i) (u g)) (nx g)).2)
    (ν := fun i => mixtureLaw (w i) fun k => N (m i k) (S i k)) ?_ hπ hπs hA hs z B hB
  refine ⟨hr, hu, fun i g => ?_, fun i => ?_⟩
  · show gmmSample T R _ i g = _
    unfold gmmSample
    rw [npChoice_ok (hch i) (hr g)]
    simp only [hws, div_one, hS]
    rfl
  · exact hu.mix (measurable_pick _) (uniform_pick (hw i) (hws i)) (hN i)

/-- **C64 for GMMHMM.** The matrix passed to `multivariate_normal`, by covariance type: `covars_[i, k]`
as it is, the one matrix `covars_[i]` of the state, the diagonal matrix of `covars_[i, k]`, and
`covars_[i, k]` times the identity. -/
theorem C64_gmm_cov (eig : Eigvalsh XF) (i : Fin nc) (k : Fin nm) :
    (∀ S : Fin nc → Fin nm → Fin nf → Fin nf → ℝ,
      (gmmFull (nm := nm) eig).cov (nc := nc) (nf := nf) (fun i k a b => fin (S i k a b)) i k = fun a b => fin (S i k a b)) ∧
    (∀ S : Fin nc → Fin nf → Fin nf → ℝ,
      (gmmTied (nm := nm) eig).cov (nc := nc) (nf := nf) (fun i a b => fin (S i a b)) i k = fun a b => fin (S i a b)) ∧
    (∀ v : Fin nc → Fin nm → Fin nf → ℝ,
      (gmmDiag (nm := nm)).cov (nc := nc) (nf := nf) (fun i k a => fin (v i k a)) i k =
        fun a b => fin (Matrix.diagonal (v i k) a b)) ∧
    (∀ s : Fin nc → Fin nm → ℝ,
      (gmmSpherical (nm := nm)).cov (nc := nc) (nf := nf) (fun i k => fin (s i k)) i k =
        fun a b => fin (Matrix.diagonal (fun _ => s i k) a b)) :=
  ⟨fun _ => rfl, fun _ => rfl, fun v => npDiag_fin (v i k), fun s => scaledEye_fin (s i k)⟩

end c64

/-- **C64**, one state, two components with weights `1/4` and `3/4`: if each component is a point mass
at its mean (the variances are zero), the observation `3` has probability `3/4`. -/
example (R : RandomLib XF (ℕ → IdealLib.Ω)) (p : GmmAttrs XF) :
    letI : MeasurableSpace (Fin 1 → XF) := ⊤
    ∃ R' : RandomLib XF (ℕ → IdealLib.Ω),
      IdealStream.lawOf IdealLib.μ {g | ∃ y : Fin 1 → Fin 1 → XF, ((gmmSub (nm := 2) gmmDiag).sampleWith R' p
        (nc := 1) (nf := 1) ⟨fun _ => fin 1, fun _ _ => fin 1,
          ⟨fun _ k => fin (![1/4, 3/4] k), fun _ k _ => fin (![0, 3] k), fun _ _ _ => fin 0⟩⟩ 1 none g).1 =
          .ok ([0], ⟨1, List.ofFn y⟩) ∧ ∀ t, y t ∈ {x : Fin 1 → XF | x 0 = fin 3}} = ENNReal.ofReal (3 / 4) := by
  letI : MeasurableSpace (Fin 1 → XF) := ⊤
  obtain ⟨R', hr, hu, -, -⟩ := IdealLib.C64_library_exists R
  refine ⟨{ R' with normal := fun m _ g => (m, g) }, ?_⟩
  have h := C64_gmm (P := IdealStream.lawOf IdealLib.μ) (nc := 1) (nf := 1) (nm := 2) gmmDiag
    (R := { R' with normal := fun m _ g => (m, g) }) hr hu p
    (w := fun _ => ![1/4, 3/4]) (m := fun _ k _ => ![0, 3] k) (c := fun _ _ _ => fin 0)
    (S := fun _ _ => Matrix.diagonal fun _ => 0) (N := fun m _ => Measure.dirac fun a => fin (m a))
    (π := fun _ => 1) (A := fun _ _ => 1)
    (by intro i k; fin_cases k <;> norm_num) (by intro i; norm_num [Fin.sum_univ_two])
    (fun i k => npDiag_fin fun _ => 0)
    (fun i k => ⟨measurable_const.prodMk measurable_id, by rw [Measure.dirac_prod]⟩)
    (fun _ => zero_le_one) (by simp) (fun _ _ => zero_le_one) (by simp) (n := 0) (fun _ => 0)
    (fun _ => {x | x 0 = fin 3}) (fun _ => trivial)
  refine Eq.trans ?_ (h.trans ?_)
  · rfl
  · simp [mixtureLaw, Measure.sum_apply, tsum_fintype, Fin.sum_univ_two]

end Verif
