import Verif.Proofs.VObjectFit
import Verif.Props.ObjectFit
import Verif.Props.Variational

/-!
# C78: `fit` of a `VariationalCategoricalHMM` object, from the call to the trained attributes
-/

set_option autoImplicit false

namespace Verif
open FloatLike XF Hmmc Spec
open scoped Classical

variable {G Q D : Type} {R : RandomLib XF G} {sci : Sci XF}

/-- `lengths` as `_init` receives it. -/
theorem lengths_counts {ss : List (ObsSeq D)} {ls : Option (List Int)} (hl : LengthsFor ss ls) {n : ℕ}
    (hn : n = (samples ss).length) : (ls.getD [(n : Int)]).length = ss.length ∧ (ls.getD [(n : Int)]).sum = (n : ℤ) := by
  have hlen : ∀ ss : List (ObsSeq D), (dataLengths ss).sum = ((samples ss).length : ℤ) := by
    intro ss
    induction ss with
    | nil => rfl
    | cons s ss ih =>
      have e1 : (dataLengths (s :: ss)).sum = (s.n : ℤ) + 1 + (dataLengths ss).sum := by simp [dataLengths]
      have e2 : (samples (s :: ss)).length = s.n + 1 + (samples ss).length := by simp [samples]; omega
      rw [e1, e2, ih]
      push_cast
      ring
  rcases hl with rfl | ⟨⟨s, rfl⟩, rfl⟩
  · exact ⟨by simp [dataLengths], by rw [hn]; exact hlen ss⟩
  · exact ⟨rfl, by simp⟩

/-! ## `_init` -/

/-- `_init` of a `VariationalCategoricalHMM`. -/
theorem vcat_starts (hR : PositiveDraws R) {nf : ℕ} (hf : nf ≠ 0) {X : XArr XF} {w : World XF G (VAttrs XF (VCatAttrs XF))}
    (hc : catCheckFeatures X w.est = (.ok (), { w.est with nFeatures := some nf }))
    (h0 : w.est.nComponents ≠ 0) (hg : VGivenCat w.est nf) (hp : ∀ c ∈ w.est.params, c ∈ ['s', 't', 'e'])
    {lens : List Int} {nx : ℕ} (hl : lens.length ≠ 0) (hs : lens.sum = (nx : ℤ)) (hx : nx ≠ 0) :
    ∃ (rs : RandomState G) (g : G) (p m : CatPost w.est.nComponents nf),
      (vcatSub sci).init R X lens w = (.ok (), ⟨{ w.est with
        nFeatures := some nf, randomState := rs
        sub :=
          { chain := { w.est.sub.chain with startPrior := some (vec p.s), startPost := some (vec m.s)
                                            transPrior := some (mat p.t), transPost := some (mat m.t) }
            sub := { w.est.sub.sub with emPrior := some (mat p.e), emPost := some (mat m.e) } } }, g⟩) ∧
      VStartsCat w.est lens.length nx p m := by
  obtain ⟨rs, g, sp, s, tp, t, h1, h2⟩ := vinitBase_starts (V := vcatSub sci) hR hc h0 hg.chain ['s', 't', 'e']
    (fun _ => rfl) hp hl hs hx
  have hncpos : (0 : ℝ) < w.est.nComponents := by exact_mod_cast Nat.pos_of_ne_zero h0
  have hxpos : (0 : ℝ) < nx := by exact_mod_cast Nat.pos_of_ne_zero hx
  generalize hw1 : (⟨{ w.est with nFeatures := some nf, randomState := rs, sub := { w.est.sub with
        chain := { w.est.sub.chain with startPrior := some (vec sp), startPost := some (vec s),
                                        transPrior := some (mat tp), transPost := some (mat t) } } }, g⟩ :
      World XF G (VAttrs XF (VCatAttrs XF))) = w1 at h1
  by_cases hfr : Fresh w.est 'e' w.est.sub.sub.emPost
  · obtain ⟨x, hx1, hx2⟩ := hg.emission hfr
    obtain ⟨rs', g', hgen, -, -⟩ := withSelfGen_eq R (drawMany (R.dirichlet fun _ : Fin nf => fin x) w.est.nComponents)
      { w1 with est := { w1.est with sub := { w1.est.sub with sub := { w1.est.sub.sub with
          emPrior := some (mat fun (_ : Fin w.est.nComponents) (_ : Fin nf) => x) } } } }
    obtain ⟨v, hv, hve⟩ := drawMany_real (R.dirichlet fun _ : Fin nf => fin x) (fun (q : Fin nf → ℝ) i => fin (q i))
      (fun q => (∀ i, 0 < q i) ∧ ∑ i, q i = 1) (fun g => by
        obtain ⟨q, h1, h2, h3⟩ := hR.dirichlet x g hf hx2
        exact ⟨q, ⟨h1, h2⟩, h3⟩) w.est.nComponents (selfGen R { w1 with est := { w1.est with sub := { w1.est.sub with sub := { w1.est.sub.sub with
          emPrior := some (mat fun (_ : Fin w.est.nComponents) (_ : Fin nf) => x) } } } })
    rw [hve] at hgen
    refine ⟨rs', g', ⟨sp, tp, fun _ _ => x⟩, ⟨s, t, fun i k => v i k * nx / w.est.nComponents⟩, ?_,
      ⟨h2, fun _ _ => hx2, fun i k => div_pos (mul_pos ((hv i).1 k) hxpos) hncpos, fun h => absurd hfr h, fun _ => ⟨x, hx1, rfl, fun i => ?_⟩⟩⟩
    · refine (Py.bind_ok h1).trans ?_
      show vcatInit R X lens w1 = _
      unfold vcatInit
      refine (Py.bind_ok (Py.get_apply _)).trans ?_
      have hneed : needsInit w1.est.initParams 'e' w1.est.sub.sub.emPost.isSome = true := by
        subst hw1; exact (needsInit_iff _ _ _).2 hfr
      have hinit : w1.est.sub.sub.emissionprobPrior.getD (.d0 (1 / ofNat' (w1.est.nFeatures.getD 0))) = (.d0 (fin x) : NdArray XF) := by
        subst hw1
        show w.est.sub.sub.emissionprobPrior.getD (.d0 (1 / ofNat' nf)) = _
        have hnf : (nf : ℝ) ≠ 0 := by exact_mod_cast hf
        generalize w.est.sub.sub.emissionprobPrior = a at hx1
        cases hx1 with
        | default =>
          show NdArray.d0 (fin 1 / fin (nf : ℝ)) = _
          rw [fin_div _ _ hnf]
        | scalar x => rfl
      simp only [hneed, if_true, hinit]
      have hnc1 : w1.est.nComponents = w.est.nComponents := by subst hw1; rfl
      have hnf1 : w1.est.nFeatures = some nf := by subst hw1; rfl
      have hlex : ¬ (le (fin x) 0 : Bool) = true := by
        rw [zero_def, fin_le, decide_eq_true_eq]
        exact not_le.2 hx2
      subst hw1
      simp only [fullMat, Py.bind_apply, Py.lift_apply, onEst, Py.modify_apply, hlex, if_false]
      refine (Py.bind_ok hgen).trans ?_
      simp only [onEst, Py.modify_apply]
      rw [hs]
      simp [mat, fin_div _ _ hncpos.ne']
    · rw [← Finset.sum_div, ← Finset.sum_mul, (hv i).2, one_mul]
  · obtain ⟨ep, em, k1, k2, k3, k4⟩ := hg.emission_set hfr
    refine ⟨rs, g, ⟨sp, tp, ep⟩, ⟨s, t, em⟩, ?_, ⟨h2, k3, k4, fun _ => ⟨k1, k2⟩, fun h => absurd h hfr⟩⟩
    refine (Py.bind_ok h1).trans ?_
    show vcatInit R X lens w1 = _
    unfold vcatInit
    refine (Py.bind_ok (Py.get_apply _)).trans ?_
    have hneed : needsInit w1.est.initParams 'e' w1.est.sub.sub.emPost.isSome = false := by
      subst hw1
      rw [← Bool.not_eq_true]
      exact fun h => hfr ((needsInit_iff _ _ _).1 h)
    simp only [hneed, Bool.false_eq_true, if_false]
    subst hw1
    simp only
    rw [← k1, ← k2]
    rfl

/-! ## `_check` -/

theorem vcat_check {nc nf : ℕ} {e : VEst XF G (VCatAttrs XF)} {p m : CatPost nc nf} (h : VStoresCat p e m) :
    vcatCheck e = (.ok (), e) := by
  obtain ⟨⟨rfl, h2, h3, h4, h5, h6⟩, h7, h8⟩ := h
  have hb : vcheckBase e = .ok () := by
    simp only [vcheckBase, h3, h4, h5, h6, checkLen, checkShape, vec, mat, NdArray.shape]
    simp [bind, Except.bind]
  have h7' : atleast2d (mat p.e) = mat p.e := rfl
  have h8' : atleast2d (mat m.e) = mat m.e := rfl
  have hs : (mat p.e).shape = [e.nComponents, nf] := rfl
  have hs' : (mat m.e).shape = [e.nComponents, nf] := rfl
  simp only [vcatCheck, hb, h7, h8, h7', h8', hs, hs', h2, ne_eq, not_true_eq_false, if_false, Option.isNone_some,
    Bool.false_eq_true, Option.getD_some]
  rw [← h7, ← h8, ← h2]

/-! ## `fit` -/

/-- Settings of the object: at least one state and one iteration, a known implementation, and `transmat_` is
trained or was set (`fit` reads it after every iteration). -/
structure Spec.VSettings (e : VEst XF G Q) (impl : Impl) : Prop where
  nComponents : e.nComponents ≠ 0
  nIter : e.nIter ≠ 0
  implementation : e.implementation = implName impl
  transmat : 't' ∈ e.params ∨ e.transmat.isSome

/-- The inference methods of an object that holds posteriors and their means. -/
theorem vcat_answers {nf : ℕ} {e : VEst XF G (VCatAttrs XF)} {p m : CatPost e.nComponents nf} (hst : VStoresCat p e m)
    (h0 : e.nComponents ≠ 0) (hm1 : ∀ i, 0 < m.s i) (hm2 : ∀ i j, 0 < m.t i j) (hm3 : ∀ i k, 0 < m.e i k)
    (g1 : e.startprob = some (vec (dirMean m.s))) (g2 : e.transmat = some (mat fun i => dirMean (m.t i)))
    (g3 : e.sub.sub.emissionprob = some (mat fun i => dirMean (m.e i))) :
    AnswersBy (vmethodsOf (vcatSub sci)) e symbolsX (dirMean m.s) (fun i => dirMean (m.t i))
      (catB fun i => dirMean (m.e i)) := by
  haveI : NeZero e.nComponents := ⟨h0⟩
  have hch : HoldsChain e (dirMean m.s) (fun i => dirMean (m.t i)) :=
    ⟨g1, g2, fun i => (dirMean_pos hm1 i).le, fun i j => (dirMean_pos (hm2 i) j).le,
      by rw [sum_dirMean hm1]; simp [NearOne]; positivity,
      fun i => by rw [sum_dirMean (hm2 i)]; simp [NearOne]; positivity⟩
  have he : { e with nFeatures := some nf, sub := e.sub } = e := by rw [← hst.chain.nFeatures]
  refine vanswers_of ?_ ?_ ?_
  · unfold VSub.checkFitted
    refine (Py.bind_ok (Py.get_apply _)).trans ?_
    have : e.startprob.isNone = false := by rw [g1]; rfl
    simp only [this, Bool.false_eq_true, if_false]
    exact vcat_check hst
  · exact hch.fitted
  · refine answers_of hch (S := vcatCore) (nf := nf) (p := e.sub) (by rw [he]; rfl)
      (θ := fun i k => fin (dirMean (m.e i) k)) ?_ Categorical.sym (fun impl => ?_) symbols_data
    · show e.sub.sub.emissionprob.bind (asMat e.nComponents nf) = _
      rw [g3, Option.bind_some]
      exact asMat_mat _
    · exact Categorical.represents _ impl hch.π_nonneg hch.A_nonneg fun i k => (dirMean_pos (hm3 i) k).le

theorem vcat_loop (hsci : sci.Exact) {nf : ℕ} [NeZero nf] {impl : Impl} {e : VEst XF G (VCatAttrs XF)}
    (hset : VSettings e impl) {p m : CatPost e.nComponents nf} (hst : VStoresCat p e m)
    (hp1 : ∀ i, 0 < p.s i) (hp2 : ∀ i j, 0 < p.t i j) (hp3 : ∀ i k, 0 < p.e i k)
    (hm1 : ∀ i, 0 < m.s i) (hm2 : ∀ i j, 0 < m.t i j) (hm3 : ∀ i k, 0 < m.e i k)
    {sP : Option (Fin e.nComponents → ℝ)} (h1 : e.startprob = sP.map vec)
    {tP : Option (Fin e.nComponents → Fin e.nComponents → ℝ)} (h2 : e.transmat = tP.map mat)
    {eP : Option (Fin e.nComponents → Fin nf → ℝ)} (h3 : e.sub.sub.emissionprob = eP.map mat)
    {ss : List (ObsSeq (Fin nf))} (hne : ss ≠ []) {X' : XArr XF}
    (hX : catRows X' = .ok ((samples ss).map Categorical.sym)) {ls : Option (List Int)} (hl : LengthsFor ss ls) :
    VTrainsFrom (vcatTraining sci p e.params ss) m e impl ((vcatSub sci).loop X' ls e) := by
  haveI : NeZero e.nComponents := ⟨hset.nComponents⟩
  let F := VCategorical.family (nc := e.nComponents) hsci hp3 e.params
  let c : RConfig e.nComponents := ⟨p.s, p.t, impl, e.nIter⟩
  let r0 : VR e.nComponents (VCategorical.R e.nComponents nf) := ⟨m.s, m.t, sP, tP, ⟨m.e, eP, hm3⟩⟩
  let pt : VR e.nComponents (VCategorical.R e.nComponents nf) → CatPost e.nComponents nf := fun r => ⟨r.s, r.t, r.q.post⟩
  have hc : c.Pos := ⟨hp1, hp2⟩
  have hr0 : r0.Pos := ⟨hm1, hm2⟩
  have hput : ∀ r mon, VStoresCat p ((vcatSub sci).put (nf := nf) e (F.theta r) mon) (pt r) := fun r mon =>
    ⟨⟨rfl, hst.chain.nFeatures, hst.chain.startPrior, hst.chain.transPrior, rfl, rfl⟩, hst.emPrior, rfl⟩
  have hup : CatUpdates p.s p.t p.e e.params ss (fun k => ((F.vstep c ss)^[k] r0).s) (fun k => ((F.vstep c ss)^[k] r0).t)
      (fun k => ((F.vstep c ss)^[k] r0).q.post) := by
    refine ⟨?_, ?_, ?_⟩
    · intro k; rw [Function.iterate_succ_apply']; rfl
    · intro k; rw [Function.iterate_succ_apply']; rfl
    · intro k
      rw [Function.iterate_succ_apply']
      have hpos : ((F.vstep c ss)^[k] r0).Pos := F.iterate_pos hc ss hr0 k
      generalize (F.vstep c ss)^[k] r0 = r at hpos
      by_cases hE : 'e' ∈ e.params
      · simp only [hE, if_true]
        funext i v
        have hT := obsStat_nonneg hpos.valid.π_nonneg hpos.valid.A_nonneg (F.F.b_nonneg r.q) ss i
          (VCategorical.ind_nonneg v)
        have e1 : (F.vstep c ss r).q.post i v = p.e i v + max (obsStat r.weights.π r.weights.A
            (F.F.b r.q) ss i (Categorical.ind v)) 0 := by
          simp [VFamily.vstep, F, VCategorical.family, hE, VCategorical.nextR]
        rw [e1, max_eq_left hT]
        congr 1
        exact emitCount_eq ss i v
      · simp only [hE, if_false]
        simp [VFamily.vstep, F, VCategorical.family, hE]
  refine vloop_trains (V := vcatSub sci) F (c := c) (r := r0) (vcatTraining sci p e.params ss) hsci hset.implementation rfl
    hset.nIter hc hr0 hst.chain h1 h2 ?_ ?_ hne hX hl ?_ pt (fun r => rfl) hup (fun r mon _ => hput r mon)
    (fun r mon hr => ?_) fun r mon hr hs ht he => ?_
  · show e.sub.sub.emPrior.bind (asMat e.nComponents nf) = _
    rw [hst.emPrior]
    exact asMat_mat _
  · show (do
      let post ← e.sub.sub.emPost.bind (asMat e.nComponents nf)
      return (⟨post, e.sub.sub.emissionprob.bind (asMat e.nComponents nf)⟩ : VCategorical.Params XF e.nComponents nf)) = _
    rw [hst.emPost, attr_mat h3]
    simp only [Option.bind_some, asMat_mat]
    rfl
  · rcases hset.transmat with h | h
    · exact .inl h
    · right
      rw [h2] at h
      simpa using h
  · refine ⟨⟨fun h => ?_, fun h => ?_⟩, fun h => ?_⟩
    · have : (F.vstep c ss r).sp = some (dirMean (F.vstep c ss r).s) := by simp [VFamily.vstep, h]
      show (((F.vstep c ss r).sp.map fun p i => fin (p i)).map NdArray.d1 <|> e.startprob) = _
      rw [this]
      rfl
    · have : (F.vstep c ss r).tp = some (fun i => dirMean ((F.vstep c ss r).t i)) := by simp [VFamily.vstep, h]
      show (((F.vstep c ss r).tp.map fun p i j => fin (p i j)).map NdArray.d2 <|> e.transmat) = _
      rw [this]
      rfl
    · have : (F.vstep c ss r).q.prob = some (fun i => dirMean ((F.vstep c ss r).q.post i)) := by
        simp [VFamily.vstep, F, VCategorical.family, h, VCategorical.nextR]
      show ((F.emb (F.vstep c ss r).q).prob.map NdArray.d2 <|> e.sub.sub.emissionprob) = _
      show (((F.vstep c ss r).q.prob.map fun e i k => fin (e i k)).map NdArray.d2 <|> e.sub.sub.emissionprob) = _
      rw [this]
      rfl
  · have hr' := F.vstep_pos hc ss hr
    have es : (F.vstep c ss r).sp = some (dirMean (F.vstep c ss r).s) := by simp [VFamily.vstep, hs]
    have et : (F.vstep c ss r).tp = some (fun i => dirMean ((F.vstep c ss r).t i)) := by simp [VFamily.vstep, ht]
    have ee : (F.vstep c ss r).q.prob = some (fun i => dirMean ((F.vstep c ss r).q.post i)) := by
      simp [VFamily.vstep, F, VCategorical.family, he, VCategorical.nextR]
    refine vcat_answers (e := (vcatSub sci).put (nf := nf) e (F.theta (F.vstep c ss r)) mon) (p := p)
      (m := pt (F.vstep c ss r)) (hput _ mon) hset.nComponents hr'.s hr'.t (F.vstep c ss r).q.pos ?_ ?_ ?_
    · show (((F.vstep c ss r).sp.map fun p i => fin (p i)).map NdArray.d1 <|> e.startprob) = _
      rw [es]
      rfl
    · show (((F.vstep c ss r).tp.map fun p i j => fin (p i j)).map NdArray.d2 <|> e.transmat) = _
      rw [et]
      rfl
    · show (((F.vstep c ss r).q.prob.map fun e i k => fin (e i k)).map NdArray.d2 <|> e.sub.sub.emissionprob) = _
      rw [ee]
      rfl

/-- **C78** `fit` of a `VariationalCategoricalHMM`: any data set, any priors that can be passed or were set,
any `params`, `init_params` and implementation. -/
theorem C78_categorical (hsci : sci.Exact) (hR : PositiveDraws R) {nf : ℕ} {impl : Impl}
    {w : World XF G (VAttrs XF (VCatAttrs XF))} (hset : VSettings w.est impl)
    (hp : ∀ c ∈ w.est.params, c ∈ ['s', 't', 'e']) (hg : VGivenCat w.est nf) {ss : List (ObsSeq (Fin nf))} (hne : ss ≠ [])
    (hnf : SymbolCount w.est ss) {ls : Option (List Int)} (hl : LengthsFor ss ls) :
    ∃ p m₀ : CatPost w.est.nComponents nf, VStartsCat w.est ss.length (samples ss).length p m₀ ∧
      VTrainsFrom (vcatTraining sci p w.est.params ss) m₀ w.est impl
        (((vcatSub sci).fit R (symbolsX (samples ss)) ls w).1, ((vcatSub sci).fit R (symbolsX (samples ss)) ls w).2.est) := by
  have hf : nf ≠ 0 := by
    rintro rfl
    obtain ⟨o, -⟩ := List.exists_mem_of_ne_nil _ (samples_ne hne)
    exact o.elim0
  haveI : NeZero nf := ⟨hf⟩
  obtain ⟨X', hX, hn, hrows, hcf⟩ := symbol_features hne hnf
  obtain ⟨l1, l2⟩ := lengths_counts hl hn
  have hx0 : X'.n ≠ 0 := by
    rw [hn]; exact fun h => samples_ne hne (List.length_eq_zero_iff.1 h)
  obtain ⟨rs, g, p, m, hinit, hm⟩ := vcat_starts (sci := sci) hR hf hcf hset.nComponents hg hp
    (lens := ls.getD [(X'.n : Int)]) (nx := X'.n) (by rw [l1]; exact fun h => hne (List.length_eq_zero_iff.1 h)) l2 hx0
  rw [l1, hn] at hm
  refine ⟨p, m, hm, ?_⟩
  obtain ⟨sP, hsP⟩ := hg.chain.startprob
  obtain ⟨tP, htP⟩ := hg.chain.transmat
  obtain ⟨eP, heP⟩ := hg.emissionprob
  generalize hw1 : (⟨{ w.est with
        nFeatures := some nf, randomState := rs
        sub :=
          { chain := { w.est.sub.chain with startPrior := some (vec p.s), startPost := some (vec m.s)
                                            transPrior := some (mat p.t), transPost := some (mat m.t) }
            sub := { w.est.sub.sub with emPrior := some (mat p.e), emPost := some (mat m.e) } } }, g⟩ :
      World XF G (VAttrs XF (VCatAttrs XF))) = w1 at hinit
  have hst : VStoresCat p w1.est m := by subst hw1; exact ⟨⟨rfl, rfl, rfl, rfl, rfl, rfl⟩, rfl, rfl⟩
  have hcheck : (vcatSub sci).check w1.est = (.ok (), w1.est) := by
    subst hw1
    exact vcat_check (p := p) (m := m) hst
  have hs1 : SameSettings w.est w1.est := by subst hw1; exact ⟨rfl, rfl, rfl, rfl, rfl, rfl, rfl, rfl, rfl⟩
  rw [VSub.fit_eq hX ls hinit hcheck]
  subst hw1
  obtain ⟨t1, t2, t3, t4⟩ := vcat_loop (e := { w.est with
        nFeatures := some nf, randomState := rs
        sub :=
          { chain := { w.est.sub.chain with startPrior := some (vec p.s), startPost := some (vec m.s)
                                            transPrior := some (mat p.t), transPost := some (mat m.t) }
            sub := { w.est.sub.sub with emPrior := some (mat p.e), emPost := some (mat m.e) } } })
    hsci ⟨hset.nComponents, hset.nIter, hset.implementation, hset.transmat⟩ hst hm.chain.sp_pos hm.chain.tp_pos hm.ep_pos
    hm.chain.s_pos hm.chain.t_pos hm.e_pos hsP htP heP hne hrows hl
  exact ⟨t1, ⟨t2.1.trans hs1.1, t2.2.trans hs1.2, t2.3.trans hs1.3, t2.4.trans hs1.4, t2.5.trans hs1.5,
    t2.6.trans hs1.6, t2.7.trans hs1.7, t2.8.trans hs1.8, t2.9.trans hs1.9⟩, t3, t4⟩

/-! ## Consequences -/

/-- **C78** With the default `params` and `init_params` and the `log` implementation, whatever was set before and
whatever concentrations were passed, `fit` returns, and `score`, `predict_proba`, `decode` and `predict` of the
fitted object answer for the means of the posteriors it holds; `score` of any data set is a number. -/
theorem C78_categorical_fresh (hsci : sci.Exact) (hR : PositiveDraws R) {nf : ℕ}
    {w : World XF G (VAttrs XF (VCatAttrs XF))} (hset : VSettings w.est .log)
    (hpar : w.est.params = ['s', 't', 'e']) (hinit : w.est.initParams = ['s', 't', 'e'])
    {sp : Fin w.est.nComponents → ℝ} (h1 : StartArg w.est.sub.chain.startprobPrior sp) (hsp : ∀ i, 0 < sp i)
    {tp : Fin w.est.nComponents → Fin w.est.nComponents → ℝ} (h2 : TransArg w.est.sub.chain.transmatPrior tp)
    (htp : ∀ i j, 0 < tp i j) {x : ℝ} (h3 : EmissionArg (nf := nf) w.est.sub.sub.emissionprobPrior x) (hx : 0 < x)
    (h4 : ∃ v : Option (Fin w.est.nComponents → ℝ), w.est.startprob = v.map vec)
    (h5 : ∃ v : Option (Fin w.est.nComponents → Fin w.est.nComponents → ℝ), w.est.transmat = v.map mat)
    (h6 : ∃ v : Option (Fin w.est.nComponents → Fin nf → ℝ), w.est.sub.sub.emissionprob = v.map mat)
    {ss : List (ObsSeq (Fin nf))} (hne : ss ≠ []) (hnf : SymbolCount w.est ss) {ls : Option (List Int)}
    (hl : LengthsFor ss ls) :
    let res := (vcatSub sci).fit R (symbolsX (samples ss)) ls w
    res.1 = .ok () ∧ ∃ p m : CatPost w.est.nComponents nf, VStoresCat p res.2.est m ∧
      AnswersBy (vmethodsOf (vcatSub sci)) res.2.est symbolsX (dirMean m.s) (fun i => dirMean (m.t i))
        (catB fun i => dirMean (m.e i)) ∧
      ∀ ss' : List (ObsSeq (Fin nf)), ss' ≠ [] → ∃ v : ℝ,
        ((vcatSub sci).score (symbolsX (samples ss')) (some (dataLengths ss')) res.2.est).1 = .ok (fin v) := by
  intro res
  have f1 : FreshPair w.est 's' w.est.sub.chain.startPost w.est.sub.chain.startPrior := .inl (by simp [hinit])
  have f2 : FreshPair w.est 't' w.est.sub.chain.transPost w.est.sub.chain.transPrior := .inl (by simp [hinit])
  have f3 : Fresh w.est 'e' w.est.sub.sub.emPost := .inl (by simp [hinit])
  obtain ⟨p, m₀, hm, t1, t2, -, t4⟩ := C78_categorical hsci hR hset (by simp [hpar])
    ⟨⟨fun _ => ⟨sp, h1, hsp⟩, fun h => absurd f1 h, fun _ => ⟨tp, h2, htp⟩, fun h => absurd f2 h, h4, h5⟩,
      fun _ => ⟨x, h3, hx⟩, fun h => absurd f3 h, h6⟩ hne hnf hl
  have hok : res.1 = .ok () := by
    rcases t1 with h | ⟨h, -⟩
    · exact h
    · exact absurd h (by decide)
  obtain ⟨n, m, k1, -, k2, k3, k4, -, -, -, k5⟩ := t4
  have ha := k5 hok (by simp [hpar]) (by simp [hpar]) (by simp [hpar])
  refine ⟨hok, p, m n, k4, ha, fun ss' hne' => ?_⟩
  haveI : NeZero w.est.nComponents := ⟨hset.nComponents⟩
  have hpos : ∀ k, (∀ i, 0 < (m k).s i) ∧ (∀ i j, 0 < (m k).t i j) ∧ ∀ i v, 0 < (m k).e i v := by
    intro k
    induction k with
    | zero => rw [k1]; exact ⟨hm.chain.s_pos, hm.chain.t_pos, hm.e_pos⟩
    | succ k ih =>
      have e1 := k3.start k
      have e2 := k3.trans k
      have e3 := k3.emit k
      rw [if_pos (by simp [hpar])] at e1 e2 e3
      have w1 : ∀ i, 0 ≤ expWeight (m k).s i := fun i => (expWeight_pos _ _).le
      have w2 : ∀ i j, 0 ≤ expWeights (m k).t i j := fun i j => (expWeight_pos _ _).le
      have w3 : ∀ (o : Fin nf) i, 0 ≤ catB (expWeights (m k).e) o i := fun o i => (expWeight_pos _ _).le
      refine ⟨fun i => ?_, fun i j => ?_, fun i v => ?_⟩
      · rw [e1]
        exact add_pos_of_pos_of_nonneg (hm.chain.sp_pos i) (startStat_nonneg w1 w2 w3 ss i)
      · rw [e2]
        exact add_pos_of_pos_of_nonneg (hm.chain.tp_pos i j) (transStat_nonneg w1 w2 w3 ss i j)
      · rw [e3]
        refine add_pos_of_pos_of_nonneg (hm.ep_pos i v) ?_
        rw [← emitCount_eq]
        exact obsStat_nonneg w1 w2 w3 ss i (VCategorical.ind_nonneg v)
  obtain ⟨q1, q2, q3⟩ := hpos n
  have hL := dataLikelihood_pos (nc := w.est.nComponents) (π := dirMean (m n).s) (A := fun i => dirMean ((m n).t i))
    (b := catB fun i => dirMean ((m n).e i)) (fun i => dirMean_pos q1 i) (fun i j => dirMean_pos (q2 i) j)
    (fun o i => dirMean_pos (q3 i) o) ss'
  refine ⟨Real.log (dataLikelihood (dirMean (m n).s) (fun i => dirMean ((m n).t i)) (catB fun i => dirMean ((m n).e i)) ss'), (ha.score ?_ ss' _ hne' (.inl rfl)).trans ?_⟩
  · rw [t2.implementation, hset.implementation]; rfl
  · rw [xlog, if_neg hL.ne']

section
variable {α : Type} [FloatLike α] {P : Type}

/-- A call that changes neither `init_params`, the attributes of the emissions, nor `n_components`. -/
def KeepsEmission {β : Type} (x : Py (World α G (VAttrs α Q)) β) : Prop :=
  ∀ w, (x w).2.est.initParams = w.est.initParams ∧ (x w).2.est.sub.sub = w.est.sub.sub ∧
    (x w).2.est.nComponents = w.est.nComponents

theorem KeepsEmission.bind {β γ : Type} {x : Py (World α G (VAttrs α Q)) β} {f : β → Py (World α G (VAttrs α Q)) γ}
    (hx : KeepsEmission x) (hf : ∀ b, KeepsEmission (f b)) : KeepsEmission (x >>= f) := by
  intro w
  have h := hx w
  rw [Py.bind_apply]
  rcases hxw : x w with ⟨r, w'⟩
  rw [hxw] at h
  cases r with
  | error err => exact h
  | ok b =>
    have := hf b w'
    exact ⟨this.1.trans h.1, this.2.1.trans h.2.1, this.2.2.trans h.2.2⟩

theorem vinitBase_keeps (V : VSub α G Q) (R : RandomLib α G) (X : XArr α) (lens : List Int)
    (hc : KeepsEmission (onEst (V.core.checkFeatures X))) : KeepsEmission (V.initBase R X lens) := by
  unfold VSub.initBase
  refine hc.bind fun _ => ?_
  refine KeepsEmission.bind (fun w => ⟨rfl, rfl, rfl⟩) fun w => ?_
  refine KeepsEmission.bind (fun w => ⟨rfl, rfl, rfl⟩) fun sp => ?_
  refine KeepsEmission.bind (fun w => ?_) fun st => ?_
  · obtain ⟨rs, g, h, -⟩ := withSelfGen_eq R (vinitDraws R _ _ _ lens) w
    rw [h]
    exact ⟨rfl, rfl, rfl⟩
  rcases st with ⟨s, t⟩
  refine KeepsEmission.bind (fun w => ⟨rfl, rfl, rfl⟩) fun _ => ?_
  refine KeepsEmission.bind (fun w => ⟨rfl, rfl, rfl⟩) fun _ => ?_
  refine KeepsEmission.bind (fun w => ⟨rfl, rfl, rfl⟩) fun _ => ?_
  refine KeepsEmission.bind (fun w => ⟨rfl, rfl, rfl⟩) fun _ => ?_
  dsimp only
  generalize List.find? _ _ = o
  intro w
  cases o <;> exact ⟨rfl, rfl, rfl⟩

/-- **C78** The documented use of `emissionprob_prior` never works: if it is an array and the emissions are to be
initialised, `fit` raises, whatever the data, the priors and the state of the object. -/
theorem C78_array_prior (sci : Sci α) (R : RandomLib α G) (X : RawX α) (ls : Option (List Int))
    (w : World α G (VAttrs α (VCatAttrs α))) (a : NdArray α) (ha : w.est.sub.sub.emissionprobPrior = some a)
    (hdim : a.shape ≠ []) (hfr : 'e' ∈ w.est.initParams ∨ w.est.sub.sub.emPost = none) :
    ((vcatSub sci).fit R X ls w).1 ≠ .ok () := by
  intro hok
  have hcf : ∀ X, KeepsEmission (onEst ((vcatSub (α := α) (G := G) sci).core.checkFeatures X)) := by
    intro X w
    show (catCheckFeatures X w.est).2.initParams = _ ∧ (catCheckFeatures X w.est).2.sub.sub = _ ∧
      (catCheckFeatures X w.est).2.nComponents = _
    unfold catCheckFeatures
    split
    all_goals (try split)
    all_goals (try split)
    all_goals (try split)
    all_goals exact ⟨rfl, rfl, rfl⟩
  unfold VSub.fit at hok
  rw [Py.bind_apply, Py.lift_apply] at hok
  cases hX : checkArray X with
  | error err => rw [hX] at hok; cases hok
  | ok X' =>
    rw [hX] at hok
    simp only at hok
    have hin : ∃ err w', (vcatSub sci).init R X' (ls.getD [(X'.n : Int)]) w = (.error err, w') := by
      unfold VSub.init
      have hk := vinitBase_keeps (vcatSub sci) R X' (ls.getD [(X'.n : Int)]) (hcf X') w
      rw [Py.bind_apply]
      rcases hb : (vcatSub sci).initBase R X' (ls.getD [(X'.n : Int)]) w with ⟨r, w1⟩
      rw [hb] at hk
      cases r with
      | error err => exact ⟨err, w1, rfl⟩
      | ok u =>
        simp only at hk ⊢
        show ∃ err w', vcatInit R X' _ w1 = (.error err, w')
        unfold vcatInit
        rw [Py.bind_apply, Py.get_apply]
        have hneed : needsInit w1.est.initParams 'e' w1.est.sub.sub.emPost.isSome = true := by
          rw [hk.1, hk.2.1]
          rcases hfr with h | h <;> simp [needsInit, h]
        have ha' : w1.est.sub.sub.emissionprobPrior = some a := by rw [hk.2.1, ha]
        simp only [hneed, if_true, ha', Option.getD_some]
        rw [Py.bind_apply, Py.lift_apply]
        cases fullMat w1.est.nComponents (w1.est.nFeatures.getD 0) a with
        | error err => exact ⟨_, _, rfl⟩
        | ok p =>
          cases a with
          | d0 x => exact absurd rfl hdim
          | d1 v => exact ⟨_, _, rfl⟩
          | d2 v => exact ⟨_, _, rfl⟩
          | d3 v => exact ⟨_, _, rfl⟩
    obtain ⟨err, w', h⟩ := hin
    rw [Py.bind_error h] at hok
    cases hok

end

end Verif
