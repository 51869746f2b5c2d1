import Verif.Spec.VObjects
import Verif.Proofs.Variational
import Verif.Proofs.ObjectStart

/-!
# Variational estimator objects: initialisation, training and inference
-/

set_option autoImplicit false

namespace Verif
open FloatLike XF Hmmc Spec
open scoped Classical

/-! ## The loop -/

namespace VFamily
variable {D Obs VP P S Q : Type} {nc : ℕ} [NeZero nc] {V : VEmission XF nc Obs VP P S} {obs : D → Obs}
  {params : List Char} (F : VFamily V obs params Q) {sci : Sci XF} (hsci : sci.Exact)

/-- The training loop from real attributes. -/
noncomputable def fit (sci : Sci XF) (c : RConfig nc) (ss : List (ObsSeq D)) (r : VR nc Q) (mon : Monitor XF) :
    FitOutcome XF (VTheta XF nc VP) :=
  V.fitFrom sci (c.toConfig params) (dataX obs ss) (some (dataLengths ss)) (F.theta r) mon

include hsci in
theorem fit_real {c : RConfig nc} (hc : c.Pos) {ss : List (ObsSeq D)} (hne : ss ≠ []) {r : VR nc Q} (hr : r.Pos)
    (mon : Monitor XF) :
    let out := F.fit sci c ss r mon
    out.state = F.theta ((F.vstep c ss)^[out.monitor.history.length] r) ∧
    out.monitor.history.length ≤ c.nIter ∧
    (0 < c.nIter → out.raised = none → 0 < out.monitor.history.length) ∧
    out.monitor.history = (List.range out.monitor.history.length).map
      (fun k => fin (F.lb c ss ((F.vstep c ss)^[k] r))) := by
  intro out
  obtain ⟨h, h1, h2, h3, h4⟩ := vfitLoop_runs
    (step := V.step sci (c.toConfig params) (dataX obs ss) (dataLengths ss)) c.nIter (F.theta r) mon.reset
  have eh : out.monitor.history = h := h3
  obtain ⟨e1, e2⟩ := F.runs_real hsci hc hne hr h1
  rw [eh]
  exact ⟨e1, h2, h4, e2⟩

include hsci in
/-- With `transmat_` set or updated, only a `scaling` pass can raise. -/
theorem fit_raised {c : RConfig nc} (hc : c.Pos) {ss : List (ObsSeq D)} (hne : ss ≠ []) {r : VR nc Q} (hr : r.Pos)
    (ht : 't' ∈ params ∨ r.tp.isSome) (mon : Monitor XF) :
    (F.fit sci c ss r mon).raised = none ∨ c.impl = .scaling ∧ (F.fit sci c ss r mon).raised = some .underflow := by
  have key : ∀ (n : ℕ) (r : VR nc Q) (mon : Monitor XF), r.Pos → ('t' ∈ params ∨ r.tp.isSome) →
      (vfitLoop (V.step sci (c.toConfig params) (dataX obs ss) (dataLengths ss)) n (F.theta r) mon).raised = none ∨
      c.impl = .scaling ∧ (vfitLoop (V.step sci (c.toConfig params) (dataX obs ss) (dataLengths ss)) n (F.theta r)
        mon).raised = some .underflow := by
    intro n
    induction n with
    | zero => intro r mon _ _; exact .inl rfl
    | succ n ih =>
      intro r mon hr ht
      by_cases hok : F.F.Ok c.impl ss r.weights
      · simp only [vfitLoop, F.step_real hsci hc hne hr hok]
        split
        · exact .inl rfl
        · have ht' : (F.vstep c ss r).tp.isSome := by
            simp only [vstep]
            split
            · rfl
            · rcases ht with h | h
              · contradiction
              · exact h
          obtain ⟨a, ha⟩ := Option.isSome_iff_exists.1 ht'
          have : (F.theta (F.vstep c ss r)).transmat = some fun i j => fin (a i j) := by
            simp [VFamily.theta, ha]
          simp only [this]
          exact ih _ _ (F.vstep_pos hc ss hr) (.inr ht')
      · cases hi : c.impl with
        | log => rw [hi] at hok; exact absurd (F.ok_log ss r) hok
        | scaling =>
          rw [hi] at hok
          right
          refine ⟨rfl, ?_⟩
          simp only [vfitLoop, F.step_underflow hsci hi hr hok]
  exact key c.nIter r mon.reset hr ht

theorem lb_mono {c : RConfig nc} (hc : c.Pos) (ss : List (ObsSeq D)) {r : VR nc Q} (hr : r.Pos) (k : ℕ) :
    F.lb c ss ((F.vstep c ss)^[k] r) ≤ F.lb c ss ((F.vstep c ss)^[k + 1] r) := by
  rw [Function.iterate_succ_apply']
  exact F.vstep_gain hc ss (F.iterate_pos hc ss hr k)

end VFamily

/-! ## The object -/

section
variable {D G Q M : Type}

theorem vfitFrom_lengths {nc : ℕ} [NeZero nc] {Obs VP P S : Type} (V : VEmission XF nc Obs VP P S) (sci : Sci XF)
    (cfg : Config XF nc) (obs : D → Obs) {ss : List (ObsSeq D)} {ls : Option (List Int)} (h : LengthsFor ss ls)
    (θ : VTheta XF nc VP) (mon : Monitor XF) : V.fitFrom sci cfg (dataX obs ss) ls θ mon =
      V.fitFrom sci cfg (dataX obs ss) (some (dataLengths ss)) θ mon := by
  rcases h with rfl | ⟨⟨s, rfl⟩, rfl⟩
  · rfl
  · unfold VEmission.fitFrom
    simp only [Option.getD_none, Option.getD_some, dataX_length]
    congr 2

theorem attr_vec {n : ℕ} {a : Option (NdArray XF)} {v : Option (Fin n → ℝ)} (h : a = v.map vec) :
    a.bind (asRow n) = v.map fun p i => fin (p i) := by
  subst h
  cases v with
  | none => rfl
  | some p => simp [asRow_vec]

theorem attr_mat {m n : ℕ} {a : Option (NdArray XF)} {v : Option (Fin m → Fin n → ℝ)} (h : a = v.map mat) :
    a.bind (asMat m n) = v.map fun p i k => fin (p i k) := by
  subst h
  cases v with
  | none => rfl
  | some p => simp [asMat_mat]

variable {V : VSub XF G Q} {e : VEst XF G Q}

theorem VSub.ready_of {nf : ℕ} (h0 : e.nComponents ≠ 0) {sp : Fin e.nComponents → ℝ}
    {tp : Fin e.nComponents → Fin e.nComponents → ℝ} {s : Fin e.nComponents → ℝ}
    {t : Fin e.nComponents → Fin e.nComponents → ℝ} (hst : VStoresChain e nf sp tp s t)
    {sP : Option (Fin e.nComponents → ℝ)} {tP : Option (Fin e.nComponents → Fin e.nComponents → ℝ)}
    (h1 : e.startprob = sP.map vec) (h2 : e.transmat = tP.map mat) {pr : V.Prior e.nComponents nf}
    (h3 : V.readPrior e.sub.sub e.nComponents nf = some pr) {q : V.Post e.nComponents nf}
    (h4 : V.readPost e.sub.sub e.nComponents nf = some q) :
    V.ready e = some ⟨nf, h0, fun i => fin (sp i), fun i j => fin (tp i j), pr, ⟨fun i => fin (s i),
      fun i j => fin (t i j), sP.map fun p i => fin (p i), tP.map fun p i k => fin (p i k), q⟩⟩ := by
  unfold VSub.ready
  rw [dif_neg h0]
  simp only [hst.nFeatures]
  simp only [hst.startPrior, hst.transPrior, hst.startPost, hst.transPost, Option.bind_eq_bind, Option.bind_some,
    asRow_vec, asMat_mat, attr_vec h1, attr_mat h2, h3, h4]
  rfl

section
variable [NeZero e.nComponents] {nf : ℕ} {obs : D → V.core.Obs nf} {pr : V.Prior e.nComponents nf} {Qr : Type}
  (F : VFamily (V.emission pr) obs e.params Qr) {c : RConfig e.nComponents}

/-- The loop of `fit` on attributes that hold real concentrations. -/
theorem VSub.loop_family (hi : e.implementation = implName c.impl) (hcn : c.nIter = e.nIter) (hn : e.nIter ≠ 0)
    {r : VR e.nComponents Qr} (hst : VStoresChain e nf c.sp c.tp r.s r.t) (h1 : e.startprob = r.sp.map vec)
    (h2 : e.transmat = r.tp.map mat) (h3 : V.readPrior e.sub.sub e.nComponents nf = some pr)
    (h4 : V.readPost e.sub.sub e.nComponents nf = some (F.emb r.q)) {ss : List (ObsSeq D)} {X' : XArr XF}
    (hX : V.core.rows nf X' = .ok ((samples ss).map obs)) {ls : Option (List Int)} (hl : LengthsFor ss ls) :
    V.loop X' ls e = (match (F.fit V.sci c ss r e.monitor).raised with
      | none => .ok ()
      | some err => .error err,
      V.put e (F.fit V.sci c ss r e.monitor).state (F.fit V.sci c ss r e.monitor).monitor) := by
  have hr := V.ready_of (NeZero.ne _) hst h1 h2 h3 h4
  unfold VSub.loop
  rw [if_neg hn, hi, implOf_name]
  simp only [hr]
  simp only [hX]
  rw [samples_map, vfitFrom_lengths _ _ _ _ hl, ← hcn]
  rfl

/-- The loop of `fit`, as a claim about the object. -/
theorem vloop_trains (T : VTraining G Q M) (hsci : V.sci.Exact) (hi : e.implementation = implName c.impl)
    (hcn : c.nIter = e.nIter) (hn : e.nIter ≠ 0) (hc : c.Pos)
    {r : VR e.nComponents Qr} (hr : r.Pos) (hst : VStoresChain e nf c.sp c.tp r.s r.t) (h1 : e.startprob = r.sp.map vec)
    (h2 : e.transmat = r.tp.map mat) (h3 : V.readPrior e.sub.sub e.nComponents nf = some pr)
    (h4 : V.readPost e.sub.sub e.nComponents nf = some (F.emb r.q)) {ss : List (ObsSeq D)} (hne : ss ≠ []) {X' : XArr XF}
    (hX : V.core.rows nf X' = .ok ((samples ss).map obs)) {ls : Option (List Int)} (hl : LengthsFor ss ls)
    (ht : 't' ∈ e.params ∨ r.tp.isSome) (pt : VR e.nComponents Qr → M) (hb : ∀ r, T.bound (pt r) = F.lb c ss r)
    (hup : T.updates fun k => pt ((F.vstep c ss)^[k] r))
    (hstores : ∀ r mon, r.Pos → T.stores (V.put e (F.theta r) mon) (pt r))
    (hpoints : ∀ r mon, r.Pos → T.points (V.put e (F.theta (F.vstep c ss r)) mon) (pt (F.vstep c ss r)))
    (hans : ∀ r mon, r.Pos → T.answers (V.put e (F.theta (F.vstep c ss r)) mon) (pt (F.vstep c ss r))) :
    VTrainsFrom T (pt r) e c.impl (V.loop X' ls e) := by
  have hloop := V.loop_family F hi hcn hn hst h1 h2 h3 h4 hX hl
  obtain ⟨f1, f2, f3, f4⟩ := F.fit_real hsci hc hne hr e.monitor
  have hraise := F.fit_raised hsci hc hne hr ht e.monitor
  generalize hout : F.fit V.sci c ss r e.monitor = out at *
  rw [hloop]
  have hok : (match out.raised with | none => Except.ok () | some err => .error err : Except PyErr Unit) = .ok () →
      0 < out.monitor.history.length := by
    intro h
    refine f3 (by omega) ?_
    cases hraised : out.raised with
    | none => rfl
    | some err => simp [hraised] at h
  refine ⟨?_, ⟨rfl, rfl, rfl, rfl, rfl, rfl, rfl, rfl, rfl⟩, ⟨rfl, rfl⟩, ?_⟩
  · rcases hraise with h | ⟨h, h'⟩
    · left; simp [h]
    · right; exact ⟨h, by simp [h']⟩
  · have hlast : 0 < out.monitor.history.length → ∃ r' : VR e.nComponents Qr, r'.Pos ∧
        (F.vstep c ss)^[out.monitor.history.length] r = F.vstep c ss r' := by
      intro h
      obtain ⟨k, hk⟩ := Nat.exists_eq_succ_of_ne_zero h.ne'
      exact ⟨_, F.iterate_pos hc ss hr k, by rw [hk, Nat.succ_eq_add_one, Function.iterate_succ_apply']⟩
    refine ⟨out.monitor.history.length, fun k => pt ((F.vstep c ss)^[k] r), rfl, hcn ▸ f2, hok, hup, ?_, ?_, ?_,
      fun h => ?_, fun h => ?_⟩
    · simp only
      rw [f1]
      exact hstores _ _ (F.iterate_pos hc ss hr _)
    · simp only [hb]
      exact f4
    · intro k
      simp only [hb]
      exact F.lb_mono hc ss hr k
    · obtain ⟨r', hr', he⟩ := hlast h
      simp only
      rw [f1, he]
      exact hpoints _ _ hr'
    · obtain ⟨r', hr', he⟩ := hlast (hok h)
      simp only
      rw [f1, he]
      exact hans _ _ hr'

end

/-- `fit` once `_init` and `_check` have returned. -/
theorem VSub.fit_eq {R : RandomLib XF G} {X : RawX XF} {X' : XArr XF} (hX : checkArray X = .ok X')
    (ls : Option (List Int)) {w w1 : World XF G (VAttrs XF Q)}
    (hi : V.init R X' (ls.getD [(X'.n : Int)]) w = (.ok (), w1)) {e2 : VEst XF G Q}
    (hc : V.check w1.est = (.ok (), e2)) :
    V.fit R X ls w = ((V.loop X' ls e2).1, ⟨(V.loop X' ls e2).2, w1.glob⟩) := by
  unfold VSub.fit
  rw [hX]
  refine (Py.bind_ok rfl).trans ?_
  refine (Py.bind_ok hi).trans ?_
  have h2 : onEst V.check w1 = (.ok (), ⟨e2, w1.glob⟩) := by simp [onEst, hc]
  exact (Py.bind_ok h2).trans rfl

/-- The inference methods once `_check` has returned are those of the other classes. -/
theorem vanswers_of {nc : ℕ} {X : List D → RawX XF} {π : Fin nc → ℝ} {A : Fin nc → Fin nc → ℝ} {b : D → Fin nc → ℝ}
    (h1 : V.checkFitted e = (.ok (), e)) (h2 : V.core.checkFitted e = (.ok (), e)) (h : Answers V.core e X π A b) :
    AnswersBy (vmethodsOf V) e X π A b := by
  have hs : ∀ X ls p, V.scoreSamples X ls p e = V.core.scoreSamples X ls p e := by
    intro X ls p
    unfold VSub.scoreSamples Sub.scoreSamples
    rw [Py.bind_ok h1, Py.bind_ok h2]
  have hd : ∀ X ls a, V.decode X ls a e = V.core.decode X ls a e := by
    intro X ls p
    unfold VSub.decode Sub.decode
    rw [Py.bind_ok h1, Py.bind_ok h2]
  have e1 : ∀ X ls, V.score X ls e = V.core.score X ls e := by
    intro X ls
    unfold VSub.score Sub.score
    rw [Py.bind_apply, Py.bind_apply, hs]
  have e2 : ∀ X ls, V.predictProba X ls e = V.core.predictProba X ls e := by
    intro X ls
    unfold VSub.predictProba Sub.predictProba
    rw [Py.bind_apply, Py.bind_apply, hs]
  have e3 : ∀ X ls, V.predict X ls e = V.core.predict X ls e := by
    intro X ls
    unfold VSub.predict Sub.predict
    rw [Py.bind_apply, Py.bind_apply, hd]
  obtain ⟨a1, a2, a3, a4, a5, a6⟩ := h
  exact ⟨by simpa only [e1] using a1, by simpa only [e1] using a2, by simpa only [e2] using a3,
    by simpa only [hd] using a4, by simpa only [hd] using a5, by simpa only [e3, hd] using a6⟩

/-! ## The start -/

theorem freshPair_iff {β : Type} (code : Char) (a b : Option β) :
    (needsInit e.initParams code a.isSome || needsInit e.initParams code b.isSome) = true ↔ FreshPair e code a b := by
  unfold needsInit FreshPair
  by_cases h : code ∈ e.initParams
  · simp [h]
  · cases a <;> cases b <;> simp [h]

theorem startPriorOf_arg {n : ℕ} (hn : n ≠ 0) {a : Option (NdArray XF)} {sp : Fin n → ℝ} (h : StartArg a sp) :
    startPriorOf n a = .ok fun i => fin (sp i) := by
  cases h with
  | default => exact congrArg Except.ok (dirichlet_arg n hn)
  | scalar x => rfl
  | array p => simp [startPriorOf, fullRow, vec, bcastIdx]

theorem transPriorOf_arg {n : ℕ} (hn : n ≠ 0) {a : Option (NdArray XF)} {tp : Fin n → Fin n → ℝ} (h : TransArg a tp) :
    transPriorOf n a = .ok fun i j => fin (tp i j) := by
  cases h with
  | default => exact congrArg Except.ok (funext fun _ => dirichlet_arg n hn)
  | scalar x => rfl
  | row p => simp [transPriorOf, fullMat, vec, bcastIdx]
  | array p => simp [transPriorOf, fullMat, mat, bcastIdx]

/-- `VariationalBaseHMM._init` leaves a chain. -/
theorem vinitBase_starts {R : RandomLib XF G} (hR : PositiveDraws R) {X : XArr XF} {w : World XF G (VAttrs XF Q)} {nf : Option ℕ}
    (hc : V.core.checkFeatures X w.est = (.ok (), { w.est with nFeatures := nf }))
    (h0 : w.est.nComponents ≠ 0) (hg : VGivenChain w.est) (codes : List Char)
    (hcodes : ∀ e, (V.core.nFit e).map Prod.fst = codes) (hp : ∀ c ∈ w.est.params, c ∈ codes) {lens : List Int} {nx : ℕ}
    (hl : lens.length ≠ 0) (hs : lens.sum = (nx : ℤ)) (hx : nx ≠ 0) :
    ∃ (rs : RandomState G) (g : G) (sp s : Fin w.est.nComponents → ℝ)
      (tp t : Fin w.est.nComponents → Fin w.est.nComponents → ℝ),
      V.initBase R X lens w = (.ok (), ⟨{ w.est with nFeatures := nf, randomState := rs, sub := { w.est.sub with
        chain := { w.est.sub.chain with startPrior := some (vec sp), startPost := some (vec s),
                                        transPrior := some (mat tp), transPost := some (mat t) } } }, g⟩) ∧
      VStartsChain w.est lens.length nx sp tp s t := by
  set nc := w.est.nComponents with hnc
  have hncpos : (0 : ℝ) < nc := by exact_mod_cast Nat.pos_of_ne_zero h0
  have hlpos : (0 : ℝ) < lens.length := by exact_mod_cast Nat.pos_of_ne_zero hl
  have hxpos : (0 : ℝ) < nx := by exact_mod_cast Nat.pos_of_ne_zero hx
  have hdraw : ∀ g, ∃ q : Fin nc → ℝ, ((∀ i, 0 < q i) ∧ ∑ i, q i = 1) ∧
      (R.dirichlet (fun _ : Fin nc => (1 : XF) / ofNat' nc) g).1 = fun i => fin (q i) := by
    intro g
    rw [dirichlet_arg _ h0]
    obtain ⟨q, h1, h2, h3⟩ := hR.dirichlet (1 / nc : ℝ) g h0 (by positivity)
    exact ⟨q, ⟨h1, h2⟩, h3⟩
  -- the prior of the start distribution
  obtain ⟨sp, spO, hsp, hspO, hspE, hspK, hspF⟩ : ∃ (sp : Fin nc → ℝ) (spO : Option (Fin nc → XF)), (∀ i, 0 < sp i) ∧
      whenNeeded (needsStart { w.est with nFeatures := nf }) (startPriorOf nc w.est.sub.chain.startprobPrior) = .ok spO ∧
      (spO.map NdArray.d1 <|> w.est.sub.chain.startPrior) = some (vec sp) ∧
      (¬ FreshPair w.est 's' w.est.sub.chain.startPost w.est.sub.chain.startPrior → w.est.sub.chain.startPrior = some (vec sp)) ∧
      (FreshPair w.est 's' w.est.sub.chain.startPost w.est.sub.chain.startPrior → StartArg w.est.sub.chain.startprobPrior sp) := by
    by_cases hf : FreshPair w.est 's' w.est.sub.chain.startPost w.est.sub.chain.startPrior
    · obtain ⟨sp, k1, k2⟩ := hg.start hf
      refine ⟨sp, some fun i => fin (sp i), k2, ?_, rfl, fun h => absurd hf h, fun _ => k1⟩
      have : needsStart { w.est with nFeatures := nf } = true := (freshPair_iff 's' _ _).2 hf
      rw [this, startPriorOf_arg h0 k1]
      rfl
    · obtain ⟨sp, s, k1, -, k2, -⟩ := hg.start_set hf
      refine ⟨sp, none, k2, ?_, k1, fun _ => k1, fun h => absurd h hf⟩
      have : needsStart { w.est with nFeatures := nf } = false := by
        rw [← Bool.not_eq_true]; exact fun h => hf ((freshPair_iff 's' _ _).1 h)
      rw [this]
      rfl
  obtain ⟨tp, tpO, htp, htpO, htpE, htpK, htpF⟩ : ∃ (tp : Fin nc → Fin nc → ℝ) (tpO : Option (Fin nc → Fin nc → XF)),
      (∀ i j, 0 < tp i j) ∧
      whenNeeded (needsTrans { w.est with nFeatures := nf }) (transPriorOf nc w.est.sub.chain.transmatPrior) = .ok tpO ∧
      (tpO.map NdArray.d2 <|> w.est.sub.chain.transPrior) = some (mat tp) ∧
      (¬ FreshPair w.est 't' w.est.sub.chain.transPost w.est.sub.chain.transPrior → w.est.sub.chain.transPrior = some (mat tp)) ∧
      (FreshPair w.est 't' w.est.sub.chain.transPost w.est.sub.chain.transPrior → TransArg w.est.sub.chain.transmatPrior tp) := by
    by_cases hf : FreshPair w.est 't' w.est.sub.chain.transPost w.est.sub.chain.transPrior
    · obtain ⟨tp, k1, k2⟩ := hg.trans hf
      refine ⟨tp, some fun i j => fin (tp i j), k2, ?_, rfl, fun h => absurd hf h, fun _ => k1⟩
      have : needsTrans { w.est with nFeatures := nf } = true := (freshPair_iff 't' _ _).2 hf
      rw [this, transPriorOf_arg h0 k1]
      rfl
    · obtain ⟨tp, t, k1, -, k2, -⟩ := hg.trans_set hf
      refine ⟨tp, none, k2, ?_, k1, fun _ => k1, fun h => absurd h hf⟩
      have : needsTrans { w.est with nFeatures := nf } = false := by
        rw [← Bool.not_eq_true]; exact fun h => hf ((freshPair_iff 't' _ _).1 h)
      rw [this]
      rfl
  -- the draws
  obtain ⟨rs, g, hgen, -, -⟩ := withSelfGen_eq R (vinitDraws R nc (needsStart { w.est with nFeatures := nf })
    (needsTrans { w.est with nFeatures := nf } && true) lens) { w with est := { w.est with nFeatures := nf } }
  generalize hg0 : selfGen R { w with est := { w.est with nFeatures := nf } } = g0 at hgen
  obtain ⟨s, hsP, hsE, hsK, hsF⟩ : ∃ s : Fin nc → ℝ, (∀ i, 0 < s i) ∧
      ((vinitDraws R nc (needsStart { w.est with nFeatures := nf }) (needsTrans { w.est with nFeatures := nf } && true)
        lens g0).1.1 <|> w.est.sub.chain.startPost) = some (vec s) ∧
      (¬ FreshPair w.est 's' w.est.sub.chain.startPost w.est.sub.chain.startPrior → w.est.sub.chain.startPost = some (vec s)) ∧
      (FreshPair w.est 's' w.est.sub.chain.startPost w.est.sub.chain.startPrior → ∑ i, s i = lens.length) := by
    by_cases hf : FreshPair w.est 's' w.est.sub.chain.startPost w.est.sub.chain.startPrior
    · obtain ⟨q, ⟨k1, k2⟩, k3⟩ := hdraw g0
      have : needsStart { w.est with nFeatures := nf } = true := (freshPair_iff 's' _ _).2 hf
      refine ⟨fun i => q i * lens.length, fun i => mul_pos (k1 i) hlpos, ?_, fun h => absurd hf h,
        fun _ => by rw [← Finset.sum_mul, k2, one_mul]⟩
      simp only [vinitDraws, this, if_true, k3]
      show some (NdArray.d1 fun i => fin (q i) * ofNat' lens.length) = _
      simp [vec]
    · obtain ⟨_, s, -, k1, -, k2⟩ := hg.start_set hf
      have : needsStart { w.est with nFeatures := nf } = false := by
        rw [← Bool.not_eq_true]; exact fun h => hf ((freshPair_iff 's' _ _).1 h)
      refine ⟨s, k2, ?_, fun _ => k1, fun h => absurd h hf⟩
      simp only [vinitDraws, this, Bool.false_eq_true, if_false]
      exact k1
  obtain ⟨t, htP, htE, htK, htF⟩ : ∃ t : Fin nc → Fin nc → ℝ, (∀ i j, 0 < t i j) ∧
      ((vinitDraws R nc (needsStart { w.est with nFeatures := nf }) (needsTrans { w.est with nFeatures := nf } && true)
        lens g0).1.2 <|> w.est.sub.chain.transPost) = some (mat t) ∧
      (¬ FreshPair w.est 't' w.est.sub.chain.transPost w.est.sub.chain.transPrior → w.est.sub.chain.transPost = some (mat t)) ∧
      (FreshPair w.est 't' w.est.sub.chain.transPost w.est.sub.chain.transPrior → ∀ i, ∑ j, t i j = nx / nc) := by
    by_cases hf : FreshPair w.est 't' w.est.sub.chain.transPost w.est.sub.chain.transPrior
    · have hb : needsTrans { w.est with nFeatures := nf } = true := (freshPair_iff 't' _ _).2 hf
      simp only [vinitDraws, hb, Bool.and_true, if_true]
      generalize hgg : (if needsStart { w.est with nFeatures := nf } = true then _ else _ : Option (NdArray XF) × G).2 = g2
      obtain ⟨v, hv, hve⟩ := drawMany_real _ (fun (q : Fin nc → ℝ) i => fin (q i)) _ hdraw nc g2
      refine ⟨fun i j => v i j * (nx / nc), fun i j => mul_pos ((hv i).1 j) (by positivity), ?_, fun h => absurd hf h,
        fun _ i => by rw [← Finset.sum_mul, (hv i).2, one_mul]⟩
      rw [hve]
      show some (NdArray.d2 fun i j => fin (v i j) * (ofInt' lens.sum / ofNat' nc)) = _
      rw [hs]
      simp [mat, fin_div _ _ hncpos.ne']
    · obtain ⟨_, t, -, k1, -, k2⟩ := hg.trans_set hf
      have hb : needsTrans { w.est with nFeatures := nf } = false := by
        rw [← Bool.not_eq_true]; exact fun h => hf ((freshPair_iff 't' _ _).1 h)
      refine ⟨t, k2, ?_, fun _ => k1, fun h => absurd h hf⟩
      simp only [vinitDraws, hb, Bool.false_and, Bool.false_eq_true, if_false]
      exact k1
  refine ⟨rs, g, sp, s, tp, t, ?_, hsp, htp, hsP, htP, fun h => ⟨hspK h, hsK h⟩, fun h => ⟨hspF h, hsF h⟩,
    fun h => ⟨htpK h, htK h⟩, fun h => ⟨htpF h, htF h⟩⟩
  have h1 : onEst (V.core.checkFeatures X) w = (.ok (), { w with est := { w.est with nFeatures := nf } }) := by
    simp [onEst, hc]
  simp only [VSub.initBase]
  rw [Py.bind_ok h1]
  refine (Py.bind_ok (Py.get_apply _)).trans ?_
  simp only [← hnc]
  refine (Py.bind_ok (s' := { w with est := { w.est with nFeatures := nf } }) (b := spO) (by rw [Py.lift_apply, hspO])).trans ?_
  rw [htpO]
  refine (Py.bind_ok hgen).trans ?_
  simp only [Py.bind_apply, Py.get_apply, onEst, Py.modify_apply, Py.lift_apply]
  rw [hspE, hsE, htpE, htE]
  have hany : ∀ e c, ((V.core.nFit e).any fun p => p.1 == c) = decide (c ∈ codes) := by
    intro e c
    rw [← hcodes e, Bool.eq_iff_iff]
    simp
  simp only [hany]
  rw [List.find?_eq_none.2 fun c hc' => by simpa using hp c hc']
  rfl

end
end Verif
