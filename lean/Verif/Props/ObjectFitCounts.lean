import Verif.Props.ObjectFit

/-!
# C72: `fit` of `PoissonHMM` and `MultinomialHMM` objects
-/

set_option autoImplicit false

namespace Verif
open FloatLike XF Hmmc Spec
open scoped Classical

variable {G : Type} {R : RandomLib XF G} {nf : ℕ}

/-! ## PoissonHMM -/

theorem meanL_fin {l : List ℝ} (hl : l ≠ []) : meanL (l.map fin) = fin (l.sum / l.length) := by
  have : (l.length : ℝ) ≠ 0 := Nat.cast_ne_zero.2 (by simpa using hl)
  simp [meanL, sumL_fin, fin_div _ _ this]

/-- The mean and the variance of numbers that are not negative and not all equal. -/
theorem mean_var_pos {l : List ℝ} (h0 : ∀ x ∈ l, 0 ≤ x) (h : ∃ x ∈ l, ∃ y ∈ l, x ≠ y) :
    ∃ m s : ℝ, 0 < m ∧ 0 < s ∧ meanL (l.map fin) = fin m ∧ varL (l.map fin) = fin s := by
  have hl : l ≠ [] := by rintro rfl; simp at h
  have hn : (0 : ℝ) < l.length := Nat.cast_pos.2 (List.length_pos_of_ne_nil hl)
  obtain ⟨x, hx, y, hy, hxy⟩ := h
  have hpos : ∀ (l : List ℝ), (∀ x ∈ l, 0 ≤ x) → ∀ x ∈ l, 0 < x → 0 < l.sum := fun l h x hx hp =>
    lt_of_lt_of_le hp (List.single_le_sum h x hx)
  have hm : 0 < l.sum / l.length := by
    refine div_pos ?_ hn
    rcases lt_or_eq_of_le (h0 x hx) with h | h
    · exact hpos l h0 x hx h
    · exact hpos l h0 y hy (lt_of_le_of_ne (h0 y hy) (by rw [h]; exact hxy))
  refine ⟨_, ((l.map fun x => (x - l.sum / l.length) * (x - l.sum / l.length)).sum) / l.length, hm, ?_, meanL_fin hl, ?_⟩
  · refine div_pos ?_ hn
    have h1 : ∀ z ∈ l.map (fun x => (x - l.sum / l.length) * (x - l.sum / l.length)), 0 ≤ z := by
      intro z hz
      obtain ⟨x, -, rfl⟩ := List.mem_map.1 hz
      exact mul_self_nonneg _
    by_cases hxm : x - l.sum / l.length = 0
    · refine hpos _ h1 _ (List.mem_map.2 ⟨y, hy, rfl⟩) (mul_self_pos.2 fun hym => hxy ?_)
      linarith
    · exact hpos _ h1 _ (List.mem_map.2 ⟨x, hx, rfl⟩) (mul_self_pos.2 hxm)
  · unfold varL
    simp only [meanL_fin hl, List.map_map]
    have : ((fun x : XF => (x - fin (l.sum / l.length)) * (x - fin (l.sum / l.length))) ∘ fin) =
        fin ∘ fun x => (x - l.sum / l.length) * (x - l.sum / l.length) := by
      funext x; simp
    rw [this, ← List.map_map, meanL_fin (by simpa using hl), List.length_map]

/-- Not all counts are equal. -/
def Spec.SpreadCounts (ss : List (ObsSeq (Fin nf → ℕ))) : Prop :=
  ∃ x ∈ samples ss, ∃ y ∈ samples ss, ∃ k l, x k ≠ y l

theorem counts_array (hf : nf ≠ 0) {ss : List (ObsSeq (Fin nf → ℕ))} (hne : ss ≠ []) :
    ∃ rows : List (Fin nf → ℤ), checkArray (α := XF) (countsX (samples ss)) = .ok (.ints rows) ∧
      rows = (samples ss).map Poisson.row := by
  refine ⟨_, checkArray_ints_of _ (by simpa using samples_ne hne) hf, ?_⟩
  exact ofFn_get_map (samples ss) Poisson.row

theorem countRows_ints (rows : List (Fin nf → ℤ)) : countRows (α := XF) nf (.ints rows) = .ok rows := by
  simp only [countRows, countRowsOf, dite_true]
  congr 1
  exact List.map_id _

theorem poisRows_ints (rows : List (Fin nf → ℤ)) : poisRows (α := XF) nf (.ints rows) = .ok rows := by
  simp only [poisRows, poisRowsOf, dite_true]
  congr 1
  exact List.map_id _

theorem pois_rows (rows : List (Fin nf → ℤ)) :
    (poisSub (α := XF) (G := G)).rows nf (.ints rows) = .ok rows := poisRows_ints rows

theorem multi_rows (rows : List (Fin nf → ℤ)) :
    (multiSub (α := XF) (G := G)).rows nf (.ints rows) = .ok rows := countRows_ints rows

theorem flat_counts (l : List (Fin nf → ℕ)) : (XArr.ints (l.map Poisson.row) : XArr XF).flat =
    ((l.map fun x => (List.finRange nf).map fun k => ((x k : ℕ) : ℝ)).flatten).map fin := by
  simp only [XArr.flat, List.map_map, List.map_flatten]
  congr 1
  refine List.map_congr_left fun x _ => ?_
  simp only [Function.comp, List.map_map]
  refine List.map_congr_left fun k _ => ?_
  simp [Poisson.row]

theorem gammaRows_real (hR : PositiveDraws R) {X : XArr XF} {a s : ℝ} (ha : 0 < a) (hs : 0 < s)
    (h1 : meanL X.flat = fin a) (h2 : varL X.flat = fin s) (m n : ℕ) (g : G) :
    ∃ B : Fin m → Fin n → ℝ, (∀ i k, 0 < B i k) ∧ (gammaRows R X m n g).1 = fun i k => fin (B i k) := by
  have e1 : meanL X.flat * meanL X.flat / varL X.flat = fin (a * a / s) := by
    rw [h1, h2, fin_mul, fin_div _ _ hs.ne']
  have e2 : varL X.flat / meanL X.flat = fin (s / a) := by rw [h1, h2, fin_div _ _ ha.ne']
  unfold gammaRows
  rw [e1, e2]
  exact drawMany_real _ (fun (q : Fin n → ℝ) i => fin (q i)) (fun q => ∀ k, 0 < q k)
    (fun g => drawMany_real _ fin (fun x => 0 < x)
      (fun g => hR.gamma _ _ g (div_pos (mul_pos ha ha) hs) (div_pos hs ha)) n g) m g

theorem poisInit_sub (R : RandomLib XF G) (X : XArr XF) (w : World XF G (PoisAttrs XF)) :
    ∃ rs g, poisInit R X w = (.ok (), ⟨{ w.est with
      randomState := rs
      sub := if needsInit w.est.initParams 'l' w.est.sub.lambdas.isSome then
          { w.est.sub with lambdas := some (.d2
            (gammaRows R X w.est.nComponents (w.est.nFeatures.getD 0) (selfGen R w)).1) }
        else w.est.sub }, g⟩) :=
  let ⟨g, h⟩ := poisInit_eq R X w
  ⟨_, g, h⟩

/-- The number of columns: given correctly, or not given. -/
def Spec.ColumnCount {P : Type} (e : Est XF G P) (nf : ℕ) : Prop := e.nFeatures = some nf ∨ e.nFeatures = none

theorem base_features {P : Type} {e : Est XF G P} (h : ColumnCount e nf) (rows : List (Fin nf → ℤ)) :
    checkFeaturesBase (.ints rows) e = (.ok (), { e with nFeatures := some nf, sub := e.sub }) := by
  have hd : (XArr.ints rows : XArr XF).d = nf := rfl
  unfold checkFeaturesBase
  rcases h with h | h
  · simp only [h, hd, ne_eq, not_true_eq_false, if_false]
    congr 1
    rw [← h]
  · simp only [h, hd]

/-- `_init` of a `PoissonHMM`. -/
theorem pois_starts (hR : PositiveDraws R) (hf : nf ≠ 0) {ss : List (ObsSeq (Fin nf → ℕ))} (hne : ss ≠ [])
    {w : World XF G (PoisAttrs XF)} (hnf : ColumnCount w.est nf)
    (h0 : w.est.nComponents ≠ 0) (hg : GivenPois w.est nf) (hp : ∀ c ∈ w.est.params, c ∈ ['s', 't', 'l'])
    (hsp : Fresh w.est 'l' w.est.sub.lambdas → SpreadCounts ss) :
    ∃ (rs : RandomState G) (g : G) (m : RowsPoint w.est.nComponents nf),
      poisSub.init R (.ints ((samples ss).map Poisson.row)) w = (.ok (), ⟨{ w.est with
        nFeatures := some nf, sub := { w.est.sub with lambdas := some (mat m.B) }, randomState := rs
        startprob := some (vec m.π), transmat := some (mat m.A) }, g⟩) ∧ StartsPois w.est m := by
  generalize hX : (XArr.ints ((samples ss).map Poisson.row) : XArr XF) = X
  have hc : poisSub.checkFeatures X w.est = (.ok (), { w.est with nFeatures := some nf, sub := w.est.sub }) := by
    rw [← hX]
    exact base_features hnf _
  obtain ⟨rs, g, π, A, h1, h2⟩ := initBase_starts hR hc h0 hg.chain ['s', 't', 'l'] (fun _ => rfl) hp
  obtain ⟨rs', g', h3⟩ := poisInit_sub R X ⟨({ w.est with nFeatures := some nf, sub := w.est.sub, randomState := rs, startprob := some (vec π), transmat := some (mat A) }), g⟩
  have key : ∀ g'' : G, ∃ B : Fin w.est.nComponents → Fin nf → ℝ, (∀ i k, 0 ≤ B i k) ∧
      StartsRows (Fresh w.est 'l' w.est.sub.lambdas) w.est.sub.lambdas B ∧
      (if needsInit w.est.initParams 'l' w.est.sub.lambdas.isSome then
        { w.est.sub with lambdas := some (.d2 (gammaRows R X w.est.nComponents nf g'').1) } else w.est.sub) =
      { w.est.sub with lambdas := some (mat B) } := by
    intro g''
    by_cases hfr : Fresh w.est 'l' w.est.sub.lambdas
    · obtain ⟨x, hx, y, hy, k, l, hxy⟩ := hsp hfr
      obtain ⟨a, s, ha, hs, e1, e2⟩ := mean_var_pos
        (l := ((samples ss).map fun x => (List.finRange nf).map fun k => ((x k : ℕ) : ℝ)).flatten) (by
          intro z hz
          simp only [List.mem_flatten, List.mem_map] at hz
          obtain ⟨_, ⟨x, -, rfl⟩, hz⟩ := hz
          obtain ⟨k, -, rfl⟩ := List.mem_map.1 hz
          positivity) ⟨(x k : ℝ), by
          simp only [List.mem_flatten, List.mem_map]
          exact ⟨_, ⟨x, hx, rfl⟩, List.mem_map.2 ⟨k, List.mem_finRange _, rfl⟩⟩, (y l : ℝ), by
          simp only [List.mem_flatten, List.mem_map]
          exact ⟨_, ⟨y, hy, rfl⟩, List.mem_map.2 ⟨l, List.mem_finRange _, rfl⟩⟩, by exact_mod_cast hxy⟩
      obtain ⟨B, k1, k3⟩ := gammaRows_real hR (X := X) ha hs (by rw [← hX, flat_counts]; exact e1)
        (by rw [← hX, flat_counts]; exact e2) w.est.nComponents nf g''
      refine ⟨B, fun i k => (k1 i k).le, ⟨fun h => absurd hfr h, fun _ => k1⟩, ?_⟩
      rw [if_pos ((needsInit_iff _ _ _).2 hfr), k3]
      rfl
    · obtain ⟨B, k1, k2⟩ := hg.rows hfr
      refine ⟨B, k2, ⟨fun _ => k1, fun h => absurd h hfr⟩, ?_⟩
      rw [if_neg (fun h => hfr ((needsInit_iff _ _ _).1 h)), ← k1]
  obtain ⟨B, k1, k3, k4⟩ := key _
  refine ⟨rs', g', ⟨π, A, B⟩, (Py.bind_ok h1).trans (h3.trans ?_), ⟨h2, k1, k3⟩⟩
  simp only [Option.getD_some]
  rw [k4]

theorem pois_loop {impl : Impl} {e : Est XF G (PoisAttrs XF)} (hf : nf ≠ 0) (hset : FlatChain e impl)
    (hprior : ∀ i k, e.sub.lambdasPrior i k = fin 0) (hweight : ∀ i k, e.sub.lambdasWeight i k = fin 0)
    {m : RowsPoint e.nComponents nf} (hst : StoresPois e m)
    (h : PoissonModel m.π m.A m.B) (hπ : ∑ i, m.π i = 1) {ss : List (ObsSeq (Fin nf → ℕ))}
    (hne : ss ≠ []) {X' : XArr XF} (hX : poisSub.rows (G := G) nf X' = .ok ((samples ss).map Poisson.row))
    {ls : Option (List Int)} (hl : LengthsFor ss ls) (hL : 0 < dataLikelihood m.π m.A (poissonB m.B) ss)
    (hu : EveryStateUsed m.π m.A (poissonB m.B) ss) :
    TrainsFrom (poisTraining e.params ss) m e impl (poisSub.loop X' ls e) := by
  haveI : NeZero e.nComponents := ⟨hset.nComponents⟩
  let F := Poisson.family (nc := e.nComponents) (nf := nf) (fun _ _ => 0) (fun _ _ => 0) (fun _ _ => le_rfl)
    (fun _ _ => le_rfl) e.params
  let c : RConfig e.nComponents := ⟨fun _ => 1, fun _ _ => 1, impl, e.nIter⟩
  have hI := Poisson.closed (nf := nf) (fun _ _ => 0) (fun _ _ => 0) (fun _ _ => le_rfl) (fun _ _ => le_rfl) e.params c ss
    (fun _ _ => le_rfl) fun _ _ _ => le_rfl
  have hcfg : e.config impl = c.toConfig e.params := by
    simp only [Est.config, RConfig.toConfig, c]
    congr 1
    · funext i; exact hset.startprobPrior i
    · funext i j; exact hset.transmatPrior i j
  refine loop_trains (S := poisSub) (D := Fin nf → ℕ) (obs := Poisson.row) (poisTraining e.params ss) F (c := c) (r := h.rp) ?_
    hset.implementation hcfg hset.nIter hst.1.nFeatures hst.1.startprob hst.1.transmat ?_ hne hX hl (fun _ _ => le_rfl)
    hI ⟨h.valid, h.ok hL, hu⟩
    (fun r => ⟨r.π, r.A, r.q.l⟩) (fun r => rfl) (fun r hr => (log_dataLikelihood ss hr.2.1).1) (fun r mon hr => ?_) ?_ ?_ ?_
  · show Poisson.emission _ _ = Poisson.emission _ _
    congr 1
    · funext i k
      exact hprior i k
    · funext i k
      exact hweight i k
  · show (e.sub.lambdas.bind fun a => asMat e.nComponents nf a) = _
    rw [hst.2]
    exact asMat_mat m.B
  · exact ⟨⟨rfl, hst.1.nFeatures, rfl, rfl⟩, rfl⟩
  · intro r hr _ _ _
    have := (F.rstep_gain c ss hr.1 hr.2.1 (fun _ _ => le_rfl) (fun _ _ _ => le_rfl)
      (Poisson.gains ss r hr.1 (fun _ => ⟨fun _ _ => rfl, fun _ _ => rfl⟩) hr.2.1 hr.2.2)).2.2
    simp only [logDirichlet_one, Finset.sum_const_zero, add_zero, c] at this
    exact this
  · intro hu hr
    exact C28_poisson e hst.1.nFeatures (fun _ => le_rfl) (fun _ _ => le_rfl) (fun _ _ => le_rfl) hu.1 impl hset.nIter
      hne h hπ hL hu.2.1 _ _ hr
  · intro r mon hr ha
    refine C71_poisson hf _ _ _ _ ⟨holdsChain_of ha rfl rfl hr.1.π_nonneg hr.1.A_nonneg, fun n hn => ?_, rfl, r.q.nonneg⟩
    have : e.nFeatures = some n := hn
    rw [hst.1.nFeatures] at this
    exact (Option.some.inj this).symm

/-- **C72** `PoissonHMM` with flat priors. -/
theorem C72_poisson (hR : PositiveDraws R) (hf : nf ≠ 0) {impl : Impl} {w : World XF G (PoisAttrs XF)}
    (hset : FlatChain w.est impl) (hprior : ∀ i k, w.est.sub.lambdasPrior i k = fin 0)
    (hweight : ∀ i k, w.est.sub.lambdasWeight i k = fin 0)
    (hp : ∀ c ∈ w.est.params, c ∈ ['s', 't', 'l']) (hg : GivenPois w.est nf) {ss : List (ObsSeq (Fin nf → ℕ))}
    (hne : ss ≠ []) (hnf : ColumnCount w.est nf) (hsp : Fresh w.est 'l' w.est.sub.lambdas → SpreadCounts ss)
    {ls : Option (List Int)} (hl : LengthsFor ss ls)
    (hL : ∀ m : RowsPoint w.est.nComponents nf, StartsPois w.est m →
      0 < dataLikelihood m.π m.A (poissonB m.B) ss ∧ EveryStateUsed m.π m.A (poissonB m.B) ss) :
    ∃ m₀ : RowsPoint w.est.nComponents nf, StartsPois w.est m₀ ∧
      TrainsFrom (poisTraining w.est.params ss) m₀ w.est impl
        ((poisSub.fit R (countsX (samples ss)) ls w).1, (poisSub.fit R (countsX (samples ss)) ls w).2.est) := by
  haveI : NeZero w.est.nComponents := ⟨hset.nComponents⟩
  obtain ⟨rows, hX, hrows⟩ := counts_array hf hne
  subst hrows
  obtain ⟨rs, g, m, hinit, hm⟩ := pois_starts hR hf hne hnf hset.nComponents hg hp hsp
  refine ⟨m, hm, ?_⟩
  generalize hw1 : (⟨{ w.est with
        nFeatures := some nf, sub := { w.est.sub with lambdas := some (mat m.B) }, randomState := rs
        startprob := some (vec m.π), transmat := some (mat m.A) }, g⟩ : World XF G (PoisAttrs XF)) = w1 at hinit
  have hst : StoresPois w1.est m := by subst hw1; exact ⟨⟨rfl, rfl, rfl, rfl⟩, rfl⟩
  have hmod : PoissonModel m.π m.A m.B := ⟨hm.chain.π_nonneg, hm.chain.A_nonneg, hm.nonneg, hm.chain.π_sum.le,
    fun i => (hm.chain.A_sum i).le⟩
  have hs1 : SameSettings w.est w1.est := by subst hw1; exact ⟨rfl, rfl, rfl, rfl, rfl, rfl, rfl, rfl, rfl⟩
  have hcheck : poisSub.check w1.est = (.ok (), w1.est) := by
    subst hw1
    have hb : checkBase _ = .ok () := C30_valid ({ w.est with
        nFeatures := some nf, sub := { w.est.sub with lambdas := some (mat m.B) }, randomState := rs
        startprob := some (vec m.π), transmat := some (mat m.A) } : Est XF G (PoisAttrs XF)) m.π m.A rfl rfl
        hm.chain.π_sum hm.chain.A_sum
    rw [Sub.check_eq, hb]
    simp only
    rw [show (poisSub (α := XF) (G := G)).checkSub = poisCheck from rfl]
    have ha : atleast2d (mat m.B) = mat m.B := rfl
    have hsh : (mat m.B).shape = [w.est.nComponents, nf] := rfl
    simp [poisCheck, ha, hsh]
  rw [Sub.fit_eq hX ls hinit hcheck]
  refine TrainsFrom.settings_of ?_ hs1
  obtain ⟨hL', hu'⟩ := hL m hm
  subst hw1
  exact pois_loop (e := { w.est with nFeatures := some nf, sub := { w.est.sub with lambdas := some (mat m.B) }, randomState := rs, startprob := some (vec m.π), transmat := some (mat m.A) })
    hf ⟨hset.1, hset.2, hset.3, hset.4, hset.5⟩ hprior hweight hst hmod hm.chain.π_sum hne (pois_rows _) hl hL' hu'

theorem poissonB_pos' {nc : ℕ} {l : Fin nc → Fin nf → ℝ} (h : ∀ i k, 0 < l i k) (o : Fin nf → ℕ) (i : Fin nc) :
    0 < poissonB l o i :=
  Finset.prod_pos fun k _ => Poisson.poissonPmf_pos (h i k) _

/-- **C72** `PoissonHMM` with flat priors and the default `init_params`: whatever the counts, if they are not all
equal and some sequence has two samples then `fit` returns, and `score` of the training data is then at
least every log-likelihood `fit` reported. -/
theorem C72_poisson_fresh (hR : PositiveDraws R) (hf : nf ≠ 0) {w : World XF G (PoisAttrs XF)}
    (hset : FlatChain w.est .log) (hprior : ∀ i k, w.est.sub.lambdasPrior i k = fin 0)
    (hweight : ∀ i k, w.est.sub.lambdasWeight i k = fin 0)
    (hp : ∀ c ∈ w.est.params, c ∈ ['s', 't', 'l']) (ht : 't' ∈ w.est.params)
    (hi : ∀ c ∈ ['s', 't', 'l'], c ∈ w.est.initParams) {ss : List (ObsSeq (Fin nf → ℕ))} (hlong : ∃ s ∈ ss, s.n ≠ 0)
    (hnf : ColumnCount w.est nf) (hsp : SpreadCounts ss) {ls : Option (List Int)} (hl : LengthsFor ss ls) :
    (poisSub.fit R (countsX (samples ss)) ls w).1 = .ok () ∧
      ScoresWell poisSub (countsX (samples ss)) ls (poisSub.fit R (countsX (samples ss)) ls w).2.est := by
  haveI : NeZero w.est.nComponents := ⟨hset.nComponents⟩
  have hne : ss ≠ [] := by rintro rfl; simp at hlong
  have h1 : Fresh w.est 's' w.est.startprob := .inl (hi _ (by simp))
  have h2 : Fresh w.est 't' w.est.transmat := .inl (hi _ (by simp))
  have h3 : Fresh w.est 'l' w.est.sub.lambdas := .inl (hi _ (by simp))
  obtain ⟨m, hm, htr⟩ := C72_poisson hR hf hset hprior hweight hp ⟨⟨fun h => absurd h1 h, fun h => absurd h2 h⟩,
    fun h => absurd h3 h⟩ hne hnf (fun _ => hsp) hl fun m hm =>
      (everyStateUsed_of_pos hne (hm.chain.startprob.draws h1)
        (hm.chain.transmat.draws h2) (poissonB_pos' (hm.rows.draws h3))).symm
  exact scores_well htr hset.implementation ⟨ht, usedBeforeLast_pos (hm.chain.startprob.draws h1)
    (hm.chain.transmat.draws h2) (poissonB_pos' (hm.rows.draws h3)) hlong, trivial⟩ hne hl

/-! ## MultinomialHMM -/

/-- `n_trials`: not given, or the totals of the samples. -/
def Spec.TrialsFor (e : Est XF G (MultiAttrs XF)) (ss : List (ObsSeq (Fin nf → ℕ))) : Prop :=
  e.sub.nTrials = none ∨ (∃ n : ℕ, e.sub.nTrials = some (.scalar n) ∧ ∀ x ∈ samples ss, ∑ k, x k = n) ∨
    e.sub.nTrials = some (.perRow ((samples ss).map fun x => ((∑ k, x k : ℕ) : ℤ)))

theorem rowTotals_counts (l : List (Fin nf → ℕ)) :
    rowTotals (l.map Poisson.row) = l.map fun x => ((∑ k, x k : ℕ) : ℤ) := by
  unfold rowTotals
  rw [List.map_map]
  refine List.map_congr_left fun x _ => ?_
  simp only [Function.comp, Nat.cast_sum]
  rw [← List.sum_ofFn, List.ofFn_eq_map]
  rfl

theorem multi_features {e : Est XF G (MultiAttrs XF)} (h : ColumnCount e nf) {ss : List (ObsSeq (Fin nf → ℕ))}
    (ht : TrialsFor e ss) : ∃ t, multiSub.checkFeatures (.ints ((samples ss).map Poisson.row)) e =
      (.ok (), { e with nFeatures := some nf, sub := { e.sub with nTrials := some t } }) := by
  have hneg : anyNeg ((samples ss).map Poisson.row) = false := by
    rw [← Bool.not_eq_true, anyNeg_iff]
    rintro ⟨r, hr, j, hj⟩
    obtain ⟨x, -, rfl⟩ := List.mem_map.1 hr
    simp [Poisson.row] at hj
    omega
  have h1 := base_features h ((samples ss).map Poisson.row)
  have h2 : multiSub.checkFeatures (.ints ((samples ss).map Poisson.row)) e = multiCheckCounts _ _ := Py.bind_ok h1
  rw [h2]
  unfold multiCheckCounts
  simp only [hneg, Bool.false_eq_true, if_false]
  rcases ht with ht | ⟨n, ht, hs⟩ | ht
  · simp only [ht]
    exact ⟨_, rfl⟩
  · refine ⟨.scalar n, ?_⟩
    have hm : totalsMatch (rowTotals ((samples ss).map Poisson.row)) (.scalar n) = true := by
      rw [rowTotals_counts]
      simp only [totalsMatch, List.all_map, List.all_eq_true, Function.comp, beq_iff_eq]
      exact fun x hx => by rw [hs x hx]
    simp only [ht, hm, if_true]
    congr 2
    rw [← ht]
  · refine ⟨.perRow ((samples ss).map fun x => ((∑ k, x k : ℕ) : ℤ)), ?_⟩
    have hm : totalsMatch (rowTotals ((samples ss).map Poisson.row))
        (.perRow ((samples ss).map fun x => ((∑ k, x k : ℕ) : ℤ))) = true := by
      rw [rowTotals_counts]
      simp [totalsMatch]
    simp only [ht, hm, if_true]
    congr 2
    rw [← ht]

theorem multiInit_sub (R : RandomLib XF G) (X : XArr XF) (w : World XF G (MultiAttrs XF)) :
    ∃ rs g, multiInit R X w = (.ok (), ⟨{ w.est with
      randomState := rs
      sub := if 'e' ∈ w.est.initParams then
          { w.est.sub with emissionprob := some (.d2
            (randRows R w.est.nComponents (w.est.nFeatures.getD 0) (selfGen R w)).1) }
        else w.est.sub }, g⟩) :=
  let ⟨g, h⟩ := multiInit_eq R X w
  ⟨_, g, h⟩

/-- `_init` of a `MultinomialHMM`. -/
theorem multi_starts (hR : PositiveDraws R) (hf : nf ≠ 0) {X : XArr XF} {w : World XF G (MultiAttrs XF)} {t : NTrials}
    (hc : multiSub.checkFeatures X w.est = (.ok (), { w.est with nFeatures := some nf, sub := { w.est.sub with nTrials := some t } }))
    (h0 : w.est.nComponents ≠ 0) (hg : GivenMulti w.est nf) (hp : ∀ c ∈ w.est.params, c ∈ ['s', 't', 'e']) :
    ∃ (rs : RandomState G) (g : G) (m : RowsPoint w.est.nComponents nf),
      multiSub.init R X w = (.ok (), ⟨{ w.est with
        nFeatures := some nf, sub := { w.est.sub with nTrials := some t, emissionprob := some (mat m.B) }, randomState := rs
        startprob := some (vec m.π), transmat := some (mat m.A) }, g⟩) ∧ StartsMulti w.est m := by
  obtain ⟨rs, g, π, A, h1, h2⟩ := initBase_starts hR hc h0 hg.chain ['s', 't', 'e'] (fun _ => rfl) hp
  obtain ⟨rs', g', h3⟩ := multiInit_sub R X ⟨({ w.est with nFeatures := some nf, sub := { w.est.sub with nTrials := some t }, randomState := rs, startprob := some (vec π), transmat := some (mat A) }), g⟩
  have key : ∀ g'' : G, ∃ B : Fin w.est.nComponents → Fin nf → ℝ, (∀ i k, 0 ≤ B i k) ∧ (∀ i, ∑ k, B i k = 1) ∧
      StartsRows ('e' ∈ w.est.initParams) w.est.sub.emissionprob B ∧
      (if 'e' ∈ w.est.initParams then
        { w.est.sub with nTrials := some t, emissionprob := some (.d2 (randRows R w.est.nComponents nf g'').1) }
        else { w.est.sub with nTrials := some t }) =
      { w.est.sub with nTrials := some t, emissionprob := some (mat B) } := by
    intro g''
    by_cases hfr : 'e' ∈ w.est.initParams
    · obtain ⟨B, k1, k2, k3⟩ := randRows_real hR w.est.nComponents nf hf g''
      refine ⟨B, fun i k => (k1 i k).le, k2, ⟨fun h => absurd hfr h, fun _ => k1⟩, ?_⟩
      rw [if_pos hfr, k3]
      rfl
    · obtain ⟨B, k1, k2, k3⟩ := hg.rows hfr
      refine ⟨B, k2, k3, ⟨fun _ => k1, fun h => absurd h hfr⟩, ?_⟩
      rw [if_neg hfr, ← k1]
  obtain ⟨B, k1, k2, k3, k4⟩ := key _
  refine ⟨rs', g', ⟨π, A, B⟩, (Py.bind_ok h1).trans (h3.trans ?_), ⟨h2, k1, k2, k3⟩⟩
  simp only [Option.getD_some]
  rw [k4]

theorem multi_loop {impl : Impl} {e : Est XF G (MultiAttrs XF)} (hset : FlatChain e impl)
    {m : RowsPoint e.nComponents nf} (hst : StoresMulti e m)
    (h : MultinomialModel m.π m.A m.B) (hπ : ∑ i, m.π i = 1) {ss : List (ObsSeq (Fin nf → ℕ))}
    (hne : ss ≠ []) {X' : XArr XF} (hX : multiSub.rows (G := G) nf X' = .ok ((samples ss).map Multinomial.row))
    {ls : Option (List Int)} (hl : LengthsFor ss ls) (hL : 0 < dataLikelihood m.π m.A (multinomialB m.B) ss)
    (hem : EveryStateEmits m.π m.A m.B ss) :
    TrainsFrom (multiTraining e.params ss) m e impl (multiSub.loop X' ls e) := by
  haveI : NeZero e.nComponents := ⟨hset.nComponents⟩
  let F := Multinomial.family (nc := e.nComponents) (nf := nf) e.params
  let c : RConfig e.nComponents := ⟨fun _ => 1, fun _ _ => 1, impl, e.nIter⟩
  have hI := Multinomial.closed (nf := nf) (ps := e.params) c ss (fun _ _ => le_rfl) fun _ _ _ => le_rfl
  have hcfg : e.config impl = c.toConfig e.params := by
    simp only [Est.config, RConfig.toConfig, c]
    congr 1
    · funext i; exact hset.startprobPrior i
    · funext i j; exact hset.transmatPrior i j
  refine loop_trains (S := multiSub) (D := Fin nf → ℕ) (obs := Multinomial.row) (multiTraining e.params ss) F (c := c) (r := h.rp) rfl
    hset.implementation hcfg hset.nIter hst.1.nFeatures hst.1.startprob hst.1.transmat ?_ hne hX hl (fun _ _ => le_rfl)
    hI ⟨h.valid, h.ok hL, hem⟩
    (fun r => ⟨r.π, r.A, r.q.e⟩) (fun r => rfl) (fun r hr => (log_dataLikelihood ss hr.2.1).1) (fun r mon hr => ?_) ?_ ?_ ?_
  · show (e.sub.emissionprob.bind fun a => asMat e.nComponents nf a) = _
    rw [hst.2.1]
    exact asMat_mat m.B
  · exact ⟨⟨rfl, hst.1.nFeatures, rfl, rfl⟩, rfl, hst.2.2⟩
  · intro r hr _ _ _
    have := (F.rstep_gain c ss hr.1 hr.2.1 (fun _ _ => le_rfl) (fun _ _ _ => le_rfl)
      (Multinomial.gains ss r hr.1 hr.2.1 hr.2.2)).2.2
    simp only [logDirichlet_one, Finset.sum_const_zero, add_zero, c] at this
    exact this
  · intro hu hr
    exact C28_multinomial e hst.1.nFeatures hst.2.2 (fun _ => le_rfl) hu.1 impl hset.nIter
      hne h hπ hL hu.2.1 hem _ _ hr
  · intro r mon hr ha
    refine C71_multinomial _ _ _ _ ⟨holdsChain_of ha rfl rfl hr.1.π_nonneg hr.1.A_nonneg, fun n hn => ?_, rfl, r.q.nonneg,
      r.q.sum_one, hst.2.2⟩
    have : e.nFeatures = some n := hn
    rw [hst.1.nFeatures] at this
    exact (Option.some.inj this).symm

/-- **C72** `MultinomialHMM` with flat priors. -/
theorem C72_multinomial (hR : PositiveDraws R) (hf : nf ≠ 0) {impl : Impl} {w : World XF G (MultiAttrs XF)}
    (hset : FlatChain w.est impl) (hp : ∀ c ∈ w.est.params, c ∈ ['s', 't', 'e']) (hg : GivenMulti w.est nf)
    {ss : List (ObsSeq (Fin nf → ℕ))} (hne : ss ≠ []) (hnf : ColumnCount w.est nf) (htr : TrialsFor w.est ss)
    {ls : Option (List Int)} (hl : LengthsFor ss ls)
    (hL : ∀ m : RowsPoint w.est.nComponents nf, StartsMulti w.est m →
      0 < dataLikelihood m.π m.A (multinomialB m.B) ss ∧ EveryStateEmits m.π m.A m.B ss) :
    ∃ m₀ : RowsPoint w.est.nComponents nf, StartsMulti w.est m₀ ∧
      TrainsFrom (multiTraining w.est.params ss) m₀ w.est impl
        ((multiSub.fit R (countsX (samples ss)) ls w).1, (multiSub.fit R (countsX (samples ss)) ls w).2.est) := by
  haveI : NeZero w.est.nComponents := ⟨hset.nComponents⟩
  obtain ⟨rows, hX, hrows⟩ := counts_array hf hne
  subst hrows
  obtain ⟨t, hcf⟩ := multi_features hnf htr
  obtain ⟨rs, g, m, hinit, hm⟩ := multi_starts hR hf hcf hset.nComponents hg hp
  refine ⟨m, hm, ?_⟩
  generalize hw1 : (⟨{ w.est with
        nFeatures := some nf, sub := { w.est.sub with nTrials := some t, emissionprob := some (mat m.B) }, randomState := rs
        startprob := some (vec m.π), transmat := some (mat m.A) }, g⟩ : World XF G (MultiAttrs XF)) = w1 at hinit
  have hst : StoresMulti w1.est m := by subst hw1; exact ⟨⟨rfl, rfl, rfl, rfl⟩, rfl, rfl⟩
  have hmod : MultinomialModel m.π m.A m.B := ⟨hm.chain.π_nonneg, hm.chain.A_nonneg, hm.nonneg, hm.chain.π_sum.le,
    fun i => (hm.chain.A_sum i).le, hm.sum⟩
  have hs1 : SameSettings w.est w1.est := by subst hw1; exact ⟨rfl, rfl, rfl, rfl, rfl, rfl, rfl, rfl, rfl⟩
  have hcheck : multiSub.check w1.est = (.ok (), w1.est) := by
    subst hw1
    have hb : checkBase _ = .ok () := C30_valid ({ w.est with
        nFeatures := some nf, sub := { w.est.sub with nTrials := some t, emissionprob := some (mat m.B) }, randomState := rs
        startprob := some (vec m.π), transmat := some (mat m.A) } : Est XF G (MultiAttrs XF)) m.π m.A rfl rfl
        hm.chain.π_sum hm.chain.A_sum
    rw [Sub.check_eq, hb]
    simp only
    rw [show (multiSub (α := XF) (G := G)).checkSub = multiCheck from rfl]
    have ha : atleast2d (mat m.B) = mat m.B := rfl
    have hsh : (mat m.B).shape = [w.est.nComponents, nf] := rfl
    simp [multiCheck, ha, hsh]
  rw [Sub.fit_eq hX ls hinit hcheck]
  refine TrainsFrom.settings_of ?_ hs1
  obtain ⟨hL', hu'⟩ := hL m hm
  subst hw1
  exact multi_loop (e := { w.est with nFeatures := some nf, sub := { w.est.sub with nTrials := some t, emissionprob := some (mat m.B) }, randomState := rs, startprob := some (vec m.π), transmat := some (mat m.A) })
    ⟨hset.1, hset.2, hset.3, hset.4, hset.5⟩ hst hmod hm.chain.π_sum hne (multi_rows _) hl hL' hu'

/-- **C72** `MultinomialHMM` with flat priors and the default `init_params`: if some count is not zero and some
sequence has two samples then `fit` returns, and `score` of the training data is then at least every
log-likelihood `fit` reported. -/
theorem C72_multinomial_fresh (hR : PositiveDraws R) {w : World XF G (MultiAttrs XF)}
    (hset : FlatChain w.est .log) (hp : ∀ c ∈ w.est.params, c ∈ ['s', 't', 'e']) (ht : 't' ∈ w.est.params)
    (hi : ∀ c ∈ ['s', 't', 'e'], c ∈ w.est.initParams) {ss : List (ObsSeq (Fin nf → ℕ))} (hlong : ∃ s ∈ ss, s.n ≠ 0)
    (hnz : ∃ s ∈ ss, ∃ t k, s.x t k ≠ 0)
    (hnf : ColumnCount w.est nf) (htr : TrialsFor w.est ss) {ls : Option (List Int)} (hl : LengthsFor ss ls) :
    (multiSub.fit R (countsX (samples ss)) ls w).1 = .ok () ∧
      ScoresWell multiSub (countsX (samples ss)) ls (multiSub.fit R (countsX (samples ss)) ls w).2.est := by
  haveI : NeZero w.est.nComponents := ⟨hset.nComponents⟩
  have hne : ss ≠ [] := by rintro rfl; simp at hlong
  obtain ⟨s, hs, t, k, hk⟩ := hnz
  have hf : nf ≠ 0 := by rintro rfl; exact k.elim0
  have h1 : Fresh w.est 's' w.est.startprob := .inl (hi _ (by simp))
  have h2 : Fresh w.est 't' w.est.transmat := .inl (hi _ (by simp))
  have h3 : 'e' ∈ w.est.initParams := hi _ (by simp)
  have hpos : ∀ {B : Fin w.est.nComponents → Fin nf → ℝ}, (∀ i k, 0 < B i k) → ∀ o i, 0 < multinomialB B o i :=
    fun h o i => (Multinomial.multinomialPmf_pos_iff (fun k => (h i k).le) o).2 fun k h0 => absurd h0 (h i k).ne'
  obtain ⟨m, hm, htr⟩ := C72_multinomial hR hf hset hp ⟨⟨fun h => absurd h1 h, fun h => absurd h2 h⟩,
    fun h => absurd h3 h⟩ hne hnf htr hl fun m hm =>
      ⟨dataLikelihood_pos (hm.chain.startprob.draws h1)
        (hm.chain.transmat.draws h2) (hpos (hm.rows.draws h3)) ss, fun i => ⟨s, hs, fun _ => i, t, k,
          joint_pos (hm.chain.startprob.draws h1) (hm.chain.transmat.draws h2) (hpos (hm.rows.draws h3)) s _, rfl, hk⟩⟩
  exact scores_well htr hset.implementation ⟨ht, usedBeforeLast_pos (hm.chain.startprob.draws h1)
    (hm.chain.transmat.draws h2) (hpos (hm.rows.draws h3)) hlong, trivial⟩ hne hl

end Verif
