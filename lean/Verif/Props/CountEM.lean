import Verif.Proofs.PoissonFamily
import Verif.Proofs.MultinomialFamily
import Verif.Props.CategoricalEM

/-!
# EM for `PoissonHMM` and `MultinomialHMM`: C20, C22, C26, C27, C47
-/

namespace Verif
open FloatLike XF Hmmc Spec
open scoped Classical

variable {nc nf : ℕ} [NeZero nc]

section Pos
variable {D : Type} {π : Fin nc → ℝ} {A : Fin nc → Fin nc → ℝ} {b : D → Fin nc → ℝ}

omit [NeZero nc] in
theorem likelihoods_pos_of_data {ss : List (ObsSeq D)} (hπ : ∀ i, 0 ≤ π i) (hA : ∀ i j, 0 ≤ A i j)
    (hb : ∀ o i, 0 ≤ b o i) (hL : 0 < dataLikelihood π A b ss) :
    ∀ s ∈ ss, 0 < likelihood π A (s.weights b) := by
  intro s hs
  refine lt_of_le_of_ne (likelihood_nonneg hπ hA fun t i => hb _ _) fun h0 => hL.ne' ?_
  exact List.prod_eq_zero (List.mem_map.2 ⟨s, hs, h0.symm⟩)

/-- With positive parameters everything is possible. -/
theorem everyStateUsed_of_pos {ss : List (ObsSeq D)} (hne : ss ≠ []) (hπ : ∀ i, 0 < π i)
    (hA : ∀ i j, 0 < A i j) (hb : ∀ o i, 0 < b o i) :
    EveryStateUsed π A b ss ∧ 0 < dataLikelihood π A b ss := by
  have hj : ∀ (s : ObsSeq D) z, 0 < joint π A (s.weights b) z := fun s z =>
    mul_pos (mul_pos (hπ _) (Finset.prod_pos fun t _ => hA _ _)) (Finset.prod_pos fun t _ => hb _ _)
  constructor
  · intro i
    obtain ⟨s, hs⟩ := List.exists_mem_of_ne_nil ss hne
    exact ⟨s, hs, fun _ => i, 0, hj s _, rfl⟩
  · refine List.prod_pos ?_
    intro x hx
    obtain ⟨s, -, rfl⟩ := List.mem_map.1 hx
    exact Finset.sum_pos (fun z _ => hj s z) ⟨fun _ => 0, Finset.mem_univ _⟩

end Pos

/-! ## `PoissonHMM` -/

namespace Poisson

/-- The parameters `π, A, l` as estimator attributes. -/
noncomputable def params (π : Fin nc → ℝ) (A : Fin nc → Fin nc → ℝ) (l : Fin nc → Fin nf → ℝ) :
    Theta XF nc (Params XF nc nf) :=
  ⟨fun i => fin (π i), fun i j => fin (A i j), fun i k => fin (l i k)⟩

end Poisson

/-- `fit` of a `PoissonHMM` with Dirichlet priors `sp`, `tp` and Gamma prior `al`, `be`. -/
noncomputable def poissonFit (sp : Fin nc → ℝ) (tp : Fin nc → Fin nc → ℝ)
    (al be : Fin nc → Fin nf → ℝ) (params : List Char) (impl : Impl) (nIter : ℕ)
    (ss : List (ObsSeq (Fin nf → ℕ))) (θ : Theta XF nc (Poisson.Params XF nc nf)) (mon : Monitor XF) :
    FitOutcome XF (Theta XF nc (Poisson.Params XF nc nf)) :=
  fitFrom (Poisson.emission (fun i k => fin (al i k)) fun i k => fin (be i k))
    (mapConfig sp tp params impl nIter) (dataX Poisson.row ss) (some (dataLengths ss)) θ mon

section
variable {π : Fin nc → ℝ} {A : Fin nc → Fin nc → ℝ} {l : Fin nc → Fin nf → ℝ}

/-- **C20** (PoissonHMM) Without `'l'` in `params`, `fit` leaves `lambdas_` untouched. -/
theorem C20_poisson {α : Type} [FloatLike α] (al be : Poisson.Params α nc nf) (cfg : Config α nc)
    (X : List (Poisson.Obs nf)) (lengths : Option (List Int))
    (θ : Theta α nc (Poisson.Params α nc nf)) (mon : Monitor α) (hs : 'l' ∉ cfg.params) :
    (fitFrom (Poisson.emission al be) cfg X lengths θ mon).state.emission = θ.emission :=
  fit_keeps id _ cfg X lengths θ mon fun p st => by simp [Poisson.emission, hs]

/-- The real parameters of a model. -/
def Spec.PoissonModel.rp (h : PoissonModel π A l) : RParams nc (Poisson.Rates nc nf) :=
  ⟨π, A, ⟨l, h.l_nonneg⟩⟩

omit [NeZero nc] in
theorem Spec.PoissonModel.valid (h : PoissonModel π A l) : h.rp.Valid :=
  ⟨h.π_nonneg, h.A_nonneg, h.π_sum, h.A_sum⟩

omit [NeZero nc] in
theorem poissonModel_of_valid {r : RParams nc (Poisson.Rates nc nf)} (h : r.Valid) :
    PoissonModel r.π r.A r.q.l :=
  ⟨h.π_nonneg, h.A_nonneg, r.q.nonneg, h.π_sum, h.A_sum⟩

theorem Spec.PoissonModel.ok {al be : Fin nc → Fin nf → ℝ} {hal : ∀ i k, 0 ≤ al i k}
    {hbe : ∀ i k, 0 ≤ be i k} {ps : List Char} (h : PoissonModel π A l)
    {ss : List (ObsSeq (Fin nf → ℕ))} (hL : 0 < dataLikelihood π A (poissonB l) ss) :
    (Poisson.family al be hal hbe ps).Ok .log ss h.rp :=
  likelihoods_pos_of_data h.π_nonneg h.A_nonneg
    ((Poisson.family al be hal hbe ps).b_nonneg h.rp.q) hL

theorem Poisson.closed (al be : Fin nc → Fin nf → ℝ) (hal : ∀ i k, 0 ≤ al i k)
    (hbe : ∀ i k, 0 ≤ be i k) (ps : List Char) (c : RConfig nc) (ss : List (ObsSeq (Fin nf → ℕ)))
    (hp : 's' ∈ ps → ∀ i, 1 ≤ c.sp i) (ht : 't' ∈ ps → ∀ i j, 1 ≤ c.tp i j) :
    (family al be hal hbe ps).Closed c ss fun r => r.Valid ∧ (family al be hal hbe ps).Ok .log ss r ∧
      (family al be hal hbe ps).Occupied ss r :=
  (family al be hal hbe ps).closed_occupied c ss hp ht (fun r h1 h2 h3 => good ss r h1 h2 h3)
    fun r h1 h2 h3 => ac ss r h1 h2 h3

/-- **C22** (PoissonHMM) `fit` with flat priors, any `params`, either implementation, any number of
iterations, any data set of positive likelihood in which every state is on some possible path: the
history of log-likelihoods is non-decreasing and the parameters left in the estimator are at least
as likely as every value in it and as the starting point. -/
theorem C22_poisson (params : List Char) (impl : Impl) (nIter : ℕ) (ss : List (ObsSeq (Fin nf → ℕ)))
    (hne : ss ≠ []) (h : PoissonModel π A l) (hL : 0 < dataLikelihood π A (poissonB l) ss)
    (hu : EveryStateUsed π A (poissonB l) ss) (mon : Monitor XF) :
    let out := poissonFit (fun _ => 1) (fun _ _ => 1) (fun _ _ => 0) (fun _ _ => 0) params impl nIter
      ss (Poisson.params π A l) mon
    ∃ (v : List ℝ) (π' : Fin nc → ℝ) (A' : Fin nc → Fin nc → ℝ) (l' : Fin nc → Fin nf → ℝ),
      out.monitor.history = v.map fin ∧ v.Pairwise (· ≤ ·) ∧
      out.state = Poisson.params π' A' l' ∧ PoissonModel π' A' l' ∧
      dataLikelihood π A (poissonB l) ss ≤ dataLikelihood π' A' (poissonB l') ss ∧
      (∀ x ∈ v, x ≤ Real.log (dataLikelihood π' A' (poissonB l') ss)) ∧
      (∀ x ∈ v, Real.log (dataLikelihood π A (poissonB l) ss) ≤ x) := by
  intro out
  let F := Poisson.family (nc := nc) (nf := nf) (fun _ _ => 0) (fun _ _ => 0) (by simp) (by simp) params
  obtain ⟨v, r', h1, h2, h3, h4, h5, h6, h7⟩ := F.fit_monotone
    (Poisson.closed (fun _ _ => 0) (fun _ _ => 0) (by simp) (by simp) params
      ⟨fun _ => 1, fun _ _ => 1, impl, nIter⟩ ss (by simp) (by simp)) hne (r := h.rp)
    ⟨h.valid, h.ok hL, hu⟩
    (fun r hr _ => Poisson.gains ss r hr.1 (by simp) hr.2.1 hr.2.2) mon
  refine ⟨v, r'.π, r'.A, r'.q.l, h1, h2, h3, poissonModel_of_valid h4.1, ?_, h5, h6⟩
  exact (Real.log_le_log_iff hL (log_dataLikelihood ss h4.2.1).1).1 h7

/-- **C26** (PoissonHMM) priors at least one, any non-negative Gamma prior: if a `scaling` fit does
not raise, `log` gives the same outcome. -/
theorem C26_poisson (sp : Fin nc → ℝ) (tp : Fin nc → Fin nc → ℝ) (al be : Fin nc → Fin nf → ℝ)
    (hsp : ∀ i, 1 ≤ sp i) (htp : ∀ i j, 1 ≤ tp i j) (hal : ∀ i k, 0 ≤ al i k)
    (hbe : ∀ i k, 0 ≤ be i k) (params : List Char) (nIter : ℕ) (ss : List (ObsSeq (Fin nf → ℕ)))
    (hne : ss ≠ []) (h : PoissonModel π A l) (hL : 0 < dataLikelihood π A (poissonB l) ss)
    (hu : EveryStateUsed π A (poissonB l) ss) (mon : Monitor XF)
    (hr : (poissonFit sp tp al be params .scaling nIter ss (Poisson.params π A l) mon).raised = none) :
    poissonFit sp tp al be params .log nIter ss (Poisson.params π A l) mon =
      poissonFit sp tp al be params .scaling nIter ss (Poisson.params π A l) mon :=
  (Poisson.family al be hal hbe params).fit_impl
    (Poisson.closed al be hal hbe params ⟨sp, tp, .scaling, nIter⟩ ss (fun _ => hsp) fun _ => htp)
    hne (fun _ => hsp) (r := h.rp) ⟨h.valid, h.ok hL, hu⟩ mon hr

/-- **C27** (PoissonHMM) permuting the training sequences does not change the outcome of `fit`. -/
theorem C27_poisson (sp : Fin nc → ℝ) (tp : Fin nc → Fin nc → ℝ) (al be : Fin nc → Fin nf → ℝ)
    (hsp : ∀ i, 1 ≤ sp i) (htp : ∀ i j, 1 ≤ tp i j) (hal : ∀ i k, 0 ≤ al i k)
    (hbe : ∀ i k, 0 ≤ be i k) (params : List Char) (impl : Impl) (nIter : ℕ)
    {ss ss' : List (ObsSeq (Fin nf → ℕ))} (hperm : ss.Perm ss') (hne : ss ≠ [])
    (h : PoissonModel π A l) (hL : 0 < dataLikelihood π A (poissonB l) ss)
    (hu : EveryStateUsed π A (poissonB l) ss) (mon : Monitor XF) :
    poissonFit sp tp al be params impl nIter ss' (Poisson.params π A l) mon =
      poissonFit sp tp al be params impl nIter ss (Poisson.params π A l) mon :=
  (Poisson.family al be hal hbe params).fit_perm
    (Poisson.closed al be hal hbe params ⟨sp, tp, impl, nIter⟩ ss (fun _ => hsp) fun _ => htp)
    hperm hne (fun _ => hsp) (r := h.rp) ⟨h.valid, h.ok hL, hu⟩ mon

/-- Expected number of visits to state `i`. -/
noncomputable def Spec.poissonVisits (π : Fin nc → ℝ) (A : Fin nc → Fin nc → ℝ)
    (l : Fin nc → Fin nf → ℝ) (ss : List (ObsSeq (Fin nf → ℕ))) (i : Fin nc) : ℝ :=
  (ss.map fun s => ∑ t, posterior π A (s.weights (poissonB l)) t i).sum

/-- Expected total of the counts emitted by state `i` in coordinate `k`. -/
noncomputable def Spec.poissonTotal (π : Fin nc → ℝ) (A : Fin nc → Fin nc → ℝ)
    (l : Fin nc → Fin nf → ℝ) (ss : List (ObsSeq (Fin nf → ℕ))) (i : Fin nc) (k : Fin nf) : ℝ :=
  (ss.map fun s => ∑ t, posterior π A (s.weights (poissonB l)) t i * (s.x t k : ℝ)).sum

/-- **C47** One EM iteration of a `PoissonHMM`, any non-negative Gamma prior `(al, be)`: the new rate
of state `i` is `(al + n ȳ) / (be + n)` with `ȳ` the posterior-weighted mean count of the state and
`n` the expected number of visits to *all* states. -/
theorem C47_update (sp : Fin nc → ℝ) (tp : Fin nc → Fin nc → ℝ) (al be : Fin nc → Fin nf → ℝ)
    (hal : ∀ i k, 0 ≤ al i k) (hbe : ∀ i k, 0 ≤ be i k) (params : List Char) (hl : 'l' ∈ params)
    (impl : Impl) (nIter : ℕ) (ss : List (ObsSeq (Fin nf → ℕ))) (hne : ss ≠ [])
    (h : PoissonModel π A l) (hok : ∀ s ∈ ss, EstepOk impl π A (s.weights (poissonB l)))
    (hu : ∀ i, 0 < poissonVisits π A l ss i) :
    ∃ (θ' : Theta XF nc (Poisson.Params XF nc nf)) (v : XF),
      emStep (Poisson.emission (fun i k => fin (al i k)) fun i k => fin (be i k))
        (mapConfig sp tp params impl nIter) (dataX Poisson.row ss) (dataLengths ss)
        (Poisson.params π A l) = .ok (θ', v) ∧
      θ'.emission = fun i k => fin ((al i k + (∑ j, poissonVisits π A l ss j) *
        (poissonTotal π A l ss i k / poissonVisits π A l ss i)) /
        (be i k + ∑ j, poissonVisits π A l ss j)) := by
  let F := Poisson.family al be hal hbe params
  have hv : ∀ i, obsStat π A (poissonB l) ss i (fun _ => 1) = poissonVisits π A l ss i := by
    intro i; simp [obsStat, poissonVisits]
  have ht : ∀ i k, obsStat π A (poissonB l) ss i (fun x => (x k : ℝ)) = poissonTotal π A l ss i k :=
    fun i k => rfl
  have hstep := F.emStep_ok ⟨sp, tp, impl, nIter⟩ ss hne (r := h.rp) h.valid hok
    (fun _ i => ne_of_gt (by have := hu i; rw [← hv] at this; exact this))
  refine ⟨_, _, hstep, ?_⟩
  funext i k
  show fin ((F.next h.rp.q (obsStat π A (poissonB l) ss)).l i k) = _
  have e : (F.next h.rp.q (obsStat π A (poissonB l) ss)).l i k =
      max 0 (Poisson.upd al be (obsStat π A (poissonB l) ss) i k) := by
    simp only [F, Poisson.family, hl, if_true]
  rw [e]
  unfold Poisson.upd
  simp only [hv, ht]
  congr 1
  refine max_eq_right (div_nonneg (add_nonneg (hal i k) (mul_nonneg
    (Finset.sum_nonneg fun j _ => (hu j).le) (div_nonneg ?_ (hu i).le))) ?_)
  · rw [← ht]
    exact obsStat_nonneg h.π_nonneg h.A_nonneg (F.b_nonneg h.rp.q) ss i fun x => Nat.cast_nonneg _
  · exact add_nonneg (hbe i k) (Finset.sum_nonneg fun j _ => (hu j).le)

/-- **C47** With a zero prior the new rate is the posterior-weighted mean count of the state. -/
theorem C47_flat (sp : Fin nc → ℝ) (tp : Fin nc → Fin nc → ℝ) (params : List Char)
    (hl : 'l' ∈ params) (impl : Impl) (nIter : ℕ) (ss : List (ObsSeq (Fin nf → ℕ))) (hne : ss ≠ [])
    (h : PoissonModel π A l) (hok : ∀ s ∈ ss, EstepOk impl π A (s.weights (poissonB l)))
    (hu : ∀ i, 0 < poissonVisits π A l ss i) :
    ∃ (θ' : Theta XF nc (Poisson.Params XF nc nf)) (v : XF),
      emStep (Poisson.emission (fun _ _ => fin 0) fun _ _ => fin 0)
        (mapConfig sp tp params impl nIter) (dataX Poisson.row ss) (dataLengths ss)
        (Poisson.params π A l) = .ok (θ', v) ∧
      θ'.emission = fun i k => fin (poissonTotal π A l ss i k / poissonVisits π A l ss i) := by
  obtain ⟨θ', v, h1, h2⟩ := C47_update sp tp (fun _ _ => 0) (fun _ _ => 0) (by simp) (by simp) params
    hl impl nIter ss hne h hok hu
  refine ⟨θ', v, h1, h2.trans ?_⟩
  funext i k
  have hn : 0 < ∑ j, poissonVisits π A l ss j := Finset.sum_pos (fun j _ => hu j) ⟨0, Finset.mem_univ _⟩
  rw [zero_add, zero_add, mul_div_cancel_left₀ _ hn.ne']

/-- **C47** The posterior mean under a `Gamma(al, be)` prior is `(al + Σ γ x) / (be + Σ γ)`.  The
code's update coincides with it exactly when the state is the only one ever visited or the prior
mean already equals the state's weighted mean count. -/
theorem C47_prior_iff {al be N Ni y : ℝ} (hbe : 0 ≤ be) (hNi : 0 < Ni) (hN : Ni ≤ N) :
    (al + N * (y / Ni)) / (be + N) = (al + y) / (be + Ni) ↔ N = Ni ∨ al = be * (y / Ni) := by
  have h1 : be + N ≠ 0 := by linarith
  have h2 : be + Ni ≠ 0 := by linarith
  rw [div_eq_div_iff h1 h2]
  have e : (al + N * (y / Ni)) * (be + Ni) - (al + y) * (be + N) =
      (N - Ni) * (be * (y / Ni) - al) := by field_simp; ring
  rw [← sub_eq_zero, e, mul_eq_zero, sub_eq_zero, sub_eq_zero, eq_comm (a := be * _)]

end

/-! ## `MultinomialHMM` -/

namespace Multinomial

/-- The parameters `π, A, e` as estimator attributes. -/
noncomputable def params (π : Fin nc → ℝ) (A : Fin nc → Fin nc → ℝ) (e : Fin nc → Fin nf → ℝ) :
    Theta XF nc (Params XF nc nf) :=
  ⟨fun i => fin (π i), fun i j => fin (A i j), fun i k => fin (e i k)⟩

end Multinomial

/-- `fit` of a `MultinomialHMM` with Dirichlet priors `sp`, `tp`. -/
noncomputable def multinomialFit (sp : Fin nc → ℝ) (tp : Fin nc → Fin nc → ℝ) (params : List Char)
    (impl : Impl) (nIter : ℕ) (ss : List (ObsSeq (Fin nf → ℕ)))
    (θ : Theta XF nc (Multinomial.Params XF nc nf)) (mon : Monitor XF) :
    FitOutcome XF (Theta XF nc (Multinomial.Params XF nc nf)) :=
  fitFrom Multinomial.emission (mapConfig sp tp params impl nIter) (dataX Multinomial.row ss)
    (some (dataLengths ss)) θ mon

/-- Every state is on a path of positive joint probability at a sample that is not all zero. -/
def Spec.EveryStateEmits (π : Fin nc → ℝ) (A : Fin nc → Fin nc → ℝ) (e : Fin nc → Fin nf → ℝ)
    (ss : List (ObsSeq (Fin nf → ℕ))) : Prop :=
  ∀ i, ∃ s ∈ ss, ∃ (z : Fin (s.n + 1) → Fin nc) (t : Fin (s.n + 1)) (k : Fin nf),
    0 < joint π A (s.weights (multinomialB e)) z ∧ z t = i ∧ s.x t k ≠ 0

section
variable {π : Fin nc → ℝ} {A : Fin nc → Fin nc → ℝ} {e : Fin nc → Fin nf → ℝ}

/-- **C20** (MultinomialHMM) Without `'e'` in `params`, `fit` leaves `emissionprob_` untouched. -/
theorem C20_multinomial {α : Type} [FloatLike α] (cfg : Config α nc) (X : List (Multinomial.Obs nf))
    (lengths : Option (List Int)) (θ : Theta α nc (Multinomial.Params α nc nf)) (mon : Monitor α)
    (hs : 'e' ∉ cfg.params) :
    (fitFrom Multinomial.emission cfg X lengths θ mon).state.emission = θ.emission :=
  fit_keeps id _ cfg X lengths θ mon fun p st => by simp [Multinomial.emission, hs]

/-- The real parameters of a model. -/
def Spec.MultinomialModel.rp (h : MultinomialModel π A e) : RParams nc (Multinomial.Rows nc nf) :=
  ⟨π, A, ⟨e, h.e_nonneg, h.e_sum⟩⟩

omit [NeZero nc] in
theorem Spec.MultinomialModel.valid (h : MultinomialModel π A e) : h.rp.Valid :=
  ⟨h.π_nonneg, h.A_nonneg, h.π_sum, h.A_sum⟩

theorem Spec.MultinomialModel.ok {ps : List Char} (h : MultinomialModel π A e)
    {ss : List (ObsSeq (Fin nf → ℕ))} (hL : 0 < dataLikelihood π A (multinomialB e) ss) :
    (Multinomial.family ps).Ok .log ss h.rp :=
  likelihoods_pos_of_data h.π_nonneg h.A_nonneg ((Multinomial.family ps).b_nonneg h.rp.q) hL

/-- **C22** (MultinomialHMM) `fit` with flat priors, any `params`, either implementation, any number
of iterations, any data set of positive likelihood in which every state may have emitted a sample
that is not all zero: the history of log-likelihoods is non-decreasing and the parameters left in
the estimator are at least as likely as every value in it and as the starting point. -/
theorem C22_multinomial (params : List Char) (impl : Impl) (nIter : ℕ)
    (ss : List (ObsSeq (Fin nf → ℕ))) (hne : ss ≠ []) (h : MultinomialModel π A e)
    (hL : 0 < dataLikelihood π A (multinomialB e) ss) (hu : EveryStateEmits π A e ss)
    (mon : Monitor XF) :
    let out := multinomialFit (fun _ => 1) (fun _ _ => 1) params impl nIter ss
      (Multinomial.params π A e) mon
    ∃ (v : List ℝ) (π' : Fin nc → ℝ) (A' : Fin nc → Fin nc → ℝ) (e' : Fin nc → Fin nf → ℝ),
      out.monitor.history = v.map fin ∧ v.Pairwise (· ≤ ·) ∧
      out.state = Multinomial.params π' A' e' ∧ MultinomialModel π' A' e' ∧
      dataLikelihood π A (multinomialB e) ss ≤ dataLikelihood π' A' (multinomialB e') ss ∧
      (∀ x ∈ v, x ≤ Real.log (dataLikelihood π' A' (multinomialB e') ss)) ∧
      (∀ x ∈ v, Real.log (dataLikelihood π A (multinomialB e) ss) ≤ x) := by
  intro out
  obtain ⟨v, r', h1, h2, h3, h4, h5, h6, h7⟩ := (Multinomial.family params).fit_monotone
    (Multinomial.closed ⟨fun _ => 1, fun _ _ => 1, impl, nIter⟩ ss (by simp) (by simp)) hne (r := h.rp)
    ⟨h.valid, h.ok hL, hu⟩ (fun r hr _ => Multinomial.gains ss r hr.1 hr.2.1 hr.2.2) mon
  refine ⟨v, r'.π, r'.A, r'.q.e, h1, h2, h3, ⟨h4.1.π_nonneg, h4.1.A_nonneg, r'.q.nonneg, h4.1.π_sum,
    h4.1.A_sum, r'.q.sum_one⟩, ?_, h5, h6⟩
  exact (Real.log_le_log_iff hL (log_dataLikelihood ss h4.2.1).1).1 h7

/-- **C26** (MultinomialHMM) -/
theorem C26_multinomial (sp : Fin nc → ℝ) (tp : Fin nc → Fin nc → ℝ) (hsp : ∀ i, 1 ≤ sp i)
    (htp : ∀ i j, 1 ≤ tp i j) (params : List Char) (nIter : ℕ) (ss : List (ObsSeq (Fin nf → ℕ)))
    (hne : ss ≠ []) (h : MultinomialModel π A e) (hL : 0 < dataLikelihood π A (multinomialB e) ss)
    (hu : EveryStateEmits π A e ss) (mon : Monitor XF)
    (hr : (multinomialFit sp tp params .scaling nIter ss (Multinomial.params π A e) mon).raised =
      none) :
    multinomialFit sp tp params .log nIter ss (Multinomial.params π A e) mon =
      multinomialFit sp tp params .scaling nIter ss (Multinomial.params π A e) mon :=
  (Multinomial.family params).fit_impl
    (Multinomial.closed ⟨sp, tp, .scaling, nIter⟩ ss (fun _ => hsp) fun _ => htp)
    hne (fun _ => hsp) (r := h.rp) ⟨h.valid, h.ok hL, hu⟩ mon hr

/-- **C27** (MultinomialHMM) -/
theorem C27_multinomial (sp : Fin nc → ℝ) (tp : Fin nc → Fin nc → ℝ) (hsp : ∀ i, 1 ≤ sp i)
    (htp : ∀ i j, 1 ≤ tp i j) (params : List Char) (impl : Impl) (nIter : ℕ)
    {ss ss' : List (ObsSeq (Fin nf → ℕ))} (hperm : ss.Perm ss') (hne : ss ≠ [])
    (h : MultinomialModel π A e) (hL : 0 < dataLikelihood π A (multinomialB e) ss)
    (hu : EveryStateEmits π A e ss) (mon : Monitor XF) :
    multinomialFit sp tp params impl nIter ss' (Multinomial.params π A e) mon =
      multinomialFit sp tp params impl nIter ss (Multinomial.params π A e) mon :=
  (Multinomial.family params).fit_perm
    (Multinomial.closed ⟨sp, tp, impl, nIter⟩ ss (fun _ => hsp) fun _ => htp)
    hperm hne (fun _ => hsp) (r := h.rp) ⟨h.valid, h.ok hL, hu⟩ mon

end

/-! ## Concrete cases -/

namespace DemoCounts

noncomputable def l : Fin 2 → Fin 1 → ℝ := ![![1], ![3]]
/-- Two sequences of counts. -/
def ss : List (ObsSeq (Fin 1 → ℕ)) := [⟨2, ![![0], ![2], ![5]]⟩, ⟨0, ![![1]]⟩]

theorem l_pos (i : Fin 2) (k : Fin 1) : 0 < l i k := by fin_cases i <;> fin_cases k <;> norm_num [l]
theorem π_pos (i : Fin 2) : 0 < Demo.π i := by fin_cases i <;> norm_num [Demo.π]
theorem A_pos (i j : Fin 2) : 0 < Demo.A i j := by fin_cases i <;> fin_cases j <;> norm_num [Demo.A]

theorem poisson : PoissonModel Demo.π Demo.A l :=
  ⟨Demo.π_nonneg, Demo.A_nonneg, fun i k => (l_pos i k).le, Demo.stochastic.π_sum.le,
    fun i => (Demo.stochastic.A_sum i).le⟩

theorem poissonB_pos (o : Fin 1 → ℕ) (i : Fin 2) : 0 < poissonB l o i :=
  Finset.prod_pos fun k _ => Poisson.poissonPmf_pos (l_pos i k) _

theorem poisson_used : EveryStateUsed Demo.π Demo.A (poissonB l) ss ∧
    0 < dataLikelihood Demo.π Demo.A (poissonB l) ss :=
  everyStateUsed_of_pos (by simp [ss]) π_pos A_pos poissonB_pos

theorem visits_pos (i : Fin 2) : 0 < poissonVisits Demo.π Demo.A l ss i := by
  have := Family.Occupied.pos (F := Poisson.family (nc := 2) (nf := 1) (fun _ _ => 0) (fun _ _ => 0)
    (by simp) (by simp) []) (r := poisson.rp) poisson_used.1 poisson.valid (poisson.ok poisson_used.2) i
  have e : poissonVisits Demo.π Demo.A l ss i = obsStat Demo.π Demo.A (poissonB l) ss i fun _ => 1 := by
    simp [obsStat, poissonVisits]
  rw [e]; exact this

/-- Ten iterations, both implementations. -/
example (impl : Impl) (mon : Monitor XF) :
    ∃ v : List ℝ, (poissonFit (fun _ => 1) (fun _ _ => 1) (fun _ _ => 0) (fun _ _ => 0)
      ['s', 't', 'l'] impl 10 ss (Poisson.params Demo.π Demo.A l) mon).monitor.history = v.map fin ∧
      v.Pairwise (· ≤ ·) := by
  obtain ⟨v, _, _, _, h1, h2, _⟩ := C22_poisson ['s', 't', 'l'] impl 10 ss (by simp [ss]) poisson
    poisson_used.2 poisson_used.1 mon
  exact ⟨v, h1, h2⟩

/-- **C47** The documented Gamma posterior mean is not what the code computes: two states, prior
`Gamma(1, 1)` on every rate.  The update agrees with the documented one for a state only if its
weighted mean count happens to be one. -/
theorem C47_prior_wrong (y : ℝ) (i : Fin 2)
    (hy : y ≠ poissonVisits Demo.π Demo.A l ss i) :
    (1 + (∑ j, poissonVisits Demo.π Demo.A l ss j) * (y / poissonVisits Demo.π Demo.A l ss i)) /
      (1 + ∑ j, poissonVisits Demo.π Demo.A l ss j) ≠
      (1 + y) / (1 + poissonVisits Demo.π Demo.A l ss i) := by
  have h0 := visits_pos 0
  have h1 := visits_pos 1
  rw [Ne, C47_prior_iff zero_le_one (visits_pos i)
    (by rw [Fin.sum_univ_two]; fin_cases i <;> simp [h0.le, h1.le])]
  rintro (h | h)
  · rw [Fin.sum_univ_two] at h
    fin_cases i
    · simp at h; linarith
    · simp at h; linarith
  · rw [one_mul, eq_div_iff (visits_pos i).ne', one_mul] at h
    exact hy h.symm

noncomputable def e : Fin 2 → Fin 2 → ℝ := ![![1/4, 3/4], ![2/3, 1/3]]
def ms : List (ObsSeq (Fin 2 → ℕ)) := [⟨2, ![![0, 3], ![2, 1], ![3, 0]]⟩, ⟨0, ![![1, 2]]⟩]

theorem e_pos (i k : Fin 2) : 0 < e i k := by fin_cases i <;> fin_cases k <;> norm_num [e]

theorem multinomial : MultinomialModel Demo.π Demo.A e :=
  ⟨Demo.π_nonneg, Demo.A_nonneg, fun i k => (e_pos i k).le, Demo.stochastic.π_sum.le,
    fun i => (Demo.stochastic.A_sum i).le,
    fun i => by fin_cases i <;> norm_num [e, Fin.sum_univ_two]⟩

theorem multinomialB_pos (o : Fin 2 → ℕ) (i : Fin 2) : 0 < multinomialB e o i :=
  (Multinomial.multinomialPmf_pos_iff (fun k => (e_pos i k).le) o).2 fun k h0 =>
    absurd h0 (e_pos i k).ne'

theorem multinomial_pos : 0 < dataLikelihood Demo.π Demo.A (multinomialB e) ms :=
  (everyStateUsed_of_pos (by simp [ms]) π_pos A_pos multinomialB_pos).2

theorem multinomial_emits : EveryStateEmits Demo.π Demo.A e ms := by
  intro i
  refine ⟨⟨0, ![![1, 2]]⟩, by simp [ms], fun _ => i, 0, 0, ?_, rfl, by simp⟩
  exact mul_pos (mul_pos (π_pos _) (Finset.prod_pos fun t _ => A_pos _ _))
    (Finset.prod_pos fun t _ => multinomialB_pos _ _)

example (impl : Impl) (mon : Monitor XF) :
    ∃ v : List ℝ, (multinomialFit (fun _ => 1) (fun _ _ => 1) ['s', 't', 'e'] impl 10 ms
      (Multinomial.params Demo.π Demo.A e) mon).monitor.history = v.map fin ∧
      v.Pairwise (· ≤ ·) := by
  obtain ⟨v, _, _, _, h1, h2, _⟩ := C22_multinomial ['s', 't', 'e'] impl 10 ms (by simp [ms])
    multinomial multinomial_pos multinomial_emits mon
  exact ⟨v, h1, h2⟩

end DemoCounts

end Verif
