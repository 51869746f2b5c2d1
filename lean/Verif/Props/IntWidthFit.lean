import Verif.Props.IntWidth
import Verif.Props.Usable

/-!
# C105: variances from squares that wrapped around
-/
set_option autoImplicit false

namespace Verif
open FloatLike XF Hmmc Spec Gaussian
open scoped Classical

variable {nc nf : ℕ} [NeZero nc]

/-- **C105** One iteration of EM (`diag`) on an array of type `ty`, compared with the same numbers in floating point:
same likelihood, initial and transition probabilities and means; every variance is smaller by the expected loss. -/
theorem C105_step (ty : IntType) (g : GaussPrior nc nf) (cp : Fin nc → Fin nf → ℝ) (ps : List Char) (hm : 'm' ∈ ps) (hc : 'c' ∈ ps)
    (sp : Fin nc → ℝ) (tp : Fin nc → Fin nc → ℝ) (hsp : ∀ i, 1 ≤ sp i) (impl : Impl) (nIter : ℕ)
    (ss : List (ObsSeq (Fin nf → ℤ))) (hne : ss ≠ []) (p : DiagPoint nc nf) (h : ChainModel p.π p.A)
    (hok : ∀ s ∈ recode realRow ss, EstepOk impl p.π p.A (s.weights (diagB p.mu p.v)))
    (hN : ∀ i, g.mw + visits p.π p.A (diagB p.mu p.v) (recode realRow ss) i ≠ 0) :
    ∃ (q q' : DiagPoint nc nf) (L : XF),
      emStep (emissionDiagInts ty (prior g) fun i k => fin (cp i k)) (mapConfig sp tp ps impl nIter) (dataX id ss) (dataLengths ss)
        p.theta = .ok (q.theta, L) ∧
      emStep (DiagType.diag.emission g cp) (mapConfig sp tp ps impl nIter) (dataX row (recode realRow ss))
        (dataLengths (recode realRow ss)) p.theta = .ok (q'.theta, L) ∧
      q.π = q'.π ∧ q.A = q'.A ∧ q.mu = q'.mu ∧
      ∀ i k, q.v i k = q'.v i k - obsStat p.π p.A (fun x => diagB p.mu p.v (realRow x)) ss i (fun x => (lost ty (x k) : ℝ)) /
        max (max (g.cw - 1) 0 + visits p.π p.A (diagB p.mu p.v) (recode realRow ss) i) (1 / 10 ^ 5) := by
  set ss' := recode realRow ss with hss'
  have hne' : ss' ≠ [] := by simpa [hss', recode] using hne
  let F := diagIntsFamily ty g cp ps
  let F' := diagFamily g cp ps
  have hv : (rpD p).Valid := DiagPoint.valid h _
  let b : (Fin nf → ℤ) → Fin nc → ℝ := fun x => diagB p.mu p.v (realRow x)
  have hb : ∀ o, diagB p.mu p.v (realRow o) = b o := fun _ => rfl
  have hobs : obsStat p.π p.A (diagB p.mu p.v) ss' = fun i f => obsStat p.π p.A b ss i fun o => f (realRow o) :=
    obsStat_recode realRow p.π p.A hb ss
  have hvis : ∀ i, visits p.π p.A (diagB p.mu p.v) ss' i = obsStat p.π p.A b ss i fun _ => 1 := fun i => by
    rw [← visits_eq, hobs]
  have hok1 : F.Ok impl ss (rpD p) := by
    intro s hs
    exact hok (s.recode realRow) (List.mem_map.2 ⟨s, hs, rfl⟩)
  have hok2 : F'.Ok impl ss' (rpD p) := hok
  have hg1 : F.Good (rpD p).q (obsStat p.π p.A b ss) := fun _ i => by rw [← hvis]; exact hN i
  have hg2 : F'.Good (rpD p).q (obsStat p.π p.A (diagB p.mu p.v) ss') := fun _ i => by rw [visits_eq]; exact hN i
  have e1 := F.emStep_real ⟨sp, tp, impl, nIter⟩ ss hne hv hok1 hg1 fun _ => hsp
  have e2 := F'.emStep_real ⟨sp, tp, impl, nIter⟩ ss' hne' hv hok2 hg2 fun _ => hsp
  have hL : F.L ss (rpD p) = F'.L ss' (rpD p) := (dataLikelihood_recode realRow p.π p.A hb ss).symm
  refine ⟨ptD (F.rstep ⟨sp, tp, impl, nIter⟩ ss (rpD p)), ptD (F'.rstep ⟨sp, tp, impl, nIter⟩ ss' (rpD p)), _, e1, ?_, ?_, ?_, ?_, ?_⟩
  · rw [hL]; exact e2
  · show (if _ then mapUpdate sp p.π (startStat p.π p.A b ss) else _) = if _ then mapUpdate sp p.π (startStat p.π p.A (diagB p.mu p.v) ss') else _
    rw [startStat_recode realRow p.π p.A hb ss]
  · show (if _ then fun i => mapUpdate (tp i) (p.A i) (transStat p.π p.A b ss i) else _) =
      if _ then fun i => mapUpdate (tp i) (p.A i) (transStat p.π p.A (diagB p.mu p.v) ss' i) else _
    rw [transStat_recode realRow p.π p.A hb ss]
  · show muNext g ps p.mu (realT (obsStat p.π p.A b ss)) = muNext g ps p.mu (obsStat p.π p.A (diagB p.mu p.v) ss')
    rw [hobs]
    rfl
  · intro i k
    show (if 'c' ∈ ps then varInts ty g cp ps (muNext g ps p.mu (realT (obsStat p.π p.A b ss))) (obsStat p.π p.A b ss) else _) i k =
      (if 'c' ∈ ps then varNext g cp ps (muNext g ps p.mu (obsStat p.π p.A (diagB p.mu p.v) ss')) (obsStat p.π p.A (diagB p.mu p.v) ss') else _) i k - _
    rw [if_pos hc, if_pos hc, hvis, hobs]
    have hlin := obsStat_posLin h.π_nonneg h.A_nonneg (fun o i => (diagB_pos p.mu p.v (realRow o) i).le : ∀ o i, 0 ≤ b o i) ss
    have hsq : obsStat p.π p.A b ss i (fun o => realRow o k ^ 2) =
        obsStat p.π p.A b ss i (fun x => ((ty.wrap (x k * x k) : ℤ) : ℝ)) + obsStat p.π p.A b ss i (fun x => (lost ty (x k) : ℝ)) := by
      rw [← hlin.add]
      congr 1
      funext x
      unfold lost realRow
      push_cast
      ring
    unfold varInts varNext
    simp only [gate, hm, if_true]
    rw [hsq, ← sub_div]
    congr 1
    have hR : realT (obsStat p.π p.A b ss) = fun i f => obsStat p.π p.A b ss i fun o => f (realRow o) := rfl
    have hb' : (fun x => diagB p.mu p.v (realRow x)) = b := rfl
    rw [hR, hb']
    simp only [realRow]
    ring

/-- Total of the expected visits. -/
theorem sum_visits {D : Type} {π : Fin nc → ℝ} {A : Fin nc → Fin nc → ℝ} {b : D → Fin nc → ℝ} (ss : List (ObsSeq D))
    (h : ∀ s ∈ ss, 0 < likelihood π A (s.weights b)) : ∑ i, obsStat π A b ss i (fun _ => 1) = sampleCount ss := by
  induction ss with
  | nil => simp [obsStat, sampleCount]
  | cons s ss ih =>
    have ih := ih fun s' hs' => h s' (by simp [hs'])
    simp only [obsStat, sampleCount, List.map_cons, List.sum_cons, Nat.cast_add, Finset.sum_add_distrib] at ih ⊢
    rw [ih, Finset.sum_comm]
    simp only [mul_one, sum_posterior (h s (by simp)).ne']
    simp

theorem obsStat_loud {π : Fin nc → ℝ} {A : Fin nc → Fin nc → ℝ} {b : (Fin nf → ℤ) → Fin nc → ℝ} (hπ : ∀ i, 0 ≤ π i)
    (hA : ∀ i j, 0 ≤ A i j) (hb : ∀ o i, 0 ≤ b o i) {bits : ℕ} {ss : List (ObsSeq (Fin nf → ℤ))} {k : Fin nf}
    (hx : ∀ s ∈ ss, ∀ t, LoudFor bits (s.x t k)) (i : Fin nc) :
    obsStat π A b ss i (fun x => (((IntType.signed bits).wrap (x k * x k) : ℤ) : ℝ)) ≤ -obsStat π A b ss i fun _ => 1 := by
  induction ss with
  | nil => simp [obsStat]
  | cons s ss ih =>
    have ih := ih fun s' hs' => hx s' (by simp [hs'])
    simp only [obsStat, List.map_cons, List.sum_cons] at ih ⊢
    rw [neg_add]
    refine add_le_add ?_ ih
    rw [← Finset.sum_neg_distrib]
    refine Finset.sum_le_sum fun t _ => ?_
    have h1 := posterior_nonneg' hπ hA hb s t i
    have h2 : (((IntType.signed bits).wrap (s.x t k * s.x t k) : ℤ) : ℝ) ≤ -1 := by exact_mod_cast wrap_loud (hx s (by simp) t)
    nlinarith

/-- Training that meets its own conditions at every iterate does not raise. -/
theorem closed_raised {Obs D P S Q : Type} {E : Emission XF nc Obs P S} {obs : D → Obs} {ps : List Char} (F : Family E obs ps Q)
    {c : RConfig nc} {ss : List (ObsSeq D)} {I : RParams nc Q → Prop} (hI : F.Closed c ss I) (hok : ∀ r, I r → F.Ok c.impl ss r)
    (hgood : ∀ r, I r → F.Good r.q (obsStat r.π r.A (F.b r.q) ss)) (hne : ss ≠ []) (hp : 's' ∈ ps → ∀ i, 1 ≤ c.sp i)
    {r : RParams nc Q} (hr : I r) (mon : Monitor XF) : (F.fit c ss r mon).raised = none := by
  obtain ⟨h1, -, -, h4⟩ := F.fit_real hI hne hp hr mon
  by_contra hn
  obtain ⟨err, herr⟩ := Option.ne_none_iff_exists'.1 hn
  obtain ⟨_, _, _, _, _, _, h6⟩ := fitLoop_spec (step := emStep E (c.toConfig ps) (dataX obs ss) (dataLengths ss)) c.nIter (F.theta r)
    mon.reset rfl
  have h8 : emStep E (c.toConfig ps) (dataX obs ss) (dataLengths ss) (F.fit c ss r mon).state = .error err := (h6 err herr).2.1
  have hk := h4 _ le_rfl
  rw [h1, F.emStep_real c ss hne (hI.valid _ hk) (hok _ hk) (hgood _ hk) hp] at h8
  cases h8

section fit
variable (bits : ℕ) (g : GaussPrior nc nf) (hmw : g.mw = 0) (cp : Fin nc → Fin nf → ℝ) (ps : List Char) (hm : 'm' ∈ ps) (hc : 'c' ∈ ps)
  (sp : Fin nc → ℝ) (tp : Fin nc → Fin nc → ℝ) (hsp : ∀ i, 1 ≤ sp i) (htp : ∀ i j, 1 ≤ tp i j) (impl : Impl) (nIter : ℕ)
  (ss : List (ObsSeq (Fin nf → ℤ))) (hne : ss ≠ []) (p : DiagPoint nc nf) (h : ChainModel p.π p.A) (hL : 0 < p.L (recode realRow ss))
  (hu : EveryStateUsed p.π p.A (diagB p.mu p.v) (recode realRow ss)) (hx : ∀ s ∈ ss, ∀ t k, LoudFor bits (s.x t k))
  (hn : ∀ k, ∑ i, cp i k < sampleCount ss) (mon : Monitor XF)

include hm hmw in
theorem varInts_neg {Q : Type} {E : Emission XF nc (Fin nf → ℤ) Q (DiagStats XF nc nf)} {M : Type} (F : Family E id ps M)
    {r : RParams nc M} {mu : Fin nc → Fin nf → ℝ} (hv : r.Valid)
    (hN : ∀ i, 0 < obsStat r.π r.A (F.b r.q) ss i fun _ => 1) {k : Fin nf} (hx : ∀ s ∈ ss, ∀ t, LoudFor bits (s.x t k)) (i : Fin nc) :
    varInts (.signed bits) g cp ps (muNext g ps mu (realT (obsStat r.π r.A (F.b r.q) ss))) (obsStat r.π r.A (F.b r.q) ss) i k *
      max (max (g.cw - 1) 0 + obsStat r.π r.A (F.b r.q) ss i fun _ => 1) (1 / 10 ^ 5) ≤
        cp i k - obsStat r.π r.A (F.b r.q) ss i fun _ => 1 := by
  have h2 := obsStat_loud hv.π_nonneg hv.A_nonneg (F.b_nonneg r.q) hx i
  unfold varInts muNext
  simp only [gate, hm, if_true, hmw]
  rw [div_mul_cancel₀ _ (den_pos _ _).ne']
  exact numerator_le _ (hN i) h2

include hmw hm hc hsp htp hne h hL hu hx hn in
/-- **C105** (`diag`, no prior on the means.)  All amplitudes of a signed array lie between the square root of
the largest number of the type and the square root of `2 ^ bits` (182 to 255 for `int16`), and there are more samples
than the sum of `covars_prior` over the states.  Then a `fit` of at least
one iteration that does not raise (`implementation="log"` never does) leaves negative variances. -/
theorem C105_negative_diag :
    let out := fitFrom (emissionDiagInts (.signed bits) (prior g) fun i k => fin (cp i k)) (mapConfig sp tp ps impl nIter) (dataX id ss)
      (some (dataLengths ss)) p.theta mon
    (impl = .log → out.raised = none) ∧ (out.raised = none → nIter ≠ 0 → NegativeVariances out.state.emission.covars) := by
  intro out
  let F := diagIntsFamily (.signed bits) g cp ps
  have hk : F.Keeps True ss (rpD p) := by
    refine ⟨DiagPoint.valid h _, fun s hs => ?_, fun _ i => ?_⟩
    · exact DiagPoint.likelihoods h hL (s.recode realRow) (List.mem_map.2 ⟨s, hs, rfl⟩)
    · obtain ⟨s, hs, z, t, h1, h2⟩ := hu i
      obtain ⟨s', hs', rfl⟩ := List.mem_map.1 hs
      exact ⟨s', hs', z, t, h1, h2⟩
  have hcl : F.Closed ⟨sp, tp, impl, nIter⟩ ss (F.Keeps True ss) := by
    refine F.closed_keeps _ ss (fun _ => hsp) (fun _ => htp) (fun r hr _ i => ?_) fun r _ _ _ _ _ _ => diagB_pos _ _ _ _
    rw [hmw, zero_add]
    exact ((hr.2.2 trivial).pos hr.1 hr.2.1 i).ne'
  have hgood : ∀ r, F.Keeps True ss r → F.Good r.q (obsStat r.π r.A (F.b r.q) ss) := fun r hr _ i => by
    rw [hmw, zero_add]
    exact ((hr.2.2 trivial).pos hr.1 hr.2.1 i).ne'
  refine ⟨fun hi => closed_raised F hcl (fun r hr => hi ▸ hr.2.1) hgood hne (fun _ => hsp) hk mon, fun hraise hit k => ?_⟩
  have hh : 0 < out.monitor.history.length := F.history_pos (c := ⟨sp, tp, impl, nIter⟩) (r := rpD p) hraise hit
  obtain ⟨h1, -, -, h4⟩ := F.fit_real hcl hne (fun _ => hsp) hk mon
  obtain ⟨n, hn'⟩ : ∃ n, out.monitor.history.length = n + 1 := ⟨_, (Nat.succ_pred_eq_of_pos hh).symm⟩
  change out.state = F.theta ((F.rstep ⟨sp, tp, impl, nIter⟩ ss)^[out.monitor.history.length] (rpD p)) at h1
  have hr := h4 n (by show n ≤ out.monitor.history.length; omega)
  rw [hn', Function.iterate_succ_apply'] at h1
  set r := (F.rstep ⟨sp, tp, impl, nIter⟩ ss)^[n] (rpD p)
  have hN : ∀ i, 0 < obsStat r.π r.A (F.b r.q) ss i fun _ => 1 := fun i => (hr.2.2 trivial).pos hr.1 hr.2.1 i
  have hlt : ∑ i, cp i k < ∑ i, obsStat r.π r.A (F.b r.q) ss i fun _ => 1 := by
    rw [sum_visits ss fun s hs => hr.2.1 s hs]
    exact hn k
  obtain ⟨i, -, hi⟩ := Finset.exists_lt_of_sum_lt hlt
  refine ⟨i, _, ?_, congrArg (fun θ : Theta XF nc (DiagParams XF nc nf) => θ.emission.covars i k) h1⟩
  show (if 'c' ∈ ps then varInts (.signed bits) g cp ps (muNext g ps r.q.mu (realT (obsStat r.π r.A (F.b r.q) ss)))
    (obsStat r.π r.A (F.b r.q) ss) else _) i k < 0
  rw [if_pos hc]
  have h5 := varInts_neg bits g hmw cp ps hm ss F (mu := r.q.mu) hr.1 hN (fun s hs t => hx s hs t k) i
  have h6 := den_pos g.cw (obsStat r.π r.A (F.b r.q) ss i fun _ => 1)
  by_contra h7
  have := mul_nonneg (not_lt.1 h7) h6.le
  linarith

include hmw hm hc hsp htp hne h hL hu hx hn in
/-- **C105** The same for `spherical`. -/
theorem C105_negative_spherical [NeZero nf] (hs : ∀ i k l, p.v i k = p.v i l) :
    let out := fitFrom (emissionSphericalInts (.signed bits) (prior g) fun i k => fin (cp i k)) (mapConfig sp tp ps impl nIter) (dataX id ss)
      (some (dataLengths ss)) p.theta mon
    (impl = .log → out.raised = none) ∧ (out.raised = none → nIter ≠ 0 → NegativeVariances out.state.emission.covars) := by
  intro out
  let F := sphIntsFamily (.signed bits) g cp ps
  have hpt : ptS (rpS p) = p := ptS_rpS hs
  have hb : (diagB (rpS p).q.mu fun i (_ : Fin nf) => (rpS p).q.v i) = diagB p.mu p.v :=
    congrArg (fun x : DiagPoint nc nf => diagB x.mu x.v) hpt
  have hth : F.theta (rpS p) = p.theta := congrArg DiagPoint.theta hpt
  have hbF : F.b (rpS p).q = fun x => diagB p.mu p.v (realRow x) := funext fun x => congrFun hb (realRow x)
  have hk : F.Keeps True ss (rpS p) := by
    refine ⟨DiagPoint.valid h _, fun s hs => ?_, fun _ i => ?_⟩
    · rw [hbF]
      exact DiagPoint.likelihoods h hL (s.recode realRow) (List.mem_map.2 ⟨s, hs, rfl⟩)
    · rw [hbF]
      obtain ⟨s, hs, z, t, h1, h2⟩ := hu i
      obtain ⟨s', hs', rfl⟩ := List.mem_map.1 hs
      exact ⟨s', hs', z, t, h1, h2⟩
  have hpos : ∀ q x i, 0 < F.b q x i := fun q x i => diagB_pos q.mu (fun i (_ : Fin nf) => q.v i) (realRow x) i
  have hcl : F.Closed ⟨sp, tp, impl, nIter⟩ ss (F.Keeps True ss) := by
    refine F.closed_keeps _ ss (fun _ => hsp) (fun _ => htp) (fun r hr _ i => ?_) fun r _ _ _ _ _ _ => hpos _ _ _
    rw [hmw, zero_add]
    exact ((hr.2.2 trivial).pos hr.1 hr.2.1 i).ne'
  obtain ⟨h1, -, -, h4⟩ := F.fit_real hcl hne (fun _ => hsp) hk mon
  have hout : F.fit ⟨sp, tp, impl, nIter⟩ ss (rpS p) mon = out := by
    simp only [out, Family.fit, hth]; rfl
  rw [hout] at h1 h4
  have hgood : ∀ r, F.Keeps True ss r → F.Good r.q (obsStat r.π r.A (F.b r.q) ss) := fun r hr _ i => by
    rw [hmw, zero_add]
    exact ((hr.2.2 trivial).pos hr.1 hr.2.1 i).ne'
  refine ⟨fun hi => ?_, fun hraise hit => ?_⟩
  · have := closed_raised F hcl (fun r hr => hi ▸ hr.2.1) hgood hne (fun _ => hsp) hk mon
    rwa [hout] at this
  have hh : 0 < out.monitor.history.length := by
    rw [← hout] at hraise ⊢
    exact F.history_pos hraise hit
  obtain ⟨n, hn'⟩ : ∃ n, out.monitor.history.length = n + 1 := ⟨_, (Nat.succ_pred_eq_of_pos hh).symm⟩
  have hr := h4 n (by omega)
  rw [hn', Function.iterate_succ_apply'] at h1
  set r := (F.rstep ⟨sp, tp, impl, nIter⟩ ss)^[n] (rpS p)
  have hN : ∀ i, 0 < obsStat r.π r.A (F.b r.q) ss i fun _ => 1 := fun i => (hr.2.2 trivial).pos hr.1 hr.2.1 i
  have hlt : ∑ i, ∑ k, cp i k < ∑ i, ∑ _k : Fin nf, obsStat r.π r.A (F.b r.q) ss i fun _ => 1 := by
    rw [Finset.sum_comm, Finset.sum_comm (f := fun i (_ : Fin nf) => obsStat r.π r.A (F.b r.q) ss i fun _ => 1)]
    refine Finset.sum_lt_sum_of_nonempty Finset.univ_nonempty fun k _ => ?_
    rw [sum_visits ss fun s hs => hr.2.1 s hs]
    exact hn k
  obtain ⟨i, -, hi⟩ := Finset.exists_lt_of_sum_lt hlt
  intro k
  refine ⟨i, _, ?_, congrArg (fun θ : Theta XF nc (DiagParams XF nc nf) => θ.emission.covars i k) h1⟩
  show (if 'c' ∈ ps then fun i => (∑ k, varInts (.signed bits) g cp ps (muNext g ps r.q.mu (realT (obsStat r.π r.A (F.b r.q) ss)))
    (obsStat r.π r.A (F.b r.q) ss) i k) / nf else _) i < 0
  rw [if_pos hc]
  refine div_neg_of_neg_of_pos ?_ (Nat.cast_pos.2 (NeZero.pos nf))
  have h5 := Finset.sum_le_sum fun k (_ : k ∈ Finset.univ) =>
    varInts_neg bits g hmw cp ps hm ss F (mu := r.q.mu) hr.1 hN (fun s hs t => hx s hs t k) i
  rw [← Finset.sum_mul, Finset.sum_sub_distrib] at h5
  have h6 := den_pos g.cw (obsStat r.π r.A (F.b r.q) ss i fun _ => 1)
  by_contra h7
  have := mul_nonneg (not_lt.1 h7) h6.le
  linarith

end fit

end Verif
