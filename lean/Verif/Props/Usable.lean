import Verif.Proofs.Usable
import Verif.Props.Validation
import Verif.Props.CategoricalEM
import Verif.Props.CountEM
import Verif.Props.GaussianEM
import Verif.Props.GaussianFullEM
import Verif.Props.Features

/-!
# C28: when a fitted model can be used
-/

namespace Verif
open FloatLike XF Hmmc Spec
open scoped Classical

variable {G P D Q : Type}

/-! ## What `fit` leaves in the estimator -/

section
variable {α : Type} [FloatLike α]

/-- The loop of `fit` runs `fitFrom` and stores the outcome in the attributes. -/
theorem Sub.loop_eq (S : Sub α G P) {X : XArr α} {ls : Option (List Int)} {e : Est α G P}
    {impl : Impl} (hi : implOf e.implementation = .ok impl) {r : Ready S e} (hr : S.ready e = some r)
    {rows : List (S.Obs r.nf)} (hrows : S.rows r.nf X = .ok rows) (hn : e.nIter ≠ 0)
    {out : FitOutcome α (Theta α e.nComponents (S.Params e.nComponents r.nf))}
    (hout : haveI : NeZero e.nComponents := ⟨r.pos⟩
      fitFrom (S.emission e.sub e.nComponents r.nf) (e.config impl) rows ls r.θ e.monitor.reset = out) :
    S.loop X ls e = (match out.raised with
      | none => .ok ()
      | some err => .error err, S.put e out.state out.monitor) := by
  subst hout
  haveI : NeZero e.nComponents := ⟨r.pos⟩
  have hr' : S.ready { e with monitor := e.monitor.reset } = some ⟨r.nf, r.pos, r.θ⟩ := by
    rw [show S.ready { e with monitor := e.monitor.reset } = (S.ready e).map fun r => ⟨r.nf, r.pos, r.θ⟩ from ?_, hr]
    · rfl
    · simp only [Sub.ready]
      split
      · rfl
      · cases e.nFeatures with
        | none => rfl
        | some nf =>
          simp only [bind, Option.bind]
          cases e.startprob with
          | none => rfl
          | some s =>
            simp only
            cases asRow e.nComponents s with
            | none => rfl
            | some π =>
              simp only
              cases e.transmat with
              | none => rfl
              | some t =>
                simp only
                cases asMat e.nComponents e.nComponents t with
                | none => rfl
                | some A =>
                  simp only
                  cases S.read e.sub e.nComponents nf <;> rfl
  have hi' : implOf ({ e with monitor := e.monitor.reset } : Est α G P).implementation = .ok impl := hi
  have hn' : ({ e with monitor := e.monitor.reset } : Est α G P).nIter ≠ 0 := hn
  unfold Sub.loop Sub.loopFrom
  simp only [hn', if_false, hi', hr', hrows]
  rfl

/-- A loop that returns. -/
theorem Sub.loop_put (S : Sub α G P) {X : XArr α} {ls : Option (List Int)} {e e' : Est α G P}
    {impl : Impl} (hi : implOf e.implementation = .ok impl) {r : Ready S e} (hr : S.ready e = some r)
    {rows : List (S.Obs r.nf)} (hrows : S.rows r.nf X = .ok rows) (hn : e.nIter ≠ 0)
    (h : S.loop X ls e = (.ok (), e')) :
    haveI : NeZero e.nComponents := ⟨r.pos⟩
    let out := fitFrom (S.emission e.sub e.nComponents r.nf) (e.config impl) rows ls r.θ e.monitor.reset
    out.raised = none ∧ e' = S.put e out.state out.monitor := by
  intro out
  rw [S.loop_eq hi hr hrows hn (out := out) rfl] at h
  obtain ⟨h1, h2⟩ := Prod.mk.inj h
  refine ⟨?_, h2.symm⟩
  cases hh : out.raised with
  | none => rfl
  | some err => simp [hh] at h1

/-- At least one iteration was made. -/
theorem history_pos {nc : ℕ} [NeZero nc] {Obs Q St : Type} {E : Emission α nc Obs Q St} {cfg : Config α nc}
    {X : List Obs} {ls : Option (List Int)} {θ : Theta α nc Q} {mon : Monitor α}
    (h : (fitFrom E cfg X ls θ mon).raised = none) (hn : cfg.nIter ≠ 0) :
    0 < (fitFrom E cfg X ls θ mon).monitor.history.length := by
  unfold fitFrom at h ⊢
  obtain ⟨n, hn'⟩ := Nat.exists_eq_succ_of_ne_zero hn
  rw [hn'] at h ⊢
  simp only [fitLoop] at h ⊢
  cases hs : emStep E cfg X (ls.getD [(X.length : Int)]) θ with
  | error e => simp [hs] at h
  | ok p =>
    simp only
    split
    · simp [Monitor.report]
    · obtain ⟨h', _, _, h3, _⟩ := fitLoop_spec (step := emStep E cfg X (ls.getD [(X.length : Int)]))
        n p.1 (mon.reset.report p.2) (by simp [Monitor.reset, Monitor.report])
      rw [h3]
      simp [Monitor.report]

end

theorem Family.history_pos {nc : ℕ} [NeZero nc] {Obs P St : Type} {E : Emission XF nc Obs P St} {obs : D → Obs}
    {params : List Char} (F : Family E obs params Q) {c : RConfig nc} {ss : List (ObsSeq D)} {r : RParams nc Q}
    {mon : Monitor XF} (h : (F.fit c ss r mon).raised = none) (hn : c.nIter ≠ 0) :
    0 < (F.fit c ss r mon).monitor.history.length := Verif.history_pos h hn

/-! ## Any emission family -/

section
variable (S : Sub XF G P) (e : Est XF G P) [NeZero e.nComponents] {nf : ℕ} {obs : D → S.Obs nf}
  {E : Emission XF e.nComponents (S.Obs nf) (S.Params e.nComponents nf) (S.Stats e.nComponents nf)}
  (F : Family E obs e.params Q)

/-- The base check on attributes whose `startprob_` is a distribution. -/
theorem checkBase_put {θ : Theta XF e.nComponents (S.Params e.nComponents nf)} {mon : Monitor XF}
    {π : Fin e.nComponents → ℝ} {A : Fin e.nComponents → Fin e.nComponents → ℝ}
    (h1 : θ.startprob = fun i => fin (π i)) (h2 : θ.transmat = fun i j => fin (A i j))
    (hπ : ∑ i, π i = 1) :
    ((∀ i, ∑ j, A i j = 1) → checkBase (S.put e θ mon) = .ok ()) ∧
    (∀ i, (∀ j, A i j = 0) → Unusable S (S.put e θ mon)) := by
  have hs : (S.put e θ mon).startprob = some (vec π) := by simp [Sub.put, h1, vec]
  have ht : (S.put e θ mon).transmat = some (mat A) := by simp [Sub.put, h2, mat]
  refine ⟨fun h => C30_valid (S.put e θ mon) π A hs ht hπ h, fun i h => ?_⟩
  obtain ⟨k1, k2⟩ := C30_check (S.put e θ mon) π A hs ht
  have hno : checkBase (S.put e θ mon) ≠ .ok () := by
    intro hok
    have := (k1.1 hok).2.2.2.2 i
    simp only [h, Finset.sum_const_zero, NearOne] at this
    norm_num at this
  obtain ⟨msg, hm⟩ := k2 hno
  exact ⟨msg, fun R glob c => C30_rejects S R ⟨S.put e θ mon, glob⟩ _ (by rw [hs]; rfl) hm c⟩

/-- **C28** One EM iteration with the flat transition prior, for any class and data set of positive
likelihood, whatever happens to the emission parameters: the new `startprob_` and `transmat_` pass
validation if every state has positive expected occupancy before the last samples; otherwise the
row of such a state is entirely zero and every later inference call raises `ValueError`. -/
theorem C28_step {c : RConfig e.nComponents} (hflat : ∀ i j, c.tp i j = 1)
    (hsp : 's' ∈ e.params → ∀ i, 1 ≤ c.sp i) (ht : 't' ∈ e.params) {ss : List (ObsSeq D)} (hne : ss ≠ [])
    {r : RParams e.nComponents Q} (hv : r.Valid) (hπ : ∑ i, r.π i = 1) (hL : F.Ok .log ss r)
    {θ : Theta XF e.nComponents (S.Params e.nComponents nf)} {v : XF}
    (hst : emStep E (c.toConfig e.params) (dataX obs ss) (dataLengths ss) (F.theta r) = .ok (θ, v))
    (mon : Monitor XF) :
    ((∀ i, 0 < beforeLast r.π r.A (F.b r.q) ss i) → checkBase (S.put e θ mon) = .ok ()) ∧
    ∀ i, beforeLast r.π r.A (F.b r.q) ss i = 0 →
      (∀ j, θ.transmat i j = fin 0) ∧ Unusable S (S.put e θ mon) := by
  have hok : F.Ok c.impl ss r := by
    cases hi : c.impl with
    | log => exact hL
    | scaling =>
      by_contra hno
      rw [F.emStep_underflow c hi ss hv hno] at hst
      cases hst
  obtain ⟨p, hp⟩ := F.emStep_chain c ss hne hv hok hsp
  rw [hp, Except.ok.injEq, Prod.mk.injEq] at hst
  have hθ : θ = ⟨_, _, p⟩ := hst.1.symm
  have hb := checkBase_put S e (θ := θ) (mon := mon) (π := (F.rstep c ss r).π) (A := (F.rstep c ss r).A)
    (by rw [hθ]) (by rw [hθ]) (F.rstep_start c ss hne hv hL hsp fun _ => hπ)
  refine ⟨fun h => hb.1 fun i => (F.rstep_row c ss hv ht hflat i).1 (h i), fun i h => ?_⟩
  have h0 := (F.rstep_row c ss hv ht hflat i).2 h
  exact ⟨fun j => by rw [hθ]; simp [h0 j], hb.2 i h0⟩

/-- **C28** A whole `fit` that stays among real parameters (`Closed`), after at least one iteration:
usable or not according to the occupancies under the parameters before the last iteration. -/
theorem C28_fit {c : RConfig e.nComponents} (hflat : ∀ i j, c.tp i j = 1)
    (hsp : 's' ∈ e.params → ∀ i, 1 ≤ c.sp i) (ht : 't' ∈ e.params) {ss : List (ObsSeq D)} (hne : ss ≠ [])
    {I : RParams e.nComponents Q → Prop} (hI : F.Closed c ss I) {r : RParams e.nComponents Q} (hr : I r)
    (hπ : ∑ i, r.π i = 1) (mon mon' : Monitor XF)
    (hn : 0 < (F.fit c ss r mon).monitor.history.length) :
    let out := F.fit c ss r mon
    let last := (F.rstep c ss)^[out.monitor.history.length - 1] r
    I last ∧ F.Ok .log ss last ∧ out.state = F.theta (F.rstep c ss last) ∧
    ((∀ i, 0 < beforeLast last.π last.A (F.b last.q) ss i) → checkBase (S.put e out.state mon') = .ok ()) ∧
    ∀ i, beforeLast last.π last.A (F.b last.q) ss i = 0 →
      (∀ j, out.state.transmat i j = fin 0) ∧ Unusable S (S.put e out.state mon') := by
  intro out last
  obtain ⟨h1, _, h3, h4⟩ := F.fit_real hI hne hsp hr mon
  have hn' : 0 < out.monitor.history.length := hn
  have hk : out.monitor.history.length - 1 < out.monitor.history.length := by omega
  have hok := h3 _ hk
  have hL : F.Ok .log ss last := Family.Ok.log hok
  have hlast : I last := h4 _ hk.le
  have hπ' : ∀ k, k < out.monitor.history.length → ∑ i, ((F.rstep c ss)^[k] r).π i = 1 := by
    intro k
    induction k with
    | zero => intro _; exact hπ
    | succ k ih =>
      intro hk
      rw [Function.iterate_succ_apply']
      exact F.rstep_start c ss hne (hI.valid _ (h4 k (Nat.lt_of_succ_lt hk).le))
        (Family.Ok.log (h3 k (Nat.lt_of_succ_lt hk))) hsp
        fun _ => ih (by omega)
  have hstate : out.state = F.theta (F.rstep c ss last) := by
    rw [show F.rstep c ss last = (F.rstep c ss)^[out.monitor.history.length] r from ?_]
    · exact h1
    · show F.rstep c ss ((F.rstep c ss)^[_] r) = _
      rw [← Function.iterate_succ_apply' (F.rstep c ss)]
      congr 1; omega
  have hst := F.emStep_real c ss hne (hI.valid _ hlast) hok (hI.good _ hlast hok) hsp
  rw [← hstate] at hst
  exact ⟨hlast, hL, hstate, C28_step S e F hflat hsp ht hne (hI.valid _ hlast) (hπ' _ hk) hL hst mon'⟩

/-- A state that is never occupied before a last sample makes the fitted model unusable. -/
theorem C28_unused {c : RConfig e.nComponents} (hflat : ∀ i j, c.tp i j = 1)
    (hsp : 's' ∈ e.params → ∀ i, 1 ≤ c.sp i) (ht : 't' ∈ e.params) {ss : List (ObsSeq D)} (hne : ss ≠ [])
    {I : RParams e.nComponents Q → Prop} (hI : F.Closed c ss I) {r : RParams e.nComponents Q} (hr : I r)
    (hπ : ∑ i, r.π i = 1) (mon mon' : Monitor XF)
    (hn : 0 < (F.fit c ss r mon).monitor.history.length) (i : Fin e.nComponents)
    (h : ∀ k, beforeLast ((F.rstep c ss)^[k] r).π ((F.rstep c ss)^[k] r).A (F.b ((F.rstep c ss)^[k] r).q) ss i = 0) :
    Unusable S (S.put e (F.fit c ss r mon).state mon') :=
  ((C28_fit S e F hflat hsp ht hne hI hr hπ mon mon' hn).2.2.2.2 i (h _)).2

/-- If every state is, before the last sample, on some path that is possible at the start, then it
is occupied before the last iteration. -/
theorem C28_occupied {c : RConfig e.nComponents} (hflat : ∀ i j, c.tp i j = 1)
    (hsp : 's' ∈ e.params → ∀ i, 1 ≤ c.sp i) (ht : 't' ∈ e.params) {ss : List (ObsSeq D)} (hne : ss ≠ [])
    {I : RParams e.nComponents Q → Prop} (hI : F.Closed c ss I)
    (hI' : ∀ r, I r → F.Ok .log ss r ∧ F.Ac ss r ∧ I (F.rstep c ss r)) {r : RParams e.nComponents Q}
    (hr : I r) (hπ : ∑ i, r.π i = 1) (hu : UsedBeforeLast r.π r.A (F.b r.q) ss) (mon mon' : Monitor XF)
    (hn : 0 < (F.fit c ss r mon).monitor.history.length) :
    let out := F.fit c ss r mon
    ∃ last, (∃ k, last = (F.rstep c ss)^[k] r) ∧ I last ∧ F.Ok .log ss last ∧
      out.state = F.theta (F.rstep c ss last) ∧
      (∀ i, 0 < obsStat last.π last.A (F.b last.q) ss i fun _ => 1) ∧
      checkBase (S.put e out.state mon') = .ok () := by
  intro out
  obtain ⟨h1, h2, h3, h4, _⟩ := C28_fit S e F hflat hsp ht hne hI hr hπ mon mon' hn
  set last := (F.rstep c ss)^[(F.fit c ss r mon).monitor.history.length - 1] r
  have hv := hI.valid _ h1
  have hu' : UsedBeforeLast last.π last.A (F.b last.q) ss :=
    F.used_iter (fun r hr => ⟨hI.valid r hr, (hI' r hr).1, (hI' r hr).2.1⟩) (fun r hr => (hI' r hr).2.2)
      hsp (fun _ i j => (hflat i j).ge) hr hu _
  have hpos : ∀ i, 0 < beforeLast last.π last.A (F.b last.q) ss i := fun i => by
    obtain ⟨s, hs, z, t, hz, hzt⟩ := hu' i
    exact F.beforeLast_pos hv h2 hs hz hzt
  exact ⟨last, ⟨_, rfl⟩, h1, h2, h3, fun i => (hpos i).trans_le
    (beforeLast_le hv.π_nonneg hv.A_nonneg (F.b_nonneg _) ss i), h4 hpos⟩

/-- For classes whose own check looks at shapes only. -/
theorem C28_shapes {c : RConfig e.nComponents} (hflat : ∀ i j, c.tp i j = 1)
    (hsp : 's' ∈ e.params → ∀ i, 1 ≤ c.sp i) (ht : 't' ∈ e.params) {ss : List (ObsSeq D)} (hne : ss ≠ [])
    {I : RParams e.nComponents Q → Prop} (hI : F.Closed c ss I)
    (hI' : ∀ r, I r → F.Ok .log ss r ∧ F.Ac ss r ∧ I (F.rstep c ss r)) {r : RParams e.nComponents Q}
    (hr : I r) (hπ : ∑ i, r.π i = 1) (hu : UsedBeforeLast r.π r.A (F.b r.q) ss) (mon mon' : Monitor XF)
    (hn : 0 < (F.fit c ss r mon).monitor.history.length)
    (hsub : ∀ (θ : Theta XF e.nComponents (S.Params e.nComponents nf)) m,
      S.checkSub (S.put e θ m) = (.ok (), S.put e θ m)) :
    Accepted S (S.put e (F.fit c ss r mon).state mon') := by
  obtain ⟨_, _, _, _, _, _, h⟩ := C28_occupied S e F hflat hsp ht hne hI hI' hr hπ hu mon mon' hn
  unfold Accepted
  rw [S.checkFitted_eq, S.check_eq, h]
  exact hsub _ _

/-- For classes whose own check looks at what the invariant provides. -/
theorem C28_checked {c : RConfig e.nComponents} (hflat : ∀ i j, c.tp i j = 1)
    (hsp : 's' ∈ e.params → ∀ i, 1 ≤ c.sp i) (ht : 't' ∈ e.params) {ss : List (ObsSeq D)} (hne : ss ≠ [])
    {I : RParams e.nComponents Q → Prop} (hI : F.Closed c ss I)
    (hI' : ∀ r, I r → F.Ok .log ss r ∧ F.Ac ss r ∧ I (F.rstep c ss r)) {r : RParams e.nComponents Q}
    (hr : I r) (hπ : ∑ i, r.π i = 1) (hu : UsedBeforeLast r.π r.A (F.b r.q) ss) (mon mon' : Monitor XF)
    (hn : 0 < (F.fit c ss r mon).monitor.history.length)
    (hsub : ∀ r m, I r → S.checkSub (S.put e (F.theta r) m) = (.ok (), S.put e (F.theta r) m)) :
    Accepted S (S.put e (F.fit c ss r mon).state mon') := by
  obtain ⟨last, _, h1, _, h3, _, h⟩ := C28_occupied S e F hflat hsp ht hne hI hI' hr hπ hu mon mon' hn
  unfold Accepted
  rw [S.checkFitted_eq, S.check_eq, h, h3]
  exact hsub _ _ (hI' _ h1).2.2

end

/-- Used states are on possible paths. -/
theorem Spec.UsedBeforeLast.used {nc : ℕ} {π : Fin nc → ℝ} {A : Fin nc → Fin nc → ℝ} {b : D → Fin nc → ℝ}
    {ss : List (ObsSeq D)} (h : UsedBeforeLast π A b ss) : EveryStateUsed π A b ss := fun i =>
  let ⟨s, hs, z, t, hz, hzt⟩ := h i
  ⟨s, hs, z, t.castSucc, hz, hzt⟩

/-! ## The classes -/

/-- **C28** (PoissonHMM) Flat transition prior, any non-negative Gamma prior, any data
set and number of iterations: if every state is, before the last sample, on a path that is possible
under the initial parameters, the fitted model passes parameter validation. -/
theorem C28_poisson (e : Est XF G (PoisAttrs XF)) [NeZero e.nComponents] {nf : ℕ}
    (hnf : e.nFeatures = some nf) {sp : Fin e.nComponents → ℝ} (hsp : ∀ i, 1 ≤ sp i)
    {al be : Fin e.nComponents → Fin nf → ℝ} (hal : ∀ i k, 0 ≤ al i k) (hbe : ∀ i k, 0 ≤ be i k)
    (ht : 't' ∈ e.params) (impl : Impl) {nIter : ℕ} (hit : nIter ≠ 0) {ss : List (ObsSeq (Fin nf → ℕ))} (hne : ss ≠ [])
    {π : Fin e.nComponents → ℝ} {A : Fin e.nComponents → Fin e.nComponents → ℝ}
    {l : Fin e.nComponents → Fin nf → ℝ} (h : PoissonModel π A l) (hπ : ∑ i, π i = 1)
    (hL : 0 < dataLikelihood π A (poissonB l) ss) (hu : UsedBeforeLast π A (poissonB l) ss)
    (mon mon' : Monitor XF) :
    let out := poissonFit sp (fun _ _ => 1) al be e.params impl nIter ss (Poisson.params π A l) mon
    out.raised = none → Accepted poisSub (poisSub.put (nf := nf) e out.state mon') := by
  intro out hr
  refine C28_shapes poisSub e (Poisson.family al be hal hbe e.params) (c := ⟨sp, fun _ _ => 1, impl, nIter⟩)
    (fun _ _ => rfl) (fun _ => hsp) ht hne
    (Poisson.closed al be hal hbe e.params _ ss (fun _ => hsp) fun _ _ _ => le_rfl)
    (fun r hr => ⟨hr.2.1, Poisson.ac ss r hr.1 hr.2.1 hr.2.2, ?_⟩) (r := h.rp) ⟨h.valid, h.ok hL, hu.used⟩ hπ hu
    mon mon' (history_pos hr hit) fun θ m => ?_
  · have hac := Poisson.ac (ps := e.params) (hal := hal) (hbe := hbe) ss r hr.1 hr.2.1 hr.2.2
    exact ⟨Family.rstep_valid _ _ _ hr.1, (Family.rstep_gain _ _ ss hr.1 hr.2.1 (fun _ => hsp)
      (fun _ _ _ => le_rfl) ⟨hac, le_rfl⟩).1, Family.occupied_next _ _ ss (fun _ => hsp)
      (fun _ _ _ => le_rfl) hr.1 hr.2.1 hac hr.2.2⟩
  · rw [show (poisSub (α := XF) (G := G)).checkSub = poisCheck from rfl]
    simp [poisCheck, Sub.put, poisSub, atleast2d, NdArray.shape, hnf]

/-- **C28** (MultinomialHMM) The same; each state must also be able to have emitted something. -/
theorem C28_multinomial (e : Est XF G (MultiAttrs XF)) [NeZero e.nComponents] {nf : ℕ}
    (hnf : e.nFeatures = some nf) (hnt : e.sub.nTrials.isSome) {sp : Fin e.nComponents → ℝ} (hsp : ∀ i, 1 ≤ sp i)
    (ht : 't' ∈ e.params) (impl : Impl) {nIter : ℕ} (hit : nIter ≠ 0) {ss : List (ObsSeq (Fin nf → ℕ))} (hne : ss ≠ [])
    {π : Fin e.nComponents → ℝ} {A : Fin e.nComponents → Fin e.nComponents → ℝ}
    {B : Fin e.nComponents → Fin nf → ℝ} (h : MultinomialModel π A B) (hπ : ∑ i, π i = 1)
    (hL : 0 < dataLikelihood π A (multinomialB B) ss) (hu : UsedBeforeLast π A (multinomialB B) ss)
    (hem : EveryStateEmits π A B ss) (mon mon' : Monitor XF) :
    let out := multinomialFit sp (fun _ _ => 1) e.params impl nIter ss (Multinomial.params π A B) mon
    out.raised = none → Accepted multiSub (multiSub.put (nf := nf) e out.state mon') := by
  intro out hr
  have hc := Multinomial.closed (nf := nf) (ps := e.params) ⟨sp, fun _ _ => 1, impl, nIter⟩ ss (fun _ => hsp) fun _ _ _ => le_rfl
  refine C28_shapes multiSub e (Multinomial.family e.params) (c := ⟨sp, fun _ _ => 1, impl, nIter⟩)
    (fun _ _ => rfl) (fun _ => hsp) ht hne hc
    (fun r hr => ⟨hr.2.1, Multinomial.ac ss r hr.1 hr.2.1 hr.2.2, ?_⟩) (r := h.rp) ⟨h.valid, h.ok hL, hem⟩ hπ hu
    mon mon' (history_pos hr hit) fun θ m => ?_
  · have := (Multinomial.family e.params).rstep_gain ⟨sp, fun _ _ => 1, impl, nIter⟩ ss hr.1 hr.2.1 (fun _ => hsp)
      (fun _ _ _ => le_rfl) ⟨Multinomial.ac ss r hr.1 hr.2.1 hr.2.2, le_rfl⟩
    refine ⟨Family.rstep_valid _ _ _ hr.1, this.1, fun i => ?_⟩
    obtain ⟨s, hs, z, t, k, hz, hzt, hk⟩ := hr.2.2 i
    exact ⟨s, hs, z, t, k, this.2.1 s hs z hz, hzt, hk⟩
  · rw [show (multiSub (α := XF) (G := G)).checkSub = multiCheck from rfl]
    have : e.sub.nTrials ≠ none := by intro h; simp [h] at hnt
    simp [multiCheck, Sub.put, multiSub, atleast2d, NdArray.shape, hnf, this]

theorem gauss_checkSub {S : Sub XF G (GaussAttrs XF)} {eig : Eigvalsh XF} {ty : CovType} (hS : IsGauss S eig ty)
    (e : Est XF G (GaussAttrs XF)) {nf : ℕ} (hnf : e.nFeatures = some nf)
    (θ : Theta XF e.nComponents (S.Params e.nComponents nf)) (m : Monitor XF) :
    S.checkSub (S.put e θ m) = (.ok (), S.put e θ m) := by
  obtain ⟨v, hv⟩ := hS.write θ.emission e.sub
  rw [hS.check]
  simp [gaussCheck, Sub.put, hv, NdArray.shape, hnf]

/-- The invariant `Keeps` with everything `C28_occupied` asks for. -/
theorem keeps_all {nc : ℕ} [NeZero nc] {Obs P St : Type} {E : Emission XF nc Obs P St} {obs : D → Obs}
    {params : List Char} (F : Family E obs params Q) {need : Prop} {c : RConfig nc} {ss : List (ObsSeq D)}
    (hp : 's' ∈ params → ∀ i, 1 ≤ c.sp i) (ht : 't' ∈ params → ∀ i j, 1 ≤ c.tp i j)
    (hac : ∀ r : RParams nc Q, F.Keeps need ss r → F.Ac ss r) (r : RParams nc Q) (h : F.Keeps need ss r) :
    F.Ok .log ss r ∧ F.Ac ss r ∧ F.Keeps need ss (F.rstep c ss r) :=
  ⟨h.2.1, hac r h, F.rstep_valid c ss h.1, (F.rstep_gain c ss h.1 h.2.1 hp ht ⟨hac r h, le_rfl⟩).1,
    fun hn => F.occupied_next c ss hp ht h.1 h.2.1 (hac r h) (h.2.2 hn)⟩

section Gauss
open Gaussian
variable (e : Est XF G (GaussAttrs XF)) [NeZero e.nComponents] {nf : ℕ}

/-- **C28** (GaussianHMM, `diag`) -/
theorem C28_gaussian_diag (eig : Eigvalsh XF) (hnf : e.nFeatures = some nf) {sp : Fin e.nComponents → ℝ}
    (hsp : ∀ i, 1 ≤ sp i) (g : GaussPrior e.nComponents nf) (hmw : 0 ≤ g.mw) (cp : Fin e.nComponents → Fin nf → ℝ)
    (ht : 't' ∈ e.params) (impl : Impl) {nIter : ℕ} (hit : nIter ≠ 0) {ss : List (ObsSeq (Fin nf → ℝ))}
    (hne : ss ≠ []) {p : DiagPoint e.nComponents nf} (h : ChainModel p.π p.A) (hπ : ∑ i, p.π i = 1)
    (hL : 0 < p.L ss) (hu : UsedBeforeLast p.π p.A (diagB p.mu p.v) ss) (mon mon' : Monitor XF) :
    let out := gaussFit .diag sp (fun _ _ => 1) g cp e.params impl nIter ss p.theta mon
    out.raised = none →
      Accepted (gaussDiagSub eig) ((gaussDiagSub eig).put (nf := nf) e out.state mon') := by
  intro out hr
  exact C28_shapes (gaussDiagSub eig) e (diagFamily g cp e.params) (c := ⟨sp, fun _ _ => 1, impl, nIter⟩)
    (fun _ _ => rfl) (fun _ => hsp) ht hne
    (diag_closed g hmw cp e.params _ ss (fun _ => hsp) fun _ _ _ => le_rfl)
    (keeps_all _ (fun _ => hsp) (fun _ _ _ => le_rfl) fun r _ => diag_ac ss r)
    (r := ⟨p.π, p.A, ⟨p.mu, p.v⟩⟩) ⟨Spec.DiagPoint.valid h _, Spec.DiagPoint.likelihoods h hL, fun _ => hu.used⟩ hπ hu
    mon mon' (history_pos hr hit) (gauss_checkSub (gaussDiag_isGauss eig) e hnf)

/-- **C28** (GaussianHMM, `spherical`) -/
theorem C28_gaussian_spherical [NeZero nf] (eig : Eigvalsh XF) (hnf : e.nFeatures = some nf)
    {sp : Fin e.nComponents → ℝ} (hsp : ∀ i, 1 ≤ sp i) (g : GaussPrior e.nComponents nf) (hmw : 0 ≤ g.mw)
    (cp : Fin e.nComponents → Fin nf → ℝ) (ht : 't' ∈ e.params) (impl : Impl) {nIter : ℕ} (hit : nIter ≠ 0)
    {ss : List (ObsSeq (Fin nf → ℝ))} (hne : ss ≠ []) {p : DiagPoint e.nComponents nf}
    (hty : DiagType.spherical.Shape p) (h : ChainModel p.π p.A) (hπ : ∑ i, p.π i = 1)
    (hL : 0 < p.L ss) (hu : UsedBeforeLast p.π p.A (diagB p.mu p.v) ss) (mon mon' : Monitor XF) :
    let out := gaussFit .spherical sp (fun _ _ => 1) g cp e.params impl nIter ss p.theta mon
    out.raised = none →
      Accepted (gaussSphericalSub eig) ((gaussSphericalSub eig).put (nf := nf) e out.state mon') := by
  obtain ⟨r, rfl⟩ : ∃ r, p = ptS r := ⟨rpS p, (ptS_rpS hty).symm⟩
  intro out hr
  exact C28_shapes (gaussSphericalSub eig) e (sphFamily g cp e.params) (c := ⟨sp, fun _ _ => 1, impl, nIter⟩)
    (fun _ _ => rfl) (fun _ => hsp) ht hne
    (sph_closed g hmw cp e.params _ ss (fun _ => hsp) fun _ _ _ => le_rfl)
    (keeps_all _ (fun _ => hsp) (fun _ _ _ => le_rfl) fun r _ => sph_ac ss r)
    (r := r) ⟨Spec.DiagPoint.valid h _, Spec.DiagPoint.likelihoods h hL, fun _ => hu.used⟩ hπ hu
    mon mon' (history_pos hr hit) (gauss_checkSub (gaussSpherical_isGauss eig) e hnf)

/-- **C28** (GaussianHMM, `full`) -/
theorem C28_gaussian_full (eig : Eigvalsh XF) (hnf : e.nFeatures = some nf) {sp : Fin e.nComponents → ℝ}
    (hsp : ∀ i, 1 ≤ sp i) (g : GaussPrior e.nComponents nf) (hmw : 0 ≤ g.mw)
    (cp : Fin e.nComponents → Matrix (Fin nf) (Fin nf) ℝ) (hcp : ∀ i, (cp i).PosSemidef)
    (hcm : 'c' ∈ e.params → 'm' ∈ e.params ∨ (nf : ℝ) < g.cw)
    (ht : 't' ∈ e.params) (impl : Impl) {nIter : ℕ} (hit : nIter ≠ 0) {ss : List (ObsSeq (Fin nf → ℝ))}
    (hne : ss ≠ []) {p : FullPoint e.nComponents nf} (hS : ∀ i, (p.S i).PosSemidef) (h : ChainModel p.π p.A)
    (hπ : ∑ i, p.π i = 1) (hL : 0 < p.L ss) (hu : UsedBeforeLast p.π p.A (fullB p.mu p.S) ss)
    (mon mon' : Monitor XF) :
    let out := fullFit sp (fun _ _ => 1) g cp e.params impl nIter ss p.theta mon
    out.raised = none →
      Accepted (gaussFullSub eig) ((gaussFullSub eig).put (nf := nf) e out.state mon') := by
  intro out hr
  exact C28_shapes (gaussFullSub eig) e (fullFamily g hmw cp hcp e.params) (c := ⟨sp, fun _ _ => 1, impl, nIter⟩)
    (fun _ _ => rfl) (fun _ => hsp) ht hne
    (full_closed g hmw cp hcp e.params hcm _ ss (fun _ => hsp) fun _ _ _ => le_rfl)
    (keeps_all _ (fun _ => hsp) (fun _ _ _ => le_rfl) fun r _ => full_ac ss r)
    (r := rpF p hS) ⟨⟨h.π_nonneg, h.A_nonneg, h.π_sum, h.A_sum⟩, FullPoint.likelihoods h hS hL, fun _ => hu.used⟩ hπ hu
    mon mon' (history_pos hr hit) (gauss_checkSub (gaussFull_isGauss eig) e hnf)

/-- **C28** (GaussianHMM, `tied`) -/
theorem C28_gaussian_tied (eig : Eigvalsh XF) (hnf : e.nFeatures = some nf) {sp : Fin e.nComponents → ℝ}
    (hsp : ∀ i, 1 ≤ sp i) (g : GaussPrior e.nComponents nf) (hmw : 0 ≤ g.mw)
    (cp : Matrix (Fin nf) (Fin nf) ℝ) (hcp : cp.PosSemidef)
    (hcm : 'c' ∈ e.params → 'm' ∈ e.params ∨ (nf : ℝ) < g.cw)
    (ht : 't' ∈ e.params) (impl : Impl) {nIter : ℕ} (hit : nIter ≠ 0) {ss : List (ObsSeq (Fin nf → ℝ))}
    (hne : ss ≠ []) {p : TiedPoint e.nComponents nf} (hS : p.S.PosSemidef) (h : ChainModel p.π p.A)
    (hπ : ∑ i, p.π i = 1) (hL : 0 < p.L ss) (hu : UsedBeforeLast p.π p.A (fullB p.mu fun _ => p.S) ss)
    (mon mon' : Monitor XF) :
    let out := tiedFit sp (fun _ _ => 1) g cp e.params impl nIter ss p.theta mon
    out.raised = none →
      Accepted (gaussTiedSub eig) ((gaussTiedSub eig).put (nf := nf) e out.state mon') := by
  intro out hr
  exact C28_shapes (gaussTiedSub eig) e (tiedFamily g hmw cp hcp e.params) (c := ⟨sp, fun _ _ => 1, impl, nIter⟩)
    (fun _ _ => rfl) (fun _ => hsp) ht hne
    (tied_closed g hmw cp hcp e.params hcm _ ss hne (fun _ => hsp) fun _ _ _ => le_rfl)
    (keeps_all _ (fun _ => hsp) (fun _ _ _ => le_rfl) fun r _ => tied_ac ss r)
    (r := rpT p hS) ⟨⟨h.π_nonneg, h.A_nonneg, h.π_sum, h.A_sum⟩, TiedPoint.likelihoods h hS hL, fun _ => hu.used⟩ hπ hu
    mon mon' (history_pos hr hit) (gauss_checkSub (gaussTied_isGauss eig) e hnf)

end Gauss

/-- **C28** (CategoricalHMM) With emission priors at least one; `_check` also looks at the sums of
the emission rows, which are one as well. -/
theorem C28_categorical (e : Est XF G (CatAttrs XF)) [NeZero e.nComponents] {nf : ℕ}
    (hnf : e.nFeatures = some nf) {sp : Fin e.nComponents → ℝ} (hsp : ∀ i, 1 ≤ sp i)
    {ep : Fin e.nComponents → Fin nf → ℝ} (hep : ∀ i k, 1 ≤ ep i k)
    (ht : 't' ∈ e.params) (impl : Impl) {nIter : ℕ} (hit : nIter ≠ 0) {ss : List (ObsSeq (Fin nf))} (hne : ss ≠ [])
    {π : Fin e.nComponents → ℝ} {A : Fin e.nComponents → Fin e.nComponents → ℝ}
    {B : Fin e.nComponents → Fin nf → ℝ} (h : CatModel π A B) (hπ : ∑ i, π i = 1) (hB : ∀ i, ∑ k, B i k = 1)
    (hL : 0 < catL ss π A B) (hu : UsedBeforeLast π A (catB B) ss) (mon mon' : Monitor XF) :
    let out := catFit sp (fun _ _ => 1) ep e.params impl nIter ss (Categorical.params π A B) mon
    out.raised = none → Accepted catSub (catSub.put (nf := nf) e out.state mon') := by
  intro out hr
  set F := Categorical.family (nc := e.nComponents) ep e.params with hF
  have hLs : F.Ok .log ss ⟨π, A, ⟨B, h.e_nonneg, h.e_sum⟩⟩ :=
    likelihoods_pos_of_data h.π_nonneg h.A_nonneg (fun o i => h.e_nonneg i o) hL
  have hac : ∀ r : RParams e.nComponents (Categorical.Rows e.nComponents nf), F.Keeps False ss r → F.Ac ss r :=
    fun r hr => Categorical.ac ep e.params (fun _ => hep) ss r hr.1
  obtain ⟨last, ⟨k, hk⟩, h1, h2, h3, h4, h5⟩ := C28_occupied catSub e F (c := ⟨sp, fun _ _ => 1, impl, nIter⟩)
    (fun _ _ => rfl) (fun _ => hsp) ht hne
    (F.closed_keeps (need := False) _ ss (fun _ => hsp) (fun _ _ _ => le_rfl) (fun _ _ => trivial) hac)
    (keeps_all F (fun _ => hsp) (fun _ _ _ => le_rfl) hac)
    (r := ⟨π, A, ⟨B, h.e_nonneg, h.e_sum⟩⟩) ⟨h.valid, hLs, False.elim⟩ hπ hu mon mon' (history_pos hr hit)
  have hs : out.state = F.theta (F.rstep ⟨sp, fun _ _ => 1, impl, nIter⟩ ss last) := h3
  have hsum : ∀ i, ∑ j, (F.rstep ⟨sp, fun _ _ => 1, impl, nIter⟩ ss last).q.e i j = 1 := by
    intro i
    by_cases he : 'e' ∈ e.params
    · have hq : ∀ j, (F.rstep ⟨sp, fun _ _ => 1, impl, nIter⟩ ss last).q.e i j = mapUpdate (ep i) (fun _ => 1)
          (fun k => obsStat last.π last.A (F.b last.q) ss i (Categorical.ind k)) j := by
        intro j; simp [Family.rstep, F, Categorical.family, he, Categorical.updRow]
      simp only [hq]
      refine sum_mapUpdate fun h0 => ?_
      have hz := mapCounts_all_zero h0
      have h6 := h4 i
      rw [show F.b last.q = fun o i => F.b last.q o i from rfl, Categorical.obsStat_fintype] at h6
      refine h6.ne' (Finset.sum_eq_zero fun j _ => ?_)
      have h7 := hz j
      have h8 : 0 ≤ obsStat last.π last.A (F.b last.q) ss i (Categorical.ind j) :=
        obsStat_nonneg h1.1.π_nonneg h1.1.A_nonneg (F.b_nonneg _) ss i
          fun o => by unfold Categorical.ind; split <;> norm_num
      simp only [mapCounts, one_ne_zero, if_false] at h7
      have h9 := max_eq_right_iff.1 h7
      have := hep i j
      rw [mul_one]
      exact le_antisymm (by linarith) h8
    · have : ∀ r : RParams e.nComponents (Categorical.Rows e.nComponents nf),
          (F.rstep ⟨sp, fun _ _ => 1, impl, nIter⟩ ss r).q = r.q := fun r => by
        simp [Family.rstep, F, Categorical.family, he]
      rw [this]
      have hq : ∀ k, ((F.rstep ⟨sp, fun _ _ => 1, impl, nIter⟩ ss)^[k] ⟨π, A, ⟨B, h.e_nonneg, h.e_sum⟩⟩).q =
          ⟨B, h.e_nonneg, h.e_sum⟩ := fun k => by
        induction k with
        | zero => rfl
        | succ k ih => rw [Function.iterate_succ_apply', this, ih]
      rw [show last.q.e = B from (congrArg (fun r => r.q.e) hk).trans (congrArg (·.e) (hq k))]
      exact hB i
  have hem : (catSub.put (nf := nf) e out.state mon').sub.emissionprob =
      some (mat (F.rstep ⟨sp, fun _ _ => 1, impl, nIter⟩ ss last).q.e) := by rw [hs]; rfl
  obtain ⟨k1, k2, _⟩ := C30_categorical (catSub.put (nf := nf) e out.state mon') _ h5 rfl hem
  have hok := k1.2 ⟨rfl, by simp [Sub.put, hnf], fun i => by rw [hsum i]; simp [NearOne]; positivity⟩
  have h6 := k2 hok
  unfold Accepted
  refine Prod.ext hok (h6.trans ?_)
  rw [← hem]
  simp [Sub.put, hnf]
/-! ## A data set on which `fit` destroys the model -/

namespace Broken

/-- State 1 cannot be reached. -/
def π : Fin 2 → ℝ := ![1, 0]
noncomputable def A : Fin 2 → Fin 2 → ℝ := ![![1, 0], ![1/2, 1/2]]
noncomputable def B : Fin 2 → Fin 2 → ℝ := fun _ _ => 1/2
/-- Two sequences of two symbols. -/
def ss : List (ObsSeq (Fin 2)) := [⟨1, ![0, 1]⟩, ⟨1, ![1, 1]⟩]

/-- A `CategoricalHMM` with these parameters and the default flat priors. -/
noncomputable def est : Est XF Unit (CatAttrs XF) :=
  { demoEst 2 (some (vec π)) (some (mat A)) ⟨fun _ _ => 1, some (mat B)⟩ with nFeatures := some 2 }

/-- The training data as `fit` sees it. -/
def X : XArr XF := .ints (d := 1) [fun _ => 0, fun _ => 1, fun _ => 1, fun _ => 1]

theorem model : CatModel π A B where
  π_nonneg i := by fin_cases i <;> norm_num [π]
  A_nonneg i j := by fin_cases i <;> fin_cases j <;> norm_num [A]
  e_nonneg i k := by norm_num [B]
  π_sum := by norm_num [π, Fin.sum_univ_two]
  A_sum i := by fin_cases i <;> norm_num [A, Fin.sum_univ_two]
  e_sum i := by norm_num [B, Fin.sum_univ_two]

theorem π_sum : ∑ i, π i = 1 := by norm_num [π, Fin.sum_univ_two]
theorem A_sum (i : Fin 2) : ∑ j, A i j = 1 := by fin_cases i <;> norm_num [A, Fin.sum_univ_two]

theorem catL_pos : 0 < catL ss π A B := by
  have : ∀ s : ObsSeq (Fin 2), 0 < likelihood π A (s.weights (catB B)) := fun s => by
    refine lt_of_lt_of_le ?_ (Finset.single_le_sum (f := fun z => joint π A (s.weights (catB B)) z)
      (fun z _ => ?_) (Finset.mem_univ fun _ => 0))
    · simp only [joint]
      refine mul_pos (mul_pos ?_ (Finset.prod_pos fun t _ => ?_)) (Finset.prod_pos fun t _ => ?_)
      all_goals norm_num [π, A, B, ObsSeq.weights, catB]
    · exact joint_nonneg model.π_nonneg model.A_nonneg (fun t i => by norm_num [B, ObsSeq.weights, catB]) z
  simp only [catL, dataLikelihood, ss, List.map_cons, List.map_nil, List.prod_cons, List.prod_nil, mul_one]
  exact mul_pos (this _) (this _)

noncomputable abbrev F := Categorical.family (nc := 2) (nf := 2) (fun _ _ => 1) est.params
noncomputable abbrev c : RConfig 2 := ⟨fun _ => 1, fun _ _ => 1, .log, 10⟩
noncomputable abbrev r : RParams 2 (Categorical.Rows 2 2) := ⟨π, A, ⟨B, model.e_nonneg, model.e_sum⟩⟩

theorem ac (r : RParams 2 (Categorical.Rows 2 2)) (hr : F.Keeps False ss r) : F.Ac ss r :=
  Categorical.ac _ est.params (fun _ _ _ => le_rfl) ss r hr.1

theorem closed : F.Closed c ss (F.Keeps False ss) :=
  F.closed_keeps _ ss (fun _ _ => le_rfl) (fun _ _ _ => le_rfl) (fun _ _ => trivial) ac

theorem start : F.Keeps False ss r :=
  ⟨model.valid, likelihoods_pos_of_data model.π_nonneg model.A_nonneg (fun o i => model.e_nonneg i o) catL_pos,
    False.elim⟩

theorem unused (k : ℕ) : ((F.rstep c ss)^[k] r).π 1 = 0 := by
  induction k with
  | zero => rfl
  | succ k ih =>
    rw [Function.iterate_succ_apply']
    simp only [Family.rstep]
    rw [if_pos (by decide)]
    simp [mapUpdate, mapCounts, ih]

theorem beforeLast_zero {π' : Fin 2 → ℝ} (h : π' 1 = 0) (A' : Fin 2 → Fin 2 → ℝ) (b : Fin 2 → Fin 2 → ℝ) :
    beforeLast π' A' b ss 1 = 0 := by
  have : ∀ B' : Fin 2 → Fin 2 → ℝ, stateMass (n := 1) π' A' B' 0 1 = 0 := fun B' =>
    Finset.sum_eq_zero fun z hz => by
      simp only [Finset.mem_filter] at hz
      simp [joint, hz.2, h]
  simp [beforeLast, ss, posterior, Fin.sum_univ_one, this]

theorem ready : catSub.ready est = some ⟨2, by decide, Categorical.params π A B⟩ := rfl

theorem rows_eq : catSub.rows (G := Unit) 2 X = .ok (dataX Categorical.sym ss) := rfl

theorem accepted : Accepted catSub est := by
  have hb : checkBase est = .ok () := C30_valid est π A rfl rfl π_sum A_sum
  obtain ⟨k1, k2, _⟩ := C30_categorical (k := 2) (l := 2) est B hb rfl rfl
  have hok := k1.2 ⟨rfl, rfl, fun i => by norm_num [B, Fin.sum_univ_two, NearOne]⟩
  exact Prod.ext hok (k2 hok)

theorem finish (out : FitOutcome XF (Theta XF 2 (Categorical.Params XF 2 2)))
    (hout : F.fit c ss r est.monitor.reset = out) (hraised : out.raised = none)
    (hU : ∀ m, Unusable catSub (catSub.put (nf := 2) est out.state m)) :
    ∃ e', catSub.loop X (some [2, 2]) est = (.ok (), e') ∧ Unusable catSub e' := by
  have hl := catSub.loop_eq (X := X) (ls := some (dataLengths ss)) (impl := .log) rfl ready rows_eq (by decide)
    (out := out) hout
  rw [hraised] at hl
  exact ⟨_, hl, hU _⟩

theorem raised : (F.fit c ss r est.monitor.reset).raised = none := by
  obtain ⟨h1, h2, h3, h4⟩ := F.fit_real closed (by simp [ss]) (fun _ _ => le_rfl) start est.monitor.reset
  by_contra hne
  obtain ⟨err, herr⟩ := Option.ne_none_iff_exists'.1 hne
  obtain ⟨_, _, _, _, _, _, h6⟩ := fitLoop_spec (step := emStep (Categorical.emission (nc := 2) fun i k => fin 1)
    (c.toConfig est.params) (dataX Categorical.sym ss) (dataLengths ss)) 10 (F.theta r) est.monitor.reset.reset rfl
  have h7 := (h6 err herr).2.1
  have h8 : emStep _ (c.toConfig est.params) (dataX Categorical.sym ss) (dataLengths ss)
    (F.fit c ss r est.monitor.reset).state = _ := h7
  have hk := h4 _ le_rfl
  rw [h1, F.emStep_real c ss (by simp [ss]) hk.1 hk.2.1 trivial fun _ _ => le_rfl] at h8
  cases h8

theorem ran : 0 < (F.fit c ss r est.monitor.reset).monitor.history.length :=
  F.history_pos raised (by decide)

theorem broken (m : Monitor XF) :
    Unusable catSub (catSub.put (nf := 2) est (F.fit c ss r est.monitor.reset).state m) := by
  have hn := ran
  have hz : ∀ k, beforeLast ((F.rstep c ss)^[k] r).π ((F.rstep c ss)^[k] r).A
      (F.b ((F.rstep c ss)^[k] r).q) ss 1 = 0 := fun k => beforeLast_zero (unused k) _ _
  have hc := closed
  have hs := start
  have hp : ∑ i, r.π i = 1 := π_sum
  have hflat : ∀ i j, c.tp i j = 1 := fun _ _ => rfl
  have hsp : 's' ∈ est.params → ∀ i, 1 ≤ c.sp i := fun _ _ => le_rfl
  generalize hF : F = F' at *
  generalize hcc : c = c' at *
  generalize hrr : r = r' at *
  haveI : NeZero est.nComponents := (inferInstance : NeZero 2)
  exact C28_unused catSub est (nf := 2) F' hflat hsp (by decide)
    (by simp [ss]) hc hs hp est.monitor.reset m hn (1 : Fin 2) hz

/-- **C28** The model passes `_check`, the data set is possible, `fit` (its loop) returns normally,
and afterwards every call of `score`, `decode`, `predict`, … raises `ValueError`: state 1 is never
visited, and its row of `transmat_` has become zero. -/
theorem C28_witness : Accepted catSub est ∧ 0 < catL ss π A B ∧
    ∃ e', catSub.loop X (some [2, 2]) est = (.ok (), e') ∧ Unusable catSub e' :=
  ⟨accepted, catL_pos, finish _ rfl raised broken⟩

end Broken

end Verif
