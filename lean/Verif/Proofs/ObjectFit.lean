import Verif.Spec.ObjectFit
import Verif.Props.Objects
import Verif.Props.Initialise

/-!
# `fit` of an object whose attributes hold real parameters
-/

set_option autoImplicit false

namespace Verif
open FloatLike XF Hmmc Spec
open scoped Classical

variable {D G P Q : Type} {nc : ℕ}

theorem dataX_length {Obs : Type} (obs : D → Obs) (s : ObsSeq D) :
    (dataX obs [s]).length = s.n + 1 := by
  simp [dataX, ObsSeq.rows]

theorem fitFrom_lengths [NeZero nc] {Obs Pm St : Type} (E : Emission XF nc Obs Pm St) (cfg : Config XF nc)
    (obs : D → Obs) {ss : List (ObsSeq D)} {ls : Option (List Int)} (h : LengthsFor ss ls) (θ : Theta XF nc Pm)
    (mon : Monitor XF) : fitFrom E cfg (dataX obs ss) ls θ mon =
      fitFrom E cfg (dataX obs ss) (some (dataLengths ss)) θ mon := by
  rcases h with rfl | ⟨⟨s, rfl⟩, rfl⟩
  · rfl
  · unfold fitFrom
    simp only [Option.getD_none, Option.getD_some, dataX_length]
    congr 2

/-- `log` cannot raise; `scaling` only by underflow. -/
theorem Family.fit_raised [NeZero nc] {Obs Pm St : Type} {E : Emission XF nc Obs Pm St} {obs : D → Obs}
    {params : List Char} (F : Family E obs params Q) {c : RConfig nc} {ss : List (ObsSeq D)}
    {I : RParams nc Q → Prop} (hI : F.Closed c ss I) (hne : ss ≠ []) (hp : 's' ∈ params → ∀ i, 1 ≤ c.sp i)
    {r : RParams nc Q} (hr : I r) (mon : Monitor XF) :
    (F.fit c ss r mon).raised = none ∨ c.impl = .scaling ∧ (F.fit c ss r mon).raised = some .underflow := by
  obtain ⟨h1, _, h3, h4⟩ := F.fit_real hI hne hp hr mon
  cases hraised : (F.fit c ss r mon).raised with
  | none => exact Or.inl rfl
  | some err =>
    right
    obtain ⟨h, _, _, _, _, _, hend⟩ := fitLoop_spec (step := emStep E (c.toConfig params) (dataX obs ss)
      (dataLengths ss)) c.nIter (F.theta r) mon.reset rfl
    obtain ⟨_, hs, _⟩ := hend err hraised
    change emStep E (c.toConfig params) (dataX obs ss) (dataLengths ss) (F.fit c ss r mon).state = .error err at hs
    rw [h1] at hs
    set r' := (F.rstep c ss)^[(F.fit c ss r mon).monitor.history.length] r with hr'
    have hI' : I r' := h4 _ le_rfl
    by_cases hok : F.Ok c.impl ss r'
    · rw [F.emStep_real c ss hne (hI.valid _ hI') hok (hI.good _ hI' hok) hp] at hs
      cases hs
    · cases hi : c.impl with
      | log => rw [hi] at hok; exact absurd (hI.ok hi _ hI') hok
      | scaling =>
        rw [hi] at hok
        rw [F.emStep_underflow c hi ss (hI.valid _ hI') hok] at hs
        exact ⟨rfl, by rw [Except.error.inj hs]⟩

theorem Family.fit_le [NeZero nc] {Obs Pm St : Type} {E : Emission XF nc Obs Pm St} {obs : D → Obs}
    {params : List Char} (F : Family E obs params Q) (c : RConfig nc) (ss : List (ObsSeq D))
    (r : RParams nc Q) (mon : Monitor XF) : (F.fit c ss r mon).monitor.history.length ≤ c.nIter := by
  obtain ⟨h, _, h2, h3, _⟩ := fitLoop_spec (step := emStep E (c.toConfig params) (dataX obs ss)
    (dataLengths ss)) c.nIter (F.theta r) mon.reset rfl
  have : (F.fit c ss r mon).monitor = _ := h3
  rw [this]
  simpa [Monitor.reset] using h2

section
variable {S : Sub XF G P} {e : Est XF G P} [NeZero e.nComponents] {nf : ℕ} {obs : D → S.Obs nf}
  {E : Emission XF e.nComponents (S.Obs nf) (S.Params e.nComponents nf) (S.Stats e.nComponents nf)}

/-- The loop of `fit` on attributes that hold real parameters. -/
theorem Sub.loop_family (F : Family E obs e.params Q) (hE : S.emission e.sub e.nComponents nf = E)
    {c : RConfig e.nComponents} (hi : e.implementation = implName c.impl) (hcfg : e.config c.impl = c.toConfig e.params)
    (hn : e.nIter ≠ 0) {r : RParams e.nComponents Q} (hnf : e.nFeatures = some nf)
    (h1 : e.startprob = some (vec r.π)) (h2 : e.transmat = some (mat r.A))
    (h3 : S.read e.sub e.nComponents nf = some (F.embed r.q)) {ss : List (ObsSeq D)}
    {X' : XArr XF} (hX : S.rows nf X' = .ok ((samples ss).map obs)) {ls : Option (List Int)} (hl : LengthsFor ss ls) :
    S.loop X' ls e = (match (F.fit c ss r e.monitor.reset).raised with
      | none => .ok ()
      | some err => .error err, S.put e (F.fit c ss r e.monitor.reset).state (F.fit c ss r e.monitor.reset).monitor) := by
  subst hE
  have hr := S.ready_of (NeZero.ne _) hnf h1 h2 h3
  refine S.loop_eq (impl := c.impl) (by rw [hi, implOf_name]) hr hX hn ?_
  simp only
  rw [samples_map, hcfg, fitFrom_lengths _ _ _ hl]
  rfl

/-- The loop of `fit`, as a claim about the object. -/
theorem loop_trains {M : Type} (T : Training G P M)
    (F : Family E obs e.params Q) (hE : S.emission e.sub e.nComponents nf = E)
    {c : RConfig e.nComponents} (hi : e.implementation = implName c.impl) (hcfg : e.config c.impl = c.toConfig e.params)
    (hn : e.nIter ≠ 0) {r : RParams e.nComponents Q} (hnf : e.nFeatures = some nf)
    (h1 : e.startprob = some (vec r.π)) (h2 : e.transmat = some (mat r.A))
    (h3 : S.read e.sub e.nComponents nf = some (F.embed r.q)) {ss : List (ObsSeq D)} (hne : ss ≠ [])
    {X' : XArr XF} (hX : S.rows nf X' = .ok ((samples ss).map obs)) {ls : Option (List Int)} (hl : LengthsFor ss ls)
    (hp : 's' ∈ e.params → ∀ i, 1 ≤ c.sp i) {I : RParams e.nComponents Q → Prop} (hI : F.Closed c ss I) (hr : I r)
    (pt : RParams e.nComponents Q → M) (hlik : ∀ r, T.lik (pt r) = F.L ss r) (hpos : ∀ r, I r → 0 < F.L ss r)
    (hst : ∀ r mon, I r → T.stores (S.put e (F.theta r) mon) (pt r))
    (hobj : ∀ r, I r → I (F.rstep c ss r) → F.Ok c.impl ss r → T.mono (pt r) (pt (F.rstep c ss r)) →
      T.obj (pt r) ≤ T.obj (pt (F.rstep c ss r)))
    (hacc : T.used (pt r) → (F.fit c ss r e.monitor.reset).raised = none →
      Accepted S (S.put e (F.fit c ss r e.monitor.reset).state (F.fit c ss r e.monitor.reset).monitor))
    (hans : ∀ r mon, I r → Accepted S (S.put e (F.theta r) mon) → T.answers (S.put e (F.theta r) mon) (pt r)) :
    TrainsFrom T (pt r) e c.impl (S.loop X' ls e) := by
  have hloop := S.loop_family F hE hi hcfg hn hnf h1 h2 h3 hX hl
  obtain ⟨f1, f2, f3, f4⟩ := F.fit_real hI hne hp hr e.monitor.reset
  have hc : c.nIter = e.nIter := (congrArg Config.nIter hcfg).symm
  have hraise := F.fit_raised hI hne hp hr e.monitor.reset
  have hle := F.fit_le c ss r e.monitor.reset
  have hpos' := F.history_pos (c := c) (ss := ss) (r := r) (mon := e.monitor.reset)
  generalize hout : F.fit c ss r e.monitor.reset = out at *
  rw [hloop]
  refine ⟨?_, ⟨rfl, rfl, rfl, rfl, rfl, rfl, rfl, rfl, rfl⟩, ?_⟩
  · rcases hraise with h | ⟨h, h'⟩
    · left; simp [h]
    · right; exact ⟨h, by simp [h']⟩
  · refine ⟨out.monitor.history.length, fun k => pt ((F.rstep c ss)^[k] r), rfl, hc ▸ hle, fun h => ?_, ?_, ?_, ?_, ?_, fun h hu => ?_⟩
    · refine hpos' ?_ (hc ▸ hn)
      cases hraised : out.raised with
      | none => rfl
      | some err => simp [hraised] at h
    · simp only
      rw [f1]
      exact hst _ _ (f4 _ le_rfl)
    · simp only [hlik]
      exact f2
    · intro k hk
      simp only [hlik]
      exact hpos _ (f4 k hk)
    · intro k hk hm
      have := f4 (k + 1) hk
      simp only at hm ⊢
      rw [Function.iterate_succ_apply'] at hm this ⊢
      exact hobj _ (f4 k hk.le) this (f3 k hk) hm
    · have hr0 : out.raised = none := by
        cases hraised : out.raised with
        | none => rfl
        | some err => simp [hraised] at h
      have := hacc hu hr0
      simp only
      rw [f1] at this ⊢
      exact hans _ _ (f4 _ le_rfl) this

end

/-- `fit` once `_init` and `_check` have returned. -/
theorem Sub.fit_eq {S : Sub XF G P} {R : RandomLib XF G} {X : RawX XF} {X' : XArr XF} (hX : checkArray X = .ok X')
    (ls : Option (List Int)) {w w1 : World XF G P} (hi : S.init R X' w = (.ok (), w1)) {e2 : Est XF G P}
    (hc : S.check w1.est = (.ok (), e2)) :
    S.fit R X ls w = ((S.loop X' ls e2).1, ⟨(S.loop X' ls e2).2, w1.glob⟩) := by
  unfold Sub.fit
  rw [hX]
  refine (Py.bind_ok rfl).trans ?_
  refine (Py.bind_ok hi).trans ?_
  have h2 : onEst S.check w1 = (.ok (), ⟨e2, w1.glob⟩) := by simp [onEst, hc]
  exact (Py.bind_ok h2).trans rfl

end Verif
