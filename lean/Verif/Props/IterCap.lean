import Verif.Proofs.EstimatorComm
import Verif.Proofs.FitRuns

/-!
# C24: `n_iter` and `tol` are read when the estimator is constructed
-/

namespace Verif
open FloatLike Spec

/-! ## The loop -/

section
variable {α σ : Type} [FloatLike α] (step : σ → Except PyErr (σ × α))

/-- Running at most `k` further iterations under a monitor that stops at `c` is running at most
`min k (c - i)` under a monitor that stops at `min (i + k) c`; `i < c` iterations are done. -/
theorem fitLoop_cap (k : Nat) (s : σ) (mon : Monitor α) (h : mon.iter < mon.nIter) :
    fitLoop step (min k (mon.nIter - mon.iter)) s { mon with nIter := min (mon.iter + k) mon.nIter } =
      { fitLoop step k s mon with
        monitor := { (fitLoop step k s mon).monitor with nIter := min (mon.iter + k) mon.nIter } } := by
  induction k generalizing s mon with
  | zero => simp [fitLoop]
  | succ k ih =>
    obtain ⟨tol, c, hist, i⟩ := mon
    simp only at h ih ⊢
    have e1 : min (k + 1) (c - i) = min k (c - (i + 1)) + 1 := by omega
    rw [e1]
    simp only [fitLoop]
    cases hs : step s with
    | error e => rfl
    | ok v =>
      simp only
      have hA : ((⟨tol, c, hist, i⟩ : Monitor α).report v.2).converged =
          ((i + 1 == c) || (⟨tol, 0, hist ++ [v.2], i + 1⟩ : Monitor α).converged) := by
        simp [Monitor.converged, Monitor.report]
      have hB : ((⟨tol, min (i + (k + 1)) c, hist, i⟩ : Monitor α).report v.2).converged =
          ((i + 1 == min (i + (k + 1)) c) || (⟨tol, 0, hist ++ [v.2], i + 1⟩ : Monitor α).converged) := by
        simp [Monitor.converged, Monitor.report]
      by_cases ht : (⟨tol, 0, hist ++ [v.2], i + 1⟩ : Monitor α).converged = true
      · rw [ht, Bool.or_true] at hA hB
        simp only [hA, hB, if_true]
        rfl
      · have ht : (⟨tol, 0, hist ++ [v.2], i + 1⟩ : Monitor α).converged = false := by simpa using ht
        rw [ht, Bool.or_false] at hA hB
        by_cases hc : i + 1 = c
        · have h1 : (i + 1 == c) = true := by simpa using hc
          have h2 : (i + 1 == min (i + (k + 1)) c) = true := by rw [beq_iff_eq]; omega
          rw [h1] at hA; rw [h2] at hB
          simp only [hA, hB, if_true]
          rfl
        · have h1 : (i + 1 == c) = false := by simpa using hc
          rw [h1] at hA
          by_cases hk : k = 0
          · subst hk
            have h2 : (i + 1 == min (i + (0 + 1)) c) = true := by rw [beq_iff_eq]; omega
            rw [h2] at hB
            simp only [hA, hB, if_true, Bool.false_eq_true, if_false]
            simp [fitLoop, Monitor.report]
          · have h2 : (i + 1 == min (i + (k + 1)) c) = false := by
              rw [beq_eq_false_iff_ne]; omega
            rw [h2] at hB
            simp only [hA, hB, Bool.false_eq_true, if_false]
            have := ih v.1 ⟨tol, c, hist ++ [v.2], i + 1⟩ (by simp only; omega)
            simp only [show i + 1 + k = i + (k + 1) by omega] at this
            exact this

theorem fitLoop_iter_le (k : Nat) (s : σ) (mon : Monitor α) (h : mon.iter < mon.nIter) :
    (fitLoop step k s mon).monitor.iter ≤ min (mon.iter + k) mon.nIter := by
  induction k generalizing s mon with
  | zero => simp only [fitLoop]; omega
  | succ k ih =>
    simp only [fitLoop]
    cases hs : step s with
    | error e => simp only; omega
    | ok v =>
      simp only
      split
      · simp only [Monitor.report]; omega
      · next hc =>
        have hne : mon.iter + 1 ≠ mon.nIter := by
          intro he
          apply hc
          simp [Monitor.converged, Monitor.report, he]
        have := ih v.1 (mon.report v.2) (by simp only [Monitor.report]; omega)
        simp only [Monitor.report] at this ⊢
        omega

end

/-! ## The estimator -/

section
variable {α G P : Type} [FloatLike α] (S : Sub α G P)

theorem ready_retrain (e : Est α G P) (k : Nat) (t : α) (m : Monitor α) :
    S.ready (e.retrain k t m) = (S.ready e).map fun r => ⟨r.nf, r.pos, r.θ⟩ := by
  unfold Sub.ready
  by_cases h0 : e.nComponents = 0
  · rw [dif_pos h0, dif_pos (show (e.retrain k t m).nComponents = 0 from h0)]
    rfl
  · rw [dif_neg h0, dif_neg (show ¬ (e.retrain k t m).nComponents = 0 from h0)]
    simp only [Est.retrain]
    cases e.nFeatures with
    | none => rfl
    | some nf =>
      cases e.startprob with
      | none => rfl
      | some a =>
        cases h1 : asRow e.nComponents a with
        | none => simp [h1]
        | some π =>
          cases h2 : e.transmat with
          | none => simp [h1]
          | some b =>
            cases h3 : asMat e.nComponents e.nComponents b with
            | none => simp [h1, h3]
            | some A =>
              cases h4 : S.read e.sub e.nComponents nf with
              | none => simp [h1, h3, h4]
              | some p => simp [h1, h3, h4]

/-- What the loop does with `n_iter` and the monitor. -/
theorem loop_retrain (X : XArr α) (ls : Option (List Int)) (e : Est α G P) :
    (∃ err, ∀ k t m, S.loop X ls (e.retrain (k + 1) t m) = (.error err, e.retrain (k + 1) t m.reset)) ∨
    ∃ (σ : Type) (step : σ → Except PyErr (σ × α)) (s : σ) (F : σ → Est α G P), ∀ k t m,
      S.loop X ls (e.retrain (k + 1) t m) =
        (match (fitLoop step (k + 1) s m.reset).raised with
          | none => .ok ()
          | some err => .error err,
          (F (fitLoop step (k + 1) s m.reset).state).retrain (k + 1) t (fitLoop step (k + 1) s m.reset).monitor) := by
  have hm : ∀ k t (m : Monitor α), S.loop X ls (e.retrain k t m) = S.loopFrom X ls (e.retrain k t m.reset) :=
    fun _ _ _ => rfl
  cases hi : implOf e.implementation with
  | error err =>
    left
    refine ⟨err, fun k t m => ?_⟩
    simp only [hm, Sub.loopFrom]
    rw [if_neg (show ¬ (e.retrain (k + 1) t m.reset).nIter = 0 from Nat.succ_ne_zero k)]
    rw [show implOf (e.retrain (k + 1) t m.reset).implementation = .error err from hi]
  | ok impl =>
    cases hr : S.ready e with
    | none =>
      cases hs : splitXLengths (List.replicate X.n ()) ls with
      | error err =>
        left
        refine ⟨err, fun k t m => ?_⟩
        simp only [hm, Sub.loopFrom]
        rw [if_neg (show ¬ (e.retrain (k + 1) t m.reset).nIter = 0 from Nat.succ_ne_zero k)]
        rw [show implOf (e.retrain (k + 1) t m.reset).implementation = .ok impl from hi]
        simp only [ready_retrain, hr, Option.map_none, hs]
        rfl
      | ok _ =>
        left
        refine ⟨.valueError "array has incorrect number of dimensions", fun k t m => ?_⟩
        simp only [hm, Sub.loopFrom]
        rw [if_neg (show ¬ (e.retrain (k + 1) t m.reset).nIter = 0 from Nat.succ_ne_zero k)]
        rw [show implOf (e.retrain (k + 1) t m.reset).implementation = .ok impl from hi]
        simp only [ready_retrain, hr, Option.map_none, hs]
        rfl
    | some r =>
      cases hx : S.rows r.nf X with
      | error err =>
        cases hs : splitXLengths (List.replicate X.n ()) ls with
        | error err =>
          left
          refine ⟨err, fun k t m => ?_⟩
          simp only [hm, Sub.loopFrom]
          rw [if_neg (show ¬ (e.retrain (k + 1) t m.reset).nIter = 0 from Nat.succ_ne_zero k)]
          rw [show implOf (e.retrain (k + 1) t m.reset).implementation = .ok impl from hi]
          simp only [ready_retrain, hr, Option.map_some, hx, hs]
          rfl
        | ok _ =>
          left
          refine ⟨err, fun k t m => ?_⟩
          simp only [hm, Sub.loopFrom]
          rw [if_neg (show ¬ (e.retrain (k + 1) t m.reset).nIter = 0 from Nat.succ_ne_zero k)]
          rw [show implOf (e.retrain (k + 1) t m.reset).implementation = .ok impl from hi]
          simp only [ready_retrain, hr, Option.map_some, hx, hs]
          rfl
      | ok rows =>
        right
        haveI : NeZero e.nComponents := ⟨r.pos⟩
        refine ⟨_, emStep (S.emission e.sub e.nComponents r.nf) (e.config impl) rows
          (ls.getD [(rows.length : Int)]), r.θ, fun θ => S.put e θ e.monitor, fun k t m => ?_⟩
        simp only [hm, Sub.loopFrom]
        rw [if_neg (show ¬ (e.retrain (k + 1) t m.reset).nIter = 0 from Nat.succ_ne_zero k)]
        rw [show implOf (e.retrain (k + 1) t m.reset).implementation = .ok impl from hi]
        simp only [ready_retrain, hr, Option.map_some, hx]
        rfl

theorem loop_zero (X : XArr α) (ls : Option (List Int)) (e : Est α G P) (t : α) (m : Monitor α) :
    S.loop X ls (e.retrain 0 t m) = (.ok (), e.retrain 0 t m.reset) := by
  show S.loopFrom X ls (e.retrain 0 t m.reset) = _
  unfold Sub.loopFrom
  exact if_pos (show (e.retrain 0 t m.reset).nIter = 0 from rfl)

/-- What `n_iter` and `tol` mean once the estimator exists. -/
def Spec.FixedAtConstruction (S : Sub α G P) (R : RandomLib α G) : Prop :=
  ∀ (X : RawX α) (ls : Option (List Int)) (w : World α G P) (k : Nat) (t : α),
    -- `w.est.monitor.nIter` is the constructor's `n_iter`
    1 ≤ w.est.monitor.nIter →
    let c := w.est.monitor.nIter
    -- the estimator after `est.n_iter = k; est.tol = t`
    let A := S.fit R X ls { w with est := { w.est with nIter := k, tol := t } }
    -- the same estimator constructed with `n_iter = min k c`
    let B := S.fit R X ls { w with est := { w.est with nIter := min k c, monitor := { w.est.monitor with nIter := min k c } } }
    A.1 = B.1 ∧
    A.2 = { B.2 with est := { B.2.est with nIter := k, tol := t, monitor := { B.2.est.monitor with nIter := c } } } ∧
    (A.1 = .ok () → A.2.est.monitor.iter ≤ min k c)

variable {S}

theorem fixedAtConstruction {R : RandomLib α G} (h : S.Oblivious R) : FixedAtConstruction S R := by
  intro X ls w k t hc c A B
  have hA : A = S.fit R X ls (World.retrain k t w.est.monitor w) := rfl
  have hB : B = S.fit R X ls (World.retrain (min k c) w.est.tol { w.est.monitor with nIter := min k c } w) := rfl
  rcases h.fit_eq X ls w with ⟨err, w1, hf⟩ | ⟨X', w1, hf⟩
  · rw [hA, hB, hf, hf]
    exact ⟨rfl, rfl, by simp⟩
  · rw [hA, hB, hf, hf]
    have hw : ∀ k t m, onEst (S.loop X' ls) (World.retrain k t m w1) =
        ((S.loop X' ls (w1.est.retrain k t m)).1, { w1 with est := (S.loop X' ls (w1.est.retrain k t m)).2 }) :=
      fun _ _ _ => rfl
    rw [hw, hw]
    cases k with
    | zero =>
      rw [Nat.zero_min, loop_zero, loop_zero]
      exact ⟨rfl, rfl, by simp [Est.retrain, Monitor.reset]⟩
    | succ k =>
      obtain ⟨c', hc'⟩ : ∃ c', c = c' + 1 := ⟨c - 1, by omega⟩
      have hmin : min (k + 1) c = min k c' + 1 := by omega
      rcases loop_retrain S X' ls w1.est with ⟨err, hl⟩ | ⟨σ, step, s, F, hl⟩
      · rw [hmin, hl, hl]
        exact ⟨rfl, rfl, by simp⟩
      · rw [hmin, hl, hl]
        have hcap := fitLoop_cap step (k + 1) s w.est.monitor.reset (Nat.lt_of_lt_of_le Nat.zero_lt_one hc)
        have hle := fitLoop_iter_le step (k + 1) s w.est.monitor.reset (Nat.lt_of_lt_of_le Nat.zero_lt_one hc)
        have e1 : w.est.monitor.reset.iter = 0 := rfl
        have e2 : w.est.monitor.reset.nIter = c := rfl
        rw [e1, e2, Nat.zero_add, Nat.sub_zero, hmin] at hcap
        rw [e1, e2, Nat.zero_add, hmin] at hle
        have hcap' : fitLoop step (min k c' + 1) s ({ w.est.monitor with nIter := min k c' + 1 } : Monitor α).reset = _ :=
          hcap
        simp only [hcap']
        have hn : (fitLoop step (k + 1) s w.est.monitor.reset).monitor.nIter = c := by
          obtain ⟨_, _, _, hm, _⟩ := fitLoop_spec (step := step) (k + 1) s w.est.monitor.reset rfl
          rw [hm]; rfl
        refine ⟨trivial, ?_, fun _ => hle⟩
        simp only [Est.retrain]
        rw [← hn]

end

/-! ## The classes -/

section
variable {α G : Type} [FloatLike α] (R : RandomLib α G)

/-- **C24.** For every class, assigning `n_iter = k` to an existing estimator is having constructed
it with `n_iter = min k c`, where `c ≥ 1` is the constructor's value: at most `min k c` iterations
are run.  Assigning `tol` has no effect. -/
theorem C24_fixed (eig : Eigvalsh α) : FixedAtConstruction (catSub (α := α) (G := G)) R ∧
    FixedAtConstruction (multiSub (α := α) (G := G)) R ∧ FixedAtConstruction (poisSub (α := α) (G := G)) R ∧
    FixedAtConstruction (gaussDiagSub (G := G) eig) R ∧ FixedAtConstruction (gaussSphericalSub (G := G) eig) R ∧
    FixedAtConstruction (gaussFullSub (G := G) eig) R ∧ FixedAtConstruction (gaussTiedSub (G := G) eig) R :=
  ⟨fixedAtConstruction (catSub_oblivious R), fixedAtConstruction (multiSub_oblivious R),
    fixedAtConstruction (poisSub_oblivious R),
    fixedAtConstruction (gauss_oblivious R (gaussDiag_isGauss eig) rfl),
    fixedAtConstruction (gauss_oblivious R (gaussSpherical_isGauss eig) rfl),
    fixedAtConstruction (gauss_oblivious R (gaussFull_isGauss eig) rfl),
    fixedAtConstruction (gauss_oblivious R (gaussTied_isGauss eig) rfl)⟩

/-- The constructor stores its `n_iter` and `tol` in the monitor. -/
theorem C24_constructor {P : Type} (a : Args α G P) : (construct a).monitor.nIter = a.nIter ∧
    (construct a).monitor.tol = a.tol ∧ (construct a).nIter = a.nIter ∧ (construct a).tol = a.tol :=
  ⟨rfl, rfl, rfl, rfl⟩

/-- **C24.** The exception: an estimator constructed with `n_iter=0` has a monitor that never stops
on the iteration count, so that a later `n_iter = k` is not capped: with steps that always succeed
and never meet the tolerance, `k` iterations are run. -/
theorem C24_zero_uncapped {σ : Type} {mon : Monitor α} (step : σ → Except PyErr (σ × α)) (hs : ∀ s, ∃ s' v, step s = .ok (s', v))
    (htol : ∀ a b : α, FloatLike.lt (b - a) mon.tol = false) (mon0 : mon.nIter = 0) (k : Nat) (s : σ) :
    (fitLoop step k s mon).monitor.iter = mon.iter + k := by
  induction k generalizing s mon with
  | zero => rfl
  | succ k ih =>
    obtain ⟨s', v, h⟩ := hs s
    have hc : (mon.report v).converged = false := by
      simp only [Monitor.converged, Monitor.report, mon0]
      split <;> simp [htol]
    simp only [fitLoop, h, hc]
    have := ih (mon := mon.report v) htol mon0 s'
    simp only [Bool.false_eq_true, if_false]
    rw [this]
    simp [Monitor.report]; omega

end
end Verif
