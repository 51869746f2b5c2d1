import Verif.Spec.GmmInts
import Verif.Proofs.GmmEstimator
import Verif.Props.Seeding
import Verif.Props.GmmClass
/-
C98: integer hyper-parameters and covariances of `GMMHMM`.
-/
set_option autoImplicit false

namespace Verif
open FloatLike Spec

variable {α G : Type} [FloatLike α] {nm : Nat}

/-! ## What `_init` and `_check` do does not depend on the type of the arrays -/

omit [FloatLike α] in
theorem comm_onEst_floats {β : Type} {x : Py (Est α G (GmmAttrs α)) β} (h : Py.Comm estAsFloats x) :
    Py.Comm asFloats (onEst x) := by
  intro w
  show ((x (estAsFloats w.est)).1, (⟨(x (estAsFloats w.est)).2, w.glob⟩ : World α G (GmmAttrs α))) = _
  rw [h w.est]
  rfl

omit [FloatLike α] in
theorem comm_onSub_floats {β : Type} {x : Py (GmmAttrs α) β} (h : Py.Comm attrsAsFloats x) :
    Py.Comm (estAsFloats (G := G)) (onSub x) := by
  intro e
  have := h e.sub
  show ((x (attrsAsFloats e.sub)).1, { e with sub := (x (attrsAsFloats e.sub)).2 }) = _
  rw [this]
  rfl

omit [FloatLike α] in
theorem comm_withSelfGen_floats {β : Type} (R : RandomLib α G) (f : G → β × G) :
    Py.Comm asFloats (withSelfGen (P := GmmAttrs α) R f) := by
  intro w
  obtain ⟨e, g⟩ := w
  unfold withSelfGen
  show (match e.randomState with | .none | .global => _ | .seed n => _ | .gen g => _) = _
  cases h : e.randomState <;> simp only [h] <;> rfl

theorem comm_fixOne {get : GmmAttrs α → Tensor α} {set : Tensor α → GmmAttrs α → GmmAttrs α} (shape : List Nat)
    (h1 : ∀ p, get (attrsAsFloats p) = get p) (h2 : ∀ t p, set t (attrsAsFloats p) = attrsAsFloats (set t p)) :
    Py.Comm attrsAsFloats (fixOne get set shape) := by
  intro p
  unfold fixOne
  rw [h1]
  cases (get p).broadcastTo shape with
  | error e => rfl
  | ok t => dsimp only; rw [h2]

theorem comm_gmmPriors (T : GmmType α nm) (nc nf : Nat) : Py.Comm attrsAsFloats (gmmPriors T nc nf) := by
  have h : Py.Comm attrsAsFloats (gmmFixPriors T nc nf) := by
    unfold gmmFixPriors
    refine (comm_fixOne _ ?_ ?_).bind fun _ => (comm_fixOne _ ?_ ?_).bind fun _ => (comm_fixOne _ ?_ ?_).bind fun _ =>
      (comm_fixOne _ ?_ ?_).bind fun _ => comm_fixOne _ ?_ ?_ <;> intros <;> rfl
  exact fun p => h (gmmInitPriors T nf p)

theorem gmmSet_floats' (T : GmmType α nm) (X : XArr α) {nc : Nat} (v : Fin nc → Fin nm → Fin X.d → α) (ip : List Char)
    (p : GmmAttrs α) : gmmSet T X v ip (attrsAsFloats p) = attrsAsFloats (gmmSet T X v ip p) := by
  unfold gmmSet attrsAsFloats
  simp only [ite_self]

variable [NeZero nm] {R : RandomLib α G}

theorem comm_init_floats (T : GmmType α nm) (X : XArr α) : Py.Comm asFloats ((gmmSub T).init R X) := by
  refine Py.Comm.bind ?_ fun _ => ?_
  · refine Py.Comm.bind (comm_onEst_floats fun e => ?_) fun _ => ?_
    · show checkFeaturesBase X (estAsFloats e) = ((checkFeaturesBase X e).1, estAsFloats (checkFeaturesBase X e).2)
      unfold checkFeaturesBase
      show (match e.nFeatures with | some nf => _ | none => _) = _
      cases e.nFeatures with
      | none => rfl
      | some nf =>
        dsimp only
        split <;> rfl
    refine Py.Comm.get_bind (fun w => rfl) fun w => ?_
    refine Py.Comm.bind (comm_withSelfGen_floats R _) fun st => ?_
    refine Py.Comm.bind (comm_onEst_floats fun e => rfl) fun _ => ?_
    refine Py.Comm.get_bind (fun w => rfl) fun w => ?_
    dsimp only
    split
    · exact Py.Comm.raise _
    · exact Py.Comm.pure _
  · show Py.Comm _ (gmmInit T R X)
    refine Py.Comm.get_bind (fun w => rfl) fun w => ?_
    refine Py.Comm.bind (comm_onEst_floats (comm_onSub_floats (comm_gmmPriors T _ _))) fun _ => ?_
    refine Py.Comm.ite (Py.Comm.raise _) ?_
    refine Py.Comm.bind (comm_withSelfGen_floats R _) fun cs => ?_
    refine Py.Comm.bind (Py.Comm.seqMany (fun l => ?_) _) fun _ => ?_
    · unfold gmmClusterMeans
      exact Py.Comm.ite (comm_withSelfGen_floats R _) fun w => rfl
    · exact comm_onEst_floats (comm_onSub_floats (Py.Comm.modify fun p => gmmSet_floats' T X _ _ p))

omit [NeZero nm] in
theorem comm_gmmCheck (T : GmmType α nm) : Py.Comm (estAsFloats (G := G)) (gmmCheck T) := by
  intro e
  have h0 : gmmCheckFeatures (estAsFloats e) = gmmCheckFeatures e := rfl
  cases h : gmmCheckFeatures e with
  | error err => rw [gmmCheck_error T e h, gmmCheck_error T _ (h0.trans h)]
  | ok nf =>
    unfold gmmCheck
    rw [h0, h]
    have := comm_gmmPriors T e.nComponents nf e.sub
    show (match gmmPriors T e.nComponents nf (attrsAsFloats e.sub) with | (.error err, p) => _ | (.ok _, p) => _) = _
    rw [this]
    dsimp only
    cases gmmPriors T e.nComponents nf e.sub with
    | mk r p => cases r <;> rfl

theorem comm_check_floats (T : GmmType α nm) : Py.Comm (estAsFloats (G := G)) (gmmSub T).check :=
  Py.Comm.get_bind (fun _ => rfl) fun _ => (Py.Comm.lift _).bind fun _ => comm_gmmCheck T

/-! ## The loop -/

section
variable {nc nf : Nat} [NeZero nc] {P S : Type} {E : Emission α nc (Fin nf → α) P S} {mi ci : Bool}

omit [NeZero nc] [NeZero nm] in
theorem splitXLengths_ne_nil {β : Type} {X : List β} {l : List Int} {bs : List (List β)}
    (h : splitXLengths X (some l) = .ok bs) : bs ≠ [] := by
  unfold splitXLengths at h
  cases l with
  | nil => cases h
  | cons a l =>
    dsimp only at h
    split at h
    · cases h
    · split at h
      · cases h
      · cases h
        cases l <;> simp [cumsumInt, npSplitInit]

/-- The first sequence is refused. -/
theorem emStep_inPlace {cfg : Config α nc} (hb : ((mi && 'm' ∈ cfg.params) || (ci && 'c' ∈ cfg.params)) = true)
    (X : List (Fin nf → α)) (ls : List Int) (θ : Theta α nc P) :
    (∀ r, emStep (gmmInPlace mi ci E) cfg X ls θ ≠ .ok r) ∧
    ((∃ r, emStep E cfg X ls θ = .ok r) → emStep (gmmInPlace mi ci E) cfg X ls θ = .error .typeError) := by
  have h1 : ∀ st subX, (∀ r, estepOne (gmmInPlace mi ci E) cfg.params cfg.implementation θ st subX ≠ .ok r) ∧
      ((∃ r, estepOne E cfg.params cfg.implementation θ st subX = .ok r) →
        estepOne (gmmInPlace mi ci E) cfg.params cfg.implementation θ st subX = .error .typeError) := by
    intro st subX
    unfold estepOne
    show (∀ r, (fitOne (E.toHmm cfg.implementation θ) subX >>= fun r => _) ≠ .ok r) ∧ (_ →
      (fitOne (E.toHmm cfg.implementation θ) subX >>= fun r => _) = .error .typeError)
    cases fitOne (E.toHmm cfg.implementation θ) subX with
    | error e => exact ⟨fun r h => (by cases h), fun ⟨r, h⟩ => (by cases h)⟩
    | ok r =>
      dsimp only [bind, Except.bind]
      cases accumulateBase cfg.params cfg.implementation θ.transmat st.base r with
      | error e => exact ⟨fun r h => (by cases h), fun ⟨r, h⟩ => (by cases h)⟩
      | ok b =>
        dsimp only [gmmInPlace, bind, Except.bind]
        cases E.acc cfg.params θ.emission st.em subX r.posteriors with
        | error e => exact ⟨fun r h => (by cases h), fun ⟨r, h⟩ => (by cases h)⟩
        | ok s =>
          dsimp only
          rw [if_pos hb]
          exact ⟨fun r h => (by cases h), fun _ => rfl⟩
  unfold emStep doEstep
  cases hs : splitXLengths X (some ls) with
  | error e => exact ⟨fun r h => (by cases h), fun ⟨r, h⟩ => (by cases h)⟩
  | ok bs =>
    cases bs with
    | nil => exact absurd rfl (splitXLengths_ne_nil hs)
    | cons b bs =>
      dsimp only [bind, Except.bind, estepLoop]
      obtain ⟨ha, hc⟩ := h1 ⟨BaseStats.zero, E.zero cfg.params θ.emission⟩ b
      have hz : (gmmInPlace mi ci E).zero = E.zero := rfl
      rw [hz]
      constructor
      · intro r h
        cases h2 : estepOne (gmmInPlace mi ci E) cfg.params cfg.implementation θ
            ⟨BaseStats.zero, E.zero cfg.params θ.emission⟩ b with
        | error e => rw [h2] at h; cases h
        | ok v => exact ha v h2
      · rintro ⟨r, h⟩
        cases h2 : estepOne E cfg.params cfg.implementation θ ⟨BaseStats.zero, E.zero cfg.params θ.emission⟩ b with
        | error e => rw [h2] at h; cases h
        | ok v => rw [hc ⟨v, h2⟩]

/-- Nothing is refused. -/
theorem emStep_inPlace_ok {cfg : Config α nc} (hb : ((mi && 'm' ∈ cfg.params) || (ci && 'c' ∈ cfg.params)) = false) 
    (X : List (Fin nf → α)) (ls : List Int) : emStep (gmmInPlace mi ci E) cfg X ls = emStep E cfg X ls := by
  have h1 : ∀ θ st subX, estepOne (gmmInPlace mi ci E) cfg.params cfg.implementation θ st subX =
      estepOne E cfg.params cfg.implementation θ st subX := by
    intro θ st subX
    have : (gmmInPlace mi ci E).acc cfg.params = E.acc cfg.params := by
      funext p st X post
      dsimp only [gmmInPlace]
      cases E.acc cfg.params p st X post with
      | error e => rfl
      | ok s =>
        dsimp only [bind, Except.bind]
        rw [if_neg (by rw [hb]; exact Bool.false_ne_true)]
    unfold estepOne
    rw [this]
    rfl
  have h2 : ∀ θ bs st lp, estepLoop (gmmInPlace mi ci E) cfg.params cfg.implementation θ bs st lp =
      estepLoop E cfg.params cfg.implementation θ bs st lp := by
    intro θ bs
    induction bs with
    | nil => intros; rfl
    | cons b bs ih =>
      intro st lp
      unfold estepLoop
      rw [h1]
      cases estepOne E cfg.params cfg.implementation θ st b with
      | error e => rfl
      | ok v => exact ih _ _
  funext θ
  unfold emStep doEstep
  simp only [h2]
  rfl

end

/-- The object after `_init` and `_check`, not before. -/
def IntsAtWork (e : Est α G (GmmAttrs α)) : Bool :=
  (e.sub.meansInt && 'm' ∈ e.params) || (e.sub.covarsInt && 'c' ∈ e.params)

theorem ready_floats (T : GmmType α nm) (e : Est α G (GmmAttrs α)) :
    (gmmSub (G := G) T).ready (estAsFloats e) =
      ((gmmSub T).ready e).map fun r => (⟨r.nf, r.pos, r.θ⟩ : Ready (gmmSub T) (estAsFloats e)) := by
  obtain ⟨nc, _, _, _, _, _, _, _, _, _, _, sp, tm, nf, sub⟩ := e
  unfold Sub.ready estAsFloats
  dsimp only
  split
  · rfl
  · cases nf with
    | none => rfl
    | some nf =>
      cases sp with
      | none => rfl
      | some sp =>
        dsimp only [bind, Option.bind]
        cases asRow nc sp with
        | none => rfl
        | some π =>
          cases tm with
          | none => rfl
          | some tm =>
            dsimp only
            cases asMat nc nc tm with
            | none => rfl
            | some A =>
              dsimp only
              have : (gmmSub (G := G) T).read (attrsAsFloats sub) nc nf = (gmmSub (G := G) T).read sub nc nf := rfl
              rw [this]
              cases (gmmSub (G := G) T).read sub nc nf <;> rfl

/-- The loop, on an object that is ready. -/
theorem loopFrom_ready {P : Type} {S : Sub α G P} {X : XArr α} {ls : Option (List Int)} {e : Est α G P} {impl : Impl}
    (h0 : e.nIter ≠ 0) (hi : implOf e.implementation = .ok impl) {r : Ready S e} (hr : S.ready e = some r)
    {rows : List (S.Obs r.nf)} (hx : S.rows r.nf X = .ok rows) :
    haveI : NeZero e.nComponents := ⟨r.pos⟩
    S.loopFrom X ls e =
      (match (fitFrom (S.emission e.sub e.nComponents r.nf) (e.config impl) rows ls r.θ e.monitor).raised with
        | none => .ok ()
        | some err => .error err,
        S.put e (fitFrom (S.emission e.sub e.nComponents r.nf) (e.config impl) rows ls r.θ e.monitor).state
          (fitFrom (S.emission e.sub e.nComponents r.nf) (e.config impl) rows ls r.θ e.monitor).monitor) := by
  unfold Sub.loopFrom
  rw [if_neg h0, hi]
  dsimp only
  rw [hr]
  dsimp only
  rw [hx]
  rfl

/-- The emission model without the refusal. -/
def gmmCore (T : GmmType α nm) (p : GmmAttrs α) (nc nf : Nat) :
    Emission α nc (Fin nf → α) (Gmm.Params α nc nm nf (T.C nc nf)) (Gmm.Stats α nc nm nf (T.C nc nf)) :=
  Gmm.emission (T.kind nc nf (p.covarsPrior.getD (.scalar 0)) (p.covarsWeight.getD (.scalar 0)))
    ⟨p.weightsPrior.at2 nc nm, p.meansPrior.at3 nc nm nf, p.meansWeight.at2 nc nm⟩

/-- Whether the loop is not entered, or fails before the first step. -/
theorem loop_early (T : GmmType α nm) (X : XArr α) (ls : Option (List Int)) (e : Est α G (GmmAttrs α)) :
    ((gmmSub T).loopFrom X ls (estAsFloats e) =
        (((gmmSub T).loopFrom X ls e).1, estAsFloats ((gmmSub T).loopFrom X ls e).2) ∧
      (e.nIter ≠ 0 → ((gmmSub T).loopFrom X ls e).1 ≠ .ok ())) ∨
    ∃ (impl : Impl) (r : Ready (gmmSub T) e) (rows : List (Fin r.nf → α)),
      e.nIter ≠ 0 ∧ implOf e.implementation = .ok impl ∧ (gmmSub T).ready e = some r ∧ gaussRows r.nf X = .ok rows := by
  by_cases h0 : e.nIter = 0
  · left
    refine ⟨?_, fun h => absurd h0 h⟩
    unfold Sub.loopFrom
    rw [if_pos h0, if_pos (show (estAsFloats e).nIter = 0 from h0)]
  cases hi : implOf e.implementation with
  | error err =>
    left
    have h1 : (gmmSub T).loopFrom X ls e = (.error err, e) := by
      unfold Sub.loopFrom
      rw [if_neg h0, hi]
    have h2 : (gmmSub T).loopFrom X ls (estAsFloats e) = (.error err, estAsFloats e) := by
      unfold Sub.loopFrom
      rw [if_neg (show (estAsFloats e).nIter ≠ 0 from h0), show implOf (estAsFloats e).implementation = _ from hi]
    rw [h1, h2]
    exact ⟨rfl, fun _ h => by cases h⟩
  | ok impl =>
    have key : ∀ err : PyErr, (do let _ ← splitXLengths (List.replicate X.n ()) ls; .error err : Except PyErr Unit) ≠ .ok () := by
      intro err h
      cases hs : splitXLengths (List.replicate X.n ()) ls <;> rw [hs] at h <;> cases h
    cases hr : (gmmSub T).ready e with
    | none =>
      left
      have hr' := ready_floats T e
      rw [hr] at hr'
      have h1 : (gmmSub T).loopFrom X ls e = (do
          let _ ← splitXLengths (List.replicate X.n ()) ls
          .error (.valueError "array has incorrect number of dimensions"), e) := by
        unfold Sub.loopFrom
        rw [if_neg h0, hi]
        dsimp only
        rw [hr]
      have h2 : (gmmSub T).loopFrom X ls (estAsFloats e) = (do
          let _ ← splitXLengths (List.replicate X.n ()) ls
          .error (.valueError "array has incorrect number of dimensions"), estAsFloats e) := by
        unfold Sub.loopFrom
        rw [if_neg (show (estAsFloats e).nIter ≠ 0 from h0), show implOf (estAsFloats e).implementation = _ from hi]
        dsimp only
        rw [hr']
        rfl
      rw [h1, h2]
      exact ⟨rfl, fun _ => key _⟩
    | some r =>
      cases hx : gaussRows r.nf X with
      | error err =>
        left
        have hr' := ready_floats T e
        rw [hr] at hr'
        have h1 : (gmmSub T).loopFrom X ls e = (do
            let _ ← splitXLengths (List.replicate X.n ()) ls
            .error err, e) := by
          unfold Sub.loopFrom
          rw [if_neg h0, hi]
          dsimp only
          rw [hr]
          dsimp only
          rw [show (gmmSub (G := G) T).rows r.nf X = _ from hx]
        have h2 : (gmmSub T).loopFrom X ls (estAsFloats e) = (do
            let _ ← splitXLengths (List.replicate X.n ()) ls
            .error err, estAsFloats e) := by
          unfold Sub.loopFrom
          rw [if_neg (show (estAsFloats e).nIter ≠ 0 from h0), show implOf (estAsFloats e).implementation = _ from hi]
          dsimp only
          rw [hr', Option.map_some]
          dsimp only
          rw [show (gmmSub (G := G) T).rows r.nf X = _ from hx]
        rw [h1, h2]
        exact ⟨rfl, fun _ => key _⟩
      | ok rows => exact .inr ⟨impl, r, rows, h0, rfl, rfl, hx⟩

theorem loop_floats (T : GmmType α nm) (X : XArr α) (ls : Option (List Int)) (e : Est α G (GmmAttrs α))
    (hb : IntsAtWork e = false) :
    (gmmSub T).loopFrom X ls (estAsFloats e) =
      (((gmmSub T).loopFrom X ls e).1, estAsFloats ((gmmSub T).loopFrom X ls e).2) := by
  rcases loop_early T X ls e with h | ⟨impl, r, rows, h0, hi, hr, hx⟩
  · exact h.1
  have hr' := ready_floats T e
  rw [hr, Option.map_some] at hr'
  haveI : NeZero e.nComponents := ⟨r.pos⟩
  rw [loopFrom_ready h0 hi hr hx, loopFrom_ready (e := estAsFloats e) h0 hi hr' hx]
  have h1 : fitFrom ((gmmSub (G := G) T).emission e.sub e.nComponents r.nf) (e.config impl) rows ls r.θ e.monitor =
      fitFrom (gmmCore T e.sub e.nComponents r.nf) (e.config impl) rows ls r.θ e.monitor := by
    unfold fitFrom
    exact congrArg (fun s => fitLoop s _ _ _) (emStep_inPlace_ok (E := gmmCore T e.sub e.nComponents r.nf)
      (cfg := e.config impl) hb rows _)
  have h2 : fitFrom ((gmmSub (G := G) T).emission (estAsFloats e).sub e.nComponents r.nf) (e.config impl) rows ls r.θ
        e.monitor = fitFrom (gmmCore T e.sub e.nComponents r.nf) (e.config impl) rows ls r.θ e.monitor := by
    unfold fitFrom
    exact congrArg (fun s => fitLoop s _ _ _) (emStep_inPlace_ok (E := gmmCore T e.sub e.nComponents r.nf)
      (cfg := e.config impl) (mi := false) (ci := false) rfl rows _)
  have h3 := h2.trans h1.symm
  exact congrArg (fun o : FitOutcome α (Theta α e.nComponents (Gmm.Params α e.nComponents nm r.nf (T.C e.nComponents r.nf))) =>
    ((match o.raised with | none => .ok () | some err => .error err : Except PyErr Unit),
      (gmmSub (G := G) T).put (estAsFloats e) o.state o.monitor)) h3

omit [NeZero nm] in
theorem fitLoop_first {σ : Type} {step : σ → Except PyErr (σ × α)} {k : Nat} {n : Nat} (hn : n = k + 1) {s : σ} {mon : Monitor α}
    {err : PyErr} (h : step s = .error err) : fitLoop step n s mon = ⟨s, mon, some err⟩ := by
  subst hn
  unfold fitLoop
  rw [h]

/-- Integers stop the loop at its first step. -/
theorem loop_ints (T : GmmType α nm) (X : XArr α) (ls : Option (List Int)) (e : Est α G (GmmAttrs α))
    (hb : IntsAtWork e = true) (h0 : e.nIter ≠ 0) :
    ((gmmSub T).loopFrom X ls e).1 ≠ .ok () ∧
    (((gmmSub T).loopFrom X ls (estAsFloats e)).1 = .ok () → ∃ r : Ready (gmmSub T) e, (gmmSub T).ready e = some r ∧
      (gmmSub T).loopFrom X ls e = (.error .typeError, (gmmSub T).put e r.θ e.monitor.reset)) := by
  rcases loop_early T X ls e with h | ⟨impl, r, rows, h0, hi, hr, hx⟩
  · exact ⟨h.2 h0, fun h' => absurd (by rw [h.1] at h'; exact h') (h.2 h0)⟩
  have hr' := ready_floats T e
  rw [hr, Option.map_some] at hr'
  haveI : NeZero e.nComponents := ⟨r.pos⟩
  obtain ⟨k, hk⟩ := Nat.exists_eq_succ_of_ne_zero h0
  have hs := emStep_inPlace (E := gmmCore T e.sub e.nComponents r.nf) (cfg := e.config impl) hb rows
    (ls.getD [(rows.length : Int)]) r.θ
  have hstep : ∀ err, emStep ((gmmSub (G := G) T).emission e.sub e.nComponents r.nf) (e.config impl) rows
      (ls.getD [(rows.length : Int)]) r.θ = .error err →
      (gmmSub T).loopFrom X ls e = (.error err, (gmmSub T).put e r.θ e.monitor.reset) := by
    intro err herr
    have : fitFrom ((gmmSub (G := G) T).emission e.sub e.nComponents r.nf) (e.config impl) rows ls r.θ e.monitor =
        ⟨r.θ, e.monitor.reset, some err⟩ := fitLoop_first hk herr
    rw [loopFrom_ready h0 hi hr hx, this]
  constructor
  · cases he : emStep ((gmmSub (G := G) T).emission e.sub e.nComponents r.nf) (e.config impl) rows
      (ls.getD [(rows.length : Int)]) r.θ with
    | ok v => exact absurd he (hs.1 v)
    | error err => rw [hstep err he]; exact fun h => by cases h
  · intro hok
    refine ⟨r, hr, hstep _ (hs.2 ?_)⟩
    cases he : emStep (gmmCore T e.sub e.nComponents r.nf) (e.config impl) rows (ls.getD [(rows.length : Int)]) r.θ with
    | ok v => exact ⟨v, rfl⟩
    | error err =>
      exfalso
      rw [loopFrom_ready (e := estAsFloats e) h0 hi hr' hx] at hok
      have h1 : fitFrom ((gmmSub (G := G) T).emission (estAsFloats e).sub e.nComponents r.nf) (e.config impl) rows ls r.θ
          e.monitor = ⟨r.θ, e.monitor.reset, some err⟩ :=
        fitLoop_first hk ((congrFun (emStep_inPlace_ok (E := gmmCore T e.sub e.nComponents r.nf) (cfg := e.config impl)
          (mi := false) (ci := false) rfl rows (ls.getD [(rows.length : Int)])) r.θ).trans he)
      have h2 := congrArg (fun o : FitOutcome α (Theta α e.nComponents (Gmm.Params α e.nComponents nm r.nf
        (T.C e.nComponents r.nf))) => (match o.raised with | none => .ok () | some err => .error err : Except PyErr Unit)) h1
      cases h2.symm.trans hok

/-! ## `_init` and `_check` -/

omit [NeZero nm] in
theorem intsAtWork_iff {e e' : Est α G (GmmAttrs α)} (h1 : e'.params = e.params) (h2 : e'.sub.meansInt = e.sub.meansInt)
    (h3 : e'.sub.covarsInt = (if needsInit e.initParams 'c' e.sub.covars.isSome then false else e.sub.covarsInt)) :
    IntsAtWork e' = true ↔ AddsToInts e := by
  unfold IntsAtWork AddsToInts
  rw [h1, h2, h3]
  unfold needsInit
  cases hc : e.sub.covars <;> by_cases hi : 'c' ∈ e.initParams <;> simp [hi]

/-- What `_init` leaves. -/
theorem init_ints (T : GmmType α nm) (X : XArr α) {w w1 : World α G (GmmAttrs α)}
    (h : (gmmSub T).init R X w = (.ok (), w1)) :
    (IntsAtWork w1.est = true ↔ AddsToInts w.est) ∧ w1.est.nIter = w.est.nIter := by
  rcases Py.bind_cases h with ⟨_, w0, hb, h1⟩ | ⟨err, -, he⟩
  swap
  · cases he
  have hw0 : w0.est.params = w.est.params ∧ w0.est.sub = w.est.sub ∧ w0.est.initParams = w.est.initParams ∧
      w0.est.nIter = w.est.nIter := by
    cases hc : (gmmSub T).checkFeatures X w.est with
    | mk r e1 =>
      have he1 : e1 = { w.est with nFeatures := e1.nFeatures } := by
        have hc' : checkFeaturesBase X w.est = (r, e1) := hc
        unfold checkFeaturesBase at hc'
        split at hc'
        · split at hc' <;> · cases hc'; rfl
        · cases hc'; rfl
      cases r with
      | error err =>
        have : onEst ((gmmSub T).checkFeatures X) w = (.error err, ⟨e1, w.glob⟩) := by simp [onEst, hc]
        unfold Sub.initBase at hb
        rw [Py.bind_error this] at hb
        cases hb
      | ok u =>
        obtain ⟨rs, g, hq, -⟩ := initBase_eq (gmmSub T) R X w e1 hc
        rw [hq] at hb
        have := congrArg Prod.snd hb
        dsimp only at this
        rw [← this, he1]
        exact ⟨rfl, rfl, rfl, rfl⟩
  obtain ⟨e1, e2, e3, e4⟩ := hw0
  have h1 : gmmInit T R X w0 = (.ok (), w1) := h1
  rcases gmmInit_cases (R := R) T X w0 with ⟨err, -, hq⟩ | ⟨gs, gg, rs, g, hq, -, -⟩
  · rw [hq] at h1; cases h1
  dsimp only at hq
  rw [hq] at h1
  have h2 := congrArg Prod.snd h1
  dsimp only at h2
  obtain ⟨p1, p2⟩ := gmmPriors_ints T w0.est.nComponents (w0.est.nFeatures.getD 0) w0.est.sub
  obtain ⟨-, -, p3, -⟩ := gmmPriors_means T w0.est.nComponents (w0.est.nFeatures.getD 0) w0.est.sub
  rw [← h2]
  refine ⟨intsAtWork_iff e1 ?_ ?_, e4⟩
  · exact p1.trans (by rw [e2])
  · show (if needsInit w0.est.initParams 'c' _ then false else _) = _
    rw [p2, p3, e2, e3]

/-- `_check` changes none of it. -/
theorem check_ints (T : GmmType α nm) {e e' : Est α G (GmmAttrs α)} {r : Except PyErr Unit}
    (h : (gmmSub T).check e = (r, e')) :
    e'.params = e.params ∧ e'.nIter = e.nIter ∧ e'.startprob = e.startprob ∧ e'.transmat = e.transmat ∧
      IntsAtWork e' = IntsAtWork e ∧ e'.sub.weights = e.sub.weights ∧ e'.sub.means = e.sub.means ∧
      e'.sub.covars = e.sub.covars := by
  rw [Sub.check_eq] at h
  cases hb : checkBase e with
  | error err =>
    rw [hb] at h
    cases h
    exact ⟨rfl, rfl, rfl, rfl, rfl, rfl, rfl, rfl⟩
  | ok u =>
    rw [hb] at h
    have h : gmmCheck T e = (r, e') := h
    cases hf : gmmCheckFeatures e with
    | error err =>
      rw [gmmCheck_error T e hf] at h
      cases h
      exact ⟨rfl, rfl, rfl, rfl, rfl, rfl, rfl, rfl⟩
    | ok nf =>
      rw [gmmCheck_eq T e hf] at h
      cases h
      obtain ⟨p1, p2⟩ := gmmPriors_ints T e.nComponents nf e.sub
      obtain ⟨p3, p4, p5, -⟩ := gmmPriors_means T e.nComponents nf e.sub
      refine ⟨rfl, rfl, rfl, rfl, ?_, p4, p3, p5⟩
      unfold IntsAtWork
      dsimp only
      rw [p1, p2]

/-! ## What is stored -/

omit [FloatLike α] [NeZero nm] in
theorem asRow_inv {n : Nat} {a : NdArray α} {v : Fin n → α} (h : asRow n a = some v) : a = .d1 v := by
  cases a with
  | @d1 m u =>
    unfold asRow at h
    dsimp only at h
    split at h
    · next hm => subst hm; cases h; rfl
    · cases h
  | _ => cases h

omit [FloatLike α] [NeZero nm] in
theorem asMat_inv {m n : Nat} {a : NdArray α} {v : Fin m → Fin n → α} (h : asMat m n a = some v) : a = .d2 v := by
  cases a with
  | @d2 m' n' u =>
    unfold asMat at h
    dsimp only at h
    split at h
    · next hm => obtain ⟨rfl, rfl⟩ := hm; cases h; rfl
    · cases h
  | _ => cases h

section
variable {k l m n : Nat} {t : Tensor α}

omit [NeZero nm]

theorem sameArray_of2 (h : t.shape = [m, n]) : SameArray t (.of2 (t.at2 m n)) := by
  refine ⟨h.symm, fun idx hl hk => ?_⟩
  rw [h] at hl hk
  match idx, hl with
  | [i, j], _ =>
    have h1 : i < m := hk 0 (by simp)
    have h2 : j < n := hk 1 (by simp)
    exact dif_pos ⟨h1, h2⟩

theorem sameArray_of3 (h : t.shape = [l, m, n]) : SameArray t (.of3 (t.at3 l m n)) := by
  refine ⟨h.symm, fun idx hl hk => ?_⟩
  rw [h] at hl hk
  match idx, hl with
  | [i, j, a], _ =>
    have h1 : i < l := hk 0 (by simp)
    have h2 : j < m := hk 1 (by simp)
    have h3 : a < n := hk 2 (by simp)
    exact dif_pos ⟨h1, h2, h3⟩

theorem sameArray_of4 (h : t.shape = [k, l, m, n]) : SameArray t (.of4 (t.at4 k l m n)) := by
  refine ⟨h.symm, fun idx hl hk => ?_⟩
  rw [h] at hl hk
  match idx, hl with
  | [i, j, a, b], _ =>
    have h1 : i < k := hk 0 (by simp)
    have h2 : j < l := hk 1 (by simp)
    have h3 : a < m := hk 2 (by simp)
    have h4 : b < n := hk 3 (by simp)
    exact dif_pos ⟨⟨h1, h2⟩, h3, h4⟩

end

/-- Reading the covariances and storing them again changes nothing. -/
def RoundTrips (T : GmmType α nm) : Prop :=
  ∀ nc nf (t : Tensor α), t.shape = T.shape nc nf → SameArray t (T.write (T.read nc nf t))

omit [NeZero nm] in
theorem roundTrips_spherical : RoundTrips (gmmSpherical (α := α) (nm := nm)) := fun _ _ _ h => sameArray_of2 h
omit [NeZero nm] in
theorem roundTrips_diag : RoundTrips (gmmDiag (α := α) (nm := nm)) := fun _ _ _ h => sameArray_of3 h
omit [NeZero nm] in
theorem roundTrips_full (eig : Eigvalsh α) : RoundTrips (gmmFull (nm := nm) eig) := fun _ _ _ h => sameArray_of4 h
omit [NeZero nm] in
theorem roundTrips_tied (eig : Eigvalsh α) : RoundTrips (gmmTied (nm := nm) eig) := fun _ _ _ h => sameArray_of3 h

theorem put_ready {T : GmmType α nm} (hT : RoundTrips T) {e : Est α G (GmmAttrs α)} {r : Ready (gmmSub T) e}
    (hr : (gmmSub T).ready e = some r) (mon : Monitor α) : SameModel e ((gmmSub T).put e r.θ mon) := by
  unfold Sub.ready at hr
  split at hr
  · cases hr
  · split at hr
    · cases hr
    · next nf hn =>
      simp only [bind, Option.bind_eq_some_iff] at hr
      obtain ⟨sp, h1, π, h2, tm, h3, A, h4, q, h5, hr⟩ := hr
      simp only [pure, Option.some.injEq] at hr
      subst hr
      have h5 : (do
        let w ← e.sub.weights
        let m ← e.sub.means
        let c ← e.sub.covars
        if w.shape = [e.nComponents, nm] ∧ m.shape = [e.nComponents, nm, nf] ∧ c.shape = T.shape e.nComponents nf then
          some (⟨w.at2 e.nComponents nm, m.at3 e.nComponents nm nf, T.read e.nComponents nf c⟩ :
            Gmm.Params α e.nComponents nm nf (T.C e.nComponents nf))
        else none) = some q := h5
      simp only [bind, Option.bind_eq_some_iff] at h5
      obtain ⟨wt, e1, mt, e2, ct, e3, h6⟩ := h5
      split at h6
      · next hs =>
        cases h6
        refine ⟨?_, ?_, ⟨wt, _, e1, rfl, sameArray_of2 hs.1⟩, ⟨mt, _, e2, rfl, sameArray_of3 hs.2.1⟩,
          ⟨ct, _, e3, rfl, hT _ _ _ hs.2.2⟩⟩
        · rw [h1, asRow_inv h2]; rfl
        · rw [h3, asMat_inv h4]; rfl
      · cases h6

/-- `fit` with at least one iteration does not return. -/
theorem fit_refused (T : GmmType α nm) (X : RawX α) (ls : Option (List Int)) (w : World α G (GmmAttrs α))
    (h : AddsToInts w.est) (h0 : w.est.nIter ≠ 0) : ((gmmSub T).fit R X ls w).1 ≠ .ok () := by
  intro hok
  unfold Sub.fit at hok
  cases hX : checkArray X with
  | error err => rw [hX] at hok; cases hok
  | ok X' =>
    rw [hX, Py.bind_ok (show Py.lift (.ok X') w = (.ok X', w) from rfl)] at hok
    cases hi : (gmmSub T).init R X' w with
    | mk r w1 =>
      cases r with
      | error err => rw [Py.bind_error hi] at hok; cases hok
      | ok u =>
        rw [Py.bind_ok hi] at hok
        obtain ⟨h1, h2⟩ := init_ints T X' hi
        cases hc : (gmmSub T).check w1.est with
        | mk r e2 =>
          obtain ⟨-, c2, -, -, c5, -⟩ := check_ints T hc
          have hc' : onEst (gmmSub T).check w1 = (r, ⟨e2, w1.glob⟩) := by simp [onEst, hc]
          cases r with
          | error err => rw [Py.bind_error hc'] at hok; cases hok
          | ok u =>
            rw [Py.bind_ok hc'] at hok
            exact (loop_ints T X' ls { e2 with monitor := e2.monitor.reset } (c5.trans (h1.2 h))
              (by show e2.nIter ≠ 0; rw [c2, h2]; exact h0)).1 hok

/-- If the same call succeeds with floating-point arrays of the same values, it raises `TypeError`, and the
object holds the parameters that `_init` left. -/
theorem fit_type_error {T : GmmType α nm} (hT : RoundTrips T) (X : RawX α) (ls : Option (List Int))
    (w : World α G (GmmAttrs α)) (h : AddsToInts w.est) (h0 : w.est.nIter ≠ 0)
    (hok : ((gmmSub T).fit R X ls (asFloats w)).1 = .ok ()) :
    ((gmmSub T).fit R X ls w).1 = .error .typeError ∧ ∃ X', checkArray X = .ok X' ∧
      SameModel ((gmmSub T).init R X' w).2.est ((gmmSub T).fit R X ls w).2.est ∧
      ((gmmSub T).fit R X ls w).2.est.monitor.history = [] := by
  unfold Sub.fit at hok ⊢
  cases hX : checkArray X with
  | error err => rw [hX] at hok; cases hok
  | ok X' =>
    rw [hX, Py.bind_ok (show Py.lift (.ok X') (asFloats w) = (.ok X', _) from rfl)] at hok
    rw [Py.bind_ok (show Py.lift (.ok X') w = (.ok X', w) from rfl)]
    cases hi : (gmmSub T).init R X' w with
    | mk r w1 =>
      have hi' := comm_init_floats (R := R) T X' w
      rw [hi] at hi'
      cases r with
      | error err => rw [Py.bind_error hi'] at hok; cases hok
      | ok u =>
        rw [Py.bind_ok hi'] at hok
        rw [Py.bind_ok hi]
        obtain ⟨h1, h2⟩ := init_ints T X' hi
        cases hc : (gmmSub T).check w1.est with
        | mk r e2 =>
          obtain ⟨-, c2, c3, c4, c5, c6, c7, c8⟩ := check_ints T hc
          have hc' : onEst (gmmSub T).check w1 = (r, ⟨e2, w1.glob⟩) := by simp [onEst, hc]
          have hc'' := comm_onEst_floats (comm_check_floats T) w1
          rw [hc'] at hc''
          cases r with
          | error err => rw [Py.bind_error hc''] at hok; cases hok
          | ok u =>
            rw [Py.bind_ok hc''] at hok
            rw [Py.bind_ok hc']
            obtain ⟨r, hr, hl⟩ := (loop_ints T X' ls { e2 with monitor := e2.monitor.reset } (c5.trans (h1.2 h))
              (by show e2.nIter ≠ 0; rw [c2, h2]; exact h0)).2 hok
            have hl' : onEst ((gmmSub T).loop X' ls) ⟨e2, w1.glob⟩ = (.error .typeError,
                ⟨(gmmSub T).put { e2 with monitor := e2.monitor.reset } r.θ e2.monitor.reset.reset, w1.glob⟩) := by
              unfold onEst Sub.loop
              dsimp only
              rw [hl]
            rw [hl']
            refine ⟨rfl, X', rfl, ?_, rfl⟩
            rw [hi]
            have hs := put_ready hT hr e2.monitor.reset.reset
            refine ⟨hs.startprob.trans c3, hs.transmat.trans c4, ?_, ?_, ?_⟩
            · obtain ⟨t, t', a1, a2, a3⟩ := hs.weights; exact ⟨t, t', c6.symm.trans a1, a2, a3⟩
            · obtain ⟨t, t', a1, a2, a3⟩ := hs.means; exact ⟨t, t', c7.symm.trans a1, a2, a3⟩
            · obtain ⟨t, t', a1, a2, a3⟩ := hs.covars; exact ⟨t, t', c8.symm.trans a1, a2, a3⟩

/-! ## The claims -/

theorem C98_spherical : IntsStopFit (gmmSub (gmmSpherical (α := α) (nm := nm))) R :=
  fun X ls w h h0 => ⟨fit_refused _ X ls w h h0, fit_type_error roundTrips_spherical X ls w h h0⟩

theorem C98_diag : IntsStopFit (gmmSub (gmmDiag (α := α) (nm := nm))) R :=
  fun X ls w h h0 => ⟨fit_refused _ X ls w h h0, fit_type_error roundTrips_diag X ls w h h0⟩

theorem C98_full (eig : Eigvalsh α) : IntsStopFit (gmmSub (gmmFull (nm := nm) eig)) R :=
  fun X ls w h h0 => ⟨fit_refused _ X ls w h h0, fit_type_error (roundTrips_full eig) X ls w h h0⟩

theorem C98_tied (eig : Eigvalsh α) : IntsStopFit (gmmSub (gmmTied (nm := nm) eig)) R :=
  fun X ls w h h0 => ⟨fit_refused _ X ls w h h0, fit_type_error (roundTrips_tied eig) X ls w h h0⟩

/-- In all other cases the types do not matter. -/
theorem C98_otherwise (T : GmmType α nm) (X : RawX α) (ls : Option (List Int)) (w : World α G (GmmAttrs α))
    (h : ¬ AddsToInts w.est ∨ w.est.nIter = 0) :
    (gmmSub T).fit R X ls (asFloats w) = (((gmmSub T).fit R X ls w).1, asFloats ((gmmSub T).fit R X ls w).2) := by
  unfold Sub.fit
  cases hX : checkArray X with
  | error err => rfl
  | ok X' =>
    rw [Py.bind_ok (show Py.lift (.ok X') (asFloats w) = (.ok X', _) from rfl),
      Py.bind_ok (show Py.lift (.ok X') w = (.ok X', w) from rfl)]
    have hi' := comm_init_floats (R := R) T X' w
    cases hi : (gmmSub T).init R X' w with
    | mk r w1 =>
      rw [hi] at hi'
      cases r with
      | error err => rw [Py.bind_error hi', Py.bind_error hi]
      | ok u =>
        rw [Py.bind_ok hi', Py.bind_ok hi]
        obtain ⟨h1, h2⟩ := init_ints T X' hi
        have hc'' := comm_onEst_floats (comm_check_floats T) w1
        cases hc : (gmmSub T).check w1.est with
        | mk r e2 =>
          obtain ⟨-, c2, -, -, c5, -⟩ := check_ints T hc
          have hc' : onEst (gmmSub T).check w1 = (r, ⟨e2, w1.glob⟩) := by simp [onEst, hc]
          rw [hc'] at hc''
          cases r with
          | error err => rw [Py.bind_error hc'', Py.bind_error hc']
          | ok u =>
            rw [Py.bind_ok hc'', Py.bind_ok hc']
            have key : (gmmSub T).loopFrom X' ls (estAsFloats { e2 with monitor := e2.monitor.reset }) =
                (((gmmSub T).loopFrom X' ls { e2 with monitor := e2.monitor.reset }).1,
                  estAsFloats ((gmmSub T).loopFrom X' ls { e2 with monitor := e2.monitor.reset }).2) := by
              rcases h with h | h
              · refine loop_floats T X' ls _ ?_
                rw [← Bool.not_eq_true]
                exact fun hb => h (h1.1 (c5.symm.trans hb))
              · have hn : e2.nIter = 0 := by rw [c2, h2, h]
                unfold Sub.loopFrom
                rw [if_pos (show (estAsFloats { e2 with monitor := e2.monitor.reset }).nIter = 0 from hn),
                  if_pos (show ({ e2 with monitor := e2.monitor.reset } : Est α G (GmmAttrs α)).nIter = 0 from hn)]
            show ((_, _) : Except PyErr Unit × World α G (GmmAttrs α)) = _
            exact congrArg (fun q : Except PyErr Unit × Est α G (GmmAttrs α) => (q.1, (⟨q.2, w1.glob⟩ : World α G (GmmAttrs α)))) key

end Verif
