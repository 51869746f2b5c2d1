import Verif.Spec.VCalls
import Verif.Props.Sampling
import Verif.Props.VGaussFit

/-!
# C80: calls on a variational estimator
-/

set_option autoImplicit false

namespace Verif
open FloatLike Spec

variable {α G Q : Type} [FloatLike α]

/-! ## `checkFitted` -/

/-- What `_check` of a variational class may do. -/
structure VSub.Lawful (V : VSub α G Q) : Prop where
  frame : ∀ e, (V.check e).2 = { e with nFeatures := (V.check e).2.nFeatures, sub := (V.check e).2.sub }
  idem : ∀ e, V.check (V.check e).2 = V.check e
  seed : ∀ e rs, V.check { e with randomState := rs } = ((V.check e).1, { (V.check e).2 with randomState := rs })

theorem VSub.checkFitted_eq (V : VSub α G Q) (e : VEst α G Q) : V.checkFitted e =
    if e.startprob.isNone then (.error .notFitted, e) else V.check e := by
  simp only [VSub.checkFitted, Py.bind_apply, Py.get_apply]
  split <;> rfl

theorem VSub.Lawful.fitted_frame {V : VSub α G Q} (h : V.Lawful) (e : VEst α G Q) :
    (V.checkFitted e).2 = { e with nFeatures := (V.checkFitted e).2.nFeatures, sub := (V.checkFitted e).2.sub } := by
  rw [V.checkFitted_eq]
  split
  · rfl
  · exact h.frame e

theorem VSub.Lawful.fitted_idem {V : VSub α G Q} (h : V.Lawful) (e : VEst α G Q) :
    V.checkFitted (V.checkFitted e).2 = V.checkFitted e := by
  have hs : (V.checkFitted e).2.startprob = e.startprob := by rw [h.fitted_frame]
  rw [V.checkFitted_eq (V.checkFitted e).2, hs, V.checkFitted_eq e]
  split
  · rfl
  · exact h.idem e

theorem VSub.Lawful.fitted_seed {V : VSub α G Q} (h : V.Lawful) (e : VEst α G Q) (rs : RandomState G) :
    V.checkFitted { e with randomState := rs } = ((V.checkFitted e).1, { (V.checkFitted e).2 with randomState := rs }) := by
  rw [V.checkFitted_eq, V.checkFitted_eq e]
  split
  · rfl
  · exact h.seed e rs

theorem vcatSub_lawful (sci : Sci α) : (vcatSub (α := α) (G := G) sci).Lawful := by
  refine ⟨fun e => ?_, fun e => ?_, fun e rs => ?_⟩
  · change (vcatCheck e).2 = { e with nFeatures := (vcatCheck e).2.nFeatures, sub := (vcatCheck e).2.sub }
    cases h0 : vcheckBase e with
    | error err => simp only [vcatCheck, h0]
    | ok u =>
      cases h1 : e.sub.sub.emPrior with
      | none => simp only [vcatCheck, h0, h1]
      | some pr =>
        cases h2 : e.sub.sub.emPost with
        | none => simp only [vcatCheck, h0, h1, h2]
        | some po =>
          simp only [vcatCheck, h0, h1, h2]
          split
          · rfl
          · split <;> split <;> rfl
  · change vcatCheck (vcatCheck e).2 = vcatCheck e
    have hb : ∀ (nf : Option ℕ) (p : VCatAttrs α),
        vcheckBase { e with nFeatures := nf, sub := { e.sub with sub := p } } = vcheckBase e := fun _ _ => rfl
    cases h0 : vcheckBase e with
    | error err => simp [vcatCheck, h0]
    | ok u =>
      cases h1 : e.sub.sub.emPrior with
      | none => simp [vcatCheck, h0, h1]
      | some pr =>
        cases h2 : e.sub.sub.emPost with
        | none =>
          have := hb e.nFeatures { e.sub.sub with emPrior := some (atleast2d pr) }
          simp only [h0, h2] at this
          simp [vcatCheck, h0, h1, h2, this]
        | some po =>
          by_cases hs : (atleast2d pr).shape = (atleast2d po).shape
          · cases hn : e.nFeatures with
            | none =>
              obtain ⟨m, n, l, hm⟩ := atleast2d_shape po
              have := hb (some n) { e.sub.sub with emPrior := some (atleast2d pr), emPost := some (atleast2d po) }
              rw [h0] at this
              by_cases hc : m :: n :: l = [e.nComponents, n]
              · simp [vcatCheck, h0, h1, h2, hs, hn, hm, hc, this]
              · simp [vcatCheck, h0, h1, h2, hs, hn, hm, hc, this]
            | some k =>
              have := hb (some k) { e.sub.sub with emPrior := some (atleast2d pr), emPost := some (atleast2d po) }
              rw [h0] at this
              by_cases hc : (atleast2d po).shape = [e.nComponents, k]
              · simp [vcatCheck, h0, h1, h2, hs, hn, hc, this]
              · simp [vcatCheck, h0, h1, h2, hs, hn, hc, this]
          · have := hb e.nFeatures { e.sub.sub with emPrior := some (atleast2d pr), emPost := some (atleast2d po) }
            rw [h0] at this
            simp [vcatCheck, h0, h1, h2, hs, this]
  · change vcatCheck { e with randomState := rs } = ((vcatCheck e).1, { (vcatCheck e).2 with randomState := rs })
    have hb : vcheckBase { e with randomState := rs } = vcheckBase e := rfl
    cases h0 : vcheckBase e with
    | error err =>
      rw [h0] at hb
      simp only [vcatCheck, hb, h0]
    | ok u =>
      rw [h0] at hb
      cases h1 : e.sub.sub.emPrior with
      | none => simp only [vcatCheck, hb, h0, h1]
      | some pr =>
        cases h2 : e.sub.sub.emPost with
        | none => simp only [vcatCheck, hb, h0, h1, h2]
        | some po =>
          simp only [vcatCheck, hb, h0, h1, h2]
          split
          · rfl
          · split <;> split <;> rfl

theorem vgaussSub_lawful (L : VLayout α G) (sci : Sci α) (eig : Eigvalsh α) : (vgaussSub L sci eig).Lawful :=
  ⟨fun _ => rfl, fun _ => rfl, fun _ _ => rfl⟩

/-! ## Inference calls -/

theorem vcheckedThen {β : Type} (V : VSub α G Q) (k : VEst α G Q → Except PyErr β) (e : VEst α G Q)
    (m : Py (VEst α G Q) β) (hm : m = (do V.checkFitted; let e ← Py.get; Py.lift (k e))) :
    m e = ((V.checkFitted e).1.bind fun _ => k (V.checkFitted e).2, (V.checkFitted e).2) := by
  subst hm
  rw [Py.bind_apply]
  cases h : V.checkFitted e with
  | mk r e' => cases r <;> rfl

theorem withModel_reseed {P β : Type} (S : Sub α G P) (e : Est α G P) (rs : RandomState G) (impl : Impl) (X : XArr α)
    (ls : Option (List Int)) (k : {nc : ℕ} → {Obs : Type} → [NeZero nc] → Hmm α nc Obs → List Obs → Except PyErr β) :
    S.withModel (e.reseed rs) impl X ls k = S.withModel e impl X ls k := by
  unfold Sub.withModel
  rw [ready_reseed]
  cases S.ready e with
  | none => rfl
  | some r =>
    simp only [Option.map]
    cases S.rows r.nf X <;> rfl

/-- Every inference call leaves the state produced by `checkFitted`, and answers as a function of it that does not
look at `random_state`. -/
theorem vcall_eq (V : VSub α G Q) (R : RandomLib α G) (c : Call α) :
    ∃ f : Except PyErr Unit × VEst α G Q → Except PyErr (Answer V.core), (∀ r e rs, f (r, e.reseed rs) = f (r, e)) ∧
      (∀ err e, f (.error err, e) = .error err) ∧ ∀ w : World α G (VAttrs α Q),
      c.vrun V R w = (f (V.checkFitted w.est), { w with est := (V.checkFitted w.est).2 }) := by
  have est : ∀ {β : Type} (m : Py (VEst α G Q) β) (k : VEst α G Q → Except PyErr β)
      (_ : ∀ e rs, k (e.reseed rs) = k e)
      (_ : m = (do V.checkFitted; let e ← Py.get; Py.lift (k e))) (g : β → Answer V.core),
      ∃ f : Except PyErr Unit × VEst α G Q → Except PyErr (Answer V.core), (∀ r e rs, f (r, e.reseed rs) = f (r, e)) ∧
        (∀ err e, f (.error err, e) = .error err) ∧
        ∀ w : World α G (VAttrs α Q), (do let r ← onEst m; return g r : Py (World α G (VAttrs α Q)) (Answer V.core)) w =
          (f (V.checkFitted w.est), { w with est := (V.checkFitted w.est).2 }) := by
    intro β m k hk hm g
    refine ⟨fun p => (p.1.bind fun _ => k p.2).map g, fun r e rs => by simp only [hk], fun err e => rfl, fun w => ?_⟩
    rw [Py.bind_apply]
    simp only [onEst, vcheckedThen V k w.est m hm]
    cases (V.checkFitted w.est).1.bind fun _ => k (V.checkFitted w.est).2 <;> rfl
  have score : ∀ X ls post, ∃ k : VEst α G Q → Except PyErr (α × List (List α)), (∀ e rs, k (e.reseed rs) = k e) ∧
      V.scoreSamples X ls post = (do V.checkFitted; let e ← Py.get; Py.lift (k e)) := by
    intro X ls post
    refine ⟨fun e => (checkArray X).bind fun X => (implOf e.implementation).bind fun impl =>
      V.core.withModel e impl X ls fun m rows =>
        (scoreCore m rows ls post).map fun r => (r.1, r.2.map List.ofFn), fun e rs => ?_, ?_⟩
    · simp only [withModel_reseed]
      rfl
    · unfold VSub.scoreSamples Sub.scoreBody
      congr 1; funext _; congr 1; funext e
      simp only [lift_bind]
  have decode : ∀ X ls a, ∃ k : VEst α G Q → Except PyErr (α × List Nat), (∀ e rs, k (e.reseed rs) = k e) ∧
      V.decode X ls a = (do V.checkFitted; let e ← Py.get; Py.lift (k e)) := by
    intro X ls a
    refine ⟨fun e => (algOf (pyOr a e.algorithm)).bind fun alg => (checkArray X).bind fun X =>
      match alg with
      | .viterbi => V.core.withModel e .log X ls fun m rows =>
          (Verif.decode m .viterbi rows ls).map fun r => (r.1, r.2.map Fin.val)
      | .map =>
        match implOf e.implementation with
        | .error err => do
            let _ ← splitXLengths (List.replicate X.n ()) ls
            .error err
        | .ok impl => V.core.withModel e impl X ls fun m rows =>
            (Verif.decode m .map rows ls).map fun r => (r.1, r.2.map Fin.val), fun e rs => ?_, ?_⟩
    · simp only [withModel_reseed]
      rfl
    · unfold VSub.decode Sub.decodeBody
      congr 1; funext _; congr 1; funext e
      simp only [← lift_bind]
      congr 1; funext alg; congr 1; funext X
      cases alg with
      | viterbi => rfl
      | map => cases implOf e.implementation <;> rfl
  cases c with
  | score X ls =>
    obtain ⟨k, hr, hk⟩ := score X ls false
    refine est (V.score X ls) (fun e => (k e).map Prod.fst) (fun e rs => by rw [hr]) ?_ Answer.float
    funext e
    rw [vcheckedThen V (fun e => (k e).map Prod.fst) e _ rfl]
    show (V.scoreSamples X ls false >>= fun r => pure r.1) e = _
    rw [Py.bind_apply, vcheckedThen V k e _ hk]
    cases (V.checkFitted e).1 with
    | error err => rfl
    | ok _ => cases hk2 : k (V.checkFitted e).2 <;> simp [Except.bind, hk2, Except.map]
  | scoreSamples X ls =>
    obtain ⟨k, hr, hk⟩ := score X ls true
    exact est (V.scoreSamples X ls true) k hr hk fun r => .floatAndRows r.1 r.2
  | predictProba X ls =>
    obtain ⟨k, hr, hk⟩ := score X ls true
    refine est (V.predictProba X ls) (fun e => (k e).map Prod.snd) (fun e rs => by rw [hr]) ?_ Answer.rows
    funext e
    rw [vcheckedThen V (fun e => (k e).map Prod.snd) e _ rfl]
    show (V.scoreSamples X ls true >>= fun r => pure r.2) e = _
    rw [Py.bind_apply, vcheckedThen V k e _ hk]
    cases (V.checkFitted e).1 with
    | error err => rfl
    | ok _ => cases hk2 : k (V.checkFitted e).2 <;> simp [Except.bind, hk2, Except.map]
  | decode X ls a =>
    obtain ⟨k, hr, hk⟩ := decode X ls a
    exact est (V.decode X ls a) k hr hk fun r => .floatAndStates r.1 r.2
  | predict X ls =>
    obtain ⟨k, hr, hk⟩ := decode X ls none
    refine est (V.predict X ls) (fun e => (k e).map Prod.snd) (fun e rs => by rw [hr]) ?_ Answer.states
    funext e
    rw [vcheckedThen V (fun e => (k e).map Prod.snd) e _ rfl]
    show (V.decode X ls none >>= fun r => pure r.2) e = _
    rw [Py.bind_apply, vcheckedThen V k e _ hk]
    cases (V.checkFitted e).1 with
    | error err => rfl
    | ok _ => cases hk2 : k (V.checkFitted e).2 <;> simp [Except.bind, hk2, Except.map]
  | sample n seed cur =>
    refine ⟨fun p => p.1.bind fun _ => ((V.core.sampleFrom R p.2 n cur (R.ofSeed seed)).1.map fun r =>
      .samples r.1 r.2.1 r.2.2), fun r e rs => by simp only [sampleFrom_reseed], fun err e => rfl, fun w => ?_⟩
    simp only [Call.vrun, VSub.sample, Sub.sampleBody, Py.bind_apply, onEst, Py.get_apply, Py.lift_apply, Py.pure_apply]
    cases h1 : (V.checkFitted w.est).1 with
    | error err => rfl
    | ok u =>
      simp only [Except.bind]
      cases h2 : (V.core.sampleFrom R (V.checkFitted w.est).2 n cur (R.ofSeed seed)).1 <;> rfl

theorem vsample_unseeded (V : VSub α G Q) (R : RandomLib α G) (n : Int) (cur : Option Nat)
    (w : World α G (VAttrs α Q)) : ∃ rs g, (V.sample R n none cur w).2 = ⟨(V.checkFitted w.est).2.reseed rs, g⟩ := by
  simp only [VSub.sample, Sub.sampleBody, Py.bind_apply, onEst, Py.get_apply]
  cases h1 : (V.checkFitted w.est).1 with
  | error err => exact ⟨_, _, rfl⟩
  | ok u =>
    simp only [withSelfGen]
    cases h2 : (V.checkFitted w.est).2.randomState with
    | none => exact ⟨_, _, rfl⟩
    | global => exact ⟨_, _, rfl⟩
    | seed k => exact ⟨_, _, rfl⟩
    | gen g => exact ⟨_, _, rfl⟩

theorem vafter_eq {V : VSub α G Q} (hV : V.Lawful) (R : RandomLib α G) (as : List (Action α))
    (w : World α G (VAttrs α Q)) (has : ∀ a ∈ as, ∀ X ls, a ≠ .fit X ls) : ∃ rs g,
      vafterActions V R as w = ⟨w.est.reseed rs, g⟩ ∨ vafterActions V R as w = ⟨(V.checkFitted w.est).2.reseed rs, g⟩ := by
  induction as generalizing w with
  | nil => exact ⟨w.est.randomState, w.glob, .inl rfl⟩
  | cons a as ih =>
    have key : ∃ rs g, a.vafter V R w = ⟨(V.checkFitted w.est).2.reseed rs, g⟩ := by
      cases a with
      | fit X ls => exact absurd rfl (has _ List.mem_cons_self X ls)
      | infer c =>
        obtain ⟨f, -, -, hf⟩ := vcall_eq V R c
        refine ⟨(V.checkFitted w.est).2.randomState, w.glob, ?_⟩
        show (c.vrun V R w).2 = _
        rw [hf]
        rfl
      | sample n c => exact vsample_unseeded V R n c w
    obtain ⟨rs, g, hk⟩ := key
    obtain ⟨rs', g', h⟩ := ih (a.vafter V R w) fun b hb => has b (List.mem_cons_of_mem _ hb)
    refine ⟨rs', g', .inr ?_⟩
    show vafterActions V R as (a.vafter V R w) = _
    rcases h with h | h
    · rw [h, hk]; rfl
    · rw [h, hk]
      show (⟨(V.checkFitted (Est.reseed rs (V.checkFitted w.est).2)).2.reseed rs', g'⟩ : World α G (VAttrs α Q)) = _
      have := hV.fitted_seed (V.checkFitted w.est).2 rs
      have h2 : V.checkFitted (Est.reseed rs (V.checkFitted w.est).2) = _ := this
      rw [h2, hV.fitted_idem]
      rfl

theorem vpure_of_lawful {V : VSub α G Q} (hV : V.Lawful) (R : RandomLib α G) : VInferenceIsPure V R := by
  intro c as w rs g has
  obtain ⟨f, hf1, -, hf⟩ := vcall_eq V R c
  have h1 : ∀ (e : VEst α G Q) rs, f (V.checkFitted (e.reseed rs)) = f (V.checkFitted e) := by
    intro e rs
    have : V.checkFitted (e.reseed rs) = _ := hV.fitted_seed e rs
    rw [this]
    exact hf1 _ _ rs
  have h2 : ∀ e : VEst α G Q, f (V.checkFitted (V.checkFitted e).2) = f (V.checkFitted e) := by
    intro e; rw [hV.fitted_idem]
  obtain ⟨rs', g', h | h⟩ := vafter_eq hV R as ⟨{ w.est with randomState := rs }, g⟩ has
  · rw [h, hf, hf]
    exact (h1 _ rs').trans (h1 w.est rs)
  · rw [h, hf, hf]
    exact (h1 _ rs').trans ((h2 _).trans (h1 w.est rs))

/-- **C80** `VariationalCategoricalHMM`: inference, and `sample` with a seed, answer as in isolation after any history
without `fit`, whatever generators are held. -/
theorem C80_pure_categorical (sci : Sci α) (R : RandomLib α G) : VInferenceIsPure (vcatSub (G := G) sci) R :=
  vpure_of_lawful (vcatSub_lawful sci) R

/-- **C80** The same for `VariationalGaussianHMM`, for each covariance type. -/
theorem C80_pure_gaussian (L : VLayout α G) (sci : Sci α) (eig : Eigvalsh α) (R : RandomLib α G) :
    VInferenceIsPure (vgaussSub L sci eig) R := vpure_of_lawful (vgaussSub_lawful L sci eig) R

/-- **C80** Without `fit` nothing of a `VariationalGaussianHMM` changes but its generator. -/
theorem C80_keeps_gaussian (L : VLayout α G) (sci : Sci α) (eig : Eigvalsh α) (R : RandomLib α G) (as : List (Action α))
    (w : World α G (VAttrs α (VGaussAttrs α))) (has : ∀ a ∈ as, ∀ X ls, a ≠ .fit X ls) : ∃ rs,
      (vafterActions (vgaussSub L sci eig) R as w).est = { w.est with randomState := rs } := by
  obtain ⟨rs, g, h | h⟩ := vafter_eq (vgaussSub_lawful L sci eig) R as w has
  · exact ⟨rs, by rw [h]; rfl⟩
  · refine ⟨rs, ?_⟩
    rw [h, VSub.checkFitted_eq]
    show Est.reseed rs (if w.est.startprob.isNone then _ else _ : Except PyErr Unit × _).2 = _
    split <;> rfl

/-- **C80** Without `fit` nothing of a `VariationalCategoricalHMM` changes but its generator, the emission
concentrations, of which a 0-d or 1-d array is turned into the equivalent 2-d array, and an unset `n_features`. -/
theorem C80_keeps_categorical (sci : Sci α) (R : RandomLib α G) (as : List (Action α))
    (w : World α G (VAttrs α (VCatAttrs α))) (has : ∀ a ∈ as, ∀ X ls, a ≠ .fit X ls) : ∃ rs nf a b,
      (vafterActions (vcatSub sci) R as w).est = { w.est with
        randomState := rs, nFeatures := nf, sub := { w.est.sub with sub := { w.est.sub.sub with emPrior := a, emPost := b } } } ∧
      (nf = w.est.nFeatures ∨ w.est.nFeatures = none) ∧
      (a = w.est.sub.sub.emPrior ∨ a = w.est.sub.sub.emPrior.map atleast2d) ∧
      (b = w.est.sub.sub.emPost ∨ b = w.est.sub.sub.emPost.map atleast2d) := by
  obtain ⟨rs, g, h | h⟩ := vafter_eq (vcatSub_lawful sci) R as w has
  · exact ⟨rs, _, _, _, by rw [h]; rfl, .inl rfl, .inl rfl, .inl rfl⟩
  · rw [h, VSub.checkFitted_eq]
    split
    · exact ⟨rs, _, _, _, rfl, .inl rfl, .inl rfl, .inl rfl⟩
    · show ∃ rs' nf a b, (vcatCheck w.est).2.reseed rs = _ ∧ _
      cases h0 : vcheckBase w.est with
      | error err =>
        refine ⟨rs, _, _, _, ?_, .inl rfl, .inl rfl, .inl rfl⟩
        simp only [vcatCheck, h0]; rfl
      | ok u =>
        cases h1 : w.est.sub.sub.emPrior with
        | none =>
          refine ⟨rs, _, _, _, ?_, .inl rfl, .inl rfl, .inl rfl⟩
          simp only [vcatCheck, h0, h1]
          unfold Est.reseed
          rw [← h1]
        | some pr =>
          cases h2 : w.est.sub.sub.emPost with
          | none =>
            refine ⟨rs, w.est.nFeatures, some (atleast2d pr), none, ?_, .inl rfl, .inr rfl, .inl rfl⟩
            simp only [vcatCheck, h0, h1, h2]
            unfold Est.reseed
            rw [← h2]
          | some po =>
            by_cases hs : (atleast2d pr).shape = (atleast2d po).shape
            · cases hn : w.est.nFeatures with
              | none =>
                refine ⟨rs, (atleast2d po).shape[1]?, some (atleast2d pr), some (atleast2d po), ?_, .inr rfl, .inr rfl, .inr rfl⟩
                by_cases hc : (atleast2d po).shape = [w.est.nComponents, (atleast2d po).shape[1]?.getD 0]
                · simp [vcatCheck, h0, h1, h2, hs, hn, ← hc, Est.reseed]
                · simp [vcatCheck, h0, h1, h2, hs, hn, hc, Est.reseed]
              | some k =>
                refine ⟨rs, some k, some (atleast2d pr), some (atleast2d po), ?_, .inl rfl, .inr rfl, .inr rfl⟩
                by_cases hc : (atleast2d po).shape = [w.est.nComponents, k]
                · simp [vcatCheck, h0, h1, h2, hs, hn, hc, Est.reseed]
                · simp [vcatCheck, h0, h1, h2, hs, hn, hc, Est.reseed]
            · refine ⟨rs, w.est.nFeatures, some (atleast2d pr), some (atleast2d po), ?_, .inl rfl, .inr rfl, .inr rfl⟩
              simp [vcatCheck, h0, h1, h2, hs, Est.reseed]

/-! ## `sample` -/

/-- **C80** Whatever `sample` of a variational class returns is well formed. -/
theorem C80_sample {V : VSub α G Q} (hV : V.Lawful) {R : RandomLib α G} (n : Int) (seed c : Option Nat)
    (w w' : World α G (VAttrs α Q)) {r : List Nat × ((nf : Nat) × List (V.core.Obs nf))} (h : V.sample R n seed c w = (.ok r, w')) :
    WellFormed w.est.nComponents n c r.1 r.2.2.length ∧ w'.est.nFeatures = some r.2.1 := by
  unfold VSub.sample Sub.sampleBody at h
  obtain ⟨u, w1, h1, h2⟩ := Py.bind_ok_cases h
  have e1 : w1.est = (V.checkFitted w.est).2 := (congrArg (fun p => p.2.est) h1).symm
  have e2 : w1.est.nComponents = w.est.nComponents := by rw [e1, hV.fitted_frame]
  obtain ⟨w2, w3, h3, h4⟩ := Py.bind_ok_cases h2
  cases h3
  cases seed with
  | some k =>
    dsimp only at h4
    cases hs : V.core.sampleFrom R w1.est n c (R.ofSeed k) with
    | mk o g1 =>
      rw [hs] at h4
      have h5 : (o, w1) = (Except.ok r, w') := h4
      cases h5
      rw [← e2]
      exact sampleFrom_wellFormed _ _ _ _ _ hs
  | none =>
    obtain ⟨o, w4, h5, h6⟩ := Py.bind_ok_cases h4
    obtain ⟨rs, g', h7, -⟩ := withSelfGen_eq R (V.core.sampleFrom R w1.est n c) w1
    rw [h7] at h5
    have h8 : (o, w4) = (Except.ok r, w') := h6
    cases h8
    cases hs : V.core.sampleFrom R w1.est n c (selfGen R w1) with
    | mk o' g1 =>
      rw [hs] at h5
      obtain ⟨h9, h10⟩ := Prod.mk.inj h5
      have h9 : o' = .ok r := Except.ok.inj h9
      subst h9
      rw [← e2, ← h10]
      exact sampleFrom_wellFormed _ _ _ _ _ hs

theorem C80_sample_categorical (sci : Sci α) {R : RandomLib α G} (n : Int) (seed c : Option Nat)
    (w w' : World α G (VAttrs α (VCatAttrs α))) {r : List Nat × ((nf : Nat) × List ((vcatSub (G := G) sci).core.Obs nf))}
    (h : (vcatSub sci).sample R n seed c w = (.ok r, w')) :
    WellFormed w.est.nComponents n c r.1 r.2.2.length ∧ w'.est.nFeatures = some r.2.1 :=
  C80_sample (vcatSub_lawful sci) n seed c w w' h

theorem C80_sample_gaussian (L : VLayout α G) (sci : Sci α) (eig : Eigvalsh α) {R : RandomLib α G} (n : Int)
    (seed c : Option Nat) (w w' : World α G (VAttrs α (VGaussAttrs α)))
    {r : List Nat × ((nf : Nat) × List ((vgaussSub L sci eig).core.Obs nf))}
    (h : (vgaussSub L sci eig).sample R n seed c w = (.ok r, w')) :
    WellFormed w.est.nComponents n c r.1 r.2.2.length ∧ w'.est.nFeatures = some r.2.1 :=
  C80_sample (vgaussSub_lawful L sci eig) n seed c w w' h

theorem vcat_draws (sci : Sci α) (R : RandomLib α G) (p : VAttrs α (VCatAttrs α)) {nc nf : ℕ} (hnf : nf ≠ 0)
    (θ : Categorical.Params α nc nf) (z : Fin nc) (g : G) : ∃ x g',
      (vcatSub (G := G) sci).core.sampleSub R p (nc := nc) (nf := nf) θ z g = (.ok x, g') := by
  show ∃ x g', (if h : nf = 0 then _ else _ : Except PyErr ℤ × G) = (.ok x, g')
  rw [dif_neg hnf]
  exact ⟨_, _, rfl⟩

/-- **C80** A `VariationalCategoricalHMM` that `_check` accepts, with at least one symbol, samples. -/
theorem C80_samples_categorical (sci : Sci α) (R : RandomLib α G) (n : Int) (seed : Nat) (c : Option Nat)
    (w : World α G (VAttrs α (VCatAttrs α))) (hok : ((vcatSub sci).checkFitted w.est).1 = .ok ())
    {r : Ready (vcatSub (G := G) sci).core ((vcatSub sci).checkFitted w.est).2}
    (hr : (vcatSub sci).core.ready ((vcatSub sci).checkFitted w.est).2 = some r) (hnf : r.nf ≠ 0)
    (hc : ∀ k, c = some k → k < w.est.nComponents) :
    ∃ o w', (vcatSub sci).sample R n (some seed) c w = (.ok o, w') := by
  have hcomp : ((vcatSub sci).checkFitted w.est).2.nComponents = w.est.nComponents := by
    rw [(vcatSub_lawful sci).fitted_frame]
  obtain ⟨o, g', ho⟩ := C36_total (R := R) hr (vcat_draws sci R _ hnf _) n c (fun k h => by rw [hcomp]; exact hc k h) (R.ofSeed seed)
  simp only [VSub.sample, Sub.sampleBody, Py.bind_apply, onEst, Py.get_apply, Py.lift_apply]
  rw [hok]
  simp only [ho]
  exact ⟨_, _, rfl⟩

/-! ## What is rejected -/

theorem vfit_stops (V : VSub α G Q) (R : RandomLib α G) (X : RawX α) (ls : Option (List Int)) (w : World α G (VAttrs α Q))
    (h : ∀ X', checkArray X = .ok X' → ∃ msg, V.core.checkFeatures X' w.est = (.error (.valueError msg), w.est)) :
    ∃ msg, V.fit R X ls w = (.error (.valueError msg), w) := by
  unfold VSub.fit
  rw [Py.bind_apply, Py.lift_apply]
  cases hX : checkArray X with
  | error err =>
    obtain ⟨msg, rfl⟩ : ∃ msg, err = .valueError msg := by
      unfold checkArray at hX
      split at hX
      · split at hX <;> cases hX; exact ⟨_, rfl⟩
      · split at hX
        · cases hX; exact ⟨_, rfl⟩
        · split at hX <;> cases hX; exact ⟨_, rfl⟩
      · cases hX; exact ⟨_, rfl⟩
    exact ⟨msg, rfl⟩
  | ok X' =>
    obtain ⟨msg, hm⟩ := h X' hX
    refine ⟨msg, ?_⟩
    have h1 : ∀ l, V.initBase R X' l w = (.error (.valueError msg), w) := by
      intro l
      unfold VSub.initBase
      rw [Py.bind_apply]
      simp only [onEst, hm]
    have h2 : ∀ l, V.init R X' l w = (.error (.valueError msg), w) := by
      intro l
      unfold VSub.init
      rw [Py.bind_apply, h1]
    simp only [Py.bind_apply, h2]

/-- **C80** `fit` of a `VariationalGaussianHMM` with data of another number of columns than `n_features` raises
`ValueError` and leaves the object as it was. -/
theorem C80_columns (L : VLayout α G) (sci : Sci α) (eig : Eigvalsh α) (R : RandomLib α G) {m n nf : ℕ}
    (X : Fin m → Fin n → α) (ls : Option (List Int)) (w : World α G (VAttrs α (VGaussAttrs α)))
    (hw : w.est.nFeatures = some nf) (hn : nf ≠ n) : ∃ msg,
      (vgaussSub L sci eig).fit R (.floats (.d2 X)) ls w = (.error (.valueError msg), w) := by
  refine vfit_stops _ _ _ _ _ fun X' h => ?_
  have hd : X' = .floats (List.ofFn X) := by
    unfold checkArray at h
    simp only at h
    split at h
    · cases h
    · split at h <;> cases h
      rfl
  subst hd
  refine ⟨"Unexpected number of dimensions", ?_⟩
  show checkFeaturesBase (.floats (List.ofFn X)) w.est = _
  unfold checkFeaturesBase
  rw [hw]
  simp only
  rw [if_pos (show nf ≠ (XArr.floats (List.ofFn X) : XArr α).d from hn)]

/-- **C80** `fit` of a `VariationalCategoricalHMM` with symbols that are not integers, negative, or not below a set
`n_features`, raises `ValueError` and leaves the object as it was. -/
theorem C80_symbols (sci : Sci α) (R : RandomLib α G) {m n : ℕ} (ls : Option (List Int))
    (w : World α G (VAttrs α (VCatAttrs α))) :
    (∀ X : Fin m → Fin n → α, ∃ msg, (vcatSub sci).fit R (.floats (.d2 X)) ls w = (.error (.valueError msg), w)) ∧
    ∀ X : Fin m → Fin n → ℤ, (∃ i j, X i j < 0 ∨ ∃ nf : ℕ, w.est.nFeatures = some nf ∧ (nf : ℤ) ≤ X i j) →
      ∃ msg, (vcatSub sci).fit R (.ints (.d2 X)) ls w = (.error (.valueError msg), w) := by
  refine ⟨fun X => vfit_stops _ _ _ _ _ fun X' h => ?_, fun X hX => vfit_stops _ _ _ _ _ fun X' h => ?_⟩
  · have hd : X' = .floats (List.ofFn X) := by
      unfold checkArray at h
      simp only at h
      split at h
      · cases h
      · split at h <;> cases h
        rfl
    subst hd
    exact ⟨_, rfl⟩
  · have hd : X' = .ints (List.ofFn X) := by
      unfold checkArray at h
      simp only at h
      split at h <;> cases h
      rfl
    subst hd
    show ∃ msg, catCheckFeatures (.ints (List.ofFn X)) w.est = (.error (.valueError msg), w.est)
    unfold catCheckFeatures
    simp only
    by_cases hneg : anyNeg (List.ofFn X)
    · exact ⟨_, by rw [if_pos hneg]⟩
    · rw [if_neg hneg]
      obtain ⟨i, j, h | ⟨nf, hw, h⟩⟩ := hX
      · refine absurd ?_ hneg
        unfold anyNeg
        simp only [List.any_eq_true, List.mem_ofFn, decide_eq_true_eq]
        exact ⟨X i, ⟨i, rfl⟩, j, List.mem_finRange j, h⟩
      · refine ⟨"Largest symbol", ?_⟩
        rw [hw]
        simp only
        rw [if_pos]
        have := (maxNat_le (List.ofFn X) _).1 le_rfl (X i) (List.mem_ofFn.2 ⟨i, rfl⟩) j
        omega

/-- **C80** Before `startprob_` is set every inference call raises `NotFittedError`; afterwards what `_check` raises,
every inference call raises. -/
theorem C80_rejects (V : VSub α G Q) (R : RandomLib α G) (c : Call α) (w : World α G (VAttrs α Q)) :
    (w.est.startprob = none → c.vrun V R w = (.error .notFitted, w)) ∧
    ∀ err, w.est.startprob ≠ none → (V.check w.est).1 = .error err → (c.vrun V R w).1 = .error err := by
  obtain ⟨f, -, hf1, hf⟩ := vcall_eq V R c
  refine ⟨fun h => ?_, fun err h he => ?_⟩
  · rw [hf, VSub.checkFitted_eq, h]
    exact congrArg₂ Prod.mk (hf1 _ _) rfl
  · rw [hf, VSub.checkFitted_eq]
    have : w.est.startprob.isNone = false := by
      cases hs : w.est.startprob with
      | none => exact absurd hs h
      | some a => rfl
    rw [this]
    rcases hch : V.check w.est with ⟨r, e'⟩
    rw [hch] at he
    simp only at he
    subst he
    exact hf1 _ _

/-- An attribute is set, with this shape. -/
def Spec.HasShape (s : List ℕ) (a : Option (NdArray α)) : Prop := ∃ b, a = some b ∧ b.shape = s

/-- Shape of the degrees of freedom for a covariance type. -/
def Spec.DofShape (nc : ℕ) : CovType → List ℕ
  | .tied => []
  | .full => [nc]
  | .diag => [nc]
  | .spherical => [nc]

/-- Shape of the scale matrices for a covariance type. -/
def Spec.ScaleShape (nc nf : ℕ) : CovType → List ℕ
  | .full => [nc, nf, nf]
  | .tied => [nf, nf]
  | .diag => [nc, nf]
  | .spherical => [nc]

theorem checkPair_iff (name : String) (s : List ℕ) (a b : Option (NdArray α)) :
    (checkPair name s a b = .ok () ↔ HasShape s a ∧ HasShape s b) ∧
    (checkPair name s a b ≠ .ok () → ∃ msg, checkPair name s a b = .error (.valueError msg) ∨
      checkPair name s a b = .error (.attributeError msg)) := by
  cases a with
  | none =>
    refine ⟨⟨fun h => by simp [checkPair, attr, bind, Except.bind] at h, ?_⟩, fun _ => ⟨_, .inr rfl⟩⟩
    rintro ⟨⟨x, h, -⟩, -⟩
    cases h
  | some a =>
    cases b with
    | none =>
      refine ⟨⟨fun h => by simp [checkPair, attr, bind, Except.bind] at h, ?_⟩, fun _ => ⟨_, .inr rfl⟩⟩
      rintro ⟨-, x, h, -⟩
      cases h
    | some b =>
      by_cases h1 : a.shape = s
      · by_cases h2 : b.shape = s
        · refine ⟨⟨fun _ => ⟨⟨a, rfl, h1⟩, b, rfl, h2⟩, fun _ => ?_⟩, fun h => absurd ?_ h⟩ <;>
            simp [checkPair, attr, bind, Except.bind, h1, h2]
        · refine ⟨⟨fun h => by simp [checkPair, attr, bind, Except.bind, h1, h2] at h, ?_⟩, fun _ => ⟨_, .inl (by
            simp [checkPair, attr, bind, Except.bind, h1, h2]; rfl)⟩⟩
          rintro ⟨-, x, h, hx⟩
          cases h
          exact absurd hx h2
      · refine ⟨⟨fun h => by simp [checkPair, attr, bind, Except.bind, h1] at h, ?_⟩, fun _ => ⟨_, .inl (by
            simp [checkPair, attr, bind, Except.bind, h1]; rfl)⟩⟩
        rintro ⟨⟨x, h, hx⟩, -⟩
        cases h
        exact absurd hx h1

/-- **C80** What `VariationalGaussianHMM._check` accepts: the eight attributes of the emissions with the shapes of
the covariance type, and nothing else is looked at (neither the values, nor `startprob_`, `transmat_` and their
concentrations); otherwise it raises `ValueError` or `AttributeError`. -/
theorem C80_check_gaussian (L : VLayout α G) (sci : Sci α) (eig : Eigvalsh α) (e : VEst α G (VGaussAttrs α)) :
    (((vgaussSub L sci eig).check e).1 = .ok () ↔ ∃ nf, e.nFeatures = some nf ∧
      HasShape [e.nComponents, nf] e.sub.sub.meansPri ∧ HasShape [e.nComponents, nf] e.sub.sub.meansPost ∧
      HasShape [e.nComponents] e.sub.sub.betaPri ∧ HasShape [e.nComponents] e.sub.sub.betaPost ∧
      HasShape (DofShape e.nComponents L.ty) e.sub.sub.dofPri ∧ HasShape (DofShape e.nComponents L.ty) e.sub.sub.dofPost ∧
      HasShape (ScaleShape e.nComponents nf L.ty) e.sub.sub.scalePri ∧
      HasShape (ScaleShape e.nComponents nf L.ty) e.sub.sub.scalePost) ∧
    (((vgaussSub L sci eig).check e).1 ≠ .ok () → ∃ msg, ((vgaussSub L sci eig).check e).1 = .error (.valueError msg) ∨
      ((vgaussSub L sci eig).check e).1 = .error (.attributeError msg)) := by
  show ((vgaussCheck L.ty e).1 = .ok () ↔ _) ∧ ((vgaussCheck L.ty e).1 ≠ .ok () → ∃ msg,
    (vgaussCheck L.ty e).1 = .error (.valueError msg) ∨ (vgaussCheck L.ty e).1 = .error (.attributeError msg))
  have hd : dofShape L.ty e.nComponents = DofShape e.nComponents L.ty := by cases L.ty <;> rfl
  have hsc : ∀ nf, scaleShape L.ty e.nComponents nf = ScaleShape e.nComponents nf L.ty := by intro nf; cases L.ty <;> rfl
  unfold vgaussCheck
  cases e.nFeatures with
  | none => exact ⟨⟨fun h => (by cases h), fun ⟨nf, h, _⟩ => (by cases h)⟩, fun _ => ⟨_, .inr rfl⟩⟩
  | some nf =>
    simp only [bind, Except.bind, hd, hsc]
    obtain ⟨i1, j1⟩ := checkPair_iff "means" [e.nComponents, nf] e.sub.sub.meansPri e.sub.sub.meansPost
    obtain ⟨i2, j2⟩ := checkPair_iff "beta" [e.nComponents] e.sub.sub.betaPri e.sub.sub.betaPost
    obtain ⟨i3, j3⟩ := checkPair_iff "dof" (DofShape e.nComponents L.ty) e.sub.sub.dofPri e.sub.sub.dofPost
    obtain ⟨i4, j4⟩ := checkPair_iff "scale" (ScaleShape e.nComponents nf L.ty) e.sub.sub.scalePri e.sub.sub.scalePost
    generalize checkPair "means" [e.nComponents, nf] e.sub.sub.meansPri e.sub.sub.meansPost = r1 at i1 j1
    generalize checkPair "beta" [e.nComponents] e.sub.sub.betaPri e.sub.sub.betaPost = r2 at i2 j2
    generalize checkPair "dof" (DofShape e.nComponents L.ty) e.sub.sub.dofPri e.sub.sub.dofPost = r3 at i3 j3
    generalize checkPair "scale" (ScaleShape e.nComponents nf L.ty) e.sub.sub.scalePri e.sub.sub.scalePost = r4 at i4 j4
    have all : (∃ nf', some nf = some nf' ∧
      HasShape [e.nComponents, nf'] e.sub.sub.meansPri ∧ HasShape [e.nComponents, nf'] e.sub.sub.meansPost ∧
      HasShape [e.nComponents] e.sub.sub.betaPri ∧ HasShape [e.nComponents] e.sub.sub.betaPost ∧
      HasShape (DofShape e.nComponents L.ty) e.sub.sub.dofPri ∧ HasShape (DofShape e.nComponents L.ty) e.sub.sub.dofPost ∧
      HasShape (ScaleShape e.nComponents nf' L.ty) e.sub.sub.scalePri ∧
      HasShape (ScaleShape e.nComponents nf' L.ty) e.sub.sub.scalePost) ↔
        r1 = .ok () ∧ r2 = .ok () ∧ r3 = .ok () ∧ r4 = .ok () := by
      rw [i1, i2, i3, i4]
      constructor
      · rintro ⟨_, h, a⟩
        cases h
        obtain ⟨a1, a2, a3, a4, a5, a6, a7, a8⟩ := a
        exact ⟨⟨a1, a2⟩, ⟨a3, a4⟩, ⟨a5, a6⟩, a7, a8⟩
      · rintro ⟨⟨a1, a2⟩, ⟨a3, a4⟩, ⟨a5, a6⟩, a7, a8⟩
        exact ⟨nf, rfl, a1, a2, a3, a4, a5, a6, a7, a8⟩
    rw [all]
    cases r1 with
    | error err => exact ⟨by simp, fun _ => j1 (by simp)⟩
    | ok u =>
      cases r2 with
      | error err => exact ⟨by simp, fun _ => j2 (by simp)⟩
      | ok u =>
        cases r3 with
        | error err => exact ⟨by simp, fun _ => j3 (by simp)⟩
        | ok u => exact ⟨by simp, fun h => j4 h⟩

/-- **C80** What `VariationalCategoricalHMM._check` accepts, for emission concentrations in matrices: concentrations
of the start of length `n_components` (of any further shape), square ones of the transitions, and emission ones of
the same shape `(n_components, n_features)`; values are not looked at. -/
theorem C80_check_categorical (sci : Sci α) (e : VEst α G (VCatAttrs α)) {k l k' l' : ℕ} {a : Fin k → Fin l → α}
    {b : Fin k' → Fin l' → α} (ha : e.sub.sub.emPrior = some (.d2 a)) (hb : e.sub.sub.emPost = some (.d2 b)) :
    ((vcatSub sci).check e).1 = .ok () ↔
      (∃ s, HasShape (e.nComponents :: s) e.sub.chain.startPrior) ∧ (∃ s, HasShape (e.nComponents :: s) e.sub.chain.startPost) ∧
      HasShape [e.nComponents, e.nComponents] e.sub.chain.transPrior ∧ HasShape [e.nComponents, e.nComponents] e.sub.chain.transPost ∧
      k = e.nComponents ∧ k' = e.nComponents ∧ l = l' ∧ l' = e.nFeatures.getD l' := by
  have hlen : ∀ name (o : Option (NdArray α)), checkLen name e.nComponents o = .ok () ↔ ∃ s, HasShape (e.nComponents :: s) o := by
    intro name o
    cases o with
    | none =>
      refine ⟨fun h => (by cases h), ?_⟩
      rintro ⟨s, x, h, -⟩; cases h
    | some x =>
      unfold checkLen
      simp only
      cases hx : x.shape with
      | nil =>
        refine ⟨fun h => (by cases h), ?_⟩
        rintro ⟨s, y, h, hy⟩; cases h; rw [hx] at hy; cases hy
      | cons m s =>
        by_cases hm : m = e.nComponents
        · refine ⟨fun _ => ⟨s, x, rfl, by rw [hx, hm]⟩, fun _ => by simp [hm]⟩
        · refine ⟨fun h => by simp [hm] at h, ?_⟩
          rintro ⟨s', y, h, hy⟩; cases h; rw [hx] at hy; cases hy; exact absurd rfl hm
  have hsh : ∀ name s (o : Option (NdArray α)), checkShape name s o = .ok () ↔ HasShape s o := by
    intro name s o
    cases o with
    | none =>
      refine ⟨fun h => (by cases h), ?_⟩
      rintro ⟨x, h, -⟩; cases h
    | some x =>
      unfold checkShape
      simp only
      by_cases hm : x.shape = s
      · exact ⟨fun _ => ⟨x, rfl, hm⟩, fun _ => by simp [hm]⟩
      · refine ⟨fun h => by simp [hm] at h, ?_⟩
        rintro ⟨y, h, hy⟩; cases h; exact absurd hy hm
  have hbase : vcheckBase e = .ok () ↔ (∃ s, HasShape (e.nComponents :: s) e.sub.chain.startPrior) ∧
      (∃ s, HasShape (e.nComponents :: s) e.sub.chain.startPost) ∧
      HasShape [e.nComponents, e.nComponents] e.sub.chain.transPrior ∧
      HasShape [e.nComponents, e.nComponents] e.sub.chain.transPost := by
    unfold vcheckBase
    rw [← hlen "startprob_prior_", ← hlen "startprob_posterior_", ← hsh "transmat_prior_", ← hsh "transmat_posterior_"]
    simp only [bind, Except.bind]
    cases checkLen "startprob_prior_" e.nComponents e.sub.chain.startPrior with
    | error err => simp
    | ok u =>
      cases checkLen "startprob_posterior_" e.nComponents e.sub.chain.startPost with
      | error err => simp
      | ok u =>
        cases checkShape "transmat_prior_" [e.nComponents, e.nComponents] e.sub.chain.transPrior with
        | error err => simp
        | ok u => simp
  show (vcatCheck e).1 = .ok () ↔ _
  have assoc : ∀ p q r s t : Prop, (p ∧ q ∧ r ∧ s ∧ t) ↔ ((p ∧ q ∧ r ∧ s) ∧ t) := by
    intro p q r s t
    simp only [and_assoc]
  rw [assoc, ← hbase]
  cases h0 : vcheckBase e with
  | error err => simp [vcatCheck, h0]
  | ok u =>
    have s1 : (NdArray.d2 a).shape = [k, l] := rfl
    have s2 : (NdArray.d2 b).shape = [k', l'] := rfl
    have t1 : atleast2d (NdArray.d2 a) = .d2 a := rfl
    have t2 : atleast2d (NdArray.d2 b) = .d2 b := rfl
    cases hn : e.nFeatures with
    | none =>
      by_cases h1 : k = k' ∧ l = l'
      · obtain ⟨rfl, rfl⟩ := h1
        by_cases h2 : k = e.nComponents <;> simp [vcatCheck, h0, ha, hb, t1, t2, s1, s2, hn, h2]
      · simp [vcatCheck, h0, ha, hb, t1, t2, s1, s2, hn, h1]
        grind
    | some n =>
      by_cases h1 : k = k' ∧ l = l'
      · obtain ⟨rfl, rfl⟩ := h1
        by_cases h2 : k = e.nComponents <;> by_cases h3 : l = n <;> simp [vcatCheck, h0, ha, hb, t1, t2, s1, s2, hn, h2, h3]
      · simp [vcatCheck, h0, ha, hb, t1, t2, s1, s2, hn, h1]
        grind

end Verif
