import Verif.Proofs.Estimator
import Verif.Spec.Calls

/-!
# C59: inference methods do not change the model
-/

namespace Verif
open FloatLike Spec

variable {α G P : Type} [FloatLike α]

/-- A method that first runs `checkFitted` and then only looks at the estimator. -/
theorem checkedThen {β : Type} (S : Sub α G P) (k : Est α G P → Except PyErr β) (e : Est α G P)
    (m : Py (Est α G P) β) (hm : m = (do S.checkFitted; let e ← Py.get; Py.lift (k e))) :
    m e = ((S.checkFitted e).1.bind fun _ => k (S.checkFitted e).2, (S.checkFitted e).2) := by
  subst hm
  rw [Py.bind_apply]
  cases h : S.checkFitted e with
  | mk r e' => cases r <;> rfl

theorem lift_bind {σ β γ : Type} (r : Except PyErr β) (f : β → Except PyErr γ) :
    (Py.lift r >>= fun b => Py.lift (f b) : Py σ γ) = Py.lift (r.bind f) := by
  funext s; cases r <;> rfl

theorem pure_lift {σ β : Type} (b : β) : (pure b : Py σ β) = Py.lift (.ok b) := rfl

/-- Every inference call leaves the state produced by `checkFitted`, and answers as a function of
it. -/
theorem call_eq (S : Sub α G P) (R : RandomLib α G) (c : Call α) :
    ∃ f : Except PyErr Unit × Est α G P → Except PyErr (Answer S), ∀ w : World α G P,
      c.run S R w = (f (S.checkFitted w.est), { w with est := (S.checkFitted w.est).2 }) := by
  have est : ∀ {β : Type} (m : Py (Est α G P) β) (k : Est α G P → Except PyErr β)
      (_ : m = (do S.checkFitted; let e ← Py.get; Py.lift (k e))) (g : β → Answer S),
      ∃ f : Except PyErr Unit × Est α G P → Except PyErr (Answer S), ∀ w : World α G P,
        (do let r ← onEst m; return g r : Py (World α G P) (Answer S)) w =
          (f (S.checkFitted w.est), { w with est := (S.checkFitted w.est).2 }) := by
    intro β m k hm g
    refine ⟨fun p => (p.1.bind fun _ => k p.2).map g, fun w => ?_⟩
    rw [Py.bind_apply]
    simp only [onEst, checkedThen S k w.est m hm]
    cases (S.checkFitted w.est).1.bind fun _ => k (S.checkFitted w.est).2 <;> rfl
  have score : ∀ X ls post, ∃ k : Est α G P → Except PyErr (α × List (List α)),
      S.scoreSamples X ls post = (do S.checkFitted; let e ← Py.get; Py.lift (k e)) := by
    intro X ls post
    refine ⟨fun e => (checkArray X).bind fun X => (implOf e.implementation).bind fun impl =>
      S.withModel e impl X ls fun m rows =>
        (scoreCore m rows ls post).map fun r => (r.1, r.2.map List.ofFn), ?_⟩
    unfold Sub.scoreSamples Sub.scoreBody
    congr 1; funext _; congr 1; funext e
    simp only [lift_bind]
  have decode : ∀ X ls a, ∃ k : Est α G P → Except PyErr (α × List Nat),
      S.decode X ls a = (do S.checkFitted; let e ← Py.get; Py.lift (k e)) := by
    intro X ls a
    refine ⟨fun e => (algOf (pyOr a e.algorithm)).bind fun alg => (checkArray X).bind fun X =>
      match alg with
      | .viterbi => S.withModel e .log X ls fun m rows =>
          (Verif.decode m .viterbi rows ls).map fun r => (r.1, r.2.map Fin.val)
      | .map =>
        match implOf e.implementation with
        | .error err => do
            let _ ← splitXLengths (List.replicate X.n ()) ls
            .error err
        | .ok impl => S.withModel e impl X ls fun m rows =>
            (Verif.decode m .map rows ls).map fun r => (r.1, r.2.map Fin.val), ?_⟩
    unfold Sub.decode Sub.decodeBody
    congr 1; funext _; congr 1; funext e
    simp only [← lift_bind]
    congr 1; funext alg; congr 1; funext X
    cases alg with
    | viterbi => rfl
    | map => cases implOf e.implementation <;> rfl
  cases c with
  | score X ls =>
    obtain ⟨k, hk⟩ := score X ls false
    refine est (S.score X ls) (fun e => (k e).map Prod.fst) ?_ Answer.float
    funext e
    rw [checkedThen S (fun e => (k e).map Prod.fst) e _ rfl]
    show (S.scoreSamples X ls false >>= fun r => pure r.1) e = _
    rw [Py.bind_apply, checkedThen S k e _ hk]
    cases (S.checkFitted e).1 with
    | error err => rfl
    | ok _ => cases hk2 : k (S.checkFitted e).2 <;> simp [Except.bind, hk2, Except.map]
  | scoreSamples X ls =>
    obtain ⟨k, hk⟩ := score X ls true
    exact est (S.scoreSamples X ls true) k hk fun r => .floatAndRows r.1 r.2
  | predictProba X ls =>
    obtain ⟨k, hk⟩ := score X ls true
    refine est (S.predictProba X ls) (fun e => (k e).map Prod.snd) ?_ Answer.rows
    funext e
    rw [checkedThen S (fun e => (k e).map Prod.snd) e _ rfl]
    show (S.scoreSamples X ls true >>= fun r => pure r.2) e = _
    rw [Py.bind_apply, checkedThen S k e _ hk]
    cases (S.checkFitted e).1 with
    | error err => rfl
    | ok _ => cases hk2 : k (S.checkFitted e).2 <;> simp [Except.bind, hk2, Except.map]
  | decode X ls a =>
    obtain ⟨k, hk⟩ := decode X ls a
    exact est (S.decode X ls a) k hk fun r => .floatAndStates r.1 r.2
  | predict X ls =>
    obtain ⟨k, hk⟩ := decode X ls none
    refine est (S.predict X ls) (fun e => (k e).map Prod.snd) ?_ Answer.states
    funext e
    rw [checkedThen S (fun e => (k e).map Prod.snd) e _ rfl]
    show (S.decode X ls none >>= fun r => pure r.2) e = _
    rw [Py.bind_apply, checkedThen S k e _ hk]
    cases (S.checkFitted e).1 with
    | error err => rfl
    | ok _ => cases hk2 : k (S.checkFitted e).2 <;> simp [Except.bind, hk2, Except.map]
  | sample n seed cur =>
    refine ⟨fun p => p.1.bind fun _ => ((S.sampleFrom R p.2 n cur (R.ofSeed seed)).1.map fun r =>
      .samples r.1 r.2.1 r.2.2), fun w => ?_⟩
    simp only [Call.run, Sub.sample, Sub.sampleBody, Py.bind_apply, onEst, Py.get_apply, Py.lift_apply, Py.pure_apply]
    cases h1 : (S.checkFitted w.est).1 with
    | error err => rfl
    | ok u =>
      simp only [Except.bind]
      cases h2 : (S.sampleFrom R (S.checkFitted w.est).2 n cur (R.ofSeed seed)).1 <;> rfl

theorem afterCalls_eq {S : Sub α G P} (hS : S.Lawful) (R : RandomLib α G) (cs : List (Call α))
    (w : World α G P) : afterCalls S R cs w = w ∨
      afterCalls S R cs w = { w with est := (S.checkFitted w.est).2 } := by
  induction cs generalizing w with
  | nil => exact Or.inl rfl
  | cons c cs ih =>
    right
    obtain ⟨f, hf⟩ := call_eq S R c
    show afterCalls S R cs (c.run S R w).2 = _
    rw [hf w]
    rcases ih { w with est := (S.checkFitted w.est).2 } with h | h
    · exact h
    · rw [h]
      show ({ w with est := (S.checkFitted (S.checkFitted w.est).2).2 } : World α G P) = _
      rw [hS.fitted_idem]

/-- The answer of any inference call, after any sequence of inference calls (whether they returned
or raised), is the answer it would have given in isolation. -/
def Spec.InferenceIsPure (S : Sub α G P) : Prop :=
  ∀ (R : RandomLib α G) (cs : List (Call α)) (c : Call α) (w : World α G P),
    (c.run S R (afterCalls S R cs w)).1 = (c.run S R w).1

/-- Inference calls with explicit seeds leave the generators and every attribute alone, except
`n_features` and the subclass's attributes (for these see the theorems per class). -/
def Spec.InferenceKeepsBase (S : Sub α G P) : Prop :=
  ∀ (R : RandomLib α G) (cs : List (Call α)) (w : World α G P), ∃ nf p,
    afterCalls S R cs w = { w with est := { w.est with nFeatures := nf, sub := p } }

theorem pure_of_lawful {S : Sub α G P} (hS : S.Lawful) : InferenceIsPure S := by
  intro R cs c w
  obtain ⟨f, hf⟩ := call_eq S R c
  rcases afterCalls_eq hS R cs w with h | h
  · rw [h]
  · rw [hf, hf, h]
    show f (S.checkFitted (S.checkFitted w.est).2) = _
    rw [hS.fitted_idem]

theorem keepsBase_of_lawful {S : Sub α G P} (hS : S.Lawful) : InferenceKeepsBase S := by
  intro R cs w
  rcases afterCalls_eq hS R cs w with h | h
  · exact ⟨w.est.nFeatures, w.est.sub, h⟩
  · exact ⟨(S.checkFitted w.est).2.nFeatures, (S.checkFitted w.est).2.sub, by
      rw [h]; congr 1; exact hS.fitted_frame w.est⟩

/-- **C59** CategoricalHMM. -/
theorem C59_categorical : InferenceIsPure (catSub : Sub α G (CatAttrs α)) := pure_of_lawful catSub_lawful
/-- **C59** MultinomialHMM. -/
theorem C59_multinomial : InferenceIsPure (multiSub : Sub α G (MultiAttrs α)) :=
  pure_of_lawful multiSub_lawful
/-- **C59** PoissonHMM. -/
theorem C59_poisson : InferenceIsPure (poisSub : Sub α G (PoisAttrs α)) := pure_of_lawful poisSub_lawful
/-- **C59** GaussianHMM, all four covariance types. -/
theorem C59_gaussian (eig : Eigvalsh α) :
    InferenceIsPure (gaussDiagSub eig : Sub α G (GaussAttrs α)) ∧
    InferenceIsPure (gaussSphericalSub eig : Sub α G (GaussAttrs α)) ∧
    InferenceIsPure (gaussFullSub eig : Sub α G (GaussAttrs α)) ∧
    InferenceIsPure (gaussTiedSub eig : Sub α G (GaussAttrs α)) :=
  ⟨pure_of_lawful (gaussDiagSub_lawful eig), pure_of_lawful (gaussSphericalSub_lawful eig),
    pure_of_lawful (gaussFullSub_lawful eig), pure_of_lawful (gaussTiedSub_lawful eig)⟩

/-- **C59** The base attributes (`startprob_`, `transmat_`, `random_state`, the monitor, …) and the
global generator are unchanged. -/
theorem C59_base (eig : Eigvalsh α) :
    InferenceKeepsBase (catSub : Sub α G (CatAttrs α)) ∧
    InferenceKeepsBase (multiSub : Sub α G (MultiAttrs α)) ∧
    InferenceKeepsBase (poisSub : Sub α G (PoisAttrs α)) ∧
    InferenceKeepsBase (gaussDiagSub eig : Sub α G (GaussAttrs α)) ∧
    InferenceKeepsBase (gaussSphericalSub eig : Sub α G (GaussAttrs α)) ∧
    InferenceKeepsBase (gaussFullSub eig : Sub α G (GaussAttrs α)) ∧
    InferenceKeepsBase (gaussTiedSub eig : Sub α G (GaussAttrs α)) :=
  ⟨keepsBase_of_lawful catSub_lawful, keepsBase_of_lawful multiSub_lawful,
    keepsBase_of_lawful poisSub_lawful, keepsBase_of_lawful (gaussDiagSub_lawful eig),
    keepsBase_of_lawful (gaussSphericalSub_lawful eig), keepsBase_of_lawful (gaussFullSub_lawful eig),
    keepsBase_of_lawful (gaussTiedSub_lawful eig)⟩

theorem sub_of_calls {S : Sub α G P} (hS : S.Lawful) (R : RandomLib α G) (cs : List (Call α))
    (w : World α G P) (Q : P → P → Prop) (hrefl : ∀ p, Q p p)
    (h : ∀ e : Est α G P, Q e.sub (S.checkSub e).2.sub) : Q w.est.sub (afterCalls S R cs w).est.sub := by
  rcases afterCalls_eq hS R cs w with h' | h'
  · rw [h']; exact hrefl _
  · rw [h']
    show Q w.est.sub (S.checkFitted w.est).2.sub
    rw [S.checkFitted_eq]
    split
    · exact hrefl _
    · rw [S.check_eq]
      cases checkBase w.est with
      | ok _ => exact h _
      | error e => exact hrefl _

/-- **C59** The emission parameters keep their values: at most, a 0-d or 1-d `emissionprob_` /
`lambdas_` is turned into the equivalent 2-d array. -/
theorem C59_emission (eig : Eigvalsh α) (R : RandomLib α G) (cs : List (Call α)) :
    (∀ w : World α G (CatAttrs α), (afterCalls catSub R cs w).est.sub = w.est.sub ∨
      (afterCalls catSub R cs w).est.sub =
        { w.est.sub with emissionprob := w.est.sub.emissionprob.map atleast2d }) ∧
    (∀ w : World α G (MultiAttrs α), (afterCalls multiSub R cs w).est.sub = w.est.sub ∨
      (afterCalls multiSub R cs w).est.sub =
        { w.est.sub with emissionprob := w.est.sub.emissionprob.map atleast2d }) ∧
    (∀ w : World α G (PoisAttrs α), (afterCalls poisSub R cs w).est.sub = w.est.sub ∨
      (afterCalls poisSub R cs w).est.sub =
        { w.est.sub with lambdas := w.est.sub.lambdas.map atleast2d }) ∧
    (∀ w : World α G (GaussAttrs α), (afterCalls (gaussDiagSub eig) R cs w).est.sub = w.est.sub ∧
      (afterCalls (gaussSphericalSub eig) R cs w).est.sub = w.est.sub ∧
      (afterCalls (gaussFullSub eig) R cs w).est.sub = w.est.sub ∧
      (afterCalls (gaussTiedSub eig) R cs w).est.sub = w.est.sub) := by
  have hg : ∀ e : Est α G (GaussAttrs α), (gaussCheck e).2.sub = e.sub := by
    intro e
    unfold gaussCheck
    cases e.sub.means with
    | none => rfl
    | some a => simp only; split <;> rfl
  refine ⟨fun w => ?_, fun w => ?_, fun w => ?_, fun w => ⟨?_, ?_, ?_, ?_⟩⟩
  · refine sub_of_calls catSub_lawful R cs w
      (fun p p' => p' = p ∨ p' = { p with emissionprob := p.emissionprob.map atleast2d })
      (fun _ => Or.inl rfl) fun e => ?_
    change (catCheck e).2.sub = _ ∨ (catCheck e).2.sub = _
    unfold catCheck
    cases h : e.sub.emissionprob with
    | none => exact Or.inl rfl
    | some a => right; simp only; split <;> split <;> rfl
  · refine sub_of_calls multiSub_lawful R cs w
      (fun p p' => p' = p ∨ p' = { p with emissionprob := p.emissionprob.map atleast2d })
      (fun _ => Or.inl rfl) fun e => ?_
    change (multiCheck e).2.sub = _ ∨ (multiCheck e).2.sub = _
    unfold multiCheck
    cases h : e.sub.emissionprob with
    | none => exact Or.inl rfl
    | some a => right; simp only; split <;> [rfl; (split <;> rfl)]
  · refine sub_of_calls poisSub_lawful R cs w
      (fun p p' => p' = p ∨ p' = { p with lambdas := p.lambdas.map atleast2d })
      (fun _ => Or.inl rfl) fun e => ?_
    change (poisCheck e).2.sub = _ ∨ (poisCheck e).2.sub = _
    unfold poisCheck
    cases h : e.sub.lambdas with
    | none => exact Or.inl rfl
    | some a => right; simp only; split <;> rfl
  · exact sub_of_calls (gaussDiagSub_lawful eig) R cs w (fun p p' => p' = p) (fun _ => rfl) hg
  · exact sub_of_calls (gaussSphericalSub_lawful eig) R cs w (fun p p' => p' = p) (fun _ => rfl) hg
  · exact sub_of_calls (gaussFullSub_lawful eig) R cs w (fun p p' => p' = p) (fun _ => rfl) hg
  · exact sub_of_calls (gaussTiedSub_lawful eig) R cs w (fun p p' => p' = p) (fun _ => rfl) hg

/-- **C59** `sample()` without a seed advances a generator and changes nothing else (apart from
what `_check` does). -/
theorem C59_sample_unseeded (S : Sub α G P) (R : RandomLib α G) (n : Int) (cur : Option Nat)
    (w : World α G P) : ∃ rs g, (S.sample R n none cur w).2 =
      ⟨{ (S.checkFitted w.est).2 with randomState := rs }, g⟩ := by
  simp only [Sub.sample, Sub.sampleBody, Py.bind_apply, onEst, Py.get_apply]
  cases h1 : (S.checkFitted w.est).1 with
  | error err => exact ⟨_, _, rfl⟩
  | ok u =>
    simp only [withSelfGen]
    cases h2 : (S.checkFitted w.est).2.randomState with
    | none => exact ⟨_, _, rfl⟩
    | global => exact ⟨_, _, rfl⟩
    | seed k => exact ⟨_, _, rfl⟩
    | gen g => exact ⟨_, _, rfl⟩

end Verif
