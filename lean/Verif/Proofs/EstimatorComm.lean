import Verif.Props.Features

/-!
# Attributes only the training loop reads: `n_iter`, `tol`, `monitor_`
-/

namespace Verif
open FloatLike Spec

namespace Py
variable {σ β γ : Type}

/-- The call neither reads nor changes what `φ` changes. -/
def Comm (φ : σ → σ) (m : Py σ β) : Prop := ∀ s, m (φ s) = ((m s).1, φ (m s).2)

theorem Comm.bind {φ : σ → σ} {x : Py σ β} {f : β → Py σ γ} (hx : Comm φ x) (hf : ∀ b, Comm φ (f b)) :
    Comm φ (x >>= f) := by
  intro s
  rw [bind_apply, bind_apply, hx s]
  cases h : x s with
  | mk r s' =>
    cases r with
    | ok b => exact hf b s'
    | error e => rfl

theorem Comm.get_bind {φ : σ → σ} {f : σ → Py σ γ} (hφ : ∀ s, f (φ s) = f s) (hf : ∀ s, Comm φ (f s)) :
    Comm φ (get >>= f) := by
  intro s
  show f (φ s) (φ s) = _
  rw [hφ s]
  exact hf s s

theorem Comm.pure {φ : σ → σ} (b : β) : Comm φ (Pure.pure b : Py σ β) := fun _ => rfl
theorem Comm.raise {φ : σ → σ} (e : PyErr) : Comm φ (raise e : Py σ β) := fun _ => rfl
theorem Comm.lift {φ : σ → σ} (r : Except PyErr β) : Comm φ (lift r) := fun _ => rfl
theorem Comm.modify {φ : σ → σ} {f : σ → σ} (h : ∀ s, f (φ s) = φ (f s)) : Comm φ (modify f) :=
  fun s => by simp only [modify_apply, h s]
theorem Comm.ite {φ : σ → σ} {p : Prop} [Decidable p] {x y : Py σ β} (hx : Comm φ x) (hy : Comm φ y) :
    Comm φ (if p then x else y) := by split <;> assumption

end Py

section
variable {α G P : Type} [FloatLike α]

/-- Replace `n_iter`, `tol` and `monitor_`. -/
def Est.retrain (e : Est α G P) (k : Nat) (t : α) (m : Monitor α) : Est α G P :=
  { e with nIter := k, tol := t, monitor := m }

/-- The same on a whole state. -/
def World.retrain (k : Nat) (t : α) (m : Monitor α) (w : World α G P) : World α G P :=
  { w with est := w.est.retrain k t m }

variable (k : Nat) (t : α) (m : Monitor α)

omit [FloatLike α] in
theorem comm_onEst {β : Type} {x : Py (Est α G P) β} (h : Py.Comm (fun e => e.retrain k t m) x) :
    Py.Comm (World.retrain k t m) (onEst x) := fun w => by
  simp only [onEst, World.retrain, h w.est]

omit [FloatLike α] in
theorem comm_withSelfGen {β : Type} (R : RandomLib α G) (f : G → β × G) :
    Py.Comm (World.retrain k t m) (withSelfGen (P := P) R f) := fun w => by
  unfold withSelfGen
  have : (World.retrain k t m w).est.randomState = w.est.randomState := rfl
  rw [this]
  cases w.est.randomState <;> rfl

omit [FloatLike α] in
theorem comm_storeGen (R : RandomLib α G) : Py.Comm (World.retrain k t m) (storeGen (P := P) R) :=
  fun _ => rfl

/-- The hooks of a class do not look at `n_iter`, `tol`, `monitor_`. -/
structure Sub.Oblivious (S : Sub α G P) (R : RandomLib α G) : Prop where
  features : ∀ X k t m, Py.Comm (fun e => e.retrain k t m) (S.checkFeatures X)
  init : ∀ X k t m, Py.Comm (World.retrain k t m) (S.initSub R X)
  check : ∀ k t m, Py.Comm (fun e => e.retrain k t m) S.checkSub
  nFit : ∀ e k t m, S.nFit (e.retrain k t m) = S.nFit e

variable {S : Sub α G P} {R : RandomLib α G}

theorem Sub.Oblivious.initAll (h : S.Oblivious R) (X : XArr α) :
    Py.Comm (World.retrain k t m) (S.init R X) := by
  refine Py.Comm.bind ?_ fun _ => h.init X k t m
  unfold Sub.initBase
  refine Py.Comm.bind (comm_onEst k t m (h.features X k t m)) fun _ => ?_
  refine Py.Comm.get_bind (fun w => rfl) fun w => ?_
  refine Py.Comm.bind (comm_withSelfGen k t m R _) fun st => ?_
  refine Py.Comm.bind (comm_onEst k t m (Py.Comm.modify fun e => rfl)) fun _ => ?_
  refine Py.Comm.get_bind (fun w => ?_) fun w => ?_
  · simp only [World.retrain, h.nFit]; rfl
  · dsimp only
    split
    · exact Py.Comm.raise _
    · exact Py.Comm.pure _

theorem Sub.Oblivious.checkAll (h : S.Oblivious R) : Py.Comm (fun e => e.retrain k t m) S.check := by
  unfold Sub.check
  exact Py.Comm.get_bind (fun e => rfl) fun e => Py.Comm.bind (Py.Comm.lift _) fun _ => h.check k t m

omit [FloatLike α] in
theorem retrain_id (w : World α G P) : World.retrain w.est.nIter w.est.tol w.est.monitor w = w := rfl

/-- `fit` is `_init` and `_check`, then the loop, which is the first to look at `n_iter`, `tol` and
the monitor. -/
theorem Sub.Oblivious.fit_eq (h : S.Oblivious R) (X : RawX α) (ls : Option (List Int)) (w : World α G P) :
    (∃ err w1, ∀ k t m, S.fit R X ls (World.retrain k t m w) = (.error err, World.retrain k t m w1)) ∨
    ∃ X' w1, ∀ k t m, S.fit R X ls (World.retrain k t m w) = onEst (S.loop X' ls) (World.retrain k t m w1) := by
  cases hX : checkArray X with
  | error err => exact Or.inl ⟨err, w, fun k t m => by unfold Sub.fit; rw [hX]; rfl⟩
  | ok X' =>
    have hf : ∀ w, S.fit R X ls w = (S.init R X' >>= fun _ => onEst S.check >>= fun _ => onEst (S.loop X' ls)) w := by
      intro w
      unfold Sub.fit
      rw [hX]
      exact Py.bind_ok rfl
    cases hi : S.init R X' w with
    | mk r w1 =>
      have h1 : ∀ k t m, S.init R X' (World.retrain k t m w) = (r, World.retrain k t m w1) := by
        intro k t m
        rw [h.initAll k t m X' w, hi]
      cases r with
      | error err => exact Or.inl ⟨err, w1, fun k t m => by rw [hf]; exact Py.bind_error (h1 k t m)⟩
      | ok u =>
        cases hc : onEst S.check w1 with
        | mk r2 w2 =>
          have h2 : ∀ k t m, onEst S.check (World.retrain k t m w1) = (r2, World.retrain k t m w2) := by
            intro k t m
            rw [comm_onEst k t m (h.checkAll k t m) w1, hc]
          cases r2 with
          | error err =>
            exact Or.inl ⟨err, w2, fun k t m => by
              rw [hf]; exact (Py.bind_ok (h1 k t m)).trans (Py.bind_error (h2 k t m))⟩
          | ok u2 =>
            exact Or.inr ⟨X', w2, fun k t m => by
              rw [hf]; exact (Py.bind_ok (h1 k t m)).trans (Py.bind_ok (h2 k t m))⟩

end

/-! ## The classes -/

section
variable {α G : Type} [FloatLike α] (R : RandomLib α G)

theorem checkFeaturesBase_comm {P : Type} (X : XArr α) (k : Nat) (t : α) (m : Monitor α) :
    Py.Comm (fun e : Est α G P => e.retrain k t m) (checkFeaturesBase X) := by
  intro e
  unfold checkFeaturesBase
  have : (e.retrain k t m).nFeatures = e.nFeatures := rfl
  rw [this]
  cases e.nFeatures with
  | none => rfl
  | some n => dsimp only; split <;> rfl

theorem catSub_oblivious : (catSub (α := α) (G := G)).Oblivious R where
  features X k t m e := by
    show catCheckFeatures X _ = ((catCheckFeatures X e).1, (catCheckFeatures X e).2.retrain k t m)
    unfold catCheckFeatures
    have : (e.retrain k t m).nFeatures = e.nFeatures := rfl
    rw [this]
    cases X with
    | floats rows => rfl
    | ints rows =>
      dsimp only
      split
      · rfl
      · cases e.nFeatures with
        | none => rfl
        | some n => dsimp only; split <;> rfl
  init X k t m := by
    refine Py.Comm.bind (comm_storeGen k t m R) fun _ => ?_
    refine Py.Comm.get_bind (fun w => rfl) fun w => ?_
    refine Py.Comm.ite ?_ (Py.Comm.pure _)
    exact Py.Comm.bind (comm_withSelfGen k t m R _) fun _ => comm_onEst k t m (Py.Comm.modify fun e => rfl)
  check k t m e := by
    show catCheck _ = ((catCheck e).1, (catCheck e).2.retrain k t m)
    unfold catCheck
    have h1 : (e.retrain k t m).nFeatures = e.nFeatures := rfl
    have h2 : (e.retrain k t m).sub = e.sub := rfl
    have h3 : (e.retrain k t m).nComponents = e.nComponents := rfl
    simp only [h1, h2, h3]
    cases e.sub.emissionprob with
    | none => rfl
    | some a =>
      obtain ⟨a1, a2, l, hs⟩ := atleast2d_shape a
      cases e.nFeatures with
      | none =>
        by_cases hc : a1 :: a2 :: l = [e.nComponents, a2]
        · simp only [Option.isNone_none, if_true, hs]
          rw [if_neg (by simpa using hc), if_neg (by simpa using hc)]; rfl
        · simp only [Option.isNone_none, if_true, hs]
          rw [if_pos (by simpa using hc), if_pos (by simpa using hc)]; rfl
      | some n =>
        simp only [Option.isNone_some, Bool.false_eq_true, if_false, Option.getD_some]
        by_cases hc : (atleast2d a).shape = [e.nComponents, n]
        · rw [if_neg (by simpa using hc), if_neg (by simpa using hc)]; rfl
        · rw [if_pos (by simpa using hc), if_pos (by simpa using hc)]; rfl
  nFit _ _ _ _ := rfl

theorem multiSub_oblivious : (multiSub (α := α) (G := G)).Oblivious R where
  features X k t m := by
    refine Py.Comm.bind (checkFeaturesBase_comm X k t m) fun _ e => ?_
    unfold multiCheckCounts
    have h2 : (e.retrain k t m).sub = e.sub := rfl
    rw [h2]
    cases X with
    | floats rows => rfl
    | ints rows =>
      dsimp only
      split
      · rfl
      · cases e.sub.nTrials with
        | none => rfl
        | some n => dsimp only; split <;> rfl
  init X k t m := by
    refine Py.Comm.bind (comm_storeGen k t m R) fun _ => ?_
    refine Py.Comm.get_bind (fun w => rfl) fun w => ?_
    refine Py.Comm.ite ?_ (Py.Comm.pure _)
    exact Py.Comm.bind (comm_withSelfGen k t m R _) fun _ => comm_onEst k t m (Py.Comm.modify fun e => rfl)
  check k t m e := by
    show multiCheck _ = ((multiCheck e).1, (multiCheck e).2.retrain k t m)
    unfold multiCheck
    have h1 : (e.retrain k t m).nFeatures = e.nFeatures := rfl
    have h2 : (e.retrain k t m).sub = e.sub := rfl
    have h3 : (e.retrain k t m).nComponents = e.nComponents := rfl
    simp only [h1, h2, h3]
    cases e.sub.emissionprob with
    | none => rfl
    | some a =>
      dsimp only
      split
      · rfl
      · split <;> rfl
  nFit _ _ _ _ := rfl

theorem poisSub_oblivious : (poisSub (α := α) (G := G)).Oblivious R where
  features X k t m := checkFeaturesBase_comm X k t m
  init X k t m := by
    refine Py.Comm.bind (comm_storeGen k t m R) fun _ => ?_
    refine Py.Comm.get_bind (fun w => rfl) fun w => ?_
    refine Py.Comm.ite ?_ (Py.Comm.pure _)
    exact Py.Comm.bind (comm_withSelfGen k t m R _) fun _ => comm_onEst k t m (Py.Comm.modify fun e => rfl)
  check k t m e := by
    show poisCheck _ = ((poisCheck e).1, (poisCheck e).2.retrain k t m)
    unfold poisCheck
    have h1 : (e.retrain k t m).nFeatures = e.nFeatures := rfl
    have h2 : (e.retrain k t m).sub = e.sub := rfl
    have h3 : (e.retrain k t m).nComponents = e.nComponents := rfl
    simp only [h1, h2, h3]
    cases e.sub.lambdas with
    | none => rfl
    | some a => dsimp only; split <;> rfl
  nFit _ _ _ _ := rfl

theorem gauss_oblivious {S : Sub α G (GaussAttrs α)} {eig : Eigvalsh α} {ty : CovType}
    (hS : IsGauss S eig ty) (hn : S.nFit = gaussNFit ty) : S.Oblivious R where
  features X k t m := by rw [hS.features]; exact checkFeaturesBase_comm X k t m
  init X k t m := by
    rw [hS.init]
    refine Py.Comm.bind ?_ fun _ => ?_
    · refine Py.Comm.get_bind (fun w => rfl) fun w => ?_
      refine Py.Comm.ite ?_ (Py.Comm.pure _)
      refine Py.Comm.ite (Py.Comm.raise _) ?_
      exact Py.Comm.bind (comm_withSelfGen k t m R _) fun _ => comm_onEst k t m (Py.Comm.modify fun e => rfl)
    · refine Py.Comm.get_bind (fun w => rfl) fun w => ?_
      refine Py.Comm.ite ?_ (Py.Comm.pure _)
      exact Py.Comm.bind (Py.Comm.lift _) fun _ => comm_onEst k t m (Py.Comm.modify fun e => rfl)
  check k t m e := by
    rw [hS.check]
    unfold gaussCheck
    have h2 : (e.retrain k t m).sub = e.sub := rfl
    simp only [h2]
    cases e.sub.means with
    | none => rfl
    | some a => dsimp only; cases a.shape[1]? <;> rfl
  nFit e k t m := by rw [hn]; rfl

end
end Verif
