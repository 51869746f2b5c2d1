import Verif.Proofs.Estimator
import Verif.Spec.Calls
import Verif.Props.Inference59

/-!
# Histories of calls: invariants
-/

namespace Verif
open FloatLike Spec

/-! ## Invariants of methods -/

namespace Py
variable {σ β γ : Type}

/-- Whatever the outcome, `I` is preserved. -/
def Keeps (I : σ → Prop) (m : Py σ β) : Prop := ∀ s, I s → I (m s).2

theorem Keeps.bind {I : σ → Prop} {x : Py σ β} {f : β → Py σ γ} (hx : Keeps I x)
    (hf : ∀ b, Keeps I (f b)) : Keeps I (x >>= f) := by
  intro s hs
  rw [bind_apply]
  have := hx s hs
  cases h : x s with
  | mk r s' =>
    rw [h] at this
    cases r with
    | ok b => exact hf b _ this
    | error e => exact this

theorem Keeps.get {I : σ → Prop} : Keeps I (get : Py σ σ) := fun _ h => h
theorem Keeps.pure {I : σ → Prop} (b : β) : Keeps I (Pure.pure b : Py σ β) := fun _ h => h
theorem Keeps.raise {I : σ → Prop} (e : PyErr) : Keeps I (raise e : Py σ β) := fun _ h => h
theorem Keeps.lift {I : σ → Prop} (r : Except PyErr β) : Keeps I (lift r) := fun _ h => h

/-- Running from a known state. -/
theorem bind_cases {x : Py σ β} {f : β → Py σ γ} {s s2 : σ} {r : Except PyErr γ}
    (h : (x >>= f) s = (r, s2)) :
    (∃ b s1, x s = (.ok b, s1) ∧ f b s1 = (r, s2)) ∨ ∃ e, x s = (.error e, s2) ∧ r = .error e := by
  rw [bind_apply] at h
  cases hx : x s with
  | mk a s1 =>
    rw [hx] at h
    cases a with
    | ok b => exact Or.inl ⟨b, s1, rfl, h⟩
    | error e =>
      simp only [Prod.mk.injEq] at h
      exact Or.inr ⟨e, by rw [h.2], h.1.symm⟩

theorem bind_ok_cases {x : Py σ β} {f : β → Py σ γ} {s s2 : σ} {c : γ}
    (h : (x >>= f) s = (.ok c, s2)) : ∃ b s1, x s = (.ok b, s1) ∧ f b s1 = (.ok c, s2) := by
  rcases bind_cases h with h | ⟨e, _, h⟩
  · exact h
  · simp at h

end Py

section
variable {α G P : Type} [FloatLike α] {S : Sub α G P} {R : RandomLib α G}

omit [FloatLike α] in
theorem keeps_withSelfGen {β : Type} {I : World α G P → Prop} (f : G → β × G)
    (hg : ∀ w g, I w → I { w with glob := g })
    (hr : ∀ w rs, I w → I { w with est := { w.est with randomState := rs } }) :
    Py.Keeps I (withSelfGen R f) := by
  intro w hw
  unfold withSelfGen
  split
  · exact hg _ _ hw
  · exact hg _ _ hw
  · exact hw
  · exact hr _ _ hw

omit [FloatLike α] in
theorem keeps_storeGen {I : World α G P → Prop}
    (hr : ∀ w rs, I w → I { w with est := { w.est with randomState := rs } }) :
    Py.Keeps I (storeGen R) := fun w hw => hr w _ hw

omit [FloatLike α] in
theorem keeps_onEst {β : Type} {I : Est α G P → Prop} {m : Py (Est α G P) β} (h : Py.Keeps I m) :
    Py.Keeps (fun w => I w.est) (onEst m) := fun w hw => h w.est hw

omit [FloatLike α] in
theorem keeps_modify {I : World α G P → Prop} {f : Est α G P → Est α G P}
    (h : ∀ w, I w → I { w with est := f w.est }) : Py.Keeps I (onEst (Py.modify f)) := fun w hw => h w hw

/-- An invariant of the estimator that only concerns `n_features` and the subclass's attributes;
`A X` is what an accepted `_check_and_set_n_features` establishes of the data. -/
structure Sub.Inv (S : Sub α G P) (R : RandomLib α G) (J : Option Nat → P → Prop)
    (A : XArr α → Prop) : Prop where
  features : ∀ X, Py.Keeps (fun e : Est α G P => J e.nFeatures e.sub) (S.checkFeatures X)
  accepted : ∀ X e, J e.nFeatures e.sub → (S.checkFeatures X e).1 = .ok () → A X
  init : ∀ X, A X → Py.Keeps (fun w : World α G P => J w.est.nFeatures w.est.sub) (S.initSub R X)
  check : Py.Keeps (fun e : Est α G P => J e.nFeatures e.sub) S.checkSub
  write : ∀ nf p nc (θ : S.Params nc nf), J (some nf) p → J (some nf) (S.write θ p)

theorem Sub.ready_nf {e : Est α G P} {r : Ready S e} (h : S.ready e = some r) :
    e.nFeatures = some r.nf := by
  unfold Sub.ready at h
  split at h
  · simp at h
  · split at h
    · simp at h
    · next nf hn =>
      simp only [bind, Option.bind_eq_some_iff] at h
      obtain ⟨_, _, _, _, _, _, _, _, _, _, h⟩ := h
      simp only [pure, Option.some.injEq] at h
      rw [← h, hn]

variable {J : Option Nat → P → Prop} {A : XArr α → Prop}

/-- `BaseHMM._init` after `_check_and_set_n_features`. -/
theorem keeps_initRest (S : Sub α G P) (R : RandomLib α G) (J : Option Nat → P → Prop) :
    Py.Keeps (fun w : World α G P => J w.est.nFeatures w.est.sub) (do
        let w ← Py.get
        let e := w.est
        let (s, t) ← withSelfGen R (initDraws R e.nComponents (needsInit e.initParams 's' e.startprob.isSome)
          (needsInit e.initParams 't' e.transmat.isSome))
        onEst (Py.modify fun e => { e with startprob := s <|> e.startprob, transmat := t <|> e.transmat })
        let w ← Py.get
        let table := S.nFit w.est
        match w.est.params.find? fun c => !(table.any fun p => p.1 == c) with
        | some c => Py.raise (.keyError (String.ofList [c]))
        | none => pure () : Py (World α G P) Unit) := by
  refine Py.Keeps.bind Py.Keeps.get fun w => ?_
  refine Py.Keeps.bind (keeps_withSelfGen _ (fun _ _ h => h) (fun _ _ h => h)) fun st => ?_
  refine Py.Keeps.bind (keeps_modify fun w h => h) fun _ => ?_
  refine Py.Keeps.bind Py.Keeps.get fun w => ?_
  dsimp only
  split
  · exact Py.Keeps.raise _
  · exact Py.Keeps.pure _

theorem Sub.Inv.initBase (h : S.Inv R J A) (X : XArr α) :
    Py.Keeps (fun w : World α G P => J w.est.nFeatures w.est.sub) (S.initBase R X) := by
  unfold Sub.initBase
  exact Py.Keeps.bind (keeps_onEst (h.features X)) fun _ => keeps_initRest S R J

theorem keeps_check (h : Py.Keeps (fun e : Est α G P => J e.nFeatures e.sub) S.checkSub) :
    Py.Keeps (fun e : Est α G P => J e.nFeatures e.sub) S.check := by
  unfold Sub.check
  exact Py.Keeps.bind Py.Keeps.get fun e => Py.Keeps.bind (Py.Keeps.lift _) fun _ => h

theorem keeps_fitted (h : Py.Keeps (fun e : Est α G P => J e.nFeatures e.sub) S.checkSub) :
    Py.Keeps (fun e : Est α G P => J e.nFeatures e.sub) S.checkFitted := by
  unfold Sub.checkFitted
  refine Py.Keeps.bind Py.Keeps.get fun e => ?_
  split
  · exact Py.Keeps.raise _
  · exact keeps_check h

theorem Sub.Inv.checkAll (h : S.Inv R J A) :
    Py.Keeps (fun e : Est α G P => J e.nFeatures e.sub) S.check := keeps_check h.check

theorem Sub.Inv.fitted (h : S.Inv R J A) :
    Py.Keeps (fun e : Est α G P => J e.nFeatures e.sub) S.checkFitted := keeps_fitted h.check

theorem Sub.Inv.loop (h : S.Inv R J A) (X : XArr α) (ls : Option (List Int)) :
    Py.Keeps (fun e : Est α G P => J e.nFeatures e.sub) (S.loop X ls) := by
  intro e he
  unfold Sub.loop Sub.loopFrom
  simp only
  split
  · exact he
  · split
    · exact he
    · split
      · exact he
      · next r hr =>
        split
        · exact he
        · have hn := Sub.ready_nf hr
          have he' : J (some r.nf) e.sub := hn ▸ he
          simp only [Sub.put]
          exact (congrArg (fun o => J o _) (show e.nFeatures = some r.nf from hn)).mpr (h.write _ _ _ _ he')

/-- `fit` once `_check_and_set_n_features` has accepted the data. -/
theorem fit_after (hJ : S.Inv R J A) {X : RawX α} {X' : XArr α} {ls : Option (List Int)}
    {w : World α G P} {e' : Est α G P} (hX : checkArray X = .ok X')
    (hc : S.checkFeatures X' w.est = (.ok (), e')) (hA : A X') (hj : J e'.nFeatures e'.sub) :
    J (S.fit R X ls w).2.est.nFeatures (S.fit R X ls w).2.est.sub := by
  have h1 : onEst (S.checkFeatures X') w = (.ok (), { w with est := e' }) := by simp [onEst, hc]
  have hi : J (S.init R X' w).2.est.nFeatures (S.init R X' w).2.est.sub := by
    unfold Sub.init
    have hb : J (S.initBase R X' w).2.est.nFeatures (S.initBase R X' w).2.est.sub := by
      unfold Sub.initBase
      rw [Py.bind_ok h1]
      exact keeps_initRest S R J _ hj
    rw [Py.bind_apply]
    cases hw : S.initBase R X' w with
    | mk r w1 =>
      rw [hw] at hb
      cases r with
      | ok b => exact hJ.init X' hA _ hb
      | error e => exact hb
  have hk : Py.Keeps (fun w : World α G P => J w.est.nFeatures w.est.sub)
      (onEst S.check >>= fun _ => onEst (S.loop X' ls)) :=
    Py.Keeps.bind (keeps_onEst hJ.checkAll) fun _ => keeps_onEst (hJ.loop X' ls)
  have hf : S.fit R X ls w = (S.init R X' >>= fun _ => onEst S.check >>= fun _ => onEst (S.loop X' ls)) w := by
    unfold Sub.fit
    rw [hX]
    exact Py.bind_ok rfl
  rw [hf, Py.bind_apply]
  cases hw : S.init R X' w with
  | mk r w1 =>
    rw [hw] at hi
    cases r with
    | ok b => exact hk _ hi
    | error e => exact hi

/-- A rejected `_check_and_set_n_features` makes `fit` raise. -/
theorem fit_reject {X : RawX α} {X' : XArr α} {ls : Option (List Int)} {w : World α G P} {err : PyErr}
    {e' : Est α G P} (hX : checkArray X = .ok X') (h : S.checkFeatures X' w.est = (.error err, e')) :
    S.fit R X ls w = (.error err, { w with est := e' }) := by
  have h1 : onEst (S.checkFeatures X') w = (.error err, { w with est := e' }) := by simp [onEst, h]
  have h2 : S.initBase R X' w = (.error err, { w with est := e' }) := Py.bind_error h1
  have h3 : S.init R X' w = (.error err, { w with est := e' }) := Py.bind_error h2
  unfold Sub.fit
  rw [hX]
  exact (Py.bind_ok rfl).trans (Py.bind_error h3)

theorem fit_noarray {X : RawX α} {ls : Option (List Int)} {w : World α G P} {err : PyErr}
    (hX : checkArray X = .error err) : S.fit R X ls w = (.error err, w) := by
  unfold Sub.fit
  rw [hX]
  rfl

/-- A `fit` that returns has passed `check_array` and `_check_and_set_n_features`. -/
theorem fit_accepts {X : RawX α} {ls : Option (List Int)} {w w' : World α G P}
    (h : S.fit R X ls w = (.ok (), w')) :
    ∃ X', checkArray X = .ok X' ∧ ∃ e', S.checkFeatures X' w.est = (.ok (), e') := by
  cases hX : checkArray X with
  | error err => rw [fit_noarray hX] at h; simp at h
  | ok X' =>
    refine ⟨X', rfl, ?_⟩
    cases hc : S.checkFeatures X' w.est with
    | mk r e' =>
      cases r with
      | ok u => exact ⟨e', rfl⟩
      | error err => rw [fit_reject hX hc] at h; simp at h

theorem Sub.Inv.fit (h : S.Inv R J A) (X : RawX α) (ls : Option (List Int)) :
    Py.Keeps (fun w : World α G P => J w.est.nFeatures w.est.sub) (S.fit R X ls) := by
  intro w hw
  cases hX : checkArray X with
  | error err => rw [fit_noarray hX]; exact hw
  | ok X' =>
    have hf := h.features X' w.est hw
    cases hc : S.checkFeatures X' w.est with
    | mk r e' =>
      rw [hc] at hf
      cases r with
      | error err => rw [fit_reject hX hc]; exact hf
      | ok u => exact fit_after h hX hc (h.accepted X' w.est hw (by rw [hc])) hf

theorem Sub.Inv.call (h : S.Inv R J A) (c : Call α) :
    Py.Keeps (fun w : World α G P => J w.est.nFeatures w.est.sub) (c.run S R) := by
  intro w hw
  obtain ⟨f, hf⟩ := call_eq S R c
  rw [hf w]
  exact h.fitted w.est hw

theorem Sub.Inv.sample (h : S.Inv R J A) (n : Int) (c : Option Nat) :
    Py.Keeps (fun w : World α G P => J w.est.nFeatures w.est.sub) (S.sample R n none c) := by
  intro w hw
  obtain ⟨rs, g, hs⟩ := C59_sample_unseeded S R n c w
  rw [hs]
  exact h.fitted w.est hw

/-- The invariant survives any history. -/
theorem Sub.Inv.actions (h : S.Inv R J A) (as : List (Action α)) (w : World α G P)
    (hw : J w.est.nFeatures w.est.sub) :
    J (afterActions S R as w).est.nFeatures (afterActions S R as w).est.sub := by
  induction as generalizing w with
  | nil => exact hw
  | cons a as ih =>
    refine ih _ ?_
    cases a with
    | fit X ls => exact h.fit X ls w hw
    | infer c => exact h.call c w hw
    | sample n c => exact h.sample n c w hw

end
end Verif
