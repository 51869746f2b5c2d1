import Verif.Model.StateIndex
import Verif.Spec.StateIndex
import Verif.Proofs.Estimator
import Verif.Proofs.GmmEstimator
import Verif.Props.VClass

/-!
# C106: `sample(currstate=c)` for any integer `c`
-/
set_option autoImplicit false

namespace Verif
open FloatLike Spec
variable {α G P : Type} [FloatLike α]

theorem axisIndex_some {n : ℕ} {c : ℤ} {k : ℕ} (h : Names n c k) : axisIndex n c = some ⟨k, h.1⟩ := by
  obtain ⟨h1, h2⟩ := h
  unfold axisIndex
  split
  · congr 2; omega
  · split
    · congr 2; omega
    · omega

theorem axisIndex_none {n : ℕ} {c : ℤ} (h : ∀ k, ¬ Names n c k) : axisIndex n c = none := by
  unfold axisIndex
  split
  · exact absurd (show Names n c c.toNat from ⟨by omega, by omega⟩) (h _)
  · split
    · exact absurd (show Names n c (c + n).toNat from ⟨by omega, by omega⟩) (h _)
    · rfl

theorem sampleFromAt_inside (S : Sub α G P) (R : RandomLib α G) (err : P → PyErr) (e : Est α G P) (n : ℤ) {c : ℤ} {k : ℕ}
    (h : Names e.nComponents c k) (g : G) : S.sampleFromAt R err e n c g =
      (startWritten c (S.sampleFrom R e n (some k) g).1, (S.sampleFrom R e n (some k) g).2) := by
  unfold Sub.sampleFromAt Sub.sampleFrom
  cases S.ready e with
  | none => rfl
  | some r =>
    haveI : NeZero e.nComponents := ⟨r.pos⟩
    dsimp only
    rw [dif_pos h.1]
    unfold sampleCoreAt Sub.sampleWith sampleCore
    rw [axisIndex_some h]
    dsimp only
    rcases S.sampleSub R e.sub r.θ.emission ⟨k, h.1⟩ g with ⟨er | x, g1⟩
    · rfl
    · dsimp only
      rcases sampleLoop R r.θ.transmat (S.sampleSub R e.sub r.θ.emission) (n - 1).toNat ⟨k, h.1⟩ g1 with ⟨er | l, g2⟩
      · rfl
      · simp [startWritten, Function.comp_def]

theorem sampleFromAt_outside (S : Sub α G P) (R : RandomLib α G) (err : P → PyErr) (e : Est α G P) (n : ℤ) {c : ℤ}
    (h : ∀ k, ¬ Names e.nComponents c k) (hr : S.ready e ≠ none) (g : G) : S.sampleFromAt R err e n c g = (.error (err e.sub), g) := by
  unfold Sub.sampleFromAt
  cases hh : S.ready e with
  | none => exact absurd hh hr
  | some r =>
    dsimp only
    unfold sampleCoreAt
    rw [axisIndex_none h]

theorem sampleFromAt_states (S : Sub α G P) (R : RandomLib α G) (err : P → PyErr) (e : Est α G P) (n c : ℤ) (g : G)
    {Z : List ℤ} {X : (nf : ℕ) × List (S.Obs nf)} (hg : (S.sampleFromAt R err e n c g).1 = .ok (Z, X)) :
    Z.head? = some c ∧ ∀ z ∈ Z.tail, 0 ≤ z ∧ z < e.nComponents := by
  unfold Sub.sampleFromAt at hg
  cases hr : S.ready e with
  | none => rw [hr] at hg; cases hg
  | some r =>
    rw [hr] at hg
    haveI : NeZero e.nComponents := ⟨r.pos⟩
    dsimp only at hg
    unfold sampleCoreAt at hg
    cases hc : axisIndex e.nComponents c with
    | none => rw [hc] at hg; cases hg
    | some z =>
      rw [hc] at hg
      dsimp only at hg
      rcases hem : S.sampleSub R e.sub r.θ.emission z g with ⟨er | x, g1⟩
      · rw [hem] at hg
        cases hg
      · rw [hem] at hg
        dsimp only at hg
        rcases hl : sampleLoop R r.θ.transmat (S.sampleSub R e.sub r.θ.emission) (n - 1).toNat z g1 with ⟨er | l, g2⟩
        · rw [hl] at hg
          cases hg
        · rw [hl] at hg
          obtain ⟨rfl, -⟩ := Prod.mk.inj (Except.ok.inj hg)
          refine ⟨rfl, fun z hz => ?_⟩
          simp only [List.map_cons, List.tail_cons, List.map_map, List.mem_map, Function.comp_apply] at hz
          obtain ⟨a, -, rfl⟩ := hz
          have := a.1.isLt
          omega

/-- **C106** Any class whose checks leave `n_components` alone. -/
theorem C106_sample (S : Sub α G P) {check : Py (Est α G P) Unit} (hnc : ∀ e, (check e).2.nComponents = e.nComponents)
    (R : RandomLib α G) (err : P → PyErr) :
    IndexedSample check (fun e => S.ready e ≠ none) (fun n s c => onEst check >>= fun _ => S.sampleBody R n s c) err
      fun n s c => onEst check >>= fun _ => S.sampleBodyAt R err n s c where
  inside n seed c k w h := by
    have hnc : (onEst check w).2.est.nComponents = w.est.nComponents := hnc w.est
    unfold Sub.sampleBodyAt Sub.sampleBody
    rcases hw : onEst check w with ⟨er | u, w1⟩
    · rw [Py.bind_error hw, Py.bind_error hw]; rfl
    · rw [Py.bind_ok hw, Py.bind_ok hw]
      rw [hw] at hnc
      have h' : Names w1.est.nComponents c k := by rw [hnc]; exact h
      have key := fun g => sampleFromAt_inside S R err w1.est n h' g
      cases seed with
      | some s =>
        simp only [Py.bind_apply, Py.get_apply, Py.lift_apply, key]
      | none =>
        simp only [Py.bind_apply, Py.get_apply, withSelfGen, key]
        cases w1.est.randomState <;> rfl
  outside n seed c w w1 h hw hr := by
    have hnc : (onEst check w).2.est.nComponents = w.est.nComponents := hnc w.est
    unfold Sub.sampleBodyAt
    rw [Py.bind_ok hw]
    rw [hw] at hnc
    have key := fun g => sampleFromAt_outside S R err w1.est n (c := c) (fun k hk => h k (hnc ▸ hk)) hr g
    cases seed with
    | some s => simp only [Py.bind_apply, Py.get_apply, Py.lift_apply, key]
    | none =>
      simp only [Py.bind_apply, Py.get_apply, withSelfGen, key]
      cases hg : w1.est.randomState with
      | gen g =>
        have : ({ w1 with est := { w1.est with randomState := .gen g } } : World α G P) = w1 := by
          rw [← hg]
        exact congrArg (Prod.mk _) this
      | _ => rfl
  states n seed c w w' Z X h := by
    have hnc : (onEst check w).2.est.nComponents = w.est.nComponents := hnc w.est
    unfold Sub.sampleBodyAt at h
    rcases hw : onEst check w with ⟨er | u, w1⟩
    · rw [Py.bind_error hw] at h
      cases h
    rw [Py.bind_ok hw] at h
    rw [hw] at hnc
    have h1 : ∃ g, (S.sampleFromAt R err w1.est n c g).1 = .ok (Z, X) := by
      cases seed with
      | some s => exact ⟨_, congrArg Prod.fst h⟩
      | none =>
        simp only [Py.bind_apply, Py.get_apply, withSelfGen] at h
        cases hg : w1.est.randomState <;> rw [hg] at h <;> exact ⟨_, congrArg Prod.fst h⟩
    obtain ⟨g, hg⟩ := h1
    rw [← hnc]
    exact sampleFromAt_states S R err w1.est n c g hg

theorem indexed_of_lawful {S : Sub α G P} (hS : S.Lawful) (R : RandomLib α G) (err : P → PyErr) : IndexedSub S R err (S.sampleAt R err) :=
  C106_sample S (fun e => by rw [hS.fitted_frame]) R err

theorem vindexed_of_lawful {Q : Type} {V : VSub α G Q} (hV : V.Lawful) (R : RandomLib α G) (err : VAttrs α Q → PyErr) :
    IndexedVSub V R err (V.sampleAt R err) :=
  C106_sample V.core (fun e => by rw [hV.fitted_frame]) R err

/-! ## The classes -/

variable {R : RandomLib α G} {eig : Eigvalsh α}

/-- **C106** `CategoricalHMM`. -/
theorem C106_categorical : IndexedSub (catSub : Sub α G _) R (fun _ => .indexError) (catSub.sampleAt R indexFirst) :=
  indexed_of_lawful catSub_lawful R _

/-- **C106** `PoissonHMM`. -/
theorem C106_poisson : IndexedSub (poisSub : Sub α G _) R (fun _ => .indexError) (poisSub.sampleAt R indexFirst) :=
  indexed_of_lawful poisSub_lawful R _

/-- **C106** `MultinomialHMM`. -/
theorem C106_multinomial : IndexedSub (multiSub : Sub α G _) R (fun p => trialsError p.nTrials) (multiSub.sampleAt R multiRowError) := by
  have : (fun p : MultiAttrs α => trialsError p.nTrials) = multiRowError := by
    funext p
    unfold multiRowError trialsError
    have key : OneTrials p.nTrials ↔ uniqueTrials p.nTrials ≠ none := by
      rcases p.nTrials with _ | n | l
      · simp [OneTrials, uniqueTrials]
      · simp [OneTrials, uniqueTrials]
      rcases l with _ | ⟨n, l⟩
      · simp [OneTrials, uniqueTrials]
      simp only [OneTrials, uniqueTrials, ne_eq, reduceCtorEq, not_false_eq_true, true_and, ite_eq_right_iff, imp_false, not_not,
        List.all_eq_true, beq_iff_eq, List.mem_cons]
      constructor
      · intro h x hx
        exact h x (.inr hx) n (.inl rfl)
      · rintro h a (rfl | ha) b (rfl | hb)
        · rfl
        · exact (h b hb).symm
        · exact h a ha
        · rw [h a ha, h b hb]
    rcases hu : uniqueTrials p.nTrials with _ | n
    · rw [if_neg (fun h => key.1 h hu)]
    · rw [if_pos (key.2 (by rw [hu]; simp))]
  rw [this]
  exact indexed_of_lawful multiSub_lawful R _

/-- **C106** `GaussianHMM`. -/
theorem C106_gaussian :
    IndexedSub (gaussDiagSub eig : Sub α G _) R (fun _ => .indexError) ((gaussDiagSub eig).sampleAt R indexFirst) ∧
    IndexedSub (gaussSphericalSub eig : Sub α G _) R (fun _ => .indexError) ((gaussSphericalSub eig).sampleAt R indexFirst) ∧
    IndexedSub (gaussFullSub eig : Sub α G _) R (fun _ => .indexError) ((gaussFullSub eig).sampleAt R indexFirst) ∧
    IndexedSub (gaussTiedSub eig : Sub α G _) R (fun _ => .indexError) ((gaussTiedSub eig).sampleAt R indexFirst) :=
  ⟨indexed_of_lawful (gaussDiagSub_lawful eig) R _, indexed_of_lawful (gaussSphericalSub_lawful eig) R _, indexed_of_lawful (gaussFullSub_lawful eig) R _,
    indexed_of_lawful (gaussTiedSub_lawful eig) R _⟩

/-- **C106** `GMMHMM`. -/
theorem C106_gmm {nm : ℕ} [NeZero nm] (T : GmmType α nm) :
    IndexedSub (gmmSub (G := G) T) R (fun _ => .indexError) ((gmmSub T).sampleAt R indexFirst) :=
  indexed_of_lawful (gmmSub_lawful T) R _

/-- **C106** `VariationalCategoricalHMM`. -/
theorem C106_vcategorical (sci : Sci α) : IndexedVSub (vcatSub (G := G) sci) R (fun _ => .indexError) ((vcatSub sci).sampleAt R indexFirst) :=
  vindexed_of_lawful (vcatSub_lawful sci) R _

/-- **C106** `VariationalGaussianHMM`. -/
theorem C106_vgaussian (L : VLayout α G) (sci : Sci α) :
    IndexedVSub (vgaussSub L sci eig) R (fun _ => .indexError) ((vgaussSub L sci eig).sampleAt R indexFirst) :=
  vindexed_of_lawful (vgaussSub_lawful L sci eig) R _

end Verif
