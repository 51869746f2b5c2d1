import Verif.Model.Estimators
import Verif.Num.XFLemmas
import Verif.Proofs.Cholesky
import Mathlib.Tactic.Linarith
import Mathlib.Tactic.FieldSimp
import Mathlib.Tactic.NormNum

/-!
# Lemmas on the estimator objects
-/

namespace Verif
open FloatLike XF

section
variable {α G P : Type} [FloatLike α]

omit [FloatLike α] in
theorem find_not_any {l : List Char} {t : List (Char × Int)} :
    (l.find? fun c => !(t.any fun p => p.1 == c)) = none ↔ ∀ c ∈ l, ∃ p ∈ t, p.1 = c := by
  simp [List.find?_eq_none, List.any_eq_true]

/-! ## Calls of inference methods see a checked estimator -/

/-- `_check` touches only `n_features` and the subclass's attributes, and repeating it changes
nothing. -/
structure Sub.Lawful (S : Sub α G P) : Prop where
  frame : ∀ e, (S.checkSub e).2 =
    { e with nFeatures := (S.checkSub e).2.nFeatures, sub := (S.checkSub e).2.sub }
  idem : ∀ e, S.checkSub (S.checkSub e).2 = S.checkSub e

theorem checkBase_frame (e : Est α G P) (nf : Option Nat) (p : P) :
    checkBase { e with nFeatures := nf, sub := p } = checkBase e := rfl

theorem Sub.check_eq (S : Sub α G P) (e : Est α G P) : S.check e =
    match checkBase e with
    | .ok _ => S.checkSub e
    | .error err => (.error err, e) := by
  simp only [Sub.check, Py.bind_apply, Py.get_apply, Py.lift_apply]
  cases checkBase e <;> rfl

theorem Sub.Lawful.check_frame {S : Sub α G P} (h : S.Lawful) (e : Est α G P) :
    (S.check e).2 = { e with nFeatures := (S.check e).2.nFeatures, sub := (S.check e).2.sub } := by
  rw [S.check_eq]
  cases checkBase e with
  | error err => rfl
  | ok _ => exact h.frame e

theorem Sub.Lawful.check_idem {S : Sub α G P} (h : S.Lawful) (e : Est α G P) :
    S.check (S.check e).2 = S.check e := by
  rw [S.check_eq, h.check_frame, checkBase_frame, ← h.check_frame]
  have := S.check_eq e
  cases hb : checkBase e with
  | error err => rw [hb] at this; rw [this]
  | ok _ => rw [hb] at this; simp only at this ⊢; rw [this, h.idem]

theorem Sub.checkFitted_eq (S : Sub α G P) (e : Est α G P) : S.checkFitted e =
    if e.startprob.isNone then (.error .notFitted, e) else S.check e := by
  simp only [Sub.checkFitted, Py.bind_apply, Py.get_apply]
  split <;> rfl

theorem Sub.Lawful.fitted_frame {S : Sub α G P} (h : S.Lawful) (e : Est α G P) :
    (S.checkFitted e).2 =
      { e with nFeatures := (S.checkFitted e).2.nFeatures, sub := (S.checkFitted e).2.sub } := by
  rw [S.checkFitted_eq]
  split
  · rfl
  · exact h.check_frame e

theorem Sub.Lawful.fitted_idem {S : Sub α G P} (h : S.Lawful) (e : Est α G P) :
    S.checkFitted (S.checkFitted e).2 = S.checkFitted e := by
  have hs : (S.checkFitted e).2.startprob = e.startprob := by rw [h.fitted_frame]
  rw [S.checkFitted_eq (S.checkFitted e).2, hs, S.checkFitted_eq e]
  split
  · rfl
  · exact h.check_idem e

end

/-! ## The classes are lawful -/

section
variable {α G : Type} [FloatLike α]

omit [FloatLike α] in
@[simp] theorem atleast2d_idem {β : Type} (a : NdArray β) : atleast2d (atleast2d a) = atleast2d a := by
  cases a <;> rfl

omit [FloatLike α] in
theorem atleast2d_shape {β : Type} (a : NdArray β) : ∃ m n l, (atleast2d a).shape = m :: n :: l := by
  cases a <;> exact ⟨_, _, _, rfl⟩

theorem catSub_lawful : (catSub : Sub α G (CatAttrs α)).Lawful where
  frame e := by
    show (catCheck e).2 = _
    change _ = { e with nFeatures := (catCheck e).2.nFeatures, sub := (catCheck e).2.sub }
    unfold catCheck
    cases h : e.sub.emissionprob with
    | none => rfl
    | some a =>
      cases hn : e.nFeatures <;> simp only [Option.isNone, if_true, Bool.false_eq_true, if_false] <;>
        split <;> rfl
  idem e := by
    change catCheck (catCheck e).2 = catCheck e
    cases h : e.sub.emissionprob with
    | none => simp [catCheck, h]
    | some a =>
      obtain ⟨m, n, l, hs⟩ := atleast2d_shape a
      cases hn : e.nFeatures with
      | none =>
        by_cases hc : m :: n :: l = [e.nComponents, n]
        · simp [catCheck, h, hn, hs, hc]
        · simp [catCheck, h, hn, hs, hc]
      | some k =>
        by_cases hc : m :: n :: l = [e.nComponents, k]
        · simp [catCheck, h, hn, hs, hc]
        · simp [catCheck, h, hn, hs, hc]

theorem multiSub_lawful : (multiSub : Sub α G (MultiAttrs α)).Lawful where
  frame e := by
    change (multiCheck e).2 = { e with nFeatures := (multiCheck e).2.nFeatures, sub := (multiCheck e).2.sub }
    unfold multiCheck
    cases h : e.sub.emissionprob with
    | none => rfl
    | some a => simp only; split <;> [rfl; (split <;> rfl)]
  idem e := by
    change multiCheck (multiCheck e).2 = multiCheck e
    cases h : e.sub.emissionprob with
    | none => simp [multiCheck, h]
    | some a =>
      obtain ⟨m, n, l, hs⟩ := atleast2d_shape a
      cases hn : e.nFeatures with
      | none =>
        by_cases hc : m :: n :: l = [e.nComponents, n] <;> cases ht : e.sub.nTrials <;>
          simp [multiCheck, h, hn, hs, hc, ht]
      | some k =>
        by_cases hc : m :: n :: l = [e.nComponents, k] <;> cases ht : e.sub.nTrials <;>
          simp [multiCheck, h, hn, hs, hc, ht]

theorem poisSub_lawful : (poisSub : Sub α G (PoisAttrs α)).Lawful where
  frame e := by
    change (poisCheck e).2 = { e with nFeatures := (poisCheck e).2.nFeatures, sub := (poisCheck e).2.sub }
    unfold poisCheck
    cases h : e.sub.lambdas with
    | none => rfl
    | some a => simp only; split <;> rfl
  idem e := by
    change poisCheck (poisCheck e).2 = poisCheck e
    cases h : e.sub.lambdas with
    | none => simp [poisCheck, h]
    | some a =>
      obtain ⟨m, n, l, hs⟩ := atleast2d_shape a
      cases hn : e.nFeatures with
      | none =>
        by_cases hc : m :: n :: l = [e.nComponents, n] <;> simp [poisCheck, h, hn, hs, hc]
      | some k =>
        by_cases hc : m :: n :: l = [e.nComponents, k] <;> simp [poisCheck, h, hn, hs, hc]

theorem gaussCheck_frame (e : Est α G (GaussAttrs α)) : (gaussCheck e).2 =
    { e with nFeatures := (gaussCheck e).2.nFeatures, sub := (gaussCheck e).2.sub } := by
  unfold gaussCheck
  cases h : e.sub.means with
  | none => rfl
  | some a => simp only; split <;> rfl

theorem gaussCheck_idem (e : Est α G (GaussAttrs α)) : gaussCheck (gaussCheck e).2 = gaussCheck e := by
  unfold gaussCheck
  cases h : e.sub.means with
  | none => simp [h]
  | some a =>
    cases hs : a.shape[1]? with
    | none => simp [h, hs]
    | some nf => simp [h, hs]

variable (eig : Eigvalsh α)

theorem gaussDiagSub_lawful : (gaussDiagSub eig : Sub α G (GaussAttrs α)).Lawful :=
  ⟨gaussCheck_frame, gaussCheck_idem⟩
theorem gaussSphericalSub_lawful : (gaussSphericalSub eig : Sub α G (GaussAttrs α)).Lawful :=
  ⟨gaussCheck_frame, gaussCheck_idem⟩
theorem gaussFullSub_lawful : (gaussFullSub eig : Sub α G (GaussAttrs α)).Lawful :=
  ⟨gaussCheck_frame, gaussCheck_idem⟩
theorem gaussTiedSub_lawful : (gaussTiedSub eig : Sub α G (GaussAttrs α)).Lawful :=
  ⟨gaussCheck_frame, gaussCheck_idem⟩

end
end Verif
