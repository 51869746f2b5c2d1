import Verif.Model.Base
import Verif.Spec.Data
import Mathlib.Tactic.Ring
import Mathlib.Algebra.BigOperators.Group.List.Basic
import Mathlib.Algebra.Order.BigOperators.Group.List

/-!
# `split_X_lengths` and the loop over sequences
-/

namespace Verif
open Spec

section
variable {β : Type}

theorem cumsumInt_getLast? (a : Int) (ls : List Int) (h : ls ≠ []) :
    (cumsumInt a ls).getLast? = some (a + ls.sum) := by
  induction ls generalizing a with
  | nil => exact absurd rfl h
  | cons l ls ih =>
    cases ls with
    | nil => simp [cumsumInt]
    | cons l' ls =>
      have := ih (a + l) (by simp)
      rw [cumsumInt, List.getLast?_cons, this]
      simp [List.sum_cons]; ring

theorem pyBound_natCast {n k : ℕ} (h : k ≤ n) : pyBound n (k : Int) = k := by
  have h0 : ¬ (k : Int) < 0 := by omega
  rw [pyBound, if_neg h0, Int.toNat_natCast]; omega

theorem npSplitInit_blocks (ss : List (List β)) (pre post : List β) :
    npSplitInit (pre ++ ss.flatten ++ post) (pre.length : Int)
      (cumsumInt pre.length (ss.map fun s => (s.length : Int))) = ss := by
  induction ss generalizing pre with
  | nil => rfl
  | cons s ss ih =>
    simp only [List.map_cons, cumsumInt, npSplitInit, List.flatten_cons]
    congr 1
    · have e : (pre.length : Int) + (s.length : Int) = ((pre.length + s.length : ℕ) : Int) := by
        push_cast; ring
      rw [e]
      simp only [pySlice]
      rw [pyBound_natCast (by simp), pyBound_natCast (by simp)]
      simp [List.append_assoc]
    · have := ih (pre ++ s)
      rw [List.length_append] at this
      push_cast at this
      rw [← List.append_assoc]
      exact this

theorem splitXLengths_blocks (ss : List (List β)) (h : ss ≠ []) :
    splitXLengths ss.flatten (some (ss.map fun s => (s.length : Int))) = .ok ss := by
  have hne : (ss.map fun s => (s.length : Int)) ≠ [] := by simpa using h
  simp only [splitXLengths, cumsumInt_getLast? 0 _ hne]
  have hs : (0 : Int) + (ss.map fun s => (s.length : Int)).sum = (ss.flatten.length : Int) := by
    rw [List.length_flatten, zero_add]
    induction ss with
    | nil => rfl
    | cons s ss ih =>
      by_cases h' : ss = []
      · subst h'; simp
      · have := ih h' (by simpa using h')
        simp only [List.map_cons, List.sum_cons]
        rw [this]
        push_cast
        ring
  rw [if_neg (by rw [hs]; simp)]
  have := npSplitInit_blocks ss [] []
  simp only [List.nil_append, List.append_nil, List.length_nil, Nat.cast_zero] at this
  rw [this]

theorem exists_blocks (X : List β) (ls : List Int) (hn : ∀ l ∈ ls, 0 ≤ l)
    (hs : ls.sum = X.length) :
    ∃ ss : List (List β), ss.flatten = X ∧ (ss.map fun s => (s.length : Int)) = ls := by
  induction ls generalizing X with
  | nil =>
    refine ⟨[], ?_, rfl⟩
    simp only [List.sum_nil] at hs
    have : X.length = 0 := by exact_mod_cast hs.symm
    simp [List.length_eq_zero_iff.1 this]
  | cons l ls ih =>
    have hl : 0 ≤ l := hn l (by simp)
    have hle : 0 ≤ ls.sum := List.sum_nonneg fun x hx => hn x (by simp [hx])
    simp only [List.sum_cons] at hs
    obtain ⟨ss, h1, h2⟩ := ih (X.drop l.toNat) (fun x hx => hn x (by simp [hx])) (by
      rw [List.length_drop]; omega)
    refine ⟨X.take l.toNat :: ss, ?_, ?_⟩
    · simp [h1]
    · simp only [List.map_cons, h2, List.length_take]
      congr 1
      omega

end

/-- The loop over sequences computes every single-sequence result, in order, and adds the
log-probabilities and concatenates the outputs. -/
theorem seqLoop_eq {α : Type} [FloatLike α] {Obs γ : Type}
    (one : List Obs → Except PyErr (α × List γ)) (ss : List (List Obs)) (lp : α) (out : List γ) :
    seqLoop one ss lp out = (ss.mapM one).map fun rs =>
      ((rs.map (·.1)).foldl (· + ·) lp, out ++ (rs.map (·.2)).flatten) := by
  induction ss generalizing lp out with
  | nil => simp [seqLoop, pure, Except.pure, Except.map]
  | cons s ss ih =>
    simp only [seqLoop, List.mapM_cons, bind, Except.bind, pure, Except.pure]
    cases one s with
    | error e => rfl
    | ok p =>
      simp only [ih]
      cases ss.mapM one with
      | error e => rfl
      | ok rs => simp [Except.map]

theorem dataLengths_eq {D Obs : Type} (obs : D → Obs) (ss : List (ObsSeq D)) :
    dataLengths ss = (ss.map (ObsSeq.rows obs)).map fun s => (s.length : Int) := by
  simp [dataLengths, ObsSeq.rows]

/-- The documented way of passing several sequences is split back into them. -/
theorem splitXLengths_data {D Obs : Type} (obs : D → Obs) (ss : List (ObsSeq D)) (h : ss ≠ []) :
    splitXLengths (dataX obs ss) (some (dataLengths ss)) = .ok (ss.map (ObsSeq.rows obs)) := by
  rw [dataLengths_eq obs, dataX]
  exact splitXLengths_blocks _ (by simpa using h)

end Verif
