import Verif.Model.Estimator

/-!
# Specification: sequences of inference calls on one estimator
-/

namespace Verif.Spec

/-- A call of a public inference method; `sample` with an explicit seed. -/
inductive Call (α : Type) where
  | score (X : RawX α) (lengths : Option (List Int))
  | scoreSamples (X : RawX α) (lengths : Option (List Int))
  | predictProba (X : RawX α) (lengths : Option (List Int))
  | decode (X : RawX α) (lengths : Option (List Int)) (algorithm : Option String)
  | predict (X : RawX α) (lengths : Option (List Int))
  | sample (n : Int) (seed : Nat) (currstate : Option Nat)

/-- What the call returns. -/
inductive Answer {α G P : Type} [FloatLike α] (S : Sub α G P) where
  | float (x : α)
  | floatAndRows (x : α) (rows : List (List α))
  | rows (rows : List (List α))
  | floatAndStates (x : α) (states : List Nat)
  | states (states : List Nat)
  | samples (states : List Nat) (nf : Nat) (rows : List (S.Obs nf))

variable {α G P : Type} [FloatLike α]

/-- Executing a call. -/
def Call.run (S : Sub α G P) (R : RandomLib α G) : Call α → Py (World α G P) (Answer S)
  | .score X ls => do let r ← onEst (S.score X ls); return .float r
  | .scoreSamples X ls => do let r ← onEst (S.scoreSamples X ls true); return .floatAndRows r.1 r.2
  | .predictProba X ls => do let r ← onEst (S.predictProba X ls); return .rows r
  | .decode X ls a => do let r ← onEst (S.decode X ls a); return .floatAndStates r.1 r.2
  | .predict X ls => do let r ← onEst (S.predict X ls); return .states r
  | .sample n k c => do let r ← S.sample R n (some k) c; return .samples r.1 r.2.1 r.2.2

/-- The state after a sequence of calls, some of which may have raised. -/
def afterCalls (S : Sub α G P) (R : RandomLib α G) : List (Call α) → World α G P → World α G P
  | [], w => w
  | c :: cs, w => afterCalls S R cs (c.run S R w).2

/-- Anything a user may call on an estimator. -/
inductive Action (α : Type) where
  | fit (X : RawX α) (lengths : Option (List Int))
  | infer (c : Call α)
  /-- `sample()` drawing from the estimator's own generator -/
  | sample (n : Int) (currstate : Option Nat)

/-- The state after an action, whether it returned or raised. -/
def Action.after (S : Sub α G P) (R : RandomLib α G) : Action α → World α G P → World α G P
  | .fit X ls, w => (S.fit R X ls w).2
  | .infer c, w => (c.run S R w).2
  | .sample n c, w => (S.sample R n none c w).2

/-- The state after a history of actions. -/
def afterActions (S : Sub α G P) (R : RandomLib α G) : List (Action α) → World α G P → World α G P
  | [], w => w
  | a :: as, w => afterActions S R as (a.after S R w)

end Verif.Spec
