import Verif.Model.Variational

/-!
# What `fit` prints and logs, src/hmmlearn/base.py:89-117 and :483-500

`fitLoop` and `vfitLoop` follow the attributes through the loop of `fit`; here the loop also keeps
what it writes to `sys.stderr` (`verbose=True`) and to the logger.  Messages are their arguments,
not their wording.
-/

set_option autoImplicit false

namespace Verif
open FloatLike

/-- One line of output or one warning. -/
inductive Event (α : Type) where
  /-- the three columns of a verbose line, base.py:107-109 -/
  | line (iter : Nat) (logProb delta : α)
  /-- "Model is not converging", base.py:114-116: current and previous value -/
  | notConverging (current previous : α)
  /-- "Some rows of transmat_ have zero sum", base.py:498-499 -/
  | zeroRow

variable {α σ : Type} [FloatLike α]

/-- `np.finfo(float).eps ** (1/2)`, base.py:112: the square root of `2 ** -52`. -/
def precision : α := ofRat (1 / 2 ^ 26)

/-- What `report` writes, base.py:104-116. -/
def Monitor.events (verbose : Bool) (m : Monitor α) (logProb : α) : List (Event α) :=
  (if verbose then
    [.line (m.iter + 1) logProb (match m.history.getLast? with
      | some prev => logProb - prev
      | none => nan)]
  else []) ++
  match m.history.getLast? with
  | some prev => if lt (logProb - prev) (-precision) then [.notConverging logProb prev] else []
  | none => []

/-- The loop of `fit`, base.py:484-500, with what it writes.  `zeroRow` is the test at base.py:497, which may
raise. -/
def fitLoopLog (verbose : Bool) (step : σ → Except PyErr (σ × α)) (zeroRow : σ → Except PyErr Bool) :
    Nat → σ → Monitor α → List (Event α) × FitOutcome α σ
  | 0, s, mon => ([], ⟨s, mon, none⟩)
  | k + 1, s, mon =>
    match step s with
    | .error e => ([], ⟨s, mon, some e⟩)
    | .ok (s', lb) =>
      let out := mon.events verbose lb
      let mon' := mon.report lb
      if mon'.converged then (out, ⟨s', mon', none⟩)
      else match zeroRow s' with
        | .error e => (out, ⟨s', mon', some e⟩)
        | .ok z =>
          let rest := fitLoopLog verbose step zeroRow k s' mon'
          (out ++ (if z then [.zeroRow] else []) ++ rest.1, rest.2)

/-- `(self.transmat_.sum(axis=1) == 0).any()`, base.py:497. -/
def someZeroRow {nc : Nat} (A : Mat α nc) : Bool := (List.finRange nc).any fun i => eq (sumF (A i)) 0

variable {nc : Nat} [NeZero nc] {Obs VP P S : Type}

/-- `fit` of a `BaseHMM` after `_init` and `_check`, with what it writes. -/
def fitFromLog (verbose : Bool) (E : Emission α nc Obs P S) (cfg : Config α nc) (X : List Obs)
    (lengths : Option (List Int)) (θ : Theta α nc P) (mon : Monitor α) :
    List (Event α) × FitOutcome α (Theta α nc P) :=
  fitLoopLog verbose (emStep E cfg X (lengths.getD [(X.length : Int)])) (fun θ => .ok (someZeroRow θ.transmat))
    cfg.nIter θ mon.reset

/-- The same for a `VariationalBaseHMM`, whose `transmat_` may be missing. -/
def VEmission.fitFromLog (verbose : Bool) (V : VEmission α nc Obs VP P S) (sci : Sci α) (cfg : Config α nc)
    (X : List Obs) (lengths : Option (List Int)) (θ : VTheta α nc VP) (mon : Monitor α) :
    List (Event α) × FitOutcome α (VTheta α nc VP) :=
  fitLoopLog verbose (V.step sci cfg X (lengths.getD [(X.length : Int)]))
    (fun θ => match θ.transmat with
      | none => .error (.attributeError "transmat_")
      | some A => .ok (someZeroRow A))
    cfg.nIter θ mon.reset

end Verif
