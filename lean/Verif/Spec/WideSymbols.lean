import Verif.Model.WideSymbols
/-
Symbol arrays with several columns: the array is read row by row, and lengths count rows.
-/
set_option autoImplicit false

namespace Verif.Spec

variable {α G P Q : Type} [FloatLike α] {d : ℕ}

/-- Integers as the array `X`, one row per entry of the list. -/
def rowsX (l : List (Fin d → ℤ)) : RawX α := .ints (.d2 (m := l.length) fun t k => l.get t k)

/-- The entries as one column, row after row. -/
def inColumn (l : List (Fin d → ℤ)) : List (Fin 1 → ℤ) := (l.map fun r => List.ofFn fun j _ => r j).flatten

/-- Every length times `d`. -/
def timesLengths (d : ℕ) (ls : Option (List ℤ)) : Option (List ℤ) := ls.map fun l => l.map fun n => d * n

/-- No sequence is empty. -/
def PositiveLengths (ls : Option (List ℤ)) : Prop := ∀ l, ls = some l → ∀ n ∈ l, 0 < n

/-- Inference `W` on arrays with `d` columns is inference `S` on the column. -/
structure ReadsRowByRow (d : ℕ)
    (scoreW scoreS : RawX α → Option (List ℤ) → Bool → Py (Est α G P) (α × List (List α)))
    (decodeW decodeS : RawX α → Option (List ℤ) → Option String → Py (Est α G P) (α × List ℕ)) : Prop where
  scoreSamples : ∀ (l : List (Fin d → ℤ)) ls b, d = 1 ∨ PositiveLengths ls →
    scoreW (rowsX l) ls b = scoreS (rowsX (inColumn l)) (timesLengths d ls) b
  decode : ∀ (l : List (Fin d → ℤ)) ls alg, d = 1 ∨ PositiveLengths ls →
    decodeW (rowsX l) ls alg = decodeS (rowsX (inColumn l)) (timesLengths d ls) alg
  /-- with several columns an empty sequence raises -/
  score_empty : d ≠ 1 → ∀ (l : List (Fin d → ℤ)) ns b e, (∀ n ∈ ns, 0 ≤ n) → 0 ∈ ns →
    ∃ err, (scoreW (rowsX l) (some ns) b e).1 = .error err
  decode_empty : d ≠ 1 → ∀ (l : List (Fin d → ℤ)) ns alg e, (∀ n ∈ ns, 0 ≤ n) → 0 ∈ ns →
    ∃ err, (decodeW (rowsX l) (some ns) alg e).1 = .error err

/-- The remaining methods of `CategoricalHMM`; `bic` counts rows, not symbols. -/
structure TrainsRowByRow (d : ℕ) (W S : Sub α G P) (R : RandomLib α G) : Prop where
  score : ∀ (l : List (Fin d → ℤ)) ls, d = 1 ∨ PositiveLengths ls →
    W.score (rowsX l) ls = S.score (rowsX (inColumn l)) (timesLengths d ls)
  predictProba : ∀ (l : List (Fin d → ℤ)) ls, d = 1 ∨ PositiveLengths ls →
    W.predictProba (rowsX l) ls = S.predictProba (rowsX (inColumn l)) (timesLengths d ls)
  predict : ∀ (l : List (Fin d → ℤ)) ls, d = 1 ∨ PositiveLengths ls →
    W.predict (rowsX l) ls = S.predict (rowsX (inColumn l)) (timesLengths d ls)
  fit : ∀ (l : List (Fin d → ℤ)) ls, d = 1 ∨ PositiveLengths ls →
    W.fit R (rowsX l) ls = S.fit R (rowsX (inColumn l)) (timesLengths d ls)
  aic : ∀ missing (l : List (Fin d → ℤ)) ls, d = 1 ∨ PositiveLengths ls →
    W.aic missing (rowsX l) ls = S.aic missing (rowsX (inColumn l)) (timesLengths d ls)
  bic : ∀ missing (l : List (Fin d → ℤ)) ls, d = 1 ∨ PositiveLengths ls → ∀ e k s e',
    S.nParams missing e = .ok k → S.score (rowsX (inColumn l)) (timesLengths d ls) e = (.ok s, e') →
    W.bic missing (rowsX l) ls e =
      (.ok (FloatLike.ofInt' (-2) * s + FloatLike.ofInt' k * FloatLike.log (FloatLike.ofNat' l.length)), e') ∧
    S.bic missing (rowsX (inColumn l)) (timesLengths d ls) e =
      (.ok (FloatLike.ofInt' (-2) * s + FloatLike.ofInt' k * FloatLike.log (FloatLike.ofNat' (l.length * d))), e')

/-- Training of the variational class on several columns raises, and learns nothing. -/
structure WideFitRaises (d : ℕ) (V : VSub α G Q) (R : RandomLib α G) : Prop where
  raises : ∀ (l : List (Fin d → ℤ)) ls w w1 e, l ≠ [] → V.init R (.ints l) (ls.getD [(l.length : ℤ)]) w = (.ok (), w1) →
    V.check w1.est = (.ok (), e) → e.nIter ≠ 0 →
    ∃ err, V.fit R (rowsX l) ls w = (.error err, ⟨{ e with monitor := e.monitor.reset }, w1.glob⟩) ∧
      (e.implementation = "log" ∨ e.implementation = "scaling" → (∀ ns, ls = some ns → ns ≠ [] ∧ ns.sum = l.length) →
        (V.ready e).isSome → ∃ msg, err = .valueError msg)

end Verif.Spec
