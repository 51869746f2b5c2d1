import Verif.Model.GmmEstimator
import Verif.Model.VEstimator

/-!
# `sample(currstate=c)` for any integer `c`

`currstate` is only used as an index: of `transmat_cdf` (src/hmmlearn/base.py:446) and, in
`_generate_sample_from_state`, of the parameters of the subclass.  Nothing checks it.
-/
set_option autoImplicit false

namespace Verif
open FloatLike
variable {α G P : Type} [FloatLike α]

/-- Position of index `c` of an axis of length `n` in numpy: negative numbers count from the end. -/
def axisIndex (n : Nat) (c : Int) : Option (Fin n) :=
  if h : 0 ≤ c ∧ c < n then some ⟨c.toNat, by omega⟩
  else if h : -n ≤ c ∧ c < 0 then some ⟨(c + n).toNat, by omega⟩
  else none

/-- The body of `sample`, base.py:430-451, with `currstate=c`.  `rowError` is what `_generate_sample_from_state` raises
for a state without parameters; it does so before it draws. -/
def sampleCoreAt {nc : Nat} [NeZero nc] {Obs : Type} (R : RandomLib α G) (A : Mat α nc) (em : Fin nc → G → Except PyErr Obs × G)
    (rowError : PyErr) (n c : Int) (g : G) : Except PyErr (List (Int × Obs)) × G :=
  match axisIndex nc c with
  | none => (.error rowError, g)
  | some z =>
    match em z g with
    | (.error e, g) => (.error e, g)
    | (.ok x, g) =>
      match sampleLoop R A em (n - 1).toNat z g with
      | (.error e, g) => (.error e, g)
      | (.ok rest, g) => (.ok ((c, x) :: rest.map fun p => ((p.1.val : Int), p.2)), g)

/-- What `sample(currstate=c)` does once a generator is chosen. -/
def Sub.sampleFromAt (S : Sub α G P) (R : RandomLib α G) (rowError : P → PyErr) (e : Est α G P) (n c : Int) (g : G) :
    Except PyErr (List Int × ((nf : Nat) × List (S.Obs nf))) × G :=
  match S.ready e with
  | none => (.error .notImplemented, g)
  | some r =>
    haveI : NeZero e.nComponents := ⟨r.pos⟩
    match sampleCoreAt R r.θ.transmat (S.sampleSub R e.sub r.θ.emission) (rowError e.sub) n c g with
    | (.error err, g) => (.error err, g)
    | (.ok l, g) => (.ok (l.map Prod.fst, ⟨r.nf, l.map Prod.snd⟩), g)

/-- `sample` after the checks, base.py:429-451. -/
def Sub.sampleBodyAt (S : Sub α G P) (R : RandomLib α G) (rowError : P → PyErr) (n : Int) (seed : Option Nat) (c : Int) :
    Py (World α G P) (List Int × ((nf : Nat) × List (S.Obs nf))) := do
  let w ← Py.get
  match seed with
  | some k => Py.lift (S.sampleFromAt R rowError w.est n c (R.ofSeed k)).1
  | none => do
    let r ← withSelfGen R (S.sampleFromAt R rowError w.est n c)
    Py.lift r

/-- `sample(n, random_state=seed, currstate=c)`, base.py:398-451. -/
def Sub.sampleAt (S : Sub α G P) (R : RandomLib α G) (rowError : P → PyErr) (n : Int) (seed : Option Nat) (c : Int) :
    Py (World α G P) (List Int × ((nf : Nat) × List (S.Obs nf))) := do
  onEst S.checkFitted
  S.sampleBodyAt R rowError n seed c

/-- The same for the variational classes. -/
def VSub.sampleAt {Q : Type} (V : VSub α G Q) (R : RandomLib α G) (rowError : VAttrs α Q → PyErr) (n : Int) (seed : Option Nat)
    (c : Int) : Py (World α G (VAttrs α Q)) (List Int × ((nf : Nat) × List (V.core.Obs nf))) := do
  onEst V.checkFitted
  V.core.sampleBodyAt R rowError n seed c

/-- The first thing `_generate_sample_from_state` does is to index the parameters: _emissions.py:107, :180, :295, :410. -/
def indexFirst : P → PyErr := fun _ => .indexError

/-- `MultinomialHMM` looks at `n_trials` before, _emissions.py:364-368. -/
def multiRowError (p : MultiAttrs α) : PyErr :=
  match uniqueTrials p.nTrials with
  | none => .valueError "For sampling, a single n_trials must be given"
  | some _ => .indexError

end Verif
