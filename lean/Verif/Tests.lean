import Mathlib.Data.Fin.VecNotation
import Verif.Model.HmmcRaw
import Verif.Model.Base
import Verif.Model.Monitor
import Verif.Model.Categorical
import Verif.Model.Train
import Verif.Model.Kl

/-!
# The model run on doubles

The numbers of hmmlearn's own test-suite (src/hmmlearn/tests), as a check that the model describes
the code.  These are tests: no theorem depends on this file.
-/

set_option autoImplicit false

namespace Verif.Tests

/-- Within `1e-4`, as in the test-suite. -/
def near (a b : Float) : Bool := (a - b).abs < 1e-4

def rowNear {n : Nat} (a : Fin n → Float) (b : List Float) : Bool :=
  b.length == n && (List.finRange n).all fun i => near (a i) (b.getD i.val 0)

def rowsNear {n : Nat} (a : List (Fin n → Float)) (b : List (List Float)) : Bool :=
  a.length == b.length && (a.zip b).all fun (x, y) => rowNear x y

def okAnd {β : Type} (r : Except PyErr β) (p : β → Bool) : Bool :=
  match r with
  | .ok x => p x
  | .error _ => false

/-! test_base.py, `TestBaseAgainstWikipedia` -/

def frame : List (Row Float 2) := [![0.9, 0.2], ![0.9, 0.2], ![0.1, 0.8], ![0.9, 0.2], ![0.9, 0.2]]
def logFrame : List (Row Float 2) := frame.map fun r i => (r i).log
def wikiA : Mat Float 2 := ![![0.7, 0.3], ![0.3, 0.7]]
def wikiPi : Row Float 2 := ![0.5, 0.5]
def refFwd : List (List Float) :=
  [[0.4500, 0.1000], [0.3105, 0.0410], [0.0230, 0.0975], [0.0408, 0.0150], [0.0298, 0.0046]]
def refBwd : List (List Float) :=
  [[0.0661, 0.0455], [0.0906, 0.1503], [0.4593, 0.2437], [0.6900, 0.4100], [1.0000, 1.0000]]
def refPost : List (List Float) :=
  [[0.8673, 0.1327], [0.8204, 0.1796], [0.3075, 0.6925], [0.8204, 0.1796], [0.8673, 0.1327]]

def expAll (l : List (Row Float 2)) : List (Row Float 2) := l.map fun r i => (r i).exp

def wiki (impl : Impl) : Hmm Float 2 Unit :=
  ⟨wikiPi, wikiA, fun _ => .ok frame, fun _ => .ok logFrame, impl⟩

#guard okAnd (Hmmc.forwardScaling wikiPi wikiA frame) fun r => near r.1 (-3.3725)
#guard okAnd (Hmmc.forwardLog wikiPi wikiA logFrame) fun r =>
  near r.1 (-3.3725) && rowsNear (expAll r.2) refFwd
#guard okAnd (Hmmc.backwardLog wikiA logFrame) fun r => rowsNear (expAll r) refBwd
#guard okAnd (Hmmc.viterbi wikiPi wikiA logFrame) fun r =>
  near r.1 (-4.4590) && r.2 == [0, 0, 1, 0, 0]
#guard okAnd (scoreSamples (wiki .log) [(), (), (), (), ()] none) fun r =>
  near r.1 (-3.3725) && rowsNear r.2 refPost
#guard okAnd (scoreSamples (wiki .scaling) [(), (), (), (), ()] none) fun r =>
  near r.1 (-3.3725) && rowsNear r.2 refPost

/-! The same through the array-level kernels. -/

def arr1 (n : Nat) (f : Fin n → Float) : Raw.PyArray Float :=
  ⟨[n], fun i => if h : i.getD 0 0 < n then f ⟨i.getD 0 0, h⟩ else 0⟩
def arrRows (rows : List (Row Float 2)) : Raw.PyArray Float :=
  ⟨[rows.length, 2], fun i =>
    ((rows[i.getD 0 0]?).map fun r => if i.getD 1 0 = 0 then r 0 else r 1).getD 0⟩
def arrA : Raw.PyArray Float := arrRows [wikiA 0, wikiA 1]

def cells (a : Raw.Arr2 Float) : List (List Float) :=
  (List.range a.rows).map fun i => (List.range a.cols).map fun j => (a.cell i j).getD 0

def listsNear (a b : List (List Float)) : Bool :=
  a.length == b.length && (a.zip b).all fun (x, y) =>
    x.length == y.length && (x.zip y).all fun (u, v) => near u v

#guard okAnd (Raw.forwardScaling (arr1 2 wikiPi) arrA (arrRows frame)) fun r => near r.1 (-3.3725)
#guard okAnd (Raw.forwardLog (arr1 2 wikiPi) arrA (arrRows logFrame)) fun r =>
  near r.1 (-3.3725) && listsNear ((cells r.2).map fun x => x.map Float.exp) refFwd
#guard okAnd (Raw.backwardLog (arr1 2 wikiPi) arrA (arrRows logFrame)) fun r =>
  listsNear ((cells r).map fun x => x.map Float.exp) refBwd
#guard okAnd (Raw.viterbi (arr1 2 wikiPi) arrA (arrRows logFrame)) fun r =>
  near r.1 (-4.4590) && (List.range 5).map (fun i => r.2.cell i)
    == [some 0, some 0, some 1, some 0, some 0]

/-! test_base.py, `TestMonitor` -/

def mon (n : Nat) (h : List Float) : Monitor Float :=
  h.foldl Monitor.report ⟨1e-3, n, [], 0⟩

#guard !(mon 2 []).converged
#guard !(mon 2 [-0.01]).converged
#guard (mon 2 [-0.01, -0.1]).converged
#guard !(mon 10 [-0.03]).converged
#guard !(mon 10 [-0.03, -0.02]).converged
#guard !(mon 10 [-0.03, -0.02, -0.01]).converged
#guard (mon 10 [-0.03, -0.02, -0.01, -0.0101]).converged
#guard (mon 10 [-0.01]).reset.iter == 0 && (mon 10 [-0.01]).reset.history.isEmpty

/-! test_categorical_hmm.py, `TestCategoricalAgainstWikipedia` -/

def emis : Categorical.Params Float 2 3 := ![![0.1, 0.4, 0.5], ![0.6, 0.3, 0.1]]

def weather (impl : Impl) : Hmm Float 2 Int :=
  ⟨![0.6, 0.4], ![![0.7, 0.3], ![0.4, 0.6]], Categorical.computeLikelihood emis,
    fun X => logRows (Categorical.computeLikelihood emis X), impl⟩

#guard [Impl.log, .scaling].all fun impl =>
  okAnd (decode (weather impl) .viterbi [0, 1, 2] none) fun r =>
    near r.1.exp 0.01344 && r.2 == [1, 0, 0]
#guard [Impl.log, .scaling].all fun impl =>
  okAnd (decode (weather impl) .map [0, 1, 2] none) fun r => r.2 == [1, 0, 0]
#guard [Impl.log, .scaling].all fun impl =>
  okAnd (predictProba (weather impl) [0, 1, 2] none) fun r => rowsNear r
    [[0.23170303, 0.76829697], [0.62406281, 0.37593719], [0.86397706, 0.13602294]]

/-! test_categorical_hmm.py, `test_fit`: the log-likelihood increases -/

def increasing : List Float → Bool
  | a :: b :: l => a ≤ b + 1e-9 && increasing (b :: l)
  | _ => true

#guard [Impl.log, .scaling].all fun impl =>
  let r := fitFrom (Categorical.emission fun _ _ => 1)
    ⟨fun _ => 1, fun _ _ => 1, ['s', 't', 'e'], impl, 2⟩ [0, 1, 2, 0] (some [2, 2])
    ⟨![0.6, 0.4], ![![0.7, 0.3], ![0.4, 0.6]], emis⟩ ⟨-1, 2, [], 0⟩
  r.raised.isNone && r.monitor.history.length == 2 && increasing r.monitor.history

end Verif.Tests
