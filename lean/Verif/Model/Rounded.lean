import Verif.Model.HyperPE

/-!
# The Monte Carlo estimates in double precision

The other files compute with exact real numbers. Here the estimators of `hyperpe.py` and `vt.py` are
modelled again with every operation rounded to double precision (`toDouble`: round to nearest, ties to
even, subnormal numbers, overflow to infinity).

The order in which a library adds up an array is not fixed (numpy adds in blocks and pairs, jax and
cupy as the device likes): it is an arbitrary binary tree. The logarithm of the library is a function
of which only the accuracy is known.

Simplifications: squares are rounded once, as a product; sums of no numbers are not modelled (the tree
has at least one leaf); the probabilities are given.
-/

noncomputable section

open Classical

namespace GW

open Fl

/-- An order of summation: a binary tree whose leaves are positions of the array. -/
inductive SumTree where
  | leaf (i : ℕ)
  | node (l r : SumTree)

namespace SumTree

/-- The positions that are added. -/
def leaves : SumTree → List ℕ
  | leaf i => [i]
  | node l r => l.leaves ++ r.leaves

/-- The number of additions on the longest path. -/
def depth : SumTree → ℕ
  | leaf _ => 0
  | node l r => max l.depth r.depth + 1

/-- The sum in double precision. -/
def sum (a : ℕ → Fl) : SumTree → Fl
  | leaf i => a i
  | node l r => toDouble (l.sum a + r.sum a)

/-- Every position of an array of length `n` is added exactly once. -/
def Covers (t : SumTree) (n : ℕ) : Prop := t.leaves.Perm (List.range n)

end SumTree

/-- What is library-dependent in double-precision arithmetic. -/
structure Arith where
  /-- the order of summation; it may depend on the array -/
  order : List Fl → SumTree
  /-- `log` -/
  log : Fl → Fl

/-- `xp.sum`. -/
def Arith.sum (A : Arith) (l : List Fl) : Fl := (A.order l).sum fun i => l.getD i 0

/-- `xp.mean`. -/
def Arith.mean (A : Arith) (l : List Fl) : Fl := toDouble (A.sum l / (l.length : Fl))

/-- A product, rounded. -/
def mulD (x y : Fl) : Fl := toDouble (x * y)

/-- One row of `_compute_per_event_ln_bayes_factors` (`hyperpe.py:197-204`): from the weights of one
event, `ln_bf` and its variance. -/
def rowD (A : Arith) (samplesPerPosterior : ℕ) (row : List Fl) : Fl × Fl :=
  let expectation := A.mean row
  let squareExpectation := A.mean (row.map fun w => mulD w w)
  (A.log expectation,
    toDouble (toDouble (squareExpectation - mulD expectation expectation) /
      mulD (samplesPerPosterior : Fl) (mulD expectation expectation)))

/-- `_compute_per_event_ln_bayes_factors` (`hyperpe.py:194-206`) in double precision. -/
def Likelihood.perEventD (A : Arith) (self : Likelihood) (parameters : Dict Fl) :
    Except PyErr (List (Fl × Fl)) := do
  let w ← self.weights parameters
  return w.map fun row => rowD A self.samplesPerPosterior (row.map toDouble)

/-- The log likelihood of `ln_likelihood_and_variance` (`hyperpe.py:163-178`, `:208-217`) in double
precision, for given values of the selection function. -/
def Likelihood.lnLikelihoodD (A : Arith) (self : Likelihood) (selection : Fl) (parameters : Dict Fl) :
    Except PyErr Fl := do
  let parameters ← self.conversion parameters
  let events ← self.perEventD A parameters
  let lnL := A.sum (events.map Prod.fst)
  return toDouble (lnL + mulD (-(self.nPosteriors : Fl)) (A.log selection))

/-- `detection_efficiency` (`vt.py:235-259`) in double precision. The probabilities of the injections and
the densities they were drawn from are those of `ResamplingVT.detectionEfficiency`, before any rounding;
the square of an integer number of injections is exact in Python and is rounded when the sum is divided
by it. The number of injections is taken to be positive, so that no division raises. -/
def ResamplingVT.detectionEfficiencyD (A : Arith) (self : ResamplingVT) (parameters : Dict Fl) :
    Except PyErr (Fl × Fl) := do
  let p ← self.model.prob self.data parameters
  let prior ← match ← self.data.get "prior" with
    | .arr l => pure l
    | .num _ x => pure [x]
  let w ← Arr.divide p prior
  let weights := w.map toDouble
  let N := self.totalInjections.2
  let mu := toDouble (A.sum weights / N)
  let var := toDouble (toDouble (A.sum (weights.map fun w => mulD w w) / mulD N N) -
    toDouble (mulD mu mu / N))
  return (mu, var)

end GW
