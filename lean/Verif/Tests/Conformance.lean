import Verif.Model.Utils
import Verif.Model.Conversions
import Verif.Model.Backend
import Verif.Props.Conversions
import Verif.Props.Declared
import Verif.Props.Likelihood

/-!
# Tests of the model

Every `example` here is a **test, not a proof of a property**: it evaluates the model on the literal inputs of a unit test in
`/repo/test` and finds what that test asserts. The aim is to catch a misreading of the source. The table in section 6 of
`DESIGN.md` says which theorem covers all inputs of each test.
-/

noncomputable section

open Classical

namespace GW

open Fl

/-- `utils_test.py:28-31`, test. -/
example (junk : Fl → Fl → Fl) (x : ℝ) :
    betaDist junk .numpy (kw (fin x)) (kw (fin (-1))) (kw (fin 1)) (kw (fin 1)) = .error .valueError := by
  rw [C02_betaDist]
  exact ⟨by decide, .inl ⟨rfl, by show ¬ (fin 0 < fin (-1)); rw [fin_lt]; norm_num⟩⟩

/-- `utils_test.py:34-37`, test. -/
example (junk : Fl → Fl → Fl) (x : ℝ) :
    betaDist junk .numpy (kw (fin x)) (kw (fin 1)) (kw (fin (-1))) (kw (fin 1)) = .error .valueError := by
  rw [C02_betaDist]
  exact ⟨by decide, .inr (.inl ⟨rfl, by show ¬ (fin 0 < fin (-1)); rw [fin_lt]; norm_num⟩)⟩

/-- `utils_test.py:66-68`, test. -/
example : powerlaw .numpy true (kw (fin 0)) (kw (fin 3)) (kw (fin 10)) (kw (fin (-4))) = .error .valueError := by
  rw [C02_powerlaw]
  exact ⟨by decide, .inl ⟨rfl, by show ¬ (fin 0 ≤ fin (-4)); rw [fin_le]; norm_num⟩⟩

/-- `utils_test.py:71-75`, test: the density with the index -1 is `1 / log 4` on every backend. -/
example (b : Backend) : powerlaw b true (kw (fin 1)) (kw (fin (-1))) (kw (fin 2)) (kw (fin (1/2))) =
    .ok (fin (1 / Real.log 4)) := by
  have h := C01_powerlaw_value b true true true true true (x := 1) (a := -1) (hi := 2) (lo := 1 / 2)
    (by norm_num) (by norm_num) one_pos (.inr (.inr (by norm_num)))
  refine h.trans ?_
  have e : (fun t : ℝ => t ^ (-1 : ℝ)) = fun t => t⁻¹ := by
    funext t
    exact Real.rpow_neg_one t
  unfold Spec.normalised
  rw [e, if_pos ⟨by norm_num, by norm_num⟩, integral_inv_of_pos (by norm_num) (by norm_num)]
  norm_num

/-- `utils_test.py:106-108`, test. -/
example : truncnorm .numpy (kw (fin 0)) (kw (fin 0)) (kw (fin (-1))) (kw (fin 10)) (kw (fin (-10))) =
    .error .valueError := by
  rw [C02_truncnorm]
  exact ⟨by decide, rfl, by show ¬ (fin 0 < fin (-1)); rw [fin_lt]; norm_num⟩

/-- `utils_test.py:142-144`, test. -/
example (b : Backend) : toNumpy b ⟨false, false, true, false⟩ = .ok .unchanged := rfl

/-- `utils_test.py:147-149`, test: a list. -/
example (b : Backend) : toNumpy b ⟨false, false, false, false⟩ = .error .typeError := rfl

/-- The condition of `utils_test.py:152-154`. -/
def positiveCallable : List (String × Cond) := [("a", .callable fun v => ∀ x ∈ v, (0 : Fl) < x)]

/-- `utils_test.py:157-160`, test. -/
example : applyConditions .numpy positiveCallable [("a", [fin (-1)])] (.ok (fin (-1))) = .error .valueError := by
  simp [applyConditions, checkConditions, positiveCallable, Dict.get?_cons, Cond.check, error_bind]

/-- `utils_test.py:163-165`, test. -/
example : applyConditions .numpy positiveCallable [("a", [fin 1])] (.ok (fin 1)) = .ok (fin 1) := by
  simp [applyConditions, checkConditions, positiveCallable, Dict.get?_cons, Cond.check, ok_bind]

/-- `utils_test.py:168-176`, test: an operator given by its name. -/
example {β : Type} (body : Except PyErr β) :
    applyConditions .numpy [("a", .badOp 0)] [("a", [fin 1])] body = .error .valueError := by
  simp [applyConditions, checkConditions, Dict.get?_cons, Cond.check, error_bind]

/-- `conversion_test.py:13-21`, test, third row: here the exact values, which the doubles miss by a rounding error. -/
example : muVarMaxToAlphaBetaMax true (fin (1/6)) (fin (1/126)) (fin (1/2)) = .ok (fin 2, fin 4, fin (1/2)) := by
  rw [muVarMaxToAlphaBetaMax_eq true (by norm_num) (by norm_num)]
  norm_num

/-- `conversion_test.py:24-31`, test, third row. -/
example : alphaBetaMaxToMuVarMax true (fin 2) (fin 4) (fin (1/2)) = .ok (fin (1/6), fin (1/126), fin (1/2)) := by
  rw [alphaBetaMaxToMuVarMax_eq true (by norm_num) (by norm_num)]
  norm_num

/-- `conversion_test.py:54-57`, test: two keys are added when both are `None`. -/
example : ∃ st, convertToBetaParameters (numOps true)
      [("amax", some (fin 1)), ("alpha_chi", none), ("beta_chi", none), ("mu_chi", some (fin (1/2))),
        ("sigma_chi", some (fin (1/10)))] true () = .ok st ∧ st.added.length = 2 := by
  have hm : muVarMaxToAlphaBetaMax true (fin (1 / 2)) (fin (1 / 10)) (fin 1) =
      .ok (fin (3 / 4), fin (3 / 4), fin 1) := by
    rw [muVarMaxToAlphaBetaMax_eq true (by norm_num) (by norm_num)]
    norm_num
  rw [one_div, one_div] at hm
  rw [show ∀ (e : Except PyErr (ConvState (Option Fl) Unit)), (∃ st, e = .ok st ∧ st.added.length = 2) ↔
    e.map (fun st => st.added.length) = .ok 2 from fun e => by cases e <;> simp [Except.map]]
  simp [convertToBetaParameters, convertSuffix, conversionNeeded, numOps, Dict.get?_cons, Dict.get?_nil, Dict.contains,
    Dict.get, hm, ok_bind, pure_eq_ok, Except.map]

/-- `conversion_test.py:60-63`, test: none when both are present. -/
example : ∃ st, convertToBetaParameters (numOps true)
      [("amax", some (fin 1)), ("alpha_chi", some (fin 1)), ("beta_chi", some (fin 1))] true () = .ok st ∧
      st.added.length = 0 := by
  simp [convertToBetaParameters, convertSuffix, conversionNeeded, numOps, Dict.get?_cons, Dict.get?_nil, Dict.contains,
    Dict.get, ok_bind, pure_eq_ok]

/-- `backend_test.py`, test: an unknown backend. -/
example (r : Registry) (env : BEnv) (st : BState) : setBackend r env "fail" st = (st, some .valueError) := by
  simp [setBackend, parseBackend]

/-- `likelihood_test.py:93-95`, test: constant weights and no selection function. -/
example (limit : Fl) (θ : Dict Fl) :
    (flatEvent .hyper (.pair true (fin 1) (fin 0)) limit).lnLikelihoodAndVariance θ = .ok (fin 0, fin 0) := by
  rw [flatEvent_value (.inl ⟨true, rfl⟩) one_pos]
  norm_num

/-- `likelihood_test.py:97-103`, test: a selection function with `(nan, 0)` gives the most negative number. -/
example (limit : Fl) (θ : Dict Fl) :
    (flatEvent .hyper (.pair true nan (fin 0)) limit).logLikelihoodRatio θ = .ok (fin (-bigR)) := by
  have h : ∃ v, (flatEvent .hyper (.pair true nan (fin 0)) limit).lnLikelihoodAndVariance θ = .ok (nan, v) := by
    unfold Likelihood.lnLikelihoodAndVariance Likelihood.lnLikelihoodAndVarianceBase
      Likelihood.selectionFactor Likelihood.selectionFactorHyper Likelihood.perEvent
      Likelihood.weights Likelihood.selectionWithUncertainty
    have h2 : (2 : ℝ) ≠ 0 := by norm_num
    simp [flatEvent, toyLikelihood, ok_bind, pure_eq_ok, Arr.mean, Arr.sum, toNumber, matFin,
      fin_div h2, fin_div one_ne_zero]
  obtain ⟨v, hv⟩ := h
  exact C46_nan hv

end GW
