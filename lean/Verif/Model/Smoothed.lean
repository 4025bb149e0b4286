import Verif.Model.Mass

/-!
# Model of the smoothed mass distributions, `gwpopulation/models/mass.py:530-841`

A dataset is a list of pairs `(mass_1, mass_ratio)`. Simplification: only one-dimensional
datasets; for an empty dataset the primary model's hyper-parameter checks are not run.
The instance's only mutable attribute is `_q_interpolant`; a linear interpolant on the fixed
grid `m1s` is determined by the masses it was created for.
-/

noncomputable section

open Classical

namespace GW

open Fl

/-- `scipy.special.expit`. -/
def expit : Fl → Fl
  | .fin x => .fin (1 / (1 + Real.exp (-x)))
  | .pinf => .fin 1
  | .ninf => .fin 0
  | .nan => .nan

/-- `BaseSmoothedMassDistribution.smoothing` (`mass.py:659-684`), elementwise. -/
def smoothing (b : Backend) (mass mmin mmax deltaM : Fl) : Fl :=
  if b = .jax ∨ 0 < deltaM then
    let shifted := nanToNumWith (fin 0) (fin bigR) (fin (-bigR)) ((mass - mmin) / deltaM)
    let shifted := Arr.clip shifted (fin 1e-6) (fin (1 - 1e-6))
    let exponent := 1 / shifted - 1 / (1 - shifted)
    let window := expit (-exponent)
    window * (ind (mmin ≤ mass) * ind (mass ≤ mmax))
  else 1

/-- Binding of keyword arguments to the parameters `names` of a Python function with the given
default values: `TypeError` for an unexpected or a missing argument. -/
def bindArgs (names : List String) (defaults kwargs : Dict Fl) : Except PyErr (String → Fl) :=
  if (∃ k ∈ Dict.keys kwargs, k ∉ names) ∨
      (∃ n ∈ names, ¬ Dict.contains kwargs n ∧ ¬ Dict.contains defaults n) then
    .error .typeError
  else .ok (fun n => (Dict.get? kwargs n).getD ((Dict.get? defaults n).getD nan))

/-- A primary-mass model as seen by the class: a function of the keyword arguments and one mass. -/
abbrev Primary := Backend → Dict Fl → Fl → Except PyErr Fl

/-- `two_component_single` called with keyword arguments (`mass.py:297-299`). -/
def primTwoComponent (py : Bool) : Primary := fun b kwargs m => do
  let g ← bindArgs ["alpha", "mmin", "mmax", "lam", "mpp", "sigpp", "gaussian_mass_maximum"]
    [("gaussian_mass_maximum", fin 100)] kwargs
  twoComponentSingle b py m (g "alpha") (g "mmin") (g "mmax") (g "lam") (g "mpp") (g "sigpp")
    (g "gaussian_mass_maximum")

/-- `three_component_single` called with keyword arguments (`mass.py:335-347`). -/
def primThreeComponent (py : Bool) : Primary := fun b kwargs m => do
  let g ← bindArgs ["alpha", "mmin", "mmax", "lam", "lam_1", "mpp_1", "sigpp_1", "mpp_2",
    "sigpp_2", "gaussian_mass_maximum"] [("gaussian_mass_maximum", fin 100)] kwargs
  threeComponentSingle b py m (g "alpha") (g "mmin") (g "mmax") (g "lam") (g "lam_1") (g "mpp_1")
    (g "sigpp_1") (g "mpp_2") (g "sigpp_2") (g "gaussian_mass_maximum")

/-- `double_power_law_primary_mass` called with keyword arguments (`mass.py:38`). -/
def primDoublePowerLaw (py : Bool) : Primary := fun b kwargs m => do
  let g ← bindArgs ["alpha_1", "alpha_2", "mmin", "mmax", "break_fraction"] [] kwargs
  doublePowerLawPrimaryMass b py m (g "alpha_1") (g "alpha_2") (g "mmin") (g "mmax")
    (g "break_fraction")

/-- `double_power_law_peak_primary_mass` called with keyword arguments (`mass.py:74-85`). -/
def primDoublePowerLawPeak (py : Bool) : Primary := fun b kwargs m => do
  let g ← bindArgs ["alpha_1", "alpha_2", "mmin", "mmax", "break_fraction", "lam", "mpp", "sigpp",
    "gaussian_mass_maximum"] [("gaussian_mass_maximum", fin 100)] kwargs
  doublePowerLawPeakPrimaryMass b py m (g "alpha_1") (g "alpha_2") (g "mmin") (g "mmax")
    (g "break_fraction") (g "lam") (g "mpp") (g "sigpp") (g "gaussian_mass_maximum")

/-- An instance of `BaseSmoothedMassDistribution` or of a subclass (`mass.py:562-570`). -/
structure Smoothed where
  /-- the class attribute `primary_model` -/
  primary : Primary
  /-- the property `kwargs` (`mass.py:558-560`, `:723-725`, `:768-770`, `:839-841`) -/
  fixed : Dict Fl
  /-- `self.mmin` -/
  mmin : ℝ
  /-- `self.mmax` -/
  mmax : ℝ
  /-- `self.m1s` -/
  m1s : List ℝ
  /-- `self.qs` -/
  qs : List ℝ
  /-- `self.cache` -/
  cache : Bool
  /-- the masses for which `self._q_interpolant` was set up, if the attribute exists -/
  qMasses : Option (List Fl)

/-- `BaseSmoothedMassDistribution.__init__` (`mass.py:562-570`): reading `m1s[1]`, `qs[1]`
raises `IndexError` for grids with fewer than two points. -/
def Smoothed.init (primary : Primary) (fixed : Dict Fl) (mmin mmax : ℝ) (nM nQ : ℕ)
    (cache : Bool) : Except PyErr Smoothed :=
  if nM < 2 ∨ nQ < 2 then .error .indexError
  else .ok ⟨primary, fixed, mmin, mmax, Arr.linspaceR mmin mmax nM, Arr.linspaceR 0.001 1 nQ,
    cache, none⟩

/-- `SinglePeakSmoothedMassDistribution` (`mass.py:687-725`). -/
def singlePeak (py : Bool) (mmin mmax : ℝ) (nM nQ : ℕ) (cache : Bool) :=
  Smoothed.init (primTwoComponent py) [("gaussian_mass_maximum", fin mmax)] mmin mmax nM nQ cache

/-- `MultiPeakSmoothedMassDistribution` (`mass.py:728-770`). -/
def multiPeak (py : Bool) (mmin mmax : ℝ) (nM nQ : ℕ) (cache : Bool) :=
  Smoothed.init (primThreeComponent py) [("gaussian_mass_maximum", fin mmax)] mmin mmax nM nQ cache

/-- `BrokenPowerLawSmoothedMassDistribution` (`mass.py:773-798`). -/
def brokenPowerLaw (py : Bool) (mmin mmax : ℝ) (nM nQ : ℕ) (cache : Bool) :=
  Smoothed.init (primDoublePowerLaw py) [] mmin mmax nM nQ cache

/-- `BrokenPowerLawPeakSmoothedMassDistribution` (`mass.py:801-841`). -/
def brokenPowerLawPeak (py : Bool) (mmin mmax : ℝ) (nM nQ : ℕ) (cache : Bool) :=
  Smoothed.init (primDoublePowerLawPeak py) [("gaussian_mass_maximum", fin mmax)] mmin mmax nM nQ
    cache

/-- Linear interpolation on increasing nodes `xs` (with linear continuation outside), as done by
`cached_interpolate.RegularCachingInterpolant(kind="linear")`. -/
def interpLinear (xs : List ℝ) (ys : List Fl) : Fl → Fl
  | .fin m =>
    let i := min ((xs.filter (fun x => x ≤ m)).length - 1) (xs.length - 2)
    let x0 := xs.getD i 0
    let x1 := xs.getD (i + 1) 0
    let y0 := ys.getD i nan
    let y1 := ys.getD (i + 1) nan
    y0 + fin ((m - x0) / (x1 - x0)) * (y1 - y0)
  | _ => nan

namespace Smoothed

/-- Elementwise binary operation with one-dimensional broadcasting; `ValueError` (numpy) or
`TypeError` (jax) if the shapes do not match. -/
def broadcast (b : Backend) (op : Fl → Fl → Fl) (xs ys : List Fl) : Except PyErr (List Fl) :=
  if xs.length = ys.length then .ok (List.zipWith op xs ys)
  else match xs, ys with
    | xs, [y] => .ok (xs.map (fun x => op x y))
    | [x], ys => .ok (ys.map (fun y => op x y))
    | _, _ => .error (if b = .jax then .typeError else .valueError)

/-- `xs /= ys`: in place on numpy/cupy, where the result must have the shape of `xs`;
a rebinding on jax. -/
def inplaceDiv (b : Backend) (xs ys : List Fl) : Except PyErr (List Fl) := do
  let r ← broadcast b (· / ·) xs ys
  if b ≠ .jax ∧ r.length ≠ xs.length then .error .valueError else .ok r

/-- `kwargs.get(key, default)`. -/
def kwGet (kwargs : Dict Fl) (key : String) (default : Fl) : Fl :=
  (Dict.get? kwargs key).getD default

/-- Primary model times window at one mass (`mass.py:594-597`, `:606-607`). -/
def pMRaw (b : Backend) (s : Smoothed) (kwargs : Dict Fl) (mmin deltaM m : Fl) :
    Except PyErr Fl := do
  let p ← s.primary b kwargs m
  return p * smoothing b m mmin (fin s.mmax) deltaM

/-- `norm_p_m1` (`mass.py:601-612`). -/
def normPM1 (b : Backend) (s : Smoothed) (deltaM : Fl) (kwargs : Dict Fl) : Except PyErr Fl := do
  let mmin := kwGet kwargs "mmin" (fin s.mmin)
  if b ≠ .jax ∧ eqf deltaM 0 then return 1
  else
    let pm ← s.m1s.mapM (fun m => pMRaw b s kwargs mmin deltaM (fin m))
    return nanToNum (Arr.trapz pm (s.m1s.map fin)) * ind (¬ eqf deltaM 0) + 1 * ind (eqf deltaM 0)

/-- `p_m1` (`mass.py:591-599`). -/
def pM1 (b : Backend) (s : Smoothed) (masses : List Fl) (kwargs : Dict Fl) :
    Except PyErr (List Fl) := do
  let mmin := kwGet kwargs "mmin" (fin s.mmin)
  let deltaM := kwGet kwargs "delta_m" 0
  let kwargs := Dict.erase kwargs "delta_m"
  let pm ← masses.mapM (pMRaw b s kwargs mmin deltaM)
  let norm ← normPM1 b s deltaM kwargs
  return pm.map (· / norm)

/-- Mass-ratio power law times window at one point (`mass.py:615-621`, `:637-640`). -/
def pQRaw (b : Backend) (beta mmin deltaM m q : Fl) : Except PyErr Fl := do
  let p ← massRatioFactor b q beta mmin m
  return p * smoothing b (m * q) mmin m deltaM

/-- The norms on the mass grid (`mass.py:637-644`). -/
def qNorms (b : Backend) (s : Smoothed) (beta mmin deltaM : Fl) : Except PyErr (List Fl) :=
  s.m1s.mapM (fun m => do
    let pq ← s.qs.mapM (fun q => pQRaw b beta mmin deltaM (fin m) (fin q))
    return nanToNum (Arr.trapz pq (s.qs.map fin)) * ind (¬ eqf deltaM 0) + 1 * ind (eqf deltaM 0))

/-- `norm_p_q` (`mass.py:635-646`): `AttributeError` if the interpolant was never set up. -/
def normPQ (b : Backend) (s : Smoothed) (beta mmin deltaM : Fl) : Except PyErr (List Fl) := do
  let norms ← qNorms b s beta mmin deltaM
  match s.qMasses with
  | none => .error .attributeError
  | some masses => .ok (masses.map (interpLinear s.m1s norms))

/-- `_cache_q_norms` (`mass.py:648-657`). -/
def cacheQNorms (s : Smoothed) (masses : List Fl) : Smoothed := { s with qMasses := some masses }

/-- `p_q /= self.norm_p_q(...)`. -/
def divideByNorm (b : Backend) (s : Smoothed) (pq : List Fl) (beta mmin deltaM : Fl) :
    Except PyErr (List Fl) := do
  let norm ← normPQ b s beta mmin deltaM
  inplaceDiv b pq norm

/-- Exceptions caught at `mass.py:629`. -/
def caught : PyErr → Prop
  | .attributeError => True
  | .typeError => True
  | .valueError => True
  | _ => False

/-- `p_q` (`mass.py:614-633`). Returns the outcome and the instance afterwards. -/
def pQ (b : Backend) (s : Smoothed) (data : List (Fl × Fl)) (beta mmin deltaM : Fl) :
    Except PyErr (List Fl) × Smoothed :=
  match data.mapM (fun d => pQRaw b beta mmin deltaM d.1 d.2) with
  | .error e => (.error e, s)
  | .ok pq =>
    let s1 := if s.cache then s else cacheQNorms s (data.map Prod.fst)
    match divideByNorm b s1 pq beta mmin deltaM with
    | .ok r => (.ok (r.map nanToNum), s1)
    | .error e =>
      if caught e then
        let s2 := cacheQNorms s1 (data.map Prod.fst)
        ((divideByNorm b s2 pq beta mmin deltaM).map (·.map nanToNum), s2)
      else (.error e, s1)

/-- `__call__` (`mass.py:572-589`). Returns the outcome and the instance afterwards. The call
`self.p_m1(dataset, **kwargs, **self.kwargs)` raises `TypeError` on a repeated key. -/
def call (b : Backend) (s : Smoothed) (data : List (Fl × Fl)) (kwargs : Dict Fl) :
    Except PyErr (List Fl) × Smoothed :=
  match Dict.get? kwargs "beta" with
  | none => (.error (.keyError "beta"), s)
  | some beta =>
    let kwargs := Dict.erase kwargs "beta"
    let mmin := kwGet kwargs "mmin" (fin s.mmin)
    let mmax := kwGet kwargs "mmax" (fin s.mmax)
    if b ≠ .jax ∧ mmin < fin s.mmin then (.error .valueError, s)
    else if b ≠ .jax ∧ fin s.mmax < mmax then (.error .valueError, s)
    else
      let deltaM := kwGet kwargs "delta_m" 0
      if ∃ k ∈ Dict.keys kwargs, k ∈ Dict.keys s.fixed then (.error .typeError, s)
      else match pM1 b s (data.map Prod.fst) (kwargs ++ s.fixed) with
        | .error e => (.error e, s)
        | .ok pm =>
          match pQ b s data beta mmin deltaM with
          | (.error e, s') => (.error e, s')
          | (.ok pq, s') => (broadcast b (· * ·) pm pq, s')

/-- A history of calls on one instance. -/
def runCalls (b : Backend) (s : Smoothed) : List (List (Fl × Fl) × Dict Fl) → Smoothed
  | [] => s
  | (data, kwargs) :: rest => runCalls b (call b s data kwargs).2 rest

end Smoothed

/-! ### `variable_names` -/

/-- What `variable_names` (`mass.py:547-556`) reads of a primary model: the names of its
parameters, and the list object stored in its attribute `variable_names`, if there is one. -/
structure PrimaryInfo where
  /-- `inspect.getfullargspec(model).args` -/
  args : List String
  /-- current content of the list `model.variable_names` -/
  variableNames : Option (List String)

/-- `BaseSmoothedMassDistribution.variable_names` (`mass.py:547-556`): the returned set (as a
list) and the primary model afterwards; `vars += [...]` extends the list object in place, which
is the model's own list if it has one and a fresh slice otherwise. -/
def variableNames (p : PrimaryInfo) (fixedKeys : List String) : List String × PrimaryInfo :=
  match p.variableNames with
  | some l =>
    let l' := l ++ ["beta", "delta_m"]
    (l'.dedup.filter (fun k => k ∉ fixedKeys), { p with variableNames := some l' })
  | none =>
    let l' := p.args.tail ++ ["beta", "delta_m"]
    (l'.dedup.filter (fun k => k ∉ fixedKeys), p)

end GW
