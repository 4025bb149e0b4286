import Verif.Model.Smoothed
import Verif.Num.NArr

/-!
# Smoothed mass distributions evaluated on arrays of any shape, `gwpopulation/models/mass.py:530-684`

`Model/Smoothed.lean` describes one-dimensional datasets. Here the datasets have any number of axes, as in an analysis
where one instance evaluates the posterior samples (events by samples) and the injections (one axis). The values at one
point (`pMRaw`, `pQRaw`, `normPM1`, `qNorms`) are those of `Model/Smoothed.lean`. Shapes and indices are written last
axis first, as in `Num/NArr.lean`.

Simplifications: datasets have at least one axis and their columns have one common shape; an interpolant returns an
array with the shape of the masses it was set up for.
-/

noncomputable section

open Classical

namespace GW

open Fl

/-- An array of elements of any type. -/
structure Shaped (α : Type) where
  /-- the lengths of the axes, last axis first -/
  shape : List ℕ
  /-- the element at a multi-index, last axis first -/
  elem : List ℕ → α

namespace Shaped

variable {α β : Type}

/-- All elements. -/
def elements (a : Shaped α) : List α := (NArr.indices a.shape).map a.elem

/-- A function applied to every element. -/
def map (f : α → β) (a : Shaped α) : Shaped β := ⟨a.shape, fun i => f (a.elem i)⟩

/-- A function that may raise applied to every element. -/
def mapM (f : α → Except PyErr Fl) (a : Shaped α) : Except PyErr (Shaped Fl) := do
  let _ ← a.elements.mapM f
  return ⟨a.shape, fun i => match f (a.elem i) with
    | .ok y => y
    | .error _ => nan⟩

/-- An operator with broadcasting; `ValueError` (numpy, cupy) or `TypeError` (jax) if the shapes do not fit. -/
def zip (b : Backend) (op : Fl → Fl → Fl) (x y : Shaped Fl) : Except PyErr (Shaped Fl) :=
  match NArr.bshape x.shape y.shape with
  | none => .error (if b = .jax then .typeError else .valueError)
  | some s => .ok ⟨s, fun i => op (x.elem (NArr.proj x.shape i)) (y.elem (NArr.proj y.shape i))⟩

/-- `x /= y`: in place on numpy and cupy, where the result must have the shape of `x`; a rebinding on jax. -/
def inplaceDiv (b : Backend) (x y : Shaped Fl) : Except PyErr (Shaped Fl) := do
  let r ← zip b (· / ·) x y
  if b ≠ .jax ∧ r.shape ≠ x.shape then .error .valueError else .ok r

end Shaped

/-- An instance of a smoothed mass distribution whose datasets may have any shape. -/
structure SharedSmoothed where
  /-- the attributes set by `__init__` (`mass.py:562-570`); its `qMasses` is not used -/
  inst : Smoothed
  /-- the masses for which `self._q_interpolant` was set up, if the attribute exists -/
  masses : Option (Shaped Fl)

namespace SharedSmoothed

/-- The instance as `__init__` leaves it. -/
def new (s : Smoothed) : SharedSmoothed := ⟨s, none⟩

/-- `p_m1` (`mass.py:591-599`). -/
def pM1 (b : Backend) (m : SharedSmoothed) (masses : Shaped Fl) (kwargs : Dict Fl) : Except PyErr (Shaped Fl) := do
  let mmin := Smoothed.kwGet kwargs "mmin" (fin m.inst.mmin)
  let deltaM := Smoothed.kwGet kwargs "delta_m" 0
  let kwargs := Dict.erase kwargs "delta_m"
  let pm ← masses.mapM (Smoothed.pMRaw b m.inst kwargs mmin deltaM)
  let norm ← Smoothed.normPM1 b m.inst deltaM kwargs
  return pm.map (· / norm)

/-- `norm_p_q` (`mass.py:635-646`): `AttributeError` if the interpolant was never set up. -/
def normPQ (b : Backend) (m : SharedSmoothed) (beta mmin deltaM : Fl) : Except PyErr (Shaped Fl) := do
  let norms ← Smoothed.qNorms b m.inst beta mmin deltaM
  match m.masses with
  | none => .error .attributeError
  | some masses => .ok (masses.map (interpLinear m.inst.m1s norms))

/-- `_cache_q_norms` (`mass.py:648-657`). -/
def cacheQNorms (m : SharedSmoothed) (masses : Shaped Fl) : SharedSmoothed := { m with masses := some masses }

/-- `p_q /= self.norm_p_q(...)`. -/
def divideByNorm (b : Backend) (m : SharedSmoothed) (pq : Shaped Fl) (beta mmin deltaM : Fl) :
    Except PyErr (Shaped Fl) := do
  let norm ← normPQ b m beta mmin deltaM
  Shaped.inplaceDiv b pq norm

/-- `p_q` (`mass.py:614-633`). Returns the outcome and the instance afterwards. -/
def pQ (b : Backend) (m : SharedSmoothed) (data : Shaped (Fl × Fl)) (beta mmin deltaM : Fl) :
    Except PyErr (Shaped Fl) × SharedSmoothed :=
  match data.mapM (fun d => Smoothed.pQRaw b beta mmin deltaM d.1 d.2) with
  | .error e => (.error e, m)
  | .ok pq =>
    let m1 := if m.inst.cache then m else cacheQNorms m (data.map Prod.fst)
    match divideByNorm b m1 pq beta mmin deltaM with
    | .ok r => (.ok (r.map nanToNum), m1)
    | .error e =>
      if Smoothed.caught e then
        let m2 := cacheQNorms m1 (data.map Prod.fst)
        ((divideByNorm b m2 pq beta mmin deltaM).map (·.map nanToNum), m2)
      else (.error e, m1)

/-- `__call__` (`mass.py:572-589`). Returns the outcome and the instance afterwards. -/
def call (b : Backend) (m : SharedSmoothed) (data : Shaped (Fl × Fl)) (kwargs : Dict Fl) :
    Except PyErr (Shaped Fl) × SharedSmoothed :=
  match Dict.get? kwargs "beta" with
  | none => (.error (.keyError "beta"), m)
  | some beta =>
    let kwargs := Dict.erase kwargs "beta"
    let mmin := Smoothed.kwGet kwargs "mmin" (fin m.inst.mmin)
    let mmax := Smoothed.kwGet kwargs "mmax" (fin m.inst.mmax)
    if b ≠ .jax ∧ mmin < fin m.inst.mmin then (.error .valueError, m)
    else if b ≠ .jax ∧ fin m.inst.mmax < mmax then (.error .valueError, m)
    else
      let deltaM := Smoothed.kwGet kwargs "delta_m" 0
      if ∃ k ∈ Dict.keys kwargs, k ∈ Dict.keys m.inst.fixed then (.error .typeError, m)
      else match pM1 b m (data.map Prod.fst) (kwargs ++ m.inst.fixed) with
        | .error e => (.error e, m)
        | .ok pm =>
          match pQ b m data beta mmin deltaM with
          | (.error e, m') => (.error e, m')
          | (.ok pq, m') => (Shaped.zip b (· * ·) pm pq, m')

/-- A history of calls on one instance. -/
def runCalls (b : Backend) (m : SharedSmoothed) : List (Shaped (Fl × Fl) × Dict Fl) → SharedSmoothed
  | [] => m
  | (data, kwargs) :: rest => runCalls b (call b m data kwargs).2 rest

end SharedSmoothed

end GW
