import Verif.Py

/-!
# Model of `gwpopulation/backend.py`

Strings of module paths are lists of characters where Python's string methods are applied to
them. The state is the active backend name together with the attributes bound in modules.
-/

noncomputable section

open Classical

namespace GW

/-! ## Python string methods -/

/-- `s.startswith(p)`. -/
def pyStartsWith (s p : List Char) : Prop := p <+: s

/-- `s.replace(old, new)` (non-empty `old`): left to right, non-overlapping. -/
def pyReplace (old new : List Char) : List Char → List Char
  | [] => []
  | c :: s =>
    if _h : old <+: (c :: s) ∧ old ≠ [] then new ++ pyReplace old new ((c :: s).drop old.length)
    else c :: pyReplace old new s
termination_by s => s.length
decreasing_by
  · have : 0 < old.length := List.length_pos_of_ne_nil _h.2
    simp only [List.length_drop, List.length_cons]; omega
  · simp

/-- `s.rsplit(".", 1)` unpacked into two names: the parts before and after the last dot;
`none` if there is no dot (unpacking raises `ValueError`). -/
def pyRsplit : List Char → Option (List Char × List Char)
  | [] => none
  | c :: s =>
    match pyRsplit s with
    | some (a, b) => some (c :: a, b)
    | none => if c = '.' then some ([], s) else none

/-- `s.split(".")[-1]`. -/
def pyLastComponent (s : List Char) : List Char :=
  match pyRsplit s with
  | some (_, b) => b
  | none => s

/-! ## The module -/

/-- Something a name can be bound to: an imported module, or an attribute of one. -/
inductive Bound where
  | mod (name : List Char)
  | attr (mod name : List Char)
  deriving DecidableEq

/-- `_np_module`, `backend.py:5`. -/
def npModule : Backend → List Char
  | .numpy => "numpy".toList
  | .cupy => "cupy".toList
  | .jax => "jax.numpy".toList

/-- `_scipy_module`, `backend.py:6`. -/
def scipyModule : Backend → List Char
  | .numpy => "scipy".toList
  | .cupy => "cupyx.scipy".toList
  | .jax => "jax.scipy".toList

/-- `SUPPORTED_BACKENDS`, `backend.py:4`. -/
def parseBackend (s : String) : Option Backend :=
  if s = "numpy" then some .numpy
  else if s = "cupy" then some .cupy
  else if s = "jax" then some .jax
  else none

/-- The environment of one call: how each import ends and which attributes modules have.
Simplification: importing has no effect on already bound names. -/
structure BEnv where
  /-- `import_module(name)`: `none` if it succeeds, else the exception -/
  imp : List Char → Option PyErr
  /-- `hasattr(module, name)` -/
  has : List Char → List Char → Prop

/-- The entry points of the installed packages (`backend.py:48-76`). -/
structure Registry where
  /-- group `gwpopulation.xp` -/
  xp : List String
  /-- group `gwpopulation.scs` -/
  scs : List String
  /-- group `gwpopulation.other`: values `module:function.path`, already split at the colon -/
  other : List (String × String)

/-- The third result of `modules_to_update` (`backend.py:78`): a dictionary comprehension, so a
later entry replaces an earlier one for the same module. -/
def Registry.others (r : Registry) : Dict String :=
  r.other.foldl (fun d e => Dict.set d e.1 e.2) []

/-- The mutable state: the global `__backend__`, the module attributes, and jax's x64 flag. -/
structure BState where
  /-- `__backend__`; `none` is the initial empty string -/
  backend : Option Backend
  /-- attribute `name` of registered module `m` -/
  bind : String → String → Option Bound
  /-- `jax.config.jax_enable_x64` -/
  x64 : Bool

/-- `setattr(import_module(m), name, v)`. -/
def BState.setattr (st : BState) (m name : String) (v : Bound) : BState :=
  { st with bind := fun m' n' => if m' = m ∧ n' = name then some v else st.bind m' n' }

/-- `import_module(m)`. -/
def BEnv.importModule (env : BEnv) (m : List Char) : Except PyErr Unit :=
  match env.imp m with
  | none => .ok ()
  | some e => .error e

/-- `getattr(import_module(m), name)`. -/
def BEnv.getattr (env : BEnv) (m name : List Char) : Except PyErr Bound := do
  env.importModule m
  if env.has m name then pure (.attr m name) else .error .attributeError

/-- `_load_numpy_and_scipy` and `_configure_jax`, `backend.py:79-102`. Import errors are re-raised with another
message; the second component is the effect on jax's flag. -/
def loadNumpyAndScipy (env : BEnv) (b : Backend) : Except PyErr (Bound × Bound × Bool) := do
  env.importModule (npModule b)
  let scs ← env.getattr (scipyModule b) "special".toList
  if b = .jax then do
    env.importModule "jax".toList
    pure (.mod (npModule b), scs, true)
  else pure (.mod (npModule b), scs, false)

/-- The path after translation of its first component, `backend.py:106-109`. -/
def translatePath (func : List Char) (b : Backend) : List Char :=
  if pyStartsWith func "scipy".toList then pyReplace "scipy".toList (scipyModule b) func
  else if pyStartsWith func "numpy".toList then pyReplace "numpy".toList (npModule b) func
  else func

/-- `_load_arbitrary`, `backend.py:105-111`. -/
def loadArbitrary (env : BEnv) (func : List Char) (b : Backend) : Except PyErr Bound :=
  match pyRsplit (translatePath func b) with
  | none => .error .valueError
  | some (m, f) => env.getattr m f

/-- A computation on the state that may stop with an exception; the state reached so far is kept,
as in Python. -/
abbrev BM := BState → BState × Option PyErr

/-- One pass of a loop body over a list, stopping at the first exception. -/
def forEach {α : Type} (body : α → BM) : List α → BM
  | [], st => (st, none)
  | a :: l, st =>
    match body a st with
    | (st, none) => forEach body l st
    | (st, some e) => (st, some e)

/-- Body of the first two loops, `backend.py:147-150`. -/
def bindIn (env : BEnv) (name : String) (v : Bound) (m : String) : BM := fun st =>
  match env.imp m.toList with
  | some e => (st, some e)
  | none => (st.setattr m name v, none)

/-- Body of the third loop, `backend.py:151-156`. The arguments of `setattr` are evaluated before
it runs. -/
def bindOther (env : BEnv) (b : Backend) (e : String × String) : BM := fun st =>
  match env.imp e.1.toList with
  | some err => (st, some err)
  | none =>
    match loadArbitrary env e.2.toList b with
    | .error err => (st, some err)
    | .ok v => (st.setattr e.1 (String.ofList (pyLastComponent e.2.toList)) v, none)

/-- Sequential composition, stopping at an exception. -/
def BM.andThen (f g : BM) : BM := fun st =>
  match f st with
  | (st, none) => g st
  | (st, some e) => (st, some e)

/-- `set_backend`, `backend.py:114-156`: the new state and the exception, if any. The module
lists are read after `__backend__` has been assigned. -/
def setBackend (r : Registry) (env : BEnv) (backend : String) : BM := fun st =>
  match parseBackend backend with
  | none => (st, some .valueError)
  | some b =>
    if st.backend = some b then (st, none)
    else
      match loadNumpyAndScipy env b with
      | .error e => (st, some e)
      | .ok (xp, scs, x64) =>
        let st := { st with backend := some b, x64 := st.x64 || x64 }
        (BM.andThen (forEach (bindIn env "xp" xp) r.xp)
          (BM.andThen (forEach (bindIn env "scs" scs) r.scs)
            (forEach (bindOther env b) r.others))) st

/-- The state of a fresh interpreter: no backend selected; whatever the modules bound on import. -/
def BState.initial (bind : String → String → Option Bound) : BState := ⟨none, bind, false⟩

/-- A history of calls, each in its own environment. -/
def runHistory (r : Registry) : List (BEnv × String) → BState → BState
  | [], st => st
  | (env, b) :: l, st => runHistory r l (setBackend r env b st).1

end GW
