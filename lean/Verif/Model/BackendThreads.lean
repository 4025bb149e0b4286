import Verif.Model.Backend

/-!
# Switching the backend in threads and interrupted switches, `gwpopulation/backend.py:114-156`

`Model/Backend.lean` describes a call of `set_backend` that runs from beginning to end. Here a call is a sequence of steps,
between which another thread may run or the call may be abandoned (an exception raised from outside such as
`KeyboardInterrupt`, or a killed thread). What calls share is the global `__backend__`, the attributes of the registered
modules and jax's flag; a step ends at each use of or assignment to one of them.

Simplifications: those of `Model/Backend.lean`; reading or assigning a global or an attribute is one indivisible operation,
as it is in CPython; importing a module is one operation, which has no effect on already bound names.
-/

noncomputable section

open Classical

namespace GW

namespace BackendThreads

/-- The arguments of a call and the environment in which it runs. -/
structure Request where
  env : BEnv
  name : String

/-- One of the assignments in the three loops of `set_backend` (`backend.py:147-156`). -/
inductive Job where
  | xp (m : String)
  | scs (m : String)
  | other (e : String × String)

/-- All assignments in the order of the loops. -/
def Job.all (r : Registry) : List Job :=
  r.xp.map .xp ++ (r.scs.map .scs ++ r.others.map .other)

/-- Where a call stands. -/
inductive Stage where
  /-- before the first statement -/
  | begin
  /-- after the comparison with `__backend__`, before `_load_numpy_and_scipy` (`backend.py:143`) -/
  | load (b : Backend)
  /-- before `__backend__ = backend` (`backend.py:145`) -/
  | record (b : Backend) (xp scs : Bound)
  /-- before the first of the remaining assignments -/
  | update (b : Backend) (xp scs : Bound) (todo : List Job)
  /-- returned (`none`) or raised -/
  | finished (e : Option PyErr)

/-- The body of the loops of `set_backend` (`backend.py:147-156`). -/
def runJob (env : BEnv) (b : Backend) (xp scs : Bound) : Job → BM
  | .xp m => bindIn env "xp" xp m
  | .scs m => bindIn env "scs" scs m
  | .other e => bindOther env b e

/-- One step of a call: the stage and the shared state afterwards. -/
def advance (r : Registry) (q : Request) (st : BState) : Stage → Stage × BState
  | .begin =>
    match parseBackend q.name with
    | none => (.finished (some .valueError), st)
    | some b => if st.backend = some b then (.finished none, st) else (.load b, st)
  | .load b =>
    match loadNumpyAndScipy q.env b with
    | .error e => (.finished (some e), st)
    | .ok (xp, scs, x64) => (.record b xp scs, { st with x64 := st.x64 || x64 })
  | .record b xp scs => (.update b xp scs (Job.all r), { st with backend := some b })
  | .update _ _ _ [] => (.finished none, st)
  | .update b xp scs (j :: todo) =>
    match runJob q.env b xp scs j st with
    | (st, none) => (.update b xp scs todo, st)
    | (st, some e) => (.finished (some e), st)
  | .finished e => (.finished e, st)

/-- Several threads calling `set_backend`. -/
structure World where
  st : BState
  /-- where the call of each thread stands; a thread that never runs stays at `begin`, and one that is no longer
  scheduled has been interrupted -/
  stage : ℕ → Stage

/-- All threads are about to start. -/
def World.start (st : BState) : World := ⟨st, fun _ => .begin⟩

/-- Thread `i` makes one step. -/
def World.step (r : Registry) (req : ℕ → Request) (w : World) (i : ℕ) : World :=
  let s := advance r (req i) w.st (w.stage i)
  ⟨s.2, fun j => if j = i then s.1 else w.stage j⟩

/-- The threads make steps in the order given by a schedule. -/
def World.run (r : Registry) (req : ℕ → Request) (w : World) (schedule : List ℕ) : World :=
  schedule.foldl (World.step r req) w

/-- One call that is abandoned after at most `k` steps: where it stands and the shared state afterwards. -/
def advanceN (r : Registry) (q : Request) (st : BState) (s : Stage) : ℕ → Stage × BState
  | 0 => (s, st)
  | k + 1 => let t := advance r q st s; advanceN r q t.2 t.1 k

end BackendThreads

end GW
