import Verif.Model.SharedSmoothed

/-!
# Evaluations in threads and interrupted evaluations of smoothed mass models, `gwpopulation/models/mass.py:572-657`

`Model/SharedSmoothed.lean` describes an evaluation that runs from beginning to end. Here an evaluation is a sequence of
steps, between which another thread may run or the evaluation may be abandoned (an exception raised from outside such as
`KeyboardInterrupt`, or a killed thread). The only attribute of an instance that an evaluation assigns is
`_q_interpolant`; a step ends at each assignment to it and at each use of it.

Simplifications: reading or assigning an attribute is one indivisible operation, as it is in CPython. Everything between
two accesses to the attribute (which works on local variables and on attributes that never change) belongs to one step.
-/

noncomputable section

open Classical

namespace GW

open Fl

namespace SharedSmoothed

/-- The arguments of an evaluation. -/
structure Request where
  data : Shaped (Fl × Fl)
  kwargs : Dict Fl

/-- The local variables of `__call__` and `p_q` when `_q_interpolant` is first accessed. -/
structure Locals where
  /-- the value of `p_m1` (`mass.py:586`) -/
  pm : Shaped Fl
  /-- `p_q` before it is normalised (`mass.py:615-621`) -/
  pq : Shaped Fl
  beta : Fl
  mmin : Fl
  deltaM : Fl

/-- What happens before the attribute is accessed (`mass.py:572-621`): the checks, `p_m1` and the values of `p_q` before
they are normalised. -/
def prepare (b : Backend) (m : SharedSmoothed) (data : Shaped (Fl × Fl)) (kwargs : Dict Fl) : Except PyErr Locals :=
  match Dict.get? kwargs "beta" with
  | none => .error (.keyError "beta")
  | some beta =>
    let kwargs := Dict.erase kwargs "beta"
    let mmin := Smoothed.kwGet kwargs "mmin" (fin m.inst.mmin)
    let mmax := Smoothed.kwGet kwargs "mmax" (fin m.inst.mmax)
    if b ≠ .jax ∧ mmin < fin m.inst.mmin then .error .valueError
    else if b ≠ .jax ∧ fin m.inst.mmax < mmax then .error .valueError
    else
      let deltaM := Smoothed.kwGet kwargs "delta_m" 0
      if ∃ k ∈ Dict.keys kwargs, k ∈ Dict.keys m.inst.fixed then .error .typeError
      else match pM1 b m (data.map Prod.fst) (kwargs ++ m.inst.fixed) with
        | .error e => .error e
        | .ok pm =>
          match data.mapM (fun d => Smoothed.pQRaw b beta mmin deltaM d.1 d.2) with
          | .error e => .error e
          | .ok pq => .ok ⟨pm, pq, beta, mmin, deltaM⟩

/-- Where an evaluation stands. -/
inductive Stage where
  /-- before the first statement of `__call__` -/
  | begin
  /-- before `self._cache_q_norms(dataset["mass_1"])`: in the body of the `try` statement (`mass.py:627`) or, if
  `again`, in its handler (`mass.py:630`) -/
  | write (again : Bool) (l : Locals)
  /-- before `p_q /= self.norm_p_q(...)`: in the body (`mass.py:625`, `:628`) or, if `again`, in the handler
  (`mass.py:631`) -/
  | read (again : Bool) (l : Locals)
  /-- returned or raised -/
  | finished (r : Except PyErr (Shaped Fl))

/-- The product of the two factors returned by `__call__` (`mass.py:588-589`), given the outcome of the division. -/
def finish (b : Backend) (l : Locals) (r : Except PyErr (Shaped Fl)) : Except PyErr (Shaped Fl) :=
  match r with
  | .error e => .error e
  | .ok r => Shaped.zip b (· * ·) l.pm (r.map nanToNum)

/-- One step of an evaluation: the stage and the instance afterwards. -/
def advance (b : Backend) (q : Request) (m : SharedSmoothed) : Stage → Stage × SharedSmoothed
  | .begin =>
    match prepare b m q.data q.kwargs with
    | .error e => (.finished (.error e), m)
    | .ok l => (if m.inst.cache then .read false l else .write false l, m)
  | .write again l => (.read again l, cacheQNorms m (q.data.map Prod.fst))
  | .read again l =>
    match divideByNorm b m l.pq l.beta l.mmin l.deltaM with
    | .ok r => (.finished (finish b l (.ok r)), m)
    | .error e =>
      if again = false ∧ Smoothed.caught e then (.write true l, m) else (.finished (.error e), m)
  | .finished r => (.finished r, m)

/-- Several threads evaluating one instance. -/
structure World where
  inst : SharedSmoothed
  /-- where the evaluation of each thread stands; a thread that never runs stays at `begin` -/
  stage : ℕ → Stage

/-- All threads are about to start. -/
def World.start (m : SharedSmoothed) : World := ⟨m, fun _ => .begin⟩

/-- Thread `i` makes one step. -/
def World.step (b : Backend) (req : ℕ → Request) (w : World) (i : ℕ) : World :=
  let r := advance b (req i) w.inst (w.stage i)
  ⟨r.2, fun j => if j = i then r.1 else w.stage j⟩

/-- The threads make steps in the order given by a schedule. -/
def World.run (b : Backend) (req : ℕ → Request) (w : World) (schedule : List ℕ) : World :=
  schedule.foldl (World.step b req) w

/-- One evaluation that is abandoned after at most `k` steps: where it stands and the instance afterwards. -/
def advanceN (b : Backend) (q : Request) (m : SharedSmoothed) (st : Stage) : ℕ → Stage × SharedSmoothed
  | 0 => (st, m)
  | k + 1 => let r := advance b q m st; advanceN b q r.2 r.1 k

/-- A history of evaluations, each abandoned after the given number of steps unless it finished before. -/
def runInterrupted (b : Backend) (m : SharedSmoothed) : List (Request × ℕ) → SharedSmoothed
  | [] => m
  | (q, k) :: rest => runInterrupted b (advanceN b q m .begin k).2 rest

end SharedSmoothed

end GW
