import Verif.Model.JitLikelihood

/-!
# Model of `jax.jit(likelihood.generate_extra_statistics)`

The use in `examples/GWTC3.ipynb`: one likelihood object is evaluated, compiled with `JittedLikelihood`, sampled, and its method
`generate_extra_statistics` (`hyperpe.py:228-275`) is then compiled with `jax.jit` and called with every posterior sample. All
of these use the population model of the same likelihood object.

Simplifications: those of `Verif/Model/JitLikelihood.lean`; a dictionary that an exception leaves behind is not recorded.
-/

noncomputable section

open Classical

namespace GW

open Fl

/-- `generate_extra_statistics` (`hyperpe.py:259-275`) once the parameters are converted to `θ` and the population model has been
evaluated. -/
def Likelihood.statisticsFrom (self : Likelihood) (sample θ : Dict Fl) (p : Mat) : Except PyErr (Dict Fl) :=
  Likelihood.generateExtraStatistics
    { self with conversion := fun _ => .ok θ, hyperPrior := ⟨self.hyperPrior.models, fun _ _ => .ok p⟩ } sample

/-- `generate_extra_statistics` (`hyperpe.py:228-275`) of a likelihood with this population model, in any context: the dictionary
that is returned. -/
def stagedStatistics {E : Type} (c : Ctx E) (ops : OutOps Mat) (self : Likelihood) (m : StagedModel E)
    (sample : Staged E (Dict Fl)) : Except PyErr (Staged E (Dict Fl)) × StagedModel E :=
  match Staged.op c self.conversion sample with
  | .error e => (.error e, m)
  | .ok θ =>
    match m.prob c ops self.data θ with
    | (.error e, m') => (.error e, m')
    | (.ok p, m') =>
      ((do
        let a ← Staged.pair c θ p
        let a ← Staged.pair c sample a
        Staged.op c (fun a => self.statisticsFrom a.1 a.2.1 a.2.2) a), m')

/-- A process with a likelihood, its `JittedLikelihood` and `jax.jit(likelihood.generate_extra_statistics)`. -/
structure StatisticsProcess where
  /-- the likelihood and its `JittedLikelihood` -/
  base : LikelihoodProcess
  /-- the recorded computations of the compiled method, by the names of the entries of the sample -/
  compiled : List ((String → Bool) × (Dict Fl → Except PyErr (Dict Fl)))

/-- What a program does with these objects. -/
inductive StatisticsAction where
  /-- `likelihood.log_likelihood_ratio(θ)` -/
  | ratio (θ : Dict Fl)
  /-- `jitted.log_likelihood_ratio(θ)` -/
  | jittedRatio (θ : Dict Fl)
  /-- `likelihood.generate_extra_statistics(sample)` -/
  | statistics (sample : Dict Fl)
  /-- `func(sample)` for `func = jax.jit(likelihood.generate_extra_statistics)` -/
  | jittedStatistics (sample : Dict Fl)

/-- What the program sees of it. -/
inductive StatisticsOutcome where
  | ratio (r : Except PyErr Fl)
  /-- the dictionary returned, and the content of the dictionary given afterwards -/
  | statistics (r : Except PyErr (Dict Fl × Dict Fl))

namespace StatisticsProcess

/-- `likelihood.generate_extra_statistics(sample)`: the dictionary is modified in place and returned. -/
def evalOrdinary (ops : OutOps Mat) (p : StatisticsProcess) (sample : Dict Fl) :
    Except PyErr (Dict Fl × Dict Fl) × StatisticsProcess :=
  let r := stagedStatistics .eager ops p.base.likelihood p.base.model (.known sample)
  ((r.1 >>= Staged.toNumpy).map fun d => (d, d), { p with base := { p.base with model := r.2 } })

/-- `func(sample)` (`GWTC3.ipynb`): the method works on a copy that `jax.jit` makes of the dictionary. -/
def evalJitted (ops : OutOps Mat) (p : StatisticsProcess) (sample : Dict Fl) :
    Except PyErr (Dict Fl × Dict Fl) × StatisticsProcess :=
  match p.compiled.find? (fun q => q.1 = parameterNames sample) with
  | some q => ((q.2 sample).map fun d => (d, sample), p)
  | none =>
    let c := Ctx.tracing p.base.traces sample
    let r := stagedStatistics c ops p.base.likelihood p.base.model (.tracer p.base.traces .ok)
    let p1 := { p with base := { p.base with model := r.2, traces := p.base.traces + 1 } }
    match r.1 >>= Staged.read c with
    | .error err => (.error err, p1)
    | .ok f => ((f sample).map fun d => (d, sample), { p1 with compiled := (parameterNames sample, f) :: p1.compiled })

/-- One action: what is seen, and the process afterwards. -/
def step (ops : OutOps Mat) (p : StatisticsProcess) : StatisticsAction → StatisticsOutcome × StatisticsProcess
  | .ratio θ => let r := p.base.evalOrdinary ops θ; (.ratio r.1, { p with base := r.2 })
  | .jittedRatio θ => let r := p.base.evalJitted ops θ; (.ratio r.1, { p with base := r.2 })
  | .statistics s => let r := p.evalOrdinary ops s; (.statistics r.1, r.2)
  | .jittedStatistics s => let r := p.evalJitted ops s; (.statistics r.1, r.2)

/-- What is seen during a sequence of actions. -/
def outcomes (ops : OutOps Mat) (p : StatisticsProcess) : List StatisticsAction → List StatisticsOutcome
  | [] => []
  | a :: as => (p.step ops a).1 :: outcomes ops (p.step ops a).2 as

/-- The process after a sequence of actions. -/
def run (ops : OutOps Mat) (p : StatisticsProcess) : List StatisticsAction → StatisticsProcess
  | [] => p
  | a :: as => run ops (p.step ops a).2 as

end StatisticsProcess

/-- The objects right after construction, with the population model `Model(functions, cache=cache)`. -/
def newStatisticsProcess (likelihood : Likelihood) (functions : List PlainFn) (cache : Bool) : StatisticsProcess :=
  ⟨newLikelihoodProcess likelihood functions cache, []⟩

end GW
