import Verif.Model.Analysis
import Verif.Props.SharedSmoothed

/-!
# C105: an evaluation of the likelihood of a whole analysis does not depend on the evaluations before it
-/

noncomputable section

open Classical

namespace GW

open Fl

/-! ## Specification -/

/-- The function is the instance behind `ref`. -/
def PopFn.IsInstance (f : PopFn) (ref : ℕ) : Prop := ∃ names, f = .smoothed ref names

/-- The analysis as it is set up: no values and no interpolants are remembered. -/
def Spec.NewAnalysis (a : Analysis) : Prop :=
  (∀ k, a.numerator.entries k = none) ∧ (∀ k, a.denominator.entries k = none) ∧ ∀ r, (a.instances r).masses = none

/-- The two population models have no instance in common, or the common instances do not cache, or neither array
can be divided in place by one with the shape of the other. -/
def Spec.InstancesApart (b : Backend) (a : Analysis) : Prop :=
  ∀ ref, (∃ f ∈ a.numerator.models, f.IsInstance ref) → (∃ f ∈ a.denominator.models, f.IsInstance ref) →
    (a.instances ref).inst.cache = false ∨
    ∀ d d', a.events.masses = .ok d → a.injections.masses = .ok d' →
      ¬ SharedSmoothed.Divides b d.shape d'.shape ∧ ¬ SharedSmoothed.Divides b d'.shape d.shape

namespace Analysis

/-! ## One call -/

/-- A call returns what a new instance returns if the interpolant it finds is none, its own or of a shape that
makes the division fail. -/
theorem call_good (b : Backend) {m m' : SharedSmoothed} (hi : m'.inst = m.inst) (hm : m.masses = none)
    (d : Shaped (Fl × Fl)) (θ : Dict Fl)
    (h : ∀ l, m'.masses = some l → m.inst.cache = false ∨ l = d.map Prod.fst ∨
      ¬ SharedSmoothed.Divides b d.shape l.shape) :
    (SharedSmoothed.call b m' d θ).1 = (SharedSmoothed.call b m d θ).1 := by
  apply SharedSmoothed.call_masses b hi
  intro beta lo dm
  rw [(SharedSmoothed.pQ_right b m d beta lo dm fun l hl => absurd hl.2.1 (by rw [hm]; simp)).1,
    (SharedSmoothed.pQ_right b m' d beta lo dm ?_).1, hi]
  rintro l ⟨hc, hl, hd⟩
  rcases h l hl with h | h | h
  · rw [hi, h] at hc; cases hc
  · exact h
  · exact absurd hd h

/-- What the instances in memory may have remembered: interpolants for the masses `S ref` allows. -/
def MemOk (start : Instances) (S : ℕ → Shaped Fl → Prop) (mem : Instances) : Prop :=
  ∀ r, (mem r).inst = (start r).inst ∧ ∀ l, (mem r).masses = some l → S r l

/-- What a population model evaluated at one dataset may have remembered: values of its functions. -/
def EntriesOk (b : Backend) (start : Instances) (data : Columns) (models : List PopFn)
    (entries : Entries (Shaped Fl)) : Prop :=
  ∀ k θ q, entries k = some (θ, q) → ∃ f, models[k]? = some f ∧ (f.call b start data θ).1 = .ok q

/-- The instances used by `models` on `data` may only have remembered harmless interpolants. -/
def Harmless (b : Backend) (start : Instances) (S : ℕ → Shaped Fl → Prop) (data : Columns) (models : List PopFn) :
    Prop :=
  ∀ r, (∃ f ∈ models, f.IsInstance r) → ∀ d, data.masses = .ok d → S r (d.map Prod.fst) ∧
    ∀ l, S r l → (start r).inst.cache = false ∨ l = d.map Prod.fst ∨ ¬ SharedSmoothed.Divides b d.shape l.shape

theorem fn_call (b : Backend) {start mem : Instances} {S : ℕ → Shaped Fl → Prop} {data : Columns}
    {models : List PopFn} (h0 : ∀ r, (start r).masses = none) (hS : Harmless b start S data models)
    (hmem : MemOk start S mem) {f : PopFn} (hf : f ∈ models) (θ : Dict Fl) :
    (f.call b mem data θ).1 = (f.call b start data θ).1 ∧ MemOk start S (f.call b mem data θ).2 := by
  cases f with
  | pointwise f => exact ⟨rfl, hmem⟩
  | smoothed ref names =>
    unfold PopFn.call
    cases hd : data.masses with
    | error e => exact ⟨rfl, hmem⟩
    | ok d =>
      obtain ⟨hs1, hs2⟩ := hS ref ⟨_, hf, names, rfl⟩ d hd
      refine ⟨call_good b (hmem ref).1 (h0 ref) d θ fun l hl => hs2 l ((hmem ref).2 l hl), ?_⟩
      intro r
      simp only
      by_cases hr : r = ref
      · subst hr
        rw [if_pos rfl]
        rcases SharedSmoothed.call_after b (mem r) d θ with h | h <;> rw [h]
        · exact hmem r
        · refine ⟨(hmem r).1, fun l hl => ?_⟩
          cases hl
          exact hs1
      · rw [if_neg hr]
        exact hmem r

/-! ## One population model -/

/-- The product of the functions, each evaluated without anything being remembered. -/
def freshLoop (b : Backend) (start : Instances) (data : Columns) (kwargs : Dict Fl) :
    List PopFn → Shaped Fl → Except PyErr (Shaped Fl)
  | [], p => .ok p
  | f :: l, p =>
    match f.select kwargs with
    | .error e => .error e
    | .ok θ =>
      match (f.call b start data θ).1 with
      | .error e => .error e
      | .ok q =>
        match Shaped.timesEq b p q with
        | .error e => .error e
        | .ok p => freshLoop b start data kwargs l p

theorem loop_spec (b : Backend) {same : Dict Fl → Dict Fl → Prop} (hsame : ∀ θ θ', same θ θ' → θ = θ')
    {start : Instances} {S : ℕ → Shaped Fl → Prop} {data : Columns} {models : List PopFn}
    (h0 : ∀ r, (start r).masses = none) (hS : Harmless b start S data models) (cache : Bool) (kwargs : Dict Fl)
    (l : List PopFn) : ∀ (pre : List PopFn) (p : Shaped Fl) (entries : Entries (Shaped Fl)) (mem : Instances),
    models = pre ++ l → EntriesOk b start data models entries → MemOk start S mem →
    (PopObject.loop b same cache data kwargs pre.length l p entries mem).1 = freshLoop b start data kwargs l p ∧
    EntriesOk b start data models (PopObject.loop b same cache data kwargs pre.length l p entries mem).2.1 ∧
    MemOk start S (PopObject.loop b same cache data kwargs pre.length l p entries mem).2.2 := by
  induction l with
  | nil => exact fun _ _ _ _ _ he hm => ⟨rfl, he, hm⟩
  | cons f l ih =>
    intro pre p entries mem hmod he hm
    have hf : f ∈ models := by rw [hmod]; simp
    have hk : models[pre.length]? = some f := by rw [hmod]; simp
    have hmod' : models = (pre ++ [f]) ++ l := by rw [hmod]; simp
    have hlen : (pre ++ [f]).length = pre.length + 1 := by simp
    unfold PopObject.loop freshLoop
    cases f.select kwargs with
    | error e => exact ⟨rfl, he, hm⟩
    | ok θ =>
      simp only
      cases hl : lookupEntry same cache entries pre.length θ with
      | some q =>
        simp only
        have hq : (f.call b start data θ).1 = .ok q := by
          unfold lookupEntry at hl
          cases cache with
          | false => cases hl
          | true =>
            simp only [if_true] at hl
            cases hen : entries pre.length with
            | none => rw [hen] at hl; cases hl
            | some e =>
              obtain ⟨θ', q'⟩ := e
              rw [hen] at hl
              simp only at hl
              by_cases hs : same θ' θ
              · rw [if_pos hs] at hl
                cases hl
                obtain ⟨f', hf', hv⟩ := he _ _ _ hen
                rw [hk] at hf'
                cases hf'
                rw [← hsame _ _ hs]
                exact hv
              · rw [if_neg hs] at hl; cases hl
        rw [hq]
        simp only
        cases Shaped.timesEq b p q with
        | error e => exact ⟨rfl, he, hm⟩
        | ok p' =>
          have := ih (pre ++ [f]) p' entries mem hmod' he hm
          rwa [hlen] at this
      | none =>
        simp only
        obtain ⟨hv, hm'⟩ := fn_call b h0 hS hm hf θ
        rw [hv]
        cases hc : (f.call b start data θ).1 with
        | error e => exact ⟨rfl, he, hm'⟩
        | ok q =>
          simp only
          have he' : EntriesOk b start data models
              (if cache then fun g => if g = pre.length then some (θ, q) else entries g else entries) := by
            intro k θ' q' hkq
            cases cache with
            | false => exact he k θ' q' hkq
            | true =>
              simp only [if_true] at hkq
              by_cases hkk : k = pre.length
              · rw [if_pos hkk] at hkq
                cases hkq
                exact ⟨f, by rw [hkk]; exact hk, hc⟩
              · rw [if_neg hkk] at hkq
                exact he k θ' q' hkq
          cases Shaped.timesEq b p q with
          | error e => exact ⟨rfl, he', hm'⟩
          | ok p' =>
            have := ih (pre ++ [f]) p' _ _ hmod' he' hm'
            rwa [hlen] at this

/-- The value of a population model that remembers nothing. -/
def freshProb (b : Backend) (start : Instances) (models : List PopFn) (data : Columns) (kwargs : Dict Fl) :
    Except PyErr (Shaped Fl) :=
  freshLoop b start data kwargs models ⟨[], fun _ => 1⟩

theorem prob_spec (b : Backend) {same : Dict Fl → Dict Fl → Prop} (hsame : ∀ θ θ', same θ θ' → θ = θ')
    {start mem : Instances} {S : ℕ → Shaped Fl → Prop} {data : Columns} {m : PopObject}
    (h0 : ∀ r, (start r).masses = none) (hS : Harmless b start S data m.models) (kwargs : Dict Fl)
    (he : EntriesOk b start data m.models m.entries) (hm : MemOk start S mem) :
    (m.prob b same mem data kwargs).1 = freshProb b start m.models data kwargs ∧
    (m.prob b same mem data kwargs).2.1.models = m.models ∧
    (m.prob b same mem data kwargs).2.1.cache = m.cache ∧
    EntriesOk b start data m.models (m.prob b same mem data kwargs).2.1.entries ∧
    MemOk start S (m.prob b same mem data kwargs).2.2 := by
  obtain ⟨h1, h2, h3⟩ := loop_spec b hsame h0 hS m.cache kwargs m.models [] ⟨[], fun _ => 1⟩ m.entries mem rfl he hm
  exact ⟨h1, rfl, rfl, h2, h3⟩

/-! ## The analysis -/

/-- The interpolants an analysis may have remembered. -/
def Served (a : Analysis) (ref : ℕ) (l : Shaped Fl) : Prop :=
  ((∃ f ∈ a.numerator.models, f.IsInstance ref) ∧ ∃ d, a.events.masses = .ok d ∧ l = d.map Prod.fst) ∨
  ((∃ f ∈ a.denominator.models, f.IsInstance ref) ∧ ∃ d, a.injections.masses = .ok d ∧ l = d.map Prod.fst)

/-- `c` is a state of the analysis `a` with only harmless memories. -/
structure StateOf (b : Backend) (a c : Analysis) : Prop where
  likelihood : c.likelihood = a.likelihood
  vt : c.vt = a.vt
  events : c.events = a.events
  injections : c.injections = a.injections
  numerator : c.numerator.models = a.numerator.models
  denominator : c.denominator.models = a.denominator.models
  numeratorEntries : EntriesOk b a.instances a.events a.numerator.models c.numerator.entries
  denominatorEntries : EntriesOk b a.instances a.injections a.denominator.models c.denominator.entries
  instances : MemOk a.instances (Served a) c.instances

theorem StateOf.refl {b : Backend} {a : Analysis} (h : Spec.NewAnalysis a) : StateOf b a a := by
  obtain ⟨h1, h2, h3⟩ := h
  refine ⟨rfl, rfl, rfl, rfl, rfl, rfl, ?_, ?_, ?_⟩
  · intro k θ q hk; rw [h1] at hk; cases hk
  · intro k θ q hk; rw [h2] at hk; cases hk
  · intro r; exact ⟨rfl, fun l hl => by rw [h3] at hl; cases hl⟩

theorem served_numerator {b : Backend} {a : Analysis} (h : Spec.InstancesApart b a) :
    Harmless b a.instances (Served a) a.events a.numerator.models := by
  intro r hr d hd
  refine ⟨Or.inl ⟨hr, d, hd, rfl⟩, ?_⟩
  rintro l (⟨-, d', hd', rfl⟩ | ⟨hr', d', hd', rfl⟩)
  · rw [hd] at hd'
    cases hd'
    exact Or.inr (Or.inl rfl)
  · rcases h r hr hr' with h | h
    · exact Or.inl h
    · exact Or.inr (Or.inr (h d d' hd hd').1)

theorem served_denominator {b : Backend} {a : Analysis} (h : Spec.InstancesApart b a) :
    Harmless b a.instances (Served a) a.injections a.denominator.models := by
  intro r hr d hd
  refine ⟨Or.inr ⟨hr, d, hd, rfl⟩, ?_⟩
  rintro l (⟨hr', d', hd', rfl⟩ | ⟨-, d', hd', rfl⟩)
  · rcases h r hr' hr with h | h
    · exact Or.inl h
    · exact Or.inr (Or.inr (h d' d hd' hd).2)
  · rw [hd] at hd'
    cases hd'
    exact Or.inr (Or.inl rfl)

/-- The outcome of an evaluation if nothing is remembered. -/
def freshEvaluate (b : Backend) (a : Analysis) (θ : Dict Fl) : Except PyErr (Fl × Fl) :=
  match a.likelihood.conversion θ with
  | .error e => .error e
  | .ok φ =>
    let p := freshProb b a.instances a.numerator.models a.events φ
    match (a.withValues p (.error .notImplemented)).perEvent φ with
    | .error e => .error e
    | .ok _ =>
      (a.withValues p (freshProb b a.instances a.denominator.models a.injections φ)).lnLikelihoodAndVariance θ

theorem evaluate_spec (b : Backend) {same : Dict Fl → Dict Fl → Prop} (hsame : ∀ θ θ', same θ θ' → θ = θ')
    {a c : Analysis} (h0 : ∀ r, (a.instances r).masses = none) (hS : Spec.InstancesApart b a) (hc : StateOf b a c)
    (θ : Dict Fl) :
    (c.evaluate b same θ).1 = freshEvaluate b a θ ∧ StateOf b a (c.evaluate b same θ).2 := by
  unfold evaluate freshEvaluate
  rw [hc.likelihood]
  cases a.likelihood.conversion θ with
  | error e => exact ⟨rfl, hc⟩
  | ok φ =>
    simp only
    have hN : Harmless b a.instances (Served a) a.events c.numerator.models := by
      rw [hc.numerator]; exact served_numerator hS
    have hD : Harmless b a.instances (Served a) a.injections c.denominator.models := by
      rw [hc.denominator]; exact served_denominator hS
    obtain ⟨n1, n2, -, n4, n5⟩ := prob_spec b hsame h0 hN φ (by rw [hc.numerator]; exact hc.numeratorEntries)
      hc.instances
    rw [hc.events, hc.injections, n1, hc.numerator]
    rw [hc.numerator] at n2 n4
    have hw : ∀ (p q : Except PyErr (Shaped Fl)) (num den : PopObject) (inst : Instances),
        ({ likelihood := a.likelihood, vt := a.vt, events := a.events, injections := a.injections, numerator := num,
           denominator := den, instances := inst } : Analysis).withValues p q = a.withValues p q :=
      fun _ _ _ _ _ => rfl
    rw [hc.vt, hw]
    cases (a.withValues (freshProb b a.instances a.numerator.models a.events φ) (.error .notImplemented)).perEvent
      φ with
    | error e =>
      exact ⟨rfl, ⟨rfl, rfl, rfl, rfl, n2, hc.denominator, n4, hc.denominatorEntries, n5⟩⟩
    | ok l =>
      simp only
      obtain ⟨d1, d2, -, d4, d5⟩ := prob_spec b hsame h0 hD φ (by rw [hc.denominator]; exact hc.denominatorEntries)
        n5
      rw [d1, hc.denominator]
      rw [hc.denominator] at d2 d4
      rw [hw]
      exact ⟨rfl, ⟨rfl, rfl, rfl, rfl, n2, d2, n4, d4, d5⟩⟩

theorem run_state (b : Backend) {same : Dict Fl → Dict Fl → Prop} (hsame : ∀ θ θ', same θ θ' → θ = θ')
    {a : Analysis} (h0 : ∀ r, (a.instances r).masses = none) (hS : Spec.InstancesApart b a) (hist : List (Dict Fl)) :
    ∀ c, StateOf b a c → StateOf b a (c.run b same hist) := by
  induction hist with
  | nil => exact fun c hc => hc
  | cons θ hist ih => exact fun c hc => ih _ (evaluate_spec b hsame h0 hS hc θ).2

/-- **C105, history.** Let the population models for posterior samples and injections have no smoothed instance in
common (or share instances that do not cache, or whose datasets cannot be confused because of their shapes). Then the
outcome of an evaluation of the likelihood, value or exception, is the same after every history of evaluations at
other points, whether they succeeded or raised, as on the new analysis. -/
theorem C105_history (b : Backend) {same : Dict Fl → Dict Fl → Prop} (hsame : ∀ θ θ', same θ θ' → θ = θ')
    {a : Analysis} (hnew : Spec.NewAnalysis a) (hS : Spec.InstancesApart b a) (hist : List (Dict Fl)) (θ : Dict Fl) :
    ((a.run b same hist).evaluate b same θ).1 = (a.evaluate b same θ).1 := by
  have hr : StateOf b a a := StateOf.refl hnew
  rw [(evaluate_spec b hsame hnew.2.2 hS (run_state b hsame hnew.2.2 hS hist a hr) θ).1,
    (evaluate_spec b hsame hnew.2.2 hS hr θ).1]

end Analysis

end GW
