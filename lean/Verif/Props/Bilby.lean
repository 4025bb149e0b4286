import Verif.Model.Bilby
import Verif.Props.Cosmo

/-!
# C86: the population model is evaluated at the data of whoever evaluates it
-/

noncomputable section

open Classical

namespace GW

open Fl

variable {Data Out : Type}

namespace Spec

/-- The population probability: the product of the values of the functions, each called with the
parameters it asks for. -/
def product (ops : OutOps Out) (fns : ℕ → ModelFn Data Out) (models : List ℕ) (data : Data)
    (kwargs : Dict Fl) : Except PyErr Out :=
  models.foldlM (fun p f => do
    let θ ← (fns f).select kwargs
    let q ← (fns f).call data θ
    ops.mul p q) ops.one

/-- Parameters that compare equal give equal values. -/
def Respects (same : Dict Fl → Dict Fl → Prop) (fns : ℕ → ModelFn Data Out) : Prop :=
  ∀ f data θ θ', same θ θ' → (fns f).call data θ = (fns f).call data θ'

/-- No object has computed anything yet. -/
def Unused (mem : Memory Out) : Prop := ∀ r f, (mem.object r).entries f = none

/-- The evaluations of a history: the likelihood evaluates object `r₁` at its data `d₁`, the
selection function object `r₂` at its data `d₂`. -/
def Evaluations (r₁ r₂ : ℕ) (d₁ d₂ : Data) (hist : List (ℕ × Data × Dict Fl)) : Prop :=
  ∀ e ∈ hist, (e.1 = r₁ ∧ e.2.1 = d₁) ∨ (e.1 = r₂ ∧ e.2.1 = d₂)

/-- Evaluating `ref` at `data` gives the product of the functions `models` at `data`. -/
def Evaluates (ops : OutOps Out) (same : Dict Fl → Dict Fl → Prop) (fns : ℕ → ModelFn Data Out)
    (mem : Memory Out) (ref : ℕ) (data : Data) (models : List ℕ) : Prop :=
  ∀ kwargs, (mem.prob ops same fns ref data kwargs).1 = product ops fns models data kwargs

end Spec

open Spec

/-- The cached values are those at `data`. -/
def CachedAt (fns : ℕ → ModelFn Data Out) (data : Data) (entries : Entries Out) : Prop :=
  ∀ f θ q, entries f = some (θ, q) → (fns f).call data θ = .ok q

theorem probLoop_spec {ops : OutOps Out} {same : Dict Fl → Dict Fl → Prop}
    {fns : ℕ → ModelFn Data Out} (hsame : Respects same fns) {cache : Bool} {data : Data}
    (kwargs : Dict Fl) (l : List ℕ) (p : Out) {entries : Entries Out}
    (h : cache = true → CachedAt fns data entries) :
    (probLoop ops same fns cache data kwargs l p entries).1 =
      l.foldlM (fun p f => do
        let θ ← (fns f).select kwargs
        let q ← (fns f).call data θ
        ops.mul p q) p ∧
    (cache = true → CachedAt fns data (probLoop ops same fns cache data kwargs l p entries).2) ∧
    (cache = false → (probLoop ops same fns cache data kwargs l p entries).2 = entries) := by
  induction l generalizing p entries with
  | nil => exact ⟨rfl, h, fun _ => rfl⟩
  | cons f l ih =>
    unfold probLoop
    simp only [List.foldlM_cons]
    cases hsel : (fns f).select kwargs with
    | error e => exact ⟨rfl, h, fun _ => rfl⟩
    | ok θ =>
      simp only [ok_bind]
      cases hl : lookupEntry same cache entries f θ with
      | some q =>
        simp only
        have hq : (fns f).call data θ = .ok q := by
          unfold lookupEntry at hl
          split_ifs at hl with hc
          cases he : entries f with
          | none => rw [he] at hl; cases hl
          | some e =>
            obtain ⟨θ', q'⟩ := e
            rw [he] at hl
            simp only at hl
            split_ifs at hl with hs
            cases hl
            rw [← hsame f data θ' θ hs]
            exact h hc f θ' q he
        rw [hq]
        simp only [ok_bind]
        cases hm : ops.mul p q with
        | error e => exact ⟨rfl, h, fun _ => rfl⟩
        | ok p' => exact ih p' h
      | none =>
        simp only
        cases hcall : (fns f).call data θ with
        | error e => exact ⟨rfl, h, fun _ => rfl⟩
        | ok q =>
          simp only [ok_bind]
          have h' : cache = true → CachedAt fns data
              (if cache then fun g => if g = f then some (θ, q) else entries g else entries) := by
            intro hc
            rw [if_pos hc]
            intro g θ' q' hg
            simp only at hg
            split_ifs at hg with hgf
            · cases hg; rw [hgf]; exact hcall
            · exact h hc g θ' q' hg
          cases hm : ops.mul p q with
          | error e =>
            refine ⟨rfl, h', fun hc => ?_⟩
            simp [hc]
          | ok p' =>
            obtain ⟨a, b, c⟩ := ih p' h'
            refine ⟨a, b, fun hc => ?_⟩
            rw [c hc]; simp [hc]

theorem BilbyModel.prob_spec {ops : OutOps Out} {same : Dict Fl → Dict Fl → Prop}
    {fns : ℕ → ModelFn Data Out} (hsame : Respects same fns) (m : BilbyModel Out) {data : Data}
    (kwargs : Dict Fl) (h : m.cache = true → CachedAt fns data m.entries) :
    (m.prob ops same fns data kwargs).1 = product ops fns m.models data kwargs ∧
    (m.cache = true → CachedAt fns data (m.prob ops same fns data kwargs).2.entries) :=
  let k := probLoop_spec (ops := ops) hsame kwargs m.models ops.one h
  ⟨k.1, k.2.1⟩

/-- An evaluation changes neither the functions nor the flag of any object. -/
theorem Memory.run_config (ops : OutOps Out) (same : Dict Fl → Dict Fl → Prop)
    (fns : ℕ → ModelFn Data Out) (hist : List (ℕ × Data × Dict Fl)) (mem : Memory Out) (r : ℕ) :
    ((Memory.run ops same fns hist mem).object r).models = (mem.object r).models ∧
    ((Memory.run ops same fns hist mem).object r).cache = (mem.object r).cache := by
  induction hist generalizing mem with
  | nil => exact ⟨rfl, rfl⟩
  | cons e l ih =>
    obtain ⟨ref, data, kwargs⟩ := e
    unfold Memory.run
    obtain ⟨a, b⟩ := ih (mem.prob ops same fns ref data kwargs).2
    rw [a, b]
    unfold Memory.prob
    simp only
    split_ifs with hr
    · subst hr; exact ⟨rfl, rfl⟩
    · exact ⟨rfl, rfl⟩

/-- If object `r` is only ever evaluated at `data`, its cache is that of `data`. -/
theorem Memory.run_cached {ops : OutOps Out} {same : Dict Fl → Dict Fl → Prop}
    {fns : ℕ → ModelFn Data Out} (hsame : Respects same fns) {r : ℕ} {data : Data}
    (hist : List (ℕ × Data × Dict Fl)) {mem : Memory Out}
    (hh : ∀ e ∈ hist, e.1 = r → e.2.1 = data)
    (h : (mem.object r).cache = true → CachedAt fns data (mem.object r).entries) :
    (mem.object r).cache = true →
      CachedAt fns data ((Memory.run ops same fns hist mem).object r).entries := by
  induction hist generalizing mem with
  | nil => exact h
  | cons e l ih =>
    obtain ⟨ref, d, kwargs⟩ := e
    intro hc
    unfold Memory.run
    have hcfg : ((mem.prob ops same fns ref d kwargs).2.object r).cache = (mem.object r).cache :=
      (Memory.run_config ops same fns [(ref, d, kwargs)] mem r).2
    refine ih (fun e he => hh e (List.mem_cons_of_mem _ he)) ?_ (by rw [hcfg]; exact hc)
    intro _
    unfold Memory.prob
    simp only
    split_ifs with hr
    · subst hr
      have : d = data := hh (_, d, kwargs) List.mem_cons_self rfl
      subst this
      exact (BilbyModel.prob_spec (ops := ops) hsame _ kwargs h).2 hc
    · exact h hc

/-- **C86, what holds.** Let a likelihood evaluate object `r₁` at its data and a selection function
object `r₂` at its data. If the two objects are different, or if they do not cache, then after any
history of evaluations each evaluation gives the product of the functions at the right data. -/
theorem C86_separate_partial {ops : OutOps Out} {same : Dict Fl → Dict Fl → Prop}
    {fns : ℕ → ModelFn Data Out} (hsame : Respects same fns) {mem : Memory Out} (hmem : Unused mem)
    {r₁ r₂ : ℕ} (hr : r₁ ≠ r₂ ∨ ((mem.object r₁).cache = false ∧ (mem.object r₂).cache = false))
    {d₁ d₂ : Data} {hist : List (ℕ × Data × Dict Fl)} (hh : Evaluations r₁ r₂ d₁ d₂ hist) :
    Evaluates ops same fns (Memory.run ops same fns hist mem) r₁ d₁ (mem.object r₁).models ∧
    Evaluates ops same fns (Memory.run ops same fns hist mem) r₂ d₂ (mem.object r₂).models := by
  have main : ∀ r d, ((mem.object r).cache = true → ∀ e ∈ hist, e.1 = r → e.2.1 = d) →
      Evaluates ops same fns (Memory.run ops same fns hist mem) r d (mem.object r).models := by
    intro r d hd kwargs
    obtain ⟨hm, hc⟩ := Memory.run_config ops same fns hist mem r
    have := (BilbyModel.prob_spec (ops := ops) (data := d) hsame
      ((Memory.run ops same fns hist mem).object r) kwargs (fun hcache => by
        rw [hc] at hcache
        refine Memory.run_cached hsame hist (hd hcache) (fun _ f θ q he => ?_) hcache
        rw [hmem r f] at he; cases he)).1
    rw [hm] at this
    exact this
  constructor
  · refine main r₁ d₁ fun hc e he h1 => ?_
    rcases hh e he with ⟨-, h⟩ | ⟨h2, -⟩
    · exact h
    · rcases hr with hr | ⟨hr, -⟩
      · exact absurd (h1.symm.trans h2) hr
      · rw [hr] at hc; cases hc
  · refine main r₂ d₂ fun hc e he h1 => ?_
    rcases hh e he with ⟨h2, -⟩ | ⟨-, h⟩
    · rcases hr with hr | ⟨-, hr⟩
      · exact absurd (h2.symm.trans h1) hr
      · rw [hr] at hc; cases hc
    · exact h

/-- C86: the same population model - a function, or a model object - may be given to the likelihood
and to the selection function: after any history of evaluations of both, each gives the product of the
functions at its own data. -/
def C86_statement : Prop :=
  ∀ (Data Out : Type) (ops : OutOps Out) (same : Dict Fl → Dict Fl → Prop)
    (fns : ℕ → ModelFn Data Out), Respects same fns →
    ∀ (mem₀ mem₁ : Memory Out), Unused mem₀ → ∀ (arg : ModelArg) (r₁ : ℕ),
    likelihoodModel arg mem₀ = .ok (r₁, mem₁) →
    ∀ (d₁ d₂ : Data) (hist : List (ℕ × Data × Dict Fl)),
    let r₂ := (vtModel arg mem₁).1
    let mem := (vtModel arg mem₁).2
    Evaluations r₁ r₂ d₁ d₂ hist →
    Evaluates ops same fns (Memory.run ops same fns hist mem) r₁ d₁ (mem.object r₁).models ∧
    Evaluates ops same fns (Memory.run ops same fns hist mem) r₂ d₂ (mem.object r₂).models

/-- A function returning its data. -/
def echoFn : ModelFn Fl Fl := ⟨.ok, fun d _ => .ok d⟩

/-- **C86 fails**: one `Model` with its cache (the default) given to both. After the likelihood has been
evaluated, the selection function is computed with the probabilities of the events. -/
theorem C86_fails : ¬ C86_statement := by
  intro H
  have h := (H Fl Fl flOps (· = ·) (fun _ => echoFn) (fun _ _ _ _ h => by rw [h])
    ⟨fun _ => .new Fl [0] true, 1⟩ ⟨fun _ => .new Fl [0] true, 1⟩ (fun _ _ => rfl) (.model 0) 0 rfl
    (fin 2) (fin 3) [(0, fin 2, [])] (fun e he => by
      rw [List.mem_singleton] at he; subst he; exact .inl ⟨rfl, rfl⟩)).2 []
  have e1 : (product flOps (fun _ => echoFn) [0] (fin 3) [] : Except PyErr Fl) = .ok (1 * fin 3) := rfl
  have e2 : ((Memory.run flOps (· = ·) (fun _ => echoFn) [(0, fin 2, [])]
      ⟨fun _ => .new Fl [0] true, 1⟩).prob flOps (· = ·) (fun _ => echoFn) 0 (fin 3) []).1 =
      .ok (1 * fin 2) := by
    simp [Memory.run, Memory.prob, BilbyModel.prob, probLoop, BilbyModel.new, echoFn, lookupEntry,
      flOps]
  have h' := e2.symm.trans (h.trans e1)
  have h2 := Except.ok.inj h'
  rw [show (1 : Fl) = fin 1 from rfl, fin_mul, fin_mul] at h2
  have := Fl.fin.inj h2
  norm_num at this

/-- **C86 for functions.** A function given to both is wrapped in two different objects. -/
theorem C86_function_partial {ops : OutOps Out} {same : Dict Fl → Dict Fl → Prop}
    {fns : ℕ → ModelFn Data Out} (hsame : Respects same fns) {mem₀ mem₁ : Memory Out}
    (hmem : Unused mem₀) {f r₁ : ℕ} (h₁ : likelihoodModel (.function f) mem₀ = .ok (r₁, mem₁))
    {d₁ d₂ : Data} {hist : List (ℕ × Data × Dict Fl)}
    (hh : Evaluations r₁ (vtModel (.function f) mem₁).1 d₁ d₂ hist) :
    Evaluates ops same fns (Memory.run ops same fns hist (vtModel (.function f) mem₁).2) r₁ d₁ [f] ∧
    Evaluates ops same fns (Memory.run ops same fns hist (vtModel (.function f) mem₁).2)
      (vtModel (.function f) mem₁).1 d₂ [f] := by
  unfold likelihoodModel Memory.alloc at h₁
  cases h₁
  have := C86_separate_partial (ops := ops) hsame
    (mem := (vtModel (.function f) (Memory.alloc mem₀ (.new Out [f] true)).2).2)
    (r₁ := mem₀.next) (r₂ := mem₀.next + 1) (fun r g => by
      unfold vtModel Memory.alloc
      simp only
      split_ifs
      · rfl
      · rfl
      · exact hmem r g) (.inl (by omega)) hh
  refine ⟨?_, ?_⟩
  · have h := this.1
    unfold vtModel Memory.alloc at h
    simp only at h
    rw [if_neg (by omega), if_pos trivial] at h
    exact h
  · have h := this.2
    unfold vtModel Memory.alloc at h
    simp only [if_true] at h
    exact h

/-- **C86 for lists of functions.** A selection function accepts a list and evaluates the product of all its functions,
whatever happened before; a likelihood refuses it. The base class of selection functions refuses every call. -/
theorem C86_list_partial {ops : OutOps Out} {same : Dict Fl → Dict Fl → Prop}
    {fns : ℕ → ModelFn Data Out} (hsame : Respects same fns) {mem : Memory Out} (hmem : Unused mem) (l : List ℕ)
    {d : Data} {hist : List (ℕ × Data × Dict Fl)} (hh : ∀ e ∈ hist, e.1 = mem.next → e.2.1 = d) :
    Evaluates ops same fns (Memory.run ops same fns hist (vtModel (.functions l) mem).2)
      (vtModel (.functions l) mem).1 d l ∧
    likelihoodModel (.functions l) mem = .error .attributeError ∧
    (baseVTCall : Except PyErr Fl) = .error .notImplemented := by
  refine ⟨fun kwargs => ?_, rfl, rfl⟩
  obtain ⟨mem', hm'⟩ : ∃ m, m = (vtModel (.functions l) mem).2 := ⟨_, rfl⟩
  have hr : (vtModel (.functions l) mem).1 = mem.next := rfl
  have ho : mem'.object mem.next = .new Out l true := by
    rw [hm']
    simp [vtModel, Memory.alloc]
  obtain ⟨h1, h2⟩ := Memory.run_config ops same fns hist mem' mem.next
  have := (BilbyModel.prob_spec (ops := ops) (data := d) hsame
    ((Memory.run ops same fns hist mem').object mem.next) kwargs (fun hcache => by
      rw [h2] at hcache
      refine Memory.run_cached hsame hist hh (fun _ f θ q he => ?_) hcache
      rw [ho] at he
      cases he)).1
  rw [h1, ho] at this
  rw [← hm', hr]
  exact this

/-- Non-vacuity: three functions, evaluated at other data by another object. -/
example : Unused (⟨fun _ => .new Fl [] true, 0⟩ : Memory Fl) ∧ Respects (· = ·) (fun _ => echoFn) ∧
    ∀ e ∈ [(0, fin 2, []), (1, fin 3, [])], e.1 = (⟨fun _ => .new Fl [] true, 0⟩ : Memory Fl).next →
      (e : ℕ × Fl × Dict Fl).2.1 = fin 2 :=
  ⟨fun _ _ => rfl, fun _ _ _ _ h => by rw [h], by simp⟩

/-- **C86 for `CosmoModel`.** Whatever has been evaluated before - other data, other parameters - the
value is the product of the functions at the source-frame samples divided by the Jacobian. -/
theorem C86_cosmo {available : Dict CosmoEntry} {models : List ℕ} {name : String} {c : CosmoModel}
    (hc : CosmoModel.init available models name = .ok c) {same : Dict Fl → Dict Fl → Prop}
    {fns : ℕ → ModelFn (Dict Fl) Fl} (hsame : Respects same fns) (hist : List (Dict Fl × Dict Fl))
    (data kwargs : Dict Fl) :
    (CosmoModel.prob same fns (hist.foldl (fun c e => (CosmoModel.prob same fns c e.1 e.2).2) c)
      data kwargs).1 =
      cosmoModelProb c.mixin (fun d θ => product flOps fns models d θ) data kwargs := by
  have hinit : c.model = .new Fl models false := by
    unfold CosmoModel.init at hc
    cases hm : CosmoMixin.init available name with
    | error e => rw [hm] at hc; cases hc
    | ok mixin => rw [hm] at hc; cases hc; rfl
  have hstep : ∀ (c' : CosmoModel) (d θ : Dict Fl), c'.model.cache = false →
      (CosmoModel.prob same fns c' d θ).2 = c' := by
    intro c' d θ h
    unfold CosmoModel.prob
    cases c'.mixin.detectorFrameToSourceFrame d θ with
    | error e => rfl
    | ok v =>
      simp only
      have := (probLoop_spec (ops := flOps) (cache := c'.model.cache) (data := v.1) hsame θ
        c'.model.models flOps.one (entries := c'.model.entries) (by rw [h]; intro h; cases h)).2.2 h
      unfold BilbyModel.prob
      simp only [this]
  have hfold : hist.foldl (fun c e => (CosmoModel.prob same fns c e.1 e.2).2) c = c := by
    induction hist with
    | nil => rfl
    | cons e l ih =>
      rw [List.foldl_cons, hstep c _ _ (by rw [hinit]; rfl)]
      exact ih
  rw [hfold]
  unfold CosmoModel.prob cosmoModelProb
  cases c.mixin.detectorFrameToSourceFrame data kwargs with
  | error e => rfl
  | ok v =>
    simp only
    rw [(BilbyModel.prob_spec (ops := flOps) hsame c.model (data := v.1) kwargs
      (by rw [hinit]; intro h; cases h)).1, hinit]
    show Except.map _ (product flOps fns models v.1 kwargs) = _
    rw [ok_bind]
    show _ = (do let probability ← product flOps fns models v.1 kwargs; pure (probability / v.2))
    cases product flOps fns models v.1 kwargs <;> rfl

theorem foldl_cached {ops : OutOps Out} {same : Dict Fl → Dict Fl → Prop}
    {fns : ℕ → ModelFn Data Out} (hsame : Respects same fns) {data : Data} {models : List ℕ}
    (hist : List (Dict Fl)) (m : BilbyModel Out) (hm : m.models = models)
    (h : m.cache = true → CachedAt fns data m.entries) :
    (hist.foldl (fun m θ => (BilbyModel.prob ops same fns m data θ).2) m).models = models ∧
    ((hist.foldl (fun m θ => (BilbyModel.prob ops same fns m data θ).2) m).cache = true →
      CachedAt fns data
        (hist.foldl (fun m θ => (BilbyModel.prob ops same fns m data θ).2) m).entries) := by
  induction hist generalizing m with
  | nil => exact ⟨hm, h⟩
  | cons θ l ih =>
    rw [List.foldl_cons]
    exact ih _ hm (BilbyModel.prob_spec (ops := ops) hsame m θ h).2

/-- Two likelihoods that differ only in their population models, which agree at the data, have the same
values. -/
theorem likelihood_congr (L : Likelihood) (p q : PopModel (Dict Mat) Mat)
    (h : ∀ θ, p.prob L.data θ = q.prob L.data θ) (θ : Dict Fl) :
    Likelihood.lnLikelihoodAndVariance { L with hyperPrior := p } θ =
      Likelihood.lnLikelihoodAndVariance { L with hyperPrior := q } θ ∧
    Likelihood.logLikelihoodRatio { L with hyperPrior := p } θ =
      Likelihood.logLikelihoodRatio { L with hyperPrior := q } θ := by
  have hw : ∀ θ, Likelihood.weights { L with hyperPrior := p } θ =
      Likelihood.weights { L with hyperPrior := q } θ := by
    intro θ
    unfold Likelihood.weights
    simp only [h]
  have h1 : Likelihood.lnLikelihoodAndVariance { L with hyperPrior := p } θ =
      Likelihood.lnLikelihoodAndVariance { L with hyperPrior := q } θ := by
    unfold Likelihood.lnLikelihoodAndVariance Likelihood.lnLikelihoodAndVarianceBase
      Likelihood.perEvent
    simp only [hw]
    rfl
  refine ⟨h1, ?_⟩
  unfold Likelihood.logLikelihoodRatio
  rw [h1]

/-- Likewise for selection functions. -/
theorem vt_congr (V : ResamplingVT) (p q : PopModel (Dict Value) (List Fl))
    (h : ∀ θ, p.prob V.data θ = q.prob V.data θ) (θ : Dict Fl) :
    ResamplingVT.call { V with model := p } θ = ResamplingVT.call { V with model := q } θ := by
  have hw : ∀ θ, ResamplingVT.detectionEfficiency { V with model := p } θ =
      ResamplingVT.detectionEfficiency { V with model := q } θ := by
    intro θ
    unfold ResamplingVT.detectionEfficiency
    simp only [h]
  unfold ResamplingVT.call ResamplingVT.vtFactor
  simp only [hw]
  rfl

/-- **C86, likelihood.** A likelihood that alone evaluates its model object: after any number of
evaluations at any parameters, the log likelihood and its variance are those of the product of the
functions, as if nothing had been evaluated before. -/
theorem C86_likelihood {ops : OutOps Mat} {same : Dict Fl → Dict Fl → Prop}
    {fns : ℕ → ModelFn (Dict Mat) Mat} (hsame : Respects same fns) (L : Likelihood)
    (components : List Component) (models : List ℕ) (cache : Bool) (hist : List (Dict Fl))
    (θ : Dict Fl) :
    let m := hist.foldl (fun m θ => (BilbyModel.prob ops same fns m L.data θ).2)
      (BilbyModel.new Mat models cache)
    let now : PopModel (Dict Mat) Mat := ⟨components, fun d θ => (m.prob ops same fns d θ).1⟩
    let exact_ : PopModel (Dict Mat) Mat := ⟨components, product ops fns models⟩
    Likelihood.lnLikelihoodAndVariance { L with hyperPrior := now } θ =
      Likelihood.lnLikelihoodAndVariance { L with hyperPrior := exact_ } θ ∧
    Likelihood.logLikelihoodRatio { L with hyperPrior := now } θ =
      Likelihood.logLikelihoodRatio { L with hyperPrior := exact_ } θ := by
  intro m now exact_
  refine likelihood_congr L now exact_ (fun θ => ?_) θ
  have hm : m.models = models ∧ (m.cache = true → CachedAt fns L.data m.entries) :=
    foldl_cached hsame hist _ rfl fun _ f θ q h => by cases h
  rw [show exact_.prob L.data θ = product ops fns m.models L.data θ by rw [hm.1]]
  exact (BilbyModel.prob_spec (ops := ops) hsame m θ hm.2).1

/-- **C86, selection function.** Likewise for a selection function. -/
theorem C86_selection {ops : OutOps (List Fl)} {same : Dict Fl → Dict Fl → Prop}
    {fns : ℕ → ModelFn (Dict Value) (List Fl)} (hsame : Respects same fns) (V : ResamplingVT)
    (components : List Component) (models : List ℕ) (cache : Bool) (hist : List (Dict Fl))
    (θ : Dict Fl) :
    let m := hist.foldl (fun m θ => (BilbyModel.prob ops same fns m V.data θ).2)
      (BilbyModel.new (List Fl) models cache)
    ResamplingVT.call { V with model := ⟨components, fun d θ => (m.prob ops same fns d θ).1⟩ } θ =
      ResamplingVT.call { V with model := ⟨components, product ops fns models⟩ } θ := by
  intro m
  refine vt_congr V _ _ (fun θ => ?_) θ
  have hm : m.models = models ∧ (m.cache = true → CachedAt fns V.data m.entries) :=
    foldl_cached hsame hist _ rfl fun _ f θ q h => by cases h
  show (m.prob ops same fns V.data θ).1 = product ops fns models V.data θ
  rw [(BilbyModel.prob_spec (ops := ops) hsame m θ hm.2).1, hm.1]

/-- Non-vacuity: a function given to both, evaluated alternately at different data. -/
example : ∃ (mem₁ : Memory Fl) (r₁ : ℕ),
    likelihoodModel (.function 7) ⟨fun _ => .new Fl [] true, 0⟩ = .ok (r₁, mem₁) ∧
    Unused (⟨fun _ => .new Fl [] true, 0⟩ : Memory Fl) ∧
    Respects (· = ·) (fun _ => echoFn) ∧
    Evaluations (Data := Fl) r₁ (vtModel (.function 7) mem₁).1 (fin 2) (fin 3)
      [(0, fin 2, []), (1, fin 3, [])] := by
  refine ⟨_, _, rfl, fun _ _ => rfl, fun _ _ _ _ h => by rw [h], ?_⟩
  intro e he
  rcases List.mem_cons.1 he with rfl | he
  · exact .inl ⟨rfl, rfl⟩
  · rw [List.mem_singleton] at he; subst he; exact .inr ⟨rfl, rfl⟩

end GW
