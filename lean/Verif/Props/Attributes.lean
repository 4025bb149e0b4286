import Verif.Model.Attributes
import Verif.Props.PosteriorSamples

/-!
# C74, C75, C76: attributes of the jitted likelihood, copying it, and `meta_data`
-/

noncomputable section

open Classical

namespace GW

open Fl Spec

/-! ## C74: the wrapper passes attribute access on -/

/-- One layer of wrapping: the arguments of `JittedLikelihood` and what bilby's class contributes. -/
structure Spec.Layer (α : Type) where
  /-- argument `kwargs` -/
  kwargs : α
  /-- the compiled function -/
  func : α
  /-- attributes set by the constructor of bilby's class -/
  base : String → Option α
  /-- attributes of the classes -/
  classes : String → Option α

/-- A layer defines a name if the name is `kwargs` or `likelihood_func`, or if bilby's constructor or one of
the classes provides it. -/
def Spec.Layer.Defines {α : Type} (l : Layer α) (name : String) : Prop :=
  name = "kwargs" ∨ name = "likelihood_func" ∨ (∃ a, l.base name = some a) ∨
    ∃ a, l.classes name = some a

/-- The wrapped object, wrapped in all the layers, the first one outermost. -/
def Spec.wrap {α : Type} (layers : List (Layer α)) (obj : PyObject α) : PyObject α :=
  layers.foldr (fun l o => jittedObject l.kwargs l.func l.base l.classes o) obj

/-- Full statement of C74: whatever a wrapped likelihood provides is provided, unchanged, by the
wrapper. -/
def C74_statement : Prop :=
  ∀ (α : Type) (l : Layer α) (lookup : String → Option α) (name : String) (a : α) (limit : ℕ),
    0 < limit → lookup name = some a →
    getAttribute limit (wrap [l] (.plain lookup)) name = .value a

theorem jitted_not_defined {α : Type} {l : Layer α} {name : String} (h : ¬ l.Defines name)
    (obj : PyObject α) (limit : ℕ) :
    getAttribute (limit + 1) (wrap [l] obj) name = getAttribute limit obj name := by
  unfold Layer.Defines at h
  push Not at h
  obtain ⟨h1, h2, h3, h4⟩ := h
  have e3 : l.base name = none := by
    cases hb : l.base name with
    | none => rfl
    | some a => exact absurd hb (h3 a)
  have e4 : l.classes name = none := by
    cases hb : l.classes name with
    | none => rfl
    | some a => exact absurd hb (h4 a)
  simp only [wrap, List.foldr, jittedObject, getAttribute, if_neg h1, if_neg h2, e3, e4]

/-- **C74, what holds.** Through any number of wrappers, a name that none of them defines is looked up in
the innermost object: the wrapper gives its value if it has one and raises `AttributeError` if not. Only
one level of the recursion limit is needed per wrapper. -/
theorem C74_delegated_partial {α : Type} (layers : List (Layer α)) (lookup : String → Option α)
    (name : String) (h : ∀ l ∈ layers, ¬ l.Defines name) (limit : ℕ) (hlimit : layers.length ≤ limit) :
    getAttribute limit (wrap layers (.plain lookup)) name =
      match lookup name with
      | some a => .value a
      | none => .attributeError := by
  induction layers generalizing limit with
  | nil =>
    simp only [wrap, List.foldr, getAttribute]
    cases lookup name <;> rfl
  | cons l ls ih =>
    cases limit with
    | zero => simp at hlimit
    | succ n =>
      have := jitted_not_defined (h l (by simp)) (wrap ls (.plain lookup)) n
      have e : wrap (l :: ls) (PyObject.plain lookup) = wrap [l] (wrap ls (.plain lookup)) := rfl
      rw [e, this]
      exact ih (fun l' hl' => h l' (by simp [hl'])) n (by simpa using hlimit)

/-- Non-vacuity: two wrappers around an object with the attribute `n_posteriors`. -/
example : getAttribute 2 (wrap [⟨(0 : ℕ), 1, fun _ => none, fun _ => none⟩,
      ⟨2, 3, fun _ => none, fun n => if n = "meta_data" then some 4 else none⟩]
      (.plain fun n => if n = "n_posteriors" then some 69 else none)) "n_posteriors" = .value 69 := by
  rw [C74_delegated_partial _ _ _ ?_ _ (by simp)]
  · simp
  · intro l hl
    simp only [List.mem_cons, List.not_mem_nil, or_false] at hl
    rcases hl with rfl | rfl <;> simp [Layer.Defines]

/-- A name that the wrapper defines is never looked up in the wrapped likelihood: the result is the same
for all wrapped objects. -/
theorem C74_hidden_partial {α : Type} (l : Layer α) (name : String) (h : l.Defines name) :
    ∃ a, ∀ (obj : PyObject α) (limit : ℕ),
      getAttribute limit (wrap [l] obj) name = .value a := by
  by_cases h1 : name = "kwargs"
  · exact ⟨l.kwargs, fun obj limit => by
      cases limit <;> simp only [wrap, List.foldr, jittedObject, getAttribute, if_pos h1]⟩
  by_cases h2 : name = "likelihood_func"
  · exact ⟨l.func, fun obj limit => by
      cases limit <;>
        simp only [wrap, List.foldr, jittedObject, getAttribute, if_neg h1, if_pos h2]⟩
  cases h3 : l.base name with
  | some a =>
    exact ⟨a, fun obj limit => by
      cases limit <;>
        simp only [wrap, List.foldr, jittedObject, getAttribute, if_neg h1, if_neg h2, h3]⟩
  | none =>
    cases h4 : l.classes name with
    | some a =>
      exact ⟨a, fun obj limit => by
        cases limit <;>
          simp only [wrap, List.foldr, jittedObject, getAttribute, if_neg h1, if_neg h2, h3, h4]⟩
    | none => simp [Layer.Defines, h1, h2, h3, h4] at h

/-- The names for which the wrapper stands for every possible likelihood are exactly those it does not
define itself. -/
theorem C74_transparent_partial {α : Type} (l : Layer α) (name : String) (limit : ℕ) :
    (∀ obj : PyObject α, getAttribute (limit + 1) (wrap [l] obj) name = getAttribute limit obj name) ↔
      ¬ l.Defines name := by
  refine ⟨fun H h => ?_, fun h obj => jitted_not_defined h obj limit⟩
  obtain ⟨a, ha⟩ := C74_hidden_partial l name h
  have := H (.plain fun _ => none)
  rw [ha] at this
  simp [getAttribute] at this

/-- The attributes of a hyper-parameter likelihood that are numbers, or methods without arguments that
return numbers. -/
def likelihoodAttributes (self : Likelihood) (name : String) : Option Fl :=
  if name = "noise_log_likelihood" then some self.noiseLogLikelihood
  else if name = "total_noise_evidence" then some self.totalNoiseEvidence
  else if name = "maximum_uncertainty" then some self.maximumUncertainty
  else none

/-- The class of bilby has a method `noise_log_likelihood` that returns NaN. -/
def bilbyLayer : Layer Fl where
  kwargs := nan
  func := nan
  base := fun _ => none
  classes := fun name => if name = "noise_log_likelihood" then some nan else none

/-- The noise evidence of the wrapped likelihood is not visible through the wrapper, which reports NaN,
whatever the wrapped one is; the number is still there under the name of the internal attribute. -/
theorem C74_noise_partial (self : Likelihood) (limit : ℕ) :
    getAttribute (limit + 1) (wrap [bilbyLayer] (.plain (likelihoodAttributes self)))
        "noise_log_likelihood" = .value nan ∧
    getAttribute (limit + 1) (wrap [bilbyLayer] (.plain (likelihoodAttributes self)))
        "total_noise_evidence" = .value self.totalNoiseEvidence := by
  constructor
  · simp [wrap, bilbyLayer, jittedObject, getAttribute]
  · rw [C74_delegated_partial]
    · simp [likelihoodAttributes]
    · intro l hl
      rw [List.mem_singleton.1 hl]
      simp [Layer.Defines, bilbyLayer]
    · simp

/-- **C74 fails**: a likelihood with log noise evidence 3 has NaN once wrapped. -/
theorem C74_fails : ¬ C74_statement := by
  intro H
  have h := H Fl bilbyLayer (fun name => if name = "noise_log_likelihood" then some (fin 3) else none)
    "noise_log_likelihood" (fin 3) 1 one_pos (if_pos rfl)
  simp [wrap, bilbyLayer, jittedObject, getAttribute] at h

/-! ## C75: copies -/

/-- Full statement of C75: with a large enough recursion limit a jitted likelihood can be copied. -/
def C75_statement : Prop :=
  ∀ (α : Type) (l : Layer α) (obj : PyObject α), (∀ a, l.classes "__setstate__" ≠ some a) →
    ∃ limit, restoreJitted limit l.classes (wrap [l] obj) = .value (wrap [l] obj)

theorem missingLikelihood_eq {α : Type} (limit : ℕ) :
    (missingLikelihood limit : AttrResult α) = .recursionError := by
  induction limit with
  | zero => rfl
  | succ n ih => exact ih

/-- Any attribute of an empty instance that its class lacks raises `RecursionError`, whatever the recursion
limit is. -/
theorem C75_blank_partial {α : Type} (classes : String → Option α) (name : String)
    (h : classes name = none) (limit : ℕ) :
    getAttribute limit (blankJitted classes) name = .recursionError := by
  cases limit with
  | zero => simp only [blankJitted, getAttribute, h]
  | succ n => simp only [blankJitted, getAttribute, h, missingLikelihood_eq]

/-- Copying and unpickling succeeds if and only if a class defines `__setstate__`; otherwise the result
is `RecursionError` for all recursion limits. -/
theorem C75_restore_partial {α : Type} (l : Layer α) (obj : PyObject α) (limit : ℕ) :
    (restoreJitted limit l.classes (wrap [l] obj) = .value (wrap [l] obj) ↔
      ∃ a, l.classes "__setstate__" = some a) ∧
    ((∀ a, l.classes "__setstate__" ≠ some a) →
      restoreJitted limit l.classes (wrap [l] obj) = .recursionError) := by
  cases h : l.classes "__setstate__" with
  | none =>
    have := C75_blank_partial l.classes "__setstate__" h limit
    constructor
    · simp [restoreJitted, this]
    · intro _; simp [restoreJitted, this]
  | some a =>
    have : getAttribute limit (blankJitted l.classes) "__setstate__" = .value a := by
      cases limit <;> simp only [blankJitted, getAttribute, h]
    constructor
    · simp [restoreJitted, this]
    · intro hh; exact absurd rfl (hh a)

/-- **C75 fails**: a jitted likelihood cannot be copied. -/
theorem C75_fails : ¬ C75_statement := by
  intro H
  have hn : ∀ a, bilbyLayer.classes "__setstate__" ≠ some a := by simp [bilbyLayer]
  obtain ⟨limit, h⟩ := H Fl bilbyLayer (.plain fun _ => none) hn
  rw [(C75_restore_partial bilbyLayer _ limit).2 hn] at h
  cases h

/-- Both cases of C75 occur. -/
example : (∃ l : Layer ℕ, ∃ a, l.classes "__setstate__" = some a) ∧
    ∃ l : Layer ℕ, ∀ a, l.classes "__setstate__" ≠ some a :=
  ⟨⟨⟨0, 0, fun _ => none, fun _ => some 1⟩, 1, rfl⟩, ⟨⟨0, 0, fun _ => none, fun _ => none⟩, by simp⟩⟩

/-! ## C76: `meta_data` -/

/-- The two views of the argument `hyper_prior` belong to the same object: both are functions or neither
is. -/
def Spec.SameArgument : HyperPriorArg → MetaPrior → Prop
  | .function _, .function _ => True
  | .object _ _, .object _ => True
  | _, _ => False

/-- Full statement of C76: the meta data of every likelihood that can be constructed can be read. -/
def C76_statement : Prop :=
  ∀ (cls : LikelihoodClass) (backend active : Backend) (posteriors : List Frame)
    (hyperPrior : HyperPriorArg) (prior : MetaPrior) (lnEvidences : Option (List Fl))
    (maxSamples : Option ℕ) (selection : SelectionFn) (conversion : Dict Fl → Except PyErr (Dict Fl))
    (limit : Fl) (picks : List (List ℕ)) (self : Likelihood),
    SameArgument hyperPrior prior →
    Likelihood.init cls backend posteriors hyperPrior lnEvidences maxSamples selection conversion limit
      picks = .ok self →
    ∃ md, self.metaData active prior = .ok md

/-- Reading is possible if the population model is a function or has the attribute `models`, and if arrays
made by cupy are read while cupy is active. -/
def Spec.Readable (active : Backend) (prior : MetaPrior) (self : Likelihood) : Prop :=
  (∀ m, prior = .object m → m ≠ none) ∧
    (self.backend = .cupy → active = .cupy ∨ (self.data = [] ∧ self.samplingPrior = none))

/-- The documented names: `__name__` of the function or of the components, or else the name of their
class. -/
def Spec.modelNames : MetaPrior → List String
  | .function name => [name]
  | .object none => []
  | .object (some models) => models.map fun o => o.name.getD o.className

theorem arrayToNumpy_ok {active made : Backend} (h : made = .cupy → active = .cupy) (m : Mat) :
    arrayToNumpy active made m = .ok m := by
  unfold arrayToNumpy
  cases made with
  | numpy => rfl
  | jax => simp [toNumpy, arrayKind]
  | cupy => simp [toNumpy, arrayKind, h rfl]

theorem arrayToNumpy_error {active : Backend} (h : active ≠ .cupy) (m : Mat) :
    arrayToNumpy active .cupy m = .error .attributeError := by
  simp [arrayToNumpy, toNumpy, arrayKind, h]

theorem models_names {prior : MetaPrior} (h : ∀ m, prior = .object m → m ≠ none) :
    ∃ ms, prior.models = .ok ms ∧ ms.map getName = modelNames prior := by
  cases prior with
  | function name => exact ⟨_, rfl, rfl⟩
  | object m =>
    cases m with
    | none => exact absurd rfl (h none rfl)
    | some ms =>
      refine ⟨ms, rfl, ?_⟩
      simp only [modelNames]
      congr 1
      funext o
      unfold getName
      cases o.name <;> rfl

theorem entries_ok {active made : Backend} (h : made = .cupy → active = .cupy) (d : Dict Mat) :
    d.mapM (entryToNumpy active made) = .ok d := by
  induction d with
  | nil => rfl
  | cons kv d ih =>
    rw [List.mapM_cons, ih]
    simp only [entryToNumpy, arrayToNumpy_ok h]
    rfl

/-- **C76, what holds.** Under these conditions the meta data are the names of the population models in
order, all data columns, the number of events, the sampling prior and the number of samples per event,
without any change of the numbers. -/
theorem C76_value_partial {active : Backend} {prior : MetaPrior} {self : Likelihood}
    (h : Readable active prior self) :
    self.metaData active prior = .ok ⟨modelNames prior, self.data, self.nPosteriors,
      self.samplingPrior, self.samplesPerPosterior⟩ := by
  obtain ⟨hm, hb⟩ := h
  obtain ⟨ms, h1, h2⟩ := models_names hm
  unfold Likelihood.metaData
  rw [h1, ok_bind]
  by_cases hc : self.backend = .cupy → active = .cupy
  · rw [entries_ok hc, ok_bind]
    cases hp : self.samplingPrior with
    | none => simp only [priorToNumpy, ok_bind, h2, pure_eq_ok]
    | some m => simp only [priorToNumpy, arrayToNumpy_ok hc, ok_bind, h2, pure_eq_ok]
  · push Not at hc
    rcases hb hc.1 with h | ⟨h3, h4⟩
    · exact absurd h hc.2
    · rw [h3, h4]
      simp only [List.mapM_nil, priorToNumpy, pure_eq_ok, ok_bind, h2]

/-- In all other cases reading the meta data raises `AttributeError`. -/
theorem C76_error_partial {active : Backend} {prior : MetaPrior} {self : Likelihood}
    (h : ¬ Readable active prior self) :
    self.metaData active prior = .error .attributeError := by
  unfold Likelihood.metaData
  by_cases hm : ∀ m, prior = .object m → m ≠ none
  · obtain ⟨ms, h1, -⟩ := models_names hm
    have hb : ¬ (self.backend = .cupy → active = .cupy ∨ (self.data = [] ∧ self.samplingPrior = none)) :=
      fun hb => h ⟨hm, hb⟩
    push Not at hb
    obtain ⟨hc, ha, hd⟩ := hb
    rw [h1, ok_bind, hc]
    cases hdat : self.data with
    | nil =>
      cases hp : self.samplingPrior with
      | none => exact absurd hp (hd hdat)
      | some m =>
        simp only [List.mapM_nil, priorToNumpy, arrayToNumpy_error ha, pure_eq_ok, ok_bind, error_bind]
    | cons kv d =>
      rw [List.mapM_cons]
      simp only [entryToNumpy, arrayToNumpy_error ha, error_bind]
  · push Not at hm
    obtain ⟨m, rfl, rfl⟩ := hm
    rfl

/-- The meta data of a freshly constructed likelihood: the number of events is the number of posteriors,
the columns are those of the posteriors without `prior`, which is the sampling prior. -/
theorem C76_constructed_partial {cls : LikelihoodClass} {active backend : Backend}
    {posteriors : List Frame} {hyperPrior : HyperPriorArg} {lnEvidences : Option (List Fl)}
    {maxSamples : Option ℕ} {selection : SelectionFn} {conversion : Dict Fl → Except PyErr (Dict Fl)}
    {limit : Fl} {picks : List (List ℕ)} {data : Dict Mat} {K : ℕ} {prior : MetaPrior}
    (hdata : resamplePosteriors posteriors maxSamples picks = .ok (data, K))
    (h : Accepted hyperPrior) (hm : ∀ m, prior = .object m → m ≠ none)
    (hb : backend = .cupy → active = .cupy) :
    ∃ self md, Likelihood.init cls backend posteriors hyperPrior lnEvidences maxSamples selection
        conversion limit picks = .ok self ∧ self.metaData active prior = .ok md ∧
      md.model = modelNames prior ∧ md.nEvents = posteriors.length ∧ md.samplesPerPosterior = K ∧
      md.samplingPrior = data.get? "prior" ∧
      ∀ key, md.data.get? key = if key = "prior" then none else data.get? key := by
  obtain ⟨self, h1, h2, h3, h4, h5, h6, -⟩ := C56_accepts (cls := cls) (backend := backend)
    (lnEvidences := lnEvidences) (selection := selection) (conversion := conversion) (limit := limit)
    hdata h
  have hback : self.backend = backend := by
    unfold Likelihood.init at h1
    rw [hdata, ok_bind] at h1
    simp only [bind_eq_ok, pure_eq_ok] at h1
    obtain ⟨hp, -, h⟩ := h1
    rw [← Except.ok.inj h]
  refine ⟨self, _, h1, C76_value_partial ⟨hm, fun hc => .inl (hb (hback ▸ hc))⟩, rfl, h5, h6, h3, h4⟩

/-- **C76 fails**: an object with `parameters` and `prob`, which the constructor accepts, need not have
`models`; and cupy arrays cannot be read after switching to another backend. -/
theorem C76_fails : ¬ C76_statement := by
  intro H
  have hd : resamplePosteriors [⟨["mass_1"], [fun _ => fin 30]⟩] none [[0]] =
      .ok ([("mass_1", [[fin 30]])], 1) :=
    resample_eq (p0 := ⟨["mass_1"], [fun _ => fin 30]⟩) (ps := []) (maxSamples := none) (K := 1) rfl
      (by simp) [[0]]
  have ha : Accepted (.object true (.callable [] fun _ _ => .ok [[fin 1]])) := ⟨rfl, _, _, rfl⟩
  obtain ⟨self, h, -⟩ := C56_accepts (cls := .hyper) (backend := .numpy) (lnEvidences := none)
    (selection := ⟨fun _ => .ok (.bare true 1), none⟩) (conversion := fun θ => .ok θ) (limit := pinf)
    hd ha
  obtain ⟨md, hmd⟩ := H _ _ .numpy _
    (.object true (.callable [] fun _ _ => .ok [[fin 1]])) (.object none) _ _ _ _ _ _ self trivial h
  cases hmd

/-- Non-vacuity: a likelihood with one column, made and read on jax, and the same made on cupy and read
on numpy. -/
example (self : Likelihood) (hj : self.backend = .jax)
    (self' : Likelihood) (hd' : self'.data = [("mass_1", [[fin 30]])]) (hj' : self'.backend = .cupy) :
    Readable .jax (.function "model") self ∧ ¬ Readable .numpy (.function "model") self' := by
  constructor
  · exact ⟨fun m h => (by cases h), fun h => (by rw [hj] at h; cases h)⟩
  · rintro ⟨-, h⟩
    rcases h hj' with h | ⟨h, -⟩
    · cases h
    · rw [hd'] at h; cases h

end GW
