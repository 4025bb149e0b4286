import Verif.Model.Copying
import Verif.Props.JitSpline
import Verif.Lemmas.StagedSmoothed
import Verif.Props.BackendValues
import Verif.Props.InterpPowerlawHistory

/-!
# C146: models and likelihoods can be copied and sent to worker processes
-/

noncomputable section

open Classical

namespace GW

open Fl

/-! ## Specification -/

/-- A value refers to another one, directly or through other values. -/
inductive Spec.RefersTo : PyVal → PyVal → Prop
  | self (v : PyVal) : Spec.RefersTo v v
  | part {parts : List PyVal} {v w : PyVal} (hv : v ∈ parts) (h : Spec.RefersTo v w) :
      Spec.RefersTo (.object parts) w

/-- An object can be written to a file and copied: `pickle` and `copy.deepcopy` both work. -/
def Spec.Copyable (v : PyVal) : Prop := v.pickle = .ok () ∧ v.deepcopy = .ok ()

open Spec

namespace Copying

/-! ## What can be copied -/

theorem refersTo_object {parts : List PyVal} {w : PyVal} :
    RefersTo (.object parts) w ↔ w = .object parts ∨ ∃ v ∈ parts, RefersTo v w := by
  constructor
  · intro h
    cases h with
    | self => exact .inl rfl
    | part hv h => exact .inr ⟨_, hv, h⟩
  · rintro (rfl | ⟨v, hv, h⟩)
    · exact .self _
    · exact .part hv h

theorem copyAll_ok {names : Bool} {l : List PyVal} :
    PyVal.copyAll names l = .ok () ↔ ∀ v ∈ l, v.copy names = .ok () := by
  induction l with
  | nil => simp [PyVal.copyAll]
  | cons a l ih =>
    rw [PyVal.copyAll, List.forall_mem_cons, ← ih]
    cases h : a.copy names with
    | error e => simp
    | ok u => simp

theorem copy_object {names : Bool} {l : List PyVal} :
    (PyVal.object l).copy names = .ok () ↔ ∀ v ∈ l, v.copy names = .ok () := by
  rw [PyVal.copy, copyAll_ok]

theorem copy_ok_iff (names : Bool) : ∀ v : PyVal, v.copy names = .ok () ↔
    ∀ w, RefersTo v w → w ≠ .module ∧ (names = true → w ≠ .nameless)
  | .data => by
    refine ⟨fun _ w h => ?_, fun _ => rfl⟩
    cases h; exact ⟨by simp, by simp⟩
  | .named => by
    refine ⟨fun _ w h => ?_, fun _ => rfl⟩
    cases h; exact ⟨by simp, by simp⟩
  | .nameless => by
    constructor
    · intro hc w h
      cases h
      refine ⟨by simp, fun hn => ?_⟩
      subst hn
      cases hc
    · intro h
      cases names
      · rfl
      · exact absurd rfl ((h _ (.self _)).2 rfl)
  | .module => by
    constructor
    · intro h; cases h
    · intro h
      exact absurd rfl (h _ (.self _)).1
  | .object parts => by
    rw [copy_object]
    constructor
    · intro h w hw
      rcases refersTo_object.1 hw with rfl | ⟨v, hv, hvw⟩
      · exact ⟨by simp, by simp⟩
      · exact (copy_ok_iff names v).1 (h v hv) w hvw
    · intro h v hv
      exact (copy_ok_iff names v).2 fun w hw => h w (.part hv hw)

theorem copyable_object {l : List PyVal} : Copyable (.object l) ↔ ∀ v ∈ l, Copyable v := by
  unfold Copyable PyVal.pickle PyVal.deepcopy
  rw [copy_object, copy_object]
  exact ⟨fun h v hv => ⟨h.1 v hv, h.2 v hv⟩, fun h => ⟨fun v hv => (h v hv).1, fun v hv => (h v hv).2⟩⟩

theorem copyable_data : Copyable .data := ⟨rfl, rfl⟩

theorem copyable_named : Copyable .named := ⟨rfl, rfl⟩

theorem copyable_interpolant : Copyable (interpolantVal false) := ⟨rfl, rfl⟩

theorem not_interpolant : ¬ Copyable (interpolantVal true) := fun h => by cases h.1

/-! ## Models after calls -/

theorem smoothed_iff (keeps : Bool) (s : Smoothed) :
    Copyable (s.pyVal keeps) ↔ keeps = false ∨ s.qMasses = none := by
  unfold Smoothed.pyVal
  rw [copyable_object]
  constructor
  · intro h
    cases hq : s.qMasses with
    | none => exact .inr rfl
    | some l =>
      rw [hq] at h
      cases keeps
      · exact .inl rfl
      · exact absurd (h (interpolantVal true) (by simp)) not_interpolant
  · rintro (rfl | h) v hv
    · cases hq : s.qMasses with
      | none =>
        rw [hq] at hv
        have : v = .data := by simpa using hv
        rw [this]; exact copyable_data
      | some l =>
        rw [hq] at hv
        have : v = .data ∨ v = interpolantVal false := by simpa using hv
        rcases this with rfl | rfl
        · exact copyable_data
        · exact copyable_interpolant
    · rw [h] at hv
      have : v = .data := by simpa using hv
      rw [this]; exact copyable_data

theorem pQ_ok_warm {b : Backend} {s : Smoothed} {data : List (Fl × Fl)} {beta mmin d : Fl} {r : List Fl}
    (h : (s.pQ b data beta mmin d).1 = .ok r) : (s.pQ b data beta mmin d).2.qMasses ≠ none := by
  unfold Smoothed.pQ at h ⊢
  split at h
  · cases h
  · simp only at h ⊢
    split at h
    · rename_i hdiv
      intro hn
      simp only at hn
      rw [StagedSmoothed.divideByNorm_none hn] at hdiv
      cases hdiv
    · rename_i e _
      by_cases hc : Smoothed.caught e
      · simp [hc, Smoothed.cacheQNorms]
      · rw [if_neg hc] at h
        cases h

theorem pQ_warm {b : Backend} {s : Smoothed} (hs : s.qMasses ≠ none) (data : List (Fl × Fl))
    (beta mmin d : Fl) : (s.pQ b data beta mmin d).2.qMasses ≠ none := by
  rcases pQ_state b s data beta mmin d with h | h <;> rw [h]
  · exact hs
  · simp [Smoothed.cacheQNorms]

theorem smoothed_ok_warm {b : Backend} {s : Smoothed} {data : List (Fl × Fl)} {kwargs : Dict Fl}
    {r : List Fl} (h : (s.call b data kwargs).1 = .ok r) : (s.call b data kwargs).2.qMasses ≠ none := by
  unfold Smoothed.call at h ⊢
  cases hb : Dict.get? kwargs "beta" with
  | none => rw [hb] at h; cases h
  | some beta =>
    rw [hb] at h
    simp only at h ⊢
    split_ifs at h ⊢
    cases hp : Smoothed.pM1 b s (data.map Prod.fst) (Dict.erase kwargs "beta" ++ s.fixed) with
    | error e => rw [hp] at h; cases h
    | ok pm =>
      rw [hp] at h
      simp only at h ⊢
      have key := @pQ_ok_warm b s data beta
        (Smoothed.kwGet (Dict.erase kwargs "beta") "mmin" (fin s.mmin))
        (Smoothed.kwGet (Dict.erase kwargs "beta") "delta_m" 0)
      rcases hq : Smoothed.pQ b s data beta
        (Smoothed.kwGet (Dict.erase kwargs "beta") "mmin" (fin s.mmin))
        (Smoothed.kwGet (Dict.erase kwargs "beta") "delta_m" 0) with ⟨o, s'⟩
      rw [hq] at h key
      cases o with
      | error e => cases h
      | ok pq => exact key rfl

theorem smoothed_warm {b : Backend} {s : Smoothed} (hs : s.qMasses ≠ none) (data : List (Fl × Fl))
    (kwargs : Dict Fl) : (s.call b data kwargs).2.qMasses ≠ none := by
  unfold Smoothed.call
  split
  · exact hs
  · rename_i beta _
    simp only
    split_ifs
    · exact hs
    · exact hs
    · exact hs
    · split
      · exact hs
      · have key := @pQ_warm b s hs data beta
          (Smoothed.kwGet (Dict.erase kwargs "beta") "mmin" (fin s.mmin))
          (Smoothed.kwGet (Dict.erase kwargs "beta") "delta_m" 0)
        rcases hq : Smoothed.pQ b s data beta
          (Smoothed.kwGet (Dict.erase kwargs "beta") "mmin" (fin s.mmin))
          (Smoothed.kwGet (Dict.erase kwargs "beta") "delta_m" 0) with ⟨o, s'⟩
        rw [hq] at key
        cases o <;> exact key

theorem smoothed_runs_warm {b : Backend} {s : Smoothed} (hs : s.qMasses ≠ none)
    (hist : List (List (Fl × Fl) × Dict Fl)) : (s.runCalls b hist).qMasses ≠ none := by
  induction hist generalizing s with
  | nil => exact hs
  | cons c hist ih => exact ih (smoothed_warm hs c.1 c.2)

theorem smoothed_runs_append (b : Backend) (s : Smoothed) (h₁ h₂ : List (List (Fl × Fl) × Dict Fl)) :
    s.runCalls b (h₁ ++ h₂) = (s.runCalls b h₁).runCalls b h₂ := by
  induction h₁ generalizing s with
  | nil => rfl
  | cons c h₁ ih => exact ih _

theorem attrs_iff (keeps : Bool) (s : SplineModel) :
    (∀ v ∈ s.attrs keeps, Copyable v) ↔ keeps = false ∨ (s.normSpline = none ∧ s.dataSpline = []) := by
  constructor
  · intro h
    cases keeps
    · exact .inl rfl
    right
    constructor
    · cases hn : s.normSpline with
      | none => rfl
      | some i =>
        refine absurd (h (interpolantVal true) ?_) not_interpolant
        unfold SplineModel.attrs
        rw [hn]
        simp
    · cases hd : s.dataSpline with
      | nil => rfl
      | cons p l =>
        have := h (.object (s.dataSpline.map fun _ => interpolantVal true)) (by
          unfold SplineModel.attrs; simp)
        rw [copyable_object, hd] at this
        exact absurd (this (interpolantVal true) (by simp)) not_interpolant
  · intro h v hv
    unfold SplineModel.attrs at hv
    have hv' : v = .data ∨ v = (match s.normSpline with
        | none => .data
        | some _ => interpolantVal keeps) ∨
        v = .object (s.dataSpline.map fun _ => interpolantVal keeps) := by
      simp only [List.mem_cons, List.not_mem_nil, or_false] at hv
      tauto
    rcases hv' with rfl | rfl | rfl
    · exact copyable_data
    · rcases h with rfl | ⟨hn, -⟩
      · cases s.normSpline
        · exact copyable_data
        · exact copyable_interpolant
      · rw [hn]; exact copyable_data
    · rw [copyable_object]
      intro w hw
      obtain ⟨p, hp, rfl⟩ := List.mem_map.1 hw
      rcases h with rfl | ⟨-, hd⟩
      · exact copyable_interpolant
      · rw [hd] at hp; cases hp

theorem interp_ok_warm {b : Backend} {rule : SplineRule} {s : InterpPowerlaw} {data : List (Fl × Fl)}
    {kwargs : Dict Fl} {r : List Fl} (h : (s.call b rule data kwargs).1 = .ok r) :
    (s.call b rule data kwargs).2.smoothed.qMasses ≠ none := by
  unfold InterpPowerlaw.call at h ⊢
  cases hb : Dict.get? kwargs "beta" with
  | none => rw [hb] at h; cases h
  | some beta =>
    rw [hb] at h
    simp only at h ⊢
    split_ifs at h ⊢
    rcases hp : s.pM1 b rule (data.map Prod.fst) (Dict.erase kwargs "beta") with ⟨o, t⟩
    rw [hp] at h
    cases o with
    | error e => cases h
    | ok pm =>
      simp only at h ⊢
      have key := @pQ_ok_warm b t.smoothed data beta
        (Smoothed.kwGet (Dict.erase kwargs "beta") "mmin" (fin s.smoothed.mmin))
        (Smoothed.kwGet (Dict.erase kwargs "beta") "delta_m" 0)
      rcases hq : Smoothed.pQ b t.smoothed data beta
        (Smoothed.kwGet (Dict.erase kwargs "beta") "mmin" (fin s.smoothed.mmin))
        (Smoothed.kwGet (Dict.erase kwargs "beta") "delta_m" 0) with ⟨o, s'⟩
      rw [hq] at h key
      cases o with
      | error e => cases h
      | ok pq => exact key rfl

theorem interp_warm {b : Backend} {rule : SplineRule} {s : InterpPowerlaw}
    (hs : s.smoothed.qMasses ≠ none) (data : List (Fl × Fl)) (kwargs : Dict Fl) :
    (s.call b rule data kwargs).2.smoothed.qMasses ≠ none := by
  obtain ⟨-, -, h, -⟩ := InterpPowerlaw.call_state' b rule s data kwargs
  rcases h with h | h <;> rw [h]
  · exact hs
  · simp

theorem interp_runs_warm {b : Backend} {rule : SplineRule} {s : InterpPowerlaw}
    (hs : s.smoothed.qMasses ≠ none) (hist : List (List (Fl × Fl) × Dict Fl)) :
    (s.runCalls b rule hist).smoothed.qMasses ≠ none := by
  induction hist generalizing s with
  | nil => exact hs
  | cons c hist ih => exact ih (interp_warm hs c.1 c.2)

/-- A call of the example model returns values. -/
theorem stale_returns : ∃ r, (Smoothed.call .numpy staleInst [(fin 3, fin 1), (fin 2.5, fin 0.9)]
    staleKw).1 = .ok r := by
  have hprim : ∀ m, ∃ y, staleInst.primary .numpy
      (Dict.erase (Dict.erase staleKw "beta" ++ staleInst.fixed) "delta_m") m = .ok y := by
    intro m
    have e : Dict.erase (Dict.erase staleKw "beta" ++ staleInst.fixed) "delta_m" =
        [("alpha", fin 0), ("mmin", fin 2), ("mmax", fin 3), ("lam", fin 0), ("mpp", fin 2),
          ("sigpp", fin 1), ("gaussian_mass_maximum", fin 3)] := by
      simp [staleInst, staleKw, Dict.erase]
    rw [e]
    show ∃ y, primTwoComponent false .numpy _ m = .ok y
    unfold primTwoComponent bindArgs
    rw [if_neg (by simp [Dict.keys, Dict.contains]), ok_bind]
    unfold twoComponentSingle
    rw [powerlaw_eq, if_neg (by simp [kw, Dict.get?_cons]), truncnorm_eq,
      if_neg (by simp [kw, Dict.get?_cons])]
    have hb : ∀ x a c d : Fl, ∃ y, powerlawBody false x a c d = .ok y := by
      intro x a c d
      simp [powerlawBody, pyDiv, pyPow, ok_bind]
    obtain ⟨y, hy⟩ := hb (pos m).val (kw (-fin 0)).val (kw (fin 3)).val (kw (fin 2)).val
    simp only [Dict.get?_cons, String.reduceEq, if_true, if_false, Option.getD_some]
    rw [hy]
    exact ⟨_, rfl⟩
  obtain ⟨r, hr, -⟩ := C25_accepts .numpy staleInst [(fin 3, fin 1), (fin 2.5, fin 0.9)] staleKw
    (beta := fin 0) (by simp [staleKw, Dict.get?_cons])
    (.inr ⟨by simp [staleKw, staleInst, Dict.get?_cons], by simp [staleKw, staleInst, Dict.get?_cons]⟩)
    (by simp [staleKw, staleInst, Dict.keys]) hprim
  exact ⟨r, hr⟩

end Copying

open Copying

/-! ## C146 -/

/-- An object can be pickled exactly if it refers to no lambda and no module, and deep-copied exactly if it
refers to no module. -/
theorem C146_rule_partial (v : PyVal) :
    (v.pickle = .ok () ↔ ∀ w, RefersTo v w → w ≠ .module ∧ w ≠ .nameless) ∧
    (v.deepcopy = .ok () ↔ ∀ w, RefersTo v w → w ≠ .module) := by
  refine ⟨(copy_ok_iff true v).trans ?_, (copy_ok_iff false v).trans ?_⟩
  · simp
  · simp

/-- **C146**, models: smoothed mass models can be pickled and copied at any time. -/
def C146_models_statement (keeps : Bool) : Prop :=
  ∀ (b : Backend) (primary : Primary) (fixed : Dict Fl) (mmin mmax : ℝ) (nM nQ : ℕ) (cache : Bool)
    (s : Smoothed) (hist : List (List (Fl × Fl) × Dict Fl)),
    Smoothed.init primary fixed mmin mmax nM nQ cache = .ok s →
    Copyable ((s.runCalls b hist).pyVal keeps)

/-- **C146**, likelihoods: a likelihood whose model and given functions can be pickled can be pickled. -/
def C146_likelihood_statement : Prop :=
  ∀ (hyperPrior : PyVal) (conversion selection : FnArg), hyperPrior.pickle = .ok () →
    (∀ v, conversion = .given v → v.pickle = .ok ()) → (∀ v, selection = .given v → v.pickle = .ok ()) →
    (likelihoodVal hyperPrior conversion selection).pickle = .ok ()

/-- **C146**, workers: a density evaluated in a worker has the outcome it has in the main process. -/
def C146_workers_statement : Prop :=
  ∀ (start : StartMethod) (main : Backend) (py : Bool) (x alpha high low : Arg),
    inWorker start main .named (fun b => powerlaw b py x alpha high low) =
      .ok (powerlaw main py x alpha high low)

/-- A new smoothed model can be copied. Once a call has returned values it can neither be pickled nor copied
any more, if the interpolation library keeps the array module; if it does not, the model can always be
copied. -/
theorem C146_smoothed_partial (b : Backend) {primary : Primary} {fixed : Dict Fl} {mmin mmax : ℝ}
    {nM nQ : ℕ} {cache : Bool} {s : Smoothed}
    (hs : Smoothed.init primary fixed mmin mmax nM nQ cache = .ok s) :
    (∀ keeps, Copyable (s.pyVal keeps)) ∧
    (∀ hist, Copyable ((s.runCalls b hist).pyVal false)) ∧
    ∀ (before after : List (List (Fl × Fl) × Dict Fl)) (data : List (Fl × Fl)) (kwargs : Dict Fl)
      (r : List Fl), ((s.runCalls b before).call b data kwargs).1 = .ok r →
      ((s.runCalls b (before ++ (data, kwargs) :: after)).pyVal true).pickle = .error .typeError ∧
      ((s.runCalls b (before ++ (data, kwargs) :: after)).pyVal true).deepcopy = .error .typeError := by
  refine ⟨fun keeps => (smoothed_iff keeps s).2 (.inr ?_), fun hist => (smoothed_iff _ _).2 (.inl rfl),
    fun before after data kwargs r h => ?_⟩
  · unfold Smoothed.init at hs
    split_ifs at hs
    cases hs
    rfl
  · rw [smoothed_runs_append]
    have hw := smoothed_runs_warm (b := b) (smoothed_ok_warm h) after
    change Smoothed.qMasses (((s.runCalls b before).runCalls b ((data, kwargs) :: after))) ≠ none at hw
    generalize (s.runCalls b before).runCalls b ((data, kwargs) :: after) = t at hw ⊢
    cases hq : t.qMasses with
    | none => exact absurd hq hw
    | some l =>
      unfold Smoothed.pyVal PyVal.pickle PyVal.deepcopy
      rw [hq]
      exact ⟨rfl, rfl⟩

/-- A new spline model can be copied. After a call that returned values it can neither be pickled nor copied,
if the interpolation library keeps the array module. -/
theorem C146_spline_partial (rule : SplineRule) {cls : SplineClass} {config : SplineConfig} {s : SplineModel}
    (hs : SplineModel.init cls config = .ok s) :
    (∀ keeps, Copyable (s.pyVal keeps)) ∧
    (∀ b hist, Copyable ((s.runCalls b rule hist).pyVal false)) ∧
    ∀ (b : Backend) (t : SplineModel) (dataset : Dict (List Fl)) (kwargs : Dict Fl) (r : List Fl),
      (t.call b rule dataset kwargs).1 = .ok r →
      ((t.call b rule dataset kwargs).2.pyVal true).pickle = .error .typeError ∧
      ((t.call b rule dataset kwargs).2.pyVal true).deepcopy = .error .typeError := by
  refine ⟨fun keeps => copyable_object.2 ((attrs_iff keeps s).2 (.inr ?_)),
    fun b hist => copyable_object.2 ((attrs_iff _ _).2 (.inl rfl)), fun b t dataset kwargs r h => ?_⟩
  · unfold SplineModel.init at hs
    split at hs
    · cases hs
    · cases hs
      exact ⟨rfl, rfl⟩
  · have hw := call_ok_warm h
    generalize (t.call b rule dataset kwargs).2 = u at hw ⊢
    cases hn : u.normSpline with
    | none => rw [hn] at hw; cases hw
    | some i =>
      unfold SplineModel.pyVal SplineModel.attrs PyVal.pickle PyVal.deepcopy
      rw [hn]
      exact ⟨rfl, rfl⟩

/-- The same for `InterpolatedPowerlaw`, which holds both kinds of interpolants; it never becomes copyable
again. -/
theorem C146_interpolated_partial (b : Backend) (rule : SplineRule) {py : Bool} {nodes : ℕ} {kind : String}
    {mmin mmax : ℝ} {nM nQ : ℕ} {regularize : Bool} {s : InterpPowerlaw}
    (hs : InterpPowerlaw.init py nodes kind mmin mmax nM nQ regularize = .ok s) :
    (∀ keeps, Copyable (s.pyVal keeps)) ∧
    (∀ hist, Copyable ((s.runCalls b rule hist).pyVal false)) ∧
    ∀ (t : InterpPowerlaw) (data : List (Fl × Fl)) (kwargs : Dict Fl) (r : List Fl)
      (after : List (List (Fl × Fl) × Dict Fl)), (t.call b rule data kwargs).1 = .ok r →
      ¬ Copyable ((t.runCalls b rule ((data, kwargs) :: after)).pyVal true) := by
  have iff : ∀ keeps (t : InterpPowerlaw), Copyable (t.pyVal keeps) ↔
      (keeps = false ∨ (t.spline.normSpline = none ∧ t.spline.dataSpline = [])) ∧
      (keeps = false ∨ t.smoothed.qMasses = none) := by
    intro keeps t
    unfold InterpPowerlaw.pyVal
    rw [copyable_object, List.forall_mem_append, attrs_iff, List.forall_mem_singleton, smoothed_iff]
  refine ⟨fun keeps => (iff keeps s).2 ?_, fun hist => (iff _ _).2 ⟨.inl rfl, .inl rfl⟩,
    fun t data kwargs r after h hc => ?_⟩
  · obtain ⟨-, -, -, h1, -, -, -, h2, -, -, -, -, -, h3⟩ := InterpPowerlaw.init_ok hs
    exact ⟨.inr ⟨h1, h3⟩, .inr h2⟩
  · rcases ((iff _ _).1 hc).2 with h' | h'
    · cases h'
    · exact interp_runs_warm (interp_ok_warm h) after h'

/-- A likelihood can be pickled exactly if its model can, and both functions were given and can be pickled.
It can be copied within the process exactly if its model and the given functions can. -/
theorem C146_likelihood_partial (hyperPrior : PyVal) (conversion selection : FnArg) :
    ((likelihoodVal hyperPrior conversion selection).pickle = .ok () ↔
      hyperPrior.pickle = .ok () ∧ (∃ v, conversion = .given v ∧ v.pickle = .ok ()) ∧
        ∃ v, selection = .given v ∧ v.pickle = .ok ()) ∧
    ((likelihoodVal hyperPrior conversion selection).deepcopy = .ok () ↔
      hyperPrior.deepcopy = .ok () ∧ (∀ v, conversion = .given v → v.deepcopy = .ok ()) ∧
        ∀ v, selection = .given v → v.deepcopy = .ok ()) := by
  unfold likelihoodVal PyVal.pickle PyVal.deepcopy
  rw [copy_object, copy_object]
  have hd : ∀ names, PyVal.data.copy names = .ok () := fun _ => rfl
  have ho : ∀ names, (PyVal.object [.data]).copy names = .ok () := fun _ => rfl
  simp only [List.forall_mem_cons, List.not_mem_nil, false_imp_iff, implies_true, and_true, hd, ho, true_and]
  constructor
  · cases conversion <;> cases selection <;> simp [FnArg.pyVal, PyVal.copy]
  · cases conversion <;> cases selection <;> simp [FnArg.pyVal, PyVal.copy]

/-- A selection function can be copied exactly if its model can, and so can a model exactly if its functions
and the keys and values of its cache can. -/
theorem C146_selection_partial (models cached : List PyVal) (redshift : Bool) :
    (Copyable (resamplingVal (modelVal models cached) redshift) ↔ Copyable (modelVal models cached)) ∧
    (Copyable (modelVal models cached) ↔ (∀ v ∈ models, Copyable v) ∧ ∀ v ∈ cached, Copyable v) := by
  have hd := copyable_data
  have ho : Copyable (.object [.data]) := ⟨rfl, rfl⟩
  have hr : Copyable (if redshift then .object [.data, .data] else .data) := by
    cases redshift <;> exact ⟨rfl, rfl⟩
  constructor
  · unfold resamplingVal
    rw [copyable_object]
    simp only [List.forall_mem_cons, List.not_mem_nil, false_imp_iff, implies_true, and_true, hd, ho, hr,
      true_and]
  · unfold modelVal
    rw [copyable_object]
    simp only [List.forall_mem_cons, List.not_mem_nil, false_imp_iff, implies_true, and_true, hd, true_and,
      copyable_object]
    tauto

/-- In a forked worker every call has the outcome it has in the main process. In a spawned worker it has the
outcome of numpy: for computations whose values do not depend on the backend (C83) a value returned there is
the one the main process returns, and with numpy as backend the outcome is the same. -/
theorem C146_workers_partial {α : Type} (main : Backend) (v : PyVal) (f : Backend → Except PyErr α) :
    inWorker .fork main v f = .ok (f main) ∧
    (v.pickle = .ok () → inWorker .spawn main v f = .ok (f .numpy)) ∧
    (v.pickle = .ok () → SameValues f → main ≠ .jax → inWorker .spawn main v f = .ok (f main)) ∧
    ∀ r, SameValues f → inWorker .spawn main v f = .ok (.ok r) → f main = .ok r := by
  have h2 : v.pickle = .ok () → inWorker .spawn main v f = .ok (f .numpy) := by
    intro h
    unfold inWorker
    simp only [h]
  refine ⟨rfl, h2, fun h hf hm => ?_, fun r hf h => ?_⟩
  · rw [h2 h]
    cases main
    · rfl
    · rw [hf.1]
    · exact absurd rfl hm
  · unfold inWorker at h
    simp only at h
    cases hp : v.pickle with
    | error e => rw [hp] at h; cases h
    | ok u =>
      rw [hp] at h
      have h' : f .numpy = .ok r := by injection h
      cases main
      · exact h'
      · rw [hf.1]; exact h'
      · exact hf.2 r h'

/-- **C146 fails**: a smoothed model cannot be copied after use, a likelihood with a default argument cannot be
pickled, and a spawned worker does not use the backend of the main process. -/
theorem C146_fails :
    ¬ C146_models_statement true ∧ ¬ C146_likelihood_statement ∧ ¬ C146_workers_statement := by
  refine ⟨fun h => ?_, fun h => ?_, fun h => ?_⟩
  · have hinit : Smoothed.init (primTwoComponent false) [("gaussian_mass_maximum", fin 3)] 1 3 2 2 true =
        .ok staleInst := rfl
    obtain ⟨r, hr⟩ := stale_returns
    have h1 := h .numpy _ _ _ _ _ _ _ _ [([(fin 3, fin 1), (fin 2.5, fin 0.9)], staleKw)] hinit
    have h2 := ((C146_smoothed_partial .numpy hinit).2.2 [] [] _ _ r hr).1
    rw [List.nil_append] at h2
    rw [h1.1] at h2
    cases h2
  · have := h .named .default .default rfl (fun v hv => by cases hv) (fun v hv => by cases hv)
    cases this
  · have h1 := h .spawn .jax false (pos (fin 1)) (kw (fin 1)) (kw (fin 2)) (kw (fin (-1)))
    rw [(C146_workers_partial .jax .named _).2.1 rfl] at h1
    injection h1 with h1
    rw [powerlaw_eq, powerlaw_eq, if_pos (by simp [kw])] at h1
    rw [if_neg (by simp)] at h1
    simp [powerlawBody, pyDiv, pyPow, ok_bind] at h1

/-- The hypotheses are met: the example model is new, and its first call returns values. -/
example : ∃ r, Smoothed.init (primTwoComponent false) [("gaussian_mass_maximum", fin 3)] 1 3 2 2 true =
      .ok staleInst ∧
    ((staleInst.runCalls .numpy []).call .numpy [(fin 3, fin 1), (fin 2.5, fin 0.9)] staleKw).1 = .ok r := by
  obtain ⟨r, hr⟩ := stale_returns
  exact ⟨r, rfl, hr⟩

/-- A likelihood with named functions and a new model can be pickled. -/
example : (likelihoodVal (modelVal [staleInst.pyVal true, .named] []) (.given .named)
    (.given (resamplingVal (modelVal [staleInst.pyVal true, .named] []) true))).pickle = .ok () := rfl

/-- The spline model of the examples returns values. -/
example (rule : SplineRule) : ∃ r, (lineModel.call .jax rule (lineData 1) lineNodes).1 = .ok r := by
  rw [line_call]
  exact warmLine_value rule 1 1

end GW
