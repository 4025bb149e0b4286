import Verif.Lemmas.StagedSpline
import Verif.Props.SplineHistory

/-!
# Spline models under `jax.jit` (C98)
-/

noncomputable section

open Classical

namespace GW

open Fl Spec Staged

/-- The outcomes of a sequence of ordinary calls of a spline model on the jax backend. -/
def Spec.ordinaryOutcomes (rule : SplineRule) (m : SplineModel) :
    List SplineArgs → List (Except PyErr (List Fl))
  | [] => []
  | e :: rest =>
    (m.call .jax rule e.1 e.2).1 :: ordinaryOutcomes rule (m.call .jax rule e.1 e.2).2 rest

/-- A process in which the instance `m` exists and nothing has been compiled. -/
def Spec.startProcess (m : SplineModel) : SplineProcess := ⟨.ofModel m, [], 0⟩

/-- Whatever calls are compiled with `jax.jit`, all calls return what they return without it. -/
def C98_statement (rule : SplineRule) : Prop :=
  ∀ (m : SplineModel) (hist : List (Bool × SplineArgs)), Constructed m →
    (startProcess m).outcomes rule hist = ordinaryOutcomes rule m (hist.map Prod.snd)

/-! ### Ordinary calls -/

theorem callEager_eq (rule : SplineRule) {p : SplineProcess} {m : SplineModel}
    (hp : p.model = .ofModel m) (e : SplineArgs) :
    p.callEager rule e = ((m.call .jax rule e.1 e.2).1,
      { p with model := .ofModel (m.call .jax rule e.1 e.2).2 }) := by
  unfold SplineProcess.callEager
  rw [hp, StagedSpline.call_eager]
  simp only [Prod.mk.injEq, and_true]
  cases (m.call .jax rule e.1 e.2).1 <;> rfl

/-- Without compiled calls the process behaves as the model of the plain package. -/
theorem C98_ordinary_partial (rule : SplineRule) (m : SplineModel) (hist : List SplineArgs) :
    (startProcess m).outcomes rule (hist.map fun e => (false, e)) = ordinaryOutcomes rule m hist := by
  have : ∀ (hist : List SplineArgs) (p : SplineProcess) (m : SplineModel), p.model = .ofModel m →
      p.outcomes rule (hist.map fun e => (false, e)) = ordinaryOutcomes rule m hist := by
    intro hist
    induction hist with
    | nil => intro p m _; rfl
    | cons e hist ih =>
      intro p m hp
      have hs : p.step rule false e = p.callEager rule e := rfl
      rw [List.map_cons]
      unfold SplineProcess.outcomes ordinaryOutcomes
      rw [hs, callEager_eq rule hp]
      exact congrArg _ (ih _ _ rfl)
  exact this hist _ m rfl

/-! ### Compiled calls after an ordinary one -/

theorem simDict_data {t : ℕ} {e₀ : SplineArgs} {G : SplineArgs → Prop}
    (hG : ∀ e, G e → splineSignature e = splineSignature e₀) :
    SimDict (.tracing t e₀) G (tracedData t e₀.1) fun e => e.1 := by
  intro k
  have h0 : Dict.get? (tracedData t e₀.1) k =
      (e₀.1.get? k).map fun _ => Staged.tracer t fun e : SplineArgs => Dict.get e.1 k :=
    get?_map_snd e₀.1 (fun k _ => Staged.tracer t fun e : SplineArgs => Dict.get e.1 k) k
  have hs : ∀ e, G e → (e.1.get? k).map List.length = (e₀.1.get? k).map List.length := fun e he =>
    congrFun (congrArg Prod.fst (hG e he)) k
  rw [h0]
  cases h1 : e₀.1.get? k with
  | none =>
    intro e he
    have := hs e he
    rw [h1] at this
    exact Option.map_eq_none_iff.1 this
  | some v =>
    have hsome : ∀ e, G e → e.1.get? k = some ((e.1.get? k).getD []) := by
      intro e he
      have := hs e he
      rw [h1] at this
      cases h2 : e.1.get? k with
      | none => rw [h2] at this; cases this
      | some w => rfl
    refine ⟨fun e => (e.1.get? k).getD [], ⟨rfl, fun e he => ?_⟩, hsome⟩
    beta_reduce
    unfold Dict.get
    rw [hsome e he]
    rfl

theorem simDict_kwargs {t : ℕ} {e₀ : SplineArgs} {G : SplineArgs → Prop}
    (hG : ∀ e, G e → splineSignature e = splineSignature e₀) :
    SimDict (.tracing t e₀) G (tracedKwargs t e₀.2) fun e => e.2 := by
  intro k
  have h0 : Dict.get? (tracedKwargs t e₀.2) k =
      (e₀.2.get? k).map fun _ => Staged.tracer t fun e : SplineArgs => Dict.get e.2 k :=
    get?_map_snd e₀.2 (fun k _ => Staged.tracer t fun e : SplineArgs => Dict.get e.2 k) k
  have hs : ∀ e, G e → (e.2.get? k).isSome = (e₀.2.get? k).isSome := fun e he =>
    congrFun (congrArg Prod.snd (hG e he)) k
  rw [h0]
  cases h1 : e₀.2.get? k with
  | none =>
    intro e he
    have := hs e he
    rw [h1] at this
    cases h2 : e.2.get? k with
    | none => rfl
    | some w => rw [h2] at this; cases this
  | some v =>
    have hsome : ∀ e, G e → e.2.get? k = some ((e.2.get? k).getD 0) := by
      intro e he
      have := hs e he
      rw [h1] at this
      cases h2 : e.2.get? k with
      | none => rw [h2] at this; cases this
      | some w => rfl
    refine ⟨fun e => (e.2.get? k).getD 0, ⟨rfl, fun e he => ?_⟩, hsome⟩
    beta_reduce
    unfold Dict.get
    rw [hsome e he]
    rfl

/-- The arguments do not name more nodes than the instance has, and an ordinary call returns a
value. -/
def Spec.Served (rule : SplineRule) (m : SplineModel) (e : SplineArgs) : Prop :=
  ¬ e.2.contains (nodeName m.base m.config.nodes) ∧ ∃ v, (m.call .jax rule e.1 e.2).1 = .ok v

theorem call_ok_warm {b : Backend} {rule : SplineRule} {m : SplineModel} {d : Dict (List Fl)}
    {kw : Dict Fl} {v : List Fl} (h : (m.call b rule d kw).1 = .ok v) :
    (m.call b rule d kw).2.normSpline.isSome := by
  unfold SplineModel.call at h ⊢
  cases h1 : m.inferNodes kw with
  | error err => rw [h1] at h; cases h
  | ok m' =>
    rw [h1] at h
    simp only at h ⊢
    cases h2 : m'.extractSplinePoints kw with
    | error err => rw [h2] at h; cases h
    | ok q =>
      obtain ⟨f, x⟩ := q
      rw [h2] at h
      simp only at h ⊢
      cases h3 : d.get (m'.config.parameters.headD "") with
      | error err => rw [h3] at h; cases h
      | ok w =>
        rw [h3] at h
        simp only at h ⊢
        rcases hl : SplineModel.parameterLoop b rule d x f m'.config.parameters
          (w.map fun _ => 1) m' with ⟨r, s1⟩
        rw [hl] at h
        cases r with
        | error err => cases h
        | ok p =>
          simp only at h ⊢
          cases h4 : s1.normPX b rule f x with
          | error err => rw [h4] at h; cases h
          | ok n =>
            simp only
            unfold SplineModel.normPX at h4
            cases hs : s1.normSpline with
            | none => rw [hs] at h4; cases h4
            | some i => rfl

/-- Every recorded computation returns what the instance `m` returns. -/
def CompiledFor (rule : SplineRule) (m : SplineModel) (p : SplineProcess) : Prop :=
  p.model = .ofModel m ∧
    ∀ q ∈ p.compiled, ∀ e, splineSignature e = q.1 → Served rule m e →
      q.2 e = (m.call .jax rule e.1 e.2).1

theorem callCompiled_warm {rule : SplineRule} {m : SplineModel} (hm : m.normSpline.isSome)
    {p : SplineProcess} (hp : CompiledFor rule m p) {e : SplineArgs} (he : Served rule m e) :
    (p.callCompiled rule e).1 = (m.call .jax rule e.1 e.2).1 ∧
      CompiledFor rule m (p.callCompiled rule e).2 := by
  unfold SplineProcess.callCompiled
  cases hf : p.compiled.find? (fun q => q.1 = splineSignature e) with
  | some q =>
    have h1 := List.find?_some hf
    have h2 := List.mem_of_find?_eq_some hf
    simp only [decide_eq_true_eq] at h1
    exact ⟨hp.2 q h2 e h1.symm he, hp⟩
  | none =>
    obtain ⟨ns, hns⟩ := Option.isSome_iff_exists.1 hm
    set G : SplineArgs → Prop := fun e' =>
      splineSignature e' = splineSignature e ∧ Served rule m e' with hG
    have hsig : ∀ e', G e' → splineSignature e' = splineSignature e := fun e' h => h.1
    have hv : ∀ e', G e' → ∃ v, (m.call .jax rule e'.1 e'.2).1 = .ok v := fun e' h => h.2.2
    choose! v hv using hv
    have hc : CtxOk (.tracing p.traces e) G := ⟨rfl, he⟩
    obtain ⟨Y, hY, hYs⟩ := StagedSpline.call_sim (E := SplineArgs) (c := .tracing p.traces e) hc rule hns
      (simDict_data (t := p.traces) hsig) (simDict_kwargs (t := p.traces) hsig)
      (fun e' h => by
        unfold SplineModel.inferLoop
        exact if_neg h.2.1) hv
    obtain ⟨f, hf, hfv⟩ := read_sim hYs
    rw [hp.1]
    simp only [hY, ok_bind, hf]
    refine ⟨by rw [hfv e hc, hv e hc], rfl, fun q hq e' hs' hserved => ?_⟩
    rcases List.mem_cons.1 hq with rfl | hq
    · have : G e' := ⟨hs', hserved⟩
      show f e' = _
      rw [hfv e' this, hv e' this]
    · exact hp.2 q hq e' hs' hserved

/-- After an ordinary first call, every further call — compiled or not — returns what it returns
without compilation, as long as the calls do not name more nodes and the ordinary calls return
values. -/
theorem C98_after_ordinary_partial (rule : SplineRule) (m : SplineModel) (first : SplineArgs)
    (rest : List (Bool × SplineArgs)) (hm : Constructed m)
    (hfirst : ∃ v, (m.call .jax rule first.1 first.2).1 = .ok v)
    (hrest : ∀ c ∈ rest, Served rule (m.call .jax rule first.1 first.2).2 c.2) :
    (startProcess m).outcomes rule ((false, first) :: rest) =
      ordinaryOutcomes rule m (first :: rest.map Prod.snd) := by
  set m1 := (m.call .jax rule first.1 first.2).2 with hm1
  have hwarm : m1.normSpline.isSome := by
    obtain ⟨v, hv⟩ := hfirst
    exact call_ok_warm hv
  have hs : (startProcess m).step rule false first = (startProcess m).callEager rule first := rfl
  unfold SplineProcess.outcomes ordinaryOutcomes
  rw [hs, callEager_eq rule rfl]
  congr 1
  have : ∀ (rest : List (Bool × SplineArgs)) (p : SplineProcess), CompiledFor rule m1 p →
      (∀ c ∈ rest, Served rule m1 c.2) →
      p.outcomes rule rest = ordinaryOutcomes rule m1 (rest.map Prod.snd) := by
    intro rest
    induction rest with
    | nil => intro p _ _; rfl
    | cons c rest ih =>
      obtain ⟨jit, e⟩ := c
      intro p hp hr
      have he := hr (jit, e) (by simp)
      have hr' : ∀ c ∈ rest, Served rule m1 c.2 := fun c hc => hr c (by simp [hc])
      have hstate : (m1.call .jax rule e.1 e.2).2 = m1 := call_state_warm hwarm he.1
      rw [List.map_cons]
      unfold SplineProcess.outcomes ordinaryOutcomes
      rw [hstate]
      cases jit with
      | false =>
        have hs : p.step rule false e = p.callEager rule e := rfl
        rw [hs, callEager_eq rule hp.1, hstate]
        exact congrArg _ (ih _ ⟨rfl, hp.2⟩ hr')
      | true =>
        have hs : p.step rule true e = p.callCompiled rule e := rfl
        obtain ⟨h1, h2⟩ := callCompiled_warm hwarm hp he
        rw [hs, h1]
        exact congrArg _ (ih _ h2 hr')
  exact this rest _ ⟨rfl, fun q hq => by cases hq⟩ hrest

/-! ### A compiled first call -/

theorem op_tracing {E α β : Type} {t : ℕ} {e₀ : E} {f : α → Except PyErr β} {x : Staged E α}
    {y : Staged E β} (h : Staged.op (.tracing t e₀) f x = .ok y) : ∃ g, y = .tracer t g := by
  unfold Staged.op at h
  obtain ⟨g, -, h⟩ := bind_eq_ok.1 h
  obtain ⟨a, -, h⟩ := bind_eq_ok.1 h
  obtain ⟨b, -, h⟩ := bind_eq_ok.1 h
  exact ⟨_, (Except.ok.inj h).symm⟩

theorem op_leaked {E α β : Type} {t : ℕ} (f : α → Except PyErr β) (g : E → Except PyErr α) :
    Staged.op .eager f (.tracer t g) = .error .typeError := rfl

theorem interpolant_tracing {E : Type} {t : ℕ} {e₀ : E} (s : StagedSpline E)
    (X V : Staged E (List Fl)) : ∃ err, s.interpolant (.tracing t e₀) X V = .error err := by
  unfold StagedSpline.interpolant
  cases h1 : s.transform (.tracing t e₀) X with
  | error err => exact ⟨err, rfl⟩
  | ok n =>
    obtain ⟨g, rfl⟩ := op_tracing h1
    cases h2 : s.transform (.tracing t e₀) V with
    | error err => exact ⟨err, rfl⟩
    | ok v => exact ⟨.typeError, rfl⟩

theorem interpolant_leaked {E : Type} {t : ℕ} (s : StagedSpline E) (X : Staged E (List Fl))
    (g : E → Except PyErr (List Fl)) : ∃ err, s.interpolant .eager X (.tracer t g) = .error err := by
  unfold StagedSpline.interpolant
  cases h1 : s.transform .eager X with
  | error err => exact ⟨err, rfl⟩
  | ok n => exact ⟨.typeError, rfl⟩

/-- A call that has to set up interpolants and cannot raises. -/
theorem call_raises {E : Type} {c : Ctx E} {rule : SplineRule} {s s' : StagedSpline E}
    {D : Dict (Staged E (List Fl))} {K : Dict (Staged E Fl)} (hinf : s.inferNodes c K = .ok s')
    (hn : s'.normSpline = none) (hp : s'.config.parameters ≠ [])
    (hi : ∀ X, ∃ err, s'.interpolant c X s'.xs = .error err) :
    ∃ err, s.call c rule D K = (.error err, s') := by
  unfold StagedSpline.call
  rw [hinf]
  simp only
  cases h1 : s'.extractSplinePoints c K with
  | error err => exact ⟨err, rfl⟩
  | ok q =>
    obtain ⟨F, X⟩ := q
    simp only
    cases h2 : s'.ones c D with
    | error err => exact ⟨err, rfl⟩
    | ok O =>
      simp only
      obtain ⟨q, qs, hq⟩ := List.exists_cons_of_ne_nil hp
      obtain ⟨err, he⟩ := hi X
      refine ⟨err, ?_⟩
      have : StagedSpline.parameterLoop c rule D X F s'.config.parameters O s' = (.error err, s') := by
        rw [hq]
        unfold StagedSpline.parameterLoop StagedSpline.pXUnnormed
        rw [hn]
        simp only [StagedSpline.setupInterpolant, he]
      rw [this]

/-- What `infer_n_nodes` does in any context. -/
theorem inferNodes_sim {E : Type} {c : Ctx E} {G : E → Prop} (hc : CtxOk c G) {m m' : SplineModel}
    {K : Dict (Staged E Fl)} {kw : Dict Fl} (hK : ∀ k, K.contains k ↔ kw.contains k)
    (h : m.inferNodes kw = .ok m') :
    ∃ s' : StagedSpline E, (StagedSpline.ofModel m).inferNodes c K = .ok s' ∧ s'.cls = m'.cls ∧
      s'.config = m'.config ∧ s'.base = m'.base ∧
      s'.normSpline = m'.normSpline.map .ofInterpolant ∧ Sim c G s'.xs (fun _ => m'.xs.map fin) ∧
      (m'.config.nodes ≠ m.config.nodes → s'.normSpline = none ∧
        ∀ t e₀, c = .tracing t e₀ → ∃ g, s'.xs = .tracer t g) := by
  have hloop : SplineModel.inferLoop (K.map fun q => (q.1, (0 : Fl)))
      (StagedSpline.ofModel m : StagedSpline E).base
      (StagedSpline.ofModel m : StagedSpline E).config.nodes =
      SplineModel.inferLoop kw m.base m.config.nodes := by
    refine StagedSpline.inferLoop_keys (fun q => ?_) _ _
    rw [← hK q]
    simp [Dict.contains]
  unfold StagedSpline.inferNodes
  rw [hloop]
  unfold SplineModel.inferNodes at h
  have hcfg : (StagedSpline.ofModel m : StagedSpline E).config = m.config := rfl
  simp only [hcfg] at h ⊢
  split_ifs at h ⊢ with hne
  · have hinit : ∀ (cls : SplineClass) (cfg : SplineConfig), SplineModel.init cls cfg = .ok m' →
        ∃ s' : StagedSpline E, StagedSpline.init c cls cfg = .ok s' ∧ s'.cls = m'.cls ∧
          s'.config = m'.config ∧ s'.base = m'.base ∧
          s'.normSpline = m'.normSpline.map .ofInterpolant ∧
          Sim c G s'.xs (fun _ => m'.xs.map fin) ∧
          (m'.config.nodes ≠ m.config.nodes → s'.normSpline = none ∧
            ∀ t e₀, c = .tracing t e₀ → ∃ g, s'.xs = .tracer t g) := by
      intro cls cfg hi
      obtain ⟨y, hy, hys⟩ := op_sim hc (sim_known c G ())
        (fun _ => .ok ((Arr.linspaceR cfg.minimum cfg.maximum (10 * cfg.nodes)).map fin))
        (fun _ => (Arr.linspaceR cfg.minimum cfg.maximum (10 * cfg.nodes)).map fin) (fun _ _ => rfl)
      unfold SplineModel.init at hi
      unfold StagedSpline.init
      rw [hy]
      cases hp : cfg.parameters with
      | nil => rw [hp] at hi; cases hi
      | cons q qs =>
        rw [hp] at hi
        cases hi
        refine ⟨_, rfl, rfl, rfl, rfl, rfl, hys, fun _ => ⟨rfl, ?_⟩⟩
        rintro t e₀ rfl
        exact op_tracing hy
    unfold SplineModel.reinit at h
    unfold StagedSpline.reinit
    have hcls : (StagedSpline.ofModel m : StagedSpline E).cls = m.cls := rfl
    rw [hcls]
    cases hm : m.cls with
    | base => rw [hm] at h; cases h
    | spinMagnitude => rw [hm] at h; exact hinit _ _ h
    | spinTilt => rw [hm] at h; exact hinit _ _ h
  · cases h
    exact ⟨_, rfl, rfl, rfl, rfl, rfl, sim_known _ _ _, fun hne => absurd rfl hne⟩

theorem inferNodes_error {E : Type} {c : Ctx E} {m : SplineModel} {K : Dict (Staged E Fl)}
    {kw : Dict Fl} (hK : ∀ k, K.contains k ↔ kw.contains k) {err : PyErr}
    (h : m.inferNodes kw = .error err) :
    ∃ err, (StagedSpline.ofModel m).inferNodes c K = .error err := by
  have hloop : SplineModel.inferLoop (K.map fun q => (q.1, (0 : Fl)))
      (StagedSpline.ofModel m : StagedSpline E).base
      (StagedSpline.ofModel m : StagedSpline E).config.nodes =
      SplineModel.inferLoop kw m.base m.config.nodes := by
    refine StagedSpline.inferLoop_keys (fun q => ?_) _ _
    rw [← hK q]
    simp [Dict.contains]
  unfold StagedSpline.inferNodes
  rw [hloop]
  unfold SplineModel.inferNodes at h
  have hcfg : (StagedSpline.ofModel m : StagedSpline E).config = m.config := rfl
  simp only [hcfg] at h ⊢
  split_ifs at h ⊢ with hne
  unfold SplineModel.reinit at h
  unfold StagedSpline.reinit
  have hcls : (StagedSpline.ofModel m : StagedSpline E).cls = m.cls := rfl
  rw [hcls]
  cases hm : m.cls with
  | base => exact ⟨_, rfl⟩
  | spinMagnitude => rw [hm] at h; cases h
  | spinTilt => rw [hm] at h; cases h

theorem contains_traced (t : ℕ) (kw : Dict Fl) (k : String) :
    (tracedKwargs t kw).contains k ↔ kw.contains k := by
  simp [Dict.contains, tracedKwargs]

/-- A compiled call of an instance that has not been called before raises. It raises `TypeError` if
the ordinary call returns a value. -/
theorem C98_first_compiled_partial (rule : SplineRule) (m : SplineModel) (hm : Constructed m)
    (e : SplineArgs) :
    (∃ err, ((startProcess m).step rule true e).1 = .error err) ∧
    ((∃ v, (m.call .jax rule e.1 e.2).1 = .ok v) →
      ((startProcess m).step rule true e).1 = .error .typeError) := by
  have hs : (startProcess m).step rule true e = (startProcess m).callCompiled rule e := rfl
  rw [hs]
  unfold SplineProcess.callCompiled startProcess
  simp only [List.find?_nil]
  have hK := contains_traced 0 e.2
  cases hinf : m.inferNodes e.2 with
  | error err =>
    constructor
    · obtain ⟨err', he⟩ := inferNodes_error (c := .tracing 0 e) hK hinf
      refine ⟨err', ?_⟩
      unfold StagedSpline.call
      rw [he]
      rfl
    · rintro ⟨v, hv⟩
      unfold SplineModel.call at hv
      rw [hinf] at hv
      cases hv
  | ok m' =>
    obtain ⟨hc', -⟩ := inferNodes_constructed hm hinf
    obtain ⟨hfresh, hparams, -, -⟩ := constructed_fresh hc'
    have hc : CtxOk (.tracing 0 e) (fun e' : SplineArgs => e' = e) := rfl
    obtain ⟨s', h1, h2, h3, h4, h5, h6, -⟩ := inferNodes_sim hc hK hinf
    have hn : s'.normSpline = none := by rw [h5, hfresh]; rfl
    constructor
    · obtain ⟨err, he⟩ := call_raises (rule := rule) (D := tracedData 0 e.1) h1 hn
        (by rw [h3]; exact hparams) (fun X => interpolant_tracing s' X s'.xs)
      exact ⟨err, by rw [he]; rfl⟩
    · rintro ⟨v, hv⟩
      unfold SplineModel.call at hv
      rw [hinf] at hv
      simp only at hv
      cases g1 : m'.extractSplinePoints e.2 with
      | error err => rw [g1] at hv; cases hv
      | ok q =>
        obtain ⟨f, x⟩ := q
        rw [g1] at hv
        simp only at hv
        cases g2 : e.1.get (m'.config.parameters.headD "") with
        | error err => rw [g2] at hv; cases hv
        | ok w =>
          have hsig : ∀ e' : SplineArgs, e' = e → splineSignature e' = splineSignature e :=
            fun e' h => by rw [h]
          obtain ⟨F, X, k1, k2, k3⟩ := StagedSpline.extract_sim (E := SplineArgs) hc m'
            (simDict_kwargs (t := 0) hsig) (f := fun _ => f) (x := fun _ => x)
            (fun e' h => by rw [h]; exact g1)
          have k1' : s'.extractSplinePoints (.tracing 0 e) (tracedKwargs 0 e.2) = .ok (F, X) := by
            rw [← k1]
            unfold StagedSpline.extractSplinePoints StagedSpline.fkeys StagedSpline.xkeys
            rw [h3, h4]
            rfl
          obtain ⟨W, k4, k5⟩ := (simDict_data (t := 0) hsig).get (hc.nonempty)
            (k := m'.config.parameters.headD "") (a := fun _ => w) (fun e' h => by rw [h]; exact g2)
          obtain ⟨O, k6, k7⟩ := op_sim hc k5 (fun l : List Fl => .ok (l.map fun _ => (1 : Fl)))
            (fun _ => w.map fun _ => (1 : Fl)) (fun _ _ => rfl)
          have k8 : s'.ones (.tracing 0 e) (tracedData 0 e.1) = .ok O := by
            unfold StagedSpline.ones
            rw [h3, k4, ok_bind, k6]
          obtain ⟨X1, k9, -⟩ := op_sim hc k3
            (fun l : List Fl => .ok (l.map fun v => if s'.config.logNodes then Fl.log v else v))
            (fun _ => x.map fun v => if s'.config.logNodes then Fl.log v else v) (fun _ _ => rfl)
          obtain ⟨V1, k10, -⟩ := op_sim hc h6
            (fun l : List Fl => .ok (l.map fun v => if s'.config.logNodes then Fl.log v else v))
            (fun _ => (m'.xs.map fin).map fun v => if s'.config.logNodes then Fl.log v else v)
            (fun _ _ => rfl)
          have k11 : s'.interpolant (.tracing 0 e) X s'.xs = .error .typeError := by
            unfold StagedSpline.interpolant StagedSpline.transform
            rw [k9, k10]
            obtain ⟨g, rfl⟩ := op_tracing k9
            rfl
          obtain ⟨q, qs, hq⟩ := List.exists_cons_of_ne_nil hparams
          have k12 : StagedSpline.parameterLoop (.tracing 0 e) rule (tracedData 0 e.1) X F
              s'.config.parameters O s' = (.error .typeError, s') := by
            rw [h3, hq]
            unfold StagedSpline.parameterLoop StagedSpline.pXUnnormed
            rw [hn]
            simp only [StagedSpline.setupInterpolant, k11]
          unfold StagedSpline.call
          rw [h1]
          simp only [k1', k8, k12]
          rfl

/-! ### A compiled call with another number of nodes -/

/-- The instance lacks interpolants and its grid is a tracer of a trace that has ended. -/
structure Broken (p : SplineProcess) (base : String) (n : ℕ) : Prop where
  compiled : p.compiled = []
  noSpline : p.model.normSpline = none
  params : p.model.config.parameters ≠ []
  grid : ∃ t g, t < p.traces ∧ p.model.xs = .tracer t g
  base_eq : p.model.base = base
  nodes_eq : p.model.config.nodes = n

theorem inferNodes_same {E : Type} (c : Ctx E) (s : StagedSpline E) {K : Dict (Staged E Fl)}
    (h : ¬ K.contains (nodeName s.base s.config.nodes)) : s.inferNodes c K = .ok s := by
  unfold StagedSpline.inferNodes
  have : SplineModel.inferLoop (K.map fun q => (q.1, (0 : Fl))) s.base s.config.nodes =
      s.config.nodes := by
    unfold SplineModel.inferLoop
    refine if_neg fun h' => h ?_
    simp only [Dict.contains, List.map_map] at h' ⊢
    exact h'
  simp only [this]
  exact if_neg fun h => h rfl

theorem broken_step {rule : SplineRule} {p : SplineProcess} {base : String} {n : ℕ}
    (hp : Broken p base n) (jit : Bool) {e : SplineArgs} (he : ¬ e.2.contains (nodeName base n)) :
    (∃ err, (p.step rule jit e).1 = .error err) ∧ Broken (p.step rule jit e).2 base n := by
  obtain ⟨t, g, ht, hg⟩ := hp.grid
  cases jit with
  | false =>
    have hinf : p.model.inferNodes .eager (knownDict e.2) = .ok p.model := by
      refine inferNodes_same _ _ ?_
      rw [hp.base_eq, hp.nodes_eq]
      simpa [Dict.contains, knownDict] using he
    obtain ⟨err, hr⟩ := call_raises (rule := rule) (D := knownDict e.1) hinf hp.noSpline hp.params
      (fun X => by rw [hg]; exact interpolant_leaked _ X g)
    show (∃ err, (p.callEager rule e).1 = .error err) ∧ Broken (p.callEager rule e).2 base n
    unfold SplineProcess.callEager
    rw [hr]
    exact ⟨⟨err, rfl⟩, ⟨hp.compiled, hp.noSpline, hp.params, hp.grid, hp.base_eq, hp.nodes_eq⟩⟩
  | true =>
    have hinf : p.model.inferNodes (.tracing p.traces e) (tracedKwargs p.traces e.2) =
        .ok p.model := by
      refine inferNodes_same _ _ ?_
      rw [hp.base_eq, hp.nodes_eq, contains_traced]
      exact he
    obtain ⟨err, hr⟩ := call_raises (rule := rule) (D := tracedData p.traces e.1) hinf hp.noSpline
      hp.params (fun X => interpolant_tracing _ X _)
    show (∃ err, (p.callCompiled rule e).1 = .error err) ∧ Broken (p.callCompiled rule e).2 base n
    unfold SplineProcess.callCompiled
    rw [hp.compiled, List.find?_nil]
    simp only [hr]
    exact ⟨⟨err, rfl⟩, ⟨rfl, hp.noSpline, hp.params, ⟨t, g, Nat.lt_succ_of_lt ht, hg⟩,
      hp.base_eq, hp.nodes_eq⟩⟩

/-- If a compiled call names another number of nodes than the instance has, it raises, and afterwards
the instance is unusable: every further call with that number of nodes raises, also if it is not
compiled. -/
theorem C98_nodes_changed_partial (rule : SplineRule) {m m' : SplineModel} {e : SplineArgs}
    (hinf : m.inferNodes e.2 = .ok m') (hne : m'.config.nodes ≠ m.config.nodes)
    (rest : List (Bool × SplineArgs))
    (hrest : ∀ c ∈ rest, ¬ c.2.2.contains (nodeName m'.base m'.config.nodes)) :
    ∀ o ∈ (startProcess m).outcomes rule ((true, e) :: rest), ∃ err, o = .error err := by
  have hc : CtxOk (.tracing 0 e) (fun e' : SplineArgs => e' = e) := rfl
  obtain ⟨s', h1, h2, h3, h4, h5, h6, h7⟩ := inferNodes_sim hc (contains_traced 0 e.2) hinf
  obtain ⟨hn, hx⟩ := h7 hne
  obtain ⟨g, hg⟩ := hx 0 e rfl
  have hparams : s'.config.parameters ≠ [] := by
    rw [h3]
    unfold SplineModel.inferNodes at hinf
    simp only at hinf
    split_ifs at hinf with hne'
    · exact (constructed_fresh (reinit_constructed hinf)).2.1
    · cases hinf
      exact absurd rfl hne
  obtain ⟨err, he⟩ := call_raises (rule := rule) (D := tracedData 0 e.1) h1 hn hparams
    (fun X => interpolant_tracing s' X s'.xs)
  have hstep : (startProcess m).step rule true e = (.error err, ⟨s', [], 1⟩) := by
    show (startProcess m).callCompiled rule e = _
    unfold SplineProcess.callCompiled startProcess
    simp only [List.find?_nil, he]
    rfl
  have hb : Broken ⟨s', [], 1⟩ m'.base m'.config.nodes :=
    ⟨rfl, hn, hparams, ⟨0, g, Nat.one_pos, hg⟩, h4, by show s'.config.nodes = _; rw [h3]⟩
  have hall : ∀ (rest : List (Bool × SplineArgs)) (p : SplineProcess),
      Broken p m'.base m'.config.nodes →
      (∀ c ∈ rest, ¬ c.2.2.contains (nodeName m'.base m'.config.nodes)) →
      ∀ o ∈ p.outcomes rule rest, ∃ err, o = .error err := by
    intro rest
    induction rest with
    | nil => intro p _ _ o ho; cases ho
    | cons c rest ih =>
      obtain ⟨jit, e'⟩ := c
      intro p hp hr o ho
      obtain ⟨⟨err, h1⟩, h2⟩ := broken_step (rule := rule) hp jit (hr (jit, e') (by simp))
      unfold SplineProcess.outcomes at ho
      rcases List.mem_cons.1 ho with rfl | ho
      · exact ⟨err, h1⟩
      · exact ih _ h2 (fun c hc => hr c (by simp [hc])) o ho
  intro o ho
  unfold SplineProcess.outcomes at ho
  rw [hstep] at ho
  rcases List.mem_cons.1 ho with rfl | ho
  · exact ⟨err, rfl⟩
  · exact hall rest _ hb hrest o ho

/-! ### The property fails -/

/-- The example instance after its interpolants have been set up for one sample. -/
def warmLine (y : ℝ) : SplineModel :=
  { lineModel with
    normSpline := some ⟨"linear", [fin 0, fin 1], lineModel.xs.map fin⟩
    dataSpline := [("x", ⟨"linear", [fin 0, fin 1], [fin y]⟩)] }

theorem line_call (rule : SplineRule) (y : ℝ) :
    lineModel.call .jax rule (lineData y) lineNodes =
      (warmLine y).call .jax rule (lineData y) lineNodes := by
  have hsetup : lineModel.setupInterpolant ([0, 1].map fin) (lineData y) = (.ok (), warmLine y) := by
    unfold SplineModel.setupInterpolant
    have : (lineModel.xs.map fin).map lineModel.transform = lineModel.xs.map fin := by
      rw [List.map_map]
      rfl
    simp only [this]
    rfl
  refine (call_setup (b := .jax) (rule := rule) rfl (by simp [lineModel]) lineNodes_noNew
    lineModel_points hsetup rfl rfl).resolve_right ?_
  rintro ⟨err, he⟩
  cases he

theorem warmLine_value (rule : SplineRule) (y z : ℝ) :
    ∃ v, ((warmLine y).call .jax rule (lineData z) lineNodes).1 = .ok v := by
  have hnew : ¬ lineNodes.contains (nodeName (warmLine y).base (warmLine y).config.nodes) :=
    lineNodes_noNew
  have hpts : (warmLine y).extractSplinePoints lineNodes = .ok ([0, 1].map fin, [0, 1].map fin) :=
    lineModel_points
  unfold SplineModel.call
  rw [C34_no_new_partial hnew]
  simp only [hpts]
  have hget : (lineData z).get ((warmLine y).config.parameters.headD "") = .ok [fin z] := rfl
  simp only [hget]
  have hmask : ∀ l : List Fl, SplineModel.mask l ([0, 1].map fin) =
      .ok (l.map fun v => ind (fin 0 ≤ v ∧ v ≤ fin 1)) := fun l => rfl
  have hx : (warmLine y).evalUnnormed .jax rule (lineData z) "x" ([0, 1].map fin) ([0, 1].map fin) =
      .ok [Fl.exp (rule "linear" [fin 0, fin 1] ([0, 1].map fin) (fin y)) *
        ind (fin 0 ≤ fin z ∧ fin z ≤ fin 1)] := by
    unfold SplineModel.evalUnnormed
    have h1 : (warmLine y).dataSpline.get "x" = .ok ⟨"linear", [fin 0, fin 1], [fin y]⟩ := rfl
    have h2 : (lineData z).get "x" = .ok [fin z] := rfl
    rw [h1, h2]
    simp only [ok_bind, hmask]
    rw [inplaceMul_same .jax (by simp [Interpolant.eval])]
    rfl
  have hloop : SplineModel.parameterLoop .jax rule (lineData z) ([0, 1].map fin) ([0, 1].map fin)
      ["x"] [(1 : Fl)] (warmLine y) =
      (.ok [1 * (Fl.exp (rule "linear" [fin 0, fin 1] ([0, 1].map fin) (fin y)) *
        ind (fin 0 ≤ fin z ∧ fin z ≤ fin 1))], warmLine y) := by
    unfold SplineModel.parameterLoop
    have : (warmLine y).pXUnnormed .jax rule (lineData z) "x" ([0, 1].map fin) ([0, 1].map fin) =
        ((warmLine y).evalUnnormed .jax rule (lineData z) "x" ([0, 1].map fin) ([0, 1].map fin),
          warmLine y) := rfl
    rw [this, hx]
    simp only
    rw [inplaceMul_same .jax (by simp)]
    rfl
  have hps : (warmLine y).config.parameters = ["x"] := rfl
  rw [hps]
  simp only [List.map_cons, List.map_nil] at hloop ⊢
  rw [hloop]
  simp only
  have hnorm : ∃ n, (warmLine y).normPX .jax rule [fin 0, fin 1] [fin 0, fin 1] = .ok n := by
    unfold SplineModel.normPX
    have h1 : (warmLine y).normSpline = some ⟨"linear", [fin 0, fin 1], lineModel.xs.map fin⟩ := rfl
    rw [h1]
    have h2 := hmask ((warmLine y).xs.map fin)
    simp only [List.map_cons, List.map_nil] at h2
    simp only [h2, ok_bind]
    rw [inplaceMul_same .jax (by simp [Interpolant.eval]; rfl)]
    exact ⟨_, rfl⟩
  obtain ⟨n, hn⟩ := hnorm
  rw [hn]
  exact ⟨_, rfl⟩

theorem line_constructed : Constructed lineModel := .base lineModel_init

/-- A compiled first call raises where an ordinary one returns a value. -/
theorem C98_fails (rule : SplineRule) : ¬ C98_statement rule := by
  intro h
  obtain ⟨v, hv⟩ := warmLine_value rule (1 / 2) (1 / 2)
  rw [← line_call] at hv
  have h1 := h lineModel [(true, (lineData (1 / 2), lineNodes))] line_constructed
  have h2 := (C98_first_compiled_partial rule lineModel line_constructed
    (lineData (1 / 2), lineNodes)).2 ⟨v, hv⟩
  unfold SplineProcess.outcomes SplineProcess.outcomes at h1
  rw [h2] at h1
  simp only [List.map_cons, List.map_nil, ordinaryOutcomes, List.cons.injEq, and_true] at h1
  rw [hv] at h1
  cases h1

/-- Non-vacuity: an ordinary call, then a compiled, an ordinary and a compiled call on other samples
and with other arguments. -/
example (rule : SplineRule) :
    (startProcess lineModel).outcomes rule
      [(false, (lineData (1 / 2), lineNodes)), (true, (lineData (1 / 3), lineNodes)),
        (false, (lineData (1 / 4), lineNodes)), (true, (lineData (1 / 5), lineNodes))] =
      ordinaryOutcomes rule lineModel [(lineData (1 / 2), lineNodes), (lineData (1 / 3), lineNodes),
        (lineData (1 / 4), lineNodes), (lineData (1 / 5), lineNodes)] := by
  refine C98_after_ordinary_partial rule lineModel (lineData (1 / 2), lineNodes)
    [(true, (lineData (1 / 3), lineNodes)), (false, (lineData (1 / 4), lineNodes)),
      (true, (lineData (1 / 5), lineNodes))] line_constructed ?_ ?_
  · rw [line_call]
    exact warmLine_value rule _ _
  · have hstate : (lineModel.call .jax rule (lineData (1 / 2)) lineNodes).2 = warmLine (1 / 2) := by
      rw [line_call]
      exact call_state_warm rfl lineNodes_noNew
    intro c hc
    rw [hstate]
    simp only [List.mem_cons, List.not_mem_nil, or_false] at hc
    rcases hc with rfl | rfl | rfl <;> exact ⟨lineNodes_noNew, warmLine_value rule _ _⟩

/-- Non-vacuity: a spin-magnitude model with one node is called, compiled, with two nodes; then an
ordinary call with two nodes raises although it returns a value on an instance with two nodes. -/
example (rule : SplineRule) (d : Dict (List Fl)) {m : SplineModel}
    (hm : SplineModel.initMagnitude 0 1 1 "cubic" false = .ok m) :
    ∀ o ∈ (startProcess m).outcomes rule [
      (true, (d, [("a0", fin 0), ("a1", fin 1), ("fa0", fin 0), ("fa1", fin 0)])),
      (false, (d, [("a0", fin 0), ("a1", fin 1), ("fa0", fin 0), ("fa1", fin 0)]))],
      ∃ err, o = .error err := by
  have hb : m.base = "a" := (constructed_fresh (.magnitude hm)).2.2.1 (init_nodes hm).2.1
  have hn : m.config.nodes = 1 := by rw [(init_nodes hm).1]
  have hcls : m.cls = .spinMagnitude := (init_nodes hm).2.1
  have hloop : SplineModel.inferLoop
      [("a0", fin 0), ("a1", fin 1), ("fa0", fin 0), ("fa1", fin 0)] m.base m.config.nodes = 2 := by
    rw [hb, hn]
    unfold SplineModel.inferLoop
    rw [if_pos (by show "fa1" ∈ _; simp)]
    unfold SplineModel.inferLoop
    rw [if_neg (by show ¬ "fa2" ∈ _; simp)]
  obtain ⟨m', hm'⟩ : ∃ m', SplineModel.initMagnitude 0 1 2 "cubic" false = .ok m' := ⟨_, rfl⟩
  have hinf : m.inferNodes [("a0", fin 0), ("a1", fin 1), ("fa0", fin 0), ("fa1", fin 0)] = .ok m' := by
    unfold SplineModel.inferNodes
    rw [hloop, hn]
    simp only [ne_eq, OfNat.ofNat_ne_one, not_false_eq_true, if_true]
    unfold SplineModel.reinit
    rw [hcls]
    exact hm'
  have hn' : m'.config.nodes = 2 := by rw [(init_nodes hm').1]
  have hb' : m'.base = "a" := (constructed_fresh (.magnitude hm')).2.2.1 (init_nodes hm').2.1
  refine C98_nodes_changed_partial rule (e := (d, _)) hinf (by rw [hn, hn']; decide) _ ?_
  intro c hc
  simp only [List.mem_cons, List.not_mem_nil, or_false] at hc
  subst hc
  rw [hn', hb']
  show ¬ "fa2" ∈ _
  simp

end GW
