import Verif.Model.JitStatistics
import Verif.Props.JitLikelihood
import Verif.Props.ExtraStatistics

/-!
# Compiled post-processing, as in the example of the repository (C141)
-/

noncomputable section

open Classical

namespace GW

open Fl Spec Staged

namespace Spec

/-- What `generate_extra_statistics` of a likelihood with the attributes of `L` and the functions `fns` returns right after
construction, without `jax.jit`. -/
def freshStatistics (ops : OutOps Mat) (L : Likelihood) (fns : List PlainFn) (sample : Dict Fl) : Except PyErr (Dict Fl) :=
  Likelihood.generateExtraStatistics { L with hyperPrior := ⟨L.hyperPrior.models, population ops fns⟩ } sample

/-- What should be seen of an action: compiled or not, the value of a new likelihood; `generate_extra_statistics` returns "the
input dict, modified in place". -/
def documentedOutcome (ops : OutOps Mat) (L : Likelihood) (fns : List PlainFn) : StatisticsAction → StatisticsOutcome
  | .ratio θ => .ratio (freshRatio ops L fns θ)
  | .jittedRatio θ => .ratio (freshRatio ops L fns θ)
  | .statistics s => .statistics ((freshStatistics ops L fns s).map fun d => (d, d))
  | .jittedStatistics s => .statistics ((freshStatistics ops L fns s).map fun d => (d, d))

/-- The same, except that the compiled method leaves the dictionary it is given as it is. -/
def copyingOutcome (ops : OutOps Mat) (L : Likelihood) (fns : List PlainFn) : StatisticsAction → StatisticsOutcome
  | .jittedStatistics s => .statistics ((freshStatistics ops L fns s).map fun d => (d, s))
  | a => documentedOutcome ops L fns a

/-- The compiled evaluations among the actions can be made with a new likelihood. -/
def CompiledSucceed (ops : OutOps Mat) (L : Likelihood) (fns : List PlainFn) (as : List StatisticsAction) : Prop :=
  (∀ θ, .jittedRatio θ ∈ as → ∃ v, freshRatio ops L fns θ = .ok v) ∧
    ∀ s, .jittedStatistics s ∈ as → ∃ d, freshStatistics ops L fns s = .ok d

end Spec

/-- Whatever is evaluated, compiled or not, and in whatever order: evaluations of the likelihood return its value, and
`generate_extra_statistics` returns the statistics in the dictionary it was given. -/
def C141_statement : Prop :=
  ∀ (L : Likelihood) (fns : List PlainFn) (cache : Bool) (as : List StatisticsAction), L.backend = .jax →
    CompiledSucceed matOps L fns as →
    (newStatisticsProcess L fns cache).outcomes matOps as = as.map (documentedOutcome matOps L fns)

namespace JitStatistics

theorem fresh_eq (ops : OutOps Mat) (L : Likelihood) (fns : List PlainFn) (s : Dict Fl) :
    freshStatistics ops L fns s = (do
      let θ ← L.conversion s
      let p ← population ops fns L.data θ
      L.statisticsFrom s θ p) := by
  unfold freshStatistics Likelihood.statisticsFrom Likelihood.generateExtraStatistics
    Likelihood.perEvent Likelihood.weights Likelihood.selectionWithUncertainty
  simp only [bind_assoc, ok_bind]

/-- In ordinary Python, on a model without tracers. -/
theorem eager {E : Type} (ops : OutOps Mat) (L : Likelihood) (m : StagedModel E)
    (s : Dict Fl) (h : m.cache = false ∨ KnownEntries L.data m.numbered m.entries) :
    (stagedStatistics .eager ops L m (.known s)).1 = (freshStatistics ops L m.functions s).map .known ∧
      (stagedStatistics .eager ops L m (.known s)).2.functions = m.functions ∧
      (stagedStatistics .eager ops L m (.known s)).2.cache = m.cache ∧
      (m.cache = false ∨ KnownEntries L.data m.numbered
        (stagedStatistics .eager ops L m (.known s)).2.entries) := by
  rw [fresh_eq]
  unfold stagedStatistics
  cases hc : L.conversion s with
  | error e =>
    have : Staged.op (.eager : Ctx E) L.conversion (.known s) = .error e := by
      show (L.conversion s >>= fun b => _) = _
      rw [hc]; rfl
    rw [this]
    exact ⟨rfl, rfl, rfl, h⟩
  | ok θ' =>
    have : Staged.op (.eager : Ctx E) L.conversion (.known s) = .ok (.known θ') := by
      show (L.conversion s >>= fun b => _) = _
      rw [hc]; rfl
    rw [this]
    simp only [ok_bind]
    have hloop := loop_eager ops m.cache L.data θ' m.numbered (numbered_nodup m) m.numbered
      (fun _ h => h) ops.one m.entries h
    rw [numbered_snd] at hloop
    unfold StagedModel.prob population
    generalize stagedProbLoop .eager ops m.cache L.data (.known θ') m.numbered (.known ops.one)
      m.entries = r at hloop ⊢
    obtain ⟨r1, r2⟩ := r
    obtain ⟨h1, h2⟩ := hloop
    simp only at h1 h2
    subst h1
    cases hp : populationFrom ops L.data θ' m.functions ops.one with
    | error e => exact ⟨rfl, rfl, rfl, h2⟩
    | ok p =>
      refine ⟨?_, rfl, rfl, h2⟩
      show (Staged.op (.eager : Ctx E) (fun a : Dict Fl × Dict Fl × Mat => L.statisticsFrom a.1 a.2.1 a.2.2)
        (.known (s, θ', p))) = _
      rw [ok_bind]
      show (L.statisticsFrom s θ' p >>= fun b => _) = _
      cases L.statisticsFrom s θ' p <;> rfl

theorem functions {E : Type} (c : Ctx E) (ops : OutOps Mat) (L : Likelihood)
    (m : StagedModel E) (S : Staged E (Dict Fl)) :
    (stagedStatistics c ops L m S).2.functions = m.functions ∧
      (stagedStatistics c ops L m S).2.cache = m.cache := by
  unfold stagedStatistics
  cases Staged.op c L.conversion S with
  | error e => exact ⟨rfl, rfl⟩
  | ok θ' =>
    unfold StagedModel.prob
    simp only
    generalize stagedProbLoop c ops m.cache L.data θ' m.numbered (.known ops.one) m.entries = r
    obtain ⟨r1, r2⟩ := r
    cases r1 <;> exact ⟨rfl, rfl⟩

/-- A trace records what an ordinary call of a new likelihood returns. -/
theorem sim {E : Type} {c : Ctx E} {G : E → Prop} (hc : CtxOk c G) (ops : OutOps Mat)
    (L : Likelihood) (m : StagedModel E) {S : Staged E (Dict Fl)} {s : E → Dict Fl} (hS : Sim c G S s)
    (hnone : m.cache = false ∨ ∀ i, m.entries i = none) {v : E → Dict Fl}
    (hv : ∀ e, G e → freshStatistics ops L m.functions (s e) = .ok (v e)) :
    ∃ Y, (stagedStatistics c ops L m S).1 = .ok Y ∧ Sim c G Y v := by
  have hinv : ∀ e, G e → ∃ θ' p, L.conversion (s e) = .ok θ' ∧
      populationFrom ops L.data θ' (m.numbered.map Prod.snd) ops.one = .ok p ∧
      L.statisticsFrom (s e) θ' p = .ok (v e) := by
    intro e he
    have := hv e he
    rw [fresh_eq, bind_eq_ok] at this
    obtain ⟨θ', h1, h2⟩ := this
    rw [bind_eq_ok] at h2
    obtain ⟨p, h2, h3⟩ := h2
    rw [numbered_snd]
    exact ⟨θ', p, h1, h2, h3⟩
  have : Nonempty Mat := ⟨[]⟩
  choose! θ' p h1 h2 h3 using hinv
  obtain ⟨Θ', hΘ', hΘs⟩ := op_sim hc hS L.conversion θ' h1
  obtain ⟨P, hP, hPs⟩ := loop_sim hc ops m.cache L.data hΘs m.numbered m.entries
    (hnone.imp id fun h => ⟨numbered_nodup m, fun a _ => h a.1⟩) (sim_known c G ops.one) h2
  obtain ⟨b, hb, hbs⟩ := pair_sim hΘs hPs
  obtain ⟨b', hb', hbs'⟩ := pair_sim hS hbs
  obtain ⟨Y, hY, hYs⟩ := op_sim hc hbs' (fun a => L.statisticsFrom a.1 a.2.1 a.2.2) v h3
  refine ⟨Y, ?_, hYs⟩
  unfold stagedStatistics
  rw [hΘ']
  unfold StagedModel.prob
  simp only
  generalize stagedProbLoop c ops m.cache L.data Θ' m.numbered (.known ops.one) m.entries = r at hP ⊢
  obtain ⟨r1, r2⟩ := r
  simp only at hP
  subst hP
  simp only
  rw [hb, ok_bind, hb', ok_bind, hY]

theorem jitted_found {ops : OutOps Mat} {p : StatisticsProcess} {s : Dict Fl}
    {q : (String → Bool) × (Dict Fl → Except PyErr (Dict Fl))}
    (h : p.compiled.find? (fun q => q.1 = parameterNames s) = some q) :
    p.evalJitted ops s = ((q.2 s).map fun d => (d, s), p) := by
  unfold StatisticsProcess.evalJitted
  rw [h]

/-- The first compiled call with certain names. -/
theorem jitted_new {ops : OutOps Mat} {p : StatisticsProcess} {s₀ : Dict Fl}
    (hnew : p.compiled.find? (fun q => q.1 = parameterNames s₀) = none)
    (hnone : p.base.model.cache = false ∨ ∀ i, p.base.model.entries i = none) {G : Dict Fl → Prop} (h₀ : G s₀)
    {v : Dict Fl → Dict Fl} (hv : ∀ s, G s → freshStatistics ops p.base.likelihood p.base.model.functions s = .ok (v s)) :
    (p.evalJitted ops s₀).1 =
        (freshStatistics ops p.base.likelihood p.base.model.functions s₀).map (fun d => (d, s₀)) ∧
      (p.evalJitted ops s₀).2.base.likelihood = p.base.likelihood ∧
      (p.evalJitted ops s₀).2.base.compiled = p.base.compiled ∧
      (p.evalJitted ops s₀).2.base.model.functions = p.base.model.functions ∧
      (p.evalJitted ops s₀).2.base.model.cache = p.base.model.cache ∧
      ∃ f, (p.evalJitted ops s₀).2.compiled = (parameterNames s₀, f) :: p.compiled ∧
        ∀ s, G s → f s = freshStatistics ops p.base.likelihood p.base.model.functions s := by
  set c : Ctx (Dict Fl) := .tracing p.base.traces s₀ with hc
  have hS : Sim c G (.tracer p.base.traces .ok) (fun s : Dict Fl => s) := ⟨rfl, fun s _ => rfl⟩
  obtain ⟨Y, hY, hYs⟩ := sim (c := c) (G := G) h₀ ops p.base.likelihood p.base.model hS hnone hv
  obtain ⟨f, hf, hfv⟩ := read_sim hYs
  have hf : Staged.read c Y = .ok f := hf
  obtain ⟨hfn, hca⟩ := functions c ops p.base.likelihood p.base.model (.tracer p.base.traces .ok)
  unfold StatisticsProcess.evalJitted
  rw [hnew]
  simp only [← hc, hY, ok_bind, hf]
  refine ⟨?_, trivial, trivial, hfn, hca, f, rfl, fun s hs => ?_⟩
  · rw [hv s₀ h₀, hfv s₀ h₀]
  · rw [hv s hs, hfv s hs]

theorem ordinary_eq {ops : OutOps Mat} {p : StatisticsProcess} {s : Dict Fl}
    (h : p.base.model.cache = false ∨
      KnownEntries p.base.likelihood.data p.base.model.numbered p.base.model.entries) :
    (p.evalOrdinary ops s).1 =
        (freshStatistics ops p.base.likelihood p.base.model.functions s).map (fun d => (d, d)) ∧
      (p.evalOrdinary ops s).2.base.likelihood = p.base.likelihood ∧
      (p.evalOrdinary ops s).2.base.compiled = p.base.compiled ∧
      (p.evalOrdinary ops s).2.base.model.functions = p.base.model.functions ∧
      (p.evalOrdinary ops s).2.base.model.cache = p.base.model.cache ∧
      (p.evalOrdinary ops s).2.compiled = p.compiled ∧
      (p.base.model.cache = false ∨ KnownEntries p.base.likelihood.data p.base.model.numbered
        (p.evalOrdinary ops s).2.base.model.entries) := by
  obtain ⟨h1, h2, h3, h4⟩ := eager ops p.base.likelihood p.base.model s h
  unfold StatisticsProcess.evalOrdinary
  refine ⟨?_, rfl, rfl, h2, h3, rfl, h4⟩
  simp only [h1]
  cases freshStatistics ops p.base.likelihood p.base.model.functions s <;> rfl

/-- What is kept without the cache. -/
structure Uncached (ops : OutOps Mat) (L : Likelihood) (fns : List PlainFn) (p : StatisticsProcess)
    (as : List StatisticsAction) : Prop where
  likelihood : p.base.likelihood = L
  functions : p.base.model.functions = fns
  cache : p.base.model.cache = false
  ratios : ∀ q ∈ p.base.compiled, ∀ θ, .jittedRatio θ ∈ as → parameterNames θ = q.1 → q.2 θ = freshRatio ops L fns θ
  statistics : ∀ q ∈ p.compiled, ∀ s, .jittedStatistics s ∈ as → parameterNames s = q.1 →
    q.2 s = freshStatistics ops L fns s

theorem uncached {ops : OutOps Mat} {L : Likelihood} {fns : List PlainFn} (as : List StatisticsAction)
    (p : StatisticsProcess) (h : Uncached ops L fns p as) (hok : CompiledSucceed ops L fns as) :
    p.outcomes ops as = as.map (copyingOutcome ops L fns) := by
  induction as generalizing p with
  | nil => rfl
  | cons a as ih =>
    have hok' : CompiledSucceed ops L fns as :=
      ⟨fun θ hθ => hok.1 θ (by simp [hθ]), fun s hs => hok.2 s (by simp [hs])⟩
    have hr' : ∀ q ∈ p.base.compiled, ∀ θ, .jittedRatio θ ∈ as → parameterNames θ = q.1 →
        q.2 θ = freshRatio ops L fns θ := fun q hq θ hθ => h.ratios q hq θ (by simp [hθ])
    have hs' : ∀ q ∈ p.compiled, ∀ s, .jittedStatistics s ∈ as → parameterNames s = q.1 →
        q.2 s = freshStatistics ops L fns s := fun q hq s hs => h.statistics q hq s (by simp [hs])
    obtain ⟨rfl, rfl, hcache, hr, hs⟩ := h
    rw [List.map_cons]
    show (p.step ops a).1 :: (p.step ops a).2.outcomes ops as = _
    cases a with
    | ratio θ =>
      obtain ⟨h1, h2, h3, h4, h5, -⟩ := evalOrdinary_eq (ops := ops) (p := p.base) (θ := θ) (Or.inl hcache)
      have := ih (p.step ops (.ratio θ)).2 ⟨h2, h3, h4.trans hcache, by
        show ∀ q ∈ (p.base.evalOrdinary ops θ).2.compiled, _
        rw [h5]; exact hr', hs'⟩ hok'
      rw [this]
      show StatisticsOutcome.ratio (p.base.evalOrdinary ops θ).1 :: _ = _
      rw [h1]
      rfl
    | jittedRatio θ =>
      show StatisticsOutcome.ratio (p.base.evalJitted ops θ).1 :: _ = _
      cases hfind : p.base.compiled.find? (fun q => q.1 = parameterNames θ) with
      | some q =>
        have hq : q.1 = parameterNames θ := by simpa using List.find?_some hfind
        have hstep : (p.step ops (.jittedRatio θ)).2 = p := by
          show ({ p with base := (p.base.evalJitted ops θ).2 } : StatisticsProcess) = p
          rw [evalJitted_found hfind]
        rw [hstep, ih p ⟨rfl, rfl, hcache, hr', hs'⟩ hok', evalJitted_found hfind]
        simp only
        rw [hr q (List.mem_of_find?_eq_some hfind) θ (by simp) hq.symm, ratio_nanToNum]
        rfl
      | none =>
        set G : Dict Fl → Prop := fun θ' => .jittedRatio θ' ∈ StatisticsAction.jittedRatio θ :: as with hG
        have hval : ∀ θ', G θ' → ∃ v, freshRatio ops p.base.likelihood p.base.model.functions θ' = .ok v := hok.1
        have : Nonempty Fl := ⟨nan⟩
        choose! v hv using hval
        obtain ⟨e1, e2, e3, e4, f, e5, e6⟩ := evalJitted_new (G := G) hfind (.inl hcache) (by simp [hG]) hv
        have := ih (p.step ops (.jittedRatio θ)).2 ⟨e2, e3, e4.trans hcache, by
          show ∀ q ∈ (p.base.evalJitted ops θ).2.compiled, _
          rw [e5]
          intro q hq θ' hθ' hn
          rcases List.mem_cons.1 hq with rfl | hq
          · exact e6 θ' (by simp [hG, hθ'])
          · exact hr' q hq θ' hθ' hn, hs'⟩ hok'
        rw [this, e1]
        rfl
    | statistics s =>
      obtain ⟨h1, h2, h3, h4, h5, h6, -⟩ := ordinary_eq (ops := ops) (p := p) (s := s) (Or.inl hcache)
      have := ih (p.step ops (.statistics s)).2 ⟨h2, h4, h5.trans hcache, by
        show ∀ q ∈ (p.evalOrdinary ops s).2.base.compiled, _
        rw [h3]; exact hr', by
        show ∀ q ∈ (p.evalOrdinary ops s).2.compiled, _
        rw [h6]; exact hs'⟩ hok'
      rw [this]
      show StatisticsOutcome.statistics (p.evalOrdinary ops s).1 :: _ = _
      rw [h1]
      rfl
    | jittedStatistics s =>
      show StatisticsOutcome.statistics (p.evalJitted ops s).1 :: _ = _
      cases hfind : p.compiled.find? (fun q => q.1 = parameterNames s) with
      | some q =>
        have hq : q.1 = parameterNames s := by simpa using List.find?_some hfind
        have hstep : (p.step ops (.jittedStatistics s)).2 = p := by
          show (p.evalJitted ops s).2 = p
          rw [jitted_found hfind]
        rw [hstep, ih p ⟨rfl, rfl, hcache, hr', hs'⟩ hok', jitted_found hfind]
        simp only
        rw [hs q (List.mem_of_find?_eq_some hfind) s (by simp) hq.symm]
        rfl
      | none =>
        set G : Dict Fl → Prop := fun s' => .jittedStatistics s' ∈ StatisticsAction.jittedStatistics s :: as with hG
        have hval : ∀ s', G s' → ∃ v, freshStatistics ops p.base.likelihood p.base.model.functions s' = .ok v := hok.2
        have : Nonempty (Dict Fl) := ⟨[]⟩
        choose! v hv using hval
        obtain ⟨e1, e2, e3, e4, e5, f, e6, e7⟩ := jitted_new (G := G) hfind (.inl hcache) (by simp [hG]) hv
        have := ih (p.step ops (.jittedStatistics s)).2 ⟨e2, e4, e5.trans hcache, by
          show ∀ q ∈ (p.evalJitted ops s).2.base.compiled, _
          rw [e3]; exact hr', by
          show ∀ q ∈ (p.evalJitted ops s).2.compiled, _
          rw [e6]
          intro q hq s' hs'' hn
          rcases List.mem_cons.1 hq with rfl | hq
          · exact e7 s' (by simp [hG, hs''])
          · exact hs' q hq s' hs'' hn⟩ hok'
        rw [this, e1]
        rfl

/-- A call whose parameters cannot be compared with the cached ones. -/
theorem mismatch {c : Ctx (Dict Fl)} {ops : OutOps Mat} {L : Likelihood}
    {m : StagedModel (Dict Fl)} {f : PlainFn} {fs : List PlainFn} (hf : m.functions = f :: fs)
    (hcache : m.cache = true) {k : String} {ks : List String} (hk : f.names = k :: ks)
    {x : Staged (Dict Fl) Fl} {xs : List (Staged (Dict Fl) Fl)} {q : Staged (Dict Fl) Mat}
    (he : m.entries 0 = some (x :: xs, q)) (hne : (∀ a, x ≠ .known a) ∨ ∃ t e, c = .tracing t e)
    (S : Staged (Dict Fl) (Dict Fl)) :
    (stagedStatistics c ops L m S).2 = m ∧ ∃ err, (stagedStatistics c ops L m S).1 = .error err ∧
      ∀ Θ' vals, Staged.op c L.conversion S = .ok Θ' →
        (f.names.mapM fun k => Staged.op c (fun d => Dict.get d k) Θ') = .ok vals → err = .typeError := by
  unfold stagedStatistics
  cases hΘ : Staged.op c L.conversion S with
  | error e => exact ⟨rfl, e, rfl, fun _ _ h => by cases h⟩
  | ok Θ' =>
    obtain ⟨h1, err, h2, h3⟩ := loop_mismatch (ops := ops) (data := L.data) (Θ := Θ') hk
      (l := ((List.range fs.length).map Nat.succ).zip fs) (P := .known ops.one) he hne
    unfold StagedModel.prob
    simp only
    rw [numbered_cons hf, hcache]
    generalize stagedProbLoop c ops true L.data Θ' _ (.known ops.one) m.entries = r at h1 h2
    obtain ⟨r1, r2⟩ := r
    simp only at h1 h2
    subst h1 h2
    refine ⟨?_, err, rfl, fun Θ'' vals h h' => ?_⟩
    · show ({ m with cache := true } : StagedModel (Dict Fl)) = m
      rw [← hcache]
    · cases Except.ok.inj h
      exact h3 vals h'

theorem reads {ops : OutOps Mat} {L : Likelihood} {f : PlainFn} {fs : List PlainFn} {s : Dict Fl}
    (h : ∃ v, freshStatistics ops L (f :: fs) s = .ok v) {c : Ctx (Dict Fl)}
    {S : Staged (Dict Fl) (Dict Fl)} (hc : CtxOk c (· = s)) (hS : Sim c (· = s) S fun _ => s) :
    ∃ Θ' vals, Staged.op c L.conversion S = .ok Θ' ∧
      (f.names.mapM fun k => Staged.op c (fun d => Dict.get d k) Θ') = .ok vals := by
  obtain ⟨v, h⟩ := h
  rw [fresh_eq, bind_eq_ok] at h
  obtain ⟨θ', h1, h⟩ := h
  rw [bind_eq_ok] at h
  obtain ⟨p, h, -⟩ := h
  unfold population populationFrom at h
  rw [bind_eq_ok] at h
  obtain ⟨vals, h2, -⟩ := h
  obtain ⟨Θ', hΘ', hs⟩ := op_sim hc hS L.conversion (fun _ => θ') fun _ _ => h1
  obtain ⟨xs, z, hxs, -⟩ := mapM_op_sim hc hs f.names (as := fun _ => vals) fun _ _ => h2
  exact ⟨Θ', xs, hΘ', hxs⟩

/-- The state of a caching model after a compiled evaluation of the likelihood, before any of the compiled method. -/
structure Sampled (L : Likelihood) (f : PlainFn) (fs : List PlainFn) (p : StatisticsProcess) : Prop where
  used : UsedCompiled L f fs p.base
  compiled : p.compiled = []

theorem Sampled.step {ops : OutOps Mat} {L : Likelihood} {f : PlainFn} {fs : List PlainFn}
    {p : StatisticsProcess} (h : Sampled L f fs p) (hf : f.names ≠ []) (a : StatisticsAction) :
    Sampled L f fs (p.step ops a).2 ∧ ∀ s, a = .statistics s ∨ a = .jittedStatistics s →
      (∃ d, freshStatistics ops L (f :: fs) s = .ok d) → (p.step ops a).1 = .statistics (.error .typeError) := by
  obtain ⟨x, xs, q, he, hx⟩ := h.used.entry
  obtain ⟨k, ks, hk⟩ := List.exists_cons_of_ne_nil hf
  cases a with
  | ratio θ => exact ⟨⟨(h.used.step hf (.ordinary θ)).1, h.compiled⟩, fun _ h => by rcases h with h | h <;> cases h⟩
  | jittedRatio θ => exact ⟨⟨(h.used.step hf (.jitted θ)).1, h.compiled⟩, fun _ h => by rcases h with h | h <;> cases h⟩
  | statistics s =>
    obtain ⟨h1, err, h2, h3⟩ := mismatch (c := .eager) (ops := ops)
      (L := p.base.likelihood) h.used.functions h.used.cache hk he (Or.inl hx) (.known s)
    refine ⟨⟨⟨h.used.conversion, ?_, ?_, ?_⟩, h.compiled⟩, ?_⟩
    · show (stagedStatistics .eager ops p.base.likelihood p.base.model (.known s)).2.functions = _
      rw [h1]; exact h.used.functions
    · show (stagedStatistics .eager ops p.base.likelihood p.base.model (.known s)).2.cache = _
      rw [h1]; exact h.used.cache
    · show ∃ x xs q, (stagedStatistics .eager ops p.base.likelihood p.base.model (.known s)).2.entries 0 =
        some (x :: xs, q) ∧ _
      rw [h1]; exact h.used.entry
    · rintro s' hs hv
      rcases hs with hs | hs <;> cases hs
      obtain ⟨Θ', vals, e1, e2⟩ := reads hv (c := .eager) (S := .known s) ⟨s, rfl⟩ (fun e _ => rfl)
      have herr := h3 Θ' vals (by rw [h.used.conversion]; exact e1) e2
      show StatisticsOutcome.statistics (p.evalOrdinary ops s).1 = _
      unfold StatisticsProcess.evalOrdinary
      simp only [h2, error_bind, herr]
      rfl
  | jittedStatistics s =>
    obtain ⟨h1, err, h2, h3⟩ := mismatch (c := .tracing p.base.traces s) (ops := ops)
      (L := p.base.likelihood) h.used.functions h.used.cache hk he (Or.inl hx) (.tracer p.base.traces .ok)
    have hfind : p.compiled.find? (fun q => q.1 = parameterNames s) = none := by rw [h.compiled]; rfl
    show Sampled L f fs (p.evalJitted ops s).2 ∧ ∀ s', _ → _ →
      StatisticsOutcome.statistics (p.evalJitted ops s).1 = _
    unfold StatisticsProcess.evalJitted
    rw [hfind]
    simp only [h2, error_bind, h1]
    refine ⟨⟨⟨h.used.conversion, h.used.functions, h.used.cache, h.used.entry⟩, h.compiled⟩, ?_⟩
    rintro s' hs hv
    rcases hs with hs | hs <;> cases hs
    obtain ⟨Θ', vals, e1, e2⟩ := reads hv (c := .tracing p.base.traces s) (S := .tracer p.base.traces .ok)
      rfl ⟨rfl, fun e he => by rw [he]⟩
    rw [h3 Θ' vals (by rw [h.used.conversion]; exact e1) e2]

/-- The first compiled evaluation of the likelihood. -/
theorem sampled_first {ops : OutOps Mat} {L : Likelihood} {f : PlainFn} {fs : List PlainFn} (hf : f.names ≠ [])
    {θ : Dict Fl} (hθ : ∃ v, freshRatio ops L (f :: fs) θ = .ok v) :
    Sampled L f fs ((newStatisticsProcess L (f :: fs) true).step ops (.jittedRatio θ)).2 := by
  refine ⟨?_, rfl⟩
  set p := newLikelihoodProcess L (f :: fs) true with hp
  obtain ⟨v, hv⟩ := hθ
  obtain ⟨-, h2, h3, h4, -⟩ := evalJitted_new (ops := ops) (p := p) (θ₀ := θ) rfl
    (Or.inr fun _ => rfl) (G := (· = θ)) rfl (v := fun _ => v) (by rintro _ rfl; exact hv)
  obtain ⟨Y, hY, -⟩ := stagedRatio_sim (c := .tracing p.traces θ) (G := (· = θ)) rfl ops p.likelihood
    p.model (Θ := .tracer p.traces .ok) (θ := fun e => e) ⟨rfl, fun _ _ => rfl⟩ (Or.inr fun _ => rfl)
    (v := fun _ => v) (by rintro _ rfl; exact hv)
  obtain ⟨Θ', vals, hvals, hent⟩ := stagedRatio_first (f := f) (fs := fs) rfl rfl hY
  show UsedCompiled L f fs (p.evalJitted ops θ).2
  refine ⟨by rw [h2]; rfl, h3, h4, ?_⟩
  have hmodel : (p.evalJitted ops θ).2.model =
      (stagedRatio (.tracing p.traces θ) ops p.likelihood p.model (.tracer p.traces .ok)).2 := by
    have hfind : p.compiled.find? (fun q => q.1 = parameterNames θ) = none := rfl
    unfold LikelihoodProcess.evalJitted
    rw [hfind]
    simp only
    cases ((stagedRatio (.tracing p.traces θ) ops p.likelihood p.model (.tracer p.traces .ok)).1 >>=
      Staged.read (.tracing p.traces θ)) <;> rfl
  obtain ⟨k, ks, hk⟩ := List.exists_cons_of_ne_nil hf
  rw [hk] at hvals
  obtain ⟨x, xs, rfl, hx⟩ := mapM_op_head hvals
  rw [hmodel]
  rcases hent with ⟨-, h⟩ | ⟨q, h⟩
  · exact absurd rfl h
  · exact ⟨x, xs, q, h, op_tracing_ne hx⟩

end JitStatistics

open JitStatistics

/-- **C141, proved part.** Without the cache of the population model (`cache=False`, as in the example of the repository): whatever
is evaluated, compiled or not, in whatever order, all values are right. The compiled method does not modify the dictionary it is
given. -/
theorem C141_uncached_partial (ops : OutOps Mat) (L : Likelihood) (fns : List PlainFn) (as : List StatisticsAction)
    (hok : CompiledSucceed ops L fns as) :
    (newStatisticsProcess L fns false).outcomes ops as = as.map (copyingOutcome ops L fns) :=
  uncached as _ ⟨rfl, rfl, rfl, fun q hq => by simp [newStatisticsProcess, newLikelihoodProcess] at hq,
    fun q hq => by simp [newStatisticsProcess] at hq⟩ hok

/-- **C141, proved part.** Without compiled evaluations all outcomes are as documented, with or without the cache. -/
theorem C141_ordinary_partial (ops : OutOps Mat) (L : Likelihood) (fns : List PlainFn) (cache : Bool)
    (as : List StatisticsAction) (has : ∀ a ∈ as, (∃ θ, a = .ratio θ) ∨ ∃ s, a = .statistics s) :
    (newStatisticsProcess L fns cache).outcomes ops as = as.map (documentedOutcome ops L fns) := by
  have : ∀ (as : List StatisticsAction) (p : StatisticsProcess),
      (∀ a ∈ as, (∃ θ, a = .ratio θ) ∨ ∃ s, a = .statistics s) → p.base.likelihood = L → p.base.model.functions = fns →
      (p.base.model.cache = false ∨
        KnownEntries p.base.likelihood.data p.base.model.numbered p.base.model.entries) →
      p.outcomes ops as = as.map (documentedOutcome ops L fns) := by
    intro as
    induction as with
    | nil => intros; rfl
    | cons a as ih =>
      rintro p has rfl rfl hk
      have has' : ∀ a ∈ as, (∃ θ, a = .ratio θ) ∨ ∃ s, a = .statistics s := fun a ha => has a (by simp [ha])
      show (p.step ops a).1 :: (p.step ops a).2.outcomes ops as = _ :: _
      rcases has a (by simp) with ⟨θ, rfl⟩ | ⟨s, rfl⟩
      · obtain ⟨h1, h2, h3, h4, h5, h6⟩ := evalOrdinary_eq (ops := ops) (p := p.base) (θ := θ) hk
        rw [ih (p.step ops (.ratio θ)).2 has' h2 h3]
        · show StatisticsOutcome.ratio (p.base.evalOrdinary ops θ).1 :: _ = _
          rw [h1]
          rfl
        · show (p.base.evalOrdinary ops θ).2.model.cache = false ∨ KnownEntries (p.base.evalOrdinary ops θ).2.likelihood.data
            (p.base.evalOrdinary ops θ).2.model.numbered (p.base.evalOrdinary ops θ).2.model.entries
          rw [h2, h4]
          unfold StagedModel.numbered at h6 ⊢
          rwa [h3]
      · obtain ⟨h1, h2, -, h3, h4, -, h6⟩ := ordinary_eq (ops := ops) (p := p) (s := s) hk
        rw [ih (p.step ops (.statistics s)).2 has' h2 h3]
        · show StatisticsOutcome.statistics (p.evalOrdinary ops s).1 :: _ = _
          rw [h1]
          rfl
        · show (p.evalOrdinary ops s).2.base.model.cache = false ∨
            KnownEntries (p.evalOrdinary ops s).2.base.likelihood.data
              (p.evalOrdinary ops s).2.base.model.numbered (p.evalOrdinary ops s).2.base.model.entries
          rw [h2, h4]
          unfold StagedModel.numbered at h6 ⊢
          rwa [h3]
  exact this as _ has rfl rfl (.inr fun i f vals q _ h => by cases h)

/-- **C141, what happens.** The population model caches, which is the default and always so if a function was given as
`hyper_prior`, and its first function has a parameter: after an evaluation of the compiled likelihood, that is, after sampling
with it, `generate_extra_statistics` raises `TypeError`, compiled or not, whatever happens in between. -/
theorem C141_cached_partial (ops : OutOps Mat) (L : Likelihood) (f : PlainFn) (fs : List PlainFn) (hf : f.names ≠ [])
    (θ : Dict Fl) (hθ : ∃ v, freshRatio ops L (f :: fs) θ = .ok v) (as : List StatisticsAction) (s : Dict Fl)
    (hs : ∃ d, freshStatistics ops L (f :: fs) s = .ok d) :
    (((newStatisticsProcess L (f :: fs) true).run ops (.jittedRatio θ :: as)).step ops (.statistics s)).1 =
        .statistics (.error .typeError) ∧
      (((newStatisticsProcess L (f :: fs) true).run ops (.jittedRatio θ :: as)).step ops (.jittedStatistics s)).1 =
        .statistics (.error .typeError) := by
  have hrun : ∀ (as : List StatisticsAction) (p : StatisticsProcess), Sampled L f fs p → Sampled L f fs (p.run ops as) := by
    intro as
    induction as with
    | nil => exact fun _ h => h
    | cons a as ih => exact fun p h => ih _ (h.step hf a).1
  have h := hrun as _ (sampled_first (ops := ops) hf hθ)
  exact ⟨(h.step hf (.statistics s)).2 s (.inl rfl) hs, (h.step hf (.jittedStatistics s)).2 s (.inr rfl) hs⟩

namespace JitStatistics

/-- The statistics of the likelihood with one event of constant weights. -/
theorem flat_statistics (limit : Fl) :
    ∃ d, freshStatistics matOps (flatJax limit) [flatFn] [("alpha", fin 1)] = .ok d ∧
      d.get? "variance" = some (fin 3) := by
  have hw := weights_fin (self := { flatJax limit with
      hyperPrior := ⟨(flatJax limit).hyperPrior.models, population matOps [flatFn]⟩ }) (θ := [("alpha", fin 1)])
    (P := [[1, 1]]) (prior := none) rfl rfl (by simp)
  obtain ⟨out, l, v, lnBf, h1, h2, h3, -⟩ := C50_consistent_partial (self := { flatJax limit with
      hyperPrior := ⟨(flatJax limit).hyperPrior.models, population matOps [flatFn]⟩ }) (fun h => by cases h)
    (sample := [("alpha", fin 1)]) rfl (W := [[1, 1]]) hw flatGood rfl rfl
    (.inl ⟨true, rfl⟩ : reports (.pair true (fin 1) (fin 3)) 1 3) one_pos
  refine ⟨out, h1, ?_⟩
  have := h2.symm.trans (flatJax_estimate limit)
  rw [h3]
  exact congrArg some (Prod.mk.inj (Except.ok.inj this)).2

end JitStatistics

/-- The property is false without the cache too: the compiled method does not modify the dictionary it is given, so that a
program that ignores the returned dictionary finds no statistics. -/
theorem C141_inplace_fails : (newStatisticsProcess (flatJax pinf) [flatFn] false).outcomes matOps
      [.jittedStatistics [("alpha", fin 1)]] ≠
    [StatisticsAction.jittedStatistics [("alpha", fin 1)]].map (documentedOutcome matOps (flatJax pinf) [flatFn]) := by
  obtain ⟨d, hd, hv⟩ := flat_statistics pinf
  rw [C141_uncached_partial matOps _ _ _ ⟨by simp, fun s hs => by simp at hs; subst hs; exact ⟨d, hd⟩⟩]
  intro h
  simp only [List.map_cons, List.map_nil, copyingOutcome, documentedOutcome, hd, Except.map, List.cons.injEq,
    StatisticsOutcome.statistics.injEq, Except.ok.injEq, Prod.mk.injEq, true_and, and_true] at h
  rw [← h] at hv
  simp [Dict.get?_cons] at hv

/-- **C141** is false of the code. -/
theorem C141_fails : ¬ C141_statement := by
  intro H
  obtain ⟨d, hd, -⟩ := flat_statistics pinf
  exact C141_inplace_fails (H (flatJax pinf) [flatFn] false _ rfl
    ⟨by simp, fun s hs => by simp at hs; subst hs; exact ⟨d, hd⟩⟩)

/-- **Non-vacuity**: the hypotheses of the theorems are met by the likelihood with one event, and with the cache the workflow
"compile, sample, compile the post-processing" fails. -/
example : CompiledSucceed matOps (flatJax pinf) [flatFn]
      [.ratio [("alpha", fin 1)], .jittedRatio [("alpha", fin 1)], .jittedStatistics [("alpha", fin 1)]] ∧
    ∃ r, (newStatisticsProcess (flatJax pinf) [flatFn] true).outcomes matOps
      [.jittedRatio [("alpha", fin 1)], .jittedStatistics [("alpha", fin 1)]] =
        [.ratio r, .statistics (.error .typeError)] := by
  obtain ⟨d, hd, -⟩ := flat_statistics pinf
  refine ⟨⟨fun θ h => ?_, fun s h => ?_⟩, _, congrArg _ (congrArg (fun x => [x])
    (C141_cached_partial matOps (flatJax pinf) flatFn [] (by simp [flatFn]) _ ⟨_, flatJax_accepted⟩ [] _ ⟨d, hd⟩).2)⟩
  · simp at h; subst h; exact ⟨_, flatJax_accepted⟩
  · simp at h; subst h; exact ⟨d, hd⟩

end GW
