import Verif.Lemmas.StagedSmoothed

/-!
# Smoothed mass models under `jax.jit` (C99)
-/

noncomputable section

open Classical

namespace GW

open Fl Spec Staged

/-- A process in which the new instance `s` exists and nothing has been compiled. -/
def Spec.massProcess (s : Smoothed) : SmoothedProcess := ⟨⟨s, none⟩, [], 0⟩

/-- Every call, compiled with `jax.jit` or not, returns what an ordinary call of a new instance
returns. (The keyword arguments have different names, as always in Python.) -/
def C99_statement : Prop :=
  ∀ (py : Bool) (mmin mmax : ℝ) (nM nQ : ℕ) (cache : Bool) (s : Smoothed),
    singlePeak py mmin mmax nM nQ cache = .ok s →
    ∀ hist : List (Bool × SmoothedArgs), (∀ c ∈ hist, (Dict.keys c.2.2).Nodup) →
      (massProcess s).outcomes hist = hist.map fun c => (Smoothed.call .jax s c.2.1 c.2.2).1

theorem callEager_smoothed (p : SmoothedProcess) (e : SmoothedArgs) :
    (p.callEager e).1 = (Smoothed.call .jax p.model.forget e.1 e.2).1 ∧
      (p.callEager e).2.model.forget = (Smoothed.call .jax p.model.forget e.1 e.2).2 ∧
      ((p.callEager e).2.model.interpolant = p.model.interpolant ∨
        ∃ l, (p.callEager e).2.model.interpolant = some (.known (), .known l)) ∧
      (p.callEager e).2.model.base = p.model.base ∧
      (p.callEager e).2.compiled = p.compiled ∧ (p.callEager e).2.traces = p.traces := by
  obtain ⟨h1, h2, h3, h4⟩ := StagedSmoothed.call_eager p.model e.1 e.2
  unfold SmoothedProcess.callEager
  refine ⟨?_, h2, h3, h4, rfl, rfl⟩
  simp only [h1]
  cases (Smoothed.call .jax p.model.forget e.1 e.2).1 <;> rfl

theorem callCompiled_found {p : SmoothedProcess} {e : SmoothedArgs}
    {q : (ℕ × List String) × (SmoothedArgs → Except PyErr (List Fl))}
    (h : p.compiled.find? (fun q => q.1 = smoothedSignature e) = some q) :
    p.callCompiled e = (q.2 e, p) := by
  unfold SmoothedProcess.callCompiled
  rw [h]

/-- A first compiled call records a computation that returns, for all arguments with the same
signature, what an ordinary call returns in the present state of the instance. -/
theorem callCompiled_new {p : SmoothedProcess} {e₀ : SmoothedArgs}
    (hnew : p.compiled.find? (fun q => q.1 = smoothedSignature e₀) = none)
    (ho : StagedSmoothed.Old p.traces p.model.interpolant) {G : SmoothedArgs → Prop} (h₀ : G e₀)
    (hG : ∀ e, G e → smoothedSignature e = smoothedSignature e₀ ∧ (Dict.keys e.2).Nodup)
    {v : SmoothedArgs → List Fl}
    (hv : ∀ e, G e → (Smoothed.call .jax p.model.forget e.1 e.2).1 = .ok (v e)) :
    (p.callCompiled e₀).1 = .ok (v e₀) ∧
      (p.callCompiled e₀).2.model.base = p.model.base ∧
      ((p.callCompiled e₀).2.model.interpolant = p.model.interpolant ∨
        ∃ f g, (p.callCompiled e₀).2.model.interpolant =
          some (.tracer p.traces f, .tracer p.traces g)) ∧
      (p.callCompiled e₀).2.traces = p.traces + 1 ∧
      ∃ f, (p.callCompiled e₀).2.compiled = (smoothedSignature e₀, f) :: p.compiled ∧
        ∀ e, G e → f e = .ok (v e) := by
  obtain ⟨Y, s', hY, hYs, hb, hi⟩ := StagedSmoothed.call_trace (t := p.traces) h₀ ho hG hv
  obtain ⟨f, hf, hfv⟩ := read_sim hYs
  have hY' : p.model.call (.tracing p.traces e₀) (.tracer p.traces fun e => .ok e.1)
      (e₀.2.map fun q => (q.1, .tracer p.traces fun e => Dict.get e.2 q.1)) = (.ok Y, s') := hY
  unfold SmoothedProcess.callCompiled
  rw [hnew]
  simp only [hY', ok_bind, hf]
  exact ⟨hfv e₀ h₀, hb, hi, trivial, f, rfl, hfv⟩

/-- On an instance whose interpolant is missing, unusable, or belongs to harmless masses, an ordinary
call returns what it returns on a new one. -/
theorem call_as_new {s t : Smoothed} (hs : s.qMasses = none) (hcfg : SameConfig s t)
    (d : List (Fl × Fl)) (kw : Dict Fl)
    (h : s.cache = false ∨ ∀ l, t.qMasses = some l → Harmless .jax l (d.map Prod.fst)) :
    (Smoothed.call .jax t d kw).1 = (Smoothed.call .jax s d kw).1 := by
  apply call_congr .jax hcfg
  intro beta lo x
  rw [pQ_harmless, pQ_fresh .jax s d beta lo x (Or.inr (Or.inl hs))]
  · have : qNormAt .jax t beta lo x = qNormAt .jax s beta lo x := by
      funext m; unfold qNormAt; rw [hcfg.qs]
    rw [this, hcfg.m1s]
  · rcases h with h | h
    · left; rw [hcfg.cache, h]
    · exact Or.inr h

/-- What is kept during a history of calls whose remaining part is `rest`. -/
structure Serves (s : Smoothed) (p : SmoothedProcess) (rest : List (Bool × SmoothedArgs)) : Prop where
  base : p.model.base = s
  old : StagedSmoothed.Old p.traces p.model.interpolant
  harmless : s.cache = false ∨ ∀ l, StagedSmoothed.concrete p.model.interpolant = some l →
    ∀ c ∈ rest, Harmless .jax l (c.2.1.map Prod.fst)
  compiled : ∀ q ∈ p.compiled, ∀ c ∈ rest, c.1 = true → smoothedSignature c.2 = q.1 →
    q.2 c.2 = (Smoothed.call .jax s c.2.1 c.2.2).1

theorem old_succ {E : Type} {t : ℕ} {i j : Option (Staged E Unit × Staged E (List Fl))}
    (h : StagedSmoothed.Old t i) (hj : j = i ∨ ∃ f g, j = some (.tracer t f, .tracer t g)) :
    StagedSmoothed.Old (t + 1) j := by
  rintro x y hxy
  rcases hj with rfl | ⟨f, g, rfl⟩
  · rcases h x y hxy with h | ⟨t₁, t₂, f, g, h1, h2, h3, h4⟩
    · exact Or.inl h
    · exact Or.inr ⟨t₁, t₂, f, g, h1, h2, h3.trans (Nat.lt_succ_self t), h4.trans (Nat.lt_succ_self t)⟩
  · cases hxy
    exact Or.inr ⟨t, t, f, g, rfl, rfl, Nat.lt_succ_self t, Nat.lt_succ_self t⟩

theorem serves_step {s : Smoothed} (hs : s.qMasses = none) {p : SmoothedProcess} {jit : Bool}
    {e : SmoothedArgs} {rest : List (Bool × SmoothedArgs)} (hp : Serves s p ((jit, e) :: rest))
    (hnd : ∀ c ∈ (jit, e) :: rest, (Dict.keys c.2.2).Nodup)
    (hok : ∀ c ∈ (jit, e) :: rest, c.1 = true → ∃ v, (Smoothed.call .jax s c.2.1 c.2.2).1 = .ok v)
    (hpair : jit = false → s.cache = false ∨
      ∀ c ∈ rest, Harmless .jax (e.1.map Prod.fst) (c.2.1.map Prod.fst)) :
    (p.step jit e).1 = (Smoothed.call .jax s e.1 e.2).1 ∧ Serves s (p.step jit e).2 rest := by
  have hcfg : SameConfig s p.model.forget := by
    have := p.model.forget_cfg
    rwa [hp.base] at this
  have hnew : ∀ c ∈ (jit, e) :: rest, (Smoothed.call .jax p.model.forget c.2.1 c.2.2).1 =
      (Smoothed.call .jax s c.2.1 c.2.2).1 := fun c hc =>
    call_as_new hs hcfg _ _ (hp.harmless.imp id fun h l hl => h l hl c hc)
  cases jit with
  | false =>
    have hstep : p.step false e = p.callEager e := rfl
    rw [hstep]
    obtain ⟨h1, h2, h3, h4, h5, h6⟩ := callEager_smoothed p e
    refine ⟨h1.trans (hnew (false, e) (by simp)), h4.trans hp.base, ?_, ?_, ?_⟩
    · rw [h6]
      rcases h3 with h3 | ⟨l, h3⟩
      · rw [h3]; exact hp.old
      · rw [h3]; rintro x y hxy; cases hxy; exact Or.inl ⟨l, rfl, rfl⟩
    · rcases hp.harmless with hc | hh
      · exact Or.inl hc
      rcases hpair rfl with hc | hpair
      · exact Or.inl hc
      refine Or.inr fun l hl c hc => ?_
      have hq : (p.callEager e).2.model.forget.qMasses = some l := hl
      rw [h2] at hq
      rcases call_state .jax p.model.forget e.1 e.2 with h | h
      · rw [h] at hq
        exact hh l hq c (by simp [hc])
      · rw [h] at hq
        cases hq
        exact hpair c hc
    · rw [h5]
      exact fun q hq c hc => hp.compiled q hq c (by simp [hc])
  | true =>
    have hstep : p.step true e = p.callCompiled e := rfl
    rw [hstep]
    cases hf : p.compiled.find? (fun q => q.1 = smoothedSignature e) with
    | some q =>
      have h1 := List.find?_some hf
      have h2 := List.mem_of_find?_eq_some hf
      simp only [decide_eq_true_eq] at h1
      rw [callCompiled_found hf]
      refine ⟨hp.compiled q h2 (true, e) (by simp) rfl h1.symm, hp.base, hp.old, ?_, ?_⟩
      · exact hp.harmless.imp id fun h l hl c hc => h l hl c (by simp [hc])
      · exact fun q hq c hc => hp.compiled q hq c (by simp [hc])
    | none =>
      set G : SmoothedArgs → Prop := fun e' =>
        smoothedSignature e' = smoothedSignature e ∧ (true, e') ∈ (true, e) :: rest with hGd
      have hval : ∀ e', G e' → ∃ v, (Smoothed.call .jax s e'.1 e'.2).1 = .ok v :=
        fun e' h => hok (true, e') h.2 rfl
      choose! v hv using hval
      obtain ⟨h1, h2, h3, h4, f, h5, h6⟩ := callCompiled_new (G := G) (v := v) hf hp.old
        ⟨rfl, by simp⟩ (fun e' h => ⟨h.1, hnd (true, e') h.2⟩)
        (fun e' h => (hnew (true, e') h.2).trans (hv e' h))
      refine ⟨h1.trans (hv e ⟨rfl, by simp⟩).symm, h2.trans hp.base, ?_, ?_, ?_⟩
      · rw [h4]
        exact old_succ hp.old h3
      · refine hp.harmless.imp id fun h l hl c hc => ?_
        rcases h3 with h3 | ⟨f, g, h3⟩
        · rw [h3] at hl; exact h l hl c (by simp [hc])
        · rw [h3] at hl; cases hl
      · rw [h5]
        intro q hq c hc hjit hsig
        rcases List.mem_cons.1 hq with rfl | hq
        · have hG' : G c.2 := by
            refine ⟨hsig, ?_⟩
            rw [← hjit]
            simp [hc]
          show f c.2 = _
          rw [h6 c.2 hG', hv c.2 hG']
        · exact hp.compiled q hq c (by simp [hc]) hjit hsig

/-- **C99, proved part.** For every class of smoothed mass models: every call, compiled or not, returns
what an ordinary call of a new instance returns, if the instance does not cache or every dataset of an
*ordinary* call is harmless for all later calls (has the same masses, or a length that cannot be
combined; see C24). For compiled calls an ordinary call must not raise. Missing is an ordinary call
followed by calls on other datasets of the same length; see `C99_snapshot_partial` and `C99_fails`. -/
theorem C99_mixed_partial {primary : Primary} {fixed : Dict Fl} {selfMin selfMax : ℝ} {nM nQ : ℕ}
    {cache : Bool} {s : Smoothed} (hs : Smoothed.init primary fixed selfMin selfMax nM nQ cache = .ok s)
    (hist : List (Bool × SmoothedArgs)) (hnd : ∀ c ∈ hist, (Dict.keys c.2.2).Nodup)
    (hok : ∀ c ∈ hist, c.1 = true → ∃ v, (Smoothed.call .jax s c.2.1 c.2.2).1 = .ok v)
    (hpair : cache = false ∨ hist.Pairwise fun c c' => c.1 = false →
      Harmless .jax (c.2.1.map Prod.fst) (c'.2.1.map Prod.fst)) :
    (massProcess s).outcomes hist = hist.map fun c => (Smoothed.call .jax s c.2.1 c.2.2).1 := by
  obtain ⟨-, -, hs⟩ := init_inv hs
  have hq : s.qMasses = none := by rw [hs]
  have hcache : s.cache = cache := by rw [hs]
  have : ∀ (hist : List (Bool × SmoothedArgs)) (p : SmoothedProcess),
      (∀ c ∈ hist, (Dict.keys c.2.2).Nodup) →
      (∀ c ∈ hist, c.1 = true → ∃ v, (Smoothed.call .jax s c.2.1 c.2.2).1 = .ok v) →
      (cache = false ∨ hist.Pairwise fun c c' => c.1 = false →
        Harmless .jax (c.2.1.map Prod.fst) (c'.2.1.map Prod.fst)) →
      Serves s p hist →
      p.outcomes hist = hist.map fun c => (Smoothed.call .jax s c.2.1 c.2.2).1 := by
    intro hist
    induction hist with
    | nil => intro p _ _ _ _; rfl
    | cons c hist ih =>
      obtain ⟨jit, e⟩ := c
      intro p hnd hok hpair hp
      obtain ⟨h1, h2⟩ := serves_step hq hp hnd hok fun hj => by
        rcases hpair with h | h
        · exact Or.inl (hcache.trans h)
        · exact Or.inr fun c hc => (List.pairwise_cons.1 h).1 c hc hj
      unfold SmoothedProcess.outcomes
      rw [List.map_cons, h1, ih _ (fun c hc => hnd c (by simp [hc])) (fun c hc => hok c (by simp [hc]))
        (hpair.imp id fun h => (List.pairwise_cons.1 h).2) h2]
  refine this hist _ hnd hok hpair ⟨rfl, ?_, Or.inr ?_, ?_⟩
  · intro x y h; cases h
  · intro l hl; cases hl
  · intro q hq; cases hq

/-- **C99, proved part.** If all calls are compiled they all return what a new instance returns, on
any datasets and parameters: the stale norms of C24 do not occur. -/
theorem C99_compiled_partial {primary : Primary} {fixed : Dict Fl} {selfMin selfMax : ℝ} {nM nQ : ℕ}
    {cache : Bool} {s : Smoothed} (hs : Smoothed.init primary fixed selfMin selfMax nM nQ cache = .ok s)
    (hist : List SmoothedArgs) (hnd : ∀ e ∈ hist, (Dict.keys e.2).Nodup)
    (hok : ∀ e ∈ hist, ∃ v, (Smoothed.call .jax s e.1 e.2).1 = .ok v) :
    (massProcess s).outcomes (hist.map fun e => (true, e)) =
      hist.map fun e => (Smoothed.call .jax s e.1 e.2).1 := by
  rw [C99_mixed_partial hs, List.map_map]
  · rfl
  · rintro c hc
    obtain ⟨e, he, rfl⟩ := List.mem_map.1 hc
    exact hnd e he
  · rintro c hc -
    obtain ⟨e, he, rfl⟩ := List.mem_map.1 hc
    exact hok e he
  · right
    rw [List.pairwise_map]
    exact List.Pairwise.imp_of_mem (R := fun _ _ => True) (fun _ _ _ h => by cases h)
      (List.pairwise_of_forall fun _ _ => trivial)

/-! ### The state at the time of the trace is kept for ever -/

theorem run_append (p : SmoothedProcess) (h h' : List (Bool × SmoothedArgs)) :
    p.run (h ++ h') = (p.run h).run h' := by
  induction h generalizing p with
  | nil => rfl
  | cons c h ih => exact ih _

theorem run_eager {s : Smoothed} (pre : List SmoothedArgs) (p : SmoothedProcess)
    (hb : p.model.base = s) (hk : p.model.interpolant = none ∨ ∃ l,
      p.model.interpolant = some (.known (), .known l)) :
    (p.run (pre.map fun e => (false, e))).model.forget = Smoothed.runCalls .jax p.model.forget pre ∧
      (p.run (pre.map fun e => (false, e))).model.base = s ∧
      ((p.run (pre.map fun e => (false, e))).model.interpolant = none ∨ ∃ l,
        (p.run (pre.map fun e => (false, e))).model.interpolant = some (.known (), .known l)) ∧
      (p.run (pre.map fun e => (false, e))).compiled = p.compiled := by
  induction pre generalizing p with
  | nil => exact ⟨rfl, hb, hk, rfl⟩
  | cons e pre ih =>
    obtain ⟨-, h2, h3, h4, h5, h6⟩ := callEager_smoothed p e
    have := ih (p.callEager e).2 (h4.trans hb) (by
      rcases h3 with h3 | ⟨l, h3⟩
      · rw [h3]; exact hk
      · exact Or.inr ⟨l, h3⟩)
    rw [h2, h5] at this
    exact this

theorem find?_callCompiled {p : SmoothedProcess} {e : SmoothedArgs} {sig : ℕ × List String}
    {q : (ℕ × List String) × (SmoothedArgs → Except PyErr (List Fl))}
    (h : p.compiled.find? (fun q => q.1 = sig) = some q) :
    (p.callCompiled e).2.compiled.find? (fun q => q.1 = sig) = some q := by
  unfold SmoothedProcess.callCompiled
  cases hf : p.compiled.find? (fun q => q.1 = smoothedSignature e) with
  | some q' => exact h
  | none =>
    have hne : smoothedSignature e ≠ sig := by
      rintro rfl
      rw [hf] at h; cases h
    simp only
    generalize p.model.call (.tracing p.traces e) (.tracer p.traces fun e => .ok e.1)
      (e.2.map fun q => (q.1, .tracer p.traces fun e => Dict.get e.2 q.1)) = r
    cases (r.1 >>= Staged.read (.tracing p.traces e)) with
    | error err => exact h
    | ok f =>
      show List.find? _ ((smoothedSignature e, f) :: p.compiled) = _
      rw [List.find?_cons_of_neg (by simpa using hne)]
      exact h

/-- A recorded computation is never replaced. -/
theorem find?_run (hist : List (Bool × SmoothedArgs)) (p : SmoothedProcess) {sig : ℕ × List String}
    {q : (ℕ × List String) × (SmoothedArgs → Except PyErr (List Fl))}
    (h : p.compiled.find? (fun q => q.1 = sig) = some q) :
    (p.run hist).compiled.find? (fun q => q.1 = sig) = some q := by
  induction hist generalizing p with
  | nil => exact h
  | cons c hist ih =>
    obtain ⟨jit, e⟩ := c
    refine ih _ ?_
    cases jit with
    | false => exact h
    | true => exact find?_callCompiled h

/-- **C99, what happens otherwise.** Let any ordinary calls be made on a new instance, then the first
compiled call with a certain signature, then any calls. A further compiled call with that signature
returns what an ordinary call would have returned right after the ordinary calls at the beginning: the
norms that the instance held at the time of the trace are part of the compiled function for ever. -/
theorem C99_snapshot_partial {primary : Primary} {fixed : Dict Fl} {selfMin selfMax : ℝ} {nM nQ : ℕ}
    {cache : Bool} {s : Smoothed} (hs : Smoothed.init primary fixed selfMin selfMax nM nQ cache = .ok s)
    (pre : List SmoothedArgs) (first : SmoothedArgs) (hist : List (Bool × SmoothedArgs))
    (next : SmoothedArgs) (hsig : smoothedSignature next = smoothedSignature first)
    (hnd : (Dict.keys first.2).Nodup)
    (hfirst : ∃ v, (Smoothed.call .jax (Smoothed.runCalls .jax s pre) first.1 first.2).1 = .ok v)
    (hnext : ∃ v, (Smoothed.call .jax (Smoothed.runCalls .jax s pre) next.1 next.2).1 = .ok v) :
    (((massProcess s).run (pre.map (fun e => (false, e)) ++ (true, first) :: hist)).step true next).1 =
      (Smoothed.call .jax (Smoothed.runCalls .jax s pre) next.1 next.2).1 := by
  obtain ⟨-, -, hs⟩ := init_inv hs
  have hq : s.qMasses = none := by rw [hs]
  obtain ⟨h1, h2, h3, h4⟩ := run_eager pre (massProcess s) (s := s) rfl (Or.inl rfl)
  set p := (massProcess s).run (pre.map fun e => (false, e)) with hp
  have hforget : (massProcess s).model.forget = s := by
    show ({ s with qMasses := none } : Smoothed) = s
    rw [← hq]
  rw [hforget] at h1
  have hold : StagedSmoothed.Old p.traces p.model.interpolant := by
    rintro x y hxy
    rcases h3 with h | ⟨l, h⟩
    · rw [h] at hxy; cases hxy
    · rw [h] at hxy; cases hxy; exact Or.inl ⟨l, rfl, rfl⟩
  set G : SmoothedArgs → Prop := fun e => e = first ∨ e = next with hG
  have hval : ∀ e, G e → ∃ v, (Smoothed.call .jax p.model.forget e.1 e.2).1 = .ok v := by
    rintro e (rfl | rfl)
    · rw [h1]; exact hfirst
    · rw [h1]; exact hnext
  choose! v hv using hval
  have hkeys : Dict.keys next.2 = Dict.keys first.2 := congrArg Prod.snd hsig
  obtain ⟨-, -, -, -, f, h5, h6⟩ := callCompiled_new (p := p) (G := G) (v := v) (e₀ := first)
    (by rw [h4]; rfl) hold (Or.inl rfl)
    (by rintro e (rfl | rfl)
        · exact ⟨rfl, hnd⟩
        · exact ⟨hsig, by rw [hkeys]; exact hnd⟩) hv
  have hrun : (massProcess s).run (pre.map (fun e => (false, e)) ++ (true, first) :: hist) =
      (p.callCompiled first).2.run hist := by
    rw [run_append]
    rfl
  have hfind : ((p.callCompiled first).2.run hist).compiled.find?
      (fun q => q.1 = smoothedSignature next) = some (smoothedSignature first, f) := by
    apply find?_run
    rw [h5, List.find?_cons_of_pos (by simpa using hsig.symm)]
  rw [hrun]
  show (((p.callCompiled first).2.run hist).callCompiled next).1 = _
  rw [callCompiled_found hfind]
  show f next = _
  rw [h6 next (Or.inr rfl), ← hv next (Or.inr rfl), h1]

theorem outcomes_append (p : SmoothedProcess) (h : List (Bool × SmoothedArgs)) (c : Bool × SmoothedArgs) :
    p.outcomes (h ++ [c]) = p.outcomes h ++ [((p.run h).step c.1 c.2).1] := by
  induction h generalizing p with
  | nil => rfl
  | cons a h ih =>
    obtain ⟨jit, e⟩ := a
    exact congrArg _ (ih _)

theorem staleKw_nodup : (Dict.keys staleKw).Nodup := by decide

/-- **C99 fails**: after an ordinary call at one mass, a compiled function is wrong at another one. -/
theorem C99_fails : ¬ C99_statement := by
  intro h
  have hs : singlePeak false 1 3 2 2 true = .ok staleInst := init_ok _ _ _ _ _ le_rfl le_rfl
  obtain ⟨v1, v2, v3, c1, c2, c3, hne⟩ := stale_values .jax
  have hrun : Smoothed.runCalls .jax staleInst [([(fin 3, fin 1)], staleKw)] =
      Smoothed.cacheQNorms staleInst [fin 3] := by
    show (Smoothed.call .jax staleInst [(fin 3, fin 1)] staleKw).2 = _
    rw [c1]
  have h := h false 1 3 2 2 true staleInst hs
    ([(false, [(fin 3, fin 1)], staleKw), (true, [(fin 2.5, fin 1)], staleKw)] ++
      [(true, [(fin 2.5, fin 1)], staleKw)]) (by
        intro c hc
        simp only [List.cons_append, List.nil_append, List.mem_cons, List.not_mem_nil, or_false] at hc
        rcases hc with rfl | rfl | rfl <;> exact staleKw_nodup)
  have hsnap := C99_snapshot_partial hs [([(fin 3, fin 1)], staleKw)] ([(fin 2.5, fin 1)], staleKw) []
    ([(fin 2.5, fin 1)], staleKw) rfl staleKw_nodup (by rw [hrun]; exact ⟨v3, c3⟩)
    (by rw [hrun]; exact ⟨v3, c3⟩)
  rw [hrun] at hsnap
  rw [outcomes_append, List.map_append] at h
  have h := (List.append_inj' h rfl).2
  simp only [List.map_cons, List.map_nil, List.cons.injEq, and_true] at h
  have h := hsnap.symm.trans h
  rw [c3, c2] at h
  exact hne (Except.ok.inj h).symm

/-- The hypotheses of `C99_mixed_partial` hold for a mixed history that ends with an ordinary call. -/
example (s : Smoothed) (hs : singlePeak false 1 3 2 2 true = .ok s) :
    (massProcess s).outcomes [(true, [(fin 3, fin 1)], staleKw), (true, [(fin 2.5, fin 1)], staleKw),
      (false, [(fin 2.5, fin 1)], staleKw)] =
    [(Smoothed.call .jax s [(fin 3, fin 1)] staleKw).1, (Smoothed.call .jax s [(fin 2.5, fin 1)] staleKw).1,
      (Smoothed.call .jax s [(fin 2.5, fin 1)] staleKw).1] := by
  have hs' : s = staleInst := by
    have : singlePeak false 1 3 2 2 true = .ok staleInst := init_ok _ _ _ _ _ le_rfl le_rfl
    rw [this] at hs
    exact (Except.ok.inj hs).symm
  obtain ⟨v1, v2, v3, c1, c2, c3, hne⟩ := stale_values .jax
  refine C99_mixed_partial hs _ ?_ ?_ (Or.inr (by simp))
  · intro c hc
    simp only [List.mem_cons, List.not_mem_nil, or_false] at hc
    rcases hc with rfl | rfl | rfl <;> exact staleKw_nodup
  · intro c hc hj
    simp only [List.mem_cons, List.not_mem_nil, or_false] at hc
    subst hs'
    rcases hc with rfl | rfl | rfl
    · exact ⟨v1, by rw [c1]⟩
    · exact ⟨v2, c2⟩
    · exact ⟨v2, c2⟩

end GW
