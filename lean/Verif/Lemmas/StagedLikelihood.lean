import Verif.Model.JitLikelihood
import Verif.Lemmas.StagedSmoothed

/-!
# Lemmas for likelihoods under `jax.jit`
-/

noncomputable section

open Classical

namespace GW

open Fl Staged

namespace Spec

/-- The product of `p` and the values of the functions of a population model. -/
def populationFrom (ops : OutOps Mat) (data : Dict Mat) (θ : Dict Fl) :
    List PlainFn → Mat → Except PyErr Mat
  | [], p => .ok p
  | f :: fs, p => do
    let vals ← f.names.mapM fun k => Dict.get θ k
    let q ← f.call data vals
    let p ← ops.mul p q
    populationFrom ops data θ fs p

/-- The population probability: the product of the values of the functions. -/
def population (ops : OutOps Mat) (fns : List PlainFn) (data : Dict Mat) (θ : Dict Fl) :
    Except PyErr Mat :=
  populationFrom ops data θ fns ops.one

/-- What `log_likelihood_ratio` of a likelihood with the attributes of `L` and the functions `fns` returns
right after construction, without `jax.jit`. -/
def freshRatio (ops : OutOps Mat) (L : Likelihood) (fns : List PlainFn) (θ : Dict Fl) :
    Except PyErr Fl :=
  Likelihood.logLikelihoodRatio { L with hyperPrior := ⟨L.hyperPrior.models, population ops fns⟩ } θ

end Spec

open Spec

theorem freshRatio_eq (ops : OutOps Mat) (L : Likelihood) (fns : List PlainFn) (θ : Dict Fl) :
    freshRatio ops L fns θ = (do
      let θ' ← L.conversion θ
      let p ← population ops fns L.data θ'
      L.ratioFrom θ' p) := by
  unfold freshRatio Likelihood.ratioFrom Likelihood.logLikelihoodRatio Likelihood.lnLikelihoodAndVariance
    Likelihood.lnLikelihoodAndVarianceBase Likelihood.perEvent Likelihood.weights
  simp only [bind_assoc, ok_bind]
  rfl

/-! ### Ordinary evaluation -/

theorem mapM_op_eager {E : Type} (θ : Dict Fl) (names : List String) :
    (names.mapM fun k => Staged.op (.eager : Ctx E) (fun d => Dict.get d k) (.known θ)) =
      (names.mapM fun k => Dict.get θ k).map (fun l => l.map Staged.known) := by
  induction names with
  | nil => rfl
  | cons k ks ih =>
    rw [List.mapM_cons, List.mapM_cons, ih]
    show ((Dict.get θ k >>= fun b => _) >>= _) = _
    cases Dict.get θ k with
    | error e => rfl
    | ok v =>
      simp only [ok_bind, pure_eq_ok]
      cases ks.mapM fun k => Dict.get θ k <;> rfl

theorem apply_eager {E : Type} (f : PlainFn) (data : Dict Mat) (vals : List Fl) :
    f.apply (.eager : Ctx E) data (vals.map .known) = (f.call data vals).map .known := by
  unfold PlainFn.apply
  rw [list_eager, ok_bind]
  show (f.call data vals >>= fun b => _) = _
  cases f.call data vals <;> rfl

theorem multiply_eager {E : Type} (ops : OutOps Mat) (p q : Mat) :
    multiply (.eager : Ctx E) ops (.known p) (.known q) = (ops.mul p q).map .known := by
  unfold multiply
  show (Staged.op (.eager : Ctx E) (fun a : Mat × Mat => ops.mul a.1 a.2) (.known (p, q))) = _
  show (ops.mul p q >>= fun b => _) = _
  cases ops.mul p q <;> rfl

/-- Entries that hold no tracers and belong to the functions of the model. -/
def KnownEntries {E : Type} (data : Dict Mat) (fns : List (ℕ × PlainFn)) (entries : StagedEntries E) :
    Prop :=
  ∀ i f vals q, (i, f) ∈ fns → entries i = some (vals, q) →
    ∃ vs w, vals = vs.map .known ∧ q = .known w ∧ vs.length = f.names.length ∧ f.call data vs = .ok w

theorem eqf_eq {a b : Fl} (h : eqf a b) : a = b := by
  cases a <;> cases b <;> simp_all [eqf]

theorem sameParameters_known {E : Type} (xs ys : List Fl) (h : xs.length = ys.length) :
    ∃ b, sameParameters (E := E) (xs.map .known) (ys.map .known) = .ok b ∧ (b = true → xs = ys) := by
  induction xs generalizing ys with
  | nil =>
    cases ys with
    | nil => exact ⟨true, rfl, fun _ => rfl⟩
    | cons y ys => simp at h
  | cons x xs ih =>
    cases ys with
    | nil => simp at h
    | cons y ys =>
      obtain ⟨b, hb, hbe⟩ := ih ys (by simpa using h)
      show ∃ b, (if eqf x y then sameParameters (E := E) (xs.map .known) (ys.map .known)
        else .ok false) = .ok b ∧ _
      by_cases hxy : eqf x y
      · rw [if_pos hxy]
        exact ⟨b, hb, fun h => by rw [eqf_eq hxy, hbe h]⟩
      · rw [if_neg hxy]
        exact ⟨false, rfl, fun h => by cases h⟩

theorem lookup_known {E : Type} {data : Dict Mat} {fns : List (ℕ × PlainFn)} {entries : StagedEntries E}
    (cache : Bool) (h : cache = false ∨ KnownEntries data fns entries) {i : ℕ} {f : PlainFn}
    (hi : (i, f) ∈ fns) (vals : List Fl) (hl : vals.length = f.names.length) :
    StagedModel.lookup cache entries i (vals.map .known) = .ok none ∨
      ∃ w, StagedModel.lookup cache entries i (vals.map .known) = .ok (some (.known w)) ∧
        f.call data vals = .ok w := by
  unfold StagedModel.lookup
  cases cache with
  | false => exact Or.inl rfl
  | true =>
    rw [if_pos rfl]
    have h : KnownEntries data fns entries := by rcases h with h | h; · cases h
                                                 · exact h
    cases he : entries i with
    | none => exact Or.inl rfl
    | some r =>
      obtain ⟨vals', q⟩ := r
      obtain ⟨vs, w, rfl, rfl, hlen, hw⟩ := h i f vals' q hi he
      obtain ⟨b, hb, hbe⟩ := sameParameters_known (E := E) vs vals (hlen.trans hl.symm)
      simp only [hb, ok_bind]
      cases b with
      | false => exact Or.inl rfl
      | true => exact Or.inr ⟨w, rfl, by rw [← hbe rfl]; exact hw⟩

/-- The loop in ordinary Python, on entries without tracers. -/
theorem loop_eager {E : Type} (ops : OutOps Mat) (cache : Bool) (data : Dict Mat) (θ : Dict Fl)
    (all : List (ℕ × PlainFn)) (hnd : (all.map Prod.fst).Nodup) (l : List (ℕ × PlainFn))
    (hsub : l ⊆ all) (p : Mat) (entries : StagedEntries E)
    (h : cache = false ∨ KnownEntries data all entries) :
    (stagedProbLoop .eager ops cache data (.known θ) l (.known p) entries).1 =
        (populationFrom ops data θ (l.map Prod.snd) p).map .known ∧
      (cache = false ∨ KnownEntries data all
        (stagedProbLoop .eager ops cache data (.known θ) l (.known p) entries).2) := by
  induction l generalizing p entries with
  | nil => exact ⟨rfl, h⟩
  | cons a l ih =>
    obtain ⟨i, f⟩ := a
    have hi : (i, f) ∈ all := hsub (by simp)
    have hsub' : l ⊆ all := fun x hx => hsub (by simp [hx])
    unfold stagedProbLoop
    rw [mapM_op_eager, List.map_cons]
    unfold populationFrom
    cases hv : f.names.mapM fun k => Dict.get θ k with
    | error e => exact ⟨rfl, h⟩
    | ok vals =>
      have hmap : (Except.ok vals : Except PyErr (List Fl)).map (fun l => l.map (Staged.known (E := E))) =
        .ok (vals.map .known) := rfl
      rw [hmap]
      simp only [ok_bind]
      have hlen := mapM_length hv
      rcases lookup_known cache h hi vals hlen with hl | ⟨w, hl, hw⟩
      · rw [hl, apply_eager]
        cases hc : f.call data vals with
        | error e => exact ⟨rfl, h⟩
        | ok q =>
          have hmap : (Except.ok q : Except PyErr Mat).map (Staged.known (E := E)) = .ok (.known q) := rfl
          simp only [hmap, ok_bind, multiply_eager]
          set entries' : StagedEntries E := if cache = true then
            fun j => if j = i then some (vals.map .known, .known q) else entries j else entries with he
          have hent : cache = false ∨ KnownEntries data all entries' := by
            cases cache with
            | false => exact Or.inl rfl
            | true =>
              right
              have h : KnownEntries data all entries := by rcases h with h | h; · cases h
                                                           · exact h
              intro j g vals' q' hj hq
              simp only [he, if_true] at hq
              by_cases hji : j = i
              · subst hji
                rw [if_pos rfl] at hq
                cases hq
                have : g = f := by
                  have := List.inj_on_of_nodup_map hnd hj hi rfl
                  exact congrArg Prod.snd this
                subst this
                exact ⟨vals, q, rfl, rfl, hlen, hc⟩
              · rw [if_neg hji] at hq
                exact h j g vals' q' hj hq
          cases hm : ops.mul p q with
          | error e => exact ⟨rfl, hent⟩
          | ok p' => exact ih hsub' p' entries' hent
      · rw [hl, hw]
        simp only [ok_bind, multiply_eager]
        cases hm : ops.mul p w with
        | error e => exact ⟨rfl, h⟩
        | ok p' => exact ih hsub' p' entries h

theorem numbered_fst {E : Type} (m : StagedModel E) :
    m.numbered.map Prod.fst = List.range m.functions.length := by
  unfold StagedModel.numbered
  rw [List.map_fst_zip (by simp)]

theorem numbered_snd {E : Type} (m : StagedModel E) : m.numbered.map Prod.snd = m.functions := by
  unfold StagedModel.numbered
  rw [List.map_snd_zip (by simp)]

theorem numbered_nodup {E : Type} (m : StagedModel E) : (m.numbered.map Prod.fst).Nodup := by
  rw [numbered_fst]
  exact List.nodup_range

/-- `log_likelihood_ratio` in ordinary Python returns what a new likelihood returns, on a model without
tracers. -/
theorem stagedRatio_eager {E : Type} (ops : OutOps Mat) (L : Likelihood) (m : StagedModel E)
    (θ : Dict Fl) (h : m.cache = false ∨ KnownEntries L.data m.numbered m.entries) :
    (stagedRatio .eager ops L m (.known θ)).1 = (freshRatio ops L m.functions θ).map .known ∧
      (stagedRatio .eager ops L m (.known θ)).2.functions = m.functions ∧
      (stagedRatio .eager ops L m (.known θ)).2.cache = m.cache ∧
      (m.cache = false ∨ KnownEntries L.data m.numbered
        (stagedRatio .eager ops L m (.known θ)).2.entries) := by
  rw [freshRatio_eq]
  unfold stagedRatio
  cases hc : L.conversion θ with
  | error e =>
    have : Staged.op (.eager : Ctx E) L.conversion (.known θ) = .error e := by
      show (L.conversion θ >>= fun b => _) = _
      rw [hc]; rfl
    rw [this]
    exact ⟨rfl, rfl, rfl, h⟩
  | ok θ' =>
    have : Staged.op (.eager : Ctx E) L.conversion (.known θ) = .ok (.known θ') := by
      show (L.conversion θ >>= fun b => _) = _
      rw [hc]; rfl
    rw [this]
    simp only [ok_bind]
    have hloop := loop_eager ops m.cache L.data θ' m.numbered (numbered_nodup m) m.numbered
      (fun _ h => h) ops.one m.entries h
    rw [numbered_snd] at hloop
    unfold StagedModel.prob population
    generalize stagedProbLoop .eager ops m.cache L.data (.known θ') m.numbered (.known ops.one)
      m.entries = r at hloop ⊢
    obtain ⟨r1, r2⟩ := r
    obtain ⟨h1, h2⟩ := hloop
    simp only at h1 h2
    subst h1
    cases hp : populationFrom ops L.data θ' m.functions ops.one with
    | error e => exact ⟨rfl, rfl, rfl, h2⟩
    | ok p =>
      refine ⟨?_, rfl, rfl, h2⟩
      show (Staged.op (.eager : Ctx E) (fun a : Dict Fl × Mat => L.ratioFrom a.1 a.2)
        (.known (θ', p))) = _
      rw [ok_bind]
      show (L.ratioFrom θ' p >>= fun b => _) = _
      cases L.ratioFrom θ' p <;> rfl

/-! ### Tracing -/

theorem mapM_op_sim {E : Type} {c : Ctx E} {G : E → Prop} (hc : CtxOk c G) {Θ : Staged E (Dict Fl)}
    {θ : E → Dict Fl} (hΘ : Sim c G Θ θ) (names : List String) {as : E → List Fl}
    (ha : ∀ e, G e → (names.mapM fun k => Dict.get (θ e) k) = .ok (as e)) :
    ∃ xs z, (names.mapM fun k => Staged.op c (fun d => Dict.get d k) Θ) = .ok xs ∧
      list c xs = .ok z ∧ Sim c G z as := by
  induction names generalizing as with
  | nil =>
    refine ⟨[], _, rfl, by unfold list; rfl, sim_known' fun e he => ?_⟩
    have := ha e he
    rw [List.mapM_nil, pure_eq_ok] at this
    exact (Except.ok.inj this).symm
  | cons k ks ih =>
    have hinv : ∀ e, G e → ∃ a l, Dict.get (θ e) k = .ok a ∧
        (ks.mapM fun k => Dict.get (θ e) k) = .ok l ∧ as e = a :: l := by
      intro e he
      have := ha e he
      rw [List.mapM_cons, bind_eq_ok] at this
      obtain ⟨a, h1, h2⟩ := this
      rw [bind_eq_ok] at h2
      obtain ⟨l, h2, h3⟩ := h2
      rw [pure_eq_ok] at h3
      exact ⟨a, l, h1, h2, (Except.ok.inj h3).symm⟩
    choose! a l h1 h2 h3 using hinv
    obtain ⟨x, hx, hxa⟩ := op_sim hc hΘ (fun d => Dict.get d k) a h1
    obtain ⟨xs, z, hxs, hz, hza⟩ := ih h2
    refine ⟨x :: xs, ?_⟩
    have hm : ((k :: ks).mapM fun k => Staged.op c (fun d => Dict.get d k) Θ) = .ok (x :: xs) := by
      rw [List.mapM_cons, hx, ok_bind, hxs]
      rfl
    obtain ⟨b, hb, hbs⟩ := pair_sim hxa hza
    cases c with
    | eager =>
      cases x with
      | tracer t g => exact hxa.elim
      | known a' =>
        cases z with
        | tracer t g => exact hza.elim
        | known b' =>
          refine ⟨.known (a' :: b'), hm, ?_, fun e he => ?_⟩
          · unfold list
            rw [hz]
            rfl
          · rw [h3 e he, hxa e he, hza e he]
    | tracing t e₀ =>
      obtain ⟨f, hf, hfa⟩ := read_sim hxa
      obtain ⟨g, hg, hgb⟩ := read_sim hza
      refine ⟨.tracer t fun e => do let a ← f e; let as ← g e; return a :: as, hm, ?_, rfl,
        fun e he => ?_⟩
      · unfold list
        rw [hz]
        simp only [ok_bind, hf, hg]
        rfl
      · simp only [hfa e he, hgb e he, ok_bind, h3 e he]
        rfl

theorem lookup_none {E : Type} {cache : Bool} {entries : StagedEntries E} {i : ℕ}
    (h : cache = false ∨ entries i = none) (vals : List (Staged E Fl)) :
    StagedModel.lookup cache entries i vals = .ok none := by
  unfold StagedModel.lookup
  cases cache with
  | false => rfl
  | true =>
    rcases h with h | h
    · cases h
    · rw [if_pos rfl, h]

theorem loop_sim {E : Type} {c : Ctx E} {G : E → Prop} (hc : CtxOk c G) (ops : OutOps Mat) (cache : Bool)
    (data : Dict Mat) {Θ : Staged E (Dict Fl)} {θ : E → Dict Fl} (hΘ : Sim c G Θ θ)
    (l : List (ℕ × PlainFn)) (entries : StagedEntries E)
    (hnone : cache = false ∨ ((l.map Prod.fst).Nodup ∧ ∀ a ∈ l, entries a.1 = none))
    {P : Staged E Mat} {p : E → Mat} (hP : Sim c G P p) {v : E → Mat}
    (hv : ∀ e, G e → populationFrom ops data (θ e) (l.map Prod.snd) (p e) = .ok (v e)) :
    ∃ Y, (stagedProbLoop c ops cache data Θ l P entries).1 = .ok Y ∧ Sim c G Y v := by
  induction l generalizing entries P p with
  | nil => exact ⟨P, rfl, hP.congr fun e he => Except.ok.inj (hv e he)⟩
  | cons a l ih =>
    obtain ⟨i, f⟩ := a
    have hinv : ∀ e, G e → ∃ vals q p', (f.names.mapM fun k => Dict.get (θ e) k) = .ok vals ∧
        f.call data vals = .ok q ∧ ops.mul (p e) q = .ok p' ∧
        populationFrom ops data (θ e) (l.map Prod.snd) p' = .ok (v e) := by
      intro e he
      have := hv e he
      rw [List.map_cons] at this
      unfold populationFrom at this
      rw [bind_eq_ok] at this
      obtain ⟨vals, h1, h2⟩ := this
      rw [bind_eq_ok] at h2
      obtain ⟨q, h2, h3⟩ := h2
      rw [bind_eq_ok] at h3
      obtain ⟨p', h3, h4⟩ := h3
      exact ⟨vals, q, p', h1, h2, h3, h4⟩
    choose! vals q p' h1 h2 h3 h4 using hinv
    obtain ⟨xs, z, hxs, hz, hzs⟩ := mapM_op_sim hc hΘ f.names h1
    obtain ⟨y, hy, hys⟩ := op_sim hc hzs (f.call data) q h2
    obtain ⟨b, hb, hbs⟩ := pair_sim hP hys
    obtain ⟨P', hP', hPs⟩ := op_sim hc hbs (fun a => ops.mul a.1 a.2) p' h3
    unfold stagedProbLoop
    rw [hxs]
    simp only
    rw [lookup_none (hnone.imp id fun h => h.2 (i, f) (by simp))]
    have happ : f.apply c data xs = .ok y := by
      unfold PlainFn.apply
      rw [hz, ok_bind, hy]
    have hmul : multiply c ops P y = .ok P' := by
      unfold multiply
      rw [hb, ok_bind, hP']
    simp only [happ, hmul]
    apply ih _ _ hPs h4
    rcases hnone with h | ⟨hnd, h⟩
    · exact Or.inl h
    · right
      rw [List.map_cons, List.nodup_cons] at hnd
      refine ⟨hnd.2, fun a ha => ?_⟩
      cases cache with
      | false => exact h a (by simp [ha])
      | true =>
        have hne : a.1 ≠ i := fun hai => hnd.1 (List.mem_map.2 ⟨a, ha, hai⟩)
        simp only [if_true, if_neg hne]
        exact h a (by simp [ha])

/-- Without a cache the entries are not written. -/
theorem loop_entries {E : Type} (c : Ctx E) (ops : OutOps Mat) (data : Dict Mat)
    (Θ : Staged E (Dict Fl)) (l : List (ℕ × PlainFn)) (P : Staged E Mat) (entries : StagedEntries E) :
    (stagedProbLoop c ops false data Θ l P entries).2 = entries := by
  induction l generalizing P with
  | nil => rfl
  | cons a l ih =>
    obtain ⟨i, f⟩ := a
    unfold stagedProbLoop
    cases f.names.mapM fun k => Staged.op c (fun d => Dict.get d k) Θ with
    | error e => rfl
    | ok vals =>
      simp only [lookup_none (E := E) (cache := false) (Or.inl rfl)]
      cases f.apply c data vals with
      | error e => rfl
      | ok q =>
        simp only
        cases multiply c ops P q with
        | error e => rfl
        | ok P' => exact ih P'

theorem stagedRatio_functions {E : Type} (c : Ctx E) (ops : OutOps Mat) (L : Likelihood)
    (m : StagedModel E) (Θ : Staged E (Dict Fl)) :
    (stagedRatio c ops L m Θ).2.functions = m.functions ∧
      (stagedRatio c ops L m Θ).2.cache = m.cache := by
  unfold stagedRatio
  cases Staged.op c L.conversion Θ with
  | error e => exact ⟨rfl, rfl⟩
  | ok θ' =>
    unfold StagedModel.prob
    simp only
    generalize stagedProbLoop c ops m.cache L.data θ' m.numbered (.known ops.one) m.entries = r
    obtain ⟨r1, r2⟩ := r
    cases r1 <;> exact ⟨rfl, rfl⟩

/-- A trace of `log_likelihood_ratio` records what an ordinary evaluation of a new likelihood returns. -/
theorem stagedRatio_sim {E : Type} {c : Ctx E} {G : E → Prop} (hc : CtxOk c G) (ops : OutOps Mat)
    (L : Likelihood) (m : StagedModel E) {Θ : Staged E (Dict Fl)} {θ : E → Dict Fl} (hΘ : Sim c G Θ θ)
    (hnone : m.cache = false ∨ ∀ i, m.entries i = none) {v : E → Fl}
    (hv : ∀ e, G e → freshRatio ops L m.functions (θ e) = .ok (v e)) :
    ∃ Y, (stagedRatio c ops L m Θ).1 = .ok Y ∧ Sim c G Y v := by
  have hinv : ∀ e, G e → ∃ θ' p, L.conversion (θ e) = .ok θ' ∧
      populationFrom ops L.data θ' (m.numbered.map Prod.snd) ops.one = .ok p ∧
      L.ratioFrom θ' p = .ok (v e) := by
    intro e he
    have := hv e he
    rw [freshRatio_eq, bind_eq_ok] at this
    obtain ⟨θ', h1, h2⟩ := this
    rw [bind_eq_ok] at h2
    obtain ⟨p, h2, h3⟩ := h2
    rw [numbered_snd]
    exact ⟨θ', p, h1, h2, h3⟩
  have : Nonempty Mat := ⟨[]⟩
  choose! θ' p h1 h2 h3 using hinv
  obtain ⟨Θ', hΘ', hΘs⟩ := op_sim hc hΘ L.conversion θ' h1
  obtain ⟨P, hP, hPs⟩ := loop_sim hc ops m.cache L.data hΘs m.numbered m.entries
    (hnone.imp id fun h => ⟨numbered_nodup m, fun a _ => h a.1⟩) (sim_known c G ops.one) h2
  obtain ⟨b, hb, hbs⟩ := pair_sim hΘs hPs
  obtain ⟨Y, hY, hYs⟩ := op_sim hc hbs (fun a => L.ratioFrom a.1 a.2) v h3
  refine ⟨Y, ?_, hYs⟩
  unfold stagedRatio
  rw [hΘ']
  unfold StagedModel.prob
  simp only
  generalize stagedProbLoop c ops m.cache L.data Θ' m.numbered (.known ops.one) m.entries = r at hP ⊢
  obtain ⟨r1, r2⟩ := r
  simp only at hP
  subst hP
  simp only
  rw [hb, ok_bind, hY]

/-! ### The cache and tracers -/

theorem sameParameters_tracer {E : Type} {x y : Staged E Fl} (xs ys : List (Staged E Fl))
    (h : (∀ a, x ≠ .known a) ∨ ∀ a, y ≠ .known a) :
    sameParameters (x :: xs) (y :: ys) = .error .typeError := by
  cases x with
  | tracer t f => cases y <;> rfl
  | known a =>
    cases y with
    | tracer t f => rfl
    | known b =>
      rcases h with h | h
      · exact (h a rfl).elim
      · exact (h b rfl).elim

/-- The first value an evaluation in the given context compares with the cached ones. -/
theorem mapM_op_head {E : Type} {c : Ctx E} {Θ : Staged E (Dict Fl)} {k : String} {ks : List String}
    {vals : List (Staged E Fl)}
    (h : ((k :: ks).mapM fun k => Staged.op c (fun d => Dict.get d k) Θ) = .ok vals) :
    ∃ x xs, vals = x :: xs ∧ Staged.op c (fun d => Dict.get d k) Θ = .ok x := by
  rw [List.mapM_cons, bind_eq_ok] at h
  obtain ⟨x, h1, h2⟩ := h
  rw [bind_eq_ok] at h2
  obtain ⟨xs, h2, h3⟩ := h2
  rw [pure_eq_ok] at h3
  exact ⟨x, xs, (Except.ok.inj h3).symm, h1⟩

theorem op_tracing_ne {E α β : Type} {t : ℕ} {e₀ : E} {f : α → Except PyErr β} {x : Staged E α}
    {y : Staged E β} (h : Staged.op (.tracing t e₀) f x = .ok y) : ∀ b, y ≠ .known b := by
  intro b hb
  subst hb
  unfold Staged.op at h
  rw [bind_eq_ok] at h
  obtain ⟨g, -, h⟩ := h
  rw [bind_eq_ok] at h
  obtain ⟨a, -, h⟩ := h
  rw [bind_eq_ok] at h
  obtain ⟨b', -, h⟩ := h
  rw [pure_eq_ok] at h
  cases Except.ok.inj h

end GW
