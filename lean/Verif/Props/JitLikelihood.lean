import Verif.Lemmas.StagedLikelihood
import Verif.Props.Likelihood

/-!
# A likelihood and its compiled version in one process (C100)
-/

noncomputable section

open Classical

namespace GW

open Fl Spec Staged

namespace Spec

/-- The likelihood with another `maximum_uncertainty`. -/
def withMaximum (L : Likelihood) (u : Fl) : Likelihood :=
  { L with maximumUncertainty := u, maxVariance := Likelihood.maxVarianceOf u }

/-- What the evaluations in a sequence of actions should return: what a new likelihood returns whose
`maximum_uncertainty` is the one that the evaluated object reports at that time. `own` is the value assigned
to the compiled likelihood itself. -/
def expected (ops : OutOps Mat) (fns : List PlainFn) :
    Likelihood → Option Fl → List LikelihoodAction → List (Option (Except PyErr Fl))
  | _, _, [] => []
  | L, own, .ordinary θ :: as => some (freshRatio ops L fns θ) :: expected ops fns L own as
  | L, own, .jitted θ :: as =>
    some (freshRatio ops (withMaximum L (own.getD L.maximumUncertainty)) fns θ) :: expected ops fns L own as
  | L, own, .setMaximum u :: as => none :: expected ops fns (withMaximum L u) own as
  | L, _, .setOwnMaximum u :: as => none :: expected ops fns L (some u) as

/-- The names of the parameters. -/
def namesOf (θ : Dict Fl) : Set String := {k | ∃ v, (k, v) ∈ θ}

/-- What the evaluations return if every compiled evaluation uses the likelihood as it was at the first
compiled evaluation with the same names of parameters, recorded in `frozen`. -/
def frozenOutcomes (ops : OutOps Mat) (fns : List PlainFn) :
    Likelihood → List (Set String × Likelihood) → List LikelihoodAction →
      List (Option (Except PyErr Fl))
  | _, _, [] => []
  | L, frozen, .ordinary θ :: as => some (freshRatio ops L fns θ) :: frozenOutcomes ops fns L frozen as
  | L, frozen, .jitted θ :: as =>
    match frozen.find? (fun q => q.1 = namesOf θ) with
    | some q => some (freshRatio ops q.2 fns θ) :: frozenOutcomes ops fns L frozen as
    | none => some (freshRatio ops L fns θ) ::
        frozenOutcomes ops fns L ((namesOf θ, L) :: frozen) as
  | L, frozen, .setMaximum u :: as => none :: frozenOutcomes ops fns (withMaximum L u) frozen as
  | L, frozen, .setOwnMaximum _ :: as => none :: frozenOutcomes ops fns L frozen as

/-- The value of `jitted.maximum_uncertainty` after a sequence of actions: the last one that was assigned to
the compiled likelihood itself; if there is none, the last one assigned to the likelihood. -/
def attributeAfter : Option Fl → Fl → List LikelihoodAction → Fl
  | own, u, [] => own.getD u
  | own, _, .setMaximum u :: as => attributeAfter own u as
  | _, u, .setOwnMaximum v :: as => attributeAfter (some v) u as
  | own, u, _ :: as => attributeAfter own u as

/-- An entry of an array with two axes. -/
def entryAt (m : Mat) (i j : ℕ) : Fl := (m.getD i []).getD j nan

end Spec

/-- Evaluations of a likelihood and of its compiled version return, in every order, what a new likelihood
returns with the value of `maximum_uncertainty` that the evaluated object has at that time. -/
def C100_statement : Prop :=
  ∀ (L : Likelihood) (fns : List PlainFn) (cache : Bool) (as : List LikelihoodAction),
    L.backend = .jax → L.maxVariance = Likelihood.maxVarianceOf L.maximumUncertainty →
    (∀ θ, .jitted θ ∈ as → ∃ v, freshRatio matOps L fns θ = .ok v) →
    (newLikelihoodProcess L fns cache).outcomes matOps as = expected matOps fns L none as

/-! ### Lemmas -/

/-- `frozenOutcomes` with the keys of the recorded computations. -/
def frozenByKey (ops : OutOps Mat) (fns : List PlainFn) :
    Likelihood → List ((String → Bool) × Likelihood) → List LikelihoodAction →
      List (Option (Except PyErr Fl))
  | _, _, [] => []
  | L, frozen, .ordinary θ :: as => some (freshRatio ops L fns θ) :: frozenByKey ops fns L frozen as
  | L, frozen, .jitted θ :: as =>
    match frozen.find? (fun q => q.1 = parameterNames θ) with
    | some q => some (freshRatio ops q.2 fns θ) :: frozenByKey ops fns L frozen as
    | none => some (freshRatio ops L fns θ) ::
        frozenByKey ops fns L ((parameterNames θ, L) :: frozen) as
  | L, frozen, .setMaximum u :: as => none :: frozenByKey ops fns (withMaximum L u) frozen as
  | L, frozen, .setOwnMaximum _ :: as => none :: frozenByKey ops fns L frozen as

theorem isSome_iff_mem (θ : Dict Fl) (k : String) :
    (Dict.get? θ k).isSome = true ↔ ∃ v, (k, v) ∈ θ := by
  induction θ with
  | nil => simp [Dict.get?]
  | cons q θ ih =>
    rw [Dict.get?_cons]
    by_cases h : k = q.1
    · subst h
      simp only [if_true, Option.isSome_some, true_iff]
      exact ⟨q.2, by simp⟩
    · simp only [if_neg h, ih, List.mem_cons]
      constructor
      · rintro ⟨v, hv⟩; exact ⟨v, Or.inr hv⟩
      · rintro ⟨v, hv | hv⟩
        · exact absurd (congrArg Prod.fst hv) h
        · exact ⟨v, hv⟩

theorem namesOf_eq (θ : Dict Fl) : namesOf θ = {k | parameterNames θ k = true} := by
  ext k
  exact (isSome_iff_mem θ k).symm

theorem setOf_inj {a b : String → Bool} : ({k | a k = true} : Set String) = {k | b k = true} ↔ a = b := by
  constructor
  · intro h
    funext k
    have := Set.ext_iff.1 h k
    simp only [Set.mem_ofPred_eq] at this
    cases ha : a k <;> cases hb : b k <;> simp_all
  · rintro rfl; rfl

/-- **C100**: one compiled computation is used for two sets of parameters exactly if they have the same
names, whatever the values and the order. -/
theorem C100_names (θ θ' : Dict Fl) : parameterNames θ = parameterNames θ' ↔ namesOf θ = namesOf θ' := by
  rw [namesOf_eq, namesOf_eq, setOf_inj]

theorem frozenByKey_eq (ops : OutOps Mat) (fns : List PlainFn) (as : List LikelihoodAction)
    (L : Likelihood) (frozen : List ((String → Bool) × Likelihood)) :
    frozenByKey ops fns L frozen as =
      frozenOutcomes ops fns L (frozen.map fun q => ({k | q.1 k = true}, q.2)) as := by
  induction as generalizing L frozen with
  | nil => rfl
  | cons a as ih =>
    cases a with
    | ordinary θ => exact congrArg _ (ih L frozen)
    | setMaximum u => exact congrArg _ (ih _ frozen)
    | setOwnMaximum u => exact congrArg _ (ih L frozen)
    | jitted θ =>
      have hfind : (frozen.map fun q => (({k | q.1 k = true} : Set String), q.2)).find?
          (fun q => q.1 = namesOf θ) =
          (frozen.find? (fun q => q.1 = parameterNames θ)).map
            fun q => (({k | q.1 k = true} : Set String), q.2) := by
        rw [List.find?_map]
        congr 2
        funext q
        simp only [Function.comp, namesOf_eq, setOf_inj]
      unfold frozenByKey frozenOutcomes
      rw [hfind]
      cases frozen.find? (fun q => q.1 = parameterNames θ) with
      | none =>
        simp only [Option.map_none]
        rw [ih, List.map_cons, namesOf_eq]
      | some q => simp only [Option.map_some]; rw [ih]

theorem ratio_withMaximum_ok {ops : OutOps Mat} {L : Likelihood} {fns : List PlainFn} {θ : Dict Fl}
    (u : Fl) (h : ∃ v, freshRatio ops L fns θ = .ok v) :
    ∃ v, freshRatio ops (withMaximum L u) fns θ = .ok v := by
  obtain ⟨v, h⟩ := h
  unfold freshRatio Likelihood.logLikelihoodRatio at h
  rw [bind_eq_ok] at h
  obtain ⟨⟨l, w⟩, h1, -⟩ := h
  exact ⟨_, ratio_eq (self := { withMaximum L u with
    hyperPrior := ⟨L.hyperPrior.models, population ops fns⟩ }) (l := l) (v := w) h1⟩

/-- The result of `log_likelihood_ratio` is a finite number. -/
theorem ratio_nanToNum (ops : OutOps Mat) (L : Likelihood) (fns : List PlainFn) (θ : Dict Fl) :
    (freshRatio ops L fns θ).map nanToNum = freshRatio ops L fns θ := by
  unfold freshRatio
  set L' : Likelihood := { L with hyperPrior := ⟨L.hyperPrior.models, population ops fns⟩ }
  cases h : L'.lnLikelihoodAndVariance θ with
  | error e =>
    have : L'.logLikelihoodRatio θ = .error e := by
      unfold Likelihood.logLikelihoodRatio
      rw [h, error_bind]
    rw [this]
    rfl
  | ok p =>
    obtain ⟨l, v⟩ := p
    obtain ⟨r, hr, -⟩ := C46_finite h
    rw [hr]
    rfl

/-- What is kept during a sequence of actions whose remaining part is `as`. -/
structure Holds (ops : OutOps Mat) (fns : List PlainFn) (L : Likelihood)
    (frozen : List ((String → Bool) × Likelihood)) (p : LikelihoodProcess)
    (as : List LikelihoodAction) : Prop where
  likelihood : p.likelihood = L
  functions : p.model.functions = fns
  compiled : List.Forall₂ (fun q z => q.1 = z.1 ∧ ∀ θ, .jitted θ ∈ as → parameterNames θ = q.1 →
    q.2 θ = freshRatio ops z.2 fns θ) p.compiled frozen
  cache : p.model.cache = false ∨ ((∀ θ, .ordinary θ ∉ as) ∧
    (((∀ i, p.model.entries i = none) ∧ ∀ θ θ', .jitted θ ∈ as → .jitted θ' ∈ as →
        parameterNames θ = parameterNames θ') ∨
      ∀ θ, .jitted θ ∈ as → ∃ q, p.compiled.find? (fun q => q.1 = parameterNames θ) = some q))

theorem find?_forall₂ {α β γ : Type} {R : α × β → α × γ → Prop} {xs : List (α × β)}
    {ys : List (α × γ)} (h : List.Forall₂ R xs ys) (hR : ∀ x y, R x y → x.1 = y.1) (a : α) :
    (xs.find? (fun q => q.1 = a) = none ∧ ys.find? (fun q => q.1 = a) = none) ∨
      ∃ x y, xs.find? (fun q => q.1 = a) = some x ∧ ys.find? (fun q => q.1 = a) = some y ∧ R x y := by
  induction h with
  | nil => exact Or.inl ⟨rfl, rfl⟩
  | @cons x y xs ys hxy _ ih =>
    by_cases hx : x.1 = a
    · right
      refine ⟨x, y, ?_, ?_, hxy⟩
      · rw [List.find?_cons_of_pos (by simpa using hx)]
      · rw [List.find?_cons_of_pos (by simpa using (hR x y hxy).symm.trans hx)]
    · rw [List.find?_cons_of_neg (by simpa using hx), List.find?_cons_of_neg
        (by simpa using fun h => hx ((hR x y hxy).trans h))]
      exact ih

theorem evalJitted_found {ops : OutOps Mat} {p : LikelihoodProcess} {θ : Dict Fl}
    {q : (String → Bool) × (Dict Fl → Except PyErr Fl)}
    (h : p.compiled.find? (fun q => q.1 = parameterNames θ) = some q) :
    p.evalJitted ops θ = ((q.2 θ).map nanToNum, p) := by
  unfold LikelihoodProcess.evalJitted
  rw [h]

/-- The first compiled evaluation with certain names of parameters. -/
theorem evalJitted_new {ops : OutOps Mat} {p : LikelihoodProcess} {θ₀ : Dict Fl}
    (hnew : p.compiled.find? (fun q => q.1 = parameterNames θ₀) = none)
    (hnone : p.model.cache = false ∨ ∀ i, p.model.entries i = none) {G : Dict Fl → Prop} (h₀ : G θ₀)
    {v : Dict Fl → Fl} (hv : ∀ θ, G θ → freshRatio ops p.likelihood p.model.functions θ = .ok (v θ)) :
    (p.evalJitted ops θ₀).1 = freshRatio ops p.likelihood p.model.functions θ₀ ∧
      (p.evalJitted ops θ₀).2.likelihood = p.likelihood ∧
      (p.evalJitted ops θ₀).2.model.functions = p.model.functions ∧
      (p.evalJitted ops θ₀).2.model.cache = p.model.cache ∧
      ∃ f, (p.evalJitted ops θ₀).2.compiled = (parameterNames θ₀, f) :: p.compiled ∧
        ∀ θ, G θ → f θ = freshRatio ops p.likelihood p.model.functions θ := by
  set c : Ctx (Dict Fl) := .tracing p.traces θ₀ with hc
  have hΘ : Sim c G (.tracer p.traces .ok) (fun θ : Dict Fl => θ) := ⟨rfl, fun θ _ => rfl⟩
  obtain ⟨Y, hY, hYs⟩ := stagedRatio_sim (c := c) (G := G) h₀ ops p.likelihood p.model hΘ hnone hv
  obtain ⟨f, hf, hfv⟩ := read_sim hYs
  have hf : Staged.read c Y = .ok f := hf
  obtain ⟨hfn, hca⟩ := stagedRatio_functions c ops p.likelihood p.model (.tracer p.traces .ok)
  unfold LikelihoodProcess.evalJitted
  rw [hnew]
  simp only [← hc, hY, ok_bind, hf]
  refine ⟨?_, trivial, hfn, hca, f, rfl, fun θ hθ => ?_⟩
  · rw [← ratio_nanToNum, hv θ₀ h₀, hfv θ₀ h₀]
  · rw [hv θ hθ, hfv θ hθ]

theorem evalOrdinary_eq {ops : OutOps Mat} {p : LikelihoodProcess} {θ : Dict Fl}
    (h : p.model.cache = false ∨ KnownEntries p.likelihood.data p.model.numbered p.model.entries) :
    (p.evalOrdinary ops θ).1 = freshRatio ops p.likelihood p.model.functions θ ∧
      (p.evalOrdinary ops θ).2.likelihood = p.likelihood ∧
      (p.evalOrdinary ops θ).2.model.functions = p.model.functions ∧
      (p.evalOrdinary ops θ).2.model.cache = p.model.cache ∧
      (p.evalOrdinary ops θ).2.compiled = p.compiled ∧
      (p.model.cache = false ∨ KnownEntries p.likelihood.data p.model.numbered
        (p.evalOrdinary ops θ).2.model.entries) := by
  obtain ⟨h1, h2, h3, h4⟩ := stagedRatio_eager ops p.likelihood p.model θ h
  unfold LikelihoodProcess.evalOrdinary
  refine ⟨?_, rfl, h2, h3, rfl, h4⟩
  simp only [h1]
  cases freshRatio ops p.likelihood p.model.functions θ <;> rfl

theorem holds_mono {ops : OutOps Mat} {fns : List PlainFn} {L : Likelihood}
    {frozen : List ((String → Bool) × Likelihood)} {p : LikelihoodProcess} {a : LikelihoodAction}
    {as : List LikelihoodAction} (h : Holds ops fns L frozen p (a :: as)) :
    Holds ops fns L frozen p as where
  likelihood := h.likelihood
  functions := h.functions
  compiled := h.compiled.imp fun q z hq => ⟨hq.1, fun θ hθ => hq.2 θ (by simp [hθ])⟩
  cache := by
    rcases h.cache with h | ⟨h1, h2⟩
    · exact Or.inl h
    · refine Or.inr ⟨fun θ hθ => h1 θ (by simp [hθ]), ?_⟩
      rcases h2 with ⟨h2, h3⟩ | h2
      · exact Or.inl ⟨h2, fun θ θ' hθ hθ' => h3 θ θ' (by simp [hθ]) (by simp [hθ'])⟩
      · exact Or.inr fun θ hθ => h2 θ (by simp [hθ])

theorem outcomes_frozen {ops : OutOps Mat} {fns : List PlainFn} (as : List LikelihoodAction)
    (L : Likelihood) (frozen : List ((String → Bool) × Likelihood)) (p : LikelihoodProcess)
    (hp : Holds ops fns L frozen p as)
    (hok : ∀ θ, .jitted θ ∈ as → ∃ v, freshRatio ops L fns θ = .ok v) :
    p.outcomes ops as = frozenByKey ops fns L frozen as := by
  induction as generalizing L frozen p with
  | nil => rfl
  | cons a as ih =>
    have hmono := holds_mono hp
    have hok' : ∀ θ, .jitted θ ∈ as → ∃ v, freshRatio ops L fns θ = .ok v :=
      fun θ hθ => hok θ (by simp [hθ])
    obtain ⟨rfl, rfl, hcomp, hcache⟩ := hp
    cases a with
    | ordinary θ =>
      have hcf : p.model.cache = false := by
        rcases hcache with h | h
        · exact h
        · exact absurd (by simp) (h.1 θ)
      obtain ⟨h1, h2, h3, h4, h5, -⟩ := evalOrdinary_eq (ops := ops) (θ := θ) (Or.inl hcf)
      show some (p.evalOrdinary ops θ).1 :: (p.evalOrdinary ops θ).2.outcomes ops as =
        some (freshRatio ops p.likelihood p.model.functions θ) ::
          frozenByKey ops p.model.functions p.likelihood frozen as
      rw [h1, ih p.likelihood frozen (p.evalOrdinary ops θ).2 ⟨h2, h3, ?_, Or.inl (h4.trans hcf)⟩ hok']
      rw [h5]
      exact hmono.compiled
    | setMaximum u =>
      show none :: (p.setMaximum u).outcomes ops as =
        none :: frozenByKey ops p.model.functions (withMaximum p.likelihood u) frozen as
      rw [ih (withMaximum p.likelihood u) frozen (p.setMaximum u)
        ⟨rfl, rfl, hmono.compiled, hmono.cache⟩ fun θ hθ => ratio_withMaximum_ok u (hok' θ hθ)]
    | setOwnMaximum u =>
      show none :: ({ p with own := some u } : LikelihoodProcess).outcomes ops as =
        none :: frozenByKey ops p.model.functions p.likelihood frozen as
      rw [ih p.likelihood frozen { p with own := some u }
        ⟨rfl, rfl, hmono.compiled, hmono.cache⟩ hok']
    | jitted θ =>
      show some (p.evalJitted ops θ).1 :: (p.evalJitted ops θ).2.outcomes ops as =
        match frozen.find? (fun q => q.1 = parameterNames θ) with
        | some q => some (freshRatio ops q.2 p.model.functions θ) ::
            frozenByKey ops p.model.functions p.likelihood frozen as
        | none => some (freshRatio ops p.likelihood p.model.functions θ) ::
            frozenByKey ops p.model.functions p.likelihood
              ((parameterNames θ, p.likelihood) :: frozen) as
      rcases find?_forall₂ hcomp (fun x y h => h.1) (parameterNames θ) with
        ⟨h1, h2⟩ | ⟨q, z, h1, h2, h3⟩
      · rw [h2]
        simp only
        have hnone : p.model.cache = false ∨ ((∀ i, p.model.entries i = none) ∧
            ((∀ θ, .ordinary θ ∉ as) ∧ ∀ θ', .jitted θ' ∈ as → parameterNames θ' = parameterNames θ)) := by
          rcases hcache with h | ⟨h, h' | h'⟩
          · exact Or.inl h
          · exact Or.inr ⟨h'.1, fun θ hθ => h θ (by simp [hθ]),
              fun θ' hθ' => h'.2 θ' θ (by simp [hθ']) (by simp)⟩
          · obtain ⟨q, hq⟩ := h' θ (by simp)
            rw [h1] at hq; cases hq
        set G : Dict Fl → Prop := fun θ' => .jitted θ' ∈ LikelihoodAction.jitted θ :: as with hG
        have hval : ∀ θ', G θ' → ∃ v, freshRatio ops p.likelihood p.model.functions θ' = .ok v := hok
        have : Nonempty Fl := ⟨nan⟩
        choose! v hv using hval
        obtain ⟨e1, e2, e3, e4, f, e5, e6⟩ := evalJitted_new (G := G) h1 (hnone.imp id And.left)
          (by simp [hG]) hv
        rw [e1, ih p.likelihood ((parameterNames θ, p.likelihood) :: frozen) (p.evalJitted ops θ).2
          ⟨e2, e3, ?_, ?_⟩ hok']
        · rw [e5]
          refine .cons ⟨rfl, fun θ' hθ' _ => e6 θ' (by simp [hG, hθ'])⟩ hmono.compiled
        · rcases hnone with h | ⟨-, h⟩
          · exact Or.inl (e4.trans h)
          · refine Or.inr ⟨h.1, Or.inr fun θ' hθ' => ⟨(parameterNames θ, f), ?_⟩⟩
            rw [e5, List.find?_cons_of_pos (by simpa using (h.2 θ' hθ').symm)]
      · have hq : q.1 = parameterNames θ := by simpa using List.find?_some h1
        rw [h2, evalJitted_found h1]
        simp only
        rw [h3.2 θ (by simp) hq.symm, ratio_nanToNum, ih p.likelihood frozen p hmono hok']

/-- **C100, what happens.** Without the cache of the population model (`cache=False`), or if only compiled
evaluations with the same names of parameters are made: every compiled evaluation returns what a new
likelihood returns with the settings at the time of the *first* compiled evaluation with the same names of
parameters, every ordinary one uses the present settings. -/
theorem C100_frozen_partial (ops : OutOps Mat) (L : Likelihood) (fns : List PlainFn) (cache : Bool)
    (as : List LikelihoodAction)
    (hok : ∀ θ, .jitted θ ∈ as → ∃ v, freshRatio ops L fns θ = .ok v)
    (hcache : cache = false ∨ (∀ θ, .ordinary θ ∉ as) ∧ ∀ θ θ', .jitted θ ∈ as → .jitted θ' ∈ as →
      namesOf θ = namesOf θ') :
    (newLikelihoodProcess L fns cache).outcomes ops as = frozenOutcomes ops fns L [] as :=
  (outcomes_frozen as L [] _ ⟨rfl, rfl, .nil, hcache.imp id fun h => ⟨h.1, Or.inl ⟨fun _ => rfl,
    fun θ θ' hθ hθ' => (C100_names θ θ').2 (h.2 θ θ' hθ hθ')⟩⟩⟩ hok).trans (frozenByKey_eq ops fns as L [])

theorem withMaximum_self {L : Likelihood}
    (h : L.maxVariance = Likelihood.maxVarianceOf L.maximumUncertainty) :
    withMaximum L L.maximumUncertainty = L := by
  unfold withMaximum
  rw [← h]

theorem frozen_evaluations (ops : OutOps Mat) (fns : List PlainFn) (L : Likelihood)
    (hL : L.maxVariance = Likelihood.maxVarianceOf L.maximumUncertainty) (as : List LikelihoodAction)
    (has : ∀ a ∈ as, ∃ θ, a = .ordinary θ ∨ a = .jitted θ)
    (frozen : List (Set String × Likelihood)) (hf : ∀ q ∈ frozen, q.2 = L) :
    frozenOutcomes ops fns L frozen as = expected ops fns L none as := by
  induction as generalizing frozen with
  | nil => rfl
  | cons a as ih =>
    have ih := ih (fun a ha => has a (by simp [ha]))
    obtain ⟨θ, rfl | rfl⟩ := has a (by simp)
    · show some _ :: frozenOutcomes ops fns L frozen as = some _ :: expected ops fns L none as
      rw [ih frozen hf]
    · show (match frozen.find? (fun q => q.1 = namesOf θ) with
        | some q => some (freshRatio ops q.2 fns θ) :: frozenOutcomes ops fns L frozen as
        | none => some (freshRatio ops L fns θ) ::
            frozenOutcomes ops fns L ((namesOf θ, L) :: frozen) as) =
        some (freshRatio ops (withMaximum L L.maximumUncertainty) fns θ) :: expected ops fns L none as
      rw [withMaximum_self hL]
      cases h : frozen.find? (fun q => q.1 = namesOf θ) with
      | none =>
        simp only
        rw [ih]
        intro q hq
        rcases List.mem_cons.1 hq with rfl | hq
        · rfl
        · exact hf q hq
      | some q =>
        simp only
        rw [hf q (List.mem_of_find?_eq_some h), ih frozen hf]

/-- **C100, proved part.** Under the same condition on the cache: if `maximum_uncertainty` is not changed
any more after the first compiled evaluation, all evaluations are right. -/
theorem C100_unchanged_partial (ops : OutOps Mat) (L : Likelihood) (fns : List PlainFn) (cache : Bool)
    (hL : L.maxVariance = Likelihood.maxVarianceOf L.maximumUncertainty)
    (pre post : List LikelihoodAction)
    (hpre : ∀ a ∈ pre, (∃ θ, a = .ordinary θ) ∨ ∃ u, a = .setMaximum u)
    (hpost : ∀ a ∈ post, ∃ θ, a = .ordinary θ ∨ a = .jitted θ)
    (hok : ∀ θ, .jitted θ ∈ post → ∃ v, freshRatio ops L fns θ = .ok v)
    (hcache : cache = false ∨ (∀ θ, .ordinary θ ∉ pre ++ post) ∧ ∀ θ θ', .jitted θ ∈ post →
      .jitted θ' ∈ post → namesOf θ = namesOf θ') :
    (newLikelihoodProcess L fns cache).outcomes ops (pre ++ post) =
      expected ops fns L none (pre ++ post) := by
  have hmem : ∀ θ, .jitted θ ∈ pre ++ post → .jitted θ ∈ post := by
    intro θ hθ
    rcases List.mem_append.1 hθ with h | h
    · rcases hpre _ h with ⟨θ', h⟩ | ⟨u, h⟩ <;> cases h
    · exact h
  rw [C100_frozen_partial ops L fns cache _ (fun θ hθ => hok θ (hmem θ hθ))
    (hcache.imp id fun h => ⟨h.1, fun θ θ' hθ hθ' => h.2 θ θ' (hmem θ hθ) (hmem θ' hθ')⟩)]
  clear hok hcache hmem
  induction pre generalizing L with
  | nil => exact frozen_evaluations ops fns L hL post hpost [] (by simp)
  | cons a pre ih =>
    have hpre' : ∀ a ∈ pre, (∃ θ, a = .ordinary θ) ∨ ∃ u, a = .setMaximum u :=
      fun a ha => hpre a (by simp [ha])
    rcases hpre a (by simp) with ⟨θ, rfl⟩ | ⟨u, rfl⟩
    · exact congrArg _ (ih L hL hpre')
    · exact congrArg _ (ih (withMaximum L u) rfl hpre')

/-- **C100, proved part.** A likelihood that is only evaluated without compilation is always right, with or
without the cache, for all settings. -/
theorem C100_ordinary_partial (ops : OutOps Mat) (L : Likelihood) (fns : List PlainFn) (cache : Bool)
    (as : List LikelihoodAction) (has : ∀ θ, .jitted θ ∉ as) :
    (newLikelihoodProcess L fns cache).outcomes ops as = expected ops fns L none as := by
  have : ∀ (as : List LikelihoodAction) (p : LikelihoodProcess), (∀ θ, .jitted θ ∉ as) →
      (p.model.cache = false ∨ KnownEntries p.likelihood.data p.model.numbered p.model.entries) →
      p.outcomes ops as = expected ops p.model.functions p.likelihood p.own as := by
    intro as
    induction as with
    | nil => intros; rfl
    | cons a as ih =>
      intro p has hk
      have has' : ∀ θ, .jitted θ ∉ as := fun θ hθ => has θ (by simp [hθ])
      cases a with
      | jitted θ => exact absurd (by simp) (has θ)
      | setMaximum u => exact congrArg _ (ih (p.setMaximum u) has' hk)
      | setOwnMaximum u => exact congrArg _ (ih { p with own := some u } has' hk)
      | ordinary θ =>
        obtain ⟨h1, h2, h3, h4, h5, h6⟩ := evalOrdinary_eq (ops := ops) (θ := θ) hk
        have := ih (p.evalOrdinary ops θ).2 has' (by
          rw [h2, h4]
          unfold StagedModel.numbered at h6 ⊢
          rwa [h3])
        rw [h2, h3] at this
        show some (p.evalOrdinary ops θ).1 :: (p.evalOrdinary ops θ).2.outcomes ops as =
          some (freshRatio ops p.likelihood p.model.functions θ) ::
            expected ops p.model.functions p.likelihood p.own as
        rw [h1, this]
        rfl
  exact this as (newLikelihoodProcess L fns cache) has (Or.inr fun i f vals q _ h => by cases h)

/-! ### A population model that caches cannot be used in both ways -/

theorem numbered_cons {E : Type} {f : PlainFn} {fs : List PlainFn} {m : StagedModel E}
    (h : m.functions = f :: fs) :
    m.numbered = (0, f) :: ((List.range fs.length).map Nat.succ).zip fs := by
  unfold StagedModel.numbered
  rw [h, List.length_cons, List.range_succ_eq_map]
  rfl

/-- The entries of other functions are not written. -/
theorem loop_other {E : Type} (c : Ctx E) (ops : OutOps Mat) (cache : Bool) (data : Dict Mat)
    (Θ : Staged E (Dict Fl)) (l : List (ℕ × PlainFn)) (P : Staged E Mat) (entries : StagedEntries E)
    {i : ℕ} (hi : i ∉ l.map Prod.fst) :
    (stagedProbLoop c ops cache data Θ l P entries).2 i = entries i := by
  induction l generalizing P entries with
  | nil => rfl
  | cons a l ih =>
    obtain ⟨j, f⟩ := a
    rw [List.map_cons, List.mem_cons, not_or] at hi
    have ih := fun P entries => ih P entries hi.2
    unfold stagedProbLoop
    cases f.names.mapM fun k => Staged.op c (fun d => Dict.get d k) Θ with
    | error e => rfl
    | ok vals =>
      simp only
      cases StagedModel.lookup cache entries j vals with
      | error e => rfl
      | ok o =>
        cases o with
        | some q =>
          simp only
          cases multiply c ops P q with
          | error e => rfl
          | ok P' => exact ih P' entries
        | none =>
          simp only
          cases f.apply c data vals with
          | error e => rfl
          | ok q =>
            simp only
            have hE : (if cache = true then fun j' => if j' = j then some (vals, q) else entries j'
                else entries) i = entries i := by
              cases cache with
              | false => rfl
              | true => simp only [if_true]; rw [if_neg hi.1]
            cases multiply c ops P q with
            | error e => exact hE
            | ok P' => exact (ih P' _).trans hE

/-- Entries do not disappear. -/
theorem loop_isSome {E : Type} (c : Ctx E) (ops : OutOps Mat) (cache : Bool) (data : Dict Mat)
    (Θ : Staged E (Dict Fl)) (l : List (ℕ × PlainFn)) (P : Staged E Mat) (entries : StagedEntries E)
    {i : ℕ} (hi : entries i ≠ none) : (stagedProbLoop c ops cache data Θ l P entries).2 i ≠ none := by
  induction l generalizing P entries with
  | nil => exact hi
  | cons a l ih =>
    obtain ⟨j, f⟩ := a
    unfold stagedProbLoop
    cases f.names.mapM fun k => Staged.op c (fun d => Dict.get d k) Θ with
    | error e => exact hi
    | ok vals =>
      simp only
      cases StagedModel.lookup cache entries j vals with
      | error e => exact hi
      | ok o =>
        cases o with
        | some q =>
          simp only
          cases multiply c ops P q with
          | error e => exact hi
          | ok P' => exact ih P' entries hi
        | none =>
          simp only
          cases f.apply c data vals with
          | error e => exact hi
          | ok q =>
            simp only
            have hE : (if cache = true then fun j' => if j' = j then some (vals, q) else entries j'
                else entries) i ≠ none := by
              cases cache with
              | false => exact hi
              | true =>
                simp only [if_true]
                by_cases hij : i = j
                · rw [if_pos hij]; simp
                · rw [if_neg hij]; exact hi
            cases multiply c ops P q with
            | error e => exact hE
            | ok P' => exact ih P' _ hE

/-- After an evaluation that returned a value the first function has an entry: the one it had, or one for
the parameters of this evaluation. -/
theorem loop_first {E : Type} {c : Ctx E} {ops : OutOps Mat} {data : Dict Mat}
    {Θ : Staged E (Dict Fl)} {f : PlainFn} {l : List (ℕ × PlainFn)} (hl : 0 ∉ l.map Prod.fst)
    {P Y : Staged E Mat} {entries : StagedEntries E}
    (h : (stagedProbLoop c ops true data Θ ((0, f) :: l) P entries).1 = .ok Y) :
    ∃ vals, (f.names.mapM fun k => Staged.op c (fun d => Dict.get d k) Θ) = .ok vals ∧
      ((stagedProbLoop c ops true data Θ ((0, f) :: l) P entries).2 0 = entries 0 ∧ entries 0 ≠ none ∨
      ∃ q, (stagedProbLoop c ops true data Θ ((0, f) :: l) P entries).2 0 = some (vals, q)) := by
  unfold stagedProbLoop at h ⊢
  cases hv : f.names.mapM fun k => Staged.op c (fun d => Dict.get d k) Θ with
  | error e => rw [hv] at h; cases h
  | ok vals =>
    refine ⟨vals, rfl, ?_⟩
    rw [hv] at h
    simp only at h ⊢
    cases hL : StagedModel.lookup true entries 0 vals with
    | error e => rw [hL] at h; cases h
    | ok o =>
      rw [hL] at h
      cases o with
      | some q =>
        simp only at h ⊢
        cases hm : multiply c ops P q with
        | error e => rw [hm] at h; cases h
        | ok P' =>
          left
          refine ⟨loop_other c ops true data Θ l P' entries hl, fun h0 => ?_⟩
          unfold StagedModel.lookup at hL
          rw [if_pos rfl, h0] at hL
          cases Except.ok.inj hL
      | none =>
        simp only at h ⊢
        cases hq : f.apply c data vals with
        | error e => rw [hq] at h; cases h
        | ok q =>
          rw [hq] at h
          simp only [if_true] at h ⊢
          cases hm : multiply c ops P q with
          | error e => rw [hm] at h; cases h
          | ok P' =>
            right
            exact ⟨q, loop_other c ops true data Θ l P' _ hl⟩

theorem zero_notMem (fs : List PlainFn) :
    0 ∉ (((List.range fs.length).map Nat.succ).zip fs).map Prod.fst := by
  rw [List.map_fst_zip (by simp)]
  simp

/-- The comparison with the cached parameters raises `TypeError`, if none of the names is missing, and the
cache is left as it is. -/
theorem loop_mismatch {c : Ctx (Dict Fl)} {ops : OutOps Mat} {data : Dict Mat}
    {Θ : Staged (Dict Fl) (Dict Fl)} {f : PlainFn} {k : String} {ks : List String} (hk : f.names = k :: ks)
    {l : List (ℕ × PlainFn)} {P : Staged (Dict Fl) Mat} {entries : StagedEntries (Dict Fl)}
    {x : Staged (Dict Fl) Fl} {xs : List (Staged (Dict Fl) Fl)} {q : Staged (Dict Fl) Mat}
    (he : entries 0 = some (x :: xs, q)) (hne : (∀ a, x ≠ .known a) ∨ ∃ t e, c = .tracing t e) :
    (stagedProbLoop c ops true data Θ ((0, f) :: l) P entries).2 = entries ∧
      ∃ err, (stagedProbLoop c ops true data Θ ((0, f) :: l) P entries).1 = .error err ∧
        ∀ vals, (f.names.mapM fun k => Staged.op c (fun d => Dict.get d k) Θ) = .ok vals →
          err = .typeError := by
  unfold stagedProbLoop
  cases hv : f.names.mapM fun k => Staged.op c (fun d => Dict.get d k) Θ with
  | error e => exact ⟨rfl, e, rfl, fun _ h => by cases h⟩
  | ok vals =>
    rw [hk] at hv
    obtain ⟨y, ys, rfl, hy⟩ := mapM_op_head hv
    have hl : StagedModel.lookup true entries 0 (y :: ys) = .error .typeError := by
      unfold StagedModel.lookup
      rw [if_pos rfl, he]
      simp only
      rw [sameParameters_tracer xs ys]
      · rfl
      · rcases hne with h | ⟨t, e, rfl⟩
        · exact Or.inl h
        · exact Or.inr (op_tracing_ne hy)
    simp only [hl]
    exact ⟨trivial, _, rfl, fun _ _ => rfl⟩

/-- An evaluation whose parameters cannot be compared with the cached ones. -/
theorem stagedRatio_mismatch {c : Ctx (Dict Fl)} {ops : OutOps Mat} {L : Likelihood}
    {m : StagedModel (Dict Fl)} {f : PlainFn} {fs : List PlainFn} (hf : m.functions = f :: fs)
    (hcache : m.cache = true) {k : String} {ks : List String} (hk : f.names = k :: ks)
    {x : Staged (Dict Fl) Fl} {xs : List (Staged (Dict Fl) Fl)} {q : Staged (Dict Fl) Mat}
    (he : m.entries 0 = some (x :: xs, q)) (hne : (∀ a, x ≠ .known a) ∨ ∃ t e, c = .tracing t e)
    (Θ : Staged (Dict Fl) (Dict Fl)) :
    (stagedRatio c ops L m Θ).2 = m ∧ ∃ err, (stagedRatio c ops L m Θ).1 = .error err ∧
      ∀ Θ' vals, Staged.op c L.conversion Θ = .ok Θ' →
        (f.names.mapM fun k => Staged.op c (fun d => Dict.get d k) Θ') = .ok vals → err = .typeError := by
  unfold stagedRatio
  cases hΘ : Staged.op c L.conversion Θ with
  | error e => exact ⟨rfl, e, rfl, fun _ _ h => by cases h⟩
  | ok Θ' =>
    obtain ⟨h1, err, h2, h3⟩ := loop_mismatch (ops := ops) (data := L.data) (Θ := Θ') hk
      (l := ((List.range fs.length).map Nat.succ).zip fs) (P := .known ops.one) he hne
    unfold StagedModel.prob
    simp only
    rw [numbered_cons hf, hcache]
    generalize stagedProbLoop c ops true L.data Θ' _ (.known ops.one) m.entries = r at h1 h2
    obtain ⟨r1, r2⟩ := r
    simp only at h1 h2
    subst h1 h2
    refine ⟨?_, err, rfl, fun Θ'' vals h h' => ?_⟩
    · show ({ m with cache := true } : StagedModel (Dict Fl)) = m
      rw [← hcache]
    · cases Except.ok.inj h
      exact h3 vals h'

/-- The parameters of a model that can be evaluated at `θ` are also found during a trace at `θ`. -/
theorem trace_reads {ops : OutOps Mat} {L : Likelihood} {f : PlainFn} {fs : List PlainFn} {θ : Dict Fl}
    (h : ∃ v, freshRatio ops L (f :: fs) θ = .ok v) {c : Ctx (Dict Fl)}
    {Θ : Staged (Dict Fl) (Dict Fl)} (hc : CtxOk c (· = θ)) (hΘ : Sim c (· = θ) Θ fun _ => θ) :
    ∃ Θ' vals, Staged.op c L.conversion Θ = .ok Θ' ∧
      (f.names.mapM fun k => Staged.op c (fun d => Dict.get d k) Θ') = .ok vals := by
  obtain ⟨v, h⟩ := h
  rw [freshRatio_eq, bind_eq_ok] at h
  obtain ⟨θ', h1, h⟩ := h
  rw [bind_eq_ok] at h
  obtain ⟨p, h, -⟩ := h
  unfold population populationFrom at h
  rw [bind_eq_ok] at h
  obtain ⟨vals, h2, -⟩ := h
  obtain ⟨Θ', hΘ', hs⟩ := op_sim hc hΘ L.conversion (fun _ => θ') fun _ _ => h1
  obtain ⟨xs, z, hxs, -⟩ := mapM_op_sim hc hs f.names (as := fun _ => vals) fun _ _ => h2
  exact ⟨Θ', xs, hΘ', hxs⟩

theorem stagedRatio_first {c : Ctx (Dict Fl)} {ops : OutOps Mat} {L : Likelihood}
    {m : StagedModel (Dict Fl)} {f : PlainFn} {fs : List PlainFn} (hf : m.functions = f :: fs)
    (hcache : m.cache = true) {Θ : Staged (Dict Fl) (Dict Fl)} {Y : Staged (Dict Fl) Fl}
    (h : (stagedRatio c ops L m Θ).1 = .ok Y) :
    ∃ Θ' vals, (f.names.mapM fun k => Staged.op c (fun d => Dict.get d k) Θ') = .ok vals ∧
      ((stagedRatio c ops L m Θ).2.entries 0 = m.entries 0 ∧ m.entries 0 ≠ none ∨
        ∃ q, (stagedRatio c ops L m Θ).2.entries 0 = some (vals, q)) := by
  unfold stagedRatio at h ⊢
  cases hΘ : Staged.op c L.conversion Θ with
  | error e => rw [hΘ] at h; cases h
  | ok Θ' =>
    rw [hΘ] at h
    unfold StagedModel.prob at h ⊢
    simp only at h ⊢
    rw [numbered_cons hf, hcache] at h ⊢
    have hfirst := fun Y h => loop_first (c := c) (ops := ops) (data := L.data) (Θ := Θ') (f := f)
      (zero_notMem fs) (P := .known ops.one) (Y := Y) (entries := m.entries) h
    refine ⟨Θ', ?_⟩
    generalize stagedProbLoop c ops true L.data Θ' _ (.known ops.one) m.entries = r at h hfirst
    obtain ⟨r1, r2⟩ := r
    cases r1 with
    | error e => cases h
    | ok Y' => exact hfirst Y' rfl

theorem stagedRatio_isSome (c : Ctx (Dict Fl)) (ops : OutOps Mat) (L : Likelihood)
    (m : StagedModel (Dict Fl)) (Θ : Staged (Dict Fl) (Dict Fl)) (h : m.entries 0 ≠ none) :
    (stagedRatio c ops L m Θ).2.entries 0 ≠ none := by
  unfold stagedRatio
  cases Staged.op c L.conversion Θ with
  | error e => exact h
  | ok Θ' =>
    have := loop_isSome c ops m.cache L.data Θ' m.numbered (.known ops.one) m.entries h
    unfold StagedModel.prob
    simp only
    generalize stagedProbLoop c ops m.cache L.data Θ' _ (.known ops.one) m.entries = r at this
    obtain ⟨r1, r2⟩ := r
    cases r1 <;> exact this

/-- The state of a caching model after ordinary evaluations. -/
structure UsedOrdinary (L : Likelihood) (f : PlainFn) (fs : List PlainFn) (p : LikelihoodProcess) :
    Prop where
  conversion : p.likelihood.conversion = L.conversion
  data : p.likelihood.data = L.data
  functions : p.model.functions = f :: fs
  cache : p.model.cache = true
  known : KnownEntries L.data p.model.numbered p.model.entries
  entry : p.model.entries 0 ≠ none
  compiled : p.compiled = []

theorem UsedOrdinary.first {L : Likelihood} {f : PlainFn} {fs : List PlainFn} {p : LikelihoodProcess}
    (h : UsedOrdinary L f fs p) (hf : f.names ≠ []) :
    ∃ x xs q, p.model.entries 0 = some (x :: xs, q) := by
  cases he : p.model.entries 0 with
  | none => exact absurd he h.entry
  | some r =>
    obtain ⟨vals, q⟩ := r
    obtain ⟨vs, w, rfl, -, hl, -⟩ := h.known 0 f vals q
      (by rw [numbered_cons h.functions]; simp) he
    cases vs with
    | nil => exact absurd (List.eq_nil_of_length_eq_zero hl.symm) hf
    | cons v vs => exact ⟨_, _, _, rfl⟩

theorem UsedOrdinary.jitted {ops : OutOps Mat} {L : Likelihood} {f : PlainFn} {fs : List PlainFn}
    {p : LikelihoodProcess} (h : UsedOrdinary L f fs p) (hf : f.names ≠ []) (θ : Dict Fl) :
    UsedOrdinary L f fs (p.evalJitted ops θ).2 ∧
      ((∃ v, freshRatio ops L (f :: fs) θ = .ok v) → (p.evalJitted ops θ).1 = .error .typeError) := by
  obtain ⟨x, xs, q, he⟩ := h.first hf
  obtain ⟨k, ks, hk⟩ := List.exists_cons_of_ne_nil hf
  obtain ⟨h1, err, h2, h3⟩ := stagedRatio_mismatch (c := .tracing p.traces θ) (ops := ops)
    (L := p.likelihood) h.functions h.cache hk he (Or.inr ⟨_, _, rfl⟩) (.tracer p.traces .ok)
  have hnone : p.compiled.find? (fun q => q.1 = parameterNames θ) = none := by rw [h.compiled]; rfl
  unfold LikelihoodProcess.evalJitted
  rw [hnone]
  simp only [h2, error_bind, h1]
  refine ⟨⟨h.conversion, h.data, h.functions, h.cache, h.known, h.entry, h.compiled⟩, fun hv => ?_⟩
  obtain ⟨Θ', vals, e1, e2⟩ := trace_reads hv (c := .tracing p.traces θ) (Θ := .tracer p.traces .ok)
    rfl ⟨rfl, fun e he => by rw [he]⟩
  rw [h3 Θ' vals (by rw [h.conversion]; exact e1) e2]

theorem UsedOrdinary.step {ops : OutOps Mat} {L : Likelihood} {f : PlainFn} {fs : List PlainFn}
    {p : LikelihoodProcess} (h : UsedOrdinary L f fs p) (hf : f.names ≠ []) (a : LikelihoodAction) :
    UsedOrdinary L f fs (p.step ops a).2 := by
  cases a with
  | setMaximum u => exact ⟨h.conversion, h.data, h.functions, h.cache, h.known, h.entry, h.compiled⟩
  | setOwnMaximum u => exact ⟨h.conversion, h.data, h.functions, h.cache, h.known, h.entry, h.compiled⟩
  | jitted θ => exact (h.jitted hf θ).1
  | ordinary θ =>
    have hk : KnownEntries p.likelihood.data p.model.numbered p.model.entries := by
      rw [h.data]; exact h.known
    obtain ⟨-, h2, h3, h4, h5, h6⟩ := evalOrdinary_eq (ops := ops) (θ := θ) (Or.inr hk)
    have hsome := stagedRatio_isSome .eager ops p.likelihood p.model (.known θ) h.entry
    show UsedOrdinary L f fs (p.evalOrdinary ops θ).2
    refine ⟨by rw [h2, h.conversion], by rw [h2, h.data], h3.trans h.functions, h4.trans h.cache, ?_,
      hsome, h5.trans h.compiled⟩
    rcases h6 with h6 | h6
    · rw [h.cache] at h6; cases h6
    · rw [h.data] at h6
      unfold StagedModel.numbered at h6 ⊢
      rwa [h3]

/-- **C100, what happens.** The population model caches (as always if a function was given as
`hyper_prior`) and its first function has a parameter: once the likelihood has been evaluated, every
compiled evaluation raises `TypeError`, whatever happens in between. -/
theorem C100_ordinary_first_partial (ops : OutOps Mat) (L : Likelihood) (f : PlainFn)
    (fs : List PlainFn) (hf : f.names ≠ []) (θ θ' : Dict Fl)
    (hθ : ∃ v, freshRatio ops L (f :: fs) θ = .ok v) (hθ' : ∃ v, freshRatio ops L (f :: fs) θ' = .ok v)
    (as : List LikelihoodAction) :
    (((newLikelihoodProcess L (f :: fs) true).run ops (.ordinary θ :: as)).evalJitted ops θ').1 =
      .error .typeError := by
  have hrun : ∀ (as : List LikelihoodAction) (p : LikelihoodProcess), UsedOrdinary L f fs p →
      UsedOrdinary L f fs (p.run ops as) := by
    intro as
    induction as with
    | nil => exact fun _ h => h
    | cons a as ih => exact fun p h => ih _ (h.step hf a)
  refine ((hrun as _ ?_).jitted hf θ').2 hθ'
  set p := newLikelihoodProcess L (f :: fs) true with hp
  have hk : KnownEntries p.likelihood.data p.model.numbered p.model.entries :=
    fun i f vals q _ h => by cases h
  obtain ⟨h1, h2, h3, h4, h5, h6⟩ := evalOrdinary_eq (ops := ops) (θ := θ) (Or.inr hk)
  obtain ⟨e1, -⟩ := stagedRatio_eager ops p.likelihood p.model θ (Or.inr hk)
  obtain ⟨v, hv⟩ := hθ
  have hv' : freshRatio ops p.likelihood p.model.functions θ = .ok v := hv
  rw [hv'] at e1
  obtain ⟨Θ', vals, -, hent⟩ := stagedRatio_first (f := f) (fs := fs) rfl rfl e1
  show UsedOrdinary L f fs (p.evalOrdinary ops θ).2
  refine ⟨by rw [h2]; rfl, by rw [h2]; rfl, h3, h4, ?_, ?_, h5⟩
  · rcases h6 with h6 | h6
    · cases h6
    · unfold StagedModel.numbered at h6 ⊢
      rw [h3]
      exact h6
  · rcases hent with ⟨-, h⟩ | ⟨q, h⟩
    · exact absurd rfl h
    · intro h0
      exact absurd (h.symm.trans h0) (by simp)

/-- The state of a caching model after a compiled evaluation. -/
structure UsedCompiled (L : Likelihood) (f : PlainFn) (fs : List PlainFn) (p : LikelihoodProcess) :
    Prop where
  conversion : p.likelihood.conversion = L.conversion
  functions : p.model.functions = f :: fs
  cache : p.model.cache = true
  entry : ∃ x xs q, p.model.entries 0 = some (x :: xs, q) ∧ ∀ a, x ≠ .known a

theorem UsedCompiled.step {ops : OutOps Mat} {L : Likelihood} {f : PlainFn} {fs : List PlainFn}
    {p : LikelihoodProcess} (h : UsedCompiled L f fs p) (hf : f.names ≠ []) (a : LikelihoodAction) :
    UsedCompiled L f fs (p.step ops a).2 ∧ ∀ θ, a = .ordinary θ →
      (∃ v, freshRatio ops L (f :: fs) θ = .ok v) → (p.evalOrdinary ops θ).1 = .error .typeError := by
  obtain ⟨x, xs, q, he, hx⟩ := h.entry
  obtain ⟨k, ks, hk⟩ := List.exists_cons_of_ne_nil hf
  cases a with
  | setMaximum u => exact ⟨⟨h.conversion, h.functions, h.cache, h.entry⟩, fun _ h => by cases h⟩
  | setOwnMaximum u => exact ⟨⟨h.conversion, h.functions, h.cache, h.entry⟩, fun _ h => by cases h⟩
  | ordinary θ =>
    obtain ⟨h1, err, h2, h3⟩ := stagedRatio_mismatch (c := .eager) (ops := ops)
      (L := p.likelihood) h.functions h.cache hk he (Or.inl hx) (.known θ)
    refine ⟨⟨h.conversion, ?_, ?_, ?_⟩, ?_⟩
    · show (stagedRatio .eager ops p.likelihood p.model (.known θ)).2.functions = _
      rw [h1]; exact h.functions
    · show (stagedRatio .eager ops p.likelihood p.model (.known θ)).2.cache = _
      rw [h1]; exact h.cache
    · show ∃ x xs q, (stagedRatio .eager ops p.likelihood p.model (.known θ)).2.entries 0 =
        some (x :: xs, q) ∧ _
      rw [h1]; exact h.entry
    · rintro θ' hθ hv
      cases hθ
      obtain ⟨Θ', vals, e1, e2⟩ := trace_reads hv (c := .eager) (Θ := .known θ) ⟨θ, rfl⟩
        (fun e _ => rfl)
      have herr := h3 Θ' vals (by rw [h.conversion]; exact e1) e2
      unfold LikelihoodProcess.evalOrdinary
      simp only [h2, error_bind, herr]
  | jitted θ =>
    refine ⟨?_, fun _ h => by cases h⟩
    show UsedCompiled L f fs (p.evalJitted ops θ).2
    cases hfind : p.compiled.find? (fun q => q.1 = parameterNames θ) with
    | some r => rw [evalJitted_found hfind]; exact h
    | none =>
      obtain ⟨h1, err, h2, -⟩ := stagedRatio_mismatch (c := .tracing p.traces θ) (ops := ops)
        (L := p.likelihood) h.functions h.cache hk he (Or.inl hx) (.tracer p.traces .ok)
      unfold LikelihoodProcess.evalJitted
      rw [hfind]
      simp only [h2, error_bind, h1]
      exact ⟨h.conversion, h.functions, h.cache, h.entry⟩

/-- **C100, what happens.** For the same population models: once a compiled evaluation has been made, every
ordinary evaluation raises `TypeError`, whatever happens in between. -/
theorem C100_jitted_first_partial (ops : OutOps Mat) (L : Likelihood) (f : PlainFn)
    (fs : List PlainFn) (hf : f.names ≠ []) (θ θ' : Dict Fl)
    (hθ : ∃ v, freshRatio ops L (f :: fs) θ = .ok v) (hθ' : ∃ v, freshRatio ops L (f :: fs) θ' = .ok v)
    (as : List LikelihoodAction) :
    (((newLikelihoodProcess L (f :: fs) true).run ops (.jitted θ :: as)).evalOrdinary ops θ').1 =
      .error .typeError := by
  have hrun : ∀ (as : List LikelihoodAction) (p : LikelihoodProcess), UsedCompiled L f fs p →
      UsedCompiled L f fs (p.run ops as) := by
    intro as
    induction as with
    | nil => exact fun _ h => h
    | cons a as ih => exact fun p h => ih _ (h.step hf a).1
  refine ((hrun as _ ?_).step hf (.ordinary θ')).2 θ' rfl hθ'
  set p := newLikelihoodProcess L (f :: fs) true with hp
  obtain ⟨v, hv⟩ := hθ
  obtain ⟨-, h2, h3, h4, -⟩ := evalJitted_new (ops := ops) (p := p) (θ₀ := θ) rfl
    (Or.inr fun _ => rfl) (G := (· = θ)) rfl (v := fun _ => v) (by rintro _ rfl; exact hv)
  obtain ⟨Y, hY, -⟩ := stagedRatio_sim (c := .tracing p.traces θ) (G := (· = θ)) rfl ops p.likelihood
    p.model (Θ := .tracer p.traces .ok) (θ := fun e => e) ⟨rfl, fun _ _ => rfl⟩ (Or.inr fun _ => rfl)
    (v := fun _ => v) (by rintro _ rfl; exact hv)
  obtain ⟨Θ', vals, hvals, hent⟩ := stagedRatio_first (f := f) (fs := fs) rfl rfl hY
  show UsedCompiled L f fs (p.evalJitted ops θ).2
  refine ⟨by rw [h2]; rfl, h3, h4, ?_⟩
  have hmodel : (p.evalJitted ops θ).2.model =
      (stagedRatio (.tracing p.traces θ) ops p.likelihood p.model (.tracer p.traces .ok)).2 := by
    have hfind : p.compiled.find? (fun q => q.1 = parameterNames θ) = none := rfl
    unfold LikelihoodProcess.evalJitted
    rw [hfind]
    simp only
    cases ((stagedRatio (.tracing p.traces θ) ops p.likelihood p.model (.tracer p.traces .ok)).1 >>=
      Staged.read (.tracing p.traces θ)) <;> rfl
  obtain ⟨k, ks, hk⟩ := List.exists_cons_of_ne_nil hf
  rw [hk] at hvals
  obtain ⟨x, xs, rfl, hx⟩ := mapM_op_head hvals
  rw [hmodel]
  rcases hent with ⟨-, h⟩ | ⟨q, h⟩
  · exact absurd rfl h
  · exact ⟨x, xs, q, h, op_tracing_ne hx⟩

/-! ### Counterexamples -/

/-- A population model that depends on one parameter formally and is always 1. -/
def flatFn : PlainFn := ⟨["alpha"], fun _ _ => .ok (matFin [[1, 1]])⟩

/-- A likelihood with one event of constant weights. -/
def flatJax (limit : Fl) : Likelihood :=
  { flatEvent .hyper (.pair true (fin 1) (fin 3)) limit with
    backend := .jax, maxVariance := Likelihood.maxVarianceOf limit }

theorem flatJax_estimate (limit : Fl) :
    Likelihood.lnLikelihoodAndVariance { flatJax limit with
      hyperPrior := ⟨(flatJax limit).hyperPrior.models, population matOps [flatFn]⟩ } [("alpha", fin 1)] =
      .ok (fin 0, fin 3) := by
  have := C44_estimator (self := { flatJax limit with
      hyperPrior := ⟨(flatJax limit).hyperPrior.models, population matOps [flatFn]⟩ }) rfl
    (θ := [("alpha", fin 1)]) rfl (P := [[1, 1]]) (prior := none) rfl rfl rfl (by simp) flatGood rfl
    (.inl ⟨true, rfl⟩ : reports (.pair true (fin 1) (fin 3)) 1 3) one_pos
  rw [this]
  norm_num [importance, lnLikelihood, lnLikelihoodVariance]
  norm_num [lnBayesFactor, relativeVariance, mean]

theorem flatJax_accepted : freshRatio matOps (flatJax pinf) [flatFn] [("alpha", fin 1)] = .ok (fin 0) :=
  C47_accepted_partial (flatJax_estimate pinf) isFloat_zero (show ¬ (pinf < fin 3) by simp)

theorem flatJax_withMaximum (u v : Fl) : withMaximum (flatJax u) v = flatJax v := rfl

theorem flatJax_rejected :
    freshRatio matOps (flatJax (fin 2)) [flatFn] [("alpha", fin 1)] = .ok (fin (-bigR)) :=
  C47_rejected_partial (flatJax_estimate (fin 2)) isFloat_zero (by positivity)
    (show fin 2 < fin 3 by rw [fin_lt]; norm_num)

/-- **C100 fails**: a likelihood with a function as `hyper_prior` that has been evaluated once cannot be
compiled any more. -/
theorem C100_fails : ¬ C100_statement := by
  intro h
  have h := h (flatJax pinf) [flatFn] true [.ordinary [("alpha", fin 1)], .jitted [("alpha", fin 1)]]
    rfl rfl (by
      intro θ hθ
      simp only [List.mem_cons, List.not_mem_nil, or_false, reduceCtorEq, false_or,
        LikelihoodAction.jitted.injEq] at hθ
      rw [hθ]
      exact ⟨_, flatJax_accepted⟩)
  have h1 := C100_ordinary_first_partial matOps (flatJax pinf) flatFn [] (by simp [flatFn])
    [("alpha", fin 1)] [("alpha", fin 1)] ⟨_, flatJax_accepted⟩ ⟨_, flatJax_accepted⟩ []
  have h2 := congrArg (fun l => l[1]?) h
  have h3 : some (some (((newLikelihoodProcess (flatJax pinf) [flatFn] true).run matOps
      [.ordinary [("alpha", fin 1)]]).evalJitted matOps [("alpha", fin 1)]).1) =
      some (some (freshRatio matOps (withMaximum (flatJax pinf) pinf) [flatFn] [("alpha", fin 1)])) := h2
  rw [h1, flatJax_withMaximum, flatJax_accepted] at h3
  cases h3

/-- **C100 fails**, also without the cache: a new `maximum_uncertainty` has no effect on a compiled
likelihood that has been evaluated before. The point should be rejected, but is not. -/
theorem C100_setting_fails :
    (newLikelihoodProcess (flatJax pinf) [flatFn] false).outcomes matOps
      [.jitted [("alpha", fin 1)], .setMaximum (fin 2), .jitted [("alpha", fin 1)]] =
        [some (.ok (fin 0)), none, some (.ok (fin 0))] ∧
    expected matOps [flatFn] (flatJax pinf) none
      [.jitted [("alpha", fin 1)], .setMaximum (fin 2), .jitted [("alpha", fin 1)]] =
        [some (.ok (fin 0)), none, some (.ok (fin (-bigR)))] := by
  constructor
  · rw [C100_frozen_partial matOps _ _ false _ ?_ (Or.inl rfl)]
    · show (some (freshRatio matOps (flatJax pinf) [flatFn] [("alpha", fin 1)]) :: none :: (match
        List.find? (fun q : Set String × Likelihood => q.1 = namesOf [("alpha", fin 1)])
          [(namesOf [("alpha", fin 1)], flatJax pinf)] with
        | some q => some (freshRatio matOps q.2 [flatFn] [("alpha", fin 1)]) :: []
        | none => some (freshRatio matOps (withMaximum (flatJax pinf) (fin 2)) [flatFn]
            [("alpha", fin 1)]) :: [])) = _
      rw [List.find?_cons_of_pos (by simp)]
      simp only
      rw [flatJax_accepted]
    · intro θ hθ
      simp only [List.mem_cons, List.not_mem_nil, or_false, reduceCtorEq, false_or,
        LikelihoodAction.jitted.injEq, or_self] at hθ
      rw [hθ]
      exact ⟨_, flatJax_accepted⟩
  · show [some (freshRatio matOps (withMaximum (flatJax pinf) pinf) [flatFn] [("alpha", fin 1)]), none,
      some (freshRatio matOps (flatJax (fin 2)) [flatFn] [("alpha", fin 1)])] = _
    rw [flatJax_withMaximum, flatJax_accepted, flatJax_rejected]

theorem likelihood_evalOrdinary (ops : OutOps Mat) (p : LikelihoodProcess) (θ : Dict Fl) :
    (p.evalOrdinary ops θ).2.likelihood = p.likelihood ∧ (p.evalOrdinary ops θ).2.own = p.own :=
  ⟨rfl, rfl⟩

theorem likelihood_evalJitted (ops : OutOps Mat) (p : LikelihoodProcess) (θ : Dict Fl) :
    (p.evalJitted ops θ).2.likelihood = p.likelihood ∧ (p.evalJitted ops θ).2.own = p.own := by
  unfold LikelihoodProcess.evalJitted
  split
  · exact ⟨rfl, rfl⟩
  · dsimp only
    split <;> exact ⟨rfl, rfl⟩

/-- **C100**: after every sequence of actions, the compiled likelihood reports the value of
`maximum_uncertainty` that was assigned to it last, or that of the likelihood; the likelihood never reports
what was assigned to the compiled one. -/
theorem C100_attribute (ops : OutOps Mat) (p : LikelihoodProcess) (as : List LikelihoodAction) :
    (p.run ops as).maximumUncertainty = attributeAfter p.own p.likelihood.maximumUncertainty as ∧
    (p.run ops as).likelihood.maximumUncertainty = attributeAfter none p.likelihood.maximumUncertainty
      (as.filter fun a => match a with | .setOwnMaximum _ => false | _ => true) := by
  induction as generalizing p with
  | nil => exact ⟨rfl, rfl⟩
  | cons a as ih =>
    cases a with
    | ordinary θ => exact ih (p.evalOrdinary ops θ).2
    | setMaximum u => exact ih (p.setMaximum u)
    | setOwnMaximum u => exact ih { p with own := some u }
    | jitted θ =>
      have h := ih (p.evalJitted ops θ).2
      rw [(likelihood_evalJitted ops p θ).1, (likelihood_evalJitted ops p θ).2] at h
      exact h

example : ((newLikelihoodProcess (flatJax pinf) [flatFn] false).run matOps
    [.jitted [("alpha", fin 1)], .setOwnMaximum (fin 2), .setMaximum (fin 3)]).maximumUncertainty = fin 2 :=
  (C100_attribute _ _ _).1

/-- **C100, what happens** if the likelihood was constructed with a function: whichever of the two objects
is evaluated first, the other one raises `TypeError` from then on. -/
theorem C100_function_partial (ops : OutOps Mat) (L : Likelihood) (f : PlainFn) (hf : f.names ≠ [])
    (θ θ' : Dict Fl) (hθ : ∃ v, freshRatio ops L [f] θ = .ok v)
    (hθ' : ∃ v, freshRatio ops L [f] θ' = .ok v) (as : List LikelihoodAction) :
    (((functionLikelihoodProcess L f).run ops (.ordinary θ :: as)).evalJitted ops θ').1 =
      .error .typeError ∧
    (((functionLikelihoodProcess L f).run ops (.jitted θ :: as)).evalOrdinary ops θ').1 =
      .error .typeError :=
  ⟨C100_ordinary_first_partial ops L f [] hf θ θ' hθ hθ' as,
    C100_jitted_first_partial ops L f [] hf θ θ' hθ hθ' as⟩

example : (((functionLikelihoodProcess (flatJax pinf) flatFn).run matOps
    [.ordinary [("alpha", fin 1)], .setMaximum (fin 2)]).evalJitted matOps [("alpha", fin 1)]).1 =
      .error .typeError :=
  (C100_function_partial matOps (flatJax pinf) flatFn (by simp [flatFn]) _ _ ⟨_, flatJax_accepted⟩
    ⟨_, flatJax_accepted⟩ [.setMaximum (fin 2)]).1

theorem lengths_zip {p q : Mat} (h : p.map List.length = q.map List.length) :
    (List.zipWith (List.zipWith (· * ·)) p q).map List.length = p.map List.length := by
  induction p generalizing q with
  | nil => rfl
  | cons r p ih =>
    cases q with
    | nil => simp at h
    | cons s q =>
      simp only [List.map_cons, List.cons.injEq] at h
      simp only [List.zipWith_cons_cons, List.map_cons, ih h.2, List.length_zipWith, ← h.1, min_self]

theorem row_zip {r s : List Fl} (h : r.length = s.length) (j : ℕ) (hj : j < r.length) :
    (List.zipWith (· * ·) r s).getD j nan = r.getD j nan * s.getD j nan := by
  have h1 : j < (List.zipWith (· * ·) r s).length := by rw [List.length_zipWith, ← h, min_self]; exact hj
  have h2 : j < s.length := h ▸ hj
  rw [List.getD_eq_getElem _ _ h1, List.getD_eq_getElem _ _ hj, List.getD_eq_getElem _ _ h2,
    List.getElem_zipWith]

theorem entryAt_zip {p q : Mat} (h : p.map List.length = q.map List.length) (i j : ℕ)
    (hj : j < ((p.map List.length).getD i 0)) :
    entryAt (List.zipWith (List.zipWith (· * ·)) p q) i j = entryAt p i j * entryAt q i j := by
  induction p generalizing q i with
  | nil => simp at hj
  | cons r p ih =>
    cases q with
    | nil => simp at h
    | cons s q =>
      simp only [List.map_cons, List.cons.injEq] at h
      cases i with
      | zero => exact row_zip h.1 j (by simpa using hj)
      | succ i => exact ih h.2 i (by simpa using hj)

theorem populationFrom_product (data : Dict Mat) (θ : Dict Fl) (fs : List PlainFn) (Q : PlainFn → Mat)
    (p : Mat) (hp : p ≠ [])
    (hQ : ∀ g ∈ fs, (do let vals ← g.names.mapM (fun k => Dict.get θ k); g.call data vals) = .ok (Q g) ∧
      (Q g).map List.length = p.map List.length) :
    ∃ P, populationFrom matOps data θ fs p = .ok P ∧ P.map List.length = p.map List.length ∧
      ∀ i j, j < (p.map List.length).getD i 0 →
        entryAt P i j = (fs.map fun g => entryAt (Q g) i j).foldl (· * ·) (entryAt p i j) := by
  induction fs generalizing p with
  | nil => exact ⟨p, rfl, rfl, fun i j _ => rfl⟩
  | cons g fs ih =>
    obtain ⟨h1, h2⟩ := hQ g (by simp)
    rw [bind_eq_ok] at h1
    obtain ⟨vals, hv, hc⟩ := h1
    have hlen := lengths_zip h2.symm
    have hne : List.zipWith (List.zipWith (· * ·)) p (Q g) ≠ [] := by
      intro h0
      rw [h0] at hlen
      exact hp (List.map_eq_nil_iff.1 hlen.symm)
    obtain ⟨P, e1, e2, e3⟩ := ih _ hne (fun g' hg' => by
      rw [hlen]
      exact hQ g' (by simp [hg']))
    refine ⟨P, ?_, e2.trans hlen, ?_⟩
    · unfold populationFrom
      rw [hv, ok_bind, hc, ok_bind]
      simp only [matOps, if_neg hp, if_pos h2.symm]
      exact e1
    · intro i j hj
      rw [e3 i j (by rw [hlen]; exact hj), entryAt_zip h2.symm i j hj]
      rfl

/-- **C100, the reference value**: the population probability with which the evaluations are compared is, at
every sample of every event, the product of the values of the functions. -/
theorem C100_product (data : Dict Mat) (θ : Dict Fl) (f : PlainFn) (fs : List PlainFn) (Q : PlainFn → Mat)
    (rows : List ℕ) (hrows : rows ≠ [])
    (hQ : ∀ g ∈ f :: fs, (do let vals ← g.names.mapM (fun k => Dict.get θ k); g.call data vals) = .ok (Q g) ∧
      (Q g).map List.length = rows) :
    ∃ P, population matOps (f :: fs) data θ = .ok P ∧ P.map List.length = rows ∧
      ∀ i j, j < rows.getD i 0 →
        entryAt P i j = (fs.map fun g => entryAt (Q g) i j).foldl (· * ·) (entryAt (Q f) i j) := by
  obtain ⟨h1, h2⟩ := hQ f (by simp)
  rw [bind_eq_ok] at h1
  obtain ⟨vals, hv, hc⟩ := h1
  have hne : Q f ≠ [] := by
    intro h0
    rw [h0] at h2
    exact hrows h2.symm
  obtain ⟨P, e1, e2, e3⟩ := populationFrom_product data θ fs Q (Q f) hne (fun g hg => by
    rw [h2]; exact hQ g (by simp [hg]))
  refine ⟨P, ?_, e2.trans h2, fun i j hj => e3 i j (by rw [h2]; exact hj)⟩
  unfold population populationFrom
  rw [hv, ok_bind, hc, ok_bind]
  exact e1

/-- Two functions, one event with two samples. -/
example : ∃ P, population matOps [⟨["a"], fun _ v => .ok [[v.headD 0, 2]]⟩, ⟨[], fun _ _ => .ok [[5, 7]]⟩] []
    [("a", fin 3)] = .ok P ∧ entryAt P 0 0 = fin 3 * 5 ∧ entryAt P 0 1 = 2 * 7 := by
  obtain ⟨P, h1, -, h3⟩ := C100_product [] [("a", fin 3)] ⟨["a"], fun _ v => .ok [[v.headD 0, 2]]⟩
    [⟨[], fun _ _ => .ok [[5, 7]]⟩] (fun g => if g.names = [] then [[5, 7]] else [[fin 3, 2]]) [2] (by simp)
    (by
      intro g hg
      simp only [List.mem_cons, List.not_mem_nil, or_false] at hg
      rcases hg with rfl | rfl
      · exact ⟨rfl, rfl⟩
      · exact ⟨rfl, rfl⟩)
  exact ⟨P, h1, h3 0 0 (by simp), h3 0 1 (by simp)⟩

/-- The hypotheses of `C100_unchanged_partial` hold: the limit is set, then both objects are used. -/
example : (newLikelihoodProcess (flatJax pinf) [flatFn] false).outcomes matOps
    ([.ordinary [("alpha", fin 1)], .setMaximum (fin 2)] ++
      [.jitted [("alpha", fin 1)], .ordinary [("alpha", fin 1)], .jitted [("alpha", fin 1)]]) =
    [some (.ok (fin 0)), none, some (.ok (fin (-bigR))), some (.ok (fin (-bigR))),
      some (.ok (fin (-bigR)))] := by
  rw [C100_unchanged_partial matOps (flatJax pinf) [flatFn] false rfl _ _ ?_ ?_ ?_ (Or.inl rfl)]
  · show [some (freshRatio matOps (flatJax pinf) [flatFn] [("alpha", fin 1)]), none,
      some (freshRatio matOps (flatJax (fin 2)) [flatFn] [("alpha", fin 1)]),
      some (freshRatio matOps (flatJax (fin 2)) [flatFn] [("alpha", fin 1)]),
      some (freshRatio matOps (flatJax (fin 2)) [flatFn] [("alpha", fin 1)])] = _
    rw [flatJax_accepted, flatJax_rejected]
  · intro a ha
    simp only [List.mem_cons, List.not_mem_nil, or_false] at ha
    rcases ha with rfl | rfl
    · exact Or.inl ⟨_, rfl⟩
    · exact Or.inr ⟨_, rfl⟩
  · intro a ha
    simp only [List.mem_cons, List.not_mem_nil, or_false] at ha
    rcases ha with rfl | rfl | rfl
    · exact ⟨_, Or.inr rfl⟩
    · exact ⟨_, Or.inl rfl⟩
    · exact ⟨_, Or.inr rfl⟩
  · intro θ hθ
    simp only [List.mem_cons, List.not_mem_nil, or_false, reduceCtorEq, false_or,
      LikelihoodAction.jitted.injEq, or_self] at hθ
    rw [hθ]
    exact ⟨_, flatJax_accepted⟩

end GW
