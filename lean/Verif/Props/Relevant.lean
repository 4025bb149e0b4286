import Verif.Props.AnalysisLimit
import Verif.Props.RedshiftNames
import Verif.Props.ExtraStatisticsSteps

/-!
# C148: only the declared hyper-parameters matter

A sampler passes all hyper-parameters of an analysis to the likelihood: sampled ones, fixed ones, derived ones, in some
order. Dictionaries that agree on the names that the population models declare give the same outcomes, whatever else
they contain and in whatever order.
-/

noncomputable section

open Classical

namespace GW

open Fl

namespace Spec

/-- Two dictionaries agree on some names: the same values, and the same of the names are missing. -/
def SameHyper {V : Type} (names : List String) (θ θ' : Dict V) : Prop := ∀ k ∈ names, θ.get? k = θ'.get? k

/-- The same exception, or results that are related. -/
def SameUpTo {α : Type} (R : α → α → Prop) (x y : Except PyErr α) : Prop :=
  (∃ e, x = .error e ∧ y = .error e) ∨ ∃ a a', x = .ok a ∧ y = .ok a' ∧ R a a'

/-- The hyper-parameters of a function of a population model are among some names: the `variable_names` of a smoothed
mass distribution, the signature of another function. -/
def Declares (names : List String) : PopFn → Prop
  | .smoothed _ n => n ⊆ names
  | .pointwise f => ∃ n, n ⊆ names ∧ f.select = bySignature n

/-- The names that the likelihood of a class reads itself. -/
def ownNames : LikelihoodClass → List String
  | .rate => ["rate"]
  | _ => []

/-- The functions of a likelihood read some names only. -/
structure ReadsOnly (names : List String) (lik : Likelihood) : Prop where
  conversion : ∀ d d', SameHyper names d d' → SameUpTo (SameHyper names) (lik.conversion d) (lik.conversion d')
  prior : ∀ d d', SameHyper names d d' → lik.hyperPrior.prob lik.data d = lik.hyperPrior.prob lik.data d'
  selection : ∀ d d', SameHyper names d d' → lik.selection.call d = lik.selection.call d'
  rate : ∀ e v, lik.selection.rate = some (e, v) → ∀ d d', SameHyper names d d' → e d = e d' ∧ v d = v d'
  own : ownNames lik.cls ⊆ names

end Spec

open Spec

/-! ## Signatures -/

theorem bySignature_same {names n : List String} (hn : n ⊆ names) {θ θ' : Dict Fl} (h : SameHyper names θ θ') :
    bySignature n θ = bySignature n θ' := by
  unfold bySignature
  exact mapM_congr fun k hk => by rw [get_congr (h k (hn hk))]

theorem Spec.SameHyper.of_perm {θ θ' : Dict Fl} (names : List String) (h : θ.Perm θ') (hd : (θ.map Prod.fst).Nodup) :
    SameHyper names θ θ' := by
  intro k _
  induction h with
  | nil => rfl
  | cons x _ ih =>
    obtain ⟨a, v⟩ := x
    rw [List.map_cons, List.nodup_cons] at hd
    rw [Dict.get?_cons, Dict.get?_cons, ih hd.2]
  | swap x y l =>
    obtain ⟨a, v⟩ := x
    obtain ⟨c, w⟩ := y
    simp only [List.map_cons, List.nodup_cons, List.mem_cons, not_or] at hd
    rw [Dict.get?_cons, Dict.get?_cons, Dict.get?_cons, Dict.get?_cons]
    by_cases h1 : k = a <;> by_cases h2 : k = c <;> simp [h1, h2]
    · exact absurd (h2.symm.trans h1) hd.1.1
    all_goals aesop
  | trans h1 _ ih1 ih2 =>
    exact (ih1 hd).trans (ih2 ((h1.map Prod.fst).nodup_iff.1 hd))

/-! ## A population model with memory -/

theorem PopFn.select_same {names : List String} {f : PopFn} (hf : Declares names f) {θ θ' : Dict Fl}
    (h : SameHyper names θ θ') : f.select θ = f.select θ' := by
  cases f with
  | smoothed ref n => exact bySignature_same hf h
  | pointwise f =>
    obtain ⟨n, hn, hs⟩ := hf
    show f.select θ = f.select θ'
    rw [hs]
    exact bySignature_same hn h

theorem PopObject.loop_same (b : Backend) (same : Dict Fl → Dict Fl → Prop) (cache : Bool) (data : Columns)
    {names : List String} {θ θ' : Dict Fl} (h : SameHyper names θ θ') (fs : List PopFn)
    (hf : ∀ f ∈ fs, Declares names f) : ∀ k p entries mem,
    PopObject.loop b same cache data θ k fs p entries mem = PopObject.loop b same cache data θ' k fs p entries mem := by
  induction fs with
  | nil => intros; rfl
  | cons f fs ih =>
    intro k p entries mem
    have ih := ih fun g hg => hf g (List.mem_cons_of_mem _ hg)
    unfold PopObject.loop
    rw [PopFn.select_same (hf f List.mem_cons_self) h]
    simp only [ih]

theorem PopObject.prob_same (b : Backend) (same : Dict Fl → Dict Fl → Prop) (o : PopObject) (mem : Instances)
    (data : Columns) {names : List String} {θ θ' : Dict Fl} (h : SameHyper names θ θ')
    (hf : ∀ f ∈ o.models, Declares names f) : o.prob b same mem data θ = o.prob b same mem data θ' := by
  unfold PopObject.prob
  rw [PopObject.loop_same b same o.cache data h o.models hf]

/-! ## Likelihoods -/

theorem perEvent_same {names : List String} {lik : Likelihood} (hl : ReadsOnly names lik) {φ φ' : Dict Fl}
    (h : SameHyper names φ φ') : lik.perEvent φ = lik.perEvent φ' := by
  unfold Likelihood.perEvent Likelihood.weights
  rw [hl.prior φ φ' h]

theorem selectionWithUncertainty_same {names : List String} {lik : Likelihood} (hl : ReadsOnly names lik)
    {φ φ' : Dict Fl} (h : SameHyper names φ φ') :
    lik.selectionWithUncertainty φ = lik.selectionWithUncertainty φ' := by
  unfold Likelihood.selectionWithUncertainty
  rw [hl.selection φ φ' h]

theorem selectionFactor_same {names : List String} {lik : Likelihood} (hl : ReadsOnly names lik) {φ φ' : Dict Fl}
    (h : SameHyper names φ φ') : lik.selectionFactor φ = lik.selectionFactor φ' := by
  have hs := selectionWithUncertainty_same hl h
  unfold Likelihood.selectionFactor
  cases hc : lik.cls with
  | rate =>
    have hr : φ.get "rate" = φ'.get "rate" :=
      get_congr (h "rate" (hl.own (by rw [hc]; exact List.mem_singleton.2 rfl)))
    simp only [Likelihood.selectionFactorRate, hs, hr]
  | _ => simp only [Likelihood.selectionFactorHyper, hs]

theorem lnLikelihoodAndVariance_same {names : List String} {lik : Likelihood} (hl : ReadsOnly names lik)
    {θ θ' : Dict Fl} (h : SameHyper names θ θ') :
    lik.lnLikelihoodAndVariance θ = lik.lnLikelihoodAndVariance θ' := by
  unfold Likelihood.lnLikelihoodAndVariance Likelihood.lnLikelihoodAndVarianceBase
  rcases hl.conversion θ θ' h with ⟨e, h1, h2⟩ | ⟨φ, φ', h1, h2, h3⟩
  · rw [h1, h2]
  · rw [h1, h2]
    simp only [ok_bind, perEvent_same hl h3, selectionFactor_same hl h3]

/-- **C148, the likelihood.** Let the conversion, the population model and the selection function read some names only.
Hyper-parameters that agree on these names give the same log-likelihood and variance, the same result of the methods
used by samplers, and the same drawn rate. -/
theorem C148_likelihood {names : List String} {lik : Likelihood} (hl : ReadsOnly names lik) {θ θ' : Dict Fl}
    (h : SameHyper names θ θ') :
    lik.lnLikelihoodAndVariance θ = lik.lnLikelihoodAndVariance θ' ∧
    lik.logLikelihoodRatio θ = lik.logLikelihoodRatio θ' ∧
    lik.logLikelihood θ = lik.logLikelihood θ' ∧
    ∀ g, lik.generateRatePosteriorSample g θ = lik.generateRatePosteriorSample g θ' := by
  have h1 := lnLikelihoodAndVariance_same hl h
  have h2 : lik.logLikelihoodRatio θ = lik.logLikelihoodRatio θ' := by
    unfold Likelihood.logLikelihoodRatio
    rw [h1]
  refine ⟨h1, h2, ?_, fun g => ?_⟩
  · unfold Likelihood.logLikelihood
    rw [h2]
  · unfold Likelihood.generateRatePosteriorSample
    cases hc : lik.cls with
    | rate => exact get_congr (h "rate" (hl.own (by rw [hc]; exact List.mem_singleton.2 rfl)))
    | _ =>
      simp only
      cases hr : lik.selection.rate with
      | none => simp only [hl.selection θ θ' h]
      | some ev =>
        obtain ⟨e, v⟩ := ev
        simp only [(hl.rate e v hr θ θ' h).1, (hl.rate e v hr θ θ' h).2]

theorem extraWrites_same {names : List String} {lik : Likelihood} (hl : ReadsOnly names lik) {d d' : Dict Fl}
    (h : SameHyper names d d') : lik.extraWrites d = lik.extraWrites d' := by
  unfold Likelihood.extraWrites
  rcases hl.conversion d d' h with ⟨e, h1, h2⟩ | ⟨φ, φ', h1, h2, h3⟩
  · rw [h1, h2]
  · rw [h1, h2]
    simp only [perEvent_same hl h3, selectionWithUncertainty_same hl h3]

/-- **C148, the statistics.** `generate_extra_statistics` for two samples that agree on the names raises the same
exception or gives dictionaries that agree on the names and on all statistics; the other entries are those of the
sample given. -/
theorem C148_statistics {names : List String} {lik : Likelihood} (hl : ReadsOnly names lik) {θ θ' : Dict Fl}
    (h : SameHyper names θ θ') :
    SameUpTo (fun out out' =>
      SameHyper names out out' ∧
      SameHyper (statisticNames lik.nPosteriors) out out' ∧
      ∀ k, k ∉ statisticNames lik.nPosteriors → out.get? k = θ.get? k ∧ out'.get? k = θ'.get? k)
      (lik.generateExtraStatistics θ) (lik.generateExtraStatistics θ') := by
  have hw := extraWrites_same hl h
  have hk := extraWrites_keys lik θ
  rw [C127_refines, C127_refines, ← hw]
  cases h2 : (lik.extraWrites θ).2 with
  | some e => exact .inl ⟨e, rfl, rfl⟩
  | none =>
    have hk := hk.2 h2
    refine .inr ⟨_, _, rfl, rfl, ?_, ?_, ?_⟩ <;> unfold Likelihood.extraAfter <;> rw [← hw]
    · intro k hk'
      rw [applyWrites_get?, applyWrites_get?, h k hk']
    · intro k hk'
      rw [← hk] at hk'
      obtain ⟨⟨k, v⟩, hm, rfl⟩ := List.mem_map.1 hk'
      have nd : ((lik.extraWrites θ).1.map Prod.fst).Nodup := by rw [hk]; exact statisticNames_nodup _
      rw [applyWrites_mem _ nd hm, applyWrites_mem _ nd hm]
    · intro k hk'
      rw [← hk] at hk'
      exact ⟨applyWrites_other _ hk', applyWrites_other _ hk'⟩

/-- **C148, predictive samples.** `posterior_predictive_resample` for hyper-samples that agree one by one on the names
gives the same, if the same random numbers are drawn. -/
theorem C148_predictive {names : List String} {lik : Likelihood} (hl : ReadsOnly names lik)
    {samples samples' : List (Dict Fl)} (h : List.Forall₂ (SameHyper names) samples samples')
    (choices : List (List ℕ)) :
    lik.posteriorPredictiveResample samples choices = lik.posteriorPredictiveResample samples' choices := by
  have hloop : ∀ acc, lik.ppdWeightsLoop acc samples = lik.ppdWeightsLoop acc samples' := by
    induction h with
    | nil => exact fun _ => rfl
    | @cons θ θ' _ _ h1 _ ih =>
      intro acc
      unfold Likelihood.ppdWeightsLoop
      rcases hl.conversion θ θ' h1 with ⟨e, h2, h3⟩ | ⟨φ, φ', h2, h3, h4⟩
      · rw [h2, h3]
        rfl
      · have hw : lik.weights φ = lik.weights φ' := by
          unfold Likelihood.weights
          rw [hl.prior φ φ' h4]
        rw [h2, h3]
        simp only [ok_bind, hw, ih]
  unfold Likelihood.posteriorPredictiveResample Likelihood.ppdWeights
  rw [hloop]

/-! ## Analyses with memory -/

namespace Analysis

theorem withValues_reads (a : Analysis) (p q : Except PyErr (Shaped Fl)) {names : List String}
    (hown : ownNames a.likelihood.cls ⊆ names) {φ φ' : Dict Fl} (h : SameHyper names φ φ') :
    (a.withValues p q).perEvent φ = (a.withValues p q).perEvent φ' ∧
    (a.withValues p q).selectionFactor φ = (a.withValues p q).selectionFactor φ' := by
  have hs : (a.withValues p q).selectionWithUncertainty φ = (a.withValues p q).selectionWithUncertainty φ' := rfl
  refine ⟨rfl, ?_⟩
  unfold Likelihood.selectionFactor
  cases hc : (a.withValues p q).cls with
  | rate =>
    have hc' : a.likelihood.cls = .rate := hc
    have hr : φ.get "rate" = φ'.get "rate" :=
      get_congr (h "rate" (hown (by rw [hc']; exact List.mem_singleton.2 rfl)))
    simp only [Likelihood.selectionFactorRate, hs, hr]
  | _ => simp only [Likelihood.selectionFactorHyper, hs]

/-- **C148, the analysis.** Whatever the models and the instances of mass distributions remember: an evaluation at two
dictionaries that agree, after the conversion, on the declared names has the same outcome and leaves the same analysis
behind. -/
theorem C148_analysis (b : Backend) (same : Dict Fl → Dict Fl → Prop) (a : Analysis) {names : List String}
    (hnum : ∀ f ∈ a.numerator.models, Declares names f) (hden : ∀ f ∈ a.denominator.models, Declares names f)
    (hown : ownNames a.likelihood.cls ⊆ names) {θ θ' : Dict Fl}
    (h : SameUpTo (SameHyper names) (a.likelihood.conversion θ) (a.likelihood.conversion θ')) :
    a.evaluate b same θ = a.evaluate b same θ' := by
  rcases h with ⟨e, h1, h2⟩ | ⟨φ, φ', h1, h2, h3⟩
  · unfold evaluate
    rw [h1, h2]
  · unfold evaluate
    rw [h1, h2]
    simp only
    rw [PopObject.prob_same b same a.numerator a.instances a.events h3 hnum]
    set r := a.numerator.prob b same a.instances a.events φ' with hr
    set a' : Analysis := { a with numerator := r.2.1, instances := r.2.2 } with ha'
    rw [PopObject.prob_same b same a'.denominator a'.instances a'.injections h3 hden]
    set t := a'.denominator.prob b same a'.instances a'.injections φ' with ht
    rw [(a'.withValues_reads r.1 (.error .notImplemented) hown h3).1]
    have hval : (a'.withValues r.1 t.1).lnLikelihoodAndVariance θ =
        (a'.withValues r.1 t.1).lnLikelihoodAndVariance θ' := by
      have c1 : (a'.withValues r.1 t.1).conversion θ = .ok φ := h1
      have c2 : (a'.withValues r.1 t.1).conversion θ' = .ok φ' := h2
      have hv := a'.withValues_reads r.1 t.1 hown h3
      unfold Likelihood.lnLikelihoodAndVariance Likelihood.lnLikelihoodAndVarianceBase
      rw [c1, c2]
      simp only [ok_bind, hv.1, hv.2]
    rw [hval]

theorem evaluate_frame (b : Backend) (same : Dict Fl → Dict Fl → Prop) (a : Analysis) (θ : Dict Fl) :
    (a.evaluate b same θ).2.likelihood = a.likelihood ∧
    (a.evaluate b same θ).2.numerator.models = a.numerator.models ∧
    (a.evaluate b same θ).2.denominator.models = a.denominator.models := by
  unfold evaluate
  cases a.likelihood.conversion θ with
  | error e => exact ⟨rfl, rfl, rfl⟩
  | ok φ =>
    simp only
    split <;> exact ⟨rfl, rfl, rfl⟩

/-- **C148, histories.** The analysis after a history of evaluations is the same as after a history of evaluations at
dictionaries that agree, one by one, on the declared names. -/
theorem C148_history (b : Backend) (same : Dict Fl → Dict Fl → Prop) {names : List String}
    {hist hist' : List (Dict Fl)} (a : Analysis)
    (hnum : ∀ f ∈ a.numerator.models, Declares names f) (hden : ∀ f ∈ a.denominator.models, Declares names f)
    (hown : ownNames a.likelihood.cls ⊆ names)
    (h : List.Forall₂ (fun θ θ' => SameUpTo (SameHyper names) (a.likelihood.conversion θ)
      (a.likelihood.conversion θ')) hist hist') :
    a.run b same hist = a.run b same hist' := by
  induction hist generalizing hist' a with
  | nil => cases h; rfl
  | cons θ hist ih =>
    cases h with
    | cons h1 h2 =>
      unfold run
      rw [← C148_analysis b same a hnum hden hown h1]
      obtain ⟨f1, f2, f3⟩ := evaluate_frame b same a θ
      exact ih _ (by rw [f2]; exact hnum) (by rw [f3]; exact hden) (by rw [f1]; exact hown) (by rw [f1]; exact h2)

/-- Non-vacuity: an analysis with two smoothed instances, a history at two points; one more entry and another order of
the entries. -/
example (b : Backend) (same : Dict Fl → Dict Fl → Prop) (L : Likelihood) (hL : ∀ d, L.conversion d = .ok d)
    (hc : L.cls = .hyper) (V : ResamplingVT) (k n I : ℕ) (x y : List ℕ → Source) (s : Smoothed) (u v w : Fl) :
    (twoInstances L V k n I x y true ["alpha", "mmin"] [] s).run b same
        [[("alpha", u), ("mmin", v)], [("mmin", w), ("alpha", u)]] =
      (twoInstances L V k n I x y true ["alpha", "mmin"] [] s).run b same
        [[("mmin", v), ("alpha", u)], [("alpha", u), ("rate", v), ("mmin", w)]] := by
  have hd : ∀ f ∈ [PopFn.smoothed 0 ["alpha", "mmin"], .smoothed 1 ["alpha", "mmin"]],
      Declares ["alpha", "mmin"] f := by
    intro f hf
    simp only [List.mem_cons, List.not_mem_nil, or_false] at hf
    rcases hf with rfl | rfl <;> exact List.Subset.refl _
  have key : ∀ d d' : Dict Fl, SameHyper ["alpha", "mmin"] d d' →
      SameUpTo (SameHyper ["alpha", "mmin"]) (L.conversion d) (L.conversion d') :=
    fun d d' h => .inr ⟨d, d', hL d, hL d', h⟩
  refine C148_history b same (names := ["alpha", "mmin"]) _ (fun f hf => ?_) (fun f hf => ?_) ?_
    (.cons (key _ _ ?_) (.cons (key _ _ ?_) .nil))
  · exact hd f (by simp [twoInstances, PopObject.new] at hf; simp [hf])
  · exact hd f (by simp [twoInstances, PopObject.new] at hf; simp [hf])
  · intro j hj
    simp [twoInstances, hc, ownNames] at hj
  all_goals
    intro j hj
    simp only [List.mem_cons, List.not_mem_nil, or_false] at hj
    rcases hj with rfl | rfl <;> simp [Dict.get?_cons]

end Analysis

/-! ## The conversion of spin parameters -/

/-- The names that `convert_to_beta_parameters` reads. -/
def Spec.conversionNames : List String :=
  ["_1", "_2", ""].flatMap fun s => ["alpha_chi" ++ s, "beta_chi" ++ s, "mu_chi" ++ s, "sigma_chi" ++ s, "amax" ++ s]

theorem contains_same {V : Type} {d d' : Dict V} {k : String} (h : d.get? k = d'.get? k) :
    (d.contains k ↔ d'.contains k) := by
  have key : ∀ d : Dict V, d.contains k ↔ ∃ v, d.get? k = some v := by
    intro d
    have := Dict.get?_eq_none_iff (d := d) (k := k)
    cases hd : d.get? k with
    | none => simpa using this.1 hd
    | some v =>
      simp only [Option.some.injEq, exists_eq', iff_true]
      by_contra hn
      rw [this.2 (by simpa using hn)] at hd
      cases hd
  rw [key, key, h]

theorem get_same {V : Type} {d d' : Dict V} {k : String} (h : d.get? k = d'.get? k) : d.get k = d'.get k := by
  unfold Dict.get
  rw [h]

/-- The states of the conversion agree. -/
def Spec.SameConv {V σ : Type} (names : List String) (st st' : ConvState V σ) : Prop :=
  SameHyper names st.converted st'.converted ∧ st.added = st'.added ∧ st.world = st'.world

theorem set_same {V : Type} {names : List String} {d d' : Dict V} (h : SameHyper names d d') (k : String) (v : V) :
    SameHyper names (d.set k v) (d'.set k v) := by
  intro j hj
  rw [Dict.get?_set, Dict.get?_set, h j hj]

theorem convertSuffix_same {V σ : Type} (ops : ConvOps V σ) (remove : Bool) {names : List String} {s : String}
    (hs : ["alpha_chi" ++ s, "beta_chi" ++ s, "mu_chi" ++ s, "sigma_chi" ++ s, "amax" ++ s] ⊆ names)
    {p p' : Dict V} (hp : SameHyper names p p') {st st' : ConvState V σ} (hst : SameConv names st st') :
    SameUpTo (fun r r' => r.1 = r'.1 ∧ SameConv names r.2 r'.2)
      (convertSuffix ops p remove s st) (convertSuffix ops p' remove s st') := by
  obtain ⟨hc, ha, hw⟩ := hst
  simp only [List.cons_subset, List.nil_subset, and_true] at hs
  obtain ⟨n1, n2, n3, n4, n5⟩ := hs
  have hneed : conversionNeeded ops p st.converted ("alpha_chi" ++ s) ("beta_chi" ++ s) =
      conversionNeeded ops p' st'.converted ("alpha_chi" ++ s) ("beta_chi" ++ s) := by
    unfold conversionNeeded
    rw [hp _ n1, hp _ n2, hc _ n1, hc _ n2]
  unfold convertSuffix
  simp only
  rw [hneed, get_same (hp _ n3), get_same (hp _ n4), get_same (hp _ n5), hw, ha]
  simp only [contains_same (hc _ n3), contains_same (hc _ n4)]
  split_ifs with c1 c2 c3
  all_goals try exact .inr ⟨(false, st), (false, st'), rfl, rfl, rfl, hc, ha, hw⟩
  all_goals try exact .inr ⟨(true, st), (true, st'), rfl, rfl, rfl, hc, ha, hw⟩
  all_goals
    cases Dict.get p' ("mu_chi" ++ s) with
    | error e => exact .inl ⟨e, rfl, rfl⟩
    | ok m =>
      cases Dict.get p' ("sigma_chi" ++ s) with
      | error e => exact .inl ⟨e, rfl, rfl⟩
      | ok sg =>
        cases Dict.get p' ("amax" ++ s) with
        | error e => exact .inl ⟨e, rfl, rfl⟩
        | ok x =>
          simp only [ok_bind]
          cases ops.toAlphaBeta m sg x st'.world with
          | error e => exact .inl ⟨e, rfl, rfl⟩
          | ok r =>
            obtain ⟨⟨a, c⟩, w⟩ := r
            exact .inr ⟨_, _, rfl, rfl, rfl, set_same (set_same hc _ _) _ _, rfl, rfl⟩

/-- **C148, the conversion.** `convert_to_beta_parameters` for two dictionaries that agree on the names of the spin
parameters and on other names raises the same exception or gives dictionaries that agree on these names; so it is a
conversion as in `ReadsOnly`. The list of added names is the same, too. -/
theorem C148_conversion {V σ : Type} (ops : ConvOps V σ) (remove : Bool) (world : σ) {names : List String}
    (hn : conversionNames ⊆ names) {p p' : Dict V} (h : SameHyper names p p') :
    SameUpTo (SameConv names) (convertToBetaParameters ops p remove world)
      (convertToBetaParameters ops p' remove world) := by
  have sub : ∀ s ∈ ["_1", "_2", ""],
      ["alpha_chi" ++ s, "beta_chi" ++ s, "mu_chi" ++ s, "sigma_chi" ++ s, "amax" ++ s] ⊆ names := by
    intro s hs k hk
    exact hn (List.mem_flatMap.2 ⟨s, hs, hk⟩)
  unfold convertToBetaParameters
  rcases convertSuffix_same ops remove (sub "_1" (by simp)) h (st := ⟨p, [], world⟩) (st' := ⟨p', [], world⟩)
    ⟨h, rfl, rfl⟩ with ⟨e, h1, h2⟩ | ⟨⟨d1, s1⟩, ⟨d1', s1'⟩, h1, h2, e1, r1⟩
  · simp only [h1, h2]
    exact .inl ⟨e, rfl, rfl⟩
  · simp only [h1, h2, ok_bind]
    obtain rfl : d1 = d1' := e1
    rcases convertSuffix_same ops remove (sub "_2" (by simp)) h r1 with
      ⟨e, h3, h4⟩ | ⟨⟨d2, s2⟩, ⟨d2', s2'⟩, h3, h4, e2, r2⟩
    · simp only [h3, h4]
      exact .inl ⟨e, rfl, rfl⟩
    · simp only [h3, h4, ok_bind]
      obtain rfl : d2 = d2' := e2
      by_cases hd : d1 = true ∨ d2 = true
      · simp only [if_neg (not_not.2 hd)]
        exact .inr ⟨_, _, rfl, rfl, r2⟩
      · simp only [if_pos hd]
        rcases convertSuffix_same ops remove (sub "" (by simp)) h r2 with
          ⟨e, h5, h6⟩ | ⟨⟨d3, s3⟩, ⟨d3', s3'⟩, h5, h6, e3, r3⟩
        · simp only [h5, h6]
          exact .inl ⟨e, rfl, rfl⟩
        · simp only [h5, h6, ok_bind]
          exact .inr ⟨_, _, rfl, rfl, r3⟩

/-! ## The surveyed volume -/

/-- **C148, the surveyed volume.** It depends on the `variable_names` of the redshift model only, and on whether names
of arguments of its methods are among the hyper-parameters; without a redshift model it depends on nothing. -/
theorem C148_volume {py : Bool} {available : Dict CosmoEntry} {cosmoModel : String} {vt : ResamplingVT}
    (hs : ∀ s, vt.redshiftModel = some s → IsRedshiftModel py available cosmoModel s) {p p' : Dict Fl}
    (h : ∀ s, vt.redshiftModel = some s → SameHyper (s.variableNames.1 ++ reservedNames) p p') :
    vt.surveyedHypervolume p = vt.surveyedHypervolume p' := by
  unfold ResamplingVT.surveyedHypervolume
  cases hr : vt.redshiftModel with
  | none => rfl
  | some s =>
    simp only
    rw [normalisation_same (hs s hr)
      (fun k hk => contains_same (h s hr k (List.mem_append_right _ hk)))
      (fun k hk => h s hr k (List.mem_append_left _ hk))]

/-- Non-vacuity: the volume of a power-law redshift model with one more hyper-parameter and another order. -/
example (c : Cosmology) (vt : ResamplingVT) {s : Redshift}
    (hs : IsRedshiftModel true [("Planck15", .fixed c)] "Planck15" s) (hn : s.variableNames.1 = ["lamb"])
    (hr : vt.redshiftModel = some s) (u v : Fl) :
    vt.surveyedHypervolume [("lamb", u)] = vt.surveyedHypervolume [("alpha", v), ("lamb", u)] := by
  refine C148_volume (fun s' h => by rw [hr] at h; cases h; exact hs) fun s' h => ?_
  rw [hr] at h
  cases h
  rw [hn]
  intro k hk
  simp only [reservedNames, List.cons_append, List.nil_append, List.mem_cons, List.not_mem_nil, or_false] at hk
  rcases hk with rfl | rfl | rfl | rfl | rfl <;> simp [Dict.get?_cons]

/-- **C148, the standard analysis.** A likelihood with a `ResamplingVT` selection function reads some names only, if
its conversion and the two population models do and the names include those of the redshift model, of the arguments of
its methods and, for the rate likelihood, `"rate"`. -/
theorem C148_standard {py : Bool} {available : Dict CosmoEntry} {cosmoModel : String} {names : List String}
    {lik : Likelihood} {vt : ResamplingVT} (hsel : lik.selection = vt.asSelection)
    (hs : ∀ s, vt.redshiftModel = some s → IsRedshiftModel py available cosmoModel s)
    (hz : ∀ s, vt.redshiftModel = some s → s.variableNames.1 ++ reservedNames ⊆ names)
    (hc : ∀ d d', SameHyper names d d' → SameUpTo (SameHyper names) (lik.conversion d) (lik.conversion d'))
    (hp : ∀ d d', SameHyper names d d' → lik.hyperPrior.prob lik.data d = lik.hyperPrior.prob lik.data d')
    (hq : ∀ d d', SameHyper names d d' → vt.model.prob vt.data d = vt.model.prob vt.data d')
    (hown : ownNames lik.cls ⊆ names) : ReadsOnly names lik := by
  have heff : ∀ d d', SameHyper names d d' → vt.detectionEfficiency d = vt.detectionEfficiency d' := by
    intro d d' h
    unfold ResamplingVT.detectionEfficiency
    rw [hq d d' h]
  refine ⟨hc, hp, fun d d' h => ?_, fun e v hev d d' h => ?_, hown⟩
  · rw [hsel]
    simp only [ResamplingVT.asSelection, ResamplingVT.call, ResamplingVT.vtFactor, heff d d' h]
  · rw [hsel] at hev
    cases hev
    exact ⟨heff d d' h, C148_volume hs fun s hr k hk => h k (hz s hr hk)⟩

/-- Non-vacuity: the toy likelihood with a population model that reads `alpha` and a rate. -/
example (u v w : Fl) : let lik := { toyLikelihood .rate (.pair true (fin (1 / 2)) (fin (1 / 100))) pinf with
      hyperPrior := ⟨[.other], fun _ θ => do
        let a ← θ.get "alpha"
        return [[a, a], [1, a]]⟩ }
    ReadsOnly ["alpha", "rate"] lik ∧
    lik.logLikelihood [("alpha", u), ("rate", v)] = lik.logLikelihood [("rate", v), ("mmin", w), ("alpha", u)] ∧
    SameHyper ["alpha", "rate"] [("alpha", u), ("rate", v)] [("rate", v), ("mmin", w), ("alpha", u)] := by
  intro lik
  have hl : ReadsOnly ["alpha", "rate"] lik := by
    refine ⟨fun d d' h => .inr ⟨d, d', rfl, rfl, h⟩, fun d d' h => ?_, fun _ _ _ => rfl, fun e v h => ?_, ?_⟩
    · show (d.get "alpha" >>= _) = (d'.get "alpha" >>= _)
      rw [get_congr (h "alpha" (by simp))]
    · cases h
    · simp [lik, toyLikelihood, ownNames]
  have hs : SameHyper ["alpha", "rate"] [("alpha", u), ("rate", v)] [("rate", v), ("mmin", w), ("alpha", u)] := by
    intro k hk
    simp only [List.mem_cons, List.not_mem_nil, or_false] at hk
    rcases hk with rfl | rfl <;> simp [Dict.get?_cons]
  exact ⟨hl, (C148_likelihood hl hs).2.2.1, hs⟩

/-- Non-vacuity of the conversion: a dictionary in two orders with an additional entry. -/
example (m s x e : Fl) : SameUpTo (SameConv conversionNames)
    (convertToBetaParameters (numOps false) [("mu_chi", some m), ("sigma_chi", some s), ("amax", some x)] true ())
    (convertToBetaParameters (numOps false)
      [("xi_spin", some e), ("amax", some x), ("sigma_chi", some s), ("mu_chi", some m)] true ()) := by
  refine C148_conversion _ _ _ (List.Subset.refl _) fun k hk => ?_
  have : k ≠ "xi_spin" := by
    rintro rfl
    revert hk
    decide
  simp only [Dict.get?_cons]
  by_cases h1 : k = "mu_chi" <;> by_cases h2 : k = "sigma_chi" <;> by_cases h3 : k = "amax" <;> simp_all

end GW
