import Verif.Model.Experimental
import Verif.Props.RatePosterior
import Verif.Props.Resampling

/-!
# Properties of the numpyro model and the jitted likelihood: C61 to C64, C70
-/

noncomputable section

open Classical

namespace GW

open Fl Spec MeasureTheory ProbabilityTheory

/-! ## C61: equality with the bilby likelihood -/

theorem Fl.neg_mul_comm (a b : Fl) : -a * b = -b * a := by
  cases a <;> cases b <;> simp [mul_comm]

theorem Fl.add_zero' (a : Fl) : a + 0 = a := by rw [Fl.add_comm]; exact Fl.zero_add a

/-- The selection part in terms of the efficiency, its variance and the volume. -/
theorem numpyroSelection_eq {choice : ChoiceRule} {lik : Likelihood} {sel : ResamplingVT}
    {φ : Dict Fl} {mu var vol : Fl} (he : sel.detectionEfficiency φ = .ok (mu, var))
    (hv : sel.surveyedHypervolume φ = .ok vol) (fitKeys : Option (List String)) :
    numpyroSelection choice lik sel φ false fitKeys = .ok
      ((-Fl.log mu * (lik.nPosteriors : Fl), var / mu ^ 2 * (lik.nPosteriors : Fl) ^ 2),
        ((lik.nPosteriors : Fl), 1 / (vol * mu)), none) ∧
    ∀ r, numpyroSelection choice lik sel φ true fitKeys = .ok r →
      r.1 = (-Fl.log mu * (lik.nPosteriors : Fl), var / mu ^ 2 * (lik.nPosteriors : Fl) ^ 2) ∧
      r.2.1 = ((lik.nPosteriors : Fl), 1 / (vol * mu)) := by
  unfold ResamplingVT.detectionEfficiency at he
  simp only [bind_eq_ok] at he
  obtain ⟨p, hp, q, hq, he⟩ := he
  obtain ⟨prior, hip, he⟩ : ∃ prior, injectionPrior sel.data = .ok prior ∧
      (Arr.divide p prior >>= fun w => pyDiv (decide (sel.backend ≠ .jax) && sel.totalInjections.1)
        (toNumber sel.backend id id (Arr.sum w / sel.totalInjections.2) ^ 2) sel.totalInjections.2
        >>= fun second => pure (toNumber sel.backend id id (Arr.sum w / sel.totalInjections.2),
          toNumber sel.backend id id (Arr.sum (w.map (· ^ 2)) / sel.totalInjections.2 ^ 2 - second)))
        = .ok (mu, var) := by
    cases q with
    | arr l => exact ⟨l, by unfold injectionPrior; rw [hq], he⟩
    | num py x => exact ⟨[x], by unfold injectionPrior; rw [hq], he⟩
  simp only [bind_eq_ok] at he
  obtain ⟨w, hw, second, hsecond, h⟩ := he
  have h1 := congrArg Prod.fst (Except.ok.inj h)
  have h2 := congrArg Prod.snd (Except.ok.inj h)
  have hs : second = (mu ^ 2) / sel.totalInjections.2 := by
    unfold pyDiv at hsecond
    split_ifs at hsecond
    rw [← Except.ok.inj hsecond]
    exact congrArg (fun m => m ^ 2 / sel.totalInjections.2) h1
  simp only [toNumber, ite_self, id] at h1 h2
  rw [hs] at h2
  constructor
  · unfold numpyroSelection
    simp only [hp, ok_bind, hip, hw, hv, h1, h2, pure_eq_ok, numpyroInjections, Bool.false_eq_true,
      if_false]
  · intro r hr
    unfold numpyroSelection at hr
    simp only [hp, ok_bind, hip, hw, hv, h1, h2] at hr
    rw [bind_eq_ok] at hr
    obtain ⟨site, -, hr⟩ := hr
    rw [← Except.ok.inj hr]
    exact ⟨rfl, rfl⟩

theorem events_zip (K : Fl) (w : Mat) :
    (w.map fun row => (Fl.log (Arr.mean row),
      (Arr.mean (row.map (· ^ 2)) - Arr.mean row ^ 2) / (K * Arr.mean row ^ 2))) =
    List.zip ((w.map Arr.mean).map Fl.log) (List.zipWith (fun s e => (s - e ^ 2) / (K * e ^ 2))
      (w.map fun row => Arr.mean (row.map (· ^ 2))) (w.map Arr.mean)) := by
  induction w with
  | nil => rfl
  | cons r w ih => simp only [List.map_cons, List.zipWith_cons_cons, List.zip_cons_cons, ih]

/-- The event part of the trace is that of the bilby likelihood. -/
theorem numpyro_events_eq {choice : ChoiceRule} {lik : Likelihood} {sel : ResamplingVT}
    {θ φ : Dict Fl} {varmax : Fl} {applySel resample : Bool} {fitKeys : Option (List String)}
    {t : NumpyroTrace} (hφ : lik.conversion θ = .ok φ)
    (h : numpyroModel choice lik sel θ varmax applySel resample fitKeys = .ok t) :
    lik.perEvent φ = .ok (List.zip t.lnBayesFactors t.variances) ∧
    t.lnBayesFactors.length = t.variances.length ∧
    t.lnL = Arr.sum t.lnBayesFactors + t.selection.1 ∧
    t.variance = Arr.sum t.variances + t.selection.2 ∧
    t.value = numpyroCut varmax t.lnL t.variance ∧
    (applySel = false → t.selection = (0, 0) ∧ t.rate = none ∧ t.injections = none) ∧
    (applySel = true → ∃ r, numpyroSelection choice lik sel φ resample fitKeys = .ok r ∧
      t.selection = r.1 ∧ t.rate = some r.2.1 ∧ t.injections = r.2.2) ∧
    ∃ w, lik.weights φ = .ok w ∧
      numpyroEvents choice lik w resample fitKeys = .ok t.events := by
  unfold numpyroModel at h
  simp only [hφ, ok_bind, bind_eq_ok] at h
  obtain ⟨w, hw, s, hs, ev, hev, h⟩ := h
  have h := Except.ok.inj h
  have hper : lik.perEvent φ = .ok (List.zip t.lnBayesFactors t.variances) := by
    rw [← h]
    unfold Likelihood.perEvent
    simp only [hw, ok_bind, pure_eq_ok]
    rw [events_zip]
  subst h
  refine ⟨hper, by simp, rfl, rfl, rfl, ?_, ?_, w, hw, hev⟩
  · rintro rfl
    unfold numpyroApply at hs
    rw [if_neg (by simp)] at hs
    rw [← Except.ok.inj hs]
    exact ⟨rfl, rfl, rfl⟩
  · rintro rfl
    unfold numpyroApply at hs
    rw [if_pos rfl] at hs
    cases hr : numpyroSelection choice lik sel φ resample fitKeys with
    | error e => rw [hr] at hs; cases hs
    | ok r =>
      rw [hr] at hs
      rw [← Except.ok.inj hs]
      exact ⟨r, rfl, rfl, rfl, rfl⟩

/-- The sites `ln_l` and `variance` of the numpyro model are the two numbers of
`ln_likelihood_and_variance` of the likelihood with the selection function `sel`, with convergence
enforcement and marginalisation off. -/
theorem C61_equal {choice : ChoiceRule} {lik : Likelihood} {sel : ResamplingVT} {θ : Dict Fl}
    {varmax : Fl} {resample : Bool} {fitKeys : Option (List String)} {t : NumpyroTrace}
    (hcls : lik.cls = .hyper) (hsel : lik.selection = sel.asSelection)
    (hmarg : sel.marginalizeUncertainty = false) (henf : sel.enforceConvergence = false) {l v : Fl}
    (hl : lik.lnLikelihoodAndVariance θ = .ok (l, v))
    (h : numpyroModel choice lik sel θ varmax true resample fitKeys = .ok t) :
    t.lnL = l ∧ t.variance = v := by
  unfold Likelihood.lnLikelihoodAndVariance Likelihood.lnLikelihoodAndVarianceBase at hl
  simp only [bind_eq_ok, hcls] at hl
  obtain ⟨a, ⟨φ, hφ, events, hev, s, hs, ha⟩, hl⟩ := hl
  obtain ⟨hper, hlen, hL, hV, -, -, hselr, -⟩ := numpyro_events_eq hφ h
  obtain ⟨r, hr, hr1, -, -⟩ := hselr rfl
  have hfst : List.map Prod.fst events = t.lnBayesFactors := by
    rw [hper] at hev
    rw [← Except.ok.inj hev, List.map_fst_zip hlen.le]
  have hsnd : List.map Prod.snd events = t.variances := by
    rw [hper] at hev
    rw [← Except.ok.inj hev, List.map_snd_zip hlen.ge]
  -- the selection factor of the likelihood
  unfold Likelihood.selectionFactor at hs
  rw [hcls] at hs
  simp only at hs
  unfold Likelihood.selectionFactorHyper Likelihood.selectionWithUncertainty at hs
  rw [hsel] at hs
  unfold ResamplingVT.asSelection ResamplingVT.call at hs
  simp only [hmarg, henf, Bool.not_false, if_true, Bool.false_eq_true, if_false] at hs
  simp only [bind_eq_ok] at hs
  obtain ⟨a', ⟨b', ⟨c', ⟨d', hd, hc⟩, hb⟩, ha'⟩, hs⟩ := hs
  obtain ⟨mu, var⟩ := d'
  cases hc
  cases hb
  cases ha'
  have hs := Except.ok.inj hs
  -- the volume
  have hvol : ∃ vol, sel.surveyedHypervolume φ = .ok vol := by
    unfold numpyroSelection at hr
    simp only [bind_eq_ok] at hr
    obtain ⟨_, _, _, _, _, _, vol, hvol, _⟩ := hr
    exact ⟨vol, hvol⟩
  obtain ⟨vol, hvol⟩ := hvol
  have hsr : t.selection = (-Fl.log mu * (lik.nPosteriors : Fl),
      var / mu ^ 2 * (lik.nPosteriors : Fl) ^ 2) := by
    rw [hr1]
    have := numpyroSelection_eq (choice := choice) (lik := lik) hd hvol fitKeys
    cases resample with
    | false =>
      rw [this.1] at hr
      rw [← Except.ok.inj hr]
    | true => exact (this.2 r hr).1
  have hl := Except.ok.inj hl
  have ha := Except.ok.inj ha
  rw [← ha] at hl
  have hl1 : l = Arr.sum (List.map Prod.fst events) + s.1 := by
    rw [← (Prod.mk.inj hl).1]
  have hl2 : v = Arr.sum (List.map Prod.snd events) + s.2 := by
    rw [← (Prod.mk.inj hl).2]
    simp only [toNumber, ite_self, id]
  rw [hL, hV, hl1, hl2, hfst, hsnd, hsr, ← hs]
  refine ⟨?_, ?_⟩
  · simp only
    rw [Fl.neg_mul_comm]
  · simp only
    rw [Fl.mul_comm]

/-- Without predictive resampling, the numpyro model evaluates whenever the bilby likelihood does and the
surveyed volume is defined. -/
theorem C61_evaluates {choice : ChoiceRule} {lik : Likelihood} {sel : ResamplingVT} {θ : Dict Fl}
    {varmax : Fl} {fitKeys : Option (List String)} (hcls : lik.cls = .hyper)
    (hsel : lik.selection = sel.asSelection) (hmarg : sel.marginalizeUncertainty = false) {l v : Fl}
    (hl : lik.lnLikelihoodAndVariance θ = .ok (l, v)) {vol : Fl}
    (hvol : ∀ φ, lik.conversion θ = .ok φ → sel.surveyedHypervolume φ = .ok vol) :
    ∃ t, numpyroModel choice lik sel θ varmax true false fitKeys = .ok t := by
  unfold Likelihood.lnLikelihoodAndVariance Likelihood.lnLikelihoodAndVarianceBase at hl
  simp only [bind_eq_ok, hcls] at hl
  obtain ⟨a, ⟨φ, hφ, events, hev, s, hs, ha⟩, hl⟩ := hl
  unfold Likelihood.selectionFactor at hs
  rw [hcls] at hs
  simp only at hs
  unfold Likelihood.selectionFactorHyper Likelihood.selectionWithUncertainty at hs
  rw [hsel] at hs
  unfold ResamplingVT.asSelection ResamplingVT.call at hs
  simp only [hmarg, Bool.not_false, if_true] at hs
  simp only [bind_eq_ok] at hs
  obtain ⟨a', ⟨b', ⟨c', ⟨d', hd, hc⟩, hb⟩, ha'⟩, hs⟩ := hs
  unfold Likelihood.perEvent at hev
  simp only [bind_eq_ok] at hev
  obtain ⟨w, hw, -⟩ := hev
  have hn := (numpyroSelection_eq (choice := choice) (lik := lik) hd (hvol φ hφ) fitKeys).1
  have ha : ∃ r, numpyroApply choice lik sel φ true false fitKeys = .ok r := by
    unfold numpyroApply
    rw [if_pos rfl, hn]
    exact ⟨_, rfl⟩
  obtain ⟨r, hr⟩ := ha
  unfold numpyroModel
  simp only [hφ, ok_bind, hw, hr, pure_eq_ok, numpyroEvents, Bool.false_eq_true, if_false]
  exact ⟨_, rfl⟩

/-- Without selection the sites are the event terms only: the sums of the logarithms of the
Bayes factors and of the variances of `ln_likelihood_and_variance`. -/
theorem C61_no_selection {choice : ChoiceRule} {lik : Likelihood} {sel : ResamplingVT}
    {θ φ : Dict Fl} {varmax : Fl} {resample : Bool} {fitKeys : Option (List String)}
    {t : NumpyroTrace} (hφ : lik.conversion θ = .ok φ) {events : List (Fl × Fl)}
    (hev : lik.perEvent φ = .ok events)
    (h : numpyroModel choice lik sel θ varmax false resample fitKeys = .ok t) :
    t.lnL = (events.map Prod.fst).sum ∧ t.variance = (events.map Prod.snd).sum := by
  obtain ⟨hper, hlen, hL, hV, -, hno, -, -⟩ := numpyro_events_eq hφ h
  rw [hper] at hev
  have hev := Except.ok.inj hev
  rw [← hev, List.map_fst_zip hlen.le, List.map_snd_zip hlen.ge, hL, hV, (hno rfl).1, Fl.add_zero',
    Fl.add_zero']
  exact ⟨rfl, rfl⟩

/-- The value returned: with a finite `varmax`, the lowest finite float if `ln_l` is NaN or the variance
is larger than `varmax`; otherwise `ln_l`. -/
theorem C61_varmax {choice : ChoiceRule} {lik : Likelihood} {sel : ResamplingVT}
    {θ : Dict Fl} {varmax : Fl} {applySel resample : Bool} {fitKeys : Option (List String)}
    {t : NumpyroTrace}
    (h : numpyroModel choice lik sel θ varmax applySel resample fitKeys = .ok t) :
    (∀ v : ℝ, varmax = fin v → (t.lnL = nan ∨ fin v < t.variance) → t.value = fin (-bigR)) ∧
    (∀ v : ℝ, varmax = fin v → ¬ (t.lnL = nan ∨ fin v < t.variance) → t.value = t.lnL) ∧
    (varmax = pinf → t.value = t.lnL) := by
  obtain ⟨φ, hφ⟩ : ∃ φ, lik.conversion θ = .ok φ := by
    unfold numpyroModel at h
    rw [bind_eq_ok] at h
    obtain ⟨φ, hφ, -⟩ := h
    exact ⟨φ, hφ⟩
  obtain ⟨-, -, -, -, hval, -⟩ := numpyro_events_eq hφ h
  have hnan : isNan t.lnL ↔ t.lnL = nan := by cases t.lnL <;> simp [isNan]
  rw [hval]
  unfold numpyroCut
  refine ⟨?_, ?_, ?_⟩
  · rintro v rfl hc
    rw [if_pos fin_lt_pinf, hnan, if_pos hc]
    rfl
  · rintro v rfl hc
    rw [if_pos fin_lt_pinf, hnan, if_neg hc]
  · rintro rfl
    rw [if_neg pinf_not_lt]

/-- A likelihood with two events of three samples each. -/
def toyNumpyro (sel : ResamplingVT) : Likelihood where
  cls := .hyper
  backend := .jax
  data := [("mass_1", matFin [[1, 2, 3], [4, 5, 6]])]
  hyperPrior := ⟨[.other], fun _ _ => .ok (matFin [[1, 2, 3], [1, 1, 1]])⟩
  samplingPrior := some (matFin [[1, 1, 1], [1, 1, 1]])
  totalNoiseEvidence := fin 0
  conversion := fun θ => .ok θ
  selection := sel.asSelection
  nPosteriors := 2
  samplesPerPosterior := 3
  maximumUncertainty := pinf
  maxVariance := pinf

/-- A selection function with three injections out of `total`; `extra` are further entries of the data. -/
def toySelector (vol : Fl) (extra : Dict Value) : ResamplingVT where
  backend := .jax
  model := ⟨[], fun _ _ => .ok [fin 1, fin 2, fin 3]⟩
  data := ("prior", .arr [fin 1, fin 1, fin 1]) :: extra
  nEvents := fin 2
  totalInjections := (true, fin 6)
  analysisTime := 1
  redshiftModel := none
  marginalizeUncertainty := false
  enforceConvergence := false
  surveyedHypervolumeAttr := some vol

theorem toyNumpyro_weights (sel : ResamplingVT) (θ : Dict Fl) :
    (toyNumpyro sel).weights θ = .ok (matFin [[1, 2, 3], [1, 1, 1]]) := by
  have := weights_fin (self := toyNumpyro sel) (θ := θ) (P := [[1, 2, 3], [1, 1, 1]])
    (prior := some [[1, 1, 1], [1, 1, 1]]) rfl rfl (by
      intro Q hQ
      rw [Option.mem_some_iff] at hQ
      subst hQ
      refine ⟨rfl, ?_⟩
      intro q hq x hx
      simp only [List.mem_cons, List.not_mem_nil, or_false] at hq
      rcases hq with rfl | rfl <;> simp at hx <;> rw [hx] <;> norm_num)
  rw [this]
  simp [importance]

theorem toySelector_efficiency (vol : Fl) (extra : Dict Value) (θ : Dict Fl) :
    (toySelector vol extra).detectionEfficiency θ = .ok (fin 1, fin (14 / 36 - 1 / 6)) := by
  refine (C40_value (p := [1, 2, 3]) (q := [1, 1, 1]) (N := 6) rfl rfl rfl ?_ rfl
    (by norm_num)).trans ?_
  · simp
  · norm_num [weights]

theorem toyNumpyro_value (vol : Fl) (extra : Dict Value) (θ : Dict Fl) :
    ∃ l v : ℝ, (toyNumpyro (toySelector vol extra)).lnLikelihoodAndVariance θ =
      .ok (fin l, fin v) := by
  have hper := perEvent_fin (self := toyNumpyro (toySelector vol extra)) (θ := θ)
    (W := [[1, 2, 3], [1, 1, 1]]) (toyNumpyro_weights _ θ) (by
      intro w hw
      simp only [List.mem_cons, List.not_mem_nil, or_false] at hw
      rcases hw with rfl | rfl <;> refine ⟨rfl, ?_⟩ <;> norm_num [mean])
  have hs : (toyNumpyro (toySelector vol extra)).selectionFactor θ =
      .ok (fin (-2 * Real.log 1), fin (2 ^ 2 * ((14 / 36 - 1 / 6) / 1 ^ 2))) := by
    show Likelihood.selectionFactorHyper _ _ = _
    unfold Likelihood.selectionFactorHyper Likelihood.selectionWithUncertainty
    have : (toyNumpyro (toySelector vol extra)).selection.call θ =
        .ok (.pair false (fin 1) (fin (14 / 36 - 1 / 6))) := by
      show (toySelector vol extra).asSelection.call θ = _
      unfold ResamplingVT.asSelection ResamplingVT.call
      simp only [toySelector_efficiency, ok_bind, pure_eq_ok]
      rfl
    rw [this]
    simp only [ok_bind, pure_eq_ok, natCast_eq, fin_neg, log_fin one_pos, fin_mul, fin_npow,
      fin_div (show ((1 : ℝ) ^ 2) ≠ 0 by norm_num)]
    rfl
  unfold Likelihood.lnLikelihoodAndVariance Likelihood.lnLikelihoodAndVarianceBase
  have hc : (toyNumpyro (toySelector vol extra)).conversion θ = .ok θ := rfl
  have hcls : (toyNumpyro (toySelector vol extra)).cls = .hyper := rfl
  simp only [hc, ok_bind, hper, hs, hcls, pure_eq_ok, List.map_map]
  rw [show (Prod.fst ∘ fun w => (fin (lnBayesFactor w), fin (relativeVariance w))) =
      fun w => fin (lnBayesFactor w) from rfl,
    show (Prod.snd ∘ fun w => (fin (lnBayesFactor w), fin (relativeVariance w))) =
      fun w => fin (relativeVariance w) from rfl]
  rw [sum_map_fin, sum_map_fin]
  simp only [fin_add, toNumber, ite_self, id]
  exact ⟨_, _, rfl⟩

/-- The hypotheses of `C61_equal`, `C61_evaluates`, `C61_no_selection` and `C61_varmax` hold for a
concrete likelihood. -/
example (choice : ChoiceRule) : ∃ t l v, numpyroModel choice (toyNumpyro (toySelector (fin 5) []))
      (toySelector (fin 5) []) [] (fin 1) true false none = .ok t ∧ t.lnL = fin l ∧
      t.variance = fin v := by
  obtain ⟨l, v, hl⟩ := toyNumpyro_value (fin 5) [] []
  obtain ⟨t, ht⟩ := C61_evaluates (choice := choice) (varmax := fin 1) (fitKeys := none)
    (sel := toySelector (fin 5) []) rfl rfl rfl hl (vol := fin 5) (fun _ _ => rfl)
  exact ⟨t, l, v, ht, C61_equal rfl rfl rfl rfl hl ht⟩

/-! ## C62: the rate -/

/-- The rate drawn by the numpyro model follows the posterior of the rate for the exposure `vt` of the
selection function (the one that `generate_rate_posterior_sample` uses). -/
def C62_statement : Prop :=
  ∀ (choice : ChoiceRule) (lik : Likelihood) (sel : ResamplingVT) (θ φ : Dict Fl) (vt : ℝ)
    (t : NumpyroTrace), lik.conversion θ = .ok φ → 1 ≤ lik.nPosteriors → 0 < vt →
    exposure sel.asSelection φ vt →
    numpyroModel choice lik sel θ pinf true false none = .ok t →
    ∃ c r : ℝ, t.rate = some (fin c, fin r) ∧
      ∀ S : Set ℝ, MeasurableSet S → S ⊆ Set.Ioi 0 →
        gammaMeasure c r S = ∫⁻ R in S, ENNReal.ofReal (ratePosterior lik.nPosteriors vt R)

/-- The law of the rate is a Gamma distribution with shape `N` but rate parameter `1 / vt`
instead of `vt`. -/
theorem C62_gamma_partial {choice : ChoiceRule} {lik : Likelihood} {sel : ResamplingVT}
    {θ φ : Dict Fl} {vt : ℝ} {varmax : Fl} {resample : Bool} {fitKeys : Option (List String)}
    {t : NumpyroTrace} (hφ : lik.conversion θ = .ok φ) (hvt : 0 < vt)
    (hexp : exposure sel.asSelection φ vt)
    (h : numpyroModel choice lik sel θ varmax true resample fitKeys = .ok t) :
    t.rate = some (fin lik.nPosteriors, fin (1 / vt)) := by
  obtain ⟨-, -, -, -, -, -, hselr, -⟩ := numpyro_events_eq hφ h
  obtain ⟨r, hr, -, hr2, -⟩ := hselr rfl
  obtain ⟨e, v, var, h1, h2, rfl⟩ := hexp
  have := numpyroSelection_eq (choice := choice) (lik := lik) h1 h2 fitKeys
  have hrate : r.2.1 = ((lik.nPosteriors : Fl), 1 / (fin v * fin e)) := by
    cases resample with
    | false =>
      rw [this.1] at hr
      rw [← Except.ok.inj hr]
    | true => exact (this.2 r hr).2
  rw [hr2, hrate, fin_mul, one_eq, mul_comm v e, fin_div hvt.ne']
  rfl

theorem gamma_mean {a r : ℝ} (ha : 0 < a) (hr : 0 < r) : ∫ x, x ∂gammaMeasure a r = a / r := by
  unfold gammaMeasure
  have hm : Measurable (gammaPDF a r) := (measurable_gammaPDFReal a r).ennreal_ofReal
  rw [integral_withDensity_eq_integral_toReal_smul hm
    (Filter.Eventually.of_forall fun x => ENNReal.ofReal_lt_top)]
  have h1 : ∀ x : ℝ, (gammaPDF a r x).toReal • x =
      (Set.Ioi (0 : ℝ)).indicator (fun x => r ^ a / Real.Gamma a *
        (x ^ (a + 1 - 1) * Real.exp (-(r * x)))) x := by
    intro x
    unfold gammaPDF
    rw [ENNReal.toReal_ofReal (gammaPDFReal_nonneg ha hr x)]
    unfold gammaPDFReal
    rcases lt_trichotomy x 0 with hx | hx | hx
    · rw [if_neg (not_le.2 hx), Set.indicator_of_notMem (by simpa using hx.le)]
      simp
    · subst hx
      rw [Set.indicator_of_notMem (by simp)]
      simp
    · rw [if_pos hx.le, Set.indicator_of_mem (by simpa using hx), smul_eq_mul, add_sub_cancel_right,
        Real.rpow_sub_one hx.ne']
      field_simp
  simp_rw [h1]
  rw [integral_indicator measurableSet_Ioi, integral_const_mul,
    Real.integral_rpow_mul_exp_neg_mul_Ioi (by linarith) hr, Real.Gamma_add_one ha.ne']
  have hG := (Real.Gamma_pos_of_pos ha).ne'
  rw [Real.rpow_add (by positivity), Real.rpow_one, one_div, Real.inv_rpow hr.le]
  have := (Real.rpow_pos_of_pos hr a).ne'
  field_simp

/-- The mean of the rate drawn is `N vt`; the mean of the posterior of the rate is `N / vt`. -/
theorem C62_mean_partial {N : ℕ} (hN : 1 ≤ N) {vt : ℝ} (hvt : 0 < vt) :
    ∫ x, x ∂gammaMeasure N (1 / vt) = N * vt ∧ ∫ x, x ∂gammaMeasure N vt = N / vt := by
  have h : (0 : ℝ) < N := by exact_mod_cast hN
  constructor
  · rw [gamma_mean h (by positivity)]
    field_simp
  · exact gamma_mean h hvt

/-- The rate drawn is distributed like the posterior rate times `vt^2`. -/
theorem C62_scaled_partial {N : ℕ} {vt : ℝ} (hvt : 0 < vt) :
    gammaMeasure N (1 / vt) = (gammaMeasure N vt).map (fun R => R * vt ^ 2) := by
  rw [← gammaMeasure_map_div (N := N) hvt, ← gammaMeasure_map_div (N := N) (one_div_pos.2 hvt),
    Measure.map_map (by fun_prop) (by fun_prop)]
  congr 1
  funext g
  simp only [Function.comp]
  field_simp

/-- The two laws agree only for `vt = 1`. -/
theorem C62_agree_partial {N : ℕ} (hN : 1 ≤ N) {vt : ℝ} (hvt : 0 < vt) :
    gammaMeasure N (1 / vt) = gammaMeasure N vt ↔ vt = 1 := by
  constructor
  · intro h
    obtain ⟨h1, h2⟩ := C62_mean_partial hN hvt
    rw [h, h2] at h1
    have hn : (N : ℝ) ≠ 0 := by
      have : N ≠ 0 := by omega
      exact_mod_cast this
    have h3 : (N : ℝ) = N * (vt * vt) := by
      rw [div_eq_iff hvt.ne'] at h1
      linarith
    have h4 : vt * vt = 1 := by
      have := mul_left_cancel₀ hn (h3.symm.trans (mul_one _).symm)
      exact this
    nlinarith
  · rintro rfl
    rw [div_one]

theorem posterior_measure {N : ℕ} (hN : 1 ≤ N) {vt : ℝ} (hvt : 0 < vt) {S : Set ℝ}
    (hS : MeasurableSet S) (hpos : S ⊆ Set.Ioi 0) :
    gammaMeasure N vt S = ∫⁻ R in S, ENNReal.ofReal (ratePosterior N vt R) := by
  unfold gammaMeasure
  rw [withDensity_apply _ hS]
  refine setLIntegral_congr_fun hS fun R hR => ?_
  rw [ratePosterior_eq hN hvt (hpos hR)]
  rfl

theorem gammaMeasure_nonpos (N : ℕ) (r : ℝ) (S : Set ℝ) (hS : MeasurableSet S) :
    gammaMeasure N r S = gammaMeasure N r (S ∩ Set.Ioi 0) := by
  unfold gammaMeasure
  rw [withDensity_apply _ hS, withDensity_apply _ (hS.inter measurableSet_Ioi)]
  rw [← lintegral_indicator hS, ← lintegral_indicator (hS.inter measurableSet_Ioi)]
  refine lintegral_congr_ae ?_
  have h0 : ∀ᵐ x : ℝ ∂volume, x ≠ 0 := by
    rw [ae_iff]
    simp
  filter_upwards [h0] with x hx
  rcases lt_or_gt_of_ne hx with h | h
  · rw [Set.indicator_of_notMem (s := S ∩ Set.Ioi 0) (by simp [h.le])]
    by_cases hxS : x ∈ S
    · rw [Set.indicator_of_mem hxS, gammaPDF_of_neg h]
    · rw [Set.indicator_of_notMem hxS]
  · by_cases hxS : x ∈ S
    · rw [Set.indicator_of_mem hxS, Set.indicator_of_mem (s := S ∩ Set.Ioi 0) ⟨hxS, h⟩]
    · rw [Set.indicator_of_notMem hxS, Set.indicator_of_notMem (s := S ∩ Set.Ioi 0) (fun hh => hxS hh.1)]

/-- **C62 fails.** -/
theorem C62_fails : ¬ C62_statement := by
  intro H
  let choice : ChoiceRule := fun _ _ => []
  obtain ⟨l, v, hl⟩ := toyNumpyro_value (fin 2) [] []
  obtain ⟨t, ht⟩ := C61_evaluates (choice := choice) (varmax := pinf) (fitKeys := none)
    (sel := toySelector (fin 2) []) rfl rfl rfl hl (vol := fin 2) (fun _ _ => rfl)
  have hexp : exposure (toySelector (fin 2) []).asSelection [] 2 :=
    ⟨1, 2, _, toySelector_efficiency _ _ _, rfl, by norm_num⟩
  obtain ⟨c, r, hrate, hlaw⟩ := H choice (toyNumpyro (toySelector (fin 2) [])) _ [] [] 2 t rfl
    (by show 1 ≤ 2; norm_num) (by norm_num) hexp ht
  rw [C62_gamma_partial (φ := []) rfl (by norm_num) hexp ht, Option.some.injEq, Prod.mk.injEq, fin_inj,
    fin_inj] at hrate
  obtain ⟨rfl, rfl⟩ := hrate
  have : gammaMeasure (2 : ℕ) (1 / 2) = gammaMeasure (2 : ℕ) 2 := by
    ext S hS
    rw [gammaMeasure_nonpos _ _ S hS, gammaMeasure_nonpos _ _ S hS,
      posterior_measure (vt := 2) (by norm_num) (by norm_num) (hS.inter measurableSet_Ioi)
        Set.inter_subset_right]
    exact hlaw _ (hS.inter measurableSet_Ioi) Set.inter_subset_right
  rw [C62_agree_partial (by norm_num) (by norm_num)] at this
  norm_num at this

/-- For exposure 2 and 3 events: mean 6 instead of 3/2. -/
example : ∫ x, x ∂gammaMeasure (3 : ℕ) (1 / 2) = 6 ∧ ∫ x, x ∂gammaMeasure (3 : ℕ) 2 = 3 / 2 := by
  have := C62_mean_partial (N := 3) (by norm_num) (vt := 2) (by norm_num)
  norm_num at this ⊢
  exact this

/-! ## C63: resampling the events -/

/-- For every event the sample is drawn with probabilities proportional to the weights of the samples
of that event. -/
def C63_statement : Prop :=
  ∀ (choice : ChoiceRule) (lik : Likelihood) (sel : ResamplingVT) (θ φ : Dict Fl)
    (varmax : Fl) (applySel : Bool) (fitKeys : Option (List String)) (t : NumpyroTrace) (w : Mat),
    lik.conversion θ = .ok φ → lik.weights φ = .ok w → w.length = lik.nPosteriors →
    numpyroModel choice lik sel θ varmax applySel true fitKeys = .ok t →
    ∀ (i : ℕ) (row : List Fl), w[i]? = some row →
      ∃ site, t.events[i]? = some site ∧ site.probabilities = row.map (· / row.sum)

theorem mapM_getElem? {ε α β : Type} {f : α → Except ε β} {l : List α} {r : List β}
    (h : l.mapM f = .ok r) {i : ℕ} {a : α} (hi : l[i]? = some a) :
    ∃ b, f a = .ok b ∧ r[i]? = some b := by
  induction l generalizing r i with
  | nil => simp at hi
  | cons x l ih =>
    rw [List.mapM_cons, bind_eq_ok] at h
    obtain ⟨y, hy, h⟩ := h
    rw [bind_eq_ok] at h
    obtain ⟨ys, hys, h⟩ := h
    have h := Except.ok.inj h
    subst h
    cases i with
    | zero =>
      rw [List.getElem?_cons_zero, Option.some.injEq] at hi
      subst hi
      exact ⟨y, hy, rfl⟩
    | succ i =>
      rw [List.getElem?_cons_succ] at hi
      obtain ⟨b, hb, hr⟩ := ih hys hi
      exact ⟨b, hb, by rw [List.getElem?_cons_succ]; exact hr⟩

/-- What the model does for event `i`: the probabilities are the weights of the samples number `i` of all
events (of their last samples, if they have fewer samples). -/
theorem C63_column_partial {choice : ChoiceRule} {lik : Likelihood} {sel : ResamplingVT}
    {θ φ : Dict Fl} {varmax : Fl} {applySel : Bool} {fitKeys : Option (List String)}
    {t : NumpyroTrace} {w : Mat} (hφ : lik.conversion θ = .ok φ) (hw : lik.weights φ = .ok w)
    (h : numpyroModel choice lik sel θ varmax applySel true fitKeys = .ok t) {i : ℕ}
    (hi : i < lik.nPosteriors) : ∃ site, t.events[i]? = some site ∧
      (∀ col : List Fl, col.length = w.length →
        (∀ j (hj : j < w.length), col[j]? = w[j][min i (w[j].length - 1)]?) →
        site.probabilities = col.map (· / col.sum)) ∧
      site.probabilities.length = w.length ∧
      site.indices = choice site.probabilities 1 ∧
      ∀ key m, (fitKeys = none → lik.data.contains key) → (∀ ks, fitKeys = some ks → key ∈ ks) →
        lik.data.get? key = some m → (key ++ "_" ++ toString i,
          site.indices.map (clampGet nan (clampGet [] m i))) ∈ site.values := by
  obtain ⟨-, -, -, -, -, -, -, w', hw', hev⟩ := numpyro_events_eq hφ h
  rw [hw] at hw'
  cases hw'
  unfold numpyroEvents at hev
  rw [if_pos rfl] at hev
  obtain ⟨site, hsite, hget⟩ := mapM_getElem? hev (i := i) (a := i) (by
    rw [List.getElem?_range hi])
  refine ⟨site, hget, ?_⟩
  unfold resampleEvent at hsite
  simp only [bind_eq_ok] at hsite
  obtain ⟨idx, hidx, values, hvalues, hs⟩ := hsite
  have hs := Except.ok.inj hs
  subst hs
  have hidx' : choice (normalised (w.map fun row => clampGet nan row i)) 1 = idx := by
    unfold jaxChoice at hidx
    split_ifs at hidx
    exact Except.ok.inj hidx
  refine ⟨?_, by simp [normalised], hidx'.symm, ?_⟩
  · intro col hlen hcol
    have : (w.map fun row => clampGet nan row i) = col := by
      refine List.ext_getElem (by simp [hlen]) fun j h1 h2 => ?_
      have hj : j < w.length := by rw [← hlen]; exact h2
      have := hcol j hj
      rw [List.getElem?_eq_getElem h2] at this
      rw [List.getElem_map]
      unfold clampGet
      rw [List.getD_eq_getElem?_getD, ← this]
      rfl
    show normalised _ = _
    rw [this]
    rfl
  · intro key m hnone hsome hm
    have hmem : key ∈ fitKeys.getD lik.data.keys := by
      cases fitKeys with
      | none => exact hnone rfl
      | some ks => exact hsome ks rfl
    obtain ⟨n, hn, hkey⟩ := List.getElem_of_mem hmem
    obtain ⟨b, hb, hr⟩ := mapM_getElem? hvalues (i := n) (a := key) (by
      rw [List.getElem?_eq_getElem hn, hkey])
    have : lik.data.get key = .ok m := by unfold Dict.get; rw [hm]
    rw [this] at hb
    have hb := Except.ok.inj hb
    subst hb
    exact List.mem_of_getElem? hr

/-- An outcome of `jax.random.choice` without replacement: distinct indices of entries. -/
def Spec.IsChoice (choice : ChoiceRule) : Prop :=
  ∀ (p : List Fl) (n : ℕ), n ≤ p.length → (choice p n).length = n ∧ (choice p n).Nodup ∧
    ∀ i ∈ choice p n, i < p.length

/-- Consequently no sample whose number is not below the number of events is ever drawn, whatever its
weight. -/
theorem C63_never_partial {choice : ChoiceRule} (hchoice : IsChoice choice) {lik : Likelihood}
    {sel : ResamplingVT} {θ φ : Dict Fl} {varmax : Fl} {applySel : Bool}
    {fitKeys : Option (List String)} {t : NumpyroTrace} {w : Mat} (hφ : lik.conversion θ = .ok φ)
    (hw : lik.weights φ = .ok w) (hlen : w.length = lik.nPosteriors)
    (h : numpyroModel choice lik sel θ varmax applySel true fitKeys = .ok t) :
    ∀ site ∈ t.events, ∀ j ∈ site.indices, j < lik.nPosteriors := by
  intro site hsite j hj
  obtain ⟨i, hi, rfl⟩ := List.getElem_of_mem hsite
  have hev : t.events.length = lik.nPosteriors := by
    obtain ⟨-, -, -, -, -, -, -, w', hw', hev⟩ := numpyro_events_eq hφ h
    unfold numpyroEvents at hev
    rw [if_pos rfl] at hev
    rw [mapM_length hev, List.length_range]
  obtain ⟨site', hs', -, hp, hc, -⟩ := C63_column_partial hφ hw h (i := i) (by rw [← hev]; exact hi)
  rw [List.getElem?_eq_getElem hi, Option.some.injEq] at hs'
  rw [hs'] at hj
  rw [hc] at hj
  have h1 : 1 ≤ site'.probabilities.length := by
    rw [hp, hlen, ← hev]; omega
  have := (hchoice _ 1 h1).2.2 j hj
  rw [hp, hlen] at this
  exact this

/-- For the injections the probabilities are the normalised weights of the injections, and one
injection per event is drawn, without repetition. -/
theorem C63_injections_partial {choice : ChoiceRule} (hchoice : IsChoice choice) {data : Dict Value}
    {w : List Fl} {label : String} {n : ℕ} {fitKeys : Option (List String)} {site : ResampleSite}
    (h : resampleInjections choice data w label n fitKeys = .ok site) :
    site.probabilities = w.map (· / w.sum) ∧ site.indices.length = n ∧ site.indices.Nodup ∧
      ∀ i ∈ site.indices, i < w.length := by
  unfold resampleInjections at h
  simp only [bind_eq_ok] at h
  obtain ⟨idx, hidx, values, -, hs⟩ := h
  have hs := Except.ok.inj hs
  subst hs
  unfold jaxChoice at hidx
  split_ifs at hidx with hlt
  have hidx := Except.ok.inj hidx
  subst hidx
  have := hchoice (normalised w) n (not_lt.1 hlt)
  refine ⟨rfl, this.1, this.2.1, fun i hi => ?_⟩
  have := this.2.2 i hi
  simpa [normalised] using this

/-- The first `n` entries. -/
theorem isChoice_first : IsChoice fun _ n => List.range n := fun p n hn =>
  ⟨List.length_range, List.nodup_range, fun i hi => lt_of_lt_of_le (List.mem_range.1 hi) hn⟩

theorem toyNumpyro_trace (choice : ChoiceRule) : ∃ t, numpyroModel choice
    (toyNumpyro (toySelector (fin 5) [])) (toySelector (fin 5) []) [] pinf false true none = .ok t := by
  unfold numpyroModel
  have hc : (toyNumpyro (toySelector (fin 5) [])).conversion [] = .ok [] := rfl
  simp only [hc, ok_bind, toyNumpyro_weights, numpyroApply, Bool.false_eq_true, if_false, pure_eq_ok]
  have : ∃ ev, numpyroEvents choice (toyNumpyro (toySelector (fin 5) []))
      (matFin [[1, 2, 3], [1, 1, 1]]) true none = .ok ev := ⟨_, rfl⟩
  obtain ⟨ev, hev⟩ := this
  rw [hev]
  exact ⟨_, rfl⟩

/-- **C63 fails**: the second event has three equal weights, but the probabilities used are the
normalised weights 2 and 1 of the second samples of the two events. -/
theorem C63_fails : ¬ C63_statement := by
  intro H
  let choice : ChoiceRule := fun _ n => List.range n
  obtain ⟨t, ht⟩ := toyNumpyro_trace choice
  have hw := toyNumpyro_weights (toySelector (fin 5) []) []
  obtain ⟨site, hs, hp⟩ := H choice _ _ [] [] pinf false none t _ rfl hw rfl ht 1 [fin 1, fin 1, fin 1] rfl
  obtain ⟨site', hs', -, hlen, -⟩ := C63_column_partial (φ := []) rfl hw ht (i := 1)
    (by show 1 < 2; norm_num)
  rw [hs, Option.some.injEq] at hs'
  subst hs'
  rw [hp] at hlen
  simp [matFin] at hlen

/-- The hypotheses of `C63_never_partial` hold for the concrete likelihood: the third sample is never
drawn. -/
example : ∃ t, numpyroModel (fun _ n => List.range n) (toyNumpyro (toySelector (fin 5) []))
    (toySelector (fin 5) []) [] pinf false true none = .ok t ∧
    ∀ site ∈ t.events, ∀ j ∈ site.indices, j < 2 := by
  obtain ⟨t, ht⟩ := toyNumpyro_trace fun _ n => List.range n
  exact ⟨t, ht, C63_never_partial (φ := []) isChoice_first rfl (toyNumpyro_weights _ []) rfl ht⟩

example : ∃ site, resampleInjections (fun _ n => List.range n) [("mass_1", .arr [fin 3, fin 4, fin 5])]
    [fin 1, fin 2, fin 3] "injections" 2 none = .ok site ∧ site.indices.length = 2 := by
  refine ⟨_, rfl, ?_⟩
  rfl

/-! ## C70: evaluation with default options -/

/-- With the default options (all columns, selection and predictive resampling) the numpyro model
evaluates for every likelihood that `ln_likelihood_and_variance` evaluates for, if the surveyed volume
is defined. -/
def C70_statement : Prop :=
  ∀ (choice : ChoiceRule) (lik : Likelihood) (sel : ResamplingVT) (θ : Dict Fl) (l v : Fl),
    lik.cls = .hyper → lik.selection = sel.asSelection → sel.marginalizeUncertainty = false →
    lik.lnLikelihoodAndVariance θ = .ok (l, v) →
    (∀ φ, lik.conversion θ = .ok φ → ∃ vol, sel.surveyedHypervolume φ = .ok vol) →
    ∃ t, numpyroModel choice lik sel θ = .ok t

/-- A number among the injection data (such as the `total_generated` that `ResamplingVT` reads from
there) makes the evaluation raise, unless the columns to resample are given. -/
theorem C70_number_partial {choice : ChoiceRule} {lik : Likelihood} {sel : ResamplingVT}
    {θ : Dict Fl} {varmax : Fl} {key : String} {py : Bool} {x : Fl}
    (hnum : sel.data.get? key = some (.num py x)) (t : NumpyroTrace) :
    numpyroModel choice lik sel θ varmax true true none ≠ .ok t := by
  intro h
  obtain ⟨φ, hφ⟩ : ∃ φ, lik.conversion θ = .ok φ := by
    unfold numpyroModel at h
    rw [bind_eq_ok] at h
    obtain ⟨φ, hφ, -⟩ := h
    exact ⟨φ, hφ⟩
  obtain ⟨-, -, -, -, -, -, hselr, -⟩ := numpyro_events_eq hφ h
  obtain ⟨r, hr, -⟩ := hselr rfl
  unfold numpyroSelection at hr
  simp only [bind_eq_ok] at hr
  obtain ⟨p, hp, q, hq, w, hw, vol, hvol, site, hsite, -⟩ := hr
  obtain ⟨site', hsite⟩ : ∃ site', resampleInjections choice sel.data w "injections" lik.nPosteriors
      none = .ok site' := by
    unfold numpyroInjections at hsite
    rw [if_pos rfl] at hsite
    split at hsite
    · exact ⟨_, by assumption⟩
    · cases hsite
  unfold resampleInjections at hsite
  simp only [bind_eq_ok] at hsite
  obtain ⟨idx, -, values, hvalues, -⟩ := hsite
  have hmem : key ∈ sel.data.keys := by
    have : (sel.data.get? key).isSome := by rw [hnum]; rfl
    rw [Dict.get?_isSome_iff] at this
    exact this
  obtain ⟨n, hn, hkey⟩ := List.getElem_of_mem hmem
  obtain ⟨b, hb, -⟩ := mapM_getElem? hvalues (i := n) (a := key) (by
    show sel.data.keys[n]? = _
    rw [List.getElem?_eq_getElem hn, hkey])
  have : sel.data.get key = .ok (.num py x) := by unfold Dict.get; rw [hnum]
  unfold injectionColumn at hb
  rw [this] at hb
  cases hb

/-- More events than injections also make it raise. -/
theorem C70_few_injections_partial {choice : ChoiceRule} {data : Dict Value} {w : List Fl}
    {label : String} {n : ℕ} {fitKeys : Option (List String)} (h : w.length < n) :
    resampleInjections choice data w label n fitKeys = .error .valueError := by
  unfold resampleInjections jaxChoice
  simp only
  rw [if_pos (by simpa [normalised] using h)]
  rfl

/-- If the columns to resample are arrays of the injection data and columns of the event data, and there
are at least as many injections as events, the model evaluates. -/
theorem C70_columns_partial {choice : ChoiceRule} {lik : Likelihood} {sel : ResamplingVT}
    {θ : Dict Fl} {varmax : Fl} {fitKeys : List String} (hcls : lik.cls = .hyper)
    (hsel : lik.selection = sel.asSelection) (hmarg : sel.marginalizeUncertainty = false) {l v : Fl}
    (hl : lik.lnLikelihoodAndVariance θ = .ok (l, v))
    (hvol : ∀ φ, lik.conversion θ = .ok φ → ∃ vol, sel.surveyedHypervolume φ = .ok vol)
    (hkeys : ∀ k ∈ fitKeys, lik.data.contains k ∧ ∃ c, sel.data.get? k = some (.arr c))
    (hrows : ∀ φ w, lik.conversion θ = .ok φ → lik.weights φ = .ok w → w.length = lik.nPosteriors)
    {q : List Fl} (hprior : sel.data.get? "prior" = some (.arr q)) (hmany : lik.nPosteriors ≤ q.length)
    (hshape : ∀ φ p, sel.model.prob sel.data φ = .ok p → p.length = q.length) :
    ∃ t, numpyroModel choice lik sel θ varmax true true (some fitKeys) = .ok t := by
  obtain ⟨φ, hφ⟩ : ∃ φ, lik.conversion θ = .ok φ := by
    unfold Likelihood.lnLikelihoodAndVariance Likelihood.lnLikelihoodAndVarianceBase at hl
    simp only [bind_eq_ok] at hl
    obtain ⟨_, ⟨φ, hφ, _⟩, _⟩ := hl
    exact ⟨φ, hφ⟩
  obtain ⟨vol, hv⟩ := hvol φ hφ
  obtain ⟨t, ht⟩ := C61_evaluates (choice := choice) (varmax := varmax) (fitKeys := some fitKeys) hcls
    hsel hmarg hl (vol := vol) (fun φ' h => by rw [hφ] at h; cases h; exact hv)
  obtain ⟨-, -, -, -, -, -, hselr, w, hw, -⟩ := numpyro_events_eq hφ ht
  obtain ⟨r, hr, -⟩ := hselr rfl
  have hinj : ∃ r', numpyroSelection choice lik sel φ true (some fitKeys) = .ok r' := by
    unfold numpyroSelection at hr
    simp only [bind_eq_ok] at hr
    obtain ⟨p, hp, q', hq', iw, hiw, vol', hvol', -⟩ := hr
    have hqv : injectionPrior sel.data = .ok q := by
      unfold injectionPrior Dict.get
      rw [hprior]
    rw [hqv] at hq'
    have hq' := Except.ok.inj hq'
    subst hq'
    have hiwl : q.length ≤ iw.length := by
      unfold Arr.divide at hiw
      rw [if_pos (hshape φ p hp)] at hiw
      rw [← Except.ok.inj hiw, List.length_zipWith, hshape φ p hp, min_self]
    have hsite : ∃ site, resampleInjections choice sel.data iw "injections" lik.nPosteriors
        (some fitKeys) = .ok site := by
      unfold resampleInjections jaxChoice
      simp only
      rw [if_neg (by simp only [normalised, List.length_map, not_lt]; omega), ok_bind]
      obtain ⟨vals, hvals⟩ : ∃ vals, fitKeys.mapM (injectionColumn sel.data "injections"
          (choice (normalised iw) lik.nPosteriors)) = .ok vals := by
        refine ⟨fitKeys.map fun key => (key ++ "_" ++ "injections",
          (choice (normalised iw) lik.nPosteriors).map (clampGet nan (match sel.data.get? key with
            | some (.arr l) => l
            | _ => []))), mapM_ok fun k hk => ?_⟩
        obtain ⟨-, c, hc⟩ := hkeys k hk
        have : sel.data.get k = .ok (.arr c) := by unfold Dict.get; rw [hc]
        unfold injectionColumn
        rw [this, hc]
      rw [show (Option.getD (some fitKeys) sel.data.keys) = fitKeys from rfl]
      rw [hvals]
      exact ⟨_, rfl⟩
    obtain ⟨site, hsite⟩ := hsite
    unfold numpyroSelection
    simp only [hp, ok_bind, hqv, hiw, hvol', numpyroInjections, if_true, hsite]
    exact ⟨_, rfl⟩
  obtain ⟨r', hr'⟩ := hinj
  have hevents : ∃ ev, numpyroEvents choice lik w true (some fitKeys) = .ok ev := by
    unfold numpyroEvents
    rw [if_pos rfl]
    have hpoint : ∀ i ∈ List.range lik.nPosteriors, ∃ site,
        resampleEvent choice lik.data w i (some fitKeys) = .ok site := by
      intro i hi
      have hpos : 1 ≤ w.length := by
        rw [hrows φ w hφ hw]
        have := List.mem_range.1 hi
        omega
      unfold resampleEvent jaxChoice
      simp only [normalised, List.length_map]
      rw [if_neg (by omega), ok_bind]
      have hex : ∀ k ∈ fitKeys, ∃ m, lik.data.get k = .ok m := by
        intro k hk
        have h1 := (hkeys k hk).1
        rw [← Dict.get?_isSome_iff] at h1
        obtain ⟨m, hm⟩ := Option.isSome_iff_exists.1 h1
        exact ⟨m, by unfold Dict.get; rw [hm]⟩
      choose! g hg using hex
      rw [show (Option.getD (some fitKeys) lik.data.keys) = fitKeys from rfl]
      rw [mapM_ok (l := fitKeys) (g := fun k => (k ++ "_" ++ toString i, (choice
        ((w.map fun row => clampGet nan row i).map (· / Arr.sum (w.map fun row => clampGet nan row i)))
          1).map (clampGet nan (clampGet [] (g k) i)))) (fun k hk => by rw [hg k hk]; rfl)]
      exact ⟨_, rfl⟩
    have hne : Nonempty ResampleSite := ⟨⟨[], [], []⟩⟩
    choose! g hg using hpoint
    exact ⟨_, mapM_ok hg⟩
  obtain ⟨ev, hev⟩ := hevents
  have ha : ∃ r, numpyroApply choice lik sel φ true true (some fitKeys) = .ok r := by
    unfold numpyroApply
    rw [if_pos rfl, hr']
    exact ⟨_, rfl⟩
  obtain ⟨r, hr⟩ := ha
  unfold numpyroModel
  simp only [hφ, ok_bind, hw, hr, pure_eq_ok, hev]
  exact ⟨_, rfl⟩

/-- **C70 fails**: the injection data contain the number of generated injections. -/
theorem C70_fails : ¬ C70_statement := by
  intro H
  let sel := toySelector (fin 5) [("total_generated", .num true (fin 6))]
  obtain ⟨l, v, hl⟩ := toyNumpyro_value (fin 5) [("total_generated", .num true (fin 6))] []
  obtain ⟨t, ht⟩ := H (fun _ n => List.range n) _ sel [] _ _ rfl rfl rfl hl (fun _ _ => ⟨_, rfl⟩)
  refine C70_number_partial (sel := sel) (key := "total_generated") (py := true) (x := fin 6) ?_ t ht
  simp [sel, toySelector, Dict.get?_cons]

/-- The hypotheses of `C70_columns_partial` hold: naming the common column makes it evaluate. -/
example (choice : ChoiceRule) : ∃ t, numpyroModel choice
    (toyNumpyro (toySelector (fin 5) [("mass_1", .arr [fin 1, fin 2, fin 3]),
      ("total_generated", .num true (fin 6))]))
    (toySelector (fin 5) [("mass_1", .arr [fin 1, fin 2, fin 3]), ("total_generated", .num true (fin 6))])
    [] pinf true true (some ["mass_1"]) = .ok t := by
  obtain ⟨l, v, hl⟩ := toyNumpyro_value (fin 5) [("mass_1", .arr [fin 1, fin 2, fin 3]),
    ("total_generated", .num true (fin 6))] []
  refine C70_columns_partial rfl rfl rfl hl (fun _ _ => ⟨_, rfl⟩) ?_ ?_ (q := [fin 1, fin 1, fin 1]) rfl
    (by show 2 ≤ 3; norm_num) ?_
  · intro k hk
    rw [List.mem_singleton] at hk
    subst hk
    exact ⟨by show "mass_1" ∈ _; simp [toyNumpyro], _, rfl⟩
  · intro φ w _ hw
    rw [toyNumpyro_weights] at hw
    cases hw
    rfl
  · intro φ p hp
    cases hp
    rfl

/-! ## C64: the jitted likelihood -/

/-- The jitted likelihood returns the value of the wrapped likelihood (the log-likelihood ratio by default
and with `use_ratio=True`, the log-likelihood with `use_ratio=False`) if that is finite, and otherwise
the lowest finite float. -/
def C64_statement : Prop :=
  ∀ (lik : BilbyLikelihood) (kwargs : Option Bool) (θ : Dict Fl) (v : Fl),
    (if kwargs = some false then lik.logLikelihood θ else lik.logLikelihoodRatio θ) = .ok v →
    (∀ r, v = fin r → jittedLogLikelihoodRatio lik kwargs θ = .ok v) ∧
    (v = nan ∨ v = ninf → jittedLogLikelihoodRatio lik kwargs θ = .ok (fin (-bigR)))

theorem jitted_eq {lik : BilbyLikelihood} {θ : Dict Fl} {v : Fl}
    (h : lik.logLikelihoodRatio θ = .ok v) :
    jittedLogLikelihoodRatio lik none θ = .ok (nanToNum v) := by
  unfold jittedLogLikelihoodRatio jittedFunction genericBilbyLikelihood
  simp only [if_true]
  rw [h]
  rfl

/-- By default finite values are passed through, minus infinity becomes the lowest finite float, plus
infinity the largest, and NaN becomes 0. -/
theorem C64_value_partial {lik : BilbyLikelihood} {θ : Dict Fl} {v : Fl}
    (h : lik.logLikelihoodRatio θ = .ok v) :
    (∀ r, v = fin r → jittedLogLikelihoodRatio lik none θ = .ok (fin r)) ∧
    (v = ninf → jittedLogLikelihoodRatio lik none θ = .ok (fin (-bigR))) ∧
    (v = pinf → jittedLogLikelihoodRatio lik none θ = .ok (fin bigR)) ∧
    (v = nan → jittedLogLikelihoodRatio lik none θ = .ok (fin 0)) := by
  rw [jitted_eq h]
  refine ⟨?_, ?_, ?_, ?_⟩ <;> intros <;> subst_vars <;> rfl

/-- The likelihoods of the package: the jitted likelihood returns their log-likelihood ratio unchanged, for
all parameters, also where the estimate is NaN or infinite. -/
theorem C64_ratio_partial (lik : Likelihood) (θ : Dict Fl) :
    jittedLogLikelihoodRatio lik.asBilby none θ = lik.logLikelihoodRatio θ := by
  unfold jittedLogLikelihoodRatio jittedFunction genericBilbyLikelihood Likelihood.asBilby
  simp only [if_true]
  cases h : lik.lnLikelihoodAndVariance θ with
  | error e =>
    have : lik.logLikelihoodRatio θ = .error e := by
      unfold Likelihood.logLikelihoodRatio
      rw [h, error_bind]
    rw [this]
    rfl
  | ok p =>
    obtain ⟨l, v⟩ := p
    obtain ⟨r, hr, -⟩ := C46_finite h
    rw [hr]
    rfl

/-- With the argument `use_ratio` given, true or false, every evaluation raises `TypeError`, whatever
the wrapped likelihood and the parameters. -/
theorem C64_use_ratio_partial (lik : BilbyLikelihood) (useRatio : Bool) (θ : Dict Fl) :
    jittedLogLikelihoodRatio lik (some useRatio) θ = .error .typeError := rfl

/-- **C64 fails**: the log-likelihood cannot be evaluated at all. -/
theorem C64_fails : ¬ C64_statement := by
  intro H
  have h := (H ⟨fun _ => .ok (fin 1), fun _ => .ok (fin 1)⟩ (some false) [] (fin 1) rfl).1 1 rfl
  rw [C64_use_ratio_partial] at h
  cases h

/-- **C64 fails** also for the default arguments: NaN becomes 0. -/
theorem C64_nan_fails : ¬ ∀ (lik : BilbyLikelihood) (θ : Dict Fl),
    lik.logLikelihoodRatio θ = .ok nan → jittedLogLikelihoodRatio lik none θ = .ok (fin (-bigR)) := by
  intro H
  have h := H ⟨fun _ => .ok nan, fun _ => .ok nan⟩ [] rfl
  rw [(C64_value_partial (lik := ⟨fun _ => .ok nan, fun _ => .ok nan⟩) (θ := []) (v := nan)
    rfl).2.2.2 rfl] at h
  have := fin_inj.1 (Except.ok.inj h)
  have hb := bigR_pos
  linarith

/-- The theorems above apply to a concrete likelihood whose estimate is minus infinity. -/
example : jittedLogLikelihoodRatio emptyEvent.asBilby none [] = .ok (fin (-bigR)) := by
  rw [C64_ratio_partial, C46_ninf emptyEvent_value]

end GW
