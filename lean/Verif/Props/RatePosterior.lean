import Verif.Props.PosteriorSamples
import Mathlib.Probability.Distributions.Gamma

/-!
# Rate posterior samples and invariance of the likelihood: C54 and C55
-/

noncomputable section

open Classical

namespace GW

open Fl Spec MeasureTheory ProbabilityTheory

/-! ## C54: the rate posterior -/

/-- The posterior density of the rate `R` given `N` events and exposure `vt`, for a prior `1 / R` and
the Poisson likelihood `R^N exp (-R vt)`. -/
def Spec.ratePosterior (N : ℕ) (vt R : ℝ) : ℝ :=
  R⁻¹ * (R ^ N * Real.exp (-(R * vt))) /
    ∫ S in Set.Ioi (0 : ℝ), S⁻¹ * (S ^ N * Real.exp (-(S * vt)))

theorem gamma_nat {N : ℕ} (hN : 1 ≤ N) : Real.Gamma N = (N - 1).factorial := by
  obtain ⟨n, rfl⟩ : ∃ n, N = n + 1 := ⟨N - 1, by omega⟩
  rw [Nat.cast_add_one, Real.Gamma_nat_eq_factorial]
  simp

theorem ratePosterior_eq {N : ℕ} (hN : 1 ≤ N) {vt R : ℝ} (hvt : 0 < vt) (hR : 0 < R) :
    ratePosterior N vt R = gammaPDFReal N vt R := by
  unfold ratePosterior gammaPDFReal
  rw [integral_gamma_rate hN hvt, if_pos hR.le, gamma_nat hN, Real.rpow_sub_one hR.ne',
    Real.rpow_natCast, Real.rpow_natCast, mul_comm vt R]
  have : ((N - 1).factorial : ℝ) ≠ 0 := by positivity
  field_simp

theorem gammaPDF_scale {N : ℕ} {vt : ℝ} (hvt : 0 < vt) (y : ℝ) :
    ENNReal.ofReal vt * gammaPDF N 1 (vt * y) = gammaPDF N vt y := by
  rcases lt_or_ge y 0 with hy | hy
  · rw [gammaPDF_of_neg hy, gammaPDF_of_neg (mul_neg_of_pos_of_neg hvt hy), mul_zero]
  · rw [gammaPDF_of_nonneg hy, gammaPDF_of_nonneg (mul_nonneg hvt.le hy),
      ← ENNReal.ofReal_mul hvt.le]
    congr 1
    rw [Real.mul_rpow hvt.le hy, Real.one_rpow, one_mul, Real.rpow_natCast]
    have : vt ^ N = vt * vt ^ ((N : ℝ) - 1) := by
      rw [Real.rpow_sub_one hvt.ne', Real.rpow_natCast]
      field_simp
    rw [this]
    ring

/-- A `Gamma(N, 1)` variate divided by `vt` is `Gamma(N)` with rate `vt`. -/
theorem gammaMeasure_map_div {N : ℕ} {vt : ℝ} (hvt : 0 < vt) :
    (gammaMeasure N 1).map (fun g => g / vt) = gammaMeasure N vt := by
  have hm : Measurable fun g : ℝ => g / vt := by fun_prop
  ext s hs
  rw [Measure.map_apply hm hs]
  unfold gammaMeasure
  rw [withDensity_apply _ (hm hs), withDensity_apply _ hs]
  have hmul : Measurable fun y : ℝ => vt * y := by fun_prop
  have hvol := Real.smul_map_volume_mul_left hvt.ne'
  rw [abs_of_pos hvt] at hvol
  have hpdf : Measurable (gammaPDF N 1) := (measurable_gammaPDFReal _ _).ennreal_ofReal
  conv_lhs => rw [← hvol]
  rw [Measure.restrict_smul, lintegral_smul_measure,
    setLIntegral_map (hm hs) hpdf hmul]
  have hset : (fun y => vt * y) ⁻¹' ((fun g => g / vt) ⁻¹' s) = s := by
    ext y
    simp only [Set.mem_preimage]
    rw [mul_div_cancel_left₀ _ hvt.ne']
  have hcomp : Measurable fun y => gammaPDF N 1 (vt * y) := hpdf.comp hmul
  rw [hset, smul_eq_mul, ← lintegral_const_mul _ hcomp]
  refine lintegral_congr fun y => ?_
  exact gammaPDF_scale hvt y

/-- The exposure: efficiency times surveyed volume for a selection function that provides both,
otherwise the number it returns. -/
def Spec.exposure (sel : SelectionFn) (θ : Dict Fl) (vt : ℝ) : Prop :=
  match sel.rate with
  | some (efficiency, hypervolume) => ∃ e v : ℝ, ∃ var, efficiency θ = .ok (fin e, var) ∧
      hypervolume θ = .ok (fin v) ∧ vt = e * v
  | none => ∃ py, sel.call θ = .ok (.bare py (fin vt))

theorem rateSample_eq {self : Likelihood} (hcls : self.cls ≠ .rate) {θ : Dict Fl} {vt : ℝ}
    (hvt : 0 < vt) (hexp : exposure self.selection θ vt) (g : ℝ) :
    self.generateRatePosteriorSample (fin g) θ = .ok (fin (g / vt)) := by
  unfold Likelihood.generateRatePosteriorSample
  unfold exposure at hexp
  cases hr : self.selection.rate with
  | some p =>
    obtain ⟨efficiency, hypervolume⟩ := p
    rw [hr] at hexp
    obtain ⟨e, v, var, h1, h2, rfl⟩ := hexp
    cases hc : self.cls with
    | rate => exact absurd hc hcls
    | hyper => simp only [h1, h2, ok_bind, pure_eq_ok, fin_mul, fin_div hvt.ne']
    | null => simp only [h1, h2, ok_bind, pure_eq_ok, fin_mul, fin_div hvt.ne']
  | none =>
    rw [hr] at hexp
    obtain ⟨py, h⟩ := hexp
    cases hc : self.cls with
    | rate => exact absurd hc hcls
    | hyper => simp only [h, ok_bind, pure_eq_ok, fin_div hvt.ne']
    | null => simp only [h, ok_bind, pure_eq_ok, fin_div hvt.ne']

/-- The samples returned by `generate_rate_posterior_sample` follow the posterior of the rate: the
probability (over the Gamma variate drawn) that the result lies in a set `S` of positive rates is the
integral of the posterior density over `S`. -/
def Spec.FollowsRatePosterior (self : Likelihood) (θ : Dict Fl) (vt : ℝ) : Prop :=
  (∀ g : ℝ, ∃ R : ℝ, self.generateRatePosteriorSample (fin g) θ = .ok (fin R)) ∧
  ∀ S : Set ℝ, MeasurableSet S → S ⊆ Set.Ioi 0 →
    gammaMeasure self.nPosteriors 1
        {g | ∃ R ∈ S, self.generateRatePosteriorSample (fin g) θ = .ok (fin R)} =
      ∫⁻ R in S, ENNReal.ofReal (ratePosterior self.nPosteriors vt R)

/-- For every selection function that provides the efficiency and volume or returns a bare number, the
samples follow the posterior. -/
theorem C54_distribution_partial {self : Likelihood} (hcls : self.cls ≠ .rate)
    (hN : 1 ≤ self.nPosteriors) {θ : Dict Fl} {vt : ℝ} (hvt : 0 < vt)
    (hexp : exposure self.selection θ vt) : FollowsRatePosterior self θ vt := by
  have heq := rateSample_eq hcls hvt hexp
  refine ⟨fun g => ⟨_, heq g⟩, fun S hS hpos => ?_⟩
  have hset : {g | ∃ R ∈ S, self.generateRatePosteriorSample (fin g) θ = .ok (fin R)} =
      (fun g => g / vt) ⁻¹' S := by
    ext g
    simp only [Set.mem_setOf_eq, Set.mem_preimage, heq]
    constructor
    · rintro ⟨R, hR, h⟩
      have := fin_inj.1 (Except.ok.inj h)
      rwa [this]
    · intro h
      exact ⟨_, h, rfl⟩
  have hm : Measurable fun g : ℝ => g / vt := by fun_prop
  rw [hset, ← Measure.map_apply hm hS, gammaMeasure_map_div hvt]
  unfold gammaMeasure
  rw [withDensity_apply _ hS]
  refine setLIntegral_congr_fun hS fun R hR => ?_
  rw [ratePosterior_eq hN hvt (hpos hR)]
  rfl

/-- For every selection function with which the likelihood works (it returns a finite positive
selection), the samples follow the posterior. -/
def C54_statement : Prop :=
  ∀ (self : Likelihood) (θ : Dict Fl) (pdet varDet : ℝ) (r : SelResult), self.cls ≠ .rate →
    1 ≤ self.nPosteriors → (∀ θ, self.conversion θ = .ok θ) → self.selection.rate = none →
    self.selection.call θ = .ok r → reports r pdet varDet → 0 < pdet →
    FollowsRatePosterior self θ pdet

/-- A selection function that returns a tuple, as the likelihood allows, but is not an object with
`detection_efficiency` and `surveyed_hypervolume`, makes the call fail with `TypeError`. -/
theorem C54_tuple_partial {self : Likelihood} (hcls : self.cls ≠ .rate) {θ : Dict Fl}
    (hrate : self.selection.rate = none) {py : Bool} {s v : Fl}
    (hs : self.selection.call θ = .ok (.pair py s v)) (g : Fl) :
    self.generateRatePosteriorSample g θ = .error .typeError := by
  unfold Likelihood.generateRatePosteriorSample
  cases hc : self.cls with
  | rate => exact absurd hc hcls
  | hyper => simp only [hrate, hs, ok_bind]; rfl
  | null => simp only [hrate, hs, ok_bind]; rfl

theorem C54_fails : ¬ C54_statement := by
  intro H
  obtain ⟨R, hR⟩ := (H (toyLikelihood .hyper (.pair true (fin 1) (fin 1)) pinf) [] 1 1 _ (by decide)
    (by decide) (fun _ => rfl) rfl rfl (.inl ⟨true, rfl⟩) one_pos).1 1
  rw [C54_tuple_partial (by decide) rfl rfl] at hR
  cases hR

/-- The conversion function is not applied before the selection function: there is a likelihood that can
be evaluated at a point but raises when a rate is drawn there. -/
theorem C54_unconverted_fails : ∃ (self : Likelihood) (θ : Dict Fl) (l v : ℝ),
    self.cls = .hyper ∧ self.lnLikelihoodAndVariance θ = .ok (fin l, fin v) ∧
    ∀ g, self.generateRatePosteriorSample g θ = .error (.keyError "mu_chi") := by
  refine ⟨{ flatEvent .hyper (.bare true (fin 1)) pinf with
    conversion := fun θ => .ok (θ.set "mu_chi" (fin 1))
    selection := ⟨fun θ => do let _ ← θ.get "mu_chi"; return .bare true (fin 1), none⟩ }, [], 0, 0,
    rfl, ?_, fun g => rfl⟩
  have := C44_estimator (self := { flatEvent .hyper (.bare true (fin 1)) pinf with
    conversion := fun θ => .ok (θ.set "mu_chi" (fin 1))
    selection := ⟨fun θ => do let _ ← θ.get "mu_chi"; return .bare true (fin 1), none⟩ }) rfl
    (θ := []) rfl (P := [[1, 1]]) (prior := none) rfl rfl rfl (by simp) flatGood rfl
    (.inr ⟨⟨true, rfl⟩, rfl⟩) one_pos
  rw [this]
  norm_num [importance, lnLikelihood, lnLikelihoodVariance]
  norm_num [lnBayesFactor, relativeVariance, mean]

/-- `RateLikelihood` returns the sampled rate, and raises `KeyError` if there is none. -/
theorem C54_rate {self : Likelihood} (hcls : self.cls = .rate) (g : Fl) (θ : Dict Fl) :
    (∀ R, θ.get? "rate" = some R → self.generateRatePosteriorSample g θ = .ok R) ∧
    (¬ θ.contains "rate" → self.generateRatePosteriorSample g θ = .error (.keyError "rate")) := by
  unfold Likelihood.generateRatePosteriorSample
  simp only [hcls, Dict.get]
  constructor
  · intro R h
    rw [h]
  · intro h
    rw [(Dict.get?_eq_none_iff θ "rate").2 h]

/-- The hypotheses of `C54_distribution_partial` hold with a selection function with efficiency 1/2 and
volume 10, and with one that returns a number. -/
example : FollowsRatePosterior { toyLikelihood .hyper (.pair true (fin 1) (fin 1)) pinf with
      selection := ⟨fun _ => .ok (.pair true (fin 1) (fin 1)),
        some (fun _ => .ok (fin (1 / 2), fin 0), fun _ => .ok (fin 10))⟩ } [] (1 / 2 * 10) ∧
    FollowsRatePosterior (toyLikelihood .hyper (.bare true (fin 3)) pinf) [] 3 := by
  constructor
  · exact C54_distribution_partial (by decide) (by decide) (by norm_num)
      ⟨1 / 2, 10, fin 0, rfl, rfl, rfl⟩
  · exact C54_distribution_partial (by decide) (by decide) (by norm_num) ⟨true, rfl⟩

/-! ## C55: reordering -/

/-- The data of events given as lists of samples, each sample a row. -/
def Spec.columnsOf (cols : List String) (events : List (List (String → Fl))) : Dict Mat :=
  cols.map fun c => (c, events.map fun e => e.map fun s => s c)

/-- The likelihood object with the given events; `usePrior` says whether there is a column
`prior`. -/
def Spec.withEvents (self : Likelihood) (cols : List String) (usePrior : Bool)
    (events : List (List (String → Fl))) : Likelihood :=
  { self with
    data := columnsOf cols events
    samplingPrior := if usePrior then some (events.map fun e => e.map fun s => s "prior") else none }

/-- The population model evaluates every sample by itself. -/
def Spec.SampleWise (model : PopModel (Dict Mat) Mat) (cols : List String) : Prop :=
  ∃ f : Dict Fl → (String → Fl) → Fl, ∀ events φ,
    model.prob (columnsOf cols events) φ = .ok (events.map fun e => e.map (f φ))

/-- `events'` is `events` with the samples reordered within each event and the events reordered. -/
def Spec.Reordered (events events' : List (List (String → Fl))) : Prop :=
  ∃ mid, List.Forall₂ List.Perm events mid ∧ mid.Perm events'

theorem map_div_one (x : Fl) : x / 1 = x := by
  cases x with
  | fin r => rw [one_eq, fin_div one_ne_zero, div_one]
  | pinf => rw [one_eq, pinf_div_fin, if_neg (by norm_num)]
  | ninf => rw [one_eq, ninf_div_fin, if_neg (by norm_num)]
  | nan => rfl

theorem weights_withEvents {self : Likelihood} {cols : List String}
    (h : SampleWise self.hyperPrior cols) (usePrior : Bool) :
    ∃ w : Dict Fl → (String → Fl) → Fl, ∀ events φ,
      (withEvents self cols usePrior events).weights φ =
        .ok (events.map fun e => e.map (w φ)) := by
  obtain ⟨f, hf⟩ := h
  refine ⟨fun φ s => f φ s / if usePrior then s "prior" else 1, fun events φ => ?_⟩
  unfold Likelihood.weights withEvents
  simp only [hf, ok_bind]
  cases usePrior with
  | false =>
    simp only [Bool.false_eq_true, if_false, pure_eq_ok, List.map_map, Function.comp_def]
  | true =>
    simp only [if_true, Mat.divide, List.map_map, Function.comp_def, List.length_map]
    rw [zipWith_map_same]
    congr 1
    refine List.map_congr_left fun e _ => ?_
    rw [zipWith_map_same]

/-- The statistics of one event. -/
def eventStatistics (K : ℕ) (row : List Fl) : Fl × Fl :=
  (Fl.log (Arr.mean row), (Arr.mean (row.map (· ^ 2)) - Arr.mean row ^ 2) /
    ((K : Fl) * Arr.mean row ^ 2))

theorem eventStatistics_perm {K : ℕ} {r r' : List Fl} (h : r.Perm r') :
    eventStatistics K r = eventStatistics K r' := by
  have hm : ∀ {a b : List Fl}, a.Perm b → Arr.mean a = Arr.mean b := by
    intro a b hab
    unfold Arr.mean
    rw [hab.sum_eq, hab.length_eq]
  unfold eventStatistics
  rw [hm h, hm (h.map _)]

theorem perEvent_eq {self : Likelihood} {φ : Dict Fl} {w : Mat} (h : self.weights φ = .ok w) :
    self.perEvent φ = .ok (w.map (eventStatistics self.samplesPerPosterior)) := by
  unfold Likelihood.perEvent
  rw [h]
  rfl

/-- Reordering events, or samples within events, leaves the log-likelihood and its variance (of all
three classes) unchanged, whatever the values, including special values. -/
theorem C55_reorder {self : Likelihood} {cols : List String}
    (hmodel : SampleWise self.hyperPrior cols) (usePrior : Bool)
    {events events' : List (List (String → Fl))} (h : Reordered events events') (θ : Dict Fl) :
    (withEvents self cols usePrior events).lnLikelihoodAndVariance θ =
      (withEvents self cols usePrior events').lnLikelihoodAndVariance θ := by
  obtain ⟨w, hw⟩ := weights_withEvents hmodel usePrior
  obtain ⟨mid, h1, h2⟩ := h
  have hperm : ∀ φ, ((events.map fun e => e.map (w φ)).map
      (eventStatistics self.samplesPerPosterior)).Perm
      ((events'.map fun e => e.map (w φ)).map (eventStatistics self.samplesPerPosterior)) := by
    intro φ
    have e1 : (events.map fun e => e.map (w φ)).map (eventStatistics self.samplesPerPosterior) =
        (mid.map fun e => e.map (w φ)).map (eventStatistics self.samplesPerPosterior) := by
      clear h2
      induction h1 with
      | nil => rfl
      | cons hab _ ih =>
        simp only [List.map_cons]
        rw [eventStatistics_perm (hab.map (w φ)), ih]
    rw [e1]
    exact (h2.map _).map _
  have hbase : (withEvents self cols usePrior events).lnLikelihoodAndVarianceBase θ =
      (withEvents self cols usePrior events').lnLikelihoodAndVarianceBase θ := by
    unfold Likelihood.lnLikelihoodAndVarianceBase
    have hc : (withEvents self cols usePrior events).conversion θ =
      (withEvents self cols usePrior events').conversion θ := rfl
    rw [hc]
    cases hφ : (withEvents self cols usePrior events').conversion θ with
    | error e => rfl
    | ok φ =>
      rw [ok_bind, ok_bind, perEvent_eq (hw events φ), perEvent_eq (hw events' φ), ok_bind, ok_bind]
      have hs : (withEvents self cols usePrior events).selectionFactor φ =
        (withEvents self cols usePrior events').selectionFactor φ := rfl
      rw [hs]
      have hK : (withEvents self cols usePrior events).samplesPerPosterior =
        self.samplesPerPosterior := rfl
      have hK' : (withEvents self cols usePrior events').samplesPerPosterior =
        self.samplesPerPosterior := rfl
      rw [hK, hK']
      have a1 := ((hperm φ).map Prod.fst).sum_eq
      have a2 := ((hperm φ).map Prod.snd).sum_eq
      unfold Arr.sum
      rw [a1, a2]
      rfl
  unfold Likelihood.lnLikelihoodAndVariance
  rw [hbase]
  rfl

/-- The sampling prior with the values of event `i` multiplied by `c i`. -/
def Spec.scalePrior (c : List ℝ) (Q : List (List ℝ)) : List (List ℝ) :=
  List.zipWith (fun x q => q.map fun y => x * y) c Q

/-- Per-event statistics with the log Bayes factor of event `i` shifted by `-ln c i`. -/
def Spec.shiftLnBf (c : List ℝ) (events : List (Fl × Fl)) : List (Fl × Fl) :=
  List.zipWith (fun x e => (e.1 - fin (Real.log x), e.2)) c events

/-- Multiplying the sampling prior of each event `i` by `c_i > 0` shifts its log Bayes factor by
`-ln c_i` and leaves its variance unchanged. -/
theorem C55_prior_scale {self : Likelihood} {θ : Dict Fl} {P Q : List (List ℝ)} {c : List ℝ}
    (hp : self.hyperPrior.prob self.data θ = .ok (matFin P))
    (hq : self.samplingPrior = some (matFin Q)) (hshape : Q.map List.length = P.map List.length)
    (hQ : ∀ q ∈ Q, ∀ x ∈ q, x ≠ 0)
    (hgood : GoodWeights self.samplesPerPosterior (importance P (some Q)))
    (hc : c.length = Q.length) (hc0 : ∀ x ∈ c, 0 < x) :
    ∃ events, self.perEvent θ = .ok events ∧ events.length = Q.length ∧
      Likelihood.perEvent { self with samplingPrior := some (matFin (scalePrior c Q)) } θ =
        .ok (shiftLnBf c events) := by
  unfold scalePrior shiftLnBf
  have hscaled : ∀ (c : List ℝ) (P Q : List (List ℝ)), c.length = Q.length →
      Q.map List.length = P.map List.length → (∀ x ∈ c, 0 < x) →
      List.zipWith (List.zipWith (· / ·)) P (List.zipWith (fun x q => q.map (x * ·)) c Q) =
        List.zipWith (fun x w => w.map (· / x)) c (List.zipWith (List.zipWith (· / ·)) P Q) := by
    intro c
    induction c with
    | nil => intro P Q; simp
    | cons x c ih =>
      intro P Q h1 h2 h3
      cases Q with
      | nil => simp at h1
      | cons q Q =>
        cases P with
        | nil => simp at h2
        | cons p P =>
          simp only [List.length_cons, add_left_inj] at h1
          simp only [List.map_cons, List.cons.injEq] at h2
          simp only [List.zipWith_cons_cons]
          rw [ih P Q h1 h2.2 fun y hy => h3 y (by simp [hy])]
          congr 1
          clear * -
          induction p generalizing q with
          | nil => simp
          | cons a p ih =>
            cases q with
            | nil => simp
            | cons b q =>
              simp only [List.map_cons, List.zipWith_cons_cons]
              rw [ih, div_div, mul_comm b x]
  have hlenW : (importance P (some Q)).length = Q.length := by
    have := congrArg List.length hshape
    simp only [List.length_map] at this
    simp [importance, this]
  have hw := weights_fin (prior := some Q) hp hq (by
    intro Q' h
    rw [Option.mem_some_iff] at h
    subst h
    exact ⟨hshape, hQ⟩)
  refine ⟨_, perEvent_fin hw hgood, by simpa using hlenW, ?_⟩
  have hQ' : ∀ q ∈ List.zipWith (fun x q => q.map (x * ·)) c Q, ∀ x ∈ q, x ≠ 0 := by
    intro q hq x hx
    obtain ⟨i, hi, rfl⟩ := List.getElem_of_mem hq
    rw [List.length_zipWith] at hi
    rw [List.getElem_zipWith] at hx
    obtain ⟨y, hy, rfl⟩ := List.mem_map.1 hx
    exact mul_ne_zero (hc0 _ (List.getElem_mem _)).ne' (hQ _ (List.getElem_mem _) y hy)
  have hshape' : (List.zipWith (fun x q => q.map (x * ·)) c Q).map List.length =
      P.map List.length := by
    rw [← hshape, List.map_zipWith]
    simp only [List.length_map]
    clear * - hc
    induction c generalizing Q with
    | nil =>
      have : Q = [] := List.length_eq_zero_iff.1 hc.symm
      rw [this]; rfl
    | cons x c ih =>
      cases Q with
      | nil => simp at hc
      | cons q Q =>
        simp only [List.zipWith_cons_cons, List.map_cons]
        rw [ih (by simpa using hc)]
  have hw' := weights_fin (θ := θ)
    (self := { self with
      samplingPrior := some (matFin (List.zipWith (fun x q => q.map fun y => x * y) c Q)) })
    (prior := some (List.zipWith (fun x q => q.map fun y => x * y) c Q)) hp rfl (by
      intro Q' h
      rw [Option.mem_some_iff] at h
      subst h
      exact ⟨hshape', hQ'⟩)
  have himp : importance P (some (List.zipWith (fun x q => q.map (x * ·)) c Q)) =
      List.zipWith (fun x w => w.map (· / x)) c (importance P (some Q)) := hscaled c P Q hc hshape hc0
  have hmean : ∀ (x : ℝ) (w : List ℝ), mean (w.map (· / x)) = mean w / x := by
    intro x w
    unfold mean
    rw [List.length_map, div_right_comm]
    congr 1
    induction w with
    | nil => simp
    | cons a w ih => simp only [List.map_cons, List.sum_cons, ih]; ring
  rw [himp] at hw'
  obtain ⟨W, hW⟩ : ∃ W, W = importance P (some Q) := ⟨_, rfl⟩
  rw [← hW] at hw' hgood hlenW ⊢
  rw [perEvent_fin hw']
  · congr 1
    clear hw hw' himp hQ' hshape' hW hscaled hshape
    rw [← hlenW] at hc
    clear hlenW hq hQ
    induction c generalizing W with
    | nil => simp
    | cons x c ih =>
      cases W with
      | nil => simp at hc
      | cons w W =>
        have hx : 0 < x := hc0 x (by simp)
        obtain ⟨-, hm⟩ := hgood w (by simp)
        simp only [List.zipWith_cons_cons, List.map_cons]
        rw [ih (fun y hy => hc0 y (by simp [hy])) W (by simpa using hc)
          (fun v hv => hgood v (by simp [hv]))]
        congr 1
        have e1 : lnBayesFactor (w.map (· / x)) = lnBayesFactor w - Real.log x := by
          unfold lnBayesFactor
          rw [hmean, Real.log_div hm.ne' hx.ne']
        have e2 : relativeVariance (w.map (· / x)) = relativeVariance w := by
          unfold relativeVariance
          have : (w.map (· / x)).map (· ^ 2) = (w.map (· ^ 2)).map (· / x ^ 2) := by
            rw [List.map_map, List.map_map]
            refine List.map_congr_left fun y _ => ?_
            simp only [Function.comp, div_pow]
          rw [this, hmean, hmean, List.length_map]
          have hx2 : x ^ 2 ≠ 0 := pow_ne_zero 2 hx.ne'
          rw [div_pow, ← sub_div, ← mul_div_assoc, div_div_div_cancel_right₀ hx2]
        rw [e1, e2, fin_sub]
  · intro v hv
    obtain ⟨i, hi, rfl⟩ := List.getElem_of_mem hv
    rw [List.getElem_zipWith]
    rw [List.length_zipWith] at hi
    obtain ⟨g1, g2⟩ := hgood _ (List.getElem_mem (l := W) (n := i) (by omega))
    refine ⟨by rw [List.length_map]; exact g1, ?_⟩
    rw [hmean]
    exact div_pos g2 (hc0 _ (List.getElem_mem _))

/-- A sample-wise model, two events of different values, and a reordering that swaps the events and
the samples of one of them. -/
example : SampleWise ⟨[.other], fun data _ =>
      match data.get? "x" with
      | some m => .ok (m.map fun r => r.map fun x => x * x)
      | none => .error (.keyError "x")⟩ ["x"] ∧
    Reordered [[fun _ => fin 1, fun _ => fin 2], [fun _ => fin 3, fun _ => fin 3]]
      [[fun _ => fin 3, fun _ => fin 3], [fun _ => fin 2, fun _ => fin 1]] := by
  constructor
  · refine ⟨fun _ s => s "x" * s "x", fun events φ => ?_⟩
    simp [columnsOf, Dict.get?_cons]
  · refine ⟨[[fun _ => fin 2, fun _ => fin 1], [fun _ => fin 3, fun _ => fin 3]], ?_, ?_⟩
    · exact .cons (List.Perm.swap _ _ _) (.cons (List.Perm.refl _) .nil)
    · exact List.Perm.swap _ _ _

/-- The hypotheses of `C55_prior_scale` hold for the toy likelihood. -/
example : ∃ events, (toyLikelihood .hyper (.bare true (fin 1)) pinf).perEvent [] = .ok events ∧
    Likelihood.perEvent { toyLikelihood .hyper (.bare true (fin 1)) pinf with
      samplingPrior := some (matFin (scalePrior [5, 7] [[1, 1], [2, 2]])) } [] =
      .ok (shiftLnBf [5, 7] events) := by
  obtain ⟨events, h1, -, h3⟩ := C55_prior_scale
    (self := toyLikelihood .hyper (.bare true (fin 1)) pinf) (θ := []) (P := [[1, 3], [2, 2]])
    (Q := [[1, 1], [2, 2]]) (c := [5, 7]) rfl rfl rfl (toyShape _ rfl).2
    (by rw [toyWeights]; exact toyGood) rfl (by
      intro x hx
      simp only [List.mem_cons, List.not_mem_nil, or_false] at hx
      rcases hx with rfl | rfl <;> norm_num)
  exact ⟨events, h1, h3⟩

end GW
