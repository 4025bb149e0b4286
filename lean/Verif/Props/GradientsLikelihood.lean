import Verif.Props.GradientsModels
import Verif.Props.GradientsRedshift

/-!
# C92: gradients of the likelihood

If jax returns the derivatives of the densities at all posterior samples and of the selection
function, it returns the derivative of the log likelihood. One sample whose density has a NaN derivative turns
the derivative of the log likelihood into NaN, also if the density of the sample is constantly 0.
-/

noncomputable section

open Set MeasureTheory Filter
open scoped Topology

namespace GW

open Fl Spec Ex

theorem eval_sumEx (env : String → Fl) (xs : List Ex) : eval env (sumEx xs) = (xs.map (eval env)).sum := by
  induction xs with
  | nil => rfl
  | cons a l ih =>
    rw [List.map_cons, List.sum_cons, ← ih]
    rfl

theorem smooth_sum {θ : String → ℝ} {v : String} {xs : List Ex} (h : ∀ x ∈ xs, Smooth θ v x) :
    Smooth θ v (sumEx xs) := by
  induction xs with
  | nil => exact smooth_const θ v 0
  | cons a l ih => exact smooth_add (h a (by simp)) (ih fun x hx => h x (by simp [hx]))

theorem back_sum_nan {env : String → Fl} {v : String} {xs : List Ex} {x : Ex} (hx : x ∈ xs) {ct : Fl}
    (h : back env v x ct = nan) : back env v (sumEx xs) ct = nan := by
  induction xs with
  | nil => cases hx
  | cons a l ih =>
    show back env v a ct + back env v (sumEx l) ct = nan
    rcases List.mem_cons.1 hx with rfl | hx
    · rw [h, nan_add]
    · rw [ih hx, add_nan]

/-- The estimated log likelihood as a function of the hyper-parameters, which are passed as `kw`. -/
def lnLikelihoodOf (self : Likelihood) (kw : (String → ℝ) → Dict Fl) (θ : String → ℝ) : Except PyErr Fl :=
  (self.lnLikelihoodAndVariance (kw θ)).map Prod.fst

/-- The recorded computation: `density x` is recorded for the sample `x`, `q x` is its sampling prior. -/
def lnLikelihoodRec {ι : Type} (events : List (List ι)) (density : ι → Ex) (q : ι → ℝ) (selection : Ex) : Ex :=
  lnLikelihoodEx (events.map fun e => e.map fun x => (density x, q x)) selection

namespace Spec

/-- The population model returns `density` at the samples in `events`, the sampling prior is `q` (1 if there is none),
and the selection function returns `selection`. -/
structure RecordedAs {ι : Type} (L : Likelihood) (kw : (String → ℝ) → Dict Fl) (events : List (List ι))
    (density : ι → Ex) (q : ι → ℝ) (selection : Ex) : Prop where
  /-- the class -/
  cls : L.cls = .hyper
  /-- one row per event -/
  number : events.length = L.nPosteriors
  /-- conversion, densities and selection function -/
  calls : ∀ θ, ∃ φ, L.conversion (kw θ) = .ok φ ∧
    L.hyperPrior.prob L.data φ = .ok (events.map fun e => e.map fun x => eval (envOf θ) (density x)) ∧
    ∃ py var, L.selection.call φ = .ok (.pair py (eval (envOf θ) selection) var) ∨
      L.selection.call φ = .ok (.bare py (eval (envOf θ) selection))
  /-- the sampling prior -/
  prior : L.samplingPrior = some (events.map fun e => e.map fun x => fin (q x)) ∨
    L.samplingPrior = none ∧ ∀ x, q x = 1

end Spec

theorem trace_likelihood {ι : Type} {self : Likelihood} {kw : (String → ℝ) → Dict Fl} {events : List (List ι)}
    {density : ι → Ex} {q : ι → ℝ} {selection : Ex} (h : RecordedAs self kw events density q selection) :
    Traces (lnLikelihoodRec events density q selection) (lnLikelihoodOf self kw) := by
  intro θ
  obtain ⟨φ, hconv, hp, py, var, hsel⟩ := h.calls θ
  have hw : self.weights φ = .ok (events.map fun e => e.map fun x => eval (envOf θ) (density x) / fin (q x)) := by
    unfold Likelihood.weights
    rw [hp, ok_bind]
    rcases h.prior with hq | ⟨hq, h1⟩
    · rw [hq]
      simp only [Mat.divide, List.map_map, Function.comp_def, List.length_map, if_pos, List.zipWith_map,
        List.zipWith_self]
    · rw [hq]
      simp only [pure_eq_ok, List.map_map, Function.comp_def, h1, one_eq]
  have hsf : ∃ v, self.selectionFactorHyper φ = .ok (fin (-(events.length : ℝ)) *
      Fl.log (eval (envOf θ) selection), v) := by
    unfold Likelihood.selectionFactorHyper Likelihood.selectionWithUncertainty
    rw [h.number]
    rcases hsel with hsel | hsel <;> rw [hsel] <;>
      simp only [ok_bind, pure_eq_ok, natCast_eq, fin_neg] <;> exact ⟨_, rfl⟩
  obtain ⟨w, hsf⟩ := hsf
  unfold lnLikelihoodOf Likelihood.lnLikelihoodAndVariance Likelihood.lnLikelihoodAndVarianceBase
    Likelihood.perEvent Likelihood.selectionFactor
  simp only [h.cls, hconv, hw, hsf, ok_bind, pure_eq_ok, Except.map]
  congr 1
  unfold lnLikelihoodRec lnLikelihoodEx
  rw [eval_add, eval_sumEx, eval_mul]
  simp only [List.map_map, Function.comp_def, List.length_map, Arr.sum]
  congr 1
  congr 1
  apply List.map_congr_left
  intro e _
  unfold lnBayesFactorEx Arr.mean
  rw [eval_un, eval_div, eval_sumEx]
  simp only [List.map_map, Function.comp_def, List.length_map, natCast_eq]
  rfl

/-- **C92.** If the densities at all samples and the selection function are computed by operations that are
differentiable where they are used, and every event has positive mean weight and the detection probability is
positive, then jax returns the derivative of the log likelihood. -/
theorem C92_likelihood_partial {ι : Type} {self : Likelihood} {kw : (String → ℝ) → Dict Fl}
    {events : List (List ι)} {density : ι → Ex} {q : ι → ℝ} {selection : Ex}
    (h : RecordedAs self kw events density q selection) {θ : String → ℝ} {v : String}
    (hd : ∀ e ∈ events, ∀ x ∈ e, Smooth θ v (density x)) (hs : Smooth θ v selection) {g : ι → ℝ} {pdet : ℝ}
    (hg : ∀ e ∈ events, ∀ x ∈ e, eval (envOf θ) (density x) = fin (g x))
    (hq : ∀ e ∈ events, ∀ x ∈ e, q x ≠ 0) (hpos : ∀ e ∈ events, 0 < mean (e.map fun x => g x / q x))
    (hsel : eval (envOf θ) selection = fin pdet) (hpdet : 0 < pdet) :
    GradientRight (lnLikelihoodOf self kw) (lnLikelihoodRec events density q selection) θ v := by
  refine gradientRight (trace_likelihood h) ?_
  refine smooth_add (smooth_sum fun y hy => ?_) (smooth_mul (smooth_const θ v _)
    (smooth_un hs hsel hpdet))
  obtain ⟨w, hw, rfl⟩ := List.mem_map.1 hy
  obtain ⟨e, he, rfl⟩ := List.mem_map.1 hw
  have hp := hpos e he
  have hl : (e.length : ℝ) ≠ 0 := by
    have := ne_nil_of_mean_pos hp
    intro h0
    rw [Nat.cast_eq_zero, List.length_eq_zero_iff] at h0
    exact this (by rw [h0]; rfl)
  have sx : ∀ x ∈ e, Smooth θ v (density x / const (fin (q x))) := fun x hx =>
    smooth_div (hd e he x hx) (smooth_const θ v _) rfl (hq e he x hx)
  have ss : Smooth θ v (sumEx ((e.map fun x => (density x, q x)).map fun e => e.1 / const (fin e.2))) := by
    refine smooth_sum fun y hy => ?_
    rw [List.map_map] at hy
    obtain ⟨x, hx, rfl⟩ := List.mem_map.1 hy
    exact sx x hx
  have es : eval (envOf θ) (sumEx ((e.map fun x => (density x, q x)).map fun e => e.1 / const (fin e.2))) =
      fin ((e.map fun x => g x / q x).sum) := by
    rw [eval_sumEx, List.map_map, List.map_map]
    refine Eq.trans ?_ (sum_map_fin e fun x => g x / q x)
    unfold Arr.sum
    congr 1
    apply List.map_congr_left
    intro x hx
    simp only [Function.comp_apply]
    rw [eval_div, hg e he x hx]
    exact fin_div (hq e he x hx)
  unfold lnBayesFactorEx
  refine smooth_un (o := .log) (a := mean (e.map fun x => g x / q x)) (smooth_div ss (smooth_const θ v _) rfl
    (by rw [List.length_map]; exact hl)) ?_ hp
  rw [eval_div, es]
  unfold mean
  rw [List.length_map, List.length_map]
  exact fin_div hl

/-- **C92.** If NaN comes back from the density of one posterior sample, for any cotangent, then the derivative of the
log likelihood is NaN, whatever the other samples and events are. -/
theorem C92_likelihood_nan {ι : Type} (events : List (List ι)) (density : ι → Ex) (q : ι → ℝ) (selection : Ex)
    {env : String → Fl} {v : String} {e : List ι} (he : e ∈ events) {x : ι} (hx : x ∈ e)
    (h : ∀ ct, back env v (density x) ct = nan) :
    (lnLikelihoodRec events density q selection).grad env v = nan := by
  unfold lnLikelihoodRec lnLikelihoodEx Ex.grad
  rw [back_add, back_sum_nan (x := lnBayesFactorEx (e.map fun x => (density x, q x))), nan_add]
  · rw [List.map_map]
    exact List.mem_map.2 ⟨e, he, rfl⟩
  · unfold lnBayesFactorEx
    rw [back_un, back_div, back_sum_nan (x := density x / const (fin (q x))), nan_add]
    · rw [List.map_map]
      exact List.mem_map.2 ⟨x, hx, rfl⟩
    · rw [back_div, h, nan_add]

/-- A likelihood with one event with samples 2 and 3 and a power law between 1 and 4 as population model. -/
def powerlawLikelihood : Likelihood where
  cls := .hyper
  backend := .jax
  data := [("mass_1", [[fin 2, fin 3]])]
  hyperPrior := ⟨[.other], fun _ φ => match Dict.get? φ "alpha" with
    | none => .error (.keyError "alpha")
    | some a => [[(2 : ℝ), 3]].mapM fun e => e.mapM fun x =>
      powerlaw .jax false ⟨fin x, true⟩ ⟨a, false⟩ ⟨fin 4, false⟩ ⟨fin 1, false⟩⟩
  samplingPrior := none
  totalNoiseEvidence := fin 0
  conversion := fun θ => .ok θ
  selection := ⟨fun _ => .ok (.bare true (fin (1 / 2))), none⟩
  nPosteriors := 1
  samplesPerPosterior := 2
  maximumUncertainty := pinf
  maxVariance := pinf

example : GradientRight (lnLikelihoodOf powerlawLikelihood fun θ => [("alpha", fin (θ "alpha"))])
    (lnLikelihoodRec [[(2 : ℝ), 3]] (fun x => powerlawEx (const (fin x)) (arg "alpha") (const (fin 4)) (const (fin 1)))
      (fun _ => 1) (const (fin (1 / 2)))) (fun _ => 2) "alpha" := by
  have hrec : RecordedAs powerlawLikelihood (fun θ => [("alpha", fin (θ "alpha"))]) [[(2 : ℝ), 3]]
      (fun x => powerlawEx (const (fin x)) (arg "alpha") (const (fin 4)) (const (fin 1))) (fun _ => 1)
      (const (fin (1 / 2))) := by
    refine ⟨rfl, rfl, fun θ => ⟨_, rfl, ?_, true, 0, .inr rfl⟩, .inr ⟨rfl, fun _ => rfl⟩⟩
    refine mapM_ok (g := fun e => _) fun e _ => ?_
    refine mapM_ok (g := fun e => _) fun x _ => ?_
    exact trace_powerlaw (envOf θ) (const (fin x)) (arg "alpha") (const (fin 4)) (const (fin 1)) true false false false
  have hx : ∀ e ∈ [[(2 : ℝ), 3]], ∀ x ∈ e, 1 < x ∧ x < 4 := by
    intro e he x hx
    simp only [List.mem_singleton] at he
    subst he
    simp only [List.mem_cons, List.not_mem_nil, or_false] at hx
    rcases hx with rfl | rfl <;> norm_num
  have hg : ∀ e ∈ [[(2 : ℝ), 3]], ∀ x ∈ e, eval (envOf fun _ => 2) (powerlawEx (const (fin x)) (arg "alpha")
      (const (fin 4)) (const (fin 1))) = fin (normalised (fun t => t ^ (2 : ℝ)) 1 4 x) := fun e he x h =>
    Except.ok.inj ((trace_powerlaw _ _ _ _ _ true false false false).symm.trans
      (C01_powerlaw_value .jax false true false false false one_pos (by norm_num)
        (one_pos.trans (hx e he x h).1) (.inl rfl)))
  refine C92_likelihood_partial hrec (fun e he x h => ?_) (smooth_const _ _ _) hg (by simp) ?_ rfl (by norm_num)
  · have := hx e he x h
    exact smooth_powerlaw (smooth_const _ _ x) trivial (smooth_const _ _ 4) (smooth_const _ _ 1) rfl rfl rfl rfl
      (by linarith) (by norm_num) one_pos (by norm_num) (by norm_num) (smooth_mask_const _ _ _ _ _)
      (smooth_mask_const _ _ _ _ _)
  · intro e he
    have h := hx e he
    simp only [List.mem_singleton] at he
    subst he
    have p : ∀ x ∈ [(2 : ℝ), 3], 0 < normalised (fun t => t ^ (2 : ℝ)) 1 4 x := fun x hx =>
      normalised_pos (integral_rpow_pos one_pos (by norm_num)) ⟨(h x hx).1.le, (h x hx).2.le⟩
        (Real.rpow_pos_of_pos (one_pos.trans (h x hx).1) _)
    have p1 := p 2 (by simp)
    have p2 := p 3 (by simp)
    simp only [mean, List.map_cons, List.map_nil, List.sum_cons, List.sum_nil, List.length_cons, List.length_nil]
    positivity

/-! ### A likelihood for which the claim fails -/

/-- A likelihood with the smoothed model `s` on jax as population model: `events` are the masses and mass ratios of the
posterior samples; flat sampling prior, and the selection function always returns 1/2. `prob` calls the model once
per event; the model acts on each element of an array separately. -/
def smoothedLikelihood (s : Smoothed) (events : List (List (ℝ × ℝ))) : Likelihood where
  cls := .hyper
  backend := .jax
  data := [("mass_1", events.map fun e => e.map fun x => fin x.1), ("mass_ratio", events.map fun e => e.map fun x => fin x.2)]
  hyperPrior := ⟨[.other], fun _ φ => events.mapM fun e =>
    (Smoothed.call .jax s (e.map fun x => (fin x.1, fin x.2)) φ).1⟩
  samplingPrior := none
  totalNoiseEvidence := fin 0
  conversion := fun θ => .ok θ
  selection := ⟨fun _ => .ok (.bare true (fin (1 / 2))), none⟩
  nPosteriors := events.length
  samplesPerPosterior := 2
  maximumUncertainty := pinf
  maxVariance := pinf

theorem smoothedLikelihood_recorded {primary : Primary} {fixed : Dict Fl} {cache : Bool} {selfMin selfMax : ℝ}
    {nM nQ : ℕ} {s : Smoothed} (hs : Smoothed.init primary fixed selfMin selfMax nM nQ cache = .ok s)
    {names : List String} (hb : "beta" ∈ names) (hl : "mmin" ∈ names) (hd : "delta_m" ∈ names)
    (hdup : ∀ k ∈ Dict.keys fixed, k ∉ names) {prim : Ex → Ex}
    (hp : ∀ (θ : String → ℝ) (m : ℝ), primary .jax
      (Dict.erase (Dict.erase (namedArgs names θ) "beta" ++ fixed) "delta_m") (fin m) =
        .ok (eval (envOf θ) (prim (const (fin m))))) (events : List (List (ℝ × ℝ))) :
    RecordedAs (smoothedLikelihood s events) (namedArgs names) events (smoothedRec s prim) (fun _ => 1)
      (const (fin (1 / 2))) := by
  obtain ⟨hM, -, rfl⟩ := init_inv hs
  refine ⟨rfl, rfl, fun θ => ⟨_, rfl, ?_, true, 0, .inr rfl⟩, .inr ⟨rfl, fun _ => rfl⟩⟩
  refine mapM_ok (g := fun e => _) ?_
  intro e _
  exact trace_call (by rw [linspaceR_length]; exact hM) (.inr rfl) hb hl hd hdup θ (hp θ) e

/-- The full claim for the likelihood with the power law and one peak: wherever the log likelihood is a number and
differentiable in a hyper-parameter, jax returns the derivative. All samples are on the range of the grid, every event
has a sample with positive density, and the hyper-parameters are inside their ranges. -/
def C92_likelihood_statement : Prop :=
  ∀ (cache : Bool) (selfMin selfMax : ℝ) (nM nQ : ℕ) (s : Smoothed),
    singlePeak false selfMin selfMax nM nQ cache = .ok s → ∀ (θ : String → ℝ), 0 < selfMin → selfMin < selfMax →
    selfMin ≤ θ "mmin" → θ "mmin" < θ "mmax" → θ "mmax" ≤ selfMax → 0 < θ "delta_m" → θ "beta" ≠ -1 →
    θ "alpha" ≠ 1 → 0 ≤ θ "lam" → θ "lam" ≤ 1 → 0 < θ "sigpp" →
    GridInside selfMin selfMax nM (θ "mmin") (θ "mmax") → ∀ (events : List (List (ℝ × ℝ))),
    (∀ e ∈ events, ∀ x ∈ e, selfMin ≤ x.1 ∧ x.1 ≤ selfMax ∧ 0 < x.2 ∧ x.2 ≤ 1) →
    ∀ (v : String) (f : ℝ → ℝ) (d : ℝ),
    (∀ᶠ t in 𝓝 (θ v), lnLikelihoodOf (smoothedLikelihood s events) (namedArgs namesSinglePeak)
      (Function.update θ v t) = .ok (fin (f t))) → HasDerivAt f d (θ v) →
    (lnLikelihoodRec events (smoothedRec s (recSinglePeak selfMax)) (fun _ => 1) (const (fin (1 / 2)))).grad
      (envOf θ) v = fin d

/-- Hyper-parameters: masses from 2.1 to 3.5, a window of width 0.3; everything else is 0.4. -/
def otherHyper : String → ℝ := fun k =>
  if k = "mmin" then 2.1 else if k = "mmax" then 3.5 else if k = "delta_m" then 0.3 else 0.4

theorem otherHyper_offKinks : AllOffKinks 1 4 4 2 (otherHyper "mmin") (otherHyper "delta_m") (3.2, 0.9) := by
  have e1 : otherHyper "mmin" = 2.1 := by simp [otherHyper]
  have e2 : otherHyper "delta_m" = 0.3 := by simp [otherHyper]
  rw [e1, e2]
  refine ⟨fun i hi j hj => ?_, ?_, ?_⟩
  · rw [gridMass_four]
    unfold gridRatio OffKinks
    interval_cases i <;> interval_cases j <;> norm_num
  all_goals unfold OffKinks; norm_num

theorem otherHyper_mmax : AwayFrom 1 4 4 3.2 (otherHyper "mmax") := by
  have e : otherHyper "mmax" = 3.5 := by simp [otherHyper]
  rw [e]
  refine ⟨fun i hi => ?_, by norm_num⟩
  rw [gridMass_four]
  interval_cases i <;> norm_num

theorem otherHyper_inside : GridInside 1 4 4 (otherHyper "mmin") (otherHyper "mmax") := by
  refine ⟨2, by norm_num, ?_, ?_⟩ <;> simp [otherHyper] <;> norm_num

/-- **C92 fails for the likelihood.** Grid masses 1, 2, 3, 4 and one event with two posterior samples with primary
masses 3.2 and 1.05; the smallest mass is 2.1. The log likelihood is a differentiable function of `beta`, in
which the second sample does not enter. Because of the second sample jax returns NaN for the derivative. -/
theorem C92_likelihood_fails : ¬ C92_likelihood_statement := by
  intro H
  have h := init_ok (primTwoComponent false) [("gaussian_mass_maximum", fin 4)] (1 : ℝ) 4 true (nM := 4) (nQ := 2)
    (by norm_num) (by norm_num)
  obtain ⟨s, hs0⟩ : ∃ s, s = (⟨primTwoComponent false, [("gaussian_mass_maximum", fin 4)], 1, 4,
    Arr.linspaceR 1 4 4, Arr.linspaceR 0.001 1 2, true, none⟩ : Smoothed) := ⟨_, rfl⟩
  rw [← hs0] at h
  have hdup : ∀ k ∈ Dict.keys [("gaussian_mass_maximum", fin 4)], k ∉ namesSinglePeak := by
    intro k hk
    simp only [Dict.keys, List.map_cons, List.map_nil, List.mem_singleton, List.not_mem_nil] at hk
    subst hk
    decide
  have rec1 := smoothedLikelihood_recorded h (names := namesSinglePeak) (by decide) (by decide) (by decide) hdup
    (primary_singlePeak 4) [[(3.2, 0.9), (1.05, 0.9)]]
  have g1 := C92_singlePeak_partial true h (θ := otherHyper) (data := [(3.2, 0.9)]) (i := 0) (by norm_num)
    (by simp [otherHyper]; norm_num) (by simp [otherHyper]; norm_num) (by simp [otherHyper]; norm_num)
    (by simp [otherHyper]; norm_num) (by simp [otherHyper]; norm_num) (by simp [otherHyper]; norm_num)
    (by simp [otherHyper]; norm_num) (by simp [otherHyper]; norm_num) (by simp [otherHyper]; norm_num) (by simp)
    (by simp [otherHyper]; norm_num) (by simp; norm_num) (by simp; norm_num) otherHyper_offKinks otherHyper_mmax
    otherHyper_inside "beta"
  obtain ⟨e1, -⟩ := C92_singlePeak_below true h (θ := otherHyper) (data := [(1.05, 0.9)]) (i := 0) (by norm_num)
    (by norm_num) (by simp [otherHyper]; norm_num) (by simp [otherHyper]; norm_num) (by simp [otherHyper]; norm_num)
    (by simp [otherHyper]; norm_num) (by simp [otherHyper]; norm_num) (by simp [otherHyper]; norm_num) (by simp)
    (by simp; norm_num) (by simp [otherHyper]; norm_num) (by simp; norm_num) otherHyper_inside
  obtain ⟨f, d, hf, hd, -⟩ := g1
  have tr := fun θ (data : List (ℝ × ℝ)) (i : ℕ) (hi : i < data.length) =>
    smoothed_traces h (names := namesSinglePeak) (by decide) (by decide) (by decide) hdup (primary_singlePeak 4) hi θ
  have hpos : 0 < f (otherHyper "beta") := by
    have h0 : (0 : ℝ) < otherHyper "mmin" := by simp [otherHyper]; norm_num
    have hlt : otherHyper "mmin" < otherHyper "mmax" := by simp [otherHyper]; norm_num
    have hg : otherHyper "mmin" < 4 := by simp [otherHyper]; norm_num
    have hhi : otherHyper "mmax" ≤ 4 := by simp [otherHyper]; norm_num
    have hs : 0 < otherHyper "sigpp" := by simp [otherHyper]; norm_num
    have hl0 : 0 ≤ otherHyper "lam" := by simp [otherHyper]; norm_num
    have hl1 : otherHyper "lam" ≤ 1 := by simp [otherHyper]; norm_num
    have fpos : ∀ m, otherHyper "mmin" < m → m < otherHyper "mmax" → 0 < (1 - otherHyper "lam") *
        normalised (fun t => t ^ (-otherHyper "alpha")) (otherHyper "mmin") (otherHyper "mmax") m +
        otherHyper "lam" * normalised (bell (otherHyper "mpp") (otherHyper "sigpp")) (otherHyper "mmin") 4 m :=
      fun m h1 h2 => mix_pos hl0 hl1 (normalised_pos (integral_rpow_pos h0 hlt) ⟨h1.le, h2.le⟩
        (Real.rpow_pos_of_pos (h0.trans h1) _)) (normalised_pos (integral_gaussShape_pos hg) ⟨h1.le, h2.le.trans hhi⟩
        (gaussShape_pos (otherHyper "mpp") (otherHyper "sigpp") m))
    obtain ⟨r, hr, er⟩ := smoothed_pos h (prim := recSinglePeak 4) (θ := otherHyper) (e := (3.2, 0.9)) (by norm_num)
      (by norm_num) (by simp [otherHyper]; norm_num) (by simp [otherHyper]; norm_num)
      (by simp [otherHyper]; norm_num) (by norm_num) (by simp [otherHyper]; norm_num) (by norm_num)
      (f := fun m => (1 - otherHyper "lam") *
        normalised (fun t => t ^ (-otherHyper "alpha")) (otherHyper "mmin") (otherHyper "mmax") m +
        otherHyper "lam" * normalised (bell (otherHyper "mpp") (otherHyper "sigpp")) (otherHyper "mmin") 4 m)
      (fun m hm0 => Except.ok.inj ((trace_twoComponent (envOf otherHyper) (const (fin m)) (arg "alpha") (arg "mmin")
        (arg "mmax") (arg "lam") (arg "mpp") (arg "sigpp") (const (fin 4))).symm.trans
        (C18_twoComponentSingle_value .jax false (.inl rfl) h0 hlt hg hs hm0)))
      (fun m => add_nonneg (mul_nonneg (by linarith) ((isPdf_powerlaw (-otherHyper "alpha") h0 hlt).nonneg m))
        (mul_nonneg hl0 ((isPdf_bell (otherHyper "mpp") (otherHyper "sigpp") hg).nonneg m)))
      (by
        obtain ⟨m, hm, h1, h2⟩ := gridInside_inv otherHyper_inside
        exact ⟨m, hm, h1, fpos m h1 h2⟩)
      (fpos 3.2 (by simp [otherHyper]; norm_num) (by simp [otherHyper]; norm_num))
    have v := hf.self_of_nhds
    rw [Function.update_eq_self, tr otherHyper [(3.2, 0.9)] 0 (by simp)] at v
    have v' := er.symm.trans (Except.ok.inj v)
    rwa [← fin_inj.1 v']
  have hlog : HasDerivAt (fun t => Real.log (f t / 2) - Real.log (1 / 2)) (d / 2 / (f (otherHyper "beta") / 2))
      (otherHyper "beta") := ((hd.div_const 2).log (by positivity)).sub_const _
  have hval : ∀ᶠ t in 𝓝 (otherHyper "beta"), lnLikelihoodOf (smoothedLikelihood s [[(3.2, 0.9), (1.05, 0.9)]])
      (namedArgs namesSinglePeak) (Function.update otherHyper "beta" t) =
        .ok (fin (Real.log (f t / 2) - Real.log (1 / 2))) := by
    filter_upwards [hf, hd.continuousAt.eventually (lt_mem_nhds hpos)] with t h1 h2
    rw [trace_likelihood rec1]
    have v1 := Except.ok.inj ((tr _ [(3.2, 0.9)] 0 (by simp)).symm.trans h1)
    have v2 := Except.ok.inj ((tr _ [(1.05, 0.9)] 0 (by simp)).symm.trans (e1 t))
    simp only [List.getElem_cons_zero] at v1 v2
    have h4 : Fl.log (fin (1 / 2)) = fin (Real.log (1 / 2)) := log_fin (by norm_num)
    have h5 : Fl.log (fin (f t / 2)) = fin (Real.log (f t / 2)) := log_fin (by positivity)
    have h6 : eval (envOf (Function.update otherHyper "beta" t)) (lnBayesFactorEx
        [(smoothedRec s (recSinglePeak 4) (3.2, 0.9), 1), (smoothedRec s (recSinglePeak 4) (1.05, 0.9), 1)]) =
        fin (Real.log (f t / 2)) := by
      unfold lnBayesFactorEx
      rw [eval_un, eval_div, eval_sumEx]
      simp only [List.map_cons, List.map_nil, eval_div, v1, v2, eval_const, List.sum_cons, List.sum_nil,
        fin_div one_ne_zero, List.length_cons, List.length_nil]
      rw [← h5]
      show Fl.log _ = _
      congr 1
      simp
      rw [fin_div two_ne_zero]
    congr 1
    unfold lnLikelihoodRec lnLikelihoodEx
    rw [eval_add, eval_mul, eval_un, eval_sumEx]
    simp only [List.map_cons, List.map_nil, h6, List.sum_cons, List.sum_nil, eval_const]
    rw [show UnOp.log.val (fin (1 / 2)) = fin (Real.log (1 / 2)) from h4]
    simp
  have := H true 1 4 4 2 s h otherHyper (by norm_num) (by norm_num) (by simp [otherHyper]; norm_num)
    (by simp [otherHyper]; norm_num)
    (by simp [otherHyper]; norm_num) (by simp [otherHyper]; norm_num) (by simp [otherHyper]; norm_num)
    (by simp [otherHyper]; norm_num)
    (by simp [otherHyper]; norm_num) (by simp [otherHyper]; norm_num) (by simp [otherHyper]; norm_num)
    otherHyper_inside _ (by
      intro e he x hx
      simp only [List.mem_singleton] at he
      subst he
      simp only [List.mem_cons, List.not_mem_nil, or_false] at hx
      rcases hx with rfl | rfl <;> norm_num) "beta" _ _ hval hlog
  rw [C92_likelihood_nan _ _ _ _ (e := [(3.2, 0.9), (1.05, 0.9)]) (by simp) (x := (1.05, 0.9)) (by simp)
    (smoothed_below h (recSinglePeak 4) (θ := otherHyper) (by norm_num) (by norm_num)
      (by simp [otherHyper]; norm_num) (by norm_num) (by norm_num) (by simp [otherHyper]; norm_num) (by norm_num))]
    at this
  cases this

end GW
