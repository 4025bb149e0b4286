import Verif.Props.Likelihood
import Verif.Props.Resampling
import Verif.Lemmas.Finite
import Verif.Props.RatePosterior
import Verif.Props.Truncnorm
import Verif.Props.Powerlaw
import Verif.Model.Experimental
import Verif.Model.Mass
import Verif.Model.Spin
import Mathlib.Analysis.Convex.SpecificFunctions.Basic

/-!
# C152: the likelihood of a mixing fraction
-/

noncomputable section

open Classical

namespace GW

open Fl Spec

variable {α : Type}

/-! ## Specification -/

/-- The mixture of two densities: the fraction `l` of the second and the rest of the first. -/
def Spec.blend (l x y : ℝ) : ℝ := (1 - l) * x + l * y

/-- The estimate of the evidence of an event, or of the efficiency from injections: the sum of the density `f` over the
sampling density `q` divided by a number. -/
def Spec.estimate (f q : α → ℝ) (N : ℝ) (samples : List α) : ℝ := (samples.map fun s => f s / q s).sum / N

/-- A likelihood with a `ResamplingVT` selection function whose population is a mixture of the densities `f` and `g`
with the hyper-parameter `θ l` for the fraction `l` strictly between 0 and 1. `events` are the posterior samples, with
the prior `q`; `injections` are the found ones out of `N`, drawn from `q'`. Every event is possible under one of the
densities, and so are some injections. -/
structure Spec.MixtureAnalysis (lik : Likelihood) (vt : ResamplingVT) (θ : ℝ → Dict Fl) (events : List (List α))
    (injections : List α) (f g q q' : α → ℝ) (N : ℝ) : Prop where
  selection : lik.selection = vt.asSelection
  plain : vt.marginalizeUncertainty = false ∧ vt.enforceConvergence = false
  count : events.length = lik.nPosteriors
  samples : ∀ e ∈ events, e.length = lik.samplesPerPosterior
  some_samples : 0 < lik.samplesPerPosterior
  converted : ∀ l, 0 < l → l < 1 → ∃ φ, lik.conversion (θ l) = .ok φ ∧
    lik.hyperPrior.prob lik.data φ = .ok (matFin (events.map fun e => e.map fun s => blend l (f s) (g s))) ∧
    vt.model.prob vt.data φ = .ok ((injections.map fun s => blend l (f s) (g s)).map fin)
  prior : lik.samplingPrior = some (matFin (events.map fun e => e.map q))
  prior_pos : ∀ e ∈ events, ∀ s ∈ e, q s ≠ 0
  sampling : vt.data.get? "prior" = some (.arr ((injections.map q').map fin))
  sampling_pos : ∀ s ∈ injections, q' s ≠ 0
  generated : vt.totalInjections.2 = fin N
  generated_pos : 0 < N
  possible : ∀ e ∈ events, 0 ≤ estimate f q lik.samplesPerPosterior e ∧ 0 ≤ estimate g q lik.samplesPerPosterior e ∧
    0 < estimate f q lik.samplesPerPosterior e + estimate g q lik.samplesPerPosterior e
  detectable : 0 ≤ estimate f q' N injections ∧ 0 ≤ estimate g q' N injections ∧
    0 < estimate f q' N injections + estimate g q' N injections

/-- The log-likelihood of the fraction `l`, from the estimates `a` of the evidences and `p` of the efficiency under the
two components. -/
def Spec.lnMixture (a : List (ℝ × ℝ)) (p : ℝ × ℝ) (l : ℝ) : ℝ :=
  (a.map fun x => Real.log (blend l x.1 x.2)).sum - a.length * Real.log (blend l p.1 p.2)

/-- The same with a Poisson rate `R`. -/
def Spec.lnMixtureRate (a : List (ℝ × ℝ)) (p : ℝ × ℝ) (R l : ℝ) : ℝ :=
  (a.map fun x => Real.log (blend l x.1 x.2)).sum + a.length * Real.log R - R * blend l p.1 p.2

/-! ## Lemmas -/

namespace Mixtures

theorem blend_pos {l x y : ℝ} (h0 : 0 < l) (h1 : l < 1) (hx : 0 ≤ x) (hy : 0 ≤ y) (hxy : 0 < x + y) :
    0 < blend l x y := by
  unfold blend
  have h2 : 0 < 1 - l := by linarith
  rcases hx.lt_or_eq with hx | hx
  · have := mul_pos h2 hx
    have := mul_nonneg h0.le hy
    linarith
  · rw [← hx] at hxy ⊢
    have := mul_pos h0 (show 0 < y by linarith)
    linarith

theorem estimate_blend (f g q : α → ℝ) (N l : ℝ) (s : List α) :
    estimate (fun x => blend l (f x) (g x)) q N s = blend l (estimate f q N s) (estimate g q N s) := by
  unfold estimate
  have : (s.map fun x => blend l (f x) (g x) / q x).sum =
      (1 - l) * (s.map fun x => f x / q x).sum + l * (s.map fun x => g x / q x).sum := by
    induction s with
    | nil => simp
    | cons x s ih =>
      rw [List.map_cons, List.sum_cons, ih, List.map_cons, List.sum_cons, List.map_cons, List.sum_cons]
      unfold blend
      ring
  rw [this]
  unfold blend
  ring

/-- Sums of inequalities. -/
theorem sum_le {β : Type} {s : List β} {F G : β → ℝ} (h : ∀ x ∈ s, F x ≤ G x) : (s.map F).sum ≤ (s.map G).sum :=
  List.sum_le_sum h

theorem sum_combine {β : Type} (s : List β) (F G : β → ℝ) (a b : ℝ) :
    (s.map fun x => a * F x + b * G x).sum = a * (s.map F).sum + b * (s.map G).sum := by
  induction s with
  | nil => simp
  | cons x s ih => simp only [List.map_cons, List.sum_cons, ih]; ring

theorem blend_combine (t l1 l2 x y : ℝ) :
    blend ((1 - t) * l1 + t * l2) x y = (1 - t) * blend l1 x y + t * blend l2 x y := by
  unfold blend
  ring

theorem log_concave {a b s t : ℝ} (ha : 0 < a) (hb : 0 < b) (hs : 0 ≤ s) (ht : 0 ≤ t) (hst : s + t = 1) :
    s * Real.log a + t * Real.log b ≤ Real.log (s * a + t * b) := by
  have := strictConcaveOn_log_Ioi.concaveOn.2 (Set.mem_Ioi.2 ha) (Set.mem_Ioi.2 hb) hs ht hst
  simpa only [smul_eq_mul] using this

/-- Between two fractions the log-likelihood is not below the smaller of the two values. -/
theorem lnMixture_between {a : List (ℝ × ℝ)} {p : ℝ × ℝ}
    (ha : ∀ x ∈ a, 0 ≤ x.1 ∧ 0 ≤ x.2 ∧ 0 < x.1 + x.2) (hp : 0 ≤ p.1 ∧ 0 ≤ p.2 ∧ 0 < p.1 + p.2) {l1 l2 t : ℝ}
    (h1 : 0 < l1 ∧ l1 < 1) (h2 : 0 < l2 ∧ l2 < 1) (ht : 0 ≤ t ∧ t ≤ 1) :
    min (lnMixture a p l1) (lnMixture a p l2) ≤ lnMixture a p ((1 - t) * l1 + t * l2) := by
  have hv1 := blend_pos h1.1 h1.2 hp.1 hp.2.1 hp.2.2
  have hv2 := blend_pos h2.1 h2.2 hp.1 hp.2.1 hp.2.2
  have ht' : 0 ≤ 1 - t := by linarith [ht.2]
  have hv : 0 < (1 - t) * blend l1 p.1 p.2 + t * blend l2 p.1 p.2 := by
    rcases ht.1.lt_or_eq with h | h
    · have := mul_pos h hv2
      have := mul_nonneg ht' hv1.le
      linarith
    · rw [← h]; linarith
  have ratio : ∀ l : ℝ, 0 < l → l < 1 → lnMixture a p l =
      (a.map fun x => Real.log (blend l x.1 x.2 / blend l p.1 p.2)).sum := by
    intro l h0 h3
    have hv := blend_pos h0 h3 hp.1 hp.2.1 hp.2.2
    have : (a.map fun x => Real.log (blend l x.1 x.2 / blend l p.1 p.2)) =
        a.map fun x => 1 * Real.log (blend l x.1 x.2) + (-1) * Real.log (blend l p.1 p.2) := by
      refine List.map_congr_left fun x hx => ?_
      rw [Real.log_div (blend_pos h0 h3 (ha x hx).1 (ha x hx).2.1 (ha x hx).2.2).ne' hv.ne']
      ring
    rw [this, sum_combine, List.map_const', List.sum_replicate, nsmul_eq_mul]
    unfold lnMixture
    ring
  set v1 := blend l1 p.1 p.2 with hv1d
  set v2 := blend l2 p.1 p.2 with hv2d
  set s := t * v2 / ((1 - t) * v1 + t * v2) with hs
  have hs0 : 0 ≤ s := div_nonneg (mul_nonneg ht.1 hv2.le) hv.le
  have hs1 : 0 ≤ 1 - s := by
    rw [sub_nonneg, hs, div_le_one hv]
    have := mul_nonneg ht' hv1.le
    linarith
  have hl0 : 0 < (1 - t) * l1 + t * l2 := by
    rcases ht.1.lt_or_eq with h | h
    · have := mul_pos h h2.1
      have := mul_nonneg ht' h1.1.le
      linarith
    · rw [← h]; linarith [h1.1]
  have hl1 : (1 - t) * l1 + t * l2 < 1 := by
    rcases ht.1.lt_or_eq with h | h
    · have := mul_lt_mul_of_pos_left h2.2 h
      have := mul_le_mul_of_nonneg_left h1.2.le ht'
      linarith
    · rw [← h]; linarith [h1.2]
  have key : (1 - s) * lnMixture a p l1 + s * lnMixture a p l2 ≤ lnMixture a p ((1 - t) * l1 + t * l2) := by
    rw [ratio l1 h1.1 h1.2, ratio l2 h2.1 h2.2, ratio _ hl0 hl1, ← sum_combine]
    refine sum_le fun x hx => ?_
    have hx1 := blend_pos h1.1 h1.2 (ha x hx).1 (ha x hx).2.1 (ha x hx).2.2
    have hx2 := blend_pos h2.1 h2.2 (ha x hx).1 (ha x hx).2.1 (ha x hx).2.2
    refine (log_concave (div_pos hx1 hv1) (div_pos hx2 hv2) hs1 hs0 (by ring)).trans (le_of_eq ?_)
    congr 1
    rw [blend_combine, blend_combine, ← hv1d, ← hv2d, hs]
    have := hv.ne'
    have := hv1.ne'
    have := hv2.ne'
    field_simp
    ring
  refine le_trans ?_ key
  rcases le_total (lnMixture a p l1) (lnMixture a p l2) with h | h
  · rw [min_eq_left h]
    have := mul_le_mul_of_nonneg_left h hs0
    linarith
  · rw [min_eq_right h]
    have := mul_le_mul_of_nonneg_left h hs1
    linarith

/-- With a rate the log-likelihood is concave. -/
theorem lnMixtureRate_concave {a : List (ℝ × ℝ)} {p : ℝ × ℝ} {R : ℝ}
    (ha : ∀ x ∈ a, 0 ≤ x.1 ∧ 0 ≤ x.2 ∧ 0 < x.1 + x.2) {l1 l2 t : ℝ}
    (h1 : 0 < l1 ∧ l1 < 1) (h2 : 0 < l2 ∧ l2 < 1) (ht : 0 ≤ t ∧ t ≤ 1) :
    (1 - t) * lnMixtureRate a p R l1 + t * lnMixtureRate a p R l2 ≤ lnMixtureRate a p R ((1 - t) * l1 + t * l2) := by
  have hs : (1 - t) * (a.map fun x => Real.log (blend l1 x.1 x.2)).sum +
      t * (a.map fun x => Real.log (blend l2 x.1 x.2)).sum ≤
      (a.map fun x => Real.log (blend ((1 - t) * l1 + t * l2) x.1 x.2)).sum := by
    rw [← sum_combine]
    refine sum_le fun x hx => ?_
    rw [blend_combine]
    exact log_concave (blend_pos h1.1 h1.2 (ha x hx).1 (ha x hx).2.1 (ha x hx).2.2)
      (blend_pos h2.1 h2.2 (ha x hx).1 (ha x hx).2.1 (ha x hx).2.2) (by linarith [ht.2]) ht.1 (by ring)
  unfold lnMixtureRate
  rw [blend_combine]
  linarith

end Mixtures

theorem Mixtures.exists_fin_of_isFinite {x : Fl} (h : isFinite x) : ∃ r, x = fin r := by
  cases x with
  | fin r => exact ⟨r, rfl⟩
  | _ => exact absurd h (by simp [isFinite])

open Mixtures

/-! ## The property -/

variable {lik : Likelihood} {vt : ResamplingVT} {θ : ℝ → Dict Fl} {events : List (List α)} {injections : List α}
  {f g q q' : α → ℝ} {N : ℝ}

/-- The estimates of the evidences of the events under the two components. -/
def Spec.evidences (lik : Likelihood) (events : List (List α)) (f g q : α → ℝ) : List (ℝ × ℝ) :=
  events.map fun e => (estimate f q lik.samplesPerPosterior e, estimate g q lik.samplesPerPosterior e)

/-- The estimates of the efficiency under the two components. -/
def Spec.efficiencies (injections : List α) (f g q' : α → ℝ) (N : ℝ) : ℝ × ℝ :=
  (estimate f q' N injections, estimate g q' N injections)

theorem Spec.MixtureAnalysis.efficiency (h : MixtureAnalysis lik vt θ events injections f g q q' N) {l : ℝ}
    {φ : Dict Fl} (hφ : vt.model.prob vt.data φ = .ok ((injections.map fun s => blend l (f s) (g s)).map fin)) :
    ∃ var : ℝ, vt.detectionEfficiency φ =
      .ok (fin (blend l (estimate f q' N injections) (estimate g q' N injections)), fin var) := by
  have hc := C40_value hφ h.sampling (by simp) (by simpa using h.sampling_pos) h.generated h.generated_pos.ne'
  refine ⟨((weights (injections.map fun s => blend l (f s) (g s)) (injections.map q')).map (· ^ 2)).sum / N ^ 2 -
    ((weights (injections.map fun s => blend l (f s) (g s)) (injections.map q')).sum / N) ^ 2 / N, ?_⟩
  have he : blend l (estimate f q' N injections) (estimate g q' N injections) =
      (weights (injections.map fun s => blend l (f s) (g s)) (injections.map q')).sum / N := by
    rw [← estimate_blend]
    unfold estimate weights
    rw [zipWith_map_same]
  rw [hc, he]

theorem Mixtures.importance_eq (P q : α → ℝ) (events : List (List α)) :
    importance (events.map fun e => e.map P) (some (events.map fun e => e.map q)) =
      events.map fun e => e.map fun s => P s / q s := by
  show List.zipWith _ _ _ = _
  rw [zipWith_map_same]
  refine List.map_congr_left fun e _ => ?_
  rw [zipWith_map_same]

theorem Mixtures.mean_eq (f q : α → ℝ) (e : List α) : mean (e.map fun s => f s / q s) = estimate f q e.length e := by
  unfold mean estimate
  rw [List.length_map]

theorem Spec.MixtureAnalysis.good (h : MixtureAnalysis lik vt θ events injections f g q q' N) {l : ℝ} (h0 : 0 < l)
    (h1 : l < 1) : GoodWeights lik.samplesPerPosterior
      (importance (events.map fun e => e.map fun s => blend l (f s) (g s)) (some (events.map fun e => e.map q))) := by
  rw [importance_eq]
  intro w hw
  obtain ⟨e, he, rfl⟩ := List.mem_map.1 hw
  refine ⟨by rw [List.length_map, h.samples e he], ?_⟩
  have := h.possible e he
  rw [mean_eq (fun s => blend l (f s) (g s)), h.samples e he, estimate_blend]
  exact blend_pos h0 h1 this.1 this.2.1 this.2.2

theorem Spec.MixtureAnalysis.evidence (h : MixtureAnalysis lik vt θ events injections f g q q' N) (l : ℝ) :
    ((importance (events.map fun e => e.map fun s => blend l (f s) (g s)) (some (events.map fun e => e.map q))).map
      lnBayesFactor).sum = ((evidences lik events f g q).map fun x => Real.log (blend l x.1 x.2)).sum := by
  rw [importance_eq, evidences, List.map_map, List.map_map]
  congr 1
  refine List.map_congr_left fun e he => ?_
  simp only [Function.comp_def, lnBayesFactor]
  rw [mean_eq (fun s => blend l (f s) (g s)), h.samples e he, estimate_blend]

theorem Spec.MixtureAnalysis.call (h : MixtureAnalysis lik vt θ events injections f g q q' N) {l : ℝ} {φ : Dict Fl}
    (hφ : vt.model.prob vt.data φ = .ok ((injections.map fun s => blend l (f s) (g s)).map fin)) :
    ∃ r var, lik.selection.call φ = .ok r ∧
      reports r (blend l (estimate f q' N injections) (estimate g q' N injections)) var := by
  obtain ⟨var, hvar⟩ := h.efficiency hφ
  refine ⟨_, var, ?_, .inl ⟨decide (vt.backend ≠ .jax), rfl⟩⟩
  have := (C41_partial vt φ _ _ h.plain.1 hvar).1 h.plain.2
  rw [h.selection]
  simp only [ResamplingVT.asSelection, this, ok_bind]
  rfl

/-- **C152, the value.** The log-likelihood of a mixture is computed from the mixtures of the estimates under the two
components. -/
theorem C152_value (h : MixtureAnalysis lik vt θ events injections f g q q' N) (hcls : lik.cls = .hyper) {l : ℝ}
    (h0 : 0 < l) (h1 : l < 1) : ∃ v, lik.lnLikelihoodAndVariance (θ l) =
      .ok (fin (lnMixture (evidences lik events f g q) (efficiencies injections f g q' N) l), v) := by
  obtain ⟨φ, hc, hp, hm⟩ := h.converted l h0 h1
  obtain ⟨r, var, hs, hr⟩ := h.call hm
  have hd := h.detectable
  have := C44_estimator hcls hc (by rw [List.length_map, h.count]) hp (prior := some (events.map fun e : List α => e.map q))
    h.prior (by
      rintro Q ⟨⟩
      refine ⟨by simp [Function.comp_def], ?_⟩
      simpa using h.prior_pos) (h.good h0 h1) hs hr
    (blend_pos h0 h1 hd.1 hd.2.1 hd.2.2)
  have e : lnLikelihood (importance (events.map fun e => e.map fun s => blend l (f s) (g s))
      (some (events.map fun e => e.map q))) (blend l (estimate f q' N injections) (estimate g q' N injections)) =
      lnMixture (evidences lik events f g q) (efficiencies injections f g q' N) l := by
    unfold lnLikelihood lnMixture
    rw [h.evidence l, importance_eq]
    simp only [evidences, efficiencies, List.length_map]
  rw [e] at this
  exact ⟨_, this⟩

/-- **C152, the value with a rate.** -/
theorem C152_value_rate (h : MixtureAnalysis lik vt θ events injections f g q q' N) (hcls : lik.cls = .rate) {R : ℝ}
    (hR : 0 < R) (hrate : ∀ l φ, lik.conversion (θ l) = .ok φ → φ.get? "rate" = some (fin R)) {l : ℝ}
    (h0 : 0 < l) (h1 : l < 1) : ∃ v, lik.lnLikelihoodAndVariance (θ l) =
      .ok (fin (lnMixtureRate (evidences lik events f g q) (efficiencies injections f g q' N) R l), v) := by
  obtain ⟨φ, hc, hp, hm⟩ := h.converted l h0 h1
  obtain ⟨r, var, hs, hr⟩ := h.call hm
  have hd := h.detectable
  have := C49_value hcls hc (by rw [List.length_map, h.count]) hp (prior := some (events.map fun e : List α => e.map q))
    h.prior (by
      rintro Q ⟨⟩
      refine ⟨by simp [Function.comp_def], ?_⟩
      simpa using h.prior_pos) (h.good h0 h1) hs hr
    (blend_pos h0 h1 hd.1 hd.2.1 hd.2.2) hR (hrate l φ hc)
  have e : lnRateLikelihood (importance (events.map fun e => e.map fun s => blend l (f s) (g s))
      (some (events.map fun e => e.map q))) (blend l (estimate f q' N injections) (estimate g q' N injections)) R =
      lnMixtureRate (evidences lik events f g q) (efficiencies injections f g q' N) R l := by
    unfold lnRateLikelihood lnMixtureRate
    rw [h.evidence l, importance_eq]
    simp only [evidences, efficiencies, List.length_map]
  rw [e] at this
  exact ⟨_, this⟩

theorem Spec.MixtureAnalysis.possible' (h : MixtureAnalysis lik vt θ events injections f g q q' N) :
    ∀ x ∈ evidences lik events f g q, 0 ≤ x.1 ∧ 0 ≤ x.2 ∧ 0 < x.1 + x.2 := by
  intro x hx
  obtain ⟨e, he, rfl⟩ := List.mem_map.1 hx
  exact h.possible e he

/-- **C152.** The log-likelihood has no separate maxima as a function of a mixing fraction: between two fractions it is
never below the smaller of the two values. -/
theorem C152_unimodal (h : MixtureAnalysis lik vt θ events injections f g q q' N) (hcls : lik.cls = .hyper)
    {l1 l l2 : ℝ} (h0 : 0 < l1) (h1 : l1 ≤ l) (h2 : l ≤ l2) (h3 : l2 < 1) :
    ∃ L1 L L2 : ℝ, (∃ v, lik.lnLikelihoodAndVariance (θ l1) = .ok (fin L1, v)) ∧
      (∃ v, lik.lnLikelihoodAndVariance (θ l) = .ok (fin L, v)) ∧
      (∃ v, lik.lnLikelihoodAndVariance (θ l2) = .ok (fin L2, v)) ∧ min L1 L2 ≤ L := by
  refine ⟨_, _, _, C152_value h hcls h0 (by linarith), C152_value h hcls (by linarith) (by linarith),
    C152_value h hcls (by linarith) h3, ?_⟩
  obtain ⟨t, ht, e⟩ : ∃ t, (0 ≤ t ∧ t ≤ 1) ∧ l = (1 - t) * l1 + t * l2 := by
    rcases (h1.trans h2).lt_or_eq with hlt | he
    · refine ⟨(l - l1) / (l2 - l1), ⟨div_nonneg (by linarith) (by linarith), ?_⟩, ?_⟩
      · rw [div_le_one (by linarith)]
        linarith
      · have : l2 - l1 ≠ 0 := by linarith
        field_simp
        ring
    · exact ⟨0, ⟨le_rfl, zero_le_one⟩, by linarith⟩
  rw [e]
  exact lnMixture_between h.possible' h.detectable ⟨h0, by linarith⟩ ⟨by linarith, h3⟩ ht

/-- **C152, with a rate** the log-likelihood is a concave function of a mixing fraction. -/
theorem C152_concave (h : MixtureAnalysis lik vt θ events injections f g q q' N) (hcls : lik.cls = .rate) {R : ℝ}
    (hR : 0 < R) (hrate : ∀ l φ, lik.conversion (θ l) = .ok φ → φ.get? "rate" = some (fin R)) :
    ∃ L : ℝ → ℝ, (∀ l ∈ Set.Ioo (0 : ℝ) 1, ∃ v, lik.lnLikelihoodAndVariance (θ l) = .ok (fin (L l), v)) ∧
      ConcaveOn ℝ (Set.Ioo 0 1) L := by
  refine ⟨_, fun l hl => C152_value_rate h hcls hR hrate hl.1 hl.2, convex_Ioo 0 1, ?_⟩
  intro x hx y hy a b ha hb hab
  have : a = 1 - b := by linarith
  subst this
  simp only [smul_eq_mul]
  exact lnMixtureRate_concave h.possible' hx hy ⟨hb, by linarith⟩

/-- **C152, spin tilts.** `xi_spin` is a mixing fraction of `iid_spin_orientation_gaussian_isotropic`: for all tilts and
all other parameters the values are mixtures of `1/4` and of a number that does not depend on `xi_spin`. -/
theorem C152_tilts (b : Backend) {dataset : Dict Fl} {z1 z2 : Fl} (h1 : dataset.get? "cos_tilt_1" = some z1)
    (h2 : dataset.get? "cos_tilt_2" = some z2) (sigma mu : Fl) :
    ∃ y : ℝ, 0 ≤ y ∧ iidSpinOrientation b dataset 1 sigma mu = .ok (fin y) ∧
      ∀ l : ℝ, iidSpinOrientation b dataset (fin l) sigma mu = .ok (fin (blend l (1 / 4) y)) := by
  obtain ⟨r1, k1, e1, -⟩ := C04_truncnorm_total b z1 mu sigma 1 (-1)
  obtain ⟨r2, k2, e2, -⟩ := C04_truncnorm_total b z2 mu sigma 1 (-1)
  have value : ∀ l : ℝ, iidSpinOrientation b dataset (fin l) sigma mu = .ok (fin (blend l (1 / 4) (r1 * r2))) := by
    intro l
    unfold iidSpinOrientation independentSpinOrientation
    simp only [Dict.get, h1, h2, e1, e2, ok_bind, pure_eq_ok]
    rw [show (4 : Fl) = fin 4 from ofNat_eq 4, show (1 : Fl) = fin 1 from one_eq, fin_sub, fin_div (by norm_num),
      fin_mul, fin_mul, fin_add]
    unfold blend
    congr 2
    ring
  refine ⟨r1 * r2, mul_nonneg k1 k2, ?_, value⟩
  rw [one_eq, value 1]
  congr 2
  unfold blend
  ring

/-- **C152, masses.** `lam` is a mixing fraction of `two_component_single`: the values are mixtures of the power law and
of the Gaussian. -/
theorem C152_masses {b : Backend} {py : Bool} {mass alpha mmin mmax mpp sigpp gmax : Fl} {x y : ℝ}
    (h0 : twoComponentSingle b py mass alpha mmin mmax 0 mpp sigpp gmax = .ok (fin x))
    (h1 : twoComponentSingle b py mass alpha mmin mmax 1 mpp sigpp gmax = .ok (fin y)) (l : ℝ) :
    twoComponentSingle b py mass alpha mmin mmax (fin l) mpp sigpp gmax = .ok (fin (blend l x y)) := by
  unfold twoComponentSingle at h0 h1 ⊢
  obtain ⟨p, e1, h0⟩ := bind_eq_ok.1 h0
  obtain ⟨n, e2, h0⟩ := bind_eq_ok.1 h0
  simp only [e1, e2, ok_bind, pure_eq_ok] at h0 h1 ⊢
  injection h0 with h0
  injection h1 with h1
  have hf : isFinite ((1 - 0) * p + 0 * n) := by rw [h0]; trivial
  rw [isFinite_add, isFinite_mul, isFinite_mul] at hf
  obtain ⟨⟨-, f1⟩, -, f2⟩ := hf
  obtain ⟨r1, rfl⟩ := exists_fin_of_isFinite f1
  obtain ⟨r2, rfl⟩ := exists_fin_of_isFinite f2
  rw [one_eq, zero_eq, fin_sub, fin_mul, fin_mul, fin_add] at h0
  rw [one_eq, fin_sub, fin_mul, fin_mul, fin_add] at h1
  injection h0 with h0
  injection h1 with h1
  rw [one_eq, fin_sub, fin_mul, fin_mul, fin_add]
  unfold blend
  congr 2
  rw [← h0, ← h1]
  ring

/-! ## Non-vacuity -/

namespace Mixtures

/-- Two events with two samples; the second is not possible under the first component. -/
def toyEvents : List (List (ℝ × ℝ)) := [[(1, 3), (2, 1)], [(0, 1), (0, 2)]]

def toyInjections : List (ℝ × ℝ) := [(1, 2), (1, 1)]

def toyVt : ResamplingVT where
  backend := .numpy
  model := ⟨[.other], fun _ φ => do
    let l ← φ.get "xi"
    return toyInjections.map fun s => (1 - l) * fin s.1 + l * fin s.2⟩
  data := [("prior", .arr [fin 1, fin 1])]
  nEvents := fin 2
  totalInjections := (true, fin 10)
  analysisTime := fin 1
  redshiftModel := none
  marginalizeUncertainty := false
  enforceConvergence := false
  surveyedHypervolumeAttr := some (fin 1)

def toyLik (cls : LikelihoodClass) : Likelihood :=
  { toyLikelihood cls (.bare true (fin 1)) pinf with
    selection := toyVt.asSelection
    hyperPrior := ⟨[.other], fun _ φ => do
      let l ← φ.get "xi"
      return toyEvents.map fun e => e.map fun s => (1 - l) * fin s.1 + l * fin s.2⟩
    samplingPrior := some [[fin 1, fin 1], [fin 1, fin 1]] }

theorem toy_mixture (cls : LikelihoodClass) : MixtureAnalysis (toyLik cls) toyVt
    (fun l => [("xi", fin l), ("rate", fin 5)]) toyEvents toyInjections Prod.fst Prod.snd (fun _ => 1) (fun _ => 1)
    10 where
  selection := rfl
  plain := ⟨rfl, rfl⟩
  count := rfl
  samples := by
    intro e he
    simp only [toyEvents, List.mem_cons, List.not_mem_nil, or_false] at he
    rcases he with rfl | rfl <;> rfl
  some_samples := Nat.zero_lt_two
  converted := by
    intro l _ _
    refine ⟨_, rfl, ?_, ?_⟩
    · simp [toyLik, Dict.get, Dict.get?_cons, ok_bind, pure_eq_ok, toyEvents, matFin, one_eq, fin_sub, fin_mul, fin_add,
        blend]
    · simp [toyVt, Dict.get, Dict.get?_cons, ok_bind, pure_eq_ok, toyInjections, one_eq, fin_sub, fin_mul, fin_add,
        blend]
  prior := rfl
  prior_pos := fun _ _ _ _ => one_ne_zero
  sampling := rfl
  sampling_pos := fun _ _ => one_ne_zero
  generated := rfl
  generated_pos := by norm_num
  possible := by
    intro e he
    have hk : (toyLik cls).samplesPerPosterior = 2 := rfl
    rw [hk]
    simp only [toyEvents, List.mem_cons, List.not_mem_nil, or_false] at he
    rcases he with rfl | rfl <;> simp [estimate] <;> norm_num
  detectable := by simp [estimate, toyInjections]; norm_num

end Mixtures

/-- Non-vacuity. -/
example : ∃ L1 L L2 : ℝ,
    (∃ v, (toyLik .hyper).lnLikelihoodAndVariance [("xi", fin (1 / 10)), ("rate", fin 5)] = .ok (fin L1, v)) ∧
    (∃ v, (toyLik .hyper).lnLikelihoodAndVariance [("xi", fin (1 / 2)), ("rate", fin 5)] = .ok (fin L, v)) ∧
    (∃ v, (toyLik .hyper).lnLikelihoodAndVariance [("xi", fin (9 / 10)), ("rate", fin 5)] = .ok (fin L2, v)) ∧
    min L1 L2 ≤ L :=
  C152_unimodal (toy_mixture .hyper) rfl (by norm_num) (by norm_num) (by norm_num) (by norm_num)

/-- Non-vacuity of the masses: a mass at which both components are finite. -/
example (l : ℝ) : ∃ x y : ℝ, twoComponentSingle .numpy true (fin 2) (fin 0) (fin 1) (fin 3) (fin l) (fin 2) (fin 1)
    (fin 4) = .ok (fin (blend l x y)) := by
  have hx := C01_powerlaw_value .numpy true false true true true (x := 2) (a := -0) (hi := 3) (lo := 1)
    one_pos (by norm_num) two_pos (.inr (.inr (by norm_num)))
  have hy := C03_truncnorm_value .numpy false true true true true (mu := 2) (sigma := 1) (hi := 4) (lo := 1) 2
    one_pos (by norm_num)
  generalize Spec.normalised _ _ _ _ = x at hx
  generalize Spec.normalised _ _ _ _ = y at hy
  have value : ∃ x y : ℝ, ∀ l : ℝ, twoComponentSingle .numpy true (fin 2) (fin 0) (fin 1) (fin 3) (fin l) (fin 2)
      (fin 1) (fin 4) = .ok (fin ((1 - l) * x + l * y)) := by
    refine ⟨x, y, fun l => ?_⟩
    unfold twoComponentSingle
    rw [fin_neg]
    erw [hx]
    rw [ok_bind]
    erw [hy]
    rw [ok_bind, one_eq, fin_sub, fin_mul, fin_mul, fin_add]
    rfl
  obtain ⟨x, y, value⟩ := value
  exact ⟨_, _, C152_masses (by rw [zero_eq, value 0]) (by rw [one_eq, value 1]) l⟩

/-- Non-vacuity with a rate. -/
example : ∃ L : ℝ → ℝ, (∀ l ∈ Set.Ioo (0 : ℝ) 1, ∃ v,
      (toyLik .rate).lnLikelihoodAndVariance [("xi", fin l), ("rate", fin 5)] = .ok (fin (L l), v)) ∧
    ConcaveOn ℝ (Set.Ioo 0 1) L :=
  C152_concave (toy_mixture .rate) rfl (R := 5) (by norm_num) (by
    intro l φ h
    cases h
    simp [Dict.get?_cons])

end GW
