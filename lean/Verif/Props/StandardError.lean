import Verif.Props.Consistency
import Verif.Lemmas.CentralLimit

/-!
# C128: the reported variance is the squared standard error of the log-likelihood
-/

noncomputable section

open MeasureTheory ProbabilityTheory Filter Topology Classical

namespace GW

open Fl Spec

variable {S Ω : Type} [MeasurableSpace S] [MeasurableSpace Ω]
variable {P : Measure Ω} {ν : Measure S} {p q : S → ℝ} {D : Set S} {X : ℕ → Ω → S}
variable {n : ℕ} {prior like : Fin n → S → ℝ} {Z : Fin n → ℝ} {Y : Fin n → ℕ → Ω → S}

/-! ## Specification -/

/-- All random draws of an analysis: the posterior samples `Y i k` of event `i`, and the injections
`X k`. -/
def Spec.allDraws (X : ℕ → Ω → S) (Y : Fin n → ℕ → Ω → S) (t : Option (Fin n) × ℕ) : Ω → S :=
  match t.1 with
  | some i => Y i t.2
  | none => X t.2

/-- The samples of event `i` have different importance weights: the second moment of the weight
exceeds the square of its mean. -/
def Spec.EventWeightsVary (ν : Measure S) (p prior like : S → ℝ) (Z : ℝ) : Prop :=
  ((∫ x, like x * p x ∂ν) / Z) ^ 2 < (∫ x, like x * p x ^ 2 / prior x ∂ν) / Z

/-- The injections have different importance weights. -/
def Spec.InjectionWeightsVary (ν : Measure S) (p q : S → ℝ) (D : Set S) : Prop :=
  (∫ x in D, p x ∂ν) ^ 2 < ∫ x in D, p x ^ 2 / q x ∂ν

/-- A selection function with the convergence check (for a finite number of events) or without it,
not marginalised over its uncertainty. -/
def Spec.PlainMode (vt : ℕ → Ω → ResamplingVT) : Prop :=
  (∀ N ω, (vt N ω).marginalizeUncertainty = false ∧ (vt N ω).enforceConvergence = false) ∨
  ∃ e : ℝ, ∀ N ω, (vt N ω).marginalizeUncertainty = false ∧ (vt N ω).enforceConvergence = true ∧
    (vt N ω).nEvents = fin e

/-! ## Moments of the weights -/

/-- The weight of a draw: of a posterior sample of event `i`, or of an injection. -/
def drawWeight (p q : S → ℝ) (D : Set S) (prior : Fin n → S → ℝ) (c : Option (Fin n)) : S → ℝ :=
  match c with
  | some i => fun x => p x / prior i x
  | none => injectionWeight p q D

/-- Mean of the weights. -/
def drawMean (ν : Measure S) (p : S → ℝ) (D : Set S) (like : Fin n → S → ℝ) (Z : Fin n → ℝ)
    (c : Option (Fin n)) : ℝ :=
  match c with
  | some i => (∫ x, like i x * p x ∂ν) / Z i
  | none => ∫ x in D, p x ∂ν

/-- Second moment of the weights. -/
def drawSecond (ν : Measure S) (p q : S → ℝ) (D : Set S) (prior like : Fin n → S → ℝ)
    (Z : Fin n → ℝ) (c : Option (Fin n)) : ℝ :=
  match c with
  | some i => (∫ x, like i x * p x ^ 2 / prior i x ∂ν) / Z i
  | none => ∫ x in D, p x ^ 2 / q x ∂ν

/-- The factor of the logarithm of a mean in the log-likelihood. -/
def drawFactor (n : ℕ) (c : Option (Fin n)) : ℝ :=
  match c with
  | some _ => 1
  | none => -n

theorem _root_.GW.Spec.EventSamples.moments [IsProbabilityMeasure P] {p prior like : S → ℝ} {Z : ℝ}
    {Y : ℕ → Ω → S} (h : EventSamples P ν p prior like Z Y) :
    MemLp (fun ω => p (Y 0 ω) / prior (Y 0 ω)) 2 P ∧
    ∫ ω, p (Y 0 ω) / prior (Y 0 ω) ∂P = (∫ x, like x * p x ∂ν) / Z ∧
    ∫ ω, (p (Y 0 ω) / prior (Y 0 ω)) ^ 2 ∂P = (∫ x, like x * p x ^ 2 / prior x ∂ν) / Z := by
  have hd : Measurable fun x => ENNReal.ofReal (like x * prior x / Z) :=
    ((h.measurable_like.mul h.measurable_prior).div_const Z).ennreal_ofReal
  have hf : ∀ᵐ x ∂ν, ENNReal.ofReal (like x * prior x / Z) < ⊤ :=
    ae_of_all _ fun _ => ENNReal.ofReal_lt_top
  have hnn : ∀ x, (ENNReal.ofReal (like x * prior x / Z)).toReal = like x * prior x / Z := fun x =>
    ENNReal.toReal_ofReal (div_nonneg (mul_nonneg (h.like_nonneg x) (h.prior_pos x).le)
      h.evidence_pos.le)
  have hZ := h.evidence_pos.ne'
  have m1 : Measurable fun x => p x / prior x := h.measurable_p.div h.measurable_prior
  have m2 : Measurable fun x => (p x / prior x) ^ 2 := m1.pow_const 2
  have f1 : ∀ x, (ENNReal.ofReal (like x * prior x / Z)).toReal • (p x / prior x) =
      like x * p x / Z := by
    intro x
    have := (h.prior_pos x).ne'
    rw [hnn, smul_eq_mul]
    field_simp
  have f2 : ∀ x, (ENNReal.ofReal (like x * prior x / Z)).toReal • (p x / prior x) ^ 2 =
      like x * p x ^ 2 / prior x / Z := by
    intro x
    have := (h.prior_pos x).ne'
    rw [hnn, smul_eq_mul]
    field_simp
  have hval : ∀ {f : S → ℝ}, Measurable f → ∫ ω, f (Y 0 ω) ∂P =
      ∫ x, (ENNReal.ofReal (like x * prior x / Z)).toReal • f x ∂ν := by
    intro f hfm
    rw [← integral_map (h.measurable_Y 0).aemeasurable hfm.aestronglyMeasurable, h.law 0,
      integral_withDensity_eq_integral_toReal_smul hd hf]
  refine ⟨?_, ?_, ?_⟩
  · refine (memLp_two_iff_integrable_sq (m1.comp (h.measurable_Y 0)).aestronglyMeasurable).2 ?_
    have : Integrable (fun x => (p x / prior x) ^ 2) (P.map (Y 0)) := by
      rw [h.law 0, integrable_withDensity_iff_integrable_smul' hd hf]
      simp_rw [f2]
      exact h.integrable_sq.div_const Z
    exact this.comp_measurable (h.measurable_Y 0)
  · rw [hval m1]
    simp_rw [f1, integral_div]
  · rw [hval m2]
    simp_rw [f2, integral_div]

/-- Measurability, laws and moments of the weights of all draws. -/
theorem draws_moments [IsProbabilityMeasure P] (h : Campaign P ν p q D X)
    (h2 : IntegrableOn (fun x => p x ^ 2 / q x) D ν)
    (hY : ∀ i, EventSamples P ν p (prior i) (like i) (Z i) (Y i)) (c : Option (Fin n)) :
    Measurable (drawWeight p q D prior c) ∧ (∀ k, Measurable (allDraws X Y (c, k))) ∧
    (∀ k, IdentDistrib (fun ω => drawWeight p q D prior c (allDraws X Y (c, k) ω))
      (fun ω => drawWeight p q D prior c (allDraws X Y (c, 0) ω)) P P) ∧
    MemLp (fun ω => drawWeight p q D prior c (allDraws X Y (c, 0) ω)) 2 P ∧
    ∫ ω, drawWeight p q D prior c (allDraws X Y (c, 0) ω) ∂P = drawMean ν p D like Z c ∧
    ∫ ω, drawWeight p q D prior c (allDraws X Y (c, 0) ω) ^ 2 ∂P =
      drawSecond ν p q D prior like Z c := by
  cases c with
  | some i =>
    have m1 : Measurable fun x => p x / prior i x :=
      (hY i).measurable_p.div (hY i).measurable_prior
    obtain ⟨a, b, d⟩ := (hY i).moments
    refine ⟨m1, (hY i).measurable_Y, fun k => ?_, a, b, d⟩
    have : IdentDistrib (Y i k) (Y i 0) P P :=
      ⟨((hY i).measurable_Y k).aemeasurable, ((hY i).measurable_Y 0).aemeasurable, by
        rw [(hY i).law k, (hY i).law 0]⟩
    exact this.comp m1
  | none =>
    refine ⟨h.measurable_weight, h.measurable_X, fun k => h.identDistrib h.measurable_weight k,
      h.memLp_weight h2 0, h.integral_weight 0, ?_⟩
    have hm2 : Measurable fun x => injectionWeight p q D x ^ 2 := h.measurable_weight.pow_const 2
    show ∫ ω, injectionWeight p q D (X 0 ω) ^ 2 ∂P = _
    rw [← integral_map (h.measurable_X 0).aemeasurable hm2.aestronglyMeasurable, h.law 0,
      integral_withDensity_eq_integral_toReal_smul h.measurable_q.ennreal_ofReal
        (ae_of_all _ fun _ => ENNReal.ofReal_lt_top)]
    simp_rw [h.weight_sq_mul]
    rw [integral_indicator h.measurable_D]
    rfl

/-! ## The estimate and its variance as functions of the averages -/

/-- The averages of the weights over `K` posterior samples and `N` injections. -/
def drawAvg (p q : S → ℝ) (D : Set S) (prior : Fin n → S → ℝ) (X : ℕ → Ω → S)
    (Y : Fin n → ℕ → Ω → S) (c : Option (Fin n)) (m : ℕ) (ω : Ω) : ℝ :=
  avg (fun k ω => drawWeight p q D prior c (allDraws X Y (c, k) ω)) m ω

/-- The averages of their squares. -/
def drawAvgSq (p q : S → ℝ) (D : Set S) (prior : Fin n → S → ℝ) (X : ℕ → Ω → S)
    (Y : Fin n → ℕ → Ω → S) (c : Option (Fin n)) (m : ℕ) (ω : Ω) : ℝ :=
  avg (fun k ω => drawWeight p q D prior c (allDraws X Y (c, k) ω) ^ 2) m ω

/-- The numbers of draws. -/
def drawCount (KN : ℕ × ℕ) (c : Option (Fin n)) : ℕ :=
  match c with
  | some _ => KN.1
  | none => KN.2

/-- The log-likelihood in terms of the averages. -/
def errorOf (ν : Measure S) (p q : S → ℝ) (D : Set S) (prior like : Fin n → S → ℝ) (Z : Fin n → ℝ)
    (X : ℕ → Ω → S) (Y : Fin n → ℕ → Ω → S) (KN : ℕ × ℕ) (ω : Ω) : ℝ :=
  ∑ c, drawFactor n c *
    ((drawAvg p q D prior X Y c (drawCount KN c) ω / drawMean ν p D like Z c - 1) *
      logSlope (drawAvg p q D prior X Y c (drawCount KN c) ω / drawMean ν p D like Z c))

/-- The variance in terms of the averages. -/
def varianceOf (p q : S → ℝ) (D : Set S) (prior : Fin n → S → ℝ)
    (X : ℕ → Ω → S) (Y : Fin n → ℕ → Ω → S) (KN : ℕ × ℕ) (ω : Ω) : ℝ :=
  ∑ c, drawFactor n c ^ 2 *
    ((drawAvgSq p q D prior X Y c (drawCount KN c) ω -
        drawAvg p q D prior X Y c (drawCount KN c) ω ^ 2) /
      (drawCount KN c * drawAvg p q D prior X Y c (drawCount KN c) ω ^ 2))

/-- The draws for which the likelihood is evaluated to these numbers: positive averages, and a
selection function that is converged for `e` events. -/
def GoodDraws (e : ℝ) (p q : S → ℝ) (D : Set S) (prior : Fin n → S → ℝ)
    (X : ℕ → Ω → S) (Y : Fin n → ℕ → Ω → S) (KN : ℕ × ℕ) (ω : Ω) : Prop :=
  (∀ c, 0 < drawAvg p q D prior X Y c (drawCount KN c) ω) ∧
    4 * e * ((drawAvgSq p q D prior X Y none KN.2 ω - drawAvg p q D prior X Y none KN.2 ω ^ 2) /
      KN.2) < drawAvg p q D prior X Y none KN.2 ω ^ 2

omit [MeasurableSpace S] [MeasurableSpace Ω] in
theorem mean_event (i : Fin n) (K : ℕ) (ω : Ω) :
    mean ((firstN (Y i) K ω).map fun x => p x / prior i x) =
      drawAvg p q D prior X Y (some i) K ω ∧
    mean (((firstN (Y i) K ω).map fun x => p x / prior i x).map (· ^ 2)) =
      drawAvgSq p q D prior X Y (some i) K ω := by
  constructor <;>
  · simp only [mean, firstN, List.map_map, Function.comp_def, sum_list_range, List.length_map,
      List.length_range]
    rfl

/-- For good draws the likelihood returns these numbers. -/
theorem evaluates [IsProbabilityMeasure P] (h : Campaign P ν p q D X)
    (hpos : 0 < ∫ x in D, p x ∂ν) {θ φ : Dict Fl} {vt : ℕ → Ω → ResamplingVT}
    (hvt : ∀ N ≥ 1, ∀ ω, BuiltFrom (vt N ω) φ p q D (firstN X N ω)) {e : ℝ}
    (hmode : ∀ N ω, (vt N ω).marginalizeUncertainty = false ∧
      ((vt N ω).enforceConvergence = true → (vt N ω).nEvents = fin e))
    (hY : ∀ i, EventSamples P ν p (prior i) (like i) (Z i) (Y i))
    (hev : ∀ i, 0 < ∫ x, like i x * p x ∂ν) {L : Likelihood} {KN : ℕ × ℕ} {ω : Ω}
    (hL : LikelihoodOf L φ p prior Y KN.1 ω) (hconv : L.conversion θ = .ok φ)
    (hsel : L.selection = (vt KN.2 ω).asSelection)
    (hgood : GoodDraws e p q D prior X Y KN ω) :
    L.lnLikelihoodAndVariance θ = .ok
      (fin (exactLnLikelihood ν p like Z D + errorOf ν p q D prior like Z X Y KN ω),
        fin (varianceOf p q D prior X Y KN ω)) := by
  obtain ⟨K, N⟩ := KN
  obtain ⟨g1, g2⟩ := hgood
  have hN : 1 ≤ N := by
    rcases Nat.eq_zero_or_pos N with h0 | h0
    · exfalso
      have := g1 none
      subst h0
      simp [drawAvg, drawCount, avg] at this
    · exact h0
  have hN0 : (N : ℝ) ≠ 0 := by positivity
  have hE : ∀ c, 0 < drawMean ν p D like Z c := by
    rintro (_ | i)
    · exact hpos
    · exact div_pos (hev i) (hY i).evidence_pos
  -- the selection function
  have heff : (vt N ω).detectionEfficiency φ = .ok
      (fin (drawAvg p q D prior X Y none N ω),
        fin ((drawAvgSq p q D prior X Y none N ω - drawAvg p q D prior X Y none N ω ^ 2) / N)) := by
    have hne : firstN X N ω ≠ [] := by
      unfold firstN
      simp
      omega
    rw [built_efficiency (hvt N hN ω) h.pos hne]
    simp only [firstN, List.map_map, Function.comp_def, sum_list_range, List.length_map,
      List.length_range]
    congr 3
    show _ = ((∑ k ∈ Finset.range N, injectionWeight p q D (X k ω) ^ 2) / N -
      ((∑ k ∈ Finset.range N, injectionWeight p q D (X k ω)) / N) ^ 2) / N
    field_simp
  have hcall : ∃ r, (vt N ω).asSelection.call φ = .ok r ∧
      reports r (drawAvg p q D prior X Y none N ω)
        ((drawAvgSq p q D prior X Y none N ω - drawAvg p q D prior X Y none N ω ^ 2) / N) := by
    have hc : (vt N ω).call φ = .ok (fin (drawAvg p q D prior X Y none N ω), some
        (fin ((drawAvgSq p q D prior X Y none N ω - drawAvg p q D prior X Y none N ω ^ 2) / N))) := by
      by_cases henf : (vt N ω).enforceConvergence = true
      · refine (C41_partial (vt N ω) φ _ _ (hmode N ω).1 heff).2.1 henf ?_
        rw [(hmode N ω).2 henf, show (4 : Fl) = fin 4 from rfl, fin_mul, fin_mul, fin_npow]
        simpa using g2
      · exact (C41_partial (vt N ω) φ _ _ (hmode N ω).1 heff).1 (by simpa using henf)
    refine ⟨.pair (decide ((vt N ω).backend ≠ .jax)) (fin (drawAvg p q D prior X Y none N ω))
      (fin ((drawAvgSq p q D prior X Y none N ω - drawAvg p q D prior X Y none N ω ^ 2) / N)), ?_,
      .inl ⟨_, rfl⟩⟩
    unfold ResamplingVT.asSelection
    simp only [hc, ok_bind, pure_eq_ok]
  obtain ⟨r, hr, hrep⟩ := hcall
  -- the events
  set w : Fin n → List ℝ := fun i => (firstN (Y i) K ω).map fun x => p x / prior i x with hw
  have hwl : ∀ i, (w i).length = K := fun i => by simp [hw, firstN]
  have hm1 : ∀ i, mean (w i) = drawAvg p q D prior X Y (some i) K ω := fun i =>
    (mean_event i K ω).1
  have hm2 : ∀ i, mean ((w i).map (· ^ 2)) = drawAvgSq p q D prior X Y (some i) K ω := fun i =>
    (mean_event i K ω).2
  have hrows := importance_rows p prior fun i => firstN (Y i) K ω
  have hgood : GoodWeights L.samplesPerPosterior (importance
      ((List.finRange n).map fun i => (firstN (Y i) K ω).map p)
      (some ((List.finRange n).map fun i => (firstN (Y i) K ω).map (prior i)))) := by
    rw [hrows, hL.samples]
    intro x hx
    obtain ⟨i, -, rfl⟩ := List.mem_map.1 hx
    exact ⟨hwl i, by rw [show mean _ = _ from hm1 i]; exact g1 (some i)⟩
  have hest := C44_estimator (self := L) hL.cls hconv
    (P := (List.finRange n).map fun i => (firstN (Y i) K ω).map p)
    (prior := some ((List.finRange n).map fun i => (firstN (Y i) K ω).map (prior i)))
    (by rw [hL.events]; simp) hL.density hL.sampling (by
      intro Q hQ
      cases hQ
      refine ⟨by simp [List.map_map, Function.comp_def], ?_⟩
      intro qr hq x hx
      obtain ⟨i, -, rfl⟩ := List.mem_map.1 hq
      obtain ⟨y, -, rfl⟩ := List.mem_map.1 hx
      exact ((hY i).prior_pos y).ne') hgood (by rw [hsel]; exact hr) hrep (g1 none)
  rw [hrows] at hest
  have hsum : ∀ f : List ℝ → ℝ, (((List.finRange n).map fun i => w i).map f).sum =
      ∑ i, f (w i) := by
    intro f
    rw [List.map_map, ← List.ofFn_eq_map, List.sum_ofFn]
    rfl
  rw [hest]
  congr 2
  · -- the estimate
    rw [fin_inj]
    unfold lnLikelihood exactLnLikelihood errorOf
    rw [hsum, Fintype.sum_option]
    simp only [List.length_map, List.length_finRange, sub_one_mul_logSlope, drawFactor, one_mul,
      drawCount]
    have hlog : ∀ c, Real.log (drawAvg p q D prior X Y c (drawCount (K, N) c) ω /
        drawMean ν p D like Z c) = Real.log (drawAvg p q D prior X Y c (drawCount (K, N) c) ω) -
        Real.log (drawMean ν p D like Z c) := fun c =>
      Real.log_div (g1 c).ne' (hE c).ne'
    have hl0 := hlog none
    have hli := fun i => hlog (some i)
    simp only [drawCount] at hl0 hli
    rw [hl0, Finset.sum_congr rfl fun i _ => hli i, Finset.sum_sub_distrib]
    unfold lnBayesFactor
    simp only [hm1, drawMean]
    ring
  · -- its variance
    rw [fin_inj]
    unfold lnLikelihoodVariance varianceOf
    rw [hsum, Fintype.sum_option]
    simp only [List.length_map, List.length_finRange, drawFactor, one_pow, one_mul, drawCount]
    unfold relativeVariance
    simp only [hm1, hm2, hwl]
    rw [add_comm, neg_sq, div_div]

/-! ## C128 -/

/-- The draws are eventually good, almost surely, and the reported variance is eventually positive. -/
theorem eventually_good [IsProbabilityMeasure P] (h : Campaign P ν p q D X)
    (h2 : IntegrableOn (fun x => p x ^ 2 / q x) D ν) (hpos : 0 < ∫ x in D, p x ∂ν)
    (hY : ∀ i, EventSamples P ν p (prior i) (like i) (Z i) (Y i))
    (hev : ∀ i, 0 < ∫ x, like i x * p x ∂ν) (hind : iIndepFun (allDraws X Y) P)
    (hn : 1 ≤ n) (hvary : InjectionWeightsVary ν p q D)
    (hvaryE : ∀ i, EventWeightsVary ν p (prior i) (like i) (Z i)) (e : ℝ) :
    ∀ᵐ ω ∂P, ∀ᶠ KN in atTop ×ˢ atTop, GoodDraws e p q D prior X Y KN ω ∧
      0 < varianceOf p q D prior X Y KN ω := by
  have hm := draws_moments h h2 hY
  have hE : ∀ c, 0 < drawMean ν p D like Z c := by
    rintro (_ | i)
    · exact hpos
    · exact div_pos (hev i) (hY i).evidence_pos
  have hindW : ∀ c, Pairwise fun i j =>
      (fun ω => drawWeight p q D prior c (allDraws X Y (c, i) ω)) ⟂ᵢ[P]
      (fun ω => drawWeight p q D prior c (allDraws X Y (c, j) ω)) := by
    intro c i j hij
    have : (c, i) ≠ (c, j) := by simpa using hij
    exact (hind.indepFun this).comp (hm c).1 (hm c).1
  have l1 : ∀ᵐ ω ∂P, ∀ c, Tendsto (fun m => drawAvg p q D prior X Y c m ω) atTop
      (𝓝 (drawMean ν p D like Z c)) := by
    refine ae_all_iff.2 fun c => ?_
    obtain ⟨-, -, a, b, d, -⟩ := hm c
    have := strong_law_ae_real (fun k ω => drawWeight p q D prior c (allDraws X Y (c, k) ω))
      (b.integrable (by norm_num)) (hindW c) a
    rw [d] at this
    exact this
  have l2 : ∀ᵐ ω ∂P, ∀ c, Tendsto (fun m => drawAvgSq p q D prior X Y c m ω) atTop
      (𝓝 (drawSecond ν p q D prior like Z c)) := by
    refine ae_all_iff.2 fun c => ?_
    obtain ⟨-, -, a, b, -, d⟩ := hm c
    have hsq : Measurable fun x : ℝ => x ^ 2 := by fun_prop
    have := strong_law_ae_real (fun k ω => drawWeight p q D prior c (allDraws X Y (c, k) ω) ^ 2)
      b.integrable_sq (fun i j hij => (hindW c hij).comp hsq hsq) (fun k => (a k).comp hsq)
    rw [d] at this
    exact this
  filter_upwards [l1, l2] with ω k1 k2
  have hcount : ∀ c : Option (Fin n), Tendsto (fun KN : ℕ × ℕ => drawCount KN c)
      (atTop ×ˢ atTop) atTop := by
    rintro (_ | i)
    · exact tendsto_snd
    · exact tendsto_fst
  have hp1 : ∀ᶠ KN in atTop ×ˢ atTop, ∀ c,
      0 < drawAvg p q D prior X Y c (drawCount KN c) ω :=
    eventually_all.2 fun c => ((k1 c).comp (hcount c)).eventually (lt_mem_nhds (hE c))
  have hvc : ∀ c, drawMean ν p D like Z c ^ 2 < drawSecond ν p q D prior like Z c := by
    rintro (_ | i)
    · exact hvary
    · exact hvaryE i
  have hp2 : ∀ᶠ KN in atTop ×ˢ atTop, ∀ c : Option (Fin n),
      0 < drawAvgSq p q D prior X Y c (drawCount KN c) ω -
        drawAvg p q D prior X Y c (drawCount KN c) ω ^ 2 :=
    eventually_all.2 fun c => (((k2 c).comp (hcount c)).sub (((k1 c).comp (hcount c)).pow 2)).eventually
      (lt_mem_nhds (by linarith [hvc c]))
  have hcv : ∀ᶠ KN : ℕ × ℕ in atTop ×ˢ atTop,
      4 * e * ((drawAvgSq p q D prior X Y none KN.2 ω - drawAvg p q D prior X Y none KN.2 ω ^ 2) /
      KN.2) < drawAvg p q D prior X Y none KN.2 ω ^ 2 := by
    have h0 : Tendsto (fun N : ℕ => (1 : ℝ) / N) atTop (𝓝 0) := tendsto_one_div_atTop_nhds_zero_nat
    have t := ((h0.mul ((k2 none).sub ((k1 none).pow 2))).const_mul (4 * e))
    rw [zero_mul, mul_zero] at t
    have ev := (t.eventually_lt ((k1 none).pow 2) (by have := hE none; positivity))
    have := (tendsto_snd (f := atTop (α := ℕ)) (g := atTop (α := ℕ))).eventually ev
    filter_upwards [this] with KN hKN
    rw [one_div, inv_mul_eq_div] at hKN
    exact hKN
  have hge : ∀ᶠ KN : ℕ × ℕ in atTop ×ˢ atTop, ∀ c : Option (Fin n), 1 ≤ drawCount KN c :=
    eventually_all.2 fun c => (hcount c).eventually_ge_atTop 1
  filter_upwards [hp1, hp2, hcv, hge] with KN a1 a2 a3 a4
  refine ⟨⟨a1, a3⟩, ?_⟩
  unfold varianceOf
  refine Finset.sum_pos (fun c _ => ?_) Finset.univ_nonempty
  have hf : drawFactor n c ≠ 0 := by
    rcases c with _ | i
    · show -(n : ℝ) ≠ 0
      have : (n : ℝ) ≠ 0 := by positivity
      simpa using this
    · exact one_ne_zero
  have h4 : (0 : ℝ) < drawCount KN c := by have := a4 c; positivity
  have := a1 c
  have := a2 c
  positivity

theorem plainMode_spec {vt : ℕ → Ω → ResamplingVT} (h : PlainMode vt) :
    ∃ e : ℝ, ∀ N ω, (vt N ω).marginalizeUncertainty = false ∧
      ((vt N ω).enforceConvergence = true → (vt N ω).nEvents = fin e) := by
  rcases h with h | ⟨e, h⟩
  · exact ⟨0, fun N ω => ⟨(h N ω).1, fun ht => by simp [(h N ω).2] at ht⟩⟩
  · exact ⟨e, fun N ω => ⟨(h N ω).1, fun _ => (h N ω).2.2⟩⟩

/-- The standardised error in terms of the averages tends to a standard normal variable. -/
theorem error_normal [IsProbabilityMeasure P] (h : Campaign P ν p q D X)
    (h2 : IntegrableOn (fun x => p x ^ 2 / q x) D ν) (hpos : 0 < ∫ x in D, p x ∂ν)
    (hY : ∀ i, EventSamples P ν p (prior i) (like i) (Z i) (Y i))
    (hev : ∀ i, 0 < ∫ x, like i x * p x ∂ν) (hind : iIndepFun (allDraws X Y) P)
    (hn : 1 ≤ n) (hvary : InjectionWeightsVary ν p q D)
    (hvaryE : ∀ i, EventWeightsVary ν p (prior i) (like i) (Z i)) :
    TendstoInDistribution (fun KN ω => errorOf ν p q D prior like Z X Y KN ω /
      √(varianceOf p q D prior X Y KN ω)) (atTop ×ˢ atTop) (id : ℝ → ℝ) (fun _ => P)
      (gaussianReal 0 1) := by
  have hm := draws_moments h h2 hY
  have hE : ∀ c, 0 < drawMean ν p D like Z c := by
    rintro (_ | i)
    · exact hpos
    · exact div_pos (hev i) (hY i).evidence_pos
  have hvc : ∀ c, drawMean ν p D like Z c ^ 2 < drawSecond ν p q D prior like Z c := by
    rintro (_ | i)
    · exact hvary
    · exact hvaryE i
  have := clt_log_pool (P := P) (l := (atTop ×ˢ atTop : Filter (ℕ × ℕ)))
    (U := fun c k ω => drawWeight p q D prior c (allDraws X Y (c, k) ω))
    (E := drawMean ν p D like Z) (B := drawSecond ν p q D prior like Z) (a := drawFactor n)
    (M := drawCount) (fun c k => (hm c).2.2.1 k)
    (hind.comp (fun t x => drawWeight p q D prior t.1 x) (fun t => (hm t.1).1))
    (fun c => (hm c).2.2.2.2.1) (fun c => (hm c).2.2.2.2.2) (fun c => (hm c).2.2.2.1) hE
    (fun c => ?_) (fun c => ?_)
  · exact this
  · have hf : drawFactor n c ≠ 0 := by
      rcases c with _ | i
      · show -(n : ℝ) ≠ 0
        have : (n : ℝ) ≠ 0 := by positivity
        simpa using this
      · exact one_ne_zero
    have h1 := hE c
    have : 0 < drawSecond ν p q D prior like Z c / drawMean ν p D like Z c ^ 2 - 1 := by
      rw [sub_pos, lt_div_iff₀ (by positivity), one_mul]
      exact hvc c
    positivity
  · rcases c with _ | i
    · exact tendsto_snd
    · exact tendsto_fst

/-- **C128.** If all posterior samples and injections are independent, then as their numbers grow, at
any rates, the error of the log-likelihood divided by the square root of the variance that
`ln_likelihood_and_variance` reports tends in distribution to a standard normal variable. -/
theorem C128_normal [IsProbabilityMeasure P] (h : Campaign P ν p q D X)
    (h2 : IntegrableOn (fun x => p x ^ 2 / q x) D ν) (hpos : 0 < ∫ x in D, p x ∂ν)
    {θ φ : Dict Fl} {vt : ℕ → Ω → ResamplingVT}
    (hvt : ∀ N ≥ 1, ∀ ω, BuiltFrom (vt N ω) φ p q D (firstN X N ω)) (hmode : PlainMode vt)
    (hY : ∀ i, EventSamples P ν p (prior i) (like i) (Z i) (Y i))
    (hev : ∀ i, 0 < ∫ x, like i x * p x ∂ν) (hind : iIndepFun (allDraws X Y) P)
    (hn : 1 ≤ n) (hvary : InjectionWeightsVary ν p q D)
    (hvaryE : ∀ i, EventWeightsVary ν p (prior i) (like i) (Z i))
    {L : ℕ → ℕ → Ω → Likelihood} (hL : ∀ K N ω, LikelihoodOf (L K N ω) φ p prior Y K ω)
    (hconv : ∀ K N ω, (L K N ω).conversion θ = .ok φ)
    (hsel : ∀ K N ω, (L K N ω).selection = (vt N ω).asSelection) :
    ∃ l v : ℕ × ℕ → Ω → ℝ,
      (∀ᵐ ω ∂P, ∀ᶠ KN in atTop ×ˢ atTop, (L KN.1 KN.2 ω).lnLikelihoodAndVariance θ =
        .ok (fin (l KN ω), fin (v KN ω)) ∧ 0 < v KN ω) ∧
      TendstoInDistribution (fun KN ω => (l KN ω - exactLnLikelihood ν p like Z D) / √(v KN ω))
        (atTop ×ˢ atTop) (id : ℝ → ℝ) (fun _ => P) (gaussianReal 0 1) := by
  obtain ⟨e, he⟩ := plainMode_spec hmode
  refine ⟨fun KN ω => exactLnLikelihood ν p like Z D + errorOf ν p q D prior like Z X Y KN ω,
    varianceOf p q D prior X Y, ?_, ?_⟩
  · filter_upwards [eventually_good h h2 hpos hY hev hind hn hvary hvaryE e] with ω hω
    filter_upwards [hω] with KN hKN
    exact ⟨evaluates h hpos hvt he hY hev (hL _ _ _) (hconv _ _ _) (hsel _ _ _) hKN.1, hKN.2⟩
  · simp only [add_sub_cancel_left]
    exact error_normal h h2 hpos hY hev hind hn hvary hvaryE

theorem gaussian_frontier (z : ℝ) : gaussianReal 0 1 (frontier (Set.Icc (-z) z)) = 0 := by
  have : NullSingletonClass (gaussianReal 0 1) := nullSingletonClass_gaussianReal (by norm_num)
  have hsub : frontier (Set.Icc (-z) z) ⊆ {-z, z} := by
    rcases le_or_gt (-z) z with hz | hz
    · rw [frontier_Icc hz]
    · rw [Set.Icc_eq_empty (not_le.2 hz), frontier_empty]
      exact Set.empty_subset _
  exact measure_mono_null hsub ((Set.toFinite _).measure_zero _)

/-- **C128** in terms of calls: the probability that `ln_likelihood_and_variance` returns a value
within `z` reported standard deviations of the exact log-likelihood tends to the probability that a
standard normal variable is within `[-z, z]`. -/
theorem C128_coverage [IsProbabilityMeasure P] (h : Campaign P ν p q D X)
    (h2 : IntegrableOn (fun x => p x ^ 2 / q x) D ν) (hpos : 0 < ∫ x in D, p x ∂ν)
    {θ φ : Dict Fl} {vt : ℕ → Ω → ResamplingVT}
    (hvt : ∀ N ≥ 1, ∀ ω, BuiltFrom (vt N ω) φ p q D (firstN X N ω)) (hmode : PlainMode vt)
    (hY : ∀ i, EventSamples P ν p (prior i) (like i) (Z i) (Y i))
    (hev : ∀ i, 0 < ∫ x, like i x * p x ∂ν) (hind : iIndepFun (allDraws X Y) P)
    (hn : 1 ≤ n) (hvary : InjectionWeightsVary ν p q D)
    (hvaryE : ∀ i, EventWeightsVary ν p (prior i) (like i) (Z i))
    {L : ℕ → ℕ → Ω → Likelihood} (hL : ∀ K N ω, LikelihoodOf (L K N ω) φ p prior Y K ω)
    (hconv : ∀ K N ω, (L K N ω).conversion θ = .ok φ)
    (hsel : ∀ K N ω, (L K N ω).selection = (vt N ω).asSelection) (z : ℝ) :
    Tendsto (fun KN : ℕ × ℕ => P.real {ω | ∃ l v : ℝ,
        (L KN.1 KN.2 ω).lnLikelihoodAndVariance θ = .ok (fin l, fin v) ∧
        |l - exactLnLikelihood ν p like Z D| ≤ z * √v}) (atTop ×ˢ atTop)
      (𝓝 ((gaussianReal 0 1).real (Set.Icc (-z) z))) := by
  obtain ⟨e, he⟩ := plainMode_spec hmode
  have hnorm := error_normal h h2 hpos hY hev hind hn hvary hvaryE
  set T : ℕ × ℕ → Ω → ℝ := fun KN ω => errorOf ν p q D prior like Z X Y KN ω /
      √(varianceOf p q D prior X Y KN ω) with hT
  set G : ℕ × ℕ → Set Ω := fun KN => {ω | GoodDraws e p q D prior X Y KN ω ∧
    0 < varianceOf p q D prior X Y KN ω} with hG
  -- the bad draws are rare
  have hm := draws_moments h h2 hY
  have ma : ∀ c m, Measurable (drawAvg p q D prior X Y c m) := fun c m =>
    (Finset.measurable_fun_sum _ fun k _ => (hm c).1.comp ((hm c).2.1 k)).div_const _
  have ma2 : ∀ c m, Measurable (drawAvgSq p q D prior X Y c m) := fun c m =>
    (Finset.measurable_fun_sum _ fun k _ => ((hm c).1.comp ((hm c).2.1 k)).pow_const 2).div_const _
  have mv : ∀ KN, Measurable (varianceOf p q D prior X Y KN) := fun KN =>
    Finset.measurable_fun_sum _ fun c _ => (((ma2 c _).sub ((ma c _).pow_const 2)).div
      (((ma c _).pow_const 2).const_mul _)).const_mul _
  have mG : ∀ KN, MeasurableSet (G KN) := by
    intro KN
    refine MeasurableSet.inter (MeasurableSet.inter ?_ ?_) (measurableSet_lt measurable_const (mv KN))
    · have : {ω | ∀ c, 0 < drawAvg p q D prior X Y c (drawCount KN c) ω} =
          ⋂ c, {ω | 0 < drawAvg p q D prior X Y c (drawCount KN c) ω} := by
        ext ω
        simp
      show MeasurableSet {ω | ∀ c, 0 < drawAvg p q D prior X Y c (drawCount KN c) ω}
      rw [this]
      exact MeasurableSet.iInter fun c => measurableSet_lt measurable_const (ma c _)
    · exact measurableSet_lt ((((ma2 none _).sub ((ma none _).pow_const 2)).div_const _).const_mul _)
        ((ma none _).pow_const 2)
  have hbad : Tendsto (fun KN => P.real (G KN)ᶜ) (atTop ×ˢ atTop) (𝓝 0) := by
    have h1 : TendstoInMeasure P (fun KN => (G KN)ᶜ.indicator fun _ => (1 : ℝ)) (atTop ×ˢ atTop)
        fun _ => 0 := by
      refine tendstoInMeasure_of_ae (fun KN => ?_) ?_
      · exact (measurable_const.indicator (mG KN).compl).aestronglyMeasurable
      · filter_upwards [eventually_good h h2 hpos hY hev hind hn hvary hvaryE e] with ω hω
        refine tendsto_const_nhds.congr' ?_
        filter_upwards [hω] with KN hKN
        rw [Set.indicator_of_notMem]
        simpa [hG] using hKN
    rw [tendstoInMeasure_iff_measureReal_norm] at h1
    refine (h1 1 one_pos).congr fun KN => ?_
    congr 1
    ext ω
    by_cases hω : ω ∈ (G KN)ᶜ
    · have h1 : (G KN)ᶜ.indicator (fun _ => (1 : ℝ)) ω = 1 := Set.indicator_of_mem hω _
      simp only [Set.mem_setOf_eq, h1, hω, iff_true]
      norm_num
    · have h1 : (G KN)ᶜ.indicator (fun _ => (1 : ℝ)) ω = 0 := Set.indicator_of_notMem hω _
      simp only [Set.mem_setOf_eq, h1, hω, iff_false]
      norm_num
  -- the probability for the averages
  have hF : Tendsto (fun KN => P.real (T KN ⁻¹' Set.Icc (-z) z)) (atTop ×ˢ atTop)
      (𝓝 ((gaussianReal 0 1).real (Set.Icc (-z) z))) := by
    have h1 := ProbabilityMeasure.tendsto_measure_of_null_frontier_of_tendsto' hnorm.tendsto
      (E := Set.Icc (-z) z) (by
        simp only [ProbabilityMeasure.coe_mk, Measure.map_id]
        exact gaussian_frontier z)
    simp only [ProbabilityMeasure.coe_mk, Measure.map_id] at h1
    have h3 := (ENNReal.tendsto_toReal (measure_ne_top (gaussianReal 0 1) _)).comp h1
    refine h3.congr fun KN => ?_
    simp only [Function.comp_apply]
    rw [Measure.map_apply_of_aemeasurable (hnorm.forall_aemeasurable KN) measurableSet_Icc]
    rfl
  -- on the good draws the call returns these numbers
  have hon : ∀ KN, ∀ ω ∈ G KN, ((∃ l v : ℝ,
      (L KN.1 KN.2 ω).lnLikelihoodAndVariance θ = .ok (fin l, fin v) ∧
        |l - exactLnLikelihood ν p like Z D| ≤ z * √v) ↔ T KN ω ∈ Set.Icc (-z) z) := by
    intro KN ω hω
    have hev' := evaluates h hpos hvt he hY hev (hL _ _ _) (hconv _ _ _) (hsel _ _ _) hω.1
    have hsq : 0 < √(varianceOf p q D prior X Y KN ω) := Real.sqrt_pos.2 hω.2
    have hiff : |errorOf ν p q D prior like Z X Y KN ω| ≤ z * √(varianceOf p q D prior X Y KN ω) ↔
        T KN ω ∈ Set.Icc (-z) z := by
      rw [Set.mem_Icc, ← abs_le, hT]
      simp only [abs_div, abs_of_pos hsq]
      rw [div_le_iff₀ hsq]
    rw [← hiff]
    constructor
    · rintro ⟨l, v, hlv, hb⟩
      rw [hev'] at hlv
      injection hlv with hlv
      injection hlv with h3 h4
      rw [fin_inj] at h3 h4
      rw [← h3, ← h4, add_sub_cancel_left] at hb
      exact hb
    · intro hb
      exact ⟨_, _, hev', by rwa [add_sub_cancel_left]⟩
  have hle1 : ∀ KN, P.real {ω | ∃ l v : ℝ,
      (L KN.1 KN.2 ω).lnLikelihoodAndVariance θ = .ok (fin l, fin v) ∧
        |l - exactLnLikelihood ν p like Z D| ≤ z * √v} ≤
      P.real (T KN ⁻¹' Set.Icc (-z) z) + P.real (G KN)ᶜ := by
    intro KN
    refine (measureReal_mono ?_).trans (measureReal_union_le _ _)
    intro ω hω
    by_cases hg : ω ∈ G KN
    · exact .inl ((hon KN ω hg).1 hω)
    · exact .inr hg
  have hle2 : ∀ KN, P.real (T KN ⁻¹' Set.Icc (-z) z) - P.real (G KN)ᶜ ≤ P.real {ω | ∃ l v : ℝ,
      (L KN.1 KN.2 ω).lnLikelihoodAndVariance θ = .ok (fin l, fin v) ∧
        |l - exactLnLikelihood ν p like Z D| ≤ z * √v} := by
    intro KN
    rw [sub_le_iff_le_add]
    refine (measureReal_mono ?_).trans (measureReal_union_le _ _)
    intro ω hω
    by_cases hg : ω ∈ G KN
    · exact .inl ((hon KN ω hg).2 hω)
    · exact .inr hg
  refine tendsto_of_tendsto_of_tendsto_of_le_of_le ?_ ?_ hle2 hle1
  · simpa using hF.sub hbad
  · simpa using hF.add hbad

/-- Not vacuous: two events with samples `x` uniform on `(0, 1]`, the population density `2 x`, and
injections of which those with `x > 1/2` are found. -/
example (planck15 : Cosmology) : ∃ (Ω : Type) (_ : MeasurableSpace Ω) (P : Measure Ω)
    (_ : IsProbabilityMeasure P) (L : ℕ → ℕ → Ω → Likelihood), ∀ z : ℝ,
    Tendsto (fun KN : ℕ × ℕ => P.real {ω | ∃ l v : ℝ,
        (L KN.1 KN.2 ω).lnLikelihoodAndVariance [] = .ok (fin l, fin v) ∧
        |l + 2 * Real.log (3 / 4)| ≤ z * √v}) (atTop ×ˢ atTop)
      (𝓝 ((gaussianReal 0 1).real (Set.Icc (-z) z))) := by
  set ν : Measure ℝ := volume.restrict (Set.Ioc 0 1) with hν
  have : IsProbabilityMeasure ν := ⟨by simp [hν]⟩
  obtain ⟨Ω, mΩ, P, A, hAm, hAl, hAi, hP⟩ := exists_iid (Option (Fin 2) × ℕ) ν
  set X : ℕ → Ω → ℝ := fun k => A (none, k) with hX
  set Y : Fin 2 → ℕ → Ω → ℝ := fun i k => A (some i, k) with hYd
  have hall : allDraws X Y = A := by
    funext ⟨c, k⟩
    cases c <;> rfl
  have hlaw : ∀ t, P.map (A t) = ν.withDensity fun _ => ENNReal.ofReal 1 := by
    intro t
    rw [(hAl t).map_eq]
    simp
  have hindep : ∀ c, Pairwise fun i j => A (c, i) ⟂ᵢ[P] A (c, j) := fun c i j hij =>
    hAi.indepFun (by simpa using hij)
  set p : ℝ → ℝ := fun x => 2 * x with hp
  set D : Set ℝ := Set.Ioc (1 / 2) 1 with hD
  have hcont : ∀ f : ℝ → ℝ, Continuous f → Integrable f ν := fun f hf =>
    (hf.integrableOn_Icc).mono_set Set.Ioc_subset_Icc_self
  have hpm : Measurable p := by fun_prop
  have hc : Campaign P ν p (fun _ => 1) D X :=
    ⟨hpm, measurable_const, measurableSet_Ioc, fun _ _ => one_pos, fun k => hAm _, fun k => hlaw _,
      (hcont p (by fun_prop)).integrableOn⟩
  have hDi : ∀ f : ℝ → ℝ, ∫ x in D, f x ∂ν = ∫ x in (1 / 2 : ℝ)..1, f x := by
    intro f
    rw [hν, Measure.restrict_restrict measurableSet_Ioc,
      intervalIntegral.integral_of_le (by norm_num)]
    congr 2
    ext x
    simp only [hD, Set.mem_inter_iff, Set.mem_Ioc]
    constructor
    · exact fun h => h.1
    · exact fun h => ⟨h, by linarith [h.1], h.2⟩
  have hi1 : ∫ x in D, p x ∂ν = 3 / 4 := by
    rw [hDi, hp, intervalIntegral.integral_const_mul, integral_id]
    norm_num
  have hi2 : ∫ x, (1 : ℝ) * p x ∂ν = 1 := by
    rw [hν, ← intervalIntegral.integral_of_le (by norm_num), hp]
    simp only [one_mul]
    rw [intervalIntegral.integral_const_mul, integral_id]
    norm_num
  have hsq : ∀ x : ℝ, p x ^ 2 / 1 = 4 * x ^ 2 := fun x => by rw [hp]; ring
  have hi3 : ∫ x in D, p x ^ 2 / 1 ∂ν = 7 / 6 := by
    simp_rw [hsq]
    rw [hDi, intervalIntegral.integral_const_mul, integral_pow]
    norm_num
  have hi4 : ∫ x, 1 * p x ^ 2 / 1 ∂ν = 4 / 3 := by
    simp_rw [one_mul, hsq]
    rw [hν, ← intervalIntegral.integral_of_le (by norm_num), intervalIntegral.integral_const_mul,
      integral_pow]
    norm_num
  choose vt hvt using fun (N : ℕ) (ω : Ω) =>
    exists_built planck15 [] p (fun _ => 1) D (firstN X N ω) false true (fin 2)
  let L : ℕ → ℕ → Ω → Likelihood := fun K N ω =>
    { cls := .hyper, backend := .numpy, data := []
      hyperPrior := ⟨[], fun _ _ =>
        .ok (matFin ((List.finRange 2).map fun i => (firstN (Y i) K ω).map p))⟩
      samplingPrior :=
        some (matFin ((List.finRange 2).map fun i => (firstN (Y i) K ω).map fun _ => 1))
      totalNoiseEvidence := 0, conversion := fun θ => .ok θ, selection := (vt N ω).asSelection
      nPosteriors := 2, samplesPerPosterior := K, maximumUncertainty := pinf, maxVariance := pinf }
  refine ⟨Ω, mΩ, P, hP, L, fun z => ?_⟩
  have := C128_coverage (L := L) (θ := []) (φ := []) (n := 2) (like := fun _ _ => 1)
    (prior := fun _ _ => 1) (Z := fun _ => 1) (Y := Y) hc
    (hcont (fun x => p x ^ 2 / 1) (by fun_prop)).integrableOn (by rw [hi1]; norm_num)
    (fun N _ ω => (hvt N ω).1)
    (.inr ⟨2, fun N ω => ⟨(hvt N ω).2.1, (hvt N ω).2.2.1, (hvt N ω).2.2.2⟩⟩)
    (fun i => ⟨hpm, measurable_const, measurable_const, fun _ => one_pos, fun _ => zero_le_one,
      one_pos, fun k => hAm _, by simpa using fun k => hlaw _, hindep _, hcont _ (by fun_prop),
      hcont _ (by fun_prop)⟩)
    (fun _ => by rw [hi2]; norm_num) (by rw [hall]; exact hAi) (by norm_num)
    (by unfold InjectionWeightsVary; rw [hi1, hi3]; norm_num)
    (fun _ => by unfold EventWeightsVary; rw [hi2, hi4]; norm_num)
    (fun K N ω => ⟨rfl, rfl, rfl, rfl, rfl⟩) (fun _ _ _ => rfl) (fun _ _ _ => rfl) z
  have he : exactLnLikelihood ν p (fun (_ : Fin 2) _ => 1) (fun _ => 1) D = -(2 * Real.log (3 / 4)) := by
    unfold exactLnLikelihood
    rw [hi1]
    simp only [hi2]
    simp
  rw [he] at this
  simp only [sub_neg_eq_add] at this
  exact this

end GW
