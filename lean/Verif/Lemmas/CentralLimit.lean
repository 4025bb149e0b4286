import Mathlib.Probability.CentralLimitTheorem
import Mathlib.Probability.Independence.CharacteristicFunction
import Mathlib.MeasureTheory.Measure.LevyConvergence
import Mathlib.Probability.StrongLaw
import Mathlib.Analysis.Calculus.DSlope
import Mathlib.Analysis.SpecialFunctions.Log.Deriv

/-!
# Limit theorems for several independent Monte Carlo averages

The central limit theorem for a sum of finitely many averages over independent samples, when the
numbers of samples grow at any rates.
-/

noncomputable section

open MeasureTheory ProbabilityTheory Filter Topology

namespace GW

variable {Ω ι κ : Type} [MeasurableSpace Ω] {P : Measure Ω} [IsProbabilityMeasure P]

/-- A random variable that tends to a centred normal one, times a convergent sequence of numbers:
the characteristic functions converge. -/
theorem charFun_scaled_tendsto {A : ℕ → Ω → ℝ} {V : ℝ} (hV : 0 ≤ V)
    (hA : TendstoInDistribution A atTop (id : ℝ → ℝ) (fun _ => P) (gaussianReal 0 V.toNNReal))
    {a : ℕ → ℝ} {b : ℝ} (ha : Tendsto a atTop (𝓝 b)) (t : ℝ) :
    Tendsto (fun j => charFun (P.map (A j)) (a j * t)) atTop
      (𝓝 (Complex.exp (-(V * (b * t) ^ 2 / 2)))) := by
  have hY : TendstoInMeasure P (fun j (_ : Ω) => a j) atTop fun _ => b :=
    tendstoInMeasure_of_tendsto_ae (fun _ => aestronglyMeasurable_const) (ae_of_all _ fun _ => ha)
  have h := hA.continuous_comp_prodMk_of_tendstoInMeasure_const (g := fun x : ℝ × ℝ => x.2 * x.1)
    (by fun_prop) hY (fun _ => aemeasurable_const)
  have h1 := ProbabilityMeasure.tendsto_iff_tendsto_charFun.1 h.tendsto t
  simp only [ProbabilityMeasure.coe_mk] at h1
  have e1 : ∀ j, charFun (P.map fun ω => a j * A j ω) t = charFun (P.map (A j)) (a j * t) :=
    fun j => charFun_map_mul_comp (hA.forall_aemeasurable j) _ _
  have e2 : charFun ((gaussianReal 0 V.toNNReal).map fun x => b * (id x : ℝ)) t =
      Complex.exp (-(V * (b * t) ^ 2 / 2)) := by
    rw [charFun_map_mul_comp aemeasurable_id, Measure.map_id, charFun_gaussianReal]
    congr 1
    simp [Real.coe_toNNReal V hV]
  rw [← e2]
  exact h1.congr e1

variable [Fintype ι]

/-- The variance of a sum of independent averages. -/
def poolVariance (V : ι → ℝ) (M : ι → ℕ) : ℝ := ∑ c, V c / M c

theorem poolVariance_pos [Nonempty ι] {V : ι → ℝ} (hV : ∀ c, 0 < V c) {M : ι → ℕ}
    (hM : ∀ c, 1 ≤ M c) : 0 < poolVariance V M :=
  Finset.sum_pos (fun c _ => div_pos (hV c) (by have := hM c; positivity)) Finset.univ_nonempty

theorem le_poolVariance {V : ι → ℝ} (hV : ∀ c, 0 ≤ V c) (M : ι → ℕ) (c : ι) :
    V c / M c ≤ poolVariance V M :=
  Finset.single_le_sum (f := fun c => V c / M c) (fun c _ => div_nonneg (hV c) (Nat.cast_nonneg _))
    (Finset.mem_univ c)

/-- The characteristic function of a sum of independent averages. -/
theorem charFun_pool {W : ι → ℕ → Ω → ℝ}
    (hid : ∀ c k, IdentDistrib (W c k) (W c 0) P P)
    (hindep : iIndepFun (fun t : ι × ℕ => W t.1 t.2) P) (M : ι → ℕ) (s t : ℝ) :
    charFun (P.map fun ω => (∑ c, (∑ k ∈ Finset.range (M c), W c k ω) / M c) / s) t =
      ∏ c, charFun (P.map fun ω => (√(M c : ℝ))⁻¹ * ∑ k ∈ Finset.range (M c), W c k ω)
        ((√(M c : ℝ))⁻¹ / s * t) := by
  have hW : ∀ c k, AEMeasurable (W c k) P := fun c k => (hid c k).aemeasurable_fst
  have hrow : ∀ c, iIndepFun (W c) P := fun c =>
    hindep.precomp (g := fun k : ℕ => (c, k)) fun a b h => by simpa using h
  have hsig : iIndepFun (fun x : Σ _ : ι, ℕ => fun ω => (M x.1 : ℝ)⁻¹ / s * W x.1 x.2 ω) P := by
    have h1 : iIndepFun (fun x : Σ _ : ι, ℕ => W x.1 x.2) P :=
      hindep.precomp (g := fun x : Σ _ : ι, ℕ => (x.1, x.2)) (by
        rintro ⟨a, b⟩ ⟨c, d⟩ h
        simpa using h)
    exact h1.comp (fun x y => (M x.1 : ℝ)⁻¹ / s * y) (fun x => by fun_prop)
  have e : (fun ω => (∑ c, (∑ k ∈ Finset.range (M c), W c k ω) / M c) / s) =
      fun ω => ∑ x ∈ Finset.univ.sigma fun c => Finset.range (M c),
        (M x.1 : ℝ)⁻¹ / s * W x.1 x.2 ω := by
    funext ω
    rw [Finset.sum_sigma, Finset.sum_div]
    refine Finset.sum_congr rfl fun c _ => ?_
    show _ = ∑ k ∈ Finset.range (M c), (M c : ℝ)⁻¹ / s * W c k ω
    rw [← Finset.mul_sum]
    ring
  rw [e, (hsig.restrict _).charFun_map_fun_finsetSum_eq_prod
    (fun x _ => (hW _ _).const_mul _), Finset.prod_sigma, Finset.prod_apply]
  refine Finset.prod_congr rfl fun c _ => ?_
  rw [charFun_inv_sqrt_mul_sum (hrow c) (hid c), Finset.prod_apply]
  rw [Finset.prod_congr rfl (g := fun _ => charFun (P.map (W c 0))
    ((√(M c : ℝ))⁻¹ * ((√(M c : ℝ))⁻¹ / s * t)))]
  · rw [Finset.prod_const, Finset.card_range]
  · intro k _
    rw [charFun_map_mul_comp (hW c k), (hid c k).map_eq]
    congr 1
    rw [← mul_assoc, ← mul_div_assoc, ← mul_inv, Real.mul_self_sqrt (Nat.cast_nonneg _)]

/-- The central limit theorem for a sum of independent averages: divided by its standard deviation it
tends to a standard normal variable, at whatever rates the numbers of samples grow. -/
theorem clt_pool [Nonempty ι] {W : ι → ℕ → Ω → ℝ}
    (hid : ∀ c k, IdentDistrib (W c k) (W c 0) P P)
    (hindep : iIndepFun (fun t : ι × ℕ => W t.1 t.2) P)
    (h0 : ∀ c, ∫ ω, W c 0 ω ∂P = 0) (h2 : ∀ c, MemLp (W c 0) 2 P) {V : ι → ℝ}
    (hV : ∀ c, Var[W c 0; P] = V c) (hVpos : ∀ c, 0 < V c) {l : Filter κ}
    [l.IsCountablyGenerated] {M : κ → ι → ℕ} (hM : ∀ c, Tendsto (fun s => M s c) l atTop) :
    TendstoInDistribution (fun s ω => (∑ c, (∑ k ∈ Finset.range (M s c), W c k ω) / M s c) /
      √(poolVariance V (M s))) l (id : ℝ → ℝ) (fun _ => P) (gaussianReal 0 1) := by
  have hW : ∀ c k, AEMeasurable (W c k) P := fun c k => (hid c k).aemeasurable_fst
  have hrow : ∀ c, iIndepFun (W c) P := fun c =>
    hindep.precomp (g := fun k : ℕ => (c, k)) fun a b h => by simpa using h
  refine ⟨fun s => ?_, aemeasurable_id, ?_⟩
  · refine AEMeasurable.div_const (Finset.aemeasurable_fun_sum _ fun c _ => ?_) _
    exact (Finset.aemeasurable_fun_sum _ fun k _ => hW c k).div_const _
  refine Filter.tendsto_of_subseq_tendsto fun ns hns => ?_
  -- the factors are bounded
  let a : κ → ι → ℝ := fun s c => (√(M s c : ℝ))⁻¹ / √(poolVariance V (M s))
  have ha2 : ∀ s c, a s c ^ 2 * V c = V c / M s c / poolVariance V (M s) := by
    intro s c
    have hp : 0 ≤ poolVariance V (M s) :=
      Finset.sum_nonneg fun c _ => div_nonneg (hVpos c).le (Nat.cast_nonneg _)
    simp only [a, div_pow, inv_pow]
    rw [Real.sq_sqrt (Nat.cast_nonneg _), Real.sq_sqrt hp]
    ring
  have hbound : ∀ s, a s ∈ Set.Icc (fun _ => (0 : ℝ)) fun c => √(1 / V c) := by
    intro s
    refine ⟨fun c => div_nonneg (inv_nonneg.2 (Real.sqrt_nonneg _)) (Real.sqrt_nonneg _),
      fun c => ?_⟩
    refine Real.le_sqrt_of_sq_le ?_
    rw [le_div_iff₀ (hVpos c), ha2]
    exact div_le_one_of_le₀ (le_poolVariance (fun c => (hVpos c).le) _ _)
      ((div_nonneg (hVpos c).le (Nat.cast_nonneg _)).trans
        (le_poolVariance (fun c => (hVpos c).le) (M s) c))
  obtain ⟨b, -, φ, hφ, hab⟩ := isCompact_Icc.tendsto_subseq fun j => hbound (ns j)
  have hs : Tendsto (fun j => ns (φ j)) atTop l := hns.comp hφ.tendsto_atTop
  have hb : ∑ c, V c * b c ^ 2 = 1 := by
    have t1 : Tendsto (fun j => ∑ c, V c * a (ns (φ j)) c ^ 2) atTop (𝓝 (∑ c, V c * b c ^ 2)) :=
      tendsto_finsetSum _ fun c _ => (((tendsto_pi_nhds.1 hab c).pow 2).const_mul (V c))
    refine tendsto_nhds_unique t1 (tendsto_const_nhds.congr' ?_)
    have hge : ∀ᶠ j in atTop, ∀ c, 1 ≤ M (ns (φ j)) c :=
      eventually_all.2 fun c => ((hM c).comp hs).eventually_ge_atTop 1
    filter_upwards [hge] with j hj
    have := poolVariance_pos hVpos hj
    rw [Finset.sum_congr rfl fun c _ => (mul_comm _ _).trans (ha2 (ns (φ j)) c), ← Finset.sum_div]
    exact (div_self this.ne').symm
  refine ⟨φ, ProbabilityMeasure.tendsto_iff_tendsto_charFun.2 fun t => ?_⟩
  simp only [ProbabilityMeasure.coe_mk, Measure.map_id]
  have key : Tendsto (fun j => ∏ c, charFun (P.map fun ω => (√(M (ns (φ j)) c : ℝ))⁻¹ *
      ∑ k ∈ Finset.range (M (ns (φ j)) c), W c k ω) (a (ns (φ j)) c * t)) atTop
      (𝓝 (∏ c, Complex.exp (-(V c * (b c * t) ^ 2 / 2)))) := by
    refine tendsto_finsetProd _ fun c _ => ?_
    have hc := tendstoInDistribution_inv_sqrt_mul_sum_sub (P := P) (X := W c)
      (P' := gaussianReal 0 Var[W c 0; P].toNNReal) (Y := id)
      ⟨aemeasurable_id, Measure.map_id⟩ (h2 c) (hrow c) (hid c)
    rw [h0 c, hV c] at hc
    simp only [mul_zero, sub_zero] at hc
    have hc' : TendstoInDistribution (fun j ω => (√(M (ns (φ j)) c : ℝ))⁻¹ *
        ∑ k ∈ Finset.range (M (ns (φ j)) c), W c k ω) atTop (id : ℝ → ℝ) (fun _ => P)
        (gaussianReal 0 (V c).toNNReal) :=
      ⟨fun j => hc.forall_aemeasurable _, aemeasurable_id,
        hc.tendsto.comp ((hM c).comp hs)⟩
    exact charFun_scaled_tendsto (hVpos c).le hc' (tendsto_pi_nhds.1 hab c) t
  have e : ∏ c, Complex.exp (-(V c * (b c * t) ^ 2 / 2)) = charFun (gaussianReal 0 1) t := by
    rw [← Complex.exp_sum, charFun_gaussianReal]
    congr 1
    have hb' : (∑ c, (V c : ℂ) * (b c : ℂ) ^ 2) = 1 := by exact_mod_cast hb
    have : ∑ c, -((V c : ℂ) * ((b c : ℂ) * t) ^ 2 / 2) =
        -((∑ c, (V c : ℂ) * (b c : ℂ) ^ 2) * t ^ 2 / 2) := by
      rw [Finset.sum_mul, Finset.sum_div, ← Finset.sum_neg_distrib]
      exact Finset.sum_congr rfl fun c _ => by ring
    rw [this, hb']
    simp
  rw [← e]
  refine key.congr fun j => ?_
  rw [charFun_pool hid hindep (M (ns (φ j))) _ t]

/-! ## Convergence in probability -/

omit [IsProbabilityMeasure P] in
/-- Almost sure convergence along a countably generated filter is convergence in probability. -/
theorem tendstoInMeasure_of_ae [IsFiniteMeasure P] {l : Filter κ} [l.IsCountablyGenerated]
    {f : κ → Ω → ℝ} {g : Ω → ℝ} (hf : ∀ s, AEStronglyMeasurable (f s) P)
    (h : ∀ᵐ ω ∂P, Tendsto (fun s => f s ω) l (𝓝 (g ω))) : TendstoInMeasure P f l g := by
  intro ε hε
  refine Filter.tendsto_of_subseq_tendsto fun ns hns => ⟨id, ?_⟩
  exact tendstoInMeasure_of_tendsto_ae (f := fun j => f (ns j)) (fun j => hf (ns j))
    (h.mono fun ω hω => hω.comp hns) ε hε

/-- A sequence with second moments at most one, times one that tends to zero in probability. -/
theorem tendstoInMeasure_mul_zero {l : Filter κ} {f g : κ → Ω → ℝ}
    (hf : ∀ s, MemLp (f s) 2 P) (hb : ∀ s, ∫ ω, f s ω ^ 2 ∂P ≤ 1)
    (hg : TendstoInMeasure P g l fun _ => 0) :
    TendstoInMeasure P (fun s ω => f s ω * g s ω) l fun _ => 0 := by
  rw [tendstoInMeasure_iff_measureReal_norm] at hg ⊢
  intro ε hε
  rw [Metric.tendsto_nhds]
  intro η hη
  -- choose the threshold for `g`
  obtain ⟨δ, hδ, hδη⟩ : ∃ δ > 0, δ ^ 2 / ε ^ 2 < η / 2 := by
    refine ⟨ε * √(η / 4), by positivity, ?_⟩
    rw [mul_pow, Real.sq_sqrt (by positivity)]
    rw [mul_div_assoc, mul_div_cancel₀ _ (by positivity)]
    linarith
  filter_upwards [(Metric.tendsto_nhds.1 (hg δ hδ)) (η / 2) (by positivity)] with s hs
  rw [Real.dist_eq, sub_zero, abs_of_nonneg measureReal_nonneg] at hs ⊢
  have hsub : {ω | ε ≤ ‖f s ω * g s ω - 0‖} ⊆
      {ω | δ ≤ ‖g s ω - 0‖} ∪ {ω | ε ^ 2 / δ ^ 2 ≤ f s ω ^ 2} := by
    intro ω hω
    simp only [sub_zero, Set.mem_setOf_eq, Set.mem_union, norm_mul, Real.norm_eq_abs] at hω ⊢
    by_cases hg' : δ ≤ |g s ω|
    · exact .inl hg'
    · right
      push Not at hg'
      have h1 : ε ≤ |f s ω| * δ :=
        hω.trans (mul_le_mul_of_nonneg_left hg'.le (abs_nonneg _))
      rw [div_le_iff₀ (by positivity), ← sq_abs (f s ω), ← mul_pow]
      exact pow_le_pow_left₀ hε.le h1 2
  have hcheb := mul_meas_ge_le_integral_of_nonneg (μ := P) (f := fun ω => f s ω ^ 2)
    (ae_of_all _ fun ω => sq_nonneg _) (hf s).integrable_sq (ε ^ 2 / δ ^ 2)
  have hc2 : P.real {ω | ε ^ 2 / δ ^ 2 ≤ f s ω ^ 2} ≤ δ ^ 2 / ε ^ 2 := by
    have hpos : 0 < ε ^ 2 / δ ^ 2 := by positivity
    have := hcheb.trans (hb s)
    rw [show δ ^ 2 / ε ^ 2 = 1 / (ε ^ 2 / δ ^ 2) by rw [one_div_div], le_div_iff₀ hpos, mul_comm]
    exact this
  calc P.real {ω | ε ≤ ‖f s ω * g s ω - 0‖}
      ≤ P.real ({ω | δ ≤ ‖g s ω - 0‖} ∪ {ω | ε ^ 2 / δ ^ 2 ≤ f s ω ^ 2}) :=
        measureReal_mono hsub
    _ ≤ P.real {ω | δ ≤ ‖g s ω - 0‖} + P.real {ω | ε ^ 2 / δ ^ 2 ≤ f s ω ^ 2} :=
        measureReal_union_le _ _
    _ < η := by linarith

omit [IsProbabilityMeasure P] in
/-- Finite sums of sequences that tend to zero in probability. -/
theorem tendstoInMeasure_sum_zero [IsFiniteMeasure P] {l : Filter κ} {f : ι → κ → Ω → ℝ}
    (h : ∀ c, TendstoInMeasure P (f c) l fun _ => 0) :
    TendstoInMeasure P (fun s ω => ∑ c, f c s ω) l fun _ => 0 := by
  classical
  have add : ∀ {a b : κ → Ω → ℝ}, TendstoInMeasure P a l (fun _ => 0) →
      TendstoInMeasure P b l (fun _ => 0) →
      TendstoInMeasure P (fun s ω => a s ω + b s ω) l fun _ => 0 := by
    intro a b ha hb
    rw [tendstoInMeasure_iff_measureReal_norm] at ha hb ⊢
    intro ε hε
    have := (ha (ε / 2) (by positivity)).add (hb (ε / 2) (by positivity))
    rw [add_zero] at this
    refine squeeze_zero (fun _ => measureReal_nonneg) (fun s => ?_) this
    refine (measureReal_mono ?_).trans (measureReal_union_le _ _)
    intro ω hω
    simp only [sub_zero, Set.mem_setOf_eq, Set.mem_union] at hω ⊢
    by_contra hc
    push Not at hc
    have := norm_add_le (a s ω) (b s ω)
    linarith [hc.1, hc.2]
  suffices ∀ T : Finset ι, TendstoInMeasure P (fun s ω => ∑ c ∈ T, f c s ω) l fun _ => 0 from
    this Finset.univ
  intro T
  induction T using Finset.induction with
  | empty =>
    rw [tendstoInMeasure_iff_measureReal_norm]
    intro ε hε
    have : ¬ ε ≤ 0 := not_le.2 hε
    simpa [this] using tendsto_const_nhds
  | insert c T hc ih =>
    simp only [Finset.sum_insert hc]
    exact add (h c) ih

/-- Convergence in distribution only depends on the variables eventually. -/
theorem tendstoInDistribution_congr_eventually {l : Filter κ} {Ω' : Type} [MeasurableSpace Ω']
    {P' : Measure Ω'} [IsProbabilityMeasure P'] {f g : κ → Ω → ℝ} {Z : Ω' → ℝ}
    (h : TendstoInDistribution f l Z (fun _ => P) P') (hg : ∀ s, AEMeasurable (g s) P)
    (he : ∀ᶠ s in l, f s = g s) : TendstoInDistribution g l Z (fun _ => P) P' := by
  refine ⟨hg, h.aemeasurable_limit, h.tendsto.congr' ?_⟩
  filter_upwards [he] with s hs
  apply Subtype.ext
  simp only [hs]

/-! ## Logarithms of averages -/

/-- `log u / (u - 1)`. -/
def logSlope (u : ℝ) : ℝ := if u = 1 then 1 else Real.log u / (u - 1)

theorem sub_one_mul_logSlope (u : ℝ) : (u - 1) * logSlope u = Real.log u := by
  unfold logSlope
  split_ifs with h
  · subst h; simp
  · rw [mul_div_cancel₀ _ (sub_ne_zero.2 h)]

theorem measurable_logSlope : Measurable logSlope :=
  Measurable.ite (measurableSet_singleton 1) measurable_const
    (Real.measurable_log.div (measurable_id.sub_const 1))

theorem tendsto_logSlope : Tendsto logSlope (𝓝 1) (𝓝 1) := by
  have e : logSlope = dslope Real.log 1 := by
    funext u
    unfold logSlope
    split_ifs with h
    · subst h; simp
    · rw [dslope_of_ne _ h, slope_def_field, Real.log_one, sub_zero]
  have h : ContinuousAt (dslope Real.log 1) 1 :=
    continuousAt_dslope_same.2 (Real.differentiableAt_log one_ne_zero)
  have h1 : dslope Real.log 1 1 = 1 := by simp
  rw [e]
  have := h.tendsto
  rwa [h1] at this

/-- The average of the first `m` values. -/
def avg (U : ℕ → Ω → ℝ) (m : ℕ) (ω : Ω) : ℝ := (∑ k ∈ Finset.range m, U k ω) / m

omit [IsProbabilityMeasure P] [MeasurableSpace Ω] in
theorem avg_centred (U : ℕ → Ω → ℝ) {m : ℕ} (hm : m ≠ 0) (a E : ℝ) (ω : Ω) :
    avg (fun k ω => a * (U k ω / E - 1)) m ω = a * (avg U m ω / E - 1) := by
  have : (m : ℝ) ≠ 0 := by exact_mod_cast hm
  unfold avg
  rw [← Finset.mul_sum, Finset.sum_sub_distrib, ← Finset.sum_div]
  simp only [Finset.sum_const, Finset.card_range, nsmul_eq_mul, mul_one]
  field_simp

/-- The second moment of an average of independent centred variables. -/
theorem integral_avg_sq {W : ℕ → Ω → ℝ} (hid : ∀ k, IdentDistrib (W k) (W 0) P P)
    (hindep : iIndepFun W P) (h0 : ∫ ω, W 0 ω ∂P = 0) (h2 : MemLp (W 0) 2 P) (m : ℕ) :
    MemLp (avg W m) 2 P ∧ ∫ ω, avg W m ω ^ 2 ∂P = Var[W 0; P] / m := by
  have hL : ∀ k, MemLp (W k) 2 P := fun k => ((hid k).memLp_iff).2 h2
  have hsum : MemLp (∑ k ∈ Finset.range m, W k) 2 P := memLp_finsetSum' _ fun k _ => hL k
  have e : avg W m = fun ω => (m : ℝ)⁻¹ * (∑ k ∈ Finset.range m, W k) ω := by
    funext ω
    simp [avg, div_eq_inv_mul]
  refine ⟨by rw [e]; exact hsum.const_mul _, ?_⟩
  have hmean : ∫ ω, (∑ k ∈ Finset.range m, W k) ω ∂P = 0 := by
    simp only [Finset.sum_apply]
    rw [integral_finsetSum _ fun k _ => (hL k).integrable (by norm_num)]
    exact Finset.sum_eq_zero fun k _ => ((hid k).integral_eq).trans h0
  have hv : Var[∑ k ∈ Finset.range m, W k; P] = m * Var[W 0; P] := by
    rw [IndepFun.variance_sum (fun k _ => hL k) (fun i _ j _ hij => hindep.indepFun hij)]
    rw [Finset.sum_congr rfl fun k _ => (hid k).variance_eq]
    simp
  have hv2 := variance_of_integral_eq_zero hsum.aemeasurable hmean
  rw [hv] at hv2
  rw [e]
  simp only [mul_pow]
  rw [integral_const_mul]
  rw [← hv2]
  by_cases hm : (m : ℝ) = 0
  · simp [hm]
  · field_simp

/-- The delta method for a combination of logarithms of independent averages: the error divided by the
estimate of its standard deviation tends to a standard normal variable. -/
theorem clt_log_pool [Nonempty ι] {U : ι → ℕ → Ω → ℝ}
    (hid : ∀ c k, IdentDistrib (U c k) (U c 0) P P)
    (hindep : iIndepFun (fun t : ι × ℕ => U t.1 t.2) P) {E B a : ι → ℝ}
    (hE : ∀ c, ∫ ω, U c 0 ω ∂P = E c) (hB : ∀ c, ∫ ω, U c 0 ω ^ 2 ∂P = B c)
    (h2 : ∀ c, MemLp (U c 0) 2 P) (hEpos : ∀ c, 0 < E c)
    (hV : ∀ c, 0 < a c ^ 2 * (B c / E c ^ 2 - 1)) {l : Filter κ}
    [l.IsCountablyGenerated] {M : κ → ι → ℕ} (hM : ∀ c, Tendsto (fun s => M s c) l atTop) :
    TendstoInDistribution (fun s ω =>
      (∑ c, a c * ((avg (U c) (M s c) ω / E c - 1) * logSlope (avg (U c) (M s c) ω / E c))) /
        √(∑ c, a c ^ 2 * ((avg (fun k ω => U c k ω ^ 2) (M s c) ω - avg (U c) (M s c) ω ^ 2) /
          (M s c * avg (U c) (M s c) ω ^ 2)))) l (id : ℝ → ℝ) (fun _ => P) (gaussianReal 0 1) := by
  set V : ι → ℝ := fun c => a c ^ 2 * (B c / E c ^ 2 - 1) with hVdef
  have hU : ∀ c k, AEMeasurable (U c k) P := fun c k => (hid c k).aemeasurable_fst
  have hrow : ∀ c, iIndepFun (U c) P := fun c =>
    hindep.precomp (g := fun k : ℕ => (c, k)) fun a b h => by simpa using h
  have hi1 : ∀ c, Integrable (U c 0) P := fun c => (h2 c).integrable (by norm_num)
  -- almost sure limits of the averages
  have hl1 : ∀ᵐ ω ∂P, ∀ c, Tendsto (fun m => avg (U c) m ω) atTop (𝓝 (E c)) := by
    refine ae_all_iff.2 fun c => ?_
    have := strong_law_ae_real (U c) (hi1 c) (fun i j hij => (hrow c).indepFun hij) (hid c)
    rw [hE c] at this
    exact this
  have hl2 : ∀ᵐ ω ∂P, ∀ c, Tendsto (fun m => avg (fun k ω => U c k ω ^ 2) m ω) atTop
      (𝓝 (B c)) := by
    refine ae_all_iff.2 fun c => ?_
    have hm : Measurable fun x : ℝ => x ^ 2 := by fun_prop
    have := strong_law_ae_real (fun k ω => U c k ω ^ 2) ((h2 c).integrable_sq)
      (fun i j hij => ((hrow c).indepFun hij).comp hm hm) (fun k => (hid c k).comp hm)
    rw [hB c] at this
    exact this
  -- measurability
  have hma : ∀ c m, AEMeasurable (avg (U c) m) P := fun c m =>
    (Finset.aemeasurable_fun_sum _ fun k _ => hU c k).div_const _
  have hma2 : ∀ c m, AEMeasurable (avg (fun k ω => U c k ω ^ 2) m) P := fun c m =>
    (Finset.aemeasurable_fun_sum _ fun k _ => (hU c k).pow_const 2).div_const _
  have hms : ∀ c m, AEMeasurable (fun ω => logSlope (avg (U c) m ω / E c)) P := fun c m =>
    measurable_logSlope.comp_aemeasurable ((hma c m).div_const _)
  -- the linearised sum
  let W : ι → ℕ → Ω → ℝ := fun c k ω => a c * (U c k ω / E c - 1)
  have hg : ∀ c, Measurable fun x : ℝ => a c * (x / E c - 1) := fun c => by fun_prop
  have hidW : ∀ c k, IdentDistrib (W c k) (W c 0) P P := fun c k => (hid c k).comp (hg c)
  have hindW : iIndepFun (fun t : ι × ℕ => W t.1 t.2) P :=
    hindep.comp (fun t x => a t.1 * (x / E t.1 - 1)) (fun t => hg t.1)
  have h0W : ∀ c, ∫ ω, W c 0 ω ∂P = 0 := by
    intro c
    simp only [W]
    rw [integral_const_mul, integral_sub ((hi1 c).div_const _) (integrable_const _), integral_div,
      hE c, div_self (hEpos c).ne']
    simp
  have h2W : ∀ c, MemLp (W c 0) 2 P := by
    intro c
    have : MemLp (fun ω => (E c)⁻¹ * U c 0 ω - 1) 2 P :=
      ((h2 c).const_mul _).sub (memLp_const 1)
    refine (this.const_mul (a c)).ae_eq (ae_of_all _ fun ω => ?_)
    simp only [W, div_eq_inv_mul]
  have hVW : ∀ c, Var[W c 0; P] = V c := by
    intro c
    rw [variance_of_integral_eq_zero (h2W c).aemeasurable (h0W c)]
    have e : ∀ ω, W c 0 ω ^ 2 =
        a c ^ 2 * (U c 0 ω ^ 2 / E c ^ 2 - (2 * (U c 0 ω / E c) - 1)) := by
      intro ω
      simp only [W]
      ring
    simp_rw [e]
    have i1 : Integrable (fun ω => U c 0 ω ^ 2 / E c ^ 2) P := (h2 c).integrable_sq.div_const _
    have i2 : Integrable (fun ω => 2 * (U c 0 ω / E c)) P := ((hi1 c).div_const _).const_mul 2
    have i3 : Integrable (fun ω => 2 * (U c 0 ω / E c) - 1) P := i2.sub (integrable_const _)
    rw [integral_const_mul, integral_sub i1 i3,
      integral_sub i2 (integrable_const _), integral_const_mul, integral_div, integral_div, hE c,
      hB c, div_self (hEpos c).ne']
    simp only [hVdef, integral_const, probReal_univ, smul_eq_mul]
    ring
  have hlin := clt_pool hidW hindW h0W h2W hVW hV hM
  have hge : ∀ᶠ s in l, ∀ c, 1 ≤ M s c := eventually_all.2 fun c => (hM c).eventually_ge_atTop 1
  have hpool0 : ∀ s, 0 ≤ poolVariance V (M s) := fun s =>
    Finset.sum_nonneg fun c _ => div_nonneg (hV c).le (Nat.cast_nonneg _)
  -- the remainder
  have hrem : TendstoInMeasure P (fun s ω => ∑ c, avg (W c) (M s c) ω / √(poolVariance V (M s)) *
      (logSlope (avg (U c) (M s c) ω / E c) - 1)) l fun _ => 0 := by
    refine tendstoInMeasure_sum_zero (f := fun c s ω => avg (W c) (M s c) ω /
      √(poolVariance V (M s)) * (logSlope (avg (U c) (M s c) ω / E c) - 1)) fun c => ?_
    have hrowW : iIndepFun (W c) P :=
      hindW.precomp (g := fun k : ℕ => (c, k)) fun a b h => by simpa using h
    refine tendstoInMeasure_mul_zero
      (f := fun s ω => avg (W c) (M s c) ω / √(poolVariance V (M s))) (fun s => ?_) (fun s => ?_) ?_
    · have := (integral_avg_sq (hidW c) hrowW (h0W c) (h2W c) (M s c)).1
      refine (this.const_mul (√(poolVariance V (M s)))⁻¹).ae_eq (ae_of_all _ fun ω => ?_)
      simp only [div_eq_inv_mul]
    · have := (integral_avg_sq (hidW c) hrowW (h0W c) (h2W c) (M s c)).2
      simp only [div_pow]
      rw [integral_div, this, hVW c, Real.sq_sqrt (hpool0 s)]
      exact div_le_one_of_le₀ (le_poolVariance (fun c => (hV c).le) _ _) (hpool0 s)
    · refine tendstoInMeasure_of_ae (fun s => ((hms c _).sub_const 1).aestronglyMeasurable) ?_
      filter_upwards [hl1] with ω hω
      have t1 : Tendsto (fun s => avg (U c) (M s c) ω / E c) l (𝓝 1) := by
        have := ((hω c).comp (hM c)).div_const (E c)
        rwa [div_self (hEpos c).ne'] at this
      simpa using (tendsto_logSlope.comp t1).sub_const 1
  -- the ratio of the standard deviations
  have hratio : TendstoInMeasure P (fun s ω => √(poolVariance V (M s)) /
      √(∑ c, a c ^ 2 * ((avg (fun k ω => U c k ω ^ 2) (M s c) ω - avg (U c) (M s c) ω ^ 2) /
          (M s c * avg (U c) (M s c) ω ^ 2)))) l fun _ => 1 := by
    refine tendstoInMeasure_of_ae (fun s => ?_) ?_
    · refine AEMeasurable.aestronglyMeasurable (AEMeasurable.const_div ?_ _)
      refine AEMeasurable.sqrt (Finset.aemeasurable_fun_sum _ fun c _ => AEMeasurable.const_mul ?_ _)
      exact ((hma2 c _).sub ((hma c _).pow_const 2)).div (((hma c _).pow_const 2).const_mul _)
    · filter_upwards [hl1, hl2] with ω k1 k2
      let r : ι → ℕ → ℝ := fun c m => a c ^ 2 *
        ((avg (fun k ω => U c k ω ^ 2) m ω - avg (U c) m ω ^ 2) / avg (U c) m ω ^ 2)
      have hr : ∀ c, Tendsto (r c) atTop (𝓝 (V c)) := by
        intro c
        have t := ((k2 c).sub ((k1 c).pow 2)).div ((k1 c).pow 2) (pow_ne_zero 2 (hEpos c).ne')
        have t' := t.const_mul (a c ^ 2)
        have e : V c = a c ^ 2 * ((B c - E c ^ 2) / E c ^ 2) := by
          simp only [hVdef]
          rw [sub_div, div_self (pow_ne_zero 2 (hEpos c).ne')]
        rw [e]
        exact t'
      have hsum : Tendsto (fun s => (∑ c, r c (M s c) / M s c) / poolVariance V (M s)) l
          (𝓝 1) := by
        have hz : Tendsto (fun s => ∑ c, |r c (M s c) / V c - 1|) l (𝓝 0) := by
          rw [show (0 : ℝ) = ∑ _c : ι, (0 : ℝ) by simp]
          refine tendsto_finsetSum _ fun c _ => ?_
          have := (((hr c).comp (hM c)).div_const (V c)).sub_const 1
          rw [div_self (hV c).ne', sub_self] at this
          simpa using this.abs
        rw [← tendsto_sub_nhds_zero_iff]
        refine squeeze_zero_norm' ?_ hz
        filter_upwards [hge] with s hs
        have hpos := poolVariance_pos hV hs
        have e : (∑ c, r c (M s c) / M s c) / poolVariance V (M s) - 1 =
            ∑ c, (r c (M s c) / V c - 1) * (V c / M s c / poolVariance V (M s)) := by
          have h1 : ∀ c, (r c (M s c) / V c - 1) * (V c / M s c / poolVariance V (M s)) =
              (r c (M s c) / M s c - V c / M s c) / poolVariance V (M s) := by
            intro c
            have gen : ∀ x v m p : ℝ, v ≠ 0 → (x / v - 1) * (v / m / p) = (x / m - v / m) / p := by
              intro x v m p hv
              have : (x / v - 1) * (v / m / p) = (x / v * v - v) / m / p := by ring
              rw [this, div_mul_cancel₀ _ hv]
              ring
            exact gen _ _ _ _ (hV c).ne'
          rw [Finset.sum_congr rfl fun c _ => h1 c, ← Finset.sum_div, Finset.sum_sub_distrib]
          rw [show (∑ c, V c / (M s c : ℝ)) = poolVariance V (M s) from rfl, sub_div,
            div_self hpos.ne']
        rw [e]
        refine (norm_sum_le _ _).trans (Finset.sum_le_sum fun c _ => ?_)
        rw [norm_mul, Real.norm_eq_abs]
        refine mul_le_of_le_one_right (abs_nonneg _) ?_
        rw [Real.norm_eq_abs, abs_of_nonneg (div_nonneg (div_nonneg (hV c).le (Nat.cast_nonneg _))
          (hpool0 s))]
        exact div_le_one_of_le₀ (le_poolVariance (fun c => (hV c).le) _ _) (hpool0 s)
      have hs := (Real.continuous_sqrt.tendsto 1).comp hsum
      rw [Real.sqrt_one] at hs
      have hi := hs.inv₀ one_ne_zero
      rw [inv_one] at hi
      refine hi.congr fun s => ?_
      simp only [Function.comp_apply]
      rw [Real.sqrt_div' _ (hpool0 s), inv_div]
      congr 2
      refine Finset.sum_congr rfl fun c _ => ?_
      simp only [r]
      rw [mul_div_assoc, div_div, mul_comm (avg (U c) (M s c) ω ^ 2)]
  have hratm : ∀ s, AEMeasurable (fun ω => √(poolVariance V (M s)) /
      √(∑ c, a c ^ 2 * ((avg (fun k ω => U c k ω ^ 2) (M s c) ω - avg (U c) (M s c) ω ^ 2) /
          (M s c * avg (U c) (M s c) ω ^ 2)))) P := by
    intro s
    refine AEMeasurable.const_div ?_ _
    refine AEMeasurable.sqrt (Finset.aemeasurable_fun_sum _ fun c _ => AEMeasurable.const_mul ?_ _)
    exact ((hma2 c _).sub ((hma c _).pow_const 2)).div (((hma c _).pow_const 2).const_mul _)
  have hmW : ∀ c m, AEMeasurable (avg (W c) m) P := fun c m =>
    (Finset.aemeasurable_fun_sum _ fun k _ => (hidW c k).aemeasurable_fst).div_const _
  have hfull := tendstoInDistribution_of_tendstoInMeasure_sub
    (fun s ω => ∑ c, avg (W c) (M s c) ω / √(poolVariance V (M s)) *
      logSlope (avg (U c) (M s c) ω / E c)) id hlin ?_ ?_
  · have hprod := hfull.continuous_comp_prodMk_of_tendstoInMeasure_const
      (g := fun x : ℝ × ℝ => x.1 * x.2) (by fun_prop) hratio hratm
    simp only [mul_one] at hprod
    refine tendstoInDistribution_congr_eventually hprod (fun s => ?_) ?_
    · refine AEMeasurable.div (Finset.aemeasurable_fun_sum _ fun c _ => AEMeasurable.const_mul
        ((((hma c _).div_const _).sub_const 1).mul (hms c _)) _) ?_
      refine AEMeasurable.sqrt (Finset.aemeasurable_fun_sum _ fun c _ => AEMeasurable.const_mul ?_ _)
      exact ((hma2 c _).sub ((hma c _).pow_const 2)).div (((hma c _).pow_const 2).const_mul _)
    · filter_upwards [hge] with s hs
      have hpos := Real.sqrt_pos.2 (poolVariance_pos hV hs)
      funext ω
      have e : ∀ c, avg (W c) (M s c) ω = a c * (avg (U c) (M s c) ω / E c - 1) := fun c =>
        avg_centred _ (by have := hs c; omega) _ _ _
      simp only [e]
      rw [← mul_div_assoc, Finset.sum_mul]
      congr 1
      refine Finset.sum_congr rfl fun c _ => ?_
      have gen : ∀ x y z w : ℝ, z ≠ 0 → x * y / z * w * z = x * (y * w) := by
        intro x y z w hz
        field_simp
      exact gen _ _ _ _ hpos.ne'
  · refine hrem.congr_left fun s => ae_of_all _ fun ω => ?_
    simp only [Pi.sub_apply, mul_sub, mul_one, Finset.sum_sub_distrib]
    congr 1
    rw [Finset.sum_div]
    rfl
  · intro s
    exact Finset.aemeasurable_fun_sum _ fun c _ => ((hmW c _).div_const _).mul (hms c _)

end GW
