import Verif.Props.Consistency

/-!
# Sets of injections put together (C116)
-/

noncomputable section

open MeasureTheory ProbabilityTheory Filter Topology Classical

namespace GW

open Fl Spec

variable {S Ω : Type} [MeasurableSpace S] [MeasurableSpace Ω]

/-! ## Specification -/

/-- The density listed as prior of injections of which the `i`-th was drawn from `q i`: their average. -/
def Spec.averageDensity (q : ℕ → S → ℝ) (N : ℕ) (x : S) : ℝ := (∑ i ∈ Finset.range N, q i x) / N

/-- `X 0, ..., X (N - 1)` are random injections, the `i`-th drawn from the density `q i` with respect to `ν`; the
population density `p` is integrable over the found ones, each of which some of the densities could give. -/
structure Spec.MixedCampaign (P : Measure Ω) (ν : Measure S) (p : S → ℝ) (q : ℕ → S → ℝ) (D : Set S)
    (X : ℕ → Ω → S) (N : ℕ) : Prop where
  measurable_p : Measurable p
  measurable_q : ∀ i, Measurable (q i)
  nonneg : ∀ i x, 0 ≤ q i x
  measurable_D : MeasurableSet D
  pos : ∀ x ∈ D, 0 < averageDensity q N x
  measurable_X : ∀ i, Measurable (X i)
  law : ∀ i < N, P.map (X i) = ν.withDensity fun x => ENNReal.ofReal (q i x)
  integrable : IntegrableOn p D ν

/-- The estimate `ab` (efficiency and variance) from `N` and `M` injections put together, in terms of the estimates
`a` and `b`: the weighted mean, and the propagated variance plus what the difference of the two estimates shows. -/
def Spec.PooledEstimate (N M : ℝ) (a b ab : ℝ × ℝ) : Prop :=
  ab.1 = (N * a.1 + M * b.1) / (N + M) ∧
  ab.2 = (N ^ 2 * a.2 + M ^ 2 * b.2) / (N + M) ^ 2 + N * M * (a.1 - b.1) ^ 2 / (N + M) ^ 3

namespace PooledInjections

/-- **C116, one density.** For every population model, all injections and all found ones: the efficiency estimated from
two sets put together is the mean weighted by the numbers generated, and the variance never is smaller than the
propagated one. -/
theorem C116_pooled {θ : Dict Fl} {p q : S → ℝ} {D : Set S} {A B : List S} (hA : A ≠ []) (hB : B ≠ [])
    (hpos : ∀ x ∈ D, 0 < q x) {vtA vtB vtAB : ResamplingVT} (h1 : BuiltFrom vtA θ p q D A)
    (h2 : BuiltFrom vtB θ p q D B) (h3 : BuiltFrom vtAB θ p q D (A ++ B)) : ∃ a b ab : ℝ × ℝ,
      vtA.detectionEfficiency θ = .ok (fin a.1, fin a.2) ∧
      vtB.detectionEfficiency θ = .ok (fin b.1, fin b.2) ∧
      vtAB.detectionEfficiency θ = .ok (fin ab.1, fin ab.2) ∧
      PooledEstimate A.length B.length a b ab := by
  have hN : (0 : ℝ) < A.length := Nat.cast_pos.2 (List.length_pos_iff.2 hA)
  have hM : (0 : ℝ) < B.length := Nat.cast_pos.2 (List.length_pos_iff.2 hB)
  have e1 := built_efficiency h1 hpos hA
  have e2 := built_efficiency h2 hpos hB
  have e3 := built_efficiency h3 hpos (by simp [hA])
  refine ⟨(_, _), (_, _), (_, _), e1, e2, e3, ?_, ?_⟩
  · simp only [List.map_append, List.sum_append, List.length_append, Nat.cast_add]
    field_simp
  · simp only [List.map_append, List.sum_append, List.length_append, Nat.cast_add]
    generalize (A.map (injectionWeight p q D)).sum = sa
    generalize (B.map (injectionWeight p q D)).sum = sb
    generalize (A.map fun x => injectionWeight p q D x ^ 2).sum = ta
    generalize (B.map fun x => injectionWeight p q D x ^ 2).sum = tb
    field_simp
    ring

/-- Copies of a set of injections: the same efficiency, and the variance divided by the number of copies. -/
theorem C116_copies {θ : Dict Fl} {p q : S → ℝ} {D : Set S} {A : List S} (hA : A ≠ [])
    (hpos : ∀ x ∈ D, 0 < q x) {n : ℕ} (hn : 1 ≤ n) {vt vt' : ResamplingVT} (h1 : BuiltFrom vt θ p q D A)
    (h2 : BuiltFrom vt' θ p q D (List.replicate n A).flatten) : ∃ mu var : ℝ,
      vt.detectionEfficiency θ = .ok (fin mu, fin var) ∧
      vt'.detectionEfficiency θ = .ok (fin mu, fin (var / n)) := by
  have hn0 : (0 : ℝ) < n := Nat.cast_pos.2 (by omega)
  have hN : (0 : ℝ) < A.length := Nat.cast_pos.2 (List.length_pos_iff.2 hA)
  have hne : (List.replicate n A).flatten ≠ [] := by
    intro h
    rw [List.flatten_eq_nil_iff] at h
    exact hA (h A (List.mem_replicate.2 ⟨by omega, rfl⟩))
  have hs : ∀ f : S → ℝ, ((List.replicate n A).flatten.map f).sum = n * (A.map f).sum := by
    intro f
    clear hn hn0 hne h2
    induction n with
    | zero => simp
    | succ n ih => rw [List.replicate_succ, List.flatten_cons, List.map_append, List.sum_append, ih]; push_cast; ring
  have hl : ((List.replicate n A).flatten.length : ℝ) = n * A.length := by
    rw [List.length_flatten]; simp
  refine ⟨_, _, built_efficiency h1 hpos hA, ?_⟩
  rw [built_efficiency h2 hpos hne, hs, hs, hl]
  congr 3
  · field_simp
  · field_simp

variable {P : Measure Ω} {ν : Measure S} {p : S → ℝ} {q : ℕ → S → ℝ} {D : Set S} {X : ℕ → Ω → S} {N : ℕ}

theorem average_le {i : ℕ} (hi : i < N) (h0 : ∀ i x, 0 ≤ q i x) (x : S) : q i x ≤ N * averageDensity q N x := by
  have hN : (0 : ℝ) < N := Nat.cast_pos.2 (by omega)
  unfold averageDensity
  rw [mul_div_cancel₀ _ hN.ne']
  exact Finset.single_le_sum (f := fun i => q i x) (fun j _ => h0 j x) (Finset.mem_range.2 hi)

theorem measurable_average (h : MixedCampaign P ν p q D X N) : Measurable (averageDensity q N) := by
  unfold averageDensity
  exact (Finset.measurable_fun_sum _ fun i _ => h.measurable_q i).div_const _

theorem measurable_weight (h : MixedCampaign P ν p q D X N) :
    Measurable (injectionWeight p (averageDensity q N) D) :=
  (h.measurable_p.div (measurable_average h)).indicator h.measurable_D

/-- The weight times the density of the `i`-th injection. -/
theorem weight_density (h : MixedCampaign P ν p q D X N) (i : ℕ) (f : ℝ → ℝ) (hf : f 0 = 0) (x : S) :
    (ENNReal.ofReal (q i x)).toReal • f (injectionWeight p (averageDensity q N) D x) =
      D.indicator (fun x => q i x * f (p x / averageDensity q N x)) x := by
  rw [ENNReal.toReal_ofReal (h.nonneg i x), smul_eq_mul]
  by_cases hx : x ∈ D <;> simp [injectionWeight, hx, hf]

theorem integrable_density (h : MixedCampaign P ν p q D X N) {i : ℕ} (hi : i < N) :
    IntegrableOn (fun x => q i x * (p x / averageDensity q N x)) D ν := by
  have hN : (0 : ℝ) < N := Nat.cast_pos.2 (by omega)
  refine Integrable.mono' (h.integrable.norm.const_mul (N : ℝ))
    ((h.measurable_q i).mul (h.measurable_p.div (measurable_average h))).aestronglyMeasurable ?_
  refine (ae_restrict_iff' h.measurable_D).2 (ae_of_all _ fun x hx => ?_)
  have hp := h.pos x hx
  rw [norm_mul, norm_div, Real.norm_of_nonneg (h.nonneg i x), Real.norm_of_nonneg hp.le, mul_div_assoc', div_le_iff₀ hp]
  calc q i x * ‖p x‖ ≤ N * averageDensity q N x * ‖p x‖ :=
        mul_le_mul_of_nonneg_right (average_le hi h.nonneg x) (norm_nonneg _)
    _ = N * ‖p x‖ * averageDensity q N x := by ring

theorem integrable_density_sq (h : MixedCampaign P ν p q D X N)
    (h2 : IntegrableOn (fun x => p x ^ 2 / averageDensity q N x) D ν) {i : ℕ} (hi : i < N) :
    IntegrableOn (fun x => q i x * (p x / averageDensity q N x) ^ 2) D ν := by
  have hN : (0 : ℝ) < N := Nat.cast_pos.2 (by omega)
  refine Integrable.mono' (h2.const_mul (N : ℝ))
    ((h.measurable_q i).mul ((h.measurable_p.div (measurable_average h)).pow_const 2)).aestronglyMeasurable ?_
  refine (ae_restrict_iff' h.measurable_D).2 (ae_of_all _ fun x hx => ?_)
  have hp := h.pos x hx
  rw [Real.norm_of_nonneg (mul_nonneg (h.nonneg i x) (sq_nonneg _))]
  calc q i x * (p x / averageDensity q N x) ^ 2 ≤ N * averageDensity q N x * (p x / averageDensity q N x) ^ 2 :=
        mul_le_mul_of_nonneg_right (average_le hi h.nonneg x) (sq_nonneg _)
    _ = N * (p x ^ 2 / averageDensity q N x) := by field_simp

theorem integral_weight (h : MixedCampaign P ν p q D X N) {i : ℕ} (hi : i < N) :
    ∫ ω, injectionWeight p (averageDensity q N) D (X i ω) ∂P =
      ∫ x in D, q i x * (p x / averageDensity q N x) ∂ν := by
  rw [← integral_map (h.measurable_X i).aemeasurable (measurable_weight h).aestronglyMeasurable, h.law i hi,
    integral_withDensity_eq_integral_toReal_smul (h.measurable_q i).ennreal_ofReal
      (ae_of_all _ fun _ => ENNReal.ofReal_lt_top)]
  simp_rw [weight_density h i (fun y => y) rfl]
  rw [integral_indicator h.measurable_D]

theorem integrable_weight (h : MixedCampaign P ν p q D X N) {i : ℕ} (hi : i < N) :
    Integrable (fun ω => injectionWeight p (averageDensity q N) D (X i ω)) P := by
  have : Integrable (injectionWeight p (averageDensity q N) D) (P.map (X i)) := by
    rw [h.law i hi, integrable_withDensity_iff_integrable_smul' (h.measurable_q i).ennreal_ofReal
      (ae_of_all _ fun _ => ENNReal.ofReal_lt_top)]
    simp_rw [weight_density h i (fun y => y) rfl]
    exact (integrable_density h hi).integrable_indicator h.measurable_D
  exact this.comp_measurable (h.measurable_X i)

theorem memLp_weight (h : MixedCampaign P ν p q D X N)
    (h2 : IntegrableOn (fun x => p x ^ 2 / averageDensity q N x) D ν) {i : ℕ} (hi : i < N) :
    MemLp (fun ω => injectionWeight p (averageDensity q N) D (X i ω)) 2 P := by
  refine (memLp_two_iff_integrable_sq
    ((measurable_weight h).comp (h.measurable_X i)).aestronglyMeasurable).2 ?_
  have : Integrable (fun x => injectionWeight p (averageDensity q N) D x ^ 2) (P.map (X i)) := by
    rw [h.law i hi, integrable_withDensity_iff_integrable_smul' (h.measurable_q i).ennreal_ofReal
      (ae_of_all _ fun _ => ENNReal.ofReal_lt_top)]
    simp_rw [weight_density h i (fun y => y ^ 2) (by norm_num)]
    exact (integrable_density_sq h h2 hi).integrable_indicator h.measurable_D
  exact this.comp_measurable (h.measurable_X i)

/-- Mean of the variance estimate for independent weights: on average not smaller than `1 - 1/N` times the variance. -/
theorem variance_estimate_ge [IsProbabilityMeasure P] {W : ℕ → Ω → ℝ} (hN : 1 ≤ N)
    (hL : ∀ i < N, MemLp (W i) 2 P) (hind : ∀ i < N, ∀ j < N, i ≠ j → W i ⟂ᵢ[P] W j) :
    (1 - 1 / (N : ℝ)) * Var[fun ω => (∑ i ∈ Finset.range N, W i ω) / N; P] ≤
    ∫ ω, ((∑ i ∈ Finset.range N, W i ω ^ 2) / (N : ℝ) ^ 2 -
        ((∑ i ∈ Finset.range N, W i ω) / N) ^ 2 / N) ∂P := by
  have hN0 : (0 : ℝ) < N := Nat.cast_pos.2 (by omega)
  have hL' : ∀ i ∈ Finset.range N, MemLp (W i) 2 P := fun i hi => hL i (Finset.mem_range.1 hi)
  have hsum : MemLp (∑ i ∈ Finset.range N, W i) 2 P := memLp_finsetSum' _ hL'
  have h1 : (fun ω => (∑ i ∈ Finset.range N, W i ω) / N) =
      fun ω => (N : ℝ)⁻¹ * (∑ i ∈ Finset.range N, W i) ω := by
    funext ω; simp [Finset.sum_apply, div_eq_inv_mul]
  have hmu : MemLp (fun ω => (∑ i ∈ Finset.range N, W i ω) / N) 2 P := by
    rw [h1]
    exact hsum.const_mul (N : ℝ)⁻¹
  have hsq : ∀ i ∈ Finset.range N, Integrable (fun ω => W i ω ^ 2) P := fun i hi => (hL' i hi).integrable_sq
  have hi : ∀ i ∈ Finset.range N, Integrable (W i) P := fun i hi => (hL' i hi).integrable one_le_two
  have hE : ∫ ω, (∑ i ∈ Finset.range N, W i ω) / N ∂P = (∑ i ∈ Finset.range N, ∫ ω, W i ω ∂P) / N := by
    rw [integral_div, integral_finsetSum _ hi]
  have hV : Var[fun ω => (∑ i ∈ Finset.range N, W i ω) / N; P] =
      (∑ i ∈ Finset.range N, ∫ ω, W i ω ^ 2 ∂P - ∑ i ∈ Finset.range N, (∫ ω, W i ω ∂P) ^ 2) / N ^ 2 := by
    rw [h1, variance_const_mul, IndepFun.variance_sum hL']
    · rw [← Finset.sum_sub_distrib]
      have : ∀ i ∈ Finset.range N, Var[W i; P] = ∫ ω, W i ω ^ 2 ∂P - (∫ ω, W i ω ∂P) ^ 2 := by
        intro i hi
        rw [variance_eq_sub (hL' i hi)]
        simp only [Pi.pow_apply]
      rw [Finset.sum_congr rfl this]
      field_simp
    · intro i hi j hj hij
      exact hind i (by simpa using hi) j (by simpa using hj) hij
  have hV' := variance_eq_sub hmu
  simp only [Pi.pow_apply] at hV'
  rw [hE, hV] at hV'
  rw [integral_sub ((integrable_finsetSum _ hsq).div_const _) (hmu.integrable_sq.div_const _), integral_div,
    integral_div, integral_finsetSum _ hsq, hV]
  set s2 := ∑ i ∈ Finset.range N, ∫ ω, W i ω ^ 2 ∂P
  set m2 := ∑ i ∈ Finset.range N, (∫ ω, W i ω ∂P) ^ 2 with hm2
  set m1 := ∑ i ∈ Finset.range N, ∫ ω, W i ω ∂P with hm1
  have hcs : m1 ^ 2 ≤ N * m2 := by
    have := sq_sum_le_card_mul_sum_sq (s := Finset.range N) (f := fun i => ∫ ω, W i ω ∂P)
    rwa [Finset.card_range] at this
  have hm : ∫ ω, ((∑ i ∈ Finset.range N, W i ω) / N) ^ 2 ∂P = (s2 - m2) / N ^ 2 + (m1 / N) ^ 2 := by linarith
  rw [hm]
  have : (s2 / (N : ℝ) ^ 2 - ((s2 - m2) / N ^ 2 + (m1 / N) ^ 2) / N) - (1 - 1 / (N : ℝ)) * ((s2 - m2) / N ^ 2) =
      (N * m2 - m1 ^ 2) / N ^ 3 := by
    field_simp
    ring
  have h0 : 0 ≤ (N * m2 - m1 ^ 2) / (N : ℝ) ^ 3 := by
    apply div_nonneg (by linarith) (by positivity)
  linarith

/-- **C116, different densities.** Injections drawn from different densities, all listed with the average of the
densities as their prior: the efficiency is an unbiased estimate of the fraction of the population that is found, and
for pairwise independent injections and square integrable weights the reported variance is, on average, at least
`1 - 1/N` times the true variance. -/
theorem C116_mixture [IsProbabilityMeasure P] (h : MixedCampaign P ν p q D X N) (hN : 1 ≤ N)
    {θ : Dict Fl} {vt : Ω → ResamplingVT}
    (hvt : ∀ ω, BuiltFrom (vt ω) θ p (averageDensity q N) D (firstN X N ω)) :
    ∃ mu var : Ω → ℝ,
      (∀ ω, (vt ω).detectionEfficiency θ = .ok (fin (mu ω), fin (var ω))) ∧
      Integrable mu P ∧ ∫ ω, mu ω ∂P = ∫ x in D, p x ∂ν ∧
      ((∀ i < N, ∀ j < N, i ≠ j → X i ⟂ᵢ[P] X j) →
        IntegrableOn (fun x => p x ^ 2 / averageDensity q N x) D ν →
        (1 - 1 / (N : ℝ)) * Var[mu; P] ≤ ∫ ω, var ω ∂P) := by
  have hN0 : (0 : ℝ) < N := Nat.cast_pos.2 (by omega)
  refine ⟨fun ω => (∑ i ∈ Finset.range N, injectionWeight p (averageDensity q N) D (X i ω)) / N,
    fun ω => (∑ i ∈ Finset.range N, injectionWeight p (averageDensity q N) D (X i ω) ^ 2) / (N : ℝ) ^ 2 -
      ((∑ i ∈ Finset.range N, injectionWeight p (averageDensity q N) D (X i ω)) / N) ^ 2 / N, ?_, ?_, ?_, ?_⟩
  · intro ω
    have hne : firstN X N ω ≠ [] := by
      unfold firstN
      simp
      omega
    rw [built_efficiency (hvt ω) h.pos hne]
    simp only [firstN, List.map_map, Function.comp_def, sum_list_range, List.length_map,
      List.length_range]
  · exact (integrable_finsetSum _ fun i hi => integrable_weight h (Finset.mem_range.1 hi)).div_const _
  · rw [integral_div, integral_finsetSum _ fun i hi => integrable_weight h (Finset.mem_range.1 hi),
      Finset.sum_congr rfl fun i hi => integral_weight h (Finset.mem_range.1 hi),
      ← integral_finsetSum _ fun i hi => integrable_density h (Finset.mem_range.1 hi), ← integral_div]
    refine setIntegral_congr_fun h.measurable_D fun x hx => ?_
    have hp := h.pos x hx
    show (∑ i ∈ Finset.range N, q i x * (p x / averageDensity q N x)) / N = p x
    rw [← Finset.sum_mul]
    have : ∑ i ∈ Finset.range N, q i x = N * averageDensity q N x := by
      unfold averageDensity; field_simp
    rw [this]
    field_simp
  · intro hind h2
    exact variance_estimate_ge (W := fun i ω => injectionWeight p (averageDensity q N) D (X i ω)) hN
      (fun i hi => memLp_weight h h2 hi)
      fun i hi j hj hij => (hind i hi j hj hij).comp (measurable_weight h) (measurable_weight h)

/-! ## Non-vacuity -/

/-- `C116_pooled` for two injections, one of them not found, and a third one: efficiencies 1/2, 3 and 4/3. -/
example (planck15 : Cosmology) : ∃ vtA vtB vtAB : ResamplingVT,
    vtAB.detectionEfficiency [] = .ok (fin (4 / 3), fin (10 / 9 - 16 / 27)) ∧
    ∃ a b ab : ℝ × ℝ, vtA.detectionEfficiency [] = .ok (fin a.1, fin a.2) ∧
      vtB.detectionEfficiency [] = .ok (fin b.1, fin b.2) ∧
      vtAB.detectionEfficiency [] = .ok (fin ab.1, fin ab.2) ∧ PooledEstimate 2 1 a b ab := by
  obtain ⟨vtA, hA, -⟩ := exists_built planck15 [] (fun x : ℝ => x) (fun _ => 1) (Set.Ioi 0) [1, -1] false true pinf
  obtain ⟨vtB, hB, -⟩ := exists_built planck15 [] (fun x : ℝ => x) (fun _ => 1) (Set.Ioi 0) [3] false true pinf
  obtain ⟨vtAB, hAB, -⟩ := exists_built planck15 [] (fun x : ℝ => x) (fun _ => 1) (Set.Ioi 0) ([1, -1] ++ [3]) false
    true pinf
  refine ⟨vtA, vtB, vtAB, ?_, ?_⟩
  · rw [built_efficiency hAB (fun _ _ => one_pos) (by simp)]
    have h1 : injectionWeight (fun x : ℝ => x) (fun _ => 1) (Set.Ioi 0) 1 = 1 := by simp [injectionWeight]
    have h2 : injectionWeight (fun x : ℝ => x) (fun _ => 1) (Set.Ioi 0) (-1) = 0 := by
      simp [injectionWeight, Set.indicator]
    have h3 : injectionWeight (fun x : ℝ => x) (fun _ => 1) (Set.Ioi 0) 3 = 3 := by simp [injectionWeight]
    simp only [List.cons_append, List.nil_append, List.map_cons, List.map_nil, List.sum_cons, List.sum_nil, h1, h2, h3,
      List.length_cons, List.length_nil]
    norm_num
  · have := C116_pooled (by simp) (by simp) (fun _ _ => one_pos) hA hB hAB
    simpa using this

/-- The hypotheses of `C116_mixture` hold: one injection uniform on the unit interval and one with density `2 x`. -/
example (planck15 : Cosmology) : ∃ (P : Measure (ℝ × ℝ)) (_ : IsProbabilityMeasure P) (vt : ℝ × ℝ → ResamplingVT)
    (mu : ℝ × ℝ → ℝ), (∀ ω, ∃ var, (vt ω).detectionEfficiency [] = .ok (fin (mu ω), fin var)) ∧
      ∫ ω, mu ω ∂P = 3 / 4 := by
  set ν : Measure ℝ := volume.restrict (Set.Ioc 0 1) with hν
  set q : ℕ → ℝ → ℝ := fun i x => if i = 1 then max (2 * x) 0 else 1 with hq
  have hqm : ∀ i, Measurable (q i) := by
    intro i
    by_cases hi : i = 1
    · simp only [hq, if_pos hi]; fun_prop
    · simp only [hq, if_neg hi]; fun_prop
  have hmass : ∀ i, ∫ x, q i x ∂ν = 1 := by
    intro i
    by_cases hi : i = 1
    · simp only [hq, if_pos hi]
      rw [hν, setIntegral_congr_fun (g := fun x : ℝ => 2 * x) measurableSet_Ioc fun x hx => max_eq_left (by
        have := hx.1; linarith), ← intervalIntegral.integral_of_le (by norm_num),
        intervalIntegral.integral_const_mul, integral_id]
      norm_num
    · simp only [hq, if_neg hi]
      simp [hν]
  have hcont : ∀ f : ℝ → ℝ, Continuous f → Integrable f ν := fun f hf =>
    (hf.integrableOn_Icc).mono_set Set.Ioc_subset_Icc_self
  have hqc : ∀ i, Continuous (q i) := by
    intro i
    by_cases hi : i = 1
    · simp only [hq, if_pos hi]; fun_prop
    · simp only [hq, if_neg hi]; fun_prop
  have hq0 : ∀ i x, 0 ≤ q i x := by
    intro i x
    simp only [hq]
    split_ifs
    · exact le_max_right _ _
    · exact zero_le_one
  have hprob : ∀ i, IsProbabilityMeasure (ν.withDensity fun x => ENNReal.ofReal (q i x)) := by
    intro i
    refine ⟨?_⟩
    rw [withDensity_apply _ MeasurableSet.univ, Measure.restrict_univ,
      ← ofReal_integral_eq_lintegral_ofReal (hcont _ (hqc i)) (ae_of_all _ (hq0 i)), hmass i]
    simp
  have := hprob 0
  have := hprob 1
  set P : Measure (ℝ × ℝ) := (ν.withDensity fun x => ENNReal.ofReal (q 0 x)).prod
    (ν.withDensity fun x => ENNReal.ofReal (q 1 x)) with hP
  set X : ℕ → ℝ × ℝ → ℝ := fun i ω => if i = 1 then ω.2 else ω.1 with hX
  have hXm : ∀ i, Measurable (X i) := by
    intro i
    by_cases hi : i = 1
    · simp only [hX, if_pos hi]; fun_prop
    · simp only [hX, if_neg hi]; fun_prop
  set D : Set ℝ := Set.Ioc (1 / 2) 1 with hD
  have hc : MixedCampaign P ν (fun x => 2 * x) q D X 2 := by
    refine ⟨by fun_prop, hqm, hq0, measurableSet_Ioc, ?_, hXm, ?_, (hcont _ (by fun_prop)).integrableOn⟩
    · intro x _
      unfold averageDensity
      rw [Finset.sum_range_succ, Finset.sum_range_one]
      have h1 : q 0 x = 1 := by simp [hq]
      have := hq0 1 x
      rw [h1]
      positivity
    · intro i hi
      interval_cases i
      · exact Measure.map_fst_prod.trans (by simp)
      · exact Measure.map_snd_prod.trans (by simp)
  choose vt hvt using fun ω : ℝ × ℝ =>
    exists_built planck15 [] (fun x : ℝ => 2 * x) (averageDensity q 2) D (firstN X 2 ω) false true pinf
  obtain ⟨mu, var, h1, -, h3, -⟩ := C116_mixture hc (by norm_num) (θ := []) (vt := vt) fun ω => (hvt ω).1
  refine ⟨P, inferInstance, vt, mu, fun ω => ⟨_, h1 ω⟩, ?_⟩
  rw [h3, hν, Measure.restrict_restrict measurableSet_Ioc]
  have hinter : D ∩ Set.Ioc 0 1 = Set.Ioc (1 / 2) 1 := by
    ext x
    simp only [hD, Set.mem_inter_iff, Set.mem_Ioc]
    constructor
    · exact fun h => h.1
    · exact fun h => ⟨h, by linarith [h.1], h.2⟩
  rw [hinter, ← intervalIntegral.integral_of_le (by norm_num), intervalIntegral.integral_const_mul, integral_id]
  norm_num

end PooledInjections

end GW
