import Verif.Props.CombinedErrors

/-!
# C172: masses, redshifts, tilts and spin magnitudes analysed together
-/

noncomputable section

open MeasureTheory ProbabilityTheory Filter Topology Set

namespace GW

open Fl Spec TruePopulation Posterior GaussianErrors

/-! ## Lemmas -/

namespace Combined

variable {X : Type} [MeasureSpace X] {H : X → Except PyErr Fl} {p p' : X → ℝ} {S : Set X}

theorem density_key (hS : MeasurableSet S) (hH : IsDensityOn H S) (hp : ∀ x ∈ S, H x = .ok (fin (p x))) :
    (∀ x ∈ S, 0 ≤ p x) ∧ IntegrableOn p S ∧ ∫ x in S, p x = 1 := by
  obtain ⟨g, e, hg, gi, g1⟩ := hH
  have eg : ∀ x ∈ S, g x = p x := fun x hx => Fl.fin.inj (Except.ok.inj ((e x hx).symm.trans (hp x hx)))
  exact ⟨fun x hx => eg x hx ▸ hg x hx, gi.congr_fun eg hS, by rw [← setIntegral_congr_fun hS eg, g1]⟩

theorem density_some (hS : MeasurableSet S) (hH : IsDensityOn H S) (hp : ∀ x ∈ S, H x = .ok (fin (p x)))
    (hm : Measurable p) : SomePopulation (volume.restrict S) p := by
  obtain ⟨h1, h2, h3⟩ := density_key hS hH hp
  exact ⟨hm, (ae_restrict_iff' hS).2 (ae_of_all _ h1), h2, by rw [h3]; exact one_pos⟩

theorem density_multiple {H' : X → Except PyErr Fl} (hS : MeasurableSet S) (hH : IsDensityOn H S)
    (hp : ∀ x ∈ S, H x = .ok (fin (p x))) (hH' : IsDensityOn H' S) (hp' : ∀ x ∈ S, H' x = .ok (fin (p' x)))
    (h : MultipleOf (volume.restrict S) p p') : ∀ᵐ x ∂volume.restrict S, p x = p' x := by
  obtain ⟨k, -, e⟩ := h
  have h1 := (density_key hS hH hp).2.2
  rw [integral_congr_ae e, integral_const_mul, (density_key hS hH' hp').2.2, mul_one] at h1
  filter_upwards [e] with x hx
  rw [hx, h1, one_mul]

end Combined

open Combined SmoothedAny RedshiftErrors SeveralErrors

/-! ## The property -/

/-- **C172.** The whole analysis: primary mass and mass ratio with any smoothed mass model, redshift with any rate of the
package, both tilts, and both spin magnitudes, seven quantities measured with Gaussian errors, where detection may depend
on all of them at once. The posterior is concentrated on the true candidate: the parameters of all four models are found
together. -/
theorem C172_full {J : Type} [Fintype J] {j₀ : J} {b : Backend} {prim : Primary} {fixed : Dict Fl}
    {selfMin selfMax : ℝ} {nM nQ : ℕ} {cache : Bool} {sm : Smoothed} {kw : J → Dict Fl} {F : J → ℝ → ℝ}
    {beta lo hi d : J → ℝ} {D : ℝ} {s : J → Redshift} {φ : J → Dict Fl} {psi : J → ℝ → ℝ} {Z : ℝ} {v : ℝ → ℝ}
    {xi s1 s2 al1 al2 be1 be2 A1 A2 : J → ℝ} {K : ℝ} (junk : Fl → Fl → Fl) (rest rest' : Dict Fl)
    {pm pt pa : J → ℝ × ℝ → ℝ} {pz : J → ℝ → ℝ} {v₁ v₂ w u₁ u₂ t₁ t₂ : NNReal}
    {Det : Set (((ℝ × ℝ) × ℝ) × ((ℝ × ℝ) × (ℝ × ℝ)))}
    -- masses
    (hsm : Smoothed.init prim fixed selfMin selfMax nM nQ cache = .ok sm) (hself : 0 < selfMin)
    (hlt : selfMin < selfMax) (hk : ∀ j, SmoothedFits b sm (kw j) (F j) (beta j) (lo j) (hi j) (d j))
    (h : ∀ j, lo j + D < hi j) (hdD : ∀ j, d j ≤ D)
    (hp : ∀ j m q, 0 < m → m ≤ selfMax → m ≠ lo j → 0 < q → q ≤ 1 →
      (Smoothed.call b sm [(fin m, fin q)] (kw j)).1 = .ok [fin (pm j (m, q))])
    -- redshift
    (hr : ∀ j, RateAt (s j) (φ j) (psi j) v) (hz : ∀ j, 1e-6 < (s j).zMax) (hZ : ∀ j, (s j).zMax ≤ Z)
    (hcont : ∀ j, ContinuousOn (psi j) (Ici 0)) (v_cont : ContinuousOn v (Ici 0))
    (hpz : ∀ j z, 0 ≤ z → (s j).probability [("redshift", fin z)] (φ j) = .ok (fin (pz j z)))
    -- tilts
    (x0 : ∀ j, 0 < xi j) (x1 : ∀ j, xi j < 1) (hs1 : ∀ j, 0 < s1 j) (hs2 : ∀ j, 0 < s2 j)
    (hpt : ∀ j z1 z2, |z1| ≤ 1 → |z2| ≤ 1 → independentSpinOrientation b (tiltData (fin z1) (fin z2) rest)
      (fin (xi j)) (fin (s1 j)) (fin (s2 j)) = .ok (fin (pt j (z1, z2))))
    -- magnitudes
    (ha1 : ∀ j, 0 < al1 j) (ha2 : ∀ j, 0 < al2 j) (hb1 : ∀ j, 0 < be1 j) (hb2 : ∀ j, 0 < be2 j) (hA1 : ∀ j, 0 < A1 j)
    (hA2 : ∀ j, 0 < A2 j) (hK1 : ∀ j, A1 j ≤ K) (hK2 : ∀ j, A2 j ≤ K)
    (hpa : ∀ j x y, x ∈ Icc 0 K → y ∈ Icc 0 K → independentSpinMagnitudeBeta junk b (spinData (fin x) (fin y) rest')
      (fin (al1 j)) (fin (al2 j)) (fin (be1 j)) (fin (be2 j)) (fin (A1 j)) (fin (A2 j)) = .ok (fin (pa j (x, y))))
    (hm : ∀ j, Measurable (pm j)) (hmz : ∀ j, Measurable (pz j)) (hmt : ∀ j, Measurable (pt j))
    (hma : ∀ j, Measurable (pa j))
    (hinj : ∀ j, j ≠ j₀ → ¬ ((beta j = beta j₀ ∧ lo j = lo j₀ ∧ d j = d j₀ ∧ ∀ᵐ x : ℝ, F j x = F j₀ x) ∧
      SamePopulation (Ioi 0) (fun z => (s j₀).probability [("redshift", fin z)] (φ j₀))
        (fun z => (s j).probability [("redshift", fin z)] (φ j)) ∧
      (xi j, s1 j, s2 j) = (xi j₀, s1 j₀, s2 j₀) ∧
      (al1 j, be1 j, A1 j) = (al1 j₀, be1 j₀, A1 j₀) ∧ (al2 j, be2 j, A2 j) = (al2 j₀, be2 j₀, A2 j₀)))
    (hv₁ : v₁ ≠ 0) (hv₂ : v₂ ≠ 0) (hw : w ≠ 0) (hu₁ : u₁ ≠ 0) (hu₂ : u₂ ≠ 0) (ht₁ : t₁ ≠ 0) (ht₂ : t₂ ≠ 0)
    (hDet : MeasurableSet Det) :
    Recovers
      (((volume.restrict (Ioc 0 selfMax ×ˢ Ioc 0 1)).prod (volume.restrict (Ioc 0 Z))).prod
        ((volume.restrict (Icc (-1) 1 ×ˢ Icc (-1) 1)).prod (volume.restrict (Icc 0 K ×ˢ Icc 0 K))))
      ((volume.prod volume).prod (volume.prod volume))
      (separateErrors (separateErrors (gaussianErrors2 v₁ v₂) (gaussianErrors w))
        (separateErrors (gaussianErrors2 u₁ u₂) (gaussianErrors2 t₁ t₂))) Det
      (fun j x => pm j x.1.1 * pz j x.1.2 * (pt j x.2.1 * pa j x.2.2)) j₀ := by
  have hZ0 : 0 ≤ Z := by linarith [hz j₀, hZ j₀]
  have hK : 0 ≤ K := (hA1 j₀).le.trans (hK1 j₀)
  have hKM : ∀ x ∈ Ioc 0 selfMax, |x| ≤ max selfMax 1 := fun x hx => by
    rw [abs_of_pos hx.1]; exact hx.2.trans (le_max_left _ _)
  have hKq : ∀ x ∈ Ioc (0 : ℝ) 1, |x| ≤ max selfMax 1 := fun x hx => by
    rw [abs_of_pos hx.1]; exact hx.2.trans (le_max_right _ _)
  have hKa : ∀ x ∈ Icc 0 K, |x| ≤ K := fun x hx => by rw [abs_of_nonneg hx.1]; exact hx.2
  have hb : ∀ j, BoundedPopulation (Ioi 0) Z (pz j) := fun j => rate_bounded (hr j) (hz j) (hcont j) v_cont
    (hpz j) (hmz j) (hZ j)
  have r1 := resolves_prod (resolves_two hv₁ hv₂ measurableSet_Ioc measurableSet_Ioc hKM hKq
    (zero_le_one.trans (le_max_right _ _))) (resolves_gaussian hw measurableSet_Ioc (K := Z) (fun x hx => by
      rw [abs_of_pos hx.1]; exact hx.2) hZ0)
  have r2 := resolves_prod (resolves_two hu₁ hu₂ measurableSet_Icc measurableSet_Icc (S₁ := Icc (-1) 1) (S₂ := Icc (-1) 1)
    (fun x hx => abs_le.2 hx) (fun x hx => abs_le.2 hx) zero_le_one)
    (resolves_two ht₁ ht₂ measurableSet_Icc measurableSet_Icc hKa hKa hK)
  have tS : MeasurableSet (Icc (-1 : ℝ) 1 ×ˢ Icc (-1 : ℝ) 1) := measurableSet_Icc.prod measurableSet_Icc
  have aS : MeasurableSet (Icc 0 K ×ˢ Icc 0 K) := measurableSet_Icc.prod measurableSet_Icc
  have tD := fun j => C27_isDensity b rest (x0 j).le (x1 j).le 1 1 (hs1 j) (hs2 j)
  have tp := fun j (x : ℝ × ℝ) (hx : x ∈ Icc (-1 : ℝ) 1 ×ˢ Icc (-1 : ℝ) 1) =>
    hpt j x.1 x.2 (abs_le.2 hx.1) (abs_le.2 hx.2)
  have D1 := fun j => C05_betaDist_isDensity junk b false false false true (ha1 j) (hb1 j) (hA1 j) (Icc 0 K)
      (fun x hx => ⟨hx.1.le, hx.2.le.trans (hK1 j)⟩) measurableSet_Icc
  have D2 := fun j => C05_betaDist_isDensity junk b false false false true (ha2 j) (hb2 j) (hA2 j) (Icc 0 K)
      (fun x hx => ⟨hx.1.le, hx.2.le.trans (hK2 j)⟩) measurableSet_Icc
  have E := fun j (x : ℝ × ℝ) => magnitude_eq junk b (spinData_get1 (fin x.1) (fin x.2) rest') (spinData_get2 _ _ _)
    (fin (al1 j)) (fin (al2 j)) (fin (be1 j)) (fin (be2 j)) (fin (A1 j)) (fin (A2 j))
  have aD := fun j => isDensityOn_prod (D1 j) (D2 j) (E j)
  have ap := fun j (x : ℝ × ℝ) (hx : x ∈ Icc 0 K ×ˢ Icc 0 K) => hpa j x.1 x.2 hx.1 hx.2
  have Pm := fun j => masses_population hsm hself hlt (hk j) (hp j) (hm j)
  have Pz := fun j => bounded_some hZ0 (hb j)
  have Pt := fun j => density_some tS (tD j) (tp j) (hmt j)
  have Pa := fun j => density_some aS (aD j) (ap j) (hma j)
  refine C170_product (f := fun j x => pm j x.1 * pz j x.2) (g := fun j x => pt j x.1 * pa j x.2) r1 r2 hDet
    (fun j => prod_population (Pm j) (Pz j)) (fun j => prod_population (Pt j) (Pa j))
    fun j hj ⟨⟨k, hk0, e⟩, k', hk0', e'⟩ => hinj j hj ?_
  obtain ⟨kz, hkz, ez⟩ := second_multiple (Pm j) (Pm j₀) hk0 e
  obtain ⟨m1, m2⟩ := product_same measurableSet_Icc measurableSet_Icc D1 D2 E ap hma
    (density_multiple aS (aD j) (ap j) (aD j₀) (ap j₀) (second_multiple (Pt j) (Pt j₀) hk0' e'))
  exact ⟨masses_determined hsm hself hlt (hk j) (hk j₀) (h j) (hdD j) (h j₀) (hdD j₀) (hp j) (hp j₀)
      (first_multiple (Pz j) (Pz j₀) hk0 e),
    proportional (hr j₀) (hr j) (hz j₀) (hz j) (hcont j₀) (hcont j) (hpz j₀) (hpz j) hkz (everywhere (hb j) (hb j₀) ez),
    tilts_same b rest x0 x1 hs1 hs2 hpt (density_multiple tS (tD j) (tp j) (tD j₀) (tp j₀)
      (first_multiple (Pa j) (Pa j₀) hk0' e')),
    beta_same junk b (ha1 j₀) (hb1 j₀) (hA1 j₀) (ha1 j) (hb1 j) (hA1 j) (hK1 j₀) (hK1 j) m1,
    beta_same junk b (ha2 j₀) (hb2 j₀) (hA2 j₀) (ha2 j) (hb2 j) (hA2 j) (hK2 j₀) (hK2 j) m2⟩

/-! ## Non-vacuity -/

/-- Candidates for the range of the smoothing, the fraction of aligned spins, the rate, and the shape of the first spin;
heavy and close sources are detected. -/
example (py cache : Bool) (junk : Fl → Fl → Fl) (rest rest' : Dict Fl) {v₁ v₂ w u₁ u₂ t₁ t₂ : NNReal} (hv₁ : v₁ ≠ 0)
    (hv₂ : v₂ ≠ 0) (hw : w ≠ 0) (hu₁ : u₁ ≠ 0) (hu₂ : u₂ ≠ 0) (ht₁ : t₁ ≠ 0) (ht₂ : t₂ ≠ 0) :
    ∃ (sm : Smoothed) (s : Bool → Redshift) (pm pt pa : Bool → ℝ × ℝ → ℝ) (pz : Bool → ℝ → ℝ),
    brokenPowerLaw py 2 100 1000 500 cache = .ok sm ∧
    (∀ j, Redshift.powerLaw [("Planck15", .fixed toyCosmology)] (if j then 2.3 else 1.9) "Planck15" = .ok (s j)) ∧
    (∀ j m q, 0 < m → m ≤ 100 → m ≠ 5 → 0 < q → q ≤ 1 → (Smoothed.call .numpy sm [(fin m, fin q)]
      (brokenCall 1.6 5.6 1.1 5 85 0.4 (if j then 4.8 else 5))).1 = .ok [fin (pm j (m, q))]) ∧
    (∀ j z, 0 ≤ z → (s j).probability [("redshift", fin z)] [("lamb", fin (if j then 2.7 else 3))] = .ok (fin (pz j z))) ∧
    (∀ j z1 z2, independentSpinOrientation .numpy (tiltData (fin z1) (fin z2) rest) (fin (if j then 0.6 else 0.5))
      (fin 1) (fin 2) = .ok (fin (pt j (z1, z2)))) ∧
    (∀ j x y, independentSpinMagnitudeBeta junk .numpy (spinData (fin x) (fin y) rest') (fin (if j then 2 else 3)) (fin 2)
      (fin 4) (fin 4) (fin 1) (fin 1) = .ok (fin (pa j (x, y)))) ∧
    Recovers
      (((volume.restrict (Ioc 0 100 ×ˢ Ioc 0 1)).prod (volume.restrict (Ioc 0 2.3))).prod
        ((volume.restrict (Icc (-1) 1 ×ˢ Icc (-1) 1)).prod (volume.restrict (Icc 0 1 ×ˢ Icc 0 1))))
      ((volume.prod volume).prod (volume.prod volume))
      (separateErrors (separateErrors (gaussianErrors2 v₁ v₂) (gaussianErrors w))
        (separateErrors (gaussianErrors2 u₁ u₂) (gaussianErrors2 t₁ t₂))) {d | 20 * d.1.2 < d.1.1.1}
      (fun (j : (Bool × Bool) × Bool × Bool) x =>
        pm j.1.1 x.1.1 * pz j.1.2 x.1.2 * (pt j.2.1 x.2.1 * pa j.2.2 x.2.2)) ((true, true), true, true) := by
  obtain ⟨sm, pm, hsm, hk, hm, hp⟩ := some_masses py cache
  obtain ⟨s, pz, hs, hmz, hpz⟩ := some_rates
  have hg : Dict.get? [("Planck15", CosmoEntry.fixed toyCosmology)] "Planck15" = some (.fixed toyCosmology) := by
    simp [Dict.get?_cons]
  have hz : ∀ j : Bool, (1e-6 : ℝ) < if j then 2.3 else 1.9 := fun j => by cases j <;> norm_num
  have hZ : ∀ j : Bool, (if j then 2.3 else 1.9 : ℝ) ≤ 2.3 := fun j => by cases j <;> norm_num
  have hr := fun j : Bool => rateAt_powerLaw (hs j) hg (v := fun z => z * z) (fun z _ => by simp [toyCosmology])
    (fun z hz => by positivity) (by norm_num) (if j then 2.7 else 3)
  obtain ⟨b, hb⟩ : ∃ b : Backend, b = .numpy := ⟨_, rfl⟩
  have hmn : ∀ s : ℝ, Measurable (Spec.normalised (fun t => Real.exp (-(t - 1) ^ 2 / (2 * s ^ 2))) (-1) 1) := fun s => by
    unfold Spec.normalised
    exact Measurable.ite measurableSet_Icc ((gaussShape_continuous 1 s).measurable.div_const _) measurable_const
  have T : ∃ pt : Bool → ℝ × ℝ → ℝ, (∀ j, Measurable (pt j)) ∧ ∀ j z1 z2, independentSpinOrientation .numpy
      (tiltData (fin z1) (fin z2) rest) (fin (if j then 0.6 else 0.5)) (fin 1) (fin 2) = .ok (fin (pt j (z1, z2))) :=
    ⟨fun j z => _, fun j => (measurable_const (a := (1 - if j then (0.6 : ℝ) else 0.5) / 4)).add
      ((measurable_const (a := if j then (0.6 : ℝ) else 0.5)).mul
        (((hmn 1).comp measurable_fst).mul ((hmn 2).comp measurable_snd))),
      fun j z1 z2 => C27_value .numpy (tiltData_get1 _ _ _) (tiltData_get2 _ _ _) _ 1 1 one_pos two_pos⟩
  obtain ⟨pt, hmt, hpt⟩ := T
  have one : ∀ al A : ℝ, 0 < al → 0 < A → ∃ f : ℝ → ℝ, Measurable f ∧
      ∀ x, betaDist junk b (pos (fin x)) (pos (fin al)) (pos (fin 4)) (kw (fin A)) = .ok (fin (f x)) := by
    intro al A hal hA
    have hA' : (0 : Fl) < fin A := by simpa using hA
    have tot : ∀ x : ℝ, ∃ r : ℝ, betaDist junk b (pos (fin x)) (pos (fin al)) (pos (fin 4)) (kw (fin A)) = .ok (fin r) := by
      intro x
      obtain ⟨r, -, hr, -⟩ := C06_betaDist_total junk b (fin x) (fin al) (fin 4) (fin A)
      refine ⟨r, ?_⟩
      rw [betaDist_eq, if_neg (by simp)] at hr
      rw [betaDist_eq, if_neg (by simpa using fun _ => hA')]
      exact hr
    choose f hf using tot
    refine ⟨f, ?_, hf⟩
    have : f = fun x => if x = 0 then f 0 else if x = A then f A else
        Spec.normalised (fun t => t ^ (al - 1) * (A - t) ^ ((4 : ℝ) - 1)) 0 A x := by
      funext x
      by_cases h0 : x = 0
      · rw [if_pos h0, h0]
      by_cases h1 : x = A
      · rw [if_neg h0, if_pos h1, h1]
      rw [if_neg h0, if_neg h1]
      exact Fl.fin.inj (Except.ok.inj ((hf x).symm.trans
        (Identifiable.beta_value junk b false false false true hal (by norm_num) hA h0 h1)))
    rw [this]
    refine Measurable.ite (measurableSet_singleton 0) measurable_const
      (Measurable.ite (measurableSet_singleton A) measurable_const ?_)
    unfold Spec.normalised
    exact Measurable.ite measurableSet_Icc (((measurable_id.pow_const _).mul
      ((measurable_const.sub measurable_id).pow_const _)).div_const _) measurable_const
  choose f1 m1 e1 using fun j : Bool => one (if j then 2 else 3) 1 (by cases j <;> norm_num) one_pos
  obtain ⟨f2, m2, e2⟩ := one 2 1 two_pos one_pos
  have hpa : ∀ j x y, independentSpinMagnitudeBeta junk .numpy (spinData (fin x) (fin y) rest') (fin (if j then 2 else 3))
      (fin 2) (fin 4) (fin 4) (fin 1) (fin 1) = .ok (fin (f1 j x * f2 y)) := fun j x y => by
    rw [magnitude_eq junk .numpy (spinData_get1 _ _ _) (spinData_get2 _ _ _), ← hb, e1, e2]
    rfl
  refine ⟨sm, s, pm, pt, fun j z => f1 j z.1 * f2 z.2, pz, hsm, hs, hp, hpz, hpt, hpa, ?_⟩
  have d1 : ∀ j : (Bool × Bool) × Bool × Bool, (if j.1.1 then 4.8 else 5 : ℝ) ≤ 5 := fun j => by
    rcases j with ⟨⟨_ | _, _⟩, _, _⟩ <;> norm_num
  refine C172_full (J := (Bool × Bool) × Bool × Bool) (b := .numpy) (sm := sm) (D := 5) (K := 1)
    (pm := fun j => pm j.1.1) (pz := fun j => pz j.1.2) (pt := fun j => pt j.2.1)
    (pa := fun j z => f1 j.2.2 z.1 * f2 z.2) (s := fun j => s j.1.2) (lo := fun _ => 5) (hi := fun _ => 85)
    (beta := fun _ => 1.1) (d := fun j => if j.1.1 then 4.8 else 5)
    (kw := fun j => brokenCall 1.6 5.6 1.1 5 85 0.4 (if j.1.1 then 4.8 else 5))
    (F := fun _ => Spec.normalised (brokenShape 1.6 5.6 (5 + 0.4 * (85 - 5))) 5 85)
    (φ := fun j => [("lamb", fin (if j.1.2 then 2.7 else 3))])
    (psi := fun j z => (1 + z) ^ (if j.1.2 then 2.7 else 3 : ℝ)) (v := fun z => z * z)
    (xi := fun j => if j.2.1 then 0.6 else 0.5) (s1 := fun _ => 1) (s2 := fun _ => 2)
    (al1 := fun j => if j.2.2 then 2 else 3) (al2 := fun _ => 2) (be1 := fun _ => 4) (be2 := fun _ => 4)
    (A1 := fun _ => 1) (A2 := fun _ => 1) junk rest rest' hsm ?_ ?_ ?_ ?_ d1 ?_ ?_ ?_ ?_ ?_ ?_ ?_ ?_ ?_ ?_ ?_ ?_ ?_ ?_ ?_
    ?_ ?_ ?_ ?_ ?_ ?_ ?_ ?_ ?_ ?_ ?_ hv₁ hv₂ hw hu₁ hu₂ ht₁ ht₂ ?_
  · norm_num
  · norm_num
  · exact fun j => hk j.1.1
  · exact fun _ => by norm_num
  · exact fun j => hp j.1.1
  · exact fun j => (hr j.1.2).1
  · exact fun j => (hr j.1.2).2 ▸ hz j.1.2
  · exact fun j => (hr j.1.2).2 ▸ hZ j.1.2
  · exact fun j x hx => ((continuousAt_const.add continuousAt_id).rpow_const (Or.inl (by
      have : (0 : ℝ) ≤ x := hx
      show (1 : ℝ) + x ≠ 0
      linarith))).continuousWithinAt
  · fun_prop
  · exact fun j => hpz j.1.2
  · rintro ⟨⟨_, _⟩, _ | _, _⟩ <;> norm_num
  · rintro ⟨⟨_, _⟩, _ | _, _⟩ <;> norm_num
  · exact fun _ => one_pos
  · exact fun _ => two_pos
  · exact fun j z1 z2 _ _ => hpt j.2.1 z1 z2
  · rintro ⟨⟨_, _⟩, _, _ | _⟩ <;> norm_num
  · exact fun _ => two_pos
  · exact fun _ => by norm_num
  · exact fun _ => by norm_num
  · exact fun _ => one_pos
  · exact fun _ => one_pos
  · exact fun _ => le_rfl
  · exact fun _ => le_rfl
  · exact fun j x y _ _ => hpa j.2.2 x y
  · exact fun j => hm j.1.1
  · exact fun j => hmz j.1.2
  · exact fun j => hmt j.2.1
  · exact fun j => ((m1 j.2.2).comp measurable_fst).mul (m2.comp measurable_snd)
  · rintro ⟨⟨j1, j2⟩, j3, j4⟩ hj ⟨⟨-, -, h1, -⟩, h2, h3, h4, -⟩
    have h2' := (C156_lamb (hs true) (hs j2) hg (v := fun z => z * z) (fun z _ => by simp [toyCosmology])
      (fun z hz => by positivity) (by norm_num) (hz true) (hz j2) h2).1
    have h3' := congrArg Prod.fst h3
    have h4' := congrArg Prod.fst h4
    have c1 : j1 = true := by
      cases j1
      · norm_num at h1
      · rfl
    have c2 : j2 = true := by
      cases j2
      · norm_num at h2'
      · rfl
    have c3 : j3 = true := by
      cases j3
      · norm_num at h3'
      · rfl
    have c4 : j4 = true := by
      cases j4
      · norm_num at h4'
      · rfl
    exact hj (by rw [c1, c2, c3, c4])
  · exact measurableSet_lt ((measurable_snd.comp measurable_fst).const_mul _)
      (measurable_fst.comp (measurable_fst.comp measurable_fst))

end GW
