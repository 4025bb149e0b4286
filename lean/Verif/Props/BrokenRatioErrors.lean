import Verif.Props.SeveralErrors

/-!
# C171: the broken power law in primary mass with mass ratios, from noisy data
-/

noncomputable section

open MeasureTheory ProbabilityTheory Filter Topology Set

namespace GW

open Fl Spec TruePopulation Posterior GaussianErrors

/-! ## Lemmas -/

namespace BrokenRatio

/-- Integrating out the mass ratio gives the primary-mass model, also below the lower limit. -/
theorem marginal {R : ℝ → ℝ → Except PyErr Fl} {P : ℝ → Except PyErr Fl} {beta lo m : ℝ} (hR : IsMassRatioModel R P beta lo)
    (hz : ∀ m, 0 < m → m < lo → P m = .ok (fin 0)) (hm : 0 < m) (hne : m ≠ lo) :
    ∃ (p : ℝ) (g : ℝ → ℝ), P m = .ok (fin p) ∧ (∀ q, 0 < q → R m q = .ok (fin (g q))) ∧ ∫ q in Ioi 0, g q = p := by
  rcases lt_or_gt_of_ne hne with h | h
  · refine ⟨0, fun _ => 0, hz m hm h, fun q hq => ?_, by simp⟩
    obtain ⟨p, e1, e2⟩ := hR.factor m q hm hne hq
    rw [e2, Fl.fin.inj (Except.ok.inj (e1.symm.trans (hz m hm h))), zero_mul]
  · obtain ⟨p, g, e1, e2, -, e3⟩ := hR.marginal m h
    exact ⟨p, g, e1, e2, e3⟩

end BrokenRatio

/-! ## The property -/

variable {v₁ v₂ : NNReal} {Det : Set (ℝ × ℝ)}

/-- **C171.** The joint density of the broken power law in primary mass with mass ratios determines both indices, the index
of the mass ratios and both limits, and the break unless the two indices are equal. -/
theorem C171_determined (b : Backend) (py : Bool) {a1 a2 beta lo hi bf a1' a2' beta' lo' hi' bf' : ℝ}
    (ha1 : b = .jax ∨ a1 ≠ -1) (ha2 : b = .jax ∨ a2 ≠ -1) (h0 : 0 < lo) (h : lo < hi) (b0 : 0 < bf) (b1 : bf < 1)
    (ha1' : b = .jax ∨ a1' ≠ -1) (ha2' : b = .jax ∨ a2' ≠ -1) (h0' : 0 < lo') (h' : lo' < hi') (b0' : 0 < bf')
    (b1' : bf' < 1)
    (hsame : ∀ᵐ x : ℝ × ℝ, 0 < x.1 → 0 < x.2 → doublePowerLawPrimaryPowerLawMassRatio b py (fin x.1) (fin x.2) (fin a1)
      (fin a2) (fin beta) (fin lo) (fin hi) (fin bf) = doublePowerLawPrimaryPowerLawMassRatio b py (fin x.1) (fin x.2)
      (fin a1') (fin a2') (fin beta') (fin lo') (fin hi') (fin bf')) :
    a1 = a1' ∧ a2 = a2' ∧ beta = beta' ∧ lo = lo' ∧ hi = hi' ∧ (a1 ≠ a2 → bf = bf') := by
  have hR := C19_doublePowerLawPrimaryPowerLawMassRatio (beta := beta) b py ha1 ha2 h0 h b0 b1
  have hR' := C19_doublePowerLawPrimaryPowerLawMassRatio (beta := beta') b py ha1' ha2' h0' h' b0' b1'
  have mb : 0 < lo + bf * (hi - lo) := add_pos h0 (mul_pos b0 (by linarith))
  have mb' : 0 < lo' + bf' * (hi' - lo') := add_pos h0' (mul_pos b0' (by linarith))
  rw [Measure.volume_eq_prod] at hsame
  have hs := Measure.ae_ae_of_ae_prod hsame
  -- the mass ratios integrate to one, so the primary masses agree
  have hP : SamePopulation (Ioi 0)
      (fun m => doublePowerLawPrimaryMass b py (fin m) (fin a1) (fin a2) (fin lo) (fin hi) (fin bf))
      (fun m => doublePowerLawPrimaryMass b py (fin m) (fin a1') (fin a2') (fin lo') (fin hi') (fin bf')) := by
    filter_upwards [hs, Measure.ae_ne volume lo, Measure.ae_ne volume lo'] with m hm n1 n2 hm0
    obtain ⟨p, g, f1, f2, f3⟩ := BrokenRatio.marginal hR (fun m q0 q1 => by
      rw [C17_doublePowerLaw_value b py ha1 ha2 h0 h b0 b1 q0, Spec.normalised, if_neg fun hh => absurd hh.1 (not_le.2 q1)])
      hm0 n1
    obtain ⟨p', g', f1', f2', f3'⟩ := BrokenRatio.marginal hR' (fun m q0 q1 => by
      rw [C17_doublePowerLaw_value b py ha1' ha2' h0' h' b0' b1' q0, Spec.normalised,
        if_neg fun hh => absurd hh.1 (not_le.2 q1)]) hm0 n2
    rw [f1, f1', ← f3, ← f3']
    congr 2
    refine setIntegral_congr_ae measurableSet_Ioi (hm.mono fun q hq hq0 => ?_)
    exact Fl.fin.inj (Except.ok.inj ((f2 q hq0).symm.trans ((hq hm0 hq0).trans (f2' q hq0))))
  obtain ⟨e1, e2, e3, e4, e5⟩ := C156_broken b py h0 h h0' h' b0 b1 b0' b1' ha1 ha2 ha1' ha2' hP
  refine ⟨e1, e2, ?_, e3, e4, e5⟩
  obtain ⟨m, hm, hq⟩ := Identifiable.exists_point hs h
  have m0 : 0 < m := h0.trans hm.1
  have pos : ∀ {c1 c2 l u r : ℝ}, 0 < l → l < u → 0 < l + r * (u - l) → l < m → m < u →
      0 < Spec.normalised (brokenShape c1 c2 (l + r * (u - l))) l u m := fun {c1 c2 l u r} l0 lu lr l1 l2 => by
    unfold Spec.normalised
    rw [if_pos ⟨l1.le, l2.le⟩]
    exact div_pos (brokenShape_pos _ _ lr (l0.trans l1)) (integral_brokenShape_pos _ _ l0 lr lu)
  exact (C156_massRatio h0 h0' hm.1 (e3 ▸ hm.1) hR hR'
    ⟨_, pos h0 h mb hm.1 hm.2, C17_doublePowerLaw_value b py ha1 ha2 h0 h b0 b1 m0⟩
    ⟨_, pos h0' h' mb' (e3 ▸ hm.1) (e4 ▸ hm.2), C17_doublePowerLaw_value b py ha1' ha2' h0' h' b0' b1' m0⟩
    (hq.mono fun q hq hq0 => hq m0 hq0)).1

/-- **C171.** All six parameters of the broken power law in primary mass with mass ratios are found from noisy primary
masses and mass ratios of detected sources, provided the two indices of the true population differ. -/
theorem C171_recovers {J : Type} [Fintype J] {p : J → ℝ × ℝ → ℝ} {j₀ : J} (b : Backend) (py : Bool)
    {a1 a2 beta lo hi bf : J → ℝ} {M : ℝ} (ha1 : ∀ j, b = .jax ∨ a1 j ≠ -1) (ha2 : ∀ j, b = .jax ∨ a2 j ≠ -1)
    (h0 : ∀ j, 0 < lo j) (h : ∀ j, lo j < hi j) (b0 : ∀ j, 0 < bf j) (b1 : ∀ j, bf j < 1) (hM : ∀ j, hi j ≤ M)
    (hbreak : a1 j₀ ≠ a2 j₀)
    (hinj : ∀ j, j ≠ j₀ → (a1 j, a2 j, beta j, lo j, hi j, bf j) ≠ (a1 j₀, a2 j₀, beta j₀, lo j₀, hi j₀, bf j₀))
    (hp : ∀ j m q, 0 < m → m ≠ lo j → 0 < q → doublePowerLawPrimaryPowerLawMassRatio b py (fin m) (fin q) (fin (a1 j))
      (fin (a2 j)) (fin (beta j)) (fin (lo j)) (fin (hi j)) (fin (bf j)) = .ok (fin (p j (m, q))))
    (hm : ∀ j, Measurable (p j)) (hv₁ : v₁ ≠ 0) (hv₂ : v₂ ≠ 0) (hD : MeasurableSet Det) :
    Recovers (volume.restrict (Ioc 0 M ×ˢ Ioc 0 1)) volume (gaussianErrors2 v₁ v₂) Det p j₀ := by
  refine C161_massRatio (fun j => C19_doublePowerLawPrimaryPowerLawMassRatio b py (ha1 j) (ha2 j) (h0 j) (h j) (b0 j)
    (b1 j)) h0 (fun j => ?_) (fun j m hm0 hout => ?_) (fun j hj hs => hinj j hj ?_) hp hm hv₁ hv₂ hD
  · exact (isPdf_broken (a1 j) (a2 j) (h0 j) (add_pos (h0 j) (mul_pos (b0 j) (by linarith [h j]))) (h j)).isDensityOn
      (fun x hx => (h0 j).trans_le hx.1)
      fun m hm0 => C17_doublePowerLaw_value b py (ha1 j) (ha2 j) (h0 j) (h j) (b0 j) (b1 j) hm0
  · rw [C17_doublePowerLaw_value b py (ha1 j) (ha2 j) (h0 j) (h j) (b0 j) (b1 j) hm0, Spec.normalised, if_neg]
    rintro ⟨h1, h2⟩
    rcases hout with h3 | h3
    · exact absurd h1 (not_le.2 h3)
    · exact absurd (h2.trans (hM j)) (not_le.2 h3)
  · obtain ⟨e1, e2, e3, e4, e5⟩ := C156_broken b py (h0 j) (h j) (h0 j₀) (h j₀) (b0 j) (b1 j) (b0 j₀) (b1 j₀) (ha1 j)
      (ha2 j) (ha1 j₀) (ha2 j₀) hs.2
    rw [e1, e2, e3, e4, e5 (by rwa [e1, e2]), hs.1]

/-! ## Non-vacuity -/

/-- Candidates for the break and for the index of the mass ratios. -/
example (py : Bool) (hv₁ : v₁ ≠ 0) (hv₂ : v₂ ≠ 0) (hD : MeasurableSet Det) :
    ∃ p : Bool × Bool → ℝ × ℝ → ℝ, (∀ j, Measurable (p j)) ∧
    (∀ j m q, 0 < m → m ≠ 5 → 0 < q → doublePowerLawPrimaryPowerLawMassRatio .numpy py (fin m) (fin q) (fin 1.6) (fin 5.6)
      (fin (if j.2 then 1 else 2)) (fin 5) (fin 85) (fin (if j.1 then 0.4 else 0.5)) = .ok (fin (p j (m, q)))) ∧
    Recovers (volume.restrict (Ioc 0 100 ×ˢ Ioc 0 1)) volume (gaussianErrors2 v₁ v₂) Det p (true, true) := by
  obtain ⟨k, hk⟩ : ∃ a : Bool × Bool → ℝ, a = fun j => if j.1 then 0.4 else 0.5 := ⟨_, rfl⟩
  obtain ⟨be, hbe⟩ : ∃ a : Bool × Bool → ℝ, a = fun j => if j.2 then 1 else 2 := ⟨_, rfl⟩
  have k0 : ∀ j, 0 < k j := fun j => by rcases j with ⟨_ | _, _⟩ <;> norm_num [hk]
  have k1 : ∀ j, k j < 1 := fun j => by rcases j with ⟨_ | _, _⟩ <;> norm_num [hk]
  have b1 : ∀ j, -1 < be j := fun j => by rcases j with ⟨_, _ | _⟩ <;> norm_num [hbe]
  obtain ⟨p, hpe⟩ : ∃ p : Bool × Bool → ℝ × ℝ → ℝ, ∀ j z, p j z =
      Spec.normalised (brokenShape 1.6 5.6 (5 + k j * (85 - 5))) 5 85 z.1 *
      (if 5 / z.1 ≤ z.2 ∧ z.2 ≤ 1 then z.2 ^ be j / ((1 - (5 / z.1) ^ (be j + 1)) / (be j + 1)) else 0) :=
    ⟨fun j z => _, fun j z => rfl⟩
  have hm : ∀ j, Measurable (p j) := fun j => by
    rw [show p j = _ from funext (hpe j)]
    have d : Measurable fun z : ℝ × ℝ => 5 / z.1 := measurable_const.div measurable_fst
    refine Measurable.mul ?_ (Measurable.ite ((measurableSet_le d measurable_snd).inter
      (measurableSet_le measurable_snd measurable_const)) ?_ measurable_const)
    · have : Measurable (Spec.normalised (brokenShape 1.6 5.6 (5 + k j * (85 - 5))) 5 85) := by
        unfold Spec.normalised brokenShape
        exact Measurable.ite measurableSet_Icc (Measurable.div_const (Measurable.ite measurableSet_Iio
          ((measurable_id.div_const _).pow_const _) ((measurable_id.div_const _).pow_const _)) _) measurable_const
      exact this.comp measurable_fst
    · exact (measurable_snd.pow_const _).div ((measurable_const.sub (d.pow_const _)).div_const _)
  have hval : ∀ j m q, 0 < m → m ≠ 5 → 0 < q → doublePowerLawPrimaryPowerLawMassRatio .numpy py (fin m) (fin q) (fin 1.6)
      (fin 5.6) (fin (be j)) (fin 5) (fin 85) (fin (k j)) = .ok (fin (p j (m, q))) := fun j m q hm0 hm5 hq => by
    obtain ⟨v, e1, e2⟩ := (C19_doublePowerLawPrimaryPowerLawMassRatio .numpy py (a1 := 1.6) (a2 := 5.6) (beta := be j)
      (Or.inr (by norm_num)) (Or.inr (by norm_num)) (by norm_num : (0 : ℝ) < 5) (by norm_num : (5 : ℝ) < 85) (k0 j)
      (k1 j)).factor m q hm0 hm5 hq
    have hv : v = Spec.normalised (brokenShape 1.6 5.6 (5 + k j * (85 - 5))) 5 85 m :=
      Fl.fin.inj (Except.ok.inj (e1.symm.trans (C17_doublePowerLaw_value .numpy py (Or.inr (by norm_num))
        (Or.inr (by norm_num)) (by norm_num) (by norm_num) (k0 j) (k1 j) hm0)))
    refine e2.trans ?_
    rw [hpe, hv]
    congr 3
    unfold Spec.normalised
    rw [integral_rpow (Or.inl (b1 j)), Real.one_rpow]
  refine ⟨p, hm, fun j m q hm0 hm5 hq => by rw [← hval j m q hm0 hm5 hq, hk, hbe], C171_recovers .numpy py
    (a1 := fun _ => 1.6) (a2 := fun _ => 5.6) (lo := fun _ => 5) (hi := fun _ => 85) (fun _ => Or.inr (by norm_num))
    (fun _ => Or.inr (by norm_num)) (fun _ => by norm_num) (fun _ => by norm_num) k0 k1 (fun _ => by norm_num)
    (by norm_num) (fun j hj => ?_) hval hm hv₁ hv₂ hD⟩
  rcases j with ⟨_ | _, _ | _⟩
  · norm_num [hk]
  · norm_num [hk]
  · norm_num [hbe]
  · exact absurd rfl hj

end GW
