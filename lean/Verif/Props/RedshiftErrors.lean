import Verif.Props.GaussianErrors

/-!
# C160: the history of the merger rate is found from noisy redshifts of detected sources
-/

noncomputable section

open MeasureTheory ProbabilityTheory Filter Topology Set

namespace GW

open Fl Spec TruePopulation Posterior GaussianErrors

variable {S Det : Set ℝ} {K : ℝ} {w : NNReal}

namespace RedshiftErrors

open Identifiable

theorem recovers_bounded {J : Type} [Fintype J] {p : J → ℝ → ℝ} {j₀ : J} (hw : w ≠ 0) (hS : MeasurableSet S)
    (hD : MeasurableSet Det) (hK : 0 ≤ K) (hb : ∀ j, BoundedPopulation S K (p j))
    (hne : ∀ j, j ≠ j₀ → ∀ k > 0, ¬ ∀ᵐ x ∂volume.restrict S, p j x = k * p j₀ x) :
    Recovers (volume.restrict S) volume (gaussianErrors w) Det p j₀ := by
  intro Ω _ P _ d hd u hu
  have hDv := detectable_of_events hd
  refine C147_posterior (Measured.survey (errors_ordered hw) hD) (fun j => bounded_population hw hS (hb j))
    (fun j _ => bounded_comparable hw hS hD hK (hb j₀) (hb j)) (fun j hj hsame => ?_) hd hu
  obtain ⟨k, hk, e⟩ := C159_same hw hS hD hDv (hb j₀) (hb j) hsame
  exact hne j hj k hk e

theorem trapezoid_const_mul (n : ℕ) (k : ℝ) (y x : ℕ → ℝ) :
    trapezoidRule n (fun i => k * y i) x = k * trapezoidRule n y x := by
  unfold trapezoidRule
  rw [Finset.mul_sum]
  exact Finset.sum_congr rfl fun i _ => by ring

theorem trapezoid_congr {n : ℕ} {y y' x : ℕ → ℝ} (h : ∀ i ≤ n, y i = y' i) :
    trapezoidRule n y x = trapezoidRule n y' x := by
  unfold trapezoidRule
  refine Finset.sum_congr rfl fun i hi => ?_
  have := Finset.mem_range.1 hi
  rw [h i this.le, h (i + 1) this]

/-- Proportional rates are the same population, since the norm is the trapezoidal rule for both. -/
theorem proportional {s s' : Redshift} {φ φ' : Dict Fl} {psi psi' v p p' : ℝ → ℝ} (h : RateAt s φ psi v)
    (h' : RateAt s' φ' psi' v) (hz : 1e-6 < s.zMax) (hz' : 1e-6 < s'.zMax) (hc : ContinuousOn psi (Ici 0))
    (hc' : ContinuousOn psi' (Ici 0))
    (hp : ∀ z, 0 ≤ z → s.probability [("redshift", fin z)] φ = .ok (fin (p z)))
    (hp' : ∀ z, 0 ≤ z → s'.probability [("redshift", fin z)] φ' = .ok (fin (p' z))) {k : ℝ} (hk : 0 < k)
    (he : ∀ᵐ z ∂volume.restrict (Ioi 0), p' z = k * p z) :
    SamePopulation (Ioi 0) (fun z => s.probability [("redshift", fin z)] φ)
      (fun z => s'.probability [("redshift", fin z)] φ') := by
  obtain ⟨N, hN, hq, -, hT⟩ := C31_probability h hz
  obtain ⟨N', hN', hq', -, hT'⟩ := C31_probability h' hz'
  have hz0 : 0 < s.zMax := by linarith
  have hz0' : 0 < s'.zMax := by linarith
  have pe : ∀ z, 0 ≤ z → p z = if z ≤ s.zMax then volumeElement psi v z / N else 0 := fun z h0 =>
    Fl.fin.inj (Except.ok.inj ((hp z h0).symm.trans (hq _ z h0 (by simp [Dict.get?_cons]))))
  have pe' : ∀ z, 0 ≤ z → p' z = if z ≤ s'.zMax then volumeElement psi' v z / N' else 0 := fun z h0 =>
    Fl.fin.inj (Except.ok.inj ((hp' z h0).symm.trans (hq' _ z h0 (by simp [Dict.get?_cons]))))
  rw [ae_restrict_iff' measurableSet_Ioi] at he
  have hae : ∀ᵐ z : ℝ, 0 < z → (if z ≤ s'.zMax then volumeElement psi' v z / N' else 0) =
      k * if z ≤ s.zMax then volumeElement psi v z / N else 0 := by
    filter_upwards [he] with z hzz h0
    rw [← pe z (le_of_lt h0), ← pe' z (le_of_lt h0)]
    exact hzz h0
  have e : s.zMax = s'.zMax := by
    rcases lt_trichotomy s.zMax s'.zMax with hlt | heq | hgt
    · obtain ⟨z, hzm, hzz⟩ := exists_point hae hlt
      have hzp := hzz (hz0.trans hzm.1)
      rw [if_neg (not_le.2 hzm.1), if_pos hzm.2.le, mul_zero] at hzp
      exact absurd hzp (div_pos (volumeElement_pos h' (hz0.trans hzm.1)) hN').ne'
    · exact heq
    · obtain ⟨z, hzm, hzz⟩ := exists_point hae hgt
      have hzp := hzz (hz0'.trans hzm.1)
      rw [if_pos hzm.2.le, if_neg (not_le.2 hzm.1)] at hzp
      exact absurd hzp.symm (mul_pos hk (div_pos (volumeElement_pos h (hz0'.trans hzm.1)) hN)).ne'
  have hop : ∀ z ∈ Ioo 0 s.zMax, psi' z * N = k * (psi z * N') := by
    refine eq_of_ae ((hc'.mono fun x hx => hx.1.le).mul_const _)
      (((hc.mono fun x hx => hx.1.le).mul_const _).const_mul _) ?_
    filter_upwards [hae] with z hzz hzm
    have := hzz hzm.1
    rw [if_pos hzm.2.le, if_pos (e ▸ hzm.2.le)] at this
    have hv := h.v_pos z hzm.1
    have hz1 : 0 < 1 + z := by linarith [hzm.1]
    unfold volumeElement at this
    have hpi := Real.pi_pos
    field_simp at this
    linarith
  have hcl : ∀ z ∈ Ioc 0 s.zMax, psi' z * N = k * (psi z * N') := by
    have := Measure.eqOn_of_ae_eq (μ := volume) (s := Ioc 0 s.zMax) (f := fun z => psi' z * N)
      (g := fun z => k * (psi z * N'))
      ((ae_restrict_iff' measurableSet_Ioc).2 (by
        have hne : ∀ᵐ x : ℝ, x ≠ s.zMax := by simp [ae_iff, measure_singleton]
        filter_upwards [hne] with x hx0 hxm
        exact hop x ⟨hxm.1, lt_of_le_of_ne hxm.2 hx0⟩))
      ((hc'.mono fun x hx => hx.1.le).mul_const _) (((hc.mono fun x hx => hx.1.le).mul_const _).const_mul _)
      (by rw [interior_Ioc, closure_Ioo hz0.ne]; exact Ioc_subset_Icc_self)
    exact this
  have hvol : ∀ z ∈ Ioc 0 s.zMax, volumeElement psi' v z / N' = k * (volumeElement psi v z / N) := by
    intro z hzm
    have h1 := hcl z hzm
    have hz1 : 0 < 1 + z := by linarith [hzm.1]
    unfold volumeElement
    field_simp
    linear_combination v z * h1
  have hnode : ∀ i : ℕ, i ≤ 2499 →
      (if 1e-6 + (s.zMax - 1e-6) * (i : ℝ) / 2499 ≤ s.zMax then
        Spec.volumeElement psi' v (1e-6 + (s.zMax - 1e-6) * (i : ℝ) / 2499) / N' else 0) =
      k * (if 1e-6 + (s.zMax - 1e-6) * (i : ℝ) / 2499 ≤ s.zMax then
        Spec.volumeElement psi v (1e-6 + (s.zMax - 1e-6) * (i : ℝ) / 2499) / N else 0) := by
    intro i _
    have hi0 : (0 : ℝ) ≤ i := Nat.cast_nonneg i
    have hd : 0 < s.zMax - 1e-6 := by linarith
    have h1 : 0 < 1e-6 + (s.zMax - 1e-6) * (i : ℝ) / 2499 :=
      add_pos_of_pos_of_nonneg (by norm_num) (div_nonneg (mul_nonneg hd.le hi0) (by norm_num))
    generalize 1e-6 + (s.zMax - 1e-6) * (i : ℝ) / 2499 = t at h1 ⊢
    by_cases h2 : t ≤ s.zMax
    · rw [if_pos h2, if_pos h2, hvol _ ⟨h1, h2⟩]
    · rw [if_neg h2, if_neg h2, mul_zero]
  have hk1 : k = 1 := by
    rw [← e] at hT'
    rw [← mul_one k, ← hT, ← trapezoid_const_mul, ← trapezoid_congr hnode, hT', hT]
  filter_upwards [he] with z hzz h0
  have := hzz h0
  rw [hk1, one_mul] at this
  rw [hp z (le_of_lt h0), hp' z (le_of_lt h0), this]

/-- A rate of the package as a population. -/
theorem rate_bounded {s : Redshift} {φ : Dict Fl} {psi v p : ℝ → ℝ} (h : RateAt s φ psi v) (hz : 1e-6 < s.zMax)
    (hc : ContinuousOn psi (Ici 0)) (v_cont : ContinuousOn v (Ici 0))
    (hp : ∀ z, 0 ≤ z → s.probability [("redshift", fin z)] φ = .ok (fin (p z))) (hm : Measurable p)
    (hK0 : s.zMax ≤ K) : BoundedPopulation (Ioi 0) K p := by
  obtain ⟨N, hN, hq, hnn, -⟩ := C31_probability h hz
  have hz0 : 0 < s.zMax := by linarith [hz]
  have pe : ∀ z, 0 ≤ z → p z = if z ≤ s.zMax then volumeElement psi v z / N else 0 := fun z h0 =>
    Fl.fin.inj (Except.ok.inj ((hp z h0).symm.trans (hq _ z h0 (by simp [Dict.get?_cons]))))
  have hcont : ContinuousOn (fun z => volumeElement psi v z / N) (Icc 0 s.zMax) := by
    have hne : ∀ z ∈ Icc (0 : ℝ) s.zMax, 1 + z ≠ 0 := fun z hzz => by linarith [hzz.1]
    have h1 : ContinuousOn (fun z : ℝ => 1 + z) (Icc 0 s.zMax) := by fun_prop
    exact (((hc.mono fun z hzz => hzz.1).div h1 hne).mul
      (continuousOn_const.mul (v_cont.mono fun z hzz => hzz.1))).div_const _
  have hpi : IntegrableOn (p) (Ioc 0 s.zMax) := by
    refine (hcont.integrableOn_Icc.mono_set Ioc_subset_Icc_self).congr_fun (fun z hzz => ?_) measurableSet_Ioc
    rw [pe z hzz.1.le, if_pos hzz.2]
  have hpz : ∀ z ∈ Ioi s.zMax, p z = 0 := fun z hzz => by
    have : s.zMax < z := hzz
    rw [pe z (by linarith), if_neg (not_le.2 this)]
  have hsplit : Ioc 0 s.zMax ∪ Ioi s.zMax = Ioi 0 := Ioc_union_Ioi_eq_Ioi hz0.le
  have hpt : IntegrableOn (p) (Ioi s.zMax) :=
    integrableOn_zero.congr_fun (fun z hzz => (hpz z hzz).symm) measurableSet_Ioi
  refine ⟨hm, fun z hzz => ?_, ?_, ?_, fun z hzz hK => ?_⟩
  · have h0 : 0 ≤ z := le_of_lt hzz
    rw [pe z h0]
    split_ifs
    · exact hnn z h0
    · exact le_rfl
  · rw [← hsplit]
    exact hpi.union hpt
  · rw [← hsplit, setIntegral_union (by
      rw [Set.disjoint_left]
      exact fun x h1 h2 => absurd h1.2 (not_le.2 h2)) measurableSet_Ioi hpi hpt,
      setIntegral_congr_fun measurableSet_Ioi hpz, integral_zero, add_zero,
      ← intervalIntegral.integral_of_le hz0.le]
    refine intervalIntegral.intervalIntegral_pos_of_pos_on
      ((intervalIntegrable_iff_integrableOn_Ioc_of_le hz0.le).2 hpi) (fun z hzz => ?_) hz0
    rw [pe z hzz.1.le, if_pos hzz.2.le]
    exact div_pos (volumeElement_pos h hzz.1) hN
  · rw [abs_of_pos hzz] at hK
    exact hpz z (hK0.trans_lt hK)

end RedshiftErrors

open RedshiftErrors

/-- **C160.** Events with redshifts measured with Gaussian errors, detected from the population `p j₀`, are analysed
for finitely many rates of the package, with the same cosmology, that describe other populations: the posterior is
concentrated on `j₀`. -/
theorem C160_recovers {J : Type} [Fintype J] {p : J → ℝ → ℝ} {j₀ : J} {s : J → Redshift} {φ : J → Dict Fl}
    {psi : J → ℝ → ℝ} {v : ℝ → ℝ} (h : ∀ j, RateAt (s j) (φ j) (psi j) v) (hz : ∀ j, 1e-6 < (s j).zMax)
    (hc : ∀ j, ContinuousOn (psi j) (Ici 0)) (v_cont : ContinuousOn v (Ici 0))
    (hp : ∀ j z, 0 ≤ z → (s j).probability [("redshift", fin z)] (φ j) = .ok (fin (p j z)))
    (hm : ∀ j, Measurable (p j))
    (hne : ∀ j, j ≠ j₀ → ¬ SamePopulation (Ioi 0) (fun z => (s j₀).probability [("redshift", fin z)] (φ j₀))
      (fun z => (s j).probability [("redshift", fin z)] (φ j))) (hw : w ≠ 0) (hD : MeasurableSet Det) :
    Recovers (volume.restrict (Ioi 0)) volume (gaussianErrors w) Det p j₀ := by
  refine recovers_bounded (K := allBelow fun j => (s j).zMax) hw measurableSet_Ioi hD
    (Finset.sum_nonneg fun _ _ => abs_nonneg _)
    (fun j => rate_bounded (h j) (hz j) (hc j) v_cont (hp j) (hm j) (le_allBelow (fun j => (s j).zMax) j))
    fun j hj k hk he => hne j hj (proportional (h j₀) (h j) (hz j₀) (hz j) (hc j₀) (hc j) (hp j₀) (hp j) hk he)

/-- **C160** for the exponent and the largest redshift of the power law in redshift. -/
theorem C160_powerLaw {J : Type} [Fintype J] {p : J → ℝ → ℝ} {j₀ : J} {available : Dict CosmoEntry} {name : String}
    {c : Cosmology} {s : J → Redshift} {lamb zMax : J → ℝ} (hs : ∀ j, Redshift.powerLaw available (zMax j) name = .ok (s j))
    (hc : available.get? name = some (.fixed c)) {v : ℝ → ℝ}
    (hv : ∀ z, 0 ≤ z → c.diffComovingVolume (fin z) = fin (v z)) (v_pos : ∀ z, 0 < z → 0 < v z) (v_zero : 0 ≤ v 0)
    (v_cont : ContinuousOn v (Ici 0)) (hz : ∀ j, 1e-6 < zMax j)
    (hinj : ∀ j, j ≠ j₀ → (lamb j, zMax j) ≠ (lamb j₀, zMax j₀))
    (hp : ∀ j z, 0 ≤ z → (s j).probability [("redshift", fin z)] [("lamb", fin (lamb j))] = .ok (fin (p j z)))
    (hm : ∀ j, Measurable (p j)) (hw : w ≠ 0) (hD : MeasurableSet Det) :
    Recovers (volume.restrict (Ioi 0)) volume (gaussianErrors w) Det p j₀ := by
  have hr := fun j => rateAt_powerLaw (hs j) hc hv v_pos v_zero (lamb j)
  refine C160_recovers (fun j => (hr j).1) (fun j => (hr j).2 ▸ hz j) (fun j x hx => ?_) v_cont hp hm
    (fun j hj hsame => ?_) hw hD
  · exact ((continuousAt_const.add continuousAt_id).rpow_const (Or.inl (by
      have : (0 : ℝ) ≤ x := hx
      show (1 : ℝ) + x ≠ 0
      linarith))).continuousWithinAt
  · obtain ⟨e1, e2⟩ := C156_lamb (hs j₀) (hs j) hc hv v_pos v_zero (hz j₀) (hz j) hsame
    exact hinj j hj (by rw [e1, e2])

/-- **C160** for the rise, the fall, the peak and the largest redshift of the Madau-Dickinson rate. -/
theorem C160_madauDickinson {J : Type} [Fintype J] {p : J → ℝ → ℝ} {j₀ : J} {available : Dict CosmoEntry} {py : Bool}
    {name : String} {c : Cosmology} {s : J → Redshift} {gamma kappa zPeak zMax : J → ℝ}
    (hs : ∀ j, Redshift.madauDickinson available py (zMax j) name = .ok (s j))
    (hc : available.get? name = some (.fixed c)) {v : ℝ → ℝ}
    (hv : ∀ z, 0 ≤ z → c.diffComovingVolume (fin z) = fin (v z)) (v_pos : ∀ z, 0 < z → 0 < v z) (v_zero : 0 ≤ v 0)
    (v_cont : ContinuousOn v (Ici 0)) (hz : ∀ j, 1e-6 < zMax j) (hk : ∀ j, 0 < kappa j) (hzp : ∀ j, -1 < zPeak j)
    (hinj : ∀ j, j ≠ j₀ → (gamma j, kappa j, zPeak j, zMax j) ≠ (gamma j₀, kappa j₀, zPeak j₀, zMax j₀))
    (hp : ∀ j z, 0 ≤ z → (s j).probability [("redshift", fin z)]
      [("gamma", fin (gamma j)), ("kappa", fin (kappa j)), ("z_peak", fin (zPeak j))] = .ok (fin (p j z)))
    (hm : ∀ j, Measurable (p j)) (hw : w ≠ 0) (hD : MeasurableSet Det) :
    Recovers (volume.restrict (Ioi 0)) volume (gaussianErrors w) Det p j₀ := by
  have hr := fun j => rateAt_madauDickinson (hs j) hc hv v_pos v_zero (gamma j) (kappa j) (hzp j)
  refine C160_recovers (fun j => (hr j).1) (fun j => (hr j).2 ▸ hz j) (fun j => Identifiable.madau_cont _ _ (hzp j))
    v_cont hp hm (fun j hj hsame => ?_) hw hD
  obtain ⟨e1, e2, e3, e4⟩ := C156_madau (hs j₀) (hs j) hc hv v_pos v_zero (hz j₀) (hz j) (hk j₀) (hk j) (hzp j₀)
    (hzp j) hsame
  exact hinj j hj (by rw [e1, e2, e3, e4])

/-! ## Non-vacuity -/

/-- Two candidates for the exponent and the largest redshift. -/
example (hw : w ≠ 0) (hD : MeasurableSet Det) : ∃ (s : Bool → Redshift) (p : Bool → ℝ → ℝ),
    (∀ j, Redshift.powerLaw [("Planck15", .fixed toyCosmology)] (if j then 2.3 else 1.9) "Planck15" = .ok (s j)) ∧
    (∀ j, Measurable (p j)) ∧ (∀ j z, 0 ≤ z → (s j).probability [("redshift", fin z)]
      [("lamb", fin (if j then 2.7 else 3))] = .ok (fin (p j z))) ∧
    Recovers (volume.restrict (Ioi 0)) volume (gaussianErrors w) Det p true := by
  have hg : Dict.get? [("Planck15", CosmoEntry.fixed toyCosmology)] "Planck15" = some (.fixed toyCosmology) := by
    simp [Dict.get?_cons]
  have hs : ∀ j : Bool, ∃ s, Redshift.powerLaw [("Planck15", .fixed toyCosmology)] (if j then 2.3 else 1.9)
    "Planck15" = .ok s := fun j => ⟨_, rfl⟩
  choose s hs using hs
  have hz : ∀ j : Bool, (1e-6 : ℝ) < if j then 2.3 else 1.9 := fun j => by cases j <;> norm_num
  have hr := fun j : Bool => rateAt_powerLaw (hs j) hg (v := fun z => z * z) (fun z _ => by simp [toyCosmology])
    (fun z hz => by positivity) (by norm_num) (if j then 2.7 else 3)
  have hN : ∀ j : Bool, ∃ N : ℝ, ∀ z, 0 ≤ z →
      (s j).probability [("redshift", fin z)] [("lamb", fin (if j then 2.7 else 3))] =
        .ok (fin (if z ≤ if j then 2.3 else 1.9 then
          volumeElement (fun z => (1 + z) ^ (if j then 2.7 else 3 : ℝ)) (fun z => z * z) z / N else 0)) := fun j => by
    obtain ⟨hra, hzm⟩ := hr j
    obtain ⟨N, -, h1, -, -⟩ := C31_probability hra (by rw [hzm]; exact hz j)
    rw [hzm] at h1
    exact ⟨N, fun z hz => h1 _ z hz (by simp [Dict.get?_cons])⟩
  choose N hN using hN
  have hm : ∀ j : Bool, Measurable fun z : ℝ => if z ≤ if j then 2.3 else 1.9 then
      volumeElement (fun z => (1 + z) ^ (if j then 2.7 else 3 : ℝ)) (fun z => z * z) z / N j else 0 := fun j => by
    refine Measurable.ite measurableSet_Iic ?_ measurable_const
    unfold volumeElement
    fun_prop
  refine ⟨s, _, hs, hm, hN, C160_powerLaw (zMax := fun j => if j then 2.3 else 1.9) hs hg (v := fun z => z * z)
    (fun z _ => by simp [toyCosmology]) (fun z hz => by positivity) (by norm_num) (by fun_prop) hz
    (lamb := fun j => if j then 2.7 else 3) (fun j hj => ?_) hN hm hw hD⟩
  cases j
  · norm_num
  · exact absurd rfl hj

/-- Two candidates for the peak of the rate; events of the first exist. -/
example (hw : w ≠ 0) : ∃ (s : Redshift) (p : Bool → ℝ → ℝ),
    Redshift.madauDickinson [("Planck15", .fixed toyCosmology)] true 2.3 "Planck15" = .ok s ∧
    (∀ j, Measurable (p j)) ∧ (∀ j z, 0 ≤ z → s.probability [("redshift", fin z)]
      [("gamma", fin 2.7), ("kappa", fin 5.6), ("z_peak", fin (if j then 1.9 else 2))] = .ok (fin (p j z))) ∧
    (∃ (Ω : Type) (_ : MeasurableSpace Ω) (P : Measure Ω) (_ : IsProbabilityMeasure P) (d : ℕ → Ω → ℝ),
      DetectedEvents P (volume.restrict (Ioi 0)) volume (gaussianErrors w) (Iio 1) (p true) d) ∧
    Recovers (volume.restrict (Ioi 0)) volume (gaussianErrors w) (Iio 1) p true := by
  have hg : Dict.get? [("Planck15", CosmoEntry.fixed toyCosmology)] "Planck15" = some (.fixed toyCosmology) := by
    simp [Dict.get?_cons]
  obtain ⟨s, hs⟩ : ∃ s, Redshift.madauDickinson [("Planck15", .fixed toyCosmology)] true 2.3 "Planck15" = .ok s :=
    ⟨_, rfl⟩
  have hzp : ∀ j : Bool, (-1 : ℝ) < if j then 1.9 else 2 := fun j => by cases j <;> norm_num
  have hr := fun j : Bool => rateAt_madauDickinson hs hg (v := fun z => z * z) (fun z _ => by simp [toyCosmology])
    (fun z hz => by positivity) (by norm_num) 2.7 5.6 (hzp j)
  have hN : ∀ j : Bool, ∃ N : ℝ, ∀ z, 0 ≤ z → s.probability [("redshift", fin z)]
      [("gamma", fin 2.7), ("kappa", fin 5.6), ("z_peak", fin (if j then 1.9 else 2))] =
        .ok (fin (if z ≤ 2.3 then volumeElement (madauDickinson 2.7 5.6 (if j then 1.9 else 2)) (fun z => z * z) z / N
          else 0)) := fun j => by
    obtain ⟨hra, hzm⟩ := hr j
    obtain ⟨N, -, h1, -, -⟩ := C31_probability hra (by rw [hzm]; norm_num)
    rw [hzm] at h1
    exact ⟨N, fun z hz => h1 _ z hz (by simp [Dict.get?_cons])⟩
  choose N hN using hN
  have hm : ∀ j : Bool, Measurable fun z : ℝ => if z ≤ 2.3 then
      volumeElement (madauDickinson 2.7 5.6 (if j then 1.9 else 2)) (fun z => z * z) z / N j else 0 := fun j => by
    refine Measurable.ite measurableSet_Iic ?_ measurable_const
    unfold volumeElement madauDickinson
    fun_prop
  refine ⟨s, _, hs, hm, hN, events_exist hw measurableSet_Ioi measurableSet_Iio (by simp)
    (rate_bounded (K := 2.3) (hr true).1 (by rw [(hr true).2]; norm_num) (Identifiable.madau_cont _ _ (hzp true))
      (by fun_prop) (hN true) (hm true) (hr true).2.le),
    C160_madauDickinson (zMax := fun _ => 2.3) (s := fun _ => s) (fun _ => hs) hg (v := fun z => z * z)
    (fun z _ => by simp [toyCosmology]) (fun z hz => by positivity) (by norm_num) (by fun_prop) (fun _ => by norm_num)
    (fun _ => by norm_num) hzp (fun j hj => ?_) hN hm hw measurableSet_Iio⟩
  cases j
  · norm_num
  · exact absurd rfl hj

end GW
