import Verif.Props.MassSingle
import Mathlib.MeasureTheory.Integral.Prod
import Mathlib.MeasureTheory.Measure.Lebesgue.Basic

/-!
# C19, C20: two-dimensional mass models
-/

noncomputable section

open Classical MeasureTheory Set

namespace GW

open Fl Spec

/-! ## C19 -/

namespace Spec

/-- `R` is a joint model of primary mass and mass ratio built from the primary-mass model `P`
with mass-ratio index `beta` and smallest mass `mmin`. -/
structure IsMassRatioModel (R : ℝ → ℝ → Except PyErr Fl) (P : ℝ → Except PyErr Fl)
    (beta mmin : ℝ) : Prop where
  /-- it factors as `p(m1) p(q | m1)`, the second factor being the power law on `[mmin/m1, 1]` -/
  factor : ∀ m q, 0 < m → m ≠ mmin → 0 < q → ∃ p : ℝ, P m = .ok (fin p) ∧
    R m q = .ok (fin (p * normalised (fun t => t ^ beta) (mmin / m) 1 q))
  /-- it vanishes outside the physical region -/
  support : ∀ m q, 0 < m → m ≠ mmin → 0 < q → ¬ (mmin ≤ m ∧ q ≤ 1 ∧ mmin ≤ m * q) →
    R m q = .ok (fin 0)
  /-- integrating out the mass ratio gives the primary-mass model -/
  marginal : ∀ m, mmin < m → ∃ (p : ℝ) (g : ℝ → ℝ), P m = .ok (fin p) ∧
    (∀ q, 0 < q → R m q = .ok (fin (g q))) ∧ IntegrableOn g (Ioi 0) ∧ ∫ q in Ioi 0, g q = p
  /-- the joint density integrates to one -/
  joint : IsDensityOn (fun x : ℝ × ℝ => R x.1 x.2) {x | 0 < x.1 ∧ x.1 ≠ mmin ∧ 0 < x.2}

end Spec

/-- A power law whose window is empty is zero (finite normalisation times a false mask). -/
theorem powerlaw_empty (b : Backend) {x a hi lo : ℝ} (h0 : 0 < hi) (h : hi < lo) (hx : 0 < x) :
    powerlaw b false (pos (fin x)) (pos (fin a)) (pos (fin hi)) (pos (fin lo)) = .ok (fin 0) := by
  rw [powerlaw_eq, if_neg (by simp)]
  have hlo : 0 < lo := h0.trans h
  have e1 : pyDiv false (fin hi) (fin lo) = .ok (fin (hi / lo)) := by
    simp [pyDiv, fin_div hlo.ne']
  have e2 : pyPow false (fin hi) (1 + fin a) = .ok (fin (hi ^ (1 + a))) := by
    simp [pyPow, pow_fin_pos h0]
  have e3 : pyPow false (fin lo) (1 + fin a) = .ok (fin (lo ^ (1 + a))) := by
    simp [pyPow, pow_fin_pos hlo]
  have hlog : Real.log (hi / lo) ≠ 0 := (Real.log_neg (by positivity) ((div_lt_one hlo).2 h)).ne
  have key : ∃ c : ℝ, (if eqf (fin a) (-1) then 1 / Fl.log (fin (hi / lo))
      else (1 + fin a) / (fin (hi ^ (1 + a)) - fin (lo ^ (1 + a)))) = fin c := by
    by_cases ha : a = -1
    · subst ha
      exact ⟨1 / Real.log (hi / lo), by
        rw [if_pos (by simp), log_fin (by positivity), one_eq, fin_div hlog]⟩
    · have hne : hi ^ (1 + a) - lo ^ (1 + a) ≠ 0 := by
        have hp := integral_rpow_pos (a := a) h0 h
        rw [integral_rpow_of_ne h0 h.le ha] at hp
        intro hz
        rw [show lo ^ (1 + a) - hi ^ (1 + a) = 0 by linarith, zero_div] at hp
        exact lt_irrefl _ hp
      exact ⟨(1 + a) / (hi ^ (1 + a) - lo ^ (1 + a)), by
        rw [if_neg (by simpa using ha), one_eq, fin_add, fin_sub, fin_div hne]⟩
  obtain ⟨c, hc⟩ := key
  simp only [powerlawBody, pos_val, e1, e2, e3]
  show Except.ok (Fl.pow (fin x) (fin a) * (if eqf (fin a) (-1) then _ else _) * _) = _
  rw [hc, pow_fin_pos hx, fin_mul, ind_false]
  · simp
  · simp only [fin_le]; rintro ⟨h1, h2⟩; linarith

/-- The conditional mass-ratio factor away from `m1 = mmin`. -/
theorem massRatioFactor_eq (b : Backend) {q beta mmin m : ℝ} (h0 : 0 < mmin) (hm : 0 < m)
    (hne : m ≠ mmin) (hq : 0 < q) :
    massRatioFactor b (fin q) (fin beta) (fin mmin) (fin m) =
      .ok (fin (normalised (fun t => t ^ beta) (mmin / m) 1 q)) := by
  unfold massRatioFactor
  rw [fin_div hm.ne', one_eq]
  rcases lt_or_gt_of_ne hne with hlt | hgt
  · have h1 : 1 < mmin / m := (one_lt_div hm).2 hlt
    rw [powerlaw_empty b one_pos h1 hq]
    have : ¬ (mmin / m ≤ q ∧ q ≤ 1) := by rintro ⟨h2, h3⟩; linarith
    simp only [normalised]; rw [if_neg this]
  · exact C01_powerlaw_value b false false false false false (by positivity)
      ((div_lt_one hm).2 hgt) hq (Or.inr (Or.inl rfl))

/-- Measurable closed form of the conditional density. -/
def ratioKernel (beta mmin m q : ℝ) : ℝ :=
  if mmin < m ∧ mmin / m ≤ q ∧ q ≤ 1 then
    q ^ beta / (if beta = -1 then Real.log (1 / (mmin / m))
      else (1 ^ (1 + beta) - (mmin / m) ^ (1 + beta)) / (1 + beta)) else 0

theorem ratioKernel_eq {beta mmin m : ℝ} (h0 : 0 < mmin) (hm : mmin < m) (q : ℝ) :
    ratioKernel beta mmin m q = normalised (fun t => t ^ beta) (mmin / m) 1 q := by
  have hm0 : 0 < m := h0.trans hm
  have h1 : mmin / m ≤ 1 := ((div_lt_one hm0).2 hm).le
  have h2 : 0 < mmin / m := by positivity
  unfold ratioKernel normalised
  by_cases hq : mmin / m ≤ q ∧ q ≤ 1
  · rw [if_pos ⟨hm, hq⟩, if_pos hq]
    by_cases hb : beta = -1
    · rw [if_pos hb]; subst hb; rw [integral_rpow_neg_one h2 h1]
    · rw [if_neg hb, integral_rpow_of_ne h2 h1 hb]
  · rw [if_neg (fun h => hq h.2), if_neg hq]

theorem ratioKernel_measurable (beta mmin : ℝ) :
    Measurable (fun x : ℝ × ℝ => ratioKernel beta mmin x.1 x.2) := by
  unfold ratioKernel
  refine Measurable.ite ?_ ?_ measurable_const
  · have a1 : MeasurableSet {x : ℝ × ℝ | mmin < x.1} := measurableSet_lt measurable_const measurable_fst
    have a2 : MeasurableSet {x : ℝ × ℝ | mmin / x.1 ≤ x.2} :=
      measurableSet_le (measurable_const.div measurable_fst) measurable_snd
    have a3 : MeasurableSet {x : ℝ × ℝ | x.2 ≤ 1} := measurableSet_le measurable_snd measurable_const
    exact a1.inter (a2.inter a3)
  · refine (measurable_snd.pow_const beta).div ?_
    by_cases hb : beta = -1
    · simp only [hb, if_true]
      exact (measurable_const.div (measurable_const.div measurable_fst)).log
    · simp only [hb, if_false]
      exact (measurable_const.sub ((measurable_const.div measurable_fst).pow_const _)).div_const _

/-- A density times a family of conditional densities is a joint density. -/
theorem joint_integral {f : ℝ → ℝ} {k : ℝ → ℝ → ℝ} {lo hi : ℝ} (hf : IsPdf f lo hi)
    (hk : Measurable (fun x : ℝ × ℝ => k x.1 x.2)) (k0 : ∀ m q, 0 ≤ k m q)
    (hk1 : ∀ m, lo < m → ∫ q, k m q = 1) :
    Integrable (fun x : ℝ × ℝ => f x.1 * k x.1 x.2) ∧ ∫ x : ℝ × ℝ, f x.1 * k x.1 x.2 = 1 := by
  have hne : ∀ᵐ m : ℝ, m ≠ lo := by simp [ae_iff, measure_singleton]
  have hint : ∀ m, lo < m → Integrable (k m) := by
    intro m hm
    by_contra hni
    have := hk1 m hm
    rw [integral_undef hni] at this
    exact zero_ne_one this
  have hin : ∀ᵐ m : ℝ, ∫ q, f m * k m q = f m := by
    filter_upwards [hne] with m hm
    rw [integral_const_mul]
    rcases lt_or_gt_of_ne hm with h | h
    · rw [hf.supp m fun h' => by linarith [h'.1], zero_mul]
    · rw [hk1 m h, mul_one]
  have hmeas : AEStronglyMeasurable (fun x : ℝ × ℝ => f x.1 * k x.1 x.2)
      ((volume : Measure ℝ).prod volume) :=
    (hf.int.aestronglyMeasurable.comp_fst).mul hk.aestronglyMeasurable
  have hI : Integrable (fun x : ℝ × ℝ => f x.1 * k x.1 x.2) ((volume : Measure ℝ).prod volume) := by
    rw [integrable_prod_iff hmeas]
    constructor
    · filter_upwards [hne] with m hm
      rcases lt_or_gt_of_ne hm with h | h
      · simp only [hf.supp m fun h' => by linarith [h'.1], zero_mul]
        exact integrable_zero _ _ _
      · exact (hint m h).const_mul _
    · refine hf.int.congr ?_
      filter_upwards [hin] with m hm
      have e : (fun q => ‖f m * k m q‖) = fun q => f m * k m q := by
        funext q
        exact Real.norm_of_nonneg (mul_nonneg (hf.nonneg m) (k0 m q))
      simp only [e, hm]
  refine ⟨hI, ?_⟩
  rw [Measure.volume_eq_prod, integral_prod _ hI, ← hf.one]
  exact integral_congr_ae hin

/-- Every model of the shape `p_m1 * p_q` is a mass-ratio model. -/
theorem isMassRatioModel_of (b : Backend) {f : ℝ → ℝ} {P : ℝ → Except PyErr Fl}
    {R : ℝ → ℝ → Except PyErr Fl} {beta mmin hi : ℝ} (h0 : 0 < mmin) (hf : IsPdf f mmin hi)
    (hP : ∀ m, 0 < m → P m = .ok (fin (f m)))
    (hR : ∀ m q, R m q = (do
      let pM1 ← P m
      let pQ ← massRatioFactor b (fin q) (fin beta) (fin mmin) (fin m)
      return pM1 * pQ)) : IsMassRatioModel R P beta mmin := by
  have val : ∀ m q, 0 < m → m ≠ mmin → 0 < q →
      R m q = .ok (fin (f m * normalised (fun t => t ^ beta) (mmin / m) 1 q)) := by
    intro m q hm hne hq
    rw [hR, hP m hm, massRatioFactor_eq b h0 hm hne hq]
    rfl
  have hpdf : ∀ m, mmin < m → IsPdf (normalised (fun t => t ^ beta) (mmin / m) 1) (mmin / m) 1 :=
    fun m hm => isPdf_powerlaw beta (div_pos h0 (h0.trans hm)) ((div_lt_one (h0.trans hm)).2 hm)
  refine ⟨fun m q hm hne hq => ⟨f m, hP m hm, val m q hm hne hq⟩, ?_, ?_, ?_⟩
  · intro m q hm hne hq hout
    rw [val m q hm hne hq]
    by_cases hmm : mmin ≤ m
    · have : ¬ (mmin / m ≤ q ∧ q ≤ 1) := by
        rintro ⟨h1, h2⟩
        rw [div_le_iff₀ hm] at h1
        exact hout ⟨hmm, h2, by linarith⟩
      have e : normalised (fun t => t ^ beta) (mmin / m) 1 q = 0 := by
        simp only [normalised]; rw [if_neg this]
      rw [e, mul_zero]
    · rw [hf.supp m fun h => hmm h.1, zero_mul]
  · intro m hm
    have hm0 : 0 < m := h0.trans hm
    refine ⟨f m, fun q => f m * normalised (fun t => t ^ beta) (mmin / m) 1 q, hP m hm0,
      fun q hq => val m q hm0 hm.ne' hq, ((hpdf m hm).int.const_mul _).integrableOn, ?_⟩
    rw [integral_const_mul, (hpdf m hm).integral_subset, mul_one]
    exact fun q hq => (div_pos h0 hm0).trans_le hq.1
  · have hj := joint_integral (k := ratioKernel beta mmin) hf (ratioKernel_measurable beta mmin)
      (by
        intro m q
        by_cases hm : mmin < m
        · rw [ratioKernel_eq h0 hm]; exact (hpdf m hm).nonneg q
        · unfold ratioKernel; rw [if_neg fun h => hm h.1])
      (by
        intro m hm
        rw [← (hpdf m hm).one]
        exact integral_congr_ae (ae_of_all _ fun q => ratioKernel_eq h0 hm q))
    have hk : ∀ m q, 0 < m → m ≠ mmin → f m * normalised (fun t => t ^ beta) (mmin / m) 1 q =
        f m * ratioKernel beta mmin m q := by
      intro m q hm hne
      by_cases hmm : mmin < m
      · rw [ratioKernel_eq h0 hmm]
      · rw [hf.supp m fun h => hne (le_antisymm (not_lt.1 hmm) h.1), zero_mul, zero_mul]
    refine ⟨fun x => f x.1 * ratioKernel beta mmin x.1 x.2, ?_, ?_, hj.1.integrableOn, ?_⟩
    · rintro ⟨m, q⟩ ⟨hm, hne, hq⟩
      exact (val m q hm hne hq).trans (congrArg _ (congrArg _ (hk m q hm hne)))
    · rintro ⟨m, q⟩ ⟨hm, hne, -⟩
      simp only
      rw [← hk m q hm hne]
      by_cases hmm : mmin < m
      · exact mul_nonneg (hf.nonneg m) ((hpdf m hmm).nonneg q)
      · rw [hf.supp m fun h => hne (le_antisymm (not_lt.1 hmm) h.1), zero_mul]
    · rw [setIntegral_eq_integral_of_forall_compl_eq_zero]
      · exact hj.2
      · rintro ⟨m, q⟩ hx
        have : ¬ (mmin < m ∧ mmin / m ≤ q ∧ q ≤ 1) := by
          rintro ⟨h1, h2, -⟩
          exact hx ⟨h0.trans h1, h1.ne', (div_pos h0 (h0.trans h1)).trans_le h2⟩
        simp only [ratioKernel]
        rw [if_neg this, mul_zero]

/-- **C19.** `two_component_primary_mass_ratio`. -/
theorem C19_twoComponentPrimaryMassRatio (b : Backend) (py : Bool)
    {a beta mmin mmax lam mpp sigpp gmm : ℝ}
    (ha : b = .jax ∨ a ≠ -1) (h0 : 0 < mmin) (h : mmin < mmax) (hg : mmin < gmm)
    (hs : 0 < sigpp) (hl0 : 0 ≤ lam) (hl1 : lam ≤ 1) :
    IsMassRatioModel
      (fun m q => twoComponentPrimaryMassRatio b py (fin m) (fin q) (fin a) (fin beta) (fin mmin)
        (fin mmax) (fin lam) (fin mpp) (fin sigpp) (fin gmm))
      (fun m => twoComponentSingle b py (fin m) (fin a) (fin mmin) (fin mmax) (fin lam) (fin mpp)
        (fin sigpp) (fin gmm)) beta mmin :=
  isMassRatioModel_of b h0 (twoComponent_isPdf (a := a) (mpp := mpp) (sigpp := sigpp) h0 h hg hl0 hl1)
    (fun _ hm => C18_twoComponentSingle_value b py ha h0 h hg hs hm) (fun _ _ => rfl)

/-- With `lam = 0` the peak does not matter, even where its window is degenerate. -/
theorem twoComponentSingle_lam_zero (b : Backend) (py : Bool) {m a mmin mmax : ℝ} (mpp gmm : Fl)
    {sigpp : ℝ} (hs : 0 < sigpp) (ha : b = .jax ∨ a ≠ -1) (h0 : 0 < mmin) (h : mmin < mmax)
    (hm : 0 < m) :
    twoComponentSingle b py (fin m) (fin a) (fin mmin) (fin mmax) (fin 0) mpp (fin sigpp) gmm =
      powerLawMass b py (fin m) (fin a) (fin mmin) (fin mmax) := by
  have e1 := C18_powerLawMass_value b py ha h0 h hm
  rcases C04_truncnorm_only_error b (pos (fin m)) (kw mpp) (kw (fin sigpp)) (kw gmm)
    (kw (fin mmin)) with ⟨r, -, hr⟩ | ⟨-, -, -, hs'⟩
  · rw [e1]
    unfold powerLawMass at e1
    simp only [twoComponentSingle, e1, hr]
    show Except.ok _ = _
    simp
  · exact absurd (by simpa using hs) hs'

/-- **C19.** `power_law_primary_mass_ratio` (also for `mmin >= 100`, where the unused Gaussian
peak would have an empty window). -/
theorem C19_powerLawPrimaryMassRatio (b : Backend) (py : Bool) {a beta mmin mmax : ℝ}
    (ha : b = .jax ∨ a ≠ -1) (h0 : 0 < mmin) (h : mmin < mmax) :
    IsMassRatioModel
      (fun m q => powerLawPrimaryMassRatio b py (fin m) (fin q) (fin a) (fin beta) (fin mmin)
        (fin mmax))
      (fun m => powerLawMass b py (fin m) (fin a) (fin mmin) (fin mmax)) beta mmin := by
  have key := isMassRatioModel_of (R := fun m q => powerLawPrimaryMassRatio b py (fin m) (fin q)
      (fin a) (fin beta) (fin mmin) (fin mmax)) (beta := beta) b h0 (isPdf_powerlaw (-a) h0 h)
    (P := fun m => twoComponentSingle b py (fin m) (fin a) (fin mmin) (fin mmax) (fin 0) (fin 35)
      (fin 1) (fin 100))
    (fun m hm => (twoComponentSingle_lam_zero b py _ _ one_pos ha h0 h hm).trans
      (C18_powerLawMass_value b py ha h0 h hm)) (fun _ _ => rfl)
  have hPP : ∀ m : ℝ, 0 < m → _ := fun m hm =>
    twoComponentSingle_lam_zero b py (fin 35) (fin 100) one_pos ha h0 h hm
  refine ⟨fun m q hm hne hq => ?_, key.support, fun m hm => ?_, key.joint⟩
  · obtain ⟨p, hp, hR⟩ := key.factor m q hm hne hq
    exact ⟨p, (hPP m hm).symm.trans hp, hR⟩
  · obtain ⟨p, g, hp, hR⟩ := key.marginal m hm
    exact ⟨p, g, (hPP m (h0.trans hm)).symm.trans hp, hR⟩

/-- **C19.** `double_power_law_primary_power_law_mass_ratio`. -/
theorem C19_doublePowerLawPrimaryPowerLawMassRatio (b : Backend) (py : Bool)
    {a1 a2 beta mmin mmax bf : ℝ}
    (ha1 : b = .jax ∨ a1 ≠ -1) (ha2 : b = .jax ∨ a2 ≠ -1) (h0 : 0 < mmin) (h : mmin < mmax)
    (hbf0 : 0 < bf) (hbf1 : bf < 1) :
    IsMassRatioModel
      (fun m q => doublePowerLawPrimaryPowerLawMassRatio b py (fin m) (fin q) (fin a1) (fin a2)
        (fin beta) (fin mmin) (fin mmax) (fin bf))
      (fun m => doublePowerLawPrimaryMass b py (fin m) (fin a1) (fin a2) (fin mmin) (fin mmax)
        (fin bf)) beta mmin :=
  isMassRatioModel_of b h0
    (isPdf_broken a1 a2 h0 (add_pos h0 (mul_pos hbf0 (by linarith))) h)
    (fun _ hm => C17_doublePowerLaw_value b py ha1 ha2 h0 h hbf0 hbf1 hm) (fun _ _ => rfl)

/-- **C19, why `m1 = mmin` is excluded.** There the conditional window `[mmin/m1, 1]` is a single
point, its normalisation is infinite and the conditional factor is never a finite number. -/
theorem C19_boundary_not_finite (b : Backend) {q beta mmin : ℝ} (h0 : 0 < mmin) (hq : 0 < q) :
    ∃ y, massRatioFactor b (fin q) (fin beta) (fin mmin) (fin mmin) = .ok y ∧ ¬ isFinite y := by
  unfold massRatioFactor
  rw [fin_div h0.ne', one_eq, div_self h0.ne', powerlaw_eq, if_neg (by simp)]
  have e1 : pyDiv false (fin 1) (fin 1) = .ok (fin 1) := by simp [pyDiv, fin_div]
  have e2 : pyPow false (fin 1) (1 + fin beta) = .ok (fin 1) := by
    simp [pyPow, pow_fin_pos one_pos]
  have hc : ∃ c : ℝ, c ≠ 0 ∧ (if eqf (fin beta) (-1) then 1 / Fl.log (fin 1)
      else (1 + fin beta) / (fin 1 - fin 1)) = signInf c := by
    by_cases hb : beta = -1
    · exact ⟨1, one_ne_zero, by rw [if_pos (by simp [hb]), log_fin one_pos]; simp⟩
    · exact ⟨1 + beta, fun h => hb (by linarith), by rw [if_neg (by simpa using hb)]; simp⟩
  obtain ⟨c, hc0, hc⟩ := hc
  simp only [powerlawBody, pos_val, e1, e2]
  refine ⟨_, rfl, ?_⟩
  show ¬ isFinite (Fl.pow (fin q) (fin beta) * (if eqf (fin beta) (-1) then _ else _) * _)
  have hp := Real.rpow_pos_of_pos hq beta
  rw [hc, pow_fin_pos hq, ind_eq]
  rcases lt_or_gt_of_ne hc0 with hn | hn
  · rw [signInf_neg hn, fin_mul_ninf, signInf_neg (by linarith)]
    split_ifs <;> norm_num [signInf]
  · rw [signInf_pos hn, fin_mul_pinf, signInf_pos hp]
    split_ifs <;> simp [signInf]

/-- Non-vacuity. -/
example : IsMassRatioModel
    (fun m q => powerLawPrimaryMassRatio .numpy true (fin m) (fin q) (fin 2.35) (fin (-1)) (fin 5)
      (fin 50))
    (fun m => powerLawMass .numpy true (fin m) (fin 2.35) (fin 5) (fin 50)) (-1) 5 :=
  C19_powerLawPrimaryMassRatio _ _ (by norm_num) (by norm_num) (by norm_num)

example : IsMassRatioModel
    (fun m q => twoComponentPrimaryMassRatio .cupy true (fin m) (fin q) (fin 3.5) (fin 1.3) (fin 5)
      (fin 80) (fin 0.04) (fin 34) (fin 4) (fin 100))
    (fun m => twoComponentSingle .cupy true (fin m) (fin 3.5) (fin 5) (fin 80) (fin 0.04) (fin 34)
      (fin 4) (fin 100)) 1.3 5 :=
  C19_twoComponentPrimaryMassRatio _ _ (by norm_num) (by norm_num) (by norm_num) (by norm_num)
    (by norm_num) (by norm_num) (by norm_num)

example : IsMassRatioModel
    (fun m q => doublePowerLawPrimaryPowerLawMassRatio .numpy true (fin m) (fin q) (fin 1.6)
      (fin 5.6) (fin 1.4) (fin 4) (fin 87) (fin 0.4))
    (fun m => doublePowerLawPrimaryMass .numpy true (fin m) (fin 1.6) (fin 5.6) (fin 4) (fin 87)
      (fin 0.4)) 1.4 4 :=
  C19_doublePowerLawPrimaryPowerLawMassRatio _ _ (by norm_num) (by norm_num) (by norm_num)
    (by norm_num) (by norm_num) (by norm_num)

/-! ## C20 -/

namespace Spec

/-- The property claimed for a primary/secondary-mass model `R`: zero when the secondary is the
heavier one, and a probability density on the positive quadrant. -/
def IsOrderedPairDensity (R : ℝ → ℝ → Except PyErr Fl) : Prop :=
  (∀ m1 m2, 0 < m1 → 0 < m2 → m1 < m2 → R m1 m2 = .ok (fin 0)) ∧
    IsDensityOn (fun x : ℝ × ℝ => R x.1 x.2) {x | 0 < x.1 ∧ 0 < x.2}

end Spec

/-- The values of the ordered pair model built from densities `f`, `k`. -/
def pairVal (f k : ℝ → ℝ) (x : ℝ × ℝ) : ℝ := f x.1 * k x.2 * (if x.2 ≤ x.1 then 1 else 0) * 2

theorem primarySecondaryGeneral_fin (m1 m2 p k : ℝ) :
    primarySecondaryGeneral (fin m1) (fin m2) (fin p) (fin k) =
      fin (p * k * (if m2 ≤ m1 then 1 else 0) * 2) := by
  simp only [primarySecondaryGeneral, ind_eq, fin_mul, fin_le]

theorem pair_meas : MeasurableSet {x : ℝ × ℝ | x.2 ≤ x.1} :=
  measurableSet_le measurable_snd measurable_fst

theorem pairVal_eq_indicator (f k : ℝ → ℝ) :
    pairVal f k = {x : ℝ × ℝ | x.2 ≤ x.1}.indicator (fun x => f x.1 * k x.2 * 2) := by
  funext x
  by_cases h : x.2 ≤ x.1
  · rw [indicator_of_mem (show x ∈ {x : ℝ × ℝ | x.2 ≤ x.1} from h)]; simp [pairVal, h]
  · rw [indicator_of_notMem (show x ∉ {x : ℝ × ℝ | x.2 ≤ x.1} from h)]; simp [pairVal, h]

theorem prod_integrable {f k : ℝ → ℝ} (hf : Integrable f) (hk : Integrable k) :
    Integrable (fun x : ℝ × ℝ => f x.1 * k x.2) := by
  rw [Measure.volume_eq_prod]; exact hf.mul_prod hk

theorem pairVal_integrable {f k : ℝ → ℝ} (hf : Integrable f) (hk : Integrable k) :
    Integrable (pairVal f k) := by
  rw [pairVal_eq_indicator]
  exact ((prod_integrable hf hk).mul_const 2).indicator pair_meas

theorem diag_null : (volume : Measure (ℝ × ℝ)) {x : ℝ × ℝ | x.1 = x.2} = 0 := by
  rw [Measure.volume_eq_prod, Measure.measure_prod_null (measurableSet_eq_fun measurable_fst measurable_snd)]
  refine ae_of_all _ fun a => ?_
  have : Prod.mk a ⁻¹' {x : ℝ × ℝ | x.1 = x.2} = {a} := by ext y; simp [eq_comm]
  show volume (Prod.mk a ⁻¹' {x : ℝ × ℝ | x.1 = x.2}) = 0
  rw [this]; simp

/-- Exchanging the two densities: the two ordered models share a total mass of 2. -/
theorem pairVal_add_swap {f k : ℝ → ℝ} {lo hi lo' hi' : ℝ} (hf : IsPdf f lo hi)
    (hk : IsPdf k lo' hi') : (∫ x, pairVal f k x) + ∫ x, pairVal k f x = 2 := by
  have hswap : ∫ x, pairVal k f x =
      ∫ x : ℝ × ℝ, f x.1 * k x.2 * (if x.1 ≤ x.2 then 1 else 0) * 2 := by
    rw [Measure.volume_eq_prod, ← integral_prod_swap]
    congr 1; funext x
    simp only [pairVal, Prod.fst_swap, Prod.snd_swap]
    ring
  have hprod : ∫ x : ℝ × ℝ, f x.1 * k x.2 = 1 := by
    rw [Measure.volume_eq_prod, integral_prod_mul, hf.one, hk.one, mul_one]
  have hI2 : Integrable (fun x : ℝ × ℝ => f x.1 * k x.2 * (if x.1 ≤ x.2 then 1 else 0) * 2) := by
    have : (fun x : ℝ × ℝ => f x.1 * k x.2 * (if x.1 ≤ x.2 then 1 else 0) * 2) =
        {x : ℝ × ℝ | x.1 ≤ x.2}.indicator (fun x => f x.1 * k x.2 * 2) := by
      funext x
      by_cases h : x.1 ≤ x.2
      · rw [indicator_of_mem (show x ∈ {x : ℝ × ℝ | x.1 ≤ x.2} from h)]; simp [h]
      · rw [indicator_of_notMem (show x ∉ {x : ℝ × ℝ | x.1 ≤ x.2} from h)]; simp [h]
    rw [this]
    exact ((prod_integrable hf.int hk.int).mul_const 2).indicator
      (measurableSet_le measurable_fst measurable_snd)
  rw [hswap, ← integral_add (pairVal_integrable hf.int hk.int) hI2]
  have hae : ∀ᵐ x : ℝ × ℝ, x.1 ≠ x.2 := by
    rw [ae_iff]; simpa using diag_null
  have : ∫ x : ℝ × ℝ, (pairVal f k x + f x.1 * k x.2 * (if x.1 ≤ x.2 then 1 else 0) * 2) =
      ∫ x : ℝ × ℝ, f x.1 * k x.2 * 2 := by
    apply integral_congr_ae
    filter_upwards [hae] with x hx
    rcases lt_or_gt_of_ne hx with h | h
    · simp [pairVal, h.le, not_le.2 h]
    · simp [pairVal, h.le, not_le.2 h]
  rw [this, integral_mul_const, hprod, one_mul]

theorem pairVal_integral_quadrant {f k : ℝ → ℝ} {lo hi lo' hi' : ℝ} (h0 : 0 < lo) (h0' : 0 < lo')
    (hf : IsPdf f lo hi) (hk : IsPdf k lo' hi') :
    ∫ x in {x : ℝ × ℝ | 0 < x.1 ∧ 0 < x.2}, pairVal f k x = ∫ x, pairVal f k x := by
  apply setIntegral_eq_integral_of_forall_compl_eq_zero
  rintro ⟨m1, m2⟩ hx
  by_cases h1 : 0 < m1
  · have h2 : ¬ 0 < m2 := fun h2 => hx ⟨h1, h2⟩
    simp [pairVal, hk.supp m2 fun h => h2 (h0'.trans_le h.1)]
  · simp [pairVal, hf.supp m1 fun h => h1 (h0.trans_le h.1)]

theorem pairVal_nonneg {f k : ℝ → ℝ} {lo hi lo' hi' : ℝ}
    (hf : IsPdf f lo hi) (hk : IsPdf k lo' hi') (x : ℝ × ℝ) : 0 ≤ pairVal f k x := by
  unfold pairVal
  have := hf.nonneg x.1
  have := hk.nonneg x.2
  split_ifs <;> positivity

/-- An ordered pair model of two equal densities has the claimed property. -/
theorem isOrderedPairDensity_of {R : ℝ → ℝ → Except PyErr Fl} {f : ℝ → ℝ} {lo hi : ℝ}
    (h0 : 0 < lo) (hf : IsPdf f lo hi)
    (hR : ∀ m1 m2, 0 < m1 → 0 < m2 → R m1 m2 = .ok (fin (pairVal f f (m1, m2)))) :
    IsOrderedPairDensity R := by
  refine ⟨fun m1 m2 h1 h2 hlt => ?_, pairVal f f, fun x hx => hR _ _ hx.1 hx.2,
    fun x _ => pairVal_nonneg hf hf x, (pairVal_integrable hf.int hf.int).integrableOn, ?_⟩
  · rw [hR _ _ h1 h2]; simp [pairVal, not_le.2 hlt]
  · rw [pairVal_integral_quadrant h0 h0 hf hf]
    linarith [pairVal_add_swap hf hf]

theorem powerLawIndependent_val (b : Backend) (py : Bool) {m1 m2 a beta mmin mmax : ℝ}
    (h0 : 0 < mmin) (h : mmin < mmax) (h1 : 0 < m1) (h2 : 0 < m2) :
    powerLawPrimarySecondaryIndependent b py (fin m1) (fin m2) (fin a) (fin beta) (fin mmin)
        (fin mmax) =
      .ok (fin (pairVal (normalised (fun t => t ^ (-a)) mmin mmax)
        (normalised (fun t => t ^ (-beta)) mmin mmax) (m1, m2))) := by
  have e1 := C01_powerlaw_value b py false false false false (a := -a) h0 h h1 (Or.inr (Or.inl rfl))
  have e2 := C01_powerlaw_value b py false false false false (a := -beta) h0 h h2
    (Or.inr (Or.inl rfl))
  simp only [powerLawPrimarySecondaryIndependent, pos, fin_neg, e1, e2]
  show Except.ok (primarySecondaryGeneral _ _ _ _) = _
  rw [primarySecondaryGeneral_fin]; rfl

theorem twoComponentIndependent_val (b : Backend) (py : Bool)
    {m1 m2 a beta mmin mmax lam mpp sigpp gmm : ℝ}
    (ha : b = .jax ∨ a ≠ -1) (hb : b = .jax ∨ beta ≠ -1)
    (h0 : 0 < mmin) (h : mmin < mmax) (hg : mmin < gmm) (hs : 0 < sigpp)
    (h1 : 0 < m1) (h2 : 0 < m2) :
    twoComponentPrimarySecondaryIndependent b py (fin m1) (fin m2) (fin a) (fin beta) (fin mmin)
        (fin mmax) (fin lam) (fin mpp) (fin sigpp) (fin gmm) =
      .ok (fin (pairVal
        (fun m => (1 - lam) * normalised (fun t => t ^ (-a)) mmin mmax m +
          lam * normalised (bell mpp sigpp) mmin gmm m)
        (fun m => (1 - lam) * normalised (fun t => t ^ (-beta)) mmin mmax m +
          lam * normalised (bell mpp sigpp) mmin gmm m) (m1, m2))) := by
  have e1 := C18_twoComponentSingle_value b py (lam := lam) (mpp := mpp) ha h0 h hg hs h1
  have e2 := C18_twoComponentSingle_value b py (lam := lam) (mpp := mpp) hb h0 h hg hs h2
  simp only [twoComponentPrimarySecondaryIndependent, e1, e2]
  show Except.ok (primarySecondaryGeneral _ _ _ _) = _
  rw [primarySecondaryGeneral_fin]; rfl

/-- **C20 (identical variants).** -/
theorem C20_powerLawIdentical (b : Backend) (py : Bool) {a mmin mmax : ℝ}
    (h0 : 0 < mmin) (h : mmin < mmax) :
    IsOrderedPairDensity (fun m1 m2 => powerLawPrimarySecondaryIdentical b py (fin m1) (fin m2)
      (fin a) (fin mmin) (fin mmax)) :=
  isOrderedPairDensity_of h0 (isPdf_powerlaw (-a) h0 h)
    (fun _ _ h1 h2 => powerLawIndependent_val b py h0 h h1 h2)

/-- **C20 (identical variants).** -/
theorem C20_twoComponentIdentical (b : Backend) (py : Bool) {a mmin mmax lam mpp sigpp gmm : ℝ}
    (ha : b = .jax ∨ a ≠ -1) (h0 : 0 < mmin) (h : mmin < mmax) (hg : mmin < gmm)
    (hs : 0 < sigpp) (hl0 : 0 ≤ lam) (hl1 : lam ≤ 1) :
    IsOrderedPairDensity (fun m1 m2 => twoComponentPrimarySecondaryIdentical b py (fin m1)
      (fin m2) (fin a) (fin mmin) (fin mmax) (fin lam) (fin mpp) (fin sigpp) (fin gmm)) :=
  isOrderedPairDensity_of h0 (twoComponent_isPdf (a := a) (mpp := mpp) (sigpp := sigpp) h0 h hg
    hl0 hl1) (fun _ _ h1 h2 => twoComponentIndependent_val b py ha ha h0 h hg hs h1 h2)

example : IsOrderedPairDensity (fun m1 m2 => powerLawPrimarySecondaryIdentical .numpy true (fin m1)
    (fin m2) (fin 2.35) (fin 5) (fin 50)) := C20_powerLawIdentical _ _ (by norm_num) (by norm_num)

example : IsOrderedPairDensity (fun m1 m2 => twoComponentPrimarySecondaryIdentical .numpy true
    (fin m1) (fin m2) (fin 2.35) (fin 5) (fin 50) (fin 0.1) (fin 35) (fin 4) (fin 100)) :=
  C20_twoComponentIdentical _ _ (by norm_num) (by norm_num) (by norm_num) (by norm_num)
    (by norm_num) (by norm_num) (by norm_num)

/-- **C20, full statement for the independent variant.** -/
def C20_statement : Prop :=
  ∀ (b : Backend) (py : Bool) (a beta mmin mmax : ℝ), 0 < mmin → mmin < mmax →
    IsOrderedPairDensity (fun m1 m2 => powerLawPrimarySecondaryIndependent b py (fin m1) (fin m2)
      (fin a) (fin beta) (fin mmin) (fin mmax))

/-- **C20, what holds for the independent variants.** They vanish for `m1 < m2` and are
non-negative, but the constant 2 only normalises the sum of the model and the model with the
two indices exchanged: their integrals add up to 2. So the model is normalised iff exchanging
the indices does not change its integral. -/
theorem C20_powerLawIndependent_partial (b : Backend) (py : Bool) {a beta mmin mmax : ℝ}
    (h0 : 0 < mmin) (h : mmin < mmax) :
    let R := fun a beta m1 m2 : ℝ => powerLawPrimarySecondaryIndependent b py (fin m1) (fin m2)
      (fin a) (fin beta) (fin mmin) (fin mmax)
    let Q := {x : ℝ × ℝ | 0 < x.1 ∧ 0 < x.2}
    (∀ m1 m2, 0 < m1 → 0 < m2 → m1 < m2 → R a beta m1 m2 = .ok (fin 0)) ∧
    ∃ g g' : ℝ × ℝ → ℝ,
      (∀ x ∈ Q, R a beta x.1 x.2 = .ok (fin (g x)) ∧ R beta a x.1 x.2 = .ok (fin (g' x)) ∧
        0 ≤ g x ∧ 0 ≤ g' x) ∧
      IntegrableOn g Q ∧ IntegrableOn g' Q ∧ (∫ x in Q, g x) + ∫ x in Q, g' x = 2 := by
  intro R Q
  have pa := isPdf_powerlaw (-a) h0 h
  have pb := isPdf_powerlaw (-beta) h0 h
  have v1 := fun a beta (x : ℝ × ℝ) (hx : x ∈ Q) =>
    powerLawIndependent_val b py (a := a) (beta := beta) h0 h hx.1 hx.2
  refine ⟨fun m1 m2 h1 h2 hlt => ?_, _, _, fun x hx => ⟨v1 a beta x hx, v1 beta a x hx,
    pairVal_nonneg pa pb x, pairVal_nonneg pb pa x⟩,
    (pairVal_integrable pa.int pb.int).integrableOn,
    (pairVal_integrable pb.int pa.int).integrableOn, ?_⟩
  · exact (v1 a beta (m1, m2) ⟨h1, h2⟩).trans (by simp [pairVal, not_le.2 hlt])
  · rw [pairVal_integral_quadrant h0 h0 pa pb, pairVal_integral_quadrant h0 h0 pb pa]
    exact pairVal_add_swap pa pb

/-- **C20, what holds for the independent variants** (power law plus peak). -/
theorem C20_twoComponentIndependent_partial (b : Backend) (py : Bool)
    {a beta mmin mmax lam mpp sigpp gmm : ℝ} (ha : b = .jax ∨ a ≠ -1) (hb : b = .jax ∨ beta ≠ -1)
    (h0 : 0 < mmin) (h : mmin < mmax) (hg : mmin < gmm)
    (hs : 0 < sigpp) (hl0 : 0 ≤ lam) (hl1 : lam ≤ 1) :
    let R := fun a beta m1 m2 : ℝ => twoComponentPrimarySecondaryIndependent b py (fin m1) (fin m2)
      (fin a) (fin beta) (fin mmin) (fin mmax) (fin lam) (fin mpp) (fin sigpp) (fin gmm)
    let Q := {x : ℝ × ℝ | 0 < x.1 ∧ 0 < x.2}
    (∀ m1 m2, 0 < m1 → 0 < m2 → m1 < m2 → R a beta m1 m2 = .ok (fin 0)) ∧
    ∃ g g' : ℝ × ℝ → ℝ,
      (∀ x ∈ Q, R a beta x.1 x.2 = .ok (fin (g x)) ∧ R beta a x.1 x.2 = .ok (fin (g' x)) ∧
        0 ≤ g x ∧ 0 ≤ g' x) ∧
      IntegrableOn g Q ∧ IntegrableOn g' Q ∧ (∫ x in Q, g x) + ∫ x in Q, g' x = 2 := by
  intro R Q
  have pa := twoComponent_isPdf (a := a) (mpp := mpp) (sigpp := sigpp) h0 h hg hl0 hl1
  have pb := twoComponent_isPdf (a := beta) (mpp := mpp) (sigpp := sigpp) h0 h hg hl0 hl1
  have v1 := fun (x : ℝ × ℝ) (hx : x ∈ Q) =>
    twoComponentIndependent_val b py (a := a) (beta := beta) (lam := lam) (mpp := mpp) ha hb h0 h
      hg hs hx.1 hx.2
  have v2 := fun (x : ℝ × ℝ) (hx : x ∈ Q) =>
    twoComponentIndependent_val b py (a := beta) (beta := a) (lam := lam) (mpp := mpp) hb ha h0 h
      hg hs hx.1 hx.2
  refine ⟨fun m1 m2 h1 h2 hlt => ?_, _, _, fun x hx => ⟨v1 x hx, v2 x hx,
    pairVal_nonneg pa pb x, pairVal_nonneg pb pa x⟩,
    (pairVal_integrable pa.int pb.int).integrableOn,
    (pairVal_integrable pb.int pa.int).integrableOn, ?_⟩
  · exact (v1 (m1, m2) ⟨h1, h2⟩).trans (by simp [pairVal, not_le.2 hlt])
  · rw [pairVal_integral_quadrant h0 h0 pa pb, pairVal_integral_quadrant h0 h0 pb pa]
    exact pairVal_add_swap pa pb

/-- Uniform primary (index 0) and linearly growing secondary (index 1) on `[1, 2]`. -/
theorem pairVal_uniform_linear :
    ∫ x, pairVal (normalised (fun t => t ^ (-0 : ℝ)) 1 2) (normalised (fun t => t ^ (-(-1) : ℝ)) 1 2) x
      = 8 / 9 := by
  have p0 := isPdf_powerlaw (-0) (lo := 1) (hi := 2) one_pos (by norm_num)
  have p1 := isPdf_powerlaw (-(-1)) (lo := 1) (hi := 2) one_pos (by norm_num)
  have n0 : ∀ t : ℝ, normalised (fun t => t ^ (-0 : ℝ)) 1 2 t = if 1 ≤ t ∧ t ≤ 2 then 1 else 0 := by
    intro t
    unfold normalised
    simp only [neg_zero, Real.rpow_zero, intervalIntegral.integral_const]
    norm_num
  have n1 : ∀ t : ℝ, normalised (fun t => t ^ (-(-1) : ℝ)) 1 2 t =
      if 1 ≤ t ∧ t ≤ 2 then t * (2 / 3) else 0 := by
    intro t
    unfold normalised
    simp only [neg_neg, Real.rpow_one, integral_id]
    split_ifs
    · ring
    · rfl
  rw [Measure.volume_eq_prod, ← integral_prod_swap,
    integral_prod _ (by
      have := (pairVal_integrable p0.int p1.int)
      rw [Measure.volume_eq_prod] at this
      exact this.swap)]
  have inner : ∀ y : ℝ, ∫ x, pairVal (normalised (fun t => t ^ (-0 : ℝ)) 1 2)
      (normalised (fun t => t ^ (-(-1) : ℝ)) 1 2) (Prod.swap (y, x)) =
      (Icc (1 : ℝ) 2).indicator (fun y => 4 / 3 * y * (2 - y)) y := by
    intro y
    by_cases hy : y ∈ Icc (1 : ℝ) 2
    · rw [indicator_of_mem hy]
      have : (fun x => pairVal (normalised (fun t => t ^ (-0 : ℝ)) 1 2)
          (normalised (fun t => t ^ (-(-1) : ℝ)) 1 2) (Prod.swap (y, x))) =
          (Icc y 2).indicator (fun _ => y * (2 / 3) * 2) := by
        funext x
        simp only [pairVal, Prod.fst_swap, Prod.snd_swap, n0, n1]
        rw [if_pos (show 1 ≤ y ∧ y ≤ 2 from hy)]
        by_cases hx : x ∈ Icc y 2
        · rw [indicator_of_mem hx, if_pos ⟨hy.1.trans hx.1, hx.2⟩, if_pos hx.1]; ring
        · rw [indicator_of_notMem hx]
          by_cases hyx : y ≤ x
          · rw [if_neg (show ¬ (1 ≤ x ∧ x ≤ 2) from fun h => hx ⟨hyx, h.2⟩)]; ring
          · rw [if_neg (show ¬ y ≤ x from hyx)]; ring
      rw [this, integral_indicator measurableSet_Icc, integral_const]
      simp only [measureReal_restrict_apply_univ, Real.volume_real_Icc_of_le hy.2, smul_eq_mul]
      ring
    · rw [indicator_of_notMem hy]
      have : (fun x => pairVal (normalised (fun t => t ^ (-0 : ℝ)) 1 2)
          (normalised (fun t => t ^ (-(-1) : ℝ)) 1 2) (Prod.swap (y, x))) = fun _ => 0 := by
        funext x
        simp only [pairVal, Prod.fst_swap, Prod.snd_swap, n1]
        rw [if_neg (show ¬ (1 ≤ y ∧ y ≤ 2) from hy)]; ring
      rw [this, integral_zero]
  simp_rw [inner]
  rw [integral_indicator measurableSet_Icc, integral_Icc_eq_integral_Ioc,
    ← intervalIntegral.integral_of_le (by norm_num)]
  have e : (fun y : ℝ => 4 / 3 * y * (2 - y)) = fun y => 8 / 3 * y - 4 / 3 * y ^ 2 := by
    funext y; ring
  rw [e, intervalIntegral.integral_sub
      ((by fun_prop : Continuous fun y : ℝ => 8 / 3 * y).intervalIntegrable _ _)
      ((by fun_prop : Continuous fun y : ℝ => 4 / 3 * y ^ 2).intervalIntegrable _ _),
    intervalIntegral.integral_const_mul, intervalIntegral.integral_const_mul, integral_id,
    integral_pow]
  norm_num

/-- **C20 fails** for the independent variant: with a uniform primary and a linearly growing
secondary on `[1, 2]` the integral is 8/9. -/
theorem C20_fails : ¬ C20_statement := by
  intro hs
  obtain ⟨-, g, hg, -, -, hone⟩ := hs .numpy false 0 (-1) 1 2 one_pos (by norm_num)
  have p0 := isPdf_powerlaw (-0) (lo := 1) (hi := 2) one_pos (by norm_num)
  have p1 := isPdf_powerlaw (-(-1)) (lo := 1) (hi := 2) one_pos (by norm_num)
  have hQ : MeasurableSet {x : ℝ × ℝ | 0 < x.1 ∧ 0 < x.2} :=
    (measurableSet_lt measurable_const measurable_fst).inter
      (measurableSet_lt measurable_const measurable_snd)
  have heq : ∀ x ∈ {x : ℝ × ℝ | 0 < x.1 ∧ 0 < x.2}, g x =
      pairVal (normalised (fun t => t ^ (-0 : ℝ)) 1 2) (normalised (fun t => t ^ (-(-1) : ℝ)) 1 2) x := by
    intro x hx
    have h1 := hg x hx
    have h2 := powerLawIndependent_val .numpy false (a := 0) (beta := -1) (mmin := 1) (mmax := 2)
      one_pos (by norm_num) hx.1 hx.2
    have := h1.symm.trans h2
    simpa using this
  rw [setIntegral_congr_fun hQ heq, pairVal_integral_quadrant one_pos one_pos p0 p1,
    pairVal_uniform_linear] at hone
  norm_num at hone

example := C20_powerLawIndependent_partial .numpy true (a := 2.35) (beta := 1) (mmin := 5)
  (mmax := 50) (by norm_num) (by norm_num)

end GW
