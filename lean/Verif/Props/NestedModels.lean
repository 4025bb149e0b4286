import Verif.Props.Nested
import Verif.Props.Spin
import Verif.Props.Redshift

/-!
# Joint mass models, spin models and redshift models that contain simpler ones (C111)
-/

noncomputable section

open Classical

namespace GW

open Fl Spec

namespace Nested

/-! ### Joint mass models -/

/-- **C111**: without the peak, `two_component_primary_mass_ratio` is `power_law_primary_mass_ratio`, wherever
the peak is. -/
theorem C111_joint_noPeak (b : Backend) (py : Bool) (m1 q alpha beta mmin mmax mpp sigpp gmm : Fl)
    (hs : b = .jax ∨ 0 < sigpp) :
    twoComponentPrimaryMassRatio b py m1 q alpha beta mmin mmax (fin 0) mpp sigpp gmm =
      powerLawPrimaryMassRatio b py m1 q alpha beta mmin mmax := by
  unfold powerLawPrimaryMassRatio twoComponentPrimaryMassRatio
  rw [C111_noPeak b py m1 alpha mmin mmax mpp sigpp gmm hs,
    C111_noPeak b py m1 alpha mmin mmax (fin 35) (fin 1) (fin 100) (Or.inr (by simp))]

/-- **C111**: with equal slopes, `double_power_law_primary_power_law_mass_ratio` is
`power_law_primary_mass_ratio`, wherever the break is. -/
theorem C111_joint_equalSlopes_partial (b : Backend) (py : Bool) {m1 a mmin mmax bf : ℝ} (q beta : Fl)
    (ha : b = .jax ∨ a ≠ -1) (h0 : 0 < mmin) (h : mmin < mmax) (hbf0 : 0 < bf) (hbf1 : bf < 1) (hm : 0 < m1) :
    doublePowerLawPrimaryPowerLawMassRatio b py (fin m1) q (fin a) (fin a) beta (fin mmin) (fin mmax) (fin bf) =
      powerLawPrimaryMassRatio b py (fin m1) q (fin a) beta (fin mmin) (fin mmax) := by
  unfold powerLawPrimaryMassRatio twoComponentPrimaryMassRatio doublePowerLawPrimaryPowerLawMassRatio
  rw [C111_equalSlopes_partial b py ha h0 h hbf0 hbf1 hm,
    C111_noPeak b py (fin m1) (fin a) (fin mmin) (fin mmax) (fin 35) (fin 1) (fin 100) (Or.inr (by simp))]

/-- **C111**: without the peak, the models of two component masses are those of two power laws, when the latter
accept the parameters. -/
theorem C111_pair_noPeak (b : Backend) (py : Bool) {m1 m2 a c mmin mmax : ℝ} (mpp sigpp gmm : Fl)
    (ha : b = .jax ∨ a ≠ -1) (hc : b = .jax ∨ c ≠ -1) (h0 : 0 < mmin) (h : mmin < mmax) (hm1 : 0 < m1)
    (hm2 : 0 < m2) (hs : b = .jax ∨ 0 < sigpp) :
    twoComponentPrimarySecondaryIndependent b py (fin m1) (fin m2) (fin a) (fin c) (fin mmin) (fin mmax) (fin 0)
        mpp sigpp gmm =
      powerLawPrimarySecondaryIndependent b py (fin m1) (fin m2) (fin a) (fin c) (fin mmin) (fin mmax) := by
  have key : ∀ {x e : ℝ}, b = .jax ∨ e ≠ -1 → 0 < x →
      powerLawMass b py (fin x) (fin e) (fin mmin) (fin mmax) =
        powerlaw b py (pos (fin x)) (pos (-fin e)) (pos (fin mmax)) (pos (fin mmin)) := by
    intro x e he hx
    unfold powerLawMass
    rw [powerlaw_eq, powerlaw_eq, if_neg, if_neg (by simp)]
    · rfl
    · rintro ⟨hb, h' | h'⟩
      · exact h'.2 (by simp [kw, h0.le])
      · rcases he with he | he
        · exact hb he
        · have := h'.2
          simp only [kw, one_eq, eqf_fin, fin_neg] at this
          exact he (by linarith)
  unfold twoComponentPrimarySecondaryIndependent powerLawPrimarySecondaryIndependent
  rw [C111_noPeak b py _ _ _ _ _ _ _ hs, C111_noPeak b py _ _ _ _ _ _ _ hs, key ha hm1, key hc hm2]

/-- **C111**: with equal slopes, the independent pair models are the identical ones. -/
theorem C111_pair_identical (b : Backend) (py : Bool) (m1 m2 alpha mmin mmax lam mpp sigpp gmm : Fl) :
    powerLawPrimarySecondaryIndependent b py m1 m2 alpha alpha mmin mmax =
      powerLawPrimarySecondaryIdentical b py m1 m2 alpha mmin mmax ∧
    twoComponentPrimarySecondaryIndependent b py m1 m2 alpha alpha mmin mmax lam mpp sigpp gmm =
      twoComponentPrimarySecondaryIdentical b py m1 m2 alpha mmin mmax lam mpp sigpp gmm := ⟨rfl, rfl⟩

/-! ### Spins -/

theorem truncnorm_pos_returns (b : Backend) (x mu sigma high low : Fl) :
    ∃ r : ℝ, 0 ≤ r ∧ truncnorm b (pos x) (pos mu) (pos sigma) (pos high) (pos low) = .ok (fin r) := by
  obtain ⟨r, h0, h1, -⟩ := C04_truncnorm_total b x mu sigma high low
  exact ⟨r, h0, h1⟩

/-- **C111**: with `xi_spin = 0` the spin orientations are isotropic: 1/4 for any cosines, any means and widths,
even those that are not finite. -/
theorem C111_isotropic (b : Backend) {d : Dict Fl} {z1 z2 : Fl} (h1 : d.get? "cos_tilt_1" = some z1)
    (h2 : d.get? "cos_tilt_2" = some z2) (s1 s2 mu1 mu2 : Fl) :
    independentSpinOrientation b d (fin 0) s1 s2 mu1 mu2 = .ok (fin (1 / 4)) := by
  obtain ⟨r1, -, e1⟩ := truncnorm_pos_returns b z1 mu1 s1 1 (-1)
  obtain ⟨r2, -, e2⟩ := truncnorm_pos_returns b z2 mu2 s2 1 (-1)
  rw [orientation_eq b h1 h2, e1, e2, ok_bind, ok_bind]
  show Except.ok _ = _
  simp only [one_eq, fin_sub, ofNat_eq, fin_mul, fin_add, fin_div (four_ne_zero' ℝ)]
  norm_num

/-- **C111**: with `xi_spin = 1` only the aligned part remains. -/
theorem C111_aligned (b : Backend) {d : Dict Fl} {z1 z2 : Fl} (h1 : d.get? "cos_tilt_1" = some z1)
    (h2 : d.get? "cos_tilt_2" = some z2) (s1 s2 mu1 mu2 : Fl) :
    independentSpinOrientation b d (fin 1) s1 s2 mu1 mu2 = (do
      let p1 ← truncnorm b (pos z1) (pos mu1) (pos s1) (pos 1) (pos (-1))
      let p2 ← truncnorm b (pos z2) (pos mu2) (pos s2) (pos 1) (pos (-1))
      return p1 * p2) := by
  obtain ⟨r1, -, e1⟩ := truncnorm_pos_returns b z1 mu1 s1 1 (-1)
  obtain ⟨r2, -, e2⟩ := truncnorm_pos_returns b z2 mu2 s2 1 (-1)
  rw [orientation_eq b h1 h2, e1, e2]
  show Except.ok _ = Except.ok _
  simp only [one_eq, fin_sub, ofNat_eq, fin_mul, fin_add, fin_div (four_ne_zero' ℝ)]
  norm_num

/-- **C111**: with `alpha = beta = 1` the spin magnitudes are uniform: `1 / (amax_1 * amax_2)` between zero and
the maxima. -/
theorem C111_uniformMagnitudes_partial (junk : Fl → Fl → Fl) (b : Backend) {d : Dict Fl} {a1 a2 A1 A2 : ℝ}
    (h1 : d.get? "a_1" = some (fin a1)) (h2 : d.get? "a_2" = some (fin a2)) (hx1 : 0 < a1) (hx1' : a1 < A1)
    (hx2 : 0 < a2) (hx2' : a2 < A2) :
    independentSpinMagnitudeBeta junk b d (fin 1) (fin 1) (fin 1) (fin 1) (fin A1) (fin A2) =
      .ok (fin (1 / (A1 * A2))) := by
  rw [C28_value junk b h1 h2 one_pos one_pos one_pos one_pos hx1 hx1' hx2 hx2']
  have : ∀ {x A : ℝ}, 0 < x → x < A →
      Spec.normalised (fun t => t ^ ((1 : ℝ) - 1) * (A - t) ^ ((1 : ℝ) - 1)) 0 A x = 1 / A := by
    intro x A hx hA
    unfold Spec.normalised
    rw [if_pos ⟨hx.le, hA.le⟩]
    simp
  rw [this hx1 hx1', this hx2 hx2', one_div_mul_one_div]

/-- **C111**: the default spin population with `xi_spin = 0` and `alpha_chi = beta_chi = 1` is uniform in the
magnitudes and isotropic. -/
theorem C111_uniformSpins_partial (junk : Fl → Fl → Fl) (b : Backend) {d : Dict Fl} {z1 z2 : Fl} {a1 a2 A : ℝ}
    (h1 : d.get? "a_1" = some (fin a1)) (h2 : d.get? "a_2" = some (fin a2)) (h3 : d.get? "cos_tilt_1" = some z1)
    (h4 : d.get? "cos_tilt_2" = some z2) (hx1 : 0 < a1) (hx1' : a1 < A) (hx2 : 0 < a2) (hx2' : a2 < A) (s : Fl) :
    iidSpin junk b d (fin 0) s (fin A) (fin 1) (fin 1) = .ok (fin (1 / 4 * (1 / (A * A)))) := by
  unfold iidSpin iidSpinOrientation iidSpinMagnitudeBeta
  rw [C111_isotropic b h3 h4, C111_uniformMagnitudes_partial junk b h1 h2 hx1 hx1' hx2 hx2']
  rfl

/-! ### Redshifts -/

theorem half_mul_two (x : Fl) : x / fin 2 * fin 2 = x := by
  cases x with
  | fin r => rw [fin_div (by norm_num), fin_mul]; congr 1; ring
  | pinf => simp [pinf_div_fin, signInf]
  | ninf => simp [ninf_div_fin, signInf, show ¬ (2:ℝ) < 0 by norm_num]
  | nan => simp

/-- With `kappa = 0` the Madau–Dickinson rate is a power of `1 + z`, for all floats. -/
theorem psi_kappa_zero (py : Bool) (z gamma zPeak : Fl) {kw kw' : Dict Fl}
    (hg : kw.get? "gamma" = some gamma) (hk : kw.get? "kappa" = some (fin 0)) (hz : kw.get? "z_peak" = some zPeak)
    (hl : kw'.get? "lamb" = some gamma) :
    psiMadauDickinson py z kw = psiPowerLaw z kw' := by
  unfold psiMadauDickinson psiPowerLaw
  simp only [Dict.get, hg, hk, hz, hl]
  have e1 : ∀ x : Fl, Fl.pow x (fin 0) = 1 := fun x => by
    cases x <;> simp [Fl.pow, powFin, one_eq]
    exact fun _ _ => ⟨0, by simp⟩
  have e2 : pyPow py (1 + zPeak) (-fin 0) = .ok 1 := by
    rw [fin_neg, neg_zero]
    unfold pyPow
    rw [if_neg (by simp)]
    exact congrArg Except.ok (e1 _)
  show ((pyPow py (1 + zPeak) (-fin 0)) >>= fun corr => Except.ok (Fl.pow (1 + z) gamma /
    (1 + Fl.pow ((1 + z) / (1 + zPeak)) (fin 0)) * (1 + corr))) = Except.ok (Fl.pow (1 + z) gamma)
  rw [e1, e2, ok_bind]
  have : (1 : Fl) + 1 = fin 2 := by rw [one_eq, fin_add]; norm_num
  rw [this, half_mul_two]

/-- Two redshift models whose rates agree for the given parameters return the same. -/
theorem probability_congr {s s' : Redshift} {kw kw' : Dict Fl} (hm : s.mixin = s'.mixin) (hz : s.zMax = s'.zMax)
    (hzs : s.zs = s'.zs) (hpsi : ∀ z, s.psiOfZ z kw = s'.psiOfZ z kw')
    (hc : ∀ k ∈ ["self", "dataset", "bounds", "redshift"], ¬ Dict.contains kw k ∧ ¬ Dict.contains kw' k)
    (hv : ∀ k ∈ s.mixin.cosmologyNames, Dict.get? kw k = Dict.get? kw' k) :
    s.normalisation kw = s'.normalisation kw' ∧
    (∀ d bounds, s.differentialSpacetimeVolume d bounds kw = s'.differentialSpacetimeVolume d bounds kw') ∧
    ∀ d, s.probability d kw = s'.probability d kw' := by
  have hcos : s.mixin.cosmology kw = s'.mixin.cosmology kw' := by
    rw [← hm]
    unfold CosmoMixin.cosmology
    have : s.mixin.cosmologyVariables kw = s.mixin.cosmologyVariables kw' := by
      unfold CosmoMixin.cosmologyVariables
      refine mapM_congr ?_
      intro k hk
      unfold Dict.get
      rw [hv k hk]
    rw [this]
  have hn : ∀ l : List String, (∀ k ∈ l, k ∈ ["self", "dataset", "bounds", "redshift"]) →
      Redshift.noClash l kw = .ok () ∧ Redshift.noClash l kw' = .ok () := by
    intro l hl
    unfold Redshift.noClash
    exact ⟨if_neg (by rintro ⟨k, h1, h2⟩; exact (hc k (hl k h1)).1 h2),
      if_neg (by rintro ⟨k, h1, h2⟩; exact (hc k (hl k h1)).2 h2)⟩
  have hd : ∀ d bounds, s.differentialSpacetimeVolume d bounds kw = s'.differentialSpacetimeVolume d bounds kw' := by
    intro d bounds
    have h1 := hn ["self", "dataset", "bounds"] (by simp)
    have h2 := hn ["self", "redshift"] (by simp)
    unfold Redshift.differentialSpacetimeVolume Redshift.dvcDz
    simp only [h1.1, h1.2, h2.1, h2.2, hpsi, hcos, hz]
  have hnorm : s.normalisation kw = s'.normalisation kw' := by
    unfold Redshift.normalisation
    simp only [hd, hzs]
  refine ⟨hnorm, hd, fun d => ?_⟩
  unfold Redshift.probability
  rw [hnorm]
  simp only [hd]

/-- **C111**: with `kappa = 0`, `MadauDickinsonRedshift` returns what `PowerLawRedshift` returns with
`lamb = gamma`, wherever the peak is: the rate, the normalisation and the probability, for all data and
parameters, finite or not, with the cosmology fixed or free. -/
theorem C111_redshift (available : Dict CosmoEntry) (py : Bool) (zMax : ℝ) (cosmoModel : String) {s s' : Redshift}
    (hs : Redshift.madauDickinson available py zMax cosmoModel = .ok s)
    (hs' : Redshift.powerLaw available zMax cosmoModel = .ok s') {kw kw' : Dict Fl} {gamma zPeak : Fl}
    (hg : kw.get? "gamma" = some gamma) (hk : kw.get? "kappa" = some (fin 0)) (hz : kw.get? "z_peak" = some zPeak)
    (hl : kw'.get? "lamb" = some gamma)
    (hc : ∀ k ∈ ["self", "dataset", "bounds", "redshift"], ¬ Dict.contains kw k ∧ ¬ Dict.contains kw' k)
    (hv : ∀ k ∈ ["H0", "Om0", "w0"], Dict.get? kw k = Dict.get? kw' k) (d : Dict Fl) (bounds : Bool) :
    s.psiOfZ = psiMadauDickinson py ∧ s'.psiOfZ = psiPowerLaw ∧ s.normalisation kw = s'.normalisation kw' ∧
    s.differentialSpacetimeVolume d bounds kw = s'.differentialSpacetimeVolume d bounds kw' ∧
    s.probability d kw = s'.probability d kw' := by
  unfold Redshift.madauDickinson Redshift.init at hs
  unfold Redshift.powerLaw Redshift.init at hs'
  obtain ⟨mx, hm, hs⟩ := bind_eq_ok.1 hs
  rw [hm] at hs'
  rw [ok_bind] at hs'
  have hs := Except.ok.inj hs
  have hs' := Except.ok.inj hs'
  have hnames : ∀ k ∈ mx.cosmologyNames, k ∈ ["H0", "Om0", "w0"] := by
    unfold CosmoMixin.init at hm
    obtain ⟨c, -, hm⟩ := bind_eq_ok.1 hm
    have hm := Except.ok.inj hm
    rw [← hm]
    dsimp only
    split_ifs <;> simp
  subst hs hs'
  obtain ⟨h1, h2, h3⟩ := probability_congr
    (s := ⟨mx, zMax, Arr.linspaceR 1e-6 zMax 2500, some ["gamma", "kappa", "z_peak"], psiMadauDickinson py⟩)
    (s' := ⟨mx, zMax, Arr.linspaceR 1e-6 zMax 2500, some ["lamb"], psiPowerLaw⟩) rfl rfl rfl
    (fun z => psi_kappa_zero py z gamma zPeak hg hk hz hl) hc (fun k hk' => hv k (hnames k hk'))
  exact ⟨rfl, rfl, h1, h2 d bounds, h3 d⟩

/-! ### The hypotheses hold -/

/-- **Non-vacuity** of the theorems on joint mass models. -/
example (b : Backend) (py : Bool) (q beta : Fl) :
    twoComponentPrimaryMassRatio b py (fin 20) q (fin 2) beta (fin 5) (fin 50) (fin 0) (fin 10) (fin 3) (fin 60) =
      doublePowerLawPrimaryPowerLawMassRatio b py (fin 20) q (fin 2) (fin 2) beta (fin 5) (fin 50) (fin 0.3) := by
  rw [C111_joint_noPeak _ _ _ _ _ _ _ _ _ _ _ (Or.inr (by simp)),
    C111_joint_equalSlopes_partial b py q beta (Or.inr (by norm_num)) (by norm_num) (by norm_num) (by norm_num)
      (by norm_num) (by norm_num)]

example (b : Backend) (py : Bool) :
    twoComponentPrimarySecondaryIndependent b py (fin 20) (fin 10) (fin 2) (fin 1) (fin 5) (fin 50) (fin 0)
        (fin 10) (fin 3) (fin 60) =
      powerLawPrimarySecondaryIndependent b py (fin 20) (fin 10) (fin 2) (fin 1) (fin 5) (fin 50) :=
  C111_pair_noPeak b py _ _ _ (Or.inr (by norm_num)) (Or.inr (by norm_num)) (by norm_num) (by norm_num)
    (by norm_num) (by norm_num) (Or.inr (by simp))

/-- **Non-vacuity** of the theorems on spins. -/
example (junk : Fl → Fl → Fl) (b : Backend) :
    iidSpin junk b [("a_1", fin 0.2), ("a_2", fin 0.7), ("cos_tilt_1", fin 0.5), ("cos_tilt_2", nan)]
      (fin 0) (fin 1) (fin 0.8) (fin 1) (fin 1) = .ok (fin (1 / 4 * (1 / (0.8 * 0.8)))) :=
  C111_uniformSpins_partial junk b rfl rfl rfl rfl (by norm_num) (by norm_num) (by norm_num) (by norm_num) _

/-- **Non-vacuity** of `C111_redshift`: a free cosmology. -/
example (available : Dict CosmoEntry) (c : CosmoEntry) (h : available.get? "FlatLambdaCDM" = some c) (d : Dict Fl) :
    ∃ s s', Redshift.madauDickinson available true 2.3 "FlatLambdaCDM" = .ok s ∧
      Redshift.powerLaw available 2.3 "FlatLambdaCDM" = .ok s' ∧
      s.probability d [("gamma", fin 2.7), ("kappa", fin 0), ("z_peak", fin 1.9), ("H0", fin 70), ("Om0", fin 0.3)] =
        s'.probability d [("lamb", fin 2.7), ("H0", fin 70), ("Om0", fin 0.3)] := by
  have hm : ∃ mx, CosmoMixin.init available "FlatLambdaCDM" = .ok mx := by
    unfold CosmoMixin.init Dict.get
    rw [h]
    exact ⟨_, rfl⟩
  obtain ⟨mx, hm⟩ := hm
  have h1 : ∃ s, Redshift.madauDickinson available true 2.3 "FlatLambdaCDM" = .ok s := by
    unfold Redshift.madauDickinson Redshift.init
    rw [hm]
    exact ⟨_, rfl⟩
  have h2 : ∃ s', Redshift.powerLaw available 2.3 "FlatLambdaCDM" = .ok s' := by
    unfold Redshift.powerLaw Redshift.init
    rw [hm]
    exact ⟨_, rfl⟩
  obtain ⟨s, h1⟩ := h1
  obtain ⟨s', h2⟩ := h2
  refine ⟨s, s', h1, h2, (C111_redshift available true 2.3 "FlatLambdaCDM" h1 h2 (gamma := fin 2.7)
    (zPeak := fin 1.9) rfl rfl rfl rfl ?_ ?_ d true).2.2.2.2⟩
  · intro k hk
    simp only [List.mem_cons, List.not_mem_nil, or_false] at hk
    rcases hk with rfl | rfl | rfl | rfl <;> simp [Dict.contains]
  · intro k hk
    simp only [List.mem_cons, List.not_mem_nil, or_false] at hk
    rcases hk with rfl | rfl | rfl <;> simp [Dict.get?_cons]

end Nested

end GW
