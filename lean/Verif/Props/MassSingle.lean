import Verif.Model.Mass
import Verif.Props.Powerlaw
import Verif.Props.Truncnorm

/-!
# C17, C18: one-dimensional mass models
-/

noncomputable section

open Classical MeasureTheory Set

namespace GW

open Fl Spec

/-- The continuous broken power law with break at `mb`: exponent `-a1` below, `-a2` above,
value 1 at the break. -/
def Spec.brokenShape (a1 a2 mb t : ℝ) : ℝ :=
  if t < mb then (t / mb) ^ (-a1) else (t / mb) ^ (-a2)

theorem brokenShape_continuousOn (a1 a2 : ℝ) {mb : ℝ} (hb : 0 < mb) :
    ContinuousOn (brokenShape a1 a2 mb) (Ioi 0) := by
  have h (a : ℝ) : ContinuousOn (fun t : ℝ => (t / mb) ^ (-a)) (Ioi 0) := by
    intro t ht
    exact ((continuous_id.div_const mb).continuousAt.rpow_const
      (Or.inl (div_pos (mem_Ioi.1 ht) hb).ne')).continuousWithinAt
  have e : brokenShape a1 a2 mb = fun t : ℝ => if t < mb then (t / mb) ^ (-a1)
      else (t / mb) ^ (-a2) := rfl
  rw [e]
  apply ContinuousOn.if
  · intro t ht
    have : t = mb := by
      have := ht.2
      rw [show {a : ℝ | a < mb} = Iio mb from rfl, frontier_Iio] at this
      simpa using this
    subst this
    rw [div_self hb.ne']; simp
  · exact (h a1).mono (fun t ht => ht.1)
  · exact (h a2).mono (fun t ht => ht.1)

theorem brokenShape_pos (a1 a2 : ℝ) {mb t : ℝ} (hb : 0 < mb) (ht : 0 < t) :
    0 < brokenShape a1 a2 mb t := by
  unfold brokenShape
  split_ifs <;> exact Real.rpow_pos_of_pos (div_pos ht hb) _

theorem brokenShape_intervalIntegrable (a1 a2 : ℝ) {mb lo hi : ℝ} (hb : 0 < mb) (h0 : 0 < lo)
    (h : lo ≤ hi) : IntervalIntegrable (brokenShape a1 a2 mb) volume lo hi := by
  apply ContinuousOn.intervalIntegrable
  rw [uIcc_of_le h]
  exact (brokenShape_continuousOn a1 a2 hb).mono (fun t ht => mem_Ioi.2 (h0.trans_le ht.1))

theorem integral_brokenShape (a1 a2 : ℝ) {mb lo hi : ℝ} (h0 : 0 < lo) (h1 : lo < mb)
    (h2 : mb < hi) :
    ∫ t in lo..hi, brokenShape a1 a2 mb t =
      (∫ t in lo..mb, t ^ (-a1)) / mb ^ (-a1) + (∫ t in mb..hi, t ^ (-a2)) / mb ^ (-a2) := by
  have hb : 0 < mb := h0.trans h1
  rw [← intervalIntegral.integral_add_adjacent_intervals
    (brokenShape_intervalIntegrable a1 a2 hb h0 h1.le)
    (brokenShape_intervalIntegrable a1 a2 hb hb h2.le),
    ← intervalIntegral.integral_div, ← intervalIntegral.integral_div]
  congr 1
  · apply intervalIntegral.integral_congr_ae
    have : ∀ᵐ t : ℝ, t ≠ mb := by simp [ae_iff, measure_singleton]
    filter_upwards [this] with t htn ht
    rw [uIoc_of_le h1.le] at ht
    have : t < mb := lt_of_le_of_ne ht.2 htn
    simp only [brokenShape, if_pos this]
    rw [Real.div_rpow (h0.trans ht.1).le hb.le]
  · apply intervalIntegral.integral_congr
    intro t ht
    rw [uIcc_of_le h2.le] at ht
    simp only [brokenShape, if_neg (not_lt.2 ht.1)]
    rw [Real.div_rpow (hb.trans_le ht.1).le hb.le]

theorem integral_brokenShape_pos (a1 a2 : ℝ) {mb lo hi : ℝ} (h0 : 0 < lo) (hb : 0 < mb)
    (h : lo < hi) : 0 < ∫ t in lo..hi, brokenShape a1 a2 mb t :=
  intervalIntegral.intervalIntegral_pos_of_pos_on
    (brokenShape_intervalIntegrable a1 a2 hb h0 h.le)
    (fun _ ht => brokenShape_pos _ _ hb (h0.trans ht.1)) h

/-- **C17.** The value of the broken power law at every `m > 0`. (On jax the exponent -1 is
allowed as well.) -/
theorem C17_doublePowerLaw_value (b : Backend) (py : Bool) {m a1 a2 mmin mmax bf : ℝ}
    (ha1 : b = .jax ∨ a1 ≠ -1) (ha2 : b = .jax ∨ a2 ≠ -1) (h0 : 0 < mmin) (h : mmin < mmax)
    (hbf0 : 0 < bf) (hbf1 : bf < 1) (hm : 0 < m) :
    doublePowerLawPrimaryMass b py (fin m) (fin a1) (fin a2) (fin mmin) (fin mmax) (fin bf) =
      .ok (fin (normalised (brokenShape a1 a2 (mmin + bf * (mmax - mmin))) mmin mmax m)) := by
  set mb := mmin + bf * (mmax - mmin) with hmb
  have h1 : mmin < mb := by
    have : 0 < bf * (mmax - mmin) := mul_pos hbf0 (by linarith)
    linarith
  have h2 : mb < mmax := by
    have : bf * (mmax - mmin) < 1 * (mmax - mmin) := mul_lt_mul_of_pos_right hbf1 (by linarith)
    linarith
  have hb : 0 < mb := h0.trans h1
  have hx1 : b = .jax ∨ true = false ∨ -a1 ≠ 1 :=
    ha1.imp_right fun h => Or.inr fun h' => h (by linarith)
  have hx2 : b = .jax ∨ true = false ∨ -a2 ≠ 1 :=
    ha2.imp_right fun h => Or.inr fun h' => h (by linarith)
  have e0 : fin mmin + fin bf * (fin mmax - fin mmin) = fin mb := by simp [hmb]
  have p2 (x : ℝ) (hx : 0 < x) := C01_powerlaw_value b py false true true true hb h2 hx hx2
  have p1 (x : ℝ) (hx : 0 < x) := C01_powerlaw_value b py false true true true h0 h1 hx hx1
  simp only [doublePowerLawPrimaryMass, e0, pos, kw, fin_neg, p2 mb hb, p1 mb hb, p2 m hm, p1 m hm]
  have I1 := integral_rpow_pos (a := -a1) h0 h1
  have I2 := integral_rpow_pos (a := -a2) hb h2
  have r1 := Real.rpow_pos_of_pos hb (-a1)
  have r2 := Real.rpow_pos_of_pos hb (-a2)
  have n2 : normalised (fun t => t ^ (-a2)) mb mmax mb = mb ^ (-a2) / ∫ t in mb..mmax, t ^ (-a2) := by
    simp [normalised, h2.le]
  have n1 : normalised (fun t => t ^ (-a1)) mmin mb mb = mb ^ (-a1) / ∫ t in mmin..mb, t ^ (-a1) := by
    simp [normalised, h1.le]
  rw [n1, n2]
  show Except.ok _ = Except.ok _
  have hI := integral_brokenShape a1 a2 h0 h1 h2
  set J1 := ∫ t in mmin..mb, t ^ (-a1) with hJ1
  set J2 := ∫ t in mb..mmax, t ^ (-a2) with hJ2
  have hc : 0 < mb ^ (-a2) / J2 / (mb ^ (-a1) / J1) := by positivity
  rw [fin_div (by positivity), one_eq, fin_add]
  congr 1
  by_cases hlt : m < mb
  · have hle : ¬ mb ≤ m := not_le.2 hlt
    simp only [ind_eq, fin_lt, fin_le, hlt, hle, if_true, if_false, fin_mul, fin_add, mul_one, mul_zero,
      add_zero]
    rw [fin_div (by positivity)]
    congr 1
    by_cases hm1 : mmin ≤ m
    · simp only [normalised, hm1, hlt.le, (hlt.trans h2).le, and_self, if_true]
      rw [hI, ← hJ1]
      simp only [brokenShape, hlt, if_true]
      rw [Real.div_rpow hm.le hb.le]
      have := Real.rpow_pos_of_pos hm (-a1)
      field_simp
      ring
    · simp [normalised, hm1]
  · have hge : mb ≤ m := not_lt.1 hlt
    simp only [ind_eq, fin_lt, fin_le, hlt, hge, if_true, if_false, fin_mul, fin_add, mul_one, mul_zero,
      zero_mul, zero_add]
    rw [fin_div (by positivity)]
    congr 1
    by_cases hm1 : m ≤ mmax
    · simp only [normalised, hm1, hge, h1.le.trans hge, and_self, if_true]
      rw [hI, ← hJ2]
      simp only [brokenShape, hlt, if_false]
      rw [Real.div_rpow hm.le hb.le]
      have := Real.rpow_pos_of_pos hm (-a2)
      field_simp
      ring
    · simp [normalised, hm1]

/-- **C17.** The broken power law integrates to 1. -/
theorem C17_doublePowerLaw_isDensity (b : Backend) (py : Bool) {a1 a2 mmin mmax bf : ℝ}
    (ha1 : b = .jax ∨ a1 ≠ -1) (ha2 : b = .jax ∨ a2 ≠ -1) (h0 : 0 < mmin) (h : mmin < mmax)
    (hbf0 : 0 < bf) (hbf1 : bf < 1) :
    IsDensityOn (fun m : ℝ => doublePowerLawPrimaryMass b py (fin m) (fin a1) (fin a2) (fin mmin)
      (fin mmax) (fin bf)) (Ioi 0) := by
  have hb : 0 < mmin + bf * (mmax - mmin) := by
    have : 0 < bf * (mmax - mmin) := mul_pos hbf0 (by linarith)
    linarith
  exact isDensityOn_normalised h.le (fun x hx => (brokenShape_pos _ _ hb (h0.trans_le hx.1)).le)
    (brokenShape_intervalIntegrable _ _ hb h0 h.le) (integral_brokenShape_pos _ _ h0 hb h).ne'
    (fun x hx => h0.trans_le hx.1)
    (fun m hm => C17_doublePowerLaw_value b py ha1 ha2 h0 h hbf0 hbf1 hm)

/-- **C17.** The broken power law is continuous inside the mass range, in particular across the
break: some function continuous on `[mmin, mmax]` gives its values there. -/
theorem C17_doublePowerLaw_continuous (b : Backend) (py : Bool) {a1 a2 mmin mmax bf : ℝ}
    (ha1 : b = .jax ∨ a1 ≠ -1) (ha2 : b = .jax ∨ a2 ≠ -1) (h0 : 0 < mmin) (h : mmin < mmax)
    (hbf0 : 0 < bf) (hbf1 : bf < 1) :
    ∃ g : ℝ → ℝ, ContinuousOn g (Icc mmin mmax) ∧ ∀ m ∈ Icc mmin mmax,
      doublePowerLawPrimaryMass b py (fin m) (fin a1) (fin a2) (fin mmin) (fin mmax) (fin bf) =
        .ok (fin (g m)) := by
  have hb : 0 < mmin + bf * (mmax - mmin) := by
    have : 0 < bf * (mmax - mmin) := mul_pos hbf0 (by linarith)
    linarith
  refine ⟨normalised (brokenShape a1 a2 (mmin + bf * (mmax - mmin))) mmin mmax, ?_, fun m hm =>
    C17_doublePowerLaw_value b py ha1 ha2 h0 h hbf0 hbf1 (h0.trans_le hm.1)⟩
  refine (((brokenShape_continuousOn a1 a2 hb).mono fun t ht => mem_Ioi.2
    (h0.trans_le ht.1)).div_const (∫ t in mmin..mmax, brokenShape a1 a2
      (mmin + bf * (mmax - mmin)) t)).congr fun t ht => ?_
  simp only [normalised]
  rw [if_pos (show mmin ≤ t ∧ t ≤ mmax from ht)]

/-- **C17.** On numpy/cupy the two excluded exponents are refused. -/
theorem C17_alpha_neg_one_refused (b : Backend) (hb : b ≠ .jax) (py : Bool)
    {a1 a2 : ℝ} (m mmin mmax bf : ℝ) (ha2 : a2 = -1) :
    doublePowerLawPrimaryMass b py (fin m) (fin a1) (fin a2) (fin mmin) (fin mmax) (fin bf) =
      .error .valueError := by
  subst ha2
  have e : powerlaw b py (pos (fin mmin + fin bf * (fin mmax - fin mmin))) (kw (-fin (-1)))
      (kw (fin mmax)) (kw (fin mmin + fin bf * (fin mmax - fin mmin))) = .error .valueError := by
    rw [powerlaw_eq, if_pos ⟨hb, Or.inr ⟨rfl, by simp⟩⟩]
  simp only [doublePowerLawPrimaryMass, e]
  rfl

/-- Non-vacuity: GWTC-like values. -/
example : IsDensityOn (fun m : ℝ => doublePowerLawPrimaryMass .numpy true (fin m) (fin 1.6)
    (fin 5.6) (fin 4) (fin 87) (fin 0.4)) (Ioi 0) :=
  C17_doublePowerLaw_isDensity _ _ (by norm_num) (by norm_num) (by norm_num) (by norm_num)
    (by norm_num) (by norm_num)

example : doublePowerLawPrimaryMass .numpy true (fin 5) (fin 1.6) (fin (-1)) (fin 4) (fin 87)
    (fin 0.4) = .error .valueError :=
  C17_alpha_neg_one_refused _ (by decide) _ _ _ _ _ rfl

/-! ## C18: mixtures -/

/-- A Gaussian bell (not normalised). -/
def Spec.bell (mu sigma t : ℝ) : ℝ := Real.exp (-(t - mu) ^ 2 / (2 * sigma ^ 2))

/-- **C18.** `power_law_mass` is the normalised power law with exponent `-alpha`. -/
theorem C18_powerLawMass_value (b : Backend) (py : Bool) {m a mmin mmax : ℝ}
    (ha : b = .jax ∨ a ≠ -1) (h0 : 0 < mmin) (h : mmin < mmax) (hm : 0 < m) :
    powerLawMass b py (fin m) (fin a) (fin mmin) (fin mmax) =
      .ok (fin (normalised (fun t => t ^ (-a)) mmin mmax m)) :=
  C01_powerlaw_value b py false true true true h0 h hm
    (ha.imp_right fun h => Or.inr fun h' => h (by linarith))

/-- **C18.** `two_component_single` is the stated mixture. -/
theorem C18_twoComponentSingle_value (b : Backend) (py : Bool) {m a mmin mmax lam mpp sigpp gmm : ℝ}
    (ha : b = .jax ∨ a ≠ -1) (h0 : 0 < mmin) (h : mmin < mmax) (hg : mmin < gmm)
    (hs : 0 < sigpp) (hm : 0 < m) :
    twoComponentSingle b py (fin m) (fin a) (fin mmin) (fin mmax) (fin lam) (fin mpp) (fin sigpp)
        (fin gmm) =
      .ok (fin ((1 - lam) * normalised (fun t => t ^ (-a)) mmin mmax m +
        lam * normalised (bell mpp sigpp) mmin gmm m)) := by
  have e1 := C18_powerLawMass_value b py ha h0 h hm
  have e2 := C03_truncnorm_value b false true true true true (mu := mpp) m hs hg
  unfold powerLawMass at e1
  simp only [twoComponentSingle, e1]
  simp only [pos, kw, e2]
  show Except.ok _ = _
  simp only [one_eq, fin_sub, fin_mul, fin_add]
  rfl

/-- **C18.** `three_component_single` is the stated mixture. -/
theorem C18_threeComponentSingle_value (b : Backend) (py : Bool)
    {m a mmin mmax lam lam1 mpp1 sigpp1 mpp2 sigpp2 gmm : ℝ}
    (ha : b = .jax ∨ a ≠ -1) (h0 : 0 < mmin) (h : mmin < mmax) (hg : mmin < gmm)
    (hs1 : 0 < sigpp1) (hs2 : 0 < sigpp2) (hm : 0 < m) :
    threeComponentSingle b py (fin m) (fin a) (fin mmin) (fin mmax) (fin lam) (fin lam1)
        (fin mpp1) (fin sigpp1) (fin mpp2) (fin sigpp2) (fin gmm) =
      .ok (fin ((1 - lam) * normalised (fun t => t ^ (-a)) mmin mmax m +
        lam * lam1 * normalised (bell mpp1 sigpp1) mmin gmm m +
        lam * (1 - lam1) * normalised (bell mpp2 sigpp2) mmin gmm m)) := by
  have e1 := C18_powerLawMass_value b py ha h0 h hm
  have e2 := C03_truncnorm_value b false true true true true (mu := mpp1) m hs1 hg
  have e3 := C03_truncnorm_value b false true true true true (mu := mpp2) m hs2 hg
  unfold powerLawMass at e1
  simp only [threeComponentSingle, e1]
  simp only [pos, kw, e2, e3]
  show Except.ok _ = _
  simp only [one_eq, fin_sub, fin_mul, fin_add]
  rfl

/-- **C18.** `double_power_law_peak_primary_mass` is the stated mixture. -/
theorem C18_doublePowerLawPeak_value (b : Backend) (py : Bool)
    {m a1 a2 mmin mmax bf lam mpp sigpp gmm : ℝ}
    (ha1 : b = .jax ∨ a1 ≠ -1) (ha2 : b = .jax ∨ a2 ≠ -1) (h0 : 0 < mmin) (h : mmin < mmax)
    (hbf0 : 0 < bf) (hbf1 : bf < 1) (hg : mmin < gmm) (hs : 0 < sigpp) (hm : 0 < m) :
    doublePowerLawPeakPrimaryMass b py (fin m) (fin a1) (fin a2) (fin mmin) (fin mmax) (fin bf)
        (fin lam) (fin mpp) (fin sigpp) (fin gmm) =
      .ok (fin ((1 - lam) *
          normalised (brokenShape a1 a2 (mmin + bf * (mmax - mmin))) mmin mmax m +
        lam * normalised (bell mpp sigpp) mmin gmm m)) := by
  have e1 := C17_doublePowerLaw_value b py ha1 ha2 h0 h hbf0 hbf1 hm
  have e2 := C03_truncnorm_value b false true true true true (mu := mpp) m hs hg
  simp only [doublePowerLawPeakPrimaryMass, e1]
  simp only [pos, kw, e2]
  show Except.ok _ = _
  simp only [one_eq, fin_sub, fin_mul, fin_add]
  rfl

/-- A real function is a probability density with support in `[lo, hi]`. -/
structure IsPdf (g : ℝ → ℝ) (lo hi : ℝ) : Prop where
  nonneg : ∀ x, 0 ≤ g x
  supp : ∀ x, ¬ (lo ≤ x ∧ x ≤ hi) → g x = 0
  int : Integrable g
  one : ∫ x, g x = 1

theorem isPdf_normalised {f : ℝ → ℝ} {lo hi : ℝ} (h : lo ≤ hi)
    (hf0 : ∀ x ∈ Icc lo hi, 0 ≤ f x) (hf : IntervalIntegrable f volume lo hi)
    (hI : ∫ t in lo..hi, f t ≠ 0) : IsPdf (normalised f lo hi) lo hi where
  nonneg := normalised_nonneg h hf0
  supp x hx := by simp only [normalised]; rw [if_neg hx]
  int := normalised_integrable h hf
  one := by simpa using normalised_integral (S := univ) h hI (subset_univ _)

theorem isPdf_powerlaw (a : ℝ) {lo hi : ℝ} (h0 : 0 < lo) (h : lo < hi) :
    IsPdf (normalised (fun t => t ^ a) lo hi) lo hi :=
  isPdf_normalised h.le (fun x hx => (Real.rpow_pos_of_pos (by linarith [hx.1]) _).le)
    (rpow_intervalIntegrable h0 h.le) (integral_rpow_pos h0 h).ne'

theorem isPdf_bell (mu sigma : ℝ) {lo hi : ℝ} (h : lo < hi) :
    IsPdf (normalised (bell mu sigma) lo hi) lo hi :=
  isPdf_normalised h.le (fun x _ => (gaussShape_pos mu sigma x).le)
    ((gaussShape_continuous mu sigma).intervalIntegrable _ _) (integral_gaussShape_pos h).ne'

theorem isPdf_broken (a1 a2 : ℝ) {mb lo hi : ℝ} (h0 : 0 < lo) (hb : 0 < mb) (h : lo < hi) :
    IsPdf (normalised (brokenShape a1 a2 mb) lo hi) lo hi :=
  isPdf_normalised h.le (fun x hx => (brokenShape_pos _ _ hb (h0.trans_le hx.1)).le)
    (brokenShape_intervalIntegrable _ _ hb h0 h.le) (integral_brokenShape_pos _ _ h0 hb h).ne'

theorem IsPdf.mono {g : ℝ → ℝ} {lo hi hi' : ℝ} (hg : IsPdf g lo hi) (h : hi ≤ hi') :
    IsPdf g lo hi' :=
  { hg with supp := fun x hx => hg.supp x fun h' => hx ⟨h'.1, h'.2.trans h⟩ }

theorem IsPdf.mix {g k : ℝ → ℝ} {lo hi w v : ℝ} (hg : IsPdf g lo hi) (hk : IsPdf k lo hi)
    (hw : 0 ≤ w) (hv : 0 ≤ v) (hwv : w + v = 1) : IsPdf (fun x => w * g x + v * k x) lo hi where
  nonneg x := add_nonneg (mul_nonneg hw (hg.nonneg x)) (mul_nonneg hv (hk.nonneg x))
  supp x hx := by simp [hg.supp x hx, hk.supp x hx]
  int := (hg.int.const_mul w).add (hk.int.const_mul v)
  one := by
    rw [integral_add (hg.int.const_mul w) (hk.int.const_mul v), integral_const_mul,
      integral_const_mul, hg.one, hk.one]; linarith

theorem IsPdf.integral_subset {g : ℝ → ℝ} {lo hi : ℝ} (hg : IsPdf g lo hi) {S : Set ℝ}
    (hS : Icc lo hi ⊆ S) : ∫ x in S, g x = 1 := by
  rw [setIntegral_eq_integral_of_forall_compl_eq_zero, hg.one]
  intro x hx
  exact hg.supp x fun h => hx (hS h)

theorem IsPdf.isDensityOn {g : ℝ → ℝ} {lo hi : ℝ} (hg : IsPdf g lo hi) {S : Set ℝ}
    (hS : Icc lo hi ⊆ S) {F : ℝ → Except PyErr Fl} (hF : ∀ x ∈ S, F x = .ok (fin (g x))) :
    IsDensityOn F S :=
  ⟨g, hF, fun x _ => hg.nonneg x, hg.int.integrableOn, hg.integral_subset hS⟩

theorem twoComponent_isPdf {a mmin mmax lam mpp sigpp gmm : ℝ}
    (h0 : 0 < mmin) (h : mmin < mmax) (hg : mmin < gmm)
    (hl0 : 0 ≤ lam) (hl1 : lam ≤ 1) :
    IsPdf (fun m => (1 - lam) * normalised (fun t => t ^ (-a)) mmin mmax m +
        lam * normalised (bell mpp sigpp) mmin gmm m) mmin (max mmax gmm) :=
  ((isPdf_powerlaw _ h0 h).mono (le_max_left _ _)).mix
    ((isPdf_bell _ _ hg).mono (le_max_right _ _)) (by linarith) hl0 (by ring)

theorem threeComponent_isPdf {a mmin mmax lam lam1 mpp1 sigpp1 mpp2 sigpp2 gmm : ℝ}
    (h0 : 0 < mmin) (h : mmin < mmax) (hg : mmin < gmm)
    (hl0 : 0 ≤ lam) (hl1 : lam ≤ 1) (hl10 : 0 ≤ lam1) (hl11 : lam1 ≤ 1) :
    IsPdf (fun m => (1 - lam) * normalised (fun t => t ^ (-a)) mmin mmax m +
        lam * lam1 * normalised (bell mpp1 sigpp1) mmin gmm m +
        lam * (1 - lam1) * normalised (bell mpp2 sigpp2) mmin gmm m) mmin (max mmax gmm) := by
  have hp := (isPdf_powerlaw (-a) h0 h).mono (le_max_left mmax gmm)
  have hb := ((isPdf_bell mpp1 sigpp1 hg).mono (le_max_right mmax gmm)).mix
    ((isPdf_bell mpp2 sigpp2 hg).mono (le_max_right mmax gmm)) hl10
    (show 0 ≤ 1 - lam1 by linarith) (by ring)
  have := hp.mix hb (show 0 ≤ 1 - lam by linarith) hl0 (by ring)
  convert this using 2
  ring

theorem doublePowerLawPeak_isPdf {a1 a2 mmin mmax bf lam mpp sigpp gmm : ℝ}
    (h0 : 0 < mmin) (h : mmin < mmax) (hbf0 : 0 < bf) (hg : mmin < gmm)
    (hl0 : 0 ≤ lam) (hl1 : lam ≤ 1) :
    IsPdf (fun m => (1 - lam) *
        normalised (brokenShape a1 a2 (mmin + bf * (mmax - mmin))) mmin mmax m +
        lam * normalised (bell mpp sigpp) mmin gmm m) mmin (max mmax gmm) :=
  ((isPdf_broken _ _ h0 (add_pos h0 (mul_pos hbf0 (by linarith))) h).mono (le_max_left _ _)).mix
    ((isPdf_bell _ _ hg).mono (le_max_right _ _)) (by linarith) hl0 (by ring)

/-- **C18.** `two_component_single` is non-negative and integrates to 1 over all masses, and
vanishes below `mmin` and above both upper ends. -/
theorem C18_twoComponentSingle_isDensity (b : Backend) (py : Bool)
    {a mmin mmax lam mpp sigpp gmm : ℝ}
    (ha : b = .jax ∨ a ≠ -1) (h0 : 0 < mmin) (h : mmin < mmax) (hg : mmin < gmm)
    (hs : 0 < sigpp) (hl0 : 0 ≤ lam) (hl1 : lam ≤ 1) :
    let F := fun m : ℝ => twoComponentSingle b py (fin m) (fin a) (fin mmin) (fin mmax) (fin lam)
      (fin mpp) (fin sigpp) (fin gmm)
    IsDensityOn F (Ioi 0) ∧ ∀ m, 0 < m → (m < mmin ∨ max mmax gmm < m) → F m = .ok (fin 0) := by
  intro F
  have hF : ∀ m ∈ Ioi (0 : ℝ), F m = _ := fun m hm =>
    C18_twoComponentSingle_value (mpp := mpp) (lam := lam) b py ha h0 h hg hs hm
  have hp := twoComponent_isPdf (a := a) (mpp := mpp) (sigpp := sigpp) h0 h hg hl0 hl1
  refine ⟨hp.isDensityOn (fun x hx => h0.trans_le hx.1) hF, fun m hm hout => ?_⟩
  rw [hF m hm]
  exact congrArg _ (congrArg _ (hp.supp m fun h' => hout.elim (fun o => by linarith [h'.1])
    (fun o => by linarith [h'.2])))

/-- **C18.** The same for `three_component_single`. -/
theorem C18_threeComponentSingle_isDensity (b : Backend) (py : Bool)
    {a mmin mmax lam lam1 mpp1 sigpp1 mpp2 sigpp2 gmm : ℝ}
    (ha : b = .jax ∨ a ≠ -1) (h0 : 0 < mmin) (h : mmin < mmax) (hg : mmin < gmm)
    (hs1 : 0 < sigpp1) (hs2 : 0 < sigpp2) (hl0 : 0 ≤ lam) (hl1 : lam ≤ 1) (hl10 : 0 ≤ lam1)
    (hl11 : lam1 ≤ 1) :
    let F := fun m : ℝ => threeComponentSingle b py (fin m) (fin a) (fin mmin) (fin mmax)
      (fin lam) (fin lam1) (fin mpp1) (fin sigpp1) (fin mpp2) (fin sigpp2) (fin gmm)
    IsDensityOn F (Ioi 0) ∧ ∀ m, 0 < m → (m < mmin ∨ max mmax gmm < m) → F m = .ok (fin 0) := by
  intro F
  have hF : ∀ m ∈ Ioi (0 : ℝ), F m = _ := fun m hm =>
    C18_threeComponentSingle_value (mpp1 := mpp1) (mpp2 := mpp2) (lam := lam) (lam1 := lam1)
      b py ha h0 h hg hs1 hs2 hm
  have hp := threeComponent_isPdf (a := a) (mpp1 := mpp1) (sigpp1 := sigpp1) (mpp2 := mpp2)
    (sigpp2 := sigpp2) h0 h hg hl0 hl1 hl10 hl11
  refine ⟨hp.isDensityOn (fun x hx => h0.trans_le hx.1) hF, fun m hm hout => ?_⟩
  rw [hF m hm]
  exact congrArg _ (congrArg _ (hp.supp m fun h' => hout.elim (fun o => by linarith [h'.1])
    (fun o => by linarith [h'.2])))

/-- **C18.** The same for `double_power_law_peak_primary_mass`. -/
theorem C18_doublePowerLawPeak_isDensity (b : Backend) (py : Bool)
    {a1 a2 mmin mmax bf lam mpp sigpp gmm : ℝ}
    (ha1 : b = .jax ∨ a1 ≠ -1) (ha2 : b = .jax ∨ a2 ≠ -1) (h0 : 0 < mmin) (h : mmin < mmax)
    (hbf0 : 0 < bf) (hbf1 : bf < 1) (hg : mmin < gmm) (hs : 0 < sigpp)
    (hl0 : 0 ≤ lam) (hl1 : lam ≤ 1) :
    let F := fun m : ℝ => doublePowerLawPeakPrimaryMass b py (fin m) (fin a1) (fin a2) (fin mmin)
      (fin mmax) (fin bf) (fin lam) (fin mpp) (fin sigpp) (fin gmm)
    IsDensityOn F (Ioi 0) ∧ ∀ m, 0 < m → (m < mmin ∨ max mmax gmm < m) → F m = .ok (fin 0) := by
  intro F
  have hF : ∀ m ∈ Ioi (0 : ℝ), F m = _ := fun m hm =>
    C18_doublePowerLawPeak_value (mpp := mpp) (lam := lam) b py ha1 ha2 h0 h hbf0 hbf1 hg hs hm
  have hp := doublePowerLawPeak_isPdf (a1 := a1) (a2 := a2) (mpp := mpp) (sigpp := sigpp)
    h0 h hbf0 hg hl0 hl1
  refine ⟨hp.isDensityOn (fun x hx => h0.trans_le hx.1) hF, fun m hm hout => ?_⟩
  rw [hF m hm]
  exact congrArg _ (congrArg _ (hp.supp m fun h' => hout.elim (fun o => by linarith [h'.1])
    (fun o => by linarith [h'.2])))

/-- Non-vacuity: a peak truncated above the power law's upper end. -/
example : IsDensityOn (fun m : ℝ => twoComponentSingle .numpy true (fin m) (fin 3.5) (fin 5)
    (fin 80) (fin 0.04) (fin 34) (fin 4) (fin 100)) (Ioi 0) :=
  (C18_twoComponentSingle_isDensity _ _ (by norm_num) (by norm_num) (by norm_num) (by norm_num)
    (by norm_num) (by norm_num) (by norm_num)).1

example : IsDensityOn (fun m : ℝ => threeComponentSingle .cupy true (fin m) (fin 3.5) (fin 5)
    (fin 80) (fin 0.04) (fin 0.5) (fin 10) (fin 2) (fin 34) (fin 4) (fin 100)) (Ioi 0) :=
  (C18_threeComponentSingle_isDensity _ _ (by norm_num) (by norm_num) (by norm_num)
    (by norm_num) (by norm_num) (by norm_num) (by norm_num) (by norm_num) (by norm_num)
    (by norm_num)).1

example : IsDensityOn (fun m : ℝ => doublePowerLawPeakPrimaryMass .jax false (fin m) (fin 1.6)
    (fin (-1)) (fin 4) (fin 87) (fin 0.4) (fin 0.1) (fin 34) (fin 4) (fin 60)) (Ioi 0) :=
  (C18_doublePowerLawPeak_isDensity _ _ (by norm_num) (by norm_num) (by norm_num) (by norm_num)
    (by norm_num) (by norm_num) (by norm_num) (by norm_num) (by norm_num) (by norm_num)).1

end GW
