import Verif.Props.SmoothedFinite

/-!
# C133: the fraction of black holes in the Gaussian component

The mass models document `lam` as the fraction of black holes in the Gaussian component
(`mass.py:324`, `:706`, `:745`, `:822`).  The smoothed models multiply the whole mixture by the
low-mass window before they normalise it.
-/

noncomputable section

open Classical Set Filter Topology MeasureTheory

namespace GW

open Fl Spec

/-! ## Specification -/

/-- The numbers `p m` are what the method `p_m1` of the instance returns at positive masses. -/
def Spec.PrimaryDensity (b : Backend) (s : Smoothed) (kwargs : Dict Fl) (p : ℝ → ℝ) : Prop :=
  ∀ masses : List ℝ, (∀ m ∈ masses, 0 < m) →
    Smoothed.pM1 b s (masses.map fin) kwargs = .ok (masses.map fun m => fin (p m))

/-- The density `p` is a population in which the fraction `w` follows `p1` and the rest follows
`p0`. -/
def Spec.FractionIs (p0 p1 p : ℝ → ℝ) (w : ℝ) : Prop := ∀ m, 0 < m → p m = (1 - w) * p0 m + w * p1 m

/-- The trapezoid rule, on the mass grid of an instance, for the part of the density `f` that is
left by the low-mass window. -/
def Spec.gridShare (selfMin selfMax : ℝ) (nM : ℕ) (lo d : ℝ) (f : ℝ → ℝ) : ℝ :=
  trapezoidRule (nM - 1)
    (fun i => f (selfMin + (selfMax - selfMin) * i / ((nM : ℝ) - 1)) *
      window lo selfMax d (selfMin + (selfMax - selfMin) * i / ((nM : ℝ) - 1)))
    (fun i => selfMin + (selfMax - selfMin) * i / ((nM : ℝ) - 1))

/-- The part of the density `f` that is left by the low-mass window. -/
def Spec.share (selfMin selfMax lo d : ℝ) (f : ℝ → ℝ) : ℝ :=
  ∫ t in selfMin..selfMax, f t * window lo selfMax d t

/-- Arguments of `SinglePeakSmoothedMassDistribution.p_m1`. -/
def Spec.onePeakArgs (alpha mmin mmax mpp sigpp d top lam : ℝ) : Dict Fl :=
  [("alpha", fin alpha), ("mmin", fin mmin), ("mmax", fin mmax), ("lam", fin lam), ("mpp", fin mpp),
    ("sigpp", fin sigpp), ("delta_m", fin d), ("gaussian_mass_maximum", fin top)]

/-- Arguments of `BrokenPowerLawPeakSmoothedMassDistribution.p_m1`. -/
def Spec.brokenPeakArgs (alpha1 alpha2 bf mmin mmax mpp sigpp d top lam : ℝ) : Dict Fl :=
  [("alpha_1", fin alpha1), ("alpha_2", fin alpha2), ("mmin", fin mmin), ("mmax", fin mmax),
    ("break_fraction", fin bf), ("lam", fin lam), ("mpp", fin mpp), ("sigpp", fin sigpp), ("delta_m", fin d),
    ("gaussian_mass_maximum", fin top)]

/-- Arguments of `MultiPeakSmoothedMassDistribution.p_m1`. -/
def Spec.twoPeakArgs (alpha mmin mmax mpp1 sigpp1 mpp2 sigpp2 d top lam lam1 : ℝ) : Dict Fl :=
  [("alpha", fin alpha), ("mmin", fin mmin), ("mmax", fin mmax), ("lam", fin lam), ("lam_1", fin lam1),
    ("mpp_1", fin mpp1), ("sigpp_1", fin sigpp1), ("mpp_2", fin mpp2), ("sigpp_2", fin sigpp2),
    ("delta_m", fin d), ("gaussian_mass_maximum", fin top)]

/-- The full statement of C133, for the model with one peak: the fraction `lam` follows the model
with `lam = 1`, which is the Gaussian component alone, and the rest the model with `lam = 0`. -/
def C133_statement : Prop :=
  ∀ (b : Backend) (py cache : Bool) (selfMin selfMax : ℝ) (nM nQ : ℕ) (s : Smoothed)
    (alpha mmin mmax mpp sigpp d lam : ℝ) (p0 p1 p : ℝ → ℝ),
    singlePeak py selfMin selfMax nM nQ cache = .ok s → 0 < selfMin → selfMin ≤ mmin → mmin < mmax →
    mmax ≤ selfMax → alpha ≠ -1 → 0 < sigpp → 0 < d → 0 ≤ lam → lam ≤ 1 →
    GridInside selfMin selfMax nM mmin mmax →
    Spec.PrimaryDensity b s (Spec.onePeakArgs alpha mmin mmax mpp sigpp d selfMax 0) p0 →
    Spec.PrimaryDensity b s (Spec.onePeakArgs alpha mmin mmax mpp sigpp d selfMax 1) p1 →
    Spec.PrimaryDensity b s (Spec.onePeakArgs alpha mmin mmax mpp sigpp d selfMax lam) p →
    Spec.FractionIs p0 p1 p lam

/-! ## Densities of mixtures -/

namespace Mixture

theorem gridShare_eq {selfMin selfMax : ℝ} {nM : ℕ} (hM : 2 ≤ nM) (lo d : ℝ) (f : ℝ → ℝ) :
    Spec.gridShare selfMin selfMax nM lo d f = Arr.trapzR ((Arr.linspaceR selfMin selfMax nM).map fun m =>
      f m * window lo selfMax d m) (Arr.linspaceR selfMin selfMax nM) := by
  rw [trapzR_linspace (fun m => f m * window lo selfMax d m) _ _ (by omega)]
  rfl

theorem gridShare_mix {selfMin selfMax : ℝ} {nM : ℕ} (lo d c0 c1 : ℝ) (f0 f1 : ℝ → ℝ) :
    Spec.gridShare selfMin selfMax nM lo d (fun m => c0 * f0 m + c1 * f1 m) =
      c0 * Spec.gridShare selfMin selfMax nM lo d f0 + c1 * Spec.gridShare selfMin selfMax nM lo d f1 := by
  unfold Spec.gridShare trapezoidRule
  rw [Finset.mul_sum, Finset.mul_sum, ← Finset.sum_add_distrib]
  exact Finset.sum_congr rfl fun i _ => by ring

theorem gridShare_pos {selfMin selfMax lo d : ℝ} {nM : ℕ} (hM : 2 ≤ nM) (hlt : selfMin < selfMax) {f : ℝ → ℝ}
    (hf : ∀ m, 0 ≤ f m) (hpos : ∃ m ∈ Arr.linspaceR selfMin selfMax nM, lo ≤ m ∧ m ≤ selfMax ∧ 0 < f m) :
    0 < Spec.gridShare selfMin selfMax nM lo d f := by
  rw [gridShare_eq hM]
  refine trapzR_pos_of_exists (by simp) (by rw [linspaceR_length]; exact hM) ?_ (linspaceR_sorted hlt hM) ?_
  · intro y hy
    obtain ⟨m, -, rfl⟩ := List.mem_map.1 hy
    exact mul_nonneg (hf m) (window_nonneg _ _ _ _)
  · obtain ⟨m, hm, h1, h2, h3⟩ := hpos
    refine ⟨_, List.mem_map.2 ⟨m, hm, rfl⟩, mul_pos h3 ?_⟩
    unfold window
    rw [if_pos ⟨h1, h2⟩]
    exact taper_pos _

/-- The density of an instance whose primary model is the function `f`. -/
theorem density (b : Backend) {primary : Primary} {fixed : Dict Fl} {cache : Bool} {selfMin selfMax : ℝ}
    {nM nQ : ℕ} {s : Smoothed} (hs : Smoothed.init primary fixed selfMin selfMax nM nQ cache = .ok s)
    (hself : 0 < selfMin) (hlt : selfMin < selfMax) {kwargs : Dict Fl} {d lo : ℝ}
    (hd : Dict.get? kwargs "delta_m" = some (fin d)) (hd0 : 0 < d)
    (hlo : Dict.get? kwargs "mmin" = some (fin lo)) {f : ℝ → ℝ}
    (hf : ∀ m, 0 < m → primary b (Dict.erase kwargs "delta_m") (fin m) = .ok (fin (f m)))
    (hN : Spec.gridShare selfMin selfMax nM lo d f ≠ 0) :
    Spec.PrimaryDensity b s kwargs fun m => f m * window lo selfMax d m /
      Spec.gridShare selfMin selfMax nM lo d f := by
  obtain ⟨hM, -, rfl⟩ := init_inv hs
  intro masses hm
  rw [pM1_value b _ kwargs (nM := nM) (d := d) (lo := lo) (f := f) rfl
    (by unfold Smoothed.kwGet; rw [hd]; rfl) hd0 (by unfold Smoothed.kwGet; rw [hlo]; rfl)
    (fun m hm => hf m (hself.trans_le (linspaceR_mem hlt.le hM hm).1)) (fun m h => hf m (hm m h))
    (gridShare_eq hM lo d f)]
  congr 1
  exact List.map_congr_left fun m _ => fin_div hN

theorem density_unique {b : Backend} {s : Smoothed} {kwargs : Dict Fl} {p p' : ℝ → ℝ}
    (h : Spec.PrimaryDensity b s kwargs p) (h' : Spec.PrimaryDensity b s kwargs p') {m : ℝ} (hm : 0 < m) :
    p m = p' m := by
  have e := (h [m] (by simpa using hm)).symm.trans (h' [m] (by simpa using hm))
  simpa using e

/-- What is left of the weight of one of two components. -/
def weight (lam N0 N1 : ℝ) : ℝ := lam * N1 / ((1 - lam) * N0 + lam * N1)

theorem weight_eq_iff {lam N0 N1 : ℝ} (h0 : 0 ≤ lam) (h1 : lam ≤ 1) (hN0 : 0 < N0) (hN1 : 0 < N1) :
    weight lam N0 N1 = lam ↔ lam = 0 ∨ lam = 1 ∨ N0 = N1 := by
  have hD := mix_pos h0 h1 hN0 hN1
  unfold weight
  rw [div_eq_iff hD.ne']
  constructor
  · intro h
    have : lam * ((1 - lam) * (N1 - N0)) = 0 := by linear_combination h
    rcases mul_eq_zero.1 this with h | h
    · exact Or.inl h
    · rcases mul_eq_zero.1 h with h | h
      · exact Or.inr (Or.inl (by linarith))
      · exact Or.inr (Or.inr (by linarith))
  · rintro (h | h | h) <;> subst h <;> ring

theorem weight_gt_iff {lam N0 N1 : ℝ} (h0 : 0 < lam) (h1 : lam < 1) (hN0 : 0 < N0) (hN1 : 0 < N1) :
    lam < weight lam N0 N1 ↔ N0 < N1 := by
  have hD := mix_pos h0.le h1.le hN0 hN1
  have hl : 0 < lam * (1 - lam) := mul_pos h0 (by linarith)
  unfold weight
  rw [lt_div_iff₀ hD]
  constructor <;> intro h
  · by_contra hc
    nlinarith
  · nlinarith

theorem weight_mem {lam N0 N1 : ℝ} (h0 : 0 ≤ lam) (h1 : lam ≤ 1) (hN0 : 0 < N0) (hN1 : 0 < N1) :
    0 ≤ weight lam N0 N1 ∧ weight lam N0 N1 ≤ 1 := by
  have hD := mix_pos h0 h1 hN0 hN1
  unfold weight
  refine ⟨div_nonneg (by positivity) hD.le, ?_⟩
  rw [div_le_one hD]
  nlinarith

end Mixture

open Mixture

/-- What is proved of the fraction in place of C133. With `N0` and `N1` the parts of the two
components left by the window, the fraction of the second is not `lam` but
`lam N1 / ((1 - lam) N0 + lam N1)`; it is `lam` only if the window takes the same part of both, or if
there is only one component. -/
structure Spec.TrueFraction (b : Backend) (s : Smoothed) (K : ℝ → Dict Fl) (lam N0 N1 : ℝ) (apart : Prop)
    (p0 p1 p : ℝ → ℝ) : Prop where
  /-- the model without the second component -/
  first : Spec.PrimaryDensity b s (K 0) p0
  /-- the model without the first component -/
  second : Spec.PrimaryDensity b s (K 1) p1
  /-- the mixture -/
  mixture : Spec.PrimaryDensity b s (K lam) p
  /-- the fraction of the second component -/
  fraction : Spec.FractionIs p0 p1 p (lam * N1 / ((1 - lam) * N0 + lam * N1))
  /-- it is a fraction -/
  range : 0 ≤ lam * N1 / ((1 - lam) * N0 + lam * N1) ∧ lam * N1 / ((1 - lam) * N0 + lam * N1) ≤ 1
  /-- it is larger than `lam` exactly when the window takes less of the second component -/
  larger : 0 < lam → lam < 1 → (lam < lam * N1 / ((1 - lam) * N0 + lam * N1) ↔ N0 < N1)
  /-- when it is `lam` -/
  equal : apart → (Spec.FractionIs p0 p1 p lam ↔ lam = 0 ∨ lam = 1 ∨ N0 = N1)

theorem Mixture.trueFraction (b : Backend) {primary : Primary} {fixed : Dict Fl} {cache : Bool} {selfMin selfMax : ℝ}
    {nM nQ : ℕ} {s : Smoothed} (hs : Smoothed.init primary fixed selfMin selfMax nM nQ cache = .ok s)
    (hself : 0 < selfMin) (hlt : selfMin < selfMax) {K : ℝ → Dict Fl} {d lo : ℝ}
    (hd : ∀ l, Dict.get? (K l) "delta_m" = some (fin d)) (hd0 : 0 < d)
    (hlo : ∀ l, Dict.get? (K l) "mmin" = some (fin lo)) {f0 f1 : ℝ → ℝ}
    (hf : ∀ l m, 0 < m → primary b (Dict.erase (K l) "delta_m") (fin m) =
      .ok (fin ((1 - l) * f0 m + l * f1 m)))
    (hN0 : 0 < Spec.gridShare selfMin selfMax nM lo d f0) (hN1 : 0 < Spec.gridShare selfMin selfMax nM lo d f1)
    {lam : ℝ} (h0 : 0 ≤ lam) (h1 : lam ≤ 1) {apart : Prop}
    (hap : apart → ∃ m, 0 < m ∧ lo ≤ m ∧ m ≤ selfMax ∧ f0 m = 0 ∧ 0 < f1 m) :
    ∃ p0 p1 p, Spec.TrueFraction b s K lam (Spec.gridShare selfMin selfMax nM lo d f0)
      (Spec.gridShare selfMin selfMax nM lo d f1) apart p0 p1 p := by
  set N0 := Spec.gridShare selfMin selfMax nM lo d f0 with hN0'
  set N1 := Spec.gridShare selfMin selfMax nM lo d f1 with hN1'
  have hD := mix_pos h0 h1 hN0 hN1
  have hfr : Spec.FractionIs (fun m => f0 m * window lo selfMax d m / N0) (fun m => f1 m * window lo selfMax d m / N1)
      (fun m => ((1 - lam) * f0 m + lam * f1 m) * window lo selfMax d m / ((1 - lam) * N0 + lam * N1))
      (lam * N1 / ((1 - lam) * N0 + lam * N1)) := by
    intro m _
    simp only
    field_simp
    ring
  refine ⟨_, _, _, ?_, ?_, ?_, hfr, weight_mem h0 h1 hN0 hN1,
    fun a c => weight_gt_iff a c hN0 hN1, fun ha => ?_⟩
  · exact density b hs hself hlt (hd 0) hd0 (hlo 0) (fun m hm => by rw [hf 0 m hm]; simp) hN0.ne'
  · exact density b hs hself hlt (hd 1) hd0 (hlo 1) (fun m hm => by rw [hf 1 m hm]; simp) hN1.ne'
  · have := density b hs hself hlt (hd lam) hd0 (hlo lam) (hf lam)
      (by rw [gridShare_mix, ← hN0', ← hN1']; exact hD.ne')
    rwa [gridShare_mix, ← hN0', ← hN1'] at this
  · rw [← weight_eq_iff h0 h1 hN0 hN1]
    constructor
    · intro h
      obtain ⟨m, hm, g1, g2, g3, g4⟩ := hap ha
      have hw : 0 < window lo selfMax d m := by
        unfold window
        rw [if_pos ⟨g1, g2⟩]
        exact taper_pos _
      have e := (hfr m hm).symm.trans (h m hm)
      simp only [g3, zero_mul, zero_div, mul_zero, zero_add] at e
      have hp : 0 < f1 m * window lo selfMax d m / N1 := by positivity
      exact mul_right_cancel₀ hp.ne' e
    · intro h
      have := hfr
      unfold weight at h
      rwa [h] at this

/-! ## The models -/

namespace Mixture

theorem onePeak_value (b : Backend) (py : Bool) {alpha mmin mmax mpp sigpp d top : ℝ}
    (ha : b = .jax ∨ alpha ≠ -1) (h0 : 0 < mmin) (h : mmin < mmax) (hg : mmin < top) (hs : 0 < sigpp) (l m : ℝ)
    (hm : 0 < m) :
    primTwoComponent py b (Dict.erase (Spec.onePeakArgs alpha mmin mmax mpp sigpp d top l) "delta_m") (fin m) =
      .ok (fin ((1 - l) * normalised (fun t => t ^ (-alpha)) mmin mmax m +
        l * normalised (bell mpp sigpp) mmin top m)) := by
  rw [← C18_twoComponentSingle_value b py ha h0 h hg hs hm]
  simp [primTwoComponent, bindArgs, Spec.onePeakArgs, Dict.erase, Dict.keys, Dict.contains, Dict.get?]
  rfl

theorem brokenPeak_value (b : Backend) (py : Bool) {alpha1 alpha2 bf mmin mmax mpp sigpp d top : ℝ}
    (ha1 : b = .jax ∨ alpha1 ≠ -1) (ha2 : b = .jax ∨ alpha2 ≠ -1) (hb0 : 0 < bf) (hb1 : bf < 1)
    (h0 : 0 < mmin) (h : mmin < mmax) (hg : mmin < top) (hs : 0 < sigpp) (l m : ℝ) (hm : 0 < m) :
    primDoublePowerLawPeak py b
        (Dict.erase (Spec.brokenPeakArgs alpha1 alpha2 bf mmin mmax mpp sigpp d top l) "delta_m") (fin m) =
      .ok (fin ((1 - l) * normalised (brokenShape alpha1 alpha2 (mmin + bf * (mmax - mmin))) mmin mmax m +
        l * normalised (bell mpp sigpp) mmin top m)) := by
  rw [← C18_doublePowerLawPeak_value b py ha1 ha2 h0 h hb0 hb1 hg hs hm]
  simp [primDoublePowerLawPeak, bindArgs, Spec.brokenPeakArgs, Dict.erase, Dict.keys, Dict.contains, Dict.get?]
  rfl

theorem twoPeak_value (b : Backend) (py : Bool) {alpha mmin mmax mpp1 sigpp1 mpp2 sigpp2 d top : ℝ}
    (ha : b = .jax ∨ alpha ≠ -1) (h0 : 0 < mmin) (h : mmin < mmax) (hg : mmin < top) (hs1 : 0 < sigpp1)
    (hs2 : 0 < sigpp2) (l l1 m : ℝ) (hm : 0 < m) :
    primThreeComponent py b
        (Dict.erase (Spec.twoPeakArgs alpha mmin mmax mpp1 sigpp1 mpp2 sigpp2 d top l l1) "delta_m") (fin m) =
      .ok (fin ((1 - l) * normalised (fun t => t ^ (-alpha)) mmin mmax m +
        l * l1 * normalised (bell mpp1 sigpp1) mmin top m +
        l * (1 - l1) * normalised (bell mpp2 sigpp2) mmin top m)) := by
  rw [← C18_threeComponentSingle_value b py ha h0 h hg hs1 hs2 hm]
  simp [primThreeComponent, bindArgs, Spec.twoPeakArgs, Dict.erase, Dict.keys, Dict.contains, Dict.get?]
  rfl

theorem bell_share_pos (mpp sigpp d : ℝ) {selfMin selfMax lo : ℝ} {nM : ℕ} (hM : 2 ≤ nM) (hlo : selfMin ≤ lo)
    (h : lo < selfMax) :
    0 < Spec.gridShare selfMin selfMax nM lo d (normalised (bell mpp sigpp) lo selfMax) :=
  gridShare_pos hM (by linarith) (isPdf_bell mpp sigpp h).nonneg
    ⟨selfMax, linspaceR_last selfMin selfMax hM, h.le, le_rfl,
      normalised_pos (integral_gaussShape_pos h) ⟨h.le, le_rfl⟩ (gaussShape_pos mpp sigpp selfMax)⟩

theorem powerlaw_share_pos (a d : ℝ) {selfMin selfMax lo hi : ℝ} {nM : ℕ} (hM : 2 ≤ nM) (hself : 0 < selfMin)
    (hlo : selfMin ≤ lo) (h : lo < hi) (hhi : hi ≤ selfMax) (hgrid : GridInside selfMin selfMax nM lo hi) :
    0 < Spec.gridShare selfMin selfMax nM lo d (normalised (fun t => t ^ a) lo hi) := by
  obtain ⟨m, hm, e1, e2⟩ := gridInside_inv hgrid
  exact gridShare_pos hM (by linarith) (isPdf_powerlaw a (by linarith) h).nonneg
    ⟨m, hm, e1.le, by linarith, (powerlaw_support a (by linarith) h e1).2 e2.le⟩

theorem above (f : ℝ → ℝ) (mpp sigpp : ℝ) {lo hi top : ℝ} (h0 : 0 < lo) (h : lo < hi) :
    hi < top → ∃ m, 0 < m ∧ lo ≤ m ∧ m ≤ top ∧ normalised f lo hi m = 0 ∧
      0 < normalised (bell mpp sigpp) lo top m := by
  intro ht
  refine ⟨top, by linarith, by linarith, le_rfl, ?_,
    normalised_pos (integral_gaussShape_pos (by linarith)) ⟨by linarith, le_rfl⟩ (gaussShape_pos mpp sigpp top)⟩
  simp only [normalised]
  rw [if_neg (fun h => by linarith [h.2])]

end Mixture

/-- **C133, partial.** `SinglePeakSmoothedMassDistribution`. -/
theorem C133_singlePeak_partial (b : Backend) (py cache : Bool) {selfMin selfMax : ℝ} {nM nQ : ℕ} {s : Smoothed}
    (hinit : singlePeak py selfMin selfMax nM nQ cache = .ok s) {alpha mmin mmax mpp sigpp d lam : ℝ}
    (hself : 0 < selfMin) (hlo : selfMin ≤ mmin) (hlt : mmin < mmax) (hhi : mmax ≤ selfMax)
    (ha : b = .jax ∨ alpha ≠ -1) (hs : 0 < sigpp) (hd : 0 < d) (h0 : 0 ≤ lam) (h1 : lam ≤ 1)
    (hgrid : GridInside selfMin selfMax nM mmin mmax) :
    ∃ p0 p1 p, Spec.TrueFraction b s (Spec.onePeakArgs alpha mmin mmax mpp sigpp d selfMax) lam
      (Spec.gridShare selfMin selfMax nM mmin d (normalised (fun t => t ^ (-alpha)) mmin mmax))
      (Spec.gridShare selfMin selfMax nM mmin d (normalised (bell mpp sigpp) mmin selfMax))
      (mmax < selfMax) p0 p1 p := by
  obtain ⟨hM, -, -⟩ := init_inv hinit
  exact trueFraction b hinit hself (by linarith) (fun l => by simp [Spec.onePeakArgs, Dict.get?_cons]) hd
    (fun l => by simp [Spec.onePeakArgs, Dict.get?_cons])
    (onePeak_value b py ha (by linarith) hlt (by linarith) hs)
    (powerlaw_share_pos _ d hM hself hlo hlt hhi hgrid) (bell_share_pos mpp sigpp d hM hlo (by linarith)) h0 h1
    (above _ mpp sigpp (by linarith) hlt)

/-- **C133, partial.** `BrokenPowerLawPeakSmoothedMassDistribution`. -/
theorem C133_brokenPowerLawPeak_partial (b : Backend) (py cache : Bool) {selfMin selfMax : ℝ} {nM nQ : ℕ}
    {s : Smoothed} (hinit : brokenPowerLawPeak py selfMin selfMax nM nQ cache = .ok s)
    {alpha1 alpha2 bf mmin mmax mpp sigpp d lam : ℝ}
    (hself : 0 < selfMin) (hlo : selfMin ≤ mmin) (hlt : mmin < mmax) (hhi : mmax ≤ selfMax)
    (ha1 : b = .jax ∨ alpha1 ≠ -1) (ha2 : b = .jax ∨ alpha2 ≠ -1) (hb0 : 0 < bf) (hb1 : bf < 1)
    (hs : 0 < sigpp) (hd : 0 < d) (h0 : 0 ≤ lam) (h1 : lam ≤ 1)
    (hgrid : GridInside selfMin selfMax nM mmin mmax) :
    ∃ p0 p1 p, Spec.TrueFraction b s (Spec.brokenPeakArgs alpha1 alpha2 bf mmin mmax mpp sigpp d selfMax) lam
      (Spec.gridShare selfMin selfMax nM mmin d
        (normalised (brokenShape alpha1 alpha2 (mmin + bf * (mmax - mmin))) mmin mmax))
      (Spec.gridShare selfMin selfMax nM mmin d (normalised (bell mpp sigpp) mmin selfMax))
      (mmax < selfMax) p0 p1 p := by
  obtain ⟨hM, -, -⟩ := init_inv hinit
  have hb : 0 < mmin + bf * (mmax - mmin) := by
    have : 0 < bf * (mmax - mmin) := mul_pos hb0 (by linarith)
    linarith
  obtain ⟨m, hm, e1, e2⟩ := gridInside_inv hgrid
  exact trueFraction b hinit hself (by linarith) (fun l => by simp [Spec.brokenPeakArgs, Dict.get?_cons]) hd
    (fun l => by simp [Spec.brokenPeakArgs, Dict.get?_cons])
    (brokenPeak_value b py ha1 ha2 hb0 hb1 (by linarith) hlt (by linarith) hs)
    (gridShare_pos hM (by linarith) (isPdf_broken alpha1 alpha2 (by linarith) hb hlt).nonneg
      ⟨m, hm, e1.le, by linarith, (broken_support alpha1 alpha2 (by linarith) hb hlt e1).2 e2.le⟩)
    (bell_share_pos mpp sigpp d hM hlo (by linarith)) h0 h1
    (above _ mpp sigpp (by linarith) hlt)

/-- **C133, partial.** `MultiPeakSmoothedMassDistribution`: the fractions of the power law and of the
two Gaussians are proportional to `(1 - lam) N0`, `lam lam_1 N1` and `lam (1 - lam_1) N2`. In
particular `lam_1` is not the fraction of black holes in the first Gaussian (`mass.py:748`), but,
up to the effect of the window, the fraction of those in either Gaussian. -/
theorem C133_multiPeak_partial (b : Backend) (py cache : Bool) {selfMin selfMax : ℝ} {nM nQ : ℕ} {s : Smoothed}
    (hinit : multiPeak py selfMin selfMax nM nQ cache = .ok s)
    {alpha mmin mmax mpp1 sigpp1 mpp2 sigpp2 d lam lam1 N0 N1 N2 : ℝ}
    (hself : 0 < selfMin) (hlo : selfMin ≤ mmin) (hlt : mmin < mmax) (hhi : mmax ≤ selfMax)
    (ha : b = .jax ∨ alpha ≠ -1) (hs1 : 0 < sigpp1) (hs2 : 0 < sigpp2) (hd : 0 < d) (h0 : 0 ≤ lam) (h1 : lam ≤ 1)
    (h10 : 0 ≤ lam1) (h11 : lam1 ≤ 1) (hgrid : GridInside selfMin selfMax nM mmin mmax)
    (e0 : N0 = Spec.gridShare selfMin selfMax nM mmin d (normalised (fun t => t ^ (-alpha)) mmin mmax))
    (e1 : N1 = Spec.gridShare selfMin selfMax nM mmin d (normalised (bell mpp1 sigpp1) mmin selfMax))
    (e2 : N2 = Spec.gridShare selfMin selfMax nM mmin d (normalised (bell mpp2 sigpp2) mmin selfMax)) :
    ∃ p0 p1 p2 p,
      Spec.PrimaryDensity b s (Spec.twoPeakArgs alpha mmin mmax mpp1 sigpp1 mpp2 sigpp2 d selfMax 0 lam1) p0 ∧
      Spec.PrimaryDensity b s (Spec.twoPeakArgs alpha mmin mmax mpp1 sigpp1 mpp2 sigpp2 d selfMax 1 1) p1 ∧
      Spec.PrimaryDensity b s (Spec.twoPeakArgs alpha mmin mmax mpp1 sigpp1 mpp2 sigpp2 d selfMax 1 0) p2 ∧
      Spec.PrimaryDensity b s (Spec.twoPeakArgs alpha mmin mmax mpp1 sigpp1 mpp2 sigpp2 d selfMax lam lam1) p ∧
      0 < N0 ∧ 0 < N1 ∧ 0 < N2 ∧ ∀ m, 0 < m →
        p m = ((1 - lam) * N0 * p0 m + lam * lam1 * N1 * p1 m + lam * (1 - lam1) * N2 * p2 m) /
          ((1 - lam) * N0 + lam * lam1 * N1 + lam * (1 - lam1) * N2) := by
  obtain ⟨hM, -, -⟩ := init_inv hinit
  have hN0 : 0 < N0 := e0 ▸ powerlaw_share_pos _ d hM hself hlo hlt hhi hgrid
  have hN1 : 0 < N1 := e1 ▸ bell_share_pos mpp1 sigpp1 d hM hlo (by linarith)
  have hN2 : 0 < N2 := e2 ▸ bell_share_pos mpp2 sigpp2 d hM hlo (by linarith)
  have hdm : ∀ l l1, Dict.get? (Spec.twoPeakArgs alpha mmin mmax mpp1 sigpp1 mpp2 sigpp2 d selfMax l l1) "delta_m" =
      some (fin d) := fun l l1 => by simp [Spec.twoPeakArgs, Dict.get?_cons]
  have hmm : ∀ l l1, Dict.get? (Spec.twoPeakArgs alpha mmin mmax mpp1 sigpp1 mpp2 sigpp2 d selfMax l l1) "mmin" =
      some (fin mmin) := fun l l1 => by simp [Spec.twoPeakArgs, Dict.get?_cons]
  have hD : 0 < (1 - lam) * N0 + lam * lam1 * N1 + lam * (1 - lam1) * N2 := by
    have := mix_pos h0 h1 hN0 (mix_pos h10 h11 hN2 hN1)
    linarith
  have hN : Spec.gridShare selfMin selfMax nM mmin d (fun m => (1 - lam) * normalised (fun t => t ^ (-alpha)) mmin mmax m +
      lam * lam1 * normalised (bell mpp1 sigpp1) mmin selfMax m +
      lam * (1 - lam1) * normalised (bell mpp2 sigpp2) mmin selfMax m) =
        (1 - lam) * N0 + lam * lam1 * N1 + lam * (1 - lam1) * N2 := by
    have := gridShare_mix (selfMin := selfMin) (selfMax := selfMax) (nM := nM) mmin d 1 (lam * (1 - lam1))
      (fun m => (1 - lam) * normalised (fun t => t ^ (-alpha)) mmin mmax m +
        lam * lam1 * normalised (bell mpp1 sigpp1) mmin selfMax m) (normalised (bell mpp2 sigpp2) mmin selfMax)
    simp only [one_mul] at this
    rw [this, gridShare_mix, e0, e1, e2]
  have hval := fun l l1 => twoPeak_value b py (d := d) (mpp1 := mpp1) (mpp2 := mpp2) ha (by linarith) hlt (by linarith : mmin < selfMax)
    hs1 hs2 l l1
  have ga := density b hinit hself (by linarith) (hdm 0 lam1) hd (hmm 0 lam1)
      (f := normalised (fun t => t ^ (-alpha)) mmin mmax) (fun m hm => by rw [hval 0 lam1 m hm]; simp)
      (e0 ▸ hN0.ne')
  have gb := density b hinit hself (by linarith) (hdm 1 1) hd (hmm 1 1)
      (f := normalised (bell mpp1 sigpp1) mmin selfMax) (fun m hm => by rw [hval 1 1 m hm]; simp) (e1 ▸ hN1.ne')
  have gc := density b hinit hself (by linarith) (hdm 1 0) hd (hmm 1 0)
      (f := normalised (bell mpp2 sigpp2) mmin selfMax) (fun m hm => by rw [hval 1 0 m hm]; simp) (e2 ▸ hN2.ne')
  have ge := density b hinit hself (by linarith) (hdm lam lam1) hd (hmm lam lam1) (hval lam lam1) (by rw [hN]; exact hD.ne')
  refine ⟨_, _, _, _, ga, gb, gc, ge, hN0, hN1, hN2, ?_⟩
  · intro m _
    rw [hN, ← e0, ← e1, ← e2]
    field_simp

/-- **C133, partial.** Without the window the fraction is exactly `lam`: the mass models that are
plain functions. -/
theorem C133_unsmoothed_partial (b : Backend) (py : Bool) {alpha mmin mmax mpp sigpp top : ℝ}
    (ha : b = .jax ∨ alpha ≠ -1) (h0 : 0 < mmin) (h : mmin < mmax) (hg : mmin < top) (hs : 0 < sigpp) (lam : ℝ) :
    ∃ p0 p1 p : ℝ → ℝ, (∀ m, 0 < m →
      twoComponentSingle b py (fin m) (fin alpha) (fin mmin) (fin mmax) (fin 0) (fin mpp) (fin sigpp) (fin top) =
        .ok (fin (p0 m)) ∧
      twoComponentSingle b py (fin m) (fin alpha) (fin mmin) (fin mmax) (fin 1) (fin mpp) (fin sigpp) (fin top) =
        .ok (fin (p1 m)) ∧
      twoComponentSingle b py (fin m) (fin alpha) (fin mmin) (fin mmax) (fin lam) (fin mpp) (fin sigpp) (fin top) =
        .ok (fin (p m))) ∧ Spec.FractionIs p0 p1 p lam := by
  refine ⟨_, _, _, fun m hm => ⟨C18_twoComponentSingle_value b py ha h0 h hg hs hm,
    C18_twoComponentSingle_value b py ha h0 h hg hs hm, C18_twoComponentSingle_value b py ha h0 h hg hs hm⟩, ?_⟩
  intro m _
  simp only
  ring

/-! ## Fine grids -/

namespace Mixture

theorem gridShare_tendsto {f : ℝ → ℝ} {selfMin selfMax lo d : ℝ} (hd : 0 < d) (hlt : selfMin ≤ selfMax)
    (hbv : BoundedVariationOn f (Icc selfMin selfMax)) :
    Tendsto (fun nM => Spec.gridShare selfMin selfMax nM lo d f) atTop (𝓝 (Spec.share selfMin selfMax lo d f)) := by
  refine (trapzR_tendsto hlt (hbv.mul (bv_window lo selfMax hd _ _))).congr' ?_
  filter_upwards [eventually_ge_atTop 2] with n hn
  rw [gridShare_eq hn]
  rfl

end Mixture

/-- **C133, partial.** As the mass grid is refined, the fraction of the Gaussian component tends to
`lam N1 / ((1 - lam) N0 + lam N1)` with the exact shares `N0` and `N1` of the power law and of
the Gaussian that the window leaves. -/
theorem C133_limit_partial {selfMin selfMax alpha mmin mmax mpp sigpp d lam : ℝ}
    (hself : 0 < selfMin) (hlo : selfMin ≤ mmin) (hlt : mmin < mmax) (hhi : mmax ≤ selfMax) (hd : 0 < d)
    (h0 : 0 ≤ lam) (h1 : lam ≤ 1) {N0 N1 : ℝ}
    (e0 : N0 = Spec.share selfMin selfMax mmin d (normalised (fun t => t ^ (-alpha)) mmin mmax))
    (e1 : N1 = Spec.share selfMin selfMax mmin d (normalised (bell mpp sigpp) mmin selfMax)) :
    0 < N0 ∧ 0 < N1 ∧ Tendsto (fun nM =>
      lam * Spec.gridShare selfMin selfMax nM mmin d (normalised (bell mpp sigpp) mmin selfMax) /
        ((1 - lam) * Spec.gridShare selfMin selfMax nM mmin d (normalised (fun t => t ^ (-alpha)) mmin mmax) +
          lam * Spec.gridShare selfMin selfMax nM mmin d (normalised (bell mpp sigpp) mmin selfMax)))
      atTop (𝓝 (lam * N1 / ((1 - lam) * N0 + lam * N1))) := by
  have b0 : BoundedVariationOn (normalised (fun t => t ^ (-alpha)) mmin mmax) (Icc selfMin selfMax) :=
    bv_normalised mmin mmax (bv_rpow (-alpha) hself)
  have b1 : BoundedVariationOn (normalised (bell mpp sigpp) mmin selfMax) (Icc selfMin selfMax) :=
    bv_normalised mmin selfMax (bv_bell mpp sigpp _ _)
  have n0 := (isPdf_powerlaw (-alpha) (by linarith) hlt).nonneg
  have n1 := (isPdf_bell mpp sigpp (by linarith : mmin < selfMax)).nonneg
  have hN0 : 0 < N0 := by
    refine lt_of_le_of_ne ?_ (Ne.symm ?_) <;> rw [e0]
    · exact intervalIntegral.integral_nonneg (by linarith) fun t _ => mul_nonneg (n0 t) (window_nonneg _ _ _ _)
    · exact windowed_norm_pos hd b0 n0 hlo hlt hhi fun t ht =>
        (powerlaw_support (-alpha) (by linarith) hlt ht.1).2 ht.2.le
  have hN1 : 0 < N1 := by
    refine lt_of_le_of_ne ?_ (Ne.symm ?_) <;> rw [e1]
    · exact intervalIntegral.integral_nonneg (by linarith) fun t _ => mul_nonneg (n1 t) (window_nonneg _ _ _ _)
    · exact windowed_norm_pos hd b1 n1 hlo (by linarith : mmin < selfMax) le_rfl fun t ht =>
        normalised_pos (integral_gaussShape_pos (by linarith)) ⟨ht.1.le, ht.2.le⟩ (gaussShape_pos mpp sigpp t)
  have t0 := gridShare_tendsto (lo := mmin) hd (by linarith) b0
  have t1 := gridShare_tendsto (lo := mmin) hd (by linarith) b1
  rw [← e0] at t0
  rw [← e1] at t1
  exact ⟨hN0, hN1, (t1.const_mul lam).div ((t0.const_mul (1 - lam)).add (t1.const_mul lam))
    (mix_pos h0 h1 hN0 hN1).ne'⟩

/-! ## The property fails -/

namespace Mixture

theorem taper_le_half {u : ℝ} (h : u ≤ 1 / 2) : taper u ≤ 1 / 2 := by
  have h1 := taper_symm u
  have h2 := taper_mono (show u ≤ 1 - u by linarith)
  linarith

theorem taper_one : 2 / 3 ≤ taper 1 := by
  unfold taper
  have hc : clampUnit 1 = 1 - 1e-6 := by
    unfold clampUnit
    norm_num
  rw [hc]
  have he : Real.exp (1 / (1 - 1e-6) - 1 / (1 - (1 - 1e-6))) ≤ 1 / 2 := by
    have h1 : (1 / (1 - 1e-6) - 1 / (1 - (1 - 1e-6)) : ℝ) ≤ -1 := by norm_num
    refine (Real.exp_le_exp.2 h1).trans ?_
    rw [Real.exp_neg, one_div]
    refine inv_anti₀ two_pos ?_
    have := Real.add_one_le_exp (1 : ℝ)
    linarith
  rw [div_le_div_iff₀ (by norm_num) (by positivity)]
  linarith

/-- The share of a power law between 1 and 2 that a window from 1 to 3 leaves. -/
theorem low_share : Spec.share 1 100 1 2 (normalised (fun t => t ^ (-(0 : ℝ))) 1 2) ≤ 1 / 2 := by
  have hp := isPdf_powerlaw (-(0 : ℝ)) (lo := 1) (hi := 2) one_pos (by norm_num)
  have hbv : BoundedVariationOn (normalised (fun t => t ^ (-(0 : ℝ))) 1 2) (Icc 1 100) :=
    bv_normalised 1 2 (bv_rpow (-(0 : ℝ)) one_pos)
  have h1 : ∫ t in (1 : ℝ)..100, normalised (fun t => t ^ (-(0 : ℝ))) 1 2 t ≤ 1 := by
    rw [intervalIntegral.integral_of_le (by norm_num)]
    exact (setIntegral_le_integral hp.int (Eventually.of_forall hp.nonneg)).trans hp.one.le
  have h2 : Spec.share 1 100 1 2 (normalised (fun t => t ^ (-(0 : ℝ))) 1 2) ≤
      ∫ t in (1 : ℝ)..100, 1 / 2 * normalised (fun t => t ^ (-(0 : ℝ))) 1 2 t := by
    refine intervalIntegral.integral_mono_on (by norm_num)
      (bv_intervalIntegrable (by norm_num) (hbv.mul (bv_window 1 100 two_pos _ _)))
      ((bv_intervalIntegrable (by norm_num) hbv).const_mul _) fun t ht => ?_
    by_cases ht2 : t ≤ 2
    · rw [mul_comm]
      refine mul_le_mul_of_nonneg_right ?_ (hp.nonneg t)
      unfold window
      split_ifs
      · exact taper_le_half (by linarith)
      · norm_num
    · rw [hp.supp t (fun h => ht2 h.2)]
      simp
  rw [intervalIntegral.integral_const_mul] at h2
  exact h2.trans ((mul_le_mul_of_nonneg_left h1 (by norm_num)).trans (by norm_num))

/-- The share of a Gaussian between 1 and 100 with its peak at 100. -/
theorem high_share : 1 / 2 < Spec.share 1 100 1 2 (normalised (bell 100 10) 1 100) := by
  have hp := isPdf_bell 100 10 (lo := 1) (hi := 100) (by norm_num)
  have hbv : BoundedVariationOn (normalised (bell 100 10) 1 100) (Icc 1 100) :=
    bv_normalised 1 100 (bv_bell 100 10 _ _)
  have hc : Continuous (bell 100 10) := gaussShape_continuous 100 10
  have hmono : ∀ x y : ℝ, x ≤ y → y ≤ 100 → bell 100 10 x ≤ bell 100 10 y := by
    intro x y hxy hy
    unfold bell
    apply Real.exp_le_exp.2
    rw [div_le_div_iff_of_pos_right (by norm_num)]
    nlinarith
  have hb3 : 0 < bell 100 10 3 := gaussShape_pos 100 10 3
  have i1 : ∫ t in (1 : ℝ)..3, bell 100 10 t ≤ 2 * bell 100 10 3 := by
    have := intervalIntegral.integral_mono_on (μ := volume) (a := 1) (b := 3) (by norm_num)
      (hc.intervalIntegrable _ _) (continuous_const.intervalIntegrable _ _)
      (g := fun _ => bell 100 10 3) fun t ht => hmono t 3 ht.2 (by norm_num)
    rw [intervalIntegral.integral_const, smul_eq_mul] at this
    linarith
  have i2 : 97 * bell 100 10 3 ≤ ∫ t in (3 : ℝ)..100, bell 100 10 t := by
    have := intervalIntegral.integral_mono_on (μ := volume) (a := 3) (b := 100) (by norm_num)
      (continuous_const.intervalIntegrable _ _) (hc.intervalIntegrable _ _)
      (f := fun _ => bell 100 10 3) fun t ht => hmono 3 t ht.1 ht.2
    rw [intervalIntegral.integral_const, smul_eq_mul] at this
    linarith
  have hZ : 0 < ∫ t in (1 : ℝ)..100, bell 100 10 t := integral_gaussShape_pos (by norm_num)
  have hsplit := intervalIntegral.integral_add_adjacent_intervals (μ := volume)
    (hc.intervalIntegrable 1 3) (hc.intervalIntegrable 3 100)
  have i3 : 97 / 99 ≤ ∫ t in (3 : ℝ)..100, normalised (bell 100 10) 1 100 t := by
    have : ∫ t in (3 : ℝ)..100, normalised (bell 100 10) 1 100 t =
        ∫ t in (3 : ℝ)..100, bell 100 10 t / ∫ t in (1 : ℝ)..100, bell 100 10 t := by
      refine intervalIntegral.integral_congr fun t ht => ?_
      rw [uIcc_of_le (by norm_num)] at ht
      simp only [normalised]
      rw [if_pos ⟨by linarith [ht.1], ht.2⟩]
    rw [this, intervalIntegral.integral_div, le_div_iff₀ hZ]
    linarith
  have hI := bv_intervalIntegrable (by norm_num) (hbv.mul (bv_window 1 100 two_pos 1 100))
  have hsub : IntervalIntegrable (normalised (bell 100 10) 1 100) volume 3 100 := by
    refine (bv_intervalIntegrable (by norm_num) hbv).mono_set ?_
    rw [uIcc_of_le (by norm_num), uIcc_of_le (by norm_num)]
    exact Icc_subset_Icc (by norm_num) le_rfl
  have hsub' : IntervalIntegrable (fun t => normalised (bell 100 10) 1 100 t * window 1 100 2 t) volume 3 100 := by
    refine hI.mono_set ?_
    rw [uIcc_of_le (by norm_num), uIcc_of_le (by norm_num)]
    exact Icc_subset_Icc (by norm_num) le_rfl
  have i4 : ∫ t in (3 : ℝ)..100, 2 / 3 * normalised (bell 100 10) 1 100 t ≤
      ∫ t in (3 : ℝ)..100, normalised (bell 100 10) 1 100 t * window 1 100 2 t := by
    refine intervalIntegral.integral_mono_on (by norm_num) (hsub.const_mul _) hsub' fun t ht => ?_
    rw [mul_comm]
    refine mul_le_mul_of_nonneg_left ?_ (hp.nonneg t)
    unfold window
    rw [if_pos ⟨by linarith [ht.1], ht.2⟩]
    exact taper_one.trans (taper_mono (by linarith [ht.1]))
  have i5 : ∫ t in (3 : ℝ)..100, normalised (bell 100 10) 1 100 t * window 1 100 2 t ≤
      Spec.share 1 100 1 2 (normalised (bell 100 10) 1 100) := by
    refine intervalIntegral.integral_mono_interval (by norm_num) (by norm_num) le_rfl ?_ hI
    exact Eventually.of_forall fun t => mul_nonneg (hp.nonneg t) (window_nonneg _ _ _ _)
  rw [intervalIntegral.integral_const_mul] at i4
  linarith

theorem fine_inside : ∀ᶠ nM : ℕ in atTop, GridInside 1 100 nM 1 2 := by
  filter_upwards [eventually_ge_atTop 101] with n hn
  have hn' : (101 : ℝ) ≤ n := by exact_mod_cast hn
  refine ⟨1, by omega, ?_, ?_⟩
  · have : 0 < (100 - 1 : ℝ) * ((1 : ℕ) : ℝ) / ((n : ℝ) - 1) := by
      push_cast
      apply div_pos (by norm_num) (by linarith)
    linarith
  · have : (100 - 1 : ℝ) * ((1 : ℕ) : ℝ) / ((n : ℝ) - 1) < 1 := by
      push_cast
      rw [div_lt_one (by linarith)]
      linarith
    linarith

end Mixture

/-- **C133.** The property fails on all fine grids: with a power law between 1 and 2, a Gaussian that
peaks at 100 and a window of length 2, a model with `lam = 1/2` has more than half of its
black holes in the Gaussian component. -/
theorem C133_fails_parts (b : Backend) (py cache : Bool) : ∀ᶠ nM in atTop, ∀ (nQ : ℕ) (s : Smoothed),
    singlePeak py 1 100 nM nQ cache = .ok s →
    ∃ p0 p1 p, Spec.PrimaryDensity b s (Spec.onePeakArgs 0 1 2 100 10 2 100 0) p0 ∧
      Spec.PrimaryDensity b s (Spec.onePeakArgs 0 1 2 100 10 2 100 1) p1 ∧
      Spec.PrimaryDensity b s (Spec.onePeakArgs 0 1 2 100 10 2 100 (1 / 2)) p ∧
      (∃ w, 1 / 2 < w ∧ Spec.FractionIs p0 p1 p w) ∧ ¬ Spec.FractionIs p0 p1 p (1 / 2) := by
  have t0 := gridShare_tendsto (lo := 1) two_pos (by norm_num : (1 : ℝ) ≤ 100)
    (bv_normalised 1 2 (bv_rpow (-(0 : ℝ)) one_pos))
  have t1 := gridShare_tendsto (lo := 1) two_pos (by norm_num : (1 : ℝ) ≤ 100)
    (bv_normalised 1 100 (bv_bell 100 10 _ _))
  filter_upwards [t0.eventually_lt t1 (low_share.trans_lt high_share), fine_inside] with nM hlt hin nQ s hs
  obtain ⟨p0, p1, p, h⟩ := C133_singlePeak_partial b py cache hs (alpha := 0) (mmin := 1) (mmax := 2) (mpp := 100)
    (sigpp := 10) (d := 2) (lam := 1 / 2) one_pos le_rfl (by norm_num) (by norm_num) (Or.inr (by norm_num))
    (by norm_num) (by norm_num) (by norm_num) (by norm_num) hin
  refine ⟨p0, p1, p, h.first, h.second, h.mixture,
    ⟨_, (h.larger (by norm_num) (by norm_num)).2 hlt, h.fraction⟩, fun hc => ?_⟩
  rcases (h.equal (by norm_num)).1 hc with e | e | e
  · norm_num at e
  · norm_num at e
  · exact hlt.ne e

/-- **C133.** The full property fails. -/
theorem C133_fails : ¬ C133_statement := by
  intro hall
  obtain ⟨n, hn, hin, h2⟩ := ((C133_fails_parts .numpy true true).and
    (fine_inside.and (eventually_ge_atTop 2))).exists
  have hs := init_ok (primTwoComponent true) [("gaussian_mass_maximum", fin 100)] 1 100 true h2 (le_refl 2)
  obtain ⟨p0, p1, p, h0, h1, h, -, hf⟩ := hn 2 _ hs
  exact hf (hall .numpy true true 1 100 n 2 _ 0 1 2 100 10 2 (1 / 2) p0 p1 p hs one_pos le_rfl (by norm_num)
    (by norm_num) (by norm_num) (by norm_num) (by norm_num) (by norm_num) (by norm_num) hin h0 h1 h)

/-! ## The hypotheses hold -/

/-- The default instance and GWTC-3-like hyper-parameters. -/
example {s : Smoothed} (hs : singlePeak true 2 100 1000 500 true = .ok s) :
    ∃ p0 p1 p, Spec.TrueFraction .numpy s (Spec.onePeakArgs 3.5 5 85 34 3.6 4.8 100) 0.04
      (Spec.gridShare 2 100 1000 5 4.8 (normalised (fun t => t ^ (-(3.5 : ℝ))) 5 85))
      (Spec.gridShare 2 100 1000 5 4.8 (normalised (bell 34 3.6) 5 100)) ((85 : ℝ) < 100) p0 p1 p :=
  C133_singlePeak_partial .numpy true true hs (by norm_num) (by norm_num) (by norm_num) (by norm_num)
    (Or.inr (by norm_num)) (by norm_num) (by norm_num) (by norm_num) (by norm_num)
    ⟨100, by norm_num, by norm_num, by norm_num⟩

example {s : Smoothed} (hs : brokenPowerLawPeak false 2 100 1000 500 false = .ok s) :=
  C133_brokenPowerLawPeak_partial .jax false false hs (alpha1 := -1) (alpha2 := 5) (bf := 0.4) (mmin := 5)
    (mmax := 85) (mpp := 34) (sigpp := 3) (d := 5) (lam := 0.1) (by norm_num) (by norm_num) (by norm_num)
    (by norm_num) (Or.inl rfl) (Or.inl rfl) (by norm_num) (by norm_num) (by norm_num) (by norm_num) (by norm_num)
    (by norm_num) ⟨100, by norm_num, by norm_num, by norm_num⟩

example {s : Smoothed} (hs : multiPeak false 2 100 1000 500 false = .ok s) :=
  C133_multiPeak_partial .cupy false false hs (alpha := 2) (mmin := 5) (mmax := 85) (mpp1 := 34) (sigpp1 := 3)
    (mpp2 := 70) (sigpp2 := 5) (d := 5) (lam := 0.1) (lam1 := 0.5) (by norm_num) (by norm_num) (by norm_num)
    (by norm_num) (Or.inr (by norm_num)) (by norm_num) (by norm_num) (by norm_num) (by norm_num) (by norm_num)
    (by norm_num) (by norm_num) ⟨100, by norm_num, by norm_num, by norm_num⟩ rfl rfl rfl

example := C133_unsmoothed_partial .numpy true (alpha := 2) (mmin := 5) (mmax := 85) (mpp := 34) (sigpp := 3)
  (top := 100) (Or.inr (by norm_num)) (by norm_num) (by norm_num) (by norm_num) (by norm_num) 0.1

example := C133_limit_partial (selfMin := 2) (selfMax := 100) (alpha := 2) (mmin := 5) (mmax := 85) (mpp := 34)
  (sigpp := 3) (d := 5) (lam := 0.1) (by norm_num) (by norm_num) (by norm_num) (by norm_num) (by norm_num)
  (by norm_num) (by norm_num) rfl rfl

end GW
