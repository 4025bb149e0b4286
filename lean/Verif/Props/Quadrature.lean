import Verif.Lemmas.Quadrature
import Verif.Props.Redshift
import Verif.Props.MassSingle
import Verif.Props.SplineValue

/-!
# C85: normalisation on a grid is normalisation up to the resolution of the grid
-/

noncomputable section

open Classical Set Filter Topology

namespace GW

open Fl Spec

/-- Total variation of a function on `[a, b]`. -/
def Spec.variation (f : ℝ → ℝ) (a b : ℝ) : ℝ := (eVariationOn f (Icc a b)).toReal

/-- The trapezoid sum on a regular grid of `n` points differs from the integral by at most half a
cell times the total variation. -/
theorem trapzR_error {f : ℝ → ℝ} {a b : ℝ} (hab : a ≤ b) {n : ℕ} (hn : 2 ≤ n)
    (hf : BoundedVariationOn f (Icc a b)) :
    |(∫ t in a..b, f t) - Arr.trapzR ((Arr.linspaceR a b n).map f) (Arr.linspaceR a b n)| ≤
      (b - a) / (2 * ((n : ℝ) - 1)) * variation f a b := by
  have h1 : (0 : ℝ) < (n : ℝ) - 1 := by
    have : (2 : ℝ) ≤ n := by exact_mod_cast hn
    linarith
  have hba : 0 ≤ b - a := by linarith
  set x : ℕ → ℝ := fun i => a + (b - a) * (i : ℝ) / ((n : ℝ) - 1) with hx
  have x0 : x 0 = a := by simp [hx]
  have xn : x (n - 1) = b := by
    simp only [hx]
    rw [Nat.cast_sub (by omega), Nat.cast_one, mul_div_assoc, div_self h1.ne']
    ring
  have hmono : Monotone x := by
    intro i j hij
    have : (i : ℝ) ≤ j := by exact_mod_cast hij
    simp only [hx]
    gcongr
  have key := trapezoid_error hmono (n - 1) (h := (b - a) / ((n : ℝ) - 1)) (f := f)
    (fun i _ => by simp only [hx]; push_cast; apply le_of_eq; field_simp; ring)
    (by rw [x0, xn]; exact hf)
  rw [x0, xn] at key
  rw [trapzR_linspace f a b (by omega)]
  refine key.trans (le_of_eq ?_)
  unfold variation
  field_simp

theorem variation_nonneg (f : ℝ → ℝ) (a b : ℝ) : 0 ≤ variation f a b := ENNReal.toReal_nonneg

theorem trapzR_tendsto {f : ℝ → ℝ} {a b : ℝ} (hab : a ≤ b)
    (hf : BoundedVariationOn f (Icc a b)) :
    Tendsto (fun n : ℕ => Arr.trapzR ((Arr.linspaceR a b n).map f) (Arr.linspaceR a b n)) atTop
      (𝓝 (∫ t in a..b, f t)) := by
  have hlim : Tendsto (fun n : ℕ => (b - a) / (2 * ((n : ℝ) - 1)) * variation f a b) atTop (𝓝 0) := by
    have h1 : Tendsto (fun n : ℕ => 2 * ((n : ℝ) - 1)) atTop atTop :=
      (tendsto_atTop_add_const_right _ (-1 : ℝ) tendsto_natCast_atTop_atTop).const_mul_atTop two_pos
    have := (h1.const_div_atTop (b - a)).mul_const (variation f a b)
    simpa using this
  rw [tendsto_iff_dist_tendsto_zero]
  refine squeeze_zero' (Eventually.of_forall fun _ => dist_nonneg) ?_ hlim
  filter_upwards [eventually_ge_atTop 2] with n hn
  rw [dist_comm, Real.dist_eq]
  exact trapzR_error hab hn hf

/-! ## Redshift -/

/-- **C85, redshift.** For every rate model and cosmology with positive values whose weighted
volume element has bounded variation between the first grid point and `z_max`: the probability
returned at redshift `z` is a number `p z`, and the exact integral of `p` over
`[1e-6, z_max]` differs from 1 by at most `(z_max - 1e-6) / 4998` times the total variation of `p`. -/
theorem C85_redshift {s : Redshift} {parameters : Dict Fl} {psi v : ℝ → ℝ}
    (h : Spec.RateAt s parameters psi v) (hz : 1e-6 < s.zMax)
    (hbv : BoundedVariationOn (Spec.volumeElement psi v) (Icc 1e-6 s.zMax)) :
    ∃ p : ℝ → ℝ,
      (∀ (d : Dict Fl) (z : ℝ), 0 ≤ z → d.get? "redshift" = some (fin z) →
        s.probability d parameters = .ok (fin (p z))) ∧
      (∀ z, 0 ≤ z → 0 ≤ p z) ∧
      BoundedVariationOn p (Icc 1e-6 s.zMax) ∧
      |(∫ z in (1e-6)..s.zMax, p z) - 1| ≤ (s.zMax - 1e-6) / 4998 * variation p 1e-6 s.zMax := by
  obtain ⟨N, hN, hp, hnn, hone⟩ := C31_probability h hz
  set p : ℝ → ℝ := fun z => if z ≤ s.zMax then Spec.volumeElement psi v z / N else 0 with hpdef
  have hbv' : BoundedVariationOn p (Icc 1e-6 s.zMax) := by
    refine bv_congr (bv_div_const N hbv) fun z hz => ?_
    rw [hpdef]; simp only; rw [if_pos hz.2]
  refine ⟨p, hp, ?_, hbv', ?_⟩
  · intro z hz
    rw [hpdef]; simp only
    split_ifs
    · exact hnn z hz
    · exact le_rfl
  have key := trapzR_error hz.le (n := 2500) (by norm_num) hbv'
  rw [trapzR_linspace p _ _ (by norm_num)] at key
  have e : trapezoidRule (2500 - 1) (fun i => p (1e-6 + (s.zMax - 1e-6) * (i : ℝ) / (((2500 : ℕ) : ℝ) - 1)))
      (fun i => 1e-6 + (s.zMax - 1e-6) * (i : ℝ) / (((2500 : ℕ) : ℝ) - 1)) = 1 := by
    refine Eq.trans ?_ hone
    refine trapezoidRule_congr (fun i _ => ?_) fun i _ => by norm_num
    rw [show (((2500 : ℕ) : ℝ) - 1) = 2499 by norm_num]
  rw [e] at key
  refine key.trans (le_of_eq ?_)
  norm_num

theorem bv_rpow (a : ℝ) {lo hi : ℝ} (h0 : 0 < lo) :
    BoundedVariationOn (fun t : ℝ => t ^ a) (Icc lo hi) := by
  rcases le_or_gt 0 a with ha | ha
  · exact bv_monotone fun x hx y hy h =>
      Real.rpow_le_rpow (by linarith [hx.1]) h ha
  · exact bv_antitone fun x hx y hy h =>
      Real.rpow_le_rpow_of_nonpos (by linarith [hx.1]) h ha.le

theorem bv_comp_add {f : ℝ → ℝ} {a b : ℝ} (c : ℝ) (hf : BoundedVariationOn f (Icc (c + a) (c + b))) :
    BoundedVariationOn (fun x => f (c + x)) (Icc a b) := by
  refine ne_top_of_le_ne_top hf ?_
  exact eVariationOn.comp_le_of_monotoneOn f (fun x => c + x) (fun x _ y _ h => by simpa using h)
    (fun x hx => ⟨by linarith [hx.1], by linarith [hx.2]⟩)

/-- The volume element has bounded variation if the rate and the volume do. -/
theorem bv_volumeElement {psi v : ℝ → ℝ} {a b : ℝ} (ha : 0 ≤ a)
    (hpsi : BoundedVariationOn psi (Icc a b)) (hv : BoundedVariationOn v (Icc a b)) :
    BoundedVariationOn (Spec.volumeElement psi v) (Icc a b) := by
  have h1 : BoundedVariationOn (fun z : ℝ => (1 + z) ^ (-1 : ℝ)) (Icc a b) :=
    bv_comp_add (f := fun t : ℝ => t ^ (-1 : ℝ)) 1 (bv_rpow (-1) (by linarith))
  refine bv_congr ((hpsi.mul h1).mul (bv_const_mul (4 * Real.pi) hv)) fun z hz => ?_
  simp only [Pi.mul_apply, Spec.volumeElement]
  rw [Real.rpow_neg_one, div_eq_mul_inv]

/-- The power-law rate has bounded variation. -/
theorem bv_powerLawRate (l : ℝ) {a b : ℝ} (ha : 0 ≤ a) :
    BoundedVariationOn (fun z : ℝ => (1 + z) ^ l) (Icc a b) :=
  bv_comp_add (f := fun t : ℝ => t ^ l) 1 (bv_rpow l (by linarith))

/-- The Madau-Dickinson rate has bounded variation. -/
theorem bv_madauDickinson (g k : ℝ) {zp : ℝ} (hzp : -1 < zp) {a b : ℝ} (ha : 0 ≤ a) :
    BoundedVariationOn (Spec.madauDickinson g k zp) (Icc a b) := by
  have hp1 : 0 < 1 + zp := by linarith
  have h2 : BoundedVariationOn (fun z : ℝ => (1 + ((1 + z) / (1 + zp)) ^ k)⁻¹) (Icc a b) := by
    rcases le_or_gt 0 k with hk | hk
    · refine bv_antitone fun x hx y hy h => ?_
      have hx0 : 0 < 1 + x := by linarith [hx.1]
      have hy0 : 0 < 1 + y := by linarith [hy.1]
      have : ((1 + x) / (1 + zp)) ^ k ≤ ((1 + y) / (1 + zp)) ^ k :=
        Real.rpow_le_rpow (by positivity) (by gcongr) hk
      exact inv_anti₀ (by positivity) (by linarith)
    · refine bv_monotone fun x hx y hy h => ?_
      have hx0 : 0 < 1 + x := by linarith [hx.1]
      have hy0 : 0 < 1 + y := by linarith [hy.1]
      have : ((1 + y) / (1 + zp)) ^ k ≤ ((1 + x) / (1 + zp)) ^ k :=
        Real.rpow_le_rpow_of_nonpos (by positivity) (by gcongr) hk.le
      exact inv_anti₀ (by positivity) (by linarith)
  refine bv_congr (bv_div_const ((1 + 0) ^ g / (1 + ((1 + 0) / (1 + zp)) ^ k))
    ((bv_powerLawRate g ha).mul h2)) fun z _ => ?_
  simp only [Pi.mul_apply, Spec.madauDickinson, div_eq_mul_inv]

/-! ## Primary mass -/

/-- The documented low-mass window between `lo` and `hi`. -/
def Spec.window (lo hi d m : ℝ) : ℝ := if lo ≤ m ∧ m ≤ hi then taper ((m - lo) / d) else 0

theorem window_nonneg (lo hi d m : ℝ) : 0 ≤ window lo hi d m := by
  unfold window; split_ifs
  · exact (taper_pos _).le
  · exact le_rfl

theorem bv_window (lo hi : ℝ) {d : ℝ} (hd : 0 < d) (a b : ℝ) :
    BoundedVariationOn (window lo hi d) (Icc a b) :=
  bv_restrict (f := fun m => taper ((m - lo) / d)) lo hi
    (bv_monotone fun x _ y _ h => taper_mono (by gcongr))

/-- What `p_m1` returns in terms of the norm on the grid. -/
theorem pM1_value (b : Backend) (s : Smoothed) (kwargs : Dict Fl) {d lo : ℝ} {nM : ℕ}
    (hgrid : s.m1s = Arr.linspaceR s.mmin s.mmax nM)
    (hd : Smoothed.kwGet kwargs "delta_m" 0 = fin d) (hd0 : 0 < d)
    (hlo : Smoothed.kwGet kwargs "mmin" (fin s.mmin) = fin lo) {f : ℝ → ℝ}
    (hf : ∀ m ∈ s.m1s, s.primary b (Dict.erase kwargs "delta_m") (fin m) = .ok (fin (f m)))
    {masses : List ℝ}
    (hfm : ∀ m ∈ masses, s.primary b (Dict.erase kwargs "delta_m") (fin m) = .ok (fin (f m)))
    {N : ℝ} (hN : N = Arr.trapzR ((Arr.linspaceR s.mmin s.mmax nM).map fun m =>
      f m * window lo s.mmax d m) (Arr.linspaceR s.mmin s.mmax nM)) :
    Smoothed.pM1 b s (masses.map fin) kwargs =
      .ok (masses.map fun m => fin (f m * window lo s.mmax d m) / fin N) := by
  have hd0' : ¬ eqf (fin d) 0 := by simp [hd0.ne']
  have hmin : Smoothed.kwGet (Dict.erase kwargs "delta_m") "mmin" (fin s.mmin) = fin lo := by
    rw [← hlo]
    unfold Smoothed.kwGet
    rw [Dict.get?_erase, if_neg (by decide)]
  have hraw : ∀ m : ℝ, s.primary b (Dict.erase kwargs "delta_m") (fin m) = .ok (fin (f m)) →
      Smoothed.pMRaw b s (Dict.erase kwargs "delta_m") (fin lo) (fin d) (fin m) =
        .ok (fin (f m * window lo s.mmax d m)) := by
    intro m hm
    unfold Smoothed.pMRaw
    rw [hm]
    show Except.ok _ = _
    rw [smoothing_fin b m lo s.mmax hd0, fin_mul]
    rfl
  have hnorm : Smoothed.normPM1 b s (fin d) (Dict.erase kwargs "delta_m") = .ok (fin N) := by
    unfold Smoothed.normPM1
    rw [hmin]
    have : s.m1s.mapM (fun m => Smoothed.pMRaw b s (Dict.erase kwargs "delta_m")
        (fin lo) (fin d) (fin m)) = .ok (s.m1s.map fun m => fin (f m * window lo s.mmax d m)) :=
      mapM_ok fun m hm => hraw m (hf m hm)
    simp only [this]
    refine Eq.trans (if_neg (fun h => hd0' h.2)) ?_
    show Except.ok _ = _
    have hT : Arr.trapz (s.m1s.map fun m => fin (f m * window lo s.mmax d m)) (s.m1s.map fin) =
        fin N := by
      rw [hN, ← hgrid, ← Arr.trapz_fin, List.map_map]; rfl
    rw [hT, nanToNum_fin, ind_true hd0', ind_false hd0']
    simp
  unfold Smoothed.pM1
  rw [hd, hlo]
  have : masses.mapM (fun m => Smoothed.pMRaw b s (Dict.erase kwargs "delta_m")
      (fin lo) (fin d) (fin m)) = .ok (masses.map fun m => fin (f m * window lo s.mmax d m)) :=
    mapM_ok fun m hm => hraw m (hfm m hm)
  simp only [mapM_map, this, hnorm]
  show Except.ok _ = _
  rw [List.map_map]; rfl

theorem linspaceR_mem {a b : ℝ} (hab : a ≤ b) {n : ℕ} (hn : 2 ≤ n) {x : ℝ}
    (hx : x ∈ Arr.linspaceR a b n) : x ∈ Icc a b := by
  obtain ⟨i, hi, rfl⟩ := List.mem_map.1 hx
  have hi : i < n := List.mem_range.1 hi
  have h1 : (0 : ℝ) < (n : ℝ) - 1 := by
    have : (2 : ℝ) ≤ n := by exact_mod_cast hn
    linarith
  have h2 : (i : ℝ) ≤ (n : ℝ) - 1 := by
    have : (i : ℝ) + 1 ≤ n := by exact_mod_cast hi
    linarith
  have hi0 : (0 : ℝ) ≤ i := Nat.cast_nonneg i
  have hba : 0 ≤ b - a := by linarith
  constructor
  · have : 0 ≤ (b - a) * (i : ℝ) / ((n : ℝ) - 1) := by positivity
    linarith
  · have : (b - a) * (i : ℝ) / ((n : ℝ) - 1) ≤ b - a := by
      rw [div_le_iff₀ h1]
      exact mul_le_mul_of_nonneg_left h2 hba
    linarith

theorem linspaceR_last (a b : ℝ) {n : ℕ} (hn : 2 ≤ n) : b ∈ Arr.linspaceR a b n := by
  have h1 : (0 : ℝ) < (n : ℝ) - 1 := by
    have : (2 : ℝ) ≤ n := by exact_mod_cast hn
    linarith
  refine List.mem_map.2 ⟨n - 1, List.mem_range.2 (by omega), ?_⟩
  rw [Nat.cast_sub (by omega), Nat.cast_one, mul_div_assoc, div_self h1.ne']
  ring

/-- **C85, primary mass, error on a given grid.** For every smoothed mass model (any primary model
whose values `f m` are non-negative and of bounded variation on the mass range of the instance,
and positive at some grid mass not below the requested `mmin`) and every `delta_m > 0`: at every mass of the range `p_m1` returns a number `p m`, and the exact integral
of `p` over the range differs from 1 by at most half a grid cell times the total variation of `p`. -/
theorem C85_primary_error (b : Backend) (s : Smoothed) (kwargs : Dict Fl) {d lo : ℝ} {nM : ℕ}
    (hgrid : s.m1s = Arr.linspaceR s.mmin s.mmax nM) (hM : 2 ≤ nM) (hlt : s.mmin < s.mmax)
    (hd : Smoothed.kwGet kwargs "delta_m" 0 = fin d) (hd0 : 0 < d)
    (hlo : Smoothed.kwGet kwargs "mmin" (fin s.mmin) = fin lo) (f : ℝ → ℝ)
    (hf : ∀ m ∈ Icc s.mmin s.mmax,
      s.primary b (Dict.erase kwargs "delta_m") (fin m) = .ok (fin (f m)))
    (hf0 : ∀ m ∈ Icc s.mmin s.mmax, 0 ≤ f m) (hbv : BoundedVariationOn f (Icc s.mmin s.mmax))
    (hpos : ∃ m ∈ s.m1s, lo ≤ m ∧ 0 < f m) :
    ∃ p : ℝ → ℝ,
      (∀ masses : List ℝ, (∀ m ∈ masses, m ∈ Icc s.mmin s.mmax) →
        Smoothed.pM1 b s (masses.map fin) kwargs = .ok (masses.map fun m => fin (p m))) ∧
      (∀ m ∈ Icc s.mmin s.mmax, 0 ≤ p m) ∧ BoundedVariationOn p (Icc s.mmin s.mmax) ∧
      |(∫ m in s.mmin..s.mmax, p m) - 1| ≤
        (s.mmax - s.mmin) / (2 * ((nM : ℝ) - 1)) * variation p s.mmin s.mmax := by
  obtain ⟨N, hN⟩ : ∃ N, N = Arr.trapzR ((Arr.linspaceR s.mmin s.mmax nM).map fun m =>
      f m * window lo s.mmax d m) (Arr.linspaceR s.mmin s.mmax nM) := ⟨_, rfl⟩
  have hmem : ∀ m ∈ s.m1s, m ∈ Icc s.mmin s.mmax := fun m hm =>
    linspaceR_mem hlt.le hM (hgrid ▸ hm)
  have hNpos : 0 < N := by
    rw [hN]
    apply trapzR_pos_of_exists (by simp) (by rw [linspaceR_length]; exact hM)
    · intro y hy
      obtain ⟨m, hm, rfl⟩ := List.mem_map.1 hy
      exact mul_nonneg (hf0 m (linspaceR_mem hlt.le hM hm)) (window_nonneg _ _ _ _)
    · exact linspaceR_sorted hlt hM
    · obtain ⟨m, hm, h1, h2⟩ := hpos
      refine ⟨_, List.mem_map.2 ⟨m, hgrid ▸ hm, rfl⟩, mul_pos h2 ?_⟩
      unfold window
      rw [if_pos ⟨h1, (hmem m hm).2⟩]
      exact taper_pos _
  have hbv' : BoundedVariationOn (fun m => f m * window lo s.mmax d m / N) (Icc s.mmin s.mmax) :=
    bv_div_const N (hbv.mul (bv_window lo s.mmax hd0 _ _))
  refine ⟨fun m => f m * window lo s.mmax d m / N, ?_, ?_, hbv', ?_⟩
  · intro masses hm
    rw [pM1_value b s kwargs hgrid hd hd0 hlo (fun m hm' => hf m (hmem m hm'))
      (fun m hm' => hf m (hm m hm')) hN]
    congr 1
    apply List.map_congr_left
    intro m _
    rw [fin_div hNpos.ne']
  · intro m hm
    exact div_nonneg (mul_nonneg (hf0 m hm) (window_nonneg _ _ _ _)) hNpos.le
  · have key := trapzR_error hlt.le hM hbv'
    have e : Arr.trapzR ((Arr.linspaceR s.mmin s.mmax nM).map fun m =>
        f m * window lo s.mmax d m / N) (Arr.linspaceR s.mmin s.mmax nM) = 1 := by
      have := Arr.trapzR_map_div N ((Arr.linspaceR s.mmin s.mmax nM).map fun m =>
        f m * window lo s.mmax d m) (Arr.linspaceR s.mmin s.mmax nM)
      rw [List.map_map, ← hN, div_self hNpos.ne'] at this
      exact this
    rwa [e] at key

/-- **C85, primary mass, limit of fine grids.** For every smoothed mass model as above: as the
number of grid masses grows, the value of `p_m1` at each mass tends to the exactly normalised
density, primary times window divided by the integral of primary times window. -/
theorem C85_primary_limit (b : Backend) (primary : Primary) (fixed : Dict Fl) {selfMin selfMax : ℝ}
    (hlt : selfMin < selfMax) (kwargs : Dict Fl) {d lo : ℝ}
    (hd : Smoothed.kwGet kwargs "delta_m" 0 = fin d) (hd0 : 0 < d)
    (hlo : Smoothed.kwGet kwargs "mmin" (fin selfMin) = fin lo) (f : ℝ → ℝ)
    (hf : ∀ m ∈ Icc selfMin selfMax,
      primary b (Dict.erase kwargs "delta_m") (fin m) = .ok (fin (f m)))
    (hbv : BoundedVariationOn f (Icc selfMin selfMax))
    (hI : ∫ t in selfMin..selfMax, f t * window lo selfMax d t ≠ 0) :
    ∃ p : ℕ → ℝ → ℝ,
      (∀ᶠ nM in atTop, ∀ (nQ : ℕ) (cache : Bool) (s : Smoothed),
        Smoothed.init primary fixed selfMin selfMax nM nQ cache = .ok s →
        ∀ masses : List ℝ, (∀ m ∈ masses,
            primary b (Dict.erase kwargs "delta_m") (fin m) = .ok (fin (f m))) →
          Smoothed.pM1 b s (masses.map fin) kwargs = .ok (masses.map fun m => fin (p nM m))) ∧
      (∀ n m, p n m = f m * window lo selfMax d m / Arr.trapzR ((Arr.linspaceR selfMin selfMax n).map
        fun m => f m * window lo selfMax d m) (Arr.linspaceR selfMin selfMax n)) ∧
      ∀ m, Tendsto (p · m) atTop (𝓝 (f m * window lo selfMax d m /
        ∫ t in selfMin..selfMax, f t * window lo selfMax d t)) := by
  set N : ℕ → ℝ := fun n => Arr.trapzR ((Arr.linspaceR selfMin selfMax n).map fun m =>
      f m * window lo selfMax d m) (Arr.linspaceR selfMin selfMax n) with hN
  have hlim : Tendsto N atTop (𝓝 (∫ t in selfMin..selfMax, f t * window lo selfMax d t)) :=
    trapzR_tendsto hlt.le (hbv.mul (bv_window lo selfMax hd0 _ _))
  refine ⟨fun n m => f m * window lo selfMax d m / N n, ?_, fun _ _ => rfl, fun m =>
    tendsto_const_nhds.div hlim hI⟩
  filter_upwards [hlim.eventually_ne hI] with nM hne nQ cache s hs masses hm
  obtain ⟨hM, -, rfl⟩ := init_inv hs
  rw [pM1_value b _ kwargs (nM := nM) rfl hd hd0 hlo
    (fun m hm' => hf m (linspaceR_mem hlt.le hM hm')) hm
    (N := N nM) rfl]
  congr 1
  apply List.map_congr_left
  intro m _
  rw [fin_div hne]

/-! ## The redshift models of the package -/

/-- **C85, power-law redshift model.** -/
theorem C85_powerLaw {available : Dict CosmoEntry} {zMax : ℝ} {name : String} {c : Cosmology}
    {s : Redshift} (hs : Redshift.powerLaw available zMax name = .ok s) (hz : 1e-6 < zMax)
    (hc : available.get? name = some (.fixed c)) {v : ℝ → ℝ}
    (hv : ∀ z, 0 ≤ z → c.diffComovingVolume (fin z) = fin (v z)) (v_pos : ∀ z, 0 < z → 0 < v z)
    (v_zero : 0 ≤ v 0) (hbv : BoundedVariationOn v (Icc 1e-6 zMax)) (l : ℝ) :
    ∃ p : ℝ → ℝ,
      (∀ (d : Dict Fl) (z : ℝ), 0 ≤ z → d.get? "redshift" = some (fin z) →
        s.probability d [("lamb", fin l)] = .ok (fin (p z))) ∧
      (∀ z, 0 ≤ z → 0 ≤ p z) ∧
      BoundedVariationOn p (Icc 1e-6 zMax) ∧
      |(∫ z in (1e-6)..zMax, p z) - 1| ≤ (zMax - 1e-6) / 4998 * variation p 1e-6 zMax := by
  obtain ⟨h, rfl⟩ := rateAt_powerLaw hs hc hv v_pos v_zero l
  exact C85_redshift h hz (bv_volumeElement (by norm_num) (bv_powerLawRate l (by norm_num)) hbv)

/-- **C85, Madau-Dickinson redshift model.** -/
theorem C85_madauDickinson {available : Dict CosmoEntry} {py : Bool} {zMax : ℝ} {name : String}
    {c : Cosmology} {s : Redshift} (hs : Redshift.madauDickinson available py zMax name = .ok s)
    (hz : 1e-6 < zMax) (hc : available.get? name = some (.fixed c)) {v : ℝ → ℝ}
    (hv : ∀ z, 0 ≤ z → c.diffComovingVolume (fin z) = fin (v z)) (v_pos : ∀ z, 0 < z → 0 < v z)
    (v_zero : 0 ≤ v 0) (hbv : BoundedVariationOn v (Icc 1e-6 zMax)) (g k : ℝ) {zp : ℝ}
    (hzp : -1 < zp) :
    ∃ p : ℝ → ℝ,
      (∀ (d : Dict Fl) (z : ℝ), 0 ≤ z → d.get? "redshift" = some (fin z) →
        s.probability d [("gamma", fin g), ("kappa", fin k), ("z_peak", fin zp)] =
          .ok (fin (p z))) ∧
      (∀ z, 0 ≤ z → 0 ≤ p z) ∧
      BoundedVariationOn p (Icc 1e-6 zMax) ∧
      |(∫ z in (1e-6)..zMax, p z) - 1| ≤ (zMax - 1e-6) / 4998 * variation p 1e-6 zMax := by
  obtain ⟨h, rfl⟩ := rateAt_madauDickinson hs hc hv v_pos v_zero g k hzp
  exact C85_redshift h hz (bv_volumeElement (by norm_num) (bv_madauDickinson g k hzp (by norm_num))
    hbv)

/-- Non-vacuity: a power-law model over the toy cosmology up to redshift 2.3. -/
example : ∃ (s : Redshift) (p : ℝ → ℝ),
    Redshift.powerLaw [("Planck15", .fixed toyCosmology)] 2.3 "Planck15" = .ok s ∧
    s.probability [("redshift", fin 1)] [("lamb", fin 2.7)] = .ok (fin (p 1)) ∧
    |(∫ z in (1e-6)..2.3, p z) - 1| ≤ (2.3 - 1e-6) / 4998 * variation p 1e-6 2.3 := by
  have hs : ∃ s, Redshift.powerLaw [("Planck15", .fixed toyCosmology)] 2.3 "Planck15" = .ok s := by
    unfold Redshift.powerLaw Redshift.init CosmoMixin.init
    simp only [Dict.get, Dict.get?_cons, if_pos, ok_bind, pure_eq_ok]
    exact ⟨_, rfl⟩
  obtain ⟨s, hs⟩ := hs
  obtain ⟨p, h1, -, -, h2⟩ := C85_powerLaw hs (by norm_num) (c := toyCosmology)
    (by simp [Dict.get?_cons]) (v := fun z => z * z) (by intro z _; simp [toyCosmology])
    (fun z hz => by positivity) (by simp)
    (bv_monotone fun x hx y hy h => by
      have : (0 : ℝ) ≤ x := le_trans (by norm_num) hx.1
      exact mul_self_le_mul_self this h) 2.7
  exact ⟨s, p, hs, h1 _ 1 (by norm_num) (by simp [Dict.get?_cons]), h2⟩

/-! ## Splines -/

/-- **C85, spline models.** The one-dimensional density of a spline model over `[minimum, maximum]`
with `n` nodes integrates to 1 up to `(maximum - minimum) / (2 (10 n - 1))` times its total
variation. -/
theorem C85_spline {S : String → List ℝ → List ℝ → ℝ → ℝ} {cls : SplineClass} {c : SplineConfig}
    {s : SplineModel} (hs : SplineModel.init cls c = .ok s) (hn : 1 ≤ c.nodes)
    (hab : c.minimum ≤ c.maximum) {x f : List ℝ} (hZ : splineNorm S c s.xs x f ≠ 0)
    (hbv : BoundedVariationOn (expSpline S c x f) (Icc c.minimum c.maximum)) :
    |(∫ t in c.minimum..c.maximum, splineDensity S c s.xs x f t) - 1| ≤
      (c.maximum - c.minimum) / (2 * (10 * (c.nodes : ℝ) - 1)) *
        variation (splineDensity S c s.xs x f) c.minimum c.maximum := by
  have hxs : s.xs = Arr.linspaceR c.minimum c.maximum (10 * c.nodes) := by
    unfold SplineModel.init at hs
    split at hs
    · cases hs
    · rw [← Except.ok.inj hs]
  have hcut : BoundedVariationOn (cutSpline S c x f) (Icc c.minimum c.maximum) := by
    refine bv_congr (bv_restrict (x.headD 0) (x.getLastD 0) hbv) fun t _ => ?_
    unfold cutSpline Between
    congr
  have key := trapzR_error hab (n := 10 * c.nodes) (by omega)
    (bv_div_const (splineNorm S c s.xs x f) hcut)
  have e := C36_normalised S c s.xs x f hZ
  rw [hxs] at e key ⊢
  have e' : Arr.trapzR ((Arr.linspaceR c.minimum c.maximum (10 * c.nodes)).map fun t =>
      cutSpline S c x f t / splineNorm S c (Arr.linspaceR c.minimum c.maximum (10 * c.nodes)) x f)
      (Arr.linspaceR c.minimum c.maximum (10 * c.nodes)) = 1 := e
  rw [e'] at key
  refine key.trans (le_of_eq ?_)
  push_cast
  rfl

/-- Non-vacuity: five nodes on `[0, 1]`, the log of the density being the evaluation point. -/
example : ∃ s, SplineModel.init .spinMagnitude ⟨["a_1", "a_2"], 0, 1, 5, "linear", false, false⟩ = .ok s ∧
    splineNorm (fun _ _ _ v => v) ⟨["a_1", "a_2"], 0, 1, 5, "linear", false, false⟩ s.xs
      [0, 1] [0, 1] ≠ 0 ∧
    BoundedVariationOn (expSpline (fun _ _ _ v => v) ⟨["a_1", "a_2"], 0, 1, 5, "linear", false, false⟩
      [0, 1] [0, 1]) (Icc 0 1) := by
  refine ⟨_, rfl, ?_, ?_⟩
  · refine (splineNorm_pos _ _ _ (linspaceR_sorted (by norm_num) (by norm_num)).isChain
      (by simp [Arr.linspaceR]) ?_).ne'
    intro v hv
    have := linspaceR_mem (by norm_num : (0:ℝ) ≤ 1) (n := 50) (by norm_num) hv
    simpa [Between] using this
  · refine bv_monotone fun x _ y _ h => ?_
    simpa [expSpline, coordinate] using h

/-- Non-vacuity of the statement for primary masses: a constant primary density on `[2, 100]`. -/
example : ∃ (s : Smoothed) (p : ℝ → ℝ),
    Smoothed.init (fun _ _ _ => .ok (fin 1)) [] 2 100 1000 500 true = .ok s ∧
    (∀ masses : List ℝ, (∀ m ∈ masses, m ∈ Icc 2 100) →
      Smoothed.pM1 .numpy s (masses.map fin) [("mmin", fin 5), ("delta_m", fin 3)] =
        .ok (masses.map fun m => fin (p m))) ∧
    |(∫ m in (2 : ℝ)..100, p m) - 1| ≤ (100 - 2) / (2 * (1000 - 1)) * variation p 2 100 := by
  have hs := init_ok (fun _ _ _ => .ok (fin 1)) [] 2 100 (nM := 1000) (nQ := 500) true
    (by norm_num) (by norm_num)
  generalize hn : 1000 = n at hs
  have hn2 : 2 ≤ n := by omega
  obtain ⟨p, h1, -, -, h2⟩ := C85_primary_error .numpy
    ⟨fun _ _ _ => .ok (fin 1), [], 2, 100, Arr.linspaceR 2 100 n, Arr.linspaceR 0.001 1 500, true,
      none⟩ [("mmin", fin 5), ("delta_m", fin 3)] (d := 3) (lo := 5) (nM := n) rfl hn2
    (by norm_num) (by simp [Smoothed.kwGet, Dict.get?_cons]) (by norm_num)
    (by simp [Smoothed.kwGet, Dict.get?_cons]) (fun _ => 1) (fun _ _ => rfl) (fun _ _ => zero_le_one)
    (bv_const 1 _) ⟨100, linspaceR_last _ _ hn2, by norm_num, by norm_num⟩
  exact ⟨_, p, hn ▸ hs, h1, by rw [← hn] at h2; simpa using h2⟩

end GW
