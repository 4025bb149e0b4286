import Verif.Model.Smoothed
import Verif.Props.MassJoint

/-!
# C21: the smoothing window
-/

noncomputable section

open Classical

namespace GW

open Fl

/-- The clipped relative mass. -/
def clampUnit (u : ℝ) : ℝ := if u < 1e-6 then 1e-6 else if 1 - 1e-6 < u then 1 - 1e-6 else u

/-- The Planck taper at relative mass `u`. -/
def taper (u : ℝ) : ℝ := 1 / (1 + Real.exp (1 / clampUnit u - 1 / (1 - clampUnit u)))

theorem clampUnit_mem (u : ℝ) : 1e-6 ≤ clampUnit u ∧ clampUnit u ≤ 1 - 1e-6 := by
  unfold clampUnit
  split_ifs with h1 h2
  · norm_num
  · norm_num
  · exact ⟨not_lt.1 h1, not_lt.1 h2⟩

theorem clampUnit_mono {u v : ℝ} (h : u ≤ v) : clampUnit u ≤ clampUnit v := by
  unfold clampUnit
  split_ifs <;> first | linarith | norm_num

theorem clampUnit_symm (u : ℝ) : clampUnit (1 - u) = 1 - clampUnit u := by
  unfold clampUnit
  split_ifs <;> first | linarith | norm_num | (norm_num at *; linarith)

theorem taper_pos (u : ℝ) : 0 < taper u := by unfold taper; positivity

theorem taper_lt_one (u : ℝ) : taper u < 1 := by
  unfold taper
  rw [div_lt_one (by positivity)]
  have := Real.exp_pos (1 / clampUnit u - 1 / (1 - clampUnit u))
  linarith

theorem taper_mono {u v : ℝ} (h : u ≤ v) : taper u ≤ taper v := by
  obtain ⟨a1, a2⟩ := clampUnit_mem u
  obtain ⟨b1, b2⟩ := clampUnit_mem v
  have hc := clampUnit_mono h
  unfold taper
  apply one_div_le_one_div_of_le (by positivity)
  have e1 : 1 / clampUnit v ≤ 1 / clampUnit u := one_div_le_one_div_of_le (by norm_num at *; linarith) hc
  have e2 : 1 / (1 - clampUnit u) ≤ 1 / (1 - clampUnit v) :=
    one_div_le_one_div_of_le (by norm_num at *; linarith) (by linarith)
  have := Real.exp_le_exp.2 (show 1 / clampUnit v - 1 / (1 - clampUnit v) ≤
    1 / clampUnit u - 1 / (1 - clampUnit u) by linarith)
  linarith

theorem taper_symm (u : ℝ) : taper u + taper (1 - u) = 1 := by
  unfold taper
  rw [clampUnit_symm]
  set c := clampUnit u
  have : 1 / (1 - c) - 1 / (1 - (1 - c)) = -(1 / c - 1 / (1 - c)) := by ring
  rw [this, Real.exp_neg]
  have := Real.exp_pos (1 / c - 1 / (1 - c))
  field_simp
  ring

theorem window_fin (u : ℝ) :
    expit (-(1 / Arr.clip (fin u) (fin 1e-6) (fin (1 - 1e-6)) -
      1 / (1 - Arr.clip (fin u) (fin 1e-6) (fin (1 - 1e-6))))) = fin (taper u) := by
  have hc : Arr.clip (fin u) (fin 1e-6) (fin (1 - 1e-6)) = fin (clampUnit u) := by
    unfold Arr.clip clampUnit
    simp only [fin_lt]
    split_ifs <;> rfl
  obtain ⟨a1, a2⟩ := clampUnit_mem u
  have h1 : clampUnit u ≠ 0 := by norm_num at *; linarith
  have h2 : 1 - clampUnit u ≠ 0 := by norm_num at *; linarith
  rw [hc, one_eq, fin_sub, fin_div h1, fin_div h2, fin_sub, fin_neg]
  simp only [expit, neg_neg, taper]

/-- The window for finite arguments and positive width. -/
theorem smoothing_fin (b : Backend) (m mmin mmax : ℝ) {d : ℝ} (hd : 0 < d) :
    smoothing b (fin m) (fin mmin) (fin mmax) (fin d) =
      fin (if mmin ≤ m ∧ m ≤ mmax then taper ((m - mmin) / d) else 0) := by
  unfold smoothing
  rw [if_pos (Or.inr (by simpa using hd))]
  simp only [fin_sub]
  rw [fin_div hd.ne']
  simp only [nanToNumWith]
  rw [window_fin, ind_mul_ind, fin_mul_ind]
  simp only [fin_le]

/-- **C21.** The window is 0 outside `[mmin, mmax]` and strictly between 0 and 1 inside. -/
theorem C21_range (b : Backend) (m mmin mmax : ℝ) {d : ℝ} (hd : 0 < d) :
    ∃ r : ℝ, smoothing b (fin m) (fin mmin) (fin mmax) (fin d) = fin r ∧
      (¬ (mmin ≤ m ∧ m ≤ mmax) → r = 0) ∧ (mmin ≤ m ∧ m ≤ mmax → 0 < r ∧ r < 1) := by
  refine ⟨_, smoothing_fin b m mmin mmax hd, fun h => if_neg h, fun h => ?_⟩
  rw [if_pos h]
  exact ⟨taper_pos _, taper_lt_one _⟩

/-- **C21.** The window is non-decreasing in mass on `[mmin, mmax]`. -/
theorem C21_monotone (b : Backend) {m m' mmin mmax : ℝ} {d : ℝ} (hd : 0 < d) (h1 : mmin ≤ m)
    (h2 : m ≤ m') (h3 : m' ≤ mmax) :
    smoothing b (fin m) (fin mmin) (fin mmax) (fin d) ≤
      smoothing b (fin m') (fin mmin) (fin mmax) (fin d) := by
  rw [smoothing_fin b _ _ _ hd, smoothing_fin b _ _ _ hd, if_pos ⟨h1, h2.trans h3⟩,
    if_pos ⟨h1.trans h2, h3⟩, fin_le]
  exact taper_mono (by gcongr)

/-- **C21.** Point symmetry about the middle of the taper. -/
theorem C21_symmetric (b : Backend) {mmin mmax u : ℝ} {d : ℝ} (hd : 0 < d) (h0 : 0 ≤ u)
    (h1 : u ≤ d) (h2 : mmin + u ≤ mmax) (h3 : mmin + d - u ≤ mmax) :
    smoothing b (fin (mmin + u)) (fin mmin) (fin mmax) (fin d) +
      smoothing b (fin (mmin + d - u)) (fin mmin) (fin mmax) (fin d) = fin 1 := by
  rw [smoothing_fin b _ _ _ hd, smoothing_fin b _ _ _ hd, if_pos ⟨by linarith, h2⟩,
    if_pos ⟨by linarith, h3⟩, fin_add, ← taper_symm (u / d)]
  congr 3
  · ring
  · field_simp; ring

/-- **C21.** The value in the middle of the taper is exactly one half. -/
theorem C21_half (b : Backend) {mmin mmax : ℝ} {d : ℝ} (hd : 0 < d) (h : mmin + d / 2 ≤ mmax) :
    smoothing b (fin (mmin + d / 2)) (fin mmin) (fin mmax) (fin d) = fin (1 / 2) := by
  rw [smoothing_fin b _ _ _ hd, if_pos ⟨by linarith, h⟩]
  have e : (mmin + d / 2 - mmin) / d = 1 / 2 := by field_simp; ring
  have := taper_symm (1 / 2)
  rw [show (1 : ℝ) - 1 / 2 = 1 / 2 by norm_num] at this
  rw [e]
  congr 1
  linarith

/-- **C21.** For `delta_m = 0` on numpy/cupy the window is identically 1, for arbitrary floats. -/
theorem C21_delta_zero (b : Backend) (hb : b ≠ .jax) (m mmin mmax : Fl) :
    smoothing b m mmin mmax 0 = 1 := by
  unfold smoothing
  rw [if_neg (by simp [hb])]

/-- **C21.** For arbitrary floats (NaN and infinities included) and any backend the window is a
finite number in `[0, 1]`; in particular never NaN. -/
theorem C21_never_nan (b : Backend) (m mmin mmax d : Fl) :
    ∃ r : ℝ, smoothing b m mmin mmax d = fin r ∧ 0 ≤ r ∧ r ≤ 1 := by
  unfold smoothing
  by_cases h : b = .jax ∨ 0 < d
  · rw [if_pos h]
    obtain ⟨u, hu⟩ : ∃ u : ℝ, nanToNumWith (fin 0) (fin bigR) (fin (-bigR)) ((m - mmin) / d) =
        fin u := by
      cases (m - mmin) / d with
      | fin a => exact ⟨a, rfl⟩
      | pinf => exact ⟨_, rfl⟩
      | ninf => exact ⟨_, rfl⟩
      | nan => exact ⟨_, rfl⟩
    refine ⟨if mmin ≤ m ∧ m ≤ mmax then taper u else 0, ?_, ?_, ?_⟩
    · simp only [hu]
      rw [window_fin, ind_mul_ind, fin_mul_ind]
    · split_ifs
      · exact (taper_pos u).le
      · exact le_rfl
    · split_ifs
      · exact (taper_lt_one u).le
      · exact zero_le_one
  · rw [if_neg h]; exact ⟨1, rfl, zero_le_one, le_rfl⟩

/-- **C21.** The taper is complete after `delta_m`: from `mmin + delta_m` up to `mmax` the window
is constant (the clipped maximum). -/
theorem C21_plateau (b : Backend) {m m' mmin mmax : ℝ} {d : ℝ} (hd : 0 < d) (h1 : mmin + d ≤ m)
    (h2 : mmin + d ≤ m') (h3 : m ≤ mmax) (h4 : m' ≤ mmax) :
    smoothing b (fin m) (fin mmin) (fin mmax) (fin d) =
      smoothing b (fin m') (fin mmin) (fin mmax) (fin d) := by
  rw [smoothing_fin b _ _ _ hd, smoothing_fin b _ _ _ hd, if_pos ⟨by linarith, h3⟩,
    if_pos ⟨by linarith, h4⟩]
  have hc : ∀ x : ℝ, mmin + d ≤ x → clampUnit ((x - mmin) / d) = 1 - 1e-6 := by
    intro x hx
    have : 1 ≤ (x - mmin) / d := by rw [le_div_iff₀ hd]; linarith
    unfold clampUnit
    rw [if_neg (by norm_num; linarith), if_pos (by norm_num; linarith)]
  unfold taper
  rw [hc m h1, hc m' h2]

/-- Non-vacuity: a GWTC-like window. -/
example : smoothing .numpy (fin (5 + 4.8 / 2)) (fin 5) (fin 100) (fin 4.8) = fin (1 / 2) :=
  C21_half _ (by norm_num) (by norm_num)

example : smoothing .jax (fin 6) (fin 5) (fin 100) (fin 4.8) ≤
    smoothing .jax (fin 8) (fin 5) (fin 100) (fin 4.8) :=
  C21_monotone _ (by norm_num) (by norm_num) (by norm_num) (by norm_num)

example : smoothing .numpy (fin 11) (fin 5) (fin 100) (fin 4.8) =
    smoothing .numpy (fin 60) (fin 5) (fin 100) (fin 4.8) :=
  C21_plateau _ (by norm_num) (by norm_num) (by norm_num) (by norm_num) (by norm_num)

end GW
