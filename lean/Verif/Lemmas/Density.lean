import Verif.Spec.Density
import Mathlib.MeasureTheory.Integral.IntegralEqImproper
import Mathlib.Analysis.SpecialFunctions.Integrals.Basic

noncomputable section

open MeasureTheory Set

namespace GW

open Spec

theorem normalised_eq_indicator (f : ℝ → ℝ) (lo hi : ℝ) :
    normalised f lo hi = (Icc lo hi).indicator (fun x => f x / ∫ t in lo..hi, f t) := by
  funext x
  by_cases h : lo ≤ x ∧ x ≤ hi
  · rw [Set.indicator_of_mem (show x ∈ Icc lo hi from h)]; simp [normalised, h]
  · rw [Set.indicator_of_notMem (show x ∉ Icc lo hi from h)]; simp [normalised, h]

theorem normalised_integrable {f : ℝ → ℝ} {lo hi : ℝ} (h : lo ≤ hi)
    (hf : IntervalIntegrable f volume lo hi) : Integrable (normalised f lo hi) := by
  rw [normalised_eq_indicator, integrable_indicator_iff measurableSet_Icc]
  rw [integrableOn_Icc_iff_integrableOn_Ioc]
  rw [intervalIntegrable_iff_integrableOn_Ioc_of_le h] at hf
  exact hf.div_const _

theorem normalised_integral {f : ℝ → ℝ} {lo hi : ℝ} {S : Set ℝ} (h : lo ≤ hi)
    (hI : ∫ t in lo..hi, f t ≠ 0) (hS : Icc lo hi ⊆ S) :
    ∫ x in S, normalised f lo hi x = 1 := by
  rw [normalised_eq_indicator, integral_indicator measurableSet_Icc,
    Measure.restrict_restrict_of_subset hS, integral_Icc_eq_integral_Ioc,
    ← intervalIntegral.integral_of_le h, intervalIntegral.integral_div, div_self hI]

theorem normalised_nonneg {f : ℝ → ℝ} {lo hi : ℝ} (h : lo ≤ hi)
    (hf : ∀ x ∈ Icc lo hi, 0 ≤ f x) (x : ℝ) : 0 ≤ normalised f lo hi x := by
  unfold normalised
  split_ifs with hx
  · exact div_nonneg (hf x hx) (intervalIntegral.integral_nonneg h hf)
  · exact le_rfl

theorem isDensityOn_normalised {f : ℝ → ℝ} {lo hi : ℝ} {S : Set ℝ} {F : ℝ → Except PyErr Fl}
    (h : lo ≤ hi) (hf0 : ∀ x ∈ Icc lo hi, 0 ≤ f x) (hf : IntervalIntegrable f volume lo hi)
    (hI : ∫ t in lo..hi, f t ≠ 0) (hS : Icc lo hi ⊆ S)
    (hF : ∀ x ∈ S, F x = .ok (.fin (normalised f lo hi x))) : IsDensityOn F S :=
  ⟨normalised f lo hi, hF, fun x _ => normalised_nonneg h hf0 x,
    (normalised_integrable h hf).integrableOn, normalised_integral h hI hS⟩

/-! ### Power laws -/

theorem rpow_intervalIntegrable {a lo hi : ℝ} (h0 : 0 < lo) (h : lo ≤ hi) :
    IntervalIntegrable (fun t : ℝ => t ^ a) volume lo hi := by
  apply ContinuousOn.intervalIntegrable
  rw [uIcc_of_le h]
  intro t ht
  exact (Real.continuousAt_rpow_const t a (Or.inl (by linarith [ht.1] : t ≠ 0))).continuousWithinAt

theorem integral_rpow_of_ne {a lo hi : ℝ} (h0 : 0 < lo) (h : lo ≤ hi) (ha : a ≠ -1) :
    ∫ t in lo..hi, t ^ a = (hi ^ (1 + a) - lo ^ (1 + a)) / (1 + a) := by
  rw [integral_rpow (Or.inr ⟨ha, ?_⟩), add_comm a 1]
  rw [uIcc_of_le h]; intro hx; linarith [hx.1]

theorem integral_rpow_neg_one {lo hi : ℝ} (h0 : 0 < lo) (h : lo ≤ hi) :
    ∫ t in lo..hi, t ^ (-1 : ℝ) = Real.log (hi / lo) := by
  rw [← integral_one_div_of_pos h0 (lt_of_lt_of_le h0 h)]
  apply intervalIntegral.integral_congr
  intro t ht
  rw [uIcc_of_le h] at ht
  simp [Real.rpow_neg_one]

theorem integral_rpow_pos {a lo hi : ℝ} (h0 : 0 < lo) (h : lo < hi) :
    0 < ∫ t in lo..hi, t ^ a := by
  apply intervalIntegral.intervalIntegral_pos_of_pos_on (rpow_intervalIntegrable h0 h.le) _ h
  intro t ht
  exact Real.rpow_pos_of_pos (by linarith [ht.1]) _

end GW
