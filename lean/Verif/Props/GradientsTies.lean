import Verif.Props.Gradients

/-!
# C92 at ties of `maximum` and `minimum`
-/

noncomputable section

open Classical Filter Topology

namespace GW

open Fl Spec

/-- The right derivative of the absolute value of a function at a zero. -/
theorem hasDerivWithinAt_abs_zero {h : ℝ → ℝ} {t d : ℝ} (hd : HasDerivAt h d t) (h0 : h t = 0) :
    HasDerivWithinAt (fun s => |h s|) |d| (Set.Ici t) t ∧ HasDerivWithinAt (fun s => |h s|) (-|d|) (Set.Iic t) t := by
  have hs := hasDerivAt_iff_tendsto_slope.1 hd
  constructor
  · rw [← hasDerivWithinAt_Ioi_iff_Ici, hasDerivWithinAt_iff_tendsto_slope' (by simp)]
    refine ((hs.mono_left (nhdsWithin_mono _ fun x hx => (ne_of_gt hx))).abs).congr' ?_
    filter_upwards [self_mem_nhdsWithin] with s hs
    have hs : t < s := hs
    rw [slope_def_field, slope_def_field, h0, abs_div, abs_of_pos (sub_pos.2 hs)]
    simp
  · rw [← hasDerivWithinAt_Iio_iff_Iic, hasDerivWithinAt_iff_tendsto_slope' (by simp)]
    refine ((hs.mono_left (nhdsWithin_mono _ fun x hx => (ne_of_lt hx))).abs.neg).congr' ?_
    filter_upwards [self_mem_nhdsWithin] with s hs
    have hs : s < t := hs
    rw [slope_def_field, slope_def_field, h0, abs_div, abs_of_neg (sub_neg.2 hs)]
    rw [sub_zero, abs_zero, sub_zero, ← div_neg, neg_neg]

/-- **C92, ties of `maximum` and `minimum`** (where they clip): the function has one-sided derivatives only, and
the gradient is their mean. In particular it is the derivative if there is one. -/
theorem C92_tie {f g : ℝ → ℝ} {t d1 d2 : ℝ} (hf : HasDerivAt f d1 t) (hg : HasDerivAt g d2 t) (h : f t = g t)
    (ct : ℝ) : ∀ o ∈ [BinOp.maximum, BinOp.minimum], ∃ (F : ℝ → ℝ) (p q left right : ℝ),
      (∀ s, o.val (fin (f s)) (fin (g s)) = fin (F s)) ∧
      HasDerivWithinAt F left (Set.Iic t) t ∧ HasDerivWithinAt F right (Set.Ici t) t ∧
      o.backL (fin (f t)) (fin (g t)) (fin ct) = fin p ∧ o.backR (fin (f t)) (fin (g t)) (fin ct) = fin q ∧
      p * d1 + q * d2 = ct * ((left + right) / 2) := by
  have habs := hasDerivWithinAt_abs_zero (hf.sub hg) (sub_eq_zero.2 h)
  have hmax : ∀ a b : ℝ, max a b = (a + b + |a - b|) / 2 := by
    intro a b
    rcases le_total a b with hl | hl
    · rw [max_eq_right hl, abs_of_nonpos (sub_nonpos.2 hl)]; ring
    · rw [max_eq_left hl, abs_of_nonneg (sub_nonneg.2 hl)]; ring
  have hmin : ∀ a b : ℝ, min a b = (a + b - |a - b|) / 2 := by
    intro a b
    rcases le_total a b with hl | hl
    · rw [min_eq_left hl, abs_of_nonpos (sub_nonpos.2 hl)]; ring
    · rw [min_eq_right hl, abs_of_nonneg (sub_nonneg.2 hl)]; ring
  have hhalf : fin ct * (1 / 2 : Fl) = fin (ct / 2) := by
    rw [one_eq, show (2 : Fl) = fin 2 from rfl, fin_div (by norm_num), fin_mul]
    congr 1; ring
  intro o ho
  simp only [List.mem_cons, List.not_mem_nil, or_false] at ho
  rcases ho with rfl | rfl
  · refine ⟨fun s => (f s + g s + |f s - g s|) / 2, ct / 2, ct / 2, (d1 + d2 + -|d1 - d2|) / 2,
      (d1 + d2 + |d1 - d2|) / 2, fun s => ?_, ((hf.add hg).hasDerivWithinAt.add habs.2).div_const 2,
      ((hf.add hg).hasDerivWithinAt.add habs.1).div_const 2, ?_, ?_, by ring⟩
    · show _ = fin ((f s + g s + |f s - g s|) / 2)
      rw [← hmax]
      rcases le_or_gt (g s) (f s) with hl | hl
      · simp [BinOp.val, flMax, hl]
      · simp [BinOp.val, flMax, hl.not_ge, hl.le]
    · simpa [BinOp.backL, flMax, h, balancedEq] using hhalf
    · simpa [BinOp.backR, flMax, h, balancedEq] using hhalf
  · refine ⟨fun s => (f s + g s - |f s - g s|) / 2, ct / 2, ct / 2, (d1 + d2 - -|d1 - d2|) / 2,
      (d1 + d2 - |d1 - d2|) / 2, fun s => ?_, ((hf.add hg).hasDerivWithinAt.sub habs.2).div_const 2,
      ((hf.add hg).hasDerivWithinAt.sub habs.1).div_const 2, ?_, ?_, by ring⟩
    · show _ = fin ((f s + g s - |f s - g s|) / 2)
      rw [← hmin]
      rcases le_or_gt (f s) (g s) with hl | hl
      · simp [BinOp.val, flMin, hl]
      · simp [BinOp.val, flMin, hl.not_ge, hl.le]
    · simpa [BinOp.backL, flMin, h, balancedEq] using hhalf
    · simpa [BinOp.backR, flMin, h, balancedEq] using hhalf

/-- The lower end of the smoothing window is clipped at `1e-6`: one-sided derivatives 0 and 1 there. -/
example : ∃ p q : ℝ, BinOp.maximum.backL (fin 1e-6) (fin 1e-6) (fin 1) = fin p ∧
    BinOp.maximum.backR (fin 1e-6) (fin 1e-6) (fin 1) = fin q ∧ p * 1 + q * 0 = 1 / 2 := by
  obtain ⟨F, p, q, l, r, hF, hl, hr, h1, h2, h3⟩ := C92_tie (hasDerivAt_id (1e-6 : ℝ))
    (hasDerivAt_const (1e-6 : ℝ) (1e-6 : ℝ)) rfl 1 .maximum (by simp)
  refine ⟨p, q, h1, h2, ?_⟩
  rw [h3]
  have hFe : F = fun s => max s 1e-6 := by
    funext s
    have := hF s
    simp only [BinOp.val, flMax, id] at this
    rcases le_or_gt (1e-6 : ℝ) s with hs | hs
    · rw [max_eq_left hs]
      simpa [hs] using this.symm
    · rw [max_eq_right hs.le]
      simpa [hs.not_ge] using this.symm
  have hl' : HasDerivWithinAt F 0 (Set.Iic (1e-6 : ℝ)) 1e-6 :=
    (hasDerivWithinAt_const _ _ (1e-6 : ℝ)).congr (fun s hs => by rw [hFe]; exact max_eq_right hs)
      (by rw [hFe]; simp)
  have hr' : HasDerivWithinAt F 1 (Set.Ici (1e-6 : ℝ)) 1e-6 :=
    (hasDerivWithinAt_id _ _).congr (fun s hs => by rw [hFe]; exact max_eq_left hs) (by rw [hFe]; simp)
  rw [(uniqueDiffWithinAt_Iic _).eq_deriv _ hl hl', (uniqueDiffWithinAt_Ici _).eq_deriv _ hr hr']
  norm_num

end GW
