import Verif.Model.Spin
import Verif.Props.BetaDist
import Verif.Props.UtilsMisc
import Verif.Props.SmoothedNorm
import Mathlib.MeasureTheory.Integral.Prod

/-!
# C27, C28, C29: spin models
-/

noncomputable section

open MeasureTheory Set Classical

namespace GW

open Fl Spec

/-! ## Products of densities -/

/-- The product of two densities in different variables is a density on the product set. -/
theorem isDensityOn_prod {X Y : Type*} [MeasureSpace X] [MeasureSpace Y]
    [SFinite (volume : Measure X)] [SFinite (volume : Measure Y)]
    {F : X → Except PyErr Fl} {G : Y → Except PyErr Fl} {S : Set X} {T : Set Y}
    (hF : IsDensityOn F S) (hG : IsDensityOn G T) {H : X × Y → Except PyErr Fl}
    (hH : ∀ x, H x = (do let p ← F x.1; let q ← G x.2; return p * q)) :
    IsDensityOn H (S ×ˢ T) := by
  obtain ⟨f, hf, hf0, hfi, hf1⟩ := hF
  obtain ⟨g, hg, hg0, hgi, hg1⟩ := hG
  refine ⟨fun x => f x.1 * g x.2, ?_, ?_, ?_, ?_⟩
  · rintro ⟨x, y⟩ ⟨hx, hy⟩
    rw [hH]
    simp only [hf x hx, hg y hy]
    show Except.ok _ = _
    rw [fin_mul]
  · rintro ⟨x, y⟩ ⟨hx, hy⟩
    exact mul_nonneg (hf0 x hx) (hg0 y hy)
  · unfold IntegrableOn
    rw [Measure.volume_eq_prod, ← Measure.prod_restrict]
    exact Integrable.mul_prod hfi hgi
  · rw [Measure.volume_eq_prod, setIntegral_prod_mul, hf1, hg1, one_mul]

/-! ## C27: spin orientations -/

/-- The orientation model in terms of the two truncated Gaussians. -/
theorem orientation_eq (b : Backend) {d : Dict Fl} {z1 z2 : Fl} (h1 : d.get? "cos_tilt_1" = some z1)
    (h2 : d.get? "cos_tilt_2" = some z2) (xi s1 s2 m1 m2 : Fl) :
    independentSpinOrientation b d xi s1 s2 m1 m2 = (do
      let p1 ← truncnorm b (pos z1) (pos m1) (pos s1) (pos 1) (pos (-1))
      let p2 ← truncnorm b (pos z2) (pos m2) (pos s2) (pos 1) (pos (-1))
      return (1 - xi) / 4 + xi * p1 * p2) := by
  simp only [independentSpinOrientation, Dict.get, h1, h2]
  rfl

/-- **C27.** The value of the orientation model, for every dataset that contains the two cosines:
the isotropic part `(1 - xi) / 4` plus `xi` times the product of the two Gaussians truncated to
`[-1, 1]`, the first at `cos_tilt_1`, the second at `cos_tilt_2`. -/
theorem C27_value (b : Backend) {d : Dict Fl} {z1 z2 : ℝ} (h1 : d.get? "cos_tilt_1" = some (fin z1))
    (h2 : d.get? "cos_tilt_2" = some (fin z2)) (xi m1 m2 : ℝ) {s1 s2 : ℝ} (hs1 : 0 < s1)
    (hs2 : 0 < s2) :
    independentSpinOrientation b d (fin xi) (fin s1) (fin s2) (fin m1) (fin m2) =
      .ok (fin ((1 - xi) / 4 + xi *
        (normalised (fun t => Real.exp (-(t - m1) ^ 2 / (2 * s1 ^ 2))) (-1) 1 z1 *
         normalised (fun t => Real.exp (-(t - m2) ^ 2 / (2 * s2 ^ 2))) (-1) 1 z2))) := by
  rw [orientation_eq b h1 h2]
  simp only [one_eq, fin_neg, pos]
  rw [C03_truncnorm_value b _ _ _ _ _ z1 hs1 (by norm_num),
    C03_truncnorm_value b _ _ _ _ _ z2 hs2 (by norm_num)]
  show Except.ok _ = _
  simp only [fin_sub, ofNat_eq, fin_mul, fin_add, fin_div (four_ne_zero' ℝ)]
  rw [mul_assoc]

/-- One sample of the two tilt cosines (other entries may follow). -/
def tiltData (z1 z2 : Fl) (rest : Dict Fl) : Dict Fl :=
  ("cos_tilt_1", z1) :: ("cos_tilt_2", z2) :: rest

theorem tiltData_get1 (z1 z2 : Fl) (rest : Dict Fl) :
    (tiltData z1 z2 rest).get? "cos_tilt_1" = some z1 := by
  simp [tiltData, Dict.get?_cons]

theorem tiltData_get2 (z1 z2 : Fl) (rest : Dict Fl) :
    (tiltData z1 z2 rest).get? "cos_tilt_2" = some z2 := by
  simp [tiltData, Dict.get?_cons]

/-- **C27.** For every mixing fraction in `[0, 1]`, all means and positive widths, the orientation
model is a probability density on the square `[-1, 1] x [-1, 1]`. -/
theorem C27_isDensity (b : Backend) (rest : Dict Fl) {xi : ℝ} (hx0 : 0 ≤ xi) (hx1 : xi ≤ 1)
    (m1 m2 : ℝ) {s1 s2 : ℝ} (hs1 : 0 < s1) (hs2 : 0 < s2) :
    IsDensityOn (fun z : ℝ × ℝ => independentSpinOrientation b
      (tiltData (fin z.1) (fin z.2) rest) (fin xi) (fin s1) (fin s2) (fin m1) (fin m2))
      (Icc (-1) 1 ×ˢ Icc (-1) 1) := by
  have p1 := isPdf_bell m1 s1 (show (-1 : ℝ) < 1 by norm_num)
  have p2 := isPdf_bell m2 s2 (show (-1 : ℝ) < 1 by norm_num)
  have hvol : (volume : Measure (ℝ × ℝ)).real (Icc (-1) 1 ×ˢ Icc (-1) 1) = 4 := by
    rw [Measure.volume_eq_prod, measureReal_prod_prod]
    simp [Measure.real]
    norm_num
  have hfin : (volume : Measure (ℝ × ℝ)) (Icc (-1) 1 ×ˢ Icc (-1) 1) ≠ ⊤ :=
    (isCompact_Icc.prod isCompact_Icc).measure_lt_top.ne
  have hprod : IntegrableOn (fun z : ℝ × ℝ => normalised (bell m1 s1) (-1) 1 z.1 *
      normalised (bell m2 s2) (-1) 1 z.2) (Icc (-1) 1 ×ˢ Icc (-1) 1) := by
    unfold IntegrableOn
    rw [Measure.volume_eq_prod, ← Measure.prod_restrict]
    exact Integrable.mul_prod p1.int.integrableOn p2.int.integrableOn
  have hconst : IntegrableOn (fun _ : ℝ × ℝ => (1 - xi) / 4) (Icc (-1) 1 ×ˢ Icc (-1) 1) :=
    integrableOn_const hfin
  refine ⟨fun z => (1 - xi) / 4 + xi * (normalised (bell m1 s1) (-1) 1 z.1 *
      normalised (bell m2 s2) (-1) 1 z.2), ?_, ?_, ?_, ?_⟩
  · rintro ⟨z1, z2⟩ -
    exact C27_value b (tiltData_get1 _ _ _) (tiltData_get2 _ _ _) xi m1 m2 hs1 hs2
  · rintro ⟨z1, z2⟩ -
    have := mul_nonneg (p1.nonneg z1) (p2.nonneg z2)
    have h2 : 0 ≤ (1 - xi) / 4 := by linarith
    positivity
  · exact hconst.add (hprod.const_mul xi)
  · rw [integral_add hconst (hprod.const_mul xi), integral_const_mul, setIntegral_const, hvol,
      Measure.volume_eq_prod, setIntegral_prod_mul, p1.integral_subset subset_rfl,
      p2.integral_subset subset_rfl, smul_eq_mul]
    ring

/-- **C27.** With no aligned fraction the value is `1/4`, for all floats whatsoever as data,
widths and means. -/
theorem C27_isotropic (b : Backend) {d : Dict Fl} {z1 z2 : Fl}
    (h1 : d.get? "cos_tilt_1" = some z1) (h2 : d.get? "cos_tilt_2" = some z2)
    (s1 s2 m1 m2 : Fl) :
    independentSpinOrientation b d 0 s1 s2 m1 m2 = .ok (fin (1 / 4)) := by
  rw [orientation_eq b h1 h2]
  obtain ⟨r1, -, e1, -⟩ := C04_truncnorm_total b z1 m1 s1 1 (-1)
  obtain ⟨r2, -, e2, -⟩ := C04_truncnorm_total b z2 m2 s2 1 (-1)
  rw [e1, e2]
  show Except.ok _ = _
  simp only [zero_eq, one_eq, fin_sub, ofNat_eq, fin_mul, fin_add, fin_div (four_ne_zero' ℝ)]
  simp

/-- **C27.** With only the aligned component the value is the product of the two Gaussians
truncated to `[-1, 1]`; in particular it vanishes outside the square. -/
theorem C27_aligned (b : Backend) {d : Dict Fl} {z1 z2 : ℝ}
    (h1 : d.get? "cos_tilt_1" = some (fin z1)) (h2 : d.get? "cos_tilt_2" = some (fin z2))
    (m1 m2 : ℝ) {s1 s2 : ℝ} (hs1 : 0 < s1) (hs2 : 0 < s2) :
    independentSpinOrientation b d (fin 1) (fin s1) (fin s2) (fin m1) (fin m2) =
      .ok (fin (normalised (fun t => Real.exp (-(t - m1) ^ 2 / (2 * s1 ^ 2))) (-1) 1 z1 *
        normalised (fun t => Real.exp (-(t - m2) ^ 2 / (2 * s2 ^ 2))) (-1) 1 z2)) := by
  rw [C27_value b h1 h2 1 m1 m2 hs1 hs2]
  simp

/-- **C27.** The identical model is the independent model with equal parameters; the default mean
is 1. All floats, all datasets, including the exceptions. -/
theorem C27_iid (b : Backend) (d : Dict Fl) (xi s m : Fl) :
    iidSpinOrientation b d xi s m = independentSpinOrientation b d xi s s m m ∧
    iidSpinOrientation b d xi s = independentSpinOrientation b d xi s s 1 1 := ⟨rfl, rfl⟩

/-- **C27.** Exchanging the two components in data and parameters does not change the value (all
floats). -/
theorem C27_swap (b : Backend) {d d' : Dict Fl} {z1 z2 : Fl}
    (h1 : d.get? "cos_tilt_1" = some z1) (h2 : d.get? "cos_tilt_2" = some z2)
    (h1' : d'.get? "cos_tilt_1" = some z2) (h2' : d'.get? "cos_tilt_2" = some z1)
    (xi s1 s2 m1 m2 : Fl) :
    independentSpinOrientation b d xi s1 s2 m1 m2 =
      independentSpinOrientation b d' xi s2 s1 m2 m1 := by
  rw [orientation_eq b h1 h2, orientation_eq b h1' h2']
  obtain ⟨r1, -, e1, -⟩ := C04_truncnorm_total b z1 m1 s1 1 (-1)
  obtain ⟨r2, -, e2, -⟩ := C04_truncnorm_total b z2 m2 s2 1 (-1)
  rw [e1, e2]
  show Except.ok _ = Except.ok _
  rw [mul_assoc, mul_comm (fin r1), ← mul_assoc]

/-- The support part of C27: the model vanishes outside the square. -/
def C27_statement : Prop :=
  ∀ (b : Backend) (z1 z2 xi s1 s2 m1 m2 : ℝ), 0 ≤ xi → xi ≤ 1 → 0 < s1 → 0 < s2 →
    ¬ (|z1| ≤ 1 ∧ |z2| ≤ 1) →
    independentSpinOrientation b (tiltData (fin z1) (fin z2) []) (fin xi) (fin s1) (fin s2)
      (fin m1) (fin m2) = .ok (fin 0)

/-- **C27, what holds outside the square**: exactly the isotropic part `(1 - xi)/4`, so the value is
zero if and only if `xi = 1`. -/
theorem C27_outside_partial (b : Backend) {d : Dict Fl} {z1 z2 : ℝ}
    (h1 : d.get? "cos_tilt_1" = some (fin z1)) (h2 : d.get? "cos_tilt_2" = some (fin z2))
    (hout : ¬ (|z1| ≤ 1 ∧ |z2| ≤ 1)) (xi m1 m2 : ℝ) {s1 s2 : ℝ} (hs1 : 0 < s1) (hs2 : 0 < s2) :
    independentSpinOrientation b d (fin xi) (fin s1) (fin s2) (fin m1) (fin m2) =
      .ok (fin ((1 - xi) / 4)) := by
  rw [C27_value b h1 h2 xi m1 m2 hs1 hs2]
  have : normalised (fun t => Real.exp (-(t - m1) ^ 2 / (2 * s1 ^ 2))) (-1) 1 z1 *
      normalised (fun t => Real.exp (-(t - m2) ^ 2 / (2 * s2 ^ 2))) (-1) 1 z2 = 0 := by
    rw [abs_le, abs_le] at hout
    by_cases h : -1 ≤ z1 ∧ z1 ≤ 1
    · have h' : ¬ (-1 ≤ z2 ∧ z2 ≤ 1) := fun h' => hout ⟨h, h'⟩
      simp only [normalised]; rw [if_neg h', mul_zero]
    · simp only [normalised]; rw [if_neg h, zero_mul]
  rw [this]; simp

/-- **C27 fails** in its support part: an isotropic population has density `1/4` at a cosine of 2. -/
theorem C27_fails : ¬ C27_statement := by
  intro h
  have h1 := h .numpy 2 0 0 1 1 0 0 le_rfl zero_le_one one_pos one_pos
    (by rw [abs_of_pos] <;> norm_num)
  rw [C27_outside_partial .numpy (tiltData_get1 _ _ _) (tiltData_get2 _ _ _)
    (by rw [abs_of_pos (two_pos)]; norm_num) 0 0 0 one_pos one_pos] at h1
  simp at h1

/-- Non-vacuity of C27: a mixture evaluated at a physical and at an unphysical point. -/
example : independentSpinOrientation .numpy (tiltData (fin 3) (fin 0) [("a_1", fin 1)])
    (fin (1 / 2)) (fin 1) (fin 2) (fin 1) (fin 1) = .ok (fin (1 / 8)) := by
  rw [C27_outside_partial .numpy (tiltData_get1 _ _ _) (tiltData_get2 _ _ _)
    (by rw [abs_of_pos] <;> norm_num) _ _ _ one_pos two_pos]
  norm_num

example : IsDensityOn (fun z : ℝ × ℝ => independentSpinOrientation .jax
    (tiltData (fin z.1) (fin z.2) []) (fin (1 / 3)) (fin 1) (fin 2) (fin 1) (fin (1 / 2)))
    (Icc (-1) 1 ×ˢ Icc (-1) 1) :=
  C27_isDensity .jax [] (by norm_num) (by norm_num) _ _ one_pos two_pos

/-! ## C28: spin magnitudes -/

/-- One sample of the two spin magnitudes (other entries may follow). -/
def spinData (a1 a2 : Fl) (rest : Dict Fl) : Dict Fl :=
  ("a_1", a1) :: ("a_2", a2) :: rest

theorem spinData_get1 (a1 a2 : Fl) (rest : Dict Fl) :
    (spinData a1 a2 rest).get? "a_1" = some a1 := by
  simp [spinData, Dict.get?_cons]

theorem spinData_get2 (a1 a2 : Fl) (rest : Dict Fl) :
    (spinData a1 a2 rest).get? "a_2" = some a2 := by
  simp [spinData, Dict.get?_cons]

theorem magnitude_eq (junk : Fl → Fl → Fl) (b : Backend) {d : Dict Fl} {a1 a2 : Fl}
    (h1 : d.get? "a_1" = some a1) (h2 : d.get? "a_2" = some a2) (al1 al2 be1 be2 A1 A2 : Fl) :
    independentSpinMagnitudeBeta junk b d al1 al2 be1 be2 A1 A2 = (do
      let p1 ← betaDist junk b (pos a1) (pos al1) (pos be1) (kw A1)
      let p2 ← betaDist junk b (pos a2) (pos al2) (pos be2) (kw A2)
      return p1 * p2) := by
  simp only [independentSpinMagnitudeBeta, Dict.get, h1, h2]
  rfl

/-- **C28.** Inside the support the magnitude model is the product of the two scaled Beta
densities, the first with the primary's parameters at `a_1`, the second with the secondary's at
`a_2`. -/
theorem C28_value (junk : Fl → Fl → Fl) (b : Backend) {d : Dict Fl} {a1 a2 : ℝ}
    (h1 : d.get? "a_1" = some (fin a1)) (h2 : d.get? "a_2" = some (fin a2))
    {al1 al2 be1 be2 A1 A2 : ℝ} (ha1 : 0 < al1) (ha2 : 0 < al2) (hb1 : 0 < be1) (hb2 : 0 < be2)
    (hx1 : 0 < a1) (hx1' : a1 < A1) (hx2 : 0 < a2) (hx2' : a2 < A2) :
    independentSpinMagnitudeBeta junk b d (fin al1) (fin al2) (fin be1) (fin be2) (fin A1)
      (fin A2) =
      .ok (fin (normalised (fun t => t ^ (al1 - 1) * (A1 - t) ^ (be1 - 1)) 0 A1 a1 *
        normalised (fun t => t ^ (al2 - 1) * (A2 - t) ^ (be2 - 1)) 0 A2 a2)) := by
  rw [magnitude_eq junk b h1 h2]
  simp only [pos, kw]
  rw [C05_betaDist_value junk b _ _ _ _ ha1 hb1 hx1 hx1',
    C05_betaDist_value junk b _ _ _ _ ha2 hb2 hx2 hx2']
  show Except.ok _ = _
  rw [fin_mul]

/-- **C28.** Outside `[0, amax_1] x [0, amax_2]` the value is 0, for all positive maxima and
arbitrary shape parameters. -/
theorem C28_outside (junk : Fl → Fl → Fl) (b : Backend) {d : Dict Fl} {a1 a2 : Fl}
    (h1 : d.get? "a_1" = some a1) (h2 : d.get? "a_2" = some a2) (al1 al2 be1 be2 : Fl)
    {A1 A2 : Fl} (hA1 : 0 < A1) (hA2 : 0 < A2)
    (hout : ¬ (0 ≤ a1 ∧ a1 ≤ A1 ∧ 0 ≤ a2 ∧ a2 ≤ A2)) :
    independentSpinMagnitudeBeta junk b d al1 al2 be1 be2 A1 A2 = .ok (fin 0) := by
  have key : ∀ (x al be A : Fl), 0 < A → ∃ r : ℝ,
      betaDist junk b (pos x) (pos al) (pos be) (kw A) = .ok (fin r) ∧
      (¬ (0 ≤ x ∧ x ≤ A) → r = 0) := by
    intro x al be A hA
    obtain ⟨r, -, hr, hz⟩ := C06_betaDist_total junk b x al be A
    refine ⟨r, ?_, hz⟩
    rw [betaDist_eq, if_neg (by simp)] at hr
    rw [betaDist_eq, if_neg (by simpa using fun _ => hA)]
    exact hr
  obtain ⟨r1, e1, z1⟩ := key a1 al1 be1 A1 hA1
  obtain ⟨r2, e2, z2⟩ := key a2 al2 be2 A2 hA2
  rw [magnitude_eq junk b h1 h2, e1, e2]
  show Except.ok _ = _
  rw [fin_mul]
  by_cases h : 0 ≤ a1 ∧ a1 ≤ A1
  · rw [z2 fun h' => hout ⟨h.1, h.2, h'.1, h'.2⟩, mul_zero]
  · rw [z1 h, zero_mul]

/-- **C28.** The magnitude model is a probability density on `[0, amax_1] x [0, amax_2]`. -/
theorem C28_isDensity (junk : Fl → Fl → Fl) (b : Backend) (rest : Dict Fl)
    {al1 al2 be1 be2 A1 A2 : ℝ} (ha1 : 0 < al1) (ha2 : 0 < al2) (hb1 : 0 < be1) (hb2 : 0 < be2)
    (hA1 : 0 < A1) (hA2 : 0 < A2) :
    IsDensityOn (fun a : ℝ × ℝ => independentSpinMagnitudeBeta junk b
      (spinData (fin a.1) (fin a.2) rest) (fin al1) (fin al2) (fin be1) (fin be2) (fin A1)
      (fin A2)) (Icc 0 A1 ×ˢ Icc 0 A2) :=
  isDensityOn_prod
    (C05_betaDist_isDensity junk b false false false true ha1 hb1 hA1 (Icc 0 A1)
      Ioo_subset_Icc_self measurableSet_Icc)
    (C05_betaDist_isDensity junk b false false false true ha2 hb2 hA2 (Icc 0 A2)
      Ioo_subset_Icc_self measurableSet_Icc)
    (fun a => magnitude_eq junk b (spinData_get1 _ _ _) (spinData_get2 _ _ _) _ _ _ _ _ _)

/-- **C28.** The identical model is the independent one with equal parameters; its defaults are
`amax = alpha_chi = beta_chi = 1`. -/
theorem C28_iid (junk : Fl → Fl → Fl) (b : Backend) (d : Dict Fl) (A al be : Fl) :
    iidSpinMagnitudeBeta junk b d A al be =
      independentSpinMagnitudeBeta junk b d al al be be A A ∧
    iidSpinMagnitudeBeta junk b d = independentSpinMagnitudeBeta junk b d 1 1 1 1 1 1 :=
  ⟨rfl, rfl⟩

/-- **C28.** Exchanging the two components in data and parameters does not change the result, for
all floats, including whether an exception is raised. -/
theorem C28_swap (junk : Fl → Fl → Fl) (b : Backend) {d d' : Dict Fl} {a1 a2 : Fl}
    (h1 : d.get? "a_1" = some a1) (h2 : d.get? "a_2" = some a2)
    (h1' : d'.get? "a_1" = some a2) (h2' : d'.get? "a_2" = some a1)
    (al1 al2 be1 be2 A1 A2 : Fl) :
    independentSpinMagnitudeBeta junk b d al1 al2 be1 be2 A1 A2 =
      independentSpinMagnitudeBeta junk b d' al2 al1 be2 be1 A2 A1 := by
  rw [magnitude_eq junk b h1 h2, magnitude_eq junk b h1' h2']
  rcases C06_betaDist_only_error junk b (pos a1) (pos al1) (pos be1) (kw A1) with
    ⟨r1, -, e1⟩ | ⟨e1, -⟩ <;>
  rcases C06_betaDist_only_error junk b (pos a2) (pos al2) (pos be2) (kw A2) with
    ⟨r2, -, e2⟩ | ⟨e2, -⟩ <;> rw [e1, e2]
  · show Except.ok _ = Except.ok _
    rw [mul_comm]
  all_goals rfl

/-- **C28.** `iid_spin` is the product of the identical orientation and magnitude models (mean
alignment 1), whenever both are defined. -/
theorem C28_iidSpin (junk : Fl → Fl → Fl) (b : Backend) (d : Dict Fl) (xi s A al be p q : Fl)
    (hp : iidSpinOrientation b d xi s 1 = .ok p)
    (hq : iidSpinMagnitudeBeta junk b d A al be = .ok q) :
    iidSpin junk b d xi s A al be = .ok (p * q) := by
  simp only [iidSpin, hp, hq]
  rfl

/-- **C28.** `iid_spin` is a probability density in the two cosines and the two magnitudes. -/
theorem C28_iidSpin_isDensity (junk : Fl → Fl → Fl) (b : Backend) {xi s A al be : ℝ}
    (hx0 : 0 ≤ xi) (hx1 : xi ≤ 1) (hs : 0 < s) (hA : 0 < A) (hal : 0 < al) (hbe : 0 < be) :
    IsDensityOn (fun x : (ℝ × ℝ) × (ℝ × ℝ) => iidSpin junk b
      (tiltData (fin x.1.1) (fin x.1.2) (spinData (fin x.2.1) (fin x.2.2) []))
      (fin xi) (fin s) (fin A) (fin al) (fin be))
      ((Icc (-1) 1 ×ˢ Icc (-1) 1) ×ˢ (Icc 0 A ×ˢ Icc 0 A)) := by
  refine isDensityOn_prod (C27_isDensity b [] hx0 hx1 1 1 hs hs)
    (C28_isDensity junk b [] hal hal hbe hbe hA hA) ?_
  rintro ⟨⟨z1, z2⟩, a1, a2⟩
  simp only [iidSpin, iidSpinOrientation, iidSpinMagnitudeBeta]
  rw [orientation_eq b (tiltData_get1 _ _ _) (tiltData_get2 _ _ _),
    orientation_eq b (tiltData_get1 _ _ _) (tiltData_get2 _ _ _),
    magnitude_eq junk b (d := tiltData _ _ _) (a1 := fin a1) (a2 := fin a2)
      (by simp [tiltData, spinData, Dict.get?_cons]) (by simp [tiltData, spinData, Dict.get?_cons]),
    magnitude_eq junk b (spinData_get1 _ _ _) (spinData_get2 _ _ _)]
  rfl

/-- Non-vacuity of C28: different parameters for the two components. -/
example (junk : Fl → Fl → Fl) : IsDensityOn (fun a : ℝ × ℝ => independentSpinMagnitudeBeta junk
    .numpy (spinData (fin a.1) (fin a.2) []) (fin (1 / 2)) (fin 2) (fin 3) (fin 4) (fin 1)
    (fin (1 / 2))) (Icc 0 1 ×ˢ Icc 0 (1 / 2)) :=
  C28_isDensity junk .numpy [] (by norm_num) (by norm_num) (by norm_num) (by norm_num)
    (by norm_num) (by norm_num)

example (junk : Fl → Fl → Fl) : independentSpinMagnitudeBeta junk .numpy
    (spinData (fin (1 / 2)) (fin 2) []) nan nan nan nan 1 1 = .ok (fin 0) :=
  C28_outside junk .numpy (spinData_get1 _ _ _) (spinData_get2 _ _ _) _ _ _ _ (by simp [one_eq, zero_eq])
    (by simp [one_eq, zero_eq]) (by simp [one_eq, zero_eq])

/-! ## C29: effective spins -/

/-- **C29.** `gaussian_chi_eff` is the Gaussian truncated to `[-1, 1]`, `gaussian_chi_p` the one
truncated to `[0, 1]`. -/
theorem C29_single (b : Backend) {d : Dict Fl} {x : ℝ} (mu : ℝ) {sigma : ℝ} (hs : 0 < sigma) :
    (d.get? "chi_eff" = some (fin x) → gaussianChiEff b d (fin mu) (fin sigma) =
      .ok (fin (normalised (fun t => Real.exp (-(t - mu) ^ 2 / (2 * sigma ^ 2))) (-1) 1 x))) ∧
    (d.get? "chi_p" = some (fin x) → gaussianChiP b d (fin mu) (fin sigma) =
      .ok (fin (normalised (fun t => Real.exp (-(t - mu) ^ 2 / (2 * sigma ^ 2))) 0 1 x))) := by
  constructor <;> intro h
  · simp only [gaussianChiEff, Dict.get, h]
    show truncnorm _ _ _ _ _ _ = _
    simp only [one_eq, fin_neg, pos, kw]
    exact C03_truncnorm_value b _ _ _ _ _ x hs (by norm_num)
  · simp only [gaussianChiP, Dict.get, h]
    show truncnorm _ _ _ _ _ _ = _
    simp only [one_eq, zero_eq, pos, kw]
    exact C03_truncnorm_value b _ _ _ _ _ x hs (by norm_num)

/-- **C29.** A width that is not positive is refused on numpy and cupy. -/
theorem C29_single_refuses (b : Backend) (hb : b ≠ .jax) {d : Dict Fl} {x : Fl} (mu : Fl)
    {sigma : Fl} (hs : ¬ 0 < sigma) :
    (d.get? "chi_eff" = some x → gaussianChiEff b d mu sigma = .error .valueError) ∧
    (d.get? "chi_p" = some x → gaussianChiP b d mu sigma = .error .valueError) := by
  constructor <;> intro h
  · simp only [gaussianChiEff, Dict.get, h]
    show truncnorm _ _ _ _ _ _ = _
    rw [truncnorm_eq, if_pos ⟨hb, rfl, hs⟩]
  · simp only [gaussianChiP, Dict.get, h]
    show truncnorm _ _ _ _ _ _ = _
    rw [truncnorm_eq, if_pos ⟨hb, rfl, hs⟩]

/-- One sample of the two effective spins (other entries may follow). -/
def chiData (e p : Fl) (rest : Dict Fl) : Dict Fl :=
  ("chi_eff", e) :: ("chi_p", p) :: rest

theorem linspaceR_getD (a b : ℝ) {n i : ℕ} (h : i < n) :
    (Arr.linspaceR a b n).getD i 0 = a + (b - a) * (i : ℝ) / ((n : ℝ) - 1) := by
  rw [List.getD_eq_getElem (l := Arr.linspaceR a b n) (d := 0) (by rwa [linspaceR_length])]
  exact linspaceR_getElem a b n i _

/-- The trapezoid rule only looks at the nodes `0, ..., n`. -/
theorem trapezoidRule_congr {n : ℕ} {y y' x x' : ℕ → ℝ} (hy : ∀ i ≤ n, y i = y' i)
    (hx : ∀ i ≤ n, x i = x' i) : trapezoidRule n y x = trapezoidRule n y' x' := by
  unfold trapezoidRule
  apply Finset.sum_congr rfl
  intro i hi
  rw [Finset.mem_range] at hi
  rw [hy i hi.le, hy (i + 1) hi, hx i hi.le, hx (i + 1) hi]

/-- A trapezoid over a `linspace` grid, spelled out. -/
theorem trapzR_linspace (f : ℝ → ℝ) (a b : ℝ) {n : ℕ} (hn : 1 ≤ n) :
    Arr.trapzR ((Arr.linspaceR a b n).map f) (Arr.linspaceR a b n) =
      trapezoidRule (n - 1) (fun i => f (a + (b - a) * (i : ℝ) / ((n : ℝ) - 1)))
        (fun i => a + (b - a) * (i : ℝ) / ((n : ℝ) - 1)) := by
  rw [Arr.trapzR_eq_rule _ _ (by simp), List.length_map, linspaceR_length]
  refine trapezoidRule_congr (fun i hi => ?_) fun i hi => linspaceR_getD a b (by omega)
  have hi' : i < (Arr.linspaceR a b n).length := by rw [linspaceR_length]; omega
  rw [List.getD_eq_getElem (l := (Arr.linspaceR a b n).map f) (d := 0) (by simpa using hi'),
    List.getElem_map, linspaceR_getElem]

theorem gauss2d_pos (x y mx my sx sy rho : ℝ) : 0 < Spec.gauss2d x y mx my sx sy rho :=
  Real.exp_pos _

/-- The code's unnormalised Gaussian as a real function. -/
def chiShape (me mp se sp rho e p : ℝ) : ℝ := Spec.gauss2d e p me mp se sp rho ^ (1 + rho)

theorem chiShape_pos (me mp se sp rho e p : ℝ) : 0 < chiShape me mp se sp rho e p :=
  Real.rpow_pos_of_pos (gauss2d_pos _ _ _ _ _ _ _) _

/-- The normalisation as a real number. -/
def chiNorm (me mp se sp rho : ℝ) : ℝ :=
  Arr.trapzR ((Arr.linspaceR 0 1 250).map fun p =>
    Arr.trapzR ((Arr.linspaceR (-1) 1 500).map fun e => chiShape me mp se sp rho e p)
      (Arr.linspaceR (-1) 1 500)) (Arr.linspaceR 0 1 250)

theorem chiNorm_pos (me mp se sp rho : ℝ) : 0 < chiNorm me mp se sp rho := by
  unfold chiNorm
  refine Arr.trapzR_pos (by simp) (by rw [linspaceR_length]; norm_num) ?_
    (linspaceR_sorted (by norm_num) (by norm_num)).isChain
  intro y hy
  obtain ⟨p, -, rfl⟩ := List.mem_map.1 hy
  refine Arr.trapzR_pos (by simp) (by rw [linspaceR_length]; norm_num) ?_
    (linspaceR_sorted (by norm_num) (by norm_num)).isChain
  intro y hy
  obtain ⟨e, -, rfl⟩ := List.mem_map.1 hy
  exact chiShape_pos _ _ _ _ _ _ _

theorem chi_normalization (me mp : ℝ) {se sp rho : ℝ} (hse : 0 < se) (hsp : 0 < sp)
    (hr : |rho| < 1) :
    GaussianChiEffChiP.init.normalization (fin me) (fin se) (fin mp) (fin sp) (fin rho) =
      fin (chiNorm me mp se sp rho) := by
  unfold GaussianChiEffChiP.normalization GaussianChiEffChiP.init chiNorm
  generalize Arr.linspaceR 0 1 250 = ps
  generalize Arr.linspaceR (-1) 1 500 = es
  simp only [unnormalized2dGaussian_eq hse hsp hr, List.map_map]
  rw [← Arr.trapz_fin]
  congr 1
  rw [List.map_map]
  apply List.map_congr_left
  intro p _
  simp only [Function.comp_apply]
  rw [← Arr.trapz_fin, List.map_map]
  rfl

theorem chi_call (rest : Dict Fl) (e p me mp : ℝ) {se sp rho : ℝ} (hse : 0 < se) (hsp : 0 < sp)
    (hr : |rho| < 1) :
    GaussianChiEffChiP.init.call (chiData (fin e) (fin p) rest) (fin me) (fin se) (fin mp) (fin sp)
      (fin rho) = .ok (fin (if |e| ≤ 1 ∧ 0 ≤ p ∧ p ≤ 1 then
        chiShape me mp se sp rho e p / chiNorm me mp se sp rho else 0)) := by
  have h1 : (chiData (fin e) (fin p) rest).get? "chi_eff" = some (fin e) := by
    simp [chiData, Dict.get?_cons]
  have h2 : (chiData (fin e) (fin p) rest).get? "chi_p" = some (fin p) := by
    simp [chiData, Dict.get?_cons]
  simp only [GaussianChiEffChiP.call, Dict.get, h1, h2]
  show Except.ok _ = _
  rw [unnormalized2dGaussian_eq hse hsp hr, chi_normalization me mp hse hsp hr,
    fin_div (chiNorm_pos _ _ _ _ _).ne']
  congr 1
  rw [ind_mul_ind, fin_mul_ind, fin_mul_ind]
  congr 1
  simp only [abs_fin, one_eq, zero_eq, fin_le]
  by_cases ha : |e| ≤ 1 <;> by_cases hp : 0 ≤ p <;> by_cases hq : p ≤ 1 <;>
    simp [ha, hp, hq, chiShape]

/-- The claim of C29 that the correlated model is proportional to the documented two-dimensional
Gaussian on the physical rectangle. -/
def C29_statement : Prop :=
  ∀ (me mp se sp rho : ℝ), 0 < se → 0 < sp → |rho| < 1 → ∃ c : ℝ, ∀ e p : ℝ,
    |e| ≤ 1 → 0 ≤ p → p ≤ 1 →
    GaussianChiEffChiP.init.call (chiData (fin e) (fin p) []) (fin me) (fin se) (fin mp) (fin sp)
      (fin rho) = .ok (fin (c * Spec.gauss2d e p me mp se sp rho))

/-- **C29 fails** in this part: with correlation 1/2 the model is not proportional to the Gaussian
with the documented covariance (a consequence of C08_fails). -/
theorem C29_fails : ¬ C29_statement := by
  intro h
  have hr : |(1 / 2 : ℝ)| < 1 := by rw [abs_of_pos] <;> norm_num
  obtain ⟨c, hc⟩ := h 0 0 1 1 (1 / 2) one_pos one_pos hr
  have h0 := hc 0 0 (by simp) le_rfl zero_le_one
  have h1 := hc 1 0 (by simp) le_rfl zero_le_one
  rw [chi_call [] _ _ _ _ one_pos one_pos hr, if_pos (by simp)] at h0 h1
  have hN := chiNorm_pos 0 0 1 1 (1 / 2)
  have e0 : Spec.gauss2d 0 0 0 0 1 1 (1 / 2) = 1 := by
    rw [Spec.gauss2d, covMatrix_quadratic one_pos one_pos hr]; norm_num
  have e1 : Spec.gauss2d 1 0 0 0 1 1 (1 / 2) = Real.exp (-(2 / 3)) := by
    rw [Spec.gauss2d, covMatrix_quadratic one_pos one_pos hr]; congr 1; norm_num
  simp only [chiShape, e0, e1, Real.one_rpow, mul_one] at h0 h1
  have h0 := fin_inj.1 (Except.ok.inj h0)
  have h1 := fin_inj.1 (Except.ok.inj h1)
  rw [← h0, div_mul_eq_mul_div, one_mul, div_left_inj' hN.ne', ← Real.exp_mul] at h1
  have := Real.exp_injective h1
  norm_num at this

/-- **C29, what holds.** For all means, positive widths and correlations `|rho| < 1` the correlated
model never raises for finite data, is non-negative, vanishes unless `|chi_eff| <= 1` and
`0 <= chi_p <= 1`, is on that rectangle a positive constant times the `(1 + rho)`-th power of the
documented Gaussian (hence proportional to it if `rho = 0`), and its two-dimensional
trapezoid sum over the 500 x 250 grid is exactly 1. -/
theorem C29_correlated_partial (rest : Dict Fl) (me mp : ℝ) {se sp rho : ℝ} (hse : 0 < se)
    (hsp : 0 < sp) (hr : |rho| < 1) :
    ∃ g : ℝ → ℝ → ℝ,
      (∀ e p, GaussianChiEffChiP.init.call (chiData (fin e) (fin p) rest) (fin me) (fin se)
        (fin mp) (fin sp) (fin rho) = .ok (fin (g e p))) ∧
      (∀ e p, 0 ≤ g e p) ∧
      (∀ e p, ¬ (|e| ≤ 1 ∧ 0 ≤ p ∧ p ≤ 1) → g e p = 0) ∧
      (∃ c, 0 < c ∧ ∀ e p, |e| ≤ 1 ∧ 0 ≤ p ∧ p ≤ 1 →
        g e p = c * Spec.gauss2d e p me mp se sp rho ^ (1 + rho)) ∧
      trapezoidRule 249
        (fun j => trapezoidRule 499 (fun i => g (-1 + 2 * (i : ℝ) / 499) ((j : ℝ) / 249))
          (fun i => -1 + 2 * (i : ℝ) / 499))
        (fun j => (j : ℝ) / 249) = 1 := by
  have hN := chiNorm_pos me mp se sp rho
  refine ⟨_, fun e p => chi_call rest e p me mp hse hsp hr, ?_, ?_, ?_, ?_⟩
  · intro e p
    split_ifs
    · exact (div_pos (chiShape_pos _ _ _ _ _ _ _) hN).le
    · exact le_rfl
  · intro e p h
    rw [if_neg h]
  · refine ⟨1 / chiNorm me mp se sp rho, by positivity, fun e p h => ?_⟩
    rw [if_pos h, chiShape]; ring
  · have hnum : ∀ j : ℕ, j ≤ 249 → trapezoidRule 499 (fun i => if |(-1 + 2 * (i : ℝ) / 499)| ≤ 1 ∧
        0 ≤ (j : ℝ) / 249 ∧ (j : ℝ) / 249 ≤ 1 then
          chiShape me mp se sp rho (-1 + 2 * (i : ℝ) / 499) ((j : ℝ) / 249) /
            chiNorm me mp se sp rho else 0) (fun i => -1 + 2 * (i : ℝ) / 499) =
        Arr.trapzR ((Arr.linspaceR (-1) 1 500).map fun e =>
          chiShape me mp se sp rho e (0 + (1 - 0) * (j : ℝ) / ((250 : ℕ) - 1)))
          (Arr.linspaceR (-1) 1 500) / chiNorm me mp se sp rho := by
      intro j hj
      rw [← Arr.trapzR_map_div, List.map_map, trapzR_linspace _ _ _ (by norm_num)]
      refine trapezoidRule_congr (fun i hi => ?_) fun i hi => ?_
      · have hi' : (i : ℝ) ≤ 499 := by exact_mod_cast hi
        have hj' : (j : ℝ) ≤ 249 := by exact_mod_cast hj
        have hi0 : (0 : ℝ) ≤ i := by positivity
        have hj0 : (0 : ℝ) ≤ j := by positivity
        rw [if_pos ⟨by rw [abs_le]; constructor <;> linarith, by positivity, by linarith⟩]
        simp only [Function.comp_apply]
        have e1 : (-1 + 2 * (i : ℝ) / 499 : ℝ) = -1 + (1 - -1) * (i : ℝ) / ((500 : ℕ) - 1) := by
          norm_num
        have e2 : ((j : ℝ) / 249 : ℝ) = 0 + (1 - 0) * (j : ℝ) / ((250 : ℕ) - 1) := by norm_num
        rw [e1, e2]
      · norm_num
    have hone : Arr.trapzR ((Arr.linspaceR 0 1 250).map fun p =>
        Arr.trapzR ((Arr.linspaceR (-1) 1 500).map fun e => chiShape me mp se sp rho e p)
          (Arr.linspaceR (-1) 1 500) / chiNorm me mp se sp rho) (Arr.linspaceR 0 1 250) = 1 := by
      have := Arr.trapzR_map_div (chiNorm me mp se sp rho) ((Arr.linspaceR 0 1 250).map fun p =>
        Arr.trapzR ((Arr.linspaceR (-1) 1 500).map fun e => chiShape me mp se sp rho e p)
          (Arr.linspaceR (-1) 1 500)) (Arr.linspaceR 0 1 250)
      rw [List.map_map] at this
      exact this.trans (div_self hN.ne')
    rw [trapzR_linspace _ _ _ (by norm_num)] at hone
    refine Eq.trans ?_ hone
    refine trapezoidRule_congr (fun j hj => ?_) fun j hj => by norm_num
    exact hnum j hj

/-- Non-vacuity of C29. -/
example : GaussianChiEffChiP.init.call (chiData (fin 2) (fin 0) []) (fin 0) (fin 1) (fin 0) (fin 1)
    (fin (1 / 2)) = .ok (fin 0) := by
  obtain ⟨g, h1, -, h2, -⟩ := C29_correlated_partial [] 0 0 one_pos one_pos
    (show |(1 / 2 : ℝ)| < 1 by rw [abs_of_pos] <;> norm_num)
  rw [h1, h2 _ _ (by rw [abs_of_pos] <;> norm_num)]

example : gaussianChiEff .numpy [("chi_eff", fin (1 / 2))] (fin 0) (fin 1) =
    .ok (fin (normalised (fun t => Real.exp (-(t - 0) ^ 2 / (2 * 1 ^ 2))) (-1) 1 (1 / 2))) :=
  (C29_single .numpy 0 one_pos).1 (by simp [Dict.get?_cons])

end GW
