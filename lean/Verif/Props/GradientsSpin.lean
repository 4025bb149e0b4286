import Verif.Model.AutodiffSpin
import Verif.Props.GradientsSmoothed
import Verif.Props.Spin

/-!
# C92: gradients of the spin models
-/

noncomputable section

open Classical Set Filter Topology

namespace GW

open Fl Ex Spec

/-! ## Spin magnitudes -/

/-- `independent_spin_magnitude_beta` on jax as a function of its hyper-parameters. -/
def spinMagnitudeOf (junk : Fl → Fl → Fl) (a1 a2 : ℝ) (θ : String → ℝ) : Except PyErr Fl :=
  independentSpinMagnitudeBeta junk .jax (spinData (fin a1) (fin a2) []) (fin (θ "alpha_chi_1"))
    (fin (θ "alpha_chi_2")) (fin (θ "beta_chi_1")) (fin (θ "beta_chi_2")) (fin (θ "amax_1")) (fin (θ "amax_2"))

/-- The recorded computation. -/
def spinMagnitudeRec (junk junkL junkR : Fl → Fl → Fl) (a1 a2 : ℝ) : Ex :=
  spinMagnitudeEx junk junkL junkR (const (fin a1)) (const (fin a2)) (arg "alpha_chi_1") (arg "alpha_chi_2")
    (arg "beta_chi_1") (arg "beta_chi_2") (arg "amax_1") (arg "amax_2")

theorem trace_spinMagnitude (junk junkL junkR : Fl → Fl → Fl) (env : String → Fl) {d : Dict Fl} {a1 a2 : Ex}
    (h1 : d.get? "a_1" = some (eval env a1)) (h2 : d.get? "a_2" = some (eval env a2))
    (p1 p2 q1 q2 m1 m2 : Ex) :
    independentSpinMagnitudeBeta junk .jax d (eval env p1) (eval env p2) (eval env q1) (eval env q2)
      (eval env m1) (eval env m2) =
        .ok (eval env (spinMagnitudeEx junk junkL junkR a1 a2 p1 p2 q1 q2 m1 m2)) := by
  unfold independentSpinMagnitudeBeta
  simp only [Dict.get, h1, h2, ok_bind, pos, kw]
  rw [trace_betaDist junk junkL junkR env a1 p1 q1 m1, ok_bind, trace_betaDist junk junkL junkR env a2 p2 q2 m2,
    ok_bind]
  rfl

theorem smooth_betaDist (junk junkL junkR : Fl → Fl → Fl) {θ : String → ℝ} {v : String} {x : ℝ}
    {a b c : Ex} (sa : Smooth θ v a) (sb : Smooth θ v b) (sc : Smooth θ v c) {ar br cr : ℝ}
    (ea : eval (envOf θ) a = fin ar) (eb : eval (envOf θ) b = fin br) (ec : eval (envOf θ) c = fin cr)
    (hx : 0 < x) (ha : 0 < ar) (hb : 0 < br) (hxs : x < cr) :
    Smooth θ v (betaDistEx junk junkL junkR (const (fin x)) a b c) := by
  have sx : Smooth θ v (const (fin x)) := smooth_const θ v x
  have s1 : Smooth θ v (const 1) := smooth_const θ v 1
  have hs : 0 < cr := hx.trans hxs
  have l1 : Smooth θ v (un .log (const (fin x))) := smooth_un sx rfl hx
  have l2 : Smooth θ v (un .log (c - const (fin x))) :=
    smooth_un (smooth_sub sc sx) (by rw [eval_sub, ec]; exact fin_sub _ _) (sub_pos.2 hxs)
  have l3 : Smooth θ v (un .log c) := smooth_un sc ec hs
  have l4 : Smooth θ v (bin (.betaln junk junkL junkR) a b) := smooth_bin sa sb ea eb ⟨ha, hb⟩
  refine smooth_mul (smooth_un' (o := .nanToNum) (fun _ => trivial)
    (smooth_un' (o := .exp) (fun _ => trivial) ?_))
    (smooth_mul (smooth_mask (smooth_const θ v 0) sx rfl rfl hx.ne) (smooth_mask sx sc rfl ec hxs.ne))
  exact smooth_sub (smooth_sub (smooth_add (smooth_mul (smooth_sub sa s1) l1)
    (smooth_mul (smooth_sub sb s1) l2)) l4) (smooth_mul (smooth_sub (smooth_add sa sb) s1) l3)

/-- **C92, spin magnitudes.** For spins inside `(0, amax)` jax returns the derivatives with respect to all six
hyper-parameters. -/
theorem C92_spinMagnitude_partial (junk junkL junkR : Fl → Fl → Fl) {a1 a2 : ℝ} (h1 : 0 < a1) (h2 : 0 < a2)
    {θ : String → ℝ} (hα1 : 0 < θ "alpha_chi_1") (hα2 : 0 < θ "alpha_chi_2") (hβ1 : 0 < θ "beta_chi_1")
    (hβ2 : 0 < θ "beta_chi_2") (hm1 : a1 < θ "amax_1") (hm2 : a2 < θ "amax_2") (v : String) :
    GradientRight (spinMagnitudeOf junk a1 a2) (spinMagnitudeRec junk junkL junkR a1 a2) θ v := by
  refine gradientRight (fun θ => trace_spinMagnitude junk junkL junkR (envOf θ) (a1 := const (fin a1))
    (a2 := const (fin a2)) rfl rfl (arg "alpha_chi_1") (arg "alpha_chi_2") (arg "beta_chi_1")
    (arg "beta_chi_2") (arg "amax_1") (arg "amax_2")) ?_
  exact smooth_mul (smooth_betaDist junk junkL junkR trivial trivial trivial rfl rfl rfl h1 hα1 hβ1 hm1)
    (smooth_betaDist junk junkL junkR trivial trivial trivial rfl rfl rfl h2 hα2 hβ2 hm2)

example (junk : Fl → Fl → Fl) : GradientRight (spinMagnitudeOf junk 0.5 0.25)
    (spinMagnitudeRec junk junk junk 0.5 0.25) (fun k => if k = "amax_1" then 0.75 else 1) "amax_1" :=
  C92_spinMagnitude_partial junk junk junk (by norm_num) (by norm_num) (by simp) (by simp) (by simp) (by simp)
    (by simp; norm_num) (by simp; norm_num) _

/-! ## Spin orientations -/

/-- `independent_spin_orientation_gaussian_isotropic` on jax as a function of its hyper-parameters. -/
def spinOrientationOf (z1 z2 : ℝ) (θ : String → ℝ) : Except PyErr Fl :=
  independentSpinOrientation .jax (tiltData (fin z1) (fin z2) []) (fin (θ "xi_spin")) (fin (θ "sigma_1"))
    (fin (θ "sigma_2")) (fin (θ "mu_1")) (fin (θ "mu_2"))

/-- The recorded computation. -/
def spinOrientationRec (z1 z2 : ℝ) : Ex :=
  spinOrientationEx (const (fin z1)) (const (fin z2)) (arg "xi_spin") (arg "sigma_1") (arg "sigma_2")
    (arg "mu_1") (arg "mu_2")

theorem trace_spinOrientation (env : String → Fl) {d : Dict Fl} {z1 z2 : Ex}
    (h1 : d.get? "cos_tilt_1" = some (eval env z1)) (h2 : d.get? "cos_tilt_2" = some (eval env z2))
    (xi s1 s2 m1 m2 : Ex) :
    independentSpinOrientation .jax d (eval env xi) (eval env s1) (eval env s2) (eval env m1) (eval env m2) =
      .ok (eval env (spinOrientationEx z1 z2 xi s1 s2 m1 m2)) := by
  have t1 := trace_truncnorm env z1 m1 s1 (const 1) (const (-1)) false false false false false
  have t2 := trace_truncnorm env z2 m2 s2 (const 1) (const (-1)) false false false false false
  simp only [eval_const] at t1 t2
  unfold independentSpinOrientation
  simp only [Dict.get, h1, h2, ok_bind, pos]
  rw [t1, ok_bind, t2, ok_bind]
  rfl

theorem smooth_orientation {θ : String → ℝ} {v : String} {z1 z2 : ℝ} {xi s1 s2 m1 m2 : Ex}
    (sxi : Smooth θ v xi) (ss1 : Smooth θ v s1) (ss2 : Smooth θ v s2) (sm1 : Smooth θ v m1)
    (sm2 : Smooth θ v m2) {r1 r2 : ℝ} (e1 : eval (envOf θ) s1 = fin r1) (e2 : eval (envOf θ) s2 = fin r2)
    (h1 : 0 < r1) (h2 : 0 < r2) :
    Smooth θ v (spinOrientationEx (const (fin z1)) (const (fin z2)) xi s1 s2 m1 m2) := by
  have s1' : Smooth θ v (const 1) := smooth_const θ v 1
  have sn : Smooth θ v (const (-1)) := smooth_const θ v (-1)
  have key : ∀ (z : ℝ) {s m : Ex}, Smooth θ v s → Smooth θ v m → ∀ {r : ℝ}, eval (envOf θ) s = fin r → 0 < r →
      Smooth θ v (truncnormEx (const (fin z)) m s (const 1) (const (-1))) := by
    intro z s m ss sm r es hr
    obtain ⟨mr, em⟩ := smooth_value sm
    exact smooth_truncnorm (smooth_const θ v z) sm ss s1' sn em es (hr := 1) (lr := -1) rfl rfl hr (by norm_num)
      (smooth_mask_const θ v _ _ _) (smooth_mask_const θ v _ _ _)
  exact smooth_add (smooth_div (smooth_sub s1' sxi) (smooth_const θ v 4) (b := 4) rfl (by norm_num))
    (smooth_mul (smooth_mul sxi (key z1 ss1 sm1 e1 h1)) (key z2 ss2 sm2 e2 h2))

/-- **C92, spin orientations.** jax returns the derivatives with respect to all hyper-parameters for all tilts,
also at the ends of the range and outside it. -/
theorem C92_spinOrientation (z1 z2 : ℝ) {θ : String → ℝ} (h1 : 0 < θ "sigma_1") (h2 : 0 < θ "sigma_2")
    (v : String) : GradientRight (spinOrientationOf z1 z2) (spinOrientationRec z1 z2) θ v :=
  gradientRight (fun θ => trace_spinOrientation (envOf θ) (z1 := const (fin z1)) (z2 := const (fin z2)) rfl rfl
    (arg "xi_spin") (arg "sigma_1") (arg "sigma_2") (arg "mu_1") (arg "mu_2"))
    (smooth_orientation trivial trivial trivial trivial trivial rfl rfl h1 h2)

example : GradientRight (spinOrientationOf 1 (-0.5)) (spinOrientationRec 1 (-0.5)) (fun _ => 1) "mu_1" :=
  C92_spinOrientation 1 (-0.5) (by norm_num) (by norm_num) _

/-! ## Magnitudes and orientations together -/

/-- A sample with spin magnitudes and tilts. -/
def iidSpinData (a1 a2 z1 z2 : ℝ) : Dict Fl :=
  [("a_1", fin a1), ("a_2", fin a2), ("cos_tilt_1", fin z1), ("cos_tilt_2", fin z2)]

/-- `iid_spin` on jax as a function of its hyper-parameters. -/
def iidSpinOf (junk : Fl → Fl → Fl) (a1 a2 z1 z2 : ℝ) (θ : String → ℝ) : Except PyErr Fl :=
  iidSpin junk .jax (iidSpinData a1 a2 z1 z2) (fin (θ "xi_spin")) (fin (θ "sigma_spin")) (fin (θ "amax"))
    (fin (θ "alpha_chi")) (fin (θ "beta_chi"))

/-- The recorded computation. -/
def iidSpinRec (junk junkL junkR : Fl → Fl → Fl) (a1 a2 z1 z2 : ℝ) : Ex :=
  iidSpinEx junk junkL junkR (const (fin a1)) (const (fin a2)) (const (fin z1)) (const (fin z2)) (arg "xi_spin")
    (arg "sigma_spin") (arg "amax") (arg "alpha_chi") (arg "beta_chi")

theorem iidSpin_traces (junk junkL junkR : Fl → Fl → Fl) (a1 a2 z1 z2 : ℝ) :
    Traces (iidSpinRec junk junkL junkR a1 a2 z1 z2) (iidSpinOf junk a1 a2 z1 z2) := by
  intro θ
  have t1 := trace_spinOrientation (envOf θ) (d := iidSpinData a1 a2 z1 z2) (z1 := const (fin z1))
    (z2 := const (fin z2)) rfl rfl (arg "xi_spin") (arg "sigma_spin") (arg "sigma_spin") (const 1) (const 1)
  have t2 := trace_spinMagnitude junk junkL junkR (envOf θ) (d := iidSpinData a1 a2 z1 z2) (a1 := const (fin a1))
    (a2 := const (fin a2)) rfl rfl (arg "alpha_chi") (arg "alpha_chi") (arg "beta_chi") (arg "beta_chi")
    (arg "amax") (arg "amax")
  simp only [eval_arg, eval_const, envOf] at t1 t2
  unfold iidSpinOf iidSpin iidSpinOrientation iidSpinMagnitudeBeta
  rw [t1, ok_bind, t2, ok_bind]
  rfl

/-- **C92, `iid_spin`.** For magnitudes inside `(0, amax)` and any tilts jax returns the derivatives with respect to
all five hyper-parameters. -/
theorem C92_iidSpin_partial (junk junkL junkR : Fl → Fl → Fl) {a1 a2 : ℝ} (h1 : 0 < a1) (h2 : 0 < a2) (z1 z2 : ℝ)
    {θ : String → ℝ} (hs : 0 < θ "sigma_spin") (hα : 0 < θ "alpha_chi") (hβ : 0 < θ "beta_chi")
    (hm1 : a1 < θ "amax") (hm2 : a2 < θ "amax") (v : String) :
    GradientRight (iidSpinOf junk a1 a2 z1 z2) (iidSpinRec junk junkL junkR a1 a2 z1 z2) θ v := by
  refine gradientRight (iidSpin_traces junk junkL junkR a1 a2 z1 z2) ?_
  exact smooth_mul (smooth_orientation trivial trivial trivial (smooth_const θ v 1) (smooth_const θ v 1) rfl rfl hs hs)
    (smooth_mul (smooth_betaDist junk junkL junkR trivial trivial trivial rfl rfl rfl h1 hα hβ hm1)
    (smooth_betaDist junk junkL junkR trivial trivial trivial rfl rfl rfl h2 hα hβ hm2))

example (junk : Fl → Fl → Fl) : GradientRight (iidSpinOf junk 0.5 0.25 1 0)
    (iidSpinRec junk junk junk 0.5 0.25 1 0) (fun _ => 1) "amax" :=
  C92_iidSpin_partial junk junk junk (by norm_num) (by norm_num) 1 0 (by norm_num) (by norm_num) (by norm_num)
    (by norm_num) (by norm_num) _

/-- Whatever the cotangent is, a value outside the support sends back NaN to the three hyper-parameters. -/
theorem back_betaDist_outside (junk junkL junkR : Fl → Fl → Fl) {x : ℝ} {θ : String → ℝ} {pa pb pc : String}
    (hx : x < 0 ∨ θ pc < x) {v : String} (hv : v = pa ∨ v = pb ∨ v = pc) (ct : Fl) :
    back (envOf θ) v (betaDistEx junk junkL junkR (const (fin x)) (arg pa) (arg pb) (arg pc)) ct = nan := by
  have hmask : eval (envOf θ) (mask .le (const 0) (const (fin x)) *
      mask .le (const (fin x)) (arg pc)) = fin 0 := by
    rw [eval_mul, eval_mask, eval_mask]
    simp only [CmpOp.holds, eval_const, eval_arg, envOf]
    rw [ind_mul_ind, ind_false]
    rw [zero_eq, fin_le, fin_le]
    rintro ⟨h3, h4⟩
    rcases hx with h5 | h5 <;> linarith
  have hln : eval (envOf θ) ((arg pa - const 1) * un .log (const (fin x)) +
      (arg pb - const 1) * un .log (arg pc - const (fin x))) = nan := by
    simp only [eval_add, eval_mul, eval_un, eval_sub, eval_const, eval_arg, UnOp.val, envOf, fin_sub]
    rcases hx with h5 | h5
    · rw [show Fl.log (fin x) = nan from log_fin_neg h5]; simp
    · rw [show Fl.log (fin (θ pc - x)) = nan from log_fin_neg (by linarith)]; simp
  unfold betaDistEx
  rw [back_mul, back_un, back_un, hmask, eval_un, eval_sub, eval_sub, hln]
  simp only [UnOp.back, UnOp.val, back_sub, back_add, back_mul, nan_sub, exp_nan, mul_nan,
    nan_mul, back_arg, back_const, eval_const, back_bin, back_un, neg_nan, BinOp.backL, BinOp.backR, nan_div]
  rcases hv with rfl | rfl | rfl <;> simp

/-- **C92, `iid_spin`.** One spin above `amax` and the derivatives of the density, which is 0 for all nearby
hyper-parameters, are returned as NaN with respect to `amax`, `alpha_chi` and `beta_chi`. -/
theorem C92_iidSpin_above (junk junkL junkR : Fl → Fl → Fl) {a1 a2 : ℝ} (z1 z2 : ℝ) {θ : String → ℝ}
    (hs : 0 < θ "sigma_spin") (hA : 0 < θ "amax") (h : θ "amax" < a1 ∨ θ "amax" < a2) {v : String}
    (hv : v ∈ ["amax", "alpha_chi", "beta_chi"]) :
    (∀ᶠ t in 𝓝 (θ v), iidSpinOf junk a1 a2 z1 z2 (Function.update θ v t) = .ok (fin 0)) ∧
      (iidSpinRec junk junkL junkR a1 a2 z1 z2).grad (envOf θ) v = nan := by
  constructor
  · have hc : ∀ k, ContinuousAt (fun t => Function.update θ v t k) (θ v) := by
      intro k
      by_cases hk : k = v
      · subst hk; simp only [Function.update_self]; exact continuousAt_id
      · simp only [Function.update_of_ne hk]; exact continuousAt_const
    have e0 : ∀ k, (fun t => Function.update θ v t k) (θ v) = θ k := by
      intro k
      simp only [Function.update_eq_self]
    have hev : ∀ᶠ t in 𝓝 (θ v), Function.update θ v t "amax" < a1 ∨ Function.update θ v t "amax" < a2 := by
      rcases h with h | h
      · filter_upwards [(hc "amax").eventually (gt_mem_nhds (by rw [e0]; exact h))] with t h2
        exact .inl h2
      · filter_upwards [(hc "amax").eventually (gt_mem_nhds (by rw [e0]; exact h))] with t h2
        exact .inr h2
    have hpos : ∀ᶠ t in 𝓝 (θ v), 0 < Function.update θ v t "amax" :=
      (hc "amax").eventually (lt_mem_nhds (by rw [e0]; exact hA))
    have hsig : ∀ᶠ t in 𝓝 (θ v), 0 < Function.update θ v t "sigma_spin" :=
      (hc "sigma_spin").eventually (lt_mem_nhds (by rw [e0]; exact hs))
    filter_upwards [hev, hpos, hsig] with t ht hA' hs'
    generalize Function.update θ v t = θ' at ht hA' hs' ⊢
    have hm := C28_outside junk .jax (d := iidSpinData a1 a2 z1 z2) (a1 := fin a1) (a2 := fin a2) rfl rfl
      (fin (θ' "alpha_chi")) (fin (θ' "alpha_chi")) (fin (θ' "beta_chi")) (fin (θ' "beta_chi"))
      (A1 := fin (θ' "amax")) (A2 := fin (θ' "amax")) (fin_lt.2 hA') (fin_lt.2 hA') (by
        rintro ⟨-, h1, -, h2⟩
        rw [fin_le] at h1 h2
        rcases ht with h | h <;> linarith)
    have ho := C27_value .jax (d := iidSpinData a1 a2 z1 z2) (z1 := z1) (z2 := z2) rfl rfl (θ' "xi_spin") 1 1 hs' hs'
    unfold iidSpinOf iidSpin iidSpinOrientation iidSpinMagnitudeBeta
    rw [one_eq, ho, ok_bind, hm, ok_bind, pure_eq_ok, fin_mul, mul_zero]
  · unfold grad iidSpinRec iidSpinEx spinMagnitudeEx
    rw [back_mul, back_mul]
    have hv' : v = "alpha_chi" ∨ v = "beta_chi" ∨ v = "amax" := by
      simp only [List.mem_cons, List.not_mem_nil, or_false] at hv
      tauto
    rcases h with h | h
    · rw [back_betaDist_outside junk junkL junkR (.inr h) hv', nan_add, add_nan]
    · rw [back_betaDist_outside junk junkL junkR (.inr h) hv', add_nan, add_nan]

example (junk : Fl → Fl → Fl) : (iidSpinRec junk junk junk 0.75 0.25 1 0).grad (envOf fun _ => 1 / 2) "amax" = nan :=
  (C92_iidSpin_above junk junk junk 1 0 (by norm_num) (by norm_num) (.inl (by norm_num)) (by simp)).2

/-! ## Effective spins -/

/-- `gaussian_chi_eff` on jax as a function of its hyper-parameters. -/
def chiEffOf (x : ℝ) (θ : String → ℝ) : Except PyErr Fl :=
  gaussianChiEff .jax [("chi_eff", fin x)] (fin (θ "mu_chi_eff")) (fin (θ "sigma_chi_eff"))

/-- `gaussian_chi_p` on jax as a function of its hyper-parameters. -/
def chiPOf (x : ℝ) (θ : String → ℝ) : Except PyErr Fl :=
  gaussianChiP .jax [("chi_p", fin x)] (fin (θ "mu_chi_p")) (fin (θ "sigma_chi_p"))

/-- **C92, effective spins.** jax returns the derivatives for all effective spins. -/
theorem C92_chiEff (x : ℝ) {θ : String → ℝ} (h : 0 < θ "sigma_chi_eff") (v : String) :
    GradientRight (chiEffOf x) (truncnormEx (const (fin x)) (arg "mu_chi_eff") (arg "sigma_chi_eff") (const 1)
      (const (-1))) θ v :=
  gradientRight (fun θ => trace_truncnorm (envOf θ) (const (fin x)) (arg "mu_chi_eff") (arg "sigma_chi_eff")
    (const 1) (const (-1)) _ _ _ _ _) <|
    smooth_truncnorm (smooth_const θ v x) trivial trivial (smooth_const θ v 1) (smooth_const θ v (-1)) rfl rfl
      (hr := 1) (lr := -1) rfl rfl h (by norm_num) (smooth_mask_const θ v _ _ _) (smooth_mask_const θ v _ _ _)

/-- **C92, effective precessing spins.** -/
theorem C92_chiP (x : ℝ) {θ : String → ℝ} (h : 0 < θ "sigma_chi_p") (v : String) :
    GradientRight (chiPOf x) (truncnormEx (const (fin x)) (arg "mu_chi_p") (arg "sigma_chi_p") (const 1)
      (const 0)) θ v :=
  gradientRight (fun θ => trace_truncnorm (envOf θ) (const (fin x)) (arg "mu_chi_p") (arg "sigma_chi_p")
    (const 1) (const 0) _ _ _ _ _) <|
    smooth_truncnorm (smooth_const θ v x) trivial trivial (smooth_const θ v 1) (smooth_const θ v 0) rfl rfl
      (hr := 1) (lr := 0) rfl rfl h (by norm_num) (smooth_mask_const θ v _ _ _) (smooth_mask_const θ v _ _ _)

example := C92_chiEff 2 (θ := fun _ => 1) (by norm_num) "mu_chi_eff"

example := C92_chiP 0 (θ := fun _ => 1) (by norm_num) "sigma_chi_p"

/-! ## Correlated effective spins -/

/-- `GaussianChiEffChiP` on jax as a function of its hyper-parameters. -/
def chiEffChiPOf (e p : ℝ) (θ : String → ℝ) : Except PyErr Fl :=
  GaussianChiEffChiP.init.call (chiData (fin e) (fin p) []) (fin (θ "mu_chi_eff")) (fin (θ "sigma_chi_eff"))
    (fin (θ "mu_chi_p")) (fin (θ "sigma_chi_p")) (fin (θ "spin_covariance"))

/-- The recorded computation. -/
def chiEffChiPRec (e p : ℝ) : Ex :=
  chiEffChiPEx .init (fin e) (fin p) (arg "mu_chi_eff") (arg "sigma_chi_eff") (arg "mu_chi_p") (arg "sigma_chi_p")
    (arg "spin_covariance")

theorem trace_chiNorm (env : String → Fl) (s : GaussianChiEffChiP) (mE sE mP sP c : Ex) :
    s.normalization (eval env mE) (eval env sE) (eval env mP) (eval env sP) (eval env c) =
      eval env (chiNormEx s mE sE mP sP c) := by
  unfold chiNormEx GaussianChiEffChiP.normalization
  simp only
  rw [trace_trapz, List.map_map, List.map_map]
  congr 1
  apply List.map_congr_left
  intro p _
  simp only [Function.comp_apply]
  rw [trace_trapz, List.map_map]
  rfl

theorem chiEffChiP_traces (e p : ℝ) : Traces (chiEffChiPRec e p) (chiEffChiPOf e p) := by
  intro θ
  have h1 : (chiData (fin e) (fin p) []).get? "chi_eff" = some (fin e) := rfl
  have h2 : (chiData (fin e) (fin p) []).get? "chi_p" = some (fin p) := rfl
  unfold chiEffChiPOf
  simp only [GaussianChiEffChiP.call, Dict.get, h1, h2]
  have := trace_chiNorm (envOf θ) .init (arg "mu_chi_eff") (arg "sigma_chi_eff") (arg "mu_chi_p")
    (arg "sigma_chi_p") (arg "spin_covariance")
  simp only [eval_arg, envOf] at this
  show Except.ok _ = _
  rw [this]
  rfl

theorem smooth_gaussian2d {θ : String → ℝ} {v : String} {mx my sx sy c : Ex} (smx : Smooth θ v mx)
    (smy : Smooth θ v my) (ssx : Smooth θ v sx) (ssy : Smooth θ v sy) (sc : Smooth θ v c) {xr yr cr : ℝ}
    (ex : eval (envOf θ) sx = fin xr) (ey : eval (envOf θ) sy = fin yr) (ec : eval (envOf θ) c = fin cr)
    (hx : xr ≠ 0) (hy : yr ≠ 0) (hc : cr ≠ 1) (x y : ℝ) :
    Smooth θ v (gaussian2dEx (const (fin x)) (const (fin y)) mx my sx sy c) := by
  have rx := smooth_mul (smooth_sub smx (smooth_const θ v x)) ssy
  have ry := smooth_mul (smooth_sub smy (smooth_const θ v y)) ssx
  have sq : ∀ {e : Ex}, Smooth θ v e → Smooth θ v (un .square e) :=
    fun h => smooth_un' (o := .square) (fun _ => trivial) h
  refine smooth_un' (o := .exp) (fun _ => trivial) (smooth_div (smooth_div (smooth_neg (smooth_sub (smooth_add
    (sq rx) (sq ry)) (smooth_mul (smooth_mul (smooth_mul (smooth_const θ v 2) rx) ry) sc))) (smooth_const θ v 2)
    (b := 2) rfl two_ne_zero) (smooth_mul (smooth_mul (sq ssx) (sq ssy)) (smooth_sub (smooth_const θ v 1) sc))
    (b := xr ^ 2 * yr ^ 2 * (1 - cr)) ?_ ?_)
  · simp only [eval_mul, eval_un, eval_sub, eval_const, ex, ey, ec, UnOp.val]
    simp
  · exact mul_ne_zero (mul_ne_zero (pow_ne_zero _ hx) (pow_ne_zero _ hy)) (sub_ne_zero.2 hc.symm)

/-- **C92, correlated effective spins.** jax returns the derivatives with respect to all five hyper-parameters, at
all effective spins. -/
theorem C92_chiEffChiP (e p : ℝ) {θ : String → ℝ} (hE : 0 < θ "sigma_chi_eff") (hP : 0 < θ "sigma_chi_p")
    (hr : |θ "spin_covariance"| < 1) (v : String) :
    GradientRight (chiEffChiPOf e p) (chiEffChiPRec e p) θ v := by
  refine gradientRight (chiEffChiP_traces e p) ?_
  have hc : θ "spin_covariance" ≠ 1 := fun h => by rw [h] at hr; simp at hr
  have sg := fun x y => smooth_gaussian2d (θ := θ) (v := v) (mx := arg "mu_chi_eff") (my := arg "mu_chi_p")
    (sx := arg "sigma_chi_eff") (sy := arg "sigma_chi_p") (c := arg "spin_covariance") trivial trivial trivial
    trivial trivial rfl rfl rfl hE.ne' hP.ne' hc x y
  have hN := trace_chiNorm (envOf θ) .init (arg "mu_chi_eff") (arg "sigma_chi_eff") (arg "mu_chi_p")
    (arg "sigma_chi_p") (arg "spin_covariance")
  simp only [eval_arg, envOf] at hN
  rw [chi_normalization _ _ hE hP hr] at hN
  obtain ⟨r1, hr1⟩ : ∃ r, ind (Fl.abs (fin e) ≤ 1) = fin r := ⟨_, ind_eq _⟩
  obtain ⟨r2, hr2⟩ : ∃ r, ind (fin p ≤ 1) * ind (0 ≤ fin p) = fin r := by
    rw [ind_mul_ind]
    exact ⟨_, ind_eq _⟩
  have sN : ∀ s, Smooth θ v (chiNormEx s (arg "mu_chi_eff") (arg "sigma_chi_eff") (arg "mu_chi_p")
      (arg "sigma_chi_p") (arg "spin_covariance")) := by
    intro s
    refine smooth_trapz ?_ _
    intro y hy
    obtain ⟨p, -, rfl⟩ := List.mem_map.1 hy
    refine smooth_trapz ?_ _
    intro y hy
    obtain ⟨e, -, rfl⟩ := List.mem_map.1 hy
    exact sg e p
  unfold chiEffChiPRec chiEffChiPEx
  rw [hr1, hr2]
  exact smooth_mul (smooth_mul (smooth_div (sg e p) (sN _) hN.symm (chiNorm_pos _ _ _ _ _).ne')
    (smooth_const θ v _)) (smooth_const θ v _)

example : GradientRight (chiEffChiPOf 0.5 1) (chiEffChiPRec 0.5 1) (fun _ => 1 / 2) "spin_covariance" :=
  C92_chiEffChiP 0.5 1 (by norm_num) (by norm_num) (by rw [abs_lt]; norm_num) _

end GW
