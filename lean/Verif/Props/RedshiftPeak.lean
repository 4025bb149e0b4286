import Verif.Props.Redshift
import Mathlib.Analysis.Calculus.Deriv.MeanValue
import Mathlib.Analysis.SpecialFunctions.ExpDeriv
import Mathlib.Analysis.SpecialFunctions.Log.Deriv

/-!
# C131: the documented meaning of the parameters of the Madau-Dickinson model
-/

noncomputable section

open Set Filter Topology

namespace GW

open Fl

/-! ## Specification -/

/-- The rate `psi_of_z` returned by the Madau-Dickinson model for the given parameters. -/
def Spec.IsRate (py : Bool) (g k zp : ℝ) (R : ℝ → ℝ) : Prop :=
  ∀ d : Dict Fl, d.get? "gamma" = some (fin g) → d.get? "kappa" = some (fin k) →
    d.get? "z_peak" = some (fin zp) → ∀ z : ℝ, -1 < z → psiMadauDickinson py (fin z) d = .ok (fin (R z))

/-- The logarithmic slope of a rate at the redshift `z`: the derivative of `ln R` with respect to
`ln (1 + z)`. -/
def Spec.SlopeAt (R : ℝ → ℝ) (z s : ℝ) : Prop :=
  0 < R z ∧ HasDerivAt (fun t => Real.log (R (Real.exp t - 1))) s (Real.log (1 + z))

/-- The rate is highest at `z`, and nowhere else. -/
def Spec.PeaksAt (R : ℝ → ℝ) (z : ℝ) : Prop := ∀ z', -1 < z' → z' ≠ z → R z' < R z

/-- The full statement of C131: the rate rises with slope `gamma` today, peaks at `z_peak`, and
`kappa` is its slope at high redshift. -/
def C131_statement : Prop :=
  ∀ (py : Bool) (g k zp : ℝ) (R : ℝ → ℝ), 0 < g → g < k → 0 < zp → Spec.IsRate py g k zp R →
    Spec.SlopeAt R 0 g ∧ Spec.PeaksAt R zp ∧
    ∃ s : ℝ → ℝ, (∀ z, -1 < z → Spec.SlopeAt R z (s z)) ∧ Tendsto s atTop (𝓝 k)

/-! ## The logarithm of the rate -/

namespace RedshiftPeak

/-- `((1 + z) / (1 + z_peak))^kappa` at `t = ln (1 + z)`. -/
def ratio (k zp t : ℝ) : ℝ := Real.exp (k * (t - Real.log (1 + zp)))

/-- `ln psi` at `t = ln (1 + z)`. -/
def logRate (g k zp t : ℝ) : ℝ :=
  g * t - Real.log (1 + ratio k zp t) + Real.log (1 + (1 + zp) ^ (-k))

theorem ratio_pos (k zp t : ℝ) : 0 < ratio k zp t := Real.exp_pos _

theorem madau_eq {g k zp : ℝ} (hzp : -1 < zp) {z : ℝ} (hz : -1 < z) :
    Spec.madauDickinson g k zp z = Real.exp (logRate g k zp (Real.log (1 + z))) := by
  have hp1 : 0 < 1 + zp := by linarith
  have hz1 : 0 < 1 + z := by linarith
  have hc : 0 < 1 + (1 + zp) ^ (-k) := by positivity
  have hu : ((1 + z) / (1 + zp)) ^ k = ratio k zp (Real.log (1 + z)) := by
    unfold ratio
    rw [Real.rpow_def_of_pos (div_pos hz1 hp1), Real.log_div hz1.ne' hp1.ne', mul_comm]
  have hr := ratio_pos k zp (Real.log (1 + z))
  unfold logRate
  rw [Real.exp_add, Real.exp_sub, Real.exp_log hc, Real.exp_log (by linarith), ← hu, mul_comm g,
    ← Real.rpow_def_of_pos hz1]
  unfold Spec.madauDickinson
  rw [add_zero, Real.one_rpow, one_div (1 + zp), Real.inv_rpow hp1.le, Real.rpow_neg hp1.le]
  have h1 : 0 < ((1 + z) / (1 + zp)) ^ k := Real.rpow_pos_of_pos (div_pos hz1 hp1) k
  have h2 : 0 < (1 + zp) ^ k := Real.rpow_pos_of_pos hp1 k
  field_simp

theorem logRate_deriv (g k zp t : ℝ) :
    HasDerivAt (logRate g k zp) (g - k * (ratio k zp t / (1 + ratio k zp t))) t := by
  have hr := ratio_pos k zp t
  have h1 : HasDerivAt (fun t => ratio k zp t) (ratio k zp t * k) t := by
    have := (((hasDerivAt_id t).sub_const (Real.log (1 + zp))).const_mul k).exp
    simpa [ratio] using this
  have h2 := ((h1.const_add 1).log (by linarith))
  have h3 := ((((hasDerivAt_id t).const_mul g).sub h2).add_const (Real.log (1 + (1 + zp) ^ (-k))))
  refine h3.congr_deriv ?_
  field_simp

theorem log_rate {g k zp : ℝ} (hzp : -1 < zp) (t : ℝ) :
    Real.log (Spec.madauDickinson g k zp (Real.exp t - 1)) = logRate g k zp t := by
  rw [madau_eq hzp (by linarith [Real.exp_pos t]), Real.log_exp]
  congr 1
  rw [add_sub_cancel, Real.log_exp]

theorem rate_eq {py : Bool} {g k zp : ℝ} {R : ℝ → ℝ} (hzp : -1 < zp) (hR : Spec.IsRate py g k zp R)
    {z : ℝ} (hz : -1 < z) : R z = Spec.madauDickinson g k zp z := by
  have h1 := hR [("gamma", fin g), ("kappa", fin k), ("z_peak", fin zp)] (by simp [Dict.get?_cons])
    (by simp [Dict.get?_cons]) (by simp [Dict.get?_cons]) z hz
  have h2 := ((C30_madauDickinson py (g := g) (k := k) (zp := zp) (d := [("gamma", fin g), ("kappa", fin k), ("z_peak", fin zp)])
    (by simp [Dict.get?_cons]) (by simp [Dict.get?_cons]) (by simp [Dict.get?_cons]) hzp).1 z hz).1
  rw [h1] at h2
  exact Fl.fin.inj (Except.ok.inj h2)

theorem isRate (py : Bool) (g k : ℝ) {zp : ℝ} (hzp : -1 < zp) :
    Spec.IsRate py g k zp (Spec.madauDickinson g k zp) := fun _ h1 h2 h3 z hz =>
  ((C30_madauDickinson py h1 h2 h3 hzp).1 z hz).1

theorem slope_unique {R : ℝ → ℝ} {z s s' : ℝ} (h : Spec.SlopeAt R z s) (h' : Spec.SlopeAt R z s') :
    s = s' := h.2.unique h'.2

/-- The slope at redshift `z`. -/
def mdSlope (g k zp z : ℝ) : ℝ :=
  g - k * (((1 + z) / (1 + zp)) ^ k / (1 + ((1 + z) / (1 + zp)) ^ k))

theorem ratio_log {k zp z : ℝ} (hzp : -1 < zp) (hz : -1 < z) :
    ratio k zp (Real.log (1 + z)) = ((1 + z) / (1 + zp)) ^ k := by
  have hp1 : 0 < 1 + zp := by linarith
  have hz1 : 0 < 1 + z := by linarith
  unfold ratio
  rw [Real.rpow_def_of_pos (div_pos hz1 hp1), Real.log_div hz1.ne' hp1.ne', mul_comm]

theorem slopeAt {py : Bool} {g k zp : ℝ} {R : ℝ → ℝ} (hzp : -1 < zp) (hR : Spec.IsRate py g k zp R)
    {z : ℝ} (hz : -1 < z) : Spec.SlopeAt R z (mdSlope g k zp z) := by
  constructor
  · rw [rate_eq hzp hR hz, madau_eq hzp hz]
    exact Real.exp_pos _
  · have he : (fun t => Real.log (R (Real.exp t - 1))) = logRate g k zp := by
      funext t
      rw [rate_eq hzp hR (by linarith [Real.exp_pos t]), log_rate hzp]
    rw [he]
    refine (logRate_deriv g k zp _).congr_deriv ?_
    rw [ratio_log hzp hz]
    rfl

theorem slope_limit {g k zp : ℝ} (hzp : -1 < zp) (hk : 0 < k) :
    Tendsto (mdSlope g k zp) atTop (𝓝 (g - k)) := by
  have hp1 : 0 < 1 + zp := by linarith
  have h1 : Tendsto (fun z : ℝ => ((1 + z) / (1 + zp)) ^ k) atTop atTop :=
    (tendsto_rpow_atTop hk).comp ((tendsto_atTop_add_const_left _ 1 tendsto_id).atTop_div_const hp1)
  have h2 : Tendsto (fun z : ℝ => 1 - 1 / (1 + ((1 + z) / (1 + zp)) ^ k)) atTop (𝓝 (1 - 0)) := by
    refine tendsto_const_nhds.sub ?_
    simp only [one_div]
    exact (tendsto_atTop_add_const_left _ 1 h1).inv_tendsto_atTop
  have h3 : Tendsto (fun z : ℝ => g - k * (1 - 1 / (1 + ((1 + z) / (1 + zp)) ^ k))) atTop
      (𝓝 (g - k * (1 - 0))) := tendsto_const_nhds.sub (h2.const_mul k)
  rw [sub_zero, mul_one] at h3
  refine h3.congr' ?_
  filter_upwards [eventually_gt_atTop (-1 : ℝ)] with z hz
  have hu : 0 < ((1 + z) / (1 + zp)) ^ k :=
    Real.rpow_pos_of_pos (div_pos (by linarith) hp1) k
  unfold mdSlope
  field_simp
  ring

/-- The redshift at which the rate is highest. -/
def peak (g k zp : ℝ) : ℝ := (1 + zp) * (g / (k - g)) ^ (1 / k) - 1

theorem strictMono_exp {g k zp a b : ℝ} (hzp : -1 < zp) (ha : -1 < a) (hb : -1 < b)
    (h : logRate g k zp (Real.log (1 + a)) < logRate g k zp (Real.log (1 + b))) :
    Spec.madauDickinson g k zp a < Spec.madauDickinson g k zp b := by
  rw [madau_eq hzp ha, madau_eq hzp hb]
  exact Real.exp_lt_exp.2 h

theorem deriv_sign {g k zp t : ℝ} :
    deriv (logRate g k zp) t = (g - (k - g) * ratio k zp t) / (1 + ratio k zp t) := by
  have hr := ratio_pos k zp t
  rw [(logRate_deriv g k zp t).deriv]
  field_simp
  ring

theorem ratio_mono {k zp : ℝ} (hk : 0 < k) : StrictMono (ratio k zp) := fun a b h => by
  unfold ratio
  exact Real.exp_lt_exp.2 (mul_lt_mul_of_pos_left (by linarith) hk)

theorem logRate_cont (g k zp : ℝ) : Continuous (logRate g k zp) :=
  continuous_iff_continuousAt.2 fun t => (logRate_deriv g k zp t).continuousAt

theorem ratio_peak {g k zp : ℝ} (hg : 0 < g) (hk : g < k) (hzp : -1 < zp) :
    -1 < peak g k zp ∧ ratio k zp (Real.log (1 + peak g k zp)) = g / (k - g) := by
  have hp1 : 0 < 1 + zp := by linarith
  have hq : 0 < g / (k - g) := div_pos hg (by linarith)
  have h1 : 0 < (1 + zp) * (g / (k - g)) ^ (1 / k) := mul_pos hp1 (Real.rpow_pos_of_pos hq _)
  have hpk : -1 < peak g k zp := by unfold peak; linarith
  refine ⟨hpk, ?_⟩
  rw [ratio_log hzp hpk]
  have : (1 + peak g k zp) / (1 + zp) = (g / (k - g)) ^ (1 / k) := by
    unfold peak
    field_simp
    ring
  rw [this, ← Real.rpow_mul hq.le, one_div, inv_mul_cancel₀ (by linarith), Real.rpow_one]

end RedshiftPeak

open RedshiftPeak

/-! ## C131 -/

/-- **C131, what holds**: the slope at every redshift lies strictly between `gamma - kappa` and `gamma`;
it tends to `gamma - kappa` at high redshift. -/
theorem C131_slope_partial {py : Bool} {g k zp : ℝ} {R : ℝ → ℝ} (hk : 0 < k) (hzp : -1 < zp)
    (hR : Spec.IsRate py g k zp R) :
    ∃ s : ℝ → ℝ, (∀ z, -1 < z → Spec.SlopeAt R z (s z) ∧ g - k < s z ∧ s z < g) ∧
      StrictAntiOn s (Ioi (-1)) ∧ Tendsto s atTop (𝓝 (g - k)) ∧
      s zp = g - k / 2 ∧ s 0 = g - k / (1 + (1 + zp) ^ k) := by
  have hp1 : 0 < 1 + zp := by linarith
  have hu : ∀ z, -1 < z → 0 < ((1 + z) / (1 + zp)) ^ k := fun z hz =>
    Real.rpow_pos_of_pos (div_pos (by linarith) hp1) k
  refine ⟨mdSlope g k zp, fun z hz => ⟨slopeAt hzp hR hz, ?_, ?_⟩, ?_, slope_limit hzp hk, ?_, ?_⟩
  · have := hu z hz
    have h1 : ((1 + z) / (1 + zp)) ^ k / (1 + ((1 + z) / (1 + zp)) ^ k) < 1 := by
      rw [div_lt_one (by linarith)]; linarith
    unfold mdSlope
    nlinarith
  · have := hu z hz
    have h1 : 0 < ((1 + z) / (1 + zp)) ^ k / (1 + ((1 + z) / (1 + zp)) ^ k) := by positivity
    unfold mdSlope
    nlinarith
  · intro a ha b hb hab
    have h1 := hu a ha
    have h2 : ((1 + a) / (1 + zp)) ^ k < ((1 + b) / (1 + zp)) ^ k := by
      refine Real.rpow_lt_rpow (div_nonneg (by linarith [mem_Ioi.1 ha]) hp1.le) ?_ hk
      exact div_lt_div_of_pos_right (by linarith) hp1
    unfold mdSlope
    have h3 : ((1 + a) / (1 + zp)) ^ k / (1 + ((1 + a) / (1 + zp)) ^ k) <
        ((1 + b) / (1 + zp)) ^ k / (1 + ((1 + b) / (1 + zp)) ^ k) := by
      rw [div_lt_div_iff₀ (by linarith) (by linarith)]
      nlinarith
    nlinarith
  · unfold mdSlope
    rw [div_self hp1.ne', Real.one_rpow]
    ring
  · unfold mdSlope
    rw [add_zero, one_div, Real.inv_rpow hp1.le]
    have : 0 < (1 + zp) ^ k := Real.rpow_pos_of_pos hp1 k
    field_simp
    ring

/-- **C131, what holds**: for `0 < gamma < kappa` the rate rises up to
`1 + z = (1 + z_peak) (gamma / (kappa - gamma))^(1/kappa)` and falls afterwards. This is at `z_peak` exactly for
`kappa = 2 gamma`, below it for larger and above it for smaller `kappa`. -/
theorem C131_peak_partial {py : Bool} {g k zp : ℝ} {R : ℝ → ℝ} (hg : 0 < g) (hk : g < k)
    (hzp : -1 < zp) (hR : Spec.IsRate py g k zp R) :
    ∃ z, -1 < z ∧ 1 + z = (1 + zp) * (g / (k - g)) ^ (1 / k) ∧ Spec.PeaksAt R z ∧
      StrictMonoOn R (Ioc (-1) z) ∧ StrictAntiOn R (Ici z) ∧
      (z = zp ↔ k = 2 * g) ∧ (z < zp ↔ 2 * g < k) := by
  have hp1 : 0 < 1 + zp := by linarith
  have hkg : 0 < k - g := by linarith
  have hk0 : 0 < k := by linarith
  obtain ⟨hpk, hrp⟩ := ratio_peak hg hk hzp
  set z := peak g k zp with hz
  set T := Real.log (1 + z) with hT
  have hmono : StrictMonoOn (logRate g k zp) (Iic T) := by
    refine strictMonoOn_of_deriv_pos (convex_Iic T) (logRate_cont g k zp).continuousOn ?_
    intro t ht
    rw [interior_Iic] at ht
    rw [deriv_sign]
    have h1 : ratio k zp t < g / (k - g) := hrp ▸ ratio_mono hk0 ht
    have h2 := ratio_pos k zp t
    rw [lt_div_iff₀ hkg] at h1
    exact div_pos (by nlinarith) (by linarith)
  have hanti : StrictAntiOn (logRate g k zp) (Ici T) := by
    refine strictAntiOn_of_deriv_neg (convex_Ici T) (logRate_cont g k zp).continuousOn ?_
    intro t ht
    rw [interior_Ici] at ht
    rw [deriv_sign]
    have h1 : g / (k - g) < ratio k zp t := hrp ▸ ratio_mono hk0 ht
    have h2 := ratio_pos k zp t
    rw [div_lt_iff₀ hkg] at h1
    exact div_neg_of_neg_of_pos (by nlinarith) (by linarith)
  have hlog : ∀ {a b : ℝ}, -1 < a → a < b → Real.log (1 + a) < Real.log (1 + b) := fun ha hab =>
    Real.log_lt_log (by linarith) (by linarith)
  have hlog' : ∀ {a b : ℝ}, -1 < a → a ≤ b → Real.log (1 + a) ≤ Real.log (1 + b) := fun ha hab =>
    Real.log_le_log (by linarith) (by linarith)
  have hM : StrictMonoOn R (Ioc (-1) z) := by
    intro a ha b hb hab
    rw [rate_eq hzp hR ha.1, rate_eq hzp hR hb.1]
    exact strictMono_exp hzp ha.1 hb.1 (hmono (hlog' ha.1 ha.2) (hlog' hb.1 hb.2) (hlog ha.1 hab))
  have hA : StrictAntiOn R (Ici z) := by
    intro a ha b hb hab
    have ha1 : -1 < a := lt_of_lt_of_le hpk ha
    have hb1 : -1 < b := lt_of_lt_of_le hpk hb
    rw [rate_eq hzp hR ha1, rate_eq hzp hR hb1]
    exact strictMono_exp hzp hb1 ha1 (hanti (hlog' hpk ha) (hlog' hpk hb) (hlog ha1 hab))
  have hone : ∀ x : ℝ, 0 < x → ((x ^ (1 / k) = 1 ↔ x = 1) ∧ (x ^ (1 / k) < 1 ↔ x < 1)) := by
    intro x hx
    have hi : 0 < 1 / k := by positivity
    have hlt : x ^ (1 / k) < 1 ↔ x < 1 := by
      have := Real.rpow_lt_rpow_iff hx.le zero_le_one hi
      rwa [Real.one_rpow] at this
    refine ⟨⟨fun h => ?_, fun h => by rw [h, Real.one_rpow]⟩, hlt⟩
    rcases lt_trichotomy x 1 with h' | h' | h'
    · exact absurd h (hlt.2 h').ne
    · exact h'
    · exact absurd h (Real.one_lt_rpow h' hi).ne'
  have hq : 0 < g / (k - g) := div_pos hg hkg
  refine ⟨z, hpk, by rw [hz]; unfold peak; ring, ?_, hM, hA, ?_, ?_⟩
  · intro z' hz' hne
    rcases lt_or_gt_of_ne hne with h | h
    · exact hM ⟨hz', h.le⟩ ⟨hpk, le_rfl⟩ h
    · exact hA (mem_Ici.2 le_rfl) h.le h
  · have h1 : z = zp ↔ (g / (k - g)) ^ (1 / k) = 1 := by
      rw [hz]; unfold peak
      constructor
      · intro h
        have h2 : (1 + zp) * (g / (k - g)) ^ (1 / k) = (1 + zp) * 1 := by linarith
        exact mul_left_cancel₀ hp1.ne' h2
      · intro h; rw [h]; ring
    rw [h1, (hone _ hq).1, div_eq_one_iff_eq hkg.ne']
    constructor <;> intro h <;> linarith
  · have h1 : z < zp ↔ (g / (k - g)) ^ (1 / k) < 1 := by
      rw [hz]; unfold peak
      constructor
      · intro h
        by_contra hc
        nlinarith [not_lt.1 hc]
      · intro h; nlinarith
    rw [h1, (hone _ hq).2, div_lt_one hkg]
    constructor <;> intro h <;> linarith

/-- **C131, what holds**: for `0 < kappa ≤ gamma` there is no peak: the rate rises for ever; for
`gamma ≤ 0 < kappa` it falls for ever. -/
theorem C131_monotone_partial {py : Bool} {g k zp : ℝ} {R : ℝ → ℝ} (hk : 0 < k) (hzp : -1 < zp)
    (hR : Spec.IsRate py g k zp R) :
    (k ≤ g → StrictMonoOn R (Ioi (-1))) ∧ (g ≤ 0 → StrictAntiOn R (Ioi (-1))) := by
  have hlog : ∀ {a b : ℝ}, -1 < a → a < b → Real.log (1 + a) < Real.log (1 + b) := fun ha hab =>
    Real.log_lt_log (by linarith) (by linarith)
  constructor
  · intro h
    have hm : StrictMono (logRate g k zp) := by
      refine strictMono_of_deriv_pos fun t => ?_
      rw [deriv_sign]
      have h2 := ratio_pos k zp t
      exact div_pos (by nlinarith) (by linarith)
    intro a ha b hb hab
    rw [rate_eq hzp hR ha, rate_eq hzp hR hb]
    exact strictMono_exp hzp ha hb (hm (hlog ha hab))
  · intro h
    have hm : StrictAnti (logRate g k zp) := by
      refine strictAnti_of_deriv_neg fun t => ?_
      rw [deriv_sign]
      have h2 := ratio_pos k zp t
      exact div_neg_of_neg_of_pos (by nlinarith) (by linarith)
    intro a ha b hb hab
    rw [rate_eq hzp hR ha, rate_eq hzp hR hb]
    exact strictMono_exp hzp hb ha (hm (hlog ha hab))

/-- **C131 fails** in all three parts: for `gamma = 2.7`, `kappa = 5.6`, `z_peak = 1.9` (Madau & Dickinson) the
rate peaks below `z_peak`, its slope today is less than `gamma`, and its slope at high redshift is not `kappa`
but negative. -/
theorem C131_fails_parts {py : Bool} {R : ℝ → ℝ} (hR : Spec.IsRate py 2.7 5.6 1.9 R) :
    ¬ Spec.SlopeAt R 0 2.7 ∧ ¬ Spec.PeaksAt R 1.9 ∧
    ¬ ∃ s : ℝ → ℝ, (∀ z, -1 < z → Spec.SlopeAt R z (s z)) ∧ Tendsto s atTop (𝓝 5.6) := by
  obtain ⟨s, h1, -, h3, -, -⟩ := C131_slope_partial (by norm_num) (by norm_num) hR
  obtain ⟨z, hz1, -, h5, -, -, -, h6⟩ := C131_peak_partial (by norm_num) (by norm_num) (by norm_num) hR
  refine ⟨fun h => (h1 0 (by norm_num)).2.2.ne (slope_unique (h1 0 (by norm_num)).1 h), ?_, ?_⟩
  · intro h
    have hz : z < 1.9 := h6.2 (by norm_num)
    exact lt_asymm (h z hz1 hz.ne) (h5 1.9 (by norm_num) hz.ne')
  · rintro ⟨s', hs', hl⟩
    have heq : s' =ᶠ[atTop] s := by
      filter_upwards [eventually_gt_atTop (-1 : ℝ)] with z hz
      exact slope_unique (hs' z hz) (h1 z hz).1
    have := tendsto_nhds_unique (hl.congr' heq) h3
    norm_num at this

/-- **C131 fails.** -/
theorem C131_fails : ¬ C131_statement := fun H =>
  let hR := isRate true 2.7 5.6 (zp := 1.9) (by norm_num)
  (C131_fails_parts hR).1 (H true 2.7 5.6 1.9 _ (by norm_num) (by norm_num) (by norm_num) hR).1

/-- **Non-vacuity of the theorems of C131**: the model with `gamma = 2`, `kappa = 4`, `z_peak = 2` is one of those
that peak at `z_peak`; with `kappa = 1` it has no peak. -/
example (py : Bool) : Spec.PeaksAt (Spec.madauDickinson 2 4 2) 2 ∧
    StrictMonoOn (Spec.madauDickinson 2 1 2) (Ioi (-1)) := by
  constructor
  · obtain ⟨z, -, -, h, -, -, h1, -⟩ := C131_peak_partial (py := py) (by norm_num) (by norm_num)
      (by norm_num) (isRate py 2 4 (zp := 2) (by norm_num))
    have hz : z = 2 := h1.2 (by norm_num)
    rwa [hz] at h
  · exact (C131_monotone_partial (py := py) (by norm_num) (by norm_num)
      (isRate py 2 1 (zp := 2) (by norm_num))).1 (by norm_num)

end GW
