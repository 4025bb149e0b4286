import Verif.Props.MassJoint
import Verif.Props.Truncnorm
import Verif.Props.BetaDist
import Verif.Props.Redshift

/-!
# C155: the direction in which a hyper-parameter moves a population
-/

noncomputable section

open Classical Set MeasureTheory

namespace GW

open Fl Spec

/-! ## Specification -/

/-- On the interval from `a` to `b` the density `G` is the density `F` moved towards larger values: the ratio `G / F`
increases, and above every threshold `G` has at least the probability that `F` has. -/
def Spec.MovesUp (F G : ℝ → Except PyErr Fl) (a b : ℝ) : Prop :=
  ∃ f g : ℝ → ℝ, (∀ x ∈ Ioo a b, F x = .ok (fin (f x)) ∧ G x = .ok (fin (g x)) ∧ 0 ≤ f x ∧ 0 ≤ g x) ∧
    (∀ x ∈ Ioo a b, ∀ y ∈ Ioo a b, x ≤ y → f y * g x ≤ f x * g y) ∧
    IntervalIntegrable f volume a b ∧ IntervalIntegrable g volume a b ∧
    ∀ t ∈ Icc a b, ∫ x in t..b, f x ≤ ∫ x in t..b, g x

/-- The redshift densities `P` and `Q`, up to the maximum redshift `zMax`: `Q` is moved towards larger redshifts. There
is no redshift above which `Q` is the smaller one again. -/
def Spec.MovesAway (P Q : ℝ → Except PyErr Fl) (zMax : ℝ) : Prop :=
  ∃ p q : ℝ → ℝ, (∀ z ∈ Icc 0 zMax, P z = .ok (fin (p z)) ∧ Q z = .ok (fin (q z)) ∧ 0 ≤ p z ∧ 0 ≤ q z) ∧
    (∀ z ∈ Icc 0 zMax, ∀ z' ∈ Icc 0 zMax, z ≤ z' → p z' * q z ≤ p z * q z') ∧
    ∀ z ∈ Icc 0 zMax, ∀ z' ∈ Icc 0 zMax, z ≤ z' → p z < q z → p z' ≤ q z'

/-! ## Lemmas -/

namespace MoveUp

theorem cross_integrals {f g : ℝ → ℝ} {a b t : ℝ} (ht : t ∈ Icc a b) (hf : IntervalIntegrable f volume a b)
    (hg : IntervalIntegrable g volume a b)
    (hc : ∀ x ∈ Ioo a b, ∀ y ∈ Ioo a b, x ≤ y → f y * g x ≤ f x * g y) :
    (∫ x in t..b, f x) * (∫ x in a..t, g x) ≤ (∫ x in a..t, f x) * ∫ x in t..b, g x := by
  have hab : a ≤ b := ht.1.trans ht.2
  have s1 : uIcc a t ⊆ uIcc a b := by rw [uIcc_of_le ht.1, uIcc_of_le hab]; exact Icc_subset_Icc_right ht.2
  have s2 : uIcc t b ⊆ uIcc a b := by rw [uIcc_of_le ht.2, uIcc_of_le hab]; exact Icc_subset_Icc_left ht.1
  have f1 := hf.mono_set s1
  have f2 := hf.mono_set s2
  have g1 := hg.mono_set s1
  have g2 := hg.mono_set s2
  rw [← intervalIntegral.integral_mul_const, ← intervalIntegral.integral_const_mul]
  refine intervalIntegral.integral_mono_on_of_le_Ioo ht.2 (f2.mul_const _) (g2.const_mul _) fun y hy => ?_
  rw [← intervalIntegral.integral_const_mul, mul_comm, ← intervalIntegral.integral_const_mul]
  refine intervalIntegral.integral_mono_on_of_le_Ioo ht.1 (g1.const_mul _) (f1.const_mul _) fun x hx => ?_
  have := hc x ⟨hx.1, hx.2.trans_le ht.2⟩ y ⟨ht.1.trans_lt hy.1, hy.2⟩ (hx.2.trans hy.1).le
  linarith [mul_comm (f x) (g y)]

/-- Normalised shapes with an increasing ratio. -/
theorem movesUp_normalised {f g : ℝ → ℝ} {a b : ℝ} (h : a < b) (hf : IntervalIntegrable f volume a b)
    (hg : IntervalIntegrable g volume a b) (hf0 : ∀ x ∈ Ioo a b, 0 < f x) (hg0 : ∀ x ∈ Ioo a b, 0 < g x)
    (hc : ∀ x ∈ Ioo a b, ∀ y ∈ Ioo a b, x ≤ y → f y * g x ≤ f x * g y) {F G : ℝ → Except PyErr Fl} {c : ℝ} (hc0 : 0 ≤ c)
    (hF : ∀ x ∈ Ioo a b, F x = .ok (fin (c * normalised f a b x)))
    (hG : ∀ x ∈ Ioo a b, G x = .ok (fin (c * normalised g a b x))) : MovesUp F G a b := by
  have hIf := intervalIntegral.intervalIntegral_pos_of_pos_on hf hf0 h
  have hIg := intervalIntegral.intervalIntegral_pos_of_pos_on hg hg0 h
  have hn : ∀ (u : ℝ → ℝ) (x : ℝ), x ∈ Icc a b → normalised u a b x = u x / ∫ t in a..b, u t := by
    intro u x hx
    unfold normalised
    rw [if_pos ⟨hx.1, hx.2⟩]
  have hint : ∀ u : ℝ → ℝ, IntervalIntegrable u volume a b →
      IntervalIntegrable (fun x => c * normalised u a b x) volume a b := by
    intro u hu
    refine ((hu.div_const (∫ t in a..b, u t)).const_mul c).congr fun x hx => ?_
    rw [uIoc_of_le h.le] at hx
    simp only [hn u x ⟨hx.1.le, hx.2⟩]
  have htail : ∀ u : ℝ → ℝ, ∀ t ∈ Icc a b, ∫ x in t..b, c * normalised u a b x =
      c * ((∫ x in t..b, u x) / ∫ x in a..b, u x) := by
    intro u t ht
    rw [intervalIntegral.integral_const_mul, ← intervalIntegral.integral_div]
    congr 1
    refine intervalIntegral.integral_congr fun x hx => ?_
    rw [uIcc_of_le ht.2] at hx
    exact hn u x ⟨ht.1.trans hx.1, hx.2⟩
  refine ⟨fun x => c * normalised f a b x, fun x => c * normalised g a b x, fun x hx => ⟨hF x hx, hG x hx, ?_, ?_⟩, ?_,
    hint f hf, hint g hg, ?_⟩
  · simp only [hn f x (Ioo_subset_Icc_self hx)]
    exact mul_nonneg hc0 (div_nonneg (hf0 x hx).le hIf.le)
  · simp only [hn g x (Ioo_subset_Icc_self hx)]
    exact mul_nonneg hc0 (div_nonneg (hg0 x hx).le hIg.le)
  · intro x hx y hy hxy
    simp only [hn _ x (Ioo_subset_Icc_self hx), hn _ y (Ioo_subset_Icc_self hy)]
    rw [show ∀ p q : ℝ, c * (f y / p) * (c * (g x / q)) = f y * g x * (c * c / (p * q)) from fun p q => by ring,
      show ∀ p q : ℝ, c * (f x / p) * (c * (g y / q)) = f x * g y * (c * c / (p * q)) from fun p q => by ring]
    exact mul_le_mul_of_nonneg_right (hc x hx y hy hxy) (by positivity)
  · intro t ht
    rw [htail f t ht, htail g t ht]
    refine mul_le_mul_of_nonneg_left ?_ hc0
    have s1 : uIcc a t ⊆ uIcc a b := by rw [uIcc_of_le ht.1, uIcc_of_le h.le]; exact Icc_subset_Icc_right ht.2
    have s2 : uIcc t b ⊆ uIcc a b := by rw [uIcc_of_le ht.2, uIcc_of_le h.le]; exact Icc_subset_Icc_left ht.1
    have e1 := intervalIntegral.integral_add_adjacent_intervals (hf.mono_set s1) (hf.mono_set s2)
    have e2 := intervalIntegral.integral_add_adjacent_intervals (hg.mono_set s1) (hg.mono_set s2)
    have key := cross_integrals ht hf hg hc
    rw [div_le_div_iff₀ hIf hIg, ← e1, ← e2]
    nlinarith [key]

theorem rpow_cross {x y a a' : ℝ} (hx : 0 < x) (hxy : x ≤ y) (ha : a ≤ a') : y ^ a * x ^ a' ≤ x ^ a * y ^ a' := by
  have hy : 0 < y := hx.trans_le hxy
  have e : ∀ z : ℝ, 0 < z → z ^ a' = z ^ a * z ^ (a' - a) := by
    intro z hz
    rw [← Real.rpow_add hz]
    congr 1
    ring
  have h1 := Real.rpow_le_rpow hx.le hxy (sub_nonneg.2 ha)
  have h2 : 0 < x ^ a * y ^ a := mul_pos (Real.rpow_pos_of_pos hx _) (Real.rpow_pos_of_pos hy _)
  rw [e x hx, e y hy]
  nlinarith [mul_le_mul_of_nonneg_left h1 h2.le]

theorem mul_cross {a b c d a' b' c' d' : ℝ} (h1 : a * b ≤ c * d) (h2 : a' * b' ≤ c' * d') (h3 : 0 ≤ a' * b')
    (h4 : 0 ≤ c * d) : a * a' * (b * b') ≤ c * c' * (d * d') := by
  have := mul_le_mul h1 h2 h3 h4
  calc a * a' * (b * b') = a * b * (a' * b') := by ring
    _ ≤ c * d * (c' * d') := this
    _ = c * c' * (d * d') := by ring

theorem broken_cross {a1 a2 a1' a2' mb x y : ℝ} (hb : 0 < mb) (hx : 0 < x) (hxy : x ≤ y) (h1 : a1' ≤ a1) (h2 : a2' ≤ a2) :
    brokenShape a1 a2 mb y * brokenShape a1' a2' mb x ≤ brokenShape a1 a2 mb x * brokenShape a1' a2' mb y := by
  have hu : 0 < x / mb := div_pos hx hb
  have huv : x / mb ≤ y / mb := div_le_div_of_nonneg_right hxy hb.le
  have hv : 0 < y / mb := hu.trans_le huv
  unfold brokenShape
  by_cases hy : y < mb
  · rw [if_pos hy, if_pos hy, if_pos (hxy.trans_lt hy), if_pos (hxy.trans_lt hy)]
    exact rpow_cross hu huv (neg_le_neg h1)
  · by_cases hx1 : x < mb
    · rw [if_neg hy, if_neg hy, if_pos hx1, if_pos hx1, mul_comm]
      have e1 : (x / mb) ^ (-a1') ≤ (x / mb) ^ (-a1) :=
        Real.rpow_le_rpow_of_exponent_ge hu ((div_le_one hb).2 hx1.le) (neg_le_neg h1)
      have e2 : (y / mb) ^ (-a2) ≤ (y / mb) ^ (-a2') :=
        Real.rpow_le_rpow_of_exponent_le ((one_le_div hb).2 (not_lt.1 hy)) (neg_le_neg h2)
      exact mul_le_mul e1 e2 (Real.rpow_nonneg hv.le _) (Real.rpow_nonneg hu.le _)
    · rw [if_neg hy, if_neg hy, if_neg hx1, if_neg hx1]
      exact rpow_cross hu huv (neg_le_neg h2)

end MoveUp

open MoveUp

/-! ## The property -/

/-- **C155.** A larger spectral index moves a power law to larger values. -/
theorem C155_powerlaw (b : Backend) (py : Bool) (k₁ k₂ k₃ k₄ : Bool) {a a' lo hi : ℝ} (h0 : 0 < lo) (h : lo < hi)
    (ha : a ≤ a') (h1 : b = .jax ∨ k₂ = false ∨ a ≠ 1) (h2 : b = .jax ∨ k₂ = false ∨ a' ≠ 1) :
    MovesUp (fun x => powerlaw b py ⟨fin x, k₁⟩ ⟨fin a, k₂⟩ ⟨fin hi, k₃⟩ ⟨fin lo, k₄⟩)
      (fun x => powerlaw b py ⟨fin x, k₁⟩ ⟨fin a', k₂⟩ ⟨fin hi, k₃⟩ ⟨fin lo, k₄⟩) lo hi :=
  movesUp_normalised (c := 1) h (rpow_intervalIntegrable h0 h.le) (rpow_intervalIntegrable h0 h.le)
    (fun x hx => Real.rpow_pos_of_pos (h0.trans hx.1) _) (fun x hx => Real.rpow_pos_of_pos (h0.trans hx.1) _)
    (fun x hx y _ hxy => rpow_cross (h0.trans hx.1) hxy ha) zero_le_one
    (fun x hx => by rw [one_mul]; exact C01_powerlaw_value b py k₁ k₂ k₃ k₄ h0 h (h0.trans hx.1) h1)
    (fun x hx => by rw [one_mul]; exact C01_powerlaw_value b py k₁ k₂ k₃ k₄ h0 h (h0.trans hx.1) h2)

/-- In the mass model the index has the opposite sign: a smaller `alpha` gives heavier black holes. -/
theorem C155_mass (b : Backend) (py : Bool) {a a' mmin mmax : ℝ} (h0 : 0 < mmin) (h : mmin < mmax) (ha : a' ≤ a)
    (h1 : b = .jax ∨ a ≠ -1) (h2 : b = .jax ∨ a' ≠ -1) :
    MovesUp (fun m => powerLawMass b py (fin m) (fin a) (fin mmin) (fin mmax))
      (fun m => powerLawMass b py (fin m) (fin a') (fin mmin) (fin mmax)) mmin mmax :=
  movesUp_normalised (c := 1) h (rpow_intervalIntegrable h0 h.le) (rpow_intervalIntegrable h0 h.le)
    (fun x hx => Real.rpow_pos_of_pos (h0.trans hx.1) _) (fun x hx => Real.rpow_pos_of_pos (h0.trans hx.1) _)
    (fun x hx y _ hxy => rpow_cross (h0.trans hx.1) hxy (neg_le_neg ha)) zero_le_one
    (fun x hx => by rw [one_mul]; exact C18_powerLawMass_value b py h1 h0 h (h0.trans hx.1))
    (fun x hx => by rw [one_mul]; exact C18_powerLawMass_value b py h2 h0 h (h0.trans hx.1))

/-- The same for both indices of the broken power law. -/
theorem C155_broken (b : Backend) (py : Bool) {a1 a2 a1' a2' mmin mmax bf : ℝ} (h0 : 0 < mmin) (h : mmin < mmax)
    (hbf0 : 0 < bf) (hbf1 : bf < 1) (h1 : a1' ≤ a1) (h2 : a2' ≤ a2) (e1 : b = .jax ∨ a1 ≠ -1) (e2 : b = .jax ∨ a2 ≠ -1)
    (e3 : b = .jax ∨ a1' ≠ -1) (e4 : b = .jax ∨ a2' ≠ -1) :
    MovesUp (fun m => doublePowerLawPrimaryMass b py (fin m) (fin a1) (fin a2) (fin mmin) (fin mmax) (fin bf))
      (fun m => doublePowerLawPrimaryMass b py (fin m) (fin a1') (fin a2') (fin mmin) (fin mmax) (fin bf)) mmin mmax := by
  have hb : 0 < mmin + bf * (mmax - mmin) := by
    have : 0 < bf * (mmax - mmin) := mul_pos hbf0 (by linarith)
    linarith
  exact movesUp_normalised (c := 1) h (brokenShape_intervalIntegrable _ _ hb h0 h.le)
    (brokenShape_intervalIntegrable _ _ hb h0 h.le) (fun x hx => brokenShape_pos _ _ hb (h0.trans hx.1))
    (fun x hx => brokenShape_pos _ _ hb (h0.trans hx.1))
    (fun x hx y _ hxy => broken_cross hb (h0.trans hx.1) hxy h1 h2) zero_le_one
    (fun x hx => by rw [one_mul]; exact C17_doublePowerLaw_value b py e1 e2 h0 h hbf0 hbf1 (h0.trans hx.1))
    (fun x hx => by rw [one_mul]; exact C17_doublePowerLaw_value b py e3 e4 h0 h hbf0 hbf1 (h0.trans hx.1))

/-- A larger `beta` gives more equal masses, at every primary mass: for models of primary mass and mass ratio. -/
theorem C155_massRatio {R R' : ℝ → ℝ → Except PyErr Fl} {P : ℝ → Except PyErr Fl} {beta beta' mmin : ℝ}
    (h0 : 0 < mmin) (hb : beta ≤ beta') (hR : IsMassRatioModel R P beta mmin) (hR' : IsMassRatioModel R' P beta' mmin)
    {m : ℝ} (hm : mmin < m) (hP : ∃ p : ℝ, 0 ≤ p ∧ P m = .ok (fin p)) : MovesUp (R m) (R' m) (mmin / m) 1 := by
  have hm0 : 0 < m := h0.trans hm
  have hq0 : 0 < mmin / m := div_pos h0 hm0
  have hq1 : mmin / m < 1 := (div_lt_one hm0).2 hm
  obtain ⟨p, hp0, hp⟩ := hP
  refine movesUp_normalised (c := p) hq1 (rpow_intervalIntegrable (a := beta) hq0 hq1.le)
    (rpow_intervalIntegrable (a := beta') hq0 hq1.le)
    (fun x hx => Real.rpow_pos_of_pos (hq0.trans hx.1) _) (fun x hx => Real.rpow_pos_of_pos (hq0.trans hx.1) _)
    (fun x hx y _ hxy => rpow_cross (hq0.trans hx.1) hxy hb) hp0 (fun q hq => ?_) (fun q hq => ?_)
  · obtain ⟨r, h1, h2⟩ := hR.factor m q hm0 hm.ne' (hq0.trans hq.1)
    rw [hp] at h1
    rw [h2, Fl.fin.inj (Except.ok.inj h1)]
  · obtain ⟨r, h1, h2⟩ := hR'.factor m q hm0 hm.ne' (hq0.trans hq.1)
    rw [hp] at h1
    rw [h2, Fl.fin.inj (Except.ok.inj h1)]

/-- A larger `mu` moves a truncated Gaussian to larger values. -/
theorem C155_truncnorm (b : Backend) (k₁ k₂ k₃ k₄ k₅ : Bool) {mu mu' sigma lo hi : ℝ} (hs : 0 < sigma) (h : lo < hi)
    (hmu : mu ≤ mu') :
    MovesUp (fun x => truncnorm b ⟨fin x, k₁⟩ ⟨fin mu, k₂⟩ ⟨fin sigma, k₃⟩ ⟨fin hi, k₄⟩ ⟨fin lo, k₅⟩)
      (fun x => truncnorm b ⟨fin x, k₁⟩ ⟨fin mu', k₂⟩ ⟨fin sigma, k₃⟩ ⟨fin hi, k₄⟩ ⟨fin lo, k₅⟩) lo hi := by
  have hcont : ∀ m : ℝ, Continuous fun t : ℝ => Real.exp (-(t - m) ^ 2 / (2 * sigma ^ 2)) := by
    intro m
    fun_prop
  refine movesUp_normalised (c := 1) h ((hcont mu).intervalIntegrable _ _) ((hcont mu').intervalIntegrable _ _)
    (fun x _ => Real.exp_pos _) (fun x _ => Real.exp_pos _) (fun x _ y _ hxy => ?_) zero_le_one
    (fun x _ => by rw [one_mul]; exact C03_truncnorm_value b k₁ k₂ k₃ k₄ k₅ x hs h)
    (fun x _ => by rw [one_mul]; exact C03_truncnorm_value b k₁ k₂ k₃ k₄ k₅ x hs h)
  rw [← Real.exp_add, ← Real.exp_add, Real.exp_le_exp, ← add_div, ← add_div]
  refine div_le_div_of_nonneg_right ?_ (by positivity)
  nlinarith [mul_nonneg (sub_nonneg.2 hxy) (sub_nonneg.2 hmu)]

/-- A larger `alpha` and a smaller `beta` move a Beta distribution to larger values. -/
theorem C155_beta (junk : Fl → Fl → Fl) (bk : Backend) (k₁ k₂ k₃ k₄ : Bool) {a b a' b' scale : ℝ} (ha : 0 < a)
    (hb : 0 < b') (hs : 0 < scale) (haa : a ≤ a') (hbb : b' ≤ b) :
    MovesUp (fun x => betaDist junk bk ⟨fin x, k₁⟩ ⟨fin a, k₂⟩ ⟨fin b, k₃⟩ ⟨fin scale, k₄⟩)
      (fun x => betaDist junk bk ⟨fin x, k₁⟩ ⟨fin a', k₂⟩ ⟨fin b', k₃⟩ ⟨fin scale, k₄⟩) 0 scale := by
  have ha' : 0 < a' := ha.trans_le haa
  have hb' : 0 < b := hb.trans_le hbb
  refine movesUp_normalised (c := 1) hs (betaShape_intervalIntegrable ha hb' hs) (betaShape_intervalIntegrable ha' hb hs)
    (fun x hx => ?_) (fun x hx => ?_) (fun x hx y hy hxy => ?_) zero_le_one
    (fun x hx => by rw [one_mul]; exact C05_betaDist_value junk bk k₁ k₂ k₃ k₄ ha hb' hx.1 hx.2)
    (fun x hx => by rw [one_mul]; exact C05_betaDist_value junk bk k₁ k₂ k₃ k₄ ha' hb hx.1 hx.2)
  · exact mul_pos (Real.rpow_pos_of_pos hx.1 _) (Real.rpow_pos_of_pos (sub_pos.2 hx.2) _)
  · exact mul_pos (Real.rpow_pos_of_pos hx.1 _) (Real.rpow_pos_of_pos (sub_pos.2 hx.2) _)
  · have hsx : 0 < scale - x := sub_pos.2 hx.2
    have hsy : 0 < scale - y := sub_pos.2 hy.2
    have h1 := rpow_cross hx.1 hxy (sub_le_sub_right haa 1)
    have h2 := rpow_cross (x := scale - y) (y := scale - x) hsy (by linarith) (sub_le_sub_right hbb 1)
    refine mul_cross h1 ?_ (mul_nonneg (Real.rpow_nonneg hsy.le _) (Real.rpow_nonneg hsx.le _))
      (mul_nonneg (Real.rpow_nonneg hx.1.le _) (Real.rpow_nonneg hy.1.le _))
    linarith [mul_comm ((scale - y) ^ (b - 1)) ((scale - x) ^ (b' - 1)),
      mul_comm ((scale - x) ^ (b - 1)) ((scale - y) ^ (b' - 1))]

/-- Redshift models: if the ratio of the rates increases with redshift, sources move to larger redshifts. -/
theorem C155_redshift {s : Redshift} {φ φ' : Dict Fl} {psi psi' v : ℝ → ℝ} (h : RateAt s φ psi v)
    (h' : RateAt s φ' psi' v) (hz : 1e-6 < s.zMax)
    (hc : ∀ z z', 0 ≤ z → z ≤ z' → psi z' * psi' z ≤ psi z * psi' z') :
    MovesAway (fun z => s.probability [("redshift", fin z)] φ) (fun z => s.probability [("redshift", fin z)] φ') s.zMax := by
  obtain ⟨N, hN, hp, hpos, -⟩ := C31_probability h hz
  obtain ⟨N', hN', hp', hpos', -⟩ := C31_probability h' hz
  have hv0 : ∀ z, 0 ≤ z → 0 ≤ v z := by
    intro z hz0
    rcases hz0.eq_or_lt with rfl | hlt
    · exact h.v_zero
    · exact (h.v_pos z hlt).le
  have hcross : ∀ z ∈ Icc 0 s.zMax, ∀ z' ∈ Icc 0 s.zMax, z ≤ z' →
      volumeElement psi v z' / N * (volumeElement psi' v z / N') ≤
        volumeElement psi v z / N * (volumeElement psi' v z' / N') := by
    intro z h1 z' h2 hzz
    unfold volumeElement
    have hk : 0 ≤ (4 * Real.pi * v z) * (4 * Real.pi * v z') * ((1 + z)⁻¹ * (1 + z')⁻¹ * (N⁻¹ * N'⁻¹)) := by
      have := hv0 z h1.1
      have := hv0 z' h2.1
      have := h1.1
      have := h2.1
      positivity
    have := mul_le_mul_of_nonneg_right (hc z z' h1.1 hzz) hk
    calc _ = psi z' * psi' z * ((4 * Real.pi * v z) * (4 * Real.pi * v z') * ((1 + z)⁻¹ * (1 + z')⁻¹ * (N⁻¹ * N'⁻¹))) := by ring
      _ ≤ _ := this
      _ = _ := by ring
  refine ⟨fun z => volumeElement psi v z / N, fun z => volumeElement psi' v z / N', fun z hz1 => ⟨?_, ?_, hpos z hz1.1,
    hpos' z hz1.1⟩, hcross, fun z h1 z' h2 hzz hlt => ?_⟩
  · simp only [hp [("redshift", fin z)] z hz1.1 (by simp [Dict.get?_cons]), if_pos hz1.2]
  · simp only [hp' [("redshift", fin z)] z hz1.1 (by simp [Dict.get?_cons]), if_pos hz1.2]
  · by_contra hn
    have hn := not_le.1 hn
    have h3 := hcross z h1 z' h2 hzz
    have p1 := hpos z h1.1
    have p2 := hpos' z' h2.1
    simp only at hlt hn
    nlinarith [mul_pos (p2.trans_lt hn) (sub_pos.2 hlt), mul_nonneg p1 (sub_nonneg.2 hn.le)]

/-- A larger `lamb` moves the sources of the power-law model to larger redshifts. -/
theorem C155_lamb {available : Dict CosmoEntry} {zMax : ℝ} {name : String} {c : Cosmology} {s : Redshift}
    (hs : Redshift.powerLaw available zMax name = .ok s) (hc : available.get? name = some (.fixed c)) {v : ℝ → ℝ}
    (hv : ∀ z, 0 ≤ z → c.diffComovingVolume (fin z) = fin (v z)) (v_pos : ∀ z, 0 < z → 0 < v z) (v_zero : 0 ≤ v 0)
    (hz : 1e-6 < zMax) {l l' : ℝ} (hl : l ≤ l') :
    MovesAway (fun z => s.probability [("redshift", fin z)] [("lamb", fin l)])
      (fun z => s.probability [("redshift", fin z)] [("lamb", fin l')]) zMax := by
  obtain ⟨h1, e⟩ := rateAt_powerLaw hs hc hv v_pos v_zero l
  obtain ⟨h2, -⟩ := rateAt_powerLaw hs hc hv v_pos v_zero l'
  rw [← e] at hz ⊢
  exact C155_redshift h1 h2 hz fun z z' hz0 hzz => rpow_cross (by linarith) (by linarith) hl

/-- In the Madau-Dickinson model a larger `gamma` and, for a positive `kappa`, a larger `z_peak` do so. -/
theorem C155_madau {available : Dict CosmoEntry} {py : Bool} {zMax : ℝ} {name : String} {c : Cosmology} {s : Redshift}
    (hs : Redshift.madauDickinson available py zMax name = .ok s) (hc : available.get? name = some (.fixed c)) {v : ℝ → ℝ}
    (hv : ∀ z, 0 ≤ z → c.diffComovingVolume (fin z) = fin (v z)) (v_pos : ∀ z, 0 < z → 0 < v z) (v_zero : 0 ≤ v 0)
    (hz : 1e-6 < zMax) {g g' k zp zp' : ℝ} (hg : g ≤ g') (hk : 0 ≤ k) (hzp : -1 < zp) (hzz : zp ≤ zp') :
    MovesAway (fun z => s.probability [("redshift", fin z)] [("gamma", fin g), ("kappa", fin k), ("z_peak", fin zp)])
      (fun z => s.probability [("redshift", fin z)] [("gamma", fin g'), ("kappa", fin k), ("z_peak", fin zp')]) zMax := by
  obtain ⟨h1, e⟩ := rateAt_madauDickinson hs hc hv v_pos v_zero g k hzp
  obtain ⟨h2, -⟩ := rateAt_madauDickinson hs hc hv v_pos v_zero g' k (hzp.trans_le hzz)
  rw [← e] at hz ⊢
  refine C155_redshift h1 h2 hz fun z z' hz0 hz1 => ?_
  have p1 : 0 < 1 + zp := by linarith
  have p2 : 0 < 1 + zp' := by linarith
  have p3 : 0 < 1 + z := by linarith
  have p4 : 0 < 1 + z' := by linarith
  have key := rpow_cross p3 (by linarith : 1 + z ≤ 1 + z') hg
  have hX := Real.rpow_le_rpow p3.le (by linarith : 1 + z ≤ 1 + z') hk
  have hA := Real.rpow_le_rpow p1.le (by linarith : 1 + zp ≤ 1 + zp') hk
  have x0 := Real.rpow_pos_of_pos p3 k
  have a0 := Real.rpow_pos_of_pos p1 k
  have b0 := Real.rpow_pos_of_pos p2 k
  unfold madauDickinson
  simp only [Real.div_rpow p3.le p1.le, Real.div_rpow p3.le p2.le, Real.div_rpow p4.le p1.le, Real.div_rpow p4.le p2.le]
  have c1 : 0 < ((1 + 0) ^ g / (1 + ((1 + 0) / (1 + zp)) ^ k) : ℝ) := by positivity
  have c2 : 0 < ((1 + 0) ^ g' / (1 + ((1 + 0) / (1 + zp')) ^ k) : ℝ) := by positivity
  generalize ((1 + 0) ^ g / (1 + ((1 + 0) / (1 + zp)) ^ k) : ℝ) = C at c1 ⊢
  generalize ((1 + 0) ^ g' / (1 + ((1 + 0) / (1 + zp')) ^ k) : ℝ) = C' at c2 ⊢
  have n1 : 0 ≤ (1 + z') ^ g * (1 + z) ^ g' := by positivity
  generalize (1 + z) ^ k = X at *
  generalize (1 + z') ^ k = Y at *
  generalize (1 + zp) ^ k = A at *
  generalize (1 + zp') ^ k = B at *
  have y0 : 0 < Y := x0.trans_le hX
  have hden : (1 + X / A) * (1 + Y / B) ≤ (1 + Y / A) * (1 + X / B) := by
    have h3 : 0 ≤ (A⁻¹ - B⁻¹) * (Y - X) :=
      mul_nonneg (sub_nonneg.2 (inv_anti₀ a0 hA)) (sub_nonneg.2 hX)
    simp only [div_eq_mul_inv]
    nlinarith [h3]
  have hfrac := div_le_div₀ (n1.trans key) key (by positivity : 0 < (1 + X / A) * (1 + Y / B)) hden
  have := mul_le_mul_of_nonneg_right hfrac (by positivity : 0 ≤ C⁻¹ * C'⁻¹)
  calc _ = (1 + z') ^ g * (1 + z) ^ g' / ((1 + Y / A) * (1 + X / B)) * (C⁻¹ * C'⁻¹) := by
        field_simp
    _ ≤ _ := this
    _ = _ := by field_simp

/-- Non-vacuity of C155: mass model, mass ratio and spin magnitude. -/
example : MovesUp (fun m => powerLawMass .numpy true (fin m) (fin 3.5) (fin 5) (fin 80))
    (fun m => powerLawMass .numpy true (fin m) (fin 2) (fin 5) (fin 80)) 5 80 :=
  C155_mass .numpy true (by norm_num) (by norm_num) (by norm_num) (by norm_num) (by norm_num)

example : MovesUp (fun q => powerLawPrimaryMassRatio .numpy true (fin 20) (fin q) (fin 2) (fin 1) (fin 5) (fin 80))
    (fun q => powerLawPrimaryMassRatio .numpy true (fin 20) (fin q) (fin 2) (fin 4) (fin 5) (fin 80)) (5 / 20) 1 :=
  C155_massRatio (by norm_num) (by norm_num)
    (C19_powerLawPrimaryMassRatio .numpy true (a := 2) (beta := 1) (mmax := 80) (Or.inr (by norm_num)) (by norm_num)
      (by norm_num))
    (C19_powerLawPrimaryMassRatio .numpy true (a := 2) (beta := 4) (mmax := 80) (Or.inr (by norm_num)) (by norm_num)
      (by norm_num)) (by norm_num)
    ⟨_, normalised_nonneg (by norm_num) (fun x hx => Real.rpow_nonneg (by linarith [hx.1]) _) _,
      C18_powerLawMass_value .numpy true (Or.inr (by norm_num)) (by norm_num) (by norm_num) (by norm_num)⟩

example : MovesUp (fun x => betaDist (fun _ _ => nan) .numpy (pos (fin x)) (pos (fin 2)) (pos (fin 5)) (pos (fin 1)))
    (fun x => betaDist (fun _ _ => nan) .numpy (pos (fin x)) (pos (fin 3)) (pos (fin 4)) (pos (fin 1))) 0 1 :=
  C155_beta _ .numpy false false false false (by norm_num) (by norm_num) one_pos (by norm_num) (by norm_num)

/-- Non-vacuity of the statements on redshift models. -/
example : ∃ s, Redshift.powerLaw [("Planck15", .fixed toyCosmology)] 2.3 "Planck15" = .ok s ∧
    MovesAway (fun z => s.probability [("redshift", fin z)] [("lamb", fin 0)])
      (fun z => s.probability [("redshift", fin z)] [("lamb", fin 2.7)]) 2.3 := by
  have hg : Dict.get? [("Planck15", CosmoEntry.fixed toyCosmology)] "Planck15" = some (.fixed toyCosmology) := by
    simp [Dict.get?_cons]
  have hs : ∃ s, Redshift.powerLaw [("Planck15", .fixed toyCosmology)] 2.3 "Planck15" = .ok s := ⟨_, rfl⟩
  obtain ⟨s, hs⟩ := hs
  exact ⟨s, hs, C155_lamb hs hg (v := fun z => z * z) (fun z _ => by simp [toyCosmology]) (fun z hz => by positivity)
    (by norm_num) (by norm_num) (by norm_num)⟩

end GW
