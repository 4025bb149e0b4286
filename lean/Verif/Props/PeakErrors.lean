import Mathlib.Analysis.SpecialFunctions.Complex.Analytic
import Mathlib.Analysis.SpecialFunctions.Pow.Asymptotics
import Verif.Props.SeveralErrors

/-!
# C162: the parameters of the power law with a Gaussian peak are determined by the population and found from noisy data
-/

noncomputable section

open MeasureTheory ProbabilityTheory Filter Topology Set

namespace GW

open Fl Spec TruePopulation Posterior GaussianErrors

/-! ## Lemmas -/

namespace Peak

open Identifiable

theorem decay (a mu : ℝ) {s : ℝ} (hs : 0 < s) : Tendsto (fun x : ℝ => x ^ a * bell mu s x) atTop (𝓝 0) := by
  have h1 := tendsto_rpow_mul_exp_neg_mul_atTop_nhds_zero a 1 one_pos
  refine squeeze_zero' ?_ ?_ h1
  · filter_upwards [eventually_gt_atTop 0] with x hx
    exact mul_nonneg (Real.rpow_nonneg hx.le _) (Real.exp_pos _).le
  · filter_upwards [eventually_ge_atTop (2 * |mu| + 8 * s ^ 2), eventually_gt_atTop 0] with x hx hx0
    refine mul_le_mul_of_nonneg_left (Real.exp_le_exp.2 ?_) (Real.rpow_nonneg hx0.le _)
    have hmu := le_abs_self mu
    have hmu0 := abs_nonneg mu
    have hs2 : 0 < s ^ 2 := by positivity
    have h2 : x / 2 ≤ x - mu := by linarith
    have h3 : (x / 2) ^ 2 ≤ (x - mu) ^ 2 := pow_le_pow_left₀ (by positivity) h2 2
    have h4 : 8 * s ^ 2 * x ≤ x * x := mul_le_mul_of_nonneg_right (by linarith) hx0.le
    rw [div_le_iff₀ (by positivity)]
    nlinarith

/-- A sum of a power law and a Gaussian is analytic. -/
theorem analytic (A B a mu s : ℝ) : AnalyticOnNhd ℝ (fun x : ℝ => A * Real.exp (Real.log x * -a) + B * bell mu s x) (Ioi 0) := by
  intro x hx
  have h1 : AnalyticAt ℝ Real.log x := analyticAt_log hx
  have h2 : AnalyticAt ℝ (fun x : ℝ => Real.exp (Real.log x * -a)) x := by fun_prop
  have h3 : AnalyticAt ℝ (bell mu s) x := by
    show AnalyticAt ℝ (fun t : ℝ => Real.exp (-(t - mu) ^ 2 / (2 * s ^ 2))) x
    simp only [div_eq_mul_inv]
    fun_prop
  fun_prop

/-- Two such sums that agree on an interval agree on all positive numbers. -/
theorem extend {A B a mu s A' B' a' mu' s' l r : ℝ} (hl : 0 ≤ l) (hlr : l < r)
    (he : ∀ x ∈ Ioo l r, A * x ^ (-a) + B * bell mu s x = A' * x ^ (-a') + B' * bell mu' s' x) {x : ℝ} (hx : 0 < x) :
    A * x ^ (-a) + B * bell mu s x = A' * x ^ (-a') + B' * bell mu' s' x := by
  obtain ⟨m, hm1, hm2⟩ := exists_between hlr
  have hm0 : 0 < m := hl.trans_lt hm1
  have := (analytic A B a mu s).eqOn_of_preconnected_of_eventuallyEq (analytic A' B' a' mu' s')
    (convex_Ioi (0 : ℝ)).isPreconnected (z₀ := m) hm0 (by
      filter_upwards [Ioo_mem_nhds hm1 hm2, lt_mem_nhds hm0] with y hy hy0
      have := he y hy
      rwa [Real.rpow_def_of_pos hy0, Real.rpow_def_of_pos hy0] at this) hx
  rw [Real.rpow_def_of_pos hx, Real.rpow_def_of_pos hx]
  exact this

theorem scaled {A B a mu s x : ℝ} (c : ℝ) (hx : 0 < x) :
    x ^ c * (A * x ^ (-a) + B * bell mu s x) = A * x ^ (c - a) + B * (x ^ c * bell mu s x) := by
  rw [show c - a = c + -a by ring, Real.rpow_add hx]
  ring

theorem index_le {A B a mu s A' B' a' mu' s' : ℝ} (hA' : 0 < A') (hs : 0 < s) (hs' : 0 < s')
    (he : ∀ x, 0 < x → A * x ^ (-a) + B * bell mu s x = A' * x ^ (-a') + B' * bell mu' s' x) : a ≤ a' := by
  by_contra hn
  have hn := not_le.1 hn
  have L : Tendsto (fun x : ℝ => A * x ^ (a' - a) + B * (x ^ a' * bell mu s x)) atTop (𝓝 (A * 0 + B * 0)) := by
    refine Tendsto.add (Tendsto.const_mul _ ?_) ((decay a' mu hs).const_mul B)
    have := tendsto_rpow_neg_atTop (sub_pos.2 hn)
    rwa [neg_sub] at this
  have R : Tendsto (fun x : ℝ => A' + B' * (x ^ a' * bell mu' s' x)) atTop (𝓝 (A' + B' * 0)) :=
    tendsto_const_nhds.add ((decay a' mu' hs').const_mul B')
  have : A * 0 + B * 0 = A' + B' * 0 := by
    refine tendsto_nhds_unique (L.congr' ?_) R
    filter_upwards [eventually_gt_atTop 0] with x hx
    rw [← scaled a' hx, he x hx, scaled a' hx, sub_self, Real.rpow_zero, mul_one]
  linarith

/-- The bells. -/
theorem bells {B mu s B' mu' s' : ℝ} (hB : 0 < B) (hB' : 0 < B') (hs : 0 < s) (hs' : 0 < s')
    (he : ∀ x, 0 < x → B * bell mu s x = B' * bell mu' s' x) : mu = mu' ∧ s = s' ∧ B = B' := by
  have hl : ∀ x, 0 < x → Real.log B - (x - mu) ^ 2 * (2 * s ^ 2)⁻¹ = Real.log B' - (x - mu') ^ 2 * (2 * s' ^ 2)⁻¹ := by
    intro x hx
    have := congrArg Real.log (he x hx)
    unfold bell at this
    rw [Real.log_mul hB.ne' (Real.exp_pos _).ne', Real.log_exp, Real.log_mul hB'.ne' (Real.exp_pos _).ne',
      Real.log_exp] at this
    rw [div_eq_mul_inv, div_eq_mul_inv] at this
    linarith
  have p1 := hl 1 (by norm_num)
  have p2 := hl 2 (by norm_num)
  have p3 := hl 3 (by norm_num)
  set u := (2 * s ^ 2)⁻¹ with hu
  set w := (2 * s' ^ 2)⁻¹ with hw
  have hu0 : 0 < u := by positivity
  have huw : u = w := by linarith [p1, p2, p3]
  have hmu : mu = mu' := by
    rw [← huw] at p1 p2 p3
    have : u * (mu - mu') = 0 := by linarith [p1, p3]
    rcases mul_eq_zero.1 this with h | h <;> linarith
  have hss : s ^ 2 = s' ^ 2 := by
    have := inv_injective huw
    linarith
  have hs2 : s = s' := (pow_left_inj₀ hs.le hs'.le two_ne_zero).1 hss
  refine ⟨hmu, hs2, ?_⟩
  have := he 1 one_pos
  rw [hmu, hs2] at this
  exact mul_right_cancel₀ (Real.exp_pos _).ne' this

/-- A power law with a Gaussian on an interval determines index, mean, width and both coefficients. -/
theorem mixture {A B a mu s A' B' a' mu' s' l r : ℝ} (hA : 0 < A) (hB : 0 < B) (hA' : 0 < A') (hB' : 0 < B')
    (hs : 0 < s) (hs' : 0 < s') (hl : 0 ≤ l) (hlr : l < r)
    (he : ∀ x ∈ Ioo l r, A * x ^ (-a) + B * bell mu s x = A' * x ^ (-a') + B' * bell mu' s' x) :
    a = a' ∧ A = A' ∧ mu = mu' ∧ s = s' ∧ B = B' := by
  have all : ∀ x, 0 < x → A * x ^ (-a) + B * bell mu s x = A' * x ^ (-a') + B' * bell mu' s' x := fun x hx =>
    extend hl hlr he hx
  have e1 : a = a' := le_antisymm (index_le hA' hs hs' all) (index_le hA hs' hs fun x hx => (all x hx).symm)
  subst e1
  have e2 : A = A' := by
    have L : ∀ (A B mu : ℝ) {s : ℝ}, 0 < s → Tendsto (fun x : ℝ => A + B * (x ^ a * bell mu s x)) atTop (𝓝 (A + B * 0)) :=
      fun A B mu s hs => tendsto_const_nhds.add ((decay a mu hs).const_mul B)
    have := tendsto_nhds_unique ((L A B mu hs).congr' ?_) (L A' B' mu' hs')
    · linarith
    · filter_upwards [eventually_gt_atTop 0] with x hx
      have h1 := congrArg (x ^ a * ·) (all x hx)
      simp only [scaled a hx, sub_self, Real.rpow_zero, mul_one] at h1
      exact h1
  subst e2
  obtain ⟨e3, e4, e5⟩ := bells hB hB' hs hs' fun x hx => by linarith [all x hx]
  exact ⟨rfl, rfl, e3, e4, e5⟩

/-- No power law is a Gaussian. -/
theorem not_bell {A B a mu s l r : ℝ} (hA : 0 < A) (hs : 0 < s) (hl : 0 ≤ l) (hlr : l < r)
    (he : ∀ x ∈ Ioo l r, A * x ^ (-a) = B * bell mu s x) : False := by
  have all : ∀ x, 0 < x → A * x ^ (-a) + 0 * bell mu s x = 0 * x ^ (-a) + B * bell mu s x := fun x hx =>
    extend hl hlr (fun x hx => by rw [zero_mul, zero_mul, add_zero, zero_add]; exact he x hx) hx
  have R : Tendsto (fun x : ℝ => B * (x ^ a * bell mu s x)) atTop (𝓝 (B * 0)) := (decay a mu hs).const_mul B
  have L : Tendsto (fun _ : ℝ => A) atTop (𝓝 A) := tendsto_const_nhds
  have := tendsto_nhds_unique (R.congr' ?_) L
  · linarith
  · filter_upwards [eventually_gt_atTop 0] with x hx
    have h1 := congrArg (x ^ a * ·) (all x hx)
    simp only [scaled a hx, sub_self, Real.rpow_zero, mul_one] at h1
    linarith

/-! ### The mixture -/

/-- The density of the power law with a Gaussian peak. -/
def val (a lo hi lam mu s g x : ℝ) : ℝ :=
  (1 - lam) * Spec.normalised (fun t => t ^ (-a)) lo hi x + lam * Spec.normalised (bell mu s) lo g x

variable {a lo hi lam mu s g a' lo' hi' lam' mu' s' g' : ℝ}

theorem val_pos (h0 : 0 < lo) (h : lo < hi) (hg : lo < g) (l0 : 0 < lam) (l1 : lam < 1) {x : ℝ} (h1 : lo < x)
    (h2 : x < hi) (h3 : x < g) : 0 < val a lo hi lam mu s g x :=
  add_pos (mul_pos (by linarith) (normalised_pos (shape_rpow h0 h) ⟨h1, h2⟩))
    (mul_pos l0 (normalised_pos (shape_gauss hg) ⟨h1, h3⟩))

theorem val_below {x : ℝ} (hx : x < lo) : val a lo hi lam mu s g x = 0 := by
  unfold val
  rw [normalised_out (Or.inl hx), normalised_out (Or.inl hx), mul_zero, mul_zero, add_zero]

theorem peak_lo (h0 : 0 < lo) (h : lo < hi) (hg : lo < g) (l0 : 0 < lam) (l1 : lam < 1)
    (hae : ∀ᵐ x : ℝ, 0 < x → val a lo hi lam mu s g x = val a' lo' hi' lam' mu' s' g' x) : lo' ≤ lo := by
  by_contra hn
  have hn := not_le.1 hn
  obtain ⟨x, hx, hp⟩ := exists_point hae (lt_min hn (lt_min h hg))
  have h1 := hx.2.trans_le (min_le_left _ _)
  have h2 := hx.2.trans_le ((min_le_right _ _).trans (min_le_left _ _))
  have h3 := hx.2.trans_le ((min_le_right _ _).trans (min_le_right _ _))
  have e := hp (h0.trans hx.1)
  rw [val_below h1] at e
  exact (val_pos h0 h hg l0 l1 hx.1 h2 h3).ne' e

/-- The density with its coefficients. -/
theorem val_eq {x : ℝ} (hx : lo < x) : val a lo hi lam mu s g x =
    (if x ≤ hi then (1 - lam) / (∫ t in lo..hi, t ^ (-a)) * x ^ (-a) else 0) +
      if x ≤ g then lam / (∫ t in lo..g, bell mu s t) * bell mu s x else 0 := by
  unfold val Spec.normalised
  have e : ∀ y : ℝ, (lo ≤ x ∧ x ≤ y) = (x ≤ y) := fun y => propext ⟨fun h => h.2, fun h => ⟨hx.le, h⟩⟩
  simp only [e]
  split_ifs <;> ring

theorem bell_continuous (mu s : ℝ) : Continuous (bell mu s) := gaussShape_continuous mu s

theorem rpow_continuousOn (A a : ℝ) {l r : ℝ} (hl : 0 ≤ l) : ContinuousOn (fun x : ℝ => A * x ^ (-a)) (Ioo l r) :=
  fun t ht => (continuousAt_const.mul (Real.continuousAt_rpow_const t _ (Or.inl (hl.trans_lt ht.1).ne'))).continuousWithinAt

theorem peak_hi {A B : ℝ} (h0 : 0 < lo) (hlo' : lo < hi') (hA : 0 < A) (hB : 0 < B) (hs : 0 < s)
    (hae : ∀ᵐ x : ℝ, lo < x → ((if x ≤ hi then A * x ^ (-a) else 0) + if x ≤ g then B * bell mu s x else 0) =
      (if x ≤ hi' then A * x ^ (-a) else 0) + if x ≤ g' then B * bell mu s x else 0) : hi ≤ hi' := by
  by_contra hn
  have hn := not_le.1 hn
  refine not_bell (B := B) (mu := mu) hA hs (h0.trans hlo').le hn (eq_of_ae (rpow_continuousOn A a (h0.trans hlo').le)
    ((bell_continuous mu s).const_smul B).continuousOn ?_)
  filter_upwards [hae] with x hx hxI
  have e := hx (hlo'.trans hxI.1)
  have p1 : 0 < A * x ^ (-a) := mul_pos hA (Real.rpow_pos_of_pos ((h0.trans hlo').trans hxI.1) _)
  have p2 : 0 < B * bell mu s x := mul_pos hB (Real.exp_pos _)
  rw [if_pos hxI.2.le, if_neg (not_le.2 hxI.1)] at e
  show A * x ^ (-a) = B * bell mu s x
  split_ifs at e <;> linarith

theorem peak_g {A B : ℝ} (hlo' : lo < g') (hB : 0 < B)
    (hae : ∀ᵐ x : ℝ, lo < x → ((if x ≤ hi then A * x ^ (-a) else 0) + if x ≤ g then B * bell mu s x else 0) =
      (if x ≤ hi then A * x ^ (-a) else 0) + if x ≤ g' then B * bell mu s x else 0) : g ≤ g' := by
  by_contra hn
  have hn := not_le.1 hn
  obtain ⟨x, hx, hp⟩ := exists_point hae hn
  have e := hp (hlo'.trans hx.1)
  have p2 : 0 < B * bell mu s x := mul_pos hB (Real.exp_pos _)
  rw [if_pos hx.2.le, if_neg (not_le.2 hx.1)] at e
  linarith

/-- All seven parameters. -/
theorem determined (h0 : 0 < lo) (h : lo < hi) (hg : lo < g) (l0 : 0 < lam) (l1 : lam < 1) (hs : 0 < s) (h0' : 0 < lo')
    (h' : lo' < hi') (hg' : lo' < g') (l0' : 0 < lam') (l1' : lam' < 1) (hs' : 0 < s')
    (hae : ∀ᵐ x : ℝ, 0 < x → val a lo hi lam mu s g x = val a' lo' hi' lam' mu' s' g' x) :
    a = a' ∧ lo = lo' ∧ hi = hi' ∧ lam = lam' ∧ mu = mu' ∧ s = s' ∧ g = g' := by
  have hae' := hae.mono fun x hx h => (hx h).symm
  have e1 : lo = lo' := le_antisymm (peak_lo h0' h' hg' l0' l1' hae') (peak_lo h0 h hg l0 l1 hae)
  subst e1
  have Zp : ∀ {a hi : ℝ}, lo < hi → 0 < ∫ t in lo..hi, t ^ (-a) := fun h => integral_rpow_pos h0 h
  have Zb : ∀ {mu s g : ℝ}, lo < g → 0 < ∫ t in lo..g, bell mu s t := fun h => integral_gaussShape_pos h
  obtain ⟨A, hA⟩ : ∃ A, A = (1 - lam) / ∫ t in lo..hi, t ^ (-a) := ⟨_, rfl⟩
  obtain ⟨B, hB⟩ : ∃ B, B = lam / ∫ t in lo..g, bell mu s t := ⟨_, rfl⟩
  obtain ⟨A', hA'⟩ : ∃ A, A = (1 - lam') / ∫ t in lo..hi', t ^ (-a') := ⟨_, rfl⟩
  obtain ⟨B', hB'⟩ : ∃ B, B = lam' / ∫ t in lo..g', bell mu' s' t := ⟨_, rfl⟩
  have pA : 0 < A := hA ▸ div_pos (by linarith) (Zp h)
  have pA' : 0 < A' := hA' ▸ div_pos (by linarith) (Zp h')
  have pB : 0 < B := hB ▸ div_pos l0 (Zb hg)
  have pB' : 0 < B' := hB' ▸ div_pos l0' (Zb hg')
  have key : ∀ᵐ x : ℝ, lo < x → ((if x ≤ hi then A * x ^ (-a) else 0) + if x ≤ g then B * bell mu s x else 0) =
      (if x ≤ hi' then A' * x ^ (-a') else 0) + if x ≤ g' then B' * bell mu' s' x else 0 := by
    filter_upwards [hae] with x hx hlx
    have := hx (h0.trans hlx)
    rwa [val_eq hlx, val_eq hlx, ← hA, ← hB, ← hA', ← hB'] at this
  have hr : lo < min (min hi g) (min hi' g') := lt_min (lt_min h hg) (lt_min h' hg')
  obtain ⟨e2, e3, e4, e5, e6⟩ := mixture pA pB pA' pB' hs hs' h0.le hr (eq_of_ae
    ((rpow_continuousOn A a h0.le).add ((bell_continuous mu s).const_smul B).continuousOn)
    ((rpow_continuousOn A' a' h0.le).add ((bell_continuous mu' s').const_smul B').continuousOn) (by
      filter_upwards [key] with x hx hxI
      have := hx hxI.1
      have k1 := hxI.2.le.trans (min_le_left _ _)
      have k2 := hxI.2.le.trans (min_le_right _ _)
      rwa [if_pos (k1.trans (min_le_left _ _)), if_pos (k1.trans (min_le_right _ _)),
        if_pos (k2.trans (min_le_left _ _)), if_pos (k2.trans (min_le_right _ _))] at this))
  subst e2 e4 e5
  rw [← e3, ← e6] at key
  have key' := key.mono fun x hx h => (hx h).symm
  have e7 : hi = hi' := le_antisymm (peak_hi h0 h' pA pB hs key) (peak_hi h0 h pA pB hs key')
  subst e7
  have e8 : g = g' := le_antisymm (peak_g hg' pB key) (peak_g hg pB key')
  subst e8
  refine ⟨rfl, rfl, rfl, ?_, rfl, rfl, rfl⟩
  rw [hB, hB'] at e6
  exact (div_left_inj' (Zb hg).ne').1 e6

end Peak

/-! ## The property -/

variable {v v₁ v₂ : NNReal} {Det : Set ℝ}

/-- **C162.** The population determines all seven parameters of the power law with a Gaussian peak, if both parts are
present. -/
theorem C162_determined (b : Backend) (py : Bool) {a lo hi lam mu s g a' lo' hi' lam' mu' s' g' : ℝ}
    (ha : b = .jax ∨ a ≠ -1) (ha' : b = .jax ∨ a' ≠ -1) (h0 : 0 < lo) (h : lo < hi) (hg : lo < g) (l0 : 0 < lam)
    (l1 : lam < 1) (hs : 0 < s) (h0' : 0 < lo') (h' : lo' < hi') (hg' : lo' < g') (l0' : 0 < lam') (l1' : lam' < 1)
    (hs' : 0 < s')
    (hsame : SamePopulation (Ioi 0)
      (fun m => twoComponentSingle b py (fin m) (fin a) (fin lo) (fin hi) (fin lam) (fin mu) (fin s) (fin g))
      (fun m => twoComponentSingle b py (fin m) (fin a') (fin lo') (fin hi') (fin lam') (fin mu') (fin s') (fin g'))) :
    a = a' ∧ lo = lo' ∧ hi = hi' ∧ lam = lam' ∧ mu = mu' ∧ s = s' ∧ g = g' := by
  refine Peak.determined h0 h hg l0 l1 hs h0' h' hg' l0' l1' hs' ?_
  filter_upwards [hsame] with x hx hx0
  have e := hx hx0
  rw [C18_twoComponentSingle_value b py ha h0 h hg hs hx0, C18_twoComponentSingle_value b py ha' h0' h' hg' hs' hx0] at e
  exact Fl.fin.inj (Except.ok.inj e)

/-- **C162.** Without the peak (`lam = 0`), its mean, width and upper end do not change the population. -/
theorem C162_no_peak (b : Backend) (py : Bool) {a lo hi mu s g mu' s' g' m : ℝ} (ha : b = .jax ∨ a ≠ -1) (h0 : 0 < lo)
    (h : lo < hi) (hs : 0 < s) (hs' : 0 < s') (hm : 0 < m) :
    twoComponentSingle b py (fin m) (fin a) (fin lo) (fin hi) (fin 0) (fin mu) (fin s) (fin g) =
      twoComponentSingle b py (fin m) (fin a) (fin lo) (fin hi) (fin 0) (fin mu') (fin s') (fin g') := by
  rw [twoComponentSingle_lam_zero b py _ _ hs ha h0 h hm, twoComponentSingle_lam_zero b py _ _ hs' ha h0 h hm]

/-- **C162.** Without the power law (`lam = 1`), its index and upper end do not change the population. -/
theorem C162_only_peak (b : Backend) (py : Bool) {a a' lo hi hi' mu s g m : ℝ} (ha : b = .jax ∨ a ≠ -1)
    (ha' : b = .jax ∨ a' ≠ -1) (h0 : 0 < lo) (h : lo < hi) (h' : lo < hi') (hg : lo < g) (hs : 0 < s) (hm : 0 < m) :
    twoComponentSingle b py (fin m) (fin a) (fin lo) (fin hi) (fin 1) (fin mu) (fin s) (fin g) =
      twoComponentSingle b py (fin m) (fin a') (fin lo) (fin hi') (fin 1) (fin mu) (fin s) (fin g) := by
  rw [C18_twoComponentSingle_value b py ha h0 h hg hs hm, C18_twoComponentSingle_value b py ha' h0 h' hg hs hm, sub_self,
    zero_mul, zero_mul]

/-- **C162.** All seven parameters are found from noisy masses of detected sources. -/
theorem C162_recovers {J : Type} [Fintype J] {p : J → ℝ → ℝ} {j₀ : J} (b : Backend) (py : Bool)
    {a lo hi lam mu s g : J → ℝ} (ha : ∀ j, b = .jax ∨ a j ≠ -1) (h0 : ∀ j, 0 < lo j) (h : ∀ j, lo j < hi j)
    (hg : ∀ j, lo j < g j) (l0 : ∀ j, 0 < lam j) (l1 : ∀ j, lam j < 1) (hs : ∀ j, 0 < s j)
    (hinj : ∀ j, j ≠ j₀ → (a j, lo j, hi j, lam j, mu j, s j, g j) ≠ (a j₀, lo j₀, hi j₀, lam j₀, mu j₀, s j₀, g j₀))
    (hp : ∀ j m, 0 < m → twoComponentSingle b py (fin m) (fin (a j)) (fin (lo j)) (fin (hi j)) (fin (lam j)) (fin (mu j))
      (fin (s j)) (fin (g j)) = .ok (fin (p j m)))
    (hm : ∀ j, Measurable (p j)) (hv : v ≠ 0) (hD : MeasurableSet Det) :
    Recovers (volume.restrict (Ioi 0)) volume (gaussianErrors v) Det p j₀ := by
  have dens := fun j => C18_twoComponentSingle_isDensity (mpp := mu j) b py (ha j) (h0 j) (h j) (hg j) (hs j) (l0 j).le
    (l1 j).le
  refine C159_recovers (K := allBelow fun j => max (hi j) (g j)) hv measurableSet_Ioi hD (fun j => (dens j).1) hp hm
    (fun j x hx hK => (dens j).2 x hx (Or.inr ?_)) fun j hj hs' => hinj j hj ?_
  · rw [abs_of_pos hx] at hK
    exact (le_allBelow (fun j => max (hi j) (g j)) j).trans_lt hK
  · obtain ⟨e1, e2, e3, e4, e5, e6, e7⟩ := C162_determined b py (ha j) (ha j₀) (h0 j) (h j) (hg j) (l0 j) (l1 j) (hs j)
      (h0 j₀) (h j₀) (hg j₀) (l0 j₀) (l1 j₀) (hs j₀) (samePopulation_symm hs')
    rw [e1, e2, e3, e4, e5, e6, e7]

/-- **C162.** All eight parameters of the joint model of primary mass and mass ratio are found from noisy primary masses
and mass ratios of detected sources. -/
theorem C162_joint {J : Type} [Fintype J] {p : J → ℝ × ℝ → ℝ} {j₀ : J} (b : Backend) (py : Bool) {Det : Set (ℝ × ℝ)}
    {a beta lo hi lam mu s g : J → ℝ} {M : ℝ} (ha : ∀ j, b = .jax ∨ a j ≠ -1) (h0 : ∀ j, 0 < lo j)
    (h : ∀ j, lo j < hi j) (hg : ∀ j, lo j < g j) (l0 : ∀ j, 0 < lam j) (l1 : ∀ j, lam j < 1) (hs : ∀ j, 0 < s j)
    (hM : ∀ j, hi j ≤ M) (hMg : ∀ j, g j ≤ M)
    (hinj : ∀ j, j ≠ j₀ → (a j, beta j, lo j, hi j, lam j, mu j, s j, g j) ≠
      (a j₀, beta j₀, lo j₀, hi j₀, lam j₀, mu j₀, s j₀, g j₀))
    (hp : ∀ j m q, 0 < m → m ≠ lo j → 0 < q → twoComponentPrimaryMassRatio b py (fin m) (fin q) (fin (a j))
      (fin (beta j)) (fin (lo j)) (fin (hi j)) (fin (lam j)) (fin (mu j)) (fin (s j)) (fin (g j)) = .ok (fin (p j (m, q))))
    (hm : ∀ j, Measurable (p j)) (hv₁ : v₁ ≠ 0) (hv₂ : v₂ ≠ 0) (hD : MeasurableSet Det) :
    Recovers (volume.restrict (Ioc 0 M ×ˢ Ioc 0 1)) volume (gaussianErrors2 v₁ v₂) Det p j₀ := by
  have dens := fun j => C18_twoComponentSingle_isDensity (mpp := mu j) b py (ha j) (h0 j) (h j) (hg j) (hs j) (l0 j).le
    (l1 j).le
  refine C161_massRatio (fun j => C19_twoComponentPrimaryMassRatio (mpp := mu j) (beta := beta j) b py (ha j) (h0 j) (h j)
    (hg j) (hs j) (l0 j).le (l1 j).le) h0 (fun j => (dens j).1) (fun j m hm0 hout => (dens j).2 m hm0 ?_)
    (fun j hj hs' => hinj j hj ?_) hp hm hv₁ hv₂ hD
  · exact hout.imp_right fun h1 => (max_le (hM j) (hMg j)).trans_lt h1
  · obtain ⟨e1, e2, e3, e4, e5, e6, e7⟩ := C162_determined b py (ha j) (ha j₀) (h0 j) (h j) (hg j) (l0 j) (l1 j) (hs j)
      (h0 j₀) (h j₀) (hg j₀) (l0 j₀) (l1 j₀) (hs j₀) hs'.2
    rw [e1, e2, e3, e4, e5, e6, e7, hs'.1]

/-! ## Non-vacuity -/

/-- Candidates for the fraction in the peak and for its mean. -/
example (py : Bool) (hv : v ≠ 0) (hD : MeasurableSet Det) : ∃ p : Bool × Bool → ℝ → ℝ, (∀ j, Measurable (p j)) ∧
    (∀ j m, 0 < m → twoComponentSingle .numpy py (fin m) (fin 3.5) (fin 5) (fin 85) (fin (if j.1 then 0.04 else 0.1))
      (fin (if j.2 then 35 else 30)) (fin 4) (fin 100) = .ok (fin (p j m))) ∧
    Recovers (volume.restrict (Ioi 0)) volume (gaussianErrors v) Det p (true, true) := by
  obtain ⟨lam, hlam⟩ : ∃ a : Bool × Bool → ℝ, a = fun j => if j.1 then 0.04 else 0.1 := ⟨_, rfl⟩
  obtain ⟨mu, hmu⟩ : ∃ a : Bool × Bool → ℝ, a = fun j => if j.2 then 35 else 30 := ⟨_, rfl⟩
  have l0 : ∀ j, 0 < lam j := fun j => by rcases j with ⟨_ | _, _⟩ <;> norm_num [hlam]
  have l1 : ∀ j, lam j < 1 := fun j => by rcases j with ⟨_ | _, _⟩ <;> norm_num [hlam]
  have hm : ∀ j, Measurable (Peak.val 3.5 5 85 (lam j) (mu j) 4 100) := fun j => by
    unfold Peak.val Spec.normalised
    exact (measurable_const.mul (Measurable.ite measurableSet_Icc ((measurable_id.pow_const _).div_const _)
      measurable_const)).add (measurable_const.mul (Measurable.ite measurableSet_Icc
        ((gaussShape_continuous (mu j) 4).measurable.div_const _) measurable_const))
  have hval : ∀ j m, 0 < m → twoComponentSingle .numpy py (fin m) (fin 3.5) (fin 5) (fin 85) (fin (lam j))
      (fin (mu j)) (fin 4) (fin 100) = .ok (fin (Peak.val 3.5 5 85 (lam j) (mu j) 4 100 m)) := fun j m hm0 =>
    C18_twoComponentSingle_value .numpy py (Or.inr (by norm_num)) (by norm_num) (by norm_num) (by norm_num) (by norm_num) hm0
  refine ⟨_, hm, fun j m hm0 => by rw [← hval j m hm0, hlam, hmu], C162_recovers .numpy py (a := fun _ => 3.5)
    (lo := fun _ => 5) (hi := fun _ => 85) (s := fun _ => 4) (g := fun _ => 100) (fun _ => Or.inr (by norm_num))
    (fun _ => by norm_num) (fun _ => by norm_num) (fun _ => by norm_num) l0 l1 (fun _ => by norm_num) (fun j hj => ?_)
    hval hm hv hD⟩
  rcases j with ⟨_ | _, _ | _⟩
  · norm_num [hlam]
  · norm_num [hlam]
  · norm_num [hmu]
  · exact absurd rfl hj

/-- Candidates for the width of the peak and for the slope in mass ratio. -/
example (py : Bool) {Det : Set (ℝ × ℝ)} (hv₁ : v₁ ≠ 0) (hv₂ : v₂ ≠ 0) (hD : MeasurableSet Det) :
    ∃ p : Bool × Bool → ℝ × ℝ → ℝ, (∀ j, Measurable (p j)) ∧
    (∀ j m q, 0 < m → m ≠ 5 → 0 < q → twoComponentPrimaryMassRatio .numpy py (fin m) (fin q) (fin 3.5)
      (fin (if j.2 then 1 else 2)) (fin 5) (fin 85) (fin 0.04) (fin 35) (fin (if j.1 then 4 else 6)) (fin 100) =
        .ok (fin (p j (m, q)))) ∧
    Recovers (volume.restrict (Ioc 0 100 ×ˢ Ioc 0 1)) volume (gaussianErrors2 v₁ v₂) Det p (true, true) := by
  obtain ⟨s, hse⟩ : ∃ a : Bool × Bool → ℝ, a = fun j => if j.1 then 4 else 6 := ⟨_, rfl⟩
  obtain ⟨be, hbe⟩ : ∃ a : Bool × Bool → ℝ, a = fun j => if j.2 then 1 else 2 := ⟨_, rfl⟩
  have s0 : ∀ j, 0 < s j := fun j => by rcases j with ⟨_ | _, _⟩ <;> norm_num [hse]
  have b1 : ∀ j, -1 < be j := fun j => by rcases j with ⟨_, _ | _⟩ <;> norm_num [hbe]
  obtain ⟨p, hpe⟩ : ∃ p : Bool × Bool → ℝ × ℝ → ℝ, ∀ j z, p j z = Peak.val 3.5 5 85 0.04 35 (s j) 100 z.1 *
      (if 5 / z.1 ≤ z.2 ∧ z.2 ≤ 1 then z.2 ^ be j / ((1 - (5 / z.1) ^ (be j + 1)) / (be j + 1)) else 0) :=
    ⟨fun j z => _, fun j z => rfl⟩
  have hm : ∀ j, Measurable (p j) := fun j => by
    rw [show p j = _ from funext (hpe j)]
    have d : Measurable fun z : ℝ × ℝ => 5 / z.1 := measurable_const.div measurable_fst
    refine Measurable.mul ?_ (Measurable.ite ((measurableSet_le d measurable_snd).inter
      (measurableSet_le measurable_snd measurable_const)) ?_ measurable_const)
    · have : Measurable (Peak.val 3.5 5 85 0.04 35 (s j) 100) := by
        unfold Peak.val Spec.normalised
        exact (measurable_const.mul (Measurable.ite measurableSet_Icc ((measurable_id.pow_const _).div_const _)
          measurable_const)).add (measurable_const.mul (Measurable.ite measurableSet_Icc
            ((gaussShape_continuous 35 (s j)).measurable.div_const _) measurable_const))
      exact this.comp measurable_fst
    · exact (measurable_snd.pow_const _).div ((measurable_const.sub (d.pow_const _)).div_const _)
  have hval : ∀ j m q, 0 < m → m ≠ 5 → 0 < q → twoComponentPrimaryMassRatio .numpy py (fin m) (fin q) (fin 3.5)
      (fin (be j)) (fin 5) (fin 85) (fin 0.04) (fin 35) (fin (s j)) (fin 100) = .ok (fin (p j (m, q))) :=
    fun j m q hm0 hm5 hq => by
    obtain ⟨w, e1, e2⟩ := (C19_twoComponentPrimaryMassRatio .numpy py (a := 3.5) (beta := be j) (mpp := 35) (sigpp := s j)
      (Or.inr (by norm_num)) (by norm_num : (0 : ℝ) < 5) (by norm_num : (5 : ℝ) < 85) (by norm_num : (5 : ℝ) < 100) (s0 j)
      (by norm_num : (0 : ℝ) ≤ 0.04) (by norm_num)).factor m q hm0 hm5 hq
    have hw : w = Peak.val 3.5 5 85 0.04 35 (s j) 100 m := Fl.fin.inj (Except.ok.inj (e1.symm.trans
      (C18_twoComponentSingle_value .numpy py (Or.inr (by norm_num)) (by norm_num) (by norm_num) (by norm_num) (s0 j) hm0)))
    refine e2.trans ?_
    rw [hpe, hw]
    congr 3
    unfold Spec.normalised
    rw [integral_rpow (Or.inl (b1 j)), Real.one_rpow]
  refine ⟨p, hm, fun j m q hm0 hm5 hq => by rw [← hval j m q hm0 hm5 hq, hse, hbe], C162_joint .numpy py
    (a := fun _ => 3.5) (lo := fun _ => 5) (hi := fun _ => 85) (lam := fun _ => 0.04) (mu := fun _ => 35)
    (g := fun _ => 100) (fun j => Or.inr (by norm_num)) (fun _ => by norm_num) (fun _ => by norm_num)
    (fun _ => by norm_num) (fun _ => by norm_num) (fun _ => by norm_num) s0 (fun _ => by norm_num) (fun _ => le_rfl)
    (fun j hj => ?_) hval hm hv₁ hv₂ hD⟩
  rcases j with ⟨_ | _, _ | _⟩
  · norm_num [hse]
  · norm_num [hse]
  · norm_num [hbe]
  · exact absurd rfl hj

end GW
