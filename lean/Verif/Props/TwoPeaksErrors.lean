import Mathlib.Data.Prod.Lex
import Verif.Props.PeakErrors

/-!
# C165: the power law with two Gaussian peaks is determined by its population up to the names of the peaks
-/

noncomputable section

open MeasureTheory ProbabilityTheory Filter Topology Set

namespace GW

open Fl Spec TruePopulation Posterior GaussianErrors

namespace Spec

/-- The parameters of two peaks are the same, or the same with the names of the peaks exchanged. -/
def SamePeaks (lam1 mu1 s1 mu2 s2 lam1' mu1' s1' mu2' s2' : ℝ) : Prop :=
  (lam1 = lam1' ∧ mu1 = mu1' ∧ s1 = s1' ∧ mu2 = mu2' ∧ s2 = s2') ∨
    (lam1 = 1 - lam1' ∧ mu1 = mu2' ∧ s1 = s2' ∧ mu2 = mu1' ∧ s2 = s1')

end Spec

/-! ## Lemmas -/

namespace TwoPeaks

open Identifiable Peak

/-! ### Gaussians are linearly independent -/

theorem quadratic_atBot {al be ga : ℝ} (h : al < 0 ∨ al = 0 ∧ be < 0) :
    Tendsto (fun x : ℝ => al * x ^ 2 + be * x + ga) atTop atBot := by
  rcases h with h | ⟨h, h'⟩
  · have h1 : Tendsto (fun x : ℝ => al * x + be) atTop atBot :=
      tendsto_atBot_add_const_right _ _ (tendsto_id.const_mul_atTop_of_neg h)
    have h2 : Tendsto (fun x : ℝ => x * (al * x + be) + ga) atTop atBot :=
      tendsto_atBot_add_const_right _ _ (tendsto_id.atTop_mul_atBot₀ h1)
    exact h2.congr fun x => by ring
  · have h1 : Tendsto (fun x : ℝ => be * x + ga) atTop atBot :=
      tendsto_atBot_add_const_right _ _ (tendsto_id.const_mul_atTop_of_neg h')
    exact h1.congr fun x => by rw [h]; ring

/-- The wider of two Gaussians, or of two equally wide ones that with the larger mean, dominates for large arguments. -/
theorem ratio {mu s mu' s' : ℝ} (hs : 0 < s) (hs' : 0 < s') (h : s < s' ∨ s = s' ∧ mu < mu') :
    Tendsto (fun x => bell mu s x / bell mu' s' x) atTop (𝓝 0) := by
  have key := Real.tendsto_exp_atBot.comp (quadratic_atBot (al := (2 * s' ^ 2)⁻¹ - (2 * s ^ 2)⁻¹)
    (be := 2 * mu * (2 * s ^ 2)⁻¹ - 2 * mu' * (2 * s' ^ 2)⁻¹) (ga := mu' ^ 2 * (2 * s' ^ 2)⁻¹ - mu ^ 2 * (2 * s ^ 2)⁻¹) (by
      rcases h with h | ⟨h, h'⟩
      · left
        have : (2 * s' ^ 2)⁻¹ < (2 * s ^ 2)⁻¹ :=
          inv_strictAnti₀ (by positivity) (mul_lt_mul_of_pos_left (pow_lt_pow_left₀ h hs.le two_ne_zero) two_pos)
        linarith
      · right
        rw [h]
        have : 0 < (2 * s' ^ 2)⁻¹ := by positivity
        exact ⟨by ring, by nlinarith⟩))
  refine key.congr fun x => ?_
  show Real.exp _ = Real.exp _ / Real.exp _
  rw [← Real.exp_sub, div_eq_mul_inv, div_eq_mul_inv]
  congr 1
  ring

/-- Gaussians with distinct parameters are linearly independent (the pairs are width and mean, in lexicographic order). -/
theorem independent (T : Finset (ℝ ×ₗ ℝ)) (c : ℝ ×ₗ ℝ → ℝ) (hT : ∀ p ∈ T, 0 < (ofLex p).1)
    (h : ∀ x : ℝ, 0 < x → ∑ p ∈ T, c p * bell (ofLex p).2 (ofLex p).1 x = 0) : ∀ p ∈ T, c p = 0 := by
  induction T using Finset.induction_on_max with
  | empty => exact fun p hp => absurd hp (Finset.notMem_empty _)
  | insert q T hq ih =>
    have hqT : q ∉ T := fun hm => lt_irrefl _ (hq q hm)
    have hcq : c q = 0 := by
      have L : Tendsto (fun x : ℝ => c q + ∑ p ∈ T, c p * (bell (ofLex p).2 (ofLex p).1 x / bell (ofLex q).2 (ofLex q).1 x))
          atTop (𝓝 (c q + ∑ p ∈ T, c p * 0)) := by
        refine tendsto_const_nhds.add (tendsto_finsetSum _ fun p hp => Tendsto.const_mul _ (ratio
          (hT p (Finset.mem_insert_of_mem hp)) (hT q (Finset.mem_insert_self _ _)) ?_))
        exact Prod.Lex.lt_iff.1 (hq p hp)
      have Z : Tendsto (fun _ : ℝ => (0 : ℝ)) atTop (𝓝 0) := tendsto_const_nhds
      have := tendsto_nhds_unique (Z.congr' ?_) L
      · simpa using this.symm
      · filter_upwards [eventually_gt_atTop 0] with x hx
        have e := h x hx
        rw [Finset.sum_insert hqT] at e
        have hb : bell (ofLex q).2 (ofLex q).1 x ≠ 0 := (Real.exp_pos _).ne'
        rw [Finset.sum_congr rfl fun p _ => (mul_div_assoc (c p) _ _).symm, ← Finset.sum_div]
        field_simp
        linarith
    intro p hp
    rcases Finset.mem_insert.1 hp with rfl | hp
    · exact hcq
    · refine ih (fun p hp => hT p (Finset.mem_insert_of_mem hp)) (fun x hx => ?_) p hp
      have e := h x hx
      rwa [Finset.sum_insert hqT, hcq, zero_mul, zero_add] at e

/-- Two Gaussians. -/
def pair (B1 mu1 s1 B2 mu2 s2 x : ℝ) : ℝ := B1 * bell mu1 s1 x + B2 * bell mu2 s2 x

variable {B1 mu1 s1 B2 mu2 s2 B1' mu1' s1' B2' mu2' s2' : ℝ}

theorem pair_unique (hB1 : 0 < B1) (hB2 : 0 < B2) (hs1 : 0 < s1) (hs2 : 0 < s2)
    (hs1' : 0 < s1') (hs2' : 0 < s2') (hd : (mu1, s1) ≠ (mu2, s2)) (hd' : (mu1', s1') ≠ (mu2', s2'))
    (he : ∀ x, 0 < x → pair B1 mu1 s1 B2 mu2 s2 x = pair B1' mu1' s1' B2' mu2' s2' x) :
    (B1 = B1' ∧ mu1 = mu1' ∧ s1 = s1' ∧ B2 = B2' ∧ mu2 = mu2' ∧ s2 = s2') ∨
      (B1 = B2' ∧ mu1 = mu2' ∧ s1 = s2' ∧ B2 = B1' ∧ mu2 = mu1' ∧ s2 = s1') := by
  classical
  obtain ⟨P, hP⟩ : ∃ P : ℝ → ℝ → ℝ ×ₗ ℝ, ∀ mu s, P mu s = toLex (s, mu) := ⟨_, fun _ _ => rfl⟩
  have inj : ∀ {mu s mu' s' : ℝ}, P mu s = P mu' s' → mu = mu' ∧ s = s' := fun {mu s mu' s'} h => by
    rw [hP, hP] at h
    have := Prod.ext_iff.1 (toLex.injective h)
    exact ⟨this.2, this.1⟩
  obtain ⟨c, hc⟩ : ∃ c : ℝ ×ₗ ℝ → ℝ, ∀ p, c p = (if P mu1 s1 = p then B1 else 0) + (if P mu2 s2 = p then B2 else 0) -
      (if P mu1' s1' = p then B1' else 0) - (if P mu2' s2' = p then B2' else 0) := ⟨_, fun _ => rfl⟩
  have z := independent {P mu1 s1, P mu2 s2, P mu1' s1', P mu2' s2'} c (by
    intro p hp
    simp only [Finset.mem_insert, Finset.mem_singleton] at hp
    rcases hp with rfl | rfl | rfl | rfl <;> rw [hP] <;> assumption) (by
    intro x hx
    have e := he x hx
    have f : ∀ (mu s B : ℝ), P mu s ∈ ({P mu1 s1, P mu2 s2, P mu1' s1', P mu2' s2'} : Finset (ℝ ×ₗ ℝ)) →
        ∑ p ∈ ({P mu1 s1, P mu2 s2, P mu1' s1', P mu2' s2'} : Finset (ℝ ×ₗ ℝ)),
          (if P mu s = p then B else 0) * bell (ofLex p).2 (ofLex p).1 x = B * bell mu s x := fun mu s B hm => by
      rw [Finset.sum_eq_single_of_mem _ hm fun q _ hq => by rw [if_neg hq.symm, zero_mul], if_pos rfl, hP]
      rfl
    simp only [hc, add_mul, sub_mul, Finset.sum_add_distrib, Finset.sum_sub_distrib]
    rw [f _ _ _ (by simp), f _ _ _ (by simp), f _ _ _ (by simp), f _ _ _ (by simp)]
    unfold pair at e
    linarith)
  have n12 : P mu1 s1 ≠ P mu2 s2 := fun h => hd (by rw [(inj h).1, (inj h).2])
  have n12' : P mu1' s1' ≠ P mu2' s2' := fun h => hd' (by rw [(inj h).1, (inj h).2])
  have z1 := z (P mu1 s1) (by simp)
  have z2 := z (P mu2 s2) (by simp)
  rw [hc, if_pos rfl, if_neg n12.symm] at z1
  rw [hc, if_neg n12, if_pos rfl] at z2
  by_cases k : P mu1' s1' = P mu1 s1
  · rw [if_pos k, if_neg (k ▸ n12'.symm)] at z1
    rw [if_neg (by rw [k]; exact n12)] at z2
    by_cases k' : P mu2' s2' = P mu2 s2
    · rw [if_pos k'] at z2
      exact Or.inl ⟨by linarith, (inj k).1.symm, (inj k).2.symm, by linarith, (inj k').1.symm, (inj k').2.symm⟩
    · rw [if_neg k'] at z2
      linarith
  · rw [if_neg k] at z1
    by_cases k1 : P mu2' s2' = P mu1 s1
    · rw [if_pos k1] at z1
      rw [if_neg (show P mu2' s2' ≠ P mu2 s2 by rw [k1]; exact n12)] at z2
      by_cases k' : P mu1' s1' = P mu2 s2
      · rw [if_pos k'] at z2
        exact Or.inr ⟨by linarith, (inj k1).1.symm, (inj k1).2.symm, by linarith, (inj k').1.symm, (inj k').2.symm⟩
      · rw [if_neg k'] at z2
        linarith
    · rw [if_neg k1] at z1
      linarith

/-! ### With a power law -/

theorem pair_decay (B1 mu1 B2 mu2 : ℝ) (hs1 : 0 < s1) (hs2 : 0 < s2) (a : ℝ) :
    Tendsto (fun x : ℝ => x ^ a * pair B1 mu1 s1 B2 mu2 s2 x) atTop (𝓝 0) := by
  have := ((decay a mu1 hs1).const_mul B1).add ((decay a mu2 hs2).const_mul B2)
  rw [mul_zero, mul_zero, add_zero] at this
  exact this.congr fun x => by unfold pair; ring

theorem pair_analytic (A B1 B2 a mu1 s1 mu2 s2 : ℝ) :
    AnalyticOnNhd ℝ (fun x : ℝ => A * Real.exp (Real.log x * -a) + pair B1 mu1 s1 B2 mu2 s2 x) (Ioi 0) := by
  intro x hx
  have h1 := analytic A B1 a mu1 s1 x hx
  have h2 := analytic 0 B2 a mu2 s2 x hx
  refine (h1.add h2).congr (Eventually.of_forall fun y => ?_)
  show A * _ + B1 * _ + (0 * _ + B2 * _) = A * _ + pair _ _ _ _ _ _ _
  unfold pair
  ring

theorem pair_extend {A a A' a' l r : ℝ} (hl : 0 ≤ l) (hlr : l < r)
    (he : ∀ x ∈ Ioo l r, A * x ^ (-a) + pair B1 mu1 s1 B2 mu2 s2 x = A' * x ^ (-a') + pair B1' mu1' s1' B2' mu2' s2' x)
    {x : ℝ} (hx : 0 < x) :
    A * x ^ (-a) + pair B1 mu1 s1 B2 mu2 s2 x = A' * x ^ (-a') + pair B1' mu1' s1' B2' mu2' s2' x := by
  obtain ⟨m, hm1, hm2⟩ := exists_between hlr
  have hm0 : 0 < m := hl.trans_lt hm1
  have := (pair_analytic A B1 B2 a mu1 s1 mu2 s2).eqOn_of_preconnected_of_eventuallyEq
    (pair_analytic A' B1' B2' a' mu1' s1' mu2' s2') (convex_Ioi (0 : ℝ)).isPreconnected (z₀ := m) hm0 (by
      filter_upwards [Ioo_mem_nhds hm1 hm2, lt_mem_nhds hm0] with y hy hy0
      have := he y hy
      rwa [Real.rpow_def_of_pos hy0, Real.rpow_def_of_pos hy0] at this) hx
  rw [Real.rpow_def_of_pos hx, Real.rpow_def_of_pos hx]
  exact this

/-- The power law is found from the tail if what is added to it decays fast. -/
theorem tail_index {A a A' a' : ℝ} {R R' : ℝ → ℝ} (hA' : 0 < A')
    (hR : ∀ c : ℝ, Tendsto (fun x : ℝ => x ^ c * R x) atTop (𝓝 0))
    (hR' : ∀ c : ℝ, Tendsto (fun x : ℝ => x ^ c * R' x) atTop (𝓝 0))
    (he : ∀ x, 0 < x → A * x ^ (-a) + R x = A' * x ^ (-a') + R' x) : a ≤ a' := by
  by_contra hn
  have hn := not_le.1 hn
  have L : Tendsto (fun x : ℝ => A * x ^ (a' - a) + x ^ a' * R x) atTop (𝓝 (A * 0 + 0)) := by
    refine Tendsto.add (Tendsto.const_mul _ ?_) (hR a')
    have := tendsto_rpow_neg_atTop (sub_pos.2 hn)
    rwa [neg_sub] at this
  have L' : Tendsto (fun x : ℝ => A' + x ^ a' * R' x) atTop (𝓝 (A' + 0)) := tendsto_const_nhds.add (hR' a')
  have : A * 0 + 0 = A' + 0 := by
    refine tendsto_nhds_unique (L.congr' ?_) L'
    filter_upwards [eventually_gt_atTop 0] with x hx
    have e := congrArg (x ^ a' * ·) (he x hx)
    have e1 : x ^ a' * x ^ (-a') = 1 := by rw [← Real.rpow_add hx, add_neg_cancel, Real.rpow_zero]
    have e2 : x ^ (a' - a) = x ^ a' * x ^ (-a) := by rw [← Real.rpow_add hx, sub_eq_add_neg]
    simp only [mul_add] at e
    rw [e2]
    linear_combination e + A' * e1
  linarith

theorem tail_coefficient {A a A' : ℝ} {R R' : ℝ → ℝ} (hR : ∀ c : ℝ, Tendsto (fun x : ℝ => x ^ c * R x) atTop (𝓝 0))
    (hR' : ∀ c : ℝ, Tendsto (fun x : ℝ => x ^ c * R' x) atTop (𝓝 0))
    (he : ∀ x, 0 < x → A * x ^ (-a) + R x = A' * x ^ (-a) + R' x) : A = A' := by
  have L : Tendsto (fun x : ℝ => A + x ^ a * R x) atTop (𝓝 (A + 0)) := tendsto_const_nhds.add (hR a)
  have L' : Tendsto (fun x : ℝ => A' + x ^ a * R' x) atTop (𝓝 (A' + 0)) := tendsto_const_nhds.add (hR' a)
  have := tendsto_nhds_unique (L.congr' ?_) L'
  · linarith
  · filter_upwards [eventually_gt_atTop 0] with x hx
    have e := congrArg (x ^ a * ·) (he x hx)
    have e1 : x ^ a * x ^ (-a) = 1 := by rw [← Real.rpow_add hx, add_neg_cancel, Real.rpow_zero]
    simp only [mul_add] at e
    linear_combination e + (A' - A) * e1

/-- A power law with two Gaussians on an interval. -/
theorem pair_mixture {A a A' a' l r : ℝ} (hA : 0 < A) (hA' : 0 < A') (hB1 : 0 < B1) (hB2 : 0 < B2)
    (hs1 : 0 < s1) (hs2 : 0 < s2) (hs1' : 0 < s1') (hs2' : 0 < s2') (hd : (mu1, s1) ≠ (mu2, s2))
    (hd' : (mu1', s1') ≠ (mu2', s2')) (hl : 0 ≤ l) (hlr : l < r)
    (he : ∀ x ∈ Ioo l r,
      A * x ^ (-a) + pair B1 mu1 s1 B2 mu2 s2 x = A' * x ^ (-a') + pair B1' mu1' s1' B2' mu2' s2' x) :
    a = a' ∧ A = A' ∧ ((B1 = B1' ∧ mu1 = mu1' ∧ s1 = s1' ∧ B2 = B2' ∧ mu2 = mu2' ∧ s2 = s2') ∨
      (B1 = B2' ∧ mu1 = mu2' ∧ s1 = s2' ∧ B2 = B1' ∧ mu2 = mu1' ∧ s2 = s1')) := by
  have all := fun (x : ℝ) (hx : 0 < x) => pair_extend hl hlr he hx
  have d := pair_decay B1 mu1 B2 mu2 hs1 hs2
  have d' := pair_decay B1' mu1' B2' mu2' hs1' hs2'
  have e1 : a = a' := le_antisymm (tail_index hA' d d' all) (tail_index hA d' d fun x hx => (all x hx).symm)
  subst e1
  have e2 := tail_coefficient d d' all
  subst e2
  exact ⟨rfl, rfl, pair_unique hB1 hB2 hs1 hs2 hs1' hs2' hd hd' fun x hx => add_left_cancel (all x hx)⟩

/-- No power law is a sum of two Gaussians. -/
theorem not_pair {A a l r : ℝ} (hA : 0 < A) (hs1 : 0 < s1) (hs2 : 0 < s2) (hl : 0 ≤ l) (hlr : l < r)
    (he : ∀ x ∈ Ioo l r, A * x ^ (-a) = pair B1 mu1 s1 B2 mu2 s2 x) : False := by
  have z : ∀ x, pair 0 mu1 s1 0 mu2 s2 x = 0 := fun x => by unfold pair; ring
  have all := fun (x : ℝ) (hx : 0 < x) => pair_extend (A := A) (A' := 0) (a := a) (a' := a) (B1 := 0) (B2 := 0)
    (mu1 := mu1) (s1 := s1) (mu2 := mu2) (s2 := s2) (B1' := B1) (B2' := B2) (mu1' := mu1) (s1' := s1) (mu2' := mu2)
    (s2' := s2) hl hlr (fun x hx => by rw [z, zero_mul, add_zero, zero_add]; exact he x hx) hx
  have := tail_coefficient (pair_decay 0 mu1 0 mu2 hs1 hs2) (pair_decay B1 mu1 B2 mu2 hs1 hs2) all
  exact hA.ne' this

/-! ### The mixture -/

/-- The density of the power law with two Gaussian peaks. -/
def density (a lo hi lam lam1 mu1 s1 mu2 s2 g x : ℝ) : ℝ :=
  (1 - lam) * Spec.normalised (fun t => t ^ (-a)) lo hi x + lam * lam1 * Spec.normalised (bell mu1 s1) lo g x +
    lam * (1 - lam1) * Spec.normalised (bell mu2 s2) lo g x

variable {a lo hi lam lam1 g a' lo' hi' lam' lam1' g' : ℝ}

theorem density_pos (h0 : 0 < lo) (h : lo < hi) (hg : lo < g) (l0 : 0 < lam) (l1 : lam < 1) (k0 : 0 < lam1) (k1 : lam1 < 1)
    {x : ℝ} (h1 : lo < x) (h2 : x < hi) (h3 : x < g) : 0 < density a lo hi lam lam1 mu1 s1 mu2 s2 g x :=
  add_pos (add_pos (mul_pos (by linarith) (normalised_pos (shape_rpow h0 h) ⟨h1, h2⟩))
    (mul_pos (mul_pos l0 k0) (normalised_pos (shape_gauss hg) ⟨h1, h3⟩)))
    (mul_pos (mul_pos l0 (by linarith)) (normalised_pos (shape_gauss hg) ⟨h1, h3⟩))

theorem density_below {x : ℝ} (hx : x < lo) : density a lo hi lam lam1 mu1 s1 mu2 s2 g x = 0 := by
  unfold density
  rw [normalised_out (Or.inl hx), normalised_out (Or.inl hx), normalised_out (Or.inl hx), mul_zero, mul_zero, mul_zero,
    add_zero, add_zero]

theorem density_lo (h0 : 0 < lo) (h : lo < hi) (hg : lo < g) (l0 : 0 < lam) (l1 : lam < 1) (k0 : 0 < lam1) (k1 : lam1 < 1)
    (hae : ∀ᵐ x : ℝ, 0 < x → density a lo hi lam lam1 mu1 s1 mu2 s2 g x =
      density a' lo' hi' lam' lam1' mu1' s1' mu2' s2' g' x) : lo' ≤ lo := by
  by_contra hn
  have hn := not_le.1 hn
  obtain ⟨x, hx, hp⟩ := exists_point hae (lt_min hn (lt_min h hg))
  have h1 := hx.2.trans_le (min_le_left _ _)
  have h2 := hx.2.trans_le ((min_le_right _ _).trans (min_le_left _ _))
  have h3 := hx.2.trans_le ((min_le_right _ _).trans (min_le_right _ _))
  have e := hp (h0.trans hx.1)
  rw [density_below h1] at e
  exact (density_pos h0 h hg l0 l1 k0 k1 hx.1 h2 h3).ne' e

/-- The density with its coefficients. -/
theorem density_eq {x : ℝ} (hx : lo < x) : density a lo hi lam lam1 mu1 s1 mu2 s2 g x =
    (if x ≤ hi then (1 - lam) / (∫ t in lo..hi, t ^ (-a)) * x ^ (-a) else 0) +
      if x ≤ g then pair (lam * lam1 / ∫ t in lo..g, bell mu1 s1 t) mu1 s1
        (lam * (1 - lam1) / ∫ t in lo..g, bell mu2 s2 t) mu2 s2 x else 0 := by
  unfold density Spec.normalised pair
  have e : ∀ y : ℝ, (lo ≤ x ∧ x ≤ y) = (x ≤ y) := fun y => propext ⟨fun h => h.2, fun h => ⟨hx.le, h⟩⟩
  simp only [e]
  split_ifs <;> ring

theorem pair_continuous (B1 mu1 s1 B2 mu2 s2 : ℝ) : Continuous (pair B1 mu1 s1 B2 mu2 s2) :=
  ((bell_continuous mu1 s1).const_smul B1).add ((bell_continuous mu2 s2).const_smul B2)

theorem pair_pos (hB1 : 0 < B1) (hB2 : 0 < B2) (x : ℝ) : 0 < pair B1 mu1 s1 B2 mu2 s2 x :=
  add_pos (mul_pos hB1 (Real.exp_pos _)) (mul_pos hB2 (Real.exp_pos _))

theorem pair_swap (x : ℝ) : pair B1 mu1 s1 B2 mu2 s2 x = pair B2 mu2 s2 B1 mu1 s1 x := add_comm _ _

theorem density_hi {A : ℝ} (h0 : 0 < lo) (hlo' : lo < hi') (hA : 0 < A) (hB1 : 0 < B1) (hB2 : 0 < B2) (hs1 : 0 < s1)
    (hs2 : 0 < s2) (hae : ∀ᵐ x : ℝ, lo < x →
      ((if x ≤ hi then A * x ^ (-a) else 0) + if x ≤ g then pair B1 mu1 s1 B2 mu2 s2 x else 0) =
      (if x ≤ hi' then A * x ^ (-a) else 0) + if x ≤ g' then pair B1 mu1 s1 B2 mu2 s2 x else 0) : hi ≤ hi' := by
  by_contra hn
  have hn := not_le.1 hn
  refine not_pair (B1 := B1) (B2 := B2) (mu1 := mu1) (mu2 := mu2) hA hs1 hs2 (h0.trans hlo').le hn
    (eq_of_ae (rpow_continuousOn A a (h0.trans hlo').le) (pair_continuous B1 mu1 s1 B2 mu2 s2).continuousOn ?_)
  filter_upwards [hae] with x hx hxI
  have e := hx (hlo'.trans hxI.1)
  have p1 : 0 < A * x ^ (-a) := mul_pos hA (Real.rpow_pos_of_pos ((h0.trans hlo').trans hxI.1) _)
  have p2 : 0 < pair B1 mu1 s1 B2 mu2 s2 x := pair_pos hB1 hB2 x
  rw [if_pos hxI.2.le, if_neg (not_le.2 hxI.1)] at e
  split_ifs at e <;> linarith

theorem density_g {A : ℝ} (hlo' : lo < g') (hB1 : 0 < B1) (hB2 : 0 < B2) (hae : ∀ᵐ x : ℝ, lo < x →
      ((if x ≤ hi then A * x ^ (-a) else 0) + if x ≤ g then pair B1 mu1 s1 B2 mu2 s2 x else 0) =
      (if x ≤ hi then A * x ^ (-a) else 0) + if x ≤ g' then pair B1 mu1 s1 B2 mu2 s2 x else 0) : g ≤ g' := by
  by_contra hn
  have hn := not_le.1 hn
  obtain ⟨x, hx, hp⟩ := exists_point hae hn
  have e := hp (hlo'.trans hx.1)
  have p2 : 0 < pair B1 mu1 s1 B2 mu2 s2 x := pair_pos hB1 hB2 x
  rw [if_pos hx.2.le, if_neg (not_le.2 hx.1)] at e
  linarith

/-- Upper ends of the two parts. -/
theorem density_ends {A : ℝ} (h0 : 0 < lo) (h : lo < hi) (h' : lo < hi') (hg : lo < g) (hg' : lo < g') (hA : 0 < A)
    (hB1 : 0 < B1) (hB2 : 0 < B2) (hs1 : 0 < s1) (hs2 : 0 < s2) (hae : ∀ᵐ x : ℝ, lo < x →
      ((if x ≤ hi then A * x ^ (-a) else 0) + if x ≤ g then pair B1 mu1 s1 B2 mu2 s2 x else 0) =
      (if x ≤ hi' then A * x ^ (-a) else 0) + if x ≤ g' then pair B1 mu1 s1 B2 mu2 s2 x else 0) :
    hi = hi' ∧ g = g' := by
  have hae' := hae.mono fun x hx h => (hx h).symm
  have e1 : hi = hi' := le_antisymm (density_hi h0 h' hA hB1 hB2 hs1 hs2 hae) (density_hi h0 h hA hB1 hB2 hs1 hs2 hae')
  subst e1
  exact ⟨rfl, le_antisymm (density_g hg' hB1 hB2 hae) (density_g hg hB1 hB2 hae')⟩

theorem fractions {Z1 Z2 : ℝ} (hZ1 : 0 < Z1) (hZ2 : 0 < Z2) (l0' : 0 < lam')
    (h1 : lam * lam1 / Z1 = lam' * lam1' / Z1) (h2 : lam * (1 - lam1) / Z2 = lam' * (1 - lam1') / Z2) :
    lam = lam' ∧ lam1 = lam1' := by
  have e1 := (div_left_inj' hZ1.ne').1 h1
  have e2 := (div_left_inj' hZ2.ne').1 h2
  have e : lam = lam' := by linarith
  subst e
  exact ⟨rfl, mul_left_cancel₀ l0'.ne' e1⟩

set_option maxHeartbeats 1000000 in
/-- All parameters, up to the names of the peaks. -/
theorem density_determined (h0 : 0 < lo) (h : lo < hi) (hg : lo < g) (l0 : 0 < lam) (l1 : lam < 1) (k0 : 0 < lam1)
    (k1 : lam1 < 1) (hs1 : 0 < s1) (hs2 : 0 < s2) (hd : (mu1, s1) ≠ (mu2, s2)) (h0' : 0 < lo') (h' : lo' < hi')
    (hg' : lo' < g') (l0' : 0 < lam') (l1' : lam' < 1) (k0' : 0 < lam1') (k1' : lam1' < 1) (hs1' : 0 < s1')
    (hs2' : 0 < s2') (hd' : (mu1', s1') ≠ (mu2', s2'))
    (hae : ∀ᵐ x : ℝ, 0 < x → density a lo hi lam lam1 mu1 s1 mu2 s2 g x =
      density a' lo' hi' lam' lam1' mu1' s1' mu2' s2' g' x) :
    a = a' ∧ lo = lo' ∧ hi = hi' ∧ lam = lam' ∧ g = g' ∧ SamePeaks lam1 mu1 s1 mu2 s2 lam1' mu1' s1' mu2' s2' := by
  have hae' := hae.mono fun x hx h => (hx h).symm
  have e1 : lo = lo' :=
    le_antisymm (density_lo h0' h' hg' l0' l1' k0' k1' hae') (density_lo h0 h hg l0 l1 k0 k1 hae)
  subst e1
  have Zp : ∀ {a hi : ℝ}, lo < hi → 0 < ∫ t in lo..hi, t ^ (-a) := fun h => integral_rpow_pos h0 h
  have Zb : ∀ {mu s g : ℝ}, lo < g → 0 < ∫ t in lo..g, bell mu s t := fun h => integral_gaussShape_pos h
  obtain ⟨A, hA⟩ : ∃ A, A = (1 - lam) / ∫ t in lo..hi, t ^ (-a) := ⟨_, rfl⟩
  obtain ⟨B1, hB1⟩ : ∃ B, B = lam * lam1 / ∫ t in lo..g, bell mu1 s1 t := ⟨_, rfl⟩
  obtain ⟨B2, hB2⟩ : ∃ B, B = lam * (1 - lam1) / ∫ t in lo..g, bell mu2 s2 t := ⟨_, rfl⟩
  obtain ⟨A', hA'⟩ : ∃ A, A = (1 - lam') / ∫ t in lo..hi', t ^ (-a') := ⟨_, rfl⟩
  obtain ⟨B1', hB1'⟩ : ∃ B, B = lam' * lam1' / ∫ t in lo..g', bell mu1' s1' t := ⟨_, rfl⟩
  obtain ⟨B2', hB2'⟩ : ∃ B, B = lam' * (1 - lam1') / ∫ t in lo..g', bell mu2' s2' t := ⟨_, rfl⟩
  have pA : 0 < A := hA ▸ div_pos (by linarith) (Zp h)
  have pA' : 0 < A' := hA' ▸ div_pos (by linarith) (Zp h')
  have pB1 : 0 < B1 := hB1 ▸ div_pos (mul_pos l0 k0) (Zb hg)
  have pB2 : 0 < B2 := hB2 ▸ div_pos (mul_pos l0 (by linarith)) (Zb hg)
  have key : ∀ᵐ x : ℝ, lo < x →
      ((if x ≤ hi then A * x ^ (-a) else 0) + if x ≤ g then pair B1 mu1 s1 B2 mu2 s2 x else 0) =
      (if x ≤ hi' then A' * x ^ (-a') else 0) + if x ≤ g' then pair B1' mu1' s1' B2' mu2' s2' x else 0 := by
    filter_upwards [hae] with x hx hlx
    have := hx (h0.trans hlx)
    rwa [density_eq hlx, density_eq hlx, ← hA, ← hB1, ← hB2, ← hA', ← hB1', ← hB2'] at this
  have hr : lo < min (min hi g) (min hi' g') := lt_min (lt_min h hg) (lt_min h' hg')
  obtain ⟨e2, e3, hor⟩ := pair_mixture pA pA' pB1 pB2 hs1 hs2 hs1' hs2' hd hd' h0.le hr (eq_of_ae
    ((rpow_continuousOn A a h0.le).add (pair_continuous B1 mu1 s1 B2 mu2 s2).continuousOn)
    ((rpow_continuousOn A' a' h0.le).add (pair_continuous B1' mu1' s1' B2' mu2' s2').continuousOn) (by
      filter_upwards [key] with x hx hxI
      have := hx hxI.1
      have k1 := hxI.2.le.trans (min_le_left _ _)
      have k2 := hxI.2.le.trans (min_le_right _ _)
      rwa [if_pos (k1.trans (min_le_left _ _)), if_pos (k1.trans (min_le_right _ _)),
        if_pos (k2.trans (min_le_left _ _)), if_pos (k2.trans (min_le_right _ _))] at this))
  subst e2
  rw [← e3] at key
  rcases hor with ⟨f1, f2, f3, f4, f5, f6⟩ | ⟨f1, f2, f3, f4, f5, f6⟩
  · subst f2 f3 f5 f6
    rw [← f1, ← f4] at key
    obtain ⟨e7, e8⟩ := density_ends h0 h h' hg hg' pA pB1 pB2 hs1 hs2 key
    subst e7 e8
    rw [hB1, hB1'] at f1
    rw [hB2, hB2'] at f4
    obtain ⟨e9, e10⟩ := fractions (Zb hg) (Zb hg) l0' f1 f4
    exact ⟨rfl, rfl, rfl, e9, rfl, Or.inl ⟨e10, rfl, rfl, rfl, rfl⟩⟩
  · subst f2 f3 f5 f6
    have key' : ∀ᵐ x : ℝ, lo < x →
        ((if x ≤ hi then A * x ^ (-a) else 0) + if x ≤ g then pair B1 mu1 s1 B2 mu2 s2 x else 0) =
        (if x ≤ hi' then A * x ^ (-a) else 0) + if x ≤ g' then pair B1 mu1 s1 B2 mu2 s2 x else 0 := by
      filter_upwards [key] with x hx hlx
      rw [hx hlx, ← f1, ← f4, pair_swap]
    obtain ⟨e7, e8⟩ := density_ends h0 h h' hg hg' pA pB1 pB2 hs1 hs2 key'
    subst e7 e8
    rw [hB1, hB2'] at f1
    rw [hB2, hB1'] at f4
    obtain ⟨e9, e10⟩ := fractions (lam1' := 1 - lam1') (Zb hg) (Zb hg) l0' f1 (by rw [sub_sub_cancel]; exact f4)
    exact ⟨rfl, rfl, rfl, e9, rfl, Or.inr ⟨e10, rfl, rfl, rfl, rfl⟩⟩

theorem density_measurable (a lo hi lam lam1 mu1 s1 mu2 s2 g : ℝ) :
    Measurable (density a lo hi lam lam1 mu1 s1 mu2 s2 g) := by
  unfold density Spec.normalised
  exact ((measurable_const.mul (Measurable.ite measurableSet_Icc ((measurable_id.pow_const _).div_const _)
    measurable_const)).add (measurable_const.mul (Measurable.ite measurableSet_Icc
      ((gaussShape_continuous mu1 s1).measurable.div_const _) measurable_const))).add
    (measurable_const.mul (Measurable.ite measurableSet_Icc
      ((gaussShape_continuous mu2 s2).measurable.div_const _) measurable_const))

end TwoPeaks

/-! ## The property -/

variable {v : NNReal} {Det : Set ℝ}

/-- **C165.** Two parameter sets of the power law with two peaks have the same population exactly if they are equal up to
the names of the peaks, when all three parts are present and the peaks differ. -/
theorem C165_same_iff (b : Backend) (py : Bool)
    {a lo hi lam lam1 mu1 s1 mu2 s2 g a' lo' hi' lam' lam1' mu1' s1' mu2' s2' g' : ℝ}
    (ha : b = .jax ∨ a ≠ -1) (ha' : b = .jax ∨ a' ≠ -1) (h0 : 0 < lo) (h : lo < hi) (hg : lo < g) (l0 : 0 < lam)
    (l1 : lam < 1) (k0 : 0 < lam1) (k1 : lam1 < 1) (hs1 : 0 < s1) (hs2 : 0 < s2) (hd : (mu1, s1) ≠ (mu2, s2))
    (h0' : 0 < lo') (h' : lo' < hi') (hg' : lo' < g') (l0' : 0 < lam') (l1' : lam' < 1) (k0' : 0 < lam1') (k1' : lam1' < 1)
    (hs1' : 0 < s1') (hs2' : 0 < s2') (hd' : (mu1', s1') ≠ (mu2', s2')) :
    SamePopulation (Ioi 0)
      (fun m => threeComponentSingle b py (fin m) (fin a) (fin lo) (fin hi) (fin lam) (fin lam1) (fin mu1) (fin s1)
        (fin mu2) (fin s2) (fin g))
      (fun m => threeComponentSingle b py (fin m) (fin a') (fin lo') (fin hi') (fin lam') (fin lam1') (fin mu1') (fin s1')
        (fin mu2') (fin s2') (fin g')) ↔
    a = a' ∧ lo = lo' ∧ hi = hi' ∧ lam = lam' ∧ g = g' ∧ SamePeaks lam1 mu1 s1 mu2 s2 lam1' mu1' s1' mu2' s2' := by
  constructor
  · intro hsame
    refine TwoPeaks.density_determined h0 h hg l0 l1 k0 k1 hs1 hs2 hd h0' h' hg' l0' l1' k0' k1' hs1' hs2' hd' ?_
    filter_upwards [hsame] with x hx hx0
    have e := hx hx0
    rw [C18_threeComponentSingle_value b py ha h0 h hg hs1 hs2 hx0,
      C18_threeComponentSingle_value b py ha' h0' h' hg' hs1' hs2' hx0] at e
    exact Fl.fin.inj (Except.ok.inj e)
  · rintro ⟨rfl, rfl, rfl, rfl, rfl, ⟨rfl, rfl, rfl, rfl, rfl⟩ | ⟨rfl, rfl, rfl, rfl, rfl⟩⟩
    · exact Eventually.of_forall fun _ _ => rfl
    · refine Eventually.of_forall fun x hx => ?_
      simp only
      rw [C18_threeComponentSingle_value b py ha h0 h hg hs1 hs2 hx,
        C18_threeComponentSingle_value b py ha h0 h hg hs2 hs1 hx]
      congr 2
      ring

/-- **C165.** If the two peaks are the same, the fraction of each of them does not change the population. -/
theorem C165_equal_peaks (b : Backend) (py : Bool) {a lo hi lam lam1 lam1' mu s g m : ℝ} (ha : b = .jax ∨ a ≠ -1)
    (h0 : 0 < lo) (h : lo < hi) (hg : lo < g) (hs : 0 < s) (hm : 0 < m) :
    threeComponentSingle b py (fin m) (fin a) (fin lo) (fin hi) (fin lam) (fin lam1) (fin mu) (fin s) (fin mu) (fin s)
        (fin g) =
      threeComponentSingle b py (fin m) (fin a) (fin lo) (fin hi) (fin lam) (fin lam1') (fin mu) (fin s) (fin mu) (fin s)
        (fin g) := by
  rw [C18_threeComponentSingle_value b py ha h0 h hg hs hs hm, C18_threeComponentSingle_value b py ha h0 h hg hs hs hm]
  congr 2
  ring

/-- **C165.** If the first peak is that with the smaller mean, all ten parameters are found from noisy masses of detected
sources. -/
theorem C165_recovers {J : Type} [Fintype J] {p : J → ℝ → ℝ} {j₀ : J} (b : Backend) (py : Bool)
    {a lo hi lam lam1 mu1 s1 mu2 s2 g : J → ℝ} (ha : ∀ j, b = .jax ∨ a j ≠ -1) (h0 : ∀ j, 0 < lo j)
    (h : ∀ j, lo j < hi j) (hg : ∀ j, lo j < g j) (l0 : ∀ j, 0 < lam j) (l1 : ∀ j, lam j < 1) (k0 : ∀ j, 0 < lam1 j)
    (k1 : ∀ j, lam1 j < 1) (hs1 : ∀ j, 0 < s1 j) (hs2 : ∀ j, 0 < s2 j) (hmu : ∀ j, mu1 j < mu2 j)
    (hinj : ∀ j, j ≠ j₀ → (a j, lo j, hi j, lam j, lam1 j, mu1 j, s1 j, mu2 j, s2 j, g j) ≠
      (a j₀, lo j₀, hi j₀, lam j₀, lam1 j₀, mu1 j₀, s1 j₀, mu2 j₀, s2 j₀, g j₀))
    (hp : ∀ j m, 0 < m → threeComponentSingle b py (fin m) (fin (a j)) (fin (lo j)) (fin (hi j)) (fin (lam j))
      (fin (lam1 j)) (fin (mu1 j)) (fin (s1 j)) (fin (mu2 j)) (fin (s2 j)) (fin (g j)) = .ok (fin (p j m)))
    (hm : ∀ j, Measurable (p j)) (hv : v ≠ 0) (hD : MeasurableSet Det) :
    Recovers (volume.restrict (Ioi 0)) volume (gaussianErrors v) Det p j₀ := by
  have dens := fun j => C18_threeComponentSingle_isDensity (mpp1 := mu1 j) (mpp2 := mu2 j) b py (ha j) (h0 j) (h j) (hg j)
    (hs1 j) (hs2 j) (l0 j).le (l1 j).le (k0 j).le (k1 j).le
  have dis : ∀ j, (mu1 j, s1 j) ≠ (mu2 j, s2 j) := fun j hj => (hmu j).ne (Prod.ext_iff.1 hj).1
  refine C159_recovers (K := allBelow fun j => max (hi j) (g j)) hv measurableSet_Ioi hD (fun j => (dens j).1) hp hm
    (fun j x hx hK => (dens j).2 x hx (Or.inr ?_)) fun j hj hs' => hinj j hj ?_
  · rw [abs_of_pos hx] at hK
    exact (le_allBelow (fun j => max (hi j) (g j)) j).trans_lt hK
  · obtain ⟨e1, e2, e3, e4, e5, ⟨e6, e7, e8, e9, e10⟩ | ⟨_, e7, _, e9, _⟩⟩ := (C165_same_iff b py (ha j) (ha j₀) (h0 j)
      (h j) (hg j) (l0 j) (l1 j) (k0 j) (k1 j) (hs1 j) (hs2 j) (dis j) (h0 j₀) (h j₀) (hg j₀) (l0 j₀) (l1 j₀) (k0 j₀)
      (k1 j₀) (hs1 j₀) (hs2 j₀) (dis j₀)).1 (samePopulation_symm hs')
    · rw [e1, e2, e3, e4, e5, e6, e7, e8, e9, e10]
    · exact absurd (hmu j) (by rw [e7, e9]; exact (hmu j₀).le.not_gt)

/-! ## Non-vacuity -/

/-- Candidates for the fraction in the first peak and for the mean of the second. -/
example (py : Bool) (hv : v ≠ 0) (hD : MeasurableSet Det) : ∃ p : Bool × Bool → ℝ → ℝ, (∀ j, Measurable (p j)) ∧
    (∀ j m, 0 < m → threeComponentSingle .numpy py (fin m) (fin 3.5) (fin 5) (fin 85) (fin 0.1)
      (fin (if j.1 then 0.5 else 0.25)) (fin 10) (fin 2) (fin (if j.2 then 35 else 30)) (fin 4) (fin 100) =
        .ok (fin (p j m))) ∧
    Recovers (volume.restrict (Ioi 0)) volume (gaussianErrors v) Det p (true, true) := by
  obtain ⟨k, hk⟩ : ∃ a : Bool × Bool → ℝ, a = fun j => if j.1 then 0.5 else 0.25 := ⟨_, rfl⟩
  obtain ⟨mu, hmu⟩ : ∃ a : Bool × Bool → ℝ, a = fun j => if j.2 then 35 else 30 := ⟨_, rfl⟩
  have k0 : ∀ j, 0 < k j := fun j => by rcases j with ⟨_ | _, _⟩ <;> norm_num [hk]
  have k1 : ∀ j, k j < 1 := fun j => by rcases j with ⟨_ | _, _⟩ <;> norm_num [hk]
  have hval : ∀ j m, 0 < m → threeComponentSingle .numpy py (fin m) (fin 3.5) (fin 5) (fin 85) (fin 0.1) (fin (k j))
      (fin 10) (fin 2) (fin (mu j)) (fin 4) (fin 100) =
        .ok (fin (TwoPeaks.density 3.5 5 85 0.1 (k j) 10 2 (mu j) 4 100 m)) := fun j m hm0 =>
    C18_threeComponentSingle_value .numpy py (Or.inr (by norm_num)) (by norm_num) (by norm_num) (by norm_num)
      (by norm_num) (by norm_num) hm0
  have hm := fun j => TwoPeaks.density_measurable 3.5 5 85 0.1 (k j) 10 2 (mu j) 4 100
  refine ⟨_, hm, fun j m hm0 => by rw [← hval j m hm0, hk, hmu], C165_recovers .numpy py (a := fun _ => 3.5)
    (lo := fun _ => 5) (hi := fun _ => 85) (lam := fun _ => 0.1) (mu1 := fun _ => 10) (s1 := fun _ => 2)
    (s2 := fun _ => 4) (g := fun _ => 100) (fun _ => Or.inr (by norm_num)) (fun _ => by norm_num) (fun _ => by norm_num)
    (fun _ => by norm_num) (fun _ => by norm_num) (fun _ => by norm_num) k0 k1 (fun _ => by norm_num)
    (fun _ => by norm_num) (fun j => ?_) (fun j hj => ?_) hval hm hv hD⟩
  · rcases j with ⟨_, _ | _⟩ <;> norm_num [hmu]
  · rcases j with ⟨_ | _, _ | _⟩
    · norm_num [hk]
    · norm_num [hk]
    · norm_num [hmu]
    · exact absurd rfl hj

/-- Two parameter sets with exchanged peaks have the same population. -/
example (py : Bool) : SamePopulation (Ioi 0)
    (fun m => threeComponentSingle .numpy py (fin m) (fin 3.5) (fin 5) (fin 85) (fin 0.1) (fin 0.25) (fin 10) (fin 2)
      (fin 35) (fin 4) (fin 100))
    (fun m => threeComponentSingle .numpy py (fin m) (fin 3.5) (fin 5) (fin 85) (fin 0.1) (fin 0.75) (fin 35) (fin 4)
      (fin 10) (fin 2) (fin 100)) :=
  (C165_same_iff .numpy py (Or.inr (by norm_num)) (Or.inr (by norm_num)) (by norm_num) (by norm_num) (by norm_num)
    (by norm_num) (by norm_num) (by norm_num) (by norm_num) (by norm_num) (by norm_num) (by norm_num) (by norm_num)
    (by norm_num) (by norm_num) (by norm_num) (by norm_num) (by norm_num) (by norm_num) (by norm_num) (by norm_num)
    (by norm_num)).2 ⟨rfl, rfl, rfl, rfl, rfl, Or.inr ⟨by norm_num, rfl, rfl, rfl, rfl⟩⟩

end GW
