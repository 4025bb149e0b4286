import Verif.Props.PeakErrors

/-!
# C169: the models of both component masses are determined by their populations and found from noisy data
-/

noncomputable section

open MeasureTheory ProbabilityTheory Filter Topology Set

namespace GW

open Fl Spec TruePopulation Posterior GaussianErrors

/-! ## Lemmas -/

namespace TwoMasses

open Identifiable Peak

variable {f k f' k' : ℝ → ℝ} {lo e lo' e' c C : ℝ}

theorem pair_value {x y : ℝ} (h : y < x) : pairVal f k (x, y) = f x * k y * 2 := by
  simp [pairVal, h.le]

theorem slices {P : ℝ × ℝ → Prop} (h : ∀ᵐ x : ℝ × ℝ, P x) : (∀ᵐ x : ℝ, ∀ᵐ y : ℝ, P (x, y)) ∧ ∀ᵐ y : ℝ, ∀ᵐ x : ℝ, P (x, y) := by
  rw [Measure.volume_eq_prod] at h
  refine ⟨Measure.ae_ae_of_ae_prod h, ?_⟩
  have h' : ∀ᵐ z ∂((volume : Measure ℝ).prod (volume : Measure ℝ)), P z.swap :=
    Measure.measurePreserving_swap.quasiMeasurePreserving.ae h
  exact Measure.ae_ae_of_ae_prod h'

theorem pair_lo (h0 : 0 < lo) (h : lo < e) (hf : ∀ x, lo < x → x < e → 0 < f x) (hk : ∀ x, lo < x → x < e → 0 < k x)
    (zf' : ∀ x, x < lo' → f' x = 0)
    (hae : ∀ᵐ x : ℝ × ℝ, 0 < x.1 → 0 < x.2 → pairVal f k x = C * pairVal f' k' x) : lo' ≤ lo := by
  by_contra hn
  obtain ⟨x, hx, hp⟩ := exists_point (slices hae).1 (lt_min (not_le.1 hn) h)
  obtain ⟨y, hy, hq⟩ := exists_point hp hx.1
  have hxe := hx.2.trans_le (min_le_right _ _)
  have := hq (h0.trans hx.1) (h0.trans hy.1)
  rw [pair_value hy.2, pair_value hy.2, zf' x (hx.2.trans_le (min_le_left _ _))] at this
  have p := mul_pos (hf x hx.1 hxe) (hk y hy.1 (hy.2.trans hxe))
  linarith

/-- A model of ordered pairs determines the lower limit; above any mass `c` it determines the density of the heavier mass,
and below it that of the lighter one, up to constants. -/
theorem pair_determined (h0 : 0 < lo) (h : lo < e) (hf : ∀ x, lo < x → x < e → 0 < f x)
    (hk : ∀ x, lo < x → x < e → 0 < k x) (zf : ∀ x, x < lo → f x = 0) (h0' : 0 < lo') (h' : lo' < e')
    (hf' : ∀ x, lo' < x → x < e' → 0 < f' x) (hk' : ∀ x, lo' < x → x < e' → 0 < k' x) (zf' : ∀ x, x < lo' → f' x = 0)
    (hC : 0 < C) (hae : ∀ᵐ x : ℝ × ℝ, 0 < x.1 → 0 < x.2 → pairVal f k x = C * pairVal f' k' x) :
    lo = lo' ∧ ∀ c, lo < c → c < e → c < e' → (∃ K, 0 < K ∧ ∀ᵐ x : ℝ, c < x → f x = K * f' x) ∧
      ∃ K, 0 < K ∧ ∀ᵐ y : ℝ, 0 < y → y < c → k y = K * k' y := by
  have e1 : lo = lo' := by
    refine le_antisymm (pair_lo (k' := k) (C := 1 / C) h0' h' hf' hk' zf (hae.mono fun x hx a b => ?_)) (pair_lo h0 h hf hk zf' hae)
    rw [hx a b]
    field_simp
  subst e1
  refine ⟨rfl, fun c c1 c2 c3 => ⟨?_, ?_⟩⟩
  · obtain ⟨y, hy, hp⟩ := exists_point (slices hae).2 c1
    have p1 := hk y hy.1 (hy.2.trans c2)
    have p2 := hk' y hy.1 (hy.2.trans c3)
    refine ⟨C * k' y / k y, by positivity, ?_⟩
    filter_upwards [hp] with x hx hcx
    have := hx ((h0.trans c1).trans hcx) (h0.trans hy.1)
    rw [pair_value (hy.2.trans hcx), pair_value (hy.2.trans hcx)] at this
    field_simp
    linarith
  · obtain ⟨x, hx, hp⟩ := exists_point (slices hae).1 (lt_min c2 c3)
    have p1 := hf x (c1.trans hx.1) (hx.2.trans_le (min_le_left _ _))
    have p2 := hf' x (c1.trans hx.1) (hx.2.trans_le (min_le_right _ _))
    refine ⟨C * f' x / f x, by positivity, ?_⟩
    filter_upwards [hp] with y hy y0 hyc
    have := hy ((h0.trans c1).trans hx.1) y0
    rw [pair_value (hyc.trans hx.1), pair_value (hyc.trans hx.1)] at this
    field_simp
    linarith

/-- Candidates that are told apart by their values are told apart by noisy data. -/
theorem pair_recovers {J : Type} [Fintype J] {p : J → ℝ × ℝ → ℝ} {j₀ : J} {v₁ v₂ : NNReal} {Det : Set (ℝ × ℝ)}
    {f k : J → ℝ → ℝ} {lo e H : J → ℝ} {M : ℝ} (h0 : ∀ j, 0 < lo j) (h : ∀ j, lo j < e j) (he : ∀ j, e j ≤ M)
    (hf : ∀ j, IsPdf (f j) (lo j) (H j)) (hk : ∀ j, IsPdf (k j) (lo j) (H j)) (hH : ∀ j, H j ≤ M)
    (pf : ∀ j x, lo j < x → x < e j → 0 < f j x) (pk : ∀ j x, lo j < x → x < e j → 0 < k j x)
    (hp : ∀ j x, 0 < x.1 → 0 < x.2 → p j x = pairVal (f j) (k j) x)
    (hm : ∀ j, Measurable (p j)) (hv₁ : v₁ ≠ 0) (hv₂ : v₂ ≠ 0) (hDet : MeasurableSet Det)
    (hdiff : ∀ j, j ≠ j₀ → ∀ C, 0 < C → ¬ ∀ᵐ x : ℝ × ℝ, 0 < x.1 → 0 < x.2 →
      pairVal (f j) (k j) x = C * pairVal (f j₀) (k j₀) x) :
    Recovers (volume.restrict (Ioc 0 M ×ˢ Ioc 0 M)) volume (gaussianErrors2 v₁ v₂) Det p j₀ := by
  set V : Set (ℝ × ℝ) := Ioc 0 M ×ˢ Ioc 0 M with hV
  have hVm : MeasurableSet V := measurableSet_Ioc.prod measurableSet_Ioc
  have M0 : 0 ≤ M := ((h0 j₀).trans ((h j₀).trans_le (he j₀))).le
  have nn : ∀ j x, 0 ≤ pairVal (f j) (k j) x := fun j x => by
    unfold pairVal
    have := mul_nonneg ((hf j).nonneg x.1) ((hk j).nonneg x.2)
    split_ifs <;> simp [this]
  have pn : ∀ j, ∀ᵐ x ∂volume.restrict V, 0 ≤ p j x := fun j => by
    filter_upwards [ae_restrict_mem hVm] with x hx
    rw [hp j x hx.1.1 hx.2.1]
    exact nn j x
  have pi : ∀ j, IntegrableOn (p j) V := fun j => by
    refine (pairVal_integrable (hf j).int (hk j).int).integrableOn.congr ?_
    filter_upwards [ae_restrict_mem hVm] with x hx
    exact (hp j x hx.1.1 hx.2.1).symm
  have pp : ∀ j, 0 < ∫ x in V, p j x := fun j => by
    rw [setIntegral_pos_iff_support_of_nonneg_ae (pn j) (pi j)]
    obtain ⟨m, m1, m2⟩ := exists_between (h j)
    refine lt_of_lt_of_le ?_ (measure_mono (s := Ioo m (e j) ×ˢ Ioo (lo j) m) fun x hx => ?_)
    · rw [Measure.volume_eq_prod, Measure.prod_prod, Real.volume_Ioo, Real.volume_Ioo]
      exact ENNReal.mul_pos (ENNReal.ofReal_pos.2 (sub_pos.2 m2)).ne' (ENNReal.ofReal_pos.2 (sub_pos.2 m1)).ne'
    · obtain ⟨⟨x1, x2⟩, y1, y2⟩ := hx
      have q1 : 0 < x.1 := ((h0 j).trans m1).trans x1
      have q2 : 0 < x.2 := (h0 j).trans y1
      refine ⟨?_, ⟨q1, x2.le.trans (he j)⟩, q2, (y2.trans m2).le.trans (he j)⟩
      rw [Function.mem_support, hp j x q1 q2, show x = (x.1, x.2) from rfl, pair_value (y2.trans x1)]
      have := mul_pos (pf j x.1 (m1.trans x1) x2) (pk j x.2 y1 (y2.trans m2))
      exact (mul_pos this two_pos).ne'
  have hK : ∀ x ∈ Ioc 0 M, |x| ≤ M := fun x hx => by rw [abs_of_pos hx.1]; exact hx.2
  refine C161_recovers (SeveralErrors.resolves_two hv₁ hv₂ measurableSet_Ioc measurableSet_Ioc hK hK M0) hDet
    (fun j => ⟨hm j, pn j, pi j, pp j⟩) fun j hj C hC hae => hdiff j hj C hC ?_
  filter_upwards [(ae_restrict_iff' hVm).1 hae] with x hx q1 q2
  by_cases hxV : x ∈ V
  · rw [← hp j x q1 q2, ← hp j₀ x q1 q2]
    exact hx hxV
  · have z : ∀ j, pairVal (f j) (k j) x = 0 := fun j => by
      have : M < x.1 ∨ M < x.2 := by
        by_contra hn
        push Not at hn
        exact hxV ⟨⟨q1, hn.1⟩, q2, hn.2⟩
      unfold pairVal
      rcases this with h1 | h1
      · rw [(hf j).supp x.1 fun hh => absurd (hh.2.trans (hH j)) (not_le.2 h1)]
        simp
      · rw [(hk j).supp x.2 fun hh => absurd (hh.2.trans (hH j)) (not_le.2 h1)]
        simp
    rw [z, z, mul_zero]

/-! ### Two power laws -/

variable {a b a' b' hi hi' : ℝ}

/-- The density of a power law. -/
abbrev law (a lo hi : ℝ) : ℝ → ℝ := Spec.normalised (fun t => t ^ (-a)) lo hi

theorem law_pos (h0 : 0 < lo) (h : lo < hi) {x : ℝ} (h1 : lo < x) (h2 : x < hi) : 0 < law a lo hi x :=
  Identifiable.normalised_pos (shape_rpow h0 h) ⟨h1, h2⟩

theorem law_eq {x : ℝ} (h1 : lo < x) (h2 : x < hi) : law a lo hi x = x ^ (-a) / ∫ t in lo..hi, t ^ (-a) := by
  unfold law Spec.normalised
  rw [if_pos ⟨h1.le, h2.le⟩]

theorem law_slope {l r K hi' : ℝ} (h0 : 0 < lo) (hl : lo ≤ l) (hlr : l < r) (hr : r ≤ hi) (hr' : r ≤ hi') (hK : 0 < K)
    (hae : ∀ᵐ x : ℝ, l < x → x < r → law a lo hi x = K * law a' lo hi' x) : a = a' := by
  have Z : ∀ {a hi : ℝ}, lo < hi → 0 < ∫ t in lo..hi, t ^ (-a) := fun h => integral_rpow_pos h0 h
  have z1 := Z (a := a) ((hl.trans_lt hlr).trans_le hr)
  have z2 := Z (a := a') ((hl.trans_lt hlr).trans_le hr')
  have all := eq_of_ae (rpow_continuousOn (1 / ∫ t in lo..hi, t ^ (-a)) a (h0.le.trans hl))
    (rpow_continuousOn (K / ∫ t in lo..hi', t ^ (-a')) a' (h0.le.trans hl)) (b := r) (by
      filter_upwards [hae] with x hx hxI
      have := hx hxI.1 hxI.2
      rw [law_eq (hl.trans_lt hxI.1) (hxI.2.trans_le hr), law_eq (hl.trans_lt hxI.1) (hxI.2.trans_le hr')] at this
      rw [one_div_mul_eq_div, this]
      ring)
  refine neg_injective (slope (k := K * (∫ t in lo..hi, t ^ (-a)) / ∫ t in lo..hi', t ^ (-a')) (h0.le.trans hl) hlr
    (by positivity) fun x hx => ?_)
  have := all x hx
  field_simp at this ⊢
  linarith

theorem law_hi {K : ℝ} (h0 : 0 < lo) (hc : lo < c) (hch : c < hi) (hK : 0 < K)
    (hae : ∀ᵐ x : ℝ, c < x → law a lo hi x = K * law a' lo hi' x) (h' : lo < hi') : hi' ≤ hi := by
  by_contra hn
  obtain ⟨x, hx, hp⟩ := exists_point hae (not_le.1 hn)
  have := hp (hch.trans hx.1)
  rw [show law a lo hi x = 0 from normalised_out (Or.inr hx.1)] at this
  exact (mul_pos hK (law_pos (a := a') h0 h' (hc.trans (hch.trans hx.1)) hx.2)).ne this

theorem laws_determined (h0 : 0 < lo) (h : lo < hi) (h0' : 0 < lo') (h' : lo' < hi') (hC : 0 < C)
    (hae : ∀ᵐ x : ℝ × ℝ, 0 < x.1 → 0 < x.2 →
      pairVal (law a lo hi) (law b lo hi) x = C * pairVal (law a' lo' hi') (law b' lo' hi') x) :
    a = a' ∧ b = b' ∧ lo = lo' ∧ hi = hi' := by
  obtain ⟨e1, hc⟩ := pair_determined h0 h (fun x => law_pos h0 h) (fun x => law_pos h0 h)
    (fun x hx => normalised_out (Or.inl hx)) h0' h' (fun x => law_pos h0' h') (fun x => law_pos h0' h')
    (fun x hx => normalised_out (Or.inl hx)) hC hae
  subst e1
  obtain ⟨c, c1, c2⟩ := exists_between (lt_min h h')
  have c3 := c2.trans_le (min_le_left _ _)
  have c4 := c2.trans_le (min_le_right _ _)
  obtain ⟨⟨K, hK, hF⟩, L, hL, hG⟩ := hc c c1 c3 c4
  have e2 : hi = hi' := by
    refine le_antisymm (law_hi (a := a') (a' := a) (K := 1 / K) h0 c1 c4 (by positivity) (hF.mono fun x hx hcx => ?_) h)
      (law_hi h0 c1 c3 hK hF h')
    rw [hx hcx]
    field_simp
  subst e2
  exact ⟨law_slope h0 c1.le c3 le_rfl le_rfl hK (hF.mono fun x hx hcx _ => hx hcx),
    law_slope h0 le_rfl c1 c3.le c4.le hL (hG.mono fun x hx hlx hxc => hx (h0.trans hlx) hxc), rfl, rfl⟩

/-! ### Two power laws with peaks -/

variable {lam mu s g lam' mu' s' g' : ℝ}

theorem peaks_determined (h0 : 0 < lo) (h : lo < hi) (hg : lo < g) (l0 : 0 < lam) (l1 : lam < 1) (hs : 0 < s)
    (h0' : 0 < lo') (h' : lo' < hi') (hg' : lo' < g') (l0' : 0 < lam') (l1' : lam' < 1) (hs' : 0 < s') (hC : 0 < C)
    (hae : ∀ᵐ x : ℝ × ℝ, 0 < x.1 → 0 < x.2 →
      pairVal (val a lo hi lam mu s g) (val b lo hi lam mu s g) x =
        C * pairVal (val a' lo' hi' lam' mu' s' g') (val b' lo' hi' lam' mu' s' g') x) :
    a = a' ∧ b = b' ∧ lo = lo' ∧ hi = hi' ∧ lam = lam' ∧ mu = mu' ∧ s = s' ∧ g = g' := by
  have vp : ∀ {a lo hi lam mu s g : ℝ}, 0 < lo → lo < hi → lo < g → 0 < lam → lam < 1 → ∀ x, lo < x → x < min hi g →
      0 < val a lo hi lam mu s g x := fun h0 h hg l0 l1 x h1 h2 =>
    val_pos h0 h hg l0 l1 h1 (h2.trans_le (min_le_left _ _)) (h2.trans_le (min_le_right _ _))
  obtain ⟨e1, hc⟩ := pair_determined h0 (lt_min h hg) (vp h0 h hg l0 l1) (vp h0 h hg l0 l1) (fun x => val_below) h0'
    (lt_min h' hg') (vp h0' h' hg' l0' l1') (vp h0' h' hg' l0' l1') (fun x => val_below) hC hae
  subst e1
  have Zp : ∀ {a hi : ℝ}, lo < hi → 0 < ∫ t in lo..hi, t ^ (-a) := fun h => integral_rpow_pos h0 h
  have Zb : ∀ {mu s g : ℝ}, lo < g → 0 < ∫ t in lo..g, bell mu s t := fun h => integral_gaussShape_pos h
  have n1 : 0 < 1 - lam := by linarith
  have n1' : 0 < 1 - lam' := by linarith
  obtain ⟨c, c1, c2⟩ := exists_between (lt_min (lt_min h hg) (lt_min h' hg'))
  have c3 := c2.trans_le (min_le_left _ _)
  have c4 := c2.trans_le (min_le_right _ _)
  have c5 := c3.trans_le (min_le_left _ _)
  have c6 := c3.trans_le (min_le_right _ _)
  have c7 := c4.trans_le (min_le_left _ _)
  have c8 := c4.trans_le (min_le_right _ _)
  have c0 : 0 < c := h0.trans c1
  obtain ⟨⟨K, hK, hF⟩, L, hL, hG⟩ := hc c c1 c3 c4
  obtain ⟨A, hA⟩ : ∃ A, A = (1 - lam) / ∫ t in lo..hi, t ^ (-a) := ⟨_, rfl⟩
  obtain ⟨B, hB⟩ : ∃ B, B = lam / ∫ t in lo..g, bell mu s t := ⟨_, rfl⟩
  obtain ⟨A', hA'⟩ : ∃ A, A = K * ((1 - lam') / ∫ t in lo..hi', t ^ (-a')) := ⟨_, rfl⟩
  obtain ⟨B', hB'⟩ : ∃ B, B = K * (lam' / ∫ t in lo..g', bell mu' s' t) := ⟨_, rfl⟩
  have pA : 0 < A := hA ▸ div_pos n1 (Zp h)
  have pA' : 0 < A' := hA' ▸ mul_pos hK (div_pos n1' (Zp h'))
  have pB : 0 < B := hB ▸ div_pos l0 (Zb hg)
  have pB' : 0 < B' := hB' ▸ mul_pos hK (div_pos l0' (Zb hg'))
  have key : ∀ᵐ x : ℝ, c < x → ((if x ≤ hi then A * x ^ (-a) else 0) + if x ≤ g then B * bell mu s x else 0) =
      (if x ≤ hi' then A' * x ^ (-a') else 0) + if x ≤ g' then B' * bell mu' s' x else 0 := by
    filter_upwards [hF] with x hx hlx
    have := hx hlx
    rw [val_eq (c1.trans hlx), val_eq (c1.trans hlx), ← hA, ← hB] at this
    rw [this, hA', hB', mul_add, mul_ite, mul_ite, mul_zero, mul_assoc K, mul_assoc K]
  have hr : c < min (min hi g) (min hi' g') := c2
  obtain ⟨e2, e3, e4, e5, e6⟩ := mixture pA pB pA' pB' hs hs' c0.le hr (eq_of_ae
    ((rpow_continuousOn A a c0.le).add ((bell_continuous mu s).const_smul B).continuousOn)
    ((rpow_continuousOn A' a' c0.le).add ((bell_continuous mu' s').const_smul B').continuousOn) (by
      filter_upwards [key] with x hx hxI
      have := hx hxI.1
      have k1 := hxI.2.le.trans (min_le_left _ _)
      have k2 := hxI.2.le.trans (min_le_right _ _)
      rwa [if_pos (k1.trans (min_le_left _ _)), if_pos (k1.trans (min_le_right _ _)),
        if_pos (k2.trans (min_le_left _ _)), if_pos (k2.trans (min_le_right _ _))] at this))
  subst e2 e4 e5
  rw [← e3, ← e6] at key
  have key' := key.mono fun x hx h => (hx h).symm
  have e7 : hi = hi' := le_antisymm (peak_hi c0 c7 pA pB hs key) (peak_hi c0 c5 pA pB hs key')
  subst e7
  have e8 : g = g' := le_antisymm (peak_g c8 pB key) (peak_g c6 pB key')
  subst e8
  have q1 : 1 - lam = K * (1 - lam') := by
    rw [hA, hA'] at e3
    have := (Zp (a := a) h).ne'
    field_simp at e3
    exact e3
  have q2 : lam = K * lam' := by
    rw [hB, hB'] at e6
    have := (Zb (mu := mu) (s := s) hg).ne'
    field_simp at e6
    exact e6
  have eK : K = 1 := by linarith
  have e9 : lam = lam' := by rw [q2, eK, one_mul]
  subst e9
  have := mixture (div_pos n1 (Zp (a := b) h)) pB (mul_pos hL (div_pos n1 (Zp (a := b') h))) (mul_pos hL pB) hs hs h0.le c1
    (eq_of_ae ((rpow_continuousOn _ b h0.le).add ((bell_continuous mu s).const_smul B).continuousOn)
    ((rpow_continuousOn _ b' h0.le).add ((bell_continuous mu s).const_smul (L * B)).continuousOn) (by
      filter_upwards [hG] with x hx hxI
      have := hx (h0.trans hxI.1) hxI.2
      rw [val_eq hxI.1, val_eq hxI.1, if_pos (hxI.2.trans c5).le, if_pos (hxI.2.trans c6).le,
        if_pos (hxI.2.trans c5).le, ← hB, mul_add, ← mul_assoc L, ← mul_assoc L] at this
      exact this))
  exact ⟨rfl, this.1, rfl, rfl, rfl, rfl, rfl, rfl⟩

end TwoMasses

open TwoMasses Peak

/-! ## The property -/

variable {v₁ v₂ : NNReal} {Det : Set (ℝ × ℝ)}

/-- **C169.** The population of both masses determines the two indices and the limits of the independent power laws. -/
theorem C169_powerLaws (b : Backend) (py : Bool) {a beta lo hi a' beta' lo' hi' : ℝ} (h0 : 0 < lo) (h : lo < hi)
    (h0' : 0 < lo') (h' : lo' < hi')
    (hsame : ∀ᵐ x : ℝ × ℝ, 0 < x.1 → 0 < x.2 →
      powerLawPrimarySecondaryIndependent b py (fin x.1) (fin x.2) (fin a) (fin beta) (fin lo) (fin hi) =
        powerLawPrimarySecondaryIndependent b py (fin x.1) (fin x.2) (fin a') (fin beta') (fin lo') (fin hi')) :
    a = a' ∧ beta = beta' ∧ lo = lo' ∧ hi = hi' := by
  refine laws_determined (C := 1) h0 h h0' h' one_pos ?_
  filter_upwards [hsame] with x hx q1 q2
  have := hx q1 q2
  rw [powerLawIndependent_val b py h0 h q1 q2, powerLawIndependent_val b py h0' h' q1 q2] at this
  rw [one_mul]
  exact Fl.fin.inj (Except.ok.inj this)

/-- **C169.** The same for one index common to both masses. -/
theorem C169_powerLaw_identical (b : Backend) (py : Bool) {a lo hi a' lo' hi' : ℝ} (h0 : 0 < lo) (h : lo < hi)
    (h0' : 0 < lo') (h' : lo' < hi')
    (hsame : ∀ᵐ x : ℝ × ℝ, 0 < x.1 → 0 < x.2 →
      powerLawPrimarySecondaryIdentical b py (fin x.1) (fin x.2) (fin a) (fin lo) (fin hi) =
        powerLawPrimarySecondaryIdentical b py (fin x.1) (fin x.2) (fin a') (fin lo') (fin hi')) :
    a = a' ∧ lo = lo' ∧ hi = hi' :=
  (C169_powerLaws b py h0 h h0' h' hsame).imp_right fun q => q.2

/-- **C169.** The population of both masses determines all eight parameters of the power laws with peaks, if both parts
are present. -/
theorem C169_peaks (b : Backend) (py : Bool)
    {a beta lo hi lam mu s g a' beta' lo' hi' lam' mu' s' g' : ℝ}
    (ha : b = .jax ∨ a ≠ -1) (hb : b = .jax ∨ beta ≠ -1) (h0 : 0 < lo) (h : lo < hi) (hg : lo < g) (l0 : 0 < lam)
    (l1 : lam < 1) (hs : 0 < s) (ha' : b = .jax ∨ a' ≠ -1) (hb' : b = .jax ∨ beta' ≠ -1) (h0' : 0 < lo') (h' : lo' < hi')
    (hg' : lo' < g') (l0' : 0 < lam') (l1' : lam' < 1) (hs' : 0 < s')
    (hsame : ∀ᵐ x : ℝ × ℝ, 0 < x.1 → 0 < x.2 →
      twoComponentPrimarySecondaryIndependent b py (fin x.1) (fin x.2) (fin a) (fin beta) (fin lo) (fin hi) (fin lam)
          (fin mu) (fin s) (fin g) =
        twoComponentPrimarySecondaryIndependent b py (fin x.1) (fin x.2) (fin a') (fin beta') (fin lo') (fin hi')
          (fin lam') (fin mu') (fin s') (fin g')) :
    a = a' ∧ beta = beta' ∧ lo = lo' ∧ hi = hi' ∧ lam = lam' ∧ mu = mu' ∧ s = s' ∧ g = g' := by
  refine peaks_determined (C := 1) h0 h hg l0 l1 hs h0' h' hg' l0' l1' hs' one_pos ?_
  filter_upwards [hsame] with x hx q1 q2
  have := hx q1 q2
  rw [twoComponentIndependent_val b py ha hb h0 h hg hs q1 q2,
    twoComponentIndependent_val b py ha' hb' h0' h' hg' hs' q1 q2] at this
  rw [one_mul]
  exact Fl.fin.inj (Except.ok.inj this)

/-- **C169.** The same for one index common to both masses. -/
theorem C169_peaks_identical (b : Backend) (py : Bool) {a lo hi lam mu s g a' lo' hi' lam' mu' s' g' : ℝ}
    (ha : b = .jax ∨ a ≠ -1) (h0 : 0 < lo) (h : lo < hi) (hg : lo < g) (l0 : 0 < lam)
    (l1 : lam < 1) (hs : 0 < s) (ha' : b = .jax ∨ a' ≠ -1) (h0' : 0 < lo') (h' : lo' < hi')
    (hg' : lo' < g') (l0' : 0 < lam') (l1' : lam' < 1) (hs' : 0 < s')
    (hsame : ∀ᵐ x : ℝ × ℝ, 0 < x.1 → 0 < x.2 →
      twoComponentPrimarySecondaryIdentical b py (fin x.1) (fin x.2) (fin a) (fin lo) (fin hi) (fin lam)
          (fin mu) (fin s) (fin g) =
        twoComponentPrimarySecondaryIdentical b py (fin x.1) (fin x.2) (fin a') (fin lo') (fin hi')
          (fin lam') (fin mu') (fin s') (fin g')) :
    a = a' ∧ lo = lo' ∧ hi = hi' ∧ lam = lam' ∧ mu = mu' ∧ s = s' ∧ g = g' :=
  (C169_peaks b py ha ha h0 h hg l0 l1 hs ha' ha' h0' h' hg' l0' l1' hs' hsame).imp_right fun q => q.2

/-- **C169.** All four parameters of the independent power laws are found from noisy masses of detected sources, although
the model is not normalised when the indices differ (C20). -/
theorem C169_powerLaws_recovers {J : Type} [Fintype J] {p : J → ℝ × ℝ → ℝ} {j₀ : J} (b : Backend) (py : Bool)
    {a beta lo hi : J → ℝ} {M : ℝ} (h0 : ∀ j, 0 < lo j) (h : ∀ j, lo j < hi j) (hM : ∀ j, hi j ≤ M)
    (hinj : ∀ j, j ≠ j₀ → (a j, beta j, lo j, hi j) ≠ (a j₀, beta j₀, lo j₀, hi j₀))
    (hp : ∀ j m1 m2, 0 < m1 → 0 < m2 → powerLawPrimarySecondaryIndependent b py (fin m1) (fin m2) (fin (a j))
      (fin (beta j)) (fin (lo j)) (fin (hi j)) = .ok (fin (p j (m1, m2))))
    (hm : ∀ j, Measurable (p j)) (hv₁ : v₁ ≠ 0) (hv₂ : v₂ ≠ 0) (hD : MeasurableSet Det) :
    Recovers (volume.restrict (Ioc 0 M ×ˢ Ioc 0 M)) volume (gaussianErrors2 v₁ v₂) Det p j₀ := by
  refine pair_recovers h0 h hM (fun j => isPdf_powerlaw (-a j) (h0 j) (h j)) (fun j => isPdf_powerlaw (-beta j) (h0 j) (h j))
    hM (fun j x => law_pos (h0 j) (h j)) (fun j x => law_pos (h0 j) (h j)) (fun j x q1 q2 => ?_) hm hv₁ hv₂ hD
    fun j hj C hC hae => hinj j hj ?_
  · exact Fl.fin.inj (Except.ok.inj ((hp j x.1 x.2 q1 q2).symm.trans (powerLawIndependent_val b py (h0 j) (h j) q1 q2)))
  · obtain ⟨e1, e2, e3, e4⟩ := laws_determined (h0 j) (h j) (h0 j₀) (h j₀) hC hae
    rw [e1, e2, e3, e4]

/-- **C169.** All eight parameters of the power laws with peaks are found from noisy masses of detected sources. -/
theorem C169_peaks_recovers {J : Type} [Fintype J] {p : J → ℝ × ℝ → ℝ} {j₀ : J} (b : Backend) (py : Bool)
    {a beta lo hi lam mu s g : J → ℝ} {M : ℝ} (ha : ∀ j, b = .jax ∨ a j ≠ -1) (hb : ∀ j, b = .jax ∨ beta j ≠ -1)
    (h0 : ∀ j, 0 < lo j) (h : ∀ j, lo j < hi j) (hg : ∀ j, lo j < g j) (l0 : ∀ j, 0 < lam j) (l1 : ∀ j, lam j < 1)
    (hs : ∀ j, 0 < s j) (hM : ∀ j, hi j ≤ M) (hMg : ∀ j, g j ≤ M)
    (hinj : ∀ j, j ≠ j₀ → (a j, beta j, lo j, hi j, lam j, mu j, s j, g j) ≠
      (a j₀, beta j₀, lo j₀, hi j₀, lam j₀, mu j₀, s j₀, g j₀))
    (hp : ∀ j m1 m2, 0 < m1 → 0 < m2 → twoComponentPrimarySecondaryIndependent b py (fin m1) (fin m2) (fin (a j))
      (fin (beta j)) (fin (lo j)) (fin (hi j)) (fin (lam j)) (fin (mu j)) (fin (s j)) (fin (g j)) = .ok (fin (p j (m1, m2))))
    (hm : ∀ j, Measurable (p j)) (hv₁ : v₁ ≠ 0) (hv₂ : v₂ ≠ 0) (hD : MeasurableSet Det) :
    Recovers (volume.restrict (Ioc 0 M ×ˢ Ioc 0 M)) volume (gaussianErrors2 v₁ v₂) Det p j₀ := by
  have pdf : ∀ j a, IsPdf (val a (lo j) (hi j) (lam j) (mu j) (s j) (g j)) (lo j) (max (hi j) (g j)) := fun j a =>
    twoComponent_isPdf (h0 j) (h j) (hg j) (l0 j).le (l1 j).le
  have pos : ∀ j a x, lo j < x → x < min (hi j) (g j) → 0 < val a (lo j) (hi j) (lam j) (mu j) (s j) (g j) x :=
    fun j a x h1 h2 => val_pos (h0 j) (h j) (hg j) (l0 j) (l1 j) h1 (h2.trans_le (min_le_left _ _))
      (h2.trans_le (min_le_right _ _))
  refine pair_recovers h0 (fun j => lt_min (h j) (hg j)) (fun j => (min_le_left _ _).trans (hM j)) (fun j => pdf j (a j))
    (fun j => pdf j (beta j)) (fun j => max_le (hM j) (hMg j)) (fun j => pos j (a j)) (fun j => pos j (beta j))
    (fun j x q1 q2 => ?_) hm hv₁ hv₂ hD fun j hj C hC hae => hinj j hj ?_
  · exact Fl.fin.inj (Except.ok.inj ((hp j x.1 x.2 q1 q2).symm.trans (twoComponentIndependent_val b py (ha j) (hb j) (h0 j)
      (h j) (hg j) (hs j) q1 q2)))
  · obtain ⟨e1, e2, e3, e4, e5, e6, e7, e8⟩ := peaks_determined (h0 j) (h j) (hg j) (l0 j) (l1 j) (hs j) (h0 j₀) (h j₀)
      (hg j₀) (l0 j₀) (l1 j₀) (hs j₀) hC hae
    rw [e1, e2, e3, e4, e5, e6, e7, e8]

/-! ## Non-vacuity -/

theorem TwoMasses.pair_measurable {f k : ℝ → ℝ} (hf : Measurable f) (hk : Measurable k) : Measurable (pairVal f k) := by
  unfold pairVal
  exact (((hf.comp measurable_fst).mul (hk.comp measurable_snd)).mul (Measurable.ite
    (measurableSet_le measurable_snd measurable_fst) measurable_const measurable_const)).mul_const 2

theorem TwoMasses.law_measurable (a lo hi : ℝ) : Measurable (law a lo hi) := by
  unfold law Spec.normalised
  exact Measurable.ite measurableSet_Icc ((measurable_id.pow_const _).div_const _) measurable_const

theorem TwoMasses.val_measurable (a lo hi lam mu s g : ℝ) : Measurable (val a lo hi lam mu s g) := by
  refine ((law_measurable a lo hi).const_mul _).add (Measurable.const_mul ?_ _)
  unfold Spec.normalised
  exact Measurable.ite measurableSet_Icc ((bell_continuous mu s).measurable.div_const _) measurable_const

/-- Candidates for the index of the lighter mass and the upper limit. -/
example (b : Backend) (py : Bool) (hv₁ : v₁ ≠ 0) (hv₂ : v₂ ≠ 0) (hD : MeasurableSet Det) :
    ∃ p : Bool × Bool → ℝ × ℝ → ℝ, (∀ j, Measurable (p j)) ∧
    (∀ j m1 m2, 0 < m1 → 0 < m2 → powerLawPrimarySecondaryIndependent b py (fin m1) (fin m2) (fin 2.3)
      (fin (if j.1 then 1 else 2)) (fin 5) (fin (if j.2 then 50 else 80)) = .ok (fin (p j (m1, m2)))) ∧
    Recovers (volume.restrict (Ioc 0 80 ×ˢ Ioc 0 80)) volume (gaussianErrors2 v₁ v₂) Det p (true, true) := by
  obtain ⟨l, hl⟩ : ∃ a : Bool × Bool → ℝ, a = fun j => if j.1 then 1 else 2 := ⟨_, rfl⟩
  obtain ⟨k, hk⟩ : ∃ a : Bool × Bool → ℝ, a = fun j => if j.2 then 50 else 80 := ⟨_, rfl⟩
  have k0 : ∀ j, 5 < k j := fun j => by rcases j with ⟨_, _ | _⟩ <;> norm_num [hk]
  have k1 : ∀ j, k j ≤ 80 := fun j => by rcases j with ⟨_, _ | _⟩ <;> norm_num [hk]
  have hp := fun (j : Bool × Bool) (m1 m2 : ℝ) (q1 : 0 < m1) (q2 : 0 < m2) => powerLawIndependent_val (a := 2.3)
    (beta := l j) (mmin := 5) (mmax := k j) b py (by norm_num) (k0 j) q1 q2
  have hm := fun j => pair_measurable (law_measurable 2.3 5 (k j)) (law_measurable (l j) 5 (k j))
  refine ⟨fun j => pairVal (law 2.3 5 (k j)) (law (l j) 5 (k j)), hm, fun j m1 m2 q1 q2 => by
    have := hp j m1 m2 q1 q2
    rw [hl, hk] at this ⊢
    exact this, C169_powerLaws_recovers (a := fun _ => 2.3) (beta := l) (lo := fun _ => 5) (hi := k) b py
    (fun _ => by norm_num) k0 k1 (fun j hj => ?_) hp hm hv₁ hv₂ hD⟩
  rcases j with ⟨_ | _, _ | _⟩
  · norm_num [hl]
  · norm_num [hl]
  · norm_num [hk]
  · exact absurd rfl hj

/-- Candidates for the fraction in the peak and its width. -/
example (py : Bool) (hv₁ : v₁ ≠ 0) (hv₂ : v₂ ≠ 0) (hD : MeasurableSet Det) :
    ∃ p : Bool × Bool → ℝ × ℝ → ℝ, (∀ j, Measurable (p j)) ∧
    (∀ j m1 m2, 0 < m1 → 0 < m2 → twoComponentPrimarySecondaryIndependent .numpy py (fin m1) (fin m2) (fin 2.3)
      (fin 1) (fin 5) (fin 80) (fin (if j.1 then 0.1 else 0.2)) (fin 35) (fin (if j.2 then 4 else 5)) (fin 100) =
        .ok (fin (p j (m1, m2)))) ∧
    Recovers (volume.restrict (Ioc 0 100 ×ˢ Ioc 0 100)) volume (gaussianErrors2 v₁ v₂) Det p (true, true) := by
  obtain ⟨l, hl⟩ : ∃ a : Bool × Bool → ℝ, a = fun j => if j.1 then 0.1 else 0.2 := ⟨_, rfl⟩
  obtain ⟨k, hk⟩ : ∃ a : Bool × Bool → ℝ, a = fun j => if j.2 then 4 else 5 := ⟨_, rfl⟩
  have l0 : ∀ j, 0 < l j := fun j => by rcases j with ⟨_ | _, _⟩ <;> norm_num [hl]
  have l1 : ∀ j, l j < 1 := fun j => by rcases j with ⟨_ | _, _⟩ <;> norm_num [hl]
  have k0 : ∀ j, 0 < k j := fun j => by rcases j with ⟨_, _ | _⟩ <;> norm_num [hk]
  have hp := fun (j : Bool × Bool) (m1 m2 : ℝ) (q1 : 0 < m1) (q2 : 0 < m2) => twoComponentIndependent_val (a := 2.3)
    (beta := 1) (mmin := 5) (mmax := 80) (lam := l j) (mpp := 35) (sigpp := k j) (gmm := 100) .numpy py
    (Or.inr (by norm_num)) (Or.inr (by norm_num)) (by norm_num) (by norm_num) (by norm_num) (k0 j) q1 q2
  have hm := fun j => pair_measurable (val_measurable 2.3 5 80 (l j) 35 (k j) 100) (val_measurable 1 5 80 (l j) 35 (k j) 100)
  refine ⟨fun j => pairVal (val 2.3 5 80 (l j) 35 (k j) 100) (val 1 5 80 (l j) 35 (k j) 100), hm, fun j m1 m2 q1 q2 => by
    have := hp j m1 m2 q1 q2
    rw [hl, hk] at this ⊢
    exact this, C169_peaks_recovers (a := fun _ => 2.3) (beta := fun _ => 1) (lo := fun _ => 5) (hi := fun _ => 80)
    (lam := l) (mu := fun _ => 35) (s := k) (g := fun _ => 100) .numpy py (fun _ => Or.inr (by norm_num))
    (fun _ => Or.inr (by norm_num)) (fun _ => by norm_num) (fun _ => by norm_num) (fun _ => by norm_num) l0 l1 k0
    (fun _ => by norm_num) (fun _ => by norm_num) (fun j hj => ?_) hp hm hv₁ hv₂ hD⟩
  rcases j with ⟨_ | _, _ | _⟩
  · norm_num [hl]
  · norm_num [hl]
  · norm_num [hk]
  · exact absurd rfl hj

end GW
