import Mathlib.Analysis.Analytic.Uniqueness
import Mathlib.MeasureTheory.Measure.OpenPos
import Verif.Props.MassJoint
import Verif.Props.Truncnorm
import Verif.Props.BetaDist
import Verif.Props.Redshift

/-!
# C156: different hyper-parameters are different populations
-/

noncomputable section

open Classical Set MeasureTheory

namespace GW

open Fl Spec

/-! ## Specification -/

/-- Two densities on `S` describe the same population: they agree, except possibly on a set of measure zero. -/
def Spec.SamePopulation (S : Set ℝ) (F G : ℝ → Except PyErr Fl) : Prop := ∀ᵐ x : ℝ, x ∈ S → F x = G x

/-! ## Lemmas -/

namespace Identifiable

/-- A property that holds almost everywhere holds somewhere in every interval. -/
theorem exists_point {p : ℝ → Prop} (h : ∀ᵐ x : ℝ, p x) {a b : ℝ} (hab : a < b) : ∃ x ∈ Ioo a b, p x := by
  by_contra hn
  push Not at hn
  have h1 : Ioo a b ⊆ {x | ¬ p x} := fun x hx => hn x hx
  have h2 := measure_mono_null h1 (ae_iff.1 h)
  rw [Real.volume_Ioo, ENNReal.ofReal_eq_zero] at h2
  linarith

/-- A shape on an interval: continuous and positive inside. -/
structure Shape (f : ℝ → ℝ) (lo hi : ℝ) : Prop where
  lt : lo < hi
  cont : ContinuousOn f (Ioo lo hi)
  pos : ∀ x ∈ Ioo lo hi, 0 < f x
  int : 0 < ∫ t in lo..hi, f t

variable {f f' : ℝ → ℝ} {lo hi lo' hi' c c' : ℝ} {S : Set ℝ}

theorem normalised_pos (h : Shape f lo hi) {x : ℝ} (hx : x ∈ Ioo lo hi) : 0 < normalised f lo hi x := by
  unfold normalised
  rw [if_pos ⟨hx.1.le, hx.2.le⟩]
  exact div_pos (h.pos x hx) h.int

theorem normalised_out {x : ℝ} (hx : x < lo ∨ hi < x) : normalised f lo hi x = 0 := by
  unfold normalised
  rw [if_neg]
  rintro ⟨h1, h2⟩
  rcases hx with hx | hx <;> linarith

theorem hi_le (h : Shape f lo hi) (hc : 0 < c) (hS : Ioo lo hi ⊆ S)
    (hae : ∀ᵐ x : ℝ, x ∈ S → c * normalised f lo hi x = c' * normalised f' lo' hi' x) : hi ≤ hi' := by
  by_contra hn
  have hn := not_le.1 hn
  obtain ⟨x, hx, hp⟩ := exists_point hae (max_lt h.lt hn)
  have hx1 : x ∈ Ioo lo hi := ⟨(le_max_left _ _).trans_lt hx.1, hx.2⟩
  have e := hp (hS hx1)
  rw [normalised_out (Or.inr ((le_max_right _ _).trans_lt hx.1)), mul_zero] at e
  exact (mul_pos hc (normalised_pos h hx1)).ne' e

theorem le_lo (h : Shape f lo hi) (hc : 0 < c) (hS : Ioo lo hi ⊆ S)
    (hae : ∀ᵐ x : ℝ, x ∈ S → c * normalised f lo hi x = c' * normalised f' lo' hi' x) : lo' ≤ lo := by
  by_contra hn
  have hn := not_le.1 hn
  obtain ⟨x, hx, hp⟩ := exists_point hae (lt_min h.lt hn)
  have hx1 : x ∈ Ioo lo hi := ⟨hx.1, hx.2.trans_le (min_le_left _ _)⟩
  have e := hp (hS hx1)
  rw [normalised_out (Or.inl (hx.2.trans_le (min_le_right _ _))), mul_zero] at e
  exact (mul_pos hc (normalised_pos h hx1)).ne' e

/-- Two functions on an open interval that agree almost everywhere. -/
theorem eq_of_ae {u w : ℝ → ℝ} {a b : ℝ} (hu : ContinuousOn u (Ioo a b)) (hw : ContinuousOn w (Ioo a b))
    (hae : ∀ᵐ x : ℝ, x ∈ Ioo a b → u x = w x) : ∀ x ∈ Ioo a b, u x = w x :=
  Measure.eqOn_open_of_ae_eq (μ := volume) ((ae_restrict_iff' measurableSet_Ioo).2 hae) isOpen_Ioo hu hw

/-- The same population: the same limits and proportional shapes. -/
theorem shapes (h : Shape f lo hi) (h' : Shape f' lo' hi') (hc : 0 < c) (hc' : 0 < c') (hS : Ioo lo hi ⊆ S)
    (hS' : Ioo lo' hi' ⊆ S) {F G : ℝ → Except PyErr Fl}
    (hF : ∀ x ∈ S, x ≠ lo → x ≠ hi → F x = .ok (fin (c * normalised f lo hi x)))
    (hG : ∀ x ∈ S, x ≠ lo' → x ≠ hi' → G x = .ok (fin (c' * normalised f' lo' hi' x))) (hsame : SamePopulation S F G) :
    lo = lo' ∧ hi = hi' ∧ ∃ k, 0 < k ∧ ∀ x ∈ Ioo lo hi, f x = k * f' x := by
  have hne : ∀ y : ℝ, ∀ᵐ x : ℝ, x ≠ y := fun y => by simp [ae_iff, measure_singleton]
  have hae : ∀ᵐ x : ℝ, x ∈ S → c * normalised f lo hi x = c' * normalised f' lo' hi' x := by
    filter_upwards [hsame, hne lo, hne hi, hne lo', hne hi'] with x hx h1 h2 h3 h4 hxS
    have := hx hxS
    rw [hF x hxS h1 h2, hG x hxS h3 h4] at this
    exact Fl.fin.inj (Except.ok.inj this)
  have hae' : ∀ᵐ x : ℝ, x ∈ S → c' * normalised f' lo' hi' x = c * normalised f lo hi x :=
    hae.mono fun x hx hxS => (hx hxS).symm
  have e1 : lo = lo' := le_antisymm (le_lo h' hc' hS' hae') (le_lo h hc hS hae)
  have e2 : hi = hi' := le_antisymm (hi_le h hc hS hae) (hi_le h' hc' hS' hae')
  subst e1 e2
  set I := ∫ t in lo..hi, f t with hI
  set I' := ∫ t in lo..hi, f' t with hI'
  have p1 : 0 < I := h.int
  have p2 : 0 < I' := h'.int
  clear_value I I'
  have key := eq_of_ae (u := fun x => c * (f x / I)) (w := fun x => c' * (f' x / I'))
    ((h.cont.div_const I).const_smul c) ((h'.cont.div_const I').const_smul c') (by
      filter_upwards [hae] with x hx hxI
      have := hx (hS hxI)
      unfold normalised at this
      rwa [if_pos ⟨hxI.1.le, hxI.2.le⟩, if_pos ⟨hxI.1.le, hxI.2.le⟩, ← hI, ← hI'] at this)
  refine ⟨rfl, rfl, c' * I / (c * I'), by positivity, fun x hx => ?_⟩
  have := key x hx
  field_simp at this ⊢
  linarith

/-- Equal slopes in the logarithm. -/
theorem slope {a a' k : ℝ} (hlo : 0 ≤ lo) (h : lo < hi) (hk : 0 < k) (he : ∀ x ∈ Ioo lo hi, x ^ a = k * x ^ a') :
    a = a' := by
  obtain ⟨x, hx1, hx2⟩ := exists_between h
  obtain ⟨y, hy1, hy2⟩ := exists_between hx2
  have hx0 : 0 < x := hlo.trans_lt hx1
  have hy0 : 0 < y := hx0.trans hy1
  have l : ∀ z, 0 < z → z ∈ Ioo lo hi → a * Real.log z = Real.log k + a' * Real.log z := by
    intro z hz hzm
    rw [← Real.log_rpow hz, ← Real.log_rpow hz, ← Real.log_mul hk.ne' (Real.rpow_pos_of_pos hz _).ne', he z hzm]
  have l1 := l x hx0 ⟨hx1, hx2⟩
  have l2 := l y hy0 ⟨hx1.trans hy1, hy2⟩
  have hl : Real.log x < Real.log y := Real.log_lt_log hx0 hy1
  have : (a - a') * (Real.log y - Real.log x) = 0 := by linarith
  rcases mul_eq_zero.1 this with h1 | h1 <;> linarith

theorem shape_rpow {a : ℝ} (h0 : 0 < lo) (h : lo < hi) : Shape (fun t => t ^ a) lo hi :=
  ⟨h, fun t ht => (Real.continuousAt_rpow_const t a (Or.inl (h0.trans ht.1).ne')).continuousWithinAt,
    fun x hx => Real.rpow_pos_of_pos (h0.trans hx.1) _, integral_rpow_pos h0 h⟩

theorem shape_broken {a1 a2 bf : ℝ} (h0 : 0 < lo) (h : lo < hi) (hb : 0 < bf) :
    Shape (brokenShape a1 a2 (lo + bf * (hi - lo))) lo hi := by
  have hmb : 0 < lo + bf * (hi - lo) := by
    have := mul_pos hb (sub_pos.2 h)
    linarith
  exact ⟨h, (brokenShape_continuousOn a1 a2 hmb).mono fun x hx => h0.trans hx.1,
    fun x hx => brokenShape_pos _ _ hmb (h0.trans hx.1), integral_brokenShape_pos _ _ h0 hmb h⟩

theorem shape_gauss {mu sigma : ℝ} (h : lo < hi) :
    Shape (fun t => Real.exp (-(t - mu) ^ 2 / (2 * sigma ^ 2))) lo hi :=
  ⟨h, (by fun_prop : Continuous fun t : ℝ => Real.exp (-(t - mu) ^ 2 / (2 * sigma ^ 2))).continuousOn,
    fun x _ => Real.exp_pos _, integral_gaussShape_pos h⟩

theorem shape_beta {a b scale : ℝ} (ha : 0 < a) (hb : 0 < b) (hs : 0 < scale) :
    Shape (fun t => t ^ (a - 1) * (scale - t) ^ (b - 1)) 0 scale := by
  have hp : ∀ x ∈ Ioo 0 scale, 0 < x ^ (a - 1) * (scale - x) ^ (b - 1) := fun x hx =>
    mul_pos (Real.rpow_pos_of_pos hx.1 _) (Real.rpow_pos_of_pos (sub_pos.2 hx.2) _)
  refine ⟨hs, fun x hx => ?_, hp,
    intervalIntegral.intervalIntegral_pos_of_pos_on (betaShape_intervalIntegrable ha hb hs) hp hs⟩
  exact ((Real.continuousAt_rpow_const x (a - 1) (Or.inl hx.1.ne')).mul
    ((continuousAt_const.sub continuousAt_id).rpow_const (Or.inl (sub_pos.2 hx.2).ne'))).continuousWithinAt

/-- The value of `beta_dist` away from the end points. -/
theorem beta_value (junk : Fl → Fl → Fl) (bk : Backend) (k₁ k₂ k₃ k₄ : Bool) {x a b scale : ℝ} (ha : 0 < a)
    (hb : 0 < b) (hs : 0 < scale) (h0 : x ≠ 0) (h1 : x ≠ scale) :
    betaDist junk bk ⟨fin x, k₁⟩ ⟨fin a, k₂⟩ ⟨fin b, k₃⟩ ⟨fin scale, k₄⟩ =
      .ok (fin (normalised (fun t => t ^ (a - 1) * (scale - t) ^ (b - 1)) 0 scale x)) := by
  by_cases hin : 0 ≤ x ∧ x ≤ scale
  · exact C05_betaDist_value junk bk k₁ k₂ k₃ k₄ ha hb (lt_of_le_of_ne hin.1 (Ne.symm h0)) (lt_of_le_of_ne hin.2 h1)
  · obtain ⟨r, -, hr, hz⟩ := C06_betaDist_total junk bk (fin x) (fin a) (fin b) (fin scale)
    rw [betaDist_eq, if_neg (by simp)] at hr
    have hr := Except.ok.inj hr
    rw [hz (by simpa using hin)] at hr
    rw [betaDist_eq, if_neg (by simp [ha, hb, hs])]
    unfold normalised
    rw [if_neg hin]
    exact congrArg Except.ok hr

/-- The same redshift distribution: the same maximum redshift and proportional rates. -/
theorem rates {s s' : Redshift} {φ φ' : Dict Fl} {psi psi' v : ℝ → ℝ} (h : RateAt s φ psi v) (h' : RateAt s' φ' psi' v)
    (hz : 1e-6 < s.zMax) (hz' : 1e-6 < s'.zMax) (hc : ContinuousOn psi (Ici 0)) (hc' : ContinuousOn psi' (Ici 0))
    (h1 : psi 0 = 1) (h1' : psi' 0 = 1)
    (hsame : SamePopulation (Ioi 0) (fun z => s.probability [("redshift", fin z)] φ)
      (fun z => s'.probability [("redshift", fin z)] φ')) :
    s.zMax = s'.zMax ∧ ∀ z ∈ Ico 0 s.zMax, psi z = psi' z := by
  obtain ⟨N, hN, hp, -, -⟩ := C31_probability h hz
  obtain ⟨N', hN', hp', -, -⟩ := C31_probability h' hz'
  have hz0 : 0 < s.zMax := by linarith
  have hz0' : 0 < s'.zMax := by linarith
  have hae : ∀ᵐ z : ℝ, 0 < z → (if z ≤ s.zMax then volumeElement psi v z / N else 0) =
      if z ≤ s'.zMax then volumeElement psi' v z / N' else 0 := by
    filter_upwards [hsame] with z hzz hz0
    have := hzz hz0
    rw [hp _ z (le_of_lt hz0) (by simp [Dict.get?_cons]), hp' _ z (le_of_lt hz0) (by simp [Dict.get?_cons])] at this
    exact Fl.fin.inj (Except.ok.inj this)
  have e : s.zMax = s'.zMax := by
    rcases lt_trichotomy s.zMax s'.zMax with hlt | heq | hgt
    · obtain ⟨z, hzm, hzz⟩ := exists_point hae hlt
      have hzp := hzz (hz0.trans hzm.1)
      rw [if_neg (not_le.2 hzm.1), if_pos hzm.2.le] at hzp
      exact absurd hzp.symm (div_pos (volumeElement_pos h' (hz0.trans hzm.1)) hN').ne'
    · exact heq
    · obtain ⟨z, hzm, hzz⟩ := exists_point hae hgt
      have hzp := hzz (hz0'.trans hzm.1)
      rw [if_pos hzm.2.le, if_neg (not_le.2 hzm.1)] at hzp
      exact absurd hzp (div_pos (volumeElement_pos h (hz0'.trans hzm.1)) hN).ne'
  have hop : ∀ z ∈ Ioo 0 s.zMax, psi z * N' = psi' z * N := by
    refine eq_of_ae ((hc.mono fun x hx => hx.1.le).mul_const _) ((hc'.mono fun x hx => hx.1.le).mul_const _) ?_
    filter_upwards [hae] with z hzz hzm
    have := hzz hzm.1
    rw [if_pos hzm.2.le, if_pos (e ▸ hzm.2.le)] at this
    have hv := h.v_pos z hzm.1
    have hz1 : 0 < 1 + z := by linarith [hzm.1]
    unfold volumeElement at this
    have hpi := Real.pi_pos
    field_simp at this
    linarith
  have hcl : ∀ z ∈ Ico 0 s.zMax, psi z * N' = psi' z * N := by
    have := Measure.eqOn_of_ae_eq (μ := volume) (s := Ico 0 s.zMax) (f := fun z => psi z * N') (g := fun z => psi' z * N)
      ((ae_restrict_iff' measurableSet_Ico).2 (by
        have hne : ∀ᵐ x : ℝ, x ≠ 0 := by simp [ae_iff, measure_singleton]
        filter_upwards [hne] with x hx0 hxm
        exact hop x ⟨lt_of_le_of_ne hxm.1 (Ne.symm hx0), hxm.2⟩))
      ((hc.mono fun x hx => hx.1).mul_const _) ((hc'.mono fun x hx => hx.1).mul_const _)
      (by rw [interior_Ico, closure_Ioo hz0.ne]; exact Ico_subset_Icc_self)
    exact this
  have hNN := hcl 0 ⟨le_rfl, hz0⟩
  rw [h1, h1', one_mul, one_mul] at hNN
  refine ⟨e, fun z hzm => ?_⟩
  have := hcl z hzm
  rw [hNN] at this
  exact mul_right_cancel₀ hN.ne' this

theorem madau_exp (g : ℝ) {k zp t : ℝ} (hzp : -1 < zp) : madauDickinson g k zp (Real.exp t - 1) =
    (1 + (1 + zp) ^ (-k)) * Real.exp (g * t) / (1 + (1 + zp) ^ (-k) * Real.exp (k * t)) := by
  have p1 : 0 < 1 + zp := by linarith
  have ex : ∀ c : ℝ, Real.exp t ^ c = Real.exp (c * t) := fun c => by rw [← Real.exp_mul, mul_comm]
  unfold madauDickinson
  rw [add_sub_cancel, add_zero, Real.one_rpow, Real.div_rpow (Real.exp_pos t).le p1.le, Real.div_rpow zero_le_one p1.le,
    Real.one_rpow, ex, ex, Real.rpow_neg p1.le]
  have a0 := Real.rpow_pos_of_pos p1 k
  have e0 := Real.exp_pos (k * t)
  field_simp

theorem madau_zero (g k : ℝ) {zp : ℝ} (hzp : -1 < zp) : madauDickinson g k zp 0 = 1 := by
  have p1 : 0 < 1 + zp := by linarith
  unfold madauDickinson
  refine div_self (ne_of_gt ?_)
  positivity

theorem madau_cont (g k : ℝ) {zp : ℝ} (hzp : -1 < zp) : ContinuousOn (madauDickinson g k zp) (Ici 0) := by
  have p1 : 0 < 1 + zp := by linarith
  intro z hz
  have hz0 : (0 : ℝ) ≤ z := hz
  have hz1 : 0 < 1 + z := by linarith
  unfold madauDickinson
  have c1 : ContinuousAt (fun z : ℝ => (1 + z) ^ g) z :=
    (continuousAt_const.add continuousAt_id).rpow_const (Or.inl hz1.ne')
  have c2 : ContinuousAt (fun z : ℝ => 1 + ((1 + z) / (1 + zp)) ^ k) z :=
    continuousAt_const.add (((continuousAt_const.add continuousAt_id).div_const _).rpow_const
      (Or.inl (div_pos hz1 p1).ne'))
  exact ((c1.div c2 (by positivity)).div_const _).continuousWithinAt

/-- Sums of two exponentials on an interval determine exponents and coefficients. -/
theorem exponentials {A B C D α β γ δ l r : ℝ} (hB : 0 < B) (hA : 0 < A) (hC : 0 < C) (hD : 0 < D)
    (h1 : α < β) (h2 : γ < δ) (hlr : l < r)
    (he : ∀ s ∈ Ioo l r, A * Real.exp (α * s) + B * Real.exp (β * s) = C * Real.exp (γ * s) + D * Real.exp (δ * s)) :
    α = γ ∧ β = δ ∧ A = C ∧ B = D := by
  have hall : ∀ s : ℝ, A * Real.exp (α * s) + B * Real.exp (β * s) = C * Real.exp (γ * s) + D * Real.exp (δ * s) := by
    have an : ∀ P Q p q : ℝ, AnalyticOnNhd ℝ (fun s : ℝ => P * Real.exp (p * s) + Q * Real.exp (q * s)) univ := by
      intro P Q p q s _
      fun_prop
    obtain ⟨m, hm1, hm2⟩ := exists_between hlr
    have := (an A B α β).eq_of_eventuallyEq (an C D γ δ) (z₀ := m)
      (Filter.eventually_of_mem (Ioo_mem_nhds hm1 hm2) he)
    exact fun s => congrFun this s
  have lim0 : ∀ {p : ℝ}, p < 0 → Filter.Tendsto (fun s : ℝ => Real.exp (p * s)) Filter.atTop (nhds 0) := fun hp =>
    Real.tendsto_exp_atBot.comp (Filter.tendsto_id.const_mul_atTop_of_neg hp)
  have scaled : ∀ t s : ℝ, A * Real.exp ((α - t) * s) + B * Real.exp ((β - t) * s) =
      C * Real.exp ((γ - t) * s) + D * Real.exp ((δ - t) * s) := by
    intro t s
    have e : ∀ p : ℝ, Real.exp ((p - t) * s) = Real.exp (p * s) * Real.exp (-(t * s)) := by
      intro p
      rw [← Real.exp_add]
      congr 1
      ring
    rw [e, e, e, e]
    linear_combination Real.exp (-(t * s)) * hall s
  have top : ∀ {A B C D α β γ δ : ℝ}, 0 < D → α < β → γ < δ → β < δ → (∀ s : ℝ, A * Real.exp ((α - δ) * s) +
      B * Real.exp ((β - δ) * s) = C * Real.exp ((γ - δ) * s) + D * Real.exp ((δ - δ) * s)) → False := by
    intro A B C D α β γ δ hD h1 h2 hlt hs
    have L := ((lim0 (by linarith : α - δ < 0)).const_mul A).add ((lim0 (by linarith : β - δ < 0)).const_mul B)
    have R := ((lim0 (by linarith : γ - δ < 0)).const_mul C).add_const D
    have hfun : (fun s : ℝ => A * Real.exp ((α - δ) * s) + B * Real.exp ((β - δ) * s)) =
        fun s => C * Real.exp ((γ - δ) * s) + D := by
      funext s
      rw [hs s, sub_self, zero_mul, Real.exp_zero, mul_one]
    rw [hfun] at L
    have := tendsto_nhds_unique L R
    linarith
  have hβ : β = δ := by
    rcases lt_trichotomy β δ with hlt | heq | hgt
    · exact (top hD h1 h2 hlt (scaled δ)).elim
    · exact heq
    · exact (top hB h2 h1 hgt fun s => (scaled β s).symm).elim
  subst hβ
  have hBD : B = D := by
    have L := ((lim0 (by linarith : α - β < 0)).const_mul A).add_const B
    have R := ((lim0 (by linarith : γ - β < 0)).const_mul C).add_const D
    have hfun : (fun s : ℝ => A * Real.exp ((α - β) * s) + B) = fun s => C * Real.exp ((γ - β) * s) + D := by
      funext s
      have := scaled β s
      rwa [sub_self, zero_mul, Real.exp_zero, mul_one, mul_one] at this
    rw [hfun] at L
    have := tendsto_nhds_unique L R
    linarith
  subst hBD
  have hAC : A = C := by
    have := hall 0
    simp only [mul_zero, Real.exp_zero, mul_one] at this
    linarith
  subst hAC
  have hαγ : A * Real.exp (α * 1) = A * Real.exp (γ * 1) := by
    have := hall 1
    linarith
  have := Real.exp_injective (mul_left_cancel₀ hA.ne' hαγ)
  exact ⟨by linarith, rfl, rfl, rfl⟩

end Identifiable

open Identifiable

/-! ## The property -/

/-- **C156.** `powerlaw`: index and limits are determined by the density. -/
theorem C156_powerlaw (b : Backend) (py : Bool) (k₁ k₂ k₃ k₄ : Bool) {a a' lo hi lo' hi' : ℝ} (h0 : 0 < lo) (h : lo < hi)
    (h0' : 0 < lo') (h' : lo' < hi') (h1 : b = .jax ∨ k₂ = false ∨ a ≠ 1) (h2 : b = .jax ∨ k₂ = false ∨ a' ≠ 1)
    (hsame : SamePopulation (Ioi 0) (fun x => powerlaw b py ⟨fin x, k₁⟩ ⟨fin a, k₂⟩ ⟨fin hi, k₃⟩ ⟨fin lo, k₄⟩)
      (fun x => powerlaw b py ⟨fin x, k₁⟩ ⟨fin a', k₂⟩ ⟨fin hi', k₃⟩ ⟨fin lo', k₄⟩)) :
    a = a' ∧ lo = lo' ∧ hi = hi' := by
  obtain ⟨e1, e2, k, hk, he⟩ := shapes (c := 1) (c' := 1) (shape_rpow (a := a) h0 h) (shape_rpow (a := a') h0' h')
    one_pos one_pos (fun x hx => h0.trans hx.1) (fun x hx => h0'.trans hx.1)
    (fun x hx _ _ => by rw [one_mul]; exact C01_powerlaw_value b py k₁ k₂ k₃ k₄ h0 h hx h1)
    (fun x hx _ _ => by rw [one_mul]; exact C01_powerlaw_value b py k₁ k₂ k₃ k₄ h0' h' hx h2) hsame
  exact ⟨slope h0.le h hk he, e1, e2⟩

/-- The power law in mass. -/
theorem C156_mass (b : Backend) (py : Bool) {a a' lo hi lo' hi' : ℝ} (h0 : 0 < lo) (h : lo < hi) (h0' : 0 < lo')
    (h' : lo' < hi') (h1 : b = .jax ∨ a ≠ -1) (h2 : b = .jax ∨ a' ≠ -1)
    (hsame : SamePopulation (Ioi 0) (fun m => powerLawMass b py (fin m) (fin a) (fin lo) (fin hi))
      (fun m => powerLawMass b py (fin m) (fin a') (fin lo') (fin hi'))) : a = a' ∧ lo = lo' ∧ hi = hi' := by
  obtain ⟨e1, e2, k, hk, he⟩ := shapes (c := 1) (c' := 1) (shape_rpow (a := -a) h0 h) (shape_rpow (a := -a') h0' h')
    one_pos one_pos (fun x hx => h0.trans hx.1) (fun x hx => h0'.trans hx.1)
    (fun x hx _ _ => by rw [one_mul]; exact C18_powerLawMass_value b py h1 h0 h hx)
    (fun x hx _ _ => by rw [one_mul]; exact C18_powerLawMass_value b py h2 h0' h' hx) hsame
  exact ⟨neg_injective (slope h0.le h hk he), e1, e2⟩

/-- The power law in mass ratio: `beta` and the minimum mass, at any primary mass that occurs. -/
theorem C156_massRatio {R R' : ℝ → ℝ → Except PyErr Fl} {P P' : ℝ → Except PyErr Fl} {beta beta' mmin mmin' m : ℝ}
    (h0 : 0 < mmin) (h0' : 0 < mmin') (hm : mmin < m) (hm' : mmin' < m) (hR : IsMassRatioModel R P beta mmin)
    (hR' : IsMassRatioModel R' P' beta' mmin') (hP : ∃ p : ℝ, 0 < p ∧ P m = .ok (fin p))
    (hP' : ∃ p : ℝ, 0 < p ∧ P' m = .ok (fin p)) (hsame : SamePopulation (Ioi 0) (R m) (R' m)) :
    beta = beta' ∧ mmin = mmin' := by
  have hm0 : 0 < m := h0.trans hm
  obtain ⟨p, hp0, hp⟩ := hP
  obtain ⟨p', hp0', hp'⟩ := hP'
  have q0 := div_pos h0 hm0
  have q0' := div_pos h0' hm0
  have q1 := (div_lt_one hm0).2 hm
  obtain ⟨e1, -, k, hk, he⟩ := shapes (c := p) (c' := p') (shape_rpow (a := beta) q0 q1)
    (shape_rpow (a := beta') q0' ((div_lt_one hm0).2 hm')) hp0 hp0' (fun x hx => q0.trans hx.1)
    (fun x hx => q0'.trans hx.1)
    (fun q hq _ _ => by
      obtain ⟨r, h1, h2⟩ := hR.factor m q hm0 hm.ne' hq
      rw [hp] at h1
      rw [h2, Fl.fin.inj (Except.ok.inj h1)])
    (fun q hq _ _ => by
      obtain ⟨r, h1, h2⟩ := hR'.factor m q hm0 hm'.ne' hq
      rw [hp'] at h1
      rw [h2, Fl.fin.inj (Except.ok.inj h1)]) hsame
  exact ⟨slope q0.le q1 hk he, (div_left_inj' hm0.ne').1 e1⟩

/-- The broken power law: both indices and the limits; the break too, unless the indices are equal. -/
theorem C156_broken (b : Backend) (py : Bool) {a1 a2 a1' a2' lo hi lo' hi' bf bf' : ℝ} (h0 : 0 < lo) (h : lo < hi)
    (h0' : 0 < lo') (h' : lo' < hi') (b0 : 0 < bf) (b1 : bf < 1) (b0' : 0 < bf') (b1' : bf' < 1)
    (e1 : b = .jax ∨ a1 ≠ -1) (e2 : b = .jax ∨ a2 ≠ -1) (e3 : b = .jax ∨ a1' ≠ -1) (e4 : b = .jax ∨ a2' ≠ -1)
    (hsame : SamePopulation (Ioi 0)
      (fun m => doublePowerLawPrimaryMass b py (fin m) (fin a1) (fin a2) (fin lo) (fin hi) (fin bf))
      (fun m => doublePowerLawPrimaryMass b py (fin m) (fin a1') (fin a2') (fin lo') (fin hi') (fin bf'))) :
    a1 = a1' ∧ a2 = a2' ∧ lo = lo' ∧ hi = hi' ∧ (a1 ≠ a2 → bf = bf') := by
  obtain ⟨f1, f2, k, hk, he⟩ := shapes (c := 1) (c' := 1) (shape_broken (a1 := a1) (a2 := a2) h0 h b0)
    (shape_broken (a1 := a1') (a2 := a2') h0' h' b0') one_pos one_pos (fun x hx => h0.trans hx.1)
    (fun x hx => h0'.trans hx.1)
    (fun x hx _ _ => by rw [one_mul]; exact C17_doublePowerLaw_value b py e1 e2 h0 h b0 b1 hx)
    (fun x hx _ _ => by rw [one_mul]; exact C17_doublePowerLaw_value b py e3 e4 h0' h' b0' b1' hx) hsame
  subst f1 f2
  have hd : 0 < hi - lo := sub_pos.2 h
  have m1 : lo < lo + bf * (hi - lo) := by nlinarith
  have m2 : lo + bf * (hi - lo) < hi := by nlinarith
  have m1' : lo < lo + bf' * (hi - lo) := by nlinarith
  have m2' : lo + bf' * (hi - lo) < hi := by nlinarith
  have hinj : lo + bf * (hi - lo) = lo + bf' * (hi - lo) → bf = bf' := by
    intro hh
    have : (bf - bf') * (hi - lo) = 0 := by linarith
    rcases mul_eq_zero.1 this with h3 | h3
    · linarith
    · exact absurd h3 hd.ne'
  generalize lo + bf * (hi - lo) = mb at *
  generalize lo + bf' * (hi - lo) = mb' at *
  have hmb : 0 < mb := h0.trans m1
  have hmb' : 0 < mb' := h0.trans m1'
  -- on an interval on which both shapes are single powers, the powers agree
  have seg : ∀ {l r α α' : ℝ}, lo ≤ l → r ≤ hi → l < r →
      (∀ x ∈ Ioo l r, brokenShape a1 a2 mb x = (x / mb) ^ (-α)) →
      (∀ x ∈ Ioo l r, brokenShape a1' a2' mb' x = (x / mb') ^ (-α')) → α = α' := by
    intro l r α α' hl hr hlr hs hs'
    have c1 := Real.rpow_pos_of_pos hmb (-α)
    have c2 := Real.rpow_pos_of_pos hmb' (-α')
    refine neg_injective (slope (k := k * mb ^ (-α) / mb' ^ (-α')) (h0.le.trans hl) hlr (by positivity) fun x hx => ?_)
    have hx0 : 0 < x := h0.trans_le (hl.trans hx.1.le)
    have := he x ⟨hl.trans_lt hx.1, hx.2.trans_le hr⟩
    rw [hs x hx, hs' x hx, Real.div_rpow hx0.le hmb.le, Real.div_rpow hx0.le hmb'.le] at this
    field_simp at this ⊢
    linarith
  have below : ∀ {α β μ x : ℝ}, x < μ → brokenShape α β μ x = (x / μ) ^ (-α) := by
    intro α β μ x hx
    unfold brokenShape
    rw [if_pos hx]
  have above : ∀ {α β μ x : ℝ}, μ < x → brokenShape α β μ x = (x / μ) ^ (-β) := by
    intro α β μ x hx
    unfold brokenShape
    rw [if_neg (not_lt.2 hx.le)]
  have g1 : a1 = a1' := seg (l := lo) (r := min mb mb') le_rfl ((min_le_left _ _).trans m2.le) (lt_min m1 m1')
    (fun x hx => below (hx.2.trans_le (min_le_left _ _))) (fun x hx => below (hx.2.trans_le (min_le_right _ _)))
  have g2 : a2 = a2' := seg (l := max mb mb') (r := hi) (m1.le.trans (le_max_left _ _)) le_rfl (max_lt m2 m2')
    (fun x hx => above ((le_max_left _ _).trans_lt hx.1)) (fun x hx => above ((le_max_right _ _).trans_lt hx.1))
  refine ⟨g1, g2, rfl, rfl, fun hne => hinj ?_⟩
  rcases lt_trichotomy mb mb' with hlt | heq | hgt
  · exact absurd (g1.trans (seg (l := mb) (r := mb') m1.le m2'.le hlt (fun x hx => above hx.1)
      (fun x hx => below hx.2)).symm) hne
  · exact heq
  · exact absurd ((seg (l := mb') (r := mb) m1'.le m2.le hgt (fun x hx => below hx.2)
      (fun x hx => above hx.1)).trans g2.symm) hne

/-- With equal indices the break indeed has no influence. -/
theorem C156_broken_exception (b : Backend) (py : Bool) {a lo hi bf bf' m : ℝ} (h0 : 0 < lo) (h : lo < hi) (b0 : 0 < bf)
    (b1 : bf < 1) (b0' : 0 < bf') (b1' : bf' < 1) (e : b = .jax ∨ a ≠ -1) (hm : 0 < m) :
    doublePowerLawPrimaryMass b py (fin m) (fin a) (fin a) (fin lo) (fin hi) (fin bf) =
      doublePowerLawPrimaryMass b py (fin m) (fin a) (fin a) (fin lo) (fin hi) (fin bf') := by
  have key : ∀ {β : ℝ}, 0 < β → normalised (brokenShape a a (lo + β * (hi - lo))) lo hi m =
      normalised (fun t => t ^ (-a)) lo hi m := by
    intro β hβ
    have hmb : 0 < lo + β * (hi - lo) := by
      have := mul_pos hβ (sub_pos.2 h)
      linarith
    generalize lo + β * (hi - lo) = mb at *
    have c1 := Real.rpow_pos_of_pos hmb (-a)
    have hs : ∀ t, 0 < t → brokenShape a a mb t = t ^ (-a) / mb ^ (-a) := by
      intro t ht
      unfold brokenShape
      rw [ite_self, Real.div_rpow ht.le hmb.le]
    unfold normalised
    split_ifs with hin
    · have hI : ∫ t in lo..hi, brokenShape a a mb t = (∫ t in lo..hi, t ^ (-a)) / mb ^ (-a) := by
        rw [← intervalIntegral.integral_div]
        refine intervalIntegral.integral_congr fun t ht => ?_
        rw [uIcc_of_le h.le] at ht
        exact hs t (h0.trans_le ht.1)
      have hp := integral_rpow_pos (a := -a) h0 h
      rw [hs m hm, hI]
      field_simp
    · rfl
  rw [C17_doublePowerLaw_value b py e e h0 h b0 b1 hm, C17_doublePowerLaw_value b py e e h0 h b0' b1' hm, key b0, key b0']

/-- `truncnorm`: mean, width and limits. -/
theorem C156_truncnorm (b : Backend) (k₁ k₂ k₃ k₄ k₅ : Bool) {mu mu' sigma sigma' lo hi lo' hi' : ℝ} (hs : 0 < sigma)
    (hs' : 0 < sigma') (h : lo < hi) (h' : lo' < hi')
    (hsame : SamePopulation univ
      (fun x => truncnorm b ⟨fin x, k₁⟩ ⟨fin mu, k₂⟩ ⟨fin sigma, k₃⟩ ⟨fin hi, k₄⟩ ⟨fin lo, k₅⟩)
      (fun x => truncnorm b ⟨fin x, k₁⟩ ⟨fin mu', k₂⟩ ⟨fin sigma', k₃⟩ ⟨fin hi', k₄⟩ ⟨fin lo', k₅⟩)) :
    mu = mu' ∧ sigma = sigma' ∧ lo = lo' ∧ hi = hi' := by
  obtain ⟨e1, e2, k, hk, he⟩ := shapes (c := 1) (c' := 1) (shape_gauss (mu := mu) (sigma := sigma) h)
    (shape_gauss (mu := mu') (sigma := sigma') h') one_pos one_pos (subset_univ _) (subset_univ _)
    (fun x _ _ _ => by rw [one_mul]; exact C03_truncnorm_value b k₁ k₂ k₃ k₄ k₅ x hs h)
    (fun x _ _ _ => by rw [one_mul]; exact C03_truncnorm_value b k₁ k₂ k₃ k₄ k₅ x hs' h') hsame
  subst e1 e2
  have hl : ∀ x ∈ Ioo lo hi, -(x - mu) ^ 2 / (2 * sigma ^ 2) = Real.log k - (x - mu') ^ 2 / (2 * sigma' ^ 2) := by
    intro x hx
    have := congrArg Real.log (he x hx)
    rw [Real.log_exp, Real.log_mul hk.ne' (Real.exp_pos _).ne', Real.log_exp] at this
    rw [this]
    ring
  obtain ⟨m, hm1, hm2⟩ := exists_between h
  obtain ⟨d, hd0, hd⟩ := exists_between (lt_min (sub_pos.2 hm1) (sub_pos.2 hm2))
  have hd1 := hd.trans_le (min_le_left _ _)
  have hd2 := hd.trans_le (min_le_right _ _)
  have p0 := hl m ⟨hm1, hm2⟩
  have p1 := hl (m + d) ⟨by linarith, by linarith⟩
  have p2 := hl (m - d) ⟨by linarith, by linarith⟩
  set u := (2 * sigma ^ 2)⁻¹ with hu
  set w := (2 * sigma' ^ 2)⁻¹ with hw
  simp only [div_eq_mul_inv, ← hu, ← hw] at p0 p1 p2
  have hu0 : 0 < u := by positivity
  have q1 : (u - w) * (2 * d ^ 2) = 0 := by linarith [p0, p1, p2]
  have huw : u = w := by
    rcases mul_eq_zero.1 q1 with h3 | h3
    · linarith
    · exact absurd h3 (by positivity)
  have q2 : 4 * d * u * (mu - mu') = 0 := by
    rw [← huw] at p1 p2
    linarith [p1, p2]
  have hmu : mu = mu' := by
    rcases mul_eq_zero.1 q2 with h3 | h3
    · exact absurd h3 (by positivity)
    · linarith
  have hss : sigma ^ 2 = sigma' ^ 2 := by
    have := inv_injective huw
    linarith
  exact ⟨hmu, (pow_left_inj₀ hs.le hs'.le two_ne_zero).1 hss, rfl, rfl⟩

/-- `beta_dist`: both shape parameters and the maximum. -/
theorem C156_beta (junk : Fl → Fl → Fl) (bk : Backend) (k₁ k₂ k₃ k₄ : Bool) {a b a' b' scale scale' : ℝ} (ha : 0 < a)
    (hb : 0 < b) (hs : 0 < scale) (ha' : 0 < a') (hb' : 0 < b') (hs' : 0 < scale')
    (hsame : SamePopulation univ
      (fun x => betaDist junk bk ⟨fin x, k₁⟩ ⟨fin a, k₂⟩ ⟨fin b, k₃⟩ ⟨fin scale, k₄⟩)
      (fun x => betaDist junk bk ⟨fin x, k₁⟩ ⟨fin a', k₂⟩ ⟨fin b', k₃⟩ ⟨fin scale', k₄⟩)) :
    a = a' ∧ b = b' ∧ scale = scale' := by
  obtain ⟨-, e2, k, hk, he⟩ := shapes (c := 1) (c' := 1) (shape_beta ha hb hs) (shape_beta ha' hb' hs') one_pos one_pos
    (subset_univ _) (subset_univ _)
    (fun x _ h1 h2 => by rw [one_mul]; exact beta_value junk bk k₁ k₂ k₃ k₄ ha hb hs h1 h2)
    (fun x _ h1 h2 => by rw [one_mul]; exact beta_value junk bk k₁ k₂ k₃ k₄ ha' hb' hs' h1 h2) hsame
  subst e2
  have hl : ∀ r : ℝ, 0 < r → r < 1 → (a - a') * Real.log r + (b - b') * Real.log (1 - r) =
      Real.log k - ((a - a') + (b - b')) * Real.log scale := by
    intro r hr hr1
    have hx0 : 0 < scale * r := mul_pos hs hr
    have hx1 : 0 < scale * (1 - r) := mul_pos hs (by linarith)
    have hx2 : scale - scale * r = scale * (1 - r) := by ring
    have h3 : scale * r < scale := by nlinarith
    have := congrArg Real.log (he (scale * r) ⟨hx0, h3⟩)
    rw [hx2] at this
    have p := fun c => Real.rpow_pos_of_pos hx0 c
    have q := fun c => Real.rpow_pos_of_pos hx1 c
    rw [Real.log_mul (p _).ne' (q _).ne', Real.log_mul hk.ne' (mul_pos (p _) (q _)).ne',
      Real.log_mul (p _).ne' (q _).ne', Real.log_rpow hx0, Real.log_rpow hx1, Real.log_rpow hx0, Real.log_rpow hx1,
      Real.log_mul hs.ne' hr.ne', Real.log_mul hs.ne' (by linarith : (1 - r) ≠ 0)] at this
    linarith
  have l1 := hl (1 / 4) (by norm_num) (by norm_num)
  have l2 := hl (3 / 4) (by norm_num) (by norm_num)
  have l3 := hl (1 / 2) (by norm_num) (by norm_num)
  norm_num at l1 l2 l3
  have n1 : Real.log (1 / 4) < Real.log (3 / 4) := Real.log_lt_log (by norm_num) (by norm_num)
  have n2 : Real.log (1 / 4) + Real.log (3 / 4) < Real.log (1 / 2) + Real.log (1 / 2) := by
    rw [← Real.log_mul (by norm_num) (by norm_num), ← Real.log_mul (by norm_num) (by norm_num)]
    exact Real.log_lt_log (by norm_num) (by norm_num)
  have d1 : ((a - a') - (b - b')) * (Real.log (3 / 4) - Real.log (1 / 4)) = 0 := by linarith
  have hd : a - a' = b - b' := by
    rcases mul_eq_zero.1 d1 with h3 | h3 <;> linarith
  have d2 : (a - a') * (Real.log (1 / 2) + Real.log (1 / 2) - (Real.log (1 / 4) + Real.log (3 / 4))) = 0 := by
    rw [← hd] at l1 l2 l3
    linarith
  have h0 : a - a' = 0 := by
    rcases mul_eq_zero.1 d2 with h3 | h3 <;> linarith
  exact ⟨by linarith, by linarith, rfl⟩

/-- The power-law redshift model: slope and maximum redshift. -/
theorem C156_lamb {available : Dict CosmoEntry} {zMax zMax' : ℝ} {name : String} {c : Cosmology} {s s' : Redshift}
    (hs : Redshift.powerLaw available zMax name = .ok s) (hs' : Redshift.powerLaw available zMax' name = .ok s')
    (hc : available.get? name = some (.fixed c)) {v : ℝ → ℝ}
    (hv : ∀ z, 0 ≤ z → c.diffComovingVolume (fin z) = fin (v z)) (v_pos : ∀ z, 0 < z → 0 < v z) (v_zero : 0 ≤ v 0)
    (hz : 1e-6 < zMax) (hz' : 1e-6 < zMax') {l l' : ℝ}
    (hsame : SamePopulation (Ioi 0) (fun z => s.probability [("redshift", fin z)] [("lamb", fin l)])
      (fun z => s'.probability [("redshift", fin z)] [("lamb", fin l')])) : l = l' ∧ zMax = zMax' := by
  obtain ⟨r1, e⟩ := rateAt_powerLaw hs hc hv v_pos v_zero l
  obtain ⟨r2, e'⟩ := rateAt_powerLaw hs' hc hv v_pos v_zero l'
  have cont : ∀ q : ℝ, ContinuousOn (fun z : ℝ => (1 + z) ^ q) (Ici 0) := fun q x hx =>
    ((continuousAt_const.add continuousAt_id).rpow_const (Or.inl (by
      have : (0 : ℝ) ≤ x := hx
      show (1 : ℝ) + x ≠ 0
      linarith))).continuousWithinAt
  obtain ⟨h1, h2⟩ := rates r1 r2 (e ▸ hz) (e' ▸ hz') (cont l) (cont l') (by simp) (by simp) hsame
  refine ⟨slope (lo := 1) (hi := 1 + s.zMax) (k := 1) zero_le_one (by rw [e]; linarith) one_pos fun x hx => ?_,
    by rw [← e, ← e', h1]⟩
  have := h2 (x - 1) ⟨by linarith [hx.1], by linarith [hx.2]⟩
  rwa [add_sub_cancel, ← one_mul (x ^ l')] at this

/-- The Madau-Dickinson model with positive `kappa`: all three parameters and the maximum redshift. -/
theorem C156_madau {available : Dict CosmoEntry} {py : Bool} {zMax zMax' : ℝ} {name : String} {c : Cosmology}
    {s s' : Redshift} (hs : Redshift.madauDickinson available py zMax name = .ok s)
    (hs' : Redshift.madauDickinson available py zMax' name = .ok s')
    (hc : available.get? name = some (.fixed c)) {v : ℝ → ℝ}
    (hv : ∀ z, 0 ≤ z → c.diffComovingVolume (fin z) = fin (v z)) (v_pos : ∀ z, 0 < z → 0 < v z) (v_zero : 0 ≤ v 0)
    (hz : 1e-6 < zMax) (hz' : 1e-6 < zMax') {g g' k k' zp zp' : ℝ} (hk : 0 < k) (hk' : 0 < k') (hzp : -1 < zp)
    (hzp' : -1 < zp')
    (hsame : SamePopulation (Ioi 0)
      (fun z => s.probability [("redshift", fin z)] [("gamma", fin g), ("kappa", fin k), ("z_peak", fin zp)])
      (fun z => s'.probability [("redshift", fin z)] [("gamma", fin g'), ("kappa", fin k'), ("z_peak", fin zp')])) :
    g = g' ∧ k = k' ∧ zp = zp' ∧ zMax = zMax' := by
  obtain ⟨r1, e⟩ := rateAt_madauDickinson hs hc hv v_pos v_zero g k hzp
  obtain ⟨r2, e'⟩ := rateAt_madauDickinson hs' hc hv v_pos v_zero g' k' hzp'
  obtain ⟨h1, h2⟩ := rates r1 r2 (e ▸ hz) (e' ▸ hz') (madau_cont g k hzp) (madau_cont g' k' hzp') (madau_zero g k hzp)
    (madau_zero g' k' hzp') hsame
  have p1 : 0 < 1 + zp := by linarith
  have p1' : 0 < 1 + zp' := by linarith
  set A := (1 + zp) ^ (-k) with hA
  set A' := (1 + zp') ^ (-k') with hA'
  have a0 : 0 < A := Real.rpow_pos_of_pos p1 _
  have a0' : 0 < A' := Real.rpow_pos_of_pos p1' _
  have key : ∀ t ∈ Ioo 0 (Real.log (1 + s.zMax)), (1 + A) * Real.exp (g * t) + (1 + A) * A' * Real.exp ((g + k') * t) =
      (1 + A') * Real.exp (g' * t) + (1 + A') * A * Real.exp ((g' + k) * t) := by
    intro t ht
    have hz1 : 0 ≤ Real.exp t - 1 := by linarith [Real.add_one_le_exp t, ht.1]
    have hz2 : Real.exp t - 1 < s.zMax := by
      have := Real.exp_lt_exp.2 ht.2
      rw [Real.exp_log (by linarith)] at this
      linarith
    have := h2 (Real.exp t - 1) ⟨hz1, hz2⟩
    rw [madau_exp g hzp, madau_exp g' hzp', ← hA, ← hA'] at this
    have d1 : 0 < 1 + A * Real.exp (k * t) := by positivity
    have d2 : 0 < 1 + A' * Real.exp (k' * t) := by positivity
    rw [div_eq_div_iff d1.ne' d2.ne'] at this
    have x1 : Real.exp ((g + k') * t) = Real.exp (g * t) * Real.exp (k' * t) := by rw [← Real.exp_add]; congr 1; ring
    have x2 : Real.exp ((g' + k) * t) = Real.exp (g' * t) * Real.exp (k * t) := by rw [← Real.exp_add]; congr 1; ring
    rw [x1, x2]
    linarith
  obtain ⟨q1, q2, q3, -⟩ := exponentials (by positivity) (by positivity) (by positivity) (by positivity)
    (by linarith : g < g + k') (by linarith : g' < g' + k) (Real.log_pos (by linarith : (1 : ℝ) < 1 + s.zMax)) key
  have hkk : k = k' := by linarith
  subst hkk
  have hAA : A = A' := by linarith
  refine ⟨q1, rfl, ?_, by rw [← e, ← e', h1]⟩
  have := (Real.rpow_left_inj p1.le p1'.le (neg_ne_zero.2 hk.ne')).1 hAA
  linarith

/-- The sign of `kappa` has to be fixed: `gamma - kappa` and `-kappa` describe the same rate as `gamma` and `kappa`. -/
theorem C156_madau_exception (py : Bool) {g k zp z : ℝ} (hzp : -1 < zp) (hz : -1 < z) :
    psiMadauDickinson py (fin z) [("gamma", fin (g - k)), ("kappa", fin (-k)), ("z_peak", fin zp)] =
      psiMadauDickinson py (fin z) [("gamma", fin g), ("kappa", fin k), ("z_peak", fin zp)] := by
  have val : ∀ g k : ℝ, psiMadauDickinson py (fin z) [("gamma", fin g), ("kappa", fin k), ("z_peak", fin zp)] =
      .ok (fin (madauDickinson g k zp z)) := fun g k =>
    ((C30_madauDickinson py (g := g) (k := k) (zp := zp) (by simp [Dict.get?_cons]) (by simp [Dict.get?_cons])
      (by simp [Dict.get?_cons]) hzp).1 z hz).1
  rw [val, val]
  congr 2
  have hz1 : 0 < 1 + z := by linarith
  obtain ⟨t, ht⟩ : ∃ t, z = Real.exp t - 1 := ⟨Real.log (1 + z), by rw [Real.exp_log hz1]; ring⟩
  have p1 : 0 < 1 + zp := by linarith
  rw [ht, madau_exp _ hzp, madau_exp _ hzp, neg_neg]
  have a0 := Real.rpow_pos_of_pos p1 k
  rw [Real.rpow_neg p1.le, show (g - k) * t = g * t - k * t by ring, Real.exp_sub, neg_mul, Real.exp_neg]
  have e0 := Real.exp_pos (k * t)
  generalize (1 + zp) ^ k = A at *
  generalize Real.exp (k * t) = X at *
  field_simp
  ring

/-! ## Examples -/

/-- Non-vacuity of C156: concrete parameters satisfy the hypotheses, and populations with different parameters differ. -/
example : ¬ SamePopulation (Ioi 0) (fun m => powerLawMass .numpy true (fin m) (fin 2) (fin 5) (fin 80))
    (fun m => powerLawMass .numpy true (fin m) (fin 2.1) (fin 5) (fin 80)) := fun h => by
  have := (C156_mass .numpy true (by norm_num) (by norm_num) (by norm_num) (by norm_num) (by norm_num) (by norm_num) h).1
  norm_num at this

example : ¬ SamePopulation (Ioi 0)
    (fun m => doublePowerLawPrimaryMass .numpy true (fin m) (fin 1.6) (fin 5.6) (fin 5) (fin 80) (fin 0.4))
    (fun m => doublePowerLawPrimaryMass .numpy true (fin m) (fin 1.6) (fin 5.6) (fin 5) (fin 80) (fin 0.5)) := fun h => by
  have := (C156_broken .numpy true (by norm_num) (by norm_num) (by norm_num) (by norm_num) (by norm_num) (by norm_num)
    (by norm_num) (by norm_num) (by norm_num) (by norm_num) (by norm_num) (by norm_num) h).2.2.2.2 (by norm_num)
  norm_num at this

example : ¬ SamePopulation univ
    (fun x => truncnorm .numpy (pos (fin x)) (pos (fin 35)) (pos (fin 5)) (pos (fin 100)) (pos (fin 5)))
    (fun x => truncnorm .numpy (pos (fin x)) (pos (fin 35)) (pos (fin 6)) (pos (fin 100)) (pos (fin 5))) := fun h => by
  have := (C156_truncnorm .numpy false false false false false (by norm_num) (by norm_num) (by norm_num) (by norm_num)
    h).2.1
  norm_num at this

example : ¬ SamePopulation univ
    (fun x => betaDist (fun _ _ => nan) .numpy (pos (fin x)) (pos (fin 2)) (pos (fin 5)) (pos (fin 1)))
    (fun x => betaDist (fun _ _ => nan) .numpy (pos (fin x)) (pos (fin 2)) (pos (fin 4)) (pos (fin 1))) := fun h => by
  have := (C156_beta _ .numpy false false false false (by norm_num) (by norm_num) one_pos (by norm_num) (by norm_num)
    one_pos h).2.1
  norm_num at this

example : ∃ s, Redshift.madauDickinson [("Planck15", .fixed toyCosmology)] true 2.3 "Planck15" = .ok s ∧
    ¬ SamePopulation (Ioi 0)
      (fun z => s.probability [("redshift", fin z)] [("gamma", fin 2.7), ("kappa", fin 5.6), ("z_peak", fin 1.9)])
      (fun z => s.probability [("redshift", fin z)] [("gamma", fin 2.7), ("kappa", fin 5.6), ("z_peak", fin 2)]) := by
  have hg : Dict.get? [("Planck15", CosmoEntry.fixed toyCosmology)] "Planck15" = some (.fixed toyCosmology) := by
    simp [Dict.get?_cons]
  have hs : ∃ s, Redshift.madauDickinson [("Planck15", .fixed toyCosmology)] true 2.3 "Planck15" = .ok s := ⟨_, rfl⟩
  obtain ⟨s, hs⟩ := hs
  refine ⟨s, hs, fun h => ?_⟩
  have := (C156_madau hs hs hg (v := fun z => z * z) (fun z _ => by simp [toyCosmology]) (fun z hz => by positivity)
    (by norm_num) (by norm_num) (by norm_num) (by norm_num) (by norm_num) (by norm_num) (by norm_num) h).2.2.1
  norm_num at this

end GW
