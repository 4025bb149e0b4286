import Verif.Props.RoundedGrid
import Verif.Props.Redshift

/-!
# C117: redshift models in double precision
-/

noncomputable section

open Classical

namespace GW

open Fl Spec

namespace Spec

/-- A redshift at which the models are evaluated in double precision. -/
def GoodRedshift (z : ℝ) : Prop := IsDouble z ∧ 0 < z ∧ z ≤ 1000

/-- An instance whose rate evolution and cosmology are `psi` and `v`, without rounding, at the redshifts `Z`. -/
structure ExactRate (s : Redshift) (parameters : Dict Fl) (psi v : ℝ → ℝ) (Z : ℝ → Prop) : Prop where
  clash : ∀ k ∈ ["self", "dataset", "bounds", "redshift"], ¬ parameters.contains k
  psi_eq : ∀ z, Z z → s.psiOfZ (fin z) parameters = .ok (fin (psi z))
  vol : ∃ c, s.mixin.cosmology parameters = .ok c ∧ ∀ z, Z z → c.diffComovingVolume (fin z) = fin (v z)

/-- An instance whose rate evolution and cosmology are computed in double precision, and are equal to `psi` and
`v` up to `k` and `d` roundings at the redshifts `Z`. -/
structure RoundedRate (s : Redshift) (parameters : Dict Fl) (psi v : ℝ → ℝ) (k d : ℕ) (Z : ℝ → Prop) : Prop where
  clash : ∀ k ∈ ["self", "dataset", "bounds", "redshift"], ¬ parameters.contains k
  psi_near : ∀ z, Z z → ∃ y, s.psiOfZ (fin z) parameters = .ok (fin y) ∧ IsDouble y ∧ Near k (psi z) y
  vol : ∃ c, s.mixin.cosmology parameters = .ok c ∧
    ∀ z, Z z → ∃ y, c.diffComovingVolume (fin z) = fin y ∧ IsDouble y ∧ Near d (v z) y

/-- Rates and volumes of moderate size. -/
def ModerateRate (psi v : ℝ → ℝ) (Z : ℝ → Prop) : Prop :=
  ∀ z, Z z → ((2 : ℝ) ^ (-210 : ℤ) ≤ psi z ∧ psi z ≤ 2 ^ (210 : ℤ)) ∧
    ((2 : ℝ) ^ (-100 : ℤ) ≤ v z ∧ v z ≤ 2 ^ (100 : ℤ))

end Spec

namespace RoundedRedshift

open RoundedGrid

theorem one_add_near {z : ℝ} (h : GoodRedshift z) :
    ∃ y, toDouble (1 + fin z) = fin y ∧ IsDouble y ∧ Near 1 (1 + z) y ∧ InR 0 10 (1 + z) := by
  have hr : InR 0 10 (1 + z) := by
    constructor
    · norm_num; linarith [h.2.1]
    · have : (2 : ℝ) ^ (10 : ℤ) = 1024 := by norm_num
      rw [this]; linarith [h.2.2]
  obtain ⟨y, e, d, n⟩ := RoundedGrid.InR.round (k := 0) hr (Near.refl _) (by norm_num) (by norm_num) (by norm_num)
  exact ⟨y, by rw [one_eq, fin_add, e], d, n, hr⟩

/-- The constant `4 * xp.pi`. -/
theorem four_pi : ∃ y, mulD 4 (toDouble (fin Real.pi)) = fin y ∧ IsDouble y ∧ Near 2 (4 * Real.pi) y ∧
    InR 3 4 (4 * Real.pi) := by
  have h1 : InR 1 2 Real.pi := by
    constructor
    · norm_num; exact Real.two_le_pi
    · norm_num; exact Real.pi_le_four
  have h2 : InR 2 2 4 := by constructor <;> norm_num
  obtain ⟨p, e, -, n⟩ := RoundedGrid.InR.round (k := 0) h1 (Near.refl _) (by norm_num) (by norm_num) (by norm_num)
  have h3 := h2.mul h1
  obtain ⟨q, e', d', n'⟩ := RoundedGrid.InR.round h3 ((Near.refl 4).mul n (by norm_num) h1.pos.le) (by norm_num)
    (by norm_num) (by norm_num)
  refine ⟨q, ?_, d', n', h3⟩
  rw [e, mulD, ofNat_eq, fin_mul]
  exact_mod_cast e'

/-- The size of the volume element. -/
theorem element_size {psi v : ℝ → ℝ} {Z : ℝ → Prop} (hm : ModerateRate psi v Z) {z : ℝ} (hz : Z z)
    (hg : GoodRedshift z) : InR (-317) 314 (volumeElement psi v z) := by
  obtain ⟨-, -, -, -, h1⟩ := one_add_near hg
  obtain ⟨-, -, -, -, h2⟩ := four_pi
  have hp : InR (-210) 210 (psi z) := (hm z hz).1
  have hv : InR (-100) 100 (v z) := (hm z hz).2
  unfold volumeElement
  exact (((hp.div h1).mul (h2.mul hv))).mono (by norm_num) (by norm_num)

/-- The volume element in double precision. -/
theorem element_near {s : Redshift} {parameters : Dict Fl} {psi v : ℝ → ℝ} {k d : ℕ} {Z : ℝ → Prop}
    (h : RoundedRate s parameters psi v k d Z) (hm : ModerateRate psi v Z) (hk : k ≤ 2 ^ 30) (hd : d ≤ 2 ^ 30)
    {z : ℝ} (hz : Z z) (hg : GoodRedshift z) {data : Dict Fl} (hdata : data.get? "redshift" = some (fin z)) :
    ∃ y, s.differentialSpacetimeVolumeD data true parameters =
        .ok (fin (if z ≤ s.zMax then y else 0)) ∧
      Near (k + d + 6) (volumeElement psi v z) y ∧ IsDouble y := by
  obtain ⟨o, eo, -, no, ro⟩ := one_add_near hg
  obtain ⟨f, ef, -, nf, rf⟩ := four_pi
  obtain ⟨p, ep, -, np⟩ := h.psi_near z hz
  obtain ⟨c, hc, hcv⟩ := h.vol
  obtain ⟨w, ew, -, nw⟩ := hcv z hz
  have rp : InR (-210) 210 (psi z) := (hm z hz).1
  have rv : InR (-100) 100 (v z) := (hm z hz).2
  obtain ⟨a, ea, -, na⟩ := RoundedGrid.InR.round (rp.div ro) (np.div no rp.pos.le ro.pos) (by norm_num) (by norm_num)
    (by omega)
  obtain ⟨b, eb, -, nb⟩ := RoundedGrid.InR.round (rf.mul rv) (nf.mul nw rf.pos.le rv.pos.le) (by norm_num)
    (by norm_num) (by omega)
  obtain ⟨y, ey, dy, ny⟩ := RoundedGrid.InR.round ((rp.div ro).mul (rf.mul rv))
    (na.mul nb (rp.div ro).pos.le (rf.mul rv).pos.le) (by norm_num) (by norm_num) (by omega)
  have h1 := h.clash
  have c1 := noClash_ok (r := ["self", "dataset", "bounds"]) (d := parameters)
    (fun k hk => h1 k (by simp only [List.mem_cons] at hk ⊢; tauto))
  have c2 := noClash_ok (r := ["self", "redshift"]) (d := parameters)
    (fun k hk => h1 k (by simp only [List.mem_cons] at hk ⊢; tauto))
  have ho : o ≠ 0 := (no.pos ro.pos).ne'
  have ef' : toDouble (4 * toDouble (fin Real.pi)) = fin f := ef
  refine ⟨y, ?_, ?_, dy⟩
  · simp only [Redshift.differentialSpacetimeVolumeD, Redshift.dvcDzD, c1, c2, Dict.get, hdata, ep, hc, ok_bind,
      pure_eq_ok, eo, ef', ew, fin_div ho, ea, mulD, fin_mul, eb, ey]
    rw [if_pos trivial, fin_mul_ind]
    simp only [fin_le]
  · have e1 : k + 1 + 1 + (2 + d + 1) + 1 = k + d + 6 := by omega
    rw [e1] at ny
    exact ny

/-- The exact volume element. -/
theorem element_exact {s : Redshift} {parameters : Dict Fl} {psi v : ℝ → ℝ} {Z : ℝ → Prop}
    (h : ExactRate s parameters psi v Z) {z : ℝ} (hz : Z z) (hg : GoodRedshift z) {data : Dict Fl}
    (hdata : data.get? "redshift" = some (fin z)) :
    s.differentialSpacetimeVolume data true parameters =
      .ok (fin (if z ≤ s.zMax then volumeElement psi v z else 0)) := by
  obtain ⟨c, hc, hv⟩ := h.vol
  have h1 := h.clash
  have c1 := noClash_ok (r := ["self", "dataset", "bounds"]) (d := parameters)
    (fun k hk => h1 k (by simp only [List.mem_cons] at hk ⊢; tauto))
  have c2 := noClash_ok (r := ["self", "redshift"]) (d := parameters)
    (fun k hk => h1 k (by simp only [List.mem_cons] at hk ⊢; tauto))
  have hz1 : (1 + z) ≠ 0 := by have := hg.2.1; positivity
  simp only [Redshift.differentialSpacetimeVolume, Redshift.dvcDz, c1, c2, Dict.get, hdata,
    h.psi_eq z hz, hc, hv z hz, ok_bind, pure_eq_ok, one_eq, ofNat_eq, fin_add, fin_mul,
    fin_div hz1]
  rw [if_pos trivial, fin_mul_ind]
  simp only [fin_le, volumeElement]

theorem forall₂_choice {α : Type*} {R : α → ℝ → Prop} {l : List α} (h : ∀ x ∈ l, ∃ y, R x y) :
    ∃ f : List ℝ, List.Forall₂ R l f := by
  induction l with
  | nil => exact ⟨[], .nil⟩
  | cons x l ih =>
    obtain ⟨y, hy⟩ := h x List.mem_cons_self
    obtain ⟨f, hf⟩ := ih fun z hz => h z (List.mem_cons_of_mem _ hz)
    exact ⟨y :: f, .cons hy hf⟩

theorem mapM_forall₂ {f : ℝ → Except PyErr Fl} {l y : List ℝ}
    (h : List.Forall₂ (fun x y => f x = .ok (fin y)) l y) : l.mapM f = .ok (y.map fin) := by
  induction h with
  | nil => rfl
  | cons h _ ih =>
    rw [List.mapM_cons, h, ok_bind, ih, ok_bind]
    rfl

/-- The grid of an instance: doubles in increasing order, up to `z_max`. -/
structure _root_.GW.Spec.RedshiftGrid (s : Redshift) (Z : ℝ → Prop) : Prop where
  grid : DoubleGrid s.zs
  good : ∀ z ∈ s.zs, GoodRedshift z ∧ Z z ∧ z ≤ s.zMax

theorem norm_near {A : Arith} (hA : Accurate A) (halveFirst : Bool) {s : Redshift} {parameters : Dict Fl}
    {psi v : ℝ → ℝ} {k d : ℕ} {Z : ℝ → Prop} (h : RoundedRate s parameters psi v k d Z) (hm : ModerateRate psi v Z)
    (hg : RedshiftGrid s Z) (hk : k ≤ 2 ^ 30) (hd : d ≤ 2 ^ 30) :
    ∃ n, s.normalisationD A halveFirst parameters = .ok (fin n) ∧
      0 < Arr.trapzR (s.zs.map (volumeElement psi v)) s.zs ∧
      Near (k + d + s.zs.length + 8) (Arr.trapzR (s.zs.map (volumeElement psi v)) s.zs) n ∧
      InR (-420) 460 (Arr.trapzR (s.zs.map (volumeElement psi v)) s.zs) := by
  have hpos : 0 < Arr.trapzR (s.zs.map (volumeElement psi v)) s.zs := by
    refine Arr.trapzR_pos (by simp) hg.grid.two ?_ ?_
    · intro y hy
      obtain ⟨z, hz, rfl⟩ := List.mem_map.1 hy
      exact (element_size hm (hg.good z hz).2.1 (hg.good z hz).1).pos
    · refine hg.grid.gaps.imp fun x x' h => ?_
      have : (0 : ℝ) < 2 ^ (-100 : ℤ) := by positivity
      linarith [h.1]
  obtain ⟨y, hy⟩ := forall₂_choice (l := s.zs)
    (R := fun z y => s.differentialSpacetimeVolumeD [("redshift", fin z)] true parameters = .ok (fin y) ∧
      Near (k + d + 6) (volumeElement psi v z) y ∧ InR (-317) 314 (volumeElement psi v z)) (by
    intro z hz
    obtain ⟨g1, g2, g3⟩ := hg.good z hz
    obtain ⟨y, ey, ny, -⟩ := element_near h hm hk hd g2 g1 (data := [("redshift", fin z)]) (by simp [Dict.get?_cons])
    rw [if_pos g3] at ey
    exact ⟨y, ey, ny, element_size hm g2 g1⟩)
  have hf : List.Forall₂ (fun Y y => Near (k + d + 6) Y y ∧ Sized (-317) 314 Y)
      (s.zs.map (volumeElement psi v)) y := by
    rw [List.forall₂_map_left_iff]
    exact hy.imp fun z y h => ⟨h.2.1, .inr h.2.2⟩
  obtain ⟨n, en, -, nn, rn⟩ := trapzD_near hA halveFirst (by omega) (by norm_num) (by norm_num) hf (by simp) hg.grid hpos
  refine ⟨n, ?_, hpos, ?_, rn.mono (by norm_num) (by norm_num)⟩
  · unfold Redshift.normalisationD
    rw [mapM_forall₂ (hy.imp fun z y h => h.1), ok_bind, pure_eq_ok, en]
  · have e1 : k + d + 6 + s.zs.length + 2 = k + d + s.zs.length + 8 := by omega
    rwa [e1] at nn

theorem norm_exact {s : Redshift} {parameters : Dict Fl} {psi v : ℝ → ℝ} {Z : ℝ → Prop}
    (h : ExactRate s parameters psi v Z) (hg : RedshiftGrid s Z) :
    s.normalisation parameters = .ok (fin (Arr.trapzR (s.zs.map (volumeElement psi v)) s.zs)) := by
  unfold Redshift.normalisation
  rw [mapM_ok (g := fun z => fin (volumeElement psi v z))]
  · rw [ok_bind, pure_eq_ok, ← Arr.trapz_fin, List.map_map]
    rfl
  · intro z hz
    obtain ⟨g1, g2, g3⟩ := hg.good z hz
    rw [element_exact h g2 g1 (data := [("redshift", fin z)]) (by simp [Dict.get?_cons]), if_pos g3]

end RoundedRedshift

open RoundedRedshift RoundedGrid

/-- **C117.** The redshift probability in double precision. Let `exact` be an instance that computes with real
numbers and `s` one with the same grid and `z_max` whose rate evolution and cosmology are correct to `k` and `d`
roundings. Then for every grid of doubles and every redshift, whatever the order of summation, both give a
number, and their relative difference is at most `2 (2 k + 2 d + n + 15)` units of roundoff (`n` the number of
grid points); above `z_max` both are exactly 0. -/
theorem C117_probability {A : Arith} (hA : Accurate A) (halveFirst : Bool) {exact s : Redshift}
    {parameters : Dict Fl} {psi v : ℝ → ℝ} {k d : ℕ} {Z : ℝ → Prop} (he : ExactRate exact parameters psi v Z)
    (h : RoundedRate s parameters psi v k d Z) (hm : ModerateRate psi v Z) (hzs : exact.zs = s.zs)
    (hz : exact.zMax = s.zMax) (hg : RedshiftGrid s Z) (hk : k ≤ 2 ^ 30) (hd : d ≤ 2 ^ 30) {z : ℝ} (hZ : Z z)
    (hgood : GoodRedshift z) {data : Dict Fl} (hdata : data.get? "redshift" = some (fin z)) :
    ∃ p p', exact.probability data parameters = .ok (fin p) ∧ s.probabilityD A halveFirst data parameters = .ok (fin p') ∧
      (z ≤ s.zMax → 0 < p) ∧ (s.zMax < z → p = 0 ∧ p' = 0) ∧
      |p' - p| ≤ 2 * (2 * k + 2 * d + s.zs.length + 15) * ur * p := by
  have hg' : RedshiftGrid exact Z := ⟨hzs ▸ hg.grid, by rw [hzs, hz]; exact hg.good⟩
  obtain ⟨n, en, hpos, nn, rn⟩ := norm_near hA halveFirst h hm hg hk hd
  obtain ⟨y, ey, ny, -⟩ := element_near h hm hk hd hZ hgood hdata
  have re := element_size hm hZ hgood
  have ex := norm_exact he hg'
  have ed := element_exact he hZ hgood hdata
  rw [hzs] at ex
  rw [hz] at ed
  have hn0 : n ≠ 0 := (nn.pos hpos).ne'
  have hN0 := hpos.ne'
  have e1 : exact.probability data parameters = .ok (fin ((if z ≤ s.zMax then volumeElement psi v z else 0) /
      Arr.trapzR (s.zs.map (volumeElement psi v)) s.zs)) := by
    simp only [Redshift.probability, ex, ed, ok_bind, pure_eq_ok, fin_div hN0]
  have e2 : s.probabilityD A halveFirst data parameters =
      .ok (toDouble (fin ((if z ≤ s.zMax then y else 0) / n))) := by
    simp only [Redshift.probabilityD, en, ey, ok_bind, pure_eq_ok, fin_div hn0]
  have hlen := hg.grid.length
  by_cases hle : z ≤ s.zMax
  · rw [if_pos hle] at e1 e2
    have nd := ny.div nn re.pos.le hpos
    obtain ⟨r, er, -, nr⟩ := RoundedGrid.InR.round (re.div rn) nd (by norm_num) (by norm_num) (by omega)
    refine ⟨_, r, e1, by rw [e2, er], fun _ => div_pos re.pos hpos, fun h => absurd hle (not_le.2 h), ?_⟩
    have := nr.abs_sub (div_pos re.pos hpos).le (by omega)
    convert this using 3
    push_cast
    ring
  · rw [if_neg hle, zero_div] at e1 e2
    refine ⟨0, 0, e1, ?_, fun h => absurd h hle, fun _ => ⟨rfl, rfl⟩, by simp⟩
    rw [e2]
    congr 1
    show fl64 0 = fin 0
    exact fl64_eq (by rw [abs_zero]; unfold bigR; positivity) isDouble_zero

namespace RoundedRedshift

/-- Powers of numbers that are near each other. -/
theorem near_rpow {k m : ℕ} {x y b : ℝ} (h : Near k x y) (hx : 0 < x) (hb : |b| ≤ m) :
    Near (k * m) (x ^ b) (y ^ b) := by
  have hy := h.pos hx
  have hq := omu_pow_pos k
  have hq1 := omu_pow_le_one k
  obtain ⟨h1, h2⟩ := h
  unfold Near
  rw [pow_mul]
  generalize (1 - ur) ^ k = q at *
  have hm : q ^ m ≤ q ^ |b| := by
    rw [← Real.rpow_natCast]
    exact Real.rpow_le_rpow_of_exponent_ge hq hq1 hb
  have key : ∀ {u w : ℝ}, 0 < u → 0 < w → u * q ≤ w → w * q ≤ u → u ^ b * q ^ m ≤ w ^ b := by
    intro u w hu hw h1 h2
    refine (mul_le_mul_of_nonneg_left hm (Real.rpow_nonneg hu.le b)).trans ?_
    rcases le_or_gt 0 b with hb0 | hb0
    · rw [abs_of_nonneg hb0, ← Real.mul_rpow hu.le hq.le]
      exact Real.rpow_le_rpow (by positivity) h1 hb0
    · rw [abs_of_neg hb0, Real.rpow_neg hq.le, ← div_eq_mul_inv, div_le_iff₀ (by positivity),
        ← Real.mul_rpow hw.le hq.le]
      exact Real.rpow_le_rpow_of_nonpos (by positivity) h2 hb0.le
  exact ⟨key hx hy h1 h2, key hy hx h2 h1⟩

theorem near_three {x y : ℝ} (hx : 0 < x) (h : |y - x| ≤ 2 * ur * x) : Near 3 x y := by
  obtain ⟨h1, h2⟩ := _root_.abs_le.1 h
  have hu := ur_pos
  have hu1 : ur ≤ 1 / 1000 := by rw [ur_val]; norm_num
  have e1 : (1 - ur) ^ 3 ≤ 1 - 2 * ur := by nlinarith [mul_pos hu hu, mul_pos hu (mul_pos hu hu)]
  have e2 : (1 + 2 * ur) * (1 - ur) ^ 3 ≤ 1 := by
    have : (1 + 2 * ur) * (1 - ur) ^ 3 ≤ (1 + 2 * ur) * (1 - 2 * ur) := mul_le_mul_of_nonneg_left e1 (by linarith)
    nlinarith [mul_pos hu hu]
  have h3 : 0 < (1 - ur) ^ 3 := omu_pow_pos 3
  constructor
  · calc x * (1 - ur) ^ 3 ≤ x * (1 - 2 * ur) := mul_le_mul_of_nonneg_left e1 hx.le
      _ ≤ y := by linarith
  · calc y * (1 - ur) ^ 3 ≤ (x * (1 + 2 * ur)) * (1 - ur) ^ 3 := mul_le_mul_of_nonneg_right (by linarith) h3.le
      _ = x * ((1 + 2 * ur) * (1 - ur) ^ 3) := by ring
      _ ≤ x * 1 := mul_le_mul_of_nonneg_left e2 hx.le
      _ = x := mul_one x

/-- The size of a power. -/
theorem InR_rpow {c : ℕ} {m : ℕ} {x b : ℝ} (h : InR (-c) c x) (hb : |b| ≤ m) :
    InR (-(c * m : ℕ)) (c * m : ℕ) (x ^ b) := by
  have hx := h.pos
  have h2 : |Real.log x| ≤ c * Real.log 2 := by
    have l1 := Real.log_le_log (by positivity) h.1
    have l2 := Real.log_le_log hx h.2
    rw [Real.log_zpow] at l1 l2
    push_cast at l1 l2
    rw [_root_.abs_le]
    constructor <;> linarith
  have hl2 : 0 ≤ Real.log 2 := Real.log_nonneg (by norm_num)
  have h3 : |Real.log x * b| ≤ (c * m : ℕ) * Real.log 2 := by
    rw [abs_mul]
    push_cast
    calc |Real.log x| * |b| ≤ (c * Real.log 2) * m := mul_le_mul h2 hb (abs_nonneg _) (by positivity)
      _ = c * m * Real.log 2 := by ring
  obtain ⟨h4, h5⟩ := _root_.abs_le.1 h3
  have e : ∀ n : ℤ, (2 : ℝ) ^ n = Real.exp (n * Real.log 2) := by
    intro n
    rw [← Real.rpow_intCast, Real.rpow_def_of_pos (by norm_num)]
    ring_nf
  unfold InR
  rw [Real.rpow_def_of_pos hx, e, e]
  push_cast at h4 h5 ⊢
  constructor <;> exact Real.exp_le_exp.2 (by linarith)

/-- One call of the library's `pow`. -/
theorem lib_pow {L : MathLib} (hL : AccurateMath L) {k m c : ℕ} {x y b : ℝ} (hr : InR (-c) c x) (hn : Near k x y)
    (hd : IsDouble y) (hdb : IsDouble b) (hb : |b| ≤ m) (hk : k ≤ 2 ^ 10) (hm : m ≤ 2 ^ 10) (hcm : c * m ≤ 900) :
    ∃ r, L.pow (fin y) (fin b) = fin r ∧ IsDouble r ∧ Near (k * m + 3) (x ^ b) r := by
  have hx := hr.pos
  have n1 := near_rpow hn hx hb
  have r1 := InR_rpow hr hb
  have hkm : k * m ≤ 2 ^ 10 * 2 ^ 10 := Nat.mul_le_mul hk hm
  have r2 := InR.near r1 n1 (by omega)
  obtain ⟨r, er, dr, nr⟩ := hL.pow y b (hn.pos hx) hd hdb ((two_zpow_le (by push_cast; omega)).trans r2.1)
    (r2.2.trans (two_zpow_le (by push_cast; omega)))
  exact ⟨r, er, dr, n1.trans (near_three r2.pos nr)⟩

/-- `PowerLawRedshift.psi_of_z` in double precision. -/
theorem psiPowerLawD_near {L : MathLib} (hL : AccurateMath L) {d : Dict Fl} {l : ℝ} {m : ℕ}
    (hl : d.get? "lamb" = some (fin l)) (hdl : IsDouble l) (hm : |l| ≤ m) (hm2 : m ≤ 21) {z : ℝ} (hz : GoodRedshift z) :
    (∃ y, psiPowerLawD L (fin z) d = .ok (fin y) ∧ IsDouble y ∧ Near (m + 3) ((1 + z) ^ l) y) ∧
    InR (-210) 210 ((1 + z) ^ l) := by
  obtain ⟨o, eo, dO, no, ro⟩ := one_add_near hz
  have ro' : InR (-(10 : ℕ)) (10 : ℕ) (1 + z) := ro.mono (by norm_num) (by norm_num)
  obtain ⟨r, er, dr, nr⟩ := lib_pow hL ro' no dO hdl hm (by norm_num) (by omega) (by omega)
  refine ⟨⟨r, ?_, dr, by rwa [one_mul] at nr⟩, (InR_rpow ro' hm).mono (by push_cast; omega) (by push_cast; omega)⟩
  simp only [psiPowerLawD, Dict.get, hl, ok_bind, pure_eq_ok, eo, er]

theorem madau_eq {g k zp z : ℝ} (hzp : 0 < 1 + zp) (hz : 0 < 1 + z) : Spec.madauDickinson g k zp z =
    (1 + z) ^ g / (1 + ((1 + z) / (1 + zp)) ^ k) * (1 + (1 + zp) ^ (-k)) := by
  unfold Spec.madauDickinson
  rw [Real.rpow_neg hzp.le]
  have h1 : (1 + (0 : ℝ)) ^ g = 1 := by simp
  have h2 : ((1 + (0 : ℝ)) / (1 + zp)) ^ k = ((1 + zp) ^ k)⁻¹ := by
    rw [add_zero, one_div, Real.inv_rpow hzp.le]
  rw [h1, h2]
  have : 0 < (1 + zp) ^ k := by positivity
  have : 0 < 1 + ((1 + z) / (1 + zp)) ^ k := by positivity
  field_simp

theorem one_add_InR {x : ℝ} (h : InR (-100) 100 x) : InR 0 101 (1 + x) := by
  have hp := h.pos
  have e : (2 : ℝ) ^ (101 : ℤ) = 2 * 2 ^ (100 : ℤ) := by
    rw [show (101 : ℤ) = 1 + 100 by norm_num, zpow_add₀ (by norm_num), zpow_one]
  have : (1 : ℝ) ≤ 2 ^ (100 : ℤ) := by norm_num
  constructor
  · rw [zpow_zero]; linarith
  · rw [e]; linarith [h.2]

/-- `MadauDickinsonRedshift.psi_of_z` in double precision. -/
theorem psiMadauDickinsonD_near {L : MathLib} (hL : AccurateMath L) (py : Bool) {d : Dict Fl} {g κ zp : ℝ} {m : ℕ}
    (hg : d.get? "gamma" = some (fin g)) (hk : d.get? "kappa" = some (fin κ))
    (hp : d.get? "z_peak" = some (fin zp)) (hdg : IsDouble g) (hdk : IsDouble κ) (hzp : GoodRedshift zp)
    (hmg : |g| ≤ m) (hmk : |κ| ≤ m) (hm : m ≤ 10) {z : ℝ} (hz : GoodRedshift z) :
    (∃ y, psiMadauDickinsonD L py (fin z) d = .ok (fin y) ∧ IsDouble y ∧
      Near (5 * m + 13) (Spec.madauDickinson g κ zp z) y) ∧
    InR (-210) 210 (Spec.madauDickinson g κ zp z) := by
  obtain ⟨o, eo, dO, no, ro⟩ := one_add_near hz
  obtain ⟨o', eo', dO', no', ro'⟩ := one_add_near hzp
  have r0 : InR (-(10 : ℕ)) (10 : ℕ) (1 + z) := ro.mono (by norm_num) (by norm_num)
  have r0' : InR (-(10 : ℕ)) (10 : ℕ) (1 + zp) := ro'.mono (by norm_num) (by norm_num)
  rw [madau_eq ro'.pos ro.pos]
  -- the ratio
  have rt : InR (-(10 : ℕ)) (10 : ℕ) ((1 + z) / (1 + zp)) := (ro.div ro').mono (by norm_num) (by norm_num)
  obtain ⟨t, et, dt, nt⟩ := RoundedGrid.InR.round rt (no.div no' ro.pos.le ro'.pos) (by norm_num) (by norm_num)
    (by norm_num)
  obtain ⟨a, ea, -, na⟩ := lib_pow hL r0 no dO hdg hmg (by norm_num) (by omega) (by omega)
  obtain ⟨b, eb, -, nb⟩ := lib_pow hL rt nt dt hdk hmk (by norm_num) (by omega) (by omega)
  obtain ⟨c, ec, -, nc⟩ := lib_pow hL r0' no' dO' hdk.neg (by rwa [abs_neg]) (by norm_num) (by omega) (by omega)
    (m := m)
  have ra : InR (-100) 100 ((1 + z) ^ g) := (InR_rpow r0 hmg).mono (by push_cast; omega) (by push_cast; omega)
  have rb : InR (-100) 100 (((1 + z) / (1 + zp)) ^ κ) :=
    (InR_rpow rt hmk).mono (by push_cast; omega) (by push_cast; omega)
  have rc : InR (-100) 100 ((1 + zp) ^ (-κ)) :=
    (InR_rpow (m := m) r0' (by rwa [abs_neg])).mono (by push_cast; omega) (by push_cast; omega)
  -- the denominator and the correction
  have n1 : ∀ j, Near j 1 1 := fun j => (Near.refl 1).mono (by norm_num) (Nat.zero_le j)
  have rB := one_add_InR rb
  have rC := one_add_InR rc
  obtain ⟨B, eB, -, nB⟩ := RoundedGrid.InR.round rB ((n1 _).add nb) (by norm_num) (by norm_num) (by omega)
  obtain ⟨C, eC, -, nC⟩ := RoundedGrid.InR.round rC ((n1 _).add nc) (by norm_num) (by norm_num) (by omega)
  obtain ⟨Q, eQ, -, nQ⟩ := RoundedGrid.InR.round (ra.div rB) (na.div nB ra.pos.le rB.pos) (by norm_num) (by norm_num)
    (by omega)
  obtain ⟨y, ey, dy, ny⟩ := RoundedGrid.InR.round ((ra.div rB).mul rC) (nQ.mul nC (ra.div rB).pos.le rC.pos.le)
    (by norm_num) (by norm_num) (by omega)
  refine ⟨⟨y, ?_, dy, ?_⟩, ((ra.div rB).mul rC).mono (by norm_num) (by norm_num)⟩
  · have hB : B ≠ 0 := (nB.pos rB.pos).ne'
    have ho' : o' ≠ 0 := (no'.pos ro'.pos).ne'
    have e1 : pyPowD L py (fin o') (-(fin κ)) = .ok (fin c) := by
      rw [fin_neg]
      exact pyPowD_fin (no'.pos ro'.pos) ec
    simp only [psiMadauDickinsonD, Dict.get, hg, hk, hp, ok_bind, pure_eq_ok, eo, eo', fin_div ho', et, ea, eb, e1]
    simp only [one_eq, fin_add, eB, eC, fin_div hB, eQ, fin_mul, ey]
  · have e1 : 1 * m + 3 + ((1 + 1 + 1) * m + 3 + 1) + 1 + (1 * m + 3 + 1) + 1 = 5 * m + 13 := by ring
    rwa [e1] at ny

end RoundedRedshift

/-- The volumes of two cosmologies, one exact and one in double precision. -/
structure Spec.Volumes (exact s : Redshift) (parameters : Dict Fl) (v : ℝ → ℝ) (d : ℕ) (Z : ℝ → Prop) : Prop where
  exact : ∃ c, exact.mixin.cosmology parameters = .ok c ∧ ∀ z, Z z → c.diffComovingVolume (fin z) = fin (v z)
  rounded : ∃ c, s.mixin.cosmology parameters = .ok c ∧
    ∀ z, Z z → ∃ y, c.diffComovingVolume (fin z) = fin y ∧ IsDouble y ∧ Near d (v z) y
  size : ∀ z, Z z → (2 : ℝ) ^ (-100 : ℤ) ≤ v z ∧ v z ≤ 2 ^ (100 : ℤ)

/-- **C117.** `PowerLawRedshift` in double precision: for every double `lamb` with `|lamb| <= m <= 21`, every grid
and every redshift, the computed probability has relative error at most `2 (2 m + 2 d + n + 21)` units of roundoff. -/
theorem C117_powerLaw {A : Arith} (hA : Accurate A) {L : MathLib} (hL : AccurateMath L) (halveFirst : Bool)
    {exact s : Redshift} (hpe : exact.psiOfZ = psiPowerLaw) (hps : s.psiOfZ = psiPowerLawD L)
    (hzs : exact.zs = s.zs) (hz : exact.zMax = s.zMax) {parameters : Dict Fl} {l : ℝ} {m : ℕ}
    (hl : parameters.get? "lamb" = some (fin l)) (hdl : IsDouble l) (hm : |l| ≤ m) (hm2 : m ≤ 21)
    (hc : ∀ k ∈ ["self", "dataset", "bounds", "redshift"], ¬ parameters.contains k)
    {v : ℝ → ℝ} {d : ℕ} (hv : Volumes exact s parameters v d GoodRedshift) (hd : d ≤ 2 ^ 30)
    (hg : RedshiftGrid s GoodRedshift) {z : ℝ} (hgood : GoodRedshift z) {data : Dict Fl}
    (hdata : data.get? "redshift" = some (fin z)) :
    ∃ p p', exact.probability data parameters = .ok (fin p) ∧ s.probabilityD A halveFirst data parameters = .ok (fin p') ∧
      (z ≤ s.zMax → 0 < p) ∧ (s.zMax < z → p = 0 ∧ p' = 0) ∧
      |p' - p| ≤ 2 * (2 * m + 2 * d + s.zs.length + 21) * ur * p := by
  obtain ⟨p, p', e1, e2, h1, h2, h3⟩ := C117_probability hA halveFirst (exact := exact) (s := s)
    (psi := fun z => (1 + z) ^ l) (v := v) (k := m + 3) (d := d) (Z := GoodRedshift)
    ⟨hc, fun z hz => by rw [hpe]; exact ((C30_powerLaw hl).2 z l (by linarith [hz.2.1]) rfl).1, hv.exact⟩
    ⟨hc, fun z hz => by rw [hps]; exact (psiPowerLawD_near hL hl hdl hm hm2 hz).1, hv.rounded⟩
    (fun z hz => ⟨(psiPowerLawD_near hL hl hdl hm hm2 hz).2, hv.size z hz⟩) hzs hz hg (by omega) hd hgood hgood hdata
  refine ⟨p, p', e1, e2, h1, h2, h3.trans (le_of_eq ?_)⟩
  push_cast
  ring

/-- **C117.** `MadauDickinsonRedshift` in double precision: for all doubles `gamma` and `kappa` of size at most
`m <= 10`, every `z_peak`, every grid and every redshift, the computed probability has relative error at most
`2 (10 m + 2 d + n + 41)` units of roundoff. -/
theorem C117_madauDickinson {A : Arith} (hA : Accurate A) {L : MathLib} (hL : AccurateMath L) (halveFirst py : Bool)
    {exact s : Redshift} (hpe : exact.psiOfZ = psiMadauDickinson py) (hps : s.psiOfZ = psiMadauDickinsonD L py)
    (hzs : exact.zs = s.zs) (hz : exact.zMax = s.zMax) {parameters : Dict Fl} {g κ zp : ℝ} {m : ℕ}
    (hgam : parameters.get? "gamma" = some (fin g)) (hkap : parameters.get? "kappa" = some (fin κ))
    (hpk : parameters.get? "z_peak" = some (fin zp)) (hdg : IsDouble g) (hdk : IsDouble κ) (hzp : GoodRedshift zp)
    (hmg : |g| ≤ m) (hmk : |κ| ≤ m) (hm : m ≤ 10)
    (hc : ∀ k ∈ ["self", "dataset", "bounds", "redshift"], ¬ parameters.contains k)
    {v : ℝ → ℝ} {d : ℕ} (hv : Volumes exact s parameters v d GoodRedshift) (hd : d ≤ 2 ^ 30)
    (hg : RedshiftGrid s GoodRedshift) {z : ℝ} (hgood : GoodRedshift z) {data : Dict Fl}
    (hdata : data.get? "redshift" = some (fin z)) :
    ∃ p p', exact.probability data parameters = .ok (fin p) ∧ s.probabilityD A halveFirst data parameters = .ok (fin p') ∧
      (z ≤ s.zMax → 0 < p) ∧ (s.zMax < z → p = 0 ∧ p' = 0) ∧
      |p' - p| ≤ 2 * (10 * m + 2 * d + s.zs.length + 41) * ur * p := by
  have hpsi := fun z (hz : GoodRedshift z) =>
    psiMadauDickinsonD_near hL py hgam hkap hpk hdg hdk hzp hmg hmk hm hz
  obtain ⟨p, p', e1, e2, h1, h2, h3⟩ := C117_probability hA halveFirst (exact := exact) (s := s)
    (psi := Spec.madauDickinson g κ zp) (v := v) (k := 5 * m + 13) (d := d) (Z := GoodRedshift)
    ⟨hc, fun z hz => by
      rw [hpe]
      exact ((C30_madauDickinson py hgam hkap hpk (by linarith [hzp.2.1])).1 z (by linarith [hz.2.1])).1, hv.exact⟩
    ⟨hc, fun z hz => by rw [hps]; exact (hpsi z hz).1, hv.rounded⟩
    (fun z hz => ⟨(hpsi z hz).2, hv.size z hz⟩) hzs hz hg (by omega) hd hgood hgood hdata
  refine ⟨p, p', e1, e2, h1, h2, h3.trans (le_of_eq ?_)⟩
  push_cast
  ring

/-! ## Non-vacuity -/

/-- A small redshift model. -/
def toyGrid (psi : Fl → Dict Fl → Except PyErr Fl) : Redshift where
  mixin := ⟨"", [], .fixed ⟨fun _ => fin 1, fun z => z, fun _ => fin 1, fun z => z⟩⟩
  zMax := 2
  zs := [1 / 2, 1, 3 / 2, 2]
  baseVariableNames := none
  psiOfZ := psi

theorem toyGrid_grid (psi : Fl → Dict Fl → Except PyErr Fl) : RedshiftGrid (toyGrid psi) GoodRedshift where
  grid := by
    refine ⟨?_, ?_, by simp [toyGrid], by simp [toyGrid]⟩
    · intro x hx
      simp only [toyGrid, List.mem_cons, List.not_mem_nil, or_false] at hx
      rcases hx with rfl | rfl | rfl | rfl
      · exact ⟨1, -1, by norm_num, by norm_num, by norm_num⟩
      · exact ⟨1, 0, by norm_num, by norm_num, by norm_num⟩
      · exact ⟨3, -1, by norm_num, by norm_num, by norm_num⟩
      · exact ⟨2, 0, by norm_num, by norm_num, by norm_num⟩
    · simp only [toyGrid, List.isChain_cons_cons]
      refine ⟨?_, ?_, ?_, List.isChain_singleton _⟩ <;> constructor <;> norm_num
  good := by
    intro x hx
    have h : IsDouble x ∧ 0 < x ∧ x ≤ 2 := by
      simp only [toyGrid, List.mem_cons, List.not_mem_nil, or_false] at hx
      rcases hx with rfl | rfl | rfl | rfl
      · exact ⟨⟨1, -1, by norm_num, by norm_num, by norm_num⟩, by norm_num, by norm_num⟩
      · exact ⟨⟨1, 0, by norm_num, by norm_num, by norm_num⟩, by norm_num, by norm_num⟩
      · exact ⟨⟨3, -1, by norm_num, by norm_num, by norm_num⟩, by norm_num, by norm_num⟩
      · exact ⟨⟨2, 0, by norm_num, by norm_num, by norm_num⟩, by norm_num, by norm_num⟩
    exact ⟨⟨h.1, h.2.1, by linarith⟩, ⟨h.1, h.2.1, by linarith⟩, h.2.2⟩

theorem toyGrid_volumes (psi psi' : Fl → Dict Fl → Except PyErr Fl) (d : Dict Fl) :
    Volumes (toyGrid psi) (toyGrid psi') d (fun _ => 1) 0 GoodRedshift where
  exact := ⟨_, rfl, fun _ _ => rfl⟩
  rounded := ⟨_, rfl, fun _ _ => ⟨1, rfl, ⟨1, 0, by norm_num, by norm_num, by norm_num⟩, Near.refl 1⟩⟩
  size := fun _ _ => by constructor <;> norm_num

/-- The hypotheses hold for the toy model with either rate evolution, a library that adds from left to right and
one that adds the other way round. -/
example (halveFirst : Bool) : ∃ p p',
    (toyGrid psiPowerLaw).probability [("redshift", fin 1)] [("lamb", fin 3)] = .ok (fin p) ∧
    (toyGrid (psiPowerLawD roundedMath)).probabilityD (roundedArith sequential) halveFirst [("redshift", fin 1)]
      [("lamb", fin 3)] = .ok (fin p') ∧ |p' - p| ≤ 2 * (2 * (3 : ℕ) + 2 * (0 : ℕ) + (4 : ℕ) + 21) * ur * p := by
  obtain ⟨p, p', h1, h2, -, -, h3⟩ := C117_powerLaw (m := 3) sequential_accurate roundedMath_accurate halveFirst
    (exact := toyGrid psiPowerLaw) (s := toyGrid (psiPowerLawD roundedMath)) rfl rfl rfl rfl
    (parameters := [("lamb", fin 3)]) (l := 3) (by simp [Dict.get?_cons])
    (by exact_mod_cast isDouble_int (n := 3) (by norm_num)) (by norm_num) (by norm_num)
    (by intro k hk; simp only [List.mem_cons, List.not_mem_nil, or_false] at hk; rcases hk with rfl | rfl | rfl | rfl <;>
      simp [Dict.contains, Dict.get?_cons])
    (toyGrid_volumes _ _ _) (by norm_num) (toyGrid_grid _) (z := 1)
    ⟨by exact_mod_cast isDouble_int (n := 1) (by norm_num), by norm_num, by norm_num⟩
    (data := [("redshift", fin 1)]) (by simp [Dict.get?_cons])
  exact ⟨p, p', h1, h2, by simpa [toyGrid] using h3⟩

example (halveFirst py : Bool) : ∃ p p',
    (toyGrid (psiMadauDickinson py)).probability [("redshift", fin 1)]
      [("gamma", fin 3), ("kappa", fin 6), ("z_peak", fin 2)] = .ok (fin p) ∧
    (toyGrid (psiMadauDickinsonD roundedMath py)).probabilityD (roundedArith (backwards 0)) halveFirst
      [("redshift", fin 1)] [("gamma", fin 3), ("kappa", fin 6), ("z_peak", fin 2)] = .ok (fin p') ∧ 0 < p := by
  obtain ⟨p, p', h1, h2, h0, -, h3⟩ := C117_madauDickinson (m := 6) backwards_accurate roundedMath_accurate halveFirst py
    (exact := toyGrid (psiMadauDickinson py)) (s := toyGrid (psiMadauDickinsonD roundedMath py)) rfl rfl rfl rfl
    (parameters := [("gamma", fin 3), ("kappa", fin 6), ("z_peak", fin 2)]) (g := 3) (κ := 6) (zp := 2)
    (by simp [Dict.get?_cons]) (by simp [Dict.get?_cons]) (by simp [Dict.get?_cons])
    (by exact_mod_cast isDouble_int (n := 3) (by norm_num)) (by exact_mod_cast isDouble_int (n := 6) (by norm_num))
    ⟨by exact_mod_cast isDouble_int (n := 2) (by norm_num), by norm_num, by norm_num⟩
    (by norm_num) (by norm_num) (by norm_num)
    (by intro k hk; simp only [List.mem_cons, List.not_mem_nil, or_false] at hk; rcases hk with rfl | rfl | rfl | rfl <;>
      simp [Dict.contains, Dict.get?_cons])
    (toyGrid_volumes _ _ _) (by norm_num) (toyGrid_grid _) (z := 1)
    ⟨by exact_mod_cast isDouble_int (n := 1) (by norm_num), by norm_num, by norm_num⟩
    (data := [("redshift", fin 1)]) (by simp [Dict.get?_cons])
  exact ⟨p, p', h1, h2, h0 (by simp [toyGrid])⟩

end GW
