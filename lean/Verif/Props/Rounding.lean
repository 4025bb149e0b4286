import Verif.Lemmas.RoundError
import Verif.Props.Likelihood

/-!
# C88: rounding errors of the Monte Carlo estimates
-/

noncomputable section

open Classical

namespace GW

open Fl

namespace Spec

/-- An accurate library: every element of an array is added exactly once, in whatever order, and the
logarithm of a double is correct to one unit in the last place. -/
structure Accurate (A : Arith) : Prop where
  order : ∀ l, l ≠ [] → (A.order l).Covers l.length
  log : ∀ x, (2 : ℝ) ^ (-1000 : ℤ) ≤ x → x ≤ 2 ^ (1000 : ℤ) → IsDouble x →
    ∃ y, A.log (fin x) = fin y ∧ IsDouble y ∧ |y - Real.log x| ≤ 2 * ur * |Real.log x|

/-- A weight that is zero or of moderate size. -/
def Moderate (x : ℝ) : Prop := x = 0 ∨ ((2 : ℝ) ^ (-400 : ℤ) ≤ x ∧ x ≤ 2 ^ (400 : ℤ))

end Spec

open Spec

theorem Spec.Moderate.nonneg {x : ℝ} (h : Moderate x) : 0 ≤ x := by
  rcases h with rfl | h
  · exact le_rfl
  · exact le_trans (by positivity) h.1

theorem two_zpow_le {a b : ℤ} (h : a ≤ b) : (2 : ℝ) ^ a ≤ 2 ^ b :=
  zpow_le_zpow_right₀ (by norm_num) h

theorem round53_moderate {x : ℝ} (h : Moderate x) :
    toDouble (fin x) = fin (round53 x) ∧ IsDouble (round53 x) ∧ Near 1 x (round53 x) := by
  rcases h with rfl | ⟨h1, h2⟩
  · refine ⟨?_, round53_isDouble 0, ?_⟩
    · show fl64 0 = _
      rw [fl64_zero, round53_zero]
    · rw [round53_zero]; simp [Near]
  · have h0 : 0 < x := lt_of_lt_of_le (by positivity) h1
    refine ⟨fl64_of_le ?_, round53_isDouble x, near_of_error h0.le ?_⟩
    · rw [abs_of_pos h0]
      exact h2.trans (two_zpow_le (by norm_num))
    · have := round53_normal (x := x) (by
        rw [abs_of_pos h0]
        exact (two_zpow_le (by norm_num)).trans h1)
      rwa [abs_of_pos h0] at this

theorem near_sum {X : List ℝ} {f : ℝ → ℝ} {k : ℕ} (h : ∀ x ∈ X, Near k x (f x)) :
    Near k X.sum (X.map f).sum := by
  induction X with
  | nil => simp [Near]
  | cons x X ih =>
    simp only [List.map_cons, List.sum_cons]
    exact (h x List.mem_cons_self).add (ih fun y hy => h y (List.mem_cons_of_mem _ hy))

theorem sum_le_length {X : List ℝ} {b : ℝ} (h : ∀ x ∈ X, x ≤ b) : X.sum ≤ X.length * b := by
  have := List.sum_le_card_nsmul X b h
  simpa using this

theorem le_sum_of_mem {X : List ℝ} (h : ∀ x ∈ X, 0 ≤ x) {y : ℝ} (hy : y ∈ X) : y ≤ X.sum :=
  List.single_le_sum h y hy

/-- The mean of non-negative doubles, each known up to `k` roundings. -/
theorem Arith.mean_near {A : Arith} (hA : Accurate A) {X : List ℝ} {f : ℝ → ℝ} {k : ℕ}
    (hX : ∀ x ∈ X, 0 ≤ x ∧ x ≤ (2 : ℝ) ^ (900 : ℤ)) (hf : ∀ x ∈ X, Near k x (f x) ∧ IsDouble (f x))
    (hk : k ≤ 2 ^ 10) (hN : X.length ≤ 2 ^ 50) (hpos : ∃ x ∈ X, (2 : ℝ) ^ (-900 : ℤ) ≤ x) :
    (2 : ℝ) ^ (-950 : ℤ) ≤ Spec.mean X ∧ Spec.mean X ≤ 2 ^ (900 : ℤ) ∧
    ∃ e, A.mean ((X.map f).map fin) = fin e ∧ IsDouble e ∧ Near (X.length + k) (Spec.mean X) e := by
  obtain ⟨x0, hx0, hx0'⟩ := hpos
  have hne : X ≠ [] := by rintro rfl; simp at hx0
  have hlen : 0 < X.length := List.length_pos_iff.2 hne
  have hN0 : (0 : ℝ) < X.length := by exact_mod_cast hlen
  have hN1 : (1 : ℝ) ≤ X.length := by exact_mod_cast hlen
  have hN2 : (X.length : ℝ) ≤ 2 ^ (50 : ℤ) := by
    have : (X.length : ℝ) ≤ ((2 ^ 50 : ℕ) : ℝ) := by exact_mod_cast hN
    refine this.trans ?_
    norm_num
  have hsum_lo : (2 : ℝ) ^ (-900 : ℤ) ≤ X.sum := hx0'.trans (le_sum_of_mem (fun x hx => (hX x hx).1) hx0)
  have hsum_hi : X.sum ≤ X.length * (2 : ℝ) ^ (900 : ℤ) := sum_le_length fun x hx => (hX x hx).2
  have hs0 : 0 < X.sum := lt_of_lt_of_le (by positivity) hsum_lo
  have m1 : (2 : ℝ) ^ (-950 : ℤ) ≤ Spec.mean X := by
    unfold Spec.mean
    rw [le_div_iff₀ hN0]
    calc (2 : ℝ) ^ (-950 : ℤ) * X.length ≤ 2 ^ (-950 : ℤ) * 2 ^ (50 : ℤ) :=
          mul_le_mul_of_nonneg_left hN2 (by positivity)
      _ = 2 ^ (-900 : ℤ) := by rw [← zpow_add₀ (by norm_num)]; norm_num
      _ ≤ _ := hsum_lo
  have m2 : Spec.mean X ≤ 2 ^ (900 : ℤ) := by
    unfold Spec.mean
    rw [div_le_iff₀ hN0, mul_comm]
    exact hsum_hi
  refine ⟨m1, m2, ?_⟩
  have hW := near_sum fun x hx => (hf x hx).1
  have hhalf := omu_pow_ge_half (k := k) (hk.trans (by norm_num))
  have hWs : (X.map f).sum ≤ 2 * X.sum := by
    have := hW.2
    have := hW.nonneg hs0.le
    nlinarith
  have hbig : X.sum ≤ 2 ^ (950 : ℤ) := by
    refine hsum_hi.trans ?_
    calc (X.length : ℝ) * 2 ^ (900 : ℤ) ≤ 2 ^ (50 : ℤ) * 2 ^ (900 : ℤ) :=
          mul_le_mul_of_nonneg_right hN2 (by positivity)
      _ = 2 ^ (950 : ℤ) := by rw [← zpow_add₀ (by norm_num)]; norm_num
  obtain ⟨s, es, -, ns⟩ := Arith.sum_near (A := A) (l := X.map f)
    (by
      have := hA.order ((X.map f).map fin) (by simpa using hne)
      simpa using this)
    (fun y hy => by
      obtain ⟨x, hx, rfl⟩ := List.mem_map.1 hy
      exact (hf x hx).1.nonneg (hX x hx).1)
    (fun y hy => by
      obtain ⟨x, hx, rfl⟩ := List.mem_map.1 hy
      exact (hf x hx).2) (by rw [List.length_map]; exact hN.trans (by norm_num))
    (hWs.trans (by
      have e : (2 : ℝ) ^ (951 : ℤ) = 2 * 2 ^ (950 : ℤ) := by
        rw [show (951 : ℤ) = 1 + 950 by norm_num, zpow_add₀ (by norm_num), zpow_one]
      have := two_zpow_le (show (951 : ℤ) ≤ 1022 by norm_num)
      generalize (2 : ℝ) ^ (950 : ℤ) = B at *
      generalize (2 : ℝ) ^ (951 : ℤ) = C at *
      generalize (2 : ℝ) ^ (1022 : ℤ) = D at *
      linarith))
  rw [List.length_map] at ns
  have nn := hW.trans ns
  set K := k + (X.length - 1) with hK
  have hhalf2 := omu_pow_ge_half (k := K) (by
    have : (2 : ℕ) ^ 50 + 2 ^ 10 ≤ 2 ^ 52 := by norm_num
    omega)
  have hs_hi : s ≤ 2 * X.sum := by
    have := nn.2
    have := nn.nonneg hs0.le
    nlinarith
  have hs_lo : X.sum ≤ 2 * s := by
    have := nn.1
    nlinarith
  have hspos : 0 < s := nn.pos hs0
  have q1 : (2 : ℝ) ^ (-1022 : ℤ) ≤ s / X.length := by
    rw [le_div_iff₀ hN0]
    have e1 : (2 : ℝ) ^ (-1022 : ℤ) * X.length ≤ 2 ^ (-1022 : ℤ) * 2 ^ (50 : ℤ) :=
      mul_le_mul_of_nonneg_left hN2 (by positivity)
    have e2 : (2 : ℝ) ^ (-1022 : ℤ) * 2 ^ (50 : ℤ) = 2 ^ (-972 : ℤ) := by
      rw [← zpow_add₀ (by norm_num)]; norm_num
    have e3 : (2 : ℝ) ^ (-972 : ℤ) ≤ 2 ^ (-901 : ℤ) := two_zpow_le (by norm_num)
    have e4 : (2 : ℝ) ^ (-900 : ℤ) = 2 * 2 ^ (-901 : ℤ) := by
      rw [show (-900 : ℤ) = 1 + -901 by norm_num, zpow_add₀ (by norm_num), zpow_one]
    generalize (2 : ℝ) ^ (-901 : ℤ) = B at *
    generalize (2 : ℝ) ^ (-900 : ℤ) = C at *
    generalize (2 : ℝ) ^ (-972 : ℤ) = D at *
    linarith
  have q2 : s / X.length ≤ 2 ^ (1023 : ℤ) := by
    rw [div_le_iff₀ hN0]
    have e3 : (2 : ℝ) ^ (951 : ℤ) ≤ 2 ^ (1023 : ℤ) := two_zpow_le (by norm_num)
    have e4 : (2 : ℝ) ^ (951 : ℤ) = 2 * 2 ^ (950 : ℤ) := by
      rw [show (951 : ℤ) = 1 + 950 by norm_num, zpow_add₀ (by norm_num), zpow_one]
    have e5 : (0 : ℝ) < 2 ^ (950 : ℤ) := by positivity
    generalize (2 : ℝ) ^ (950 : ℤ) = B at *
    generalize (2 : ℝ) ^ (1023 : ℤ) = C at *
    generalize (2 : ℝ) ^ (951 : ℤ) = D at *
    have h1 : s ≤ C := by linarith
    have h2 : 0 ≤ C := by linarith
    nlinarith
  obtain ⟨e, ee, de, ne⟩ := toDouble_near q1 q2
  refine ⟨e, ?_, de, ?_⟩
  · unfold Arith.mean
    rw [es, List.length_map, List.length_map]
    have : ((X.length : ℕ) : Fl) = fin (X.length : ℝ) := natCast_eq _
    rw [this, fin_div hN0.ne']
    exact ee
  · have h1 : Near K (Spec.mean X) (s / X.length) := by
      have := nn.div (Near.refl (X.length : ℝ)) hs0.le hN0
      simpa [Spec.mean] using this
    have := h1.trans ne
    rwa [show K + 1 = X.length + k by omega] at this

theorem near_half {k : ℕ} {x y : ℝ} (h : Near k x y) (hx : 0 ≤ x) (hk : k ≤ 2 ^ 52) :
    y ≤ 2 * x ∧ x ≤ 2 * y := by
  have h1 := omu_pow_ge_half hk
  have h2 := h.nonneg hx
  constructor
  · nlinarith [h.2]
  · nlinarith [h.1]

/-- The logarithm of a number known up to `m` roundings. -/
theorem Arith.log_near {A : Arith} (hA : Accurate A) {m : ℕ} {x e : ℝ} (h : Near m x e)
    (hm : m ≤ 2 ^ 52) (hd : IsDouble e) (h1 : (2 : ℝ) ^ (-999 : ℤ) ≤ x) (h2 : x ≤ 2 ^ (999 : ℤ)) :
    ∃ y, A.log (fin e) = fin y ∧ IsDouble y ∧
      |y - Real.log x| ≤ 4 * ur * m + 2 * ur * |Real.log x| := by
  have hx : 0 < x := lt_of_lt_of_le (by positivity) h1
  obtain ⟨b1, b2⟩ := near_half h hx.le hm
  have r1 : (2 : ℝ) ^ (-1000 : ℤ) ≤ e := by
    have e4 : (2 : ℝ) ^ (-999 : ℤ) = 2 * 2 ^ (-1000 : ℤ) := by
      rw [show (-999 : ℤ) = 1 + -1000 by norm_num, zpow_add₀ (by norm_num), zpow_one]
    generalize (2 : ℝ) ^ (-1000 : ℤ) = B at *
    generalize (2 : ℝ) ^ (-999 : ℤ) = C at *
    linarith
  have r2 : e ≤ 2 ^ (1000 : ℤ) := by
    have e4 : (2 : ℝ) ^ (1000 : ℤ) = 2 * 2 ^ (999 : ℤ) := by
      rw [show (1000 : ℤ) = 1 + 999 by norm_num, zpow_add₀ (by norm_num), zpow_one]
    generalize (2 : ℝ) ^ (1000 : ℤ) = B at *
    generalize (2 : ℝ) ^ (999 : ℤ) = C at *
    linarith
  obtain ⟨y, ey, dy, hy⟩ := hA.log e r1 r2 hd
  refine ⟨y, ey, dy, ?_⟩
  have hl := h.log hx
  have hu := ur_pos
  have h3 : |Real.log e| ≤ |Real.log x| + 2 * ur * m := by
    have := abs_add_le (Real.log e - Real.log x) (Real.log x)
    rw [sub_add_cancel] at this
    linarith
  have h4 : |y - Real.log x| ≤ |y - Real.log e| + |Real.log e - Real.log x| := by
    have := abs_add_le (y - Real.log e) (Real.log e - Real.log x)
    rwa [show y - Real.log e + (Real.log e - Real.log x) = y - Real.log x by ring] at this
  have h5 : 2 * ur * |Real.log e| ≤ 2 * ur * (|Real.log x| + 2 * ur * m) :=
    mul_le_mul_of_nonneg_left h3 (by linarith)
  have h6 : 2 * ur * (2 * ur * m) ≤ 1 * (2 * ur * m) :=
    mul_le_mul_of_nonneg_right (by rw [ur_val]; norm_num) (by positivity)
  linarith

theorem map_toDouble {w : List ℝ} (h : ∀ x ∈ w, Moderate x) :
    (w.map fin).map toDouble = (w.map round53).map fin := by
  rw [List.map_map, List.map_map]
  exact List.map_congr_left fun x hx => (round53_moderate (h x hx)).1

theorem Spec.Moderate.le {x : ℝ} (h : Moderate x) : x ≤ 2 ^ (400 : ℤ) := by
  rcases h with rfl | h
  · positivity
  · exact h.2

theorem Spec.Moderate.lower {x : ℝ} (h : Moderate x) (h0 : 0 < x) : (2 : ℝ) ^ (-400 : ℤ) ≤ x := by
  rcases h with rfl | h
  · exact absurd h0 (lt_irrefl 0)
  · exact h.1

theorem exists_pos_of_mean {w : List ℝ} (h0 : ∀ x ∈ w, 0 ≤ x) (h : 0 < mean w) : ∃ x ∈ w, 0 < x := by
  by_contra hc
  push Not at hc
  have : w.sum ≤ 0 := by simpa using sum_le_length hc
  unfold Spec.mean at h
  have := div_nonpos_of_nonpos_of_nonneg this (Nat.cast_nonneg w.length)
  linarith

/-- The mean weight in double precision. -/
theorem Arith.mean_weights {A : Arith} (hA : Accurate A) {w : List ℝ} (hw : ∀ x ∈ w, Moderate x)
    (hpos : 0 < Spec.mean w) (hN : w.length ≤ 2 ^ 50) :
    (2 : ℝ) ^ (-450 : ℤ) ≤ Spec.mean w ∧ Spec.mean w ≤ 2 ^ (400 : ℤ) ∧
    ∃ e, A.mean ((w.map fin).map toDouble) = fin e ∧ IsDouble e ∧ Near (w.length + 1) (Spec.mean w) e := by
  obtain ⟨x, hx, hx0⟩ := exists_pos_of_mean (fun x hx => (hw x hx).nonneg) hpos
  rw [map_toDouble hw]
  obtain ⟨-, -, h⟩ := Arith.mean_near hA (X := w) (f := round53) (k := 1)
    (fun x hx => ⟨(hw x hx).nonneg, (hw x hx).le.trans (two_zpow_le (by norm_num))⟩)
    (fun x hx => ⟨(round53_moderate (hw x hx)).2.2, (round53_moderate (hw x hx)).2.1⟩) (by norm_num) hN
    ⟨x, hx, (two_zpow_le (show (-900 : ℤ) ≤ -400 by norm_num)).trans ((hw x hx).lower hx0)⟩
  have hne : w ≠ [] := ne_nil_of_mean_pos hpos
  have hN0 : (0 : ℝ) < w.length := by exact_mod_cast List.length_pos_iff.2 hne
  have hN2 : (w.length : ℝ) ≤ 2 ^ (50 : ℤ) := by
    have : (w.length : ℝ) ≤ ((2 ^ 50 : ℕ) : ℝ) := by exact_mod_cast hN
    refine this.trans ?_
    norm_num
  refine ⟨?_, ?_, h⟩
  · unfold Spec.mean
    rw [le_div_iff₀ hN0]
    calc (2 : ℝ) ^ (-450 : ℤ) * w.length ≤ 2 ^ (-450 : ℤ) * 2 ^ (50 : ℤ) :=
          mul_le_mul_of_nonneg_left hN2 (by positivity)
      _ = 2 ^ (-400 : ℤ) := by rw [← zpow_add₀ (by norm_num)]; norm_num
      _ ≤ x := (hw x hx).lower hx0
      _ ≤ _ := le_sum_of_mem (fun x hx => (hw x hx).nonneg) hx
  · unfold Spec.mean
    rw [div_le_iff₀ hN0, mul_comm]
    exact sum_le_length fun x hx => (hw x hx).le

/-- **C88, one event.** The log Bayes factor of one event, computed in double precision from `N` weights
in any order of summation, differs from the logarithm of the exact mean weight by at most
`2^-51 (N + 1)` plus a relative error of `2^-52`. -/
theorem C88_lnBayesFactor {A : Arith} (hA : Accurate A) (K : ℕ) {w : List ℝ}
    (hw : ∀ x ∈ w, Moderate x) (hpos : 0 < mean w) (hN : w.length ≤ 2 ^ 50) :
    ∃ y, (rowD A K ((w.map fin).map toDouble)).1 = fin y ∧ IsDouble y ∧
      |y - lnBayesFactor w| ≤ 4 * ur * (w.length + 1) + 2 * ur * |lnBayesFactor w| := by
  obtain ⟨h1, h2, e, he, de, ne⟩ := Arith.mean_weights hA hw hpos hN
  have := Arith.log_near hA ne (by
    have : (2 : ℕ) ^ 50 + 1 ≤ 2 ^ 52 := by norm_num
    omega) de ((two_zpow_le (show (-999 : ℤ) ≤ -450 by norm_num)).trans h1) (h2.trans (two_zpow_le (by norm_num)))
  obtain ⟨y, ey, dy, hy⟩ := this
  refine ⟨y, ?_, dy, ?_⟩
  · unfold rowD
    simp only [he]
    exact ey
  · push_cast at hy
    exact hy

/-- Errors of a difference divided by a number. -/
theorem quotient_error {S Q C s q d c u α β γ : ℝ} (hQ : 0 ≤ Q) (hQS : Q ≤ S) (hC : 0 < C)
    (hs : |s - S| ≤ α * S) (hq : |q - Q| ≤ β * Q) (hu : 0 ≤ u) (hd : |d - (s - q)| ≤ u * |s - q|)
    (hc : |c⁻¹ - C⁻¹| ≤ γ * C⁻¹) (hβ : 0 ≤ β) (hαβ : α + β ≤ 1) (hγ : γ ≤ 1) :
    |d / c - (S - Q) / C| ≤ (4 * u + 2 * α + 2 * β + γ) * (S / C) := by
  have hS : 0 ≤ S := hQ.trans hQS
  have h1 : |q - Q| ≤ β * S := hq.trans (mul_le_mul_of_nonneg_left hQS hβ)
  have h2 : |S - Q| ≤ S := by rw [abs_le]; constructor <;> linarith
  have hα0 : 0 ≤ α * S := (abs_nonneg _).trans hs
  have h3 : |s - q| ≤ 2 * S := by
    have e : s - q = (s - S) + (S - Q) + (Q - q) := by ring
    rw [e]
    refine (abs_add_le _ _).trans ?_
    have := abs_add_le (s - S) (S - Q)
    rw [abs_sub_comm Q q]
    nlinarith
  have h4 : |d - (S - Q)| ≤ (2 * u + α + β) * S := by
    have e : d - (S - Q) = (d - (s - q)) + (s - S) + (Q - q) := by ring
    rw [e]
    refine (abs_add_le _ _).trans ?_
    have := abs_add_le (d - (s - q)) (s - S)
    rw [abs_sub_comm Q q]
    have := mul_le_mul_of_nonneg_left h3 hu
    linarith
  have hCi : 0 < C⁻¹ := inv_pos.2 hC
  have h5 : |c⁻¹| ≤ 2 * C⁻¹ := by
    have e : c⁻¹ = (c⁻¹ - C⁻¹) + C⁻¹ := by ring
    rw [e]
    refine (abs_add_le _ _).trans ?_
    rw [abs_of_pos hCi]
    nlinarith
  have e : d / c - (S - Q) / C = (d - (S - Q)) * c⁻¹ + (S - Q) * (c⁻¹ - C⁻¹) := by
    rw [div_eq_mul_inv, div_eq_mul_inv]; ring
  rw [e]
  refine (abs_add_le _ _).trans ?_
  rw [abs_mul, abs_mul, div_eq_mul_inv]
  have h6 := mul_le_mul h4 h5 (abs_nonneg _) (le_trans (abs_nonneg _) h4)
  have h7 := mul_le_mul h2 hc (abs_nonneg _) hS
  linarith

theorem near_inv_sub {k : ℕ} {x y : ℝ} (h : Near k x y) (hx : 0 < x) (hk : k ≤ 2 ^ 52) :
    |y⁻¹ - x⁻¹| ≤ 2 * k * ur * x⁻¹ :=
  (h.inv hx).abs_sub (inv_pos.2 hx).le hk

theorem square_moderate {x : ℝ} (h : Moderate x) :
    mulD (fin (round53 x)) (fin (round53 x)) = fin (round53 (round53 x * round53 x)) ∧
    Near 3 (x ^ 2) (round53 (round53 x * round53 x)) := by
  obtain ⟨-, -, hn⟩ := round53_moderate h
  unfold mulD
  rw [fin_mul]
  rcases h with rfl | ⟨h1, h2⟩
  · rw [round53_zero, mul_zero, round53_zero]
    exact ⟨fl64_zero, by simp [Near]⟩
  · have h0 : 0 < x := lt_of_lt_of_le (by positivity) h1
    obtain ⟨b1, b2⟩ := near_half hn h0.le (by norm_num)
    have hr : 0 < round53 x := hn.pos h0
    have e1 : (2 : ℝ) ^ (-401 : ℤ) ≤ round53 x := by
      have : (2 : ℝ) ^ (-400 : ℤ) = 2 * 2 ^ (-401 : ℤ) := by
        rw [show (-400 : ℤ) = 1 + -401 by norm_num, zpow_add₀ (by norm_num), zpow_one]
      linarith
    have e2 : round53 x ≤ 2 ^ (401 : ℤ) := by
      have : (2 : ℝ) ^ (401 : ℤ) = 2 * 2 ^ (400 : ℤ) := by
        rw [show (401 : ℤ) = 1 + 400 by norm_num, zpow_add₀ (by norm_num), zpow_one]
      rw [this]
      exact b1.trans (mul_le_mul_of_nonneg_left h2 (by norm_num))
    have f1 : (2 : ℝ) ^ (-1022 : ℤ) ≤ round53 x * round53 x := by
      calc (2 : ℝ) ^ (-1022 : ℤ) ≤ 2 ^ (-401 + -401 : ℤ) := two_zpow_le (by norm_num)
        _ = 2 ^ (-401 : ℤ) * 2 ^ (-401 : ℤ) := zpow_add₀ (by norm_num) _ _
        _ ≤ _ := mul_le_mul e1 e1 (by positivity) hr.le
    have f2 : round53 x * round53 x ≤ 2 ^ (1023 : ℤ) := by
      calc round53 x * round53 x ≤ 2 ^ (401 : ℤ) * 2 ^ (401 : ℤ) :=
            mul_le_mul e2 e2 hr.le (by positivity)
        _ = 2 ^ (401 + 401 : ℤ) := (zpow_add₀ (by norm_num) _ _).symm
        _ ≤ _ := two_zpow_le (by norm_num)
    obtain ⟨y, ey, -, ny⟩ := toDouble_near f1 f2
    have hy : fl64 (round53 x * round53 x) = fin (round53 (round53 x * round53 x)) :=
      fl64_of_le (by rwa [abs_of_nonneg (by positivity)])
    refine ⟨hy, ?_⟩
    have : y = round53 (round53 x * round53 x) := by
      have := ey.symm.trans hy
      exact Fl.fin.inj this
    rw [← this, sq]
    exact (hn.mul hn h0.le h0.le).trans ny

/-- The mean of the squared weights in double precision. -/
theorem Arith.mean_squares {A : Arith} (hA : Accurate A) {w : List ℝ} (hw : ∀ x ∈ w, Moderate x)
    (hpos : 0 < Spec.mean w) (hN : w.length ≤ 2 ^ 50) :
    Spec.mean (w.map (· ^ 2)) ≤ 2 ^ (900 : ℤ) ∧
    ∃ s, A.mean (((w.map fin).map toDouble).map fun w => mulD w w) = fin s ∧ IsDouble s ∧
      Near (w.length + 3) (Spec.mean (w.map (· ^ 2))) s := by
  obtain ⟨x, hx, hx0⟩ := exists_pos_of_mean (fun x hx => (hw x hx).nonneg) hpos
  have e : ((w.map fin).map toDouble).map (fun w => mulD w w) =
      ((w.map (· ^ 2)).map fun y => round53 (round53 (Real.sqrt y) * round53 (Real.sqrt y))).map fin := by
    rw [map_toDouble hw]
    simp only [List.map_map]
    refine List.map_congr_left fun x hx => ?_
    simp only [Function.comp]
    rw [Real.sqrt_sq (hw x hx).nonneg]
    exact (square_moderate (hw x hx)).1
  rw [e]
  obtain ⟨-, h1, h⟩ := Arith.mean_near hA (X := w.map (· ^ 2))
    (f := fun y => round53 (round53 (Real.sqrt y) * round53 (Real.sqrt y))) (k := 3)
    (fun y hy => by
      obtain ⟨x, hx, rfl⟩ := List.mem_map.1 hy
      refine ⟨by positivity, ?_⟩
      have h1 := (hw x hx).le
      have h2 := (hw x hx).nonneg
      calc x ^ 2 ≤ (2 ^ (400 : ℤ)) ^ 2 := pow_le_pow_left₀ h2 h1 2
        _ = 2 ^ (800 : ℤ) := by rw [← zpow_natCast, ← zpow_mul]; norm_num
        _ ≤ _ := two_zpow_le (by norm_num))
    (fun y hy => by
      obtain ⟨x, hx, rfl⟩ := List.mem_map.1 hy
      rw [Real.sqrt_sq (hw x hx).nonneg]
      exact ⟨(square_moderate (hw x hx)).2, round53_isDouble _⟩) (by norm_num)
    (by rwa [List.length_map])
    ⟨x ^ 2, List.mem_map.2 ⟨x, hx, rfl⟩, by
      have h1 := (hw x hx).lower hx0
      calc (2 : ℝ) ^ (-900 : ℤ) ≤ 2 ^ (-800 : ℤ) := two_zpow_le (by norm_num)
        _ = (2 ^ (-400 : ℤ)) ^ 2 := by rw [← zpow_natCast, ← zpow_mul]; norm_num
        _ ≤ x ^ 2 := pow_le_pow_left₀ (by positivity) h1 2⟩
  rw [List.length_map] at h
  exact ⟨h1, h⟩

/-- **C88, variance of one event.** The variance of the log Bayes factor of one event, computed in
double precision, differs from the exact relative variance `v` of the mean of `N` weights by at most
`2^-53 (16 N + 40) (v + 1/N)`. -/
theorem C88_variance {A : Arith} (hA : Accurate A) {w : List ℝ}
    (hw : ∀ x ∈ w, Moderate x) (hpos : 0 < mean w) (hN : w.length ≤ 2 ^ 45) :
    ∃ v, (rowD A w.length ((w.map fin).map toDouble)).2 = fin v ∧
      |v - relativeVariance w| ≤
        ur * (16 * w.length + 40) * (relativeVariance w + 1 / w.length) := by
  obtain ⟨m1, m2, e, he, de, ne⟩ := Arith.mean_weights hA hw hpos (hN.trans (by norm_num))
  obtain ⟨s2, s, hs, ds, ns⟩ := Arith.mean_squares hA hw hpos (hN.trans (by norm_num))
  have hne : w ≠ [] := ne_nil_of_mean_pos hpos
  have hlen : 0 < w.length := List.length_pos_iff.2 hne
  have hN0 : (0 : ℝ) < w.length := by exact_mod_cast hlen
  have hN1 : (1 : ℝ) ≤ w.length := by exact_mod_cast hlen
  have hN2 : (w.length : ℝ) ≤ 2 ^ 45 := by exact_mod_cast hN
  set E := mean w with hE
  set S := mean (w.map (· ^ 2)) with hS
  set N : ℝ := (w.length : ℝ) with hNdef
  have hE2 : 0 < E ^ 2 := by positivity
  have hES : E ^ 2 ≤ S := by
    have h1 := mean_sq_sub hne
    have h2 : 0 ≤ (w.map fun x => (x - mean w) ^ 2).sum := by
      refine sum_nonneg_of fun x hx => ?_
      obtain ⟨y, -, rfl⟩ := List.mem_map.1 hx
      positivity
    have := div_nonneg h2 hN0.le
    linarith
  have hSE : S ≤ N * E ^ 2 := by
    have hsq := sum_sq_le fun x hx => (hw x hx).nonneg
    have e1 : S = (w.map (· ^ 2)).sum / N := by
      rw [hS]; unfold mean; rw [List.length_map]
    have e2 : w.sum = N * E := by rw [hE]; unfold mean; rw [← hNdef]; field_simp
    rw [e1, div_le_iff₀ hN0]
    rw [e2] at hsq
    nlinarith
  have hR : relativeVariance w + 1 / N = S / (N * E ^ 2) := by
    unfold relativeVariance
    rw [← hE, ← hS]
    field_simp
    ring
  obtain ⟨b1, b2⟩ := near_half ne hpos.le (by
    have : (2 : ℕ) ^ 45 + 1 ≤ 2 ^ 52 := by norm_num
    omega)
  have he0 : 0 < e := ne.pos hpos
  have g1 : (2 : ℝ) ^ (-900 : ℤ) ≤ E ^ 2 := by
    calc (2 : ℝ) ^ (-900 : ℤ) = (2 ^ (-450 : ℤ)) ^ 2 := by rw [← zpow_natCast, ← zpow_mul]; norm_num
      _ ≤ E ^ 2 := pow_le_pow_left₀ (by positivity) m1 2
  have g2 : E ^ 2 ≤ 2 ^ (800 : ℤ) := by
    calc E ^ 2 ≤ (2 ^ (400 : ℤ)) ^ 2 := pow_le_pow_left₀ hpos.le m2 2
      _ = 2 ^ (800 : ℤ) := by rw [← zpow_natCast, ← zpow_mul]; norm_num
  have z1 : (2 : ℝ) ^ (-900 : ℤ) = 4 * 2 ^ (-902 : ℤ) := by
    rw [show (-900 : ℤ) = 2 + -902 by norm_num, zpow_add₀ (by norm_num)]; norm_num
  have z2 : (2 : ℝ) ^ (802 : ℤ) = 4 * 2 ^ (800 : ℤ) := by
    rw [show (802 : ℤ) = 2 + 800 by norm_num, zpow_add₀ (by norm_num)]; norm_num
  have f1 : (2 : ℝ) ^ (-902 : ℤ) ≤ e * e := by
    have : E ^ 2 ≤ 4 * (e * e) := by nlinarith
    generalize (2 : ℝ) ^ (-902 : ℤ) = B at *
    generalize (2 : ℝ) ^ (-900 : ℤ) = C at *
    linarith
  have f2 : e * e ≤ 2 ^ (802 : ℤ) := by
    have : e * e ≤ 4 * E ^ 2 := by nlinarith
    generalize (2 : ℝ) ^ (802 : ℤ) = B at *
    generalize (2 : ℝ) ^ (800 : ℤ) = C at *
    linarith
  obtain ⟨q, hq, dq, nq⟩ := toDouble_near ((two_zpow_le (show (-1022 : ℤ) ≤ -902 by norm_num)).trans f1)
    (f2.trans (two_zpow_le (by norm_num)))
  have nq2 : Near (2 * w.length + 3) (E ^ 2) q := by
    have := (ne.mul ne hpos.le hpos.le).trans nq
    rwa [← sq, show w.length + 1 + (w.length + 1) + 1 = 2 * w.length + 3 by ring] at this
  have hk45 : (2 : ℕ) ^ 45 * 16 ≤ 2 ^ 52 := by norm_num
  have hk1 : 2 * w.length + 4 ≤ 2 ^ 52 := by omega
  obtain ⟨c1, c2⟩ := near_half nq2 hE2.le (by omega)
  have hq0 : 0 < q := nq2.pos hE2
  have hS0 : 0 < S := hE2.trans_le hES
  obtain ⟨t1, t2⟩ := near_half ns hS0.le (by omega)
  have hs0 : 0 < s := ns.pos hS0
  -- the difference
  have hdiff : |s - q| ≤ 2 ^ (1023 : ℤ) := by
    have h1 : |s - q| ≤ 2 * S := by rw [abs_le]; constructor <;> linarith
    have h2 : (2 : ℝ) ^ (901 : ℤ) = 2 * 2 ^ (900 : ℤ) := by
      rw [show (901 : ℤ) = 1 + 900 by norm_num, zpow_add₀ (by norm_num)]; norm_num
    have h3 := two_zpow_le (show (901 : ℤ) ≤ 1023 by norm_num)
    generalize (2 : ℝ) ^ (901 : ℤ) = B at *
    generalize (2 : ℝ) ^ (900 : ℤ) = C at *
    generalize (2 : ℝ) ^ (1023 : ℤ) = D at *
    linarith
  set d := round53 (s - q) with hd
  have ed : toDouble (fin s - fin q) = fin d := by
    rw [fin_sub]; exact fl64_of_le hdiff
  have herr : |d - (s - q)| ≤ ur * |s - q| := by
    have := round53_add ds dq.neg
    rwa [← sub_eq_add_neg] at this
  -- the denominator
  have hNq1 : (2 : ℝ) ^ (-1022 : ℤ) ≤ N * q := by
    have h1 : (2 : ℝ) ^ (-1022 : ℤ) ≤ 2 ^ (-902 : ℤ) := two_zpow_le (by norm_num)
    have h2 : q ≤ N * q := by nlinarith
    have h3 : (0 : ℝ) < 2 ^ (-902 : ℤ) := by positivity
    generalize (2 : ℝ) ^ (-902 : ℤ) = B at *
    generalize (2 : ℝ) ^ (-900 : ℤ) = C at *
    linarith
  have hNq2 : N * q ≤ 2 ^ (1023 : ℤ) := by
    have h1 : N * q ≤ 2 ^ (45 : ℤ) * 2 ^ (802 : ℤ) := by
      refine mul_le_mul (hN2.trans (by norm_num)) ?_ hq0.le (by positivity)
      have h3 : (0 : ℝ) < 2 ^ (800 : ℤ) := by positivity
      generalize (2 : ℝ) ^ (802 : ℤ) = B at *
      generalize (2 : ℝ) ^ (800 : ℤ) = C at *
      linarith
    rw [← zpow_add₀ (by norm_num)] at h1
    exact h1.trans (two_zpow_le (by norm_num))
  obtain ⟨c, hc, -, nc⟩ := toDouble_near hNq1 hNq2
  have nc2 : Near (2 * w.length + 4) (N * E ^ 2) c := by
    have := ((Near.refl N).mul nq2 hN0.le hE2.le).trans nc
    rwa [show 0 + (2 * w.length + 3) + 1 = 2 * w.length + 4 by ring] at this
  have hC : 0 < N * E ^ 2 := by positivity
  have hc0 : 0 < c := nc2.pos hC
  have hu := ur_pos
  have hNu : ur * N ≤ 1 / 256 := by
    have := mul_le_mul_of_nonneg_left hN2 hu.le
    refine this.trans ?_
    rw [ur_val]; norm_num
  have hu1 : ur ≤ 1 / 1024 := by rw [ur_val]; norm_num
  have k1 := ns.abs_sub hS0.le (by omega)
  have k2 := nq2.abs_sub hE2.le (by omega)
  have k3 := near_inv_sub nc2 hC hk1
  push_cast at k1 k2 k3
  have key := quotient_error hE2.le hES hC k1 k2 hu.le herr k3 (by positivity) (by linarith)
    (by linarith)
  have hrel : (S - E ^ 2) / (N * E ^ 2) = relativeVariance w := rfl
  rw [hrel] at key
  rw [hR]
  set R := S / (N * E ^ 2) with hRdef
  have hR1 : R ≤ 1 := by rw [hRdef, div_le_one hC]; exact hSE
  have hR0 : 1 / N ≤ R := by
    rw [hRdef, div_le_div_iff₀ hN0 hC, one_mul, mul_comm N]
    exact mul_le_mul_of_nonneg_right hES hN0.le
  have hR00 : 0 < R := lt_of_lt_of_le (by positivity) hR0
  have hv0 := relativeVariance_nonneg w hne
  have hvR : relativeVariance w ≤ R := by rw [← hR]; linarith [show 0 < 1 / N by positivity]
  have hcoef : 4 * ur + 2 * (2 * (N + 3) * ur) + 2 * (2 * (2 * N + 3) * ur) + 2 * (2 * N + 4) * ur =
      ur * (16 * N + 36) := by ring
  rw [hcoef] at key
  have hcoef1 : ur * (16 * N + 36) ≤ 1 := by
    have : ur * (16 * N + 36) = 16 * (ur * N) + 36 * ur := by ring
    linarith only [this, hNu, hu1]
  have hquot : |d / c| ≤ 2 * R := by
    have : d / c = (d / c - relativeVariance w) + relativeVariance w := by ring
    rw [this]
    refine (abs_add_le _ _).trans ?_
    rw [abs_of_nonneg hv0]
    have h1 := mul_le_mul_of_nonneg_right hcoef1 hR00.le
    linarith only [h1, key, hvR]
  have hover : |d / c| ≤ 2 ^ (1023 : ℤ) := by
    have : (2 : ℝ) ≤ 2 ^ (1023 : ℤ) := by
      calc (2 : ℝ) = 2 ^ (1 : ℤ) := by norm_num
        _ ≤ _ := two_zpow_le (by norm_num)
    exact (hquot.trans (by linarith only [hR1])).trans this
  refine ⟨round53 (d / c), ?_, ?_⟩
  · unfold rowD
    simp only [he, hs]
    have e1 : mulD (fin e) (fin e) = fin q := by unfold mulD; rw [fin_mul]; exact hq
    have e2 : mulD ((w.length : ℕ) : Fl) (fin q) = fin c := by
      unfold mulD; rw [natCast_eq, fin_mul]; exact hc
    rw [e1, e2, ed, fin_div hc0.ne']
    exact fl64_of_le hover
  · have h1 := round53_error (d / c)
    have h2 : ur * |d / c| ≤ ur * (2 * R) := mul_le_mul_of_nonneg_left hquot hu.le
    have h3 : (2 : ℝ) ^ (-1075 : ℤ) ≤ ur * R := by
      have : (2 : ℝ) ^ (-45 : ℤ) ≤ R := by
        refine le_trans ?_ hR0
        rw [le_div_iff₀ hN0, zpow_neg, inv_mul_le_iff₀ (by positivity), mul_one]
        exact hN2
      calc (2 : ℝ) ^ (-1075 : ℤ) ≤ 2 ^ (-53 + -45 : ℤ) := two_zpow_le (by norm_num)
        _ = ur * 2 ^ (-45 : ℤ) := by rw [zpow_add₀ (by norm_num)]; rfl
        _ ≤ ur * R := mul_le_mul_of_nonneg_left this hu.le
    have h4 : round53 (d / c) - relativeVariance w =
        (round53 (d / c) - d / c) + (d / c - relativeVariance w) := by ring
    rw [h4]
    refine (abs_add_le _ _).trans ?_
    have h5 : ur * (16 * N + 40) * R = ur * (16 * N + 36) * R + 4 * (ur * R) := by ring
    have h6 : 0 < ur * R := mul_pos hu hR00
    have h7 : ur * (2 * R) = 2 * (ur * R) := by ring
    rw [h5]
    rw [h7] at h2
    clear_value R d N S E
    generalize ur * (16 * N + 36) * R = a at *
    generalize ur * R = b at *
    generalize (2 : ℝ) ^ (-1075 : ℤ) = C at *
    linarith only [h1, h2, h3, key, h6]

/-! ## The log likelihood -/

/-- Combining the errors of the parts of the log likelihood. -/
theorem total_error {n N m u P p T a b sm sy sl ys lp t L D B : ℝ} (hu : 0 ≤ u) (hn : 1 ≤ n)
    (hN : 0 ≤ N) (hm : 0 ≤ m) (hnu : (2 * n + 2) * (2 * u) ≤ 1) (hP : 0 ≤ P) (hT0 : 0 ≤ T) (hp : |lp| ≤ p)
    (ha : a = 4 * u * n * (N + 1) + 2 * u * P) (hb : b = 4 * u * m + 2 * u * p)
    (h1 : |sy - sl| ≤ a) (h2 : T ≤ P + a) (h3 : |sm - sy| ≤ 2 * n * u * T) (hsy : |sy| ≤ T)
    (h4 : |ys - lp| ≤ b) (h5 : |t - -n * ys| ≤ u * (n * |ys|)) (h6 : |L - (sm + t)| ≤ u * |sm + t|)
    (hD : D = 4 * u * n * (N + 1 + m)) (hB : B = P + n * p) :
    |L - (sl - n * lp)| ≤ D + u * (2 * n + 5) * (B + D) := by
  have hb0 : 0 ≤ b := (abs_nonneg _).trans h4
  have ha0 : 0 ≤ a := (abs_nonneg _).trans h1
  have hp0 : 0 ≤ p := (abs_nonneg _).trans hp
  have hy : |ys| ≤ p + b := by
    have := abs_add_le (ys - lp) lp
    rw [sub_add_cancel] at this
    linarith
  have hn0 : 0 ≤ n := by linarith
  have hny : 0 ≤ n * |ys| := mul_nonneg hn0 (abs_nonneg _)
  have hDab : a + n * b = D + 2 * u * B := by rw [ha, hb, hD, hB]; ring
  have hY : T + n * |ys| ≤ B + (D + 2 * u * B) := by
    have := mul_le_mul_of_nonneg_left hy hn0
    rw [← hDab, hB]
    linarith
  have hst : |sm + t| ≤ T * (1 + 2 * n * u) + n * |ys| * (1 + u) := by
    have e : sm + t = (sm - sy) + sy + ((t - -n * ys) + -n * ys) := by ring
    rw [e]
    have a1 := abs_add_le ((sm - sy) + sy) ((t - -n * ys) + -n * ys)
    have a2 := abs_add_le (sm - sy) sy
    have a3 := abs_add_le (t - -n * ys) (-n * ys)
    have a4 : |(-n * ys)| = n * |ys| := by rw [abs_mul, abs_neg, abs_of_nonneg hn0]
    rw [a4] at a3
    nlinarith
  have e : L - (sl - n * lp) =
      (L - (sm + t)) + (sm - sy) + (sy - sl) + (t - -n * ys) + -(n * (ys - lp)) := by ring
  have b4 : |(-(n * (ys - lp)))| ≤ n * b := by
    rw [abs_neg, abs_mul, abs_of_nonneg hn0]
    exact mul_le_mul_of_nonneg_left h4 hn0
  have hsum : |L - (sl - n * lp)| ≤ u * |sm + t| + 2 * n * u * T + a + u * (n * |ys|) + n * b := by
    rw [e]
    have b1 := abs_add_le ((L - (sm + t)) + (sm - sy) + (sy - sl) + (t - -n * ys)) (-(n * (ys - lp)))
    have b2 := abs_add_le ((L - (sm + t)) + (sm - sy) + (sy - sl)) (t - -n * ys)
    have b3 := abs_add_le ((L - (sm + t)) + (sm - sy)) (sy - sl)
    have b5 := abs_add_le (L - (sm + t)) (sm - sy)
    linarith
  have hc1 : u * (T * (1 + 2 * n * u) + n * |ys| * (1 + u)) + 2 * n * u * T + u * (n * |ys|) ≤
      (2 * n + 2) * u * (T + n * |ys|) := by
    have q1 : 2 * n * u ≤ 1 := by nlinarith
    have q2 : u ≤ 1 := by nlinarith
    have r1 : u * T * (2 * n * u) ≤ u * T * 1 :=
      mul_le_mul_of_nonneg_left q1 (mul_nonneg hu hT0)
    have r2 : u * (n * |ys|) * u ≤ u * (n * |ys|) * 1 :=
      mul_le_mul_of_nonneg_left q2 (mul_nonneg hu hny)
    have r3 : 0 ≤ (n - 1) * (u * (n * |ys|)) := mul_nonneg (by linarith) (mul_nonneg hu hny)
    have r4 : 0 ≤ u * (n * |ys|) := mul_nonneg hu hny
    have i1 : u * (T * (1 + 2 * n * u) + n * |ys| * (1 + u)) + 2 * n * u * T + u * (n * |ys|) =
        u * T + u * T * (2 * n * u) + 2 * (u * (n * |ys|)) + u * (n * |ys|) * u + 2 * n * u * T := by ring
    have i2 : (2 * n + 2) * u * (T + n * |ys|) =
        2 * n * u * T + 2 * (u * T) + 2 * ((n - 1) * (u * (n * |ys|))) + 4 * (u * (n * |ys|)) := by ring
    rw [i1, i2]
    linarith only [r1, r2, r3, r4]
  have hc2 : (2 * n + 2) * u * (T + n * |ys|) ≤ (2 * n + 2) * u * (B + (D + 2 * u * B)) :=
    mul_le_mul_of_nonneg_left hY (mul_nonneg (by linarith) hu)
  have hB0 : 0 ≤ B := by rw [hB]; exact add_nonneg hP (mul_nonneg hn0 hp0)
  have hD0 : 0 ≤ D + 2 * u * B := by rw [← hDab]; exact add_nonneg ha0 (mul_nonneg hn0 hb0)
  have hc3 : u * |sm + t| ≤ u * (T * (1 + 2 * n * u) + n * |ys| * (1 + u)) :=
    mul_le_mul_of_nonneg_left hst hu
  have hc4 : (2 * n + 2) * u * (2 * u * B) ≤ u * B := by
    have h := mul_le_mul_of_nonneg_right hnu (mul_nonneg hu hB0)
    have i : (2 * n + 2) * u * (2 * u * B) = (2 * n + 2) * (2 * u) * (u * B) := by ring
    rw [i]
    linarith only [h]
  have hDD : 0 ≤ D := by
    rw [hD]
    have : 0 ≤ N + 1 + m := by linarith
    positivity
  have i3 : (2 * n + 2) * u * (B + (D + 2 * u * B)) =
      (2 * n + 2) * u * B + (2 * n + 2) * u * D + (2 * n + 2) * u * (2 * u * B) := by ring
  have i4 : u * (2 * n + 5) * (B + D) =
      (2 * n + 2) * u * B + (2 * n + 2) * u * D + 3 * (u * B) + 3 * (u * D) := by ring
  have i5 : 2 * u * B = 2 * (u * B) := by ring
  have r5 : 0 ≤ u * D := mul_nonneg hu hDD
  rw [i4]
  rw [i3] at hc2
  rw [i5] at hDab
  linarith only [hsum, hc1, hc2, hc3, hc4, hDab, r5]

theorem abs_log_le {x : ℝ} (h1 : (2 : ℝ) ^ (-999 : ℤ) ≤ x) (h2 : x ≤ 2 ^ (999 : ℤ)) :
    |Real.log x| ≤ 1000 := by
  have hx : 0 < x := lt_of_lt_of_le (by positivity) h1
  have l1 := Real.log_le_log (by positivity) h1
  have l2 := Real.log_le_log hx h2
  rw [Real.log_zpow] at l1 l2
  have h3 : Real.log 2 ≤ 1 := (Real.log_le_sub_one_of_pos (by norm_num)).trans (by norm_num)
  have h4 : 0 ≤ Real.log 2 := Real.log_nonneg (by norm_num)
  push_cast at l1 l2
  rw [abs_le]
  constructor <;> linarith

theorem sum_abs_sub {α : Type} (l : List α) (f g : α → ℝ) {b : α → ℝ}
    (h : ∀ x ∈ l, |f x - g x| ≤ b x) :
    |(l.map f).sum - (l.map g).sum| ≤ (l.map b).sum ∧
    (l.map fun x => |f x|).sum ≤ (l.map fun x => |g x|).sum + (l.map b).sum := by
  induction l with
  | nil => simp
  | cons x l ih =>
    obtain ⟨i1, i2⟩ := ih fun y hy => h y (List.mem_cons_of_mem _ hy)
    have h0 := h x List.mem_cons_self
    simp only [List.map_cons, List.sum_cons]
    constructor
    · have : f x + (l.map f).sum - (g x + (l.map g).sum) =
          (f x - g x) + ((l.map f).sum - (l.map g).sum) := by ring
      rw [this]
      exact (abs_add_le _ _).trans (add_le_add h0 i1)
    · have := abs_add_le (f x - g x) (g x)
      rw [sub_add_cancel] at this
      linarith

theorem abs_sum_le {l : List ℝ} : |l.sum| ≤ (l.map fun x => |x|).sum := by
  induction l with
  | nil => simp
  | cons x l ih =>
    simp only [List.map_cons, List.sum_cons]
    exact (abs_add_le _ _).trans (by linarith)

theorem sum_map_add_const {α : Type} (l : List α) (c d : ℝ) (g : α → ℝ) :
    (l.map fun x => c + d * g x).sum = l.length * c + d * (l.map g).sum := by
  induction l with
  | nil => simp
  | cons x l ih =>
    simp only [List.map_cons, List.sum_cons, List.length_cons, ih]
    push_cast
    ring

/-- **C88, the log likelihood.** For `n` events with `N` samples each, the log likelihood computed in
double precision - in any order of summation, with any logarithm correct to one unit in the last
place, and with a detection probability that carries `m` rounding errors - differs from the exact
estimate by at most `D + 2^-53 (2 n + 5) (B + D)`, where `D = 2^-51 n (N + 1 + m)` and `B` is the sum of
the absolute values of the terms of the log likelihood. -/
theorem C88_lnLikelihood {A : Arith} (hA : Accurate A) {self : Likelihood} {θ φ : Dict Fl}
    (hconv : self.conversion θ = .ok φ) {W : List (List ℝ)} (hw : self.weights φ = .ok (matFin W))
    (hlen : W.length = self.nPosteriors) {N m : ℕ} (hn0 : W ≠ []) (hn : W.length ≤ 2 ^ 40)
    (hN : N ≤ 2 ^ 48) (hW : ∀ w ∈ W, w.length = N ∧ 0 < mean w ∧ ∀ x ∈ w, Moderate x)
    {pdet s : ℝ} (hs : Near m pdet s) (hsd : IsDouble s) (hm : m ≤ 2 ^ 48)
    (hp1 : (2 : ℝ) ^ (-999 : ℤ) ≤ pdet) (hp2 : pdet ≤ 2 ^ (999 : ℤ)) :
    let n : ℝ := W.length
    let D := 4 * ur * n * (N + 1 + m)
    let B := (W.map fun w => |lnBayesFactor w|).sum + n * |Real.log pdet|
    ∃ L, self.lnLikelihoodD A (fin s) θ = .ok (fin L) ∧
      |L - lnLikelihood W pdet| ≤ D + ur * (2 * n + 5) * (B + D) := by
  intro n D B
  have hev : ∀ w ∈ W, ∃ y, (rowD A self.samplesPerPosterior ((w.map fin).map toDouble)).1 = fin y ∧
      IsDouble y ∧ |y - lnBayesFactor w| ≤ 4 * ur * (N + 1) + 2 * ur * |lnBayesFactor w| := by
    intro w hw
    obtain ⟨h1, h2, h3⟩ := hW w hw
    have := C88_lnBayesFactor hA self.samplesPerPosterior h3 h2 (by
      have : (2 : ℕ) ^ 48 ≤ 2 ^ 50 := by norm_num
      omega)
    rwa [h1] at this
  choose! y hy1 hy2 hy3 using hev
  obtain ⟨ys, eys, dys, hys⟩ := Arith.log_near hA hs (hm.trans (by norm_num)) hsd hp1 hp2
  have hu := ur_pos
  have hn1 : (1 : ℝ) ≤ n := by
    have := List.length_pos_iff.2 hn0
    show (1 : ℝ) ≤ (W.length : ℝ)
    exact_mod_cast this
  have hn2 : n ≤ 2 ^ 40 := by
    show (W.length : ℝ) ≤ 2 ^ 40
    exact_mod_cast hn
  have hN2 : (N : ℝ) ≤ 2 ^ 48 := by exact_mod_cast hN
  have hm2 : (m : ℝ) ≤ 2 ^ 48 := by exact_mod_cast hm
  -- sizes
  have hl : ∀ w ∈ W, |lnBayesFactor w| ≤ 1000 := by
    intro w hw
    obtain ⟨h1, h2, h3⟩ := hW w hw
    obtain ⟨b1, b2, -⟩ := Arith.mean_weights hA h3 h2 (by
      have : (2 : ℕ) ^ 48 ≤ 2 ^ 50 := by norm_num
      omega)
    exact abs_log_le ((two_zpow_le (show (-999 : ℤ) ≤ -450 by norm_num)).trans b1)
      (b2.trans (two_zpow_le (by norm_num)))
  have hlp := abs_log_le hp1 hp2
  have hyb : ∀ w ∈ W, |y w| ≤ 2000 := by
    intro w hw
    have h1 := hy3 w hw
    have h2 := hl w hw
    have h3 := abs_add_le (y w - lnBayesFactor w) (lnBayesFactor w)
    rw [sub_add_cancel] at h3
    have h4 : 4 * ur * (N + 1) ≤ 4 * ur * (2 ^ 48 + 1) :=
      mul_le_mul_of_nonneg_left (by linarith) (by linarith)
    have h5 : 4 * ur * (2 ^ 48 + 1) ≤ 1 := by rw [ur_val]; norm_num
    have h6 : 2 * ur * |lnBayesFactor w| ≤ 2 * ur * 1000 :=
      mul_le_mul_of_nonneg_left h2 (by linarith)
    have h7 : 2 * ur * 1000 ≤ 1 := by rw [ur_val]; norm_num
    linarith
  have hysb : |ys| ≤ 2000 := by
    have h3 := abs_add_le (ys - Real.log pdet) (Real.log pdet)
    rw [sub_add_cancel] at h3
    have h4 : 4 * ur * m ≤ 4 * ur * 2 ^ 48 := mul_le_mul_of_nonneg_left hm2 (by linarith)
    have h5 : 4 * ur * 2 ^ 48 ≤ 1 := by rw [ur_val]; norm_num
    have h6 : 2 * ur * |Real.log pdet| ≤ 2 * ur * 1000 :=
      mul_le_mul_of_nonneg_left hlp (by linarith)
    have h7 : 2 * ur * 1000 ≤ 1 := by rw [ur_val]; norm_num
    linarith
  have big : (2 : ℝ) ^ 60 ≤ 2 ^ (1022 : ℤ) := by
    calc (2 : ℝ) ^ 60 = 2 ^ (60 : ℤ) := by norm_num
      _ ≤ _ := two_zpow_le (by norm_num)
  have big' : (2 : ℝ) ^ 60 ≤ 2 ^ (1023 : ℤ) := by
    calc (2 : ℝ) ^ 60 = 2 ^ (60 : ℤ) := by norm_num
      _ ≤ _ := two_zpow_le (by norm_num)
  have hT : ((W.map y).map fun x => |x|).sum ≤ n * 2000 := by
    have := sum_le_length (X := (W.map y).map fun x => |x|) (b := 2000) (by
      intro x hx
      obtain ⟨z, hz, rfl⟩ := List.mem_map.1 hx
      obtain ⟨w, hw, rfl⟩ := List.mem_map.1 hz
      exact hyb w hw)
    simpa using this
  have hn2000 : n * 2000 ≤ 2 ^ 52 := by
    have := mul_le_mul_of_nonneg_right hn2 (show (0 : ℝ) ≤ 2000 by norm_num)
    refine this.trans ?_
    norm_num
  -- the sum over events
  obtain ⟨sm, esm, dsm, hsm⟩ := Arith.sum_signed (A := A) (l := W.map y)
    (by
      have := hA.order ((W.map y).map fin) (by simpa using hn0)
      simpa using this)
    (fun x hx => by
      obtain ⟨w, hw, rfl⟩ := List.mem_map.1 hx
      exact hy2 w hw) (by rw [List.length_map]; exact hn.trans (by norm_num))
    (hT.trans (hn2000.trans ((by norm_num : (2 : ℝ) ^ 52 ≤ 2 ^ 60).trans big)))
  rw [List.length_map] at hsm
  have hT0 : 0 ≤ ((W.map y).map fun x => |x|).sum := (abs_nonneg _).trans abs_sum_le
  have hsm2 : |sm - (W.map y).sum| ≤ 2 * n * ur * ((W.map y).map fun x => |x|).sum := by
    refine hsm.trans (mul_le_mul_of_nonneg_right ?_ hT0)
    refine (opu_pow_sub_one (k := W.length - 1) (by
      have : (2 : ℕ) ^ 40 ≤ 2 ^ 52 := by norm_num
      omega)).trans ?_
    refine mul_le_mul_of_nonneg_right ?_ hu.le
    have : ((W.length - 1 : ℕ) : ℝ) ≤ n := by
      show _ ≤ (W.length : ℝ)
      exact_mod_cast Nat.sub_le _ _
    linarith
  -- the selection term
  set t := round53 (-n * ys) with ht
  have hnys : |(-n * ys)| ≤ n * 2000 := by
    rw [abs_mul, abs_neg, abs_of_pos (by linarith : 0 < n)]
    exact mul_le_mul_of_nonneg_left hysb (by linarith)
  have et : mulD (-(self.nPosteriors : Fl)) (fin ys) = fin t := by
    unfold mulD
    rw [natCast_eq, fin_neg, fin_mul, ← hlen]
    exact fl64_of_le (hnys.trans (hn2000.trans ((by norm_num : (2 : ℝ) ^ 52 ≤ 2 ^ 60).trans big')))
  have ht1 : |t - -n * ys| ≤ ur * (n * |ys|) := by
    have := round53_int_mul (-(W.length : ℤ)) dys
    push_cast at this
    have e : |(-n * ys)| = n * |ys| := by rw [abs_mul, abs_neg, abs_of_pos (by linarith : 0 < n)]
    rw [← e]
    exact this
  -- the total
  have hsum2 := sum_abs_sub W y lnBayesFactor (b := fun w => 4 * ur * (N + 1) +
    2 * ur * |lnBayesFactor w|) hy3
  rw [sum_map_add_const] at hsum2
  have hTW : ((W.map y).map fun x => |x|).sum = (W.map fun w => |y w|).sum := by
    rw [List.map_map]; rfl
  have hst : |sm + t| ≤ 2 ^ (1023 : ℤ) := by
    refine le_trans ?_ big'
    have h1 := abs_add_le (sm - (W.map y).sum) (W.map y).sum
    rw [sub_add_cancel] at h1
    have h2 := abs_sum_le (l := W.map y)
    have h3 := abs_add_le (t - -n * ys) (-n * ys)
    rw [sub_add_cancel] at h3
    have h4 := abs_add_le sm t
    have h5 : 2 * n * ur * ((W.map y).map fun x => |x|).sum ≤ 1 * (2 ^ 52) := by
      refine mul_le_mul ?_ (hT.trans hn2000) hT0 (by norm_num)
      have : n * ur ≤ 2 ^ 40 * ur := mul_le_mul_of_nonneg_right hn2 hu.le
      have h' : (2 : ℝ) ^ 40 * ur ≤ 1 / 2 := by rw [ur_val]; norm_num
      linarith
    have h6 : ur * (n * |ys|) ≤ 1 * (2 ^ 52) := by
      refine mul_le_mul (by rw [ur_val]; norm_num) ?_ (by positivity) (by norm_num)
      refine le_trans ?_ hn2000
      exact mul_le_mul_of_nonneg_left hysb (by linarith)
    have h7 : (5 : ℝ) * 2 ^ 52 ≤ 2 ^ 60 := by norm_num
    linarith
  refine ⟨round53 (sm + t), ?_, ?_⟩
  · unfold Likelihood.lnLikelihoodD Likelihood.perEventD
    rw [hconv, ok_bind, hw]
    simp only [ok_bind, pure_eq_ok, matFin, List.map_map, eys, et]
    have : W.map (Prod.fst ∘ (fun row => rowD A self.samplesPerPosterior (row.map toDouble)) ∘
        fun r => r.map fin) = (W.map y).map fin := by
      rw [List.map_map]
      refine List.map_congr_left fun w hw => ?_
      exact hy1 w hw
    rw [this, esm, fin_add]
    congr 1
    exact fl64_of_le hst
  · have hb : |ys - Real.log pdet| ≤ 4 * ur * m + 2 * ur * |Real.log pdet| := hys
    have hnu : (2 * n + 2) * (2 * ur) ≤ 1 := by
      have h1 : (2 * n + 2) * (2 * ur) ≤ (2 * 2 ^ 40 + 2) * (2 * ur) :=
        mul_le_mul_of_nonneg_right (by linarith) (by linarith)
      refine h1.trans ?_
      rw [ur_val]; norm_num
    have hP : 0 ≤ (W.map fun w => |lnBayesFactor w|).sum := List.sum_nonneg fun x hx => by
      obtain ⟨w, -, rfl⟩ := List.mem_map.1 hx
      exact abs_nonneg _
    have haa : (W.length : ℝ) * (4 * ur * (N + 1)) + 2 * ur * (W.map fun w => |lnBayesFactor w|).sum =
        4 * ur * n * (N + 1) + 2 * ur * (W.map fun w => |lnBayesFactor w|).sum := by
      show n * _ + _ = _
      ring
    rw [haa] at hsum2
    rw [hTW] at hT0 hsm2
    have hsy : |(W.map y).sum| ≤ (W.map fun w => |y w|).sum := by
      rw [← hTW]; exact abs_sum_le
    exact total_error hu.le hn1 (Nat.cast_nonneg N) (Nat.cast_nonneg m) hnu hP hT0 le_rfl rfl rfl
      hsum2.1 hsum2.2 hsm2 hsy hb ht1 (round53_add dsm (round53_isDouble _)) rfl rfl

/-! ## The selection effects -/

/-- A number between two powers of two. -/
def InR (a b : ℤ) (x : ℝ) : Prop := (2 : ℝ) ^ a ≤ x ∧ x ≤ 2 ^ b

theorem InR.pos {a b : ℤ} {x : ℝ} (h : InR a b x) : 0 < x := lt_of_lt_of_le (by positivity) h.1

theorem InR.mono {a b c d : ℤ} {x : ℝ} (h : InR a b x) (h1 : c ≤ a) (h2 : b ≤ d) : InR c d x :=
  ⟨(two_zpow_le h1).trans h.1, h.2.trans (two_zpow_le h2)⟩

theorem InR.mul {a b c d : ℤ} {x y : ℝ} (h : InR a b x) (h' : InR c d y) : InR (a + c) (b + d) (x * y) := by
  constructor
  · rw [zpow_add₀ (by norm_num)]
    exact mul_le_mul h.1 h'.1 (by positivity) h.pos.le
  · rw [zpow_add₀ (by norm_num)]
    exact mul_le_mul h.2 h'.2 h'.pos.le (by positivity)

theorem InR.inv {a b : ℤ} {x : ℝ} (h : InR a b x) : InR (-b) (-a) x⁻¹ := by
  constructor
  · rw [zpow_neg]
    exact inv_anti₀ h.pos h.2
  · rw [zpow_neg]
    exact inv_anti₀ (by positivity) h.1

theorem InR.div {a b c d : ℤ} {x y : ℝ} (h : InR a b x) (h' : InR c d y) : InR (a - d) (b - c) (x / y) := by
  rw [div_eq_mul_inv, sub_eq_add_neg, sub_eq_add_neg]
  exact h.mul h'.inv

theorem InR.near {a b : ℤ} {x y : ℝ} {k : ℕ} (h : InR a b x) (hn : Near k x y) (hk : k ≤ 2 ^ 52) :
    InR (a - 1) (b + 1) y := by
  obtain ⟨h1, h2⟩ := near_half hn h.pos.le hk
  have e1 : (2 : ℝ) ^ a = 2 * 2 ^ (a - 1) := by
    rw [show a = 1 + (a - 1) by ring, zpow_add₀ (by norm_num), zpow_one]; ring_nf
  have e2 : (2 : ℝ) ^ (b + 1) = 2 * 2 ^ b := by
    rw [add_comm, zpow_add₀ (by norm_num), zpow_one]
  obtain ⟨h3, h4⟩ := h
  constructor <;> linarith

theorem InR.toDouble {a b : ℤ} {x : ℝ} (h : InR a b x) (ha : -1022 ≤ a) (hb : b ≤ 1023) :
    ∃ y, toDouble (fin x) = fin y ∧ IsDouble y ∧ Near 1 x y :=
  toDouble_near (h.mono ha hb).1 (h.mono ha hb).2

/-- The sum of non-negative doubles, each known up to `k` roundings. -/
theorem Arith.sum_values {A : Arith} (hA : Accurate A) {X : List ℝ} {f : ℝ → ℝ} {k : ℕ}
    (hX : ∀ x ∈ X, 0 ≤ x ∧ x ≤ (2 : ℝ) ^ (900 : ℤ)) (hf : ∀ x ∈ X, Near k x (f x) ∧ IsDouble (f x))
    (hk : k ≤ 2 ^ 10) (hN : X.length ≤ 2 ^ 50) (hne : X ≠ []) :
    ∃ s, A.sum ((X.map f).map fin) = fin s ∧ IsDouble s ∧ Near (k + (X.length - 1)) X.sum s := by
  have hN2 : (X.length : ℝ) ≤ 2 ^ (50 : ℤ) := by
    have : (X.length : ℝ) ≤ ((2 ^ 50 : ℕ) : ℝ) := by exact_mod_cast hN
    refine this.trans ?_
    norm_num
  have hs0 : 0 ≤ X.sum := List.sum_nonneg fun x hx => (hX x hx).1
  have hW := near_sum fun x hx => (hf x hx).1
  have hWs := (near_half hW hs0 (hk.trans (by norm_num))).1
  have hbig : X.sum ≤ 2 ^ (950 : ℤ) := by
    refine (sum_le_length fun x hx => (hX x hx).2).trans ?_
    calc (X.length : ℝ) * 2 ^ (900 : ℤ) ≤ 2 ^ (50 : ℤ) * 2 ^ (900 : ℤ) :=
          mul_le_mul_of_nonneg_right hN2 (by positivity)
      _ = 2 ^ (950 : ℤ) := by rw [← zpow_add₀ (by norm_num)]; norm_num
  obtain ⟨s, es, ds, ns⟩ := Arith.sum_near (A := A) (l := X.map f)
    (by
      have := hA.order ((X.map f).map fin) (by simpa using hne)
      simpa using this)
    (fun y hy => by
      obtain ⟨x, hx, rfl⟩ := List.mem_map.1 hy
      exact (hf x hx).1.nonneg (hX x hx).1)
    (fun y hy => by
      obtain ⟨x, hx, rfl⟩ := List.mem_map.1 hy
      exact (hf x hx).2) (by rw [List.length_map]; exact hN.trans (by norm_num))
    (hWs.trans (by
      have e : (2 : ℝ) ^ (951 : ℤ) = 2 * 2 ^ (950 : ℤ) := by
        rw [show (951 : ℤ) = 1 + 950 by norm_num, zpow_add₀ (by norm_num), zpow_one]
      have := two_zpow_le (show (951 : ℤ) ≤ 1022 by norm_num)
      generalize (2 : ℝ) ^ (950 : ℤ) = B at *
      generalize (2 : ℝ) ^ (951 : ℤ) = C at *
      generalize (2 : ℝ) ^ (1022 : ℤ) = D at *
      linarith))
  rw [List.length_map] at ns
  exact ⟨s, es, ds, hW.trans ns⟩

/-- The sums of the weights and of their squares in double precision. -/
theorem Arith.sum_weights {A : Arith} (hA : Accurate A) {w : List ℝ} (hw : ∀ x ∈ w, Moderate x)
    (hpos : 0 < w.sum) (hN : w.length ≤ 2 ^ 48) :
    InR (-400) 448 w.sum ∧ InR (-800) 848 (w.map (· ^ 2)).sum ∧
    (∃ s, A.sum ((w.map fin).map toDouble) = fin s ∧ Near w.length w.sum s) ∧
    ∃ s, A.sum (((w.map fin).map toDouble).map fun w => mulD w w) = fin s ∧
      Near (w.length + 2) (w.map (· ^ 2)).sum s := by
  have hne : w ≠ [] := by rintro rfl; simp at hpos
  have hlen := List.length_pos_iff.2 hne
  have hmean : 0 < Spec.mean w := div_pos hpos (by exact_mod_cast hlen)
  obtain ⟨x, hx, hx0⟩ := exists_pos_of_mean (fun x hx => (hw x hx).nonneg) hmean
  have hxl := (hw x hx).lower hx0
  have hN2 : (w.length : ℝ) ≤ 2 ^ (48 : ℤ) := by
    have : (w.length : ℝ) ≤ ((2 ^ 48 : ℕ) : ℝ) := by exact_mod_cast hN
    refine this.trans ?_
    norm_num
  have hsq : ∀ y ∈ w.map (· ^ 2), 0 ≤ y ∧ y ≤ (2 : ℝ) ^ (800 : ℤ) := by
    intro y hy
    obtain ⟨x, hx, rfl⟩ := List.mem_map.1 hy
    refine ⟨by positivity, ?_⟩
    calc x ^ 2 ≤ (2 ^ (400 : ℤ)) ^ 2 := pow_le_pow_left₀ (hw x hx).nonneg (hw x hx).le 2
      _ = 2 ^ (800 : ℤ) := by rw [← zpow_natCast, ← zpow_mul]; norm_num
  have e : ((w.map fin).map toDouble).map (fun w => mulD w w) =
      ((w.map (· ^ 2)).map fun y => round53 (round53 (Real.sqrt y) * round53 (Real.sqrt y))).map fin := by
    rw [map_toDouble hw]
    simp only [List.map_map]
    refine List.map_congr_left fun x hx => ?_
    simp only [Function.comp]
    rw [Real.sqrt_sq (hw x hx).nonneg]
    exact (square_moderate (hw x hx)).1
  rw [e, map_toDouble hw]
  refine ⟨⟨hxl.trans (le_sum_of_mem (fun x hx => (hw x hx).nonneg) hx), ?_⟩, ⟨?_, ?_⟩, ?_, ?_⟩
  · refine (sum_le_length fun x hx => (hw x hx).le).trans ?_
    calc (w.length : ℝ) * 2 ^ (400 : ℤ) ≤ 2 ^ (48 : ℤ) * 2 ^ (400 : ℤ) :=
          mul_le_mul_of_nonneg_right hN2 (by positivity)
      _ = 2 ^ (448 : ℤ) := by rw [← zpow_add₀ (by norm_num)]; norm_num
  · calc (2 : ℝ) ^ (-800 : ℤ) = (2 ^ (-400 : ℤ)) ^ 2 := by rw [← zpow_natCast, ← zpow_mul]; norm_num
      _ ≤ x ^ 2 := pow_le_pow_left₀ (by positivity) hxl 2
      _ ≤ _ := le_sum_of_mem (fun y hy => (hsq y hy).1) (List.mem_map.2 ⟨x, hx, rfl⟩)
  · refine (sum_le_length fun y hy => (hsq y hy).2).trans ?_
    rw [List.length_map]
    calc (w.length : ℝ) * 2 ^ (800 : ℤ) ≤ 2 ^ (48 : ℤ) * 2 ^ (800 : ℤ) :=
          mul_le_mul_of_nonneg_right hN2 (by positivity)
      _ = 2 ^ (848 : ℤ) := by rw [← zpow_add₀ (by norm_num)]; norm_num
  · obtain ⟨s, h1, -, h3⟩ := Arith.sum_values hA (X := w) (f := round53) (k := 1)
      (fun x hx => ⟨(hw x hx).nonneg, (hw x hx).le.trans (two_zpow_le (by norm_num))⟩)
      (fun x hx => ⟨(round53_moderate (hw x hx)).2.2, (round53_moderate (hw x hx)).2.1⟩) (by norm_num)
      (hN.trans (by norm_num)) hne
    exact ⟨s, h1, by rwa [show 1 + (w.length - 1) = w.length by omega] at h3⟩
  · obtain ⟨s, h1, -, h3⟩ := Arith.sum_values hA (X := w.map (· ^ 2))
      (f := fun y => round53 (round53 (Real.sqrt y) * round53 (Real.sqrt y))) (k := 3)
      (fun y hy => ⟨(hsq y hy).1, (hsq y hy).2.trans (two_zpow_le (by norm_num))⟩)
      (fun y hy => by
        obtain ⟨x, hx, rfl⟩ := List.mem_map.1 hy
        rw [Real.sqrt_sq (hw x hx).nonneg]
        exact ⟨(square_moderate (hw x hx)).2, round53_isDouble _⟩) (by norm_num)
      (by rw [List.length_map]; exact hN.trans (by norm_num)) (by simpa using hne)
    rw [List.length_map] at h3
    exact ⟨s, h1, by rwa [show 3 + (w.length - 1) = w.length + 2 by omega] at h3⟩

/-- **C88, selection effects.** With `n` found injections out of `N`, the detection probability computed
in double precision carries at most `n + 1` rounding errors, and its variance differs from the exact
estimate - the variance of the mean of the weights of all `N` injections, those not found counting 0 - by
at most `2^-53 (6 n + 18)` times the mean square weight divided by `N`. -/
theorem C88_detectionEfficiency {A : Arith} (hA : Accurate A) {vt : ResamplingVT} {θ : Dict Fl}
    {p q : List ℝ} {N : ℕ} (hp : vt.model.prob vt.data θ = .ok (p.map fin))
    (hq : vt.data.get? "prior" = some (.arr (q.map fin))) (hpq : p.length = q.length)
    (hq0 : ∀ x ∈ q, x ≠ 0) (hN : vt.totalInjections.2 = fin N) (hqN : q.length ≤ N) (hN2 : N ≤ 2 ^ 48)
    (hw : ∀ x ∈ weights p q, Moderate x) (hpos : 0 < (weights p q).sum) :
    let w := weights p q
    let S := (w.map (· ^ 2)).sum / (N : ℝ) ^ 2
    ∃ mu var, vt.detectionEfficiencyD A θ = .ok (fin mu, fin var) ∧ IsDouble mu ∧
      Near (q.length + 1) (mean (allWeights N w)) mu ∧
      |var - varianceOfMean (allWeights N w)| ≤ ur * (6 * q.length + 18) * S := by
  intro w S
  have hwl : w.length = q.length := by simp [w, Spec.weights, hpq]
  have hAl : (allWeights N w).length = N := allWeights_length (by omega)
  have hmean : mean (allWeights N w) = w.sum / N := by
    unfold Spec.mean; rw [allWeights_sum, hAl]
  have hvar : varianceOfMean (allWeights N w) = S - (w.sum / N) ^ 2 / N := by
    rw [varianceOfMean_eq, allWeights_sum_sq, hAl, hmean]
    intro h
    rw [show w = weights p q from rfl, ← allWeights_sum N] at *
    rw [show weights p q = w from rfl, h] at hpos
    simp at hpos
  rw [hmean, hvar]
  have hne : w ≠ [] := by intro h; rw [show weights p q = w from rfl, h] at hpos; simp at hpos
  have hlen := List.length_pos_iff.2 hne
  have hN0 : (0 : ℝ) < N := by
    have : 0 < N := by omega
    exact_mod_cast this
  have hN1 : InR 0 48 (N : ℝ) := by
    refine ⟨?_, ?_⟩
    · rw [zpow_zero]
      have : 1 ≤ N := by omega
      exact_mod_cast this
    · have : (N : ℝ) ≤ ((2 ^ 48 : ℕ) : ℝ) := by exact_mod_cast hN2
      refine this.trans ?_
      norm_num
  have hk : (2 : ℕ) ^ 48 * 8 ≤ 2 ^ 52 := by norm_num
  obtain ⟨r1, r2, ⟨s, es, ns⟩, s2, es2, ns2⟩ := Arith.sum_weights hA hw hpos (by rw [show weights p q = w from rfl]; omega)
  rw [show weights p q = w from rfl] at *
  -- the mean
  have nmu0 := ns.div (Near.refl (N : ℝ)) r1.pos.le hN0
  have rmu0 := (r1.div hN1).near nmu0 (by omega)
  obtain ⟨mu, emu, dmu, nmu1⟩ := rmu0.toDouble (by norm_num) (by norm_num)
  have nmu : Near (q.length + 1) (w.sum / N) mu := by
    have := nmu0.trans nmu1
    rwa [add_zero, hwl] at this
  have rmu := (r1.div hN1).near nmu (by omega)
  -- the first term
  obtain ⟨NN, eNN, -, nNN⟩ := (hN1.mul hN1).toDouble (by norm_num) (by norm_num)
  have rNN := (hN1.mul hN1).near nNN (by norm_num)
  have na0 := ns2.div nNN r2.pos.le (hN1.mul hN1).pos
  have rS := r2.div (hN1.mul hN1)
  have ra0 := rS.near na0 (by omega)
  obtain ⟨a, ea, da, na1⟩ := ra0.toDouble (by norm_num) (by norm_num)
  have na : Near (q.length + 4) S a := by
    have := na0.trans na1
    rwa [hwl, show q.length + 2 + 1 + 1 = q.length + 4 by ring, ← sq] at this
  have hS : 0 < S := by
    have := rS.pos
    rwa [← sq] at this
  -- the second term
  have hm0 := (r1.div hN1).pos
  obtain ⟨m2, em2, -, nm2⟩ := (rmu.mul rmu).toDouble (by norm_num) (by norm_num)
  have nm2' := (nmu.mul nmu hm0.le hm0.le).trans nm2
  have rm2 := ((r1.div hN1).mul (r1.div hN1)).near nm2' (by omega)
  have nb0 := nm2'.div (Near.refl (N : ℝ)) ((r1.div hN1).mul (r1.div hN1)).pos.le hN0
  have rb0 := (((r1.div hN1).mul (r1.div hN1)).div hN1).near nb0 (by omega)
  obtain ⟨b, eb, db, nb1⟩ := (rm2.div hN1).toDouble (by norm_num) (by norm_num)
  set Q := (w.sum / N) ^ 2 / N with hQ
  have hQ0 : 0 < Q := by rw [hQ]; positivity
  have nb : Near (2 * q.length + 4) Q b := by
    have := nb0.trans nb1
    rwa [← sq, show q.length + 1 + (q.length + 1) + 1 + 0 + 1 = 2 * q.length + 4 by ring] at this
  have hQS : Q ≤ S := by
    have h1 : w.sum ^ 2 ≤ w.length * (w.map (· ^ 2)).sum := by
      have h5 := sum_sq_sub w (w.sum / w.length)
      have h6 : 0 ≤ (w.map fun x => (x - w.sum / w.length) ^ 2).sum := List.sum_nonneg (by
        intro y hy
        obtain ⟨x, -, rfl⟩ := List.mem_map.1 hy
        positivity)
      have hl : (0 : ℝ) < w.length := by exact_mod_cast hlen
      rw [h5] at h6
      have e3 : (w.map (· ^ 2)).sum - 2 * (w.sum / w.length) * w.sum + w.length * (w.sum / w.length) ^ 2 =
          (w.length * (w.map (· ^ 2)).sum - w.sum ^ 2) / w.length := by
        field_simp
        ring
      rw [e3] at h6
      have := (le_div_iff₀ hl).1 h6
      linarith
    have h2 : (w.length : ℝ) ≤ N := by rw [hwl]; exact_mod_cast hqN
    have h3 : 0 ≤ (w.map (· ^ 2)).sum := r2.pos.le
    have e1 : Q = w.sum ^ 2 / (N : ℝ) ^ 3 := by rw [hQ]; field_simp
    have e2 : S = N * (w.map (· ^ 2)).sum / (N : ℝ) ^ 3 := by
      show (w.map (· ^ 2)).sum / (N : ℝ) ^ 2 = _
      field_simp
    rw [e1, e2]
    refine div_le_div_of_nonneg_right (h1.trans ?_) (by positivity)
    exact mul_le_mul_of_nonneg_right h2 h3
  have k1 := na.abs_sub hS.le (by omega)
  have k2 := nb.abs_sub hQ0.le (by omega)
  push_cast at k1 k2
  have a2 := (near_half na hS.le (by omega)).1
  have b2 := (near_half nb hQ0.le (by omega)).1
  have a0 := na.pos hS
  have b0 := nb.pos hQ0
  have hab : |a - b| ≤ 2 * S := by rw [abs_le]; constructor <;> linarith
  have hover : |a - b| ≤ 2 ^ (1023 : ℤ) := by
    refine hab.trans ?_
    have h1 : S ≤ 2 ^ (848 : ℤ) := by
      have := rS.2
      rwa [← sq, show (848 : ℤ) - (0 + 0) = 848 by norm_num] at this
    have h2 : (2 : ℝ) ^ (849 : ℤ) = 2 * 2 ^ (848 : ℤ) := by
      rw [show (849 : ℤ) = 1 + 848 by norm_num, zpow_add₀ (by norm_num), zpow_one]
    have h3 := two_zpow_le (show (849 : ℤ) ≤ 1023 by norm_num)
    generalize (2 : ℝ) ^ (849 : ℤ) = B at *
    generalize (2 : ℝ) ^ (848 : ℤ) = C at *
    generalize (2 : ℝ) ^ (1023 : ℤ) = D at *
    linarith only [h1, h2, h3]
  have herr : |round53 (a - b) - (a - b)| ≤ ur * |a - b| := by
    have := round53_add da db.neg
    rwa [← sub_eq_add_neg] at this
  refine ⟨mu, round53 (a - b), ?_, dmu, nmu, ?_⟩
  · have hdiv : Arr.divide (p.map fin) (q.map fin) = .ok (w.map fin) := by
      unfold Arr.divide
      rw [if_pos (by simpa using hpq), zipWith_div_fin hq0]
    have e1 : mulD (fin (N : ℝ)) (fin (N : ℝ)) = fin NN := by unfold mulD; rw [fin_mul]; exact eNN
    have e2 : mulD (fin mu) (fin mu) = fin m2 := by unfold mulD; rw [fin_mul]; exact em2
    unfold ResamplingVT.detectionEfficiencyD
    simp only [hp, Dict.get, hq, ok_bind, pure_eq_ok, hdiv, hN, es, es2, e1]
    rw [fin_div hN0.ne', emu, e2, fin_div hN0.ne', eb, fin_div rNN.pos.ne', ea, fin_sub]
    congr 2
    exact fl64_of_le hover
  · have hu := ur_pos
    have e : round53 (a - b) - (S - Q) = (round53 (a - b) - (a - b)) + ((a - S) + -(b - Q)) := by ring
    rw [e]
    have t1 := abs_add_le (round53 (a - b) - (a - b)) ((a - S) + -(b - Q))
    have t2 := abs_add_le (a - S) (-(b - Q))
    rw [abs_neg] at t2
    have t3 : ur * |a - b| ≤ ur * (2 * S) := mul_le_mul_of_nonneg_left hab hu.le
    have t4 : 2 * (2 * (q.length : ℝ) + 4) * ur * Q ≤ 2 * (2 * (q.length : ℝ) + 4) * ur * S :=
      mul_le_mul_of_nonneg_left hQS (by positivity)
    have e2 : ur * (6 * (q.length : ℝ) + 18) * S = ur * (2 * S) + 2 * ((q.length : ℝ) + 4) * ur * S +
      2 * (2 * (q.length : ℝ) + 4) * ur * S := by ring
    rw [e2]
    linarith only [t1, t2, t3, t4, k1, k2, herr]

/-- **C88, all together.** The log likelihood with the Monte Carlo estimate of the detection probability,
everything computed in double precision. -/
theorem C88_endToEnd {A : Arith} (hA : Accurate A) {self : Likelihood} {vt : ResamplingVT} {θ φ : Dict Fl}
    (hconv : self.conversion θ = .ok φ) {W : List (List ℝ)} (hw : self.weights φ = .ok (matFin W))
    (hlen : W.length = self.nPosteriors) {K : ℕ} (hn0 : W ≠ []) (hn : W.length ≤ 2 ^ 40)
    (hK : K ≤ 2 ^ 47) (hW : ∀ w ∈ W, w.length = K ∧ 0 < mean w ∧ ∀ x ∈ w, Moderate x)
    {p q : List ℝ} {N : ℕ} (hp : vt.model.prob vt.data φ = .ok (p.map fin))
    (hq : vt.data.get? "prior" = some (.arr (q.map fin))) (hpq : p.length = q.length)
    (hq0 : ∀ x ∈ q, x ≠ 0) (hN : vt.totalInjections.2 = fin N) (hqN : q.length ≤ N) (hN2 : N ≤ 2 ^ 47)
    (hv : ∀ x ∈ weights p q, Moderate x) (hpos : 0 < (weights p q).sum) :
    let pdet := mean (allWeights N (weights p q))
    let n : ℝ := W.length
    let D := 4 * ur * n * (K + q.length + 2)
    let B := (W.map fun w => |lnBayesFactor w|).sum + n * |Real.log pdet|
    ∃ mu var L, vt.detectionEfficiencyD A φ = .ok (mu, var) ∧ self.lnLikelihoodD A mu θ = .ok (fin L) ∧
      |L - lnLikelihood W pdet| ≤ D + ur * (2 * n + 5) * (B + D) := by
  intro pdet n D B
  have h47 : (2 : ℕ) ^ 47 + 1 ≤ 2 ^ 48 := by norm_num
  obtain ⟨mu, var, h1, h2, h3, -⟩ := C88_detectionEfficiency hA hp hq hpq hq0 hN hqN (by omega) hv hpos
  have hwl : (weights p q).length = q.length := by simp [Spec.weights, hpq]
  have hne : weights p q ≠ [] := by intro h; rw [h] at hpos; simp at hpos
  have hlen' := List.length_pos_iff.2 hne
  obtain ⟨r1, -⟩ := Arith.sum_weights hA hv hpos (by omega)
  have hN1 : InR 0 48 (N : ℝ) := by
    refine ⟨?_, ?_⟩
    · rw [zpow_zero]
      have : 1 ≤ N := by omega
      exact_mod_cast this
    · have : (N : ℝ) ≤ ((2 ^ 48 : ℕ) : ℝ) := by exact_mod_cast (by omega : N ≤ 2 ^ 48)
      refine this.trans ?_
      norm_num
  have hr : InR (-999) 999 pdet := by
    have := (r1.div hN1).mono (show (-999 : ℤ) ≤ -400 - 48 by norm_num) (show (448 : ℤ) - 0 ≤ 999 by norm_num)
    have e : pdet = (weights p q).sum / N := by
      show Spec.mean _ = _
      unfold Spec.mean; rw [allWeights_sum, allWeights_length (by omega)]
    rwa [e]
  obtain ⟨L, h4, h5⟩ := C88_lnLikelihood hA hconv hw hlen hn0 hn (hK.trans (by norm_num)) hW h3 h2
    (by omega) hr.1 hr.2
  refine ⟨fin mu, fin var, L, h1, h4, ?_⟩
  have e : (K : ℝ) + 1 + ((q.length + 1 : ℕ) : ℝ) = K + q.length + 2 := by push_cast; ring
  rw [e] at h5
  exact h5

/-- **C88, order of summation.** Two libraries that add in different orders, or whose logarithms differ in
the last place, return log likelihoods that differ by at most twice the bound. -/
theorem C88_order {A A' : Arith} (hA : Accurate A) (hA' : Accurate A') {self : Likelihood}
    {vt : ResamplingVT} {θ φ : Dict Fl}
    (hconv : self.conversion θ = .ok φ) {W : List (List ℝ)} (hw : self.weights φ = .ok (matFin W))
    (hlen : W.length = self.nPosteriors) {K : ℕ} (hn0 : W ≠ []) (hn : W.length ≤ 2 ^ 40)
    (hK : K ≤ 2 ^ 47) (hW : ∀ w ∈ W, w.length = K ∧ 0 < mean w ∧ ∀ x ∈ w, Moderate x)
    {p q : List ℝ} {N : ℕ} (hp : vt.model.prob vt.data φ = .ok (p.map fin))
    (hq : vt.data.get? "prior" = some (.arr (q.map fin))) (hpq : p.length = q.length)
    (hq0 : ∀ x ∈ q, x ≠ 0) (hN : vt.totalInjections.2 = fin N) (hqN : q.length ≤ N) (hN2 : N ≤ 2 ^ 47)
    (hv : ∀ x ∈ weights p q, Moderate x) (hpos : 0 < (weights p q).sum) :
    let pdet := mean (allWeights N (weights p q))
    let n : ℝ := W.length
    let D := 4 * ur * n * (K + q.length + 2)
    let B := (W.map fun w => |lnBayesFactor w|).sum + n * |Real.log pdet|
    ∃ mu var L mu' var' L', vt.detectionEfficiencyD A φ = .ok (mu, var) ∧
      self.lnLikelihoodD A mu θ = .ok (fin L) ∧ vt.detectionEfficiencyD A' φ = .ok (mu', var') ∧
      self.lnLikelihoodD A' mu' θ = .ok (fin L') ∧
      |L - L'| ≤ 2 * (D + ur * (2 * n + 5) * (B + D)) := by
  intro pdet n D B
  obtain ⟨mu, var, L, h1, h2, h3⟩ :=
    C88_endToEnd hA hconv hw hlen hn0 hn hK hW hp hq hpq hq0 hN hqN hN2 hv hpos
  obtain ⟨mu', var', L', h1', h2', h3'⟩ :=
    C88_endToEnd hA' hconv hw hlen hn0 hn hK hW hp hq hpq hq0 hN hqN hN2 hv hpos
  refine ⟨mu, var, L, mu', var', L', h1, h2, h1', h2', ?_⟩
  have h := abs_sub_le L (lnLikelihood W pdet) L'
  rw [abs_sub_comm (lnLikelihood W pdet) L'] at h
  exact h.trans (by rw [two_mul]; exact add_le_add h3 h3')

/-! ## An accurate library -/

/-- Adding from left to right. -/
def sequential : ℕ → SumTree
  | 0 => .leaf 0
  | n + 1 => .node (sequential n) (.leaf (n + 1))

/-- Adding from right to left. -/
def backwards : ℕ → ℕ → SumTree
  | i, 0 => .leaf i
  | i, n + 1 => .node (.leaf i) (backwards (i + 1) n)

theorem sequential_leaves (n : ℕ) : (sequential n).leaves = List.range (n + 1) := by
  induction n with
  | zero => rfl
  | succ n ih =>
    rw [List.range_succ, ← ih]
    rfl

theorem backwards_leaves (i n : ℕ) : (backwards i n).leaves = List.range' i (n + 1) := by
  induction n generalizing i with
  | zero => rfl
  | succ n ih =>
    rw [List.range'_succ, ← ih]
    rfl

/-- A library with correctly rounded logarithms and a given order of summation. -/
def roundedArith (t : ℕ → SumTree) : Arith where
  order l := t (l.length - 1)
  log := fun
    | fin x => fl64 (Real.log x)
    | x => x

theorem isDouble_ne_one {x : ℝ} (h : IsDouble x) (h1 : x ≠ 1) : ur ≤ |x - 1| := by
  obtain ⟨m, k, hm, -, rfl⟩ := h
  have hur : ur = (2 : ℝ) ^ (-53 : ℤ) := rfl
  rcases le_or_gt (-53) k with hk | hk
  · -- a multiple of 2^-53
    obtain ⟨j, hj⟩ := Int.eq_ofNat_of_zero_le (show 0 ≤ k + 53 by omega)
    have e : (m : ℝ) * 2 ^ k - 1 = ((m * 2 ^ j - 2 ^ 53 : ℤ) : ℝ) * 2 ^ (-53 : ℤ) := by
      have : k = j + -53 := by omega
      rw [this, zpow_add₀ (by norm_num), zpow_natCast]
      push_cast
      rw [sub_mul]
      congr 1
      · ring
      · norm_num
    rw [e, abs_mul, abs_of_pos (show (0 : ℝ) < 2 ^ (-53 : ℤ) by positivity), hur]
    have hne : m * 2 ^ j - 2 ^ 53 ≠ 0 := by
      intro h0
      rw [h0] at e
      push_cast at e
      apply h1
      linarith
    have : (1 : ℝ) ≤ |((m * 2 ^ j - 2 ^ 53 : ℤ) : ℝ)| := by
      exact_mod_cast Int.one_le_abs hne
    have hp : (0 : ℝ) < 2 ^ (-53 : ℤ) := by positivity
    nlinarith
  · -- at most one half
    have h2 : (m : ℝ) * 2 ^ k ≤ 1 / 2 := by
      have h3 : (m : ℝ) ≤ 2 ^ 53 := by
        have : m ≤ 2 ^ 53 := (le_abs_self m).trans hm
        exact_mod_cast this
      have h4 : (2 : ℝ) ^ k ≤ 2 ^ (-54 : ℤ) := two_zpow_le (by omega)
      have h5 : (0 : ℝ) < 2 ^ k := by positivity
      calc (m : ℝ) * 2 ^ k ≤ 2 ^ 53 * 2 ^ k := mul_le_mul_of_nonneg_right h3 h5.le
        _ ≤ 2 ^ 53 * 2 ^ (-54 : ℤ) := mul_le_mul_of_nonneg_left h4 (by positivity)
        _ = 1 / 2 := by norm_num
    have h3 : ur ≤ 1 / 2 := by rw [ur_val]; norm_num
    rw [abs_sub_comm]
    exact h3.trans ((by linarith : (1 : ℝ) / 2 ≤ 1 - m * 2 ^ k).trans (le_abs_self _))

theorem log_not_small {x : ℝ} (hx : 0 < x) (hd : IsDouble x) (h1 : x ≠ 1) : ur / 2 ≤ |Real.log x| := by
  have h := isDouble_ne_one hd h1
  have hu := ur_pos
  rcases lt_or_gt_of_ne h1 with hl | hl
  · rw [abs_of_neg (by linarith)] at h
    have := Real.log_le_sub_one_of_pos hx
    rw [abs_of_neg (by linarith)]
    linarith
  · rw [abs_of_pos (by linarith)] at h
    have h2 := Real.one_sub_inv_le_log_of_pos hx
    have h3 : ur / 2 ≤ 1 - x⁻¹ := by
      have h4 : x⁻¹ ≤ (1 + ur)⁻¹ := inv_anti₀ (by linarith) (by linarith)
      have h5 : (1 + ur)⁻¹ ≤ 1 - ur / 2 := by
        rw [inv_le_iff_one_le_mul₀ (by linarith)]
        have : ur ≤ 1 := by rw [ur_val]; norm_num
        nlinarith
      linarith
    exact (h3.trans h2).trans (le_abs_self _)

theorem roundedArith_accurate {t : ℕ → SumTree} (ht : ∀ n, (t n).Covers (n + 1)) :
    Accurate (roundedArith t) where
  order l hl := by
    have := List.length_pos_iff.2 hl
    have h := ht (l.length - 1)
    rwa [show l.length - 1 + 1 = l.length by omega] at h
  log x h1 h2 hd := by
    have hx : 0 < x := lt_of_lt_of_le (by positivity) h1
    have hlog : |Real.log x| ≤ 2 ^ (1023 : ℤ) := by
      have l1 := Real.log_le_log (by positivity) h1
      have l2 := Real.log_le_log hx h2
      rw [Real.log_zpow] at l1 l2
      have h3 : Real.log 2 ≤ 1 := (Real.log_le_sub_one_of_pos (by norm_num)).trans (by norm_num)
      have h4 : 0 ≤ Real.log 2 := Real.log_nonneg (by norm_num)
      push_cast at l1 l2
      have h5 : |Real.log x| ≤ 2 ^ (10 : ℤ) := by
        rw [abs_le]
        constructor <;> norm_num <;> linarith
      exact h5.trans (two_zpow_le (by norm_num))
    refine ⟨round53 (Real.log x), fl64_of_le hlog, round53_isDouble _, ?_⟩
    have hu := ur_pos
    by_cases hx1 : x = 1
    · rw [hx1, Real.log_one, round53_zero]
      simp
    · have h3 := log_not_small hx hd hx1
      have h4 : (2 : ℝ) ^ (-1022 : ℤ) ≤ ur / 2 := by
        have : ur / 2 = 2 ^ (-54 : ℤ) := by rw [ur_val]; norm_num
        rw [this]
        exact two_zpow_le (by norm_num)
      refine (round53_normal (h4.trans h3)).trans ?_
      have := mul_nonneg hu.le (abs_nonneg (Real.log x))
      linarith

theorem sequential_accurate : Accurate (roundedArith sequential) :=
  roundedArith_accurate fun n => by unfold SumTree.Covers; rw [sequential_leaves]

theorem backwards_accurate : Accurate (roundedArith (backwards 0)) :=
  roundedArith_accurate fun n => by
    unfold SumTree.Covers; rw [backwards_leaves, List.range_eq_range']

theorem moderate_of_le {x : ℝ} (h1 : 1 / 4 ≤ x) (h2 : x ≤ 4) : Moderate x := by
  refine .inr ⟨le_trans ?_ h1, h2.trans ?_⟩
  · calc (2 : ℝ) ^ (-400 : ℤ) ≤ 2 ^ (-2 : ℤ) := two_zpow_le (by norm_num)
      _ = 1 / 4 := by norm_num
  · calc (4 : ℝ) = 2 ^ (2 : ℤ) := by norm_num
      _ ≤ _ := two_zpow_le (by norm_num)

/-- A selection function with three found injections out of six. -/
def toyInjections : ResamplingVT where
  backend := .numpy
  model := ⟨[], fun _ _ => .ok [fin 1, fin 2, fin 3]⟩
  data := [("prior", .arr [fin 1, fin 1, fin 2])]
  nEvents := fin 2
  totalInjections := (true, fin 6)
  analysisTime := 1
  redshiftModel := none
  marginalizeUncertainty := false
  enforceConvergence := false
  surveyedHypervolumeAttr := some (fin 5)

/-- The hypotheses of the theorems of C88 hold for two libraries that add in opposite orders, two events
with two samples each, and three injections: the two log likelihoods differ by less than `1e-12`. -/
example : ∃ mu var L mu' var' L',
    toyInjections.detectionEfficiencyD (roundedArith sequential) [] = .ok (mu, var) ∧
    (toyLikelihood .hyper (.bare true (fin 1)) pinf).lnLikelihoodD (roundedArith sequential) mu [] =
      .ok (fin L) ∧
    toyInjections.detectionEfficiencyD (roundedArith (backwards 0)) [] = .ok (mu', var') ∧
    (toyLikelihood .hyper (.bare true (fin 1)) pinf).lnLikelihoodD (roundedArith (backwards 0)) mu' [] =
      .ok (fin L') ∧ |L - L'| ≤ 1 / 10 ^ 12 := by
  have hw := weights_fin (self := toyLikelihood .hyper (.bare true (fin 1)) pinf) (θ := [])
    (P := [[1, 3], [2, 2]]) (prior := some [[1, 1], [2, 2]]) rfl rfl toyShape
  rw [toyWeights] at hw
  have hwt : weights [1, 2, 3] [1, 1, 2] = [1, 2, 3 / 2] := by norm_num [weights]
  obtain ⟨mu, var, L, mu', var', L', h1, h2, h3, h4, h5⟩ := C88_order sequential_accurate backwards_accurate
    (self := toyLikelihood .hyper (.bare true (fin 1)) pinf) (vt := toyInjections) (θ := []) (φ := []) rfl hw
    rfl (K := 2) (by simp) (by norm_num) (by norm_num) (by
      intro w hw
      simp only [List.mem_cons, List.not_mem_nil, or_false] at hw
      rcases hw with rfl | rfl
      · refine ⟨rfl, by norm_num [mean], ?_⟩
        intro x hx
        simp only [List.mem_cons, List.not_mem_nil, or_false] at hx
        rcases hx with rfl | rfl <;> exact moderate_of_le (by norm_num) (by norm_num)
      · refine ⟨rfl, by norm_num [mean], ?_⟩
        intro x hx
        simp only [List.mem_cons, List.not_mem_nil, or_false, or_self] at hx
        subst hx
        exact moderate_of_le (by norm_num) (by norm_num))
    (p := [1, 2, 3]) (q := [1, 1, 2]) (N := 6) rfl rfl rfl (by simp) (by simp [toyInjections]) (by norm_num)
    (by norm_num) (by
      rw [hwt]
      intro x hx
      simp only [List.mem_cons, List.not_mem_nil, or_false] at hx
      rcases hx with rfl | rfl | rfl <;> exact moderate_of_le (by norm_num) (by norm_num))
    (by rw [hwt]; norm_num)
  refine ⟨mu, var, L, mu', var', L', h1, h2, h3, h4, h5.trans ?_⟩
  rw [hwt]
  have e1 : lnBayesFactor [1, 3] = Real.log 2 := by unfold lnBayesFactor; norm_num [mean]
  have e2 : lnBayesFactor [1, 1] = Real.log 1 := by unfold lnBayesFactor; norm_num [mean]
  have e3 : mean (allWeights 6 [1, 2, 3 / 2]) = 3 / 4 := by norm_num [mean, allWeights]
  have h6 : |Real.log 2| ≤ 1 := by
    rw [abs_of_nonneg (Real.log_nonneg (by norm_num))]
    exact (Real.log_le_sub_one_of_pos (by norm_num)).trans (by norm_num)
  have h7 : |Real.log (3 / 4)| ≤ 1 := by
    have a1 := Real.one_sub_inv_le_log_of_pos (show (0 : ℝ) < 3 / 4 by norm_num)
    have a2 := Real.log_nonpos (show (0 : ℝ) ≤ 3 / 4 by norm_num) (by norm_num)
    rw [abs_le]
    norm_num at a1
    constructor <;> linarith
  simp only [List.map_cons, List.map_nil, List.sum_cons, List.sum_nil, e1, e2, e3, Real.log_one, abs_zero,
    List.length_cons, List.length_nil]
  rw [ur_val]
  push_cast
  norm_num
  linarith

/-- The hypotheses of `C88_lnBayesFactor` and `C88_variance` hold for the weights 1, 3. -/
example : ∃ y v, rowD (roundedArith sequential) 2 (([1, 3].map fin).map toDouble) = (fin y, fin v) ∧
    |y - Real.log 2| ≤ 1 / 10 ^ 14 ∧ |v - 1 / 8| ≤ 1 / 10 ^ 14 := by
  have hw : ∀ x ∈ [(1 : ℝ), 3], Moderate x := by
    intro x hx
    simp only [List.mem_cons, List.not_mem_nil, or_false] at hx
    rcases hx with rfl | rfl <;> exact moderate_of_le (by norm_num) (by norm_num)
  have hm : 0 < mean [(1 : ℝ), 3] := by norm_num [mean]
  obtain ⟨y, h1, -, h2⟩ := C88_lnBayesFactor sequential_accurate 2 hw hm (by norm_num)
  obtain ⟨v, h3, h4⟩ := C88_variance sequential_accurate hw hm (by norm_num)
  have e1 : lnBayesFactor [1, 3] = Real.log 2 := by unfold lnBayesFactor; norm_num [mean]
  have e2 : relativeVariance [1, 3] = 1 / 8 := by unfold relativeVariance; norm_num [mean]
  have h6 : |Real.log 2| ≤ 1 := by
    rw [abs_of_nonneg (Real.log_nonneg (by norm_num))]
    exact (Real.log_le_sub_one_of_pos (by norm_num)).trans (by norm_num)
  rw [e1, ur_val] at h2
  rw [e2, ur_val] at h4
  refine ⟨y, v, Prod.ext h1 h3, h2.trans ?_, h4.trans ?_⟩
  · simp only [List.length_cons, List.length_nil]
    push_cast
    norm_num
    linarith
  · simp only [List.length_cons, List.length_nil]
    push_cast
    norm_num

/-! ## C89: the sign of the variances -/

/-- The variances reported for an event and for the detection probability are not negative. -/
def C89_statement : Prop :=
  ∀ A, Accurate A →
    (∀ w : List ℝ, (∀ x ∈ w, Moderate x) → 0 < mean w → w.length ≤ 2 ^ 45 →
      ∀ v, (rowD A w.length ((w.map fin).map toDouble)).2 = fin v → 0 ≤ v) ∧
    ∀ (vt : ResamplingVT) (θ : Dict Fl) (p q : List ℝ) (N : ℕ),
      vt.model.prob vt.data θ = .ok (p.map fin) →
      vt.data.get? "prior" = some (.arr (q.map fin)) → p.length = q.length → (∀ x ∈ q, x ≠ 0) →
      vt.totalInjections.2 = fin N → q.length ≤ N → N ≤ 2 ^ 45 →
      (∀ x ∈ weights p q, Moderate x) → 0 < (weights p q).sum →
      ∀ mu v, vt.detectionEfficiencyD A θ = .ok (mu, fin v) → 0 ≤ v

theorem two_leaves {t : SumTree} (h : t.Covers 2) :
    t = .node (.leaf 0) (.leaf 1) ∨ t = .node (.leaf 1) (.leaf 0) := by
  have hlen := h.length_eq
  rw [List.length_range] at hlen
  cases t with
  | leaf i => simp [SumTree.leaves] at hlen
  | node l r =>
    have h1 := l.leaves_length_pos
    have h2 := r.leaves_length_pos
    simp only [SumTree.leaves, List.length_append] at hlen
    cases l with
    | node a b =>
      have := a.leaves_length_pos
      have := b.leaves_length_pos
      simp only [SumTree.leaves, List.length_append] at hlen
      omega
    | leaf i =>
      cases r with
      | node a b =>
        have := a.leaves_length_pos
        have := b.leaves_length_pos
        simp only [SumTree.leaves, List.length_append, List.length_cons] at hlen
        omega
      | leaf j =>
        have hp : [i, j].Perm [0, 1] := h
        have hi : i = 0 ∨ i = 1 := by simpa using hp.mem_iff.1 (List.mem_cons_self (a := i))
        have hnd : [i, j].Nodup := hp.nodup_iff.2 (by simp)
        have hj : j = 0 ∨ j = 1 := by
          simpa using hp.mem_iff.1 (List.mem_cons_of_mem i (List.mem_cons_self (a := j)))
        have hij : i ≠ j := by simpa using hnd
        rcases hi with rfl | rfl <;> rcases hj with rfl | rfl <;> simp_all

theorem Arith.sum_two {A : Arith} (hA : Accurate A) (x y : ℝ) :
    A.sum [fin x, fin y] = fl64 (x + y) := by
  unfold Arith.sum
  rcases two_leaves (hA.order [fin x, fin y] (by simp)) with h | h <;> rw [h]
  · rfl
  · show toDouble (fin y + fin x) = _
    rw [fin_add, add_comm]
    rfl

theorem ulpExp_of {x : ℝ} {e : ℤ} (h1 : (2 : ℝ) ^ e ≤ x) (h2 : x < 2 ^ (e + 1)) (he : -1022 ≤ e) :
    ulpExp x = e - 52 := by
  have hx : 0 < x := lt_of_lt_of_le (by positivity) h1
  have : Int.log 2 |x| = e := by
    rw [abs_of_pos hx]
    apply le_antisymm
    · have := (Int.lt_zpow_iff_log_lt (b := 2) (by norm_num) hx).1 (by exact_mod_cast h2)
      omega
    · exact (Int.zpow_le_iff_le_log (b := 2) (by norm_num) hx).1 (by exact_mod_cast h1)
  unfold ulpExp
  rw [this]
  omega

/-- Rounding a number between 1 and 4 to a multiple of the unit in the last place. -/
theorem fl64_small {x y : ℝ} {e : ℤ} {n : ℤ} (h1 : (2 : ℝ) ^ e ≤ x) (h2 : x < 2 ^ (e + 1)) (he : -1022 ≤ e)
    (hx : x ≤ 4) (hn : roundEven (x / 2 ^ (e - 52)) = n) (hy : (n : ℝ) * 2 ^ (e - 52) = y) :
    fl64 x = fin y := by
  have hx0 : 0 < x := lt_of_lt_of_le (by positivity) h1
  rw [fl64_of_le]
  · unfold round53
    rw [ulpExp_of h1 h2 he, hn, hy]
  · rw [abs_of_pos hx0]
    exact hx.trans (by
      calc (4 : ℝ) = 2 ^ (2 : ℤ) := by norm_num
        _ ≤ _ := two_zpow_le (by norm_num))

/-- The unit in the last place of 1. -/
def ulp1 : ℝ := 1 / 4503599627370496

theorem tie_rounds : fl64 (2 + 3 * ulp1) = fin (2 + 4 * ulp1) := by
  refine fl64_small (e := 1) (n := 4503599627370498) (by norm_num [ulp1]) (by norm_num [ulp1]) (by norm_num)
    (by norm_num [ulp1]) ?_ (by norm_num [ulp1])
  have : (2 + 3 * ulp1) / 2 ^ (1 - 52 : ℤ) = (4503599627370497 : ℤ) + 1 / 2 := by norm_num [ulp1]
  rw [this]
  unfold roundEven
  have h1 : Int.fract (((4503599627370497 : ℤ) : ℝ) + 1 / 2) = 1 / 2 := by
    rw [Int.fract_intCast_add]
    exact Int.fract_eq_self.2 ⟨by norm_num, by norm_num⟩
  have h2 : ⌊((4503599627370497 : ℤ) : ℝ) + 1 / 2⌋ = 4503599627370497 := by
    rw [Int.floor_intCast_add]
    norm_num
  rw [h1, h2, if_neg (by norm_num), if_neg (by norm_num), if_neg (by decide)]
  norm_num

theorem square_a : fl64 ((1 + ulp1) * (1 + ulp1)) = fin (1 + 2 * ulp1) := by
  refine fl64_small (e := 0) (n := 4503599627370498) (by norm_num [ulp1]) (by norm_num [ulp1]) (by norm_num)
    (by norm_num [ulp1]) (roundEven_near ?_) (by norm_num [ulp1])
  rw [abs_lt]
  norm_num [ulp1]

theorem square_b : fl64 ((1 + 2 * ulp1) * (1 + 2 * ulp1)) = fin (1 + 4 * ulp1) := by
  refine fl64_small (e := 0) (n := 4503599627370500) (by norm_num [ulp1]) (by norm_num [ulp1]) (by norm_num)
    (by norm_num [ulp1]) (roundEven_near ?_) (by norm_num [ulp1])
  rw [abs_lt]
  norm_num [ulp1]

theorem fl64_exact {x : ℝ} {m k : ℤ} (hm : |m| ≤ 2 ^ 53) (hk : -1074 ≤ k) (hx : x = m * 2 ^ k)
    (h4 : |x| ≤ 4) : fl64 x = fin x := by
  rw [fl64_of_le]
  · rw [round53_of_isDouble ⟨m, k, hm, hk, hx⟩]
  · exact h4.trans (by
      calc (4 : ℝ) = 2 ^ (2 : ℤ) := by norm_num
        _ ≤ _ := two_zpow_le (by norm_num))

/-- Two weights that differ by one unit in the last place. -/
def twoWeights : List ℝ := [1 + ulp1, 1 + 2 * ulp1]

theorem twoWeights_moderate : ∀ x ∈ twoWeights, Moderate x := by
  intro x hx
  simp only [twoWeights, List.mem_cons, List.not_mem_nil, or_false] at hx
  rcases hx with rfl | rfl <;> exact moderate_of_le (by norm_num [ulp1]) (by norm_num [ulp1])

theorem twoWeights_double : (twoWeights.map fin).map toDouble = [fin (1 + ulp1), fin (1 + 2 * ulp1)] := by
  have h1 : fl64 (1 + ulp1) = fin (1 + ulp1) :=
    fl64_exact (m := 4503599627370497) (k := -52) (by norm_num) (by norm_num) (by norm_num [ulp1])
      (by rw [abs_le]; norm_num [ulp1])
  have h2 : fl64 (1 + 2 * ulp1) = fin (1 + 2 * ulp1) :=
    fl64_exact (m := 4503599627370498) (k := -52) (by norm_num) (by norm_num) (by norm_num [ulp1])
      (by rw [abs_le]; norm_num [ulp1])
  show [fl64 (1 + ulp1), fl64 (1 + 2 * ulp1)] = _
  rw [h1, h2]

theorem twoWeights_sums {A : Arith} (hA : Accurate A) :
    A.sum [fin (1 + ulp1), fin (1 + 2 * ulp1)] = fin (2 + 4 * ulp1) ∧
    A.sum ([fin (1 + ulp1), fin (1 + 2 * ulp1)].map fun w => mulD w w) = fin (2 + 6 * ulp1) := by
  have e1 : mulD (fin (1 + ulp1)) (fin (1 + ulp1)) = fin (1 + 2 * ulp1) := by
    unfold mulD; rw [fin_mul]; exact square_a
  have e2 : mulD (fin (1 + 2 * ulp1)) (fin (1 + 2 * ulp1)) = fin (1 + 4 * ulp1) := by
    unfold mulD; rw [fin_mul]; exact square_b
  constructor
  · rw [Arith.sum_two hA, show 1 + ulp1 + (1 + 2 * ulp1) = 2 + 3 * ulp1 by ring]
    exact tie_rounds
  · simp only [List.map_cons, List.map_nil, e1, e2]
    rw [Arith.sum_two hA, show 1 + 2 * ulp1 + (1 + 4 * ulp1) = 2 + 6 * ulp1 by ring]
    exact fl64_exact (m := 4503599627370499) (k := -51) (by norm_num) (by norm_num) (by norm_num [ulp1])
      (by rw [abs_le]; norm_num [ulp1])

/-- For these two weights every accurate library reports a negative variance, in any order. -/
theorem C89_negative {A : Arith} (hA : Accurate A) :
    ∃ v < 0, (rowD A 2 ((twoWeights.map fin).map toDouble)).2 = fin v := by
  obtain ⟨s1, s2⟩ := twoWeights_sums hA
  have two : ((2 : ℕ) : Fl) = fin 2 := by rw [natCast_eq]; norm_num
  have m1 : A.mean [fin (1 + ulp1), fin (1 + 2 * ulp1)] = fin (1 + 2 * ulp1) := by
    unfold Arith.mean
    rw [s1]
    show toDouble (fin _ / ((2 : ℕ) : Fl)) = _
    rw [two, fin_div (by norm_num), show (2 + 4 * ulp1) / 2 = 1 + 2 * ulp1 by ring]
    exact fl64_exact (m := 4503599627370498) (k := -52) (by norm_num) (by norm_num) (by norm_num [ulp1])
      (by rw [abs_le]; norm_num [ulp1])
  have m2 : A.mean ([fin (1 + ulp1), fin (1 + 2 * ulp1)].map fun w => mulD w w) = fin (1 + 3 * ulp1) := by
    unfold Arith.mean
    rw [s2]
    show toDouble (fin _ / ((2 : ℕ) : Fl)) = _
    rw [two, fin_div (by norm_num), show (2 + 6 * ulp1) / 2 = 1 + 3 * ulp1 by ring]
    exact fl64_exact (m := 4503599627370499) (k := -52) (by norm_num) (by norm_num) (by norm_num [ulp1])
      (by rw [abs_le]; norm_num [ulp1])
  have e2 : mulD (fin (1 + 2 * ulp1)) (fin (1 + 2 * ulp1)) = fin (1 + 4 * ulp1) := by
    unfold mulD; rw [fin_mul]; exact square_b
  have e3 : toDouble (fin (1 + 3 * ulp1) - fin (1 + 4 * ulp1)) = fin (-ulp1) := by
    rw [fin_sub, show 1 + 3 * ulp1 - (1 + 4 * ulp1) = -ulp1 by ring]
    exact fl64_exact (m := -1) (k := -52) (by norm_num) (by norm_num) (by norm_num [ulp1])
      (by rw [abs_le]; norm_num [ulp1])
  have e4 : mulD ((2 : ℕ) : Fl) (fin (1 + 4 * ulp1)) = fin (2 + 8 * ulp1) := by
    unfold mulD
    rw [two, fin_mul, show 2 * (1 + 4 * ulp1) = 2 + 8 * ulp1 by ring]
    exact fl64_exact (m := 4503599627370500) (k := -51) (by norm_num) (by norm_num) (by norm_num [ulp1])
      (by rw [abs_le]; norm_num [ulp1])
  have hq : |(-ulp1) / (2 + 8 * ulp1)| ≤ 1 := by rw [abs_le]; norm_num [ulp1]
  refine ⟨round53 ((-ulp1) / (2 + 8 * ulp1)), ?_, ?_⟩
  · have h1 := round53_normal (x := (-ulp1) / (2 + 8 * ulp1)) (by
      have h2 : |(-ulp1) / (2 + 8 * ulp1)| = ulp1 / (2 + 8 * ulp1) := by
        rw [neg_div, abs_neg, abs_of_pos (by norm_num [ulp1])]
      rw [h2]
      calc (2 : ℝ) ^ (-1022 : ℤ) ≤ 2 ^ (-54 : ℤ) := two_zpow_le (by norm_num)
        _ ≤ _ := by norm_num [ulp1])
    have h2 : |(-ulp1) / (2 + 8 * ulp1)| = ulp1 / (2 + 8 * ulp1) := by
      rw [neg_div, abs_neg, abs_of_pos (by norm_num [ulp1])]
    rw [h2] at h1
    have h3 := (abs_le.1 h1).2
    have h4 : 0 < ulp1 / (2 + 8 * ulp1) := by norm_num [ulp1]
    have h5 : ur * (ulp1 / (2 + 8 * ulp1)) < 1 * (ulp1 / (2 + 8 * ulp1)) :=
      mul_lt_mul_of_pos_right (by rw [ur_val]; norm_num) h4
    rw [neg_div] at h3 ⊢
    linarith
  · unfold rowD
    rw [twoWeights_double]
    simp only [m1, m2, e2, e3, e4]
    rw [fin_div (by norm_num [ulp1])]
    exact fl64_of_le (hq.trans (by
      calc (1 : ℝ) = 2 ^ (0 : ℤ) := by norm_num
        _ ≤ _ := two_zpow_le (by norm_num)))

/-- **C89 fails.** For every accurate library: the two weights `1 + 2^-52` and `1 + 2^-51` have a
negative reported variance. -/
theorem C89_fails : ¬ C89_statement := by
  intro h
  obtain ⟨v, hv, e⟩ := C89_negative sequential_accurate
  have := (h _ sequential_accurate).1 twoWeights twoWeights_moderate
    (by norm_num [mean, twoWeights, ulp1]) (by norm_num [twoWeights]) v e
  linarith

/-- Two injections with these weights, both found. -/
def twoInjections : ResamplingVT :=
  { toyInjections with
    model := ⟨[], fun _ _ => .ok (twoWeights.map fin)⟩
    data := [("prior", .arr [fin 1, fin 1])]
    totalInjections := (true, fin 2) }

/-- The variance of the detection probability is negative for the same two weights. -/
theorem C89_selection_fails {A : Arith} (hA : Accurate A) (θ : Dict Fl) :
    ∃ mu, ∃ v < 0, twoInjections.detectionEfficiencyD A θ = .ok (mu, fin v) := by
  obtain ⟨s1, s2⟩ := twoWeights_sums hA
  have hdiv : Arr.divide (twoWeights.map fin) [fin 1, fin 1] = .ok (twoWeights.map fin) := by
    unfold Arr.divide
    rw [if_pos (by simp [twoWeights])]
    simp [twoWeights, fin_div (show (1 : ℝ) ≠ 0 by norm_num)]
  refine ⟨fin (1 + 2 * ulp1), -ulp1 / 2, by norm_num [ulp1], ?_⟩
  have e2 : mulD (fin (1 + 2 * ulp1)) (fin (1 + 2 * ulp1)) = fin (1 + 4 * ulp1) := by
    unfold mulD; rw [fin_mul]; exact square_b
  have e4 : mulD (fin 2) (fin 2) = fin 4 := by
    unfold mulD
    rw [fin_mul, show (2 : ℝ) * 2 = 4 by norm_num]
    exact fl64_exact (m := 1) (k := 2) (by norm_num) (by norm_num) (by norm_num) (by norm_num)
  have e5 : toDouble (fin ((2 + 4 * ulp1) / 2)) = fin (1 + 2 * ulp1) := by
    rw [show (2 + 4 * ulp1) / 2 = 1 + 2 * ulp1 by ring]
    exact fl64_exact (m := 4503599627370498) (k := -52) (by norm_num) (by norm_num) (by norm_num [ulp1])
      (by rw [abs_le]; norm_num [ulp1])
  have e6 : toDouble (fin ((2 + 6 * ulp1) / 4)) = fin ((2 + 6 * ulp1) / 4) :=
    fl64_exact (m := 4503599627370499) (k := -53) (by norm_num) (by norm_num) (by norm_num [ulp1])
      (by rw [abs_le]; norm_num [ulp1])
  have e7 : toDouble (fin ((1 + 4 * ulp1) / 2)) = fin ((1 + 4 * ulp1) / 2) :=
    fl64_exact (m := 4503599627370500) (k := -53) (by norm_num) (by norm_num) (by norm_num [ulp1])
      (by rw [abs_le]; norm_num [ulp1])
  have e8 : toDouble (fin ((2 + 6 * ulp1) / 4 - (1 + 4 * ulp1) / 2)) = fin (-ulp1 / 2) := by
    rw [show (2 + 6 * ulp1) / 4 - (1 + 4 * ulp1) / 2 = -ulp1 / 2 by ring]
    exact fl64_exact (m := -1) (k := -53) (by norm_num) (by norm_num) (by norm_num [ulp1])
      (by rw [abs_le]; norm_num [ulp1])
  unfold ResamplingVT.detectionEfficiencyD
  have hp : twoInjections.model.prob twoInjections.data θ = .ok (twoWeights.map fin) := rfl
  have hg : twoInjections.data.get "prior" = .ok (.arr [fin 1, fin 1]) := rfl
  have hN : twoInjections.totalInjections.2 = fin 2 := rfl
  simp only [hp, hg, ok_bind, pure_eq_ok, hdiv, twoWeights_double, hN, s1, s2, e4]
  rw [fin_div (by norm_num), e5, e2, fin_div (by norm_num), e6, fin_div (by norm_num), e7, fin_sub, e8]

/-- **C89, what holds.** A reported variance is never below `-2^-47`, whatever the number of samples, and
it is positive as soon as the exact variance of the weights, relative to their squared mean, exceeds
`2^-52 (16 N + 40)`. -/
theorem C89_nearly_partial {A : Arith} (hA : Accurate A) {w : List ℝ}
    (hw : ∀ x ∈ w, Moderate x) (hpos : 0 < mean w) (hN : w.length ≤ 2 ^ 45) :
    ∃ v, (rowD A w.length ((w.map fin).map toDouble)).2 = fin v ∧ -(2 : ℝ) ^ (-47 : ℤ) ≤ v ∧
      (2 * ur * (16 * w.length + 40) < w.length * relativeVariance w → 0 < v) := by
  obtain ⟨v, e, h⟩ := C88_variance hA hw hpos hN
  refine ⟨v, e, ?_, ?_⟩
  all_goals
    have hne : w ≠ [] := ne_nil_of_mean_pos hpos
    have hlen : 0 < w.length := List.length_pos_iff.2 hne
    have hN1 : (1 : ℝ) ≤ w.length := by exact_mod_cast hlen
    have hN2 : (w.length : ℝ) ≤ 2 ^ 45 := by exact_mod_cast hN
    have hv := relativeVariance_nonneg w hne
    have hu := ur_pos
    set N : ℝ := (w.length : ℝ) with hNd
    set r := relativeVariance w with hr
    have h1 := (abs_le.1 h).1
    have hc : ur * (16 * N + 40) ≤ 1 / 2 := by
      have : ur * (16 * N + 40) ≤ ur * (16 * 2 ^ 45 + 40) :=
        mul_le_mul_of_nonneg_left (by linarith) hu.le
      refine this.trans ?_
      rw [ur_val]; norm_num
    have h2 : ur * (16 * N + 40) * r ≤ 1 / 2 * r := mul_le_mul_of_nonneg_right hc hv
    have e1 : ur * (16 * N + 40) * (r + 1 / N) =
        ur * (16 * N + 40) * r + ur * (16 * N + 40) * (1 / N) := by ring
    rw [e1] at h1
  · have h3 : ur * (16 * N + 40) * (1 / N) ≤ 2 ^ (-47 : ℤ) := by
      have h4 : (16 * N + 40) * (1 / N) ≤ 56 := by
        rw [mul_one_div, div_le_iff₀ (by linarith)]
        linarith
      rw [mul_assoc]
      refine (mul_le_mul_of_nonneg_left h4 hu.le).trans ?_
      rw [ur_val]; norm_num
    clear_value N r
    generalize (2 : ℝ) ^ (-47 : ℤ) = B at *
    generalize ur * (16 * N + 40) * r = a at *
    generalize ur * (16 * N + 40) * (1 / N) = b at *
    linarith only [h1, h2, h3, hv]
  · intro h3
    have h4 : ur * (16 * N + 40) * (1 / N) < 1 / 2 * r := by
      rw [mul_one_div, div_lt_iff₀ (by linarith)]
      linarith
    linarith

/-- The weights 1, 3 have a positive reported variance. -/
example : ∃ v > 0, (rowD (roundedArith sequential) 2 (([1, 3].map fin).map toDouble)).2 = fin v := by
  obtain ⟨v, h1, -, h2⟩ := C89_nearly_partial sequential_accurate (w := [1, 3]) (by
    intro x hx
    simp only [List.mem_cons, List.not_mem_nil, or_false] at hx
    rcases hx with rfl | rfl <;> exact moderate_of_le (by norm_num) (by norm_num)) (by norm_num [mean])
    (by norm_num)
  refine ⟨v, h2 ?_, h1⟩
  rw [ur_val]
  simp only [List.length_cons, List.length_nil]
  norm_num [relativeVariance, mean]

end GW
