import Verif.Props.RoundedSmoothing
import Verif.Props.Smoothing

/-!
# C119 (continued): smoothed primary-mass densities in double precision
-/

noncomputable section

open Classical

namespace GW

open Fl

namespace Spec

/-- The trapezoid rule for a function on a grid. -/
def gridRule (f : ℝ → ℝ) (xs : List ℝ) : ℝ :=
  trapezoidRule (xs.length - 1) (fun i => f (xs.getD i 0)) (fun i => xs.getD i 0)

/-- A computed value of a primary model `P` with relative error at most `ρ`. -/
def PrimaryWithin (prim : Fl → Except PyErr Fl) (P : ℝ → ℝ) (ρ m : ℝ) : Prop :=
  0 ≤ P m ∧ P m ≤ 2 ^ (200 : ℤ) ∧ ∃ p, prim (fin m) = .ok (fin p) ∧ IsDouble p ∧ |p - P m| ≤ ρ * P m

/-- The documented smoothed density on a grid: the primary model times the window, divided by the integral of this
product over the grid. -/
def smoothedPrimary (P : ℝ → ℝ) (mmin mmax d : ℝ) (xs : List ℝ) (m : ℝ) : ℝ :=
  P m * planckWindow mmin mmax d m / gridRule (fun t => P t * planckWindow mmin mmax d t) xs

end Spec

open Spec

namespace RoundedSmoothing

theorem lg_anti {y z : ℝ} (h : z ≤ y) : lg y ≤ lg z := by linarith [(lg_sub h).1]

theorem lg_le_exp (y : ℝ) : lg y ≤ Real.exp (-y) := by
  unfold lg
  rw [Real.exp_neg, one_div]
  exact inv_anti₀ (Real.exp_pos y) (by linarith)

theorem planckTaper_low {u : ℝ} (h : u ≤ 1e-6) : planckTaper u ≤ Real.exp (-999998) := by
  rcases le_or_gt u 0 with h0 | h0
  · unfold planckTaper
    rw [if_pos h0]
    exact (Real.exp_pos _).le
  · norm_num at h
    rw [planckTaper_eq h0 (by linarith)]
    refine (lg_le_exp _).trans (Real.exp_le_exp.2 ?_)
    unfold expo
    have h1 : 1000000 ≤ 1 / u := by rw [le_div_iff₀ h0]; linarith
    have h2 : 1 / (1 - u) ≤ 2 := by rw [div_le_iff₀ (by linarith)]; linarith
    linarith

theorem planckTaper_symm (u : ℝ) : planckTaper (1 - u) = 1 - planckTaper u := by
  rcases le_or_gt u 0 with h0 | h0
  · unfold planckTaper
    rw [if_pos h0, if_neg (by linarith), if_pos (by linarith)]
    ring
  rcases le_or_gt 1 u with h1 | h1
  · unfold planckTaper
    rw [if_pos (by linarith : 1 - u ≤ 0), if_neg (by linarith), if_pos h1]
    ring
  · rw [planckTaper_eq h0 h1, planckTaper_eq (by linarith) (by linarith), expo_symm, lg_neg]

theorem taper_eq_planck (u : ℝ) : |taper u - planckTaper u| ≤ Real.exp (-999998) := by
  have low : ∀ u : ℝ, u < 1e-6 → |taper u - planckTaper u| ≤ Real.exp (-999998) := by
    intro u h
    have h1 := planckTaper_low h.le
    have h2 := (planckTaper_mem u).1
    have h3 := taper_pos u
    have h4 : taper u ≤ Real.exp (-999998) := by
      have e : taper u = planckTaper 1e-6 := by
        rw [planckTaper_eq (by norm_num) (by norm_num)]
        unfold taper clampUnit
        rw [if_pos h]
        rfl
      rw [e]
      exact planckTaper_low le_rfl
    rw [abs_le]
    constructor <;> linarith
  rcases lt_or_ge u 1e-6 with h | h
  · exact low u h
  rcases lt_or_ge (1 - 1e-6) u with h' | h'
  · have := low (1 - u) (by linarith)
    have e := taper_symm u
    rw [planckTaper_symm] at this
    rwa [show taper (1 - u) - (1 - planckTaper u) = -(taper u - planckTaper u) by linarith, abs_neg] at this
  · have e : taper u = planckTaper u := by
      rw [planckTaper_eq (by norm_num at h; linarith) (by norm_num at h'; linarith)]
      unfold taper clampUnit
      rw [if_neg (by linarith), if_neg (by linarith)]
      rfl
    rw [e, sub_self, abs_zero]
    exact (Real.exp_pos _).le

/-! ## The trapezoid rule with underflow -/

/-- The terms of the rule for non-negative doubles, which may be subnormal. -/
theorem terms_abs : ∀ {y xs : List ℝ}, y.length = xs.length →
    (∀ v ∈ y, IsDouble v ∧ 0 ≤ v ∧ v ≤ 2 ^ (300 : ℤ)) → (∀ x ∈ xs, IsDouble x) →
    (xs.IsChain fun x x' => (2 : ℝ) ^ (-100 : ℤ) ≤ x' - x ∧ x' - x ≤ 2 ^ (100 : ℤ)) →
    ∃ t : List ℝ, trapzTermsD (y.map fin) (xs.map fin) = t.map fin ∧
      List.Forall₂ (fun T t => 0 ≤ T ∧ T ≤ 2 ^ (401 : ℤ) ∧ 0 ≤ t ∧ IsDouble t ∧
        |t - T| ≤ 6 * ur * T + 2 ^ (-1075 : ℤ)) (RoundedGrid.terms y xs) t
  | [], xs, _, _, _, _ => ⟨[], by simp [trapzTermsD], by simp [RoundedGrid.terms]⟩
  | [_], xs, _, _, _, _ => ⟨[], by simp [trapzTermsD], by simp [RoundedGrid.terms]⟩
  | y0 :: y1 :: y, [], hl, _, _, _ => by simp at hl
  | y0 :: y1 :: y, [x], hl, _, _, _ => by simp at hl
  | y0 :: y1 :: y, x0 :: x1 :: xs, hl, hy, hd, hc => by
    rw [List.isChain_cons_cons] at hc
    obtain ⟨t, e, ht⟩ := terms_abs (y := y1 :: y) (xs := x1 :: xs) (by simpa using hl)
      (fun v hv => hy v (List.mem_cons_of_mem _ hv)) (fun x hx => hd x (List.mem_cons_of_mem _ hx)) hc.2
    obtain ⟨d0, p0, b0⟩ := hy y0 (by simp)
    obtain ⟨d1, p1, b1⟩ := hy y1 (by simp)
    obtain ⟨g, eg, -, ng⟩ := RoundedGrid.InR.round (k := 0) (show InR (-100) 100 (x1 - x0) from hc.1) (Near.refl _)
      (by norm_num) (by norm_num) (by norm_num)
    have e301 : (2 : ℝ) ^ (301 : ℤ) = 2 ^ (300 : ℤ) + 2 ^ (300 : ℤ) := by
      rw [show (301 : ℤ) = 1 + 300 by norm_num, zpow_add₀ (by norm_num), zpow_one]; ring
    have hs : y1 + y0 ≤ 2 ^ (301 : ℤ) := by rw [e301]; exact add_le_add b1 b0
    have hs0 : 0 ≤ y1 + y0 := by linarith
    have es := (toDouble_fin_le (x := y1 + y0) (by
      rw [abs_of_nonneg hs0]; exact hs.trans (two_zpow_le (by norm_num)))).1
    have ns : Near 1 (y1 + y0) (round53 (y1 + y0)) := by
      refine near_of_error hs0 ?_
      have := round53_add d1 d0
      rwa [abs_of_nonneg hs0] at this
    have hg0 : 0 < x1 - x0 := InR.pos hc.1
    have np := ng.mul ns hg0.le hs0
    set T := (x1 - x0) * (y1 + y0) with hT
    have hT0 : 0 ≤ T := mul_nonneg hg0.le hs0
    have hTb : T ≤ 2 ^ (401 : ℤ) := by
      calc T ≤ 2 ^ (100 : ℤ) * 2 ^ (301 : ℤ) := mul_le_mul hc.1.2 hs hs0 (by positivity)
        _ = _ := by rw [← zpow_add₀ (by norm_num)]; norm_num
    set P := g * round53 (y1 + y0) with hP
    have hP0 : 0 ≤ P := np.nonneg hT0
    have hPe := np.abs_sub hT0 (by norm_num)
    have hu := ur_pos
    have hul : ur ≤ 1 / 10 ^ 15 := by rw [ur_val]; norm_num
    have hPT : P ≤ 2 * T := by
      have := (abs_le.1 hPe).2
      push_cast at this
      have := mul_le_mul_of_nonneg_right hul hT0
      norm_num at this
      linarith
    have hPb : |P| ≤ 2 ^ (1023 : ℤ) := by
      rw [abs_of_nonneg hP0]
      have e402 : (2 : ℝ) ^ (402 : ℤ) = 2 * 2 ^ (401 : ℤ) := by
        rw [show (402 : ℤ) = 1 + 401 by norm_num, zpow_add₀ (by norm_num), zpow_one]
      refine le_trans ?_ (two_zpow_le (show (402 : ℤ) ≤ 1023 by norm_num))
      rw [e402]
      generalize (2 : ℝ) ^ (401 : ℤ) = B at *
      linarith
    obtain ⟨ep, dp⟩ := toDouble_fin_le hPb
    refine ⟨round53 P :: t, ?_, ?_⟩
    · simp only [List.map_cons, trapzTermsD] at e ⊢
      rw [e, fin_sub, fin_add, eg, es, mulD, fin_mul, ep]
    · rw [RoundedGrid.terms]
      refine .cons ⟨hT0, hTb, round53_nonneg hP0, dp, ?_⟩ ht
      have h3 := round53_error P
      rw [abs_of_nonneg hP0] at h3
      push_cast at hPe
      have h4 : ur * P ≤ ur * (2 * T) := mul_le_mul_of_nonneg_left hPT hu.le
      rw [← hT]
      calc |round53 P - T| = |(round53 P - P) + (P - T)| := by congr 1; ring
        _ ≤ |round53 P - P| + |P - T| := abs_add_le _ _
        _ ≤ _ := by
          generalize (2 : ℝ) ^ (-1075 : ℤ) = τ at *
          linarith

theorem sum_abs₂ {ε τ : ℝ} {T t : List ℝ} (h : List.Forall₂ (fun T t => |t - T| ≤ ε * T + τ) T t) :
    |t.sum - T.sum| ≤ ε * T.sum + T.length * τ := by
  induction h with
  | nil => simp
  | @cons x y X Y h _ ih =>
    simp only [List.sum_cons, List.length_cons]
    push_cast
    calc |y + Y.sum - (x + X.sum)| = |(y - x) + (Y.sum - X.sum)| := by congr 1; ring
      _ ≤ |y - x| + |Y.sum - X.sum| := abs_add_le _ _
      _ ≤ _ := by linarith

/-- Halving. -/
theorem half_round {x : ℝ} (h0 : 0 ≤ x) (hb : x ≤ 2 ^ (1000 : ℤ)) :
    toDouble (fin x / 2) = fin (round53 (x / 2)) ∧ 0 ≤ round53 (x / 2) ∧ IsDouble (round53 (x / 2)) ∧
      |round53 (x / 2) - x / 2| ≤ ur * (x / 2) + 2 ^ (-1075 : ℤ) := by
  have hx : 0 ≤ x / 2 := by linarith
  have hb' : |x / 2| ≤ 2 ^ (1023 : ℤ) := by
    rw [abs_of_nonneg hx]
    refine le_trans ?_ (hb.trans (two_zpow_le (by norm_num)))
    linarith
  obtain ⟨e, d⟩ := toDouble_fin_le hb'
  have := round53_error (x / 2)
  rw [abs_of_nonneg hx] at this
  refine ⟨?_, round53_nonneg hx, d, this⟩
  rw [ofNat_eq, fin_div (by norm_num)]
  exact e

theorem nat_ur {n : ℕ} (h : n ≤ 2 ^ 40) : (n : ℝ) * ur ≤ 1 / 8192 := by
  have h1 : (n : ℝ) ≤ 2 ^ 40 := by exact_mod_cast h
  have := mul_le_mul_of_nonneg_right h1 ur_pos.le
  rw [ur_val] at this ⊢
  norm_num at this ⊢
  linarith

/-- The trapezoid rule in double precision for data that may be subnormal. -/
theorem trapzD_abs {A : Arith} (hA : Accurate A) (halveFirst : Bool) {y xs : List ℝ} (hl : y.length = xs.length)
    (hy : ∀ v ∈ y, IsDouble v ∧ 0 ≤ v ∧ v ≤ 2 ^ (300 : ℤ)) (hx : DoubleGrid xs) :
    ∃ s, trapzD A halveFirst (y.map fin) (xs.map fin) = fin s ∧ IsDouble s ∧ 0 ≤ s ∧ 0 ≤ Arr.trapzR y xs ∧
      s ≤ 2 ^ (1000 : ℤ) ∧
      |s - Arr.trapzR y xs| ≤ (3 * xs.length + 10) * ur * Arr.trapzR y xs + 2 ^ (-1000 : ℤ) := by
  obtain ⟨t, e, ht⟩ := terms_abs hl hy hx.isDouble hx.gaps
  have hlen := RoundedGrid.terms_length y xs hl
  have h2 := hx.two
  have h3 := hx.length
  have hsum := RoundedGrid.terms_sum y xs
  have htl := ht.length_eq
  have hne : t ≠ [] := by
    intro he
    rw [he, hlen] at htl
    simp at htl
    omega
  have hn : t.length + 1 = xs.length := by rw [← htl, hlen]; omega
  have hT : ∀ T ∈ RoundedGrid.terms y xs, 0 ≤ T ∧ T ≤ 2 ^ (401 : ℤ) := by
    intro T hT
    obtain ⟨i, hi, rfl⟩ := List.getElem_of_mem hT
    exact ⟨(ht.get hi (htl ▸ hi)).1, (ht.get hi (htl ▸ hi)).2.1⟩
  have ht' : ∀ v ∈ t, 0 ≤ v ∧ IsDouble v := by
    intro v hv
    obtain ⟨i, hi, rfl⟩ := List.getElem_of_mem hv
    have := ht.get (htl ▸ hi) hi
    exact ⟨this.2.2.1, this.2.2.2.1⟩
  have hS0 : 0 ≤ (RoundedGrid.terms y xs).sum := List.sum_nonneg fun x hx => (hT x hx).1
  have hSb : (RoundedGrid.terms y xs).sum ≤ 2 ^ (441 : ℤ) := by
    refine (RoundedGrid.sum_le (B := 2 ^ (401 : ℤ)) fun x hx => (hT x hx).2).trans ?_
    have hN2 : ((RoundedGrid.terms y xs).length : ℝ) ≤ 2 ^ (40 : ℤ) := by
      have : ((RoundedGrid.terms y xs).length : ℝ) ≤ ((2 ^ 40 : ℕ) : ℝ) := by
        rw [hlen]; exact_mod_cast (by omega : xs.length - 1 ≤ 2 ^ 40)
      refine this.trans ?_
      norm_num
    calc _ ≤ (2 : ℝ) ^ (40 : ℤ) * 2 ^ (401 : ℤ) := mul_le_mul_of_nonneg_right hN2 (by positivity)
      _ = _ := by rw [← zpow_add₀ (by norm_num)]; norm_num
  have herr := sum_abs₂ (ε := 6 * ur) (τ := 2 ^ (-1075 : ℤ)) (ht.imp fun _ _ h => h.2.2.2.2)
  set S := (RoundedGrid.terms y xs).sum with hS
  have hτ : (0 : ℝ) < 2 ^ (-1075 : ℤ) := by positivity
  have hu := ur_pos
  have hul : ur ≤ 1 / 10 ^ 15 := by rw [ur_val]; norm_num
  have huS : ur * S ≤ 1 / 10 ^ 15 * S := mul_le_mul_of_nonneg_right hul hS0
  norm_num at huS
  have huS0 : 0 ≤ ur * S := mul_nonneg hu.le hS0
  have hN : (xs.length : ℝ) * ur ≤ 1 / 8192 := nat_ur h3
  have hN0 : (2 : ℝ) ≤ xs.length := by exact_mod_cast h2
  have hlt : ((RoundedGrid.terms y xs).length : ℝ) ≤ xs.length := by
    rw [hlen]; exact_mod_cast (by omega : xs.length - 1 ≤ xs.length)
  -- the total of the underflow errors
  have hNτ : (xs.length : ℝ) * 2 ^ (-1075 : ℤ) ≤ 2 ^ (-1035 : ℤ) := by
    have : (xs.length : ℝ) ≤ 2 ^ (40 : ℤ) := by
      have : (xs.length : ℝ) ≤ ((2 ^ 40 : ℕ) : ℝ) := by exact_mod_cast h3
      refine this.trans ?_
      norm_num
    calc _ ≤ (2 : ℝ) ^ (40 : ℤ) * 2 ^ (-1075 : ℤ) := mul_le_mul_of_nonneg_right this hτ.le
      _ = _ := by rw [← zpow_add₀ (by norm_num)]; norm_num
  have h1000 : 8 * (2 : ℝ) ^ (-1035 : ℤ) ≤ 2 ^ (-1000 : ℤ) := by
    have e : 8 * (2 : ℝ) ^ (-1035 : ℤ) = 2 ^ (-1032 : ℤ) := by
      rw [show (-1032 : ℤ) = 3 + (-1035) by norm_num, zpow_add₀ (by norm_num)]; norm_num
    rw [e]
    exact two_zpow_le (by norm_num)
  have hlτ : ((RoundedGrid.terms y xs).length : ℝ) * 2 ^ (-1075 : ℤ) ≤ xs.length * 2 ^ (-1075 : ℤ) :=
    mul_le_mul_of_nonneg_right hlt hτ.le
  have hτN : 2 * (2 : ℝ) ^ (-1075 : ℤ) ≤ xs.length * 2 ^ (-1075 : ℤ) := mul_le_mul_of_nonneg_right hN0 hτ.le
  have hb1 : (2 : ℝ) ^ (-1000 : ℤ) ≤ 1 := zpow_le_one_of_nonpos₀ (by norm_num) (by norm_num)
  have hbig : 4 * (2 : ℝ) ^ (441 : ℤ) + 8 ≤ 2 ^ (1000 : ℤ) := by
    have e : 16 * (2 : ℝ) ^ (441 : ℤ) = 2 ^ (445 : ℤ) := by
      rw [show (445 : ℤ) = 4 + 441 by norm_num, zpow_add₀ (by norm_num)]; norm_num
    have h1 := two_zpow_le (show (445 : ℤ) ≤ 1000 by norm_num)
    have h2 : (1 : ℝ) ≤ 2 ^ (441 : ℤ) := one_le_zpow₀ (by norm_num) (by norm_num)
    generalize (2 : ℝ) ^ (441 : ℤ) = B at *
    generalize (2 : ℝ) ^ (445 : ℤ) = C at *
    generalize (2 : ℝ) ^ (1000 : ℤ) = D at *
    linarith
  have hTR : S = 2 * Arr.trapzR y xs := hsum
  have hT0 : 0 ≤ Arr.trapzR y xs := by linarith
  -- sums of lists near the terms
  have order : ∀ {l : List ℝ}, l ≠ [] → l.length = t.length → (∀ v ∈ l, 0 ≤ v ∧ IsDouble v) → l.sum ≤ 2 ^ (1000 : ℤ) →
      ∃ s, A.sum (l.map fin) = fin s ∧ IsDouble s ∧ 0 ≤ s ∧ |s - l.sum| ≤ 2 * (xs.length - 2) * ur * l.sum := by
    intro l hl0 hll hlv hlb
    have h0 : 0 ≤ l.sum := List.sum_nonneg fun x hx => (hlv x hx).1
    obtain ⟨s, es, ds, ns⟩ := Arith.sum_near (A := A) (l := l)
      (by simpa using hA.order (l.map fin) (by simpa using hl0)) (fun v hv => (hlv v hv).1)
      (fun v hv => (hlv v hv).2) (by omega) (hlb.trans (two_zpow_le (by norm_num)))
    refine ⟨s, es, ds, ns.nonneg h0, ?_⟩
    have := ns.abs_sub h0 (by omega)
    have hc : ((l.length - 1 : ℕ) : ℝ) = xs.length - 2 := by
      have : l.length - 1 = xs.length - 2 := by omega
      rw [this, Nat.cast_sub h2]
      norm_num
    rwa [hc] at this
  obtain ⟨r1, r2⟩ := abs_le.1 herr
  have hts0 : 0 ≤ t.sum := List.sum_nonneg fun x hx => (ht' x hx).1
  have hNS : (xs.length : ℝ) * ur * S ≤ 1 / 8192 * S := mul_le_mul_of_nonneg_right hN hS0
  have hNS0 : 0 ≤ (xs.length : ℝ) * ur * S := by positivity
  have hts : t.sum ≤ 1001 / 1000 * S + xs.length * 2 ^ (-1075 : ℤ) := by linarith
  have hNu : 0 ≤ (xs.length : ℝ) * ur := by positivity
  unfold trapzD
  rw [e]
  cases halveFirst
  · rw [if_neg (by simp)]
    obtain ⟨s, es, -, s0, hs⟩ := order hne rfl ht' (by
      generalize (2 : ℝ) ^ (441 : ℤ) = B at *
      generalize (2 : ℝ) ^ (1000 : ℤ) = D at *
      generalize (2 : ℝ) ^ (-1075 : ℤ) = τ at *
      generalize (2 : ℝ) ^ (-1035 : ℤ) = τ' at *
      linarith)
    have hk : 2 * ((xs.length : ℝ) - 2) * ur * t.sum ≤ 2 * (xs.length * ur) * t.sum - 4 * (ur * t.sum) := le_of_eq (by ring)
    have hk2 : (xs.length : ℝ) * ur * t.sum ≤ xs.length * ur * (1001 / 1000 * S + xs.length * 2 ^ (-1075 : ℤ)) :=
      mul_le_mul_of_nonneg_left hts hNu
    have hk3 : (xs.length : ℝ) * ur * (xs.length * 2 ^ (-1075 : ℤ)) ≤ 1 / 8192 * (xs.length * 2 ^ (-1075 : ℤ)) :=
      mul_le_mul_of_nonneg_right hN (by positivity)
    have hk4 : 0 ≤ ur * t.sum := mul_nonneg hu.le hts0
    have hk5 : (xs.length : ℝ) * ur * t.sum ≤ 1 / 8192 * t.sum := mul_le_mul_of_nonneg_right hN hts0
    have hs2 : |s - t.sum| ≤ 2 * (xs.length * ur * (1001 / 1000 * S) + 1 / 8192 * (xs.length * 2 ^ (-1075 : ℤ))) := by
      refine hs.trans ?_
      linarith
    obtain ⟨q1, q2⟩ := abs_le.1 hs
    have hsle : s ≤ 101 / 100 * S + 2 * (xs.length * 2 ^ (-1075 : ℤ)) := by linarith
    have hsb : s ≤ 2 ^ (1000 : ℤ) := by
      generalize (2 : ℝ) ^ (441 : ℤ) = B at *
      generalize (2 : ℝ) ^ (1000 : ℤ) = D at *
      generalize (2 : ℝ) ^ (-1075 : ℤ) = τ at *
      generalize (2 : ℝ) ^ (-1035 : ℤ) = τ' at *
      linarith
    obtain ⟨eh, ph, dh, hh⟩ := half_round s0 hsb
    rw [es]
    have hfin : |round53 (s / 2) - Arr.trapzR y xs| ≤
        (3 * xs.length + 10) * ur * Arr.trapzR y xs + 2 ^ (-1000 : ℤ) := by
      have husle : ur * s ≤ ur * (101 / 100 * S + 2 * (xs.length * 2 ^ (-1075 : ℤ))) :=
        mul_le_mul_of_nonneg_left hsle hu.le
      have hu1 : ur * (xs.length * 2 ^ (-1075 : ℤ)) ≤ 1 * (xs.length * 2 ^ (-1075 : ℤ)) :=
        mul_le_mul_of_nonneg_right (by norm_num at hul; linarith) (by positivity)
      have e1 : (3 * (xs.length : ℝ) + 10) * ur * Arr.trapzR y xs = 3 / 2 * (xs.length * ur * S) + 5 * (ur * S) := by
        rw [hTR]; ring
      rw [e1]
      obtain ⟨z1, z2⟩ := abs_le.1 hh
      obtain ⟨z3, z4⟩ := abs_le.1 hs2
      generalize (2 : ℝ) ^ (-1000 : ℤ) = D at *
      generalize (2 : ℝ) ^ (-1075 : ℤ) = τ at *
      generalize (2 : ℝ) ^ (-1035 : ℤ) = τ' at *
      rw [abs_le]
      constructor <;> linarith
    refine ⟨_, eh, dh, ph, hT0, ?_, hfin⟩
    have := round53_mono ((half_le_self s0).trans hsb)
    rwa [round53_of_isDouble (show IsDouble ((2 : ℝ) ^ (1000 : ℤ)) from
      ⟨1, 1000, by norm_num, by norm_num, by norm_num⟩)] at this
  · rw [if_pos rfl]
    set Z := t.map fun v => round53 (v / 2) with hZ
    have htb : ∀ v ∈ t, v ≤ 2 ^ (1000 : ℤ) := by
      intro v hv
      refine (le_sum_of_mem (fun x hx => (ht' x hx).1) hv).trans ?_
      generalize (2 : ℝ) ^ (441 : ℤ) = B at *
      generalize (2 : ℝ) ^ (1000 : ℤ) = D at *
      generalize (2 : ℝ) ^ (-1075 : ℤ) = τ at *
      generalize (2 : ℝ) ^ (-1035 : ℤ) = τ' at *
      linarith
    have eZ : (t.map fin).map (fun v => toDouble (v / 2)) = Z.map fin := by
      rw [hZ, List.map_map, List.map_map]
      refine List.map_congr_left fun v hv => ?_
      exact (half_round (ht' v hv).1 (htb v hv)).1
    rw [eZ]
    have hZv : ∀ v ∈ Z, 0 ≤ v ∧ IsDouble v := by
      intro v hv
      obtain ⟨w, hw, rfl⟩ := List.mem_map.1 hv
      have := half_round (ht' w hw).1 (htb w hw)
      exact ⟨this.2.1, this.2.2.1⟩
    have hZe : |Z.sum - (t.map (· / 2)).sum| ≤ ur * (t.map (· / 2)).sum + (t.map (· / 2)).length * 2 ^ (-1075 : ℤ) := by
      refine sum_abs₂ ?_
      rw [hZ, List.forall₂_map_left_iff, List.forall₂_map_right_iff, List.forall₂_same]
      intro v hv
      exact (half_round (ht' v hv).1 (htb v hv)).2.2.2
    have hhalf : (t.map (· / 2)).sum = t.sum / 2 := by
      have h1 : t.map (· / 2) = t.map fun x => x * (1 / 2) := List.map_congr_left fun x _ => by ring
      rw [h1, List.sum_map_mul_right, List.map_id']
      ring
    rw [hhalf, List.length_map] at hZe
    have htn : (t.length : ℝ) * 2 ^ (-1075 : ℤ) ≤ xs.length * 2 ^ (-1075 : ℤ) :=
      mul_le_mul_of_nonneg_right (by exact_mod_cast (by omega : t.length ≤ xs.length)) hτ.le
    have hut : ur * t.sum ≤ ur * (1001 / 1000 * S + xs.length * 2 ^ (-1075 : ℤ)) := mul_le_mul_of_nonneg_left hts hu.le
    have hu1 : ur * (xs.length * 2 ^ (-1075 : ℤ)) ≤ 1 / 1000 * (xs.length * 2 ^ (-1075 : ℤ)) :=
      mul_le_mul_of_nonneg_right (by norm_num at hul; linarith) (by positivity)
    obtain ⟨z1, z2⟩ := abs_le.1 hZe
    have hZs : Z.sum ≤ 501 / 1000 * S + 2 * (xs.length * 2 ^ (-1075 : ℤ)) := by linarith
    have hZ0 : 0 ≤ Z.sum := List.sum_nonneg fun x hx => (hZv x hx).1
    obtain ⟨s, es, ds, s0, hs⟩ := order (l := Z) (by simpa [hZ] using hne) (by simp [hZ]) hZv (by
      generalize (2 : ℝ) ^ (441 : ℤ) = B at *
      generalize (2 : ℝ) ^ (1000 : ℤ) = D at *
      generalize (2 : ℝ) ^ (-1075 : ℤ) = τ at *
      generalize (2 : ℝ) ^ (-1035 : ℤ) = τ' at *
      linarith)
    have hk2 : (xs.length : ℝ) * ur * Z.sum ≤ xs.length * ur * (501 / 1000 * S + 2 * (xs.length * 2 ^ (-1075 : ℤ))) :=
      mul_le_mul_of_nonneg_left hZs hNu
    have hk3 : (xs.length : ℝ) * ur * (xs.length * 2 ^ (-1075 : ℤ)) ≤ 1 / 8192 * (xs.length * 2 ^ (-1075 : ℤ)) :=
      mul_le_mul_of_nonneg_right hN (by positivity)
    have hk4 : 0 ≤ ur * Z.sum := mul_nonneg hu.le hZ0
    have hs2 : |s - Z.sum| ≤ 2 * (xs.length * ur * (501 / 1000 * S) + 2 / 8192 * (xs.length * 2 ^ (-1075 : ℤ))) := by
      refine hs.trans ?_
      linarith
    refine ⟨s, es, ds, s0, hT0, ?_, ?_⟩
    · obtain ⟨q1, q2⟩ := abs_le.1 hs2
      generalize (2 : ℝ) ^ (441 : ℤ) = B at *
      generalize (2 : ℝ) ^ (1000 : ℤ) = D at *
      generalize (2 : ℝ) ^ (-1075 : ℤ) = τ at *
      generalize (2 : ℝ) ^ (-1035 : ℤ) = τ' at *
      linarith
    · have e1 : (3 * (xs.length : ℝ) + 10) * ur * Arr.trapzR y xs = 3 / 2 * (xs.length * ur * S) + 5 * (ur * S) := by
        rw [hTR]; ring
      rw [e1]
      obtain ⟨q1, q2⟩ := abs_le.1 hs2
      generalize (2 : ℝ) ^ (-1000 : ℤ) = D at *
      generalize (2 : ℝ) ^ (-1075 : ℤ) = τ at *
      generalize (2 : ℝ) ^ (-1035 : ℤ) = τ' at *
      rw [abs_le]
      constructor <;> linarith

end RoundedSmoothing

open RoundedSmoothing

/-- **C21.** The window is the documented one: clipping its argument changes it by at most `exp(-999998)`. -/
theorem C21_documented (b : Backend) (m mmin mmax : ℝ) {d : ℝ} (hd : 0 < d) :
    ∃ w, smoothing b (fin m) (fin mmin) (fin mmax) (fin d) = fin w ∧
      |w - planckWindow mmin mmax d m| ≤ Real.exp (-999998) := by
  refine ⟨_, smoothing_fin b m mmin mmax hd, ?_⟩
  unfold planckWindow
  split_ifs
  · exact taper_eq_planck _
  · rw [sub_zero, abs_zero]
    exact (Real.exp_pos _).le

namespace RoundedSmoothing

theorem gridRule_eq (f : ℝ → ℝ) (xs : List ℝ) : gridRule f xs = Arr.trapzR (xs.map f) xs := by
  rw [Arr.trapzR_eq_rule _ _ (by simp), List.length_map]
  unfold gridRule trapezoidRule
  refine Finset.sum_congr rfl fun i hi => ?_
  have hi := Finset.mem_range.1 hi
  have h1 : i < xs.length := by omega
  have h2 : i + 1 < xs.length := by omega
  simp [h1, h2]

theorem gridRule_abs {f g h : ℝ → ℝ} : ∀ {xs : List ℝ}, xs.IsChain (· ≤ ·) → (∀ x ∈ xs, |g x - f x| ≤ h x) →
    |gridRule g xs - gridRule f xs| ≤ gridRule h xs := by
  intro xs hc hx
  simp only [gridRule_eq]
  induction xs with
  | nil => simp
  | cons x0 xs ih =>
    cases xs with
    | nil => simp
    | cons x1 xs =>
      rw [List.isChain_cons_cons] at hc
      have ih := ih hc.2 fun x hx' => hx x (List.mem_cons_of_mem _ hx')
      have h0 := hx x0 (by simp)
      have h1 := hx x1 (by simp)
      simp only [List.map_cons] at ih ⊢
      rw [Arr.trapzR_cons, Arr.trapzR_cons, Arr.trapzR_cons]
      have hg : 0 ≤ x1 - x0 := by linarith [hc.1]
      have : |(x1 - x0) * (g x1 + g x0) / 2 - (x1 - x0) * (f x1 + f x0) / 2| ≤ (x1 - x0) * (h x1 + h x0) / 2 := by
        rw [show (x1 - x0) * (g x1 + g x0) / 2 - (x1 - x0) * (f x1 + f x0) / 2 =
          (x1 - x0) / 2 * ((g x1 - f x1) + (g x0 - f x0)) by ring, abs_mul, abs_of_nonneg (by linarith)]
        have := mul_le_mul_of_nonneg_left ((abs_add_le (g x1 - f x1) (g x0 - f x0)).trans (add_le_add h1 h0))
          (show 0 ≤ (x1 - x0) / 2 by linarith)
        linarith
      calc _ = |((x1 - x0) * (g x1 + g x0) / 2 - (x1 - x0) * (f x1 + f x0) / 2) +
            (Arr.trapzR (g x1 :: xs.map g) (x1 :: xs) - Arr.trapzR (f x1 :: xs.map f) (x1 :: xs))| := by congr 1; ring
        _ ≤ _ := (abs_add_le _ _).trans (add_le_add this ih)

theorem gridRule_nonneg {f : ℝ → ℝ} {xs : List ℝ} (hc : xs.IsChain (· ≤ ·)) (h : ∀ x ∈ xs, 0 ≤ f x) :
    0 ≤ gridRule f xs := by
  rw [gridRule_eq]
  refine Arr.trapzR_nonneg ?_ hc
  intro y hy
  obtain ⟨x, hx, rfl⟩ := List.mem_map.1 hy
  exact h x hx

theorem gridRule_lin (P : ℝ → ℝ) (c τ : ℝ) (xs : List ℝ) :
    gridRule (fun x => c * P x + τ) xs = c * gridRule P xs + τ * gridRule (fun _ => 1) xs := by
  unfold gridRule trapezoidRule
  rw [Finset.mul_sum, Finset.mul_sum, ← Finset.sum_add_distrib]
  exact Finset.sum_congr rfl fun i _ => by ring

theorem gridRule_le {f g : ℝ → ℝ} {xs : List ℝ} (hc : xs.IsChain (· ≤ ·)) (h : ∀ x ∈ xs, f x ≤ g x) :
    gridRule f xs ≤ gridRule g xs := by
  have := gridRule_nonneg (f := fun x => g x - f x) hc fun x hx => by linarith [h x hx]
  have e : gridRule (fun x => g x - f x) xs = gridRule g xs - gridRule f xs := by
    unfold gridRule trapezoidRule
    rw [← Finset.sum_sub_distrib]
    exact Finset.sum_congr rfl fun i _ => by ring
  linarith

theorem _root_.GW.Spec.DoubleGrid.le {xs : List ℝ} (h : DoubleGrid xs) : xs.IsChain (· ≤ ·) :=
  h.gaps.imp fun x y hxy => by
    have : (0 : ℝ) < 2 ^ (-100 : ℤ) := by positivity
    linarith [hxy.1]

/-- The length of a grid. -/
theorem gridRule_one {xs : List ℝ} (h : DoubleGrid xs) : gridRule (fun _ => 1) xs ≤ 2 ^ (140 : ℤ) := by
  have aux : ∀ xs : List ℝ, (xs.IsChain fun x x' => (2 : ℝ) ^ (-100 : ℤ) ≤ x' - x ∧ x' - x ≤ 2 ^ (100 : ℤ)) →
      Arr.trapzR (xs.map fun _ => (1 : ℝ)) xs ≤ xs.length * 2 ^ (100 : ℤ) := by
    intro xs
    induction xs with
    | nil => intro _; simp
    | cons x0 xs ih =>
      cases xs with
      | nil => intro _; simp
      | cons x1 xs =>
        intro hc
        rw [List.isChain_cons_cons] at hc
        have ih := ih hc.2
        simp only [List.map_cons, List.length_cons] at ih ⊢
        rw [Arr.trapzR_cons]
        push_cast at ih ⊢
        generalize (2 : ℝ) ^ (100 : ℤ) = B at *
        linarith [hc.1.2]
  rw [gridRule_eq]
  refine (aux xs h.gaps).trans ?_
  have : (xs.length : ℝ) ≤ 2 ^ (40 : ℤ) := by
    have : (xs.length : ℝ) ≤ ((2 ^ 40 : ℕ) : ℝ) := by exact_mod_cast h.length
    refine this.trans ?_
    norm_num
  calc _ ≤ (2 : ℝ) ^ (40 : ℤ) * 2 ^ (100 : ℤ) := mul_le_mul_of_nonneg_right this (by positivity)
    _ = _ := by rw [← zpow_add₀ (by norm_num)]; norm_num

theorem planckWindow_mem (mmin mmax d m : ℝ) : 0 ≤ planckWindow mmin mmax d m ∧ planckWindow mmin mmax d m ≤ 1 := by
  unfold planckWindow
  split_ifs
  · exact planckTaper_mem _
  · norm_num

/-- The primary model times the window in double precision. -/
theorem raw_error {E : Fl → Fl} {δ : ℝ} (hE : AccurateLogistic E δ) (b : Backend) (s : Smoothed)
    {prim : Fl → Except PyErr Fl} {P : ℝ → ℝ} {ρ m mmin d : ℝ} (hρ : ρ ≤ 1 / 4) (h : WindowArgs m mmin d)
    (hp : PrimaryWithin prim P ρ m) :
    ∃ y, s.pMRawD E b prim (fin mmin) (fin d) (fin m) = .ok (fin y) ∧ IsDouble y ∧ 0 ≤ y ∧ y ≤ 2 ^ (300 : ℤ) ∧
      |y - P m * planckWindow mmin s.mmax d m| ≤ (ρ + δ + 66 * ur) * P m + 2 ^ (-1075 : ℤ) ∧
      y ≤ 2 * P m + 2 ^ (-1075 : ℤ) := by
  obtain ⟨P0, Pb, p, ep, dp, hp⟩ := hp
  obtain ⟨w, ew, dw, w0, w1, hw⟩ := C119_window hE b h s.mmax
  obtain ⟨a1, a2⟩ := abs_le.1 hp
  have hρP : ρ * P m ≤ 1 / 4 * P m := mul_le_mul_of_nonneg_right hρ P0
  have p0 : 0 ≤ p := by linarith
  have ple : p ≤ 5 / 4 * P m := by linarith
  have pw0 : 0 ≤ p * w := mul_nonneg p0 w0
  have pw1 : p * w ≤ p := mul_le_of_le_one_right p0 w1
  have hbig : |p * w| ≤ 2 ^ (1023 : ℤ) := by
    rw [abs_of_nonneg pw0]
    have e202 : (2 : ℝ) ^ (202 : ℤ) = 4 * 2 ^ (200 : ℤ) := by
      rw [show (202 : ℤ) = 2 + 200 by norm_num, zpow_add₀ (by norm_num)]; norm_num
    refine le_trans ?_ (two_zpow_le (show (202 : ℤ) ≤ 1023 by norm_num))
    rw [e202]
    generalize (2 : ℝ) ^ (200 : ℤ) = B at *
    linarith
  obtain ⟨e, dy⟩ := toDouble_fin_le hbig
  have herr := round53_error (p * w)
  rw [abs_of_nonneg pw0] at herr
  have hu := ur_pos
  have hul : ur ≤ 1 / 10 ^ 15 := by rw [ur_val]; norm_num
  norm_num at hul
  have hupw : ur * (p * w) ≤ 5 / 4 * (ur * P m) := by
    calc ur * (p * w) ≤ ur * (5 / 4 * P m) := mul_le_mul_of_nonneg_left (by linarith) hu.le
      _ = _ := by ring
  have huP : ur * P m ≤ 1 / 10 * P m := mul_le_mul_of_nonneg_right (by linarith) P0
  have huP0 : 0 ≤ ur * P m := mul_nonneg hu.le P0
  have hup : round53 (p * w) ≤ 2 * P m + 2 ^ (-1075 : ℤ) := by
    have := (abs_le.1 herr).2
    generalize (2 : ℝ) ^ (-1075 : ℤ) = τ at *
    linarith
  refine ⟨round53 (p * w), ?_, dy, round53_nonneg pw0, ?_, ?_, hup⟩
  · unfold Smoothed.pMRawD
    rw [ep, ok_bind, ew, mulD, fin_mul, e]
    rfl
  · refine hup.trans ?_
    have e300 : 4 * (2 : ℝ) ^ (200 : ℤ) ≤ 2 ^ (300 : ℤ) := by
      have e202 : (2 : ℝ) ^ (202 : ℤ) = 4 * 2 ^ (200 : ℤ) := by
        rw [show (202 : ℤ) = 2 + 200 by norm_num, zpow_add₀ (by norm_num)]; norm_num
      rw [← e202]
      exact two_zpow_le (by norm_num)
    have h1 : (2 : ℝ) ^ (-1075 : ℤ) ≤ 2 ^ (200 : ℤ) := two_zpow_le (by norm_num)
    generalize (2 : ℝ) ^ (200 : ℤ) = B at *
    generalize (2 : ℝ) ^ (-1075 : ℤ) = τ at *
    generalize (2 : ℝ) ^ (300 : ℤ) = C at *
    linarith
  · set W := planckWindow mmin s.mmax d m
    have e1 : |(p - P m) * w| ≤ ρ * P m := by
      rw [abs_mul, abs_of_nonneg w0]
      calc |p - P m| * w ≤ |p - P m| * 1 := mul_le_mul_of_nonneg_left w1 (abs_nonneg _)
        _ ≤ _ := by linarith
    have e2 : |P m * (w - W)| ≤ P m * (64 * ur + δ) := by
      rw [abs_mul, abs_of_nonneg P0]
      exact mul_le_mul_of_nonneg_left hw P0
    calc |round53 (p * w) - P m * W| = |(round53 (p * w) - p * w) + ((p - P m) * w + P m * (w - W))| := by congr 1; ring
      _ ≤ |round53 (p * w) - p * w| + (|(p - P m) * w| + |P m * (w - W)|) :=
        (abs_add_le _ _).trans (add_le_add le_rfl (abs_add_le _ _))
      _ ≤ _ := by
        generalize (2 : ℝ) ^ (-1075 : ℤ) = τ at *
        linarith

theorem _root_.GW.Spec.AccurateLogistic.nonneg {E : Fl → Fl} {δ : ℝ} (hE : AccurateLogistic E δ) : 0 ≤ δ := by
  obtain ⟨y, -, -, -, -, h⟩ := hE 0 isDouble_zero (by norm_num)
  exact (abs_nonneg _).trans h

/-- The normalisation in double precision. -/
theorem norm_error {E : Fl → Fl} {δ : ℝ} (hE : AccurateLogistic E δ) (hδ : δ ≤ 1 / 4) {A : Arith} (hA : Accurate A)
    (halveFirst : Bool) (b : Backend) (s : Smoothed) {prim : Fl → Except PyErr Fl} {P : ℝ → ℝ} {ρ mmin d : ℝ}
    (hρ0 : 0 ≤ ρ) (hρ : ρ ≤ 1 / 4) (hx : DoubleGrid s.m1s) (h : ∀ m ∈ s.m1s, WindowArgs m mmin d)
    (hp : ∀ m ∈ s.m1s, PrimaryWithin prim P ρ m) :
    ∃ n, s.normPM1D E A halveFirst b prim (fin mmin) (fin d) = .ok (fin n) ∧ IsDouble n ∧ 0 ≤ n ∧
      |n - gridRule (fun m => P m * planckWindow mmin s.mmax d m) s.m1s| ≤
        2 * (ρ + δ + (3 * s.m1s.length + 50) * ur) * gridRule P s.m1s + 2 ^ (-900 : ℤ) := by
  have hδ0 := hE.nonneg
  have hraw := fun m hm => raw_error hE b s hρ (h m hm) (hp m hm)
  choose! g e1 e2 e3 e4 e5 e6 using hraw
  have hmapM : (s.m1s.mapM fun m => s.pMRawD E b prim (fin mmin) (fin d) (fin m)) =
      .ok ((s.m1s.map g).map fin) := by
    rw [List.map_map]
    exact mapM_ok fun m hm => e1 m hm
  obtain ⟨n, en, dn, n0, -, nb, hn⟩ := trapzD_abs hA halveFirst (y := s.m1s.map g) (xs := s.m1s) (by simp) (by
    intro v hv
    obtain ⟨m, hm, rfl⟩ := List.mem_map.1 hv
    exact ⟨e2 m hm, e3 m hm, e4 m hm⟩) hx
  have hd : 0 < d := by
    obtain ⟨m, hm⟩ := List.exists_mem_of_length_pos (show 0 < s.m1s.length by have := hx.two; omega)
    exact lt_of_lt_of_le (by positivity) (h m hm).width.1
  have hd0 : ¬ eqf (fin d) 0 := by
    simp only [eqf]
    exact hd.ne'
  have hnb : |n| ≤ bigR := by
    rw [abs_of_nonneg n0]
    exact nb.trans ((two_zpow_le (show (1000 : ℤ) ≤ 1023 by norm_num)).trans
      ((le_mul_of_one_le_right (by positivity) (by norm_num)).trans two_pow_le_bigR))
  refine ⟨n, ?_, dn, n0, ?_⟩
  · unfold Smoothed.normPM1D
    rw [if_neg (fun hc => hd0 hc.2), hmapM, ok_bind, en, ind_true hd0, ind_false hd0]
    simp only [nanToNum, nanToNumWith, mulD, fin_mul, mul_one, one_eq, mul_zero]
    rw [show toDouble (fin n) = fin n from fl64_eq hnb dn, fin_add, add_zero,
      show toDouble (fin n) = fin n from fl64_eq hnb dn]
    rfl
  · rw [← gridRule_eq] at hn
    have hc := hx.le
    set N := gridRule (fun m => P m * planckWindow mmin s.mmax d m) s.m1s
    set T := gridRule P s.m1s with hT
    have hT0 : 0 ≤ T := gridRule_nonneg hc fun m hm => (hp m hm).1
    have hNT : N ≤ T := gridRule_le hc fun m hm =>
      mul_le_of_le_one_right (hp m hm).1 (planckWindow_mem mmin s.mmax d m).2
    have hgN := gridRule_abs (h := fun m => (ρ + δ + 66 * ur) * P m + 2 ^ (-1075 : ℤ)) hc fun m hm => e5 m hm
    rw [gridRule_lin, ← hT] at hgN
    change |gridRule g s.m1s - N| ≤ _ at hgN
    have hone := gridRule_one hx
    have htiny : (2 : ℝ) ^ (-1075 : ℤ) * gridRule (fun _ => 1) s.m1s ≤ 2 ^ (-935 : ℤ) := by
      calc _ ≤ (2 : ℝ) ^ (-1075 : ℤ) * 2 ^ (140 : ℤ) := mul_le_mul_of_nonneg_left hone (by positivity)
        _ = _ := by rw [← zpow_add₀ (by norm_num)]; norm_num
    have hsum : 4 * (2 : ℝ) ^ (-935 : ℤ) + 2 ^ (-1000 : ℤ) ≤ 2 ^ (-900 : ℤ) := by
      have e : 8 * (2 : ℝ) ^ (-935 : ℤ) = 2 ^ (-932 : ℤ) := by
        rw [show (-932 : ℤ) = 3 + (-935) by norm_num, zpow_add₀ (by norm_num)]; norm_num
      have h1 := two_zpow_le (show (-1000 : ℤ) ≤ -935 by norm_num)
      have h2 := two_zpow_le (show (-932 : ℤ) ≤ -900 by norm_num)
      have h3 : (0 : ℝ) < 2 ^ (-935 : ℤ) := by positivity
      generalize (2 : ℝ) ^ (-935 : ℤ) = B at *
      generalize (2 : ℝ) ^ (-932 : ℤ) = C at *
      generalize (2 : ℝ) ^ (-1000 : ℤ) = D at *
      generalize (2 : ℝ) ^ (-900 : ℤ) = F at *
      linarith
    have hu := ur_pos
    have hul : ur ≤ 1 / 10 ^ 15 := by rw [ur_val]; norm_num
    norm_num at hul
    have hK := nat_ur hx.length
    set K := (s.m1s.length : ℝ) * ur with hKd
    have hK0 : 0 ≤ K := by positivity
    set G := gridRule g s.m1s
    obtain ⟨b1, b2⟩ := abs_le.1 hgN
    have hc1 : (ρ + δ + 66 * ur) * T ≤ 3 / 4 * T := mul_le_mul_of_nonneg_right (by linarith) hT0
    have hGT : G ≤ 7 / 4 * T + 2 ^ (-935 : ℤ) := by
      generalize (2 : ℝ) ^ (-935 : ℤ) = B at *
      linarith
    have hKu : 0 ≤ 3 * K + 10 * ur := by positivity
    have hG2 : (3 * K + 10 * ur) * G ≤ (3 * K + 10 * ur) * (7 / 4 * T) + 1 * 2 ^ (-935 : ℤ) := by
      have h1 := mul_le_mul_of_nonneg_left hGT hKu
      have h2 : (3 * K + 10 * ur) * 2 ^ (-935 : ℤ) ≤ 1 * 2 ^ (-935 : ℤ) :=
        mul_le_mul_of_nonneg_right (by linarith) (by positivity)
      rw [mul_add] at h1
      linarith
    have e1 : (3 * (s.m1s.length : ℝ) + 10) * ur = 3 * K + 10 * ur := by rw [hKd]; ring
    have e2 : (3 * (s.m1s.length : ℝ) + 50) * ur = 3 * K + 50 * ur := by rw [hKd]; ring
    rw [e1] at hn
    rw [e2]
    have hKT : 0 ≤ K * T := mul_nonneg hK0 hT0
    have huT : 0 ≤ ur * T := mul_nonneg hu.le hT0
    have hρT : 0 ≤ ρ * T := mul_nonneg hρ0 hT0
    have hδT : 0 ≤ δ * T := mul_nonneg hδ0 hT0
    have hpos935 : (0 : ℝ) < 2 ^ (-935 : ℤ) := by positivity
    calc |n - N| = |(n - G) + (G - N)| := by congr 1; ring
      _ ≤ |n - G| + |G - N| := abs_add_le _ _
      _ ≤ _ := by
        generalize (2 : ℝ) ^ (-935 : ℤ) = B at *
        generalize (2 : ℝ) ^ (-1000 : ℤ) = D at *
        generalize (2 : ℝ) ^ (-900 : ℤ) = F at *
        generalize (2 : ℝ) ^ (-1075 : ℤ) * gridRule (fun _ => 1) s.m1s = Q at *
        linarith

end RoundedSmoothing

open RoundedSmoothing

/-- **C119.** Smoothed primary-mass densities in double precision. Let the primary model be known to relative
accuracy `ρ` and the logistic function to absolute accuracy `δ`, and let `n` be the number of grid points. The computed
density differs from the primary model times the documented window, divided by the integral of this product over the
grid, by at most `6 κ (ρ + δ + (3 n + 50) 2^-53)` times the density without the window; `κ` is the part of the
primary model that the window removes, as a ratio of integrals. -/
theorem C119_density {E : Fl → Fl} {δ : ℝ} (hE : AccurateLogistic E δ) {A : Arith} (hA : Accurate A)
    (halveFirst : Bool) (b : Backend) (s : Smoothed) {prim : Fl → Except PyErr Fl} {P : ℝ → ℝ} {ρ mmin d : ℝ}
    (hρ : 0 ≤ ρ) (hx : DoubleGrid s.m1s) (h : ∀ m ∈ s.m1s, WindowArgs m mmin d)
    (hp : ∀ m ∈ s.m1s, PrimaryWithin prim P ρ m) {m : ℝ} (hm : WindowArgs m mmin d) (hpm : PrimaryWithin prim P ρ m)
    (hN : (2 : ℝ) ^ (-200 : ℤ) ≤ gridRule (fun t => P t * planckWindow mmin s.mmax d t) s.m1s) {κ : ℝ}
    (hκ : gridRule P s.m1s ≤ κ * gridRule (fun t => P t * planckWindow mmin s.mmax d t) s.m1s)
    (hsmall : 16 * (κ * (ρ + δ + (3 * s.m1s.length + 50) * ur)) ≤ 1) :
    ∃ p, s.pM1D E A halveFirst b prim (fin mmin) (fin d) (fin m) = .ok (fin p) ∧ IsDouble p ∧ 0 ≤ p ∧
      |p - smoothedPrimary P mmin s.mmax d s.m1s m| ≤
        6 * (κ * (ρ + δ + (3 * s.m1s.length + 50) * ur)) *
          (P m / gridRule (fun t => P t * planckWindow mmin s.mmax d t) s.m1s) + 2 ^ (-800 : ℤ) := by
  have hδ := hE.nonneg
  have hu := ur_pos
  have hul : ur ≤ 1 / 10 ^ 15 := by rw [ur_val]; norm_num
  norm_num at hul
  have hc := hx.le
  have hn2 : (2 : ℝ) ≤ s.m1s.length := by exact_mod_cast hx.two
  set N := gridRule (fun t => P t * planckWindow mmin s.mmax d t) s.m1s with hNd
  set T := gridRule P s.m1s with hT
  have hN0 : 0 < N := lt_of_lt_of_le (by positivity) hN
  have hNT : N ≤ T := gridRule_le hc fun m hm =>
    mul_le_of_le_one_right (hp m hm).1 (planckWindow_mem mmin s.mmax d m).2
  have hκ1 : 1 ≤ κ := by
    by_contra hlt
    push Not at hlt
    have := mul_lt_mul_of_pos_right hlt hN0
    linarith
  set η := ρ + δ + (3 * (s.m1s.length : ℝ) + 50) * ur with hη
  have hKu : 6 * ur ≤ 3 * (s.m1s.length : ℝ) * ur := by nlinarith
  have hη1 : ρ + δ + 56 * ur ≤ η := by rw [hη]; linarith
  have hη0 : 0 < η := by linarith
  have hηκ : η ≤ κ * η := le_mul_of_one_le_left hη0.le hκ1
  obtain ⟨n, en, dn, n0, hn⟩ := norm_error hE (by linarith) hA halveFirst b s hρ (by linarith) hx h hp
  obtain ⟨y, ey, dy, y0, yb, hy, hy2⟩ := raw_error hE b s (by linarith) hm hpm
  have P0 := hpm.1
  have Pb := hpm.2.1
  have W1 := planckWindow_mem mmin s.mmax d m
  rw [← hNd, ← hT, ← hη] at hn
  -- the error of the normalisation
  have htiny : (2 : ℝ) ^ (-900 : ℤ) ≤ ur * N := by
    calc (2 : ℝ) ^ (-900 : ℤ) ≤ 2 ^ (-253 : ℤ) := two_zpow_le (by norm_num)
      _ = ur * 2 ^ (-200 : ℤ) := by unfold ur; rw [← zpow_add₀ (by norm_num)]; norm_num
      _ ≤ _ := mul_le_mul_of_nonneg_left hN hu.le
  have hnN : |n - N| ≤ (2 * (κ * η) + ur) * N := by
    have : 2 * η * T ≤ 2 * η * (κ * N) := mul_le_mul_of_nonneg_left hκ (by positivity)
    calc |n - N| ≤ 2 * η * T + 2 ^ (-900 : ℤ) := hn
      _ ≤ 2 * η * (κ * N) + ur * N := add_le_add this htiny
      _ = _ := by ring
  set θ := 2 * (κ * η) + ur with hθ
  have hθ1 : θ ≤ 13 / 100 := by linarith
  have hθ0 : 0 ≤ θ := by linarith
  obtain ⟨f1, f2⟩ := abs_le.1 hnN
  have hθN : θ * N ≤ 13 / 100 * N := mul_le_mul_of_nonneg_right hθ1 hN0.le
  have hnlow : 87 / 100 * N ≤ n := by linarith
  have hnpos : 0 < n := by linarith
  -- the quotient
  set PW := P m * planckWindow mmin s.mmax d m with hPW
  have hPW0 : 0 ≤ PW := mul_nonneg P0 W1.1
  have hPW1 : PW ≤ P m := mul_le_of_le_one_right P0 W1.2
  set τ : ℝ := 2 ^ (-1075 : ℤ) with hτ
  have hτ0 : 0 < τ := by rw [hτ]; positivity
  have inv : ∀ {a : ℝ}, 0 ≤ a → a / n ≤ 100 / 87 * (a / N) := by
    intro a ha
    rw [div_le_iff₀ hnpos]
    calc a = 100 / 87 * (a / N) * (87 / 100 * N) := by field_simp
      _ ≤ _ := mul_le_mul_of_nonneg_left hnlow (by positivity)
  have hτN : τ / N ≤ 2 ^ (-875 : ℤ) := by
    rw [div_le_iff₀ hN0]
    calc τ = 2 ^ (-875 : ℤ) * 2 ^ (-200 : ℤ) := by rw [hτ, ← zpow_add₀ (by norm_num)]; norm_num
      _ ≤ _ := mul_le_mul_of_nonneg_left hN (by positivity)
  have hτN0 : 0 < τ / N := by positivity
  have hyn0 : 0 ≤ y / n := by positivity
  have hynP : y / n ≤ 100 / 87 * (2 * (P m / N) + τ / N) := by
    refine (inv y0).trans (mul_le_mul_of_nonneg_left ?_ (by norm_num))
    rw [← mul_div_assoc, ← add_div]
    exact div_le_div_of_nonneg_right hy2 hN0.le
  have hPN : P m / N ≤ 2 ^ (400 : ℤ) := by
    rw [div_le_iff₀ hN0]
    calc P m ≤ 2 ^ (200 : ℤ) := Pb
      _ = 2 ^ (400 : ℤ) * 2 ^ (-200 : ℤ) := by rw [← zpow_add₀ (by norm_num)]; norm_num
      _ ≤ _ := mul_le_mul_of_nonneg_left hN (by positivity)
  have hPN0 : 0 ≤ P m / N := by positivity
  have hbig : |y / n| ≤ 2 ^ (1023 : ℤ) := by
    rw [abs_of_nonneg hyn0]
    have e403 : (2 : ℝ) ^ (403 : ℤ) = 8 * 2 ^ (400 : ℤ) := by
      rw [show (403 : ℤ) = 3 + 400 by norm_num, zpow_add₀ (by norm_num)]; norm_num
    refine le_trans ?_ (two_zpow_le (show (403 : ℤ) ≤ 1023 by norm_num))
    rw [e403]
    have h1 : (2 : ℝ) ^ (-875 : ℤ) ≤ 2 ^ (400 : ℤ) := two_zpow_le (by norm_num)
    have h2 := hτN.trans h1
    generalize (2 : ℝ) ^ (400 : ℤ) = B at *
    linarith only [hynP, hPN, h2, hPN0]
  obtain ⟨ez, dz⟩ := toDouble_fin_le hbig
  refine ⟨round53 (y / n), ?_, dz, round53_nonneg hyn0, ?_⟩
  · unfold Smoothed.pM1D
    rw [ey, ok_bind, en, ok_bind, fin_div hnpos.ne', ez]
    rfl
  · have hr := round53_error (y / n)
    rw [abs_of_nonneg hyn0, ← hτ] at hr
    have e1 : |y / n - PW / N| ≤ 100 / 87 * (((ρ + δ + 66 * ur) + θ) * (P m / N) + τ / N) := by
      have e : y / n - PW / N = (y - PW + PW * ((N - n) / N)) / n := by field_simp; ring
      rw [e, abs_div, abs_of_pos hnpos]
      refine (inv (abs_nonneg _)).trans (mul_le_mul_of_nonneg_left ?_ (by norm_num))
      rw [show (ρ + δ + 66 * ur + θ) * (P m / N) + τ / N = ((ρ + δ + 66 * ur + θ) * P m + τ) / N by ring]
      refine div_le_div_of_nonneg_right ?_ hN0.le
      have h1 : |PW * ((N - n) / N)| ≤ P m * θ := by
        rw [abs_mul, abs_of_nonneg hPW0]
        refine mul_le_mul hPW1 ?_ (abs_nonneg _) P0
        rw [abs_div, abs_of_pos hN0, div_le_iff₀ hN0, abs_sub_comm]
        exact hnN
      have := abs_add_le (y - PW) (PW * ((N - n) / N))
      linarith
    have hur1 : ur * (y / n) ≤ ur * (100 / 87 * (2 * (P m / N) + τ / N)) := mul_le_mul_of_nonneg_left hynP hu.le
    have huτ : ur * (τ / N) ≤ 1 * (τ / N) := mul_le_mul_of_nonneg_right (by linarith) hτN0.le
    -- the coefficients
    have hcoef : 100 / 87 * ((ρ + δ + 66 * ur) + θ) + 200 / 87 * ur ≤ 6 * (κ * η) := by
      rw [hθ]
      linarith
    have hcoef2 := mul_le_mul_of_nonneg_right hcoef hPN0
    have hlast : 8 * (2 : ℝ) ^ (-875 : ℤ) + τ ≤ 2 ^ (-800 : ℤ) := by
      have e : 16 * (2 : ℝ) ^ (-875 : ℤ) = 2 ^ (-871 : ℤ) := by
        rw [show (-871 : ℤ) = 4 + (-875) by norm_num, zpow_add₀ (by norm_num)]; norm_num
      have h1 : τ ≤ 2 ^ (-875 : ℤ) := two_zpow_le (by norm_num)
      have h2 := two_zpow_le (show (-871 : ℤ) ≤ -800 by norm_num)
      have h3 : (0 : ℝ) < 2 ^ (-875 : ℤ) := by positivity
      generalize (2 : ℝ) ^ (-875 : ℤ) = B at *
      generalize (2 : ℝ) ^ (-871 : ℤ) = C at *
      generalize (2 : ℝ) ^ (-800 : ℤ) = D at *
      linarith
    have hsp : smoothedPrimary P mmin s.mmax d s.m1s m = PW / N := rfl
    rw [hsp]
    calc |round53 (y / n) - PW / N| = |(round53 (y / n) - y / n) + (y / n - PW / N)| := by congr 1; ring
      _ ≤ |round53 (y / n) - y / n| + |y / n - PW / N| := abs_add_le _ _
      _ ≤ _ := by
        generalize (2 : ℝ) ^ (-875 : ℤ) = B at *
        generalize (2 : ℝ) ^ (-800 : ℤ) = D at *
        linarith

/-- **C119.** Whatever the arguments are, also infinite ones and NaN, the window in double precision is a number between
0 and 1. -/
theorem C119_range {E : Fl → Fl} {δ : ℝ} (hE : AccurateLogistic E δ) (b : Backend) (m mmin mmax d : Fl) :
    ∃ w, smoothingD E b m mmin mmax d = fin w ∧ IsDouble w ∧ 0 ≤ w ∧ w ≤ 1 := by
  unfold smoothingD
  split_ifs with hc
  · obtain ⟨q, eq, dq⟩ : ∃ q, nanToNumWith (fin 0) (fin bigR) (fin (-bigR)) (toDouble (toDouble (m - mmin) / d)) =
        fin q ∧ IsDouble q := by
      have := toDouble_isFloat (toDouble (m - mmin) / d)
      cases hx : toDouble (toDouble (m - mmin) / d) with
      | fin r =>
        rw [hx] at this
        exact ⟨r, rfl, this.2⟩
      | pinf => exact ⟨_, rfl, isDouble_bigR⟩
      | ninf => exact ⟨_, rfl, isDouble_bigR.neg⟩
      | nan => exact ⟨_, rfl, isDouble_zero⟩
    obtain ⟨c1, c2⟩ := clipR_mem q
    obtain ⟨-, hx, -⟩ := expoR_error c1 c2
    obtain ⟨y, e1, e2, e3, e4, -⟩ := hE (-expoR (clipR q)) (round53_isDouble _).neg (by rwa [abs_neg])
    simp only [eq, toDouble_lo, toDouble_hi, clip_fin, exponent_eq c1 c2, fin_neg, e1, ind_mul_ind]
    have hb : y ≤ bigR := (e4.trans (le_big (x := 1) (by norm_num))).trans
      ((le_mul_of_one_le_right (by positivity) (by norm_num)).trans two_pow_le_bigR)
    by_cases hi : mmin ≤ m ∧ m ≤ mmax
    · refine ⟨y, ?_, e2, e3, e4⟩
      rw [ind_true hi, mulD, fin_mul, mul_one]
      exact fl64_eq (by rwa [abs_of_nonneg e3]) e2
    · refine ⟨0, ?_, isDouble_zero, le_rfl, zero_le_one⟩
      rw [ind_false hi, mulD, fin_mul, mul_zero]
      exact fl64_eq (by rw [abs_zero]; exact bigR_pos.le) isDouble_zero
  · exact ⟨1, rfl, isDouble_one, zero_le_one, le_rfl⟩

/-- A library that rounds the exact logistic function. -/
def roundedLogistic (x : Fl) : Fl := toDouble (expit x)

theorem roundedLogistic_accurate : AccurateLogistic roundedLogistic (2 * ur) := by
  intro x _ _
  have h0 := Real.exp_pos (-x)
  have h1 : 0 ≤ 1 / (1 + Real.exp (-x)) := by positivity
  have h2 : 1 / (1 + Real.exp (-x)) ≤ 1 := by rw [div_le_one (by positivity)]; linarith
  obtain ⟨e, dd⟩ := toDouble_fin_le (x := 1 / (1 + Real.exp (-x)))
    (by rw [abs_of_nonneg h1]; exact h2.trans (le_big (by norm_num)))
  obtain ⟨b1, b2⟩ := round53_between isDouble_zero isDouble_one h1 h2
  refine ⟨_, e, dd, b1, b2, ?_⟩
  have h3 := round53_error (1 / (1 + Real.exp (-x)))
  rw [abs_of_nonneg h1] at h3
  have h4 : ur * (1 / (1 + Real.exp (-x))) ≤ ur * 1 := mul_le_mul_of_nonneg_left h2 ur_pos.le
  have h5 := tiny1075
  have := ur_pos
  generalize (2 : ℝ) ^ (-1075 : ℤ) = τ at *
  linarith

theorem roundedLogistic_monotone : MonotoneLogistic roundedLogistic := by
  intro x x' _ _ _ _ h
  refine toDouble_mono ?_
  have := Real.exp_le_exp.2 (neg_le_neg h)
  exact one_div_le_one_div_of_le (by positivity) (by linarith)

theorem windowArgs_int {m mmin d : ℤ} (h1 : |m| ≤ 1000) (h2 : |mmin| ≤ 1000) (h3 : 1 ≤ d) (h4 : d ≤ 1000) :
    WindowArgs (m : ℝ) (mmin : ℝ) (d : ℝ) := by
  have big : (1000 : ℝ) ≤ 2 ^ (500 : ℤ) := by
    have := two_zpow_le (show (10 : ℤ) ≤ 500 by norm_num)
    exact le_trans (by norm_num) this
  refine ⟨⟨isDouble_int (h1.trans (by norm_num)), isDouble_int (h2.trans (by norm_num)),
    isDouble_int ((abs_le.2 ⟨by omega, h4⟩ : |d| ≤ 1000).trans (by norm_num))⟩, ?_, ?_, ?_, ?_⟩
  · exact le_trans (by exact_mod_cast h1) big
  · exact le_trans (by exact_mod_cast h2) big
  · have h5 : (1 : ℝ) ≤ d := by exact_mod_cast h3
    exact le_trans (zpow_le_one_of_nonpos₀ (by norm_num) (by norm_num)) h5
  · exact le_trans (by exact_mod_cast h4) big

/-- Non-vacuity: a quarter of the way up the taper between 4 and 8, for a library that rounds the exact function. -/
example (b : Backend) : ∃ w, smoothingD roundedLogistic b (fin 5) (fin 4) (fin 80) (fin 4) = fin w ∧
    |w - (Real.exp (8 / 3) + 1)⁻¹| ≤ 66 * ur := by
  have := C119_window roundedLogistic_accurate b (windowArgs_int (m := 5) (mmin := 4) (d := 4) (by norm_num) (by norm_num)
    (by norm_num) (by norm_num)) 80
  push_cast at this
  obtain ⟨w, e, -, -, -, h⟩ := this
  refine ⟨w, e, ?_⟩
  have e2 : planckWindow 4 80 4 5 = (Real.exp (8 / 3) + 1)⁻¹ := by
    unfold planckWindow planckTaper
    norm_num
  rw [e2] at h
  linarith

/-- Non-vacuity: two neighbouring masses. -/
example (b : Backend) : smoothingD roundedLogistic b (fin 5) (fin 4) (fin 80) (fin 4) ≤
    smoothingD roundedLogistic b (fin 6) (fin 4) (fin 80) (fin 4) := by
  have := C119_monotone roundedLogistic_accurate roundedLogistic_monotone b (mmax := 80)
    (windowArgs_int (m := 5) (mmin := 4) (d := 4) (by norm_num) (by norm_num) (by norm_num) (by norm_num))
    (windowArgs_int (m := 6) (mmin := 4) (d := 4) (by norm_num) (by norm_num) (by norm_num) (by norm_num))
    (by norm_num) (by norm_num) (by norm_num)
  exact_mod_cast this

/-- Non-vacuity: an undefined mass. -/
example : ∃ w, smoothingD roundedLogistic .jax nan (fin 4) pinf (fin 0) = fin w ∧ IsDouble w ∧ 0 ≤ w ∧ w ≤ 1 :=
  C119_range roundedLogistic_accurate _ _ _ _ _

/-- Non-vacuity of the bound for densities: a uniform primary model on three grid points, one of them half-way up
the taper; the window removes an eleventh of it. -/
example (b : Backend) (halveFirst : Bool) (primary : Primary) : ∃ p,
    Smoothed.pM1D roundedLogistic (roundedArith sequential) halveFirst b
      ⟨primary, [], 4, 8, [5, 6, 8], [1 / 2, 1], true, none⟩ (fun _ => .ok (fin 1)) (fin 4) (fin 2) (fin 5) = .ok (fin p) ∧
    |p - 2 / 11| ≤ 500 * ur := by
  set s : Smoothed := ⟨primary, [], 4, 8, [5, 6, 8], [1 / 2, 1], true, none⟩
  have w5 : planckWindow 4 8 2 5 = 1 / 2 := by
    unfold planckWindow planckTaper
    norm_num
  have w6 : planckWindow 4 8 2 6 = 1 := by
    unfold planckWindow planckTaper
    norm_num
  have w8 : planckWindow 4 8 2 8 = 1 := by
    unfold planckWindow planckTaper
    norm_num
  have hN : gridRule (fun t => (1 : ℝ) * planckWindow 4 s.mmax 2 t) s.m1s = 11 / 4 := by
    show gridRule (fun t => (1 : ℝ) * planckWindow 4 8 2 t) [5, 6, 8] = 11 / 4
    simp [gridRule, trapezoidRule, Finset.sum_range_succ, w5, w6, w8]
    norm_num
  have hT : gridRule (fun _ => (1 : ℝ)) s.m1s = 3 := by
    show gridRule (fun _ => (1 : ℝ)) [5, 6, 8] = 3
    simp [gridRule, trapezoidRule, Finset.sum_range_succ]
    norm_num
  have hargs : ∀ m ∈ s.m1s, WindowArgs m 4 2 := by
    intro m hm
    have hm : m ∈ ([5, 6, 8] : List ℝ) := hm
    simp only [List.mem_cons, List.not_mem_nil, or_false] at hm
    rcases hm with rfl | rfl | rfl
    · exact_mod_cast windowArgs_int (m := 5) (mmin := 4) (d := 2) (by norm_num) (by norm_num) (by norm_num) (by norm_num)
    · exact_mod_cast windowArgs_int (m := 6) (mmin := 4) (d := 2) (by norm_num) (by norm_num) (by norm_num) (by norm_num)
    · exact_mod_cast windowArgs_int (m := 8) (mmin := 4) (d := 2) (by norm_num) (by norm_num) (by norm_num) (by norm_num)
  have hprim : ∀ m, PrimaryWithin (fun _ => .ok (fin 1)) (fun _ => (1 : ℝ)) 0 m := fun m =>
    ⟨zero_le_one, one_le_zpow₀ (by norm_num) (by norm_num), 1, rfl, isDouble_one, by simp⟩
  have hgrid : DoubleGrid s.m1s := ⟨fun m hm => (hargs m hm).isDouble.1, by
      show List.IsChain _ [(5 : ℝ), 6, 8]
      simp only [List.isChain_cons_cons]
      refine ⟨?_, ?_, List.isChain_singleton _⟩ <;> constructor <;> norm_num,
    show 2 ≤ ([5, 6, 8] : List ℝ).length by simp, show ([5, 6, 8] : List ℝ).length ≤ 2 ^ 40 by simp⟩
  have hlen : (s.m1s.length : ℝ) = 3 := by
    show ((([5, 6, 8] : List ℝ).length : ℕ) : ℝ) = 3
    norm_num
  obtain ⟨p, e, -, -, h⟩ := C119_density roundedLogistic_accurate sequential_accurate halveFirst b s (ρ := 0) (κ := 12 / 11)
    (P := fun _ => 1) le_rfl hgrid hargs (fun m _ => hprim m) (m := 5) (hargs 5 (by show (5 : ℝ) ∈ [(5 : ℝ), 6, 8]; simp))
    (hprim 5) (by rw [hN]; exact le_trans (zpow_le_one_of_nonpos₀ (by norm_num) (by norm_num)) (by norm_num))
    (by rw [hN, hT]; norm_num) (by rw [hlen, ur_val]; norm_num)
  refine ⟨p, e, ?_⟩
  rw [hlen, hN] at h
  unfold smoothedPrimary at h
  rw [hN] at h
  have e5 : planckWindow 4 s.mmax 2 5 = 1 / 2 := w5
  rw [e5] at h
  have h8 : (2 : ℝ) ^ (-800 : ℤ) ≤ ur := two_zpow_le (show (-800 : ℤ) ≤ -53 by norm_num)
  have := ur_pos
  norm_num at h
  norm_num at h8
  refine h.trans ?_
  linarith

end GW
