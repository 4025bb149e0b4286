import Verif.Model.RoundedRedshift
import Verif.Props.RoundedPowerlaw

/-!
# C117: grid normalisations in double precision
-/

noncomputable section

open Classical

namespace GW

open Fl

namespace Spec

/-- A number that is zero or whose size is between two powers of two. -/
def Sized (a b : ℤ) (x : ℝ) : Prop := x = 0 ∨ ((2 : ℝ) ^ a ≤ x ∧ x ≤ 2 ^ b)

/-- A grid of doubles in increasing order, not finer than `2^-100`. -/
structure DoubleGrid (xs : List ℝ) : Prop where
  isDouble : ∀ x ∈ xs, IsDouble x
  gaps : xs.IsChain fun x x' => (2 : ℝ) ^ (-100 : ℤ) ≤ x' - x ∧ x' - x ≤ 2 ^ (100 : ℤ)
  two : 2 ≤ xs.length
  length : xs.length ≤ 2 ^ 40

end Spec

open Spec

namespace RoundedGrid

theorem _root_.GW.Spec.Sized.nonneg {a b : ℤ} {x : ℝ} (h : Sized a b x) : 0 ≤ x := by
  rcases h with rfl | h
  · exact le_rfl
  · exact (lt_of_lt_of_le (by positivity) h.1).le

theorem _root_.GW.Spec.Sized.mono {a b c d : ℤ} {x : ℝ} (h : Sized a b x) (h1 : c ≤ a) (h2 : b ≤ d) : Sized c d x :=
  h.imp id fun h => InR.mono h h1 h2

theorem _root_.GW.Spec.Sized.add {a b : ℤ} {x y : ℝ} (h : Sized a b x) (h' : Sized a b y) : Sized a (b + 1) (x + y) := by
  have e : (2 : ℝ) ^ (b + 1) = 2 ^ b + 2 ^ b := by rw [zpow_add₀ (by norm_num), zpow_one]; ring
  have hp : (0 : ℝ) < 2 ^ b := by positivity
  have n1 := h.nonneg
  have n2 := h'.nonneg
  rcases h with rfl | h
  · rcases h' with rfl | h'
    · left; simp
    · right
      rw [zero_add]
      exact ⟨h'.1, by linarith [h'.2]⟩
  · right
    refine ⟨by linarith [h.1], ?_⟩
    rcases h' with rfl | h'
    · linarith [h.2]
    · linarith [h.2, h'.2]

theorem _root_.GW.Spec.Sized.mul {a b c d : ℤ} {x y : ℝ} (h : InR a b x) (h' : Sized c d y) :
    Sized (a + c) (b + d) (x * y) := by
  rcases h' with rfl | h'
  · left; simp
  · right; exact InR.mul h h'

/-- Rounding one more time. -/
theorem _root_.GW.Spec.Sized.round {a b : ℤ} {x y : ℝ} {k : ℕ} (h : Sized a b x) (hn : Near k x y) (ha : -1000 ≤ a)
    (hb : b ≤ 1000) (hk : k ≤ 2 ^ 50) :
    ∃ r, toDouble (fin y) = fin r ∧ IsDouble r ∧ Near (k + 1) x r := by
  rcases h with rfl | h
  · have h0 : y = 0 := by
      have h1 := hn.nonneg le_rfl
      have h2 := hn.2
      have h3 := omu_pow_pos k
      by_contra hne
      have : 0 < y := lt_of_le_of_ne h1 (Ne.symm hne)
      have := mul_pos this h3
      linarith
    subst h0
    refine ⟨0, ?_, isDouble_zero, by simp [Near]⟩
    show fl64 0 = fin 0
    exact fl64_eq (by rw [abs_zero]; unfold bigR; positivity) isDouble_zero
  · have h2 := InR.near (show InR a b x from h) hn (by omega)
    obtain ⟨r, e, d, n⟩ := InR.toDouble h2 (by omega) (by omega)
    exact ⟨r, e, d, hn.trans n⟩

theorem InR.round {a b : ℤ} {x y : ℝ} {k : ℕ} (h : InR a b x) (hn : Near k x y) (ha : -1000 ≤ a)
    (hb : b ≤ 1000) (hk : k ≤ 2 ^ 50) :
    ∃ r, toDouble (fin y) = fin r ∧ IsDouble r ∧ Near (k + 1) x r :=
  Sized.round (.inr h) hn ha hb hk

/-- The exact terms of the rule, before they are halved. -/
def terms : List ℝ → List ℝ → List ℝ
  | y0 :: y1 :: ys, x0 :: x1 :: xs => (x1 - x0) * (y1 + y0) :: terms (y1 :: ys) (x1 :: xs)
  | _, _ => []

theorem terms_sum (ys xs : List ℝ) : (terms ys xs).sum = 2 * Arr.trapzR ys xs := by
  fun_induction terms ys xs with
  | case1 y0 y1 ys x0 x1 xs ih =>
    rw [List.sum_cons, ih, Arr.trapzR]
    ring
  | case2 ys xs h =>
    have : Arr.trapzR ys xs = 0 := by
      unfold Arr.trapzR
      split
      · exact absurd rfl (h _ _ _ _ _ _ rfl)
      · rfl
    rw [this]
    simp

theorem terms_length : ∀ (ys xs : List ℝ), ys.length = xs.length → (terms ys xs).length = xs.length - 1
  | [], [], _ => rfl
  | [_], [_], _ => rfl
  | y0 :: y1 :: ys, x0 :: x1 :: xs, h => by
    rw [terms, List.length_cons, terms_length (y1 :: ys) (x1 :: xs) (by simpa using h)]
    simp

/-- The terms in double precision. -/
theorem terms_near {k : ℕ} {a b : ℤ} (hk : k ≤ 2 ^ 49) (ha : -500 ≤ a) (hb : b ≤ 500) : ∀ {Y y xs : List ℝ},
    List.Forall₂ (fun Y y => Near k Y y ∧ Sized a b Y) Y y → Y.length = xs.length →
    (∀ x ∈ xs, IsDouble x) →
    (xs.IsChain fun x x' => (2 : ℝ) ^ (-100 : ℤ) ≤ x' - x ∧ x' - x ≤ 2 ^ (100 : ℤ)) →
    ∃ t : List ℝ, trapzTermsD (y.map fin) (xs.map fin) = t.map fin ∧
      List.Forall₂ (fun T t => Near (k + 3) T t ∧ Sized (a - 100) (b + 101) T ∧ IsDouble t) (terms Y xs) t
  | [], _, xs, h, _, _, _ => by
    cases h
    exact ⟨[], by simp [trapzTermsD], by simp [terms]⟩
  | [_], _, xs, h, hl, _, _ => by
    obtain ⟨y0, ys, -, h2, rfl⟩ := List.forall₂_cons_left_iff.1 h
    cases h2
    refine ⟨[], ?_, by simp [terms]⟩
    simp [trapzTermsD]
  | Y0 :: Y1 :: Y, _, [], _, hl, _, _ => by simp at hl
  | Y0 :: Y1 :: Y, _, [x], _, hl, _, _ => by simp at hl
  | Y0 :: Y1 :: Y, y, x0 :: x1 :: xs, h, hl, hd, hc => by
    obtain ⟨y0, ys, h0, h', rfl⟩ := List.forall₂_cons_left_iff.1 h
    obtain ⟨y1, ys, h1, h'', rfl⟩ := List.forall₂_cons_left_iff.1 h'
    rw [List.isChain_cons_cons] at hc
    obtain ⟨t, e, ht⟩ := terms_near hk ha hb (Y := Y1 :: Y) (y := y1 :: ys) (xs := x1 :: xs) h' (by simpa using hl)
      (fun x hx => hd x (List.mem_cons_of_mem _ hx)) hc.2
    obtain ⟨g, eg, -, ng⟩ := InR.round (k := 0) (show InR (-100) 100 (x1 - x0) from hc.1) (Near.refl _) (by norm_num)
      (by norm_num) (by norm_num)
    have hs := Sized.add h1.2 h0.2
    obtain ⟨s, es, -, ns⟩ := Sized.round hs (h1.1.add h0.1) (by omega) (by omega) (by omega)
    have hp := Sized.mul (show InR (-100) 100 (x1 - x0) from hc.1) hs
    have np := ng.mul ns (InR.pos hc.1).le hs.nonneg
    obtain ⟨p, ep, dp, nq⟩ := Sized.round hp np (by omega) (by omega) (by omega)
    refine ⟨p :: t, ?_, ?_⟩
    · simp only [List.map_cons, trapzTermsD] at e ⊢
      rw [e, fin_sub, fin_add, eg, es, mulD, fin_mul, ep]
    · rw [terms]
      refine .cons ⟨?_, hp.mono (by omega) (by omega), dp⟩ ht
      have e1 : 0 + 1 + (k + 1) + 1 = k + 3 := by omega
      rwa [e1] at nq

/-- Sums of lists whose elements are near each other. -/
theorem near_sum₂ {k : ℕ} {X Y : List ℝ} (h : List.Forall₂ (fun x y => Near k x y) X Y) :
    Near k X.sum Y.sum := by
  induction h with
  | nil => simp [Near]
  | cons h _ ih => simpa using h.add ih

theorem sum_le {B : ℝ} {X : List ℝ} (h : ∀ x ∈ X, x ≤ B) : X.sum ≤ X.length * B := by
  induction X with
  | nil => simp
  | cons x X ih =>
    have h1 := ih fun y hy => h y (List.mem_cons_of_mem _ hy)
    have h2 := h x List.mem_cons_self
    simp only [List.sum_cons, List.length_cons]
    push_cast
    linarith

/-- The sum in any order of non-negative doubles, each known up to `k` roundings. -/
theorem sum_near₂ {A : Arith} (hA : Accurate A) {k : ℕ} {X Y : List ℝ}
    (h : List.Forall₂ (fun x y => Near k x y ∧ Sized (-700) 700 x ∧ IsDouble y) X Y) (hk : k ≤ 2 ^ 50)
    (hN : X.length ≤ 2 ^ 40) (hne : X ≠ []) :
    ∃ s, A.sum (Y.map fin) = fin s ∧ IsDouble s ∧ Near (k + (X.length - 1)) X.sum s := by
  have hl := h.length_eq
  have hX : ∀ x ∈ X, Sized (-700) 700 x := by
    intro x hx
    obtain ⟨i, hi, rfl⟩ := List.getElem_of_mem hx
    exact (h.get hi (hl ▸ hi)).2.1
  have hYn : ∀ y ∈ Y, 0 ≤ y ∧ IsDouble y := by
    intro y hy
    obtain ⟨i, hi, rfl⟩ := List.getElem_of_mem hy
    have h3 := h.get (hl ▸ hi) hi
    exact ⟨h3.1.nonneg h3.2.1.nonneg, h3.2.2⟩
  have h0 : 0 ≤ X.sum := List.sum_nonneg fun x hx => (hX x hx).nonneg
  have hn := near_sum₂ (h.imp fun _ _ h => h.1)
  have hN2 : (X.length : ℝ) ≤ 2 ^ (40 : ℤ) := by
    have : (X.length : ℝ) ≤ ((2 ^ 40 : ℕ) : ℝ) := by exact_mod_cast hN
    refine this.trans ?_
    norm_num
  have hb : X.sum ≤ 2 ^ (740 : ℤ) := by
    refine (sum_le (B := 2 ^ (700 : ℤ)) fun x hx => ?_).trans ?_
    · rcases hX x hx with rfl | h
      · positivity
      · exact h.2
    · calc (X.length : ℝ) * 2 ^ (700 : ℤ) ≤ 2 ^ (40 : ℤ) * 2 ^ (700 : ℤ) :=
          mul_le_mul_of_nonneg_right hN2 (by positivity)
        _ = 2 ^ (740 : ℤ) := by rw [← zpow_add₀ (by norm_num)]; norm_num
  have hY2 := (near_half hn h0 (by omega)).1
  obtain ⟨s, es, ds, ns⟩ := Arith.sum_near (A := A) (l := Y)
    (by
      have := hA.order (Y.map fin) (by
        intro he
        rw [List.map_eq_nil_iff] at he
        rw [he] at hl
        exact hne (List.length_eq_zero_iff.1 hl))
      simpa using this)
    (fun y hy => (hYn y hy).1) (fun y hy => (hYn y hy).2) (by rw [← hl]; omega)
    (by
      refine hY2.trans ?_
      have e : (2 : ℝ) ^ (741 : ℤ) = 2 * 2 ^ (740 : ℤ) := by
        rw [show (741 : ℤ) = 1 + 740 by norm_num, zpow_add₀ (by norm_num), zpow_one]
      have := two_zpow_le (show (741 : ℤ) ≤ 1022 by norm_num)
      generalize (2 : ℝ) ^ (740 : ℤ) = B at *
      generalize (2 : ℝ) ^ (741 : ℤ) = C at *
      generalize (2 : ℝ) ^ (1022 : ℤ) = D at *
      linarith)
  rw [← hl] at ns
  exact ⟨s, es, ds, hn.trans ns⟩

/-- Halving all elements. -/
theorem halves {k : ℕ} (hk : k ≤ 2 ^ 49) {X Y : List ℝ}
    (h : List.Forall₂ (fun x y => Near k x y ∧ Sized (-600) 601 x ∧ IsDouble y) X Y) :
    ∃ Z : List ℝ, (Y.map fin).map (fun t => toDouble (t / 2)) = Z.map fin ∧
      List.Forall₂ (fun x y => Near (k + 1) x y ∧ Sized (-700) 700 x ∧ IsDouble y) (X.map (· / 2)) Z := by
  induction h with
  | nil => exact ⟨[], rfl, .nil⟩
  | @cons x y X Y h _ ih =>
    obtain ⟨Z, e, hZ⟩ := ih
    have h2 : InR (-1) (-1) (1 / 2) := by constructor <;> norm_num
    have hs := Sized.mul h2 h.2.1
    have hn := Near.mul (Near.refl (1 / 2)) h.1 (by norm_num) h.2.1.nonneg
    obtain ⟨r, er, dr, nr⟩ := Sized.round hs hn (by norm_num) (by norm_num) (by omega)
    refine ⟨r :: Z, ?_, ?_⟩
    · simp only [List.map_cons, e]
      congr 1
      rw [ofNat_eq, fin_div (by norm_num), ← er]
      congr 2
      push_cast
      ring
    · refine .cons ⟨?_, ?_, dr⟩ hZ
      · have e1 : (fun x : ℝ => x / 2) x = 1 / 2 * x := by ring
        rw [e1]
        rwa [Nat.zero_add] at nr
      · have e1 : (fun x : ℝ => x / 2) x = 1 / 2 * x := by ring
        rw [e1]
        exact hs.mono (by norm_num) (by norm_num)

/-- The trapezoid rule in double precision. -/
theorem trapzD_near {A : Arith} (hA : Accurate A) (halveFirst : Bool) {k : ℕ} {a b : ℤ} (hk : k ≤ 2 ^ 40)
    (ha : -500 ≤ a) (hb : b ≤ 500) {Y y xs : List ℝ}
    (h : List.Forall₂ (fun Y y => Near k Y y ∧ Sized a b Y) Y y) (hl : Y.length = xs.length)
    (hx : DoubleGrid xs) (hpos : 0 < Arr.trapzR Y xs) :
    ∃ s, trapzD A halveFirst (y.map fin) (xs.map fin) = fin s ∧ IsDouble s ∧
      Near (k + xs.length + 2) (Arr.trapzR Y xs) s ∧ InR (a - 101) (b + 140) (Arr.trapzR Y xs) := by
  obtain ⟨t, e, ht⟩ := terms_near (by omega) ha hb h hl hx.isDouble hx.gaps
  have hlen := terms_length Y xs hl
  have h2 := hx.two
  have h3 := hx.length
  have hne : terms Y xs ≠ [] := by
    intro he
    rw [he] at hlen
    simp at hlen
    omega
  have hsum := terms_sum Y xs
  -- the size of the sum
  have hT : ∀ T ∈ terms Y xs, Sized (a - 100) (b + 101) T := by
    intro T hT
    obtain ⟨i, hi, rfl⟩ := List.getElem_of_mem hT
    exact (ht.get hi (ht.length_eq ▸ hi)).2.1
  have hsize : InR (a - 101) (b + 140) (Arr.trapzR Y xs) := by
    have hex : ∃ T ∈ terms Y xs, 0 < T := by
      by_contra hno
      push Not at hno
      have : (terms Y xs).sum ≤ 0 := by
        have := sum_le (B := 0) hno
        simpa using this
      linarith
    obtain ⟨T, hTm, hT0⟩ := hex
    have hlow : (2 : ℝ) ^ (a - 100) ≤ T := by
      rcases hT T hTm with rfl | h
      · exact absurd hT0 (lt_irrefl _)
      · exact h.1
    have hle : T ≤ (terms Y xs).sum := le_sum_of_mem (fun x hx => (hT x hx).nonneg) hTm
    have hN2 : ((terms Y xs).length : ℝ) ≤ 2 ^ (40 : ℤ) := by
      have : ((terms Y xs).length : ℝ) ≤ ((2 ^ 40 : ℕ) : ℝ) := by
        rw [hlen]; exact_mod_cast (by omega : xs.length - 1 ≤ 2 ^ 40)
      refine this.trans ?_
      norm_num
    have hup : (terms Y xs).sum ≤ 2 ^ (b + 141) := by
      refine (sum_le (B := 2 ^ (b + 101)) fun x hx => ?_).trans ?_
      · rcases hT x hx with rfl | h
        · positivity
        · exact h.2
      · calc ((terms Y xs).length : ℝ) * 2 ^ (b + 101) ≤ 2 ^ (40 : ℤ) * 2 ^ (b + 101) :=
            mul_le_mul_of_nonneg_right hN2 (by positivity)
          _ = 2 ^ (b + 141) := by rw [← zpow_add₀ (by norm_num)]; congr 1; ring
    have e1 : (2 : ℝ) ^ (a - 100) = 2 * 2 ^ (a - 101) := by
      rw [show a - 100 = 1 + (a - 101) by ring, zpow_add₀ (by norm_num), zpow_one]
    have e2 : (2 : ℝ) ^ (b + 141) = 2 * 2 ^ (b + 140) := by
      rw [show (b + 141) = 1 + (b + 140) by ring, zpow_add₀ (by norm_num), zpow_one]
    generalize (2 : ℝ) ^ (a - 100) = A1 at *
    generalize (2 : ℝ) ^ (b + 141) = A2 at *
    constructor <;> linarith
  have hsz : InR (-700) 700 (Arr.trapzR Y xs) := InR.mono hsize (by omega) (by omega)
  unfold trapzD
  rw [e]
  cases halveFirst
  · rw [if_neg (by simp)]
    obtain ⟨s, es, -, ns⟩ := sum_near₂ hA (k := k + 3)
      (ht.imp fun _ _ h => ⟨h.1, h.2.1.mono (by omega) (by omega), h.2.2⟩) (by omega)
      (by rw [hlen]; omega) hne
    rw [hsum, hlen] at ns
    have hh : Near (k + 3 + (xs.length - 1 - 1)) (Arr.trapzR Y xs) (s / 2) := by
      have := Near.mul (Near.refl (1 / 2)) ns (by norm_num) (by linarith)
      rw [Nat.zero_add] at this
      convert this using 1 <;> ring
    obtain ⟨r, er, dr, nr⟩ := InR.round hsz hh (by norm_num) (by norm_num) (by omega)
    refine ⟨r, ?_, dr, ?_, hsize⟩
    · rw [es, ofNat_eq, fin_div (by norm_num), ← er]
    · have e1 : k + 3 + (xs.length - 1 - 1) + 1 = k + xs.length + 2 := by omega
      rwa [e1] at nr
  · rw [if_pos rfl]
    obtain ⟨Z, eZ, hZ⟩ := halves (by omega) (ht.imp fun _ _ h => ⟨h.1, h.2.1.mono (by omega) (by omega), h.2.2⟩)
    rw [eZ]
    obtain ⟨s, es, ds, ns⟩ := sum_near₂ hA (k := k + 3 + 1) hZ (by omega)
      (by rw [List.length_map, hlen]; omega) (by simpa using hne)
    refine ⟨s, es, ds, ?_, hsize⟩
    have e2 : ((terms Y xs).map (· / 2)).sum = Arr.trapzR Y xs := by
      have h1 : (terms Y xs).map (· / 2) = (terms Y xs).map fun x => x * (1 / 2) :=
        List.map_congr_left fun x _ => by ring
      rw [h1, List.sum_map_mul_right, List.map_id', hsum]
      ring
    rw [e2, List.length_map, hlen] at ns
    have e1 : k + 3 + 1 + (xs.length - 1 - 1) = k + xs.length + 2 := by omega
    rwa [e1] at ns

theorem trapzR_rule {Y xs : List ℝ} (hl : Y.length = xs.length) :
    Arr.trapzR Y xs =
      trapezoidRule (xs.length - 1) (fun i => Y.getD i 0) (fun i => xs.getD i 0) := by
  rw [Arr.trapzR_eq_rule _ _ hl, hl]

end RoundedGrid

open RoundedGrid

/-- **C117.** The integral over a grid in double precision: for every grid of doubles of any length `n` and
non-negative data that are each known to `k` roundings, added up in any order and halved before or after, the
result has relative error at most `2 (k + n + 2)` units of roundoff, unless all the data that count are zero. -/
theorem C117_grid {A : Arith} (hA : Accurate A) (halveFirst : Bool) {k : ℕ} (hk : k ≤ 2 ^ 40)
    {xs : List ℝ} (hx : DoubleGrid xs) {Y y : List ℝ} (hY : Y.length = xs.length) (hy : y.length = xs.length)
    (hn : ∀ i < xs.length, Near k (Y.getD i 0) (y.getD i 0) ∧ Sized (-500) 500 (Y.getD i 0))
    (hpos : 0 < trapezoidRule (xs.length - 1) (fun i => Y.getD i 0) (fun i => xs.getD i 0)) :
    ∃ s, trapzD A halveFirst (y.map fin) (xs.map fin) = fin s ∧
      |s - trapezoidRule (xs.length - 1) (fun i => Y.getD i 0) (fun i => xs.getD i 0)| ≤
        2 * (k + xs.length + 2) * ur *
          trapezoidRule (xs.length - 1) (fun i => Y.getD i 0) (fun i => xs.getD i 0) := by
  have hf : List.Forall₂ (fun Y y => Near k Y y ∧ Sized (-500) 500 Y) Y y := by
    rw [List.forall₂_iff_get]
    refine ⟨hY.trans hy.symm, fun i h1 h2 => ?_⟩
    have := hn i (hY ▸ h1)
    rwa [List.getD_eq_getElem _ _ h1, List.getD_eq_getElem _ _ h2] at this
  rw [← trapzR_rule hY] at hpos ⊢
  obtain ⟨s, e, -, n, -⟩ := trapzD_near hA halveFirst hk (by norm_num) (by norm_num) hf hY hx hpos
  refine ⟨s, e, ?_⟩
  have h3 := hx.length
  have := n.abs_sub hpos.le (by omega)
  push_cast at this
  exact this

/-- Non-vacuity of C117: three points, one of the data zero, summed from left to right. -/
example (halveFirst : Bool) : ∃ s, trapzD (roundedArith sequential) halveFirst ([0, 1, 3].map fin) ([1, 2, 4].map fin) = fin s ∧
    |s - 9 / 2| ≤ 2 * ((0 : ℕ) + (3 : ℕ) + 2) * ur * (9 / 2) := by
  have e : trapezoidRule 2 (fun i => [0, 1, 3].getD i (0 : ℝ)) (fun i => [1, 2, 4].getD i (0 : ℝ)) = 9 / 2 := by
    simp [trapezoidRule, Finset.sum_range_succ]
    norm_num
  have hd : ∀ n : ℤ, |n| ≤ 2 ^ 53 → IsDouble (n : ℝ) := fun n => isDouble_int
  have := C117_grid sequential_accurate halveFirst (k := 0) (by norm_num) (xs := [1, 2, 4])
    ⟨by
      intro x hx
      simp only [List.mem_cons, List.not_mem_nil, or_false] at hx
      rcases hx with rfl | rfl | rfl
      · exact_mod_cast hd 1 (by norm_num)
      · exact_mod_cast hd 2 (by norm_num)
      · exact_mod_cast hd 4 (by norm_num),
    by
      simp only [List.isChain_cons_cons]
      refine ⟨?_, ?_, List.isChain_singleton _⟩ <;> constructor <;> norm_num, by simp, by simp⟩
    (Y := [0, 1, 3]) (y := [0, 1, 3]) rfl rfl
    (by
      intro i hi
      refine ⟨Near.refl _, ?_⟩
      have hi' : i = 0 ∨ i = 1 ∨ i = 2 := by simp at hi; omega
      rcases hi' with rfl | rfl | rfl
      · left; rfl
      · right
        exact InR.mono (a := 0) (b := 0) (by constructor <;> norm_num) (by norm_num) (by norm_num)
      · right
        exact InR.mono (a := 0) (b := 2) (by constructor <;> norm_num) (by norm_num) (by norm_num))
    (by
      show 0 < trapezoidRule 2 (fun i => [0, 1, 3].getD i (0 : ℝ)) (fun i => [1, 2, 4].getD i (0 : ℝ))
      rw [e]
      norm_num)
  obtain ⟨s, h1, h2⟩ := this
  refine ⟨s, h1, ?_⟩
  have h3 : trapezoidRule (([1, 2, 4] : List ℝ).length - 1) (fun i => [0, 1, 3].getD i (0 : ℝ))
    (fun i => [1, 2, 4].getD i (0 : ℝ)) = 9 / 2 := e
  rw [h3] at h2
  exact h2

end GW
