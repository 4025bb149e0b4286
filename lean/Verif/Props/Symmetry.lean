import Verif.Props.Spin
import Verif.Props.Units
import Verif.Props.SplineValue
import Verif.Props.SplineNodes

/-!
# C102, C103: spin models under exchange of the components and under reflection
-/

noncomputable section

open Classical MeasureTheory

namespace GW

open Fl

/-! ## C102: exchange of the components -/

/-- `d'` is the dataset `d` with the labels of the two components exchanged. -/
def Spec.Exchanged {α : Type} (d d' : Dict α) : Prop :=
  d'.get? "a_1" = d.get? "a_2" ∧ d'.get? "a_2" = d.get? "a_1" ∧
    d'.get? "cos_tilt_1" = d.get? "cos_tilt_2" ∧ d'.get? "cos_tilt_2" = d.get? "cos_tilt_1"

/-- The same value is returned, or an exception is raised in both cases; it is the same exception if `columns` are all
in the dataset. -/
def Spec.SameOutcome (d : Dict Fl) (columns : List String) (r r' : Except PyErr Fl) : Prop :=
  (∀ y, r = .ok y ↔ r' = .ok y) ∧ ((∀ k ∈ columns, ∃ v, d.get? k = some v) → r = r')

theorem sameOutcome_of_eq {d : Dict Fl} {columns : List String} {r r' : Except PyErr Fl} (h : r = r') :
    Spec.SameOutcome d columns r r' := ⟨fun y => by rw [h], fun _ => h⟩

theorem sameOutcome_error {d : Dict Fl} {columns : List String} {e e' : PyErr} {k : String} (hk : k ∈ columns)
    (hd : d.get? k = none) : Spec.SameOutcome d columns (.error e) (.error e') :=
  ⟨fun y => ⟨nofun, nofun⟩, fun h => by
    obtain ⟨v, hv⟩ := h k hk
    rw [hd] at hv
    cases hv⟩

theorem betaDist_outcome (junk : Fl → Fl → Fl) (b : Backend) (x alpha beta scale : Fl) :
    betaDist junk b (pos x) (pos alpha) (pos beta) (kw scale) =
      if b ≠ .jax ∧ ¬ (0 < scale) then .error .valueError else .ok (betaDistBody junk x alpha beta scale) := by
  rw [betaDist_eq]
  simp only [pos, kw]
  simp

/-- **C102.** `independent_spin_magnitude_beta`: exchanging the labels of the components in the dataset and in the
hyper-parameters changes nothing. -/
theorem C102_independent_magnitude (junk : Fl → Fl → Fl) (b : Backend) {d d' : Dict Fl} (h : Spec.Exchanged d d')
    (alpha1 alpha2 beta1 beta2 amax1 amax2 : Fl) :
    Spec.SameOutcome d ["a_1", "a_2"]
      (independentSpinMagnitudeBeta junk b d alpha1 alpha2 beta1 beta2 amax1 amax2)
      (independentSpinMagnitudeBeta junk b d' alpha2 alpha1 beta2 beta1 amax2 amax1) := by
  obtain ⟨h1, h2, -⟩ := h
  unfold independentSpinMagnitudeBeta Dict.get
  rw [h1, h2]
  simp only [betaDist_outcome]
  cases e1 : d.get? "a_1" with
  | none =>
    cases e2 : d.get? "a_2" with
    | none => exact sameOutcome_error (k := "a_1") (by simp) e1
    | some x2 =>
      by_cases hb : b ≠ .jax ∧ ¬ (0 < amax2)
      · simp only [if_pos hb]
        exact sameOutcome_error (k := "a_1") (by simp) e1
      · simp only [if_neg hb]
        exact sameOutcome_error (k := "a_1") (by simp) e1
  | some x1 =>
    cases e2 : d.get? "a_2" with
    | none =>
      by_cases hb : b ≠ .jax ∧ ¬ (0 < amax1)
      · simp only [if_pos hb]
        exact sameOutcome_error (k := "a_2") (by simp) e2
      · simp only [if_neg hb]
        exact sameOutcome_error (k := "a_2") (by simp) e2
    | some x2 =>
      apply sameOutcome_of_eq
      by_cases hb : b ≠ .jax ∧ ¬ (0 < amax1)
      · by_cases hb' : b ≠ .jax ∧ ¬ (0 < amax2)
        · simp only [if_pos hb, if_pos hb']; rfl
        · simp only [if_pos hb, if_neg hb']; rfl
      · by_cases hb' : b ≠ .jax ∧ ¬ (0 < amax2)
        · simp only [if_neg hb, if_pos hb']; rfl
        · simp only [if_neg hb, if_neg hb']
          exact congrArg Except.ok (mul_comm _ _)

/-- **C102.** `iid_spin_magnitude_beta` does not depend on which component is called the first. -/
theorem C102_iid_magnitude (junk : Fl → Fl → Fl) (b : Backend) {d d' : Dict Fl} (h : Spec.Exchanged d d')
    (amax alpha beta : Fl) :
    Spec.SameOutcome d ["a_1", "a_2"] (iidSpinMagnitudeBeta junk b d amax alpha beta)
      (iidSpinMagnitudeBeta junk b d' amax alpha beta) :=
  C102_independent_magnitude junk b h alpha alpha beta beta amax amax

/-- **C102.** `independent_spin_orientation_gaussian_isotropic`. -/
theorem C102_independent_orientation (b : Backend) {d d' : Dict Fl} (h : Spec.Exchanged d d')
    (xi sigma1 sigma2 mu1 mu2 : Fl) :
    Spec.SameOutcome d ["cos_tilt_1", "cos_tilt_2"] (independentSpinOrientation b d xi sigma1 sigma2 mu1 mu2)
      (independentSpinOrientation b d' xi sigma2 sigma1 mu2 mu1) := by
  obtain ⟨-, -, h1, h2⟩ := h
  have ht (x mu sigma hi lo : Fl) : truncnorm b (pos x) (pos mu) (pos sigma) (pos hi) (pos lo) =
      .ok (truncnormBody x mu sigma hi lo) := by
    rw [truncnorm_eq, if_neg (by simp)]
    rfl
  unfold independentSpinOrientation Dict.get
  rw [h1, h2]
  simp only [ht]
  cases e1 : d.get? "cos_tilt_1" with
  | none =>
    cases e2 : d.get? "cos_tilt_2" with
    | none => exact sameOutcome_error (k := "cos_tilt_1") (by simp) e1
    | some x2 => exact sameOutcome_error (k := "cos_tilt_1") (by simp) e1
  | some x1 =>
    cases e2 : d.get? "cos_tilt_2" with
    | none => exact sameOutcome_error (k := "cos_tilt_2") (by simp) e2
    | some x2 =>
      refine sameOutcome_of_eq (congrArg Except.ok ?_)
      rw [mul_right_comm]

/-- **C102.** `iid_spin_orientation_gaussian_isotropic`. -/
theorem C102_iid_orientation (b : Backend) {d d' : Dict Fl} (h : Spec.Exchanged d d') (xi sigma mu : Fl) :
    Spec.SameOutcome d ["cos_tilt_1", "cos_tilt_2"] (iidSpinOrientation b d xi sigma mu)
      (iidSpinOrientation b d' xi sigma mu) :=
  C102_independent_orientation b h xi sigma sigma mu mu

/-- **C102.** `iid_spin`. -/
theorem C102_iid (junk : Fl → Fl → Fl) (b : Backend) {d d' : Dict Fl} (h : Spec.Exchanged d d')
    (xi sigma amax alpha beta : Fl) :
    Spec.SameOutcome d ["a_1", "a_2", "cos_tilt_1", "cos_tilt_2"] (iidSpin junk b d xi sigma amax alpha beta)
      (iidSpin junk b d' xi sigma amax alpha beta) := by
  obtain ⟨o1, o2⟩ := C102_iid_orientation b h xi sigma 1
  obtain ⟨m1, m2⟩ := C102_iid_magnitude junk b h amax alpha beta
  unfold iidSpin
  constructor
  · intro y
    simp only [bind_eq_ok, o1, m1]
  · intro hc
    rw [o2 fun k hk => hc k (by simp at hk ⊢; tauto), m2 fun k hk => hc k (by simp at hk ⊢; tauto)]

/-- **C102.** The spline models of spin magnitude and tilt, on first use of an instance: the same densities for the
exchanged dataset (`rows` are the samples). -/
theorem C102_spline {b : Backend} {rule : SplineRule} {S : String → List ℝ → List ℝ → ℝ → ℝ}
    (hrule : Spec.RealRule rule S) {s : SplineModel}
    (hs : s.config.parameters = ["a_1", "a_2"] ∨ s.config.parameters = ["cos_tilt_1", "cos_tilt_2"])
    {d d' : Dict (List Fl)} (h : Spec.Exchanged d d') {kwargs : Dict Fl} {rows : List (String → ℝ)} {x f : List ℝ}
    (hfirst : Spec.FirstCall s d kwargs rows x f) (hZ : Spec.splineNorm S s.config s.xs x f ≠ 0) :
    (SplineModel.call b rule s d' kwargs).1 = (SplineModel.call b rule s d kwargs).1 := by
  have key (p q : String) (hp : s.config.parameters = [p, q]) (h1 : d'.get? p = d.get? q)
      (h2 : d'.get? q = d.get? p) (hpq : p ≠ q) :
      (SplineModel.call b rule s d' kwargs).1 = (SplineModel.call b rule s d kwargs).1 := by
    have hd := hfirst.data
    have hpos := hfirst.positive.2.2
    rw [hp] at hd hpos
    let rows' := rows.map fun r => fun n => if n = p then r q else r p
    have hfirst' : Spec.FirstCall s d' kwargs rows' x f := by
      refine ⟨hfirst.fresh, hfirst.params, hfirst.noNew, hfirst.points, hfirst.nodes, ?_,
        hfirst.positive.1, hfirst.positive.2.1, ?_⟩
      · rw [hp]
        intro k hk
        simp only [List.mem_cons, List.not_mem_nil, or_false] at hk
        simp only [rows', List.map_map]
        rcases hk with rfl | rfl
        · rw [h1, hd q (by simp)]
          simp [Function.comp_def]
        · rw [h2, hd p (by simp)]
          simp [Function.comp_def, hpq.symm]
      · rw [hp]
        intro r' hr' hl v hv
        obtain ⟨r, hr, rfl⟩ := List.mem_map.1 hr'
        refine hpos r hr hl v ?_
        simp only [List.map_cons, List.map_nil, if_true, if_neg hpq.symm, List.mem_cons, List.not_mem_nil,
          or_false] at hv ⊢
        tauto
    rw [C36_value hrule hfirst hZ, C36_value hrule hfirst' hZ, hp]
    simp only [rows', List.map_map]
    congr 2
    funext r
    simp [hpq.symm, mul_comm]
  rcases hs with hs | hs
  · exact key _ _ hs h.1 h.2.1 (by decide)
  · exact key _ _ hs h.2.2.1 h.2.2.2 (by decide)

/-- A binary whose components differ, its columns in another order, and one more column. -/
example : Spec.Exchanged [("a_1", fin 0.2), ("a_2", fin 0.7), ("cos_tilt_1", fin 1), ("cos_tilt_2", fin (-1))]
    [("z", fin 3), ("cos_tilt_1", fin (-1)), ("a_1", fin 0.7), ("a_2", fin 0.2), ("cos_tilt_2", fin 1)] := by
  simp [Spec.Exchanged, Dict.get?_cons]

/-- A magnitude model with two nodes. -/
def twoNodeMagnitude : SplineModel :=
  ⟨.spinMagnitude, ⟨["a_1", "a_2"], 0, 1, 2, "linear", false, false⟩, "a", Arr.linspaceR 0 1 20, none, []⟩

/-- Non-vacuity of `C102_spline`: the model is what the constructor returns, and it is used for the first time. -/
example : SplineModel.initMagnitude 0 1 2 "linear" false = .ok twoNodeMagnitude ∧
    Spec.FirstCall twoNodeMagnitude [("a_1", [fin 0.2]), ("a_2", [fin 0.7])]
      [("a0", fin 0), ("a1", fin 1), ("fa0", fin 0), ("fa1", fin 1)]
      [fun n => if n = "a_1" then 0.2 else 0.7] [0, 1] [0, 1] := by
  refine ⟨?_, rfl, by decide, ?_, ?_, by simp, ?_, fun h => (by cases h), fun h => (by cases h),
    fun _ _ h => (by cases h)⟩
  · unfold SplineModel.initMagnitude SplineModel.init twoNodeMagnitude
    simp only [strip_a_1]
  · show ¬ "fa2" ∈ _
    simp
  · refine C36_unregularised rfl ?_ ?_
    · show [SplineModel.fkey "a" 0, SplineModel.fkey "a" 1].mapM _ = _
      rw [show SplineModel.fkey "a" 0 = "fa0" from by decide, show SplineModel.fkey "a" 1 = "fa1" from by decide]
      rfl
    · show [SplineModel.xkey "a" 0, SplineModel.xkey "a" 1].mapM _ = _
      rw [show SplineModel.xkey "a" 0 = "a0" from by decide, show SplineModel.xkey "a" 1 = "a1" from by decide]
      rfl
  · intro k hk
    simp only [twoNodeMagnitude, List.mem_cons, List.not_mem_nil, or_false] at hk
    rcases hk with rfl | rfl
    · rfl
    · simp [Dict.get?_cons]

/-! ## C103: reflection -/

theorem normalised_gauss_neg (x mu sigma lo hi : ℝ) :
    Spec.normalised (gaussShape (-mu) sigma) (-hi) (-lo) (-x) = Spec.normalised (gaussShape mu sigma) lo hi x := by
  have hshape (t : ℝ) : gaussShape (-mu) sigma (-t) = gaussShape mu sigma t := by
    unfold gaussShape
    congr 3
    ring
  have hint : ∫ t in (-hi)..(-lo), gaussShape (-mu) sigma t = ∫ t in lo..hi, gaussShape mu sigma t := by
    rw [← intervalIntegral.integral_comp_neg]
    simp only [hshape]
  unfold Spec.normalised
  rw [hint, hshape]
  congr 1
  simp only [neg_le_neg_iff, and_comm]

theorem truncnormBody_not_fin {y : Fl} (hy : ∀ r, y ≠ fin r) (mu sigma : Fl) (hi lo : ℝ) :
    truncnormBody y mu sigma (fin hi) (fin lo) = fin 0 := by
  obtain ⟨r, -, h1, h2⟩ := C04_truncnorm_total .jax y mu sigma (fin hi) (fin lo)
  rw [truncnorm_eq, if_neg (by simp)] at h1
  have h1 := Except.ok.inj h1
  simp only [pos_val] at h1
  rw [h1, h2]
  rintro ⟨h3, h4⟩
  cases y with
  | fin r => exact hy r rfl
  | pinf => exact h4
  | ninf => exact h3
  | nan => exact h4

theorem truncnorm_neg (b : Backend) (x : Fl) {mu sigma hi lo : ℝ} (h : lo < hi) (k₁ k₂ k₃ k₄ k₅ : Bool) :
    truncnorm b ⟨-x, k₁⟩ ⟨fin (-mu), k₂⟩ ⟨fin sigma, k₃⟩ ⟨fin (-lo), k₄⟩ ⟨fin (-hi), k₅⟩ =
      truncnorm b ⟨x, k₁⟩ ⟨fin mu, k₂⟩ ⟨fin sigma, k₃⟩ ⟨fin hi, k₄⟩ ⟨fin lo, k₅⟩ := by
  rw [truncnorm_eq, truncnorm_eq]
  dsimp only
  congr 2
  by_cases hs : 0 < sigma
  · cases x with
    | fin r =>
      rw [fin_neg, truncnormBody_eq hs (neg_lt_neg h), truncnormBody_eq hs h, normalised_gauss_neg]
    | _ => rw [truncnormBody_not_fin (by intro r; exact nofun), truncnormBody_not_fin (by intro r; exact nofun)]
  · rw [truncnormBody_nonpos (not_lt.1 hs), truncnormBody_nonpos (not_lt.1 hs)]

/-- `d'` is the dataset `d` with all spins reflected: projections on the orbital angular momentum change sign. -/
def Spec.Reflected (d d' : Dict Fl) : Prop :=
  d'.get? "chi_eff" = (d.get? "chi_eff").map (- ·) ∧ d'.get? "chi_p" = d.get? "chi_p" ∧
    d'.get? "cos_tilt_1" = (d.get? "cos_tilt_1").map (- ·) ∧
    d'.get? "cos_tilt_2" = (d.get? "cos_tilt_2").map (- ·)

/-- Full statement of C103: for the models in which the sign of a spin projection matters, reflecting the data and the
hyper-parameters that change sign changes nothing. -/
def C103_statement : Prop :=
  ∀ (b : Backend) (d d' : Dict Fl), Spec.Reflected d d' →
    (∀ mu sigma : ℝ, gaussianChiEff b d' (fin (-mu)) (fin sigma) = gaussianChiEff b d (fin mu) (fin sigma)) ∧
    (∀ (xi : Fl) (sigma1 sigma2 mu1 mu2 : ℝ),
      independentSpinOrientation b d' xi (fin sigma1) (fin sigma2) (fin (-mu1)) (fin (-mu2)) =
        independentSpinOrientation b d xi (fin sigma1) (fin sigma2) (fin mu1) (fin mu2)) ∧
    (∀ (me mp se sp rho : ℝ), 0 < se → 0 < sp → |rho| < 1 →
      GaussianChiEffChiP.init.call d' (fin (-me)) (fin se) (fin mp) (fin sp) (fin (-rho)) =
        GaussianChiEffChiP.init.call d (fin me) (fin se) (fin mp) (fin sp) (fin rho))

/-- **C103 fails**: with correlation 1/2 the density of `(chi_eff, chi_p)` is not the one of `(-chi_eff, chi_p)` with
correlation -1/2, although the means are 0. -/
theorem C103_fails : ¬ C103_statement := by
  intro h
  have hr : |(1 / 2 : ℝ)| < 1 := by rw [abs_of_pos] <;> norm_num
  have hr' : |(-(1 / 2) : ℝ)| < 1 := by rw [abs_neg]; exact hr
  have key (e : ℝ) := (h .numpy (chiData (fin e) (fin 0) []) (chiData (fin (-e)) (fin 0) [])
    (by simp [Spec.Reflected, chiData, Dict.get?_cons])).2.2 0 0 1 1 (1 / 2) one_pos one_pos hr
  have h0 := key 0
  have h1 := key 1
  rw [chi_call [] _ _ _ _ one_pos one_pos hr, chi_call [] _ _ _ _ one_pos one_pos hr', if_pos (by simp),
    if_pos (by simp)] at h0 h1
  have hN := chiNorm_pos 0 0 1 1 (1 / 2)
  have hN' := chiNorm_pos (-0) 0 1 1 (-(1 / 2))
  have e0 : Spec.gauss2d 0 0 0 0 1 1 (1 / 2) = 1 := by
    rw [Spec.gauss2d, covMatrix_quadratic one_pos one_pos hr]; norm_num
  have e1 : Spec.gauss2d 1 0 0 0 1 1 (1 / 2) = Real.exp (-(2 / 3)) := by
    rw [Spec.gauss2d, covMatrix_quadratic one_pos one_pos hr]; congr 1; norm_num
  have f0 : Spec.gauss2d (-0) 0 (-0) 0 1 1 (-(1 / 2)) = 1 := by
    rw [Spec.gauss2d, covMatrix_quadratic one_pos one_pos hr']; norm_num
  have f1 : Spec.gauss2d (-1) 0 (-0) 0 1 1 (-(1 / 2)) = Real.exp (-(2 / 3)) := by
    rw [Spec.gauss2d, covMatrix_quadratic one_pos one_pos hr']; congr 1; norm_num
  simp only [chiShape, e0, e1, f0, f1, Real.one_rpow] at h0 h1
  have h0 := fin_inj.1 (Except.ok.inj h0)
  have h1 := fin_inj.1 (Except.ok.inj h1)
  rw [div_eq_div_iff hN'.ne' hN.ne', one_mul, one_mul] at h0
  rw [h0, div_left_inj' hN'.ne', ← Real.exp_mul, ← Real.exp_mul] at h1
  have := Real.exp_injective h1
  norm_num at this

/-- **C103, what holds.** `gaussian_chi_eff`, for all floats as data. -/
theorem C103_chi_eff_partial (b : Backend) {d d' : Dict Fl} (h : Spec.Reflected d d') (mu sigma : ℝ) :
    gaussianChiEff b d' (fin (-mu)) (fin sigma) = gaussianChiEff b d (fin mu) (fin sigma) := by
  unfold gaussianChiEff Dict.get
  rw [h.1]
  cases d.get? "chi_eff" with
  | none => rfl
  | some x =>
    have := truncnorm_neg b x (mu := mu) (sigma := sigma) (hi := 1) (lo := -1) (by norm_num) false true true true true
    rw [neg_neg] at this
    exact this

/-- **C103, what holds.** The orientation models. -/
theorem C103_orientation_partial (b : Backend) {d d' : Dict Fl} (h : Spec.Reflected d d') (xi : Fl)
    (sigma1 sigma2 mu1 mu2 : ℝ) :
    independentSpinOrientation b d' xi (fin sigma1) (fin sigma2) (fin (-mu1)) (fin (-mu2)) =
        independentSpinOrientation b d xi (fin sigma1) (fin sigma2) (fin mu1) (fin mu2) ∧
      iidSpinOrientation b d' xi (fin sigma1) (fin (-mu1)) = iidSpinOrientation b d xi (fin sigma1) (fin mu1) := by
  have key (s1 s2 m1 m2 : ℝ) : independentSpinOrientation b d' xi (fin s1) (fin s2) (fin (-m1)) (fin (-m2)) =
      independentSpinOrientation b d xi (fin s1) (fin s2) (fin m1) (fin m2) := by
    have ht (x : Fl) (mu sigma : ℝ) : truncnorm b (pos (-x)) (pos (fin (-mu))) (pos (fin sigma)) (pos 1) (pos (-1)) =
        truncnorm b (pos x) (pos (fin mu)) (pos (fin sigma)) (pos 1) (pos (-1)) := by
      have := truncnorm_neg b x (mu := mu) (sigma := sigma) (hi := 1) (lo := -1) (by norm_num) false false false
        false false
      rw [neg_neg] at this
      exact this
    unfold independentSpinOrientation Dict.get
    rw [h.2.2.1, h.2.2.2]
    cases d.get? "cos_tilt_1" with
    | none => rfl
    | some x1 =>
      cases d.get? "cos_tilt_2" with
      | none =>
        show (truncnorm b (pos (-x1)) _ _ _ _ >>= _) = (truncnorm b (pos x1) _ _ _ _ >>= _)
        rw [ht]
        rfl
      | some x2 =>
        show (truncnorm b (pos (-x1)) _ _ _ _ >>= fun p1 => truncnorm b (pos (-x2)) _ _ _ _ >>= _) =
          (truncnorm b (pos x1) _ _ _ _ >>= fun p1 => truncnorm b (pos x2) _ _ _ _ >>= _)
        rw [ht, ht]
  exact ⟨key _ _ _ _, key _ _ _ _⟩

theorem trapezoidRule_reverse (n : ℕ) (y x : ℕ → ℝ) :
    Spec.trapezoidRule n (fun i => y (n - i)) (fun i => -x (n - i)) = Spec.trapezoidRule n y x := by
  unfold Spec.trapezoidRule
  rw [← Finset.sum_range_reflect]
  refine Finset.sum_congr rfl fun i hi => ?_
  have hi := Finset.mem_range.1 hi
  have e1 : n - (n - 1 - i) = i + 1 := by omega
  have e2 : n - (n - 1 - i + 1) = i := by omega
  beta_reduce
  rw [e1, e2]
  ring

theorem trapzR_linspace_neg (f : ℝ → ℝ) (a : ℝ) {n : ℕ} (hn : 2 ≤ n) :
    Arr.trapzR ((Arr.linspaceR (-a) a n).map fun t => f (-t)) (Arr.linspaceR (-a) a n) =
      Arr.trapzR ((Arr.linspaceR (-a) a n).map f) (Arr.linspaceR (-a) a n) := by
  rw [trapzR_linspace _ _ _ (by omega), trapzR_linspace _ _ _ (by omega), ← trapezoidRule_reverse]
  have hn1 : ((n : ℝ) - 1) ≠ 0 := by
    have : (2 : ℝ) ≤ n := by exact_mod_cast hn
    linarith
  have key (i : ℕ) (hi : i ≤ n - 1) :
      -(-a + (a - -a) * ((n - 1 - i : ℕ) : ℝ) / ((n : ℝ) - 1)) = -a + (a - -a) * (i : ℝ) / ((n : ℝ) - 1) := by
    rw [Nat.cast_sub hi, Nat.cast_sub (by omega), Nat.cast_one]
    field_simp
    ring
  refine trapezoidRule_congr (fun i hi => ?_) fun i hi => ?_
  · rw [key i hi]
  · rw [key i hi]

theorem chiShape_neg (me mp : ℝ) {se sp : ℝ} (hse : 0 < se) (hsp : 0 < sp) (e p : ℝ) :
    chiShape (-me) mp se sp 0 (-e) p = chiShape me mp se sp 0 e p := by
  unfold chiShape Spec.gauss2d
  rw [covMatrix_quadratic hse hsp (by simp), covMatrix_quadratic hse hsp (by simp)]
  congr 5
  ring

/-- **C103, what holds.** `GaussianChiEffChiP` without correlation. -/
theorem C103_uncorrelated_partial (rest rest' : Dict Fl) (e p me mp : ℝ) {se sp : ℝ} (hse : 0 < se) (hsp : 0 < sp) :
    GaussianChiEffChiP.init.call (chiData (fin (-e)) (fin p) rest') (fin (-me)) (fin se) (fin mp) (fin sp) (fin 0) =
      GaussianChiEffChiP.init.call (chiData (fin e) (fin p) rest) (fin me) (fin se) (fin mp) (fin sp) (fin 0) := by
  rw [chi_call _ _ _ _ _ hse hsp (by simp), chi_call _ _ _ _ _ hse hsp (by simp), abs_neg, chiShape_neg _ _ hse hsp]
  have hnorm : chiNorm (-me) mp se sp 0 = chiNorm me mp se sp 0 := by
    have inner (p : ℝ) := trapzR_linspace_neg (fun e => chiShape (-me) mp se sp 0 e p) 1 (n := 500) (by norm_num)
    simp only [chiShape_neg _ _ hse hsp] at inner
    unfold chiNorm
    simp only [inner]
  rw [hnorm]

/-- **C103, what holds.** With a correlation, the two results are the normalised powers `1 + rho` and `1 - rho` of one
Gaussian. -/
theorem C103_correlated_partial (rest rest' : Dict Fl) (me mp : ℝ) {se sp rho : ℝ} (hse : 0 < se) (hsp : 0 < sp)
    (hr : |rho| < 1) :
    ∃ c c' : ℝ, 0 < c ∧ 0 < c' ∧ ∀ e p : ℝ, |e| ≤ 1 → 0 ≤ p → p ≤ 1 →
      GaussianChiEffChiP.init.call (chiData (fin e) (fin p) rest) (fin me) (fin se) (fin mp) (fin sp) (fin rho) =
        .ok (fin (c * Spec.gauss2d e p me mp se sp rho ^ (1 + rho))) ∧
      GaussianChiEffChiP.init.call (chiData (fin (-e)) (fin p) rest') (fin (-me)) (fin se) (fin mp) (fin sp)
          (fin (-rho)) =
        .ok (fin (c' * Spec.gauss2d e p me mp se sp rho ^ (1 - rho))) := by
  have hr' : |-rho| < 1 := by rwa [abs_neg]
  refine ⟨1 / chiNorm me mp se sp rho, 1 / chiNorm (-me) mp se sp (-rho), one_div_pos.2 (chiNorm_pos _ _ _ _ _),
    one_div_pos.2 (chiNorm_pos _ _ _ _ _), fun e p he hp hp' => ⟨?_, ?_⟩⟩
  · rw [chi_call _ _ _ _ _ hse hsp hr, if_pos ⟨he, hp, hp'⟩, chiShape]
    congr 2
    ring
  · rw [chi_call _ _ _ _ _ hse hsp hr', if_pos ⟨by rwa [abs_neg], hp, hp'⟩, chiShape]
    have hg : Spec.gauss2d (-e) p (-me) mp se sp (-rho) = Spec.gauss2d e p me mp se sp rho := by
      unfold Spec.gauss2d
      rw [covMatrix_quadratic hse hsp hr', covMatrix_quadratic hse hsp hr]
      congr 3
      congr 1 <;> ring
    rw [hg]
    congr 2
    rw [← sub_eq_add_neg]
    ring

/-- Anti-aligned spins as the reflection of aligned ones. -/
example : Spec.Reflected [("chi_eff", fin 0.3), ("cos_tilt_1", fin 0.9), ("cos_tilt_2", fin (-1)), ("chi_p", fin 0.2)]
    [("chi_eff", fin (-0.3)), ("cos_tilt_1", fin (-0.9)), ("cos_tilt_2", fin 1), ("chi_p", fin 0.2)] := by
  simp [Spec.Reflected, Dict.get?_cons]

end GW
