import Verif.Model.Autodiff
import Verif.Lemmas.Gauss
import Mathlib.Analysis.SpecialFunctions.Pow.Deriv
import Mathlib.Analysis.SpecialFunctions.Gamma.Deriv
import Mathlib.MeasureTheory.Integral.IntervalIntegral.FundThmCalculus

/-!
# Soundness of the backward pass
-/

noncomputable section

open Classical Set Filter Topology

namespace GW

open Fl

namespace Ex

/-! ### Values -/

section
variable (env : String → Fl)
@[simp] theorem eval_const (c : Fl) : eval env (const c) = c := rfl
@[simp] theorem eval_arg (k : String) : eval env (arg k) = env k := rfl
@[simp] theorem eval_add (x y : Ex) : eval env (x + y) = eval env x + eval env y := rfl
@[simp] theorem eval_sub (x y : Ex) : eval env (x - y) = eval env x - eval env y := rfl
@[simp] theorem eval_mul (x y : Ex) : eval env (x * y) = eval env x * eval env y := rfl
@[simp] theorem eval_div (x y : Ex) : eval env (x / y) = eval env x / eval env y := rfl
@[simp] theorem eval_neg (x : Ex) : eval env (-x) = -eval env x := rfl
@[simp] theorem eval_un (o : UnOp) (x : Ex) : eval env (un o x) = o.val (eval env x) := rfl
@[simp] theorem eval_bin (o : BinOp) (x y : Ex) :
    eval env (bin o x y) = o.val (eval env x) (eval env y) := rfl
@[simp] theorem eval_mask (c : CmpOp) (x y : Ex) :
    eval env (mask c x y) = ind (c.holds (eval env x) (eval env y)) := rfl
@[simp] theorem eval_sel (c : CmpOp) (x y t e : Ex) : eval env (sel c x y t e) =
    if c.holds (eval env x) (eval env y) then eval env t else eval env e := rfl
end

section
variable (env : String → Fl) (v : String)
theorem back_const (c ct : Fl) : back env v (const c) ct = 0 := rfl
theorem back_arg (k : String) (ct : Fl) : back env v (arg k) ct = if k = v then ct else 0 := rfl
theorem back_add (x y : Ex) (ct : Fl) : back env v (x + y) ct = back env v x ct + back env v y ct := rfl
theorem back_sub (x y : Ex) (ct : Fl) :
    back env v (x - y) ct = back env v x ct + back env v y (-ct) := rfl
theorem back_mul (x y : Ex) (ct : Fl) : back env v (x * y) ct =
    back env v x (ct * eval env y) + back env v y (ct * eval env x) := rfl
theorem back_div (x y : Ex) (ct : Fl) : back env v (x / y) ct =
    back env v x (ct / eval env y) +
      back env v y (-ct * eval env x * (1 / (eval env y * eval env y))) := rfl
theorem back_neg (x : Ex) (ct : Fl) : back env v (-x) ct = back env v x (-ct) := rfl
theorem back_un (o : UnOp) (x : Ex) (ct : Fl) :
    back env v (un o x) ct = back env v x (o.back (eval env x) ct) := rfl
theorem back_bin (o : BinOp) (x y : Ex) (ct : Fl) : back env v (bin o x y) ct =
    back env v x (o.backL (eval env x) (eval env y) ct) +
      back env v y (o.backR (eval env x) (eval env y) ct) := rfl
theorem back_mask (c : CmpOp) (x y : Ex) (ct : Fl) : back env v (mask c x y) ct = 0 := rfl
theorem back_sel_pos {c : CmpOp} {x y t e : Ex} (h : c.holds (eval env x) (eval env y)) (ct : Fl) :
    back env v (sel c x y t e) ct = back env v t ct + back env v e 0 := by
  show back env v t (if _ then _ else _) + back env v e (if _ then _ else _) = _
  rw [if_pos h, if_pos h]
theorem back_sel_neg {c : CmpOp} {x y t e : Ex} (h : ¬ c.holds (eval env x) (eval env y)) (ct : Fl) :
    back env v (sel c x y t e) ct = back env v t 0 + back env v e ct := by
  show back env v t (if _ then _ else _) + back env v e (if _ then _ else _) = _
  rw [if_neg h, if_neg h]
end

/-! ### Where the rules are right -/

end Ex

/-- The operation is differentiable at `a`. -/
def UnOp.Good : UnOp → ℝ → Prop
  | log, a => 0 < a
  | log1p, a => -1 < a
  | _, _ => True

/-- The operation is differentiable at `(a, b)`. -/
def BinOp.Good : BinOp → ℝ → ℝ → Prop
  | div, _, b => b ≠ 0
  | pow, a, _ => 0 < a
  | maximum, a, b => a ≠ b
  | minimum, a, b => a ≠ b
  | betaln _ _ _, a, b => 0 < a ∧ 0 < b
  | _, _, _ => True

namespace Ex

/-- Real hyper-parameters. -/
def envOf (θ : String → ℝ) : String → Fl := fun k => fin (θ k)

/-- The hyper-parameters with `v` changed to `t`. -/
def moved (θ : String → ℝ) (v : String) (t : ℝ) : String → Fl := envOf (Function.update θ v t)

theorem moved_self (θ : String → ℝ) (v : String) : moved θ v (θ v) = envOf θ := by
  unfold moved
  rw [Function.update_eq_self]

/-- The result does not depend on `v` nearby, and nothing comes back. -/
def Inert (θ : String → ℝ) (v : String) (e : Ex) : Prop :=
  (∃ c, ∀ᶠ t in 𝓝 (θ v), eval (moved θ v t) e = fin c) ∧ ∀ ct, back (envOf θ) v e ct = 0

/-- The computation is differentiable in `v` step by step: every intermediate value is a number,
every operation is differentiable at its operands, comparisons do not change nearby, unless both
outcomes give the same, and nothing comes back from branches that are not chosen. Operations whose
result does not depend on `v` and from which nothing comes back may have any operand. -/
def Smooth (θ : String → ℝ) (v : String) : Ex → Prop
  | const c => c.isFinite
  | arg _ => True
  | un o x => (Smooth θ v x ∧ ∃ a, eval (envOf θ) x = fin a ∧ o.Good a) ∨ Inert θ v (un o x)
  | bin o x y => Smooth θ v x ∧ Smooth θ v y ∧
      ∃ a b, eval (envOf θ) x = fin a ∧ eval (envOf θ) y = fin b ∧ o.Good a b
  | mask c x y => ∀ᶠ t in 𝓝 (θ v), (c.holds (eval (moved θ v t) x) (eval (moved θ v t) y) ↔
      c.holds (eval (envOf θ) x) (eval (envOf θ) y))
  | sel c x y t e =>
      (c.holds (eval (envOf θ) x) (eval (envOf θ) y) ∧ Smooth θ v t ∧ back (envOf θ) v e 0 = 0 ∧
        ∀ᶠ s in 𝓝 (θ v), ¬ c.holds (eval (moved θ v s) x) (eval (moved θ v s) y) →
          eval (moved θ v s) t = eval (moved θ v s) e) ∨
      (¬ c.holds (eval (envOf θ) x) (eval (envOf θ) y) ∧ Smooth θ v e ∧ back (envOf θ) v t 0 = 0 ∧
        ∀ᶠ s in 𝓝 (θ v), c.holds (eval (moved θ v s) x) (eval (moved θ v s) y) →
          eval (moved θ v s) t = eval (moved θ v s) e)

/-- What we want to know of a computation: near `θ v` it returns numbers, with derivative `d`, and
the backward pass multiplies cotangents with `d`. -/
def Exact (θ : String → ℝ) (v : String) (e : Ex) : Prop :=
  ∃ (f : ℝ → ℝ) (d : ℝ), (∀ᶠ t in 𝓝 (θ v), eval (moved θ v t) e = fin (f t)) ∧
    HasDerivAt f d (θ v) ∧ ∀ ct : ℝ, back (envOf θ) v e (fin ct) = fin (ct * d)

theorem hasDerivAt_stdNormalCDF (x : ℝ) :
    HasDerivAt stdNormalCDF (Real.exp (-(x ^ 2 / 2)) / Real.sqrt (2 * Real.pi)) x := by
  have hc : Continuous (ProbabilityTheory.gaussianPDFReal 0 1) := by
    unfold ProbabilityTheory.gaussianPDFReal
    fun_prop
  have h : ∀ y, stdNormalCDF y = stdNormalCDF 0 + ∫ t in (0 : ℝ)..y, ProbabilityTheory.gaussianPDFReal 0 1 t := by
    intro y
    rcases le_total 0 y with hy | hy
    · have := stdNormalCDF_sub hy
      linarith
    · have := stdNormalCDF_sub hy
      rw [intervalIntegral.integral_symm]
      linarith
  have h2 := intervalIntegral.integral_hasDerivAt_right (a := 0) (b := x)
    (hc.intervalIntegrable _ _) (hc.stronglyMeasurableAtFilter _ _) hc.continuousAt
  have h3 := h2.const_add (stdNormalCDF 0)
  rw [show stdNormalCDF = _ from funext h]
  have e : Real.exp (-(x ^ 2 / 2)) / Real.sqrt (2 * Real.pi) =
      ProbabilityTheory.gaussianPDFReal 0 1 x := by
    rw [gaussianPDFReal_std, div_eq_inv_mul, neg_div]
  rw [e]
  exact h3

theorem hasDerivAt_expit (x : ℝ) : HasDerivAt (fun x => 1 / (1 + Real.exp (-x)))
    (1 / (1 + Real.exp (-x)) * (1 - 1 / (1 + Real.exp (-x)))) x := by
  have h : HasDerivAt (fun x => 1 + Real.exp (-x)) (Real.exp (-x) * -1) x :=
    ((hasDerivAt_id x).neg.exp).const_add 1
  have hp : 1 + Real.exp (-x) ≠ 0 := by positivity
  refine ((hasDerivAt_const x (1 : ℝ)).div h hp).congr_deriv ?_
  field_simp
  ring

/-- The logarithm of the Gamma function. -/
def lgammaR (x : ℝ) : ℝ := Real.log (Real.Gamma x)

theorem hasDerivAt_lgammaR {x : ℝ} (hx : 0 < x) : HasDerivAt lgammaR (deriv lgammaR x) x := by
  apply DifferentiableAt.hasDerivAt
  refine DifferentiableAt.log (Real.differentiableAt_Gamma fun m => ?_) (Real.Gamma_pos_of_pos hx).ne'
  have : (0 : ℝ) ≤ m := Nat.cast_nonneg m
  linarith

theorem log_beta {a b : ℝ} (ha : 0 < a) (hb : 0 < b) :
    Real.log (ProbabilityTheory.beta a b) = lgammaR a + lgammaR b - lgammaR (a + b) := by
  have h1 := (Real.Gamma_pos_of_pos ha).ne'
  have h2 := (Real.Gamma_pos_of_pos hb).ne'
  unfold ProbabilityTheory.beta lgammaR
  rw [Real.log_div (mul_ne_zero h1 h2) (Real.Gamma_pos_of_pos (by linarith)).ne', Real.log_mul h1 h2]

/-- The logarithm of the Beta function along a curve. -/
theorem hasDerivAt_log_beta {f g : ℝ → ℝ} {t d1 d2 : ℝ} (ha : 0 < f t) (hb : 0 < g t)
    (hf : HasDerivAt f d1 t) (hg : HasDerivAt g d2 t) :
    HasDerivAt (fun s => Real.log (ProbabilityTheory.beta (f s) (g s)))
      (deriv lgammaR (f t) * d1 + deriv lgammaR (g t) * d2 - deriv lgammaR (f t + g t) * (d1 + d2))
      t := by
  have h1 := (hasDerivAt_lgammaR ha).comp t hf
  have h2 := (hasDerivAt_lgammaR hb).comp t hg
  have h3 := HasDerivAt.comp (h₂ := lgammaR) (h := fun s => f s + g s) t
    (hasDerivAt_lgammaR (x := f t + g t) (by linarith)) (hf.add hg)
  refine ((h1.add h2).sub h3).congr_of_eventuallyEq ?_
  filter_upwards [hf.continuousAt.eventually (lt_mem_nhds ha),
    hg.continuousAt.eventually (lt_mem_nhds hb)] with s h1 h2
  exact log_beta h1 h2

theorem deriv_log_beta {a b : ℝ} (ha : 0 < a) (hb : 0 < b) :
    deriv (fun t => Real.log (ProbabilityTheory.beta t b)) a =
      deriv lgammaR a - deriv lgammaR (a + b) := by
  have := (hasDerivAt_log_beta (f := fun t => t) (g := fun _ => b) ha hb (hasDerivAt_id a)
    (hasDerivAt_const a b)).deriv
  rw [this]
  ring

/-! ### Operations -/

/-- The rule of a unary operation is right where it is differentiable. -/
theorem unOp_exact (o : UnOp) {a : ℝ} (h : o.Good a) : ∃ (F : ℝ → ℝ) (d : ℝ),
    (∀ᶠ x in 𝓝 a, o.val (fin x) = fin (F x)) ∧ HasDerivAt F d a ∧
      ∀ ct : ℝ, o.back (fin a) (fin ct) = fin (ct * d) := by
  cases o with
  | neg => exact ⟨fun x => -x, -1, .of_forall fun x => rfl, hasDerivAt_neg a, fun ct => by
      simp [UnOp.back]⟩
  | log =>
    refine ⟨Real.log, a⁻¹, ?_, Real.hasDerivAt_log (ne_of_gt h), fun ct => ?_⟩
    · filter_upwards [lt_mem_nhds h] with x hx
      exact log_fin hx
    · simp only [UnOp.back, fin_div (ne_of_gt h), div_eq_mul_inv]
  | exp => exact ⟨Real.exp, Real.exp a, .of_forall fun x => rfl, Real.hasDerivAt_exp a, fun ct => rfl⟩
  | log1p =>
    have h' : 0 < 1 + a := by have : -1 < a := h; linarith
    refine ⟨fun x => Real.log (1 + x), (1 + a)⁻¹, ?_, ?_, fun ct => ?_⟩
    · filter_upwards [lt_mem_nhds h] with x hx
      exact log_fin (by linarith)
    · have := ((hasDerivAt_id a).const_add 1).log h'.ne'
      simpa [one_div] using this
    · simp only [UnOp.back, one_eq, fin_add]
      rw [fin_div (by rw [add_comm]; exact h'.ne'), div_eq_mul_inv, add_comm]
  | expit => exact ⟨_, _, .of_forall fun x => rfl, hasDerivAt_expit a, fun ct => by
      simp only [UnOp.back, expit, one_eq, fin_mul, fin_sub, mul_assoc]⟩
  | ndtr => exact ⟨_, _, .of_forall fun x => rfl, hasDerivAt_stdNormalCDF a, fun ct => rfl⟩
  | logNdtr =>
    have hp := stdNormalCDF_pos a
    exact ⟨fun x => Real.log (stdNormalCDF x), _, .of_forall fun x => log_fin (stdNormalCDF_pos x),
      (hasDerivAt_stdNormalCDF a).log hp.ne', fun ct => by
        simp only [UnOp.back, normalPdf, ndtr]
        rw [fin_div hp.ne']
        rfl⟩
  | square => exact ⟨fun x => x ^ 2, 2 * a, .of_forall fun x => by simp [UnOp.val], by
      simpa using hasDerivAt_pow 2 a, fun ct => by simp [UnOp.back]⟩
  | nanToNum => exact ⟨fun x => x, 1, .of_forall fun x => rfl, hasDerivAt_id a, fun ct => by
      simp [UnOp.back]⟩
  | nanToNumInf => exact ⟨fun x => x, 1, .of_forall fun x => rfl, hasDerivAt_id a, fun ct => by
      simp [UnOp.back]⟩

/-- The rules of a binary operation are right where it is differentiable, as one chain rule. -/
theorem binOp_exact (o : BinOp) {f g : ℝ → ℝ} {t d1 d2 : ℝ} (h : o.Good (f t) (g t))
    (hf : HasDerivAt f d1 t) (hg : HasDerivAt g d2 t) : ∃ (F : ℝ → ℝ) (p q : ℝ),
    (∀ᶠ s in 𝓝 t, o.val (fin (f s)) (fin (g s)) = fin (F s)) ∧
      HasDerivAt F (p * d1 + q * d2) t ∧
      ∀ ct : ℝ, o.backL (fin (f t)) (fin (g t)) (fin ct) = fin (ct * p) ∧
        o.backR (fin (f t)) (fin (g t)) (fin ct) = fin (ct * q) := by
  cases o with
  | add => exact ⟨_, 1, 1, .of_forall fun s => rfl, (hf.add hg).congr_deriv (by ring), fun ct => by
      simp [BinOp.backL, BinOp.backR]⟩
  | sub => exact ⟨_, 1, -1, .of_forall fun s => fin_sub _ _, (hf.sub hg).congr_deriv (by ring), fun ct => by simp [BinOp.backL, BinOp.backR]⟩
  | mul => exact ⟨_, g t, f t, .of_forall fun s => rfl, (hf.mul hg).congr_deriv (by ring), fun ct => ⟨rfl, rfl⟩⟩
  | div =>
    have h0 : g t ≠ 0 := h
    refine ⟨fun s => f s / g s, 1 / g t, -(f t) / (g t * g t), ?_, ?_, fun ct => ?_⟩
    · filter_upwards [hg.continuousAt.eventually_ne h0] with s hs
      exact fin_div hs
    · refine (hf.div hg h0).congr_deriv ?_
      field_simp
      ring
    · simp only [BinOp.backL, BinOp.backR, fin_neg, fin_mul, one_eq]
      rw [fin_div h0, fin_div (mul_ne_zero h0 h0), fin_mul]
      constructor
      · congr 1; ring
      · congr 1; field_simp
  | pow =>
    have h0 : 0 < f t := h
    refine ⟨fun s => f s ^ g s, g t * f t ^ (g t - 1), Real.log (f t) * f t ^ g t, ?_, ?_, fun ct => ?_⟩
    · filter_upwards [hf.continuousAt.eventually (lt_mem_nhds h0)] with s hs
      exact pow_fin_pos hs
    · exact (hf.rpow hg h0).congr_deriv (by ring)
    · simp only [BinOp.backL, BinOp.backR, one_eq, fin_sub, pow_fin_pos h0, fin_mul, zero_eq,
        eqf_fin, if_neg h0.ne', log_fin h0, and_self]
  | maximum =>
    have hne : f t ≠ g t := h
    rcases lt_or_gt_of_ne hne with hlt | hlt
    · refine ⟨g, 0, 1, ?_, by simpa using hg, fun ct => ?_⟩
      · filter_upwards [hf.continuousAt.eventually_lt hg.continuousAt hlt] with s hs
        simp [BinOp.val, flMax, not_le.2 hs]
      · simp [BinOp.backL, BinOp.backR, flMax, not_le.2 hlt, balancedEq, hne, fin_div]
    · refine ⟨f, 1, 0, ?_, by simpa using hf, fun ct => ?_⟩
      · filter_upwards [hg.continuousAt.eventually_lt hf.continuousAt hlt] with s hs
        simp [BinOp.val, flMax, hs.le]
      · simp [BinOp.backL, BinOp.backR, flMax, hlt.le, balancedEq, hne.symm, fin_div]
  | minimum =>
    have hne : f t ≠ g t := h
    rcases lt_or_gt_of_ne hne with hlt | hlt
    · refine ⟨f, 1, 0, ?_, by simpa using hf, fun ct => ?_⟩
      · filter_upwards [hf.continuousAt.eventually_lt hg.continuousAt hlt] with s hs
        simp [BinOp.val, flMin, hs.le]
      · simp [BinOp.backL, BinOp.backR, flMin, hlt.le, balancedEq, hne.symm, fin_div]
    · refine ⟨g, 0, 1, ?_, by simpa using hg, fun ct => ?_⟩
      · filter_upwards [hg.continuousAt.eventually_lt hf.continuousAt hlt] with s hs
        simp [BinOp.val, flMin, not_le.2 hs]
      · simp [BinOp.backL, BinOp.backR, flMin, not_le.2 hlt, balancedEq, hne, fin_div]
  | betaln junk junkL junkR =>
    obtain ⟨ha, hb⟩ : 0 < f t ∧ 0 < g t := h
    refine ⟨fun s => Real.log (ProbabilityTheory.beta (f s) (g s)),
      deriv (fun u => Real.log (ProbabilityTheory.beta u (g t))) (f t),
      deriv (fun u => Real.log (ProbabilityTheory.beta u (f t))) (g t), ?_, ?_, fun ct => ⟨?_, ?_⟩⟩
    rotate_left 2
    · simp only [BinOp.backL, betalnDeriv]
      rw [if_pos ⟨ha, hb⟩]
      rfl
    · simp only [BinOp.backR, betalnDeriv]
      rw [if_pos ⟨hb, ha⟩]
      rfl
    · filter_upwards [hf.continuousAt.eventually (lt_mem_nhds ha),
        hg.continuousAt.eventually (lt_mem_nhds hb)] with s h1 h2
      simp only [BinOp.val, betaln]
      rw [if_pos ⟨h1, h2⟩]
    · refine (hasDerivAt_log_beta ha hb hf hg).congr_deriv ?_
      rw [deriv_log_beta ha hb, deriv_log_beta hb ha, add_comm (g t)]
      ring

/-! ### The backward pass -/

/-- **Soundness.** Where a computation is differentiable step by step, the backward pass returns its
derivative. -/
theorem exact_of_smooth {θ : String → ℝ} {v : String} {e : Ex} (h : Smooth θ v e) : Exact θ v e := by
  induction e with
  | const c =>
    obtain ⟨r, rfl⟩ := isFinite_iff.1 h
    exact ⟨fun _ => r, 0, .of_forall fun t => rfl, hasDerivAt_const _ _, fun ct => by simp [back]⟩
  | arg k =>
    by_cases hk : k = v
    · subst hk
      exact ⟨fun t => t, 1, .of_forall fun t => by simp [moved, envOf], hasDerivAt_id _, fun ct => by
        simp [back]⟩
    · exact ⟨fun _ => θ k, 0, .of_forall fun t => by simp [moved, envOf, hk], hasDerivAt_const _ _,
        fun ct => by simp [back, hk]⟩
  | un o x ih =>
    obtain ⟨hx, a, ha, hg⟩ | ⟨⟨c, hc⟩, hb⟩ := h
    swap
    · exact ⟨fun _ => c, 0, hc, hasDerivAt_const _ _, fun ct => by rw [hb, mul_zero]; rfl⟩
    obtain ⟨f, d, h1, h2, h3⟩ := ih hx
    have hfa : f (θ v) = a := by
      have := h1.self_of_nhds
      rw [moved_self, ha] at this
      exact (fin_inj.1 this).symm
    obtain ⟨F, D, g1, g2, g3⟩ := unOp_exact o hg
    refine ⟨fun t => F (f t), D * d, ?_, ?_, fun ct => ?_⟩
    · rw [← hfa] at g1
      filter_upwards [h1, h2.continuousAt.eventually g1] with t e1 e2
      rw [eval_un, e1, e2]
    · rw [← hfa] at g2
      exact g2.comp (θ v) h2
    · show back (envOf θ) v x (o.back (eval (envOf θ) x) (fin ct)) = _
      rw [ha, g3, h3, mul_assoc]
  | bin o x y ihx ihy =>
    obtain ⟨hx, hy, a, b, ha, hb, hg⟩ := h
    obtain ⟨f, d1, h1, h2, h3⟩ := ihx hx
    obtain ⟨g, d2, k1, k2, k3⟩ := ihy hy
    have hfa : f (θ v) = a := by
      have := h1.self_of_nhds
      rw [moved_self, ha] at this
      exact (fin_inj.1 this).symm
    have hgb : g (θ v) = b := by
      have := k1.self_of_nhds
      rw [moved_self, hb] at this
      exact (fin_inj.1 this).symm
    subst hfa hgb
    obtain ⟨F, p, q, g1, g2, g3⟩ := binOp_exact o hg h2 k2
    refine ⟨F, p * d1 + q * d2, ?_, g2, fun ct => ?_⟩
    · filter_upwards [h1, k1, g1] with t e1 e2 e3
      rw [eval_bin, e1, e2, e3]
    · show back (envOf θ) v x (o.backL (eval (envOf θ) x) (eval (envOf θ) y) (fin ct)) +
        back (envOf θ) v y (o.backR (eval (envOf θ) x) (eval (envOf θ) y) (fin ct)) = _
      rw [ha, hb, (g3 ct).1, (g3 ct).2, h3, k3, fin_add]
      congr 1
      ring
  | mask c x y =>
    refine ⟨fun _ => if c.holds (eval (envOf θ) x) (eval (envOf θ) y) then 1 else 0, 0, ?_,
      hasDerivAt_const _ _, fun ct => by simp [back]⟩
    filter_upwards [h] with t ht
    rw [eval_mask, ← ind_eq]
    simp only [ht]
  | sel c x y t e ihx ihy iht ihe =>
    rcases h with ⟨hcond, ht, hz, hc⟩ | ⟨hcond, he, hz, hc⟩
    · obtain ⟨f, d1, h1, h2, h3⟩ := iht ht
      refine ⟨f, d1, ?_, h2, fun ct => ?_⟩
      · filter_upwards [h1, hc] with s e1 e2
        rw [eval_sel]
        split_ifs with h'
        · exact e1
        · rw [← e2 h', e1]
      · rw [back_sel_pos _ _ hcond, h3, hz, add_zero]
    · obtain ⟨g, d2, k1, k2, k3⟩ := ihe he
      refine ⟨g, d2, ?_, k2, fun ct => ?_⟩
      · filter_upwards [k1, hc] with s e1 e2
        rw [eval_sel]
        split_ifs with h'
        · rw [e2 h', e1]
        · exact e1
      · rw [back_sel_neg _ _ hcond, k3, hz, zero_add]

theorem back_zero {θ : String → ℝ} {v : String} {e : Ex} (h : Smooth θ v e) :
    back (envOf θ) v e 0 = 0 := by
  obtain ⟨-, d, -, -, h3⟩ := exact_of_smooth h
  rw [zero_eq, h3, zero_mul]

/-- Both branches differentiable, and the choice does not change or does not matter. -/
theorem smooth_sel {θ : String → ℝ} {v : String} {c : CmpOp} {x y t e : Ex} (ht : Smooth θ v t)
    (he : Smooth θ v e) (h : (∀ᶠ s in 𝓝 (θ v), (c.holds (eval (moved θ v s) x) (eval (moved θ v s) y) ↔
        c.holds (eval (envOf θ) x) (eval (envOf θ) y))) ∨
        ∀ᶠ s in 𝓝 (θ v), eval (moved θ v s) t = eval (moved θ v s) e) : Smooth θ v (sel c x y t e) := by
  by_cases hcond : c.holds (eval (envOf θ) x) (eval (envOf θ) y)
  · refine .inl ⟨hcond, ht, back_zero he, ?_⟩
    rcases h with h | h
    · filter_upwards [h] with s hs h'
      exact absurd (hs.2 hcond) h'
    · filter_upwards [h] with s hs _ using hs
  · refine .inr ⟨hcond, he, back_zero ht, ?_⟩
    rcases h with h | h
    · filter_upwards [h] with s hs h'
      exact absurd (hs.1 h') hcond
    · filter_upwards [h] with s hs _ using hs

/-- A comparison of two differentiable values that are different does not change nearby. -/
theorem holds_nearby {θ : String → ℝ} {v : String} {x y : Ex} (hx : Smooth θ v x) (hy : Smooth θ v y)
    {a b : ℝ} (ha : eval (envOf θ) x = fin a) (hb : eval (envOf θ) y = fin b) (hne : a ≠ b)
    (c : CmpOp) : ∀ᶠ t in 𝓝 (θ v), (c.holds (eval (moved θ v t) x) (eval (moved θ v t) y) ↔
      c.holds (eval (envOf θ) x) (eval (envOf θ) y)) := by
  obtain ⟨f, d1, h1, h2, -⟩ := exact_of_smooth hx
  obtain ⟨g, d2, k1, k2, -⟩ := exact_of_smooth hy
  have hfa : f (θ v) = a := by
    have := h1.self_of_nhds
    rw [moved_self, ha] at this
    exact (fin_inj.1 this).symm
  have hgb : g (θ v) = b := by
    have := k1.self_of_nhds
    rw [moved_self, hb] at this
    exact (fin_inj.1 this).symm
  subst hfa hgb
  rw [ha, hb]
  rcases lt_or_gt_of_ne hne with hlt | hlt
  · filter_upwards [h1, k1, h2.continuousAt.eventually_lt k2.continuousAt hlt] with t e1 e2 e3
    rw [e1, e2]
    cases c <;> simp [CmpOp.holds, hlt, e3, hlt.le, e3.le, hlt.ne, e3.ne]
  · filter_upwards [h1, k1, k2.continuousAt.eventually_lt h2.continuousAt hlt] with t e1 e2 e3
    rw [e1, e2]
    cases c <;> simp [CmpOp.holds, not_lt.2 hlt.le, not_lt.2 e3.le, not_le.2 hlt, not_le.2 e3, hlt.ne',
      e3.ne']

/-! ### Cotangents can be scaled -/

theorem signInf_mul_pos {c : ℝ} (hc : 0 < c) (a : ℝ) : signInf (a * c) = signInf a := by
  rcases lt_trichotomy a 0 with h | h | h
  · rw [signInf_neg h, signInf_neg (mul_neg_of_neg_of_pos h hc)]
  · rw [h, zero_mul]
  · rw [signInf_pos h, signInf_pos (mul_pos h hc)]

theorem signInf_scale {c : ℝ} (hc : 0 < c) (a : ℝ) : signInf a * fin c = signInf a := by
  rcases signInf_cases a with ⟨_, e⟩ | ⟨_, e⟩ | ⟨_, e⟩ <;> rw [e]
  · rw [pinf_mul_fin, signInf_pos hc]
  · rw [ninf_mul_fin, signInf_neg (neg_lt_zero.2 hc)]
  · rw [nan_mul]

theorem scale_add {c : ℝ} (hc : 0 < c) (x y : Fl) : (x + y) * fin c = x * fin c + y * fin c := by
  cases x <;> cases y <;> simp [signInf_pos hc, signInf_neg (neg_lt_zero.2 hc), add_mul]

theorem scale_neg {c : ℝ} (x : Fl) : (-x) * fin c = -(x * fin c) := by
  cases x
  · simp
  · simp only [neg_pinf, ninf_mul_fin, pinf_mul_fin]
    rcases signInf_cases c with ⟨h, e⟩ | ⟨h, e⟩ | ⟨h, e⟩
    · rw [e, signInf_neg (by linarith)]; rfl
    · rw [e, signInf_pos (by linarith)]; rfl
    · rw [h]; simp
  · simp only [neg_ninf, ninf_mul_fin, pinf_mul_fin]
    rcases signInf_cases c with ⟨h, e⟩ | ⟨h, e⟩ | ⟨h, e⟩
    · rw [e, signInf_neg (by linarith)]; rfl
    · rw [e, signInf_pos (by linarith)]; rfl
    · rw [h]; simp
  · simp

theorem scale_div {c : ℝ} (hc : 0 < c) (x y : Fl) : x * fin c / y = x / y * fin c := by
  cases x <;> cases y <;> simp [signInf_pos hc, signInf_neg (neg_lt_zero.2 hc), fin_div_def,
    pinf_div_fin, ninf_div_fin]
  · split_ifs with h
    · rw [signInf_mul_pos hc]
      exact (signInf_scale hc _).symm
    · simp; ring

/-- Scaling the cotangent of the result by a positive number scales what the backward pass
returns. -/
theorem back_scale {c : ℝ} (hc : 0 < c) (env : String → Fl) (v : String) (e : Ex) (ct : Fl) :
    back env v e (ct * fin c) = back env v e ct * fin c := by
  have hz : (0 : Fl) * fin c = 0 := by simp
  have hm : ∀ x y : Fl, x * fin c * y = x * y * fin c := fun x y => by
    rw [mul_assoc, mul_comm (fin c), mul_assoc]
  induction e generalizing ct with
  | const _ => exact hz.symm
  | arg k =>
    show (if k = v then ct * fin c else 0) = (if k = v then ct else 0) * fin c
    split_ifs
    · rfl
    · exact hz.symm
  | un o x ih =>
    show back env v x (o.back _ _) = back env v x (o.back _ _) * fin c
    rw [← ih]
    congr 1
    cases o <;> simp only [UnOp.back, scale_neg, scale_div hc, hm]
    all_goals
      split_ifs
      · rfl
      · exact hz.symm
  | bin o x y ihx ihy =>
    show back env v x (o.backL _ _ _) + back env v y (o.backR _ _ _) =
      (back env v x (o.backL _ _ _) + back env v y (o.backR _ _ _)) * fin c
    rw [scale_add hc, ← ihx, ← ihy]
    cases o <;> simp only [BinOp.backL, BinOp.backR, ← scale_neg, scale_div hc, hm]
  | mask _ _ _ => exact hz.symm
  | sel cm x y t e _ _ iht ihe =>
    show back env v t (if _ then _ else _) + back env v e (if _ then _ else _) =
      (back env v t (if _ then _ else _) + back env v e (if _ then _ else _)) * fin c
    rw [scale_add hc, ← iht, ← ihe]
    split_ifs <;> simp only [hz]

end Ex
end GW
