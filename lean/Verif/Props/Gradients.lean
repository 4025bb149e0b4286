import Verif.Lemmas.Autodiff
import Verif.Props.Truncnorm
import Verif.Props.BetaDist

/-!
# C92: gradients computed by jax
-/

noncomputable section

open Classical Set Filter Topology

namespace GW

open Fl Ex

/-! ## Specification -/

/-- The computation `e` is what jax records when it traces `F`: for all hyper-parameters `F` returns
the value of `e`. -/
def Spec.Traces (e : Ex) (F : (String → ℝ) → Except PyErr Fl) : Prop :=
  ∀ θ, F θ = .ok (eval (envOf θ) e)

/-- Near `θ` the function `F` returns numbers, it is differentiable in the hyper-parameter `v`, and
jax returns its derivative. -/
def Spec.GradientRight (F : (String → ℝ) → Except PyErr Fl) (e : Ex) (θ : String → ℝ) (v : String) :
    Prop :=
  ∃ (f : ℝ → ℝ) (d : ℝ), (∀ᶠ t in 𝓝 (θ v), F (Function.update θ v t) = .ok (fin (f t))) ∧
    HasDerivAt f d (θ v) ∧ e.grad (envOf θ) v = fin d

open Spec

theorem gradientRight {F : (String → ℝ) → Except PyErr Fl} {e : Ex} (ht : Traces e F)
    {θ : String → ℝ} {v : String} (h : Smooth θ v e) : GradientRight F e θ v := by
  obtain ⟨f, d, h1, h2, h3⟩ := exact_of_smooth h
  refine ⟨f, d, ?_, h2, ?_⟩
  · filter_upwards [h1] with t e1
    rw [ht, ← e1]
    rfl
  · have := h3 1
    rwa [one_mul] at this

/-- If the function is locally equal to a differentiable real function, then that derivative is the
only right one. -/
theorem not_gradientRight_of_nan {F : (String → ℝ) → Except PyErr Fl} {e : Ex} {θ : String → ℝ}
    {v : String} (h : e.grad (envOf θ) v = nan) : ¬ GradientRight F e θ v := by
  rintro ⟨f, d, -, -, h3⟩
  rw [h] at h3
  cases h3

/-! ## Building blocks -/

theorem smooth_const (θ : String → ℝ) (v : String) (r : ℝ) : Smooth θ v (const (fin r)) := trivial

theorem smooth_bin {θ : String → ℝ} {v : String} {o : BinOp} {x y : Ex} (hx : Smooth θ v x)
    (hy : Smooth θ v y) {a b : ℝ} (ha : eval (envOf θ) x = fin a) (hb : eval (envOf θ) y = fin b)
    (hg : o.Good a b) : Smooth θ v (bin o x y) := ⟨hx, hy, a, b, ha, hb, hg⟩

theorem smooth_un {θ : String → ℝ} {v : String} {o : UnOp} {x : Ex} (hx : Smooth θ v x)
    {a : ℝ} (ha : eval (envOf θ) x = fin a) (hg : o.Good a) : Smooth θ v (un o x) := .inl ⟨hx, a, ha, hg⟩

theorem smooth_mask {θ : String → ℝ} {v : String} {c : CmpOp} {x y : Ex} (hx : Smooth θ v x)
    (hy : Smooth θ v y) {a b : ℝ} (ha : eval (envOf θ) x = fin a) (hb : eval (envOf θ) y = fin b)
    (hne : a ≠ b) : Smooth θ v (mask c x y) := holds_nearby hx hy ha hb hne c

theorem eval_mask_fin (env : String → Fl) (c : CmpOp) (x y : Ex) :
    ∃ r, eval env (mask c x y) = fin r := by
  rw [eval_mask]
  exact ⟨_, ind_eq _⟩

/-- A smooth computation has a real value. -/
theorem smooth_value {θ : String → ℝ} {v : String} {e : Ex} (h : Smooth θ v e) :
    ∃ r, eval (envOf θ) e = fin r := by
  obtain ⟨f, -, h1, -, -⟩ := exact_of_smooth h
  have := h1.self_of_nhds
  rw [moved_self] at this
  exact ⟨_, this⟩

theorem smooth_add {θ : String → ℝ} {v : String} {x y : Ex} (hx : Smooth θ v x) (hy : Smooth θ v y) :
    Smooth θ v (x + y) := by
  obtain ⟨a, ha⟩ := smooth_value hx
  obtain ⟨b, hb⟩ := smooth_value hy
  exact smooth_bin hx hy ha hb trivial

theorem smooth_sub {θ : String → ℝ} {v : String} {x y : Ex} (hx : Smooth θ v x) (hy : Smooth θ v y) :
    Smooth θ v (x - y) := by
  obtain ⟨a, ha⟩ := smooth_value hx
  obtain ⟨b, hb⟩ := smooth_value hy
  exact smooth_bin hx hy ha hb trivial

theorem smooth_mul {θ : String → ℝ} {v : String} {x y : Ex} (hx : Smooth θ v x) (hy : Smooth θ v y) :
    Smooth θ v (x * y) := by
  obtain ⟨a, ha⟩ := smooth_value hx
  obtain ⟨b, hb⟩ := smooth_value hy
  exact smooth_bin hx hy ha hb trivial

theorem smooth_neg {θ : String → ℝ} {v : String} {x : Ex} (hx : Smooth θ v x) : Smooth θ v (-x) := by
  obtain ⟨a, ha⟩ := smooth_value hx
  exact smooth_un hx ha trivial

theorem smooth_div {θ : String → ℝ} {v : String} {x y : Ex} (hx : Smooth θ v x) (hy : Smooth θ v y)
    {b : ℝ} (hb : eval (envOf θ) y = fin b) (h0 : b ≠ 0) : Smooth θ v (x / y) := by
  obtain ⟨a, ha⟩ := smooth_value hx
  exact smooth_bin hx hy ha hb h0

theorem smooth_pow {θ : String → ℝ} {v : String} {x y : Ex} (hx : Smooth θ v x) (hy : Smooth θ v y)
    {a : ℝ} (ha : eval (envOf θ) x = fin a) (h0 : 0 < a) : Smooth θ v (bin .pow x y) := by
  obtain ⟨b, hb⟩ := smooth_value hy
  exact smooth_bin hx hy ha hb h0

/-- Operations that are differentiable everywhere. -/
theorem smooth_un' {θ : String → ℝ} {v : String} {o : UnOp} (ho : ∀ a, o.Good a) {x : Ex}
    (hx : Smooth θ v x) : Smooth θ v (un o x) := by
  obtain ⟨a, ha⟩ := smooth_value hx
  exact smooth_un hx ha (ho a)

/-! ## Power law -/

theorem trace_powerlaw (env : String → Fl) (x a h l : Ex) (k : Bool) (k1 k2 k3 : Bool) :
    powerlaw .jax false ⟨eval env x, k⟩ ⟨eval env a, k1⟩ ⟨eval env h, k2⟩ ⟨eval env l, k3⟩ =
      .ok (eval env (powerlawEx x a h l)) := by
  unfold powerlaw applyConditions powerlawBody powerlawEx
  rw [if_pos rfl]
  simp only [pyDiv, pyPow, Bool.false_eq_true, false_and, if_false, ok_bind, pure_eq_ok, eval_mul,
    eval_bin, eval_sel, eval_div, eval_const, eval_un, eval_add, eval_sub, eval_mask, BinOp.val,
    UnOp.val, CmpOp.holds]
  rw [ind_mul_ind]
  rfl

theorem smooth_powerlaw {θ : String → ℝ} {v : String} {x a h l : Ex} (sx : Smooth θ v x)
    (sa : Smooth θ v a) (sh : Smooth θ v h) (sl : Smooth θ v l) {xr ar hr lr : ℝ}
    (ex : eval (envOf θ) x = fin xr) (ea : eval (envOf θ) a = fin ar) (eh : eval (envOf θ) h = fin hr)
    (el : eval (envOf θ) l = fin lr) (hx : 0 < xr) (ha : ar ≠ -1) (hl : 0 < lr) (hh : 0 < hr)
    (hne : hr ≠ lr) (m1 : Smooth θ v (mask .le x h)) (m2 : Smooth θ v (mask .le l x)) :
    Smooth θ v (powerlawEx x a h l) := by
  have s1 : Smooth θ v (const 1) := smooth_const θ v 1
  have s2 : Smooth θ v (const 1 + a) := smooth_add s1 sa
  have e2 : eval (envOf θ) (const 1 + a) = fin (1 + ar) := by simp [ea]
  have h1a : 1 + ar ≠ 0 := fun h' => ha (by linarith)
  have hratio : eval (envOf θ) (h / l) = fin (hr / lr) := by rw [eval_div, eh, el, fin_div hl.ne']
  have hrp : 0 < hr / lr := by positivity
  have hlog : Real.log (hr / lr) ≠ 0 := by
    apply Real.log_ne_zero_of_pos_of_ne_one hrp
    intro h'
    rw [div_eq_one_iff_eq hl.ne'] at h'
    exact hne h'
  refine smooth_mul (smooth_mul (smooth_pow sx sa ex hx) (smooth_sel ?_ ?_ (Or.inl ?_)))
    (smooth_mul m1 m2)
  · refine smooth_div s1 (smooth_un (smooth_div sh sl el hl.ne') hratio hrp) ?_ hlog
    rw [eval_un, hratio]
    exact log_fin hrp
  · refine smooth_div s2 (smooth_sub (smooth_pow sh s2 eh hh) (smooth_pow sl s2 el hl))
      (b := hr ^ (1 + ar) - lr ^ (1 + ar)) ?_ ?_
    · simp only [eval_sub, eval_bin, e2, eh, el, BinOp.val, pow_fin_pos hh, pow_fin_pos hl, fin_sub]
    · intro h'
      apply hne
      have := Real.rpow_left_injOn h1a (show hr ∈ {y : ℝ | 0 ≤ y} from hh.le)
        (show lr ∈ {y : ℝ | 0 ≤ y} from hl.le)
      exact this (sub_eq_zero.1 h')
  · exact holds_nearby sa (smooth_const θ v (-1)) ea rfl ha .eq

/-- `powerlaw` on jax as a function of its hyper-parameters. -/
def powerlawOf (x : ℝ) (θ : String → ℝ) : Except PyErr Fl :=
  powerlaw .jax false (pos (fin x)) (kw (fin (θ "alpha"))) (kw (fin (θ "high"))) (kw (fin (θ "low")))

/-- The recorded computation. -/
def powerlawRec (x : ℝ) : Ex := powerlawEx (const (fin x)) (arg "alpha") (arg "high") (arg "low")

theorem powerlaw_traces (x : ℝ) : Traces (powerlawRec x) (powerlawOf x) := fun θ =>
  trace_powerlaw (envOf θ) (const (fin x)) (arg "alpha") (arg "high") (arg "low") _ _ _ _

/-- **C92.** For a spectral index other than -1 jax returns the derivative of the power law with
respect to each hyper-parameter, inside and outside the limits. -/
theorem C92_powerlaw_partial {x : ℝ} (hx : 0 < x) {θ : String → ℝ} (ha : θ "alpha" ≠ -1)
    (hl : 0 < θ "low") (hlh : θ "low" < θ "high") (h1 : x ≠ θ "low") (h2 : x ≠ θ "high") (v : String) :
    GradientRight (powerlawOf x) (powerlawRec x) θ v :=
  gradientRight (powerlaw_traces x) <| smooth_powerlaw (smooth_const θ v x) trivial trivial trivial
    rfl rfl rfl rfl hx ha hl (hl.trans hlh) hlh.ne' (smooth_mask (smooth_const θ v x) trivial rfl rfl h2)
    (smooth_mask trivial (smooth_const θ v x) rfl rfl h1.symm)

example : GradientRight (powerlawOf 1.5) (powerlawRec 1.5)
    (fun k => if k = "alpha" then 2 else if k = "high" then 3 else 1) "alpha" :=
  C92_powerlaw_partial (by norm_num) (by norm_num) (by simp) (by simp) (by simp; norm_num)
    (by simp; norm_num) _

/-- **C92.** For spectral index -1 every derivative that jax returns is NaN. -/
theorem C92_powerlaw_nan {x : ℝ} {θ : String → ℝ} (hx : 0 < x) (ha : θ "alpha" = -1) (hl : 0 < θ "low")
    (hlh : θ "low" < θ "high") : ∀ v ∈ ["alpha", "high", "low"],
      (powerlawRec x).grad (envOf θ) v = nan := by
  have hh := hl.trans hlh
  have hcond : CmpOp.holds .eq (eval (envOf θ) (arg "alpha")) (eval (envOf θ) (const (-1))) := by
    show eqf (fin (θ "alpha")) (-fin 1)
    rw [ha]
    exact rfl
  have eA : eval (envOf θ) (const 1 + arg "alpha") = fin 0 := by
    rw [eval_add, eval_const, eval_arg, envOf, ha]
    simp
  have eD : eval (envOf θ) (bin .pow (arg "high") (const 1 + arg "alpha") -
      bin .pow (arg "low") (const 1 + arg "alpha")) = fin 0 := by
    rw [eval_sub, eval_bin, eval_bin, eA, eval_arg, eval_arg]
    simp only [envOf, BinOp.val, pow_fin_pos hh, pow_fin_pos hl, Real.rpow_zero, fin_sub, sub_self]
  have eL : (0 : Fl) / fin 0 = nan := by simp
  have eR : -(0 : Fl) * fin 0 * (1 / (fin 0 * fin 0)) = nan := by simp
  intro v hv
  unfold grad powerlawRec powerlawEx
  rw [back_mul, back_mul, back_sel_pos _ _ hcond, back_div (y := _ - _), eA, eD, eL, eR, back_sub,
    back_add, neg_nan, back_bin (y := const 1 + arg "alpha"), back_bin (y := const 1 + arg "alpha")]
  simp only [BinOp.backL, BinOp.backR, nan_mul, back_add, back_arg, back_const]
  simp only [List.mem_cons, List.not_mem_nil, or_false] at hv
  rcases hv with rfl | rfl | rfl <;> simp

example : (powerlawRec 1.5).grad (envOf fun k => if k = "alpha" then -1 else if k = "high" then 3 else 1) "low" = nan :=
  C92_powerlaw_nan (by norm_num) (by simp) (by simp) (by simp) _ (by simp)

/-- **C92.** The property: wherever the returned density is a differentiable function of a
hyper-parameter, jax returns its derivative. -/
def C92_statement : Prop :=
  ∀ (x : ℝ) (θ : String → ℝ) (v : String), 0 < x → 0 < θ "low" → θ "low" < θ "high" →
    x ≠ θ "low" → x ≠ θ "high" → ∀ (f : ℝ → ℝ) (d : ℝ),
      (∀ᶠ t in 𝓝 (θ v), powerlawOf x (Function.update θ v t) = .ok (fin (f t))) →
      HasDerivAt f d (θ v) → (powerlawRec x).grad (envOf θ) v = fin d

/-- The spectral index -1, where the density is `1 / (x log(high / low))`. -/
theorem C92_fails : ¬ C92_statement := by
  intro h
  set θ : String → ℝ := fun k => if k = "alpha" then -1 else if k = "high" then 4 else 1 with hθ
  have ha : θ "alpha" = -1 := by simp [hθ]
  have hh : θ "high" = 4 := by simp [hθ]
  have hl : θ "low" = 1 := by simp [hθ]
  have hd : HasDerivAt (fun t : ℝ => (2 : ℝ) ^ (-1 : ℝ) * (1 / Real.log t)) (deriv
      (fun t : ℝ => (2 : ℝ) ^ (-1 : ℝ) * (1 / Real.log t)) 4) 4 := by
    apply DifferentiableAt.hasDerivAt
    have : Real.log 4 ≠ 0 := (Real.log_pos (by norm_num)).ne'
    exact (DifferentiableAt.div (differentiableAt_const _) (Real.differentiableAt_log (by norm_num))
      this).const_mul _
  have key := h 2 θ "high" (by norm_num) (by rw [hl]; norm_num) (by rw [hl, hh]; norm_num)
    (by rw [hl]; norm_num) (by rw [hh]; norm_num) _ _ ?_ (by rw [hh]; exact hd)
  · rw [C92_powerlaw_nan (by norm_num) ha (by rw [hl]; norm_num) (by rw [hl, hh]; norm_num) "high"
      (by simp)] at key
    cases key
  · rw [hh]
    filter_upwards [lt_mem_nhds (show (3 : ℝ) < 4 by norm_num)] with t ht
    have h1 : Function.update θ "high" t "alpha" = -1 := by simp [hθ]
    have h2 : Function.update θ "high" t "high" = t := by simp
    have h3 : Function.update θ "high" t "low" = 1 := by simp [hθ]
    have ht0 : 0 < t := by linarith
    have hlog : Real.log t ≠ 0 := (Real.log_pos (by linarith)).ne'
    unfold powerlawOf powerlaw applyConditions powerlawBody
    rw [if_pos rfl, h1, h2, h3]
    simp only [pyDiv, pyPow, Bool.false_eq_true, false_and, if_false, ok_bind, pure_eq_ok]
    rw [if_pos (show eqf (kw (fin (-1))).val (-1) from rfl)]
    simp only [kw, pos]
    rw [fin_div one_ne_zero, div_one, log_fin ht0, one_eq,
      fin_div hlog, pow_fin_pos (by norm_num), fin_mul,
      ind_true ⟨fin_le.2 (by linarith), fin_le.2 (by norm_num)⟩, fin_mul, mul_one]

/-! ## Beta distribution -/

theorem trace_betaDist (junk junkL junkR : Fl → Fl → Fl) (env : String → Fl) (x a b c : Ex)
    (k k1 k2 k3 : Bool) :
    betaDist junk .jax ⟨eval env x, k⟩ ⟨eval env a, k1⟩ ⟨eval env b, k2⟩ ⟨eval env c, k3⟩ =
      .ok (eval env (betaDistEx junk junkL junkR x a b c)) := by
  unfold betaDist applyConditions betaDistEx
  rw [if_pos rfl]
  rfl

/-- `beta_dist` on jax as a function of its hyper-parameters. -/
def betaDistOf (junk : Fl → Fl → Fl) (x : ℝ) (θ : String → ℝ) : Except PyErr Fl :=
  betaDist junk .jax (pos (fin x)) (kw (fin (θ "alpha"))) (kw (fin (θ "beta"))) (kw (fin (θ "scale")))

/-- The recorded computation. -/
def betaDistRec (junk junkL junkR : Fl → Fl → Fl) (x : ℝ) : Ex :=
  betaDistEx junk junkL junkR (const (fin x)) (arg "alpha") (arg "beta") (arg "scale")

theorem betaDist_traces (junk junkL junkR : Fl → Fl → Fl) (x : ℝ) :
    Traces (betaDistRec junk junkL junkR x) (betaDistOf junk x) := fun θ =>
  trace_betaDist junk junkL junkR (envOf θ) (const (fin x)) (arg "alpha") (arg "beta") (arg "scale") _ _ _ _

/-- **C92.** Inside the support jax returns the derivatives of the Beta distribution. -/
theorem C92_betaDist_partial (junk junkL junkR : Fl → Fl → Fl) {x : ℝ} (hx : 0 < x) {θ : String → ℝ}
    (ha : 0 < θ "alpha") (hb : 0 < θ "beta") (hxs : x < θ "scale") (v : String) :
    GradientRight (betaDistOf junk x) (betaDistRec junk junkL junkR x) θ v := by
  refine gradientRight (betaDist_traces junk junkL junkR x) ?_
  have sx : Smooth θ v (const (fin x)) := smooth_const θ v x
  have s1 : Smooth θ v (const 1) := smooth_const θ v 1
  have sA : Smooth θ v (arg "alpha") := trivial
  have sB : Smooth θ v (arg "beta") := trivial
  have sC : Smooth θ v (arg "scale") := trivial
  have hs : 0 < θ "scale" := hx.trans hxs
  have l1 : Smooth θ v (un .log (const (fin x))) := smooth_un sx rfl hx
  have l2 : Smooth θ v (un .log (arg "scale" - const (fin x))) :=
    smooth_un (smooth_sub sC sx) (fin_sub _ _) (sub_pos.2 hxs)
  have l3 : Smooth θ v (un .log (arg "scale")) := smooth_un sC rfl hs
  have l4 : Smooth θ v (bin (.betaln junk junkL junkR) (arg "alpha") (arg "beta")) :=
    smooth_bin sA sB rfl rfl ⟨ha, hb⟩
  refine smooth_mul (smooth_un' (o := .nanToNum) (fun _ => trivial)
    (smooth_un' (o := .exp) (fun _ => trivial) ?_))
    (smooth_mul (smooth_mask (smooth_const θ v 0) sx rfl rfl hx.ne) (smooth_mask sx sC rfl rfl hxs.ne))
  exact smooth_sub (smooth_sub (smooth_add (smooth_mul (smooth_sub sA s1) l1)
    (smooth_mul (smooth_sub sB s1) l2)) l4) (smooth_mul (smooth_sub (smooth_add sA sB) s1) l3)

example (junk : Fl → Fl → Fl) : GradientRight (betaDistOf junk 0.5) (betaDistRec junk junk junk 0.5)
    (fun k => if k = "alpha" then 2 else if k = "beta" then 3 else 1) "beta" :=
  C92_betaDist_partial junk junk junk (by norm_num) (by norm_num) (by simp) (by simp; norm_num) _

/-- **C92.** For a value outside the support, where the density is 0 whatever the
hyper-parameters are, every derivative that jax returns is NaN. -/
theorem C92_betaDist_outside (junk junkL junkR : Fl → Fl → Fl) {x : ℝ} {θ : String → ℝ}
    (hx : x < 0 ∨ θ "scale" < x) (v : String)
    (hv : v ∈ ["alpha", "beta", "scale"]) :
    (∀ᶠ t in 𝓝 (θ v), betaDistOf junk x (Function.update θ v t) = .ok (fin 0)) ∧
      (betaDistRec junk junkL junkR x).grad (envOf θ) v = nan := by
  constructor
  · have hev : ∀ᶠ t in 𝓝 (θ v), x < 0 ∨ Function.update θ v t "scale" < x := by
      have c : ContinuousAt (fun t => Function.update θ v t "scale") (θ v) := by
        by_cases hk : "scale" = v
        · subst hk; simp only [Function.update_self]; exact continuousAt_id
        · simp only [Function.update_of_ne hk]; exact continuousAt_const
      have e0 : (fun t => Function.update θ v t "scale") (θ v) = θ "scale" := by
        simp only [Function.update_eq_self]
      rcases hx with hx | hx
      · exact .of_forall fun t => .inl hx
      · filter_upwards [c.eventually (gt_mem_nhds (by rw [e0]; exact hx))] with t h2
        exact .inr h2
    filter_upwards [hev] with t ht
    generalize Function.update θ v t = θ' at ht ⊢
    obtain ⟨r, -, h1, h2⟩ := C06_betaDist_total junk .jax (fin x) (fin (θ' "alpha")) (fin (θ' "beta"))
      (fin (θ' "scale"))
    rw [h2 (by rw [zero_eq, fin_le, fin_le]; rintro ⟨h3, h4⟩; rcases ht with h5 | h5 <;> linarith)] at h1
    rw [← h1]
    unfold betaDistOf
    rw [betaDist_eq, betaDist_eq, if_neg (by simp), if_neg (by simp)]
    rfl
  · have hmask : eval (envOf θ) (mask .le (const 0) (const (fin x)) *
        mask .le (const (fin x)) (arg "scale")) = fin 0 := by
      rw [eval_mul, eval_mask, eval_mask]
      simp only [CmpOp.holds, eval_const, eval_arg, envOf]
      rw [ind_mul_ind, ind_false]
      rw [zero_eq, fin_le, fin_le]
      rintro ⟨h3, h4⟩
      rcases hx with h5 | h5 <;> linarith
    have hln : eval (envOf θ) ((arg "alpha" - const 1) * un .log (const (fin x)) +
        (arg "beta" - const 1) * un .log (arg "scale" - const (fin x))) = nan := by
      simp only [eval_add, eval_mul, eval_un, eval_sub, eval_const, eval_arg, UnOp.val, envOf, fin_sub]
      rcases hx with h5 | h5
      · rw [show Fl.log (fin x) = nan from log_fin_neg h5]; simp
      · rw [show Fl.log (fin (θ "scale" - x)) = nan from log_fin_neg (by linarith)]; simp
    unfold grad betaDistRec betaDistEx
    rw [back_mul, back_un, back_un, hmask, eval_un, eval_sub, eval_sub, hln]
    simp only [UnOp.back, UnOp.val, back_sub, back_add, back_mul, nan_sub, exp_nan, mul_nan,
      nan_mul, back_arg, back_const, eval_const, back_bin, back_un, neg_nan, BinOp.backL, BinOp.backR, nan_div]
    simp only [List.mem_cons, List.not_mem_nil, or_false] at hv
    rcases hv with rfl | rfl | rfl <;> simp

/-- The same property for the Beta distribution. -/
def C92_betaDist_statement : Prop :=
  ∀ (junk junkL junkR : Fl → Fl → Fl) (x : ℝ) (θ : String → ℝ) (v : String), 0 < θ "alpha" →
    0 < θ "beta" → 0 < θ "scale" → x ≠ 0 → x ≠ θ "scale" → ∀ (f : ℝ → ℝ) (d : ℝ),
      (∀ᶠ t in 𝓝 (θ v), betaDistOf junk x (Function.update θ v t) = .ok (fin (f t))) →
        HasDerivAt f d (θ v) → (betaDistRec junk junkL junkR x).grad (envOf θ) v = fin d

/-- A spin magnitude above the maximum. -/
theorem C92_betaDist_fails : ¬ C92_betaDist_statement := by
  intro h
  have out := C92_betaDist_outside (fun _ _ => 0) (fun _ _ => 0) (fun _ _ => 0) (x := 2)
    (θ := fun _ => 1) (by norm_num) "alpha" (by simp)
  have key := h (fun _ _ => 0) (fun _ _ => 0) (fun _ _ => 0) 2 (fun _ => 1) "alpha" (by norm_num)
    (by norm_num) (by norm_num) (by norm_num) (by norm_num) (fun _ => 0) 0 out.1 (hasDerivAt_const _ _)
  rw [out.2] at key
  cases key

/-! ## Truncated normal distribution -/

theorem trace_truncnorm (env : String → Fl) (x m s h l : Ex) (k k1 k2 k3 k4 : Bool) :
    truncnorm .jax ⟨eval env x, k⟩ ⟨eval env m, k1⟩ ⟨eval env s, k2⟩ ⟨eval env h, k3⟩ ⟨eval env l, k4⟩ =
      .ok (eval env (truncnormEx x m s h l)) := by
  unfold truncnorm applyConditions truncnormEx truncLogNormEx logsubexpEx truncnormBody logsubexp
  rw [if_pos rfl]
  rfl

theorem smooth_logsubexp {θ : String → ℝ} {v : String} {p q : Ex} (hp : Smooth θ v p)
    (hq : Smooth θ v q) {a b : ℝ} (ea : eval (envOf θ) p = fin a) (eb : eval (envOf θ) q = fin b)
    (h : b < a) : Smooth θ v (logsubexpEx p q) := by
  refine smooth_add hp (smooth_un (a := 1 - Real.exp (b - a)) (smooth_sub (smooth_const θ v 1)
    (smooth_un' (o := .exp) (fun _ => trivial) (smooth_sub hq hp))) ?_ ?_)
  · simp only [eval_sub, eval_const, eval_un, UnOp.val, ea, eb, fin_sub, exp_fin, one_eq]
  · show 0 < 1 - Real.exp (b - a)
    have : Real.exp (b - a) < 1 := by
      rw [← Real.exp_zero]
      exact Real.exp_lt_exp.2 (by linarith)
    linarith

theorem smooth_truncLogNorm {θ : String → ℝ} {v : String} {aa bb : Ex} (sa : Smooth θ v aa)
    (sb : Smooth θ v bb) {a b : ℝ} (ea : eval (envOf θ) aa = fin a) (eb : eval (envOf θ) bb = fin b)
    (h : a < b) : Smooth θ v (truncLogNormEx aa bb) := by
  have hpos := fun r => stdNormalCDF_pos r
  have l1 : Smooth θ v (logsubexpEx (un .logNdtr bb) (un .logNdtr aa)) := by
    refine smooth_logsubexp (smooth_un' (o := .logNdtr) (fun _ => trivial) sb)
      (smooth_un' (o := .logNdtr) (fun _ => trivial) sa)
      (a := Real.log (stdNormalCDF b)) (b := Real.log (stdNormalCDF a)) ?_ ?_
      (Real.log_lt_log (hpos a) (stdNormalCDF_lt h))
    · rw [eval_un, eb]; exact logNdtr_fin b
    · rw [eval_un, ea]; exact logNdtr_fin a
  have l2 : Smooth θ v (logsubexpEx (un .logNdtr (-aa)) (un .logNdtr (-bb))) := by
    refine smooth_logsubexp (smooth_un' (o := .logNdtr) (fun _ => trivial) (smooth_neg sa))
      (smooth_un' (o := .logNdtr) (fun _ => trivial) (smooth_neg sb))
      (a := Real.log (stdNormalCDF (-a))) (b := Real.log (stdNormalCDF (-b))) ?_ ?_
      (Real.log_lt_log (hpos _) (stdNormalCDF_lt (by linarith)))
    · rw [eval_un, eval_neg, ea]; exact logNdtr_fin (-a)
    · rw [eval_un, eval_neg, eb]; exact logNdtr_fin (-b)
  have l3 : Smooth θ v (un .log1p (-(un .ndtr aa) - un .ndtr (-bb))) := by
    refine smooth_un (a := -stdNormalCDF a - stdNormalCDF (-b)) (smooth_sub (smooth_neg
      (smooth_un' (o := .ndtr) (fun _ => trivial) sa)) (smooth_un' (o := .ndtr) (fun _ => trivial)
        (smooth_neg sb))) ?_ ?_
    · simp only [eval_sub, eval_neg, eval_un, ea, eb, UnOp.val, fin_neg, ndtr, fin_sub]
    · show -1 < -stdNormalCDF a - stdNormalCDF (-b)
      rw [stdNormalCDF_neg]
      have := stdNormalCDF_lt h
      linarith
  obtain ⟨f, d1, h1, h2, -⟩ := exact_of_smooth sa
  obtain ⟨g, d2, k1, k2, -⟩ := exact_of_smooth sb
  have hfa : f (θ v) = a := by
    have := h1.self_of_nhds
    rw [moved_self, ea] at this
    exact (fin_inj.1 this).symm
  have hgb : g (θ v) = b := by
    have := k1.self_of_nhds
    rw [moved_self, eb] at this
    exact (fin_inj.1 this).symm
  subst hfa hgb
  have hlt := h2.continuousAt.eventually_lt k2.continuousAt h
  -- the values of the branches
  have v1 : ∀ t, eval (moved θ v t) aa = fin (f t) → eval (moved θ v t) bb = fin (g t) → f t < g t →
      eval (moved θ v t) (logsubexpEx (un .logNdtr bb) (un .logNdtr aa)) =
        fin (Real.log (stdNormalCDF (g t) - stdNormalCDF (f t))) := by
    intro t e1 e2 e3
    show logsubexp (logNdtr (eval _ bb)) (logNdtr (eval _ aa)) = _
    rw [e1, e2, logNdtr_fin, logNdtr_fin, logsubexp_fin (hpos _) (stdNormalCDF_lt e3)]
  have v2 : ∀ t, eval (moved θ v t) aa = fin (f t) → eval (moved θ v t) bb = fin (g t) → f t < g t →
      eval (moved θ v t) (logsubexpEx (un .logNdtr (-aa)) (un .logNdtr (-bb))) =
        fin (Real.log (stdNormalCDF (g t) - stdNormalCDF (f t))) := by
    intro t e1 e2 e3
    show logsubexp (logNdtr (-eval _ aa)) (logNdtr (-eval _ bb)) = _
    rw [e1, e2, fin_neg, fin_neg, logNdtr_fin, logNdtr_fin,
      logsubexp_fin (hpos _) (stdNormalCDF_lt (by linarith)), stdNormalCDF_neg, stdNormalCDF_neg]
    congr 2; ring
  have v3 : ∀ t, eval (moved θ v t) aa = fin (f t) → eval (moved θ v t) bb = fin (g t) → f t < g t →
      eval (moved θ v t) (un .log1p (-(un .ndtr aa) - un .ndtr (-bb))) =
        fin (Real.log (stdNormalCDF (g t) - stdNormalCDF (f t))) := by
    intro t e1 e2 e3
    have := stdNormalCDF_lt e3
    show log1p (-ndtr (eval _ aa) - ndtr (-eval _ bb)) = _
    rw [e1, e2, fin_neg]
    simp only [ndtr, log1p]
    rw [fin_neg, fin_sub, one_eq, fin_add, stdNormalCDF_neg, log_fin (by linarith)]
    congr 2; ring
  -- nothing comes back from the inner selections when they are not chosen
  have z3 : back (envOf θ) v (sel .lt (const 0) bb (un .log1p (-(un .ndtr aa) - un .ndtr (-bb)))
      (const nan)) 0 = 0 := by
    show back _ _ _ (if _ then 0 else 0) + 0 = _
    rw [ite_self, add_zero, back_zero l3]
  have z2 : back (envOf θ) v (sel .lt (const 0) aa (logsubexpEx (un .logNdtr (-aa)) (un .logNdtr (-bb)))
      (sel .lt (const 0) bb (un .log1p (-(un .ndtr aa) - un .ndtr (-bb))) (const nan))) 0 = 0 := by
    show back _ _ _ (if _ then 0 else 0) + back _ _ _ (if _ then 0 else 0) = _
    rw [ite_self, back_zero l2, z3, add_zero]
  unfold truncLogNormEx
  by_cases hb : g (θ v) ≤ 0
  · refine .inl ⟨?_, l1, z2, ?_⟩
    · rw [eb]; exact fin_le.2 hb
    · filter_upwards [h1, k1, hlt] with t e1 e2 e3 hn
      rw [v1 t e1 e2 e3, eval_sel, v2 t e1 e2 e3, eval_sel, v3 t e1 e2 e3, e2]
      have hpos' : CmpOp.holds .lt (eval (moved θ v t) (const 0)) (fin (g t)) := by
        rw [e2] at hn
        exact fin_lt.2 (lt_of_not_ge fun h' => hn (fin_le.2 h'))
      rw [if_pos hpos', ite_self]
  · rw [not_le] at hb
    have hbn := k2.continuousAt.eventually (lt_mem_nhds hb)
    have hold : ∀ t, eval (moved θ v t) bb = fin (g t) → 0 < g t →
        CmpOp.holds .lt (eval (moved θ v t) (const 0)) (eval (moved θ v t) bb) := by
      intro t e1 e2
      rw [e1]; exact fin_lt.2 e2
    have l4 : Smooth θ v (sel .lt (const 0) bb (un .log1p (-(un .ndtr aa) - un .ndtr (-bb)))
        (const nan)) := by
      refine .inl ⟨?_, l3, rfl, ?_⟩
      · rw [eb]; exact fin_lt.2 hb
      · filter_upwards [k1, hbn] with t e1 e2 hn
        exact absurd (hold t e1 e2) hn
    refine .inr ⟨?_, smooth_sel l2 l4 (Or.inr ?_), back_zero l1, ?_⟩
    · rw [eb]
      exact fun h' => absurd (fin_le.1 h') (not_le.2 hb)
    · filter_upwards [h1, k1, hlt, hbn] with t e1 e2 e3 e4
      rw [v2 t e1 e2 e3, eval_sel, if_pos (hold t e2 e4), v3 t e1 e2 e3]
    · filter_upwards [k1, hbn] with t e1 e2 h'
      rw [e1] at h'
      exact absurd (fin_le.1 h') (not_le.2 e2)

theorem smooth_truncnorm {θ : String → ℝ} {v : String} {x m s h l : Ex} (sx : Smooth θ v x)
    (sm : Smooth θ v m) (ss : Smooth θ v s) (sh : Smooth θ v h) (sl : Smooth θ v l) {mr sr hr lr : ℝ}
    (em : eval (envOf θ) m = fin mr) (es : eval (envOf θ) s = fin sr) (eh : eval (envOf θ) h = fin hr)
    (el : eval (envOf θ) l = fin lr) (hs : 0 < sr) (hlh : lr < hr) (m1 : Smooth θ v (mask .le l x))
    (m2 : Smooth θ v (mask .le x h)) : Smooth θ v (truncnormEx x m s h l) := by
  have s2 : Smooth θ v (const 2) := smooth_const θ v 2
  have h2pi : (0 : ℝ) < 2 * Real.pi := by positivity
  have sc : Smooth θ v (const (Fl.log (2 * fin Real.pi) / 2)) := by
    show (Fl.log (2 * fin Real.pi) / 2).isFinite
    rw [ofNat_eq, fin_mul]
    rw [log_fin h2pi, fin_div two_ne_zero]
    trivial
  refine smooth_mul (smooth_mul (smooth_un' (o := .nanToNum) (fun _ => trivial)
    (smooth_un' (o := .exp) (fun _ => trivial) (smooth_sub (smooth_sub (smooth_sub (smooth_div
      (smooth_neg (smooth_un' (o := .square) (fun _ => trivial) (smooth_div (smooth_sub sx sm) ss es hs.ne')))
      s2 (b := 2) rfl two_ne_zero) sc) (smooth_un ss es hs)) (smooth_truncLogNorm
        (smooth_div (smooth_sub sl sm) ss es hs.ne') (smooth_div (smooth_sub sh sm) ss es hs.ne')
        (a := (lr - mr) / sr) (b := (hr - mr) / sr) ?_ ?_ ?_)))) m1) m2
  · rw [eval_div, eval_sub, el, em, es, fin_sub, fin_div hs.ne']
  · rw [eval_div, eval_sub, eh, em, es, fin_sub, fin_div hs.ne']
  · gcongr

/-- `truncnorm` on jax as a function of its hyper-parameters. -/
def truncnormOf (x : ℝ) (θ : String → ℝ) : Except PyErr Fl :=
  truncnorm .jax (pos (fin x)) (kw (fin (θ "mu"))) (kw (fin (θ "sigma"))) (kw (fin (θ "high")))
    (kw (fin (θ "low")))

/-- The recorded computation. -/
def truncnormRec (x : ℝ) : Ex :=
  truncnormEx (const (fin x)) (arg "mu") (arg "sigma") (arg "high") (arg "low")

theorem truncnorm_traces (x : ℝ) : Traces (truncnormRec x) (truncnormOf x) := fun θ =>
  trace_truncnorm (envOf θ) (const (fin x)) (arg "mu") (arg "sigma") (arg "high") (arg "low") _ _ _ _ _

/-- **C92.** jax returns the derivatives of the truncated normal distribution for all means, widths
and windows, inside and outside the window, whichever form of the normalisation is chosen and also
where the choice changes. -/
theorem C92_truncnorm {x : ℝ} {θ : String → ℝ} (hs : 0 < θ "sigma") (hlh : θ "low" < θ "high")
    (h1 : x ≠ θ "low") (h2 : x ≠ θ "high") (v : String) :
    GradientRight (truncnormOf x) (truncnormRec x) θ v :=
  gradientRight (truncnorm_traces x) <| smooth_truncnorm (smooth_const θ v x) trivial trivial trivial
    trivial rfl rfl rfl rfl hs hlh (smooth_mask trivial (smooth_const θ v x) rfl rfl h1.symm)
    (smooth_mask (smooth_const θ v x) trivial rfl rfl h2)

/-- A mean at the lower limit, where the form of the normalisation changes. -/
example : GradientRight (truncnormOf 0.5) (truncnormRec 0.5)
    (fun k => if k = "mu" then 0 else if k = "low" then 0 else 1) "mu" :=
  C92_truncnorm (by simp) (by simp) (by norm_num) (by simp; norm_num) _

end GW
