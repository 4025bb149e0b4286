import Verif.Model.Utils
import Verif.Lemmas.Density

/-!
# C01, C02, C66, C67: power law and keyword conditions
-/

noncomputable section

open MeasureTheory Set Classical

namespace GW

open Fl Spec

/-! ## C02: keyword conditions -/

/-- When a condition is met by the elements of an argument (specification). -/
def Spec.condHolds : Cond → List Fl → Prop
  | .callable p, v => p v
  | .opVal op val, v => ∀ x ∈ v, op x val
  | .badOp _, _ => False

/-- Some conditioned keyword argument fails its condition (specification). -/
def Spec.someViolated (conds : List (String × Cond)) (kwargs : Dict (List Fl)) : Prop :=
  ∃ kc ∈ conds, ∃ v, Dict.get? kwargs kc.1 = some v ∧ ¬ Spec.condHolds kc.2 v

theorem check_eq (c : Cond) (v : List Fl) :
    c.check v = if Spec.condHolds c v then .ok () else .error .valueError := by
  cases c with
  | callable p => by_cases h : p v <;> simp [Cond.check, Spec.condHolds, h]
  | opVal op val =>
    by_cases h : ∀ x ∈ v, op x val
    · rw [if_pos (show Spec.condHolds (.opVal op val) v from h)]
      exact if_neg (not_not.2 h)
    · rw [if_neg (show ¬ Spec.condHolds (.opVal op val) v from h)]
      exact if_pos h
  | badOp _ => simp [Cond.check, Spec.condHolds]

theorem checkConditions_eq (kwargs : Dict (List Fl)) (conds : List (String × Cond)) :
    checkConditions kwargs conds =
      if Spec.someViolated conds kwargs then .error .valueError else .ok () := by
  induction conds with
  | nil => simp [checkConditions, Spec.someViolated]
  | cons kc rest ih =>
    obtain ⟨key, c⟩ := kc
    have hsplit : Spec.someViolated ((key, c) :: rest) kwargs ↔
        (∃ v, Dict.get? kwargs key = some v ∧ ¬ Spec.condHolds c v) ∨
          Spec.someViolated rest kwargs := by
      simp [Spec.someViolated]
    rw [checkConditions, ih]
    cases hg : Dict.get? kwargs key with
    | none =>
      have : Spec.someViolated ((key, c) :: rest) kwargs ↔ Spec.someViolated rest kwargs := by
        rw [hsplit]; simp [hg]
      simp only [this]
    | some v =>
      simp only [check_eq]
      by_cases hc : Spec.condHolds c v
      · have : Spec.someViolated ((key, c) :: rest) kwargs ↔ Spec.someViolated rest kwargs := by
          rw [hsplit]; simp [hg, hc]
        simp only [this, if_pos hc]; rfl
      · have : Spec.someViolated ((key, c) :: rest) kwargs := by
          rw [hsplit]; exact Or.inl ⟨v, hg, hc⟩
        rw [if_neg hc, if_pos this]; rfl

/-- **C02.** A decorated call raises `ValueError` exactly when the backend is not jax and some
conditioned argument passed by keyword fails its condition; otherwise it is the undecorated call. -/
theorem C02_applyConditions_spec {β : Type} (b : Backend) (conds : List (String × Cond))
    (kwargs : Dict (List Fl)) (body : Except PyErr β) :
    applyConditions b conds kwargs body =
      if b ≠ .jax ∧ Spec.someViolated conds kwargs then .error .valueError else body := by
  unfold applyConditions
  by_cases hb : b = .jax
  · simp [hb]
  · rw [if_neg hb, checkConditions_eq]
    by_cases hv : Spec.someViolated conds kwargs
    · simp [hb, hv]; rfl
    · simp [hv]; rfl

/-- **C02.** Arguments passed positionally are never checked: without keywords the decorated call
is the undecorated call on every backend. -/
theorem C02_positional_never_checked {β : Type} (b : Backend) (conds : List (String × Cond))
    (body : Except PyErr β) : applyConditions b conds [] body = body := by
  rw [C02_applyConditions_spec, if_neg]
  rintro ⟨-, kc, -, v, hv, -⟩
  simp at hv

/-- **C02.** An array argument is refused as soon as one element fails. -/
theorem C02_array_checked_elementwise {β : Type} (key : String) (op : Fl → Fl → Prop) (v : Fl)
    (xs : List Fl) (body : Except PyErr β) (b : Backend) (hb : b ≠ .jax) :
    applyConditions b [(key, .opVal op v)] [(key, xs)] body =
      if ∀ x ∈ xs, op x v then body else .error .valueError := by
  rw [C02_applyConditions_spec]
  have : Spec.someViolated [(key, .opVal op v)] [(key, xs)] ↔ ¬ ∀ x ∈ xs, op x v := by
    simp [Spec.someViolated, Spec.condHolds, Dict.get?_cons]
  by_cases h : ∀ x ∈ xs, op x v
  · rw [if_neg (by rw [this]; tauto), if_pos h]
  · rw [if_pos ⟨hb, this.2 h⟩, if_neg h]

/-- Non-vacuity: a NaN element in a `sigma > 0` array argument is refused on numpy and accepted
on jax. -/
example : applyConditions .numpy [("sigma", .opVal opGt 0)] [("sigma", [fin 1, nan])]
      (.ok (fin 3)) = .error .valueError ∧
    applyConditions .jax [("sigma", .opVal opGt 0)] [("sigma", [fin 1, nan])]
      (.ok (fin 3)) = .ok (fin 3) := by
  constructor
  · rw [C02_array_checked_elementwise _ _ _ _ _ _ (by decide), if_neg]
    intro h; exact not_lt_nan (h nan (by simp))
  · rw [C02_applyConditions_spec, if_neg]; simp

/-! ## C01: normalisation of the power law -/

theorem powerlawBody_eq (py : Bool) {x a hi lo : ℝ} (h0 : 0 < lo) (h : lo < hi) (hx : 0 < x) :
    powerlawBody py (fin x) (fin a) (fin hi) (fin lo) =
      .ok (fin (normalised (fun t => t ^ a) lo hi x)) := by
  have hhi : 0 < hi := h0.trans h
  have e1 : pyDiv py (fin hi) (fin lo) = .ok (fin (hi / lo)) := by
    simp [pyDiv, fin_div h0.ne', h0.ne']
  have e2 : pyPow py (fin hi) (1 + fin a) = .ok (fin (hi ^ (1 + a))) := by
    simp [pyPow, hhi.ne', pow_fin_pos hhi]
  have e3 : pyPow py (fin lo) (1 + fin a) = .ok (fin (lo ^ (1 + a))) := by
    simp [pyPow, h0.ne', pow_fin_pos h0]
  have hr : 1 < hi / lo := (one_lt_div h0).2 h
  have hlog : Real.log (hi / lo) ≠ 0 := (Real.log_pos hr).ne'
  have key : (if eqf (fin a) (-1) then 1 / Fl.log (fin (hi / lo))
      else (1 + fin a) / (fin (hi ^ (1 + a)) - fin (lo ^ (1 + a)))) =
      fin ((∫ t in lo..hi, t ^ a)⁻¹) := by
    by_cases ha : a = -1
    · subst ha
      rw [if_pos (by simp), log_fin (by linarith), one_eq, fin_div hlog,
        integral_rpow_neg_one h0 h.le, one_div]
    · have hI := integral_rpow_of_ne h0 h.le ha
      have hp := integral_rpow_pos (a := a) h0 h
      have hne : hi ^ (1 + a) - lo ^ (1 + a) ≠ 0 := by
        intro hz; rw [hI, hz, zero_div] at hp; exact lt_irrefl _ hp
      rw [if_neg (by simpa using ha), one_eq, fin_add, fin_sub, fin_div hne, hI, inv_div]
  simp only [powerlawBody, e1, e2, e3]
  show Except.ok (Fl.pow (fin x) (fin a) * (if eqf (fin a) (-1) then _ else _) * _) = _
  rw [key, pow_fin_pos hx, fin_mul, fin_mul_ind]
  unfold normalised
  congr 2
  by_cases hm : lo ≤ x ∧ x ≤ hi
  · rw [if_pos hm, if_pos ⟨hm.2, hm.1⟩]; rfl
  · rw [if_neg hm, if_neg (fun h' => hm ⟨h'.2, h'.1⟩)]

/-- The decorated `powerlaw` in terms of its body. -/
theorem powerlaw_eq (b : Backend) (py : Bool) (xx alpha high low : Arg) :
    powerlaw b py xx alpha high low =
      if b ≠ .jax ∧ ((low.kw = true ∧ ¬ (0 ≤ low.val)) ∨ (alpha.kw = true ∧ eqf alpha.val 1))
      then .error .valueError
      else powerlawBody py xx.val alpha.val high.val low.val := by
  unfold powerlaw
  rw [C02_applyConditions_spec]
  have : Spec.someViolated [("low", .opVal opGe 0), ("alpha", .opVal opNe 1)]
      (kwargsOf [("xx", xx), ("alpha", alpha), ("high", high), ("low", low)]) ↔
      ((low.kw = true ∧ ¬ (0 ≤ low.val)) ∨ (alpha.kw = true ∧ eqf alpha.val 1)) := by
    rcases xx with ⟨_, _ | _⟩ <;> rcases alpha with ⟨_, _ | _⟩ <;> rcases high with ⟨_, _ | _⟩ <;>
      rcases low with ⟨_, _ | _⟩ <;>
      simp [Spec.someViolated, Spec.condHolds, kwargsOf, Dict.get?_cons, opGe, opNe]
  simp only [this]

/-- **C01.** For `0 < low < high` and every accepted spectral index, whatever way the arguments
are passed and on every backend, `powerlaw` returns the normalised power-law density at every
`x > 0`. -/
theorem C01_powerlaw_value (b : Backend) (py : Bool) (k₁ k₂ k₃ k₄ : Bool) {x a hi lo : ℝ}
    (h0 : 0 < lo) (h : lo < hi) (hx : 0 < x) (hacc : b = .jax ∨ k₂ = false ∨ a ≠ 1) :
    powerlaw b py ⟨fin x, k₁⟩ ⟨fin a, k₂⟩ ⟨fin hi, k₃⟩ ⟨fin lo, k₄⟩ =
      .ok (fin (normalised (fun t => t ^ a) lo hi x)) := by
  rw [powerlaw_eq, if_neg, powerlawBody_eq py h0 h hx]
  rintro ⟨hb, h' | h'⟩
  · exact h'.2 (by simpa using h0.le)
  · rcases hacc with hj | hk | ha
    · exact hb hj
    · simp [hk] at h'
    · exact ha (by simpa using h'.2)

/-- **C01.** `powerlaw` is a probability density on the positive half line, for every spectral
index (including the logarithmic case `-1`). -/
theorem C01_powerlaw_isDensity (b : Backend) (py : Bool) (k₁ k₂ k₃ k₄ : Bool) {a hi lo : ℝ}
    (h0 : 0 < lo) (h : lo < hi) (hacc : b = .jax ∨ k₂ = false ∨ a ≠ 1) :
    IsDensityOn (fun x : ℝ => powerlaw b py ⟨fin x, k₁⟩ ⟨fin a, k₂⟩ ⟨fin hi, k₃⟩ ⟨fin lo, k₄⟩)
      (Ioi 0) :=
  isDensityOn_normalised h.le (fun x hx => (Real.rpow_pos_of_pos (by linarith [hx.1]) _).le)
    (rpow_intervalIntegrable h0 h.le) (integral_rpow_pos h0 h).ne'
    (fun x hx => lt_of_lt_of_le h0 hx.1)
    (fun _ hx => C01_powerlaw_value b py k₁ k₂ k₃ k₄ h0 h hx hacc)

/-- **C01.** With numpy scalars the lower end may be 0 when the index is larger than -1. -/
theorem C01_powerlaw_value_low_zero (b : Backend) (k₁ k₂ k₃ k₄ : Bool) {x a hi : ℝ}
    (h : 0 < hi) (hx : 0 < x) (ha : -1 < a) (hacc : b = .jax ∨ k₂ = false ∨ a ≠ 1) :
    powerlaw b false ⟨fin x, k₁⟩ ⟨fin a, k₂⟩ ⟨fin hi, k₃⟩ ⟨fin 0, k₄⟩ =
      .ok (fin (normalised (fun t => t ^ a) 0 hi x)) := by
  rw [powerlaw_eq, if_neg]
  · have ha1 : 0 < 1 + a := by linarith
    have e2 : pyPow false (fin hi) (1 + fin a) = .ok (fin (hi ^ (1 + a))) := by
      simp [pyPow, pow_fin_pos h]
    have e3 : pyPow false (fin 0) (1 + fin a) = .ok (fin 0) := by
      simp [pyPow, pow_fin, powFin, ha1, ha1.ne']
    have e1 : pyDiv false (fin hi) (fin 0) = .ok pinf := by
      simp [pyDiv, signInf_pos h]
    have hI : ∫ t in (0 : ℝ)..hi, t ^ a = hi ^ (1 + a) / (1 + a) := by
      rw [integral_rpow (Or.inl ha), add_comm a 1, Real.zero_rpow ha1.ne', sub_zero]
    have hp : (0 : ℝ) < hi ^ (1 + a) := Real.rpow_pos_of_pos h _
    simp only [powerlawBody, e1, e2, e3]
    show Except.ok (Fl.pow (fin x) (fin a) * (if eqf (fin a) (-1) then _ else _) * _) = _
    rw [if_neg (by simp; linarith), one_eq, fin_add, fin_sub, sub_zero, fin_div hp.ne',
      pow_fin_pos hx, fin_mul, fin_mul_ind]
    unfold normalised
    rw [hI]
    congr 2
    by_cases hm : 0 ≤ x ∧ x ≤ hi
    · rw [if_pos hm, if_pos ⟨hm.2, hm.1⟩, div_div_eq_mul_div, mul_div_assoc]
    · rw [if_neg hm, if_neg (fun h' => hm ⟨h'.2, h'.1⟩)]
  · rintro ⟨hb, h' | h'⟩
    · exact h'.2 (by simp)
    · rcases hacc with hj | hk | ha
      · exact hb hj
      · simp [hk] at h'
      · exact ha (by simpa using h'.2)

/-- Non-vacuity of C01: the logarithmic index, passed by keyword on numpy with Python floats;
at `x = 2` the density on `[1, 4]` is `1 / (2 log 4)`. -/
example : powerlaw .numpy true (kw (fin 2)) (kw (fin (-1))) (kw (fin 4)) (kw (fin 1)) =
    .ok (fin (1 / (2 * Real.log 4))) := by
  have := C01_powerlaw_value .numpy true true true true true (x := 2) (a := -1) (hi := 4) (lo := 1)
    (by norm_num) (by norm_num) (by norm_num) (Or.inr (Or.inr (by norm_num)))
  refine this.trans ?_
  congr 2
  rw [normalised, if_pos (by norm_num), integral_rpow_neg_one (by norm_num) (by norm_num),
    Real.rpow_neg_one]
  norm_num
  ring

/-! ## C66: which parameters are refused -/

/-- Full statement of C66: with all arguments passed by keyword, no spectral index is refused as
long as `0 ≤ low < high`. -/
def C66_statement : Prop :=
  ∀ (b : Backend) (py : Bool) (x a hi lo : ℝ), 0 ≤ lo → lo < hi →
    ∃ y, powerlaw b py (kw (fin x)) (kw (fin a)) (kw (fin hi)) (kw (fin lo)) = .ok y

/-- **C66 fails**: the regular spectral index 1 is refused (for all bounds and all `x`). -/
theorem C66_alpha_one_refused (b : Backend) (hb : b ≠ .jax) (py : Bool) (x hi lo : Fl) :
    powerlaw b py (kw x) (kw (fin 1)) (kw hi) (kw lo) = .error .valueError := by
  rw [powerlaw_eq, if_pos]
  exact ⟨hb, Or.inr ⟨rfl, by simp⟩⟩

/-- **C66 fails**: the allowed lower end 0 raises `ZeroDivisionError` for Python floats, for
every index other than 1. -/
theorem C66_low_zero_zeroDivision (b : Backend) (x a hi : ℝ) (ha : a ≠ 1) :
    powerlaw b true (kw (fin x)) (kw (fin a)) (kw (fin hi)) (kw (fin 0)) =
      .error .zeroDivision := by
  rw [powerlaw_eq, if_neg]
  · have e1 : pyDiv true (fin hi) (fin 0) = .error .zeroDivision := by simp [pyDiv]
    simp only [powerlawBody, kw_val, e1]
    rfl
  · rintro ⟨-, h | h⟩
    · exact h.2 (by simp)
    · exact ha (by simpa using h.2)

theorem C66_fails : ¬ C66_statement := by
  intro h
  obtain ⟨y, hy⟩ := h .numpy false 2 1 4 1 (by norm_num) (by norm_num)
  rw [C66_alpha_one_refused _ (by decide)] at hy
  cases hy

/-- **C66, what holds.** Exactly which calls with keyword arguments are refused on numpy/cupy, for
arbitrary floats: `ValueError` iff `low` is negative or NaN or `alpha` equals 1; else
`ZeroDivisionError` iff the numbers are Python floats and `low` is zero (or `high` is zero and
`1 + alpha` negative); else a number is returned. -/
theorem C66_refusal_partial (b : Backend) (hb : b ≠ .jax) (py : Bool) (x a hi lo : Fl) :
    let r := powerlaw b py (kw x) (kw a) (kw hi) (kw lo)
    (r = .error .valueError ↔ ¬ (0 ≤ lo) ∨ eqf a 1) ∧
    (r = .error .zeroDivision ↔ (0 ≤ lo ∧ ¬ eqf a 1) ∧ py = true ∧
      (eqf lo 0 ∨ (eqf hi 0 ∧ 1 + a < 0))) ∧
    ((∃ y, r = .ok y) ↔ (0 ≤ lo ∧ ¬ eqf a 1) ∧
      ¬ (py = true ∧ (eqf lo 0 ∨ (eqf hi 0 ∧ 1 + a < 0)))) := by
  intro r
  have hr : r = if (¬ (0 ≤ lo) ∨ eqf a 1) then .error .valueError
      else powerlawBody py x a hi lo := by
    simp only [r, powerlaw_eq]
    simp [hb]
  by_cases hV : ¬ (0 ≤ lo) ∨ eqf a 1
  · rw [if_pos hV] at hr
    have hN : ¬ (0 ≤ lo ∧ ¬ eqf a 1) := by tauto
    simp only [hr, hV, hN]
    simp
  · have hN : (0 ≤ lo ∧ ¬ eqf a 1) := by tauto
    rw [if_neg hV] at hr
    by_cases h1 : py = true ∧ eqf lo 0
    · have e1 : pyDiv py hi lo = .error .zeroDivision := by simp [pyDiv, h1.1]; exact h1.2
      have : r = .error .zeroDivision := by
        rw [hr, powerlawBody, e1]; rfl
      simp only [this, hN, h1.1, h1.2]
      simp
    · have e1 : pyDiv py hi lo = .ok (hi / lo) := by rw [pyDiv, if_neg h1]
      by_cases h2 : py = true ∧ eqf hi 0 ∧ 1 + a < 0
      · have e2 : pyPow py hi (1 + a) = .error .zeroDivision := by rw [pyPow, if_pos h2]
        have : r = .error .zeroDivision := by
          rw [hr, powerlawBody, e1, e2]; rfl
        simp only [this, hN, h2.1, h2.2]
        simp
      · have e2 : pyPow py hi (1 + a) = .ok (Fl.pow hi (1 + a)) := by rw [pyPow, if_neg h2]
        have e3 : pyPow py lo (1 + a) = .ok (Fl.pow lo (1 + a)) := by
          rw [pyPow, if_neg (fun h => h1 ⟨h.1, h.2.1⟩)]
        have : ∃ y, r = .ok y := by
          rw [hr, powerlawBody, e1, e2, e3]; exact ⟨_, rfl⟩
        obtain ⟨y, hy⟩ := this
        have h3 : ¬ (py = true ∧ (eqf lo 0 ∨ (eqf hi 0 ∧ 1 + a < 0))) := by tauto
        have h4 : ¬ ((0 ≤ lo ∧ ¬ eqf a 1) ∧ py = true ∧
            (eqf lo 0 ∨ (eqf hi 0 ∧ 1 + a < 0))) := by tauto
        rw [hy]
        refine ⟨⟨fun h => by simp at h, fun h => (hV h).elim⟩,
          ⟨fun h => by simp at h, fun h => (h4 h).elim⟩, ⟨fun _ => ⟨hN, h3⟩, fun _ => ⟨y, rfl⟩⟩⟩

/-- Non-vacuity: an ordinary keyword call is accepted. -/
example : ∃ y, powerlaw .numpy true (kw (fin 2)) (kw (fin (-2))) (kw (fin 4)) (kw (fin 1)) =
    .ok y :=
  ((C66_refusal_partial .numpy (by decide) true (fin 2) (fin (-2)) (fin 4) (fin 1)).2.2).2
    (by simp; norm_num)

/-! ## C67: outside the support -/

/-- Full statement of C67. -/
def C67_statement : Prop :=
  ∀ (x a hi lo : ℝ), 0 < lo → lo < hi → ¬ (lo ≤ x ∧ x ≤ hi) →
    powerlaw .numpy false (pos (fin x)) (pos (fin a)) (pos (fin hi)) (pos (fin lo)) = .ok (fin 0)

/-- The general value at a point outside the support. -/
theorem powerlaw_outside (b : Backend) (py : Bool) {x a hi lo : ℝ} (h0 : 0 < lo) (h : lo < hi)
    (hx : ¬ (lo ≤ x ∧ x ≤ hi)) :
    powerlaw b py (pos (fin x)) (pos (fin a)) (pos (fin hi)) (pos (fin lo)) =
      .ok (if x < 0 ∧ ¬ isInt a ∨ x = 0 ∧ a < 0 then nan else fin 0) := by
  have hbase := powerlawBody_eq py (a := a) h0 h (x := lo / 2) (by linarith)
  have hnorm : ∃ c : ℝ, 0 < c ∧ ∀ y : Fl, powerlawBody py y (fin a) (fin hi) (fin lo) =
      .ok (Fl.pow y (fin a) * fin c * ind (y ≤ fin hi ∧ fin lo ≤ y)) := by
    have hhi : 0 < hi := h0.trans h
    have hr : 1 < hi / lo := (one_lt_div h0).2 h
    have hlog : 0 < Real.log (hi / lo) := Real.log_pos hr
    refine ⟨(∫ t in lo..hi, t ^ a)⁻¹, inv_pos.2 (integral_rpow_pos h0 h), fun y => ?_⟩
    have e1 : pyDiv py (fin hi) (fin lo) = .ok (fin (hi / lo)) := by
      simp [pyDiv, fin_div h0.ne', h0.ne']
    have e2 : pyPow py (fin hi) (1 + fin a) = .ok (fin (hi ^ (1 + a))) := by
      simp [pyPow, hhi.ne', pow_fin_pos hhi]
    have e3 : pyPow py (fin lo) (1 + fin a) = .ok (fin (lo ^ (1 + a))) := by
      simp [pyPow, h0.ne', pow_fin_pos h0]
    have key : (if eqf (fin a) (-1) then 1 / Fl.log (fin (hi / lo))
        else (1 + fin a) / (fin (hi ^ (1 + a)) - fin (lo ^ (1 + a)))) =
        fin ((∫ t in lo..hi, t ^ a)⁻¹) := by
      by_cases ha : a = -1
      · subst ha
        rw [if_pos (by simp), log_fin (by linarith), one_eq, fin_div hlog.ne',
          integral_rpow_neg_one h0 h.le, one_div]
      · have hI := integral_rpow_of_ne h0 h.le ha
        have hp := integral_rpow_pos (a := a) h0 h
        have hne : hi ^ (1 + a) - lo ^ (1 + a) ≠ 0 := by
          intro hz; rw [hI, hz, zero_div] at hp; exact lt_irrefl _ hp
        rw [if_neg (by simpa using ha), one_eq, fin_add, fin_sub, fin_div hne, hI, inv_div]
    simp only [powerlawBody, e1, e2, e3]
    show Except.ok (Fl.pow y (fin a) * (if eqf (fin a) (-1) then _ else _) * _) = _
    rw [key]
  obtain ⟨c, hc, hbody⟩ := hnorm
  rw [powerlaw_eq, if_neg (by simp)]
  simp only [pos_val]
  rw [hbody, ind_false (by simp only [fin_le]; tauto)]
  congr 1
  rcases lt_trichotomy x 0 with hx0 | hx0 | hx0
  · by_cases hint : isInt a
    · rw [if_neg (by simp [hint, hx0.ne]), pow_fin, powFin, if_neg (by linarith),
        if_neg hx0.ne, if_pos hint]
      simp
    · rw [if_pos (Or.inl ⟨hx0, hint⟩), pow_fin, powFin, if_neg (by linarith),
        if_neg hx0.ne, if_neg hint]
      simp
  · subst hx0
    rw [pow_fin, powFin, if_neg (lt_irrefl _), if_pos rfl]
    rcases lt_trichotomy a 0 with ha | ha | ha
    · rw [if_neg ha.ne, if_neg (by linarith), if_pos (Or.inr ⟨rfl, ha⟩),
        pinf_mul_fin, signInf_pos hc, pinf_mul_fin, signInf_zero]
    · subst ha; simp
    · rw [if_neg ha.ne', if_pos ha, if_neg (by simp; linarith)]
      simp
  · rw [pow_fin_pos hx0, if_neg (by rintro (h | h) <;> linarith [h.1])]
    simp

/-- **C67 fails**: at `x = 0` with a negative index (the usual mass spectrum) the value is NaN. -/
theorem C67_fails : ¬ C67_statement := by
  intro h
  have := h 0 (-2) 4 1 (by norm_num) (by norm_num) (by norm_num)
  rw [powerlaw_outside _ _ (by norm_num) (by norm_num) (by norm_num)] at this
  rw [if_pos (Or.inr ⟨rfl, by norm_num⟩)] at this
  cases this

/-- **C67, what holds.** Outside the support the value is 0 at every `x > 0`, at `x = 0` for
`alpha ≥ 0` and at `x < 0` for integer `alpha`; it is NaN in exactly the remaining cases. -/
theorem C67_outside_support_partial (b : Backend) (py : Bool) {x a hi lo : ℝ} (h0 : 0 < lo)
    (h : lo < hi) (hx : ¬ (lo ≤ x ∧ x ≤ hi)) :
    let r := powerlaw b py (pos (fin x)) (pos (fin a)) (pos (fin hi)) (pos (fin lo))
    (r = .ok (fin 0) ↔ 0 < x ∨ (x = 0 ∧ 0 ≤ a) ∨ (x < 0 ∧ ∃ n : ℤ, (n : ℝ) = a)) ∧
    (r = .ok nan ↔ ¬ (0 < x ∨ (x = 0 ∧ 0 ≤ a) ∨ (x < 0 ∧ ∃ n : ℤ, (n : ℝ) = a))) := by
  intro r
  have hr : r = _ := powerlaw_outside b py h0 h hx (a := a)
  have hiff : (x < 0 ∧ ¬ isInt a ∨ x = 0 ∧ a < 0) ↔
      ¬ (0 < x ∨ (x = 0 ∧ 0 ≤ a) ∨ (x < 0 ∧ ∃ n : ℤ, (n : ℝ) = a)) := by
    unfold isInt
    rcases lt_trichotomy x 0 with hx0 | hx0 | hx0
    · have h1 : ¬ (0 < x) := by linarith
      have h2 : ¬ (x = 0) := by linarith
      simp only [hx0, h1, h2]; simp
    · subst hx0; simp
    · have h1 : ¬ (x < 0) := by linarith
      have h2 : ¬ (x = 0) := by linarith
      simp only [hx0, h1, h2]; simp
  rw [hr]
  by_cases hc : (x < 0 ∧ ¬ isInt a ∨ x = 0 ∧ a < 0)
  · have hc' := hiff.1 hc
    rw [if_pos hc]
    exact ⟨⟨fun h => by simp at h, fun h => (hc' h).elim⟩, ⟨fun _ => hc', fun _ => rfl⟩⟩
  · have hc' : (0 < x ∨ (x = 0 ∧ 0 ≤ a) ∨ (x < 0 ∧ ∃ n : ℤ, (n : ℝ) = a)) := by
      by_contra hn; exact hc (hiff.2 hn)
    rw [if_neg hc]
    exact ⟨⟨fun _ => hc', fun _ => rfl⟩, ⟨fun h => by simp at h, fun h => (h hc').elim⟩⟩

/-- Non-vacuity: a mass above the upper bound. -/
example : powerlaw .numpy true (pos (fin 50)) (pos (fin (-2))) (pos (fin 4)) (pos (fin 1)) =
    .ok (fin 0) :=
  ((C67_outside_support_partial .numpy true (by norm_num) (by norm_num) (by norm_num)).1).2
    (Or.inl (by norm_num))

end GW
