import Verif.Model.Conversions
import Verif.Model.Utils
import Verif.Props.BetaDist

/-!
# C11, C12, C13, C68: Beta parameter conversions
-/

noncomputable section

open Classical MeasureTheory

namespace GW

open Fl Spec ProbabilityTheory

/-! ## C11 -/

theorem alphaBetaMaxToMuVarMax_eq (py : Bool) {a b m : ℝ} (ha : 0 < a) (hb : 0 < b) :
    alphaBetaMaxToMuVarMax py (fin a) (fin b) (fin m) =
      .ok (fin (a / (a + b) * m), fin (a * b / ((a + b) ^ 2 * (a + b + 1)) * m ^ 2), fin m) := by
  have h1 : a + b ≠ 0 := by positivity
  have h2 : (a + b) ^ 2 * (a + b + 1) ≠ 0 := by positivity
  have e1 : pyDiv py (fin a) (fin a + fin b) = .ok (fin (a / (a + b))) := by
    simp [pyDiv, fin_div h1, h1]
  have e2 : pyDiv py (fin a * fin b) ((fin a + fin b) ^ 2 * (fin a + fin b + 1)) =
      .ok (fin (a * b / ((a + b) ^ 2 * (a + b + 1)))) := by
    simp only [fin_add, fin_mul, fin_npow, one_eq, pyDiv, fin_div h2, zero_eq, eqf_fin]
    rw [if_neg (fun h => h2 h.2)]
  simp only [alphaBetaMaxToMuVarMax, e1, e2]
  show Except.ok _ = _
  simp

theorem muVarMaxToAlphaBetaMax_eq (py : Bool) {mu var m : ℝ} (hm : m ≠ 0) (hv : var ≠ 0) :
    muVarMaxToAlphaBetaMax py (fin mu) (fin var) (fin m) =
      .ok (fin (((mu / m) ^ 2 * (1 - mu / m) - mu / m * (var / m ^ 2)) / (var / m ^ 2)),
        fin (((mu / m) * (1 - mu / m) ^ 2 - (1 - mu / m) * (var / m ^ 2)) / (var / m ^ 2)),
        fin m) := by
  have h2 : m ^ 2 ≠ 0 := pow_ne_zero _ hm
  have h3 : var / m ^ 2 ≠ 0 := div_ne_zero hv h2
  have e1 : pyDiv py (fin mu) (fin m) = .ok (fin (mu / m)) := by simp [pyDiv, fin_div hm, hm]
  have e2 : pyDiv py (fin var) (fin m ^ 2) = .ok (fin (var / m ^ 2)) := by
    rw [fin_npow]; simp [pyDiv, fin_div h2, hm]
  have e3 : ∀ n : ℝ, pyDiv py (fin n) (fin (var / m ^ 2)) = .ok (fin (n / (var / m ^ 2))) := by
    intro n
    rw [pyDiv, fin_div h3, if_neg]
    rintro ⟨-, h⟩; exact h3 h
  simp only [muVarMaxToAlphaBetaMax, e1]
  show (do
    let var ← pyDiv py (fin var) (fin m ^ 2)
    _ : Except PyErr _) = _
  rw [e2]
  show (do
    let alpha ← pyDiv py _ (fin (var / m ^ 2))
    _ : Except PyErr _) = _
  simp only [one_eq, fin_npow, fin_sub, fin_mul, e3]
  rfl

/-- **C11.** `(alpha, beta, amax) -> (mu, var, amax) -> (alpha, beta, amax)` is the identity for
all positive parameters, for Python and numpy floats. -/
theorem C11_roundtrip_alphaBeta (py : Bool) {a b m : ℝ} (ha : 0 < a) (hb : 0 < b) (hm : 0 < m) :
    (do
      let (mu, var, mx) ← alphaBetaMaxToMuVarMax py (fin a) (fin b) (fin m)
      muVarMaxToAlphaBetaMax py mu var mx) = .ok (fin a, fin b, fin m) := by
  rw [alphaBetaMaxToMuVarMax_eq py ha hb]
  have hv : a * b / ((a + b) ^ 2 * (a + b + 1)) * m ^ 2 ≠ 0 := by positivity
  refine (muVarMaxToAlphaBetaMax_eq py hm.ne' hv).trans ?_
  have hab : a + b ≠ 0 := by positivity
  have hab1 : a + b + 1 ≠ 0 := by positivity
  congr 3
  · field_simp
    ring
  · congr 1
    field_simp
    ring

/-- Positivity of the converted parameters. -/
theorem alphaBeta_pos_iff {mu var m : ℝ} (hm : 0 < m) (hv : 0 < var) :
    (0 < ((mu / m) ^ 2 * (1 - mu / m) - mu / m * (var / m ^ 2)) / (var / m ^ 2) ∧
      0 < ((mu / m) * (1 - mu / m) ^ 2 - (1 - mu / m) * (var / m ^ 2)) / (var / m ^ 2)) ↔
    (0 < mu ∧ mu < m ∧ var < mu * (m - mu)) := by
  have hv' : 0 < var / m ^ 2 := by positivity
  set u := mu / m with hu
  set v := var / m ^ 2 with hvv
  have hmu : mu = u * m := by rw [hu]; field_simp
  have hvar : var = v * m ^ 2 := by rw [hvv]; field_simp
  have h1 : (0 < (u ^ 2 * (1 - u) - u * v) / v) ↔ 0 < u * (u * (1 - u) - v) := by
    rw [lt_div_iff₀ hv', zero_mul, show u ^ 2 * (1 - u) - u * v = u * (u * (1 - u) - v) by ring]
  have h2 : (0 < (u * (1 - u) ^ 2 - (1 - u) * v) / v) ↔ 0 < (1 - u) * (u * (1 - u) - v) := by
    rw [lt_div_iff₀ hv', zero_mul,
      show u * (1 - u) ^ 2 - (1 - u) * v = (1 - u) * (u * (1 - u) - v) by ring]
  rw [h1, h2, hmu, hvar]
  constructor
  · rintro ⟨p1, p2⟩
    have hw : 0 < u * (u * (1 - u) - v) + (1 - u) * (u * (1 - u) - v) := by linarith
    have hw' : 0 < u * (1 - u) - v := by
      have : u * (u * (1 - u) - v) + (1 - u) * (u * (1 - u) - v) = u * (1 - u) - v := by ring
      linarith
    have hu0 : 0 < u := pos_of_mul_pos_left p1 hw'.le
    have hu1 : 0 < 1 - u := pos_of_mul_pos_left p2 hw'.le
    refine ⟨by positivity, by nlinarith, ?_⟩
    have : u * m * (m - u * m) - v * m ^ 2 = (u * (1 - u) - v) * m ^ 2 := by ring
    have h3 : 0 < (u * (1 - u) - v) * m ^ 2 := by positivity
    linarith
  · rintro ⟨p1, p2, p3⟩
    have hu0 : 0 < u := pos_of_mul_pos_left p1 hm.le
    have hu1 : 0 < 1 - u := by
      by_contra hn
      have : m ≤ u * m := by nlinarith
      linarith
    have hw' : 0 < u * (1 - u) - v := by
      have : u * m * (m - u * m) - v * m ^ 2 = (u * (1 - u) - v) * m ^ 2 := by ring
      have h3 : 0 < (u * (1 - u) - v) * m ^ 2 := by linarith
      exact pos_of_mul_pos_left h3 (by positivity)
    exact ⟨by positivity, by positivity⟩

/-- **C11.** `(mu, var, amax) -> (alpha, beta, amax) -> (mu, var, amax)` is the identity for all
`0 < mu < amax` and `0 < var < mu (amax - mu)`; these are exactly the inputs with positive shape
parameters. -/
theorem C11_roundtrip_muVar (py : Bool) {mu var m : ℝ} (hm : 0 < m) (hv : 0 < var) :
    ∃ a b : ℝ, muVarMaxToAlphaBetaMax py (fin mu) (fin var) (fin m) = .ok (fin a, fin b, fin m) ∧
      ((0 < a ∧ 0 < b) ↔ (0 < mu ∧ mu < m ∧ var < mu * (m - mu))) ∧
      (0 < a → 0 < b →
        alphaBetaMaxToMuVarMax py (fin a) (fin b) (fin m) = .ok (fin mu, fin var, fin m)) := by
  refine ⟨_, _, muVarMaxToAlphaBetaMax_eq py hm.ne' hv.ne', alphaBeta_pos_iff hm hv, ?_⟩
  intro ha hb
  rw [alphaBetaMaxToMuVarMax_eq py ha hb]
  obtain ⟨p1, p2, p3⟩ := (alphaBeta_pos_iff hm hv).1 ⟨ha, hb⟩
  have hv' : 0 < var / m ^ 2 := by positivity
  set u := mu / m with hu
  set v := var / m ^ 2 with hvv
  have hmu : mu = u * m := by rw [hu]; field_simp
  have hvar : var = v * m ^ 2 := by rw [hvv]; field_simp
  have hvn : v ≠ 0 := hv'.ne'
  have hsum : (u ^ 2 * (1 - u) - u * v) / v + (u * (1 - u) ^ 2 - (1 - u) * v) / v =
      (u * (1 - u) - v) / v := by field_simp; ring
  have hw : 0 < u * (1 - u) - v := by
    have h3 : 0 < (u * (1 - u) - v) / v := by rw [← hsum]; linarith
    rw [lt_div_iff₀ hv', zero_mul] at h3; exact h3
  have hu0 : 0 < u := by rw [hu]; positivity
  have hu1 : 0 < 1 - u := by
    have : u < 1 := by rw [hu]; exact (div_lt_one hm).2 p2
    linarith
  rw [hsum]
  have e1 : (u ^ 2 * (1 - u) - u * v) / v / ((u * (1 - u) - v) / v) * m = mu := by
    rw [hmu]; field_simp
  have e2 : (u ^ 2 * (1 - u) - u * v) / v * ((u * (1 - u) ^ 2 - (1 - u) * v) / v) /
      (((u * (1 - u) - v) / v) ^ 2 * ((u * (1 - u) - v) / v + 1)) * m ^ 2 = var := by
    have : (u * (1 - u) - v) / v + 1 = u * (1 - u) / v := by field_simp; ring
    rw [this, hvar,
      show u ^ 2 * (1 - u) - u * v = u * (u * (1 - u) - v) by ring,
      show u * (1 - u) ^ 2 - (1 - u) * v = (1 - u) * (u * (1 - u) - v) by ring]
    field_simp
  rw [e1, e2]

/-- **C11.** Also for other means and variances, with shape parameters that are not positive, the composition is the
identity, unless the variance is `mu (amax - mu)`. -/
theorem C11_roundtrip_everywhere (py : Bool) {mu var m : ℝ} (hm : m ≠ 0) (hmu : mu ≠ 0) (hmm : mu ≠ m) (hv : var ≠ 0)
    (hne : var ≠ mu * (m - mu)) :
    (do
      let (a, b, mx) ← muVarMaxToAlphaBetaMax py (fin mu) (fin var) (fin m)
      alphaBetaMaxToMuVarMax py a b mx) = .ok (fin mu, fin var, fin m) := by
  rw [muVarMaxToAlphaBetaMax_eq py hm hv, ok_bind]
  simp only
  set u := mu / m with hu
  set v := var / m ^ 2 with hvv
  have hmu' : mu = u * m := by rw [hu]; field_simp
  have hvar : var = v * m ^ 2 := by rw [hvv]; field_simp
  have hvn : v ≠ 0 := by rw [hvv]; positivity
  have hu0 : u ≠ 0 := by rw [hu]; positivity
  have hu1 : 1 - u ≠ 0 := by
    intro h
    apply hmm
    rw [hmu', show u = 1 by linarith, one_mul]
  have hw : u * (1 - u) - v ≠ 0 := by
    intro h
    apply hne
    rw [hvar, hmu', show v = u * (1 - u) by linarith]
    ring
  have hsum : (u ^ 2 * (1 - u) - u * v) / v + (u * (1 - u) ^ 2 - (1 - u) * v) / v =
      (u * (1 - u) - v) / v := by field_simp; ring
  have hsum1 : (u * (1 - u) - v) / v + 1 = u * (1 - u) / v := by field_simp; ring
  have hs0 : (u * (1 - u) - v) / v ≠ 0 := div_ne_zero hw hvn
  have hs1 : u * (1 - u) / v ≠ 0 := div_ne_zero (mul_ne_zero hu0 hu1) hvn
  have e1 : (u ^ 2 * (1 - u) - u * v) / v / ((u * (1 - u) - v) / v) * m = mu := by
    rw [hmu', show u ^ 2 * (1 - u) - u * v = u * (u * (1 - u) - v) by ring]; field_simp
  have e2 : (u ^ 2 * (1 - u) - u * v) / v * ((u * (1 - u) ^ 2 - (1 - u) * v) / v) /
      (((u * (1 - u) - v) / v) ^ 2 * (u * (1 - u) / v)) * m ^ 2 = var := by
    rw [hvar,
      show u ^ 2 * (1 - u) - u * v = u * (u * (1 - u) - v) by ring,
      show u * (1 - u) ^ 2 - (1 - u) * v = (1 - u) * (u * (1 - u) - v) by ring]
    field_simp
  have hd : ∀ a b : ℝ, b ≠ 0 → pyDiv py (fin a) (fin b) = .ok (fin (a / b)) := by
    intro a b hb
    rw [pyDiv, fin_div hb, if_neg]
    rintro ⟨-, h⟩
    exact hb h
  simp only [alphaBetaMaxToMuVarMax, fin_add, fin_mul, fin_npow, one_eq, hsum, hsum1, hd _ _ hs0,
    hd _ _ (mul_ne_zero (pow_ne_zero 2 hs0) hs1)]
  show Except.ok _ = _
  simp only [fin_mul, e1, e2]

/-- **C11**, the variance `mu (amax - mu)`: both shape parameters are zero, and mean and variance cannot be recovered
from them. -/
theorem C11_roundtrip_boundary (py : Bool) {mu m : ℝ} (hm : m ≠ 0) (hmu : mu ≠ 0) (hmm : mu ≠ m) :
    muVarMaxToAlphaBetaMax py (fin mu) (fin (mu * (m - mu))) (fin m) = .ok (fin 0, fin 0, fin m) ∧
    alphaBetaMaxToMuVarMax py (fin 0) (fin 0) (fin m) =
      if py then .error .zeroDivision else .ok (nan, nan, fin m) := by
  have h1 : mu * (m - mu) ≠ 0 := mul_ne_zero hmu (sub_ne_zero.2 (Ne.symm hmm))
  constructor
  · rw [muVarMaxToAlphaBetaMax_eq py hm h1]
    have h2 : m - mu ≠ 0 := sub_ne_zero.2 (Ne.symm hmm)
    congr 3
    · congr 1
      field_simp
      ring
    · congr 2
      field_simp
      ring
  · unfold alphaBetaMaxToMuVarMax
    cases py
    · simp [pyDiv, fin_add, fin_mul]
      rfl
    · simp [pyDiv, fin_add, fin_mul]
      rfl

/-- Non-vacuity of C11: a concrete pair. -/
example : muVarMaxToAlphaBetaMax true (fin (1 / 2)) (fin (1 / 20)) (fin 1) =
    .ok (fin 2, fin 2, fin 1) := by
  rw [muVarMaxToAlphaBetaMax_eq true (by norm_num) (by norm_num)]
  norm_num

/-- `C11_roundtrip_everywhere`: negative shape parameters. -/
example : muVarMaxToAlphaBetaMax false (fin (1 / 2)) (fin 1) (fin 1) = .ok (fin (-3 / 8), fin (-3 / 8), fin 1) ∧
    alphaBetaMaxToMuVarMax false (fin (-3 / 8)) (fin (-3 / 8)) (fin 1) = .ok (fin (1 / 2), fin 1, fin 1) := by
  have h := C11_roundtrip_everywhere false (mu := 1 / 2) (var := 1) (m := 1) (by norm_num) (by norm_num) (by norm_num)
    (by norm_num) (by norm_num)
  have e : muVarMaxToAlphaBetaMax false (fin (1 / 2)) (fin 1) (fin 1) = .ok (fin (-3 / 8), fin (-3 / 8), fin 1) := by
    rw [muVarMaxToAlphaBetaMax_eq false (by norm_num) (by norm_num)]
    norm_num
  rw [e] at h
  exact ⟨e, h⟩

/-! ## C12 -/

namespace Spec

/-- The shape parameters of this suffix are missing or `None`. -/
def shapeNeeded {V σ : Type} (ops : ConvOps V σ) (p : Dict V) (s : String) : Prop :=
  ¬ ∃ a b, Dict.get? p ("alpha_chi" ++ s) = some a ∧ Dict.get? p ("beta_chi" ++ s) = some b ∧
    ¬ ops.isNone a ∧ ¬ ops.isNone b

/-- Mean and variance of this suffix are present. -/
def momentsGiven {V : Type} (p : Dict V) (s : String) : Prop :=
  Dict.contains p ("mu_chi" ++ s) ∧ Dict.contains p ("sigma_chi" ++ s)

/-- The suffix is satisfied: its shape parameters are there already or can be computed. -/
def suffixAvailable {V σ : Type} (ops : ConvOps V σ) (p : Dict V) (s : String) : Prop :=
  ¬ shapeNeeded ops p s ∨ momentsGiven p s

/-- The suffixes whose shape parameters are to be computed, in order: `_1` and `_2` where needed
and possible, and the plain names only if neither `_1` nor `_2` is available. -/
def convertedSuffixes {V σ : Type} (ops : ConvOps V σ) (p : Dict V) : List String :=
  (if shapeNeeded ops p "_1" ∧ momentsGiven p "_1" then ["_1"] else []) ++
  (if shapeNeeded ops p "_2" ∧ momentsGiven p "_2" then ["_2"] else []) ++
  (if (¬ suffixAvailable ops p "_1" ∧ ¬ suffixAvailable ops p "_2") ∧
      shapeNeeded ops p "" ∧ momentsGiven p "" then [""] else [])

end Spec

theorem Dict.contains_of_get? {V : Type} {d : Dict V} {k : String} {v : V}
    (h : Dict.get? d k = some v) : Dict.contains d k := by
  rw [← Dict.get?_isSome_iff, h]; rfl

theorem Dict.get_eq_ok {V : Type} {d : Dict V} {k : String} (h : Dict.contains d k) :
    ∃ v, Dict.get? d k = some v ∧ Dict.get d k = .ok v := by
  rw [← Dict.get?_isSome_iff] at h
  obtain ⟨v, hv⟩ := Option.isSome_iff_exists.1 h
  exact ⟨v, hv, by rw [Dict.get, hv]⟩

theorem Dict.contains_set {V : Type} (d : Dict V) (k k' : String) (v : V) :
    Dict.contains (Dict.set d k v) k' ↔ k' = k ∨ Dict.contains d k' := by
  rw [← Dict.get?_isSome_iff, ← Dict.get?_isSome_iff, Dict.get?_set]
  by_cases h : k' = k <;> simp [h]

/-- `st` agrees with the parameters at all keys relevant for the suffix. -/
structure SuffixFresh {V σ : Type} (p : Dict V) (st : ConvState V σ) (s : String) : Prop where
  alpha : Dict.get? st.converted ("alpha_chi" ++ s) = Dict.get? p ("alpha_chi" ++ s)
  beta : Dict.get? st.converted ("beta_chi" ++ s) = Dict.get? p ("beta_chi" ++ s)
  mu : Dict.contains st.converted ("mu_chi" ++ s) ↔ Dict.contains p ("mu_chi" ++ s)
  sigma : Dict.contains st.converted ("sigma_chi" ++ s) ↔ Dict.contains p ("sigma_chi" ++ s)

theorem convertSuffix_eq {V σ : Type} (ops : ConvOps V σ) (p : Dict V) (remove : Bool) (s : String)
    (st : ConvState V σ) (hf : SuffixFresh p st s) :
    convertSuffix ops p remove s st =
      if shapeNeeded ops p s ∧ momentsGiven p s then (do
        let m ← Dict.get p ("mu_chi" ++ s)
        let v ← Dict.get p ("sigma_chi" ++ s)
        let x ← Dict.get p ("amax" ++ s)
        let ((a, b), w) ← ops.toAlphaBeta m v x st.world
        pure (true, ⟨Dict.set (Dict.set st.converted ("alpha_chi" ++ s) a) ("beta_chi" ++ s) b,
          if remove then st.added ++ ["alpha_chi" ++ s, "beta_chi" ++ s] else st.added, w⟩))
      else .ok (decide (suffixAvailable ops p s), st) := by
  have hn : conversionNeeded ops p st.converted ("alpha_chi" ++ s) ("beta_chi" ++ s) ↔
      shapeNeeded ops p s := by
    rw [conversionNeeded, hf.alpha, hf.beta, shapeNeeded]
    cases h1 : Dict.get? p ("alpha_chi" ++ s) with
    | none => simp
    | some a =>
      cases h2 : Dict.get? p ("beta_chi" ++ s) with
      | none => simp
      | some b => simp; tauto
  unfold convertSuffix
  simp only [hn]
  by_cases h1 : shapeNeeded ops p s
  · rw [if_pos h1]
    have hm : (Dict.contains st.converted ("mu_chi" ++ s) ∧
        Dict.contains st.converted ("sigma_chi" ++ s)) ↔ momentsGiven p s := by
      rw [hf.mu, hf.sigma]; rfl
    by_cases h2 : momentsGiven p s
    · rw [if_pos (hm.2 h2), if_pos (show shapeNeeded ops p s ∧ momentsGiven p s from ⟨h1, h2⟩)]
    · rw [if_neg (fun h => h2 (hm.1 h)), if_neg (fun h => h2 h.2)]
      have : ¬ suffixAvailable ops p s := by rintro (h | h) <;> tauto
      simp only [decide_eq_false this]; rfl
  · rw [if_neg h1, if_neg (fun h => h1 h.1)]
    have : suffixAvailable ops p s := Or.inl h1
    simp only [decide_eq_true this]; rfl


/-- Adding the two shape parameters of a suffix. -/
def Spec.addShape {V σ : Type} (ops : ConvOps V σ) (p : Dict V) (remove : Bool)
    (st : ConvState V σ) (s : String) : Except PyErr (ConvState V σ) := do
  let m ← Dict.get p ("mu_chi" ++ s)
  let v ← Dict.get p ("sigma_chi" ++ s)
  let x ← Dict.get p ("amax" ++ s)
  let ((a, b), w) ← ops.toAlphaBeta m v x st.world
  pure ⟨Dict.set (Dict.set st.converted ("alpha_chi" ++ s) a) ("beta_chi" ++ s) b,
    if remove then st.added ++ ["alpha_chi" ++ s, "beta_chi" ++ s] else st.added, w⟩

theorem append_inj_left' {a s t : String} : a ++ s = a ++ t ↔ s = t := by
  rw [← String.toList_inj, ← String.toList_inj (s₁ := s)]; simp

theorem alpha_ne_beta (s t : String) : "alpha_chi" ++ s ≠ "beta_chi" ++ t := by
  rw [Ne, ← String.toList_inj]; simp

theorem alpha_ne_mu (s t : String) : "mu_chi" ++ s ≠ "alpha_chi" ++ t := by
  rw [Ne, ← String.toList_inj]; simp

theorem beta_ne_mu (s t : String) : "mu_chi" ++ s ≠ "beta_chi" ++ t := by
  rw [Ne, ← String.toList_inj]; simp

theorem alpha_ne_sigma (s t : String) : "sigma_chi" ++ s ≠ "alpha_chi" ++ t := by
  rw [Ne, ← String.toList_inj]; simp

theorem beta_ne_sigma (s t : String) : "sigma_chi" ++ s ≠ "beta_chi" ++ t := by
  rw [Ne, ← String.toList_inj]; simp

theorem addShape_ok {V σ : Type} {ops : ConvOps V σ} {p : Dict V} {remove : Bool}
    {st st' : ConvState V σ} {s : String} (h : Spec.addShape ops p remove st s = .ok st') :
    ∃ m v x a b, Dict.get? p ("mu_chi" ++ s) = some m ∧ Dict.get? p ("sigma_chi" ++ s) = some v ∧
      Dict.get? p ("amax" ++ s) = some x ∧
      ops.toAlphaBeta m v x st.world = .ok ((a, b), st'.world) ∧
      st'.converted = Dict.set (Dict.set st.converted ("alpha_chi" ++ s) a) ("beta_chi" ++ s) b ∧
      st'.added = if remove then st.added ++ ["alpha_chi" ++ s, "beta_chi" ++ s] else st.added := by
  unfold Spec.addShape at h
  cases h1 : Dict.get? p ("mu_chi" ++ s) with
  | none => simp only [Dict.get, h1] at h; cases h
  | some m =>
    cases h2 : Dict.get? p ("sigma_chi" ++ s) with
    | none => simp only [Dict.get, h1, h2] at h; cases h
    | some v =>
      cases h3 : Dict.get? p ("amax" ++ s) with
      | none => simp only [Dict.get, h1, h2, h3] at h; cases h
      | some x =>
        simp only [Dict.get, h1, h2, h3] at h
        change (ops.toAlphaBeta m v x st.world >>= _) = _ at h
        cases h4 : ops.toAlphaBeta m v x st.world with
        | error e => rw [h4] at h; cases h
        | ok r =>
          obtain ⟨⟨a, b⟩, w⟩ := r
          rw [h4] at h
          cases h
          exact ⟨m, v, x, a, b, rfl, rfl, rfl, h4, rfl, rfl⟩

theorem SuffixFresh.step {V σ : Type} {ops : ConvOps V σ} {p : Dict V} {remove : Bool}
    {st st' : ConvState V σ} {s t : String} (hf : SuffixFresh p st t) (hst : t ≠ s)
    (h : Spec.addShape ops p remove st s = .ok st') : SuffixFresh p st' t := by
  obtain ⟨m, v, x, a, b, -, -, -, -, hc, -⟩ := addShape_ok h
  constructor
  · rw [hc, Dict.get?_set, if_neg (alpha_ne_beta _ _), Dict.get?_set,
      if_neg (fun h => hst (append_inj_left'.1 h)), hf.alpha]
  · rw [hc, Dict.get?_set, if_neg (fun h => hst (append_inj_left'.1 h)), Dict.get?_set,
      if_neg (alpha_ne_beta _ _).symm, hf.beta]
  · rw [hc, Dict.contains_set, Dict.contains_set, hf.mu]
    simp [alpha_ne_mu, beta_ne_mu]
  · rw [hc, Dict.contains_set, Dict.contains_set, hf.sigma]
    simp [alpha_ne_sigma, beta_ne_sigma]

theorem convertSuffix_eq' {V σ : Type} (ops : ConvOps V σ) (p : Dict V) (remove : Bool) (s : String)
    (st : ConvState V σ) (hf : SuffixFresh p st s) :
    convertSuffix ops p remove s st = (do
      let st' ← (if shapeNeeded ops p s ∧ momentsGiven p s then [s] else []).foldlM
        (Spec.addShape ops p remove) st
      pure (decide (suffixAvailable ops p s), st')) := by
  rw [convertSuffix_eq ops p remove s st hf]
  by_cases h : shapeNeeded ops p s ∧ momentsGiven p s
  · rw [if_pos h, if_pos h]
    have h2 : suffixAvailable ops p s := Or.inr h.2
    simp only [List.foldlM_cons, List.foldlM_nil, Spec.addShape, decide_eq_true h2, bind_assoc,
      pure_bind]
  · rw [if_neg h, if_neg h]
    rfl

/-- The function adds exactly the shape parameters of `Spec.convertedSuffixes`, in order. -/
theorem convert_eq {V σ : Type} (ops : ConvOps V σ) (p : Dict V) (remove : Bool) (w : σ) :
    convertToBetaParameters ops p remove w =
      (convertedSuffixes ops p).foldlM (Spec.addShape ops p remove) ⟨p, [], w⟩ := by
  have hf : ∀ t, SuffixFresh p (⟨p, [], w⟩ : ConvState V σ) t :=
    fun t => ⟨rfl, rfl, Iff.rfl, Iff.rfl⟩
  unfold convertToBetaParameters convertedSuffixes
  rw [List.foldlM_append, List.foldlM_append]
  show ((convertSuffix ops p remove "_1" ⟨p, [], w⟩) >>= _) = _
  rw [convertSuffix_eq' _ _ _ _ _ (hf _)]
  simp only [bind_assoc, pure_bind]
  cases h1 : (if shapeNeeded ops p "_1" ∧ momentsGiven p "_1" then ["_1"] else []).foldlM
        (Spec.addShape ops p remove) ⟨p, [], w⟩ with
  | error e => rfl
  | ok st1 =>
    have hf1 : ∀ t, t ≠ "_1" → SuffixFresh p st1 t := by
      intro t ht
      by_cases h : shapeNeeded ops p "_1" ∧ momentsGiven p "_1"
      · rw [if_pos h] at h1
        simp only [List.foldlM_cons, List.foldlM_nil, bind_pure] at h1
        exact (hf t).step ht h1
      · rw [if_neg h] at h1
        cases h1; exact hf t
    show ((convertSuffix ops p remove "_2" st1) >>= _) =
      ((if shapeNeeded ops p "_2" ∧ momentsGiven p "_2" then ["_2"] else []).foldlM
        (Spec.addShape ops p remove) st1 >>= fun st =>
        (if (¬ suffixAvailable ops p "_1" ∧ ¬ suffixAvailable ops p "_2") ∧
          shapeNeeded ops p "" ∧ momentsGiven p "" then [""] else []).foldlM
        (Spec.addShape ops p remove) st)
    rw [convertSuffix_eq' _ _ _ _ _ (hf1 "_2" (by decide))]
    simp only [bind_assoc, pure_bind]
    cases h2 : (if shapeNeeded ops p "_2" ∧ momentsGiven p "_2" then ["_2"] else []).foldlM
        (Spec.addShape ops p remove) st1 with
    | error e => rfl
    | ok st2 =>
      have hf2 : SuffixFresh p st2 "" := by
        by_cases h : shapeNeeded ops p "_2" ∧ momentsGiven p "_2"
        · rw [if_pos h] at h2
          simp only [List.foldlM_cons, List.foldlM_nil, bind_pure] at h2
          exact (hf1 "" (by decide)).step (by decide) h2
        · rw [if_neg h] at h2
          cases h2; exact hf1 "" (by decide)
      show (if _ then _ else _) =
        (if (¬ suffixAvailable ops p "_1" ∧ ¬ suffixAvailable ops p "_2") ∧
          shapeNeeded ops p "" ∧ momentsGiven p "" then [""] else []).foldlM
        (Spec.addShape ops p remove) st2
      simp only [decide_eq_true_eq, not_or]
      by_cases h : ¬ suffixAvailable ops p "_1" ∧ ¬ suffixAvailable ops p "_2"
      · rw [if_pos h, convertSuffix_eq' _ _ _ _ _ hf2]
        simp only [bind_assoc, pure_bind, bind_pure]
        simp only [h, not_false_eq_true, true_and]
      · rw [if_neg h, if_neg (fun h' => h h'.1)]
        rfl

/-- What a successful pass over the suffixes does. -/
theorem foldlM_addShape {V σ : Type} {ops : ConvOps V σ} {p : Dict V} {remove : Bool} :
    ∀ {L : List String} {st st' : ConvState V σ}, L.Nodup →
    L.foldlM (Spec.addShape ops p remove) st = .ok st' →
    (∀ k, (∀ s ∈ L, k ≠ "alpha_chi" ++ s ∧ k ≠ "beta_chi" ++ s) →
      Dict.get? st'.converted k = Dict.get? st.converted k) ∧
    (∀ s ∈ L, ∃ m v x a b w w', Dict.get? p ("mu_chi" ++ s) = some m ∧
      Dict.get? p ("sigma_chi" ++ s) = some v ∧ Dict.get? p ("amax" ++ s) = some x ∧
      ops.toAlphaBeta m v x w = .ok ((a, b), w') ∧
      Dict.get? st'.converted ("alpha_chi" ++ s) = some a ∧
      Dict.get? st'.converted ("beta_chi" ++ s) = some b) ∧
    st'.added = st.added ++
      (if remove then L.flatMap (fun s => ["alpha_chi" ++ s, "beta_chi" ++ s]) else []) := by
  intro L
  induction L with
  | nil =>
    intro st st' _ h
    cases h
    simp
  | cons s L ih =>
    intro st st' hn h
    rw [List.foldlM_cons] at h
    cases h1 : Spec.addShape ops p remove st s with
    | error e => rw [h1] at h; cases h
    | ok st1 =>
      rw [h1] at h
      obtain ⟨hs, hn'⟩ := List.nodup_cons.1 hn
      obtain ⟨i1, i2, i3⟩ := ih hn' h
      obtain ⟨m, v, x, a, b, e1, e2, e3, e4, e5, e6⟩ := addShape_ok h1
      have hk : ∀ t ∈ L, s ≠ t := fun t ht he => hs (he ▸ ht)
      refine ⟨?_, ?_, ?_⟩
      · intro k hk
        rw [i1 k (fun t ht => hk t (List.mem_cons_of_mem _ ht)), e5, Dict.get?_set,
          if_neg (hk s List.mem_cons_self).2, Dict.get?_set, if_neg (hk s List.mem_cons_self).1]
      · intro t ht
        rcases List.mem_cons.1 ht with rfl | ht
        · refine ⟨m, v, x, a, b, _, _, e1, e2, e3, e4, ?_, ?_⟩
          · rw [i1 _ (fun t' ht' => ⟨fun h => hk t' ht' (append_inj_left'.1 h),
              alpha_ne_beta _ _⟩), e5, Dict.get?_set, if_neg (alpha_ne_beta _ _), Dict.get?_set,
              if_pos rfl]
          · rw [i1 _ (fun t' ht' => ⟨(alpha_ne_beta _ _).symm,
              fun h => hk t' ht' (append_inj_left'.1 h)⟩), e5, Dict.get?_set, if_pos rfl]
        · exact i2 t ht
      · rw [i3, e6]
        cases remove <;> simp

theorem convertedSuffixes_nodup {V σ : Type} (ops : ConvOps V σ) (p : Dict V) :
    (convertedSuffixes ops p).Nodup := by
  unfold convertedSuffixes
  split_ifs <;> simp

theorem mem_convertedSuffixes {V σ : Type} {ops : ConvOps V σ} {p : Dict V} {s : String}
    (h : s ∈ convertedSuffixes ops p) :
    shapeNeeded ops p s ∧ momentsGiven p s := by
  unfold convertedSuffixes at h
  simp only [List.mem_append] at h
  rcases h with (h | h) | h
  all_goals
    split_ifs at h with h'
    · rw [List.mem_singleton] at h; subst h; tauto
    · simp at h

theorem muVarMax_third {py : Bool} {m v x a b x' : Fl}
    (h : muVarMaxToAlphaBetaMax py m v x = .ok (a, b, x')) : x' = x := by
  simp only [muVarMaxToAlphaBetaMax, bind_eq_ok] at h
  obtain ⟨_, -, _, -, _, -, _, -, h⟩ := h
  cases h; rfl

/-- **C12.** When `convert_to_beta_parameters` returns, the shape parameters of exactly the
suffixes of `Spec.convertedSuffixes` were computed by `mu_var_max_to_alpha_beta_max` from the mean,
variance and maximum of that suffix, every other entry is unchanged, and the list of added keys
names exactly the computed entries (and is empty with `remove=False`). -/
theorem C12_convert (py : Bool) (p : Dict (Option Fl)) (remove : Bool)
    (st : ConvState (Option Fl) Unit)
    (h : convertToBetaParameters (numOps py) p remove () = .ok st) :
    (∀ s ∈ convertedSuffixes (numOps py) p, ∃ mu var amax a b : Fl,
      Dict.get? p ("mu_chi" ++ s) = some (some mu) ∧
      Dict.get? p ("sigma_chi" ++ s) = some (some var) ∧
      Dict.get? p ("amax" ++ s) = some (some amax) ∧
      muVarMaxToAlphaBetaMax py mu var amax = .ok (a, b, amax) ∧
      Dict.get? st.converted ("alpha_chi" ++ s) = some (some a) ∧
      Dict.get? st.converted ("beta_chi" ++ s) = some (some b)) ∧
    (∀ k, (∀ s ∈ convertedSuffixes (numOps py) p, k ≠ "alpha_chi" ++ s ∧ k ≠ "beta_chi" ++ s) →
      Dict.get? st.converted k = Dict.get? p k) ∧
    st.added = (if remove then (convertedSuffixes (numOps py) p).flatMap
      (fun s => ["alpha_chi" ++ s, "beta_chi" ++ s]) else []) := by
  rw [convert_eq] at h
  obtain ⟨h1, h2, h3⟩ := foldlM_addShape (convertedSuffixes_nodup _ _) h
  refine ⟨?_, h1, by simpa using h3⟩
  intro s hs
  obtain ⟨m, v, x, a, b, w, w', e1, e2, e3, e4, e5, e6⟩ := h2 s hs
  cases m with
  | none => cases e4
  | some m =>
  cases v with
  | none => cases e4
  | some v =>
  cases x with
  | none => cases e4
  | some x =>
    simp only [numOps] at e4
    cases hr : muVarMaxToAlphaBetaMax py m v x with
    | error e => rw [hr] at e4; cases e4
    | ok r =>
      obtain ⟨a', b', x'⟩ := r
      rw [hr] at e4
      cases e4
      have hx : x' = x := muVarMax_third hr
      subst hx
      exact ⟨m, v, x', a', b', e1, e2, e3, hr, e5, e6⟩

/-- A concrete case of C12: both components, different moments. -/
def exampleMoments : Dict (Option Fl) :=
  [("mu_chi_1", some (fin (1 / 2))), ("sigma_chi_1", some (fin (1 / 20))),
   ("amax_1", some (fin 1)), ("alpha_chi_2", some (fin 3)), ("beta_chi_2", none)]

theorem exampleMoments_suffixes :
    convertedSuffixes (numOps true) exampleMoments = ["_1"] := by
  have h1 : shapeNeeded (numOps true) exampleMoments "_1" := by
    rintro ⟨a, b, ha, -⟩
    simp [exampleMoments, Dict.get?_cons] at ha
  have h2 : momentsGiven exampleMoments "_1" := by
    simp [momentsGiven, Dict.contains, exampleMoments]
  have h3 : ¬ momentsGiven exampleMoments "_2" := by
    simp [momentsGiven, Dict.contains, exampleMoments]
  unfold convertedSuffixes
  rw [if_pos ⟨h1, h2⟩, if_neg (fun h => h3 h.2), if_neg (fun h => h.1.1 (Or.inr h2))]
  rfl

/-- Non-vacuity of C12: the conversion succeeds and gives `alpha = beta = 2`. -/
example : ∃ st, convertToBetaParameters (numOps true) exampleMoments true () = .ok st ∧
    Dict.get? st.converted "alpha_chi_1" = some (some (fin 2)) ∧
    st.added = ["alpha_chi_1", "beta_chi_1"] := by
  rw [convert_eq, exampleMoments_suffixes]
  have hm : muVarMaxToAlphaBetaMax true (fin (1 / 2)) (fin (1 / 20)) (fin 1) =
      .ok (fin 2, fin 2, fin 1) := by
    rw [muVarMaxToAlphaBetaMax_eq true (by norm_num) (by norm_num)]
    norm_num
  have ha : Spec.addShape (numOps true) exampleMoments true ⟨exampleMoments, [], ()⟩ "_1" =
      .ok ⟨Dict.set (Dict.set exampleMoments "alpha_chi_1" (some (fin 2))) "beta_chi_1"
        (some (fin 2)), ["alpha_chi_1", "beta_chi_1"], ()⟩ := by
    have g1 : Dict.get exampleMoments ("mu_chi" ++ "_1") = .ok (some (fin (1 / 2))) := by
      simp [Dict.get, exampleMoments, Dict.get?_cons]
    have g2 : Dict.get exampleMoments ("sigma_chi" ++ "_1") = .ok (some (fin (1 / 20))) := by
      simp [Dict.get, exampleMoments, Dict.get?_cons]
    have g3 : Dict.get exampleMoments ("amax" ++ "_1") = .ok (some (fin 1)) := by
      simp [Dict.get, exampleMoments, Dict.get?_cons]
    unfold Spec.addShape
    rw [g1, g2, g3]
    show ((numOps true).toAlphaBeta _ _ _ _ >>= _) = _
    simp only [numOps, hm]
    rfl
  refine ⟨⟨Dict.set (Dict.set exampleMoments "alpha_chi_1" (some (fin 2))) "beta_chi_1"
        (some (fin 2)), ["alpha_chi_1", "beta_chi_1"], ()⟩, ?_, ?_, ?_⟩
  · rw [List.foldlM_cons, ha]; rfl
  · simp [Dict.get?_set]
  · rfl

theorem addShape_succeeds_iff {py : Bool} {p : Dict (Option Fl)} {remove : Bool}
    {st : ConvState (Option Fl) Unit} {s : String} :
    (∃ st', Spec.addShape (numOps py) p remove st s = .ok st') ↔
      ∃ mu var amax a b : Fl, Dict.get? p ("mu_chi" ++ s) = some (some mu) ∧
        Dict.get? p ("sigma_chi" ++ s) = some (some var) ∧
        Dict.get? p ("amax" ++ s) = some (some amax) ∧
        muVarMaxToAlphaBetaMax py mu var amax = .ok (a, b, amax) := by
  constructor
  · rintro ⟨st', h⟩
    obtain ⟨m, v, x, a, b, e1, e2, e3, e4, -⟩ := addShape_ok h
    cases m with
    | none => cases e4
    | some m =>
    cases v with
    | none => cases e4
    | some v =>
    cases x with
    | none => cases e4
    | some x =>
      simp only [numOps] at e4
      obtain ⟨⟨a', b', x'⟩, hr, -⟩ := bind_eq_ok.1 e4
      have := muVarMax_third hr
      subst this
      exact ⟨m, v, x', a', b', e1, e2, e3, hr⟩
  · rintro ⟨mu, var, amax, a, b, e1, e2, e3, e4⟩
    refine ⟨⟨Dict.set (Dict.set st.converted ("alpha_chi" ++ s) (some a)) ("beta_chi" ++ s) (some b),
      if remove then st.added ++ ["alpha_chi" ++ s, "beta_chi" ++ s] else st.added, ()⟩, ?_⟩
    unfold Spec.addShape
    simp only [Dict.get, e1, e2, e3]
    show ((numOps py).toAlphaBeta _ _ _ _ >>= _) = _
    simp only [numOps, e4]
    rfl

/-- **C12.** The conversion returns (rather than raising) iff for every suffix that is to be
converted the three inputs are present, not `None`, and the formula itself does not raise. -/
theorem C12_convert_returns_iff (py : Bool) (p : Dict (Option Fl)) (remove : Bool) :
    (∃ st, convertToBetaParameters (numOps py) p remove () = .ok st) ↔
      ∀ s ∈ convertedSuffixes (numOps py) p, ∃ mu var amax a b : Fl,
        Dict.get? p ("mu_chi" ++ s) = some (some mu) ∧
        Dict.get? p ("sigma_chi" ++ s) = some (some var) ∧
        Dict.get? p ("amax" ++ s) = some (some amax) ∧
        muVarMaxToAlphaBetaMax py mu var amax = .ok (a, b, amax) := by
  rw [convert_eq]
  generalize convertedSuffixes (numOps py) p = L
  generalize (⟨p, [], ()⟩ : ConvState (Option Fl) Unit) = st
  induction L generalizing st with
  | nil => simp only [List.foldlM_nil, List.not_mem_nil, false_imp_iff, implies_true, iff_true]
           exact ⟨st, rfl⟩
  | cons s L ih =>
    rw [List.forall_mem_cons, ← addShape_succeeds_iff (remove := remove) (st := st)]
    constructor
    · rintro ⟨st', h⟩
      rw [List.foldlM_cons] at h
      obtain ⟨st1, h1, h2⟩ := bind_eq_ok.1 h
      exact ⟨⟨st1, h1⟩, (ih st1).1 ⟨st', h2⟩⟩
    · rintro ⟨⟨st1, h1⟩, h2⟩
      obtain ⟨st', h3⟩ := (ih st1).2 h2
      refine ⟨st', ?_⟩
      rw [List.foldlM_cons, h1]
      exact h3

/-- **C12.** With a missing maximum the conversion raises `KeyError`, naming the missing key. -/
theorem C12_missing_amax (py : Bool) (p : Dict (Option Fl)) (remove : Bool) (s : String)
    (L : List String) (hL : convertedSuffixes (numOps py) p = s :: L)
    (hx : Dict.get? p ("amax" ++ s) = none) :
    convertToBetaParameters (numOps py) p remove () = .error (.keyError ("amax" ++ s)) := by
  rw [convert_eq, hL, List.foldlM_cons]
  obtain ⟨h1, h2⟩ := (mem_convertedSuffixes (show s ∈ convertedSuffixes (numOps py) p by
    rw [hL]; exact List.mem_cons_self)).2
  obtain ⟨m, -, hm⟩ := Dict.get_eq_ok h1
  obtain ⟨v, -, hv⟩ := Dict.get_eq_ok h2
  have hx' : Dict.get p ("amax" ++ s) = .error (.keyError ("amax" ++ s)) := by
    rw [Dict.get, hx]
  unfold Spec.addShape
  rw [hm, hv, hx']
  rfl

/-- Non-vacuity of `C12_missing_amax`. -/
example : ∃ s L, convertedSuffixes (numOps true)
    [("mu_chi", some (fin 1)), ("sigma_chi", some (fin 1))] = s :: L ∧ s = "" := by
  refine ⟨"", [], ?_, rfl⟩
  have hn : ∀ t, shapeNeeded (numOps true)
      [("mu_chi", some (fin 1)), ("sigma_chi", some (fin 1))] t := by
    rintro t ⟨a, b, ha, -⟩
    have h1 : "alpha_chi" ++ t ≠ "mu_chi" := by rw [Ne, ← String.toList_inj]; simp
    have h2 : "alpha_chi" ++ t ≠ "sigma_chi" := by rw [Ne, ← String.toList_inj]; simp
    simp [Dict.get?_cons, h1, h2] at ha
  have hm : ∀ t, t ≠ "" → ¬ momentsGiven
      [("mu_chi", some (fin 1)), ("sigma_chi", some (fin 1))] t := by
    rintro t ht ⟨h, -⟩
    have h2 : "mu_chi" ++ t ≠ "sigma_chi" := by rw [Ne, ← String.toList_inj]; simp
    have h1 : "mu_chi" ++ t = "mu_chi" := by simpa [Dict.contains, h2] using h
    exact ht (append_inj_left'.1 (h1.trans (by simp)))
  unfold convertedSuffixes
  rw [if_neg (fun h => hm "_1" (by decide) h.2), if_neg (fun h => hm "_2" (by decide) h.2),
    if_pos]
  · rfl
  · refine ⟨⟨?_, ?_⟩, hn _, by simp [momentsGiven, Dict.contains]⟩
    · rintro (h | h)
      · exact h (hn _)
      · exact hm _ (by decide) h
    · rintro (h | h)
      · exact h (hn _)
      · exact hm _ (by decide) h

/-- **C12.** Converting the result again changes nothing and adds no keys. -/
theorem C12_convert_idempotent (py : Bool) (p : Dict (Option Fl)) (remove remove' : Bool)
    (st : ConvState (Option Fl) Unit)
    (h : convertToBetaParameters (numOps py) p remove () = .ok st) :
    convertToBetaParameters (numOps py) st.converted remove' () = .ok ⟨st.converted, [], ()⟩ := by
  obtain ⟨h1, h2, -⟩ := C12_convert py p remove st h
  set L := convertedSuffixes (numOps py) p with hL
  have hmem : ∀ t ∈ L, ¬ shapeNeeded (numOps py) st.converted t := by
    intro t ht hn
    obtain ⟨_, _, _, a, b, -, -, -, -, ea, eb⟩ := h1 t ht
    exact hn ⟨some a, some b, ea, eb, by simp [numOps], by simp [numOps]⟩
  have hsame : ∀ t, t ∉ L →
      (shapeNeeded (numOps py) st.converted t ↔ shapeNeeded (numOps py) p t) := by
    intro t ht
    unfold shapeNeeded
    rw [h2 ("alpha_chi" ++ t), h2 ("beta_chi" ++ t)]
    · intro s hs
      exact ⟨(alpha_ne_beta _ _).symm, fun h => ht (append_inj_left'.1 h ▸ hs)⟩
    · intro s hs
      exact ⟨fun h => ht (append_inj_left'.1 h ▸ hs), alpha_ne_beta _ _⟩
  have hmom : ∀ t, (momentsGiven st.converted t ↔ momentsGiven p t) := by
    intro t
    unfold momentsGiven
    rw [← Dict.get?_isSome_iff, ← Dict.get?_isSome_iff, ← Dict.get?_isSome_iff,
      ← Dict.get?_isSome_iff, h2 ("mu_chi" ++ t), h2 ("sigma_chi" ++ t)]
    · intro s hs; exact ⟨alpha_ne_sigma _ _, beta_ne_sigma _ _⟩
    · intro s hs; exact ⟨alpha_ne_mu _ _, beta_ne_mu _ _⟩
  have hav : ∀ t, suffixAvailable (numOps py) p t → suffixAvailable (numOps py) st.converted t := by
    intro t ht
    by_cases hm : t ∈ L
    · exact Or.inl (hmem t hm)
    · rcases ht with ht | ht
      · exact Or.inl (fun h => ht ((hsame t hm).1 h))
      · exact Or.inr ((hmom t).2 ht)
  have hnil : convertedSuffixes (numOps py) st.converted = [] := by
    rw [List.eq_nil_iff_forall_not_mem]
    intro t ht
    have hm := mem_convertedSuffixes ht
    by_cases htL : t ∈ L
    · exact hmem t htL hm.1
    · have hp : shapeNeeded (numOps py) p t ∧ momentsGiven p t :=
        ⟨(hsame t htL).1 hm.1, (hmom t).1 hm.2⟩
      apply htL
      unfold convertedSuffixes at ht
      simp only [List.mem_append] at ht
      rw [hL]
      unfold convertedSuffixes
      simp only [List.mem_append]
      rcases ht with (ht | ht) | ht
      · left; left
        split_ifs at ht
        · rw [List.mem_singleton] at ht; subst ht
          rw [if_pos hp]; simp
        · simp at ht
      · left; right
        split_ifs at ht
        · rw [List.mem_singleton] at ht; subst ht
          rw [if_pos hp]; simp
        · simp at ht
      · right
        split_ifs at ht with hc
        · rw [List.mem_singleton] at ht; subst ht
          rw [if_pos ⟨⟨fun h => hc.1.1 (hav _ h), fun h => hc.1.2 (hav _ h)⟩, hp⟩]; simp
        · simp at ht
  rw [convert_eq, hnil]
  rfl

/-! ## C13 -/

/-- **C13, full statement.** After the conversion the caller reads the same values from their own
dictionary as before. -/
def C13_statement : Prop :=
  ∀ (p : Dict HVal) (remove : Bool) (h : Heap) (st : ConvState HVal Heap),
    convertToBetaParameters heapOps p remove h = .ok st →
    ∀ k v, Dict.get? p k = some v → v.read st.world = v.read h

/-- A dictionary holding arrays. -/
def arrayMoments : Dict HVal :=
  [("mu_chi", .cell (.ref 0)), ("sigma_chi", .cell (.ref 1)), ("amax", .cell (.num (fin 2)))]

theorem arrayMoments_suffixes : convertedSuffixes heapOps arrayMoments = [""] := by
  have hn : ∀ t, shapeNeeded heapOps arrayMoments t := by
    rintro t ⟨a, b, ha, -⟩
    have h1 : "alpha_chi" ++ t ≠ "mu_chi" := by rw [Ne, ← String.toList_inj]; simp
    have h2 : "alpha_chi" ++ t ≠ "sigma_chi" := by rw [Ne, ← String.toList_inj]; simp
    have h3 : "alpha_chi" ++ t ≠ "amax" := by rw [Ne, ← String.toList_inj]; simp
    simp [arrayMoments, Dict.get?_cons, h1, h2, h3] at ha
  have hm : ∀ t, t ≠ "" → ¬ momentsGiven arrayMoments t := by
    rintro t ht ⟨h, -⟩
    have h2 : "mu_chi" ++ t ≠ "sigma_chi" := by rw [Ne, ← String.toList_inj]; simp
    have h3 : "mu_chi" ++ t ≠ "amax" := by rw [Ne, ← String.toList_inj]; simp
    have h1 : "mu_chi" ++ t = "mu_chi" := by simpa [arrayMoments, Dict.contains, h2, h3] using h
    exact ht (append_inj_left'.1 (h1.trans (by simp)))
  have ha : ∀ t, t ≠ "" → ¬ suffixAvailable heapOps arrayMoments t := by
    rintro t ht (h | h)
    · exact h (hn _)
    · exact hm _ ht h
  unfold convertedSuffixes
  rw [if_neg (fun h => hm "_1" (by decide) h.2), if_neg (fun h => hm "_2" (by decide) h.2),
    if_pos ⟨⟨ha _ (by decide), ha _ (by decide)⟩, hn _,
      by simp [momentsGiven, Dict.contains, arrayMoments]⟩]
  rfl

theorem broadcastArr_one (f : Fl → Fl → Fl) (v : List Fl) (y : Fl) :
    broadcastArr f v [y] = .ok (v.map (f · y)) := by
  unfold broadcastArr
  cases v <;> rfl

theorem broadcastArr_same (f : Fl → Fl → Fl) {v w : List Fl} (h : v.length = w.length) :
    broadcastArr f v w = .ok (List.zipWith f v w) := by
  match v, w, h with
  | [], [], _ => rfl
  | [x], [y], _ => rfl
  | x :: x' :: v, y :: y' :: w, h =>
    show (if (x :: x' :: v).length = (y :: y' :: w).length then _ else _) = _
    rw [if_pos h]

theorem inplaceDiv_ref_one (h : Heap) (a : ℕ) (d : Fl) :
    inplaceDiv h (.ref a) [d] =
      .ok (fun b => if b = a then (h a).map (· / d) else h b, .alias a) := by
  unfold inplaceDiv
  simp only [broadcastArr_one, ok_bind, List.length_map, if_true]
  rfl

/-- The moments are two arrays of one length, the maximum is a number. -/
theorem heapMuVar_arrays (h : Heap) {a b : ℕ} (hab : a ≠ b) (hl : (h a).length = (h b).length) (x : Fl) :
    heapMuVar (.ref a) (.ref b) (.num x) h = .ok
      (fun c => if c = b then (h b).map (· / x ^ 2) else if c = a then (h a).map (· / x) else h c,
        List.zipWith (fun mu var => (mu ^ 2 * (1 - mu) - mu * var) / var)
          ((h a).map (· / x)) ((h b).map (· / x ^ 2)),
        List.zipWith (fun mu var => (mu * (1 - mu) ^ 2 - (1 - mu) * var) / var)
          ((h a).map (· / x)) ((h b).map (· / x ^ 2))) := by
  unfold heapMuVar
  simp only [Cell.elems, inplaceDiv_ref_one, ok_bind, List.map_cons, List.map_nil, Local.elems,
    if_true, if_neg hab, if_neg (Ne.symm hab)]
  rw [broadcastArr_same _ (by simpa using hl), broadcastArr_same _ (by simpa using hl)]
  rfl

/-- The conversion of `arrayMoments`. -/
theorem convert_arrayMoments (h : Heap) (hl : (h 0).length = (h 1).length) :
    ∃ st, convertToBetaParameters heapOps arrayMoments true h = .ok st ∧
      st.world = (fun c => if c = 1 then (h 1).map (· / fin 2 ^ 2)
        else if c = 0 then (h 0).map (· / fin 2) else h c) := by
  rw [convert_eq, arrayMoments_suffixes]
  have g1 : Dict.get arrayMoments ("mu_chi" ++ "") = .ok (.cell (.ref 0)) := by
    simp [Dict.get, arrayMoments, Dict.get?_cons]
  have g2 : Dict.get arrayMoments ("sigma_chi" ++ "") = .ok (.cell (.ref 1)) := by
    simp [Dict.get, arrayMoments, Dict.get?_cons]
  have g3 : Dict.get arrayMoments ("amax" ++ "") = .ok (.cell (.num (fin 2))) := by
    simp [Dict.get, arrayMoments, Dict.get?_cons]
  rw [List.foldlM_cons]
  unfold Spec.addShape
  rw [g1, g2, g3]
  simp only [heapOps, ok_bind, heapMuVar_arrays h (show (0 : ℕ) ≠ 1 by decide) hl]
  exact ⟨_, rfl, rfl⟩

/-- **C13 fails** for array-valued means: `mu /= amax` divides the caller's array in place. -/
theorem C13_fails : ¬ C13_statement := by
  intro H
  let h0 : Heap := fun a => if a = 0 then [fin 1] else [fin (1 / 10)]
  obtain ⟨st, h1, h2⟩ := convert_arrayMoments h0 rfl
  have := H arrayMoments true h0 st h1 "mu_chi" (.cell (.ref 0)) (by
    simp [arrayMoments, Dict.get?_cons])
  rw [h2] at this
  simp [HVal.read, Cell.elems, h0, fin_div (two_ne_zero : (2 : ℝ) ≠ 0)] at this

theorem inplaceDiv_frame {h h' : Heap} {c : Cell} {d : List Fl} {l : Local} {a : ℕ} (hc : c ≠ .ref a)
    (hr : inplaceDiv h c d = .ok (h', l)) : h' a = h a := by
  cases c with
  | num x =>
    unfold inplaceDiv at hr
    obtain ⟨v, -, hr⟩ := bind_eq_ok.1 hr
    cases hr; rfl
  | ref b =>
    have hab : a ≠ b := fun h => hc (by rw [h])
    unfold inplaceDiv at hr
    obtain ⟨v, -, hr⟩ := bind_eq_ok.1 hr
    split_ifs at hr
    · cases hr
      exact if_neg hab

theorem inplaceDiv_one {h h' : Heap} {c : Cell} {l : Local}
    (hr : inplaceDiv h c [fin 1] = .ok (h', l)) : h' = h := by
  cases c with
  | num x =>
    unfold inplaceDiv at hr
    obtain ⟨v, -, hr⟩ := bind_eq_ok.1 hr
    cases hr; rfl
  | ref b =>
    have hx : ∀ x : Fl, x / fin 1 = x := by
      intro x
      cases x with
      | fin r => simp [fin_div (one_ne_zero : (1 : ℝ) ≠ 0)]
      | pinf => exact if_neg (by norm_num)
      | ninf => exact if_neg (by norm_num)
      | nan => rfl
    rw [inplaceDiv_ref_one] at hr
    cases hr
    funext a
    by_cases hab : a = b
    · subst hab
      simp [hx]
    · simp [hab]

theorem heapMuVar_inv {h h' : Heap} {mu var amax : Cell} {α β : List Fl}
    (hr : heapMuVar mu var amax h = .ok (h', α, β)) :
    ∃ h1 l1 l2, inplaceDiv h mu (amax.elems h) = .ok (h1, l1) ∧
      inplaceDiv h1 var ((amax.elems h1).map (· ^ 2)) = .ok (h', l2) := by
  unfold heapMuVar at hr
  obtain ⟨⟨h1, l1⟩, e1, hr⟩ := bind_eq_ok.1 hr
  obtain ⟨⟨h2, l2⟩, e2, hr⟩ := bind_eq_ok.1 hr
  obtain ⟨α', -, hr⟩ := bind_eq_ok.1 hr
  obtain ⟨β', -, hr⟩ := bind_eq_ok.1 hr
  cases hr
  exact ⟨h1, l1, l2, e1, e2⟩

theorem heapMuVar_frame {h h' : Heap} {mu var amax : Cell} {α β : List Fl} {a : ℕ} (hm : mu ≠ .ref a)
    (hv : var ≠ .ref a) (hr : heapMuVar mu var amax h = .ok (h', α, β)) : h' a = h a := by
  obtain ⟨h1, l1, l2, e1, e2⟩ := heapMuVar_inv hr
  rw [inplaceDiv_frame hv e2, inplaceDiv_frame hm e1]

theorem heapMuVar_one {h h' : Heap} {mu var : Cell} {α β : List Fl}
    (hr : heapMuVar mu var (.num (fin 1)) h = .ok (h', α, β)) : h' = h := by
  obtain ⟨h1, l1, l2, e1, e2⟩ := heapMuVar_inv hr
  have e1 := inplaceDiv_one e1
  simp only [Cell.elems, List.map_cons, List.map_nil, fin_npow, one_pow] at e2
  rw [inplaceDiv_one e2, e1]

/-- An array survives the passes over suffixes that do not refer to it, or whose maximum is 1. -/
theorem foldlM_addShape_world {p : Dict HVal} {remove : Bool} {a : ℕ} :
    ∀ {L : List String} {st st' : ConvState HVal Heap},
    (∀ s ∈ L, Dict.get? p ("amax" ++ s) = some (.cell (.num (fin 1))) ∨
      (Dict.get? p ("mu_chi" ++ s) ≠ some (.cell (.ref a)) ∧
       Dict.get? p ("sigma_chi" ++ s) ≠ some (.cell (.ref a)))) →
    L.foldlM (Spec.addShape heapOps p remove) st = .ok st' → st'.world a = st.world a := by
  intro L
  induction L with
  | nil => intro st st' _ h; cases h; rfl
  | cons s L ih =>
    intro st st' hL h
    rw [List.foldlM_cons] at h
    obtain ⟨st1, h1, h2⟩ := bind_eq_ok.1 h
    rw [ih (fun t ht => hL t (List.mem_cons_of_mem _ ht)) h2]
    obtain ⟨m, v, x, α, β, e1, e2, e3, e4, -, -⟩ := addShape_ok h1
    have hs := hL s List.mem_cons_self
    rw [e1, e2, e3] at hs
    cases m with
    | fresh l => cases e4
    | none => cases e4
    | cell m =>
    cases v with
    | fresh l => cases e4
    | none => cases e4
    | cell v =>
    cases x with
    | fresh l => cases e4
    | none => cases e4
    | cell x =>
      have hw : ∃ α β, heapMuVar m v x st.world = .ok (st1.world, α, β) := by
        obtain ⟨⟨h', α', β'⟩, e5, e6⟩ := bind_eq_ok.1 e4
        cases e6
        exact ⟨_, _, e5⟩
      obtain ⟨α', β', hw⟩ := hw
      rcases hs with hs | ⟨hm, hv⟩
      · cases hs; rw [heapMuVar_one hw]
      · exact heapMuVar_frame (fun h => hm (by rw [h])) (fun h => hv (by rw [h])) hw

/-- **C13, what holds.** The caller's dictionary reads the same after the conversion, provided
every converted suffix has numbers (not arrays) for its mean and variance, or has maximum `1`.
More precisely every single array that is not the mean or variance of a converted suffix with
maximum different from `1` is unchanged. (The dictionary object itself is copied and never
written.) -/
theorem C13_input_untouched_partial (p : Dict HVal) (remove : Bool) (h : Heap)
    (st : ConvState HVal Heap) (hr : convertToBetaParameters heapOps p remove h = .ok st)
    (k : String) (v : HVal) (_hk : Dict.get? p k = some v)
    (hv : ∀ a, v = .cell (.ref a) → ∀ s ∈ convertedSuffixes heapOps p,
      Dict.get? p ("amax" ++ s) = some (.cell (.num (fin 1))) ∨
      (Dict.get? p ("mu_chi" ++ s) ≠ some (.cell (.ref a)) ∧
       Dict.get? p ("sigma_chi" ++ s) ≠ some (.cell (.ref a)))) :
    v.read st.world = v.read h := by
  rw [convert_eq] at hr
  cases v with
  | fresh l => rfl
  | none => rfl
  | cell c =>
    cases c with
    | num x => rfl
    | ref a => exact foldlM_addShape_world (hv a rfl) hr

/-- **C13, what happens otherwise.** Mean and variance are two numpy arrays of one length and the maximum
is a number: the shape parameters are element by element those of the numbers in the arrays, and afterwards
the caller's arrays hold the mean divided by the maximum and the variance divided by its square. All other
arrays are unchanged. -/
theorem C13_arrays_partial (p : Dict HVal) (remove : Bool) (h : Heap) {a b : ℕ} {x : Fl}
    (hs : convertedSuffixes heapOps p = [""]) (hm : Dict.get? p "mu_chi" = some (.cell (.ref a)))
    (hv : Dict.get? p "sigma_chi" = some (.cell (.ref b)))
    (hx : Dict.get? p "amax" = some (.cell (.num x))) (hab : a ≠ b)
    (hl : (h a).length = (h b).length) :
    ∃ st α β, convertToBetaParameters heapOps p remove h = .ok st ∧
      st.world a = (h a).map (· / x) ∧ st.world b = (h b).map (· / x ^ 2) ∧
      (∀ c, c ≠ a → c ≠ b → st.world c = h c) ∧
      Dict.get? st.converted "alpha_chi" = some (.fresh α) ∧
      Dict.get? st.converted "beta_chi" = some (.fresh β) ∧
      α.length = (h a).length ∧ β.length = (h a).length ∧
      ∀ i (h1 : i < (h a).length) (h2 : i < (h b).length) (h3 : i < α.length) (h4 : i < β.length),
        muVarMaxToAlphaBetaMax false (h a)[i] (h b)[i] x = .ok (α[i], β[i], x) := by
  rw [convert_eq, hs, List.foldlM_cons]
  unfold Spec.addShape
  have g1 : Dict.get p ("mu_chi" ++ "") = .ok (.cell (.ref a)) := by
    rw [String.append_empty]; unfold Dict.get; rw [hm]
  have g2 : Dict.get p ("sigma_chi" ++ "") = .ok (.cell (.ref b)) := by
    rw [String.append_empty]; unfold Dict.get; rw [hv]
  have g3 : Dict.get p ("amax" ++ "") = .ok (.cell (.num x)) := by
    rw [String.append_empty]; unfold Dict.get; rw [hx]
  rw [g1, g2, g3]
  simp only [heapOps, ok_bind, heapMuVar_arrays h hab hl, pure_eq_ok, List.foldlM_nil]
  refine ⟨_, List.zipWith (fun mu var => (mu ^ 2 * (1 - mu) - mu * var) / var)
      ((h a).map (· / x)) ((h b).map (· / x ^ 2)),
    List.zipWith (fun mu var => (mu * (1 - mu) ^ 2 - (1 - mu) * var) / var)
      ((h a).map (· / x)) ((h b).map (· / x ^ 2)), rfl, ?_, ?_, ?_, ?_, ?_, ?_, ?_, ?_⟩
  · simp only [if_neg hab, if_true]
  · simp only [if_true]
  · intro c hca hcb
    simp only [if_neg hca, if_neg hcb]
  · simp [Dict.get?_set]
  · simp [Dict.get?_set]
  · simp [hl]
  · simp [hl]
  · intro i h1 h2 h3 h4
    simp only [List.getElem_zipWith, List.getElem_map]
    rfl

/-- Non-vacuity of C13: the conversion of array moments does return. -/
example : ∃ st, convertToBetaParameters heapOps arrayMoments true (fun _ => [fin 1, fin 2]) = .ok st := by
  obtain ⟨st, α, β, h, -⟩ := C13_arrays_partial arrayMoments true (fun _ => [fin 1, fin 2])
    (a := 0) (b := 1) (x := fin 2) arrayMoments_suffixes (by simp [arrayMoments, Dict.get?_cons])
    (by simp [arrayMoments, Dict.get?_cons]) (by simp [arrayMoments, Dict.get?_cons]) (by decide) rfl
  exact ⟨st, h⟩

/-! ## C68 -/

theorem beta_succ {a b : ℝ} (ha : 0 < a) (hb : 0 < b) :
    beta (a + 1) b = a / (a + b) * beta a b := by
  have hab : 0 < a + b := by positivity
  have hG : Real.Gamma (a + b) ≠ 0 := (Real.Gamma_pos_of_pos hab).ne'
  unfold beta
  rw [Real.Gamma_add_one ha.ne', show a + 1 + b = a + b + 1 by ring, Real.Gamma_add_one hab.ne']
  field_simp

theorem betaShape_moment_ae {a b m : ℝ} (hm : 0 < m) :
    ∀ᵐ t : ℝ, t ∈ Set.uIoc 0 m →
      t * normalised (betaShape a b m) 0 m t =
        betaShape (a + 1) b m t / ∫ u in (0 : ℝ)..m, betaShape a b m u := by
  refine Filter.Eventually.of_forall (fun t ht => ?_)
  rw [Set.uIoc_of_le hm.le] at ht
  rw [normalised, if_pos ⟨ht.1.le, ht.2⟩, betaShape, betaShape,
    show a + 1 - 1 = (a - 1) + 1 by ring, Real.rpow_add_one ht.1.ne']
  ring

theorem betaShape_moment2_ae {a b m : ℝ} (hm : 0 < m) :
    ∀ᵐ t : ℝ, t ∈ Set.uIoc 0 m →
      t ^ 2 * normalised (betaShape a b m) 0 m t =
        betaShape (a + 1 + 1) b m t / ∫ u in (0 : ℝ)..m, betaShape a b m u := by
  refine Filter.Eventually.of_forall (fun t ht => ?_)
  rw [Set.uIoc_of_le hm.le] at ht
  rw [normalised, if_pos ⟨ht.1.le, ht.2⟩, betaShape, betaShape,
    show a + 1 + 1 - 1 = ((a - 1) + 1) + 1 by ring, Real.rpow_add_one ht.1.ne',
    Real.rpow_add_one ht.1.ne']
  ring

theorem beta_mean {a b m : ℝ} (ha : 0 < a) (hb : 0 < b) (hm : 0 < m) :
    ∫ t in (0 : ℝ)..m, t * normalised (betaShape a b m) 0 m t = a / (a + b) * m := by
  rw [intervalIntegral.integral_congr_ae (betaShape_moment_ae hm), intervalIntegral.integral_div,
    integral_betaShape (by positivity) hb hm, integral_betaShape ha hb hm, beta_succ ha hb,
    show a + 1 + b - 1 = (a + b - 1) + 1 by ring, Real.rpow_add_one hm.ne']
  have h1 : m ^ (a + b - 1) ≠ 0 := (Real.rpow_pos_of_pos hm _).ne'
  have h2 := (beta_pos ha hb).ne'
  field_simp

theorem beta_second {a b m : ℝ} (ha : 0 < a) (hb : 0 < b) (hm : 0 < m) :
    ∫ t in (0 : ℝ)..m, t ^ 2 * normalised (betaShape a b m) 0 m t =
      (a + 1) / (a + b + 1) * (a / (a + b)) * m ^ 2 := by
  have ha1 : 0 < a + 1 := by positivity
  rw [intervalIntegral.integral_congr_ae (betaShape_moment2_ae hm), intervalIntegral.integral_div,
    integral_betaShape (by positivity) hb hm, integral_betaShape ha hb hm, beta_succ ha1 hb,
    beta_succ ha hb,
    show a + 1 + 1 + b - 1 = (a + b - 1) + 1 + 1 by ring, Real.rpow_add_one hm.ne',
    Real.rpow_add_one hm.ne']
  have h1 : m ^ (a + b - 1) ≠ 0 := (Real.rpow_pos_of_pos hm _).ne'
  have h2 := (beta_pos ha hb).ne'
  rw [show a + 1 + b = a + b + 1 by ring]
  field_simp

/-- **C68.** The mean and variance computed by `alpha_beta_max_to_mu_var_max` are the mean and
variance of the density that `beta_dist` returns for the same parameters. -/
theorem C68_moments (py : Bool) (junk : Fl → Fl → Fl) (bk : Backend) {a b m : ℝ} (ha : 0 < a)
    (hb : 0 < b) (hm : 0 < m) :
    ∃ (mu var : ℝ) (g : ℝ → ℝ),
      alphaBetaMaxToMuVarMax py (fin a) (fin b) (fin m) = .ok (fin mu, fin var, fin m) ∧
      (∀ t ∈ Set.Ioo 0 m, betaDist junk bk (pos (fin t)) (kw (fin a)) (kw (fin b)) (kw (fin m)) =
        .ok (fin (g t))) ∧
      ∫ t in (0 : ℝ)..m, t * g t = mu ∧ ∫ t in (0 : ℝ)..m, (t - mu) ^ 2 * g t = var := by
  refine ⟨_, _, normalised (betaShape a b m) 0 m, alphaBetaMaxToMuVarMax_eq py ha hb, ?_,
    beta_mean ha hb hm, ?_⟩
  · intro t ht
    exact C05_betaDist_value junk bk _ _ _ _ ha hb ht.1 ht.2
  · set mu := a / (a + b) * m
    set g := normalised (betaShape a b m) 0 m with hg
    have i0 : IntervalIntegrable g volume 0 m :=
      (normalised_integrable hm.le (betaShape_intervalIntegrable ha hb hm)).intervalIntegrable
    have i1 : IntervalIntegrable (fun t => t * g t) volume 0 m :=
      i0.continuousOn_mul continuousOn_id
    have i2 : IntervalIntegrable (fun t => t ^ 2 * g t) volume 0 m :=
      i0.continuousOn_mul (continuousOn_id.pow 2)
    have hs : ∀ t, (t - mu) ^ 2 * g t = t ^ 2 * g t - 2 * mu * (t * g t) + mu ^ 2 * g t := by
      intro t; ring
    have h0 : ∫ t in (0 : ℝ)..m, g t = 1 := by
      rw [intervalIntegral.integral_of_le hm.le, ← integral_Icc_eq_integral_Ioc]
      refine normalised_integral hm.le ?_ subset_rfl
      rw [integral_betaShape ha hb hm]
      exact (mul_pos (Real.rpow_pos_of_pos hm _) (beta_pos ha hb)).ne'
    simp only [hs]
    rw [intervalIntegral.integral_add (i2.sub (i1.const_mul _)) (i0.const_mul _),
      intervalIntegral.integral_sub i2 (i1.const_mul _), intervalIntegral.integral_const_mul,
      intervalIntegral.integral_const_mul, h0, beta_mean ha hb hm, beta_second ha hb hm]
    have h1 : a + b ≠ 0 := by positivity
    have h2 : a + b + 1 ≠ 0 := by positivity
    simp only [mu]
    field_simp
    ring

/-- Non-vacuity of C68. -/
example : alphaBetaMaxToMuVarMax true (fin 2) (fin 2) (fin 1) =
    .ok (fin (1 / 2), fin (1 / 20), fin 1) := by
  rw [alphaBetaMaxToMuVarMax_eq true (by norm_num) (by norm_num)]
  norm_num

end GW
