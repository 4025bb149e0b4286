import Verif.Props.Conversions
import Verif.Props.Spin

/-!
# C79, C80: from mean and variance to the spin-magnitude density; refusal of meaningless parameters
-/

noncomputable section

open MeasureTheory Set Classical

namespace GW

open Fl Spec

/-! ## C79 -/

/-- A function is a probability density on `(0, m)` with the given mean and variance. -/
def Spec.HasMoments (g : ℝ → ℝ) (m mu var : ℝ) : Prop :=
  ∫ t in (0 : ℝ)..m, g t = 1 ∧ ∫ t in (0 : ℝ)..m, t * g t = mu ∧
    ∫ t in (0 : ℝ)..m, (t - mu) ^ 2 * g t = var

/-- A mean and a variance that some distribution on `(0, m)` with a Beta density has. -/
def Spec.PossibleMoments (m mu var : ℝ) : Prop := 0 < mu ∧ mu < m ∧ 0 < var ∧ var < mu * (m - mu)

/-- The shape parameters computed from possible moments are positive, and the Beta density with these
parameters, in the calling convention of the spin models, has these moments. -/
theorem beta_of_moments (py : Bool) (junk : Fl → Fl → Fl) (bk : Backend) {m mu var : ℝ}
    (h : PossibleMoments m mu var) :
    ∃ (a b : ℝ) (g : ℝ → ℝ),
      muVarMaxToAlphaBetaMax py (fin mu) (fin var) (fin m) = .ok (fin a, fin b, fin m) ∧
      0 < a ∧ 0 < b ∧ HasMoments g m mu var ∧
      ∀ t ∈ Ioo 0 m, betaDist junk bk (pos (fin t)) (pos (fin a)) (pos (fin b)) (kw (fin m)) =
        .ok (fin (g t)) := by
  obtain ⟨h1, h2, h3, h4⟩ := h
  have hm : 0 < m := h1.trans h2
  obtain ⟨a, b, e1, e2, e3⟩ := C11_roundtrip_muVar py hm h3 (mu := mu)
  obtain ⟨ha, hb⟩ := e2.2 ⟨h1, h2, h4⟩
  obtain ⟨mu', var', g, f1, f2, f3, f4⟩ := C68_moments py junk bk ha hb hm
  have e := e3 ha hb
  rw [f1] at e
  have e' := Except.ok.inj e
  simp only [Prod.mk.injEq, fin_inj] at e'
  obtain ⟨rfl, rfl, -⟩ := e'
  have hval : ∀ t ∈ Ioo 0 m, g t = normalised (betaShape a b m) 0 m t := by
    intro t ht
    have := f2 t ht
    have h5 := C05_betaDist_value junk bk false true true true ha hb ht.1 ht.2
    unfold pos kw at this
    rw [h5] at this
    exact (fin_inj.1 (Except.ok.inj this)).symm
  refine ⟨a, b, g, e1, ha, hb, ⟨?_, f3, f4⟩, ?_⟩
  · have : ∫ t in (0 : ℝ)..m, normalised (betaShape a b m) 0 m t = 1 := by
      rw [intervalIntegral.integral_of_le hm.le, ← integral_Icc_eq_integral_Ioc]
      refine normalised_integral hm.le ?_ subset_rfl
      rw [integral_betaShape ha hb hm]
      exact (mul_pos (Real.rpow_pos_of_pos hm _) (ProbabilityTheory.beta_pos ha hb)).ne'
    rw [← this, intervalIntegral.integral_of_le hm.le, intervalIntegral.integral_of_le hm.le,
      ← integral_Ioc_eq_integral_Ioo.symm, ← integral_Ioc_eq_integral_Ioo.symm]
    exact setIntegral_congr_fun measurableSet_Ioo hval
  · intro t ht
    rw [hval t ht]
    exact C05_betaDist_value junk bk false false false true ha hb ht.1 ht.2

/-- **C79.** For every parameter dictionary that `convert_to_beta_parameters` accepts and every suffix
it converts, if the entries `mu_chi`, `sigma_chi`, `amax` are possible moments then the Beta density with the
converted shape parameters integrates to one over `(0, amax)`, has mean `mu_chi` and has variance
`sigma_chi`. -/
theorem C79_moments (py : Bool) (junk : Fl → Fl → Fl) (bk : Backend) {p : Dict (Option Fl)}
    {remove : Bool} {st : ConvState (Option Fl) Unit}
    (h : convertToBetaParameters (numOps py) p remove () = .ok st) {s : String}
    (hs : s ∈ convertedSuffixes (numOps py) p) {m mu var : ℝ}
    (hmu : Dict.get? p ("mu_chi" ++ s) = some (some (fin mu)))
    (hvar : Dict.get? p ("sigma_chi" ++ s) = some (some (fin var)))
    (hmax : Dict.get? p ("amax" ++ s) = some (some (fin m))) (hpos : PossibleMoments m mu var) :
    ∃ (a b : ℝ) (g : ℝ → ℝ), HasMoments g m mu var ∧
      Dict.get? st.converted ("alpha_chi" ++ s) = some (some (fin a)) ∧
      Dict.get? st.converted ("beta_chi" ++ s) = some (some (fin b)) ∧
      ∀ t ∈ Ioo 0 m, betaDist junk bk (pos (fin t)) (pos (fin a)) (pos (fin b)) (kw (fin m)) =
        .ok (fin (g t)) := by
  obtain ⟨mu', var', m', a', b', h1, h2, h3, h4, h5, h6⟩ := (C12_convert py p remove st h).1 s hs
  rw [hmu] at h1
  rw [hvar] at h2
  rw [hmax] at h3
  cases h1; cases h2; cases h3
  obtain ⟨a, b, g, e, -, -, hg, hv⟩ := beta_of_moments py junk bk hpos
  rw [e] at h4
  cases h4
  exact ⟨a, b, g, hg, h5, h6, hv⟩

/-- **C79** for the identically distributed spin model: with the plain names, the magnitudes of the two
black holes are independent, each with the given mean and variance. -/
theorem C79_iid (py : Bool) (junk : Fl → Fl → Fl) (bk : Backend) {p : Dict (Option Fl)}
    {remove : Bool} {st : ConvState (Option Fl) Unit}
    (h : convertToBetaParameters (numOps py) p remove () = .ok st)
    (hs : "" ∈ convertedSuffixes (numOps py) p) {m mu var : ℝ}
    (hmu : Dict.get? p "mu_chi" = some (some (fin mu)))
    (hvar : Dict.get? p "sigma_chi" = some (some (fin var)))
    (hmax : Dict.get? p "amax" = some (some (fin m))) (hpos : PossibleMoments m mu var) :
    ∃ (a b : ℝ) (g : ℝ → ℝ), HasMoments g m mu var ∧
      Dict.get? st.converted "amax" = some (some (fin m)) ∧
      Dict.get? st.converted "alpha_chi" = some (some (fin a)) ∧
      Dict.get? st.converted "beta_chi" = some (some (fin b)) ∧
      ∀ t₁ ∈ Ioo 0 m, ∀ t₂ ∈ Ioo 0 m, ∀ d : Dict Fl, d.get? "a_1" = some (fin t₁) →
        d.get? "a_2" = some (fin t₂) →
        iidSpinMagnitudeBeta junk bk d (fin m) (fin a) (fin b) = .ok (fin (g t₁ * g t₂)) := by
  obtain ⟨a, b, g, hg, h1, h2, hv⟩ := C79_moments py junk bk h hs (s := "") hmu hvar hmax hpos
  have hmax' : Dict.get? st.converted "amax" = some (some (fin m)) := by
    rw [(C12_convert py p remove st h).2.1 "amax" ?_, hmax]
    intro s hs'
    have hcases : s = "_1" ∨ s = "_2" ∨ s = "" := by
      unfold convertedSuffixes at hs'
      simp only [List.mem_append] at hs'
      rcases hs' with (h' | h') | h' <;> split_ifs at h' <;> simp_all
    rcases hcases with rfl | rfl | rfl <;> decide
  refine ⟨a, b, g, hg, hmax', h1, h2, fun t₁ h₁ t₂ h₂ d hd1 hd2 => ?_⟩
  unfold iidSpinMagnitudeBeta
  rw [magnitude_eq junk bk hd1 hd2, hv t₁ h₁, hv t₂ h₂]
  show Except.ok _ = _
  rw [fin_mul]

/-- **C79** for the model with independent parameters: with the names ending in `_1` and `_2`, the primary
has the first mean and variance and the secondary the second. -/
theorem C79_independent (py : Bool) (junk : Fl → Fl → Fl) (bk : Backend) {p : Dict (Option Fl)}
    {remove : Bool} {st : ConvState (Option Fl) Unit}
    (h : convertToBetaParameters (numOps py) p remove () = .ok st)
    (hs1 : "_1" ∈ convertedSuffixes (numOps py) p) (hs2 : "_2" ∈ convertedSuffixes (numOps py) p)
    {m₁ mu₁ var₁ m₂ mu₂ var₂ : ℝ}
    (hmu1 : Dict.get? p "mu_chi_1" = some (some (fin mu₁)))
    (hvar1 : Dict.get? p "sigma_chi_1" = some (some (fin var₁)))
    (hmax1 : Dict.get? p "amax_1" = some (some (fin m₁))) (hpos1 : PossibleMoments m₁ mu₁ var₁)
    (hmu2 : Dict.get? p "mu_chi_2" = some (some (fin mu₂)))
    (hvar2 : Dict.get? p "sigma_chi_2" = some (some (fin var₂)))
    (hmax2 : Dict.get? p "amax_2" = some (some (fin m₂))) (hpos2 : PossibleMoments m₂ mu₂ var₂) :
    ∃ (a₁ b₁ a₂ b₂ : ℝ) (g₁ g₂ : ℝ → ℝ), HasMoments g₁ m₁ mu₁ var₁ ∧ HasMoments g₂ m₂ mu₂ var₂ ∧
      Dict.get? st.converted "alpha_chi_1" = some (some (fin a₁)) ∧
      Dict.get? st.converted "beta_chi_1" = some (some (fin b₁)) ∧
      Dict.get? st.converted "alpha_chi_2" = some (some (fin a₂)) ∧
      Dict.get? st.converted "beta_chi_2" = some (some (fin b₂)) ∧
      ∀ t₁ ∈ Ioo 0 m₁, ∀ t₂ ∈ Ioo 0 m₂, ∀ d : Dict Fl, d.get? "a_1" = some (fin t₁) →
        d.get? "a_2" = some (fin t₂) →
        independentSpinMagnitudeBeta junk bk d (fin a₁) (fin a₂) (fin b₁) (fin b₂) (fin m₁) (fin m₂) =
          .ok (fin (g₁ t₁ * g₂ t₂)) := by
  obtain ⟨a₁, b₁, g₁, hg1, h1, h2, hv1⟩ :=
    C79_moments py junk bk h hs1 (s := "_1") hmu1 hvar1 hmax1 hpos1
  obtain ⟨a₂, b₂, g₂, hg2, h3, h4, hv2⟩ :=
    C79_moments py junk bk h hs2 (s := "_2") hmu2 hvar2 hmax2 hpos2
  refine ⟨a₁, b₁, a₂, b₂, g₁, g₂, hg1, hg2, h1, h2, h3, h4, fun t₁ h₁ t₂ h₂ d hd1 hd2 => ?_⟩
  rw [magnitude_eq junk bk hd1 hd2, hv1 t₁ h₁, hv2 t₂ h₂]
  show Except.ok _ = _
  rw [fin_mul]

/-! ## C80 -/

/-- Full statement of C80: on the backends that check arguments, a spin-magnitude model with a shape
parameter that is not positive raises `ValueError`, as `beta_dist` declares. -/
def C80_statement : Prop :=
  ∀ (junk : Fl → Fl → Fl) (b : Backend) (d : Dict Fl) (a1 a2 al be A : Fl), b ≠ .jax →
    d.get? "a_1" = some a1 → d.get? "a_2" = some a2 → ¬ (0 < al ∧ 0 < be) →
    iidSpinMagnitudeBeta junk b d A al be = .error .valueError

/-- What is checked is only the maximum: the model raises exactly if the check applies and one of the maxima is
not positive, for all floats. -/
theorem C80_maximum_partial (junk : Fl → Fl → Fl) (b : Backend) {d : Dict Fl} {a1 a2 : Fl}
    (h1 : d.get? "a_1" = some a1) (h2 : d.get? "a_2" = some a2) (al1 al2 be1 be2 A1 A2 : Fl) :
    (independentSpinMagnitudeBeta junk b d al1 al2 be1 be2 A1 A2 = .error .valueError ↔
      b ≠ .jax ∧ (¬ 0 < A1 ∨ ¬ 0 < A2)) ∧
    ((b = .jax ∨ (0 < A1 ∧ 0 < A2)) →
      ∃ r : ℝ, 0 ≤ r ∧ independentSpinMagnitudeBeta junk b d al1 al2 be1 be2 A1 A2 = .ok (fin r)) := by
  have key : ∀ (x al be A : Fl),
      (b ≠ .jax ∧ ¬ 0 < A ∧ betaDist junk b (pos x) (pos al) (pos be) (kw A) = .error .valueError) ∨
      ((b = .jax ∨ 0 < A) ∧ ∃ r : ℝ, 0 ≤ r ∧
        betaDist junk b (pos x) (pos al) (pos be) (kw A) = .ok (fin r)) := by
    intro x al be A
    by_cases h : b ≠ .jax ∧ ¬ 0 < A
    · left
      refine ⟨h.1, h.2, ?_⟩
      rw [betaDist_eq, if_pos ⟨h.1, .inr (.inr ⟨rfl, h.2⟩)⟩]
    · right
      have h' : b = .jax ∨ 0 < A := by
        by_contra hh
        push Not at hh
        exact h hh
      refine ⟨h', ?_⟩
      obtain ⟨r, hr0, hr, -⟩ := C06_betaDist_total junk b x al be A
      rw [betaDist_eq, if_neg (by simp)] at hr
      refine ⟨r, hr0, ?_⟩
      rw [betaDist_eq, if_neg ?_]
      · exact hr
      · rintro ⟨hb, h | h | h⟩
        · cases h.1
        · cases h.1
        · exact (h'.resolve_left hb |> h.2)
  rw [magnitude_eq junk b h1 h2]
  rcases key a1 al1 be1 A1 with ⟨hb, hA, e⟩ | ⟨hA, r1, hr1, e⟩
  · rw [e]
    refine ⟨⟨fun _ => ⟨hb, .inl hA⟩, fun _ => rfl⟩, fun h => ?_⟩
    rcases h with h | h
    · exact absurd h hb
    · exact absurd h.1 hA
  · rcases key a2 al2 be2 A2 with ⟨hb, hA2, e2⟩ | ⟨hA2, r2, hr2, e2⟩
    · rw [e, e2]
      refine ⟨⟨fun _ => ⟨hb, .inr hA2⟩, fun _ => rfl⟩, fun h => ?_⟩
      rcases h with h | h
      · exact absurd h hb
      · exact absurd h.2 hA2
    · rw [e, e2]
      have hv : (do
          let p1 ← Except.ok (fin r1)
          let p2 ← Except.ok (fin r2)
          (pure (p1 * p2) : Except PyErr Fl)) = .ok (fin (r1 * r2)) := by
        show Except.ok _ = _
        rw [fin_mul]
      rw [hv]
      refine ⟨⟨fun h => (by cases h), fun h => ?_⟩, fun _ => ⟨_, mul_nonneg hr1 hr2, rfl⟩⟩
      rcases h.2 with h' | h'
      · exact absurd (hA.resolve_left h.1) h'
      · exact absurd (hA2.resolve_left h.1) h'

/-- With shape parameters that are not positive the returned number is positive everywhere inside the
support, provided scipy's `betaln` returns a finite number there. -/
theorem C80_value_partial (junk : Fl → Fl → Fl) (b : Backend) {d : Dict Fl} {t₁ t₂ al be m r : ℝ}
    (h1 : d.get? "a_1" = some (fin t₁)) (h2 : d.get? "a_2" = some (fin t₂)) (ht₁ : t₁ ∈ Ioo 0 m)
    (ht₂ : t₂ ∈ Ioo 0 m) (hneg : ¬ (0 < al ∧ 0 < be)) (hj : junk (fin al) (fin be) = fin r) :
    ∃ v : ℝ, 0 < v ∧ iidSpinMagnitudeBeta junk b d (fin m) (fin al) (fin be) = .ok (fin v) := by
  have key : ∀ t ∈ Ioo 0 m, ∃ v : ℝ, 0 < v ∧
      betaDist junk b (pos (fin t)) (pos (fin al)) (pos (fin be)) (kw (fin m)) = .ok (fin v) := by
    intro t ht
    have hm : 0 < m := ht.1.trans ht.2
    refine ⟨Real.exp ((al - 1) * Real.log t + (be - 1) * Real.log (m - t) - r -
      (al + be - 1) * Real.log m), Real.exp_pos _, ?_⟩
    rw [betaDist_eq, if_neg (by simp [pos, kw, hm])]
    simp only [pos_val, kw_val, betaDistBody]
    have hd : 0 < m - t := by linarith [ht.2]
    rw [one_eq]
    have hbl : betaln junk (fin al) (fin be) = fin r := by
      show (if 0 < al ∧ 0 < be then _ else _) = _
      rw [if_neg hneg, hj]
    simp only [fin_sub, fin_add, log_fin ht.1, log_fin hd, log_fin hm, fin_mul, hbl, exp_fin,
      nanToNum_fin]
    rw [ind_true (by simpa using ht.1.le), ind_true (by simpa using ht.2.le), fin_mul, fin_mul, mul_one,
      mul_one]
  obtain ⟨v1, p1, e1⟩ := key t₁ ht₁
  obtain ⟨v2, p2, e2⟩ := key t₂ ht₂
  refine ⟨v1 * v2, mul_pos p1 p2, ?_⟩
  unfold iidSpinMagnitudeBeta
  rw [magnitude_eq junk b h1 h2, e1, e2]
  show Except.ok _ = _
  rw [fin_mul]

/-- Impossible moments give a shape parameter that is not positive, so that the model evaluates as in the
previous theorem instead of being refused. -/
theorem C80_impossible_partial (py : Bool) {m mu var : ℝ} (hm : 0 < m) (hv : 0 < var)
    (h : ¬ PossibleMoments m mu var) :
    ∃ a b : ℝ, muVarMaxToAlphaBetaMax py (fin mu) (fin var) (fin m) = .ok (fin a, fin b, fin m) ∧
      ¬ (0 < a ∧ 0 < b) := by
  obtain ⟨a, b, e1, e2, -⟩ := C11_roundtrip_muVar py hm hv (mu := mu)
  exact ⟨a, b, e1, fun hab => h ⟨(e2.1 hab).1, (e2.1 hab).2.1, hv, (e2.1 hab).2.2⟩⟩

/-- The orientation models never refuse a width, whatever float it is: `sigma > 0` is declared by
`truncnorm` but not checked here. -/
theorem C80_orientation_partial (b : Backend) {d : Dict Fl} {z1 z2 : Fl}
    (h1 : d.get? "cos_tilt_1" = some z1) (h2 : d.get? "cos_tilt_2" = some z2)
    (xi s1 s2 mu1 mu2 : Fl) :
    ∃ r, independentSpinOrientation b d xi s1 s2 mu1 mu2 = .ok r := by
  obtain ⟨r1, -, e1, -⟩ := C04_truncnorm_total b z1 mu1 s1 1 (-1)
  obtain ⟨r2, -, e2, -⟩ := C04_truncnorm_total b z2 mu2 s2 1 (-1)
  rw [orientation_eq b h1 h2, e1, e2]
  exact ⟨_, rfl⟩

/-- **C80 fails**: the shape parameters are passed by position and therefore not checked. -/
theorem C80_fails : ¬ C80_statement := by
  intro H
  have h := H (fun _ _ => fin 0) .numpy (spinData (fin (1 / 2)) (fin (1 / 2)) []) (fin (1 / 2))
    (fin (1 / 2)) (fin (-1)) (fin 2) (fin 1) (by decide) (spinData_get1 _ _ _) (spinData_get2 _ _ _)
    (by simp)
  obtain ⟨v, -, hv⟩ := C80_value_partial (fun _ _ => fin 0) .numpy (m := 1) (al := -1) (be := 2) (r := 0)
    (spinData_get1 (fin (1 / 2)) (fin (1 / 2)) []) (spinData_get2 _ _ _) (by norm_num) (by norm_num)
    (by norm_num) rfl
  rw [hv] at h
  cases h

/-! ## Non-vacuity -/

/-- A possible mean and variance for `amax = 1`; the suffix list of a dictionary with the plain names. -/
example : PossibleMoments 1 (1 / 2) (1 / 20) ∧ ¬ PossibleMoments 1 (1 / 2) (1 / 2) := by
  unfold PossibleMoments
  constructor
  · norm_num
  · norm_num

/-- The hypotheses of C79 hold for a dictionary with the mean and the variance of the primary. -/
example : ∃ st, convertToBetaParameters (numOps true) exampleMoments true () = .ok st ∧
    ∃ (a b : ℝ) (g : ℝ → ℝ), HasMoments g 1 (1 / 2) (1 / 20) ∧
      Dict.get? st.converted "alpha_chi_1" = some (some (fin a)) ∧
      Dict.get? st.converted "beta_chi_1" = some (some (fin b)) := by
  have g1 : Dict.get? exampleMoments ("mu_chi" ++ "_1") = some (some (fin (1 / 2))) := by
    simp [exampleMoments, Dict.get?_cons]
  have g2 : Dict.get? exampleMoments ("sigma_chi" ++ "_1") = some (some (fin (1 / 20))) := by
    simp [exampleMoments, Dict.get?_cons]
  have g3 : Dict.get? exampleMoments ("amax" ++ "_1") = some (some (fin 1)) := by
    simp [exampleMoments, Dict.get?_cons]
  have hp : PossibleMoments 1 (1 / 2) (1 / 20) := by unfold PossibleMoments; norm_num
  obtain ⟨st, hst⟩ := (C12_convert_returns_iff true exampleMoments true).2 (by
    intro s hs
    rw [exampleMoments_suffixes, List.mem_singleton] at hs
    subst hs
    obtain ⟨a, b, -, e, -⟩ := beta_of_moments true (fun _ _ => nan) .numpy hp
    exact ⟨_, _, _, _, _, g1, g2, g3, e⟩)
  have hs : "_1" ∈ convertedSuffixes (numOps true) exampleMoments := by
    rw [exampleMoments_suffixes]; simp
  obtain ⟨a, b, g, hg, h1, h2, -⟩ :=
    C79_moments true (fun _ _ => nan) .numpy hst hs g1 g2 g3 hp
  exact ⟨st, hst, a, b, g, hg, h1, h2⟩

end GW
