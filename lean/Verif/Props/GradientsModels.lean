import Verif.Props.GradientsSmoothed

/-!
# C92: gradients of the smoothed mass models

For the four models of `/repo/gwpopulation/models/mass.py:533-690` on jax: the derivative that jax
returns for the density of a source is the derivative of the density, if the source is more than one
grid cell above `mmin`; for a source more than one grid cell below `mmin`, where the density is 0, the
derivative with respect to `beta` is NaN.
-/

noncomputable section

open Set MeasureTheory Filter
open scoped Topology

namespace GW

open Fl Spec Ex

namespace Spec

/-- Neither a grid mass nor the mass of the source is exactly `x`. -/
def AwayFrom (selfMin selfMax : ℝ) (nM : ℕ) (m x : ℝ) : Prop :=
  (∀ i < nM, gridMass selfMin selfMax nM i ≠ x) ∧ m ≠ x

end Spec

theorem awayFrom_inv {selfMin selfMax m x : ℝ} {nM : ℕ} (h : AwayFrom selfMin selfMax nM m x) {a : ℝ}
    (ha : a ∈ Arr.linspaceR selfMin selfMax nM ∨ a = m) : a ≠ x := by
  rcases ha with ha | rfl
  · obtain ⟨i, hi, rfl⟩ := List.mem_map.1 ha
    exact h.1 i (List.mem_range.1 hi)
  · exact h.2

theorem allOffKinks_ne {selfMin selfMax lo d : ℝ} {nM nQ : ℕ} (hQ : 2 ≤ nQ) {e : ℝ × ℝ}
    (h : AllOffKinks selfMin selfMax nM nQ lo d e) {a : ℝ}
    (ha : a ∈ Arr.linspaceR selfMin selfMax nM ∨ a = e.1) : a ≠ lo := by
  rcases ha with ha | rfl
  · obtain ⟨i, hi, rfl⟩ := List.mem_map.1 ha
    obtain ⟨j, hj, hj'⟩ := List.mem_map.1 (linspaceR_last 0.001 1 hQ)
    have := (h.grid i (List.mem_range.1 hi) j (List.mem_range.1 hj)).1
    rw [show gridRatio nQ j = 1 from hj', mul_one] at this
    exact this
  · exact h.primary.1

/-- A source below `mmin`: NaN for `beta`, whatever the primary mass model. -/
theorem smoothed_below {primary : Primary} {fixed : Dict Fl} {cache : Bool} {selfMin selfMax : ℝ}
    {nM nQ : ℕ} {s : Smoothed} (hs : Smoothed.init primary fixed selfMin selfMax nM nQ cache = .ok s)
    (prim : Ex → Ex) {θ : String → ℝ} (hself : 0 < selfMin) (hlt : selfMin < selfMax) (hd : 0 < θ "delta_m")
    {e : ℝ × ℝ} (h1 : selfMin ≤ e.1) (h2 : e.1 ≤ selfMax)
    (h3 : e.1 + (selfMax - selfMin) / ((nM : ℝ) - 1) < θ "mmin") (hq : 0 < e.2) :
    ∀ ct, back (envOf θ) "beta" (smoothedRec s prim e) ct = nan := by
  intro ct
  obtain ⟨hM, hQ, rfl⟩ := init_inv hs
  have hc : 0 < (selfMax - selfMin) / ((nM : ℝ) - 1) := by
    have : (2 : ℝ) ≤ nM := by exact_mod_cast hM
    exact div_pos (by linarith) (by linarith)
  unfold smoothedRec smoothedEx
  rw [back_mul, back_pQ_nan (pQRaw_below hd (by linarith) (by linarith) hq (by linarith))
    (qNormAt_below hd (s := ⟨primary, fixed, selfMin, selfMax, Arr.linspaceR selfMin selfMax nM,
      Arr.linspaceR 0.001 1 nQ, cache, none⟩) hM rfl (fun q hq => lt_of_lt_of_le (by norm_num)
      (linspaceR_mem (by norm_num) hQ hq).1) hself hlt ⟨h1, h2⟩ h3), add_nan]

/-- A source below `mmin`: the density is 0. -/
theorem smoothed_below_zero {primary : Primary} {fixed : Dict Fl} {cache : Bool} {selfMin selfMax : ℝ}
    {nM nQ : ℕ} {s : Smoothed} (hs : Smoothed.init primary fixed selfMin selfMax nM nQ cache = .ok s)
    {prim : Ex → Ex} {θ : String → ℝ} (hself : 0 < selfMin) (hlt : selfMin < selfMax) (hd : 0 < θ "delta_m")
    {e : ℝ × ℝ} (h1 : selfMin ≤ e.1) (h2 : e.1 ≤ selfMax)
    (h3 : e.1 + (selfMax - selfMin) / ((nM : ℝ) - 1) < θ "mmin") (hq : 0 < e.2) {f : ℝ → ℝ}
    (hf : ∀ m, 0 < m → eval (envOf θ) (prim (const (fin m))) = fin (f m))
    (hf0 : ∀ m, 0 ≤ f m) (hpos : ∃ m ∈ Arr.linspaceR selfMin selfMax nM, θ "mmin" < m ∧ 0 < f m) :
    eval (envOf θ) (smoothedRec s prim e) = fin 0 := by
  obtain ⟨hM, hQ, rfl⟩ := init_inv hs
  have hc : 0 < (selfMax - selfMin) / ((nM : ℝ) - 1) := by
    have : (2 : ℝ) ≤ nM := by exact_mod_cast hM
    exact div_pos (by linarith) (by linarith)
  set s : Smoothed := ⟨primary, fixed, selfMin, selfMax, Arr.linspaceR selfMin selfMax nM,
      Arr.linspaceR 0.001 1 nQ, cache, none⟩ with hs'
  obtain ⟨N, hN, eN⟩ := norm_value (θ := θ) (s := s) (prim := prim) hM rfl hself hlt hd hf hf0 hpos
  have e1 := pQRaw_below hd (by linarith) (by linarith) hq (by linarith : e.1 < θ "mmin")
  have e2 := qNormAt_below hd (s := s) hM rfl (fun q hq => lt_of_lt_of_le (by norm_num)
      (linspaceR_mem (by norm_num) hQ hq).1) hself hlt ⟨h1, h2⟩ h3
  have e3 : eval (envOf θ) (pQEx s (arg "beta") (arg "mmin") (arg "delta_m") e.1 e.2) = fin 0 := by
    unfold pQEx
    rw [eval_un, eval_div, e1, e2, fin_div_zero]
    simp [UnOp.val, signInf, nanToNum, nanToNumWith]
  unfold smoothedRec smoothedEx
  rw [eval_mul, e3]
  unfold pM1Ex
  rw [eval_div, eN, eval_mul, hf e.1 (by linarith), ← trace_smoothing]
  show fin _ * smoothing .jax (fin e.1) (fin (θ "mmin")) (fin selfMax) (fin (θ "delta_m")) / fin N * fin 0 = _
  rw [smoothing_fin .jax _ _ _ hd, fin_mul, fin_div hN.ne', fin_mul, mul_zero]

/-! ### `SinglePeakSmoothedMassDistribution` -/

/-- The hyper-parameters of `SinglePeakSmoothedMassDistribution`. -/
def namesSinglePeak : List String := ["beta", "delta_m", "alpha", "mmin", "mmax", "lam", "mpp", "sigpp"]

/-- The primary mass model, recorded. -/
def recSinglePeak (selfMax : ℝ) (m : Ex) : Ex := twoComponentEx m (arg "alpha") (arg "mmin") (arg "mmax") (arg "lam") (arg "mpp") (arg "sigpp") (const (fin selfMax))

theorem primary_singlePeak (selfMax : ℝ) (θ : String → ℝ) (m : ℝ) : primTwoComponent false .jax
    (Dict.erase (Dict.erase (namedArgs namesSinglePeak θ) "beta" ++ [("gaussian_mass_maximum", fin selfMax)])
      "delta_m") (fin m) = .ok (eval (envOf θ) (recSinglePeak selfMax (const (fin m)))) := by
  obtain ⟨g, hg', v1, v2⟩ := bindPrimary
    (names := ["alpha", "mmin", "mmax", "lam", "mpp", "sigpp"])
    (extra := ["gaussian_mass_maximum"]) (defaults := [("gaussian_mass_maximum", fin 100)])
    (kwargs := namedArgs namesSinglePeak θ)
    (fixed := [("gaussian_mass_maximum", fin selfMax)]) (by rw [keys_namedArgs]; exact fun k hk => hk)
    (by simp [Dict.keys]) (by decide) (by decide)
    (fun n hn => ⟨_, get?_namedArgs θ (List.mem_cons_of_mem _ (List.mem_cons_of_mem _ hn))⟩)
    (by simp [Dict.get?_cons])
  simp only [List.cons_append, List.nil_append, List.append_nil] at hg'
  simp only [primTwoComponent, List.append_nil, hg']
  show twoComponentSingle .jax false (fin m) (g "alpha") (g "mmin") (g "mmax") (g "lam") (g "mpp") (g "sigpp") (g "gaussian_mass_maximum") = _
  rw [v1 "alpha" (by decide) _ (get?_namedArgs θ (by decide)),
    v1 "mmin" (by decide) _ (get?_namedArgs θ (by decide)),
    v1 "mmax" (by decide) _ (get?_namedArgs θ (by decide)),
    v1 "lam" (by decide) _ (get?_namedArgs θ (by decide)),
    v1 "mpp" (by decide) _ (get?_namedArgs θ (by decide)),
    v1 "sigpp" (by decide) _ (get?_namedArgs θ (by decide)),
    v2 "gaussian_mass_maximum" (by decide) (fin selfMax) (by simp [Dict.get?_cons])]
  exact trace_twoComponent (envOf θ) (const (fin m)) (arg "alpha") (arg "mmin") (arg "mmax") (arg "lam") (arg "mpp") (arg "sigpp") (const (fin selfMax))

/-- **C92, `SinglePeakSmoothedMassDistribution`.** jax returns the derivative of the density of every source
that is more than one grid cell above `mmin`, with respect to every hyper-parameter, if no mass is exactly where
the density is not differentiable and no spectral index is exactly the one that needs the logarithm. -/
theorem C92_singlePeak_partial (cache : Bool) {selfMin selfMax : ℝ} {nM nQ : ℕ}
    {s : Smoothed} (hs0 : singlePeak false selfMin selfMax nM nQ cache = .ok s) {θ : String → ℝ}
    (hself : 0 < selfMin) (hlo : selfMin ≤ θ "mmin") (hlt : θ "mmin" < θ "mmax")
    (hhi : θ "mmax" ≤ selfMax) (hd : 0 < θ "delta_m") (hbeta : θ "beta" ≠ -1)
    (ha : θ "alpha" ≠ 1) (hl0 : 0 ≤ θ "lam") (hl1 : θ "lam" ≤ 1) (hs : 0 < θ "sigpp")
    {data : List (ℝ × ℝ)} {i : ℕ} (hi : i < data.length)
    (he1 : θ "mmin" + (selfMax - selfMin) / ((nM : ℝ) - 1) < data[i].1) (he2 : data[i].1 ≤ selfMax)
    (he3 : 0 < data[i].2) (hk : AllOffKinks selfMin selfMax nM nQ (θ "mmin") (θ "delta_m") data[i])
    (hmax : AwayFrom selfMin selfMax nM data[i].1 (θ "mmax"))
    (hin : GridInside selfMin selfMax nM (θ "mmin") (θ "mmax")) (v : String) :
    GradientRight (smoothedOf s namesSinglePeak data i) (smoothedRec s (recSinglePeak selfMax) data[i]) θ v := by
  have h0 : 0 < θ "mmin" := by linarith
  have hg : θ "mmin" < selfMax := by linarith
  obtain ⟨hM, hQ, -⟩ := init_inv hs0
  have hc : 0 < (selfMax - selfMin) / ((nM : ℝ) - 1) := by
    have : (2 : ℝ) ≤ nM := by exact_mod_cast hM
    exact div_pos (by linarith) (by linarith)
  have hne : ∀ a, a ∈ Arr.linspaceR selfMin selfMax nM ∨ a = data[i].1 → a ≠ θ "mmin" ∧ a ≠ θ "mmax" ∧ True :=
    fun a hm => ⟨allOffKinks_ne hQ hk hm, awayFrom_inv hmax hm, trivial⟩
  have hap : ∀ a, a ∈ Arr.linspaceR selfMin selfMax nM ∨ a = data[i].1 → 0 < a := by
    rintro a (ha | rfl)
    · linarith [(linspaceR_mem (by linarith) hM ha).1]
    · linarith
  refine smoothed_gradient hs0 (by decide) (by decide) (by decide) ?_ (primary_singlePeak selfMax) hi hself
    (by linarith) hd hlo hbeta he1 he2 he3 hk (fun a hm => ?_)
    (f := fun m => (1 - θ "lam") * normalised (fun t => t ^ (-θ "alpha")) (θ "mmin") (θ "mmax") m +
      θ "lam" * normalised (bell (θ "mpp") (θ "sigpp")) (θ "mmin") selfMax m) (fun m hm0 => ?_) (fun m => ?_) ?_
  · intro k hk
    simp only [Dict.keys, List.map_cons, List.map_nil, List.mem_singleton, List.not_mem_nil] at hk
    subst hk
    decide
  · exact smooth_twoComponent (smooth_const θ v a) trivial trivial trivial trivial trivial trivial
      (smooth_const θ v selfMax) rfl rfl rfl rfl rfl rfl rfl (hap a hm) ha h0 hlt hs hg (hne a hm).1 (hne a hm).2.1
      (smooth_mask_const θ v _ _ _)
  · exact Except.ok.inj ((trace_twoComponent (envOf θ) (const (fin m)) (arg "alpha") (arg "mmin") (arg "mmax") (arg "lam") (arg "mpp") (arg "sigpp") (const (fin selfMax))).symm.trans
      (C18_twoComponentSingle_value .jax false (.inl rfl) h0 hlt hg hs hm0))
  · exact add_nonneg (mul_nonneg (by linarith) ((isPdf_powerlaw (-θ "alpha") h0 hlt).nonneg m))
      (mul_nonneg hl0 ((isPdf_bell (θ "mpp") (θ "sigpp") hg).nonneg m))
  · obtain ⟨m, hm, h1, h2⟩ := gridInside_inv hin
    have hm0 : 0 < m := h0.trans h1
    refine ⟨m, hm, h1, ?_⟩
    exact mix_pos hl0 hl1 (normalised_pos (integral_rpow_pos h0 hlt) ⟨h1.le, h2.le⟩
      (Real.rpow_pos_of_pos hm0 _)) (normalised_pos (integral_gaussShape_pos hg) ⟨h1.le, h2.le.trans hhi⟩
      (gaussShape_pos (θ "mpp") (θ "sigpp") m))

theorem zero_singlePeak {cache : Bool} {selfMin selfMax : ℝ} {nM nQ : ℕ}
    {s : Smoothed} (hs0 : singlePeak false selfMin selfMax nM nQ cache = .ok s) {θ : String → ℝ}
    (hself : 0 < selfMin) (hsm : selfMin < selfMax) (hlt : θ "mmin" < θ "mmax")
    (hhi : θ "mmax" ≤ selfMax) (hd : 0 < θ "delta_m")
    (hl0 : 0 ≤ θ "lam") (hl1 : θ "lam" ≤ 1) (hs : 0 < θ "sigpp")
    {data : List (ℝ × ℝ)} {i : ℕ} (hi : i < data.length) (he1 : selfMin ≤ data[i].1)
    (he2 : data[i].1 + (selfMax - selfMin) / ((nM : ℝ) - 1) < θ "mmin") (he3 : 0 < data[i].2)
    (hin : GridInside selfMin selfMax nM (θ "mmin") (θ "mmax")) :
    smoothedOf s namesSinglePeak data i θ = .ok (fin 0) := by
  obtain ⟨hM, hQ, -⟩ := init_inv hs0
  have hc : 0 < (selfMax - selfMin) / ((nM : ℝ) - 1) := by
    have : (2 : ℝ) ≤ nM := by exact_mod_cast hM
    exact div_pos (by linarith) (by linarith)
  have h0 : 0 < θ "mmin" := by linarith
  have hg : θ "mmin" < selfMax := by linarith
  refine (smoothed_traces hs0 (by decide) (by decide) (by decide) ?_ (primary_singlePeak selfMax) hi θ).trans
    (congrArg Except.ok (smoothed_below_zero hs0 (prim := recSinglePeak selfMax) hself hsm hd he1 (by linarith) he2 he3
    (f := fun m => (1 - θ "lam") * normalised (fun t => t ^ (-θ "alpha")) (θ "mmin") (θ "mmax") m +
      θ "lam" * normalised (bell (θ "mpp") (θ "sigpp")) (θ "mmin") selfMax m) (fun m hm0 => ?_) (fun m => ?_) ?_))
  · intro k hk
    simp only [Dict.keys, List.map_cons, List.map_nil, List.mem_singleton, List.not_mem_nil] at hk
    subst hk
    decide
  · exact Except.ok.inj ((trace_twoComponent (envOf θ) (const (fin m)) (arg "alpha") (arg "mmin") (arg "mmax") (arg "lam") (arg "mpp") (arg "sigpp") (const (fin selfMax))).symm.trans
      (C18_twoComponentSingle_value .jax false (.inl rfl) h0 hlt hg hs hm0))
  · exact add_nonneg (mul_nonneg (by linarith) ((isPdf_powerlaw (-θ "alpha") h0 hlt).nonneg m))
      (mul_nonneg hl0 ((isPdf_bell (θ "mpp") (θ "sigpp") hg).nonneg m))
  · obtain ⟨m, hm, h1, h2⟩ := gridInside_inv hin
    have hm0 : 0 < m := h0.trans h1
    refine ⟨m, hm, h1, ?_⟩
    exact mix_pos hl0 hl1 (normalised_pos (integral_rpow_pos h0 hlt) ⟨h1.le, h2.le⟩
      (Real.rpow_pos_of_pos hm0 _)) (normalised_pos (integral_gaussShape_pos hg) ⟨h1.le, h2.le.trans hhi⟩
      (gaussShape_pos (θ "mpp") (θ "sigpp") m))

/-- **C92, `SinglePeakSmoothedMassDistribution`.** For a source more than one grid cell below `mmin` the density is 0 for every
`beta`, but jax returns NaN for the derivative with respect to `beta`. -/
theorem C92_singlePeak_below (cache : Bool) {selfMin selfMax : ℝ} {nM nQ : ℕ}
    {s : Smoothed} (hs0 : singlePeak false selfMin selfMax nM nQ cache = .ok s) {θ : String → ℝ}
    (hself : 0 < selfMin) (hsm : selfMin < selfMax) (hlt : θ "mmin" < θ "mmax")
    (hhi : θ "mmax" ≤ selfMax) (hd : 0 < θ "delta_m")
    (hl0 : 0 ≤ θ "lam") (hl1 : θ "lam" ≤ 1) (hs : 0 < θ "sigpp")
    {data : List (ℝ × ℝ)} {i : ℕ} (hi : i < data.length) (he1 : selfMin ≤ data[i].1)
    (he2 : data[i].1 + (selfMax - selfMin) / ((nM : ℝ) - 1) < θ "mmin") (he3 : 0 < data[i].2)
    (hin : GridInside selfMin selfMax nM (θ "mmin") (θ "mmax")) :
    (∀ t, smoothedOf s namesSinglePeak data i (Function.update θ "beta" t) = .ok (fin 0)) ∧
      (smoothedRec s (recSinglePeak selfMax) data[i]).grad (envOf θ) "beta" = nan := by
  obtain ⟨hM, hQ, -⟩ := init_inv hs0
  have hc : 0 < (selfMax - selfMin) / ((nM : ℝ) - 1) := by
    have : (2 : ℝ) ≤ nM := by exact_mod_cast hM
    exact div_pos (by linarith) (by linarith)
  refine ⟨fun t => ?_, smoothed_below hs0 _ hself hsm hd he1 (by linarith) he2 he3 1⟩
  exact zero_singlePeak hs0 hself hsm (by simpa [Function.update] using hlt) (by simpa [Function.update] using hhi) (by simpa [Function.update] using hd) (by simpa [Function.update] using hl0) (by simpa [Function.update] using hl1) (by simpa [Function.update] using hs)
    hi he1 (by simpa [Function.update] using he2) he3 (by simpa [Function.update] using hin)

/-! ### `MultiPeakSmoothedMassDistribution` -/

/-- The hyper-parameters of `MultiPeakSmoothedMassDistribution`. -/
def namesMultiPeak : List String := ["beta", "delta_m", "alpha", "mmin", "mmax", "lam", "lam_1", "mpp_1", "sigpp_1", "mpp_2", "sigpp_2"]

/-- The primary mass model, recorded. -/
def recMultiPeak (selfMax : ℝ) (m : Ex) : Ex := threeComponentEx m (arg "alpha") (arg "mmin") (arg "mmax") (arg "lam") (arg "lam_1") (arg "mpp_1") (arg "sigpp_1") (arg "mpp_2") (arg "sigpp_2") (const (fin selfMax))

theorem primary_multiPeak (selfMax : ℝ) (θ : String → ℝ) (m : ℝ) : primThreeComponent false .jax
    (Dict.erase (Dict.erase (namedArgs namesMultiPeak θ) "beta" ++ [("gaussian_mass_maximum", fin selfMax)])
      "delta_m") (fin m) = .ok (eval (envOf θ) (recMultiPeak selfMax (const (fin m)))) := by
  obtain ⟨g, hg', v1, v2⟩ := bindPrimary
    (names := ["alpha", "mmin", "mmax", "lam", "lam_1", "mpp_1", "sigpp_1", "mpp_2", "sigpp_2"])
    (extra := ["gaussian_mass_maximum"]) (defaults := [("gaussian_mass_maximum", fin 100)])
    (kwargs := namedArgs namesMultiPeak θ)
    (fixed := [("gaussian_mass_maximum", fin selfMax)]) (by rw [keys_namedArgs]; exact fun k hk => hk)
    (by simp [Dict.keys]) (by decide) (by decide)
    (fun n hn => ⟨_, get?_namedArgs θ (List.mem_cons_of_mem _ (List.mem_cons_of_mem _ hn))⟩)
    (by simp [Dict.get?_cons])
  simp only [List.cons_append, List.nil_append, List.append_nil] at hg'
  simp only [primThreeComponent, List.append_nil, hg']
  show threeComponentSingle .jax false (fin m) (g "alpha") (g "mmin") (g "mmax") (g "lam") (g "lam_1") (g "mpp_1") (g "sigpp_1") (g "mpp_2") (g "sigpp_2") (g "gaussian_mass_maximum") = _
  rw [v1 "alpha" (by decide) _ (get?_namedArgs θ (by decide)),
    v1 "mmin" (by decide) _ (get?_namedArgs θ (by decide)),
    v1 "mmax" (by decide) _ (get?_namedArgs θ (by decide)),
    v1 "lam" (by decide) _ (get?_namedArgs θ (by decide)),
    v1 "lam_1" (by decide) _ (get?_namedArgs θ (by decide)),
    v1 "mpp_1" (by decide) _ (get?_namedArgs θ (by decide)),
    v1 "sigpp_1" (by decide) _ (get?_namedArgs θ (by decide)),
    v1 "mpp_2" (by decide) _ (get?_namedArgs θ (by decide)),
    v1 "sigpp_2" (by decide) _ (get?_namedArgs θ (by decide)),
    v2 "gaussian_mass_maximum" (by decide) (fin selfMax) (by simp [Dict.get?_cons])]
  exact trace_threeComponent (envOf θ) (const (fin m)) (arg "alpha") (arg "mmin") (arg "mmax") (arg "lam") (arg "lam_1") (arg "mpp_1") (arg "sigpp_1") (arg "mpp_2") (arg "sigpp_2") (const (fin selfMax))

/-- **C92, `MultiPeakSmoothedMassDistribution`.** jax returns the derivative of the density of every source
that is more than one grid cell above `mmin`, with respect to every hyper-parameter, if no mass is exactly where
the density is not differentiable and no spectral index is exactly the one that needs the logarithm. -/
theorem C92_multiPeak_partial (cache : Bool) {selfMin selfMax : ℝ} {nM nQ : ℕ}
    {s : Smoothed} (hs0 : multiPeak false selfMin selfMax nM nQ cache = .ok s) {θ : String → ℝ}
    (hself : 0 < selfMin) (hlo : selfMin ≤ θ "mmin") (hlt : θ "mmin" < θ "mmax")
    (hhi : θ "mmax" ≤ selfMax) (hd : 0 < θ "delta_m") (hbeta : θ "beta" ≠ -1)
    (ha : θ "alpha" ≠ 1) (hl0 : 0 ≤ θ "lam") (hl1 : θ "lam" ≤ 1) (hl10 : 0 ≤ θ "lam_1")
    (hl11 : θ "lam_1" ≤ 1) (hs1 : 0 < θ "sigpp_1") (hs2 : 0 < θ "sigpp_2")
    {data : List (ℝ × ℝ)} {i : ℕ} (hi : i < data.length)
    (he1 : θ "mmin" + (selfMax - selfMin) / ((nM : ℝ) - 1) < data[i].1) (he2 : data[i].1 ≤ selfMax)
    (he3 : 0 < data[i].2) (hk : AllOffKinks selfMin selfMax nM nQ (θ "mmin") (θ "delta_m") data[i])
    (hmax : AwayFrom selfMin selfMax nM data[i].1 (θ "mmax"))
    (hin : GridInside selfMin selfMax nM (θ "mmin") (θ "mmax")) (v : String) :
    GradientRight (smoothedOf s namesMultiPeak data i) (smoothedRec s (recMultiPeak selfMax) data[i]) θ v := by
  have h0 : 0 < θ "mmin" := by linarith
  have hg : θ "mmin" < selfMax := by linarith
  obtain ⟨hM, hQ, -⟩ := init_inv hs0
  have hc : 0 < (selfMax - selfMin) / ((nM : ℝ) - 1) := by
    have : (2 : ℝ) ≤ nM := by exact_mod_cast hM
    exact div_pos (by linarith) (by linarith)
  have hne : ∀ a, a ∈ Arr.linspaceR selfMin selfMax nM ∨ a = data[i].1 → a ≠ θ "mmin" ∧ a ≠ θ "mmax" ∧ True :=
    fun a hm => ⟨allOffKinks_ne hQ hk hm, awayFrom_inv hmax hm, trivial⟩
  have hap : ∀ a, a ∈ Arr.linspaceR selfMin selfMax nM ∨ a = data[i].1 → 0 < a := by
    rintro a (ha | rfl)
    · linarith [(linspaceR_mem (by linarith) hM ha).1]
    · linarith
  refine smoothed_gradient hs0 (by decide) (by decide) (by decide) ?_ (primary_multiPeak selfMax) hi hself
    (by linarith) hd hlo hbeta he1 he2 he3 hk (fun a hm => ?_)
    (f := fun m => (1 - θ "lam") * normalised (fun t => t ^ (-θ "alpha")) (θ "mmin") (θ "mmax") m +
      θ "lam" * θ "lam_1" * normalised (bell (θ "mpp_1") (θ "sigpp_1")) (θ "mmin") selfMax m +
      θ "lam" * (1 - θ "lam_1") * normalised (bell (θ "mpp_2") (θ "sigpp_2")) (θ "mmin") selfMax m) (fun m hm0 => ?_) (fun m => ?_) ?_
  · intro k hk
    simp only [Dict.keys, List.map_cons, List.map_nil, List.mem_singleton, List.not_mem_nil] at hk
    subst hk
    decide
  · exact smooth_threeComponent (smooth_const θ v a) trivial trivial trivial trivial trivial trivial
      trivial trivial trivial (smooth_const θ v selfMax) rfl rfl rfl rfl rfl rfl rfl rfl rfl (hap a hm) ha h0 hlt hs1
      hs2 hg (hne a hm).1 (hne a hm).2.1 (smooth_mask_const θ v _ _ _)
  · exact Except.ok.inj ((trace_threeComponent (envOf θ) (const (fin m)) (arg "alpha") (arg "mmin") (arg "mmax") (arg "lam") (arg "lam_1") (arg "mpp_1") (arg "sigpp_1") (arg "mpp_2") (arg "sigpp_2") (const (fin selfMax))).symm.trans
      (C18_threeComponentSingle_value .jax false (.inl rfl) h0 hlt hg hs1 hs2 hm0))
  · exact add_nonneg (add_nonneg (mul_nonneg (by linarith)
        ((isPdf_powerlaw (-θ "alpha") h0 hlt).nonneg m))
      (mul_nonneg (mul_nonneg hl0 hl10) ((isPdf_bell (θ "mpp_1") (θ "sigpp_1") hg).nonneg m)))
      (mul_nonneg (mul_nonneg hl0 (by linarith)) ((isPdf_bell (θ "mpp_2") (θ "sigpp_2") hg).nonneg m))
  · obtain ⟨m, hm, h1, h2⟩ := gridInside_inv hin
    have hm0 : 0 < m := h0.trans h1
    refine ⟨m, hm, h1, ?_⟩
    have e1 : 0 < normalised (fun t => t ^ (-θ "alpha")) (θ "mmin") (θ "mmax") m :=
      normalised_pos (integral_rpow_pos h0 hlt) ⟨h1.le, h2.le⟩ (Real.rpow_pos_of_pos hm0 _)
    have e2 : 0 < normalised (bell (θ "mpp_1") (θ "sigpp_1")) (θ "mmin") selfMax m :=
      normalised_pos (integral_gaussShape_pos hg) ⟨h1.le, h2.le.trans hhi⟩ (gaussShape_pos _ _ m)
    have e3 : 0 < normalised (bell (θ "mpp_2") (θ "sigpp_2")) (θ "mmin") selfMax m :=
      normalised_pos (integral_gaussShape_pos hg) ⟨h1.le, h2.le.trans hhi⟩ (gaussShape_pos _ _ m)
    refine lt_of_lt_of_eq (mix_pos hl0 hl1 e1 (mix_pos hl10 hl11 e3 e2)) ?_
    ring

theorem zero_multiPeak {cache : Bool} {selfMin selfMax : ℝ} {nM nQ : ℕ}
    {s : Smoothed} (hs0 : multiPeak false selfMin selfMax nM nQ cache = .ok s) {θ : String → ℝ}
    (hself : 0 < selfMin) (hsm : selfMin < selfMax) (hlt : θ "mmin" < θ "mmax")
    (hhi : θ "mmax" ≤ selfMax) (hd : 0 < θ "delta_m")
    (hl0 : 0 ≤ θ "lam") (hl1 : θ "lam" ≤ 1) (hl10 : 0 ≤ θ "lam_1")
    (hl11 : θ "lam_1" ≤ 1) (hs1 : 0 < θ "sigpp_1") (hs2 : 0 < θ "sigpp_2")
    {data : List (ℝ × ℝ)} {i : ℕ} (hi : i < data.length) (he1 : selfMin ≤ data[i].1)
    (he2 : data[i].1 + (selfMax - selfMin) / ((nM : ℝ) - 1) < θ "mmin") (he3 : 0 < data[i].2)
    (hin : GridInside selfMin selfMax nM (θ "mmin") (θ "mmax")) :
    smoothedOf s namesMultiPeak data i θ = .ok (fin 0) := by
  obtain ⟨hM, hQ, -⟩ := init_inv hs0
  have hc : 0 < (selfMax - selfMin) / ((nM : ℝ) - 1) := by
    have : (2 : ℝ) ≤ nM := by exact_mod_cast hM
    exact div_pos (by linarith) (by linarith)
  have h0 : 0 < θ "mmin" := by linarith
  have hg : θ "mmin" < selfMax := by linarith
  refine (smoothed_traces hs0 (by decide) (by decide) (by decide) ?_ (primary_multiPeak selfMax) hi θ).trans
    (congrArg Except.ok (smoothed_below_zero hs0 (prim := recMultiPeak selfMax) hself hsm hd he1 (by linarith) he2 he3
    (f := fun m => (1 - θ "lam") * normalised (fun t => t ^ (-θ "alpha")) (θ "mmin") (θ "mmax") m +
      θ "lam" * θ "lam_1" * normalised (bell (θ "mpp_1") (θ "sigpp_1")) (θ "mmin") selfMax m +
      θ "lam" * (1 - θ "lam_1") * normalised (bell (θ "mpp_2") (θ "sigpp_2")) (θ "mmin") selfMax m) (fun m hm0 => ?_) (fun m => ?_) ?_))
  · intro k hk
    simp only [Dict.keys, List.map_cons, List.map_nil, List.mem_singleton, List.not_mem_nil] at hk
    subst hk
    decide
  · exact Except.ok.inj ((trace_threeComponent (envOf θ) (const (fin m)) (arg "alpha") (arg "mmin") (arg "mmax") (arg "lam") (arg "lam_1") (arg "mpp_1") (arg "sigpp_1") (arg "mpp_2") (arg "sigpp_2") (const (fin selfMax))).symm.trans
      (C18_threeComponentSingle_value .jax false (.inl rfl) h0 hlt hg hs1 hs2 hm0))
  · exact add_nonneg (add_nonneg (mul_nonneg (by linarith)
        ((isPdf_powerlaw (-θ "alpha") h0 hlt).nonneg m))
      (mul_nonneg (mul_nonneg hl0 hl10) ((isPdf_bell (θ "mpp_1") (θ "sigpp_1") hg).nonneg m)))
      (mul_nonneg (mul_nonneg hl0 (by linarith)) ((isPdf_bell (θ "mpp_2") (θ "sigpp_2") hg).nonneg m))
  · obtain ⟨m, hm, h1, h2⟩ := gridInside_inv hin
    have hm0 : 0 < m := h0.trans h1
    refine ⟨m, hm, h1, ?_⟩
    have e1 : 0 < normalised (fun t => t ^ (-θ "alpha")) (θ "mmin") (θ "mmax") m :=
      normalised_pos (integral_rpow_pos h0 hlt) ⟨h1.le, h2.le⟩ (Real.rpow_pos_of_pos hm0 _)
    have e2 : 0 < normalised (bell (θ "mpp_1") (θ "sigpp_1")) (θ "mmin") selfMax m :=
      normalised_pos (integral_gaussShape_pos hg) ⟨h1.le, h2.le.trans hhi⟩ (gaussShape_pos _ _ m)
    have e3 : 0 < normalised (bell (θ "mpp_2") (θ "sigpp_2")) (θ "mmin") selfMax m :=
      normalised_pos (integral_gaussShape_pos hg) ⟨h1.le, h2.le.trans hhi⟩ (gaussShape_pos _ _ m)
    refine lt_of_lt_of_eq (mix_pos hl0 hl1 e1 (mix_pos hl10 hl11 e3 e2)) ?_
    ring

/-- **C92, `MultiPeakSmoothedMassDistribution`.** For a source more than one grid cell below `mmin` the density is 0 for every
`beta`, but jax returns NaN for the derivative with respect to `beta`. -/
theorem C92_multiPeak_below (cache : Bool) {selfMin selfMax : ℝ} {nM nQ : ℕ}
    {s : Smoothed} (hs0 : multiPeak false selfMin selfMax nM nQ cache = .ok s) {θ : String → ℝ}
    (hself : 0 < selfMin) (hsm : selfMin < selfMax) (hlt : θ "mmin" < θ "mmax")
    (hhi : θ "mmax" ≤ selfMax) (hd : 0 < θ "delta_m")
    (hl0 : 0 ≤ θ "lam") (hl1 : θ "lam" ≤ 1) (hl10 : 0 ≤ θ "lam_1")
    (hl11 : θ "lam_1" ≤ 1) (hs1 : 0 < θ "sigpp_1") (hs2 : 0 < θ "sigpp_2")
    {data : List (ℝ × ℝ)} {i : ℕ} (hi : i < data.length) (he1 : selfMin ≤ data[i].1)
    (he2 : data[i].1 + (selfMax - selfMin) / ((nM : ℝ) - 1) < θ "mmin") (he3 : 0 < data[i].2)
    (hin : GridInside selfMin selfMax nM (θ "mmin") (θ "mmax")) :
    (∀ t, smoothedOf s namesMultiPeak data i (Function.update θ "beta" t) = .ok (fin 0)) ∧
      (smoothedRec s (recMultiPeak selfMax) data[i]).grad (envOf θ) "beta" = nan := by
  obtain ⟨hM, hQ, -⟩ := init_inv hs0
  have hc : 0 < (selfMax - selfMin) / ((nM : ℝ) - 1) := by
    have : (2 : ℝ) ≤ nM := by exact_mod_cast hM
    exact div_pos (by linarith) (by linarith)
  refine ⟨fun t => ?_, smoothed_below hs0 _ hself hsm hd he1 (by linarith) he2 he3 1⟩
  exact zero_multiPeak hs0 hself hsm (by simpa [Function.update] using hlt) (by simpa [Function.update] using hhi) (by simpa [Function.update] using hd) (by simpa [Function.update] using hl0) (by simpa [Function.update] using hl1) (by simpa [Function.update] using hl10) (by simpa [Function.update] using hl11) (by simpa [Function.update] using hs1) (by simpa [Function.update] using hs2)
    hi he1 (by simpa [Function.update] using he2) he3 (by simpa [Function.update] using hin)

/-! ### `BrokenPowerLawSmoothedMassDistribution` -/

/-- The hyper-parameters of `BrokenPowerLawSmoothedMassDistribution`. -/
def namesBrokenPowerLaw : List String := ["beta", "delta_m", "alpha_1", "alpha_2", "mmin", "mmax", "break_fraction"]

/-- The primary mass model, recorded. -/
def recBrokenPowerLaw (selfMax : ℝ) (m : Ex) : Ex := doublePowerLawEx m (arg "alpha_1") (arg "alpha_2") (arg "mmin") (arg "mmax") (arg "break_fraction")

theorem primary_brokenPowerLaw (selfMax : ℝ) (θ : String → ℝ) (m : ℝ) : primDoublePowerLaw false .jax
    (Dict.erase (Dict.erase (namedArgs namesBrokenPowerLaw θ) "beta" ++ [])
      "delta_m") (fin m) = .ok (eval (envOf θ) (recBrokenPowerLaw selfMax (const (fin m)))) := by
  obtain ⟨g, hg', v1, v2⟩ := bindPrimary
    (names := ["alpha_1", "alpha_2", "mmin", "mmax", "break_fraction"])
    (extra := []) (defaults := [])
    (kwargs := namedArgs namesBrokenPowerLaw θ)
    (fixed := []) (by rw [keys_namedArgs]; exact fun k hk => hk)
    (by simp [Dict.keys]) (by decide) (by decide)
    (fun n hn => ⟨_, get?_namedArgs θ (List.mem_cons_of_mem _ (List.mem_cons_of_mem _ hn))⟩)
    (by simp [Dict.get?_cons])
  simp only [List.cons_append, List.nil_append, List.append_nil] at hg'
  simp only [primDoublePowerLaw, List.append_nil, hg']
  show doublePowerLawPrimaryMass .jax false (fin m) (g "alpha_1") (g "alpha_2") (g "mmin") (g "mmax") (g "break_fraction") = _
  rw [v1 "alpha_1" (by decide) _ (get?_namedArgs θ (by decide)),
    v1 "alpha_2" (by decide) _ (get?_namedArgs θ (by decide)),
    v1 "mmin" (by decide) _ (get?_namedArgs θ (by decide)),
    v1 "mmax" (by decide) _ (get?_namedArgs θ (by decide)),
    v1 "break_fraction" (by decide) _ (get?_namedArgs θ (by decide))]
  exact trace_doublePowerLaw (envOf θ) (const (fin m)) (arg "alpha_1") (arg "alpha_2") (arg "mmin") (arg "mmax") (arg "break_fraction")

/-- **C92, `BrokenPowerLawSmoothedMassDistribution`.** jax returns the derivative of the density of every source
that is more than one grid cell above `mmin`, with respect to every hyper-parameter, if no mass is exactly where
the density is not differentiable and no spectral index is exactly the one that needs the logarithm. -/
theorem C92_brokenPowerLaw_partial (cache : Bool) {selfMin selfMax : ℝ} {nM nQ : ℕ}
    {s : Smoothed} (hs0 : brokenPowerLaw false selfMin selfMax nM nQ cache = .ok s) {θ : String → ℝ}
    (hself : 0 < selfMin) (hlo : selfMin ≤ θ "mmin") (hlt : θ "mmin" < θ "mmax")
    (hhi : θ "mmax" ≤ selfMax) (hd : 0 < θ "delta_m") (hbeta : θ "beta" ≠ -1)
    (ha1 : θ "alpha_1" ≠ 1) (ha2 : θ "alpha_2" ≠ 1) (hbf0 : 0 < θ "break_fraction")
    (hbf1 : θ "break_fraction" < 1)
    {data : List (ℝ × ℝ)} {i : ℕ} (hi : i < data.length)
    (he1 : θ "mmin" + (selfMax - selfMin) / ((nM : ℝ) - 1) < data[i].1) (he2 : data[i].1 ≤ selfMax)
    (he3 : 0 < data[i].2) (hk : AllOffKinks selfMin selfMax nM nQ (θ "mmin") (θ "delta_m") data[i])
    (hmax : AwayFrom selfMin selfMax nM data[i].1 (θ "mmax"))
    (hbr : AwayFrom selfMin selfMax nM data[i].1 (θ "mmin" + θ "break_fraction" * (θ "mmax" - θ "mmin")))
    (hin : GridInside selfMin selfMax nM (θ "mmin") (θ "mmax")) (v : String) :
    GradientRight (smoothedOf s namesBrokenPowerLaw data i) (smoothedRec s (recBrokenPowerLaw selfMax) data[i]) θ v := by
  have h0 : 0 < θ "mmin" := by linarith
  have hg : θ "mmin" < selfMax := by linarith
  obtain ⟨hM, hQ, -⟩ := init_inv hs0
  have hc : 0 < (selfMax - selfMin) / ((nM : ℝ) - 1) := by
    have : (2 : ℝ) ≤ nM := by exact_mod_cast hM
    exact div_pos (by linarith) (by linarith)
  have hbf : 0 < θ "break_fraction" * (θ "mmax" - θ "mmin") := mul_pos hbf0 (by linarith)
  have hb : 0 < θ "mmin" + θ "break_fraction" * (θ "mmax" - θ "mmin") := by linarith
  have hne : ∀ a, a ∈ Arr.linspaceR selfMin selfMax nM ∨ a = data[i].1 → a ≠ θ "mmin" ∧ a ≠ θ "mmax" ∧ a ≠ θ "mmin" + θ "break_fraction" * (θ "mmax" - θ "mmin") :=
    fun a hm => ⟨allOffKinks_ne hQ hk hm, awayFrom_inv hmax hm, awayFrom_inv hbr hm⟩
  have hap : ∀ a, a ∈ Arr.linspaceR selfMin selfMax nM ∨ a = data[i].1 → 0 < a := by
    rintro a (ha | rfl)
    · linarith [(linspaceR_mem (by linarith) hM ha).1]
    · linarith
  refine smoothed_gradient hs0 (by decide) (by decide) (by decide) ?_ (primary_brokenPowerLaw selfMax) hi hself
    (by linarith) hd hlo hbeta he1 he2 he3 hk (fun a hm => ?_)
    (f := fun m => normalised (brokenShape (θ "alpha_1") (θ "alpha_2")
      (θ "mmin" + θ "break_fraction" * (θ "mmax" - θ "mmin"))) (θ "mmin") (θ "mmax") m) (fun m hm0 => ?_) (fun m => ?_) ?_
  · intro k hk
    simp only [Dict.keys, List.map_cons, List.map_nil, List.mem_singleton, List.not_mem_nil] at hk
  · exact smooth_doublePowerLaw (smooth_const θ v a) trivial trivial trivial trivial trivial rfl rfl rfl rfl
      rfl rfl (hap a hm) ha1 ha2 h0 hlt hbf0 hbf1 (hne a hm).1 (hne a hm).2.1 (hne a hm).2.2
  · exact Except.ok.inj ((trace_doublePowerLaw (envOf θ) (const (fin m)) (arg "alpha_1") (arg "alpha_2") (arg "mmin") (arg "mmax") (arg "break_fraction")).symm.trans
      (C17_doublePowerLaw_value .jax false (.inl rfl) (.inl rfl) h0 hlt hbf0 hbf1 hm0))
  · exact (isPdf_broken (θ "alpha_1") (θ "alpha_2") h0 hb hlt).nonneg m
  · obtain ⟨m, hm, h1, h2⟩ := gridInside_inv hin
    have hm0 : 0 < m := h0.trans h1
    refine ⟨m, hm, h1, ?_⟩
    exact normalised_pos (integral_brokenShape_pos (θ "alpha_1") (θ "alpha_2") h0 hb hlt) ⟨h1.le, h2.le⟩
      (brokenShape_pos (θ "alpha_1") (θ "alpha_2") hb hm0)

theorem zero_brokenPowerLaw {cache : Bool} {selfMin selfMax : ℝ} {nM nQ : ℕ}
    {s : Smoothed} (hs0 : brokenPowerLaw false selfMin selfMax nM nQ cache = .ok s) {θ : String → ℝ}
    (hself : 0 < selfMin) (hsm : selfMin < selfMax) (hlt : θ "mmin" < θ "mmax")
    (hhi : θ "mmax" ≤ selfMax) (hd : 0 < θ "delta_m")
    (hbf0 : 0 < θ "break_fraction")
    (hbf1 : θ "break_fraction" < 1)
    {data : List (ℝ × ℝ)} {i : ℕ} (hi : i < data.length) (he1 : selfMin ≤ data[i].1)
    (he2 : data[i].1 + (selfMax - selfMin) / ((nM : ℝ) - 1) < θ "mmin") (he3 : 0 < data[i].2)
    (hin : GridInside selfMin selfMax nM (θ "mmin") (θ "mmax")) :
    smoothedOf s namesBrokenPowerLaw data i θ = .ok (fin 0) := by
  obtain ⟨hM, hQ, -⟩ := init_inv hs0
  have hc : 0 < (selfMax - selfMin) / ((nM : ℝ) - 1) := by
    have : (2 : ℝ) ≤ nM := by exact_mod_cast hM
    exact div_pos (by linarith) (by linarith)
  have h0 : 0 < θ "mmin" := by linarith
  have hg : θ "mmin" < selfMax := by linarith
  have hbf : 0 < θ "break_fraction" * (θ "mmax" - θ "mmin") := mul_pos hbf0 (by linarith)
  have hb : 0 < θ "mmin" + θ "break_fraction" * (θ "mmax" - θ "mmin") := by linarith
  refine (smoothed_traces hs0 (by decide) (by decide) (by decide) ?_ (primary_brokenPowerLaw selfMax) hi θ).trans
    (congrArg Except.ok (smoothed_below_zero hs0 (prim := recBrokenPowerLaw selfMax) hself hsm hd he1 (by linarith) he2 he3
    (f := fun m => normalised (brokenShape (θ "alpha_1") (θ "alpha_2")
      (θ "mmin" + θ "break_fraction" * (θ "mmax" - θ "mmin"))) (θ "mmin") (θ "mmax") m) (fun m hm0 => ?_) (fun m => ?_) ?_))
  · intro k hk
    simp only [Dict.keys, List.map_cons, List.map_nil, List.mem_singleton, List.not_mem_nil] at hk
  · exact Except.ok.inj ((trace_doublePowerLaw (envOf θ) (const (fin m)) (arg "alpha_1") (arg "alpha_2") (arg "mmin") (arg "mmax") (arg "break_fraction")).symm.trans
      (C17_doublePowerLaw_value .jax false (.inl rfl) (.inl rfl) h0 hlt hbf0 hbf1 hm0))
  · exact (isPdf_broken (θ "alpha_1") (θ "alpha_2") h0 hb hlt).nonneg m
  · obtain ⟨m, hm, h1, h2⟩ := gridInside_inv hin
    have hm0 : 0 < m := h0.trans h1
    refine ⟨m, hm, h1, ?_⟩
    exact normalised_pos (integral_brokenShape_pos (θ "alpha_1") (θ "alpha_2") h0 hb hlt) ⟨h1.le, h2.le⟩
      (brokenShape_pos (θ "alpha_1") (θ "alpha_2") hb hm0)

/-- **C92, `BrokenPowerLawSmoothedMassDistribution`.** For a source more than one grid cell below `mmin` the density is 0 for every
`beta`, but jax returns NaN for the derivative with respect to `beta`. -/
theorem C92_brokenPowerLaw_below (cache : Bool) {selfMin selfMax : ℝ} {nM nQ : ℕ}
    {s : Smoothed} (hs0 : brokenPowerLaw false selfMin selfMax nM nQ cache = .ok s) {θ : String → ℝ}
    (hself : 0 < selfMin) (hsm : selfMin < selfMax) (hlt : θ "mmin" < θ "mmax")
    (hhi : θ "mmax" ≤ selfMax) (hd : 0 < θ "delta_m")
    (hbf0 : 0 < θ "break_fraction")
    (hbf1 : θ "break_fraction" < 1)
    {data : List (ℝ × ℝ)} {i : ℕ} (hi : i < data.length) (he1 : selfMin ≤ data[i].1)
    (he2 : data[i].1 + (selfMax - selfMin) / ((nM : ℝ) - 1) < θ "mmin") (he3 : 0 < data[i].2)
    (hin : GridInside selfMin selfMax nM (θ "mmin") (θ "mmax")) :
    (∀ t, smoothedOf s namesBrokenPowerLaw data i (Function.update θ "beta" t) = .ok (fin 0)) ∧
      (smoothedRec s (recBrokenPowerLaw selfMax) data[i]).grad (envOf θ) "beta" = nan := by
  obtain ⟨hM, hQ, -⟩ := init_inv hs0
  have hc : 0 < (selfMax - selfMin) / ((nM : ℝ) - 1) := by
    have : (2 : ℝ) ≤ nM := by exact_mod_cast hM
    exact div_pos (by linarith) (by linarith)
  refine ⟨fun t => ?_, smoothed_below hs0 _ hself hsm hd he1 (by linarith) he2 he3 1⟩
  exact zero_brokenPowerLaw hs0 hself hsm (by simpa [Function.update] using hlt) (by simpa [Function.update] using hhi) (by simpa [Function.update] using hd) (by simpa [Function.update] using hbf0) (by simpa [Function.update] using hbf1)
    hi he1 (by simpa [Function.update] using he2) he3 (by simpa [Function.update] using hin)

/-! ### `BrokenPowerLawPeakSmoothedMassDistribution` -/

/-- The hyper-parameters of `BrokenPowerLawPeakSmoothedMassDistribution`. -/
def namesBrokenPowerLawPeak : List String := ["beta", "delta_m", "alpha_1", "alpha_2", "mmin", "mmax", "break_fraction", "lam", "mpp", "sigpp"]

/-- The primary mass model, recorded. -/
def recBrokenPowerLawPeak (selfMax : ℝ) (m : Ex) : Ex := doublePowerLawPeakEx m (arg "alpha_1") (arg "alpha_2") (arg "mmin") (arg "mmax") (arg "break_fraction") (arg "lam") (arg "mpp") (arg "sigpp") (const (fin selfMax))

theorem primary_brokenPowerLawPeak (selfMax : ℝ) (θ : String → ℝ) (m : ℝ) : primDoublePowerLawPeak false .jax
    (Dict.erase (Dict.erase (namedArgs namesBrokenPowerLawPeak θ) "beta" ++ [("gaussian_mass_maximum", fin selfMax)])
      "delta_m") (fin m) = .ok (eval (envOf θ) (recBrokenPowerLawPeak selfMax (const (fin m)))) := by
  obtain ⟨g, hg', v1, v2⟩ := bindPrimary
    (names := ["alpha_1", "alpha_2", "mmin", "mmax", "break_fraction", "lam", "mpp", "sigpp"])
    (extra := ["gaussian_mass_maximum"]) (defaults := [("gaussian_mass_maximum", fin 100)])
    (kwargs := namedArgs namesBrokenPowerLawPeak θ)
    (fixed := [("gaussian_mass_maximum", fin selfMax)]) (by rw [keys_namedArgs]; exact fun k hk => hk)
    (by simp [Dict.keys]) (by decide) (by decide)
    (fun n hn => ⟨_, get?_namedArgs θ (List.mem_cons_of_mem _ (List.mem_cons_of_mem _ hn))⟩)
    (by simp [Dict.get?_cons])
  simp only [List.cons_append, List.nil_append, List.append_nil] at hg'
  simp only [primDoublePowerLawPeak, List.append_nil, hg']
  show doublePowerLawPeakPrimaryMass .jax false (fin m) (g "alpha_1") (g "alpha_2") (g "mmin") (g "mmax") (g "break_fraction") (g "lam") (g "mpp") (g "sigpp") (g "gaussian_mass_maximum") = _
  rw [v1 "alpha_1" (by decide) _ (get?_namedArgs θ (by decide)),
    v1 "alpha_2" (by decide) _ (get?_namedArgs θ (by decide)),
    v1 "mmin" (by decide) _ (get?_namedArgs θ (by decide)),
    v1 "mmax" (by decide) _ (get?_namedArgs θ (by decide)),
    v1 "break_fraction" (by decide) _ (get?_namedArgs θ (by decide)),
    v1 "lam" (by decide) _ (get?_namedArgs θ (by decide)),
    v1 "mpp" (by decide) _ (get?_namedArgs θ (by decide)),
    v1 "sigpp" (by decide) _ (get?_namedArgs θ (by decide)),
    v2 "gaussian_mass_maximum" (by decide) (fin selfMax) (by simp [Dict.get?_cons])]
  exact trace_doublePowerLawPeak (envOf θ) (const (fin m)) (arg "alpha_1") (arg "alpha_2") (arg "mmin") (arg "mmax") (arg "break_fraction") (arg "lam") (arg "mpp") (arg "sigpp") (const (fin selfMax))

/-- **C92, `BrokenPowerLawPeakSmoothedMassDistribution`.** jax returns the derivative of the density of every source
that is more than one grid cell above `mmin`, with respect to every hyper-parameter, if no mass is exactly where
the density is not differentiable and no spectral index is exactly the one that needs the logarithm. -/
theorem C92_brokenPowerLawPeak_partial (cache : Bool) {selfMin selfMax : ℝ} {nM nQ : ℕ}
    {s : Smoothed} (hs0 : brokenPowerLawPeak false selfMin selfMax nM nQ cache = .ok s) {θ : String → ℝ}
    (hself : 0 < selfMin) (hlo : selfMin ≤ θ "mmin") (hlt : θ "mmin" < θ "mmax")
    (hhi : θ "mmax" ≤ selfMax) (hd : 0 < θ "delta_m") (hbeta : θ "beta" ≠ -1)
    (ha1 : θ "alpha_1" ≠ 1) (ha2 : θ "alpha_2" ≠ 1) (hbf0 : 0 < θ "break_fraction")
    (hbf1 : θ "break_fraction" < 1) (hl0 : 0 ≤ θ "lam") (hl1 : θ "lam" ≤ 1) (hs : 0 < θ "sigpp")
    {data : List (ℝ × ℝ)} {i : ℕ} (hi : i < data.length)
    (he1 : θ "mmin" + (selfMax - selfMin) / ((nM : ℝ) - 1) < data[i].1) (he2 : data[i].1 ≤ selfMax)
    (he3 : 0 < data[i].2) (hk : AllOffKinks selfMin selfMax nM nQ (θ "mmin") (θ "delta_m") data[i])
    (hmax : AwayFrom selfMin selfMax nM data[i].1 (θ "mmax"))
    (hbr : AwayFrom selfMin selfMax nM data[i].1 (θ "mmin" + θ "break_fraction" * (θ "mmax" - θ "mmin")))
    (hin : GridInside selfMin selfMax nM (θ "mmin") (θ "mmax")) (v : String) :
    GradientRight (smoothedOf s namesBrokenPowerLawPeak data i) (smoothedRec s (recBrokenPowerLawPeak selfMax) data[i]) θ v := by
  have h0 : 0 < θ "mmin" := by linarith
  have hg : θ "mmin" < selfMax := by linarith
  obtain ⟨hM, hQ, -⟩ := init_inv hs0
  have hc : 0 < (selfMax - selfMin) / ((nM : ℝ) - 1) := by
    have : (2 : ℝ) ≤ nM := by exact_mod_cast hM
    exact div_pos (by linarith) (by linarith)
  have hbf : 0 < θ "break_fraction" * (θ "mmax" - θ "mmin") := mul_pos hbf0 (by linarith)
  have hb : 0 < θ "mmin" + θ "break_fraction" * (θ "mmax" - θ "mmin") := by linarith
  have hne : ∀ a, a ∈ Arr.linspaceR selfMin selfMax nM ∨ a = data[i].1 → a ≠ θ "mmin" ∧ a ≠ θ "mmax" ∧ a ≠ θ "mmin" + θ "break_fraction" * (θ "mmax" - θ "mmin") :=
    fun a hm => ⟨allOffKinks_ne hQ hk hm, awayFrom_inv hmax hm, awayFrom_inv hbr hm⟩
  have hap : ∀ a, a ∈ Arr.linspaceR selfMin selfMax nM ∨ a = data[i].1 → 0 < a := by
    rintro a (ha | rfl)
    · linarith [(linspaceR_mem (by linarith) hM ha).1]
    · linarith
  refine smoothed_gradient hs0 (by decide) (by decide) (by decide) ?_ (primary_brokenPowerLawPeak selfMax) hi hself
    (by linarith) hd hlo hbeta he1 he2 he3 hk (fun a hm => ?_)
    (f := fun m => (1 - θ "lam") * normalised (brokenShape (θ "alpha_1") (θ "alpha_2")
      (θ "mmin" + θ "break_fraction" * (θ "mmax" - θ "mmin"))) (θ "mmin") (θ "mmax") m +
      θ "lam" * normalised (bell (θ "mpp") (θ "sigpp")) (θ "mmin") selfMax m) (fun m hm0 => ?_) (fun m => ?_) ?_
  · intro k hk
    simp only [Dict.keys, List.map_cons, List.map_nil, List.mem_singleton, List.not_mem_nil] at hk
    subst hk
    decide
  · exact smooth_add (smooth_mul (smooth_sub (smooth_const θ v 1) trivial) (smooth_doublePowerLaw
      (smooth_const θ v a) trivial trivial trivial trivial trivial rfl rfl rfl rfl
      rfl rfl (hap a hm) ha1 ha2 h0 hlt hbf0 hbf1 (hne a hm).1 (hne a hm).2.1 (hne a hm).2.2)) (smooth_mul trivial
      (smooth_truncnorm (smooth_const θ v a) trivial trivial trivial (smooth_const θ v selfMax) rfl rfl rfl rfl hs hg
        (smooth_mask trivial (smooth_const θ v a) rfl rfl (hne a hm).1.symm) (smooth_mask_const θ v _ _ _)))
  · exact Except.ok.inj ((trace_doublePowerLawPeak (envOf θ) (const (fin m)) (arg "alpha_1") (arg "alpha_2") (arg "mmin") (arg "mmax") (arg "break_fraction") (arg "lam") (arg "mpp") (arg "sigpp") (const (fin selfMax))).symm.trans
      (C18_doublePowerLawPeak_value .jax false (.inl rfl) (.inl rfl) h0 hlt hbf0 hbf1 hg hs hm0))
  · exact add_nonneg (mul_nonneg (by linarith)
        ((isPdf_broken (θ "alpha_1") (θ "alpha_2") h0 hb hlt).nonneg m))
      (mul_nonneg hl0 ((isPdf_bell (θ "mpp") (θ "sigpp") hg).nonneg m))
  · obtain ⟨m, hm, h1, h2⟩ := gridInside_inv hin
    have hm0 : 0 < m := h0.trans h1
    refine ⟨m, hm, h1, ?_⟩
    exact mix_pos hl0 hl1 (normalised_pos (integral_brokenShape_pos (θ "alpha_1") (θ "alpha_2") h0 hb hlt)
      ⟨h1.le, h2.le⟩ (brokenShape_pos (θ "alpha_1") (θ "alpha_2") hb hm0))
      (normalised_pos (integral_gaussShape_pos hg) ⟨h1.le, h2.le.trans hhi⟩
      (gaussShape_pos (θ "mpp") (θ "sigpp") m))

theorem zero_brokenPowerLawPeak {cache : Bool} {selfMin selfMax : ℝ} {nM nQ : ℕ}
    {s : Smoothed} (hs0 : brokenPowerLawPeak false selfMin selfMax nM nQ cache = .ok s) {θ : String → ℝ}
    (hself : 0 < selfMin) (hsm : selfMin < selfMax) (hlt : θ "mmin" < θ "mmax")
    (hhi : θ "mmax" ≤ selfMax) (hd : 0 < θ "delta_m")
    (hbf0 : 0 < θ "break_fraction")
    (hbf1 : θ "break_fraction" < 1) (hl0 : 0 ≤ θ "lam") (hl1 : θ "lam" ≤ 1) (hs : 0 < θ "sigpp")
    {data : List (ℝ × ℝ)} {i : ℕ} (hi : i < data.length) (he1 : selfMin ≤ data[i].1)
    (he2 : data[i].1 + (selfMax - selfMin) / ((nM : ℝ) - 1) < θ "mmin") (he3 : 0 < data[i].2)
    (hin : GridInside selfMin selfMax nM (θ "mmin") (θ "mmax")) :
    smoothedOf s namesBrokenPowerLawPeak data i θ = .ok (fin 0) := by
  obtain ⟨hM, hQ, -⟩ := init_inv hs0
  have hc : 0 < (selfMax - selfMin) / ((nM : ℝ) - 1) := by
    have : (2 : ℝ) ≤ nM := by exact_mod_cast hM
    exact div_pos (by linarith) (by linarith)
  have h0 : 0 < θ "mmin" := by linarith
  have hg : θ "mmin" < selfMax := by linarith
  have hbf : 0 < θ "break_fraction" * (θ "mmax" - θ "mmin") := mul_pos hbf0 (by linarith)
  have hb : 0 < θ "mmin" + θ "break_fraction" * (θ "mmax" - θ "mmin") := by linarith
  refine (smoothed_traces hs0 (by decide) (by decide) (by decide) ?_ (primary_brokenPowerLawPeak selfMax) hi θ).trans
    (congrArg Except.ok (smoothed_below_zero hs0 (prim := recBrokenPowerLawPeak selfMax) hself hsm hd he1 (by linarith) he2 he3
    (f := fun m => (1 - θ "lam") * normalised (brokenShape (θ "alpha_1") (θ "alpha_2")
      (θ "mmin" + θ "break_fraction" * (θ "mmax" - θ "mmin"))) (θ "mmin") (θ "mmax") m +
      θ "lam" * normalised (bell (θ "mpp") (θ "sigpp")) (θ "mmin") selfMax m) (fun m hm0 => ?_) (fun m => ?_) ?_))
  · intro k hk
    simp only [Dict.keys, List.map_cons, List.map_nil, List.mem_singleton, List.not_mem_nil] at hk
    subst hk
    decide
  · exact Except.ok.inj ((trace_doublePowerLawPeak (envOf θ) (const (fin m)) (arg "alpha_1") (arg "alpha_2") (arg "mmin") (arg "mmax") (arg "break_fraction") (arg "lam") (arg "mpp") (arg "sigpp") (const (fin selfMax))).symm.trans
      (C18_doublePowerLawPeak_value .jax false (.inl rfl) (.inl rfl) h0 hlt hbf0 hbf1 hg hs hm0))
  · exact add_nonneg (mul_nonneg (by linarith)
        ((isPdf_broken (θ "alpha_1") (θ "alpha_2") h0 hb hlt).nonneg m))
      (mul_nonneg hl0 ((isPdf_bell (θ "mpp") (θ "sigpp") hg).nonneg m))
  · obtain ⟨m, hm, h1, h2⟩ := gridInside_inv hin
    have hm0 : 0 < m := h0.trans h1
    refine ⟨m, hm, h1, ?_⟩
    exact mix_pos hl0 hl1 (normalised_pos (integral_brokenShape_pos (θ "alpha_1") (θ "alpha_2") h0 hb hlt)
      ⟨h1.le, h2.le⟩ (brokenShape_pos (θ "alpha_1") (θ "alpha_2") hb hm0))
      (normalised_pos (integral_gaussShape_pos hg) ⟨h1.le, h2.le.trans hhi⟩
      (gaussShape_pos (θ "mpp") (θ "sigpp") m))

/-- **C92, `BrokenPowerLawPeakSmoothedMassDistribution`.** For a source more than one grid cell below `mmin` the density is 0 for every
`beta`, but jax returns NaN for the derivative with respect to `beta`. -/
theorem C92_brokenPowerLawPeak_below (cache : Bool) {selfMin selfMax : ℝ} {nM nQ : ℕ}
    {s : Smoothed} (hs0 : brokenPowerLawPeak false selfMin selfMax nM nQ cache = .ok s) {θ : String → ℝ}
    (hself : 0 < selfMin) (hsm : selfMin < selfMax) (hlt : θ "mmin" < θ "mmax")
    (hhi : θ "mmax" ≤ selfMax) (hd : 0 < θ "delta_m")
    (hbf0 : 0 < θ "break_fraction")
    (hbf1 : θ "break_fraction" < 1) (hl0 : 0 ≤ θ "lam") (hl1 : θ "lam" ≤ 1) (hs : 0 < θ "sigpp")
    {data : List (ℝ × ℝ)} {i : ℕ} (hi : i < data.length) (he1 : selfMin ≤ data[i].1)
    (he2 : data[i].1 + (selfMax - selfMin) / ((nM : ℝ) - 1) < θ "mmin") (he3 : 0 < data[i].2)
    (hin : GridInside selfMin selfMax nM (θ "mmin") (θ "mmax")) :
    (∀ t, smoothedOf s namesBrokenPowerLawPeak data i (Function.update θ "beta" t) = .ok (fin 0)) ∧
      (smoothedRec s (recBrokenPowerLawPeak selfMax) data[i]).grad (envOf θ) "beta" = nan := by
  obtain ⟨hM, hQ, -⟩ := init_inv hs0
  have hc : 0 < (selfMax - selfMin) / ((nM : ℝ) - 1) := by
    have : (2 : ℝ) ≤ nM := by exact_mod_cast hM
    exact div_pos (by linarith) (by linarith)
  refine ⟨fun t => ?_, smoothed_below hs0 _ hself hsm hd he1 (by linarith) he2 he3 1⟩
  exact zero_brokenPowerLawPeak hs0 hself hsm (by simpa [Function.update] using hlt) (by simpa [Function.update] using hhi) (by simpa [Function.update] using hd) (by simpa [Function.update] using hbf0) (by simpa [Function.update] using hbf1) (by simpa [Function.update] using hl0) (by simpa [Function.update] using hl1) (by simpa [Function.update] using hs)
    hi he1 (by simpa [Function.update] using he2) he3 (by simpa [Function.update] using hin)

/-! ### Non-vacuity, and the full claim -/

/-- A grid of masses 1, 2, 3, 4 and of ratios 0.001, 1. -/
theorem gridMass_four (i : ℕ) : gridMass 1 4 4 i = i + 1 := by
  unfold gridMass; push_cast; ring

/-- Hyper-parameters: masses from 1.5 to 3.5, a window of width 0.3; everything else is 0.4. -/
def someHyper : String → ℝ := fun k =>
  if k = "mmin" then 1.5 else if k = "mmax" then 3.5 else if k = "delta_m" then 0.3 else 0.4

theorem someHyper_offKinks : AllOffKinks 1 4 4 2 (someHyper "mmin") (someHyper "delta_m") (2.75, 0.9) := by
  have e1 : someHyper "mmin" = 1.5 := by simp [someHyper]
  have e2 : someHyper "delta_m" = 0.3 := by simp [someHyper]
  rw [e1, e2]
  refine ⟨fun i hi j hj => ?_, ?_, ?_⟩
  · rw [gridMass_four]
    unfold gridRatio OffKinks
    interval_cases i <;> interval_cases j <;> norm_num
  all_goals unfold OffKinks; norm_num

theorem someHyper_mmax : AwayFrom 1 4 4 2.75 (someHyper "mmax") := by
  have e : someHyper "mmax" = 3.5 := by simp [someHyper]
  rw [e]
  refine ⟨fun i hi => ?_, by norm_num⟩
  rw [gridMass_four]
  interval_cases i <;> norm_num

theorem someHyper_break : AwayFrom 1 4 4 2.75 (someHyper "mmin" + someHyper "break_fraction" *
    (someHyper "mmax" - someHyper "mmin")) := by
  have e1 : someHyper "mmin" = 1.5 := by simp [someHyper]
  have e : someHyper "mmax" = 3.5 := by simp [someHyper]
  have e2 : someHyper "break_fraction" = 0.4 := by simp [someHyper]
  rw [e, e1, e2]
  refine ⟨fun i hi => ?_, by norm_num⟩
  rw [gridMass_four]
  interval_cases i <;> norm_num

theorem someHyper_inside : GridInside 1 4 4 (someHyper "mmin") (someHyper "mmax") := by
  refine ⟨1, by norm_num, ?_, ?_⟩ <;> simp [someHyper] <;> norm_num

example (v : String) : ∃ s, singlePeak false 1 4 4 2 true = .ok s ∧ GradientRight
    (smoothedOf s namesSinglePeak [(2.75, 0.9)] 0) (smoothedRec s (recSinglePeak 4) (2.75, 0.9)) someHyper v := by
  have h := init_ok (primTwoComponent false) [("gaussian_mass_maximum", fin 4)] (1 : ℝ) 4 true (nM := 4) (nQ := 2)
    (by norm_num) (by norm_num)
  exact ⟨_, h, C92_singlePeak_partial true h (data := [(2.75, 0.9)]) (i := 0) (by norm_num)
    (by simp [someHyper]; norm_num) (by simp [someHyper]; norm_num) (by simp [someHyper]; norm_num)
    (by simp [someHyper]; norm_num) (by simp [someHyper]; norm_num) (by simp [someHyper]; norm_num)
    (by simp [someHyper]; norm_num) (by simp [someHyper]; norm_num) (by simp [someHyper]; norm_num) (by simp)
    (by simp [someHyper]; norm_num) (by simp; norm_num) (by simp; norm_num) someHyper_offKinks someHyper_mmax
    someHyper_inside v⟩

example (v : String) : ∃ s, multiPeak false 1 4 4 2 true = .ok s ∧ GradientRight
    (smoothedOf s namesMultiPeak [(2.75, 0.9)] 0) (smoothedRec s (recMultiPeak 4) (2.75, 0.9)) someHyper v := by
  have h := init_ok (primThreeComponent false) [("gaussian_mass_maximum", fin 4)] (1 : ℝ) 4 true (nM := 4) (nQ := 2)
    (by norm_num) (by norm_num)
  exact ⟨_, h, C92_multiPeak_partial true h (data := [(2.75, 0.9)]) (i := 0) (by norm_num)
    (by simp [someHyper]; norm_num) (by simp [someHyper]; norm_num) (by simp [someHyper]; norm_num)
    (by simp [someHyper]; norm_num) (by simp [someHyper]; norm_num) (by simp [someHyper]; norm_num)
    (by simp [someHyper]; norm_num) (by simp [someHyper]; norm_num) (by simp [someHyper]; norm_num)
    (by simp [someHyper]; norm_num) (by simp [someHyper]; norm_num) (by simp [someHyper]; norm_num) (by simp)
    (by simp [someHyper]; norm_num) (by simp; norm_num) (by simp; norm_num) someHyper_offKinks someHyper_mmax
    someHyper_inside v⟩

example (v : String) : ∃ s, brokenPowerLaw false 1 4 4 2 true = .ok s ∧ GradientRight
    (smoothedOf s namesBrokenPowerLaw [(2.75, 0.9)] 0) (smoothedRec s (recBrokenPowerLaw 4) (2.75, 0.9))
      someHyper v := by
  have h := init_ok (primDoublePowerLaw false) [] (1 : ℝ) 4 true (nM := 4) (nQ := 2) (by norm_num) (by norm_num)
  exact ⟨_, h, C92_brokenPowerLaw_partial true h (data := [(2.75, 0.9)]) (i := 0) (by norm_num)
    (by simp [someHyper]; norm_num) (by simp [someHyper]; norm_num) (by simp [someHyper]; norm_num)
    (by simp [someHyper]; norm_num) (by simp [someHyper]; norm_num) (by simp [someHyper]; norm_num)
    (by simp [someHyper]; norm_num) (by simp [someHyper]; norm_num) (by simp [someHyper]; norm_num) (by simp)
    (by simp [someHyper]; norm_num) (by simp; norm_num) (by simp; norm_num) someHyper_offKinks someHyper_mmax
    someHyper_break someHyper_inside v⟩

example (v : String) : ∃ s, brokenPowerLawPeak false 1 4 4 2 true = .ok s ∧ GradientRight
    (smoothedOf s namesBrokenPowerLawPeak [(2.75, 0.9)] 0)
      (smoothedRec s (recBrokenPowerLawPeak 4) (2.75, 0.9)) someHyper v := by
  have h := init_ok (primDoublePowerLawPeak false) [("gaussian_mass_maximum", fin 4)] (1 : ℝ) 4 true (nM := 4)
    (nQ := 2) (by norm_num) (by norm_num)
  exact ⟨_, h, C92_brokenPowerLawPeak_partial true h (data := [(2.75, 0.9)]) (i := 0) (by norm_num)
    (by simp [someHyper]; norm_num) (by simp [someHyper]; norm_num) (by simp [someHyper]; norm_num)
    (by simp [someHyper]; norm_num) (by simp [someHyper]; norm_num) (by simp [someHyper]; norm_num)
    (by simp [someHyper]; norm_num) (by simp [someHyper]; norm_num) (by simp [someHyper]; norm_num)
    (by simp [someHyper]; norm_num) (by simp [someHyper]; norm_num) (by simp [someHyper]; norm_num) (by simp)
    (by simp [someHyper]; norm_num) (by simp; norm_num) (by simp; norm_num) someHyper_offKinks someHyper_mmax
    someHyper_break someHyper_inside v⟩

/-- The full claim for the model with a power law and one peak: for every source on the grid's range, wherever the
density is differentiable in a hyper-parameter, jax returns the derivative. -/
def C92_singlePeak_statement : Prop :=
  ∀ (cache : Bool) (selfMin selfMax : ℝ) (nM nQ : ℕ) (s : Smoothed),
    singlePeak false selfMin selfMax nM nQ cache = .ok s → ∀ (θ : String → ℝ), 0 < selfMin → selfMin < selfMax →
    selfMin ≤ θ "mmin" → θ "mmin" < θ "mmax" → θ "mmax" ≤ selfMax → 0 < θ "delta_m" → θ "beta" ≠ -1 →
    θ "alpha" ≠ 1 → 0 ≤ θ "lam" → θ "lam" ≤ 1 → 0 < θ "sigpp" →
    GridInside selfMin selfMax nM (θ "mmin") (θ "mmax") → ∀ (m q : ℝ), selfMin ≤ m → m ≤ selfMax → 0 < q → q ≤ 1 →
    ∀ (v : String) (f : ℝ → ℝ) (d : ℝ),
    (∀ᶠ t in 𝓝 (θ v), smoothedOf s namesSinglePeak [(m, q)] 0 (Function.update θ v t) = .ok (fin (f t))) →
    HasDerivAt f d (θ v) → (smoothedRec s (recSinglePeak selfMax) (m, q)).grad (envOf θ) v = fin d

/-- **C92 fails for the smoothed models.** Grid masses 1, 2, 3, 4 and masses from 2.5 to 3.5: the density of a source
with primary mass 1.2 is 0 for all `beta`, and jax returns NaN for the derivative. -/
theorem C92_singlePeak_fails : ¬ C92_singlePeak_statement := by
  intro H
  have h := init_ok (primTwoComponent false) [("gaussian_mass_maximum", fin 4)] (1 : ℝ) 4 true (nM := 4) (nQ := 2)
    (by norm_num) (by norm_num)
  set θ : String → ℝ := fun k => if k = "mmin" then 2.5 else if k = "mmax" then 3.5 else 0.3 with hθ
  have hin : GridInside 1 4 4 (θ "mmin") (θ "mmax") := by
    refine ⟨2, by norm_num, ?_, ?_⟩ <;> simp [hθ] <;> norm_num
  obtain ⟨e1, e2⟩ := C92_singlePeak_below true h (θ := θ) (data := [(1.2, 0.9)]) (i := 0) (by norm_num)
    (by norm_num) (by simp [hθ]; norm_num) (by simp [hθ]; norm_num) (by simp [hθ]; norm_num)
    (by simp [hθ]; norm_num) (by simp [hθ]; norm_num) (by simp [hθ]; norm_num) (by simp) (by simp; norm_num)
    (by simp [hθ]; norm_num) (by simp; norm_num) hin
  have := H true 1 4 4 2 _ h θ (by norm_num) (by norm_num) (by simp [hθ]; norm_num) (by simp [hθ]; norm_num)
    (by simp [hθ]; norm_num) (by simp [hθ]; norm_num) (by simp [hθ]; norm_num) (by simp [hθ]; norm_num)
    (by simp [hθ]; norm_num) (by simp [hθ]; norm_num) (by simp [hθ]; norm_num) hin 1.2 0.9 (by norm_num)
    (by norm_num) (by norm_num) (by norm_num) "beta" (fun _ => 0) 0 (.of_forall e1) (hasDerivAt_const _ _)
  have e3 := e2.symm.trans this
  cases e3

example : ∃ s θ, multiPeak false 1 4 4 2 true = .ok s ∧
    (∀ t, smoothedOf s namesMultiPeak [(1.2, 0.9)] 0 (Function.update θ "beta" t) = .ok (fin 0)) ∧
      (smoothedRec s (recMultiPeak 4) (1.2, 0.9)).grad (envOf θ) "beta" = nan := by
  have h := init_ok (primThreeComponent false) [("gaussian_mass_maximum", fin 4)] (1 : ℝ) 4 true (nM := 4) (nQ := 2)
    (by norm_num) (by norm_num)
  set θ : String → ℝ := fun k => if k = "mmin" then 2.5 else if k = "mmax" then 3.5 else 0.3 with hθ
  exact ⟨_, θ, h, C92_multiPeak_below true h (θ := θ) (data := [(1.2, 0.9)]) (i := 0) (by norm_num)
    (by norm_num) (by simp [hθ]; norm_num) (by simp [hθ]; norm_num) (by simp [hθ]; norm_num)
    (by simp [hθ]; norm_num) (by simp [hθ]; norm_num) (by simp [hθ]; norm_num) (by simp [hθ]; norm_num) (by simp [hθ]; norm_num) (by simp [hθ]; norm_num) (by simp) (by simp; norm_num)
    (by simp [hθ]; norm_num) (by simp; norm_num)
    (by refine ⟨2, by norm_num, ?_, ?_⟩ <;> simp [hθ] <;> norm_num)⟩

example : ∃ s θ, brokenPowerLaw false 1 4 4 2 true = .ok s ∧
    (∀ t, smoothedOf s namesBrokenPowerLaw [(1.2, 0.9)] 0 (Function.update θ "beta" t) = .ok (fin 0)) ∧
      (smoothedRec s (recBrokenPowerLaw 4) (1.2, 0.9)).grad (envOf θ) "beta" = nan := by
  have h := init_ok (primDoublePowerLaw false) [] (1 : ℝ) 4 true (nM := 4) (nQ := 2)
    (by norm_num) (by norm_num)
  set θ : String → ℝ := fun k => if k = "mmin" then 2.5 else if k = "mmax" then 3.5 else 0.3 with hθ
  exact ⟨_, θ, h, C92_brokenPowerLaw_below true h (θ := θ) (data := [(1.2, 0.9)]) (i := 0) (by norm_num)
    (by norm_num) (by simp [hθ]; norm_num) (by simp [hθ]; norm_num) (by simp [hθ]; norm_num)
    (by simp [hθ]; norm_num) (by simp [hθ]; norm_num) (by simp) (by simp; norm_num)
    (by simp [hθ]; norm_num) (by simp; norm_num)
    (by refine ⟨2, by norm_num, ?_, ?_⟩ <;> simp [hθ] <;> norm_num)⟩

example : ∃ s θ, brokenPowerLawPeak false 1 4 4 2 true = .ok s ∧
    (∀ t, smoothedOf s namesBrokenPowerLawPeak [(1.2, 0.9)] 0 (Function.update θ "beta" t) = .ok (fin 0)) ∧
      (smoothedRec s (recBrokenPowerLawPeak 4) (1.2, 0.9)).grad (envOf θ) "beta" = nan := by
  have h := init_ok (primDoublePowerLawPeak false) [("gaussian_mass_maximum", fin 4)] (1 : ℝ) 4 true (nM := 4) (nQ := 2)
    (by norm_num) (by norm_num)
  set θ : String → ℝ := fun k => if k = "mmin" then 2.5 else if k = "mmax" then 3.5 else 0.3 with hθ
  exact ⟨_, θ, h, C92_brokenPowerLawPeak_below true h (θ := θ) (data := [(1.2, 0.9)]) (i := 0) (by norm_num)
    (by norm_num) (by simp [hθ]; norm_num) (by simp [hθ]; norm_num) (by simp [hθ]; norm_num)
    (by simp [hθ]; norm_num) (by simp [hθ]; norm_num) (by simp [hθ]; norm_num) (by simp [hθ]; norm_num) (by simp [hθ]; norm_num) (by simp) (by simp; norm_num)
    (by simp [hθ]; norm_num) (by simp; norm_num)
    (by refine ⟨2, by norm_num, ?_, ?_⟩ <;> simp [hθ] <;> norm_num)⟩

end GW
