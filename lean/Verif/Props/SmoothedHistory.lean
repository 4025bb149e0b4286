import Verif.Props.SmoothedNorm

/-!
# C24 - C26: history, domain checks and variable names of the smoothed mass models
-/

noncomputable section

open Classical

namespace GW

open Fl Spec

/-! ## C24 -/

/-- **C24, full statement**: on every backend the value returned by a smoothed mass model is the
one a fresh instance returns, whatever calls preceded it. -/
def C24_statement : Prop :=
  ∀ (b : Backend) (py : Bool) (selfMin selfMax : ℝ) (nM nQ : ℕ) (cache : Bool) (s : Smoothed),
    singlePeak py selfMin selfMax nM nQ cache = .ok s →
    ∀ (hist : List (List (Fl × Fl) × Dict Fl)) (data : List (Fl × Fl)) (kwargs : Dict Fl),
      (Smoothed.call b (Smoothed.runCalls b s hist) data kwargs).1 =
        (Smoothed.call b s data kwargs).1

/-- A cached interpolant that cannot be mistaken for the one of `masses`: it is the right one, or
using it raises because of its length. -/
def Harmless (b : Backend) (l masses : List Fl) : Prop :=
  l = masses ∨ (l.length ≠ masses.length ∧ l.length ≠ 1 ∧ (b = .jax → masses.length ≠ 1))

theorem inplaceDiv_error (b : Backend) {xs ys : List Fl} (h1 : ys.length ≠ xs.length)
    (h2 : ys.length ≠ 1) (h3 : b = .jax → xs.length ≠ 1) :
    Smoothed.inplaceDiv b xs ys = .error .valueError ∨
      Smoothed.inplaceDiv b xs ys = .error .typeError := by
  by_cases hb : b = .jax
  · right
    unfold Smoothed.inplaceDiv Smoothed.broadcast
    rw [if_neg (fun h => h1 h.symm)]
    have h3 := h3 hb
    rcases ys with _ | ⟨y, _ | ⟨y', ys⟩⟩
    · rcases xs with _ | ⟨x, _ | ⟨x', xs⟩⟩
      · simp at h1
      · simp at h3
      · simp only [if_pos hb]; rfl
    · simp at h2
    · rcases xs with _ | ⟨x, _ | ⟨x', xs⟩⟩
      · simp only [if_pos hb]; rfl
      · simp at h3
      · simp only [if_pos hb]; rfl
  · left
    rw [inplaceDiv_numpy b hb, if_neg (fun h => h1 h.symm), if_neg h2]

/-- `p_q` returns the same for every harmless cache. -/
theorem pQ_harmless (b : Backend) (s : Smoothed) (data : List (Fl × Fl)) (beta lo deltaM : Fl)
    (hstate : s.cache = false ∨ ∀ l, s.qMasses = some l → Harmless b l (data.map Prod.fst)) :
    (Smoothed.pQ b s data beta lo deltaM).1 =
      .ok (data.map fun d => nanToNum (pQVal b beta lo deltaM d.1 d.2 /
        interpLinear s.m1s (s.m1s.map (qNormAt b s beta lo deltaM)) d.1)) := by
  by_cases hc : s.cache = false
  · exact pQ_fresh b s data beta lo deltaM (Or.inl hc)
  have hstate := hstate.resolve_left hc
  cases hq : s.qMasses with
  | none => exact pQ_fresh b s data beta lo deltaM (Or.inr (Or.inl hq))
  | some l =>
    rcases hstate l hq with h | ⟨h1, h2, h3⟩
    · exact pQ_fresh b s data beta lo deltaM (Or.inr (Or.inr (by rw [hq, h])))
    · have hraw : data.mapM (fun d => Smoothed.pQRaw b beta lo deltaM d.1 d.2) =
          .ok (data.map fun d => pQVal b beta lo deltaM d.1 d.2) := mapM_ok fun d _ => pQRaw_eq ..
      have hdiv : ∃ e, Smoothed.divideByNorm b s
          (data.map fun d => pQVal b beta lo deltaM d.1 d.2) beta lo deltaM = .error e ∧
          Smoothed.caught e := by
        have : Smoothed.divideByNorm b s
            (data.map fun d => pQVal b beta lo deltaM d.1 d.2) beta lo deltaM =
            Smoothed.inplaceDiv b (data.map fun d => pQVal b beta lo deltaM d.1 d.2)
              (l.map (interpLinear s.m1s (s.m1s.map (qNormAt b s beta lo deltaM)))) := by
          unfold Smoothed.divideByNorm; rw [normPQ_eq, hq]; rfl
        rw [this]
        rcases inplaceDiv_error b (xs := data.map fun d => pQVal b beta lo deltaM d.1 d.2)
          (ys := l.map (interpLinear s.m1s (s.m1s.map (qNormAt b s beta lo deltaM))))
          (by simpa using h1) (by simpa using h2) (by simpa using h3) with h | h
        · exact ⟨_, h, trivial⟩
        · exact ⟨_, h, trivial⟩
      -- after the exception the interpolant is set up for this dataset, as on a fresh instance
      have hfresh := pQ_fresh b { s with qMasses := none } data beta lo deltaM (Or.inr (Or.inl rfl))
      have hfresh' : (Smoothed.pQ b { s with qMasses := none } data beta lo deltaM).1 =
          (Smoothed.divideByNorm b (Smoothed.cacheQNorms s (data.map Prod.fst))
            (data.map fun d => pQVal b beta lo deltaM d.1 d.2) beta lo deltaM).map
            (·.map nanToNum) := by
        unfold Smoothed.pQ
        rw [hraw]
        have hA : Smoothed.divideByNorm b { s with qMasses := none }
            (data.map fun d => pQVal b beta lo deltaM d.1 d.2) beta lo deltaM =
            .error .attributeError := by
          unfold Smoothed.divideByNorm; rw [normPQ_eq]; rfl
        have hc' : s.cache = true := by simpa using hc
        simp only
        rw [if_pos hc', hA]
        simp only
        rw [if_pos (show Smoothed.caught .attributeError from trivial)]
        rfl
      obtain ⟨e, he, hce⟩ := hdiv
      have hc' : s.cache = true := by simpa using hc
      rw [← show qNormAt b { s with qMasses := none } beta lo deltaM =
        qNormAt b s beta lo deltaM from rfl, ← hfresh, hfresh']
      unfold Smoothed.pQ
      rw [hraw]
      simp only [hc', if_true, he]
      rw [if_pos hce]

/-- The primary-mass part does not look at the cache. -/
theorem pM1_config (b : Backend) {s t : Smoothed} (h : SameConfig s t) (masses : List Fl)
    (kwargs : Dict Fl) : Smoothed.pM1 b t masses kwargs = Smoothed.pM1 b s masses kwargs := by
  have e : ∀ (k : Dict Fl) (mm d : Fl), Smoothed.pMRaw b t k mm d = Smoothed.pMRaw b s k mm d := by
    intro k mm d; funext m; unfold Smoothed.pMRaw; rw [h.primary, h.mmax]
  unfold Smoothed.pM1 Smoothed.normPM1
  rw [h.mmin, h.m1s]
  simp only [e]

theorem call_congr (b : Backend) {s t : Smoothed} (h : SameConfig s t) (data : List (Fl × Fl))
    (kwargs : Dict Fl)
    (hq : ∀ beta lo d, (Smoothed.pQ b t data beta lo d).1 = (Smoothed.pQ b s data beta lo d).1) :
    (Smoothed.call b t data kwargs).1 = (Smoothed.call b s data kwargs).1 := by
  unfold Smoothed.call
  cases Dict.get? kwargs "beta" with
  | none => rfl
  | some beta =>
    simp only [h.mmin, h.mmax, h.fixed, pM1_config b h]
    split_ifs
    · rfl
    · rfl
    · rfl
    · cases Smoothed.pM1 b s (data.map Prod.fst) (Dict.erase kwargs "beta" ++ s.fixed) with
      | error e => rfl
      | ok pm =>
        simp only
        have := hq beta (Smoothed.kwGet (Dict.erase kwargs "beta") "mmin" (fin s.mmin))
          (Smoothed.kwGet (Dict.erase kwargs "beta") "delta_m" 0)
        rcases h1 : Smoothed.pQ b t data beta
          (Smoothed.kwGet (Dict.erase kwargs "beta") "mmin" (fin s.mmin))
          (Smoothed.kwGet (Dict.erase kwargs "beta") "delta_m" 0) with ⟨r1, t'⟩
        rcases h2 : Smoothed.pQ b s data beta
          (Smoothed.kwGet (Dict.erase kwargs "beta") "mmin" (fin s.mmin))
          (Smoothed.kwGet (Dict.erase kwargs "beta") "delta_m" 0) with ⟨r2, s'⟩
        rw [h1, h2] at this
        simp only at this
        subst this
        cases r1 <;> rfl

/-- **C24, proved part.** On any backend, for any primary model: a call returns exactly what a
fresh instance returns if the instance does not cache, or if every dataset of the history has
either exactly this dataset's masses or a different length which is not 1 (on jax the new dataset
must not have length 1 either, unless its masses are the cached ones). Hyper-parameters in the
history and in the call are arbitrary, including ones that raise. What is missing is a different
dataset of the same length (or of length 1) evaluated earlier on a caching instance: see
`C24_fails`. -/
theorem C24_history_partial (b : Backend) {primary : Primary} {fixed : Dict Fl}
    {selfMin selfMax : ℝ} {nM nQ : ℕ} {cache : Bool} {s : Smoothed}
    (hs : Smoothed.init primary fixed selfMin selfMax nM nQ cache = .ok s)
    (hist : List (List (Fl × Fl) × Dict Fl)) (data : List (Fl × Fl)) (kwargs : Dict Fl)
    (h : cache = false ∨ ∀ c ∈ hist, Harmless b (c.1.map Prod.fst) (data.map Prod.fst)) :
    (Smoothed.call b (Smoothed.runCalls b s hist) data kwargs).1 =
      (Smoothed.call b s data kwargs).1 := by
  obtain ⟨-, -, hs⟩ := init_inv hs
  obtain ⟨hcfg, hq⟩ := runCalls_state b s hist
  apply call_congr b hcfg
  intro beta lo d
  rw [pQ_harmless, pQ_fresh b s data beta lo d (Or.inr (Or.inl (by rw [hs])))]
  · have : qNormAt b (Smoothed.runCalls b s hist) beta lo d = qNormAt b s beta lo d := by
      funext m; unfold qNormAt; rw [hcfg.qs]
    rw [this, hcfg.m1s]
  · rcases h with h | h
    · left; rw [hcfg.cache, hs, h]
    · right
      intro l hl
      rcases hq with h' | ⟨c, hc, h'⟩
      · rw [h', hs] at hl; cases hl
      · rw [h'] at hl; cases hl
        exact h c hc

/-- A history allowed by `C24_history_partial` on a caching instance. -/
example : ∀ c ∈ [([(fin 30, fin 0.5), (fin 20, fin 0.5)], ([] : Dict Fl)),
      ([(fin 7, fin 0.3), (fin 8, fin 0.3), (fin 9, fin 0.1)], [])],
    Harmless .numpy (c.1.map Prod.fst) ([(fin 30, fin 0.9), (fin 20, fin 0.2)].map Prod.fst) := by
  intro c hc
  simp only [List.mem_cons, List.not_mem_nil, or_false] at hc
  rcases hc with rfl | rfl
  · exact Or.inl rfl
  · exact Or.inr ⟨by simp, by simp, by simp⟩

/-! ### The counterexample: two one-point datasets -/

/-- The instance: `mmin = 1`, `mmax = 3`, two grid points in each direction. -/
def staleInst : Smoothed :=
  ⟨primTwoComponent false, [("gaussian_mass_maximum", fin 3)], 1, 3, Arr.linspaceR 1 3 2,
    Arr.linspaceR 0.001 1 2, true, none⟩

/-- The hyper-parameters. -/
def staleKw : Dict Fl :=
  [("beta", fin 0), ("alpha", fin 0), ("mmin", fin 2), ("mmax", fin 3), ("lam", fin 0),
    ("mpp", fin 2), ("sigpp", fin 1), ("delta_m", fin 1)]

theorem linspaceR_two (a b : ℝ) : Arr.linspaceR a b 2 = [a, b] := by
  simp [Arr.linspaceR, List.range_succ]
  norm_num

/-- The primary model with these hyper-parameters is the uniform density on `[2, 3]`. -/
theorem stale_primary (b : Backend) {m : ℝ} (hm : 0 < m) :
    primTwoComponent false b
      (Dict.erase (Dict.erase staleKw "beta" ++ [("gaussian_mass_maximum", fin 3)]) "delta_m")
      (fin m) = .ok (fin (if 2 ≤ m ∧ m ≤ 3 then 1 else 0)) := by
  obtain ⟨g, hg, v1, v2⟩ := bindPrimary (kwargs := staleKw)
    (names := ["alpha", "mmin", "mmax", "lam", "mpp", "sigpp"])
    (extra := ["gaussian_mass_maximum"]) (defaults := [("gaussian_mass_maximum", fin 100)])
    (fixed := [("gaussian_mass_maximum", fin 3)]) (by simp [Dict.keys, staleKw])
    (by simp [Dict.keys]) (by decide)
    (by decide) (by simp [staleKw, Dict.get?_cons])
    (by simp [Dict.get?_cons])
  simp only [List.cons_append, List.nil_append] at hg
  simp only [primTwoComponent, hg]
  show twoComponentSingle b false (fin m) (g "alpha") (g "mmin") (g "mmax") (g "lam")
    (g "mpp") (g "sigpp") (g "gaussian_mass_maximum") = _
  rw [v1 "alpha" (by decide) (fin 0) (by simp [staleKw, Dict.get?_cons]),
    v1 "mmin" (by decide) (fin 2) (by simp [staleKw, Dict.get?_cons]),
    v1 "mmax" (by decide) (fin 3) (by simp [staleKw, Dict.get?_cons]),
    v1 "lam" (by decide) (fin 0) (by simp [staleKw, Dict.get?_cons]),
    v1 "mpp" (by decide) (fin 2) (by simp [staleKw, Dict.get?_cons]),
    v1 "sigpp" (by decide) (fin 1) (by simp [staleKw, Dict.get?_cons]),
    v2 "gaussian_mass_maximum" (by decide) (fin 3) (by simp [Dict.get?_cons]),
    C18_twoComponentSingle_value b false (Or.inr (by norm_num)) (by norm_num) (by norm_num)
      (by norm_num) one_pos hm]
  congr 2
  simp only [normalised, neg_zero, Real.rpow_zero, intervalIntegral.integral_const]
  norm_num

/-- The primary-mass density between 2 and 3 is a nonzero finite number. -/
theorem stale_pM1 (b : Backend) {μ : ℝ} (h2 : 2 < μ) (h3 : μ ≤ 3) : ∃ a : ℝ, a ≠ 0 ∧ ∀ t,
    SameConfig staleInst t → Smoothed.pM1 b t [fin μ]
      (Dict.erase staleKw "beta" ++ [("gaussian_mass_maximum", fin 3)]) = .ok [fin a] := by
  have k1 : Smoothed.kwGet (Dict.erase staleKw "beta" ++ [("gaussian_mass_maximum", fin 3)])
      "delta_m" 0 = fin 1 := by
    simp [Smoothed.kwGet, staleKw, Dict.erase, Dict.get?_cons]
  have k2 : ∀ x, Smoothed.kwGet (Dict.erase staleKw "beta" ++ [("gaussian_mass_maximum", fin 3)])
      "mmin" x = fin 2 := by
    simp [Smoothed.kwGet, staleKw, Dict.erase, Dict.get?_cons]
  have k3 : ∀ x, Smoothed.kwGet (Dict.erase (Dict.erase staleKw "beta" ++
      [("gaussian_mass_maximum", fin 3)]) "delta_m") "mmin" x = fin 2 := by
    simp [Smoothed.kwGet, staleKw, Dict.erase, Dict.get?_cons]
  have raw : ∀ m : ℝ, 0 < m → Smoothed.pMRaw b staleInst
      (Dict.erase (Dict.erase staleKw "beta" ++ [("gaussian_mass_maximum", fin 3)]) "delta_m")
      (fin 2) (fin 1) (fin m) = .ok (fin (if 2 ≤ m ∧ m ≤ 3 then taper (m - 2) else 0)) := by
    intro m hm
    unfold Smoothed.pMRaw
    rw [show staleInst.primary = primTwoComponent false from rfl, stale_primary b hm]
    show Except.ok _ = _
    rw [show staleInst.mmax = 3 from rfl, smoothing_fin b _ _ _ one_pos, fin_mul]
    congr 2
    split_ifs <;> simp
  have norm : Smoothed.normPM1 b staleInst (fin 1)
      (Dict.erase (Dict.erase staleKw "beta" ++ [("gaussian_mass_maximum", fin 3)]) "delta_m") =
      .ok (fin (taper 1)) := by
    unfold Smoothed.normPM1
    rw [k3]
    have hm : staleInst.m1s.mapM (fun m => Smoothed.pMRaw b staleInst (Dict.erase
        (Dict.erase staleKw "beta" ++ [("gaussian_mass_maximum", fin 3)]) "delta_m") (fin 2)
        (fin 1) (fin m)) = .ok [fin 0, fin (taper 1)] := by
      rw [show staleInst.m1s = [1, 3] from linspaceR_two 1 3,
        mapM_ok (g := fun m : ℝ => fin (if 2 ≤ m ∧ m ≤ 3 then taper (m - 2) else 0))]
      · norm_num
      · intro m hm
        apply raw
        simp only [List.mem_cons, List.not_mem_nil, or_false] at hm
        rcases hm with rfl | rfl <;> norm_num
    simp only [hm]
    refine Eq.trans (if_neg (by simp)) ?_
    show Except.ok _ = _
    rw [show staleInst.m1s = [1, 3] from linspaceR_two 1 3]
    simp [Arr.trapz]
    rw [fin_div (by norm_num)]
    simp
    ring
  refine ⟨taper (μ - 2) / taper 1, (div_pos (taper_pos _) (taper_pos _)).ne', fun t ht => ?_⟩
  rw [pM1_config b ht]
  unfold Smoothed.pM1
  rw [k1, k2]
  simp only [List.mapM_cons, List.mapM_nil, raw μ (by linarith), norm]
  show Except.ok _ = _
  rw [if_pos ⟨h2.le, h3⟩]
  simp [fin_div (taper_pos 1).ne']

/-- The mass-ratio density at mass 2.5 with the norm evaluated at mass `μ`. -/
theorem stale_norm (b : Backend) : ∃ c : ℝ, 0 < c ∧ ∀ t, SameConfig staleInst t → ∀ μ : ℝ, 1 < μ → μ ≤ 3 →
    interpLinear t.m1s (t.m1s.map (qNormAt b t (fin 0) (fin 2) (fin 1))) (fin μ) =
      fin ((μ - 1) / 2 * c) := by
  have hq : ∀ t, SameConfig staleInst t → ∀ m, qNormAt b t (fin 0) (fin 2) (fin 1) m =
      qNormAt b staleInst (fin 0) (fin 2) (fin 1) m := by
    intro t ht m; unfold qNormAt; rw [ht.qs]
  have val : ∀ m q : ℝ, 0 < m → m ≠ 2 → 0 < q → pQVal b (fin 0) (fin 2) (fin 1) (fin m) (fin q) =
      fin (normalised (fun t => t ^ (0:ℝ)) (2 / m) 1 q *
        (if 2 ≤ m * q ∧ m * q ≤ m then taper (m * q - 2) else 0)) := by
    intro m q hm hm2 hq
    unfold pQVal
    rw [massRatioFactor_eq b two_pos hm hm2 hq, fin_mul, smoothing_fin b _ _ _ one_pos]
    simp [okVal]
  have n1 : qNormAt b staleInst (fin 0) (fin 2) (fin 1) 1 = fin 0 := by
    unfold qNormAt
    rw [show staleInst.qs = [0.001, 1] from linspaceR_two _ _]
    simp only [List.map_cons, List.map_nil]
    rw [val 1 0.001 (by norm_num) (by norm_num) (by norm_num), val 1 1 (by norm_num) (by norm_num)
      (by norm_num), if_neg (by norm_num), if_neg (by norm_num)]
    simp [Arr.trapz]
    rw [fin_div (by norm_num)]
    simp
  obtain ⟨c, hc, n3⟩ : ∃ c : ℝ, 0 < c ∧
      qNormAt b staleInst (fin 0) (fin 2) (fin 1) 3 = fin c := by
    refine ⟨(1 - 0.001) * (3 * taper 1) / 2, ?_, ?_⟩
    · have := taper_pos 1
      apply div_pos _ two_pos
      apply mul_pos (by norm_num) (by linarith)
    · unfold qNormAt
      rw [show staleInst.qs = [0.001, 1] from linspaceR_two _ _]
      simp only [List.map_cons, List.map_nil]
      rw [val 3 0.001 (by norm_num) (by norm_num) (by norm_num), val 3 1 (by norm_num) (by norm_num)
        (by norm_num), if_neg (by norm_num), if_pos (by norm_num)]
      have : normalised (fun t : ℝ => t ^ (0:ℝ)) (2 / 3) 1 1 = 3 := by
        simp only [normalised, Real.rpow_zero, intervalIntegral.integral_const]
        norm_num
      rw [this, show (3 : ℝ) * 1 - 2 = 1 by norm_num]
      simp [Arr.trapz]
      rw [fin_div (by norm_num)]
      simp
  refine ⟨c, hc, fun t ht μ h1 h3 => ?_⟩
  rw [ht.m1s, show staleInst.m1s = [1, 3] from linspaceR_two 1 3]
  simp only [List.map_cons, List.map_nil, hq t ht, n1, n3]
  simp only [interpLinear]
  have : min ((([1, 3] : List ℝ).filter (fun x => decide (x ≤ μ))).length - 1)
    (([1, 3] : List ℝ).length - 2) = 0 := by simp
  rw [this]
  simp
  left
  norm_num

/-- Putting the two factors together. -/
theorem stale_call (b : Backend) {t t' : Smoothed} (ht : SameConfig staleInst t) {μ a x : ℝ}
    (hpm : Smoothed.pM1 b t [fin μ]
      (Dict.erase staleKw "beta" ++ [("gaussian_mass_maximum", fin 3)]) = .ok [fin a])
    (hpq : Smoothed.pQ b t [(fin μ, fin 1)] (fin 0) (fin 2) (fin 1) = (.ok [fin x], t')) :
    Smoothed.call b t [(fin μ, fin 1)] staleKw = (.ok [fin (a * x)], t') := by
  have k0 : Dict.get? staleKw "beta" = some (fin 0) := by simp [staleKw, Dict.get?_cons]
  have k1 : ∀ y, Smoothed.kwGet (Dict.erase staleKw "beta") "mmin" y = fin 2 := by
    simp [Smoothed.kwGet, staleKw, Dict.erase, Dict.get?_cons]
  have k2 : ∀ y, Smoothed.kwGet (Dict.erase staleKw "beta") "mmax" y = fin 3 := by
    simp [Smoothed.kwGet, staleKw, Dict.erase, Dict.get?_cons]
  have k3 : ∀ y, Smoothed.kwGet (Dict.erase staleKw "beta") "delta_m" y = fin 1 := by
    simp [Smoothed.kwGet, staleKw, Dict.erase, Dict.get?_cons]
  unfold Smoothed.call
  rw [k0]
  simp only [k1, k2, k3, ht.mmin, ht.mmax, ht.fixed]
  rw [if_neg (by simp [staleInst]), if_neg (by simp [staleInst]),
    if_neg (by simp [staleInst, Dict.keys, staleKw, Dict.erase])]
  rw [show staleInst.fixed = [("gaussian_mass_maximum", fin 3)] from rfl]
  simp only [List.map_cons, List.map_nil, hpm, hpq]
  rw [broadcast_same (xs := [fin a]) (ys := [fin x]) _ _ rfl]
  rfl

theorem stale_pQVal (b : Backend) : ∃ A : ℝ, A ≠ 0 ∧
    pQVal b (fin 0) (fin 2) (fin 1) (fin 2.5) (fin 1) = fin A := by
  refine ⟨normalised (fun t => t ^ (0:ℝ)) (2 / 2.5) 1 1 * taper (1 / 2), ?_, ?_⟩
  · apply mul_ne_zero _ (taper_pos _).ne'
    simp only [normalised, Real.rpow_zero, intervalIntegral.integral_const]
    norm_num
  · unfold pQVal
    rw [massRatioFactor_eq b two_pos (by norm_num) (by norm_num) one_pos, fin_mul,
      smoothing_fin b _ _ _ one_pos, if_pos (by norm_num)]
    simp only [okVal, fin_mul]
    norm_num

/-- One point evaluated on a new instance and after another point: the second time the density is
divided by the norm of the other mass. -/
theorem stale_values (b : Backend) : ∃ v1 v2 v3 : List Fl,
    Smoothed.call b staleInst [(fin 3, fin 1)] staleKw =
      (.ok v1, Smoothed.cacheQNorms staleInst [fin 3]) ∧
    (Smoothed.call b staleInst [(fin 2.5, fin 1)] staleKw).1 = .ok v2 ∧
    (Smoothed.call b (Smoothed.cacheQNorms staleInst [fin 3]) [(fin 2.5, fin 1)] staleKw).1 = .ok v3 ∧
    v2 ≠ v3 := by
  obtain ⟨a, ha, hpm⟩ := stale_pM1 b (μ := 2.5) (by norm_num) (by norm_num)
  obtain ⟨a', -, hpm'⟩ := stale_pM1 b (μ := 3) (by norm_num) (by norm_num)
  obtain ⟨c, hc, hN⟩ := stale_norm b
  obtain ⟨A, hA, hv⟩ := stale_pQVal b
  -- evaluating one point with the norm of the mass `ν`
  have div : ∀ (t : Smoothed), SameConfig staleInst t → ∀ ν : ℝ, 1 < ν → ν ≤ 3 →
      t.qMasses = some [fin ν] → ∀ y : Fl, Smoothed.divideByNorm b t [y] (fin 0) (fin 2) (fin 1) =
        .ok [y / fin ((ν - 1) / 2 * c)] := by
    intro t ht ν h1 h3 hq y
    unfold Smoothed.divideByNorm
    rw [normPQ_eq, hq]
    simp only [List.map_cons, List.map_nil, hN t ht ν h1 h3]
    show Smoothed.inplaceDiv b [y] [fin ((ν - 1) / 2 * c)] = _
    rw [inplaceDiv_same (xs := [y]) (ys := [fin ((ν - 1) / 2 * c)]) _ rfl]
    rfl
  -- a fresh instance caches the masses of its first dataset
  have fresh : ∀ μ : ℝ, 1 < μ → μ ≤ 3 → ∀ y : Fl,
      pQVal b (fin 0) (fin 2) (fin 1) (fin μ) (fin 1) = y →
      Smoothed.pQ b staleInst [(fin μ, fin 1)] (fin 0) (fin 2) (fin 1) =
        (.ok [nanToNum (y / fin ((μ - 1) / 2 * c))],
          Smoothed.cacheQNorms staleInst [fin μ]) := by
    intro μ h1 h3 y hy
    have hno : Smoothed.divideByNorm b staleInst [y] (fin 0) (fin 2) (fin 1) =
        .error .attributeError := by
      unfold Smoothed.divideByNorm; rw [normPQ_eq]; rfl
    have hraw : [(fin μ, fin 1)].mapM (fun d : Fl × Fl =>
        Smoothed.pQRaw b (fin 0) (fin 2) (fin 1) d.1 d.2) = .ok [y] := by
      rw [mapM_ok (fun d _ => pQRaw_eq ..), List.map_cons, List.map_nil, hy]
    unfold Smoothed.pQ
    rw [hraw]
    simp only
    rw [if_pos (show staleInst.cache = true from rfl), hno]
    simp only
    rw [if_pos (show Smoothed.caught .attributeError from trivial)]
    simp only [List.map_cons, List.map_nil]
    rw [div _ (sameConfig_cache _ _) μ h1 h3 rfl]
    rfl
  obtain ⟨y3, hy3⟩ := nanToNum_finite
    (pQVal b (fin 0) (fin 2) (fin 1) (fin 3) (fin 1) / fin ((3 - 1) / 2 * c))
  have c1 := stale_call b (SameConfig.refl staleInst) (hpm' _ (SameConfig.refl _))
    ((fresh 3 (by norm_num) le_rfl _ rfl).trans (by rw [hy3]))
  have c2 := stale_call b (SameConfig.refl staleInst) (hpm _ (SameConfig.refl _))
    ((fresh 2.5 (by norm_num) (by norm_num) _ hv).trans
      (by rw [fin_div (by norm_num; exact hc.ne'), nanToNum_fin]))
  have pq3 : Smoothed.pQ b (Smoothed.cacheQNorms staleInst [fin 3]) [(fin 2.5, fin 1)] (fin 0)
      (fin 2) (fin 1) = (.ok [fin (A / ((3 - 1) / 2 * c))],
        Smoothed.cacheQNorms staleInst [fin 3]) := by
    have hraw : [(fin 2.5, fin 1)].mapM (fun d : Fl × Fl =>
        Smoothed.pQRaw b (fin 0) (fin 2) (fin 1) d.1 d.2) = .ok [fin A] := by
      rw [mapM_ok (fun d _ => pQRaw_eq ..), List.map_cons, List.map_nil, hv]
    unfold Smoothed.pQ
    rw [hraw]
    simp only
    rw [if_pos (show (Smoothed.cacheQNorms staleInst [fin 3]).cache = true from rfl), div _ (sameConfig_cache _ _) 3 (by norm_num) le_rfl rfl,
      fin_div (by norm_num; exact hc.ne')]
    rfl
  have c3 := stale_call b (sameConfig_cache staleInst [fin 3]) (hpm _ (sameConfig_cache _ _)) pq3
  refine ⟨_, _, _, c1, congrArg Prod.fst c2, congrArg Prod.fst c3, fun h => ?_⟩
  simp only [List.cons.injEq, and_true, fin_inj] at h
  have h := mul_left_cancel₀ ha h
  have hc' := hc.ne'
  field_simp at h
  norm_num at h

/-- **C24 fails**: on a caching instance, evaluating a one-point dataset after another one
returns the density divided by the norm of the *other* mass. -/
theorem C24_fails : ¬ C24_statement := by
  intro h
  have hs : singlePeak false 1 3 2 2 true = .ok staleInst := init_ok _ _ _ _ _ le_rfl le_rfl
  have h := h .numpy false 1 3 2 2 true staleInst hs [([(fin 3, fin 1)], staleKw)]
    [(fin 2.5, fin 1)] staleKw
  obtain ⟨v1, v2, v3, c1, c2, c3, hne⟩ := stale_values .numpy
  simp only [Smoothed.runCalls, c1, c2, c3, Except.ok.injEq] at h
  exact hne h.symm

/-- C23 applies to this instance (its norm is positive) … -/
example : ∃ p, Smoothed.pM1 .numpy staleInst (staleInst.m1s.map fin)
      (Dict.erase staleKw "beta" ++ [("gaussian_mass_maximum", fin 3)]) = .ok p ∧
      Arr.trapz p (staleInst.m1s.map fin) = fin 1 := by
  have hm : staleInst.m1s = [1, 3] := linspaceR_two 1 3
  refine C23_primary_of_nonneg .numpy staleInst _ (d := 1) (lo := 2) (nM := 2) rfl le_rfl
    (by norm_num [staleInst]) (by simp [Smoothed.kwGet, staleKw, Dict.erase, Dict.get?_cons])
    one_pos (by simp [Smoothed.kwGet, staleKw, Dict.erase, Dict.get?_cons])
    (fun m => if 2 ≤ m ∧ m ≤ 3 then 1 else 0) (fun m h => stale_primary _ ?_) (fun m _ => ?_)
    ⟨3, by simp [hm], by norm_num, by norm_num⟩
  · rw [hm] at h
    simp only [List.mem_cons, List.not_mem_nil, or_false] at h
    rcases h with rfl | rfl <;> norm_num
  · split_ifs <;> norm_num

/-- … and the mass-ratio part to every grid, at its largest mass. -/
example (s : Smoothed) {nM nQ : ℕ} (h : singlePeak false 2 100 nM nQ true = .ok s) :
    ∃ p, (Smoothed.pQ .numpy s (s.qs.map fun q => (fin 100, fin q)) (fin 1.5) (fin 5)
        (fin 3)).1 = .ok p ∧ Arr.trapz p (s.qs.map fin) = fin 1 := by
  obtain ⟨hM, hQ, rfl⟩ := init_inv h
  refine C23_massRatio_above .numpy _ (mmin := 2) (mmax := 100) rfl hM (by norm_num) rfl hQ
    (by norm_num) (by norm_num) ?_ (by norm_num) (Or.inr (Or.inl rfl))
  refine List.mem_map.2 ⟨nM - 1, List.mem_range.2 (by omega), ?_⟩
  have h1 : (nM : ℝ) - 1 ≠ 0 := by
    have : (2 : ℝ) ≤ nM := by exact_mod_cast hM
    intro h; linarith
  rw [Nat.cast_sub (by omega), Nat.cast_one, mul_div_assoc, div_self h1]
  norm_num

/-! ## C25 -/

/-- **C25.** Without `beta` the call raises `KeyError` before anything else, and changes nothing. -/
theorem C25_missing_beta (b : Backend) (s : Smoothed) (data : List (Fl × Fl)) (kwargs : Dict Fl)
    (h : Dict.get? kwargs "beta" = none) :
    Smoothed.call b s data kwargs = (.error (.keyError "beta"), s) := by
  unfold Smoothed.call; rw [h]

/-- **C25.** On numpy/cupy a requested `mmin` below, or `mmax` above, the instance's bounds raises
`ValueError` and leaves the instance unchanged, whatever the dataset and the other arguments. -/
theorem C25_out_of_range (b : Backend) (hb : b ≠ .jax) (s : Smoothed) (data : List (Fl × Fl))
    (kwargs : Dict Fl) {beta : Fl} (hbeta : Dict.get? kwargs "beta" = some beta)
    (h : (∃ v, Dict.get? kwargs "mmin" = some v ∧ v < fin s.mmin) ∨
      (∃ v, Dict.get? kwargs "mmax" = some v ∧ fin s.mmax < v)) :
    Smoothed.call b s data kwargs = (.error .valueError, s) := by
  unfold Smoothed.call
  rw [hbeta]
  simp only [Smoothed.kwGet, Dict.get?_erase, if_neg (show ("mmin" : String) ≠ "beta" by decide),
    if_neg (show ("mmax" : String) ≠ "beta" by decide)]
  by_cases h1 : b ≠ .jax ∧ (Dict.get? kwargs "mmin").getD (fin s.mmin) < fin s.mmin
  · rw [if_pos h1]
  · rw [if_neg h1]
    rcases h with ⟨v, hv, hlt⟩ | ⟨v, hv, hlt⟩
    · exact absurd ⟨hb, by rw [hv]; exact hlt⟩ h1
    · rw [if_pos ⟨hb, by rw [hv]; exact hlt⟩]

theorem divideByNorm_ok (b : Backend) (s : Smoothed) {pq : List Fl} {l : List Fl}
    (hq : s.qMasses = some l) (hlen : pq.length = l.length) (beta lo d : Fl) :
    ∃ r, Smoothed.divideByNorm b s pq beta lo d = .ok r ∧ r.length = pq.length := by
  unfold Smoothed.divideByNorm
  rw [normPQ_eq, hq]
  refine ⟨_, inplaceDiv_same b (by simpa using hlen), ?_⟩
  simp [hlen]

theorem inplaceDiv_length (b : Backend) {xs ys r : List Fl}
    (h : Smoothed.inplaceDiv b xs ys = .ok r) :
    r.length = xs.length ∨ (b = .jax ∧ xs.length = 1) := by
  by_cases hb : b = .jax
  · unfold Smoothed.inplaceDiv at h
    obtain ⟨r', h1, h2⟩ := bind_eq_ok.1 h
    split_ifs at h2 with hc
    cases h2
    unfold Smoothed.broadcast at h1
    split_ifs at h1 with hl
    · cases h1; left; simp [hl]
    · rcases ys with _ | ⟨y, _ | ⟨y', ys⟩⟩
      · rcases xs with _ | ⟨x, _ | ⟨x', xs⟩⟩
        · simp at hl
        · exact Or.inr ⟨hb, rfl⟩
        · cases h1
      · cases h1; left; simp
      · rcases xs with _ | ⟨x, _ | ⟨x', xs⟩⟩
        · cases h1
        · exact Or.inr ⟨hb, rfl⟩
        · cases h1
  · left
    rw [inplaceDiv_numpy b hb] at h
    split_ifs at h with h1 h2
    · cases h; simp [h1]
    · cases h; simp

/-- `p_q` never raises. Its result has the dataset's length, except that on jax a one-point
dataset may be broadcast against a stale interpolant. -/
theorem pQ_ok (b : Backend) (s : Smoothed) (data : List (Fl × Fl)) (beta lo d : Fl) :
    ∃ r, (Smoothed.pQ b s data beta lo d).1 = .ok r ∧
      (r.length = data.length ∨ (b = .jax ∧ data.length = 1)) := by
  have hraw : data.mapM (fun x => Smoothed.pQRaw b beta lo d x.1 x.2) =
      .ok (data.map fun x => pQVal b beta lo d x.1 x.2) := mapM_ok fun d _ => pQRaw_eq ..
  have hrec : ∀ t : Smoothed, ∃ r, (Smoothed.divideByNorm b
      (Smoothed.cacheQNorms t (data.map Prod.fst)) (data.map fun x => pQVal b beta lo d x.1 x.2)
      beta lo d) = .ok r ∧ r.length = data.length := by
    intro t
    obtain ⟨r, h1, h2⟩ := divideByNorm_ok b (Smoothed.cacheQNorms t (data.map Prod.fst))
      (pq := data.map fun x => pQVal b beta lo d x.1 x.2) rfl (by simp) beta lo d
    exact ⟨r, h1, by simpa using h2⟩
  unfold Smoothed.pQ
  rw [hraw]
  simp only
  by_cases hc : s.cache = true
  · rw [if_pos hc]
    cases hq : s.qMasses with
    | none =>
      have : Smoothed.divideByNorm b s (data.map fun x => pQVal b beta lo d x.1 x.2) beta lo d =
          .error .attributeError := by
        unfold Smoothed.divideByNorm; rw [normPQ_eq, hq]; rfl
      rw [this]
      simp only
      rw [if_pos (show Smoothed.caught .attributeError from trivial)]
      obtain ⟨r, h1, h2⟩ := hrec s
      rw [h1]
      exact ⟨r.map nanToNum, rfl, by simp [h2]⟩
    | some l =>
      have hdef : Smoothed.divideByNorm b s (data.map fun x => pQVal b beta lo d x.1 x.2) beta lo d =
          Smoothed.inplaceDiv b (data.map fun x => pQVal b beta lo d x.1 x.2)
            (l.map (interpLinear s.m1s (s.m1s.map (qNormAt b s beta lo d)))) := by
        unfold Smoothed.divideByNorm; rw [normPQ_eq, hq]; rfl
      rw [hdef]
      cases hD : Smoothed.inplaceDiv b (data.map fun x => pQVal b beta lo d x.1 x.2)
            (l.map (interpLinear s.m1s (s.m1s.map (qNormAt b s beta lo d)))) with
      | ok r =>
        refine ⟨r.map nanToNum, rfl, ?_⟩
        have := inplaceDiv_length b hD
        simpa using this
      | error e =>
        have hce : Smoothed.caught e := by
          by_cases hl : l.length = data.length
          · rw [inplaceDiv_same b (by simpa using hl.symm)] at hD; cases hD
          · by_cases h1 : l.length = 1
            · exfalso
              obtain ⟨m, rfl⟩ := List.length_eq_one_iff.1 h1
              unfold Smoothed.inplaceDiv Smoothed.broadcast at hD
              rw [if_neg (by simpa using fun h => hl (by simpa using h.symm))] at hD
              simp only [List.map_cons, List.map_nil] at hD
              change (if b ≠ .jax ∧ _ then _ else _) = _ at hD
              rw [if_neg (by simp)] at hD
              cases hD
            · by_cases h3 : b = .jax ∧ data.length = 1
              · exfalso
                obtain ⟨x, rfl⟩ := List.length_eq_one_iff.1 h3.2
                unfold Smoothed.inplaceDiv Smoothed.broadcast at hD
                rw [if_neg (by simpa using fun h => hl h.symm)] at hD
                rcases l with _ | ⟨m, _ | ⟨m', l⟩⟩
                · simp only [List.map_cons, List.map_nil] at hD
                  change (if b ≠ .jax ∧ _ then _ else _) = _ at hD
                  rw [if_neg (fun h => h.1 h3.1)] at hD
                  cases hD
                · simp at h1
                · simp only [List.map_cons, List.map_nil] at hD
                  change (if b ≠ .jax ∧ _ then _ else _) = _ at hD
                  rw [if_neg (fun h => h.1 h3.1)] at hD
                  cases hD
              · rcases inplaceDiv_error b
                  (xs := data.map fun x => pQVal b beta lo d x.1 x.2)
                  (ys := l.map (interpLinear s.m1s (s.m1s.map (qNormAt b s beta lo d))))
                  (by simpa using hl) (by simpa using h1)
                  (by intro hb h; exact h3 ⟨hb, by simpa using h⟩) with h | h
                · rw [h] at hD; cases hD; trivial
                · rw [h] at hD; cases hD; trivial
        simp only
        rw [if_pos hce]
        obtain ⟨r, h1, h2⟩ := hrec s
        rw [h1]
        exact ⟨r.map nanToNum, rfl, by simp [h2]⟩
  · rw [if_neg hc]
    obtain ⟨r, h1, h2⟩ := hrec s
    rw [h1]
    exact ⟨r.map nanToNum, rfl, by simp [h2]⟩

/-- **C25.** With `beta` present and both bounds in range — or on jax, whatever the bounds — the
call returns a value for every dataset, whatever is cached, provided the primary model itself
accepts the hyper-parameters (and none of them repeats one fixed by the instance). So the checks
raise for no other arguments. On numpy/cupy the result has the dataset's length. -/
theorem C25_accepts (b : Backend) (s : Smoothed) (data : List (Fl × Fl)) (kwargs : Dict Fl)
    {beta : Fl} (hbeta : Dict.get? kwargs "beta" = some beta)
    (hrange : b = .jax ∨ ((∀ v, Dict.get? kwargs "mmin" = some v → ¬ v < fin s.mmin) ∧
      ∀ v, Dict.get? kwargs "mmax" = some v → ¬ fin s.mmax < v))
    (hdup : ∀ k ∈ Dict.keys s.fixed, k ∉ Dict.keys kwargs)
    (hprim : ∀ m, ∃ y, s.primary b
      (Dict.erase (Dict.erase kwargs "beta" ++ s.fixed) "delta_m") m = .ok y) :
    ∃ r, (Smoothed.call b s data kwargs).1 = .ok r ∧ (b ≠ .jax → r.length = data.length) := by
  have hpm : ∃ p, Smoothed.pM1 b s (data.map Prod.fst) (Dict.erase kwargs "beta" ++ s.fixed) =
      .ok p ∧ p.length = data.length := by
    choose f hf using hprim
    have raw : ∀ (lo d m : Fl), Smoothed.pMRaw b s
        (Dict.erase (Dict.erase kwargs "beta" ++ s.fixed) "delta_m") lo d m =
        .ok (f m * smoothing b m lo (fin s.mmax) d) := by
      intro lo d m
      unfold Smoothed.pMRaw
      rw [hf]; rfl
    have hn : ∃ n, Smoothed.normPM1 b s
        (Smoothed.kwGet (Dict.erase kwargs "beta" ++ s.fixed) "delta_m" 0)
        (Dict.erase (Dict.erase kwargs "beta" ++ s.fixed) "delta_m") = .ok n := by
      unfold Smoothed.normPM1
      simp only [mapM_ok (fun m _ => raw _ _ (fin m))]
      split_ifs
      · exact ⟨_, rfl⟩
      · exact ⟨_, rfl⟩
    obtain ⟨n, hn⟩ := hn
    refine ⟨((data.map Prod.fst).map fun m => f m * smoothing b m
      (Smoothed.kwGet (Dict.erase kwargs "beta" ++ s.fixed) "mmin" (fin s.mmin)) (fin s.mmax)
      (Smoothed.kwGet (Dict.erase kwargs "beta" ++ s.fixed) "delta_m" 0)).map (· / n), ?_, by simp⟩
    unfold Smoothed.pM1
    simp only [mapM_ok (fun m _ => raw _ _ m), hn]
    rfl
  obtain ⟨p, hp, hpl⟩ := hpm
  unfold Smoothed.call
  rw [hbeta]
  simp only
  rw [if_neg, if_neg, if_neg]
  · rw [hp]
    simp only
    obtain ⟨r, hr, hrl⟩ := pQ_ok b s data beta
      (Smoothed.kwGet (Dict.erase kwargs "beta") "mmin" (fin s.mmin))
      (Smoothed.kwGet (Dict.erase kwargs "beta") "delta_m" 0)
    rcases hQ : Smoothed.pQ b s data beta
      (Smoothed.kwGet (Dict.erase kwargs "beta") "mmin" (fin s.mmin))
      (Smoothed.kwGet (Dict.erase kwargs "beta") "delta_m" 0) with ⟨r', s'⟩
    rw [hQ] at hr
    simp only at hr
    rw [hr]
    simp only
    rcases hrl with h | ⟨hb, h⟩
    · rw [broadcast_same b _ (by rw [hpl, h])]
      exact ⟨_, rfl, fun _ => by simp [hpl, h]⟩
    · by_cases hl : p.length = r.length
      · rw [broadcast_same b _ hl]
        exact ⟨_, rfl, fun hb' => absurd hb hb'⟩
      · obtain ⟨x, rfl⟩ := List.length_eq_one_iff.1 (hpl.trans h)
        unfold Smoothed.broadcast
        rw [if_neg hl]
        rcases r with _ | ⟨m, _ | ⟨m', r⟩⟩
        · exact ⟨_, rfl, fun hb' => absurd hb hb'⟩
        · exact ⟨_, rfl, fun hb' => absurd hb hb'⟩
        · exact ⟨_, rfl, fun hb' => absurd hb hb'⟩
  · rintro ⟨k, hk, hk'⟩
    rw [Dict.keys_erase] at hk
    exact hdup k hk' (List.mem_filter.1 hk).1
  · rintro ⟨hb, h⟩
    rcases hrange with hb' | ⟨-, h2⟩
    · exact hb hb'
    · unfold Smoothed.kwGet at h
      rw [Dict.get?_erase, if_neg (by decide)] at h
      cases hg : Dict.get? kwargs "mmax" with
      | none => rw [hg] at h; simp at h
      | some v => rw [hg] at h; exact h2 v hg h
  · rintro ⟨hb, h⟩
    rcases hrange with hb' | ⟨h2, -⟩
    · exact hb hb'
    · unfold Smoothed.kwGet at h
      rw [Dict.get?_erase, if_neg (by decide)] at h
      cases hg : Dict.get? kwargs "mmin" with
      | none => rw [hg] at h; simp at h
      | some v => rw [hg] at h; exact h2 v hg h

/-- Both branches of C25 occur. -/
example : (Smoothed.call .numpy staleInst [(fin 2.5, fin 1)]
    [("beta", fin 1), ("mmin", fin 0.5)]) = (.error .valueError, staleInst) :=
  C25_out_of_range .numpy (by decide) _ _ _ (beta := fin 1) (by simp [Dict.get?_cons])
    (Or.inl ⟨fin 0.5, by simp [Dict.get?_cons], by simp [staleInst]; norm_num⟩)

/-! ## C26 -/

namespace Spec

/-- The hyper-parameters of a primary model: the names it declares, or else its parameters
without the first (the masses). -/
def hyperParameters (p : PrimaryInfo) : List String :=
  match p.variableNames with
  | some l => l
  | none => p.args.tail

end Spec

/-- The primary model after `n` reads of `variable_names`. -/
def readVariableNames (p : PrimaryInfo) (fixedKeys : List String) : ℕ → PrimaryInfo
  | 0 => p
  | n + 1 => (variableNames (readVariableNames p fixedKeys n) fixedKeys).2

/-- **C26, full statement**: after any number of reads, the property returns the primary model's
hyper-parameters and `beta`, `delta_m`, without the fixed ones, and nothing has been modified. -/
def C26_statement : Prop :=
  ∀ (p : PrimaryInfo) (fixedKeys : List String) (n : ℕ),
    (∀ k, k ∈ (variableNames (readVariableNames p fixedKeys n) fixedKeys).1 ↔
      (k ∈ hyperParameters p ∨ k = "beta" ∨ k = "delta_m") ∧ k ∉ fixedKeys) ∧
    readVariableNames p fixedKeys n = p

theorem mem_variableNames (p : PrimaryInfo) (fixedKeys : List String) (k : String) :
    k ∈ (variableNames p fixedKeys).1 ↔
      (k ∈ hyperParameters p ∨ k = "beta" ∨ k = "delta_m") ∧ k ∉ fixedKeys := by
  unfold variableNames hyperParameters
  cases p.variableNames <;> simp [List.mem_filter]

/-- **C26 fails**: reading the property of a model whose primary model has its own
`variable_names` list appends to that list. -/
theorem C26_fails : ¬ C26_statement := by
  intro h
  have := (h ⟨["mass"], some ["alpha"]⟩ [] 1).2
  simp [readVariableNames, variableNames] at this

/-- **C26, proved part**: the returned set is right after any number of reads. -/
theorem C26_names_partial (p : PrimaryInfo) (fixedKeys : List String) (n : ℕ) (k : String) :
    k ∈ (variableNames (readVariableNames p fixedKeys n) fixedKeys).1 ↔
      (k ∈ hyperParameters p ∨ k = "beta" ∨ k = "delta_m") ∧ k ∉ fixedKeys := by
  rw [mem_variableNames]
  have : k ∈ hyperParameters (readVariableNames p fixedKeys n) ∨ k = "beta" ∨ k = "delta_m" ↔
      k ∈ hyperParameters p ∨ k = "beta" ∨ k = "delta_m" := by
    induction n with
    | zero => rfl
    | succ n ih =>
      rw [← ih]
      simp only [readVariableNames]
      generalize readVariableNames p fixedKeys n = q
      unfold variableNames hyperParameters
      cases hq : q.variableNames with
      | none => simp [hq]
      | some l => simp only [List.mem_append, List.mem_cons, List.not_mem_nil, or_false]; tauto
  rw [this]

/-- **C26, proved part**: what is modified. A primary model without a `variable_names` list (all
those of this package) is never modified; one with such a list gets `beta`, `delta_m` appended at
every read. -/
theorem C26_side_effect_partial (p : PrimaryInfo) (fixedKeys : List String) (n : ℕ) :
    (p.variableNames = none → readVariableNames p fixedKeys n = p) ∧
    (∀ l, p.variableNames = some l → readVariableNames p fixedKeys n =
      ⟨p.args, some (l ++ (List.replicate n ["beta", "delta_m"]).flatten)⟩) := by
  constructor
  · intro h
    induction n with
    | zero => rfl
    | succ n ih =>
      simp only [readVariableNames]
      rw [ih]
      unfold variableNames; rw [h]
  · intro l h
    induction n with
    | zero =>
      simp only [readVariableNames, List.replicate_zero, List.flatten_nil, List.append_nil, ← h]
    | succ n ih =>
      simp only [readVariableNames]
      rw [ih]
      unfold variableNames
      simp only [List.replicate_succ', List.flatten_append, List.flatten_cons, List.flatten_nil,
        List.append_nil, List.append_assoc]

/-- The parameters of the primary models of the package (`mass.py:297`, `:335`, `:38`, `:74`). -/
def infoTwoComponent : PrimaryInfo :=
  ⟨["mass", "alpha", "mmin", "mmax", "lam", "mpp", "sigpp", "gaussian_mass_maximum"], none⟩

/-- A successful evaluation of the primary model binds exactly the allowed keywords. -/
theorem bindArgs_ok_inv {names : List String} {defaults kwargs : Dict Fl} {g : String → Fl}
    (h : bindArgs names defaults kwargs = .ok g) :
    (∀ k ∈ Dict.keys kwargs, k ∈ names) ∧
      ∀ n ∈ names, ¬ Dict.contains defaults n → Dict.contains kwargs n := by
  unfold bindArgs at h
  split_ifs at h with hc
  push Not at hc
  refine ⟨hc.1, fun n hn hd => ?_⟩
  by_contra hk
  exact hd (hc.2 n hn hk)

/-- **C26, the names are what a call consumes** (single peak): a call on a non-empty dataset that
succeeds was given only names listed in `variable_names`, and all of them except possibly
`delta_m`. -/
theorem C26_singlePeak_consumes (b : Backend) (py : Bool) {selfMin selfMax : ℝ} {nM nQ : ℕ}
    {cache : Bool} {s0 s : Smoothed} (hs : singlePeak py selfMin selfMax nM nQ cache = .ok s0)
    (hcfg : SameConfig s0 s) {data : List (Fl × Fl)} (hne : data ≠ []) {kwargs : Dict Fl}
    {r : List Fl} (h : (Smoothed.call b s data kwargs).1 = .ok r) :
    (∀ k ∈ Dict.keys kwargs, k ∈ (variableNames infoTwoComponent (Dict.keys s.fixed)).1) ∧
    (∀ k ∈ (variableNames infoTwoComponent (Dict.keys s.fixed)).1, k ≠ "delta_m" →
      k ∈ Dict.keys kwargs) := by
  obtain ⟨-, -, hs⟩ := init_inv hs
  have hfixed : s.fixed = [("gaussian_mass_maximum", fin selfMax)] := by rw [hcfg.fixed, hs]
  have hprim : s.primary = primTwoComponent py := by rw [hcfg.primary, hs]
  obtain ⟨d, data, rfl⟩ := List.exists_cons_of_ne_nil hne
  unfold Smoothed.call at h
  cases hbeta : Dict.get? kwargs "beta" with
  | none => rw [hbeta] at h; cases h
  | some beta =>
    rw [hbeta] at h
    simp only at h
    split_ifs at h with h1 h2 h3
    cases hpm : Smoothed.pM1 b s ((d :: data).map Prod.fst)
        (Dict.erase kwargs "beta" ++ s.fixed) with
    | error e => rw [hpm] at h; cases h
    | ok pm =>
      -- the primary model returned at the first mass
      unfold Smoothed.pM1 at hpm
      obtain ⟨raw, hraw, -⟩ := bind_eq_ok.1 hpm
      rw [List.map_cons, List.mapM_cons] at hraw
      obtain ⟨y, hy, -⟩ := bind_eq_ok.1 hraw
      unfold Smoothed.pMRaw at hy
      obtain ⟨z, hz, -⟩ := bind_eq_ok.1 hy
      rw [hprim] at hz
      unfold primTwoComponent at hz
      obtain ⟨g, hg, -⟩ := bind_eq_ok.1 hz
      obtain ⟨b1, b2⟩ := bindArgs_ok_inv hg
      rw [hfixed] at b1 b2 h3
      rw [Dict.keys_erase, Dict.keys_append, Dict.keys_erase] at b1
      simp only [List.mem_append, List.mem_filter] at b1
      simp only [mem_variableNames, hfixed]
      refine ⟨fun k hk => ⟨?_, ?_⟩, fun k hk hkd => ?_⟩
      · by_cases e1 : k = "beta"
        · exact Or.inr (Or.inl e1)
        by_cases e2 : k = "delta_m"
        · exact Or.inr (Or.inr e2)
        · have := b1 k ⟨Or.inl ⟨hk, by simpa using e1⟩, by simpa using e2⟩
          exact Or.inl this
      · intro hf
        refine h3 ⟨k, ?_, hf⟩
        rw [Dict.keys_erase, List.mem_filter]
        refine ⟨hk, ?_⟩
        simp only [Dict.keys, List.map_cons, List.map_nil, List.mem_singleton] at hf
        subst hf; decide
      · by_cases e1 : k = "beta"
        · subst e1
          by_contra hc
          rw [(Dict.get?_eq_none_iff _ _).2 hc] at hbeta
          cases hbeta
        · have hkn := (hk.1.resolve_right (by simp [e1, hkd]))
          have hne : k ≠ "gaussian_mass_maximum" := fun e => hk.2 (by simp [Dict.keys, e])
          have := b2 k hkn (by simpa [Dict.contains] using hne)
          have : k ∈ Dict.keys (Dict.erase (Dict.erase kwargs "beta" ++
            [("gaussian_mass_maximum", fin selfMax)]) "delta_m") := this
          rw [Dict.keys_erase, Dict.keys_append, Dict.keys_erase, List.mem_filter,
            List.mem_append, List.mem_filter] at this
          rcases this.1 with h | h
          · exact h.1
          · simp only [Dict.keys, List.map_cons, List.map_nil, List.mem_singleton] at h
            exact absurd h hne

end GW
