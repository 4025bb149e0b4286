import Verif.Props.SmoothedCore
import Mathlib.Data.List.GetD

/-!
# C22 - C26: the smoothed mass distributions
-/

noncomputable section

open Classical

namespace GW

open Fl Spec

/-! ## C22 -/

theorem mul_one_fl (a : Fl) : a * 1 = a := by cases a <;> simp [signInf]
theorem div_one_fl (a : Fl) : a / 1 = a := by
  cases a with
  | fin a => rw [one_eq, fin_div one_ne_zero, div_one]
  | pinf => rw [one_eq, pinf_div_fin, if_neg (by norm_num)]
  | ninf => rw [one_eq, ninf_div_fin, if_neg (by norm_num)]
  | nan => simp

theorem interpLinear_ones {xs : List ℝ} {ys : List Fl} (h2 : 2 ≤ xs.length)
    (hlen : ys.length = xs.length) (h1 : ∀ y ∈ ys, y = 1) {m : Fl} (hm : isFinite m) :
    interpLinear xs ys m = 1 := by
  obtain ⟨m, rfl⟩ := isFinite_iff.1 hm
  have hget : ∀ i, i < ys.length → ys.getD i nan = fin 1 := by
    intro i hi
    rw [List.getD_eq_getElem (l := ys) (d := nan) hi]
    exact h1 _ (List.getElem_mem hi)
  have hi : min ((xs.filter (fun x => x ≤ m)).length - 1) (xs.length - 2) + 1 < ys.length := by
    omega
  simp only [interpLinear]
  rw [hget _ (by omega), hget _ hi]
  simp

theorem qNormAt_delta_zero (b : Backend) (s : Smoothed) (beta mmin : Fl) (m : ℝ) :
    qNormAt b s beta mmin 0 m = 1 := by
  unfold qNormAt
  obtain ⟨r, hr⟩ := nanToNum_finite
    (Arr.trapz (s.qs.map fun q => pQVal b beta mmin 0 (fin m) (fin q)) (s.qs.map fin))
  rw [hr]
  simp

/-- Division by norms that are all 1. -/
theorem inplaceDiv_ones (b : Backend) {xs ys : List Fl} (h : xs.length = ys.length)
    (h1 : ∀ y ∈ ys, y = 1) : Smoothed.inplaceDiv b xs ys = .ok xs := by
  rw [inplaceDiv_same b h]
  congr 1
  induction xs generalizing ys with
  | nil => simp
  | cons x xs ih =>
    cases ys with
    | nil => simp at h
    | cons y ys =>
      rw [List.zipWith_cons_cons, ih (by simpa using h) fun y hy => h1 y (by simp [hy]),
        h1 y (by simp), div_one_fl]

/-- `p_q` with `delta_m = 0` is the plain power law, whatever is cached. -/
theorem pQ_delta_zero (b : Backend) (hb : b ≠ .jax) (s : Smoothed) (h2 : 2 ≤ s.m1s.length)
    (hfin : ∀ l, s.qMasses = some l → ∀ m ∈ l, isFinite m) (data : List (Fl × Fl)) (beta mmin : Fl)
    (hdata : ∀ d ∈ data, isFinite d.1)
    (hq : ∀ d ∈ data, isFinite (okVal (massRatioFactor b d.2 beta mmin d.1))) :
    (Smoothed.pQ b s data beta mmin 0).1 =
      .ok (data.map fun d => okVal (massRatioFactor b d.2 beta mmin d.1)) := by
  have hraw : data.mapM (fun d => Smoothed.pQRaw b beta mmin 0 d.1 d.2) =
      .ok (data.map fun d => okVal (massRatioFactor b d.2 beta mmin d.1)) := by
    apply mapM_ok
    intro d _
    rw [pQRaw_eq, pQVal, C21_delta_zero b hb, mul_one_fl]
  set pq := data.map fun d => okVal (massRatioFactor b d.2 beta mmin d.1) with hpq
  have hnum : pq.map nanToNum = pq := by
    rw [hpq, List.map_map]
    apply List.map_congr_left
    intro d hd
    obtain ⟨r, hr⟩ := isFinite_iff.1 (hq d hd)
    simp [Function.comp, hr]
  -- dividing by the norms of any finite list of masses of the right length
  have hdiv : ∀ (t : Smoothed), SameConfig s t → ∀ l, t.qMasses = some l → (∀ m ∈ l, isFinite m) →
      Smoothed.divideByNorm b t pq beta mmin 0 = .ok pq ∨
        (Smoothed.divideByNorm b t pq beta mmin 0 = .error .valueError ∧ l.length ≠ pq.length) := by
    intro t ht l hl hlf
    have hones : ∀ y ∈ l.map (interpLinear t.m1s (t.m1s.map (qNormAt b t beta mmin 0))), y = 1 := by
      intro y hy
      obtain ⟨m, hm, rfl⟩ := List.mem_map.1 hy
      apply interpLinear_ones (by rw [ht.m1s]; exact h2) (by simp) _ (hlf m hm)
      intro y hy
      obtain ⟨m, -, rfl⟩ := List.mem_map.1 hy
      exact qNormAt_delta_zero ..
    have hn : Smoothed.normPQ b t beta mmin 0 =
        .ok (l.map (interpLinear t.m1s (t.m1s.map (qNormAt b t beta mmin 0)))) := by
      rw [normPQ_eq, hl]
    have hdef : Smoothed.divideByNorm b t pq beta mmin 0 = Smoothed.inplaceDiv b pq
        (l.map (interpLinear t.m1s (t.m1s.map (qNormAt b t beta mmin 0)))) := by
      unfold Smoothed.divideByNorm; rw [hn]; rfl
    rw [hdef]
    by_cases hlen : pq.length = l.length
    · exact Or.inl (inplaceDiv_ones b (by simpa using hlen) hones)
    · rw [inplaceDiv_numpy b hb, if_neg (by simpa using hlen)]
      by_cases h1 : l.length = 1
      · left
        rw [if_pos (by simpa using h1)]
        obtain ⟨m, rfl⟩ := List.length_eq_one_iff.1 h1
        have := hones _ (List.mem_map.2 ⟨m, by simp, rfl⟩)
        simp only [List.map_cons, List.map_nil, List.headD_cons, this, div_one_fl, List.map_id']
      · right
        rw [if_neg (by simpa using h1)]
        exact ⟨rfl, fun h => hlen h.symm⟩
  have hlenD : (data.map Prod.fst).length = pq.length := by simp [hpq]
  have hfinD : ∀ m ∈ data.map Prod.fst, isFinite m := by
    intro m hm
    obtain ⟨d, hd, rfl⟩ := List.mem_map.1 hm
    exact hdata d hd
  have hrec : ∀ t, SameConfig s t → Smoothed.divideByNorm b (Smoothed.cacheQNorms t
      (data.map Prod.fst)) pq beta mmin 0 = .ok pq := by
    intro t ht
    rcases hdiv _ (ht.trans (sameConfig_cache _ _)) _ rfl hfinD with h | h
    · exact h
    · exact absurd hlenD h.2
  unfold Smoothed.pQ
  rw [hraw]
  simp only
  by_cases hc : s.cache = true
  · rw [if_pos hc]
    cases hqm : s.qMasses with
    | none =>
      have : Smoothed.divideByNorm b s pq beta mmin 0 = .error .attributeError := by
        unfold Smoothed.divideByNorm; rw [normPQ_eq, hqm]; rfl
      rw [this]
      simp only
      rw [if_pos (show Smoothed.caught .attributeError from trivial), hrec s (SameConfig.refl s)]
      exact congrArg Except.ok hnum
    | some l =>
      rcases hdiv s (SameConfig.refl s) l hqm (hfin l hqm) with h | ⟨h, -⟩
      · rw [h]; exact congrArg Except.ok hnum
      · rw [h]
        simp only
        rw [if_pos (show Smoothed.caught .valueError from trivial), hrec s (SameConfig.refl s)]
        exact congrArg Except.ok hnum
  · rw [if_neg hc, hrec s (SameConfig.refl s)]
    exact congrArg Except.ok hnum

/-- `p_m1` with `delta_m = 0` is the primary model. -/
theorem pM1_delta_zero (b : Backend) (hb : b ≠ .jax) (s : Smoothed) (masses : List Fl)
    (kwargs : Dict Fl) (hd : Smoothed.kwGet kwargs "delta_m" 0 = 0) :
    Smoothed.pM1 b s masses kwargs =
      masses.mapM (s.primary b (Dict.erase kwargs "delta_m")) := by
  unfold Smoothed.pM1
  rw [hd]
  have hn : Smoothed.normPM1 b s 0 (Dict.erase kwargs "delta_m") = .ok 1 := by
    unfold Smoothed.normPM1
    exact if_pos ⟨hb, by simp⟩
  have hm : masses.mapM (Smoothed.pMRaw b s (Dict.erase kwargs "delta_m")
      (Smoothed.kwGet kwargs "mmin" (fin s.mmin)) 0) =
      masses.mapM (s.primary b (Dict.erase kwargs "delta_m")) := by
    apply mapM_congr
    intro m _
    unfold Smoothed.pMRaw
    rw [C21_delta_zero b hb]
    cases s.primary b (Dict.erase kwargs "delta_m") m with
    | error e => rfl
    | ok p => exact congrArg Except.ok (mul_one_fl p)
  simp only [hn, hm]
  cases masses.mapM (s.primary b (Dict.erase kwargs "delta_m")) with
  | error e => rfl
  | ok pm =>
    show Except.ok _ = Except.ok _
    simp only [div_one_fl, List.map_id']

/-- A smoothed model with `delta_m = 0`, for any primary model. -/
theorem call_delta_zero (b : Backend) (hb : b ≠ .jax) (s : Smoothed) (h2 : 2 ≤ s.m1s.length)
    (hfin : ∀ l, s.qMasses = some l → ∀ m ∈ l, isFinite m) (data : List (Fl × Fl))
    (kwargs : Dict Fl) {beta mmin : Fl} (hbeta : Dict.get? kwargs "beta" = some beta)
    (hmmin : Smoothed.kwGet kwargs "mmin" (fin s.mmin) = mmin) (hlo : ¬ mmin < fin s.mmin)
    (hhi : ¬ fin s.mmax < Smoothed.kwGet kwargs "mmax" (fin s.mmax))
    (hd : Smoothed.kwGet kwargs "delta_m" 0 = 0)
    (hdup : ∀ k ∈ Dict.keys s.fixed, k ∉ Dict.keys kwargs)
    (hfixd : Dict.get? s.fixed "delta_m" = none)
    (hdata : ∀ d ∈ data, isFinite d.1)
    (hq : ∀ d ∈ data, isFinite (okVal (massRatioFactor b d.2 beta mmin d.1))) :
    (Smoothed.call b s data kwargs).1 =
      data.mapM (fun d => do
        let p ← s.primary b (Dict.erase (Dict.erase kwargs "beta" ++ s.fixed) "delta_m") d.1
        let k ← massRatioFactor b d.2 beta mmin d.1
        return p * k) := by
  have hkw : ∀ k dflt, k ≠ "beta" → Smoothed.kwGet (Dict.erase kwargs "beta") k dflt =
      Smoothed.kwGet kwargs k dflt := by
    intro k dflt hk
    unfold Smoothed.kwGet
    rw [Dict.get?_erase, if_neg hk]
  have hR : data.mapM (fun d => do
        let p ← s.primary b (Dict.erase (Dict.erase kwargs "beta" ++ s.fixed) "delta_m") d.1
        let k ← massRatioFactor b d.2 beta mmin d.1
        return p * k) = data.mapM (fun d => do
        let p ← s.primary b (Dict.erase (Dict.erase kwargs "beta" ++ s.fixed) "delta_m") d.1
        return p * okVal (massRatioFactor b d.2 beta mmin d.1)) := by
    apply mapM_congr
    intro d _
    obtain ⟨y, hy⟩ := massRatioFactor_total b d.2 beta mmin d.1
    rw [hy]; rfl
  rw [hR, mapM_mul]
  unfold Smoothed.call
  rw [hbeta]
  simp only
  rw [hkw _ _ (by decide), hkw _ _ (by decide), hkw _ _ (by decide), hmmin, hd,
    if_neg (fun h => hlo h.2), if_neg (fun h => hhi h.2), if_neg ?_]
  · have hd' : Smoothed.kwGet (Dict.erase kwargs "beta" ++ s.fixed) "delta_m" 0 = 0 := by
      unfold Smoothed.kwGet at hd ⊢
      rw [Dict.get?_append, hfixd, Option.or_none, Dict.get?_erase, if_neg (by decide)]
      exact hd
    rw [pM1_delta_zero b hb s _ _ hd', mapM_map]
    cases hP : data.mapM (fun d =>
        s.primary b (Dict.erase (Dict.erase kwargs "beta" ++ s.fixed) "delta_m") d.1) with
    | error e => rfl
    | ok ps =>
      have hpq := pQ_delta_zero b hb s h2 hfin data beta mmin hdata hq
      simp only
      rcases hQ : Smoothed.pQ b s data beta mmin 0 with ⟨r, s'⟩
      rw [hQ] at hpq
      simp only at hpq
      rw [hpq]
      simp only
      rw [broadcast_same]
      · rfl
      · rw [mapM_length hP]; simp
  · rintro ⟨k, hk, hk'⟩
    rw [Dict.keys_erase] at hk
    exact hdup k hk' (List.mem_filter.1 hk).1

theorem massRatioFactor_isFinite (b : Backend) {q beta mmin m : ℝ} (h0 : 0 < mmin) (hm : 0 < m)
    (hne : m ≠ mmin) (hq : 0 < q) :
    isFinite (okVal (massRatioFactor b (fin q) (fin beta) (fin mmin) (fin m))) := by
  rw [massRatioFactor_eq b h0 hm hne hq]; exact trivial

/-- The keyword arguments seen by the primary model. -/
theorem primaryKw_get? (kwargs fixed : Dict Fl) (k : String) :
    Dict.get? (Dict.erase (Dict.erase kwargs "beta" ++ fixed) "delta_m") k =
      if k = "delta_m" then none
      else (if k = "beta" then none else Dict.get? kwargs k).or (Dict.get? fixed k) := by
  rw [Dict.get?_erase, Dict.get?_append, Dict.get?_erase]

theorem primaryKw_keys (kwargs fixed : Dict Fl) {names : List String}
    (h : ∀ k ∈ Dict.keys kwargs, k = "beta" ∨ k = "delta_m" ∨ k ∈ names)
    (hf : ∀ k ∈ Dict.keys fixed, k ∈ names) :
    ¬ ∃ k ∈ Dict.keys (Dict.erase (Dict.erase kwargs "beta" ++ fixed) "delta_m"), k ∉ names := by
  rintro ⟨k, hk, hn⟩
  rw [Dict.keys_erase, Dict.keys_append, Dict.keys_erase] at hk
  obtain ⟨hk, hk1⟩ := List.mem_filter.1 hk
  rcases List.mem_append.1 hk with hk | hk
  · obtain ⟨hk, hk2⟩ := List.mem_filter.1 hk
    rcases h k hk with h | h | h
    · subst h; simp at hk2
    · subst h; simp at hk1
    · exact hn h
  · exact hn (hf k hk)

/-- Binding succeeds and delivers the given values. -/
theorem bindArgs_eq {names : List String} {defaults kwargs : Dict Fl}
    (h1 : ¬ ∃ k ∈ Dict.keys kwargs, k ∉ names)
    (h2 : ∀ n ∈ names, ∃ v, Dict.get? kwargs n = some v) :
    ∃ g, bindArgs names defaults kwargs = .ok g ∧
      ∀ n v, Dict.get? kwargs n = some v → g n = v := by
  refine ⟨_, if_neg ?_, fun n v h => by rw [h]; rfl⟩
  rintro (h | ⟨n, hn, hc, -⟩)
  · exact h1 h
  · obtain ⟨v, hv⟩ := h2 n hn
    exact hc (Dict.contains_of_get? hv)

/-- The keyword arguments of the wrapped primary model bind to the caller's values and to the
fixed ones. -/
theorem bindPrimary {names extra : List String} {defaults kwargs fixed : Dict Fl}
    (hk : ∀ k ∈ Dict.keys kwargs, k ∈ "beta" :: "delta_m" :: names)
    (hf : ∀ k ∈ Dict.keys fixed, k ∈ extra)
    (hn : "beta" ∉ names ∧ "delta_m" ∉ names ∧ "beta" ∉ extra ∧ "delta_m" ∉ extra)
    (hdisj : ∀ k ∈ extra, k ∉ names)
    (h1 : ∀ n ∈ names, ∃ v, Dict.get? kwargs n = some v)
    (h2 : ∀ n ∈ extra, ∃ v, Dict.get? fixed n = some v) :
    ∃ g, bindArgs (names ++ extra) defaults
        (Dict.erase (Dict.erase kwargs "beta" ++ fixed) "delta_m") = .ok g ∧
      (∀ n ∈ names, ∀ v, Dict.get? kwargs n = some v → g n = v) ∧
      (∀ n ∈ extra, ∀ v, Dict.get? fixed n = some v → g n = v) := by
  have e1 : ∀ n ∈ names, ∀ v, Dict.get? kwargs n = some v →
      Dict.get? (Dict.erase (Dict.erase kwargs "beta" ++ fixed) "delta_m") n = some v := by
    intro n hn' v hv
    rw [primaryKw_get?, if_neg (fun h : n = "delta_m" => hn.2.1 (h ▸ hn')),
      if_neg (fun h : n = "beta" => hn.1 (h ▸ hn')), hv]
    rfl
  have e2 : ∀ n ∈ extra, ∀ v, Dict.get? fixed n = some v →
      Dict.get? (Dict.erase (Dict.erase kwargs "beta" ++ fixed) "delta_m") n = some v := by
    intro n hn' v hv
    have h1 : n ≠ "beta" := fun h => hn.2.2.1 (h ▸ hn')
    have h2 : n ≠ "delta_m" := fun h => hn.2.2.2 (h ▸ hn')
    have h3 : Dict.get? kwargs n = none := by
      rw [Dict.get?_eq_none_iff]
      intro h
      have := hk n h
      simp only [List.mem_cons, h1, h2, false_or] at this
      exact hdisj n hn' this
    rw [primaryKw_get?, if_neg h2, if_neg h1, hv, h3]
    rfl
  obtain ⟨g, hg, hv⟩ := bindArgs_eq (defaults := defaults)
    (primaryKw_keys kwargs fixed (names := names ++ extra)
      (by
        intro k h
        have := hk k h
        simp only [List.mem_cons, List.mem_append] at this ⊢
        tauto)
      (by intro k h; exact List.mem_append_right _ (hf k h)))
    (by
      intro n hn'
      rcases List.mem_append.1 hn' with h | h
      · obtain ⟨v, hv⟩ := h1 n h; exact ⟨v, e1 n h v hv⟩
      · obtain ⟨v, hv⟩ := h2 n h; exact ⟨v, e2 n h v hv⟩)
  exact ⟨g, hg, fun n h v h' => hv n v (e1 n h v h'), fun n h v h' => hv n v (e2 n h v h')⟩

namespace Spec

/-- Datasets on which the claim is made: positive finite masses other than `mmin` and positive
mass ratios. -/
def GoodData (mmin : ℝ) (data : List (Fl × Fl)) : Prop :=
  ∀ d ∈ data, ∃ m q : ℝ, d = (fin m, fin q) ∧ 0 < m ∧ m ≠ mmin ∧ 0 < q

/-- Histories of calls whose datasets contain finite masses (the hyper-parameters are
arbitrary, the calls may have failed). -/
def FiniteHistory (hist : List (List (Fl × Fl) × Dict Fl)) : Prop :=
  ∀ c ∈ hist, ∀ d ∈ c.1, isFinite d.1

/-- `delta_m` is absent or 0. -/
def DeltaZero (kwargs : Dict Fl) : Prop :=
  Dict.get? kwargs "delta_m" = none ∨ Dict.get? kwargs "delta_m" = some (fin 0)

end Spec

theorem init_ok (primary : Primary) (fixed : Dict Fl) (mmin mmax : ℝ) {nM nQ : ℕ} (cache : Bool)
    (hM : 2 ≤ nM) (hQ : 2 ≤ nQ) : Smoothed.init primary fixed mmin mmax nM nQ cache =
      .ok ⟨primary, fixed, mmin, mmax, Arr.linspaceR mmin mmax nM,
        Arr.linspaceR 0.001 1 nQ, cache, none⟩ :=
  if_neg (by omega)

theorem init_inv {primary : Primary} {fixed : Dict Fl} {mmin mmax : ℝ} {nM nQ : ℕ} {cache : Bool}
    {s : Smoothed} (h : Smoothed.init primary fixed mmin mmax nM nQ cache = .ok s) :
    2 ≤ nM ∧ 2 ≤ nQ ∧ s = ⟨primary, fixed, mmin, mmax, Arr.linspaceR mmin mmax nM,
      Arr.linspaceR 0.001 1 nQ, cache, none⟩ := by
  unfold Smoothed.init at h
  by_cases hc : nM < 2 ∨ nQ < 2
  · rw [if_pos hc] at h; cases h
  · rw [if_neg hc] at h
    cases h
    exact ⟨by omega, by omega, rfl⟩

/-- Common part of the four C22 theorems. -/
theorem c22_aux (b : Backend) (hb : b ≠ .jax) {primary : Primary} {fixed : Dict Fl}
    {selfMin selfMax : ℝ} {nM nQ : ℕ} {cache : Bool} {s : Smoothed}
    (hs : Smoothed.init primary fixed selfMin selfMax nM nQ cache = .ok s)
    {hist : List (List (Fl × Fl) × Dict Fl)} (hhist : FiniteHistory hist)
    {kwargs : Dict Fl} {beta mmin mmax : ℝ} (hbeta : Dict.get? kwargs "beta" = some (fin beta))
    (hmin : Dict.get? kwargs "mmin" = some (fin mmin))
    (hmax : Dict.get? kwargs "mmax" = some (fin mmax)) (h0 : 0 < mmin) (hlo : selfMin ≤ mmin)
    (hhi : mmax ≤ selfMax) (hd : DeltaZero kwargs)
    (hdup : ∀ k ∈ Dict.keys fixed, k ∉ Dict.keys kwargs)
    (hfixd : Dict.get? fixed "delta_m" = none)
    {data : List (Fl × Fl)} (hdata : GoodData mmin data) :
    (Smoothed.call b (Smoothed.runCalls b s hist) data kwargs).1 =
      data.mapM (fun d => do
        let p ← primary b (Dict.erase (Dict.erase kwargs "beta" ++ fixed) "delta_m") d.1
        let k ← massRatioFactor b d.2 (fin beta) (fin mmin) d.1
        return p * k) := by
  obtain ⟨hM, hQ, hs⟩ := init_inv hs
  obtain ⟨hcfg, hq⟩ := runCalls_state b s hist
  have e1 : (Smoothed.runCalls b s hist).primary = primary := by rw [hcfg.primary, hs]
  have e2 : (Smoothed.runCalls b s hist).fixed = fixed := by rw [hcfg.fixed, hs]
  have e3 : (Smoothed.runCalls b s hist).mmin = selfMin := by rw [hcfg.mmin, hs]
  have e4 : (Smoothed.runCalls b s hist).mmax = selfMax := by rw [hcfg.mmax, hs]
  have e5 : (Smoothed.runCalls b s hist).m1s = Arr.linspaceR selfMin selfMax nM := by
    rw [hcfg.m1s, hs]
  have key := call_delta_zero b hb (Smoothed.runCalls b s hist)
    (by rw [e5]; simpa [Arr.linspaceR] using hM)
    (by
      intro l hl m hm
      rcases hq with h | ⟨c, hc, h⟩
      · rw [h, hs] at hl; cases hl
      · rw [h] at hl; cases hl
        obtain ⟨d, hd, rfl⟩ := List.mem_map.1 hm
        exact hhist c hc d hd)
    data kwargs hbeta (mmin := fin mmin) (by unfold Smoothed.kwGet; rw [hmin]; rfl)
    (by rw [e3]; simpa using hlo) (by unfold Smoothed.kwGet; rw [hmax, e4]; simpa using hhi)
    (by unfold Smoothed.kwGet; rcases hd with h | h <;> rw [h] <;> rfl)
    (by rw [e2]; exact hdup) (by rw [e2]; exact hfixd)
    (by
      intro d hd
      obtain ⟨m, q, rfl, -⟩ := hdata d hd
      exact trivial)
    (by
      intro d hd
      obtain ⟨m, q, rfl, hm, hne, hq⟩ := hdata d hd
      exact massRatioFactor_isFinite b h0 hm hne hq)
  rw [key, e1, e2]

/-- **C22, single peak.** For `delta_m` absent or 0, on numpy/cupy, after any history of calls
with finite masses, a call with accepted hyper-parameters returns (or raises) exactly what
`two_component_primary_mass_ratio` with `gaussian_mass_maximum = self.mmax` does. The
hyper-parameters of the primary mass other than `mmin`, `mmax` are arbitrary floats. -/
theorem C22_singlePeak (b : Backend) (hb : b ≠ .jax) (py : Bool) {selfMin selfMax : ℝ}
    {nM nQ : ℕ} {cache : Bool} {s : Smoothed}
    (hs : singlePeak py selfMin selfMax nM nQ cache = .ok s)
    {hist : List (List (Fl × Fl) × Dict Fl)} (hhist : FiniteHistory hist)
    {kwargs : Dict Fl} {alpha lam mpp sigpp : Fl} {beta mmin mmax : ℝ}
    (hkeys : ∀ k ∈ Dict.keys kwargs, k ∈ ["beta", "delta_m", "alpha", "mmin", "mmax", "lam", "mpp", "sigpp"])
    (hbeta : Dict.get? kwargs "beta" = some (fin beta))
    (h_alpha : Dict.get? kwargs "alpha" = some alpha)
    (h_mmin : Dict.get? kwargs "mmin" = some (fin mmin))
    (h_mmax : Dict.get? kwargs "mmax" = some (fin mmax))
    (h_lam : Dict.get? kwargs "lam" = some lam)
    (h_mpp : Dict.get? kwargs "mpp" = some mpp)
    (h_sigpp : Dict.get? kwargs "sigpp" = some sigpp)
    (hd : DeltaZero kwargs) (h0 : 0 < mmin) (hlo : selfMin ≤ mmin) (hhi : mmax ≤ selfMax)
    {data : List (Fl × Fl)} (hdata : GoodData mmin data) :
    (Smoothed.call b (Smoothed.runCalls b s hist) data kwargs).1 =
      data.mapM (fun d => twoComponentPrimaryMassRatio b py d.1 d.2 alpha (fin beta) (fin mmin)
        (fin mmax) lam mpp sigpp (fin selfMax)) := by
  rw [c22_aux b hb hs hhist hbeta h_mmin h_mmax h0 hlo hhi hd
    (by
      intro k hk hk'
      simp only [Dict.keys, List.map_cons, List.map_nil, List.mem_singleton] at hk
      subst hk
      exact absurd (hkeys _ hk') (by decide))
    (by simp [Dict.get?_cons]) hdata]
  apply mapM_congr
  intro d _
  obtain ⟨g, hg, v1, v2⟩ := bindPrimary
    (names := ["alpha", "mmin", "mmax", "lam", "mpp", "sigpp"])
    (extra := ["gaussian_mass_maximum"]) (defaults := [("gaussian_mass_maximum", fin 100)])
    (fixed := [("gaussian_mass_maximum", fin selfMax)]) hkeys (by simp [Dict.keys]) (by decide)
    (by decide) (by simp [h_alpha, h_mmin, h_mmax, h_lam, h_mpp, h_sigpp])
    (by simp [Dict.get?_cons])
  simp only [List.cons_append, List.nil_append, List.append_nil] at hg
  have e : primTwoComponent py b
      (Dict.erase (Dict.erase kwargs "beta" ++ [("gaussian_mass_maximum", fin selfMax)]) "delta_m") d.1 =
        twoComponentSingle b py d.1 alpha (fin mmin) (fin mmax) lam mpp sigpp (fin selfMax) := by
    simp only [primTwoComponent, List.append_nil, hg]
    show twoComponentSingle b py d.1 (g "alpha") (g "mmin") (g "mmax") (g "lam") (g "mpp") (g "sigpp") (g "gaussian_mass_maximum") = _
    rw [v1 _ (by decide) _ h_alpha,
      v1 _ (by decide) _ h_mmin,
      v1 _ (by decide) _ h_mmax,
      v1 _ (by decide) _ h_lam,
      v1 _ (by decide) _ h_mpp,
      v1 _ (by decide) _ h_sigpp,
      v2 "gaussian_mass_maximum" (by decide) (fin selfMax) (by simp [Dict.get?_cons])]
  rw [e]
  rfl

/-- **C22, multiple peaks.** As above, with `three_component_single` times the mass-ratio power
law. -/
theorem C22_multiPeak (b : Backend) (hb : b ≠ .jax) (py : Bool) {selfMin selfMax : ℝ}
    {nM nQ : ℕ} {cache : Bool} {s : Smoothed}
    (hs : multiPeak py selfMin selfMax nM nQ cache = .ok s)
    {hist : List (List (Fl × Fl) × Dict Fl)} (hhist : FiniteHistory hist)
    {kwargs : Dict Fl} {alpha lam lam1 mpp1 sigpp1 mpp2 sigpp2 : Fl} {beta mmin mmax : ℝ}
    (hkeys : ∀ k ∈ Dict.keys kwargs, k ∈ ["beta", "delta_m", "alpha", "mmin", "mmax", "lam", "lam_1", "mpp_1", "sigpp_1", "mpp_2", "sigpp_2"])
    (hbeta : Dict.get? kwargs "beta" = some (fin beta))
    (h_alpha : Dict.get? kwargs "alpha" = some alpha)
    (h_mmin : Dict.get? kwargs "mmin" = some (fin mmin))
    (h_mmax : Dict.get? kwargs "mmax" = some (fin mmax))
    (h_lam : Dict.get? kwargs "lam" = some lam)
    (h_lam_1 : Dict.get? kwargs "lam_1" = some lam1)
    (h_mpp_1 : Dict.get? kwargs "mpp_1" = some mpp1)
    (h_sigpp_1 : Dict.get? kwargs "sigpp_1" = some sigpp1)
    (h_mpp_2 : Dict.get? kwargs "mpp_2" = some mpp2)
    (h_sigpp_2 : Dict.get? kwargs "sigpp_2" = some sigpp2)
    (hd : DeltaZero kwargs) (h0 : 0 < mmin) (hlo : selfMin ≤ mmin) (hhi : mmax ≤ selfMax)
    {data : List (Fl × Fl)} (hdata : GoodData mmin data) :
    (Smoothed.call b (Smoothed.runCalls b s hist) data kwargs).1 =
      data.mapM (fun d => do
        let p ← threeComponentSingle b py d.1 alpha (fin mmin) (fin mmax) lam lam1 mpp1 sigpp1 mpp2 sigpp2 (fin selfMax)
        let k ← massRatioFactor b d.2 (fin beta) (fin mmin) d.1
        return p * k) := by
  rw [c22_aux b hb hs hhist hbeta h_mmin h_mmax h0 hlo hhi hd
    (by
      intro k hk hk'
      simp only [Dict.keys, List.map_cons, List.map_nil, List.mem_singleton] at hk
      subst hk
      exact absurd (hkeys _ hk') (by decide))
    (by simp [Dict.get?_cons]) hdata]
  apply mapM_congr
  intro d _
  obtain ⟨g, hg, v1, v2⟩ := bindPrimary
    (names := ["alpha", "mmin", "mmax", "lam", "lam_1", "mpp_1", "sigpp_1", "mpp_2", "sigpp_2"])
    (extra := ["gaussian_mass_maximum"]) (defaults := [("gaussian_mass_maximum", fin 100)])
    (fixed := [("gaussian_mass_maximum", fin selfMax)]) hkeys (by simp [Dict.keys]) (by decide)
    (by decide) (by simp [h_alpha, h_mmin, h_mmax, h_lam, h_lam_1, h_mpp_1, h_sigpp_1, h_mpp_2, h_sigpp_2])
    (by simp [Dict.get?_cons])
  simp only [List.cons_append, List.nil_append, List.append_nil] at hg
  have e : primThreeComponent py b
      (Dict.erase (Dict.erase kwargs "beta" ++ [("gaussian_mass_maximum", fin selfMax)]) "delta_m") d.1 =
        threeComponentSingle b py d.1 alpha (fin mmin) (fin mmax) lam lam1 mpp1 sigpp1 mpp2 sigpp2 (fin selfMax) := by
    simp only [primThreeComponent, List.append_nil, hg]
    show threeComponentSingle b py d.1 (g "alpha") (g "mmin") (g "mmax") (g "lam") (g "lam_1") (g "mpp_1") (g "sigpp_1") (g "mpp_2") (g "sigpp_2") (g "gaussian_mass_maximum") = _
    rw [v1 _ (by decide) _ h_alpha,
      v1 _ (by decide) _ h_mmin,
      v1 _ (by decide) _ h_mmax,
      v1 _ (by decide) _ h_lam,
      v1 _ (by decide) _ h_lam_1,
      v1 _ (by decide) _ h_mpp_1,
      v1 _ (by decide) _ h_sigpp_1,
      v1 _ (by decide) _ h_mpp_2,
      v1 _ (by decide) _ h_sigpp_2,
      v2 "gaussian_mass_maximum" (by decide) (fin selfMax) (by simp [Dict.get?_cons])]
  rw [e]

/-- **C22, broken power law.** As above, with `double_power_law_primary_power_law_mass_ratio`. -/
theorem C22_brokenPowerLaw (b : Backend) (hb : b ≠ .jax) (py : Bool) {selfMin selfMax : ℝ}
    {nM nQ : ℕ} {cache : Bool} {s : Smoothed}
    (hs : brokenPowerLaw py selfMin selfMax nM nQ cache = .ok s)
    {hist : List (List (Fl × Fl) × Dict Fl)} (hhist : FiniteHistory hist)
    {kwargs : Dict Fl} {alpha1 alpha2 bf : Fl} {beta mmin mmax : ℝ}
    (hkeys : ∀ k ∈ Dict.keys kwargs, k ∈ ["beta", "delta_m", "alpha_1", "alpha_2", "mmin", "mmax", "break_fraction"])
    (hbeta : Dict.get? kwargs "beta" = some (fin beta))
    (h_alpha_1 : Dict.get? kwargs "alpha_1" = some alpha1)
    (h_alpha_2 : Dict.get? kwargs "alpha_2" = some alpha2)
    (h_mmin : Dict.get? kwargs "mmin" = some (fin mmin))
    (h_mmax : Dict.get? kwargs "mmax" = some (fin mmax))
    (h_break_fraction : Dict.get? kwargs "break_fraction" = some bf)
    (hd : DeltaZero kwargs) (h0 : 0 < mmin) (hlo : selfMin ≤ mmin) (hhi : mmax ≤ selfMax)
    {data : List (Fl × Fl)} (hdata : GoodData mmin data) :
    (Smoothed.call b (Smoothed.runCalls b s hist) data kwargs).1 =
      data.mapM (fun d => doublePowerLawPrimaryPowerLawMassRatio b py d.1 d.2 alpha1 alpha2
        (fin beta) (fin mmin) (fin mmax) bf) := by
  rw [c22_aux b hb hs hhist hbeta h_mmin h_mmax h0 hlo hhi hd
    (by simp [Dict.keys])
    (by simp [Dict.get?_cons]) hdata]
  apply mapM_congr
  intro d _
  obtain ⟨g, hg, v1, v2⟩ := bindPrimary
    (names := ["alpha_1", "alpha_2", "mmin", "mmax", "break_fraction"])
    (extra := []) (defaults := [])
    (fixed := []) hkeys (by simp [Dict.keys]) (by decide)
    (by decide) (by simp [h_alpha_1, h_alpha_2, h_mmin, h_mmax, h_break_fraction])
    (by simp [Dict.get?_cons])
  simp only [List.cons_append, List.nil_append, List.append_nil] at hg
  have e : primDoublePowerLaw py b
      (Dict.erase (Dict.erase kwargs "beta" ++ []) "delta_m") d.1 =
        doublePowerLawPrimaryMass b py d.1 alpha1 alpha2 (fin mmin) (fin mmax) bf := by
    simp only [primDoublePowerLaw, List.append_nil, hg]
    show doublePowerLawPrimaryMass b py d.1 (g "alpha_1") (g "alpha_2") (g "mmin") (g "mmax") (g "break_fraction") = _
    rw [v1 _ (by decide) _ h_alpha_1,
      v1 _ (by decide) _ h_alpha_2,
      v1 _ (by decide) _ h_mmin,
      v1 _ (by decide) _ h_mmax,
      v1 _ (by decide) _ h_break_fraction]
  rw [e]
  rfl

/-- **C22, broken power law and peak.** As above, with `double_power_law_peak_primary_mass` times
the mass-ratio power law. -/
theorem C22_brokenPowerLawPeak (b : Backend) (hb : b ≠ .jax) (py : Bool) {selfMin selfMax : ℝ}
    {nM nQ : ℕ} {cache : Bool} {s : Smoothed}
    (hs : brokenPowerLawPeak py selfMin selfMax nM nQ cache = .ok s)
    {hist : List (List (Fl × Fl) × Dict Fl)} (hhist : FiniteHistory hist)
    {kwargs : Dict Fl} {alpha1 alpha2 bf lam mpp sigpp : Fl} {beta mmin mmax : ℝ}
    (hkeys : ∀ k ∈ Dict.keys kwargs, k ∈ ["beta", "delta_m", "alpha_1", "alpha_2", "mmin", "mmax", "break_fraction", "lam", "mpp", "sigpp"])
    (hbeta : Dict.get? kwargs "beta" = some (fin beta))
    (h_alpha_1 : Dict.get? kwargs "alpha_1" = some alpha1)
    (h_alpha_2 : Dict.get? kwargs "alpha_2" = some alpha2)
    (h_mmin : Dict.get? kwargs "mmin" = some (fin mmin))
    (h_mmax : Dict.get? kwargs "mmax" = some (fin mmax))
    (h_break_fraction : Dict.get? kwargs "break_fraction" = some bf)
    (h_lam : Dict.get? kwargs "lam" = some lam)
    (h_mpp : Dict.get? kwargs "mpp" = some mpp)
    (h_sigpp : Dict.get? kwargs "sigpp" = some sigpp)
    (hd : DeltaZero kwargs) (h0 : 0 < mmin) (hlo : selfMin ≤ mmin) (hhi : mmax ≤ selfMax)
    {data : List (Fl × Fl)} (hdata : GoodData mmin data) :
    (Smoothed.call b (Smoothed.runCalls b s hist) data kwargs).1 =
      data.mapM (fun d => do
        let p ← doublePowerLawPeakPrimaryMass b py d.1 alpha1 alpha2 (fin mmin) (fin mmax) bf lam mpp sigpp (fin selfMax)
        let k ← massRatioFactor b d.2 (fin beta) (fin mmin) d.1
        return p * k) := by
  rw [c22_aux b hb hs hhist hbeta h_mmin h_mmax h0 hlo hhi hd
    (by
      intro k hk hk'
      simp only [Dict.keys, List.map_cons, List.map_nil, List.mem_singleton] at hk
      subst hk
      exact absurd (hkeys _ hk') (by decide))
    (by simp [Dict.get?_cons]) hdata]
  apply mapM_congr
  intro d _
  obtain ⟨g, hg, v1, v2⟩ := bindPrimary
    (names := ["alpha_1", "alpha_2", "mmin", "mmax", "break_fraction", "lam", "mpp", "sigpp"])
    (extra := ["gaussian_mass_maximum"]) (defaults := [("gaussian_mass_maximum", fin 100)])
    (fixed := [("gaussian_mass_maximum", fin selfMax)]) hkeys (by simp [Dict.keys]) (by decide)
    (by decide) (by simp [h_alpha_1, h_alpha_2, h_mmin, h_mmax, h_break_fraction, h_lam, h_mpp, h_sigpp])
    (by simp [Dict.get?_cons])
  simp only [List.cons_append, List.nil_append, List.append_nil] at hg
  have e : primDoublePowerLawPeak py b
      (Dict.erase (Dict.erase kwargs "beta" ++ [("gaussian_mass_maximum", fin selfMax)]) "delta_m") d.1 =
        doublePowerLawPeakPrimaryMass b py d.1 alpha1 alpha2 (fin mmin) (fin mmax) bf lam mpp sigpp (fin selfMax) := by
    simp only [primDoublePowerLawPeak, List.append_nil, hg]
    show doublePowerLawPeakPrimaryMass b py d.1 (g "alpha_1") (g "alpha_2") (g "mmin") (g "mmax") (g "break_fraction") (g "lam") (g "mpp") (g "sigpp") (g "gaussian_mass_maximum") = _
    rw [v1 _ (by decide) _ h_alpha_1,
      v1 _ (by decide) _ h_alpha_2,
      v1 _ (by decide) _ h_mmin,
      v1 _ (by decide) _ h_mmax,
      v1 _ (by decide) _ h_break_fraction,
      v1 _ (by decide) _ h_lam,
      v1 _ (by decide) _ h_mpp,
      v1 _ (by decide) _ h_sigpp,
      v2 "gaussian_mass_maximum" (by decide) (fin selfMax) (by simp [Dict.get?_cons])]
  rw [e]

/-- The hypotheses of the C22 theorems are met: a cached instance that has already seen another
dataset and another hyper-parameter value with smoothing. -/
example : ∃ s, singlePeak false 2 100 1000 500 true = .ok s ∧
    FiniteHistory [([(fin 30, fin 0.5)], [("beta", fin 2), ("delta_m", fin 5)])] ∧
    GoodData 5 [(fin 10, fin 0.9), (fin 4, fin 0.2)] ∧
    DeltaZero [("beta", fin 1), ("delta_m", fin 0), ("alpha", fin 2), ("mmin", fin 5),
      ("mmax", fin 80), ("lam", fin 0.1), ("mpp", fin 35), ("sigpp", fin 3)] := by
  refine ⟨_, init_ok _ _ _ _ _ (by norm_num) (by norm_num), ?_, ?_, Or.inr (by simp [Dict.get?_cons])⟩
  · intro c hc d hd
    simp only [List.mem_singleton] at hc
    subst hc
    simp only [List.mem_singleton] at hd
    subst hd
    exact trivial
  · intro d hd
    simp only [List.mem_cons, List.not_mem_nil, or_false] at hd
    rcases hd with rfl | rfl
    · exact ⟨_, _, rfl, by norm_num, by norm_num, by norm_num⟩
    · exact ⟨_, _, rfl, by norm_num, by norm_num, by norm_num⟩

end GW
