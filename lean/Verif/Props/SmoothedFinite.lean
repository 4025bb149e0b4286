import Verif.Props.ContinuitySmoothed

/-!
# C109: the smoothed mass models return a finite density with the documented support, on any grid
-/

noncomputable section

open Classical Set Filter Topology MeasureTheory

namespace GW

open Fl Spec

/-- After any history of calls that leaves the cache usable for the data (`cache=False`, or only calls with the same
primary masses), a call on an array of binaries returns one real number for each. For positive mass ratios, and
except at `mass_1 = mmin`, the number is never negative, and it is positive exactly at the binaries with
`mmin < mass_1 <= top`, `mass_1 * mass_ratio >= mmin` and `mass_ratio <= 1`. -/
def Spec.FiniteDensity (b : Backend) (s : Smoothed) (kwargs : Dict Fl) (mmin top : ℝ) : Prop :=
  ∃ v : ℝ → ℝ → ℝ,
    (∀ (hist : List (List (Fl × Fl) × Dict Fl)) (data : List (ℝ × ℝ)),
      (∀ e ∈ data, 0 < e.1) →
      (s.cache = false ∨ ∀ c ∈ hist, c.1.map Prod.fst = data.map fun e => fin e.1) →
      (Smoothed.call b (Smoothed.runCalls b s hist) (data.map fun e => (fin e.1, fin e.2)) kwargs).1 =
        .ok (data.map fun e => fin (v e.1 e.2))) ∧
    ∀ m q, 0 < m → m ≠ mmin → 0 < q →
      0 ≤ v m q ∧ (0 < v m q ↔ mmin < m ∧ m ≤ top ∧ mmin ≤ m * q ∧ q ≤ 1)

/-! ### The mass-ratio norm at grid masses up to `mmin` -/

theorem trapz_nan_head (y1 : Fl) (ys : List Fl) (x0 x1 : Fl) (xs : List Fl) :
    Arr.trapz (nan :: y1 :: ys) (x0 :: x1 :: xs) = nan := by
  simp only [Arr.trapz]
  cases y1 <;> cases h : (x1 - x0) <;> simp

/-- At the lower edge the mass-ratio power law is not a number for mass ratios below 1. -/
theorem massRatioFactor_edge (b : Backend) {beta lo q : ℝ} (h0 : 0 < lo) (hq : 0 < q) (hq1 : q < 1) :
    massRatioFactor b (fin q) (fin beta) (fin lo) (fin lo) = .ok nan := by
  unfold massRatioFactor
  rw [powerlaw_eq, if_neg (by simp), fin_div h0.ne', div_self h0.ne']
  have e1 : pyDiv false (fin 1) (fin 1) = .ok (fin 1) := by
    simp only [pyDiv]; rw [fin_div one_ne_zero, div_one]; simp
  have e2 : pyPow false (fin 1) (fin 1 + fin beta) = .ok (fin 1) := by
    rw [fin_add]; simp [pyPow, pow_fin_pos one_pos]
  show powerlawBody false (fin q) (fin beta) 1 (fin 1) = .ok nan
  simp only [powerlawBody, one_eq, e1, e2, ok_bind, pure_eq_ok]
  rw [pow_fin_pos hq, ind_false (fun h => absurd h.2 (not_le.2 (by simpa using hq1)))]
  have hp := Real.rpow_pos_of_pos hq beta
  by_cases hb : beta = -1
  · subst hb
    rw [if_pos (by simp), log_fin one_pos, Real.log_one]
    have : fin 1 / fin 0 = pinf := by simp
    rw [this]
    simp [signInf, hp]
  · rw [if_neg (by simpa using hb), fin_add, fin_sub, sub_self]
    have h1 : 1 + beta ≠ 0 := fun h => hb (by linarith)
    rcases lt_or_gt_of_ne h1 with h | h
    · have : fin (1 + beta) / fin 0 = ninf := by simp [signInf, h, h.le]
      rw [this]
      simp [signInf, hp]
    · have : fin (1 + beta) / fin 0 = pinf := by simp [signInf, h]
      rw [this]
      simp [signInf, hp]

theorem trapzR_zeros (ys xs : List ℝ) (h : ∀ y ∈ ys, y = 0) : Arr.trapzR ys xs = 0 := by
  induction ys generalizing xs with
  | nil => simp [Arr.trapzR]
  | cons y0 ys ih =>
    cases ys with
    | nil => simp [Arr.trapzR]
    | cons y1 ys =>
      rcases xs with _ | ⟨x0, _ | ⟨x1, xs⟩⟩
      · simp [Arr.trapzR]
      · simp [Arr.trapzR]
      · simp only [Arr.trapzR]
        rw [ih _ fun y hy => h y (List.mem_cons_of_mem _ hy), h y0 (by simp), h y1 (by simp)]
        simp

/-- The norm is 0 at the grid masses up to `mmin`. -/
theorem qNormAt_low (b : Backend) {s : Smoothed} {n : ℕ} (hn : 2 ≤ n) (hs : s.qs = Arr.linspaceR 0.001 1 n)
    {beta lo d m : ℝ} (hd : 0 < d) (hm0 : 0 < m) (hm : m ≤ lo) :
    qNormAt b s (fin beta) (fin lo) (fin d) m = fin 0 := by
  have h0 : 0 < lo := hm0.trans_le hm
  have hd' : ¬ eqf (fin d) 0 := by simp [hd.ne']
  have key : nanToNum (Arr.trapz (s.qs.map fun q => pQVal b (fin beta) (fin lo) (fin d) (fin m) (fin q)) (s.qs.map fin))
      = fin 0 := by
    rcases hm.lt_or_eq with hlt | rfl
    · have e : (s.qs.map fun q => pQVal b (fin beta) (fin lo) (fin d) (fin m) (fin q)) =
          (s.qs.map fun _ => (0 : ℝ)).map fin := by
        rw [List.map_map]
        apply List.map_congr_left
        intro q hq
        rw [hs] at hq
        have hq0 : 0 < q := by have := (linspaceR_mem (by norm_num) hn hq).1; norm_num at this; linarith
        unfold pQVal
        rw [massRatioFactor_eq b h0 hm0 hlt.ne hq0, fin_mul, smoothing_fin b _ lo m hd]
        have : normalised (fun t => t ^ beta) (lo / m) 1 q = 0 := by
          simp only [normalised]
          rw [if_neg]
          rintro ⟨h1, h2⟩
          have : 1 < lo / m := (one_lt_div hm0).2 hlt
          linarith
        simp only [okVal, this, fin_mul, zero_mul, Function.comp_apply]
      rw [e, Arr.trapz_fin, nanToNum_fin, trapzR_zeros _ _ (by simp)]
    · obtain ⟨a, l, hl⟩ : ∃ a l, s.qs = a :: l := by
        rw [hs]
        rcases hx : Arr.linspaceR 0.001 1 n with _ | ⟨a, l⟩
        · have := linspaceR_length 0.001 1 n
          rw [hx] at this; simp at this; omega
        · exact ⟨a, l, rfl⟩
      obtain ⟨a', l', hl'⟩ : ∃ a' l', l = a' :: l' := by
        rcases l with _ | ⟨a', l'⟩
        · have := linspaceR_length 0.001 1 n
          rw [← hs, hl] at this; simp at this; omega
        · exact ⟨a', l', rfl⟩
      subst hl'
      have hsorted := linspaceR_sorted (show (0.001 : ℝ) < 1 by norm_num) hn
      rw [← hs, hl] at hsorted
      have ha : 0 < a ∧ a < 1 := by
        have h1 := linspaceR_mem (show (0.001 : ℝ) ≤ 1 by norm_num) hn (x := a) (by rw [← hs, hl]; simp)
        have h2 := linspaceR_mem (show (0.001 : ℝ) ≤ 1 by norm_num) hn (x := a') (by rw [← hs, hl]; simp)
        have h3 : a < a' := List.rel_of_pairwise_cons hsorted (List.mem_cons_self ..)
        have := h1.1
        norm_num at this
        exact ⟨by linarith, by linarith [h2.2]⟩
      have e : pQVal b (fin beta) (fin m) (fin d) (fin m) (fin a) = nan := by
        unfold pQVal
        rw [massRatioFactor_edge b hm0 ha.1 ha.2]
        simp only [okVal]
        cases smoothing b (fin m * fin a) (fin m) (fin m) (fin d) <;> rfl
      rw [hl, List.map_cons, e, List.map_cons, List.map_cons, List.map_cons, trapz_nan_head]
      rfl
  unfold qNormAt
  rw [key, ind_true hd', ind_false hd']
  simp

/-! ### Calls -/

/-- As `interpLinear_cell`, with the weights. -/
theorem interpLinear_weight {a b : ℝ} (hab : a < b) {n : ℕ} (hn : 2 ≤ n) {m : ℝ} (hm : m ∈ Icc a b) :
    ∃ x0 ∈ Arr.linspaceR a b n, ∃ x1 ∈ Arr.linspaceR a b n, ∃ t : ℝ, 0 ≤ t ∧ t ≤ 1 ∧
      x0 ≤ m ∧ m ≤ x1 ∧ x0 < x1 ∧ t = (m - x0) / (x1 - x0) ∧ ∀ f : ℝ → Fl,
      interpLinear (Arr.linspaceR a b n) ((Arr.linspaceR a b n).map f) (fin m) =
        f x0 + fin t * (f x1 - f x0) := by
  have h1 : (0 : ℝ) < (n : ℝ) - 1 := by
    have : (2 : ℝ) ≤ n := by exact_mod_cast hn
    linarith
  set xs := Arr.linspaceR a b n with hxs
  have hlen : xs.length = n := linspaceR_length a b n
  have hs : xs.Pairwise (· < ·) := linspaceR_sorted hab hn
  set k := (xs.filter (fun x => x ≤ m)).length with hk
  set i := min (k - 1) (xs.length - 2) with hi
  have hi0 : i < xs.length := by omega
  have hi1 : i + 1 < xs.length := by omega
  have hkle : k ≤ xs.length := List.length_filter_le _ _
  have hk1 : 1 ≤ k := by
    have := (filter_le_count hs m (j := 0) (by omega)).1 (by
      rw [linspaceR_getElem]; simpa using hm.1)
    omega
  have hdx : xs[i + 1] - xs[i] = (b - a) / ((n : ℝ) - 1) := by
    simp only [hxs]
    rw [linspaceR_getElem, linspaceR_getElem]
    push_cast
    ring
  have hlo : xs[i] ≤ m := (filter_le_count hs m hi0).2 (by omega)
  have hhi : m ≤ xs[i + 1] := by
    by_cases hc : k - 1 ≤ xs.length - 2
    · have : ¬ xs[i + 1] ≤ m := by rw [filter_le_count hs m hi1]; omega
      linarith
    · have e : i + 1 = n - 1 := by omega
      have : xs[i + 1] = b := by
        simp only [hxs]
        rw [linspaceR_getElem, e, Nat.cast_sub (by omega), Nat.cast_one, mul_div_assoc,
          div_self h1.ne']
        ring
      rw [this]; exact hm.2
  have hpos : 0 < xs[i + 1] - xs[i] := by
    rw [hdx]; exact div_pos (by linarith) h1
  refine ⟨xs[i], List.getElem_mem hi0, xs[i + 1], List.getElem_mem hi1,
    (m - xs[i]) / (xs[i + 1] - xs[i]), div_nonneg (by linarith) hpos.le,
    (div_le_one hpos).2 (by linarith), hlo, hhi, by linarith, rfl, fun f => ?_⟩
  have hget : ∀ j (hj : j < xs.length), xs.getD j 0 = xs[j] := fun j hj =>
    List.getD_eq_getElem (l := xs) (d := 0) hj
  have hgetY : ∀ j (hj : j < xs.length), (xs.map f).getD j nan = f xs[j] := fun j hj => by
    rw [List.getD_eq_getElem (l := xs.map f) (d := nan) (by simpa using hj)]
    simp
  simp only [interpLinear]
  rw [← hk, ← hi, hget i hi0, hget (i + 1) hi1, hgetY i hi0, hgetY (i + 1) hi1]

/-- The interpolated norm above `mmin`. -/
theorem interp_norm_pos (b : Backend) {s : Smoothed} {nM nQ : ℕ} (hM : 2 ≤ nM) (hQ : 2 ≤ nQ)
    (hgrid : s.m1s = Arr.linspaceR s.mmin s.mmax nM) (hqs : s.qs = Arr.linspaceR 0.001 1 nQ)
    (hself : 0 < s.mmin) (hlt : s.mmin < s.mmax) {beta lo d m : ℝ} (hd : 0 < d) (h0 : 0 < lo) (hlo : s.mmin ≤ lo)
    (hm : lo < m) (hm1 : m ≤ s.mmax) :
    ∃ y : ℝ, 0 < y ∧
      interpLinear s.m1s (s.m1s.map (qNormAt b s (fin beta) (fin lo) (fin d))) (fin m) = fin y := by
  obtain ⟨x0, hx0, x1, hx1, t, ht0, ht1, hl, hu, hdx, ht, hval⟩ :=
    interpLinear_weight hlt hM (m := m) ⟨by linarith, hm1⟩
  have h1 := qNormAt_eq_gridNorm b hQ hqs (beta := beta) hd h0 (hm.trans_le hu)
  have p1 := gridNorm_pos beta d h0 (hm.trans_le hu) hQ
  have hx00 : 0 < x0 := hself.trans_le (linspaceR_mem hlt.le hM hx0).1
  rw [hgrid, hval, h1]
  rcases le_or_gt x0 lo with hx | hx
  · rw [qNormAt_low b hQ hqs hd hx00 hx, fin_sub, fin_mul, fin_add, zero_add, sub_zero]
    have : 0 < t := by rw [ht]; exact div_pos (by linarith) (by linarith)
    exact ⟨_, mul_pos this p1, rfl⟩
  · rw [qNormAt_eq_gridNorm b hQ hqs hd h0 hx, fin_sub, fin_mul, fin_add]
    have := mix_pos ht0 ht1 (gridNorm_pos beta d h0 hx hQ) p1
    exact ⟨_, by linarith, rfl⟩

/-- Calls of any smoothed model with a finite, non-negative primary density `f` that is positive at some grid mass
above `mmin`. -/
theorem call_finite (b : Backend) (primary : Primary) (fixed : Dict Fl) (cache : Bool)
    {selfMin selfMax : ℝ} {nM nQ : ℕ} {s : Smoothed}
    (hs : Smoothed.init primary fixed selfMin selfMax nM nQ cache = .ok s) {kwargs : Dict Fl} {beta d lo hi top : ℝ}
    (hbeta : Dict.get? kwargs "beta" = some (fin beta))
    (hmin : Dict.get? kwargs "mmin" = some (fin lo))
    (hmax : Dict.get? kwargs "mmax" = some (fin hi))
    (hdm : Dict.get? kwargs "delta_m" = some (fin d))
    (hdup : ∀ k ∈ Dict.keys fixed, k ∉ Dict.keys kwargs) (hd : 0 < d) (hself : 0 < selfMin) (hlo : selfMin ≤ lo)
    (hhi : hi ≤ selfMax) (hlt : selfMin < selfMax) (htop : top ≤ selfMax) {f : ℝ → ℝ}
    (hf : ∀ m, 0 < m →
      primary b (Dict.erase (Dict.erase kwargs "beta" ++ fixed) "delta_m") (fin m) = .ok (fin (f m)))
    (hf0 : ∀ m, 0 ≤ f m) (hfpos : ∀ m, lo < m → m ≤ selfMax → (0 < f m ↔ m ≤ top))
    (hpos : ∃ m ∈ Arr.linspaceR selfMin selfMax nM, lo < m ∧ m ≤ top) :
    FiniteDensity b s kwargs lo top := by
  obtain ⟨hM, hQ, rfl⟩ := init_inv hs
  set s0 : Smoothed := ⟨primary, fixed, selfMin, selfMax, Arr.linspaceR selfMin selfMax nM, Arr.linspaceR 0.001 1 nQ,
    cache, none⟩ with hs0
  have h0 : 0 < lo := by linarith
  have hkw : ∀ k v dflt, k ≠ "beta" → Dict.get? kwargs k = some v →
      Smoothed.kwGet (Dict.erase kwargs "beta") k dflt = v := by
    intro k v dflt hk hv
    unfold Smoothed.kwGet
    rw [Dict.get?_erase, if_neg hk, hv]; rfl
  have hkw' : ∀ k v dflt, k ≠ "beta" → Dict.get? kwargs k = some v →
      Smoothed.kwGet (Dict.erase kwargs "beta" ++ fixed) k dflt = v := by
    intro k v dflt hk hv
    unfold Smoothed.kwGet
    rw [Dict.get?_append, Dict.get?_erase, if_neg hk, hv]; rfl
  set N := Arr.trapzR ((Arr.linspaceR selfMin selfMax nM).map fun m => f m * window lo selfMax d m)
    (Arr.linspaceR selfMin selfMax nM) with hN
  have hNpos : 0 < N := by
    refine trapzR_pos_of_exists (by simp) (by rw [linspaceR_length]; exact hM) ?_ (linspaceR_sorted hlt hM) ?_
    · intro y hy
      obtain ⟨m, -, rfl⟩ := List.mem_map.1 hy
      exact mul_nonneg (hf0 m) (window_nonneg _ _ _ _)
    · obtain ⟨m, hm, h1, h2⟩ := hpos
      refine ⟨_, List.mem_map.2 ⟨m, hm, rfl⟩, mul_pos ((hfpos m h1 (h2.trans htop)).2 h2) ?_⟩
      unfold window
      rw [if_pos ⟨h1.le, h2.trans htop⟩]
      exact taper_pos _
  have hqv : ∀ m q : ℝ, ∃ y : ℝ, nanToNum (pQVal b (fin beta) (fin lo) (fin d) (fin m) (fin q) /
      interpLinear s0.m1s (s0.m1s.map (qNormAt b s0 (fin beta) (fin lo) (fin d))) (fin m)) = fin y :=
    fun m q => nanToNum_finite _
  choose pq hpq using hqv
  have hpqv : ∀ m q, lo < m → m ≤ selfMax → 0 < q →
      0 ≤ pq m q ∧ (0 < pq m q ↔ lo ≤ m * q ∧ q ≤ 1) := by
    intro m q h1 h2 hq
    obtain ⟨y, hy, e⟩ := interp_norm_pos b (s := s0) hM hQ rfl rfl hself hlt (beta := beta) hd h0 hlo h1 h2
    have hm0 : 0 < m := h0.trans h1
    have hl : lo / m < 1 := (div_lt_one hm0).2 h1
    have := hpq m q
    rw [e, pQVal_eq b hd h0 h1 hq, fin_div hy.ne', nanToNum_fin] at this
    rw [← Fl.fin.inj this]
    have hnn := (isPdf_powerlaw beta (by positivity) hl).nonneg q
    refine ⟨div_nonneg (mul_nonneg hnn (window_nonneg _ _ _ _)) hy.le, fun h => ?_, fun h => ?_⟩
    · by_contra hc
      have hz : normalised (fun t => t ^ beta) (lo / m) 1 q = 0 := by
        simp only [normalised]
        rw [if_neg]
        rintro ⟨g1, g2⟩
        rw [div_le_iff₀ hm0, mul_comm] at g1
        exact hc ⟨g1, g2⟩
      rw [hz, zero_mul, zero_div] at h
      exact lt_irrefl _ h
    · refine div_pos (mul_pos (normalised_pos (integral_rpow_pos (by positivity) hl)
        ⟨by rw [div_le_iff₀ hm0, mul_comm]; exact h.1, h.2⟩ (Real.rpow_pos_of_pos hq _)) ?_) hy
      unfold window
      rw [if_pos ⟨h.1, by nlinarith [h.2]⟩]
      exact taper_pos _
  refine ⟨fun m q => f m * window lo selfMax d m / N * pq m q, fun hist data hdata hcache => ?_,
    fun m q hm hne hq => ?_⟩
  · obtain ⟨hc, hst⟩ := runCalls_state b s0 hist
    obtain ⟨c1, c2, c3, c4, c5, c6, c7⟩ := hc
    set t := Smoothed.runCalls b s0 hist with ht
    have e1 : Smoothed.pM1 b t ((data.map fun e => (fin e.1, fin e.2)).map Prod.fst)
        (Dict.erase kwargs "beta" ++ fixed) =
          .ok (data.map fun e => fin (f e.1 * window lo selfMax d e.1 / N)) := by
      have := pM1_value b t (Dict.erase kwargs "beta" ++ fixed) (nM := nM) (d := d) (lo := lo) (f := f) (N := N)
        (by rw [c5, c3, c4]) (hkw' _ _ _ (by decide) hdm) hd (hkw' _ _ _ (by decide) hmin)
        (fun m hm => by
          rw [c5] at hm
          rw [c1]
          exact hf m (hself.trans_le (linspaceR_mem hlt.le hM hm).1))
        (masses := data.map Prod.fst)
        (fun m hm => by
          obtain ⟨e, he, rfl⟩ := List.mem_map.1 hm
          rw [c1]
          exact hf _ (hdata e he)) (by rw [c3, c4])
      rw [List.map_map] at this ⊢
      refine this.trans ?_
      rw [List.map_map, c4]
      congr 1
      apply List.map_congr_left
      intro e _
      exact fin_div hNpos.ne'
    have e2 := pQ_fresh b t (data.map fun e => (fin e.1, fin e.2)) (fin beta) (fin lo) (fin d) (by
      rw [List.map_map]
      rcases hcache with h | h
      · exact Or.inl (c7.trans h)
      · rcases hst with g | ⟨c, hc, g⟩
        · exact Or.inr (Or.inl g)
        · exact Or.inr (Or.inr (g.trans (by rw [h c hc]; rfl))))
    have hqn : ∀ m, qNormAt b t (fin beta) (fin lo) (fin d) m = qNormAt b s0 (fin beta) (fin lo) (fin d) m := by
      intro m
      unfold qNormAt
      rw [c6]
    have e2' : (Smoothed.pQ b t (data.map fun e => (fin e.1, fin e.2)) (fin beta) (fin lo) (fin d)).1 =
        .ok (data.map fun e => fin (pq e.1 e.2)) := by
      rw [e2, List.map_map]
      congr 1
      apply List.map_congr_left
      intro e _
      rw [← hpq e.1 e.2, c5, funext hqn]
      rfl
    unfold Smoothed.call
    rw [hbeta]
    simp only
    rw [hkw _ _ _ (by decide) hmin, hkw _ _ _ (by decide) hmax, hkw _ _ _ (by decide) hdm,
      if_neg (fun h => by
        have := h.2; rw [c3] at this; simp only [hs0, fin_lt] at this; linarith),
      if_neg (fun h => by
        have := h.2; rw [c4] at this; simp only [hs0, fin_lt] at this; linarith), if_neg ?_]
    · rw [c2, e1]
      simp only
      rcases hQ' : Smoothed.pQ b t (data.map fun e => (fin e.1, fin e.2)) (fin beta) (fin lo) (fin d) with ⟨r, s'⟩
      rw [hQ'] at e2'
      simp only at e2'
      subst e2'
      rw [hQ']
      simp only
      rw [broadcast_same b _ (by simp), List.zipWith_map, List.zipWith_self]
      simp only [fin_mul]
    · rintro ⟨k, hk, hk'⟩
      rw [Dict.keys_erase] at hk
      rw [c2] at hk'
      exact hdup k hk' (List.mem_filter.1 hk).1
  · by_cases hin : lo < m ∧ m ≤ selfMax
    · obtain ⟨g1, g2⟩ := hpqv m q hin.1 hin.2 hq
      have hw : 0 < window lo selfMax d m := by
        unfold window
        rw [if_pos ⟨hin.1.le, hin.2⟩]
        exact taper_pos _
      refine ⟨mul_nonneg (div_nonneg (mul_nonneg (hf0 m) hw.le) hNpos.le) g1, fun h => ?_, fun h => ?_⟩
      · have hp : 0 < pq m q := lt_of_le_of_ne g1 fun h' => by
          dsimp only at h
          rw [← h', mul_zero] at h; exact lt_irrefl _ h
        have hfm : 0 < f m := lt_of_le_of_ne (hf0 m) fun h' => by
          dsimp only at h
          rw [← h', zero_mul, zero_div, zero_mul] at h; exact lt_irrefl _ h
        exact ⟨hin.1, (hfpos m hin.1 hin.2).1 hfm, g2.1 hp⟩
      · exact mul_pos (div_pos (mul_pos ((hfpos m hin.1 hin.2).2 h.2.1) hw) hNpos) (g2.2 h.2.2)
    · have hw : window lo selfMax d m = 0 := by
        unfold window
        rw [if_neg fun h => hin ⟨lt_of_le_of_ne h.1 (Ne.symm hne), h.2⟩]
      simp only [hw, mul_zero, zero_div, zero_mul, le_refl, lt_irrefl, true_and, false_iff]
      rintro ⟨h1, h2, -⟩
      exact hin ⟨h1, h2.trans htop⟩

/-! ### The four models -/

theorem powerlaw_support (a : ℝ) {lo hi m : ℝ} (h0 : 0 < lo) (h : lo < hi) (hm : lo < m) :
    0 < normalised (fun t => t ^ a) lo hi m ↔ m ≤ hi := by
  constructor
  · intro hp
    by_contra hc
    simp only [normalised] at hp
    rw [if_neg (fun g => hc g.2)] at hp
    exact lt_irrefl _ hp
  · exact fun g => normalised_pos (integral_rpow_pos h0 h) ⟨hm.le, g⟩ (Real.rpow_pos_of_pos (h0.trans hm) _)

theorem broken_support (a1 a2 : ℝ) {mb lo hi m : ℝ} (h0 : 0 < lo) (hb : 0 < mb) (h : lo < hi) (hm : lo < m) :
    0 < normalised (brokenShape a1 a2 mb) lo hi m ↔ m ≤ hi := by
  constructor
  · intro hp
    by_contra hc
    simp only [normalised] at hp
    rw [if_neg (fun g => hc g.2)] at hp
    exact lt_irrefl _ hp
  · exact fun g => normalised_pos (integral_brokenShape_pos a1 a2 h0 hb h) ⟨hm.le, g⟩
      (brokenShape_pos a1 a2 hb (h0.trans hm))

theorem mix_support {lam u v m mmax selfMax : ℝ} (h0 : 0 ≤ lam) (h1 : lam ≤ 1) (hhi : mmax ≤ selfMax) (hu0 : 0 ≤ u)
    (hu : 0 < u ↔ m ≤ mmax) (hv : 0 < v) (hm : m ≤ selfMax) :
    0 < (1 - lam) * u + lam * v ↔ m ≤ if lam = 0 then mmax else selfMax := by
  by_cases hl : lam = 0
  · subst hl
    simpa using hu
  · rw [if_neg hl]
    refine iff_of_true ?_ hm
    have : 0 < lam * v := mul_pos (lt_of_le_of_ne h0 (Ne.symm hl)) hv
    have : 0 ≤ (1 - lam) * u := mul_nonneg (by linarith) hu0
    linarith

/-- **C109, `SinglePeakSmoothedMassDistribution`.** For all hyper-parameters it accepts (`mmin`, `mmax` inside the mass range of the instance,
`delta_m > 0`, mixing fractions in `[0, 1]`, positive widths; exponents other than -1 unless the backend is jax), all
grid sizes with a grid mass between `mmin` and `mmax` (not needed if there are peaks), every binary gets a finite density that
is positive exactly on the documented support. -/
theorem C109_singlePeak_partial (b : Backend) (py cache : Bool) {selfMin selfMax : ℝ} {nM nQ : ℕ} {s : Smoothed}
    (hinit : singlePeak py selfMin selfMax nM nQ cache = .ok s) {kwargs : Dict Fl}
    {beta d alpha mmin mmax lam mpp sigpp : ℝ}
    (hkeys : ∀ k ∈ Dict.keys kwargs, k ∈ ["beta", "delta_m", "alpha", "mmin", "mmax", "lam", "mpp", "sigpp"])
    (hbeta : Dict.get? kwargs "beta" = some (fin beta))
    (h_alpha : Dict.get? kwargs "alpha" = some (fin alpha))
    (h_mmin : Dict.get? kwargs "mmin" = some (fin mmin))
    (h_mmax : Dict.get? kwargs "mmax" = some (fin mmax))
    (h_lam : Dict.get? kwargs "lam" = some (fin lam))
    (h_mpp : Dict.get? kwargs "mpp" = some (fin mpp))
    (h_sigpp : Dict.get? kwargs "sigpp" = some (fin sigpp))
    (hdm : Dict.get? kwargs "delta_m" = some (fin d)) (hd : 0 < d)
    (hself : 0 < selfMin) (hlo : selfMin ≤ mmin) (hlt : mmin < mmax) (hhi : mmax ≤ selfMax)
    (ha : b = .jax ∨ alpha ≠ -1)
    (hl0 : 0 ≤ lam) (hl1 : lam ≤ 1)
    (hs : 0 < sigpp)
    (hgrid : GridInside selfMin selfMax nM mmin mmax ∨ lam ≠ 0) :
    FiniteDensity b s kwargs mmin (if lam = 0 then mmax else selfMax) := by
  have h0 : 0 < mmin := by linarith
  have hg : mmin < selfMax := by linarith
  obtain ⟨hM, -, -⟩ := init_inv hinit
  refine call_finite b (primTwoComponent py) [("gaussian_mass_maximum", fin selfMax)] cache hinit hbeta h_mmin h_mmax hdm ?_ hd hself hlo hhi
    (by linarith) (by split_ifs <;> linarith) (f := fun m => (1 - lam) * normalised (fun t => t ^ (-alpha)) mmin mmax m + lam * normalised (bell mpp sigpp) mmin selfMax m) ?_ (fun t => ?_) (fun m h1 h2 => ?_) ?_
  · intro k hk hk'
    simp only [Dict.keys, List.map_cons, List.map_nil, List.mem_singleton] at hk
    subst hk
    exact absurd (hkeys _ hk') (by decide)
  · intro m hm0
    obtain ⟨g, hg', v1, v2⟩ := bindPrimary
      (names := ["alpha", "mmin", "mmax", "lam", "mpp", "sigpp"])
      (extra := ["gaussian_mass_maximum"]) (defaults := [("gaussian_mass_maximum", fin 100)])
      (fixed := [("gaussian_mass_maximum", fin selfMax)]) hkeys (by simp [Dict.keys]) (by decide)
      (by decide) (by simp [h_alpha, h_mmin, h_mmax, h_lam, h_mpp, h_sigpp])
      (by simp [Dict.get?_cons])
    simp only [List.cons_append, List.nil_append, List.append_nil] at hg'
    simp only [primTwoComponent, List.append_nil, hg']
    show twoComponentSingle b py (fin m) (g "alpha") (g "mmin") (g "mmax") (g "lam") (g "mpp") (g "sigpp") (g "gaussian_mass_maximum") = _
    rw [v1 _ (by decide) _ h_alpha,
      v1 _ (by decide) _ h_mmin,
      v1 _ (by decide) _ h_mmax,
      v1 _ (by decide) _ h_lam,
      v1 _ (by decide) _ h_mpp,
      v1 _ (by decide) _ h_sigpp,
      v2 "gaussian_mass_maximum" (by decide) (fin selfMax) (by simp [Dict.get?_cons])]
    exact C18_twoComponentSingle_value b py ha h0 hlt hg hs hm0
  · exact add_nonneg (mul_nonneg (by linarith) ((isPdf_powerlaw (-alpha) h0 hlt).nonneg t)) (mul_nonneg hl0 ((isPdf_bell mpp sigpp hg).nonneg t))
  · exact mix_support hl0 hl1 hhi ((isPdf_powerlaw (-alpha) h0 hlt).nonneg m) (powerlaw_support (-alpha) h0 hlt h1) (normalised_pos (integral_gaussShape_pos hg) ⟨h1.le, h2⟩ (gaussShape_pos mpp sigpp m)) h2
  · rcases hgrid with hg1 | hg1
    · obtain ⟨m, hm, e1, e2⟩ := gridInside_inv hg1
      exact ⟨m, hm, e1, by split_ifs <;> linarith⟩
    · exact ⟨selfMax, linspaceR_last selfMin selfMax hM, hg, by rw [if_neg hg1]⟩

/-- **C109, `MultiPeakSmoothedMassDistribution`.** For all hyper-parameters it accepts (`mmin`, `mmax` inside the mass range of the instance,
`delta_m > 0`, mixing fractions in `[0, 1]`, positive widths; exponents other than -1 unless the backend is jax), all
grid sizes with a grid mass between `mmin` and `mmax` (not needed if there are peaks), every binary gets a finite density that
is positive exactly on the documented support. -/
theorem C109_multiPeak_partial (b : Backend) (py cache : Bool) {selfMin selfMax : ℝ} {nM nQ : ℕ} {s : Smoothed}
    (hinit : multiPeak py selfMin selfMax nM nQ cache = .ok s) {kwargs : Dict Fl}
    {beta d alpha mmin mmax lam lam1 mpp1 sigpp1 mpp2 sigpp2 : ℝ}
    (hkeys : ∀ k ∈ Dict.keys kwargs, k ∈ ["beta", "delta_m", "alpha", "mmin", "mmax", "lam", "lam_1", "mpp_1", "sigpp_1", "mpp_2", "sigpp_2"])
    (hbeta : Dict.get? kwargs "beta" = some (fin beta))
    (h_alpha : Dict.get? kwargs "alpha" = some (fin alpha))
    (h_mmin : Dict.get? kwargs "mmin" = some (fin mmin))
    (h_mmax : Dict.get? kwargs "mmax" = some (fin mmax))
    (h_lam : Dict.get? kwargs "lam" = some (fin lam))
    (h_lam_1 : Dict.get? kwargs "lam_1" = some (fin lam1))
    (h_mpp_1 : Dict.get? kwargs "mpp_1" = some (fin mpp1))
    (h_sigpp_1 : Dict.get? kwargs "sigpp_1" = some (fin sigpp1))
    (h_mpp_2 : Dict.get? kwargs "mpp_2" = some (fin mpp2))
    (h_sigpp_2 : Dict.get? kwargs "sigpp_2" = some (fin sigpp2))
    (hdm : Dict.get? kwargs "delta_m" = some (fin d)) (hd : 0 < d)
    (hself : 0 < selfMin) (hlo : selfMin ≤ mmin) (hlt : mmin < mmax) (hhi : mmax ≤ selfMax)
    (ha : b = .jax ∨ alpha ≠ -1)
    (hl0 : 0 ≤ lam) (hl1 : lam ≤ 1)
    (hl10 : 0 ≤ lam1) (hl11 : lam1 ≤ 1) (hs1 : 0 < sigpp1) (hs2 : 0 < sigpp2)
    (hgrid : GridInside selfMin selfMax nM mmin mmax ∨ lam ≠ 0) :
    FiniteDensity b s kwargs mmin (if lam = 0 then mmax else selfMax) := by
  have h0 : 0 < mmin := by linarith
  have hg : mmin < selfMax := by linarith
  obtain ⟨hM, -, -⟩ := init_inv hinit
  refine call_finite b (primThreeComponent py) [("gaussian_mass_maximum", fin selfMax)] cache hinit hbeta h_mmin h_mmax hdm ?_ hd hself hlo hhi
    (by linarith) (by split_ifs <;> linarith) (f := fun m => (1 - lam) * normalised (fun t => t ^ (-alpha)) mmin mmax m +
        lam * lam1 * normalised (bell mpp1 sigpp1) mmin selfMax m +
        lam * (1 - lam1) * normalised (bell mpp2 sigpp2) mmin selfMax m) ?_ (fun t => ?_) (fun m h1 h2 => ?_) ?_
  · intro k hk hk'
    simp only [Dict.keys, List.map_cons, List.map_nil, List.mem_singleton] at hk
    subst hk
    exact absurd (hkeys _ hk') (by decide)
  · intro m hm0
    obtain ⟨g, hg', v1, v2⟩ := bindPrimary
      (names := ["alpha", "mmin", "mmax", "lam", "lam_1", "mpp_1", "sigpp_1", "mpp_2", "sigpp_2"])
      (extra := ["gaussian_mass_maximum"]) (defaults := [("gaussian_mass_maximum", fin 100)])
      (fixed := [("gaussian_mass_maximum", fin selfMax)]) hkeys (by simp [Dict.keys]) (by decide)
      (by decide) (by simp [h_alpha, h_mmin, h_mmax, h_lam, h_lam_1, h_mpp_1, h_sigpp_1, h_mpp_2, h_sigpp_2])
      (by simp [Dict.get?_cons])
    simp only [List.cons_append, List.nil_append, List.append_nil] at hg'
    simp only [primThreeComponent, List.append_nil, hg']
    show threeComponentSingle b py (fin m) (g "alpha") (g "mmin") (g "mmax") (g "lam") (g "lam_1") (g "mpp_1") (g "sigpp_1") (g "mpp_2") (g "sigpp_2") (g "gaussian_mass_maximum") = _
    rw [v1 _ (by decide) _ h_alpha,
      v1 _ (by decide) _ h_mmin,
      v1 _ (by decide) _ h_mmax,
      v1 _ (by decide) _ h_lam,
      v1 _ (by decide) _ h_lam_1,
      v1 _ (by decide) _ h_mpp_1,
      v1 _ (by decide) _ h_sigpp_1,
      v1 _ (by decide) _ h_mpp_2,
      v1 _ (by decide) _ h_sigpp_2,
      v2 "gaussian_mass_maximum" (by decide) (fin selfMax) (by simp [Dict.get?_cons])]
    exact C18_threeComponentSingle_value b py ha h0 hlt hg hs1 hs2 hm0
  · exact add_nonneg (add_nonneg (mul_nonneg (by linarith) ((isPdf_powerlaw (-alpha) h0 hlt).nonneg t))
      (mul_nonneg (mul_nonneg hl0 hl10) ((isPdf_bell mpp1 sigpp1 hg).nonneg t)))
      (mul_nonneg (mul_nonneg hl0 (by linarith)) ((isPdf_bell mpp2 sigpp2 hg).nonneg t))
  · exact by
      have p1 : 0 < normalised (bell mpp1 sigpp1) mmin selfMax m :=
        normalised_pos (integral_gaussShape_pos hg) ⟨h1.le, h2⟩ (gaussShape_pos mpp1 sigpp1 m)
      have p2 : 0 < normalised (bell mpp2 sigpp2) mmin selfMax m :=
        normalised_pos (integral_gaussShape_pos hg) ⟨h1.le, h2⟩ (gaussShape_pos mpp2 sigpp2 m)
      have key := mix_support hl0 hl1 hhi ((isPdf_powerlaw (-alpha) h0 hlt).nonneg m) (powerlaw_support (-alpha) h0 hlt h1)
        (mix_pos hl10 hl11 p2 p1) h2
      refine Iff.trans (iff_of_eq (congrArg (fun x : ℝ => 0 < x) ?_)) key
      ring
  · rcases hgrid with hg1 | hg1
    · obtain ⟨m, hm, e1, e2⟩ := gridInside_inv hg1
      exact ⟨m, hm, e1, by split_ifs <;> linarith⟩
    · exact ⟨selfMax, linspaceR_last selfMin selfMax hM, hg, by rw [if_neg hg1]⟩

/-- **C109, `BrokenPowerLawSmoothedMassDistribution`.** For all hyper-parameters it accepts (`mmin`, `mmax` inside the mass range of the instance,
`delta_m > 0`, mixing fractions in `[0, 1]`, positive widths; exponents other than -1 unless the backend is jax), all
grid sizes with a grid mass between `mmin` and `mmax`, every binary gets a finite density that
is positive exactly on the documented support. -/
theorem C109_brokenPowerLaw_partial (b : Backend) (py cache : Bool) {selfMin selfMax : ℝ} {nM nQ : ℕ} {s : Smoothed}
    (hinit : brokenPowerLaw py selfMin selfMax nM nQ cache = .ok s) {kwargs : Dict Fl}
    {beta d alpha1 alpha2 mmin mmax bf : ℝ}
    (hkeys : ∀ k ∈ Dict.keys kwargs, k ∈ ["beta", "delta_m", "alpha_1", "alpha_2", "mmin", "mmax", "break_fraction"])
    (hbeta : Dict.get? kwargs "beta" = some (fin beta))
    (h_alpha_1 : Dict.get? kwargs "alpha_1" = some (fin alpha1))
    (h_alpha_2 : Dict.get? kwargs "alpha_2" = some (fin alpha2))
    (h_mmin : Dict.get? kwargs "mmin" = some (fin mmin))
    (h_mmax : Dict.get? kwargs "mmax" = some (fin mmax))
    (h_break_fraction : Dict.get? kwargs "break_fraction" = some (fin bf))
    (hdm : Dict.get? kwargs "delta_m" = some (fin d)) (hd : 0 < d)
    (hself : 0 < selfMin) (hlo : selfMin ≤ mmin) (hlt : mmin < mmax) (hhi : mmax ≤ selfMax)
    (ha1 : b = .jax ∨ alpha1 ≠ -1) (ha2 : b = .jax ∨ alpha2 ≠ -1) (hbf0 : 0 < bf) (hbf1 : bf < 1)
    (hgrid : GridInside selfMin selfMax nM mmin mmax) :
    FiniteDensity b s kwargs mmin mmax := by
  have h0 : 0 < mmin := by linarith
  have hb : 0 < mmin + bf * (mmax - mmin) := by
    have : 0 < bf * (mmax - mmin) := mul_pos hbf0 (by linarith)
    linarith
  obtain ⟨hM, -, -⟩ := init_inv hinit
  refine call_finite b (primDoublePowerLaw py) [] cache hinit hbeta h_mmin h_mmax hdm ?_ hd hself hlo hhi
    (by linarith) hhi (f := fun m => normalised (brokenShape alpha1 alpha2 (mmin + bf * (mmax - mmin))) mmin mmax m) ?_ (fun t => ?_) (fun m h1 h2 => ?_) ?_
  · simp [Dict.keys]
  · intro m hm0
    obtain ⟨g, hg', v1, v2⟩ := bindPrimary
      (names := ["alpha_1", "alpha_2", "mmin", "mmax", "break_fraction"])
      (extra := []) (defaults := [])
      (fixed := []) hkeys (by simp [Dict.keys]) (by decide)
      (by decide) (by simp [h_alpha_1, h_alpha_2, h_mmin, h_mmax, h_break_fraction])
      (by simp [Dict.get?_cons])
    simp only [List.cons_append, List.nil_append, List.append_nil] at hg'
    simp only [primDoublePowerLaw, List.append_nil, hg']
    show doublePowerLawPrimaryMass b py (fin m) (g "alpha_1") (g "alpha_2") (g "mmin") (g "mmax") (g "break_fraction") = _
    rw [v1 _ (by decide) _ h_alpha_1,
      v1 _ (by decide) _ h_alpha_2,
      v1 _ (by decide) _ h_mmin,
      v1 _ (by decide) _ h_mmax,
      v1 _ (by decide) _ h_break_fraction]
    exact C17_doublePowerLaw_value b py ha1 ha2 h0 hlt hbf0 hbf1 hm0
  · exact (isPdf_broken alpha1 alpha2 h0 hb hlt).nonneg t
  · exact broken_support alpha1 alpha2 h0 hb hlt h1
  · obtain ⟨m, hm, e1, e2⟩ := gridInside_inv hgrid
    exact ⟨m, hm, e1, e2.le⟩

/-- **C109, `BrokenPowerLawPeakSmoothedMassDistribution`.** For all hyper-parameters it accepts (`mmin`, `mmax` inside the mass range of the instance,
`delta_m > 0`, mixing fractions in `[0, 1]`, positive widths; exponents other than -1 unless the backend is jax), all
grid sizes with a grid mass between `mmin` and `mmax` (not needed if there are peaks), every binary gets a finite density that
is positive exactly on the documented support. -/
theorem C109_brokenPowerLawPeak_partial (b : Backend) (py cache : Bool) {selfMin selfMax : ℝ} {nM nQ : ℕ} {s : Smoothed}
    (hinit : brokenPowerLawPeak py selfMin selfMax nM nQ cache = .ok s) {kwargs : Dict Fl}
    {beta d alpha1 alpha2 mmin mmax bf lam mpp sigpp : ℝ}
    (hkeys : ∀ k ∈ Dict.keys kwargs, k ∈ ["beta", "delta_m", "alpha_1", "alpha_2", "mmin", "mmax", "break_fraction", "lam", "mpp", "sigpp"])
    (hbeta : Dict.get? kwargs "beta" = some (fin beta))
    (h_alpha_1 : Dict.get? kwargs "alpha_1" = some (fin alpha1))
    (h_alpha_2 : Dict.get? kwargs "alpha_2" = some (fin alpha2))
    (h_mmin : Dict.get? kwargs "mmin" = some (fin mmin))
    (h_mmax : Dict.get? kwargs "mmax" = some (fin mmax))
    (h_break_fraction : Dict.get? kwargs "break_fraction" = some (fin bf))
    (h_lam : Dict.get? kwargs "lam" = some (fin lam))
    (h_mpp : Dict.get? kwargs "mpp" = some (fin mpp))
    (h_sigpp : Dict.get? kwargs "sigpp" = some (fin sigpp))
    (hdm : Dict.get? kwargs "delta_m" = some (fin d)) (hd : 0 < d)
    (hself : 0 < selfMin) (hlo : selfMin ≤ mmin) (hlt : mmin < mmax) (hhi : mmax ≤ selfMax)
    (ha1 : b = .jax ∨ alpha1 ≠ -1) (ha2 : b = .jax ∨ alpha2 ≠ -1) (hbf0 : 0 < bf) (hbf1 : bf < 1)
    (hl0 : 0 ≤ lam) (hl1 : lam ≤ 1)
    (hs : 0 < sigpp)
    (hgrid : GridInside selfMin selfMax nM mmin mmax ∨ lam ≠ 0) :
    FiniteDensity b s kwargs mmin (if lam = 0 then mmax else selfMax) := by
  have h0 : 0 < mmin := by linarith
  have hg : mmin < selfMax := by linarith
  have hb : 0 < mmin + bf * (mmax - mmin) := by
    have : 0 < bf * (mmax - mmin) := mul_pos hbf0 (by linarith)
    linarith
  obtain ⟨hM, -, -⟩ := init_inv hinit
  refine call_finite b (primDoublePowerLawPeak py) [("gaussian_mass_maximum", fin selfMax)] cache hinit hbeta h_mmin h_mmax hdm ?_ hd hself hlo hhi
    (by linarith) (by split_ifs <;> linarith) (f := fun m => (1 - lam) * normalised (brokenShape alpha1 alpha2 (mmin + bf * (mmax - mmin))) mmin mmax m +
        lam * normalised (bell mpp sigpp) mmin selfMax m) ?_ (fun t => ?_) (fun m h1 h2 => ?_) ?_
  · intro k hk hk'
    simp only [Dict.keys, List.map_cons, List.map_nil, List.mem_singleton] at hk
    subst hk
    exact absurd (hkeys _ hk') (by decide)
  · intro m hm0
    obtain ⟨g, hg', v1, v2⟩ := bindPrimary
      (names := ["alpha_1", "alpha_2", "mmin", "mmax", "break_fraction", "lam", "mpp", "sigpp"])
      (extra := ["gaussian_mass_maximum"]) (defaults := [("gaussian_mass_maximum", fin 100)])
      (fixed := [("gaussian_mass_maximum", fin selfMax)]) hkeys (by simp [Dict.keys]) (by decide)
      (by decide) (by simp [h_alpha_1, h_alpha_2, h_mmin, h_mmax, h_break_fraction, h_lam, h_mpp, h_sigpp])
      (by simp [Dict.get?_cons])
    simp only [List.cons_append, List.nil_append, List.append_nil] at hg'
    simp only [primDoublePowerLawPeak, List.append_nil, hg']
    show doublePowerLawPeakPrimaryMass b py (fin m) (g "alpha_1") (g "alpha_2") (g "mmin") (g "mmax") (g "break_fraction") (g "lam") (g "mpp") (g "sigpp") (g "gaussian_mass_maximum") = _
    rw [v1 _ (by decide) _ h_alpha_1,
      v1 _ (by decide) _ h_alpha_2,
      v1 _ (by decide) _ h_mmin,
      v1 _ (by decide) _ h_mmax,
      v1 _ (by decide) _ h_break_fraction,
      v1 _ (by decide) _ h_lam,
      v1 _ (by decide) _ h_mpp,
      v1 _ (by decide) _ h_sigpp,
      v2 "gaussian_mass_maximum" (by decide) (fin selfMax) (by simp [Dict.get?_cons])]
    exact C18_doublePowerLawPeak_value b py ha1 ha2 h0 hlt hbf0 hbf1 hg hs hm0
  · exact add_nonneg (mul_nonneg (by linarith) ((isPdf_broken alpha1 alpha2 h0 hb hlt).nonneg t)) (mul_nonneg hl0 ((isPdf_bell mpp sigpp hg).nonneg t))
  · exact mix_support hl0 hl1 hhi ((isPdf_broken alpha1 alpha2 h0 hb hlt).nonneg m) (broken_support alpha1 alpha2 h0 hb hlt h1) (normalised_pos (integral_gaussShape_pos hg) ⟨h1.le, h2⟩ (gaussShape_pos mpp sigpp m)) h2
  · rcases hgrid with hg1 | hg1
    · obtain ⟨m, hm, e1, e2⟩ := gridInside_inv hg1
      exact ⟨m, hm, e1, by split_ifs <;> linarith⟩
    · exact ⟨selfMax, linspaceR_last selfMin selfMax hM, hg, by rw [if_neg hg1]⟩

/-- Non-vacuity: the default instance (masses from 2 to 100, 1000 by 500 grid points) and GWTC-3-like
hyper-parameters. -/
example {s : Smoothed} (hs : singlePeak true 2 100 1000 500 true = .ok s) : FiniteDensity .numpy s
    [("alpha", fin 3.5), ("beta", fin 1), ("mmin", fin 5), ("mmax", fin 85), ("lam", fin 0.04),
      ("mpp", fin 34), ("sigpp", fin 3.6), ("delta_m", fin 4.8)] 5 100 := by
  have := C109_singlePeak_partial .numpy true true hs
    (kwargs := [("alpha", fin 3.5), ("beta", fin 1), ("mmin", fin 5), ("mmax", fin 85), ("lam", fin 0.04),
      ("mpp", fin 34), ("sigpp", fin 3.6), ("delta_m", fin 4.8)])
    (by simp [Dict.keys]) (by simp [Dict.get?_cons]; rfl)
    (by simp [Dict.get?_cons]; rfl) (by simp [Dict.get?_cons]; rfl) (by simp [Dict.get?_cons]; rfl)
    (by simp [Dict.get?_cons]; rfl) (by simp [Dict.get?_cons]; rfl) (by simp [Dict.get?_cons]; rfl)
    (by simp [Dict.get?_cons]; rfl) (by norm_num) (by norm_num) (by norm_num) (by norm_num)
    (by norm_num) (Or.inr (by norm_num)) (by norm_num) (by norm_num) (by norm_num) (Or.inr (by norm_num))
  rwa [if_neg (by norm_num)] at this

/-- Non-vacuity of the hypothesis on the grid. -/
example {s : Smoothed} (hs : brokenPowerLaw false 2 100 1000 500 false = .ok s) : FiniteDensity .jax s
    [("alpha_1", fin (-1)), ("alpha_2", fin 5), ("beta", fin (-1)), ("mmin", fin 5), ("mmax", fin 85),
      ("break_fraction", fin 0.4), ("delta_m", fin 4.8)] 5 85 :=
  C109_brokenPowerLaw_partial .jax false false hs
    (kwargs := [("alpha_1", fin (-1)), ("alpha_2", fin 5), ("beta", fin (-1)), ("mmin", fin 5), ("mmax", fin 85),
      ("break_fraction", fin 0.4), ("delta_m", fin 4.8)])
    (by simp [Dict.keys]) (by simp [Dict.get?_cons]; rfl) (by simp [Dict.get?_cons]; rfl)
    (by simp [Dict.get?_cons]; rfl) (by simp [Dict.get?_cons]) (by simp [Dict.get?_cons])
    (by simp [Dict.get?_cons]; rfl) (by simp [Dict.get?_cons]; rfl) (by norm_num) (by norm_num) (by norm_num)
    (by norm_num) (by norm_num) (Or.inl rfl) (Or.inl rfl) (by norm_num) (by norm_num)
    ⟨100, by norm_num, by norm_num, by norm_num⟩

/-! ### Narrow mass ranges -/

/-- C109 without the hypothesis on the grid, for `BrokenPowerLawSmoothedMassDistribution`. -/
def C109_statement : Prop :=
  ∀ (b : Backend) (py cache : Bool) (selfMin selfMax : ℝ) (nM nQ : ℕ) (s : Smoothed),
    brokenPowerLaw py selfMin selfMax nM nQ cache = .ok s →
    ∀ beta d alpha1 alpha2 mmin mmax bf : ℝ, 0 < d → 0 < selfMin → selfMin ≤ mmin → mmin < mmax → mmax ≤ selfMax →
      (b = .jax ∨ alpha1 ≠ -1) → (b = .jax ∨ alpha2 ≠ -1) → 0 < bf → bf < 1 →
      FiniteDensity b s [("beta", fin beta), ("delta_m", fin d), ("alpha_1", fin alpha1), ("alpha_2", fin alpha2),
        ("mmin", fin mmin), ("mmax", fin mmax), ("break_fraction", fin bf)] mmin mmax

/-- The primary density at one mass when its norm on the grid is 0. -/
theorem narrow_pM1 {s : Smoothed} (hs : brokenPowerLaw true 1 4 2 2 true = .ok s) {kwargs : Dict Fl}
    (hk : kwargs = [("beta", fin 0), ("delta_m", fin 1), ("alpha_1", fin 2), ("alpha_2", fin 3),
        ("mmin", fin 1.5), ("mmax", fin 2), ("break_fraction", fin 0.5)]) :
    Smoothed.pM1 .numpy s [fin 1.75] (Dict.erase kwargs "beta" ++ []) = .ok [pinf] := by
  subst hk
  obtain ⟨-, -, rfl⟩ := init_inv hs
  set f : ℝ → ℝ := fun m => normalised (brokenShape 2 3 (1.5 + 0.5 * (2 - 1.5))) 1.5 2 m with hf
  have hprim : ∀ m, 0 < m → primDoublePowerLaw true .numpy [("alpha_1", fin 2), ("alpha_2", fin 3),
        ("mmin", fin 1.5), ("mmax", fin 2), ("break_fraction", fin 0.5)] (fin m) = .ok (fin (f m)) := by
    intro m hm
    have := C17_doublePowerLaw_value .numpy true (a1 := 2) (a2 := 3) (mmin := 1.5) (mmax := 2)
      (bf := 0.5) (m := m) (Or.inr (by norm_num)) (Or.inr (by norm_num)) (by norm_num) (by norm_num)
      (by norm_num) (by norm_num) hm
    simp only [primDoublePowerLaw, bindArgs]
    rw [if_neg (by simp [Dict.keys, Dict.contains, Dict.get?_cons])]
    simpa [Dict.get?_cons, ok_bind] using this
  have hgrid : Arr.linspaceR 1 4 2 = [1, 4] := by
    simp [Arr.linspaceR, List.range_succ]
    norm_num
  have hv := pM1_value .numpy ⟨primDoublePowerLaw true, [], 1, 4, Arr.linspaceR 1 4 2, Arr.linspaceR 0.001 1 2, true, none⟩
    (Dict.erase [("beta", fin 0), ("delta_m", fin 1), ("alpha_1", fin 2), ("alpha_2", fin 3),
        ("mmin", fin 1.5), ("mmax", fin 2), ("break_fraction", fin 0.5)] "beta" ++ []) (nM := 2) (d := 1) (lo := 1.5)
    (f := f) (N := 0) rfl (by simp [Smoothed.kwGet, Dict.erase, Dict.get?_cons]) one_pos
    (by simp [Smoothed.kwGet, Dict.erase, Dict.get?_cons])
    (by
      intro m hm
      have : 0 < m := by simp only [hgrid, List.mem_cons, List.not_mem_nil, or_false] at hm; rcases hm with rfl | rfl <;> norm_num
      simpa [Dict.erase] using hprim m this)
    (masses := [1.75]) (by
      intro m hm
      have : 0 < m := by simp only [List.mem_singleton] at hm; subst hm; norm_num
      simpa [Dict.erase] using hprim m this) (by
      rw [hgrid, trapzR_zeros]
      intro y hy
      simp only [List.map_cons, List.map_nil, List.mem_cons, List.not_mem_nil, or_false] at hy
      have f1 : f 1 = 0 := by simp only [hf, normalised]; rw [if_neg (by norm_num)]
      have f4 : f 4 = 0 := by simp only [hf, normalised]; rw [if_neg (by norm_num)]
      rcases hy with rfl | rfl
      · rw [f1, zero_mul]
      · rw [f4, zero_mul])
  refine hv.trans ?_
  have hpos : 0 < f 1.75 * window 1.5 4 1 1.75 := by
    refine mul_pos (normalised_pos (integral_brokenShape_pos 2 3 (by norm_num) (by norm_num) (by norm_num))
      (by norm_num) (brokenShape_pos 2 3 (by norm_num) (by norm_num))) ?_
    unfold window
    rw [if_pos (by norm_num)]
    exact taper_pos _
  simp [signInf_pos hpos]

/-- **C109 is false without the hypothesis on the grid**: if the requested range of masses lies between two points of
the grid, the norm is 0 and the density infinite. -/
theorem C109_fails : ¬ C109_statement := by
  intro h
  obtain ⟨v, hv, -⟩ := h .numpy true true 1 4 2 2 _ (init_ok _ _ 1 4 true le_rfl le_rfl) 0 1 2 3 1.5 2 0.5 (by norm_num)
    (by norm_num) (by norm_num) (by norm_num) (by norm_num) (Or.inr (by norm_num)) (Or.inr (by norm_num)) (by norm_num)
    (by norm_num)
  have e := hv [] [(1.75, 1)] (by simp; norm_num) (Or.inr (by simp))
  have e1 := narrow_pM1 (init_ok _ _ 1 4 true le_rfl le_rfl) rfl
  simp only [Smoothed.runCalls, List.map_cons, List.map_nil] at e
  unfold Smoothed.call at e
  simp only [Dict.get?_cons, if_true] at e
  rw [if_neg (by simp [Smoothed.kwGet, Dict.erase, Dict.get?_cons]; norm_num),
    if_neg (by simp [Smoothed.kwGet, Dict.erase, Dict.get?_cons]; norm_num), if_neg (by simp [Dict.keys])] at e
  rw [List.map_cons, List.map_nil, e1] at e
  simp only at e
  obtain ⟨y, hy⟩ : ∃ y, (Smoothed.pQ .numpy ⟨primDoublePowerLaw true, [], 1, 4, Arr.linspaceR 1 4 2,
      Arr.linspaceR 0.001 1 2, true, none⟩ [(fin 1.75, fin 1)] (fin 0) (fin 1.5) (fin 1)).1 = .ok [fin y] := by
    rw [pQ_fresh _ _ _ _ _ _ (Or.inr (Or.inl rfl))]
    obtain ⟨y, hy⟩ := nanToNum_finite _
    exact ⟨y, by rw [List.map_cons, List.map_nil, hy]⟩
  have k1 : Smoothed.kwGet (Dict.erase [("beta", fin 0), ("delta_m", fin 1), ("alpha_1", fin 2), ("alpha_2", fin 3),
      ("mmin", fin 1.5), ("mmax", fin 2), ("break_fraction", fin 0.5)] "beta") "mmin" (fin 1) = fin 1.5 := by
    simp [Smoothed.kwGet, Dict.erase, Dict.get?_cons]
  have k2 : Smoothed.kwGet (Dict.erase [("beta", fin 0), ("delta_m", fin 1), ("alpha_1", fin 2), ("alpha_2", fin 3),
      ("mmin", fin 1.5), ("mmax", fin 2), ("break_fraction", fin 0.5)] "beta") "delta_m" 0 = fin 1 := by
    simp [Smoothed.kwGet, Dict.erase, Dict.get?_cons]
  rw [k1, k2] at e
  rcases hq : Smoothed.pQ .numpy ⟨primDoublePowerLaw true, [], 1, 4, Arr.linspaceR 1 4 2,
      Arr.linspaceR 0.001 1 2, true, none⟩ [(fin 1.75, fin 1)] (fin 0) (fin 1.5) (fin 1) with ⟨r, s'⟩
  rw [hq] at hy e
  simp only at hy
  subst hy
  simp only [Smoothed.broadcast, List.length_cons, List.length_nil, if_true, List.zipWith_cons_cons,
    List.zipWith_nil_left] at e
  have e' := List.head_eq_of_cons_eq (Except.ok.inj e)
  have hfin : isFinite (pinf * fin y) := by rw [e']; trivial
  rw [isFinite_mul] at hfin
  exact hfin.1

end GW
