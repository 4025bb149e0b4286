import Verif.Props.Smoothed
import Verif.Lemmas.Finite

/-!
# C23: smoothed mass models are normalised on their own grid
-/

noncomputable section

open Classical

namespace GW

open Fl Spec

/-- **C23, primary mass.** For any instance (any primary model, any grid with at least two points)
and any `delta_m` other than 0: if the trapezoid sum of the unnormalised primary density over the
instance's mass grid is a nonzero finite number, then evaluating `p_m1` on that grid succeeds and
the trapezoid sum of the returned values is exactly 1. -/
theorem C23_primary (b : Backend) (s : Smoothed) (kwargs : Dict Fl) {deltaM : Fl}
    (h2 : 2 ≤ s.m1s.length) (hd : Smoothed.kwGet kwargs "delta_m" 0 = deltaM)
    (hd0 : ¬ eqf deltaM 0) {raw : List Fl} {r : ℝ}
    (hraw : s.m1s.mapM (fun m => do
      let p ← s.primary b (Dict.erase kwargs "delta_m") (fin m)
      return p * smoothing b (fin m) (Smoothed.kwGet kwargs "mmin" (fin s.mmin)) (fin s.mmax)
        deltaM) = .ok raw)
    (hr : Arr.trapz raw (s.m1s.map fin) = fin r) (hr0 : r ≠ 0) :
    ∃ p, Smoothed.pM1 b s (s.m1s.map fin) kwargs = .ok p ∧
      Arr.trapz p (s.m1s.map fin) = fin 1 := by
  have hlen : raw.length = s.m1s.length := mapM_length hraw
  have hmin : Smoothed.kwGet (Dict.erase kwargs "delta_m") "mmin" (fin s.mmin) =
      Smoothed.kwGet kwargs "mmin" (fin s.mmin) := by
    unfold Smoothed.kwGet
    rw [Dict.get?_erase, if_neg (by decide)]
  have hnorm : Smoothed.normPM1 b s deltaM (Dict.erase kwargs "delta_m") = .ok (fin r) := by
    unfold Smoothed.normPM1
    rw [hmin]
    have : s.m1s.mapM (fun m => Smoothed.pMRaw b s (Dict.erase kwargs "delta_m")
        (Smoothed.kwGet kwargs "mmin" (fin s.mmin)) deltaM (fin m)) = .ok raw := hraw
    simp only [this]
    refine Eq.trans (if_neg (fun h => hd0 h.2)) ?_
    show Except.ok _ = _
    rw [hr, nanToNum_fin, ind_true hd0, ind_false hd0]
    simp
  refine ⟨raw.map (· / fin r), ?_, trapz_normalise hlen (by omega) hr hr0⟩
  unfold Smoothed.pM1
  rw [hd]
  have : s.m1s.mapM (fun m => Smoothed.pMRaw b s (Dict.erase kwargs "delta_m")
      (Smoothed.kwGet kwargs "mmin" (fin s.mmin)) deltaM (fin m)) = .ok raw := hraw
  simp only [mapM_map, this, hnorm]
  rfl

/-! ### The linear interpolant is exact at its nodes -/

theorem linspaceR_length (a b : ℝ) (n : ℕ) : (Arr.linspaceR a b n).length = n := by
  simp [Arr.linspaceR]

theorem linspaceR_getElem (a b : ℝ) (n i : ℕ) (h : i < (Arr.linspaceR a b n).length) :
    (Arr.linspaceR a b n)[i] = a + (b - a) * (i : ℝ) / ((n : ℝ) - 1) := by
  simp [Arr.linspaceR]

theorem linspaceR_sorted {a b : ℝ} (hab : a < b) {n : ℕ} (hn : 2 ≤ n) :
    (Arr.linspaceR a b n).Pairwise (· < ·) := by
  rw [List.pairwise_iff_getElem]
  intro i j hi hj hij
  rw [linspaceR_getElem, linspaceR_getElem]
  have h1 : (0 : ℝ) < (n : ℝ) - 1 := by
    have : (2 : ℝ) ≤ n := by exact_mod_cast hn
    linarith
  have h2 : (i : ℝ) < j := by exact_mod_cast hij
  have h3 : 0 < b - a := by linarith
  gcongr

/-- In an increasing list, the entries not above the `j`-th one are the first `j + 1`. -/
theorem filter_le_length {xs : List ℝ} (hs : xs.Pairwise (· < ·)) {j : ℕ} (hj : j < xs.length) :
    (xs.filter (fun x => x ≤ xs[j])).length = j + 1 := by
  induction xs generalizing j with
  | nil => simp at hj
  | cons x xs ih =>
    obtain ⟨h1, h2⟩ := List.pairwise_cons.1 hs
    cases j with
    | zero =>
      have : xs.filter (fun y => decide (y ≤ x)) = [] := by
        rw [List.filter_eq_nil_iff]
        intro y hy
        have := h1 y hy
        simpa using this
      simp [this]
    | succ j =>
      have hj' : j < xs.length := by simpa using hj
      have hx : x ≤ xs[j] := (h1 _ (List.getElem_mem hj')).le
      rw [List.getElem_cons_succ, List.filter_cons_of_pos (by simpa using hx), List.length_cons,
        ih h2 hj']

/-- Interpolating finite values on an increasing grid returns them at the nodes. -/
theorem interpLinear_node {xs : List ℝ} (hs : xs.Pairwise (· < ·)) (h2 : 2 ≤ xs.length)
    (f : ℝ → ℝ) {m : ℝ} (hm : m ∈ xs) :
    interpLinear xs (xs.map (fun x => fin (f x))) (fin m) = fin (f m) := by
  obtain ⟨j, hj, rfl⟩ := List.getElem_of_mem hm
  simp only [interpLinear]
  rw [filter_le_length hs hj]
  have hget : ∀ i (hi : i < xs.length), xs.getD i 0 = xs[i] := fun i hi =>
    List.getD_eq_getElem (l := xs) (d := 0) hi
  have hgetY : ∀ i (hi : i < xs.length), (xs.map (fun x => fin (f x))).getD i nan =
      fin (f xs[i]) := fun i hi => by
    rw [List.getD_eq_getElem (l := xs.map (fun x => fin (f x))) (d := nan) (by simpa using hi)]
    simp
  by_cases hlast : j ≤ xs.length - 2
  · rw [show min (j + 1 - 1) (xs.length - 2) = j by omega, hget j hj, hgetY j hj,
      hgetY (j + 1) (by omega)]
    simp
  · have hj1 : min (j + 1 - 1) (xs.length - 2) + 1 = j := by omega
    have hne : xs[j] - xs[min (j + 1 - 1) (xs.length - 2)]'(by omega) ≠ 0 := by
      have := (List.pairwise_iff_getElem.1 hs) (min (j + 1 - 1) (xs.length - 2)) j (by omega) hj
        (by omega)
      linarith
    rw [hj1, hget j hj, hgetY j hj, hget _ (by omega), hgetY _ (by omega), div_self hne]
    simp

/-- The norm that `p_q` divides by at a grid mass. -/
theorem norm_at_node (b : Backend) (s : Smoothed) {mmin mmax : ℝ} {nM : ℕ}
    (hgrid : s.m1s = Arr.linspaceR mmin mmax nM) (hM : 2 ≤ nM) (hlt : mmin < mmax)
    (beta lo deltaM : Fl) {m : ℝ} (hm : m ∈ s.m1s) :
    interpLinear s.m1s (s.m1s.map (qNormAt b s beta lo deltaM)) (fin m) =
      qNormAt b s beta lo deltaM m := by
  have e : s.m1s.map (qNormAt b s beta lo deltaM) =
      s.m1s.map (fun x => fin (val (qNormAt b s beta lo deltaM x))) := by
    apply List.map_congr_left
    intro x _
    obtain ⟨r, hr⟩ := qNormAt_finite b s beta lo deltaM x
    rw [hr]; rfl
  rw [e, interpLinear_node (by rw [hgrid]; exact linspaceR_sorted hlt hM)
    (by rw [hgrid, linspaceR_length]; exact hM) _ hm]
  obtain ⟨r, hr⟩ := qNormAt_finite b s beta lo deltaM m
  rw [hr]; rfl

/-- What `p_q` returns once the interpolant belongs to the dataset's masses. -/
theorem pQ_fresh (b : Backend) (s : Smoothed) (data : List (Fl × Fl)) (beta lo deltaM : Fl)
    (hstate : s.cache = false ∨ s.qMasses = none ∨ s.qMasses = some (data.map Prod.fst)) :
    (Smoothed.pQ b s data beta lo deltaM).1 =
      .ok (data.map fun d => nanToNum (pQVal b beta lo deltaM d.1 d.2 /
        interpLinear s.m1s (s.m1s.map (qNormAt b s beta lo deltaM)) d.1)) := by
  have hraw : data.mapM (fun d => Smoothed.pQRaw b beta lo deltaM d.1 d.2) =
      .ok (data.map fun d => pQVal b beta lo deltaM d.1 d.2) := mapM_ok fun d _ => pQRaw_eq ..
  set N := fun d : Fl × Fl => interpLinear s.m1s (s.m1s.map (qNormAt b s beta lo deltaM)) d.1
    with hN
  have hgood : ∀ t, SameConfig s t → t.qMasses = some (data.map Prod.fst) →
      Smoothed.divideByNorm b t (data.map fun d => pQVal b beta lo deltaM d.1 d.2) beta lo deltaM =
        .ok (data.map fun d => pQVal b beta lo deltaM d.1 d.2 / N d) := by
    intro t ht hq
    have hqn : qNormAt b t beta lo deltaM = qNormAt b s beta lo deltaM := by
      funext m; unfold qNormAt; rw [ht.qs]
    unfold Smoothed.divideByNorm
    rw [normPQ_eq, hq, ht.m1s, hqn]
    show Smoothed.inplaceDiv b _ _ = _
    rw [inplaceDiv_same b (by simp), List.map_map, List.zipWith_map, List.zipWith_self]
    rfl
  unfold Smoothed.pQ
  rw [hraw]
  simp only
  have hfin : Except.map (List.map nanToNum)
      (Except.ok (ε := PyErr) (data.map fun d => pQVal b beta lo deltaM d.1 d.2 / N d)) =
      .ok (data.map fun d => nanToNum (pQVal b beta lo deltaM d.1 d.2 / N d)) := by
    show Except.ok _ = _
    rw [List.map_map]; rfl
  by_cases hc : s.cache = true
  · rw [if_pos hc]
    rcases hstate with h | h | h
    · rw [hc] at h; cases h
    · have : Smoothed.divideByNorm b s (data.map fun d => pQVal b beta lo deltaM d.1 d.2) beta lo
          deltaM = .error .attributeError := by
        unfold Smoothed.divideByNorm; rw [normPQ_eq, h]; rfl
      rw [this]
      simp only
      rw [if_pos (show Smoothed.caught .attributeError from trivial),
        hgood _ (sameConfig_cache _ _) rfl]
      exact hfin
    · rw [hgood s (SameConfig.refl s) h]
      exact hfin
  · rw [if_neg hc, hgood _ (sameConfig_cache _ _) rfl]
    exact hfin

/-- **C23, mass ratio.** For each mass `m` of the instance's own grid: if the trapezoid sum of the
unnormalised mass-ratio density over the instance's mass-ratio grid is a positive finite number,
then evaluating `p_q` at `(m, q)` for all grid mass ratios succeeds and the trapezoid sum of the
returned values is exactly 1 (for an uncached instance, a fresh one, or one that has cached this
dataset). -/
theorem C23_massRatio (b : Backend) (s : Smoothed) {mmin mmax : ℝ} {nM : ℕ}
    (hgrid : s.m1s = Arr.linspaceR mmin mmax nM) (hM : 2 ≤ nM) (hlt : mmin < mmax)
    (hQ : 2 ≤ s.qs.length) (beta lo : Fl) {deltaM : Fl} (hd0 : ¬ eqf deltaM 0) {m : ℝ}
    (hm : m ∈ s.m1s)
    (hstate : s.cache = false ∨ s.qMasses = none ∨
      s.qMasses = some (s.qs.map fun _ => fin m))
    {raw : List Fl} {r : ℝ}
    (hraw : s.qs.mapM (fun q => do
      let p ← massRatioFactor b (fin q) beta lo (fin m)
      return p * smoothing b (fin m * fin q) lo (fin m) deltaM) = .ok raw)
    (hr : Arr.trapz raw (s.qs.map fin) = fin r) (hr0 : r ≠ 0) :
    ∃ p, (Smoothed.pQ b s (s.qs.map fun q => (fin m, fin q)) beta lo deltaM).1 = .ok p ∧
      Arr.trapz p (s.qs.map fin) = fin 1 := by
  have hraw' : s.qs.mapM (fun q => Smoothed.pQRaw b beta lo deltaM (fin m) (fin q)) = .ok raw :=
    hraw
  rw [mapM_ok (g := fun q => pQVal b beta lo deltaM (fin m) (fin q)) fun q _ => pQRaw_eq ..,
    Except.ok.injEq] at hraw'
  have hnode : interpLinear s.m1s (s.m1s.map (qNormAt b s beta lo deltaM)) (fin m) = fin r := by
    rw [norm_at_node b s hgrid hM hlt _ _ _ hm]
    unfold qNormAt
    rw [hraw', hr, ind_true hd0, ind_false hd0]
    simp
  have hlen : raw.length = s.qs.length := by rw [← hraw']; simp
  refine ⟨_, pQ_fresh b s _ beta lo deltaM (by simpa [List.map_map, Function.comp_def] using hstate),
    ?_⟩
  have hfinraw := trapz_isFinite (xs := s.qs.map fin) (by simpa using hlen) (by omega)
    (by rw [hr]; trivial)
  have e : (s.qs.map fun q => (fin m, fin q)).map (fun d : Fl × Fl =>
      nanToNum (pQVal b beta lo deltaM d.1 d.2 /
        interpLinear s.m1s (s.m1s.map (qNormAt b s beta lo deltaM)) d.1)) =
      raw.map (· / fin r) := by
    rw [List.map_map, ← hraw', List.map_map]
    apply List.map_congr_left
    intro q hq
    obtain ⟨v, hv⟩ := isFinite_iff.1 (hfinraw (pQVal b beta lo deltaM (fin m) (fin q))
      (by rw [← hraw']; exact List.mem_map.2 ⟨q, hq, rfl⟩))
    simp only [Function.comp, hnode, hv, fin_div hr0, nanToNum_fin]
  rw [e]
  exact trapz_normalise hlen (by omega) hr hr0

/-! ### The norms are positive for sensible hyper-parameters -/

theorem trapzR_pos_of_exists {ys xs : List ℝ} (hlen : ys.length = xs.length) (h2 : 2 ≤ xs.length)
    (hy : ∀ y ∈ ys, 0 ≤ y) (hx : xs.Pairwise (· < ·)) (hpos : ∃ y ∈ ys, 0 < y) :
    0 < Arr.trapzR ys xs := by
  induction ys, xs using Arr.trapz_induction with
  | h1 xs => obtain ⟨y, h, -⟩ := hpos; simp at h
  | h2 y xs => simp at hlen; omega
  | h3 ys => simp at h2
  | h4 ys x => simp at h2
  | h5 y0 y1 ys x0 x1 xs ih =>
    rw [Arr.trapzR_cons]
    obtain ⟨hx1, hx2⟩ := List.pairwise_cons.1 hx
    have hd : 0 < x1 - x0 := by have := hx1 x1 (by simp); linarith
    have h0 := hy y0 (by simp)
    have h1 := hy y1 (by simp)
    have hrest : 0 ≤ Arr.trapzR (y1 :: ys) (x1 :: xs) :=
      Arr.trapzR_nonneg (fun y h => hy y (by simp only [List.mem_cons] at h ⊢; tauto))
        (hx2.isChain.imp fun _ _ h => h.le)
    have hfirst : 0 ≤ (x1 - x0) * (y1 + y0) / 2 := by positivity
    obtain ⟨y, hmem, hp⟩ := hpos
    rcases List.mem_cons.1 hmem with rfl | hmem
    · have : 0 < (x1 - x0) * (y1 + y) / 2 := by positivity
      linarith
    · by_cases hl : 2 ≤ (x1 :: xs).length
      · have := ih (by simpa using hlen) hl
          (fun y h => hy y (by simp only [List.mem_cons] at h ⊢; tauto)) hx2 ⟨y, hmem, hp⟩
        linarith
      · have : ys = [] := by
          rw [← List.length_eq_zero_iff]
          simp only [List.length_cons] at hlen hl; omega
        subst this
        simp only [List.mem_singleton] at hmem
        subst hmem
        have : 0 < (x1 - x0) * (y + y0) / 2 := by positivity
        linarith

/-- **C23, primary mass, without a condition on the norm.** If the primary model returns
non-negative finite numbers on the instance's grid and a positive one at some grid mass not
below the requested `mmin`, then for every `delta_m > 0` the returned density sums to 1. -/
theorem C23_primary_of_nonneg (b : Backend) (s : Smoothed) (kwargs : Dict Fl) {d lo : ℝ} {nM : ℕ}
    (hgrid : s.m1s = Arr.linspaceR s.mmin s.mmax nM) (hM : 2 ≤ nM) (hlt : s.mmin < s.mmax)
    (hd : Smoothed.kwGet kwargs "delta_m" 0 = fin d) (hd0 : 0 < d)
    (hlo : Smoothed.kwGet kwargs "mmin" (fin s.mmin) = fin lo) (f : ℝ → ℝ)
    (hf : ∀ m ∈ s.m1s, s.primary b (Dict.erase kwargs "delta_m") (fin m) = .ok (fin (f m)))
    (hf0 : ∀ m ∈ s.m1s, 0 ≤ f m) (hpos : ∃ m ∈ s.m1s, lo ≤ m ∧ 0 < f m) :
    ∃ p, Smoothed.pM1 b s (s.m1s.map fin) kwargs = .ok p ∧
      Arr.trapz p (s.m1s.map fin) = fin 1 := by
  set w := fun m : ℝ => if lo ≤ m ∧ m ≤ s.mmax then taper ((m - lo) / d) else 0 with hw
  have hle : ∀ m ∈ s.m1s, m ≤ s.mmax := by
    intro m hm
    rw [hgrid] at hm
    obtain ⟨i, hi, rfl⟩ := List.mem_map.1 hm
    have hi : i < nM := List.mem_range.1 hi
    have h1 : (0 : ℝ) < (nM : ℝ) - 1 := by
      have : (2 : ℝ) ≤ nM := by exact_mod_cast hM
      linarith
    have h2 : (i : ℝ) ≤ (nM : ℝ) - 1 := by
      have : (i : ℝ) + 1 ≤ nM := by exact_mod_cast hi
      linarith
    have h3 : (s.mmax - s.mmin) * (i : ℝ) / ((nM : ℝ) - 1) ≤ s.mmax - s.mmin := by
      rw [div_le_iff₀ h1]
      exact mul_le_mul_of_nonneg_left h2 (by linarith)
    linarith
  have hw0 : ∀ m, 0 ≤ w m := by
    intro m; rw [hw]; simp only; split_ifs
    · exact (taper_pos _).le
    · exact le_refl _
  have hT : Arr.trapz (s.m1s.map fun m => fin (f m * w m)) (s.m1s.map fin) =
      fin (Arr.trapzR (s.m1s.map fun m => f m * w m) s.m1s) := by
    rw [← Arr.trapz_fin, List.map_map]; rfl
  refine C23_primary b s kwargs (by rw [hgrid, linspaceR_length]; exact hM) hd (by simp [hd0.ne'])
    (raw := s.m1s.map fun m => fin (f m * w m)) ?_ hT (ne_of_gt ?_)
  · apply mapM_ok
    intro m hm
    rw [hf m hm, hlo]
    show Except.ok _ = _
    rw [smoothing_fin b m lo s.mmax hd0, fin_mul]
  · apply trapzR_pos_of_exists (by simp) (by rw [hgrid, linspaceR_length]; exact hM)
    · intro y hy
      obtain ⟨m, hm, rfl⟩ := List.mem_map.1 hy
      exact mul_nonneg (hf0 m hm) (hw0 m)
    · rw [hgrid]; exact linspaceR_sorted hlt hM
    · obtain ⟨m, hm, h1, h2⟩ := hpos
      refine ⟨_, List.mem_map.2 ⟨m, hm, rfl⟩, mul_pos h2 ?_⟩
      rw [hw]; simp only; rw [if_pos ⟨h1, hle m hm⟩]
      exact taper_pos _

theorem normalised_rpow_nonneg {lo : ℝ} (h0 : 0 < lo) (beta x : ℝ) :
    0 ≤ normalised (fun t => t ^ beta) lo 1 x := by
  simp only [normalised]
  split_ifs with h
  · have : lo ≤ 1 := h.1.trans h.2
    exact div_nonneg (Real.rpow_nonneg (by linarith [h.1]) _)
      (intervalIntegral.integral_nonneg this fun t ht => Real.rpow_nonneg (by linarith [ht.1]) _)
  · exact le_refl _

/-- **C23, mass ratio, without a condition on the norm.** At every grid mass above the requested
`mmin`, for every real `beta` and every `delta_m > 0`. -/
theorem C23_massRatio_above (b : Backend) (s : Smoothed) {mmin mmax : ℝ} {nM nQ : ℕ}
    (hgrid : s.m1s = Arr.linspaceR mmin mmax nM) (hM : 2 ≤ nM) (hlt : mmin < mmax)
    (hqgrid : s.qs = Arr.linspaceR 0.001 1 nQ) (hQ : 2 ≤ nQ) {beta lo d m : ℝ} (hd0 : 0 < d)
    (h0 : 0 < lo) (hm : m ∈ s.m1s) (hlo : lo < m)
    (hstate : s.cache = false ∨ s.qMasses = none ∨
      s.qMasses = some (s.qs.map fun _ => fin m)) :
    ∃ p, (Smoothed.pQ b s (s.qs.map fun q => (fin m, fin q)) (fin beta) (fin lo) (fin d)).1 =
        .ok p ∧
      Arr.trapz p (s.qs.map fin) = fin 1 := by
  have hm0 : 0 < m := h0.trans hlo
  have hQl : 2 ≤ s.qs.length := by rw [hqgrid, linspaceR_length]; exact hQ
  have hn1 : (0 : ℝ) < (nQ : ℝ) - 1 := by
    have : (2 : ℝ) ≤ nQ := by exact_mod_cast hQ
    linarith
  have hqpos : ∀ q ∈ s.qs, 0 < q := by
    intro q hq
    rw [hqgrid] at hq
    obtain ⟨i, -, rfl⟩ := List.mem_map.1 hq
    have : (0 : ℝ) ≤ (1 - 0.001) * (i : ℝ) / ((nQ : ℝ) - 1) := by
      apply div_nonneg _ hn1.le
      have : (0 : ℝ) ≤ i := Nat.cast_nonneg i
      norm_num
    norm_num at this ⊢; linarith
  have h1mem : (1 : ℝ) ∈ s.qs := by
    rw [hqgrid]
    refine List.mem_map.2 ⟨nQ - 1, List.mem_range.2 (by omega), ?_⟩
    rw [Nat.cast_sub (by omega), Nat.cast_one, mul_div_assoc, div_self hn1.ne']
    ring
  set w := fun q : ℝ => if lo ≤ m * q ∧ m * q ≤ m then taper ((m * q - lo) / d) else 0 with hw
  set g := fun q : ℝ => normalised (fun t => t ^ beta) (lo / m) 1 q * w q with hg
  have hw0 : ∀ q, 0 ≤ w q := by
    intro m; rw [hw]; simp only; split_ifs
    · exact (taper_pos _).le
    · exact le_refl _
  have hT : Arr.trapz (s.qs.map fun q => fin (g q)) (s.qs.map fin) =
      fin (Arr.trapzR (s.qs.map g) s.qs) := by
    rw [← Arr.trapz_fin, List.map_map]; rfl
  refine C23_massRatio b s hgrid hM hlt hQl (fin beta) (fin lo) (by simp [hd0.ne']) hm hstate
    (raw := s.qs.map fun q => fin (g q)) ?_ hT (ne_of_gt ?_)
  · apply mapM_ok
    intro q hq
    rw [massRatioFactor_eq b h0 hm0 hlo.ne' (hqpos q hq)]
    show Except.ok _ = _
    rw [fin_mul, smoothing_fin b _ lo m hd0, fin_mul]
  · apply trapzR_pos_of_exists (by simp) hQl
    · intro y hy
      obtain ⟨q, -, rfl⟩ := List.mem_map.1 hy
      exact mul_nonneg (normalised_rpow_nonneg (by positivity) _ _) (hw0 q)
    · rw [hqgrid]; exact linspaceR_sorted (by norm_num) hQ
    · refine ⟨_, List.mem_map.2 ⟨1, h1mem, rfl⟩, ?_⟩
      have hl1 : lo / m < 1 := (div_lt_one hm0).2 hlo
      have hl0 : 0 < lo / m := by positivity
      apply mul_pos
      · simp only [normalised]
        rw [if_pos ⟨hl1.le, le_refl _⟩, Real.one_rpow]
        exact one_div_pos.2 (integral_rpow_pos hl0 hl1)
      · rw [hw]; simp only
        rw [if_pos ⟨by linarith, by linarith⟩]
        exact taper_pos _

end GW
