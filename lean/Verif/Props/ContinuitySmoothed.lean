import Verif.Props.Continuity

/-!
# C91: the smoothed mass models
-/

noncomputable section

open Classical Set Filter Topology MeasureTheory

namespace GW

open Fl Spec

variable {P : Type*} [TopologicalSpace P]

/-! ### Sums over grids -/

theorem continuousAt_trapzR {F : P → ℝ → ℝ} {p : P} (xs : List ℝ)
    (hF : ∀ x ∈ xs, ContinuousAt (fun p => F p x) p) :
    ContinuousAt (fun p => Arr.trapzR (xs.map (F p)) xs) p := by
  induction xs with
  | nil => simp only [List.map_nil, Arr.trapzR]; exact continuousAt_const
  | cons x0 xs ih =>
    cases xs with
    | nil => simp only [List.map_nil, List.map_cons, Arr.trapzR]; exact continuousAt_const
    | cons x1 xs =>
      simp only [List.map_cons, Arr.trapzR]
      refine ContinuousAt.add ?_ ?_
      · exact (continuousAt_const.mul ((hF x1 (by simp)).add (hF x0 (by simp)))).div_const 2
      · exact ih fun x hx => hF x (by simp only [List.mem_cons] at hx ⊢; tauto)

theorem continuousAt_window {lo hi d m : P → ℝ} {p : P} (hlo : ContinuousAt lo p)
    (hhi : ContinuousAt hi p) (hd : ContinuousAt d p) (hd0 : d p ≠ 0) (hm : ContinuousAt m p)
    (h1 : m p ≠ lo p) (h2 : m p ≠ hi p ∨ ∀ p', m p' ≤ hi p') :
    ContinuousAt (fun p => window (lo p) (hi p) (d p) (m p)) p := by
  rcases lt_or_gt_of_ne h1 with h | h
  · refine (continuousAt_const (y := (0 : ℝ))).congr ?_
    filter_upwards [hm.eventually_lt hlo h] with p' hp'
    unfold window
    rw [if_neg (fun hc => absurd hc.1 (not_le.2 hp'))]
  · rcases lt_or_ge (hi p) (m p) with h' | h'
    · refine (continuousAt_const (y := (0 : ℝ))).congr ?_
      filter_upwards [hhi.eventually_lt hm h'] with p' hp'
      unfold window
      rw [if_neg (fun hc => absurd hc.2 (not_le.2 hp'))]
    · have hev : ∀ᶠ p' in 𝓝 p, m p' ≤ hi p' := by
        rcases h2 with h2 | h2
        · exact (hm.eventually_lt hhi (lt_of_le_of_ne h' h2)).mono fun _ h => h.le
        · exact Eventually.of_forall h2
      refine (taper_continuous.continuousAt.comp (f := fun p => (m p - lo p) / d p)
        ((hm.sub hlo).div hd hd0)).congr ?_
      filter_upwards [hlo.eventually_lt hm h, hev] with p' q1 q2
      unfold window
      rw [if_pos ⟨q1.le, q2⟩]
      rfl

theorem continuousAt_broken {a1 a2 mb x : P → ℝ} {p : P} (h1 : ContinuousAt a1 p)
    (h2 : ContinuousAt a2 p) (hmb : ContinuousAt mb p) (hx : ContinuousAt x p) (hb : 0 < mb p)
    (h0 : 0 < x p) : ContinuousAt (fun p => brokenShape (a1 p) (a2 p) (mb p) (x p)) p := by
  have hr : ContinuousAt (fun p => x p / mb p) p := hx.div hmb hb.ne'
  have hr0 : 0 < x p / mb p := div_pos h0 hb
  have e : (fun p => (min (x p / mb p) 1) ^ (-a1 p) * (max (x p / mb p) 1) ^ (-a2 p)) =ᶠ[𝓝 p]
      fun p => brokenShape (a1 p) (a2 p) (mb p) (x p) := by
    filter_upwards [hmb.eventually (lt_mem_nhds hb)] with p' hp'
    unfold brokenShape
    split_ifs with h
    · have : x p' / mb p' ≤ 1 := (div_le_one hp').2 h.le
      rw [min_eq_left this, max_eq_right this, Real.one_rpow, mul_one]
    · have : 1 ≤ x p' / mb p' := (one_le_div hp').2 (not_lt.1 h)
      rw [min_eq_right this, max_eq_left this, Real.one_rpow, one_mul]
  refine ContinuousAt.congr ?_ e
  exact ((hr.min continuousAt_const).rpow h1.neg (.inl (lt_min hr0 one_pos).ne')).mul
    ((hr.max continuousAt_const).rpow h2.neg (.inl (lt_max_of_lt_right one_pos).ne'))

theorem continuousAt_normalised_broken {a1 a2 mb lo hi x : P → ℝ} {p : P} (h1 : ContinuousAt a1 p)
    (h2 : ContinuousAt a2 p) (hmb : ContinuousAt mb p) (hlo : ContinuousAt lo p)
    (hhi : ContinuousAt hi p) (hx : ContinuousAt x p) (h0 : 0 < lo p) (hb1 : lo p < mb p)
    (hb2 : mb p < hi p) (hx1 : x p ≠ lo p) (hx2 : x p ≠ hi p ∨ ∀ p', x p' ≤ hi p') :
    ContinuousAt (fun p => normalised (brokenShape (a1 p) (a2 p) (mb p)) (lo p) (hi p) (x p)) p := by
  have hb : 0 < mb p := h0.trans hb1
  refine continuousAt_normalised hlo hhi hx (fun h3 _ => ?_) ?_
    (integral_brokenShape_pos _ _ h0 hb (hb1.trans hb2)).ne' hx1 hx2
  · exact continuousAt_broken h1 h2 hmb hx hb (h0.trans h3)
  · have e : (fun p => (∫ t in lo p..mb p, t ^ (-a1 p)) / mb p ^ (-a1 p) +
        (∫ t in mb p..hi p, t ^ (-a2 p)) / mb p ^ (-a2 p)) =ᶠ[𝓝 p]
        fun p => ∫ t in lo p..hi p, brokenShape (a1 p) (a2 p) (mb p) t := by
      filter_upwards [hlo.eventually (lt_mem_nhds h0), hlo.eventually_lt hmb hb1,
        hmb.eventually_lt hhi hb2] with p' q1 q2 q3
      exact (integral_brokenShape _ _ q1 q2 q3).symm
    refine ContinuousAt.congr ?_ e
    exact ((continuousAt_integral_rpow h1.neg hlo hmb h0 hb).div (hmb.rpow h1.neg (.inl hb.ne'))
        (Real.rpow_pos_of_pos hb _).ne').add
      ((continuousAt_integral_rpow h2.neg hmb hhi hb (hb.trans hb2)).div
        (hmb.rpow h2.neg (.inl hb.ne')) (Real.rpow_pos_of_pos hb _).ne')

/-! ### Any smoothed model -/

/-- The primary mass density: continuous unless the requested `mmin` is a grid mass or a datum. -/
theorem pM1_continuous (b : Backend) (s : Smoothed) {kw : P → Dict Fl} {d lo : P → ℝ}
    {f : P → ℝ → ℝ} {p : P} {nM : ℕ} (hgrid : s.m1s = Arr.linspaceR s.mmin s.mmax nM)
    (hd : ∀ p', Smoothed.kwGet (kw p') "delta_m" 0 = fin (d p'))
    (hlo : ∀ p', Smoothed.kwGet (kw p') "mmin" (fin s.mmin) = fin (lo p')) (cd : ContinuousAt d p)
    (clo : ContinuousAt lo p) (hd0 : 0 < d p) {masses : List ℝ}
    (hf : ∀ᶠ p' in 𝓝 p, ∀ m, m ∈ s.m1s ∨ m ∈ masses →
      s.primary b (Dict.erase (kw p') "delta_m") (fin m) = .ok (fin (f p' m)))
    (cf : ∀ m, m ∈ s.m1s ∨ m ∈ masses → ContinuousAt (fun p' => f p' m) p)
    (hne : ∀ m, m ∈ s.m1s ∨ m ∈ masses → m ≠ lo p)
    (hN : Arr.trapzR (s.m1s.map fun m => f p m * window (lo p) s.mmax (d p) m) s.m1s ≠ 0) :
    ContinuousResults (fun p' => Smoothed.pM1 b s (masses.map fin) (kw p')) masses p := by
  have cw : ∀ m, m ∈ s.m1s ∨ m ∈ masses →
      ContinuousAt (fun p' => f p' m * window (lo p') s.mmax (d p') m) p := fun m hm =>
    (cf m hm).mul (continuousAt_window (hi := fun _ => s.mmax) (m := fun _ => m) clo
      continuousAt_const cd hd0.ne' continuousAt_const (hne m hm) (by
        by_cases h : m = s.mmax
        · exact .inr fun _ => h.le
        · exact .inl h))
  have cN := continuousAt_trapzR (F := fun p' m => f p' m * window (lo p') s.mmax (d p') m) s.m1s
    fun m hm => cw m (.inl hm)
  refine ⟨fun p' m => f p' m * window (lo p') s.mmax (d p') m /
    Arr.trapzR (s.m1s.map fun m => f p' m * window (lo p') s.mmax (d p') m) s.m1s,
    fun m hm => (cw m (.inr hm)).div cN hN, ?_⟩
  filter_upwards [hf, cd.eventually (lt_mem_nhds hd0), cN.eventually_ne hN] with p' q1 q2 q3
  rw [pM1_value b s (kw p') hgrid (hd p') q2 (hlo p') (fun m hm => q1 m (.inl hm))
    (fun m hm => q1 m (.inr hm)) rfl]
  congr 1
  apply List.map_congr_left
  intro m _
  rw [← hgrid, fin_div q3]

/-- The mass-ratio norm at a grid mass `m`. -/
theorem gridNorm_continuous {beta lo d : P → ℝ} {p : P} {n : ℕ} (hn : 2 ≤ n) (cb : ContinuousAt beta p)
    (clo : ContinuousAt lo p) (cd : ContinuousAt d p) (hd0 : 0 < d p) (h0 : 0 < lo p) {m : ℝ}
    (hm : lo p < m) (hne : ∀ q ∈ Arr.linspaceR 0.001 1 n, m * q ≠ lo p) :
    ContinuousAt (fun p' => gridNorm (beta p') (lo p') (d p') m n) p := by
  have hm0 : 0 < m := h0.trans hm
  unfold gridNorm
  refine continuousAt_trapzR (F := fun p' q => normalised (fun t => t ^ beta p') (lo p' / m) 1 q *
    window (lo p') m (d p') (m * q)) _ fun q hq => ?_
  obtain ⟨h1, h2⟩ := linspaceR_mem (by norm_num) hn hq
  refine ContinuousAt.mul ?_ ?_
  · refine continuousAt_powerlaw (hi := fun _ => 1) (x := fun _ => q) cb (clo.div_const m)
      continuousAt_const continuousAt_const (by positivity) ((div_lt_one hm0).2 hm) ?_
      (.inr fun _ => h2)
    rw [Ne, eq_div_iff hm0.ne', mul_comm]
    exact hne q hq
  · exact continuousAt_window (hi := fun _ => m) (m := fun _ => m * q) clo continuousAt_const cd hd0.ne'
      continuousAt_const (hne q hq) (.inr fun _ => by nlinarith)

theorem gridNorm_pos (beta : ℝ) {lo m : ℝ} (d : ℝ) (h0 : 0 < lo) (hm : lo < m) {n : ℕ}
    (hn : 2 ≤ n) : 0 < gridNorm beta lo d m n := by
  have hm0 : 0 < m := h0.trans hm
  have hl : lo / m < 1 := (div_lt_one hm0).2 hm
  have hI : 0 < ∫ t in lo / m..1, t ^ beta := integral_rpow_pos (by positivity) hl
  unfold gridNorm
  apply trapzR_pos_of_exists (by simp) (by rw [linspaceR_length]; exact hn)
  · intro y hy
    obtain ⟨q, -, rfl⟩ := List.mem_map.1 hy
    exact mul_nonneg ((isPdf_powerlaw beta (by positivity) hl).nonneg q) (window_nonneg _ _ _ _)
  · exact linspaceR_sorted (by norm_num) hn
  · refine ⟨_, List.mem_map.2 ⟨1, linspaceR_last 0.001 1 hn, rfl⟩, mul_pos
      (normalised_pos hI ⟨hl.le, le_rfl⟩ (by rw [Real.one_rpow]; exact one_pos)) ?_⟩
    unfold window
    rw [mul_one, if_pos ⟨hm.le, le_rfl⟩]
    exact taper_pos _

/-- The mass-ratio density on an instance without stored norms. Every datum is more than one grid
cell above `mmin`, none sits at the edge of the support, and no product of a grid mass and a
grid mass ratio is `mmin`. -/
theorem pQ_continuous (b : Backend) (s : Smoothed) {beta lo d : P → ℝ} {p : P} {nM nQ : ℕ}
    (hM : 2 ≤ nM) (hQ : 2 ≤ nQ) (hgrid : s.m1s = Arr.linspaceR s.mmin s.mmax nM)
    (hqs : s.qs = Arr.linspaceR 0.001 1 nQ) (hlt : s.mmin < s.mmax) (hs : s.qMasses = none)
    (cb : ContinuousAt beta p) (clo : ContinuousAt lo p) (cd : ContinuousAt d p) (hd0 : 0 < d p)
    (h0 : 0 < lo p) (hlo : s.mmin ≤ lo p) {data : List (ℝ × ℝ)}
    (hdata : ∀ e ∈ data, lo p + (s.mmax - s.mmin) / ((nM : ℝ) - 1) < e.1 ∧ e.1 ≤ s.mmax ∧ 0 < e.2 ∧
      e.1 * e.2 ≠ lo p ∧ e.2 ≠ 1)
    (hne : ∀ m ∈ s.m1s, ∀ q ∈ s.qs, m * q ≠ lo p) :
    ∃ g : P → ℝ × ℝ → ℝ, (∀ e ∈ data, ContinuousAt (fun p' => g p' e) p) ∧
      (∀ᶠ p' in 𝓝 p, (Smoothed.pQ b s (data.map fun e => (fin e.1, fin e.2))
        (fin (beta p')) (fin (lo p')) (fin (d p'))).1 = .ok (data.map fun e => fin (g p' e))) ∧
      ∀ e ∈ data, lo p < e.1 * e.2 → e.2 < 1 → 0 < g p e := by
  have hcellpos : 0 < (s.mmax - s.mmin) / ((nM : ℝ) - 1) := by
    have : (2 : ℝ) ≤ nM := by exact_mod_cast hM
    exact div_pos (by linarith) (by linarith)
  have hcell : ∀ e : ℝ × ℝ, ∃ x0 x1 t : ℝ, e ∈ data → 0 ≤ t ∧ t ≤ 1 ∧ x0 ∈ s.m1s ∧ x1 ∈ s.m1s ∧
      lo p < x0 ∧ lo p < x1 ∧ ∀ f : ℝ → Fl, interpLinear s.m1s (s.m1s.map f) (fin e.1) =
        f x0 + fin t * (f x1 - f x0) := by
    intro e
    by_cases he : e ∈ data
    · obtain ⟨h1, h2, -⟩ := hdata e he
      obtain ⟨x0, hx0, x1, hx1, t, ht0, ht1, hl, hu, hdx, hval⟩ :=
        interpLinear_cell hlt hM (m := e.1) ⟨by linarith, h2⟩
      exact ⟨x0, x1, t, fun _ => ⟨ht0, ht1, hgrid ▸ hx0, hgrid ▸ hx1, by linarith, by linarith,
        by rwa [hgrid]⟩⟩
    · exact ⟨0, 0, 0, fun h => absurd h he⟩
  choose x0 x1 t hcell using hcell
  have cY : ∀ e ∈ data, ContinuousAt (fun p' => gridNorm (beta p') (lo p') (d p') (x0 e) nQ +
      t e * (gridNorm (beta p') (lo p') (d p') (x1 e) nQ -
        gridNorm (beta p') (lo p') (d p') (x0 e) nQ)) p := by
    intro e he
    obtain ⟨-, -, m0, m1, l0, l1, -⟩ := hcell e he
    have c0 := gridNorm_continuous hQ cb clo cd hd0 h0 l0 (fun q hq => hne _ m0 q (hqs ▸ hq))
    have c1 := gridNorm_continuous hQ cb clo cd hd0 h0 l1 (fun q hq => hne _ m1 q (hqs ▸ hq))
    exact c0.add (continuousAt_const.mul (c1.sub c0))
  have hYpos : ∀ e ∈ data, 0 < gridNorm (beta p) (lo p) (d p) (x0 e) nQ +
      t e * (gridNorm (beta p) (lo p) (d p) (x1 e) nQ -
        gridNorm (beta p) (lo p) (d p) (x0 e) nQ) := by
    intro e he
    obtain ⟨t0, t1, -, -, l0, l1, -⟩ := hcell e he
    have := mix_pos t0 t1 (gridNorm_pos (beta p) (d p) h0 l0 hQ) (gridNorm_pos (beta p) (d p) h0 l1 hQ)
    linarith
  have hY := fun e he => (hYpos e he).ne'
  refine ⟨fun p' e => normalised (fun t => t ^ beta p') (lo p' / e.1) 1 e.2 *
    window (lo p') e.1 (d p') (e.1 * e.2) / (gridNorm (beta p') (lo p') (d p') (x0 e) nQ +
      t e * (gridNorm (beta p') (lo p') (d p') (x1 e) nQ -
        gridNorm (beta p') (lo p') (d p') (x0 e) nQ)), fun e he => ?_, ?_, fun e he hlo1 hq1 => ?_⟩
  · refine ContinuousAt.div ?_ (cY e he) (hY e he)
    obtain ⟨h1, h2, h3, h4, h5⟩ := hdata e he
    have hm : lo p < e.1 := by linarith
    have hm0 : 0 < e.1 := h0.trans hm
    refine ContinuousAt.mul ?_ ?_
    · refine continuousAt_powerlaw (hi := fun _ => 1) (x := fun _ => e.2) cb (clo.div_const e.1)
        continuousAt_const continuousAt_const (by positivity) ((div_lt_one hm0).2 hm) ?_ (.inl h5)
      rw [Ne, eq_div_iff hm0.ne', mul_comm]
      exact h4
    · refine continuousAt_window (hi := fun _ => e.1) (m := fun _ => e.1 * e.2) clo continuousAt_const
        cd hd0.ne' continuousAt_const h4 (.inl fun h => h5 ?_)
      exact mul_left_cancel₀ hm0.ne' (by rw [h, mul_one])
  · have hall : ∀ᶠ p' in 𝓝 p, ∀ e ∈ data, lo p' < x0 e ∧ lo p' < x1 e ∧ lo p' < e.1 ∧
        gridNorm (beta p') (lo p') (d p') (x0 e) nQ + t e * (gridNorm (beta p') (lo p') (d p') (x1 e) nQ -
        gridNorm (beta p') (lo p') (d p') (x0 e) nQ) ≠ 0 := by
      have : ∀ e ∈ data.toFinset, ∀ᶠ p' in 𝓝 p, lo p' < x0 e ∧ lo p' < x1 e ∧ lo p' < e.1 ∧
          gridNorm (beta p') (lo p') (d p') (x0 e) nQ +
            t e * (gridNorm (beta p') (lo p') (d p') (x1 e) nQ -
              gridNorm (beta p') (lo p') (d p') (x0 e) nQ) ≠ 0 := by
        intro e he
        have he := List.mem_toFinset.1 he
        obtain ⟨-, -, -, -, l0, l1, -⟩ := hcell e he
        have h1 : lo p < e.1 := by linarith [(hdata e he).1]
        filter_upwards [clo.eventually (gt_mem_nhds l0), clo.eventually (gt_mem_nhds l1),
          clo.eventually (gt_mem_nhds h1), (cY e he).eventually_ne (hY e he)] with p' q1 q2 q3 q4
        exact ⟨q1, q2, q3, q4⟩
      filter_upwards [(Filter.eventually_all_finset _).2 this] with p' hp' e he
      exact hp' e (List.mem_toFinset.2 he)
    filter_upwards [hall, clo.eventually (lt_mem_nhds h0), cd.eventually (lt_mem_nhds hd0)] with
      p' q1 q2 q3
    rw [pQ_fresh b _ _ _ _ _ (Or.inr (Or.inl hs)), List.map_map]
    congr 1
    apply List.map_congr_left
    intro e he
    obtain ⟨h1, h2, h3, h4⟩ := q1 e he
    obtain ⟨-, -, -, -, -, -, hval⟩ := hcell e he
    simp only [Function.comp_apply]
    rw [pQVal_eq b q3 q2 h3 (hdata e he).2.2.1, hval,
      qNormAt_eq_gridNorm b hQ hqs q3 q2 h1, qNormAt_eq_gridNorm b hQ hqs q3 q2 h2, fin_sub, fin_mul,
      fin_add, fin_div h4, nanToNum_fin]
  · have hm : lo p < e.1 := by linarith [(hdata e he).1]
    have hm0 : 0 < e.1 := h0.trans hm
    have hle : lo p / e.1 ≤ e.2 := by rw [div_le_iff₀ hm0, mul_comm]; exact hlo1.le
    refine div_pos (mul_pos (normalised_pos (integral_rpow_pos (by positivity)
      ((div_lt_one hm0).2 hm)) ⟨hle, hq1.le⟩ (Real.rpow_pos_of_pos (hdata e he).2.2.1 _)) ?_) (hYpos e he)
    unfold window
    rw [if_pos ⟨hlo1.le, by nlinarith⟩]
    exact taper_pos _

/-- Calls of any smoothed model. -/
theorem call_continuous (b : Backend) (primary : Primary) (fixed : Dict Fl) (cache : Bool)
    {selfMin selfMax : ℝ} {nM nQ : ℕ} {s : Smoothed}
    (hs : Smoothed.init primary fixed selfMin selfMax nM nQ cache = .ok s) {kw : P → Dict Fl}
    {beta d lo hi : P → ℝ} {f : P → ℝ → ℝ} {p : P}
    (hbeta : ∀ p', Dict.get? (kw p') "beta" = some (fin (beta p')))
    (hmin : ∀ p', Dict.get? (kw p') "mmin" = some (fin (lo p')))
    (hmax : ∀ p', Dict.get? (kw p') "mmax" = some (fin (hi p')))
    (hdm : ∀ p', Dict.get? (kw p') "delta_m" = some (fin (d p')))
    (hdup : ∀ p', ∀ k ∈ Dict.keys fixed, k ∉ Dict.keys (kw p'))
    (cb : ContinuousAt beta p) (clo : ContinuousAt lo p) (chi : ContinuousAt hi p)
    (cd : ContinuousAt d p) (hd0 : 0 < d p) (hself : 0 < selfMin) (hlo : selfMin < lo p)
    (hhi : hi p < selfMax) (hlt : selfMin < selfMax) {data : List (ℝ × ℝ)}
    (hdata : ∀ e ∈ data, lo p + (selfMax - selfMin) / ((nM : ℝ) - 1) < e.1 ∧ e.1 ≤ selfMax ∧ 0 < e.2 ∧
      e.1 * e.2 ≠ lo p ∧ e.2 ≠ 1)
    (hq : ∀ m ∈ Arr.linspaceR selfMin selfMax nM, ∀ q ∈ Arr.linspaceR 0.001 1 nQ, m * q ≠ lo p)
    (hf : ∀ᶠ p' in 𝓝 p, ∀ m, 0 < m →
      primary b (Dict.erase (Dict.erase (kw p') "beta" ++ fixed) "delta_m") (fin m) =
        .ok (fin (f p' m)))
    (cf : ∀ m, m ∈ Arr.linspaceR selfMin selfMax nM ∨ m ∈ data.map Prod.fst →
      ContinuousAt (fun p' => f p' m) p)
    (hf0 : ∀ m, 0 ≤ f p m)
    (hpos : ∃ m ∈ Arr.linspaceR selfMin selfMax nM, lo p < m ∧ 0 < f p m) :
    ContinuousResults (fun p' => (Smoothed.call b s (data.map fun e => (fin e.1, fin e.2))
      (kw p')).1) data p := by
  obtain ⟨hM, hQ, rfl⟩ := init_inv hs
  have hcellpos : 0 < (selfMax - selfMin) / ((nM : ℝ) - 1) := by
    have : (2 : ℝ) ≤ nM := by exact_mod_cast hM
    exact div_pos (by linarith) (by linarith)
  have hkw : ∀ p' k v dflt, k ≠ "beta" → Dict.get? (kw p') k = some v →
      Smoothed.kwGet (Dict.erase (kw p') "beta") k dflt = v := by
    intro p' k v dflt hk hv
    unfold Smoothed.kwGet
    rw [Dict.get?_erase, if_neg hk, hv]; rfl
  have hkw' : ∀ p' k v dflt, k ≠ "beta" → Dict.get? (kw p') k = some v →
      Smoothed.kwGet (Dict.erase (kw p') "beta" ++ fixed) k dflt = v := by
    intro p' k v dflt hk hv
    unfold Smoothed.kwGet
    rw [Dict.get?_append, Dict.get?_erase, if_neg hk, hv]; rfl
  have h0 : 0 < lo p := by linarith
  have hmempos : ∀ m, m ∈ Arr.linspaceR selfMin selfMax nM ∨ m ∈ data.map Prod.fst →
      0 < m ∧ m ≠ lo p := by
    rintro m (hm | hm)
    · refine ⟨by linarith [(linspaceR_mem hlt.le hM hm).1], ?_⟩
      have := hq m hm 1 (linspaceR_last 0.001 1 hQ)
      rwa [mul_one] at this
    · obtain ⟨e, he, rfl⟩ := List.mem_map.1 hm
      have := (hdata e he).1
      exact ⟨by linarith, by linarith [(hdata e he).1] |> fun (h : lo p < e.1) => h.ne'⟩
  obtain ⟨g1, c1, v1⟩ := pM1_continuous b (Smoothed.mk primary fixed selfMin selfMax
    (Arr.linspaceR selfMin selfMax nM) (Arr.linspaceR 0.001 1 nQ) cache none)
    (kw := fun p' => Dict.erase (kw p') "beta" ++ fixed) (f := f) (nM := nM) rfl
    (fun p' => hkw' p' _ _ _ (by decide) (hdm p')) (fun p' => hkw' p' _ _ _ (by decide) (hmin p'))
    cd clo hd0 (masses := data.map Prod.fst)
    (by filter_upwards [hf] with p' hp' m hm using hp' m (hmempos m hm).1)
    cf (fun m hm => (hmempos m hm).2) (by
      refine (trapzR_pos_of_exists (by simp) (by rw [linspaceR_length]; exact hM) ?_
        (linspaceR_sorted hlt hM) ?_).ne'
      · intro y hy
        obtain ⟨m, -, rfl⟩ := List.mem_map.1 hy
        exact mul_nonneg (hf0 m) (window_nonneg _ _ _ _)
      · obtain ⟨m, hm, h1, h2⟩ := hpos
        refine ⟨_, List.mem_map.2 ⟨m, hm, rfl⟩, mul_pos h2 ?_⟩
        unfold window
        rw [if_pos ⟨h1.le, (linspaceR_mem hlt.le hM hm).2⟩]
        exact taper_pos _)
  obtain ⟨g2, c2, v2, -⟩ := pQ_continuous b (Smoothed.mk primary fixed selfMin selfMax
    (Arr.linspaceR selfMin selfMax nM) (Arr.linspaceR 0.001 1 nQ) cache none) hM hQ rfl rfl hlt rfl
    cb clo cd hd0 h0 hlo.le hdata hq
  refine ⟨fun p' e => g1 p' e.1 * g2 p' e, fun e he =>
    (c1 e.1 (List.mem_map.2 ⟨e, he, rfl⟩)).mul (c2 e he), ?_⟩
  filter_upwards [v1, v2, clo.eventually (lt_mem_nhds hlo), chi.eventually (gt_mem_nhds hhi)] with
    p' e1 e2 q1 q2
  unfold Smoothed.call
  rw [hbeta]
  simp only
  rw [hkw _ _ _ _ (by decide) (hmin p'), hkw _ _ _ _ (by decide) (hmax p'),
    hkw _ _ _ _ (by decide) (hdm p'),
    if_neg (fun h => by have := h.2; simp only [fin_lt] at this; linarith),
    if_neg (fun h => by have := h.2; simp only [fin_lt] at this; linarith), if_neg ?_]
  · have e1' : Smoothed.pM1 b ⟨primary, fixed, selfMin, selfMax,
        Arr.linspaceR selfMin selfMax nM, Arr.linspaceR 0.001 1 nQ, cache, none⟩
        ((data.map fun e => (fin e.1, fin e.2)).map Prod.fst)
        (Dict.erase (kw p') "beta" ++ fixed) = .ok (data.map fun e => fin (g1 p' e.1)) := by
      rw [List.map_map] at e1 ⊢
      exact e1.trans (by rw [List.map_map]; rfl)
    rw [e1']
    simp only
    rcases hQ' : Smoothed.pQ b ⟨primary, fixed, selfMin, selfMax,
        Arr.linspaceR selfMin selfMax nM, Arr.linspaceR 0.001 1 nQ, cache, none⟩
        (data.map fun e => (fin e.1, fin e.2)) (fin (beta p')) (fin (lo p')) (fin (d p')) with ⟨r, s'⟩
    rw [hQ'] at e2
    simp only at e2
    subst e2
    rw [hQ']
    simp only
    rw [broadcast_same b _ (by simp), List.zipWith_map, List.zipWith_self]
    simp only [fin_mul]
  · rintro ⟨k, hk, hk'⟩
    rw [Dict.keys_erase] at hk
    exact hdup p' k hk' (List.mem_filter.1 hk).1

/-! ### The four models -/

namespace Spec

/-- The arguments stay away from the grids of an instance with `nM` grid masses from `selfMin` to
`selfMax` and `nQ` grid mass ratios from 0.001 to 1: `mmax` is not a grid mass, and `mmin` is not a
grid mass ratio times a grid mass; the data `(mass_1, mass_ratio)` are more than one grid cell
above `mmin` and not at an edge of the support. -/
structure OffGrid (selfMin selfMax : ℝ) (nM nQ : ℕ) (mmin mmax : ℝ) (data : List (ℝ × ℝ)) : Prop where
  /-- `mmax` is not on the mass grid -/
  mmax_off : ∀ i < nM, selfMin + (selfMax - selfMin) * (i : ℝ) / ((nM : ℝ) - 1) ≠ mmax
  /-- `mmin` is not a product of grid values -/
  mmin_off : ∀ i < nM, ∀ j < nQ, (selfMin + (selfMax - selfMin) * (i : ℝ) / ((nM : ℝ) - 1)) *
    (0.001 + (1 - 0.001) * (j : ℝ) / ((nQ : ℝ) - 1)) ≠ mmin
  /-- the data are away from the edges -/
  data_off : ∀ e ∈ data, mmin + (selfMax - selfMin) / ((nM : ℝ) - 1) < e.1 ∧ e.1 ≤ selfMax ∧ e.1 ≠ mmax ∧
    0 < e.2 ∧ e.1 * e.2 ≠ mmin ∧ e.2 ≠ 1

/-- Some grid mass lies strictly between `mmin` and `mmax`. -/
def GridInside (selfMin selfMax : ℝ) (nM : ℕ) (mmin mmax : ℝ) : Prop :=
  ∃ i < nM, mmin < selfMin + (selfMax - selfMin) * (i : ℝ) / ((nM : ℝ) - 1) ∧
    selfMin + (selfMax - selfMin) * (i : ℝ) / ((nM : ℝ) - 1) < mmax

end Spec

theorem get?_namedArgs {names : List String} (θ : String → ℝ) {k : String} (h : k ∈ names) :
    Dict.get? (namedArgs names θ) k = some (fin (θ k)) := by
  induction names with
  | nil => simp at h
  | cons n ns ih =>
    rw [namedArgs, List.map_cons, Dict.get?_cons]
    by_cases hk : k = n
    · rw [if_pos hk, hk]
    · rw [if_neg hk]
      exact ih (by simpa [hk] using h)

theorem keys_namedArgs (names : List String) (θ : String → ℝ) :
    Dict.keys (namedArgs names θ) = names := by
  simp [Dict.keys, namedArgs, Function.comp_def]

theorem continuousAt_arg (k : String) (θ : String → ℝ) : ContinuousAt (fun θ : String → ℝ => θ k) θ :=
  (continuous_apply k).continuousAt

theorem eventually_exponent {b : Backend} {k : String} {θ : String → ℝ} (h : b = .jax ∨ θ k ≠ -1) :
    ∀ᶠ θ' in 𝓝 θ, b = .jax ∨ θ' k ≠ -1 := by
  rcases h with h | h
  · exact Eventually.of_forall fun _ => .inl h
  · exact ((continuousAt_arg k θ).eventually_ne h).mono fun _ h => .inr h

theorem offGrid_inv {selfMin selfMax mmin mmax : ℝ} {nM nQ : ℕ} {data : List (ℝ × ℝ)}
    (h : OffGrid selfMin selfMax nM nQ mmin mmax data) :
    (∀ m, m ∈ Arr.linspaceR selfMin selfMax nM ∨ m ∈ data.map Prod.fst → m ≠ mmax) ∧
    (∀ m ∈ Arr.linspaceR selfMin selfMax nM, ∀ q ∈ Arr.linspaceR 0.001 1 nQ, m * q ≠ mmin) ∧
    ∀ e ∈ data, mmin + (selfMax - selfMin) / ((nM : ℝ) - 1) < e.1 ∧ e.1 ≤ selfMax ∧ 0 < e.2 ∧
      e.1 * e.2 ≠ mmin ∧ e.2 ≠ 1 := by
  refine ⟨?_, ?_, ?_⟩
  · rintro m (hm | hm)
    · obtain ⟨i, hi, rfl⟩ := List.mem_map.1 hm
      exact h.mmax_off i (List.mem_range.1 hi)
    · obtain ⟨e, he, rfl⟩ := List.mem_map.1 hm
      exact (h.data_off e he).2.2.1
  · intro m hm q hq
    obtain ⟨i, hi, rfl⟩ := List.mem_map.1 hm
    obtain ⟨j, hj, rfl⟩ := List.mem_map.1 hq
    exact h.mmin_off i (List.mem_range.1 hi) j (List.mem_range.1 hj)
  · intro e he
    obtain ⟨h1, h2, h3, h4⟩ := h.data_off e he
    exact ⟨h1, h2, h4⟩

theorem gridInside_inv {selfMin selfMax mmin mmax : ℝ} {nM : ℕ}
    (h : GridInside selfMin selfMax nM mmin mmax) :
    ∃ m ∈ Arr.linspaceR selfMin selfMax nM, mmin < m ∧ m < mmax := by
  obtain ⟨i, hi, h1, h2⟩ := h
  exact ⟨_, List.mem_map.2 ⟨i, List.mem_range.2 hi, rfl⟩, h1, h2⟩

/-- Points that are neither below nor at `mmin`, for the primary models. -/
theorem mem_ne_mmin {selfMin selfMax mmin mmax : ℝ} {nM nQ : ℕ} {data : List (ℝ × ℝ)} (hQ : 2 ≤ nQ)
    (hM : 2 ≤ nM) (hlt : selfMin < selfMax)
    (h : OffGrid selfMin selfMax nM nQ mmin mmax data) {m : ℝ}
    (hm : m ∈ Arr.linspaceR selfMin selfMax nM ∨ m ∈ data.map Prod.fst) : m ≠ mmin ∧ m ≤ selfMax := by
  obtain ⟨-, h2, h3⟩ := offGrid_inv h
  rcases hm with hm | hm
  · have := h2 m hm 1 (linspaceR_last 0.001 1 hQ)
    exact ⟨by rwa [mul_one] at this, (linspaceR_mem hlt.le hM hm).2⟩
  · obtain ⟨e, he, rfl⟩ := List.mem_map.1 hm
    have hc : 0 < (selfMax - selfMin) / ((nM : ℝ) - 1) := by
      have : (2 : ℝ) ≤ nM := by exact_mod_cast hM
      exact div_pos (by linarith) (by linarith)
    obtain ⟨e1, e2, -⟩ := h3 e he
    exact ⟨by intro e'; linarith, e2⟩

/-- **C91, `SinglePeakSmoothedMassDistribution`.** For all hyper-parameters strictly inside the accepted ranges: if
`mmin`, `mmax` and the data stay away from the points of the internal grids, the returned densities depend
continuously on all hyper-parameters together. -/
theorem C91_singlePeak_partial (b : Backend) (py cache : Bool) {selfMin selfMax : ℝ} {nM nQ : ℕ}
    {s : Smoothed} (hs0 : singlePeak py selfMin selfMax nM nQ cache = .ok s) {θ : String → ℝ}
    (hself : 0 < selfMin) (hlo : selfMin < θ "mmin") (hlt : θ "mmin" < θ "mmax")
    (hhi : θ "mmax" < selfMax) (hd : 0 < θ "delta_m")
    (ha : b = .jax ∨ θ "alpha" ≠ -1) (hl0 : 0 ≤ θ "lam") (hl1 : θ "lam" ≤ 1) (hs : 0 < θ "sigpp")
    {data : List (ℝ × ℝ)} (hoff : OffGrid selfMin selfMax nM nQ (θ "mmin") (θ "mmax") data)
    (hin : GridInside selfMin selfMax nM (θ "mmin") (θ "mmax")) :
    ContinuousResults (fun θ => (Smoothed.call b s (data.map fun e => (fin e.1, fin e.2))
      (namedArgs ["beta", "delta_m", "alpha", "mmin", "mmax", "lam", "mpp", "sigpp"] θ)).1)
      data θ := by
  have h0 : 0 < θ "mmin" := by linarith
  have hg : θ "mmin" < selfMax := by linarith
  obtain ⟨hM, hQ, -⟩ := init_inv hs0
  obtain ⟨o1, o2, o3⟩ := offGrid_inv hoff
  have cpl : ∀ m, m ∈ Arr.linspaceR selfMin selfMax nM ∨ m ∈ data.map Prod.fst → ContinuousAt
      (fun θ' : String → ℝ => normalised (fun t => t ^ (-θ' "alpha")) (θ' "mmin") (θ' "mmax") m) θ :=
    fun m hm => continuousAt_powerlaw (x := fun _ => m) (continuousAt_arg "alpha" θ).neg
      (continuousAt_arg "mmin" θ) (continuousAt_arg "mmax" θ) continuousAt_const h0 hlt
      (mem_ne_mmin hQ hM (by linarith) hoff hm).1 (.inl (o1 m hm))
  have cbell : ∀ kμ kσ : String, 0 < θ kσ → ∀ m, m ∈ Arr.linspaceR selfMin selfMax nM ∨
      m ∈ data.map Prod.fst → ContinuousAt
      (fun θ' : String → ℝ => normalised (bell (θ' kμ) (θ' kσ)) (θ' "mmin") selfMax m) θ :=
    fun kμ kσ hσ m hm => continuousAt_bell (x := fun _ => m) (hi := fun _ => selfMax)
      (continuousAt_arg kμ θ) (continuousAt_arg kσ θ) hσ.ne' (continuousAt_arg "mmin" θ)
      continuousAt_const continuousAt_const hg (mem_ne_mmin hQ hM (by linarith) hoff hm).1
      (.inr fun _ => (mem_ne_mmin hQ hM (by linarith) hoff hm).2)
  refine call_continuous b _ _ cache hs0 (lo := fun θ => θ "mmin") (hi := fun θ => θ "mmax")
    (beta := fun θ => θ "beta") (d := fun θ => θ "delta_m")
    (f := fun θ' m => (1 - θ' "lam") * normalised (fun t => t ^ (-θ' "alpha")) (θ' "mmin") (θ' "mmax") m +
      θ' "lam" * normalised (bell (θ' "mpp") (θ' "sigpp")) (θ' "mmin") selfMax m)
    (fun θ => get?_namedArgs θ (by decide)) (fun θ => get?_namedArgs θ (by decide))
    (fun θ => get?_namedArgs θ (by decide)) (fun θ => get?_namedArgs θ (by decide)) ?_
    (continuousAt_arg "beta" θ) (continuousAt_arg "mmin" θ) (continuousAt_arg "mmax" θ)
    (continuousAt_arg "delta_m" θ) hd hself hlo hhi (by linarith) o3 o2 ?_ (fun m hm => ?_)
    (fun m => ?_) ?_
  · intro θ' k hk
    rw [keys_namedArgs]
    simp only [Dict.keys, List.map_cons, List.map_nil, List.mem_singleton, List.not_mem_nil] at hk
    subst hk
    decide
  · filter_upwards [(continuousAt_arg "mmin" θ).eventually (lt_mem_nhds h0),
      (continuousAt_arg "mmin" θ).eventually_lt (continuousAt_arg "mmax" θ) hlt,
      (continuousAt_arg "mmin" θ).eventually (gt_mem_nhds hg),
      eventually_exponent ha,
      (continuousAt_arg "sigpp" θ).eventually (lt_mem_nhds hs)] with θ' q1 q2 q3 r1 r2 m hm0
    obtain ⟨g, hg', v1, v2⟩ := bindPrimary
      (names := ["alpha", "mmin", "mmax", "lam", "mpp", "sigpp"])
      (extra := ["gaussian_mass_maximum"]) (defaults := [("gaussian_mass_maximum", fin 100)])
      (kwargs := namedArgs ["beta", "delta_m", "alpha", "mmin", "mmax", "lam", "mpp", "sigpp"] θ')
      (fixed := [("gaussian_mass_maximum", fin selfMax)]) (by rw [keys_namedArgs]; exact fun k hk => hk)
      (by simp [Dict.keys]) (by decide) (by decide)
      (fun n hn => ⟨_, get?_namedArgs θ' (List.mem_cons_of_mem _ (List.mem_cons_of_mem _ hn))⟩)
      (by simp [Dict.get?_cons])
    simp only [List.cons_append, List.nil_append, List.append_nil] at hg'
    simp only [primTwoComponent, List.append_nil, hg']
    show twoComponentSingle b py (fin m) (g "alpha") (g "mmin") (g "mmax") (g "lam") (g "mpp") (g "sigpp") (g "gaussian_mass_maximum") = _
    rw [v1 "alpha" (by decide) _ (get?_namedArgs θ' (by decide)),
      v1 "mmin" (by decide) _ (get?_namedArgs θ' (by decide)),
      v1 "mmax" (by decide) _ (get?_namedArgs θ' (by decide)),
      v1 "lam" (by decide) _ (get?_namedArgs θ' (by decide)),
      v1 "mpp" (by decide) _ (get?_namedArgs θ' (by decide)),
      v1 "sigpp" (by decide) _ (get?_namedArgs θ' (by decide)),
      v2 "gaussian_mass_maximum" (by decide) (fin selfMax) (by simp [Dict.get?_cons])]
    exact C18_twoComponentSingle_value b py r1 q1 q2 q3 r2 hm0
  · exact ((continuousAt_const.sub (continuousAt_arg "lam" θ)).mul (cpl m hm)).add
      ((continuousAt_arg "lam" θ).mul (cbell "mpp" "sigpp" hs m hm))
  · exact add_nonneg (mul_nonneg (by linarith) ((isPdf_powerlaw (-θ "alpha") h0 hlt).nonneg m))
      (mul_nonneg hl0 ((isPdf_bell (θ "mpp") (θ "sigpp") hg).nonneg m))
  · obtain ⟨m, hm, h1, h2⟩ := gridInside_inv hin
    have hm0 : 0 < m := h0.trans h1
    refine ⟨m, hm, h1, ?_⟩
    exact mix_pos hl0 hl1 (normalised_pos (integral_rpow_pos h0 hlt) ⟨h1.le, h2.le⟩
      (Real.rpow_pos_of_pos hm0 _)) (normalised_pos (integral_gaussShape_pos hg) ⟨h1.le, h2.le.trans hhi.le⟩
      (gaussShape_pos (θ "mpp") (θ "sigpp") m))

/-- **C91, `MultiPeakSmoothedMassDistribution`.** For all hyper-parameters strictly inside the accepted ranges: if
`mmin`, `mmax` and the data stay away from the points of the internal grids, the returned densities depend
continuously on all hyper-parameters together. -/
theorem C91_multiPeak_partial (b : Backend) (py cache : Bool) {selfMin selfMax : ℝ} {nM nQ : ℕ}
    {s : Smoothed} (hs0 : multiPeak py selfMin selfMax nM nQ cache = .ok s) {θ : String → ℝ}
    (hself : 0 < selfMin) (hlo : selfMin < θ "mmin") (hlt : θ "mmin" < θ "mmax")
    (hhi : θ "mmax" < selfMax) (hd : 0 < θ "delta_m")
    (ha : b = .jax ∨ θ "alpha" ≠ -1) (hl0 : 0 ≤ θ "lam") (hl1 : θ "lam" ≤ 1) (hl10 : 0 ≤ θ "lam_1")
    (hl11 : θ "lam_1" ≤ 1) (hs1 : 0 < θ "sigpp_1") (hs2 : 0 < θ "sigpp_2")
    {data : List (ℝ × ℝ)} (hoff : OffGrid selfMin selfMax nM nQ (θ "mmin") (θ "mmax") data)
    (hin : GridInside selfMin selfMax nM (θ "mmin") (θ "mmax")) :
    ContinuousResults (fun θ => (Smoothed.call b s (data.map fun e => (fin e.1, fin e.2))
      (namedArgs ["beta", "delta_m", "alpha", "mmin", "mmax", "lam", "lam_1", "mpp_1", "sigpp_1", "mpp_2", "sigpp_2"] θ)).1)
      data θ := by
  have h0 : 0 < θ "mmin" := by linarith
  have hg : θ "mmin" < selfMax := by linarith
  obtain ⟨hM, hQ, -⟩ := init_inv hs0
  obtain ⟨o1, o2, o3⟩ := offGrid_inv hoff
  have cpl : ∀ m, m ∈ Arr.linspaceR selfMin selfMax nM ∨ m ∈ data.map Prod.fst → ContinuousAt
      (fun θ' : String → ℝ => normalised (fun t => t ^ (-θ' "alpha")) (θ' "mmin") (θ' "mmax") m) θ :=
    fun m hm => continuousAt_powerlaw (x := fun _ => m) (continuousAt_arg "alpha" θ).neg
      (continuousAt_arg "mmin" θ) (continuousAt_arg "mmax" θ) continuousAt_const h0 hlt
      (mem_ne_mmin hQ hM (by linarith) hoff hm).1 (.inl (o1 m hm))
  have cbell : ∀ kμ kσ : String, 0 < θ kσ → ∀ m, m ∈ Arr.linspaceR selfMin selfMax nM ∨
      m ∈ data.map Prod.fst → ContinuousAt
      (fun θ' : String → ℝ => normalised (bell (θ' kμ) (θ' kσ)) (θ' "mmin") selfMax m) θ :=
    fun kμ kσ hσ m hm => continuousAt_bell (x := fun _ => m) (hi := fun _ => selfMax)
      (continuousAt_arg kμ θ) (continuousAt_arg kσ θ) hσ.ne' (continuousAt_arg "mmin" θ)
      continuousAt_const continuousAt_const hg (mem_ne_mmin hQ hM (by linarith) hoff hm).1
      (.inr fun _ => (mem_ne_mmin hQ hM (by linarith) hoff hm).2)
  refine call_continuous b _ _ cache hs0 (lo := fun θ => θ "mmin") (hi := fun θ => θ "mmax")
    (beta := fun θ => θ "beta") (d := fun θ => θ "delta_m")
    (f := fun θ' m => (1 - θ' "lam") * normalised (fun t => t ^ (-θ' "alpha")) (θ' "mmin") (θ' "mmax") m +
      θ' "lam" * θ' "lam_1" * normalised (bell (θ' "mpp_1") (θ' "sigpp_1")) (θ' "mmin") selfMax m +
      θ' "lam" * (1 - θ' "lam_1") * normalised (bell (θ' "mpp_2") (θ' "sigpp_2")) (θ' "mmin") selfMax m)
    (fun θ => get?_namedArgs θ (by decide)) (fun θ => get?_namedArgs θ (by decide))
    (fun θ => get?_namedArgs θ (by decide)) (fun θ => get?_namedArgs θ (by decide)) ?_
    (continuousAt_arg "beta" θ) (continuousAt_arg "mmin" θ) (continuousAt_arg "mmax" θ)
    (continuousAt_arg "delta_m" θ) hd hself hlo hhi (by linarith) o3 o2 ?_ (fun m hm => ?_)
    (fun m => ?_) ?_
  · intro θ' k hk
    rw [keys_namedArgs]
    simp only [Dict.keys, List.map_cons, List.map_nil, List.mem_singleton, List.not_mem_nil] at hk
    subst hk
    decide
  · filter_upwards [(continuousAt_arg "mmin" θ).eventually (lt_mem_nhds h0),
      (continuousAt_arg "mmin" θ).eventually_lt (continuousAt_arg "mmax" θ) hlt,
      (continuousAt_arg "mmin" θ).eventually (gt_mem_nhds hg),
      eventually_exponent ha,
      (continuousAt_arg "sigpp_1" θ).eventually (lt_mem_nhds hs1),
      (continuousAt_arg "sigpp_2" θ).eventually (lt_mem_nhds hs2)] with θ' q1 q2 q3 r1 r2 r3 m hm0
    obtain ⟨g, hg', v1, v2⟩ := bindPrimary
      (names := ["alpha", "mmin", "mmax", "lam", "lam_1", "mpp_1", "sigpp_1", "mpp_2", "sigpp_2"])
      (extra := ["gaussian_mass_maximum"]) (defaults := [("gaussian_mass_maximum", fin 100)])
      (kwargs := namedArgs ["beta", "delta_m", "alpha", "mmin", "mmax", "lam", "lam_1", "mpp_1", "sigpp_1", "mpp_2", "sigpp_2"] θ')
      (fixed := [("gaussian_mass_maximum", fin selfMax)]) (by rw [keys_namedArgs]; exact fun k hk => hk)
      (by simp [Dict.keys]) (by decide) (by decide)
      (fun n hn => ⟨_, get?_namedArgs θ' (List.mem_cons_of_mem _ (List.mem_cons_of_mem _ hn))⟩)
      (by simp [Dict.get?_cons])
    simp only [List.cons_append, List.nil_append, List.append_nil] at hg'
    simp only [primThreeComponent, List.append_nil, hg']
    show threeComponentSingle b py (fin m) (g "alpha") (g "mmin") (g "mmax") (g "lam") (g "lam_1") (g "mpp_1") (g "sigpp_1") (g "mpp_2") (g "sigpp_2") (g "gaussian_mass_maximum") = _
    rw [v1 "alpha" (by decide) _ (get?_namedArgs θ' (by decide)),
      v1 "mmin" (by decide) _ (get?_namedArgs θ' (by decide)),
      v1 "mmax" (by decide) _ (get?_namedArgs θ' (by decide)),
      v1 "lam" (by decide) _ (get?_namedArgs θ' (by decide)),
      v1 "lam_1" (by decide) _ (get?_namedArgs θ' (by decide)),
      v1 "mpp_1" (by decide) _ (get?_namedArgs θ' (by decide)),
      v1 "sigpp_1" (by decide) _ (get?_namedArgs θ' (by decide)),
      v1 "mpp_2" (by decide) _ (get?_namedArgs θ' (by decide)),
      v1 "sigpp_2" (by decide) _ (get?_namedArgs θ' (by decide)),
      v2 "gaussian_mass_maximum" (by decide) (fin selfMax) (by simp [Dict.get?_cons])]
    exact C18_threeComponentSingle_value b py r1 q1 q2 q3 r2 r3 hm0
  · exact (((continuousAt_const.sub (continuousAt_arg "lam" θ)).mul (cpl m hm)).add
      (((continuousAt_arg "lam" θ).mul (continuousAt_arg "lam_1" θ)).mul
        (cbell "mpp_1" "sigpp_1" hs1 m hm))).add
      (((continuousAt_arg "lam" θ).mul (continuousAt_const.sub (continuousAt_arg "lam_1" θ))).mul
        (cbell "mpp_2" "sigpp_2" hs2 m hm))
  · exact add_nonneg (add_nonneg (mul_nonneg (by linarith)
        ((isPdf_powerlaw (-θ "alpha") h0 hlt).nonneg m))
      (mul_nonneg (mul_nonneg hl0 hl10) ((isPdf_bell (θ "mpp_1") (θ "sigpp_1") hg).nonneg m)))
      (mul_nonneg (mul_nonneg hl0 (by linarith)) ((isPdf_bell (θ "mpp_2") (θ "sigpp_2") hg).nonneg m))
  · obtain ⟨m, hm, h1, h2⟩ := gridInside_inv hin
    have hm0 : 0 < m := h0.trans h1
    refine ⟨m, hm, h1, ?_⟩
    have e1 : 0 < normalised (fun t => t ^ (-θ "alpha")) (θ "mmin") (θ "mmax") m :=
      normalised_pos (integral_rpow_pos h0 hlt) ⟨h1.le, h2.le⟩ (Real.rpow_pos_of_pos hm0 _)
    have e2 : 0 < normalised (bell (θ "mpp_1") (θ "sigpp_1")) (θ "mmin") selfMax m :=
      normalised_pos (integral_gaussShape_pos hg) ⟨h1.le, h2.le.trans hhi.le⟩ (gaussShape_pos _ _ m)
    have e3 : 0 < normalised (bell (θ "mpp_2") (θ "sigpp_2")) (θ "mmin") selfMax m :=
      normalised_pos (integral_gaussShape_pos hg) ⟨h1.le, h2.le.trans hhi.le⟩ (gaussShape_pos _ _ m)
    refine lt_of_lt_of_eq (mix_pos hl0 hl1 e1 (mix_pos hl10 hl11 e3 e2)) ?_
    ring

/-- **C91, `BrokenPowerLawSmoothedMassDistribution`.** For all hyper-parameters strictly inside the accepted ranges: if
`mmin`, `mmax` and the data stay away from the points of the internal grids, the returned densities depend
continuously on all hyper-parameters together. -/
theorem C91_brokenPowerLaw_partial (b : Backend) (py cache : Bool) {selfMin selfMax : ℝ} {nM nQ : ℕ}
    {s : Smoothed} (hs0 : brokenPowerLaw py selfMin selfMax nM nQ cache = .ok s) {θ : String → ℝ}
    (hself : 0 < selfMin) (hlo : selfMin < θ "mmin") (hlt : θ "mmin" < θ "mmax")
    (hhi : θ "mmax" < selfMax) (hd : 0 < θ "delta_m")
    (ha1 : b = .jax ∨ θ "alpha_1" ≠ -1) (ha2 : b = .jax ∨ θ "alpha_2" ≠ -1)
    (hbf0 : 0 < θ "break_fraction") (hbf1 : θ "break_fraction" < 1)
    {data : List (ℝ × ℝ)} (hoff : OffGrid selfMin selfMax nM nQ (θ "mmin") (θ "mmax") data)
    (hin : GridInside selfMin selfMax nM (θ "mmin") (θ "mmax")) :
    ContinuousResults (fun θ => (Smoothed.call b s (data.map fun e => (fin e.1, fin e.2))
      (namedArgs ["beta", "delta_m", "alpha_1", "alpha_2", "mmin", "mmax", "break_fraction"] θ)).1)
      data θ := by
  have h0 : 0 < θ "mmin" := by linarith
  have hg : θ "mmin" < selfMax := by linarith
  obtain ⟨hM, hQ, -⟩ := init_inv hs0
  obtain ⟨o1, o2, o3⟩ := offGrid_inv hoff
  have hbf : 0 < θ "break_fraction" * (θ "mmax" - θ "mmin") := mul_pos hbf0 (by linarith)
  have hb1 : θ "mmin" < θ "mmin" + θ "break_fraction" * (θ "mmax" - θ "mmin") := by linarith
  have hb2 : θ "mmin" + θ "break_fraction" * (θ "mmax" - θ "mmin") < θ "mmax" := by
    have : θ "break_fraction" * (θ "mmax" - θ "mmin") < 1 * (θ "mmax" - θ "mmin") :=
      mul_lt_mul_of_pos_right hbf1 (by linarith)
    linarith
  have hb : 0 < θ "mmin" + θ "break_fraction" * (θ "mmax" - θ "mmin") := h0.trans hb1
  have cbr : ∀ m, m ∈ Arr.linspaceR selfMin selfMax nM ∨ m ∈ data.map Prod.fst → ContinuousAt
      (fun θ' : String → ℝ => normalised (brokenShape (θ' "alpha_1") (θ' "alpha_2")
        (θ' "mmin" + θ' "break_fraction" * (θ' "mmax" - θ' "mmin"))) (θ' "mmin") (θ' "mmax") m) θ :=
    fun m hm => continuousAt_normalised_broken (x := fun _ => m) (continuousAt_arg "alpha_1" θ)
      (continuousAt_arg "alpha_2" θ) ((continuousAt_arg "mmin" θ).add
        ((continuousAt_arg "break_fraction" θ).mul
          ((continuousAt_arg "mmax" θ).sub (continuousAt_arg "mmin" θ))))
      (continuousAt_arg "mmin" θ) (continuousAt_arg "mmax" θ) continuousAt_const h0 hb1 hb2
      (mem_ne_mmin hQ hM (by linarith) hoff hm).1 (.inl (o1 m hm))
  refine call_continuous b _ _ cache hs0 (lo := fun θ => θ "mmin") (hi := fun θ => θ "mmax")
    (beta := fun θ => θ "beta") (d := fun θ => θ "delta_m")
    (f := fun θ' m => normalised (brokenShape (θ' "alpha_1") (θ' "alpha_2")
      (θ' "mmin" + θ' "break_fraction" * (θ' "mmax" - θ' "mmin"))) (θ' "mmin") (θ' "mmax") m)
    (fun θ => get?_namedArgs θ (by decide)) (fun θ => get?_namedArgs θ (by decide))
    (fun θ => get?_namedArgs θ (by decide)) (fun θ => get?_namedArgs θ (by decide)) ?_
    (continuousAt_arg "beta" θ) (continuousAt_arg "mmin" θ) (continuousAt_arg "mmax" θ)
    (continuousAt_arg "delta_m" θ) hd hself hlo hhi (by linarith) o3 o2 ?_ (fun m hm => ?_)
    (fun m => ?_) ?_
  · intro θ' k hk
    rw [keys_namedArgs]
    simp only [Dict.keys, List.map_cons, List.map_nil, List.mem_singleton, List.not_mem_nil] at hk
  · filter_upwards [(continuousAt_arg "mmin" θ).eventually (lt_mem_nhds h0),
      (continuousAt_arg "mmin" θ).eventually_lt (continuousAt_arg "mmax" θ) hlt,
      (continuousAt_arg "mmin" θ).eventually (gt_mem_nhds hg),
      eventually_exponent ha1,
      eventually_exponent ha2,
      (continuousAt_arg "break_fraction" θ).eventually (lt_mem_nhds hbf0),
      (continuousAt_arg "break_fraction" θ).eventually (gt_mem_nhds hbf1)] with θ' q1 q2 q3 r1 r2 r3 r4 m hm0
    obtain ⟨g, hg', v1, v2⟩ := bindPrimary
      (names := ["alpha_1", "alpha_2", "mmin", "mmax", "break_fraction"])
      (extra := []) (defaults := [])
      (kwargs := namedArgs ["beta", "delta_m", "alpha_1", "alpha_2", "mmin", "mmax", "break_fraction"] θ')
      (fixed := []) (by rw [keys_namedArgs]; exact fun k hk => hk)
      (by simp [Dict.keys]) (by decide) (by decide)
      (fun n hn => ⟨_, get?_namedArgs θ' (List.mem_cons_of_mem _ (List.mem_cons_of_mem _ hn))⟩)
      (by simp [Dict.get?_cons])
    simp only [List.cons_append, List.nil_append, List.append_nil] at hg'
    simp only [primDoublePowerLaw, List.append_nil, hg']
    show doublePowerLawPrimaryMass b py (fin m) (g "alpha_1") (g "alpha_2") (g "mmin") (g "mmax") (g "break_fraction") = _
    rw [v1 "alpha_1" (by decide) _ (get?_namedArgs θ' (by decide)),
      v1 "alpha_2" (by decide) _ (get?_namedArgs θ' (by decide)),
      v1 "mmin" (by decide) _ (get?_namedArgs θ' (by decide)),
      v1 "mmax" (by decide) _ (get?_namedArgs θ' (by decide)),
      v1 "break_fraction" (by decide) _ (get?_namedArgs θ' (by decide))]
    exact C17_doublePowerLaw_value b py r1 r2 q1 q2 r3 r4 hm0
  · exact cbr m hm
  · exact (isPdf_broken (θ "alpha_1") (θ "alpha_2") h0 hb hlt).nonneg m
  · obtain ⟨m, hm, h1, h2⟩ := gridInside_inv hin
    have hm0 : 0 < m := h0.trans h1
    refine ⟨m, hm, h1, ?_⟩
    exact normalised_pos (integral_brokenShape_pos (θ "alpha_1") (θ "alpha_2") h0 hb hlt) ⟨h1.le, h2.le⟩
      (brokenShape_pos (θ "alpha_1") (θ "alpha_2") hb hm0)

/-- **C91, `BrokenPowerLawPeakSmoothedMassDistribution`.** For all hyper-parameters strictly inside the accepted ranges: if
`mmin`, `mmax` and the data stay away from the points of the internal grids, the returned densities depend
continuously on all hyper-parameters together. -/
theorem C91_brokenPowerLawPeak_partial (b : Backend) (py cache : Bool) {selfMin selfMax : ℝ} {nM nQ : ℕ}
    {s : Smoothed} (hs0 : brokenPowerLawPeak py selfMin selfMax nM nQ cache = .ok s) {θ : String → ℝ}
    (hself : 0 < selfMin) (hlo : selfMin < θ "mmin") (hlt : θ "mmin" < θ "mmax")
    (hhi : θ "mmax" < selfMax) (hd : 0 < θ "delta_m")
    (ha1 : b = .jax ∨ θ "alpha_1" ≠ -1) (ha2 : b = .jax ∨ θ "alpha_2" ≠ -1)
    (hbf0 : 0 < θ "break_fraction") (hbf1 : θ "break_fraction" < 1) (hl0 : 0 ≤ θ "lam")
    (hl1 : θ "lam" ≤ 1) (hs : 0 < θ "sigpp")
    {data : List (ℝ × ℝ)} (hoff : OffGrid selfMin selfMax nM nQ (θ "mmin") (θ "mmax") data)
    (hin : GridInside selfMin selfMax nM (θ "mmin") (θ "mmax")) :
    ContinuousResults (fun θ => (Smoothed.call b s (data.map fun e => (fin e.1, fin e.2))
      (namedArgs ["beta", "delta_m", "alpha_1", "alpha_2", "mmin", "mmax", "break_fraction", "lam", "mpp", "sigpp"] θ)).1)
      data θ := by
  have h0 : 0 < θ "mmin" := by linarith
  have hg : θ "mmin" < selfMax := by linarith
  obtain ⟨hM, hQ, -⟩ := init_inv hs0
  obtain ⟨o1, o2, o3⟩ := offGrid_inv hoff
  have hbf : 0 < θ "break_fraction" * (θ "mmax" - θ "mmin") := mul_pos hbf0 (by linarith)
  have hb1 : θ "mmin" < θ "mmin" + θ "break_fraction" * (θ "mmax" - θ "mmin") := by linarith
  have hb2 : θ "mmin" + θ "break_fraction" * (θ "mmax" - θ "mmin") < θ "mmax" := by
    have : θ "break_fraction" * (θ "mmax" - θ "mmin") < 1 * (θ "mmax" - θ "mmin") :=
      mul_lt_mul_of_pos_right hbf1 (by linarith)
    linarith
  have hb : 0 < θ "mmin" + θ "break_fraction" * (θ "mmax" - θ "mmin") := h0.trans hb1
  have cbr : ∀ m, m ∈ Arr.linspaceR selfMin selfMax nM ∨ m ∈ data.map Prod.fst → ContinuousAt
      (fun θ' : String → ℝ => normalised (brokenShape (θ' "alpha_1") (θ' "alpha_2")
        (θ' "mmin" + θ' "break_fraction" * (θ' "mmax" - θ' "mmin"))) (θ' "mmin") (θ' "mmax") m) θ :=
    fun m hm => continuousAt_normalised_broken (x := fun _ => m) (continuousAt_arg "alpha_1" θ)
      (continuousAt_arg "alpha_2" θ) ((continuousAt_arg "mmin" θ).add
        ((continuousAt_arg "break_fraction" θ).mul
          ((continuousAt_arg "mmax" θ).sub (continuousAt_arg "mmin" θ))))
      (continuousAt_arg "mmin" θ) (continuousAt_arg "mmax" θ) continuousAt_const h0 hb1 hb2
      (mem_ne_mmin hQ hM (by linarith) hoff hm).1 (.inl (o1 m hm))
  have cbell : ∀ kμ kσ : String, 0 < θ kσ → ∀ m, m ∈ Arr.linspaceR selfMin selfMax nM ∨
      m ∈ data.map Prod.fst → ContinuousAt
      (fun θ' : String → ℝ => normalised (bell (θ' kμ) (θ' kσ)) (θ' "mmin") selfMax m) θ :=
    fun kμ kσ hσ m hm => continuousAt_bell (x := fun _ => m) (hi := fun _ => selfMax)
      (continuousAt_arg kμ θ) (continuousAt_arg kσ θ) hσ.ne' (continuousAt_arg "mmin" θ)
      continuousAt_const continuousAt_const hg (mem_ne_mmin hQ hM (by linarith) hoff hm).1
      (.inr fun _ => (mem_ne_mmin hQ hM (by linarith) hoff hm).2)
  refine call_continuous b _ _ cache hs0 (lo := fun θ => θ "mmin") (hi := fun θ => θ "mmax")
    (beta := fun θ => θ "beta") (d := fun θ => θ "delta_m")
    (f := fun θ' m => (1 - θ' "lam") * normalised (brokenShape (θ' "alpha_1") (θ' "alpha_2")
      (θ' "mmin" + θ' "break_fraction" * (θ' "mmax" - θ' "mmin"))) (θ' "mmin") (θ' "mmax") m +
      θ' "lam" * normalised (bell (θ' "mpp") (θ' "sigpp")) (θ' "mmin") selfMax m)
    (fun θ => get?_namedArgs θ (by decide)) (fun θ => get?_namedArgs θ (by decide))
    (fun θ => get?_namedArgs θ (by decide)) (fun θ => get?_namedArgs θ (by decide)) ?_
    (continuousAt_arg "beta" θ) (continuousAt_arg "mmin" θ) (continuousAt_arg "mmax" θ)
    (continuousAt_arg "delta_m" θ) hd hself hlo hhi (by linarith) o3 o2 ?_ (fun m hm => ?_)
    (fun m => ?_) ?_
  · intro θ' k hk
    rw [keys_namedArgs]
    simp only [Dict.keys, List.map_cons, List.map_nil, List.mem_singleton, List.not_mem_nil] at hk
    subst hk
    decide
  · filter_upwards [(continuousAt_arg "mmin" θ).eventually (lt_mem_nhds h0),
      (continuousAt_arg "mmin" θ).eventually_lt (continuousAt_arg "mmax" θ) hlt,
      (continuousAt_arg "mmin" θ).eventually (gt_mem_nhds hg),
      eventually_exponent ha1,
      eventually_exponent ha2,
      (continuousAt_arg "break_fraction" θ).eventually (lt_mem_nhds hbf0),
      (continuousAt_arg "break_fraction" θ).eventually (gt_mem_nhds hbf1),
      (continuousAt_arg "sigpp" θ).eventually (lt_mem_nhds hs)] with θ' q1 q2 q3 r1 r2 r3 r4 r5 m hm0
    obtain ⟨g, hg', v1, v2⟩ := bindPrimary
      (names := ["alpha_1", "alpha_2", "mmin", "mmax", "break_fraction", "lam", "mpp", "sigpp"])
      (extra := ["gaussian_mass_maximum"]) (defaults := [("gaussian_mass_maximum", fin 100)])
      (kwargs := namedArgs ["beta", "delta_m", "alpha_1", "alpha_2", "mmin", "mmax", "break_fraction", "lam", "mpp", "sigpp"] θ')
      (fixed := [("gaussian_mass_maximum", fin selfMax)]) (by rw [keys_namedArgs]; exact fun k hk => hk)
      (by simp [Dict.keys]) (by decide) (by decide)
      (fun n hn => ⟨_, get?_namedArgs θ' (List.mem_cons_of_mem _ (List.mem_cons_of_mem _ hn))⟩)
      (by simp [Dict.get?_cons])
    simp only [List.cons_append, List.nil_append, List.append_nil] at hg'
    simp only [primDoublePowerLawPeak, List.append_nil, hg']
    show doublePowerLawPeakPrimaryMass b py (fin m) (g "alpha_1") (g "alpha_2") (g "mmin") (g "mmax") (g "break_fraction") (g "lam") (g "mpp") (g "sigpp") (g "gaussian_mass_maximum") = _
    rw [v1 "alpha_1" (by decide) _ (get?_namedArgs θ' (by decide)),
      v1 "alpha_2" (by decide) _ (get?_namedArgs θ' (by decide)),
      v1 "mmin" (by decide) _ (get?_namedArgs θ' (by decide)),
      v1 "mmax" (by decide) _ (get?_namedArgs θ' (by decide)),
      v1 "break_fraction" (by decide) _ (get?_namedArgs θ' (by decide)),
      v1 "lam" (by decide) _ (get?_namedArgs θ' (by decide)),
      v1 "mpp" (by decide) _ (get?_namedArgs θ' (by decide)),
      v1 "sigpp" (by decide) _ (get?_namedArgs θ' (by decide)),
      v2 "gaussian_mass_maximum" (by decide) (fin selfMax) (by simp [Dict.get?_cons])]
    exact C18_doublePowerLawPeak_value b py r1 r2 q1 q2 r3 r4 q3 r5 hm0
  · exact ((continuousAt_const.sub (continuousAt_arg "lam" θ)).mul (cbr m hm)).add
      ((continuousAt_arg "lam" θ).mul (cbell "mpp" "sigpp" hs m hm))
  · exact add_nonneg (mul_nonneg (by linarith)
        ((isPdf_broken (θ "alpha_1") (θ "alpha_2") h0 hb hlt).nonneg m))
      (mul_nonneg hl0 ((isPdf_bell (θ "mpp") (θ "sigpp") hg).nonneg m))
  · obtain ⟨m, hm, h1, h2⟩ := gridInside_inv hin
    have hm0 : 0 < m := h0.trans h1
    refine ⟨m, hm, h1, ?_⟩
    exact mix_pos hl0 hl1 (normalised_pos (integral_brokenShape_pos (θ "alpha_1") (θ "alpha_2") h0 hb hlt)
      ⟨h1.le, h2.le⟩ (brokenShape_pos (θ "alpha_1") (θ "alpha_2") hb hm0))
      (normalised_pos (integral_gaussShape_pos hg) ⟨h1.le, h2.le.trans hhi.le⟩
      (gaussShape_pos (θ "mpp") (θ "sigpp") m))

/-- Non-vacuity: a grid of masses 1, 2, ..., 11 and of ratios 0.001, 1; `mmin = 3.7`, `mmax = 9.3`. -/
example (b : Backend) {s : Smoothed} (hs : singlePeak true 1 11 11 2 true = .ok s) :
    ContinuousResults (fun θ => (Smoothed.call b s ([(5, 0.9), (7, 0.3)].map fun e : ℝ × ℝ =>
      (fin e.1, fin e.2))
      (namedArgs ["beta", "delta_m", "alpha", "mmin", "mmax", "lam", "mpp", "sigpp"] θ)).1)
      ([(5, 0.9), (7, 0.3)] : List (ℝ × ℝ))
      (fun k => if k = "mmin" then 3.7 else if k = "mmax" then 9.3 else if k = "lam" then 0.1 else 2) := by
  have hne : ("mmax" : String) ≠ "mmin" := by decide
  have key : ∀ i : ℕ, (1 : ℝ) + (11 - 1) * (i : ℝ) / (((11 : ℕ) : ℝ) - 1) = i + 1 := by
    intro i; push_cast; ring
  refine C91_singlePeak_partial b true true hs (θ := fun k => if k = "mmin" then 3.7 else
    if k = "mmax" then 9.3 else if k = "lam" then 0.1 else 2) (by norm_num) (by simp; norm_num)
    (by simp; norm_num) (by simp; norm_num) (by simp) (.inr (by simp; norm_num))
    (by simp; norm_num) (by simp; norm_num) (by simp) ?_ ?_
  · refine ⟨fun i hi => ?_, fun i hi j hj => ?_, ?_⟩
    · rw [key]
      interval_cases i <;> norm_num [hne]
    · rw [key]
      interval_cases i <;> interval_cases j <;> norm_num
    · intro e he
      simp only [List.mem_cons, List.not_mem_nil, or_false] at he
      rcases he with rfl | rfl <;> norm_num [hne]
  · exact ⟨5, by norm_num, by rw [key]; norm_num, by rw [key]; norm_num [hne]⟩

example : ∃ s, singlePeak true 1 11 11 2 true = .ok s :=
  ⟨_, init_ok _ _ _ _ _ (by norm_num) (by norm_num)⟩

/-! ### The trapezoid norm jumps -/

/-- The full claim for the model with a power law and one peak: for all hyper-parameters strictly
inside the accepted ranges and all data strictly inside the support (and more than one grid cell above
`mmin`), the returned densities depend continuously on the hyper-parameters. -/
def C91_statement : Prop :=
  ∀ (b : Backend) (py cache : Bool) (selfMin selfMax : ℝ) (nM nQ : ℕ) (s : Smoothed),
    singlePeak py selfMin selfMax nM nQ cache = .ok s → ∀ (θ : String → ℝ), 0 < selfMin →
    selfMin < θ "mmin" → θ "mmin" < θ "mmax" → θ "mmax" < selfMax → 0 < θ "delta_m" →
    (b = .jax ∨ θ "alpha" ≠ -1) → 0 ≤ θ "lam" → θ "lam" ≤ 1 → 0 < θ "sigpp" →
    ∀ data : List (ℝ × ℝ), (∀ e ∈ data, θ "mmin" + (selfMax - selfMin) / ((nM : ℝ) - 1) < e.1 ∧
      e.1 < θ "mmax" ∧ θ "mmin" < e.1 * e.2 ∧ e.2 < 1) →
    GridInside selfMin selfMax nM (θ "mmin") (θ "mmax") →
    ContinuousResults (fun θ => (Smoothed.call b s (data.map fun e => (fin e.1, fin e.2))
      (namedArgs ["beta", "delta_m", "alpha", "mmin", "mmax", "lam", "mpp", "sigpp"] θ)).1)
      data θ

/-- Hyper-parameters whose `mmax` is `t`: a flat mass distribution from 1.5 to `t`. -/
def flatUpTo (t : ℝ) : String → ℝ := fun k =>
  if k = "mmax" then t else if k = "mmin" then 1.5 else if k = "delta_m" then 0.5 else
    if k = "sigpp" then 1 else 0

theorem flatUpTo_values (t : ℝ) : flatUpTo t "mmax" = t ∧ flatUpTo t "mmin" = 1.5 ∧
    flatUpTo t "delta_m" = 0.5 ∧ flatUpTo t "sigpp" = 1 ∧ flatUpTo t "lam" = 0 ∧
    flatUpTo t "alpha" = 0 := by
  simp [flatUpTo]

theorem flatUpTo_continuous : Continuous flatUpTo := by
  refine continuous_pi fun k => ?_
  unfold flatUpTo
  split_ifs
  · exact continuous_id
  all_goals exact continuous_const

/-- The norm on the grid 1, 2, 3, 4 with the masses up to 3 or up to 2. -/
theorem flat_pM1 {s : Smoothed} (hs : singlePeak true 1 4 4 2 true = .ok s) {t : ℝ} (h1 : 2.75 < t)
    (h2 : t ≤ 3) :
    Smoothed.pM1 .numpy s [fin 2.75] (Dict.erase (namedArgs
      ["beta", "delta_m", "alpha", "mmin", "mmax", "lam", "mpp", "sigpp"] (flatUpTo t)) "beta" ++
        [("gaussian_mass_maximum", fin 4)]) = .ok [fin (window 1.5 4 0.5 2.75 /
      (window 1.5 4 0.5 2 + if t = 3 then window 1.5 4 0.5 3 else 0))] := by
  obtain ⟨hM, hQ, rfl⟩ := init_inv hs
  set f : ℝ → ℝ := fun m => (1 - (0 : ℝ)) * normalised (fun x => x ^ (-(0 : ℝ))) 1.5 t m +
    0 * normalised (bell 0 1) 1.5 4 m with hf
  have hI : ∫ x in (1.5 : ℝ)..t, x ^ (-(0 : ℝ)) = t - 1.5 := by simp
  have hfv : ∀ m, f m = if 1.5 ≤ m ∧ m ≤ t then (t - 1.5)⁻¹ else 0 := by
    intro m
    simp only [hf, normalised, hI]
    split_ifs <;> simp
  have hgrid : Arr.linspaceR 1 4 4 = [1, 2, 3, 4] := by
    simp [Arr.linspaceR, List.range, List.range.loop]
    norm_num
  have hprim : ∀ m : ℝ, 0 < m → primTwoComponent true .numpy (Dict.erase (Dict.erase (namedArgs
      ["beta", "delta_m", "alpha", "mmin", "mmax", "lam", "mpp", "sigpp"] (flatUpTo t)) "beta" ++
        [("gaussian_mass_maximum", fin 4)]) "delta_m") (fin m) = .ok (fin (f m)) := by
    intro m hm0
    obtain ⟨g, hg', v1, v2⟩ := bindPrimary
      (names := ["alpha", "mmin", "mmax", "lam", "mpp", "sigpp"])
      (extra := ["gaussian_mass_maximum"]) (defaults := [("gaussian_mass_maximum", fin 100)])
      (kwargs := namedArgs ["beta", "delta_m", "alpha", "mmin", "mmax", "lam", "mpp", "sigpp"] (flatUpTo t))
      (fixed := [("gaussian_mass_maximum", fin 4)]) (by rw [keys_namedArgs]; exact fun k hk => hk)
      (by simp [Dict.keys]) (by decide) (by decide)
      (fun n hn => ⟨_, get?_namedArgs _ (List.mem_cons_of_mem _ (List.mem_cons_of_mem _ hn))⟩)
      (by simp [Dict.get?_cons])
    simp only [List.cons_append, List.nil_append, List.append_nil] at hg'
    simp only [primTwoComponent, List.append_nil, hg']
    show twoComponentSingle _ true (fin m) (g "alpha") (g "mmin") (g "mmax") (g "lam") (g "mpp") (g "sigpp") (g "gaussian_mass_maximum") = _
    rw [v1 "alpha" (by decide) _ (get?_namedArgs _ (by decide)),
      v1 "mmin" (by decide) _ (get?_namedArgs _ (by decide)),
      v1 "mmax" (by decide) _ (get?_namedArgs _ (by decide)),
      v1 "lam" (by decide) _ (get?_namedArgs _ (by decide)),
      v1 "mpp" (by decide) _ (get?_namedArgs _ (by decide)),
      v1 "sigpp" (by decide) _ (get?_namedArgs _ (by decide)),
      v2 "gaussian_mass_maximum" (by decide) (fin 4) (by simp [Dict.get?_cons]),
      show flatUpTo t "alpha" = 0 by simp [flatUpTo], show flatUpTo t "mmin" = 1.5 by simp [flatUpTo],
      show flatUpTo t "mmax" = t by simp [flatUpTo], show flatUpTo t "lam" = 0 by simp [flatUpTo],
      show flatUpTo t "mpp" = 0 by simp [flatUpTo], show flatUpTo t "sigpp" = 1 by simp [flatUpTo]]
    exact C18_twoComponentSingle_value .numpy true (.inr (by norm_num))
      (by norm_num) (by linarith) (by norm_num) (by norm_num) hm0
  have hpos : ∀ m ∈ Arr.linspaceR 1 4 4, (0 : ℝ) < m := fun m hm => by
    have := (linspaceR_mem (by norm_num) hM hm).1
    linarith
  have hN : Arr.trapzR ((Arr.linspaceR 1 4 4).map fun m => f m * window 1.5 4 0.5 m)
      (Arr.linspaceR 1 4 4) = (t - 1.5)⁻¹ *
        (window 1.5 4 0.5 2 + if t = 3 then window 1.5 4 0.5 3 else 0) := by
    rw [hgrid]
    simp only [List.map_cons, List.map_nil, Arr.trapzR, hfv]
    have i1 : ¬ ((1.5 : ℝ) ≤ 1 ∧ 1 ≤ t) := by norm_num
    have i2 : (1.5 : ℝ) ≤ 2 ∧ 2 ≤ t := ⟨by norm_num, by linarith⟩
    have i4 : ¬ ((1.5 : ℝ) ≤ 4 ∧ 4 ≤ t) := by intro h; linarith [h.2]
    rw [if_neg i1, if_pos i2, if_neg i4]
    rcases h2.eq_or_lt with rfl | h
    · rw [if_pos rfl, if_pos ⟨by norm_num, le_rfl⟩]; ring
    · rw [if_neg h.ne, if_neg (by intro h'; linarith [h'.2])]; ring
  have hNpos : 0 < window 1.5 4 0.5 2 + if t = 3 then window 1.5 4 0.5 3 else 0 := by
    refine add_pos_of_pos_of_nonneg ?_ ?_
    · unfold window
      rw [if_pos ⟨by norm_num, by norm_num⟩]
      exact taper_pos _
    · split_ifs
      · exact window_nonneg _ _ _ _
      · exact le_rfl
  have ht : (t - 1.5)⁻¹ ≠ 0 := inv_ne_zero (by linarith)
  have := pM1_value .numpy (Smoothed.mk (primTwoComponent true) [("gaussian_mass_maximum", fin 4)] 1 4
    (Arr.linspaceR 1 4 4) (Arr.linspaceR 0.001 1 2) true none)
    (Dict.erase (namedArgs ["beta", "delta_m", "alpha", "mmin", "mmax", "lam", "mpp", "sigpp"]
      (flatUpTo t)) "beta" ++ [("gaussian_mass_maximum", fin 4)]) (nM := 4) (d := 0.5) (lo := 1.5) rfl
    (by simp [Smoothed.kwGet, Dict.erase, namedArgs, Dict.get?_cons, flatUpTo]) (by norm_num)
    (by simp [Smoothed.kwGet, Dict.erase, namedArgs, Dict.get?_cons, flatUpTo]) (f := f)
    (fun m hm => hprim m (hpos m hm)) (masses := [2.75])
    (fun m hm => hprim m (by simp only [List.mem_singleton] at hm; rw [hm]; norm_num)) rfl
  refine this.trans ?_
  simp only [List.map_cons, List.map_nil, hN]
  rw [fin_div (mul_ne_zero ht hNpos.ne'), hfv, if_pos ⟨by norm_num, h1.le⟩, mul_div_mul_left _ _ ht]

/-- **C91 fails.** When `mmax` crosses a mass of the internal grid, the trapezoid norm gains or loses
that grid mass, and the density jumps everywhere. With grid masses 1, 2, 3, 4 and a flat distribution
from 1.5 to `mmax` the density at 2.75 jumps at `mmax = 3`. -/
theorem C91_fails : ¬ C91_statement := by
  intro H
  obtain ⟨s, hs⟩ : ∃ s, singlePeak true 1 4 4 2 true = .ok s :=
    ⟨_, init_ok _ _ _ _ _ (by norm_num) (by norm_num)⟩
  set data : List (ℝ × ℝ) := [(2.75, 0.9)] with hdata
  set names := ["beta", "delta_m", "alpha", "mmin", "mmax", "lam", "mpp", "sigpp"] with hnames
  obtain ⟨f1, f2, f3, f4, f5, f6⟩ := flatUpTo_values 3
  obtain ⟨g, cg, hg⟩ := H .numpy true true 1 4 4 2 s hs (flatUpTo 3) (by norm_num)
    (by rw [f2]; norm_num) (by rw [f1, f2]; norm_num) (by rw [f1]; norm_num) (by rw [f3]; norm_num)
    (.inr (by rw [f6]; norm_num)) (by rw [f5]) (by rw [f5]; norm_num)
    (by rw [f4]; norm_num) data
    (by
      intro e he
      simp only [hdata, List.mem_singleton] at he
      subst he
      rw [f1, f2]
      norm_num) ⟨1, by norm_num, by rw [f2]; norm_num, by rw [f1]; norm_num⟩
  -- the mass-ratio factor does not depend on `mmax`
  obtain ⟨hM, hQ, hs'⟩ := init_inv hs
  obtain ⟨g2, -, v2, p2⟩ := pQ_continuous (P := ℝ) .numpy s (beta := fun _ => 0) (lo := fun _ => 1.5)
    (d := fun _ => 0.5) (p := 0) (nM := 4) (nQ := 2) (by norm_num) (by norm_num) (by rw [hs'])
    (by rw [hs']) (by rw [hs']; norm_num) (by rw [hs']) continuousAt_const continuousAt_const
    continuousAt_const (by norm_num) (by norm_num) (by rw [hs']; norm_num) (data := data)
    (by
      intro e he
      simp only [hdata, List.mem_singleton] at he
      subst he
      rw [hs']
      norm_num)
    (by
      rw [hs']
      intro m hm q hq
      obtain ⟨i, hi, rfl⟩ := List.mem_map.1 hm
      obtain ⟨j, hj, rfl⟩ := List.mem_map.1 hq
      have hi := List.mem_range.1 hi
      have hj := List.mem_range.1 hj
      interval_cases i <;> interval_cases j <;> norm_num)
  have v2 := v2.self_of_nhds
  have p2 := p2 _ (List.mem_singleton.2 rfl) (by norm_num) (by norm_num)
  set G := g2 0 (2.75, 0.9) with hG
  -- the value of a call
  have hcall : ∀ t : ℝ, 2.75 < t → t ≤ 3 → (Smoothed.call .numpy s (data.map fun e => (fin e.1, fin e.2))
      (namedArgs names (flatUpTo t))).1 = .ok [fin (window 1.5 4 0.5 2.75 /
        (window 1.5 4 0.5 2 + if t = 3 then window 1.5 4 0.5 3 else 0) * G)] := by
    intro t h1 h2
    have e1 := flat_pM1 hs h1 h2
    subst hs'
    unfold Smoothed.call
    have kb : Dict.get? (namedArgs names (flatUpTo t)) "beta" = some (fin 0) := by
      rw [get?_namedArgs _ (by decide)]; simp [flatUpTo]
    have kw : ∀ k v dflt, k ≠ "beta" → k ∈ names → flatUpTo t k = v →
        Smoothed.kwGet (Dict.erase (namedArgs names (flatUpTo t)) "beta") k dflt = fin v := by
      intro k v dflt hk hm hv
      unfold Smoothed.kwGet
      rw [Dict.get?_erase, if_neg hk, get?_namedArgs _ hm, hv]; rfl
    rw [kb]
    simp only
    rw [kw "mmin" 1.5 _ (by decide) (by decide) (by simp [flatUpTo]),
      kw "mmax" t _ (by decide) (by decide) (by simp [flatUpTo]),
      kw "delta_m" 0.5 _ (by decide) (by decide) (by simp [flatUpTo]),
      if_neg (fun h => by have := h.2; simp only [fin_lt] at this; norm_num at this),
      if_neg (fun h => by have := h.2; simp only [fin_lt] at this; linarith), if_neg ?_]
    · simp only [hdata, List.map_cons, List.map_nil] at v2 ⊢
      rw [e1]
      simp only
      rcases hQ' : Smoothed.pQ .numpy ⟨primTwoComponent true, [("gaussian_mass_maximum", fin 4)], 1, 4,
        Arr.linspaceR 1 4 4, Arr.linspaceR 0.001 1 2, true, none⟩ [(fin 2.75, fin 0.9)] (fin 0) (fin 1.5)
        (fin 0.5) with ⟨r, s'⟩
      rw [hQ'] at v2
      simp only at v2
      subst v2
      simp only
      rw [broadcast_same .numpy _ (by simp)]
      simp [hG]
    · rintro ⟨k, hk, hk'⟩
      rw [Dict.keys_erase, keys_namedArgs] at hk
      simp only [Dict.keys, List.map_cons, List.map_nil, List.mem_singleton] at hk'
      subst hk'
      exact absurd hk (by decide)
  -- along mmax → 3 from below
  have hlim : Tendsto (fun t => flatUpTo t) (𝓝[<] 3) (𝓝 (flatUpTo 3)) :=
    (flatUpTo_continuous.tendsto 3).mono_left nhdsWithin_le_nhds
  have cg := cg (2.75, 0.9) (by simp [hdata])
  have hlim' : Tendsto (fun t => g (flatUpTo t) (2.75, 0.9)) (𝓝[<] 3) (𝓝 (g (flatUpTo 3) (2.75, 0.9))) :=
    (ContinuousAt.tendsto cg).comp hlim
  have hval : ∀ t : ℝ, 2.75 < t → t ≤ 3 → (Smoothed.call .numpy s (data.map fun e => (fin e.1, fin e.2))
      (namedArgs names (flatUpTo t))).1 = .ok (data.map fun x => fin (g (flatUpTo t) x)) →
      g (flatUpTo t) (2.75, 0.9) = window 1.5 4 0.5 2.75 /
        (window 1.5 4 0.5 2 + if t = 3 then window 1.5 4 0.5 3 else 0) * G := by
    intro t h1 h2 h
    rw [hcall t h1 h2] at h
    have := Except.ok.inj h
    simp only [hdata, List.map_cons, List.map_nil, List.cons.injEq, and_true, Fl.fin.injEq] at this
    exact this.symm
  have h3 := hval 3 (by norm_num) le_rfl hg.self_of_nhds
  have hev : ∀ᶠ t in 𝓝[<] (3 : ℝ), g (flatUpTo t) (2.75, 0.9) =
      window 1.5 4 0.5 2.75 / window 1.5 4 0.5 2 * G := by
    have hnear : ∀ᶠ t in 𝓝[<] (3 : ℝ), 2.75 < t :=
      (lt_mem_nhds (show (2.75 : ℝ) < 3 by norm_num)).filter_mono nhdsWithin_le_nhds
    filter_upwards [hlim.eventually hg, hnear, self_mem_nhdsWithin] with t q1 q2 q3
    have q3 : t < 3 := q3
    rw [hval t q2 q3.le q1, if_neg q3.ne, add_zero]
  have hconst := tendsto_nhds_unique hlim' (tendsto_const_nhds.congr' (hev.mono fun _ h => h.symm))
  rw [h3, if_pos rfl] at hconst
  have w : ∀ m : ℝ, 1.5 ≤ m → m ≤ 4 → 0 < window 1.5 4 0.5 m := by
    intro m h1 h2
    unfold window
    rw [if_pos ⟨h1, h2⟩]
    exact taper_pos _
  have w1 := w 2.75 (by norm_num) (by norm_num)
  have w2 := w 2 (by norm_num) (by norm_num)
  have w3 := w 3 (by norm_num) (by norm_num)
  have := mul_right_cancel₀ p2.ne' hconst
  rw [div_eq_div_iff (by positivity) w2.ne'] at this
  have := mul_left_cancel₀ w1.ne' this
  linarith

end GW
