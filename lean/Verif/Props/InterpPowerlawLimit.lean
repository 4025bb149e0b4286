import Verif.Props.SmoothedLimit
import Verif.Props.InterpPowerlawHistory

/-!
# C126: the joint values of the interpolated power law, and their limit for fine grids
-/

noncomputable section

open Classical Set Filter Topology MeasureTheory

namespace GW

open Fl Spec

/-! ## Specification -/

/-- The joint density an interpolated power law documents: power law times window times spline, zero
outside the outer nodes; divided by the integral of power law times window times spline over the mass
range of the instance; times the mass-ratio power law times the window, normalised over the allowed
mass ratios. -/
def Spec.interpDensity (S : String → List ℝ → List ℝ → ℝ → ℝ) (c : SplineConfig) (x f : List ℝ)
    (a lo hi selfMin selfMax d beta m q : ℝ) : ℝ :=
  cutShape S c x f a lo hi selfMax d m /
      (∫ t in selfMin..selfMax, wideShape S c x f a lo hi selfMax d t) *
    normalised (fun t => t ^ beta * taper ((m * t - lo) / d)) (lo / m) 1 q

namespace InterpPowerlaw

open SplineModel

/-- The configuration of the spline part of a new instance. -/
def configOf (nodes : ℕ) (kind : String) (mmin mmax : ℝ) (reg : Bool) : SplineConfig :=
  ⟨["mass_1"], mmin, mmax, nodes, kind, true, reg⟩

theorem init_parts {py : Bool} {nodes : ℕ} {kind : String} {mmin mmax : ℝ} {nM nQ : ℕ} {reg : Bool}
    {s : InterpPowerlaw} (h : init py nodes kind mmin mmax nM nQ reg = .ok s) :
    Smoothed.init (primPowerLaw py) [] mmin mmax nM nQ true = .ok s.smoothed ∧
      s.spline.config = configOf nodes kind mmin mmax reg := by
  unfold init at h
  rw [bind_eq_ok] at h
  obtain ⟨sm, h1, h⟩ := h
  rw [bind_eq_ok] at h
  obtain ⟨sp, h2, h⟩ := h
  cases h
  refine ⟨h1, ?_⟩
  unfold SplineModel.init at h2
  cases h2
  rfl

theorem init_exists (py : Bool) (nodes : ℕ) (kind : String) (mmin mmax : ℝ) {nM nQ : ℕ} (reg : Bool)
    (hM : 2 ≤ nM) (hQ : 2 ≤ nQ) : ∃ s, init py nodes kind mmin mmax nM nQ reg = .ok s := by
  unfold init Smoothed.init SplineModel.init
  rw [if_neg (by omega)]
  exact ⟨_, rfl⟩

theorem pM1_smoothed (b : Backend) (rule : SplineRule) (s : InterpPowerlaw) (masses : List Fl)
    (kwargs : Dict Fl) : (s.pM1 b rule masses kwargs).2.smoothed = s.smoothed := by
  rcases pM1_state b rule s masses kwargs with h | ⟨f, x, -, -, h⟩ <;> rw [h]

/-- **C126, values.** A call on a new instance returns, for every pair of masses and mass ratios, the
product of the primary density and of the mass-ratio density. -/
theorem C126_value {b : Backend} {rule : SplineRule}
    {S : String → List ℝ → List ℝ → ℝ → ℝ} (hrule : RealRule rule S)
    {py : Bool} {nodes : ℕ} {kind : String} {mmin mmax : ℝ} {nM nQ : ℕ} {reg : Bool}
    {s : InterpPowerlaw} {kwargs : Dict Fl} {a lo hi d beta : ℝ} {x f : List ℝ}
    (hinit : init py nodes kind mmin mmax nM nQ reg = .ok s) (hmin : 0 < mmin) (hmm : mmin < mmax)
    (hk : InterpArgs s kwargs a lo hi d x f) (hbeta : kwargs.get? "beta" = some (fin beta))
    (ha : b = .jax ∨ a ≠ -1) (hlo : mmin ≤ lo) (hlt : lo < hi) (hhi : hi ≤ mmax)
    (hw : WindowOk b d) (hx : x ≠ []) (hxp : ∀ v ∈ x, 0 < v)
    {data : List (ℝ × ℝ)} (hm : ∀ e ∈ data, 0 < e.1) {pq : ℝ → ℝ → ℝ}
    (hpq : (s.smoothed.pQ b (data.map fun e => (fin e.1, fin e.2)) (fin beta) (fin lo) (fin d)).1 =
      .ok (data.map fun e => fin (pq e.1 e.2)))
    {Z : ℝ} (hZ : Arr.trapzR ((Arr.linspaceR mmin mmax nM).map
      (wideShape S (configOf nodes kind mmin mmax reg) x f a lo hi mmax d))
      (Arr.linspaceR mmin mmax nM) = Z) (hZ0 : Z ≠ 0) :
    (s.call b rule (data.map fun e => (fin e.1, fin e.2)) kwargs).1 =
      .ok (data.map fun e => fin
        (cutShape S (configOf nodes kind mmin mmax reg) x f a lo hi mmax d e.1 / Z * pq e.1 e.2)) := by
  obtain ⟨hM, -, hs, hn, hgrid, hsmin, hsmax, hq, -, hbase, -⟩ := init_ok hinit
  obtain ⟨-, hcfg⟩ := init_parts hinit
  have hargs := interpArgs_erase hbase hk
  have hp := C71_value_partial (b := b) hrule hs hn (ms := data.map Prod.fst) hargs ha
    (by linarith) hlt hw (fun m hm' => by
      rw [hgrid] at hm'
      linarith [linspaceR_ge hmm.le hm']) hxp (by
      intro m hm'
      obtain ⟨e, he, rfl⟩ := List.mem_map.1 hm'
      exact hm e he) hx (Z := Z) (by rw [hgrid, hcfg, hsmax]; exact hZ) hZ0
  rw [hcfg, hsmax, List.map_map] at hp
  have hst := pM1_smoothed b rule s ((data.map Prod.fst).map fin) (Dict.erase kwargs "beta")
  have e1 : Smoothed.kwGet (Dict.erase kwargs "beta") "mmin" (fin s.smoothed.mmin) = fin lo := by
    unfold Smoothed.kwGet; rw [hargs.mmin]; rfl
  have e2 : Smoothed.kwGet (Dict.erase kwargs "beta") "mmax" (fin s.smoothed.mmax) = fin hi := by
    unfold Smoothed.kwGet; rw [hargs.mmax]; rfl
  have e3 : Smoothed.kwGet (Dict.erase kwargs "beta") "delta_m" 0 = fin d := hargs.delta
  have hmasses : (data.map fun e => (fin e.1, fin e.2)).map Prod.fst =
      (data.map Prod.fst).map fin := by
    rw [List.map_map, List.map_map]; rfl
  unfold call
  rw [hbeta]
  simp only [e1, e2, e3]
  rw [if_neg (fun h => by have := fin_lt.1 h.2; rw [hsmin] at this; linarith),
    if_neg (fun h => by have := fin_lt.1 h.2; rw [hsmax] at this; linarith), hmasses]
  cases hr : s.pM1 b rule ((data.map Prod.fst).map fin) (Dict.erase kwargs "beta") with
  | mk r s' =>
    rw [hr] at hst
    rw [show ((data.map Prod.fst).map fin) = data.map (fin ∘ Prod.fst) from List.map_map ..] at hr
    rw [hr] at hp
    simp only at hp hst
    subst hp
    simp only
    rw [hst]
    cases hq : s.smoothed.pQ b (data.map fun e => (fin e.1, fin e.2)) (fin beta) (fin lo) (fin d) with
    | mk c sm =>
      rw [hq] at hpq
      simp only at hpq
      subst hpq
      unfold times
      simp only
      rw [broadcast_same b _ (by simp), List.zipWith_map, List.zipWith_map_left, List.zipWith_self]
      simp only [fin_mul]

/-- The power law times window is the normalised power law times the window of the smoothed models. -/
theorem tapered_window {d : ℝ} (hd : 0 < d) (a lo hi top m : ℝ) :
    tapered a lo hi top d m = normalised (fun t => t ^ (-a)) lo hi m * window lo top d m := by
  unfold tapered rise window
  rw [if_pos hd]

theorem wide_eq {d : ℝ} (hd : 0 < d) (S : String → List ℝ → List ℝ → ℝ → ℝ) (c : SplineConfig)
    (x f : List ℝ) (a lo hi top m : ℝ) :
    wideShape S c x f a lo hi top d m =
      normalised (fun t => t ^ (-a)) lo hi m * expSpline S c x f m * window lo top d m := by
  unfold wideShape
  rw [tapered_window hd]
  ring

/-- **C126, limit.** As the two grids of an instance are refined, the first call of a new instance
tends, at all masses and mass ratios except masses at the lower limit, to the documented density. -/
theorem C126_limit {b : Backend} {rule : SplineRule}
    {S : String → List ℝ → List ℝ → ℝ → ℝ} (hrule : RealRule rule S)
    {py : Bool} {nodes : ℕ} {kind : String} {mmin mmax : ℝ} {reg : Bool}
    {kwargs : Dict Fl} {a lo hi d beta : ℝ} {x f : List ℝ} (hmin : 0 < mmin)
    (hk : ∀ nM nQ s, init py nodes kind mmin mmax nM nQ reg = .ok s →
      InterpArgs s kwargs a lo hi d x f) (hbeta : kwargs.get? "beta" = some (fin beta))
    (ha : b = .jax ∨ a ≠ -1) (hlo : mmin ≤ lo) (hlt : lo < hi) (hhi : hi ≤ mmax)
    (hq : 0.001 * mmax ≤ lo) (hd : 0 < d) (hx : x ≠ []) (hxp : ∀ v ∈ x, 0 < v)
    (hbv : BoundedVariationOn (expSpline S (configOf nodes kind mmin mmax reg) x f)
      (Icc mmin mmax)) :
    ∃ p : ℕ × ℕ → ℝ → ℝ → ℝ,
      (∀ᶠ n in atTop, ∃ s, init py nodes kind mmin mmax n.1 n.2 reg = .ok s ∧
        ∀ data : List (ℝ × ℝ), (∀ e ∈ data, 0 < e.1) →
          (s.call b rule (data.map fun e => (fin e.1, fin e.2)) kwargs).1 =
            .ok (data.map fun e => fin (p n e.1 e.2))) ∧
      ∀ m q, 0 < m → m ≠ lo → 0 < q → Tendsto (p · m q) atTop
        (𝓝 (interpDensity S (configOf nodes kind mmin mmax reg) x f a lo hi mmin mmax d beta m q)) := by
  have hlo0 : 0 < lo := by linarith
  have hmm : mmin < mmax := by linarith
  set c := configOf nodes kind mmin mmax reg with hc
  set g : ℝ → ℝ := fun m => normalised (fun t => t ^ (-a)) lo hi m * expSpline S c x f m with hg
  have hgbv : BoundedVariationOn g (Icc mmin mmax) :=
    (bv_normalised lo hi (bv_rpow (-a) hmin)).mul hbv
  have hwide : wideShape S c x f a lo hi mmax d = fun m => g m * window lo mmax d m :=
    funext fun m => wide_eq hd S c x f a lo hi mmax m
  have hI : ∫ t in mmin..mmax, wideShape S c x f a lo hi mmax d t ≠ 0 := by
    rw [hwide]
    refine windowed_norm_pos hd hgbv (fun t => ?_) hlo hlt hhi fun t ht => ?_
    · exact mul_nonneg ((isPdf_powerlaw (-a) hlo0 hlt).nonneg t) (Real.exp_pos _).le
    · exact mul_pos (normalised_pos (integral_rpow_pos hlo0 hlt) ⟨ht.1.le, ht.2.le⟩
        (Real.rpow_pos_of_pos (by linarith [ht.1]) _)) (Real.exp_pos _)
  have hlim : Tendsto (fun n : ℕ => Arr.trapzR ((Arr.linspaceR mmin mmax n).map
      (wideShape S c x f a lo hi mmax d)) (Arr.linspaceR mmin mmax n)) atTop
      (𝓝 (∫ t in mmin..mmax, wideShape S c x f a lo hi mmax d t)) := by
    refine trapzR_tendsto hmm.le ?_
    rw [hwide]
    exact hgbv.mul (bv_window lo mmax hd _ _)
  obtain ⟨p2, hp2, hl2⟩ := C85_massRatio_limit b (primPowerLaw py) [] (selfMin := mmin)
    (selfMax := mmax) (beta := beta) hd hlo0 hlo hq
  refine ⟨fun n m q => cutShape S c x f a lo hi mmax d m / Arr.trapzR ((Arr.linspaceR mmin mmax n.1).map
      (wideShape S c x f a lo hi mmax d)) (Arr.linspaceR mmin mmax n.1) * p2 n m q, ?_, ?_⟩
  · rw [← prod_atTop_atTop_eq]
    have hM : ∀ᶠ n : ℕ × ℕ in atTop ×ˢ atTop, 2 ≤ n.1 ∧ 2 ≤ n.2 :=
      (eventually_ge_atTop 2).prod_mk (eventually_ge_atTop 2)
    filter_upwards [hM, (hlim.eventually_ne hI).prod_inl atTop] with n hn hne
    obtain ⟨s, hs⟩ := init_exists py nodes kind mmin mmax reg hn.1 hn.2
    exact ⟨s, hs, fun data hdata => C126_value hrule hs hmin hmm (hk _ _ _ hs) hbeta ha hlo hlt hhi
      (.inl hd) hx hxp hdata (hp2 _ _ _ _ (init_parts hs).1 data) rfl hne⟩
  · intro m q h1 h2 h3
    have hl1 : Tendsto (fun n : ℕ => cutShape S c x f a lo hi mmax d m /
        Arr.trapzR ((Arr.linspaceR mmin mmax n).map
      (wideShape S c x f a lo hi mmax d)) (Arr.linspaceR mmin mmax n)) atTop
      (𝓝 (cutShape S c x f a lo hi mmax d m /
        ∫ t in mmin..mmax, wideShape S c x f a lo hi mmax d t)) := tendsto_const_nhds.div hlim hI
    have := hl1.comp (tendsto_fst (f := (atTop : Filter ℕ)) (g := (atTop : Filter ℕ)))
    rw [prod_atTop_atTop_eq] at this
    by_cases hin : lo < m ∧ m ≤ mmax
    · exact this.mul (hl2 m q hin.1 hin.2 h3)
    · have hz : cutShape S c x f a lo hi mmax d m = 0 := by
        unfold cutShape
        rw [tapered_window hd]
        unfold window
        rw [if_neg fun h => hin ⟨lt_of_le_of_ne h.1 (Ne.symm h2), h.2⟩]
        simp
      simp only [hz, zero_div, zero_mul, interpDensity]
      exact tendsto_const_nhds

/-- **C126, normalisation.** If the outer nodes cover `[mmin, mmax]` of the hyper-parameters, the limit
is a density of the same form as that of the other smoothed models, with power law times spline as
primary density, and it integrates to one. -/
theorem C126_normalised (S : String → List ℝ → List ℝ → ℝ → ℝ) (c : SplineConfig) {x f : List ℝ}
    {a lo hi selfMin selfMax d : ℝ} (beta : ℝ) (hself : 0 < selfMin) (hlo : selfMin ≤ lo)
    (hlt : lo < hi) (hhi : hi ≤ selfMax) (hd : 0 < d)
    (hbv : BoundedVariationOn (expSpline S c x f) (Icc selfMin selfMax))
    (hcover : ∀ m, lo ≤ m → m ≤ hi → Between x m) :
    (∀ m q, interpDensity S c x f a lo hi selfMin selfMax d beta m q =
      smoothedDensity (fun t => normalised (fun t => t ^ (-a)) lo hi t * expSpline S c x f t)
        selfMin selfMax lo d beta m q) ∧
    ∫ m in selfMin..selfMax, ∫ q, interpDensity S c x f a lo hi selfMin selfMax d beta m q = 1 := by
  have hlo0 : 0 < lo := by linarith
  have hcut : ∀ m, cutShape S c x f a lo hi selfMax d m = wideShape S c x f a lo hi selfMax d m := by
    intro m
    unfold cutShape wideShape
    by_cases hr : lo ≤ m ∧ m ≤ hi
    · unfold cutSpline
      rw [if_pos (hcover m hr.1 hr.2)]
    · unfold tapered
      simp only [normalised]
      rw [if_neg hr]
      simp
  have key : ∀ m q, interpDensity S c x f a lo hi selfMin selfMax d beta m q =
      smoothedDensity (fun t => normalised (fun t => t ^ (-a)) lo hi t * expSpline S c x f t)
        selfMin selfMax lo d beta m q := by
    intro m q
    unfold interpDensity smoothedDensity
    simp only [hcut, wide_eq hd]
  refine ⟨key, ?_⟩
  simp only [key]
  refine C85_limit_normalised _ beta hlo0 (by linarith) ?_
  have hgbv : BoundedVariationOn (fun t => normalised (fun t => t ^ (-a)) lo hi t *
      expSpline S c x f t) (Icc selfMin selfMax) :=
    (bv_normalised lo hi (bv_rpow (-a) hself)).mul hbv
  refine windowed_norm_pos hd hgbv (fun t => ?_) hlo hlt hhi fun t ht => ?_
  · exact mul_nonneg ((isPdf_powerlaw (-a) hlo0 hlt).nonneg t) (Real.exp_pos _).le
  · exact mul_pos (normalised_pos (integral_rpow_pos hlo0 hlt) ⟨ht.1.le, ht.2.le⟩
      (Real.rpow_pos_of_pos (by linarith [ht.1]) _)) (Real.exp_pos _)

/-- **C126, outside the outer nodes.** Masses below the first or above the last node get value zero,
whatever the spline does there. -/
theorem C126_outside (S : String → List ℝ → List ℝ → ℝ → ℝ) (c : SplineConfig) {x f : List ℝ}
    (a lo hi selfMin selfMax d beta q : ℝ) {m : ℝ} (h : ¬ Between x m) :
    interpDensity S c x f a lo hi selfMin selfMax d beta m q = 0 := by
  unfold interpDensity cutShape cutSpline
  rw [if_neg h]
  simp

/-- Non-vacuity: a rule that returns a constant, nodes at 1 and 3. -/
example (b : Backend) :
    ∃ p : ℕ × ℕ → ℝ → ℝ → ℝ,
      (∀ᶠ n in atTop, ∃ s, init false 2 "linear" 1 3 n.1 n.2 false = .ok s ∧
        ∀ data : List (ℝ × ℝ), (∀ e ∈ data, 0 < e.1) →
          (s.call b (fun _ _ _ _ => fin 0) (data.map fun e => (fin e.1, fin e.2))
            (smallKwargs 3)).1 = .ok (data.map fun e => fin (p n e.1 e.2))) ∧
      ∀ m q, 0 < m → m ≠ 1 → 0 < q → Tendsto (p · m q) atTop
        (𝓝 (interpDensity (fun _ _ _ _ => 0) (configOf 2 "linear" 1 3 false) [1, 3] [0, 0] 0 1 3 1 3 1
          0 m q)) := by
  refine C126_limit (S := fun _ _ _ _ => 0) (fun _ _ _ _ => rfl) one_pos (fun nM nQ s hs => ?_) rfl
    (.inr (by norm_num)) (le_refl _) (by norm_num) (le_refl _) (by norm_num) one_pos (by simp)
    (by simp) ?_
  · obtain ⟨h1, h2, h3, h4, h5⟩ := small_args 3
    refine ⟨h1, h2, h3, h4, ?_⟩
    rw [← h5]
    obtain ⟨-, hcfg⟩ := init_parts hs
    have hb := (init_ok hs).2.2.2.2.2.2.2.2.2.1
    exact extract_congr (s := small.spline) hcfg hb _
  · exact bv_congr (bv_monotone (f := fun _ => (1 : ℝ)) fun _ _ _ _ _ => le_refl _) fun t _ => by
      simp [expSpline]

/-- Non-vacuity: the outer nodes 1 and 3 cover the masses 1 to 3. -/
example (m : ℝ) (h1 : 1 ≤ m) (h3 : m ≤ 3) : Between [1, 3] m := ⟨h1, h3⟩

end InterpPowerlaw

end GW
