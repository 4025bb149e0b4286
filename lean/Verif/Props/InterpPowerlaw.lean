import Verif.Model.InterpPowerlaw
import Verif.Props.SplineHistory

/-!
# C71: the interpolated power law is normalised on its mass grid
-/

noncomputable section

open Classical

namespace GW

open Fl Spec

/-! ## Specification -/

/-- The low-mass window: the taper of width `d` above `lo`, zero below `lo` and above `top`; no window
if `d` is not positive. -/
def Spec.rise (lo top d m : ℝ) : ℝ :=
  if 0 < d then (if lo ≤ m ∧ m ≤ top then taper ((m - lo) / d) else 0) else 1

/-- Power law times window. -/
def Spec.tapered (a lo hi top d m : ℝ) : ℝ :=
  normalised (fun t => t ^ (-a)) lo hi m * rise lo top d m

/-- Power law times window times spline, without a cut at the outer nodes. -/
def Spec.wideShape (S : String → List ℝ → List ℝ → ℝ → ℝ) (c : SplineConfig) (x f : List ℝ)
    (a lo hi top d m : ℝ) : ℝ :=
  tapered a lo hi top d m * expSpline S c x f m

/-- Power law times window times spline, zero outside the outer nodes. -/
def Spec.cutShape (S : String → List ℝ → List ℝ → ℝ → ℝ) (c : SplineConfig) (x f : List ℝ)
    (a lo hi top d m : ℝ) : ℝ :=
  tapered a lo hi top d m * cutSpline S c x f m

/-- The hyper-parameters: `alpha`, `mmin`, `mmax`, `delta_m` (zero if absent), node positions and
(regularised) node values. -/
structure Spec.InterpArgs (s : InterpPowerlaw) (kwargs : Dict Fl) (a lo hi d : ℝ) (x f : List ℝ) :
    Prop where
  alpha : kwargs.get? "alpha" = some (fin a)
  mmin : kwargs.get? "mmin" = some (fin lo)
  mmax : kwargs.get? "mmax" = some (fin hi)
  delta : (kwargs.get? "delta_m").getD 0 = fin d
  points : s.spline.extractSplinePoints kwargs = .ok (f.map fin, x.map fin)

/-- The two parts of an instance as `__init__` connects them. -/
structure Spec.Wired (s : InterpPowerlaw) : Prop where
  params : s.spline.config.parameters = ["mass_1"]
  logNodes : s.spline.config.logNodes = true
  grid : s.spline.xs = s.smoothed.m1s

/-- The window of the code is `rise`. The value `delta_m = 0` is not treated specially on jax. -/
def Spec.WindowOk (b : Backend) (d : ℝ) : Prop := 0 < d ∨ (d ≤ 0 ∧ b ≠ .jax)

namespace InterpPowerlaw

open SplineModel

/-! ## Evaluation -/

theorem smoothing_rise {b : Backend} {d : ℝ} (h : WindowOk b d) (m lo top : ℝ) :
    smoothing b (fin m) (fin lo) (fin top) (fin d) = fin (rise lo top d m) := by
  unfold rise
  rcases h with h | ⟨h, hb⟩
  · rw [if_pos h, smoothing_fin b m lo top h]
  · rw [if_neg h.not_gt]
    unfold smoothing
    rw [if_neg]
    · rfl
    · rintro (h' | h')
      · exact hb h'
      · exact h.not_gt (fin_lt.1 h')

theorem rise_nonneg (lo top d m : ℝ) : 0 ≤ rise lo top d m := by
  unfold rise
  split_ifs
  · exact (taper_pos _).le
  · exact le_refl _
  · exact zero_le_one

/-- The power of the window in the norm does nothing. -/
theorem pow_window {b : Backend} {d : ℝ} (h : WindowOk b d) (m lo top : ℝ) :
    Fl.pow (smoothing b (fin m) (fin lo) (fin top) (fin d)) (ind (0 < fin d)) =
      fin (rise lo top d m) := by
  rw [smoothing_rise h]
  by_cases hd : 0 < d
  · rw [ind_true (show (0 : Fl) < fin d from fin_lt.2 hd), pow_fin]
    rcases (rise_nonneg lo top d m).lt_or_eq with h' | h'
    · unfold powFin; rw [if_pos h', Real.rpow_one]
    · rw [← h']; simp [powFin]
  · rw [ind_false (show ¬ (0 : Fl) < fin d from fun h' => hd (fin_lt.1 h')), pow_fin]
    unfold rise
    rw [if_neg hd]
    simp [powFin]

theorem primaryAt_value {b : Backend} {s : InterpPowerlaw} {kwargs : Dict Fl} {a lo hi : ℝ}
    (h1 : kwargs.get? "alpha" = some (fin a)) (h2 : kwargs.get? "mmin" = some (fin lo))
    (h3 : kwargs.get? "mmax" = some (fin hi)) (ha : b = .jax ∨ a ≠ -1) (h0 : 0 < lo) (h : lo < hi)
    {ms : List ℝ} (hm : ∀ m ∈ ms, 0 < m) :
    s.primaryAt b kwargs (ms.map fin) =
      .ok (ms.map fun m => fin (normalised (fun t => t ^ (-a)) lo hi m)) := by
  unfold primaryAt Dict.get
  rw [h1, h2, h3]
  show (ms.map fin).mapM _ = _
  rw [mapM_map]
  exact mapM_ok fun m hm' => C18_powerLawMass_value b s.py ha h0 h (hm m hm')

theorem get?_erase_ne {kwargs : Dict Fl} {k k' : String} (h : k' ≠ k) :
    Dict.get? (Dict.erase kwargs k) k' = Dict.get? kwargs k' := by
  rw [Dict.get?_erase, if_neg h]

theorem pMRaw_value {b : Backend} {s : InterpPowerlaw} {kwargs : Dict Fl} {a lo hi d : ℝ}
    (h1 : kwargs.get? "alpha" = some (fin a)) (h2 : kwargs.get? "mmin" = some (fin lo))
    (h3 : kwargs.get? "mmax" = some (fin hi)) (ha : b = .jax ∨ a ≠ -1) (h0 : 0 < lo) (h : lo < hi)
    (hw : WindowOk b d) {ms : List ℝ} (hm : ∀ m ∈ ms, 0 < m) :
    s.pMRaw b (ms.map fin) (fin lo) (fin d) kwargs =
      .ok (ms.map fun m => fin (tapered a lo hi s.smoothed.mmax d m)) := by
  unfold pMRaw
  rw [primaryAt_value h1 h2 h3 ha h0 h hm, ok_bind, List.map_map, inplaceMul_same b (by simp),
    zipWith_map_same]
  congr 1
  refine List.map_congr_left fun m _ => ?_
  simp only [Function.comp]
  rw [smoothing_rise hw, fin_mul]
  rfl

/-- The norm computed through interpolants that were set up for the nodes `x₀`. -/
theorem normPM1_value {b : Backend} {rule : SplineRule} {S : String → List ℝ → List ℝ → ℝ → ℝ}
    (hrule : RealRule rule S) {s : InterpPowerlaw} (hs : Wired s) {kwargs : Dict Fl}
    {a lo hi d : ℝ} {x₀ f : List ℝ} {rows : List (String → ℝ)}
    (h1 : kwargs.get? "alpha" = some (fin a)) (h2 : kwargs.get? "mmin" = some (fin lo))
    (h3 : kwargs.get? "mmax" = some (fin hi)) (ha : b = .jax ∨ a ≠ -1) (h0 : 0 < lo) (h : lo < hi)
    (hw : WindowOk b d) (hg : ∀ m ∈ s.smoothed.m1s, 0 < m) (hfr : Frozen s.spline x₀ rows) :
    s.normPM1 b rule (fin d) (f.map fin) kwargs =
      .ok (fin (Arr.trapzR (s.smoothed.m1s.map
        (wideShape S s.spline.config x₀ f a lo hi s.smoothed.mmax d)) s.smoothed.m1s)) := by
  have hmin : Smoothed.kwGet kwargs "mmin" (fin s.smoothed.mmin) = fin lo := by
    unfold Smoothed.kwGet; rw [h2]; rfl
  have hev : ((Interpolant.mk s.spline.config.kind
      ((x₀.map (coordinate s.spline.config)).map fin)
      ((s.spline.xs.map (coordinate s.spline.config)).map fin)).eval rule (f.map fin)).map Fl.exp =
      s.smoothed.m1s.map fun v => fin (expSpline S s.spline.config x₀ f v) := by
    unfold Interpolant.eval
    rw [hs.grid]
    simp only [List.map_map]
    refine List.map_congr_left fun v _ => ?_
    have := hrule s.spline.config.kind (x₀.map (coordinate s.spline.config)) f
      (coordinate s.spline.config v)
    rw [List.map_map] at this
    simp only [Function.comp]
    rw [this]
    rfl
  have hwin : (s.smoothed.m1s.map fin).map (fun m => Fl.pow (smoothing b m
      (Smoothed.kwGet kwargs "mmin" (fin s.smoothed.mmin)) (fin s.smoothed.mmax) (fin d))
      (ind (0 < fin d))) = s.smoothed.m1s.map fun m => fin (rise lo s.smoothed.mmax d m) := by
    rw [hmin, List.map_map]
    exact List.map_congr_left fun m _ => pow_window hw m lo _
  unfold normPM1
  simp only
  rw [primaryAt_value h1 h2 h3 ha h0 h hg, ok_bind]
  simp only [hwin]
  rw [inplaceMul_same b (by simp), ok_bind, zipWith_map_same, hfr.norm]
  simp only [hev]
  rw [inplaceMul_same b (by simp), ok_bind, zipWith_map_same, pure_eq_ok, ← Arr.trapz_fin,
    List.map_map]
  rfl

theorem pairs_masses (pairs : List (ℝ × ℝ)) (g : ℝ × ℝ → ℝ) :
    (pairs.map fun q => fin (g q)) = (pairs.map g).map fin := by
  rw [List.map_map]; rfl

/-- What `p_m1` computes once the interpolants exist: the pairs are the masses of the call that set
the interpolants up, and the masses of the current call. -/
theorem pM1_frozen {b : Backend} {rule : SplineRule} {S : String → List ℝ → List ℝ → ℝ → ℝ}
    (hrule : RealRule rule S) {s : InterpPowerlaw} (hs : Wired s) {kwargs : Dict Fl}
    {a lo hi d : ℝ} {x₀ x f : List ℝ} {pairs : List (ℝ × ℝ)}
    (hk : InterpArgs s kwargs a lo hi d x f) (ha : b = .jax ∨ a ≠ -1) (h0 : 0 < lo) (h : lo < hi)
    (hw : WindowOk b d) (hg : ∀ m ∈ s.smoothed.m1s, 0 < m) (hm : ∀ q ∈ pairs, 0 < q.2) (hx : x ≠ [])
    (hfr : Frozen s.spline x₀ (pairs.map fun q _ => q.1))
    {Z : ℝ} (hZ : Arr.trapzR (s.smoothed.m1s.map
      (wideShape S s.spline.config x₀ f a lo hi s.smoothed.mmax d)) s.smoothed.m1s = Z)
    (hZ0 : Z ≠ 0) :
    s.pM1 b rule (pairs.map fun q => fin q.2) kwargs =
      (.ok (pairs.map fun q => fin (tapered a lo hi s.smoothed.mmax d q.2 *
        frozenFactor S s.spline.config x₀ x f q.1 q.2 / Z)), s) := by
  unfold pM1
  rw [hk.points]
  have e1 : Smoothed.kwGet kwargs "mmin" (fin s.smoothed.mmin) = fin lo := by
    unfold Smoothed.kwGet; rw [hk.mmin]; rfl
  have e2 : Smoothed.kwGet kwargs "delta_m" 0 = fin d := hk.delta
  have k1 : Dict.get? (Dict.erase kwargs "delta_m") "alpha" = some (fin a) := by
    rw [get?_erase_ne (by decide), hk.alpha]
  have k2 : Dict.get? (Dict.erase kwargs "delta_m") "mmin" = some (fin lo) := by
    rw [get?_erase_ne (by decide), hk.mmin]
  have k3 : Dict.get? (Dict.erase kwargs "delta_m") "mmax" = some (fin hi) := by
    rw [get?_erase_ne (by decide), hk.mmax]
  have hms : (pairs.map fun q => fin q.2) = (pairs.map Prod.snd).map fin := by
    rw [List.map_map]; rfl
  simp only [e1, e2]
  rw [hms, pMRaw_value k1 k2 k3 ha h0 h hw (by simpa using fun m q hq => hm (q, m) hq)]
  simp only
  have hpx : s.spline.pXUnnormed b rule (massColumn ((pairs.map Prod.snd).map fin)) "mass_1"
      (x.map fin) (f.map fin) =
      (.ok (pairs.map fun q => fin (frozenFactor S s.spline.config x₀ x f q.1 q.2)), s.spline) := by
    unfold pXUnnormed
    rw [hfr.norm]
    simp only
    have := evalUnnormed_frozen (b := b) hrule (s := s.spline) (x₀ := x₀)
      (pairs := pairs.map fun q => ((fun _ => q.1), (fun _ => q.2)))
      (by rw [List.map_map]; exact hfr) (dataset := massColumn ((pairs.map Prod.snd).map fin))
      (x := x) (f := f) hx (by
        intro p hp
        rw [hs.params, List.mem_singleton] at hp
        subst hp
        rw [List.map_map, List.map_map, List.map_map]
        rfl) (p := "mass_1") (by rw [hs.params]; simp)
    rw [this, List.map_map]
    rfl
  rw [hpx]
  simp only
  unfold finish
  rw [show ({ s with spline := s.spline } : InterpPowerlaw) = s from rfl,
    List.map_map, inplaceMul_same b (by simp), ok_bind, zipWith_map_same,
    normPM1_value hrule hs k1 k2 k3 ha h0 h hw hg hfr, ok_bind, hZ, pure_eq_ok, List.map_map]
  congr 2
  refine List.map_congr_left fun q _ => ?_
  simp only [Function.comp, fin_mul]
  rw [fin_div hZ0]

/-- Setting up the interpolants. -/
theorem setup_masses {s : InterpPowerlaw} (hs : Wired s) {x ms : List ℝ} (hx : ∀ v ∈ x, 0 < v)
    (hg : ∀ m ∈ s.smoothed.m1s, 0 < m) (hm : ∀ m ∈ ms, 0 < m) :
    ∃ t, s.spline.setupInterpolant (x.map fin) (massColumn (ms.map fin)) = (.ok (), t) ∧
      Frozen t x (ms.map fun m _ => m) ∧ t.config = s.spline.config ∧ t.base = s.spline.base ∧
      t.xs = s.spline.xs := by
  obtain ⟨t, h1, h2, h3, h4, h5, -⟩ := setup_frozen (s := s.spline) (x := x)
    (dataset := massColumn (ms.map fin)) (rows := ms.map fun m _ => m) (by
      intro p hp
      rw [hs.params, List.mem_singleton] at hp
      subst hp
      rw [List.map_map]
      rfl) (fun _ => hx) (fun _ => by rw [hs.grid]; exact hg) (by
      intro r hr _ v hv
      obtain ⟨m, hm', rfl⟩ := List.mem_map.1 hr
      obtain ⟨p, -, rfl⟩ := List.mem_map.1 hv
      exact hm m hm')
  exact ⟨t, h1, h2, h3, h4, h5⟩

/-- The same instance with other interpolants extracts the same node values and positions. -/
theorem extract_congr {s t : SplineModel} (h : t.config = s.config) (hb : t.base = s.base)
    (kwargs : Dict Fl) : t.extractSplinePoints kwargs = s.extractSplinePoints kwargs := by
  unfold extractSplinePoints regularise fkeys xkeys
  rw [h, hb]

/-- On an instance without interpolants, `p_m1` is what it is with interpolants for these masses and
nodes. -/
theorem pM1_setup {b : Backend} {rule : SplineRule} {s : InterpPowerlaw}
    (hn : s.spline.normSpline = none) {kwargs : Dict Fl} {x f : List Fl}
    (hk : s.spline.extractSplinePoints kwargs = .ok (f, x)) {masses : List Fl} {t : SplineModel}
    (ht : s.spline.setupInterpolant x (massColumn masses) = (.ok (), t))
    (hc : t.config = s.spline.config) (hb : t.base = s.spline.base) {r : List Fl}
    {u : InterpPowerlaw}
    (hp : pM1 b rule { s with spline := t } masses kwargs = (.ok r, u)) :
    pM1 b rule s masses kwargs = (.ok r, u) := by
  have hsome : ∃ i, t.normSpline = some i := by
    unfold setupInterpolant at ht
    simp only at ht
    split at ht
    · simp at ht
    · simp only [Prod.mk.injEq, true_and] at ht
      rw [← ht]
      exact ⟨_, rfl⟩
  obtain ⟨i, hi⟩ := hsome
  have hpx : s.spline.pXUnnormed b rule (massColumn masses) "mass_1" x f =
      t.pXUnnormed b rule (massColumn masses) "mass_1" x f := by
    unfold pXUnnormed
    rw [hn, ht, hi]
  rw [← hp]
  unfold pM1 at hp ⊢
  simp only [extract_congr hc hb, hk] at hp ⊢
  rw [hpx]
  have hraw : ∀ ms mmin dm kw, pMRaw b { s with spline := t } ms mmin dm kw =
      pMRaw b s ms mmin dm kw := fun _ _ _ _ => rfl
  rw [hraw] at hp ⊢
  split at hp
  · simp at hp
  · rfl

/-- **C71.** On a new instance, `p_m1` is the power law times window times spline, zero outside the
outer nodes, divided by the integral over the mass grid of the same product *without* the cut at the
outer nodes. -/
theorem C71_value_partial {b : Backend} {rule : SplineRule}
    {S : String → List ℝ → List ℝ → ℝ → ℝ} (hrule : RealRule rule S) {s : InterpPowerlaw}
    (hs : Wired s) (hn : s.spline.normSpline = none) {kwargs : Dict Fl} {a lo hi d : ℝ}
    {x f ms : List ℝ} (hk : InterpArgs s kwargs a lo hi d x f) (ha : b = .jax ∨ a ≠ -1)
    (h0 : 0 < lo) (h : lo < hi) (hw : WindowOk b d) (hg : ∀ m ∈ s.smoothed.m1s, 0 < m)
    (hxp : ∀ v ∈ x, 0 < v) (hm : ∀ m ∈ ms, 0 < m) (hx : x ≠ [])
    {Z : ℝ} (hZ : Arr.trapzR (s.smoothed.m1s.map
      (wideShape S s.spline.config x f a lo hi s.smoothed.mmax d)) s.smoothed.m1s = Z)
    (hZ0 : Z ≠ 0) :
    (s.pM1 b rule (ms.map fin) kwargs).1 =
      .ok (ms.map fun m => fin (cutShape S s.spline.config x f a lo hi s.smoothed.mmax d m / Z)) := by
  obtain ⟨t, ht, hfr, hc, hb, htx⟩ := setup_masses hs hxp hg hm
  have key := pM1_frozen (b := b) hrule (s := { s with spline := t })
    ⟨by rw [← hs.params, ← hc], by rw [← hs.logNodes, ← hc], by rw [← hs.grid, ← htx]⟩
    (kwargs := kwargs) (x₀ := x) (pairs := ms.map fun m => (m, m))
    ⟨hk.alpha, hk.mmin, hk.mmax, hk.delta, by rw [← hk.points]; exact extract_congr hc hb kwargs⟩
    ha h0 h hw hg (by simpa using hm) hx (by rw [List.map_map]; exact hfr)
    (Z := Z) (by simp only [hc]; exact hZ) hZ0
  rw [show ((ms.map fun m => (m, m)).map fun q => fin q.2) = ms.map fin from by
    rw [List.map_map]; rfl] at key
  rw [pM1_setup hn hk.points ht hc hb key, List.map_map]
  simp only [hc]
  rfl

/-! ## The property -/

theorem strip_mass_1 : String.ofList (pyStrip ['_', '1'] "mass_1".toList) = "mass" := by decide

/-- The instance built by the constructor. -/
theorem init_ok {py : Bool} {nodes : ℕ} {kind : String} {mmin mmax : ℝ} {nM nQ : ℕ} {reg : Bool}
    {s : InterpPowerlaw} (h : init py nodes kind mmin mmax nM nQ reg = .ok s) :
    2 ≤ nM ∧ 2 ≤ nQ ∧ Wired s ∧ s.spline.normSpline = none ∧
      s.smoothed.m1s = Arr.linspaceR mmin mmax nM ∧ s.smoothed.mmin = mmin ∧
      s.smoothed.mmax = mmax ∧ s.smoothed.qMasses = none ∧ s.smoothed.cache = true ∧
      s.spline.base = "mass" ∧ s.spline.config.nodes = nodes ∧
      s.spline.config.regularize = reg ∧ s.spline.config.kind = kind ∧ s.spline.dataSpline = [] := by
  unfold init Smoothed.init at h
  by_cases hn : nM < 2 ∨ nQ < 2
  · rw [if_pos hn] at h; cases h
  · rw [if_neg hn, ok_bind] at h
    cases h
    refine ⟨by omega, by omega, ⟨rfl, rfl, rfl⟩, rfl, rfl, rfl, rfl, rfl, rfl, ?_, rfl, rfl, rfl,
      rfl⟩
    exact strip_mass_1

theorem linspaceR_ge {a c : ℝ} (h : a ≤ c) {n : ℕ} {v : ℝ} (hv : v ∈ Arr.linspaceR a c n) :
    a ≤ v := by
  obtain ⟨i, hi, rfl⟩ := List.getElem_of_mem hv
  rw [linspaceR_getElem]
  rw [linspaceR_length] at hi
  have h1 : (1 : ℝ) ≤ n := by exact_mod_cast (show 1 ≤ n by omega)
  have : 0 ≤ (c - a) * (i : ℝ) / ((n : ℝ) - 1) :=
    div_nonneg (mul_nonneg (by linarith) (Nat.cast_nonneg i)) (by linarith)
  linarith

theorem linspaceR_le {a c : ℝ} (h : a ≤ c) {n : ℕ} (hn : 2 ≤ n) {v : ℝ}
    (hv : v ∈ Arr.linspaceR a c n) : v ≤ c := by
  obtain ⟨i, hi, rfl⟩ := List.getElem_of_mem hv
  rw [linspaceR_getElem]
  rw [linspaceR_length] at hi
  have h1 : (0 : ℝ) < (n : ℝ) - 1 := by
    have : (2 : ℝ) ≤ n := by exact_mod_cast hn
    linarith
  have h2 : (i : ℝ) ≤ (n : ℝ) - 1 := by
    have : (i : ℝ) + 1 ≤ n := by exact_mod_cast hi
    linarith
  have : (c - a) * (i : ℝ) / ((n : ℝ) - 1) ≤ c - a := by
    rw [div_le_iff₀ h1]
    exact mul_le_mul_of_nonneg_left h2 (by linarith)
  linarith

theorem tapered_nonneg {a lo hi : ℝ} (h0 : 0 < lo) (top d m : ℝ) :
    0 ≤ tapered a lo hi top d m := by
  unfold tapered
  refine mul_nonneg ?_ (rise_nonneg ..)
  simp only [normalised]
  split_ifs with h
  · have h1 : lo ≤ hi := h.1.trans h.2
    exact div_nonneg (Real.rpow_nonneg (by linarith [h.1]) _)
      (intervalIntegral.integral_nonneg h1 fun t ht => Real.rpow_nonneg (by linarith [ht.1]) _)
  · exact le_refl _

theorem tapered_pos {a lo hi : ℝ} (h0 : 0 < lo) (h : lo < hi) {top m : ℝ} (d : ℝ) (h1 : lo ≤ m)
    (h2 : m ≤ hi) (h3 : m ≤ top) : 0 < tapered a lo hi top d m := by
  unfold tapered
  refine mul_pos ?_ ?_
  · simp only [normalised]
    rw [if_pos ⟨h1, h2⟩]
    refine div_pos (Real.rpow_pos_of_pos (by linarith) _) ?_
    refine intervalIntegral.intervalIntegral_pos_of_pos_on ?_
      (fun t ht => Real.rpow_pos_of_pos (by linarith [ht.1]) _) h
    refine ContinuousOn.intervalIntegrable ?_
    rw [Set.uIcc_of_le h.le]
    exact ContinuousOn.rpow_const continuousOn_id fun t ht => .inl (by
      have := ht.1
      linarith)
  · unfold rise
    split_ifs with hd h'
    · exact taper_pos _
    · exact absurd ⟨h1, h3⟩ h'
    · exact one_pos

/-- The integral over the grid without the cut is positive as soon as a grid mass lies between `mmin`
and `mmax`. -/
theorem wide_pos (S : String → List ℝ → List ℝ → ℝ → ℝ) (c : SplineConfig) (x f : List ℝ)
    {a lo hi : ℝ} (h0 : 0 < lo) (h : lo < hi) {top : ℝ} (d : ℝ) {grid : List ℝ}
    (hgrid : grid.Pairwise (· < ·)) (h2 : 2 ≤ grid.length)
    (hex : ∃ m ∈ grid, lo ≤ m ∧ m ≤ hi ∧ m ≤ top) :
    0 < Arr.trapzR (grid.map (wideShape S c x f a lo hi top d)) grid := by
  refine trapzR_pos_of_exists (by simp) h2 ?_ hgrid ?_
  · intro y hy
    obtain ⟨m, -, rfl⟩ := List.mem_map.1 hy
    exact mul_nonneg (tapered_nonneg h0 ..) (Real.exp_pos _).le
  · obtain ⟨m, hm, h1, h2, h3⟩ := hex
    exact ⟨_, List.mem_map.2 ⟨m, hm, rfl⟩, mul_pos (tapered_pos h0 h d h1 h2 h3) (Real.exp_pos _)⟩

/-- The primary density of every new instance, evaluated on the mass grid, integrates to one over the
grid (trapezoid rule): for increasing positive node positions, and a grid mass between the nodes at
which the density is positive. -/
def C71_statement (b : Backend) (rule : SplineRule) : Prop :=
  ∀ (py : Bool) (nodes : ℕ) (kind : String) (mmin mmax : ℝ) (nM nQ : ℕ) (reg : Bool)
    (s : InterpPowerlaw) (kwargs : Dict Fl) (a lo hi d : ℝ) (x f : List ℝ),
    init py nodes kind mmin mmax nM nQ reg = .ok s → 0 < mmin → mmin < mmax →
    InterpArgs s kwargs a lo hi d x f → (b = .jax ∨ a ≠ -1) → mmin ≤ lo → lo < hi → hi ≤ mmax →
    WindowOk b d → x ≠ [] → x.Pairwise (· < ·) → (∀ v ∈ x, 0 < v) →
    (∃ m ∈ s.smoothed.m1s, lo ≤ m ∧ m ≤ hi ∧ Between x m) →
    ∃ p, (s.pM1 b rule (s.smoothed.m1s.map fin) kwargs).1 = .ok p ∧
      Arr.trapz p (s.smoothed.m1s.map fin) = fin 1

/-- **C71.** The integral over the grid is the integral of the product with the cut divided by the
integral of the product without it. It is 1 if all grid masses between `mmin` and `mmax` lie between
the outer nodes, and less than 1 if one of them does not. -/
theorem C71_integral_partial {b : Backend} {rule : SplineRule}
    {S : String → List ℝ → List ℝ → ℝ → ℝ} (hrule : RealRule rule S)
    {py : Bool} {nodes : ℕ} {kind : String} {mmin mmax : ℝ} {nM nQ : ℕ} {reg : Bool}
    {s : InterpPowerlaw} {kwargs : Dict Fl} {a lo hi d : ℝ} {x f : List ℝ}
    (hinit : init py nodes kind mmin mmax nM nQ reg = .ok s) (hmin : 0 < mmin) (hmm : mmin < mmax)
    (hk : InterpArgs s kwargs a lo hi d x f) (ha : b = .jax ∨ a ≠ -1) (hlo : mmin ≤ lo)
    (h : lo < hi) (hw : WindowOk b d) (hx : x ≠ []) (hxp : ∀ v ∈ x, 0 < v)
    (hex : ∃ m ∈ s.smoothed.m1s, lo ≤ m ∧ m ≤ hi) :
    ∃ (p : List Fl) (I : ℝ), (s.pM1 b rule (s.smoothed.m1s.map fin) kwargs).1 = .ok p ∧
      Arr.trapz p (s.smoothed.m1s.map fin) = fin I ∧
      I = Arr.trapzR (s.smoothed.m1s.map
            (cutShape S s.spline.config x f a lo hi s.smoothed.mmax d)) s.smoothed.m1s /
          Arr.trapzR (s.smoothed.m1s.map
            (wideShape S s.spline.config x f a lo hi s.smoothed.mmax d)) s.smoothed.m1s ∧
      ((∀ m ∈ s.smoothed.m1s, lo ≤ m → m ≤ hi → Between x m) → I = 1) ∧
      ((∃ m ∈ s.smoothed.m1s, lo ≤ m ∧ m ≤ hi ∧ ¬ Between x m) → I < 1) := by
  obtain ⟨hM, -, hwired, hn, hgrid, -, hmax, -⟩ := init_ok hinit
  have hlo0 : 0 < lo := by linarith
  have hpos : ∀ m ∈ s.smoothed.m1s, 0 < m := fun m hm => by
    rw [hgrid] at hm
    linarith [linspaceR_ge hmm.le hm]
  have htop : ∀ m ∈ s.smoothed.m1s, m ≤ s.smoothed.mmax := fun m hm => by
    rw [hgrid] at hm
    rw [hmax]
    exact linspaceR_le hmm.le hM hm
  have hsorted : s.smoothed.m1s.Pairwise (· < ·) := by rw [hgrid]; exact linspaceR_sorted hmm hM
  have hlen : 2 ≤ s.smoothed.m1s.length := by rw [hgrid, linspaceR_length]; exact hM
  have hZ := wide_pos S s.spline.config x f hlo0 h (a := a) (top := s.smoothed.mmax) d hsorted hlen
    (by
      obtain ⟨m, hm, h1, h2⟩ := hex
      exact ⟨m, hm, h1, h2, htop m hm⟩)
  refine ⟨_, _, C71_value_partial hrule hwired hn hk ha hlo0 h hw hpos hxp hpos hx rfl hZ.ne', ?_,
    rfl, ?_, ?_⟩
  · have : (s.smoothed.m1s.map fun m => fin (cutShape S s.spline.config x f a lo hi s.smoothed.mmax d m
        / Arr.trapzR (s.smoothed.m1s.map
          (wideShape S s.spline.config x f a lo hi s.smoothed.mmax d)) s.smoothed.m1s)) =
        ((s.smoothed.m1s.map (cutShape S s.spline.config x f a lo hi s.smoothed.mmax d)).map
          (· / Arr.trapzR (s.smoothed.m1s.map
          (wideShape S s.spline.config x f a lo hi s.smoothed.mmax d)) s.smoothed.m1s)).map fin := by
      rw [List.map_map, List.map_map]; rfl
    rw [this, Arr.trapz_fin, Arr.trapzR_map_div]
  · intro hall
    rw [div_eq_one_iff_eq hZ.ne']
    congr 1
    refine List.map_congr_left fun m hm => ?_
    unfold cutShape wideShape
    by_cases hr : lo ≤ m ∧ m ≤ hi
    · unfold cutSpline
      rw [if_pos (hall m hm hr.1 hr.2)]
    · unfold tapered
      simp only [normalised]
      rw [if_neg hr]
      simp
  · rintro ⟨m, hm, h1, h2, hout⟩
    rw [div_lt_one hZ]
    have e : s.smoothed.m1s.map (wideShape S s.spline.config x f a lo hi s.smoothed.mmax d) =
        s.smoothed.m1s.map fun v => cutShape S s.spline.config x f a lo hi s.smoothed.mmax d v +
          (tapered a lo hi s.smoothed.mmax d v * if Between x v then 0 else
            expSpline S s.spline.config x f v) := by
      refine List.map_congr_left fun v _ => ?_
      unfold wideShape cutShape cutSpline
      rw [← mul_add]
      split_ifs <;> simp
    rw [e, Arr.trapzR_map_add]
    have : 0 < Arr.trapzR (s.smoothed.m1s.map fun v => tapered a lo hi s.smoothed.mmax d v *
        if Between x v then 0 else expSpline S s.spline.config x f v) s.smoothed.m1s := by
      refine trapzR_pos_of_exists (by simp) hlen ?_ hsorted ?_
      · intro y hy
        obtain ⟨v, -, rfl⟩ := List.mem_map.1 hy
        refine mul_nonneg (tapered_nonneg hlo0 ..) ?_
        split_ifs
        · exact le_refl _
        · exact (Real.exp_pos _).le
      · refine ⟨_, List.mem_map.2 ⟨m, hm, rfl⟩,
          mul_pos (tapered_pos hlo0 h d h1 h2 (htop m hm)) ?_⟩
        rw [if_neg hout]
        exact Real.exp_pos _
    linarith

/-- An instance with two nodes and a grid of three masses. -/
def small : InterpPowerlaw :=
  ⟨false, ⟨primPowerLaw false, [], 1, 3, Arr.linspaceR 1 3 3, Arr.linspaceR 0.001 1 2, true, none⟩,
    ⟨.base, ⟨["mass_1"], 1, 3, 2, "linear", true, false⟩, "mass", Arr.linspaceR 1 3 3, none, []⟩⟩

theorem small_init : init false 2 "linear" 1 3 3 2 false = .ok small := by
  unfold init Smoothed.init SplineModel.init
  rw [if_neg (by omega), ok_bind]
  simp only [strip_mass_1]
  rfl

/-- Nodes at 1 and `top`, with values 0. -/
def smallKwargs (top : ℝ) : Dict Fl :=
  [("alpha", fin 0), ("mmin", fin 1), ("mmax", fin 3), ("beta", fin 0), ("delta_m", fin 1),
    ("mass0", fin 1), ("mass1", fin top), ("fmass0", fin 0), ("fmass1", fin 0)]

theorem small_args (top : ℝ) : InterpArgs small (smallKwargs top) 0 1 3 1 [1, top] [0, 0] := by
  refine ⟨rfl, rfl, rfl, rfl, ?_⟩
  refine C36_unregularised rfl ?_ ?_
  · show [fkey "mass" 0, fkey "mass" 1].mapM (smallKwargs top).get = _
    rw [show fkey "mass" 0 = "fmass0" from by decide, show fkey "mass" 1 = "fmass1" from by decide]
    rfl
  · show [xkey "mass" 0, xkey "mass" 1].mapM (smallKwargs top).get = _
    rw [show xkey "mass" 0 = "mass0" from by decide, show xkey "mass" 1 = "mass1" from by decide]
    rfl

theorem small_grid : small.smoothed.m1s = [1, 2, 3] := by
  show Arr.linspaceR 1 3 3 = _
  unfold Arr.linspaceR
  simp [List.range_succ]
  norm_num

/-- With the outer node below the upper end of the grid, the density does not integrate to one, for
every interpolation rule with real values. -/
theorem C71_fails (b : Backend) {rule : SplineRule} {S : String → List ℝ → List ℝ → ℝ → ℝ}
    (hrule : RealRule rule S) : ¬ C71_statement b rule := by
  intro H
  have hx : ∀ v ∈ [(1 : ℝ), 2], 0 < v := by simp
  obtain ⟨p, hp, hI⟩ := H false 2 "linear" 1 3 3 2 false small (smallKwargs 2) 0 1 3 1 [1, 2] [0, 0]
    small_init one_pos (by norm_num) (small_args 2) (.inr (by norm_num)) (le_refl _) (by norm_num)
    (le_refl _) (.inl one_pos) (by simp) (by simp) hx
    ⟨1, by rw [small_grid]; simp, le_refl _, by norm_num, by constructor <;> simp⟩
  obtain ⟨p', I, hp', hI', -, -, hlt⟩ := C71_integral_partial (b := b) hrule small_init one_pos
    (by norm_num) (small_args 2) (.inr (by norm_num)) (le_refl _) (by norm_num)
    (.inl one_pos) (by simp) hx ⟨1, by rw [small_grid]; simp, le_refl _, by norm_num⟩
  rw [hp] at hp'
  cases hp'
  rw [hI, fin_inj] at hI'
  have := hlt ⟨3, by rw [small_grid]; simp, by norm_num, le_refl _, fun h => by
    have := h.2
    norm_num at this⟩
  linarith

/-- With the outer nodes at the ends of the grid the integral is 1. -/
example (b : Backend) {rule : SplineRule} {S : String → List ℝ → List ℝ → ℝ → ℝ}
    (hrule : RealRule rule S) :
    ∃ p, (small.pM1 b rule (small.smoothed.m1s.map fin) (smallKwargs 3)).1 = .ok p ∧
      Arr.trapz p (small.smoothed.m1s.map fin) = fin 1 := by
  obtain ⟨p, I, hp, hI, -, h1, -⟩ := C71_integral_partial (b := b) hrule small_init one_pos
    (by norm_num) (small_args 3) (.inr (by norm_num)) (le_refl _) (by norm_num)
    (.inl one_pos) (by simp) (by simp) ⟨1, by rw [small_grid]; simp, le_refl _, by norm_num⟩
  refine ⟨p, hp, hI.trans ?_⟩
  rw [h1 fun m hm _ _ => ?_]
  rw [small_grid] at hm
  simp only [List.mem_cons, List.not_mem_nil, or_false] at hm
  rcases hm with rfl | rfl | rfl <;> constructor <;> norm_num

end InterpPowerlaw

end GW
