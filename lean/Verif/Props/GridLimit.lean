import Verif.Props.GridVT
import Mathlib.MeasureTheory.Constructions.Pi
import Mathlib.MeasureTheory.Integral.Prod
import Mathlib.MeasureTheory.Integral.IntervalIntegral.Basic

/-!
# C121: a selection function on a grid is the integral, up to the resolution of the grid
-/

noncomputable section

open MeasureTheory Set

namespace GW

open Fl Spec

/-! ## Specification -/

namespace Spec

/-- The first coordinates of all axes of a grid. -/
def lowest {n : ℕ} (x : Fin n → List ℝ) : Fin n → ℝ := fun i => (x i).getD 0 0

/-- The last coordinates of all axes. -/
def highest {n : ℕ} (x : Fin n → List ℝ) : Fin n → ℝ := fun i => (x i).getD ((x i).length - 1) 0

/-- The coordinates of a point of the grid. -/
def gridPoint {n : ℕ} (x : Fin n → List ℝ) (idx : List ℕ) : Fin n → ℝ := fun i => (x i).getD (idx.getD i 0) 0

/-- Neighbouring coordinates of axis `i` are at most `h i` apart. -/
def Spaced {n : ℕ} (x : Fin n → List ℝ) (h : Fin n → ℝ) : Prop :=
  ∀ i j, j + 1 < (x i).length → (x i).getD (j + 1) 0 - (x i).getD j 0 ≤ h i

end Spec

/-! ## The integral over a box, axis by axis -/

theorem box_cons {n : ℕ} {a b : Fin (n + 1) → ℝ} {s : ℝ} {y : Fin n → ℝ} :
    (Fin.cons s y : Fin (n + 1) → ℝ) ∈ Icc a b ↔ s ∈ Icc (a 0) (b 0) ∧ y ∈ Icc (Fin.tail a) (Fin.tail b) := by
  simp only [mem_Icc, Pi.le_def, Fin.forall_fin_succ, Fin.cons_zero, Fin.cons_succ, Fin.tail]
  tauto

theorem integral_box {n : ℕ} {a b : Fin (n + 1) → ℝ} {g : (Fin (n + 1) → ℝ) → ℝ} (hg : ContinuousOn g (Icc a b)) :
    IntegrableOn (fun s => ∫ y in Icc (Fin.tail a) (Fin.tail b), g (Fin.cons s y)) (Icc (a 0) (b 0)) ∧
    ∫ θ in Icc a b, g θ =
      ∫ s in Icc (a 0) (b 0), ∫ y in Icc (Fin.tail a) (Fin.tail b), g (Fin.cons s y) := by
  have hi : IntegrableOn g (Icc a b) := hg.integrableOn_compact isCompact_Icc
  let e := (MeasurableEquiv.piFinSuccAbove (fun _ : Fin (n + 1) => ℝ) 0).symm
  have he : MeasurePreserving e := (volume_preserving_piFinSuccAbove (fun _ : Fin (n + 1) => ℝ) 0).symm _
  have hpre : e ⁻¹' Icc a b = Icc (a 0) (b 0) ×ˢ Icc (Fin.tail a) (Fin.tail b) := by
    ext ⟨s, y⟩
    rw [mem_preimage, mem_prod]
    have : e (s, y) = Fin.cons s y := by
      show (Fin.insertNthEquiv (fun _ => ℝ) 0) (s, y) = _
      simp
      rfl
    rw [this]
    exact box_cons
  have hcomp : ∀ z : ℝ × (Fin n → ℝ), g (e z) = g (Fin.cons z.1 z.2) := by
    intro z
    congr 1
    show (Fin.insertNthEquiv (fun _ => ℝ) 0) (z.1, z.2) = _
    simp
    rfl
  have hi2 : IntegrableOn (fun z : ℝ × (Fin n → ℝ) => g (Fin.cons z.1 z.2))
      (Icc (a 0) (b 0) ×ˢ Icc (Fin.tail a) (Fin.tail b)) (volume.prod volume) := by
    have := (he.integrableOn_comp_preimage e.measurableEmbedding (f := g) (s := Icc a b)).2 hi
    rw [hpre] at this
    exact this.congr_fun (fun z _ => hcomp z) (measurableSet_Icc.prod measurableSet_Icc)
  constructor
  · unfold IntegrableOn at hi2
    rw [← Measure.prod_restrict] at hi2
    exact hi2.integral_prod_left
  · have h1 := he.setIntegral_preimage_emb e.measurableEmbedding g (Icc a b)
    rw [hpre] at h1
    rw [← h1]
    simp only [hcomp]
    exact setIntegral_prod (fun z : ℝ × (Fin n → ℝ) => g (Fin.cons z.1 z.2)) hi2

theorem getD_mono {x : List ℝ} (hx : x.Pairwise (· < ·)) {i j : ℕ} (hij : i ≤ j) (hj : j < x.length) :
    x.getD i 0 ≤ x.getD j 0 := by
  rw [List.getD_eq_getElem _ _ (by omega), List.getD_eq_getElem _ _ hj]
  rcases hij.eq_or_lt with rfl | h
  · exact le_rfl
  · exact (List.pairwise_iff_getElem.1 hx i j _ _ h).le

/-- A trapezoid rule against an integral. -/
theorem trapezoid_near {N : ℕ} {X y : ℕ → ℝ} {F : ℝ → ℝ} {c : ℝ} (hX : ∀ j < N, X j ≤ X (j + 1))
    (hF : IntegrableOn F (Icc (X 0) (X N)))
    (hy : ∀ j < N, ∀ s ∈ Icc (X j) (X (j + 1)), |y j - F s| ≤ c ∧ |y (j + 1) - F s| ≤ c) :
    |trapezoidRule N y X - ∫ s in X 0..X N, F s| ≤ c * (X N - X 0) := by
  have hmono : ∀ j ≤ N, X 0 ≤ X j := by
    intro j
    induction j with
    | zero => intro _; exact le_rfl
    | succ j ih => intro hj; exact (ih (by omega)).trans (hX j (by omega))
  have hmono2 : ∀ k j, j + k = N → X j ≤ X N := by
    intro k
    induction k with
    | zero => intro j hj; rw [← hj]; exact le_rfl
    | succ k ih => intro j hj; exact (hX j (by omega)).trans (ih (j + 1) (by omega))
  have hint : ∀ k < N, IntervalIntegrable F volume (X k) (X (k + 1)) := by
    intro k hk
    rw [intervalIntegrable_iff_integrableOn_Icc_of_le (hX k hk)]
    exact hF.mono_set (Icc_subset_Icc (hmono k hk.le) (hmono2 (N - (k + 1)) (k + 1) (by omega)))
  rw [← intervalIntegral.sum_integral_adjacent_intervals hint]
  unfold trapezoidRule
  rw [← Finset.sum_sub_distrib]
  refine (Finset.abs_sum_le_sum_abs _ _).trans ?_
  have hcell : ∀ k ∈ Finset.range N, |(X (k + 1) - X k) * (y k + y (k + 1)) / 2 - ∫ s in X k..X (k + 1), F s| ≤
      c * (X (k + 1) - X k) := by
    intro k hk
    have hk := Finset.mem_range.1 hk
    have e : (X (k + 1) - X k) * (y k + y (k + 1)) / 2 = ∫ _ in X k..X (k + 1), (y k + y (k + 1)) / 2 := by
      rw [intervalIntegral.integral_const, smul_eq_mul]
      ring
    rw [e, ← intervalIntegral.integral_sub intervalIntegrable_const (hint k hk)]
    have := intervalIntegral.norm_integral_le_of_norm_le_const (a := X k) (b := X (k + 1))
      (f := fun s => (y k + y (k + 1)) / 2 - F s) (C := c) (by
        intro s hs
        rw [uIoc_of_le (hX k hk)] at hs
        obtain ⟨h1, h2⟩ := hy k hk s (Ioc_subset_Icc_self hs)
        rw [Real.norm_eq_abs]
        have h1 := abs_le.1 h1
        have h2 := abs_le.1 h2
        rw [abs_le]
        constructor <;> linarith)
    rw [Real.norm_eq_abs, abs_of_nonneg (sub_nonneg.2 (hX k hk))] at this
    exact this
  refine (Finset.sum_le_sum hcell).trans ?_
  rw [← Finset.mul_sum, Finset.sum_range_sub]

theorem grid_error {n : ℕ} (x : Fin n → List ℝ) (hx : ∀ i, (x i).Pairwise (· < ·)) (hne : ∀ i, x i ≠ [])
    {h : Fin n → ℝ} (hh : Spaced x h) (hh0 : ∀ i, 0 ≤ h i) {g : (Fin n → ℝ) → ℝ}
    (hg : ContinuousOn g (Icc (lowest x) (highest x))) {ω : ℝ} {f : List ℕ → ℝ}
    (hf : ∀ idx, Inside idx ((List.ofFn x).map List.length) → ∀ θ ∈ Icc (lowest x) (highest x),
      (∀ i, |θ i - gridPoint x idx i| ≤ h i) → |f idx - g θ| ≤ ω) :
    |gridIntegral (List.ofFn x) f - ∫ θ in Icc (lowest x) (highest x), g θ| ≤
      ω * ∏ i, (highest x i - lowest x i) := by
  induction n generalizing f with
  | zero =>
    have e : Icc (lowest x) (highest x) = univ := by
      ext θ
      simp
    have e2 : ∫ θ in Icc (lowest x) (highest x), g θ = g (lowest x) := by
      rw [e, Measure.restrict_univ, Measure.volume_pi_eq_dirac (lowest x), integral_dirac]
    rw [e2]
    simp only [List.ofFn_zero, gridIntegral, Finset.univ_eq_empty, Finset.prod_empty, mul_one]
    exact hf [] (by simp [Inside]) _ (by rw [e]; trivial) (fun i => i.elim0)
  | succ n ih =>
    obtain ⟨hF, hbox⟩ := integral_box hg
    set F : ℝ → ℝ := fun s => ∫ y in Icc (Fin.tail (lowest x)) (Fin.tail (highest x)), g (Fin.cons s y) with hFdef
    have hlen : 0 < (x 0).length := List.length_pos_iff.2 (hne 0)
    set N := (x 0).length - 1 with hN
    set X : ℕ → ℝ := fun j => (x 0).getD j 0 with hXdef
    set V := ∏ i, (highest (Fin.tail x) i - lowest (Fin.tail x) i) with hV
    have hX : ∀ j < N, X j ≤ X (j + 1) := fun j hj => getD_mono (hx 0) (by omega) (by omega)
    have h0N : X 0 ≤ X N := getD_mono (hx 0) (by omega) (by omega)
    have hrow : ∀ j ≤ N, ∀ s ∈ Icc (X 0) (X N), |s - X j| ≤ h 0 →
        |gridIntegral (List.ofFn (Fin.tail x)) (fun idx => f (j :: idx)) - F s| ≤ ω * V := by
      intro j hj s hs hsj
      refine ih (Fin.tail x) (fun i => hx i.succ) (fun i => hne i.succ) (h := Fin.tail h)
        (fun i k hk => hh i.succ k hk) (fun i => hh0 i.succ) (g := fun y => g (Fin.cons s y)) ?_ ?_
      · refine hg.comp (Continuous.continuousOn ?_) fun y hy => box_cons.2 ⟨hs, hy⟩
        exact continuous_pi fun i => by
          refine Fin.cases ?_ (fun i => ?_) i
          · simpa using continuous_const
          · simpa using continuous_apply i
      · intro idx hidx y hy hyi
        refine hf (j :: idx) ?_ (Fin.cons s y) (box_cons.2 ⟨hs, hy⟩) ?_
        · rw [List.ofFn_succ, List.map_cons]
          exact .cons (by omega) hidx
        · intro i
          refine Fin.cases ?_ (fun i => ?_) i
          · exact hsj
          · simpa [gridPoint, Fin.tail] using hyi i
    have hkey := trapezoid_near (N := N) (X := X)
      (y := fun j => gridIntegral (List.ofFn (Fin.tail x)) fun idx => f (j :: idx)) (F := F) (c := ω * V) hX hF (by
        intro j hj s hs
        have hj1 : X (j + 1) - X j ≤ h 0 := hh 0 j (by omega)
        have hs' : s ∈ Icc (X 0) (X N) :=
          ⟨(getD_mono (hx 0) (Nat.zero_le j) (by omega)).trans hs.1,
            hs.2.trans (getD_mono (hx 0) (by omega) (by omega))⟩
        refine ⟨hrow j hj.le s hs' ?_, hrow (j + 1) hj s hs' ?_⟩
        · rw [abs_le]
          constructor <;> linarith [hs.1, hs.2, hh0 0]
        · rw [abs_le]
          constructor <;> linarith [hs.1, hs.2, hh0 0])
    have e1 : ∫ θ in Icc (lowest x) (highest x), g θ = ∫ s in X 0..X N, F s := by
      rw [hbox, intervalIntegral.integral_of_le h0N, ← integral_Icc_eq_integral_Ioc]
      rfl
    have e2 : gridIntegral (List.ofFn x) f = trapezoidRule N
        (fun j => gridIntegral (List.ofFn (Fin.tail x)) fun idx => f (j :: idx)) X := by
      rw [List.ofFn_succ]
      rfl
    have e3 : ω * ∏ i, (highest x i - lowest x i) = ω * V * (X N - X 0) := by
      rw [Fin.prod_univ_succ]
      have : ∏ i : Fin n, (highest x i.succ - lowest x i.succ) = V := rfl
      rw [this]
      show ω * ((X N - X 0) * V) = _
      ring
    rw [e1, e2, e3]
    exact hkey

/-! ## The selection function -/

theorem map_ofFn_snd {n : ℕ} (names : Fin n → String) (x : Fin n → List ℝ) :
    (List.ofFn fun i => (names i, x i)).map Prod.snd = List.ofFn x := by
  rw [List.map_ofFn]
  rfl

theorem map_ofFn_len {n : ℕ} (names : Fin n → String) (x : Fin n → List ℝ) :
    (List.ofFn fun i => (names i, x i)).map (·.2.length) = (List.ofFn x).map List.length := by
  rw [List.map_ofFn, List.map_ofFn]
  rfl

/-- **C121, error on a given grid.** For a population density `p` and a sensitivity `v` of any number of parameters,
given on a product grid with different numbers of points on the axes: a `GridVT` returns a number that differs from the
integral of `p v` over the box spanned by the grid by at most the volume of the box times the most that `p v` changes
between points one grid cell apart. -/
theorem C121_grid {n : ℕ} {names : Fin n → String} {x : Fin n → List ℝ} {data : Dict ND}
    {model : PopModel (Dict ND) ND} {vts dens : ND} {p v : (Fin n → ℝ) → ℝ} {parameters : Dict Fl}
    (hlen : ((List.ofFn x).map List.length).Nodup) (hg : ProductGrid (List.ofFn fun i => (names i, x i)) data)
    (hvt : data.get? "vt" = some vts) (hvs : vts.shape = (List.ofFn x).map List.length)
    (hv : ∀ idx, Inside idx ((List.ofFn x).map List.length) → vts.at_ idx = fin (v (gridPoint x idx)))
    (hp : model.prob (data.erase "vt") parameters = .ok dens) (hps : dens.shape = (List.ofFn x).map List.length)
    (hP : ∀ idx, Inside idx ((List.ofFn x).map List.length) → dens.at_ idx = fin (p (gridPoint x idx)))
    (hc : ContinuousOn (fun θ => p θ * v θ) (Icc (lowest x) (highest x)))
    {h : Fin n → ℝ} (hh : Spaced x h) (hh0 : ∀ i, 0 ≤ h i) {ω : ℝ}
    (hω : ∀ θ ∈ Icc (lowest x) (highest x), ∀ θ' ∈ Icc (lowest x) (highest x), (∀ i, |θ i - θ' i| ≤ h i) →
      |p θ * v θ - p θ' * v θ'| ≤ ω) :
    ∃ self d r q, GridVT.init model data = .ok (self, d) ∧ self.call parameters = .ok r ∧
      r.shape = [] ∧ r.at_ [] = fin q ∧
      |q - ∫ θ in Icc (lowest x) (highest x), p θ * v θ| ≤ ω * ∏ i, (highest x i - lowest x i) := by
  have hl := map_ofFn_len names x
  obtain ⟨self, d, r, h1, h2, h3, h4⟩ := C38_integral_partial (P := fun idx => p (gridPoint x idx))
    (V := fun idx => v (gridPoint x idx)) (by rw [hl]; exact hlen) hg hvt (by rw [hl]; exact hvs)
    (by rw [hl]; exact hv) hp (by rw [hl]; exact hps) (by rw [hl]; exact hP)
  rw [map_ofFn_snd] at h4
  have hx : ∀ i, (x i).Pairwise (· < ·) := fun i =>
    hg.increasing (names i, x i) (List.mem_ofFn.2 ⟨i, rfl⟩)
  have hne : ∀ i, x i ≠ [] := fun i => hg.pos (names i, x i) (List.mem_ofFn.2 ⟨i, rfl⟩)
  refine ⟨self, d, r, _, h1, h2, h3, h4, grid_error x hx hne hh hh0 hc ?_⟩
  intro idx hidx θ hθ hd
  refine hω _ ?_ θ hθ fun i => by rw [abs_sub_comm]; exact hd i
  have hin : ∀ i : Fin n, idx.getD i 0 < (x i).length := by
    intro i
    have h5 := hidx.length_eq
    rw [List.length_map, List.length_ofFn] at h5
    have hi : (i : ℕ) < idx.length := by rw [h5]; exact i.2
    have h6 := hidx.get hi (by rw [List.length_map, List.length_ofFn]; exact i.2)
    rw [List.getD_eq_getElem _ _ hi]
    simpa using h6
  constructor
  · intro i
    exact getD_mono (hx i) (Nat.zero_le _) (hin i)
  · intro i
    have := hin i
    exact getD_mono (hx i) (by omega) (by omega)

/-- **C121, limit of fine grids.** The value returned tends to the integral of `p v` over the box `[a, b]` as the
spacing of the grid tends to 0. -/
theorem C121_limit {n : ℕ} {a b : Fin n → ℝ} {p v : (Fin n → ℝ) → ℝ}
    (hc : ContinuousOn (fun θ => p θ * v θ) (Icc a b)) {δ : ℝ} (hδ : 0 < δ) :
    ∃ η > 0, ∀ {names : Fin n → String} {x : Fin n → List ℝ} {data : Dict ND} {model : PopModel (Dict ND) ND}
      {vts dens : ND} {parameters : Dict Fl},
      lowest x = a → highest x = b → Spaced x (fun _ => η) →
      ((List.ofFn x).map List.length).Nodup → ProductGrid (List.ofFn fun i => (names i, x i)) data →
      data.get? "vt" = some vts → vts.shape = (List.ofFn x).map List.length →
      (∀ idx, Inside idx ((List.ofFn x).map List.length) → vts.at_ idx = fin (v (gridPoint x idx))) →
      model.prob (data.erase "vt") parameters = .ok dens → dens.shape = (List.ofFn x).map List.length →
      (∀ idx, Inside idx ((List.ofFn x).map List.length) → dens.at_ idx = fin (p (gridPoint x idx))) →
      ∃ self d r q, GridVT.init model data = .ok (self, d) ∧ self.call parameters = .ok r ∧
        r.shape = [] ∧ r.at_ [] = fin q ∧ |q - ∫ θ in Icc a b, p θ * v θ| ≤ δ := by
  set V := ∏ i, (b i - a i) with hV
  have hV1 : 0 < |V| + 1 := by positivity
  have huc := isCompact_Icc.uniformContinuousOn_of_continuous hc
  rw [Metric.uniformContinuousOn_iff_le] at huc
  obtain ⟨η, hη, hmod⟩ := huc (δ / (|V| + 1)) (by positivity)
  refine ⟨η, hη, ?_⟩
  intro names x data model vts dens parameters ha hb hs hlen hg hvt hvs hv hp hps hP
  subst ha hb
  obtain ⟨self, d, r, q, h1, h2, h3, h4, h5⟩ := C121_grid hlen hg hvt hvs hv hp hps hP hc hs (fun _ => hη.le)
    (ω := δ / (|V| + 1)) (by
      intro θ hθ θ' hθ' hd
      have := hmod θ hθ θ' hθ' ((dist_pi_le_iff hη.le).2 fun i => by rw [Real.dist_eq]; exact hd i)
      rwa [Real.dist_eq] at this)
  refine ⟨self, d, r, q, h1, h2, h3, h4, h5.trans ?_⟩
  show δ / (|V| + 1) * V ≤ δ
  calc δ / (|V| + 1) * V ≤ δ / (|V| + 1) * (|V| + 1) :=
        mul_le_mul_of_nonneg_left (by linarith [le_abs_self V]) (by positivity)
    _ = δ := by field_simp

/-- Two masses and three redshifts. -/
def twoAxes : Fin 2 → List ℝ := ![[1, 2], [0, 1, 3]]

/-- The hypotheses of `C121_grid` hold for the sensitivity `v = mass` and the density `p = redshift` on a grid with two
masses and three redshifts. -/
example : ∃ (model : PopModel (Dict ND) ND) (data : Dict ND), ∃ self d r q,
    GridVT.init model data = .ok (self, d) ∧ self.call [] = .ok r ∧ r.shape = [] ∧ r.at_ [] = fin q ∧
      |q - ∫ θ in Icc (lowest twoAxes) (highest twoAxes), θ 1 * θ 0| ≤ 21 := by
  let vts : ND := ⟨[2, 3], fun idx => fin (gridPoint twoAxes idx 0)⟩
  let dens : ND := ⟨[2, 3], fun idx => fin (gridPoint twoAxes idx 1)⟩
  have hgrid : (List.ofFn fun i => ((![("mass" : String), "redshift"] : Fin 2 → String) i, twoAxes i)) =
      [("mass", [1, 2]), ("redshift", [0, 1, 3])] := by
    simp [List.ofFn_succ, twoAxes]
  have hshape : (List.ofFn twoAxes).map List.length = [2, 3] := by simp [List.ofFn_succ, twoAxes]
  have hlo : lowest twoAxes = ![1, 0] := by
    funext i
    fin_cases i <;> rfl
  have hhi : highest twoAxes = ![2, 3] := by
    funext i
    fin_cases i <;> rfl
  obtain ⟨self, d, r, q, h1, h2, h3, h4, h5⟩ := C121_grid (names := ![("mass" : String), "redshift"]) (x := twoAxes)
    (data := gridData [("mass", [1, 2]), ("redshift", [0, 1, 3])] vts)
    (model := ⟨[], fun _ _ => .ok dens⟩) (vts := vts) (dens := dens) (p := fun θ => θ 1) (v := fun θ => θ 0)
    (parameters := []) (by rw [hshape]; decide)
    (by rw [hgrid]; exact gridData_ok (by simp) (by simp) (by norm_num) (by simp))
    (by simp [gridData, Dict.get?_cons]) (by rw [hshape]) (fun _ _ => rfl) rfl (by rw [hshape]) (fun _ _ => rfl)
    (by fun_prop) (h := ![1, 2]) (by
      intro i j hj
      fin_cases i
      · have : j = 0 := by simp [twoAxes] at hj; omega
        subst this
        norm_num [twoAxes]
      · have : j = 0 ∨ j = 1 := by simp [twoAxes] at hj; omega
        rcases this with rfl | rfl <;> norm_num [twoAxes])
    (by intro i; fin_cases i <;> norm_num) (ω := 7) (by
      rw [hlo, hhi]
      intro θ hθ θ' hθ' hd
      have a0 := hθ.1 0
      have a1 := hθ.1 1
      have b0 := hθ.2 0
      have b1 := hθ.2 1
      have c0 := hθ'.1 0
      have c1 := hθ'.1 1
      have d0 := hθ'.2 0
      have d1 := hθ'.2 1
      have e0 := abs_le.1 (hd 0)
      have e1 := abs_le.1 (hd 1)
      simp at a0 a1 b0 b1 c0 c1 d0 d1 e0 e1
      show |θ 1 * θ 0 - θ' 1 * θ' 0| ≤ 7
      rw [show θ 1 * θ 0 - θ' 1 * θ' 0 = (θ 1 - θ' 1) * θ 0 + θ' 1 * (θ 0 - θ' 0) by ring]
      rw [abs_le]
      constructor <;> nlinarith)
  refine ⟨_, _, self, d, r, q, h1, h2, h3, h4, h5.trans ?_⟩
  rw [hlo, hhi, Fin.prod_univ_two]
  norm_num

end GW
