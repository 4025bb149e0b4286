import Verif.Model.GridSelection
import Verif.Props.GridLimit
import Verif.Props.Consistency

/-!
# C145: the likelihood with a selection function on a grid
-/

noncomputable section

open MeasureTheory ProbabilityTheory Filter Topology Classical

namespace GW

open Fl Spec

/-! ## Specification -/

/-- `vt` was constructed from the sensitivity `v` on the product grid with the axes `x`; for the parameters `φ` its
population model has the density `p`. -/
def Spec.OnGrid {n : ℕ} (vt : GridVT) (x : Fin n → List ℝ) (p v : (Fin n → ℝ) → ℝ) (φ : Dict Fl) : Prop :=
  ∃ (names : Fin n → String) (data rest : Dict ND) (model : PopModel (Dict ND) ND) (vts dens : ND),
    GridVT.init model data = .ok (vt, rest) ∧
    ((List.ofFn x).map List.length).Nodup ∧ ProductGrid (List.ofFn fun i => (names i, x i)) data ∧
    data.get? "vt" = some vts ∧ vts.shape = (List.ofFn x).map List.length ∧
    (∀ idx, Inside idx ((List.ofFn x).map List.length) → vts.at_ idx = fin (v (gridPoint x idx))) ∧
    model.prob (data.erase "vt") φ = .ok dens ∧ dens.shape = (List.ofFn x).map List.length ∧
    ∀ idx, Inside idx ((List.ofFn x).map List.length) → dens.at_ idx = fin (p (gridPoint x idx))

/-- The integral of density times sensitivity over the box that the grid spans. -/
def Spec.sensitiveVolume {n : ℕ} (x : Fin n → List ℝ) (p v : (Fin n → ℝ) → ℝ) : ℝ :=
  ∫ y in Set.Icc (lowest x) (highest x), p y * v y

/-- The volume of the box times the most that density times sensitivity changes within a cell of the grid. -/
def Spec.gridError {n : ℕ} (x : Fin n → List ℝ) (ω : ℝ) : ℝ := ω * ∏ i, (highest x i - lowest x i)

/-- `ω` bounds how much density times sensitivity changes between points at most `h` apart. -/
def Spec.ChangesBy {n : ℕ} (x : Fin n → List ℝ) (p v : (Fin n → ℝ) → ℝ) (h : Fin n → ℝ) (ω : ℝ) : Prop :=
  ∀ y ∈ Set.Icc (lowest x) (highest x), ∀ y' ∈ Set.Icc (lowest x) (highest x), (∀ i, |y i - y' i| ≤ h i) →
    |p y * v y - p y' * v y'| ≤ ω

/-! ## Lemmas -/

namespace GridLikelihood

/-- What the likelihood gets from the grid. -/
theorem selection_of_call {vt : GridVT} {φ : Dict Fl} {r : ND} {q : ℝ} (h : vt.call φ = .ok r) (hs : r.shape = [])
    (hq : r.at_ [] = fin q) : ∃ r', vt.asSelection.call φ = .ok r' ∧ reports r' q 0 := by
  refine ⟨.bare false (fin q), ?_, .inr ⟨⟨_, rfl⟩, rfl⟩⟩
  unfold GridVT.asSelection
  simp only [h, ok_bind, hs, hq, if_true]
  rfl

theorem log_close {q c B : ℝ} (h : |q - c| ≤ B) (hB : B < c) : 0 < q ∧ |Real.log q - Real.log c| ≤ B / (c - B) := by
  have hb := abs_le.1 h
  have hB0 : 0 ≤ B := (abs_nonneg _).trans h
  have hq : 0 < q := by linarith
  have hc : 0 < c := by linarith
  refine ⟨hq, ?_⟩
  have key : ∀ a b : ℝ, 0 < a → 0 < b → |a - b| ≤ B → c - B ≤ b → Real.log a - Real.log b ≤ B / (c - B) := by
    intro a b ha hb' hab hcb
    rw [← Real.log_div ha.ne' hb'.ne']
    have h1 := Real.log_le_sub_one_of_pos (div_pos ha hb')
    have h2 : a / b - 1 = (a - b) / b := by field_simp
    have h3 : (a - b) / b ≤ B / (c - B) :=
      div_le_div₀ hB0 ((le_abs_self _).trans hab) (by linarith) hcb
    linarith
  rw [abs_le]
  constructor
  · have := key c q hc hq (by rw [abs_sub_comm]; exact h) (by linarith)
    linarith
  · exact key q c hq hc h (by linarith)

end GridLikelihood

open GridLikelihood

/-! ## Property -/

/-- **C145.** The log-likelihood with a selection function on a grid is the documented estimator, with an error that is
bounded by the resolution of the grid. Its variance contains no contribution of the selection function. -/
theorem C145_error {m : ℕ} {L : Likelihood} (hcls : L.cls = .hyper) {θ φ : Dict Fl}
    (hconv : L.conversion θ = .ok φ) {P : List (List ℝ)} {prior : Option (List (List ℝ))}
    (hN : P.length = L.nPosteriors) (hp : L.hyperPrior.prob L.data φ = .ok (matFin P))
    (hprior : L.samplingPrior = prior.map matFin)
    (hshape : ∀ Q ∈ prior, Q.map List.length = P.map List.length ∧ ∀ q ∈ Q, ∀ x ∈ q, x ≠ 0)
    (hgood : GoodWeights L.samplesPerPosterior (importance P prior))
    {vt : GridVT} (hsel : L.selection = vt.asSelection) {x : Fin m → List ℝ} {p v : (Fin m → ℝ) → ℝ}
    (hvt : OnGrid vt x p v φ) (hc : ContinuousOn (fun y => p y * v y) (Set.Icc (lowest x) (highest x)))
    {h : Fin m → ℝ} (hh : Spaced x h) (hh0 : ∀ i, 0 ≤ h i) {ω : ℝ} (hω : ChangesBy x p v h ω)
    (hsmall : gridError x ω < sensitiveVolume x p v) :
    ∃ l : ℝ, L.lnLikelihoodAndVariance θ = .ok (fin l, fin ((importance P prior).map relativeVariance).sum) ∧
      |l - lnLikelihood (importance P prior) (sensitiveVolume x p v)| ≤
        L.nPosteriors * (gridError x ω / (sensitiveVolume x p v - gridError x ω)) := by
  obtain ⟨names, data, rest, model, vts, dens, hinit, hlen, hg, hv, hvs, hvv, hd, hds, hdd⟩ := hvt
  obtain ⟨self, d, r, q, h1, h2, h3, h4, h5⟩ := C121_grid hlen hg hv hvs hvv hd hds hdd hc hh hh0 hω
  rw [hinit] at h1
  obtain ⟨rfl, -⟩ := Prod.mk.inj (Except.ok.inj h1)
  obtain ⟨r', hr, hrep⟩ := selection_of_call h2 h3 h4
  obtain ⟨hq, hlog⟩ := log_close h5 hsmall
  have hest := C44_estimator hcls hconv hN hp hprior hshape hgood (r := r') (by rw [hsel]; exact hr) hrep hq
  have hlen' : (importance P prior).length = L.nPosteriors := by
    cases prior with
    | none => exact hN
    | some Q =>
      have := (hshape Q rfl).1
      have h' := congrArg List.length this
      simp only [List.length_map] at h'
      simp [importance, h', hN]
  refine ⟨lnLikelihood (importance P prior) q, ?_, ?_⟩
  · rw [hest]
    simp [lnLikelihoodVariance]
  · unfold lnLikelihood
    rw [hlen']
    have e : ∀ a s t : ℝ, a - L.nPosteriors * s - (a - L.nPosteriors * t) = L.nPosteriors * (t - s) := fun a s t => by
      ring
    rw [e, abs_mul, abs_sub_comm, abs_of_nonneg (Nat.cast_nonneg _)]
    exact mul_le_mul_of_nonneg_left hlog (Nat.cast_nonneg _)

/-- **C145.** With selection functions on finer and finer grids and more and more posterior samples, the log-likelihood
tends to the exact one and its variance to 0. -/
theorem C145_limit {S Ω : Type} [MeasurableSpace S] [MeasurableSpace Ω] {P : Measure Ω} [IsProbabilityMeasure P]
    {ν : Measure S} {θ φ : Dict Fl} {m : ℕ} {a b : Fin m → ℝ} {f v : (Fin m → ℝ) → ℝ}
    (hc : ContinuousOn (fun y => f y * v y) (Set.Icc a b)) (hpos : 0 < ∫ y in Set.Icc a b, f y * v y)
    {x : ℕ → Fin m → List ℝ} (hlo : ∀ N, lowest (x N) = a) (hhi : ∀ N, highest (x N) = b) {h : ℕ → ℝ}
    (hh : ∀ N, Spaced (x N) fun _ => h N) (hlim : Tendsto h atTop (𝓝 0)) {vt : ℕ → GridVT}
    (hvt : ∀ N, OnGrid (vt N) (x N) f v φ)
    {n : ℕ} {p : S → ℝ} {prior like : Fin n → S → ℝ} {Z : Fin n → ℝ} {Y : Fin n → ℕ → Ω → S}
    (hY : ∀ i, EventSamples P ν p (prior i) (like i) (Z i) (Y i)) (hev : ∀ i, 0 < ∫ s, like i s * p s ∂ν)
    {L : ℕ → ℕ → Ω → Likelihood} (hL : ∀ K N ω, LikelihoodOf (L K N ω) φ p prior Y K ω)
    (hconv : ∀ K N ω, (L K N ω).conversion θ = .ok φ) (hsel : ∀ K N ω, (L K N ω).selection = (vt N).asSelection) :
    ∀ᵐ ω ∂P, ∃ l w : ℕ × ℕ → ℝ,
      (∀ᶠ KN in atTop ×ˢ atTop, (L KN.1 KN.2 ω).lnLikelihoodAndVariance θ = .ok (fin (l KN), fin (w KN))) ∧
      Tendsto l (atTop ×ˢ atTop) (𝓝 (∑ i, Real.log ((∫ s, like i s * p s ∂ν) / Z i) -
        n * Real.log (∫ y in Set.Icc a b, f y * v y))) ∧
      Tendsto w (atTop ×ˢ atTop) (𝓝 0) := by
  have hgrid : ∀ δ > 0, ∀ᶠ N in atTop, ∃ r q, (vt N).asSelection.call φ = .ok r ∧ reports r q 0 ∧
      |q - ∫ y in Set.Icc a b, f y * v y| ≤ δ := by
    intro δ hδ
    obtain ⟨η, hη, H⟩ := C121_limit hc hδ
    filter_upwards [hlim.eventually (gt_mem_nhds hη)] with N hN
    obtain ⟨names, data, rest, model, vts, dens, hinit, hlen, hg, hv, hvs, hvv, hd, hds, hdd⟩ := hvt N
    obtain ⟨self, d, r, q, h1, h2, h3, h4, h5⟩ := H (hlo N) (hhi N) (fun i j hj => (hh N i j hj).trans hN.le) hlen hg
      hv hvs hvv hd hds hdd
    rw [hinit] at h1
    obtain ⟨rfl, -⟩ := Prod.mk.inj (Except.ok.inj h1)
    obtain ⟨r', hr, hrep⟩ := selection_of_call h2 h3 h4
    exact ⟨r', q, hr, hrep, h5⟩
  have hex : ∀ N, ∃ q, (∃ r, (vt N).asSelection.call φ = .ok r ∧ reports r q 0) ∨
      ¬ ∃ q r, (vt N).asSelection.call φ = .ok r ∧ reports r q 0 := by
    intro N
    by_cases hq : ∃ q r, (vt N).asSelection.call φ = .ok r ∧ reports r q 0
    · exact ⟨hq.choose, .inl hq.choose_spec⟩
    · exact ⟨0, .inr hq⟩
  choose q hq using hex
  have huniq : ∀ {N r r' u u'}, (vt N).asSelection.call φ = .ok r → reports r u 0 →
      (vt N).asSelection.call φ = .ok r' → reports r' u' 0 → u = u' := by
    intro N r r' u u' h1 h2 h3 h4
    rw [h1] at h3
    obtain rfl := Except.ok.inj h3
    rcases h2 with ⟨py, rfl⟩ | ⟨⟨py, rfl⟩, -⟩ <;> rcases h4 with ⟨py', h⟩ | ⟨⟨py', h⟩, -⟩ <;> cases h <;> rfl
  refine likelihood_converges hpos (sel := fun N _ => (vt N).asSelection) (ae_of_all _ fun ω => ?_) hY hev hL hconv
    hsel
  refine ⟨q, fun _ => 0, ?_, ?_, tendsto_const_nhds⟩
  · filter_upwards [hgrid 1 one_pos] with N ⟨r, u, h1, h2, _⟩
    rcases hq N with h | h
    · exact h
    · exact absurd ⟨u, r, h1, h2⟩ h
  · rw [Metric.tendsto_atTop']
    intro ε hε
    obtain ⟨N, hN⟩ := (hgrid (ε / 2) (half_pos hε)).exists_forall_of_atTop
    refine ⟨N, fun k hk => ?_⟩
    obtain ⟨r, u, h1, h2, h3⟩ := hN k hk.le
    rcases hq k with ⟨r', h4, h5⟩ | h
    · rw [huniq h4 h5 h1 h2, Real.dist_eq]
      linarith
    · exact absurd ⟨u, r, h1, h2⟩ h

/-! ## Non-vacuity -/

namespace GridLikelihood

/-- Grids with any axes exist. -/
theorem exists_onGrid {n : ℕ} (hn : 0 < n) {names : Fin n → String} (hnames : ("vt" :: List.ofFn names).Nodup)
    {x : Fin n → List ℝ} (hx : ∀ i, (x i).Pairwise (· < ·)) (h0 : ∀ i, x i ≠ [])
    (hlen : ((List.ofFn x).map List.length).Nodup) (p : Dict Fl → (Fin n → ℝ) → ℝ) (v : (Fin n → ℝ) → ℝ) :
    ∃ vt, ∀ φ, OnGrid vt x (p φ) v φ := by
  let vts : ND := ⟨(List.ofFn x).map List.length, fun idx => fin (v (gridPoint x idx))⟩
  let model : PopModel (Dict ND) ND :=
    ⟨[], fun _ φ => .ok ⟨(List.ofFn x).map List.length, fun idx => fin (p φ (gridPoint x idx))⟩⟩
  have hmap : (List.ofFn fun i => (names i, x i)).map Prod.fst = List.ofFn names := by
    rw [List.map_ofFn]
    rfl
  have hg : ProductGrid (List.ofFn fun i => (names i, x i)) (gridData (List.ofFn fun i => (names i, x i)) vts) := by
    refine gridData_ok ?_ (by rw [hmap]; exact hnames) ?_ ?_
    · intro h
      have := congrArg List.length h
      simp at this
      omega
    · intro g hg
      obtain ⟨i, rfl⟩ := List.mem_ofFn.1 hg
      exact hx i
    · intro g hg
      obtain ⟨i, rfl⟩ := List.mem_ofFn.1 hg
      exact h0 i
  have hvt : (gridData (List.ofFn fun i => (names i, x i)) vts).get? "vt" = some vts := by
    simp [gridData, Dict.get?_cons]
  have hl : (List.ofFn fun i => (names i, x i)).map (·.2.length) = (List.ofFn x).map List.length := by
    rw [List.map_ofFn, List.map_ofFn]
    rfl
  obtain ⟨self, hself, -⟩ := grid_init hg (by rw [hl]; exact hlen) model hvt
  exact ⟨self, fun φ => ⟨names, _, _, model, vts, _, hself, hlen, hg, hvt, rfl, fun _ _ => rfl, rfl, rfl,
    fun _ _ => rfl⟩⟩

/-- `N + 2` equally spaced points from 0 to 1. -/
def unitGrid (N : ℕ) : Fin 1 → List ℝ := fun _ => (List.range (N + 2)).map fun j : ℕ => (j : ℝ) / (N + 1)

theorem unitGrid_lowest (N : ℕ) : lowest (unitGrid N) = fun _ => 0 := by
  funext i
  simp [lowest, unitGrid, List.getD_eq_getElem?_getD]

theorem unitGrid_highest (N : ℕ) : highest (unitGrid N) = fun _ => 1 := by
  funext i
  have : (N : ℝ) + 1 ≠ 0 := by positivity
  simp [highest, unitGrid, List.getD_eq_getElem?_getD, div_self this]

theorem unitGrid_spaced (N : ℕ) : Spaced (unitGrid N) fun _ => 1 / ((N : ℝ) + 1) := by
  intro i j hj
  simp only [unitGrid, List.length_map, List.length_range] at hj
  have h1 : j < N + 2 := by omega
  simp only [unitGrid, List.getD_eq_getElem?_getD, List.getElem?_map, List.getElem?_range hj, List.getElem?_range h1,
    Option.map_some, Option.getD_some]
  push_cast
  rw [← sub_div]
  simp

theorem unitGrid_vt (N : ℕ) (p : Dict Fl → (Fin 1 → ℝ) → ℝ) (v : (Fin 1 → ℝ) → ℝ) :
    ∃ vt, ∀ φ, OnGrid vt (unitGrid N) (p φ) v φ := by
  refine exists_onGrid one_pos (names := fun _ => "mass") (by simp) (fun i => ?_) (fun i h => ?_) (by simp) p v
  · unfold unitGrid
    rw [List.pairwise_map]
    refine List.pairwise_lt_range.imp fun h => ?_
    have : (0 : ℝ) < (N : ℝ) + 1 := by positivity
    gcongr
  · have := congrArg List.length h
    simp [unitGrid] at this

theorem unit_integral : ∫ y in Set.Icc (fun _ : Fin 1 => (0 : ℝ)) (fun _ => 1), 2 * y 0 * 1 = 1 := by
  have h := (integral_box (n := 0) (a := fun _ => 0) (b := fun _ => 1) (g := fun y => 2 * y 0 * 1)
    (by fun_prop)).2
  rw [h]
  have h0 : ∀ s : ℝ, ∫ _y in Set.Icc (Fin.tail fun _ : Fin 1 => (0 : ℝ)) (Fin.tail fun _ : Fin 1 => (1 : ℝ)), 2 * s = 2 * s := by
    intro s
    have : Set.Icc (Fin.tail fun _ : Fin 1 => (0 : ℝ)) (Fin.tail fun _ : Fin 1 => (1 : ℝ)) = Set.univ :=
      Set.eq_univ_of_forall fun y => ⟨fun i => i.elim0, fun i => i.elim0⟩
    rw [this, setIntegral_const]
    rw [measureReal_def, Measure.volume_pi_eq_dirac (fun i : Fin 0 => i.elim0)]
    simp
  have e : ∀ s : ℝ, ∫ y in Set.Icc (Fin.tail fun _ : Fin 1 => (0 : ℝ)) (Fin.tail fun _ : Fin 1 => (1 : ℝ)),
      2 * (Fin.cons s y : Fin 1 → ℝ) 0 * 1 = 2 * s := by
    intro s
    rw [← h0 s]
    simp
  rw [integral_congr_ae (ae_of_all _ e)]
  rw [integral_Icc_eq_integral_Ioc, ← intervalIntegral.integral_of_le zero_le_one, intervalIntegral.integral_const_mul, integral_id]
  norm_num

end GridLikelihood

/-- The hypotheses of `C145_error`: two events and a grid of 101 masses, with an error of the log-likelihood of at most 0.05. -/
example : ∃ L : Likelihood, ∃ l w : ℝ, L.lnLikelihoodAndVariance [] = .ok (fin l, fin w) ∧
    |l - lnLikelihood [[1, 3], [1, 1]] 1| ≤ 5 / 100 := by
  obtain ⟨vt, hvt⟩ := unitGrid_vt 99 (fun _ y => 2 * y 0) fun _ => 1
  have hlo := unitGrid_lowest 99
  have hhi := unitGrid_highest 99
  have hV : sensitiveVolume (unitGrid 99) (fun y => 2 * y 0) (fun _ => 1) = 1 := by
    unfold sensitiveVolume
    rw [hlo, hhi]
    exact unit_integral
  have hE : gridError (unitGrid 99) (2 / 100) = 2 / 100 := by
    simp [gridError, hlo, hhi]
  obtain ⟨l, h1, h2⟩ := C145_error (L := { toyLikelihood .hyper (.bare true (fin 1)) pinf with
      selection := vt.asSelection }) rfl (θ := []) (φ := []) rfl (P := [[1, 3], [2, 2]])
    (prior := some [[1, 1], [2, 2]]) rfl rfl rfl toyShape (by rw [toyWeights]; exact toyGood) rfl (hvt [])
    (by fun_prop) (unitGrid_spaced 99) (fun _ => by norm_num) (ω := 2 / 100) (fun y _ y' _ h => by
      have := h 0
      rw [show 2 * y 0 * 1 - 2 * y' 0 * 1 = 2 * (y 0 - y' 0) by ring, abs_mul, abs_of_pos two_pos]
      norm_num at this ⊢
      linarith) (by rw [hV, hE]; norm_num)
  rw [toyWeights, hV, hE] at h2
  refine ⟨_, l, _, h1, h2.trans ?_⟩
  norm_num [toyLikelihood]

/-- The hypotheses of `C145_limit`: one event with samples that are uniform between 0 and 1, and all grids with
equally spaced points from 0 to 1. -/
example : ∃ (Ω : Type) (_ : MeasurableSpace Ω) (P : Measure Ω) (_ : IsProbabilityMeasure P)
    (L : ℕ → ℕ → Ω → Likelihood) (vt : ℕ → GridVT), (∀ K N ω, (L K N ω).selection = (vt N).asSelection) ∧
    ∀ᵐ ω ∂P, ∃ l w : ℕ × ℕ → ℝ,
      (∀ᶠ KN in atTop ×ˢ atTop, (L KN.1 KN.2 ω).lnLikelihoodAndVariance [] = .ok (fin (l KN), fin (w KN))) ∧
      Tendsto l (atTop ×ˢ atTop) (𝓝 (Real.log (1 / 3))) ∧ Tendsto w (atTop ×ˢ atTop) (𝓝 0) := by
  choose vt hvt using fun N => unitGrid_vt N (fun _ y => 2 * y 0) fun _ => 1
  set ν : Measure Bool := Measure.count.withDensity fun _ => ENNReal.ofReal (1 / 2) with hν
  have hprob : IsProbabilityMeasure ν := by
    refine ⟨?_⟩
    rw [hν, withDensity_apply _ MeasurableSet.univ, Measure.restrict_univ, lintegral_const, Measure.count_univ,
      ENat.card_eq_coe_fintype_card, Fintype.card_bool]
    simp only [ENat.toENNReal_coe]
    rw [show ((2 : ℕ) : ENNReal) = ENNReal.ofReal 2 by simp, ← ENNReal.ofReal_mul (by norm_num)]
    norm_num
  obtain ⟨Ω, mΩ, P, Y, hm, hl, hi, hP⟩ := exists_iid ℕ ν
  let p : Bool → ℝ := fun s => if s then 1 / 3 else 1 / 3
  let L : ℕ → ℕ → Ω → Likelihood := fun K N ω =>
    { cls := .hyper, backend := .numpy, data := []
      hyperPrior := ⟨[], fun _ φ => .ok (matFin ((List.finRange 1).map fun _ => (firstN Y K ω).map p))⟩
      samplingPrior := some (matFin ((List.finRange 1).map fun _ => (firstN Y K ω).map fun _ => 1))
      totalNoiseEvidence := 0, conversion := fun θ => .ok θ, selection := (vt N).asSelection
      nPosteriors := 1, samplesPerPosterior := K, maximumUncertainty := pinf, maxVariance := pinf }
  refine ⟨Ω, mΩ, P, hP, L, vt, fun _ _ _ => rfl, ?_⟩
  have key := C145_limit (P := P) (ν := Measure.count) (θ := []) (φ := []) (a := fun _ : Fin 1 => 0)
    (b := fun _ => 1) (f := fun y => 2 * y 0) (v := fun _ => 1) (by fun_prop) (by rw [unit_integral]; exact one_pos)
    unitGrid_lowest unitGrid_highest unitGrid_spaced tendsto_one_div_add_atTop_nhds_zero_nat (fun N => hvt N [])
    (n := 1) (p := p) (prior := fun _ _ => 1) (like := fun _ _ => 1) (Z := fun _ => 2) (Y := fun _ => Y)
    (fun i => ⟨measurable_of_finite _, measurable_const, measurable_const, fun _ => one_pos, fun _ => zero_le_one,
      two_pos, hm, fun k => by rw [(hl k).map_eq, hν]; simp, fun i j hij => hi.indepFun hij, .of_finite, .of_finite⟩)
    (fun i => by rw [integral_count]; norm_num [p]) (L := L) (fun K N ω => ⟨rfl, rfl, rfl, rfl, rfl⟩)
    (fun _ _ _ => rfl) (fun _ _ _ => rfl)
  filter_upwards [key] with ω ⟨l, w, h1, h2, h3⟩
  refine ⟨l, w, h1, ?_, h3⟩
  rw [unit_integral] at h2
  convert h2 using 2
  rw [integral_count]
  norm_num [p]

end GW
