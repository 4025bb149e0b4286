import Verif.Props.SplineNodes
import Verif.Props.SmoothedNorm
import Verif.Props.PosteriorSamples

/-!
# Spline models: values (C35, C36)
-/

noncomputable section

open Classical

namespace GW

open Fl SplineModel

/-! ## Specification -/

/-- The interpolation rule returns a real number for real nodes, values and points: `S kind nodes
values point`. -/
def Spec.RealRule (rule : SplineRule) (S : String → List ℝ → List ℝ → ℝ → ℝ) : Prop :=
  ∀ kind nodes ys x, rule kind (nodes.map fin) (ys.map fin) (fin x) = fin (S kind nodes ys x)

/-- The coordinate in which the spline is interpolated: the logarithm for log-spaced nodes. -/
def Spec.coordinate (c : SplineConfig) (x : ℝ) : ℝ := if c.logNodes then Real.log x else x

/-- `v` lies between the outer nodes. -/
def Spec.Between (x : List ℝ) (v : ℝ) : Prop := x.headD 0 ≤ v ∧ v ≤ x.getLastD 0

/-- The exponentiated spline through the nodes `(x, f)` at `v`. -/
def Spec.expSpline (S : String → List ℝ → List ℝ → ℝ → ℝ) (c : SplineConfig) (x f : List ℝ)
    (v : ℝ) : ℝ :=
  Real.exp (S c.kind (x.map (Spec.coordinate c)) f (Spec.coordinate c v))

/-- The exponentiated spline cut off at the outer nodes. -/
def Spec.cutSpline (S : String → List ℝ → List ℝ → ℝ → ℝ) (c : SplineConfig) (x f : List ℝ)
    (v : ℝ) : ℝ :=
  if Spec.Between x v then Spec.expSpline S c x f v else 0

/-- Trapezoid integral of the cut spline over the grid. -/
def Spec.splineNorm (S : String → List ℝ → List ℝ → ℝ → ℝ) (c : SplineConfig) (grid x f : List ℝ) :
    ℝ :=
  Arr.trapzR (grid.map (Spec.cutSpline S c x f)) grid

/-- The one-dimensional density of a spline model. -/
def Spec.splineDensity (S : String → List ℝ → List ℝ → ℝ → ℝ) (c : SplineConfig)
    (grid x f : List ℝ) (v : ℝ) : ℝ :=
  Spec.cutSpline S c x f v / Spec.splineNorm S c grid x f

/-- For log-spaced nodes all positions must be positive. -/
def Spec.Positive (c : SplineConfig) (l : List ℝ) : Prop := c.logNodes = true → ∀ v ∈ l, 0 < v

open Spec

/-! ## Evaluation -/

theorem transform_fin {s : SplineModel} {l : List ℝ} (h : Positive s.config l) {v : ℝ} (hv : v ∈ l) :
    s.transform (fin v) = fin (coordinate s.config v) := by
  unfold transform coordinate
  by_cases hl : s.config.logNodes = true
  · rw [if_pos hl, if_pos hl, log_fin (h hl v hv)]
  · rw [if_neg hl, if_neg hl]

theorem map_transform {s : SplineModel} {l : List ℝ} (h : Positive s.config l) :
    (l.map fin).map s.transform = (l.map (coordinate s.config)).map fin := by
  rw [List.map_map, List.map_map]
  exact List.map_congr_left fun v hv => transform_fin h hv

theorem inplaceMul_same (b : Backend) {xs ys : List Fl} (h : xs.length = ys.length) :
    inplaceMul b xs ys = .ok (List.zipWith (· * ·) xs ys) := by
  unfold inplaceMul
  rw [broadcast_same b _ h]
  show (if b ≠ .jax ∧ _ then _ else _) = _
  rw [if_neg]
  rintro ⟨-, h'⟩
  exact h' (by simp [h])

theorem mask_fin {x : List ℝ} (hx : x ≠ []) (vs : List ℝ) :
    mask (vs.map fin) (x.map fin) = .ok (vs.map fun v => ind (Between x v)) := by
  obtain ⟨a, l, rfl⟩ := List.exists_cons_of_ne_nil hx
  unfold mask
  have h1 : ((a :: l).map fin).head? = some (fin a) := rfl
  have h2 : ((a :: l).map fin).getLast? = some (fin ((a :: l).getLastD 0)) := by
    rw [List.getLast?_map, List.getLast?_eq_some_getLast (by simp), Option.map_some,
      List.getLastD_eq_getLast?, List.getLast?_eq_some_getLast (by simp)]
    rfl
  rw [h1, h2]
  simp only [List.map_map]
  rfl

/-- The instance holds interpolants that were set up with nodes `x₀` and the data `rows₀`. -/
structure Spec.Frozen (s : SplineModel) (x₀ : List ℝ) (rows₀ : List (String → ℝ)) : Prop where
  norm : s.normSpline = some ⟨s.config.kind, (x₀.map (coordinate s.config)).map fin,
    (s.xs.map (coordinate s.config)).map fin⟩
  data : ∀ p ∈ s.config.parameters, s.dataSpline.get? p = some ⟨s.config.kind,
    (x₀.map (coordinate s.config)).map fin,
    rows₀.map fun r => fin (coordinate s.config (r p))⟩

/-- The dataset has the values of `rows` for every parameter. -/
def Spec.HasRows (dataset : Dict (List Fl)) (params : List String) (rows : List (String → ℝ)) : Prop :=
  ∀ p ∈ params, dataset.get? p = some (rows.map fun r => fin (r p))

theorem zipWith_mul_ind {α : Type} (l : List α) (g : α → ℝ) (P : α → Prop) :
    List.zipWith (· * ·) (l.map fun a => fin (g a)) (l.map fun a => ind (P a)) =
      l.map fun a => fin (if P a then g a else 0) := by
  rw [zipWith_map_same]
  exact List.map_congr_left fun a _ => fin_mul_ind _ _

/-- Pairs of a frozen sample and the sample of the current call. -/
abbrev SamplePair := (String → ℝ) × (String → ℝ)

/-- The factor the code computes for one parameter: the spline at the frozen sample, cut off
according to the current sample. -/
def Spec.frozenFactor (S : String → List ℝ → List ℝ → ℝ → ℝ) (c : SplineConfig) (x₀ x f : List ℝ)
    (v₀ v : ℝ) : ℝ :=
  if Between x v then expSpline S c x₀ f v₀ else 0

/-- The norm the code computes: the spline through the frozen positions, cut off at the current
outer nodes. -/
def Spec.frozenNorm (S : String → List ℝ → List ℝ → ℝ → ℝ) (c : SplineConfig)
    (grid x₀ x f : List ℝ) : ℝ :=
  Arr.trapzR (grid.map fun v => frozenFactor S c x₀ x f v v) grid

theorem evalUnnormed_frozen {b : Backend} {rule : SplineRule} {S : String → List ℝ → List ℝ → ℝ → ℝ}
    (hrule : RealRule rule S) {s : SplineModel} {x₀ : List ℝ} {pairs : List SamplePair}
    (hs : Frozen s x₀ (pairs.map Prod.fst)) {dataset : Dict (List Fl)} {x f : List ℝ} (hx : x ≠ [])
    (hd : HasRows dataset s.config.parameters (pairs.map Prod.snd)) {p : String}
    (hp : p ∈ s.config.parameters) :
    evalUnnormed b rule s dataset p (x.map fin) (f.map fin) =
      .ok (pairs.map fun q => fin (frozenFactor S s.config x₀ x f (q.1 p) (q.2 p))) := by
  unfold evalUnnormed
  have h1 : s.dataSpline.get p = .ok ⟨s.config.kind, (x₀.map (coordinate s.config)).map fin,
      (pairs.map Prod.fst).map fun r => fin (coordinate s.config (r p))⟩ := by
    unfold Dict.get; rw [hs.data p hp]
  have h2 : dataset.get p = .ok ((pairs.map fun q => q.2 p).map fin) := by
    unfold Dict.get; rw [hd p hp, List.map_map, List.map_map]; rfl
  rw [h1, ok_bind, h2, ok_bind, mask_fin hx, ok_bind, inplaceMul_same b (by simp [Interpolant.eval])]
  congr 1
  have h3 : ((Interpolant.mk s.config.kind ((x₀.map (coordinate s.config)).map fin)
      ((pairs.map Prod.fst).map fun r => fin (coordinate s.config (r p)))).eval rule
      (f.map fin)).map Fl.exp =
      pairs.map fun q => fin (expSpline S s.config x₀ f (q.1 p)) := by
    unfold Interpolant.eval
    simp only [List.map_map]
    refine List.map_congr_left fun q _ => ?_
    simp only [Function.comp]
    rw [show (fin ∘ coordinate s.config) = fun v => fin (coordinate s.config v) from rfl]
    have := hrule s.config.kind (x₀.map (coordinate s.config)) f (coordinate s.config (q.1 p))
    rw [List.map_map] at this
    rw [show (fun v => fin (coordinate s.config v)) = fin ∘ coordinate s.config from rfl, this]
    rfl
  rw [h3, List.map_map]
  exact zipWith_mul_ind pairs _ _

theorem normPX_frozen {b : Backend} {rule : SplineRule} {S : String → List ℝ → List ℝ → ℝ → ℝ}
    (hrule : RealRule rule S) {s : SplineModel} {x₀ : List ℝ} {rows₀ : List (String → ℝ)}
    (hs : Frozen s x₀ rows₀) {x f : List ℝ} (hx : x ≠ []) :
    normPX b rule s (f.map fin) (x.map fin) = .ok (fin (frozenNorm S s.config s.xs x₀ x f)) := by
  unfold normPX
  rw [hs.norm]
  simp only
  rw [mask_fin hx, ok_bind, inplaceMul_same b (by simp [Interpolant.eval]), ok_bind, pure_eq_ok]
  congr 1
  have h3 : ((Interpolant.mk s.config.kind ((x₀.map (coordinate s.config)).map fin)
      ((s.xs.map (coordinate s.config)).map fin)).eval rule (f.map fin)).map Fl.exp =
      s.xs.map fun v => fin (expSpline S s.config x₀ f v) := by
    unfold Interpolant.eval
    simp only [List.map_map]
    refine List.map_congr_left fun v _ => ?_
    have := hrule s.config.kind (x₀.map (coordinate s.config)) f (coordinate s.config v)
    rw [List.map_map] at this
    simp only [Function.comp]
    rw [this]
    rfl
  rw [h3, zipWith_mul_ind]
  unfold frozenNorm
  rw [← Arr.trapz_fin, List.map_map]
  rfl

theorem parameterLoop_frozen {b : Backend} {rule : SplineRule}
    {S : String → List ℝ → List ℝ → ℝ → ℝ} (hrule : RealRule rule S) {s : SplineModel}
    {x₀ : List ℝ} {pairs : List SamplePair} (hs : Frozen s x₀ (pairs.map Prod.fst))
    {dataset : Dict (List Fl)} {x f : List ℝ} (hx : x ≠ [])
    (hd : HasRows dataset s.config.parameters (pairs.map Prod.snd)) (params : List String)
    (hp : ∀ p ∈ params, p ∈ s.config.parameters) (g : SamplePair → ℝ) :
    parameterLoop b rule dataset (x.map fin) (f.map fin) params (pairs.map fun q => fin (g q)) s =
      (.ok (pairs.map fun q => fin (g q *
        (params.map fun p => frozenFactor S s.config x₀ x f (q.1 p) (q.2 p)).prod)), s) := by
  induction params generalizing g with
  | nil => simp [parameterLoop]
  | cons p params ih =>
    have h1 : pXUnnormed b rule s dataset p (x.map fin) (f.map fin) =
        (.ok (pairs.map fun q => fin (frozenFactor S s.config x₀ x f (q.1 p) (q.2 p))), s) := by
      unfold pXUnnormed
      rw [hs.norm]
      simp only
      rw [evalUnnormed_frozen hrule hs hx hd (hp p (by simp))]
    unfold parameterLoop
    rw [h1]
    simp only
    rw [inplaceMul_same b (by simp), zipWith_map_same]
    simp only [fin_mul]
    rw [ih (fun p hp' => hp p (by simp [hp']))]
    simp only [List.map_cons, List.prod_cons, mul_assoc]

theorem prod_div_pow (l : List String) (g : String → ℝ) (Z : ℝ) :
    (l.map g).prod / Z ^ l.length = (l.map fun p => g p / Z).prod := by
  induction l with
  | nil => simp
  | cons p l ih =>
    simp only [List.map_cons, List.prod_cons, List.length_cons]
    rw [← ih, pow_succ', mul_div_mul_comm]

/-- What a call computes once the interpolants exist: the splines through the frozen node positions at
the frozen samples, cut off according to the current samples and outer nodes. -/
theorem C35_frozen_partial {b : Backend} {rule : SplineRule}
    {S : String → List ℝ → List ℝ → ℝ → ℝ} (hrule : RealRule rule S) {s : SplineModel}
    {x₀ : List ℝ} {pairs : List SamplePair} (hs : Frozen s x₀ (pairs.map Prod.fst))
    (hparams : s.config.parameters ≠ []) {dataset : Dict (List Fl)} {kwargs : Dict Fl}
    (hnew : ¬ kwargs.contains (nodeName s.base s.config.nodes)) {x f : List ℝ} (hx : x ≠ [])
    (hkw : s.extractSplinePoints kwargs = .ok (f.map fin, x.map fin))
    (hd : HasRows dataset s.config.parameters (pairs.map Prod.snd))
    (hZ : frozenNorm S s.config s.xs x₀ x f ≠ 0) :
    call b rule s dataset kwargs =
      (.ok (pairs.map fun q => fin (s.config.parameters.map fun p =>
        frozenFactor S s.config x₀ x f (q.1 p) (q.2 p) / frozenNorm S s.config s.xs x₀ x f).prod),
       s) := by
  obtain ⟨p, ps, hpp⟩ := List.exists_cons_of_ne_nil hparams
  unfold call
  rw [C34_no_new_partial hnew]
  simp only [hkw]
  have h0 : dataset.get (s.config.parameters.headD "") =
      .ok ((pairs.map Prod.snd).map fun r => fin (r p)) := by
    unfold Dict.get
    rw [hpp, List.headD_cons, hd p (by rw [hpp]; simp)]
  rw [h0]
  simp only
  have h1 : ((pairs.map Prod.snd).map fun r => fin (r p)).map (fun _ => (1 : Fl)) =
      pairs.map fun q => fin ((fun _ => (1 : ℝ)) q) := by
    rw [List.map_map, List.map_map]; rfl
  rw [h1, parameterLoop_frozen hrule hs hx hd _ (fun _ h => h)]
  simp only
  rw [normPX_frozen hrule hs hx]
  simp only [List.map_map]
  congr 2
  refine List.map_congr_left fun q _ => ?_
  simp only [Function.comp, one_mul, fin_npow]
  rw [fin_div (pow_ne_zero _ hZ), prod_div_pow]

/-! ## The first call -/

theorem mapM_get_pairs {dataset : Dict (List Fl)} {rows : List (String → ℝ)} (params : List String)
    (hd : HasRows dataset params rows) (g : List Fl → Interpolant) :
    params.mapM (fun param => do
      let v ← dataset.get param
      return (param, g v)) = Except.ok (ε := PyErr)
        (params.map fun p => (p, g (rows.map fun r => fin (r p)))) := by
  refine mapM_ok fun p hp => ?_
  have : dataset.get p = .ok (rows.map fun r => fin (r p)) := by
    unfold Dict.get; rw [hd p hp]
  rw [this]
  rfl

theorem get?_foldl_set {α : Type} (params : List String) (g : String → α) (acc : Dict α)
    (k : String) :
    ((params.map fun p => (p, g p)).foldl (fun acc p => acc.set p.1 p.2) acc).get? k =
      if k ∈ params then some (g k) else acc.get? k := by
  induction params generalizing acc with
  | nil => simp
  | cons p params ih =>
    rw [List.map_cons, List.foldl_cons, ih, Dict.get?_set]
    by_cases h1 : k ∈ params
    · simp [h1]
    · by_cases h2 : k = p
      · subst h2; simp [h1]
      · simp [h1, h2]

/-- The state after a successful set-up. -/
theorem setup_frozen {s : SplineModel} {x : List ℝ} {dataset : Dict (List Fl)}
    {rows : List (String → ℝ)} (hd : HasRows dataset s.config.parameters rows)
    (hx : Positive s.config x) (hgrid : Positive s.config s.xs)
    (hrows : ∀ r ∈ rows, Positive s.config (s.config.parameters.map r)) :
    ∃ s', s.setupInterpolant (x.map fin) dataset = (.ok (), s') ∧ Frozen s' x rows ∧
      s'.config = s.config ∧ s'.base = s.base ∧ s'.xs = s.xs ∧ s'.cls = s.cls := by
  unfold setupInterpolant
  simp only
  rw [mapM_get_pairs _ hd fun v => ⟨s.config.kind, (x.map fin).map s.transform, v.map s.transform⟩]
  refine ⟨_, rfl, ⟨?_, ?_⟩, rfl, rfl, rfl, rfl⟩
  · simp only
    rw [map_transform hx, map_transform hgrid]
  · intro p hp
    simp only
    rw [get?_foldl_set _ (fun p => (⟨s.config.kind, (x.map fin).map s.transform,
      (rows.map fun r => fin (r p)).map s.transform⟩ : Interpolant)), if_pos hp, map_transform hx]
    congr 2
    rw [List.map_map]
    refine List.map_congr_left fun r hr => ?_
    exact transform_fin (hrows r hr) (List.mem_map_of_mem hp)

/-- Without interpolants, the loop over the parameters starts by setting them up. -/
theorem parameterLoop_setup {b : Backend} {rule : SplineRule} {s s' : SplineModel}
    (hs : s.normSpline = none) {dataset : Dict (List Fl)} {x : List Fl}
    (hsetup : s.setupInterpolant x dataset = (.ok (), s')) (f : List Fl)
    {params : List String} (hp : params ≠ []) (px : List Fl) :
    parameterLoop b rule dataset x f params px s = parameterLoop b rule dataset x f params px s' := by
  obtain ⟨p, ps, rfl⟩ := List.exists_cons_of_ne_nil hp
  have hn : ∃ i, s'.normSpline = some i := by
    unfold setupInterpolant at hsetup
    simp only at hsetup
    split at hsetup
    · simp at hsetup
    · simp only [Prod.mk.injEq, true_and] at hsetup
      rw [← hsetup]
      exact ⟨_, rfl⟩
  obtain ⟨i, hi⟩ := hn
  have : pXUnnormed b rule s dataset p x f = pXUnnormed b rule s' dataset p x f := by
    unfold pXUnnormed
    rw [hs, hi, hsetup]
  unfold parameterLoop
  rw [this]

/-- A call on an instance without interpolants gives the same as a call on the instance with
interpolants for these data and nodes. -/
theorem call_setup {b : Backend} {rule : SplineRule} {s s' : SplineModel} {dataset : Dict (List Fl)}
    {kwargs : Dict Fl} {x f : List Fl} (hs : s.normSpline = none)
    (hparams : s.config.parameters ≠ [])
    (hnew : ¬ kwargs.contains (nodeName s.base s.config.nodes))
    (hkw : s.extractSplinePoints kwargs = .ok (f, x))
    (hsetup : s.setupInterpolant x dataset = (.ok (), s')) (hc : s'.config = s.config)
    (hb : s'.base = s.base) :
    call b rule s dataset kwargs = call b rule s' dataset kwargs ∨
    ∃ e, dataset.get (s.config.parameters.headD "") = .error e := by
  have hkw' : s'.extractSplinePoints kwargs = .ok (f, x) := by
    rw [← hkw]
    unfold extractSplinePoints regularise fkeys xkeys
    rw [hc, hb]
  cases hg : dataset.get (s.config.parameters.headD "") with
  | error e => exact .inr ⟨e, rfl⟩
  | ok values =>
    left
    unfold call
    rw [C34_no_new_partial hnew, C34_no_new_partial (s := s') (by rw [hc, hb]; exact hnew)]
    simp only [hkw, hkw']
    rw [hc, hg]
    simp only
    rw [parameterLoop_setup hs hsetup f hparams]

/-- The hypotheses under which a spline model is evaluated for the first time. -/
structure Spec.FirstCall (s : SplineModel) (dataset : Dict (List Fl)) (kwargs : Dict Fl)
    (rows : List (String → ℝ)) (x f : List ℝ) : Prop where
  /-- no interpolants yet -/
  fresh : s.normSpline = none
  /-- there are parameters -/
  params : s.config.parameters ≠ []
  /-- the node values have no further entries -/
  noNew : ¬ kwargs.contains (nodeName s.base s.config.nodes)
  /-- the node values (after regularisation) and positions -/
  points : s.extractSplinePoints kwargs = .ok (f.map fin, x.map fin)
  /-- at least one node -/
  nodes : x ≠ []
  /-- the data -/
  data : HasRows dataset s.config.parameters rows
  /-- positive positions for log-spaced nodes -/
  positive : Positive s.config x ∧ Positive s.config s.xs ∧
    ∀ r ∈ rows, Positive s.config (s.config.parameters.map r)

/-- On the first call, the value at a sample is the product over the parameters of the normalised
density. -/
theorem C36_value {b : Backend} {rule : SplineRule} {S : String → List ℝ → List ℝ → ℝ → ℝ}
    (hrule : RealRule rule S) {s : SplineModel} {dataset : Dict (List Fl)} {kwargs : Dict Fl}
    {rows : List (String → ℝ)} {x f : List ℝ} (h : FirstCall s dataset kwargs rows x f)
    (hZ : splineNorm S s.config s.xs x f ≠ 0) :
    (call b rule s dataset kwargs).1 =
      .ok (rows.map fun r => fin (s.config.parameters.map fun p =>
        splineDensity S s.config s.xs x f (r p)).prod) := by
  obtain ⟨s', h1, h2, h3, h4, h5, -⟩ := setup_frozen h.data h.positive.1 h.positive.2.1 h.positive.2.2
  have hcall := call_setup (b := b) (rule := rule) h.fresh h.params h.noNew h.points h1 h3 h4
  have hget : ¬ ∃ e, dataset.get (s.config.parameters.headD "") = .error e := by
    rintro ⟨e, he⟩
    obtain ⟨p, ps, hpp⟩ := List.exists_cons_of_ne_nil h.params
    unfold Dict.get at he
    rw [hpp, List.headD_cons, h.data p (by rw [hpp]; simp)] at he
    cases he
  rw [hcall.resolve_right hget]
  have hpairs : (rows.map fun r => (r, r)).map Prod.fst = rows := by
    rw [List.map_map]; exact List.map_id rows
  have hpairs' : (rows.map fun r => (r, r)).map Prod.snd = rows := by
    rw [List.map_map]; exact List.map_id rows
  have hkw' : s'.extractSplinePoints kwargs = .ok (f.map fin, x.map fin) := by
    rw [← h.points]
    unfold extractSplinePoints regularise fkeys xkeys
    rw [h3, h4]
  rw [C35_frozen_partial hrule (s := s') (x₀ := x) (pairs := rows.map fun r => (r, r))
    (by rw [hpairs]; exact h2) (by rw [h3]; exact h.params) (by rw [h3, h4]; exact h.noNew) h.nodes
    hkw' (by rw [hpairs', h3]; exact h.data) (by rw [h3, h5]; exact hZ)]
  simp only [List.map_map]
  rw [h3, h5]
  rfl

/-- The one-dimensional density sums to one over the model's grid. -/
theorem C36_normalised (S : String → List ℝ → List ℝ → ℝ → ℝ) (c : SplineConfig) (grid x f : List ℝ)
    (hZ : splineNorm S c grid x f ≠ 0) :
    Arr.trapzR (grid.map (splineDensity S c grid x f)) grid = 1 := by
  have : grid.map (splineDensity S c grid x f) =
      (grid.map (cutSpline S c x f)).map (· / splineNorm S c grid x f) := by
    rw [List.map_map]; rfl
  rw [this, Arr.trapzR_map_div]
  exact div_self hZ

/-- It is zero outside the outer nodes, and nowhere negative on an increasing grid. -/
theorem C36_support (S : String → List ℝ → List ℝ → ℝ → ℝ) (c : SplineConfig) (grid x f : List ℝ)
    (v : ℝ) :
    (¬ Between x v → splineDensity S c grid x f v = 0) ∧
    (grid.IsChain (· ≤ ·) → 0 ≤ splineDensity S c grid x f v) := by
  have hnn : ∀ v, 0 ≤ cutSpline S c x f v := by
    intro v
    unfold cutSpline
    split_ifs
    · exact (Real.exp_pos _).le
    · exact le_refl _
  constructor
  · intro h
    unfold splineDensity cutSpline
    rw [if_neg h, zero_div]
  · intro hg
    refine div_nonneg (hnn v) (Arr.trapzR_nonneg ?_ hg)
    intro y hy
    obtain ⟨w, -, rfl⟩ := List.mem_map.1 hy
    exact hnn w

/-- If the grid is increasing, has at least two points and all lie between the outer nodes, the norm
is positive. -/
theorem splineNorm_pos (S : String → List ℝ → List ℝ → ℝ → ℝ) (c : SplineConfig) {grid x : List ℝ}
    (f : List ℝ) (hg : grid.IsChain (· < ·)) (h2 : 2 ≤ grid.length)
    (hb : ∀ v ∈ grid, Between x v) : 0 < splineNorm S c grid x f := by
  refine Arr.trapzR_pos (by simp) h2 ?_ hg
  intro y hy
  obtain ⟨w, hw, rfl⟩ := List.mem_map.1 hy
  unfold cutSpline
  rw [if_pos (hb w hw)]
  exact Real.exp_pos _

/-- Root mean square. -/
def Spec.rms (l : List ℝ) : ℝ := Real.sqrt (mean (l.map (· ^ 2)))

/-- With regularisation, the node values used are the given ones times a positive constant, and their
root mean square is the requested one. -/
theorem C36_regularised {s : SplineModel} (hreg : s.config.regularize = true) {kwargs : Dict Fl}
    {f : List ℝ} {ρ : ℝ} (hf : s.fkeys.mapM kwargs.get = .ok (f.map fin))
    (hρ : kwargs.get? ("rms" ++ s.base) = some (fin ρ)) (hρ0 : 0 < ρ) (hnz : ∃ y ∈ f, y ≠ 0)
    {x : List Fl} (hx : s.xkeys.mapM kwargs.get = .ok x) :
    ∃ c > 0, s.extractSplinePoints kwargs = .ok ((f.map (c * ·)).map fin, x) ∧
      rms (f.map (c * ·)) = ρ := by
  have hlen : 0 < (f.length : ℝ) := by
    obtain ⟨y, hy, -⟩ := hnz
    exact Nat.cast_pos.2 (List.length_pos_of_mem hy)
  have hsum : 0 < (f.map (· ^ 2)).sum := by
    obtain ⟨y, hy, hy0⟩ := hnz
    have h1 : ∀ z ∈ f.map (· ^ 2), (0 : ℝ) ≤ z := by
      intro z hz
      obtain ⟨w, -, rfl⟩ := List.mem_map.1 hz
      exact sq_nonneg w
    have h2 : y ^ 2 ≤ (f.map (· ^ 2)).sum :=
      List.single_le_sum h1 _ (List.mem_map.2 ⟨y, hy, rfl⟩)
    exact lt_of_lt_of_le (by positivity) h2
  have hmean : 0 < mean (f.map (· ^ 2)) := by
    unfold mean
    rw [List.length_map]
    exact div_pos hsum hlen
  have hrms : 0 < rms f := Real.sqrt_pos.2 hmean
  refine ⟨ρ / rms f, div_pos hρ0 hrms, ?_, ?_⟩
  · unfold extractSplinePoints regularise
    have hget : kwargs.get (rmsKey s.base) = .ok (fin ρ) := by
      unfold Dict.get rmsKey; rw [hρ]
    have hfac : rmsFactor (fin ρ) (f.map fin) = fin (ρ / rms f) := by
      unfold rmsFactor Arr.mean
      have : (f.map fin).map (· ^ 2) = (f.map (· ^ 2)).map fin := by
        rw [List.map_map, List.map_map]
        refine List.map_congr_left fun y _ => ?_
        simp
      rw [this, sum_fin, List.length_map, List.length_map, natCast_eq, fin_div hlen.ne']
      have hm : (f.map (· ^ 2)).sum / (f.length : ℝ) = mean (f.map (· ^ 2)) := by
        unfold mean; rw [List.length_map]
      rw [hm, pow_fin_pos hmean]
      have hs : mean (f.map (· ^ 2)) ^ (0.5 : ℝ) = rms f := by
        unfold rms
        rw [Real.sqrt_eq_rpow]
        norm_num
      rw [hs, fin_div hrms.ne']
    simp only [hf, ok_bind, if_pos hreg, hget, hfac, pure_eq_ok, hx]
    congr 2
    rw [List.map_map, List.map_map]
    refine List.map_congr_left fun y _ => ?_
    simp [mul_comm]
  · have h1 : (f.map (ρ / rms f * ·)).map (· ^ 2) = (f.map (· ^ 2)).map ((ρ / rms f) ^ 2 * ·) := by
      rw [List.map_map, List.map_map]
      refine List.map_congr_left fun y _ => ?_
      simp only [Function.comp]
      ring
    have h2 : mean ((f.map (· ^ 2)).map ((ρ / rms f) ^ 2 * ·)) =
        (ρ / rms f) ^ 2 * mean (f.map (· ^ 2)) := by
      unfold mean
      rw [List.sum_map_mul_left, List.length_map]
      simp only [List.map_id', List.length_map]
      ring
    have h3 : mean (f.map (· ^ 2)) = rms f ^ 2 := (Real.sq_sqrt hmean.le).symm
    show Real.sqrt (mean ((f.map (ρ / rms f * ·)).map (· ^ 2))) = ρ
    rw [h1, h2, h3, ← mul_pow, div_mul_cancel₀ _ hrms.ne', Real.sqrt_sq hρ0.le]

/-- Without regularisation the node values are used as they are. -/
theorem C36_unregularised {s : SplineModel} (hreg : s.config.regularize = false) {kwargs : Dict Fl}
    {f x : List Fl} (hf : s.fkeys.mapM kwargs.get = .ok f) (hx : s.xkeys.mapM kwargs.get = .ok x) :
    s.extractSplinePoints kwargs = .ok (f, x) := by
  unfold extractSplinePoints regularise
  simp only [hf, ok_bind, hreg, Bool.false_eq_true, if_false, pure_eq_ok, hx]

end GW
