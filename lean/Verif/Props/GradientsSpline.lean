import Verif.Model.AutodiffSpline
import Verif.Props.GradientsLikelihood
import Verif.Props.SplineHistory

/-!
# C92: gradients of the spline models
-/

noncomputable section

open Classical Set Filter Topology

namespace GW

open Fl Ex Spec SplineModel

/-- The interpolation rule multiplies the node values by weights: `w kind nodes number point`. -/
def Spec.LinearRule (S : String → List ℝ → List ℝ → ℝ → ℝ) (w : String → List ℝ → ℕ → ℝ → List ℝ) : Prop :=
  ∀ kind nodes ys v, S kind nodes ys v = (List.zipWith (· * ·) (w kind nodes ys.length v) ys).sum

/-- A spline model on jax as a function of its hyper-parameters, which are passed as the keyword arguments `kw`: the
density of the `i`-th sample. -/
def splineOf (rule : SplineRule) (s : SplineModel) (dataset : Dict (List Fl)) (kw : (String → ℝ) → Dict Fl)
    (i : ℕ) (θ : String → ℝ) : Except PyErr Fl :=
  resultAt i (SplineModel.call .jax rule s dataset (kw θ)).1

/-- The recorded computation for the sample `r`. -/
def splineRec (w : String → List ℝ → ℕ → ℝ → List ℝ) (s : SplineModel) (x : List ℝ) (r : String → ℝ) : Ex :=
  splineModelEx s (fun v => w s.config.kind (x.map (coordinate s.config)) s.config.nodes (coordinate s.config v))
    (Between x) (s.config.parameters.map r)

/-- The keyword arguments `kw` pass the hyper-parameters on as node values (and as the root mean square, if the model
is regularised), with the node positions `x`. -/
structure Spec.PassesNodes (s : SplineModel) (x : List ℝ) (kw : (String → ℝ) → Dict Fl) : Prop where
  values : ∀ θ, s.fkeys.mapM (kw θ).get = .ok (s.fkeys.map fun k => fin (θ k))
  positions : ∀ θ, s.xkeys.mapM (kw θ).get = .ok (x.map fin)
  rms : s.config.regularize = true → ∀ θ, (kw θ).get? ("rms" ++ s.base) = some (fin (θ ("rms" ++ s.base)))
  noNew : ∀ θ, ¬ (kw θ).contains (nodeName s.base s.config.nodes)

/-- The node values that are used. -/
def usedNodes (s : SplineModel) (θ : String → ℝ) : List ℝ :=
  if s.config.regularize then
    (s.fkeys.map θ).map (· * (θ ("rms" ++ s.base) / rms (s.fkeys.map θ)))
  else s.fkeys.map θ

theorem gradientRight_near {F : (String → ℝ) → Except PyErr Fl} {e : Ex} {θ : String → ℝ} {v : String}
    (ht : ∀ᶠ t in 𝓝 (θ v), F (Function.update θ v t) = .ok (eval (envOf (Function.update θ v t)) e))
    (h : Smooth θ v e) : GradientRight F e θ v := by
  obtain ⟨f, d, h1, h2, h3⟩ := exact_of_smooth h
  refine ⟨f, d, ?_, h2, ?_⟩
  · filter_upwards [h1, ht] with t e1 e2
    rw [e2, ← e1]
    rfl
  · have := h3 1
    rwa [one_mul] at this

/-- The values of `nodeValuesEx` and their differentiability. -/
theorem mean_sq_pos {l : List ℝ} (h : ∃ y ∈ l, y ≠ 0) : 0 < mean (l.map (· ^ 2)) := by
  obtain ⟨y, hy, hy0⟩ := h
  have h1 : ∀ z ∈ l.map (· ^ 2), (0 : ℝ) ≤ z := by
    intro z hz
    obtain ⟨w, -, rfl⟩ := List.mem_map.1 hz
    exact sq_nonneg w
  have h2 : y ^ 2 ≤ (l.map (· ^ 2)).sum := List.single_le_sum h1 _ (List.mem_map.2 ⟨y, hy, rfl⟩)
  unfold mean
  rw [List.length_map]
  exact div_pos (lt_of_lt_of_le (by positivity) h2) (Nat.cast_pos.2 (List.length_pos_of_mem hy))

theorem eval_meanSq (θ : String → ℝ) (keys : List String) (h : keys ≠ []) :
    eval (envOf θ) (sumEx ((keys.map arg).map (un .square)) / const (fin (keys.map arg).length)) =
      fin (mean ((keys.map θ).map (· ^ 2))) := by
  have hl : (keys.length : ℝ) ≠ 0 := by
    rw [Nat.cast_ne_zero]
    simpa using h
  rw [eval_div, eval_sumEx, List.map_map, List.map_map]
  have : keys.map ((eval (envOf θ) ∘ un UnOp.square) ∘ arg) = ((keys.map θ).map (· ^ 2)).map fin := by
    rw [List.map_map, List.map_map]
    refine List.map_congr_left fun k _ => ?_
    simp only [Function.comp_apply, eval_un, UnOp.val, eval_arg, envOf, fin_npow]
  rw [this, sum_fin, eval_const, List.length_map, fin_div hl]
  unfold mean
  simp

theorem eval_nodes {s : SplineModel} {θ : String → ℝ}
    (hnz : s.config.regularize = true → ∃ k ∈ s.fkeys, θ k ≠ 0) :
    (nodeValuesEx s).map (eval (envOf θ)) = (usedNodes s θ).map fin := by
  unfold nodeValuesEx usedNodes
  by_cases hr : s.config.regularize = true
  · obtain ⟨k, hk, hk0⟩ := hnz hr
    have hpos : 0 < mean ((s.fkeys.map θ).map (· ^ 2)) :=
      mean_sq_pos ⟨θ k, List.mem_map.2 ⟨k, hk, rfl⟩, hk0⟩
    have hrms : Spec.rms (s.fkeys.map θ) ≠ 0 := (Real.sqrt_pos.2 hpos).ne'
    simp only [if_pos hr]
    have e : ∀ (g : Ex → Ex) (G : ℝ → ℝ), (∀ k, eval (envOf θ) (g (arg k)) = fin (G (θ k))) →
        ((s.fkeys.map arg).map g).map (eval (envOf θ)) = ((s.fkeys.map θ).map G).map fin := by
      intro g G h
      rw [List.map_map, List.map_map, List.map_map, List.map_map]
      exact List.map_congr_left fun k _ => h k
    refine e _ _ fun k => ?_
    rw [eval_mul, eval_div, eval_bin, eval_meanSq θ _ (List.ne_nil_of_mem hk), eval_const]
    show fin (θ k) * (fin (θ ("rms" ++ s.base)) / Fl.pow (fin _) (fin 0.5)) = _
    rw [pow_fin_pos hpos, show mean ((s.fkeys.map θ).map (· ^ 2)) ^ (0.5 : ℝ) = Spec.rms (s.fkeys.map θ) by
      unfold Spec.rms
      rw [Real.sqrt_eq_rpow]
      norm_num, fin_div hrms, fin_mul]
  · simp only [if_neg hr]
    rw [List.map_map, List.map_map]
    rfl

theorem smooth_nodes {s : SplineModel} {θ : String → ℝ} (v : String)
    (hnz : s.config.regularize = true → ∃ k ∈ s.fkeys, θ k ≠ 0) : ∀ e ∈ nodeValuesEx s, Smooth θ v e := by
  intro e he
  unfold nodeValuesEx at he
  by_cases hr : s.config.regularize = true
  · obtain ⟨k, hk, hk0⟩ := hnz hr
    have hpos : 0 < mean ((s.fkeys.map θ).map (· ^ 2)) :=
      mean_sq_pos ⟨θ k, List.mem_map.2 ⟨k, hk, rfl⟩, hk0⟩
    have hne := List.ne_nil_of_mem hk
    have hl : (((s.fkeys.map arg).length : ℕ) : ℝ) ≠ 0 := by
      rw [Nat.cast_ne_zero]
      simpa using hne
    simp only [if_pos hr] at he
    obtain ⟨f, hf, rfl⟩ := List.mem_map.1 he
    obtain ⟨k', -, rfl⟩ := List.mem_map.1 hf
    have s1 : Smooth θ v (sumEx ((s.fkeys.map arg).map (un .square)) / const (fin (s.fkeys.map arg).length)) := by
      refine smooth_div (smooth_sum fun y hy => ?_) (smooth_const θ v _) rfl hl
      obtain ⟨z, hz, rfl⟩ := List.mem_map.1 hy
      obtain ⟨k'', -, rfl⟩ := List.mem_map.1 hz
      exact smooth_un' (o := .square) (fun _ => trivial) trivial
    refine smooth_mul trivial (smooth_div trivial (smooth_pow s1 (smooth_const θ v _) (eval_meanSq θ _ hne) hpos)
      (b := mean ((s.fkeys.map θ).map (· ^ 2)) ^ (0.5 : ℝ)) ?_ (Real.rpow_pos_of_pos hpos _).ne')
    rw [eval_bin, eval_meanSq θ _ hne]
    exact pow_fin_pos hpos
  · simp only [if_neg hr] at he
    obtain ⟨k, -, rfl⟩ := List.mem_map.1 he
    trivial

theorem usedNodes_length (s : SplineModel) (θ : String → ℝ) : (usedNodes s θ).length = s.config.nodes := by
  unfold usedNodes
  split_ifs <;> simp [fkeys]

theorem eval_interpolant (θ : String → ℝ) (w : List ℝ) {f : List Ex} {r : List ℝ}
    (h : f.map (eval (envOf θ)) = r.map fin) :
    eval (envOf θ) (interpolantEx w f) = fin (List.zipWith (· * ·) w r).sum := by
  unfold interpolantEx
  rw [eval_sumEx, ← sum_fin]
  congr 1
  induction w generalizing f r with
  | nil => simp
  | cons a w ih =>
    cases f with
    | nil =>
      cases r with
      | nil => rfl
      | cons _ _ => simp at h
    | cons e f =>
      cases r with
      | nil => simp at h
      | cons b r =>
        simp only [List.map_cons, List.cons.injEq] at h
        simp only [List.zipWith_cons_cons, List.map_cons]
        rw [ih h.2, eval_mul, h.1, eval_const, fin_mul]

theorem smooth_interpolant {θ : String → ℝ} {v : String} (w : List ℝ) {f : List Ex}
    (h : ∀ e ∈ f, Smooth θ v e) : Smooth θ v (interpolantEx w f) := by
  refine smooth_sum fun y hy => ?_
  induction w generalizing f with
  | nil => simp at hy
  | cons a w ih =>
    cases f with
    | nil => simp at hy
    | cons e f =>
      rw [List.zipWith_cons_cons, List.mem_cons] at hy
      rcases hy with rfl | hy
      · exact smooth_mul (smooth_const θ v a) (h e (by simp))
      · exact ih (fun e he => h e (List.mem_cons_of_mem _ he)) hy

theorem eval_factor (θ : String → ℝ) (w : List ℝ) (P : Prop) {f : List Ex} {r : List ℝ}
    (h : f.map (eval (envOf θ)) = r.map fin) :
    eval (envOf θ) (splineFactorEx w P f) = fin (if P then Real.exp (List.zipWith (· * ·) w r).sum else 0) := by
  unfold splineFactorEx
  rw [eval_mul, eval_un, eval_interpolant θ w h, eval_const, ← fin_mul_ind]
  rfl

theorem smooth_factor {θ : String → ℝ} {v : String} (w : List ℝ) (P : Prop) {f : List Ex}
    (h : ∀ e ∈ f, Smooth θ v e) : Smooth θ v (splineFactorEx w P f) := by
  obtain ⟨r, hr⟩ : ∃ r, ind P = fin r := ⟨_, ind_eq _⟩
  unfold splineFactorEx
  rw [hr]
  exact smooth_mul (smooth_un' (o := .exp) (fun _ => trivial) (smooth_interpolant w h)) (smooth_const θ v r)

theorem eval_foldl_mul (θ : String → ℝ) (g : ℝ → Ex) (G : ℝ → ℝ) (h : ∀ v, eval (envOf θ) (g v) = fin (G v))
    (row : List ℝ) (p : Ex) {q : ℝ} (hp : eval (envOf θ) p = fin q) :
    eval (envOf θ) (row.foldl (fun p v => p * g v) p) = fin (q * (row.map G).prod) := by
  induction row generalizing p q with
  | nil => simpa using hp
  | cons a row ih =>
    rw [List.foldl_cons, ih (p * g a) (q := q * G a) (by rw [eval_mul, hp, h, fin_mul]), List.map_cons,
      List.prod_cons, mul_assoc]

theorem smooth_foldl_mul {θ : String → ℝ} {v : String} {g : ℝ → Ex} (h : ∀ a, Smooth θ v (g a)) (row : List ℝ)
    {p : Ex} (hp : Smooth θ v p) : Smooth θ v (row.foldl (fun p v => p * g v) p) := by
  induction row generalizing p with
  | nil => exact hp
  | cons a row ih => exact ih (smooth_mul hp (h a))

theorem extract_used {s : SplineModel} {x : List ℝ} {kw : (String → ℝ) → Dict Fl} (h : PassesNodes s x kw)
    {θ : String → ℝ} (hnz : s.config.regularize = true → ∃ k ∈ s.fkeys, θ k ≠ 0) :
    s.extractSplinePoints (kw θ) = .ok ((usedNodes s θ).map fin, x.map fin) := by
  by_cases hr : s.config.regularize = true
  · obtain ⟨k, hk, hk0⟩ := hnz hr
    have hpos : 0 < mean ((s.fkeys.map θ).map (· ^ 2)) :=
      mean_sq_pos ⟨θ k, List.mem_map.2 ⟨k, hk, rfl⟩, hk0⟩
    have hrms : Spec.rms (s.fkeys.map θ) ≠ 0 := (Real.sqrt_pos.2 hpos).ne'
    have hl : (s.fkeys.length : ℝ) ≠ 0 := by
      rw [Nat.cast_ne_zero]
      simpa using List.ne_nil_of_mem hk
    have hget : (kw θ).get (rmsKey s.base) = .ok (fin (θ ("rms" ++ s.base))) := by
      unfold Dict.get rmsKey
      rw [h.rms hr θ]
    have hfac : rmsFactor (fin (θ ("rms" ++ s.base))) (s.fkeys.map fun k => fin (θ k)) =
        fin (θ ("rms" ++ s.base) / Spec.rms (s.fkeys.map θ)) := by
      unfold rmsFactor Arr.mean
      have : (s.fkeys.map fun k => fin (θ k)).map (· ^ 2) = ((s.fkeys.map θ).map (· ^ 2)).map fin := by
        rw [List.map_map, List.map_map, List.map_map]
        refine List.map_congr_left fun y _ => ?_
        simp
      rw [this, sum_fin, List.length_map, List.length_map, List.length_map, natCast_eq, fin_div hl]
      have hm : ((s.fkeys.map θ).map (· ^ 2)).sum / (s.fkeys.length : ℝ) = mean ((s.fkeys.map θ).map (· ^ 2)) := by
        unfold mean
        simp
      rw [hm, pow_fin_pos hpos, show mean ((s.fkeys.map θ).map (· ^ 2)) ^ (0.5 : ℝ) = Spec.rms (s.fkeys.map θ) by
        unfold Spec.rms
        rw [Real.sqrt_eq_rpow]
        norm_num, fin_div hrms]
    unfold extractSplinePoints regularise usedNodes
    simp only [h.values, ok_bind, if_pos hr, hget, hfac, pure_eq_ok, h.positions]
    congr 2
    rw [List.map_map, List.map_map, List.map_map]
    refine List.map_congr_left fun y _ => ?_
    simp
  · have hr' : s.config.regularize = false := by simpa using hr
    rw [C36_unregularised hr' (h.values θ) (h.positions θ)]
    unfold usedNodes
    rw [if_neg hr, List.map_map]
    rfl

theorem splineNorm_pos' (S : String → List ℝ → List ℝ → ℝ → ℝ) (c : SplineConfig) {grid x : List ℝ}
    (f : List ℝ) (hg : grid.Pairwise (· < ·)) (h2 : 2 ≤ grid.length) (hb : ∃ v ∈ grid, Between x v) :
    0 < splineNorm S c grid x f := by
  have hcut : ∀ w, Between x w → 0 < cutSpline S c x f w := by
    intro w hw
    unfold cutSpline
    rw [if_pos hw]
    exact Real.exp_pos _
  refine trapzR_pos_of_exists (by simp) h2 ?_ hg ?_
  · intro y hy
    obtain ⟨w, hw, rfl⟩ := List.mem_map.1 hy
    by_cases h : Between x w
    · exact (hcut w h).le
    · unfold cutSpline
      rw [if_neg h]
  · obtain ⟨v, hv, hvb⟩ := hb
    exact ⟨_, List.mem_map.2 ⟨v, hv, rfl⟩, hcut v hvb⟩

/-- The value of the recorded computation. -/
theorem eval_splineRec {S : String → List ℝ → List ℝ → ℝ → ℝ} {w : String → List ℝ → ℕ → ℝ → List ℝ}
    (hlin : LinearRule S w) {s : SplineModel} {x : List ℝ} {θ : String → ℝ}
    (hnz : s.config.regularize = true → ∃ k ∈ s.fkeys, θ k ≠ 0)
    (hZ : 0 < splineNorm S s.config s.xs x (usedNodes s θ)) (r : String → ℝ) :
    eval (envOf θ) (splineRec w s x r) =
      fin (s.config.parameters.map fun p => splineDensity S s.config s.xs x (usedNodes s θ) (r p)).prod := by
  have hn := eval_nodes hnz
  have hfac : ∀ v, eval (envOf θ) (splineFactorEx (w s.config.kind (x.map (coordinate s.config)) s.config.nodes
      (coordinate s.config v)) (Between x v) (nodeValuesEx s)) = fin (cutSpline S s.config x (usedNodes s θ) v) := by
    intro v
    rw [eval_factor θ _ _ hn]
    unfold cutSpline expSpline
    rw [hlin, usedNodes_length]
  unfold splineRec splineModelEx
  simp only
  rw [eval_div, eval_foldl_mul θ _ _ hfac _ _ (q := 1) rfl, eval_bin, trace_trapz, eval_const,
    List.map_map (l := s.xs), show s.xs.map (eval (envOf θ) ∘ fun v => splineFactorEx (w s.config.kind (x.map (coordinate s.config))
      s.config.nodes (coordinate s.config v)) (Between x v) (nodeValuesEx s)) =
      (s.xs.map (cutSpline S s.config x (usedNodes s θ))).map fin by
        rw [List.map_map]
        exact List.map_congr_left fun v _ => hfac v, Arr.trapz_fin]
  show fin _ / Fl.pow (fin (splineNorm S s.config s.xs x (usedNodes s θ))) (fin _) = _
  rw [pow_fin_pos hZ, fin_div (Real.rpow_pos_of_pos hZ _).ne', Real.rpow_natCast, one_mul, List.length_map,
    List.map_map]
  congr 1
  exact prod_div_pow s.config.parameters (fun p => cutSpline S s.config x (usedNodes s θ) (r p)) _

/-- **C92, spline models.** jax returns the derivative of the density of every sample, inside and outside the nodes, with
respect to every node value and the root mean square, if at least one grid point lies between the outer nodes and, for a
regularised model, not all node values are 0. -/
theorem C92_spline_partial {rule : SplineRule} {S : String → List ℝ → List ℝ → ℝ → ℝ} (hrule : RealRule rule S)
    {w : String → List ℝ → ℕ → ℝ → List ℝ} (hlin : LinearRule S w) {s : SplineModel}
    (hfresh : s.normSpline = none) (hparams : s.config.parameters ≠ []) {dataset : Dict (List Fl)}
    {rows : List (String → ℝ)} (hdata : HasRows dataset s.config.parameters rows) {x : List ℝ} (hx : x ≠ [])
    (hpos : Positive s.config x ∧ Positive s.config s.xs ∧ ∀ r ∈ rows, Positive s.config (s.config.parameters.map r))
    {kw : (String → ℝ) → Dict Fl} (hkw : PassesNodes s x kw) (hg : s.xs.Pairwise (· < ·)) (h2 : 2 ≤ s.xs.length)
    (hb : ∃ v ∈ s.xs, Between x v) {θ : String → ℝ}
    (hnz : s.config.regularize = true → ∃ k ∈ s.fkeys, θ k ≠ 0) {i : ℕ} (hi : i < rows.length) (v : String) :
    GradientRight (splineOf rule s dataset kw i) (splineRec w s x rows[i]) θ v := by
  have hZ := fun f => splineNorm_pos' S s.config (x := x) f hg h2 hb
  refine gradientRight_near ?_ ?_
  · have hev : ∀ᶠ t in 𝓝 (θ v), s.config.regularize = true → ∃ k ∈ s.fkeys, Function.update θ v t k ≠ 0 := by
      by_cases hr : s.config.regularize = true
      · obtain ⟨k, hk, hk0⟩ := hnz hr
        have hc : ContinuousAt (fun t => Function.update θ v t k) (θ v) := by
          by_cases hkv : k = v
          · subst hkv; simp only [Function.update_self]; exact continuousAt_id
          · simp only [Function.update_of_ne hkv]; exact continuousAt_const
        have hne := hc.eventually_ne (y := 0) (by simpa using hk0)
        filter_upwards [hne] with t ht _
        exact ⟨k, hk, ht⟩
      · exact .of_forall fun t h => absurd h hr
    filter_upwards [hev] with t ht
    generalize Function.update θ v t = θ' at ht ⊢
    unfold splineOf
    rw [C36_value hrule ⟨hfresh, hparams, hkw.noNew θ', extract_used hkw ht, hx, hdata, hpos⟩ (hZ _).ne',
      eval_splineRec hlin ht (hZ _)]
    simp [resultAt, Except.map, hi]
  · have hn := smooth_nodes v hnz
    have hN : eval (envOf θ) (trapzEx (s.xs.map fun a => splineFactorEx (w s.config.kind
        (x.map (coordinate s.config)) s.config.nodes (coordinate s.config a)) (Between x a) (nodeValuesEx s)) s.xs) =
        fin (splineNorm S s.config s.xs x (usedNodes s θ)) := by
      rw [trace_trapz, List.map_map]
      unfold splineNorm
      rw [← Arr.trapz_fin, List.map_map]
      congr 1
      refine List.map_congr_left fun a _ => ?_
      simp only [Function.comp_apply]
      rw [eval_factor θ _ _ (eval_nodes hnz)]
      unfold cutSpline expSpline
      rw [hlin, usedNodes_length]
    unfold splineRec splineModelEx
    simp only
    refine smooth_div (smooth_foldl_mul (fun a => smooth_factor _ _ hn) _ (smooth_const θ v 1))
      (smooth_pow (smooth_trapz ?_ _) (smooth_const θ v _) hN (hZ _)) (b := splineNorm S s.config s.xs x
        (usedNodes s θ) ^ (((s.config.parameters.map rows[i]).length : ℕ) : ℝ)) ?_ (Real.rpow_pos_of_pos (hZ _) _).ne'
    · intro y hy
      obtain ⟨a, -, rfl⟩ := List.mem_map.1 hy
      exact smooth_factor _ _ hn
    · rw [eval_bin, hN]
      exact pow_fin_pos (hZ _)

/-- A model with two nodes at 0 and 1. -/
example {rule : SplineRule} {S : String → List ℝ → List ℝ → ℝ → ℝ} (hrule : RealRule rule S)
    {w : String → List ℝ → ℕ → ℝ → List ℝ} (hlin : LinearRule S w) (θ : String → ℝ) :
    GradientRight (splineOf rule lineModel (lineData (1 / 2)) (fun θ => [("x0", fin 0), ("x1", fin 1),
      ("fx0", fin (θ "fx0")), ("fx1", fin (θ "fx1"))]) 0)
      (splineRec w lineModel [0, 1] fun _ => 1 / 2) θ "fx1" := by
  refine C92_spline_partial (rows := [fun _ => 1 / 2]) (x := [0, 1]) hrule hlin rfl (by decide) ?_ (by simp)
    ⟨fun h => (by cases h), fun h => (by cases h), fun _ _ h => (by cases h)⟩ ⟨fun θ => ?_, fun θ => ?_,
    fun h => (by cases h), fun θ => ?_⟩ (linspaceR_sorted one_pos (by norm_num)) ?_ ?_ (fun h => (by cases h)) (by simp) _
  · exact (lineFirst (1 / 2)).data
  · rfl
  · rfl
  · rw [show nodeName lineModel.base lineModel.config.nodes = "fx2" from by decide]
    simp [Dict.contains, Dict.keys]
  · rw [show lineModel.xs = Arr.linspaceR 0 1 20 from rfl, linspaceR_length]; norm_num
  · exact ⟨_, linspaceR_last 0 1 (n := 20) (by norm_num), lineGrid_between _ (linspaceR_last 0 1 (by norm_num))⟩

end GW
