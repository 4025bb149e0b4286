import Verif.Props.GradientsLikelihood
import Verif.Model.Experimental

/-!
# C92: gradients of the selection function
-/

noncomputable section

open Set Filter
open scoped Topology

namespace GW

open Fl Spec Ex

namespace Spec

/-- On jax the population model returns `density` at the found injections `found`, whose draw probabilities are
`q`; `n` injections in total and `nEvents` events. -/
structure InjectionsRecordedAs {ι : Type} (V : ResamplingVT) (kw : (String → ℝ) → Dict Fl) (found : List ι)
    (density : ι → Ex) (q : ι → ℝ) (n nEvents : ℝ) : Prop where
  /-- the backend -/
  jax : V.backend = .jax
  /-- the draw probabilities -/
  prior : V.data.get "prior" = .ok (.arr (found.map fun x => fin (q x)))
  /-- the densities -/
  calls : ∀ θ, V.model.prob V.data (kw θ) = .ok (found.map fun x => eval (envOf θ) (density x))
  /-- the number of injections -/
  total : V.totalInjections.2 = fin n
  /-- the number of events -/
  events : V.nEvents = fin nEvents

/-- The estimated detection efficiency for weights `w` of the found injections. -/
def efficiency (w : List ℝ) (n : ℝ) : ℝ := w.sum / n

/-- The estimated variance of the detection efficiency. -/
def efficiencyVariance (w : List ℝ) (n : ℝ) : ℝ := (w.map fun x => x ^ 2).sum / n ^ 2 - efficiency w n ^ 2 / n

end Spec

/-- The first number that `ResamplingVT` returns as a function of the hyper-parameters, passed as `kw`. -/
def selectionOf (self : ResamplingVT) (kw : (String → ℝ) → Dict Fl) (θ : String → ℝ) : Except PyErr Fl :=
  (self.call (kw θ)).map Prod.fst

/-- The injections as recorded. -/
def foundRec {ι : Type} (found : List ι) (density : ι → Ex) (q : ι → ℝ) : List (Ex × ℝ) :=
  found.map fun x => (density x, q x)

/-- What jax records for the call. -/
def selectionRec {ι : Type} (self : ResamplingVT) (found : List ι) (density : ι → Ex) (q : ι → ℝ) (n nEvents : ℝ) : Ex :=
  if self.marginalizeUncertainty then vtFactorEx nEvents (foundRec found density q) n
  else selectionEx self.enforceConvergence nEvents (foundRec found density q) n

theorem trace_efficiency {ι : Type} {self : ResamplingVT} {kw : (String → ℝ) → Dict Fl} {found : List ι}
    {density : ι → Ex} {q : ι → ℝ} {n nEvents : ℝ} (h : InjectionsRecordedAs self kw found density q n nEvents)
    (θ : String → ℝ) : self.detectionEfficiency (kw θ) =
      .ok (eval (envOf θ) (efficiencyEx (foundRec found density q) n),
        eval (envOf θ) (efficiencyVarianceEx (foundRec found density q) n)) := by
  have hw : Arr.divide (found.map fun x => eval (envOf θ) (density x)) (found.map fun x => fin (q x)) =
      .ok (found.map fun x => eval (envOf θ) (density x) / fin (q x)) := by
    unfold Arr.divide
    rw [if_pos (by simp), List.zipWith_map, List.zipWith_self]
  unfold ResamplingVT.detectionEfficiency
  rw [h.calls, ok_bind, h.prior]
  simp only [ok_bind, pure_eq_ok, hw, h.total, h.jax, ne_eq, not_true_eq_false, decide_false, Bool.false_and, pyDiv,
    Bool.false_eq_true, false_and, if_false, if_true, toNumber, id]
  unfold efficiencyVarianceEx efficiencyEx foundRec
  simp only [eval_sub, eval_div, eval_sumEx, eval_const, eval_un, List.map_map, Function.comp_def, Arr.sum, UnOp.val]

theorem eval_correctionEx {self : ResamplingVT} {nEvents : ℝ} (h : self.nEvents = fin nEvents) (env : String → Fl)
    (mu var : Ex) : eval env (correctionEx nEvents mu var) = (self.checkConvergence (eval env mu) (eval env var)).2 := by
  unfold correctionEx ResamplingVT.checkConvergence
  simp only [eval_un, eval_mul, eval_sub, eval_mask, eval_const, UnOp.val, CmpOp.holds, h, decide_eq_true_eq]

/-- The recorded computation returns what the call returns. -/
theorem trace_selection {ι : Type} {self : ResamplingVT} {kw : (String → ℝ) → Dict Fl} {found : List ι}
    {density : ι → Ex} {q : ι → ℝ} {n nEvents : ℝ} (h : InjectionsRecordedAs self kw found density q n nEvents) :
    Traces (selectionRec self found density q n nEvents) (selectionOf self kw) := by
  intro θ
  unfold selectionOf selectionRec ResamplingVT.call ResamplingVT.vtFactor
  cases hm : self.marginalizeUncertainty
  · simp only [Bool.not_false, if_true, trace_efficiency h, ok_bind, pure_eq_ok, Except.map, Bool.false_eq_true, if_false]
    unfold selectionEx
    cases self.enforceConvergence
    · rfl
    · simp only [if_true, eval_add, eval_correctionEx h.events]
  · simp only [Bool.not_true, Bool.false_eq_true, if_false, if_true, trace_efficiency h, ok_bind, pure_eq_ok, Except.map,
      h.jax, ne_eq, not_true_eq_false, decide_false, pyDiv, false_and, vtFactorEx, eval_add, eval_correctionEx h.events,
      eval_div, eval_un, eval_const, UnOp.val, h.events]

/-- As the selection function of a likelihood the object returns the recorded computation. -/
theorem selection_calls {ι : Type} {self : ResamplingVT} {kw : (String → ℝ) → Dict Fl} {found : List ι}
    {density : ι → Ex} {q : ι → ℝ} {n nEvents : ℝ} (h : InjectionsRecordedAs self kw found density q n nEvents)
    (θ : String → ℝ) : ∃ py var,
      self.asSelection.call (kw θ) = .ok (.pair py (eval (envOf θ) (selectionRec self found density q n nEvents)) var) ∨
      self.asSelection.call (kw θ) = .ok (.bare py (eval (envOf θ) (selectionRec self found density q n nEvents))) := by
  have ht := trace_selection h θ
  unfold selectionOf at ht
  cases hc : self.call (kw θ) with
  | error e => rw [hc] at ht; cases ht
  | ok r =>
    obtain ⟨mu, var⟩ := r
    rw [hc] at ht
    have e := Except.ok.inj ht
    simp only at e
    unfold ResamplingVT.asSelection
    simp only [hc, ok_bind]
    cases var with
    | none => exact ⟨_, 0, .inr (by rw [e]; rfl)⟩
    | some w => exact ⟨_, w, .inl (by rw [e]; rfl)⟩

section Smooth

variable {ι : Type} {θ : String → ℝ} {v : String} {found : List ι} {density : ι → Ex} {q g : ι → ℝ} {n : ℝ}

theorem smooth_weight (hd : ∀ x ∈ found, Smooth θ v (density x)) (hq : ∀ x ∈ found, q x ≠ 0) {x : ι} (hx : x ∈ found) :
    Smooth θ v (density x / const (fin (q x))) := smooth_div (hd x hx) (smooth_const θ v _) rfl (hq x hx)

theorem eval_weight (hg : ∀ x ∈ found, eval (envOf θ) (density x) = fin (g x)) (hq : ∀ x ∈ found, q x ≠ 0) {x : ι}
    (hx : x ∈ found) : eval (envOf θ) (density x / const (fin (q x))) = fin (g x / q x) := by
  rw [eval_div, hg x hx]
  exact fin_div (hq x hx)

theorem smooth_efficiency (hd : ∀ x ∈ found, Smooth θ v (density x)) (hq : ∀ x ∈ found, q x ≠ 0) (hn : n ≠ 0) :
    Smooth θ v (efficiencyEx (foundRec found density q) n) := by
  unfold efficiencyEx foundRec
  refine smooth_div (smooth_sum fun y hy => ?_) (smooth_const θ v _) rfl hn
  rw [List.map_map] at hy
  obtain ⟨x, hx, rfl⟩ := List.mem_map.1 hy
  exact smooth_weight hd hq hx

theorem eval_efficiency (hg : ∀ x ∈ found, eval (envOf θ) (density x) = fin (g x)) (hq : ∀ x ∈ found, q x ≠ 0)
    (hn : n ≠ 0) : eval (envOf θ) (efficiencyEx (foundRec found density q) n) =
      fin (efficiency (found.map fun x => g x / q x) n) := by
  unfold efficiencyEx foundRec efficiency
  rw [eval_div, eval_sumEx, List.map_map, List.map_map, eval_const, ← fin_div hn]
  congr 1
  refine Eq.trans ?_ (sum_map_fin found fun x => g x / q x)
  unfold Arr.sum
  congr 1
  exact List.map_congr_left fun x hx => eval_weight hg hq hx

theorem smooth_variance (hd : ∀ x ∈ found, Smooth θ v (density x)) (hq : ∀ x ∈ found, q x ≠ 0) (hn : n ≠ 0) :
    Smooth θ v (efficiencyVarianceEx (foundRec found density q) n) := by
  unfold efficiencyVarianceEx
  have e2 : (fin n : Fl) ^ 2 = fin (n ^ 2) := by simp
  rw [e2]
  refine smooth_sub (smooth_div (smooth_sum fun y hy => ?_) (smooth_const θ v _) rfl (pow_ne_zero 2 hn))
    (smooth_div (smooth_un' (o := .square) (fun _ => trivial) (smooth_efficiency hd hq hn)) (smooth_const θ v _) rfl hn)
  unfold foundRec at hy
  rw [List.map_map] at hy
  obtain ⟨x, hx, rfl⟩ := List.mem_map.1 hy
  exact smooth_un' (o := .square) (fun _ => trivial) (smooth_weight hd hq hx)

theorem eval_variance (hg : ∀ x ∈ found, eval (envOf θ) (density x) = fin (g x)) (hq : ∀ x ∈ found, q x ≠ 0)
    (hn : n ≠ 0) : eval (envOf θ) (efficiencyVarianceEx (foundRec found density q) n) =
      fin (efficiencyVariance (found.map fun x => g x / q x) n) := by
  have e2 : (fin n : Fl) ^ 2 = fin (n ^ 2) := by simp
  have e3 : eval (envOf θ) (sumEx ((foundRec found density q).map fun e => un .square (e.1 / const (fin e.2)))) =
      fin (((found.map fun x => g x / q x).map fun x => x ^ 2).sum) := by
    unfold foundRec
    rw [eval_sumEx, List.map_map, List.map_map, List.map_map]
    refine Eq.trans ?_ (sum_map_fin found fun x => (g x / q x) ^ 2)
    unfold Arr.sum
    congr 1
    refine List.map_congr_left fun x hx => ?_
    simp only [Function.comp_apply]
    rw [eval_un, eval_weight hg hq hx]
    simp [UnOp.val]
  unfold efficiencyVarianceEx efficiencyVariance
  rw [eval_sub, eval_div, eval_div, e3, eval_un, eval_efficiency hg hq hn, eval_const, eval_const, e2,
    fin_div (pow_ne_zero 2 hn)]
  show _ - fin _ ^ 2 / fin n = _
  rw [show (fin (efficiency (found.map fun x => g x / q x) n) : Fl) ^ 2 =
    fin (efficiency (found.map fun x => g x / q x) n ^ 2) by simp, fin_div hn]
  simp

/-- Where the estimate has converged, the correction is 0 and nothing comes back from it. -/
theorem smooth_correction {mu var : Ex} {nEvents a b : ℝ} (hm : Smooth θ v mu) (hv : Smooth θ v var)
    (em : eval (envOf θ) mu = fin a) (ev : eval (envOf θ) var = fin b) (hc : 4 * nEvents * b < a ^ 2) :
    Smooth θ v (correctionEx nEvents mu var) := by
  have e4 : (4 * fin nEvents : Fl) = fin (4 * nEvents) := by simp
  refine .inr ⟨⟨0, ?_⟩, fun ct => ?_⟩
  · have h := holds_nearby (x := const (4 * fin nEvents) * var) (y := un .square mu)
      (smooth_mul (by rw [e4]; exact smooth_const θ v _) hv) (smooth_un' (o := .square) (fun _ => trivial) hm)
      (a := 4 * nEvents * b) (b := a ^ 2) (by rw [eval_mul, ev, eval_const, e4]; simp)
      (by rw [eval_un, em]; simp [UnOp.val]) hc.ne .lt
    filter_upwards [h] with t ht
    have h1 : CmpOp.lt.holds (eval (envOf θ) (const (4 * fin nEvents) * var)) (eval (envOf θ) (un .square mu)) := by
      rw [eval_mul, ev, eval_const, e4, eval_un, em]
      simpa [UnOp.val, CmpOp.holds] using hc
    have h2 := ht.2 h1
    rw [eval_un, eval_mul, eval_sub, eval_mask]
    simp only [eval_const]
    rw [ind, if_pos h2]
    simp [UnOp.val, nanToNumWith]
  · rw [back_un, back_mul, back_sub, back_mask, back_const, back_const]
    simp

/-- All steps of the call are differentiable. -/
theorem smooth_selection {self : ResamplingVT} {nEvents : ℝ} (hd : ∀ x ∈ found, Smooth θ v (density x))
    (hg : ∀ x ∈ found, eval (envOf θ) (density x) = fin (g x)) (hq : ∀ x ∈ found, q x ≠ 0) (hn : n ≠ 0)
    (hconv : self.enforceConvergence = true ∨ self.marginalizeUncertainty = true →
      4 * nEvents * efficiencyVariance (found.map fun x => g x / q x) n < efficiency (found.map fun x => g x / q x) n ^ 2)
    (hmarg : self.marginalizeUncertainty = true → efficiency (found.map fun x => g x / q x) n ≠ 0 ∧
      efficiencyVariance (found.map fun x => g x / q x) n ≠ 0) :
    Smooth θ v (selectionRec self found density q n nEvents) := by
  have sm := smooth_efficiency hd hq hn
  have sv := smooth_variance hd hq hn
  have em := eval_efficiency hg hq hn
  have ev := eval_variance hg hq hn
  unfold selectionRec
  split_ifs with hm
  · obtain ⟨h1, h2⟩ := hmarg hm
    unfold vtFactorEx
    have e3 : ((3 + fin nEvents) / 2 : Fl) = fin ((3 + nEvents) / 2) := by
      rw [← fin_div two_ne_zero]
      simp
    have sr : Smooth θ v (un .square (efficiencyEx (foundRec found density q) n) /
        efficiencyVarianceEx (foundRec found density q) n) := smooth_div (smooth_un' (o := .square) (fun _ => trivial) sm) sv ev h2
    have er : eval (envOf θ) (un .square (efficiencyEx (foundRec found density q) n) /
        efficiencyVarianceEx (foundRec found density q) n) =
          fin (efficiency (found.map fun x => g x / q x) n ^ 2 / efficiencyVariance (found.map fun x => g x / q x) n) := by
      rw [eval_div, ev, eval_un, em, ← fin_div h2]
      simp [UnOp.val]
    have sx := smooth_div (smooth_const θ v ((3 + nEvents) / 2)) sr er (div_ne_zero (pow_ne_zero 2 h1) h2)
    obtain ⟨y, hy⟩ := smooth_value sx
    rw [e3]
    exact smooth_add (smooth_div sm (smooth_un' (o := .exp) (fun _ => trivial) sx) (by rw [eval_un, hy]; rfl) (Real.exp_pos y).ne')
      (smooth_correction sm sv em ev (hconv (.inr hm)))
  · unfold selectionEx
    split_ifs with he
    · exact smooth_add sm (smooth_correction sm sv em ev (hconv (.inl he)))
    · exact sm

end Smooth

/-- **C92, selection function.** If the densities at all found injections are computed by operations that are
differentiable where they are used, then jax returns the derivative of the estimated detection efficiency; where
convergence is checked, if the estimate has converged (the square of the efficiency is more than four times the number of
events times the variance), and, where the uncertainty is marginalised, if efficiency and variance are not 0. -/
theorem C92_selection_partial {ι : Type} {self : ResamplingVT} {kw : (String → ℝ) → Dict Fl} {found : List ι}
    {density : ι → Ex} {q : ι → ℝ} {n nEvents : ℝ} (h : InjectionsRecordedAs self kw found density q n nEvents)
    {θ : String → ℝ} {v : String} (hd : ∀ x ∈ found, Smooth θ v (density x)) {g : ι → ℝ}
    (hg : ∀ x ∈ found, eval (envOf θ) (density x) = fin (g x)) (hq : ∀ x ∈ found, q x ≠ 0) (hn : n ≠ 0)
    (hconv : self.enforceConvergence = true ∨ self.marginalizeUncertainty = true →
      4 * nEvents * efficiencyVariance (found.map fun x => g x / q x) n < efficiency (found.map fun x => g x / q x) n ^ 2)
    (hmarg : self.marginalizeUncertainty = true → efficiency (found.map fun x => g x / q x) n ≠ 0 ∧
      efficiencyVariance (found.map fun x => g x / q x) n ≠ 0) :
    GradientRight (selectionOf self kw) (selectionRec self found density q n nEvents) θ v :=
  gradientRight (trace_selection h) (smooth_selection hd hg hq hn hconv hmarg)

/-- **C92, selection function.** If NaN comes back from the density of one found injection, the derivative of the
detection efficiency is NaN. -/
theorem C92_selection_nan {ι : Type} {self : ResamplingVT} (found : List ι) (density : ι → Ex) (q : ι → ℝ)
    (n nEvents : ℝ) {env : String → Fl} {v : String} {x : ι} (hx : x ∈ found)
    (h : ∀ ct, back env v (density x) ct = nan) :
    (selectionRec self found density q n nEvents).grad env v = nan := by
  have hmu : ∀ ct, back env v (efficiencyEx (foundRec found density q) n) ct = nan := by
    intro ct
    unfold efficiencyEx foundRec
    rw [back_div, back_sum_nan (x := density x / const (fin (q x))), nan_add]
    · rw [List.map_map]
      exact List.mem_map.2 ⟨x, hx, rfl⟩
    · rw [back_div, h, nan_add]
  unfold selectionRec selectionEx vtFactorEx Ex.grad
  split_ifs
  · rw [back_add, back_div, hmu, nan_add, nan_add]
  · rw [back_add, hmu, nan_add]
  · exact hmu _

/-- Grid masses 1, 2, 3, 4, smallest mass 2.1, and a found injection with primary mass 1.05. -/
example {s : Smoothed} (hs : singlePeak false 1 4 4 2 true = .ok s) (self : ResamplingVT) :
    (selectionRec self [(3.2, 0.9), (1.05, 0.9)] (smoothedRec s (recSinglePeak 4)) (fun _ => 1) 10 1).grad
      (envOf otherHyper) "beta" = nan :=
  C92_selection_nan _ _ _ _ _ (x := (1.05, 0.9)) (by simp) (smoothed_below hs (recSinglePeak 4) (θ := otherHyper)
    (by norm_num) (by norm_num) (by simp [otherHyper]; norm_num) (by norm_num) (by norm_num)
    (by simp [otherHyper]; norm_num) (by norm_num))

/-- Three injections, of which those with masses 2 and 3 were found, all drawn with density 1/4; a power law between
1 and 4. -/
def powerlawVT (marginalise enforce : Bool) : ResamplingVT where
  backend := .jax
  model := ⟨[.other], fun _ φ => match Dict.get? φ "alpha" with
    | none => .error (.keyError "alpha")
    | some a => [(2 : ℝ), 3].mapM fun x =>
      powerlaw .jax false ⟨fin x, true⟩ ⟨a, false⟩ ⟨fin 4, false⟩ ⟨fin 1, false⟩⟩
  data := [("mass_1", .arr [fin 2, fin 3]), ("prior", .arr [fin (1 / 4), fin (1 / 4)])]
  nEvents := fin 1
  totalInjections := (true, fin 3)
  analysisTime := 1
  redshiftModel := none
  marginalizeUncertainty := marginalise
  enforceConvergence := enforce
  surveyedHypervolumeAttr := none

theorem powerlawVT_recorded (marginalise enforce : Bool) :
    InjectionsRecordedAs (powerlawVT marginalise enforce) (fun θ => [("alpha", fin (θ "alpha"))]) [(2 : ℝ), 3]
      (fun x => powerlawEx (const (fin x)) (arg "alpha") (const (fin 4)) (const (fin 1))) (fun _ => 1 / 4) 3 1 := by
  refine ⟨rfl, rfl, fun θ => ?_, rfl, rfl⟩
  refine mapM_ok (g := fun e => _) fun x _ => ?_
  exact trace_powerlaw (envOf θ) (const (fin x)) (arg "alpha") (const (fin 4)) (const (fin 1)) true false false false

theorem powerlawVT_normalised (x : ℝ) (h : 1 ≤ x ∧ x ≤ 4) : Spec.normalised (fun t => t ^ (2 : ℝ)) 1 4 x = x ^ 2 / 21 := by
  have hi : ∫ t in (1 : ℝ)..4, t ^ (2 : ℝ) = 21 := by
    rw [integral_rpow_of_ne one_pos (by norm_num) (by norm_num)]
    norm_num
  unfold Spec.normalised
  rw [if_pos h, hi]
  show x ^ (2 : ℝ) / 21 = _
  rw [Real.rpow_two]

theorem powerlawVT_masses {x : ℝ} (hx : x ∈ [(2 : ℝ), 3]) : 1 < x ∧ x < 4 := by
  simp only [List.mem_cons, List.not_mem_nil, or_false] at hx
  rcases hx with rfl | rfl <;> norm_num

theorem powerlawVT_smooth {x : ℝ} (h : 1 < x ∧ x < 4) : Smooth (fun _ => 2) "alpha"
    (powerlawEx (const (fin x)) (arg "alpha") (const (fin 4)) (const (fin 1))) :=
  smooth_powerlaw (smooth_const _ _ x) trivial (smooth_const _ _ 4) (smooth_const _ _ 1) rfl rfl rfl rfl
    (by linarith) (by norm_num) one_pos (by norm_num) (by norm_num) (smooth_mask_const _ _ _ _ _)
    (smooth_mask_const _ _ _ _ _)

theorem powerlawVT_value {x : ℝ} (h : 1 < x ∧ x < 4) : eval (envOf fun _ => 2)
    (powerlawEx (const (fin x)) (arg "alpha") (const (fin 4)) (const (fin 1))) = fin (x ^ 2 / 21) := by
  rw [← powerlawVT_normalised x ⟨h.1.le, h.2.le⟩]
  exact Except.ok.inj ((trace_powerlaw _ _ _ _ _ true false false false).symm.trans
    (C01_powerlaw_value .jax false true false false false one_pos (by norm_num) (one_pos.trans h.1) (.inl rfl)))

theorem powerlawVT_converged : 4 * 1 * efficiencyVariance ([(2 : ℝ), 3].map fun x => x ^ 2 / 21 / (1 / 4)) 3 <
      efficiency ([(2 : ℝ), 3].map fun x => x ^ 2 / 21 / (1 / 4)) 3 ^ 2 ∧
    efficiency ([(2 : ℝ), 3].map fun x => x ^ 2 / 21 / (1 / 4)) 3 ≠ 0 ∧
    efficiencyVariance ([(2 : ℝ), 3].map fun x => x ^ 2 / 21 / (1 / 4)) 3 ≠ 0 := by
  simp only [efficiencyVariance, efficiency, List.map_cons, List.map_nil, List.sum_cons, List.sum_nil]
  norm_num

/-- The efficiency is estimated as 52/63 with variance 1952/11907, which is converged for one event. -/
example (marginalise enforce : Bool) :
    GradientRight (selectionOf (powerlawVT marginalise enforce) fun θ => [("alpha", fin (θ "alpha"))])
      (selectionRec (powerlawVT marginalise enforce) [(2 : ℝ), 3]
        (fun x => powerlawEx (const (fin x)) (arg "alpha") (const (fin 4)) (const (fin 1))) (fun _ => 1 / 4) 3 1)
      (fun _ => 2) "alpha" :=
  C92_selection_partial (powerlawVT_recorded marginalise enforce) (fun _ hx => powerlawVT_smooth (powerlawVT_masses hx))
    (fun _ hx => powerlawVT_value (powerlawVT_masses hx)) (fun _ _ => by norm_num) (by norm_num)
    (fun _ => powerlawVT_converged.1) fun _ => powerlawVT_converged.2

/-- **C92, likelihood with injections.** A likelihood on jax with `ResamplingVT` as selection function, no conversion and
the same hyper-parameters for both: if the densities at all posterior samples and all found injections are computed by
operations that are differentiable where they are used, every event has positive mean weight, and the efficiency is
positive and converged, then jax returns the derivative of the log likelihood. -/
theorem C92_likelihood_injections_partial {ι κ : Type} {self : Likelihood} {V : ResamplingVT}
    {kw : (String → ℝ) → Dict Fl} {events : List (List ι)} {density : ι → Ex} {q : ι → ℝ} {found : List κ}
    {densityV : κ → Ex} {qV : κ → ℝ} {n nEvents : ℝ} (hcls : self.cls = .hyper) (hev : events.length = self.nPosteriors)
    (hconversion : ∀ θ, self.conversion (kw θ) = .ok (kw θ))
    (hprob : ∀ θ, self.hyperPrior.prob self.data (kw θ) =
      .ok (events.map fun e => e.map fun x => eval (envOf θ) (density x)))
    (hprior : self.samplingPrior = some (events.map fun e => e.map fun x => fin (q x)))
    (hsel : self.selection = V.asSelection) (hV : InjectionsRecordedAs V kw found densityV qV n nEvents)
    {θ : String → ℝ} {v : String} {g : ι → ℝ} {gV : κ → ℝ}
    (hd : ∀ e ∈ events, ∀ x ∈ e, Smooth θ v (density x) ∧ eval (envOf θ) (density x) = fin (g x) ∧ q x ≠ 0)
    (hdV : ∀ x ∈ found, Smooth θ v (densityV x) ∧ eval (envOf θ) (densityV x) = fin (gV x) ∧ qV x ≠ 0)
    (hpos : ∀ e ∈ events, 0 < mean (e.map fun x => g x / q x)) (hn : n ≠ 0)
    (hmu : 0 < efficiency (found.map fun x => gV x / qV x) n)
    (hconv : 4 * nEvents * efficiencyVariance (found.map fun x => gV x / qV x) n <
      efficiency (found.map fun x => gV x / qV x) n ^ 2)
    (hmarg : V.marginalizeUncertainty = true → efficiencyVariance (found.map fun x => gV x / qV x) n ≠ 0) :
    GradientRight (lnLikelihoodOf self kw)
      (lnLikelihoodRec events density q (selectionRec V found densityV qV n nEvents)) θ v := by
  have ss : Smooth θ v (selectionRec V found densityV qV n nEvents) :=
    smooth_selection (fun x hx => (hdV x hx).1) (fun x hx => (hdV x hx).2.1) (fun x hx => (hdV x hx).2.2) hn
      (fun _ => hconv) fun hm => ⟨hmu.ne', hmarg hm⟩
  have hrec : RecordedAs self kw events density q (selectionRec V found densityV qV n nEvents) :=
    ⟨hcls, hev, fun θ => ⟨_, hconversion θ, hprob θ, by rw [hsel]; exact selection_calls hV θ⟩, .inl hprior⟩
  obtain ⟨p, hp, hpp⟩ : ∃ p, eval (envOf θ) (selectionRec V found densityV qV n nEvents) = fin p ∧ 0 < p := by
    have em := eval_efficiency (n := n) (fun x hx => (hdV x hx).2.1) (fun x hx => (hdV x hx).2.2) hn
    have ev := eval_variance (n := n) (fun x hx => (hdV x hx).2.1) (fun x hx => (hdV x hx).2.2) hn
    have hc : eval (envOf θ) (correctionEx nEvents (efficiencyEx (foundRec found densityV qV) n)
        (efficiencyVarianceEx (foundRec found densityV qV) n)) = fin 0 := by
      rw [eval_correctionEx hV.events, em, ev]
      unfold ResamplingVT.checkConvergence
      have : (4 * V.nEvents * fin (efficiencyVariance (found.map fun x => gV x / qV x) n) : Fl) <
          fin (efficiency (found.map fun x => gV x / qV x) n) ^ 2 := by
        rw [hV.events]
        simpa using hconv
      simp only [this, decide_true, ind, if_true]
      simp [nanToNumWith]
    unfold selectionRec
    split_ifs with hm
    · obtain ⟨r, hr⟩ : ∃ r, eval (envOf θ) (un .exp (const ((3 + fin nEvents) / 2) /
          (un .square (efficiencyEx (foundRec found densityV qV) n) /
            efficiencyVarianceEx (foundRec found densityV qV) n))) = fin (Real.exp r) := by
        refine ⟨(3 + nEvents) / 2 / (efficiency (found.map fun x => gV x / qV x) n ^ 2 /
          efficiencyVariance (found.map fun x => gV x / qV x) n), ?_⟩
        have e3 : ((3 + fin nEvents) / 2 : Fl) = fin ((3 + nEvents) / 2) := by
          rw [← fin_div two_ne_zero]
          simp
        have e4 : (fin (efficiency (found.map fun x => gV x / qV x) n) : Fl) ^ 2 =
          fin (efficiency (found.map fun x => gV x / qV x) n ^ 2) := by simp
        rw [eval_un, eval_div, eval_div, eval_un, eval_const, em, ev, e3]
        show Fl.exp (_ / (fin _ ^ 2 / _)) = _
        rw [e4, fin_div (hmarg hm), fin_div (div_ne_zero (pow_ne_zero 2 hmu.ne') (hmarg hm))]
        rfl
      refine ⟨efficiency (found.map fun x => gV x / qV x) n / Real.exp r, ?_, div_pos hmu (Real.exp_pos r)⟩
      unfold vtFactorEx
      simp only [eval_add, eval_div, hc, em, hr]
      rw [fin_div (Real.exp_pos r).ne']
      simp
    · refine ⟨_, ?_, hmu⟩
      unfold selectionEx
      split_ifs with he
      · rw [eval_add, em, hc]; simp
      · exact em
  exact C92_likelihood_partial hrec (fun e he x hx => (hd e he x hx).1) ss (fun e he x hx => (hd e he x hx).2.1)
    (fun e he x hx => (hd e he x hx).2.2) hpos hp hpp

/-- One event with posterior samples 2 and 3, flat sampling prior 1/2, and the injections above. -/
def injectionsLikelihood (marginalise enforce : Bool) : Likelihood :=
  { powerlawLikelihood with
    samplingPrior := some [[fin (1 / 2), fin (1 / 2)]]
    selection := (powerlawVT marginalise enforce).asSelection }

example (marginalise enforce : Bool) :
    GradientRight (lnLikelihoodOf (injectionsLikelihood marginalise enforce) fun θ => [("alpha", fin (θ "alpha"))])
      (lnLikelihoodRec [[(2 : ℝ), 3]] (fun x => powerlawEx (const (fin x)) (arg "alpha") (const (fin 4)) (const (fin 1)))
        (fun _ => 1 / 2) (selectionRec (powerlawVT marginalise enforce) [(2 : ℝ), 3]
          (fun x => powerlawEx (const (fin x)) (arg "alpha") (const (fin 4)) (const (fin 1))) (fun _ => 1 / 4) 3 1))
      (fun _ => 2) "alpha" := by
  have hx : ∀ e ∈ [[(2 : ℝ), 3]], ∀ x ∈ e, 1 < x ∧ x < 4 := by
    intro e he x hx
    simp only [List.mem_singleton] at he
    subst he
    exact powerlawVT_masses hx
  refine C92_likelihood_injections_partial (V := powerlawVT marginalise enforce) (g := fun x => x ^ 2 / 21)
    (gV := fun x => x ^ 2 / 21) rfl rfl (fun _ => rfl) (fun θ => ?_) rfl rfl (powerlawVT_recorded marginalise enforce)
    (fun e he x h => ⟨powerlawVT_smooth (hx e he x h), powerlawVT_value (hx e he x h), by norm_num⟩)
    (fun x h => ⟨powerlawVT_smooth (powerlawVT_masses h), powerlawVT_value (powerlawVT_masses h), by norm_num⟩)
    ?_ (by norm_num) ?_ powerlawVT_converged.1 fun _ => powerlawVT_converged.2.2
  · refine mapM_ok (g := fun e => _) fun e _ => ?_
    refine mapM_ok (g := fun e => _) fun x _ => ?_
    exact trace_powerlaw (envOf θ) (const (fin x)) (arg "alpha") (const (fin 4)) (const (fin 1)) true false false false
  · intro e he
    simp only [List.mem_singleton] at he
    subst he
    simp only [mean, List.map_cons, List.map_nil, List.sum_cons, List.sum_nil, List.length_cons, List.length_nil]
    norm_num
  · simp only [efficiency, List.map_cons, List.map_nil, List.sum_cons, List.sum_nil]
    norm_num

end GW
