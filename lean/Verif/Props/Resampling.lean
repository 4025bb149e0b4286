import Verif.Model.VT
import Verif.Props.Redshift
import Mathlib.Algebra.Order.Chebyshev
import Mathlib.Algebra.BigOperators.Group.List.Basic

/-!
# Properties of `ResamplingVT`: C32, C40, C41, C42, C43
-/

noncomputable section

open Classical

namespace GW

open Fl Spec

/-! ## C40: the detection efficiency -/

/-- Importance weights `p_i / q_i`. -/
def Spec.weights (p q : List ℝ) : List ℝ := List.zipWith (· / ·) p q

/-- The arithmetic mean. -/
def Spec.mean (l : List ℝ) : ℝ := l.sum / l.length

/-- The estimated variance of the mean of a sample: `sum (x - mean)^2 / n^2`. -/
def Spec.varianceOfMean (l : List ℝ) : ℝ := (l.map fun x => (x - mean l) ^ 2).sum / l.length ^ 2

/-- The weights of all `N` generated injections: those that were not found have weight 0. -/
def Spec.allWeights (N : ℕ) (w : List ℝ) : List ℝ := w ++ List.replicate (N - w.length) 0

theorem zipWith_div_fin {p q : List ℝ} (hq : ∀ x ∈ q, x ≠ 0) :
    List.zipWith (· / ·) (p.map fin) (q.map fin) = (weights p q).map fin := by
  unfold weights
  induction p generalizing q with
  | nil => simp
  | cons a p ih =>
    cases q with
    | nil => simp
    | cons b q =>
      simp only [List.map_cons, List.zipWith_cons_cons]
      rw [fin_div (hq b (by simp)), ih fun x hx => hq x (by simp [hx])]

theorem map_sq_fin (w : List ℝ) : (w.map fin).map (· ^ 2) = (w.map (· ^ 2)).map fin := by
  rw [List.map_map, List.map_map]
  refine List.map_congr_left fun x _ => ?_
  simp

/-- The value of `detection_efficiency` for finite injections. -/
theorem C40_value {self : ResamplingVT} {parameters : Dict Fl} {p q : List ℝ}
    (hp : self.model.prob self.data parameters = .ok (p.map fin))
    (hq : self.data.get? "prior" = some (.arr (q.map fin))) (hlen : p.length = q.length)
    (hq0 : ∀ x ∈ q, x ≠ 0) {N : ℝ} (hN : self.totalInjections.2 = fin N) (hN0 : N ≠ 0) :
    self.detectionEfficiency parameters = .ok
      (fin ((weights p q).sum / N),
        fin (((weights p q).map (· ^ 2)).sum / N ^ 2 - ((weights p q).sum / N) ^ 2 / N)) := by
  unfold ResamplingVT.detectionEfficiency
  simp only [hp, ok_bind, Dict.get, hq, pure_eq_ok, Arr.divide, List.length_map, hlen,
    if_true, zipWith_div_fin hq0, hN, toNumber, ite_self, id, Arr.sum, sum_fin, map_sq_fin,
    fin_div hN0, fin_npow, pyDiv, zero_eq, eqf_fin]
  rw [if_neg (by rintro ⟨-, h⟩; exact hN0 h), ok_bind, fin_div (pow_ne_zero 2 hN0), fin_sub]

theorem sum_sq_sub (l : List ℝ) (m : ℝ) : (l.map fun x => (x - m) ^ 2).sum =
    (l.map (· ^ 2)).sum - 2 * m * l.sum + l.length * m ^ 2 := by
  induction l with
  | nil => simp
  | cons a l ih =>
    simp only [List.map_cons, List.sum_cons, List.length_cons, ih]
    push_cast
    ring

theorem varianceOfMean_eq {l : List ℝ} (h : l ≠ []) :
    varianceOfMean l = (l.map (· ^ 2)).sum / l.length ^ 2 - mean l ^ 2 / l.length := by
  have hl : (l.length : ℝ) ≠ 0 := by
    rw [Nat.cast_ne_zero]
    exact fun h' => h (List.length_eq_zero_iff.1 h')
  unfold varianceOfMean
  rw [sum_sq_sub]
  unfold mean
  field_simp
  ring

theorem allWeights_length {N : ℕ} {w : List ℝ} (h : w.length ≤ N) : (allWeights N w).length = N := by
  unfold allWeights
  rw [List.length_append, List.length_replicate]
  omega

theorem allWeights_sum (N : ℕ) (w : List ℝ) : (allWeights N w).sum = w.sum := by
  simp [allWeights]

theorem allWeights_sum_sq (N : ℕ) (w : List ℝ) :
    ((allWeights N w).map (· ^ 2)).sum = (w.map (· ^ 2)).sum := by
  simp [allWeights]

/-- **C40.** For every population model, every list of found injections with non-zero prior and
every number `N >= 1` of generated injections that is at least the number found (`N` is
`total_generated` if present and the number found otherwise): the call returns the mean of the `N`
importance weights, injections that were not found counting 0, and the estimated variance of that
mean; in terms of the found weights these are `sum w / N` and `sum w^2 / N^2 - mu^2 / N`. -/
theorem C40_efficiency {backend planck15 model data nEvents marg enf self d}
    (hself : ResamplingVT.init backend planck15 model data nEvents marg enf = .ok (self, d))
    {parameters : Dict Fl} {p q : List ℝ}
    (hp : model.prob data parameters = .ok (p.map fin))
    (hq : data.get? "prior" = some (.arr (q.map fin))) (hlen : p.length = q.length)
    (hq0 : ∀ x ∈ q, x ≠ 0) {N : ℕ} (hN1 : 1 ≤ N) (hN : q.length ≤ N)
    (htot : (data.get? "total_generated" = none ∧ N = q.length) ∨
      ∃ py, data.get? "total_generated" = some (.num py (fin N))) :
    self.detectionEfficiency parameters = .ok
      (fin (mean (allWeights N (weights p q))), fin (varianceOfMean (allWeights N (weights p q)))) ∧
    mean (allWeights N (weights p q)) = (weights p q).sum / N ∧
    varianceOfMean (allWeights N (weights p q)) =
      ((weights p q).map (· ^ 2)).sum / N ^ 2 - ((weights p q).sum / N) ^ 2 / N := by
  have hw : (weights p q).length = q.length := by
    unfold weights; rw [List.length_zipWith, hlen, min_self]
  have hne : allWeights N (weights p q) ≠ [] := by
    intro h
    have := allWeights_length (N := N) (w := weights p q) (by omega)
    rw [h] at this
    simp at this
    omega
  have hm : mean (allWeights N (weights p q)) = (weights p q).sum / N := by
    unfold mean
    rw [allWeights_sum, allWeights_length (by omega)]
  have hv : varianceOfMean (allWeights N (weights p q)) =
      ((weights p q).map (· ^ 2)).sum / N ^ 2 - ((weights p q).sum / N) ^ 2 / N := by
    rw [varianceOfMean_eq hne, allWeights_sum_sq, allWeights_length (by omega), hm]
  refine ⟨?_, hm, hv⟩
  rw [hm, hv]
  have hinit : self.model = model ∧ self.data = data ∧ self.totalInjections.2 = fin N := by
    unfold ResamplingVT.init at hself
    simp only [Dict.get, hq, ok_bind, Value.len, List.length_map] at hself
    obtain ⟨t, ht, hself⟩ := bind_eq_ok.1 hself
    obtain ⟨a, ha, hself⟩ := bind_eq_ok.1 hself
    rw [pure_eq_ok] at hself
    have := Except.ok.inj hself
    rw [Prod.mk.injEq] at this
    rw [← this.1]
    refine ⟨rfl, rfl, ?_⟩
    rcases htot with ⟨h1, h2⟩ | ⟨py, h1⟩
    · simp only [getNumber, h1] at ht
      rw [← Except.ok.inj ht, h2, natCast_eq]
    · simp only [getNumber, h1] at ht
      rw [← Except.ok.inj ht]
  obtain ⟨h1, h2, h3⟩ := hinit
  refine C40_value (by rw [h1, h2]; exact hp) (by rw [h2]; exact hq) hlen hq0 h3 ?_
  rw [Nat.cast_ne_zero]; omega

theorem sum_sq_eq_zero {l : List ℝ} {f : ℝ → ℝ} (h : (l.map fun x => f x ^ 2).sum = 0) :
    ∀ x ∈ l, f x = 0 := by
  induction l with
  | nil => simp
  | cons a l ih =>
    rw [List.map_cons, List.sum_cons] at h
    have h1 : 0 ≤ (l.map fun x => f x ^ 2).sum := List.sum_nonneg (by
      intro y hy
      obtain ⟨x, -, rfl⟩ := List.mem_map.1 hy
      positivity)
    have h2 : f a ^ 2 = 0 := le_antisymm (by linarith) (by positivity)
    intro x hx
    rcases List.mem_cons.1 hx with rfl | hx
    · exact pow_eq_zero_iff (two_ne_zero) |>.1 h2
    · exact ih (by linarith) x hx

/-- **C40.** The variance is non-negative; it is zero exactly when all `N` weights (injections not
found counting 0) are equal. -/
theorem C40_variance_nonneg (l : List ℝ) : 0 ≤ varianceOfMean l ∧
    (varianceOfMean l = 0 ↔ ∀ x ∈ l, ∀ y ∈ l, x = y) := by
  constructor
  · unfold varianceOfMean
    refine div_nonneg (List.sum_nonneg ?_) (by positivity)
    intro y hy
    obtain ⟨x, -, rfl⟩ := List.mem_map.1 hy
    positivity
  · rcases l.eq_nil_or_concat with rfl | ⟨l', a, hl⟩
    · simp [varianceOfMean]
    have hl0 : (l.length : ℝ) ≠ 0 := by
      rw [hl]; simp; positivity
    constructor
    · intro h
      unfold varianceOfMean at h
      rw [div_eq_zero_iff] at h
      have h' := h.resolve_right (pow_ne_zero 2 hl0)
      have := sum_sq_eq_zero (f := fun x => x - mean l) h'
      intro x hx y hy
      have h1 := this x hx
      have h2 := this y hy
      linarith
    · intro h
      have hconst : ∀ x ∈ l, x = a := fun x hx => h x hx a (by rw [hl]; simp)
      have hrep : l = List.replicate l.length a := List.eq_replicate_iff.2 ⟨rfl, hconst⟩
      have hmean : mean l = a := by
        unfold mean
        have : l.sum = l.length * a := by
          conv_lhs => rw [hrep]
          rw [List.sum_replicate, nsmul_eq_mul]
        rw [this]
        field_simp
      unfold varianceOfMean
      rw [hmean, div_eq_zero_iff]
      left
      rw [List.sum_eq_zero]
      intro y hy
      obtain ⟨x, hx, rfl⟩ := List.mem_map.1 hy
      rw [hconst x hx]
      simp

theorem divide_zip {p q : List Fl} (h : p.length = q.length) :
    Arr.divide p q = .ok ((p.zip q).map fun x => x.1 / x.2) := by
  unfold Arr.divide
  rw [if_pos h]
  congr 1
  rw [List.zip_eq_zipWith, List.map_zipWith]

theorem detectionEfficiency_congr {s s' : ResamplingVT} {parameters parameters' : Dict Fl}
    {p q p' q' : List Fl}
    (hp : s.model.prob s.data parameters = .ok p)
    (hq : s.data.get? "prior" = some (.arr q)) (hlen : p.length = q.length)
    (hp' : s'.model.prob s'.data parameters' = .ok p')
    (hq' : s'.data.get? "prior" = some (.arr q')) (hlen' : p'.length = q'.length)
    (hN : s.totalInjections = s'.totalInjections) (hb : s.backend = s'.backend)
    (h1 : ((p.zip q).map fun x => x.1 / x.2).sum = ((p'.zip q').map fun x => x.1 / x.2).sum)
    (h2 : (((p.zip q).map fun x => x.1 / x.2).map (· ^ 2)).sum =
      (((p'.zip q').map fun x => x.1 / x.2).map (· ^ 2)).sum) :
    s.detectionEfficiency parameters = s'.detectionEfficiency parameters' := by
  unfold ResamplingVT.detectionEfficiency
  simp only [hp, hp', ok_bind, Dict.get, hq, hq', pure_eq_ok, divide_zip hlen, divide_zip hlen', hN,
    hb, Arr.sum, h1, h2]

/-- **C40.** Reordering the injections (values and priors together) changes nothing, whatever the
floats are (infinities and NaN included). -/
theorem C40_reorder {s s' : ResamplingVT} {parameters parameters' : Dict Fl}
    {p q p' q' : List Fl}
    (hp : s.model.prob s.data parameters = .ok p)
    (hq : s.data.get? "prior" = some (.arr q)) (hlen : p.length = q.length)
    (hp' : s'.model.prob s'.data parameters' = .ok p')
    (hq' : s'.data.get? "prior" = some (.arr q')) (hlen' : p'.length = q'.length)
    (hN : s.totalInjections = s'.totalInjections) (hb : s.backend = s'.backend)
    (hperm : (p.zip q).Perm (p'.zip q')) :
    s.detectionEfficiency parameters = s'.detectionEfficiency parameters' :=
  detectionEfficiency_congr hp hq hlen hp' hq' hlen' hN hb (hperm.map _).sum_eq
    ((hperm.map _).map _).sum_eq

/-- **C40.** Appending found injections for which the model vanishes (weight zero), without changing
the number generated, changes nothing, whatever the other floats are. -/
theorem C40_zero_weight {s s' : ResamplingVT} {parameters parameters' : Dict Fl}
    {p q : List Fl} {z : List ℝ} (hz : ∀ x ∈ z, x ≠ 0)
    (hp : s.model.prob s.data parameters = .ok p)
    (hq : s.data.get? "prior" = some (.arr q)) (hlen : p.length = q.length)
    (hp' : s'.model.prob s'.data parameters' = .ok (p ++ z.map fun _ => 0))
    (hq' : s'.data.get? "prior" = some (.arr (q ++ z.map fin)))
    (hN : s.totalInjections = s'.totalInjections) (hb : s.backend = s'.backend) :
    s.detectionEfficiency parameters = s'.detectionEfficiency parameters' := by
  have hzip : ((z.map fun _ => (0 : Fl)).zip (z.map fin)).map (fun x => x.1 / x.2) =
      List.replicate z.length 0 := by
    rw [List.eq_replicate_iff]
    constructor
    · simp
    · intro y hy
      obtain ⟨⟨a, b⟩, hx, rfl⟩ := List.mem_map.1 hy
      rw [List.zip_map', List.mem_map] at hx
      obtain ⟨c, hc, he⟩ := hx
      rw [Prod.mk.injEq] at he
      rw [← he.1, ← he.2, zero_eq, fin_div (hz c hc), zero_div]
  refine detectionEfficiency_congr hp hq hlen hp' hq' (by simp [hlen]) hN hb ?_ ?_
  · rw [List.zip_append hlen, List.map_append, List.sum_append, hzip, List.sum_replicate, nsmul_zero,
      add_zero]
  · rw [List.zip_append hlen, List.map_append, List.map_append, List.sum_append, hzip,
      List.map_replicate, List.sum_replicate, show ((0 : Fl) ^ 2) = 0 by simp, nsmul_zero, add_zero]

/-- **C40.** If the population model is multiplied by `c` the efficiency is multiplied by `c` and its
variance by `c^2`. -/
theorem C40_scale {s s' : ResamplingVT} {parameters parameters' : Dict Fl} {p q : List ℝ} (c : ℝ)
    (hp : s.model.prob s.data parameters = .ok (p.map fin))
    (hq : s.data.get? "prior" = some (.arr (q.map fin))) (hlen : p.length = q.length)
    (hq0 : ∀ x ∈ q, x ≠ 0) (hp' : s'.model.prob s'.data parameters' = .ok ((p.map (c * ·)).map fin))
    (hq' : s'.data.get? "prior" = some (.arr (q.map fin)))
    {N : ℝ} (hN : s.totalInjections.2 = fin N) (hN' : s'.totalInjections.2 = fin N) (hN0 : N ≠ 0) :
    ∃ mu var, s.detectionEfficiency parameters = .ok (fin mu, fin var) ∧
      s'.detectionEfficiency parameters' = .ok (fin (c * mu), fin (c ^ 2 * var)) := by
  refine ⟨_, _, C40_value hp hq hlen hq0 hN hN0, ?_⟩
  rw [C40_value hp' hq' (by simp [hlen]) hq0 hN' hN0]
  have hw : weights (p.map (c * ·)) q = (weights p q).map (c * ·) := by
    unfold weights
    rw [List.zipWith_map_left, List.map_zipWith]
    congr 1
    funext a b
    ring
  have h1 : ((weights p q).map (c * ·)).sum = c * (weights p q).sum := by
    rw [List.sum_map_mul_left]; simp
  have h2 : (((weights p q).map (c * ·)).map (· ^ 2)).sum = c ^ 2 * ((weights p q).map (· ^ 2)).sum := by
    rw [List.map_map, ← List.sum_map_mul_left]
    congr 1
    refine List.map_congr_left fun x _ => ?_
    simp only [Function.comp]; ring
  rw [hw, h1, h2]
  congr 3 <;> ring

/-- Non-vacuity of C40: three found injections out of ten. -/
example : ∃ self d, ResamplingVT.init .numpy toyCosmology
      ⟨[.other], fun _ _ => .ok ([1, 2, 3].map fin)⟩
      [("prior", .arr ([1, 1, 2].map fin)), ("total_generated", .num true (fin (10 : ℕ)))] (fin 5) =
        .ok (self, d) ∧
    self.detectionEfficiency [] = .ok
      (fin (mean (allWeights 10 (weights [1, 2, 3] [1, 1, 2]))),
        fin (varianceOfMean (allWeights 10 (weights [1, 2, 3] [1, 1, 2])))) ∧
    0 < varianceOfMean (allWeights 10 (weights [1, 2, 3] [1, 1, 2])) := by
  refine ⟨_, _, rfl, (C40_efficiency (backend := .numpy) (planck15 := toyCosmology)
    (model := ⟨[.other], fun _ _ => .ok ([1, 2, 3].map fin)⟩)
    (data := [("prior", .arr ([1, 1, 2].map fin)), ("total_generated", .num true (fin (10 : ℕ)))])
    (nEvents := fin 5) (marg := false) (enf := true)
    (p := [1, 2, 3]) (q := [1, 1, 2]) (N := 10) rfl rfl
    (by simp [Dict.get?_cons]) rfl (by simp) (by norm_num) (by simp)
    (Or.inr ⟨true, by simp [Dict.get?_cons]⟩)).1, ?_⟩
  refine lt_of_le_of_ne (C40_variance_nonneg _).1 fun h => ?_
  have := (C40_variance_nonneg _).2.1 h.symm 1 (by simp [allWeights, weights]) 2
    (by simp [allWeights, weights])
  norm_num at this

/-! ## C41: convergence -/

/-- The correction is 0 if converged and `+inf` otherwise, for all floats. -/
theorem checkConvergence_eq (self : ResamplingVT) (mu var : Fl) :
    (self.checkConvergence mu var).2 = if 4 * self.nEvents * var < mu ^ 2 then fin 0 else pinf := by
  unfold ResamplingVT.checkConvergence
  simp only [decide_eq_true_eq]
  by_cases h : 4 * self.nEvents * var < mu ^ 2
  · rw [ind_true h, if_pos h]; simp [nanToNumWith]
  · rw [ind_false h, if_neg h]; simp [nanToNumWith]

/-- **C41, the full statement**: with `enforce_convergence` the efficiency is returned unchanged if
`mu^2 > 4 n_events var` and `+inf` is returned otherwise, also if anything is NaN; the variance
is returned unchanged. -/
def C41_statement : Prop :=
  ∀ (self : ResamplingVT) (parameters : Dict Fl) (mu var : Fl),
    self.marginalizeUncertainty = false → self.enforceConvergence = true →
    self.detectionEfficiency parameters = .ok (mu, var) →
    self.call parameters =
      .ok (if 4 * self.nEvents * var < mu ^ 2 then mu else pinf, some var)

/-- An instance with given efficiency, for the counterexamples. -/
def toyResampling (backend : Backend) (p : List Fl) (nEvents : Fl) (marg : Bool) : ResamplingVT where
  backend := backend
  model := ⟨[], fun _ _ => .ok p⟩
  data := [("prior", .arr (p.map fun _ => fin 1))]
  nEvents := nEvents
  totalInjections := (true, fin p.length)
  analysisTime := 1
  redshiftModel := none
  marginalizeUncertainty := marg
  enforceConvergence := true
  surveyedHypervolumeAttr := some 0

/-- **C41 fails** for a NaN efficiency: NaN is returned, not `+inf`. -/
theorem C41_fails : ¬ C41_statement := by
  intro h
  have := h (toyResampling .numpy [nan] 1 false) [] nan nan rfl rfl (by
    simp [ResamplingVT.detectionEfficiency, toyResampling, Dict.get, Dict.get?_cons, Arr.divide,
      ok_bind, pure_eq_ok, toNumber, Arr.sum, pyDiv, npow_two])
  unfold ResamplingVT.call at this
  simp [ResamplingVT.detectionEfficiency, toyResampling, Dict.get, Dict.get?_cons, Arr.divide,
      ok_bind, pure_eq_ok, toNumber, Arr.sum, pyDiv, npow_two] at this

/-- **C41 (partial).** For all instances, parameters, efficiencies, variances and `n_events`,
infinities and NaN included. Without `enforce_convergence` the pair is returned unchanged. With it, the
variance is returned unchanged; a converged efficiency (`mu^2 > 4 n_events var`) is returned
unchanged; an unconverged one is replaced by `+inf`, except NaN and `-inf`, which give NaN. In the
full statement they should also give `+inf`. -/
theorem C41_partial (self : ResamplingVT) (parameters : Dict Fl) (mu var : Fl)
    (hm : self.marginalizeUncertainty = false)
    (h : self.detectionEfficiency parameters = .ok (mu, var)) :
    (self.enforceConvergence = false → self.call parameters = .ok (mu, some var)) ∧
    (self.enforceConvergence = true → 4 * self.nEvents * var < mu ^ 2 →
      self.call parameters = .ok (mu, some var)) ∧
    (self.enforceConvergence = true → ¬ 4 * self.nEvents * var < mu ^ 2 →
      ((mu = nan ∨ mu = ninf) → self.call parameters = .ok (nan, some var)) ∧
      (¬ (mu = nan ∨ mu = ninf) → self.call parameters = .ok (pinf, some var))) := by
  unfold ResamplingVT.call
  simp only [hm, h, Bool.not_false, if_true, ok_bind, pure_eq_ok, checkConvergence_eq]
  refine ⟨fun he => by simp [he], fun he hc => ?_, fun he hc => ⟨fun hn => ?_, fun hn => ?_⟩⟩
  · rw [if_pos he, if_pos hc]
    congr 2
    exact add_zero mu
  · rw [if_pos he, if_neg hc]
    rcases hn with rfl | rfl <;> simp
  · rw [if_pos he, if_neg hc]
    cases mu <;> simp_all

/-- Any error of the population model is passed on. -/
theorem C41_error (self : ResamplingVT) (parameters : Dict Fl) (e : PyErr)
    (h : self.detectionEfficiency parameters = .error e) : self.call parameters = .error e := by
  unfold ResamplingVT.call ResamplingVT.vtFactor
  simp only [h, error_bind]
  split <;> rfl

/-- Non-vacuity of C41: ten equal weights, five events, converged. -/
example : (toyResampling .numpy (List.replicate 10 (fin 1)) 5 false).call [] =
    .ok (fin 1, some (fin 0)) := by
  refine (C41_partial _ _ _ _ rfl ?_).2.1 rfl ?_
  · refine (C40_value (p := List.replicate 10 1) (q := List.replicate 10 1) (N := 10) ?_ ?_ ?_ ?_ ?_
      ?_).trans ?_
    · simp [toyResampling]
    · simp [toyResampling, Dict.get?_cons]
    · simp
    · simp
    · simp [toyResampling]
    · norm_num
    · simp [weights]; norm_num
  · simp [toyResampling]

/-! ## C42: the default number of events -/

/-- **C42, the full statement**: there is a sampling quality `K` such that a selection function built
with the default `n_events` from positive injections returns a finite efficiency whenever the
effective number of samples `mean^2 / variance` exceeds `K`. -/
def C42_statement : Prop :=
  ∃ K : ℝ, ∀ (planck15 : Cosmology) (model : PopModel (Dict Value) (List Fl))
    (data : Dict Value) (self : ResamplingVT) (d : Dict Value) (parameters : Dict Fl) (p q : List ℝ),
    ResamplingVT.init .numpy planck15 model data = .ok (self, d) →
    model.prob data parameters = .ok (p.map fin) → data.get? "prior" = some (.arr (q.map fin)) →
    data.get? "total_generated" = none → p.length = q.length → q ≠ [] → (∀ x ∈ p, 0 < x) →
    (∀ x ∈ q, 0 < x) → K * varianceOfMean (weights p q) < mean (weights p q) ^ 2 →
    ∃ mu var : ℝ, self.call parameters = .ok (fin mu, some (fin var))

theorem init_fields {backend planck15 model data nEvents marg enf self d}
    (h : ResamplingVT.init backend planck15 model data nEvents marg enf = .ok (self, d)) :
    self.backend = backend ∧ self.model = model ∧ self.data = data ∧ self.nEvents = nEvents ∧
    self.marginalizeUncertainty = marg ∧ self.enforceConvergence = enf ∧
    self.redshiftModel = lastRedshift model.models ∧
    (lastRedshift model.models = none →
      self.surveyedHypervolumeAttr = some (totalFourVolume planck15 0 self.analysisTime)) ∧
    d = data := by
  unfold ResamplingVT.init at h
  obtain ⟨pr, -, h⟩ := bind_eq_ok.1 h
  obtain ⟨n, -, h⟩ := bind_eq_ok.1 h
  obtain ⟨t, -, h⟩ := bind_eq_ok.1 h
  obtain ⟨a, -, h⟩ := bind_eq_ok.1 h
  rw [pure_eq_ok] at h
  have := Except.ok.inj h
  rw [Prod.mk.injEq] at this
  obtain ⟨h1, h2⟩ := this
  rw [← h1]
  refine ⟨rfl, rfl, rfl, rfl, rfl, rfl, rfl, fun hn => ?_, h2.symm⟩
  simp only [hn]

/-- **C42 (partial: what the code does instead).** With the default `n_events`, whatever the
injections and the population are, as long as at least as many injections were generated as found: the
returned efficiency is `+inf`, so no population is ever accepted. -/
theorem C42_default_partial {backend planck15 model data self d}
    (hself : ResamplingVT.init backend planck15 model data = .ok (self, d))
    {parameters : Dict Fl} {p q : List ℝ}
    (hp : model.prob data parameters = .ok (p.map fin))
    (hq : data.get? "prior" = some (.arr (q.map fin))) (hlen : p.length = q.length)
    (hq0 : ∀ x ∈ q, x ≠ 0) {N : ℕ} (hN1 : 1 ≤ N) (hN : q.length ≤ N)
    (htot : (data.get? "total_generated" = none ∧ N = q.length) ∨
      ∃ py, data.get? "total_generated" = some (.num py (fin N))) :
    ∃ var, self.call parameters = .ok (pinf, some (fin var)) := by
  have h := (C40_efficiency hself hp hq hlen hq0 hN1 hN htot).1
  obtain ⟨-, -, -, hn, hm, he, -⟩ := init_fields hself
  refine ⟨_, ((C41_partial self parameters _ _ hm h).2.2 he ?_).2 (by simp)⟩
  rw [hn]
  rcases (C40_variance_nonneg (allWeights N (weights p q))).1.eq_or_lt with h0 | h0
  · rw [← h0]; simp [signInf_pos]
  · simp [signInf_pos h0, signInf_pos]

/-- **C42 fails.** -/
theorem C42_fails : ¬ C42_statement := by
  rintro ⟨K, h⟩
  obtain ⟨mu, var, hc⟩ := h toyCosmology ⟨[], fun _ _ => .ok [fin 1]⟩ [("prior", .arr [fin 1])] _ _ []
    [1] [1] rfl rfl (by simp [Dict.get?_cons]) (by simp [Dict.get?_cons]) rfl (by simp) (by simp)
    (by simp) (by simp [weights, mean, varianceOfMean])
  obtain ⟨v, hv⟩ := C42_default_partial (backend := .numpy) (planck15 := toyCosmology)
    (model := ⟨[], fun _ _ => .ok [fin 1]⟩) (data := [("prior", .arr [fin 1])]) rfl (parameters := [])
    (p := [1]) (q := [1]) rfl (by simp [Dict.get?_cons]) rfl (by simp) (N := 1) le_rfl le_rfl
    (Or.inl ⟨by simp [Dict.get?_cons], rfl⟩)
  rw [hv] at hc
  simp at hc

/-! ## C43: the uncertainty-marginalised factor -/

/-- **C43, the full statement**: for positive injections and `n_events >= 0` the call with
`marginalize_uncertainty` does not raise; it returns `mu exp(-(3 + n) / (2 n_eff))` with
`n_eff = mu^2 / var` if converged and `+inf` otherwise. -/
def C43_statement : Prop :=
  ∀ (self : ResamplingVT) (parameters : Dict Fl) (mu var n : ℝ),
    self.marginalizeUncertainty = true → self.nEvents = fin n → 0 ≤ n → 0 < mu → 0 ≤ var →
    self.detectionEfficiency parameters = .ok (fin mu, fin var) →
    self.call parameters = .ok
      (if 4 * n * var < mu ^ 2 then fin (mu * Real.exp (-((3 + n) / 2 * (var / mu ^ 2)))) else pinf,
        none)

/-- The efficiency of ten unit weights. -/
theorem toyResampling_efficiency (b : Backend) (n : Fl) (marg : Bool) :
    (toyResampling b (List.replicate 10 (fin 1)) n marg).detectionEfficiency [] =
      .ok (fin 1, fin 0) := by
  refine (C40_value (p := List.replicate 10 1) (q := List.replicate 10 1) (N := 10) ?_ ?_ ?_ ?_ ?_
      ?_).trans ?_
  · simp [toyResampling]
  · simp [toyResampling, Dict.get?_cons]
  · simp
  · simp
  · simp [toyResampling]
  · norm_num
  · simp [weights]; norm_num

/-- **C43 fails**: if all weights are equal the variance is 0 and the call raises
`ZeroDivisionError` (numpy and cupy). -/
theorem C43_fails : ¬ C43_statement := by
  intro h
  have he := toyResampling_efficiency .numpy (fin 5) true
  have := h _ [] 1 0 5 rfl rfl (by norm_num) (by norm_num) le_rfl he
  unfold ResamplingVT.call ResamplingVT.vtFactor at this
  rw [he] at this
  simp [toyResampling, ok_bind, pyDiv, error_bind] at this

/-- **C43 (partial).** For every instance with `marginalize_uncertainty`, every `n_events >= 0`
and every estimate with `mu > 0`, `var > 0` (on jax also `var = 0`): if converged the call returns
`mu exp(-(3 + n) / (2 n_eff))`, a positive number not above `mu`, and otherwise `+inf`. Missing: `var = 0`
on numpy and cupy, where the call raises. -/
theorem C43_factor_partial {self : ResamplingVT} {parameters : Dict Fl} {mu var n : ℝ}
    (hm : self.marginalizeUncertainty = true) (hn : self.nEvents = fin n) (hn0 : 0 ≤ n)
    (hmu : 0 < mu) (hv : 0 < var ∨ (var = 0 ∧ self.backend = .jax))
    (h : self.detectionEfficiency parameters = .ok (fin mu, fin var)) :
    self.call parameters = .ok
      (if 4 * n * var < mu ^ 2 then fin (mu * Real.exp (-((3 + n) / 2 * (var / mu ^ 2)))) else pinf,
        none) ∧
    0 < mu * Real.exp (-((3 + n) / 2 * (var / mu ^ 2))) ∧
    mu * Real.exp (-((3 + n) / 2 * (var / mu ^ 2))) ≤ mu := by
  have hv0 : 0 ≤ var := by rcases hv with h | h; exact h.le; exact h.1.ge
  refine ⟨?_, by positivity, ?_⟩
  · have key : ∀ x : ℝ, (fin x + if 4 * fin n * fin var < fin mu ^ 2 then fin 0 else pinf) =
        if 4 * n * var < mu ^ 2 then fin x else pinf := by
      intro x
      by_cases hc : 4 * n * var < mu ^ 2
      · rw [if_pos hc, if_pos (by simpa using hc)]; simp
      · rw [if_neg hc, if_neg (by simpa using hc)]; simp
    unfold ResamplingVT.call ResamplingVT.vtFactor
    simp only [hm, h, Bool.not_true, Bool.false_eq_true, if_false, ok_bind, pure_eq_ok,
      checkConvergence_eq, hn, pyDiv]
    rcases hv with hv | ⟨rfl, hb⟩
    · have hne : mu ^ 2 / var ≠ 0 := by positivity
      rw [if_neg (by simp [hv.ne']), ok_bind, fin_npow, fin_div hv.ne', if_neg (by simp [hv.ne', hmu.ne']),
        ok_bind, ← fin_npow, show (3 : Fl) = fin 3 from rfl, show (2 : Fl) = fin 2 from rfl, fin_add,
        fin_div (by norm_num), fin_div hne, exp_fin, fin_div (Real.exp_pos _).ne']
      rw [key, ok_bind]
      congr 4
      rw [Real.exp_neg, div_eq_mul_inv]
      congr 3
      field_simp
    · rw [if_neg (by simp [hb]), ok_bind, if_neg (by simp [hb]), ok_bind, fin_npow, fin_div_zero,
        signInf_pos (by positivity), ← fin_npow, show (3 : Fl) = fin 3 from rfl,
        show (2 : Fl) = fin 2 from rfl, fin_add, fin_div (by norm_num), fin_div_pinf, exp_fin,
        Real.exp_zero, fin_div one_ne_zero]
      rw [key, ok_bind]
      simp
  · refine mul_le_of_le_one_right hmu.le ?_
    rw [Real.exp_le_one_iff]
    have : 0 ≤ (3 + n) / 2 * (var / mu ^ 2) := by positivity
    linarith

/-- **C43, what is missing**: a variance of exactly 0 raises `ZeroDivisionError` on numpy and
cupy. -/
theorem C43_zero_variance {self : ResamplingVT} {parameters : Dict Fl} {mu : Fl}
    (hm : self.marginalizeUncertainty = true) (hb : self.backend ≠ .jax)
    (h : self.detectionEfficiency parameters = .ok (mu, fin 0)) :
    self.call parameters = .error .zeroDivision := by
  unfold ResamplingVT.call ResamplingVT.vtFactor
  simp only [hm, h, Bool.not_true, Bool.false_eq_true, if_false, ok_bind, pyDiv]
  rw [if_pos (by simp [hb])]
  rfl

/-- Non-vacuity of C43: two different weights. -/
example : ∃ mu var : ℝ, 0 < mu ∧ 0 < var ∧
    (toyResampling .numpy ([1, 2].map fin) (fin 1) true).detectionEfficiency [] =
      .ok (fin mu, fin var) := by
  refine ⟨_, _, ?_, ?_, C40_value (p := [1, 2]) (q := [1, 1]) (N := 2) rfl (by
    simp [toyResampling, Dict.get?_cons]) rfl (by simp) (by simp [toyResampling]) (by norm_num)⟩
  · norm_num [weights]
  · norm_num [weights]

/-! ## C32: the surveyed volume -/

/-- **C32.** The four-volume is exactly linear in the analysis time, whatever the cosmology, the
slope, the redshift limit and the times are (infinities and NaN included). -/
theorem C32_linear_time (planck15 : Cosmology) (lamb a t : Fl) (zMax : ℝ) :
    totalFourVolume planck15 lamb (a * t) zMax = a * totalFourVolume planck15 lamb t zMax := by
  unfold totalFourVolume
  simp only
  generalize Arr.trapz _ _ = T
  generalize 4 * fin Real.pi / fin 1e9 = c
  rw [mul_left_comm c a t, mul_left_comm T a]

/-- The four-volume is the trapezoid rule on 2500 equidistant redshifts from 0 for the
rate-weighted volume element with `psi = (1 + z)^lamb`, in Gpc^3, times the analysis time. -/
theorem C32_total_four_volume {planck15 : Cosmology} {v : ℝ → ℝ} {zMax l t : ℝ} (hz : 0 ≤ zMax)
    (hv : ∀ z, 0 ≤ z → planck15.diffComovingVolume (fin z) = fin (v z)) :
    totalFourVolume planck15 (fin l) (fin t) zMax = fin (t / 1e9 *
      trapezoidRule 2499 (fun i => volumeElement (fun z => (1 + z) ^ l) v (zMax * i / 2499))
        (fun i => zMax * i / 2499)) := by
  have h1 : ((Arr.linspaceR 0 zMax 2500).map fun z =>
      planck15.diffComovingVolume (fin z) / (1 + fin z) * Fl.pow (1 + fin z) (fin l)) =
      ((Arr.linspaceR 0 zMax 2500).map fun z =>
        volumeElement (fun z => (1 + z) ^ l) v z / (4 * Real.pi)).map fin := by
    rw [List.map_map]
    refine List.map_congr_left fun z hzm => ?_
    have hz0 : 0 ≤ z := by
      unfold Arr.linspaceR at hzm
      obtain ⟨i, hi, rfl⟩ := List.mem_map.1 hzm
      have : (((2500 : ℕ) : ℝ) - 1) = 2499 := by norm_num
      rw [this, sub_zero, zero_add]
      positivity
    have hz1 : 0 < 1 + z := by linarith
    rw [hv z hz0, one_eq, fin_add, pow_fin_pos hz1, fin_div hz1.ne', fin_mul]
    simp only [Function.comp, volumeElement, fin_inj]
    field_simp
  unfold totalFourVolume
  simp only
  rw [h1, Arr.trapz_fin, trapzR_linspace _ _ _ (by norm_num), ofNat_eq, fin_mul,
    fin_div (by norm_num), fin_mul, fin_mul, fin_inj]
  have h2 : (((2500 : ℕ) : ℝ) - 1) = 2499 := by norm_num
  rw [show 2500 - 1 = 2499 from rfl]
  simp only [h2, sub_zero, zero_add]
  have h3 : ∀ (y x : ℕ → ℝ) (c : ℝ), trapezoidRule 2499 (fun i => y i / c) x =
      trapezoidRule 2499 y x / c := by
    intro y x c
    unfold trapezoidRule
    rw [Finset.sum_div]
    refine Finset.sum_congr rfl fun i _ => ?_
    ring
  rw [h3 (fun i => volumeElement (fun z => (1 + z) ^ l) v (zMax * i / 2499))]
  have hpi := Real.pi_pos
  field_simp

/-- The instance's redshift model is the last one in the list of component models. -/
theorem lastRedshift_eq (models : List Component) :
    (lastRedshift models = none ↔ ∀ r, Component.redshift r ∉ models) ∧
    ∀ r, lastRedshift models = some r ↔
      ∃ before after, models = before ++ Component.redshift r :: after ∧
        ∀ r', Component.redshift r' ∉ after := by
  unfold lastRedshift
  induction models using List.reverseRecOn with
  | nil => simp
  | append_singleton l m ih =>
    rw [List.foldl_append]
    simp only [List.foldl_cons, List.foldl_nil]
    cases m with
    | other =>
      constructor
      · rw [ih.1]; simp
      · intro r
        simp only
        rw [ih.2]
        constructor
        · rintro ⟨b, a, h, h'⟩
          refine ⟨b, a ++ [.other], by rw [h]; simp, ?_⟩
          intro r' hr'
          rcases List.mem_append.1 hr' with h1 | h1
          · exact h' r' h1
          · simp at h1
        · rintro ⟨b, a, h, h'⟩
          rcases a.eq_nil_or_concat with rfl | ⟨a', x, rfl⟩
          · have := congrArg List.getLast? h
            simp at this
          · rw [List.concat_eq_append, ← List.cons_append, ← List.append_assoc] at h
            have h1 := List.append_inj_left' h rfl
            refine ⟨b, a', h1, fun r' hr' => h' r' (by simp [hr'])⟩
    | redshift r0 =>
      constructor
      · simp only [reduceCtorEq, false_iff]
        intro h
        exact h r0 (by simp)
      · intro r
        simp only [Option.some.injEq]
        constructor
        · rintro rfl
          exact ⟨l, [], rfl, by simp⟩
        · rintro ⟨b, a, h, h'⟩
          rcases a.eq_nil_or_concat with rfl | ⟨a', x, rfl⟩
          · have := congrArg List.getLast? h
            simpa using this
          · rw [List.concat_eq_append, ← List.cons_append, ← List.append_assoc] at h
            have h1 := List.append_inj_right' h rfl
            exact absurd (by rw [List.cons.injEq] at h1; rw [h1.1]; simp) (h' r0)

/-- **C32.** For every selection function made by the constructor. If no component of the model is a
redshift model, the surveyed hypervolume is the four-volume with `lamb = 0` for the analysis
time, whatever the parameters are. If the last redshift model among the components is `r`, it is the
normalisation of `r` divided by 1e9 times the analysis time. -/
theorem C32_hypervolume {backend planck15 model data nEvents marg enf self d}
    (hself : ResamplingVT.init backend planck15 model data nEvents marg enf = .ok (self, d))
    (parameters : Dict Fl) :
    ((∀ r, Component.redshift r ∉ model.models) → self.surveyedHypervolume parameters =
      .ok (totalFourVolume planck15 0 self.analysisTime)) ∧
    (∀ r before after, model.models = before ++ Component.redshift r :: after →
      (∀ r', Component.redshift r' ∉ after) →
      (∀ N, r.normalisation parameters = .ok N →
        self.surveyedHypervolume parameters = .ok (N / fin 1e9 * self.analysisTime)) ∧
      (∀ e, r.normalisation parameters = .error e →
        self.surveyedHypervolume parameters = .error e)) := by
  obtain ⟨-, -, -, -, -, -, hr, hh, -⟩ := init_fields hself
  constructor
  · intro h
    have h0 := (lastRedshift_eq model.models).1.2 h
    unfold ResamplingVT.surveyedHypervolume
    simp only [hr, h0, hh h0]
  · intro r b a h1 h2
    have h0 := ((lastRedshift_eq model.models).2 r).2 ⟨b, a, h1, h2⟩
    unfold ResamplingVT.surveyedHypervolume
    simp only [hr, h0]
    exact ⟨fun N hN => by rw [hN]; rfl, fun e he => by rw [he]; rfl⟩

/-- **C32, consistency.** Both branches integrate the same function: with a power-law redshift
model of the Planck15 cosmology, `z_max` and slope `l`, the surveyed hypervolume is the analysis
time over 1e9 times the trapezoid rule for the same rate-weighted volume element as in
`C32_total_four_volume`, on 2500 equidistant redshifts, starting from `1e-6` instead of 0. -/
theorem C32_consistent {backend planck15 model data nEvents marg enf self d}
    (hself : ResamplingVT.init backend planck15 model data nEvents marg enf = .ok (self, d))
    {available : Dict CosmoEntry} {r : Redshift} {zMax : ℝ}
    (hr : Redshift.powerLaw available zMax "Planck15" = .ok r)
    (hc : available.get? "Planck15" = some (.fixed planck15)) {before after : List Component}
    (hm : model.models = before ++ Component.redshift r :: after)
    (ha : ∀ r', Component.redshift r' ∉ after) {v : ℝ → ℝ}
    (hv : ∀ z, 0 ≤ z → planck15.diffComovingVolume (fin z) = fin (v z)) (v_pos : ∀ z, 0 < z → 0 < v z)
    (v_zero : 0 ≤ v 0) (hz : 1e-6 ≤ zMax) {t : ℝ} (ht : self.analysisTime = fin t) (l : ℝ) :
    self.surveyedHypervolume [("lamb", fin l)] = .ok (fin (t / 1e9 *
      trapezoidRule 2499
        (fun i => volumeElement (fun z => (1 + z) ^ l) v (1e-6 + (zMax - 1e-6) * i / 2499))
        (fun i => 1e-6 + (zMax - 1e-6) * i / 2499))) := by
  obtain ⟨hrate, hzm⟩ := rateAt_powerLaw hr hc hv v_pos v_zero l
  have hz0 : 0 ≤ r.zMax := by rw [hzm]; linarith
  rw [((C32_hypervolume hself _).2 r before after hm ha).1 _ (normalisation_eq hrate hz0), ht,
    fin_div (by norm_num), fin_mul, hzm, trapzR_linspace _ _ _ (by norm_num)]
  have h2 : (((2500 : ℕ) : ℝ) - 1) = 2499 := by norm_num
  rw [show 2500 - 1 = 2499 from rfl]
  simp only [h2]
  rw [trapezoidRule_congr (y' := fun i : ℕ => volumeElement (fun z => (1 + z) ^ l) v
    (1e-6 + (zMax - 1e-6) * i / 2499)) (x' := fun i : ℕ => 1e-6 + (zMax - 1e-6) * i / 2499) ?_
    (fun i _ => rfl)]
  · generalize trapezoidRule 2499 _ _ = T
    have : T / 1e9 * t = t / 1e9 * T := by ring
    rw [this]
  · intro i hi
    rw [if_pos]
    have hi'' : (i : ℝ) ≤ 2499 := by exact_mod_cast hi
    have : (zMax - 1e-6) * (i : ℝ) / 2499 ≤ zMax - 1e-6 := by
      rw [div_le_iff₀ (by norm_num)]
      have : 0 ≤ zMax - 1e-6 := by linarith
      gcongr
    linarith

/-- Non-vacuity of C32: a model with two redshift components uses the second. -/
example (r1 r2 : Redshift) : lastRedshift [.redshift r1, .other, .redshift r2, .other] = some r2 :=
  rfl

/-! ## C39 for `ResamplingVT` -/

/-- **C39 (partial, the case of `ResamplingVT`).** Constructing a `ResamplingVT` leaves the caller's dictionary as it
was. -/
theorem C39_resampling_partial {backend planck15 model data nEvents marg enf self d}
    (hself : ResamplingVT.init backend planck15 model data nEvents marg enf = .ok (self, d)) :
    d = data := (init_fields hself).2.2.2.2.2.2.2.2

end GW
