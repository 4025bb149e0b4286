import Verif.Props.Likelihood
import Std.Data.String.ToNat

/-!
# Properties of `generate_extra_statistics` and of the rate variance: C50 and C69
-/

noncomputable section

open Classical

namespace GW

open Fl Spec

/-! ## Names of the entries -/

/-- The name of the log Bayes factor of event `i`. -/
def Spec.lnBfName (i : ℕ) : String := "ln_bf_" ++ toString i

/-- The name of the variance of event `i`. -/
def Spec.varName (i : ℕ) : String := "var_" ++ toString i

/-- The entries that `generate_extra_statistics` writes for `n` events. -/
def Spec.IsStatistic (n : ℕ) (key : String) : Prop :=
  (∃ i < n, key = lnBfName i ∨ key = varName i) ∨
    key = "selection" ∨ key = "selection_variance" ∨ key = "variance"

theorem append_left_inj' {a b c : String} (h : a ++ b = a ++ c) : b = c := by
  have := congrArg String.toList h
  rw [String.toList_append, String.toList_append] at this
  exact String.toList_inj.1 (List.append_cancel_left this)

theorem lnBfName_inj {i j : ℕ} (h : lnBfName i = lnBfName j) : i = j :=
  Nat.repr_injective (append_left_inj' h)

theorem varName_inj {i j : ℕ} (h : varName i = varName j) : i = j :=
  Nat.repr_injective (append_left_inj' h)

theorem lnBfName_ne_varName (i j : ℕ) : lnBfName i ≠ varName j := by
  intro h
  have := congrArg (fun s : String => s.toList.head?) h
  simp [lnBfName, varName, String.toList_append] at this

theorem lnBfName_ne {i : ℕ} {s : String} (h : s.toList.head? ≠ some 'l') : lnBfName i ≠ s := by
  rintro rfl
  apply h
  simp [lnBfName, String.toList_append]

theorem varName_ne {i : ℕ} {s : String} (h : s.toList[3]? ≠ some '_') : varName i ≠ s := by
  rintro rfl
  apply h
  simp [varName, String.toList_append]

/-! ## The loop over events -/

theorem setEventStatistics_spec (events : List (Fl × Fl)) (is : List ℕ)
    (h : ∀ i ∈ is, i < events.length) (sample : Dict Fl) :
    ∃ out, Likelihood.setEventStatistics sample events is = .ok out ∧
      (∀ i (hi : i ∈ is), out.get? (lnBfName i) = some (events[i]'(h i hi)).1 ∧
        out.get? (varName i) = some (events[i]'(h i hi)).2) ∧
      ∀ key, (∀ i ∈ is, key ≠ lnBfName i ∧ key ≠ varName i) → out.get? key = sample.get? key := by
  induction is generalizing sample with
  | nil => exact ⟨sample, rfl, by simp, fun _ _ => rfl⟩
  | cons i is ih =>
    have hi : i < events.length := h i (by simp)
    obtain ⟨out, h1, h2, h3⟩ := ih (fun j hj => h j (by simp [hj]))
      ((sample.set (lnBfName i) events[i].1).set (varName i) events[i].2)
    refine ⟨out, ?_, ?_, ?_⟩
    · rw [Likelihood.setEventStatistics, List.getElem?_eq_getElem hi]
      exact h1
    · intro j hj
      by_cases hm : j ∈ is
      · exact h2 j hm
      · have hji : j = i := by simpa [hm] using hj
        subst hji
        have hb : ∀ k ∈ is, lnBfName j ≠ lnBfName k ∧ lnBfName j ≠ varName k := fun k hk =>
          ⟨fun e => hm (lnBfName_inj e ▸ hk), lnBfName_ne_varName j k⟩
        have hv : ∀ k ∈ is, varName j ≠ lnBfName k ∧ varName j ≠ varName k := fun k hk =>
          ⟨fun e => lnBfName_ne_varName k j e.symm, fun e => hm (varName_inj e ▸ hk)⟩
        rw [h3 _ hb, h3 _ hv, Dict.get?_set, Dict.get?_set, Dict.get?_set,
          if_neg (lnBfName_ne_varName j j), if_pos rfl, if_pos rfl]
        exact ⟨rfl, rfl⟩
    · intro key hkey
      rw [h3 key fun k hk => hkey k (by simp [hk]), Dict.get?_set, Dict.get?_set,
        if_neg (hkey i (by simp)).2, if_neg (hkey i (by simp)).1]

/-! ## C50 -/

/-- For every likelihood object and sample, `generate_extra_statistics` returns the sample extended by
the per-event estimates, the selection, its relative variance and a total variance, and every other
entry is unchanged. -/
theorem C50_entries {self : Likelihood} {sample φ : Dict Fl}
    (hconv : self.conversion sample = .ok φ) {events : List (Fl × Fl)}
    (hev : self.perEvent φ = .ok events) (hlen : events.length = self.nPosteriors)
    {py : Bool} {s v : Fl} (hsel : self.selectionWithUncertainty φ = .ok (py, s, v))
    (hs : ¬ Fl.eqf (s ^ 2) 0) :
    ∃ out, self.generateExtraStatistics sample = .ok out ∧
      (∀ i (hi : i < events.length), out.get? (lnBfName i) = some events[i].1 ∧
        out.get? (varName i) = some events[i].2) ∧
      out.get? "selection" = some s ∧ out.get? "selection_variance" = some (v / s ^ 2) ∧
      out.get? "variance" =
        some ((events.map Prod.snd).sum + v / s ^ 2 * (self.nPosteriors : Fl) ^ 2) ∧
      ∀ key, ¬ IsStatistic self.nPosteriors key → out.get? key = sample.get? key := by
  obtain ⟨out, h1, h2, h3⟩ := setEventStatistics_spec events (List.range self.nPosteriors)
    (fun i hi => by rw [hlen]; exact List.mem_range.1 hi) sample
  refine ⟨((out.set "selection" s).set "selection_variance" (v / s ^ 2)).set "variance"
    ((events.map Prod.snd).sum + v / s ^ 2 * (self.nPosteriors : Fl) ^ 2), ?_, ?_, ?_, ?_, ?_, ?_⟩
  · unfold Likelihood.generateExtraStatistics
    simp only [hconv, hev, ok_bind, h1, hsel, pyDiv, if_neg (fun h => hs (And.right h)), pure_eq_ok]
    rfl
  · intro i hi
    have hne : ∀ k ∈ ["selection", "selection_variance", "variance"],
        lnBfName i ≠ k ∧ varName i ≠ k := by
      intro k hk
      simp only [List.mem_cons, List.not_mem_nil, or_false] at hk
      rcases hk with rfl | rfl | rfl <;>
        exact ⟨lnBfName_ne (by simp), varName_ne (by simp)⟩
    have ha := hne "selection" (by simp)
    have hb := hne "selection_variance" (by simp)
    have hc := hne "variance" (by simp)
    simp only [Dict.get?_set, if_neg ha.1, if_neg ha.2, if_neg hb.1, if_neg hb.2, if_neg hc.1,
      if_neg hc.2]
    exact h2 i (List.mem_range.2 (by omega))
  · simp [Dict.get?_set]
  · simp [Dict.get?_set]
  · simp [Dict.get?_set]
  · intro key hkey
    unfold IsStatistic at hkey
    push Not at hkey
    obtain ⟨ha, hb, hc, hd⟩ := hkey
    simp only [Dict.get?_set, if_neg hb, if_neg hc, if_neg hd]
    exact h3 key fun i hi => ha i (List.mem_range.1 hi)

/-- The full property: for every likelihood class, the reported variance is that of
`ln_likelihood_and_variance`, and `selection_variance` is the variance of the detection
probability. -/
def C50_statement : Prop :=
  ∀ (self : Likelihood) (sample out φ : Dict Fl) (l v pdet varDet : ℝ) (py : Bool),
    self.generateExtraStatistics sample = .ok out →
    self.lnLikelihoodAndVariance sample = .ok (fin l, fin v) →
    self.conversion sample = .ok φ →
    self.selection.call φ = .ok (.pair py (fin pdet) (fin varDet)) →
    out.get? "variance" = some (fin v) ∧ out.get? "selection_variance" = some (fin varDet)

/-- What is true: for `HyperparameterLikelihood` the reported variance is that of the likelihood, and
the reported Bayes factors and selection combine to its log-likelihood; the variance also agrees for
`NullHyperparameterLikelihood`. -/
theorem C50_consistent_partial {self : Likelihood} (hcls : self.cls ≠ .rate) {sample φ : Dict Fl}
    (hconv : self.conversion sample = .ok φ) {W : List (List ℝ)}
    (hw : self.weights φ = .ok (matFin W)) (hgood : GoodWeights self.samplesPerPosterior W)
    (hlen : W.length = self.nPosteriors) {r : SelResult} {pdet varDet : ℝ}
    (hs : self.selection.call φ = .ok r) (hr : reports r pdet varDet) (hpdet : 0 < pdet) :
    ∃ (out : Dict Fl) (l v : ℝ) (lnBf : ℕ → ℝ), self.generateExtraStatistics sample = .ok out ∧
      self.lnLikelihoodAndVariance sample = .ok (fin l, fin v) ∧
      out.get? "variance" = some (fin v) ∧
      out.get? "selection" = some (fin pdet) ∧
      out.get? "selection_variance" = some (fin (varDet / pdet ^ 2)) ∧
      (∀ i < self.nPosteriors, out.get? (lnBfName i) = some (fin (lnBf i))) ∧
      (self.cls = .hyper →
        l = (∑ i ∈ Finset.range self.nPosteriors, lnBf i) - self.nPosteriors * Real.log pdet) := by
  obtain ⟨py, hsel⟩ := selection_fin hs hr
  have hp2 : pdet ^ 2 ≠ 0 := pow_ne_zero 2 hpdet.ne'
  obtain ⟨out, h1, h2, h3, h4, h5, -⟩ := C50_entries hconv (perEvent_fin hw hgood)
    (by simpa using hlen) hsel (by rw [fin_npow, zero_eq, eqf_fin]; exact hp2)
  have hbase : self.lnLikelihoodAndVarianceBase sample = .ok
      (fin ((W.map lnBayesFactor).sum + -self.nPosteriors * Real.log pdet),
        fin ((W.map relativeVariance).sum + (self.nPosteriors : ℝ) ^ 2 * (varDet / pdet ^ 2))) := by
    have hcase : self.selectionFactor φ = self.selectionFactorHyper φ := by
      unfold Likelihood.selectionFactor
      cases hc : self.cls <;> simp_all
    unfold Likelihood.lnLikelihoodAndVarianceBase
    rw [hconv, ok_bind, perEvent_fin hw hgood, ok_bind, hcase]
    unfold Likelihood.selectionFactorHyper
    simp only [ok_bind, hsel, pure_eq_ok, List.map_map, Function.comp_def, sum_map_fin,
      log_fin hpdet, natCast_eq, fin_neg, fin_mul, fin_npow, fin_div hp2, fin_add, toNumber,
      ite_self, id]
  refine ⟨out, if self.cls = .null then 0 else
      (W.map lnBayesFactor).sum + -self.nPosteriors * Real.log pdet,
    (W.map relativeVariance).sum + (self.nPosteriors : ℝ) ^ 2 * (varDet / pdet ^ 2),
    fun i => lnBayesFactor (W.getD i []), h1, ?_, ?_, h3, ?_, ?_, ?_⟩
  · unfold Likelihood.lnLikelihoodAndVariance
    rw [hbase, ok_bind]
    cases hc : self.cls with
    | hyper => simp [pure_eq_ok]
    | rate => exact absurd hc hcls
    | null => simp [pure_eq_ok]
  · rw [h5]
    have : (List.map Prod.snd (W.map fun w => (fin (lnBayesFactor w), fin (relativeVariance w)))
        ).sum = fin (W.map relativeVariance).sum := by
      rw [List.map_map]
      exact sum_map_fin W relativeVariance
    rw [this, natCast_eq, fin_npow, fin_npow, fin_div hp2, fin_mul, fin_add]
    congr 2
    ring
  · rw [h4, fin_npow, fin_div hp2]
  · intro i hi
    have hi' : i < W.length := by omega
    rw [(h2 i (by simpa using hi')).1]
    simp [hi']
  · intro hc
    rw [if_neg (by rw [hc]; decide), sub_eq_add_neg, neg_mul]
    congr 1
    rw [← hlen]
    clear * -
    induction W with
    | nil => simp
    | cons w W ih =>
      rw [List.length_cons, Finset.sum_range_succ', List.map_cons, List.sum_cons, ih]
      simp [add_comm]

/-- The property fails for every class: `selection_variance` is the relative variance
`var / P_det^2`; and for `RateLikelihood` also the total variance differs. -/
theorem C50_fails : ¬ C50_statement := by
  intro H
  have hg : GoodWeights (toyLikelihood .hyper (.pair true (fin (1 / 2)) (fin (1 / 100))) pinf
      ).samplesPerPosterior [[1, 3], [1, 1]] := toyGood
  have hw := weights_fin (self := toyLikelihood .hyper (.pair true (fin (1 / 2)) (fin (1 / 100)))
    pinf) (θ := []) (P := [[1, 3], [2, 2]]) (prior := some [[1, 1], [2, 2]]) rfl rfl toyShape
  rw [toyWeights] at hw
  obtain ⟨out, l, v, lnBf, h1, h2, h3, h4, h5, h6, h7⟩ := C50_consistent_partial
    (self := toyLikelihood .hyper (.pair true (fin (1 / 2)) (fin (1 / 100))) pinf) (sample := [])
    (by decide) rfl hw hg rfl rfl (.inl ⟨true, rfl⟩) (by norm_num)
  have h8 := (H _ _ _ _ _ _ _ _ _ h1 h2 rfl rfl).2
  rw [h5] at h8
  have := Option.some.inj h8
  rw [fin_inj] at this
  norm_num at this

/-- For the rate likelihood the variance in the extra statistics is not the variance of the
likelihood, even if `selection_variance` is read as the relative variance. -/
theorem C50_rate_fails : ∃ (self : Likelihood) (sample out : Dict Fl) (l v v' : ℝ),
    self.cls = .rate ∧ self.generateExtraStatistics sample = .ok out ∧
    self.lnLikelihoodAndVariance sample = .ok (fin l, fin v) ∧
    out.get? "variance" = some (fin v') ∧ v ≠ v' := by
  have hval := C49_value (self := toyLikelihood .rate (.pair true (fin (1 / 2)) (fin (1 / 100)))
    pinf) rfl (θ := [("rate", fin 10)]) rfl
    (P := [[1, 3], [2, 2]]) (prior := some [[1, 1], [2, 2]]) rfl rfl rfl toyShape
    (by rw [toyWeights]; exact toyGood) rfl (.inl ⟨true, rfl⟩) (by norm_num) (R := 10)
    (by norm_num) rfl
  rw [toyWeights] at hval
  obtain ⟨out, h1, -, -, -, h5, -⟩ := C50_entries
    (self := toyLikelihood .rate (.pair true (fin (1 / 2)) (fin (1 / 100))) pinf)
    (sample := [("rate", fin 10)]) rfl (toyPerEvent _ _ _ _) rfl rfl (by
      show ¬ Fl.eqf ((fin (1 / 2)) ^ 2) 0
      rw [fin_npow, zero_eq, eqf_fin]; norm_num)
  refine ⟨_, _, out, _, _, 1 / 8 + 4 * (1 / 25), rfl, h1, hval, ?_, ?_⟩
  · rw [h5]
    have : (toyLikelihood .rate (.pair true (fin (1 / 2)) (fin (1 / 100))) pinf).nPosteriors = 2 :=
      rfl
    have h4 : (1 / 2 : ℝ) ^ 2 ≠ 0 := by norm_num
    rw [this, natCast_eq, fin_npow, fin_npow, fin_div h4]
    norm_num [relativeVariance, mean]
  · norm_num [relativeVariance, mean]

/-- The hypotheses of `C50_entries` and `C50_consistent_partial` are met, and an entry that was in
the sample before is still there. -/
example : ∃ out, (toyLikelihood .hyper (.pair true (fin (1 / 2)) (fin (1 / 100))) pinf
      ).generateExtraStatistics [("alpha", fin 3)] = .ok out ∧
    out.get? "alpha" = some (fin 3) ∧ out.get? "selection" = some (fin (1 / 2)) ∧
    out.get? (lnBfName 0) = some (fin (lnBayesFactor [1, 3])) := by
  obtain ⟨out, h1, h2, h3, -, -, h6⟩ := C50_entries
    (self := toyLikelihood .hyper (.pair true (fin (1 / 2)) (fin (1 / 100))) pinf)
    (sample := [("alpha", fin 3)]) rfl (toyPerEvent _ _ _ _) rfl rfl (by
      show ¬ Fl.eqf ((fin (1 / 2)) ^ 2) 0
      rw [fin_npow, zero_eq, eqf_fin]; norm_num)
  refine ⟨out, h1, ?_, h3, (h2 0 (by decide)).1⟩
  rw [h6 "alpha"]
  · rfl
  · rintro (⟨i, -, h | h⟩ | h | h | h)
    · exact lnBfName_ne (by decide) h.symm
    · exact varName_ne (by decide) h.symm
    all_goals simp at h

/-! ## C69: the variance of the rate likelihood -/

/-- The variance of `sum_i ln L_i + N ln R - R P` when `P` has variance `varDet`: error propagation
gives `(d ln L / d P)^2 varDet`. -/
def Spec.rateVariance (W : List (List ℝ)) (pdet varDet R : ℝ) : ℝ :=
  (W.map relativeVariance).sum + (deriv (fun p => lnRateLikelihood W p R) pdet) ^ 2 * varDet

theorem Spec.rateVariance_eq (W : List (List ℝ)) (pdet varDet R : ℝ) :
    rateVariance W pdet varDet R = (W.map relativeVariance).sum + R ^ 2 * varDet := by
  have h : HasDerivAt (fun p => lnRateLikelihood W p R) (-R) pdet := by
    have := ((hasDerivAt_id pdet).const_mul R).const_sub
      ((W.map lnBayesFactor).sum + W.length * Real.log R)
    rw [mul_one] at this
    exact this
  unfold rateVariance
  rw [h.deriv, neg_sq]

/-- The rate likelihood reports the propagated variance. -/
def C69_statement : Prop :=
  ∀ (self : Likelihood) (θ : Dict Fl) (W : List (List ℝ)) (py : Bool) (pdet varDet R : ℝ),
    self.cls = .rate → (∀ θ, self.conversion θ = .ok θ) →
    self.weights θ = .ok (matFin W) → GoodWeights self.samplesPerPosterior W →
    W.length = self.nPosteriors →
    self.selection.call θ = .ok (.pair py (fin pdet) (fin varDet)) → 0 < pdet → 0 ≤ varDet →
    θ.get? "rate" = some (fin R) → 0 < R →
    ∃ l, self.lnLikelihoodAndVariance θ = .ok (l, fin (rateVariance W pdet varDet R))

/-- The code reports `R varDet / P_det` instead of `R^2 varDet`: the two agree exactly if the
expected number of detections `R P_det` is 1 or the selection variance is 0. -/
theorem C69_value_partial {self : Likelihood} (hcls : self.cls = .rate) {θ φ : Dict Fl}
    (hconv : self.conversion θ = .ok φ) {W : List (List ℝ)}
    (hw : self.weights φ = .ok (matFin W)) (hgood : GoodWeights self.samplesPerPosterior W)
    {py : Bool} {pdet varDet R : ℝ}
    (hs : self.selection.call φ = .ok (.pair py (fin pdet) (fin varDet))) (hpdet : 0 < pdet)
    (hrate : φ.get? "rate" = some (fin R)) (hR : 0 < R) :
    ∃ l v : ℝ, self.lnLikelihoodAndVariance θ = .ok (fin l, fin v) ∧
      v = (W.map relativeVariance).sum + R * varDet / pdet ∧
      (v = rateVariance W pdet varDet R ↔ R * pdet = 1 ∨ varDet = 0) := by
  obtain ⟨py', hsel⟩ := selection_fin hs (.inl ⟨py, rfl⟩)
  have hp2 : pdet ^ 2 ≠ 0 := pow_ne_zero 2 hpdet.ne'
  refine ⟨(W.map lnBayesFactor).sum + (-(pdet * R) + self.nPosteriors * Real.log R), _, ?_, rfl, ?_⟩
  · unfold Likelihood.lnLikelihoodAndVariance Likelihood.lnLikelihoodAndVarianceBase
      Likelihood.selectionFactor Likelihood.selectionFactorRate
    simp only [hconv, ok_bind, perEvent_fin hw hgood, hcls, hsel,
      pure_eq_ok, List.map_map, Function.comp_def, sum_map_fin, log_fin hR, natCast_eq, fin_neg,
      fin_mul, fin_npow, fin_add, toNumber, ite_self, id, Dict.get, hrate, pyDiv, zero_eq, eqf_fin]
    rw [if_neg (by rintro ⟨-, h⟩; exact hp2 h), fin_div hp2]
    simp only [ok_bind, fin_add]
    congr 4
    field_simp
  · rw [rateVariance_eq]
    constructor
    · intro h
      have h1 : R * varDet / pdet = R ^ 2 * varDet := by linarith
      rw [div_eq_iff hpdet.ne'] at h1
      by_cases hv : varDet = 0
      · exact .inr hv
      · left
        have : R * varDet * (1 - R * pdet) = 0 := by linear_combination h1
        rcases mul_eq_zero.1 this with h2 | h2
        · exact absurd h2 (mul_ne_zero hR.ne' hv)
        · linarith
    · rintro (h | h)
      · have : R * varDet / pdet = R ^ 2 * varDet := by
          rw [div_eq_iff hpdet.ne']
          linear_combination (-R * varDet) * h
        rw [this]
      · rw [h]; simp

/-- With 10 expected detections per unit of `P_det` and `P_det = 1/2`, the reported variance is a fifth
of the propagated one. -/
theorem C69_fails : ¬ C69_statement := by
  intro H
  have hw := weights_fin (self := toyLikelihood .rate (.pair true (fin (1 / 2)) (fin (1 / 100)))
    pinf) (θ := [("rate", fin 10)]) (P := [[1, 3], [2, 2]]) (prior := some [[1, 1], [2, 2]]) rfl rfl
    toyShape
  rw [toyWeights] at hw
  obtain ⟨l, v, h1, -, h3⟩ := C69_value_partial
    (self := toyLikelihood .rate (.pair true (fin (1 / 2)) (fin (1 / 100))) pinf) rfl
    (θ := [("rate", fin 10)]) rfl hw toyGood rfl (by norm_num) (R := 10) rfl (by norm_num)
  obtain ⟨l', h⟩ := H _ _ _ _ _ _ 10 rfl (fun _ => rfl) hw toyGood rfl rfl (by norm_num)
    (by norm_num) rfl (by norm_num)
  rw [h1] at h
  have h4 : v = rateVariance [[1, 3], [1, 1]] (1 / 2) (1 / 100) 10 :=
    (fin_inj.1 (Prod.ext_iff.1 (Except.ok.inj h)).2)
  have := h3.1 h4
  norm_num at this

/-- The hypotheses of `C69_value_partial` hold for the toy likelihood. -/
example : ∃ (self : Likelihood) (W : List (List ℝ)), self.cls = .rate ∧
    self.weights [("rate", fin 10)] = .ok (matFin W) ∧ GoodWeights self.samplesPerPosterior W ∧
    self.selection.call [("rate", fin 10)] = .ok (.pair true (fin (1 / 2)) (fin (1 / 100))) := by
  refine ⟨toyLikelihood .rate (.pair true (fin (1 / 2)) (fin (1 / 100))) pinf, [[1, 3], [1, 1]],
    rfl, ?_, toyGood, rfl⟩
  have hw := weights_fin (self := toyLikelihood .rate (.pair true (fin (1 / 2)) (fin (1 / 100)))
    pinf) (θ := [("rate", fin 10)]) (P := [[1, 3], [2, 2]]) (prior := some [[1, 1], [2, 2]]) rfl rfl
    toyShape
  rwa [toyWeights] at hw

end GW
