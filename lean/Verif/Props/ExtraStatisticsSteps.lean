import Verif.Model.ExtraStatisticsSteps
import Verif.Props.ExtraStatistics

/-!
# C127: failed, interrupted and repeated `generate_extra_statistics`
-/

noncomputable section

open Classical

namespace GW

open Fl Spec

/-! ## Assignments -/

theorem applyWrites_append (d : Dict Fl) (a b : List (String × Fl)) :
    applyWrites d (a ++ b) = applyWrites (applyWrites d a) b := by
  unfold applyWrites
  rw [List.foldl_append]

/-- An entry after assignments: the last one to its key, otherwise what it was. -/
theorem applyWrites_get? (d : Dict Fl) (w : List (String × Fl)) (key : String) :
    (applyWrites d w).get? key =
      ((w.reverse.find? fun x => x.1 = key).map Prod.snd).or (d.get? key) := by
  induction w generalizing d with
  | nil => simp [applyWrites]
  | cons x w ih =>
    have h : applyWrites d (x :: w) = applyWrites (d.set x.1 x.2) w := rfl
    rw [h, ih, List.reverse_cons, List.find?_append, Dict.get?_set]
    by_cases hk : x.1 = key
    · subst hk
      cases List.find? (fun y => decide (y.1 = x.1)) w.reverse <;> simp
    · have hk' : key ≠ x.1 := fun e => hk e.symm
      cases List.find? (fun y => decide (y.1 = key)) w.reverse <;> simp [hk, hk']

theorem applyWrites_other (d : Dict Fl) {w : List (String × Fl)} {key : String}
    (h : key ∉ w.map Prod.fst) : (applyWrites d w).get? key = d.get? key := by
  rw [applyWrites_get?, List.find?_eq_none.2]
  · rfl
  · intro x hx
    simp only [decide_eq_true_eq]
    rintro rfl
    exact h (List.mem_map_of_mem (List.mem_reverse.1 hx))

theorem applyWrites_mem (d : Dict Fl) {w : List (String × Fl)} (hw : (w.map Prod.fst).Nodup)
    {key : String} {v : Fl} (h : (key, v) ∈ w) : (applyWrites d w).get? key = some v := by
  induction w generalizing d with
  | nil => simp at h
  | cons x w ih =>
    have e : applyWrites d (x :: w) = applyWrites (d.set x.1 x.2) w := rfl
    rw [List.map_cons, List.nodup_cons] at hw
    rw [e]
    rcases List.mem_cons.1 h with rfl | h
    · rw [applyWrites_other _ hw.1, Dict.get?_set, if_pos rfl]
    · exact ih _ hw.2 h

/-! ## The assignments of the method -/

theorem eventWrites_agree (events : List (Fl × Fl)) (is : List ℕ) (d : Dict Fl) :
    Likelihood.setEventStatistics d events is =
      match Likelihood.eventWrites events is with
      | (w, none) => .ok (applyWrites d w)
      | (_, some e) => .error e := by
  induction is generalizing d with
  | nil => rfl
  | cons i is ih =>
    rw [Likelihood.setEventStatistics, Likelihood.eventWrites]
    cases hi : events[i]? with
    | none => rfl
    | some e =>
      simp only
      rw [ih]
      rcases Likelihood.eventWrites events is with ⟨w, _ | e'⟩ <;> rfl

theorem eventWrites_keys (events : List (Fl × Fl)) (is : List ℕ) :
    (Likelihood.eventWrites events is).1.map Prod.fst <+:
      is.flatMap fun i => [lnBfName i, varName i] := by
  induction is with
  | nil => simp [Likelihood.eventWrites]
  | cons i is ih =>
    rw [Likelihood.eventWrites]
    cases hi : events[i]? with
    | none => simp
    | some e =>
      simp only [List.map_cons, List.flatMap_cons, List.cons_append, List.nil_append]
      exact (List.prefix_cons_inj _).2 ((List.prefix_cons_inj _).2 ih)

theorem eventWrites_mem (events : List (Fl × Fl)) (is : List ℕ) {x : String × Fl}
    (h : x ∈ (Likelihood.eventWrites events is).1) :
    ∃ i ∈ is, ∃ hi : i < events.length,
      x = (lnBfName i, events[i].1) ∨ x = (varName i, events[i].2) := by
  induction is with
  | nil => simp [Likelihood.eventWrites] at h
  | cons i is ih =>
    rw [Likelihood.eventWrites] at h
    cases hi : events[i]? with
    | none => simp [hi] at h
    | some e =>
      obtain ⟨hl, he⟩ := List.getElem?_eq_some_iff.1 hi
      simp only [hi, List.mem_cons] at h
      rcases h with h | h | h
      · exact ⟨i, by simp, hl, .inl (by rw [h, he]; rfl)⟩
      · exact ⟨i, by simp, hl, .inr (by rw [h, he]; rfl)⟩
      · obtain ⟨j, hj, r⟩ := ih h
        exact ⟨j, by simp [hj], r⟩

/-- The names of the entries in the order in which they are written. -/
def Spec.statisticNames (n : ℕ) : List String :=
  ((List.range n).flatMap fun i => [lnBfName i, varName i]) ++
    ["selection", "selection_variance", "variance"]

theorem Spec.mem_statisticNames (n : ℕ) (key : String) :
    key ∈ statisticNames n ↔ IsStatistic n key := by
  unfold statisticNames IsStatistic
  simp [List.mem_flatMap, eq_comm]

theorem eventNames_nodup (is : List ℕ) (h : is.Nodup) :
    (is.flatMap fun i => [lnBfName i, varName i]).Nodup := by
  rw [List.nodup_flatMap]
  refine ⟨fun i _ => by simp [lnBfName_ne_varName], ?_⟩
  refine h.imp fun {i j} hij => ?_
  simp only [Function.onFun, List.disjoint_cons_left, List.mem_cons, List.not_mem_nil, or_false,
    not_or, List.disjoint_nil_left, and_true]
  exact ⟨⟨fun e => hij (lnBfName_inj e), lnBfName_ne_varName i j⟩,
    fun e => lnBfName_ne_varName j i e.symm, fun e => hij (varName_inj e)⟩

theorem Spec.statisticNames_nodup (n : ℕ) : (statisticNames n).Nodup := by
  unfold statisticNames
  rw [List.nodup_append]
  refine ⟨eventNames_nodup _ List.nodup_range, by decide, ?_⟩
  intro a ha b hb
  simp only [List.mem_flatMap, List.mem_cons, List.not_mem_nil, or_false] at ha hb
  obtain ⟨i, -, rfl | rfl⟩ := ha
  · rcases hb with rfl | rfl | rfl <;> exact lnBfName_ne (by decide)
  · rcases hb with rfl | rfl | rfl <;> exact varName_ne (by decide)

theorem extraWrites_keys (self : Likelihood) (sample : Dict Fl) :
    (self.extraWrites sample).1.map Prod.fst <+: statisticNames self.nPosteriors ∧
      ((self.extraWrites sample).2 = none →
        (self.extraWrites sample).1.map Prod.fst = statisticNames self.nPosteriors) := by
  have full : ∀ (events : List (Fl × Fl)) (is : List ℕ),
      (Likelihood.eventWrites events is).2 = none →
      (Likelihood.eventWrites events is).1.map Prod.fst =
        is.flatMap fun i => [lnBfName i, varName i] := by
    intro events is h
    induction is with
    | nil => rfl
    | cons i is ih =>
      rw [Likelihood.eventWrites] at h ⊢
      cases hi : events[i]? with
      | none => simp [hi] at h
      | some e =>
        simp only [hi] at h ⊢
        simp only [List.map_cons, ih h, List.flatMap_cons, List.cons_append, List.nil_append]
        rfl
  unfold Likelihood.extraWrites
  cases self.conversion sample with
  | error e => simp
  | ok φ =>
    cases hev : self.perEvent φ with
    | error e => simp [hev]
    | ok events =>
      have hk := eventWrites_keys events (List.range self.nPosteriors)
      have hf := full events (List.range self.nPosteriors)
      have hp : ∀ l, l <+: ((List.range self.nPosteriors).flatMap fun i =>
          [lnBfName i, varName i]) → l <+: statisticNames self.nPosteriors := fun l h =>
        h.trans (List.prefix_append _ _)
      simp only [hev]
      rcases hw : Likelihood.eventWrites events (List.range self.nPosteriors) with ⟨w, _ | e⟩
      · rw [hw] at hk hf
        simp only
        cases hs : self.selectionWithUncertainty φ with
        | error e => exact ⟨hp _ hk, by simp⟩
        | ok r =>
          obtain ⟨py, s, v⟩ := r
          simp only
          cases hd : pyDiv py v (s ^ 2) with
          | error e => exact ⟨hp _ hk, by simp⟩
          | ok q =>
            have : ((w ++ [("selection", s), ("selection_variance", q),
                ("variance", Arr.sum (events.map Prod.snd) +
                  q * (self.nPosteriors : Fl) ^ 2)]).map Prod.fst) =
                statisticNames self.nPosteriors := by
              rw [List.map_append, hf rfl]
              rfl
            exact ⟨this ▸ List.prefix_refl _, fun _ => this⟩
      · rw [hw] at hk
        exact ⟨hp _ hk, by simp⟩

/-! ## C127 -/

/-- The sequence of assignments is that of the method: a call that completes returns the dictionary
with all of them, and one that raises has the same exception. -/
theorem C127_refines (self : Likelihood) (sample : Dict Fl) :
    self.generateExtraStatistics sample =
      match (self.extraWrites sample).2 with
      | none => .ok (self.extraAfter sample)
      | some e => .error e := by
  unfold Likelihood.generateExtraStatistics Likelihood.extraAfter Likelihood.extraWrites
  cases self.conversion sample with
  | error e => rfl
  | ok φ =>
    simp only [ok_bind]
    cases hev : self.perEvent φ with
    | error e => rfl
    | ok events =>
      simp only [ok_bind]
      rw [eventWrites_agree]
      rcases Likelihood.eventWrites events (List.range self.nPosteriors) with ⟨w, _ | e⟩
      · simp only [ok_bind]
        cases hs : self.selectionWithUncertainty φ with
        | error e => rfl
        | ok r =>
          obtain ⟨py, s, v⟩ := r
          simp only [ok_bind]
          cases hd : pyDiv py v (s ^ 2) with
          | error e => rfl
          | ok q =>
            simp only [ok_bind, pure_eq_ok, applyWrites_append]
            rfl
      · rfl

/-- At every point of the call, whether it later returns, raises or is interrupted: the entries of
the sample that are not statistics are as they were; the statistics present are a first part of the
list of names, each either as in the sample or as at the end of the call. -/
theorem C127_every_point (self : Likelihood) (k : ℕ) (sample : Dict Fl) :
    (∀ key, ¬ IsStatistic self.nPosteriors key →
      (self.extraInterrupted k sample).get? key = sample.get? key) ∧
    ∃ j ≤ k, ∀ key,
      (key ∈ (statisticNames self.nPosteriors).take j →
        (self.extraInterrupted k sample).get? key = (self.extraAfter sample).get? key) ∧
      (key ∉ (statisticNames self.nPosteriors).take j →
        (self.extraInterrupted k sample).get? key = sample.get? key) := by
  obtain ⟨hp, -⟩ := extraWrites_keys self sample
  set w := (self.extraWrites sample).1 with hw
  have hnd : (w.map Prod.fst).Nodup := (statisticNames_nodup _).sublist hp.sublist
  have htake : (w.take k).map Prod.fst =
      (statisticNames self.nPosteriors).take (min k w.length) := by
    obtain ⟨t, ht⟩ := hp
    rw [← ht, List.map_take, List.take_append_of_le_length (by simp)]
    rcases le_total k w.length with h | h
    · rw [min_eq_left h]
    · rw [min_eq_right h, List.take_of_length_le (by simpa using h),
        List.take_of_length_le (by simp)]
  refine ⟨fun key hkey => ?_, min k w.length, min_le_left _ _, fun key => ⟨fun h => ?_, fun h => ?_⟩⟩
  · refine applyWrites_other _ fun h => hkey ((mem_statisticNames _ _).1 ?_)
    rw [← hw, htake] at h
    exact List.mem_of_mem_take h
  · rw [← htake] at h
    obtain ⟨⟨key', v⟩, hx, rfl⟩ := List.mem_map.1 h
    have hnd' : ((w.take k).map Prod.fst).Nodup := by
      rw [List.map_take]
      exact hnd.sublist (List.take_sublist _ _)
    exact (applyWrites_mem sample hnd' hx).trans
      (applyWrites_mem sample hnd (List.mem_of_mem_take hx)).symm
  · rw [← htake] at h
    exact applyWrites_other _ h

/-- The entry `variance` is written last: if the sample had none and the interrupted dictionary has
one, all statistics are those of the completed call. -/
theorem C127_last (self : Likelihood) (k : ℕ) {sample : Dict Fl}
    (h0 : sample.get? "variance" = none)
    (h : (self.extraInterrupted k sample).get? "variance" ≠ none) :
    ∃ out, self.generateExtraStatistics sample = .ok out ∧
      ∀ key, (self.extraInterrupted k sample).get? key = out.get? key := by
  obtain ⟨hp, -⟩ := extraWrites_keys self sample
  have hlast : statisticNames self.nPosteriors =
      (((List.range self.nPosteriors).flatMap fun i => [lnBfName i, varName i]) ++
        ["selection", "selection_variance"]) ++ ["variance"] := by
    unfold statisticNames
    simp
  have hmem : "variance" ∈ ((self.extraWrites sample).1.take k).map Prod.fst := by
    by_contra hc
    exact h ((applyWrites_other _ hc).trans h0)
  have hpre : ((self.extraWrites sample).1.take k).map Prod.fst <+:
      statisticNames self.nPosteriors := by
    rw [List.map_take]
    exact (List.take_prefix _ _).trans hp
  have hall : ((self.extraWrites sample).1.take k).map Prod.fst =
      statisticNames self.nPosteriors := by
    rw [hlast] at hpre ⊢
    rcases List.prefix_concat_iff.1 hpre with h1 | h1
    · exact h1
    · exfalso
      have hn := statisticNames_nodup self.nPosteriors
      rw [hlast, List.nodup_append] at hn
      exact hn.2.2 _ (h1.subset hmem) "variance" (by simp) rfl
  have hlen : (self.extraWrites sample).1.length ≤ k := by
    have h1 := congrArg List.length hall
    have h2 := hp.length_le
    simp only [List.length_map, List.length_take] at h1 h2
    omega
  have hsame : self.extraInterrupted k sample = self.extraAfter sample := by
    unfold Likelihood.extraInterrupted Likelihood.extraAfter
    rw [List.take_of_length_le hlen]
  have hnone : (self.extraWrites sample).2 = none := by
    rw [List.take_of_length_le hlen] at hall
    unfold Likelihood.extraWrites at hall ⊢
    cases hconv : self.conversion sample with
    | error e => simp [hconv, hlast] at hall
    | ok φ =>
      simp only [hconv] at hall ⊢
      cases hev : self.perEvent φ with
      | error e => simp [hev, hlast] at hall
      | ok events =>
        have hk := eventWrites_keys events (List.range self.nPosteriors)
        have contra : ∀ w : List (String × Fl), w.map Prod.fst <+:
            ((List.range self.nPosteriors).flatMap fun i => [lnBfName i, varName i]) →
            w.map Prod.fst ≠ statisticNames self.nPosteriors := by
          intro w hw he
          have h1 := hw.length_le
          rw [he] at h1
          unfold statisticNames at h1
          rw [List.length_append] at h1
          simp at h1
        simp only [hev] at hall ⊢
        rcases hw : Likelihood.eventWrites events (List.range self.nPosteriors) with ⟨w, _ | e⟩
        · rw [hw] at hk
          simp only [hw] at hall ⊢
          cases hs : self.selectionWithUncertainty φ with
          | error e => exact absurd (by simpa [hs] using hall) (contra w hk)
          | ok r =>
            obtain ⟨py, s, v⟩ := r
            simp only [hs] at hall ⊢
            cases hd : pyDiv py v (s ^ 2) with
            | error e => exact absurd (by simpa [hd] using hall) (contra w hk)
            | ok q => rfl
        · rw [hw] at hk
          exact absurd (by simpa [hw] using hall) (contra w hk)
  refine ⟨self.extraAfter sample, ?_, fun key => by rw [hsame]⟩
  rw [C127_refines, hnone]

/-- Two dictionaries agree on the entries that are not statistics. -/
def Spec.AgreeOffStatistics (n : ℕ) (d d' : Dict Fl) : Prop :=
  ∀ key, ¬ IsStatistic n key → d.get? key = d'.get? key

/-- The parts of a likelihood do not read the statistics: for dictionaries that differ only in them,
the conversion, the population model and the selection function behave the same. -/
structure Spec.IgnoresStatistics (lik : Likelihood) : Prop where
  conversion : ∀ d d', AgreeOffStatistics lik.nPosteriors d d' →
    (∃ e, lik.conversion d = .error e ∧ lik.conversion d' = .error e) ∨
    ∃ φ φ', lik.conversion d = .ok φ ∧ lik.conversion d' = .ok φ' ∧
      AgreeOffStatistics lik.nPosteriors φ φ'
  prior : ∀ d d', AgreeOffStatistics lik.nPosteriors d d' →
    lik.hyperPrior.prob lik.data d = lik.hyperPrior.prob lik.data d'
  selection : ∀ d d', AgreeOffStatistics lik.nPosteriors d d' →
    lik.selection.call d = lik.selection.call d'

theorem extraWrites_congr {self : Likelihood} (hi : IgnoresStatistics self) {d d' : Dict Fl}
    (h : AgreeOffStatistics self.nPosteriors d d') : self.extraWrites d = self.extraWrites d' := by
  unfold Likelihood.extraWrites
  rcases hi.conversion d d' h with ⟨e, h1, h2⟩ | ⟨φ, φ', h1, h2, h3⟩
  · rw [h1, h2]
  · rw [h1, h2]
    have hp : self.perEvent φ = self.perEvent φ' := by
      unfold Likelihood.perEvent Likelihood.weights
      rw [hi.prior φ φ' h3]
    have hs : self.selectionWithUncertainty φ = self.selectionWithUncertainty φ' := by
      unfold Likelihood.selectionWithUncertainty
      rw [hi.selection φ φ' h3]
    simp only [hp, hs]

/-- Running the method again on what an interrupted, failed or completed call left: the outcome is
that of one uninterrupted call on the original sample — the same exception, or the same entries. -/
theorem C127_rerun {self : Likelihood} (hi : IgnoresStatistics self) (k : ℕ) (sample : Dict Fl) :
    (∀ e, self.generateExtraStatistics sample = .error e →
      self.generateExtraStatistics (self.extraInterrupted k sample) = .error e) ∧
    ∀ out, self.generateExtraStatistics sample = .ok out →
      ∃ out', self.generateExtraStatistics (self.extraInterrupted k sample) = .ok out' ∧
        ∀ key, out'.get? key = out.get? key := by
  have hagree : AgreeOffStatistics self.nPosteriors (self.extraInterrupted k sample) sample :=
    (C127_every_point self k sample).1
  have hw := extraWrites_congr hi hagree
  refine ⟨fun e he => ?_, fun out hout => ?_⟩
  · rw [C127_refines] at he ⊢
    rw [hw]
    cases h2 : (self.extraWrites sample).2 with
    | none => simp [h2] at he
    | some e' => simpa [h2] using he
  · have h2 : (self.extraWrites sample).2 = none := by
      rw [C127_refines] at hout
      cases h2 : (self.extraWrites sample).2 with
      | none => rfl
      | some e' => simp [h2] at hout
    rw [C127_refines, h2] at hout
    have hout' : self.extraAfter sample = out := by simpa using hout
    refine ⟨self.extraAfter (self.extraInterrupted k sample), by rw [C127_refines, hw, h2], ?_⟩
    intro key
    rw [← hout']
    unfold Likelihood.extraAfter
    rw [hw]
    by_cases hs : key ∈ (self.extraWrites sample).1.map Prod.fst
    · obtain ⟨⟨key', v⟩, hx, rfl⟩ := List.mem_map.1 hs
      have hnd : ((self.extraWrites sample).1.map Prod.fst).Nodup :=
        (statisticNames_nodup _).sublist (extraWrites_keys self sample).1.sublist
      rw [applyWrites_mem _ hnd hx, applyWrites_mem _ hnd hx]
    · rw [applyWrites_other _ hs, applyWrites_other _ hs]
      apply hagree
      rw [(extraWrites_keys self sample).2 h2] at hs
      rwa [mem_statisticNames] at hs

theorem not_isStatistic_rate (n : ℕ) : ¬ IsStatistic n "rate" := by
  rintro (⟨i, -, h | h⟩ | h | h | h)
  · exact lnBfName_ne (by decide) h.symm
  · exact varName_ne (by decide) h.symm
  all_goals simp at h

/-- The likelihood may be evaluated at what a call left: it has the value it has at the sample. -/
theorem C127_likelihood {self : Likelihood} (hi : IgnoresStatistics self) (k : ℕ)
    (sample : Dict Fl) :
    self.logLikelihoodRatio (self.extraInterrupted k sample) = self.logLikelihoodRatio sample := by
  have hagree : AgreeOffStatistics self.nPosteriors (self.extraInterrupted k sample) sample :=
    (C127_every_point self k sample).1
  have h : self.lnLikelihoodAndVarianceBase (self.extraInterrupted k sample) =
      self.lnLikelihoodAndVarianceBase sample := by
    unfold Likelihood.lnLikelihoodAndVarianceBase
    rcases hi.conversion _ _ hagree with ⟨e, h1, h2⟩ | ⟨φ, φ', h1, h2, h3⟩
    · rw [h1, h2]
    · rw [h1, h2, ok_bind, ok_bind]
      have hp : self.perEvent φ = self.perEvent φ' := by
        unfold Likelihood.perEvent Likelihood.weights
        rw [hi.prior φ φ' h3]
      have hs : self.selectionFactor φ = self.selectionFactor φ' := by
        unfold Likelihood.selectionFactor Likelihood.selectionFactorHyper
          Likelihood.selectionFactorRate Likelihood.selectionWithUncertainty
        rw [hi.selection φ φ' h3]
        unfold Dict.get
        rw [h3 "rate" (not_isStatistic_rate _)]
      rw [hp, hs]
  unfold Likelihood.logLikelihoodRatio Likelihood.lnLikelihoodAndVariance
  rw [h]

/-- The full property: an operation that raises leaves what it was given as it was — the sample for
`generate_extra_statistics`, the likelihood for an assignment to `maximum_uncertainty`. -/
def C127_statement : Prop :=
  (∀ (self : Likelihood) (sample : Dict Fl) (e : PyErr),
    self.generateExtraStatistics sample = .error e →
      ∀ key, (self.extraAfter sample).get? key = sample.get? key) ∧
  ∀ (self : Likelihood) (l : Likelihood.Limits) (v : Likelihood.LimitValue) (θ : Dict Fl),
    (l.set v).2 ≠ none → self.ratioWithLimits (l.set v).1 θ = self.ratioWithLimits l θ

/-- A call that raises before the selection function is called, in the conversion or the population
model, does leave the sample as it was. -/
theorem C127_unchanged_partial {self : Likelihood} {sample : Dict Fl}
    (h : (∃ e, self.conversion sample = .error e) ∨
      ∃ φ e, self.conversion sample = .ok φ ∧ self.perEvent φ = .error e) :
    self.extraAfter sample = sample ∧ ∃ e, self.generateExtraStatistics sample = .error e := by
  rw [C127_refines]
  rcases h with ⟨e, he⟩ | ⟨φ, e, h1, h2⟩
  · have : self.extraWrites sample = ([], some e) := by
      unfold Likelihood.extraWrites
      rw [he]
    exact ⟨by rw [Likelihood.extraAfter, this]; rfl, e, by rw [this]⟩
  · have : self.extraWrites sample = ([], some e) := by
      unfold Likelihood.extraWrites
      simp only [h1, h2]
    exact ⟨by rw [Likelihood.extraAfter, this]; rfl, e, by rw [this]⟩

/-- An assignment of a number is accepted and determines later values of the likelihood, also after
rejected assignments. -/
theorem C127_limit_accepted (self : Likelihood) (l : Likelihood.Limits) (x : Fl) (θ : Dict Fl) :
    (l.set (.num x)).2 = none ∧
      self.ratioWithLimits (l.set (.num x)).1 θ =
        ({ self with maximumUncertainty := x } : Likelihood).logLikelihoodRatio θ :=
  ⟨rfl, rfl⟩

/-- The toy likelihood with a selection function that raises. -/
def brokenSelection : Likelihood :=
  { toyLikelihood .hyper (.pair true (fin 1) (fin 0)) pinf with
    selection := ⟨fun _ => .error .valueError, none⟩ }

/-- If the selection function raises, the per-event statistics stay in the sample. -/
theorem C127_sample_fails : ∃ (self : Likelihood) (sample : Dict Fl) (e : PyErr),
    self.generateExtraStatistics sample = .error e ∧ sample.get? (lnBfName 0) = none ∧
      (self.extraAfter sample).get? (lnBfName 0) ≠ none := by
  have hev : brokenSelection.perEvent [] =
      .ok (([[1, 3], [1, 1]] : List (List ℝ)).map fun w =>
        (fin (lnBayesFactor w), fin (relativeVariance w))) :=
    toyPerEvent .hyper (.pair true (fin 1) (fin 0)) pinf []
  have hw : brokenSelection.extraWrites [] =
      ([(lnBfName 0, fin (lnBayesFactor [1, 3])), (varName 0, fin (relativeVariance [1, 3])),
        (lnBfName 1, fin (lnBayesFactor [1, 1])), (varName 1, fin (relativeVariance [1, 1]))],
        some .valueError) := by
    unfold Likelihood.extraWrites
    rw [show brokenSelection.conversion [] = .ok [] from rfl]
    simp only [hev]
    rfl
  refine ⟨brokenSelection, [], .valueError, ?_, rfl, ?_⟩
  · rw [C127_refines, hw]
  · rw [Likelihood.extraAfter, hw, applyWrites_mem (v := fin (lnBayesFactor [1, 3]))]
    · simp
    · have := eventNames_nodup [0, 1] (by decide)
      simpa using this
    · simp

/-- A rejected assignment to `maximum_uncertainty` leaves a likelihood that raises. -/
theorem C127_limit_fails (self : Likelihood) (l : Likelihood.Limits) (θ : Dict Fl) :
    (l.set .other).2 = some .typeError ∧
      ∃ e, self.ratioWithLimits (l.set .other).1 θ = .error e := by
  refine ⟨rfl, ?_⟩
  unfold Likelihood.ratioWithLimits
  simp only [Likelihood.Limits.set]
  cases self.lnLikelihoodAndVariance θ with
  | error e => exact ⟨e, rfl⟩
  | ok r => exact ⟨.typeError, rfl⟩

theorem C127_fails : ¬ C127_statement := by
  intro H
  obtain ⟨self, sample, e, h1, h2, h3⟩ := C127_sample_fails
  exact h3 ((H.1 self sample e h1 _).trans h2)

/-! ## Likelihoods that do not read the statistics -/

/-- A population model and a selection function that use named entries only do not read the
statistics, if the names are not those of statistics and the conversion does nothing. -/
theorem Spec.ignoresStatistics_of_names {self : Likelihood} (names : List String)
    (hn : ∀ key ∈ names, ¬ IsStatistic self.nPosteriors key)
    (hc : ∀ d, self.conversion d = .ok d)
    (hp : ∀ d d' : Dict Fl, (∀ key ∈ names, d.get? key = d'.get? key) →
      self.hyperPrior.prob self.data d = self.hyperPrior.prob self.data d')
    (hs : ∀ d d' : Dict Fl, (∀ key ∈ names, d.get? key = d'.get? key) →
      self.selection.call d = self.selection.call d') : IgnoresStatistics self where
  conversion d d' h := .inr ⟨d, d', hc d, hc d', h⟩
  prior d d' h := hp d d' fun key hk => h key (hn key hk)
  selection d d' h := hs d d' fun key hk => h key (hn key hk)

/-- The toy likelihood meets the hypotheses: interrupted after three assignments and run again it has
the entries of one call. -/
example : ∃ out', (toyLikelihood .hyper (.pair true (fin (1 / 2)) (fin (1 / 100))) pinf
      ).generateExtraStatistics ((toyLikelihood .hyper (.pair true (fin (1 / 2)) (fin (1 / 100)))
        pinf).extraInterrupted 3 [("alpha", fin 3)]) = .ok out' ∧
    out'.get? "selection" = some (fin (1 / 2)) ∧ out'.get? "alpha" = some (fin 3) := by
  have hi : IgnoresStatistics
      (toyLikelihood .hyper (.pair true (fin (1 / 2)) (fin (1 / 100))) pinf) :=
    ignoresStatistics_of_names [] (by simp) (fun _ => rfl) (fun _ _ _ => rfl) (fun _ _ _ => rfl)
  obtain ⟨out, h1, h2, h3, -, -, h6⟩ := C50_entries
    (self := toyLikelihood .hyper (.pair true (fin (1 / 2)) (fin (1 / 100))) pinf)
    (sample := [("alpha", fin 3)]) rfl (toyPerEvent _ _ _ _) rfl rfl (by
      show ¬ Fl.eqf ((fin (1 / 2)) ^ 2) 0
      rw [fin_npow, zero_eq, eqf_fin]; norm_num)
  obtain ⟨out', h7, h8⟩ := (C127_rerun hi 3 [("alpha", fin 3)]).2 out h1
  refine ⟨out', h7, (h8 _).trans h3, (h8 _).trans ?_⟩
  rw [h6 "alpha"]
  · rfl
  · rintro (⟨i, -, h | h⟩ | h | h | h)
    · exact lnBfName_ne (by decide) h.symm
    · exact varName_ne (by decide) h.symm
    all_goals simp at h

end GW
