import Verif.Props.RatePosterior
import Verif.Props.PosteriorSamples
import Verif.Lemmas.Scaling

/-!
# Likelihoods of catalogues that are put together (C114)
-/

noncomputable section

open Classical

namespace GW

open Fl Spec

/-- The likelihood object `self` with the given events, each a list of samples. -/
def Spec.catalogue (self : Likelihood) (cols : List String) (usePrior : Bool)
    (events : List (List (String → Fl))) : Likelihood :=
  { withEvents self cols usePrior events with nPosteriors := events.length }

namespace Catalogue

theorem coeff_add {a c : ℝ} (ha : 0 < a) (hc : 0 < c) (x : Fl) : fin (a + c) * x = fin a * x + fin c * x := by
  cases x with
  | fin x => simp [add_mul]
  | pinf => rw [scale_pinf ha, scale_pinf hc, scale_pinf (add_pos ha hc)]; rfl
  | ninf => rw [scale_ninf ha, scale_ninf hc, scale_ninf (add_pos ha hc)]; rfl
  | nan => simp

theorem coeff_add_neg {a c : ℝ} (ha : 0 < a) (hc : 0 < c) (x : Fl) :
    fin (-(a + c)) * x = fin (-a) * x + fin (-c) * x := by
  have hac := add_pos ha hc
  cases x with
  | fin x => rw [fin_mul, fin_mul, fin_mul, fin_add]; congr 1; ring
  | pinf =>
    rw [fin_mul_pinf, fin_mul_pinf, fin_mul_pinf, signInf_neg (by linarith), signInf_neg (by linarith),
      signInf_neg (by linarith)]
    rfl
  | ninf =>
    rw [fin_mul_ninf, fin_mul_ninf, fin_mul_ninf, neg_neg, neg_neg, neg_neg, signInf_pos hac, signInf_pos ha,
      signInf_pos hc]
    rfl
  | nan => simp

theorem natCast_pos {α : Type} {l : List α} (h : l ≠ []) : (0 : ℝ) < l.length :=
  Nat.cast_pos.2 (List.length_pos_iff.2 h)

/-- The sums over all events. -/
def totals (K : ℕ) (w : (String → Fl) → Fl) (events : List (List (String → Fl))) : Fl × Fl :=
  (Arr.sum ((events.map fun e => eventStatistics K (e.map w)).map Prod.fst),
   Arr.sum ((events.map fun e => eventStatistics K (e.map w)).map Prod.snd))

theorem totals_append (K : ℕ) (w : (String → Fl) → Fl) (A B : List (List (String → Fl))) :
    totals K w (A ++ B) = ((totals K w A).1 + (totals K w B).1, (totals K w A).2 + (totals K w B).2) := by
  unfold totals Arr.sum
  simp only [List.map_append, List.sum_append]

/-- What the estimate of a catalogue is made of. -/
theorem base_catalogue {self : Likelihood} {cols : List String} (hmodel : SampleWise self.hyperPrior cols)
    (usePrior : Bool) : ∃ w : Dict Fl → (String → Fl) → Fl, ∀ events θ,
      (catalogue self cols usePrior events).lnLikelihoodAndVarianceBase θ = (do
        let φ ← self.conversion θ
        let p ← (catalogue self cols usePrior events).selectionFactor φ
        return ((totals self.samplesPerPosterior (w φ) events).1 + p.1,
          (totals self.samplesPerPosterior (w φ) events).2 + p.2)) := by
  obtain ⟨w, hw⟩ := weights_withEvents hmodel usePrior
  refine ⟨w, fun events θ => ?_⟩
  unfold Likelihood.lnLikelihoodAndVarianceBase
  have hc : (catalogue self cols usePrior events).conversion = self.conversion := rfl
  rw [hc]
  cases self.conversion θ with
  | error e => rfl
  | ok φ =>
    rw [ok_bind, ok_bind]
    have hw' : (catalogue self cols usePrior events).weights φ = .ok (events.map fun e => e.map (w φ)) :=
      hw events φ
    rw [perEvent_eq hw', ok_bind]
    cases (catalogue self cols usePrior events).selectionFactor φ with
    | error e => rfl
    | ok p =>
      rw [ok_bind, ok_bind]
      obtain ⟨p1, p2⟩ := p
      unfold totals
      simp only [toNumber, id, ite_self, List.map_map, pure_eq_ok]
      rfl

end Catalogue

/-- The estimates of two catalogues and of both together: the log likelihoods add, and the variances add up to
a term from the common selection function, `2 N M var / P_det^2` for `N` and `M` events. -/
def Spec.PutTogether (N M : ℕ) (P v : Fl) (a b ab : Fl × Fl) : Prop :=
  ab.1 = a.1 + b.1 ∧ ab.2 = a.2 + b.2 + fin (2 * N * M) * (v / P ^ 2)

/-- The same with a rate: the expected number of detections is counted twice in the sum. -/
def Spec.PutTogetherRate (P v R : Fl) (a b ab : Fl × Fl) : Prop :=
  a.1 + b.1 = ab.1 + -(P * R) ∧ ∃ x, (x = P * R * v / P ^ 2) ∧ a.2 + b.2 = ab.2 + x

namespace Catalogue

/-- **C114**: the likelihood of two catalogues put together is the product of their likelihoods, for every model
that evaluates samples by themselves, all values of weights and selection function, and the same exceptions
are raised. -/
theorem C114_hyper {self : Likelihood} {cols : List String} (hmodel : SampleWise self.hyperPrior cols)
    (hcls : self.cls = .hyper) (usePrior : Bool) {A B : List (List (String → Fl))} (hA : A ≠ []) (hB : B ≠ [])
    (θ : Dict Fl) :
    (∃ e, ∀ events, (catalogue self cols usePrior events).lnLikelihoodAndVariance θ = .error e) ∨
    ∃ a b ab py P v φ, self.conversion θ = .ok φ ∧ self.selectionWithUncertainty φ = .ok (py, P, v) ∧
      (catalogue self cols usePrior A).lnLikelihoodAndVariance θ = .ok a ∧
      (catalogue self cols usePrior B).lnLikelihoodAndVariance θ = .ok b ∧
      (catalogue self cols usePrior (A ++ B)).lnLikelihoodAndVariance θ = .ok ab ∧
      PutTogether A.length B.length P v a b ab := by
  obtain ⟨w, hw⟩ := base_catalogue hmodel usePrior
  have hval : ∀ events, (catalogue self cols usePrior events).lnLikelihoodAndVariance θ = (do
      let φ ← self.conversion θ
      let p ← self.selectionWithUncertainty φ
      return ((totals self.samplesPerPosterior (w φ) events).1 +
          -(events.length : Fl) * Fl.log p.2.1,
        (totals self.samplesPerPosterior (w φ) events).2 + (events.length : Fl) ^ 2 * (p.2.2 / p.2.1 ^ 2))) := by
    intro events
    unfold Likelihood.lnLikelihoodAndVariance
    rw [hw]
    have h1 : (catalogue self cols usePrior events).cls = .hyper := hcls
    unfold Likelihood.selectionFactor
    rw [h1]
    cases self.conversion θ with
    | error e => rfl
    | ok φ =>
      simp only [ok_bind]
      unfold Likelihood.selectionFactorHyper
      have h2 : (catalogue self cols usePrior events).selectionWithUncertainty φ =
        self.selectionWithUncertainty φ := rfl
      rw [h2]
      cases self.selectionWithUncertainty φ with
      | error e => rfl
      | ok p => rfl
  cases hφ : self.conversion θ with
  | error e =>
    left
    exact ⟨e, fun events => by rw [hval, hφ]; rfl⟩
  | ok φ =>
    cases hs : self.selectionWithUncertainty φ with
    | error e =>
      left
      exact ⟨e, fun events => by rw [hval, hφ, ok_bind, hs]; rfl⟩
    | ok p =>
      right
      obtain ⟨py, P, v⟩ := p
      have hN := natCast_pos hA
      have hM := natCast_pos hB
      refine ⟨_, _, _, py, P, v, φ, rfl, hs, by rw [hval, hφ, ok_bind, hs, ok_bind]; rfl,
        by rw [hval, hφ, ok_bind, hs, ok_bind]; rfl, by rw [hval, hφ, ok_bind, hs, ok_bind]; rfl, ?_, ?_⟩
      · simp only [totals_append, List.length_append, natCast_eq, Nat.cast_add, fin_neg]
        rw [coeff_add_neg hN hM, add_add_add_comm]
      · simp only [totals_append, List.length_append, natCast_eq, Nat.cast_add, fin_npow]
        have : ((A.length : ℝ) + B.length) ^ 2 =
            ((A.length : ℝ) ^ 2 + (B.length : ℝ) ^ 2) + 2 * A.length * B.length := by ring
        rw [this, coeff_add (by positivity) (by positivity), coeff_add (by positivity) (by positivity),
          ← add_assoc, add_add_add_comm]

/-- **C114** for the rate likelihood: the expected number of detections enters once. -/
theorem C114_rate {self : Likelihood} {cols : List String} (hmodel : SampleWise self.hyperPrior cols)
    (hcls : self.cls = .rate) (usePrior : Bool) {A B : List (List (String → Fl))} (hA : A ≠ []) (hB : B ≠ [])
    (θ : Dict Fl) :
    (∃ e, ∀ events, (catalogue self cols usePrior events).lnLikelihoodAndVariance θ = .error e) ∨
    ∃ a b ab py P v R φ, self.conversion θ = .ok φ ∧ self.selectionWithUncertainty φ = .ok (py, P, v) ∧
      φ.get "rate" = .ok R ∧
      (catalogue self cols usePrior A).lnLikelihoodAndVariance θ = .ok a ∧
      (catalogue self cols usePrior B).lnLikelihoodAndVariance θ = .ok b ∧
      (catalogue self cols usePrior (A ++ B)).lnLikelihoodAndVariance θ = .ok ab ∧
      PutTogetherRate P v R a b ab := by
  obtain ⟨w, hw⟩ := base_catalogue hmodel usePrior
  have hval : ∀ events, (catalogue self cols usePrior events).lnLikelihoodAndVariance θ = (do
      let φ ← self.conversion θ
      let p ← self.selectionWithUncertainty φ
      let R ← φ.get "rate"
      let v ← pyDiv p.1 (p.2.1 * R * p.2.2) (p.2.1 ^ 2)
      return ((totals self.samplesPerPosterior (w φ) events).1 +
          (-(p.2.1 * R) + (events.length : Fl) * Fl.log R),
        (totals self.samplesPerPosterior (w φ) events).2 + v)) := by
    intro events
    unfold Likelihood.lnLikelihoodAndVariance
    rw [hw]
    have h1 : (catalogue self cols usePrior events).cls = .rate := hcls
    unfold Likelihood.selectionFactor
    rw [h1]
    cases self.conversion θ with
    | error e => rfl
    | ok φ =>
      simp only [ok_bind]
      unfold Likelihood.selectionFactorRate
      have h2 : (catalogue self cols usePrior events).selectionWithUncertainty φ =
        self.selectionWithUncertainty φ := rfl
      rw [h2]
      cases self.selectionWithUncertainty φ with
      | error e => rfl
      | ok p =>
        obtain ⟨py, P, v⟩ := p
        simp only [ok_bind]
        cases φ.get "rate" with
        | error e => rfl
        | ok R =>
          simp only [ok_bind]
          cases pyDiv py (P * R * v) (P ^ 2) <;> rfl
  cases hφ : self.conversion θ with
  | error e =>
    left
    exact ⟨e, fun events => by rw [hval, hφ]; rfl⟩
  | ok φ =>
    cases hs : self.selectionWithUncertainty φ with
    | error e =>
      left
      exact ⟨e, fun events => by rw [hval, hφ, ok_bind, hs]; rfl⟩
    | ok p =>
      obtain ⟨py, P, v⟩ := p
      cases hR : φ.get "rate" with
      | error e =>
        left
        exact ⟨e, fun events => by rw [hval, hφ, ok_bind, hs, ok_bind, hR]; rfl⟩
      | ok R =>
        cases hd : pyDiv py (P * R * v) (P ^ 2) with
        | error e =>
          left
          refine ⟨e, fun events => ?_⟩
          rw [hval, hφ, ok_bind, hs, ok_bind, hR, ok_bind]
          simp only [hd]
          rfl
        | ok x =>
          right
          have hN := natCast_pos hA
          have hM := natCast_pos hB
          have hv : ∀ events, (catalogue self cols usePrior events).lnLikelihoodAndVariance θ =
              .ok ((totals self.samplesPerPosterior (w φ) events).1 + (-(P * R) + (events.length : Fl) * Fl.log R),
                (totals self.samplesPerPosterior (w φ) events).2 + x) := fun events => by
            rw [hval, hφ, ok_bind, hs, ok_bind, hR, ok_bind]
            simp only [hd, ok_bind, pure_eq_ok]
          refine ⟨_, _, _, py, P, v, R, φ, rfl, hs, hR, hv A, hv B, hv (A ++ B), ?_, x, ?_, ?_⟩
          · simp only [totals_append, List.length_append, natCast_eq, Nat.cast_add]
            rw [coeff_add hN hM]
            generalize -(P * R) = E
            generalize fin (A.length : ℝ) * Fl.log R = a
            generalize fin (B.length : ℝ) * Fl.log R = c
            abel
          · unfold pyDiv at hd
            split_ifs at hd
            exact (Except.ok.inj hd).symm
          · simp only [totals_append]
            abel

/-! ### From the posteriors -/

/-- The samples picked from every posterior. -/
def _root_.GW.Spec.picked (posteriors : List Frame) (picks : List (List ℕ)) : List (List (String → Fl)) :=
  (posteriors.zip picks).map fun p => p.2.map fun j => p.1.rows.getD j fun _ => nan

theorem picked_append {A B : List Frame} {pA pB : List (List ℕ)} (h : A.length = pA.length) :
    picked (A ++ B) (pA ++ pB) = picked A pA ++ picked B pB := by
  unfold picked
  rw [List.zip_append h, List.map_append]

theorem picked_length {A : List Frame} {pA : List (List ℕ)} (h : A.length = pA.length) :
    (picked A pA).length = A.length := by
  unfold picked
  simp [h]

theorem minSamples_le (l : List Frame) (K : ℕ) (h : ∀ p ∈ l, K ≤ p.rows.length) :
    minSamples l (some K) = some K := by
  induction l with
  | nil => rfl
  | cons p l ih =>
    unfold minSamples
    rw [min_eq_right (h p (by simp)), ih fun q hq => h q (List.mem_cons_of_mem _ hq)]

theorem get?_columns {α : Type} (cols : List String) (g : String → α) (k : String) :
    Dict.get? (cols.map fun c => (c, g c)) k = if k ∈ cols then some (g k) else none := by
  induction cols with
  | nil => rfl
  | cons c cols ih =>
    rw [List.map_cons, Dict.get?_cons, ih]
    by_cases h : k = c
    · subst h; simp
    · simp [h]

/-- The object constructed from posteriors with the same columns and at least `K` samples each. -/
theorem init_catalogue (cls : LikelihoodClass) (backend : Backend) {posteriors : List Frame}
    {hyperPrior : HyperPriorArg} {model : PopModel (Dict Mat) Mat}
    (hm : Likelihood.checkHyperPrior hyperPrior = .ok model) (lnEvidences : Option (List Fl)) (K : ℕ)
    (selection : SelectionFn) (conversion : Dict Fl → Except PyErr (Dict Fl)) (limit : Fl) {picks : List (List ℕ)}
    {cols : List String} (hcols : ∀ p ∈ posteriors, p.columns = cols)
    (hK : ∀ p ∈ posteriors, K ≤ p.rows.length) (hne : posteriors ≠ []) (hpicks : posteriors.length = picks.length) :
    Likelihood.init cls backend posteriors hyperPrior lnEvidences (some K) selection conversion limit picks =
      .ok { catalogue ⟨cls, backend, [], model, none, nan, conversion, selection, 0, K, limit,
          Likelihood.maxVarianceOf limit⟩ (cols.filter (· ≠ "prior")) (decide ("prior" ∈ cols))
          (picked posteriors picks) with
        totalNoiseEvidence := match lnEvidences with
          | some l => Arr.sum l
          | none => nan } := by
  obtain ⟨p0, ps, rfl⟩ := List.exists_cons_of_ne_nil hne
  have hr := resample_eq (minSamples_le _ K hK) (fun key hk p hp => by
    rw [hcols p hp, ← hcols p0 (by simp)]; exact hk) picks
  unfold Likelihood.init
  rw [hr, ok_bind, hm, hcols p0 (by simp)]
  simp only [ok_bind, pure_eq_ok]
  unfold catalogue withEvents columnsOf
  congr 2
  · unfold Dict.erase picked
    rw [List.filter_map]
    refine List.map_congr_left fun c _ => ?_
    simp only [List.map_map, Function.comp_def]
  · rw [get?_columns cols fun key => ((p0 :: ps).zip picks).map fun pi =>
        pi.2.map fun j => (pi.1.rows.getD j fun _ => nan) key]
    unfold picked
    simp only [List.map_map, decide_eq_true_eq, Function.comp_def]
  · exact (picked_length hpicks).symm

/-- **C114**: three likelihood objects constructed from two lists of posteriors and from both lists together, with
the same `max_samples` and the same rows picked: the log likelihoods add, as do the noise evidences. -/
theorem C114_constructed (backend : Backend) {A B : List Frame} {hyperPrior : HyperPriorArg}
    {model : PopModel (Dict Mat) Mat} (hm : Likelihood.checkHyperPrior hyperPrior = .ok model)
    (evA evB : List Fl) (K : ℕ) (selection : SelectionFn) (conversion : Dict Fl → Except PyErr (Dict Fl)) (limit : Fl)
    {pA pB : List (List ℕ)} {cols : List String} (hcols : ∀ p ∈ A ++ B, p.columns = cols)
    (hmodel : SampleWise model (cols.filter (· ≠ "prior")))
    (hK : ∀ p ∈ A ++ B, K ≤ p.rows.length) (hA : A ≠ []) (hB : B ≠ []) (hpA : A.length = pA.length)
    (hpB : B.length = pB.length) :
    ∃ LA LB L : Likelihood,
      Likelihood.init .hyper backend A hyperPrior (some evA) (some K) selection conversion limit pA = .ok LA ∧
      Likelihood.init .hyper backend B hyperPrior (some evB) (some K) selection conversion limit pB = .ok LB ∧
      Likelihood.init .hyper backend (A ++ B) hyperPrior (some (evA ++ evB)) (some K) selection conversion limit
        (pA ++ pB) = .ok L ∧
      L.noiseLogLikelihood = LA.noiseLogLikelihood + LB.noiseLogLikelihood ∧
      ∀ θ, (∃ e, LA.lnLikelihoodAndVariance θ = .error e ∧ LB.lnLikelihoodAndVariance θ = .error e ∧
          L.lnLikelihoodAndVariance θ = .error e) ∨
        ∃ a b ab py P v φ, conversion θ = .ok φ ∧ L.selectionWithUncertainty φ = .ok (py, P, v) ∧
          LA.lnLikelihoodAndVariance θ = .ok a ∧ LB.lnLikelihoodAndVariance θ = .ok b ∧
          L.lnLikelihoodAndVariance θ = .ok ab ∧ PutTogether A.length B.length P v a b ab := by
  refine ⟨_, _, _,
    init_catalogue .hyper backend hm (some evA) K selection conversion limit
      (fun p hp => hcols p (List.mem_append_left _ hp)) (fun p hp => hK p (List.mem_append_left _ hp)) hA hpA,
    init_catalogue .hyper backend hm (some evB) K selection conversion limit
      (fun p hp => hcols p (List.mem_append_right _ hp)) (fun p hp => hK p (List.mem_append_right _ hp)) hB hpB,
    init_catalogue .hyper backend hm (some (evA ++ evB)) K selection conversion limit hcols hK (by simp [hA])
      (by simp [hpA, hpB]), ?_, fun θ => ?_⟩
  · show Arr.sum (evA ++ evB) = Arr.sum evA + Arr.sum evB
    unfold Arr.sum
    rw [List.sum_append]
  · have hne : ∀ {C : List Frame} {pC : List (List ℕ)}, C ≠ [] → C.length = pC.length → picked C pC ≠ [] := by
      intro C pC hC hl h
      have := picked_length hl
      rw [h] at this
      exact hC (List.length_eq_zero_iff.1 this.symm)
    have h := C114_hyper (self := ⟨.hyper, backend, [], model, none, nan, conversion, selection, 0, K, limit,
          Likelihood.maxVarianceOf limit⟩) hmodel rfl (decide ("prior" ∈ cols)) (hne hA hpA) (hne hB hpB) θ
    rw [← picked_append hpA, picked_length hpA, picked_length hpB] at h
    rcases h with ⟨e, h⟩ | h
    · exact .inl ⟨e, h _, h _, h _⟩
    · exact .inr h

/-! ### Copies of samples -/

theorem sum_replicate_flatten (n : ℕ) (l : List Fl) (hn : 0 < n) :
    ((List.replicate n l).flatten).sum = fin n * l.sum := by
  induction n with
  | zero => omega
  | succ n ih =>
    rcases Nat.eq_zero_or_pos n with rfl | hn
    · simp [Fl.one_mul]
      exact (Fl.one_mul _).symm
    · rw [List.replicate_succ, List.flatten_cons, List.sum_append, ih hn, Nat.cast_succ, add_comm,
        coeff_add (by exact_mod_cast hn) one_pos]
      congr 1
      exact (Fl.one_mul _).symm

theorem mean_copies (n : ℕ) (hn : 0 < n) (l : List Fl) : Arr.mean ((List.replicate n l).flatten) = Arr.mean l := by
  have hn' : (0 : ℝ) < n := by exact_mod_cast hn
  unfold Arr.mean
  rw [sum_replicate_flatten n l hn, natCast_eq, natCast_eq]
  have : ((List.replicate n l).flatten.length : ℝ) = n * l.length := by simp
  rw [this, ← fin_mul, scale_cancel hn']

/-- **C114**: copying the samples of every event changes no log likelihood. -/
theorem C114_copies {self : Likelihood} {cols : List String} (hmodel : SampleWise self.hyperPrior cols)
    (usePrior : Bool) (events : List (List (String → Fl)))
    (copies : List (String → Fl) → ℕ) (hc : ∀ e, 0 < copies e) (θ : Dict Fl) :
    ((catalogue self cols usePrior (events.map fun e => (List.replicate (copies e) e).flatten)
        ).lnLikelihoodAndVariance θ).map Prod.fst =
      ((catalogue self cols usePrior events).lnLikelihoodAndVariance θ).map Prod.fst := by
  obtain ⟨w, hw⟩ := base_catalogue hmodel usePrior
  unfold Likelihood.lnLikelihoodAndVariance
  rw [hw, hw]
  cases self.conversion θ with
  | error e => rfl
  | ok φ =>
    rw [ok_bind, ok_bind]
    have ht : (totals self.samplesPerPosterior (w φ) (events.map fun e => (List.replicate (copies e) e).flatten)).1 =
        (totals self.samplesPerPosterior (w φ) events).1 := by
      unfold totals
      simp only [List.map_map]
      congr 1
      refine List.map_congr_left fun e _ => ?_
      simp only [Function.comp, eventStatistics]
      rw [List.map_flatten, List.map_replicate, mean_copies _ (hc e)]
    have hs : (catalogue self cols usePrior (events.map fun e => (List.replicate (copies e) e).flatten)
        ).selectionFactor φ = (catalogue self cols usePrior events).selectionFactor φ := by
      unfold Likelihood.selectionFactor Likelihood.selectionFactorHyper Likelihood.selectionFactorRate
        Likelihood.selectionWithUncertainty catalogue withEvents
      simp only [List.length_map]
    rw [hs]
    cases (catalogue self cols usePrior events).selectionFactor φ with
    | error e => rfl
    | ok p =>
      rw [ok_bind, ok_bind, ht]
      have h1 : (catalogue self cols usePrior (events.map fun e => (List.replicate (copies e) e).flatten)).cls =
        self.cls := rfl
      have h2 : (catalogue self cols usePrior events).cls = self.cls := rfl
      simp only [pure_eq_ok, ok_bind]
      rw [h1, h2]
      cases self.cls <;> rfl

/-! ### The hypotheses hold -/

/-- **Non-vacuity of `C114_constructed`**: two posteriors with two samples and one with three, a density that is
the square of the mass, and `max_samples = 2`. -/
example : ∃ LA LB L : Likelihood, ∃ sel conv,
    Likelihood.init .hyper .numpy [⟨["mass_1", "prior"], [fun _ => fin 1, fun _ => fin 2]⟩]
      (.function fun d _ => do
        let m ← d.get "mass_1"
        return m.map fun r => r.map (· ^ 2)) (some [fin 1]) (some 2) sel conv pinf [[1, 0]] = .ok LA ∧
    Likelihood.init .hyper .numpy [⟨["mass_1", "prior"], [fun _ => fin 3, fun _ => fin 4, fun _ => fin 5]⟩]
      (.function fun d _ => do
        let m ← d.get "mass_1"
        return m.map fun r => r.map (· ^ 2)) (some [fin 2]) (some 2) sel conv pinf [[0, 2]] = .ok LB ∧
    Likelihood.init .hyper .numpy ([⟨["mass_1", "prior"], [fun _ => fin 1, fun _ => fin 2]⟩] ++
        [⟨["mass_1", "prior"], [fun _ => fin 3, fun _ => fin 4, fun _ => fin 5]⟩])
      (.function fun d _ => do
        let m ← d.get "mass_1"
        return m.map fun r => r.map (· ^ 2)) (some ([fin 1] ++ [fin 2])) (some 2) sel conv pinf
      ([[1, 0]] ++ [[0, 2]]) = .ok L ∧
    L.noiseLogLikelihood = LA.noiseLogLikelihood + LB.noiseLogLikelihood := by
  have hmodel : SampleWise ⟨[.other], fun d _ => do
      let m ← d.get "mass_1"
      return m.map fun r => r.map (· ^ 2)⟩ (["mass_1", "prior"].filter (· ≠ "prior")) := by
    refine ⟨fun _ s => s "mass_1" ^ 2, fun events φ => ?_⟩
    show (do
      let m ← Dict.get [("mass_1", events.map fun e => e.map fun s => s "mass_1")] "mass_1"
      return m.map fun r => r.map (· ^ 2) : Except PyErr Mat) = _
    unfold Dict.get
    simp only [Dict.get?_cons, if_true, ok_bind, pure_eq_ok, List.map_map]
    simp only [Function.comp_def, List.map_map]
  obtain ⟨LA, LB, L, h1, h2, h3, h4, -⟩ := C114_constructed .numpy (hyperPrior := .function fun d _ => do
        let m ← d.get "mass_1"
        return m.map fun r => r.map (· ^ 2)) rfl
    (A := [⟨["mass_1", "prior"], [fun _ => fin 1, fun _ => fin 2]⟩])
    (B := [⟨["mass_1", "prior"], [fun _ => fin 3, fun _ => fin 4, fun _ => fin 5]⟩])
    [fin 1] [fin 2] 2 ⟨fun _ => .ok (.bare true (fin 1)), none⟩ (fun θ => .ok θ) pinf
    (pA := [[1, 0]]) (pB := [[0, 2]]) (cols := ["mass_1", "prior"]) (by simp) hmodel (by simp) (by simp) (by simp)
    rfl rfl
  exact ⟨LA, LB, L, _, _, h1, h2, h3, h4⟩

end Catalogue

end GW
