import Verif.Props.PosteriorSamples
import Verif.Model.Predictive
import Verif.Lemmas.Finite

/-!
# C153: which hyper-samples can be used for predictive resampling
-/

noncomputable section

open Classical

namespace GW

open Fl Spec

/-! ## Specification -/

/-- The table with the given samples as rows and the given columns. -/
def Spec.tableOf (names : List String) (samples : List (Dict Fl)) : HyperSamples :=
  .frame (names.map fun k => (k, samples.map fun s => (s.get? k).getD nan)) samples.length

/-- Whatever the hyper-parameters, the importance weights have one row per event and one entry per sample, and none is
negative. -/
def Spec.ProperWeights (lik : Likelihood) : Prop :=
  ∀ φ w, lik.weights φ = .ok w → w.length = lik.nPosteriors ∧ ∀ row ∈ w, row.length = lik.samplesPerPosterior ∧
    ∀ x ∈ row, ¬ x < 0

/-- The log-likelihood of the hyper-sample is finite. -/
def Spec.FiniteLikelihood (lik : Likelihood) (s : Dict Fl) : Prop :=
  ∃ L v, lik.lnLikelihoodAndVariance s = .ok (fin L, v)

/-- The hyper-sample can be evaluated and excludes event `i`: all weights of its samples are zero. -/
def Spec.Excludes (lik : Likelihood) (i : ℕ) (s : Dict Fl) : Prop :=
  ∃ φ w row, lik.conversion s = .ok φ ∧ lik.weights φ = .ok w ∧ w[i]? = some row ∧ ∀ x ∈ row, x = 0

/-! ## Formats -/

namespace Predictive

theorem row_eq {names : List String} {s : Dict Fl} (hnd : names.Nodup) (hk : s.keys = names) :
    (names.map fun k => (k, (s.get? k).getD nan)) = s := by
  subst hk
  induction s with
  | nil => rfl
  | cons p s ih =>
    obtain ⟨k, v⟩ := p
    have hk : Dict.keys ((k, v) :: s) = k :: Dict.keys s := rfl
    rw [hk] at hnd ⊢
    rw [List.nodup_cons] at hnd
    rw [List.map_cons, Dict.get?_cons, if_pos rfl]
    refine congrArg₂ _ rfl ?_
    refine Eq.trans (List.map_congr_left fun k' hk' => ?_) (ih hnd.2)
    rw [Dict.get?_cons, if_neg]
    rintro rfl
    exact hnd.1 hk'

end Predictive

open Predictive

/-- **C153, formats.** A table gives the same result as the list of its rows, and a dictionary the same as the list with
this one sample. -/
theorem C153_formats (lik : Likelihood) (choices : List (List ℕ)) :
    (∀ (names : List String) (samples : List (Dict Fl)), names.Nodup → (∀ s ∈ samples, s.keys = names) →
      lik.posteriorPredictiveResampleOf (tableOf names samples) choices =
        lik.posteriorPredictiveResampleOf (.list samples) choices) ∧
    ∀ s, lik.posteriorPredictiveResampleOf (.dict s) choices =
      lik.posteriorPredictiveResampleOf (.list [s]) choices := by
  refine ⟨fun names samples hnd hk => ?_, fun s => rfl⟩
  unfold Likelihood.posteriorPredictiveResampleOf
  congr 1
  simp only [tableOf, HyperSamples.rows, List.map_map, Function.comp_def]
  refine List.ext_getElem (by simp) fun i h1 h2 => ?_
  simp only [List.getElem_map, List.getElem_range]
  conv_rhs => rw [← row_eq hnd (hk samples[i] (List.getElem_mem h2))]
  refine List.map_congr_left fun k _ => ?_
  congr 1
  rw [List.getD_eq_getElem?_getD, List.getElem?_map, List.getElem?_eq_getElem h2]
  rfl

/-! ## Samples that can be used -/

namespace Predictive

/-- A row whose logarithm of the mean is finite. -/
theorem row_good {row : List Fl} (hn : ∀ x ∈ row, ¬ x < 0) (h : isFinite (Fl.log (Arr.mean row))) :
    ∃ r : List ℝ, row = r.map fin ∧ (∀ x ∈ r, 0 ≤ x) ∧ 0 < r.sum := by
  have hm : ∃ m : ℝ, 0 < m ∧ Arr.mean row = fin m := by
    cases hx : Arr.mean row with
    | fin m =>
      rw [hx] at h
      rcases lt_trichotomy m 0 with hm | hm | hm
      · rw [log_fin_neg hm] at h
        exact h.elim
      · rw [hm, log_zero] at h
        exact h.elim
      · exact ⟨m, hm, rfl⟩
    | pinf => rw [hx] at h; exact h.elim
    | ninf => rw [hx] at h; exact h.elim
    | nan => rw [hx] at h; exact h.elim
  obtain ⟨m, hm, he⟩ := hm
  have hf : isFinite row.sum := by
    refine isFinite_of_div (b := (row.length : Fl)) ?_
    have : Arr.mean row = row.sum / (row.length : Fl) := rfl
    rw [← this, he]
    trivial
  obtain ⟨r, rfl⟩ := exists_map_fin (sum_isFinite hf)
  refine ⟨r, rfl, fun x hx => ?_, ?_⟩
  · have := hn (fin x) (List.mem_map.2 ⟨x, hx, rfl⟩)
    rw [zero_eq, fin_lt] at this
    exact not_lt.1 this
  · have h0 : 0 ≤ r.sum := List.sum_nonneg fun x hx => by
      have := hn (fin x) (List.mem_map.2 ⟨x, hx, rfl⟩)
      rw [zero_eq, fin_lt] at this
      exact not_lt.1 this
    rcases h0.lt_or_eq with h0 | h0
    · exact h0
    · exfalso
      have e : Arr.mean (r.map fin) = fin r.sum / (((r.map fin).length : ℕ) : Fl) := by
        rw [← sum_fin]; rfl
      rw [e, ← h0, natCast_eq] at he
      by_cases hl : (((r.map fin).length : ℕ) : ℝ) = 0
      · rw [hl] at he
        simp at he
      · rw [fin_div hl, zero_div] at he
        injection he with he
        exact hm.ne he

theorem range_getD (r : List ℝ) : ((List.range r.length).map fun j => r.getD j 0) = r := by
  refine List.ext_getElem (by simp) fun i h1 h2 => ?_
  simp only [List.getElem_map, List.getElem_range]
  rw [List.getD_eq_getElem?_getD, List.getElem?_eq_getElem h2]
  rfl

theorem tabulate_getD {R : List (List ℝ)} {N K : ℕ} (hN : R.length = N) (hK : ∀ r ∈ R, r.length = K) :
    tabulate N K (fun i j => (R.getD i []).getD j 0) = R := by
  subst hN
  unfold tabulate
  refine List.ext_getElem (by simp) fun i h1 h2 => ?_
  simp only [List.getElem_map, List.getElem_range]
  rw [List.getD_eq_getElem?_getD, List.getElem?_eq_getElem h2, ← hK _ (List.getElem_mem h2)]
  exact range_getD _

theorem exists_matFin {w : Mat} {Q : List ℝ → Prop} (h : ∀ row ∈ w, ∃ r : List ℝ, row = r.map fin ∧ Q r) :
    ∃ R : List (List ℝ), w = matFin R ∧ ∀ r ∈ R, Q r := by
  induction w with
  | nil => exact ⟨[], rfl, by simp⟩
  | cons row w ih =>
    obtain ⟨r, rfl, hr⟩ := h _ List.mem_cons_self
    obtain ⟨R, rfl, hR⟩ := ih fun x hx => h x (List.mem_cons_of_mem _ hx)
    refine ⟨r :: R, rfl, fun x hx => ?_⟩
    rcases List.mem_cons.1 hx with rfl | hx
    · exact hr
    · exact hR x hx

theorem sum_range_getD (r : List ℝ) : ∑ j ∈ Finset.range r.length, r.getD j 0 = r.sum := by
  rw [Finset.sum_range, ← List.sum_ofFn]
  congr 1
  refine List.ext_getElem (by simp) fun i h1 h2 => ?_
  rw [List.getElem_ofFn]
  simp only
  rw [List.getD_eq_getElem?_getD, List.getElem?_eq_getElem h2]
  rfl

/-- A hyper-sample with finite log-likelihood. -/
theorem finite_good {lik : Likelihood} (hp : ProperWeights lik) (hcls : lik.cls ≠ .null) {s : Dict Fl}
    (h : FiniteLikelihood lik s) : ∃ w : ℕ → ℕ → ℝ,
      (∃ φ, lik.conversion s = .ok φ ∧
        lik.weights φ = .ok (matFin (tabulate lik.nPosteriors lik.samplesPerPosterior w))) ∧
      (∀ i < lik.nPosteriors, ∀ j < lik.samplesPerPosterior, 0 ≤ w i j) ∧
      ∀ i < lik.nPosteriors, 0 < ∑ k ∈ Finset.range lik.samplesPerPosterior, w i k := by
  obtain ⟨L, v, h⟩ := h
  unfold Likelihood.lnLikelihoodAndVariance at h
  obtain ⟨lv, hb, h⟩ := bind_eq_ok.1 h
  have hL : lv.1 = fin L := by
    cases hc : lik.cls with
    | null => exact absurd hc hcls
    | hyper =>
      rw [hc] at h
      injection h with h
      exact congrArg Prod.fst h
    | rate =>
      rw [hc] at h
      injection h with h
      exact congrArg Prod.fst h
  unfold Likelihood.lnLikelihoodAndVarianceBase at hb
  obtain ⟨φ, hφ, hb⟩ := bind_eq_ok.1 hb
  obtain ⟨ev, hev, hb⟩ := bind_eq_ok.1 hb
  obtain ⟨sel, hsel, hb⟩ := bind_eq_ok.1 hb
  simp only [pure_eq_ok] at hb
  injection hb with hb
  have hfin : isFinite (Arr.sum (ev.map Prod.fst)) := by
    have : isFinite (Arr.sum (ev.map Prod.fst) + sel.1) := by
      rw [show Arr.sum (ev.map Prod.fst) + sel.1 = lv.1 from congrArg Prod.fst hb, hL]
      trivial
    exact (isFinite_add.1 this).1
  unfold Likelihood.perEvent at hev
  obtain ⟨w, hw, hev⟩ := bind_eq_ok.1 hev
  rw [pure_eq_ok] at hev
  injection hev with hev
  obtain ⟨hN, hrows⟩ := hp φ w hw
  have hgood : ∀ row ∈ w, ∃ r : List ℝ, row = r.map fin ∧
      (r.length = lik.samplesPerPosterior ∧ (∀ x ∈ r, 0 ≤ x) ∧ 0 < r.sum) := by
    intro row hrow
    have hl : isFinite (Fl.log (Arr.mean row)) := by
      refine sum_isFinite hfin _ ?_
      rw [← hev, List.map_map]
      exact List.mem_map.2 ⟨row, hrow, rfl⟩
    obtain ⟨r, rfl, h1, h2⟩ := row_good (hrows row hrow).2 hl
    refine ⟨r, rfl, ?_, h1, h2⟩
    have := (hrows _ hrow).1
    rwa [List.length_map] at this
  obtain ⟨R, rfl, hR⟩ := exists_matFin hgood
  have hRN : R.length = lik.nPosteriors := by
    rw [← hN]
    simp [matFin]
  have hget : ∀ i < lik.nPosteriors, R.getD i [] ∈ R := by
    intro i hi
    rw [← hRN] at hi
    rw [List.getD_eq_getElem?_getD, List.getElem?_eq_getElem hi]
    exact List.getElem_mem hi
  refine ⟨fun i j => (R.getD i []).getD j 0, ⟨φ, hφ, ?_⟩, fun i hi j hj => ?_, fun i hi => ?_⟩
  · rw [tabulate_getD hRN fun r hr => (hR r hr).1]
    exact hw
  · obtain ⟨h1, h2, -⟩ := hR _ (hget i hi)
    rw [← h1] at hj
    show 0 ≤ (R.getD i []).getD j 0
    generalize R.getD i [] = r at h2 hj
    rw [List.getD_eq_getElem?_getD, List.getElem?_eq_getElem hj]
    exact h2 _ (List.getElem_mem hj)
  · obtain ⟨h1, -, h3⟩ := hR _ (hget i hi)
    show 0 < ∑ k ∈ Finset.range lik.samplesPerPosterior, (R.getD i []).getD k 0
    rw [← h1, sum_range_getD]
    exact h3

end Predictive

/-- **C153, samples of the posterior.** Hyper-samples at which the log-likelihood is finite can be used: the resampling
succeeds for every outcome of the random choice, and the weights are those of C53. -/
theorem C153_usable {lik : Likelihood} (hp : ProperWeights lik) (hcls : lik.cls ≠ .null)
    {samples : HyperSamples} (hne : samples.rows ≠ []) (h : ∀ s ∈ samples.rows, FiniteLikelihood lik s) :
    (∃ w, GoodSamples lik samples.rows w) ∧
    ∀ choices : List (List ℕ), ∃ new W, lik.posteriorPredictiveResampleOf samples choices = .ok (new, W) := by
  have hg : ∃ w, GoodSamples lik samples.rows w := by
    refine ⟨fun s => if hs : s ∈ samples.rows then (finite_good hp hcls (h s hs)).choose else fun _ _ => 0,
      fun s hs => ?_⟩
    simp only [dif_pos hs]
    exact (finite_good hp hcls (h s hs)).choose_spec
  refine ⟨hg, fun choices => ?_⟩
  obtain ⟨w, hw⟩ := hg
  obtain ⟨W, hW, hWs⟩ := C53_normalised hw hne
  have hidx : ((matFin (tabulate lik.nPosteriors lik.samplesPerPosterior W)).zip choices).mapM
      (fun pc => Likelihood.randomChoice lik.backend pc.1 pc.2) =
      .ok (((matFin (tabulate lik.nPosteriors lik.samplesPerPosterior W)).zip choices).map Prod.snd) := by
    refine mapM_ok (g := Prod.snd) fun pc hpc => ?_
    obtain ⟨r, hr, hpc1⟩ := List.mem_map.1 (List.of_mem_zip hpc).1
    obtain ⟨i, hi, rfl⟩ := List.mem_map.1 hr
    rw [← hpc1]
    refine randomChoice_ok ?_ ?_ _
    · intro x hx
      obtain ⟨j, hj, rfl⟩ := List.mem_map.1 hx
      exact (hWs i (List.mem_range.1 hi)).1 j (List.mem_range.1 hj)
    · rw [sum_range_map]
      exact (hWs i (List.mem_range.1 hi)).2
  unfold Likelihood.posteriorPredictiveResampleOf Likelihood.posteriorPredictiveResample
  rw [hW, ok_bind, hidx, ok_bind]
  exact ⟨_, _, rfl⟩

/-! ## Samples that cannot be used -/

namespace Predictive

/-- There is a NaN at position `(i, j)`. -/
def NanAt (i j : ℕ) (m : Mat) : Prop := ∃ row, m[i]? = some row ∧ row[j]? = some nan

theorem nan_add' (x : Fl) : nan + x = nan := by cases x <;> rfl

theorem add_nan' (x : Fl) : x + nan = nan := by cases x <;> rfl

theorem nan_div' (x : Fl) : nan / x = nan := by cases x <;> rfl

theorem NanAt.add_left {i j : ℕ} {a b : Mat} (h : NanAt i j a) (hl : b.map List.length = a.map List.length) :
    NanAt i j (Likelihood.addRows a b) := by
  obtain ⟨row, h1, h2⟩ := h
  have hb : (b.map List.length)[i]? = some row.length := by rw [hl, List.getElem?_map, h1]; rfl
  rw [List.getElem?_map] at hb
  cases hbi : b[i]? with
  | none => rw [hbi] at hb; cases hb
  | some r =>
    rw [hbi] at hb
    have hr : r.length = row.length := Option.some.inj hb
    have hj : j < r.length := by
      rw [hr]
      exact (List.getElem?_eq_some_iff.1 h2).1
    refine ⟨List.zipWith (· + ·) row r, ?_, ?_⟩
    · unfold Likelihood.addRows
      rw [List.getElem?_zipWith, h1, hbi]
    · rw [List.getElem?_zipWith, h2, List.getElem?_eq_getElem hj]
      exact congrArg some (nan_add' _)

theorem NanAt.add_right {i j : ℕ} {a b : Mat} (h : NanAt i j b) (hl : b.map List.length = a.map List.length) :
    NanAt i j (Likelihood.addRows a b) := by
  obtain ⟨row, h1, h2⟩ := h
  have hb : (a.map List.length)[i]? = some row.length := by rw [← hl, List.getElem?_map, h1]; rfl
  rw [List.getElem?_map] at hb
  cases hai : a[i]? with
  | none => rw [hai] at hb; cases hb
  | some r =>
    rw [hai] at hb
    have hr : r.length = row.length := Option.some.inj hb
    have hj : j < r.length := by
      rw [hr]
      exact (List.getElem?_eq_some_iff.1 h2).1
    refine ⟨List.zipWith (· + ·) r row, ?_, ?_⟩
    · unfold Likelihood.addRows
      rw [List.getElem?_zipWith, h1, hai]
    · rw [List.getElem?_zipWith, h2, List.getElem?_eq_getElem hj]
      exact congrArg some (add_nan' _)

theorem NanAt.normalise {i j : ℕ} {a : Mat} (h : NanAt i j a) : NanAt i j (Likelihood.normaliseRows a) := by
  obtain ⟨row, h1, h2⟩ := h
  refine ⟨row.map (· / Arr.sum row), ?_, ?_⟩
  · unfold Likelihood.normaliseRows
    rw [List.getElem?_map, h1]
    rfl
  · rw [List.getElem?_map, h2]
    exact congrArg some (nan_div' _)

theorem normalise_lengths (a : Mat) : (Likelihood.normaliseRows a).map List.length = a.map List.length := by
  simp [Likelihood.normaliseRows]

theorem addRows_lengths {a b : Mat} (hl : b.map List.length = a.map List.length) :
    (Likelihood.addRows a b).map List.length = a.map List.length := by
  unfold Likelihood.addRows
  refine List.ext_getElem? fun i => ?_
  have hi : (b.map List.length)[i]? = (a.map List.length)[i]? := by rw [hl]
  rw [List.getElem?_map, List.getElem?_map] at hi
  rw [List.getElem?_map, List.getElem?_zipWith, List.getElem?_map]
  cases ha : a[i]? with
  | none => rfl
  | some r =>
    rw [ha] at hi
    cases hb : b[i]? with
    | none => rw [hb] at hi; cases hi
    | some r' =>
      rw [hb] at hi
      have : r'.length = r.length := Option.some.inj hi
      simp [this]

/-- A row of zeros is normalised to NaN. -/
theorem excluded_nan {w : Mat} {i K : ℕ} {row : List Fl} (hK : 0 < K) (h1 : w[i]? = some row) (hl : row.length = K)
    (h0 : ∀ x ∈ row, x = 0) : NanAt i 0 (Likelihood.normaliseRows w) := by
  refine ⟨row.map (· / Arr.sum row), ?_, ?_⟩
  · unfold Likelihood.normaliseRows
    rw [List.getElem?_map, h1]
    rfl
  · have hr : row = List.replicate K 0 := List.eq_replicate_iff.2 ⟨hl, h0⟩
    have hs : Arr.sum row = 0 := by
      rw [hr]
      show (List.replicate K (0 : Fl)).sum = 0
      rw [List.sum_replicate, smul_zero]
    rw [hs, hr, List.getElem?_map, List.getElem?_replicate, if_pos hK]
    show some ((0 : Fl) / 0) = some nan
    rw [zero_eq]
    simp

/-- What is known of the loop if all samples can be evaluated. -/
theorem loop_nan {lik : Likelihood} {i : ℕ} (hK : 0 < lik.samplesPerPosterior) {samples : List (Dict Fl)}
    (hev : ∀ s ∈ samples, ∃ φ w, lik.conversion s = .ok φ ∧ lik.weights φ = .ok w ∧
      w.map List.length = List.replicate lik.nPosteriors lik.samplesPerPosterior) {acc : Mat}
    (hacc : acc.map List.length = List.replicate lik.nPosteriors lik.samplesPerPosterior)
    (hbad : NanAt i 0 acc ∨ ∃ s ∈ samples, Excludes lik i s) :
    ∃ W, lik.ppdWeightsLoop acc samples = .ok W ∧ NanAt i 0 W ∧
      W.map List.length = List.replicate lik.nPosteriors lik.samplesPerPosterior := by
  induction samples generalizing acc with
  | nil =>
    rcases hbad with h | ⟨s, hs, -⟩
    · exact ⟨acc, rfl, h, hacc⟩
    · cases hs
  | cons s ss ih =>
    obtain ⟨φ, w, e1, e2, e3⟩ := hev s List.mem_cons_self
    have hl : (Likelihood.normaliseRows w).map List.length = acc.map List.length := by
      rw [normalise_lengths, e3, hacc]
    rw [Likelihood.ppdWeightsLoop, e1, ok_bind, e2, ok_bind, if_pos (by rw [e3, hacc])]
    refine ih (fun t ht => hev t (List.mem_cons_of_mem _ ht)) (by rw [addRows_lengths hl, hacc]) ?_
    rcases hbad with h | ⟨t, ht, hx⟩
    · exact .inl (h.add_left hl)
    · rcases List.mem_cons.1 ht with rfl | ht
      · left
        obtain ⟨φ', w', row, k1, k2, k3, k4⟩ := hx
        rw [e1] at k1
        cases k1
        rw [e2] at k2
        cases k2
        refine NanAt.add_right (excluded_nan hK k3 ?_ k4) hl
        have : (w.map List.length)[i]? = some row.length := by rw [List.getElem?_map, k3]; rfl
        rw [e3, List.getElem?_replicate] at this
        split_ifs at this
        exact (Option.some.inj this).symm
      · exact .inr ⟨t, ht, hx⟩

theorem mapM_fails {α β : Type} {f : α → Except PyErr β} {e : PyErr} {l : List α}
    (h : ∀ x ∈ l, f x = .error e ∨ ∃ y, f x = .ok y)
    (hx : ∃ x ∈ l, f x = .error e) : l.mapM f = .error e := by
  induction l with
  | nil => obtain ⟨x, hx, -⟩ := hx; cases hx
  | cons a l ih =>
    rw [List.mapM_cons]
    rcases h a List.mem_cons_self with ha | ⟨y, ha⟩
    · rw [ha, error_bind]
    · rw [ha, ok_bind, ih (fun x hx => h x (List.mem_cons_of_mem _ hx)), error_bind]
      obtain ⟨x, hx, he⟩ := hx
      rcases List.mem_cons.1 hx with rfl | hx
      · rw [ha] at he
        cases he
      · exact ⟨x, hx, he⟩

end Predictive

/-- **C153, excluded events.** Let all hyper-samples be evaluated without an exception. If a single one of them excludes an
event, the weights of this event are not numbers: on numpy and cupy the call raises `ValueError`, however many other
samples there are; on jax it returns these weights. -/
theorem C153_excluded {lik : Likelihood} (hK : 0 < lik.samplesPerPosterior) {samples : HyperSamples}
    (hev : ∀ s ∈ samples.rows, ∃ φ w, lik.conversion s = .ok φ ∧ lik.weights φ = .ok w ∧
      w.map List.length = List.replicate lik.nPosteriors lik.samplesPerPosterior)
    {i : ℕ} {s : Dict Fl} (hs : s ∈ samples.rows) (hx : Excludes lik i s) {choices : List (List ℕ)}
    (hch : choices.length = lik.nPosteriors) :
    (lik.backend ≠ .jax → lik.posteriorPredictiveResampleOf samples choices = .error .valueError) ∧
    (lik.backend = .jax → ∃ new W row, lik.posteriorPredictiveResampleOf samples choices = .ok (new, W) ∧
      W[i]? = some row ∧ nan ∈ row) := by
  have hz : (Likelihood.zeros lik.nPosteriors lik.samplesPerPosterior).map List.length =
      List.replicate lik.nPosteriors lik.samplesPerPosterior := by
    simp [Likelihood.zeros]
  obtain ⟨W, hW, hn, hlen⟩ := loop_nan (i := i) hK hev hz (.inr ⟨s, hs, hx⟩)
  have hw : lik.ppdWeights samples.rows = .ok (Likelihood.normaliseRows W) := by
    unfold Likelihood.ppdWeights
    rw [hW]
    rfl
  obtain ⟨row, h1, h2⟩ := hn.normalise
  have hmem : nan ∈ row := List.mem_of_getElem? h2
  unfold Likelihood.posteriorPredictiveResampleOf Likelihood.posteriorPredictiveResample
  rw [hw, ok_bind]
  constructor
  · intro hb
    rw [mapM_fails (e := .valueError), error_bind]
    · intro pc _
      unfold Likelihood.randomChoice
      split_ifs
      · exact .inr ⟨_, rfl⟩
      · exact .inl rfl
    · have hi : i < (Likelihood.normaliseRows W).length := (List.getElem?_eq_some_iff.1 h1).1
      have hlW : (Likelihood.normaliseRows W).length = lik.nPosteriors := by
        have := congrArg List.length (normalise_lengths W)
        rw [hlen] at this
        simpa using this
      have hic : i < choices.length := by rw [hch, ← hlW]; exact hi
      refine ⟨(row, choices[i]), ?_, ?_⟩
      · refine List.mem_of_getElem? (i := i) ?_
        rw [List.getElem?_zip_eq_some]
        exact ⟨h1, List.getElem?_eq_getElem hic⟩
      · refine if_neg ?_
        rintro (h | ⟨h, -⟩)
        · exact hb h
        · have := h nan hmem
          simp at this
  · intro hb
    rw [mapM_ok (g := Prod.snd) fun pc _ => by
      unfold Likelihood.randomChoice
      rw [if_pos (.inl hb)], ok_bind]
    exact ⟨_, _, row, rfl, h1, hmem⟩

/-! ## Non-vacuity -/

namespace Predictive

/-- Two events with two samples; the density of the first is the hyper-parameter `l`. -/
def toyLik (b : Backend) : Likelihood :=
  { toyLikelihood .hyper (.bare true (fin 1)) pinf with
    backend := b
    hyperPrior := ⟨[.other], fun _ φ => do
      let l ← φ.get "l"
      return [[l, l], [fin 1, fin 2]]⟩
    samplingPrior := none }

theorem toy_evaluates (b : Backend) (x : ℝ) : (toyLik b).weights [("l", fin x)] =
    .ok [[fin x, fin x], [fin 1, fin 2]] := by
  simp [toyLik, toyLikelihood, Likelihood.weights, Dict.get, Dict.get?_cons, ok_bind, pure_eq_ok, fin_div]

end Predictive

/-- Non-vacuity: a table with one good row and one which excludes the first event. -/
example : (toyLik .numpy).posteriorPredictiveResampleOf (tableOf ["l"] [[("l", fin 1)], [("l", fin 0)]])
      [[0, 1], [1, 1]] = .error .valueError := by
  rw [(C153_formats _ _).1 ["l"] _ (by simp) (by intro s hs; simp at hs; rcases hs with rfl | rfl <;> rfl)]
  refine (C153_excluded (i := 0) (s := [("l", fin 0)]) Nat.zero_lt_two ?_ ?_ ?_ rfl).1 (by simp [toyLik])
  · intro s hs
    simp only [HyperSamples.rows, List.mem_cons, List.not_mem_nil, or_false] at hs
    rcases hs with rfl | rfl <;> exact ⟨_, _, rfl, toy_evaluates _ _, rfl⟩
  · simp [HyperSamples.rows]
  · exact ⟨_, _, _, rfl, toy_evaluates _ _, rfl, by simp [zero_eq]⟩

/-- Non-vacuity: a dictionary at which the likelihood is finite. -/
example (choices : List (List ℕ)) : ∃ new W,
    (toyLikelihood .hyper (.bare true (fin (1 / 2))) pinf).posteriorPredictiveResampleOf (.dict []) choices =
      .ok (new, W) := by
  have hw : ∀ φ, (toyLikelihood .hyper (.bare true (fin (1 / 2))) pinf).weights φ = .ok (matFin [[1, 3], [1, 1]]) := by
    intro φ
    rw [weights_fin (P := [[1, 3], [2, 2]]) (prior := some [[1, 1], [2, 2]]) rfl rfl, toyWeights]
    intro Q hQ
    cases hQ
    exact ⟨rfl, by simp⟩
  refine (C153_usable ?_ (by simp [toyLikelihood]) (by simp [HyperSamples.rows]) ?_).2 choices
  · intro φ w h
    rw [hw] at h
    cases h
    refine ⟨rfl, fun row hrow => ?_⟩
    simp only [matFin, List.map_cons, List.map_nil, List.mem_cons, List.not_mem_nil, or_false] at hrow
    rcases hrow with rfl | rfl
    · exact ⟨rfl, by simp [zero_eq]⟩
    · exact ⟨rfl, by simp [zero_eq]⟩
  · intro s hs
    have := C44_estimator (self := toyLikelihood .hyper (.bare true (fin (1 / 2))) pinf) rfl (θ := s) rfl
      (P := [[1, 3], [2, 2]]) (prior := some [[1, 1], [2, 2]]) rfl rfl rfl
      (by intro Q hQ; cases hQ; exact ⟨rfl, by simp⟩)
      (by rw [toyWeights]; exact toyGood) rfl (.inr ⟨⟨true, rfl⟩, rfl⟩) (by norm_num)
    exact ⟨_, _, this⟩

end GW
