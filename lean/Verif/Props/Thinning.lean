import Verif.Props.Catalogue
import Verif.Props.PosteriorSamples
import Mathlib.Analysis.Convex.SpecificFunctions.Basic
import Mathlib.Data.Fintype.CardEmbedding

/-!
# C130: choosing fewer posterior samples at random leaves the likelihood unbiased
-/

noncomputable section

open Classical

namespace GW

open Fl Spec Catalogue

/-! ## Specification -/

/-- The outcomes of drawing `K` different rows of every posterior; all are equally likely. -/
abbrev Spec.Draws {n : ℕ} (P : Fin n → Frame) (K : ℕ) : Type :=
  ∀ i, Fin K ↪ Fin (P i).rows.length

/-- The rows drawn, as lists of row numbers. -/
def Spec.rowNumbers {n : ℕ} {P : Fin n → Frame} {K : ℕ} (f : Draws P K) : List (List ℕ) :=
  List.ofFn fun i => List.ofFn fun j => (f i j : ℕ)

/-- The mean weight of all samples of an event. -/
def Spec.fullMean (w : (String → Fl) → ℝ) (p : Frame) : ℝ :=
  (∑ k : Fin p.rows.length, w p.rows[k]) / p.rows.length

/-- The likelihood with all samples of all events. -/
def Spec.fullLikelihood {n : ℕ} (w : (String → Fl) → ℝ) (P : Fin n → Frame) (pdet : ℝ) : ℝ :=
  (∏ i, fullMean w (P i)) / pdet ^ n

/-- The posteriors have the columns `cols`, and the population model evaluates the rows by
themselves, with the positive densities `dens`; the sampling prior is the column `prior`, or 1 if there
is none, and `w` is the ratio of both. -/
structure Spec.RowWise {n : ℕ} (P : Fin n → Frame) (cols : List String)
    (model : PopModel (Dict Mat) Mat) (φ : Dict Fl) (dens prior w : (String → Fl) → ℝ) : Prop where
  columns : ∀ i, (P i).columns = cols
  density : ∀ events : List (List (String → Fl)), (∀ e ∈ events, ∀ s ∈ e, ∃ i, s ∈ (P i).rows) →
    model.prob (columnsOf (cols.filter (· ≠ "prior")) events) φ =
      .ok (events.map fun e => e.map fun s => fin (dens s))
  prior_eq : ∀ i, ∀ s ∈ (P i).rows,
    if "prior" ∈ cols then s "prior" = fin (prior s) else prior s = 1
  positive : ∀ i, ∀ s ∈ (P i).rows, 0 < dens s ∧ 0 < prior s
  weight : ∀ s, w s = dens s / prior s

/-! ## Sums over all draws -/

/-- Every row is drawn at position `j` equally often. -/
theorem sum_embedding {K m : ℕ} (w : Fin m → ℝ) (j : Fin K) :
    (m : ℝ) * ∑ e : Fin K ↪ Fin m, w (e j) = Fintype.card (Fin K ↪ Fin m) * ∑ x, w x := by
  rcases Nat.eq_zero_or_pos m with rfl | hm
  · simp
  have : NeZero m := ⟨hm.ne'⟩
  have h1 : ∀ c : Fin m, ∑ e : Fin K ↪ Fin m, w (e j + c) = ∑ e : Fin K ↪ Fin m, w (e j) := by
    intro c
    refine Fintype.sum_equiv (Equiv.embeddingCongr (Equiv.refl _) (Equiv.addRight c)) _ _ fun e => ?_
    simp
  have h2 : ∑ c : Fin m, ∑ e : Fin K ↪ Fin m, w (e j + c) = m * ∑ e : Fin K ↪ Fin m, w (e j) := by
    simp [h1]
  rw [← h2, Finset.sum_comm]
  have h3 : ∀ e : Fin K ↪ Fin m, ∑ c : Fin m, w (e j + c) = ∑ x, w x := fun e =>
    Fintype.sum_equiv (Equiv.addLeft (e j)) _ _ fun c => rfl
  simp [h3]

theorem average_embedding {K m : ℕ} (hK : 1 ≤ K) (hm : 1 ≤ m) (w : Fin m → ℝ) :
    ∑ e : Fin K ↪ Fin m, (∑ j, w (e j)) / K =
      Fintype.card (Fin K ↪ Fin m) * ((∑ x, w x) / m) := by
  have hK0 : (K : ℝ) ≠ 0 := by positivity
  have hm0 : (m : ℝ) ≠ 0 := by positivity
  rw [← Finset.sum_div, Finset.sum_comm]
  have h1 : ∀ j : Fin K, ∑ e : Fin K ↪ Fin m, w (e j) =
      Fintype.card (Fin K ↪ Fin m) * (∑ x, w x) / m := by
    intro j
    rw [eq_div_iff hm0, mul_comm, sum_embedding]
  simp only [h1, Finset.sum_const, Finset.card_univ, Fintype.card_fin, nsmul_eq_mul]
  field_simp

/-! ## The likelihood after a draw -/

variable {n : ℕ} {P : Fin n → Frame} {K : ℕ}

/-- The mean weight of the drawn samples of an event. -/
def drawnMean (w : (String → Fl) → ℝ) {K : ℕ} (p : Frame) (e : Fin K ↪ Fin p.rows.length) : ℝ :=
  (∑ j, w p.rows[e j]) / K

theorem picked_draw (f : Draws P K) :
    picked (List.ofFn P) (rowNumbers f) = List.ofFn fun i => List.ofFn fun j => (P i).rows[f i j] := by
  refine List.ext_getElem (by simp [picked, rowNumbers]) fun i h1 h2 => ?_
  have hi : i < n := by simpa using h2
  simp only [picked, rowNumbers, List.getElem_map, List.getElem_zip, List.getElem_ofFn]
  refine List.ext_getElem (by simp) fun j h3 h4 => ?_
  simp only [List.getElem_map, List.getElem_ofFn]
  rw [List.getD_eq_getElem _ _ (f ⟨i, hi⟩ ⟨j, by simpa using h4⟩).isLt]
  rfl

theorem mean_ofFn {K : ℕ} (g : Fin K → ℝ) : mean (List.ofFn g) = (∑ j, g j) / K := by
  unfold Spec.mean
  rw [List.sum_ofFn, List.length_ofFn]

/-- Only the resulting number of samples matters. -/
theorem init_count (cls : LikelihoodClass) (backend : Backend) {posteriors : List Frame}
    (hyperPrior : HyperPriorArg) (ev : Option (List Fl)) {ms : Option ℕ} {K : ℕ}
    (hne : posteriors ≠ []) (hK : IsSampleCount posteriors ms K) (selection : SelectionFn)
    (conversion : Dict Fl → Except PyErr (Dict Fl)) (limit : Fl) (picks : List (List ℕ)) :
    Likelihood.init cls backend posteriors hyperPrior ev ms selection conversion limit picks =
      Likelihood.init cls backend posteriors hyperPrior ev (some K) selection conversion limit picks := by
  obtain ⟨K', h1, h2⟩ := minSamples_spec posteriors ms (.inl hne)
  have hKK : K' = K := by
    apply le_antisymm
    · rcases hK.2.2 with ⟨p, hp, h⟩ | h
      · exact h ▸ h2.1 p hp
      · exact h2.2.1 K h
    · rcases h2.2.2 with ⟨p, hp, h⟩ | h
      · exact h ▸ hK.1 p hp
      · exact hK.2.1 K' h
  subst hKK
  obtain ⟨p0, ps, rfl⟩ := List.exists_cons_of_ne_nil hne
  have h3 : resamplePosteriors (p0 :: ps) ms picks = resamplePosteriors (p0 :: ps) (some K') picks := by
    unfold resamplePosteriors
    simp only [h1, minSamples_le _ K' hK.1]
  unfold Likelihood.init
  rw [h3]

/-- The object constructed for the draw `f`, and what it returns. -/
theorem drawn_value (backend : Backend) {cols : List String} {hyperPrior : HyperPriorArg}
    {model : PopModel (Dict Mat) Mat} (hm : Likelihood.checkHyperPrior hyperPrior = .ok model)
    {φ θ : Dict Fl} {dens prior w : (String → Fl) → ℝ} (h : RowWise P cols model φ dens prior w)
    (hn : 1 ≤ n) (hK1 : 1 ≤ K) {ms : Option ℕ} (hcount : IsSampleCount (List.ofFn P) ms K)
    (ev : Option (List Fl))
    {selection : SelectionFn} {conversion : Dict Fl → Except PyErr (Dict Fl)}
    (hconv : conversion θ = .ok φ) {r : SelResult} {pdet v : ℝ} (hs : selection.call φ = .ok r)
    (hr : reports r pdet v) (hpdet : 0 < pdet) (limit : Fl) (f : Draws P K) :
    ∃ L var, Likelihood.init .hyper backend (List.ofFn P) hyperPrior ev ms selection conversion
        limit (rowNumbers f) = .ok L ∧
      L.lnLikelihoodAndVariance θ = .ok
        (fin (∑ i, Real.log (drawnMean w (P i) (f i)) - n * Real.log pdet), var) := by
  have hK : ∀ i, K ≤ (P i).rows.length := fun i => hcount.1 _ ((List.mem_ofFn' _ _).2 ⟨i, rfl⟩)
  have hne : List.ofFn P ≠ [] := by
    intro h0
    have := congrArg List.length h0
    simp at this
    omega
  have hinit := init_catalogue .hyper backend hm ev K selection conversion limit
    (posteriors := List.ofFn P) (picks := rowNumbers f) (cols := cols)
    (by intro p hp; obtain ⟨i, rfl⟩ := (List.mem_ofFn' _ _).1 hp; exact h.columns i)
    (by intro p hp; obtain ⟨i, rfl⟩ := (List.mem_ofFn' _ _).1 hp; exact hK i)
    hne (by simp [rowNumbers])
  rw [← init_count _ _ _ _ hne hcount] at hinit
  have hrow : ∀ i j, (P i).rows[f i j] ∈ (P i).rows := fun i j => List.getElem_mem _
  have hK0 : (0 : ℝ) < K := by exact_mod_cast hK1
  set events : List (List (String → Fl)) := List.ofFn fun i => List.ofFn fun j => (P i).rows[f i j]
    with hev
  have hmem : ∀ e ∈ events, ∀ s ∈ e, ∃ i, s ∈ (P i).rows := by
    intro e he s hse
    obtain ⟨i, rfl⟩ := (List.mem_ofFn' _ _).1 he
    obtain ⟨j, rfl⟩ := (List.mem_ofFn' _ _).1 hse
    exact ⟨i, hrow i j⟩
  have hW : importance (events.map fun e => e.map dens)
      (if "prior" ∈ cols then some (events.map fun e => e.map prior) else none) =
      events.map fun e => e.map w := by
    by_cases hc : "prior" ∈ cols
    · rw [if_pos hc]
      simp only [importance]
      rw [zipWith_map_same]
      refine List.map_congr_left fun e _ => ?_
      rw [zipWith_map_same]
      exact List.map_congr_left fun s _ => (h.weight s).symm
    · rw [if_neg hc]
      simp only [importance]
      refine List.map_congr_left fun e he => List.map_congr_left fun s hse => ?_
      obtain ⟨i, hi⟩ := hmem e he s hse
      have := h.prior_eq i s hi
      rw [if_neg hc] at this
      rw [h.weight, this, div_one]
  have hmap : (events.map fun e => e.map w) =
      List.ofFn fun i => List.ofFn fun j => w (P i).rows[f i j] := by
    simp only [hev, List.map_ofFn, Function.comp_def]
  have hpos : ∀ i, 0 < drawnMean w (P i) (f i) := by
    intro i
    refine div_pos (Finset.sum_pos (fun j _ => ?_) ⟨⟨0, hK1⟩, Finset.mem_univ _⟩) hK0
    rw [h.weight]
    exact div_pos (h.positive i _ (hrow i j)).1 (h.positive i _ (hrow i j)).2
  rw [picked_draw, ← hev] at hinit
  have hest := C44_estimator (self := { catalogue ⟨.hyper, backend, [], model, none, nan, conversion,
      selection, 0, K, limit, Likelihood.maxVarianceOf limit⟩ (cols.filter (· ≠ "prior"))
      (decide ("prior" ∈ cols)) events with
        totalNoiseEvidence := match ev with
          | some l => Arr.sum l
          | none => nan }) rfl (θ := θ) hconv
    (P := events.map fun e => e.map dens)
    (prior := if "prior" ∈ cols then some (events.map fun e => e.map prior) else none)
    (by simp [catalogue])
    (by
      refine (h.density events hmem).trans ?_
      simp [matFin, Function.comp_def])
    (by
      by_cases hc : "prior" ∈ cols
      · simp only [catalogue, withEvents, hc, decide_true, if_true, Option.map_some, matFin,
          List.map_map, Function.comp_def]
        congr 1
        refine List.map_congr_left fun e he => List.map_congr_left fun s hse => ?_
        obtain ⟨i, hi⟩ := hmem e he s hse
        have := h.prior_eq i s hi
        rwa [if_pos hc] at this
      · simp [catalogue, withEvents, hc])
    (by
      intro Q hQ
      by_cases hc : "prior" ∈ cols
      · rw [if_pos hc] at hQ
        obtain rfl := Option.mem_some_iff.1 hQ
        refine ⟨by simp [Function.comp_def], fun q hq x hx => ?_⟩
        obtain ⟨e, he, rfl⟩ := List.mem_map.1 hq
        obtain ⟨s, hse, rfl⟩ := List.mem_map.1 hx
        obtain ⟨i, hi⟩ := hmem e he s hse
        exact (h.positive i s hi).2.ne'
      · rw [if_neg hc] at hQ
        cases hQ)
    (by
      rw [hW, hmap]
      intro v hv
      obtain ⟨i, rfl⟩ := (List.mem_ofFn' _ _).1 hv
      refine ⟨by simp [catalogue, withEvents], ?_⟩
      rw [mean_ofFn]
      exact hpos i)
    hs hr hpdet
  rw [hW, hmap] at hest
  have hval : lnLikelihood (List.ofFn fun i => List.ofFn fun j => w (P i).rows[f i j]) pdet =
      ∑ i, Real.log (drawnMean w (P i) (f i)) - n * Real.log pdet := by
    unfold lnLikelihood
    rw [List.map_ofFn, List.sum_ofFn, List.length_ofFn]
    simp only [Function.comp_def, lnBayesFactor, mean_ofFn, drawnMean]
  rw [hval] at hest
  exact ⟨_, _, hinit, hest⟩

/-! ## C130 -/

/-- **C130**: a likelihood object is constructed from posteriors, with any `max_samples`, and `K` different
samples of each are drawn at random, where `K` is the smallest of `max_samples` and the numbers of samples. For every parameter `θ` the average over all
draws of the likelihood `exp(ln_likelihood)` is the likelihood with all samples, the average of the log likelihood
is at most the logarithm of that, and if every posterior has `K` samples the draw has no influence. -/
theorem C130_unbiased (backend : Backend) {cols : List String} {hyperPrior : HyperPriorArg}
    {model : PopModel (Dict Mat) Mat} (hm : Likelihood.checkHyperPrior hyperPrior = .ok model)
    {φ θ : Dict Fl} {dens prior w : (String → Fl) → ℝ} (h : RowWise P cols model φ dens prior w)
    (hn : 1 ≤ n) (hK1 : 1 ≤ K) {ms : Option ℕ} (hcount : IsSampleCount (List.ofFn P) ms K)
    (ev : Option (List Fl))
    {selection : SelectionFn} {conversion : Dict Fl → Except PyErr (Dict Fl)}
    (hconv : conversion θ = .ok φ) {r : SelResult} {pdet v : ℝ} (hs : selection.call φ = .ok r)
    (hr : reports r pdet v) (hpdet : 0 < pdet) (limit : Fl) :
    ∃ ℓ : Draws P K → ℝ,
      (∀ f, ∃ L var, Likelihood.init .hyper backend (List.ofFn P) hyperPrior ev ms selection
          conversion limit (rowNumbers f) = .ok L ∧
        L.lnLikelihoodAndVariance θ = .ok (fin (ℓ f), var)) ∧
      (∑ f, Real.exp (ℓ f)) / Fintype.card (Draws P K) = fullLikelihood w P pdet ∧
      (∑ f, ℓ f) / Fintype.card (Draws P K) ≤ Real.log (fullLikelihood w P pdet) ∧
      ((∀ i, (P i).rows.length = K) → ∀ f, ℓ f = Real.log (fullLikelihood w P pdet)) := by
  have hK : ∀ i, K ≤ (P i).rows.length := fun i => hcount.1 _ ((List.mem_ofFn' _ _).2 ⟨i, rfl⟩)
  have hlen1 : ∀ i, 1 ≤ (P i).rows.length := fun i => hK1.trans (hK i)
  have hwpos : ∀ i (k : Fin (P i).rows.length), 0 < w (P i).rows[k] := fun i k => by
    rw [h.weight]
    exact div_pos (h.positive i _ (List.getElem_mem _)).1 (h.positive i _ (List.getElem_mem _)).2
  have hpos : ∀ i (e : Fin K ↪ Fin (P i).rows.length), 0 < drawnMean w (P i) e := fun i e =>
    div_pos (Finset.sum_pos (fun j _ => hwpos i (e j)) ⟨⟨0, hK1⟩, Finset.mem_univ _⟩)
      (by exact_mod_cast hK1)
  have hne : ∀ i, Nonempty (Fin K ↪ Fin (P i).rows.length) := fun i => ⟨Fin.castLEEmb (hK i)⟩
  have hcard : (0 : ℝ) < Fintype.card (Draws P K) := by exact_mod_cast Fintype.card_pos
  have hexp : ∀ f : Draws P K,
      Real.exp (∑ i, Real.log (drawnMean w (P i) (f i)) - n * Real.log pdet) =
        (∏ i, drawnMean w (P i) (f i)) / pdet ^ n := by
    intro f
    rw [Real.exp_sub, Real.exp_sum, ← Real.log_pow, Real.exp_log (by positivity)]
    congr 1
    exact Finset.prod_congr rfl fun i _ => Real.exp_log (hpos i (f i))
  have hsum : (∑ f : Draws P K, Real.exp (∑ i, Real.log (drawnMean w (P i) (f i)) -
      n * Real.log pdet)) / Fintype.card (Draws P K) = fullLikelihood w P pdet := by
    simp only [hexp]
    rw [← Finset.sum_div]
    have h1 : ∑ f : Draws P K, ∏ i, drawnMean w (P i) (f i) =
        Fintype.card (Draws P K) * ∏ i, fullMean w (P i) := by
      have h2 := Finset.prod_univ_sum (fun i => (Finset.univ : Finset (Fin K ↪ Fin (P i).rows.length)))
        (fun i e => drawnMean w (P i) e)
      rw [Fintype.piFinset_univ] at h2
      rw [← h2, Fintype.card_pi, Nat.cast_prod, ← Finset.prod_mul_distrib]
      refine Finset.prod_congr rfl fun i _ => ?_
      exact average_embedding hK1 (hlen1 i) fun k => w (P i).rows[k]
    rw [h1]
    unfold fullLikelihood
    field_simp
  have hfull : 0 < fullLikelihood w P pdet := by
    rw [← hsum]
    exact div_pos (Finset.sum_pos (fun f _ => Real.exp_pos _) Finset.univ_nonempty) hcard
  refine ⟨fun f => ∑ i, Real.log (drawnMean w (P i) (f i)) - n * Real.log pdet,
    fun f => drawn_value backend hm h hn hK1 hcount ev hconv hs hr hpdet limit f, hsum, ?_, ?_⟩
  · rw [Real.le_log_iff_exp_le hfull, ← hsum, Finset.sum_div, Finset.sum_div]
    have := convexOn_exp.map_sum_le (t := (Finset.univ : Finset (Draws P K)))
      (w := fun _ => 1 / (Fintype.card (Draws P K) : ℝ))
      (p := fun f => ∑ i, Real.log (drawnMean w (P i) (f i)) - n * Real.log pdet)
      (fun _ _ => by positivity) (by
        rw [Finset.sum_const, Finset.card_univ, nsmul_eq_mul]
        field_simp) (fun _ _ => Set.mem_univ _)
    simpa only [smul_eq_mul, one_div_mul_eq_div] using this
  · intro hall f
    rw [← Real.exp_eq_exp, Real.exp_log hfull, hexp f]
    unfold fullLikelihood
    congr 1
    refine Finset.prod_congr rfl fun i _ => ?_
    unfold drawnMean fullMean
    have hb : Function.Bijective (f i) :=
      (Fintype.bijective_iff_injective_and_card _).2 ⟨(f i).injective, by simp [hall i]⟩
    rw [Fintype.sum_equiv (Equiv.ofBijective _ hb) (fun j => w (P i).rows[f i j])
      (fun k => w (P i).rows[k]) fun j => rfl]
    exact congrArg _ (by rw [hall i])

/-! ### A concrete case -/

/-- Two events with the values 1, 3 and 2, 2, 5 of a parameter, without a sampling prior. -/
def thinFrames : Fin 2 → Frame :=
  ![⟨["x"], [fun _ => fin 1, fun _ => fin 3]⟩, ⟨["x"], [fun _ => fin 2, fun _ => fin 2, fun _ => fin 5]⟩]

/-- A model whose density is the parameter itself. -/
def thinProb (data : Dict Mat) (_ : Dict Fl) : Except PyErr Mat := data.get "x"

def thinDensity (s : String → Fl) : ℝ := match s "x" with
  | fin r => r
  | _ => 0

theorem thin_rows (i : Fin 2) (s : String → Fl) (h : s ∈ (thinFrames i).rows) :
    s "x" = fin (thinDensity s) ∧ 0 < thinDensity s := by
  fin_cases i <;> simp [thinFrames] at h <;> rcases h with rfl | rfl <;> norm_num [thinDensity]

theorem thin_rowWise (φ : Dict Fl) :
    RowWise thinFrames ["x"] ⟨[.other], thinProb⟩ φ thinDensity (fun _ => 1) thinDensity where
  columns := by intro i; fin_cases i <;> rfl
  density := by
    intro events he
    show Dict.get [("x", events.map fun e => e.map fun s => s "x")] "x" = _
    unfold Dict.get
    simp only [Dict.get?_cons, if_true]
    congr 1
    refine List.map_congr_left fun e hee => List.map_congr_left fun s hs => ?_
    obtain ⟨i, hi⟩ := he e hee s hs
    exact (thin_rows i s hi).1
  prior_eq := by intro i s _; simp
  positive := fun i s hs => ⟨(thin_rows i s hs).2, one_pos⟩
  weight := by simp

/-- **Non-vacuity of `C130_unbiased`**: one of two samples of the first event and one of three of the second.
The average likelihood over the six draws is `2 * 3 / (1/2)^2`. -/
example : ∃ ℓ : Draws thinFrames 1 → ℝ,
    (∀ f, ∃ L var, Likelihood.init .hyper .numpy (List.ofFn thinFrames) (.function thinProb) none (some 1)
        ⟨fun _ => .ok (.bare true (fin (1 / 2))), none⟩ (fun θ => .ok θ) pinf (rowNumbers f) = .ok L ∧
      L.lnLikelihoodAndVariance [] = .ok (fin (ℓ f), var)) ∧
    (∑ f, Real.exp (ℓ f)) / Fintype.card (Draws thinFrames 1) = 24 := by
  obtain ⟨ℓ, h1, h2, -, -⟩ := C130_unbiased (P := thinFrames) (K := 1) .numpy
    (hyperPrior := .function thinProb) rfl (φ := []) (θ := []) (thin_rowWise []) (by norm_num) le_rfl
    (ms := some 1) (by simp [IsSampleCount, thinFrames]) none
    (selection := ⟨fun _ => .ok (.bare true (fin (1 / 2))), none⟩) (conversion := fun θ => .ok θ) rfl rfl
    (pdet := 1 / 2) (v := 0) (.inr ⟨⟨true, rfl⟩, rfl⟩) (by norm_num) pinf
  refine ⟨ℓ, h1, h2.trans ?_⟩
  unfold fullLikelihood
  rw [Fin.prod_univ_two]
  have e0 : fullMean thinDensity (thinFrames 0) = 2 := by
    show (∑ k : Fin 2, thinDensity [fun _ => fin 1, fun _ => fin 3][k]) / ((2 : ℕ) : ℝ) = 2
    rw [Fin.sum_univ_two]
    show ((1 : ℝ) + 3) / ((2 : ℕ) : ℝ) = 2
    norm_num
  have e1 : fullMean thinDensity (thinFrames 1) = 3 := by
    show (∑ k : Fin 3, thinDensity [fun _ => fin 2, fun _ => fin 2, fun _ => fin 5][k]) / ((3 : ℕ) : ℝ) = 3
    rw [Fin.sum_univ_three]
    show ((2 : ℝ) + 2 + 5) / ((3 : ℕ) : ℝ) = 3
    norm_num
  rw [e0, e1]
  norm_num

end GW
