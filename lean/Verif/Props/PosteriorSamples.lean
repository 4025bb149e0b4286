import Verif.Props.ExtraStatistics
import Verif.Props.Cosmo
import Verif.Props.SmoothedCore

/-!
# Properties of the handling of posterior samples: C51, C52, C53 and C56
-/

noncomputable section

open Classical

namespace GW

open Fl Spec

/-! ## C51: resampling of the posteriors -/

/-- `K` is the smallest of the lengths of the posteriors and of `max_samples`. -/
def Spec.IsSampleCount (posteriors : List Frame) (maxSamples : Option ℕ) (K : ℕ) : Prop :=
  (∀ p ∈ posteriors, K ≤ p.rows.length) ∧ (∀ m ∈ maxSamples, K ≤ m) ∧
    ((∃ p ∈ posteriors, K = p.rows.length) ∨ maxSamples = some K)

/-- A possible outcome of drawing `K` rows of every posterior without replacement. -/
def Spec.ValidPicks (posteriors : List Frame) (K : ℕ) (picks : List (List ℕ)) : Prop :=
  picks.length = posteriors.length ∧
    ∀ i (hi : i < picks.length) (hi' : i < posteriors.length),
      picks[i].length = K ∧ picks[i].Nodup ∧ ∀ j ∈ picks[i], j < posteriors[i].rows.length

theorem minSamples_spec (ps : List Frame) (m : Option ℕ) (h : ps ≠ [] ∨ m.isSome) :
    ∃ K, minSamples ps m = some K ∧ IsSampleCount ps m K := by
  induction ps generalizing m with
  | nil =>
    rcases h with h | h
    · exact absurd rfl h
    · obtain ⟨K, rfl⟩ := Option.isSome_iff_exists.1 h
      exact ⟨K, rfl, by simp [IsSampleCount]⟩
  | cons p ps ih =>
    cases m with
    | none =>
      obtain ⟨K, h1, h2, h3, h4⟩ := ih (some p.rows.length) (.inr rfl)
      have h3 : K ≤ p.rows.length := h3 _ rfl
      refine ⟨K, h1, ?_, by simp, .inl ?_⟩
      · intro q hq
        rcases List.mem_cons.1 hq with rfl | hq
        · exact h3
        · exact h2 q hq
      · rcases h4 with ⟨q, hq, h4⟩ | h4
        · exact ⟨q, by simp [hq], h4⟩
        · exact ⟨p, by simp, (Option.some.inj h4).symm⟩
    | some m =>
      obtain ⟨K, h1, h2, h3, h4⟩ := ih (some (min p.rows.length m)) (.inr rfl)
      have h3 : K ≤ min p.rows.length m := h3 _ rfl
      refine ⟨K, h1, ?_, ?_, ?_⟩
      · intro q hq
        rcases List.mem_cons.1 hq with rfl | hq
        · exact h3.trans (min_le_left _ _)
        · exact h2 q hq
      · intro m' hm'
        rw [← Option.some.inj hm']
        exact h3.trans (min_le_right _ _)
      · rcases h4 with ⟨q, hq, h4⟩ | h4
        · exact .inl ⟨q, by simp [hq], h4⟩
        · have h4 := Option.some.inj h4
          rcases min_choice p.rows.length m with h | h
          · exact .inl ⟨p, by simp, by omega⟩
          · right
            congr 1
            omega

theorem takeColumn_ok {p : Frame} {key : String} (h : key ∈ p.columns) (idx : List ℕ) :
    takeColumn p idx key = .ok (idx.map fun j => (p.rows.getD j fun _ => nan) key) := if_pos h

theorem resample_eq {p0 : Frame} {ps : List Frame} {maxSamples : Option ℕ} {K : ℕ}
    (hK : minSamples (p0 :: ps) maxSamples = some K)
    (hcols : ∀ key ∈ p0.columns, ∀ p ∈ p0 :: ps, key ∈ p.columns) (picks : List (List ℕ)) :
    resamplePosteriors (p0 :: ps) maxSamples picks = .ok
      (p0.columns.map fun key => (key, ((p0 :: ps).zip picks).map fun pi =>
        pi.2.map fun j => (pi.1.rows.getD j fun _ => nan) key), K) := by
  have h : (p0.columns.mapM fun key => (do
      let rows ← ((p0 :: ps).zip picks).mapM fun pi => takeColumn pi.1 pi.2 key
      pure (key, rows) : Except PyErr (String × Mat))) =
      .ok (p0.columns.map fun key => (key, ((p0 :: ps).zip picks).map fun pi =>
        pi.2.map fun j => (pi.1.rows.getD j fun _ => nan) key)) := by
    refine mapM_ok fun key hkey => ?_
    rw [mapM_ok (g := fun pi : Frame × List ℕ =>
      pi.2.map fun j => (pi.1.rows.getD j fun _ => nan) key)]
    · rfl
    · intro pi hpi
      exact takeColumn_ok (hcols key hkey _ (List.of_mem_zip hpi).1) _
  unfold resamplePosteriors
  simp only [hK]
  rw [h]
  rfl

theorem get?_map_columns {α : Type} (cols : List String) (f : String → α) {key : String}
    (h : key ∈ cols) : Dict.get? (cols.map fun c => (c, f c)) key = some (f key) := by
  induction cols with
  | nil => cases h
  | cons c cols ih =>
    rw [List.map_cons, Dict.get?_cons]
    by_cases hc : c = key
    · subst hc; simp
    · rw [if_neg (fun h => hc h.symm)]
      rcases List.mem_cons.1 h with h | h
      · exact absurd h.symm hc
      · exact ih h

/-- For all posteriors that have the columns of the first one and every outcome of the random
subsampling, `resample_posteriors` returns, for each of these columns, one row per event, in order,
with `K` entries; entry `(i, j)` of every column comes from the same sample of posterior `i`, and no
sample is used twice. `K` is the smallest of the lengths and `max_samples`. -/
theorem C51_rows {p0 : Frame} {ps : List Frame} {maxSamples : Option ℕ} {K : ℕ}
    (hK : IsSampleCount (p0 :: ps) maxSamples K)
    (hcols : ∀ key ∈ p0.columns, ∀ p ∈ p0 :: ps, key ∈ p.columns) {picks : List (List ℕ)}
    (hpicks : ValidPicks (p0 :: ps) K picks) :
    ∃ data, resamplePosteriors (p0 :: ps) maxSamples picks = .ok (data, K) ∧
      data.keys = p0.columns ∧
      ∃ row : ℕ → ℕ → ℕ, (∀ i j j', i < (p0 :: ps).length → j < K → j' < K → row i j = row i j' →
          j = j') ∧
        ∀ key ∈ p0.columns, ∃ M, data.get? key = some M ∧ M.length = (p0 :: ps).length ∧
          ∀ i (hi : i < (p0 :: ps).length) (hi' : i < M.length), M[i].length = K ∧
            ∀ j (hj : j < K), ∃ hr : row i j < (p0 :: ps)[i].rows.length,
              M[i][j]? = some ((p0 :: ps)[i].rows[row i j] key) := by
  obtain ⟨K', h1, h2⟩ := minSamples_spec (p0 :: ps) maxSamples (.inl (by simp))
  have hKK : K' = K := by
    obtain ⟨a1, a2, a3⟩ := hK
    obtain ⟨b1, b2, b3⟩ := h2
    apply le_antisymm
    · rcases a3 with ⟨p, hp, h⟩ | h
      · rw [h]; exact b1 p hp
      · exact b2 _ h
    · rcases b3 with ⟨p, hp, h⟩ | h
      · rw [h]; exact a1 p hp
      · exact a2 _ h
  subst hKK
  obtain ⟨hlen, hval⟩ := hpicks
  refine ⟨_, resample_eq h1 hcols picks, by simp [Dict.keys, Function.comp_def],
    fun i j => (picks.getD i []).getD j 0, ?_, ?_⟩
  · intro i j j' hi hj hj' h
    have hi' : i < picks.length := by omega
    obtain ⟨c1, c2, -⟩ := hval i hi' hi
    have e : picks.getD i [] = picks[i] := by simp [hi']
    simp only at h
    rw [e, List.getD_eq_getElem (l := picks[i]) (d := 0) (n := j) (by omega),
      List.getD_eq_getElem (l := picks[i]) (d := 0) (n := j') (by omega)] at h
    exact (List.Nodup.getElem_inj_iff c2).1 h
  · intro key hkey
    refine ⟨_, get?_map_columns _ _ hkey, by simp [hlen], ?_⟩
    intro i hi hi'
    have hip : i < picks.length := by omega
    obtain ⟨c1, c2, c3⟩ := hval i hip hi
    refine ⟨by simp [c1], ?_⟩
    intro j hj
    have e : picks.getD i [] = picks[i] := by simp [hip]
    have hj' : j < picks[i].length := by omega
    have e2 : (picks.getD i []).getD j 0 = picks[i][j] := by
      rw [e, List.getD_eq_getElem (l := picks[i]) (d := 0) (n := j) hj']
    have hr : (picks.getD i []).getD j 0 < (p0 :: ps)[i].rows.length := by
      rw [e2]
      exact c3 _ (List.getElem_mem hj')
    refine ⟨hr, ?_⟩
    have hr' : picks[i][j] < (p0 :: ps)[i].rows.length := by rw [← e2]; exact hr
    have e3 : (p0 :: ps)[i].rows.getD picks[i][j] (fun _ => nan) =
        (p0 :: ps)[i].rows[picks[i][j]] :=
      List.getD_eq_getElem (l := (p0 :: ps)[i].rows) (d := fun _ => nan) hr'
    simp only [List.getElem_map, List.getElem_zip, List.getElem?_map,
      List.getElem?_eq_getElem hj', Option.map_some]
    rw [e3]
    have e4 : ∀ (x y : ℕ) (hx : x < (p0 :: ps)[i].rows.length) (hy : y < (p0 :: ps)[i].rows.length),
        x = y → some ((p0 :: ps)[i].rows[x] key) = some ((p0 :: ps)[i].rows[y] key) := by
      rintro x y hx hy rfl
      rfl
    exact e4 _ _ hr' hr e2.symm

/-- Two posteriors with one and two columns and different lengths. -/
def toyFrames : List Frame :=
  [⟨["x"], [fun _ => fin 1, fun _ => fin 2, fun _ => fin 3]⟩,
   ⟨["x", "y"], [fun _ => fin 4, fun _ => fin 5]⟩]

/-- The hypotheses of `C51_rows` hold for two posteriors of lengths 3 and 2. -/
example : IsSampleCount toyFrames none 2 ∧ ValidPicks toyFrames 2 [[2, 0], [0, 1]] ∧
    (∀ key ∈ ["x"], ∀ p ∈ toyFrames, key ∈ p.columns) ∧
    ∃ data, resamplePosteriors toyFrames none [[2, 0], [0, 1]] = .ok (data, 2) ∧
      data.get? "x" = some [[fin 3, fin 1], [fin 4, fin 5]] := by
  refine ⟨?_, ?_, ?_, _, resample_eq rfl ?_ _, ?_⟩
  · simp [IsSampleCount, toyFrames]
  · refine ⟨rfl, ?_⟩
    intro i hi hi'
    have : i = 0 ∨ i = 1 := by simp at hi; omega
    rcases this with rfl | rfl <;> simp [toyFrames]
  · simp [toyFrames]
  · simp
  · simp [Dict.get?]

/-- An empty list of posteriors raises `IndexError`. -/
theorem C51_empty (maxSamples : Option ℕ) (picks : List (List ℕ)) :
    resamplePosteriors [] maxSamples picks = .error .indexError := rfl

/-! ## C52: shared columns -/

theorem mapM_error {α β : Type} {f : α → Except PyErr β} {l : List α}
    (h : ∃ x ∈ l, ∃ e, f x = .error e) : ∃ x ∈ l, ∃ e, f x = .error e ∧ l.mapM f = .error e := by
  induction l with
  | nil => obtain ⟨x, hx, -⟩ := h; cases hx
  | cons a l ih =>
    rw [List.mapM_cons]
    cases ha : f a with
    | error e => exact ⟨a, by simp, e, ha, rfl⟩
    | ok b =>
      obtain ⟨x, hx, e, hxe⟩ := h
      rcases List.mem_cons.1 hx with rfl | hx
      · rw [ha] at hxe; cases hxe
      · obtain ⟨y, hy, e', h1, h2⟩ := ih ⟨x, hx, e, hxe⟩
        exact ⟨y, by simp [hy], e', h1, by rw [h2]; rfl⟩

/-- The result has a key for each column shared by all posteriors. -/
def C52_statement : Prop :=
  ∀ (posteriors : List Frame) (maxSamples : Option ℕ) (K : ℕ) (picks : List (List ℕ)),
    posteriors ≠ [] → IsSampleCount posteriors maxSamples K → ValidPicks posteriors K picks →
    ∃ data, resamplePosteriors posteriors maxSamples picks = .ok (data, K) ∧
      ∀ c, data.contains c ↔ ∀ p ∈ posteriors, c ∈ p.columns

/-- If all columns of the first posterior are in all the others, the keys are the shared columns. -/
theorem C52_shared_partial {p0 : Frame} {ps : List Frame} {maxSamples : Option ℕ} {K : ℕ}
    (hK : IsSampleCount (p0 :: ps) maxSamples K)
    (hcols : ∀ key ∈ p0.columns, ∀ p ∈ p0 :: ps, key ∈ p.columns) {picks : List (List ℕ)}
    (hpicks : ValidPicks (p0 :: ps) K picks) :
    ∃ data, resamplePosteriors (p0 :: ps) maxSamples picks = .ok (data, K) ∧
      ∀ c, data.contains c ↔ ∀ p ∈ p0 :: ps, c ∈ p.columns := by
  obtain ⟨data, h1, h2, -⟩ := C51_rows hK hcols hpicks
  refine ⟨data, h1, fun c => ?_⟩
  show c ∈ data.keys ↔ _
  rw [h2]
  exact ⟨fun h => hcols c h, fun h => h p0 (by simp)⟩

/-- If the first posterior has a column that another one lacks, `KeyError` is raised for such a
column. -/
theorem C52_missing_partial {p0 : Frame} {ps : List Frame} {maxSamples : Option ℕ}
    {picks : List (List ℕ)} (hlen : picks.length = (p0 :: ps).length)
    (h : ∃ key ∈ p0.columns, ∃ p ∈ p0 :: ps, key ∉ p.columns) :
    ∃ key ∈ p0.columns, (∃ p ∈ p0 :: ps, key ∉ p.columns) ∧
      resamplePosteriors (p0 :: ps) maxSamples picks = .error (.keyError key) := by
  obtain ⟨K, hK, -⟩ := minSamples_spec (p0 :: ps) maxSamples (.inl (by simp))
  have inner : ∀ key, (∃ p ∈ p0 :: ps, key ∉ p.columns) →
      ((p0 :: ps).zip picks).mapM (fun pi => takeColumn pi.1 pi.2 key) =
        .error (.keyError key) := by
    rintro key ⟨p, hp, hk⟩
    obtain ⟨i, hi, hpi⟩ := List.getElem_of_mem hp
    have hi2 : i < ((p0 :: ps).zip picks).length := by
      rw [List.length_zip]; omega
    obtain ⟨x, hx, e, h1, h2⟩ := mapM_error
      (f := fun pi : Frame × List ℕ => takeColumn pi.1 pi.2 key) (l := (p0 :: ps).zip picks)
      ⟨_, List.getElem_mem hi2, .keyError key, by
        simp only [List.getElem_zip, hpi, takeColumn]
        exact if_neg hk⟩
    rw [h2]
    simp only [takeColumn] at h1
    split_ifs at h1
    cases h1
    rfl
  obtain ⟨key, hkey, hmiss⟩ := h
  obtain ⟨x, hx, e, h1, h2⟩ := mapM_error
    (f := fun key => (do
      let rows ← ((p0 :: ps).zip picks).mapM fun pi => takeColumn pi.1 pi.2 key
      pure (key, rows) : Except PyErr (String × Mat))) (l := p0.columns)
    ⟨key, hkey, .keyError key, by rw [inner key hmiss]; rfl⟩
  have hx2 : ∃ p ∈ p0 :: ps, x ∉ p.columns := by
    by_contra hc
    push Not at hc
    rw [mapM_ok (g := fun pi : Frame × List ℕ =>
      pi.2.map fun j => (pi.1.rows.getD j fun _ => nan) x)] at h1
    · cases h1
    · intro pi hpi
      exact takeColumn_ok (hc _ (List.of_mem_zip hpi).1) _
  refine ⟨x, hx, hx2, ?_⟩
  rw [inner x hx2] at h1
  unfold resamplePosteriors
  simp only [hK]
  rw [h2]
  cases h1
  rfl

/-- A column that only the first posterior has makes the call fail instead of being left out. -/
theorem C52_fails : ¬ C52_statement := by
  intro H
  have hv : ValidPicks toyFrames.reverse 2 [[0, 1], [2, 0]] := by
    refine ⟨rfl, ?_⟩
    intro i hi hi'
    have : i = 0 ∨ i = 1 := by simp at hi; omega
    rcases this with rfl | rfl <;> simp [toyFrames]
  obtain ⟨data, h, -⟩ := H toyFrames.reverse none 2 [[0, 1], [2, 0]] (by simp [toyFrames])
    (by simp [IsSampleCount, toyFrames]) hv
  obtain ⟨key, -, -, h2⟩ := C52_missing_partial (p0 := ⟨["x", "y"], [fun _ => fin 4, fun _ => fin 5]⟩)
    (ps := [⟨["x"], [fun _ => fin 1, fun _ => fin 2, fun _ => fin 3]⟩]) (maxSamples := none)
    (picks := [[0, 1], [2, 0]]) rfl ⟨"y", by simp, _, List.mem_cons_of_mem _ (List.mem_singleton.2 rfl), by simp⟩
  have e : toyFrames.reverse = [⟨["x", "y"], [fun _ => fin 4, fun _ => fin 5]⟩,
    ⟨["x"], [fun _ => fin 1, fun _ => fin 2, fun _ => fin 3]⟩] := rfl
  rw [e, h2] at h
  cases h

/-- A column that only later posteriors have is left out. -/
example : ∃ data, resamplePosteriors toyFrames none [[2, 0], [0, 1]] = .ok (data, 2) ∧
    data.contains "x" ∧ ¬ data.contains "y" := by
  refine ⟨_, resample_eq rfl (by simp) _, ?_, ?_⟩ <;> simp [Dict.contains]

/-! ## C53: posterior predictive resampling -/

/-- The `N` by `K` array with entries `f i j`. -/
def Spec.tabulate (N K : ℕ) (f : ℕ → ℕ → ℝ) : List (List ℝ) :=
  (List.range N).map fun i => (List.range K).map fun j => f i j

/-- The weight of sample `j` of event `i`: for each hyper-sample the normalised weight of the sample
within the event, averaged over hyper-samples. -/
def Spec.averageWeight {S : Type} (samples : List S) (K : ℕ) (w : S → ℕ → ℕ → ℝ) (i j : ℕ) : ℝ :=
  (samples.map fun s => w s i j / ∑ k ∈ Finset.range K, w s i k).sum / samples.length

theorem sum_range_map (K : ℕ) (f : ℕ → ℝ) :
    ((List.range K).map f).sum = ∑ k ∈ Finset.range K, f k := by
  induction K with
  | zero => simp
  | succ K ih => rw [List.range_succ, List.map_append, List.sum_append, ih, Finset.sum_range_succ]; simp

theorem normaliseRows_tab {N K : ℕ} {f : ℕ → ℕ → ℝ}
    (h : ∀ i < N, ∑ k ∈ Finset.range K, f i k ≠ 0) :
    Likelihood.normaliseRows (matFin (tabulate N K f)) =
      matFin (tabulate N K fun i j => f i j / ∑ k ∈ Finset.range K, f i k) := by
  unfold Likelihood.normaliseRows matFin tabulate
  simp only [List.map_map]
  refine List.map_congr_left fun i hi => ?_
  have hs : Arr.sum (List.map fin (List.map (fun j => f i j) (List.range K))) =
      fin (∑ k ∈ Finset.range K, f i k) := by
    unfold Arr.sum
    rw [sum_fin, sum_range_map]
  simp only [Function.comp, List.map_map] at hs ⊢
  rw [hs]
  refine List.map_congr_left fun j _ => ?_
  simp only [Function.comp]
  rw [fin_div (h i (List.mem_range.1 hi))]

theorem zipWith_map_same {α β γ δ : Type} (f : β → γ → δ) (g : α → β) (h : α → γ) (l : List α) :
    List.zipWith f (l.map g) (l.map h) = l.map fun x => f (g x) (h x) := by
  induction l with
  | nil => rfl
  | cons a l ih => simp [ih]

theorem addRows_tab (N K : ℕ) (f g : ℕ → ℕ → ℝ) :
    Likelihood.addRows (matFin (tabulate N K f)) (matFin (tabulate N K g)) =
      matFin (tabulate N K fun i j => f i j + g i j) := by
  unfold Likelihood.addRows matFin tabulate
  simp only [List.map_map]
  rw [zipWith_map_same]
  refine List.map_congr_left fun i _ => ?_
  simp only [Function.comp, List.map_map]
  rw [zipWith_map_same]
  rfl

theorem zeros_tab (N K : ℕ) : Likelihood.zeros N K = matFin (tabulate N K fun _ _ => 0) := by
  unfold Likelihood.zeros matFin tabulate
  simp

theorem tab_lengths (N K : ℕ) (f g : ℕ → ℕ → ℝ) :
    (matFin (tabulate N K f)).map List.length = (matFin (tabulate N K g)).map List.length := by
  simp [matFin, tabulate, Function.comp_def]

/-- What is assumed of the hyper-samples: the conversion and the population model succeed, and the
importance weights are finite, non-negative and have a positive sum for each event. -/
def Spec.GoodSamples (self : Likelihood) (samples : List (Dict Fl)) (w : Dict Fl → ℕ → ℕ → ℝ) :
    Prop :=
  ∀ s ∈ samples,
    (∃ φ, self.conversion s = .ok φ ∧
      self.weights φ = .ok (matFin (tabulate self.nPosteriors self.samplesPerPosterior (w s)))) ∧
    (∀ i < self.nPosteriors, ∀ j < self.samplesPerPosterior, 0 ≤ w s i j) ∧
    ∀ i < self.nPosteriors, 0 < ∑ k ∈ Finset.range self.samplesPerPosterior, w s i k

theorem ppdLoop_tab {self : Likelihood} {samples : List (Dict Fl)} {w : Dict Fl → ℕ → ℕ → ℝ}
    (h : GoodSamples self samples w) (acc : ℕ → ℕ → ℝ) :
    self.ppdWeightsLoop (matFin (tabulate self.nPosteriors self.samplesPerPosterior acc)) samples =
      .ok (matFin (tabulate self.nPosteriors self.samplesPerPosterior fun i j => acc i j +
        (samples.map fun s =>
          w s i j / ∑ k ∈ Finset.range self.samplesPerPosterior, w s i k).sum)) := by
  induction samples generalizing acc with
  | nil => simp [Likelihood.ppdWeightsLoop]
  | cons s ss ih =>
    obtain ⟨⟨φ, h1, h2⟩, -, h4⟩ := h s (by simp)
    rw [Likelihood.ppdWeightsLoop, h1, ok_bind, h2, ok_bind, if_pos (tab_lengths _ _ _ _),
      normaliseRows_tab fun i hi => (h4 i hi).ne', addRows_tab,
      ih fun t ht => h t (by simp [ht])]
    simp only [List.map_cons, List.sum_cons, add_assoc]

theorem sum_list_comm {S : Type} (samples : List S) (K : ℕ) (f : S → ℕ → ℝ) :
    ∑ j ∈ Finset.range K, (samples.map fun s => f s j).sum =
      (samples.map fun s => ∑ j ∈ Finset.range K, f s j).sum := by
  induction samples with
  | nil => simp
  | cons s ss ih => simp [Finset.sum_add_distrib, ih]

theorem sum_normalised {samples : List (Dict Fl)} {K : ℕ} {w : Dict Fl → ℕ → ℕ → ℝ} {i : ℕ}
    (h : ∀ s ∈ samples, 0 < ∑ k ∈ Finset.range K, w s i k) :
    ∑ j ∈ Finset.range K, (samples.map fun s => w s i j / ∑ k ∈ Finset.range K, w s i k).sum =
      samples.length := by
  rw [sum_list_comm]
  have : (samples.map fun s => ∑ j ∈ Finset.range K, w s i j / ∑ k ∈ Finset.range K, w s i k) =
      samples.map fun _ => (1 : ℝ) := by
    refine List.map_congr_left fun s hs => ?_
    rw [← Finset.sum_div, div_self (h s hs).ne']
  rw [this]
  simp

/-- The weights returned by `posterior_predictive_resample`. -/
theorem C53_weights {self : Likelihood} {samples : List (Dict Fl)} {w : Dict Fl → ℕ → ℕ → ℝ}
    (h : GoodSamples self samples w) (hne : samples ≠ []) :
    self.ppdWeights samples = .ok (matFin (tabulate self.nPosteriors self.samplesPerPosterior
      (averageWeight samples self.samplesPerPosterior w))) := by
  have hl : (samples.length : ℝ) ≠ 0 := by
    rw [Nat.cast_ne_zero]
    exact fun h' => hne (List.length_eq_zero_iff.1 h')
  unfold Likelihood.ppdWeights
  rw [zeros_tab, ppdLoop_tab h, ok_bind, pure_eq_ok]
  simp only [zero_add]
  have hs : ∀ i < self.nPosteriors, ∑ j ∈ Finset.range self.samplesPerPosterior,
      (samples.map fun s => w s i j / ∑ k ∈ Finset.range self.samplesPerPosterior, w s i k).sum =
      samples.length := fun i hi => sum_normalised fun s hs => (h s hs).2.2 i hi
  rw [normaliseRows_tab fun i hi => by rw [hs i hi]; exact hl]
  congr 1
  unfold matFin tabulate
  simp only [List.map_map]
  refine List.map_congr_left fun i hi => ?_
  simp only [Function.comp, List.map_map]
  refine List.map_congr_left fun j _ => ?_
  simp only [Function.comp]
  rw [hs i (List.mem_range.1 hi)]
  rfl

/-- The weights of each event are non-negative and sum to exactly 1. -/
theorem C53_normalised {self : Likelihood} {samples : List (Dict Fl)} {w : Dict Fl → ℕ → ℕ → ℝ}
    (h : GoodSamples self samples w) (hne : samples ≠ []) :
    ∃ W : ℕ → ℕ → ℝ, self.ppdWeights samples =
        .ok (matFin (tabulate self.nPosteriors self.samplesPerPosterior W)) ∧
      ∀ i < self.nPosteriors, (∀ j < self.samplesPerPosterior, 0 ≤ W i j) ∧
        ∑ j ∈ Finset.range self.samplesPerPosterior, W i j = 1 := by
  have hl : (0 : ℝ) < samples.length := by
    rw [Nat.cast_pos]
    exact List.length_pos_iff.2 hne
  refine ⟨_, C53_weights h hne, fun i hi => ⟨fun j hj => ?_, ?_⟩⟩
  · unfold averageWeight
    refine div_nonneg (sum_nonneg_of fun x hx => ?_) hl.le
    obtain ⟨s, hs, rfl⟩ := List.mem_map.1 hx
    exact div_nonneg ((h s hs).2.1 i hi j hj) ((h s hs).2.2 i hi).le
  · unfold averageWeight
    rw [← Finset.sum_div, sum_normalised fun s hs => (h s hs).2.2 i hi, div_self hl.ne']

/-- The order of the hyper-samples does not matter. -/
theorem C53_order {self : Likelihood} {samples samples' : List (Dict Fl)}
    {w : Dict Fl → ℕ → ℕ → ℝ} (h : GoodSamples self samples w) (hne : samples ≠ [])
    (hp : samples.Perm samples') : self.ppdWeights samples = self.ppdWeights samples' := by
  have h' : GoodSamples self samples' w := fun s hs => h s (hp.mem_iff.2 hs)
  have hne' : samples' ≠ [] := by
    rintro rfl
    exact hne hp.eq_nil
  rw [C53_weights h hne, C53_weights h' hne']
  have : averageWeight samples self.samplesPerPosterior w =
      averageWeight samples' self.samplesPerPosterior w := by
    funext i j
    unfold averageWeight
    rw [(hp.map _).sum_eq, hp.length_eq]
  rw [this]

/-- Multiplying the population model by a positive constant for each hyper-sample and event does not
change the weights. -/
theorem C53_scale {self self' : Likelihood} {samples : List (Dict Fl)}
    {w : Dict Fl → ℕ → ℕ → ℝ} {c : Dict Fl → ℕ → ℝ} (h : GoodSamples self samples w)
    (hne : samples ≠ []) (hN : self'.nPosteriors = self.nPosteriors)
    (hK : self'.samplesPerPosterior = self.samplesPerPosterior)
    (hconv : self'.conversion = self.conversion) (hc : ∀ s ∈ samples, ∀ i, 0 < c s i)
    (hw : ∀ s ∈ samples, ∀ φ, self.conversion s = .ok φ → self'.weights φ = .ok (matFin (tabulate
      self.nPosteriors self.samplesPerPosterior fun i j => c s i * w s i j))) :
    self'.ppdWeights samples = self.ppdWeights samples := by
  have h' : GoodSamples self' samples fun s i j => c s i * w s i j := by
    intro s hs
    obtain ⟨⟨φ, h1, h2⟩, h3, h4⟩ := h s hs
    rw [hN, hK]
    refine ⟨⟨φ, by rw [hconv]; exact h1, hw s hs φ h1⟩,
      fun i hi j hj => mul_nonneg (hc s hs i).le (h3 i hi j hj), fun i hi => ?_⟩
    rw [← Finset.mul_sum]
    exact mul_pos (hc s hs i) (h4 i hi)
  rw [C53_weights h hne, C53_weights h' hne, hN, hK]
  congr 3
  funext i j
  unfold averageWeight
  congr 2
  refine List.map_congr_left fun s hs => ?_
  rw [← Finset.mul_sum, mul_div_mul_left _ _ (hc s hs i).ne']

/-- A possible outcome of drawing `K` of `K` samples with replacement for each of `N` events. -/
def Spec.ValidChoices (N K : ℕ) (choices : List (List ℕ)) : Prop :=
  choices.length = N ∧ ∀ c ∈ choices, c.length = K ∧ ∀ j ∈ c, j < K

theorem randomChoice_ok {backend : Backend} {p : List ℝ} (h0 : ∀ x ∈ p, 0 ≤ x) (h1 : p.sum = 1)
    (idx : List ℕ) : Likelihood.randomChoice backend (p.map fin) idx = .ok idx := by
  refine if_pos (.inr ⟨?_, ?_⟩)
  · intro x hx
    obtain ⟨y, hy, rfl⟩ := List.mem_map.1 hx
    rw [zero_eq, fin_le]
    exact h0 y hy
  · unfold Arr.sum
    rw [sum_fin, h1, one_eq]

/-- For every outcome of the random choice, every column of the resampled data has one row per event
and `K` entries; entry `(i, j)` of all columns comes from the same original sample of event `i`. -/
theorem C53_samples {self : Likelihood} {samples : List (Dict Fl)} {w : Dict Fl → ℕ → ℕ → ℝ}
    (h : GoodSamples self samples w) (hne : samples ≠ [])
    (hdata : ∀ key M, self.data.get? key = some M → M.length = self.nPosteriors ∧
      ∀ r ∈ M, r.length = self.samplesPerPosterior) {choices : List (List ℕ)}
    (hch : ValidChoices self.nPosteriors self.samplesPerPosterior choices) :
    ∃ new W, self.posteriorPredictiveResample samples choices = .ok (new, W) ∧
      self.ppdWeights samples = .ok W ∧ new.keys = self.data.keys ∧
      ∃ source : ℕ → ℕ → ℕ, ∀ key M, self.data.get? key = some M →
        ∃ M', new.get? key = some M' ∧ M'.length = self.nPosteriors ∧
          ∀ i (hi : i < M.length) (hi' : i < M'.length), M'[i].length = self.samplesPerPosterior ∧
            ∀ j < self.samplesPerPosterior, source i j < self.samplesPerPosterior ∧
              M'[i][j]? = M[i][source i j]? := by
  obtain ⟨W, hW, hWs⟩ := C53_normalised h hne
  obtain ⟨hcl, hcv⟩ := hch
  have hidx : ((matFin (tabulate self.nPosteriors self.samplesPerPosterior W)).zip choices).mapM
      (fun pc => Likelihood.randomChoice self.backend pc.1 pc.2) = .ok choices := by
    rw [mapM_ok (g := Prod.snd)]
    · rw [List.map_snd_zip]
      simp [matFin, tabulate, hcl]
    · intro pc hpc
      obtain ⟨r, hr, hpc1⟩ := List.mem_map.1 (List.of_mem_zip hpc).1
      obtain ⟨i, hi, rfl⟩ := List.mem_map.1 hr
      rw [← hpc1]
      refine randomChoice_ok ?_ ?_ _
      · intro x hx
        obtain ⟨j, hj, rfl⟩ := List.mem_map.1 hx
        exact (hWs i (List.mem_range.1 hi)).1 j (List.mem_range.1 hj)
      · rw [sum_range_map]
        exact (hWs i (List.mem_range.1 hi)).2
  refine ⟨self.data.map fun kv =>
      (kv.1, List.zipWith (fun row is => is.map fun j => row.getD j nan) kv.2 choices), _, ?_, hW, ?_,
    fun i j => (choices.getD i []).getD j 0, ?_⟩
  rotate_left 2
  · intro key M hM
    refine ⟨List.zipWith (fun row is => is.map fun j => row.getD j nan) M choices, ?_, ?_, ?_⟩
    rotate_left 1
    · rw [List.length_zipWith, (hdata key M hM).1, hcl, min_self]
    · intro i hi hi'
      have hic : i < choices.length := by rw [hcl, ← (hdata key M hM).1]; exact hi
      have e : choices.getD i [] = choices[i] := by simp [hic]
      obtain ⟨hc1, hc2⟩ := hcv _ (List.getElem_mem hic)
      have hr := (hdata key M hM).2 _ (List.getElem_mem hi)
      refine ⟨by simp [hc1], ?_⟩
      intro j hj
      have hj' : j < choices[i].length := by omega
      have e2 : (choices.getD i []).getD j 0 = choices[i][j] := by
        rw [e, List.getD_eq_getElem (l := choices[i]) (d := 0) (n := j) hj']
      have hlt : choices[i][j] < self.samplesPerPosterior := hc2 _ (List.getElem_mem hj')
      simp only [e2]
      refine ⟨hlt, ?_⟩
      have hlt' : choices[i][j] < M[i].length := by omega
      simp only [List.getElem_zipWith, List.getElem?_map, List.getElem?_eq_getElem hj',
        Option.map_some, List.getElem?_eq_getElem hlt']
      congr 1
      exact List.getD_eq_getElem (l := M[i]) (d := nan) hlt'
    · have : ∀ d : Dict Mat, d.get? key = some M → Dict.get? (d.map fun kv =>
          (kv.1, List.zipWith (fun row is => is.map fun j => row.getD j nan) kv.2 choices)) key =
          some (List.zipWith (fun row is => is.map fun j => row.getD j nan) M choices) := by
        intro d
        induction d with
        | nil => intro h; cases h
        | cons kv d ih =>
          intro h
          rw [List.map_cons, Dict.get?_cons]
          obtain ⟨k, v⟩ := kv
          rw [Dict.get?_cons] at h
          by_cases hk : key = k
          · rw [if_pos hk] at h ⊢
            rw [Option.some.inj h]
          · rw [if_neg hk] at h ⊢
            exact ih h
      exact this self.data hM
  · unfold Likelihood.posteriorPredictiveResample
    rw [hW, ok_bind, hidx, ok_bind, pure_eq_ok]
  · simp [Dict.keys, Function.comp_def]

/-- The toy likelihood: two events with two samples and two hyper-samples. -/
theorem toySamples : GoodSamples (toyLikelihood .hyper (.bare true (fin 1)) pinf) [[], []]
    (fun _ i j => if i = 0 ∧ j = 1 then 3 else 1) := by
  intro s hs
  refine ⟨⟨s, rfl, ?_⟩, ?_, ?_⟩
  · have := weights_fin (self := toyLikelihood .hyper (.bare true (fin 1)) pinf) (θ := s)
      (P := [[1, 3], [2, 2]]) (prior := some [[1, 1], [2, 2]]) rfl rfl toyShape
    rw [toyWeights] at this
    rw [this]
    have e1 : (toyLikelihood .hyper (.bare true (fin 1)) pinf).nPosteriors = 2 := rfl
    have e2 : (toyLikelihood .hyper (.bare true (fin 1)) pinf).samplesPerPosterior = 2 := rfl
    rw [e1, e2]
    simp [tabulate, List.range_succ]
  · intro i _ j _
    show (0 : ℝ) ≤ if i = 0 ∧ j = 1 then 3 else 1
    split_ifs <;> norm_num
  · intro i _
    have e2 : (toyLikelihood .hyper (.bare true (fin 1)) pinf).samplesPerPosterior = 2 := rfl
    rw [e2]
    simp only [Finset.sum_range_succ, Finset.sum_range_zero]
    split_ifs <;> norm_num

/-- The hypotheses hold, and the weights of the first event are 1/4 and 3/4. -/
example : ∃ W, (toyLikelihood .hyper (.bare true (fin 1)) pinf).ppdWeights [[], []] =
      .ok (matFin W) ∧ W = [[1 / 4, 3 / 4], [1 / 2, 1 / 2]] ∧
    ValidChoices 2 2 [[1, 1], [0, 1]] := by
  refine ⟨_, C53_weights toySamples (by simp), ?_, ?_⟩
  · have e1 : (toyLikelihood .hyper (.bare true (fin 1)) pinf).nPosteriors = 2 := rfl
    have e2 : (toyLikelihood .hyper (.bare true (fin 1)) pinf).samplesPerPosterior = 2 := rfl
    rw [e1, e2]
    simp only [tabulate, List.range_succ, averageWeight, Finset.sum_range_succ]
    norm_num
  · simp [ValidChoices]

/-! ## C56: construction -/

/-- Which arguments are accepted as population model. -/
def Spec.Accepted : HyperPriorArg → Prop
  | .function _ => True
  | .object hasParameters prob => hasParameters = true ∧ ∃ models f, prob = .callable models f

/-- The density used for an accepted argument: the function itself, or the method `prob`. -/
def Spec.density (f : Dict Mat → Dict Fl → Except PyErr Mat) : HyperPriorArg → Prop
  | .function g => g = f
  | .object _ prob => ∃ models, prob = .callable models f

/-- The constructor raises `AttributeError` for everything that is neither a function nor an object
with `parameters` and a callable `prob`. -/
theorem C56_rejects {cls : LikelihoodClass} {backend : Backend} {posteriors : List Frame}
    {hyperPrior : HyperPriorArg} {lnEvidences : Option (List Fl)} {maxSamples : Option ℕ}
    {selection : SelectionFn} {conversion : Dict Fl → Except PyErr (Dict Fl)}
    {limit : Fl} {picks : List (List ℕ)} {data : Dict Mat} {K : ℕ}
    (hdata : resamplePosteriors posteriors maxSamples picks = .ok (data, K))
    (h : ¬ Accepted hyperPrior) :
    Likelihood.init cls backend posteriors hyperPrior lnEvidences maxSamples selection conversion
      limit picks = .error .attributeError := by
  have : Likelihood.checkHyperPrior hyperPrior = .error .attributeError := by
    cases hyperPrior with
    | function f => exact absurd trivial h
    | object b prob =>
      cases b with
      | false => rfl
      | true =>
        cases prob with
        | missing => rfl
        | notCallable => rfl
        | callable m f => exact absurd ⟨rfl, m, f, rfl⟩ h
  unfold Likelihood.init
  rw [hdata, ok_bind]
  simp only [this, error_bind]

/-- For an accepted population model, the constructor succeeds; the `prior` column, if any, becomes
the sampling prior and is removed from the data, and all other columns are kept; the noise evidence
is the sum of `ln_evidences` or NaN. -/
theorem C56_accepts {cls : LikelihoodClass} {backend : Backend} {posteriors : List Frame}
    {hyperPrior : HyperPriorArg} {lnEvidences : Option (List Fl)} {maxSamples : Option ℕ}
    {selection : SelectionFn} {conversion : Dict Fl → Except PyErr (Dict Fl)}
    {limit : Fl} {picks : List (List ℕ)} {data : Dict Mat} {K : ℕ}
    (hdata : resamplePosteriors posteriors maxSamples picks = .ok (data, K))
    (h : Accepted hyperPrior) :
    ∃ self, Likelihood.init cls backend posteriors hyperPrior lnEvidences maxSamples selection
        conversion limit picks = .ok self ∧
      density self.hyperPrior.prob hyperPrior ∧
      self.samplingPrior = data.get? "prior" ∧
      (∀ key, self.data.get? key = if key = "prior" then none else data.get? key) ∧
      self.nPosteriors = posteriors.length ∧ self.samplesPerPosterior = K ∧
      self.noiseLogLikelihood = (match lnEvidences with
        | some l => l.sum
        | none => nan) ∧
      (∀ θ, self.selection.call θ = selection.call θ) ∧
      (∀ θ, self.conversion θ = conversion θ) ∧ self.maximumUncertainty = limit := by
  have : ∃ hp, Likelihood.checkHyperPrior hyperPrior = .ok hp ∧ density hp.prob hyperPrior := by
    cases hyperPrior with
    | function f => exact ⟨_, rfl, rfl⟩
    | object b prob =>
      obtain ⟨rfl, models, f, rfl⟩ := h
      exact ⟨_, rfl, models, rfl⟩
  obtain ⟨hp, h1, h2⟩ := this
  unfold Likelihood.init
  rw [hdata, ok_bind]
  simp only [h1, ok_bind, pure_eq_ok]
  refine ⟨_, rfl, h2, rfl, fun key => ?_, rfl, rfl, ?_, fun _ => rfl, fun _ => rfl, rfl⟩
  · exact Dict.get?_erase data "prior" key
  · cases lnEvidences <;> rfl

/-- The log-likelihood is the ratio plus the noise evidence. -/
theorem C56_log_likelihood (self : Likelihood) {θ : Dict Fl} {r : Fl}
    (h : self.logLikelihoodRatio θ = .ok r) :
    self.logLikelihood θ = .ok (self.noiseLogLikelihood + r) := by
  unfold Likelihood.logLikelihood
  rw [h]
  rfl

/-- The limit on the variance that the setter stores is the square of the limit on the uncertainty
(it is not used by `log_likelihood_ratio`). -/
theorem C56_max_variance (u : ℝ) : Likelihood.maxVarianceOf (fin u) = fin (u ^ 2) ∧
    Likelihood.maxVarianceOf pinf = pinf := by
  constructor
  · unfold Likelihood.maxVarianceOf
    rw [if_neg eqf_fin_pinf, fin_npow]
  · exact if_pos trivial

/-- A frame with a prior column, an accepted function and a rejected object. -/
example : ∃ self, Likelihood.init .hyper .numpy
      [⟨["mass_1", "prior"], [fun k => if k = "prior" then fin 2 else fin 30]⟩]
      (.function fun _ _ => .ok [[fin 1]]) (some [fin 1]) none ⟨fun _ => .ok (.bare true 1), none⟩
      (fun θ => .ok θ) pinf [[0]] = .ok self ∧ self.samplingPrior = some [[fin 2]] ∧
      self.data.get? "mass_1" = some [[fin 30]] ∧ self.data.get? "prior" = none ∧
      ¬ Accepted (.object true .notCallable) := by
  have hd := resample_eq (p0 := ⟨["mass_1", "prior"],
    [fun k => if k = "prior" then fin 2 else fin 30]⟩) (ps := []) (maxSamples := none) (K := 1) rfl
    (by simp) [[0]]
  obtain ⟨self, h1, h2, h3, h4, -⟩ := C56_accepts (cls := .hyper) (backend := .numpy)
    (hyperPrior := .function fun _ _ => .ok [[fin 1]]) (lnEvidences := some [fin 1])
    (selection := ⟨fun _ => .ok (.bare true 1), none⟩) (conversion := fun θ => .ok θ)
    (limit := pinf) hd trivial
  refine ⟨self, h1, ?_, ?_, ?_, ?_⟩
  · rw [h3]; simp [Dict.get?_cons]
  · rw [h4]; simp [Dict.get?_cons]
  · rw [h4]; simp
  · rintro ⟨-, m, f, h⟩
    cases h

end GW
