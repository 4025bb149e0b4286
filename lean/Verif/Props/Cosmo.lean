import Verif.Model.Redshift
import Verif.Props.SmoothedCore
import Verif.Props.Backend

/-!
# C57, C58, C60: cosmology and the detector frame
-/

noncomputable section

open Classical

namespace GW

open Fl CosmoMixin

/-! ## Names of detector-frame columns -/

theorem isDetector_iff {key : String} : isDetector key ↔ ∃ n, key = n ++ "_detector" := by
  unfold isDetector
  constructor
  · rintro ⟨t, ht⟩
    refine ⟨String.ofList t, String.toList_inj.1 ?_⟩
    rw [String.toList_append, String.toList_ofList, ht]
  · rintro ⟨n, rfl⟩
    rw [String.toList_append]
    exact List.suffix_append _ _

theorem sourceName_append (n : String) : sourceName (n ++ "_detector") = n := by
  unfold sourceName
  apply String.toList_inj.1
  rw [String.toList_ofList, String.toList_append]
  have : "_detector".toList.length = 9 := by decide
  rw [List.length_append, this, Nat.add_sub_cancel, List.take_left]

theorem append_detector_inj {m n : String} (h : m ++ "_detector" = n ++ "_detector") : m = n := by
  rw [← sourceName_append m, h, sourceName_append]

theorem isDetector_append (n : String) : isDetector (n ++ "_detector") := isDetector_iff.2 ⟨n, rfl⟩

theorem not_isDetector_redshift : ¬ isDetector "redshift" := by
  unfold isDetector; decide

theorem not_isDetector_distance : ¬ isDetector "luminosity_distance" := by
  unfold isDetector; decide

/-! ## C57 -/

/-- No two columns are converted to the same name: if `x_detector` is a column then `x` is not, and
`x` is not `redshift`. -/
def Spec.NoCollision (data : Dict Fl) : Prop :=
  ∀ n, data.contains (n ++ "_detector") → ¬ data.contains n ∧ n ≠ "redshift"

/-- `samples` are the source-frame columns of `data` at redshift `z`. -/
structure Spec.SourceFrame (data : Dict Fl) (z : Fl) (samples : Dict Fl) : Prop where
  /-- the redshift -/
  redshift : samples.get? "redshift" = some z
  /-- redshifted columns are divided by `1 + z` -/
  detector : ∀ n x, data.get? (n ++ "_detector") = some x → samples.get? n = some (x / (1 + z))
  /-- all other columns are copied -/
  other : ∀ k x, (¬ ∃ n, k = n ++ "_detector") → k ≠ "luminosity_distance" → k ≠ "redshift" →
    data.get? k = some x → samples.get? k = some x
  /-- there are no further columns -/
  nothing : ∀ k, samples.contains k → k = "redshift" ∨ data.contains (k ++ "_detector") ∨
    (data.contains k ∧ (¬ ∃ n, k = n ++ "_detector") ∧ k ≠ "luminosity_distance")

/-- Number of detector-frame columns. -/
def Spec.detectorCount (data : Dict Fl) : ℕ :=
  (data.keys.filter fun k => ∃ n, k = n ++ "_detector").length

theorem get_some {α : Type} {d : Dict α} {k : String} {v : α} (h : d.get? k = some v) :
    d.get k = .ok v := by
  simp [Dict.get, h]

theorem get?_of_mem_keys {α : Type} {d : Dict α} {k : String} (h : k ∈ d.keys) :
    ∃ v, d.get? k = some v :=
  Option.isSome_iff_exists.1 ((Dict.get?_isSome_iff d k).2 h)

/-- Columns before the first detector-frame column are only copied. -/
theorem fold_copy (data : Dict Fl) (ks : List String) (hk : ∀ k ∈ ks, k ∈ data.keys)
    (hd : ∀ k ∈ ks, ¬ isDetector k) (S0 : Dict Fl) (j0 : Fl) :
    ∃ S, ks.foldlM (convertKey data) (S0, j0) = .ok (S, j0) ∧
      ∀ k, S.get? k = if k ∈ ks ∧ k ≠ "luminosity_distance" then data.get? k else S0.get? k := by
  induction ks generalizing S0 with
  | nil => exact ⟨S0, rfl, fun k => by simp⟩
  | cons key ks ih =>
    have hdk := hd key (by simp)
    obtain ⟨x, hx⟩ := get?_of_mem_keys (hk key (by simp))
    rw [List.foldlM_cons]
    by_cases hl : key = "luminosity_distance"
    · obtain ⟨S, hS, hg⟩ := ih (fun k h => hk k (by simp [h])) (fun k h => hd k (by simp [h])) S0
      refine ⟨S, ?_, ?_⟩
      · rw [convertKey, if_neg hdk, if_neg (by simpa using hl)]
        exact hS
      · intro k
        rw [hg k]
        by_cases h : k = key
        · subst h; simp [hl]
        · simp [h]
    · obtain ⟨S, hS, hg⟩ := ih (fun k h => hk k (by simp [h])) (fun k h => hd k (by simp [h]))
        (S0.set key x)
      refine ⟨S, ?_, ?_⟩
      · rw [convertKey, if_neg hdk, if_pos hl, get_some hx]
        exact hS
      · intro k
        rw [hg k, Dict.get?_set]
        by_cases h : k = key
        · subst h; simp [hl, hx]
        · simp [h]

/-- Once the redshift is known, the loop converts every column. -/
theorem fold_convert (data : Dict Fl) (hnc : Spec.NoCollision data) (z : Fl) (ks : List String)
    (hk : ∀ k ∈ ks, k ∈ data.keys) (hnd : ks.Nodup) (hr : "redshift" ∉ ks) (S0 : Dict Fl) (j0 : Fl)
    (h0 : S0.get? "redshift" = some z) :
    ∃ S, ks.foldlM (convertKey data) (S0, j0) =
        .ok (S, j0 * (1 + z) ^ (ks.filter fun k => ∃ n, k = n ++ "_detector").length) ∧
      ∀ k, S.get? k = if k ++ "_detector" ∈ ks then (data.get? (k ++ "_detector")).map (· / (1 + z))
        else if k ∈ ks ∧ ¬ isDetector k ∧ k ≠ "luminosity_distance" then data.get? k
        else S0.get? k := by
  induction ks generalizing S0 j0 with
  | nil => exact ⟨S0, by simp only [List.filter_nil, List.length_nil, pow_zero, mul_one]; rfl, fun k => by simp⟩
  | cons key ks ih =>
    obtain ⟨x, hx⟩ := get?_of_mem_keys (hk key (by simp))
    obtain ⟨hnk, hnd'⟩ := List.nodup_cons.1 hnd
    have hr' : "redshift" ∉ ks := fun h => hr (by simp [h])
    have hkr : key ≠ "redshift" := fun h => hr (by simp [h])
    have hks : ∀ k ∈ ks, k ∈ data.keys := fun k h => hk k (by simp [h])
    rw [List.foldlM_cons]
    by_cases hdk : isDetector key
    · obtain ⟨n, rfl⟩ := isDetector_iff.1 hdk
      obtain ⟨hcn, hnr⟩ := hnc n (hk _ (by simp))
      have h1 : (S0.set n (x / (1 + z))).get? "redshift" = some z := by
        rw [Dict.get?_set, if_neg hnr.symm, h0]
      obtain ⟨S, hS, hg⟩ := ih hks hnd' hr' (S0.set n (x / (1 + z))) (j0 * (1 + z)) h1
      refine ⟨S, ?_, ?_⟩
      · rw [convertKey, if_pos hdk, sourceName_append]
        simp only [get_some hx, get_some h0, get_some h1, ok_bind, pure_eq_ok]
        rw [hS, List.filter_cons_of_pos (by simp), List.length_cons, pow_succ, mul_assoc,
          mul_comm (1 + z)]
      · intro k
        rw [hg k, Dict.get?_set]
        by_cases hkn : k = n
        · subst hkn
          have h2 : k ∉ ks := fun h => hcn (hks k h)
          simp [hnk, h2, hx]
        · have h3 : ¬ (k ++ "_detector" = n ++ "_detector") := fun h => hkn (append_detector_inj h)
          by_cases h4 : k = n ++ "_detector"
          · subst h4
            simp [hdk, hkn, h3]
          · simp only [List.mem_cons, h3, h4, false_or, hkn, if_false]
    · have hdk' : ¬ ∃ n, key = n ++ "_detector" := fun h => hdk (isDetector_iff.2 h)
      have hne : ∀ k, k ++ "_detector" ≠ key := fun k h => hdk' ⟨k, h.symm⟩
      by_cases hl : key = "luminosity_distance"
      · obtain ⟨S, hS, hg⟩ := ih hks hnd' hr' S0 j0 h0
        refine ⟨S, ?_, ?_⟩
        · rw [convertKey, if_neg hdk, if_neg (by simpa using hl), pure_eq_ok, ok_bind, hS,
            List.filter_cons_of_neg (by simpa using hdk')]
        · intro k
          rw [hg k]
          by_cases h : k = key
          · subst h; simp [hl, hne]
          · simp [h, hne]
      · have h1 : (S0.set key x).get? "redshift" = some z := by
          rw [Dict.get?_set, if_neg hkr.symm, h0]
        obtain ⟨S, hS, hg⟩ := ih hks hnd' hr' (S0.set key x) j0 h1
        refine ⟨S, ?_, ?_⟩
        · rw [convertKey, if_neg hdk, if_pos hl, get_some hx]
          simp only [ok_bind, pure_eq_ok]
          rw [hS, List.filter_cons_of_neg (by simpa using hdk')]
        · intro k
          rw [hg k, Dict.get?_set]
          by_cases h : k = key
          · subst h
            have h5 : k ++ "_detector" ∉ ks := by
              intro h'
              exact (hnc k (hks _ h')).1 (hk k (by simp))
            simp [hl, hne, hx, hdk, h5]
          · simp [h, hne]

/-- **C57, luminosity distance given.** For every cosmology and every set of distinct columns
without name collisions that contains `luminosity_distance` and not `redshift`: the conversion
succeeds, the redshift is the one at that distance, every `x_detector` becomes
`x = x_detector / (1 + z)`, everything else is copied, and the Jacobian is `dDL/dz (1 + z)^k`
with `k` the number of detector-frame columns. -/
theorem C57_distance (self : CosmoMixin) {data parameters : Dict Fl} (hnd : data.keys.Nodup)
    (hnc : Spec.NoCollision data) {c : Cosmology} (hc : self.cosmology parameters = .ok c)
    {dl : Fl} (hdl : data.get? "luminosity_distance" = some dl) (hr : ¬ data.contains "redshift") :
    ∃ samples, self.detectorFrameToSourceFrame data parameters =
        .ok (samples, c.dDLdz (c.zAtDistance dl) *
          (1 + c.zAtDistance dl) ^ Spec.detectorCount data) ∧
      Spec.SourceFrame data (c.zAtDistance dl) samples ∧
      ¬ samples.contains "luminosity_distance" := by
  have hcl : data.contains "luminosity_distance" :=
    (Dict.get?_isSome_iff _ _).1 (by rw [hdl]; rfl)
  obtain ⟨S, hS, hg⟩ := fold_convert data hnc (c.zAtDistance dl) data.keys (fun k h => h) hnd hr
    [("redshift", c.zAtDistance dl)] (c.dDLdz (c.zAtDistance dl)) (by simp [Dict.get?_cons])
  have hnr : ∀ n, n ++ "_detector" ∈ data.keys → ¬ n ∈ data.keys ∧ n ≠ "redshift" := hnc
  refine ⟨S, ?_, ⟨?_, ?_, ?_, ?_⟩, ?_⟩
  · unfold detectorFrameToSourceFrame
    simp only [if_pos hcl, hc, get_some hdl, ok_bind, pure_eq_ok]
    exact hS
  · rw [hg, if_neg fun h => (hnr _ h).2 rfl, if_neg fun h => hr h.1]
    simp [Dict.get?_cons]
  · intro n x hx
    have hm : n ++ "_detector" ∈ data.keys := (Dict.get?_isSome_iff _ _).1 (by rw [hx]; rfl)
    rw [hg, if_pos hm, hx]; rfl
  · intro k x hk hl _ hx
    have hm : k ∈ data.keys := (Dict.get?_isSome_iff _ _).1 (by rw [hx]; rfl)
    rw [hg, if_neg fun h => (hnr _ h).1 hm,
      if_pos ⟨hm, fun h => hk (isDetector_iff.1 h), hl⟩, hx]
  · intro k hk
    obtain ⟨v, hv⟩ := get?_of_mem_keys hk
    rw [hg] at hv
    split_ifs at hv with h1 h2
    · exact Or.inr (Or.inl h1)
    · exact Or.inr (Or.inr ⟨h2.1, fun h => h2.2.1 (isDetector_iff.2 h), h2.2.2⟩)
    · left
      rw [Dict.get?_cons] at hv
      by_contra h
      simp [h] at hv
  · intro hk
    obtain ⟨v, hv⟩ := get?_of_mem_keys hk
    rw [hg, if_neg fun h => (hnr _ h).1 hcl, if_neg fun h => h.2.2 rfl] at hv
    simp [Dict.get?_cons] at hv

/-- **C57, neither given**: `ValueError`, whatever the other columns are. -/
theorem C57_neither (self : CosmoMixin) (data parameters : Dict Fl)
    (h1 : ¬ data.contains "luminosity_distance") (h2 : ¬ data.contains "redshift") :
    self.detectorFrameToSourceFrame data parameters = .error .valueError := by
  unfold detectorFrameToSourceFrame
  simp only [if_neg h1, if_pos h2]
  rfl

/-- **C57, cosmology not defined**: with a luminosity distance the error of the cosmology is
raised. -/
theorem C57_bad_cosmology (self : CosmoMixin) (data parameters : Dict Fl) {e : PyErr}
    (h1 : data.contains "luminosity_distance") (h2 : self.cosmology parameters = .error e) :
    self.detectorFrameToSourceFrame data parameters = .error e := by
  unfold detectorFrameToSourceFrame
  simp only [if_pos h1, h2]
  rfl

/-- The redshift part of C57: with a `redshift` column (and no luminosity distance) the conversion
succeeds for every set of columns. -/
def C57_statement : Prop :=
  ∀ (self : CosmoMixin) (data parameters : Dict Fl) (z : Fl), data.keys.Nodup →
    Spec.NoCollision data → data.get? "redshift" = some z →
    ¬ data.contains "luminosity_distance" →
    ∃ samples, self.detectorFrameToSourceFrame data parameters =
        .ok (samples, (1 + z) ^ Spec.detectorCount data) ∧ Spec.SourceFrame data z samples

/-- The loop fails with `KeyError: 'redshift'` at a detector column that comes first. -/
theorem convert_detector_first (self : CosmoMixin) (n : String) (x : Fl) (rest : Dict Fl)
    (parameters : Dict Fl) (hl : ¬ (Dict.contains ((n ++ "_detector", x) :: rest) "luminosity_distance"))
    (hr : Dict.contains ((n ++ "_detector", x) :: rest) "redshift") :
    self.detectorFrameToSourceFrame ((n ++ "_detector", x) :: rest) parameters =
      .error (.keyError "redshift") := by
  unfold detectorFrameToSourceFrame
  simp only [if_neg hl, if_neg (not_not.2 hr), pure_eq_ok, ok_bind]
  rw [show Dict.keys ((n ++ "_detector", x) :: rest) = (n ++ "_detector") :: Dict.keys rest from rfl,
    List.foldlM_cons, convertKey, if_pos (isDetector_append n)]
  simp only [get_some (d := (n ++ "_detector", x) :: rest) (k := n ++ "_detector") (v := x)
    (by simp [Dict.get?_cons]), ok_bind]
  rfl

/-- A mixin with a fixed cosmology. -/
def fixedMixin (c : Cosmology) : CosmoMixin := ⟨"Planck15", [], .fixed c⟩

/-- **C57 fails** in this part: a detector-frame column before the `redshift` column raises
`KeyError`. -/
theorem C57_fails : ¬ C57_statement := by
  intro h
  obtain ⟨S, hS, -⟩ := h (fixedMixin ⟨id, id, id, id⟩)
    [("mass_1" ++ "_detector", fin 30), ("redshift", fin 1)] [] (fin 1) (by decide)
    (by
      intro n hn
      simp only [Dict.contains, List.map_cons, List.map_nil, List.mem_cons, List.not_mem_nil,
        or_false] at hn ⊢
      rcases hn with hn | hn
      · rw [append_detector_inj hn]; decide
      · exact absurd (hn ▸ isDetector_append n) not_isDetector_redshift)
    (by simp [Dict.get?_cons]) (by simp [Dict.contains])
  rw [convert_detector_first _ "mass_1" (fin 30) [("redshift", fin 1)] [] (by simp [Dict.contains])
    (by simp [Dict.contains])] at hS
  cases hS

/-- **C57, what holds when a redshift is given**: if no detector-frame column precedes `redshift`,
the conversion succeeds with Jacobian `(1 + z)^k`. (Otherwise `KeyError`, see
`convert_detector_first`.) -/
theorem C57_redshift_partial (self : CosmoMixin) {pre post : Dict Fl} {z : Fl}
    {parameters : Dict Fl} (hnd : (Dict.keys (pre ++ ("redshift", z) :: post)).Nodup)
    (hnc : Spec.NoCollision (pre ++ ("redshift", z) :: post))
    (hl : ¬ Dict.contains (pre ++ ("redshift", z) :: post) "luminosity_distance")
    (hpre : ∀ k ∈ pre.keys, ¬ ∃ n, k = n ++ "_detector") :
    ∃ samples, self.detectorFrameToSourceFrame (pre ++ ("redshift", z) :: post) parameters =
        .ok (samples, (1 + z) ^ Spec.detectorCount (pre ++ ("redshift", z) :: post)) ∧
      Spec.SourceFrame (pre ++ ("redshift", z) :: post) z samples := by
  set data : Dict Fl := pre ++ ("redshift", z) :: post with hdata
  have hkeys : data.keys = pre.keys ++ "redshift" :: post.keys := by
    rw [hdata]; simp [Dict.keys]
  have hrpre : "redshift" ∉ pre.keys := by
    rw [hkeys] at hnd
    intro h
    exact (List.nodup_append.1 hnd).2.2 _ h _ (by simp) rfl
  have hrpost : "redshift" ∉ post.keys := by
    rw [hkeys] at hnd
    exact (List.nodup_cons.1 (List.nodup_append.1 hnd).2.1).1
  have hr : data.contains "redshift" := by
    show "redshift" ∈ data.keys
    rw [hkeys]; simp
  have hgz : data.get? "redshift" = some z := by
    rw [hdata, Dict.get?_append, (Dict.get?_eq_none_iff _ _).2 hrpre]
    simp [Dict.get?_cons]
  have hpre' : ∀ k ∈ pre.keys ++ ["redshift"], ¬ isDetector k := by
    intro k hk
    rcases List.mem_append.1 hk with h | h
    · exact fun h' => hpre k h (isDetector_iff.1 h')
    · simp only [List.mem_singleton] at h
      exact h ▸ not_isDetector_redshift
  obtain ⟨S1, hS1, hg1⟩ := fold_copy data (pre.keys ++ ["redshift"])
    (fun k hk => by
      rw [hkeys]
      simp only [List.mem_append, List.mem_cons, List.not_mem_nil, or_false] at hk ⊢; tauto)
    hpre' [] 1
  obtain ⟨S, hS, hg⟩ := fold_convert data hnc z post.keys
    (fun k hk => by rw [hkeys]; simp [hk])
    (by rw [hkeys] at hnd; exact (List.nodup_cons.1 (List.nodup_append.1 hnd).2.1).2)
    hrpost S1 1 (by rw [hg1, if_pos (by simp), hgz])
  have hpredet : ∀ n, n ++ "_detector" ∉ pre.keys ++ ["redshift"] :=
    fun n h => hpre' _ h (isDetector_append n)
  have hmem : ∀ n, n ++ "_detector" ∈ data.keys → n ++ "_detector" ∈ post.keys := by
    intro n hn
    rw [hkeys] at hn
    have := hpredet n
    simp only [List.mem_append, List.mem_cons, List.not_mem_nil, or_false] at hn this
    tauto
  have hcount : Spec.detectorCount data =
      (post.keys.filter fun k => ∃ n, k = n ++ "_detector").length := by
    unfold Spec.detectorCount
    rw [hkeys, List.append_cons, List.filter_append, List.filter_eq_nil_iff.2, List.nil_append]
    intro k hk
    simp only [decide_eq_true_eq]
    exact fun h => hpre' k hk (isDetector_iff.2 h)
  refine ⟨S, ?_, ⟨?_, ?_, ?_, ?_⟩⟩
  · unfold detectorFrameToSourceFrame
    simp only [if_neg hl, if_neg (not_not.2 hr), pure_eq_ok, ok_bind]
    rw [hkeys, List.append_cons, List.foldlM_append, hS1, ok_bind, hS, one_mul, hcount]
  · rw [hg, if_neg, if_neg fun h => hrpost h.1, hg1, if_pos (by simp), hgz]
    intro h
    exact (hnc _ (by
      show _ ∈ data.keys
      rw [hkeys]
      exact List.mem_append_right _ (List.mem_cons_of_mem _ h))).2 rfl
  · intro n x hx
    have hm : n ++ "_detector" ∈ data.keys := (Dict.get?_isSome_iff _ _).1 (by rw [hx]; rfl)
    rw [hg, if_pos (hmem n hm), hx]; rfl
  · intro k x hk hl' hne hx
    have hm : k ∈ data.keys := (Dict.get?_isSome_iff _ _).1 (by rw [hx]; rfl)
    have hnd' : k ++ "_detector" ∉ post.keys := by
      intro h
      exact (hnc k (by show _ ∈ data.keys; rw [hkeys]; simp [h])).1 hm
    rw [hg, if_neg hnd']
    by_cases hp : k ∈ post.keys
    · rw [if_pos ⟨hp, fun h => hk (isDetector_iff.1 h), hl'⟩, hx]
    · rw [if_neg fun h => hp h.1, hg1, if_pos, hx]
      refine ⟨?_, hl'⟩
      rw [hkeys] at hm
      simp only [List.mem_append, List.mem_cons, List.not_mem_nil, or_false] at hm ⊢
      tauto
  · intro k hk
    obtain ⟨v, hv⟩ := get?_of_mem_keys hk
    rw [hg, hg1] at hv
    have hpost : ∀ k, k ∈ post.keys → data.contains k := by
      intro k hk; show k ∈ data.keys; rw [hkeys]; simp [hk]
    have hpre2 : ∀ k, k ∈ pre.keys ++ ["redshift"] → data.contains k := by
      intro k hk
      show k ∈ data.keys
      rw [hkeys]
      simp only [List.mem_append, List.mem_cons, List.not_mem_nil, or_false] at hk ⊢; tauto
    split_ifs at hv with h1 h2 h3
    · exact Or.inr (Or.inl (hpost _ h1))
    · exact Or.inr (Or.inr ⟨hpost _ h2.1, fun h => h2.2.1 (isDetector_iff.2 h), h2.2.2⟩)
    · exact Or.inr (Or.inr ⟨hpre2 _ h3.1, fun h => hpre' k h3.1 (isDetector_iff.2 h), h3.2⟩)
    · simp at hv

/-- Non-vacuity of C57: two detector-frame masses, a spin and a distance. -/
example (c : Cosmology) : ∃ samples, (fixedMixin c).detectorFrameToSourceFrame
    [("mass_1_detector", fin 60), ("a_1", fin 0), ("luminosity_distance", fin 1000),
      ("mass_2_detector", fin 40)] [] =
      .ok (samples, c.dDLdz (c.zAtDistance (fin 1000)) * (1 + c.zAtDistance (fin 1000)) ^ 2) ∧
    samples.get? "mass_2" = some (fin 40 / (1 + c.zAtDistance (fin 1000))) := by
  have hdet : ∀ n, n ++ "_detector" ∈ ["mass_1_detector", "a_1", "luminosity_distance",
      "mass_2_detector"] → n = "mass_1" ∨ n = "mass_2" := by
    intro n hn
    have hn' := List.mem_map_of_mem (f := sourceName) hn
    simp only [List.mem_cons, List.not_mem_nil, or_false] at hn
    rcases hn with h | h | h | h
    · left; exact append_detector_inj (h.trans (by decide))
    · exact absurd (h ▸ isDetector_append n) (by unfold isDetector; decide)
    · exact absurd (h ▸ isDetector_append n) (by unfold isDetector; decide)
    · right; exact append_detector_inj (h.trans (by decide))
  obtain ⟨S, h1, h2, -⟩ := C57_distance (fixedMixin c) (parameters := []) (c := c)
    (data := [("mass_1_detector", fin 60), ("a_1", fin 0), ("luminosity_distance", fin 1000),
      ("mass_2_detector", fin 40)]) (by decide)
    (by
      intro n hn
      rcases hdet n hn with rfl | rfl <;> simp [Dict.contains])
    rfl (dl := fin 1000) (by simp [Dict.get?_cons]) (by simp [Dict.contains])
  have hcount : Spec.detectorCount [("mass_1_detector", fin 60), ("a_1", fin 0),
      ("luminosity_distance", fin 1000), ("mass_2_detector", fin 40)] = 2 := by
    unfold Spec.detectorCount
    have e : ∀ k : String, decide (∃ n, k = n ++ "_detector") = decide (isDetector k) :=
      fun k => by simp only [isDetector_iff]
    simp only [e, Dict.keys, List.map_cons, List.map_nil]
    have h1 : isDetector "mass_1_detector" := isDetector_append "mass_1"
    have h2 : isDetector "mass_2_detector" := isDetector_append "mass_2"
    have h3 : ¬ isDetector "a_1" := by unfold isDetector; decide
    simp [List.filter_cons, h1, h2, h3, not_isDetector_distance]
  rw [hcount] at h1
  exact ⟨S, h1, h2.detector "mass_2" (fin 40) (by simp [Dict.get?_cons])⟩

/-! ## C58 -/

/-- Full statement of C58: the result does not depend on the order of the columns (the samples are
compared as maps). -/
def C58_statement : Prop :=
  ∀ (self : CosmoMixin) (data data' parameters : Dict Fl), data.keys.Nodup → data.Perm data' →
    (∀ e, self.detectorFrameToSourceFrame data parameters = .error e →
      self.detectorFrameToSourceFrame data' parameters = .error e) ∧
    (∀ S j, self.detectorFrameToSourceFrame data parameters = .ok (S, j) →
      ∃ S', self.detectorFrameToSourceFrame data' parameters = .ok (S', j) ∧
        ∀ k, S'.get? k = S.get? k)

/-- **C58 fails**: `{mass_1_detector, redshift}` raises `KeyError`, `{redshift, mass_1_detector}` does
not. -/
theorem C58_fails : ¬ C58_statement := by
  intro h
  have h1 := (h (fixedMixin ⟨id, id, id, id⟩)
    [("mass_1" ++ "_detector", fin 30), ("redshift", fin 1)]
    [("redshift", fin 1), ("mass_1" ++ "_detector", fin 30)] [] (by decide) (List.Perm.swap _ _ _)).1 _
    (convert_detector_first _ "mass_1" (fin 30) [("redshift", fin 1)] [] (by simp [Dict.contains])
    (by simp [Dict.contains]))
  obtain ⟨S, hS, -⟩ := C57_redshift_partial (fixedMixin ⟨id, id, id, id⟩) (pre := [])
    (post := [("mass_1" ++ "_detector", fin 30)]) (z := fin 1) (parameters := []) (by decide)
    (by
      intro n hn
      simp only [Dict.contains, List.map_cons, List.map_nil, List.mem_cons, List.not_mem_nil,
        or_false, List.nil_append] at hn ⊢
      rcases hn with hn | hn
      · exact absurd (hn ▸ isDetector_append n) not_isDetector_redshift
      · rw [append_detector_inj hn]; decide)
    (by simp [Dict.contains]) (by simp [Dict.keys])
  rw [List.nil_append, h1] at hS
  cases hS

/-- **C58 fails** also when the columns collide: with both `m` and `m_detector`, whichever comes last
wins. -/
theorem C58_fails_collision (x y z : ℝ) (hz : 1 + z ≠ 0) :
    let self := fixedMixin ⟨id, id, id, id⟩
    self.detectorFrameToSourceFrame
        [("redshift", fin z), ("m", fin x), ("m_detector", fin y)] [] =
      .ok ([("redshift", fin z), ("m", fin (y / (1 + z)))], fin (1 + z)) ∧
    self.detectorFrameToSourceFrame
        [("redshift", fin z), ("m_detector", fin y), ("m", fin x)] [] =
      .ok ([("redshift", fin z), ("m", fin x)], fin (1 + z)) := by
  have hs : sourceName "m_detector" = "m" := sourceName_append "m"
  have hm : ¬ isDetector "m" := by unfold isDetector; decide
  have hmd : isDetector "m_detector" := isDetector_append "m"
  constructor <;>
  · simp [detectorFrameToSourceFrame, Dict.contains, Dict.keys, convertKey, pure_eq_ok, ok_bind, hs,
      hm, hmd, not_isDetector_redshift, Dict.get, Dict.get?_cons, Dict.set, fin_div hz]

theorem SourceFrame_get? {data S : Dict Fl} {z : Fl} (h : Spec.SourceFrame data z S)
    (hl : ¬ S.contains "luminosity_distance") (k : String) :
    S.get? k = if k = "redshift" then some z
      else if k = "luminosity_distance" then none
      else if data.contains (k ++ "_detector") then
        (data.get? (k ++ "_detector")).map (· / (1 + z))
      else if ∃ n, k = n ++ "_detector" then none
      else data.get? k := by
  by_cases h1 : k = "redshift"
  · subst h1; rw [if_pos rfl, h.redshift]
  rw [if_neg h1]
  by_cases h2 : k = "luminosity_distance"
  · subst h2; rw [if_pos rfl, (Dict.get?_eq_none_iff _ _).2 hl]
  rw [if_neg h2]
  by_cases h3 : data.contains (k ++ "_detector")
  · obtain ⟨x, hx⟩ := get?_of_mem_keys h3
    rw [if_pos h3, hx, h.detector k x hx]; rfl
  rw [if_neg h3]
  by_cases h4 : ∃ n, k = n ++ "_detector"
  · rw [if_pos h4, (Dict.get?_eq_none_iff _ _).2]
    intro hk
    rcases h.nothing k hk with h' | h' | h'
    · exact h1 h'
    · exact h3 h'
    · exact h'.2.1 h4
  rw [if_neg h4]
  by_cases h5 : data.contains k
  · obtain ⟨x, hx⟩ := get?_of_mem_keys h5
    rw [hx, h.other k x h4 h2 h1 hx]
  · rw [(Dict.get?_eq_none_iff _ _).2 h5, (Dict.get?_eq_none_iff _ _).2]
    intro hk
    rcases h.nothing k hk with h' | h' | h'
    · exact h1 h'
    · exact h3 h'
    · exact h5 h'.1

theorem get?_perm {d d' : Dict Fl} (h : d.Perm d') (hnd : d.keys.Nodup) (k : String) :
    d'.get? k = d.get? k := by
  have hnd' : d'.keys.Nodup := (h.map Prod.fst).nodup_iff.1 hnd
  cases hk : d.get? k with
  | none =>
    rw [Dict.get?_eq_none_iff] at hk ⊢
    exact fun hc => hk ((h.map Prod.fst).mem_iff.2 hc)
  | some v =>
    rw [← Dict.mem_iff_get? hnd] at hk
    rw [← Dict.mem_iff_get? hnd']
    exact h.mem_iff.1 hk

/-- **C58, what holds**: with a luminosity distance, no `redshift` column and no colliding names the
result is independent of the order of the columns. -/
theorem C58_distance_partial (self : CosmoMixin) {data data' parameters : Dict Fl}
    (hnd : data.keys.Nodup) (hperm : data.Perm data') (hnc : Spec.NoCollision data) {c : Cosmology}
    (hc : self.cosmology parameters = .ok c) {dl : Fl}
    (hdl : data.get? "luminosity_distance" = some dl) (hr : ¬ data.contains "redshift") :
    ∃ S S' j, self.detectorFrameToSourceFrame data parameters = .ok (S, j) ∧
      self.detectorFrameToSourceFrame data' parameters = .ok (S', j) ∧ ∀ k, S'.get? k = S.get? k := by
  have hkp : data.keys.Perm data'.keys := hperm.map Prod.fst
  have hcont : ∀ k, data'.contains k ↔ data.contains k := fun k => hkp.mem_iff.symm
  have hnc' : Spec.NoCollision data' := by
    intro n hn
    rw [hcont] at hn ⊢
    exact hnc n hn
  obtain ⟨S, h1, h2, h3⟩ := C57_distance self hnd hnc hc hdl hr
  obtain ⟨S', h1', h2', h3'⟩ := C57_distance self (data := data') (hkp.nodup_iff.1 hnd) hnc' hc
    (by rw [get?_perm hperm hnd, hdl]) (by rw [hcont]; exact hr)
  refine ⟨S, S', _, h1, ?_, ?_⟩
  · rw [h1']
    have : Spec.detectorCount data' = Spec.detectorCount data :=
      ((hkp.filter _).length_eq).symm
    rw [this]
  · intro k
    rw [SourceFrame_get? h2 h3, SourceFrame_get? h2' h3']
    simp only [hcont, get?_perm hperm hnd]

/-- Non-vacuity of C58: reversing a dictionary with a distance and two masses. -/
example (c : Cosmology) : ∃ S S' j,
    (fixedMixin c).detectorFrameToSourceFrame
      [("luminosity_distance", fin 1000), ("spin", fin 40)] [] = .ok (S, j) ∧
    (fixedMixin c).detectorFrameToSourceFrame
      [("spin", fin 40), ("luminosity_distance", fin 1000)] [] = .ok (S', j) ∧
    ∀ k, S'.get? k = S.get? k :=
  C58_distance_partial (fixedMixin c) (by decide) (List.Perm.swap _ _ _)
    (by
      intro n hn
      simp only [Dict.contains, List.map_cons, List.map_nil, List.mem_cons, List.not_mem_nil,
        or_false] at hn
      rcases hn with h | h
      · exact absurd (h ▸ isDetector_append n) not_isDetector_distance
      · exact absurd (h ▸ isDetector_append n) (by unfold isDetector; decide))
    rfl (dl := fin 1000) (by simp [Dict.get?_cons]) (by simp [Dict.contains])

/-! ## C60 -/

/-- **C60.** The names read for each cosmology, and `KeyError` for an unknown one. -/
theorem C60_names (available : Dict CosmoEntry) (name : String) :
    (available.get? name = none → CosmoMixin.init available name = .error (.keyError name)) ∧
    (∀ e, available.get? name = some e → ∃ m, CosmoMixin.init available name = .ok m ∧
      m.cosmo = e ∧ m.cosmologyNames =
        if name = "FlatwCDM" then ["H0", "Om0", "w0"]
        else if name = "FlatLambdaCDM" then ["H0", "Om0"] else []) := by
  constructor
  · intro h
    simp only [CosmoMixin.init, Dict.get, h]
    rfl
  · intro e h
    simp only [CosmoMixin.init, Dict.get, h, ok_bind, pure_eq_ok]
    exact ⟨_, rfl, rfl, rfl⟩

theorem cosmologyVariables_ok {m : CosmoMixin} {p : Dict Fl} {g : String → Fl}
    (h : ∀ k ∈ m.cosmologyNames, p.get? k = some (g k)) :
    m.cosmologyVariables p = .ok (m.cosmologyNames.map fun k => (k, g k)) := by
  unfold CosmoMixin.cosmologyVariables
  apply mapM_ok
  intro k hk
  rw [get_some (h k hk)]
  rfl

/-- **C60, free cosmologies.** For a cosmology class, its constructor is called with exactly the
named parameters and their values; nothing else in the dictionary matters. -/
theorem C60_free {m : CosmoMixin} {cls : Dict Fl → Except PyErr Cosmology} (hm : m.cosmo = .free cls)
    {p : Dict Fl} {g : String → Fl} (h : ∀ k ∈ m.cosmologyNames, p.get? k = some (g k)) :
    m.cosmology p = cls (m.cosmologyNames.map fun k => (k, g k)) := by
  unfold CosmoMixin.cosmology
  rw [hm]
  simp only [cosmologyVariables_ok h]
  rfl

/-- **C60, missing parameters.** If one of the named parameters is missing, `KeyError` for a named
parameter is raised. -/
theorem C60_missing {m : CosmoMixin} {cls : Dict Fl → Except PyErr Cosmology}
    (hm : m.cosmo = .free cls) {p : Dict Fl} {k : String} (hk : k ∈ m.cosmologyNames)
    (h : ¬ p.contains k) :
    ∃ k' ∈ m.cosmologyNames, ¬ p.contains k' ∧ m.cosmology p = .error (.keyError k') := by
  have key : ∀ l : List String, k ∈ l → ∃ k' ∈ l, ¬ p.contains k' ∧
      (l.mapM fun key => do let v ← p.get key; return (key, v)) = Except.error (PyErr.keyError k') := by
    intro l
    induction l with
    | nil => simp
    | cons a l ih =>
      intro hkl
      rw [List.mapM_cons]
      cases ha : p.get? a with
      | none =>
        refine ⟨a, by simp, (Dict.get?_eq_none_iff _ _).1 ha, ?_⟩
        simp only [Dict.get, ha]
        rfl
      | some v =>
        have hne : k ≠ a := by
          rintro rfl
          exact h ((Dict.get?_isSome_iff _ _).1 (by rw [ha]; rfl))
        obtain ⟨k', h1, h2, h3⟩ := ih (by simpa [hne] using hkl)
        refine ⟨k', by simp [h1], h2, ?_⟩
        rw [get_some ha, h3]
        rfl
  obtain ⟨k', h1, h2, h3⟩ := key _ hk
  refine ⟨k', h1, h2, ?_⟩
  unfold CosmoMixin.cosmology CosmoMixin.cosmologyVariables
  rw [hm]
  simp only [h3]
  rfl

/-- **C60, fixed cosmologies** ignore the parameters. -/
theorem C60_fixed {m : CosmoMixin} {c : Cosmology} (hm : m.cosmo = .fixed c) (p : Dict Fl) :
    m.cosmology p = .ok c := by
  unfold CosmoMixin.cosmology
  rw [hm]

/-- `n` reads of `variable_names` in a row. -/
def Spec.readNames (n : ℕ) (s : Redshift) : Redshift := n.iterate (fun s => s.variableNames.2) s

/-- **C60.** The variable names of a redshift model are the cosmological names followed by its own,
after any number of previous reads. -/
theorem C60_variableNames {available : Dict CosmoEntry} {names : Option (List String)}
    {psi : Fl → Dict Fl → Except PyErr Fl} {zMax : ℝ} {name : String} {s : Redshift}
    (h : Redshift.init available names psi zMax name = .ok s) (n : ℕ) :
    (Spec.readNames n s).variableNames.1 =
      (if name = "FlatwCDM" then ["H0", "Om0", "w0"]
        else if name = "FlatLambdaCDM" then ["H0", "Om0"] else []) ++ names.getD [] := by
  have hread : ∀ s : Redshift, s.variableNames.2 = s := by
    intro s
    unfold Redshift.variableNames
    cases s.baseVariableNames <;> rfl
  have hit : Spec.readNames n s = s := by
    unfold Spec.readNames
    induction n with
    | zero => rfl
    | succ n ih =>
      show Nat.iterate _ n (s.variableNames.2) = s
      rw [hread]; exact ih
  rw [hit]
  unfold Redshift.init at h
  obtain ⟨m, hm, h⟩ := bind_eq_ok.1 h
  cases he : available.get? name with
  | none => rw [(C60_names available name).1 he] at hm; cases hm
  | some e =>
    obtain ⟨m', hm', -, hn⟩ := (C60_names available name).2 e he
    rw [hm'] at hm
    have hmm := Except.ok.inj hm
    subst hmm
    rw [pure_eq_ok] at h
    have := Except.ok.inj h
    subst this
    unfold Redshift.variableNames
    cases names
    · simp [hn]
    · simp [hn]

/-- Non-vacuity of C60: a Flat wCDM class that succeeds. -/
example (c : Cosmology) : ∃ m, CosmoMixin.init [("FlatwCDM", .free fun _ => .ok c)] "FlatwCDM" = .ok m ∧
    m.cosmology [("Om0", fin 0.3), ("w0", fin (-1)), ("H0", fin 70), ("lamb", fin 3)] = .ok c := by
  obtain ⟨m, h1, h2, h3⟩ := (C60_names [("FlatwCDM", .free fun _ => .ok c)] "FlatwCDM").2
    (.free fun _ => .ok c) (by simp [Dict.get?_cons])
  refine ⟨m, h1, ?_⟩
  rw [C60_free h2 (g := fun k => if k = "Om0" then fin 0.3 else if k = "w0" then fin (-1) else fin 70)]
  rw [h3]
  simp [Dict.get?_cons]

end GW
