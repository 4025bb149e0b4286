import Verif.Props.RatePosterior
import Verif.Props.Cosmo
import Verif.Lemmas.Scaling
import Verif.Model.VT

/-!
# Analyses of detector-frame and of source-frame samples (C115)
-/

noncomputable section

open Classical

namespace GW

open Fl Spec

/-- One sample with the given columns, as a dictionary. -/
def Spec.sampleDict (cols : List String) (s : String → Fl) : Dict Fl := cols.map fun c => (c, s c)

/-- The columns of a source-frame analysis: a redshift, no luminosity distance and no detector-frame name; the
columns in `scaled` (masses) are redshifted. -/
structure Spec.FrameNames (cols scaled : List String) : Prop where
  /-- distinct -/
  nodup : cols.Nodup
  /-- there is a redshift -/
  redshift : "redshift" ∈ cols
  /-- the redshift is not redshifted -/
  notScaled : "redshift" ∉ scaled
  /-- no luminosity distance -/
  distance : "luminosity_distance" ∉ cols
  /-- no detector-frame names -/
  detector : ∀ n, n ++ "_detector" ∉ cols

/-- The name of a column in the detector frame. -/
def Spec.detectorName (scaled : List String) (c : String) : String :=
  if c = "redshift" then "luminosity_distance" else if c ∈ scaled then c ++ "_detector" else c

/-- `d` is the sample `s` seen in the detector frame with the cosmology `c`: the redshift `z` is replaced by the
luminosity distance, every mass is multiplied by `1 + z`, and the density `prior` from which the sample was drawn is
divided by the Jacobian `dD_L/dz (1 + z)^k` for `k` masses. -/
def Spec.SameSource (c : Cosmology) (cols scaled : List String) (s d : String → Fl) : Prop :=
  ∃ z D' : ℝ, -1 < z ∧ 0 < D' ∧ s "redshift" = fin z ∧ c.dDLdz (fin z) = fin D' ∧
    c.zAtDistance (c.luminosityDistance (fin z)) = fin z ∧
    d "luminosity_distance" = c.luminosityDistance (fin z) ∧
    (∀ n ∈ cols, n ∈ scaled → d (n ++ "_detector") = s n * (1 + fin z)) ∧
    (∀ n ∈ cols, n ≠ "redshift" → n ∉ scaled → d n = s n) ∧
    d "prior" = s "prior" / fin (D' * (1 + z) ^ (cols.filter (· ∈ scaled)).length)

/-- The model reads a dictionary by names: the order of the columns does not matter. -/
def Spec.ReadsByName (base : Dict Fl → Dict Fl → Except PyErr Fl) : Prop :=
  ∀ S S' φ, (∀ k, S.get? k = S'.get? k) → base S φ = base S' φ

namespace Frames

theorem sampleDict_keys (cols : List String) (s : String → Fl) : (sampleDict cols s).keys = cols := by
  simp [sampleDict, Dict.keys, Function.comp_def]

theorem sampleDict_get? (cols : List String) (s : String → Fl) (k : String) :
    (sampleDict cols s).get? k = if k ∈ cols then some (s k) else none := by
  induction cols with
  | nil => simp [sampleDict]
  | cons c cols ih =>
    unfold sampleDict at ih ⊢
    rw [List.map_cons, Dict.get?_cons, ih]
    by_cases h : k = c
    · subst h; simp
    · simp [h, Ne.symm h]

variable {cols scaled : List String}

theorem detectorName_cases (scaled : List String) (c : String) :
    (c = "redshift" ∧ detectorName scaled c = "luminosity_distance") ∨
    (c ≠ "redshift" ∧ c ∈ scaled ∧ detectorName scaled c = c ++ "_detector") ∨
    (c ≠ "redshift" ∧ c ∉ scaled ∧ detectorName scaled c = c) := by
  unfold detectorName
  by_cases h1 : c = "redshift"
  · simp [h1]
  · by_cases h2 : c ∈ scaled <;> simp [h1, h2]

theorem detectorName_inj (h : FrameNames cols scaled) {a b : String} (ha : a ∈ cols) (hb : b ∈ cols)
    (hab : detectorName scaled a = detectorName scaled b) : a = b := by
  rcases detectorName_cases scaled a with ⟨a1, a2⟩ | ⟨a1, -, a2⟩ | ⟨a1, -, a2⟩ <;>
    rcases detectorName_cases scaled b with ⟨b1, b2⟩ | ⟨b1, -, b2⟩ | ⟨b1, -, b2⟩ <;> rw [a2, b2] at hab
  · rw [a1, b1]
  · exact absurd (hab ▸ isDetector_append b) not_isDetector_distance
  · exact absurd (hab ▸ hb) h.distance
  · exact absurd (hab ▸ isDetector_append a) not_isDetector_distance
  · exact append_detector_inj hab
  · exact absurd (hab ▸ hb) (h.detector a)
  · exact absurd (hab ▸ ha) h.distance
  · exact absurd (hab ▸ ha) (h.detector b)
  · exact hab

theorem mem_detector (h : FrameNames cols scaled) (n : String) :
    n ++ "_detector" ∈ cols.map (detectorName scaled) ↔ n ∈ cols ∧ n ∈ scaled := by
  rw [List.mem_map]
  constructor
  · rintro ⟨c, hc, hn⟩
    rcases detectorName_cases scaled c with ⟨a1, a2⟩ | ⟨a1, a3, a2⟩ | ⟨a1, -, a2⟩ <;> rw [a2] at hn
    · exact absurd (hn ▸ isDetector_append n) not_isDetector_distance
    · obtain rfl := append_detector_inj hn
      exact ⟨hc, a3⟩
    · exact absurd (hn ▸ hc) (h.detector n)
  · rintro ⟨hc, hs⟩
    refine ⟨n, hc, ?_⟩
    unfold detectorName
    rw [if_neg (fun e : n = "redshift" => h.notScaled (e ▸ hs)), if_pos hs]

theorem mem_plain {k : String} (hk : ¬ ∃ n, k = n ++ "_detector")
    (hl : k ≠ "luminosity_distance") :
    k ∈ cols.map (detectorName scaled) ↔ k ∈ cols ∧ k ∉ scaled ∧ k ≠ "redshift" := by
  rw [List.mem_map]
  constructor
  · rintro ⟨c, hc, hn⟩
    rcases detectorName_cases scaled c with ⟨a1, a2⟩ | ⟨a1, a3, a2⟩ | ⟨a1, a3, a2⟩ <;> rw [a2] at hn
    · exact absurd hn.symm hl
    · exact absurd ⟨c, hn.symm⟩ hk
    · subst hn
      exact ⟨hc, a3, a1⟩
  · rintro ⟨hc, hs, hr⟩
    refine ⟨k, hc, ?_⟩
    unfold detectorName
    rw [if_neg hr, if_neg hs]

theorem nodup_names (h : FrameNames cols scaled) : (cols.map (detectorName scaled)).Nodup :=
  List.Nodup.map_on (fun _ ha _ hb hab => detectorName_inj h ha hb hab) h.nodup

theorem count_names (h : FrameNames cols scaled) (d : String → Fl) :
    detectorCount (sampleDict (cols.map (detectorName scaled)) d) = (cols.filter (· ∈ scaled)).length := by
  unfold detectorCount
  rw [sampleDict_keys, List.filter_map, List.length_map]
  congr 1
  refine List.filter_congr fun c hc => ?_
  simp only [Function.comp_apply, decide_eq_decide]
  rcases detectorName_cases scaled c with ⟨a1, a2⟩ | ⟨a1, a3, a2⟩ | ⟨a1, a3, a2⟩ <;> rw [a2]
  · rw [a1]
    exact ⟨fun hn => absurd (isDetector_iff.2 hn) not_isDetector_distance, fun hs => absurd hs h.notScaled⟩
  · exact ⟨fun _ => a3, fun _ => ⟨c, rfl⟩⟩
  · exact ⟨fun ⟨n, hn⟩ => absurd (hn ▸ hc) (h.detector n), fun hs => absurd hs a3⟩

theorem mul_div_self {c : ℝ} (hc : 0 < c) (x : Fl) : x * fin c / fin c = x := by
  have := scale_cancel hc x 1
  rw [show fin c * (1 : Fl) = fin c by rw [mul_one]] at this
  rw [mul_comm, this, map_div_one]

theorem div_fin_eq {c : ℝ} (hc : 0 < c) (x : Fl) : x / fin c = fin c⁻¹ * x := by
  have := div_scale hc x 1
  rw [show fin c * (1 : Fl) = fin c by rw [mul_one], map_div_one] at this
  exact this

theorem div_div_cancel {c : ℝ} (hc : 0 < c) (x y : Fl) : (x / fin c) / (y / fin c) = x / y := by
  rw [div_fin_eq hc, div_fin_eq hc, scale_cancel (inv_pos.2 hc)]

/-- One sample: the model in the detector frame is the model in the source frame divided by the Jacobian, and so is
the prior. -/
theorem prob_eq (mixin : CosmoMixin) {base : Dict Fl → Dict Fl → Except PyErr Fl} (hbase : ReadsByName base)
    (h : FrameNames cols scaled) {φ : Dict Fl} {c : Cosmology} (hc : mixin.cosmology φ = .ok c) {s d : String → Fl}
    (hsd : SameSource c cols scaled s d) : ∃ J : ℝ, 0 < J ∧ d "prior" = s "prior" / fin J ∧
      cosmoModelProb mixin base (sampleDict (cols.map (detectorName scaled)) d) φ =
        (base (sampleDict cols s) φ).map (· / fin J) := by
  obtain ⟨z, D', hz, hD, hs, hc1, hc2, hd, hm, ho, hp⟩ := hsd
  have h1 : 0 < 1 + z := by linarith
  refine ⟨_, mul_pos hD (pow_pos h1 _), hp, ?_⟩
  have hl : "luminosity_distance" ∈ cols.map (detectorName scaled) :=
    List.mem_map.2 ⟨_, h.redshift, by unfold detectorName; rw [if_pos rfl]⟩
  have hnr : "redshift" ∉ cols.map (detectorName scaled) := fun hr =>
    ((mem_plain (fun hn => not_isDetector_redshift (isDetector_iff.2 hn)) (by decide)).1 hr).2.2 rfl
  obtain ⟨S, hS, hsf, hnl⟩ := C57_distance mixin (data := sampleDict (cols.map (detectorName scaled)) d)
    (parameters := φ) (by rw [sampleDict_keys]; exact nodup_names h)
    (by
      intro n hn
      have hn : n ++ "_detector" ∈ (sampleDict (cols.map (detectorName scaled)) d).keys := hn
      rw [sampleDict_keys] at hn
      obtain ⟨hn1, hn2⟩ := (mem_detector h n).1 hn
      refine ⟨?_, fun e => h.notScaled (e ▸ hn2)⟩
      show ¬ n ∈ (sampleDict (cols.map (detectorName scaled)) d).keys
      rw [sampleDict_keys, mem_plain (fun ⟨m, hm⟩ => h.detector m (hm ▸ hn1))
        (fun e => h.distance (e ▸ hn1))]
      exact fun e => e.2.1 hn2)
    hc (dl := c.luminosityDistance (fin z)) (by rw [sampleDict_get?, if_pos hl, hd])
    (by
      show ¬ "redshift" ∈ (sampleDict (cols.map (detectorName scaled)) d).keys
      rw [sampleDict_keys]; exact hnr)
  rw [hc2, hc1, count_names h] at hS
  rw [hc2] at hsf
  have hget : ∀ k, S.get? k = (sampleDict cols s).get? k := by
    intro k
    rw [sampleDict_get?]
    by_cases hk : k ∈ cols
    · rw [if_pos hk]
      rcases detectorName_cases scaled k with ⟨a1, -⟩ | ⟨a1, a3, -⟩ | ⟨a1, a3, -⟩
      · rw [a1, hsf.redshift, hs]
      · rw [hsf.detector k (s k * (1 + fin z)) (by
          rw [sampleDict_get?, if_pos ((mem_detector h k).2 ⟨hk, a3⟩), hm k hk a3])]
        rw [one_eq, fin_add, mul_div_self h1]
      · have hkd : ¬ ∃ n, k = n ++ "_detector" := fun ⟨m, hm⟩ => h.detector m (hm ▸ hk)
        have hkl : k ≠ "luminosity_distance" := fun e => h.distance (e ▸ hk)
        exact hsf.other k (s k) hkd hkl a1 (by
          rw [sampleDict_get?, if_pos ((mem_plain hkd hkl).2 ⟨hk, a3, a1⟩), ho k hk a1 a3])
    · rw [if_neg hk, Dict.get?_eq_none_iff]
      intro hS'
      rcases hsf.nothing k hS' with rfl | hd' | ⟨hd', h2, h3⟩
      · exact hk h.redshift
      · have hd' : k ++ "_detector" ∈ (sampleDict (cols.map (detectorName scaled)) d).keys := hd'
        rw [sampleDict_keys] at hd'
        exact hk ((mem_detector h k).1 hd').1
      · have hd' : k ∈ (sampleDict (cols.map (detectorName scaled)) d).keys := hd'
        rw [sampleDict_keys] at hd'
        exact hk ((mem_plain h2 h3).1 hd').1
  unfold cosmoModelProb
  rw [hS, ok_bind]
  simp only
  rw [hbase S _ φ hget]
  have hpow : (fin D' : Fl) * (1 + fin z) ^ (cols.filter (· ∈ scaled)).length =
      fin (D' * (1 + z) ^ (cols.filter (· ∈ scaled)).length) := by
    rw [one_eq, fin_add, fin_npow, fin_mul]
  rw [hpow]
  cases base (sampleDict cols s) φ <;> rfl

/-- `HyperPE` evaluates the population model at every sample by itself, by names. -/
def _root_.GW.Spec.EvaluatesEach (model : PopModel (Dict Mat) Mat) (cols : List String)
    (g : Dict Fl → Dict Fl → Except PyErr Fl) : Prop :=
  ∀ events φ, model.prob (columnsOf cols events) φ = events.mapM fun e => e.mapM fun s => g (sampleDict cols s) φ

/-- Two lists of outcomes: the same exception, or values with the same quotients by the priors. -/
def Agree (p p' : Except PyErr (List Fl)) (q q' : List Fl) : Prop :=
  (∃ e, p = .error e ∧ p' = .error e) ∨ ∃ l l', p = .ok l ∧ p' = .ok l' ∧ l.length = q.length ∧ l'.length = q'.length ∧
    List.zipWith (· / ·) l q = List.zipWith (· / ·) l' q'

variable {g g' : (String → Fl) → Except PyErr Fl} {R : (String → Fl) → (String → Fl) → Prop}

theorem row_agree (hR : ∀ s d, R s d → ∃ J : ℝ, 0 < J ∧ d "prior" = s "prior" / fin J ∧ g' d = (g s).map (· / fin J))
    {e e' : List (String → Fl)} (h : List.Forall₂ R e e') :
    Agree (e.mapM g) (e'.mapM g') (e.map fun s => s "prior") (e'.map fun s => s "prior") := by
  induction h with
  | nil => exact Or.inr ⟨[], [], rfl, rfl, rfl, rfl, rfl⟩
  | cons hab _ ih =>
    rename_i a b l l' _
    obtain ⟨J, hJ, hp, hg⟩ := hR _ _ hab
    rw [List.mapM_cons, List.mapM_cons, hg]
    cases hga : g a with
    | error err => exact Or.inl ⟨err, rfl, rfl⟩
    | ok x =>
      simp only [Except.map, ok_bind]
      rcases ih with ⟨err, h1, h2⟩ | ⟨m, m', h1, h2, h3, h4, h5⟩
      · exact Or.inl ⟨err, by rw [h1]; rfl, by rw [h2]; rfl⟩
      · refine Or.inr ⟨x :: m, x / fin J :: m', by rw [h1]; rfl, by rw [h2]; rfl, by simpa using h3, by simpa using h4, ?_⟩
        rw [List.map_cons, List.map_cons, List.zipWith_cons_cons, List.zipWith_cons_cons, h5, hp, div_div_cancel hJ]

theorem mat_agree (hR : ∀ s d, R s d → ∃ J : ℝ, 0 < J ∧ d "prior" = s "prior" / fin J ∧ g' d = (g s).map (· / fin J))
    {events events' : List (List (String → Fl))} (h : List.Forall₂ (List.Forall₂ R) events events') :
    ((events.mapM fun e => e.mapM g) >>= fun p => Mat.divide p (events.map fun e => e.map fun s => s "prior")) =
    ((events'.mapM fun e => e.mapM g') >>= fun p => Mat.divide p (events'.map fun e => e.map fun s => s "prior")) := by
  suffices H : (∃ err, (events.mapM fun e => e.mapM g) = .error err ∧ (events'.mapM fun e => e.mapM g') = .error err) ∨
      ∃ p p', (events.mapM fun e => e.mapM g) = .ok p ∧ (events'.mapM fun e => e.mapM g') = .ok p' ∧
        p.map List.length = (events.map fun e => e.map fun s => s "prior").map List.length ∧
        p'.map List.length = (events'.map fun e => e.map fun s => s "prior").map List.length ∧
        List.zipWith (List.zipWith (· / ·)) p (events.map fun e => e.map fun s => s "prior") =
          List.zipWith (List.zipWith (· / ·)) p' (events'.map fun e => e.map fun s => s "prior") by
    rcases H with ⟨err, h1, h2⟩ | ⟨p, p', h1, h2, h3, h4, h5⟩
    · rw [h1, h2]; rfl
    · rw [h1, h2, ok_bind, ok_bind]
      unfold Mat.divide
      rw [if_pos h3, if_pos h4, h5]
  induction h with
  | nil => exact Or.inr ⟨[], [], rfl, rfl, rfl, rfl, rfl⟩
  | cons hab _ ih =>
    rw [List.mapM_cons, List.mapM_cons]
    rcases row_agree hR hab with ⟨err, h1, h2⟩ | ⟨m, m', h1, h2, h3, h4, h5⟩
    · exact Or.inl ⟨err, by rw [h1]; rfl, by rw [h2]; rfl⟩
    · rw [h1, h2]
      simp only [ok_bind]
      rcases ih with ⟨err, i1, i2⟩ | ⟨p, p', i1, i2, i3, i4, i5⟩
      · exact Or.inl ⟨err, by rw [i1]; rfl, by rw [i2]; rfl⟩
      · refine Or.inr ⟨m :: p, m' :: p', by rw [i1]; rfl, by rw [i2]; rfl, ?_, ?_, ?_⟩
        · rw [List.map_cons, List.map_cons, List.map_cons, h3, i3]
        · rw [List.map_cons, List.map_cons, List.map_cons, h4, i4]
        · rw [List.map_cons, List.map_cons, List.zipWith_cons_cons, List.zipWith_cons_cons, h5, i5]

/-- The likelihoods of the same events in the two frames: the source-frame samples with the model `src`, and the
detector-frame samples with `det`. -/
def _root_.GW.Spec.sourceAnalysis (self : Likelihood) (src : PopModel (Dict Mat) Mat) (cols : List String)
    (events : List (List (String → Fl))) : Likelihood :=
  withEvents { self with hyperPrior := src } cols true events

/-- See `Spec.sourceAnalysis`. -/
def _root_.GW.Spec.detectorAnalysis (self : Likelihood) (det : PopModel (Dict Mat) Mat) (cols scaled : List String)
    (events : List (List (String → Fl))) : Likelihood :=
  withEvents { self with hyperPrior := det } (cols.map (detectorName scaled)) true events

/-- **C115, weights.** For every population model, cosmology, number of masses and all samples: the ratio of model
to sampling prior is the same in both frames, and the same exceptions are raised. -/
theorem C115_weights (self : Likelihood) (mixin : CosmoMixin) {base : Dict Fl → Dict Fl → Except PyErr Fl}
    (hbase : ReadsByName base) (h : FrameNames cols scaled) {src det : PopModel (Dict Mat) Mat}
    (hsrc : EvaluatesEach src cols base)
    (hdet : EvaluatesEach det (cols.map (detectorName scaled)) (cosmoModelProb mixin base))
    {φ : Dict Fl} {c : Cosmology} (hc : mixin.cosmology φ = .ok c) {events events' : List (List (String → Fl))}
    (he : List.Forall₂ (List.Forall₂ (SameSource c cols scaled)) events events') :
    (detectorAnalysis self det cols scaled events').weights φ = (sourceAnalysis self src cols events).weights φ := by
  have h1 : (sourceAnalysis self src cols events).weights φ =
      ((events.mapM fun e => e.mapM fun s => base (sampleDict cols s) φ) >>= fun p =>
        Mat.divide p (events.map fun e => e.map fun s => s "prior")) := by
    rw [← hsrc events φ]; rfl
  have h2 : (detectorAnalysis self det cols scaled events').weights φ =
      ((events'.mapM fun e => e.mapM fun s =>
          cosmoModelProb mixin base (sampleDict (cols.map (detectorName scaled)) s) φ) >>= fun p =>
        Mat.divide p (events'.map fun e => e.map fun s => s "prior")) := by
    rw [← hdet events' φ]; rfl
  rw [h1, h2]
  exact (mat_agree (fun s d hsd => prob_eq mixin hbase h hc hsd) he).symm

/-- What the likelihood returns depends on the data only through the weights. -/
theorem value_congr {l l' : Likelihood} (hc : l.conversion = l'.conversion) (hk : l.cls = l'.cls)
    (hs : l.selection = l'.selection) (hb : l.backend = l'.backend) (hn : l.nPosteriors = l'.nPosteriors)
    (hK : l.samplesPerPosterior = l'.samplesPerPosterior) {θ : Dict Fl}
    (hw : ∀ φ, l.conversion θ = .ok φ → l.weights φ = l'.weights φ) :
    l.lnLikelihoodAndVariance θ = l'.lnLikelihoodAndVariance θ := by
  have hsel : ∀ φ, l.selectionFactor φ = l'.selectionFactor φ := by
    intro φ
    unfold Likelihood.selectionFactor Likelihood.selectionFactorHyper Likelihood.selectionFactorRate
      Likelihood.selectionWithUncertainty
    rw [hk, hs, hn]
  have hbase : l.lnLikelihoodAndVarianceBase θ = l'.lnLikelihoodAndVarianceBase θ := by
    unfold Likelihood.lnLikelihoodAndVarianceBase
    rw [← hc]
    cases hφ : l.conversion θ with
    | error e => rfl
    | ok φ =>
      rw [ok_bind, ok_bind]
      unfold Likelihood.perEvent
      rw [hw φ hφ, hK, hsel, hb]
  unfold Likelihood.lnLikelihoodAndVariance
  rw [hbase, hk]

/-- **C115.** The log likelihood and its variance, of all three classes, are the same in both frames, for every
cosmology at the hyper-parameters. -/
theorem C115_likelihood (self : Likelihood) (mixin : CosmoMixin) {base : Dict Fl → Dict Fl → Except PyErr Fl}
    (hbase : ReadsByName base) (h : FrameNames cols scaled) {src det : PopModel (Dict Mat) Mat}
    (hsrc : EvaluatesEach src cols base)
    (hdet : EvaluatesEach det (cols.map (detectorName scaled)) (cosmoModelProb mixin base))
    {θ φ : Dict Fl} (hθ : self.conversion θ = .ok φ) {c : Cosmology} (hc : mixin.cosmology φ = .ok c)
    {events events' : List (List (String → Fl))}
    (he : List.Forall₂ (List.Forall₂ (SameSource c cols scaled)) events events') :
    (detectorAnalysis self det cols scaled events').lnLikelihoodAndVariance θ =
        (sourceAnalysis self src cols events).lnLikelihoodAndVariance θ ∧
      (detectorAnalysis self det cols scaled events').logLikelihoodRatio θ =
        (sourceAnalysis self src cols events).logLikelihoodRatio θ := by
  have hv : (detectorAnalysis self det cols scaled events').lnLikelihoodAndVariance θ =
      (sourceAnalysis self src cols events).lnLikelihoodAndVariance θ := by
    refine value_congr (l := detectorAnalysis self det cols scaled events') (l' := sourceAnalysis self src cols events)
      rfl rfl rfl rfl rfl rfl fun ψ hψ => ?_
    have : ψ = φ := by
      have h2 : self.conversion θ = .ok ψ := hψ
      rw [hθ] at h2
      cases h2; rfl
    rw [this]
    exact C115_weights self mixin hbase h hsrc hdet hc he
  refine ⟨hv, ?_⟩
  unfold Likelihood.logLikelihoodRatio
  rw [hv]
  rfl

/-- A set of found injections: the sampling prior, the columns, and numbers such as `total_generated`. -/
def _root_.GW.Spec.injections (cols : List String) (inj : List (String → Fl)) (extra : Dict Value) : Dict Value :=
  ("prior", .arr (inj.map fun s => s "prior")) :: (cols.map fun c => (c, .arr (inj.map fun s => s c))) ++ extra

/-- `ResamplingVT` evaluates the population model at every injection by itself, by names. -/
def _root_.GW.Spec.EvaluatesInjections (model : PopModel (Dict Value) (List Fl)) (cols : List String)
    (g : Dict Fl → Dict Fl → Except PyErr Fl) : Prop :=
  ∀ inj extra φ, model.prob (injections cols inj extra) φ = inj.mapM fun s => g (sampleDict cols s) φ

theorem efficiency_injections (vt : ResamplingVT) {model : PopModel (Dict Value) (List Fl)} {cols : List String}
    {g : Dict Fl → Dict Fl → Except PyErr Fl} (hm : EvaluatesInjections model cols g) (inj : List (String → Fl))
    (extra : Dict Value) (φ : Dict Fl) :
    ResamplingVT.detectionEfficiency { vt with model := model, data := injections cols inj extra } φ = (do
      let p ← inj.mapM fun s => g (sampleDict cols s) φ
      let weights ← Arr.divide p (inj.map fun s => s "prior")
      let N := vt.totalInjections.2
      let mu := toNumber vt.backend id id (Arr.sum weights / N)
      let second ← pyDiv (decide (vt.backend ≠ .jax) && vt.totalInjections.1) (mu ^ 2) N
      return (mu, toNumber vt.backend id id (Arr.sum (weights.map (· ^ 2)) / N ^ 2 - second))) := by
  unfold ResamplingVT.detectionEfficiency
  simp only
  rw [hm inj extra φ]
  have : Dict.get (injections cols inj extra) "prior" = .ok (.arr (inj.map fun s => s "prior")) := by
    refine get_some ?_
    unfold injections
    rw [List.cons_append, Dict.get?_cons, if_pos rfl]
  rw [this]
  rfl

/-- **C115, selection function.** The detection efficiency, its variance and the value of `ResamplingVT` are the same
whether the found injections are given in the source frame or in the detector frame. -/
theorem C115_selection (vt : ResamplingVT) (mixin : CosmoMixin) {base : Dict Fl → Dict Fl → Except PyErr Fl}
    (hbase : ReadsByName base) (h : FrameNames cols scaled) {src det : PopModel (Dict Value) (List Fl)}
    (hsrc : EvaluatesInjections src cols base)
    (hdet : EvaluatesInjections det (cols.map (detectorName scaled)) (cosmoModelProb mixin base))
    {φ : Dict Fl} {c : Cosmology} (hc : mixin.cosmology φ = .ok c) {inj inj' : List (String → Fl)}
    (he : List.Forall₂ (SameSource c cols scaled) inj inj') (extra extra' : Dict Value) :
    ResamplingVT.detectionEfficiency
        { vt with model := det, data := injections (cols.map (detectorName scaled)) inj' extra' } φ =
      ResamplingVT.detectionEfficiency { vt with model := src, data := injections cols inj extra } φ ∧
    ResamplingVT.call
        { vt with model := det, data := injections (cols.map (detectorName scaled)) inj' extra' } φ =
      ResamplingVT.call { vt with model := src, data := injections cols inj extra } φ := by
  have hv : ResamplingVT.detectionEfficiency
        { vt with model := det, data := injections (cols.map (detectorName scaled)) inj' extra' } φ =
      ResamplingVT.detectionEfficiency { vt with model := src, data := injections cols inj extra } φ := by
    rw [efficiency_injections vt hsrc, efficiency_injections vt hdet]
    rcases row_agree (g := fun s => base (sampleDict cols s) φ)
      (g' := fun s => cosmoModelProb mixin base (sampleDict (cols.map (detectorName scaled)) s) φ)
      (fun s d hsd => prob_eq mixin hbase h hc hsd) he with ⟨e, h1, h2⟩ | ⟨l, l', h1, h2, h3, h4, h5⟩
    · rw [h1, h2]; rfl
    · rw [h1, h2, ok_bind, ok_bind]
      unfold Arr.divide
      rw [if_pos h3, if_pos h4, h5]
  refine ⟨hv, ?_⟩
  unfold ResamplingVT.call ResamplingVT.vtFactor
  rw [hv]
  rfl

/-! ## Non-vacuity -/

/-- A cosmology with `D_L(z) = 2 z`. -/
def hubbleLaw : Cosmology where
  diffComovingVolume := id
  luminosityDistance := fun z => fin 2 * z
  dDLdz := fun _ => fin 2
  zAtDistance := fun d => d / fin 2

/-- A model of the primary mass, the redshift and a spin. -/
def threeColumns (S _φ : Dict Fl) : Except PyErr Fl := do
  let m ← S.get "mass_1"
  let z ← S.get "redshift"
  let a ← S.get "a_1"
  return m * z + a

theorem threeColumns_reads : ReadsByName threeColumns := by
  intro S S' φ h
  unfold threeColumns Dict.get
  simp only [h]

/-- The model functions by names, as a population model of a likelihood. -/
def eachSample (cols : List String) (g : Dict Fl → Dict Fl → Except PyErr Fl) : PopModel (Dict Mat) Mat :=
  ⟨[], fun data φ => match data with
    | [] => .error .indexError
    | (_, m) :: _ =>
      (List.range m.length).mapM fun i => (List.range ((m.getD i []).length)).mapM fun j =>
        g (sampleDict cols fun c => match data.get? c with
          | some col => (col.getD i []).getD j nan
          | none => nan) φ⟩

theorem range_getD {α : Type} (l : List α) (d : α) : (List.range l.length).map (fun i => l.getD i d) = l := by
  refine List.ext_getElem (by simp) fun i h1 h2 => ?_
  simp [List.getD_eq_getElem?_getD, h2]

theorem columns_get? {cols : List String} (events : List (List (String → Fl))) {k : String} (hk : k ∈ cols) :
    (columnsOf cols events).get? k = some (events.map fun e => e.map fun s => s k) := by
  induction cols with
  | nil => simp at hk
  | cons c cols ih =>
    unfold columnsOf at ih ⊢
    rw [List.map_cons, Dict.get?_cons]
    by_cases h : c = k
    · subst h; simp
    · rw [if_neg (Ne.symm h)]
      exact ih ((List.mem_cons.1 hk).resolve_left (Ne.symm h))

theorem eachSample_evaluates {cols : List String} (hne : cols ≠ []) (g : Dict Fl → Dict Fl → Except PyErr Fl) :
    EvaluatesEach (eachSample cols g) cols g := by
  intro events φ
  obtain ⟨c, cs, rfl⟩ := List.exists_cons_of_ne_nil hne
  conv_rhs => rw [← range_getD events [], mapM_map]
  unfold eachSample
  show (List.range (events.map _).length).mapM _ = _
  rw [List.length_map]
  refine mapM_congr fun i hi => ?_
  have hi' : i < events.length := List.mem_range.1 hi
  have hrow : ∀ k, ((events.map fun e => e.map fun s => s k).getD i []) = (events.getD i []).map fun s => s k := by
    intro k
    simp [List.getD_eq_getElem?_getD, hi']
  rw [hrow c, List.length_map]
  conv_rhs => rw [← range_getD (events.getD i []) (fun _ => nan), mapM_map]
  refine mapM_congr fun j hj => ?_
  have hj' : j < (events.getD i []).length := List.mem_range.1 hj
  congr 1
  unfold sampleDict
  refine List.map_congr_left fun k hk => ?_
  have := columns_get? events hk
  simp only [Prod.mk.injEq, true_and]
  rw [this]
  simp only
  rw [hrow k]
  rw [List.getD_eq_getElem _ _ (by simpa using hj'), List.getD_eq_getElem _ _ hj', List.getElem_map]

/-- A source-frame sample and the same sample in the detector frame. -/
def oneSample (m z a p : ℝ) : String → Fl := fun k =>
  if k = "mass_1" then fin m else if k = "redshift" then fin z else if k = "a_1" then fin a
  else if k = "prior" then fin p else nan

/-- See `oneSample`. -/
def oneDetected (m z a p : ℝ) : String → Fl := fun k =>
  if k = "mass_1_detector" then fin (m * (1 + z)) else if k = "luminosity_distance" then fin (2 * z)
  else if k = "a_1" then fin a else if k = "prior" then fin (p / (2 * (1 + z))) else nan

theorem oneSample_same {m z a p : ℝ} (hz : 0 ≤ z) :
    SameSource hubbleLaw ["mass_1", "redshift", "a_1"] ["mass_1"] (oneSample m z a p) (oneDetected m z a p) := by
  have h1 : (0 : ℝ) < 2 * (1 + z) := by positivity
  refine ⟨z, 2, by linarith, by norm_num, rfl, rfl, ?_, ?_, ?_, ?_, ?_⟩
  · show fin 2 * fin z / fin 2 = fin z
    rw [fin_mul, fin_div (by norm_num)]
    congr 1; ring
  · show fin (2 * z) = fin 2 * fin z
    rw [fin_mul]
  · intro n _ hn
    simp only [List.mem_singleton] at hn
    subst hn
    show fin (m * (1 + z)) = fin m * (1 + fin z)
    rw [one_eq, fin_add, fin_mul]
  · intro n hn hr hm
    simp only [List.mem_cons, List.not_mem_nil, or_false] at hn hm
    rcases hn with rfl | rfl | rfl
    · exact absurd rfl hm
    · exact absurd rfl hr
    · rfl
  · show fin (p / (2 * (1 + z))) = fin p / fin (2 * (1 + z) ^ _)
    have : (List.filter (fun x => decide (x ∈ ["mass_1"])) ["mass_1", "redshift", "a_1"]).length = 1 := by
      simp
    rw [this, pow_one, fin_div h1.ne']

theorem threeNames : FrameNames ["mass_1", "redshift", "a_1"] ["mass_1"] where
  nodup := by decide
  redshift := by decide
  notScaled := by decide
  distance := by decide
  detector := by
    intro n hn
    simp only [List.mem_cons, List.not_mem_nil, or_false] at hn
    have hd := isDetector_append n
    unfold CosmoMixin.isDetector at hd
    rcases hn with h | h | h <;> rw [h] at hd <;> revert hd <;> decide

/-- The hypotheses of `C115_likelihood` hold for two events with two samples each, and the weights are not trivial. -/
example (self : Likelihood) (hconv : self.conversion [] = .ok []) :
    (detectorAnalysis self (eachSample ["mass_1_detector", "luminosity_distance", "a_1"]
        (cosmoModelProb (fixedMixin hubbleLaw) threeColumns)) ["mass_1", "redshift", "a_1"] ["mass_1"]
      [[oneDetected 30 1 0 3, oneDetected 20 2 1 4], [oneDetected 10 0 0 1, oneDetected 5 1 1 2]]).lnLikelihoodAndVariance [] =
    (sourceAnalysis self (eachSample ["mass_1", "redshift", "a_1"] threeColumns) ["mass_1", "redshift", "a_1"]
      [[oneSample 30 1 0 3, oneSample 20 2 1 4], [oneSample 10 0 0 1, oneSample 5 1 1 2]]).lnLikelihoodAndVariance [] ∧
    threeColumns (sampleDict ["mass_1", "redshift", "a_1"] (oneSample 20 2 1 4)) [] = .ok (fin 41) := by
  have hnames : ["mass_1", "redshift", "a_1"].map (detectorName ["mass_1"]) =
      ["mass_1_detector", "luminosity_distance", "a_1"] := by
    simp [detectorName]
  refine ⟨(C115_likelihood self (fixedMixin hubbleLaw) threeColumns_reads threeNames
    (eachSample_evaluates (by simp) _) (by rw [hnames]; exact eachSample_evaluates (by simp) _) hconv
    (c := hubbleLaw) rfl ?_).1, ?_⟩
  · exact .cons (.cons (oneSample_same (by norm_num)) (.cons (oneSample_same (by norm_num)) .nil))
      (.cons (.cons (oneSample_same (by norm_num)) (.cons (oneSample_same (by norm_num)) .nil)) .nil)
  · have h1 : Dict.get? (sampleDict ["mass_1", "redshift", "a_1"] (oneSample 20 2 1 4)) "mass_1" = some (fin 20) := by
      rw [sampleDict_get?]; rfl
    have h2 : Dict.get? (sampleDict ["mass_1", "redshift", "a_1"] (oneSample 20 2 1 4)) "redshift" = some (fin 2) := by
      rw [sampleDict_get?]; rfl
    have h3 : Dict.get? (sampleDict ["mass_1", "redshift", "a_1"] (oneSample 20 2 1 4)) "a_1" = some (fin 1) := by
      rw [sampleDict_get?]; rfl
    unfold threeColumns
    rw [get_some h1, get_some h2, get_some h3]
    show Except.ok (fin 20 * fin 2 + fin 1) = _
    rw [fin_mul, fin_add]; norm_num

/-- The model functions by names, as a population model of a selection function. -/
def eachInjection (cols : List String) (g : Dict Fl → Dict Fl → Except PyErr Fl) : PopModel (Dict Value) (List Fl) :=
  ⟨[], fun data φ => match data with
    | (_, .arr l) :: _ => (List.range l.length).mapM fun i =>
        g (sampleDict cols fun c => match data.get? c with
          | some (.arr col) => col.getD i nan
          | _ => nan) φ
    | _ => .error .indexError⟩

theorem injections_get? {cols : List String} (inj : List (String → Fl)) (extra : Dict Value) {k : String}
    (hk : k ∈ cols) : (injections cols inj extra).get? k = some (.arr (inj.map fun s => s k)) := by
  unfold injections
  rw [List.cons_append, Dict.get?_cons]
  by_cases hp : k = "prior"
  · rw [if_pos hp, hp]
  · rw [if_neg hp]
    induction cols with
    | nil => simp at hk
    | cons c cols ih =>
      rw [List.map_cons, List.cons_append, Dict.get?_cons]
      by_cases h : k = c
      · subst h; simp
      · rw [if_neg h]
        exact ih ((List.mem_cons.1 hk).resolve_left h)

theorem eachInjection_evaluates (cols : List String) (g : Dict Fl → Dict Fl → Except PyErr Fl) :
    EvaluatesInjections (eachInjection cols g) cols g := by
  intro inj extra φ
  conv_rhs => rw [← range_getD inj (fun _ => nan), mapM_map]
  unfold eachInjection
  show (List.range (inj.map _).length).mapM _ = _
  rw [List.length_map]
  refine mapM_congr fun i hi => ?_
  have hi' : i < inj.length := List.mem_range.1 hi
  congr 1
  unfold sampleDict
  refine List.map_congr_left fun k hk => ?_
  have := injections_get? inj extra hk
  simp only [Prod.mk.injEq, true_and]
  rw [this]
  simp only
  rw [List.getD_eq_getElem _ _ (by simpa using hi'), List.getD_eq_getElem _ _ hi', List.getElem_map]

/-- The hypotheses of `C115_selection` hold for two injections. -/
example (vt : ResamplingVT) :
    ResamplingVT.call { vt with
        model := eachInjection ["mass_1_detector", "luminosity_distance", "a_1"]
          (cosmoModelProb (fixedMixin hubbleLaw) threeColumns)
        data := injections ["mass_1_detector", "luminosity_distance", "a_1"] [oneDetected 30 1 0 3, oneDetected 20 2 1 4] [] } [] =
    ResamplingVT.call { vt with
        model := eachInjection ["mass_1", "redshift", "a_1"] threeColumns
        data := injections ["mass_1", "redshift", "a_1"] [oneSample 30 1 0 3, oneSample 20 2 1 4] [] } [] := by
  have hnames : ["mass_1", "redshift", "a_1"].map (detectorName ["mass_1"]) =
      ["mass_1_detector", "luminosity_distance", "a_1"] := by
    simp [detectorName]
  have := (C115_selection vt (fixedMixin hubbleLaw) threeColumns_reads threeNames (eachInjection_evaluates _ _)
    (eachInjection_evaluates _ _) (φ := []) (c := hubbleLaw) rfl
    (.cons (oneSample_same (m := 30) (z := 1) (a := 0) (p := 3) (by norm_num))
      (.cons (oneSample_same (m := 20) (z := 2) (a := 1) (p := 4) (by norm_num)) .nil)) [] []).2
  rw [hnames] at this
  exact this

end Frames

end GW
