import Verif.Props.CosmoArrays

/-!
# C108: one `CosmoModel` called again and again, as when the cosmology is fitted
-/

noncomputable section

open Classical

namespace GW

open Fl Spec

/-! ## Specification -/

/-- `l` are the primary masses in the source frame of `data` with these parameters, if there are any. -/
def Spec.SourceMasses (b : Backend) (self : CosmoObject) (data : Columns) (kwargs : Dict Fl) (l : Shaped Fl) : Prop :=
  ∀ samples jacobian d, self.mixin.convertColumns b data kwargs = .ok (samples, jacobian) →
    Columns.masses samples = .ok d → d.map Prod.fst = l

/-- The instances are new ones of the class `SinglePeakSmoothedMassDistribution`. -/
def Spec.NewInstances (start : Instances) : Prop :=
  ∀ r, ∃ py selfMin selfMax nM nQ cache s, singlePeak py selfMin selfMax nM nQ cache = .ok s ∧
    start r = SharedSmoothed.new s

/-- **C108** (false, see `C108_fails`): a `CosmoModel` returns the same value after every history of calls, with the
instances of smoothed mass distributions it is made of. -/
def C108_statement : Prop :=
  ∀ (b : Backend) (same : Dict Fl → Dict Fl → Prop), (∀ θ θ', same θ θ' → θ = θ') →
  ∀ (available : Dict CosmoEntry) (models : List PopFn) (name : String) (self : CosmoObject),
    CosmoObject.init available models name = .ok self → ∀ start, NewInstances start →
    ∀ (hist : List (Columns × Dict Fl)) (data : Columns) (kwargs : Dict Fl),
      ((self.run b same start hist).1.prob b same (self.run b same start hist).2 data kwargs).1 =
        (self.prob b same start data kwargs).1

namespace CosmoArrays

/-! ## A model that remembers no values -/

theorem loop_forgets (b : Backend) (same same' : Dict Fl → Dict Fl → Prop) (data : Columns) (kwargs : Dict Fl)
    (l : List PopFn) : ∀ (k : ℕ) (p : Shaped Fl) (entries : Entries (Shaped Fl)) (mem : Instances),
    PopObject.loop b same false data kwargs k l p entries mem =
      PopObject.loop b same' false data kwargs k l p entries mem ∧
    (PopObject.loop b same false data kwargs k l p entries mem).2.1 = entries := by
  induction l with
  | nil => exact fun _ _ _ _ => ⟨rfl, rfl⟩
  | cons f l ih =>
    intro k p entries mem
    unfold PopObject.loop
    cases f.select kwargs with
    | error e => exact ⟨rfl, rfl⟩
    | ok θ =>
      simp only [lookupEntry, Bool.false_eq_true, if_false]
      cases (f.call b mem data θ).1 with
      | error e => exact ⟨rfl, rfl⟩
      | ok q =>
        simp only
        cases Shaped.timesEq b p q with
        | error e => exact ⟨rfl, rfl⟩
        | ok p' => exact ih (k + 1) p' entries _

/-- The outcome of `CosmoModel.prob` if nothing is remembered. -/
def freshCosmo (b : Backend) (self : CosmoObject) (start : Instances) (data : Columns) (kwargs : Dict Fl) :
    Except PyErr (Shaped Fl) :=
  match self.mixin.convertColumns b data kwargs with
  | .error e => .error e
  | .ok (samples, jacobian) =>
    (Analysis.freshProb b start self.model.models samples kwargs).bind fun p => Shaped.overEq b p jacobian

/-- Two objects with the same attributes that remember no values. -/
structure Alike (a c : CosmoObject) : Prop where
  mixin : c.mixin = a.mixin
  models : c.model.models = a.model.models
  cache : c.model.cache = false
  entries : ∀ k, c.model.entries k = none

theorem prob_fresh (b : Backend) (same : Dict Fl → Dict Fl → Prop) {self c : CosmoObject} (hc : Alike self c)
    {start mem : Instances} {S : ℕ → Shaped Fl → Prop} (h0 : ∀ r, (start r).masses = none)
    (hm : Analysis.MemOk start S mem) (data : Columns) (kwargs : Dict Fl)
    (hS : ∀ samples jacobian, self.mixin.convertColumns b data kwargs = .ok (samples, jacobian) →
      Analysis.Harmless b start S samples self.model.models) :
    (c.prob b same mem data kwargs).1 = freshCosmo b self start data kwargs ∧
    Alike self (c.prob b same mem data kwargs).2.1 ∧ Analysis.MemOk start S (c.prob b same mem data kwargs).2.2 := by
  unfold CosmoObject.prob freshCosmo
  rw [hc.mixin]
  cases hcv : self.mixin.convertColumns b data kwargs with
  | error e => exact ⟨rfl, hc, hm⟩
  | ok r =>
    obtain ⟨samples, jacobian⟩ := r
    simp only
    have hS' : Analysis.Harmless b start S samples c.model.models := by
      rw [hc.models]; exact hS samples jacobian hcv
    obtain ⟨p1, p2, p3, -, p5⟩ := Analysis.prob_spec b (same := fun θ θ' => θ = θ') (fun _ _ h => h) h0 hS' kwargs
      (fun k θ q hk => by rw [hc.entries] at hk; cases hk) hm
    obtain ⟨q1, q2⟩ := loop_forgets b same (fun θ θ' => θ = θ') samples kwargs c.model.models 0 ⟨[], fun _ => 1⟩
      c.model.entries mem
    have hprob : c.model.prob b same mem samples kwargs = c.model.prob b (fun θ θ' => θ = θ') mem samples kwargs := by
      unfold PopObject.prob
      rw [hc.cache, q1]
    have hent : (c.model.prob b same mem samples kwargs).2.1.entries = c.model.entries := by
      show (PopObject.loop b same c.model.cache samples kwargs 0 c.model.models _ _ mem).2.1 = _
      rw [hc.cache]
      exact q2
    refine ⟨?_, ⟨rfl, ?_, ?_, ?_⟩, ?_⟩
    · rw [hprob, p1, hc.models]
    · rw [hprob]; exact p2.trans hc.models
    · rw [hprob]; exact p3.trans hc.cache
    · show ∀ k, (c.model.prob b same mem samples kwargs).2.1.entries k = none
      rw [hent]; exact hc.entries
    · rw [hprob]; exact p5

theorem run_fresh (b : Backend) (same : Dict Fl → Dict Fl → Prop) {self : CosmoObject} {start : Instances}
    {S : ℕ → Shaped Fl → Prop} (h0 : ∀ r, (start r).masses = none) (hist : List (Columns × Dict Fl))
    (hS : ∀ call ∈ hist, ∀ samples jacobian, self.mixin.convertColumns b call.1 call.2 = .ok (samples, jacobian) →
      Analysis.Harmless b start S samples self.model.models) :
    ∀ c mem, Alike self c → Analysis.MemOk start S mem →
      Alike self (c.run b same mem hist).1 ∧ Analysis.MemOk start S (c.run b same mem hist).2 := by
  induction hist with
  | nil => exact fun c mem hc hm => ⟨hc, hm⟩
  | cons call hist ih =>
    obtain ⟨data, kwargs⟩ := call
    intro c mem hc hm
    obtain ⟨-, h2, h3⟩ := prob_fresh b same hc h0 hm data kwargs (hS (data, kwargs) (by simp))
    exact ih (fun call hcall => hS call (by simp [hcall])) _ _ h2 h3

theorem init_alike {available : Dict CosmoEntry} {models : List PopFn} {name : String} {self : CosmoObject}
    (h : CosmoObject.init available models name = .ok self) : Alike self self ∧ self.model.models = models := by
  unfold CosmoObject.init at h
  obtain ⟨m, hm, h⟩ := bind_eq_ok.1 h
  cases h
  exact ⟨⟨rfl, rfl, rfl, fun _ => rfl⟩, rfl⟩

theorem history (b : Backend) (same : Dict Fl → Dict Fl → Prop) {self : CosmoObject} (hc : Alike self self)
    {start : Instances} (h0 : ∀ r, (start r).masses = none) {S : ℕ → Shaped Fl → Prop}
    (hist : List (Columns × Dict Fl)) (data : Columns) (kwargs : Dict Fl)
    (hS : ∀ call ∈ (data, kwargs) :: hist, ∀ samples jacobian,
      self.mixin.convertColumns b call.1 call.2 = .ok (samples, jacobian) →
      Analysis.Harmless b start S samples self.model.models) :
    ((self.run b same start hist).1.prob b same (self.run b same start hist).2 data kwargs).1 =
      (self.prob b same start data kwargs).1 := by
  have hm : Analysis.MemOk start S start := fun r => ⟨rfl, fun l hl => by rw [h0] at hl; cases hl⟩
  obtain ⟨r1, r2⟩ := run_fresh b same h0 hist (fun call hcall => hS call (by simp [hcall])) self start hc hm
  have hS0 := hS (data, kwargs) (by simp)
  rw [(prob_fresh b same r1 h0 r2 data kwargs hS0).1, (prob_fresh b same hc h0 hm data kwargs hS0).1]

/-- **C108, proved part.** If the instances of smoothed mass distributions in a `CosmoModel` were made with
`cache=False`, the outcome of a call, value or exception, is the same after every history of calls with other data,
other population parameters and other cosmologies. Missing: instances that cache, where it is false, see
`C108_stale_partial` and `C108_fails`. -/
theorem C108_history_partial (b : Backend) (same : Dict Fl → Dict Fl → Prop) {available : Dict CosmoEntry}
    {models : List PopFn} {name : String} {self : CosmoObject} (h : CosmoObject.init available models name = .ok self)
    {start : Instances} (h0 : ∀ r, (start r).masses = none)
    (hcache : ∀ r, (∃ f ∈ models, f.IsInstance r) → (start r).inst.cache = false)
    (hist : List (Columns × Dict Fl)) (data : Columns) (kwargs : Dict Fl) :
    ((self.run b same start hist).1.prob b same (self.run b same start hist).2 data kwargs).1 =
      (self.prob b same start data kwargs).1 := by
  obtain ⟨hc, hm⟩ := init_alike h
  refine history b same hc h0 (S := fun _ _ => True) hist data kwargs ?_
  intro call _ samples jacobian _ r hr d _
  rw [hm] at hr
  exact ⟨trivial, fun l _ => Or.inl (hcache r hr)⟩

/-- **C108, proved part for instances that cache.** The outcome is also the same after every history in which the
source-frame masses never changed. -/
theorem C108_same_masses_partial (b : Backend) (same : Dict Fl → Dict Fl → Prop) {available : Dict CosmoEntry}
    {models : List PopFn} {name : String} {self : CosmoObject} (h : CosmoObject.init available models name = .ok self)
    {start : Instances} (h0 : ∀ r, (start r).masses = none) (hist : List (Columns × Dict Fl)) (data : Columns)
    (kwargs : Dict Fl) {l : Shaped Fl}
    (hl : ∀ call ∈ (data, kwargs) :: hist, SourceMasses b self call.1 call.2 l) :
    ((self.run b same start hist).1.prob b same (self.run b same start hist).2 data kwargs).1 =
      (self.prob b same start data kwargs).1 := by
  obtain ⟨hc, hm⟩ := init_alike h
  refine history b same hc h0 (S := fun _ l' => l' = l) hist data kwargs ?_
  intro call hcall samples jacobian hcv r hr d hd
  have := hl call hcall samples jacobian d hcv hd
  exact ⟨this, fun l' hl' => Or.inr (Or.inl (hl'.trans this.symm))⟩

/-- **C108, proved part for a fixed cosmology**: one dataset, evaluated with any histories of population
parameters. -/
theorem C108_fixed_partial (b : Backend) (same : Dict Fl → Dict Fl → Prop) {available : Dict CosmoEntry}
    {models : List PopFn} {name : String} {self : CosmoObject} (h : CosmoObject.init available models name = .ok self)
    {c : Cosmology} (hfix : available.get name = .ok (.fixed c))
    {start : Instances} (h0 : ∀ r, (start r).masses = none) (hist : List (Dict Fl)) (data : Columns)
    (kwargs : Dict Fl) :
    ((self.run b same start (hist.map fun θ => (data, θ))).1.prob b same
      (self.run b same start (hist.map fun θ => (data, θ))).2 data kwargs).1 =
      (self.prob b same start data kwargs).1 := by
  have hcos : self.mixin.cosmo = .fixed c := by
    unfold CosmoObject.init CosmoMixin.init at h
    rw [hfix] at h
    cases h
    rfl
  have hconv : ∀ θ, self.mixin.convertColumns b data θ = self.mixin.convertColumns b data kwargs := by
    intro θ
    unfold CosmoMixin.convertColumns CosmoMixin.cosmology
    rw [hcos]
  cases hd : (self.mixin.convertColumns b data kwargs).bind fun r => Columns.masses r.1 with
  | error e =>
    refine C108_same_masses_partial b same h h0 _ data kwargs (l := ⟨[], fun _ => 0⟩) ?_
    intro call hcall samples jacobian d hcv hm
    have hcv' : self.mixin.convertColumns b data kwargs = .ok (samples, jacobian) := by
      rcases List.mem_cons.1 hcall with rfl | hcall
      · exact hcv
      · obtain ⟨θ, -, rfl⟩ := List.mem_map.1 hcall
        rw [← hconv θ]; exact hcv
    rw [hcv'] at hd
    rw [show Except.bind (Except.ok (samples, jacobian)) (fun r : Columns × Shaped Fl => Columns.masses r.1) =
      Columns.masses samples from rfl, hm] at hd
    cases hd
  | ok d0 =>
    refine C108_same_masses_partial b same h h0 _ data kwargs (l := d0.map Prod.fst) ?_
    intro call hcall samples jacobian d hcv hm
    have hcv' : self.mixin.convertColumns b data kwargs = .ok (samples, jacobian) := by
      rcases List.mem_cons.1 hcall with rfl | hcall
      · exact hcv
      · obtain ⟨θ, -, rfl⟩ := List.mem_map.1 hcall
        rw [← hconv θ]; exact hcv
    rw [hcv'] at hd
    rw [show Except.bind (Except.ok (samples, jacobian)) (fun r : Columns × Shaped Fl => Columns.masses r.1) =
      Columns.masses samples from rfl, hm] at hd
    cases hd
    rfl

/-! ## Instances that cache -/

/-- **C108, what is computed by an instance that caches** (the default): after a first successful call at the
source-frame masses for one cosmology, the mass-ratio density at the masses for another one is divided by the norms at
the first masses. -/
theorem C108_stale_partial (b : Backend) {primary : Primary} {fixed : Dict Fl} {selfMin selfMax : ℝ} {nM nQ : ℕ}
    {s : Smoothed} (hs : Smoothed.init primary fixed selfMin selfMax nM nQ true = .ok s) {shape : List ℕ}
    {first second : Shaped (Fl × Fl)} (h1 : first.shape = shape) (h2 : second.shape = shape) (kwargs : Dict Fl)
    {out : Shaped Fl} (hok : (SharedSmoothed.call b (SharedSmoothed.new s) first kwargs).1 = .ok out)
    (beta lo deltaM : Fl) : ∃ r,
    (SharedSmoothed.pQ b (SharedSmoothed.call b (SharedSmoothed.new s) first kwargs).2 second beta lo deltaM).1 =
      .ok r ∧ r.shape = shape ∧
    ∀ i ∈ NArr.indices shape, r.elem i = nanToNum (pQVal b beta lo deltaM (second.elem i).1 (second.elem i).2 /
      interpLinear s.m1s (s.m1s.map (qNormAt b s beta lo deltaM)) (first.elem i).1) := by
  obtain ⟨-, -, hs⟩ := init_inv hs
  have hcache : s.cache = true := by rw [hs]
  have hst := SharedSmoothed.call_leaves b (SharedSmoothed.new s) first kwargs
    (fun l hl => absurd hl.2.1 (by simp [SharedSmoothed.new])) hok
  rw [hst]
  obtain ⟨r, hr, -, hq⟩ := SharedSmoothed.pQ_mistaken b
    (SharedSmoothed.cacheQNorms (SharedSmoothed.new s) (first.map Prod.fst)) second beta lo deltaM
    (first.map Prod.fst) ⟨hcache, by
      unfold SharedSmoothed.cacheQNorms
      rfl, shape, by
      rw [h2, show (first.map Prod.fst).shape = shape from h1, SharedSmoothed.bshape_self], fun _ => h2.symm⟩
  rw [h2, show (first.map Prod.fst).shape = shape from h1, SharedSmoothed.bshape_self] at hr
  cases hr
  refine ⟨_, by rw [hq], rfl, fun i hi => ?_⟩
  simp only [SharedSmoothed.quotient, SharedSmoothed.normAt, h2,
    show (first.map Prod.fst).shape = shape from h1, SharedSmoothed.proj_indices hi]
  rfl

/-! ## The failure -/

/-- A class of cosmologies with the Hubble law `D(z) = z / H0`. -/
def hubbleLaw : CosmoEntry :=
  .free fun p => do
    let h ← p.get "H0"
    return { diffComovingVolume := fun _ => 1
             luminosityDistance := fun z => z / h
             dDLdz := fun _ => 1 / h
             zAtDistance := fun d => d * h }

/-- Samples at distance 1 with detector-frame mass 5 and equal masses. -/
def distantSamples (N : ℕ) : Columns :=
  [("luminosity_distance", ⟨[N], fun _ => fin 1⟩), ("mass_1_detector", ⟨[N], fun _ => fin 5⟩),
   ("mass_ratio", ⟨[N], fun _ => fin 1⟩)]

/-- The hyper-parameters: those of the population and those of the cosmology. -/
def hubbleKw (h : ℝ) : Dict Fl := staleKw ++ [("H0", fin h), ("Om0", fin 0.3)]

/-- The object. -/
def hubbleObject : CosmoObject :=
  ⟨⟨"FlatLambdaCDM", ["H0", "Om0"], hubbleLaw⟩, PopObject.new [.smoothed 0 staleKw.keys] false⟩

theorem hubble_init : CosmoObject.init [("FlatLambdaCDM", hubbleLaw)] [.smoothed 0 staleKw.keys]
    "FlatLambdaCDM" = .ok hubbleObject := by
  simp [CosmoObject.init, CosmoMixin.init, Dict.get, Dict.get?_cons, ok_bind, pure_eq_ok, hubbleObject]

theorem zip_const (b : Backend) (op : Fl → Fl → Fl) (s : List ℕ) (x y : Fl) :
    Shaped.zip b op ⟨s, fun _ => x⟩ ⟨s, fun _ => y⟩ = .ok ⟨s, fun _ => op x y⟩ := by
  unfold Shaped.zip
  simp only
  rw [SharedSmoothed.bshape_self]

theorem inplaceMul_const (b : Backend) (s : List ℕ) (x y : Fl) :
    Shaped.inplaceMul b ⟨s, fun _ => x⟩ ⟨s, fun _ => y⟩ = .ok ⟨s, fun _ => x * y⟩ := by
  unfold Shaped.inplaceMul
  rw [zip_const, ok_bind, if_neg (fun h => h.2 rfl)]

theorem hubble_convert (b : Backend) (N : ℕ) {h : ℝ} (h0 : 0 < h) :
    hubbleObject.mixin.convertColumns b (distantSamples N) (hubbleKw h) =
      .ok ([("redshift", ⟨[N], fun _ => fin h⟩), ("mass_1", ⟨[N], fun _ => fin (5 / (1 + h))⟩),
        ("mass_ratio", ⟨[N], fun _ => fin 1⟩)], ⟨[N], fun _ => fin (1 / h * (1 + h))⟩) := by
  have hc : hubbleObject.mixin.cosmology (hubbleKw h) = .ok
      { diffComovingVolume := fun _ => 1
        luminosityDistance := fun z => z / fin h
        dDLdz := fun _ => 1 / fin h
        zAtDistance := fun d => d * fin h } := by
    simp [hubbleObject, CosmoMixin.cosmology, hubbleLaw, CosmoMixin.cosmologyVariables, hubbleKw, staleKw, Dict.get,
      Dict.get?_cons, ok_bind, pure_eq_ok]
  have d1 : CosmoMixin.isDetector "mass_1_detector" := isDetector_append "mass_1"
  have d2 : ¬ CosmoMixin.isDetector "mass_ratio" := by unfold CosmoMixin.isDetector; decide
  have d3 : CosmoMixin.sourceName "mass_1_detector" = "mass_1" := by decide
  have k1 : (distantSamples N).contains "luminosity_distance" := by
    simp [distantSamples, Dict.contains, Dict.keys]
  unfold CosmoMixin.convertColumns
  rw [if_pos k1, hc]
  simp [distantSamples, Dict.get, Dict.get?_cons, Dict.keys, ok_bind, pure_eq_ok, CosmoMixin.convertColumn, d1, d2, d3,
    not_isDetector_distance, Shaped.map, zip_const, Dict.set, inplaceMul_const]
  have e1 : (1 + h) ≠ 0 := by positivity
  rw [fin_div e1, fin_div h0.ne', fin_mul, one_div]
  exact ⟨rfl, rfl⟩

theorem hubble_prob (b : Backend) (same : Dict Fl → Dict Fl → Prop) (N : ℕ) {h μ : ℝ} (h0 : 0 < h)
    (hμ : 5 / (1 + h) = μ) (mem : Instances) {v : List ℕ → Fl} {m' : SharedSmoothed}
    (hcall : SharedSmoothed.call b (mem 0) (SharedSmoothed.constant [N] μ) staleKw = (.ok ⟨[N], v⟩, m')) :
    ∃ r, hubbleObject.prob b same mem (distantSamples N) (hubbleKw h) =
      (.ok r, hubbleObject, fun k => if k = 0 then m' else mem k) ∧ r.shape = [N] ∧
      ∀ i ∈ NArr.indices [N], r.elem i = v i / fin (1 / h * (1 + h)) := by
  have hsel : bySignature staleKw.keys (hubbleKw h) = .ok staleKw := by
    simp [bySignature, hubbleKw, staleKw, Dict.keys, Dict.get, Dict.get?_cons, ok_bind, pure_eq_ok]
  have hmass : Columns.masses [("redshift", ⟨[N], fun _ => fin h⟩), ("mass_1", ⟨[N], fun _ => fin (5 / (1 + h))⟩),
      ("mass_ratio", ⟨[N], fun _ => fin 1⟩)] = .ok (SharedSmoothed.constant [N] μ) := by
    rw [hμ]
    simp [Columns.masses, Dict.get, Dict.get?_cons, ok_bind, pure_eq_ok, SharedSmoothed.constant]
  obtain ⟨p, hp, hps, hpe⟩ := Analysis.timesEq_first b ⟨[N], v⟩
  obtain ⟨r, hr, hrs, hre⟩ := overEq_same b (x := p) (y := ⟨[N], fun _ => fin (1 / h * (1 + h))⟩) (s := [N]) hps rfl
  refine ⟨r, ?_, hrs, fun i hi => ?_⟩
  · unfold CosmoObject.prob
    rw [hubble_convert b N h0]
    simp only
    unfold PopObject.prob
    rw [show hubbleObject.model.models = [.smoothed 0 staleKw.keys] from rfl,
      show hubbleObject.model.cache = false from rfl]
    unfold PopObject.loop PopFn.select
    simp only [hsel, lookupEntry, Bool.false_eq_true, if_false]
    unfold PopFn.call
    simp only [hmass, hcall, hp]
    unfold PopObject.loop
    simp only [Except.bind, hr]
    rfl
  · rw [hre i hi, hpe i hi]

/-- **C108 fails for every backend and number of samples**: with the default cache of the mass model and a Hubble
constant among the hyper-parameters, an evaluation at one Hubble constant changes what the next evaluation, at another
one, returns. -/
theorem C108_wrong (b : Backend) (same : Dict Fl → Dict Fl → Prop) {N : ℕ} (hN : 0 < N) :
    ∃ (start : Instances) (r r' : Shaped Fl), NewInstances start ∧
    (hubbleObject.prob b same start (distantSamples N) (hubbleKw 1)).1 = .ok r ∧
    ((hubbleObject.run b same start [(distantSamples N, hubbleKw (2 / 3))]).1.prob b same
      (hubbleObject.run b same start [(distantSamples N, hubbleKw (2 / 3))]).2 (distantSamples N) (hubbleKw 1)).1 =
      .ok r' ∧ r.shape = r'.shape ∧ [0] ∈ NArr.indices r.shape ∧ r.elem [0] ≠ r'.elem [0] := by
  obtain ⟨a, ha, hpm⟩ := stale_pM1 b (μ := 2.5) (by norm_num) (by norm_num)
  obtain ⟨a', -, hpm'⟩ := stale_pM1 b (μ := 3) (by norm_num) (by norm_num)
  obtain ⟨c, hc, hN'⟩ := stale_norm b
  obtain ⟨A, hA, hv⟩ := stale_pQVal b
  have hs : singlePeak false 1 3 2 2 true = .ok staleInst := init_ok _ _ _ _ _ le_rfl le_rfl
  have none_mistaken : ∀ d l, SharedSmoothed.Mistaken b (SharedSmoothed.new staleInst) d l → l = d.map Prod.fst :=
    fun d l hl => absurd hl.2.1 (by simp [SharedSmoothed.new])
  have hzip : ∀ (x : ℝ) (f : List ℕ → Fl), Shaped.zip b (· * ·) ⟨[N], fun _ => fin x⟩ ⟨[N], f⟩ =
      .ok ⟨[N], fun i => fin x * f (NArr.proj [N] i)⟩ := by
    intro x f
    unfold Shaped.zip
    simp only
    rw [SharedSmoothed.bshape_self]
  -- the new instance
  have q1 := SharedSmoothed.pQ_right b (SharedSmoothed.new staleInst) (SharedSmoothed.constant [N] 2.5) (fin 0) (fin 2)
    (fin 1) (none_mistaken _)
  have c1 := SharedSmoothed.stale_shaped_call b (m := SharedSmoothed.new staleInst) rfl [N] (μ := 2.5) (by norm_num)
    (by norm_num) (Prod.ext q1.1 q1.2) (hpm _ (SameConfig.refl _))
  -- the other Hubble constant
  have q2 := SharedSmoothed.pQ_right b (SharedSmoothed.new staleInst) (SharedSmoothed.constant [N] 3) (fin 0) (fin 2)
    (fin 1) (none_mistaken _)
  have c2 := SharedSmoothed.stale_shaped_call b (m := SharedSmoothed.new staleInst) rfl [N] (μ := 3) (by norm_num)
    (by norm_num) (Prod.ext q2.1 q2.2) (hpm' _ (SameConfig.refl _))
  -- afterwards
  obtain ⟨r, hr, -, q3⟩ := SharedSmoothed.pQ_mistaken b
    (SharedSmoothed.cacheQNorms (SharedSmoothed.new staleInst) ((SharedSmoothed.constant [N] 3).map Prod.fst))
    (SharedSmoothed.constant [N] 2.5) (fin 0) (fin 2) (fin 1) ((SharedSmoothed.constant [N] 3).map Prod.fst)
    ⟨rfl, rfl, [N], SharedSmoothed.bshape_self [N], fun _ => rfl⟩
  have hr' : r = [N] := (Option.some.inj ((SharedSmoothed.bshape_self [N]).symm.trans hr)).symm
  subst hr'
  have c3 := SharedSmoothed.stale_shaped_call b
    (m := SharedSmoothed.cacheQNorms (SharedSmoothed.new staleInst) ((SharedSmoothed.constant [N] 3).map Prod.fst)) rfl
    [N] (μ := 2.5) (by norm_num) (by norm_num) q3 (hpm _ (SameConfig.refl _))
  unfold SharedSmoothed.freshQ at c1 c2
  rw [show (SharedSmoothed.constant [N] 2.5).shape = [N] from rfl, hzip] at c1
  rw [show (SharedSmoothed.constant [N] 3).shape = [N] from rfl, hzip] at c2
  rw [hzip] at c3
  let start : Instances := fun _ => SharedSmoothed.new staleInst
  obtain ⟨r1, p1, s1, e1⟩ := hubble_prob b same N (h := 1) (μ := 2.5) one_pos (by norm_num) start c1
  obtain ⟨r2, p2, -, -⟩ := hubble_prob b same N (h := 2 / 3) (μ := 3) (by norm_num) (by norm_num) start c2
  obtain ⟨r3, p3, s3, e3⟩ := hubble_prob b same N (h := 1) (μ := 2.5) one_pos (by norm_num)
    (fun k => if k = 0 then SharedSmoothed.cacheQNorms (SharedSmoothed.new staleInst)
      ((SharedSmoothed.constant [N] 3).map Prod.fst) else start k) (by rw [if_pos rfl]; exact c3)
  have h0 : [0] ∈ NArr.indices [N] := Analysis.mem_indices_one hN
  refine ⟨start, r1, r3, fun _ => ⟨false, 1, 3, 2, 2, true, staleInst, hs, rfl⟩, by rw [p1], ?_, s1.trans s3.symm, by
    rw [s1]; exact h0, ?_⟩
  · show ((hubbleObject.prob b same start (distantSamples N) (hubbleKw (2 / 3))).2.1.prob b same
      (hubbleObject.prob b same start (distantSamples N) (hubbleKw (2 / 3))).2.2 (distantSamples N) (hubbleKw 1)).1 = _
    rw [p2]
    exact congrArg Prod.fst p3
  · rw [e1 _ h0, e3 _ h0]
    have v1 := hN' staleInst (SameConfig.refl _) 2.5 (by norm_num) (by norm_num)
    have v2 := hN' staleInst (SameConfig.refl _) 3 (by norm_num) le_rfl
    have hinst : (SharedSmoothed.cacheQNorms (SharedSmoothed.new staleInst)
      ((SharedSmoothed.constant [N] 3).map Prod.fst)).inst = staleInst := rfl
    rw [hinst, show (SharedSmoothed.new staleInst).inst = staleInst from rfl]
    simp only [SharedSmoothed.quotient, SharedSmoothed.normAt, SharedSmoothed.constant,
      Shaped.map, hv, v1, v2]
    rw [fin_div (by norm_num; exact hc.ne'), fin_div (by norm_num; exact hc.ne'), nanToNum_fin, nanToNum_fin,
      fin_mul, fin_mul, fin_div (by norm_num), fin_div (by norm_num)]
    intro h
    have h := fin_inj.1 h
    rw [div_left_inj' (by norm_num)] at h
    have h := mul_left_cancel₀ ha h
    have hc' := hc.ne'
    field_simp at h
    norm_num at h

/-- **C108 fails.** -/
theorem C108_fails : ¬ C108_statement := by
  intro h
  obtain ⟨start, r, r', hs, h1, h2, -, -, hne⟩ := C108_wrong .numpy (fun θ θ' => θ = θ') (N := 1) one_pos
  have h := h .numpy (fun θ θ' => θ = θ') (fun _ _ h => h) _ _ _ _ hubble_init start hs
    [(distantSamples 1, hubbleKw (2 / 3))] (distantSamples 1) (hubbleKw 1)
  rw [h1, h2] at h
  exact hne (congrArg (fun a => a.elem [0]) (Except.ok.inj h)).symm

/-! ## Non-vacuity -/

theorem distant_shape (N : ℕ) : SameShape [N] (distantSamples N) := by
  intro kv hkv
  simp only [distantSamples, List.mem_cons, List.not_mem_nil, or_false] at hkv
  rcases hkv with rfl | rfl | rfl <;> rfl

/-- `C108_arrays`: the samples at distance 1 with a Hubble constant of 1 are at redshift 1. -/
example (b : Backend) {N : ℕ} (hN : 0 < N) : hubbleObject.mixin.detectorFrameToSourceFrame
    (sampleAt (distantSamples N) [0]) (hubbleKw 1) =
    .ok ([("redshift", fin 1), ("mass_1", fin (5 / (1 + 1))), ("mass_ratio", fin 1)], fin (1 / 1 * (1 + 1))) := by
  have := C108_arrays b hubbleObject.mixin (distant_shape N) (hubbleKw 1)
  rw [hubble_convert b N one_pos] at this
  exact this.2.2 [0] (Analysis.mem_indices_one hN)

/-- `C108_history_partial`: the object of `C108_wrong`, with an instance that does not cache, in the same history. -/
example (b : Backend) (same : Dict Fl → Dict Fl → Prop) (N : ℕ) :
    let start : Instances := fun _ => SharedSmoothed.new { staleInst with cache := false }
    ((hubbleObject.run b same start [(distantSamples N, hubbleKw (2 / 3))]).1.prob b same
      (hubbleObject.run b same start [(distantSamples N, hubbleKw (2 / 3))]).2 (distantSamples N) (hubbleKw 1)).1 =
    (hubbleObject.prob b same start (distantSamples N) (hubbleKw 1)).1 :=
  C108_history_partial b same hubble_init (fun _ => rfl) (fun _ _ => rfl) _ _ _

/-- `C108_same_masses_partial`: the instance that caches, in a history with one Hubble constant and other population
parameters. -/
example (b : Backend) (same : Dict Fl → Dict Fl → Prop) (N : ℕ) :
    let start : Instances := fun _ => SharedSmoothed.new staleInst
    ((hubbleObject.run b same start [(distantSamples N, ("alpha", fin 3) :: hubbleKw 1)]).1.prob b same
      (hubbleObject.run b same start [(distantSamples N, ("alpha", fin 3) :: hubbleKw 1)]).2 (distantSamples N)
      (hubbleKw 1)).1 =
    (hubbleObject.prob b same start (distantSamples N) (hubbleKw 1)).1 := by
  refine C108_same_masses_partial b same hubble_init (fun _ => rfl) _ _ _ (l := ⟨[N], fun _ => fin (5 / (1 + 1))⟩) ?_
  have hc : hubbleObject.mixin.convertColumns b (distantSamples N) (("alpha", fin 3) :: hubbleKw 1) =
      hubbleObject.mixin.convertColumns b (distantSamples N) (hubbleKw 1) := by
    unfold CosmoMixin.convertColumns CosmoMixin.cosmology CosmoMixin.cosmologyVariables
    simp [hubbleObject, hubbleKw, Dict.get, Dict.get?_cons]
  intro call hcall samples jacobian d hcv hm
  have hcv' : hubbleObject.mixin.convertColumns b (distantSamples N) (hubbleKw 1) = .ok (samples, jacobian) := by
    simp only [List.mem_cons, List.not_mem_nil, or_false] at hcall
    rcases hcall with rfl | rfl
    · exact hcv
    · rw [← hc]; exact hcv
  rw [hubble_convert b N one_pos] at hcv'
  cases hcv'
  simp only [Columns.masses, Dict.get, Dict.get?_cons, ok_bind, pure_eq_ok] at hm
  cases hm
  rfl

/-- `C108_fixed_partial`: a fixed cosmology and the default cache, any history of population parameters. -/
example (b : Backend) (same : Dict Fl → Dict Fl → Prop) (N : ℕ) (c : Cosmology) (hist : List (Dict Fl))
    (kwargs : Dict Fl) : ∃ self, CosmoObject.init [("Planck15", .fixed c)] [.smoothed 0 staleKw.keys] "Planck15" = .ok self ∧
    let start : Instances := fun _ => SharedSmoothed.new staleInst
    ((self.run b same start (hist.map fun θ => (distantSamples N, θ))).1.prob b same
      (self.run b same start (hist.map fun θ => (distantSamples N, θ))).2 (distantSamples N) kwargs).1 =
    (self.prob b same start (distantSamples N) kwargs).1 := by
  have hinit : CosmoObject.init [("Planck15", .fixed c)] [.smoothed 0 staleKw.keys] "Planck15" =
      .ok ⟨⟨"Planck15", [], .fixed c⟩, PopObject.new [.smoothed 0 staleKw.keys] false⟩ := by
    simp [CosmoObject.init, CosmoMixin.init, Dict.get, Dict.get?_cons, ok_bind, pure_eq_ok]
  exact ⟨_, hinit, C108_fixed_partial b same hinit (c := c) (by simp [Dict.get, Dict.get?_cons]) (fun _ => rfl) hist _ kwargs⟩

/-- `C108_stale_partial`: after an evaluation at mass 3, evaluated at mass 2.5. -/
example (b : Backend) {N : ℕ} (beta lo deltaM : Fl) : ∃ out r,
    (SharedSmoothed.call b (SharedSmoothed.new staleInst) (SharedSmoothed.constant [N] 3) staleKw).1 = .ok out ∧
    (SharedSmoothed.pQ b (SharedSmoothed.call b (SharedSmoothed.new staleInst) (SharedSmoothed.constant [N] 3)
      staleKw).2 (SharedSmoothed.constant [N] 2.5) beta lo deltaM).1 = .ok r ∧ r.shape = [N] := by
  obtain ⟨a', -, hpm'⟩ := stale_pM1 b (μ := 3) (by norm_num) (by norm_num)
  have hs : singlePeak false 1 3 2 2 true = .ok staleInst := init_ok _ _ _ _ _ le_rfl le_rfl
  have q2 := SharedSmoothed.pQ_right b (SharedSmoothed.new staleInst) (SharedSmoothed.constant [N] 3) (fin 0) (fin 2)
    (fin 1) (fun l hl => absurd hl.2.1 (by simp [SharedSmoothed.new]))
  have c2 := SharedSmoothed.stale_shaped_call b (m := SharedSmoothed.new staleInst) rfl [N] (μ := 3) (by norm_num)
    (by norm_num) (Prod.ext q2.1 q2.2) (hpm' _ (SameConfig.refl _))
  obtain ⟨out, hout, -, -⟩ := zip_same b (· * ·) (x := ⟨[N], fun _ => fin a'⟩)
    (y := SharedSmoothed.freshQ b (SharedSmoothed.new staleInst).inst (fin 0) (fin 2) (fin 1)
      (SharedSmoothed.constant [N] 3)) (s := [N]) rfl rfl
  have hok : (SharedSmoothed.call b (SharedSmoothed.new staleInst) (SharedSmoothed.constant [N] 3) staleKw).1 =
      .ok out := by
    rw [c2]; exact hout
  obtain ⟨r, hr, hrs, -⟩ := C108_stale_partial b hs (first := SharedSmoothed.constant [N] 3)
    (second := SharedSmoothed.constant [N] 2.5) rfl rfl staleKw hok beta lo deltaM
  exact ⟨out, r, hok, hr, hrs⟩

end CosmoArrays

end GW
