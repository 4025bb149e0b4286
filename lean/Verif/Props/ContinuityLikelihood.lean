import Verif.Props.ContinuitySmoothed
import Verif.Props.Redshift
import Verif.Props.Likelihood

/-!
# C91: redshift models, selection function and likelihood
-/

noncomputable section

open Classical Set Filter Topology

namespace GW

open Fl Spec

variable {P : Type*} [TopologicalSpace P]

/-! ### Redshift -/

/-- The probability of a redshift model depends continuously on its parameters if the rate does. -/
theorem probability_continuous {s : Redshift} {kw : P → Dict Fl} {psi : P → ℝ → ℝ} {v : ℝ → ℝ} {p : P}
    (h : ∀ᶠ p' in 𝓝 p, RateAt s (kw p') (psi p') v) (hz : 1e-6 < s.zMax)
    (hc : ∀ z, 0 ≤ z → ContinuousAt (fun p' => psi p' z) p) {z : ℝ} (hz0 : 0 ≤ z) {d : Dict Fl}
    (hd : d.get? "redshift" = some (fin z)) :
    ContinuousResult (fun p' => s.probability d (kw p')) p := by
  have hm : 0 ≤ s.zMax := by linarith
  have hve : ∀ z, 0 ≤ z → ContinuousAt (fun p' => if z ≤ s.zMax then volumeElement (psi p') v z else 0) p := by
    intro z hz0
    by_cases hle : z ≤ s.zMax
    · simp only [if_pos hle, volumeElement]
      exact ((hc z hz0).div_const _).mul continuousAt_const
    · simp only [if_neg hle]
      exact continuousAt_const
  have hnode : ∀ n : ℕ, 2 ≤ n → ∀ z ∈ Arr.linspaceR 1e-6 s.zMax n, 0 < z ∧ z ≤ s.zMax := by
    intro n hn z hzm
    unfold Arr.linspaceR at hzm
    obtain ⟨i, hi, rfl⟩ := List.mem_map.1 hzm
    have hn1 : (2 : ℝ) ≤ n := by exact_mod_cast hn
    have hi' : (i : ℝ) + 1 ≤ n := by exact_mod_cast List.mem_range.1 hi
    have hd : 0 < s.zMax - 1e-6 := by linarith
    have hd' : 0 < (n : ℝ) - 1 := by linarith
    have h1 : (s.zMax - 1e-6) * (i : ℝ) / ((n : ℝ) - 1) ≤ s.zMax - 1e-6 := by
      rw [div_le_iff₀ hd']
      gcongr
      linarith
    have h2 : 0 ≤ (s.zMax - 1e-6) * (i : ℝ) / ((n : ℝ) - 1) := by positivity
    constructor <;> linarith
  obtain ⟨n, hn, hn2⟩ : ∃ n, n = 2500 ∧ 2 ≤ n := ⟨2500, rfl, by norm_num⟩
  obtain ⟨N, hN⟩ : ∃ N : P → ℝ, ∀ p', N p' = Arr.trapzR ((Arr.linspaceR 1e-6 s.zMax n).map fun z =>
      if z ≤ s.zMax then volumeElement (psi p') v z else 0) (Arr.linspaceR 1e-6 s.zMax n) :=
    ⟨_, fun _ => rfl⟩
  have cN : ContinuousAt N p := by
    rw [show N = _ from funext hN]
    exact continuousAt_trapzR _ fun z hz => hve z (hnode n hn2 z hz).1.le
  have hpos : 0 < N p := by
    rw [hN]
    refine Arr.trapzR_pos (by simp) (by rw [linspaceR_length]; exact hn2) ?_
      (linspaceR_sorted hz hn2).isChain
    intro y hy
    obtain ⟨z, hzm, rfl⟩ := List.mem_map.1 hy
    rw [if_pos (hnode n hn2 z hzm).2]
    exact volumeElement_pos h.self_of_nhds (hnode n hn2 z hzm).1
  refine ⟨fun p' => (if z ≤ s.zMax then volumeElement (psi p') v z else 0) / N p',
    (hve z hz0).div cN hpos.ne', ?_⟩
  filter_upwards [h, cN.eventually_ne hpos.ne'] with p' hp' hne
  unfold Redshift.probability
  rw [normalisation_eq hp' hm, ← hn, ← hN, ok_bind, diffVolume_eq hp' hd hz0 true, ok_bind,
    pure_eq_ok, fin_div hne]
  simp only [true_imp_iff]

/-- **C91.** The probability of the power-law redshift model depends continuously on the power, for
every cosmology, `z_max` and redshift, `z_max` itself included. -/
theorem C91_powerLawRedshift {available : Dict CosmoEntry} {zMax : ℝ} {name : String} {c : Cosmology}
    {s : Redshift} (hs : Redshift.powerLaw available zMax name = .ok s)
    (hc : available.get? name = some (.fixed c)) {v : ℝ → ℝ}
    (hv : ∀ z, 0 ≤ z → c.diffComovingVolume (fin z) = fin (v z)) (v_pos : ∀ z, 0 < z → 0 < v z)
    (v_zero : 0 ≤ v 0) (hz : 1e-6 < zMax) {z : ℝ} (hz0 : 0 ≤ z) {d : Dict Fl}
    (hd : d.get? "redshift" = some (fin z)) (θ : String → ℝ) :
    ContinuousResult (fun θ => s.probability d (namedArgs ["lamb"] θ)) θ := by
  refine probability_continuous (psi := fun θ z => (1 + z) ^ θ "lamb") (v := v)
    (.of_forall fun θ => (rateAt_powerLaw hs hc hv v_pos v_zero _).1)
    (by rw [(redshift_zs hs).2]; exact hz) (fun z hz => ?_) hz0 hd
  exact continuousAt_const.rpow (continuousAt_arg _ _) (Or.inl (by positivity))

/-- **C91.** The same for the three parameters of the Madau-Dickinson model. -/
theorem C91_madauDickinson {available : Dict CosmoEntry} {py : Bool} {zMax : ℝ} {name : String}
    {c : Cosmology} {s : Redshift} (hs : Redshift.madauDickinson available py zMax name = .ok s)
    (hc : available.get? name = some (.fixed c)) {v : ℝ → ℝ}
    (hv : ∀ z, 0 ≤ z → c.diffComovingVolume (fin z) = fin (v z)) (v_pos : ∀ z, 0 < z → 0 < v z)
    (v_zero : 0 ≤ v 0) (hz : 1e-6 < zMax) {z : ℝ} (hz0 : 0 ≤ z) {d : Dict Fl}
    (hd : d.get? "redshift" = some (fin z)) {θ : String → ℝ} (hp : -1 < θ "z_peak") :
    ContinuousResult (fun θ => s.probability d (namedArgs ["gamma", "kappa", "z_peak"] θ)) θ := by
  refine probability_continuous
    (psi := fun θ => madauDickinson (θ "gamma") (θ "kappa") (θ "z_peak")) (v := v)
    ?_ (by rw [(redshift_zs hs).2]; exact hz) (fun z hz => ?_) hz0 hd
  · filter_upwards [(continuousAt_arg "z_peak" θ).eventually (lt_mem_nhds hp)] with θ' h'
    exact (rateAt_madauDickinson hs hc hv v_pos v_zero _ _ h').1
  · have cg := continuousAt_arg "gamma" θ
    have ck := continuousAt_arg "kappa" θ
    have cz := continuousAt_arg "z_peak" θ
    have h1 : 0 < 1 + z := by positivity
    have h2 : 0 < 1 + θ "z_peak" := by linarith
    have c1 : ContinuousAt (fun θ : String → ℝ => 1 + θ "z_peak") θ := continuousAt_const.add cz
    have key : ∀ x : ℝ, 0 < x → ContinuousAt (fun θ : String → ℝ =>
        x ^ θ "gamma" / (1 + (x / (1 + θ "z_peak")) ^ θ "kappa")) θ := by
      intro x hx
      have h3 : 0 < x / (1 + θ "z_peak") := by positivity
      refine (continuousAt_const.rpow cg (Or.inl hx.ne')).div (continuousAt_const.add
        ((continuousAt_const.div c1 h2.ne').rpow ck (Or.inl h3.ne'))) ?_
      positivity
    refine (key _ h1).div (key (1 + 0) (by norm_num)) ?_
    have : 0 < (1 + 0 : ℝ) / (1 + θ "z_peak") := by positivity
    positivity

/-! ### Monte Carlo estimates -/

theorem continuousAt_list_sum {ι : Type*} {g : P → ι → ℝ} {p : P} (l : List ι)
    (h : ∀ x ∈ l, ContinuousAt (fun p' => g p' x) p) :
    ContinuousAt (fun p' => (l.map (g p')).sum) p := by
  induction l with
  | nil => simp only [List.map_nil, List.sum_nil]; exact continuousAt_const
  | cons a l ih =>
    simp only [List.map_cons, List.sum_cons]
    exact (h a (by simp)).add (ih fun x hx => h x (by simp [hx]))

/-- The detection efficiency and its variance depend continuously on the parameters whenever the
population model does at every found injection. -/
theorem C91_selection {ι : Type*} {self : ResamplingVT} {kw : P → Dict Fl} {p : P} {found : List ι}
    {q : ι → ℝ}
    (hp : ContinuousResults (fun p' => self.model.prob self.data (kw p')) found p)
    (hq : self.data.get? "prior" = some (.arr (found.map fun x => fin (q x))))
    (hq0 : ∀ x ∈ found, q x ≠ 0) {N : ℝ} (hN : self.totalInjections.2 = fin N) (hN0 : N ≠ 0) :
    ∃ mu var : P → ℝ, ContinuousAt mu p ∧ ContinuousAt var p ∧
      ∀ᶠ p' in 𝓝 p, self.detectionEfficiency (kw p') = .ok (fin (mu p'), fin (var p')) := by
  obtain ⟨g, cg, hg⟩ := hp
  have hw : ∀ p', weights (found.map (g p')) (found.map q) = found.map fun x => g p' x / q x := by
    intro p'
    unfold weights
    rw [List.zipWith_map, List.zipWith_self]
  have c1 : ContinuousAt (fun p' => (found.map fun x => g p' x / q x).sum) p :=
    continuousAt_list_sum found fun x hx => (cg x hx).div_const _
  have c2 : ContinuousAt (fun p' => (found.map fun x => (g p' x / q x) ^ 2).sum) p :=
    continuousAt_list_sum found fun x hx => ((cg x hx).div_const _).pow 2
  refine ⟨_, _, c1.div_const N, (c2.div_const (N ^ 2)).sub (((c1.div_const N).pow 2).div_const N), ?_⟩
  filter_upwards [hg] with p' hp'
  have := C40_value (self := self) (parameters := kw p') (p := found.map (g p'))
    (q := found.map q) (by rw [hp', List.map_map]; rfl) (by rw [hq, List.map_map]; rfl) (by simp)
    (by
      intro x hx
      obtain ⟨i, hi, rfl⟩ := List.mem_map.1 hx
      exact hq0 i hi) hN hN0
  rw [this, hw, List.map_map]
  rfl

/-- The estimated log-likelihood and its variance depend continuously on the parameters whenever the
population model does at every posterior sample and the selection function does, if no event has mean
weight zero and the detection probability is positive. `q` is the sampling prior, 1 if
there is none. -/
theorem C91_likelihood {ι : Type*} {self : Likelihood} (hcls : self.cls = .hyper) {kw φ : P → Dict Fl}
    {p : P} (hconv : ∀ᶠ p' in 𝓝 p, self.conversion (kw p') = .ok (φ p')) {events : List (List ι)}
    {g : P → ι → ℝ} (cg : ∀ e ∈ events, ∀ x ∈ e, ContinuousAt (fun p' => g p' x) p)
    (hp : ∀ᶠ p' in 𝓝 p, self.hyperPrior.prob self.data (φ p') =
      .ok (events.map fun e => e.map fun x => fin (g p' x)))
    (hN : events.length = self.nPosteriors) (hK : ∀ e ∈ events, e.length = self.samplesPerPosterior)
    {q : ι → ℝ}
    (hprior : self.samplingPrior = some (events.map fun e => e.map fun x => fin (q x)) ∨
      self.samplingPrior = none ∧ ∀ x, q x = 1)
    (hq0 : ∀ e ∈ events, ∀ x ∈ e, q x ≠ 0)
    (hpos : ∀ e ∈ events, 0 < mean (e.map fun x => g p x / q x))
    {pdet varDet : P → ℝ} (cpdet : ContinuousAt pdet p) (cvar : ContinuousAt varDet p)
    (hsel : ∀ᶠ p' in 𝓝 p, ∃ r, self.selection.call (φ p') = .ok r ∧ reports r (pdet p') (varDet p'))
    (hpdet : 0 < pdet p) :
    ∃ l v : P → ℝ, ContinuousAt l p ∧ ContinuousAt v p ∧
      ∀ᶠ p' in 𝓝 p, self.lnLikelihoodAndVariance (kw p') = .ok (fin (l p'), fin (v p')) := by
  have cm : ∀ e ∈ events, ContinuousAt (fun p' => mean (e.map fun x => g p' x / q x)) p := by
    intro e he
    unfold mean
    simp only [List.length_map]
    exact (continuousAt_list_sum e fun x hx => (cg e he x hx).div_const _).div_const _
  have cm2 : ∀ e ∈ events, ContinuousAt
      (fun p' => mean ((e.map fun x => g p' x / q x).map (· ^ 2))) p := by
    intro e he
    unfold mean
    simp only [List.length_map, List.map_map]
    exact (continuousAt_list_sum (g := fun p' x => (g p' x / q x) ^ 2) e fun x hx =>
      ((cg e he x hx).div_const _).pow 2).div_const _
  have hev : ∀ᶠ p' in 𝓝 p, ∀ e ∈ events, 0 < mean (e.map fun x => g p' x / q x) := by
    have : ∀ l : List (List ι), (∀ e ∈ l, e ∈ events) →
        ∀ᶠ p' in 𝓝 p, ∀ e ∈ l, 0 < mean (e.map fun x => g p' x / q x) := by
      intro l
      induction l with
      | nil => intro _; exact .of_forall fun p' e he => absurd he (by simp)
      | cons a l ih =>
        intro hl
        have ha := hl a (by simp)
        filter_upwards [ih fun e he => hl e (by simp [he]),
          (cm a ha).eventually (lt_mem_nhds (hpos a ha))] with p' h1 h2 e he
        rcases List.mem_cons.1 he with rfl | he
        · exact h2
        · exact h1 e he
    exact this events fun e he => he
  obtain ⟨W, hW⟩ : ∃ W : P → List (List ℝ), ∀ p', W p' =
      events.map fun e => e.map fun x => g p' x / q x := ⟨_, fun _ => rfl⟩
  obtain ⟨prior, hpr1, hpr2, hpr3⟩ : ∃ prior : Option (List (List ℝ)),
      self.samplingPrior = prior.map matFin ∧
      (∀ p', importance (events.map fun e => e.map (g p')) prior = W p') ∧
      ∀ Q ∈ prior, Q = events.map fun e => e.map q := by
    rcases hprior with h | ⟨h, h1⟩
    · refine ⟨some (events.map fun e => e.map q), ?_, ?_, ?_⟩
      · rw [h]
        simp [matFin, Function.comp_def]
      · intro p'
        simp only [importance, hW, List.zipWith_map, List.zipWith_self]
      · intro Q hQ
        exact (Option.mem_some_iff.1 hQ).symm
    · refine ⟨none, by rw [h]; rfl, ?_, by simp⟩
      intro p'
      simp only [importance, hW, h1, div_one]
  refine ⟨fun p' => lnLikelihood (W p') (pdet p'),
    fun p' => lnLikelihoodVariance (W p') (pdet p') (varDet p'), ?_, ?_, ?_⟩
  · unfold lnLikelihood
    simp only [hW, List.map_map, List.length_map]
    refine ContinuousAt.sub ?_ (continuousAt_const.mul (cpdet.log hpdet.ne'))
    exact continuousAt_list_sum (g := fun p' e => lnBayesFactor (e.map fun x => g p' x / q x)) events
      fun e he => (cm e he).log (hpos e he).ne'
  · unfold lnLikelihoodVariance
    simp only [hW, List.map_map, List.length_map, Function.comp_def]
    refine ContinuousAt.add ?_ (continuousAt_const.mul (cvar.div (cpdet.pow 2)
      (pow_ne_zero 2 hpdet.ne')))
    refine continuousAt_list_sum (g := fun p' (e : List ι) => relativeVariance (e.map fun x => g p' x / q x))
      events fun e he => ?_
    have e1 : ∀ p', relativeVariance (e.map fun x => g p' x / q x) =
        (mean ((e.map fun x => g p' x / q x).map (· ^ 2)) - mean (e.map fun x => g p' x / q x) ^ 2) /
          (e.length * mean (e.map fun x => g p' x / q x) ^ 2) := by
      intro p'
      unfold relativeVariance
      rw [List.length_map]
    simp only [e1]
    refine ((cm2 e he).sub ((cm e he).pow 2)).div (continuousAt_const.mul ((cm e he).pow 2)) ?_
    have hl : (e.length : ℝ) ≠ 0 := by
      have := ne_nil_of_mean_pos (hpos e he)
      intro h0
      rw [Nat.cast_eq_zero, List.length_eq_zero_iff] at h0
      exact this (by rw [h0]; rfl)
    exact mul_ne_zero hl (pow_ne_zero 2 (hpos e he).ne')
  · filter_upwards [hconv, hp, hev, hsel, cpdet.eventually (lt_mem_nhds hpdet)] with p' h1 h2 h3 h4 h5
    obtain ⟨r, hr1, hr2⟩ := h4
    have := C44_estimator (self := self) hcls (θ := kw p') h1
      (P := events.map fun e => e.map (g p')) (prior := prior) (by rw [List.length_map, hN])
      (by rw [h2]; simp [matFin, Function.comp_def]) hpr1
      (by
        intro Q hQ
        rw [hpr3 Q hQ]
        refine ⟨by simp, ?_⟩
        intro r hr x hx
        obtain ⟨e, he, rfl⟩ := List.mem_map.1 hr
        obtain ⟨i, hi, rfl⟩ := List.mem_map.1 hx
        exact hq0 e he i hi)
      (by
        rw [hpr2, hW]
        intro w hw
        obtain ⟨e, he, rfl⟩ := List.mem_map.1 hw
        exact ⟨by rw [List.length_map, hK e he], h3 e he⟩) hr1 hr2 h5
    rw [hpr2] at this
    exact this

/-! ### Examples -/

/-- Non-vacuity of `C91_powerLawRedshift` and `C91_madauDickinson`. -/
example : ∃ s s', Redshift.powerLaw [("Planck15", .fixed toyCosmology)] 2.3 "Planck15" = .ok s ∧
    Redshift.madauDickinson [("Planck15", .fixed toyCosmology)] true 2.3 "Planck15" = .ok s' ∧
    ContinuousResult (fun θ => s.probability [("redshift", fin 1)] (namedArgs ["lamb"] θ))
      (fun _ => 2.7) ∧
    ContinuousResult (fun θ => s'.probability [("redshift", fin 2.3)]
      (namedArgs ["gamma", "kappa", "z_peak"] θ)) (fun _ => 1.9) := by
  have hs : ∃ s, Redshift.powerLaw [("Planck15", .fixed toyCosmology)] 2.3 "Planck15" = .ok s := by
    unfold Redshift.powerLaw Redshift.init CosmoMixin.init
    simp only [Dict.get, Dict.get?_cons, if_pos, ok_bind, pure_eq_ok]
    exact ⟨_, rfl⟩
  have hs' : ∃ s, Redshift.madauDickinson [("Planck15", .fixed toyCosmology)] true 2.3 "Planck15" =
      .ok s := by
    unfold Redshift.madauDickinson Redshift.init CosmoMixin.init
    simp only [Dict.get, Dict.get?_cons, if_pos, ok_bind, pure_eq_ok]
    exact ⟨_, rfl⟩
  obtain ⟨s, hs⟩ := hs
  obtain ⟨s', hs'⟩ := hs'
  refine ⟨s, s', hs, hs', ?_, ?_⟩
  · exact C91_powerLawRedshift hs (c := toyCosmology) (by simp [Dict.get?_cons]) (v := fun z => z * z)
      (by intro z _; simp [toyCosmology]) (fun z hz => by positivity) (by simp) (by norm_num) (z := 1)
      (by norm_num) (by simp [Dict.get?_cons]) _
  · exact C91_madauDickinson hs' (c := toyCosmology) (by simp [Dict.get?_cons]) (v := fun z => z * z)
      (by intro z _; simp [toyCosmology]) (fun z hz => by positivity) (by simp) (by norm_num)
      (z := 2.3) (by norm_num) (by simp [Dict.get?_cons]) (by norm_num)

/-- A population model with one hyper-parameter `t` and density `t^i` at sample `i`. -/
def powerModel (samples : List (List ℕ)) (_ : Dict Mat) (d : Dict Fl) : Except PyErr Mat := do
  let t ← d.get "t"
  return samples.map fun e => e.map fun i => t ^ i

/-- Non-vacuity of `C91_likelihood`: two events with two samples each, densities that vary with the
hyper-parameter, and a selection function that does too. -/
example : ∃ l v : (String → ℝ) → ℝ, ContinuousAt l (fun _ => 2) ∧ ContinuousAt v (fun _ => 2) ∧
    ∀ᶠ θ in 𝓝 (fun _ => (2 : ℝ)), Likelihood.lnLikelihoodAndVariance
      { toyLikelihood .hyper (.bare true 0) pinf with
        hyperPrior := ⟨[.other], powerModel [[0, 1], [2, 3]]⟩
        samplingPrior := none
        selection := ⟨fun d => do
          let t ← d.get "t"
          return .bare true t, none⟩ } (namedArgs ["t"] θ) = .ok (fin (l θ), fin (v θ)) := by
  have hget : ∀ θ, (namedArgs ["t"] θ).get? "t" = some (fin (θ "t")) := by
    intro θ; simp [namedArgs, Dict.get?_cons]
  refine C91_likelihood (ι := ℕ) (φ := namedArgs ["t"]) rfl (.of_forall fun θ => rfl)
    (events := [[0, 1], [2, 3]]) (g := fun θ i => θ "t" ^ i)
    (fun e _ x _ => (continuousAt_arg "t" _).pow x) (.of_forall fun θ => ?_) rfl ?_ (q := fun _ => 1)
    (Or.inr ⟨rfl, fun _ => rfl⟩) (fun _ _ _ _ => one_ne_zero) ?_ (pdet := fun θ => θ "t")
    (varDet := fun _ => 0) (continuousAt_arg "t" _) continuousAt_const (.of_forall fun θ => ?_)
    (by norm_num)
  · simp only [powerModel, Dict.get, hget, ok_bind, pure_eq_ok, fin_npow]
  · intro e he
    simp only [List.mem_cons, List.not_mem_nil, or_false] at he
    rcases he with rfl | rfl <;> rfl
  · intro e he
    simp only [List.mem_cons, List.not_mem_nil, or_false] at he
    rcases he with rfl | rfl <;> norm_num [mean]
  · refine ⟨_, ?_, Or.inr ⟨⟨true, rfl⟩, rfl⟩⟩
    simp only [Dict.get, hget, ok_bind, pure_eq_ok]

end GW
