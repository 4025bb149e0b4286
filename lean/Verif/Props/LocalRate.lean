import Verif.Props.Scaling
import Verif.Props.Redshift
import Verif.Props.Resampling
import Verif.Props.RatePosterior
import Verif.Props.SmoothedCore

/-!
# C154: the normalisation of the redshift model
-/

noncomputable section

open Classical

namespace GW

open Fl Spec

/-! ## Specification -/

/-- The population density of a sample with redshift `x.2`, where `x.1` is the product of the densities of all
other parameters (any float): the product with the density of the redshift model. -/
def Spec.redshiftProduct (s : Redshift) (φ : Dict Fl) (x : Fl × ℝ) : Except PyErr Fl := do
  let p ← s.probability [("redshift", fin x.2)] φ
  return x.1 * p

/-- An analysis, at the parameters `φ`, whose population model has the redshift model `s`: for the posterior samples
`events`, for the injections `found` and for the surveyed volume. -/
structure Spec.WithRedshift (s : Redshift) (lik : Likelihood) (vt : ResamplingVT) (φ : Dict Fl)
    (events : List (List (Fl × ℝ))) (found : List (Fl × ℝ)) : Prop where
  events_eq : lik.hyperPrior.prob lik.data φ = events.mapM fun e => e.mapM (redshiftProduct s φ)
  found_eq : vt.model.prob vt.data φ = found.mapM (redshiftProduct s φ)
  selection : lik.selection = vt.asSelection
  redshift : vt.redshiftModel = some s

/-- The two analyses have the same settings and data. -/
structure Spec.SameSettings (lik lik' : Likelihood) (vt vt' : ResamplingVT) : Prop where
  likelihood : ∃ m sel, lik' = { lik with hyperPrior := m, selection := sel }
  injections : ∃ m r, vt' = { vt with model := m, redshiftModel := r }

/-- All redshifts lie in the range of the redshift model. -/
def Spec.RedshiftsInRange (s : Redshift) (events : List (List (Fl × ℝ))) (found : List (Fl × ℝ)) : Prop :=
  (∀ e ∈ events, ∀ x ∈ e, 0 ≤ x.2 ∧ x.2 ≤ s.zMax) ∧ ∀ x ∈ found, 0 ≤ x.2 ∧ x.2 ≤ s.zMax

/-- The number of sources expected to be found per unit of the rate at redshift zero (per Gpc^3 and year), estimated
from found injections `(g, z, q)` with `g` the density of all parameters but the redshift, `z` the redshift and `q` the
density from which they were drawn; `total` is the number of injections made. Sources beyond `zMax` do not exist. -/
def Spec.foundPerRate (psi v : ℝ → ℝ) (zMax total time : ℝ) (found : List (ℝ × ℝ × ℝ)) : ℝ :=
  time / 1e9 * ((found.map fun x =>
    x.1 * (if x.2.1 ≤ zMax then volumeElement psi v x.2.1 else 0) / x.2.2).sum / total)

/-! ## Lemmas -/

namespace LocalRate

variable {s s' : Redshift} {φ : Dict Fl} {psi v : ℝ → ℝ}

/-- The norm of the redshift model: the density and the norm itself. -/
theorem norm_eq (h : RateAt s φ psi v) (hz : 1e-6 < s.zMax) : ∃ N : ℝ, 0 < N ∧ s.normalisation φ = .ok (fin N) ∧
    ∀ z : ℝ, 0 ≤ z → s.probability [("redshift", fin z)] φ =
      .ok (fin ((if z ≤ s.zMax then volumeElement psi v z else 0) / N)) := by
  obtain ⟨N, hN, hp, -, -⟩ := C31_probability h hz
  have hn := normalisation_eq h (by linarith : 0 ≤ s.zMax)
  generalize Arr.trapzR _ _ = M at hn
  have hz0 : 0 < s.zMax := by linarith
  have hvol := volumeElement_pos h hz0
  have hget : Dict.get? ([("redshift", fin s.zMax)] : Dict Fl) "redshift" = some (fin s.zMax) := by
    simp [Dict.get?_cons]
  have h1 := hp [("redshift", fin s.zMax)] s.zMax hz0.le hget
  rw [if_pos le_rfl] at h1
  have h2 : s.probability [("redshift", fin s.zMax)] φ = .ok (fin (volumeElement psi v s.zMax) / fin M) := by
    unfold Redshift.probability
    rw [hn, ok_bind, diffVolume_eq h hget hz0.le true, ok_bind, if_pos (fun _ => le_rfl)]
    rfl
  rw [h1] at h2
  have h3 := Except.ok.inj h2
  have hM : M = N := by
    by_cases hM : M = 0
    · exfalso
      rw [hM] at h3
      have := congrArg Fl.isFinite h3
      simp [signInf, hvol] at this
    · rw [fin_div hM] at h3
      have h4 := Fl.fin.inj h3
      rw [div_eq_div_iff hN.ne' hM] at h4
      exact mul_left_cancel₀ hvol.ne' h4
  subst hM
  refine ⟨M, hN, hn, fun z hz1 => ?_⟩
  rw [hp [("redshift", fin z)] z hz1 (by simp [Dict.get?_cons])]
  congr 2
  split_ifs
  · rfl
  · rw [zero_div]

theorem product_eq {N : ℝ} (hp : ∀ z : ℝ, 0 ≤ z → s.probability [("redshift", fin z)] φ =
      .ok (fin ((if z ≤ s.zMax then volumeElement psi v z else 0) / N))) {x : Fl × ℝ} (h0 : 0 ≤ x.2)
    (h1 : x.2 ≤ s.zMax) : redshiftProduct s φ x = .ok (x.1 * fin (volumeElement psi v x.2 / N)) := by
  unfold redshiftProduct
  rw [hp x.2 h0, ok_bind, if_pos h1]
  rfl

theorem fin_cancel {c : ℝ} (hc : c ≠ 0) (e w : Fl) : fin c * e * (fin c⁻¹ * w) = e * w := by
  rw [mul_mul_mul_comm, fin_mul, mul_inv_cancel₀ hc, ← one_eq, one_mul]

end LocalRate

open LocalRate

/-! ## The property -/

/-- **C154.** Two analyses that differ only in the maximum redshift of the redshift model, both beyond all redshifts
of the data, agree: the estimate of the log-likelihood, its variance and the value used in sampling are the same, the
same exceptions are raised, and the same merger rates are drawn from the same random numbers. The densities of the
other parameters may be any floats. -/
theorem C154_zmax {s s' : Redshift} {lik lik' : Likelihood} {vt vt' : ResamplingVT} {θ φ : Dict Fl} {psi v : ℝ → ℝ}
    {events : List (List (Fl × ℝ))} {found : List (Fl × ℝ)} (hφ : lik.conversion θ = .ok φ) (hcls : lik.cls ≠ .rate)
    (h : RateAt s φ psi v) (h' : RateAt s' φ psi v) (hz : 1e-6 < s.zMax) (hz' : 1e-6 < s'.zMax)
    (hw : WithRedshift s lik vt φ events found) (hw' : WithRedshift s' lik' vt' φ events found)
    (hset : SameSettings lik lik' vt vt') (hn : events.length = lik.nPosteriors)
    (hr : RedshiftsInRange s events found) (hr' : RedshiftsInRange s' events found) :
    lik'.lnLikelihoodAndVariance θ = lik.lnLikelihoodAndVariance θ ∧
    lik'.logLikelihoodRatio θ = lik.logLikelihoodRatio θ ∧
    ∀ g, lik'.generateRatePosteriorSample g φ = lik.generateRatePosteriorSample g φ := by
  obtain ⟨N, hN, hnorm, hp⟩ := norm_eq h hz
  obtain ⟨N', hN', hnorm', hp'⟩ := norm_eq h' hz'
  obtain ⟨⟨m, sel, rfl⟩, m', r', rfl⟩ := hset
  have hc : 0 < N / N' := div_pos hN hN'
  have hpt : ∀ x : Fl × ℝ, x.1 * fin (volumeElement psi v x.2 / N') =
      fin (N / N') * (x.1 * fin (volumeElement psi v x.2 / N)) := by
    intro x
    rw [mul_left_comm, fin_mul]
    congr 2
    field_simp
  have hev : lik.hyperPrior.prob lik.data φ = .ok (events.map fun e => e.map fun x =>
      x.1 * fin (volumeElement psi v x.2 / N)) := by
    rw [hw.events_eq]
    exact mapM_ok fun e he => mapM_ok fun x hx => product_eq hp (hr.1 e he x hx).1 (hr.1 e he x hx).2
  have hev' : m.prob lik.data φ = (lik.hyperPrior.prob lik.data φ).map (·.map (scaleRow (N / N'))) := by
    rw [hev]
    refine hw'.events_eq.trans ?_
    rw [mapM_ok fun e he => mapM_ok fun x hx => product_eq hp' (hr'.1 e he x hx).1 (hr'.1 e he x hx).2]
    simp only [Except.map, List.map_map, Function.comp_def, scaleRow, hpt]
  have hinj : m'.prob vt.data φ = (vt.model.prob vt.data φ).map (scaleRow (N / N')) := by
    rw [hw.found_eq, mapM_ok fun x hx => product_eq hp (hr.2 x hx).1 (hr.2 x hx).2]
    refine hw'.found_eq.trans ?_
    rw [mapM_ok fun x hx => product_eq hp' (hr'.2 x hx).1 (hr'.2 x hx).2]
    simp only [Except.map, List.map_map, Function.comp_def, scaleRow, hpt]
  have heff : ResamplingVT.detectionEfficiency { vt with model := m', redshiftModel := r' } φ =
      (vt.detectionEfficiency φ).map fun p => (fin (N / N') * p.1, fin ((N / N') ^ 2) * p.2) := by
    rw [← detectionEfficiency_scale hc]
    unfold ResamplingVT.detectionEfficiency
    simp only [scaledVT, scaleInjections, hinj]
    rfl
  have hpe : Likelihood.perEvent { lik with hyperPrior := m, selection := sel } φ =
      (lik.perEvent φ).map (·.map fun p => (p.1 + fin (Real.log (N / N')), p.2)) := by
    rw [← perEvent_scale hc lik vt]
    unfold Likelihood.perEvent Likelihood.weights
    simp only [scaledLikelihood, scaleEvents, hev']
  have hrows : OneRowPerEvent lik θ := by
    intro φ' w h1 h2
    rw [hφ] at h1
    obtain rfl := Except.ok.inj h1
    rw [hev] at h2
    obtain rfl := Except.ok.inj h2
    rw [List.length_map, hn]
  have hmain : Likelihood.lnLikelihoodAndVariance { lik with hyperPrior := m, selection := sel } θ =
      lik.lnLikelihoodAndVariance θ :=
    base_scale hc (L := lik) (φ := φ) (φ' := φ) rfl rfl hφ hφ hrows hpe
      (factor_scale_hyper hc rfl rfl hcls (selection_scale (vt := vt) hc hw.selection hw'.selection
        ⟨rfl, rfl, rfl, rfl, heff⟩))
  refine ⟨hmain, ?_, fun g => ?_⟩
  · unfold Likelihood.logLikelihoodRatio
    rw [hmain]
  · have hvol : ResamplingVT.surveyedHypervolume { vt with model := m', redshiftModel := r' } φ =
        (vt.surveyedHypervolume φ).map (fin (N / N')⁻¹ * ·) := by
      unfold ResamplingVT.surveyedHypervolume
      rw [hw.redshift]
      have hr1 : r' = some s' := hw'.redshift
      simp only [hr1, hnorm, hnorm', ok_bind, pure_eq_ok, Except.map, Except.ok.injEq]
      rw [← mul_assoc]
      congr 1
      rw [fin_div (by norm_num), fin_div (by norm_num), fin_mul]
      congr 1
      field_simp
    unfold Likelihood.generateRatePosteriorSample
    have h1 : sel = ResamplingVT.asSelection { vt with model := m', redshiftModel := r' } := hw'.selection
    rw [hw.selection, h1]
    simp only [ResamplingVT.asSelection]
    rw [heff, hvol]
    have key : ∀ (E : Except PyErr (Fl × Fl)) (V : Except PyErr Fl), (do
        let p ← E.map fun p => (fin (N / N') * p.1, fin ((N / N') ^ 2) * p.2)
        let w ← V.map (fin (N / N')⁻¹ * ·)
        (pure (g / (p.1 * w)) : Except PyErr Fl)) = (do
        let p ← E
        let w ← V
        (pure (g / (p.1 * w)) : Except PyErr Fl)) := by
      intro E V
      cases E with
      | error e => rfl
      | ok p =>
        cases V with
        | error e => rfl
        | ok w =>
          simp only [Except.map, ok_bind]
          rw [fin_cancel hc.ne']
    cases hcl : lik.cls with
    | rate => exact absurd hcl hcls
    | hyper => exact key _ _
    | null => exact key _ _

/-- The merger rate that is drawn is the rate at redshift zero: the random number divided by the number of sources
expected to be found per unit rate, where the density of sources is `psi(z) / (1 + z) dV_c/dz`. The norm of the redshift
model, and with it the trapezoid rule that computes it, has no influence. -/
theorem C154_local_rate {s : Redshift} {lik : Likelihood} {vt : ResamplingVT} {φ : Dict Fl} {psi v : ℝ → ℝ}
    {found : List (ℝ × ℝ × ℝ)} {total time : ℝ} (hcls : lik.cls ≠ .rate) (h : RateAt s φ psi v) (hz : 1e-6 < s.zMax)
    (hm : vt.model.prob vt.data φ = found.mapM fun x => redshiftProduct s φ (fin x.1, x.2.1))
    (hq : vt.data.get? "prior" = some (.arr (found.map fun x => fin x.2.2))) (hsel : lik.selection = vt.asSelection)
    (hs : vt.redshiftModel = some s) (hN : vt.totalInjections.2 = fin total) (ht : vt.analysisTime = fin time)
    (htotal : total ≠ 0) (h0 : ∀ x ∈ found, 0 ≤ x.2.1 ∧ x.2.2 ≠ 0)
    (hpos : 0 < foundPerRate psi v s.zMax total time found) (g : ℝ) :
    lik.generateRatePosteriorSample (fin g) φ = .ok (fin (g / foundPerRate psi v s.zMax total time found)) := by
  obtain ⟨M, hM, hnorm, hp⟩ := norm_eq h hz
  refine rateSample_eq hcls hpos ?_ g
  rw [hsel]
  have hpr : vt.model.prob vt.data φ = .ok ((found.map fun x =>
      x.1 * ((if x.2.1 ≤ s.zMax then volumeElement psi v x.2.1 else 0) / M)).map fin) := by
    rw [hm, mapM_ok (g := fun x : ℝ × ℝ × ℝ =>
      fin (x.1 * ((if x.2.1 ≤ s.zMax then volumeElement psi v x.2.1 else 0) / M))), List.map_map]
    · rfl
    · intro x hx
      unfold redshiftProduct
      simp only [hp x.2.1 (h0 x hx).1, ok_bind, pure_eq_ok, fin_mul]
  have heff := C40_value hpr (q := found.map fun x => x.2.2) (by rw [hq, List.map_map]; rfl) (by simp)
    (by
      intro y hy
      obtain ⟨x, hx, rfl⟩ := List.mem_map.1 hy
      exact (h0 x hx).2) hN htotal
  refine ⟨_, M / 1e9 * time, _, heff, ?_, ?_⟩
  · unfold ResamplingVT.surveyedHypervolume
    simp only [hs, hnorm, ht, ok_bind, pure_eq_ok, fin_div (show (1e9 : ℝ) ≠ 0 by norm_num), fin_mul]
  · unfold foundPerRate weights
    rw [zipWith_map_same]
    have : (found.map fun x : ℝ × ℝ × ℝ =>
        x.1 * ((if x.2.1 ≤ s.zMax then volumeElement psi v x.2.1 else 0) / M) / x.2.2).sum =
        (found.map fun x : ℝ × ℝ × ℝ =>
          x.1 * (if x.2.1 ≤ s.zMax then volumeElement psi v x.2.1 else 0) / x.2.2).sum / M := by
      rw [div_eq_mul_inv, ← List.sum_map_mul_right]
      congr 1
      refine List.map_congr_left fun x _ => ?_
      ring
    rw [this]
    field_simp

/-! ## Examples -/

namespace LocalRate

/-- Injections evaluated with the redshift model `s`, for the examples. -/
def zVT (s : Redshift) : ResamplingVT where
  backend := .numpy
  model := ⟨[.redshift s], fun _ φ => [(fin 1, (0.1 : ℝ)), (fin 2, 0.3)].mapM (redshiftProduct s φ)⟩
  data := [("prior", .arr [fin 1, fin 3])]
  nEvents := fin 1
  totalInjections := (true, fin 10)
  analysisTime := fin 2
  redshiftModel := some s
  marginalizeUncertainty := false
  enforceConvergence := false
  surveyedHypervolumeAttr := none

/-- One event with two posterior samples, evaluated with the redshift model `s`. -/
def zLik (s : Redshift) : Likelihood where
  cls := .hyper
  backend := .numpy
  data := []
  hyperPrior := ⟨[.redshift s], fun _ φ => [[(fin 1, (0.2 : ℝ)), (nan, 0.4)]].mapM fun e => e.mapM (redshiftProduct s φ)⟩
  samplingPrior := none
  totalNoiseEvidence := fin 0
  conversion := fun θ => .ok θ
  selection := (zVT s).asSelection
  nPosteriors := 1
  samplesPerPosterior := 2
  maximumUncertainty := pinf
  maxVariance := pinf

theorem toyRate (zm : ℝ) : ∃ s, Redshift.powerLaw [("Planck15", .fixed toyCosmology)] zm "Planck15" = .ok s ∧
    RateAt s [("lamb", fin 2.7)] (fun z => (1 + z) ^ (2.7 : ℝ)) (fun z => z * z) ∧ s.zMax = zm := by
  have hg : Dict.get? [("Planck15", CosmoEntry.fixed toyCosmology)] "Planck15" = some (.fixed toyCosmology) := by
    simp [Dict.get?_cons]
  have hs : ∃ s, Redshift.powerLaw [("Planck15", .fixed toyCosmology)] zm "Planck15" = .ok s := ⟨_, rfl⟩
  obtain ⟨s, hs⟩ := hs
  exact ⟨s, hs, rateAt_powerLaw hs hg (fun z _ => by simp [toyCosmology]) (fun z hz => by positivity) (by norm_num) 2.7⟩

end LocalRate

/-- Non-vacuity of C154: the redshift model with a maximum redshift of 2.3 and of 10 (and one NaN among the densities of
the other parameters). -/
example : ∃ s s', s.zMax = 2.3 ∧ s'.zMax = 10 ∧
    (zLik s').lnLikelihoodAndVariance [("lamb", fin 2.7)] = (zLik s).lnLikelihoodAndVariance [("lamb", fin 2.7)] := by
  obtain ⟨s, -, h, hz⟩ := toyRate 2.3
  obtain ⟨s', -, h', hz'⟩ := toyRate 10
  refine ⟨s, s', hz, hz', (C154_zmax (s := s) (s' := s') (lik := zLik s) (lik' := zLik s') (vt := zVT s) (vt' := zVT s') rfl
    (by simp [zLik]) h h'
    (by rw [hz]; norm_num) (by rw [hz']; norm_num) ⟨rfl, rfl, rfl, rfl⟩ ⟨rfl, rfl, rfl, rfl⟩
    ⟨⟨_, _, rfl⟩, _, _, rfl⟩ rfl ?_ ?_).1⟩
  · refine ⟨?_, by simp [hz]; norm_num⟩
    simp only [List.mem_cons, List.not_mem_nil, or_false, forall_eq, forall_eq_or_imp, hz]
    norm_num
  · refine ⟨?_, by simp [hz']; norm_num⟩
    simp only [List.mem_cons, List.not_mem_nil, or_false, forall_eq, forall_eq_or_imp, hz']
    norm_num

/-- Non-vacuity of `C154_local_rate`: two injections found of ten. -/
example : ∃ s, s.zMax = 2.3 ∧ ∀ g, (zLik s).generateRatePosteriorSample (fin g) [("lamb", fin 2.7)] = .ok (fin (g /
    (2 / 1e9 * ((1 * ((1 + 0.1) ^ (2.7 : ℝ) / (1 + 0.1) * (4 * Real.pi * (0.1 * 0.1))) / 1 +
      2 * ((1 + 0.3) ^ (2.7 : ℝ) / (1 + 0.3) * (4 * Real.pi * (0.3 * 0.3))) / 3) / 10)))) := by
  obtain ⟨s, -, h, hz⟩ := toyRate 2.3
  have e : foundPerRate (fun z => (1 + z) ^ (2.7 : ℝ)) (fun z => z * z) s.zMax 10 2 [(1, 0.1, 1), (2, 0.3, 3)] =
      2 / 1e9 * ((1 * ((1 + 0.1) ^ (2.7 : ℝ) / (1 + 0.1) * (4 * Real.pi * (0.1 * 0.1))) / 1 +
      2 * ((1 + 0.3) ^ (2.7 : ℝ) / (1 + 0.3) * (4 * Real.pi * (0.3 * 0.3))) / 3) / 10) := by
    unfold foundPerRate volumeElement
    simp only [List.map_cons, List.map_nil, List.sum_cons, List.sum_nil, add_zero, hz]
    rw [if_pos (by norm_num), if_pos (by norm_num)]
  refine ⟨s, hz, fun g => ?_⟩
  rw [← e]
  refine C154_local_rate (vt := zVT s) (by simp [zLik]) h (by rw [hz]; norm_num) ?_ ?_ rfl rfl rfl rfl (by norm_num) ?_ ?_ g
  · simp only [zVT, List.mapM_cons, List.mapM_nil]
  · simp [zVT, Dict.get?_cons]
  · simp; norm_num
  · rw [e]; positivity

end GW
