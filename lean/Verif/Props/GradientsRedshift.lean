import Verif.Props.GradientsSmoothed
import Verif.Props.ContinuityLikelihood

/-!
# C92: gradients of the redshift models

With a fixed cosmology jax returns the derivatives of the redshift probability with respect to all
parameters of the rate, at all redshifts.
-/

noncomputable section

open Set MeasureTheory Filter Classical
open scoped Topology

namespace GW

open Fl Spec Ex

/-- A redshift model on jax as a function of its hyper-parameters. -/
def redshiftOf (s : Redshift) (names : List String) (z : ℝ) (θ : String → ℝ) : Except PyErr Fl :=
  s.probability [("redshift", fin z)] (namedArgs names θ)

/-- The recorded computation. -/
def redshiftRec (s : Redshift) (c : Cosmology) (psi : Fl → Ex) (z : ℝ) : Ex :=
  redshiftEx s.zMax s.zs c psi (fin z)

theorem volume_trace {s : Redshift} {c : Cosmology} {names : List String} {psi : Fl → Ex}
    (hclash : ∀ k ∈ ["self", "dataset", "bounds", "redshift"], k ∉ names)
    (hpsi : ∀ (θ : String → ℝ) z, s.psiOfZ z (namedArgs names θ) = .ok (eval (envOf θ) (psi z)))
    (hcosmo : ∀ θ, s.mixin.cosmology (namedArgs names θ) = .ok c) (z : ℝ) (θ : String → ℝ) :
    s.differentialSpacetimeVolume [("redshift", fin z)] true (namedArgs names θ) =
      .ok (eval (envOf θ) (volumeEx s.zMax c psi (fin z))) := by
  have hcl : ∀ k ∈ ["self", "dataset", "bounds", "redshift"], ¬ Dict.contains (namedArgs names θ) k := by
    intro k hk h
    refine hclash k hk ?_
    rw [← keys_namedArgs names θ]
    exact h
  have c1 := noClash_ok (r := ["self", "dataset", "bounds"]) (d := namedArgs names θ)
    (fun k hk => hcl k (by simp only [List.mem_cons] at hk ⊢; tauto))
  have c2 := noClash_ok (r := ["self", "redshift"]) (d := namedArgs names θ)
    (fun k hk => hcl k (by simp only [List.mem_cons] at hk ⊢; tauto))
  simp only [Redshift.differentialSpacetimeVolume, Redshift.dvcDz, c1, c2, Dict.get, Dict.get?_cons, if_pos,
    hpsi, hcosmo, ok_bind, pure_eq_ok]
  rfl

theorem trace_redshift {s : Redshift} {c : Cosmology} {names : List String} {psi : Fl → Ex}
    (hclash : ∀ k ∈ ["self", "dataset", "bounds", "redshift"], k ∉ names)
    (hpsi : ∀ (θ : String → ℝ) z, s.psiOfZ z (namedArgs names θ) = .ok (eval (envOf θ) (psi z)))
    (hcosmo : ∀ θ, s.mixin.cosmology (namedArgs names θ) = .ok c) (z : ℝ) :
    Traces (redshiftRec s c psi z) (redshiftOf s names z) := by
  intro θ
  have hd := fun z => volume_trace hclash hpsi hcosmo z θ
  unfold redshiftOf Redshift.probability Redshift.normalisation
  rw [mapM_ok (g := fun z => eval (envOf θ) (volumeEx s.zMax c psi (fin z)))]
  · rw [ok_bind, pure_eq_ok, ok_bind, hd, ok_bind]
    unfold redshiftRec redshiftEx
    rw [eval_div, trace_trapz, List.map_map]
    rfl
  · intro z _
    exact hd z

theorem redshift_gradient {s : Redshift} {c : Cosmology} {names : List String} {psi : Fl → Ex}
    (hclash : ∀ k ∈ ["self", "dataset", "bounds", "redshift"], k ∉ names)
    (hpsi : ∀ (θ : String → ℝ) z, s.psiOfZ z (namedArgs names θ) = .ok (eval (envOf θ) (psi z)))
    (hcosmo : ∀ θ, s.mixin.cosmology (namedArgs names θ) = .ok c) {z : ℝ} (hz0 : 0 ≤ z)
    {θ : String → ℝ} {v : String} (hsm : ∀ z : ℝ, 0 ≤ z → Smooth θ v (psi (fin z))) {rate vol : ℝ → ℝ}
    (h : RateAt s (namedArgs names θ) rate vol)
    (hvol : ∀ z, 0 ≤ z → c.diffComovingVolume (fin z) = fin (vol z)) (hz : 1e-6 < s.zMax) :
    GradientRight (redshiftOf s names z) (redshiftRec s c psi z) θ v := by
  refine gradientRight (trace_redshift hclash hpsi hcosmo z) ?_
  have hm : 0 ≤ s.zMax := by linarith
  obtain ⟨a, n, zm, cm, p, hmade⟩ := h.made
  have hzs := (redshift_zs hmade).1
  have sv : ∀ z : ℝ, 0 ≤ z → Smooth θ v (volumeEx s.zMax c psi (fin z)) := by
    intro z hz
    unfold volumeEx
    rw [hvol z hz, one_eq, fin_add, ofNat_eq, fin_mul, fin_mul]
    obtain ⟨r, hr⟩ : ∃ r, ind (fin z ≤ fin s.zMax) = fin r := ⟨_, ind_eq _⟩
    rw [hr]
    exact smooth_mul (smooth_mul (smooth_div (hsm z hz) (smooth_const θ v _) rfl (by positivity))
      (smooth_const θ v _)) (smooth_const θ v _)
  obtain ⟨k, hk, hk2⟩ : ∃ k, k = 2500 ∧ 2 ≤ k := ⟨2500, rfl, by norm_num⟩
  have hnode : ∀ z ∈ Arr.linspaceR 1e-6 s.zMax k, 0 < z ∧ z ≤ s.zMax := fun z hzm => by
    have := linspaceR_mem hz.le hk2 hzm
    exact ⟨lt_of_lt_of_le (by norm_num) this.1, this.2⟩
  have hN := normalisation_eq h hm
  have ht : s.normalisation (namedArgs names θ) = .ok (eval (envOf θ)
      (trapzEx (s.zs.map fun z => volumeEx s.zMax c psi (fin z)) s.zs)) := by
    unfold Redshift.normalisation
    rw [mapM_ok (g := fun z => eval (envOf θ) (volumeEx s.zMax c psi (fin z)))]
    · rw [ok_bind, pure_eq_ok, trace_trapz, List.map_map]
      rfl
    · intro z _
      exact volume_trace hclash hpsi hcosmo z θ
  rw [ht] at hN
  have hN := Except.ok.inj hN
  rw [← hk] at hN
  unfold redshiftRec redshiftEx
  refine smooth_div (sv z hz0) (smooth_trapz ?_ _) hN ?_
  · intro y hy
    obtain ⟨z, hzm, rfl⟩ := List.mem_map.1 hy
    rw [hzs, ← hk] at hzm
    exact sv z (hnode z hzm).1.le
  · refine (Arr.trapzR_pos (by simp) (by rw [linspaceR_length]; exact hk2) ?_
      (linspaceR_sorted hz hk2).isChain).ne'
    intro y hy
    obtain ⟨z, hzm, rfl⟩ := List.mem_map.1 hy
    rw [if_pos (hnode z hzm).2]
    exact volumeElement_pos h (hnode z hzm).1

/-- **C92.** jax returns the derivative of the probability of the power-law redshift model, for every fixed
cosmology, `z_max` and redshift. -/
theorem C92_powerLawRedshift {available : Dict CosmoEntry} {zMax : ℝ} {name : String} {c : Cosmology}
    {s : Redshift} (hs : Redshift.powerLaw available zMax name = .ok s)
    (hc : available.get? name = some (.fixed c)) {vol : ℝ → ℝ}
    (hv : ∀ z, 0 ≤ z → c.diffComovingVolume (fin z) = fin (vol z)) (v_pos : ∀ z, 0 < z → 0 < vol z)
    (v_zero : 0 ≤ vol 0) (hz : 1e-6 < zMax) {z : ℝ} (hz0 : 0 ≤ z) (θ : String → ℝ) (v : String) :
    GradientRight (redshiftOf s ["lamb"] z) (redshiftRec s c (psiPowerLawEx (arg "lamb")) z) θ v := by
  have hr := (rateAt_powerLaw hs hc hv v_pos v_zero (θ "lamb")).1
  refine redshift_gradient (by decide) (fun θ z => ?_) (fun θ => ?_) hz0 (fun z hz => ?_) hr hv
    (by rw [(redshift_zs hs).2]; exact hz)
  · unfold Redshift.powerLaw Redshift.init CosmoMixin.init at hs
    simp only [Dict.get, hc, ok_bind, pure_eq_ok] at hs
    rw [← Except.ok.inj hs]
    simp only [psiPowerLaw, Dict.get, namedArgs, List.map_cons, List.map_nil, Dict.get?_cons, if_pos, ok_bind,
      pure_eq_ok]
    rfl
  · unfold Redshift.powerLaw Redshift.init CosmoMixin.init at hs
    simp only [Dict.get, hc, ok_bind, pure_eq_ok] at hs
    rw [← Except.ok.inj hs]
    rfl
  · unfold psiPowerLawEx
    rw [one_eq, fin_add]
    exact smooth_pow (smooth_const θ v _) trivial rfl (by positivity)

/-- **C92.** The same for the three parameters of the Madau-Dickinson model. -/
theorem C92_madauDickinson {available : Dict CosmoEntry} {zMax : ℝ} {name : String}
    {c : Cosmology} {s : Redshift} (hs : Redshift.madauDickinson available false zMax name = .ok s)
    (hc : available.get? name = some (.fixed c)) {vol : ℝ → ℝ}
    (hv : ∀ z, 0 ≤ z → c.diffComovingVolume (fin z) = fin (vol z)) (v_pos : ∀ z, 0 < z → 0 < vol z)
    (v_zero : 0 ≤ vol 0) (hz : 1e-6 < zMax) {z : ℝ} (hz0 : 0 ≤ z) {θ : String → ℝ} (hp : -1 < θ "z_peak")
    (v : String) :
    GradientRight (redshiftOf s ["gamma", "kappa", "z_peak"] z)
      (redshiftRec s c (psiMadauDickinsonEx (arg "gamma") (arg "kappa") (arg "z_peak")) z) θ v := by
  have hr := (rateAt_madauDickinson hs hc hv v_pos v_zero (θ "gamma") (θ "kappa") hp).1
  refine redshift_gradient (by decide) (fun θ z => ?_) (fun θ => ?_) hz0 (fun z hz => ?_) hr hv
    (by rw [(redshift_zs hs).2]; exact hz)
  · unfold Redshift.madauDickinson Redshift.init CosmoMixin.init at hs
    simp only [Dict.get, hc, ok_bind, pure_eq_ok] at hs
    rw [← Except.ok.inj hs]
    simp only [psiMadauDickinson, Dict.get, get?_namedArgs (names := ["gamma", "kappa", "z_peak"]) θ
      (show "gamma" ∈ _ by decide), get?_namedArgs (names := ["gamma", "kappa", "z_peak"]) θ
      (show "kappa" ∈ _ by decide), get?_namedArgs (names := ["gamma", "kappa", "z_peak"]) θ
      (show "z_peak" ∈ _ by decide), ok_bind, pure_eq_ok, pyPow, Bool.false_eq_true, false_and, if_false]
    rfl
  · unfold Redshift.madauDickinson Redshift.init CosmoMixin.init at hs
    simp only [Dict.get, hc, ok_bind, pure_eq_ok] at hs
    rw [← Except.ok.inj hs]
    rfl
  · have h1 : 0 < 1 + z := by positivity
    have h2 : 0 < 1 + θ "z_peak" := by linarith
    have sp : Smooth θ v (const 1 + arg "z_peak") := smooth_add (smooth_const θ v 1) trivial
    have ep : eval (envOf θ) (const 1 + arg "z_peak") = fin (1 + θ "z_peak") := rfl
    have sx : Smooth θ v (const (fin (1 + z)) / (const 1 + arg "z_peak")) :=
      smooth_div (smooth_const θ v _) sp ep h2.ne'
    have ex : eval (envOf θ) (const (fin (1 + z)) / (const 1 + arg "z_peak")) =
        fin ((1 + z) / (1 + θ "z_peak")) := by
      rw [eval_div, ep]; exact fin_div h2.ne'
    have h3 : 0 < (1 + z) / (1 + θ "z_peak") := by positivity
    unfold psiMadauDickinsonEx
    rw [one_eq, fin_add]
    refine smooth_mul (smooth_div (smooth_pow (smooth_const θ v _) trivial rfl h1)
      (smooth_add (smooth_const θ v 1) (smooth_pow sx trivial ex h3))
      (b := 1 + ((1 + z) / (1 + θ "z_peak")) ^ θ "kappa") ?_ (by positivity))
      (smooth_add (smooth_const θ v 1) (smooth_pow sp (smooth_neg trivial) ep h2))
    rw [eval_add, eval_bin, ← one_eq, ex]
    show fin 1 + Fl.pow (fin _) (fin _) = _
    rw [pow_fin_pos h3, fin_add]

/-- Non-vacuity of `C92_powerLawRedshift` and `C92_madauDickinson`. -/
example (v : String) : ∃ s s', Redshift.powerLaw [("Planck15", .fixed toyCosmology)] 2.3 "Planck15" = .ok s ∧
    Redshift.madauDickinson [("Planck15", .fixed toyCosmology)] false 2.3 "Planck15" = .ok s' ∧
    GradientRight (redshiftOf s ["lamb"] 1) (redshiftRec s toyCosmology (psiPowerLawEx (arg "lamb")) 1)
      (fun _ => 2.7) v ∧
    GradientRight (redshiftOf s' ["gamma", "kappa", "z_peak"] 2.3) (redshiftRec s' toyCosmology
      (psiMadauDickinsonEx (arg "gamma") (arg "kappa") (arg "z_peak")) 2.3) (fun _ => 1.9) v := by
  have hs : ∃ s, Redshift.powerLaw [("Planck15", .fixed toyCosmology)] 2.3 "Planck15" = .ok s := by
    unfold Redshift.powerLaw Redshift.init CosmoMixin.init
    simp only [Dict.get, Dict.get?_cons, if_pos, ok_bind, pure_eq_ok]
    exact ⟨_, rfl⟩
  have hs' : ∃ s, Redshift.madauDickinson [("Planck15", .fixed toyCosmology)] false 2.3 "Planck15" =
      .ok s := by
    unfold Redshift.madauDickinson Redshift.init CosmoMixin.init
    simp only [Dict.get, Dict.get?_cons, if_pos, ok_bind, pure_eq_ok]
    exact ⟨_, rfl⟩
  obtain ⟨s, hs⟩ := hs
  obtain ⟨s', hs'⟩ := hs'
  refine ⟨s, s', hs, hs', ?_, ?_⟩
  · exact C92_powerLawRedshift hs (c := toyCosmology) (by simp [Dict.get?_cons]) (vol := fun z => z * z)
      (by intro z _; simp [toyCosmology]) (fun z hz => by positivity) (by simp) (by norm_num) (z := 1)
      (by norm_num) _ v
  · exact C92_madauDickinson hs' (c := toyCosmology) (by simp [Dict.get?_cons]) (vol := fun z => z * z)
      (by intro z _; simp [toyCosmology]) (fun z hz => by positivity) (by simp) (by norm_num)
      (z := 2.3) (by norm_num) (by norm_num) v

end GW
