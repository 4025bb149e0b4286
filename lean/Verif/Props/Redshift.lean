import Verif.Model.Redshift
import Verif.Props.SmoothedNorm
import Verif.Props.Spin

/-!
# C30, C31: redshift models
-/

noncomputable section

open Classical

namespace GW

open Fl Spec

/-! ## C30 -/

/-- **C30.** The power-law rate evolution is 1 at redshift 0, for every float `lamb` (even NaN or
infinite), and equals the positive number `(1 + z) ** lamb` for all `z > -1` and real `lamb`. -/
theorem C30_powerLaw {d : Dict Fl} {lamb : Fl} (h : d.get? "lamb" = some lamb) :
    psiPowerLaw 0 d = .ok (fin 1) ∧
    ∀ (z l : ℝ), -1 < z → lamb = fin l →
      psiPowerLaw (fin z) d = .ok (fin ((1 + z) ^ l)) ∧ 0 < (1 + z) ^ l := by
  constructor
  · simp only [psiPowerLaw, Dict.get, h]
    show Except.ok _ = _
    congr 1
    cases lamb <;> simp [Fl.pow, powFin]
  · rintro z l hz rfl
    refine ⟨?_, Real.rpow_pos_of_pos (by linarith) _⟩
    simp only [psiPowerLaw, Dict.get, h]
    show Except.ok _ = _
    rw [one_eq, fin_add, pow_fin_pos (by linarith)]

/-- The documented Madau-Dickinson shape, normalised at redshift 0. -/
def Spec.madauDickinson (g k zp z : ℝ) : ℝ :=
  ((1 + z) ^ g / (1 + ((1 + z) / (1 + zp)) ^ k)) /
    ((1 + 0) ^ g / (1 + ((1 + 0) / (1 + zp)) ^ k))

/-- **C30.** The Madau-Dickinson rate evolution is, for all real `gamma`, `kappa` and `z_peak > -1`
and all `z > -1`, the documented shape divided by its value at redshift 0; it is
therefore 1 at redshift 0, and it is positive. -/
theorem C30_madauDickinson (py : Bool) {d : Dict Fl} {g k zp : ℝ}
    (hg : d.get? "gamma" = some (fin g)) (hk : d.get? "kappa" = some (fin k))
    (hp : d.get? "z_peak" = some (fin zp)) (hzp : -1 < zp) :
    (∀ z : ℝ, -1 < z → psiMadauDickinson py (fin z) d = .ok (fin (Spec.madauDickinson g k zp z)) ∧
      0 < Spec.madauDickinson g k zp z) ∧
    psiMadauDickinson py (fin 0) d = .ok (fin 1) := by
  have hp1 : 0 < 1 + zp := by linarith
  have hpos : ∀ z : ℝ, -1 < z → 0 < Spec.madauDickinson g k zp z := by
    intro z hz
    have hz1 : 0 < 1 + z := by linarith
    unfold Spec.madauDickinson
    positivity
  have hval : ∀ z : ℝ, -1 < z →
      psiMadauDickinson py (fin z) d = .ok (fin (Spec.madauDickinson g k zp z)) := by
    intro z hz
    have hz1 : 0 < 1 + z := by linarith
    have hd : 0 < 1 + ((1 + z) / (1 + zp)) ^ k := by positivity
    simp only [psiMadauDickinson, Dict.get, hg, hk, hp, pyPow, ok_bind, pure_eq_ok]
    simp only [one_eq, fin_add, fin_neg, zero_eq, eqf_fin, fin_div hp1.ne', pow_fin_pos hz1,
      pow_fin_pos (div_pos hz1 hp1), fin_div hd.ne', pow_fin_pos hp1]
    rw [if_neg (by intro h; exact hp1.ne' h.2.1), ok_bind, fin_add, fin_mul]
    congr 2
    unfold Spec.madauDickinson
    rw [Real.rpow_neg hp1.le]
    have h1 : (1 + (0 : ℝ)) ^ g = 1 := by simp
    have h2 : ((1 + (0 : ℝ)) / (1 + zp)) ^ k = ((1 + zp) ^ k)⁻¹ := by
      rw [add_zero, one_div, Real.inv_rpow hp1.le]
    rw [h1, h2]
    have : 0 < (1 + zp) ^ k := by positivity
    field_simp
  refine ⟨fun z hz => ⟨hval z hz, hpos z hz⟩, ?_⟩
  rw [hval 0 (by norm_num)]
  congr 2
  unfold Spec.madauDickinson
  apply div_self
  positivity

/-- **C30.** A missing rate parameter is a `KeyError` (never a silent default). -/
theorem C30_missing (py : Bool) (z : Fl) (d : Dict Fl) :
    (d.get? "lamb" = none → psiPowerLaw z d = .error (.keyError "lamb")) ∧
    (d.get? "gamma" = none → psiMadauDickinson py z d = .error (.keyError "gamma")) := by
  constructor <;> intro h
  · simp only [psiPowerLaw, Dict.get, h]; rfl
  · simp only [psiMadauDickinson, Dict.get, h]; rfl

/-- Non-vacuity of C30. -/
example : psiMadauDickinson true (fin 0)
    [("gamma", fin 2.7), ("kappa", fin 5.6), ("z_peak", fin 1.9)] = .ok (fin 1) :=
  (C30_madauDickinson true (g := 2.7) (k := 5.6) (zp := 1.9) (by simp [Dict.get?_cons])
    (by simp [Dict.get?_cons]) (by simp [Dict.get?_cons]) (by norm_num)).2

example : psiPowerLaw 0 [("lamb", nan)] = .ok (fin 1) :=
  (C30_powerLaw (lamb := nan) (by simp [Dict.get?_cons])).1

/-! ## C31 -/

/-- An instance together with parameters for which the rate model and the cosmology give positive
values: `psi z` and `v z` (differential comoving volume) at redshift `z`. -/
structure Spec.RateAt (s : Redshift) (parameters : Dict Fl) (psi v : ℝ → ℝ) : Prop where
  /-- the instance was made by the constructor -/
  made : ∃ available names zMax cosmo p, Redshift.init available names p zMax cosmo = .ok s
  /-- no parameter has the name of an argument of the methods -/
  clash : ∀ k ∈ ["self", "dataset", "bounds", "redshift"], ¬ parameters.contains k
  /-- the rate model returns `psi` -/
  psi_eq : ∀ z, 0 ≤ z → s.psiOfZ (fin z) parameters = .ok (fin (psi z))
  /-- the cosmology is defined and returns `v` -/
  vol : ∃ c, s.mixin.cosmology parameters = .ok c ∧ ∀ z, 0 ≤ z → c.diffComovingVolume (fin z) = fin (v z)
  /-- the rate is positive -/
  psi_pos : ∀ z, 0 ≤ z → 0 < psi z
  /-- the volume is positive (and 0 allowed at redshift 0) -/
  v_pos : ∀ z, 0 < z → 0 < v z
  /-- at redshift 0 -/
  v_zero : 0 ≤ v 0

theorem redshift_zs {available names zMax cosmo p s} (h : Redshift.init available names p zMax cosmo = .ok s) :
    s.zs = Arr.linspaceR 1e-6 s.zMax 2500 ∧ s.zMax = zMax := by
  unfold Redshift.init at h
  obtain ⟨m, -, h⟩ := bind_eq_ok.1 h
  rw [pure_eq_ok] at h
  have := Except.ok.inj h
  subst this
  exact ⟨by simp only, by simp only⟩

theorem noClash_ok {r : List String} {d : Dict Fl} (h : ∀ k ∈ r, ¬ d.contains k) :
    Redshift.noClash r d = .ok () := by
  unfold Redshift.noClash
  rw [if_neg]
  rintro ⟨k, hk, hc⟩
  exact h k hk hc

/-- The rate-weighted volume element `psi(z) / (1 + z) dV_c/dz` (over the full sky). -/
def Spec.volumeElement (psi v : ℝ → ℝ) (z : ℝ) : ℝ := psi z / (1 + z) * (4 * Real.pi * v z)

theorem diffVolume_eq {s : Redshift} {parameters : Dict Fl} {psi v : ℝ → ℝ}
    (h : Spec.RateAt s parameters psi v) {d : Dict Fl} {z : ℝ} (hd : d.get? "redshift" = some (fin z))
    (hz : 0 ≤ z) (bounds : Bool) :
    s.differentialSpacetimeVolume d bounds parameters =
      .ok (fin (if bounds = true → z ≤ s.zMax then Spec.volumeElement psi v z else 0)) := by
  obtain ⟨c, hc, hv⟩ := h.vol
  have h1 := h.clash
  have c1 := noClash_ok (r := ["self", "dataset", "bounds"]) (d := parameters)
    (fun k hk => h1 k (by simp only [List.mem_cons] at hk ⊢; tauto))
  have c2 := noClash_ok (r := ["self", "redshift"]) (d := parameters)
    (fun k hk => h1 k (by simp only [List.mem_cons] at hk ⊢; tauto))
  have hz1 : (1 + z) ≠ 0 := by positivity
  simp only [Redshift.differentialSpacetimeVolume, Redshift.dvcDz, c1, c2, Dict.get, hd,
    h.psi_eq z hz, hc, hv z hz, ok_bind, pure_eq_ok, one_eq, ofNat_eq, fin_add, fin_mul,
    fin_div hz1]
  cases bounds
  · simp [Spec.volumeElement]
  · rw [if_pos rfl, fin_mul_ind]
    simp only [fin_le, Spec.volumeElement, true_imp_iff]

theorem normalisation_eq {s : Redshift} {parameters : Dict Fl} {psi v : ℝ → ℝ}
    (h : Spec.RateAt s parameters psi v) (hz : 0 ≤ s.zMax) :
    s.normalisation parameters = .ok (fin (Arr.trapzR ((Arr.linspaceR 1e-6 s.zMax 2500).map fun z =>
      if z ≤ s.zMax then Spec.volumeElement psi v z else 0) (Arr.linspaceR 1e-6 s.zMax 2500))) := by
  obtain ⟨a, n, zm, c, p, hmade⟩ := h.made
  have hzs := (redshift_zs hmade).1
  have hnode : ∀ z ∈ Arr.linspaceR 1e-6 s.zMax 2500, 0 ≤ z := by
    intro z hzm
    unfold Arr.linspaceR at hzm
    obtain ⟨i, hi, rfl⟩ := List.mem_map.1 hzm
    have hi' : i ≤ 2499 := by have := List.mem_range.1 hi; omega
    have hi'' : (i : ℝ) ≤ 2499 := by exact_mod_cast hi'
    have hi0 : (0 : ℝ) ≤ i := by positivity
    have : (1e-6 : ℝ) + (s.zMax - 1e-6) * (i : ℝ) / (((2500 : ℕ) : ℝ) - 1) =
        1e-6 * (1 - (i : ℝ) / 2499) + s.zMax * (i : ℝ) / 2499 := by push_cast; ring
    rw [this]
    have h2 : 0 ≤ 1 - (i : ℝ) / 2499 := by linarith
    positivity
  unfold Redshift.normalisation
  rw [hzs, mapM_ok (g := fun z => fin (if z ≤ s.zMax then Spec.volumeElement psi v z else 0))]
  · rw [ok_bind, pure_eq_ok, ← Arr.trapz_fin, List.map_map]
    rfl
  · intro z hzm
    rw [diffVolume_eq h (d := [("redshift", fin z)]) (by simp [Dict.get?_cons]) (hnode z hzm) true]
    simp only [true_imp_iff]

theorem volumeElement_pos {s : Redshift} {parameters : Dict Fl} {psi v : ℝ → ℝ}
    (h : Spec.RateAt s parameters psi v) {z : ℝ} (hz : 0 < z) : 0 < Spec.volumeElement psi v z := by
  have h1 := h.psi_pos z hz.le
  have h2 := h.v_pos z hz
  unfold Spec.volumeElement
  positivity

/-- **C31.** For every rate model and cosmology with positive values and every `z_max` above the
first grid point: the redshift probability is defined for every dataset with redshift `z >= 0`; it is
the non-negative number `psi(z)/(1+z) dVc/dz` divided by a positive constant for `z <= z_max`
and 0 above; and its trapezoid sum over the 2500 grid points
`1e-6 + (z_max - 1e-6) i / 2499` is exactly 1. -/
theorem C31_probability {s : Redshift} {parameters : Dict Fl} {psi v : ℝ → ℝ}
    (h : Spec.RateAt s parameters psi v) (hz : 1e-6 < s.zMax) :
    ∃ N : ℝ, 0 < N ∧
      (∀ (d : Dict Fl) (z : ℝ), 0 ≤ z → d.get? "redshift" = some (fin z) →
        s.probability d parameters =
          .ok (fin (if z ≤ s.zMax then Spec.volumeElement psi v z / N else 0))) ∧
      (∀ z, 0 ≤ z → 0 ≤ Spec.volumeElement psi v z / N) ∧
      trapezoidRule 2499
        (fun i => if 1e-6 + (s.zMax - 1e-6) * (i : ℝ) / 2499 ≤ s.zMax then
          Spec.volumeElement psi v (1e-6 + (s.zMax - 1e-6) * (i : ℝ) / 2499) / N else 0)
        (fun i => 1e-6 + (s.zMax - 1e-6) * (i : ℝ) / 2499) = 1 := by
  have hz0 : 0 ≤ s.zMax := by linarith
  have hnode : ∀ i : ℕ, i ≤ 2499 → 0 < 1e-6 + (s.zMax - 1e-6) * (i : ℝ) / 2499 ∧
      1e-6 + (s.zMax - 1e-6) * (i : ℝ) / 2499 ≤ s.zMax := by
    intro i hi
    have hi'' : (i : ℝ) ≤ 2499 := by exact_mod_cast hi
    have hi0 : (0 : ℝ) ≤ i := by positivity
    have hd : 0 < s.zMax - 1e-6 := by linarith
    constructor
    · positivity
    · have : (s.zMax - 1e-6) * (i : ℝ) / 2499 ≤ s.zMax - 1e-6 := by
        rw [div_le_iff₀ (by norm_num)]
        gcongr
      linarith
  obtain ⟨N, hNdef⟩ : ∃ N, N = Arr.trapzR ((Arr.linspaceR 1e-6 s.zMax 2500).map fun z =>
      if z ≤ s.zMax then Spec.volumeElement psi v z else 0) (Arr.linspaceR 1e-6 s.zMax 2500) :=
    ⟨_, rfl⟩
  have hN : 0 < N := by
    rw [hNdef]
    refine Arr.trapzR_pos (by simp) (by rw [linspaceR_length]; norm_num) ?_
      (linspaceR_sorted hz (by norm_num)).isChain
    intro y hy
    obtain ⟨z, hzm, rfl⟩ := List.mem_map.1 hy
    unfold Arr.linspaceR at hzm
    obtain ⟨i, hi, rfl⟩ := List.mem_map.1 hzm
    have hi' : i ≤ 2499 := by have := List.mem_range.1 hi; omega
    have he : (((2500 : ℕ) : ℝ) - 1) = 2499 := by norm_num
    rw [he, if_pos (hnode i hi').2]
    exact volumeElement_pos h (hnode i hi').1
  refine ⟨N, hN, ?_, ?_, ?_⟩
  · intro d z hz' hd
    unfold Redshift.probability
    rw [normalisation_eq h hz0, ← hNdef, ok_bind, diffVolume_eq h hd hz' true, ok_bind, pure_eq_ok,
      fin_div hN.ne']
    simp only [true_imp_iff]
    congr 2
    split_ifs <;> simp
  · intro z hz'
    rcases hz'.eq_or_lt with rfl | hlt
    · have h1 := h.psi_pos 0 le_rfl
      have h2 := h.v_zero
      clear hNdef
      refine div_nonneg ?_ hN.le
      unfold Spec.volumeElement
      positivity
    · exact (div_pos (volumeElement_pos h hlt) hN).le
  · have h1 : Arr.trapzR ((Arr.linspaceR 1e-6 s.zMax 2500).map fun z =>
        (if z ≤ s.zMax then Spec.volumeElement psi v z else 0) / N)
        (Arr.linspaceR 1e-6 s.zMax 2500) = 1 := by
      have := Arr.trapzR_map_div N ((Arr.linspaceR 1e-6 s.zMax 2500).map fun z =>
        if z ≤ s.zMax then Spec.volumeElement psi v z else 0) (Arr.linspaceR 1e-6 s.zMax 2500)
      rw [List.map_map, ← hNdef, div_self hN.ne'] at this
      exact this
    rw [trapzR_linspace _ _ _ (by norm_num)] at h1
    refine Eq.trans ?_ h1
    refine trapezoidRule_congr (fun i hi => ?_) fun i hi => by norm_num
    have he : (((2500 : ℕ) : ℝ) - 1) = 2499 := by norm_num
    rw [he, if_pos (hnode i hi).2, if_pos (hnode i hi).2]

/-- **C31.** Multiplying the rate model and the volume by positive constants does not change the
redshift probability. -/
theorem C31_scale {s s' : Redshift} {parameters parameters' : Dict Fl} {psi v : ℝ → ℝ} {a b : ℝ}
    (h : Spec.RateAt s parameters psi v)
    (h' : Spec.RateAt s' parameters' (fun z => a * psi z) (fun z => b * v z))
    (ha : 0 < a) (hb : 0 < b) (hs : s.zMax = s'.zMax) (hz : 0 ≤ s.zMax)
    {d : Dict Fl} {z : ℝ} (hz' : 0 ≤ z) (hd : d.get? "redshift" = some (fin z)) :
    s'.probability d parameters' = s.probability d parameters := by
  have hel : ∀ z, Spec.volumeElement (fun z => a * psi z) (fun z => b * v z) z =
      Spec.volumeElement psi v z * (a * b) := by
    intro z; unfold Spec.volumeElement; ring
  have hel2 : ∀ z zm : ℝ, (if z ≤ zm then Spec.volumeElement psi v z * (a * b) else 0) =
      (if z ≤ zm then Spec.volumeElement psi v z else 0) * (a * b) := by
    intro z zm; split_ifs <;> simp
  unfold Redshift.probability
  rw [normalisation_eq h hz, normalisation_eq h' (hs ▸ hz), ok_bind, ok_bind,
    diffVolume_eq h hd hz' true, diffVolume_eq h' hd hz' true, ok_bind, ok_bind, pure_eq_ok, pure_eq_ok]
  simp only [true_imp_iff, hel, hel2, ← hs]
  generalize Arr.linspaceR 1e-6 s.zMax 2500 = zs
  have := Arr.trapzR_map_mul (a * b) (zs.map fun z =>
    if z ≤ s.zMax then Spec.volumeElement psi v z else 0) zs
  rw [List.map_map] at this
  have e2 : ((fun y => y * (a * b)) ∘ fun z => if z ≤ s.zMax then Spec.volumeElement psi v z else 0) =
      fun z => (if z ≤ s.zMax then Spec.volumeElement psi v z else 0) * (a * b) := rfl
  rw [e2] at this
  rw [this]
  generalize Arr.trapzR _ zs = T
  congr 1
  have hab : 0 < a * b := by positivity
  by_cases hT : T = 0
  · subst hT
    rw [zero_mul, fin_div_zero, fin_div_zero]
    split_ifs with hle
    · rcases lt_trichotomy (Spec.volumeElement psi v z) 0 with h1 | h1 | h1
      · rw [signInf_neg h1, signInf_neg (by nlinarith)]
      · rw [h1, zero_mul]
      · rw [signInf_pos h1, signInf_pos (by positivity)]
    · rw [zero_mul]
  · rw [fin_div hT, fin_div (mul_ne_zero hT hab.ne'), mul_div_mul_right _ _ hab.ne']

/-- The last term is the only one if all other samples vanish. -/
theorem trapezoidRule_last {n : ℕ} {y x : ℕ → ℝ} (h : ∀ i < n + 1, y i = 0) :
    trapezoidRule (n + 1) y x = (x (n + 1) - x n) * y (n + 1) / 2 := by
  unfold trapezoidRule
  rw [Finset.sum_range_succ, Finset.sum_eq_zero, zero_add, h n (by omega), zero_add]
  intro i hi
  rw [Finset.mem_range] at hi
  rw [h i (by omega), h (i + 1) (by omega)]
  simp

/-- **C31, why `z_max` must exceed the first grid point.** For `0 < z_max < 1e-6` the grid runs
backwards, the normalisation is negative and so is the returned probability. -/
theorem C31_tiny_zmax {s : Redshift} {parameters : Dict Fl} {psi v : ℝ → ℝ}
    (h : Spec.RateAt s parameters psi v) (h0 : 0 < s.zMax) (hz : s.zMax < 1e-6)
    {d : Dict Fl} {z : ℝ} (hz0 : 0 < z) (hz1 : z ≤ s.zMax) (hd : d.get? "redshift" = some (fin z)) :
    ∃ r, r < 0 ∧ s.probability d parameters = .ok (fin r) := by
  have hN : Arr.trapzR ((Arr.linspaceR 1e-6 s.zMax 2500).map fun z =>
      if z ≤ s.zMax then Spec.volumeElement psi v z else 0) (Arr.linspaceR 1e-6 s.zMax 2500) < 0 := by
    rw [trapzR_linspace _ _ _ (by norm_num)]
    have he : (((2500 : ℕ) : ℝ) - 1) = 2499 := by norm_num
    simp only [he]
    rw [show 2500 - 1 = 2498 + 1 from rfl, trapezoidRule_last]
    · have h1 : (1e-6 : ℝ) + (s.zMax - 1e-6) * ((2498 + 1 : ℕ) : ℝ) / 2499 = s.zMax := by
        push_cast; ring
      rw [h1, if_pos le_rfl]
      have h2 := volumeElement_pos h h0
      have h3 : s.zMax - (1e-6 + (s.zMax - 1e-6) * ((2498 : ℕ) : ℝ) / 2499) < 0 := by
        have : s.zMax - (1e-6 + (s.zMax - 1e-6) * ((2498 : ℕ) : ℝ) / 2499) =
          (s.zMax - 1e-6) / 2499 := by push_cast; ring
        rw [this]
        exact div_neg_of_neg_of_pos (by linarith) (by norm_num)
      have := mul_neg_of_neg_of_pos h3 h2
      linarith
    · intro i hi
      rw [if_neg]
      have hi' : (i : ℝ) ≤ 2498 := by exact_mod_cast Nat.lt_succ_iff.1 hi
      have : (s.zMax - 1e-6) < (s.zMax - 1e-6) * (i : ℝ) / 2499 := by
        rw [lt_div_iff₀ (by norm_num)]
        nlinarith
      linarith
  refine ⟨_ / _, div_neg_of_pos_of_neg (volumeElement_pos h hz0) hN, ?_⟩
  unfold Redshift.probability
  rw [normalisation_eq h h0.le, ok_bind, diffVolume_eq h hd hz0.le true, ok_bind, pure_eq_ok,
    fin_div hN.ne, if_pos fun _ => hz1]

/-- A power-law model with a fixed positive cosmology satisfies the hypotheses of C31. -/
theorem rateAt_powerLaw {available : Dict CosmoEntry} {zMax : ℝ} {name : String} {c : Cosmology}
    {s : Redshift} (hs : Redshift.powerLaw available zMax name = .ok s)
    (hc : available.get? name = some (.fixed c)) {v : ℝ → ℝ}
    (hv : ∀ z, 0 ≤ z → c.diffComovingVolume (fin z) = fin (v z)) (v_pos : ∀ z, 0 < z → 0 < v z)
    (v_zero : 0 ≤ v 0) (l : ℝ) :
    Spec.RateAt s [("lamb", fin l)] (fun z => (1 + z) ^ l) v ∧ s.zMax = zMax := by
  have hz := (redshift_zs hs).2
  have hs' := hs
  unfold Redshift.powerLaw Redshift.init CosmoMixin.init at hs'
  simp only [Dict.get, hc, ok_bind, pure_eq_ok] at hs'
  have := Except.ok.inj hs'
  refine ⟨⟨⟨_, _, _, _, _, hs⟩, ?_, ?_, ⟨c, ?_, hv⟩, ?_, v_pos, v_zero⟩, hz⟩
  · simp [Dict.contains]
  · intro z hz
    rw [← this]
    exact ((C30_powerLaw (lamb := fin l) (by simp [Dict.get?_cons])).2 z l (by linarith) rfl).1
  · rw [← this]; rfl
  · intro z hz
    positivity

/-- The same for the Madau-Dickinson model. -/
theorem rateAt_madauDickinson {available : Dict CosmoEntry} {py : Bool} {zMax : ℝ} {name : String}
    {c : Cosmology} {s : Redshift} (hs : Redshift.madauDickinson available py zMax name = .ok s)
    (hc : available.get? name = some (.fixed c)) {v : ℝ → ℝ}
    (hv : ∀ z, 0 ≤ z → c.diffComovingVolume (fin z) = fin (v z)) (v_pos : ∀ z, 0 < z → 0 < v z)
    (v_zero : 0 ≤ v 0) (g k : ℝ) {zp : ℝ} (hzp : -1 < zp) :
    Spec.RateAt s [("gamma", fin g), ("kappa", fin k), ("z_peak", fin zp)]
      (Spec.madauDickinson g k zp) v ∧ s.zMax = zMax := by
  have hz := (redshift_zs hs).2
  have hs' := hs
  unfold Redshift.madauDickinson Redshift.init CosmoMixin.init at hs'
  simp only [Dict.get, hc, ok_bind, pure_eq_ok] at hs'
  have := Except.ok.inj hs'
  have key := (C30_madauDickinson py (d := [("gamma", fin g), ("kappa", fin k), ("z_peak", fin zp)])
    (g := g) (k := k) (zp := zp) (by simp [Dict.get?_cons]) (by simp [Dict.get?_cons])
    (by simp [Dict.get?_cons]) hzp).1
  refine ⟨⟨⟨_, _, _, _, _, hs⟩, ?_, ?_, ⟨c, ?_, hv⟩, ?_, v_pos, v_zero⟩, hz⟩
  · simp [Dict.contains]
  · intro z hz
    rw [← this]
    exact (key z (by linarith)).1
  · rw [← this]; rfl
  · intro z hz
    exact (key z (by linarith)).2

/-- A toy cosmology for the examples: `dVc/dz = z^2`. -/
def toyCosmology : Cosmology := ⟨fun z => z * z, fun z => z, fun _ => 1, fun d => d⟩

/-- Non-vacuity of C31: a power-law model with slope 2.7. -/
example : ∃ s, Redshift.powerLaw [("Planck15", .fixed toyCosmology)] 2.3 "Planck15" = .ok s ∧
    Spec.RateAt s [("lamb", fin 2.7)] (fun z => (1 + z) ^ (2.7 : ℝ)) (fun z => z * z) ∧
    1e-6 < s.zMax := by
  have hs : ∃ s, Redshift.powerLaw [("Planck15", .fixed toyCosmology)] 2.3 "Planck15" = .ok s := by
    unfold Redshift.powerLaw Redshift.init CosmoMixin.init
    simp only [Dict.get, Dict.get?_cons, if_pos, ok_bind, pure_eq_ok]
    exact ⟨_, rfl⟩
  obtain ⟨s, hs⟩ := hs
  have := rateAt_powerLaw hs (c := toyCosmology) (by simp [Dict.get?_cons]) (v := fun z => z * z)
    (by intro z _; simp [toyCosmology]) (fun z hz => by positivity) (by simp) 2.7
  exact ⟨s, hs, this.1, by rw [this.2]; norm_num⟩

end GW
