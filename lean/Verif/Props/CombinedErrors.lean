import Verif.Props.SmoothedAnyErrors
import Verif.Props.RedshiftErrors

/-!
# C170: groups of parameters that are modelled separately and analysed together
-/

noncomputable section

open MeasureTheory ProbabilityTheory Filter Topology Set

namespace GW

open Fl Spec TruePopulation Posterior GaussianErrors

/-! ## Specification -/

/-- Errors of two groups of measured quantities that do not influence each other. -/
def Spec.separateErrors {X₁ T₁ X₂ T₂ : Type} (l₁ : T₁ → X₁ → ℝ) (l₂ : T₂ → X₂ → ℝ) (d : T₁ × T₂) (x : X₁ × X₂) : ℝ :=
  l₁ d.1 x.1 * l₂ d.2 x.2

/-- `f` is a positive multiple of `g` almost everywhere. -/
def Spec.MultipleOf {X : Type} [MeasurableSpace X] (ν : Measure X) (f g : X → ℝ) : Prop :=
  ∃ k > 0, ∀ᵐ x ∂ν, f x = k * g x

/-! ## Lemmas -/

namespace Combined

section General

variable {X₁ X₂ : Type} [MeasurableSpace X₁] [MeasurableSpace X₂] {ν₁ : Measure X₁} {ν₂ : Measure X₂}
  [SFinite ν₁] [SFinite ν₂] {f f' : X₁ → ℝ} {g g' : X₂ → ℝ}

theorem prod_population (hf : SomePopulation ν₁ f) (hg : SomePopulation ν₂ g) :
    SomePopulation (ν₁.prod ν₂) fun x => f x.1 * g x.2 := by
  refine ⟨(hf.measurable.comp measurable_fst).mul (hg.measurable.comp measurable_snd), ?_,
    hf.integrable.mul_prod hg.integrable, ?_⟩
  · filter_upwards [Measure.quasiMeasurePreserving_fst.ae hf.nonneg,
      Measure.quasiMeasurePreserving_snd.ae hg.nonneg] with x h1 h2
    exact mul_nonneg h1 h2
  · rw [integral_prod_mul]
    exact mul_pos hf.pos hg.pos

omit [SFinite ν₁] in
theorem first_multiple (hg : SomePopulation ν₂ g) (hg' : SomePopulation ν₂ g') {k : ℝ} (hk : 0 < k)
    (h : ∀ᵐ x ∂ν₁.prod ν₂, f x.1 * g x.2 = k * (f' x.1 * g' x.2)) : MultipleOf ν₁ f f' := by
  have p := hg.pos
  have p' := hg'.pos
  refine ⟨k * (∫ y, g' y ∂ν₂) / ∫ y, g y ∂ν₂, by positivity, ?_⟩
  filter_upwards [Measure.ae_ae_of_ae_prod h] with x hx
  have := integral_congr_ae (μ := ν₂) (f := fun y => f x * g y) (g := fun y => k * f' x * g' y)
    (hx.mono fun y hy => by simp only at hy ⊢; linarith)
  rw [integral_const_mul, integral_const_mul] at this
  field_simp
  linarith

theorem second_multiple (hf : SomePopulation ν₁ f) (hf' : SomePopulation ν₁ f') {k : ℝ} (hk : 0 < k)
    (h : ∀ᵐ x ∂ν₁.prod ν₂, f x.1 * g x.2 = k * (f' x.1 * g' x.2)) : MultipleOf ν₂ g g' := by
  have h' : ∀ᵐ z ∂ν₂.prod ν₁, f z.swap.1 * g z.swap.2 = k * (f' z.swap.1 * g' z.swap.2) :=
    Measure.measurePreserving_swap.quasiMeasurePreserving.ae h
  exact first_multiple hf hf' hk (h'.mono fun z hz => by
    simp only [Prod.fst_swap, Prod.snd_swap] at hz
    linarith)

end General

section Redshifts

variable {K : ℝ} {p : ℝ → ℝ}

theorem bounded_some (hK : 0 ≤ K) (h : BoundedPopulation (Ioi 0) K p) :
    SomePopulation (volume.restrict (Ioc 0 K)) p := by
  have hz : ∀ x ∈ Ioi K, p x = 0 := fun x hx => by
    have h1 : K < x := hx
    exact h.zero x (hK.trans_lt h1) (h1.trans_le (le_abs_self x))
  refine ⟨h.measurable, (ae_restrict_iff' measurableSet_Ioc).2 (Eventually.of_forall fun x hx => h.nonneg x hx.1),
    h.integrable.mono_set Ioc_subset_Ioi_self, ?_⟩
  have hp := h.pos
  rw [← Ioc_union_Ioi_eq_Ioi hK, setIntegral_union (by
    rw [Set.disjoint_left]
    exact fun x h1 h2 => absurd h1.2 (not_le.2 h2)) measurableSet_Ioi (h.integrable.mono_set Ioc_subset_Ioi_self)
    (h.integrable.mono_set (Ioi_subset_Ioi hK)), setIntegral_congr_fun measurableSet_Ioi hz, integral_zero,
    add_zero] at hp
  exact hp

theorem everywhere {p' : ℝ → ℝ} (h : BoundedPopulation (Ioi 0) K p) (h' : BoundedPopulation (Ioi 0) K p')
    {k : ℝ} (he : ∀ᵐ z ∂volume.restrict (Ioc 0 K), p z = k * p' z) :
    ∀ᵐ z ∂volume.restrict (Ioi 0), p z = k * p' z := by
  rw [ae_restrict_iff' measurableSet_Ioi]
  filter_upwards [(ae_restrict_iff' measurableSet_Ioc).1 he] with z hz h0
  by_cases hK' : z ≤ K
  · exact hz ⟨h0, hK'⟩
  · have h1 := (not_le.1 hK').trans_le (le_abs_self z)
    rw [h.zero z h0 h1, h'.zero z h0 h1, mul_zero]

end Redshifts

section Masses

open Identifiable Peak SmoothedPeak SmoothedJoint SmoothedTwoPeaks SmoothedAny

variable {b : Backend} {prim : Primary} {fixed : Dict Fl} {selfMin selfMax : ℝ} {nM nQ : ℕ} {cache : Bool} {sm : Smoothed}
  {kw kw' : Dict Fl} {F F' : ℝ → ℝ} {beta lo hi d beta' lo' hi' d' D : ℝ} {p p' : ℝ × ℝ → ℝ}

/-- A smoothed model as a population. -/
theorem masses_population (hsm : Smoothed.init prim fixed selfMin selfMax nM nQ cache = .ok sm) (hself : 0 < selfMin)
    (hlt : selfMin < selfMax) (hk : SmoothedFits b sm kw F beta lo hi d)
    (hp : ∀ m q, 0 < m → m ≤ selfMax → m ≠ lo → 0 < q → q ≤ 1 →
      (Smoothed.call b sm [(fin m, fin q)] kw).1 = .ok [fin (p (m, q))]) (hm : Measurable p) :
    SomePopulation (volume.restrict (Ioc 0 selfMax ×ˢ Ioc 0 1)) p := by
  have hmin : sm.mmin = selfMin := by rw [(init_inv hsm).2.2]
  have hmax : sm.mmax = selfMax := by rw [(init_inv hsm).2.2]
  obtain ⟨N, κ, hN, hκ, hn, e⟩ := any_value hsm hself hlt hk
  exact pairOf_population b (hself.trans_le (hmin ▸ hk.lo_ge)) hk.lo_lt (hmax ▸ hk.hi_le) (H := selfMax)
    ⟨hk.nonneg, hmax ▸ hk.zero, hk.integrable, hk.one⟩ hk.pos hN hκ hn
    (fun x hx hne => Fl.fin.inj (List.cons.inj (Except.ok.inj ((hp x.1 x.2 hx.1.1 hx.1.2 hne hx.2.1
      hx.2.2).symm.trans (e x.1 x.2 hx.1.1 hx.1.2 hne hx.2.1)))).1) hm

/-- Proportional smoothed models have the same parameters. -/
theorem masses_determined (hsm : Smoothed.init prim fixed selfMin selfMax nM nQ cache = .ok sm) (hself : 0 < selfMin)
    (hlt : selfMin < selfMax) (hk : SmoothedFits b sm kw F beta lo hi d) (hk' : SmoothedFits b sm kw' F' beta' lo' hi' d')
    (h : lo + D < hi) (hdD : d ≤ D) (h' : lo' + D < hi') (hdD' : d' ≤ D)
    (hp : ∀ m q, 0 < m → m ≤ selfMax → m ≠ lo → 0 < q → q ≤ 1 →
      (Smoothed.call b sm [(fin m, fin q)] kw).1 = .ok [fin (p (m, q))])
    (hp' : ∀ m q, 0 < m → m ≤ selfMax → m ≠ lo' → 0 < q → q ≤ 1 →
      (Smoothed.call b sm [(fin m, fin q)] kw').1 = .ok [fin (p' (m, q))])
    (hae : MultipleOf (volume.restrict (Ioc 0 selfMax ×ˢ Ioc 0 1)) p p') :
    beta = beta' ∧ lo = lo' ∧ d = d' ∧ ∀ᵐ x : ℝ, F x = F' x := by
  obtain ⟨k, hk0, hae⟩ := hae
  have hmin : sm.mmin = selfMin := by rw [(init_inv hsm).2.2]
  have hmax : sm.mmax = selfMax := by rw [(init_inv hsm).2.2]
  have h0 : 0 < lo := hself.trans_le (hmin ▸ hk.lo_ge)
  have h0' : 0 < lo' := hself.trans_le (hmin ▸ hk'.lo_ge)
  obtain ⟨N, κ, hN, hκ, hn, e⟩ := any_value hsm hself hlt hk
  obtain ⟨N', κ', hN', hκ', hn', e'⟩ := any_value hsm hself hlt hk'
  obtain ⟨e1, e2, e3, hprim⟩ := pairOf_determined (c := 1 / N) (c' := k / N') h0 h hk.pos hk.d_pos hdD h0' h' hk'.pos
    hk'.d_pos hdD' (hmax ▸ hk.hi_le) (hmax ▸ hk'.hi_le) (by positivity) (by positivity)
    (fun m h1 h2 => hκ.trans_le (hn m h1 h2)) (fun m h1 h2 => hκ'.trans_le (hn' m h1 h2))
    (fun (e1 : beta = beta') (e2 : lo = lo') (e3 : d = d') m _ _ => by rw [e1, e2, e3]) (by
      filter_upwards [(ae_restrict_iff' (measurableSet_Ioc.prod measurableSet_Ioc)).1 hae, line lo, line lo'] with
        x hx n1 n2 h1 h2 h3 h4
      have := hx ⟨⟨h1, h2⟩, h3, h4⟩
      have v1 := Fl.fin.inj (List.cons.inj (Except.ok.inj ((hp x.1 x.2 h1 h2 n1 h3 h4).symm.trans
        (e x.1 x.2 h1 h2 n1 h3)))).1
      have v2 := Fl.fin.inj (List.cons.inj (Except.ok.inj ((hp' x.1 x.2 h1 h2 n2 h3 h4).symm.trans
        (e' x.1 x.2 h1 h2 n2 h3)))).1
      rw [Prod.mk.eta] at v1 v2
      rw [v1, v2] at this
      linear_combination this)
  subst e1 e2 e3
  exact ⟨rfl, rfl, rfl, same_density hk.one hk'.one (hmax ▸ hk.zero) (hmax ▸ hk'.zero) h0
    (by positivity) hprim⟩

end Masses

end Combined

open Combined SmoothedAny RedshiftErrors

/-! ## The property -/

/-- **C170.** Two groups of parameters with populations `f j` and `g j`, analysed together: the population of a candidate
is the product, the errors of the groups are separate, and whether an event is detected may depend on all its data at
once. If every other candidate differs from `j₀` in one of its two factors, the posterior is concentrated on `j₀`. -/
theorem C170_product {X₁ T₁ X₂ T₂ J : Type} [MeasurableSpace X₁] [MeasurableSpace T₁] [MeasurableSpace X₂]
    [MeasurableSpace T₂] [Fintype J] {ν₁ : Measure X₁} {η₁ : Measure T₁} {ν₂ : Measure X₂} {η₂ : Measure T₂}
    [SFinite ν₁] [SFinite η₁] [SFinite ν₂] [SFinite η₂] {l₁ : T₁ → X₁ → ℝ} {l₂ : T₂ → X₂ → ℝ} {Det : Set (T₁ × T₂)}
    {f : J → X₁ → ℝ} {g : J → X₂ → ℝ} {j₀ : J} (h₁ : Resolves ν₁ η₁ l₁) (h₂ : Resolves ν₂ η₂ l₂)
    (hD : MeasurableSet Det) (hf : ∀ j, SomePopulation ν₁ (f j)) (hg : ∀ j, SomePopulation ν₂ (g j))
    (hne : ∀ j, j ≠ j₀ → ¬ (MultipleOf ν₁ (f j) (f j₀) ∧ MultipleOf ν₂ (g j) (g j₀))) :
    Recovers (ν₁.prod ν₂) (η₁.prod η₂) (separateErrors l₁ l₂) Det (fun j x => f j x.1 * g j x.2) j₀ :=
  C161_recovers (SeveralErrors.resolves_prod h₁ h₂) hD (fun j => prod_population (hf j) (hg j)) fun j hj _ hk h =>
    hne j hj ⟨first_multiple (hg j) (hg j₀) hk h, second_multiple (hf j) (hf j₀) hk h⟩

/-- **C170.** Masses and redshifts together: for every primary mass model with smoothing and mass ratios, and every rate
of the package, noisy data of sources whose detection depends on masses and redshift at once single out the masses and
the redshifts of the true candidate. -/
theorem C170_masses_rate {J : Type} [Fintype J] {j₀ : J} {b : Backend} {prim : Primary} {fixed : Dict Fl}
    {selfMin selfMax : ℝ} {nM nQ : ℕ} {cache : Bool} {sm : Smoothed} {kw : J → Dict Fl} {F : J → ℝ → ℝ}
    {beta lo hi d : J → ℝ} {D : ℝ} {s : J → Redshift} {φ : J → Dict Fl} {psi : J → ℝ → ℝ} {Z : ℝ} {v : ℝ → ℝ}
    {pm : J → ℝ × ℝ → ℝ} {pz : J → ℝ → ℝ} {v₁ v₂ w : NNReal} {Det : Set ((ℝ × ℝ) × ℝ)}
    (hsm : Smoothed.init prim fixed selfMin selfMax nM nQ cache = .ok sm) (hself : 0 < selfMin)
    (hlt : selfMin < selfMax) (hk : ∀ j, SmoothedFits b sm (kw j) (F j) (beta j) (lo j) (hi j) (d j))
    (h : ∀ j, lo j + D < hi j) (hdD : ∀ j, d j ≤ D)
    (hr : ∀ j, RateAt (s j) (φ j) (psi j) v) (hz : ∀ j, 1e-6 < (s j).zMax) (hZ : ∀ j, (s j).zMax ≤ Z)
    (hcont : ∀ j, ContinuousOn (psi j) (Ici 0)) (v_cont : ContinuousOn v (Ici 0))
    (hinj : ∀ j, j ≠ j₀ → ¬ ((beta j = beta j₀ ∧ lo j = lo j₀ ∧ d j = d j₀ ∧ ∀ᵐ x : ℝ, F j x = F j₀ x) ∧
      SamePopulation (Ioi 0) (fun z => (s j₀).probability [("redshift", fin z)] (φ j₀))
        (fun z => (s j).probability [("redshift", fin z)] (φ j))))
    (hp : ∀ j m q, 0 < m → m ≤ selfMax → m ≠ lo j → 0 < q → q ≤ 1 →
      (Smoothed.call b sm [(fin m, fin q)] (kw j)).1 = .ok [fin (pm j (m, q))])
    (hpz : ∀ j z, 0 ≤ z → (s j).probability [("redshift", fin z)] (φ j) = .ok (fin (pz j z)))
    (hm : ∀ j, Measurable (pm j)) (hmz : ∀ j, Measurable (pz j)) (hv₁ : v₁ ≠ 0) (hv₂ : v₂ ≠ 0) (hw : w ≠ 0)
    (hDet : MeasurableSet Det) :
    Recovers ((volume.restrict (Ioc 0 selfMax ×ˢ Ioc 0 1)).prod (volume.restrict (Ioc 0 Z))) (volume.prod volume)
      (separateErrors (gaussianErrors2 v₁ v₂) (gaussianErrors w)) Det (fun j x => pm j x.1 * pz j x.2) j₀ := by
  have hZ0 : 0 ≤ Z := by linarith [hz j₀, hZ j₀]
  have hKM : ∀ x ∈ Ioc 0 selfMax, |x| ≤ max selfMax 1 := fun x hx => by
    rw [abs_of_pos hx.1]; exact hx.2.trans (le_max_left _ _)
  have hK1 : ∀ x ∈ Ioc (0 : ℝ) 1, |x| ≤ max selfMax 1 := fun x hx => by
    rw [abs_of_pos hx.1]; exact hx.2.trans (le_max_right _ _)
  have hb : ∀ j, BoundedPopulation (Ioi 0) Z (pz j) := fun j => rate_bounded (hr j) (hz j) (hcont j) v_cont
    (hpz j) (hmz j) (hZ j)
  exact C170_product (SeveralErrors.resolves_two hv₁ hv₂ measurableSet_Ioc measurableSet_Ioc hKM hK1
    (zero_le_one.trans (le_max_right _ _))) (SeveralErrors.resolves_gaussian hw measurableSet_Ioc (K := Z) (fun x hx => by
      rw [abs_of_pos hx.1]; exact hx.2) hZ0) hDet
    (fun j => masses_population hsm hself hlt (hk j) (hp j) (hm j)) (fun j => bounded_some hZ0 (hb j))
    fun j hj ⟨hM, k, hk0, he⟩ => hinj j hj ⟨masses_determined hsm hself hlt (hk j) (hk j₀) (h j) (hdD j) (h j₀) (hdD j₀)
      (hp j) (hp j₀) hM, proportional (hr j₀) (hr j) (hz j₀) (hz j) (hcont j₀) (hcont j) (hpz j₀) (hpz j) hk0
        (everywhere (hb j) (hb j₀) he)⟩

/-- **C170** for masses and the power law in redshift. -/
theorem C170_masses_redshift {J : Type} [Fintype J] {j₀ : J} {b : Backend} {prim : Primary} {fixed : Dict Fl}
    {selfMin selfMax : ℝ} {nM nQ : ℕ} {cache : Bool} {sm : Smoothed} {kw : J → Dict Fl} {F : J → ℝ → ℝ}
    {beta lo hi d : J → ℝ} {D : ℝ} {available : Dict CosmoEntry} {name : String} {c : Cosmology} {s : J → Redshift}
    {lamb zMax : J → ℝ} {Z : ℝ} {v : ℝ → ℝ} {pm : J → ℝ × ℝ → ℝ} {pz : J → ℝ → ℝ} {v₁ v₂ w : NNReal}
    {Det : Set ((ℝ × ℝ) × ℝ)}
    (hsm : Smoothed.init prim fixed selfMin selfMax nM nQ cache = .ok sm) (hself : 0 < selfMin)
    (hlt : selfMin < selfMax) (hk : ∀ j, SmoothedFits b sm (kw j) (F j) (beta j) (lo j) (hi j) (d j))
    (h : ∀ j, lo j + D < hi j) (hdD : ∀ j, d j ≤ D)
    (hs : ∀ j, Redshift.powerLaw available (zMax j) name = .ok (s j))
    (hc : available.get? name = some (.fixed c))
    (hv : ∀ z, 0 ≤ z → c.diffComovingVolume (fin z) = fin (v z)) (v_pos : ∀ z, 0 < z → 0 < v z) (v_zero : 0 ≤ v 0)
    (v_cont : ContinuousOn v (Ici 0)) (hz : ∀ j, 1e-6 < zMax j) (hZ : ∀ j, zMax j ≤ Z)
    (hinj : ∀ j, j ≠ j₀ → ¬ ((beta j = beta j₀ ∧ lo j = lo j₀ ∧ d j = d j₀ ∧ ∀ᵐ x : ℝ, F j x = F j₀ x) ∧
      lamb j = lamb j₀ ∧ zMax j = zMax j₀))
    (hp : ∀ j m q, 0 < m → m ≤ selfMax → m ≠ lo j → 0 < q → q ≤ 1 →
      (Smoothed.call b sm [(fin m, fin q)] (kw j)).1 = .ok [fin (pm j (m, q))])
    (hpz : ∀ j z, 0 ≤ z → (s j).probability [("redshift", fin z)] [("lamb", fin (lamb j))] = .ok (fin (pz j z)))
    (hm : ∀ j, Measurable (pm j)) (hmz : ∀ j, Measurable (pz j)) (hv₁ : v₁ ≠ 0) (hv₂ : v₂ ≠ 0) (hw : w ≠ 0)
    (hDet : MeasurableSet Det) :
    Recovers ((volume.restrict (Ioc 0 selfMax ×ˢ Ioc 0 1)).prod (volume.restrict (Ioc 0 Z))) (volume.prod volume)
      (separateErrors (gaussianErrors2 v₁ v₂) (gaussianErrors w)) Det (fun j x => pm j x.1 * pz j x.2) j₀ := by
  have hr := fun j => rateAt_powerLaw (hs j) hc hv v_pos v_zero (lamb j)
  refine C170_masses_rate hsm hself hlt hk h hdD (fun j => (hr j).1) (fun j => (hr j).2 ▸ hz j) (fun j => (hr j).2 ▸ hZ j)
    (fun j x hx => ?_) v_cont (fun j hj ⟨hM, hsame⟩ => hinj j hj ⟨hM, ?_⟩) hp hpz hm hmz hv₁ hv₂ hw hDet
  · exact ((continuousAt_const.add continuousAt_id).rpow_const (Or.inl (by
      have : (0 : ℝ) ≤ x := hx
      show (1 : ℝ) + x ≠ 0
      linarith))).continuousWithinAt
  · obtain ⟨e1, e2⟩ := C156_lamb (hs j₀) (hs j) hc hv v_pos v_zero (hz j₀) (hz j) hsame
    exact ⟨e1.symm, e2.symm⟩

/-- **C170** for masses and the Madau-Dickinson rate. -/
theorem C170_masses_madauDickinson {J : Type} [Fintype J] {j₀ : J} {b : Backend} {prim : Primary} {fixed : Dict Fl}
    {selfMin selfMax : ℝ} {nM nQ : ℕ} {cache : Bool} {sm : Smoothed} {kw : J → Dict Fl} {F : J → ℝ → ℝ}
    {beta lo hi d : J → ℝ} {D : ℝ} {available : Dict CosmoEntry} {py : Bool} {name : String} {c : Cosmology}
    {s : J → Redshift} {gamma kappa zPeak zMax : J → ℝ} {Z : ℝ} {v : ℝ → ℝ} {pm : J → ℝ × ℝ → ℝ} {pz : J → ℝ → ℝ}
    {v₁ v₂ w : NNReal} {Det : Set ((ℝ × ℝ) × ℝ)}
    (hsm : Smoothed.init prim fixed selfMin selfMax nM nQ cache = .ok sm) (hself : 0 < selfMin)
    (hlt : selfMin < selfMax) (hk : ∀ j, SmoothedFits b sm (kw j) (F j) (beta j) (lo j) (hi j) (d j))
    (h : ∀ j, lo j + D < hi j) (hdD : ∀ j, d j ≤ D)
    (hs : ∀ j, Redshift.madauDickinson available py (zMax j) name = .ok (s j))
    (hc : available.get? name = some (.fixed c))
    (hv : ∀ z, 0 ≤ z → c.diffComovingVolume (fin z) = fin (v z)) (v_pos : ∀ z, 0 < z → 0 < v z) (v_zero : 0 ≤ v 0)
    (v_cont : ContinuousOn v (Ici 0)) (hz : ∀ j, 1e-6 < zMax j) (hZ : ∀ j, zMax j ≤ Z) (hka : ∀ j, 0 < kappa j)
    (hzp : ∀ j, -1 < zPeak j)
    (hinj : ∀ j, j ≠ j₀ → ¬ ((beta j = beta j₀ ∧ lo j = lo j₀ ∧ d j = d j₀ ∧ ∀ᵐ x : ℝ, F j x = F j₀ x) ∧
      gamma j = gamma j₀ ∧ kappa j = kappa j₀ ∧ zPeak j = zPeak j₀ ∧ zMax j = zMax j₀))
    (hp : ∀ j m q, 0 < m → m ≤ selfMax → m ≠ lo j → 0 < q → q ≤ 1 →
      (Smoothed.call b sm [(fin m, fin q)] (kw j)).1 = .ok [fin (pm j (m, q))])
    (hpz : ∀ j z, 0 ≤ z → (s j).probability [("redshift", fin z)]
      [("gamma", fin (gamma j)), ("kappa", fin (kappa j)), ("z_peak", fin (zPeak j))] = .ok (fin (pz j z)))
    (hm : ∀ j, Measurable (pm j)) (hmz : ∀ j, Measurable (pz j)) (hv₁ : v₁ ≠ 0) (hv₂ : v₂ ≠ 0) (hw : w ≠ 0)
    (hDet : MeasurableSet Det) :
    Recovers ((volume.restrict (Ioc 0 selfMax ×ˢ Ioc 0 1)).prod (volume.restrict (Ioc 0 Z))) (volume.prod volume)
      (separateErrors (gaussianErrors2 v₁ v₂) (gaussianErrors w)) Det (fun j x => pm j x.1 * pz j x.2) j₀ := by
  have hr := fun j => rateAt_madauDickinson (hs j) hc hv v_pos v_zero (gamma j) (kappa j) (hzp j)
  refine C170_masses_rate hsm hself hlt hk h hdD (fun j => (hr j).1) (fun j => (hr j).2 ▸ hz j) (fun j => (hr j).2 ▸ hZ j)
    (fun j => Identifiable.madau_cont _ _ (hzp j)) v_cont (fun j hj ⟨hM, hsame⟩ => hinj j hj ⟨hM, ?_⟩) hp hpz hm hmz hv₁ hv₂
    hw hDet
  obtain ⟨e1, e2, e3, e4⟩ := C156_madau (hs j₀) (hs j) hc hv v_pos v_zero (hz j₀) (hz j) (hka j₀) (hka j) (hzp j₀)
    (hzp j) hsame
  exact ⟨e1.symm, e2.symm, e3.symm, e4.symm⟩

/-! ## Non-vacuity -/

open SmoothedTwoPeaks SmoothedJoint SmoothedPeak in
/-- An instance of the smoothed broken power law, with two ranges of the smoothing. -/
theorem Combined.some_masses (py cache : Bool) : ∃ (sm : Smoothed) (pm : Bool → ℝ × ℝ → ℝ),
    brokenPowerLaw py 2 100 1000 500 cache = .ok sm ∧
    (∀ j : Bool, SmoothedFits .numpy sm (brokenCall 1.6 5.6 1.1 5 85 0.4 (if j then 4.8 else 5))
      (Spec.normalised (brokenShape 1.6 5.6 (5 + 0.4 * (85 - 5))) 5 85) 1.1 5 85 (if j then 4.8 else 5)) ∧
    (∀ j, Measurable (pm j)) ∧
    ∀ (j : Bool) m q, 0 < m → m ≤ 100 → m ≠ 5 → 0 < q → q ≤ 1 → (Smoothed.call .numpy sm [(fin m, fin q)]
      (brokenCall 1.6 5.6 1.1 5 85 0.4 (if j then 4.8 else 5))).1 = .ok [fin (pm j (m, q))] := by
  obtain ⟨d, hde⟩ : ∃ a : Bool → ℝ, a = fun j => if j then 4.8 else 5 := ⟨_, rfl⟩
  have d0 : ∀ j, 0 < d j := fun j => by cases j <;> norm_num [hde]
  have d1 : ∀ j, d j ≤ 5 := fun j => by cases j <;> norm_num [hde]
  obtain ⟨sm, hsm⟩ : ∃ sm, brokenPowerLaw py 2 100 1000 500 cache = .ok sm :=
    ⟨_, init_ok (primDoublePowerLaw py) [] 2 100 (nM := 1000) (nQ := 500) cache (by norm_num) (by norm_num)⟩
  have hms : sm.m1s = Arr.linspaceR 2 100 1000 := by
    have := (init_inv hsm).2.2
    rw [this]
  have hlen : 2 ≤ sm.m1s.length := by rw [hms, linspaceR_length]; norm_num
  have hnode : ∃ m ∈ sm.m1s, (5 : ℝ) < m ∧ m < 85 := by
    rw [hms]
    unfold Arr.linspaceR
    exact ⟨_, List.mem_map.2 ⟨100, List.mem_range.2 (by norm_num), rfl⟩, by norm_num, by norm_num⟩
  have hgrid : (5 : ℝ) ∉ sm.m1s := by
    rw [hms]
    unfold Arr.linspaceR
    intro hh
    obtain ⟨i, -, hi⟩ := List.mem_map.1 hh
    have h2 : (98 : ℝ) * i = 2997 := by
      norm_num at hi
      linarith
    have h3 : 98 * i = 2997 := by exact_mod_cast h2
    omega
  choose N κ hN hκ hn e using fun j => any_value hsm (by norm_num) (by norm_num) (broken_fits (b := .numpy) (a1 := 1.6)
    (a2 := 5.6) (beta := 1.1) (lo := 5) (hi := 85) (bf := 0.4) py hsm (by norm_num) (Or.inr (by norm_num)) (Or.inr (by norm_num))
    (by norm_num) (by norm_num) (by norm_num) (by norm_num) (by norm_num) (d0 j) hnode hgrid)
  have hm : ∀ j, Measurable fun x : ℝ × ℝ => pairOf (Spec.normalised (brokenShape 1.6 5.6 (5 + 0.4 * (85 - 5))) 5 85) 1.1 5
      (d j) 100 (normAt .numpy sm 1.1 5 (d j)) x.1 x.2 / N j := fun j => by
    refine Measurable.div_const ?_ _
    unfold pairOf
    refine Measurable.ite (measurableSet_lt measurable_const measurable_fst) (Measurable.mul (Measurable.mul ?_ ?_)
      (Measurable.div ?_ ((normAt_measurable .numpy hlen _ _ _).comp measurable_fst))) measurable_const
    · have : Measurable (Spec.normalised (brokenShape 1.6 5.6 (5 + 0.4 * (85 - 5))) 5 85) := by
        unfold Spec.normalised brokenShape
        exact Measurable.ite measurableSet_Icc (Measurable.div_const (Measurable.ite measurableSet_Iio
          ((measurable_id.div_const _).pow_const _) ((measurable_id.div_const _).pow_const _)) _) measurable_const
      exact this.comp measurable_fst
    · have : Measurable (window 5 100 (d j)) := by
        unfold window
        exact Measurable.ite measurableSet_Icc
          (taper_continuous.measurable.comp ((measurable_id.sub_const _).div_const _)) measurable_const
      exact this.comp measurable_fst
    · unfold shape
      refine Measurable.mul ?_ ?_
      · unfold Spec.normalised
        refine Measurable.ite ((measurableSet_le (measurable_const.div measurable_fst) measurable_snd).inter
          (measurableSet_le measurable_snd measurable_const)) ((measurable_snd.pow_const _).div ?_) measurable_const
        exact (integral_rpow_measurable 1.1).comp (measurable_const.div measurable_fst)
      · unfold window
        exact Measurable.ite ((measurableSet_le measurable_const (measurable_fst.mul measurable_snd)).inter
          (measurableSet_le (measurable_fst.mul measurable_snd) measurable_fst))
          (taper_continuous.measurable.comp (((measurable_fst.mul measurable_snd).sub_const _).div_const _))
          measurable_const
  refine ⟨sm, _, hsm, fun j => ?_, hm, fun j m q h1 h2 h3 h4 _ => by rw [← e j m q h1 h2 h3 h4, hde]⟩
  have := d0 j
  rw [hde] at this
  exact broken_fits py hsm (by norm_num) (Or.inr (by norm_num)) (Or.inr (by norm_num)) (by norm_num) (by norm_num)
    (by norm_num) (by norm_num) (by norm_num) this hnode hgrid

/-- Two power laws in redshift. -/
theorem Combined.some_rates : ∃ (s : Bool → Redshift) (pz : Bool → ℝ → ℝ),
    (∀ j, Redshift.powerLaw [("Planck15", .fixed toyCosmology)] (if j then 2.3 else 1.9) "Planck15" = .ok (s j)) ∧
    (∀ j, Measurable (pz j)) ∧ ∀ j z, 0 ≤ z →
      (s j).probability [("redshift", fin z)] [("lamb", fin (if j then 2.7 else 3))] = .ok (fin (pz j z)) := by
  have hg : Dict.get? [("Planck15", CosmoEntry.fixed toyCosmology)] "Planck15" = some (.fixed toyCosmology) := by
    simp [Dict.get?_cons]
  have hs : ∀ j : Bool, ∃ s, Redshift.powerLaw [("Planck15", .fixed toyCosmology)] (if j then 2.3 else 1.9)
    "Planck15" = .ok s := fun j => ⟨_, rfl⟩
  choose s hs using hs
  have hz : ∀ j : Bool, (1e-6 : ℝ) < if j then 2.3 else 1.9 := fun j => by cases j <;> norm_num
  have hr := fun j : Bool => rateAt_powerLaw (hs j) hg (v := fun z => z * z) (fun z _ => by simp [toyCosmology])
    (fun z hz => by positivity) (by norm_num) (if j then 2.7 else 3)
  have hM : ∀ j : Bool, ∃ M : ℝ, ∀ z, 0 ≤ z →
      (s j).probability [("redshift", fin z)] [("lamb", fin (if j then 2.7 else 3))] =
        .ok (fin (if z ≤ if j then 2.3 else 1.9 then
          volumeElement (fun z => (1 + z) ^ (if j then 2.7 else 3 : ℝ)) (fun z => z * z) z / M else 0)) := fun j => by
    obtain ⟨hra, hzm⟩ := hr j
    obtain ⟨N, -, h1, -, -⟩ := C31_probability hra (by rw [hzm]; exact hz j)
    rw [hzm] at h1
    exact ⟨N, fun z hz => h1 _ z hz (by simp [Dict.get?_cons])⟩
  choose M hM using hM
  have hmz : ∀ j : Bool, Measurable fun z : ℝ => if z ≤ if j then 2.3 else 1.9 then
      volumeElement (fun z => (1 + z) ^ (if j then 2.7 else 3 : ℝ)) (fun z => z * z) z / M j else 0 := fun j => by
    refine Measurable.ite measurableSet_Iic ?_ measurable_const
    unfold volumeElement
    fun_prop
  exact ⟨s, _, hs, hmz, hM⟩

/-- Candidates for the range of the smoothing and for the exponent and the largest redshift; heavy and close sources are
detected. -/
example (py cache : Bool) {v₁ v₂ w : NNReal} (hv₁ : v₁ ≠ 0) (hv₂ : v₂ ≠ 0) (hw : w ≠ 0) :
    ∃ (sm : Smoothed) (s : Bool → Redshift) (pm : Bool → ℝ × ℝ → ℝ) (pz : Bool → ℝ → ℝ),
    brokenPowerLaw py 2 100 1000 500 cache = .ok sm ∧
    (∀ j, Redshift.powerLaw [("Planck15", .fixed toyCosmology)] (if j then 2.3 else 1.9) "Planck15" = .ok (s j)) ∧
    (∀ j m q, 0 < m → m ≤ 100 → m ≠ 5 → 0 < q → q ≤ 1 → (Smoothed.call .numpy sm [(fin m, fin q)]
      (brokenCall 1.6 5.6 1.1 5 85 0.4 (if j then 4.8 else 5))).1 = .ok [fin (pm j (m, q))]) ∧
    (∀ j z, 0 ≤ z → (s j).probability [("redshift", fin z)] [("lamb", fin (if j then 2.7 else 3))] = .ok (fin (pz j z))) ∧
    Recovers ((volume.restrict (Ioc 0 100 ×ˢ Ioc 0 1)).prod (volume.restrict (Ioc 0 2.3))) (volume.prod volume)
      (separateErrors (gaussianErrors2 v₁ v₂) (gaussianErrors w)) {d | 20 * d.2 < d.1.1}
      (fun (j : Bool × Bool) x => pm j.1 x.1 * pz j.2 x.2) (true, true) := by
  obtain ⟨sm, pm, hsm, hk, hm, hp⟩ := some_masses py cache
  obtain ⟨s, pz, hs, hmz, hpz⟩ := some_rates
  have hg : Dict.get? [("Planck15", CosmoEntry.fixed toyCosmology)] "Planck15" = some (.fixed toyCosmology) := by
    simp [Dict.get?_cons]
  have hz : ∀ j : Bool, (1e-6 : ℝ) < if j then 2.3 else 1.9 := fun j => by cases j <;> norm_num
  have hZ : ∀ j : Bool, (if j then 2.3 else 1.9 : ℝ) ≤ 2.3 := fun j => by cases j <;> norm_num
  refine ⟨sm, s, pm, pz, hsm, hs, hp, hpz, ?_⟩
  have d1 : ∀ j : Bool × Bool, (if j.1 then 4.8 else 5 : ℝ) ≤ 5 := fun j => by rcases j with ⟨_ | _, _⟩ <;> norm_num
  refine C170_masses_redshift (J := Bool × Bool) (b := .numpy) (sm := sm) (D := 5) (pm := fun j => pm j.1)
    (pz := fun j => pz j.2) (s := fun j => s j.2) (lo := fun _ => 5) (hi := fun _ => 85) (beta := fun _ => 1.1)
    (d := fun j => if j.1 then 4.8 else 5) (kw := fun j => brokenCall 1.6 5.6 1.1 5 85 0.4 (if j.1 then 4.8 else 5))
    (F := fun _ => Spec.normalised (brokenShape 1.6 5.6 (5 + 0.4 * (85 - 5))) 5 85)
    (zMax := fun j => if j.2 then 2.3 else 1.9) (lamb := fun j => if j.2 then 2.7 else 3) (v := fun z => z * z)
    hsm ?_ ?_ ?_ ?_ d1 ?_ hg ?_ ?_ ?_ ?_ ?_ ?_ ?_ ?_ ?_ ?_ ?_ hv₁ hv₂ hw ?_
  · norm_num
  · norm_num
  · exact fun j => hk j.1
  · exact fun _ => by norm_num
  · exact fun j => hs j.2
  · exact fun z _ => by simp [toyCosmology]
  · exact fun z hz => by positivity
  · norm_num
  · fun_prop
  · exact fun j => hz j.2
  · exact fun j => hZ j.2
  · rintro ⟨j1, j2⟩ hj ⟨⟨-, -, h1, -⟩, h2, -⟩
    cases j1 <;> cases j2 <;> first | exact absurd rfl hj | (norm_num at h1; done) | (norm_num at h2; done)
  · exact fun j => hp j.1
  · exact fun j => hpz j.2
  · exact fun j => hm j.1
  · exact fun j => hmz j.2
  · exact measurableSet_lt (measurable_snd.const_mul _) (measurable_fst.comp measurable_fst)

end GW
