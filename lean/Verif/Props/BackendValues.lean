import Verif.Props.SmoothedHistory
import Verif.Props.Spin
import Verif.Model.InterpPowerlaw

/-!
# C83: the models return the same values on every backend
-/

noncomputable section

open Classical

namespace GW

open Fl

/-! ## Specification -/

/-- A computation does not depend on the backend: numpy and cupy have the same outcome, and whenever they
return a value jax returns the same value. (jax does not check arguments, so that it may also return a value where
the others raise.) -/
def Spec.SameValues {α : Type} (f : Backend → Except PyErr α) : Prop :=
  f .cupy = f .numpy ∧ ∀ v, f .numpy = .ok v → f .jax = .ok v

open Spec

/-! ## Closure properties -/

theorem Spec.SameValues.const {α : Type} (x : Except PyErr α) : SameValues fun _ => x :=
  ⟨rfl, fun _ h => h⟩

theorem Spec.SameValues.bind {α β : Type} {f : Backend → Except PyErr α} {g : Backend → α → Except PyErr β}
    (hf : SameValues f) (hg : ∀ a, SameValues fun b => g b a) : SameValues fun b => f b >>= g b := by
  constructor
  · show f .cupy >>= g .cupy = f .numpy >>= g .numpy
    rw [hf.1]
    cases f .numpy with
    | error e => rfl
    | ok a => exact (hg a).1
  · intro v h
    obtain ⟨a, ha, hv⟩ := bind_eq_ok.1 h
    show f .jax >>= g .jax = _
    rw [hf.2 a ha]
    exact (hg a).2 v hv

theorem Spec.SameValues.mapM {α β : Type} {f : Backend → α → Except PyErr β}
    (hf : ∀ a, SameValues fun b => f b a) (l : List α) : SameValues fun b => l.mapM (f b) := by
  induction l with
  | nil => exact ⟨rfl, fun _ h => h⟩
  | cons a l ih =>
    simp only [List.mapM_cons]
    exact .bind (hf a) fun _ => .bind ih fun _ => .const _

theorem Spec.SameValues.congr {α : Type} {f g : Backend → Except PyErr α} (hf : SameValues f)
    (h : ∀ b, f b = g b) : SameValues g := by
  have : f = g := funext h
  rwa [← this]

theorem Spec.SameValues.applyConditions {β : Type} (conds : List (String × Cond)) (kwargs : Dict (List Fl))
    (body : Except PyErr β) : SameValues fun b => applyConditions b conds kwargs body := by
  constructor
  · rfl
  · intro v h
    unfold GW.applyConditions at h ⊢
    simp only [reduceCtorEq, if_false] at h
    simp only [if_true]
    obtain ⟨-, -, h⟩ := bind_eq_ok.1 h
    exact h

/-! ## The densities -/

/-- **C83** for the densities of `gwpopulation.utils`, for all floats and calling conventions. -/
theorem C83_utils_partial (junk : Fl → Fl → Fl) (py : Bool) (x a b c d : Arg) :
    SameValues (fun bk => betaDist junk bk x a b c) ∧ SameValues (fun bk => powerlaw bk py x a b c) ∧
    SameValues (fun bk => truncnorm bk x a b c d) :=
  ⟨.applyConditions _ _ _, .applyConditions _ _ _, .applyConditions _ _ _⟩

theorem Spec.SameValues.powerlaw (py : Bool) (x a b c : Arg) :
    SameValues fun bk => powerlaw bk py x a b c := .applyConditions _ _ _

theorem Spec.SameValues.truncnorm (x a b c d : Arg) :
    SameValues fun bk => truncnorm bk x a b c d := .applyConditions _ _ _

theorem Spec.SameValues.betaDist (junk : Fl → Fl → Fl) (x a b c : Arg) :
    SameValues fun bk => betaDist junk bk x a b c := .applyConditions _ _ _

theorem Spec.SameValues.doublePowerLaw (py : Bool) (m a1 a2 lo hi f : Fl) :
    SameValues fun b => doublePowerLawPrimaryMass b py m a1 a2 lo hi f :=
  .bind (.powerlaw ..) fun _ => .bind (.powerlaw ..) fun _ => .bind (.powerlaw ..) fun _ =>
    .bind (.powerlaw ..) fun _ => .const _

theorem Spec.SameValues.twoComponentSingle (py : Bool) (m a lo hi l mu s g : Fl) :
    SameValues fun b => twoComponentSingle b py m a lo hi l mu s g :=
  .bind (.powerlaw ..) fun _ => .bind (.truncnorm ..) fun _ => .const _

theorem Spec.SameValues.threeComponentSingle (py : Bool) (m a lo hi l l1 mu1 s1 mu2 s2 g : Fl) :
    SameValues fun b => threeComponentSingle b py m a lo hi l l1 mu1 s1 mu2 s2 g :=
  .bind (.powerlaw ..) fun _ => .bind (.truncnorm ..) fun _ => .bind (.truncnorm ..) fun _ => .const _

theorem Spec.SameValues.doublePowerLawPeak (py : Bool) (m a1 a2 lo hi f l mu s g : Fl) :
    SameValues fun b => doublePowerLawPeakPrimaryMass b py m a1 a2 lo hi f l mu s g :=
  .bind (.doublePowerLaw ..) fun _ => .bind (.truncnorm ..) fun _ => .const _

theorem Spec.SameValues.massRatioFactor (q be lo m : Fl) :
    SameValues fun b => massRatioFactor b q be lo m := .powerlaw ..

/-- **C83** for the functional mass models. -/
theorem C83_mass_partial (py : Bool) (m m2 q a a2 be lo hi f l l1 mu1 s1 mu2 s2 g : Fl) :
    SameValues (fun b => doublePowerLawPrimaryMass b py m a a2 lo hi f) ∧
    SameValues (fun b => doublePowerLawPeakPrimaryMass b py m a a2 lo hi f l mu1 s1 g) ∧
    SameValues (fun b => doublePowerLawPrimaryPowerLawMassRatio b py m q a a2 be lo hi f) ∧
    SameValues (fun b => powerLawMass b py m a lo hi) ∧
    SameValues (fun b => twoComponentSingle b py m a lo hi l mu1 s1 g) ∧
    SameValues (fun b => threeComponentSingle b py m a lo hi l l1 mu1 s1 mu2 s2 g) ∧
    SameValues (fun b => twoComponentPrimaryMassRatio b py m q a be lo hi l mu1 s1 g) ∧
    SameValues (fun b => powerLawPrimaryMassRatio b py m q a be lo hi) ∧
    SameValues (fun b => powerLawPrimarySecondaryIndependent b py m m2 a be lo hi) ∧
    SameValues (fun b => powerLawPrimarySecondaryIdentical b py m m2 a lo hi) ∧
    SameValues (fun b => twoComponentPrimarySecondaryIndependent b py m m2 a be lo hi l mu1 s1 g) ∧
    SameValues (fun b => twoComponentPrimarySecondaryIdentical b py m m2 a lo hi l mu1 s1 g) :=
  ⟨.doublePowerLaw .., .doublePowerLawPeak .., .bind (.doublePowerLaw ..) fun _ =>
      .bind (.massRatioFactor ..) fun _ => .const _, .powerlaw .., .twoComponentSingle ..,
    .threeComponentSingle .., .bind (.twoComponentSingle ..) fun _ =>
      .bind (.massRatioFactor ..) fun _ => .const _, .bind (.twoComponentSingle ..) fun _ =>
      .bind (.massRatioFactor ..) fun _ => .const _,
    .bind (.powerlaw ..) fun _ => .bind (.powerlaw ..) fun _ => .const _,
    .bind (.powerlaw ..) fun _ => .bind (.powerlaw ..) fun _ => .const _,
    .bind (.twoComponentSingle ..) fun _ => .bind (.twoComponentSingle ..) fun _ => .const _,
    .bind (.twoComponentSingle ..) fun _ => .bind (.twoComponentSingle ..) fun _ => .const _⟩

theorem Spec.SameValues.magnitude (junk : Fl → Fl → Fl) (d : Dict Fl) (a1 a2 b1 b2 m1 m2 : Fl) :
    SameValues fun b => independentSpinMagnitudeBeta junk b d a1 a2 b1 b2 m1 m2 :=
  .bind (.const _) fun _ => .bind (.betaDist ..) fun _ => .bind (.const _) fun _ =>
    .bind (.betaDist ..) fun _ => .const _

theorem Spec.SameValues.orientation (d : Dict Fl) (xi s1 s2 mu1 mu2 : Fl) :
    SameValues fun b => independentSpinOrientation b d xi s1 s2 mu1 mu2 :=
  .bind (.const _) fun _ => .bind (.truncnorm ..) fun _ => .bind (.const _) fun _ =>
    .bind (.truncnorm ..) fun _ => .const _

/-- **C83** for the spin models. -/
theorem C83_spin_partial (junk : Fl → Fl → Fl) (d : Dict Fl) (a1 a2 b1 b2 m1 m2 xi s1 s2 mu1 mu2 : Fl) :
    SameValues (fun b => independentSpinMagnitudeBeta junk b d a1 a2 b1 b2 m1 m2) ∧
    SameValues (fun b => iidSpinMagnitudeBeta junk b d m1 a1 b1) ∧
    SameValues (fun b => independentSpinOrientation b d xi s1 s2 mu1 mu2) ∧
    SameValues (fun b => iidSpinOrientation b d xi s1 mu1) ∧
    SameValues (fun b => iidSpin junk b d xi s1 m1 a1 b1) ∧
    SameValues (fun b => gaussianChiEff b d mu1 s1) ∧ SameValues (fun b => gaussianChiP b d mu1 s1) :=
  ⟨.magnitude .., .magnitude .., .orientation .., .orientation ..,
    .bind (.orientation ..) fun _ => .bind (.magnitude ..) fun _ => .const _,
    .bind (.const _) fun _ => .truncnorm .., .bind (.const _) fun _ => .truncnorm ..⟩

/-! ## The smoothed mass models -/

/-- The smoothing window does not depend on the backend if the width is positive. -/
theorem smoothing_same {d : Fl} (hd : 0 < d) (b : Backend) (m lo hi : Fl) :
    smoothing b m lo hi d = smoothing .numpy m lo hi d := by
  unfold smoothing
  rw [if_pos (.inr hd), if_pos (.inr hd)]

/-- The primary-mass models of the package. -/
def Spec.PackagePrimary (primary : Primary) : Prop :=
  ∃ py, primary = primTwoComponent py ∨ primary = primThreeComponent py ∨
    primary = primDoublePowerLaw py ∨ primary = primDoublePowerLawPeak py ∨ primary = primPowerLaw py

theorem Spec.SameValues.primary {primary : Primary} (h : PackagePrimary primary) (kwargs : Dict Fl) (m : Fl) :
    SameValues fun b => primary b kwargs m := by
  obtain ⟨py, rfl | rfl | rfl | rfl | rfl⟩ := h
  · exact .bind (.const _) fun _ => .twoComponentSingle ..
  · exact .bind (.const _) fun _ => .threeComponentSingle ..
  · exact .bind (.const _) fun _ => .doublePowerLaw ..
  · exact .bind (.const _) fun _ => .doublePowerLawPeak ..
  · exact .bind (.const _) fun _ => .powerlaw ..

theorem eqf_zero_of_pos {d : Fl} (hd : 0 < d) : ¬ eqf d 0 := by
  cases d <;> simp_all [eqf]
  · exact fun h => by simp [h] at hd

theorem Spec.SameValues.broadcast (op : Fl → Fl → Fl) (xs ys : List Fl) :
    SameValues fun b => Smoothed.broadcast b op xs ys := by
  refine ⟨rfl, fun v h => ?_⟩
  unfold Smoothed.broadcast at h ⊢
  beta_reduce at h ⊢
  by_cases hl : xs.length = ys.length
  · rw [if_pos hl] at h ⊢
    exact h
  · rw [if_neg hl] at h ⊢
    split at h <;> simp_all

theorem Spec.SameValues.inplaceDiv (xs ys : List Fl) : SameValues fun b => Smoothed.inplaceDiv b xs ys := by
  refine .bind (.broadcast ..) fun r => ⟨by simp, fun v h => ?_⟩
  simp only [ne_eq, reduceCtorEq, not_false_eq_true, true_and, not_true_eq_false, false_and, if_false]
    at h ⊢
  split at h
  · cases h
  · exact h

theorem Spec.SameValues.inplaceMul (xs ys : List Fl) : SameValues fun b => SplineModel.inplaceMul b xs ys := by
  refine .bind (.broadcast ..) fun r => ⟨by simp, fun v h => ?_⟩
  simp only [ne_eq, reduceCtorEq, not_false_eq_true, true_and, not_true_eq_false, false_and, if_false]
    at h ⊢
  split at h
  · cases h
  · exact h

section
variable {s : Smoothed} {d : Fl}

theorem Spec.SameValues.pMRaw (hs : PackagePrimary s.primary) (hd : 0 < d) (kwargs : Dict Fl) (lo m : Fl) :
    SameValues fun b => Smoothed.pMRaw b s kwargs lo d m := by
  refine .bind (.primary hs ..) fun p => ?_
  simp only [fun b => smoothing_same hd b m lo (fin s.mmax)]
  exact .const _

theorem Spec.SameValues.normPM1 (hs : PackagePrimary s.primary) (hd : 0 < d) (kwargs : Dict Fl) :
    SameValues fun b => Smoothed.normPM1 b s d kwargs := by
  unfold Smoothed.normPM1
  simp only [eqf_zero_of_pos hd, and_false, if_false]
  exact .bind (.mapM (fun m => .pMRaw hs hd ..) _) fun _ => .const _

theorem Spec.SameValues.pM1 (hs : PackagePrimary s.primary) (masses : List Fl) (kwargs : Dict Fl)
    (hd : 0 < Smoothed.kwGet kwargs "delta_m" 0) :
    SameValues fun b => Smoothed.pM1 b s masses kwargs := by
  unfold Smoothed.pM1
  exact .bind (.mapM (fun m => .pMRaw hs hd ..) _) fun _ => .bind (.normPM1 hs hd _) fun _ => .const _

theorem Spec.SameValues.pQRaw (hd : 0 < d) (be lo m q : Fl) :
    SameValues fun b => Smoothed.pQRaw b be lo d m q := by
  refine .bind (.massRatioFactor ..) fun p => ?_
  simp only [fun b => smoothing_same hd b (m * q) lo m]
  exact .const _

theorem Spec.SameValues.qNorms (hd : 0 < d) (s : Smoothed) (be lo : Fl) :
    SameValues fun b => Smoothed.qNorms b s be lo d := by
  unfold Smoothed.qNorms
  refine .mapM (fun m => ?_) _
  exact .bind (.mapM (fun q => .pQRaw hd be lo (fin m) (fin q)) _) fun _ => .const _

theorem Spec.SameValues.normPQ (hd : 0 < d) (s : Smoothed) (be lo : Fl) :
    SameValues fun b => Smoothed.normPQ b s be lo d := by
  refine .bind (.qNorms hd s be lo) fun norms => ?_
  cases s.qMasses with
  | none => exact .const _
  | some _ => exact .const _

theorem Spec.SameValues.divideByNorm (hd : 0 < d) (s : Smoothed) (pq : List Fl) (be lo : Fl) :
    SameValues fun b => Smoothed.divideByNorm b s pq be lo d :=
  .bind (.normPQ hd s be lo) fun _ => .inplaceDiv ..

end

/-! ### Calls -/

/-- The same for calls that may change an instance: numpy and cupy have the same outcome and effect, and
whenever they return a value jax returns the same value and has the same effect. -/
def Spec.SameCalls {α σ : Type} (f : Backend → Except PyErr α × σ) : Prop :=
  f .cupy = f .numpy ∧ ∀ v, (f .numpy).1 = .ok v → f .jax = f .numpy

/-- The instance can be used on any backend with the same effect: nothing is cached yet, caching is off, or the
cached interpolant is for as many samples as now. -/
def Spec.Usable (s : Smoothed) (n : ℕ) : Prop :=
  s.cache = false ∨ s.qMasses = none ∨ ∃ ms, s.qMasses = some ms ∧ ms.length = n

theorem divideByNorm_ok_qNorms {b : Backend} {s : Smoothed} {pq v : List Fl} {be lo d : Fl}
    (h : Smoothed.divideByNorm b s pq be lo d = .ok v) : ∃ n, Smoothed.qNorms b s be lo d = .ok n := by
  obtain ⟨a, ha, -⟩ := bind_eq_ok.1 h
  obtain ⟨n, hn, -⟩ := bind_eq_ok.1 ha
  exact ⟨n, hn⟩

theorem inplaceDiv_same_length {b : Backend} {xs ys : List Fl} (h : xs.length = ys.length) :
    Smoothed.inplaceDiv b xs ys = .ok (List.zipWith (· / ·) xs ys) := by
  unfold Smoothed.inplaceDiv Smoothed.broadcast
  rw [if_pos h, ok_bind, if_neg (by simp [h])]

theorem Spec.SameCalls.pQ {d : Fl} (hd : 0 < d) (s : Smoothed) (data : List (Fl × Fl)) (be lo : Fl)
    (hu : Usable s data.length) : SameCalls fun b => Smoothed.pQ b s data be lo d := by
  have h0 : SameValues fun b => data.mapM fun x => Smoothed.pQRaw b be lo d x.1 x.2 :=
    .mapM (fun _ => .pQRaw hd ..) _
  have e0 := h0.1
  have e1 := h0.2
  beta_reduce at e0 e1
  constructor
  · show Smoothed.pQ .cupy s data be lo d = Smoothed.pQ .numpy s data be lo d
    unfold Smoothed.pQ
    rw [e0]
    simp only [(SameValues.divideByNorm hd _ _ be lo).1]
  · intro v hv
    show Smoothed.pQ .jax s data be lo d = Smoothed.pQ .numpy s data be lo d
    beta_reduce at hv
    unfold Smoothed.pQ at hv ⊢
    cases h1 : data.mapM fun x => Smoothed.pQRaw .numpy be lo d x.1 x.2 with
    | error e => rw [h1] at hv; cases hv
    | ok pq =>
      have hlen : pq.length = data.length := mapM_length h1
      rw [e1 pq h1]
      rw [h1] at hv
      simp only at hv ⊢
      set s1 := if s.cache then s else Smoothed.cacheQNorms s (data.map Prod.fst) with hs1
      cases h2 : Smoothed.divideByNorm .numpy s1 pq be lo d with
      | ok r =>
        have := (SameValues.divideByNorm hd s1 pq be lo).2 r h2
        beta_reduce at this
        rw [this]
      | error e =>
        rw [h2] at hv
        simp only at hv
        by_cases hc : Smoothed.caught e
        · rw [if_pos hc] at hv
          simp only [if_pos hc]
          simp only at hv
          cases h3 : Smoothed.divideByNorm .numpy (Smoothed.cacheQNorms s1 (data.map Prod.fst)) pq be lo d
            with
          | error e => rw [h3] at hv; cases hv
          | ok r =>
            obtain ⟨n, hn⟩ := divideByNorm_ok_qNorms h3
            have hn1 : Smoothed.qNorms .numpy s1 be lo d = .ok n := hn
            have hn2 : Smoothed.qNorms .jax s1 be lo d = .ok n := (SameValues.qNorms hd s1 be lo).2 n hn1
            have h3' := (SameValues.divideByNorm hd _ pq be lo).2 r h3
            beta_reduce at h3'
            -- the first attempt failed although the norms exist: nothing was cached
            have hnone : s1.qMasses = none := by
              by_contra hne
              obtain ⟨ms, hms⟩ := Option.ne_none_iff_exists'.1 hne
              have hml : ms.length = data.length := by
                by_cases hcache : s.cache
                · have e : s1 = s := by rw [hs1, if_pos hcache]
                  rw [e] at hms
                  rcases hu with h | h | ⟨ms', h, hl⟩
                  · rw [hcache] at h; cases h
                  · rw [h] at hms; cases hms
                  · rw [h] at hms; cases hms; exact hl
                · have e : s1 = Smoothed.cacheQNorms s (data.map Prod.fst) := by rw [hs1, if_neg hcache]
                  rw [e] at hms
                  cases hms
                  simp
              unfold Smoothed.divideByNorm Smoothed.normPQ at h2
              rw [hn1, hms] at h2
              simp only [ok_bind] at h2
              rw [inplaceDiv_same_length (by simp [hlen, hml])] at h2
              cases h2
            have hj : Smoothed.divideByNorm .jax s1 pq be lo d = .error .attributeError := by
              unfold Smoothed.divideByNorm Smoothed.normPQ
              rw [hn2, hnone]
              rfl
            rw [hj, h3']
            exact if_pos (show Smoothed.caught .attributeError from trivial)
        · rw [if_neg hc] at hv
          cases hv

/-- **C83** for the smoothed mass models (`SinglePeakSmoothedMassDistribution` and the others): for a positive
smoothing width, every parameters and data, on an instance that is new or was used with as many samples. -/
theorem C83_smoothed_partial {s : Smoothed} (hs : PackagePrimary s.primary) {data : List (Fl × Fl)}
    (hu : Usable s data.length) {kwargs : Dict Fl} {d : Fl} (hk : Dict.get? kwargs "delta_m" = some d)
    (hd : 0 < d) : SameCalls fun b => Smoothed.call b s data kwargs := by
  cases hb : Dict.get? kwargs "beta" with
  | none =>
    constructor
    · show Smoothed.call .cupy s data kwargs = Smoothed.call .numpy s data kwargs
      unfold Smoothed.call
      rw [hb]
    · intro v hv
      unfold Smoothed.call at hv
      beta_reduce at hv
      rw [hb] at hv
      cases hv
  | some be =>
    have hk1 : Smoothed.kwGet (Dict.erase kwargs "beta") "delta_m" 0 = d := by
      unfold Smoothed.kwGet
      rw [Dict.get?_erase, if_neg (by decide), hk]
      rfl
    have hk2 : Smoothed.kwGet (Dict.erase kwargs "beta" ++ s.fixed) "delta_m" 0 = d := by
      unfold Smoothed.kwGet
      rw [Dict.get?_append, Dict.get?_erase, if_neg (by decide), hk]
      rfl
    have h1 := SameValues.pM1 hs (data.map Prod.fst) (Dict.erase kwargs "beta" ++ s.fixed)
      (by rw [hk2]; exact hd)
    have h2 := fun lo => SameCalls.pQ hd s data be lo hu
    constructor
    · show Smoothed.call .cupy s data kwargs = Smoothed.call .numpy s data kwargs
      unfold Smoothed.call
      rw [hb]
      simp only [hk1, h1.1, (h2 _).1, ne_eq, reduceCtorEq, not_false_eq_true, true_and]
      rfl
    · intro v hv
      show Smoothed.call .jax s data kwargs = Smoothed.call .numpy s data kwargs
      unfold Smoothed.call at hv ⊢
      beta_reduce at hv
      rw [hb] at hv ⊢
      simp only [hk1, ne_eq, reduceCtorEq, not_false_eq_true, true_and, not_true_eq_false, false_and,
        if_false] at hv ⊢
      split at hv
      · cases hv
      rename_i c1
      split at hv
      · cases hv
      rename_i c2
      split at hv
      · cases hv
      rename_i c3
      rw [if_neg c1, if_neg c2, if_neg c3, if_neg c3]
      cases h3 : Smoothed.pM1 .numpy s (data.map Prod.fst) (Dict.erase kwargs "beta" ++ s.fixed) with
      | error e => rw [h3] at hv; cases hv
      | ok pm =>
        have h1' := h1.2 pm h3
        beta_reduce at h1'
        rw [h1']
        rw [h3] at hv
        simp only at hv ⊢
        rcases h4 : Smoothed.pQ .numpy s data be
          (Smoothed.kwGet (Dict.erase kwargs "beta") "mmin" (fin s.mmin)) d with ⟨r, s'⟩
        rw [h4] at hv
        cases r with
        | error e => cases hv
        | ok pq =>
          have := (h2 (Smoothed.kwGet (Dict.erase kwargs "beta") "mmin" (fin s.mmin))).2 pq (by
            show (Smoothed.pQ .numpy _ _ _ _ _).1 = _
            rw [h4])
          beta_reduce at this
          rw [this, h4]
          simp only at hv ⊢
          have := (SameValues.broadcast (· * ·) pm pq).2 v hv
          beta_reduce at this
          rw [this, hv]

/-! ## The spline models -/

theorem Spec.SameValues.evalUnnormed (rule : SplineRule) (s : SplineModel) (dataset : Dict (List Fl))
    (p : String) (x f : List Fl) :
    SameValues fun b => SplineModel.evalUnnormed b rule s dataset p x f :=
  .bind (.const _) fun _ => .bind (.const _) fun _ => .bind (.const _) fun _ => .inplaceMul ..

theorem Spec.SameValues.pair {α σ : Type} {f : Backend → Except PyErr α} (h : SameValues f) (s : σ) :
    SameCalls fun b => (f b, s) := by
  refine ⟨?_, fun v hv => ?_⟩
  · show (f .cupy, s) = (f .numpy, s)
    rw [h.1]
  · show (f .jax, s) = (f .numpy, s)
    have hv : f .numpy = .ok v := hv
    rw [h.2 v hv, hv]

theorem Spec.SameCalls.const {α σ : Type} (x : Except PyErr α × σ) : SameCalls fun _ => x :=
  ⟨rfl, fun _ _ => rfl⟩

theorem Spec.SameCalls.step {α β σ τ : Type} {f : Backend → Except PyErr α × σ}
    {g : Backend → Except PyErr α × σ → Except PyErr β × τ} (hf : SameCalls f)
    (herr : ∀ b e s v, (g b (.error e, s)).1 ≠ .ok v) (hc : ∀ x, g .cupy x = g .numpy x)
    (hg : ∀ a s, SameCalls fun b => g b (.ok a, s)) : SameCalls fun b => g b (f b) := by
  constructor
  · show g .cupy (f .cupy) = g .numpy (f .numpy)
    rw [hf.1, hc]
  · intro v hv
    show g .jax (f .jax) = g .numpy (f .numpy)
    have hv : (g .numpy (f .numpy)).1 = .ok v := hv
    rcases h : f .numpy with ⟨e | a, s⟩
    · rw [h] at hv
      exact absurd hv (herr _ _ _ _)
    · rw [hf.2 a (by rw [h]), h]
      rw [h] at hv
      exact (hg a s).2 v hv

theorem Spec.SameCalls.pXUnnormed (rule : SplineRule) (s : SplineModel) (dataset : Dict (List Fl))
    (p : String) (x f : List Fl) :
    SameCalls fun b => SplineModel.pXUnnormed b rule s dataset p x f := by
  unfold SplineModel.pXUnnormed
  cases s.normSpline with
  | some _ => exact (SameValues.evalUnnormed ..).pair _
  | none =>
    rcases s.setupInterpolant x dataset with ⟨e | a, s1⟩
    · exact .const _
    · exact (SameValues.evalUnnormed ..).pair _

theorem Spec.SameValues.normPX (rule : SplineRule) (s : SplineModel) (f x : List Fl) :
    SameValues fun b => SplineModel.normPX b rule s f x := by
  unfold SplineModel.normPX
  cases s.normSpline with
  | none => exact .const _
  | some _ => exact .bind (.const _) fun _ => .bind (.inplaceMul ..) fun _ => .const _

theorem Spec.SameCalls.parameterLoop (rule : SplineRule) (dataset : Dict (List Fl)) (x f : List Fl) :
    ∀ (params : List String) (px : List Fl) (s : SplineModel),
      SameCalls fun b => SplineModel.parameterLoop b rule dataset x f params px s
  | [], _, _ => .const _
  | param :: params, px, s => by
    have ih := Spec.SameCalls.parameterLoop rule dataset x f params
    have h := SameCalls.pXUnnormed rule s dataset param x f
    have e0 := h.1
    have e1 := h.2
    beta_reduce at e0 e1
    constructor
    · simp only [SplineModel.parameterLoop, e0]
      rcases SplineModel.pXUnnormed .numpy rule s dataset param x f with ⟨e | r, s1⟩
      · rfl
      · have k := (SameValues.inplaceMul px r).1
        beta_reduce at k
        simp only [k]
        cases SplineModel.inplaceMul .numpy px r with
        | error e => rfl
        | ok px1 => exact (ih px1 s1).1
    · intro v hv
      simp only [SplineModel.parameterLoop] at hv ⊢
      rcases h2 : SplineModel.pXUnnormed .numpy rule s dataset param x f with ⟨e | r, s1⟩
      · rw [h2] at hv; cases hv
      · rw [e1 r (by rw [h2]), h2]
        rw [h2] at hv
        simp only at hv ⊢
        cases h3 : SplineModel.inplaceMul .numpy px r with
        | error e => rw [h3] at hv; cases hv
        | ok px1 =>
          have k := (SameValues.inplaceMul px r).2 px1 h3
          beta_reduce at k
          rw [h3] at hv
          rw [k]
          exact (ih px1 s1).2 v hv

/-- **C83** for the spline models, from every state of the instance. -/
theorem C83_spline_partial (rule : SplineRule) (s : SplineModel) (dataset : Dict (List Fl))
    (kwargs : Dict Fl) : SameCalls fun b => SplineModel.call b rule s dataset kwargs := by
  unfold SplineModel.call
  cases s.inferNodes kwargs with
  | error e => exact .const _
  | ok s =>
    simp only
    cases s.extractSplinePoints kwargs with
    | error e => exact .const _
    | ok fx =>
      obtain ⟨f, x⟩ := fx
      simp only
      cases dataset.get (s.config.parameters.headD "") with
      | error e => exact .const _
      | ok values =>
        simp only
        have h := SameCalls.parameterLoop rule dataset x f s.config.parameters (values.map fun _ => 1) s
        have e0 := h.1
        have e1 := h.2
        beta_reduce at e0 e1
        constructor
        · simp only [e0]
          rcases SplineModel.parameterLoop .numpy rule dataset x f s.config.parameters
            (values.map fun _ => 1) s with ⟨e | r, s1⟩
          · rfl
          · have k := (SameValues.normPX rule s1 f x).1
            beta_reduce at k
            simp only [k]
        · intro v hv
          simp only at hv ⊢
          rcases h2 : SplineModel.parameterLoop .numpy rule dataset x f s.config.parameters
            (values.map fun _ => 1) s with ⟨e | r, s1⟩
          · rw [h2] at hv; cases hv
          · rw [e1 r (by rw [h2]), h2]
            rw [h2] at hv
            simp only at hv ⊢
            cases h3 : SplineModel.normPX .numpy rule s1 f x with
            | error e => rw [h3] at hv; cases hv
            | ok n =>
              have k := (SameValues.normPX rule s1 f x).2 n h3
              beta_reduce at k
              rw [k]

/-! ## The interpolated power law -/

section
variable {d : Fl}

theorem Spec.SameValues.primaryAt (s : InterpPowerlaw) (kwargs : Dict Fl) (masses : List Fl) :
    SameValues fun b => s.primaryAt b kwargs masses :=
  .bind (.const _) fun _ => .bind (.const _) fun _ => .bind (.const _) fun _ =>
    .mapM (fun _ => .powerlaw ..) _

theorem Spec.SameValues.interpNorm (hd : 0 < d) (rule : SplineRule) (s : InterpPowerlaw) (f : List Fl)
    (kwargs : Dict Fl) : SameValues fun b => s.normPM1 b rule d f kwargs := by
  unfold InterpPowerlaw.normPM1
  simp only [fun b m lo hi => smoothing_same hd b m lo hi]
  refine .bind (.primaryAt ..) fun _ => .bind (.inplaceMul ..) fun _ => ?_
  cases s.spline.normSpline with
  | none => exact .const _
  | some _ => exact .bind (.inplaceMul ..) fun _ => .const _

theorem Spec.SameValues.finish (hd : 0 < d) (rule : SplineRule) (s : InterpPowerlaw) (pm px f : List Fl)
    (kwargs : Dict Fl) : SameValues fun b => InterpPowerlaw.finish b rule s pm px f d kwargs :=
  .bind (.inplaceMul ..) fun _ => .bind (.interpNorm hd ..) fun _ => .const _

theorem Spec.SameValues.interpRaw (hd : 0 < d) (s : InterpPowerlaw) (masses : List Fl) (lo : Fl)
    (kwargs : Dict Fl) : SameValues fun b => s.pMRaw b masses lo d kwargs := by
  unfold InterpPowerlaw.pMRaw
  simp only [fun b m lo hi => smoothing_same hd b m lo hi]
  exact .bind (.primaryAt ..) fun _ => .inplaceMul ..

theorem Spec.SameCalls.interpPM1 (rule : SplineRule) (s : InterpPowerlaw) (masses : List Fl)
    (kwargs : Dict Fl) (hd : 0 < Smoothed.kwGet kwargs "delta_m" 0) :
    SameCalls fun b => s.pM1 b rule masses kwargs := by
  unfold InterpPowerlaw.pM1
  cases s.spline.extractSplinePoints kwargs with
  | error e => exact .const _
  | ok fx =>
    obtain ⟨f, x⟩ := fx
    simp only
    have h := SameValues.interpRaw hd s masses (Smoothed.kwGet kwargs "mmin" (fin s.smoothed.mmin))
      (Dict.erase kwargs "delta_m")
    have e0 := h.1
    have e1 := h.2
    beta_reduce at e0 e1
    have k := SameCalls.pXUnnormed rule s.spline (InterpPowerlaw.massColumn masses) "mass_1" x f
    have k0 := k.1
    have k1 := k.2
    beta_reduce at k0 k1
    constructor
    · simp only [e0, k0]
      cases s.pMRaw .numpy masses (Smoothed.kwGet kwargs "mmin" (fin s.smoothed.mmin))
          (Smoothed.kwGet kwargs "delta_m" 0) (Dict.erase kwargs "delta_m") with
      | error e => rfl
      | ok pm =>
        rcases SplineModel.pXUnnormed .numpy rule s.spline (InterpPowerlaw.massColumn masses) "mass_1" x f
          with ⟨e | px, t⟩
        · rfl
        · have := (SameValues.finish hd rule { s with spline := t } pm px f (Dict.erase kwargs "delta_m")).1
          beta_reduce at this
          simp only [this]
    · intro v hv
      simp only at hv ⊢
      cases h1 : s.pMRaw .numpy masses (Smoothed.kwGet kwargs "mmin" (fin s.smoothed.mmin))
          (Smoothed.kwGet kwargs "delta_m" 0) (Dict.erase kwargs "delta_m") with
      | error e => rw [h1] at hv; cases hv
      | ok pm =>
        rw [e1 pm h1]
        rw [h1] at hv
        simp only at hv ⊢
        rcases h2 : SplineModel.pXUnnormed .numpy rule s.spline (InterpPowerlaw.massColumn masses) "mass_1" x f
          with ⟨e | px, t⟩
        · rw [h2] at hv; cases hv
        · rw [k1 px (by rw [h2]), h2]
          rw [h2] at hv
          simp only at hv ⊢
          have := (SameValues.finish hd rule { s with spline := t } pm px f (Dict.erase kwargs "delta_m")).2
            v hv
          beta_reduce at this
          rw [this, hv]

theorem Spec.SameCalls.times (s : InterpPowerlaw) (pm : List Fl)
    {q : Backend → Except PyErr (List Fl) × Smoothed} (hq : SameCalls q) :
    SameCalls fun b => InterpPowerlaw.times b s pm (q b) := by
  constructor
  · simp only [hq.1]
    rcases q .numpy with ⟨e | pq, sm⟩ <;> rfl
  · intro v hv
    simp only at hv ⊢
    rcases h : q .numpy with ⟨e | pq, sm⟩
    · rw [h] at hv; cases hv
    · rw [hq.2 pq (by rw [h]), h]
      rw [h] at hv
      exact ((SameValues.broadcast (· * ·) pm pq).pair { s with smoothed := sm }).2 v hv

end

theorem interpPM1_smoothed (b : Backend) (rule : SplineRule) (s : InterpPowerlaw) (masses : List Fl)
    (kwargs : Dict Fl) : (s.pM1 b rule masses kwargs).2.smoothed = s.smoothed := by
  unfold InterpPowerlaw.pM1
  cases s.spline.extractSplinePoints kwargs with
  | error e => rfl
  | ok fx =>
    obtain ⟨f, x⟩ := fx
    simp only
    cases s.pMRaw b masses (Smoothed.kwGet kwargs "mmin" (fin s.smoothed.mmin))
        (Smoothed.kwGet kwargs "delta_m" 0) (Dict.erase kwargs "delta_m") with
    | error e => rfl
    | ok pm =>
      simp only
      rcases SplineModel.pXUnnormed b rule s.spline (InterpPowerlaw.massColumn masses) "mass_1" x f
        with ⟨e | px, t⟩ <;> rfl

/-- **C83** for `InterpolatedPowerlaw`, for a positive smoothing width, on an instance that is new or was used
with as many samples. -/
theorem C83_interpolated_partial (rule : SplineRule) {s : InterpPowerlaw} {data : List (Fl × Fl)}
    (hu : Usable s.smoothed data.length) {kwargs : Dict Fl} {d : Fl}
    (hk : Dict.get? kwargs "delta_m" = some d) (hd : 0 < d) :
    SameCalls fun b => s.call b rule data kwargs := by
  cases hb : Dict.get? kwargs "beta" with
  | none =>
    unfold InterpPowerlaw.call
    simp only [hb]
    exact .const _
  | some be =>
    have hk1 : Smoothed.kwGet (Dict.erase kwargs "beta") "delta_m" 0 = d := by
      unfold Smoothed.kwGet
      rw [Dict.get?_erase, if_neg (by decide), hk]
      rfl
    have h := SameCalls.interpPM1 rule s (data.map Prod.fst) (Dict.erase kwargs "beta") (by rw [hk1]; exact hd)
    have e0 := h.1
    have e1 := h.2
    beta_reduce at e0 e1
    have hsm := interpPM1_smoothed .numpy rule s (data.map Prod.fst) (Dict.erase kwargs "beta")
    unfold InterpPowerlaw.call
    simp only [hb, hk1]
    constructor
    · simp only [e0, ne_eq, reduceCtorEq, not_false_eq_true, true_and]
      split
      · rfl
      split
      · rfl
      rcases h2 : s.pM1 .numpy rule (data.map Prod.fst) (Dict.erase kwargs "beta") with ⟨e | pm, s'⟩
      · rfl
      · rw [h2] at hsm
        simp only at hsm ⊢
        exact (SameCalls.times s' pm (SameCalls.pQ hd s'.smoothed data be _ (by rw [hsm]; exact hu))).1
    · intro v hv
      simp only [ne_eq, reduceCtorEq, not_false_eq_true, true_and, not_true_eq_false, false_and,
        if_false] at hv ⊢
      split at hv
      · cases hv
      rename_i c1
      split at hv
      · cases hv
      rename_i c2
      rw [if_neg c1, if_neg c2]
      rcases h2 : s.pM1 .numpy rule (data.map Prod.fst) (Dict.erase kwargs "beta") with ⟨e | pm, s'⟩
      · rw [h2] at hv; cases hv
      · rw [e1 pm (by rw [h2]), h2]
        rw [h2] at hsm hv
        simp only at hsm hv ⊢
        exact (SameCalls.times s' pm (SameCalls.pQ hd s'.smoothed data be _ (by rw [hsm]; exact hu))).2 v hv

/-! ## Where the backends differ -/

/-- C83, as one would expect it of the smoothed mass models: a new instance returns the same values on every
backend. -/
def C83_statement : Prop :=
  ∀ (py : Bool) (lo hi : ℝ) (nM nQ : ℕ) (cache : Bool) (s : Smoothed),
    singlePeak py lo hi nM nQ cache = .ok s → ∀ (masses : List Fl) (kwargs : Dict Fl),
      SameValues fun b => Smoothed.pM1 b s masses kwargs

/-- With smoothing width 0 and a mass equal to the minimum, jax computes the window although there is none. -/
theorem smoothing_jax_zero {m hi : ℝ} (h : m ≤ hi) :
    ∃ w, 0 < w ∧ w < 1 / 2 ∧ smoothing .jax (fin m) (fin m) (fin hi) 0 = fin w := by
  refine ⟨taper 0, taper_pos 0, ?_, ?_⟩
  · unfold taper
    apply one_div_lt_one_div_of_lt (by norm_num)
    have : (1 : ℝ) < Real.exp (1 / clampUnit 0 - 1 / (1 - clampUnit 0)) := by
      rw [Real.one_lt_exp_iff]
      unfold clampUnit
      norm_num
    linarith
  · have e : (fin m - fin m) / 0 = nan := by
      rw [fin_sub, sub_self]
      show (if (0 : ℝ) = 0 then signInf 0 else _) = _
      simp [signInf]
    unfold smoothing
    rw [if_pos (.inl rfl), e]
    simp only [nanToNumWith]
    rw [window_fin, ind_mul_ind, fin_mul_ind]
    simp [h]

/-- The parameters of the witness. -/
def widthZero : Dict Fl :=
  [("alpha", fin 2), ("mmin", fin 2), ("mmax", fin 50), ("lam", fin 0), ("mpp", fin 30), ("sigpp", fin 3)]

theorem widthZero_primary (b : Backend) {m : ℝ} (hm : 0 < m) :
    primTwoComponent false b (widthZero ++ [("gaussian_mass_maximum", fin 100)]) (fin m) =
      .ok (fin (normalised (fun t => t ^ (-2 : ℝ)) 2 50 m)) := by
  have h := C18_twoComponentSingle_value (a := 2) (lam := 0) (mpp := 30) (mmin := 2) (mmax := 50)
    (sigpp := 3) (gmm := 100) b false (.inr (by norm_num)) (by norm_num) (by norm_num) (by norm_num)
    (by norm_num) hm
  rw [sub_zero, one_mul, zero_mul, add_zero] at h
  rw [← h]
  unfold primTwoComponent bindArgs
  rw [if_neg (by simp [widthZero, Dict.keys, Dict.contains, Dict.get?_cons])]
  rfl

/-- **C83 is false**: with no smoothing (width 0), the density of a mass equal to the minimum is the power law
at the minimum on numpy and cupy, but (numerically) zero on jax. -/
theorem C83_fails : ¬ C83_statement := by
  intro h
  obtain ⟨s, hs⟩ : ∃ s, singlePeak false 2 100 2 2 true = .ok s := ⟨_, rfl⟩
  obtain ⟨-, -, hs'⟩ := init_inv hs
  have hp : s.primary = primTwoComponent false := by rw [hs']
  have hM : s.m1s = [2, 100] := by
    rw [hs']
    norm_num [Arr.linspaceR, List.range_succ]
  have hmax : s.mmax = 100 := by rw [hs']
  set kw := widthZero ++ [("gaussian_mass_maximum", fin 100)] with hkw
  have hd : Smoothed.kwGet kw "delta_m" 0 = 0 := by
    simp [Smoothed.kwGet, hkw, widthZero, Dict.get?_cons]
  have hlo : ∀ x, Smoothed.kwGet kw "mmin" x = fin 2 := by
    intro x
    simp [Smoothed.kwGet, hkw, widthZero, Dict.get?_cons]
  have her : Dict.erase kw "delta_m" = kw := by
    simp [hkw, widthZero, Dict.erase]
  have h1 := (h false 2 100 2 2 true s hs [fin 2] kw).2
  beta_reduce at h1
  have hnum : Smoothed.pM1 .numpy s [fin 2] kw =
      .ok [fin (normalised (fun t => t ^ (-2 : ℝ)) 2 50 2)] := by
    rw [pM1_delta_zero .numpy (by decide) s [fin 2] kw hd, her, hp]
    simp only [List.mapM_cons, List.mapM_nil]
    rw [widthZero_primary _ (by norm_num)]
    rfl
  have hjax := h1 _ hnum
  obtain ⟨w, hw0, hw1, hw⟩ := smoothing_jax_zero (m := 2) (hi := 100) (by norm_num)
  unfold Smoothed.pM1 Smoothed.normPM1 Smoothed.pMRaw at hjax
  rw [hd, her, hlo, hp, hmax, hM] at hjax
  have p2 := widthZero_primary .jax (show (0 : ℝ) < 2 by norm_num)
  have p3 := widthZero_primary .jax (show (0 : ℝ) < 100 by norm_num)
  rw [← hkw] at p2 p3
  simp only [List.mapM_cons, List.mapM_nil, p2, p3, hw, ok_bind, pure_eq_ok, ne_eq, not_true_eq_false,
    false_and, if_false] at hjax
  have hn : ∀ y : Fl, nanToNum y * ind (¬ eqf (0 : Fl) 0) + 1 * ind (eqf (0 : Fl) 0) = fin 1 := by
    intro y
    obtain ⟨r, hr⟩ := nanToNum_finite y
    rw [hr]
    simp [ind, eqf]
  rw [hn] at hjax
  have hN : 0 < normalised (fun t => t ^ (-2 : ℝ)) 2 50 2 := by
    have := integral_rpow_pos (a := -2) (show (0 : ℝ) < 2 by norm_num) (show (2 : ℝ) < 50 by norm_num)
    unfold normalised
    rw [if_pos (by norm_num)]
    positivity
  simp only [List.map_cons, List.map_nil, fin_mul, fin_div one_ne_zero, div_one, Except.ok.injEq,
    List.cons.injEq, Fl.fin.injEq, and_true] at hjax
  nlinarith

/-! ## The statements are not empty -/

/-- The power law on jax, through C83, from its value on numpy. -/
example : powerlaw .jax true (pos (fin 3)) (kw (fin 2)) (kw (fin 5)) (kw (fin 2)) =
    .ok (fin (normalised (fun t => t ^ (2 : ℝ)) 2 5 3)) :=
  (SameValues.powerlaw true (pos (fin 3)) (kw (fin 2)) (kw (fin 5)) (kw (fin 2))).2 _
    (C01_powerlaw_value .numpy true false true true true (by norm_num) (by norm_num) (by norm_num)
      (.inr (.inr (by norm_num))))

/-- A smoothed model with smoothing width 1, new instance, two samples: numpy returns values, hence jax returns
the same. -/
example : ∃ r, (Smoothed.call .numpy staleInst [(fin 3, fin 1), (fin 2.5, fin 0.9)] staleKw).1 = .ok r ∧
    (Smoothed.call .jax staleInst [(fin 3, fin 1), (fin 2.5, fin 0.9)] staleKw).1 = .ok r := by
  have hprim : ∀ m, ∃ y, staleInst.primary .numpy
      (Dict.erase (Dict.erase staleKw "beta" ++ staleInst.fixed) "delta_m") m = .ok y := by
    intro m
    have e : Dict.erase (Dict.erase staleKw "beta" ++ staleInst.fixed) "delta_m" =
        [("alpha", fin 0), ("mmin", fin 2), ("mmax", fin 3), ("lam", fin 0), ("mpp", fin 2),
          ("sigpp", fin 1), ("gaussian_mass_maximum", fin 3)] := by
      simp [staleInst, staleKw, Dict.erase]
    rw [e]
    show ∃ y, primTwoComponent false .numpy _ m = .ok y
    unfold primTwoComponent bindArgs
    rw [if_neg (by simp [Dict.keys, Dict.contains]), ok_bind]
    unfold twoComponentSingle
    rw [powerlaw_eq, if_neg (by simp [kw, Dict.get?_cons]), truncnorm_eq, if_neg (by simp [kw, Dict.get?_cons])]
    have hb : ∀ x a c d : Fl, ∃ y, powerlawBody false x a c d = .ok y := by
      intro x a c d
      simp [powerlawBody, pyDiv, pyPow, ok_bind]
    obtain ⟨y, hy⟩ := hb (pos m).val (kw (-fin 0)).val (kw (fin 3)).val (kw (fin 2)).val
    simp only [Dict.get?_cons, String.reduceEq, if_true, if_false, Option.getD_some, beq_self_eq_true]
    rw [hy]
    exact ⟨_, rfl⟩
  obtain ⟨r, hr, -⟩ := C25_accepts .numpy staleInst [(fin 3, fin 1), (fin 2.5, fin 0.9)] staleKw
    (beta := fin 0) (by simp [staleKw, Dict.get?_cons])
    (.inr ⟨by simp [staleKw, staleInst, Dict.get?_cons], by simp [staleKw, staleInst, Dict.get?_cons]⟩)
    (by simp [staleKw, staleInst, Dict.keys]) hprim
  refine ⟨r, hr, ?_⟩
  have := (C83_smoothed_partial (s := staleInst) ⟨false, .inl rfl⟩
    (data := [(fin 3, fin 1), (fin 2.5, fin 0.9)]) (.inr (.inl rfl)) (kwargs := staleKw) (d := fin 1)
    (by simp [staleKw, Dict.get?_cons]) (by simp)).2 r hr
  beta_reduce at this
  rw [this, hr]

end GW
