import Verif.Props.SmoothedTwoPeaksErrors

/-!
# C167: smoothing and mass ratios hide nothing of any primary mass model
-/

noncomputable section

open MeasureTheory ProbabilityTheory Filter Topology Set

namespace GW

open Fl Spec TruePopulation Posterior GaussianErrors

/-! ## Specification -/

/-- The keyword arguments `kw` fit the instance `sm`: they give an index of the mass ratios, a lower limit and a range of
the smoothing, and with the rest the primary model of the instance is the density `F`, positive between `lo` and `hi`. -/
structure Spec.SmoothedFits (b : Backend) (sm : Smoothed) (kw : Dict Fl) (F : ℝ → ℝ) (beta lo hi d : ℝ) : Prop where
  beta_eq : Dict.get? kw "beta" = some (fin beta)
  mmin_eq : Dict.get? kw "mmin" = some (fin lo)
  delta_eq : Dict.get? kw "delta_m" = some (fin d)
  mmax_le : ¬ fin sm.mmax < Smoothed.kwGet kw "mmax" (fin sm.mmax)
  fresh : ∀ k ∈ Dict.keys kw, k ∉ Dict.keys sm.fixed
  value : ∀ m : ℝ, 0 < m → sm.primary b (Dict.erase (Dict.erase kw "beta" ++ sm.fixed) "delta_m") (fin m) =
    .ok (fin (F m))
  nonneg : ∀ m, 0 ≤ F m
  zero : ∀ m, ¬ (lo ≤ m ∧ m ≤ sm.mmax) → F m = 0
  integrable : Integrable F
  one : ∫ m, F m = 1
  pos : ∀ m, lo < m → m < hi → 0 < F m
  lo_ge : sm.mmin ≤ lo
  lo_lt : lo < hi
  hi_le : hi ≤ sm.mmax
  d_pos : 0 < d
  node : ∃ m ∈ sm.m1s, lo < m ∧ m < hi
  grid : lo ∉ sm.m1s

/-- The parameters a user passes to the smoothed broken power law. -/
def Spec.brokenCall (a1 a2 beta lo hi bf d : ℝ) : Dict Fl :=
  [("alpha_1", fin a1), ("alpha_2", fin a2), ("beta", fin beta), ("mmin", fin lo), ("mmax", fin hi),
    ("break_fraction", fin bf), ("delta_m", fin d)]

/-! ## Lemmas -/

namespace SmoothedAny

open Identifiable Peak SmoothedPeak SmoothedJoint SmoothedTwoPeaks

variable {b : Backend} {prim : Primary} {fixed : Dict Fl} {selfMin selfMax : ℝ} {nM nQ : ℕ} {cache : Bool} {sm : Smoothed}
  {kw kw' : Dict Fl} {F F' : ℝ → ℝ} {beta lo hi d beta' lo' hi' d' D X c c' : ℝ}

theorem keys_erase {kw : Dict Fl} {k j : String} (h : k ∈ Dict.keys (Dict.erase kw j)) : k ∈ Dict.keys kw := by
  unfold Dict.keys Dict.erase at h
  obtain ⟨x, hx, rfl⟩ := List.mem_map.1 h
  exact List.mem_map.2 ⟨x, (List.mem_filter.1 hx).1, rfl⟩

/-- The values of `p_m1`. -/
theorem any_pM1 (hsm : Smoothed.init prim fixed selfMin selfMax nM nQ cache = .ok sm) (hself : 0 < selfMin)
    (hlt : selfMin < selfMax) (hk : SmoothedFits b sm kw F beta lo hi d) :
    ∃ N, 0 < N ∧ ∀ m : ℝ, 0 < m → Smoothed.pM1 b sm [fin m] (Dict.erase kw "beta" ++ sm.fixed) =
      .ok [fin (F m * window lo selfMax d m / N)] := by
  obtain ⟨hM, hQ, hsme⟩ := init_inv hsm
  have hm1 : sm.m1s = Arr.linspaceR selfMin selfMax nM := by rw [hsme]
  have hmax : sm.mmax = selfMax := by rw [hsme]
  have hd := hk.d_pos
  have hgrid : ∀ m ∈ sm.m1s, 0 < m := fun m hm => hself.trans_le (linspaceR_mem hlt.le hM (hm1 ▸ hm)).1
  obtain ⟨f, hf⟩ : ∃ f : ℝ → ℝ, f = fun m => F m * window lo selfMax d m := ⟨_, rfl⟩
  obtain ⟨k2, hk2⟩ : ∃ k2, k2 = Dict.erase kw "beta" ++ sm.fixed := ⟨_, rfl⟩
  have hraw : ∀ m : ℝ, 0 < m → Smoothed.pMRaw b sm (Dict.erase k2 "delta_m") (fin lo) (fin d) (fin m) =
      .ok (fin (f m)) := by
    intro m hm
    unfold Smoothed.pMRaw
    rw [hk2, hk.value m hm, hmax, smoothing_fin b m lo selfMax hd, hf]
    rfl
  obtain ⟨N, hN⟩ : ∃ N, N = Arr.trapzR (sm.m1s.map f) sm.m1s := ⟨_, rfl⟩
  have hNpos : 0 < N := by
    rw [hN]
    refine trapzR_pos_of_exists (by simp) (by rw [hm1, linspaceR_length]; exact hM) ?_ (hm1 ▸ linspaceR_sorted hlt hM) ?_
    · intro y hy
      obtain ⟨m, hm, rfl⟩ := List.mem_map.1 hy
      rw [hf]
      exact mul_nonneg (hk.nonneg m) (window_nonneg _ _ _ _)
    · obtain ⟨m, hm, h1, h2⟩ := hk.node
      refine ⟨_, List.mem_map.2 ⟨m, hm, rfl⟩, ?_⟩
      rw [hf]
      simp only
      rw [window_eq h1.le (h2.le.trans (hmax ▸ hk.hi_le))]
      exact mul_pos (hk.pos m h1 h2) (taper_pos _)
  refine ⟨N, hNpos, fun m hm => ?_⟩
  have hT : Arr.trapz (sm.m1s.map fun m => fin (f m)) (sm.m1s.map fin) = fin N := by
    rw [hN, ← Arr.trapz_fin, List.map_map]; rfl
  have g1 : Dict.get? k2 "mmin" = some (fin lo) := by
    rw [hk2, Dict.get?_append, Dict.get?_erase, if_neg (by decide), hk.mmin_eq]
    rfl
  have g2 : Dict.get? k2 "delta_m" = some (fin d) := by
    rw [hk2, Dict.get?_append, Dict.get?_erase, if_neg (by decide), hk.delta_eq]
    rfl
  have q1 : ∀ x, Smoothed.kwGet k2 "mmin" x = fin lo := fun x => by unfold Smoothed.kwGet; rw [g1]; rfl
  have q2 : Smoothed.kwGet k2 "delta_m" 0 = fin d := by unfold Smoothed.kwGet; rw [g2]; rfl
  have q3 : ∀ x, Smoothed.kwGet (Dict.erase k2 "delta_m") "mmin" x = fin lo := fun x => by
    rw [← q1 x]
    unfold Smoothed.kwGet
    rw [Dict.get?_erase, if_neg (by decide)]
  have hd0 : ¬ eqf (fin d) 0 := by simp [hd.ne']
  rw [← hk2]
  unfold Smoothed.pM1 Smoothed.normPM1
  rw [q1, q2]
  simp only [q3]
  rw [mapM_ok (g := fun m => fin (f m)) fun m hm => hraw m (hgrid m hm)]
  rw [if_neg fun h => hd0 h.2]
  simp only [List.mapM_cons, List.mapM_nil, hraw m hm]
  show Except.ok _ = _
  rw [hT, nanToNum_fin, ind_true hd0, ind_false hd0]
  simp [fin_div hNpos.ne', hf]

/-- The values of the model. -/
theorem any_value (hsm : Smoothed.init prim fixed selfMin selfMax nM nQ cache = .ok sm) (hself : 0 < selfMin)
    (hlt : selfMin < selfMax) (hk : SmoothedFits b sm kw F beta lo hi d) :
    ∃ N κ, 0 < N ∧ 0 < κ ∧ (∀ m, lo < m → m ≤ selfMax → κ ≤ normAt b sm beta lo d m) ∧
      ∀ m q, 0 < m → m ≤ selfMax → m ≠ lo → 0 < q → (Smoothed.call b sm [(fin m, fin q)] kw).1 =
        .ok [fin (pairOf F beta lo d selfMax (normAt b sm beta lo d) m q / N)] := by
  obtain ⟨N, hN, e1⟩ := any_pM1 hsm hself hlt hk
  obtain ⟨hM, hQ, hsme⟩ := init_inv hsm
  have hm1 : sm.m1s = Arr.linspaceR selfMin selfMax nM := by rw [hsme]
  have hqs : sm.qs = Arr.linspaceR 0.001 1 nQ := by rw [hsme]
  have hmin : sm.mmin = selfMin := by rw [hsme]
  have hqm : sm.qMasses = none := by rw [hsme]
  have hlo : selfMin ≤ lo := hmin ▸ hk.lo_ge
  have h0 : 0 < lo := hself.trans_le hlo
  have hd := hk.d_pos
  obtain ⟨κ, hκ, hlow⟩ := norm_lower b hM hQ hself hlt hlo hm1 hqs hd hk.grid beta
  have hnorm : ∀ m, lo < m → m ≤ selfMax → κ ≤ normAt b sm beta lo d m ∧
      interpLinear sm.m1s (sm.m1s.map (qNormAt b sm (fin beta) (fin lo) (fin d))) (fin m) =
        fin (normAt b sm beta lo d m) := fun m h1 h2 => by
    obtain ⟨r, hr, e⟩ := hlow m h1 h2
    unfold normAt
    rw [e]
    exact ⟨hr, rfl⟩
  refine ⟨N, κ, hN, hκ, fun m h1 h2 => (hnorm m h1 h2).1, fun m q hm hmX hne hq => ?_⟩
  have q1 : ∀ x, Smoothed.kwGet (Dict.erase kw "beta") "mmin" x = fin lo := fun x => by
    unfold Smoothed.kwGet
    rw [Dict.get?_erase, if_neg (by decide), hk.mmin_eq]
    rfl
  have q2 : ∀ x, Smoothed.kwGet (Dict.erase kw "beta") "mmax" x = Smoothed.kwGet kw "mmax" x := fun x => by
    unfold Smoothed.kwGet
    rw [Dict.get?_erase, if_neg (by decide)]
  have q3 : ∀ x, Smoothed.kwGet (Dict.erase kw "beta") "delta_m" x = fin d := fun x => by
    unfold Smoothed.kwGet
    rw [Dict.get?_erase, if_neg (by decide), hk.delta_eq]
    rfl
  have e2 := pQ_fresh b sm [(fin m, fin q)] (fin beta) (fin lo) (fin d) (Or.inr (Or.inl hqm))
  unfold Smoothed.call
  rw [hk.beta_eq]
  simp only
  rw [q1, q2, q3, if_neg (fun hh => by have := hh.2; rw [hmin] at this; simp only [fin_lt] at this; linarith),
    if_neg (fun hh => hk.mmax_le hh.2), if_neg (fun ⟨k, h1, h2⟩ => hk.fresh k (keys_erase h1) h2)]
  rw [show ([(fin m, fin q)] : List (Fl × Fl)).map Prod.fst = [fin m] from rfl, e1 m hm]
  simp only
  rcases hp : Smoothed.pQ b sm [(fin m, fin q)] (fin beta) (fin lo) (fin d) with ⟨r, s'⟩
  rw [hp] at e2
  simp only at e2
  subst e2
  simp only [List.map_cons, List.map_nil]
  rw [broadcast_same b _ (by simp), List.zipWith_cons_cons, List.zipWith_nil_left]
  rcases lt_or_gt_of_ne hne with hlt' | hgt
  · obtain ⟨r, hr⟩ := nanToNum_finite (pQVal b (fin beta) (fin lo) (fin d) (fin m) (fin q) /
      interpLinear sm.m1s (sm.m1s.map (qNormAt b sm (fin beta) (fin lo) (fin d))) (fin m))
    rw [hr, fin_mul]
    unfold pairOf
    rw [if_neg (not_lt.2 hlt'.le), hk.zero m fun hh => absurd hh.1 (not_le.2 hlt')]
    simp
  · obtain ⟨hkn, hi'⟩ := hnorm m hgt hmX
    rw [hi', pQVal_ne b hd h0 hm hne hq, fin_div (hκ.trans_le hkn).ne', nanToNum_fin, fin_mul]
    unfold pairOf
    rw [if_pos hgt]
    congr 3
    ring

/-- Densities that are proportional after the same smoothing are the same. -/
theorem same_density (h1 : ∫ m, F m = 1) (h1' : ∫ m, F' m = 1)
    (z : ∀ m, ¬ (lo ≤ m ∧ m ≤ X) → F m = 0) (z' : ∀ m, ¬ (lo ≤ m ∧ m ≤ X) → F' m = 0) (h0 : 0 < lo) (hc' : 0 < c')
    (hae : ∀ᵐ x : ℝ, 0 < x → c * (F x * window lo X d x) = c' * (F' x * window lo X d x)) : ∀ᵐ x : ℝ, F x = F' x := by
  have e : (fun x => c * F x) =ᵐ[volume] fun x => c' * F' x := by
    filter_upwards [hae] with x hx
    by_cases hin : lo ≤ x ∧ x ≤ X
    · have := hx (h0.trans_le hin.1)
      rw [window_eq hin.1 hin.2, ← mul_assoc, ← mul_assoc] at this
      exact mul_right_cancel₀ (taper_pos _).ne' this
    · rw [z x hin, z' x hin, mul_zero, mul_zero]
  have ec : c = c' := by
    have := integral_congr_ae e
    rwa [integral_const_mul, integral_const_mul, h1, h1', mul_one, mul_one] at this
  filter_upwards [e] with x hx
  rw [ec] at hx
  exact mul_left_cancel₀ hc'.ne' hx

end SmoothedAny

open SmoothedAny SmoothedTwoPeaks SmoothedJoint

/-! ## The property -/

variable {b : Backend} {prim : Primary} {fixed : Dict Fl} {selfMin selfMax : ℝ} {nM nQ : ℕ} {cache : Bool} {sm : Smoothed}

/-- **C167.** For every primary mass model: the joint density of the smoothed model determines the index of the mass
ratios, the lower limit, the range of the smoothing, and the whole density of the primary model before the smoothing. -/
theorem C167_transfer {kw kw' : Dict Fl} {F F' : ℝ → ℝ} {beta lo hi d beta' lo' hi' d' D : ℝ}
    (hsm : Smoothed.init prim fixed selfMin selfMax nM nQ cache = .ok sm) (hself : 0 < selfMin)
    (hlt : selfMin < selfMax) (hk : SmoothedFits b sm kw F beta lo hi d) (hk' : SmoothedFits b sm kw' F' beta' lo' hi' d')
    (h : lo + D < hi) (hdD : d ≤ D) (h' : lo' + D < hi') (hdD' : d' ≤ D)
    (hsame : ∀ᵐ x : ℝ × ℝ, 0 < x.1 → x.1 ≤ selfMax → 0 < x.2 → x.2 ≤ 1 →
      (Smoothed.call b sm [(fin x.1, fin x.2)] kw).1 = (Smoothed.call b sm [(fin x.1, fin x.2)] kw').1) :
    beta = beta' ∧ lo = lo' ∧ d = d' ∧ ∀ᵐ x : ℝ, F x = F' x := by
  have hmin : sm.mmin = selfMin := by rw [(init_inv hsm).2.2]
  have hmax : sm.mmax = selfMax := by rw [(init_inv hsm).2.2]
  have h0 : 0 < lo := hself.trans_le (hmin ▸ hk.lo_ge)
  have h0' : 0 < lo' := hself.trans_le (hmin ▸ hk'.lo_ge)
  obtain ⟨N, κ, hN, hκ, hn, e⟩ := any_value hsm hself hlt hk
  obtain ⟨N', κ', hN', hκ', hn', e'⟩ := any_value hsm hself hlt hk'
  obtain ⟨e1, e2, e3, hprim⟩ := pairOf_determined (c := 1 / N) (c' := 1 / N') h0 h hk.pos hk.d_pos hdD h0' h' hk'.pos
    hk'.d_pos hdD' (hmax ▸ hk.hi_le) (hmax ▸ hk'.hi_le) (by positivity) (by positivity)
    (fun m h1 h2 => hκ.trans_le (hn m h1 h2)) (fun m h1 h2 => hκ'.trans_le (hn' m h1 h2))
    (fun (e1 : beta = beta') (e2 : lo = lo') (e3 : d = d') m _ _ => by rw [e1, e2, e3]) (by
      filter_upwards [hsame, line lo, line lo'] with x hx n1 n2 h1 h2 h3 h4
      have := hx h1 h2 h3 h4
      rw [e _ _ h1 h2 n1 h3, e' _ _ h1 h2 n2 h3] at this
      have := Fl.fin.inj (List.cons.inj (Except.ok.inj this)).1
      rw [one_div_mul_eq_div, one_div_mul_eq_div]
      exact this)
  subst e1 e2 e3
  exact ⟨rfl, rfl, rfl, same_density hk.one hk'.one (hmax ▸ hk.zero) (hmax ▸ hk'.zero) h0
    (by positivity) hprim⟩

/-- **C167.** For every primary mass model: candidates that differ in the index of the mass ratios, the lower limit, the
range of the smoothing or the primary density are told apart by noisy data of detected sources. -/
theorem C167_recovers {J : Type} [Fintype J] {p : J → ℝ × ℝ → ℝ} {j₀ : J} {kw : J → Dict Fl} {F : J → ℝ → ℝ}
    {beta lo hi d : J → ℝ} {D : ℝ} {v₁ v₂ : NNReal} {Det : Set (ℝ × ℝ)}
    (hsm : Smoothed.init prim fixed selfMin selfMax nM nQ cache = .ok sm) (hself : 0 < selfMin)
    (hlt : selfMin < selfMax) (hk : ∀ j, SmoothedFits b sm (kw j) (F j) (beta j) (lo j) (hi j) (d j))
    (h : ∀ j, lo j + D < hi j) (hdD : ∀ j, d j ≤ D)
    (hinj : ∀ j, j ≠ j₀ → ¬ (beta j = beta j₀ ∧ lo j = lo j₀ ∧ d j = d j₀ ∧ ∀ᵐ x : ℝ, F j x = F j₀ x))
    (hp : ∀ j m q, 0 < m → m ≤ selfMax → m ≠ lo j → 0 < q → q ≤ 1 →
      (Smoothed.call b sm [(fin m, fin q)] (kw j)).1 = .ok [fin (p j (m, q))])
    (hm : ∀ j, Measurable (p j)) (hv₁ : v₁ ≠ 0) (hv₂ : v₂ ≠ 0) (hDet : MeasurableSet Det) :
    Recovers (volume.restrict (Ioc 0 selfMax ×ˢ Ioc 0 1)) volume (gaussianErrors2 v₁ v₂) Det p j₀ := by
  have hmin : sm.mmin = selfMin := by rw [(init_inv hsm).2.2]
  have hmax : sm.mmax = selfMax := by rw [(init_inv hsm).2.2]
  have h0 : ∀ j, 0 < lo j := fun j => hself.trans_le (hmin ▸ (hk j).lo_ge)
  have hX : ∀ j, hi j ≤ selfMax := fun j => hmax ▸ (hk j).hi_le
  have hz : ∀ j m, ¬ (lo j ≤ m ∧ m ≤ selfMax) → F j m = 0 := fun j => hmax ▸ (hk j).zero
  choose N κ hN hκ hn e using fun j => any_value hsm hself hlt (hk j)
  refine pairOf_recovers b h0 (fun j => (hk j).lo_lt) hX (H := fun _ => selfMax) (fun j => ⟨(hk j).nonneg, hz j,
    (hk j).integrable, (hk j).one⟩) (fun j => (hk j).pos) hN hκ hn
    (fun j x hx hne => Fl.fin.inj (List.cons.inj (Except.ok.inj ((hp j x.1 x.2 hx.1.1 hx.1.2 hne hx.2.1
      hx.2.2).symm.trans (e j x.1 x.2 hx.1.1 hx.1.2 hne hx.2.1)))).1) hm hv₁ hv₂ hDet fun j hj k hk0 hae => hinj j hj ?_
  have pN := hN j
  have pN0 := hN j₀
  obtain ⟨e1, e2, e3, hprim⟩ := pairOf_determined (c := 1 / N j) (c' := k / N j₀) (h0 j) (h j) (hk j).pos (hk j).d_pos
    (hdD j) (h0 j₀) (h j₀) (hk j₀).pos (hk j₀).d_pos (hdD j₀) (hX j) (hX j₀) (by positivity) (by positivity)
    (fun m h1 h2 => (hκ j).trans_le (hn j m h1 h2)) (fun m h1 h2 => (hκ j₀).trans_le (hn j₀ m h1 h2))
    (fun (e1 : beta j = beta j₀) (e2 : lo j = lo j₀) (e3 : d j = d j₀) m _ _ => by rw [e1, e2, e3]) hae
  rw [e2, e3] at hprim
  exact ⟨e1, e2, e3, same_density (hk j).one (hk j₀).one (e2 ▸ hz j) (hz j₀) (h0 j₀)
    (by positivity) hprim⟩

/-- The keyword arguments of the smoothed broken power law fit. -/
theorem SmoothedAny.broken_fits (py : Bool) {a1 a2 beta lo hi bf d : ℝ}
    (hsm : brokenPowerLaw py selfMin selfMax nM nQ cache = .ok sm) (hself : 0 < selfMin)
    (ha1 : b = .jax ∨ a1 ≠ -1) (ha2 : b = .jax ∨ a2 ≠ -1) (hlo : selfMin ≤ lo) (h : lo < hi) (hX : hi ≤ selfMax)
    (b0 : 0 < bf) (b1 : bf < 1) (hd : 0 < d) (hnode : ∃ m ∈ sm.m1s, lo < m ∧ m < hi) (hgrid : lo ∉ sm.m1s) :
    SmoothedFits b sm (brokenCall a1 a2 beta lo hi bf d)
      (Spec.normalised (brokenShape a1 a2 (lo + bf * (hi - lo))) lo hi) beta lo hi d := by
  have hsme := (init_inv hsm).2.2
  have hmin : sm.mmin = selfMin := by rw [hsme]
  have hmax : sm.mmax = selfMax := by rw [hsme]
  have hfix : sm.fixed = [] := by rw [hsme]
  have hprim : sm.primary = primDoublePowerLaw py := by rw [hsme]
  have h0 : 0 < lo := hself.trans_le hlo
  have hb : 0 < lo + bf * (hi - lo) := by
    have : 0 < bf * (hi - lo) := mul_pos b0 (by linarith)
    linarith
  have pdf := (isPdf_broken a1 a2 h0 hb h).mono hX
  refine ⟨by simp [brokenCall, Dict.get?_cons], by simp [brokenCall, Dict.get?_cons], by simp [brokenCall, Dict.get?_cons],
    ?_, fun k _ => by rw [hfix]; simp [Dict.keys], fun m hm => ?_, pdf.nonneg, hmax ▸ pdf.supp, pdf.int, pdf.one,
    fun m h1 h2 => ?_, hmin ▸ hlo, h, hmax ▸ hX, hd, hnode, hgrid⟩
  · rw [hmax]
    simp [Smoothed.kwGet, brokenCall, Dict.get?_cons]
    exact hX
  · have ek : Dict.erase (Dict.erase (brokenCall a1 a2 beta lo hi bf d) "beta" ++ sm.fixed) "delta_m" =
        [("alpha_1", fin a1), ("alpha_2", fin a2), ("mmin", fin lo), ("mmax", fin hi), ("break_fraction", fin bf)] := by
      rw [hfix]
      simp [Dict.erase, brokenCall]
    rw [ek, hprim, ← C17_doublePowerLaw_value b py ha1 ha2 h0 h b0 b1 hm]
    unfold primDoublePowerLaw bindArgs
    rw [if_neg (by simp [Dict.keys, Dict.contains])]
    rfl
  · unfold Spec.normalised
    rw [if_pos ⟨h1.le, h2.le⟩]
    exact div_pos (brokenShape_pos _ _ hb (h0.trans h1)) (integral_brokenShape_pos _ _ h0 hb h)

/-- **C167.** The joint density of the smoothed broken power law determines both indices, the index of the mass ratios, both
limits and the range of the smoothing, and the break unless the two indices are equal. -/
theorem C167_broken (py : Bool) {a1 a2 beta lo hi bf d a1' a2' beta' lo' hi' bf' d' D : ℝ}
    (hsm : brokenPowerLaw py selfMin selfMax nM nQ cache = .ok sm) (hself : 0 < selfMin) (hlt : selfMin < selfMax)
    (ha1 : b = .jax ∨ a1 ≠ -1) (ha2 : b = .jax ∨ a2 ≠ -1) (hlo : selfMin ≤ lo) (h : lo + D < hi) (hX : hi ≤ selfMax)
    (b0 : 0 < bf) (b1 : bf < 1) (hd : 0 < d) (hdD : d ≤ D) (hnode : ∃ m ∈ sm.m1s, lo < m ∧ m < hi) (hgrid : lo ∉ sm.m1s)
    (ha1' : b = .jax ∨ a1' ≠ -1) (ha2' : b = .jax ∨ a2' ≠ -1) (hlo' : selfMin ≤ lo') (h' : lo' + D < hi')
    (hX' : hi' ≤ selfMax) (b0' : 0 < bf') (b1' : bf' < 1) (hd' : 0 < d') (hdD' : d' ≤ D)
    (hnode' : ∃ m ∈ sm.m1s, lo' < m ∧ m < hi') (hgrid' : lo' ∉ sm.m1s)
    (hsame : ∀ᵐ x : ℝ × ℝ, 0 < x.1 → x.1 ≤ selfMax → 0 < x.2 → x.2 ≤ 1 →
      (Smoothed.call b sm [(fin x.1, fin x.2)] (brokenCall a1 a2 beta lo hi bf d)).1 =
        (Smoothed.call b sm [(fin x.1, fin x.2)] (brokenCall a1' a2' beta' lo' hi' bf' d')).1) :
    a1 = a1' ∧ a2 = a2' ∧ beta = beta' ∧ lo = lo' ∧ hi = hi' ∧ d = d' ∧ (a1 ≠ a2 → bf = bf') := by
  have lh : lo < hi := by linarith
  have lh' : lo' < hi' := by linarith
  have h0 : 0 < lo := hself.trans_le hlo
  have h0' : 0 < lo' := hself.trans_le hlo'
  obtain ⟨e1, e2, e3, hF⟩ := C167_transfer hsm hself hlt (broken_fits py hsm hself ha1 ha2 hlo lh hX b0 b1 hd hnode hgrid)
    (broken_fits py hsm hself ha1' ha2' hlo' lh' hX' b0' b1' hd' hnode' hgrid') h hdD h' hdD' hsame
  obtain ⟨f1, f2, f3, f4, f5⟩ := C156_broken b py h0 lh h0' lh' b0 b1 b0' b1' ha1 ha2 ha1' ha2' (by
    filter_upwards [hF] with x hx hx0
    rw [C17_doublePowerLaw_value b py ha1 ha2 h0 lh b0 b1 hx0, C17_doublePowerLaw_value b py ha1' ha2' h0' lh' b0' b1' hx0,
      hx])
  exact ⟨f1, f2, e1, f3, f4, e3, f5⟩

/-- **C167.** All seven parameters of the smoothed broken power law are found from noisy primary masses and mass ratios of
detected sources. -/
theorem C167_broken_recovers {J : Type} [Fintype J] {p : J → ℝ × ℝ → ℝ} {j₀ : J} (py : Bool)
    {a1 a2 beta lo hi bf d : J → ℝ} {D : ℝ} {v₁ v₂ : NNReal} {Det : Set (ℝ × ℝ)}
    (hsm : brokenPowerLaw py selfMin selfMax nM nQ cache = .ok sm) (hself : 0 < selfMin) (hlt : selfMin < selfMax)
    (ha1 : ∀ j, b = .jax ∨ a1 j ≠ -1) (ha2 : ∀ j, b = .jax ∨ a2 j ≠ -1) (hlo : ∀ j, selfMin ≤ lo j)
    (h : ∀ j, lo j + D < hi j) (hX : ∀ j, hi j ≤ selfMax) (b0 : ∀ j, 0 < bf j) (b1 : ∀ j, bf j < 1) (hd : ∀ j, 0 < d j)
    (hdD : ∀ j, d j ≤ D) (hnode : ∀ j, ∃ m ∈ sm.m1s, lo j < m ∧ m < hi j) (hgrid : ∀ j, lo j ∉ sm.m1s)
    (hne : a1 j₀ ≠ a2 j₀)
    (hinj : ∀ j, j ≠ j₀ → (a1 j, a2 j, beta j, lo j, hi j, bf j, d j) ≠
      (a1 j₀, a2 j₀, beta j₀, lo j₀, hi j₀, bf j₀, d j₀))
    (hp : ∀ j m q, 0 < m → m ≤ selfMax → m ≠ lo j → 0 < q → q ≤ 1 → (Smoothed.call b sm [(fin m, fin q)]
      (brokenCall (a1 j) (a2 j) (beta j) (lo j) (hi j) (bf j) (d j))).1 = .ok [fin (p j (m, q))])
    (hm : ∀ j, Measurable (p j)) (hv₁ : v₁ ≠ 0) (hv₂ : v₂ ≠ 0) (hDet : MeasurableSet Det) :
    Recovers (volume.restrict (Ioc 0 selfMax ×ˢ Ioc 0 1)) volume (gaussianErrors2 v₁ v₂) Det p j₀ := by
  have lh : ∀ j, lo j < hi j := fun j => by linarith [h j, hd j, hdD j]
  have h0 : ∀ j, 0 < lo j := fun j => hself.trans_le (hlo j)
  refine C167_recovers hsm hself hlt (fun j => broken_fits py hsm hself (ha1 j) (ha2 j) (hlo j) (lh j) (hX j) (b0 j) (b1 j)
    (hd j) (hnode j) (hgrid j)) h hdD (fun j hj hall => hinj j hj ?_) hp hm hv₁ hv₂ hDet
  obtain ⟨e1, e2, e3, hF⟩ := hall
  obtain ⟨f1, f2, f3, f4, f5⟩ := C156_broken b py (h0 j) (lh j) (h0 j₀) (lh j₀) (b0 j) (b1 j) (b0 j₀) (b1 j₀) (ha1 j)
    (ha2 j) (ha1 j₀) (ha2 j₀) (by
      filter_upwards [hF] with x hx hx0
      rw [C17_doublePowerLaw_value b py (ha1 j) (ha2 j) (h0 j) (lh j) (b0 j) (b1 j) hx0,
        C17_doublePowerLaw_value b py (ha1 j₀) (ha2 j₀) (h0 j₀) (lh j₀) (b0 j₀) (b1 j₀) hx0, hx])
  rw [f1, f2, e1, f3, f4, e3, f5 (by rw [f1, f2]; exact hne)]

/-! ## Non-vacuity -/

/-- Candidates for the break and the range of the smoothing, with the defaults of the class for the grids. -/
example (py cache : Bool) {v₁ v₂ : NNReal} {Det : Set (ℝ × ℝ)} (hv₁ : v₁ ≠ 0) (hv₂ : v₂ ≠ 0) (hD : MeasurableSet Det) :
    ∃ (sm : Smoothed) (p : Bool × Bool → ℝ × ℝ → ℝ),
    brokenPowerLaw py 2 100 1000 500 cache = .ok sm ∧ (∀ j, Measurable (p j)) ∧
    (∀ j m q, 0 < m → m ≤ 100 → m ≠ 5 → 0 < q → q ≤ 1 → (Smoothed.call .numpy sm [(fin m, fin q)]
      (brokenCall 1.6 5.6 1.1 5 85 (if j.2 then 0.4 else 0.5) (if j.1 then 4.8 else 5))).1 = .ok [fin (p j (m, q))]) ∧
    Recovers (volume.restrict (Ioc 0 100 ×ˢ Ioc 0 1)) volume (gaussianErrors2 v₁ v₂) Det p (true, true) := by
  obtain ⟨d, hde⟩ : ∃ a : Bool × Bool → ℝ, a = fun j => if j.1 then 4.8 else 5 := ⟨_, rfl⟩
  obtain ⟨k, hk⟩ : ∃ a : Bool × Bool → ℝ, a = fun j => if j.2 then 0.4 else 0.5 := ⟨_, rfl⟩
  have d0 : ∀ j, 0 < d j := fun j => by rcases j with ⟨_ | _, _⟩ <;> norm_num [hde]
  have d1 : ∀ j, d j ≤ 5 := fun j => by rcases j with ⟨_ | _, _⟩ <;> norm_num [hde]
  have k0 : ∀ j, 0 < k j := fun j => by rcases j with ⟨_, _ | _⟩ <;> norm_num [hk]
  have k1 : ∀ j, k j < 1 := fun j => by rcases j with ⟨_, _ | _⟩ <;> norm_num [hk]
  obtain ⟨sm, hsm⟩ : ∃ sm, brokenPowerLaw py 2 100 1000 500 cache = .ok sm :=
    ⟨_, init_ok (primDoublePowerLaw py) [] 2 100 (nM := 1000) (nQ := 500) cache (by norm_num) (by norm_num)⟩
  have hms : sm.m1s = Arr.linspaceR 2 100 1000 := by
    have := (init_inv hsm).2.2
    rw [this]
  have hlen : 2 ≤ sm.m1s.length := by rw [hms, linspaceR_length]; norm_num
  have hnode : ∃ m ∈ sm.m1s, (5 : ℝ) < m ∧ m < 85 := by
    rw [hms]
    unfold Arr.linspaceR
    exact ⟨_, List.mem_map.2 ⟨100, List.mem_range.2 (by norm_num), rfl⟩, by norm_num, by norm_num⟩
  have hgrid : (5 : ℝ) ∉ sm.m1s := by
    rw [hms]
    unfold Arr.linspaceR
    intro hh
    obtain ⟨i, -, hi⟩ := List.mem_map.1 hh
    have h2 : (98 : ℝ) * i = 2997 := by
      norm_num at hi
      linarith
    have h3 : 98 * i = 2997 := by exact_mod_cast h2
    omega
  choose N κ hN hκ hn e using fun j => any_value hsm (by norm_num) (by norm_num) (broken_fits (b := .numpy) (a1 := 1.6)
    (a2 := 5.6) (beta := 1.1) (lo := 5) (hi := 85) py hsm (by norm_num) (Or.inr (by norm_num)) (Or.inr (by norm_num))
    (by norm_num) (by norm_num) (by norm_num) (k0 j) (k1 j) (d0 j) hnode hgrid)
  have hm : ∀ j, Measurable fun x : ℝ × ℝ => pairOf (Spec.normalised (brokenShape 1.6 5.6 (5 + k j * (85 - 5))) 5 85) 1.1 5
      (d j) 100 (normAt .numpy sm 1.1 5 (d j)) x.1 x.2 / N j := fun j => by
    refine Measurable.div_const ?_ _
    unfold pairOf
    refine Measurable.ite (measurableSet_lt measurable_const measurable_fst) (Measurable.mul (Measurable.mul ?_ ?_)
      (Measurable.div ?_ ((normAt_measurable .numpy hlen _ _ _).comp measurable_fst))) measurable_const
    · have : Measurable (Spec.normalised (brokenShape 1.6 5.6 (5 + k j * (85 - 5))) 5 85) := by
        unfold Spec.normalised brokenShape
        exact Measurable.ite measurableSet_Icc (Measurable.div_const (Measurable.ite measurableSet_Iio
          ((measurable_id.div_const _).pow_const _) ((measurable_id.div_const _).pow_const _)) _) measurable_const
      exact this.comp measurable_fst
    · have : Measurable (window 5 100 (d j)) := by
        unfold window
        exact Measurable.ite measurableSet_Icc
          (taper_continuous.measurable.comp ((measurable_id.sub_const _).div_const _)) measurable_const
      exact this.comp measurable_fst
    · unfold shape
      refine Measurable.mul ?_ ?_
      · unfold Spec.normalised
        refine Measurable.ite ((measurableSet_le (measurable_const.div measurable_fst) measurable_snd).inter
          (measurableSet_le measurable_snd measurable_const)) ((measurable_snd.pow_const _).div ?_) measurable_const
        exact (integral_rpow_measurable 1.1).comp (measurable_const.div measurable_fst)
      · unfold window
        exact Measurable.ite ((measurableSet_le measurable_const (measurable_fst.mul measurable_snd)).inter
          (measurableSet_le (measurable_fst.mul measurable_snd) measurable_fst))
          (taper_continuous.measurable.comp (((measurable_fst.mul measurable_snd).sub_const _).div_const _))
          measurable_const
  refine ⟨sm, _, hsm, hm, fun j m q h1 h2 h3 h4 _ => by rw [← e j m q h1 h2 h3 h4, hde, hk],
    C167_broken_recovers (beta := fun _ => 1.1) (d := d) (bf := k) (b := .numpy) py (D := 5)
    (a1 := fun _ => 1.6) (a2 := fun _ => 5.6) (lo := fun _ => 5) (hi := fun _ => 85) hsm (by norm_num) (by norm_num)
    (fun _ => Or.inr (by norm_num)) (fun _ => Or.inr (by norm_num)) (fun _ => by norm_num) (fun _ => by norm_num)
    (fun _ => by norm_num) k0 k1 d0 d1 (fun _ => hnode) (fun _ => hgrid) (by norm_num) (fun j hj => ?_)
    (fun j m q h1 h2 h3 h4 _ => e j m q h1 h2 h3 h4) hm hv₁ hv₂ hD⟩
  rcases j with ⟨_ | _, _ | _⟩
  · norm_num [hde]
  · norm_num [hde]
  · norm_num [hk]
  · exact absurd rfl hj

end GW
