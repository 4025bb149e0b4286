import Verif.Props.GradientsMass
import Verif.Props.ContinuitySmoothed

/-!
# C92: gradients of the smoothed mass models
-/

noncomputable section

open Classical Set Filter Topology

namespace GW

open Fl Ex Spec

/-! ## Recorded computations -/

theorem trace_trapz (env : String → Fl) (ys : List Ex) (xs : List ℝ) :
    eval env (trapzEx ys xs) = Arr.trapz (ys.map (eval env)) (xs.map fin) := by
  induction ys generalizing xs with
  | nil => cases xs <;> rfl
  | cons y0 ys ih =>
    cases ys with
    | nil => cases xs <;> rfl
    | cons y1 ys =>
      cases xs with
      | nil => rfl
      | cons x0 xs =>
        cases xs with
        | nil => rfl
        | cons x1 xs =>
          have := ih (x1 :: xs)
          rw [trapzEx, eval_add, this]
          rfl

theorem trace_orOne (env : String → Fl) (n d : Ex) : eval env (orOneEx n d) =
    nanToNum (eval env n) * ind (¬ eqf (eval env d) 0) + 1 * ind (eqf (eval env d) 0) := rfl

theorem trace_pQRaw (env : String → Fl) (beta lo d : Ex) (m q : Fl) :
    pQVal .jax (eval env beta) (eval env lo) (eval env d) m q = eval env (pQRawEx beta lo d m q) := by
  unfold pQVal pQRawEx massRatioFactor
  rw [eval_mul, ← trace_smoothing]
  have := trace_powerlaw env (const q) beta (const 1) (lo / const m) false false false false
  simp only [pos]
  rw [show (⟨q, false⟩ : Arg) = ⟨eval env (const q), false⟩ from rfl,
    show (⟨1, false⟩ : Arg) = ⟨eval env (const 1), false⟩ from rfl,
    show (⟨eval env lo / m, false⟩ : Arg) = ⟨eval env (lo / const m), false⟩ from rfl, this]
  rfl

theorem trace_qNorm (env : String → Fl) (s : Smoothed) (beta lo d : Ex) (m : ℝ) :
    qNormAt .jax s (eval env beta) (eval env lo) (eval env d) m = eval env (qNormEx s beta lo d m) := by
  unfold qNormAt qNormEx
  rw [trace_orOne, trace_trapz, List.map_map]
  simp only [trace_pQRaw]
  rfl

theorem trace_qNormAt (env : String → Fl) {s : Smoothed} (h2 : 2 ≤ s.m1s.length) (beta lo d : Ex) (m : ℝ) :
    interpLinear s.m1s (s.m1s.map (qNormAt .jax s (eval env beta) (eval env lo) (eval env d))) (fin m) =
      eval env (qNormAtEx s beta lo d m) := by
  unfold interpLinear qNormAtEx
  simp only
  set i := min ((s.m1s.filter (fun x => x ≤ m)).length - 1) (s.m1s.length - 2) with hi
  have hget : ∀ j, j < s.m1s.length → (s.m1s.map (qNormAt .jax s (eval env beta) (eval env lo)
      (eval env d))).getD j nan = eval env (qNormEx s beta lo d (s.m1s.getD j 0)) := by
    intro j hj
    rw [List.getD_eq_getElem _ _ (by simpa using hj), List.getElem_map, trace_qNorm,
      List.getD_eq_getElem _ _ hj]
  rw [hget i (by omega), hget (i + 1) (by omega)]
  rfl

theorem trace_pQ (env : String → Fl) {s : Smoothed} (h2 : 2 ≤ s.m1s.length)
    (hfresh : s.cache = false ∨ s.qMasses = none) (beta lo d : Ex) (data : List (ℝ × ℝ)) :
    (Smoothed.pQ .jax s (data.map fun e => (fin e.1, fin e.2)) (eval env beta) (eval env lo)
      (eval env d)).1 = .ok (data.map fun e => eval env (pQEx s beta lo d e.1 e.2)) := by
  rw [pQ_fresh .jax s _ _ _ _ (by tauto), List.map_map]
  congr 1
  apply List.map_congr_left
  intro e _
  simp only [Function.comp_apply]
  rw [trace_pQRaw, trace_qNormAt env h2]
  rfl

theorem trace_pM1 (env : String → Fl) {s : Smoothed} {kwargs : Dict Fl} {lo d : Ex} {prim : Ex → Ex}
    (hlo : Smoothed.kwGet kwargs "mmin" (fin s.mmin) = eval env lo)
    (hlo' : Smoothed.kwGet (Dict.erase kwargs "delta_m") "mmin" (fin s.mmin) = eval env lo)
    (hd : Smoothed.kwGet kwargs "delta_m" 0 = eval env d)
    (hp : ∀ m : ℝ, s.primary .jax (Dict.erase kwargs "delta_m") (fin m) = .ok (eval env (prim (const (fin m)))))
    (masses : List ℝ) :
    Smoothed.pM1 .jax s (masses.map fin) kwargs =
      .ok (masses.map fun m => eval env (pM1Ex s prim lo d (fin m))) := by
  have hraw : ∀ m : ℝ, Smoothed.pMRaw .jax s (Dict.erase kwargs "delta_m") (eval env lo) (eval env d)
      (fin m) = .ok (eval env (prim (const (fin m)) *
        smoothingEx (const (fin m)) lo (const (fin s.mmax)) d)) := by
    intro m
    unfold Smoothed.pMRaw
    rw [hp, ok_bind, eval_mul, ← trace_smoothing]
    rfl
  have hnorm : Smoothed.normPM1 .jax s (eval env d) (Dict.erase kwargs "delta_m") =
      .ok (eval env (orOneEx (trapzEx (s.m1s.map fun m => prim (const (fin m)) *
        smoothingEx (const (fin m)) lo (const (fin s.mmax)) d) s.m1s) d)) := by
    unfold Smoothed.normPM1
    simp only [ne_eq, not_true_eq_false, false_and, if_false]
    rw [hlo', mapM_ok (g := fun m => eval env (prim (const (fin m)) *
        smoothingEx (const (fin m)) lo (const (fin s.mmax)) d)) fun m _ => hraw m, ok_bind, trace_orOne,
      trace_trapz, List.map_map]
    rfl
  unfold Smoothed.pM1
  simp only [hlo, hd]
  rw [hnorm, mapM_map, mapM_ok (g := fun m => eval env (prim (const (fin m)) *
        smoothingEx (const (fin m)) lo (const (fin s.mmax)) d)) fun m _ => hraw m, ok_bind, ok_bind,
    pure_eq_ok, List.map_map]
  rfl

/-- The call on jax returns the values of the recorded computations. -/
theorem trace_call {s : Smoothed} (h2 : 2 ≤ s.m1s.length) (hfresh : s.cache = false ∨ s.qMasses = none)
    {names : List String} (hb : "beta" ∈ names) (hl : "mmin" ∈ names) (hd : "delta_m" ∈ names)
    (hdup : ∀ k ∈ Dict.keys s.fixed, k ∉ names) {prim : Ex → Ex} (θ : String → ℝ)
    (hp : ∀ m : ℝ, s.primary .jax (Dict.erase (Dict.erase (namedArgs names θ) "beta" ++ s.fixed) "delta_m")
      (fin m) = .ok (eval (envOf θ) (prim (const (fin m))))) (data : List (ℝ × ℝ)) :
    (Smoothed.call .jax s (data.map fun e => (fin e.1, fin e.2)) (namedArgs names θ)).1 =
      .ok (data.map fun e => eval (envOf θ) (smoothedEx s prim (arg "beta") (arg "mmin") (arg "delta_m")
        e.1 e.2)) := by
  have hkw : ∀ k dflt, k ≠ "beta" → k ∈ names →
      Smoothed.kwGet (Dict.erase (namedArgs names θ) "beta") k dflt = fin (θ k) := by
    intro k dflt hk hv
    unfold Smoothed.kwGet
    rw [Dict.get?_erase, if_neg hk, get?_namedArgs θ hv]; rfl
  have hkw' : ∀ k dflt, k ≠ "beta" → k ∈ names →
      Smoothed.kwGet (Dict.erase (namedArgs names θ) "beta" ++ s.fixed) k dflt = fin (θ k) := by
    intro k dflt hk hv
    unfold Smoothed.kwGet
    rw [Dict.get?_append, Dict.get?_erase, if_neg hk, get?_namedArgs θ hv]; rfl
  have hkw'' : ∀ k dflt, k ≠ "beta" → k ≠ "delta_m" → k ∈ names →
      Smoothed.kwGet (Dict.erase (Dict.erase (namedArgs names θ) "beta" ++ s.fixed) "delta_m") k dflt =
        fin (θ k) := by
    intro k dflt hk hk2 hv
    unfold Smoothed.kwGet
    rw [Dict.get?_erase, if_neg hk2, Dict.get?_append, Dict.get?_erase, if_neg hk, get?_namedArgs θ hv]
    rfl
  unfold Smoothed.call
  rw [get?_namedArgs θ hb]
  simp only
  rw [if_neg (by simp), if_neg (by simp), if_neg ?_]
  · have e1 := trace_pM1 (envOf θ) (s := s) (lo := arg "mmin") (d := arg "delta_m") (prim := prim)
      (kwargs := Dict.erase (namedArgs names θ) "beta" ++ s.fixed)
      (hkw' _ _ (by decide) hl) (hkw'' _ _ (by decide) (by decide) hl) (hkw' _ _ (by decide) hd) hp
      (data.map Prod.fst)
    have e1' : (data.map fun e => (fin e.1, fin e.2)).map Prod.fst = (data.map Prod.fst).map fin := by
      rw [List.map_map, List.map_map]; rfl
    rw [e1', e1]
    simp only
    rw [hkw _ _ (by decide) hl, hkw _ _ (by decide) hd]
    have e2 := trace_pQ (envOf θ) h2 hfresh (arg "beta") (arg "mmin") (arg "delta_m") data
    simp only [eval_arg, envOf] at e2
    rcases hQ : Smoothed.pQ .jax s (data.map fun e => (fin e.1, fin e.2)) (fin (θ "beta"))
      (fin (θ "mmin")) (fin (θ "delta_m")) with ⟨r, s'⟩
    rw [hQ] at e2
    simp only at e2
    subst e2
    rw [hQ]
    simp only
    rw [broadcast_same .jax _ (by simp), List.map_map, List.zipWith_map, List.zipWith_self]
    rfl
  · rintro ⟨k, hk, hk'⟩
    rw [Dict.keys_erase, keys_namedArgs] at hk
    exact hdup k hk' (List.mem_filter.1 hk).1

/-! ## Differentiability -/

theorem smooth_mask_const (θ : String → ℝ) (v : String) (c : CmpOp) (a b : Fl) :
    Smooth θ v (mask c (const a) (const b)) := .of_forall fun _ => Iff.rfl

theorem smooth_trapz {θ : String → ℝ} {v : String} {ys : List Ex} (h : ∀ y ∈ ys, Smooth θ v y)
    (xs : List ℝ) : Smooth θ v (trapzEx ys xs) := by
  induction ys generalizing xs with
  | nil => cases xs <;> exact smooth_const θ v 0
  | cons y0 ys ih =>
    cases ys with
    | nil => cases xs <;> exact smooth_const θ v 0
    | cons y1 ys =>
      cases xs with
      | nil => exact smooth_const θ v 0
      | cons x0 xs =>
        cases xs with
        | nil => exact smooth_const θ v 0
        | cons x1 xs =>
          exact smooth_add (smooth_div (smooth_mul (smooth_const θ v _) (smooth_add (h _ (by simp))
            (h _ (by simp)))) (smooth_const θ v 2) (b := 2) rfl two_ne_zero)
            (ih (fun y hy => h y (List.mem_cons_of_mem _ hy)) (x1 :: xs))

theorem smooth_orOne {θ : String → ℝ} {v : String} {n d : Ex} (hn : Smooth θ v n) (hd : Smooth θ v d)
    {dr : ℝ} (ed : eval (envOf θ) d = fin dr) (h0 : dr ≠ 0) : Smooth θ v (orOneEx n d) :=
  smooth_add (smooth_mul (smooth_un' (o := .nanToNum) (fun _ => trivial) hn)
    (smooth_mask hd (smooth_const θ v 0) ed rfl h0)) (smooth_mul (smooth_const θ v 1)
    (smooth_mask hd (smooth_const θ v 0) ed rfl h0))

namespace Spec

/-- The mass `t` is not at `mmin`, nor at one of the two masses where the window of width `deltaM` is clipped. -/
def OffKinks (mmin deltaM t : ℝ) : Prop :=
  t ≠ mmin ∧ t ≠ mmin + 1e-6 * deltaM ∧ t ≠ mmin + (1 - 1e-6) * deltaM

end Spec

theorem offKinks_inv {lo d t : ℝ} (hd : d ≠ 0) (h : OffKinks lo d t) :
    (t - lo) / d ≠ 1e-6 ∧ (t - lo) / d ≠ 1 - 1e-6 := by
  obtain ⟨-, h1, h2⟩ := h
  refine ⟨fun h' => h1 ?_, fun h' => h2 ?_⟩ <;> rw [div_eq_iff hd] at h' <;> linarith

theorem smooth_windowAt {θ : String → ℝ} {v : String} (hd : 0 < θ "delta_m") {t : ℝ} (hi : Fl)
    (hk : OffKinks (θ "mmin") (θ "delta_m") t) :
    Smooth θ v (smoothingEx (const (fin t)) (arg "mmin") (const hi) (arg "delta_m")) :=
  smooth_smoothing (smooth_const θ v t) trivial trivial rfl rfl rfl hd.ne'
    (offKinks_inv hd.ne' hk).1 (offKinks_inv hd.ne' hk).2
    (smooth_mask trivial (smooth_const θ v t) rfl rfl hk.1.symm) (smooth_mask_const θ v _ _ _)

theorem smooth_pQRaw {θ : String → ℝ} {v : String} (hd : 0 < θ "delta_m") (h0 : 0 < θ "mmin")
    (hb : θ "beta" ≠ -1) {m q : ℝ} (hm : 0 < m) (hq : 0 < q) (hne : m ≠ θ "mmin")
    (hk : OffKinks (θ "mmin") (θ "delta_m") (m * q)) :
    Smooth θ v (pQRawEx (arg "beta") (arg "mmin") (arg "delta_m") (fin m) (fin q)) := by
  have sl : Smooth θ v (arg "mmin" / const (fin m)) := smooth_div trivial (smooth_const θ v m) rfl hm.ne'
  have el : eval (envOf θ) (arg "mmin" / const (fin m)) = fin (θ "mmin" / m) := by
    rw [eval_div]; exact fin_div hm.ne'
  unfold pQRawEx
  rw [fin_mul]
  refine smooth_mul (smooth_powerlaw (smooth_const θ v q) trivial (smooth_const θ v 1) sl rfl rfl rfl el
    hq hb (by positivity) one_pos ?_ (smooth_mask_const θ v _ _ _) (smooth_mask sl (smooth_const θ v q) el
      rfl ?_)) (smooth_windowAt hd _ hk)
  · intro h
    rw [eq_div_iff hm.ne', one_mul] at h
    exact hne h
  · intro h
    rw [div_eq_iff hm.ne'] at h
    exact hk.1 (by rw [h]; ring)

theorem smooth_smoothed {θ : String → ℝ} {v : String} {s : Smoothed} {prim : Ex → Ex}
    (hd : 0 < θ "delta_m") (h0 : 0 < θ "mmin") (hb : θ "beta" ≠ -1) {m q : ℝ} (hm : 0 < m) (hq : 0 < q)
    (h2 : 2 ≤ s.m1s.length) (hms : ∀ a ∈ s.m1s, 0 < a) (hqs : ∀ b ∈ s.qs, 0 < b)
    (kg : ∀ a ∈ s.m1s, OffKinks (θ "mmin") (θ "delta_m") a)
    (kp : ∀ a ∈ s.m1s, ∀ b ∈ s.qs, OffKinks (θ "mmin") (θ "delta_m") (a * b))
    (km : OffKinks (θ "mmin") (θ "delta_m") m) (kq : OffKinks (θ "mmin") (θ "delta_m") (m * q))
    (hp : ∀ a, a ∈ s.m1s ∨ a = m → Smooth θ v (prim (const (fin a)))) {N Y : ℝ}
    (hN : eval (envOf θ) (orOneEx (trapzEx (s.m1s.map fun m => prim (const (fin m)) *
      smoothingEx (const (fin m)) (arg "mmin") (const (fin s.mmax)) (arg "delta_m")) s.m1s)
      (arg "delta_m")) = fin N) (hN0 : N ≠ 0)
    (hY : eval (envOf θ) (qNormAtEx s (arg "beta") (arg "mmin") (arg "delta_m") m) = fin Y) (hY0 : Y ≠ 0) :
    Smooth θ v (smoothedEx s prim (arg "beta") (arg "mmin") (arg "delta_m") m q) := by
  have sn : ∀ a ∈ s.m1s, Smooth θ v (qNormEx s (arg "beta") (arg "mmin") (arg "delta_m") a) := by
    intro a ha
    refine smooth_orOne (smooth_trapz (fun y hy => ?_) _) trivial rfl hd.ne'
    obtain ⟨b, hb', rfl⟩ := List.mem_map.1 hy
    exact smooth_pQRaw hd h0 hb (hms a ha) (hqs b hb') (kg a ha).1 (kp a ha b hb')
  refine smooth_mul (smooth_div (smooth_mul (hp m (.inr rfl)) (smooth_windowAt hd _ km)) (smooth_orOne
    (smooth_trapz (fun y hy => ?_) _) trivial rfl hd.ne') hN hN0) (smooth_un' (o := .nanToNum)
      (fun _ => trivial) (smooth_div (smooth_pQRaw hd h0 hb hm hq km.1 kq) ?_ hY hY0))
  · obtain ⟨a, ha, rfl⟩ := List.mem_map.1 hy
    exact smooth_mul (hp a (.inl ha)) (smooth_windowAt hd _ (kg a ha))
  · have hmem : ∀ j, j < s.m1s.length → s.m1s.getD j 0 ∈ s.m1s := fun j hj => by
      rw [List.getD_eq_getElem _ _ hj]; exact List.getElem_mem hj
    unfold qNormAtEx
    simp only
    exact smooth_add (sn _ (hmem _ (by omega))) (smooth_mul (smooth_const θ v _)
      (smooth_sub (sn _ (hmem _ (by omega))) (sn _ (hmem _ (by omega)))))

/-! ## Sources below the minimum mass -/

/-- What comes back from a power law to its spectral index, for a NaN. -/
theorem back_powerlaw_nan (env : String → Fl) (x h l : Ex) (k : String) :
    back env k (powerlawEx x (arg k) h l) nan = nan := by
  unfold powerlawEx
  rw [back_mul, back_mul, nan_mul, nan_mul, back_bin]
  simp only [BinOp.backR, nan_mul, back_arg, if_pos, add_nan, nan_add]

/-- If the interpolated norm and the unnormalised density vanish, then NaN comes back for `beta`. -/
theorem back_pQ_nan {env : String → Fl} {s : Smoothed} {lo d : Ex} {m q : ℝ}
    (h1 : eval env (pQRawEx (arg "beta") lo d (fin m) (fin q)) = fin 0)
    (h2 : eval env (qNormAtEx s (arg "beta") lo d m) = fin 0) (ct : Fl) :
    back env "beta" (pQEx s (arg "beta") lo d m q) ct = nan := by
  have e : eval env (pQRawEx (arg "beta") lo d (fin m) (fin q) / qNormAtEx s (arg "beta") lo d m) = nan := by
    rw [eval_div, h1, h2]; simp
  unfold pQEx
  rw [back_un, e]
  simp only [UnOp.back]
  rw [if_neg (by simp), back_div, h2]
  have : (0 : Fl) / fin 0 = nan := by simp
  rw [this]
  unfold pQRawEx
  rw [back_mul, nan_mul, back_powerlaw_nan, nan_add, nan_add]

theorem pQRaw_below {θ : String → ℝ} (hd : 0 < θ "delta_m") (h0 : 0 < θ "mmin") {m q : ℝ} (hm : 0 < m)
    (hq : 0 < q) (hlt : m < θ "mmin") :
    eval (envOf θ) (pQRawEx (arg "beta") (arg "mmin") (arg "delta_m") (fin m) (fin q)) = fin 0 := by
  rw [← trace_pQRaw]
  show pQVal .jax (fin (θ "beta")) (fin (θ "mmin")) (fin (θ "delta_m")) (fin m) (fin q) = _
  unfold pQVal
  rw [massRatioFactor_eq .jax h0 hm hlt.ne hq, fin_mul, smoothing_fin .jax _ _ m hd, if_neg]
  · show fin _ * fin 0 = _
    rw [fin_mul, mul_zero]
  · rintro ⟨h1, h2⟩
    linarith

theorem trapz_zeros (ys xs : List ℝ) (h : ∀ y ∈ ys, y = 0) : Arr.trapzR ys xs = 0 := by
  induction ys, xs using Arr.trapz_induction with
  | h1 xs => rfl
  | h2 y xs => cases xs <;> rfl
  | h3 ys => cases ys with
    | nil => rfl
    | cons y ys => cases ys <;> rfl
  | h4 ys x => cases ys with
    | nil => rfl
    | cons y ys => cases ys <;> rfl
  | h5 y0 y1 ys x0 x1 xs ih =>
    rw [Arr.trapzR_cons, ih fun y hy => h y (List.mem_cons_of_mem _ hy), h y0 (by simp), h y1 (by simp)]
    simp

theorem qNorm_below {θ : String → ℝ} (hd : 0 < θ "delta_m") (h0 : 0 < θ "mmin") {s : Smoothed}
    (hqs : ∀ q ∈ s.qs, 0 < q) {m : ℝ} (hm : 0 < m) (hlt : m < θ "mmin") :
    eval (envOf θ) (qNormEx s (arg "beta") (arg "mmin") (arg "delta_m") m) = fin 0 := by
  unfold qNormEx
  rw [trace_orOne, trace_trapz, List.map_map]
  have : (s.qs.map (eval (envOf θ) ∘ fun q => pQRawEx (arg "beta") (arg "mmin") (arg "delta_m") (fin m)
      (fin q))) = (s.qs.map fun _ => (0 : ℝ)).map fin := by
    rw [List.map_map]
    apply List.map_congr_left
    intro q hq
    exact pQRaw_below hd h0 hm (hqs q hq) hlt
  rw [this, Arr.trapz_fin, trapz_zeros _ _ (by simp)]
  have hd0 : ¬ eqf (eval (envOf θ) (arg "delta_m")) 0 := by
    rw [eval_arg, envOf, zero_eq, eqf_fin]; exact hd.ne'
  rw [ind_true hd0, ind_false hd0]
  simp

/-- A source that is more than one grid cell below `mmin`: unnormalised density and interpolated norm are both 0. -/
theorem qNormAt_below {θ : String → ℝ} (hd : 0 < θ "delta_m") {s : Smoothed} {nM : ℕ} (hM : 2 ≤ nM)
    (hgrid : s.m1s = Arr.linspaceR s.mmin s.mmax nM) (hqs : ∀ q ∈ s.qs, 0 < q) (hself : 0 < s.mmin)
    (hlt : s.mmin < s.mmax) {m : ℝ} (hm : m ∈ Icc s.mmin s.mmax)
    (hb : m + (s.mmax - s.mmin) / ((nM : ℝ) - 1) < θ "mmin") :
    eval (envOf θ) (qNormAtEx s (arg "beta") (arg "mmin") (arg "delta_m") m) = fin 0 := by
  have h2 : 2 ≤ s.m1s.length := by rw [hgrid, linspaceR_length]; exact hM
  have hc : 0 < (s.mmax - s.mmin) / ((nM : ℝ) - 1) := by
    have : (2 : ℝ) ≤ nM := by exact_mod_cast hM
    exact div_pos (by linarith) (by linarith)
  have h0 : 0 < θ "mmin" := by linarith [hm.1]
  obtain ⟨x0, hx0, x1, hx1, t, -, -, hl, hu, hdx, hval⟩ := interpLinear_cell hlt hM hm
  rw [← trace_qNormAt (envOf θ) h2, hgrid, hval, trace_qNorm, trace_qNorm,
    qNorm_below hd h0 hqs (by linarith [(linspaceR_mem hlt.le hM hx0).1]) (by linarith),
    qNorm_below hd h0 hqs (by linarith [(linspaceR_mem hlt.le hM hx1).1]) (by linarith)]
  simp

/-! ## The models -/

namespace Spec

/-- The element with index `i` of a returned array. -/
def resultAt (i : ℕ) (r : Except PyErr (List Fl)) : Except PyErr Fl := r.map fun l => l.getD i nan

/-- The `i`-th grid mass. -/
def gridMass (selfMin selfMax : ℝ) (nM i : ℕ) : ℝ := selfMin + (selfMax - selfMin) * (i : ℝ) / ((nM : ℝ) - 1)

/-- The `j`-th grid mass ratio. -/
def gridRatio (nQ j : ℕ) : ℝ := 0.001 + (1 - 0.001) * (j : ℝ) / ((nQ : ℝ) - 1)

/-- No mass that enters the computation is exactly where the window is not differentiable: grid masses,
grid masses times grid mass ratios, and the masses of the source. -/
structure AllOffKinks (selfMin selfMax : ℝ) (nM nQ : ℕ) (mmin deltaM : ℝ) (e : ℝ × ℝ) : Prop where
  /-- the grid -/
  grid : ∀ i < nM, ∀ j < nQ, OffKinks mmin deltaM (gridMass selfMin selfMax nM i * gridRatio nQ j)
  /-- the heavier mass -/
  primary : OffKinks mmin deltaM e.1
  /-- the lighter mass -/
  secondary : OffKinks mmin deltaM (e.1 * e.2)

end Spec

/-- `__call__` of a smoothed model on jax as a function of the hyper-parameters with the given names: the density of
the `i`-th source. -/
def smoothedOf (s : Smoothed) (names : List String) (data : List (ℝ × ℝ)) (i : ℕ) (θ : String → ℝ) :
    Except PyErr Fl :=
  resultAt i (Smoothed.call .jax s (data.map fun e => (fin e.1, fin e.2)) (namedArgs names θ)).1

/-- The recorded computation for the source `e`. -/
def smoothedRec (s : Smoothed) (prim : Ex → Ex) (e : ℝ × ℝ) : Ex :=
  smoothedEx s prim (arg "beta") (arg "mmin") (arg "delta_m") e.1 e.2

theorem smoothed_traces {primary : Primary} {fixed : Dict Fl} {cache : Bool} {selfMin selfMax : ℝ}
    {nM nQ : ℕ} {s : Smoothed} (hs : Smoothed.init primary fixed selfMin selfMax nM nQ cache = .ok s)
    {names : List String} (hb : "beta" ∈ names) (hl : "mmin" ∈ names) (hd : "delta_m" ∈ names)
    (hdup : ∀ k ∈ Dict.keys fixed, k ∉ names) {prim : Ex → Ex}
    (hp : ∀ (θ : String → ℝ) (m : ℝ), primary .jax
      (Dict.erase (Dict.erase (namedArgs names θ) "beta" ++ fixed) "delta_m") (fin m) =
        .ok (eval (envOf θ) (prim (const (fin m))))) {data : List (ℝ × ℝ)} {i : ℕ} (hi : i < data.length) :
    Traces (smoothedRec s prim data[i]) (smoothedOf s names data i) := by
  obtain ⟨hM, -, rfl⟩ := init_inv hs
  intro θ
  unfold smoothedOf
  rw [trace_call (by rw [linspaceR_length]; exact hM) (.inr rfl) hb hl hd hdup θ (hp θ)]
  unfold resultAt
  simp only [Except.map]
  rw [List.getD_eq_getElem _ _ (by simpa using hi), List.getElem_map]
  rfl

/-- The norm of the primary mass model. -/
theorem norm_value {θ : String → ℝ} {s : Smoothed} {nM : ℕ} {prim : Ex → Ex} (hM : 2 ≤ nM)
    (hgrid : s.m1s = Arr.linspaceR s.mmin s.mmax nM) (hself : 0 < s.mmin) (hlt : s.mmin < s.mmax)
    (hd : 0 < θ "delta_m") {f : ℝ → ℝ} (hf : ∀ m, 0 < m → eval (envOf θ) (prim (const (fin m))) = fin (f m))
    (hf0 : ∀ m, 0 ≤ f m) (hpos : ∃ m ∈ Arr.linspaceR s.mmin s.mmax nM, θ "mmin" < m ∧ 0 < f m) :
    ∃ N, 0 < N ∧ eval (envOf θ) (orOneEx (trapzEx (s.m1s.map fun m => prim (const (fin m)) *
      smoothingEx (const (fin m)) (arg "mmin") (const (fin s.mmax)) (arg "delta_m")) s.m1s)
      (arg "delta_m")) = fin N := by
  have hd' : ¬ eqf (eval (envOf θ) (arg "delta_m")) 0 := by
    rw [eval_arg, envOf, zero_eq, eqf_fin]; exact hd.ne'
  refine ⟨Arr.trapzR ((Arr.linspaceR s.mmin s.mmax nM).map fun m => f m *
    window (θ "mmin") s.mmax (θ "delta_m") m) (Arr.linspaceR s.mmin s.mmax nM), ?_, ?_⟩
  · refine trapzR_pos_of_exists (by simp) (by rw [linspaceR_length]; exact hM) ?_ (linspaceR_sorted hlt hM) ?_
    · intro y hy
      obtain ⟨m, -, rfl⟩ := List.mem_map.1 hy
      exact mul_nonneg (hf0 m) (window_nonneg _ _ _ _)
    · obtain ⟨m, hm, h1, h2⟩ := hpos
      refine ⟨_, List.mem_map.2 ⟨m, hm, rfl⟩, mul_pos h2 ?_⟩
      unfold window
      rw [if_pos ⟨h1.le, (linspaceR_mem hlt.le hM hm).2⟩]
      exact taper_pos _
  · rw [hgrid, trace_orOne, trace_trapz, List.map_map]
    have : ((Arr.linspaceR s.mmin s.mmax nM).map (eval (envOf θ) ∘ fun m => prim (const (fin m)) *
        smoothingEx (const (fin m)) (arg "mmin") (const (fin s.mmax)) (arg "delta_m"))) =
        ((Arr.linspaceR s.mmin s.mmax nM).map fun m => f m *
          window (θ "mmin") s.mmax (θ "delta_m") m).map fin := by
      rw [List.map_map]
      apply List.map_congr_left
      intro m hm
      simp only [Function.comp_apply]
      rw [eval_mul, hf m (by linarith [(linspaceR_mem hlt.le hM hm).1]), ← trace_smoothing]
      show fin _ * smoothing .jax (fin m) (fin (θ "mmin")) (fin s.mmax) (fin (θ "delta_m")) = _
      rw [smoothing_fin .jax _ _ _ hd, fin_mul]
      rfl
    rw [this, Arr.trapz_fin, ind_true hd', ind_false hd']
    simp

/-- The interpolated norm of the mass ratio, for a source more than one grid cell above `mmin`. -/
theorem ratioNorm_value {θ : String → ℝ} {s : Smoothed} {nM nQ : ℕ} (hM : 2 ≤ nM) (hQ : 2 ≤ nQ)
    (hgrid : s.m1s = Arr.linspaceR s.mmin s.mmax nM) (hqs : s.qs = Arr.linspaceR 0.001 1 nQ)
    (hlt : s.mmin < s.mmax) (hd : 0 < θ "delta_m") (h0 : 0 < θ "mmin") (hlo : s.mmin ≤ θ "mmin") {m : ℝ}
    (h1 : θ "mmin" + (s.mmax - s.mmin) / ((nM : ℝ) - 1) < m) (h2 : m ≤ s.mmax) :
    ∃ Y, 0 < Y ∧ eval (envOf θ) (qNormAtEx s (arg "beta") (arg "mmin") (arg "delta_m") m) = fin Y := by
  have hc : 0 < (s.mmax - s.mmin) / ((nM : ℝ) - 1) := by
    have : (2 : ℝ) ≤ nM := by exact_mod_cast hM
    exact div_pos (by linarith) (by linarith)
  obtain ⟨x0, hx0, x1, hx1, t, ht0, ht1, hl', hu, hdx, hval⟩ :=
    interpLinear_cell hlt hM (m := m) ⟨by linarith, h2⟩
  have l0 : θ "mmin" < x0 := by linarith
  have l1 : θ "mmin" < x1 := by linarith
  have := mix_pos ht0 ht1 (gridNorm_pos (θ "beta") (θ "delta_m") h0 l0 hQ)
    (gridNorm_pos (θ "beta") (θ "delta_m") h0 l1 hQ)
  refine ⟨gridNorm (θ "beta") (θ "mmin") (θ "delta_m") x0 nQ + t * (gridNorm (θ "beta") (θ "mmin")
      (θ "delta_m") x1 nQ - gridNorm (θ "beta") (θ "mmin") (θ "delta_m") x0 nQ), by linarith, ?_⟩
  rw [← trace_qNormAt (envOf θ) (by rw [hgrid, linspaceR_length]; exact hM), hgrid, hval]
  simp only [eval_arg, envOf]
  rw [qNormAt_eq_gridNorm .jax hQ hqs hd h0 l0, qNormAt_eq_gridNorm .jax hQ hqs hd h0 l1, fin_sub,
    fin_mul, fin_add]

theorem smoothed_gradient {primary : Primary} {fixed : Dict Fl} {cache : Bool} {selfMin selfMax : ℝ}
    {nM nQ : ℕ} {s : Smoothed} (hs : Smoothed.init primary fixed selfMin selfMax nM nQ cache = .ok s)
    {names : List String} (hb : "beta" ∈ names) (hl : "mmin" ∈ names) (hd : "delta_m" ∈ names)
    (hdup : ∀ k ∈ Dict.keys fixed, k ∉ names) {prim : Ex → Ex}
    (hp : ∀ (θ : String → ℝ) (m : ℝ), primary .jax
      (Dict.erase (Dict.erase (namedArgs names θ) "beta" ++ fixed) "delta_m") (fin m) =
        .ok (eval (envOf θ) (prim (const (fin m))))) {data : List (ℝ × ℝ)} {i : ℕ} (hi : i < data.length)
    {θ : String → ℝ} {v : String} (hself : 0 < selfMin) (hlt : selfMin < selfMax) (hd0 : 0 < θ "delta_m")
    (hlo : selfMin ≤ θ "mmin") (hbeta : θ "beta" ≠ -1)
    (he1 : θ "mmin" + (selfMax - selfMin) / ((nM : ℝ) - 1) < data[i].1) (he2 : data[i].1 ≤ selfMax)
    (he3 : 0 < data[i].2) (hk : AllOffKinks selfMin selfMax nM nQ (θ "mmin") (θ "delta_m") data[i])
    (hsm : ∀ a, a ∈ Arr.linspaceR selfMin selfMax nM ∨ a = data[i].1 → Smooth θ v (prim (const (fin a))))
    {f : ℝ → ℝ} (hf : ∀ m, 0 < m → eval (envOf θ) (prim (const (fin m))) = fin (f m)) (hf0 : ∀ m, 0 ≤ f m)
    (hpos : ∃ m ∈ Arr.linspaceR selfMin selfMax nM, θ "mmin" < m ∧ 0 < f m) :
    GradientRight (smoothedOf s names data i) (smoothedRec s prim data[i]) θ v := by
  refine gradientRight (smoothed_traces hs hb hl hd hdup hp hi) ?_
  obtain ⟨hM, hQ, rfl⟩ := init_inv hs
  have h0 : 0 < θ "mmin" := by linarith
  have hc : 0 < (selfMax - selfMin) / ((nM : ℝ) - 1) := by
    have : (2 : ℝ) ≤ nM := by exact_mod_cast hM
    exact div_pos (by linarith) (by linarith)
  set e := data[i] with he
  have hm0 : 0 < e.1 := by linarith
  have kp : ∀ a ∈ Arr.linspaceR selfMin selfMax nM, ∀ b ∈ Arr.linspaceR 0.001 1 nQ,
      OffKinks (θ "mmin") (θ "delta_m") (a * b) := by
    intro a ha b hb
    obtain ⟨i, hi, rfl⟩ := List.mem_map.1 ha
    obtain ⟨j, hj, rfl⟩ := List.mem_map.1 hb
    exact hk.grid i (List.mem_range.1 hi) j (List.mem_range.1 hj)
  have kg : ∀ a ∈ Arr.linspaceR selfMin selfMax nM, OffKinks (θ "mmin") (θ "delta_m") a := by
    intro a ha
    have := kp a ha 1 (linspaceR_last 0.001 1 hQ)
    rwa [mul_one] at this
  have hgp : ∀ a ∈ Arr.linspaceR selfMin selfMax nM, 0 < a := fun a ha => by
    linarith [(linspaceR_mem hlt.le hM ha).1]
  set s : Smoothed := ⟨primary, fixed, selfMin, selfMax, Arr.linspaceR selfMin selfMax nM,
      Arr.linspaceR 0.001 1 nQ, cache, none⟩ with hs'
  obtain ⟨N, hN, eN⟩ := norm_value (θ := θ) (s := s) (prim := prim) hM rfl hself hlt hd0 hf hf0 hpos
  obtain ⟨Y, hY, eY⟩ := ratioNorm_value (θ := θ) (s := s) hM hQ rfl rfl hlt hd0 h0 hlo he1 he2
  refine smooth_smoothed hd0 h0 hbeta hm0 he3 (by rw [hs', linspaceR_length]; exact hM) hgp ?_ kg kp hk.primary
    hk.secondary hsm eN hN.ne' eY hY.ne'
  intro b hb
  exact lt_of_lt_of_le (by norm_num) (linspaceR_mem (by norm_num) hQ hb).1

/-- The density of a source inside the support is positive. -/
theorem smoothed_pos {primary : Primary} {fixed : Dict Fl} {cache : Bool} {selfMin selfMax : ℝ}
    {nM nQ : ℕ} {s : Smoothed} (hs : Smoothed.init primary fixed selfMin selfMax nM nQ cache = .ok s)
    {prim : Ex → Ex} {θ : String → ℝ} (hself : 0 < selfMin) (hlt : selfMin < selfMax) (hd : 0 < θ "delta_m")
    (hlo : selfMin ≤ θ "mmin") {e : ℝ × ℝ}
    (he1 : θ "mmin" + (selfMax - selfMin) / ((nM : ℝ) - 1) < e.1) (he2 : e.1 ≤ selfMax)
    (hq1 : θ "mmin" < e.1 * e.2) (hq2 : e.2 ≤ 1) {f : ℝ → ℝ}
    (hf : ∀ m, 0 < m → eval (envOf θ) (prim (const (fin m))) = fin (f m)) (hf0 : ∀ m, 0 ≤ f m)
    (hpos : ∃ m ∈ Arr.linspaceR selfMin selfMax nM, θ "mmin" < m ∧ 0 < f m) (hfe : 0 < f e.1) :
    ∃ r, 0 < r ∧ eval (envOf θ) (smoothedRec s prim e) = fin r := by
  obtain ⟨hM, hQ, rfl⟩ := init_inv hs
  have h0 : 0 < θ "mmin" := by linarith
  have hc : 0 < (selfMax - selfMin) / ((nM : ℝ) - 1) := by
    have : (2 : ℝ) ≤ nM := by exact_mod_cast hM
    exact div_pos (by linarith) (by linarith)
  have hm0 : 0 < e.1 := by linarith
  have hq0 : 0 < e.2 := by
    by_contra h
    push Not at h
    linarith [mul_nonpos_of_nonneg_of_nonpos hm0.le h]
  set s : Smoothed := ⟨primary, fixed, selfMin, selfMax, Arr.linspaceR selfMin selfMax nM,
      Arr.linspaceR 0.001 1 nQ, cache, none⟩ with hs'
  obtain ⟨N, hN, eN⟩ := norm_value (θ := θ) (s := s) (prim := prim) hM rfl hself hlt hd hf hf0 hpos
  obtain ⟨Y, hY, eY⟩ := ratioNorm_value (θ := θ) (s := s) hM hQ rfl rfl hlt hd h0 hlo he1 he2
  have wpos : ∀ hi t : ℝ, θ "mmin" ≤ t → t ≤ hi → 0 < window (θ "mmin") hi (θ "delta_m") t := by
    intro hi t h1 h2
    unfold window
    rw [if_pos ⟨h1, h2⟩]
    exact taper_pos _
  obtain ⟨R, hR, eR⟩ : ∃ R, 0 < R ∧ eval (envOf θ) (pQRawEx (arg "beta") (arg "mmin") (arg "delta_m")
      (fin e.1) (fin e.2)) = fin R := by
    rw [← trace_pQRaw]
    show ∃ R, 0 < R ∧ pQVal .jax (fin (θ "beta")) (fin (θ "mmin")) (fin (θ "delta_m")) (fin e.1) (fin e.2) = _
    unfold pQVal
    have hne : e.1 ≠ θ "mmin" := by linarith
    rw [massRatioFactor_eq .jax h0 hm0 hne hq0, fin_mul, smoothing_fin .jax _ _ _ hd]
    have hlm : θ "mmin" / e.1 < 1 := (div_lt_one hm0).2 (by linarith)
    have h1 : 0 < normalised (fun t => t ^ θ "beta") (θ "mmin" / e.1) 1 e.2 :=
      normalised_pos (integral_rpow_pos (by positivity) hlm)
        ⟨by rw [div_le_iff₀ hm0]; linarith [mul_comm e.1 e.2], hq2⟩ (Real.rpow_pos_of_pos hq0 _)
    have h2 := wpos e.1 (e.1 * e.2) hq1.le (by nlinarith)
    exact ⟨_, mul_pos h1 h2, fin_mul _ _⟩
  have h3 := wpos selfMax e.1 (by linarith) he2
  refine ⟨f e.1 * window (θ "mmin") selfMax (θ "delta_m") e.1 / N * (R / Y), by positivity, ?_⟩
  unfold smoothedRec smoothedEx pQEx pM1Ex
  rw [eval_mul, eval_un, eval_div, eval_div, eR, eY, eN, eval_mul, hf e.1 hm0, ← trace_smoothing,
    fin_div hY.ne']
  show fin _ * smoothing .jax (fin e.1) (fin (θ "mmin")) (fin selfMax) (fin (θ "delta_m")) / fin N *
    Fl.nanToNum (fin _) = _
  rw [smoothing_fin .jax _ _ _ hd, fin_mul, fin_div hN.ne', nanToNum_fin, fin_mul]
  rfl

end GW
