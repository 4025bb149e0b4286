import Verif.Props.GradientsModels

/-!
# C92: gradients of the smoothed mass models without smoothing

`delta_m = 0` means that there is no smoothing (`/repo/gwpopulation/models/mass.py:591-646`). On jax the
window is computed nevertheless, with a division by `delta_m`: the derivative with respect to `mmin` is
NaN for every source, although the density is differentiable; those with respect to the other
hyper-parameters are right.
-/

noncomputable section

open Classical Set Filter
open scoped Topology

namespace GW

open Fl Spec Ex

/-! ## The window of width 0 -/

theorem nanToNum_isFin (x : Fl) : ∃ r, nanToNum x = fin r := by cases x <;> exact ⟨_, rfl⟩

theorem smoothing_zero_fin (m lo hi : Fl) : ∃ r, smoothing .jax m lo hi (fin 0) = fin r := by
  unfold smoothing
  rw [if_pos (.inl rfl)]
  obtain ⟨u, hu⟩ := nanToNum_isFin ((m - lo) / fin 0)
  have hu' : nanToNumWith (fin 0) (fin bigR) (fin (-bigR)) ((m - lo) / fin 0) = fin u := hu
  simp only [hu']
  rw [window_fin, ind_mul_ind, fin_mul_ind]
  exact ⟨_, rfl⟩

/-- Without smoothing: a constant between `mmin` and the upper limit, 0 outside. -/
theorem smoothing_zero {m lo : ℝ} (hi : ℝ) (h : m ≠ lo) : smoothing .jax (fin m) (fin lo) (fin hi) (fin 0) =
    fin (if lo < m ∧ m ≤ hi then taper bigR else 0) := by
  unfold smoothing
  rw [if_pos (.inl rfl), fin_sub]
  rcases lt_or_gt_of_ne h with hlt | hgt
  · have e : fin (m - lo) / fin 0 = ninf := by
      rw [fin_div_zero]
      unfold signInf
      rw [if_neg (by linarith), if_pos (by linarith)]
    rw [e]
    simp only [nanToNumWith]
    rw [window_fin, ind_mul_ind, fin_mul_ind, if_neg, if_neg]
    · rintro ⟨h1, -⟩; linarith
    · rintro ⟨h1, -⟩; rw [fin_le] at h1; linarith
  · have e : fin (m - lo) / fin 0 = pinf := by
      rw [fin_div_zero]
      unfold signInf
      rw [if_pos (by linarith)]
    rw [e]
    simp only [nanToNumWith]
    rw [window_fin, ind_mul_ind, fin_mul_ind]
    simp only [fin_le, hgt, hgt.le]

/-- The recorded window. -/
def windowEx (m hi : Fl) : Ex := smoothingEx (const m) (arg "mmin") (const hi) (arg "delta_m")

theorem eval_window {θ : String → ℝ} (hd : θ "delta_m" = 0) (m hi : Fl) :
    eval (envOf θ) (windowEx m hi) = smoothing .jax m (fin (θ "mmin")) hi (fin 0) := by
  unfold windowEx
  rw [← trace_smoothing, ← hd]
  rfl

theorem eval_window_fin {θ : String → ℝ} (hd : θ "delta_m" = 0) (m hi : Fl) :
    ∃ r, eval (envOf θ) (windowEx m hi) = fin r := by
  rw [eval_window hd]
  exact smoothing_zero_fin _ _ _

/-- Nothing comes back to other hyper-parameters. -/
theorem back_window_other (env : String → Fl) {v : String} (h1 : v ≠ "mmin") (h2 : v ≠ "delta_m") (m hi ct : Fl) :
    back env v (windowEx m hi) ct = 0 := by
  unfold windowEx smoothingEx
  have z : (0 : Fl) + 0 = 0 := by simp
  simp only [back_mul, back_un, back_neg, back_sub, back_div, back_bin, back_const, back_arg, back_mask,
    if_neg h1.symm, if_neg h2.symm, z]

/-- NaN comes back to `mmin` and `delta_m`. -/
theorem back_window_nan {θ : String → ℝ} (hd : θ "delta_m" = 0) {v : String} (hv : v = "mmin" ∨ v = "delta_m")
    (m : ℝ) (hi ct : Fl) : back (envOf θ) v (windowEx (fin m) hi) ct = nan := by
  set x : Ex := (const (fin m) - arg "mmin") / arg "delta_m" with hx
  have ex : eval (envOf θ) x = fin (m - θ "mmin") / fin 0 := by
    rw [hx, eval_div, eval_sub, ← hd]; rfl
  have hinf : ¬ (eval (envOf θ) x).isFinite := by
    rw [ex, fin_div_zero]
    unfold signInf
    split_ifs <;> simp [Fl.isFinite]
  have hb : ∀ c, back (envOf θ) v (un .nanToNum x) c = nan := by
    intro c
    rw [back_un]
    simp only [UnOp.back]
    rw [if_neg hinf, hx, back_div, back_sub]
    have ed : eval (envOf θ) (arg "delta_m") = fin 0 := by rw [← hd]; rfl
    have e0 : (0 : Fl) / fin 0 = nan := by rw [zero_eq, fin_div_zero]; simp [signInf]
    rw [ed, e0]
    have e1 : -(0 : Fl) * eval (envOf θ) (const (fin m) - arg "mmin") * (1 / (fin 0 * fin 0)) = nan := by
      rw [eval_sub]
      show -(0 : Fl) * (fin m - fin (θ "mmin")) * _ = _
      rw [fin_sub, zero_eq, fin_neg, fin_mul, fin_mul, one_eq, mul_zero, fin_div_zero]
      simp [signInf]
    rw [e1]
    rcases hv with rfl | rfl
    · rw [back_arg, if_pos rfl, neg_nan, add_nan, nan_add]
    · rw [back_arg, back_arg, if_pos rfl, add_nan]
  unfold windowEx smoothingEx
  rw [← hx]
  simp only [back_mul, back_un, back_neg, back_sub, back_div, back_bin, back_const, back_mask]
  simp only [← back_un, hb]
  simp

/-! ## The density -/

theorem eval_orOne_zero {θ : String → ℝ} (hd : θ "delta_m" = 0) (n : Ex) :
    eval (envOf θ) (orOneEx n (arg "delta_m")) = fin 1 := by
  have h : eqf (eval (envOf θ) (arg "delta_m")) 0 := by rw [eval_arg, envOf, zero_eq, eqf_fin]; exact hd
  obtain ⟨r, hr⟩ := nanToNum_isFin (eval (envOf θ) n)
  rw [trace_orOne, hr, ind_true h, ind_false (by simpa using h)]
  simp

theorem eval_qNormAt_zero {θ : String → ℝ} (hd : θ "delta_m" = 0) (s : Smoothed) (m : ℝ) :
    eval (envOf θ) (qNormAtEx s (arg "beta") (arg "mmin") (arg "delta_m") m) = fin 1 := by
  unfold qNormAtEx qNormEx
  simp only
  rw [eval_add, eval_mul, eval_sub, eval_orOne_zero hd, eval_orOne_zero hd, eval_const]
  simp

/-- The power law in the mass ratio, recorded. -/
def ratioEx (m q : ℝ) : Ex :=
  powerlawEx (const (fin q)) (arg "beta") (const 1) (arg "mmin" / const (fin m))

theorem smooth_ratio {θ : String → ℝ} {v : String} (h0 : 0 < θ "mmin") (hb : θ "beta" ≠ -1) {m q : ℝ} (hm : 0 < m)
    (hq : 0 < q) (hne : m ≠ θ "mmin") (hmq : m * q ≠ θ "mmin") : Smooth θ v (ratioEx m q) := by
  have sl : Smooth θ v (arg "mmin" / const (fin m)) := smooth_div trivial (smooth_const θ v m) rfl hm.ne'
  have el : eval (envOf θ) (arg "mmin" / const (fin m)) = fin (θ "mmin" / m) := by
    rw [eval_div]; exact fin_div hm.ne'
  refine smooth_powerlaw (smooth_const θ v q) trivial (smooth_const θ v 1) sl rfl rfl rfl el
    hq hb (by positivity) one_pos ?_ (smooth_mask_const θ v _ _ _) (smooth_mask sl (smooth_const θ v q) el rfl ?_)
  · intro h
    rw [eq_div_iff hm.ne', one_mul] at h
    exact hne h
  · intro h
    rw [div_eq_iff hm.ne'] at h
    exact hmq (by rw [h]; ring)

/-- What is left without smoothing, with the given values of the windows. -/
def plainEx (prim : Ex → Ex) (w1 w2 : ℝ) (m q : ℝ) : Ex :=
  prim (const (fin m)) * const (fin w1) * (ratioEx m q * const (fin w2))

theorem eval_plain {θ : String → ℝ} (hd : θ "delta_m" = 0) {s : Smoothed} {prim : Ex → Ex} {m q w1 w2 p r : ℝ}
    (h1 : eval (envOf θ) (windowEx (fin m) (fin s.mmax)) = fin w1)
    (h2 : eval (envOf θ) (windowEx (fin (m * q)) (fin m)) = fin w2)
    (hp : eval (envOf θ) (prim (const (fin m))) = fin p) (hr : eval (envOf θ) (ratioEx m q) = fin r) :
    eval (envOf θ) (smoothedRec s prim (m, q)) = eval (envOf θ) (plainEx prim w1 w2 m q) := by
  unfold windowEx at h1 h2
  unfold ratioEx at hr
  have e2 : eval (envOf θ) (pQEx s (arg "beta") (arg "mmin") (arg "delta_m") m q) = fin (r * w2) := by
    unfold pQEx pQRawEx
    rw [eval_un, eval_div, eval_mul, eval_qNormAt_zero hd, fin_mul, h2, hr, fin_mul, fin_div one_ne_zero, div_one]
    rfl
  unfold smoothedRec smoothedEx pM1Ex plainEx ratioEx
  simp only
  rw [eval_mul, e2, eval_div, eval_orOne_zero hd, eval_mul, h1, hp, eval_mul, eval_mul, eval_mul, hp, hr, eval_const,
    eval_const, fin_mul, fin_div one_ne_zero, div_one, fin_mul, fin_mul, fin_mul]

/-- Without smoothing the density is a differentiable function of `mmin`. -/
theorem unsmoothed_differentiable {θ : String → ℝ} (hd : θ "delta_m" = 0) {s : Smoothed} {prim : Ex → Ex} {m q : ℝ}
    (hp : Smooth θ "mmin" (prim (const (fin m)))) (hr : Smooth θ "mmin" (ratioEx m q)) (hm : m ≠ θ "mmin")
    (hmq : m * q ≠ θ "mmin") :
    ∃ (f : ℝ → ℝ) (d : ℝ), (∀ᶠ t in 𝓝 (θ "mmin"), eval (moved θ "mmin" t) (smoothedRec s prim (m, q)) = fin (f t)) ∧
      HasDerivAt f d (θ "mmin") := by
  set w1 := if θ "mmin" < m ∧ m ≤ s.mmax then taper bigR else 0 with hw1
  set w2 := if θ "mmin" < m * q ∧ m * q ≤ m then taper bigR else 0 with hw2
  have sp : Smooth θ "mmin" (plainEx prim w1 w2 m q) :=
    smooth_mul (smooth_mul hp (smooth_const θ _ w1)) (smooth_mul hr (smooth_const θ _ w2))
  obtain ⟨f, d, e1, e2, -⟩ := exact_of_smooth sp
  obtain ⟨fp, -, ep, -, -⟩ := exact_of_smooth hp
  obtain ⟨fr, -, er, -, -⟩ := exact_of_smooth hr
  refine ⟨f, d, ?_, e2⟩
  have side : ∀ a : ℝ, a ≠ θ "mmin" → ∀ᶠ t in 𝓝 (θ "mmin"), a ≠ t ∧ (t < a ↔ θ "mmin" < a) := by
    intro a ha
    rcases lt_or_gt_of_ne ha with h | h
    · filter_upwards [lt_mem_nhds h] with t ht
      exact ⟨ht.ne, by constructor <;> intro h' <;> linarith⟩
    · filter_upwards [gt_mem_nhds h] with t ht
      exact ⟨ht.ne', by constructor <;> intro h' <;> linarith⟩
  filter_upwards [e1, ep, er, side m hm, side _ hmq] with t a1 a2 a3 a4 a5
  have hd' : Function.update θ "mmin" t "delta_m" = 0 := by
    rw [Function.update_of_ne (by decide)]; exact hd
  have hl' : Function.update θ "mmin" t "mmin" = t := Function.update_self _ _ _
  rw [← a1]
  refine eval_plain hd' ?_ ?_ a2 a3
  · rw [eval_window hd', hl', smoothing_zero _ a4.1, hw1]
    simp only [a4.2]
  · rw [eval_window hd', hl', smoothing_zero _ a5.1, hw2]
    simp only [a5.2]

/-! ## The gradient -/

/-- NaN for `mmin` and `delta_m`, whatever the source and the primary mass model. -/
theorem unsmoothed_nan {θ : String → ℝ} (hd : θ "delta_m" = 0) (s : Smoothed) (prim : Ex → Ex) (e : ℝ × ℝ)
    {v : String} (hv : v = "mmin" ∨ v = "delta_m") (ct : Fl) :
    back (envOf θ) v (smoothedRec s prim e) ct = nan := by
  have h := fun c => back_window_nan hd hv e.1 (fin s.mmax) c
  unfold windowEx at h
  unfold smoothedRec smoothedEx pM1Ex
  simp only
  rw [back_mul, back_div, back_mul, h]
  simp

theorem back_trapz_zero {env : String → Fl} {v : String} {ys : List Ex} (h : ∀ y ∈ ys, back env v y 0 = 0)
    (xs : List ℝ) : back env v (trapzEx ys xs) 0 = 0 := by
  have z : (0 : Fl) + 0 = 0 := by simp
  induction ys generalizing xs with
  | nil => cases xs <;> rfl
  | cons y0 ys ih =>
    cases ys with
    | nil => cases xs <;> rfl
    | cons y1 ys =>
      cases xs with
      | nil => rfl
      | cons x0 xs =>
        cases xs with
        | nil => rfl
        | cons x1 xs =>
          rw [trapzEx, back_add, ih (fun y hy => h y (List.mem_cons_of_mem _ hy)), back_div, back_const, back_mul,
            back_const, eval_const, eval_const, fin_sub]
          have e : (0 : Fl) / 2 * fin (x1 - x0) = 0 := by
            rw [show (2 : Fl) = fin 2 from rfl, zero_eq, fin_div two_ne_zero, fin_mul]; simp
          rw [e, back_add, h y1 (by simp), h y0 (by simp), z, z, z, z]

theorem back_orOne_zero {θ : String → ℝ} (hd : θ "delta_m" = 0) {v : String} (hv : v ≠ "delta_m") {n : Ex}
    (hn : back (envOf θ) v n 0 = 0) (c : ℝ) : back (envOf θ) v (orOneEx n (arg "delta_m")) (fin c) = 0 := by
  have z : (0 : Fl) + 0 = 0 := by simp
  have h : ¬ CmpOp.ne.holds (eval (envOf θ) (arg "delta_m")) (eval (envOf θ) (const 0)) := by
    show ¬ ¬ eqf (fin (θ "delta_m")) 0
    rw [hd, zero_eq, eqf_fin]; simp
  unfold orOneEx
  rw [back_add, back_mul, back_mul, back_mask, back_mask, back_const, eval_mask, ind_false h, back_un]
  have e : UnOp.nanToNum.back (eval (envOf θ) n) (fin c * fin 0) = 0 := by
    simp only [UnOp.back]
    split_ifs <;> simp
  rw [e, hn, z, z]

/-- The derivatives with respect to the other hyper-parameters. -/
theorem unsmoothed_exact {θ : String → ℝ} (hd : θ "delta_m" = 0) {s : Smoothed} {prim : Ex → Ex} {v : String}
    (h1 : v ≠ "mmin") (h2 : v ≠ "delta_m") {m q : ℝ} (hlen : 2 ≤ s.m1s.length)
    (hp : ∀ a, a ∈ s.m1s ∨ a = m → Smooth θ v (prim (const (fin a))))
    (hr : Smooth θ v (ratioEx m q)) (hrs : ∀ a ∈ s.m1s, ∀ b ∈ s.qs, Smooth θ v (ratioEx a b)) :
    Exact θ v (smoothedRec s prim (m, q)) := by
  have z : (0 : Fl) + 0 = 0 := by simp
  have az : ∀ x : Fl, x + 0 = x := fun x => by cases x <;> simp
  have u : (1 : Fl) / (fin 1 * fin 1) = fin 1 := by
    rw [fin_mul, one_eq, fin_div (by norm_num)]
    norm_num
  obtain ⟨w1, e1⟩ := eval_window_fin hd (fin m) (fin s.mmax)
  obtain ⟨w2, e2⟩ := eval_window_fin hd (fin (m * q)) (fin m)
  have sp : Smooth θ v (plainEx prim w1 w2 m q) :=
    smooth_mul (smooth_mul (hp m (.inr rfl)) (smooth_const θ _ w1)) (smooth_mul hr (smooth_const θ _ w2))
  obtain ⟨f, d, a1, a2, a3⟩ := exact_of_smooth sp
  obtain ⟨fp, -, ep, -, -⟩ := exact_of_smooth (hp m (.inr rfl))
  obtain ⟨fr, -, er, -, -⟩ := exact_of_smooth hr
  refine ⟨f, d, ?_, a2, ?_⟩
  · filter_upwards [a1, ep, er] with t b1 b2 b3
    have hd' : Function.update θ v t "delta_m" = 0 := by
      rw [Function.update_of_ne h2.symm]; exact hd
    have hl' : Function.update θ v t "mmin" = θ "mmin" := Function.update_of_ne h1.symm _ _
    rw [← b1]
    refine eval_plain hd' ?_ ?_ b2 b3
    · rw [eval_window hd', hl', ← eval_window hd, e1]
    · rw [eval_window hd', hl', ← eval_window hd, e2]
  · intro ct
    rw [← a3]
    have vp : ∃ p, eval (envOf θ) (prim (const (fin m))) = fin p :=
      ⟨fp (θ v), by have := ep.self_of_nhds; rwa [moved_self] at this⟩
    have vr : ∃ r, eval (envOf θ) (ratioEx m q) = fin r :=
      ⟨fr (θ v), by have := er.self_of_nhds; rwa [moved_self] at this⟩
    obtain ⟨p, vp⟩ := vp
    obtain ⟨r, vr⟩ := vr
    have nM : ∀ c : ℝ, back (envOf θ) v (orOneEx (trapzEx (s.m1s.map fun m => prim (const (fin m)) *
        smoothingEx (const (fin m)) (arg "mmin") (const (fin s.mmax)) (arg "delta_m")) s.m1s)
        (arg "delta_m")) (fin c) = 0 := by
      refine back_orOne_zero hd h2 (back_trapz_zero (fun y hy => ?_) _)
      obtain ⟨a, ha, rfl⟩ := List.mem_map.1 hy
      obtain ⟨w, hw⟩ := eval_window_fin hd (fin a) (fin s.mmax)
      have hb := back_window_other (envOf θ) h1 h2 (fin a) (fin s.mmax)
      unfold windowEx at hw hb
      rw [back_mul, hw, hb, zero_eq, fin_mul, zero_mul, ← zero_eq, back_zero (hp a (.inl ha)), z]
    have nQ : ∀ a ∈ s.m1s, ∀ c : ℝ, back (envOf θ) v (qNormEx s (arg "beta") (arg "mmin") (arg "delta_m") a)
        (fin c) = 0 := by
      intro a ha
      refine back_orOne_zero hd h2 (back_trapz_zero (fun y hy => ?_) _)
      obtain ⟨b, hb', rfl⟩ := List.mem_map.1 hy
      obtain ⟨w, hw⟩ := eval_window_fin hd (fin a * fin b) (fin a)
      have hb := back_window_other (envOf θ) h1 h2 (fin a * fin b) (fin a)
      have h0 := back_zero (hrs a ha b hb')
      unfold windowEx at hw hb
      unfold ratioEx at h0
      unfold pQRawEx
      rw [back_mul, hw, hb, zero_eq, fin_mul, zero_mul, ← zero_eq, h0, z]
    have hmem : ∀ j, j < s.m1s.length → s.m1s.getD j 0 ∈ s.m1s := fun j hj => by
      rw [List.getD_eq_getElem _ _ hj]; exact List.getElem_mem hj
    have nY : ∀ c : ℝ, back (envOf θ) v (qNormAtEx s (arg "beta") (arg "mmin") (arg "delta_m") m) (fin c) = 0 := by
      intro c
      unfold qNormAtEx
      simp only
      rw [back_add, back_mul, back_sub, back_const, eval_const, fin_mul, fin_neg, nQ _ (hmem _ (by omega)),
        nQ _ (hmem _ (by omega)), nQ _ (hmem _ (by omega)), z, z, z]
    have b1 := back_window_other (envOf θ) h1 h2 (fin m) (fin s.mmax)
    have b2 := back_window_other (envOf θ) h1 h2 (fin (m * q)) (fin m)
    unfold windowEx at e1 e2 b1 b2
    unfold ratioEx at vr
    have bQ : ∀ c : ℝ, back (envOf θ) v (pQEx s (arg "beta") (arg "mmin") (arg "delta_m") m q) (fin c) =
        back (envOf θ) v (ratioEx m q * const (fin w2)) (fin c) := by
      intro c
      unfold pQEx pQRawEx ratioEx
      rw [back_un, eval_div, eval_mul, eval_qNormAt_zero hd, fin_mul, e2, vr, fin_mul, fin_div one_ne_zero]
      simp only [UnOp.back]
      rw [if_pos (by simp [Fl.isFinite]), back_div, eval_qNormAt_zero hd, back_mul, b2, eval_mul, e2, vr, back_mul,
        back_const, eval_const, u, fin_div one_ne_zero, div_one, fin_neg, fin_mul, fin_mul, fin_mul, fin_mul, nY]
      simp only [az]
    have vQ : eval (envOf θ) (pQEx s (arg "beta") (arg "mmin") (arg "delta_m") m q) = fin (r * w2) := by
      unfold pQEx pQRawEx
      rw [eval_un, eval_div, eval_mul, eval_qNormAt_zero hd, fin_mul, e2, vr, fin_mul, fin_div one_ne_zero, div_one]
      rfl
    unfold smoothedRec smoothedEx plainEx pM1Ex
    simp only
    rw [back_mul, vQ, back_div, eval_orOne_zero hd, u, back_mul, b1, e1, eval_div, eval_orOne_zero hd, eval_mul, e1, vp,
      fin_mul, fin_mul, fin_div one_ne_zero, fin_div one_ne_zero, div_one, div_one, fin_mul, fin_neg, fin_mul, fin_mul,
      fin_mul, nM, bQ]
    have vr' : eval (envOf θ) (ratioEx m q) = fin r := vr
    have ew : ∀ w, eval (envOf θ) (const (fin w)) = fin w := fun _ => rfl
    simp only [back_mul, back_const, eval_mul, ew, vr', vp, fin_mul, az]

/-! ## The models -/

namespace Spec

/-- At `delta_m = 0`: the derivatives that jax returns are right except those with respect to `mmin` and `delta_m`, which
are NaN, although the density is a differentiable function of `mmin`. -/
structure NoGradientInMmin (F : (String → ℝ) → Except PyErr Fl) (e : Ex) (θ : String → ℝ) : Prop where
  /-- the other hyper-parameters -/
  others : ∀ v, v ≠ "mmin" → v ≠ "delta_m" → GradientRight F e θ v
  /-- the density is differentiable in `mmin` -/
  differentiable : ∃ (f : ℝ → ℝ) (d : ℝ),
    (∀ᶠ t in 𝓝 (θ "mmin"), F (Function.update θ "mmin" t) = .ok (fin (f t))) ∧ HasDerivAt f d (θ "mmin")
  /-- what jax returns -/
  mmin : e.grad (envOf θ) "mmin" = nan
  /-- what jax returns -/
  deltaM : e.grad (envOf θ) "delta_m" = nan

end Spec

theorem smoothed_unsmoothed {primary : Primary} {fixed : Dict Fl} {cache : Bool} {selfMin selfMax : ℝ}
    {nM nQ : ℕ} {s : Smoothed} (hs : Smoothed.init primary fixed selfMin selfMax nM nQ cache = .ok s)
    {names : List String} (hb : "beta" ∈ names) (hl : "mmin" ∈ names) (hdn : "delta_m" ∈ names)
    (hdup : ∀ k ∈ Dict.keys fixed, k ∉ names) {prim : Ex → Ex}
    (hp : ∀ (θ : String → ℝ) (m : ℝ), primary .jax
      (Dict.erase (Dict.erase (namedArgs names θ) "beta" ++ fixed) "delta_m") (fin m) =
        .ok (eval (envOf θ) (prim (const (fin m))))) {data : List (ℝ × ℝ)} {i : ℕ} (hi : i < data.length)
    {θ : String → ℝ} (hself : 0 < selfMin) (hlt : selfMin < selfMax) (h0 : 0 < θ "mmin") (hd : θ "delta_m" = 0)
    (hbeta : θ "beta" ≠ -1) (he1 : 0 < data[i].1) (he3 : 0 < data[i].2)
    (hk : AllOffKinks selfMin selfMax nM nQ (θ "mmin") 0 data[i])
    (hsm : ∀ v a, a ∈ Arr.linspaceR selfMin selfMax nM ∨ a = data[i].1 → Smooth θ v (prim (const (fin a)))) :
    NoGradientInMmin (smoothedOf s names data i) (smoothedRec s prim data[i]) θ := by
  have htr := smoothed_traces hs hb hl hdn hdup hp hi
  obtain ⟨hM, hQ, rfl⟩ := init_inv hs
  have hr : ∀ v, Smooth θ v (ratioEx data[i].1 data[i].2) := fun v =>
    smooth_ratio h0 hbeta he1 he3 hk.primary.1 hk.secondary.1
  refine ⟨fun v h1 h2 => ?_, ?_, unsmoothed_nan hd _ _ _ (.inl rfl) _, unsmoothed_nan hd _ _ _ (.inr rfl) _⟩
  · obtain ⟨f, d, e1, e2, e3⟩ := unsmoothed_exact (s := ⟨primary, fixed, selfMin, selfMax,
      Arr.linspaceR selfMin selfMax nM, Arr.linspaceR 0.001 1 nQ, cache, none⟩) (prim := prim) hd h1 h2
      (by rw [linspaceR_length]; exact hM) (fun a ha => hsm v a ha) (hr v) (fun a ha b hb' => by
        have hne := allOffKinks_ne hQ hk (.inl ha)
        obtain ⟨j, hj, rfl⟩ := List.mem_map.1 ha
        obtain ⟨l, hl', rfl⟩ := List.mem_map.1 hb'
        exact smooth_ratio h0 hbeta (hself.trans_le (linspaceR_mem hlt.le hM ha).1)
          (lt_of_lt_of_le (by norm_num) (linspaceR_mem (by norm_num) hQ hb').1) hne
          (hk.grid j (List.mem_range.1 hj) l (List.mem_range.1 hl')).1)
    refine ⟨f, d, ?_, e2, ?_⟩
    · filter_upwards [e1] with t ht
      rw [htr, ← ht]
      rfl
    · have := e3 1
      rwa [one_mul] at this
  · obtain ⟨f, d, e1, e2⟩ := unsmoothed_differentiable (s := ⟨primary, fixed, selfMin, selfMax,
      Arr.linspaceR selfMin selfMax nM, Arr.linspaceR 0.001 1 nQ, cache, none⟩) hd (hsm "mmin" _ (.inr rfl))
      (hr "mmin") hk.primary.1 hk.secondary.1
    refine ⟨f, d, ?_, e2⟩
    filter_upwards [e1] with t ht
    rw [htr, ← ht]
    rfl

/-- **C92, `SinglePeakSmoothedMassDistribution` without smoothing.** Only the derivatives with respect to `mmin` and
`delta_m` are wrong: they are NaN for every source. -/
theorem C92_singlePeak_unsmoothed (cache : Bool) {selfMin selfMax : ℝ} {nM nQ : ℕ}
    {s : Smoothed} (hs0 : singlePeak false selfMin selfMax nM nQ cache = .ok s) {θ : String → ℝ}
    (hself : 0 < selfMin) (h0 : 0 < θ "mmin") (hlt : θ "mmin" < θ "mmax") (hhi : θ "mmax" ≤ selfMax)
    (hsm : selfMin < selfMax) (hd : θ "delta_m" = 0) (hbeta : θ "beta" ≠ -1)
    (ha : θ "alpha" ≠ 1) (hs : 0 < θ "sigpp")
    {data : List (ℝ × ℝ)} {i : ℕ} (hi : i < data.length) (he1 : 0 < data[i].1) (he3 : 0 < data[i].2)
    (hk : AllOffKinks selfMin selfMax nM nQ (θ "mmin") 0 data[i])
    (hmax : AwayFrom selfMin selfMax nM data[i].1 (θ "mmax")) :
    NoGradientInMmin (smoothedOf s namesSinglePeak data i) (smoothedRec s (recSinglePeak selfMax) data[i]) θ := by
  have hg : θ "mmin" < selfMax := by linarith
  obtain ⟨hM, hQ, -⟩ := init_inv hs0
  have hne : ∀ a, a ∈ Arr.linspaceR selfMin selfMax nM ∨ a = data[i].1 → a ≠ θ "mmin" ∧ a ≠ θ "mmax" ∧ True :=
    fun a hm => ⟨allOffKinks_ne hQ hk hm, awayFrom_inv hmax hm, trivial⟩
  have hap : ∀ a, a ∈ Arr.linspaceR selfMin selfMax nM ∨ a = data[i].1 → 0 < a := by
    rintro a (ha | rfl)
    · linarith [(linspaceR_mem (by linarith) hM ha).1]
    · exact he1
  refine smoothed_unsmoothed hs0 (by decide) (by decide) (by decide) ?_ (primary_singlePeak selfMax) hi hself hsm h0 hd hbeta
    he1 he3 hk (fun v a hm => ?_)
  · intro k hk
    simp only [Dict.keys, List.map_cons, List.map_nil, List.mem_singleton, List.not_mem_nil] at hk
    subst hk
    decide
  · exact smooth_twoComponent (smooth_const θ v a) trivial trivial trivial trivial trivial trivial
      (smooth_const θ v selfMax) rfl rfl rfl rfl rfl rfl rfl (hap a hm) ha h0 hlt hs hg (hne a hm).1 (hne a hm).2.1
      (smooth_mask_const θ v _ _ _)

/-- **C92, `MultiPeakSmoothedMassDistribution` without smoothing.** Only the derivatives with respect to `mmin` and
`delta_m` are wrong: they are NaN for every source. -/
theorem C92_multiPeak_unsmoothed (cache : Bool) {selfMin selfMax : ℝ} {nM nQ : ℕ}
    {s : Smoothed} (hs0 : multiPeak false selfMin selfMax nM nQ cache = .ok s) {θ : String → ℝ}
    (hself : 0 < selfMin) (h0 : 0 < θ "mmin") (hlt : θ "mmin" < θ "mmax") (hhi : θ "mmax" ≤ selfMax)
    (hsm : selfMin < selfMax) (hd : θ "delta_m" = 0) (hbeta : θ "beta" ≠ -1)
    (ha : θ "alpha" ≠ 1) (hs1 : 0 < θ "sigpp_1") (hs2 : 0 < θ "sigpp_2")
    {data : List (ℝ × ℝ)} {i : ℕ} (hi : i < data.length) (he1 : 0 < data[i].1) (he3 : 0 < data[i].2)
    (hk : AllOffKinks selfMin selfMax nM nQ (θ "mmin") 0 data[i])
    (hmax : AwayFrom selfMin selfMax nM data[i].1 (θ "mmax")) :
    NoGradientInMmin (smoothedOf s namesMultiPeak data i) (smoothedRec s (recMultiPeak selfMax) data[i]) θ := by
  have hg : θ "mmin" < selfMax := by linarith
  obtain ⟨hM, hQ, -⟩ := init_inv hs0
  have hne : ∀ a, a ∈ Arr.linspaceR selfMin selfMax nM ∨ a = data[i].1 → a ≠ θ "mmin" ∧ a ≠ θ "mmax" ∧ True :=
    fun a hm => ⟨allOffKinks_ne hQ hk hm, awayFrom_inv hmax hm, trivial⟩
  have hap : ∀ a, a ∈ Arr.linspaceR selfMin selfMax nM ∨ a = data[i].1 → 0 < a := by
    rintro a (ha | rfl)
    · linarith [(linspaceR_mem (by linarith) hM ha).1]
    · exact he1
  refine smoothed_unsmoothed hs0 (by decide) (by decide) (by decide) ?_ (primary_multiPeak selfMax) hi hself hsm h0 hd hbeta
    he1 he3 hk (fun v a hm => ?_)
  · intro k hk
    simp only [Dict.keys, List.map_cons, List.map_nil, List.mem_singleton, List.not_mem_nil] at hk
    subst hk
    decide
  · exact smooth_threeComponent (smooth_const θ v a) trivial trivial trivial trivial trivial trivial
      trivial trivial trivial (smooth_const θ v selfMax) rfl rfl rfl rfl rfl rfl rfl rfl rfl (hap a hm) ha h0 hlt hs1
      hs2 hg (hne a hm).1 (hne a hm).2.1 (smooth_mask_const θ v _ _ _)

/-- **C92, `BrokenPowerLawSmoothedMassDistribution` without smoothing.** Only the derivatives with respect to `mmin` and
`delta_m` are wrong: they are NaN for every source. -/
theorem C92_brokenPowerLaw_unsmoothed (cache : Bool) {selfMin selfMax : ℝ} {nM nQ : ℕ}
    {s : Smoothed} (hs0 : brokenPowerLaw false selfMin selfMax nM nQ cache = .ok s) {θ : String → ℝ}
    (hself : 0 < selfMin) (h0 : 0 < θ "mmin") (hlt : θ "mmin" < θ "mmax") (hhi : θ "mmax" ≤ selfMax)
    (hsm : selfMin < selfMax) (hd : θ "delta_m" = 0) (hbeta : θ "beta" ≠ -1)
    (ha1 : θ "alpha_1" ≠ 1) (ha2 : θ "alpha_2" ≠ 1) (hbf0 : 0 < θ "break_fraction")
    (hbf1 : θ "break_fraction" < 1)
    {data : List (ℝ × ℝ)} {i : ℕ} (hi : i < data.length) (he1 : 0 < data[i].1) (he3 : 0 < data[i].2)
    (hk : AllOffKinks selfMin selfMax nM nQ (θ "mmin") 0 data[i])
    (hmax : AwayFrom selfMin selfMax nM data[i].1 (θ "mmax"))
    (hbr : AwayFrom selfMin selfMax nM data[i].1 (θ "mmin" + θ "break_fraction" * (θ "mmax" - θ "mmin"))) :
    NoGradientInMmin (smoothedOf s namesBrokenPowerLaw data i) (smoothedRec s (recBrokenPowerLaw selfMax) data[i]) θ := by
  have hg : θ "mmin" < selfMax := by linarith
  obtain ⟨hM, hQ, -⟩ := init_inv hs0
  have hne : ∀ a, a ∈ Arr.linspaceR selfMin selfMax nM ∨ a = data[i].1 → a ≠ θ "mmin" ∧ a ≠ θ "mmax" ∧ a ≠ θ "mmin" + θ "break_fraction" * (θ "mmax" - θ "mmin") :=
    fun a hm => ⟨allOffKinks_ne hQ hk hm, awayFrom_inv hmax hm, awayFrom_inv hbr hm⟩
  have hap : ∀ a, a ∈ Arr.linspaceR selfMin selfMax nM ∨ a = data[i].1 → 0 < a := by
    rintro a (ha | rfl)
    · linarith [(linspaceR_mem (by linarith) hM ha).1]
    · exact he1
  refine smoothed_unsmoothed hs0 (by decide) (by decide) (by decide) ?_ (primary_brokenPowerLaw selfMax) hi hself hsm h0 hd hbeta
    he1 he3 hk (fun v a hm => ?_)
  · intro k hk
    simp only [Dict.keys, List.map_cons, List.map_nil, List.mem_singleton, List.not_mem_nil] at hk
  · exact smooth_doublePowerLaw (smooth_const θ v a) trivial trivial trivial trivial trivial rfl rfl rfl rfl
      rfl rfl (hap a hm) ha1 ha2 h0 hlt hbf0 hbf1 (hne a hm).1 (hne a hm).2.1 (hne a hm).2.2

/-- **C92, `BrokenPowerLawPeakSmoothedMassDistribution` without smoothing.** Only the derivatives with respect to `mmin` and
`delta_m` are wrong: they are NaN for every source. -/
theorem C92_brokenPowerLawPeak_unsmoothed (cache : Bool) {selfMin selfMax : ℝ} {nM nQ : ℕ}
    {s : Smoothed} (hs0 : brokenPowerLawPeak false selfMin selfMax nM nQ cache = .ok s) {θ : String → ℝ}
    (hself : 0 < selfMin) (h0 : 0 < θ "mmin") (hlt : θ "mmin" < θ "mmax") (hhi : θ "mmax" ≤ selfMax)
    (hsm : selfMin < selfMax) (hd : θ "delta_m" = 0) (hbeta : θ "beta" ≠ -1)
    (ha1 : θ "alpha_1" ≠ 1) (ha2 : θ "alpha_2" ≠ 1) (hbf0 : 0 < θ "break_fraction")
    (hbf1 : θ "break_fraction" < 1) (hs : 0 < θ "sigpp")
    {data : List (ℝ × ℝ)} {i : ℕ} (hi : i < data.length) (he1 : 0 < data[i].1) (he3 : 0 < data[i].2)
    (hk : AllOffKinks selfMin selfMax nM nQ (θ "mmin") 0 data[i])
    (hmax : AwayFrom selfMin selfMax nM data[i].1 (θ "mmax"))
    (hbr : AwayFrom selfMin selfMax nM data[i].1 (θ "mmin" + θ "break_fraction" * (θ "mmax" - θ "mmin"))) :
    NoGradientInMmin (smoothedOf s namesBrokenPowerLawPeak data i) (smoothedRec s (recBrokenPowerLawPeak selfMax) data[i]) θ := by
  have hg : θ "mmin" < selfMax := by linarith
  obtain ⟨hM, hQ, -⟩ := init_inv hs0
  have hne : ∀ a, a ∈ Arr.linspaceR selfMin selfMax nM ∨ a = data[i].1 → a ≠ θ "mmin" ∧ a ≠ θ "mmax" ∧ a ≠ θ "mmin" + θ "break_fraction" * (θ "mmax" - θ "mmin") :=
    fun a hm => ⟨allOffKinks_ne hQ hk hm, awayFrom_inv hmax hm, awayFrom_inv hbr hm⟩
  have hap : ∀ a, a ∈ Arr.linspaceR selfMin selfMax nM ∨ a = data[i].1 → 0 < a := by
    rintro a (ha | rfl)
    · linarith [(linspaceR_mem (by linarith) hM ha).1]
    · exact he1
  refine smoothed_unsmoothed hs0 (by decide) (by decide) (by decide) ?_ (primary_brokenPowerLawPeak selfMax) hi hself hsm h0 hd hbeta
    he1 he3 hk (fun v a hm => ?_)
  · intro k hk
    simp only [Dict.keys, List.map_cons, List.map_nil, List.mem_singleton, List.not_mem_nil] at hk
    subst hk
    decide
  · exact smooth_add (smooth_mul (smooth_sub (smooth_const θ v 1) trivial) (smooth_doublePowerLaw
      (smooth_const θ v a) trivial trivial trivial trivial trivial rfl rfl rfl rfl
      rfl rfl (hap a hm) ha1 ha2 h0 hlt hbf0 hbf1 (hne a hm).1 (hne a hm).2.1 (hne a hm).2.2)) (smooth_mul trivial
      (smooth_truncnorm (smooth_const θ v a) trivial trivial trivial (smooth_const θ v selfMax) rfl rfl rfl rfl hs hg
        (smooth_mask trivial (smooth_const θ v a) rfl rfl (hne a hm).1.symm) (smooth_mask_const θ v _ _ _)))

/-! ## Witnesses -/

/-- Hyper-parameters without smoothing. -/
def plainPoint : String → ℝ := fun k =>
  if k = "mmin" then 2.5 else if k = "mmax" then 3.5 else if k = "delta_m" then 0 else 0.3

theorem plainPoint_kinks : AllOffKinks 1 4 4 2 (plainPoint "mmin") 0 (3.2, 0.9) := by
  refine ⟨fun i hi j hj => ?_, ?_, ?_⟩
  · interval_cases i <;> interval_cases j <;> simp [plainPoint, OffKinks, gridMass, gridRatio] <;> norm_num
  · simp [plainPoint, OffKinks]; norm_num
  · simp [plainPoint, OffKinks]; norm_num

theorem plainPoint_max : AwayFrom 1 4 4 (3.2 : ℝ) (plainPoint "mmax") := by
  refine ⟨fun i hi => ?_, by simp [plainPoint]; norm_num⟩
  interval_cases i <;> simp [plainPoint, gridMass] <;> norm_num

theorem plainPoint_break : AwayFrom 1 4 4 (3.2 : ℝ) (plainPoint "mmin" +
    plainPoint "break_fraction" * (plainPoint "mmax" - plainPoint "mmin")) := by
  refine ⟨fun i hi => ?_, by simp [plainPoint]; norm_num⟩
  interval_cases i <;> simp [plainPoint, gridMass] <;> norm_num

/-- C92 for the single peak model without smoothing, as one would expect it: where the density is a differentiable function
of a hyper-parameter, jax returns the derivative. -/
def C92_unsmoothed_statement : Prop :=
  ∀ (cache : Bool) (selfMin selfMax : ℝ) (nM nQ : ℕ) (s : Smoothed),
    singlePeak false selfMin selfMax nM nQ cache = .ok s → ∀ (θ : String → ℝ), 0 < selfMin → selfMin < selfMax →
    selfMin ≤ θ "mmin" → θ "mmin" < θ "mmax" → θ "mmax" ≤ selfMax → θ "delta_m" = 0 → θ "beta" ≠ -1 →
    θ "alpha" ≠ 1 → 0 ≤ θ "lam" → θ "lam" ≤ 1 → 0 < θ "sigpp" →
    ∀ (m q : ℝ), θ "mmin" < m → m < θ "mmax" → θ "mmin" < m * q → q < 1 → ∀ (v : String) (f : ℝ → ℝ) (d : ℝ),
    (∀ᶠ t in 𝓝 (θ v), smoothedOf s namesSinglePeak [(m, q)] 0 (Function.update θ v t) = .ok (fin (f t))) →
    HasDerivAt f d (θ v) → (smoothedRec s (recSinglePeak selfMax) (m, q)).grad (envOf θ) v = fin d

/-- **C92 fails without smoothing.** -/
theorem C92_unsmoothed_fails : ¬ C92_unsmoothed_statement := by
  intro H
  have h := init_ok (primTwoComponent false) [("gaussian_mass_maximum", fin 4)] (1 : ℝ) 4 true (nM := 4) (nQ := 2)
    (by norm_num) (by norm_num)
  obtain ⟨-, ⟨f, d, e1, e2⟩, e3, -⟩ := C92_singlePeak_unsmoothed true h (θ := plainPoint) (data := [(3.2, 0.9)]) (i := 0)
    (by norm_num) (by simp [plainPoint]; norm_num) (by simp [plainPoint]; norm_num) (by simp [plainPoint]; norm_num)
    (by norm_num) (by simp [plainPoint]) (by simp [plainPoint]; norm_num) (by simp [plainPoint]; norm_num)
    (by simp [plainPoint]; norm_num) (by simp) (by simp; norm_num) (by simp; norm_num) plainPoint_kinks plainPoint_max
  have := H true 1 4 4 2 _ h plainPoint (by norm_num) (by norm_num) (by simp [plainPoint]; norm_num)
    (by simp [plainPoint]; norm_num) (by simp [plainPoint]; norm_num) (by simp [plainPoint])
    (by simp [plainPoint]; norm_num) (by simp [plainPoint]; norm_num) (by simp [plainPoint]; norm_num)
    (by simp [plainPoint]; norm_num) (by simp [plainPoint]; norm_num) 3.2 0.9 (by simp [plainPoint]; norm_num)
    (by simp [plainPoint]; norm_num) (by simp [plainPoint]; norm_num) (by norm_num) "mmin" f d e1 e2
  cases e3.symm.trans this

example : ∃ s, multiPeak false 1 4 4 2 true = .ok s ∧
    NoGradientInMmin (smoothedOf s namesMultiPeak [(3.2, 0.9)] 0) (smoothedRec s (recMultiPeak 4) (3.2, 0.9)) plainPoint := by
  have h := init_ok (primThreeComponent false) [("gaussian_mass_maximum", fin 4)] (1 : ℝ) 4 true (nM := 4) (nQ := 2)
    (by norm_num) (by norm_num)
  exact ⟨_, h, C92_multiPeak_unsmoothed true h (θ := plainPoint) (data := [(3.2, 0.9)]) (i := 0)
    (by norm_num) (by simp [plainPoint]; norm_num) (by simp [plainPoint]; norm_num) (by simp [plainPoint]; norm_num)
    (by norm_num) (by simp [plainPoint]) (by simp [plainPoint]; norm_num)
    (by simp [plainPoint]; norm_num) (by simp [plainPoint]; norm_num) (by simp [plainPoint]; norm_num)
    (by simp) (by simp; norm_num) (by simp; norm_num) plainPoint_kinks plainPoint_max⟩

example : ∃ s, brokenPowerLaw false 1 4 4 2 true = .ok s ∧
    NoGradientInMmin (smoothedOf s namesBrokenPowerLaw [(3.2, 0.9)] 0) (smoothedRec s (recBrokenPowerLaw 4) (3.2, 0.9)) plainPoint := by
  have h := init_ok (primDoublePowerLaw false) [] (1 : ℝ) 4 true (nM := 4) (nQ := 2)
    (by norm_num) (by norm_num)
  exact ⟨_, h, C92_brokenPowerLaw_unsmoothed true h (θ := plainPoint) (data := [(3.2, 0.9)]) (i := 0)
    (by norm_num) (by simp [plainPoint]; norm_num) (by simp [plainPoint]; norm_num) (by simp [plainPoint]; norm_num)
    (by norm_num) (by simp [plainPoint]) (by simp [plainPoint]; norm_num)
    (by simp [plainPoint]; norm_num) (by simp [plainPoint]; norm_num) (by simp [plainPoint]; norm_num) (by simp [plainPoint]; norm_num)
    (by simp) (by simp; norm_num) (by simp; norm_num) plainPoint_kinks plainPoint_max plainPoint_break⟩

example : ∃ s, brokenPowerLawPeak false 1 4 4 2 true = .ok s ∧
    NoGradientInMmin (smoothedOf s namesBrokenPowerLawPeak [(3.2, 0.9)] 0) (smoothedRec s (recBrokenPowerLawPeak 4) (3.2, 0.9)) plainPoint := by
  have h := init_ok (primDoublePowerLawPeak false) [("gaussian_mass_maximum", fin 4)] (1 : ℝ) 4 true (nM := 4) (nQ := 2)
    (by norm_num) (by norm_num)
  exact ⟨_, h, C92_brokenPowerLawPeak_unsmoothed true h (θ := plainPoint) (data := [(3.2, 0.9)]) (i := 0)
    (by norm_num) (by simp [plainPoint]; norm_num) (by simp [plainPoint]; norm_num) (by simp [plainPoint]; norm_num)
    (by norm_num) (by simp [plainPoint]) (by simp [plainPoint]; norm_num)
    (by simp [plainPoint]; norm_num) (by simp [plainPoint]; norm_num) (by simp [plainPoint]; norm_num) (by simp [plainPoint]; norm_num) (by simp [plainPoint]; norm_num)
    (by simp) (by simp; norm_num) (by simp; norm_num) plainPoint_kinks plainPoint_max plainPoint_break⟩

end GW
