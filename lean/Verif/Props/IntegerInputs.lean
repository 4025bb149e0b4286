import Verif.Props.Broadcast

/-!
# C96: integers mean the same as floats
-/

noncomputable section

open Classical

namespace GW

open Fl NArr Spec

namespace Spec

/-- The same numbers as floats: `float(n)` or `array.astype(float)`. -/
def asFloat (x : AArg) : AArg := ⟨{ x.val with dtype := .float }, x.kw⟩

/-- Two calls with the same outcome: the same exception, or arrays of the same shape with the same elements. -/
def SameResult (c d : Except PyErr NArr) : Prop :=
  (∃ e, c = .error e ∧ d = .error e) ∨
    ∃ r r', c = .ok r ∧ d = .ok r' ∧ r.shape = r'.shape ∧ ∀ idx, InShape r.shape idx → r.elem idx = r'.elem idx

/-- A Python number, numpy scalar or array of floats or integers. -/
def Numeric (x : AArg) : Prop :=
  Valid x.val ∧ (x.val.dtype = .float ∨ (x.val.dtype = .int ∧ ∀ e ∈ x.val.elements, ∃ n : ℤ, e = fin n))

end Spec

/-- **C96.** With numpy, a density returns the same for integers as for the same numbers as floats. -/
def C96_statement : Prop :=
  ∀ junk : Fl → Fl → Fl,
    (∀ (xx alpha high low : AArg) (S : List ℕ), Numeric xx → Numeric alpha → Numeric high → Numeric low →
      BroadcastOf [xx.val.shape, alpha.val.shape, high.val.shape, low.val.shape] S →
      (∀ a ∈ alpha.val.elements, ¬ eqf a 1) → (∀ l ∈ low.val.elements, 0 ≤ l) →
      NotPyZero high.val → NotPyZero low.val →
      SameResult (powerlawA .numpy xx alpha high low)
        (powerlawA .numpy (asFloat xx) (asFloat alpha) (asFloat high) (asFloat low))) ∧
    (∀ (xx mu sigma high low : AArg) (S : List ℕ), Numeric xx → Numeric mu → Numeric sigma → Numeric high →
      Numeric low → BroadcastOf [xx.val.shape, mu.val.shape, sigma.val.shape, high.val.shape, low.val.shape] S →
      (∀ s ∈ sigma.val.elements, 0 < s) →
      SameResult (truncnormA .numpy xx mu sigma high low)
        (truncnormA .numpy (asFloat xx) (asFloat mu) (asFloat sigma) (asFloat high) (asFloat low))) ∧
    (∀ (xx alpha beta scale : AArg) (S : List ℕ), Numeric xx → Numeric alpha → Numeric beta → Numeric scale →
      BroadcastOf [xx.val.shape, alpha.val.shape, beta.val.shape, scale.val.shape] S →
      (∀ a ∈ alpha.val.elements, 0 < a) → (∀ a ∈ beta.val.elements, 0 < a) → (∀ a ∈ scale.val.elements, 0 < a) →
      SameResult (betaDistA junk .numpy xx alpha beta scale)
        (betaDistA junk .numpy (asFloat xx) (asFloat alpha) (asFloat beta) (asFloat scale)))

theorem Spec.ElementWise.same {c d : Except PyErr NArr} {S : List ℕ} {f : List ℕ → Except PyErr Fl}
    (hc : ElementWise c S f) (hd : ElementWise d S f) : SameResult c d := by
  obtain ⟨r, hr, hs, hv⟩ := hc
  obtain ⟨r', hr', hs', hv'⟩ := hd
  refine Or.inr ⟨r, r', hr, hr', hs.trans hs'.symm, fun idx hi => ?_⟩
  rw [hs] at hi
  have := (hv idx hi).symm.trans (hv' idx hi)
  injection this

/-- **C96**, truncated normal: always. -/
theorem C96_truncnorm_partial (b : Backend) {xx mu sigma high low : AArg} {S : List ℕ}
    (hS : BroadcastOf [xx.val.shape, mu.val.shape, sigma.val.shape, high.val.shape, low.val.shape] S)
    (hs : ∀ s ∈ sigma.val.elements, 0 < s) :
    SameResult (truncnormA b xx mu sigma high low)
      (truncnormA b (asFloat xx) (asFloat mu) (asFloat sigma) (asFloat high) (asFloat low)) := by
  obtain ⟨P, hP, -⟩ := exists_broadcastOf (shapes := [xx.val.shape, mu.val.shape, sigma.val.shape]) (S := S)
    fun s h => hS.into s (by simp at h ⊢; tauto)
  by_cases hok : b = .jax ∨ P = [] ∨ P = S
  · exact (C95_truncnorm_partial b hS hP hok hs).same
      (C95_truncnorm_partial b (xx := asFloat xx) (mu := asFloat mu) (sigma := asFloat sigma) (high := asFloat high)
        (low := asFloat low) hS hP hok hs)
  · push Not at hok
    exact Or.inl ⟨_, C95_truncnorm_raises_partial b hok.1 hS hP hok.2.1 hok.2.2 hs,
      C95_truncnorm_raises_partial b (xx := asFloat xx) (mu := asFloat mu) (sigma := asFloat sigma)
        (high := asFloat high) (low := asFloat low) hok.1 hS hP hok.2.1 hok.2.2 hs⟩

/-- **C96**, beta distribution: always. -/
theorem C96_betaDist_partial (b : Backend) (junk : Fl → Fl → Fl) {xx alpha beta scale : AArg} {S : List ℕ}
    (hS : BroadcastOf [xx.val.shape, alpha.val.shape, beta.val.shape, scale.val.shape] S)
    (ha : ∀ a ∈ alpha.val.elements, 0 < a) (hb : ∀ a ∈ beta.val.elements, 0 < a)
    (hs : ∀ a ∈ scale.val.elements, 0 < a) :
    SameResult (betaDistA junk b xx alpha beta scale)
      (betaDistA junk b (asFloat xx) (asFloat alpha) (asFloat beta) (asFloat scale)) :=
  (C95_betaDist_partial b junk hS ha hb hs).same
    (C95_betaDist_partial b junk (xx := asFloat xx) (alpha := asFloat alpha) (beta := asFloat beta)
      (scale := asFloat scale) hS ha hb hs)

/-- **C96**, power law: if the exponent is a float, or if everything else is. -/
theorem C96_powerlaw_partial (b : Backend) {xx alpha high low : AArg} {S : List ℕ}
    (hS : BroadcastOf [xx.val.shape, alpha.val.shape, high.val.shape, low.val.shape] S)
    (ht : alpha.val.dtype = .float ∨
      (xx.val.dtype = .float ∧ high.val.dtype = .float ∧ low.val.dtype = .float))
    (ha : ∀ a ∈ alpha.val.elements, ¬ eqf a 1) (hl : ∀ l ∈ low.val.elements, 0 ≤ l)
    (hh0 : NotPyZero high.val) (hl0 : NotPyZero low.val) :
    SameResult (powerlawA b xx alpha high low)
      (powerlawA b (asFloat xx) (asFloat alpha) (asFloat high) (asFloat low)) := by
  obtain ⟨P, hP, -⟩ := exists_broadcastOf (shapes := [xx.val.shape, alpha.val.shape]) (S := S)
    fun s h => hS.into s (by simp at h ⊢; tauto)
  by_cases hok : b = .jax ∨ P = [] ∨ P = S
  · exact (C95_powerlaw_partial b hS hP hok ht ha hl hh0 hl0).same
      (C95_powerlaw_partial b (xx := asFloat xx) (alpha := asFloat alpha) (high := asFloat high) (low := asFloat low)
        hS hP hok (Or.inl rfl) ha hl hh0 hl0)
  · push Not at hok
    exact Or.inl ⟨_, C95_powerlaw_raises_partial b hok.1 hS hP hok.2.1 hok.2.2 ht ha hl hh0 hl0,
      C95_powerlaw_raises_partial b (xx := asFloat xx) (alpha := asFloat alpha) (high := asFloat high)
        (low := asFloat low) hok.1 hS hP hok.2.1 hok.2.2 (Or.inl rfl) ha hl hh0 hl0⟩

/-- **C96**, power law: with an array of integers and an integer exponent, numpy raises. A negative exponent is a
`ValueError`, any other a `TypeError`, because the normalisation cannot be multiplied into an array of integers. -/
theorem C96_powerlaw_raises_partial (b : Backend) (hb : b ≠ .jax) {xx alpha high low : AArg} {S : List ℕ}
    (hS : BroadcastOf [xx.val.shape, alpha.val.shape, high.val.shape, low.val.shape] S)
    (hx : xx.val.dtype = .int) (ha : alpha.val.dtype = .int) (hxs : xx.val.shape ≠ [])
    (hh : high.val.dtype = .float) (hl : low.val.dtype = .float)
    (ha1 : ∀ a ∈ alpha.val.elements, ¬ eqf a 1) (hl1 : ∀ l ∈ low.val.elements, 0 ≤ l)
    (hh0 : NotPyZero high.val) (hl0 : NotPyZero low.val) :
    powerlawA b xx alpha high low =
      if ∃ e ∈ alpha.val.elements, e < 0 then .error .valueError else .error .typeError := by
  rw [powerlawA_body b ha1 hl1]
  have rx := Rep.input xx.val (hS.into _ (by simp))
  have ra := Rep.input alpha.val (hS.into _ (by simp))
  have rh := Rep.input high.val (hS.into _ (by simp))
  have rl := Rep.input low.val (hS.into _ (by simp))
  obtain ⟨c, ec, rc, kc, dc⟩ := ra.array.op2 b (fun _ _ => .bool) (fun a c => ind (eqf a c)) (Rep.pyInt (-1))
  obtain ⟨q, eq, rq, kq, dq⟩ := rh.div b rl (fun h => hl0 ⟨h.2.1, h.2.2⟩)
  obtain ⟨f, ef, rf, kf, df⟩ := (Rep.pyInt (S := S) 1).div b (rq.fn b Fl.log)
    (by simp only [NArr.fn, NArr.lift1, libKind]; split_ifs <;> simp)
  obtain ⟨i, ei, ri, ki, di⟩ := (Rep.pyInt (S := S) 1).op2 b promote (· + ·) ra
  obtain ⟨ph, eph, rph⟩ := rh.pow b ri (Or.inl hh) (fun h => hh0 ⟨h.1, h.2.2⟩)
  obtain ⟨pl, epl, rpl⟩ := rl.pow b ri (Or.inl hl) (fun h => hl0 ⟨h.1, h.2.2⟩)
  obtain ⟨d, ed, rd, -⟩ := rph.op2 b promote (· - ·) rpl
  obtain ⟨s, es, rs, -⟩ := ri.div b rd.array (by simp [NArr.array])
  obtain ⟨norm, en, rn, kn, dn⟩ := rc.where_ rf rs
  have hstart : powerlawArr b xx.val alpha.val high.val low.val = (do
      let prob ← NArr.power b xx.val alpha.val
      let prob ← assign b (· * ·) prob norm
      let mask ← NArr.and b (← NArr.le b xx.val high.val) (← NArr.le b low.val xx.val)
      assign b (· * ·) prob mask) := by
    simp only [powerlawArr, NArr.eq, NArr.add, NArr.sub, ec, eq, ef, ei, eph, epl, ed, es, en, ok_bind]
  rw [hstart]
  by_cases hneg : ∃ e ∈ alpha.val.elements, e < 0
  · rw [if_pos hneg, NArr.power, if_neg (fun h => hb h.2.2), if_pos ⟨by simp [hx], by simp [ha], hneg⟩]
    rfl
  · rw [if_neg hneg, NArr.power, if_neg (fun h => hb h.2.2), if_neg (fun h => hneg h.2.2)]
    obtain ⟨prob, ep, rp, kp, dp⟩ := rx.lift2 b promote Fl.pow ra
    rw [ep, ok_bind]
    have hk : prob.kind = .array := by
      rw [kp, libKind, if_neg]
      rintro ⟨-, h⟩
      have := rp.lub.1 xx.val.shape (by simp)
      rw [h] at this
      cases hxx : xx.val.shape with
      | nil => exact hxs hxx
      | cons m t => rw [hxx] at this; cases this
    have hdn : norm.dtype = .float := by rw [dn, df]; rfl
    rw [assign, if_neg (by tauto), if_pos (by rw [dp, hx, ha, hdn]; simp [promote])]
    rfl

/-- One axis of integers. -/
def Spec.ivec (n : ℕ) (f : ℕ → ℤ) : NArr := ⟨.array, .int, [n], fun i => fin (f (i.headD 0))⟩

/-- **C96** is false: `powerlaw(np.array([10, 11, 12]), alpha=-2, high=50.0, low=5.0)` raises `ValueError`. -/
theorem C96_fails : ¬ C96_statement := by
  intro h
  have h1 := (h fun _ _ => nan).1 ⟨Spec.ivec 3 fun i => 10 + i, false⟩ ⟨pyInt (-2), true⟩ ⟨pyFloat (fin 50), true⟩
    ⟨pyFloat (fin 5), true⟩ [3]
    ⟨by simp [Valid, Spec.ivec], Or.inr ⟨rfl, by
      simp only [elements, Spec.ivec, List.mem_map]
      rintro e ⟨i, -, rfl⟩
      exact ⟨_, rfl⟩⟩⟩
    ⟨fun _ => rfl, Or.inr ⟨rfl, by simp [elements, indices, pyInt]; exact ⟨-2, by norm_num⟩⟩⟩
    ⟨fun _ => rfl, Or.inl rfl⟩ ⟨fun _ => rfl, Or.inl rfl⟩ (broadcast_row_scalars 3 3)
    (by norm_num [pyInt, elements, indices, eqf]) (by simp [pyFloat, elements, indices, Fl.zero_eq])
    (by norm_num [NotPyZero, pyFloat, eqf]) (by norm_num [NotPyZero, pyFloat, eqf])
  have h2 := C96_powerlaw_raises_partial .numpy (by simp) (xx := ⟨Spec.ivec 3 fun i => 10 + i, false⟩)
    (alpha := ⟨pyInt (-2), true⟩) (high := ⟨pyFloat (fin 50), true⟩) (low := ⟨pyFloat (fin 5), true⟩) (S := [3])
    (broadcast_row_scalars 3 3) rfl rfl (by simp [Spec.ivec]) rfl rfl
    (by norm_num [pyInt, elements, indices, eqf]) (by simp [pyFloat, elements, indices, Fl.zero_eq])
    (by norm_num [NotPyZero, pyFloat, eqf]) (by norm_num [NotPyZero, pyFloat, eqf])
  rw [if_pos (by simp [pyInt, elements, indices, Fl.zero_eq])] at h2
  obtain ⟨r, h3, -⟩ := C95_powerlaw_partial .numpy (xx := asFloat ⟨Spec.ivec 3 fun i => 10 + i, false⟩)
    (alpha := asFloat ⟨pyInt (-2), true⟩) (high := asFloat ⟨pyFloat (fin 50), true⟩)
    (low := asFloat ⟨pyFloat (fin 5), true⟩) (S := [3]) (P := [3])
    (broadcast_row_scalars 3 3) (broadcast_row_scalars 3 1) (Or.inr (Or.inr rfl)) (Or.inl rfl)
    (by norm_num [pyInt, elements, indices, eqf, asFloat]) (by simp [pyFloat, elements, indices, Fl.zero_eq, asFloat])
    (by norm_num [NotPyZero, pyFloat, eqf, asFloat]) (by norm_num [NotPyZero, pyFloat, eqf, asFloat])
  rw [h2, h3] at h1
  rcases h1 with ⟨e, -, h⟩ | ⟨r, r', h, -⟩ <;> cases h

/-- Integers that are no problem: masses and bounds, with a floating-point exponent. -/
example : SameResult
    (powerlawA .numpy ⟨Spec.ivec 3 fun i => 10 + i, false⟩ ⟨pyFloat (fin (-2)), true⟩ ⟨pyInt 50, true⟩
      ⟨pyInt 5, true⟩)
    (powerlawA .numpy (asFloat ⟨Spec.ivec 3 fun i => 10 + i, false⟩) (asFloat ⟨pyFloat (fin (-2)), true⟩)
      (asFloat ⟨pyInt 50, true⟩) (asFloat ⟨pyInt 5, true⟩)) :=
  C96_powerlaw_partial .numpy (S := [3]) (broadcast_row_scalars 3 3) (Or.inl rfl)
    (by norm_num [pyFloat, elements, indices, eqf]) (by simp [pyInt, elements, indices, Fl.zero_eq])
    (by norm_num [NotPyZero, pyInt, eqf]) (by norm_num [NotPyZero, pyInt, eqf])

/-- Integers in the other two densities. -/
example (b : Backend) (junk : Fl → Fl → Fl) :
    SameResult
      (truncnormA b ⟨Spec.ivec 3 fun i => 10 + i, false⟩ ⟨pyInt 11, true⟩ ⟨pyInt 2, true⟩ ⟨pyInt 100, true⟩
        ⟨pyInt 5, true⟩)
      (truncnormA b (asFloat ⟨Spec.ivec 3 fun i => 10 + i, false⟩) (asFloat ⟨pyInt 11, true⟩)
        (asFloat ⟨pyInt 2, true⟩) (asFloat ⟨pyInt 100, true⟩) (asFloat ⟨pyInt 5, true⟩)) ∧
    SameResult
      (betaDistA junk b ⟨Spec.vec 3 fun i => i / 3, false⟩ ⟨pyInt 2, true⟩ ⟨pyInt 3, true⟩ ⟨pyInt 1, true⟩)
      (betaDistA junk b (asFloat ⟨Spec.vec 3 fun i => i / 3, false⟩) (asFloat ⟨pyInt 2, true⟩)
        (asFloat ⟨pyInt 3, true⟩) (asFloat ⟨pyInt 1, true⟩)) :=
  ⟨C96_truncnorm_partial b (S := [3]) (broadcast_row_scalars 3 4) (by simp [pyInt, elements, indices, Fl.zero_eq]),
    C96_betaDist_partial b junk (S := [3]) (broadcast_row_scalars 3 3)
      (by simp [pyInt, elements, indices, Fl.zero_eq]) (by simp [pyInt, elements, indices, Fl.zero_eq])
      (by simp [pyInt, elements, indices, Fl.zero_eq])⟩

end GW
