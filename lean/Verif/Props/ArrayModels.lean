import Verif.Model.ArrayModels
import Verif.Model.Mass
import Verif.Model.Spin
import Verif.Props.Broadcast

/-!
# C97: mass and spin models act sample by sample on datasets of any shape
-/

noncomputable section

open Classical

namespace GW

open Fl NArr Spec

namespace Spec

/-- A hyper-parameter: a Python number, numpy scalar or array without axes. -/
def Param (x : NArr) (v : Fl) : Prop := x.shape = [] ∧ x.elem [] = v

/-- A floating-point hyper-parameter. -/
def FloatParam (x : NArr) (v : Fl) : Prop := Param x v ∧ x.dtype = .float

/-- Data of shape `T`: an array or numpy scalar, with one element per sample. -/
def Data (T : List ℕ) (x : NArr) : Prop := x.shape = T ∧ x.kind ≠ .py

/-- The sample at an index of a dataset. -/
def sample (dataset : Dict NArr) (idx : List ℕ) : Dict Fl := dataset.map fun p => (p.1, p.2.elem idx)

end Spec

/-! ### Arrays that are scalars or have the full shape -/

/-- `x` has no axes or shape `T`, and its element for an index of `T` is given by `g`. -/
structure Slot (T : List ℕ) (x : NArr) (g : List ℕ → Fl) : Prop where
  shape : x.shape = [] ∨ x.shape = T
  entry : ∀ idx, InShape T idx → Spec.entry x idx = g idx

namespace Slot

variable {T : List ℕ} {x y : NArr} {g h : List ℕ → Fl}

theorem into (hx : Slot T x g) : Into x.shape T := by
  rcases hx.shape with h | h <;> rw [h]
  · exact .nil
  · exact .refl _

theorem of_data (hx : Data T x) : Slot T x x.elem :=
  ⟨Or.inr hx.1, fun idx hi => by rw [entry_eq (by rw [hx.1]; exact .refl _) hi, hx.1, proj_inside hi]⟩

theorem of_param {v : Fl} (hx : Param x v) : Slot T x (fun _ => v) :=
  ⟨Or.inl hx.1, fun idx hi => by
    unfold Spec.entry
    rw [hx.1, ← hx.2]
    rfl⟩

theorem pyInt (n : ℤ) : Slot T (NArr.pyInt n) (fun _ => fin n) := of_param ⟨rfl, rfl⟩

theorem lub_two (hx : x.shape = [] ∨ x.shape = T) (hy : y.shape = [] ∨ y.shape = T) {u : List ℕ}
    (hu : Lub [x.shape, y.shape] u) : (u = [] ∨ u = T) ∧ (x.shape = T ∨ y.shape = T → u = T) := by
  have key : ∀ v, Into x.shape v → Into y.shape v → (v = x.shape ∨ v = y.shape) → u = v := fun v h1 h2 h3 =>
    hu.unique ⟨by simp [h1, h2], fun W hW => by
      rcases h3 with h | h <;> rw [h]
      · exact hW _ (by simp)
      · exact hW _ (by simp)⟩
  rcases hx with hx | hx <;> rcases hy with hy | hy
  · have := key [] (by rw [hx]; exact .nil) (by rw [hy]; exact .nil) (Or.inl hx.symm)
    refine ⟨Or.inl this, ?_⟩
    rw [this, hx, hy]
    tauto
  all_goals
    have := key T (by rw [hx]; first | exact .nil | exact .refl _) (by rw [hy]; first | exact .nil | exact .refl _)
      (by rw [hx, hy]; tauto)
    exact ⟨Or.inr this, fun _ => this⟩

theorem op2 (b : Backend) (dt : DType → DType → DType) (f : Fl → Fl → Fl) (hx : Slot T x g) (hy : Slot T y h) :
    ∃ r, NArr.op2 b dt f x y = .ok r ∧ Slot T r (fun i => f (g i) (h i)) ∧
      (x.shape = T ∨ y.shape = T → r.shape = T) ∧ (x.kind ≠ .py ∨ y.kind ≠ .py → r.kind ≠ .py) ∧
      r.dtype = dt x.dtype y.dtype := by
  obtain ⟨r, hr, hrep, hk, hd⟩ := (Rep.input x hx.into).op2 b dt f (Rep.input y hy.into)
  have hl := lub_two hx.shape hy.shape hrep.lub
  refine ⟨r, hr, ⟨hl.1, fun idx hi => ?_⟩, hl.2, fun hpy => ?_, hd⟩
  · rw [entry_eq hrep.into hi, hrep.elem idx, ← entry_eq hx.into hi, ← entry_eq hy.into hi, hx.entry idx hi,
      hy.entry idx hi]
  · rw [hk, if_neg (by tauto), libKind]
    split_ifs <;> simp

theorem div (b : Backend) (hx : Slot T x g) (hy : Slot T y h)
    (hz : ¬ (x.kind = .py ∧ y.kind = .py ∧ eqf (y.elem []) 0)) :
    ∃ r, NArr.div b x y = .ok r ∧ Slot T r (fun i => g i / h i) ∧
      (x.shape = T ∨ y.shape = T → r.shape = T) ∧ (x.kind ≠ .py ∨ y.kind ≠ .py → r.kind ≠ .py) := by
  unfold NArr.div
  rw [if_neg hz]
  obtain ⟨r, h1, h2, h3, h4, -⟩ := hx.op2 b _ (· / ·) hy
  exact ⟨r, h1, h2, h3, h4⟩

theorem neg (b : Backend) (hx : Slot T x g) : Slot T (NArr.neg b x) (fun i => -g i) :=
  ⟨hx.shape, fun idx hi => by
    rw [← hx.entry idx hi]
    rfl⟩

/-- From the slots to the specification. -/
theorem elementWise {c : Except PyErr NArr} (hx : Slot T x g) (hT : x.shape = T) (hc : c = .ok x)
    {f : List ℕ → Except PyErr Fl} (hf : ∀ idx, InShape T idx → f idx = .ok (g idx)) : ElementWise c T f :=
  ⟨x, hc, hT, fun idx hi => by
    rw [hf idx hi, ← hx.entry idx hi, entry_eq hx.into hi, hT, proj_inside hi]⟩

theorem broadcast {shapes : List (List ℕ)} (h : ∀ s ∈ shapes, s = [] ∨ s = T) (hT : T ∈ shapes) :
    BroadcastOf shapes T := by
  refine ⟨fun s hs k n hk => ?_, fun k n hk => ⟨T, hT, hk⟩⟩
  rcases h s hs with rfl | rfl
  · simp at hk
  · exact ⟨(List.getElem?_eq_some_iff.1 hk).1, Or.inr hk⟩

end Slot

/-- All elements of a hyper-parameter. -/
theorem Spec.Param.elements {x : NArr} {v : Fl} (h : Param x v) : x.elements = [v] := by
  simp [NArr.elements, h.1, NArr.indices, h.2]

/-! ### Densities of data -/

theorem powerlaw_slot (b : Backend) {T : List ℕ} {xx alpha high low : AArg} {gx ga gh gl : List ℕ → Fl}
    (hx : Slot T xx.val gx) (ha : Slot T alpha.val ga) (hh : Slot T high.val gh) (hl : Slot T low.val gl)
    (hT : xx.val.shape = T) (ht : alpha.val.dtype = .float)
    (hh0 : NotPyZero high.val) (hl0 : NotPyZero low.val)
    (hca : alpha.kw = true → ∀ a ∈ alpha.val.elements, ¬ eqf a 1)
    (hcl : low.kw = true → ∀ l ∈ low.val.elements, 0 ≤ l) :
    ∃ (r : NArr) (g : List ℕ → Fl), powerlawA b xx alpha high low = .ok r ∧ Slot T r g ∧ r.shape = T ∧ r.kind ≠ .py ∧
      ∀ idx, InShape T idx →
        powerlaw b false ⟨gx idx, xx.kw⟩ ⟨ga idx, alpha.kw⟩ ⟨gh idx, high.kw⟩ ⟨gl idx, low.kw⟩ = .ok (g idx) := by
  have hS : BroadcastOf [xx.val.shape, alpha.val.shape, high.val.shape, low.val.shape] T :=
    Slot.broadcast (by
      intro s hs
      simp only [List.mem_cons, List.not_mem_nil, or_false] at hs
      rcases hs with rfl | rfl | rfl | rfl
      exacts [hx.shape, ha.shape, hh.shape, hl.shape]) (by simp [hT])
  have hP : BroadcastOf [xx.val.shape, alpha.val.shape] T :=
    Slot.broadcast (by
      intro s hs
      simp only [List.mem_cons, List.not_mem_nil, or_false] at hs
      rcases hs with rfl | rfl
      exacts [hx.shape, ha.shape]) (by simp [hT])
  obtain ⟨r, hr, hsh, hv, hk⟩ := powerlawArr_rep b hS hP (Or.inl ht) hh0 hl0 (Or.inr (Or.inr rfl))
  refine ⟨r, r.elem, ?_, Slot.of_data ⟨hsh, hk⟩, hsh, hk, fun idx hi => ?_⟩
  · rw [powerlawA, C02_applyConditions_spec, if_neg, hr]
    rintro ⟨-, kc, hkc, v, hg, hn⟩
    have := get?_mem hg
    simp only [akwargs, List.mem_map, List.mem_filter, Prod.mk.injEq] at this
    obtain ⟨p, ⟨hp, hkw⟩, hkey, hval⟩ := this
    simp only [List.mem_cons, List.not_mem_nil, or_false] at hkc hp
    rcases hkc with rfl | rfl <;> rcases hp with rfl | rfl | rfl | rfl <;> simp at hkey <;> subst hval
    exacts [hn (hcl hkw), hn (hca hkw)]
  · have hv' := hv idx hi
    rw [hx.entry idx hi, ha.entry idx hi, hh.entry idx hi, hl.entry idx hi] at hv'
    unfold powerlaw
    rw [C02_applyConditions_spec, if_neg]
    · exact hv'
    rintro ⟨-, kc, hkc, v, hg, hn⟩
    have := get?_mem hg
    simp only [kwargsOf, List.mem_map, List.mem_filter, Prod.mk.injEq] at this
    obtain ⟨p, ⟨hp, hkw⟩, hkey, hval⟩ := this
    have ma := entry_mem (x := alpha.val) ha.into hi
    have ml := entry_mem (x := low.val) hl.into hi
    rw [ha.entry idx hi] at ma
    rw [hl.entry idx hi] at ml
    simp only [List.mem_cons, List.not_mem_nil, or_false] at hkc hp
    rcases hkc with rfl | rfl <;> rcases hp with rfl | rfl | rfl | rfl <;> simp at hkey <;> subst hval
    exacts [hn (by simpa [Spec.condHolds, opGe] using hcl hkw _ ml),
      hn (by simpa [Spec.condHolds, opNe] using hca hkw _ ma)]

theorem truncnorm_slot (b : Backend) {T : List ℕ} {xx mu sigma high low : AArg} {gx gm gs gh gl : List ℕ → Fl}
    (hx : Slot T xx.val gx) (hm : Slot T mu.val gm) (hs : Slot T sigma.val gs) (hh : Slot T high.val gh)
    (hl : Slot T low.val gl) (hT : xx.val.shape = T) (hcs : sigma.kw = true → ∀ a ∈ sigma.val.elements, 0 < a) :
    ∃ (r : NArr) (g : List ℕ → Fl), truncnormA b xx mu sigma high low = .ok r ∧ Slot T r g ∧ r.shape = T ∧
      ∀ idx, InShape T idx →
        truncnorm b ⟨gx idx, xx.kw⟩ ⟨gm idx, mu.kw⟩ ⟨gs idx, sigma.kw⟩ ⟨gh idx, high.kw⟩ ⟨gl idx, low.kw⟩ =
          .ok (g idx) := by
  have hS : BroadcastOf [xx.val.shape, mu.val.shape, sigma.val.shape, high.val.shape, low.val.shape] T :=
    Slot.broadcast (by
      intro s hs'
      simp only [List.mem_cons, List.not_mem_nil, or_false] at hs'
      rcases hs' with rfl | rfl | rfl | rfl | rfl
      exacts [hx.shape, hm.shape, hs.shape, hh.shape, hl.shape]) (by simp [hT])
  have hP : BroadcastOf [xx.val.shape, mu.val.shape, sigma.val.shape] T :=
    Slot.broadcast (by
      intro s hs'
      simp only [List.mem_cons, List.not_mem_nil, or_false] at hs'
      rcases hs' with rfl | rfl | rfl
      exacts [hx.shape, hm.shape, hs.shape]) (by simp [hT])
  obtain ⟨r, hr, hsh, hv⟩ := truncnormArr_rep b hS hP (Or.inr (Or.inr rfl))
  have hcell : Slot T r r.elem :=
    ⟨Or.inr hsh, fun idx hi => by rw [entry_eq (by rw [hsh]; exact .refl _) hi, hsh, proj_inside hi]⟩
  refine ⟨r, r.elem, ?_, hcell, hsh, fun idx hi => ?_⟩
  · rw [truncnormA, C02_applyConditions_spec, if_neg, hr]
    rintro ⟨-, kc, hkc, v, hg, hn⟩
    have := get?_mem hg
    simp only [akwargs, List.mem_map, List.mem_filter, Prod.mk.injEq] at this
    obtain ⟨p, ⟨hp, hkw⟩, hkey, hval⟩ := this
    simp only [List.mem_cons, List.not_mem_nil, or_false] at hkc hp
    subst hkc
    rcases hp with rfl | rfl | rfl | rfl | rfl <;> simp at hkey <;> subst hval
    exact hn (hcs hkw)
  · have hv' := hv idx hi
    rw [hx.entry idx hi, hm.entry idx hi, hs.entry idx hi, hh.entry idx hi, hl.entry idx hi] at hv'
    unfold truncnorm
    rw [C02_applyConditions_spec, if_neg]
    · exact congrArg _ hv'
    rintro ⟨-, kc, hkc, v, hg, hn⟩
    have := get?_mem hg
    simp only [kwargsOf, List.mem_map, List.mem_filter, Prod.mk.injEq] at this
    obtain ⟨p, ⟨hp, hkw⟩, hkey, hval⟩ := this
    have ms := entry_mem (x := sigma.val) hs.into hi
    rw [hs.entry idx hi] at ms
    simp only [List.mem_cons, List.not_mem_nil, or_false] at hkc hp
    subst hkc
    rcases hp with rfl | rfl | rfl | rfl | rfl <;> simp at hkey <;> subst hval
    exact hn (by simpa [Spec.condHolds, opGt] using hcs hkw _ ms)

theorem betaDist_slot (junk : Fl → Fl → Fl) (b : Backend) {T : List ℕ} {xx alpha beta scale : AArg}
    {gx ga gb gs : List ℕ → Fl}
    (hx : Slot T xx.val gx) (ha : Slot T alpha.val ga) (hb : Slot T beta.val gb) (hs : Slot T scale.val gs)
    (hT : xx.val.shape = T) (hca : ∀ a ∈ alpha.val.elements, 0 < a) (hcb : ∀ a ∈ beta.val.elements, 0 < a)
    (hcs : ∀ a ∈ scale.val.elements, 0 < a) :
    ∃ (r : NArr) (g : List ℕ → Fl), betaDistA junk b xx alpha beta scale = .ok r ∧ Slot T r g ∧ r.shape = T ∧
      ∀ idx, InShape T idx →
        betaDist junk b ⟨gx idx, xx.kw⟩ ⟨ga idx, alpha.kw⟩ ⟨gb idx, beta.kw⟩ ⟨gs idx, scale.kw⟩ = .ok (g idx) := by
  have hS : BroadcastOf [xx.val.shape, alpha.val.shape, beta.val.shape, scale.val.shape] T :=
    Slot.broadcast (by
      intro s hs'
      simp only [List.mem_cons, List.not_mem_nil, or_false] at hs'
      rcases hs' with rfl | rfl | rfl | rfl
      exacts [hx.shape, ha.shape, hb.shape, hs.shape]) (by simp [hT])
  obtain ⟨r, hr, hsh, hv⟩ := C95_betaDist_partial b junk hS hca hcb hcs
  have hcell : Slot T r r.elem :=
    ⟨Or.inr hsh, fun idx hi => by rw [entry_eq (by rw [hsh]; exact .refl _) hi, hsh, proj_inside hi]⟩
  refine ⟨r, r.elem, hr, hcell, hsh, fun idx hi => ?_⟩
  have := hv idx hi
  simp only [argAt, hx.entry idx hi, ha.entry idx hi, hb.entry idx hi, hs.entry idx hi] at this
  exact this

/-- Without zero bounds, Python floats behave like numpy numbers. -/
theorem powerlaw_py (b : Backend) (py : Bool) {xx alpha high low : Arg} (hh : ¬ eqf high.val 0)
    (hl : ¬ eqf low.val 0) : powerlaw b py xx alpha high low = powerlaw b false xx alpha high low := by
  unfold powerlaw powerlawBody pyDiv pyPow
  simp only [hh, hl, false_and, and_false, if_false]

theorem not_eqf_zero {v : Fl} (h : 0 < v) : ¬ eqf v 0 := by
  cases v with
  | fin r => simp only [Fl.zero_eq, fin_lt] at h; simp [eqf, h.ne']
  | pinf => simp [eqf]
  | ninf => simp [eqf]
  | nan => simp [eqf]

theorem le_of_pos {v : Fl} (h : 0 < v) : 0 ≤ v := by
  cases v with
  | fin r => simp only [Fl.zero_eq, fin_lt, fin_le] at *; exact h.le
  | pinf => trivial
  | ninf => exact h.elim
  | nan => exact h.elim

theorem Spec.Param.notPyZero {x : NArr} {v : Fl} (h : Param x v) (hv : 0 < v) : NotPyZero x := by
  rintro ⟨-, h0⟩
  rw [h.2] at h0
  exact not_eqf_zero hv h0

/-! ### The property -/

/-- **C97**, `power_law_mass`. -/
theorem C97_powerLawMass_partial (b : Backend) (py : Bool) {T : List ℕ} {mass alpha mmin mmax : NArr}
    {va vmin vmax : Fl} (hm : Data T mass) (ha : FloatParam alpha va) (hmin : Param mmin vmin)
    (hmax : Param mmax vmax) (h1 : ¬ eqf (-va) 1) (h2 : 0 < vmin) (h3 : 0 < vmax) :
    ElementWise (powerLawMassA b mass alpha mmin mmax) T fun i => powerLawMass b py (mass.elem i) va vmin vmax := by
  obtain ⟨r, g, hr, hc, hs, -, hv⟩ := powerlaw_slot b (xx := apos mass) (alpha := akw (neg b alpha))
    (high := akw mmax) (low := akw mmin) (Slot.of_data hm) ((Slot.of_param ha.1).neg b) (Slot.of_param hmax)
    (Slot.of_param hmin) hm.1 ha.2 (hmax.notPyZero h3) (hmin.notPyZero h2)
    (fun _ => by
      have : Param (neg b alpha) (-va) := ⟨ha.1.1, by rw [← ha.1.2]; rfl⟩
      rw [this.elements]; simpa using h1)
    (fun _ => by rw [hmin.elements]; simpa using le_of_pos h2)
  refine hc.elementWise hs hr fun idx hi => ?_
  rw [powerLawMass, powerlaw_py b py (not_eqf_zero h3) (not_eqf_zero h2)]
  exact hv idx hi

theorem twoComponentSingle_slot (b : Backend) (py : Bool) {T : List ℕ}
    {mass alpha mmin mmax lam mpp sigpp gmax : NArr} {va vmin vmax vlam vmpp vsig vg : Fl}
    (hm : Data T mass) (ha : FloatParam alpha va) (hmin : Param mmin vmin)
    (hmax : Param mmax vmax) (hlam : Param lam vlam) (hmpp : Param mpp vmpp) (hsig : Param sigpp vsig)
    (hg : Param gmax vg) (h1 : ¬ eqf (-va) 1) (h2 : 0 < vmin) (h3 : 0 < vmax) (h4 : 0 < vsig) :
    ∃ (r : NArr) (g : List ℕ → Fl), twoComponentSingleA b mass alpha mmin mmax lam mpp sigpp gmax = .ok r ∧
      Slot T r g ∧ r.shape = T ∧ ∀ idx, InShape T idx →
        twoComponentSingle b py (mass.elem idx) va vmin vmax vlam vmpp vsig vg = .ok (g idx) := by
  obtain ⟨p, gp, ep, cp, sp, kp, vp⟩ := powerlaw_slot b (xx := apos mass) (alpha := akw (neg b alpha))
    (high := akw mmax) (low := akw mmin) (Slot.of_data hm) ((Slot.of_param ha.1).neg b) (Slot.of_param hmax)
    (Slot.of_param hmin) hm.1 ha.2 (hmax.notPyZero h3) (hmin.notPyZero h2)
    (fun _ => by
      have : Param (neg b alpha) (-va) := ⟨ha.1.1, by rw [← ha.1.2]; rfl⟩
      rw [this.elements]; simpa using h1)
    (fun _ => by rw [hmin.elements]; simpa using le_of_pos h2)
  obtain ⟨q, gq, eq, cq, sq, vq⟩ := truncnorm_slot b (xx := apos mass) (mu := akw mpp) (sigma := akw sigpp)
    (high := akw gmax) (low := akw mmin) (Slot.of_data hm) (Slot.of_param hmpp) (Slot.of_param hsig)
    (Slot.of_param hg) (Slot.of_param hmin) hm.1 (fun _ => by rw [hsig.elements]; simpa using h4)
  obtain ⟨l1, el1, cl1, -⟩ := (Slot.pyInt (T := T) 1).op2 b promote (· - ·) (Slot.of_param hlam)
  obtain ⟨t1, et1, ct1, st1, -⟩ := cl1.op2 b promote (· * ·) cp
  obtain ⟨t2, et2, ct2, -⟩ := (Slot.of_param (T := T) hlam).op2 b promote (· * ·) cq
  obtain ⟨r, er, cr, sr, -⟩ := ct1.op2 b promote (· + ·) ct2
  refine ⟨r, _, ?_, cr, sr (Or.inl (st1 (Or.inr sp))), fun idx hi => ?_⟩
  · simp only [twoComponentSingleA, NArr.sub, NArr.mul, NArr.add, ep, eq, el1, et1, et2, er, ok_bind]
  · have h5 := vp idx hi
    have h6 := vq idx hi
    simp only [twoComponentSingle, powerlaw_py b py (high := kw vmax) (low := kw vmin) (not_eqf_zero h3)
      (not_eqf_zero h2)]
    change (do
      let pPow ← powerlaw b false ⟨mass.elem idx, false⟩ ⟨-va, true⟩ ⟨vmax, true⟩ ⟨vmin, true⟩
      let pNorm ← truncnorm b ⟨mass.elem idx, false⟩ ⟨vmpp, true⟩ ⟨vsig, true⟩ ⟨vg, true⟩ ⟨vmin, true⟩
      pure ((1 - vlam) * pPow + vlam * pNorm)) = _
    rw [h5, ok_bind, h6, ok_bind, pure_eq_ok, fin_int_one]

/-- **C97**, `two_component_single`. -/
theorem C97_twoComponentSingle_partial (b : Backend) (py : Bool) {T : List ℕ}
    {mass alpha mmin mmax lam mpp sigpp gmax : NArr} {va vmin vmax vlam vmpp vsig vg : Fl}
    (hm : Data T mass) (ha : FloatParam alpha va) (hmin : Param mmin vmin)
    (hmax : Param mmax vmax) (hlam : Param lam vlam) (hmpp : Param mpp vmpp) (hsig : Param sigpp vsig)
    (hg : Param gmax vg) (h1 : ¬ eqf (-va) 1) (h2 : 0 < vmin) (h3 : 0 < vmax) (h4 : 0 < vsig) :
    ElementWise (twoComponentSingleA b mass alpha mmin mmax lam mpp sigpp gmax) T fun i =>
      twoComponentSingle b py (mass.elem i) va vmin vmax vlam vmpp vsig vg := by
  obtain ⟨r, g, er, cr, sr, vr⟩ := twoComponentSingle_slot b py hm ha hmin hmax hlam hmpp hsig hg h1 h2 h3 h4
  exact cr.elementWise sr er vr

theorem massRatioFactor_slot (b : Backend) {T : List ℕ} {m1 q beta mmin : NArr} {vb vmin : Fl}
    (hm : Data T m1) (hq : Data T q) (hb : FloatParam beta vb) (hmin : Param mmin vmin) :
    ∃ (r : NArr) (g : List ℕ → Fl), massRatioFactorA b q beta mmin m1 = .ok r ∧ Slot T r g ∧ r.shape = T ∧
      ∀ idx, InShape T idx → massRatioFactor b (q.elem idx) vb vmin (m1.elem idx) = .ok (g idx) := by
  obtain ⟨l, el, cl, sl, kl⟩ := (Slot.of_param (T := T) hmin).div b (Slot.of_data hm) (fun h => hm.2 h.2.1)
  obtain ⟨p, gp, ep, cp, sp, kp, vp⟩ := powerlaw_slot b (xx := apos q) (alpha := apos beta)
    (high := apos (NArr.pyInt 1)) (low := apos l) (Slot.of_data hq) (Slot.of_param hb.1) (Slot.pyInt 1) cl hq.1 hb.2
    (by norm_num [NotPyZero, NArr.pyInt, eqf]) (fun h => kl (Or.inr hm.2) h.1) (by simp) (by simp)
  refine ⟨p, gp, by rw [massRatioFactorA, el, ok_bind, ep], cp, sp, fun idx hi => ?_⟩
  have := vp idx hi
  rw [fin_int_one] at this
  exact this

/-- **C97**, `two_component_primary_mass_ratio`. -/
theorem C97_twoComponentPrimaryMassRatio_partial (b : Backend) (py : Bool) {T : List ℕ}
    {m1 q alpha beta mmin mmax lam mpp sigpp gmax : NArr} {va vb vmin vmax vlam vmpp vsig vg : Fl}
    (hm : Data T m1) (hq : Data T q) (ha : FloatParam alpha va) (hb : FloatParam beta vb) (hmin : Param mmin vmin)
    (hmax : Param mmax vmax) (hlam : Param lam vlam) (hmpp : Param mpp vmpp) (hsig : Param sigpp vsig)
    (hg : Param gmax vg) (h1 : ¬ eqf (-va) 1) (h2 : 0 < vmin) (h3 : 0 < vmax) (h4 : 0 < vsig) :
    ElementWise (twoComponentPrimaryMassRatioA b m1 q alpha beta mmin mmax lam mpp sigpp gmax) T fun i =>
      twoComponentPrimaryMassRatio b py (m1.elem i) (q.elem i) va vb vmin vmax vlam vmpp vsig vg := by
  obtain ⟨p, gp, ep, cp, sp, vp⟩ := twoComponentSingle_slot b py hm ha hmin hmax hlam hmpp hsig hg h1 h2 h3 h4
  obtain ⟨f, gf, ef, cf, sf, vf⟩ := massRatioFactor_slot b hm hq hb hmin
  obtain ⟨r, er, cr, sr, -⟩ := cp.op2 b promote (· * ·) cf
  refine cr.elementWise (sr (Or.inl sp)) ?_ fun idx hi => ?_
  · simp only [twoComponentPrimaryMassRatioA, NArr.mul, ep, ef, er, ok_bind]
  · simp only [twoComponentPrimaryMassRatio, vp idx hi, vf idx hi, ok_bind, pure_eq_ok]

/-- **C97**, `power_law_primary_mass_ratio`. -/
theorem C97_powerLawPrimaryMassRatio_partial (b : Backend) (py : Bool) {T : List ℕ}
    {m1 q alpha beta mmin mmax : NArr} {va vb vmin vmax : Fl}
    (hm : Data T m1) (hq : Data T q) (ha : FloatParam alpha va) (hb : FloatParam beta vb) (hmin : Param mmin vmin)
    (hmax : Param mmax vmax) (h1 : ¬ eqf (-va) 1) (h2 : 0 < vmin) (h3 : 0 < vmax) :
    ElementWise (powerLawPrimaryMassRatioA b m1 q alpha beta mmin mmax) T fun i =>
      powerLawPrimaryMassRatio b py (m1.elem i) (q.elem i) va vb vmin vmax := by
  have hp : ∀ n : ℤ, Param (NArr.pyInt n) (fin n) := fun n => ⟨rfl, rfl⟩
  have := C97_twoComponentPrimaryMassRatio_partial b py hm hq ha hb hmin hmax (hp 0) (hp 35) (hp 1) (hp 100) h1 h2 h3
    (by simp [Fl.zero_eq])
  simpa [powerLawPrimaryMassRatioA, powerLawPrimaryMassRatio] using this

/-- **C97**, `three_component_single`. -/
theorem C97_threeComponentSingle_partial (b : Backend) (py : Bool) {T : List ℕ}
    {mass alpha mmin mmax lam lam1 mpp1 sigpp1 mpp2 sigpp2 gmax : NArr}
    {va vmin vmax vlam vlam1 vmpp1 vsig1 vmpp2 vsig2 vg : Fl}
    (hm : Data T mass) (ha : FloatParam alpha va) (hmin : Param mmin vmin)
    (hmax : Param mmax vmax) (hlam : Param lam vlam) (hlam1 : Param lam1 vlam1) (hmpp1 : Param mpp1 vmpp1)
    (hsig1 : Param sigpp1 vsig1) (hmpp2 : Param mpp2 vmpp2) (hsig2 : Param sigpp2 vsig2)
    (hg : Param gmax vg) (h1 : ¬ eqf (-va) 1) (h2 : 0 < vmin) (h3 : 0 < vmax) (h4 : 0 < vsig1) (h5 : 0 < vsig2) :
    ElementWise (threeComponentSingleA b mass alpha mmin mmax lam lam1 mpp1 sigpp1 mpp2 sigpp2 gmax) T fun i =>
      threeComponentSingle b py (mass.elem i) va vmin vmax vlam vlam1 vmpp1 vsig1 vmpp2 vsig2 vg := by
  obtain ⟨p, gp, ep, cp, sp, kp, vp⟩ := powerlaw_slot b (xx := apos mass) (alpha := akw (neg b alpha))
    (high := akw mmax) (low := akw mmin) (Slot.of_data hm) ((Slot.of_param ha.1).neg b) (Slot.of_param hmax)
    (Slot.of_param hmin) hm.1 ha.2 (hmax.notPyZero h3) (hmin.notPyZero h2)
    (fun _ => by
      have : Param (neg b alpha) (-va) := ⟨ha.1.1, by rw [← ha.1.2]; rfl⟩
      rw [this.elements]; simpa using h1)
    (fun _ => by rw [hmin.elements]; simpa using le_of_pos h2)
  obtain ⟨q, gq, eq, cq, sq, vq⟩ := truncnorm_slot b (xx := apos mass) (mu := akw mpp1) (sigma := akw sigpp1)
    (high := akw gmax) (low := akw mmin) (Slot.of_data hm) (Slot.of_param hmpp1) (Slot.of_param hsig1)
    (Slot.of_param hg) (Slot.of_param hmin) hm.1 (fun _ => by rw [hsig1.elements]; simpa using h4)
  obtain ⟨q', gq', eq', cq', sq', vq'⟩ := truncnorm_slot b (xx := apos mass) (mu := akw mpp2) (sigma := akw sigpp2)
    (high := akw gmax) (low := akw mmin) (Slot.of_data hm) (Slot.of_param hmpp2) (Slot.of_param hsig2)
    (Slot.of_param hg) (Slot.of_param hmin) hm.1 (fun _ => by rw [hsig2.elements]; simpa using h5)
  obtain ⟨l1, el1, cl1, -⟩ := (Slot.pyInt (T := T) 1).op2 b promote (· - ·) (Slot.of_param hlam)
  obtain ⟨t1, et1, ct1, st1, -⟩ := cl1.op2 b promote (· * ·) cp
  obtain ⟨l2, el2, cl2, -⟩ := (Slot.of_param (T := T) hlam).op2 b promote (· * ·) (Slot.of_param hlam1)
  obtain ⟨t2, et2, ct2, -⟩ := cl2.op2 b promote (· * ·) cq
  obtain ⟨l3, el3, cl3, -⟩ := (Slot.pyInt (T := T) 1).op2 b promote (· - ·) (Slot.of_param hlam1)
  obtain ⟨l4, el4, cl4, -⟩ := (Slot.of_param (T := T) hlam).op2 b promote (· * ·) cl3
  obtain ⟨t3, et3, ct3, -⟩ := cl4.op2 b promote (· * ·) cq'
  obtain ⟨u, eu, cu, su, -⟩ := ct1.op2 b promote (· + ·) ct2
  obtain ⟨r, er, cr, sr, -⟩ := cu.op2 b promote (· + ·) ct3
  refine cr.elementWise (sr (Or.inl (su (Or.inl (st1 (Or.inr sp)))))) ?_ fun idx hi => ?_
  · simp only [threeComponentSingleA, NArr.sub, NArr.mul, NArr.add, ep, eq, eq', el1, et1, el2, et2, el3, el4, et3,
      eu, er, ok_bind]
  · have e1 := vp idx hi
    have e2 := vq idx hi
    have e3 := vq' idx hi
    simp only [threeComponentSingle, powerlaw_py b py (high := kw vmax) (low := kw vmin) (not_eqf_zero h3)
      (not_eqf_zero h2)]
    change (do
      let pPow ← powerlaw b false ⟨mass.elem idx, false⟩ ⟨-va, true⟩ ⟨vmax, true⟩ ⟨vmin, true⟩
      let pNorm1 ← truncnorm b ⟨mass.elem idx, false⟩ ⟨vmpp1, true⟩ ⟨vsig1, true⟩ ⟨vg, true⟩ ⟨vmin, true⟩
      let pNorm2 ← truncnorm b ⟨mass.elem idx, false⟩ ⟨vmpp2, true⟩ ⟨vsig2, true⟩ ⟨vg, true⟩ ⟨vmin, true⟩
      pure ((1 - vlam) * pPow + vlam * vlam1 * pNorm1 + vlam * (1 - vlam1) * pNorm2)) = _
    rw [e1, ok_bind, e2, ok_bind, e3, ok_bind, pure_eq_ok, fin_int_one]

theorem primarySecondary_slot (b : Backend) {T : List ℕ} {m1 m2 p1 p2 : NArr} {g1 g2 : List ℕ → Fl}
    (hm1 : Data T m1) (hm2 : Data T m2) (c1 : Slot T p1 g1) (c2 : Slot T p2 g2) (s1 : p1.shape = T) :
    ∃ r, primarySecondaryGeneralA b m1 m2 p1 p2 = .ok r ∧ r.shape = T ∧
      Slot T r fun i => primarySecondaryGeneral (m1.elem i) (m2.elem i) (g1 i) (g2 i) := by
  obtain ⟨t, et, ct, st, -⟩ := c1.op2 b promote (· * ·) c2
  obtain ⟨o, eo, co, -⟩ := (Slot.of_data hm2).op2 b (fun _ _ => .bool) (fun a c => ind (a ≤ c)) (Slot.of_data hm1)
  obtain ⟨u, eu, cu, su, -⟩ := ct.op2 b promote (· * ·) co
  obtain ⟨r, er, cr, sr, -⟩ := cu.op2 b promote (· * ·) (Slot.pyInt 2)
  refine ⟨r, ?_, sr (Or.inl (su (Or.inl (st (Or.inl s1))))), ?_⟩
  · simp only [primarySecondaryGeneralA, NArr.mul, NArr.le, et, eo, eu, er, ok_bind]
  · refine ⟨cr.shape, fun idx hi => ?_⟩
    rw [cr.entry idx hi]
    simp [primarySecondaryGeneral]

/-- **C97**, `power_law_primary_secondary_independent` (and `identical`, with `beta = alpha`). -/
theorem C97_powerLawPrimarySecondary_partial (b : Backend) (py : Bool) {T : List ℕ}
    {m1 m2 alpha beta mmin mmax : NArr} {va vb vmin vmax : Fl}
    (hm1 : Data T m1) (hm2 : Data T m2) (ha : FloatParam alpha va) (hb : FloatParam beta vb) (hmin : Param mmin vmin)
    (hmax : Param mmax vmax) (h2 : 0 < vmin) (h3 : 0 < vmax) :
    ElementWise (powerLawPrimarySecondaryIndependentA b m1 m2 alpha beta mmin mmax) T fun i =>
      powerLawPrimarySecondaryIndependent b py (m1.elem i) (m2.elem i) va vb vmin vmax := by
  obtain ⟨p, gp, ep, cp, sp, -, vp⟩ := powerlaw_slot b (xx := apos m1) (alpha := apos (neg b alpha))
    (high := apos mmax) (low := apos mmin) (Slot.of_data hm1) ((Slot.of_param ha.1).neg b) (Slot.of_param hmax)
    (Slot.of_param hmin) hm1.1 ha.2 (hmax.notPyZero h3) (hmin.notPyZero h2) (by simp) (by simp)
  obtain ⟨q, gq, eq, cq, sq, -, vq⟩ := powerlaw_slot b (xx := apos m2) (alpha := apos (neg b beta))
    (high := apos mmax) (low := apos mmin) (Slot.of_data hm2) ((Slot.of_param hb.1).neg b) (Slot.of_param hmax)
    (Slot.of_param hmin) hm2.1 hb.2 (hmax.notPyZero h3) (hmin.notPyZero h2) (by simp) (by simp)
  obtain ⟨r, er, sr, cr⟩ := primarySecondary_slot b hm1 hm2 cp cq sp
  refine cr.elementWise sr ?_ fun idx hi => ?_
  · simp only [powerLawPrimarySecondaryIndependentA, ep, eq, er, ok_bind]
  · have e1 := vp idx hi
    have e2 := vq idx hi
    simp only [powerLawPrimarySecondaryIndependent, powerlaw_py b py (high := pos vmax) (low := pos vmin)
      (not_eqf_zero h3) (not_eqf_zero h2)]
    change (do
      let a ← powerlaw b false ⟨m1.elem idx, false⟩ ⟨-va, false⟩ ⟨vmax, false⟩ ⟨vmin, false⟩
      let c ← powerlaw b false ⟨m2.elem idx, false⟩ ⟨-vb, false⟩ ⟨vmax, false⟩ ⟨vmin, false⟩
      pure (primarySecondaryGeneral (m1.elem idx) (m2.elem idx) a c)) = _
    rw [e1, ok_bind, e2, ok_bind, pure_eq_ok]

/-- **C97**, `two_component_primary_secondary_independent` (and `identical`, with `beta = alpha`). -/
theorem C97_twoComponentPrimarySecondary_partial (b : Backend) (py : Bool) {T : List ℕ}
    {m1 m2 alpha beta mmin mmax lam mpp sigpp gmax : NArr} {va vb vmin vmax vlam vmpp vsig vg : Fl}
    (hm1 : Data T m1) (hm2 : Data T m2) (ha : FloatParam alpha va) (hb : FloatParam beta vb) (hmin : Param mmin vmin)
    (hmax : Param mmax vmax) (hlam : Param lam vlam) (hmpp : Param mpp vmpp) (hsig : Param sigpp vsig)
    (hg : Param gmax vg) (h0 : ¬ eqf (-va) 1) (h1 : ¬ eqf (-vb) 1) (h2 : 0 < vmin) (h3 : 0 < vmax) (h4 : 0 < vsig) :
    ElementWise (twoComponentPrimarySecondaryIndependentA b m1 m2 alpha beta mmin mmax lam mpp sigpp gmax) T fun i =>
      twoComponentPrimarySecondaryIndependent b py (m1.elem i) (m2.elem i) va vb vmin vmax vlam vmpp vsig vg := by
  obtain ⟨p, gp, ep, cp, sp, vp⟩ := twoComponentSingle_slot b py hm1 ha hmin hmax hlam hmpp hsig hg h0 h2 h3 h4
  obtain ⟨q, gq, eq, cq, sq, vq⟩ := twoComponentSingle_slot b py hm2 hb hmin hmax hlam hmpp hsig hg h1 h2 h3 h4
  obtain ⟨r, er, sr, cr⟩ := primarySecondary_slot b hm1 hm2 cp cq sp
  refine cr.elementWise sr ?_ fun idx hi => ?_
  · simp only [twoComponentPrimarySecondaryIndependentA, ep, eq, er, ok_bind]
  · simp only [twoComponentPrimarySecondaryIndependent, vp idx hi, vq idx hi, ok_bind, pure_eq_ok]

theorem doublePowerLaw_slot (b : Backend) (py : Bool) {T : List ℕ}
    {mass alpha1 alpha2 mmin mmax bf : NArr} {va1 va2 vmin vmax vbf : Fl}
    (hm : Data T mass) (ha1 : FloatParam alpha1 va1) (ha2 : FloatParam alpha2 va2) (hmin : Param mmin vmin)
    (hmax : Param mmax vmax) (hbf : Param bf vbf) (h0 : ¬ eqf (-va1) 1) (h1 : ¬ eqf (-va2) 1)
    (h2 : 0 < vmin) (h3 : 0 < vmax) (h4 : 0 < vmin + vbf * (vmax - vmin)) :
    ∃ (r : NArr) (g : List ℕ → Fl), doublePowerLawPrimaryMassA b mass alpha1 alpha2 mmin mmax bf = .ok r ∧
      Slot T r g ∧ r.shape = T ∧ ∀ idx, InShape T idx →
        doublePowerLawPrimaryMass b py (mass.elem idx) va1 va2 vmin vmax vbf = .ok (g idx) := by
  obtain ⟨w, ew, cw, sw, -⟩ := (Slot.of_param (T := []) hmax).op2 b promote (· - ·) (Slot.of_param hmin)
  obtain ⟨x, ex, cx, sx, -⟩ := (Slot.of_param (T := []) hbf).op2 b promote (· * ·) cw
  obtain ⟨mb, emb, cmb, smb, -⟩ := (Slot.of_param (T := []) hmin).op2 b promote (· + ·) cx
  have hmb : Param mb (vmin + vbf * (vmax - vmin)) := by
    have hs := smb (Or.inl hmin.1)
    refine ⟨hs, ?_⟩
    have := cmb.entry [] (by exact .nil)
    unfold Spec.entry at this
    rw [hs] at this
    exact this
  obtain ⟨vb, hvb⟩ : ∃ vb, vb = vmin + vbf * (vmax - vmin) := ⟨_, rfl⟩
  rw [← hvb] at hmb h4
  have hn1 : ∀ a ∈ (neg b alpha1).elements, ¬ eqf a 1 := by
    have : Param (neg b alpha1) (-va1) := ⟨ha1.1.1, by rw [← ha1.1.2]; rfl⟩
    rw [this.elements]; simpa using h0
  have hn2 : ∀ a ∈ (neg b alpha2).elements, ¬ eqf a 1 := by
    have : Param (neg b alpha2) (-va2) := ⟨ha2.1.1, by rw [← ha2.1.2]; rfl⟩
    rw [this.elements]; simpa using h1
  have hlb : ∀ l ∈ mb.elements, 0 ≤ l := by rw [hmb.elements]; simpa using le_of_pos h4
  have hlm : ∀ l ∈ mmin.elements, 0 ≤ l := by rw [hmin.elements]; simpa using le_of_pos h2
  obtain ⟨c2, g2, e2, cc2, s2, k2, v2⟩ := powerlaw_slot b (T := []) (xx := apos mb) (alpha := akw (neg b alpha2))
    (high := akw mmax) (low := akw mb) (Slot.of_param hmb) ((Slot.of_param ha2.1).neg b) (Slot.of_param hmax)
    (Slot.of_param hmb) hmb.1 ha2.2 (hmax.notPyZero h3) (hmb.notPyZero h4) (fun _ => hn2) (fun _ => hlb)
  obtain ⟨c1, g1, e1, cc1, s1, k1, v1⟩ := powerlaw_slot b (T := []) (xx := apos mb) (alpha := akw (neg b alpha1))
    (high := akw mb) (low := akw mmin) (Slot.of_param hmb) ((Slot.of_param ha1.1).neg b) (Slot.of_param hmb)
    (Slot.of_param hmin) hmb.1 ha1.2 (hmb.notPyZero h4) (hmin.notPyZero h2) (fun _ => hn1) (fun _ => hlm)
  obtain ⟨k, ek, ck, sk, kk⟩ := cc2.div b cc1 (fun h => k2 h.1)
  have hk : Param k (g2 [] / g1 []) := by
    have hs := sk (Or.inl s2)
    refine ⟨hs, ?_⟩
    have := ck.entry [] (by exact .nil)
    unfold Spec.entry at this
    rw [hs] at this
    exact this
  obtain ⟨lp, gl, el, cl, sl, kl, vl⟩ := powerlaw_slot b (T := T) (xx := apos mass) (alpha := akw (neg b alpha1))
    (high := akw mb) (low := akw mmin) (Slot.of_data hm) ((Slot.of_param ha1.1).neg b) (Slot.of_param hmb)
    (Slot.of_param hmin) hm.1 ha1.2 (hmb.notPyZero h4) (hmin.notPyZero h2) (fun _ => hn1) (fun _ => hlm)
  obtain ⟨hp, gh, eh, ch, sh, kh, vh⟩ := powerlaw_slot b (T := T) (xx := apos mass) (alpha := akw (neg b alpha2))
    (high := akw mmax) (low := akw mb) (Slot.of_data hm) ((Slot.of_param ha2.1).neg b) (Slot.of_param hmax)
    (Slot.of_param hmb) hm.1 ha2.2 (hmax.notPyZero h3) (hmb.notPyZero h4) (fun _ => hn2) (fun _ => hlb)
  obtain ⟨o1, eo1, co1, -⟩ := (Slot.of_data hm).op2 b (fun _ _ => .bool) (fun a c => ind (a < c)) (Slot.of_param hmb)
  obtain ⟨o2, eo2, co2, -⟩ := (Slot.of_param hmb).op2 b (fun _ _ => .bool) (fun a c => ind (a ≤ c)) (Slot.of_data hm)
  obtain ⟨t1, et1, ct1, st1, kt1, -⟩ := cl.op2 b promote (· * ·) co1
  obtain ⟨t2, et2, ct2, st2, kt2, -⟩ := ct1.op2 b promote (· * ·) (Slot.of_param hk)
  obtain ⟨t3, et3, ct3, -⟩ := ch.op2 b promote (· * ·) co2
  obtain ⟨t4, et4, ct4, st4, kt4, -⟩ := ct2.op2 b promote (· + ·) ct3
  obtain ⟨t5, et5, ct5, -⟩ := (Slot.pyInt (T := T) 1).op2 b promote (· + ·) (Slot.of_param hk)
  obtain ⟨r, er, cr, sr, -⟩ := ct4.div b ct5 (fun h => kt4 (Or.inl (kt2 (Or.inl (kt1 (Or.inl kl))))) h.1)
  refine ⟨r, _, ?_, cr, sr (Or.inl (st4 (Or.inl (st2 (Or.inl (st1 (Or.inl sl))))))), fun idx hi => ?_⟩
  · simp only [doublePowerLawPrimaryMassA, NArr.sub, NArr.mul, NArr.add, NArr.lt, NArr.le, ew, ex, emb, e2, e1, ek,
      el, eh, eo1, eo2, et1, et2, et3, et4, et5, er, ok_bind]
  · have f2 := v2 [] (by exact .nil)
    have f1 := v1 [] (by exact .nil)
    have fl := vl idx hi
    have fh := vh idx hi
    simp only [doublePowerLawPrimaryMass, ← hvb,
      powerlaw_py b py (high := kw vmax) (low := kw vb) (not_eqf_zero h3) (not_eqf_zero h4),
      powerlaw_py b py (high := kw vb) (low := kw vmin) (not_eqf_zero h4) (not_eqf_zero h2)]
    change (do
      let c2 ← powerlaw b false ⟨vb, false⟩ ⟨-va2, true⟩ ⟨vmax, true⟩ ⟨vb, true⟩
      let c1 ← powerlaw b false ⟨vb, false⟩ ⟨-va1, true⟩ ⟨vb, true⟩ ⟨vmin, true⟩
      let lowPart ← powerlaw b false ⟨mass.elem idx, false⟩ ⟨-va1, true⟩ ⟨vb, true⟩ ⟨vmin, true⟩
      let highPart ← powerlaw b false ⟨mass.elem idx, false⟩ ⟨-va2, true⟩ ⟨vmax, true⟩ ⟨vb, true⟩
      pure ((lowPart * ind (mass.elem idx < vb) * (c2 / c1) + highPart * ind (vb ≤ mass.elem idx)) /
        (1 + c2 / c1))) = _
    rw [f2, ok_bind, f1, ok_bind, fl, ok_bind, fh, ok_bind, pure_eq_ok, fin_int_one]

/-- **C97**, `double_power_law_primary_mass`. -/
theorem C97_doublePowerLaw_partial (b : Backend) (py : Bool) {T : List ℕ}
    {mass alpha1 alpha2 mmin mmax bf : NArr} {va1 va2 vmin vmax vbf : Fl}
    (hm : Data T mass) (ha1 : FloatParam alpha1 va1) (ha2 : FloatParam alpha2 va2) (hmin : Param mmin vmin)
    (hmax : Param mmax vmax) (hbf : Param bf vbf) (h0 : ¬ eqf (-va1) 1) (h1 : ¬ eqf (-va2) 1)
    (h2 : 0 < vmin) (h3 : 0 < vmax) (h4 : 0 < vmin + vbf * (vmax - vmin)) :
    ElementWise (doublePowerLawPrimaryMassA b mass alpha1 alpha2 mmin mmax bf) T fun i =>
      doublePowerLawPrimaryMass b py (mass.elem i) va1 va2 vmin vmax vbf := by
  obtain ⟨r, g, er, cr, sr, vr⟩ := doublePowerLaw_slot b py hm ha1 ha2 hmin hmax hbf h0 h1 h2 h3 h4
  exact cr.elementWise sr er vr

/-- **C97**, `double_power_law_peak_primary_mass`. -/
theorem C97_doublePowerLawPeak_partial (b : Backend) (py : Bool) {T : List ℕ}
    {mass alpha1 alpha2 mmin mmax bf lam mpp sigpp gmax : NArr} {va1 va2 vmin vmax vbf vlam vmpp vsig vg : Fl}
    (hm : Data T mass) (ha1 : FloatParam alpha1 va1) (ha2 : FloatParam alpha2 va2) (hmin : Param mmin vmin)
    (hmax : Param mmax vmax) (hbf : Param bf vbf) (hlam : Param lam vlam) (hmpp : Param mpp vmpp)
    (hsig : Param sigpp vsig) (hg : Param gmax vg) (h0 : ¬ eqf (-va1) 1) (h1 : ¬ eqf (-va2) 1)
    (h2 : 0 < vmin) (h3 : 0 < vmax) (h4 : 0 < vmin + vbf * (vmax - vmin)) (h5 : 0 < vsig) :
    ElementWise (doublePowerLawPeakPrimaryMassA b mass alpha1 alpha2 mmin mmax bf lam mpp sigpp gmax) T fun i =>
      doublePowerLawPeakPrimaryMass b py (mass.elem i) va1 va2 vmin vmax vbf vlam vmpp vsig vg := by
  obtain ⟨p, gp, ep, cp, sp, vp⟩ := doublePowerLaw_slot b py hm ha1 ha2 hmin hmax hbf h0 h1 h2 h3 h4
  obtain ⟨q, gq, eq, cq, sq, vq⟩ := truncnorm_slot b (xx := apos mass) (mu := akw mpp) (sigma := akw sigpp)
    (high := akw gmax) (low := akw mmin) (Slot.of_data hm) (Slot.of_param hmpp) (Slot.of_param hsig)
    (Slot.of_param hg) (Slot.of_param hmin) hm.1 (fun _ => by rw [hsig.elements]; simpa using h5)
  obtain ⟨l1, el1, cl1, -⟩ := (Slot.pyInt (T := T) 1).op2 b promote (· - ·) (Slot.of_param hlam)
  obtain ⟨t1, et1, ct1, st1, -⟩ := cl1.op2 b promote (· * ·) cp
  obtain ⟨t2, et2, ct2, -⟩ := (Slot.of_param (T := T) hlam).op2 b promote (· * ·) cq
  obtain ⟨r, er, cr, sr, -⟩ := ct1.op2 b promote (· + ·) ct2
  refine cr.elementWise (sr (Or.inl (st1 (Or.inr sp)))) ?_ fun idx hi => ?_
  · simp only [doublePowerLawPeakPrimaryMassA, NArr.sub, NArr.mul, NArr.add, ep, eq, el1, et1, et2, er, ok_bind]
  · have e2 := vq idx hi
    simp only [doublePowerLawPeakPrimaryMass, vp idx hi, ok_bind]
    change (do
      let pNorm ← truncnorm b ⟨mass.elem idx, false⟩ ⟨vmpp, true⟩ ⟨vsig, true⟩ ⟨vg, true⟩ ⟨vmin, true⟩
      pure ((1 - vlam) * gp idx + vlam * pNorm)) = _
    rw [e2, ok_bind, pure_eq_ok, fin_int_one]

/-- **C97**, `double_power_law_primary_power_law_mass_ratio`. -/
theorem C97_doublePowerLawMassRatio_partial (b : Backend) (py : Bool) {T : List ℕ}
    {m1 q alpha1 alpha2 beta mmin mmax bf : NArr} {va1 va2 vb vmin vmax vbf : Fl}
    (hm : Data T m1) (hq : Data T q) (ha1 : FloatParam alpha1 va1) (ha2 : FloatParam alpha2 va2)
    (hb : FloatParam beta vb) (hmin : Param mmin vmin)
    (hmax : Param mmax vmax) (hbf : Param bf vbf) (h0 : ¬ eqf (-va1) 1) (h1 : ¬ eqf (-va2) 1)
    (h2 : 0 < vmin) (h3 : 0 < vmax) (h4 : 0 < vmin + vbf * (vmax - vmin)) :
    ElementWise (doublePowerLawPrimaryPowerLawMassRatioA b m1 q alpha1 alpha2 beta mmin mmax bf) T fun i =>
      doublePowerLawPrimaryPowerLawMassRatio b py (m1.elem i) (q.elem i) va1 va2 vb vmin vmax vbf := by
  obtain ⟨p, gp, ep, cp, sp, vp⟩ := doublePowerLaw_slot b py hm ha1 ha2 hmin hmax hbf h0 h1 h2 h3 h4
  obtain ⟨f, gf, ef, cf, sf, vf⟩ := massRatioFactor_slot b hm hq hb hmin
  obtain ⟨r, er, cr, sr, -⟩ := cp.op2 b promote (· * ·) cf
  refine cr.elementWise (sr (Or.inl sp)) ?_ fun idx hi => ?_
  · simp only [doublePowerLawPrimaryPowerLawMassRatioA, NArr.mul, ep, ef, er, ok_bind]
  · simp only [doublePowerLawPrimaryPowerLawMassRatio, vp idx hi, vf idx hi, ok_bind, pure_eq_ok]

/-! ### Spins -/

theorem sample_get {dataset : Dict NArr} {k : String} {x : NArr} (h : Dict.get? dataset k = some x)
    (idx : List ℕ) : (sample dataset idx).get k = .ok (x.elem idx) := by
  have : Dict.get? (sample dataset idx) k = some (x.elem idx) := by
    induction dataset with
    | nil => simp at h
    | cons p d ih =>
      obtain ⟨k', v'⟩ := p
      rw [Dict.get?_cons] at h
      simp only [sample, List.map_cons]
      rw [Dict.get?_cons]
      split_ifs at h ⊢ with hk
      · cases h; rfl
      · exact ih h
  simp [Dict.get, this]

theorem dataset_get {dataset : Dict NArr} {k : String} {x : NArr} (h : Dict.get? dataset k = some x) :
    dataset.get k = .ok x := by
  simp [Dict.get, h]

theorem spinOrientation_slot (b : Backend) {T : List ℕ} {dataset : Dict NArr} {z1 z2 xi sigma1 sigma2 mu1 mu2 : NArr}
    {vxi vs1 vs2 vm1 vm2 : Fl} (g1 : Dict.get? dataset "cos_tilt_1" = some z1)
    (g2 : Dict.get? dataset "cos_tilt_2" = some z2) (hz1 : Data T z1) (hz2 : Data T z2) (hxi : Param xi vxi)
    (hs1 : Param sigma1 vs1) (hs2 : Param sigma2 vs2) (hm1 : Param mu1 vm1) (hm2 : Param mu2 vm2) :
    ∃ (r : NArr) (g : List ℕ → Fl), independentSpinOrientationA b dataset xi sigma1 sigma2 mu1 mu2 = .ok r ∧
      Slot T r g ∧ r.shape = T ∧ ∀ idx, InShape T idx →
        independentSpinOrientation b (sample dataset idx) vxi vs1 vs2 vm1 vm2 = .ok (g idx) := by
  obtain ⟨l1, el1, cl1, -⟩ := (Slot.pyInt (T := T) 1).op2 b promote (· - ·) (Slot.of_param hxi)
  obtain ⟨l2, el2, cl2, -⟩ := cl1.div b (Slot.pyInt 4) (by rintro ⟨-, -, h⟩; norm_num [NArr.pyInt, eqf] at h)
  obtain ⟨p, gp, ep, cp, sp, vp⟩ := truncnorm_slot b (xx := apos z1) (mu := apos mu1) (sigma := apos sigma1)
    (high := apos (NArr.pyInt 1)) (low := apos (NArr.pyInt (-1))) (Slot.of_data hz1) (Slot.of_param hm1)
    (Slot.of_param hs1) (Slot.pyInt 1) (Slot.pyInt (-1)) hz1.1 (by simp)
  obtain ⟨q, gq, eq, cq, sq, vq⟩ := truncnorm_slot b (xx := apos z2) (mu := apos mu2) (sigma := apos sigma2)
    (high := apos (NArr.pyInt 1)) (low := apos (NArr.pyInt (-1))) (Slot.of_data hz2) (Slot.of_param hm2)
    (Slot.of_param hs2) (Slot.pyInt 1) (Slot.pyInt (-1)) hz2.1 (by simp)
  obtain ⟨t1, et1, ct1, st1, -⟩ := (Slot.of_param (T := T) hxi).op2 b promote (· * ·) cp
  obtain ⟨t2, et2, ct2, st2, -⟩ := ct1.op2 b promote (· * ·) cq
  obtain ⟨r, er, cr, sr, -⟩ := cl2.op2 b promote (· + ·) ct2
  refine ⟨r, _, ?_, cr, sr (Or.inr (st2 (Or.inr sq))), fun idx hi => ?_⟩
  · simp only [independentSpinOrientationA, NArr.sub, NArr.mul, NArr.add, dataset_get g1, dataset_get g2, ep, eq,
      el1, el2, et1, et2, er, ok_bind]
  · have e1 := vp idx hi
    have e2 := vq idx hi
    simp only [independentSpinOrientation, sample_get g1, sample_get g2, ok_bind]
    simp only [fin_int_one, fin_int_neg_one] at e1 e2
    change (do
      let p1 ← truncnorm b ⟨z1.elem idx, false⟩ ⟨vm1, false⟩ ⟨vs1, false⟩ ⟨1, false⟩ ⟨-1, false⟩
      let p2 ← truncnorm b ⟨z2.elem idx, false⟩ ⟨vm2, false⟩ ⟨vs2, false⟩ ⟨1, false⟩ ⟨-1, false⟩
      pure ((1 - vxi) / 4 + vxi * p1 * p2)) = _
    rw [e1, ok_bind, e2, ok_bind, pure_eq_ok]
    simp

/-- **C97**, `independent_spin_orientation_gaussian_isotropic`. -/
theorem C97_spinOrientation_partial (b : Backend) {T : List ℕ} {dataset : Dict NArr}
    {z1 z2 xi sigma1 sigma2 mu1 mu2 : NArr}
    {vxi vs1 vs2 vm1 vm2 : Fl} (g1 : Dict.get? dataset "cos_tilt_1" = some z1)
    (g2 : Dict.get? dataset "cos_tilt_2" = some z2) (hz1 : Data T z1) (hz2 : Data T z2) (hxi : Param xi vxi)
    (hs1 : Param sigma1 vs1) (hs2 : Param sigma2 vs2) (hm1 : Param mu1 vm1) (hm2 : Param mu2 vm2) :
    ElementWise (independentSpinOrientationA b dataset xi sigma1 sigma2 mu1 mu2) T fun i =>
      independentSpinOrientation b (sample dataset i) vxi vs1 vs2 vm1 vm2 := by
  obtain ⟨r, g, er, cr, sr, vr⟩ := spinOrientation_slot b g1 g2 hz1 hz2 hxi hs1 hs2 hm1 hm2
  exact cr.elementWise sr er vr

theorem spinMagnitude_slot (junk : Fl → Fl → Fl) (b : Backend) {T : List ℕ} {dataset : Dict NArr}
    {x1 x2 alpha1 alpha2 beta1 beta2 amax1 amax2 : NArr}
    {va1 va2 vb1 vb2 vm1 vm2 : Fl} (g1 : Dict.get? dataset "a_1" = some x1)
    (g2 : Dict.get? dataset "a_2" = some x2) (hx1 : Data T x1) (hx2 : Data T x2) (ha1 : Param alpha1 va1)
    (ha2 : Param alpha2 va2) (hb1 : Param beta1 vb1) (hb2 : Param beta2 vb2) (hm1 : Param amax1 vm1)
    (hm2 : Param amax2 vm2) (pa1 : 0 < va1) (pa2 : 0 < va2) (pb1 : 0 < vb1) (pb2 : 0 < vb2) (pm1 : 0 < vm1)
    (pm2 : 0 < vm2) :
    ∃ (r : NArr) (g : List ℕ → Fl),
      independentSpinMagnitudeBetaA junk b dataset alpha1 alpha2 beta1 beta2 amax1 amax2 = .ok r ∧
      Slot T r g ∧ r.shape = T ∧ ∀ idx, InShape T idx →
        independentSpinMagnitudeBeta junk b (sample dataset idx) va1 va2 vb1 vb2 vm1 vm2 = .ok (g idx) := by
  have hpos : ∀ {x : NArr} {v : Fl}, Param x v → 0 < v → ∀ a ∈ x.elements, 0 < a := fun h hv => by
    rw [h.elements]; simpa using hv
  obtain ⟨p, gp, ep, cp, sp, vp⟩ := betaDist_slot junk b (xx := apos x1) (alpha := apos alpha1) (beta := apos beta1)
    (scale := akw amax1) (Slot.of_data hx1) (Slot.of_param ha1) (Slot.of_param hb1) (Slot.of_param hm1) hx1.1
    (hpos ha1 pa1) (hpos hb1 pb1) (hpos hm1 pm1)
  obtain ⟨q, gq, eq, cq, sq, vq⟩ := betaDist_slot junk b (xx := apos x2) (alpha := apos alpha2) (beta := apos beta2)
    (scale := akw amax2) (Slot.of_data hx2) (Slot.of_param ha2) (Slot.of_param hb2) (Slot.of_param hm2) hx2.1
    (hpos ha2 pa2) (hpos hb2 pb2) (hpos hm2 pm2)
  obtain ⟨r, er, cr, sr, -⟩ := cp.op2 b promote (· * ·) cq
  refine ⟨r, _, ?_, cr, sr (Or.inl sp), fun idx hi => ?_⟩
  · simp only [independentSpinMagnitudeBetaA, NArr.mul, dataset_get g1, dataset_get g2, ep, eq, er, ok_bind]
  · have e1 := vp idx hi
    have e2 := vq idx hi
    simp only [independentSpinMagnitudeBeta, sample_get g1, sample_get g2, ok_bind]
    change (do
      let p1 ← betaDist junk b ⟨x1.elem idx, false⟩ ⟨va1, false⟩ ⟨vb1, false⟩ ⟨vm1, true⟩
      let p2 ← betaDist junk b ⟨x2.elem idx, false⟩ ⟨va2, false⟩ ⟨vb2, false⟩ ⟨vm2, true⟩
      pure (p1 * p2)) = _
    rw [e1, ok_bind, e2, ok_bind, pure_eq_ok]

/-- **C97**, `independent_spin_magnitude_beta` and `iid_spin_magnitude_beta`. -/
theorem C97_spinMagnitude_partial (junk : Fl → Fl → Fl) (b : Backend) {T : List ℕ} {dataset : Dict NArr}
    {x1 x2 alpha1 alpha2 beta1 beta2 amax1 amax2 : NArr}
    {va1 va2 vb1 vb2 vm1 vm2 : Fl} (g1 : Dict.get? dataset "a_1" = some x1)
    (g2 : Dict.get? dataset "a_2" = some x2) (hx1 : Data T x1) (hx2 : Data T x2) (ha1 : Param alpha1 va1)
    (ha2 : Param alpha2 va2) (hb1 : Param beta1 vb1) (hb2 : Param beta2 vb2) (hm1 : Param amax1 vm1)
    (hm2 : Param amax2 vm2) (pa1 : 0 < va1) (pa2 : 0 < va2) (pb1 : 0 < vb1) (pb2 : 0 < vb2) (pm1 : 0 < vm1)
    (pm2 : 0 < vm2) :
    ElementWise (independentSpinMagnitudeBetaA junk b dataset alpha1 alpha2 beta1 beta2 amax1 amax2) T fun i =>
      independentSpinMagnitudeBeta junk b (sample dataset i) va1 va2 vb1 vb2 vm1 vm2 := by
  obtain ⟨r, g, er, cr, sr, vr⟩ :=
    spinMagnitude_slot junk b g1 g2 hx1 hx2 ha1 ha2 hb1 hb2 hm1 hm2 pa1 pa2 pb1 pb2 pm1 pm2
  exact cr.elementWise sr er vr

/-- **C97**, `iid_spin`. -/
theorem C97_iidSpin_partial (junk : Fl → Fl → Fl) (b : Backend) {T : List ℕ} {dataset : Dict NArr}
    {z1 z2 x1 x2 xi sigma amax alpha beta : NArr} {vxi vs vm va vb : Fl}
    (g1 : Dict.get? dataset "cos_tilt_1" = some z1) (g2 : Dict.get? dataset "cos_tilt_2" = some z2)
    (g3 : Dict.get? dataset "a_1" = some x1) (g4 : Dict.get? dataset "a_2" = some x2)
    (hz1 : Data T z1) (hz2 : Data T z2) (hx1 : Data T x1) (hx2 : Data T x2)
    (hxi : Param xi vxi) (hs : Param sigma vs) (hm : Param amax vm) (ha : Param alpha va) (hb : Param beta vb)
    (pa : 0 < va) (pb : 0 < vb) (pm : 0 < vm) :
    ElementWise (iidSpinA junk b dataset xi sigma amax alpha beta) T fun i =>
      iidSpin junk b (sample dataset i) vxi vs vm va vb := by
  have h1 : Param (NArr.pyInt 1) 1 := ⟨rfl, fin_int_one⟩
  obtain ⟨p, gp, ep, cp, sp, vp⟩ := spinOrientation_slot b g1 g2 hz1 hz2 hxi hs hs h1 h1
  obtain ⟨q, gq, eq, cq, sq, vq⟩ := spinMagnitude_slot junk b g3 g4 hx1 hx2 ha ha hb hb hm hm pa pa pb pb pm pm
  obtain ⟨r, er, cr, sr, -⟩ := cp.op2 b promote (· * ·) cq
  refine cr.elementWise (sr (Or.inl sp)) ?_ fun idx hi => ?_
  · simp only [iidSpinA, NArr.mul, ep, eq, er, ok_bind]
  · simp only [iidSpin, iidSpinOrientation, iidSpinMagnitudeBeta, vp idx hi, vq idx hi, ok_bind, pure_eq_ok]

/-- **C97**, `gaussian_chi_eff`. -/
theorem C97_gaussianChiEff_partial (b : Backend) {T : List ℕ} {dataset : Dict NArr} {x mu sigma : NArr} {vm vs : Fl}
    (g1 : Dict.get? dataset "chi_eff" = some x) (hx : Data T x) (hm : Param mu vm) (hs : Param sigma vs)
    (ps : 0 < vs) :
    ElementWise (gaussianChiEffA b dataset mu sigma) T fun i => gaussianChiEff b (sample dataset i) vm vs := by
  obtain ⟨p, gp, ep, cp, sp, vp⟩ := truncnorm_slot b (xx := apos x) (mu := akw mu) (sigma := akw sigma)
    (high := akw (NArr.pyInt 1)) (low := akw (NArr.pyInt (-1))) (Slot.of_data hx) (Slot.of_param hm)
    (Slot.of_param hs) (Slot.pyInt 1) (Slot.pyInt (-1)) hx.1 (fun _ => by rw [hs.elements]; simpa using ps)
  refine cp.elementWise sp ?_ fun idx hi => ?_
  · rw [gaussianChiEffA, dataset_get g1, ok_bind, ep]
  · have := vp idx hi
    rw [gaussianChiEff, sample_get g1, ok_bind]
    simpa [fin_int_one, fin_int_neg_one, pos, kw] using this

/-- **C97**, `gaussian_chi_p`. -/
theorem C97_gaussianChiP_partial (b : Backend) {T : List ℕ} {dataset : Dict NArr} {x mu sigma : NArr} {vm vs : Fl}
    (g1 : Dict.get? dataset "chi_p" = some x) (hx : Data T x) (hm : Param mu vm) (hs : Param sigma vs)
    (ps : 0 < vs) :
    ElementWise (gaussianChiPA b dataset mu sigma) T fun i => gaussianChiP b (sample dataset i) vm vs := by
  obtain ⟨p, gp, ep, cp, sp, vp⟩ := truncnorm_slot b (xx := apos x) (mu := akw mu) (sigma := akw sigma)
    (high := akw (NArr.pyInt 1)) (low := akw (NArr.pyInt 0)) (Slot.of_data hx) (Slot.of_param hm)
    (Slot.of_param hs) (Slot.pyInt 1) (Slot.pyInt 0) hx.1 (fun _ => by rw [hs.elements]; simpa using ps)
  refine cp.elementWise sp ?_ fun idx hi => ?_
  · rw [gaussianChiPA, dataset_get g1, ok_bind, ep]
  · have := vp idx hi
    rw [gaussianChiP, sample_get g1, ok_bind]
    simpa [fin_int_one, pos, kw] using this

/-! ### Data of different shapes -/

/-- The property: the models evaluate every combination of data that can be broadcast together, for instance a row of
masses and a column of mass ratios, and give one number per combination. -/
def C97_statement : Prop :=
  ∀ (b : Backend) (junk : Fl → Fl → Fl), b ≠ .cupy →
    (∀ (m1 q alpha beta mmin mmax : NArr) (va vb vmin vmax : Fl) (S : List ℕ), Valid m1 → Valid q →
      m1.kind ≠ .py → q.kind ≠ .py → BroadcastOf [m1.shape, q.shape] S → FloatParam alpha va → FloatParam beta vb →
      Param mmin vmin → Param mmax vmax → ¬ eqf (-va) 1 → 0 < vmin → 0 < vmax →
      ElementWise (powerLawPrimaryMassRatioA b m1 q alpha beta mmin mmax) S fun i =>
        powerLawPrimaryMassRatio b false (entry m1 i) (entry q i) va vb vmin vmax) ∧
    (∀ (m1 m2 alpha beta mmin mmax : NArr) (va vb vmin vmax : Fl) (S : List ℕ), Valid m1 → Valid m2 →
      m1.kind ≠ .py → m2.kind ≠ .py → BroadcastOf [m1.shape, m2.shape] S → FloatParam alpha va → FloatParam beta vb →
      Param mmin vmin → Param mmax vmax → 0 < vmin → 0 < vmax →
      ElementWise (powerLawPrimarySecondaryIndependentA b m1 m2 alpha beta mmin mmax) S fun i =>
        powerLawPrimarySecondaryIndependent b false (entry m1 i) (entry m2 i) va vb vmin vmax) ∧
    (∀ (dataset : Dict NArr) (x1 x2 alpha beta amax : NArr) (va vb vm : Fl) (S : List ℕ), Valid x1 → Valid x2 →
      x1.kind ≠ .py → x2.kind ≠ .py → BroadcastOf [x1.shape, x2.shape] S →
      Dict.get? dataset "a_1" = some x1 → Dict.get? dataset "a_2" = some x2 →
      Param alpha va → Param beta vb → Param amax vm → 0 < va → 0 < vb → 0 < vm →
      ElementWise (independentSpinMagnitudeBetaA junk b dataset alpha alpha beta beta amax amax) S fun i =>
        iidSpinMagnitudeBeta junk b [("a_1", entry x1 i), ("a_2", entry x2 i)] vm va vb)

/-- The conditions on keyword arguments do not concern a factor whose arguments are positional. -/
theorem powerlawA_pos (b : Backend) (x a h l : NArr) :
    powerlawA b (apos x) (apos a) (apos h) (apos l) = powerlawArr b x a h l := by
  rw [powerlawA, C02_applyConditions_spec, if_neg]
  rintro ⟨-, kc, hkc, v, hg, hn⟩
  simp [akwargs, apos] at hg

theorem broadcast_param {s t S : List ℕ} (h : BroadcastOf [s, t] S) : BroadcastOf [t, [], [], s] S :=
  ⟨fun u hu => by
    simp only [List.mem_cons, List.not_mem_nil, or_false] at hu
    rcases hu with rfl | rfl | rfl | rfl
    · exact h.fits _ (by simp)
    · simp
    · simp
    · exact h.fits _ (by simp), fun k n hk => by
    obtain ⟨u, hu, hk⟩ := h.tight k n hk
    exact ⟨u, by simp at hu ⊢; tauto, hk⟩⟩

theorem broadcast_self_param (t : List ℕ) : BroadcastOf [t, []] t :=
  Slot.broadcast (by simp) (by simp)

theorem broadcast_self (t : List ℕ) : BroadcastOf [t, t] t := Slot.broadcast (by simp) (by simp)

theorem inside_pick {s S idx : List ℕ} (h : Into s S) (hi : InShape S idx) : InShape s (pick s idx) := by
  induction h generalizing idx with
  | nil => simp [pick, InShape]
  | one _ ih => cases hi with
    | cons _ hi =>
      have := ih hi
      exact .cons (by simp) this
  | @same s S n _ ih => cases hi with
    | @cons i _ _ _ hlt hi =>
      have := ih hi
      exact .cons (by beta_reduce; split_ifs <;> omega) this

/-- The mass-ratio factor on data of different shapes. -/
theorem massRatioFactor_broadcast (b : Backend) {S : List ℕ} {m1 q beta mmin : NArr} {vb vmin : Fl}
    (hS : BroadcastOf [m1.shape, q.shape] S) (hm : m1.kind ≠ .py) (hb : FloatParam beta vb) (hmin : Param mmin vmin) :
    ((b = .jax ∨ q.shape = [] ∨ q.shape = S) →
      ∃ r, massRatioFactorA b q beta mmin m1 = .ok r ∧ r.shape = S ∧ r.kind ≠ .py ∧
        ∀ idx, InShape S idx → massRatioFactor b (entry q idx) vb vmin (entry m1 idx) = .ok (r.elem idx)) ∧
    (b ≠ .jax → q.shape ≠ [] → q.shape ≠ S → massRatioFactorA b q beta mmin m1 = .error .valueError) := by
  obtain ⟨l, el, cl, sl, kl⟩ := (Slot.of_param (T := m1.shape) hmin).div b (Slot.of_data ⟨rfl, hm⟩) (fun h => hm h.2.1)
  have sl := sl (Or.inr rfl)
  have hS' : BroadcastOf [q.shape, beta.shape, (NArr.pyInt 1).shape, l.shape] S := by
    rw [hb.1.1, sl]
    exact broadcast_param hS
  have hP : BroadcastOf [q.shape, beta.shape] q.shape := by rw [hb.1.1]; exact broadcast_self_param _
  have h1 : NotPyZero (NArr.pyInt 1) := by norm_num [NotPyZero, NArr.pyInt, eqf]
  have hl0 : NotPyZero l := fun h => kl (Or.inr hm) h.1
  refine ⟨fun hok => ?_, fun hj h0 hne => ?_⟩
  · obtain ⟨r, hr, hsh, hv, hk⟩ := powerlawArr_rep b hS' hP (Or.inl hb.2) h1 hl0 hok
    refine ⟨r, by rw [massRatioFactorA, el, ok_bind, powerlawA_pos, hr], hsh, hk, fun idx hi => ?_⟩
    have hl : entry l idx = vmin / entry m1 idx := by
      have hin : Into m1.shape S := hS.into _ (by simp)
      have hi1 : InShape m1.shape (proj m1.shape idx) := by
        rw [← pick_eq_proj hin hi]
        exact inside_pick hin hi
      have := cl.entry _ hi1
      rw [entry_eq (x := l) (by rw [sl]; exact .refl _) hi1, sl, proj_inside hi1] at this
      rw [entry_eq (x := l) (by rw [sl]; exact hin) hi, sl, this, entry_eq (x := m1) hin hi]
    have := hv idx hi
    rw [hl, entry_eq (x := beta) (by rw [hb.1.1]; exact .nil) hi, hb.1.1] at this
    simp only [proj, hb.1.2] at this
    unfold massRatioFactor powerlaw
    rw [C02_applyConditions_spec, if_neg]
    · have e1 : entry (NArr.pyInt 1) idx = 1 := by
        rw [← fin_int_one]; rfl
      rw [e1] at this
      exact this
    rintro ⟨-, kc, hkc, v, hg, hn⟩
    simp [kwargsOf, pos] at hg
  · rw [massRatioFactorA, el, ok_bind, powerlawA_pos,
      powerlawArr_fails b hS' hP (Or.inl hb.2) h1 hl0 hj h0 hne]

/-- A binary operation on arrays of different shapes. -/
theorem op2_broadcast (b : Backend) (dt : DType → DType → DType) (f : Fl → Fl → Fl) {x y : NArr} {S : List ℕ}
    (hS : BroadcastOf [x.shape, y.shape] S) :
    ∃ r, NArr.op2 b dt f x y = .ok r ∧ r.shape = S ∧
      ∀ idx, InShape S idx → r.elem idx = f (entry x idx) (entry y idx) := by
  have hx : Into x.shape S := hS.into _ (by simp)
  have hy : Into y.shape S := hS.into _ (by simp)
  obtain ⟨r, hr, hrep, -⟩ := (Rep.input x hx).op2 b dt f (Rep.input y hy)
  have hs : r.shape = S := hrep.lub.unique hS.lub
  refine ⟨r, hr, hs, fun idx hi => ?_⟩
  have := hrep.elem idx
  rw [hs, proj_inside hi] at this
  rw [this, entry_eq hx hi, entry_eq hy hi]

/-- The product of a primary-mass density and the mass-ratio factor on data of different shapes. -/
theorem massRatio_broadcast (b : Backend) {S : List ℕ} {m1 q beta mmin : NArr} {vb vmin : Fl}
    (hS : BroadcastOf [m1.shape, q.shape] S) (hm : m1.kind ≠ .py) (hb : FloatParam beta vb) (hmin : Param mmin vmin)
    {call : Except PyErr NArr} {f : List ℕ → Except PyErr Fl} (hp : ElementWise call m1.shape f) :
    ((b = .jax ∨ q.shape = [] ∨ q.shape = S) → ElementWise (do
        let p ← call
        let r ← massRatioFactorA b q beta mmin m1
        NArr.mul b p r) S fun i => do
      let p ← f (pick m1.shape i)
      let r ← massRatioFactor b (entry q i) vb vmin (entry m1 i)
      pure (p * r)) ∧
    (b ≠ .jax → q.shape ≠ [] → q.shape ≠ S → (do
        let p ← call
        let r ← massRatioFactorA b q beta mmin m1
        NArr.mul b p r) = .error .valueError) := by
  obtain ⟨p, ep, sp, vp⟩ := hp
  obtain ⟨h1, h2⟩ := massRatioFactor_broadcast b hS hm hb hmin
  refine ⟨fun hok => ?_, fun hj h0 hne => ?_⟩
  · obtain ⟨r, er, sr, -, vr⟩ := h1 hok
    have hin : Into m1.shape S := hS.into _ (by simp)
    have hB : BroadcastOf [p.shape, r.shape] S := by
      rw [sp, sr]
      refine ⟨fun u hu => ?_, fun k n hk => ⟨S, by simp, hk⟩⟩
      simp only [List.mem_cons, List.not_mem_nil, or_false] at hu
      rcases hu with rfl | rfl
      · exact hS.fits _ (by simp)
      · exact fun k n hk => ⟨(List.getElem?_eq_some_iff.1 hk).1, Or.inr hk⟩
    obtain ⟨t, et, st, vt⟩ := op2_broadcast b promote (· * ·) hB
    refine ⟨t, by rw [ep, ok_bind, er, ok_bind, NArr.mul, et], st, fun idx hi => ?_⟩
    beta_reduce
    rw [vp _ (inside_pick hin hi), ok_bind, vr idx hi, ok_bind, pure_eq_ok, vt idx hi]
    congr 2
    · rw [entry, sp]
    · rw [entry_eq (by rw [sr]; exact .refl _) hi, sr, proj_inside hi]
  · rw [ep, ok_bind, h2 hj h0 hne]
    rfl

/-- **C97**, `two_component_primary_mass_ratio` on data of different shapes: on jax always; on numpy if the mass ratios
have no axes or all axes of the result. -/
theorem C97_twoComponentPrimaryMassRatio_broadcast_partial (b : Backend) (py : Bool) {S : List ℕ}
    {m1 q alpha beta mmin mmax lam mpp sigpp gmax : NArr} {va vb vmin vmax vlam vmpp vsig vg : Fl}
    (hS : BroadcastOf [m1.shape, q.shape] S) (hok : b = .jax ∨ q.shape = [] ∨ q.shape = S)
    (hm : m1.kind ≠ .py) (ha : FloatParam alpha va) (hb : FloatParam beta vb) (hmin : Param mmin vmin)
    (hmax : Param mmax vmax) (hlam : Param lam vlam) (hmpp : Param mpp vmpp) (hsig : Param sigpp vsig)
    (hg : Param gmax vg) (h1 : ¬ eqf (-va) 1) (h2 : 0 < vmin) (h3 : 0 < vmax) (h4 : 0 < vsig) :
    ElementWise (twoComponentPrimaryMassRatioA b m1 q alpha beta mmin mmax lam mpp sigpp gmax) S fun i =>
      twoComponentPrimaryMassRatio b py (entry m1 i) (entry q i) va vb vmin vmax vlam vmpp vsig vg :=
  (massRatio_broadcast b hS hm hb hmin
    (C97_twoComponentSingle_partial b py ⟨rfl, hm⟩ ha hmin hmax hlam hmpp hsig hg h1 h2 h3 h4)).1 hok

/-- **C97**, `two_component_primary_mass_ratio` on numpy: `ValueError` for all other shapes. -/
theorem C97_twoComponentPrimaryMassRatio_raises_partial (b : Backend) (hj : b ≠ .jax) {S : List ℕ}
    {m1 q alpha beta mmin mmax lam mpp sigpp gmax : NArr} {va vb vmin vmax vlam vmpp vsig vg : Fl}
    (hS : BroadcastOf [m1.shape, q.shape] S) (h0 : q.shape ≠ []) (hne : q.shape ≠ S)
    (hm : m1.kind ≠ .py) (ha : FloatParam alpha va) (hb : FloatParam beta vb) (hmin : Param mmin vmin)
    (hmax : Param mmax vmax) (hlam : Param lam vlam) (hmpp : Param mpp vmpp) (hsig : Param sigpp vsig)
    (hg : Param gmax vg) (h1 : ¬ eqf (-va) 1) (h2 : 0 < vmin) (h3 : 0 < vmax) (h4 : 0 < vsig) :
    twoComponentPrimaryMassRatioA b m1 q alpha beta mmin mmax lam mpp sigpp gmax = .error .valueError :=
  (massRatio_broadcast b hS hm hb hmin
    (C97_twoComponentSingle_partial b false ⟨rfl, hm⟩ ha hmin hmax hlam hmpp hsig hg h1 h2 h3 h4)).2 hj h0 hne

/-- **C97**, `double_power_law_primary_power_law_mass_ratio` on data of different shapes. -/
theorem C97_doublePowerLawMassRatio_broadcast_partial (b : Backend) (py : Bool) {S : List ℕ}
    {m1 q alpha1 alpha2 beta mmin mmax bf : NArr} {va1 va2 vb vmin vmax vbf : Fl}
    (hS : BroadcastOf [m1.shape, q.shape] S) (hok : b = .jax ∨ q.shape = [] ∨ q.shape = S)
    (hm : m1.kind ≠ .py) (ha1 : FloatParam alpha1 va1) (ha2 : FloatParam alpha2 va2)
    (hb : FloatParam beta vb) (hmin : Param mmin vmin)
    (hmax : Param mmax vmax) (hbf : Param bf vbf) (h0 : ¬ eqf (-va1) 1) (h1 : ¬ eqf (-va2) 1)
    (h2 : 0 < vmin) (h3 : 0 < vmax) (h4 : 0 < vmin + vbf * (vmax - vmin)) :
    ElementWise (doublePowerLawPrimaryPowerLawMassRatioA b m1 q alpha1 alpha2 beta mmin mmax bf) S fun i =>
      doublePowerLawPrimaryPowerLawMassRatio b py (entry m1 i) (entry q i) va1 va2 vb vmin vmax vbf :=
  (massRatio_broadcast b hS hm hb hmin
    (C97_doublePowerLaw_partial b py ⟨rfl, hm⟩ ha1 ha2 hmin hmax hbf h0 h1 h2 h3 h4)).1 hok

theorem broadcast_of_into {s t S : List ℕ} (hs : s = S) (ht : Into t S) : BroadcastOf [s, t] S ∧ BroadcastOf [t, s] S := by
  subst hs
  have key : ∀ u, u = s ∨ u = t → ∀ (k n : ℕ), u[k]? = some n → k < s.length ∧ (n = 1 ∨ s[k]? = some n) := by
    rintro u (rfl | rfl) k n hk
    · exact ⟨(List.getElem?_eq_some_iff.1 hk).1, Or.inr hk⟩
    · obtain ⟨m, hm, h⟩ := ht.get k n hk
      refine ⟨(List.getElem?_eq_some_iff.1 hm).1, h.imp_right ?_⟩
      rintro rfl
      exact hm
  exact ⟨⟨fun u hu => key u (by simpa using hu), fun k n hk => ⟨s, by simp, hk⟩⟩,
    ⟨fun u hu => key u (by simp at hu; tauto), fun k n hk => ⟨s, by simp, hk⟩⟩⟩

/-- `_primary_secondary_general` on masses of different shapes. -/
theorem primarySecondary_broadcast (b : Backend) {S : List ℕ} {m1 m2 p1 p2 : NArr}
    (hS : BroadcastOf [m1.shape, m2.shape] S) (s1 : p1.shape = m1.shape) (s2 : p2.shape = m2.shape) :
    ∃ r, primarySecondaryGeneralA b m1 m2 p1 p2 = .ok r ∧ r.shape = S ∧ ∀ idx, InShape S idx →
      r.elem idx = primarySecondaryGeneral (entry m1 idx) (entry m2 idx) (entry p1 idx) (entry p2 idx) := by
  have hS' : BroadcastOf [m2.shape, m1.shape] S :=
    ⟨fun u hu => hS.fits u (by simp at hu ⊢; tauto), fun k n hk => by
      obtain ⟨u, hu, h⟩ := hS.tight k n hk
      exact ⟨u, by simp at hu ⊢; tauto, h⟩⟩
  obtain ⟨t, et, st, vt⟩ := op2_broadcast b promote (· * ·) (x := p1) (y := p2) (by rw [s1, s2]; exact hS)
  obtain ⟨o, eo, so, vo⟩ := op2_broadcast b (fun _ _ => .bool) (fun a c => ind (a ≤ c)) hS'
  obtain ⟨u, eu, su, vu⟩ := op2_broadcast b promote (· * ·) (x := t) (y := o) (by rw [st, so]; exact broadcast_self S)
  obtain ⟨r, er, sr, vr⟩ := op2_broadcast b promote (· * ·) (x := u) (y := NArr.pyInt 2)
    (by rw [su]; exact broadcast_self_param S)
  refine ⟨r, ?_, sr, fun idx hi => ?_⟩
  · simp only [primarySecondaryGeneralA, NArr.mul, NArr.le, et, eo, eu, er, ok_bind]
  · have e : ∀ {x : NArr}, x.shape = S → entry x idx = x.elem idx := fun {x} hx => by
      rw [entry_eq (by rw [hx]; exact .refl _) hi, hx, proj_inside hi]
    have e2 : entry (NArr.pyInt 2) idx = fin 2 := by
      simp [entry, NArr.pyInt]
    rw [vr idx hi, e su, vu idx hi, e st, e so, vt idx hi, vo idx hi, e2]
    rfl

/-- **C97**, `power_law_primary_secondary_independent` on masses of different shapes, on every backend. -/
theorem C97_powerLawPrimarySecondary_broadcast_partial (b : Backend) (py : Bool) {S : List ℕ}
    {m1 m2 alpha beta mmin mmax : NArr} {va vb vmin vmax : Fl}
    (hS : BroadcastOf [m1.shape, m2.shape] S) (hm1 : m1.kind ≠ .py) (hm2 : m2.kind ≠ .py) (ha : FloatParam alpha va)
    (hb : FloatParam beta vb) (hmin : Param mmin vmin) (hmax : Param mmax vmax) (h2 : 0 < vmin) (h3 : 0 < vmax) :
    ElementWise (powerLawPrimarySecondaryIndependentA b m1 m2 alpha beta mmin mmax) S fun i =>
      powerLawPrimarySecondaryIndependent b py (entry m1 i) (entry m2 i) va vb vmin vmax := by
  have hm1 : Data m1.shape m1 := ⟨rfl, hm1⟩
  have hm2 : Data m2.shape m2 := ⟨rfl, hm2⟩
  have i1 : Into m1.shape S := hS.into _ (by simp)
  have i2 : Into m2.shape S := hS.into _ (by simp)
  obtain ⟨p, gp, ep, cp, sp, -, vp⟩ := powerlaw_slot b (xx := apos m1) (alpha := apos (neg b alpha))
    (high := apos mmax) (low := apos mmin) (Slot.of_data hm1) ((Slot.of_param ha.1).neg b) (Slot.of_param hmax)
    (Slot.of_param hmin) hm1.1 ha.2 (hmax.notPyZero h3) (hmin.notPyZero h2) (by simp) (by simp)
  obtain ⟨q, gq, eq, cq, sq, -, vq⟩ := powerlaw_slot b (xx := apos m2) (alpha := apos (neg b beta))
    (high := apos mmax) (low := apos mmin) (Slot.of_data hm2) ((Slot.of_param hb.1).neg b) (Slot.of_param hmax)
    (Slot.of_param hmin) hm2.1 hb.2 (hmax.notPyZero h3) (hmin.notPyZero h2) (by simp) (by simp)
  obtain ⟨r, er, sr, vr⟩ := primarySecondary_broadcast b hS sp sq
  refine ⟨r, ?_, sr, fun idx hi => ?_⟩
  · simp only [powerLawPrimarySecondaryIndependentA, ep, eq, er, ok_bind]
  · have j1 := inside_pick i1 hi
    have j2 := inside_pick i2 hi
    have e1 := vp _ j1
    have e2 := vq _ j2
    have f1 : entry p idx = gp (pick m1.shape idx) := by
      rw [← cp.entry _ j1, entry_eq (x := p) (by rw [sp]; exact .refl _) j1, sp, proj_inside j1, entry, sp]
    have f2 : entry q idx = gq (pick m2.shape idx) := by
      rw [← cq.entry _ j2, entry_eq (x := q) (by rw [sq]; exact .refl _) j2, sq, proj_inside j2, entry, sq]
    simp only [powerLawPrimarySecondaryIndependent, powerlaw_py b py (high := pos vmax) (low := pos vmin)
      (not_eqf_zero h3) (not_eqf_zero h2)]
    change (do
      let a ← powerlaw b false ⟨m1.elem (pick m1.shape idx), false⟩ ⟨-va, false⟩ ⟨vmax, false⟩ ⟨vmin, false⟩
      let c ← powerlaw b false ⟨m2.elem (pick m2.shape idx), false⟩ ⟨-vb, false⟩ ⟨vmax, false⟩ ⟨vmin, false⟩
      pure (primarySecondaryGeneral (entry m1 idx) (entry m2 idx) a c)) = _
    rw [e1, ok_bind, e2, ok_bind, pure_eq_ok, vr idx hi, f1, f2]

/-- **C97**, `iid_spin_magnitude_beta` on magnitudes of different shapes, on every backend. -/
theorem C97_iidSpinMagnitude_broadcast_partial (junk : Fl → Fl → Fl) (b : Backend) {S : List ℕ} {dataset : Dict NArr}
    {x1 x2 alpha beta amax : NArr} {va vb vm : Fl} (hS : BroadcastOf [x1.shape, x2.shape] S)
    (hx1 : x1.kind ≠ .py) (hx2 : x2.kind ≠ .py)
    (g1 : Dict.get? dataset "a_1" = some x1) (g2 : Dict.get? dataset "a_2" = some x2) (ha : Param alpha va)
    (hb : Param beta vb) (hm : Param amax vm) (pa : 0 < va) (pb : 0 < vb) (pm : 0 < vm) :
    ElementWise (independentSpinMagnitudeBetaA junk b dataset alpha alpha beta beta amax amax) S fun i =>
      iidSpinMagnitudeBeta junk b [("a_1", entry x1 i), ("a_2", entry x2 i)] vm va vb := by
  have i1 : Into x1.shape S := hS.into _ (by simp)
  have i2 : Into x2.shape S := hS.into _ (by simp)
  have hpos : ∀ {x : NArr} {v : Fl}, Param x v → 0 < v → ∀ a ∈ x.elements, 0 < a := fun h hv => by
    rw [h.elements]; simpa using hv
  obtain ⟨p, gp, ep, cp, sp, vp⟩ := betaDist_slot junk b (xx := apos x1) (alpha := apos alpha) (beta := apos beta)
    (scale := akw amax) (Slot.of_data ⟨rfl, hx1⟩) (Slot.of_param ha) (Slot.of_param hb) (Slot.of_param hm) rfl
    (hpos ha pa) (hpos hb pb) (hpos hm pm)
  obtain ⟨q, gq, eq, cq, sq, vq⟩ := betaDist_slot junk b (xx := apos x2) (alpha := apos alpha) (beta := apos beta)
    (scale := akw amax) (Slot.of_data ⟨rfl, hx2⟩) (Slot.of_param ha) (Slot.of_param hb) (Slot.of_param hm) rfl
    (hpos ha pa) (hpos hb pb) (hpos hm pm)
  obtain ⟨r, er, sr, vr⟩ := op2_broadcast b promote (· * ·) (x := p) (y := q) (S := S)
    (by simpa only [sp, sq, apos] using hS)
  refine ⟨r, ?_, sr, fun idx hi => ?_⟩
  · simp only [independentSpinMagnitudeBetaA, NArr.mul, dataset_get g1, dataset_get g2, ep, eq, er, ok_bind]
  · have j1 := inside_pick i1 hi
    have j2 := inside_pick i2 hi
    have e1 := vp _ j1
    have e2 := vq _ j2
    have sp : p.shape = x1.shape := sp
    have sq : q.shape = x2.shape := sq
    have f1 : entry p idx = gp (pick x1.shape idx) := by
      rw [← cp.entry _ j1, entry_eq (x := p) (by rw [sp]; exact .refl _) j1, sp, proj_inside j1, entry, sp]
    have f2 : entry q idx = gq (pick x2.shape idx) := by
      rw [← cq.entry _ j2, entry_eq (x := q) (by rw [sq]; exact .refl _) j2, sq, proj_inside j2, entry, sq]
    have d1 : Dict.get [("a_1", entry x1 idx), ("a_2", entry x2 idx)] "a_1" = .ok (entry x1 idx) := by
      simp [Dict.get, Dict.get?_cons]
    have d2 : Dict.get [("a_1", entry x1 idx), ("a_2", entry x2 idx)] "a_2" = .ok (entry x2 idx) := by
      simp [Dict.get, Dict.get?_cons]
    simp only [iidSpinMagnitudeBeta, independentSpinMagnitudeBeta, d1, d2, ok_bind]
    change (do
      let p1 ← betaDist junk b ⟨x1.elem (pick x1.shape idx), false⟩ ⟨va, false⟩ ⟨vb, false⟩ ⟨vm, true⟩
      let p2 ← betaDist junk b ⟨x2.elem (pick x2.shape idx), false⟩ ⟨va, false⟩ ⟨vb, false⟩ ⟨vm, true⟩
      pure (p1 * p2)) = _
    rw [e1, ok_bind, e2, ok_bind, pure_eq_ok, vr idx hi, f1, f2]

theorem broadcast_grid : BroadcastOf [[3], [1, 2]] [3, 2] := by
  refine ⟨?_, ?_⟩
  · intro s hs k n hk
    have := broadcast_row_col.fits s (by simp at hs ⊢; tauto) k n hk
    exact this
  · intro k n hk
    match k with
    | 0 => exact ⟨[3], by simp, hk⟩
    | 1 => exact ⟨[1, 2], by simp, hk⟩
    | k + 2 => simp at hk

/-- On numpy, a row of three primary masses and a column of two mass ratios raise `ValueError`. -/
theorem C97_fails : ¬ C97_statement := by
  intro h
  obtain ⟨r, hr, -⟩ := (h .numpy (fun _ _ => nan) (by simp)).1 (Spec.vec 3 fun i => 10 + i)
    (Spec.col 2 fun i => (1 + i) / 2) (pyFloat (fin 2)) (pyFloat (fin 1)) (pyFloat (fin 5)) (pyFloat (fin 50))
    (fin 2) (fin 1) (fin 5) (fin 50) [3, 2] (by simp [Valid, Spec.vec]) (by simp [Valid, Spec.col])
    (by simp [Spec.vec]) (by simp [Spec.col]) broadcast_grid ⟨⟨rfl, rfl⟩, rfl⟩ ⟨⟨rfl, rfl⟩, rfl⟩ ⟨rfl, rfl⟩ ⟨rfl, rfl⟩
    (by norm_num [eqf]) (by simp [Fl.zero_eq]) (by simp [Fl.zero_eq])
  have hp : ∀ n : ℤ, Param (NArr.pyInt n) (fin n) := fun n => ⟨rfl, rfl⟩
  rw [powerLawPrimaryMassRatioA, C97_twoComponentPrimaryMassRatio_raises_partial .numpy (by simp) broadcast_grid
    (by simp [Spec.col]) (by simp [Spec.col]) (by simp [Spec.vec]) (va := fin 2) (vb := fin 1) (vmin := fin 5)
    (vmax := fin 50) ⟨⟨rfl, rfl⟩, rfl⟩ ⟨⟨rfl, rfl⟩, rfl⟩ ⟨rfl, rfl⟩ ⟨rfl, rfl⟩ (hp 0) (hp 35) (hp 1) (hp 100)
    (by norm_num [eqf]) (by simp [Fl.zero_eq]) (by simp [Fl.zero_eq]) (by simp [Fl.zero_eq])] at hr
  cases hr

/-! ### Concrete cases -/

theorem data_vec (n : ℕ) (f : ℕ → ℝ) : Data [n] (Spec.vec n f) := ⟨rfl, by simp [Spec.vec]⟩

/-- Three masses. -/
example : ∃ r, powerLawMassA .numpy (Spec.vec 3 fun i => 10 + i) (pyFloat (fin 2)) (pyFloat (fin 5))
    (pyFloat (fin 50)) = .ok r ∧ r.shape = [3] := by
  obtain ⟨r, h, hs, -⟩ := C97_powerLawMass_partial .numpy false (mass := (Spec.vec 3 fun i => 10 + i))
    (alpha := (pyFloat (fin 2))) (mmin := (pyFloat (fin 5)))
    (mmax := (pyFloat (fin 50)))
    (data_vec _ _) ⟨⟨rfl, rfl⟩, rfl⟩ ⟨rfl, rfl⟩ ⟨rfl, rfl⟩ (by norm_num [eqf, pyFloat])
    (by simp [Fl.zero_eq, pyFloat]) (by simp [Fl.zero_eq, pyFloat])
  exact ⟨r, h, hs⟩

/-- Three masses. -/
example : ∃ r, twoComponentSingleA .numpy (Spec.vec 3 fun i => 10 + i) (pyFloat (fin 2)) (pyFloat (fin 5))
    (pyFloat (fin 50)) (pyFloat (fin (1/10))) (pyFloat (fin 35))
      (pyFloat (fin 4)) (pyFloat (fin 100)) = .ok r ∧ r.shape = [3] := by
  obtain ⟨r, h, hs, -⟩ := C97_twoComponentSingle_partial .numpy false (mass := (Spec.vec 3 fun i => 10 + i))
    (alpha := (pyFloat (fin 2))) (mmin := (pyFloat (fin 5)))
    (mmax := (pyFloat (fin 50))) (lam := (pyFloat (fin (1/10)))) (mpp := (pyFloat (fin 35)))
    (sigpp := (pyFloat (fin 4))) (gmax := (pyFloat (fin 100)))
    (data_vec _ _) ⟨⟨rfl, rfl⟩, rfl⟩ ⟨rfl, rfl⟩ ⟨rfl, rfl⟩ ⟨rfl, rfl⟩ ⟨rfl, rfl⟩ ⟨rfl, rfl⟩ ⟨rfl, rfl⟩
    (by norm_num [eqf, pyFloat]) (by simp [Fl.zero_eq, pyFloat]) (by simp [Fl.zero_eq, pyFloat])
    (by simp [Fl.zero_eq, pyFloat])
  exact ⟨r, h, hs⟩

/-- Three masses and mass ratios. -/
example : ∃ r, twoComponentPrimaryMassRatioA .numpy (Spec.vec 3 fun i => 10 + i) (Spec.vec 3 fun i => (1 + i) / 3)
    (pyFloat (fin 2)) (pyFloat (fin 1))
      (pyFloat (fin 5)) (pyFloat (fin 50)) (pyFloat (fin (1/10))) (pyFloat (fin 35)) (pyFloat (fin 4))
      (pyFloat (fin 100)) = .ok r ∧ r.shape = [3] := by
  obtain ⟨r, h, hs, -⟩ := C97_twoComponentPrimaryMassRatio_partial .numpy false (m1 := (Spec.vec 3 fun i => 10 + i))
    (alpha := (pyFloat (fin 2))) (mmin := (pyFloat (fin 5)))
    (mmax := (pyFloat (fin 50))) (lam := (pyFloat (fin (1/10)))) (mpp := (pyFloat (fin 35)))
    (sigpp := (pyFloat (fin 4))) (gmax := (pyFloat (fin 100)))
    (q := (Spec.vec 3 fun i => (1 + i) / 3)) (beta := (pyFloat (fin 1)))
    (data_vec _ _) (data_vec _ _) ⟨⟨rfl, rfl⟩, rfl⟩ ⟨⟨rfl, rfl⟩, rfl⟩ ⟨rfl, rfl⟩ ⟨rfl, rfl⟩ ⟨rfl, rfl⟩ ⟨rfl, rfl⟩
    ⟨rfl, rfl⟩ ⟨rfl, rfl⟩ (by norm_num [eqf, pyFloat]) (by simp [Fl.zero_eq, pyFloat])
    (by simp [Fl.zero_eq, pyFloat]) (by simp [Fl.zero_eq, pyFloat])
  exact ⟨r, h, hs⟩

/-- Three masses and mass ratios. -/
example : ∃ r, powerLawPrimaryMassRatioA .numpy (Spec.vec 3 fun i => 10 + i) (Spec.vec 3 fun i => (1 + i) / 3)
    (pyFloat (fin 2)) (pyFloat (fin 1))
      (pyFloat (fin 5)) (pyFloat (fin 50)) = .ok r ∧ r.shape = [3] := by
  obtain ⟨r, h, hs, -⟩ := C97_powerLawPrimaryMassRatio_partial .numpy false (m1 := (Spec.vec 3 fun i => 10 + i))
    (q := (Spec.vec 3 fun i => (1 + i) / 3)) (alpha := (pyFloat (fin 2))) (beta := (pyFloat (fin 1)))
    (mmin := (pyFloat (fin 5))) (mmax := (pyFloat (fin 50)))
    (data_vec _ _) (data_vec _ _) ⟨⟨rfl, rfl⟩, rfl⟩ ⟨⟨rfl, rfl⟩, rfl⟩ ⟨rfl, rfl⟩ ⟨rfl, rfl⟩
    (by norm_num [eqf, pyFloat]) (by simp [Fl.zero_eq, pyFloat]) (by simp [Fl.zero_eq, pyFloat])
  exact ⟨r, h, hs⟩

/-- Two peaks. -/
example : ∃ r, threeComponentSingleA .numpy (Spec.vec 3 fun i => 10 + i) (pyFloat (fin 2)) (pyFloat (fin 5))
    (pyFloat (fin 50)) (pyFloat (fin (1/10))) (pyFloat (fin (1/2))) (pyFloat (fin 10)) (pyFloat (fin 1))
      (pyFloat (fin 35)) (pyFloat (fin 4)) (pyFloat (fin 100)) = .ok r ∧ r.shape = [3] := by
  obtain ⟨r, h, hs, -⟩ := C97_threeComponentSingle_partial .numpy false (mass := (Spec.vec 3 fun i => 10 + i))
    (alpha := (pyFloat (fin 2)))
    (mmin := (pyFloat (fin 5))) (mmax := (pyFloat (fin 50))) (lam := (pyFloat (fin (1/10))))
    (lam1 := (pyFloat (fin (1/2)))) (mpp1 := (pyFloat (fin 10)))
    (sigpp1 := (pyFloat (fin 1))) (mpp2 := (pyFloat (fin 35))) (sigpp2 := (pyFloat (fin 4)))
    (gmax := (pyFloat (fin 100)))
    (data_vec _ _) ⟨⟨rfl, rfl⟩, rfl⟩ ⟨rfl, rfl⟩ ⟨rfl, rfl⟩ ⟨rfl, rfl⟩ ⟨rfl, rfl⟩ ⟨rfl, rfl⟩ ⟨rfl, rfl⟩ ⟨rfl, rfl⟩
    ⟨rfl, rfl⟩ ⟨rfl, rfl⟩ (by norm_num [eqf, pyFloat]) (by simp [Fl.zero_eq, pyFloat])
    (by simp [Fl.zero_eq, pyFloat]) (by simp [Fl.zero_eq, pyFloat]) (by simp [Fl.zero_eq, pyFloat])
  exact ⟨r, h, hs⟩

/-- Pairs of masses. -/
example : ∃ r, powerLawPrimarySecondaryIndependentA .numpy (Spec.vec 3 fun i => 10 + i) (Spec.vec 3 fun i => 10 + i)
    (pyFloat (fin 2)) (pyFloat (fin 1))
      (pyFloat (fin 5)) (pyFloat (fin 50)) = .ok r ∧ r.shape = [3] := by
  obtain ⟨r, h, hs, -⟩ := C97_powerLawPrimarySecondary_partial .numpy false (m1 := (Spec.vec 3 fun i => 10 + i))
    (m2 := (Spec.vec 3 fun i => 10 + i)) (alpha := (pyFloat (fin 2))) (beta := (pyFloat (fin 1)))
    (mmin := (pyFloat (fin 5))) (mmax := (pyFloat (fin 50)))
    (data_vec _ _) (data_vec _ _) ⟨⟨rfl, rfl⟩, rfl⟩ ⟨⟨rfl, rfl⟩, rfl⟩ ⟨rfl, rfl⟩ ⟨rfl, rfl⟩
    (by simp [Fl.zero_eq, pyFloat]) (by simp [Fl.zero_eq, pyFloat])
  exact ⟨r, h, hs⟩

/-- Pairs of masses. -/
example : ∃ r, twoComponentPrimarySecondaryIndependentA .numpy (Spec.vec 3 fun i => 10 + i)
    (Spec.vec 3 fun i => 10 + i) (pyFloat (fin 2))
      (pyFloat (fin 3)) (pyFloat (fin 5)) (pyFloat (fin 50)) (pyFloat (fin (1/10))) (pyFloat (fin 35))
      (pyFloat (fin 4)) (pyFloat (fin 100)) = .ok r ∧ r.shape = [3] := by
  obtain ⟨r, h, hs, -⟩ := C97_twoComponentPrimarySecondary_partial .numpy false (m1 := (Spec.vec 3 fun i => 10 + i))
    (alpha := (pyFloat (fin 2))) (mmin := (pyFloat (fin 5)))
    (mmax := (pyFloat (fin 50))) (lam := (pyFloat (fin (1/10)))) (mpp := (pyFloat (fin 35)))
    (sigpp := (pyFloat (fin 4))) (gmax := (pyFloat (fin 100)))
    (m2 := (Spec.vec 3 fun i => 10 + i)) (beta := (pyFloat (fin 3)))
    (data_vec _ _) (data_vec _ _) ⟨⟨rfl, rfl⟩, rfl⟩ ⟨⟨rfl, rfl⟩, rfl⟩ ⟨rfl, rfl⟩ ⟨rfl, rfl⟩ ⟨rfl, rfl⟩ ⟨rfl, rfl⟩
    ⟨rfl, rfl⟩ ⟨rfl, rfl⟩ (by norm_num [eqf, pyFloat]) (by norm_num [eqf, pyFloat]) (by simp [Fl.zero_eq, pyFloat])
    (by simp [Fl.zero_eq, pyFloat]) (by simp [Fl.zero_eq, pyFloat])
  exact ⟨r, h, hs⟩

/-- A broken power law. -/
example : ∃ r, doublePowerLawPrimaryMassA .numpy (Spec.vec 3 fun i => 10 + i) (pyFloat (fin 2)) (pyFloat (fin 4))
    (pyFloat (fin 5)) (pyFloat (fin 50)) (pyFloat (fin (1/2))) = .ok r ∧ r.shape = [3] := by
  obtain ⟨r, h, hs, -⟩ := C97_doublePowerLaw_partial .numpy false (mass := (Spec.vec 3 fun i => 10 + i))
    (alpha1 := (pyFloat (fin 2)))
    (alpha2 := (pyFloat (fin 4))) (mmin := (pyFloat (fin 5))) (mmax := (pyFloat (fin 50)))
    (bf := (pyFloat (fin (1/2))))
    (data_vec _ _) ⟨⟨rfl, rfl⟩, rfl⟩ ⟨⟨rfl, rfl⟩, rfl⟩ ⟨rfl, rfl⟩ ⟨rfl, rfl⟩ ⟨rfl, rfl⟩ (by norm_num [eqf, pyFloat])
    (by norm_num [eqf, pyFloat]) (by simp [Fl.zero_eq, pyFloat]) (by simp [Fl.zero_eq, pyFloat])
    (by simp [Fl.zero_eq, pyFloat]; norm_num)
  exact ⟨r, h, hs⟩

/-- A broken power law and a peak. -/
example : ∃ r, doublePowerLawPeakPrimaryMassA .numpy (Spec.vec 3 fun i => 10 + i) (pyFloat (fin 2)) (pyFloat (fin 4))
    (pyFloat (fin 5)) (pyFloat (fin 50)) (pyFloat (fin (1/2)))
      (pyFloat (fin (1/10))) (pyFloat (fin 35)) (pyFloat (fin 4)) (pyFloat (fin 100)) = .ok r ∧ r.shape = [3] := by
  obtain ⟨r, h, hs, -⟩ := C97_doublePowerLawPeak_partial .numpy false (mass := (Spec.vec 3 fun i => 10 + i))
    (alpha1 := (pyFloat (fin 2)))
    (alpha2 := (pyFloat (fin 4))) (mmin := (pyFloat (fin 5))) (mmax := (pyFloat (fin 50)))
    (bf := (pyFloat (fin (1/2)))) (lam := (pyFloat (fin (1/10))))
    (mpp := (pyFloat (fin 35))) (sigpp := (pyFloat (fin 4))) (gmax := (pyFloat (fin 100)))
    (data_vec _ _) ⟨⟨rfl, rfl⟩, rfl⟩ ⟨⟨rfl, rfl⟩, rfl⟩ ⟨rfl, rfl⟩ ⟨rfl, rfl⟩ ⟨rfl, rfl⟩ ⟨rfl, rfl⟩ ⟨rfl, rfl⟩
    ⟨rfl, rfl⟩ ⟨rfl, rfl⟩ (by norm_num [eqf, pyFloat]) (by norm_num [eqf, pyFloat]) (by simp [Fl.zero_eq, pyFloat])
    (by simp [Fl.zero_eq, pyFloat]) (by simp [Fl.zero_eq, pyFloat]; norm_num) (by simp [Fl.zero_eq, pyFloat])
  exact ⟨r, h, hs⟩

/-- A broken power law and mass ratios. -/
example : ∃ r, doublePowerLawPrimaryPowerLawMassRatioA .numpy (Spec.vec 3 fun i => 10 + i)
    (Spec.vec 3 fun i => (1 + i) / 3) (pyFloat (fin 2))
      (pyFloat (fin 4)) (pyFloat (fin 1)) (pyFloat (fin 5)) (pyFloat (fin 50)) (pyFloat (fin (1/2))) = .ok r ∧
      r.shape = [3] := by
  obtain ⟨r, h, hs, -⟩ := C97_doublePowerLawMassRatio_partial .numpy false (m1 := (Spec.vec 3 fun i => 10 + i))
    (alpha1 := (pyFloat (fin 2)))
    (alpha2 := (pyFloat (fin 4))) (mmin := (pyFloat (fin 5))) (mmax := (pyFloat (fin 50)))
    (bf := (pyFloat (fin (1/2))))
    (q := (Spec.vec 3 fun i => (1 + i) / 3)) (beta := (pyFloat (fin 1)))
    (data_vec _ _) (data_vec _ _) ⟨⟨rfl, rfl⟩, rfl⟩ ⟨⟨rfl, rfl⟩, rfl⟩ ⟨⟨rfl, rfl⟩, rfl⟩ ⟨rfl, rfl⟩ ⟨rfl, rfl⟩
    ⟨rfl, rfl⟩ (by norm_num [eqf, pyFloat]) (by norm_num [eqf, pyFloat]) (by simp [Fl.zero_eq, pyFloat])
    (by simp [Fl.zero_eq, pyFloat]) (by simp [Fl.zero_eq, pyFloat]; norm_num)
  exact ⟨r, h, hs⟩

/-- A dataset of three samples. -/
def threeSpins : Dict NArr :=
  ["a_1", "a_2", "cos_tilt_1", "cos_tilt_2", "chi_eff", "chi_p"].map fun k => (k, Spec.vec 3 fun i => i / 3)

/-- Spin magnitudes. -/
example : ∃ r, independentSpinMagnitudeBetaA (fun _ _ => nan) .numpy threeSpins (pyFloat (fin 2)) (pyFloat (fin 3))
      (pyFloat (fin 5)) (pyFloat (fin 4)) (pyFloat (fin 1)) (pyFloat (fin 1)) = .ok r ∧ r.shape = [3] := by
  obtain ⟨r, h, hs, -⟩ := C97_spinMagnitude_partial (fun _ _ => nan) .numpy (dataset := threeSpins)
    (x1 := (Spec.vec 3 fun i => i / 3))
    (x2 := (Spec.vec 3 fun i => i / 3)) (alpha1 := (pyFloat (fin 2))) (alpha2 := (pyFloat (fin 3)))
    (beta1 := (pyFloat (fin 5)))
    (beta2 := (pyFloat (fin 4))) (amax1 := (pyFloat (fin 1))) (amax2 := (pyFloat (fin 1)))
    (by simp [threeSpins, Dict.get?_cons]) (by simp [threeSpins, Dict.get?_cons]) (data_vec _ _) (data_vec _ _)
    ⟨rfl, rfl⟩ ⟨rfl, rfl⟩ ⟨rfl, rfl⟩ ⟨rfl, rfl⟩ ⟨rfl, rfl⟩ ⟨rfl, rfl⟩ (by simp [Fl.zero_eq, pyFloat])
    (by simp [Fl.zero_eq, pyFloat]) (by simp [Fl.zero_eq, pyFloat]) (by simp [Fl.zero_eq, pyFloat])
    (by simp [Fl.zero_eq, pyFloat]) (by simp [Fl.zero_eq, pyFloat])
  exact ⟨r, h, hs⟩

/-- Spin orientations. -/
example : ∃ r, independentSpinOrientationA .numpy threeSpins (pyFloat (fin (1/2))) (pyFloat (fin 1))
    (pyFloat (fin 2)) (pyFloat (fin 1)) (pyFloat (fin 1)) = .ok r ∧ r.shape = [3] := by
  obtain ⟨r, h, hs, -⟩ := C97_spinOrientation_partial .numpy (dataset := threeSpins)
    (z1 := (Spec.vec 3 fun i => i / 3))
    (z2 := (Spec.vec 3 fun i => i / 3)) (xi := (pyFloat (fin (1/2)))) (sigma1 := (pyFloat (fin 1)))
    (sigma2 := (pyFloat (fin 2)))
    (mu1 := (pyFloat (fin 1))) (mu2 := (pyFloat (fin 1)))
    (by simp [threeSpins, Dict.get?_cons]) (by simp [threeSpins, Dict.get?_cons]) (data_vec _ _) (data_vec _ _)
    ⟨rfl, rfl⟩ ⟨rfl, rfl⟩ ⟨rfl, rfl⟩ ⟨rfl, rfl⟩ ⟨rfl, rfl⟩
  exact ⟨r, h, hs⟩

/-- Spin magnitudes and orientations. -/
example : ∃ r, iidSpinA (fun _ _ => nan) .numpy threeSpins (pyFloat (fin (1/2))) (pyFloat (fin 1)) (pyFloat (fin 1))
    (pyFloat (fin 2)) (pyFloat (fin 5)) = .ok r ∧ r.shape = [3] := by
  obtain ⟨r, h, hs, -⟩ := C97_iidSpin_partial (fun _ _ => nan) .numpy (dataset := threeSpins)
    (z1 := (Spec.vec 3 fun i => i / 3))
    (z2 := (Spec.vec 3 fun i => i / 3)) (x1 := (Spec.vec 3 fun i => i / 3))
    (x2 := (Spec.vec 3 fun i => i / 3)) (xi := (pyFloat (fin (1/2)))) (sigma := (pyFloat (fin 1)))
    (amax := (pyFloat (fin 1)))
    (alpha := (pyFloat (fin 2))) (beta := (pyFloat (fin 5)))
    (by simp [threeSpins, Dict.get?_cons]) (by simp [threeSpins, Dict.get?_cons])
    (by simp [threeSpins, Dict.get?_cons]) (by simp [threeSpins, Dict.get?_cons]) (data_vec _ _) (data_vec _ _)
    (data_vec _ _) (data_vec _ _) ⟨rfl, rfl⟩ ⟨rfl, rfl⟩ ⟨rfl, rfl⟩ ⟨rfl, rfl⟩ ⟨rfl, rfl⟩
    (by simp [Fl.zero_eq, pyFloat]) (by simp [Fl.zero_eq, pyFloat]) (by simp [Fl.zero_eq, pyFloat])
  exact ⟨r, h, hs⟩

/-- Effective spins. -/
example : ∃ r, gaussianChiEffA .numpy threeSpins (pyFloat (fin 0)) (pyFloat (fin 1)) = .ok r ∧ r.shape = [3] := by
  obtain ⟨r, h, hs, -⟩ := C97_gaussianChiEff_partial .numpy (dataset := threeSpins) (x := (Spec.vec 3 fun i => i / 3))
    (mu := (pyFloat (fin 0))) (sigma := (pyFloat (fin 1)))
    (by simp [threeSpins, Dict.get?_cons]) (data_vec _ _) ⟨rfl, rfl⟩ ⟨rfl, rfl⟩ (by simp [Fl.zero_eq, pyFloat])
  exact ⟨r, h, hs⟩

/-- Effective spins. -/
example : ∃ r, gaussianChiPA .numpy threeSpins (pyFloat (fin 0)) (pyFloat (fin 1)) = .ok r ∧ r.shape = [3] := by
  obtain ⟨r, h, hs, -⟩ := C97_gaussianChiP_partial .numpy (dataset := threeSpins) (x := (Spec.vec 3 fun i => i / 3))
    (mu := (pyFloat (fin 0))) (sigma := (pyFloat (fin 1)))
    (by simp [threeSpins, Dict.get?_cons]) (data_vec _ _) ⟨rfl, rfl⟩ ⟨rfl, rfl⟩ (by simp [Fl.zero_eq, pyFloat])
  exact ⟨r, h, hs⟩

/-- On jax, a row of masses and a column of mass ratios give a table. -/
example : ∃ r, twoComponentPrimaryMassRatioA .jax (Spec.vec 3 fun i => 10 + i) (Spec.col 2 fun i => (1 + i) / 2)
    (pyFloat (fin 2)) (pyFloat (fin 1))
      (pyFloat (fin 5)) (pyFloat (fin 50)) (pyFloat (fin (1/10))) (pyFloat (fin 35)) (pyFloat (fin 4))
      (pyFloat (fin 100)) = .ok r ∧ r.shape = [3, 2] := by
  obtain ⟨r, h, hs, -⟩ := C97_twoComponentPrimaryMassRatio_broadcast_partial .jax false
    (m1 := (Spec.vec 3 fun i => 10 + i)) (alpha := (pyFloat (fin 2))) (mmin := (pyFloat (fin 5)))
    (mmax := (pyFloat (fin 50))) (lam := (pyFloat (fin (1/10)))) (mpp := (pyFloat (fin 35)))
    (sigpp := (pyFloat (fin 4))) (gmax := (pyFloat (fin 100)))
    (q := (Spec.col 2 fun i => (1 + i) / 2)) (beta := (pyFloat (fin 1)))
    broadcast_grid (Or.inl rfl) (by simp [Spec.vec]) ⟨⟨rfl, rfl⟩, rfl⟩ ⟨⟨rfl, rfl⟩, rfl⟩ ⟨rfl, rfl⟩ ⟨rfl, rfl⟩
    ⟨rfl, rfl⟩ ⟨rfl, rfl⟩ ⟨rfl, rfl⟩ ⟨rfl, rfl⟩ (by norm_num [eqf, pyFloat]) (by simp [Fl.zero_eq, pyFloat])
    (by simp [Fl.zero_eq, pyFloat]) (by simp [Fl.zero_eq, pyFloat])
  exact ⟨r, h, hs⟩

/-- On jax, a row of masses and a column of mass ratios give a table. -/
example : ∃ r, doublePowerLawPrimaryPowerLawMassRatioA .jax (Spec.vec 3 fun i => 10 + i)
    (Spec.col 2 fun i => (1 + i) / 2) (pyFloat (fin 2))
      (pyFloat (fin 4)) (pyFloat (fin 1)) (pyFloat (fin 5)) (pyFloat (fin 50)) (pyFloat (fin (1/2))) = .ok r ∧
      r.shape = [3, 2] := by
  obtain ⟨r, h, hs, -⟩ := C97_doublePowerLawMassRatio_broadcast_partial .jax false
    (m1 := (Spec.vec 3 fun i => 10 + i)) (alpha1 := (pyFloat (fin 2)))
    (alpha2 := (pyFloat (fin 4))) (mmin := (pyFloat (fin 5))) (mmax := (pyFloat (fin 50)))
    (bf := (pyFloat (fin (1/2))))
    (q := (Spec.col 2 fun i => (1 + i) / 2)) (beta := (pyFloat (fin 1)))
    broadcast_grid (Or.inl rfl) (by simp [Spec.vec]) ⟨⟨rfl, rfl⟩, rfl⟩ ⟨⟨rfl, rfl⟩, rfl⟩ ⟨⟨rfl, rfl⟩, rfl⟩ ⟨rfl, rfl⟩
    ⟨rfl, rfl⟩ ⟨rfl, rfl⟩ (by norm_num [eqf, pyFloat]) (by norm_num [eqf, pyFloat]) (by simp [Fl.zero_eq, pyFloat])
    (by simp [Fl.zero_eq, pyFloat]) (by simp [Fl.zero_eq, pyFloat]; norm_num)
  exact ⟨r, h, hs⟩

/-- On numpy, a row of primary and a column of secondary masses give a table. -/
example : ∃ r, powerLawPrimarySecondaryIndependentA .numpy (Spec.vec 3 fun i => 10 + i) (Spec.col 2 fun i => 8 + i)
    (pyFloat (fin 2)) (pyFloat (fin 1))
      (pyFloat (fin 5)) (pyFloat (fin 50)) = .ok r ∧ r.shape = [3, 2] := by
  obtain ⟨r, h, hs, -⟩ := C97_powerLawPrimarySecondary_broadcast_partial .numpy false
    (m1 := (Spec.vec 3 fun i => 10 + i))
    (m2 := (Spec.col 2 fun i => 8 + i)) (alpha := (pyFloat (fin 2))) (beta := (pyFloat (fin 1)))
    (mmin := (pyFloat (fin 5))) (mmax := (pyFloat (fin 50)))
    broadcast_grid (by simp [Spec.vec]) (by simp [Spec.col]) ⟨⟨rfl, rfl⟩, rfl⟩ ⟨⟨rfl, rfl⟩, rfl⟩ ⟨rfl, rfl⟩
    ⟨rfl, rfl⟩ (by simp [Fl.zero_eq, pyFloat]) (by simp [Fl.zero_eq, pyFloat])
  exact ⟨r, h, hs⟩

/-- On numpy, a row and a column of spin magnitudes give a table. -/
example : ∃ r, independentSpinMagnitudeBetaA (fun _ _ => nan) .numpy
      [("a_1", Spec.vec 3 fun i => i / 3), ("a_2", Spec.col 2 fun i => i / 3)] (pyFloat (fin 2)) (pyFloat (fin 2))
      (pyFloat (fin 5)) (pyFloat (fin 5))
      (pyFloat (fin 1)) (pyFloat (fin 1)) = .ok r ∧ r.shape = [3, 2] := by
  obtain ⟨r, h, hs, -⟩ := C97_iidSpinMagnitude_broadcast_partial (fun _ _ => nan) .numpy
    (dataset := [("a_1", Spec.vec 3 fun i => i / 3), ("a_2", Spec.col 2 fun i => i / 3)])
    (x1 := Spec.vec 3 fun i => i / 3) (x2 := Spec.col 2 fun i => i / 3) (alpha := (pyFloat (fin 2)))
    (beta := (pyFloat (fin 5)))
    (amax := (pyFloat (fin 1)))
    broadcast_grid (by simp [Spec.vec]) (by simp [Spec.col]) (by simp [Dict.get?_cons]) (by simp [Dict.get?_cons])
    ⟨rfl, rfl⟩ ⟨rfl, rfl⟩ ⟨rfl, rfl⟩ (by simp [Fl.zero_eq, pyFloat]) (by simp [Fl.zero_eq, pyFloat])
    (by simp [Fl.zero_eq, pyFloat])
  exact ⟨r, h, hs⟩

end GW
