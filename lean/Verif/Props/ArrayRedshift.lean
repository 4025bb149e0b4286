import Verif.Model.ArrayRedshift
import Verif.Props.ArrayModels
import Verif.Props.SmoothedCore
import Verif.Props.Redshift

/-!
# C157: redshift models act sample by sample on datasets of any shape
-/

noncomputable section

open Classical

namespace GW

open Fl NArr Spec

namespace Spec

/-- Hyper-parameters without axes and with names other than those of the arguments of the methods. -/
structure PlainParams (parameters : Dict NArr) : Prop where
  noAxes : ∀ k x, Dict.get? parameters k = some x → x.shape = []
  names : ∀ k ∈ ["self", "dataset", "bounds", "redshift"], Dict.get? parameters k = none

end Spec

/-! ### Steps -/

namespace Slot

variable {T : List ℕ} {x y : NArr} {g h : List ℕ → Fl}

theorem pow (b : Backend) (hx : Slot T x g) (hy : Slot T y h)
    (hz : x.dtype = .float ∨ y.dtype = .float ∨ (x.kind = .py ∧ y.kind = .py))
    (hp : ¬ (x.kind = .py ∧ y.kind = .py ∧ eqf (x.elem []) 0)) :
    ∃ r, NArr.pow b x y = .ok r ∧ Slot T r (fun i => Fl.pow (g i) (h i)) ∧
      (x.shape = T ∨ y.shape = T → r.shape = T) ∧ (x.kind ≠ .py ∨ y.kind ≠ .py → r.kind ≠ .py) := by
  obtain ⟨r, hr, hrep⟩ := (Rep.input x hx.into).pow b (Rep.input y hy.into) hz hp
  have hl := lub_two hx.shape hy.shape hrep.lub
  refine ⟨r, hr, ⟨hl.1, fun idx hi => ?_⟩, hl.2, fun hpy => ?_⟩
  · rw [entry_eq hrep.into hi, hrep.elem idx, ← entry_eq hx.into hi, ← entry_eq hy.into hi, hx.entry idx hi,
      hy.entry idx hi]
  · rw [NArr.pow, if_neg (by tauto)] at hr
    obtain ⟨r', hr', -, hk, -⟩ := (Rep.input x hx.into).power b (Rep.input y hy.into) (by tauto)
    rw [hr] at hr'
    cases hr'
    rw [hk, libKind]
    split_ifs <;> simp

theorem assign (b : Backend) (f : Fl → Fl → Fl) (hx : Slot T x g) (hy : Slot T y h) (hd : x.dtype = .float)
    (hT : x.shape = T) :
    ∃ r, NArr.assign b f x y = .ok r ∧ Slot T r (fun i => f (g i) (h i)) ∧ r.shape = T ∧ r.dtype = .float ∧
      (x.kind ≠ .py → r.kind ≠ .py) := by
  obtain ⟨r, hr, hrep, hdt, hk⟩ := (Rep.input x hx.into).assign b f (Rep.input y hy.into) (Or.inr hd)
    (Or.inr (Or.inr (by rw [hT]; exact hy.into)))
  have hl := lub_two hx.shape hy.shape hrep.lub
  refine ⟨r, hr, ⟨hl.1, fun idx hi => ?_⟩, hl.2 (Or.inl hT), by rw [hdt, hd]; cases y.dtype <;> rfl, hk⟩
  rw [entry_eq hrep.into hi, hrep.elem idx, ← entry_eq hx.into hi, ← entry_eq hy.into hi, hx.entry idx hi,
    hy.entry idx hi]

theorem pyFloat (v : Fl) : Slot T (NArr.pyFloat v) (fun _ => v) := of_param ⟨rfl, rfl⟩

theorem fn (b : Backend) (f : Fl → Fl) (hx : Slot T x g) : Slot T (NArr.fn b f x) (fun i => f (g i)) :=
  ⟨hx.shape, fun idx hi => by rw [← hx.entry idx hi]; rfl⟩

/-- Division gives floats. -/
theorem div' (b : Backend) (hx : Slot T x g) (hy : Slot T y h)
    (hz : ¬ (x.kind = .py ∧ y.kind = .py ∧ eqf (y.elem []) 0)) :
    ∃ r, NArr.div b x y = .ok r ∧ Slot T r (fun i => g i / h i) ∧
      (x.shape = T ∨ y.shape = T → r.shape = T) ∧ (x.kind ≠ .py ∨ y.kind ≠ .py → r.kind ≠ .py) ∧
      r.dtype = .float := by
  unfold NArr.div
  rw [if_neg hz]
  exact hx.op2 b _ (· / ·) hy

end Slot

namespace ArrayRedshift

/-- What is needed of the array version of a rate: it acts element by element on the data of the given kind. -/
def RateSlot (self : Redshift) (psi : NArr → Dict NArr → Except PyErr NArr) (ps : Dict NArr)
    (ok : NArr → Prop) : Prop :=
  ∀ (T : List ℕ) (z : NArr), Data T z → ok z → ∃ (r : NArr) (g : List ℕ → Fl), psi z ps = .ok r ∧ Slot T r g ∧
    r.shape = T ∧ r.kind ≠ .py ∧ ∀ idx, InShape T idx → self.psiOfZ (z.elem idx) (numbersOf ps) = .ok (g idx)

theorem numbers_get {ps : Dict NArr} {k : String} {x : NArr} {v : Fl} (h : Dict.get? ps k = some x) (hx : Param x v) :
    (numbersOf ps).get k = .ok v := by
  rw [← hx.2]
  exact sample_get h []

theorem numbers_none {ps : Dict NArr} {k : String} (h : Dict.get? ps k = none) : Dict.get? (numbersOf ps) k = none := by
  induction ps with
  | nil => rfl
  | cons p d ih =>
    obtain ⟨k', v'⟩ := p
    rw [Dict.get?_cons] at h
    simp only [numbersOf, List.map_cons]
    rw [Dict.get?_cons]
    split_ifs at h ⊢ with hk
    exact ih h

theorem names_ok {ps : Dict NArr} (h : PlainParams ps) {l : List String}
    (hl : ∀ k ∈ l, k ∈ ["self", "dataset", "bounds", "redshift"]) : Redshift.noClash l (numbersOf ps) = .ok () := by
  unfold Redshift.noClash
  rw [if_neg]
  rintro ⟨k, hk, hc⟩
  have := numbers_none (h.names k (hl k hk))
  rw [Dict.contains] at hc
  generalize numbersOf ps = d at hc this
  induction d with
  | nil => simp at hc
  | cons p d ih =>
    obtain ⟨k', v'⟩ := p
    rw [Dict.get?_cons] at this
    split_ifs at this with hk'
    simp only [List.map_cons, List.mem_cons] at hc
    rcases hc with rfl | hc
    · exact hk' rfl
    · exact ih hc this

theorem cosmologyA_eq (self : Redshift) {ps : Dict NArr} (h : PlainParams ps) :
    self.cosmologyA ps = self.mixin.cosmology (numbersOf ps) := by
  unfold Redshift.cosmologyA
  rw [if_neg]
  rintro ⟨k, -, x, hx, hs⟩
  exact hs (h.noAxes k x hx)

theorem diff_slot (b : Backend) (self : Redshift) {psi : NArr → Dict NArr → Except PyErr NArr} {ps dataset : Dict NArr}
    {ok : NArr → Prop} {T : List ℕ} {z : NArr} {c : Cosmology} (bounds : Bool) (hps : PlainParams ps)
    (hc : self.mixin.cosmology (numbersOf ps) = .ok c) (hpsi : RateSlot self psi ps ok)
    (hget : Dict.get? dataset "redshift" = some z) (hz : Data T z) (hok : ok z) :
    ∃ (r : NArr) (g : List ℕ → Fl), self.differentialSpacetimeVolumeA b psi dataset bounds ps = .ok r ∧ Slot T r g ∧
      r.shape = T ∧ r.kind ≠ .py ∧ ∀ idx, InShape T idx →
        self.differentialSpacetimeVolume (sample dataset idx) bounds (numbersOf ps) = .ok (g idx) := by
  obtain ⟨p, gp, ep, cp, sp, kp, vp⟩ := hpsi T z hz hok
  have sz : Slot T z z.elem := Slot.of_data hz
  obtain ⟨o, eo, co, so, ko, -⟩ := (Slot.pyInt (T := T) 1).op2 b promote (· + ·) sz
  obtain ⟨d, ed, cd, sd, kd, dd⟩ := cp.div' b co (fun h => kp h.1)
  obtain ⟨v, ev, cv, sv, kv, -⟩ := (Slot.pyFloat (T := T) (4 * fin Real.pi)).op2 b promote (· * ·)
    (sz.fn b c.diffComovingVolume)
  obtain ⟨m, em, cm, sm, dm, km⟩ := cd.assign b (· * ·) cv dd (sd (Or.inl sp))
  have n1 := names_ok hps (l := ["self", "dataset", "bounds"]) (by simp)
  have n2 := names_ok hps (l := ["self", "redshift"]) (by simp)
  have hscal : ∀ idx, InShape T idx → self.differentialSpacetimeVolume (sample dataset idx) bounds (numbersOf ps) =
      (if bounds then .ok (gp idx / (1 + z.elem idx) * (4 * fin Real.pi * c.diffComovingVolume (z.elem idx)) *
        ind (z.elem idx ≤ fin self.zMax))
      else .ok (gp idx / (1 + z.elem idx) * (4 * fin Real.pi * c.diffComovingVolume (z.elem idx)))) := fun idx hi => by
    simp only [Redshift.differentialSpacetimeVolume, n1, n2, ok_bind, sample_get hget, vp idx hi, Redshift.dvcDz, hc,
      pure_eq_ok]
  have harr : self.differentialSpacetimeVolumeA b psi dataset bounds ps =
      (do if bounds then NArr.assign b (· * ·) m (← le b z (NArr.pyFloat (fin self.zMax))) else pure m) := by
    simp only [Redshift.differentialSpacetimeVolumeA, n1, n2, ok_bind, dataset_get hget, ep, NArr.add, eo, ed,
      Redshift.dvcDzA, cosmologyA_eq self hps, hc, NArr.mul, ev, em]
  cases bounds with
  | false =>
    refine ⟨m, _, by rw [harr]; rfl, cm, sm, km (kd (Or.inl kp)), fun idx hi => ?_⟩
    rw [hscal idx hi]
    simp
  | true =>
    obtain ⟨k, ek, ck, sk, kk, -⟩ := sz.op2 b (fun _ _ => .bool) (fun a c => ind (a ≤ c))
      (Slot.pyFloat (T := T) (fin self.zMax))
    obtain ⟨r, er, cr, sr, -, kr⟩ := cm.assign b (· * ·) ck dm sm
    refine ⟨r, _, ?_, cr, sr, kr (km (kd (Or.inl kp))), fun idx hi => ?_⟩
    · rw [harr]
      simp only [if_true, NArr.le, ek, ok_bind, er]
    · rw [hscal idx hi]
      simp

theorem norm_param (b : Backend) (self : Redshift) {psi : NArr → Dict NArr → Except PyErr NArr} {ps : Dict NArr}
    {ok : NArr → Prop} {c : Cosmology} (hps : PlainParams ps)
    (hc : self.mixin.cosmology (numbersOf ps) = .ok c) (hpsi : RateSlot self psi ps ok) (hok : ok self.zsA) :
    ∃ (r : NArr) (v : Fl), self.normalisationA b psi ps = .ok r ∧ Param r v ∧ r.kind ≠ .py ∧
      self.normalisation (numbersOf ps) = .ok v := by
  obtain ⟨r, g, er, cr, sr, kr, vr⟩ := diff_slot b self (dataset := [("redshift", self.zsA)]) (T := [self.zs.length])
    true hps hc hpsi (by simp [Dict.get?_cons]) ⟨rfl, by simp [Redshift.zsA]⟩ hok
  have helem : ∀ i, i < self.zs.length → r.elem [i] = g [i] := fun i hi => by
    have hin : InShape [self.zs.length] [i] := .cons hi .nil
    rw [← cr.entry _ hin, entry_eq cr.into hin, sr, proj_inside hin]
  have hscal : self.zs.mapM (fun z => self.differentialSpacetimeVolume [("redshift", fin z)] true (numbersOf ps)) =
      .ok ((List.range self.zs.length).map fun i => r.elem [i]) := by
    have : self.zs = (List.range self.zs.length).map fun i => self.zs.getD i 0 := by
      apply List.ext_getElem
      · simp
      · intro i h1 h2
        simp [List.getD_eq_getElem?_getD, List.getElem?_eq_getElem h1]
    rw [this, List.mapM_map, mapM_ok (g := fun i => r.elem [i])]
    · simp
    intro i hi
    have hi' : i < self.zs.length := by simpa using hi
    rw [helem i hi']
    have := vr [i] (.cons hi' .nil)
    simpa [sample, Redshift.zsA] using this
  refine ⟨⟨libKind b [], .float, [], fun idx =>
      Arr.trapz ((List.range self.zs.length).map fun i => r.elem (i :: idx)) (self.zs.map fin)⟩,
    Arr.trapz ((List.range self.zs.length).map fun i => r.elem [i]) (self.zs.map fin), ?_, ⟨rfl, rfl⟩, ?_, ?_⟩
  · simp only [Redshift.normalisationA, er, ok_bind, trapezoidA, sr]
    simp
  · simp only [libKind]
    split_ifs <;> simp
  · simp only [Redshift.normalisation, hscal, ok_bind, pure_eq_ok]

/-- The general form of the property. -/
theorem probability_elementWise (b : Backend) (self : Redshift) {psi : NArr → Dict NArr → Except PyErr NArr}
    {ps dataset : Dict NArr} {ok : NArr → Prop} {T : List ℕ} {z : NArr} {c : Cosmology} (hps : PlainParams ps)
    (hc : self.mixin.cosmology (numbersOf ps) = .ok c) (hpsi : RateSlot self psi ps ok)
    (hget : Dict.get? dataset "redshift" = some z) (hz : Data T z) (hok : ok z) (hzs : ok self.zsA) :
    ElementWise (self.probabilityA b psi dataset ps) T fun i =>
      self.probability (sample dataset i) (numbersOf ps) := by
  obtain ⟨n, v, en, pn, kn, vn⟩ := norm_param b self hps hc hpsi hzs
  obtain ⟨d, g, ed, cd, sd, kd, vd⟩ := diff_slot b self true hps hc hpsi hget hz hok
  obtain ⟨r, er, cr, sr, -⟩ := cd.div b (Slot.of_param (T := T) pn) (fun h => kd h.1)
  refine cr.elementWise (sr (Or.inl sd)) ?_ fun idx hi => ?_
  · simp only [Redshift.probabilityA, en, ed, er, ok_bind]
  · simp only [Redshift.probability, vn, vd idx hi, ok_bind, pure_eq_ok]

theorem powerLaw_slot (b : Backend) (self : Redshift) {ps : Dict NArr} {lamb : NArr} {vl : Fl}
    (hself : self.psiOfZ = psiPowerLaw) (hg : Dict.get? ps "lamb" = some lamb) (hl : Param lamb vl) :
    RateSlot self (psiPowerLawA b) ps fun z => z.dtype = .float ∨ lamb.dtype = .float := by
  intro T z hz hok
  obtain ⟨o, eo, co, so, ko, dto⟩ := (Slot.pyInt (T := T) 1).op2 b promote (· + ·) (Slot.of_data hz)
  have kpy := ko (Or.inr hz.2)
  obtain ⟨r, er, cr, sr, kr⟩ := co.pow b (Slot.of_param hl)
    (by
      rcases hok with h | h
      · left; rw [dto, h]; rfl
      · exact Or.inr (Or.inl h)) (fun h => kpy h.1)
  refine ⟨r, _, ?_, cr, sr (Or.inl (so (Or.inr hz.1))), kr (Or.inl kpy), fun idx hi => ?_⟩
  · simp only [psiPowerLawA, NArr.add, eo, ok_bind, dataset_get hg, er]
  · simp only [hself, psiPowerLaw, numbers_get hg hl, ok_bind, pure_eq_ok, fin_int_one]

theorem madau_slot (b : Backend) (py : Bool) (self : Redshift) {ps : Dict NArr} {gamma kappa zPeak : NArr}
    {vg vk vz : Fl} (hself : self.psiOfZ = psiMadauDickinson py)
    (hg : Dict.get? ps "gamma" = some gamma) (hk : Dict.get? ps "kappa" = some kappa)
    (hz : Dict.get? ps "z_peak" = some zPeak) (pg : Param gamma vg) (pk : Param kappa vk) (pz : Param zPeak vz)
    (hpeak : ¬ eqf (1 + vz) 0)
    (hpow : zPeak.dtype = .float ∨ kappa.dtype = .float ∨ (zPeak.kind = .py ∧ kappa.kind = .py)) :
    RateSlot self (psiMadauDickinsonA b) ps fun z => z.dtype = .float ∨ gamma.dtype = .float := by
  intro T z hd hok
  obtain ⟨o, eo, co, so, ko, dto⟩ := (Slot.pyInt (T := T) 1).op2 b promote (· + ·) (Slot.of_data hd)
  have kpy := ko (Or.inr hd.2)
  obtain ⟨r1, e1, c1, s1, k1⟩ := co.pow b (Slot.of_param pg)
    (by
      rcases hok with h | h
      · left; rw [dto, h]; rfl
      · exact Or.inr (Or.inl h)) (fun h => kpy h.1)
  obtain ⟨q, eq, cq, sq, kq, dtq⟩ := (Slot.pyInt (T := T) 1).op2 b promote (· + ·) (Slot.of_param pz)
  obtain ⟨r2, e2, c2, s2, k2, d2⟩ := co.div' b cq (fun h => kpy h.1)
  obtain ⟨r3, e3, c3, s3, k3⟩ := c2.pow b (Slot.of_param pk) (Or.inl d2) (fun h => k2 (Or.inl kpy) h.1)
  obtain ⟨r4, e4, c4, s4, k4, -⟩ := (Slot.pyInt (T := T) 1).op2 b promote (· + ·) c3
  obtain ⟨r5, e5, c5, s5, k5, d5⟩ := c1.div' b c4 (fun h => k1 (Or.inl kpy) h.1)
  have eqe : q.elem [] = 1 + vz := by
    have h0 : NArr.op2 b promote (· + ·) (NArr.pyInt 1) zPeak = .ok q := eq
    simp only [NArr.op2, NArr.lift2, pz.1, NArr.pyInt, bshape, ok_bind, pure_eq_ok, Except.ok.injEq] at h0
    rw [← h0]
    split_ifs <;> simp [pz.2, proj]
  have qpy : q.kind = .py → zPeak.kind = .py := fun h => by
    by_contra hn
    exact kq (Or.inr hn) h
  have pyq : zPeak.kind = .py → q.kind = .py := fun h => by
    have h0 : NArr.op2 b promote (· + ·) (NArr.pyInt 1) zPeak = .ok q := eq
    simp only [NArr.op2, NArr.lift2, pz.1, NArr.pyInt, bshape, ok_bind, pure_eq_ok, Except.ok.injEq] at h0
    rw [← h0]
    simp [h]
  obtain ⟨r6, e6, c6, s6, -⟩ := cq.pow b ((Slot.of_param (T := T) pk).neg b)
    (by
      rcases hpow with h | h | h
      · left; rw [dtq, h]; rfl
      · exact Or.inr (Or.inl h)
      · exact Or.inr (Or.inr ⟨pyq h.1, by simp [NArr.neg, h.2]⟩))
    (fun h => hpeak (eqe ▸ h.2.2))
  obtain ⟨r7, e7, c7, s7, -⟩ := (Slot.pyInt (T := T) 1).op2 b promote (· + ·) c6
  have t5 := s5 (Or.inl (s1 (Or.inl (so (Or.inr hd.1)))))
  obtain ⟨r8, e8, c8, s8, d8, k8⟩ := c5.assign b (· * ·) c7 d5 t5
  refine ⟨r8, _, ?_, c8, s8, k8 (k5 (Or.inl (k1 (Or.inl kpy)))), fun idx hi => ?_⟩
  · simp only [psiMadauDickinsonA, NArr.add, eo, eq, ok_bind, dataset_get hg, dataset_get hk, dataset_get hz, e1, e2,
      e3, e4, e5, e6, e7, e8]
  · have : pyPow py (1 + vz) (-vk) = .ok (Fl.pow (1 + vz) (-vk)) := by
      unfold pyPow
      rw [if_neg (fun h => hpeak h.2.1)]
    simp only [hself, psiMadauDickinson, numbers_get hg pg, numbers_get hk pk, numbers_get hz pz, ok_bind, this,
      pure_eq_ok, fin_int_one]

/-! #### Hyper-parameters with axes -/

theorem into_row (N n : ℕ) : Into [N] [N, n] := .same .nil

theorem into_col (N n : ℕ) : Into [1, n] [N, n] := .one (.same .nil)

theorem broadcast_table (N n : ℕ) : BroadcastOf [[N], [1, n]] [N, n] := by
  refine ⟨fun s hs k m hk => ?_, fun k m hk => ?_⟩
  · simp only [List.mem_cons, List.not_mem_nil, or_false] at hs
    rcases hs with rfl | rfl
    · match k with
      | 0 => exact ⟨by simp, Or.inr hk⟩
      | k + 1 => simp at hk
    · match k with
      | 0 => exact ⟨by simp, Or.inl (by simpa using hk.symm)⟩
      | 1 => exact ⟨by simp, Or.inr hk⟩
      | k + 2 => simp at hk
  · match k with
    | 0 => exact ⟨[N], by simp, hk⟩
    | 1 => exact ⟨[1, n], by simp, hk⟩
    | k + 2 => simp at hk

/-- A column of `n` slopes at `N` redshifts: a table of spacetime volumes. -/
theorem diff_table (b : Backend) (self : Redshift) {c : Cosmology} (hpsi : self.psiOfZ = psiPowerLaw)
    (hcos : self.mixin.cosmo = .fixed c) (hnames : self.mixin.cosmologyNames = []) {N n : ℕ} {z lamb : NArr}
    (hz : z.shape = [N]) (kz : z.kind = .array) (dz : z.dtype = .float) (hl : lamb.shape = [1, n]) :
    ∃ r : NArr, self.differentialSpacetimeVolumeA b (psiPowerLawA b) [("redshift", z)] true [("lamb", lamb)] = .ok r ∧
      r.shape = [N, n] ∧ r.kind ≠ .py ∧ ∀ j i, j < N → i < n →
        self.differentialSpacetimeVolume [("redshift", z.elem [j])] true [("lamb", lamb.elem [0, i])] =
          .ok (r.elem [j, i]) := by
  have iz : Into z.shape [N, n] := by rw [hz]; exact into_row N n
  have il : Into lamb.shape [N, n] := by rw [hl]; exact into_col N n
  have hB := broadcast_table N n
  obtain ⟨o, eo, ro, ko, dto⟩ := (Rep.pyInt (S := [N, n]) 1).op2 b promote (· + ·) (Rep.input z iz)
  have kpy : o.kind ≠ .py := by
    rw [ko, if_neg (by simp [kz]), libKind]
    split_ifs <;> simp
  have dof : o.dtype = .float := by rw [dto, dz]; rfl
  obtain ⟨p, ep, rp⟩ := ro.pow b (Rep.input lamb il) (Or.inl dof) (fun h => kpy h.1)
  have kp : p.kind ≠ .py := by
    have h := ep
    rw [NArr.pow, if_neg (fun h => kpy h.1)] at h
    obtain ⟨p', hp', -, hk, -⟩ := ro.power b (Rep.input lamb il) (Or.inl dof)
    rw [h] at hp'
    cases hp'
    rw [hk, libKind]
    split_ifs <;> simp
  obtain ⟨d, ed, rd, kd, dd⟩ := rp.div b ro (fun h => kp h.1)
  have kd' : d.kind ≠ .py := by
    rw [kd, if_neg (fun h => kp h.1), libKind]
    split_ifs <;> simp
  have sd : d.shape = [N, n] := (rd.spec hB (fun s => by simp [hz, hl]; tauto)).1
  obtain ⟨v, ev, rv, -⟩ := (Rep.pyFloat (S := [N, n]) (4 * fin Real.pi)).op2 b promote (· * ·)
    ((Rep.input z iz).fn b c.diffComovingVolume)
  obtain ⟨m, em, rm, dm, km⟩ := rd.assign b (· * ·) rv (Or.inr dd) (Or.inr (Or.inr (by rw [sd]; exact rv.into)))
  have sm : m.shape = [N, n] := (rm.spec hB (fun s => by simp [hz, hl]; tauto)).1
  have dm' : m.dtype = .float := by rw [dm, dd]; cases v.dtype <;> rfl
  obtain ⟨q, eq, rq, -⟩ := (Rep.input z iz).op2 b (fun _ _ => .bool) (fun a c => ind (a ≤ c))
    (Rep.pyFloat (S := [N, n]) (fin self.zMax))
  obtain ⟨r, er, rr, -, kr⟩ := rm.assign b (· * ·) rq (Or.inr dm') (Or.inr (Or.inr (by rw [sm]; exact rq.into)))
  obtain ⟨sr, vr⟩ := rr.spec hB (fun s => by simp [hz, hl]; tauto)
  have hg : Dict.get ([("redshift", z)] : Dict NArr) "redshift" = .ok z := by simp [Dict.get, Dict.get?_cons]
  have hg2 : Dict.get ([("lamb", lamb)] : Dict NArr) "lamb" = .ok lamb := by simp [Dict.get, Dict.get?_cons]
  have hc : self.cosmologyA [("lamb", lamb)] = .ok c := by
    simp [Redshift.cosmologyA, hnames, CosmoMixin.cosmology, hcos]
  have hn : ∀ (l : List String) (v : Fl), "lamb" ∉ l → Redshift.noClash l [("lamb", v)] = .ok () := fun l v h => by
    rw [Redshift.noClash, if_neg]
    rintro ⟨k, hk, hkc⟩
    simp only [Dict.contains, List.map_cons, List.map_nil, List.mem_cons, List.not_mem_nil, or_false] at hkc
    exact h (hkc ▸ hk)
  refine ⟨r, ?_, sr, kr (km kd'), fun j i hj hi => ?_⟩
  · simp only [Redshift.differentialSpacetimeVolumeA, numbersOf, List.map_cons, List.map_nil,
      hn ["self", "dataset", "bounds"] _ (by simp), hn ["self", "redshift"] _ (by simp), ok_bind, hg, psiPowerLawA, hg2,
      NArr.add, eo, ep, ed, Redshift.dvcDzA, hc, NArr.mul, ev, em, if_true, NArr.le, eq, er]
  · rw [vr [j, i] (.cons hj (.cons hi .nil))]
    have hzj : proj z.shape [j, i] = [j] := by
      rw [hz]
      simp only [proj]
      split_ifs with h
      · have : j = 0 := by omega
        rw [this]
      · rfl
    have hli : proj lamb.shape [j, i] = [0, i] := by
      rw [hl]
      simp only [proj, if_true]
      split_ifs with h
      · have : i = 0 := by omega
        rw [this]
      · rfl
    have hg3 : Dict.get ([("redshift", z.elem [j])] : Dict Fl) "redshift" = .ok (z.elem [j]) := by
      simp [Dict.get, Dict.get?_cons]
    have hg4 : Dict.get ([("lamb", lamb.elem [0, i])] : Dict Fl) "lamb" = .ok (lamb.elem [0, i]) := by
      simp [Dict.get, Dict.get?_cons]
    have hc2 : self.mixin.cosmology [("lamb", lamb.elem [0, i])] = .ok c := by
      simp [CosmoMixin.cosmology, hcos]
    simp only [Redshift.differentialSpacetimeVolume, hn ["self", "dataset", "bounds"] _ (by simp),
      hn ["self", "redshift"] _ (by simp), ok_bind, hg3, hpsi, psiPowerLaw, hg4, pure_eq_ok, Redshift.dvcDz, hc2,
      if_true, hzj, hli, fin_int_one]

/-- The norms of a column of slopes: a row. -/
theorem norm_table (b : Backend) (self : Redshift) {c : Cosmology} (hpsi : self.psiOfZ = psiPowerLaw)
    (hcos : self.mixin.cosmo = .fixed c) (hnames : self.mixin.cosmologyNames = []) {n : ℕ} {lamb : NArr}
    (hl : lamb.shape = [1, n]) :
    ∃ r : NArr, self.normalisationA b (psiPowerLawA b) [("lamb", lamb)] = .ok r ∧ r.shape = [n] ∧
      ∀ i, i < n → self.normalisation [("lamb", lamb.elem [0, i])] = .ok (r.elem [i]) := by
  obtain ⟨r, er, sr, kr, vr⟩ := diff_table b self hpsi hcos hnames (z := self.zsA) (n := n) (N := self.zs.length)
    rfl rfl rfl hl
  refine ⟨⟨libKind b [n], .float, [n], fun idx =>
      Arr.trapz ((List.range self.zs.length).map fun k => r.elem (k :: idx)) (self.zs.map fin)⟩, ?_, rfl, ?_⟩
  · simp only [Redshift.normalisationA, er, ok_bind, trapezoidA, sr]
    simp
  · intro i hi
    have hscal : self.zs.mapM (fun z =>
        self.differentialSpacetimeVolume [("redshift", fin z)] true [("lamb", lamb.elem [0, i])]) =
        .ok ((List.range self.zs.length).map fun k => r.elem [k, i]) := by
      have : self.zs = (List.range self.zs.length).map fun i => self.zs.getD i 0 := by
        apply List.ext_getElem
        · simp
        · intro i h1 h2
          simp [List.getD_eq_getElem?_getD, List.getElem?_eq_getElem h1]
      rw [this, List.mapM_map, mapM_ok (g := fun k => r.elem [k, i])]
      · simp
      intro k hk
      have hk' : k < self.zs.length := by simpa using hk
      simpa [Redshift.zsA] using vr k i hk' hi
    simp only [Redshift.normalisation, hscal, ok_bind, pure_eq_ok]

end ArrayRedshift

open ArrayRedshift

/-! ### The property -/

/-- The property, on numpy: for every dataset and all hyper-parameters that are numbers, with a cosmology that can be
constructed, both models give one probability per sample, the one they give for that sample alone. -/
def C157_statement : Prop :=
  ∀ (available : Dict CosmoEntry) (zMax : ℝ) (cosmoModel : String) (self : Redshift) (parameters dataset : Dict NArr)
    (T : List ℕ) (z : NArr) (c : Cosmology), PlainParams parameters →
    self.mixin.cosmology (numbersOf parameters) = .ok c → Dict.get? dataset "redshift" = some z → Data T z →
    (∀ lamb vl, Redshift.powerLaw available zMax cosmoModel = .ok self → Dict.get? parameters "lamb" = some lamb →
      Param lamb vl →
      ElementWise (self.probabilityA .numpy (psiPowerLawA .numpy) dataset parameters) T fun i =>
        self.probability (sample dataset i) (numbersOf parameters)) ∧
    (∀ py gamma kappa zPeak vg vk vz, Redshift.madauDickinson available py zMax cosmoModel = .ok self →
      Dict.get? parameters "gamma" = some gamma → Dict.get? parameters "kappa" = some kappa →
      Dict.get? parameters "z_peak" = some zPeak → Param gamma vg → Param kappa vk → Param zPeak vz → 0 ≤ vz →
      ElementWise (self.probabilityA .numpy (psiMadauDickinsonA .numpy) dataset parameters) T fun i =>
        self.probability (sample dataset i) (numbersOf parameters))

theorem powerLaw_psi {available : Dict CosmoEntry} {zMax : ℝ} {cosmoModel : String} {self : Redshift}
    (h : Redshift.powerLaw available zMax cosmoModel = .ok self) : self.psiOfZ = psiPowerLaw := by
  unfold Redshift.powerLaw Redshift.init at h
  rw [bind_eq_ok] at h
  obtain ⟨m, -, h⟩ := h
  rw [pure_eq_ok] at h
  cases h
  rfl

theorem madauDickinson_psi {available : Dict CosmoEntry} {py : Bool} {zMax : ℝ} {cosmoModel : String} {self : Redshift}
    (h : Redshift.madauDickinson available py zMax cosmoModel = .ok self) : self.psiOfZ = psiMadauDickinson py := by
  unfold Redshift.madauDickinson Redshift.init at h
  rw [bind_eq_ok] at h
  obtain ⟨m, -, h⟩ := h
  rw [pure_eq_ok] at h
  cases h
  rfl

/-- **C157**, `PowerLawRedshift`: all backends, data of any shape, and floating-point data or a floating-point slope. -/
theorem C157_powerLaw_partial (b : Backend) {available : Dict CosmoEntry} {zMax : ℝ} {cosmoModel : String}
    {self : Redshift} (hself : Redshift.powerLaw available zMax cosmoModel = .ok self) {parameters dataset : Dict NArr}
    {T : List ℕ} {z lamb : NArr} {vl : Fl} {c : Cosmology} (hps : PlainParams parameters)
    (hc : self.mixin.cosmology (numbersOf parameters) = .ok c) (hget : Dict.get? dataset "redshift" = some z)
    (hz : Data T z) (hg : Dict.get? parameters "lamb" = some lamb) (hl : Param lamb vl)
    (ht : z.dtype = .float ∨ lamb.dtype = .float) :
    ElementWise (self.probabilityA b (psiPowerLawA b) dataset parameters) T fun i =>
      self.probability (sample dataset i) (numbersOf parameters) :=
  probability_elementWise b self hps hc (powerLaw_slot b self (powerLaw_psi hself) hg hl) hget hz ht (Or.inl rfl)

/-- **C157**, `MadauDickinsonRedshift`: the same, and not both the peak and the high-redshift slope numpy integers. -/
theorem C157_madauDickinson_partial (b : Backend) (py : Bool) {available : Dict CosmoEntry} {zMax : ℝ}
    {cosmoModel : String} {self : Redshift}
    (hself : Redshift.madauDickinson available py zMax cosmoModel = .ok self) {parameters dataset : Dict NArr}
    {T : List ℕ} {z gamma kappa zPeak : NArr} {vg vk vz : Fl} {c : Cosmology} (hps : PlainParams parameters)
    (hc : self.mixin.cosmology (numbersOf parameters) = .ok c) (hget : Dict.get? dataset "redshift" = some z)
    (hz : Data T z) (hg : Dict.get? parameters "gamma" = some gamma) (hk : Dict.get? parameters "kappa" = some kappa)
    (hp : Dict.get? parameters "z_peak" = some zPeak) (pg : Param gamma vg) (pk : Param kappa vk) (pp : Param zPeak vz)
    (hpeak : ¬ eqf (1 + vz) 0) (ht : z.dtype = .float ∨ gamma.dtype = .float)
    (hpow : zPeak.dtype = .float ∨ kappa.dtype = .float ∨ (zPeak.kind = .py ∧ kappa.kind = .py)) :
    ElementWise (self.probabilityA b (psiMadauDickinsonA b) dataset parameters) T fun i =>
      self.probability (sample dataset i) (numbersOf parameters) :=
  probability_elementWise b self hps hc
    (madau_slot b py self (madauDickinson_psi hself) hg hk hp pg pk pp hpeak hpow) hget hz ht (Or.inl rfl)

/-- **C157**, integer data and a negative integer slope: `ValueError` on numpy, although the normalisation succeeds. -/
theorem C157_integers_raise_partial {available : Dict CosmoEntry} {zMax : ℝ} {cosmoModel : String}
    {self : Redshift} (hself : Redshift.powerLaw available zMax cosmoModel = .ok self) {parameters dataset : Dict NArr}
    {T : List ℕ} {z lamb : NArr} {vl : Fl} {c : Cosmology} (hps : PlainParams parameters)
    (hc : self.mixin.cosmology (numbersOf parameters) = .ok c) (hget : Dict.get? dataset "redshift" = some z)
    (hz : Data T z) (hg : Dict.get? parameters "lamb" = some lamb) (hl : Param lamb vl)
    (hti : z.dtype = .int) (hli : lamb.dtype = .int) (hneg : vl < 0) :
    self.probabilityA .numpy (psiPowerLawA .numpy) dataset parameters = .error .valueError := by
  obtain ⟨n, v, en, -⟩ := norm_param .numpy self hps hc (powerLaw_slot .numpy self (powerLaw_psi hself) hg hl)
    (Or.inl rfl)
  obtain ⟨o, eo, co, so, ko, dto⟩ := (Slot.pyInt (T := T) 1).op2 .numpy promote (· + ·) (Slot.of_data hz)
  have kpy := ko (Or.inr hz.2)
  have n1 := names_ok hps (l := ["self", "dataset", "bounds"]) (by simp)
  have n2 := names_ok hps (l := ["self", "redshift"]) (by simp)
  have hpow : NArr.pow .numpy o lamb = .error .valueError := by
    rw [NArr.pow, if_neg (fun h => kpy h.1), NArr.power, if_neg (by simp), if_pos]
    refine ⟨by rw [dto, hti]; decide, by rw [hli]; decide, vl, ?_, hneg⟩
    rw [hl.elements]
    simp
  simp only [Redshift.probabilityA, en, ok_bind, Redshift.differentialSpacetimeVolumeA, n1, n2, dataset_get hget,
    psiPowerLawA, NArr.add, eo, dataset_get hg, hpow, error_bind]

/-- **C157**, numpy integers for the peak and for the high-redshift slope: `ValueError` on numpy. -/
theorem C157_peak_raises_partial {self : Redshift} {parameters dataset : Dict NArr}
    {gamma kappa zPeak : NArr} {vg vk vz : Fl} (hps : PlainParams parameters)
    (hg : Dict.get? parameters "gamma" = some gamma) (hk : Dict.get? parameters "kappa" = some kappa)
    (hp : Dict.get? parameters "z_peak" = some zPeak) (pg : Param gamma vg) (pk : Param kappa vk) (pp : Param zPeak vz)
    (ti : zPeak.dtype = .int) (ki : kappa.dtype = .int) (hnpy : zPeak.kind ≠ .py ∨ kappa.kind ≠ .py) (hpos : 0 < vk) :
    self.probabilityA .numpy (psiMadauDickinsonA .numpy) dataset parameters = .error .valueError := by
  have hd : Data [self.zs.length] self.zsA := ⟨rfl, by simp [Redshift.zsA]⟩
  set T : List ℕ := [self.zs.length] with hT
  obtain ⟨o, eo, co, so, ko, dto⟩ := (Slot.pyInt (T := T) 1).op2 .numpy promote (· + ·) (Slot.of_data hd)
  have kpy := ko (Or.inr hd.2)
  have dof : o.dtype = .float := by rw [dto]; rfl
  obtain ⟨r1, e1, c1, s1, k1⟩ := co.pow .numpy (Slot.of_param pg) (Or.inl dof) (fun h => kpy h.1)
  obtain ⟨q, eq, cq, sq, kq, dtq⟩ := (Slot.pyInt (T := T) 1).op2 .numpy promote (· + ·) (Slot.of_param pp)
  obtain ⟨r2, e2, c2, s2, k2, d2⟩ := co.div' .numpy cq (fun h => kpy h.1)
  obtain ⟨r3, e3, c3, s3, k3⟩ := c2.pow .numpy (Slot.of_param pk) (Or.inl d2) (fun h => k2 (Or.inl kpy) h.1)
  obtain ⟨r4, e4, c4, s4, k4, -⟩ := (Slot.pyInt (T := T) 1).op2 .numpy promote (· + ·) c3
  obtain ⟨r5, e5, c5, s5, k5, d5⟩ := c1.div' .numpy c4 (fun h => k1 (Or.inl kpy) h.1)
  have hpow : NArr.pow .numpy q (NArr.neg .numpy kappa) = .error .valueError := by
    rw [NArr.pow, if_neg, NArr.power, if_neg (by simp), if_pos]
    · refine ⟨by rw [dtq, ti]; decide, by rw [NArr.neg, ki]; decide, -vk, ?_, ?_⟩
      · have : Param (NArr.neg .numpy kappa) (-vk) := ⟨pk.1, by rw [← pk.2]; rfl⟩
        rw [this.elements]
        simp
      · cases vk with
        | fin r => simp only [Fl.zero_eq, fin_lt, fin_neg] at *; linarith
        | pinf => trivial
        | ninf => exact hpos.elim
        | nan => exact hpos.elim
    · rintro ⟨h1, h2⟩
      have h3 : kappa.kind = .py := by
        by_contra hn
        simp only [NArr.neg, hn, if_false, libKind] at h2
        split_ifs at h2
      rcases hnpy with h | h
      · exact kq (Or.inr h) h1
      · exact h h3
  have n1 := names_ok hps (l := ["self", "dataset", "bounds"]) (by simp)
  have n2 := names_ok hps (l := ["self", "redshift"]) (by simp)
  have hgz : Dict.get ([("redshift", self.zsA)] : Dict NArr) "redshift" = .ok self.zsA := by
    simp [Dict.get, Dict.get?_cons]
  simp only [Redshift.probabilityA, Redshift.normalisationA, Redshift.differentialSpacetimeVolumeA, n1, n2, ok_bind,
    hgz, psiMadauDickinsonA, NArr.add, eo, eq, dataset_get hg, dataset_get hk, dataset_get hp, e1, e2, e3, e4, e5, hpow,
    error_bind]

/-- **C157**, a column of `n` slopes at `n` redshifts: no exception, but the volume for slope `i` is divided by the norm
for slope `j`, where `j` is the number of the redshift. -/
theorem C157_column_mixes_partial (b : Backend) {self : Redshift} {c : Cosmology} (hpsi : self.psiOfZ = psiPowerLaw)
    (hcos : self.mixin.cosmo = .fixed c) (hnames : self.mixin.cosmologyNames = []) {n : ℕ} {z lamb : NArr}
    (hz : z.shape = [n]) (kz : z.kind = .array) (dz : z.dtype = .float) (hl : lamb.shape = [1, n]) :
    ∃ r : NArr, self.probabilityA b (psiPowerLawA b) [("redshift", z)] [("lamb", lamb)] = .ok r ∧ r.shape = [n, n] ∧
      ∀ i j, i < n → j < n → ∃ volume norm,
        self.differentialSpacetimeVolume [("redshift", z.elem [j])] true [("lamb", lamb.elem [0, i])] = .ok volume ∧
        self.normalisation [("lamb", lamb.elem [0, j])] = .ok norm ∧ r.elem [j, i] = volume / norm := by
  obtain ⟨m, em, sm, vm⟩ := norm_table b self hpsi hcos hnames hl
  obtain ⟨d, ed, sd, kd, vd⟩ := diff_table b self hpsi hcos hnames hz kz dz hl
  have im : Into m.shape [n, n] := by rw [sm]; exact into_row n n
  obtain ⟨r, er, rr, -⟩ := (Rep.input d (S := [n, n]) (by rw [sd]; exact .refl _)).div b (Rep.input m im) (fun h => kd h.1)
  have hB : BroadcastOf [[n, n], [n]] [n, n] := by
    refine ⟨fun s hs k l hk => ?_, fun k l hk => ⟨[n, n], by simp, hk⟩⟩
    simp only [List.mem_cons, List.not_mem_nil, or_false] at hs
    rcases hs with rfl | rfl
    · exact ⟨(List.getElem?_eq_some_iff.1 hk).1, Or.inr hk⟩
    · match k with
      | 0 => exact ⟨by simp, Or.inr hk⟩
      | k + 1 => simp at hk
  obtain ⟨sr, vr⟩ := rr.spec hB (fun s => by simp [sm, sd])
  refine ⟨r, by simp only [Redshift.probabilityA, em, ed, ok_bind, er], sr, fun i j hi hj =>
    ⟨_, _, vd j i hj hi, vm j hj, ?_⟩⟩
  have hin : InShape [n, n] [j, i] := .cons hj (.cons hi .nil)
  rw [vr _ hin]
  have h1 : proj d.shape [j, i] = [j, i] := by rw [sd]; exact proj_inside hin
  have h2 : proj m.shape [j, i] = [j] := by
    rw [sm]
    simp only [proj]
    split_ifs with h
    · have : j = 0 := by omega
      rw [this]
    · rfl
  rw [h1, h2]

/-- **C157**, a column of `n` slopes at any other number of redshifts: `ValueError`. -/
theorem C157_column_raises_partial (b : Backend) {self : Redshift} {c : Cosmology} (hpsi : self.psiOfZ = psiPowerLaw)
    (hcos : self.mixin.cosmo = .fixed c) (hnames : self.mixin.cosmologyNames = []) {n N : ℕ} {z lamb : NArr}
    (hz : z.shape = [N]) (kz : z.kind = .array) (dz : z.dtype = .float) (hl : lamb.shape = [1, n]) (hn : n ≠ 1)
    (hN : N ≠ 1) (hne : N ≠ n) :
    self.probabilityA b (psiPowerLawA b) [("redshift", z)] [("lamb", lamb)] = .error .valueError := by
  obtain ⟨m, em, sm, vm⟩ := norm_table b self hpsi hcos hnames hl
  obtain ⟨d, ed, sd, kd, vd⟩ := diff_table b self hpsi hcos hnames hz kz dz hl
  simp only [Redshift.probabilityA, em, ed, ok_bind, NArr.div, if_neg (fun h : d.kind = .py ∧ _ => kd h.1), NArr.op2,
    NArr.lift2, sd, sm, bshape, if_neg (by tauto : ¬ (N = n ∨ n = 1)), if_neg hN, error_bind]

/-! ### Concrete cases -/

/-- The model with the default settings and a simple cosmology. -/
theorem C157_default : ∃ s, Redshift.powerLaw [("Planck15", .fixed toyCosmology)] 2.3 "Planck15" = .ok s ∧
    s.mixin.cosmo = .fixed toyCosmology ∧ s.mixin.cosmologyNames = [] := by
  refine ⟨⟨⟨"Planck15", [], .fixed toyCosmology⟩, 2.3, Arr.linspaceR 1e-6 2.3 2500, some ["lamb"], psiPowerLaw⟩, ?_,
    rfl, rfl⟩
  simp [Redshift.powerLaw, Redshift.init, CosmoMixin.init, Dict.get, Dict.get?_cons]

theorem plain_lamb {lamb : NArr} (h : lamb.shape = []) : PlainParams [("lamb", lamb)] :=
  ⟨fun k x hx => by
    rw [Dict.get?_cons] at hx
    split_ifs at hx
    · cases hx; exact h
    · simp at hx, by simp [Dict.get?_cons]⟩

/-- Integer redshifts with the slope -1. -/
theorem C157_fails : ¬ C157_statement := by
  intro h
  obtain ⟨s, hs, hcos, hn⟩ := C157_default
  have hps := plain_lamb (lamb := NArr.pyInt (-1)) rfl
  have hc : s.mixin.cosmology (numbersOf [("lamb", NArr.pyInt (-1))]) = .ok toyCosmology := by
    simp [CosmoMixin.cosmology, hcos]
  let z : NArr := ⟨.array, .int, [2], fun idx => fin (idx.headD 0 : ℕ)⟩
  have hz : Data [2] z := ⟨rfl, by simp [z]⟩
  obtain ⟨r, hr, -⟩ := (h _ _ _ s [("lamb", NArr.pyInt (-1))] [("redshift", z)] [2] z toyCosmology hps hc
    (by simp [Dict.get?_cons]) hz).1 (NArr.pyInt (-1)) (fin ((-1 : ℤ) : ℝ)) hs (by simp [Dict.get?_cons]) ⟨rfl, rfl⟩
  rw [C157_integers_raise_partial hs hps hc (by simp [Dict.get?_cons]) hz (lamb := NArr.pyInt (-1))
    (vl := fin ((-1 : ℤ) : ℝ)) (by simp [Dict.get?_cons]) ⟨rfl, rfl⟩ rfl rfl (by simp [Fl.zero_eq])] at hr
  cases hr

/-- Three redshifts. -/
example : ∃ s r, Redshift.powerLaw [("Planck15", .fixed toyCosmology)] 2.3 "Planck15" = .ok s ∧
    s.probabilityA .numpy (psiPowerLawA .numpy) [("redshift", Spec.vec 3 fun i => (1 + i) / 10)]
      [("lamb", pyFloat (fin 2.7))] = .ok r ∧ r.shape = [3] := by
  obtain ⟨s, hs, hcos, hn⟩ := C157_default
  obtain ⟨r, hr, sr, -⟩ := C157_powerLaw_partial .numpy hs (plain_lamb (lamb := pyFloat (fin 2.7)) rfl)
    (c := toyCosmology) (by simp [CosmoMixin.cosmology, hcos])
    (dataset := [("redshift", Spec.vec 3 fun i => (1 + i) / 10)]) (by simp [Dict.get?_cons]; rfl) (data_vec _ _)
    (lamb := pyFloat (fin 2.7)) (vl := fin 2.7) (by simp [Dict.get?_cons]) ⟨rfl, rfl⟩ (Or.inr rfl)
  exact ⟨s, r, hs, hr, sr⟩

/-- Two slopes at two redshifts, and at three. -/
example : ∃ s r, Redshift.powerLaw [("Planck15", .fixed toyCosmology)] 2.3 "Planck15" = .ok s ∧
    s.probabilityA .numpy (psiPowerLawA .numpy) [("redshift", Spec.vec 2 fun i => (1 + i) / 10)]
      [("lamb", Spec.col 2 fun i => i)] = .ok r ∧
    s.probabilityA .numpy (psiPowerLawA .numpy) [("redshift", Spec.vec 3 fun i => (1 + i) / 10)]
      [("lamb", Spec.col 2 fun i => i)] = .error .valueError := by
  obtain ⟨s, hs, hcos, hn⟩ := C157_default
  obtain ⟨r, hr, -⟩ := C157_column_mixes_partial .numpy (powerLaw_psi hs) hcos hn (z := Spec.vec 2 fun i => (1 + i) / 10)
    (lamb := Spec.col 2 fun i => i) rfl rfl rfl rfl
  exact ⟨s, r, hs, hr, C157_column_raises_partial .numpy (powerLaw_psi hs) hcos hn rfl rfl rfl rfl (by simp) (by simp)
    (by simp)⟩

/-- Three redshifts with the model of Madau and Dickinson, hyper-parameters given as Python numbers. -/
example : ∃ s r, Redshift.madauDickinson [("Planck15", .fixed toyCosmology)] true 2.3 "Planck15" = .ok s ∧
    s.probabilityA .numpy (psiMadauDickinsonA .numpy) [("redshift", Spec.vec 3 fun i => (1 + i) / 10)]
      [("gamma", pyFloat (fin 2.7)), ("kappa", NArr.pyInt 5), ("z_peak", NArr.pyInt 2)] = .ok r ∧ r.shape = [3] := by
  have hs : ∃ s, Redshift.madauDickinson [("Planck15", .fixed toyCosmology)] true 2.3 "Planck15" = .ok s ∧
      s.mixin.cosmo = .fixed toyCosmology := by
    refine ⟨⟨⟨"Planck15", [], .fixed toyCosmology⟩, 2.3, Arr.linspaceR 1e-6 2.3 2500,
      some ["gamma", "kappa", "z_peak"], psiMadauDickinson true⟩, ?_, rfl⟩
    simp [Redshift.madauDickinson, Redshift.init, CosmoMixin.init, Dict.get, Dict.get?_cons]
  obtain ⟨s, hs, hcos⟩ := hs
  obtain ⟨r, hr, sr, -⟩ := C157_madauDickinson_partial .numpy true hs
    (parameters := [("gamma", pyFloat (fin 2.7)), ("kappa", NArr.pyInt 5), ("z_peak", NArr.pyInt 2)])
    (c := toyCosmology) (dataset := [("redshift", Spec.vec 3 fun i => (1 + i) / 10)])
    ⟨fun k x hx => by
      simp only [Dict.get?_cons] at hx
      split_ifs at hx
      all_goals first | (cases hx; rfl) | simp at hx, by simp [Dict.get?_cons]⟩
    (by simp [CosmoMixin.cosmology, hcos]) (by simp [Dict.get?_cons]; rfl) (data_vec _ _)
    (gamma := pyFloat (fin 2.7)) (kappa := NArr.pyInt 5) (zPeak := NArr.pyInt 2) (vg := fin 2.7) (vk := fin 5) (vz := fin 2)
    (by simp [Dict.get?_cons]) (by simp [Dict.get?_cons]) (by simp [Dict.get?_cons]) ⟨rfl, rfl⟩
    ⟨rfl, by simp [NArr.pyInt]⟩ ⟨rfl, by simp [NArr.pyInt]⟩ (by simp only [Fl.one_eq, Fl.zero_eq, fin_add]; norm_num [eqf]) (Or.inr rfl)
    (Or.inr (Or.inr ⟨rfl, rfl⟩))
  exact ⟨s, r, hs, hr, sr⟩

end GW
