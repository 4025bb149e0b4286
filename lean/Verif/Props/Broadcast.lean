import Verif.Lemmas.Broadcast
import Verif.Model.ArrayDensities
import Verif.Props.Powerlaw

/-!
# C95: densities act element by element on arrays of any shapes
-/

noncomputable section

open Classical

namespace GW

open Fl NArr

namespace Spec

/-- `S` is the shape to which arrays of the given shapes are broadcast (shapes are written last axis first): every axis
of an operand has length one or the length in `S`, and every axis of `S` comes from some operand. -/
structure BroadcastOf (shapes : List (List ℕ)) (S : List ℕ) : Prop where
  fits : ∀ s ∈ shapes, ∀ (k n : ℕ), s[k]? = some n → k < S.length ∧ (n = 1 ∨ S[k]? = some n)
  tight : ∀ (k n : ℕ), S[k]? = some n → ∃ s ∈ shapes, s[k]? = some n

/-- The index into an operand of shape `s` that belongs to an index of the broadcast shape. -/
def pick (s idx : List ℕ) : List ℕ := List.zipWith (fun n i => if n = 1 then 0 else i) s idx

/-- The element of an operand that belongs to an index of the broadcast shape. -/
def entry (x : NArr) (idx : List ℕ) : Fl := x.elem (pick x.shape idx)

/-- The number that an argument is at an index of the broadcast shape, passed in the same way. -/
def argAt (x : AArg) (idx : List ℕ) : Arg := ⟨entry x.val idx, x.kw⟩

/-- An index of the shape. -/
def InShape (S idx : List ℕ) : Prop := List.Forall₂ (· < ·) idx S

/-- A call with arrays returns an array of shape `S` whose elements are what the calls with the elements of the
arguments return. -/
def ElementWise (call : Except PyErr NArr) (S : List ℕ) (scalar : List ℕ → Except PyErr Fl) : Prop :=
  ∃ r, call = .ok r ∧ r.shape = S ∧ ∀ idx, InShape S idx → scalar idx = .ok (r.elem idx)

/-- An argument as numpy and jax know them: only arrays have axes. -/
def Valid (x : NArr) : Prop := x.kind ≠ .array → x.shape = []

/-- Not the Python number zero, by which Python refuses to divide. -/
def NotPyZero (x : NArr) : Prop := ¬ (x.kind = .py ∧ eqf (x.elem []) 0)

end Spec

open Spec

/-! ### The specification and the model of broadcasting -/

theorem Spec.BroadcastOf.into {shapes : List (List ℕ)} {S : List ℕ} (h : BroadcastOf shapes S) :
    ∀ s ∈ shapes, Into s S := by
  intro s hs
  have := h.fits s hs
  clear hs h
  induction s generalizing S with
  | nil => exact .nil
  | cons n s ih =>
    cases S with
    | nil => exact absurd (this 0 n rfl).1 (by simp)
    | cons m S =>
      have hi : Into s S := ih fun k n hk => by
        have := this (k + 1) n (by simpa using hk)
        simpa using this
      rcases (this 0 n rfl).2 with h | h
      · rw [h]; exact .one hi
      · simp at h; rw [h]; exact .same hi

theorem Into.get {s S : List ℕ} (h : Into s S) (k n : ℕ) (hk : s[k]? = some n) :
    ∃ m, S[k]? = some m ∧ (n = 1 ∨ n = m) := by
  induction h generalizing k with
  | nil => simp at hk
  | @one s S m h ih => cases k with
    | zero => exact ⟨m, rfl, Or.inl (by simpa using hk.symm)⟩
    | succ k => simpa using ih k (by simpa using hk)
  | @same s S m h ih => cases k with
    | zero => exact ⟨m, rfl, Or.inr (by simpa using hk.symm)⟩
    | succ k => simpa using ih k (by simpa using hk)

theorem Spec.BroadcastOf.lub {shapes : List (List ℕ)} {S : List ℕ} (h : BroadcastOf shapes S) : Lub shapes S := by
  refine ⟨h.into, fun T hT => ?_⟩
  have key : ∀ (k n : ℕ), S[k]? = some n → ∃ m, T[k]? = some m ∧ (n = 1 ∨ n = m) := fun k n hk => by
    obtain ⟨s, hs, hsk⟩ := h.tight k n hk
    exact (hT s hs).get k n hsk
  clear h hT
  induction S generalizing T with
  | nil => exact .nil
  | cons n S ih =>
    cases T with
    | nil => obtain ⟨m, hm, -⟩ := key 0 n rfl; simp at hm
    | cons m T =>
      have hi : Into S T := ih T fun k n hk => by simpa using key (k + 1) n (by simpa using hk)
      obtain ⟨m', hm, hn⟩ := key 0 n rfl
      simp at hm
      subst hm
      rcases hn with rfl | rfl
      · exact .one hi
      · exact .same hi

theorem pick_eq_proj {s S idx : List ℕ} (h : Into s S) (hi : InShape S idx) : pick s idx = proj s idx := by
  induction h generalizing idx with
  | nil => simp [pick, proj]
  | one _ ih => cases hi with
    | cons _ hi => simpa [pick, proj] using ih hi
  | same _ ih => cases hi with
    | cons _ hi => simpa [pick, proj] using ih hi

theorem proj_inside {S idx : List ℕ} (hi : InShape S idx) : proj S idx = idx := by
  induction hi with
  | nil => rfl
  | @cons i n idx S hlt _ ih =>
    simp only [proj, ih]
    split_ifs with h
    · have : i = 0 := by omega
      rw [this]
    · rfl

theorem pick_mem {s S idx : List ℕ} (h : Into s S) (hi : InShape S idx) : pick s idx ∈ indices s := by
  induction h generalizing idx with
  | nil => simp [pick, indices]
  | @one s S n _ ih => cases hi with
    | cons _ hi =>
      have := ih hi
      simp only [indices, List.mem_flatMap, List.mem_map, List.mem_range]
      exact ⟨_, this, 0, by norm_num, by simp [pick]⟩
  | @same s S n _ ih => cases hi with
    | @cons i _ _ _ hlt hi =>
      have := ih hi
      simp only [indices, List.mem_flatMap, List.mem_map, List.mem_range]
      refine ⟨_, this, if n = 1 then 0 else i, ?_, by simp [pick]⟩
      split_ifs <;> omega

theorem entry_mem {x : NArr} {S idx : List ℕ} (h : Into x.shape S) (hi : InShape S idx) :
    entry x idx ∈ x.elements :=
  List.mem_map.2 ⟨_, pick_mem h hi, rfl⟩

theorem entry_eq {x : NArr} {S idx : List ℕ} (h : Into x.shape S) (hi : InShape S idx) :
    entry x idx = x.elem (proj x.shape idx) := by
  unfold entry
  rw [pick_eq_proj h hi]

/-- From the representation of the result to the specification. -/
theorem Rep.spec {shapes l : List (List ℕ)} {S : List ℕ} {r : NArr} {g : List ℕ → Fl} (h : Rep S l r g)
    (hS : BroadcastOf shapes S) (hl : ∀ s, s ∈ l ↔ s ∈ shapes) :
    r.shape = S ∧ ∀ idx, InShape S idx → r.elem idx = g idx := by
  have hr : r.shape = S := (h.congr (fun _ => rfl) hl).lub.unique hS.lub
  refine ⟨hr, fun idx hi => ?_⟩
  have := h.elem idx
  rwa [hr, proj_inside hi] at this

/-- `Fl.pow` with exponent two is squaring. -/
theorem pow_fin_two (a : Fl) : Fl.pow a (fin 2) = a ^ 2 := by
  rw [npow_two]
  have hodd : ¬ isOddInt 2 := by
    rintro ⟨n, hn⟩
    have : (2 : ℤ) = 2 * n + 1 := by exact_mod_cast hn.symm
    omega
  cases a with
  | fin x =>
    simp only [Fl.pow, Fl.powFin]
    have h2 : isInt 2 := ⟨2, by norm_num⟩
    split_ifs with h0 hx
    · simp [_root_.pow_two]
    · subst hx; norm_num at *
    · subst hx; norm_num at *
    · norm_num at *
    · simp [_root_.pow_two]
  | pinf => simp [Fl.pow]
  | ninf => simp [Fl.pow, hodd]
  | nan => simp [Fl.pow]

theorem ind_eq_one {p : Prop} : ind p = fin 1 ↔ p := by
  by_cases h : p <;> simp [h]

theorem fin_int_zero : fin ((0 : ℤ) : ℝ) = 0 := by simp
theorem fin_int_one : fin ((1 : ℤ) : ℝ) = 1 := by simp
theorem fin_int_two : fin ((2 : ℤ) : ℝ) = 2 := by simp
theorem fin_int_neg_one : fin ((-1 : ℤ) : ℝ) = -1 := by simp

theorem libKind_array {b : Backend} {s : List ℕ} (hb : b ≠ .jax) (h : libKind b s = .array) : s ≠ [] := by
  intro e
  simp [libKind, hb, e] at h

/-! ### Power laws -/

/-- The steps of `powerlaw` up to the first augmented assignment. -/
theorem powerlaw_steps (b : Backend) {xx alpha high low : NArr} {S : List ℕ}
    (hS : BroadcastOf [xx.shape, alpha.shape, high.shape, low.shape] S)
    (ht : alpha.dtype = .float ∨ (xx.dtype = .float ∧ high.dtype = .float ∧ low.dtype = .float))
    (hh : NotPyZero high) (hl : NotPyZero low) :
    ∃ norm prob mask : NArr,
      powerlawArr b xx alpha high low =
        (do assign b (· * ·) (← assign b (· * ·) prob norm) mask) ∧
      Rep S [alpha.shape, high.shape, low.shape] norm (fun i =>
        let a := alpha.elem (proj alpha.shape i); let h := high.elem (proj high.shape i)
        let l := low.elem (proj low.shape i)
        if eqf a (-1) then 1 / Fl.log (h / l) else (1 + a) / (Fl.pow h (1 + a) - Fl.pow l (1 + a))) ∧
      Rep S [xx.shape, alpha.shape] prob (fun i =>
        Fl.pow (xx.elem (proj xx.shape i)) (alpha.elem (proj alpha.shape i))) ∧
      Rep S [xx.shape, high.shape, low.shape] mask (fun i =>
        ind (xx.elem (proj xx.shape i) ≤ high.elem (proj high.shape i) ∧
          low.elem (proj low.shape i) ≤ xx.elem (proj xx.shape i))) ∧
      prob.kind = libKind b prob.shape ∧ prob.dtype = .float := by
  have rx := Rep.input xx (hS.into _ (by simp))
  have ra := Rep.input alpha (hS.into _ (by simp))
  have rh := Rep.input high (hS.into _ (by simp))
  have rl := Rep.input low (hS.into _ (by simp))
  obtain ⟨c, ec, rc, kc, dc⟩ := ra.array.op2 b (fun _ _ => .bool) (fun a c => ind (eqf a c)) (Rep.pyInt (-1))
  obtain ⟨q, eq, rq, kq, dq⟩ := rh.div b rl (fun h => hl ⟨h.2.1, h.2.2⟩)
  obtain ⟨f, ef, rf, kf, df⟩ := (Rep.pyInt (S := S) 1).div b (rq.fn b Fl.log)
    (by simp only [NArr.fn, NArr.lift1, libKind]; split_ifs <;> simp)
  obtain ⟨i, ei, ri, ki, di⟩ := (Rep.pyInt (S := S) 1).op2 b promote (· + ·) ra
  have hi : alpha.dtype = .float → i.dtype = .float := fun h => by rw [di, h]; rfl
  obtain ⟨ph, eph, rph⟩ := rh.pow b ri (by tauto) (fun h => hh ⟨h.1, h.2.2⟩)
  obtain ⟨pl, epl, rpl⟩ := rl.pow b ri (by tauto) (fun h => hl ⟨h.1, h.2.2⟩)
  obtain ⟨d, ed, rd, -⟩ := rph.op2 b promote (· - ·) rpl
  obtain ⟨s, es, rs, -⟩ := ri.div b rd.array (by simp [NArr.array])
  obtain ⟨norm, en, rn, kn, dn⟩ := rc.where_ rf rs
  obtain ⟨prob, ep, rp, kp, dp⟩ := rx.power b ra (by tauto)
  obtain ⟨m1, em1, rm1, -⟩ := rx.op2 b (fun _ _ => .bool) (fun a c => ind (a ≤ c)) rh
  obtain ⟨m2, em2, rm2, -⟩ := rl.op2 b (fun _ _ => .bool) (fun a c => ind (a ≤ c)) rx
  obtain ⟨mask, em, rm, -⟩ := rm1.op2 b (fun _ _ => .bool) (· * ·) rm2
  refine ⟨norm, prob, mask, ?_, rn.congr ?_ ?_, rp.congr (fun _ => rfl) ?_, rm.congr ?_ ?_, kp, dp⟩
  · simp only [powerlawArr, NArr.eq, NArr.add, NArr.sub, NArr.le, NArr.and, ec, eq, ef, ei, eph, epl, ed, es, en, ep,
      em1, em2, em, ok_bind]
  · intro i
    simp only [ind_eq_one, fin_int_one, fin_int_neg_one]
  · clear * -; intro s; simp; tauto
  · intro s; simp
  · intro i
    simp only [ind_mul_ind]
  · clear * -; intro s; simp; tauto

/-- `powerlaw` on arrays. -/
theorem powerlawArr_rep (b : Backend) {xx alpha high low : NArr} {S P : List ℕ}
    (hS : BroadcastOf [xx.shape, alpha.shape, high.shape, low.shape] S)
    (hP : BroadcastOf [xx.shape, alpha.shape] P)
    (ht : alpha.dtype = .float ∨ (xx.dtype = .float ∧ high.dtype = .float ∧ low.dtype = .float))
    (hh : NotPyZero high) (hl : NotPyZero low) (hok : b = .jax ∨ P = [] ∨ P = S) :
    ∃ r, powerlawArr b xx alpha high low = .ok r ∧ r.shape = S ∧ (∀ idx, InShape S idx →
      powerlawBody false (entry xx idx) (entry alpha idx) (entry high idx) (entry low idx) = .ok (r.elem idx)) ∧
      r.kind ≠ .py := by
  obtain ⟨norm, prob, mask, e, rn, rp, rm, kp, dp⟩ := powerlaw_steps b hS ht hh hl
  have hprob : prob.shape = P := rp.lub.unique hP.lub
  have hprob' : b = .jax ∨ prob.kind ≠ .array ∨ Into norm.shape prob.shape := by
    by_cases hb : b = .jax
    · exact Or.inl hb
    · rcases hok with h | h | h
      · exact Or.inl h
      · exact Or.inr (Or.inl fun hk => libKind_array hb (kp.symm.trans hk) (hprob.trans h))
      · refine Or.inr (Or.inr ?_)
        rw [hprob, h]
        exact rn.into
  obtain ⟨p1, e1, r1, d1, k1⟩ := rp.assign b (· * ·) rn (Or.inr dp) hprob'
  have hp1 : p1.shape = S := by
    refine (r1.congr (l' := [xx.shape, alpha.shape, high.shape, low.shape]) (fun _ => rfl) ?_).lub.unique hS.lub
    intro s; simp
  obtain ⟨p2, e2, r2, -, k2⟩ := r1.assign b (· * ·) rm (Or.inr (by rw [d1, dp]; cases norm.dtype <;> rfl))
    (Or.inr (Or.inr (by rw [hp1]; exact rm.into)))
  obtain ⟨hs, hv⟩ := r2.spec hS (by clear * -; intro s; simp; tauto)
  have hpy : ∀ s, libKind b s ≠ .py := fun s => by unfold libKind; split_ifs <;> simp
  refine ⟨p2, by rw [e, e1, ok_bind, e2], hs, fun idx hi => ?_, k2 (k1 (by rw [kp]; exact hpy _))⟩
  rw [hv idx hi, entry_eq (x := xx) (hS.into _ (by simp)) hi, entry_eq (x := alpha) (hS.into _ (by simp)) hi,
    entry_eq (x := high) (hS.into _ (by simp)) hi, entry_eq (x := low) (hS.into _ (by simp)) hi]
  simp only [Bool.false_eq_true, false_and, if_false, powerlawBody, pyDiv, pyPow, pure_eq_ok, ok_bind]

/-- On numpy, `powerlaw` fails if the broadcast shape of the data and the exponent is neither empty nor the full
broadcast shape. -/
theorem powerlawArr_fails (b : Backend) {xx alpha high low : NArr} {S P : List ℕ}
    (hS : BroadcastOf [xx.shape, alpha.shape, high.shape, low.shape] S)
    (hP : BroadcastOf [xx.shape, alpha.shape] P)
    (ht : alpha.dtype = .float ∨ (xx.dtype = .float ∧ high.dtype = .float ∧ low.dtype = .float))
    (hh : NotPyZero high) (hl : NotPyZero low) (hb : b ≠ .jax) (h0 : P ≠ []) (h1 : P ≠ S) :
    powerlawArr b xx alpha high low = .error .valueError := by
  obtain ⟨norm, prob, mask, e, rn, rp, rm, kp, dp⟩ := powerlaw_steps b hS ht hh hl
  have hprob : prob.shape = P := rp.lub.unique hP.lub
  have hk : prob.kind = .array := by
    rw [kp, libKind, if_neg]
    rw [hprob]
    tauto
  rw [e, rp.assign_fails b (· * ·) rn hb hk dp]
  · rfl
  · intro hin
    refine h1 (hprob ▸ rp.into |>.antisymm ?_)
    refine hS.lub.2 _ fun s hs => ?_
    simp only [List.mem_cons, List.not_mem_nil, or_false] at hs
    rw [← hprob]
    rcases hs with rfl | rfl | rfl | rfl
    · exact rp.lub.1 _ (by simp)
    · exact rp.lub.1 _ (by simp)
    · exact (rn.lub.1 _ (by simp)).trans hin
    · exact (rn.lub.1 _ (by simp)).trans hin

/-! ### Truncated normals -/

theorem logsubexp_rep (b : Backend) {S : List ℕ} {l m : List (List ℕ)} {x y : NArr} {g h : List ℕ → Fl}
    (hx : Rep S l x g) (hy : Rep S m y h) :
    ∃ r, logsubexpArr b x y = .ok r ∧ Rep S (l ++ m) r (fun i => logsubexp (g i) (h i)) := by
  obtain ⟨d, ed, rd, -⟩ := hy.op2 b promote (· - ·) hx
  obtain ⟨s, es, rs, -⟩ := (Rep.pyInt (S := S) 1).op2 b promote (· - ·) (rd.fn b Fl.exp)
  obtain ⟨r, er, rr, -⟩ := hx.op2 b promote (· + ·) (rs.fn b Fl.log)
  refine ⟨r, by simp only [logsubexpArr, NArr.add, NArr.sub, ed, es, er, ok_bind], rr.congr (fun i => ?_) ?_⟩
  · simp only [logsubexp, fin_int_one]
  · clear * -; intro s; simp; tauto

theorem truncnorm_steps (b : Backend) {xx mu sigma high low : NArr} {S : List ℕ}
    (hS : BroadcastOf [xx.shape, mu.shape, sigma.shape, high.shape, low.shape] S) :
    ∃ logPdf logNorm mask1 mask2 : NArr,
      truncnormArr b xx mu sigma high low = (do
        let l ← assign b (· - ·) logPdf logNorm
        let p ← mul b (NArr.fn b nanToNum (NArr.fn b Fl.exp l)) mask1
        mul b p mask2) ∧
      Rep S [xx.shape, mu.shape, sigma.shape] logPdf (fun i =>
        let x := xx.elem (proj xx.shape i); let m := mu.elem (proj mu.shape i)
        let s := sigma.elem (proj sigma.shape i);
        -(((x - m) / s) ^ 2) / 2 - Fl.log (2 * fin Real.pi) / 2 - Fl.log s) ∧
      Rep S [mu.shape, sigma.shape, high.shape, low.shape] logNorm (fun i =>
        let m := mu.elem (proj mu.shape i); let s := sigma.elem (proj sigma.shape i)
        let aa := (low.elem (proj low.shape i) - m) / s; let bb := (high.elem (proj high.shape i) - m) / s
        if bb ≤ 0 then logsubexp (logNdtr bb) (logNdtr aa)
        else if 0 < aa then logsubexp (logNdtr (-aa)) (logNdtr (-bb))
        else if 0 < bb then log1p (-(ndtr aa) - ndtr (-bb))
        else nan) ∧
      Rep S [xx.shape, low.shape] mask1 (fun i => ind (low.elem (proj low.shape i) ≤ xx.elem (proj xx.shape i))) ∧
      Rep S [xx.shape, high.shape] mask2 (fun i => ind (xx.elem (proj xx.shape i) ≤ high.elem (proj high.shape i))) ∧
      logPdf.kind = libKind b logPdf.shape ∧ logPdf.dtype = .float := by
  have rx := Rep.input xx (hS.into _ (by simp))
  have rm := Rep.input mu (hS.into _ (by simp))
  have rs := Rep.input sigma (hS.into _ (by simp))
  have rh := Rep.input high (hS.into _ (by simp))
  have rl := Rep.input low (hS.into _ (by simp))
  obtain ⟨dx, edx, rdx, -⟩ := rx.op2 b promote (· - ·) rm
  obtain ⟨zz, ezz, rzz, kzz, dzz⟩ := rdx.array.div b rs (by simp [NArr.array])
  obtain ⟨dl, edl, rdl, -⟩ := rl.op2 b promote (· - ·) rm
  obtain ⟨aa, eaa, raa, kaa, daa⟩ := rdl.array.div b rs (by simp [NArr.array])
  obtain ⟨dh, edh, rdh, -⟩ := rh.op2 b promote (· - ·) rm
  obtain ⟨bb, ebb, rbb, kbb, dbb⟩ := rdh.array.div b rs (by simp [NArr.array])
  obtain ⟨sq, esq, rsq, ksq, dsq⟩ := rzz.square b (Or.inl dzz)
  have kzz' : zz.kind ≠ .py := by
    rw [kzz]; simp only [NArr.array, libKind]; split_ifs <;> simp_all
  rw [if_neg kzz'] at ksq
  have hpy : ∀ s, libKind b s ≠ .py := fun s => by unfold libKind; split_ifs <;> simp
  obtain ⟨t1, et1, rt1, kt1, dt1⟩ := (rsq.neg b).div b (Rep.pyFloat (S := S) (fin 2))
    (by rintro ⟨-, -, h⟩; norm_num [NArr.pyFloat, eqf] at h)
  obtain ⟨t2, et2, rt2, kt2, dt2⟩ := (Rep.pyFloat (S := S) (Fl.log (2 * fin Real.pi))).div b
    (Rep.pyFloat (S := S) (fin 2)) (by rintro ⟨-, -, h⟩; norm_num [NArr.pyFloat, eqf] at h)
  obtain ⟨t3, et3, rt3, kt3, dt3⟩ := rt1.op2 b promote (· - ·) rt2
  obtain ⟨t4, et4, rt4, kt4, dt4⟩ := rt3.op2 b promote (· - ·) (rs.fn b Fl.log)
  obtain ⟨c1, ec1, rc1, -⟩ := rbb.op2 b (fun _ _ => .bool) (fun a c => ind (a ≤ c)) (Rep.pyInt (S := S) 0)
  obtain ⟨c2, ec2, rc2, -⟩ := (Rep.pyInt (S := S) 0).op2 b (fun _ _ => .bool) (fun a c => ind (a < c)) raa
  obtain ⟨c3, ec3, rc3, -⟩ := (Rep.pyInt (S := S) 0).op2 b (fun _ _ => .bool) (fun a c => ind (a < c)) rbb
  obtain ⟨v1, ev1, rv1⟩ := logsubexp_rep b (rbb.fn b logNdtr) (raa.fn b logNdtr)
  obtain ⟨v2, ev2, rv2⟩ := logsubexp_rep b ((raa.neg b).fn b logNdtr) ((rbb.neg b).fn b logNdtr)
  obtain ⟨v3, ev3, rv3, -⟩ := ((raa.fn b ndtr).neg b).op2 b promote (· - ·) ((rbb.neg b).fn b ndtr)
  obtain ⟨w3, ew3, rw3, -⟩ := rc3.where_ (rv3.fn b log1p) (Rep.pyFloat (S := S) nan)
  obtain ⟨w2, ew2, rw2, -⟩ := rc2.where_ rv2 rw3
  obtain ⟨w1, ew1, rw1, kw1, -⟩ := rc1.where_ rv1 rw2
  obtain ⟨m1, em1, rm1, -⟩ := rl.op2 b (fun _ _ => .bool) (fun a c => ind (a ≤ c)) rx
  obtain ⟨m2, em2, rm2, -⟩ := rx.op2 b (fun _ _ => .bool) (fun a c => ind (a ≤ c)) rh
  refine ⟨t4, w1, m1, m2, ?_, rt4.congr (fun i => ?_) ?_, rw1.congr (fun i => ?_) ?_, rm1.congr (fun _ => rfl) ?_,
    rm2.congr (fun _ => rfl) ?_, ?_, ?_⟩
  · simp only [truncnormArr, NArr.sub, NArr.le, NArr.lt, edx, ezz, edl, eaa, edh, ebb, esq, et1, et2, et3, et4, ec1,
      ec2, ec3, ev1, ev2, ev3, em1, em2, NArr.select, ew1, ew2, ew3, lit, ok_bind]
  · simp only [pow_fin_two, ofNat_eq]
  · clear * -; intro s; simp
  · simp only [ind_eq_one, fin_int_zero]
  · clear * -; intro s; simp; tauto
  · clear * -; intro s; simp; tauto
  · clear * -; intro s; simp
  · rw [kt4, if_neg]
    rintro ⟨-, h⟩
    exact hpy _ h
  · rw [dt4, dt3, dt1]; rfl

/-- `truncnorm` on arrays. -/
theorem truncnormArr_rep (b : Backend) {xx mu sigma high low : NArr} {S P : List ℕ}
    (hS : BroadcastOf [xx.shape, mu.shape, sigma.shape, high.shape, low.shape] S)
    (hP : BroadcastOf [xx.shape, mu.shape, sigma.shape] P) (hok : b = .jax ∨ P = [] ∨ P = S) :
    ∃ r, truncnormArr b xx mu sigma high low = .ok r ∧ r.shape = S ∧ ∀ idx, InShape S idx →
      truncnormBody (entry xx idx) (entry mu idx) (entry sigma idx) (entry high idx) (entry low idx) =
        r.elem idx := by
  obtain ⟨logPdf, logNorm, m1, m2, e, rp, rn, rm1, rm2, kp, dp⟩ := truncnorm_steps b hS
  have hprob : logPdf.shape = P := rp.lub.unique hP.lub
  have hprob' : b = .jax ∨ logPdf.kind ≠ .array ∨ Into logNorm.shape logPdf.shape := by
    by_cases hb : b = .jax
    · exact Or.inl hb
    · rcases hok with h | h | h
      · exact Or.inl h
      · exact Or.inr (Or.inl fun hk => libKind_array hb (kp.symm.trans hk) (hprob.trans h))
      · refine Or.inr (Or.inr ?_)
        rw [hprob, h]
        exact rn.into
  obtain ⟨p1, e1, r1, -⟩ := rp.assign b (· - ·) rn (Or.inr dp) hprob'
  obtain ⟨p2, e2, r2, -⟩ := ((r1.fn b Fl.exp).fn b nanToNum).op2 b promote (· * ·) rm1
  obtain ⟨p3, e3, r3, -⟩ := r2.op2 b promote (· * ·) rm2
  obtain ⟨hs, hv⟩ := r3.spec hS (by clear * -; intro s; simp; tauto)
  refine ⟨p3, by rw [e, e1, ok_bind, NArr.mul, e2, ok_bind, NArr.mul, e3], hs, fun idx hi => ?_⟩
  rw [hv idx hi, entry_eq (x := xx) (hS.into _ (by simp)) hi, entry_eq (x := mu) (hS.into _ (by simp)) hi,
    entry_eq (x := sigma) (hS.into _ (by simp)) hi,
    entry_eq (x := high) (hS.into _ (by simp)) hi, entry_eq (x := low) (hS.into _ (by simp)) hi]
  rfl

/-- On numpy, `truncnorm` fails if the broadcast shape of the data, mean and width is neither empty nor the full
broadcast shape. -/
theorem truncnormArr_fails (b : Backend) {xx mu sigma high low : NArr} {S P : List ℕ}
    (hS : BroadcastOf [xx.shape, mu.shape, sigma.shape, high.shape, low.shape] S)
    (hP : BroadcastOf [xx.shape, mu.shape, sigma.shape] P) (hb : b ≠ .jax) (h0 : P ≠ []) (h1 : P ≠ S) :
    truncnormArr b xx mu sigma high low = .error .valueError := by
  obtain ⟨logPdf, logNorm, m1, m2, e, rp, rn, rm1, rm2, kp, dp⟩ := truncnorm_steps b hS
  have hprob : logPdf.shape = P := rp.lub.unique hP.lub
  have hk : logPdf.kind = .array := by
    rw [kp, libKind, if_neg]
    rw [hprob]
    exact fun h => h0 h.2
  rw [e, rp.assign_fails b (· - ·) rn hb hk dp]
  · rfl
  · intro hin
    refine h1 (hprob ▸ rp.into |>.antisymm ?_)
    refine hS.lub.2 _ fun s hs => ?_
    simp only [List.mem_cons, List.not_mem_nil, or_false] at hs
    rw [← hprob]
    rcases hs with rfl | rfl | rfl | rfl | rfl
    · exact rp.lub.1 _ (by simp)
    · exact rp.lub.1 _ (by simp)
    · exact rp.lub.1 _ (by simp)
    · exact (rn.lub.1 _ (by simp)).trans hin
    · exact (rn.lub.1 _ (by simp)).trans hin

/-! ### Beta, von Mises and Gaussian functions -/

/-- `beta_dist` on arrays. -/
theorem betaDistArr_rep (junk : Fl → Fl → Fl) (b : Backend) {xx alpha beta scale : NArr} {S : List ℕ}
    (hS : BroadcastOf [xx.shape, alpha.shape, beta.shape, scale.shape] S) :
    ∃ r, betaDistArr junk b xx alpha beta scale = .ok r ∧ r.shape = S ∧ ∀ idx, InShape S idx →
      betaDistBody junk (entry xx idx) (entry alpha idx) (entry beta idx) (entry scale idx) = r.elem idx := by
  have rx := Rep.input xx (hS.into _ (by simp))
  have ra := Rep.input alpha (hS.into _ (by simp))
  have rb := Rep.input beta (hS.into _ (by simp))
  have rs := Rep.input scale (hS.into _ (by simp))
  obtain ⟨a1, ea1, ra1, -⟩ := ra.op2 b promote (· - ·) (Rep.pyInt (S := S) 1)
  obtain ⟨t1, et1, rt1, kt1, dt1⟩ := ra1.op2 b promote (· * ·) (rx.fn b Fl.log)
  obtain ⟨b1, eb1, rb1, -⟩ := rb.op2 b promote (· - ·) (Rep.pyInt (S := S) 1)
  obtain ⟨c1, ec1, rc1, -⟩ := rs.op2 b promote (· - ·) rx
  obtain ⟨t2, et2, rt2, kt2, dt2⟩ := rb1.op2 b promote (· * ·) (rc1.fn b Fl.log)
  obtain ⟨l0, el0, rl0, kl0, dl0⟩ := rt1.op2 b promote (· + ·) rt2
  obtain ⟨bl, ebl, rbl, -⟩ := ra.lift2 b (fun _ _ => .float) (betaln junk) rb
  obtain ⟨s1, es1, rs1, -⟩ := ra.op2 b promote (· + ·) rb
  obtain ⟨s2, es2, rs2, -⟩ := rs1.op2 b promote (· - ·) (Rep.pyInt (S := S) 1)
  obtain ⟨s3, es3, rs3, -⟩ := rs2.op2 b promote (· * ·) (rs.fn b Fl.log)
  obtain ⟨m1, em1, rm1, -⟩ := (Rep.pyInt (S := S) 0).op2 b (fun _ _ => .bool) (fun a c => ind (a ≤ c)) rx
  obtain ⟨m2, em2, rm2, -⟩ := rx.op2 b (fun _ _ => .bool) (fun a c => ind (a ≤ c)) rs
  obtain ⟨m, em, rm, -⟩ := rm1.op2 b promote (· * ·) rm2
  have hfl : ∀ d, promote d .float = .float := fun d => by cases d <;> rfl
  have hd : l0.dtype = .float := by
    rw [dl0, dt1]
    simp only [NArr.fn, NArr.lift1, hfl]
    rfl
  have hl0 : l0.shape = S := by
    refine (rl0.congr (l' := [xx.shape, alpha.shape, beta.shape, scale.shape]) (fun _ => rfl) ?_).lub.unique hS.lub
    clear * -; intro s; simp; tauto
  obtain ⟨l1, el1, rl1, dl1, -⟩ := rl0.assign b (· - ·) rbl (Or.inr hd) (Or.inr (Or.inr (by rw [hl0]; exact rbl.into)))
  have hd1 : l1.dtype = .float := by rw [dl1, hd]; rfl
  have hl1 : l1.shape = S := by
    refine (rl1.congr (l' := [xx.shape, alpha.shape, beta.shape, scale.shape]) (fun _ => rfl) ?_).lub.unique hS.lub
    clear * -; intro s; simp; tauto
  obtain ⟨l2, el2, rl2, dl2, -⟩ := rl1.assign b (· - ·) rs3 (Or.inr hd1)
    (Or.inr (Or.inr (by rw [hl1]; exact rs3.into)))
  have hl2 : l2.shape = S := by
    refine (rl2.congr (l' := [xx.shape, alpha.shape, beta.shape, scale.shape]) (fun _ => rfl) ?_).lub.unique hS.lub
    clear * -; intro s; simp; tauto
  obtain ⟨r, er, rr, -⟩ := ((rl2.fn b Fl.exp).fn b nanToNum).assign b (· * ·) rm (Or.inr rfl)
    (Or.inr (Or.inr (by
      show Into m.shape l2.shape
      rw [hl2]; exact rm.into)))
  obtain ⟨hs, hv⟩ := rr.spec hS (by clear * -; intro s; simp; tauto)
  refine ⟨r, ?_, hs, fun idx hi => ?_⟩
  · simp only [betaDistArr, NArr.sub, NArr.mul, NArr.add, NArr.le, NArr.fn2, ea1, et1, eb1, ec1, et2, el0, ebl, es1,
      es2, es3, em1, em2, em, el1, el2, er, ok_bind]
  · rw [hv idx hi, entry_eq (x := xx) (hS.into _ (by simp)) hi, entry_eq (x := alpha) (hS.into _ (by simp)) hi,
      entry_eq (x := beta) (hS.into _ (by simp)) hi, entry_eq (x := scale) (hS.into _ (by simp)) hi]
    simp only [betaDistBody, fin_int_zero, fin_int_one]

/-- `von_mises` on arrays. -/
theorem vonMisesArr_rep (b : Backend) {xx mu kappa : NArr} {S : List ℕ}
    (hS : BroadcastOf [xx.shape, mu.shape, kappa.shape] S) :
    ∃ r, vonMisesArr b xx mu kappa = .ok r ∧ r.shape = S ∧ ∀ idx, InShape S idx →
      vonMises (entry xx idx) (entry mu idx) (entry kappa idx) = r.elem idx := by
  have rx := Rep.input xx (hS.into _ (by simp))
  have rm := Rep.input mu (hS.into _ (by simp))
  have rk := Rep.input kappa (hS.into _ (by simp))
  obtain ⟨d1, ed1, rd1, -⟩ := rx.op2 b promote (· - ·) rm
  obtain ⟨c, ec, rc, -⟩ := (rd1.fn b Fl.cos).op2 b promote (· - ·) (Rep.pyInt (S := S) 1)
  obtain ⟨d, ed, rd, kd, -⟩ := (Rep.pyFloat (S := S) (2 * fin Real.pi)).op2 b promote (· * ·) (rk.fn b i0e)
  obtain ⟨p, ep, rp, -⟩ := rk.op2 b promote (· * ·) rc
  have hpy : ∀ s, libKind b s ≠ .py := fun s => by unfold libKind; split_ifs <;> simp
  obtain ⟨r, er, rr, -⟩ := (rp.fn b Fl.exp).div b rd (fun h => hpy _ h.1)
  obtain ⟨hs, hv⟩ := rr.spec hS (by clear * -; intro s; simp; tauto)
  refine ⟨r, ?_, hs, fun idx hi => ?_⟩
  · simp only [vonMisesArr, NArr.sub, NArr.mul, ed1, ec, ed, ep, er, ok_bind]
  · rw [hv idx hi, entry_eq (x := xx) (hS.into _ (by simp)) hi, entry_eq (x := mu) (hS.into _ (by simp)) hi,
      entry_eq (x := kappa) (hS.into _ (by simp)) hi]
    simp only [vonMises, fin_int_one]

/-- `unnormalized_2d_gaussian` on arrays. -/
theorem unnormalized2dGaussianArr_rep (b : Backend) {xx yy muX muY sigmaX sigmaY cov : NArr} {S : List ℕ}
    (hS : BroadcastOf [xx.shape, yy.shape, muX.shape, muY.shape, sigmaX.shape, sigmaY.shape, cov.shape] S)
    (hx : xx.kind ≠ .py) (hsx : sigmaX.dtype = .float) (hsy : sigmaY.dtype = .float) :
    ∃ r, unnormalized2dGaussianArr b xx yy muX muY sigmaX sigmaY cov = .ok r ∧ r.shape = S ∧
      ∀ idx, InShape S idx →
        unnormalized2dGaussian (entry xx idx) (entry yy idx) (entry muX idx) (entry muY idx) (entry sigmaX idx)
          (entry sigmaY idx) (entry cov idx) = r.elem idx := by
  have rx := Rep.input xx (hS.into _ (by simp))
  have ry := Rep.input yy (hS.into _ (by simp))
  have rmx := Rep.input muX (hS.into _ (by simp))
  have rmy := Rep.input muY (hS.into _ (by simp))
  have rsx := Rep.input sigmaX (hS.into _ (by simp))
  have rsy := Rep.input sigmaY (hS.into _ (by simp))
  have rc := Rep.input cov (hS.into _ (by simp))
  have hpy : ∀ s, libKind b s ≠ .py := fun s => by unfold libKind; split_ifs <;> simp
  have hfl : ∀ d, promote d .float = .float := fun d => by cases d <;> rfl
  obtain ⟨s1, es1, rs1, -⟩ := rsx.square b (Or.inl hsx)
  obtain ⟨s2, es2, rs2, -⟩ := rsy.square b (Or.inl hsy)
  obtain ⟨s3, es3, rs3, -⟩ := rs1.op2 b promote (· * ·) rs2
  obtain ⟨c1, ec1, rc1, -⟩ := (Rep.pyInt (S := S) 1).op2 b promote (· - ·) rc
  obtain ⟨dd, edd, rdd, -⟩ := rs3.op2 b promote (· * ·) rc1
  obtain ⟨x1, ex1, rx1, kx1, dx1⟩ := rmx.op2 b promote (· - ·) rx
  obtain ⟨x2, ex2, rx2, kx2, dx2⟩ := rx1.op2 b promote (· * ·) rsy
  obtain ⟨y1, ey1, ry1, ky1, dy1⟩ := rmy.op2 b promote (· - ·) ry
  obtain ⟨y2, ey2, ry2, ky2, dy2⟩ := ry1.op2 b promote (· * ·) rsx
  have hx1 : x1.kind ≠ .py := by rw [kx1, if_neg (fun h => hx h.2)]; exact hpy _
  have hx2 : x2.kind ≠ .py := by rw [kx2, if_neg (fun h => hx1 h.1)]; exact hpy _
  have hdx2 : x2.dtype = .float := by rw [dx2, hsy, hfl]
  have hdy2 : y2.dtype = .float := by rw [dy2, hsx, hfl]
  obtain ⟨k1, ek1, rk1, -⟩ := (Rep.pyInt (S := S) 2).op2 b promote (· * ·) rx2
  obtain ⟨k2, ek2, rk2, -⟩ := rk1.op2 b promote (· * ·) ry2
  obtain ⟨k3, ek3, rk3, -⟩ := rk2.op2 b promote (· * ·) rc
  obtain ⟨q1, eq1, rq1, kq1, -⟩ := rx2.square b (Or.inl hdx2)
  obtain ⟨q2, eq2, rq2, -⟩ := ry2.square b (Or.inl hdy2)
  obtain ⟨q3, eq3, rq3, kq3, -⟩ := rq1.op2 b promote (· + ·) rq2
  obtain ⟨q4, eq4, rq4, kq4, -⟩ := rq3.op2 b promote (· - ·) rk3
  have hq1 : q1.kind ≠ .py := by rw [kq1, if_neg hx2]; exact hpy _
  have hq3 : q3.kind ≠ .py := by rw [kq3, if_neg (fun h => hq1 h.1)]; exact hpy _
  have hq4 : q4.kind ≠ .py := by rw [kq4, if_neg (fun h => hq3 h.1)]; exact hpy _
  have hq5 : (NArr.neg b q4).kind ≠ .py := by
    show (if q4.kind = .py then Kind.py else libKind b q4.shape) ≠ .py
    rw [if_neg hq4]; exact hpy _
  obtain ⟨u1, eu1, ru1, ku1, -⟩ := (rq4.neg b).div b (Rep.pyInt (S := S) 2) (fun h => hq5 h.1)
  have hu1 : u1.kind ≠ .py := by rw [ku1, if_neg (fun h => hq5 h.1)]; exact hpy _
  obtain ⟨u2, eu2, ru2, -⟩ := ru1.div b rdd (fun h => hu1 h.1)
  obtain ⟨hs, hv⟩ := (ru2.fn b Fl.exp).spec hS (by clear * -; intro s; simp; tauto)
  refine ⟨_, ?_, hs, fun idx hi => ?_⟩
  · simp only [unnormalized2dGaussianArr, NArr.sub, NArr.mul, NArr.add, es1, es2, es3, ec1, edd, ex1, ex2, ey1, ey2,
      ek1, ek2, ek3, eq1, eq2, eq3, eq4, eu1, eu2, ok_bind, pure_eq_ok]
  · rw [hv idx hi, entry_eq (x := xx) (hS.into _ (by simp)) hi, entry_eq (x := yy) (hS.into _ (by simp)) hi,
      entry_eq (x := muX) (hS.into _ (by simp)) hi, entry_eq (x := muY) (hS.into _ (by simp)) hi,
      entry_eq (x := sigmaX) (hS.into _ (by simp)) hi, entry_eq (x := sigmaY) (hS.into _ (by simp)) hi,
      entry_eq (x := cov) (hS.into _ (by simp)) hi]
    simp only [unnormalized2dGaussian, fin_int_one, fin_int_two, pow_fin_two]

/-! ### Conditions on keyword arguments -/

theorem get?_mem {β : Type} {d : Dict β} {k : String} {v : β} (h : Dict.get? d k = some v) : (k, v) ∈ d := by
  induction d with
  | nil => simp [Dict.get?] at h
  | cons p d ih =>
    obtain ⟨k', v'⟩ := p
    rw [Dict.get?_cons] at h
    split_ifs at h with hk
    · cases h
      subst hk
      simp
    · exact List.mem_cons_of_mem _ (ih h)

theorem akwargs_get {l : List (String × AArg)} {k : String} {v : List Fl} (h : Dict.get? (akwargs l) k = some v) :
    ∃ x, (k, x) ∈ l ∧ v = x.val.elements := by
  have := get?_mem h
  simp only [akwargs, List.mem_map, List.mem_filter, Prod.mk.injEq] at this
  obtain ⟨p, ⟨hp, -⟩, hk, hv⟩ := this
  exact ⟨p.2, hk ▸ hp, hv.symm⟩

theorem kwargsOf_get {l : List (String × Arg)} {k : String} {v : List Fl} (h : Dict.get? (kwargsOf l) k = some v) :
    ∃ x, (k, x) ∈ l ∧ v = [x.val] := by
  have := get?_mem h
  simp only [kwargsOf, List.mem_map, List.mem_filter, Prod.mk.injEq] at this
  obtain ⟨p, ⟨hp, -⟩, hk, hv⟩ := this
  exact ⟨p.2, hk ▸ hp, hv.symm⟩

/-! ### The property -/

/-- A finite-or-not floating-point argument of a density: a Python float, a numpy scalar or an array of floats. -/
def Spec.FloatArg (x : AArg) : Prop := Valid x.val ∧ x.val.dtype = .float

/-- **C95.** Every density of `utils.py`, called with floats and arrays of floats whose shapes can be broadcast
together and whose parameters satisfy the documented conditions, returns the array of the broadcast shape whose elements
are the densities of the elements of the arguments. -/
def C95_statement : Prop :=
  ∀ (b : Backend) (junk : Fl → Fl → Fl), b ≠ .cupy →
    (∀ (xx alpha high low : AArg) (S : List ℕ), FloatArg xx → FloatArg alpha → FloatArg high → FloatArg low →
      BroadcastOf [xx.val.shape, alpha.val.shape, high.val.shape, low.val.shape] S →
      (∀ a ∈ alpha.val.elements, ¬ eqf a 1) → (∀ l ∈ low.val.elements, 0 ≤ l) →
      NotPyZero high.val → NotPyZero low.val →
      ElementWise (powerlawA b xx alpha high low) S fun i =>
        powerlaw b false (argAt xx i) (argAt alpha i) (argAt high i) (argAt low i)) ∧
    (∀ (xx mu sigma high low : AArg) (S : List ℕ), FloatArg xx → FloatArg mu → FloatArg sigma → FloatArg high →
      FloatArg low → BroadcastOf [xx.val.shape, mu.val.shape, sigma.val.shape, high.val.shape, low.val.shape] S →
      (∀ s ∈ sigma.val.elements, 0 < s) →
      ElementWise (truncnormA b xx mu sigma high low) S fun i =>
        truncnorm b (argAt xx i) (argAt mu i) (argAt sigma i) (argAt high i) (argAt low i)) ∧
    (∀ (xx alpha beta scale : AArg) (S : List ℕ), FloatArg xx → FloatArg alpha → FloatArg beta → FloatArg scale →
      BroadcastOf [xx.val.shape, alpha.val.shape, beta.val.shape, scale.val.shape] S →
      (∀ a ∈ alpha.val.elements, 0 < a) → (∀ a ∈ beta.val.elements, 0 < a) → (∀ a ∈ scale.val.elements, 0 < a) →
      ElementWise (betaDistA junk b xx alpha beta scale) S fun i =>
        betaDist junk b (argAt xx i) (argAt alpha i) (argAt beta i) (argAt scale i)) ∧
    (∀ (xx mu kappa : AArg) (S : List ℕ), FloatArg xx → FloatArg mu → FloatArg kappa →
      BroadcastOf [xx.val.shape, mu.val.shape, kappa.val.shape] S →
      ElementWise (vonMisesArr b xx.val mu.val kappa.val) S fun i =>
        .ok (vonMises (entry xx.val i) (entry mu.val i) (entry kappa.val i)))

/-- **C95**, beta distribution: all shapes, all backends, integers as well as floats. -/
theorem C95_betaDist_partial (b : Backend) (junk : Fl → Fl → Fl) {xx alpha beta scale : AArg} {S : List ℕ}
    (hS : BroadcastOf [xx.val.shape, alpha.val.shape, beta.val.shape, scale.val.shape] S)
    (ha : ∀ a ∈ alpha.val.elements, 0 < a) (hb : ∀ a ∈ beta.val.elements, 0 < a)
    (hs : ∀ a ∈ scale.val.elements, 0 < a) :
    ElementWise (betaDistA junk b xx alpha beta scale) S fun i =>
      betaDist junk b (argAt xx i) (argAt alpha i) (argAt beta i) (argAt scale i) := by
  obtain ⟨r, hr, hsh, hv⟩ := betaDistArr_rep junk b hS
  refine ⟨r, ?_, hsh, fun idx hi => ?_⟩
  · rw [betaDistA, C02_applyConditions_spec, if_neg, hr]
    rintro ⟨-, kc, hkc, v, hg, hn⟩
    obtain ⟨x, hx, rfl⟩ := akwargs_get hg
    simp only [List.mem_cons, List.not_mem_nil, or_false] at hkc
    rcases hkc with rfl | rfl | rfl <;> simp at hx <;> subst hx
    exacts [hn ha, hn hb, hn hs]
  · beta_reduce
    rw [betaDist, C02_applyConditions_spec, if_neg]
    · exact congrArg _ (hv idx hi)
    rintro ⟨-, kc, hkc, v, hg, hn⟩
    obtain ⟨x, hx, rfl⟩ := kwargsOf_get hg
    have ma := entry_mem (x := alpha.val) (hS.into _ (by simp)) hi
    have mb := entry_mem (x := beta.val) (hS.into _ (by simp)) hi
    have ms := entry_mem (x := scale.val) (hS.into _ (by simp)) hi
    simp only [List.mem_cons, List.not_mem_nil, or_false] at hkc
    rcases hkc with rfl | rfl | rfl <;> simp at hx <;> subst hx
    exacts [hn (by simpa [Spec.condHolds, opGt, argAt] using ha _ ma),
      hn (by simpa [Spec.condHolds, opGt, argAt] using hb _ mb),
      hn (by simpa [Spec.condHolds, opGt, argAt] using hs _ ms)]

/-- **C95**, von Mises distribution: all shapes, all backends, integers as well as floats. -/
theorem C95_vonMises_partial (b : Backend) {xx mu kappa : NArr} {S : List ℕ}
    (hS : BroadcastOf [xx.shape, mu.shape, kappa.shape] S) :
    ElementWise (vonMisesArr b xx mu kappa) S fun i =>
      .ok (vonMises (entry xx i) (entry mu i) (entry kappa i)) := by
  obtain ⟨r, hr, hsh, hv⟩ := vonMisesArr_rep b hS
  exact ⟨r, hr, hsh, fun idx hi => congrArg _ (hv idx hi)⟩

/-- **C95**, two-dimensional Gaussian: all shapes and backends, for data that are not Python numbers. -/
theorem C95_gaussian2d_partial (b : Backend) {xx yy muX muY sigmaX sigmaY cov : NArr} {S : List ℕ}
    (hS : BroadcastOf [xx.shape, yy.shape, muX.shape, muY.shape, sigmaX.shape, sigmaY.shape, cov.shape] S)
    (hx : xx.kind ≠ .py) (hsx : sigmaX.dtype = .float) (hsy : sigmaY.dtype = .float) :
    ElementWise (unnormalized2dGaussianArr b xx yy muX muY sigmaX sigmaY cov) S fun i =>
      .ok (unnormalized2dGaussian (entry xx i) (entry yy i) (entry muX i) (entry muY i) (entry sigmaX i)
        (entry sigmaY i) (entry cov i)) := by
  obtain ⟨r, hr, hsh, hv⟩ := unnormalized2dGaussianArr_rep b hS hx hsx hsy
  exact ⟨r, hr, hsh, fun idx hi => congrArg _ (hv idx hi)⟩

theorem powerlawA_body (b : Backend) {xx alpha high low : AArg} (ha : ∀ a ∈ alpha.val.elements, ¬ eqf a 1)
    (hl : ∀ l ∈ low.val.elements, 0 ≤ l) :
    powerlawA b xx alpha high low = powerlawArr b xx.val alpha.val high.val low.val := by
  rw [powerlawA, C02_applyConditions_spec, if_neg]
  rintro ⟨-, kc, hkc, v, hg, hn⟩
  obtain ⟨x, hx, rfl⟩ := akwargs_get hg
  simp only [List.mem_cons, List.not_mem_nil, or_false] at hkc
  rcases hkc with rfl | rfl <;> simp at hx <;> subst hx
  exacts [hn hl, hn ha]

theorem truncnormA_body (b : Backend) {xx mu sigma high low : AArg} (hs : ∀ s ∈ sigma.val.elements, 0 < s) :
    truncnormA b xx mu sigma high low = truncnormArr b xx.val mu.val sigma.val high.val low.val := by
  rw [truncnormA, C02_applyConditions_spec, if_neg]
  rintro ⟨-, kc, hkc, v, hg, hn⟩
  obtain ⟨x, hx, rfl⟩ := akwargs_get hg
  simp only [List.mem_cons, List.not_mem_nil, or_false] at hkc
  rcases hkc with rfl; simp at hx; subst hx
  exact hn hs

/-- **C95**, power law: on jax for all shapes; on numpy if the data and the exponent together have no axes or all the
axes of the result. Integers may be used for everything but the exponent, or for the exponent alone. -/
theorem C95_powerlaw_partial (b : Backend) {xx alpha high low : AArg} {S P : List ℕ}
    (hS : BroadcastOf [xx.val.shape, alpha.val.shape, high.val.shape, low.val.shape] S)
    (hP : BroadcastOf [xx.val.shape, alpha.val.shape] P) (hok : b = .jax ∨ P = [] ∨ P = S)
    (ht : alpha.val.dtype = .float ∨
      (xx.val.dtype = .float ∧ high.val.dtype = .float ∧ low.val.dtype = .float))
    (ha : ∀ a ∈ alpha.val.elements, ¬ eqf a 1) (hl : ∀ l ∈ low.val.elements, 0 ≤ l)
    (hh0 : NotPyZero high.val) (hl0 : NotPyZero low.val) :
    ElementWise (powerlawA b xx alpha high low) S fun i =>
      powerlaw b false (argAt xx i) (argAt alpha i) (argAt high i) (argAt low i) := by
  obtain ⟨r, hr, hsh, hv, -⟩ := powerlawArr_rep b hS hP ht hh0 hl0 hok
  refine ⟨r, by rw [powerlawA_body b ha hl, hr], hsh, fun idx hi => ?_⟩
  beta_reduce
  unfold powerlaw
  rw [C02_applyConditions_spec, if_neg]
  · exact hv idx hi
  rintro ⟨-, kc, hkc, v, hg, hn⟩
  obtain ⟨x, hx, rfl⟩ := kwargsOf_get hg
  have ma := entry_mem (x := alpha.val) (hS.into _ (by simp)) hi
  have ml := entry_mem (x := low.val) (hS.into _ (by simp)) hi
  simp only [List.mem_cons, List.not_mem_nil, or_false] at hkc
  rcases hkc with rfl | rfl <;> simp at hx <;> subst hx
  exacts [hn (by simpa [Spec.condHolds, opGe, argAt] using hl _ ml),
    hn (by simpa [Spec.condHolds, opNe, argAt] using ha _ ma)]

/-- **C95**, power law: on numpy, `ValueError` in all other cases. -/
theorem C95_powerlaw_raises_partial (b : Backend) (hb : b ≠ .jax) {xx alpha high low : AArg} {S P : List ℕ}
    (hS : BroadcastOf [xx.val.shape, alpha.val.shape, high.val.shape, low.val.shape] S)
    (hP : BroadcastOf [xx.val.shape, alpha.val.shape] P) (h0 : P ≠ []) (h1 : P ≠ S)
    (ht : alpha.val.dtype = .float ∨
      (xx.val.dtype = .float ∧ high.val.dtype = .float ∧ low.val.dtype = .float))
    (ha : ∀ a ∈ alpha.val.elements, ¬ eqf a 1) (hl : ∀ l ∈ low.val.elements, 0 ≤ l)
    (hh0 : NotPyZero high.val) (hl0 : NotPyZero low.val) :
    powerlawA b xx alpha high low = .error .valueError := by
  rw [powerlawA_body b ha hl, powerlawArr_fails b hS hP ht hh0 hl0 hb h0 h1]

/-- **C95**, truncated normal: on jax for all shapes; on numpy if data, mean and width together have no axes or all the
axes of the result. Integers as well as floats. -/
theorem C95_truncnorm_partial (b : Backend) {xx mu sigma high low : AArg} {S P : List ℕ}
    (hS : BroadcastOf [xx.val.shape, mu.val.shape, sigma.val.shape, high.val.shape, low.val.shape] S)
    (hP : BroadcastOf [xx.val.shape, mu.val.shape, sigma.val.shape] P) (hok : b = .jax ∨ P = [] ∨ P = S)
    (hs : ∀ s ∈ sigma.val.elements, 0 < s) :
    ElementWise (truncnormA b xx mu sigma high low) S fun i =>
      truncnorm b (argAt xx i) (argAt mu i) (argAt sigma i) (argAt high i) (argAt low i) := by
  obtain ⟨r, hr, hsh, hv⟩ := truncnormArr_rep b hS hP hok
  refine ⟨r, by rw [truncnormA_body b hs, hr], hsh, fun idx hi => ?_⟩
  beta_reduce
  unfold truncnorm
  rw [C02_applyConditions_spec, if_neg]
  · exact congrArg _ (hv idx hi)
  rintro ⟨-, kc, hkc, v, hg, hn⟩
  obtain ⟨x, hx, rfl⟩ := kwargsOf_get hg
  have ms := entry_mem (x := sigma.val) (hS.into _ (by simp)) hi
  simp only [List.mem_cons, List.not_mem_nil, or_false] at hkc
  rcases hkc with rfl; simp at hx; subst hx
  exact hn (by simpa [Spec.condHolds, opGt, argAt] using hs _ ms)

/-- **C95**, truncated normal: on numpy, `ValueError` in all other cases. -/
theorem C95_truncnorm_raises_partial (b : Backend) (hb : b ≠ .jax) {xx mu sigma high low : AArg} {S P : List ℕ}
    (hS : BroadcastOf [xx.val.shape, mu.val.shape, sigma.val.shape, high.val.shape, low.val.shape] S)
    (hP : BroadcastOf [xx.val.shape, mu.val.shape, sigma.val.shape] P) (h0 : P ≠ []) (h1 : P ≠ S)
    (hs : ∀ s ∈ sigma.val.elements, 0 < s) :
    truncnormA b xx mu sigma high low = .error .valueError := by
  rw [truncnormA_body b hs, truncnormArr_fails b hS hP hb h0 h1]

/-- One axis of length `n` and the value at each position. -/
def Spec.vec (n : ℕ) (f : ℕ → ℝ) : NArr := ⟨.array, .float, [n], fun i => fin (f (i.headD 0))⟩

/-- A column: two axes, the last of length one. -/
def Spec.col (n : ℕ) (f : ℕ → ℝ) : NArr := ⟨.array, .float, [1, n], fun i => fin (f ((i.drop 1).headD 0))⟩

theorem bshape_tight {s t u : List ℕ} (h : bshape s t = some u) (k n : ℕ) (hk : u[k]? = some n) :
    s[k]? = some n ∨ t[k]? = some n := by
  induction s generalizing t u k with
  | nil => simp [bshape] at h; subst h; exact Or.inr hk
  | cons a s ih => cases t with
    | nil => simp [bshape] at h; subst h; exact Or.inl hk
    | cons c t =>
      unfold bshape at h
      split_ifs at h with h1 h2
      all_goals
        obtain ⟨v, hv, rfl⟩ := Option.map_eq_some_iff.1 h
        cases k with
        | zero => simp at hk; subst hk; simp
        | succ k => simpa using ih hv k (by simpa using hk)

/-- Shapes that can be stretched to a common shape can be broadcast together. -/
theorem exists_broadcastOf {shapes : List (List ℕ)} {S : List ℕ} (h : ∀ s ∈ shapes, Into s S) :
    ∃ P, BroadcastOf shapes P ∧ Into P S := by
  induction shapes with
  | nil => exact ⟨[], ⟨by simp, by simp⟩, .nil⟩
  | cons s l ih =>
    obtain ⟨P, hP, hPS⟩ := ih fun t ht => h t (List.mem_cons_of_mem _ ht)
    obtain ⟨u, hu, huS, hsu, hPu⟩ := bshape_of_into (h s (by simp)) hPS
    refine ⟨u, ⟨fun t ht k n hk => ?_, fun k n hk => ?_⟩, huS⟩
    · have hi : Into t u := by
        rcases List.mem_cons.1 ht with rfl | ht
        · exact hsu
        · exact (hP.into t ht).trans hPu
      obtain ⟨m, hm, hn⟩ := hi.get k n hk
      refine ⟨(List.getElem?_eq_some_iff.1 hm).1, hn.imp_right fun h => by rw [h]; exact hm⟩
    · rcases bshape_tight hu k n hk with h1 | h1
      · exact ⟨s, by simp, h1⟩
      · obtain ⟨t, ht, htk⟩ := hP.tight k n h1
        exact ⟨t, List.mem_cons_of_mem _ ht, htk⟩

/-- Shapes: a row of three data, scalars, and a column of two bounds. -/
theorem broadcast_row_col : BroadcastOf [[3], [], [1, 2], []] [3, 2] := by
  refine ⟨?_, ?_⟩
  · intro s hs k n hk
    simp only [List.mem_cons, List.not_mem_nil, or_false] at hs
    rcases hs with rfl | rfl | rfl | rfl
    · match k with
      | 0 => simp at hk; subst hk; simp
      | k + 1 => simp at hk
    · simp at hk
    · match k with
      | 0 => simp at hk; subst hk; simp
      | 1 => simp at hk; subst hk; simp
      | k + 2 => simp at hk
    · simp at hk
  · intro k n hk
    match k with
    | 0 => simp at hk; subst hk; exact ⟨[3], by simp, rfl⟩
    | 1 => simp at hk; subst hk; exact ⟨[1, 2], by simp, rfl⟩
    | k + 2 => simp at hk

theorem broadcast_row : BroadcastOf [[3], []] [3] := by
  refine ⟨?_, ?_⟩
  · intro s hs k n hk
    simp only [List.mem_cons, List.not_mem_nil, or_false] at hs
    rcases hs with rfl | rfl
    · match k with
      | 0 => simp at hk; subst hk; simp
      | k + 1 => simp at hk
    · simp at hk
  · intro k n hk
    match k with
    | 0 => simp at hk; subst hk; exact ⟨[3], by simp, rfl⟩
    | k + 1 => simp at hk

/-- **C95** is false: on numpy, `powerlaw(xx, alpha=-2.0, high=[[50.0], [60.0]], low=5.0)` with three data raises
`ValueError`, because the product with the normalisation is formed in the array of the powers. -/
theorem C95_fails : ¬ C95_statement := by
  intro h
  have h1 := (h .numpy (fun _ _ => nan) (by simp)).1 ⟨Spec.vec 3 fun i => 10 + i, false⟩ ⟨pyFloat (fin (-2)), true⟩
    ⟨Spec.col 2 fun i => 50 + 10 * i, true⟩ ⟨pyFloat (fin 5), true⟩ [3, 2]
    ⟨by simp [Valid, Spec.vec], rfl⟩ ⟨fun _ => rfl, rfl⟩ ⟨by simp [Valid, Spec.col], rfl⟩ ⟨fun _ => rfl, rfl⟩
    broadcast_row_col (by norm_num [pyFloat, elements, indices, eqf]) (by simp [pyFloat, elements, indices, Fl.zero_eq])
    (by simp [NotPyZero, Spec.col]) (by norm_num [NotPyZero, pyFloat, eqf])
  obtain ⟨r, hr, -⟩ := h1
  rw [C95_powerlaw_raises_partial .numpy (by simp) (S := [3, 2]) (P := [3]) broadcast_row_col broadcast_row
    (by simp) (by simp) (Or.inl rfl) (by norm_num [pyFloat, elements, indices, eqf])
    (by simp [pyFloat, elements, indices, Fl.zero_eq]) (by simp [NotPyZero, Spec.col])
    (by norm_num [NotPyZero, pyFloat, eqf])] at hr
  cases hr

/-- The same call on jax succeeds and gives a two by three array. -/
example : ∃ r, powerlawA .jax ⟨Spec.vec 3 fun i => 10 + i, false⟩ ⟨pyFloat (fin (-2)), true⟩
    ⟨Spec.col 2 fun i => 50 + 10 * i, true⟩ ⟨pyFloat (fin 5), true⟩ = .ok r ∧ r.shape = [3, 2] := by
  obtain ⟨r, h, hs, -⟩ := C95_powerlaw_partial .jax (xx := ⟨Spec.vec 3 fun i => 10 + i, false⟩)
    (alpha := ⟨pyFloat (fin (-2)), true⟩) (high := ⟨Spec.col 2 fun i => 50 + 10 * i, true⟩)
    (low := ⟨pyFloat (fin 5), true⟩) broadcast_row_col broadcast_row (Or.inl rfl) (Or.inl rfl)
    (by norm_num [pyFloat, elements, indices, eqf]) (by simp [pyFloat, elements, indices, Fl.zero_eq])
    (by simp [NotPyZero, Spec.col]) (by norm_num [NotPyZero, pyFloat, eqf])
  exact ⟨r, h, hs⟩

/-- A scalar among scalars, on numpy: `powerlaw(10.0, alpha=-2.0, high=[50.0, 60.0, 70.0], low=5.0)` has three
elements, since the product of a number and an array is a new array. -/
example : ∃ r, powerlawA .numpy ⟨pyFloat (fin 10), false⟩ ⟨pyFloat (fin (-2)), true⟩
    ⟨Spec.vec 3 fun i => 50 + 10 * i, true⟩ ⟨pyFloat (fin 5), true⟩ = .ok r ∧ r.shape = [3] := by
  have hS : BroadcastOf [[], [], [3], []] [3] := by
    have := broadcast_row
    exact ⟨fun s hs => this.fits s (by simp at hs ⊢; tauto), fun k n hk => ⟨[3], by simp, hk⟩⟩
  have hP : BroadcastOf [[], []] [] := ⟨by simp, by simp⟩
  obtain ⟨r, h, hs, -⟩ := C95_powerlaw_partial .numpy (xx := ⟨pyFloat (fin 10), false⟩)
    (alpha := ⟨pyFloat (fin (-2)), true⟩) (high := ⟨Spec.vec 3 fun i => 50 + 10 * i, true⟩)
    (low := ⟨pyFloat (fin 5), true⟩) hS hP (Or.inr (Or.inl rfl)) (Or.inl rfl)
    (by norm_num [pyFloat, elements, indices, eqf]) (by simp [pyFloat, elements, indices, Fl.zero_eq])
    (by simp [NotPyZero, Spec.vec]) (by norm_num [NotPyZero, pyFloat, eqf])
  exact ⟨r, h, hs⟩

theorem broadcast_row_scalars (n k : ℕ) : BroadcastOf ([n] :: List.replicate k []) [n] := by
  refine ⟨?_, ?_⟩
  · intro s hs j m hj
    rcases List.mem_cons.1 hs with rfl | hs
    · match j with
      | 0 => simp at hj; subst hj; simp
      | j + 1 => simp at hj
    · rw [List.eq_of_mem_replicate hs] at hj
      simp at hj
  · intro j m hj
    exact ⟨[n], by simp, hj⟩

/-- The usual call: an array of data and Python floats. -/
example (b : Backend) : ∃ r, truncnormA b ⟨Spec.vec 3 fun i => 10 + i, false⟩ ⟨pyFloat (fin 11), true⟩
    ⟨pyFloat (fin 2), true⟩ ⟨pyFloat (fin 50), true⟩ ⟨pyFloat (fin 5), true⟩ = .ok r ∧ r.shape = [3] := by
  obtain ⟨r, h, hs, -⟩ := C95_truncnorm_partial b (xx := ⟨Spec.vec 3 fun i => 10 + i, false⟩)
    (mu := ⟨pyFloat (fin 11), true⟩) (sigma := ⟨pyFloat (fin 2), true⟩) (high := ⟨pyFloat (fin 50), true⟩)
    (low := ⟨pyFloat (fin 5), true⟩) (broadcast_row_scalars 3 4) (broadcast_row_scalars 3 2) (Or.inr (Or.inr rfl))
    (by simp [pyFloat, elements, indices, Fl.zero_eq])
  exact ⟨r, h, hs⟩

/-- `truncnorm(xx, mu=11.0, sigma=2.0, high=[[50.0], [60.0]], low=5.0)` raises on numpy. -/
example : truncnormA .numpy ⟨Spec.vec 3 fun i => 10 + i, false⟩ ⟨pyFloat (fin 11), true⟩ ⟨pyFloat (fin 2), true⟩
    ⟨Spec.col 2 fun i => 50 + 10 * i, true⟩ ⟨pyFloat (fin 5), true⟩ = .error .valueError := by
  have hS : BroadcastOf [[3], [], [], [1, 2], []] [3, 2] := by
    have := broadcast_row_col
    exact ⟨fun s hs => this.fits s (by simpa using hs), fun k n hk => by
      obtain ⟨s, hs, h⟩ := this.tight k n hk
      exact ⟨s, by simpa using hs, h⟩⟩
  exact C95_truncnorm_raises_partial .numpy (by simp) hS (broadcast_row_scalars 3 2) (by simp) (by simp)
    (by simp [pyFloat, elements, indices, Fl.zero_eq])

/-- Beta and von Mises distributions of a row of data, with a column of parameters. -/
example (b : Backend) (junk : Fl → Fl → Fl) :
    (∃ r, betaDistA junk b ⟨Spec.vec 3 fun i => i / 3, false⟩ ⟨pyFloat (fin 2), true⟩
      ⟨Spec.col 2 fun i => 1 + i, true⟩ ⟨pyInt 1, true⟩ = .ok r ∧ r.shape = [3, 2]) ∧
    ∃ r, vonMisesArr b (Spec.vec 3 fun i => i / 3) (pyFloat (fin 2)) (Spec.vec 3 fun i => i) = .ok r ∧
      r.shape = [3] := by
  refine ⟨?_, ?_⟩
  · obtain ⟨r, h, hs, -⟩ := C95_betaDist_partial b junk (xx := ⟨Spec.vec 3 fun i => i / 3, false⟩)
      (alpha := ⟨pyFloat (fin 2), true⟩) (beta := ⟨Spec.col 2 fun i => 1 + i, true⟩) (scale := ⟨pyInt 1, true⟩)
      broadcast_row_col (by simp [pyFloat, elements, indices, Fl.zero_eq])
      (by
        simp only [elements, Spec.col, List.mem_map]
        rintro a ⟨i, -, rfl⟩
        simp only [Fl.zero_eq, fin_lt]
        positivity)
      (by simp [pyInt, elements, indices, Fl.zero_eq])
    exact ⟨r, h, hs⟩
  · have hS : BroadcastOf [[3], [], [3]] [3] := by
      have := broadcast_row
      exact ⟨fun s hs => this.fits s (by simp at hs ⊢; tauto), fun k n hk => ⟨[3], by simp, hk⟩⟩
    obtain ⟨r, h, hs, -⟩ := C95_vonMises_partial b (xx := Spec.vec 3 fun i => i / 3) (mu := pyFloat (fin 2))
      (kappa := Spec.vec 3 fun i => i) hS
    exact ⟨r, h, hs⟩

/-- The two-dimensional Gaussian of a row and a column. -/
example (b : Backend) : ∃ r, unnormalized2dGaussianArr b (Spec.vec 3 fun i => i) (Spec.col 2 fun i => i)
    (pyFloat (fin 0)) (pyFloat (fin 0)) (pyFloat (fin 1)) (pyFloat (fin 1)) (pyFloat (fin (1 / 2))) = .ok r ∧
    r.shape = [3, 2] := by
  have hS : BroadcastOf [[3], [1, 2], [], [], [], [], []] [3, 2] := by
    have := broadcast_row_col
    exact ⟨fun s hs => this.fits s (by simp at hs ⊢; tauto), fun k n hk => by
      obtain ⟨s, hs, h⟩ := this.tight k n hk
      exact ⟨s, by simp at hs ⊢; tauto, h⟩⟩
  obtain ⟨r, h, hs, -⟩ := C95_gaussian2d_partial b (xx := Spec.vec 3 fun i => i) (yy := Spec.col 2 fun i => i)
    (muX := pyFloat (fin 0)) (muY := pyFloat (fin 0)) (sigmaX := pyFloat (fin 1)) (sigmaY := pyFloat (fin 1))
    (cov := pyFloat (fin (1 / 2))) hS (by simp [Spec.vec]) rfl rfl
  exact ⟨r, h, hs⟩

end GW
