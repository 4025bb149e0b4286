import Verif.Props.Resampling
import Verif.Props.GridVT

/-!
# C32, C38, C40: what the constructors of the selection functions accept and assume
-/

noncomputable section

open Classical

namespace GW

open Fl Spec

/-- **C32.** The analysis time is the entry `analysis_time` of the injections if there is one, and one
year otherwise. Without a redshift model the surveyed hypervolume is the four-volume for that time. -/
theorem C32_analysis_time {backend planck15 model data nEvents marg enf self d}
    (hself : ResamplingVT.init backend planck15 model data nEvents marg enf = .ok (self, d))
    (hm : ∀ r, Component.redshift r ∉ model.models) (parameters : Dict Fl) :
    (data.get? "analysis_time" = none →
      self.surveyedHypervolume parameters = .ok (totalFourVolume planck15 0 1)) ∧
    (∀ py t, data.get? "analysis_time" = some (.num py t) →
      self.surveyedHypervolume parameters = .ok (totalFourVolume planck15 0 t)) := by
  have hh := (C32_hypervolume hself parameters).1 hm
  unfold ResamplingVT.init at hself
  obtain ⟨pr, -, h⟩ := bind_eq_ok.1 hself
  obtain ⟨n, -, h⟩ := bind_eq_ok.1 h
  obtain ⟨t, -, h⟩ := bind_eq_ok.1 h
  obtain ⟨a, ha, h⟩ := bind_eq_ok.1 h
  rw [pure_eq_ok] at h
  have h1 := (Prod.mk.inj (Except.ok.inj h)).1
  have h2 : self.analysisTime = a.2 := by rw [← h1]
  rw [h2] at hh
  constructor
  · intro h0
    simp only [getNumber, h0, Except.ok.injEq] at ha
    rw [hh, ← ha]
  · intro py t h0
    simp only [getNumber, h0, Except.ok.injEq] at ha
    rw [hh, ← ha]

/-- Without any redshift model and analysis time, and with `total_generated` given or not. -/
example (backend : Backend) (planck15 : Cosmology) :
    ∃ self, ResamplingVT.init backend planck15 ⟨[.other], fun _ _ => .ok []⟩
      [("prior", .arr [fin 1, fin 2])] = .ok (self, [("prior", .arr [fin 1, fin 2])]) ∧
      self.surveyedHypervolume [] = .ok (totalFourVolume planck15 0 1) := by
  have h : ∃ self, ResamplingVT.init backend planck15 ⟨[.other], fun _ _ => .ok []⟩
      [("prior", .arr [fin 1, fin 2])] = .ok (self, [("prior", .arr [fin 1, fin 2])]) :=
    ⟨_, by simp [ResamplingVT.init, Dict.get, Dict.get?_cons, getNumber, Value.len, pure_eq_ok]; rfl⟩
  obtain ⟨self, hs⟩ := h
  exact ⟨self, hs, (C32_analysis_time hs (by simp) []).1 (by simp [Dict.get?_cons])⟩

/-- **C40.** What the constructor needs: an array `prior`, also if `total_generated` is given. Without the
entry it raises `KeyError`, with a number `TypeError`; with an array it succeeds as long as
`total_generated` and `analysis_time`, if given, are numbers. -/
theorem C40_construct (backend : Backend) (planck15 : Cosmology)
    (model : PopModel (Dict Value) (List Fl)) (data : Dict Value) (nEvents : Fl) (marg enf : Bool) :
    (data.get? "prior" = none →
      ResamplingVT.init backend planck15 model data nEvents marg enf = .error (.keyError "prior")) ∧
    (∀ py x, data.get? "prior" = some (.num py x) →
      ResamplingVT.init backend planck15 model data nEvents marg enf = .error .typeError) ∧
    (∀ l, data.get? "prior" = some (.arr l) →
      (∀ l', data.get? "total_generated" ≠ some (.arr l')) →
      (∀ l', data.get? "analysis_time" ≠ some (.arr l')) →
      ∃ self, ResamplingVT.init backend planck15 model data nEvents marg enf = .ok (self, data)) := by
  refine ⟨fun h => ?_, fun py x h => ?_, fun l h h1 h2 => ?_⟩
  · unfold ResamplingVT.init
    simp only [Dict.get, h]
    rfl
  · unfold ResamplingVT.init
    simp only [Dict.get, h, ok_bind]
    rfl
  · have hn : ∀ key dflt, (∀ l', data.get? key ≠ some (.arr l')) →
        ∃ v, getNumber data key dflt = .ok v := by
      intro key dflt hk
      unfold getNumber
      cases hd : data.get? key with
      | none => exact ⟨_, rfl⟩
      | some v => cases v with
        | num py x => exact ⟨_, rfl⟩
        | arr l' => exact absurd hd (hk l')
    obtain ⟨v1, hv1⟩ := hn "total_generated" (true, (l.length : Fl)) h1
    obtain ⟨v2, hv2⟩ := hn "analysis_time" (true, 1) h2
    unfold ResamplingVT.init
    simp only [Dict.get, h, ok_bind, Value.len, hv1, hv2, pure_eq_ok]
    exact ⟨_, rfl⟩

/-- **C38, what is missing, exactly, for two parameters.** On a product grid of two parameters with equally
many values, the call returns an array along the first axis: only the second axis has been integrated, and
the coordinates used for it are those of the parameter listed last in the dictionary, be it the
parameter of the second axis or not. -/
theorem C38_square {ka kb k : String} {x y z : List ℝ} {data : Dict ND}
    {model : PopModel (Dict ND) ND} {vts p : ND} {P V : List ℕ → ℝ} {parameters : Dict Fl}
    (hlen : x.length = y.length) (hg : ProductGrid [(ka, x), (kb, y)] data)
    (hlast : (data.keys.filter (· ≠ "vt")).getLast? = some k)
    (hz : (k = ka ∧ z = x) ∨ (k = kb ∧ z = y))
    (hvt : data.get? "vt" = some vts) (hvs : vts.shape = [x.length, y.length])
    (hV : ∀ idx, Inside idx [x.length, y.length] → vts.at_ idx = fin (V idx))
    (hp : model.prob (data.erase "vt") parameters = .ok p) (hps : p.shape = [x.length, y.length])
    (hP : ∀ idx, Inside idx [x.length, y.length] → p.at_ idx = fin (P idx)) :
    ∃ self d r, GridVT.init model data = .ok (self, d) ∧ self.call parameters = .ok r ∧
      r.shape = [x.length] ∧ ∀ i, i < x.length → r.at_ [i] =
        fin (trapezoidRule (z.length - 1) (fun j => P [i, j] * V [i, j]) (fun j => z.getD j 0)) := by
  have hkeys : ("vt" :: [ka, kb]).Nodup := hg.keys.nodup_iff.1 hg.nodup
  have hek : (data.erase "vt").keys.Perm [ka, kb] := by
    rw [Dict.keys_erase]
    have h1 := hg.keys.filter (fun k => decide (k ≠ "vt"))
    refine h1.trans ?_
    simp at hkeys
    simp [Ne.symm hkeys.1.1, Ne.symm hkeys.1.2]
  have hend : (data.erase "vt").keys.Nodup := hek.nodup_iff.2 (List.nodup_cons.1 hkeys).2
  have hentry : ∀ q ∈ data.erase "vt", q.2.shape = [x.length, y.length] ∧
      ((q.1 = ka ∧ q.2.unique = x.map fin) ∨ (q.1 = kb ∧ q.2.unique = y.map fin)) := by
    intro q hq
    have hk : q.1 ∈ [ka, kb] := hek.mem_iff.1 (List.mem_map_of_mem (f := Prod.fst) hq)
    have hq' : (data.erase "vt").get? q.1 = some q.2 := (Dict.mem_iff_get? hend _ _).1 hq
    have hne : q.1 ≠ "vt" := by
      rintro h
      rw [h] at hk
      exact (List.nodup_cons.1 hkeys).1 hk
    rw [Dict.get?_erase, if_neg hne] at hq'
    have aux : ∀ (i : ℕ) (hi : i < 2), q.1 = ([(ka, x), (kb, y)] : List (String × List ℝ))[i].1 →
        q.2.shape = [x.length, y.length] ∧ q.2.unique =
          (([(ka, x), (kb, y)] : List (String × List ℝ))[i].2).map fin := by
      intro i hi he
      obtain ⟨a, ha, hs, hat⟩ := hg.coords i hi
      rw [← he, hq'] at ha
      have ha := Option.some.inj ha
      rw [← ha] at hs hat
      exact ⟨by simpa using hs,
        ND.unique_coords hg.pos hi (hg.increasing _ (List.getElem_mem _)) hs hat⟩
    simp only [List.mem_cons, List.not_mem_nil, or_false] at hk
    rcases hk with hk | hk
    · have := aux 0 (by norm_num) hk
      exact ⟨this.1, .inl ⟨hk, this.2⟩⟩
    · have := aux 1 (by norm_num) hk
      exact ⟨this.1, .inr ⟨hk, this.2⟩⟩
  have hl2 : (data.erase "vt").length = 2 := by
    simpa [Dict.keys] using hek.length_eq
  obtain ⟨q1, q2, hL⟩ := List.length_eq_two.1 hl2
  have h1 := hentry q1 (by rw [hL]; simp)
  have h2 := hentry q2 (by rw [hL]; simp)
  have hu : ∀ q ∈ [q1, q2], q.2.unique.length = x.length := by
    intro q hq
    rcases (hentry q (by rw [hL]; exact hq)).2 with h | h <;> rw [h.2] <;> simp [hlen]
  have hk2 : q2.1 = k := by
    rw [← Dict.keys_erase, hL] at hlast
    simpa [Dict.keys] using hlast
  have hu2 : q2.2.unique = z.map fin := by
    rw [← hk2] at hz
    have hab : ka ≠ kb := by simp at hkeys; exact hkeys.2
    rcases h2.2 with h | h <;> rcases hz with h' | h'
    · rw [h.2, h'.2]
    · exact absurd (h.1.symm.trans h'.1) hab
    · exact absurd (h'.1.symm.trans h.1) hab
    · rw [h.2, h'.2]
  have hne12 : q1.1 ≠ q2.1 := by
    rw [hL] at hend
    simpa [Dict.keys] using hend
  have hfirst : ∀ q ∈ [q1, q2], GridVT.firstAxis [x.length, y.length] q.2.unique.length = .ok 0 := by
    intro q hq
    unfold GridVT.firstAxis
    rw [hu q hq, if_pos (by simp)]
    simp
  have hfs : GridVT.firstShape [q1, q2] = .ok [x.length, y.length] := congrArg Except.ok h1.1
  have hfind : GridVT.findAxes [x.length, y.length] ([q1, q2].map fun q => (q.1, q.2.unique)) [] =
      .ok [(0, k)] := by
    unfold GridVT.findAxes
    simp only [List.map_cons, List.map_nil, List.foldlM_cons, List.foldlM_nil,
      hfirst q1 (by simp), hfirst q2 (by simp), ok_bind, pure_eq_ok, axesSet, if_true, hk2]
  have hinit : GridVT.init model data = .ok (⟨vts, model, [q1, q2],
      [q1, q2].map fun q => (q.1, q.2.unique), [(0, k)], 1⟩, [q1, q2]) := by
    unfold GridVT.init
    simp only [Dict.get, hvt, ok_bind, hL, hfs, hfind, pure_eq_ok, List.length_singleton]
  have hzl : z.length = y.length := by rcases hz with h | h <;> rw [h.2]; exact hlen
  obtain ⟨w, hw, hws, hwv⟩ := trapzLast_eq (xs := [x]) (x := z)
    (v := ⟨p.shape, fun i => p.at_ i * vts.at_ i⟩) (F := fun idx => P idx * V idx)
    (by simp [hps, hzl]) (by
      intro idx hidx
      have : Inside idx [x.length, y.length] := by simpa [hzl] using hidx
      simp only
      rw [hP idx this, hV idx this, fin_mul])
  refine ⟨_, _, w, hinit, ?_, by simpa using hws, ?_⟩
  · unfold GridVT.call
    simp only
    rw [← hL, hp, ok_bind]
    unfold ND.mul
    rw [if_pos (by rw [hps, hvs]), ok_bind, List.range_one, List.foldlM_cons]
    unfold GridVT.step
    have hget : Dict.get (List.map (fun q => (q.1, q.2.unique)) (data.erase "vt")) k = .ok (z.map fin) := by
      have hne : k ≠ q1.1 := fun h => hne12 (h ▸ hk2).symm
      simp only [hL, List.map_cons, List.map_nil, Dict.get, Dict.get?_cons, hne, hk2, hu2, if_false, if_true]
    simp only [Nat.sub_zero, Nat.sub_self, List.lookup_cons_self, hget, ok_bind, hw]
    rfl
  · intro i hi
    rw [hwv [i] (by simpa [Inside] using hi)]
    rfl

/-- Non-vacuity: two parameters with two values each; the dictionary lists the parameter of the first axis
last, so its coordinates (0 and 5) are used for the second axis (0 and 1): the result is five times too
large even as an integral over the second axis only. -/
example : ∃ self d r, GridVT.init ⟨[], fun _ _ => .ok ⟨[2, 2], fun _ => fin 1⟩⟩
      [("vt", ⟨[2, 2], fun _ => fin 1⟩), ("b", ⟨[2, 2], fun idx => fin ([0, 1].getD (idx.getD 1 0) 0)⟩),
        ("a", ⟨[2, 2], fun idx => fin ([0, 5].getD (idx.getD 0 0) 0)⟩)] = .ok (self, d) ∧
    self.call [] = .ok r ∧ r.shape = [2] ∧ r.at_ [0] = fin 5 := by
  have hg : ProductGrid [("a", [0, 5]), ("b", [0, 1])]
      [("vt", ⟨[2, 2], fun _ => fin 1⟩), ("b", ⟨[2, 2], fun idx => fin ([0, 1].getD (idx.getD 1 0) 0)⟩),
        ("a", ⟨[2, 2], fun idx => fin ([0, 5].getD (idx.getD 0 0) 0)⟩)] := by
    refine ⟨by simp, ?_, by simp [Dict.keys], by simp, by simp, ?_⟩
    · simp [Dict.keys]
      exact List.Perm.swap _ _ _
    · intro i hi
      simp at hi
      interval_cases i
      · exact ⟨_, by simp [Dict.get?_cons]; rfl, rfl, fun _ _ => rfl⟩
      · exact ⟨_, by simp [Dict.get?_cons]; rfl, rfl, fun _ _ => rfl⟩
  obtain ⟨self, d, r, h1, h2, h3, h4⟩ := C38_square (model := ⟨[], fun _ _ => .ok ⟨[2, 2], fun _ => fin 1⟩⟩)
    (k := "a") (z := [0, 5]) (P := fun _ => 1) (V := fun _ => 1) (parameters := [])
    (vts := ⟨[2, 2], fun _ => fin 1⟩) (p := ⟨[2, 2], fun _ => fin 1⟩) (x := [0, 5]) (y := [0, 1]) (by simp) hg
    (by simp [Dict.keys]) (.inl ⟨rfl, rfl⟩) (by simp [Dict.get?_cons]) rfl (fun _ _ => rfl) rfl rfl
    (fun _ _ => rfl)
  refine ⟨self, d, r, h1, h2, h3, ?_⟩
  rw [h4 0 (by norm_num)]
  simp [trapezoidRule]
  norm_num

end GW
