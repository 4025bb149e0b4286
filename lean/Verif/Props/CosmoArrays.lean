import Verif.Model.CosmoArrays
import Verif.Props.AnalysisLimit
import Verif.Props.CosmoDensity

/-!
# C108: `CosmoModel` on arrays and over histories
-/

noncomputable section

open Classical

namespace GW

open Fl Spec

/-! ## Specification -/

/-- Sample `i` of a dataset. -/
def Spec.sampleAt (data : Columns) (i : List ℕ) : Dict Fl := data.map fun kv : String × Shaped Fl => (kv.1, kv.2.elem i)

/-- All columns have one shape. -/
def Spec.SameShape (s : List ℕ) (data : Columns) : Prop := ∀ kv ∈ data, kv.2.shape = s

/-- A computation on arrays of shape `s` and the computation for each sample have the same outcome: the values
sample by sample, or the same exception. -/
def Spec.SampleBySample (s : List ℕ) (x : Except PyErr (Columns × Shaped Fl))
    (y : List ℕ → Except PyErr (Dict Fl × Fl)) : Prop :=
  match x with
  | .ok st => SameShape s st.1 ∧ st.2.shape = s ∧ ∀ i ∈ NArr.indices s, y i = .ok (sampleAt st.1 i, st.2.elem i)
  | .error e => ∀ i ∈ NArr.indices s, y i = .error e

namespace CosmoArrays

/-! ## The conversion -/

theorem sampleAt_get? (d : Columns) (i : List ℕ) (k : String) :
    (sampleAt d i).get? k = (Dict.get? d k).map fun a => a.elem i := by
  induction d with
  | nil => rfl
  | cons kv d ih =>
    obtain ⟨k', a⟩ := kv
    show Dict.get? ((k', a.elem i) :: sampleAt d i) k = _
    rw [Dict.get?_cons, Dict.get?_cons, ih]
    by_cases h : k = k' <;> simp [h]

theorem sampleAt_get (d : Columns) (i : List ℕ) (k : String) :
    (sampleAt d i).get k = (Dict.get d k).map fun a => a.elem i := by
  unfold Dict.get
  rw [sampleAt_get?]
  cases Dict.get? d k <;> rfl

theorem sampleAt_set (d : Columns) (i : List ℕ) (k : String) (a : Shaped Fl) :
    sampleAt (Dict.set d k a) i = Dict.set (sampleAt d i) k (a.elem i) := by
  induction d with
  | nil => rfl
  | cons kv d ih =>
    obtain ⟨k', a'⟩ := kv
    show _ = Dict.set ((k', a'.elem i) :: sampleAt d i) k (a.elem i)
    unfold Dict.set
    by_cases h : k' = k
    · rw [if_pos h, if_pos h]; rfl
    · rw [if_neg h, if_neg h, ← ih]; rfl

theorem sampleAt_keys (d : Columns) (i : List ℕ) : (sampleAt d i).keys = d.keys := by
  simp [sampleAt, Dict.keys, Function.comp_def]

theorem sampleAt_contains (d : Columns) (i : List ℕ) (k : String) : (sampleAt d i).contains k ↔ d.contains k := by
  show k ∈ (sampleAt d i).keys ↔ k ∈ d.keys
  rw [sampleAt_keys]

theorem sameShape_get {s : List ℕ} {d : Columns} (h : SameShape s d) {k : String} {a : Shaped Fl}
    (ha : Dict.get d k = .ok a) : a.shape = s := by
  unfold Dict.get at ha
  cases hk : Dict.get? d k with
  | none => rw [hk] at ha; cases ha
  | some a' =>
    rw [hk] at ha
    cases ha
    have : ∀ d : Columns, SameShape s d → Dict.get? d k = some a → a.shape = s := by
      intro d
      induction d with
      | nil => intro _ h; cases h
      | cons kv d ih =>
        intro hd hk
        obtain ⟨k', a'⟩ := kv
        rw [Dict.get?_cons] at hk
        by_cases hkk : k = k'
        · rw [if_pos hkk] at hk
          cases hk
          exact hd (k', a) (by simp)
        · rw [if_neg hkk] at hk
          exact ih (fun kv hkv => hd kv (by simp [hkv])) hk
    exact this d h hk

theorem sameShape_set {s : List ℕ} {d : Columns} (h : SameShape s d) (k : String) {a : Shaped Fl} (ha : a.shape = s) :
    SameShape s (Dict.set d k a) := by
  induction d with
  | nil =>
    intro kv hkv
    simp only [Dict.set, List.mem_singleton] at hkv
    subst hkv
    exact ha
  | cons kv' d ih =>
    obtain ⟨k', a'⟩ := kv'
    intro kv hkv
    unfold Dict.set at hkv
    by_cases hk : k' = k
    · rw [if_pos hk] at hkv
      rcases List.mem_cons.1 hkv with rfl | hkv
      · exact ha
      · exact h kv (by simp [hkv])
    · rw [if_neg hk] at hkv
      rcases List.mem_cons.1 hkv with rfl | hkv
      · exact h (k', a') (by simp)
      · exact ih (fun kv hkv => h kv (by simp [hkv])) kv hkv

theorem zip_same (b : Backend) (op : Fl → Fl → Fl) {x y : Shaped Fl} {s : List ℕ} (hx : x.shape = s)
    (hy : y.shape = s) : ∃ r, Shaped.zip b op x y = .ok r ∧ r.shape = s ∧
      ∀ i ∈ NArr.indices s, r.elem i = op (x.elem i) (y.elem i) := by
  unfold Shaped.zip
  rw [hx, hy, SharedSmoothed.bshape_self]
  exact ⟨_, rfl, rfl, fun i hi => by simp only [SharedSmoothed.proj_indices hi]⟩

theorem inplaceMul_same (b : Backend) {x y : Shaped Fl} {s : List ℕ} (hx : x.shape = s) (hy : y.shape = s) :
    ∃ r, Shaped.inplaceMul b x y = .ok r ∧ r.shape = s ∧ ∀ i ∈ NArr.indices s, r.elem i = x.elem i * y.elem i := by
  obtain ⟨r, hr, hs, he⟩ := zip_same b (· * ·) hx hy
  refine ⟨r, ?_, hs, he⟩
  unfold Shaped.inplaceMul
  rw [hr, ok_bind, if_neg (fun h => h.2 (by rw [hs, hx]))]

theorem overEq_same (b : Backend) {x y : Shaped Fl} {s : List ℕ} (hx : x.shape = s) (hy : y.shape = s) :
    ∃ r, Shaped.overEq b x y = .ok r ∧ r.shape = s ∧ ∀ i ∈ NArr.indices s, r.elem i = x.elem i / y.elem i := by
  obtain ⟨r, hr, hs, he⟩ := zip_same b (· / ·) hx hy
  refine ⟨r, ?_, hs, he⟩
  unfold Shaped.overEq
  rw [hr, ok_bind, if_neg (fun h => h.2.2 (by rw [hs, hx]))]

theorem convertColumn_rows (b : Backend) {s : List ℕ} {data : Columns} (hd : SameShape s data)
    (st : Columns × Shaped Fl) (h1 : SameShape s st.1) (h2 : st.2.shape = s) (key : String) :
    SampleBySample s (CosmoMixin.convertColumn b data st key) fun i =>
      CosmoMixin.convertKey (sampleAt data i) (sampleAt st.1 i, st.2.elem i) key := by
  unfold CosmoMixin.convertColumn CosmoMixin.convertKey
  by_cases hdet : CosmoMixin.isDetector key
  · simp only [if_pos hdet, sampleAt_get]
    cases hx : Dict.get data key with
    | error e => exact fun i _ => rfl
    | ok x =>
      cases hz : Dict.get st.1 "redshift" with
      | error e => exact fun i _ => rfl
      | ok z =>
        have hxs := sameShape_get hd hx
        have hzs := sameShape_get h1 hz
        obtain ⟨y, hy, hys, hye⟩ := zip_same b (· / ·) hxs (y := z.map (1 + ·)) (s := s) hzs
        simp only [ok_bind, hy, Except.map]
        have hset := sameShape_set h1 (CosmoMixin.sourceName key) hys
        have hk : ∀ i, Dict.get (Dict.set (sampleAt st.1 i) (CosmoMixin.sourceName key) (y.elem i)) "redshift" =
            (Dict.get (Dict.set st.1 (CosmoMixin.sourceName key) y) "redshift").map fun a => a.elem i := by
          intro i
          rw [← sampleAt_set, sampleAt_get]
        cases hz' : Dict.get (Dict.set st.1 (CosmoMixin.sourceName key) y) "redshift" with
        | error e =>
          intro i hi
          have e1 : x.elem i / (1 + z.elem i) = y.elem i := (hye i hi).symm
          simp only [e1, hk, hz', Except.map]
          rfl
        | ok z' =>
          have hzs' := sameShape_get hset hz'
          obtain ⟨j, hj, hjs, hje⟩ := inplaceMul_same b h2 (y := z'.map (1 + ·)) hzs'
          simp only [ok_bind, hj]
          refine ⟨hset, hjs, fun i hi => ?_⟩
          have e1 : x.elem i / (1 + z.elem i) = y.elem i := (hye i hi).symm
          simp only [e1, hk, hz', Except.map, ok_bind, pure_eq_ok]
          rw [hje i hi, sampleAt_set]
          rfl
  · simp only [if_neg hdet]
    by_cases hl : key ≠ "luminosity_distance"
    · simp only [if_pos hl, sampleAt_get]
      cases hx : Dict.get data key with
      | error e => exact fun i _ => rfl
      | ok x =>
        refine ⟨sameShape_set h1 key (sameShape_get hd hx), h2, fun i hi => ?_⟩
        simp only [Except.map, ok_bind, pure_eq_ok]
        rw [sampleAt_set]
    · simp only [if_neg hl]
      exact ⟨h1, h2, fun i _ => rfl⟩

theorem convert_fold (b : Backend) {s : List ℕ} {data : Columns} (hd : SameShape s data) (keys : List String) :
    ∀ st : Columns × Shaped Fl, SameShape s st.1 → st.2.shape = s →
      SampleBySample s (keys.foldlM (CosmoMixin.convertColumn b data) st) fun i =>
        keys.foldlM (CosmoMixin.convertKey (sampleAt data i)) (sampleAt st.1 i, st.2.elem i) := by
  induction keys with
  | nil => exact fun st h1 h2 => ⟨h1, h2, fun i _ => rfl⟩
  | cons key keys ih =>
    intro st h1 h2
    have := convertColumn_rows b hd st h1 h2 key
    simp only [List.foldlM_cons]
    cases hc : CosmoMixin.convertColumn b data st key with
    | error e =>
      rw [hc] at this
      intro i hi
      have e1 : CosmoMixin.convertKey (sampleAt data i) (sampleAt st.1 i, st.2.elem i) key = .error e := this i hi
      dsimp only
      rw [e1]
      rfl
    | ok st' =>
      rw [hc] at this
      obtain ⟨t1, t2, t3⟩ := this
      replace t3 : ∀ i ∈ NArr.indices s, CosmoMixin.convertKey (sampleAt data i) (sampleAt st.1 i, st.2.elem i) key =
        .ok (sampleAt st'.1 i, st'.2.elem i) := t3
      have := ih st' t1 t2
      rw [ok_bind]
      unfold SampleBySample at this ⊢
      revert this
      cases keys.foldlM (CosmoMixin.convertColumn b data) st' with
      | error e =>
        intro this i hi
        dsimp only
        rw [t3 i hi, ok_bind]
        exact this i hi
      | ok r =>
        rintro ⟨u1, u2, u3⟩
        refine ⟨u1, u2, fun i hi => ?_⟩
        dsimp only
        rw [t3 i hi, ok_bind]
        exact u3 i hi

/-- **C108, conversion.** Detector-frame columns of any common shape are converted sample by sample, on every
backend, with the same exceptions. -/
theorem C108_arrays (b : Backend) (self : CosmoMixin) {s : List ℕ} {data : Columns} (hd : SameShape s data)
    (parameters : Dict Fl) :
    SampleBySample s (self.convertColumns b data parameters) fun i =>
      self.detectorFrameToSourceFrame (sampleAt data i) parameters := by
  unfold CosmoMixin.convertColumns CosmoMixin.detectorFrameToSourceFrame
  simp only [sampleAt_contains, sampleAt_get, sampleAt_keys]
  by_cases hl : data.contains "luminosity_distance"
  · simp only [if_pos hl]
    cases hc : self.cosmology parameters with
    | error e => exact fun i _ => rfl
    | ok c =>
      cases hx : Dict.get data "luminosity_distance" with
      | error e => exact fun i _ => rfl
      | ok dl =>
        have hs := sameShape_get hd hx
        simp only [ok_bind, Except.map, pure_eq_ok]
        exact convert_fold b hd data.keys ([("redshift", dl.map c.zAtDistance)],
          (dl.map c.zAtDistance).map c.dDLdz) (by
            intro kv hkv
            simp only [List.mem_singleton] at hkv
            subst hkv
            exact hs) hs
  · simp only [if_neg hl]
    by_cases hr : ¬ data.contains "redshift"
    · simp only [if_pos hr]
      exact fun i _ => rfl
    · simp only [if_neg hr]
      cases hx : Dict.get data "redshift" with
      | error e =>
        exfalso
        unfold Dict.get at hx
        cases hk : Dict.get? data "redshift" with
        | none => exact hr ((Dict.get?_eq_none_iff _ _).1 hk)
        | some v => rw [hk] at hx; cases hx
      | ok z =>
        have hs := sameShape_get hd hx
        simp only [ok_bind, pure_eq_ok]
        exact convert_fold b hd data.keys ([], ⟨z.shape, fun _ => 1⟩) (fun _ h => by cases h) hs

end CosmoArrays

end GW
