import Verif.Model.SharedSpline
import Verif.Props.SplineHistory
import Verif.Props.SharedSmoothed

/-!
# C106: one spline model for the posterior samples and the injections
-/

noncomputable section

open Classical

namespace GW

open Fl Spec

namespace SharedSpline

/-! ## Arrays of one shape are lists -/

/-- The columns of a dataset as lists. -/
def flatData (d : Dict (Shaped Fl)) : Dict (List Fl) := d.map fun p => (p.1, p.2.elements)

/-- An interpolant for the list of points. -/
def flatInterpolant (i : ShapedInterpolant) : Interpolant := ⟨i.kind, i.nodes, i.values.elements⟩

/-- The instance of the list model. -/
def flat (m : SharedSpline) : SplineModel :=
  { m.inst with dataSpline := m.data.map fun p => (p.1, flatInterpolant p.2) }

/-- All interpolants are for points of one shape. -/
def Uniform (sh : List ℕ) (m : SharedSpline) : Prop := ∀ c ∈ m.data, c.2.values.shape = sh

theorem get_map {α β : Type} (g : α → β) (d : Dict α) (k : String) :
    Dict.get (d.map fun p => (p.1, g p.2)) k = (Dict.get d k).map g := by
  unfold Dict.get
  induction d with
  | nil => rfl
  | cons p d ih =>
    obtain ⟨a, v⟩ := p
    simp only [List.map_cons, Dict.get?_cons]
    by_cases h : k = a
    · simp only [h, if_true]; rfl
    · simp only [h, if_false]; exact ih

theorem get_mem {α : Type} {d : Dict α} {k : String} {v : α} (h : Dict.get d k = .ok v) : (k, v) ∈ d := by
  unfold Dict.get at h
  induction d with
  | nil => cases h
  | cons p d ih =>
    obtain ⟨a, w⟩ := p
    simp only [Dict.get?_cons] at h
    by_cases hk : k = a
    · subst hk
      simp only [if_true] at h
      cases h
      exact List.mem_cons_self
    · simp only [hk, if_false] at h
      exact List.mem_cons_of_mem _ (ih h)

theorem set_map {α β : Type} (g : α → β) (d : Dict α) (k : String) (v : α) :
    (Dict.set d k v).map (fun p => (p.1, g p.2)) = Dict.set (d.map fun p => (p.1, g p.2)) k (g v) := by
  induction d with
  | nil => rfl
  | cons p d ih =>
    obtain ⟨a, w⟩ := p
    simp only [Dict.set, List.map_cons]
    by_cases h : a = k
    · simp only [h, if_true, List.map_cons]
    · simp only [h, if_false, List.map_cons, ih]

theorem foldSet_map {α β : Type} (g : α → β) (l : List (String × α)) (d : Dict α) :
    (l.foldl (fun acc p => Dict.set acc p.1 p.2) d).map (fun p => (p.1, g p.2)) =
      (l.map fun p => (p.1, g p.2)).foldl (fun acc p => Dict.set acc p.1 p.2) (d.map fun p => (p.1, g p.2)) := by
  induction l generalizing d with
  | nil => rfl
  | cons p l ih => simp only [List.foldl_cons, List.map_cons, ih, set_map]

theorem foldSet_mem {α : Type} (P : α → Prop) (l : List (String × α)) (d : Dict α) (hl : ∀ p ∈ l, P p.2)
    (hd : ∀ p ∈ d, P p.2) : ∀ p ∈ l.foldl (fun acc p => Dict.set acc p.1 p.2) d, P p.2 := by
  induction l generalizing d with
  | nil => exact hd
  | cons p l ih =>
    refine ih _ (fun q hq => hl q (List.mem_cons_of_mem _ hq)) ?_
    have hv := hl p List.mem_cons_self
    clear ih hl
    induction d with
    | nil =>
      intro q hq
      simp only [Dict.set, List.mem_singleton] at hq
      subst hq
      exact hv
    | cons c d ih =>
      obtain ⟨a, w⟩ := c
      intro q hq
      simp only [Dict.set] at hq
      split_ifs at hq
      · rcases List.mem_cons.1 hq with rfl | hq
        · exact hv
        · exact hd q (List.mem_cons_of_mem _ hq)
      · rcases List.mem_cons.1 hq with rfl | hq
        · exact hd _ List.mem_cons_self
        · exact ih (fun q hq => hd q (List.mem_cons_of_mem _ hq)) q hq

theorem elements_zipWith (op : Fl → Fl → Fl) {sh : List ℕ} {x y : Shaped Fl} (hx : x.shape = sh) (hy : y.shape = sh) :
    (⟨sh, fun i => op (x.elem (NArr.proj x.shape i)) (y.elem (NArr.proj y.shape i))⟩ : Shaped Fl).elements =
      List.zipWith op x.elements y.elements := by
  unfold Shaped.elements
  rw [hx, hy, List.zipWith_map, List.zipWith_self]
  refine List.map_congr_left fun i hi => ?_
  simp only [SharedSmoothed.proj_indices hi]

theorem inplaceMul_flat (b : Backend) {sh : List ℕ} {x y : Shaped Fl} (hx : x.shape = sh) (hy : y.shape = sh) :
    ∃ r, Shaped.inplaceMul b x y = .ok r ∧ r.shape = sh ∧
      SplineModel.inplaceMul b x.elements y.elements = .ok r.elements := by
  have hlen : x.elements.length = y.elements.length := by
    unfold Shaped.elements
    rw [List.length_map, List.length_map, hx, hy]
  unfold Shaped.inplaceMul Shaped.zip SplineModel.inplaceMul Smoothed.broadcast
  rw [if_pos hlen, ok_bind]
  have hb : NArr.bshape x.shape y.shape = some sh := by rw [hx, hy]; exact SharedSmoothed.bshape_self sh
  rw [hb]
  refine ⟨⟨sh, fun i => x.elem (NArr.proj x.shape i) * y.elem (NArr.proj y.shape i)⟩, ?_, rfl, ?_⟩
  · simp only [ok_bind, hx]
    rw [if_neg (by simp)]
  · rw [if_neg (by rw [List.length_zipWith, hlen]; simp), elements_zipWith _ hx hy]

/-! ## One call -/

/-- The outcome of a computation on arrays is that of the one on lists, in the given shape. -/
def Agrees (sh : List ℕ) (o : Except PyErr (Shaped Fl)) (o' : Except PyErr (List Fl)) : Prop :=
  o' = o.map Shaped.elements ∧ ∀ r, o = .ok r → r.shape = sh

theorem map_elements' {α β : Type} (f : α → β) (a : Shaped α) : (a.map f).elements = a.elements.map f :=
  SharedSmoothed.map_elements f a

theorem mask_flat {sh : List ℕ} {v : Shaped Fl} (hv : v.shape = sh) (x : List Fl) :
    Agrees sh (mask v x) (SplineModel.mask v.elements x) := by
  unfold mask SplineModel.mask
  cases x.head? <;> cases x.getLast?
  · exact ⟨rfl, fun r h => by cases h⟩
  · exact ⟨rfl, fun r h => by cases h⟩
  · exact ⟨rfl, fun r h => by cases h⟩
  · refine ⟨by simp only [Except.map, map_elements'], fun r h => ?_⟩
    rw [← Except.ok.inj h]
    exact hv

theorem evalUnnormed_flat (b : Backend) (rule : SplineRule) {sh : List ℕ} {m : SharedSpline} (hm : Uniform sh m)
    {dataset : Dict (Shaped Fl)} (hd : ∀ c ∈ dataset, c.2.shape = sh) (p : String) (x f : List Fl) :
    Agrees sh (evalUnnormed b rule m dataset p x f)
      (SplineModel.evalUnnormed b rule (flat m) (flatData dataset) p x f) := by
  unfold evalUnnormed SplineModel.evalUnnormed flat flatData
  simp only [get_map]
  cases h1 : Dict.get m.data p with
  | error e => exact ⟨rfl, fun r h => by cases h⟩
  | ok i =>
    cases h2 : Dict.get dataset p with
    | error e => exact ⟨rfl, fun r h => by cases h⟩
    | ok v =>
      have hi : ((i.eval rule f).map Fl.exp).shape = sh := hm _ (get_mem h1)
      have hv : v.shape = sh := hd _ (get_mem h2)
      obtain ⟨k1, k2⟩ := mask_flat hv x
      have e1 : ((flatInterpolant i).eval rule f).map Fl.exp = ((i.eval rule f).map Fl.exp).elements := by
        unfold flatInterpolant Interpolant.eval ShapedInterpolant.eval
        simp only [map_elements']
      simp only [Except.map, ok_bind, e1, k1]
      cases h3 : mask v x with
      | error e => exact ⟨rfl, fun r h => by cases h⟩
      | ok k =>
        obtain ⟨r, hr, hrs, hre⟩ := inplaceMul_flat b hi (k2 k h3)
        simp only [ok_bind, hr, hre]
        exact ⟨rfl, fun r' h => by cases h; exact hrs⟩

theorem mapM_flat (g : String → Except PyErr (Shaped Fl)) (h : String → Except PyErr (List Fl))
    (hgh : ∀ p, h p = (g p).map Shaped.elements) (k : Fl → Fl) (kind : String) (nodes : List Fl) (l : List String) :
    l.mapM (fun p => do
      let v ← h p
      return (p, (⟨kind, nodes, v.map k⟩ : Interpolant))) =
    (l.mapM (fun p => do
      let v ← g p
      return (p, (⟨kind, nodes, v.map k⟩ : ShapedInterpolant)))).map
        (fun d : List (String × ShapedInterpolant) => d.map fun p : String × ShapedInterpolant =>
          (p.1, flatInterpolant p.2)) := by
  induction l with
  | nil => rfl
  | cons p l ih =>
    rw [List.mapM_cons, List.mapM_cons, ih, hgh]
    cases g p with
    | error e => rfl
    | ok v =>
      cases l.mapM (fun p => do
        let v ← g p
        return (p, (⟨kind, nodes, v.map k⟩ : ShapedInterpolant))) with
      | error e => rfl
      | ok d =>
        simp only [Except.map, ok_bind, pure_eq_ok, List.map_cons, flatInterpolant, map_elements']

theorem mapM_values_shape {g : String → Except PyErr (Shaped Fl)} {sh : List ℕ}
    (hg : ∀ p v, g p = .ok v → v.shape = sh) (k : Fl → Fl) (kind : String) (nodes : List Fl) {l : List String}
    {d : List (String × ShapedInterpolant)}
    (h : l.mapM (fun p => do
      let v ← g p
      return (p, (⟨kind, nodes, v.map k⟩ : ShapedInterpolant))) = .ok d) : ∀ c ∈ d, c.2.values.shape = sh := by
  induction l generalizing d with
  | nil => cases h; simp
  | cons p l ih =>
    rw [List.mapM_cons] at h
    cases hp : g p with
    | error e => rw [hp] at h; cases h
    | ok v =>
      rw [hp] at h
      simp only [ok_bind, pure_eq_ok] at h
      cases hl : l.mapM (fun p => do
        let v ← g p
        return (p, (⟨kind, nodes, v.map k⟩ : ShapedInterpolant))) with
      | error e => simp only [pure_eq_ok] at hl; rw [hl] at h; cases h
      | ok d' =>
        have hl' := hl
        simp only [pure_eq_ok] at hl'
        rw [hl'] at h
        cases h
        intro c hc
        rcases List.mem_cons.1 hc with rfl | hc
        · exact hg p v hp
        · exact ih hl c hc

theorem setup_flat {sh : List ℕ} (m : SharedSpline) (hm : Uniform sh m) (x : List Fl) {dataset : Dict (Shaped Fl)}
    (hd : ∀ c ∈ dataset, c.2.shape = sh) :
    SplineModel.setupInterpolant (flat m) x (flatData dataset) =
      ((setupInterpolant m x dataset).1, flat (setupInterpolant m x dataset).2) ∧
    Uniform sh (setupInterpolant m x dataset).2 := by
  have key := mapM_flat (fun p => Dict.get dataset p) (fun p => Dict.get (flatData dataset) p)
    (fun p => get_map Shaped.elements dataset p) m.inst.transform m.inst.config.kind (x.map m.inst.transform)
    m.inst.config.parameters
  unfold SplineModel.setupInterpolant setupInterpolant
  have e1 : (flat m).config = m.inst.config := rfl
  have e2 : (flat m).transform = m.inst.transform := rfl
  have e3 : (flat m).xs = m.inst.xs := rfl
  simp only [e1, e2, e3, key]
  cases hc : m.inst.config.parameters.mapM (fun p => do
      let v ← Dict.get dataset p
      return (p, (⟨m.inst.config.kind, x.map m.inst.transform, v.map m.inst.transform⟩ : ShapedInterpolant))) with
  | error e => exact ⟨rfl, hm⟩
  | ok d =>
    have hs := mapM_values_shape (fun p v hp => hd _ (get_mem hp)) m.inst.transform m.inst.config.kind
      (x.map m.inst.transform) hc
    refine ⟨?_, foldSet_mem (fun i : ShapedInterpolant => i.values.shape = sh) d [] hs (by simp)⟩
    simp only [Except.map]
    congr 1
    unfold flat
    simp only [foldSet_map flatInterpolant d [], List.map_nil]

theorem pXUnnormed_flat (b : Backend) (rule : SplineRule) {sh : List ℕ} {m : SharedSpline} (hm : Uniform sh m)
    {dataset : Dict (Shaped Fl)} (hd : ∀ c ∈ dataset, c.2.shape = sh) (p : String) (x f : List Fl) :
    Agrees sh (pXUnnormed b rule m dataset p x f).1
      (SplineModel.pXUnnormed b rule (flat m) (flatData dataset) p x f).1 ∧
    (SplineModel.pXUnnormed b rule (flat m) (flatData dataset) p x f).2 = flat (pXUnnormed b rule m dataset p x f).2 ∧
    Uniform sh (pXUnnormed b rule m dataset p x f).2 := by
  unfold pXUnnormed SplineModel.pXUnnormed
  have e : (flat m).normSpline = m.inst.normSpline := rfl
  rw [e]
  cases m.inst.normSpline with
  | some i => exact ⟨evalUnnormed_flat b rule hm hd p x f, rfl, hm⟩
  | none =>
    obtain ⟨h1, h2⟩ := setup_flat m hm x hd
    rcases h3 : setupInterpolant m x dataset with ⟨o, m1⟩
    rw [h3] at h1 h2
    rw [h1]
    cases o with
    | error e => exact ⟨⟨rfl, fun r h => by cases h⟩, rfl, h2⟩
    | ok u => exact ⟨evalUnnormed_flat b rule h2 hd p x f, rfl, h2⟩

theorem parameterLoop_flat (b : Backend) (rule : SplineRule) {sh : List ℕ} {dataset : Dict (Shaped Fl)}
    (hd : ∀ c ∈ dataset, c.2.shape = sh) (x f : List Fl) (params : List String) :
    ∀ {m : SharedSpline} {px : Shaped Fl}, Uniform sh m → px.shape = sh →
    Agrees sh (parameterLoop b rule dataset x f params px m).1
      (SplineModel.parameterLoop b rule (flatData dataset) x f params px.elements (flat m)).1 ∧
    (SplineModel.parameterLoop b rule (flatData dataset) x f params px.elements (flat m)).2 =
      flat (parameterLoop b rule dataset x f params px m).2 ∧
    Uniform sh (parameterLoop b rule dataset x f params px m).2 := by
  induction params with
  | nil => exact fun hm hp => ⟨⟨rfl, fun r h => by cases h; exact hp⟩, rfl, hm⟩
  | cons p params ih =>
    intro m px hm hp
    obtain ⟨⟨a1, a2⟩, a3, a4⟩ := pXUnnormed_flat b rule hm hd p x f
    unfold parameterLoop SplineModel.parameterLoop
    rcases h1 : pXUnnormed b rule m dataset p x f with ⟨o, m1⟩
    rcases h2 : SplineModel.pXUnnormed b rule (flat m) (flatData dataset) p x f with ⟨o', s1⟩
    rw [h1] at a1 a2 a3 a4
    rw [h2] at a1 a3
    simp only at a1 a2 a3 a4
    subst a3
    cases o with
    | error e =>
      rw [a1]
      exact ⟨⟨rfl, fun r h => by cases h⟩, rfl, a4⟩
    | ok r =>
      rw [a1]
      obtain ⟨r', hr, hrs, hre⟩ := inplaceMul_flat b hp (a2 r rfl)
      simp only [Except.map, hr, hre]
      exact ih a4 hrs

theorem inferNodes_flat {sh : List ℕ} {m : SharedSpline} (hm : Uniform sh m) (kwargs : Dict Fl) :
    SplineModel.inferNodes (flat m) kwargs = (inferNodes m kwargs).map flat ∧
    ∀ m', inferNodes m kwargs = .ok m' → Uniform sh m' := by
  unfold SplineModel.inferNodes inferNodes
  have e1 : (flat m).config = m.inst.config := rfl
  have e2 : (flat m).base = m.inst.base := rfl
  simp only [e1, e2]
  split_ifs with h
  · have : (flat m).reinit (SplineModel.inferLoop kwargs m.inst.base m.inst.config.nodes) =
        m.inst.reinit (SplineModel.inferLoop kwargs m.inst.base m.inst.config.nodes) := rfl
    rw [this]
    cases hr : m.inst.reinit (SplineModel.inferLoop kwargs m.inst.base m.inst.config.nodes) with
    | error e => exact ⟨rfl, fun m' h => by cases h⟩
    | ok s =>
      have hd : s.dataSpline = [] := by
        unfold SplineModel.reinit SplineModel.initMagnitude SplineModel.initTilt SplineModel.init at hr
        split at hr
        · cases hr
        · cases hr; rfl
        · cases hr; rfl
      refine ⟨?_, fun m' h => by cases h; exact fun c hc => by cases hc⟩
      simp only [Except.map, new, flat, List.map_nil]
      rw [← hd]
  · exact ⟨rfl, fun m' h => by cases h; exact hm⟩

/-- A call on a dataset whose columns have one shape is the call of the list model on the columns as lists. -/
theorem call_flat (b : Backend) (rule : SplineRule) {sh : List ℕ} {m : SharedSpline} (hm : Uniform sh m)
    {dataset : Dict (Shaped Fl)} (hd : ∀ c ∈ dataset, c.2.shape = sh) (kwargs : Dict Fl) :
    Agrees sh (call b rule m dataset kwargs).1 (SplineModel.call b rule (flat m) (flatData dataset) kwargs).1 ∧
    (SplineModel.call b rule (flat m) (flatData dataset) kwargs).2 = flat (call b rule m dataset kwargs).2 ∧
    Uniform sh (call b rule m dataset kwargs).2 := by
  obtain ⟨i1, i2⟩ := inferNodes_flat hm kwargs
  unfold call SplineModel.call
  rw [i1]
  cases hi : inferNodes m kwargs with
  | error e => exact ⟨⟨rfl, fun r h => by cases h⟩, rfl, hm⟩
  | ok m' =>
    have hm' := i2 m' hi
    have e1 : (flat m').extractSplinePoints kwargs = m'.inst.extractSplinePoints kwargs := rfl
    have e2 : (flat m').config = m'.inst.config := rfl
    simp only [Except.map, e1, e2]
    cases m'.inst.extractSplinePoints kwargs with
    | error e => exact ⟨⟨rfl, fun r h => by cases h⟩, rfl, hm'⟩
    | ok fx =>
      obtain ⟨f, x⟩ := fx
      have e3 : Dict.get (flatData dataset) (m'.inst.config.parameters.headD "") =
        (Dict.get dataset (m'.inst.config.parameters.headD "")).map Shaped.elements := get_map _ _ _
      simp only [e3]
      cases hv : Dict.get dataset (m'.inst.config.parameters.headD "") with
      | error e => exact ⟨⟨rfl, fun r h => by cases h⟩, rfl, hm'⟩
      | ok v =>
        simp only [Except.map]
        have hp : (v.map fun _ => (1 : Fl)).shape = sh := hd _ (get_mem hv)
        obtain ⟨⟨a1, a2⟩, a3, a4⟩ := parameterLoop_flat b rule hd x f m'.inst.config.parameters hm' hp
        rw [map_elements'] at a1 a3
        rcases h1 : parameterLoop b rule dataset x f m'.inst.config.parameters (v.map fun _ => 1) m' with ⟨o, m1⟩
        rcases h2 : SplineModel.parameterLoop b rule (flatData dataset) x f m'.inst.config.parameters
          (v.elements.map fun _ => 1) (flat m') with ⟨o', s1⟩
        rw [h1] at a1 a2 a3 a4
        rw [h2] at a1 a3
        simp only at a1 a2 a3 a4
        subst a3
        cases o with
        | error e =>
          rw [a1]
          exact ⟨⟨rfl, fun r h => by cases h⟩, rfl, a4⟩
        | ok px =>
          rw [a1]
          have e4 : SplineModel.normPX b rule (flat m1) f x = SplineModel.normPX b rule m1.inst f x := rfl
          simp only [Except.map, e4]
          cases SplineModel.normPX b rule m1.inst f x with
          | error e => exact ⟨⟨rfl, fun r h => by cases h⟩, rfl, a4⟩
          | ok norm =>
            exact ⟨⟨by simp only [map_elements', Except.map], fun r h => by cases h; exact a2 px rfl⟩, rfl, a4⟩

theorem runCalls_flat (b : Backend) (rule : SplineRule) {sh : List ℕ} (hist : List (Dict (Shaped Fl) × Dict Fl)) :
    ∀ {m : SharedSpline}, Uniform sh m → (∀ c ∈ hist, ∀ d ∈ c.1, d.2.shape = sh) →
    SplineModel.runCalls b rule (flat m) (hist.map fun c => (flatData c.1, c.2)) = flat (runCalls b rule m hist) ∧
    Uniform sh (runCalls b rule m hist) := by
  induction hist with
  | nil => exact fun hm _ => ⟨rfl, hm⟩
  | cons c hist ih =>
    intro m hm hh
    obtain ⟨dataset, kwargs⟩ := c
    obtain ⟨-, a2, a3⟩ := call_flat b rule hm (hh _ List.mem_cons_self) kwargs
    simp only [runCalls, List.map_cons, SplineModel.runCalls, a2]
    exact ih a3 fun c hc => hh c (List.mem_cons_of_mem _ hc)

/-! ## New instances -/

theorem constructed_flat {s : SplineModel} (h : Constructed s) : flat (new s) = s := by
  have hd : s.dataSpline = [] := by
    cases h with
    | base h => exact (init_nodes h).2.2.2.1
    | magnitude h => exact (init_nodes h).2.2.2.1
    | tilt h => exact (init_nodes h).2.2.2.1
  unfold flat new
  rw [List.map_nil, ← hd]

theorem new_uniform (s : SplineModel) (sh : List ℕ) : Uniform sh (new s) := fun _ hc => by cases hc

/-- **C106, arrays.** A spline model evaluates arrays of any shape sample by sample: an instance that is only used for
datasets of one shape returns, after any history of calls, an array of that shape whose elements are those the model
returns for the samples in a row, or raises the same exception. -/
theorem C106_arrays (b : Backend) (rule : SplineRule) {s : SplineModel} (hs : Constructed s) {sh : List ℕ}
    (hist : List (Dict (Shaped Fl) × Dict Fl)) (hh : ∀ c ∈ hist, ∀ d ∈ c.1, d.2.shape = sh)
    {dataset : Dict (Shaped Fl)} (hd : ∀ c ∈ dataset, c.2.shape = sh) (kwargs : Dict Fl) :
    (call b rule (runCalls b rule (new s) hist) dataset kwargs).1.map (fun r => (r.shape, r.elements)) =
      (SplineModel.call b rule (SplineModel.runCalls b rule s (hist.map fun c => (flatData c.1, c.2)))
        (flatData dataset) kwargs).1.map fun l => (sh, l) := by
  obtain ⟨h1, h2⟩ := runCalls_flat b rule hist (new_uniform s sh) hh
  obtain ⟨⟨a1, a2⟩, -, -⟩ := call_flat b rule h2 hd kwargs
  rw [constructed_flat hs] at h1
  rw [h1, a1]
  cases h : (call b rule (runCalls b rule (new s) hist) dataset kwargs).1 with
  | error e => rfl
  | ok r => simp only [Except.map, a2 r h]

/-- **C106, values.** A new instance called with a dataset of any shape returns at every sample the product over the
parameters of the documented density. -/
theorem C106_value {b : Backend} {rule : SplineRule} {S : String → List ℝ → List ℝ → ℝ → ℝ} (hrule : RealRule rule S)
    {s : SplineModel} (hs : Constructed s) {sh : List ℕ} {sample : List ℕ → String → ℝ} {dataset : Dict (Shaped Fl)}
    (hd : ∀ c ∈ dataset, c.2.shape = sh)
    (hcol : ∀ p ∈ s.config.parameters, dataset.get? p = some ⟨sh, fun i => fin (sample i p)⟩) {kwargs : Dict Fl}
    (hnew : ¬ kwargs.contains (nodeName s.base s.config.nodes)) {x f : List ℝ} (hx : x ≠ [])
    (hpts : s.extractSplinePoints kwargs = .ok (f.map fin, x.map fin))
    (hpos : Positive s.config x ∧ Positive s.config s.xs ∧
      ∀ i ∈ NArr.indices sh, Positive s.config (s.config.parameters.map (sample i)))
    (hZ : splineNorm S s.config s.xs x f ≠ 0) :
    ∃ r, (call b rule (new s) dataset kwargs).1 = .ok r ∧ r.shape = sh ∧
      ∀ i ∈ NArr.indices sh, r.elem i =
        fin (s.config.parameters.map fun p => splineDensity S s.config s.xs x f (sample i p)).prod := by
  obtain ⟨⟨a1, a2⟩, -, -⟩ := call_flat b rule (new_uniform s sh) hd kwargs
  rw [constructed_flat hs] at a1
  obtain ⟨hfresh, hparams, -, -⟩ := constructed_fresh hs
  have hfirst : FirstCall s (flatData dataset) kwargs ((NArr.indices sh).map sample) x f := by
    refine ⟨hfresh, hparams, hnew, hpts, hx, ?_, hpos.1, hpos.2.1, ?_⟩
    · intro p hp
      have h1 : Dict.get dataset p = .ok ⟨sh, fun i => fin (sample i p)⟩ := by
        unfold Dict.get
        rw [hcol p hp]
      have h2 : Dict.get (flatData dataset) p = (Dict.get dataset p).map Shaped.elements := get_map _ _ _
      rw [h1] at h2
      unfold Dict.get at h2
      cases h3 : Dict.get? (flatData dataset) p with
      | none => rw [h3] at h2; cases h2
      | some v =>
        rw [h3] at h2
        rw [Except.ok.inj h2]
        simp only [Shaped.elements, List.map_map]
        rfl
    · intro r hr
      obtain ⟨i, hi, rfl⟩ := List.mem_map.1 hr
      exact hpos.2.2 i hi
  rw [C36_value hrule hfirst hZ] at a1
  cases h : (call b rule (new s) dataset kwargs).1 with
  | error e => rw [h] at a1; cases a1
  | ok r =>
    rw [h] at a1
    have h1 := Except.ok.inj a1
    refine ⟨r, rfl, a2 r h, fun i hi => ?_⟩
    unfold Shaped.elements at h1
    rw [a2 r h, List.map_map] at h1
    exact (List.map_inj_left.1 h1 i hi).symm

/-! ## Instances with interpolants -/

theorem inferNodes_noNew {m : SharedSpline} {kwargs : Dict Fl}
    (h : ¬ kwargs.contains (nodeName m.inst.base m.inst.config.nodes)) : m.inferNodes kwargs = .ok m := by
  unfold inferNodes
  have : SplineModel.inferLoop kwargs m.inst.base m.inst.config.nodes = m.inst.config.nodes := by
    rw [SplineModel.inferLoop]
    exact if_neg h
  simp only [this, ne_eq, not_true_eq_false, if_false]

theorem loop_state {b : Backend} {rule : SplineRule} {m : SharedSpline} (hm : m.inst.normSpline.isSome)
    (dataset : Dict (Shaped Fl)) (x f : List Fl) (params : List String) (px : Shaped Fl) :
    (parameterLoop b rule dataset x f params px m).2 = m := by
  obtain ⟨i, hi⟩ := Option.isSome_iff_exists.1 hm
  induction params generalizing px with
  | nil => rfl
  | cons p params ih =>
    unfold parameterLoop pXUnnormed
    rw [hi]
    simp only
    cases evalUnnormed b rule m dataset p x f with
    | error e => rfl
    | ok r =>
      simp only
      cases Shaped.inplaceMul b px r with
      | error e => rfl
      | ok px1 => exact ih px1

theorem call_state {b : Backend} {rule : SplineRule} {m : SharedSpline} (hm : m.inst.normSpline.isSome)
    {dataset : Dict (Shaped Fl)} {kwargs : Dict Fl}
    (hnew : ¬ kwargs.contains (nodeName m.inst.base m.inst.config.nodes)) :
    (call b rule m dataset kwargs).2 = m := by
  unfold call
  rw [inferNodes_noNew hnew]
  simp only
  split
  · rfl
  · split
    · rfl
    · rename_i f x _ _ values _
      have h := loop_state (b := b) (rule := rule) hm dataset x f m.inst.config.parameters (values.map fun _ => 1)
      split
      · rename_i e s1 he
        rw [he] at h
        exact h
      · rename_i px s1 he
        rw [he] at h
        split
        · exact h
        · exact h

theorem runCalls_state {b : Backend} {rule : SplineRule} {m : SharedSpline} (hm : m.inst.normSpline.isSome)
    (hist : List (Dict (Shaped Fl) × Dict Fl))
    (hnew : ∀ c ∈ hist, ¬ Dict.contains c.2 (nodeName m.inst.base m.inst.config.nodes)) :
    runCalls b rule m hist = m := by
  induction hist with
  | nil => rfl
  | cons c hist ih =>
    obtain ⟨d, k⟩ := c
    simp only [runCalls]
    rw [call_state hm (hnew _ List.mem_cons_self)]
    exact ih fun c hc => hnew c (List.mem_cons_of_mem _ hc)

theorem bshape_antisymm {s t : List ℕ} (h1 : NArr.bshape s t = some s) (h2 : NArr.bshape t s = some t) : s = t := by
  induction s generalizing t with
  | nil => simpa [NArr.bshape] using h1.symm
  | cons m s ih =>
    cases t with
    | nil => simp [NArr.bshape] at h2
    | cons n t =>
      simp only [NArr.bshape] at h1 h2
      have key : ∀ {a b : ℕ} {u v : List ℕ}, (if a = b ∨ b = 1 then (NArr.bshape u v).map (a :: ·)
          else if a = 1 then (NArr.bshape u v).map (b :: ·) else none) = some (a :: u) →
          (a = b ∨ b = 1) ∧ NArr.bshape u v = some u := by
        intro a b u v h
        split_ifs at h with c1 c2
        · rw [Option.map_eq_some_iff] at h
          obtain ⟨w, hw, he⟩ := h
          exact ⟨c1, by rw [hw, (List.cons.inj he).2]⟩
        · rw [Option.map_eq_some_iff] at h
          obtain ⟨w, hw, he⟩ := h
          exact absurd (Or.inl (List.cons.inj he).1.symm) c1
      obtain ⟨a1, a2⟩ := key h1
      obtain ⟨b1, b2⟩ := key h2
      rw [ih a2 b2]
      congr 1
      omega

theorem inplaceMul_ok {b : Backend} (hb : b ≠ .jax) {x y r : Shaped Fl} (h : Shaped.inplaceMul b x y = .ok r) :
    NArr.bshape x.shape y.shape = some x.shape ∧ r.shape = x.shape := by
  unfold Shaped.inplaceMul Shaped.zip at h
  cases hs : NArr.bshape x.shape y.shape with
  | none => rw [hs] at h; cases h
  | some t =>
    rw [hs] at h
    simp only [ok_bind] at h
    split_ifs at h with hc
    have ht : t = x.shape := by
      by_contra hne
      exact hc ⟨hb, hne⟩
    rw [← Except.ok.inj h, ht]
    exact ⟨rfl, rfl⟩

/-- On numpy and cupy a factor is only computed for samples of the shape of the interpolant. -/
theorem evalUnnormed_shape {b : Backend} (hb : b ≠ .jax) {rule : SplineRule} {m : SharedSpline} {sh : List ℕ}
    {dataset : Dict (Shaped Fl)} (hd : ∀ c ∈ dataset, c.2.shape = sh) {p : String} {x f : List Fl} {r : Shaped Fl}
    (h : evalUnnormed b rule m dataset p x f = .ok r) :
    ∃ i, m.data.get p = .ok i ∧ r.shape = i.values.shape ∧ NArr.bshape i.values.shape sh = some i.values.shape := by
  unfold evalUnnormed at h
  obtain ⟨i, hi, h⟩ := bind_eq_ok.1 h
  obtain ⟨v, hv, h⟩ := bind_eq_ok.1 h
  obtain ⟨k, hk, h⟩ := bind_eq_ok.1 h
  obtain ⟨h1, h2⟩ := inplaceMul_ok hb h
  have hks : k.shape = sh := by
    unfold mask at hk
    split at hk
    · rw [← Except.ok.inj hk]
      exact hd _ (get_mem hv)
    · cases hk
  rw [hks] at h1
  exact ⟨i, hi, h2, h1⟩

theorem setup_warm (m : SharedSpline) (x : List Fl) (dataset : Dict (Shaped Fl)) :
    (setupInterpolant m x dataset).2.inst.normSpline.isSome ∧
    (setupInterpolant m x dataset).2.inst.config = m.inst.config ∧
    (setupInterpolant m x dataset).2.inst.base = m.inst.base := by
  unfold setupInterpolant
  simp only
  split <;> exact ⟨rfl, rfl, rfl⟩

theorem pXUnnormed_ok {b : Backend} {rule : SplineRule} {m m1 : SharedSpline} {dataset : Dict (Shaped Fl)}
    {p : String} {x f : List Fl} {r : Shaped Fl} (h : pXUnnormed b rule m dataset p x f = (.ok r, m1)) :
    m1.inst.normSpline.isSome ∧ m1.inst.config = m.inst.config ∧ m1.inst.base = m.inst.base ∧
      evalUnnormed b rule m1 dataset p x f = .ok r := by
  unfold pXUnnormed at h
  cases hn : m.inst.normSpline with
  | some i =>
    rw [hn] at h
    obtain ⟨h1, h2⟩ := Prod.mk.inj h
    subst h2
    exact ⟨by rw [hn]; rfl, rfl, rfl, h1⟩
  | none =>
    rw [hn] at h
    have hw := setup_warm m x dataset
    rcases hs : setupInterpolant m x dataset with ⟨o, m'⟩
    rw [hs] at h hw
    cases o with
    | error e => cases (Prod.mk.inj h).1
    | ok u =>
      obtain ⟨h1, h2⟩ := Prod.mk.inj h
      subst h2
      exact ⟨hw.1, hw.2.1, hw.2.2, h1⟩

theorem loop_ok {b : Backend} (hb : b ≠ .jax) {rule : SplineRule} {sh : List ℕ} {dataset : Dict (Shaped Fl)}
    (hd : ∀ c ∈ dataset, c.2.shape = sh) {x f : List Fl} {params : List String} :
    ∀ {m m1 : SharedSpline} {px r : Shaped Fl}, params ≠ [] → px.shape = sh →
      parameterLoop b rule dataset x f params px m = (.ok r, m1) →
      m1.inst.normSpline.isSome ∧ m1.inst.config = m.inst.config ∧ m1.inst.base = m.inst.base ∧
      ∀ p ∈ params, ∃ i, m1.data.get p = .ok i ∧ i.values.shape = sh := by
  induction params with
  | nil => exact fun h => absurd rfl h
  | cons p params ih =>
    intro m m1 px r _ hp h
    unfold parameterLoop at h
    rcases hx : pXUnnormed b rule m dataset p x f with ⟨o, m'⟩
    rw [hx] at h
    cases o with
    | error e => cases (Prod.mk.inj h).1
    | ok q =>
      obtain ⟨w1, w2, w3, w4⟩ := pXUnnormed_ok hx
      simp only at h
      cases hmul : Shaped.inplaceMul b px q with
      | error e => rw [hmul] at h; cases (Prod.mk.inj h).1
      | ok px1 =>
        rw [hmul] at h
        simp only at h
        obtain ⟨i, hi, hr, hsh⟩ := evalUnnormed_shape hb hd w4
        obtain ⟨k1, k2⟩ := inplaceMul_ok hb hmul
        rw [hp, hr] at k1
        have he : i.values.shape = sh := bshape_antisymm hsh k1
        have hst := loop_state (b := b) (rule := rule) w1 dataset x f params px1
        rw [h] at hst
        simp only at hst
        subst hst
        refine ⟨w1, w2, w3, fun p' hp' => ?_⟩
        rcases List.mem_cons.1 hp' with rfl | hp'
        · exact ⟨i, hi, he⟩
        · exact (ih (List.ne_nil_of_mem hp') (k2.trans hp) h).2.2.2 p' hp'

/-- A call that returned leaves interpolants of the shape of its samples. -/
theorem call_ok {b : Backend} (hb : b ≠ .jax) {rule : SplineRule} {sh : List ℕ} {dataset : Dict (Shaped Fl)}
    (hd : ∀ c ∈ dataset, c.2.shape = sh) {m m1 : SharedSpline} {kwargs : Dict Fl} {r : Shaped Fl}
    (hp : ∀ m', m.inferNodes kwargs = .ok m' → m'.inst.config.parameters ≠ [])
    (h : call b rule m dataset kwargs = (.ok r, m1)) :
    m1.inst.normSpline.isSome ∧ m1.inst.config.parameters ≠ [] ∧
      ∀ p ∈ m1.inst.config.parameters, ∃ i, m1.data.get p = .ok i ∧ i.values.shape = sh := by
  unfold call at h
  cases hi : m.inferNodes kwargs with
  | error e => rw [hi] at h; cases (Prod.mk.inj h).1
  | ok m' =>
    rw [hi] at h
    simp only at h
    cases he : m'.inst.extractSplinePoints kwargs with
    | error e => rw [he] at h; cases (Prod.mk.inj h).1
    | ok fx =>
      obtain ⟨f, x⟩ := fx
      rw [he] at h
      simp only at h
      cases hv : dataset.get (m'.inst.config.parameters.headD "") with
      | error e => rw [hv] at h; cases (Prod.mk.inj h).1
      | ok v =>
        rw [hv] at h
        simp only at h
        rcases hl : parameterLoop b rule dataset x f m'.inst.config.parameters (v.map fun _ => 1) m' with ⟨o, m2⟩
        rw [hl] at h
        cases o with
        | error e => cases (Prod.mk.inj h).1
        | ok px =>
          simp only at h
          have hps : (v.map fun _ => (1 : Fl)).shape = sh := hd _ (get_mem hv)
          obtain ⟨k1, k2, -, k4⟩ := loop_ok hb hd (hp m' hi) hps hl
          cases hn : SplineModel.normPX b rule m2.inst f x with
          | error e => rw [hn] at h; cases (Prod.mk.inj h).1
          | ok norm =>
            rw [hn] at h
            have hm := (Prod.mk.inj h).2
            subst hm
            rw [k2]
            exact ⟨k1, hp m' hi, k4⟩

/-! ## Histories -/

theorem pXUnnormed_config (b : Backend) (rule : SplineRule) (m : SharedSpline) (dataset : Dict (Shaped Fl))
    (p : String) (x f : List Fl) : (pXUnnormed b rule m dataset p x f).2.inst.config = m.inst.config ∧
      (pXUnnormed b rule m dataset p x f).2.inst.base = m.inst.base := by
  unfold pXUnnormed
  cases m.inst.normSpline with
  | some i => exact ⟨rfl, rfl⟩
  | none =>
    have hw := setup_warm m x dataset
    rcases hs : setupInterpolant m x dataset with ⟨o, m'⟩
    rw [hs] at hw
    cases o <;> exact hw.2

theorem loop_config (b : Backend) (rule : SplineRule) (dataset : Dict (Shaped Fl)) (x f : List Fl)
    (params : List String) : ∀ (m : SharedSpline) (px : Shaped Fl),
    (parameterLoop b rule dataset x f params px m).2.inst.config = m.inst.config ∧
    (parameterLoop b rule dataset x f params px m).2.inst.base = m.inst.base := by
  induction params with
  | nil => exact fun _ _ => ⟨rfl, rfl⟩
  | cons p params ih =>
    intro m px
    have hc := pXUnnormed_config b rule m dataset p x f
    unfold parameterLoop
    rcases hx : pXUnnormed b rule m dataset p x f with ⟨o, m'⟩
    rw [hx] at hc
    cases o with
    | error e => exact hc
    | ok q =>
      simp only
      cases Shaped.inplaceMul b px q with
      | error e => exact hc
      | ok px1 => exact ⟨(ih m' px1).1.trans hc.1, (ih m' px1).2.trans hc.2⟩

theorem inferNodes_params {m m' : SharedSpline} (hm : m.inst.config.parameters ≠ []) {kwargs : Dict Fl}
    (h : m.inferNodes kwargs = .ok m') : m'.inst.config.parameters ≠ [] := by
  unfold inferNodes at h
  simp only at h
  split_ifs at h with hne
  · cases hr : m.inst.reinit (SplineModel.inferLoop kwargs m.inst.base m.inst.config.nodes) with
    | error e => rw [hr] at h; cases h
    | ok s =>
      rw [hr] at h
      rw [← Except.ok.inj h]
      exact (constructed_fresh (reinit_constructed hr)).2.1
  · rw [← Except.ok.inj h]
    exact hm

theorem call_params (b : Backend) (rule : SplineRule) {m : SharedSpline} (hm : m.inst.config.parameters ≠ [])
    (dataset : Dict (Shaped Fl)) (kwargs : Dict Fl) :
    (call b rule m dataset kwargs).2.inst.config.parameters ≠ [] := by
  unfold call
  cases hi : m.inferNodes kwargs with
  | error e => exact hm
  | ok m' =>
    have hm' := inferNodes_params hm hi
    simp only
    split
    · exact hm'
    · split
      · exact hm'
      · rename_i f x _ _ values _
        have h := (loop_config b rule dataset x f m'.inst.config.parameters m' (values.map fun _ => 1)).1
        split
        · rename_i e s1 he
          rw [he] at h
          simp only at h
          rw [h]
          exact hm'
        · rename_i px s1 he
          rw [he] at h
          simp only at h
          split <;> (rw [h]; exact hm')

theorem runCalls_params (b : Backend) (rule : SplineRule) (hist : List (Dict (Shaped Fl) × Dict Fl)) :
    ∀ {m : SharedSpline}, m.inst.config.parameters ≠ [] → (runCalls b rule m hist).inst.config.parameters ≠ [] := by
  induction hist with
  | nil => exact fun h => h
  | cons c hist ih => exact fun h => ih (call_params b rule h c.1 c.2)

/-- **C106, one dataset.** An instance that is used for one dataset only, of any shape, returns the same array after
every history of calls with the same node positions. -/
theorem C106_one_dataset_partial (b : Backend) (rule : SplineRule) {s : SplineModel} (hs : Constructed s) {sh : List ℕ}
    {dataset : Dict (Shaped Fl)} (hd : ∀ c ∈ dataset, c.2.shape = sh)
    (hp : ∀ p ∈ s.config.parameters, dataset.contains p) {kwargs : Dict Fl} (hist : List (Dict Fl))
    (hhist : ∀ kw ∈ hist, SameNodes s.base kwargs kw) :
    (call b rule (runCalls b rule (new s) (hist.map fun kw => (dataset, kw))) dataset kwargs).1.map
        (fun r => (r.shape, r.elements)) =
      (call b rule (new s) dataset kwargs).1.map fun r => (r.shape, r.elements) := by
  have h1 := C106_arrays b rule hs (sh := sh) (hist.map fun kw => (dataset, kw)) (by
    intro c hc
    obtain ⟨kw, -, rfl⟩ := List.mem_map.1 hc
    exact hd) hd kwargs
  have h2 := C106_arrays b rule hs (sh := sh) [] (by simp) hd kwargs
  simp only [runCalls, List.map_nil, SplineModel.runCalls] at h2
  rw [h1, h2]
  congr 1
  refine C35_same_nodes_partial hs (fun p hp' => ?_) _ ?_
  · have := hp p hp'
    unfold Dict.contains flatData at *
    simpa [List.map_map, Function.comp_def] using this
  · intro c hc
    simp only [List.map_map] at hc
    obtain ⟨kw, hkw, rfl⟩ := List.mem_map.1 hc
    exact ⟨rfl, hhist kw hkw⟩

/-- **C106, two datasets on numpy and cupy.** Once an instance has returned a value for a dataset, it returns no value
for a dataset of another shape, after any further calls and with any hyper-parameters that have no further nodes: it
raises. -/
theorem C106_exclusive_partial {b : Backend} (hb : b ≠ .jax) {rule : SplineRule} {s : SplineModel}
    (hs : Constructed s) (before : List (Dict (Shaped Fl) × Dict Fl)) {se si : List ℕ} (hne : se ≠ si)
    {events inj : Dict (Shaped Fl)} (hse : ∀ c ∈ events, c.2.shape = se) (hsi : ∀ c ∈ inj, c.2.shape = si)
    {kw : Dict Fl} {r : Shaped Fl} {m : SharedSpline}
    (h : call b rule (runCalls b rule (new s) before) events kw = (.ok r, m))
    (after : List (Dict (Shaped Fl) × Dict Fl))
    (hafter : ∀ c ∈ after, ¬ Dict.contains c.2 (nodeName m.inst.base m.inst.config.nodes)) {kw' : Dict Fl}
    (hkw' : ¬ kw'.contains (nodeName m.inst.base m.inst.config.nodes)) :
    ∃ e, (call b rule (runCalls b rule m after) inj kw').1 = .error e := by
  obtain ⟨k1, k2, k3⟩ := call_ok hb hse
    (fun m' hm' => inferNodes_params (runCalls_params b rule before (m := new s) (constructed_fresh hs).2.1) hm') h
  rw [runCalls_state k1 after hafter]
  rcases h' : call b rule m inj kw' with ⟨o, m'⟩
  cases o with
  | error e => exact ⟨e, rfl⟩
  | ok r' =>
    exfalso
    obtain ⟨-, j2, j3⟩ := call_ok hb hsi (fun m' hm' => inferNodes_params k2 hm') h'
    have hm' : m' = m := by
      have := call_state (b := b) (rule := rule) k1 (dataset := inj) hkw'
      rw [h'] at this
      exact this
    subst hm'
    obtain ⟨p, hp⟩ := List.exists_mem_of_ne_nil _ k2
    obtain ⟨i, hi, hi1⟩ := k3 p hp
    obtain ⟨i', hi', hi2⟩ := j3 p hp
    rw [hi] at hi'
    cases hi'
    exact hne (hi1.symm.trans hi2)

/-- **C106, the data are not looked at.** Once there are interpolants, the outcome of a call is the same for all
datasets of one shape whose samples lie between the outer nodes, whatever these samples are. -/
theorem C106_ignores_partial {b : Backend} {rule : SplineRule} {m : SharedSpline} (hm : m.inst.normSpline.isSome)
    {kwargs : Dict Fl} (hnew : ¬ kwargs.contains (nodeName m.inst.base m.inst.config.nodes)) {f x : List Fl}
    (hpts : m.inst.extractSplinePoints kwargs = .ok (f, x)) {sh : List ℕ} {d d' : String → List ℕ → Fl}
    {data data' : Dict (Shaped Fl)} (hparams : m.inst.config.parameters ≠ [])
    (h : ∀ p ∈ m.inst.config.parameters, data.get? p = some ⟨sh, d p⟩)
    (h' : ∀ p ∈ m.inst.config.parameters, data'.get? p = some ⟨sh, d' p⟩)
    (hin : ∀ p ∈ m.inst.config.parameters, ∀ i, ∀ lo ∈ x.head?, ∀ hi ∈ x.getLast?,
      (lo ≤ d p i ∧ d p i ≤ hi) ∧ lo ≤ d' p i ∧ d' p i ≤ hi) :
    (call b rule m data kwargs).1 = (call b rule m data' kwargs).1 := by
  obtain ⟨spl, hspl⟩ := Option.isSome_iff_exists.1 hm
  have hmask : ∀ p ∈ m.inst.config.parameters, mask ⟨sh, d p⟩ x = mask ⟨sh, d' p⟩ x := by
    intro p hp
    unfold mask
    cases hlo : x.head? with
    | none => rfl
    | some lo =>
      cases hhi : x.getLast? with
      | none => rfl
      | some hi =>
        simp only [Shaped.map]
        congr 2
        funext i
        obtain ⟨k1, k2⟩ := hin p hp i lo (by rw [hlo]; rfl) hi (by rw [hhi]; rfl)
        congr 1
        exact propext ⟨fun _ => k2, fun _ => k1⟩
  have hget : ∀ {dd : String → List ℕ → Fl} {D : Dict (Shaped Fl)} {p : String}, D.get? p = some ⟨sh, dd p⟩ →
      D.get p = .ok ⟨sh, dd p⟩ := by
    intro dd D p hD
    unfold Dict.get
    rw [hD]
  have heval : ∀ p ∈ m.inst.config.parameters,
      evalUnnormed b rule m data p x f = evalUnnormed b rule m data' p x f := by
    intro p hp
    unfold evalUnnormed
    rw [hget (h p hp), hget (h' p hp)]
    simp only [ok_bind, hmask p hp]
  have hloop : ∀ ps : List String, (∀ p ∈ ps, p ∈ m.inst.config.parameters) → ∀ px,
      parameterLoop b rule data x f ps px m = parameterLoop b rule data' x f ps px m := by
    intro ps
    induction ps with
    | nil => exact fun _ _ => rfl
    | cons p ps ih =>
      intro hps px
      unfold parameterLoop pXUnnormed
      rw [hspl]
      simp only [heval p (hps p List.mem_cons_self)]
      cases evalUnnormed b rule m data' p x f with
      | error e => rfl
      | ok r =>
        simp only
        cases Shaped.inplaceMul b px r with
        | error e => rfl
        | ok px1 => exact ih (fun q hq => hps q (List.mem_cons_of_mem _ hq)) px1
  obtain ⟨p, ps, hpp⟩ := List.exists_cons_of_ne_nil hparams
  have hp : m.inst.config.parameters.headD "" ∈ m.inst.config.parameters := by rw [hpp]; simp
  unfold call
  rw [inferNodes_noNew hnew]
  simp only [hpts, hget (h _ hp), hget (h' _ hp)]
  have e : (Shaped.map (fun _ => (1 : Fl)) ⟨sh, d (m.inst.config.parameters.headD "")⟩) =
      Shaped.map (fun _ => (1 : Fl)) ⟨sh, d' (m.inst.config.parameters.headD "")⟩ := rfl
  rw [e, hloop _ (fun p hp => hp)]

/-! ## The shape of what jax returns -/

theorem loop_warm {b : Backend} {rule : SplineRule} {dataset : Dict (Shaped Fl)} {x f : List Fl}
    {params : List String} (hne : params ≠ []) {m m1 : SharedSpline} {px r : Shaped Fl}
    (h : parameterLoop b rule dataset x f params px m = (.ok r, m1)) : m1.inst.normSpline.isSome := by
  obtain ⟨p, ps, rfl⟩ := List.exists_cons_of_ne_nil hne
  unfold parameterLoop at h
  rcases hx : pXUnnormed b rule m dataset p x f with ⟨o, m'⟩
  rw [hx] at h
  cases o with
  | error e => cases (Prod.mk.inj h).1
  | ok q =>
    have hw := (pXUnnormed_ok hx).1
    simp only at h
    cases hmul : Shaped.inplaceMul b px q with
    | error e => rw [hmul] at h; cases (Prod.mk.inj h).1
    | ok px1 =>
      rw [hmul] at h
      simp only at h
      have hst := loop_state (b := b) (rule := rule) hw dataset x f ps px1
      rw [h] at hst
      simp only at hst
      rw [hst]
      exact hw

/-- What a call that returns has computed. -/
theorem call_inv {b : Backend} {rule : SplineRule} {dataset : Dict (Shaped Fl)} {m m1 : SharedSpline}
    {kwargs : Dict Fl} {r : Shaped Fl} (h : call b rule m dataset kwargs = (.ok r, m1)) :
    ∃ m' f x v px, m.inferNodes kwargs = .ok m' ∧ dataset.get (m'.inst.config.parameters.headD "") = .ok v ∧
      parameterLoop b rule dataset x f m'.inst.config.parameters (v.map fun _ => 1) m' = (.ok px, m1) ∧
      r.shape = px.shape := by
  unfold call at h
  cases hi : m.inferNodes kwargs with
  | error e => rw [hi] at h; cases (Prod.mk.inj h).1
  | ok m' =>
    rw [hi] at h
    simp only at h
    cases he : m'.inst.extractSplinePoints kwargs with
    | error e => rw [he] at h; cases (Prod.mk.inj h).1
    | ok fx =>
      obtain ⟨f, x⟩ := fx
      rw [he] at h
      simp only at h
      cases hv : dataset.get (m'.inst.config.parameters.headD "") with
      | error e => rw [hv] at h; cases (Prod.mk.inj h).1
      | ok v =>
        rw [hv] at h
        simp only at h
        rcases hl : parameterLoop b rule dataset x f m'.inst.config.parameters (v.map fun _ => 1) m' with ⟨o, m2⟩
        rw [hl] at h
        cases o with
        | error e => cases (Prod.mk.inj h).1
        | ok px =>
          simp only at h
          cases hn : SplineModel.normPX b rule m2.inst f x with
          | error e => rw [hn] at h; cases (Prod.mk.inj h).1
          | ok norm =>
            rw [hn] at h
            obtain ⟨h1, h2⟩ := Prod.mk.inj h
            subst h2
            refine ⟨m', f, x, v, px, rfl, hv, hl, ?_⟩
            rw [← Except.ok.inj h1]
            rfl

theorem inplaceMul_shape {b : Backend} {x y r : Shaped Fl} (h : Shaped.inplaceMul b x y = .ok r) :
    NArr.bshape x.shape y.shape = some r.shape := by
  unfold Shaped.inplaceMul Shaped.zip at h
  cases hs : NArr.bshape x.shape y.shape with
  | none => rw [hs] at h; cases h
  | some t =>
    rw [hs] at h
    simp only [ok_bind] at h
    split_ifs at h with hc
    rw [← Except.ok.inj h]

theorem evalUnnormed_bshape {b : Backend} {rule : SplineRule} {m : SharedSpline} {se si : List ℕ}
    (hm : Uniform se m) {dataset : Dict (Shaped Fl)} (hd : ∀ c ∈ dataset, c.2.shape = si) {p : String}
    {x f : List Fl} {r : Shaped Fl} (h : evalUnnormed b rule m dataset p x f = .ok r) :
    NArr.bshape se si = some r.shape := by
  unfold evalUnnormed at h
  obtain ⟨i, hi, h⟩ := bind_eq_ok.1 h
  obtain ⟨v, hv, h⟩ := bind_eq_ok.1 h
  obtain ⟨k, hk, h⟩ := bind_eq_ok.1 h
  have h1 := inplaceMul_shape h
  have hks : k.shape = si := by
    unfold mask at hk
    split at hk
    · rw [← Except.ok.inj hk]
      exact hd _ (get_mem hv)
    · cases hk
  have his : ((i.eval rule f).map Fl.exp).shape = se := hm _ (get_mem hi)
  rw [hks, his] at h1
  exact h1

theorem loop_shape {b : Backend} {rule : SplineRule} {m : SharedSpline} (hw : m.inst.normSpline.isSome)
    {se si : List ℕ} (hm : Uniform se m) (h1 : NArr.bshape se si = some se) (h2 : NArr.bshape si se = some se)
    {dataset : Dict (Shaped Fl)} (hd : ∀ c ∈ dataset, c.2.shape = si) {x f : List Fl} {params : List String} :
    ∀ {px r : Shaped Fl} {m1 : SharedSpline}, px.shape = se ∨ px.shape = si ∧ params ≠ [] →
      parameterLoop b rule dataset x f params px m = (.ok r, m1) → r.shape = se := by
  obtain ⟨spl, hspl⟩ := Option.isSome_iff_exists.1 hw
  induction params with
  | nil =>
    intro px r m1 hp h
    rcases hp with hp | ⟨-, hp⟩
    · rw [← Except.ok.inj (Prod.mk.inj h).1]; exact hp
    · exact absurd rfl hp
  | cons p ps ih =>
    intro px r m1 hp h
    unfold parameterLoop pXUnnormed at h
    rw [hspl] at h
    simp only at h
    cases he : evalUnnormed b rule m dataset p x f with
    | error e => rw [he] at h; cases (Prod.mk.inj h).1
    | ok q =>
      rw [he] at h
      simp only at h
      have hq := evalUnnormed_bshape hm hd he
      rw [h1] at hq
      cases hmul : Shaped.inplaceMul b px q with
      | error e => rw [hmul] at h; cases (Prod.mk.inj h).1
      | ok px1 =>
        rw [hmul] at h
        simp only at h
        refine ih (Or.inl ?_) h
        have := inplaceMul_shape hmul
        rw [← Option.some.inj hq] at this
        rcases hp with hp | ⟨hp, -⟩
        · rw [hp, SharedSmoothed.bshape_self] at this
          exact (Option.some.inj this).symm
        · rw [hp, h2] at this
          exact (Option.some.inj this).symm

/-- **C106, shapes.** If the instance was set up for samples of shape `se` and the injections fit into that shape (on
jax: as many injections as samples per event), what a call on the injections returns has the shape of the posterior
samples. -/
theorem C106_shape_partial {b : Backend} {rule : SplineRule} {m : SharedSpline} (hw : m.inst.normSpline.isSome)
    {se si : List ℕ} (hm : Uniform se m) (hp : m.inst.config.parameters ≠ []) (h1 : NArr.bshape se si = some se)
    (h2 : NArr.bshape si se = some se) {inj : Dict (Shaped Fl)} (hd : ∀ c ∈ inj, c.2.shape = si) {kwargs : Dict Fl}
    (hnew : ¬ kwargs.contains (nodeName m.inst.base m.inst.config.nodes)) {r : Shaped Fl}
    (h : (call b rule m inj kwargs).1 = .ok r) : r.shape = se := by
  rcases hc : call b rule m inj kwargs with ⟨o, m1⟩
  rw [hc] at h
  simp only at h
  subst h
  obtain ⟨m', f, x, v, px, k1, k2, k3, k4⟩ := call_inv hc
  rw [inferNodes_noNew hnew] at k1
  have := Except.ok.inj k1
  subst this
  rw [k4]
  have hv : (v.map fun _ => (1 : Fl)).shape = si := hd _ (get_mem k2)
  exact loop_shape hw hm h1 h2 hd (Or.inr ⟨hv, hp⟩) k3

/-! ## The property is false -/

/-- The property: an instance used for the posterior samples and the injections, with the same node positions and any
values at the nodes, returns for each dataset what a new instance returns. -/
def C106_statement (b : Backend) (rule : SplineRule) : Prop :=
  ∀ (s : SplineModel) (events inj : Dict (Shaped Fl)) (se si : List ℕ) (hist : List (Bool × Dict Fl)) (kwargs : Dict Fl),
    Constructed s → (∀ c ∈ events, c.2.shape = se) → (∀ c ∈ inj, c.2.shape = si) →
    (∀ p ∈ s.config.parameters, events.contains p ∧ inj.contains p) →
    (∀ c ∈ hist, SameNodes s.base kwargs c.2) →
    (call b rule (runCalls b rule (new s) (hist.map fun c => (if c.1 then events else inj, c.2))) inj kwargs).1.map
        (fun r => (r.shape, r.elements)) =
      (call b rule (new s) inj kwargs).1.map fun r => (r.shape, r.elements)

/-- One column. -/
def lineShaped (sh : List ℕ) (v : ℝ) : Dict (Shaped Fl) := [("x", ⟨sh, fun _ => fin v⟩)]

theorem lineShaped_value {b : Backend} {rule : SplineRule} {S : String → List ℝ → List ℝ → ℝ → ℝ}
    (hrule : RealRule rule S) (sh : List ℕ) (v : ℝ) :
    ∃ r, (call b rule (new lineModel) (lineShaped sh v) lineNodes).1 = .ok r ∧ r.shape = sh := by
  obtain ⟨r, h1, h2, -⟩ := C106_value (b := b) hrule (.base lineModel_init) (sh := sh) (sample := fun _ _ => v)
    (dataset := lineShaped sh v) (by simp [lineShaped]) (by
      intro p hp
      have : p = "x" := by simpa [lineModel] using hp
      subst this
      rfl) lineNodes_noNew (x := [0, 1]) (f := [0, 1]) (by simp) lineModel_points
    ⟨fun h => (by cases h), fun h => (by cases h), fun _ _ h => (by cases h)⟩ (lineGrid_norm S).ne'
  exact ⟨r, h1, h2⟩

/-- On every backend the property fails: one call on two events with one sample each, then one on one injection. -/
theorem C106_fails (b : Backend) {rule : SplineRule} {S : String → List ℝ → List ℝ → ℝ → ℝ}
    (hrule : RealRule rule S) : ¬ C106_statement b rule := by
  intro H
  have h := H lineModel (lineShaped [1, 2] 0) (lineShaped [1] 1) [1, 2] [1] [(true, lineNodes)] lineNodes
    (.base lineModel_init) (by simp [lineShaped]) (by simp [lineShaped]) (by
      intro p hp
      have : p = "x" := by simpa [lineModel] using hp
      subst this
      simp [lineShaped, Dict.contains]) (by
      intro c hc
      simp only [List.mem_singleton] at hc
      subst hc
      exact ⟨fun _ => Iff.rfl, fun _ => rfl⟩)
  obtain ⟨r, hr, hrs⟩ := lineShaped_value (b := b) hrule [1] 1
  obtain ⟨r', hr', -⟩ := lineShaped_value (b := b) hrule [1, 2] 0
  rw [hr] at h
  simp only [List.map_cons, List.map_nil, runCalls, if_true, Except.map, hrs] at h
  rcases hc : call b rule (new lineModel) (lineShaped [1, 2] 0) lineNodes with ⟨o, m⟩
  rw [hc] at hr' h
  simp only at hr' h
  subst hr'
  obtain ⟨m', f, x, v, px, k1, k2, k3, k4⟩ := call_inv hc
  rw [inferNodes_noNew (m := new lineModel) lineNodes_noNew] at k1
  have := Except.ok.inj k1
  subst this
  have hw : m.inst.normSpline.isSome := loop_warm (by simp [new, lineModel]) k3
  have hu : Uniform [1, 2] m := by
    have := (call_flat b rule (new_uniform lineModel [1, 2]) (dataset := lineShaped [1, 2] 0) (by simp [lineShaped])
      lineNodes).2.2
    rw [hc] at this
    exact this
  have hcfg : m.inst.config = lineModel.config ∧ m.inst.base = lineModel.base := by
    have := loop_config b rule (lineShaped [1, 2] 0) x f (new lineModel).inst.config.parameters (new lineModel)
      (v.map fun _ => 1)
    rw [k3] at this
    exact this
  cases ho : (call b rule m (lineShaped [1] 1) lineNodes).1 with
  | error e => rw [ho] at h; cases h
  | ok q =>
    rw [ho] at h
    have hq := C106_shape_partial (se := [1, 2]) (si := [1]) hw hu (by rw [hcfg.1]; simp [lineModel]) (by decide)
      (by decide) (by simp [lineShaped]) (by rw [hcfg.2, hcfg.1]; exact lineNodes_noNew) ho
    have := (Prod.mk.inj (Except.ok.inj h)).1
    rw [hq] at this
    simp at this

/-- Non-vacuity of the arrays theorem: three events with two samples each, after a call with other node values. -/
example (b : Backend) (rule : SplineRule) :
    (call b rule (runCalls b rule (new lineModel) [(lineShaped [2, 3] 0.3, [("x0", fin 0), ("x1", fin 1),
      ("fx0", fin 5), ("fx1", fin 7)])]) (lineShaped [2, 3] 0.3) lineNodes).1.map (fun r => (r.shape, r.elements)) =
    (SplineModel.call b rule (SplineModel.runCalls b rule lineModel [(flatData (lineShaped [2, 3] 0.3), [("x0", fin 0),
      ("x1", fin 1), ("fx0", fin 5), ("fx1", fin 7)])]) (flatData (lineShaped [2, 3] 0.3)) lineNodes).1.map
      fun l => ([2, 3], l) :=
  C106_arrays b rule (.base lineModel_init) _ (by simp [lineShaped]) (by simp [lineShaped]) _

/-- Non-vacuity of exclusiveness: after the events, every call on the injections raises, on numpy and cupy. -/
example {b : Backend} (hb : b ≠ .jax) {rule : SplineRule} {S : String → List ℝ → List ℝ → ℝ → ℝ}
    (hrule : RealRule rule S) :
    ∃ e, (call b rule (call b rule (new lineModel) (lineShaped [2, 3] 0) lineNodes).2 (lineShaped [6] 0.5)
      lineNodes).1 = .error e := by
  obtain ⟨r, hr, -⟩ := lineShaped_value (b := b) hrule [2, 3] 0
  rcases hc : call b rule (new lineModel) (lineShaped [2, 3] 0) lineNodes with ⟨o, m⟩
  rw [hc] at hr
  simp only at hr
  subst hr
  refine C106_exclusive_partial hb (.base lineModel_init) [] (se := [2, 3]) (si := [6]) (by simp)
    (events := lineShaped [2, 3] 0) (by simp [lineShaped]) (by simp [lineShaped]) hc [] (by simp) ?_
  obtain ⟨m', f, x, v, px, k1, -, k3, -⟩ := call_inv hc
  rw [inferNodes_noNew (m := new lineModel) lineNodes_noNew] at k1
  have := Except.ok.inj k1
  subst this
  have hcfg := loop_config b rule (lineShaped [2, 3] 0) x f (new lineModel).inst.config.parameters (new lineModel)
    (v.map fun _ => 1)
  rw [k3] at hcfg
  rw [hcfg.1, hcfg.2]
  exact lineNodes_noNew

/-- Non-vacuity of one dataset: two calls with different values at the nodes. -/
example (b : Backend) (rule : SplineRule) :
    (call b rule (runCalls b rule (new lineModel) [(lineShaped [2, 3] 0.3, [("x0", fin 0), ("x1", fin 1),
      ("fx0", fin 5), ("fx1", fin 7)])]) (lineShaped [2, 3] 0.3) lineNodes).1.map (fun r => (r.shape, r.elements)) =
    (call b rule (new lineModel) (lineShaped [2, 3] 0.3) lineNodes).1.map fun r => (r.shape, r.elements) := by
  refine C106_one_dataset_partial b rule (.base lineModel_init) (sh := [2, 3]) (by simp [lineShaped]) ?_
    (hist := [[("x0", fin 0), ("x1", fin 1), ("fx0", fin 5), ("fx1", fin 7)]]) ?_
  · intro p hp
    have : p = "x" := by simpa [lineModel] using hp
    subst this
    simp [lineShaped, Dict.contains]
  · intro kw hkw
    simp only [List.mem_singleton] at hkw
    subst hkw
    refine ⟨fun n => ?_, fun n => ?_⟩
    · simp [lineNodes, Dict.contains]
    · simp only [lineNodes, Dict.get?_cons]
      rfl

end SharedSpline

end GW
