import Verif.Props.SplineHistory
import Verif.Props.InterpPowerlaw
import Verif.Lemmas.Scaling

/-!
# Spline models: the overall offset or scale of the node values does not matter (C113)
-/

noncomputable section

open Classical

namespace GW

open Fl SplineModel

/-- An interpolation rule for which adding a constant to all node values adds it to the interpolant. -/
def Spec.MovesWithNodes (rule : SplineRule) : Prop :=
  ∀ (kind : String) (nodes y : List Fl) (c : ℝ) (v : Fl), y ≠ [] →
    rule kind nodes (y.map (· + fin c)) v = rule kind nodes y v + fin c

/-- A rule that is linear in the node values, with weights that sum to one: the form of the interpolants
of the library, which multiply the node values by a matrix computed from the nodes. -/
def Spec.WeightedRule (rule : SplineRule) : Prop :=
  ∃ w : String → List Fl → ℕ → Fl → List ℝ,
    (∀ kind nodes n v, n ≠ 0 → (w kind nodes n v).length = n ∧ (w kind nodes n v).sum = 1) ∧
    ∀ kind nodes (y : List Fl) v, rule kind nodes y v =
      (List.zipWith (fun (a : ℝ) (x : Fl) => fin a * x) (w kind nodes y.length v) y).sum

/-- The same arguments, with `c` added to every node value. -/
def Spec.Offset (base : String) (c : ℝ) (k k' : Dict Fl) : Prop :=
  (∀ i, k'.get? (nodeName base i) = (k.get? (nodeName base i)).map (· + fin c)) ∧
  ∀ n, (∀ i, n ≠ nodeName base i) → k'.get? n = k.get? n

/-- The same arguments, with every node value multiplied by `c`. -/
def Spec.Rescaled (base : String) (c : ℝ) (k k' : Dict Fl) : Prop :=
  (∀ i, k'.get? (nodeName base i) = (k.get? (nodeName base i)).map (fin c * ·)) ∧
  ∀ n, (∀ i, n ≠ nodeName base i) → k'.get? n = k.get? n

namespace SplineOffset

open Spec

theorem sum_weights (w : List ℝ) (y : List Fl) (c : ℝ) (h : w.length = y.length) :
    (List.zipWith (fun (a : ℝ) (x : Fl) => fin a * x) w (y.map (· + fin c))).sum =
      (List.zipWith (fun (a : ℝ) (x : Fl) => fin a * x) w y).sum + fin (w.sum * c) := by
  induction w generalizing y with
  | nil => simp
  | cons a w ih =>
    cases y with
    | nil => simp at h
    | cons x y =>
      simp only [List.map_cons, List.zipWith_cons_cons, List.sum_cons]
      rw [ih y (by simpa using h), fin_mul_add_fin, add_mul, ← fin_add]
      generalize (List.zipWith (fun (a : ℝ) (x : Fl) => fin a * x) w y).sum = S
      generalize fin a * x = X
      cases X <;> cases S <;> simp
      ring

/-- Rules with weights that sum to one move with the node values. -/
theorem weighted_moves {rule : SplineRule} (h : WeightedRule rule) : MovesWithNodes rule := by
  obtain ⟨w, h1, h2⟩ := h
  intro kind nodes y c v hy
  obtain ⟨hl, hs⟩ := h1 kind nodes y.length v (by simpa using hy)
  rw [h2, h2, List.length_map, sum_weights _ _ _ hl, hs, _root_.one_mul]

/-! ### The arguments -/

theorem nodeName_head {base : String} {i : ℕ} {n : String} (h : n = nodeName base i) :
    n.toList.head? = some 'f' := by
  subst h
  unfold nodeName
  simp [String.toList_append]

theorem position_ne (base : String) (i j : ℕ) : base ++ toString i ≠ nodeName base j := by
  intro h
  have h := congrArg (fun s : String => s.toList.count 'f') h
  unfold nodeName at h
  simp only [String.toList_append, List.count_append] at h
  rw [count_toString 'f' (by decide), count_toString 'f' (by decide)] at h
  have : ("f" : String).toList.count 'f' = 1 := by decide
  omega

theorem rms_ne (base : String) (j : ℕ) : rmsKey base ≠ nodeName base j := by
  intro h
  have := nodeName_head h
  unfold rmsKey at this
  simp [String.toList_append] at this

theorem changed_same {base : String} {g : Fl → Fl} {k k' : Dict Fl}
    (h1 : ∀ i, k'.get? (nodeName base i) = (k.get? (nodeName base i)).map g)
    (h2 : ∀ n, (∀ i, n ≠ nodeName base i) → k'.get? n = k.get? n) : SameNodes base k k' := by
  constructor
  · intro n
    have : k.get? (nodeName base n) = none ↔ k'.get? (nodeName base n) = none := by
      rw [h1]; simp
    rw [Dict.get?_eq_none_iff, Dict.get?_eq_none_iff] at this
    exact not_iff_not.1 this
  · intro n
    exact (h2 _ fun j => position_ne base n j).symm

theorem mapM_get_changed {k k' : Dict Fl} (keys : List String) (g : Fl → Fl)
    (h : ∀ n ∈ keys, k'.get? n = (k.get? n).map g) :
    keys.mapM k'.get = (keys.mapM k.get).map (List.map g) := by
  induction keys with
  | nil => rfl
  | cons n keys ih =>
    rw [List.mapM_cons, List.mapM_cons, ih fun m hm => h m (List.mem_cons_of_mem _ hm)]
    have hn : k'.get n = (k.get n).map g := by
      unfold Dict.get
      rw [h n (by simp)]
      cases k.get? n <;> rfl
    rw [hn]
    generalize k.get n = v
    generalize keys.mapM k.get = vs
    cases v <;> cases vs <;> rfl

theorem fkeys_changed {s : SplineModel} {g : Fl → Fl} {k k' : Dict Fl}
    (h1 : ∀ i, k'.get? (nodeName s.base i) = (k.get? (nodeName s.base i)).map g) :
    s.fkeys.mapM k'.get = (s.fkeys.mapM k.get).map (List.map g) := by
  refine mapM_get_changed _ g fun n hn => ?_
  unfold fkeys at hn
  obtain ⟨i, -, rfl⟩ := List.mem_map.1 hn
  exact h1 i

theorem xkeys_changed {s : SplineModel} {k k' : Dict Fl} (h : SameNodes s.base k k') :
    s.xkeys.mapM k'.get = s.xkeys.mapM k.get := (positions_congr h).symm

/-- Extracted node values of an unregularised model are offset with the arguments. -/
theorem extract_offset {s : SplineModel} (hr : s.config.regularize = false) {c : ℝ} {k k' : Dict Fl}
    (h : Offset s.base c k k') :
    s.extractSplinePoints k' =
      (s.extractSplinePoints k).map fun p => (p.1.map (· + fin c), p.2) := by
  unfold extractSplinePoints regularise
  rw [fkeys_changed h.1, xkeys_changed (changed_same h.1 h.2), hr]
  simp only [Bool.false_eq_true, if_false]
  cases s.fkeys.mapM k.get with
  | error e => rfl
  | ok f =>
    show (Except.bind (Except.ok _) _ : Except PyErr _) = _
    cases s.xkeys.mapM k.get with
    | error e => rfl
    | ok x => rfl

/-- Sums of squares. -/
def NonNeg (x : Fl) : Prop := x = nan ∨ x = pinf ∨ ∃ r : ℝ, 0 ≤ r ∧ x = fin r

theorem nonNeg_sum (l : List Fl) : NonNeg (l.map (· ^ 2)).sum := by
  induction l with
  | nil => exact .inr (.inr ⟨0, le_refl _, rfl⟩)
  | cons a l ih =>
    rw [List.map_cons, List.sum_cons]
    rcases ih with h | h | ⟨r, hr, h⟩ <;> rw [h]
    · left; simp
    · cases a with
      | fin a => right; left; simp
      | pinf => right; left; rw [npow_two]; simp
      | ninf => right; left; rw [npow_two]; simp
      | nan => left; rw [npow_two]; simp
    · cases a with
      | fin a => exact .inr (.inr ⟨a ^ 2 + r, by positivity, by simp⟩)
      | pinf => right; left; rw [npow_two]; simp
      | ninf => right; left; rw [npow_two]; simp
      | nan => left; rw [npow_two]; simp

theorem nonNeg_mean (l : List Fl) : NonNeg (Arr.mean (l.map (· ^ 2))) := by
  unfold Arr.mean
  rw [List.length_map, natCast_eq]
  rcases l.eq_nil_or_concat with rfl | hne
  · left
    simp
  · have hl : 0 < (l.length : ℝ) := by
      obtain ⟨l', a, rfl⟩ := hne
      simp
      positivity
    rcases nonNeg_sum l with h | h | ⟨r, hr, h⟩ <;> rw [h]
    · left; simp
    · right; left
      rw [pinf_div_fin, if_neg (not_lt.2 hl.le)]
    · exact .inr (.inr ⟨r / l.length, by positivity, by rw [fin_div hl.ne']⟩)

theorem sqrt_scale {c : ℝ} (hc : 0 < c) {x : Fl} (hx : NonNeg x) :
    Fl.pow (fin (c ^ 2) * x) (fin 0.5) = fin c * Fl.pow x (fin 0.5) := by
  have hc2 : 0 < c ^ 2 := by positivity
  have h05 : (0 : ℝ) < 0.5 := by norm_num
  rcases hx with rfl | rfl | ⟨r, hr, rfl⟩
  · rw [mul_nan]
    show (if (0.5 : ℝ) = 0 then fin 1 else nan) = fin c * (if (0.5 : ℝ) = 0 then fin 1 else nan)
    rw [if_neg h05.ne', mul_nan]
  · rw [scale_pinf hc2]
    show (if (0.5 : ℝ) = 0 then fin 1 else if (0 : ℝ) < 0.5 then pinf else fin 0) =
      fin c * (if (0.5 : ℝ) = 0 then fin 1 else if (0 : ℝ) < 0.5 then pinf else fin 0)
    rw [if_neg h05.ne', if_pos h05, scale_pinf hc]
  · rw [fin_mul]
    rcases hr.eq_or_lt with rfl | hr
    · rw [mul_zero, pow_fin]
      unfold powFin
      rw [if_neg (lt_irrefl _), if_pos rfl, if_neg h05.ne', if_pos h05, fin_mul, mul_zero]
    · rw [pow_fin_pos (by positivity), pow_fin_pos hr, fin_mul, Real.mul_rpow hc2.le hr.le, ← Real.rpow_natCast,
        ← Real.rpow_mul hc.le]
      norm_num

theorem rms_scale {c : ℝ} (hc : 0 < c) (rms : Fl) (f : List Fl) :
    rmsFactor rms (f.map (fin c * ·)) = fin c⁻¹ * rmsFactor rms f := by
  unfold rmsFactor
  have : (f.map (fin c * ·)).map (· ^ 2) = (f.map (· ^ 2)).map (fin (c ^ 2) * ·) := by
    rw [List.map_map, List.map_map]
    exact List.map_congr_left fun y _ => scale_sq y
  rw [this, mean_scale (by positivity), sqrt_scale hc (nonNeg_mean f), div_scale hc]

/-- The node values of a regularised model do not depend on the scale of the arguments. -/
theorem extract_rescaled {s : SplineModel} (hr : s.config.regularize = true) {c : ℝ} (hc : 0 < c) {k k' : Dict Fl}
    (h : Rescaled s.base c k k') : s.extractSplinePoints k' = s.extractSplinePoints k := by
  unfold extractSplinePoints regularise
  rw [fkeys_changed h.1, xkeys_changed (changed_same h.1 h.2)]
  simp only [hr, if_true]
  cases s.fkeys.mapM k.get with
  | error e => rfl
  | ok f =>
    have hrms : k'.get (rmsKey s.base) = k.get (rmsKey s.base) := by
      unfold Dict.get
      rw [h.2 _ fun i => rms_ne s.base i]
    show (do
      let f ← (do
        let rms ← k'.get (rmsKey s.base)
        return (f.map (fin c * ·)).map (· * rmsFactor rms (f.map (fin c * ·))))
      let x ← s.xkeys.mapM k.get
      return (f, x) : Except PyErr _) = (do
      let f ← (do
        let rms ← k.get (rmsKey s.base)
        return f.map (· * rmsFactor rms f))
      let x ← s.xkeys.mapM k.get
      return (f, x) : Except PyErr _)
    rw [hrms]
    cases k.get (rmsKey s.base) with
    | error e => rfl
    | ok rms =>
      have : (f.map (fin c * ·)).map (· * rmsFactor rms (f.map (fin c * ·))) = f.map (· * rmsFactor rms f) := by
        rw [List.map_map]
        refine List.map_congr_left fun y _ => ?_
        show fin c * y * rmsFactor rms (f.map (fin c * ·)) = _
        rw [rms_scale hc, mul_mul_mul_comm, fin_mul, mul_inv_cancel₀ hc.ne']
        exact Fl.one_mul _
      simp only [ok_bind, pure_eq_ok, this]

/-! ### The evaluation -/

theorem exp_offset (x : Fl) (c : ℝ) : Fl.exp (x + fin c) = fin (Real.exp c) * Fl.exp x := by
  cases x with
  | fin x => simp [Real.exp_add, mul_comm]
  | pinf => rw [pinf_add_fin]; exact (scale_pinf (Real.exp_pos c)).symm
  | ninf => simp
  | nan => simp

theorem eval_offset {rule : SplineRule} (h : MovesWithNodes rule) (i : Interpolant) {f : List Fl} (hf : f ≠ []) (c : ℝ) :
    (i.eval rule (f.map (· + fin c))).map Fl.exp =
      ((i.eval rule f).map Fl.exp).map (fin (Real.exp c) * ·) := by
  unfold Interpolant.eval
  rw [List.map_map, List.map_map, List.map_map]
  refine List.map_congr_left fun v _ => ?_
  show Fl.exp (rule i.kind i.nodes (f.map (· + fin c)) v) = fin (Real.exp c) * Fl.exp (rule i.kind i.nodes f v)
  rw [h _ _ _ _ _ hf, exp_offset]

theorem zipWith_scale (a e : ℝ) (xs ys : List Fl) :
    List.zipWith (· * ·) (xs.map (fin a * ·)) (ys.map (fin e * ·)) =
      (List.zipWith (· * ·) xs ys).map (fin (a * e) * ·) := by
  rw [List.zipWith_map, List.map_zipWith]
  congr 1
  funext x y
  rw [mul_mul_mul_comm, fin_mul]

theorem broadcast_scale (b : Backend) (a e : ℝ) (xs ys : List Fl) :
    Smoothed.broadcast b (· * ·) (xs.map (fin a * ·)) (ys.map (fin e * ·)) =
      (Smoothed.broadcast b (· * ·) xs ys).map (List.map (fin (a * e) * ·)) := by
  unfold Smoothed.broadcast
  simp only [List.length_map]
  by_cases hl : xs.length = ys.length
  · rw [if_pos hl, if_pos hl, zipWith_scale]; rfl
  · rw [if_neg hl, if_neg hl]
    have hm : ∀ x y : Fl, fin a * x * (fin e * y) = fin (a * e) * (x * y) := fun x y => by
      rw [mul_mul_mul_comm, fin_mul]
    match xs, ys with
    | xs, [y] =>
      simp only [List.map_cons, List.map_nil, List.map_map, Except.map, Except.ok.injEq]
      exact List.map_congr_left fun x _ => hm x y
    | [x], [] =>
      simp [Except.map]
    | [x], y :: y' :: ys =>
      simp only [List.map_cons, List.map_nil, List.map_map, Except.map, Except.ok.injEq]
      refine congrArg₂ _ (hm x y) (congrArg₂ _ (hm x y') ?_)
      exact List.map_congr_left fun z _ => hm x z
    | [], [] => simp at hl
    | [], y :: y' :: ys => rfl
    | x :: x' :: xs, [] => rfl
    | x :: x' :: xs, y :: y' :: ys => rfl

theorem inplaceMul_scale (b : Backend) (a e : ℝ) (xs ys : List Fl) :
    inplaceMul b (xs.map (fin a * ·)) (ys.map (fin e * ·)) =
      (inplaceMul b xs ys).map (List.map (fin (a * e) * ·)) := by
  unfold inplaceMul
  rw [broadcast_scale]
  cases Smoothed.broadcast b (· * ·) xs ys with
  | error e => rfl
  | ok r =>
    simp only [Except.map, ok_bind, List.length_map]
    split_ifs <;> rfl

theorem map_one (xs : List Fl) : xs.map (fin 1 * ·) = xs := by
  exact (List.map_congr_left fun x _ => Fl.one_mul x).trans (List.map_id' xs)

theorem inplaceMul_left (b : Backend) (a : ℝ) (xs ys : List Fl) :
    inplaceMul b (xs.map (fin a * ·)) ys = (inplaceMul b xs ys).map (List.map (fin a * ·)) := by
  have := inplaceMul_scale b a 1 xs ys
  rw [map_one, _root_.mul_one] at this
  exact this

theorem inplaceMul_right (b : Backend) (a : ℝ) (xs ys : List Fl) :
    inplaceMul b xs (ys.map (fin a * ·)) = (inplaceMul b xs ys).map (List.map (fin a * ·)) := by
  have := inplaceMul_scale b 1 a xs ys
  rw [map_one, _root_.one_mul] at this
  exact this

theorem trapz_scale_left {c : ℝ} (hc : 0 < c) (ys xs : List Fl) :
    Arr.trapz (ys.map (fin c * ·)) xs = fin c * Arr.trapz ys xs := by
  induction ys generalizing xs with
  | nil => simp [Arr.trapz]
  | cons y ys ih =>
    cases ys with
    | nil => simp [Arr.trapz]
    | cons y' ys =>
      cases xs with
      | nil => simp [Arr.trapz]
      | cons x xs =>
        cases xs with
        | nil => simp [Arr.trapz]
        | cons x' xs =>
          have := ih (x' :: xs)
          simp only [List.map_cons, Arr.trapz] at this ⊢
          rw [this, ← scale_add hc y' y, mul_left_comm, scale_div hc, ← scale_add hc]

section

variable {b : Backend} {rule : SplineRule} {c : ℝ}

theorem evalUnnormed_offset (hrule : MovesWithNodes rule) (s : SplineModel) (dataset : Dict (List Fl)) (p : String)
    (x : List Fl) {f : List Fl} (hf : f ≠ []) :
    evalUnnormed b rule s dataset p x (f.map (· + fin c)) =
      (evalUnnormed b rule s dataset p x f).map (List.map (fin (Real.exp c) * ·)) := by
  unfold evalUnnormed
  cases s.dataSpline.get p with
  | error e => rfl
  | ok i =>
    simp only [ok_bind]
    cases dataset.get p with
    | error e => rfl
    | ok v =>
      simp only [ok_bind]
      cases mask v x with
      | error e => rfl
      | ok m =>
        simp only [ok_bind]
        rw [eval_offset hrule i hf, inplaceMul_left]

theorem pXUnnormed_offset (hrule : MovesWithNodes rule) (s : SplineModel) (dataset : Dict (List Fl)) (p : String)
    (x : List Fl) {f : List Fl} (hf : f ≠ []) :
    pXUnnormed b rule s dataset p x (f.map (· + fin c)) =
      ((pXUnnormed b rule s dataset p x f).1.map (List.map (fin (Real.exp c) * ·)),
        (pXUnnormed b rule s dataset p x f).2) := by
  unfold pXUnnormed
  cases s.normSpline with
  | some i => rw [evalUnnormed_offset hrule _ _ _ _ hf]
  | none =>
    simp only
    cases s.setupInterpolant x dataset with
    | mk o s1 =>
      cases o with
      | error e => rfl
      | ok u =>
        simp only
        rw [evalUnnormed_offset hrule _ _ _ _ hf]

theorem normPX_offset (hrule : MovesWithNodes rule) (s : SplineModel) (x : List Fl) {f : List Fl} (hf : f ≠ []) :
    normPX b rule s (f.map (· + fin c)) x = (normPX b rule s f x).map (fin (Real.exp c) * ·) := by
  unfold normPX
  cases s.normSpline with
  | none => rfl
  | some i =>
    simp only
    cases mask (s.xs.map fin) x with
    | error e => rfl
    | ok m =>
      simp only [ok_bind]
      rw [eval_offset hrule i hf, inplaceMul_left]
      cases inplaceMul b ((i.eval rule f).map Fl.exp) m with
      | error e => rfl
      | ok px =>
        simp only [Except.map, ok_bind, pure_eq_ok]
        rw [trapz_scale_left (Real.exp_pos c)]

theorem parameterLoop_offset (hrule : MovesWithNodes rule) (dataset : Dict (List Fl)) (x : List Fl) {f : List Fl}
    (hf : f ≠ []) (params : List String) (px : List Fl) (a : ℝ) (s : SplineModel) :
    parameterLoop b rule dataset x (f.map (· + fin c)) params (px.map (fin a * ·)) s =
      ((parameterLoop b rule dataset x f params px s).1.map
          (List.map (fin (a * Real.exp c ^ params.length) * ·)),
        (parameterLoop b rule dataset x f params px s).2) := by
  induction params generalizing px a s with
  | nil => simp [parameterLoop, Except.map]
  | cons p params ih =>
    unfold parameterLoop
    rw [pXUnnormed_offset hrule _ _ _ _ hf]
    cases pXUnnormed b rule s dataset p x f with
    | mk o s1 =>
      cases o with
      | error e => rfl
      | ok r =>
        simp only [Except.map]
        rw [inplaceMul_scale]
        cases inplaceMul b px r with
        | error e => rfl
        | ok px1 =>
          simp only [Except.map]
          rw [ih]
          simp only [Except.map, List.length_cons]
          rw [pow_succ', ← mul_assoc]

/-- One call: the same outcome and the same instance afterwards. -/
theorem call_offset (hrule : MovesWithNodes rule) {s : SplineModel} (hs : s.config.regularize = false)
    (hbase : ∀ t n, s.reinit n = .ok t → t.base = s.base) (dataset : Dict (List Fl)) {k k' : Dict Fl}
    (h : Offset s.base c k k') : call b rule s dataset k' = call b rule s dataset k := by
  have hinf := inferNodes_congr (changed_same h.1 h.2)
  unfold call
  rw [← hinf]
  cases hi : s.inferNodes k with
  | error e => rfl
  | ok t =>
    have ht : t.base = s.base ∧ t.config.regularize = false := by
      unfold inferNodes at hi
      simp only at hi
      split_ifs at hi with hne
      · refine ⟨hbase _ _ hi, ?_⟩
        unfold reinit at hi
        split at hi
        · cases hi
        · rw [(init_nodes hi).1]
        · rw [(init_nodes hi).1]
      · cases hi
        exact ⟨rfl, hs⟩
    simp only
    rw [extract_offset ht.2 (by rw [ht.1]; exact h)]
    cases t.extractSplinePoints k with
    | error e => rfl
    | ok fx =>
      obtain ⟨f, x⟩ := fx
      simp only [Except.map]
      by_cases hf : f = []
      · subst hf; rfl
      cases dataset.get (t.config.parameters.headD "") with
      | error e => rfl
      | ok values =>
        simp only
        have hpl := parameterLoop_offset (b := b) (c := c) hrule dataset x hf t.config.parameters
          (values.map fun _ => 1) 1 t
        rw [map_one, _root_.one_mul] at hpl
        rw [hpl]
        cases parameterLoop b rule dataset x f t.config.parameters (values.map fun _ => 1) t with
        | mk o s1 =>
          cases o with
          | error e => rfl
          | ok px =>
            simp only [Except.map]
            rw [normPX_offset hrule _ _ hf]
            cases normPX b rule s1 f x with
            | error e => rfl
            | ok Z =>
              simp only [Except.map]
              congr 2
              rw [List.map_map]
              refine List.map_congr_left fun y _ => ?_
              show fin (Real.exp c ^ _) * y / (fin (Real.exp c) * Z) ^ _ = _
              rw [mul_pow, fin_npow, scale_cancel (pow_pos (Real.exp_pos c) _)]

end

/-! ### Histories of spline models -/

/-- What the constructors guarantee and every call keeps. -/
def Named (s : SplineModel) : Prop :=
  (s.cls = .spinMagnitude → s.base = "a") ∧ (s.cls = .spinTilt → s.base = "cos_tilt")

theorem named_reinit {s : SplineModel} (h : Named s) {n : ℕ} {t : SplineModel} (ht : s.reinit n = .ok t) :
    t.base = s.base ∧ Named t ∧ t.config.regularize = false := by
  obtain ⟨-, -, h3, h4⟩ := constructed_fresh (reinit_constructed ht)
  refine ⟨?_, ⟨h3, h4⟩, ?_⟩
  · unfold reinit at ht
    split at ht
    · cases ht
    · rename_i hcls
      rw [h.1 hcls, h3 (init_nodes ht).2.1]
    · rename_i hcls
      rw [h.2 hcls, h4 (init_nodes ht).2.1]
  · unfold reinit at ht
    split at ht
    · cases ht
    · rw [(init_nodes ht).1]
    · rw [(init_nodes ht).1]

/-- Setting up interpolants keeps everything else. -/
theorem pXUnnormed_kept (b : Backend) (rule : SplineRule) (s : SplineModel) (dataset : Dict (List Fl)) (p : String)
    (x f : List Fl) : (pXUnnormed b rule s dataset p x f).2.cls = s.cls ∧
      (pXUnnormed b rule s dataset p x f).2.base = s.base ∧
      (pXUnnormed b rule s dataset p x f).2.config = s.config := by
  unfold pXUnnormed
  cases s.normSpline with
  | some i => exact ⟨rfl, rfl, rfl⟩
  | none =>
    simp only
    have : (s.setupInterpolant x dataset).2.cls = s.cls ∧ (s.setupInterpolant x dataset).2.base = s.base ∧
        (s.setupInterpolant x dataset).2.config = s.config := by
      unfold setupInterpolant
      simp only
      split <;> exact ⟨rfl, rfl, rfl⟩
    revert this
    cases s.setupInterpolant x dataset with
    | mk o s1 => cases o <;> exact fun h => h

theorem parameterLoop_kept (b : Backend) (rule : SplineRule) (dataset : Dict (List Fl)) (x f : List Fl)
    (params : List String) (px : List Fl) (s : SplineModel) :
    (parameterLoop b rule dataset x f params px s).2.cls = s.cls ∧
      (parameterLoop b rule dataset x f params px s).2.base = s.base ∧
      (parameterLoop b rule dataset x f params px s).2.config = s.config := by
  induction params generalizing px s with
  | nil => exact ⟨rfl, rfl, rfl⟩
  | cons p params ih =>
    have h := pXUnnormed_kept b rule s dataset p x f
    unfold parameterLoop
    revert h
    cases pXUnnormed b rule s dataset p x f with
    | mk o s1 =>
      cases o with
      | error e => exact fun h => h
      | ok r =>
        simp only
        intro h
        cases inplaceMul b px r with
        | error e => exact h
        | ok px1 =>
          simp only
          obtain ⟨h1, h2, h3⟩ := ih px1 s1
          rw [h1, h2, h3]
          exact h

/-- The instance after a call is that after looking for new nodes, up to interpolants. -/
theorem call_kept (b : Backend) (rule : SplineRule) (s : SplineModel) (dataset : Dict (List Fl)) (k : Dict Fl)
    {t : SplineModel} (ht : s.inferNodes k = .ok t) :
    (call b rule s dataset k).2.cls = t.cls ∧ (call b rule s dataset k).2.base = t.base ∧
      (call b rule s dataset k).2.config = t.config := by
  unfold call
  rw [ht]
  simp only
  cases t.extractSplinePoints k with
  | error e => exact ⟨rfl, rfl, rfl⟩
  | ok fx =>
    obtain ⟨f, x⟩ := fx
    simp only
    cases dataset.get (t.config.parameters.headD "") with
    | error e => exact ⟨rfl, rfl, rfl⟩
    | ok values =>
      simp only
      have h := parameterLoop_kept b rule dataset x f t.config.parameters (values.map fun _ => 1) t
      revert h
      cases parameterLoop b rule dataset x f t.config.parameters (values.map fun _ => 1) t with
      | mk o s1 =>
        cases o with
        | error e => exact fun h => h
        | ok px =>
          simp only
          intro h
          cases normPX b rule s1 f x <;> exact h

theorem call_failed (b : Backend) (rule : SplineRule) (s : SplineModel) (dataset : Dict (List Fl)) (k : Dict Fl)
    {e : PyErr} (he : s.inferNodes k = .error e) : (call b rule s dataset k).2 = s := by
  unfold call
  rw [he]

theorem call_named (b : Backend) (rule : SplineRule) {s : SplineModel} (h : Named s)
    (hr : s.config.regularize = false) (dataset : Dict (List Fl)) (k : Dict Fl) :
    Named (call b rule s dataset k).2 ∧ (call b rule s dataset k).2.config.regularize = false ∧
      (call b rule s dataset k).2.base = s.base := by
  cases hi : s.inferNodes k with
  | error e => rw [call_failed b rule s dataset k hi]; exact ⟨h, hr, rfl⟩
  | ok t =>
    obtain ⟨h1, h2, h3⟩ := call_kept b rule s dataset k hi
    have ht : t.base = s.base ∧ Named t ∧ t.config.regularize = false := by
      unfold inferNodes at hi
      simp only at hi
      split_ifs at hi
      · exact named_reinit h hi
      · cases hi
        exact ⟨rfl, h, hr⟩
    unfold Named
    rw [h1, h2, h3]
    exact ⟨ht.2.1, ht.2.2, ht.1⟩

theorem runCalls_offset (b : Backend) {rule : SplineRule} (hrule : MovesWithNodes rule) {s : SplineModel}
    (h : Named s) (hr : s.config.regularize = false) (calls : List (Dict (List Fl) × Dict Fl × Dict Fl))
    (hc : ∀ p ∈ calls, ∃ c, Offset s.base c p.2.1 p.2.2) :
    runCalls b rule s (calls.map fun p => (p.1, p.2.2)) = runCalls b rule s (calls.map fun p => (p.1, p.2.1)) ∧
      Named (runCalls b rule s (calls.map fun p => (p.1, p.2.1))) ∧
      (runCalls b rule s (calls.map fun p => (p.1, p.2.1))).config.regularize = false ∧
      (runCalls b rule s (calls.map fun p => (p.1, p.2.1))).base = s.base := by
  induction calls generalizing s with
  | nil => exact ⟨rfl, h, hr, rfl⟩
  | cons p calls ih =>
    obtain ⟨c, hp⟩ := hc p (by simp)
    obtain ⟨h1, h2, h3⟩ := call_named b rule h hr p.1 p.2.1
    simp only [List.map_cons, runCalls]
    rw [call_offset hrule hr (fun t n ht => (named_reinit h ht).1) p.1 hp]
    have := ih h1 h2 fun q hq => by rw [h3]; exact hc q (List.mem_cons_of_mem _ hq)
    rw [h3] at this
    exact this

/-- **C113**: the calls of an unregularised spline model (base class or spins), also those that change the
number of nodes, return the same if a constant is added to all node values, in every call of every history
and with a different constant in each. -/
theorem C113_offset (b : Backend) {rule : SplineRule} (hrule : MovesWithNodes rule) {s : SplineModel}
    (hs : Constructed s) (hr : s.config.regularize = false)
    (calls : List (Dict (List Fl) × Dict Fl × Dict Fl)) (hc : ∀ p ∈ calls, ∃ c, Offset s.base c p.2.1 p.2.2)
    (dataset : Dict (List Fl)) {k k' : Dict Fl} {c : ℝ} (hk : Offset s.base c k k') :
    (call b rule (runCalls b rule s (calls.map fun p => (p.1, p.2.2))) dataset k').1 =
      (call b rule (runCalls b rule s (calls.map fun p => (p.1, p.2.1))) dataset k).1 := by
  obtain ⟨-, -, h1, h2⟩ := constructed_fresh hs
  obtain ⟨h3, h4, h5, h6⟩ := runCalls_offset b hrule ⟨h1, h2⟩ hr calls hc
  rw [h3, call_offset hrule h5 (fun t n ht => (named_reinit h4 ht).1) dataset (by rw [h6]; exact hk)]

/-- One call of a regularised model. -/
theorem call_rescaled (b : Backend) (rule : SplineRule) {s : SplineModel} (hr : s.config.regularize = true)
    {c : ℝ} (hc : 0 < c) (dataset : Dict (List Fl)) {k k' : Dict Fl} (h : Rescaled s.base c k k')
    (hn : ¬ k.contains (nodeName s.base s.config.nodes)) :
    call b rule s dataset k' = call b rule s dataset k := by
  have hinf := inferNodes_congr (changed_same h.1 h.2)
  unfold call
  rw [← hinf, C34_no_new_partial hn]
  simp only
  rw [extract_rescaled hr hc h]

theorem runCalls_rescaled (b : Backend) (rule : SplineRule) {s : SplineModel} (hr : s.config.regularize = true)
    (calls : List (Dict (List Fl) × Dict Fl × Dict Fl))
    (hc : ∀ p ∈ calls, (∃ c > 0, Rescaled s.base c p.2.1 p.2.2) ∧
      ¬ p.2.1.contains (nodeName s.base s.config.nodes)) :
    runCalls b rule s (calls.map fun p => (p.1, p.2.2)) = runCalls b rule s (calls.map fun p => (p.1, p.2.1)) ∧
      (runCalls b rule s (calls.map fun p => (p.1, p.2.1))).config = s.config ∧
      (runCalls b rule s (calls.map fun p => (p.1, p.2.1))).base = s.base := by
  induction calls generalizing s with
  | nil => exact ⟨rfl, rfl, rfl⟩
  | cons p calls ih =>
    obtain ⟨⟨c, hc0, hp⟩, hn⟩ := hc p (by simp)
    obtain ⟨h1, h2, h3⟩ := call_kept b rule s p.1 p.2.1 (C34_no_new_partial hn)
    simp only [List.map_cons, runCalls]
    rw [call_rescaled b rule hr hc0 p.1 hp hn]
    have := ih (by rw [h3]; exact hr) fun q hq => by rw [h2, h3]; exact hc q (List.mem_cons_of_mem _ hq)
    rw [h2, h3] at this
    exact this

/-- **C113**: the calls of a regularised spline model, with as many nodes as it was built with, return the same
if all node values are multiplied by a positive number, in every call of every history. -/
theorem C113_scale (b : Backend) (rule : SplineRule) {s : SplineModel} (hr : s.config.regularize = true)
    (calls : List (Dict (List Fl) × Dict Fl × Dict Fl))
    (hc : ∀ p ∈ calls, (∃ c > 0, Rescaled s.base c p.2.1 p.2.2) ∧
      ¬ p.2.1.contains (nodeName s.base s.config.nodes))
    (dataset : Dict (List Fl)) {k k' : Dict Fl} {c : ℝ} (hc0 : 0 < c) (hk : Rescaled s.base c k k')
    (hn : ¬ k.contains (nodeName s.base s.config.nodes)) :
    (call b rule (runCalls b rule s (calls.map fun p => (p.1, p.2.2))) dataset k').1 =
      (call b rule (runCalls b rule s (calls.map fun p => (p.1, p.2.1))) dataset k).1 := by
  obtain ⟨h3, h4, h5⟩ := runCalls_rescaled b rule hr calls hc
  rw [h3, call_rescaled b rule (by rw [h4]; exact hr) hc0 dataset (by rw [h5]; exact hk) (by rw [h4, h5]; exact hn)]

/-! ### The interpolated power law -/

theorem not_node {n : String} (h : n.toList.head? ≠ some 'f') (base : String) : ∀ i, n ≠ nodeName base i :=
  fun _ hi => h (nodeName_head hi)

/-- Removing an argument that is no node value. -/
theorem offset_erase {base : String} {c : ℝ} {k k' : Dict Fl} (h : Offset base c k k') {n : String}
    (hn : ∀ i, n ≠ nodeName base i) : Offset base c (Dict.erase k n) (Dict.erase k' n) := by
  constructor
  · intro i
    rw [Dict.get?_erase, Dict.get?_erase, if_neg (hn i).symm, if_neg (hn i).symm, h.1]
  · intro m hm
    rw [Dict.get?_erase, Dict.get?_erase, h.2 m hm]

theorem rescaled_erase {base : String} {c : ℝ} {k k' : Dict Fl} (h : Rescaled base c k k') {n : String}
    (hn : ∀ i, n ≠ nodeName base i) : Rescaled base c (Dict.erase k n) (Dict.erase k' n) := by
  constructor
  · intro i
    rw [Dict.get?_erase, Dict.get?_erase, if_neg (hn i).symm, if_neg (hn i).symm, h.1]
  · intro m hm
    rw [Dict.get?_erase, Dict.get?_erase, h.2 m hm]

section

open InterpPowerlaw

variable {b : Backend} {rule : SplineRule} {c : ℝ}

/-- The arguments other than node values that the model reads. -/
def SameRest (k k' : Dict Fl) : Prop := ∀ n : String, n.toList.head? ≠ some 'f' → k'.get? n = k.get? n

theorem primaryAt_same {s : InterpPowerlaw} {k k' : Dict Fl} (h : SameRest k k') (masses : List Fl) :
    s.primaryAt b k' masses = s.primaryAt b k masses := by
  unfold primaryAt Dict.get
  rw [h "alpha" (by decide), h "mmin" (by decide), h "mmax" (by decide)]

theorem kwGet_same {k k' : Dict Fl} (h : SameRest k k') {n : String} (hn : n.toList.head? ≠ some 'f') (d : Fl) :
    Smoothed.kwGet k' n d = Smoothed.kwGet k n d := by
  unfold Smoothed.kwGet
  rw [h n hn]

theorem sameRest_erase {k k' : Dict Fl} (h : SameRest k k') (n : String) :
    SameRest (Dict.erase k n) (Dict.erase k' n) := by
  intro m hm
  rw [Dict.get?_erase, Dict.get?_erase, h m hm]

theorem normPM1_same {s : InterpPowerlaw} {k k' : Dict Fl} (h : SameRest k k') (d : Fl) (f : List Fl) :
    s.normPM1 b rule d f k' = s.normPM1 b rule d f k := by
  unfold InterpPowerlaw.normPM1
  simp only [kwGet_same h (n := "mmin") (by decide), primaryAt_same h]

theorem normPM1_offset (hrule : MovesWithNodes rule) (s : InterpPowerlaw) (d : Fl) {f : List Fl} (hf : f ≠ [])
    (k : Dict Fl) : s.normPM1 b rule d (f.map (· + fin c)) k =
      (s.normPM1 b rule d f k).map (fin (Real.exp c) * ·) := by
  unfold InterpPowerlaw.normPM1
  simp only
  cases s.primaryAt b k (s.smoothed.m1s.map fin) with
  | error e => rfl
  | ok pm =>
    simp only [ok_bind]
    generalize inplaceMul b pm _ = o
    cases o with
    | error e => rfl
    | ok pm =>
      simp only [ok_bind]
      cases s.spline.normSpline with
      | none => rfl
      | some i =>
        simp only
        rw [eval_offset hrule i hf, inplaceMul_right]
        cases inplaceMul b pm ((i.eval rule f).map Fl.exp) with
        | error e => rfl
        | ok px =>
          simp only [Except.map, ok_bind, pure_eq_ok]
          rw [trapz_scale_left (Real.exp_pos c)]

theorem finish_offset (hrule : MovesWithNodes rule) (s : InterpPowerlaw) (pm px : List Fl) {f : List Fl}
    (hf : f ≠ []) (d : Fl) {k k' : Dict Fl} (h : SameRest k k') :
    finish b rule s pm (px.map (fin (Real.exp c) * ·)) (f.map (· + fin c)) d k' = finish b rule s pm px f d k := by
  unfold finish
  rw [inplaceMul_right, normPM1_offset hrule s d hf, normPM1_same h]
  cases inplaceMul b pm px with
  | error e => rfl
  | ok pm =>
    simp only [Except.map, ok_bind]
    cases s.normPM1 b rule d f k with
    | error e => rfl
    | ok Z =>
      simp only [ok_bind, pure_eq_ok, List.map_map]
      congr 1
      refine List.map_congr_left fun y _ => ?_
      exact scale_cancel (Real.exp_pos c) _ _

theorem finish_same (s : InterpPowerlaw) (pm px f : List Fl) (d : Fl) {k k' : Dict Fl} (h : SameRest k k') :
    finish b rule s pm px f d k' = finish b rule s pm px f d k := by
  unfold finish
  rw [normPM1_same h]

theorem pMRaw_same {s : InterpPowerlaw} {k k' : Dict Fl} (h : SameRest k k') (masses : List Fl) (mmin d : Fl) :
    s.pMRaw b masses mmin d k' = s.pMRaw b masses mmin d k := by
  unfold pMRaw
  rw [primaryAt_same h]

theorem interp_pM1_offset (hrule : MovesWithNodes rule) (s : InterpPowerlaw)
    (hr : s.spline.config.regularize = false) (masses : List Fl) {k k' : Dict Fl}
    (h : Offset s.spline.base c k k') : s.pM1 b rule masses k' = s.pM1 b rule masses k := by
  have hsame : SameRest k k' := fun n hn => h.2 n (not_node hn _)
  unfold InterpPowerlaw.pM1
  rw [extract_offset hr h]
  cases s.spline.extractSplinePoints k with
  | error e => rfl
  | ok fx =>
    obtain ⟨f, x⟩ := fx
    simp only [Except.map]
    rw [kwGet_same hsame (n := "mmin") (by decide), kwGet_same hsame (n := "delta_m") (by decide),
      pMRaw_same (sameRest_erase hsame _)]
    generalize s.pMRaw b masses _ _ _ = o
    cases o with
    | error e => rfl
    | ok pm =>
      simp only
      by_cases hf : f = []
      · subst hf
        simp only [List.map_nil]
        cases s.spline.pXUnnormed b rule (massColumn masses) "mass_1" x [] with
        | mk o t => cases o with
          | error e => rfl
          | ok px => simp only; rw [finish_same _ _ _ _ _ (sameRest_erase hsame "delta_m")]
      · rw [pXUnnormed_offset hrule _ _ _ _ hf]
        cases s.spline.pXUnnormed b rule (massColumn masses) "mass_1" x f with
        | mk o t => cases o with
          | error e => rfl
          | ok px =>
            simp only [Except.map]
            rw [finish_offset hrule _ _ _ hf _ (sameRest_erase hsame "delta_m")]

theorem interp_pM1_rescaled (hc : 0 < c) (s : InterpPowerlaw)
    (hr : s.spline.config.regularize = true) (masses : List Fl) {k k' : Dict Fl}
    (h : Rescaled s.spline.base c k k') : s.pM1 b rule masses k' = s.pM1 b rule masses k := by
  have hsame : SameRest k k' := fun n hn => h.2 n (not_node hn _)
  unfold InterpPowerlaw.pM1
  rw [extract_rescaled hr hc h]
  cases s.spline.extractSplinePoints k with
  | error e => rfl
  | ok fx =>
    obtain ⟨f, x⟩ := fx
    simp only
    rw [kwGet_same hsame (n := "mmin") (by decide), kwGet_same hsame (n := "delta_m") (by decide),
      pMRaw_same (sameRest_erase hsame _)]
    generalize s.pMRaw b masses _ _ _ = o
    cases o with
    | error e => rfl
    | ok pm =>
      simp only
      cases s.spline.pXUnnormed b rule (massColumn masses) "mass_1" x f with
      | mk o t => cases o with
        | error e => rfl
        | ok px => simp only; rw [finish_same _ _ _ _ _ (sameRest_erase hsame "delta_m")]

/-- A call whose primary density is unchanged. -/
theorem interp_call_same {s : InterpPowerlaw} {k k' : Dict Fl} (hsame : SameRest k k')
    (h : ∀ masses, s.pM1 b rule masses (Dict.erase k' "beta") = s.pM1 b rule masses (Dict.erase k "beta"))
    (data : List (Fl × Fl)) : InterpPowerlaw.call b rule s data k' = InterpPowerlaw.call b rule s data k := by
  have hs := sameRest_erase hsame "beta"
  unfold InterpPowerlaw.call
  rw [hsame "beta" (by decide)]
  cases Dict.get? k "beta" with
  | none => rfl
  | some beta =>
    simp only
    rw [kwGet_same hs (n := "mmin") (by decide), kwGet_same hs (n := "mmax") (by decide),
      kwGet_same hs (n := "delta_m") (by decide), h]

theorem interp_call_kept (s : InterpPowerlaw) (data : List (Fl × Fl)) (k : Dict Fl) :
    (InterpPowerlaw.call b rule s data k).2.spline.base = s.spline.base ∧
      (InterpPowerlaw.call b rule s data k).2.spline.config = s.spline.config := by
  have hp : ∀ masses k, (s.pM1 b rule masses k).2.spline.base = s.spline.base ∧
      (s.pM1 b rule masses k).2.spline.config = s.spline.config := by
    intro masses k
    unfold InterpPowerlaw.pM1
    cases s.spline.extractSplinePoints k with
    | error e => exact ⟨rfl, rfl⟩
    | ok fx =>
      obtain ⟨f, x⟩ := fx
      simp only
      generalize s.pMRaw b masses _ _ _ = o
      cases o with
      | error e => exact ⟨rfl, rfl⟩
      | ok pm =>
        simp only
        have h := (pXUnnormed_kept b rule s.spline (massColumn masses) "mass_1" x f).2
        revert h
        cases s.spline.pXUnnormed b rule (massColumn masses) "mass_1" x f with
        | mk o t => cases o <;> exact fun h => h
  unfold InterpPowerlaw.call
  cases Dict.get? k "beta" with
  | none => exact ⟨rfl, rfl⟩
  | some beta =>
    simp only
    split_ifs
    · exact ⟨rfl, rfl⟩
    · exact ⟨rfl, rfl⟩
    · have h := hp (data.map Prod.fst) (Dict.erase k "beta")
      revert h
      cases s.pM1 b rule (data.map Prod.fst) (Dict.erase k "beta") with
      | mk o t =>
        cases o with
        | error e => exact fun h => h
        | ok pm =>
          simp only
          intro h
          generalize t.smoothed.pQ b data _ _ _ = q
          obtain ⟨q, sm⟩ := q
          cases q <;> exact h

theorem interp_runCalls (s : InterpPowerlaw) (R : Dict Fl → Dict Fl → Prop)
    (hR : ∀ (t : InterpPowerlaw), t.spline.base = s.spline.base → t.spline.config = s.spline.config →
      ∀ data k k', R k k' → InterpPowerlaw.call b rule t data k' = InterpPowerlaw.call b rule t data k)
    (calls : List (List (Fl × Fl) × Dict Fl × Dict Fl)) (hc : ∀ p ∈ calls, R p.2.1 p.2.2)
    (data : List (Fl × Fl)) {k k' : Dict Fl} (hk : R k k') :
    (InterpPowerlaw.call b rule (InterpPowerlaw.runCalls b rule s (calls.map fun p => (p.1, p.2.2))) data k').1 =
      (InterpPowerlaw.call b rule (InterpPowerlaw.runCalls b rule s (calls.map fun p => (p.1, p.2.1))) data k).1 := by
  suffices H : ∀ t : InterpPowerlaw, t.spline.base = s.spline.base → t.spline.config = s.spline.config →
      (InterpPowerlaw.call b rule (InterpPowerlaw.runCalls b rule t (calls.map fun p => (p.1, p.2.2))) data k').1 =
      (InterpPowerlaw.call b rule (InterpPowerlaw.runCalls b rule t (calls.map fun p => (p.1, p.2.1))) data k).1 from
    H s rfl rfl
  induction calls with
  | nil => intro t h1 h2; exact congrArg Prod.fst (hR t h1 h2 data k k' hk)
  | cons p calls ih =>
    intro t h1 h2
    simp only [List.map_cons, InterpPowerlaw.runCalls]
    rw [hR t h1 h2 p.1 _ _ (hc p (by simp))]
    obtain ⟨h3, h4⟩ := interp_call_kept (b := b) (rule := rule) t p.1 p.2.1
    exact ih (fun q hq => hc q (List.mem_cons_of_mem _ hq)) _ (h3.trans h1) (h4.trans h2)

end

theorem strip_mass_1 : String.ofList (pyStrip ['_', '1'] "mass_1".toList) = "mass" := by decide

theorem interp_init_base {py : Bool} {nodes : ℕ} {kind : String} {mmin mmax : ℝ} {nM nQ : ℕ} {reg : Bool}
    {s : InterpPowerlaw} (h : InterpPowerlaw.init py nodes kind mmin mmax nM nQ reg = .ok s) :
    s.spline.base = "mass" ∧ s.spline.config.regularize = reg := by
  unfold InterpPowerlaw.init at h
  obtain ⟨sm, -, h⟩ := bind_eq_ok.1 h
  obtain ⟨sp, hsp, h⟩ := bind_eq_ok.1 h
  cases h
  unfold SplineModel.init at hsp
  cases hsp
  exact ⟨strip_mass_1, rfl⟩

/-- **C113**: `InterpolatedPowerlaw` without regularisation does not depend on a constant added to all node
values, in any call of any history. -/
theorem C113_interpolated_offset (b : Backend) {rule : SplineRule} (hrule : MovesWithNodes rule) {py : Bool}
    {nodes : ℕ} {kind : String} {mmin mmax : ℝ} {nM nQ : ℕ} {s : InterpPowerlaw}
    (hs : InterpPowerlaw.init py nodes kind mmin mmax nM nQ false = .ok s)
    (calls : List (List (Fl × Fl) × Dict Fl × Dict Fl)) (hc : ∀ p ∈ calls, ∃ c, Offset "mass" c p.2.1 p.2.2)
    (data : List (Fl × Fl)) {k k' : Dict Fl} (hk : ∃ c, Offset "mass" c k k') :
    (InterpPowerlaw.call b rule (InterpPowerlaw.runCalls b rule s (calls.map fun p => (p.1, p.2.2))) data k').1 =
      (InterpPowerlaw.call b rule (InterpPowerlaw.runCalls b rule s (calls.map fun p => (p.1, p.2.1))) data k).1 := by
  obtain ⟨h1, h2⟩ := interp_init_base hs
  refine interp_runCalls s (fun k k' => ∃ c, Offset "mass" c k k') ?_ calls hc data hk
  rintro t ht1 ht2 data k k' ⟨c, h⟩
  refine interp_call_same (fun n hn => h.2 n (not_node hn _)) (fun masses => ?_) data
  refine interp_pM1_offset (c := c) hrule t (by rw [ht2]; exact h2) masses ?_
  rw [ht1, h1]
  exact offset_erase h (not_node (by decide) _)

/-- **C113**: `InterpolatedPowerlaw` with regularisation does not depend on a positive factor of all node
values, in any call of any history. -/
theorem C113_interpolated_scale (b : Backend) (rule : SplineRule) {py : Bool}
    {nodes : ℕ} {kind : String} {mmin mmax : ℝ} {nM nQ : ℕ} {s : InterpPowerlaw}
    (hs : InterpPowerlaw.init py nodes kind mmin mmax nM nQ true = .ok s)
    (calls : List (List (Fl × Fl) × Dict Fl × Dict Fl)) (hc : ∀ p ∈ calls, ∃ c > 0, Rescaled "mass" c p.2.1 p.2.2)
    (data : List (Fl × Fl)) {k k' : Dict Fl} (hk : ∃ c > 0, Rescaled "mass" c k k') :
    (InterpPowerlaw.call b rule (InterpPowerlaw.runCalls b rule s (calls.map fun p => (p.1, p.2.2))) data k').1 =
      (InterpPowerlaw.call b rule (InterpPowerlaw.runCalls b rule s (calls.map fun p => (p.1, p.2.1))) data k).1 := by
  obtain ⟨h1, h2⟩ := interp_init_base hs
  refine interp_runCalls s (fun k k' => ∃ c > 0, Rescaled "mass" c k k') ?_ calls hc data hk
  rintro t ht1 ht2 data k k' ⟨c, hc0, h⟩
  refine interp_call_same (fun n hn => h.2 n (not_node hn _)) (fun masses => ?_) data
  refine interp_pM1_rescaled (c := c) hc0 t (by rw [ht2]; exact h2) masses ?_
  rw [ht1, h1]
  exact rescaled_erase h (not_node (by decide) _)

/-! ### The hypotheses hold -/

/-- A straight line through the values at the first and last of the nodes, with the position as weight. -/
def lineWeights (n : ℕ) (v : Fl) : List ℝ :=
  match n, v with
  | 0, _ => []
  | 1, _ => [1]
  | n + 2, fin t => (1 - t) :: (List.replicate n 0 ++ [t])
  | n + 2, _ => 1 :: List.replicate (n + 1) 0

/-- **Non-vacuity of the hypothesis on the rule.** -/
example : MovesWithNodes fun _ _ y v =>
    (List.zipWith (fun (a : ℝ) (x : Fl) => fin a * x) (lineWeights y.length v) y).sum := by
  refine weighted_moves ⟨fun _ _ n v => lineWeights n v, ?_, fun _ _ _ _ => rfl⟩
  intro _ _ n v hn
  match n with
  | 0 => exact absurd rfl hn
  | 1 => exact ⟨rfl, by simp [lineWeights]⟩
  | n + 2 => cases v <;> exact ⟨by simp [lineWeights], by simp [lineWeights]⟩

/-- **Non-vacuity of `C113_offset`**: two nodes of a model of `x`, the values raised by 3. -/
example : ∃ s, init .base ⟨["x"], 0, 1, 2, "linear", false, false⟩ = .ok s ∧ Constructed s ∧
    s.config.regularize = false ∧ Offset s.base 3
      [("x0", fin 0), ("x1", fin 1), ("fx0", fin 0), ("fx1", fin 1)]
      [("x0", fin 0), ("x1", fin 1), ("fx0", fin 3), ("fx1", fin 4)] := by
  refine ⟨lineModel, lineModel_init, .base lineModel_init, rfl, ?_, ?_⟩
  · intro i
    show Dict.get? _ (nodeName "x" i) = (Dict.get? _ (nodeName "x" i)).map _
    simp only [Dict.get?_cons, Dict.get?_nil]
    have hx0 : ¬ nodeName "x" i = "x0" := fun h => by
      have := nodeName_head h.symm; revert this; decide
    have hx1 : ¬ nodeName "x" i = "x1" := fun h => by
      have := nodeName_head h.symm; revert this; decide
    rw [if_neg hx0, if_neg hx1, if_neg hx0, if_neg hx1]
    split_ifs <;> simp
    norm_num
  · intro n hn
    have h0 : ¬ n = "fx0" := fun h => hn 0 (h.trans (by decide))
    have h1 : ¬ n = "fx1" := fun h => hn 1 (h.trans (by decide))
    simp only [Dict.get?_cons, Dict.get?_nil, if_neg h0, if_neg h1]

/-- **Non-vacuity of `C113_scale`**: a regularised spin model with two nodes, the values doubled. -/
example : ∃ s, initMagnitude 0 1 2 "cubic" true = .ok s ∧ s.config.regularize = true ∧ Rescaled s.base 2
      [("a0", fin 0), ("a1", fin 1), ("fa0", fin 1), ("fa1", fin 5), ("rmsa", fin 1)]
      [("a0", fin 0), ("a1", fin 1), ("fa0", fin 2), ("fa1", fin 10), ("rmsa", fin 1)] := by
  refine ⟨⟨.spinMagnitude, ⟨["a_1", "a_2"], 0, 1, 2, "cubic", false, true⟩, "a", Arr.linspaceR 0 1 (10 * 2),
    none, []⟩, ?_, rfl, ?_, ?_⟩
  · unfold initMagnitude init
    simp only [strip_a_1]
  · intro i
    show Dict.get? _ (nodeName "a" i) = (Dict.get? _ (nodeName "a" i)).map _
    simp only [Dict.get?_cons, Dict.get?_nil]
    have hx0 : ¬ nodeName "a" i = "a0" := fun h => by
      have := nodeName_head h.symm; revert this; decide
    have hx1 : ¬ nodeName "a" i = "a1" := fun h => by
      have := nodeName_head h.symm; revert this; decide
    have hx2 : ¬ nodeName "a" i = "rmsa" := fun h => by
      have := nodeName_head h.symm; revert this; decide
    rw [if_neg hx0, if_neg hx1, if_neg hx0, if_neg hx1, if_neg hx2]
    split_ifs <;> simp
    norm_num
  · intro n hn
    have h0 : ¬ n = "fa0" := fun h => hn 0 (h.trans (by decide))
    have h1 : ¬ n = "fa1" := fun h => hn 1 (h.trans (by decide))
    simp only [Dict.get?_cons, Dict.get?_nil, if_neg h0, if_neg h1]

end SplineOffset

end GW
