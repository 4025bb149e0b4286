import Verif.Props.SplineValue

/-!
# Spline models: call histories (C35)
-/

noncomputable section

open Classical

namespace GW

open Fl SplineModel Spec

/-- The value of a call does not depend on the calls made before. -/
def C35_statement (b : Backend) (rule : SplineRule) : Prop :=
  ∀ (s : SplineModel) (hist : List (Dict (List Fl) × Dict Fl)) (dataset : Dict (List Fl))
    (kwargs : Dict Fl), Constructed s →
    (call b rule (runCalls b rule s hist) dataset kwargs).1 = (call b rule s dataset kwargs).1

/-! ### The same data and nodes -/

/-- Two dictionaries agree on the node positions and on which node values there are. -/
def Spec.SameNodes (base : String) (kw kw' : Dict Fl) : Prop :=
  (∀ n, kw.contains (nodeName base n) ↔ kw'.contains (nodeName base n)) ∧
  ∀ n : ℕ, kw.get? (base ++ toString n) = kw'.get? (base ++ toString n)

theorem strip_cos_tilt_1 :
    String.ofList (pyStrip ['_', '1'] "cos_tilt_1".toList) = "cos_tilt" := by decide

theorem constructed_fresh {s : SplineModel} (h : Constructed s) :
    s.normSpline = none ∧ s.config.parameters ≠ [] ∧
    (s.cls = .spinMagnitude → s.base = "a") ∧ (s.cls = .spinTilt → s.base = "cos_tilt") := by
  cases h with
  | base h =>
    have hp := init_nodes h
    refine ⟨hp.2.2.1, ?_, ?_, ?_⟩
    · rw [hp.1]
      unfold init at h
      split at h
      · cases h
      · rename_i p ps he
        rw [he]
        simp
    · rw [hp.2.1]; intro h; cases h
    · rw [hp.2.1]; intro h; cases h
  | magnitude h =>
    have hp := init_nodes h
    refine ⟨hp.2.2.1, ?_, ?_, ?_⟩
    · rw [hp.1]; simp
    · intro _
      unfold initMagnitude init at h
      simp only [strip_a_1] at h
      cases h
      rfl
    · rw [hp.2.1]; intro h; cases h
  | tilt h =>
    have hp := init_nodes h
    refine ⟨hp.2.2.1, ?_, ?_, ?_⟩
    · rw [hp.1]; simp
    · rw [hp.2.1]; intro h; cases h
    · intro _
      unfold initTilt init at h
      simp only [strip_cos_tilt_1] at h
      cases h
      rfl

theorem reinit_constructed {s s' : SplineModel} {n : ℕ} (h : s.reinit n = .ok s') :
    Constructed s' := by
  unfold reinit at h
  split at h
  · cases h
  · exact .magnitude h
  · exact .tilt h

theorem inferNodes_constructed {s s' : SplineModel} (hs : Constructed s) {kwargs : Dict Fl}
    (h : s.inferNodes kwargs = .ok s') : Constructed s' ∧ s'.base = s.base := by
  unfold inferNodes at h
  simp only at h
  split_ifs at h with hne
  · have hc := reinit_constructed h
    refine ⟨hc, ?_⟩
    obtain ⟨-, -, h1, h2⟩ := constructed_fresh hs
    obtain ⟨-, -, h3, h4⟩ := constructed_fresh hc
    unfold reinit at h
    split at h
    · cases h
    · rename_i hcls
      rw [h1 hcls, h3 (init_nodes h).2.1]
    · rename_i hcls
      rw [h2 hcls, h4 (init_nodes h).2.1]
  · cases h
    exact ⟨hs, rfl⟩

theorem inferLoop_congr {base : String} {kw kw' : Dict Fl} (h : SameNodes base kw kw') (n : ℕ) :
    inferLoop kw base n = inferLoop kw' base n := by
  refine firstMissing_unique (C33_first_missing kw base n) ?_
  obtain ⟨h1, h2, h3⟩ := C33_first_missing kw' base n
  exact ⟨h1, fun hc => h2 ((h.1 _).1 hc), fun k hk hk' => (h.1 _).2 (h3 k hk hk')⟩

theorem inferNodes_congr {s : SplineModel} {kw kw' : Dict Fl} (h : SameNodes s.base kw kw') :
    s.inferNodes kw = s.inferNodes kw' := by
  unfold inferNodes
  rw [inferLoop_congr h]

theorem inferNodes_noNew {s s' : SplineModel} (hb : s'.base = s.base) {kw kw' : Dict Fl}
    (hsame : SameNodes s.base kw kw') (h : s.inferNodes kw = .ok s') :
    ¬ kw'.contains (nodeName s'.base s'.config.nodes) := by
  have := (C33_instance h).2.1
  rw [hb]
  exact fun hc => this ((hsame.1 _).2 hc)

theorem extract_positions {s : SplineModel} {kw : Dict Fl} {f x : List Fl}
    (h : s.extractSplinePoints kw = .ok (f, x)) : s.xkeys.mapM kw.get = .ok x := by
  unfold extractSplinePoints at h
  rw [bind_eq_ok] at h
  obtain ⟨f', -, h⟩ := h
  rw [bind_eq_ok] at h
  obtain ⟨f'', -, h⟩ := h
  rw [bind_eq_ok] at h
  obtain ⟨x', hx, h⟩ := h
  cases h
  exact hx

theorem positions_congr {s : SplineModel} {kw kw' : Dict Fl} (h : SameNodes s.base kw kw') :
    s.xkeys.mapM kw.get = s.xkeys.mapM kw'.get := by
  refine mapM_congr fun k hk => ?_
  obtain ⟨i, -, rfl⟩ := List.mem_map.1 hk
  unfold Dict.get
  rw [show kw.get? (xkey s.base i) = kw'.get? (xkey s.base i) from h.2 i]

theorem setup_ok {s : SplineModel} {x : List Fl} {dataset : Dict (List Fl)}
    (hd : ∀ p ∈ s.config.parameters, dataset.contains p) :
    ∃ s', s.setupInterpolant x dataset = (.ok (), s') ∧ s'.config = s.config ∧ s'.base = s.base ∧
      s'.normSpline.isSome := by
  unfold setupInterpolant
  simp only
  have : ∃ l, s.config.parameters.mapM (fun param => do
      let v ← dataset.get param
      return (param, (⟨s.config.kind, x.map s.transform, v.map s.transform⟩ : Interpolant))) =
      Except.ok (ε := PyErr) l := by
    refine ⟨s.config.parameters.map fun p => (p, ⟨s.config.kind, x.map s.transform,
      ((dataset.get? p).getD []).map s.transform⟩), mapM_ok fun p hp => ?_⟩
    have h1 := hd p hp
    rw [← Dict.get?_isSome_iff] at h1
    obtain ⟨v, hv⟩ := Option.isSome_iff_exists.1 h1
    have : dataset.get p = .ok v := by unfold Dict.get; rw [hv]
    rw [this, hv]
    rfl
  obtain ⟨l, hl⟩ := this
  rw [hl]
  exact ⟨_, rfl, rfl, rfl, rfl⟩

/-- The outcome and new state of a call on an instance with interpolants: the state is unchanged. -/
theorem evalLoop_state {b : Backend} {rule : SplineRule} {s : SplineModel}
    (hs : s.normSpline.isSome) (dataset : Dict (List Fl)) (x f : List Fl) (params : List String)
    (px : List Fl) : (parameterLoop b rule dataset x f params px s).2 = s := by
  obtain ⟨i, hi⟩ := Option.isSome_iff_exists.1 hs
  induction params generalizing px with
  | nil => rfl
  | cons p params ih =>
    unfold parameterLoop
    have : pXUnnormed b rule s dataset p x f = (evalUnnormed b rule s dataset p x f, s) := by
      unfold pXUnnormed; rw [hi]
    rw [this]
    split
    · rename_i e s1 he
      simp only [Prod.mk.injEq] at he
      exact he.2.symm
    · rename_i r s1 he
      simp only [Prod.mk.injEq] at he
      rw [← he.2]
      split
      · rfl
      · exact ih _

theorem call_state_warm {b : Backend} {rule : SplineRule} {s : SplineModel}
    (hs : s.normSpline.isSome) {dataset : Dict (List Fl)} {kwargs : Dict Fl}
    (hnew : ¬ kwargs.contains (nodeName s.base s.config.nodes)) :
    (call b rule s dataset kwargs).2 = s := by
  unfold call
  rw [C34_no_new_partial hnew]
  simp only
  split
  · rfl
  · split
    · rfl
    · rename_i f x _ _ values _
      have h := evalLoop_state (b := b) (rule := rule) hs dataset x f s.config.parameters
        (values.map fun _ => 1)
      split
      · rename_i e s1 he
        rw [he] at h
        exact h
      · rename_i px s1 he
        rw [he] at h
        split
        · exact h
        · exact h

/-- A history of calls with the same data, node positions and number of nodes (but arbitrary values at
the nodes) does not change the value of a further such call. -/
theorem C35_same_nodes_partial {b : Backend} {rule : SplineRule} {s : SplineModel}
    (hs : Constructed s) {dataset : Dict (List Fl)} (hd : ∀ p ∈ s.config.parameters, dataset.contains p)
    {kwargs : Dict Fl} (hist : List (Dict (List Fl) × Dict Fl))
    (hhist : ∀ c ∈ hist, c.1 = dataset ∧ SameNodes s.base kwargs c.2) :
    (call b rule (runCalls b rule s hist) dataset kwargs).1 = (call b rule s dataset kwargs).1 := by
  cases hinf : s.inferNodes kwargs with
  | error e =>
    -- every call fails and leaves the instance as it is
    have hrun : runCalls b rule s hist = s := by
      induction hist with
      | nil => rfl
      | cons c hist ih =>
        obtain ⟨h1, h2⟩ := hhist c (by simp)
        have hc : (call b rule s c.1 c.2).2 = s := by
          unfold call
          rw [← inferNodes_congr h2, hinf]
        unfold runCalls
        rw [hc]
        exact ih fun c' hc' => hhist c' (by simp [hc'])
    rw [hrun]
  | ok s₁ =>
    obtain ⟨hc₁, hb₁⟩ := inferNodes_constructed hs hinf
    obtain ⟨hn₁, hp₁, -, -⟩ := constructed_fresh hc₁
    have hparams : s₁.config.parameters = s.config.parameters := by
      unfold inferNodes at hinf
      simp only at hinf
      split_ifs at hinf with hne
      · have hcls : ∀ c : SplineClass, s.cls = c → s₁.config.parameters = s.config.parameters := by
          intro c hcc
          unfold reinit at hinf
          rw [hcc] at hinf
          cases hs with
          | base h =>
            rw [(init_nodes h).2.1] at hcc
            subst hcc
            cases hinf
          | magnitude h =>
            rw [(init_nodes h).2.1] at hcc
            subst hcc
            rw [(init_nodes hinf).1, (init_nodes h).1]
          | tilt h =>
            rw [(init_nodes h).2.1] at hcc
            subst hcc
            rw [(init_nodes hinf).1, (init_nodes h).1]
        exact hcls _ rfl
      · cases hinf
        rfl
    have hnoNew : ∀ kw, SameNodes s.base kwargs kw →
        ¬ kw.contains (nodeName s₁.base s₁.config.nodes) := fun kw h => inferNodes_noNew hb₁ h hinf
    -- a call on the original instance is a call on the inferred one
    have hcall₁ : ∀ kw, SameNodes s.base kwargs kw →
        call b rule s dataset kw = call b rule s₁ dataset kw := by
      intro kw hkw
      unfold call
      rw [← inferNodes_congr hkw, hinf, C34_no_new_partial (hnoNew kw hkw)]
    have hget : ∀ e, dataset.get (s₁.config.parameters.headD "") ≠ .error e := by
      intro e he
      obtain ⟨p, ps, hpp⟩ := List.exists_cons_of_ne_nil hp₁
      have h1 := hd p (by rw [← hparams, hpp]; simp)
      rw [← Dict.get?_isSome_iff] at h1
      obtain ⟨v, hv⟩ := Option.isSome_iff_exists.1 h1
      unfold Dict.get at he
      rw [hpp, List.headD_cons, hv] at he
      cases he
    -- the instance with interpolants for the common positions
    cases hx : s₁.xkeys.mapM kwargs.get with
    | error e =>
      have hcallx : ∀ kw, SameNodes s.base kwargs kw → (call b rule s₁ dataset kw).2 = s₁ := by
        intro kw hkw
        unfold call
        rw [C34_no_new_partial (hnoNew kw hkw)]
        simp only
        cases hex : s₁.extractSplinePoints kw with
        | error e => rfl
        | ok r =>
          obtain ⟨f, x⟩ := r
          have := extract_positions hex
          rw [← positions_congr (s := s₁) (by rw [hb₁]; exact hkw), hx] at this
          cases this
      have hstates : ∀ (hist : List (Dict (List Fl) × Dict Fl)) (t : SplineModel),
          (t = s ∨ t = s₁) → (∀ c ∈ hist, c.1 = dataset ∧ SameNodes s.base kwargs c.2) →
          runCalls b rule t hist = s ∨ runCalls b rule t hist = s₁ := by
        intro hist
        induction hist with
        | nil => intro t ht _; exact ht
        | cons c hist ih =>
          intro t ht hh
          obtain ⟨h1, h2⟩ := hh c (by simp)
          refine ih _ (.inr ?_) fun c' hc' => hh c' (by simp [hc'])
          rcases ht with rfl | rfl
          · rw [h1, hcall₁ _ h2, hcallx _ h2]
          · rw [h1, hcallx _ h2]
      rcases hstates hist s (.inl rfl) hhist with h | h
      · rw [h]
      · rw [h, hcall₁ kwargs ⟨fun _ => Iff.rfl, fun _ => rfl⟩]
    | ok x =>
      obtain ⟨w, hw, hwc, hwb, hws⟩ := setup_ok (s := s₁) (x := x) (dataset := dataset)
        (fun p hp => hd p (by rw [← hparams]; exact hp))
      have hnoW : ∀ kw, SameNodes s.base kwargs kw →
          ¬ kw.contains (nodeName w.base w.config.nodes) := by
        intro kw hkw
        rw [hwb, hwc]
        exact hnoNew kw hkw
      have hextract : ∀ kw, w.extractSplinePoints kw = s₁.extractSplinePoints kw := by
        intro kw
        unfold extractSplinePoints regularise fkeys xkeys
        rw [hwc, hwb]
      -- value on the inferred instance and on the one with interpolants
      have hval : ∀ kw, SameNodes s.base kwargs kw →
          (call b rule s₁ dataset kw).1 = (call b rule w dataset kw).1 ∧
          ((call b rule s₁ dataset kw).2 = s₁ ∨ (call b rule s₁ dataset kw).2 = w) := by
        intro kw hkw
        cases hex : s₁.extractSplinePoints kw with
        | error e =>
          constructor
          · unfold call
            rw [C34_no_new_partial (hnoNew kw hkw), C34_no_new_partial (hnoW kw hkw)]
            simp only [hextract, hex]
          · left
            unfold call
            rw [C34_no_new_partial (hnoNew kw hkw)]
            simp only [hex]
        | ok r =>
          obtain ⟨f, x'⟩ := r
          have h1 := extract_positions hex
          rw [← positions_congr (s := s₁) (by rw [hb₁]; exact hkw), hx] at h1
          cases h1
          have h2 := (call_setup (b := b) (rule := rule) hn₁ hp₁ (hnoNew kw hkw) hex hw hwc
            hwb).resolve_right (fun ⟨e, he⟩ => hget e he)
          rw [h2]
          exact ⟨rfl, .inr (call_state_warm hws (hnoW kw hkw))⟩
      have hstates : ∀ (hist : List (Dict (List Fl) × Dict Fl)) (t : SplineModel),
          (t = s ∨ t = s₁ ∨ t = w) → (∀ c ∈ hist, c.1 = dataset ∧ SameNodes s.base kwargs c.2) →
          runCalls b rule t hist = s ∨ runCalls b rule t hist = s₁ ∨ runCalls b rule t hist = w := by
        intro hist
        induction hist with
        | nil => intro t ht _; exact ht
        | cons c hist ih =>
          intro t ht hh
          obtain ⟨h1, h2⟩ := hh c (by simp)
          refine ih _ (.inr ?_) fun c' hc' => hh c' (by simp [hc'])
          rcases ht with rfl | rfl | rfl
          · rw [h1, hcall₁ _ h2]
            exact (hval _ h2).2
          · rw [h1]
            exact (hval _ h2).2
          · rw [h1]
            exact .inr (call_state_warm hws (hnoW _ h2))
      have hrefl : SameNodes s.base kwargs kwargs := ⟨fun _ => Iff.rfl, fun _ => rfl⟩
      rcases hstates hist s (.inl rfl) hhist with h | h | h
      · rw [h]
      · rw [h, hcall₁ kwargs hrefl]
      · rw [h, hcall₁ kwargs hrefl, (hval kwargs hrefl).1]

/-! ### The property fails -/

/-- A base-class model of one parameter with two nodes. -/
def lineModel : SplineModel :=
  ⟨.base, ⟨["x"], 0, 1, 2, "linear", false, false⟩, "x", Arr.linspaceR 0 1 20, none, []⟩

theorem strip_x : String.ofList (pyStrip ['_', '1'] "x".toList) = "x" := by decide

theorem lineModel_init : init .base ⟨["x"], 0, 1, 2, "linear", false, false⟩ = .ok lineModel := by
  unfold init lineModel
  simp only [strip_x]

/-- Nodes at 0 and 1 with values 0 and 1. -/
def lineNodes : Dict Fl := [("x0", fin 0), ("x1", fin 1), ("fx0", fin 0), ("fx1", fin 1)]

/-- One sample. -/
def lineData (v : ℝ) : Dict (List Fl) := [("x", [fin v])]

theorem lineModel_points : lineModel.extractSplinePoints lineNodes =
    .ok ([0, 1].map fin, [0, 1].map fin) := by
  refine C36_unregularised rfl ?_ ?_
  · show [fkey "x" 0, fkey "x" 1].mapM lineNodes.get = _
    rw [show fkey "x" 0 = "fx0" from by decide, show fkey "x" 1 = "fx1" from by decide]
    rfl
  · show [xkey "x" 0, xkey "x" 1].mapM lineNodes.get = _
    rw [show xkey "x" 0 = "x0" from by decide, show xkey "x" 1 = "x1" from by decide]
    rfl

theorem lineNodes_noNew : ¬ lineNodes.contains (nodeName lineModel.base lineModel.config.nodes) := by
  show ¬ "fx2" ∈ _
  simp [lineNodes]

theorem lineGrid_between : ∀ v ∈ lineModel.xs, Between [0, 1] v := by
  intro v hv
  obtain ⟨i, hi, rfl⟩ := List.getElem_of_mem (show v ∈ Arr.linspaceR 0 1 20 from hv)
  rw [linspaceR_getElem]
  have h1 : (i : ℝ) ≤ 19 := by
    rw [linspaceR_length] at hi
    have : i ≤ 19 := by omega
    exact_mod_cast this
  have h0 : (0 : ℝ) ≤ i := Nat.cast_nonneg i
  show (0 : ℝ) ≤ 0 + (1 - 0) * (i : ℝ) / ((20 : ℕ) - 1) ∧ 0 + (1 - 0) * (i : ℝ) / ((20 : ℕ) - 1) ≤ 1
  push_cast
  constructor
  · rw [zero_add, sub_zero, one_mul]; exact div_nonneg h0 (by norm_num)
  · rw [zero_add, sub_zero, one_mul, div_le_one (by norm_num)]; linarith

theorem lineGrid_norm (S : String → List ℝ → List ℝ → ℝ → ℝ) :
    0 < splineNorm S lineModel.config lineModel.xs [0, 1] [0, 1] :=
  splineNorm_pos S _ _ (linspaceR_sorted one_pos (by norm_num)).isChain
    (by rw [show lineModel.xs = Arr.linspaceR 0 1 20 from rfl, linspaceR_length]; norm_num)
    lineGrid_between

theorem lineFirst (v : ℝ) :
    FirstCall lineModel (lineData v) lineNodes [fun _ => v] [0, 1] [0, 1] :=
  ⟨rfl, by decide, lineNodes_noNew, lineModel_points, by simp, by
    intro p hp
    have : p = "x" := by simpa [lineModel] using hp
    subst this
    rfl, ⟨fun h => (by cases h), fun h => (by cases h), fun _ _ h => (by cases h)⟩⟩

/-- The hypotheses of `C36_value` hold for a concrete model, and the first call succeeds. -/
example (b : Backend) {rule : SplineRule} {S : String → List ℝ → List ℝ → ℝ → ℝ}
    (hrule : RealRule rule S) : (call b rule lineModel (lineData 1) lineNodes).1 =
      .ok [fin (splineDensity S lineModel.config lineModel.xs [0, 1] [0, 1] 1)] := by
  rw [C36_value hrule (lineFirst 1) (lineGrid_norm S).ne']
  simp [lineModel]

/-- For every interpolation rule that passes through the nodes, the value depends on earlier calls:
the interpolants stay those of the first call. -/
theorem C35_fails (b : Backend) {rule : SplineRule} {S : String → List ℝ → List ℝ → ℝ → ℝ}
    (hrule : RealRule rule S) (h0 : S "linear" [0, 1] [0, 1] 0 = 0)
    (h1 : S "linear" [0, 1] [0, 1] 1 = 1) : ¬ C35_statement b rule := by
  intro H
  have hc : coordinate lineModel.config = id := by
    funext v
    unfold coordinate
    exact if_neg (by decide)
  obtain ⟨w, hw, hfr, hwc, hwb, hwx, -⟩ := setup_frozen (s := lineModel) (x := [0, 1])
    (dataset := lineData 0) (rows := [fun _ => 0]) (lineFirst 0).data (lineFirst 0).positive.1
    (lineFirst 0).positive.2.1 (lineFirst 0).positive.2.2
  have hcall := (call_setup (b := b) (rule := rule) (dataset := lineData 0) (kwargs := lineNodes) rfl
    (lineFirst 0).params lineNodes_noNew lineModel_points hw hwc hwb).resolve_right
    (by rintro ⟨e, he⟩; cases he)
  have hws : w.normSpline.isSome := by rw [hfr.norm]; rfl
  have hnoW : ¬ lineNodes.contains (nodeName w.base w.config.nodes) := by
    rw [hwb, hwc]; exact lineNodes_noNew
  have hrun : runCalls b rule lineModel [(lineData 0, lineNodes)] = w := by
    show (call b rule lineModel (lineData 0) lineNodes).2 = w
    rw [hcall, call_state_warm hws hnoW]
  have hZ := lineGrid_norm S
  have hZ' : frozenNorm S lineModel.config lineModel.xs [0, 1] [0, 1] [0, 1] =
      splineNorm S lineModel.config lineModel.xs [0, 1] [0, 1] := rfl
  have hlate := C35_frozen_partial (b := b) hrule (s := w) (x₀ := [0, 1])
    (pairs := [(fun _ => 0, fun _ => 1)]) hfr (by rw [hwc]; exact (lineFirst 0).params)
    (dataset := lineData 1) hnoW (x := [0, 1]) (f := [0, 1]) (by simp)
    (by
      rw [← lineModel_points]
      unfold extractSplinePoints regularise fkeys xkeys
      rw [hwc, hwb])
    (by rw [hwc]; exact (lineFirst 1).data) (by rw [hwc, hwx, hZ']; exact hZ.ne')
  have hfirst := C36_value (b := b) hrule (lineFirst 1) hZ.ne'
  have := H lineModel [(lineData 0, lineNodes)] (lineData 1) lineNodes (.base lineModel_init)
  rw [hrun, hlate, hfirst, hwc, hwx, hZ'] at this
  have h2 := fin_inj.1 (List.head_eq_of_cons_eq (Except.ok.inj this))
  simp only [show lineModel.config.parameters = ["x"] from rfl, List.map_cons, List.map_nil,
    List.prod_cons, List.prod_nil, mul_one] at h2
  unfold splineDensity at h2
  rw [div_left_inj' hZ.ne'] at h2
  unfold frozenFactor cutSpline at h2
  have hb1 : Between [0, 1] 1 := ⟨zero_le_one, le_refl _⟩
  rw [if_pos hb1, if_pos hb1] at h2
  unfold expSpline at h2
  rw [hc] at h2
  simp only [List.map_id, id, show lineModel.config.kind = "linear" from rfl] at h2
  rw [h0, h1, Real.exp_eq_exp] at h2
  exact zero_ne_one h2

/-- Straight-line interpolation as a rule: it satisfies the hypotheses of `C35_fails`. -/
example : ∃ (rule : SplineRule) (S : String → List ℝ → List ℝ → ℝ → ℝ), RealRule rule S ∧
    S "linear" [0, 1] [0, 1] 0 = 0 ∧ S "linear" [0, 1] [0, 1] 1 = 1 := by
  refine ⟨fun _ nodes ys x => match nodes, ys, x with
      | fin a :: fin c :: _, fin y :: fin z :: _, fin x => fin (y + (z - y) * ((x - a) / (c - a)))
      | _, _, _ => fin 0,
    fun _ nodes ys x => match nodes, ys with
      | a :: c :: _, y :: z :: _ => y + (z - y) * ((x - a) / (c - a))
      | _, _ => 0, ?_, ?_, ?_⟩
  · intro kind nodes ys x
    rcases nodes with _ | ⟨a, _ | ⟨c, nodes⟩⟩ <;> rcases ys with _ | ⟨y, _ | ⟨z, ys⟩⟩ <;> rfl
  · norm_num
  · norm_num

/-- A call whose data lack one of the parameters (but not the first) leaves the instance broken: no
later call, with whatever data, returns a value (unless further nodes are given). This holds for every
interpolation rule. -/
theorem C35_broken_partial (b : Backend) (rule : SplineRule) {s : SplineModel}
    (hs : s.normSpline = none) (hs' : s.dataSpline = []) {p : String} {ps : List String}
    (hparams : s.config.parameters = p :: ps) {dataset : Dict (List Fl)} {v : List Fl}
    (hp : dataset.get? p = some v) {q : String} (hq : q ∈ ps) (hmiss : ¬ dataset.contains q)
    {kwargs : Dict Fl} (hnew : ¬ kwargs.contains (nodeName s.base s.config.nodes))
    {f x : List Fl} (hkw : s.extractSplinePoints kwargs = .ok (f, x))
    (dataset' : Dict (List Fl)) (kwargs' : Dict Fl)
    (hnew' : ¬ kwargs'.contains (nodeName s.base s.config.nodes)) (r : List Fl) :
    (call b rule (runCalls b rule s [(dataset, kwargs)]) dataset' kwargs').1 ≠ .ok r := by
  obtain ⟨s1, hs1⟩ : ∃ s1, s1 = (s.setupInterpolant x dataset).2 := ⟨_, rfl⟩
  have hsetup : ∃ e, s.setupInterpolant x dataset = (.error e, s1) ∧ s1.dataSpline = [] ∧
      s1.config = s.config ∧ s1.base = s.base ∧ s1.normSpline.isSome := by
    have : ∃ e, s.config.parameters.mapM (fun param => do
        let v ← dataset.get param
        return (param, (⟨s.config.kind, x.map s.transform, v.map s.transform⟩ : Interpolant))) =
        Except.error (ε := PyErr) e := by
      cases hm : s.config.parameters.mapM (fun param => do
        let v ← dataset.get param
        return (param, (⟨s.config.kind, x.map s.transform, v.map s.transform⟩ : Interpolant))) with
      | error e => exact ⟨e, rfl⟩
      | ok l =>
        exfalso
        have hall : ∀ (l' : List String) (out : List (String × Interpolant)),
            l'.mapM (fun param => do
              let v ← dataset.get param
              return (param, (⟨s.config.kind, x.map s.transform, v.map s.transform⟩ : Interpolant)))
              = Except.ok (ε := PyErr) out → ∀ k ∈ l', dataset.contains k := by
          intro l'
          induction l' with
          | nil => intro _ _ k hk; simp at hk
          | cons a l' ih =>
            intro out hout k hk
            rw [List.mapM_cons, bind_eq_ok] at hout
            obtain ⟨y, h1, h2⟩ := hout
            rw [bind_eq_ok] at h1
            obtain ⟨z, h3, -⟩ := h1
            rw [bind_eq_ok] at h2
            obtain ⟨l'', h4, -⟩ := h2
            rcases List.mem_cons.1 hk with rfl | hk
            · rw [← Dict.get?_isSome_iff]
              unfold Dict.get at h3
              cases hg : dataset.get? k with
              | none => rw [hg] at h3; cases h3
              | some _ => rfl
            · exact ih _ h4 k hk
        exact hmiss (hall _ l hm q (by rw [hparams]; simp [hq]))
    obtain ⟨e, he⟩ := this
    refine ⟨e, ?_, ?_⟩
    · rw [hs1]
      unfold setupInterpolant
      simp only [he]
    · rw [hs1]
      unfold setupInterpolant
      simp only [he]
      exact ⟨hs', trivial, trivial, rfl⟩
  obtain ⟨e, h1, h2, h3, h4, h5⟩ := hsetup
  have hstate : runCalls b rule s [(dataset, kwargs)] = s1 := by
    show (call b rule s dataset kwargs).2 = s1
    unfold call
    rw [C34_no_new_partial hnew]
    simp only [hkw]
    have hg : dataset.get (s.config.parameters.headD "") = .ok v := by
      unfold Dict.get; rw [hparams, List.headD_cons, hp]
    rw [hg, hparams]
    simp only
    unfold parameterLoop pXUnnormed
    rw [hs, h1]
  rw [hstate]
  unfold call
  rw [C34_no_new_partial (s := s1) (by rw [h3, h4]; exact hnew')]
  simp only
  split
  · simp
  · split
    · simp
    · obtain ⟨i, hi⟩ := Option.isSome_iff_exists.1 h5
      rw [h3, hparams]
      unfold parameterLoop pXUnnormed evalUnnormed
      rw [hi, h2]
      simp only [Dict.get, Dict.get?_nil, error_bind]
      simp

/-- A magnitude model whose first data have no `a_2`: a later call with both columns fails. -/
example (b : Backend) (rule : SplineRule) (r : List Fl) :
    let s : SplineModel := ⟨.spinMagnitude, ⟨["a_1", "a_2"], 0, 1, 1, "cubic", false, false⟩, "a",
      Arr.linspaceR 0 1 10, none, []⟩
    (call b rule (runCalls b rule s [([("a_1", [fin 0])], [("a0", fin 0), ("fa0", fin 1)])])
      [("a_1", [fin 0]), ("a_2", [fin 0])] [("a0", fin 0), ("fa0", fin 1)]).1 ≠ .ok r := by
  intro s
  have hno : ¬ Dict.contains [("a0", fin 0), ("fa0", fin 1)] (nodeName s.base s.config.nodes) := by
    rw [show nodeName s.base s.config.nodes = "fa1" from by decide]
    show ¬ "fa1" ∈ _
    simp
  refine C35_broken_partial b rule (s := s) rfl rfl (p := "a_1") (ps := ["a_2"])
    (dataset := [("a_1", [fin 0])]) rfl rfl (q := "a_2") (by simp) (by show ¬ "a_2" ∈ _; simp) hno
    (f := [fin 1]) (x := [fin 0]) ?_ _ _ hno r
  refine C36_unregularised rfl ?_ ?_
  · show [fkey "a" 0].mapM _ = _
    rw [show fkey "a" 0 = "fa0" from by decide]
    rfl
  · show [xkey "a" 0].mapM _ = _
    rw [show xkey "a" 0 = "a0" from by decide]
    rfl

/-- The hypotheses of `C35_same_nodes_partial`: a history with other values at the nodes. -/
example (b : Backend) (rule : SplineRule) :
    (call b rule (runCalls b rule lineModel [(lineData 0, [("x0", fin 0), ("x1", fin 1), ("fx0", fin 5),
      ("fx1", fin 7)])]) (lineData 0) lineNodes).1 = (call b rule lineModel (lineData 0) lineNodes).1 := by
  refine C35_same_nodes_partial (.base lineModel_init) ?_ _ ?_
  · intro p hp
    have : p = "x" := by simpa [lineModel] using hp
    subst this
    show "x" ∈ _
    simp [lineData]
  · intro c hc
    rw [List.mem_singleton] at hc
    subst hc
    refine ⟨rfl, fun n => Iff.rfl, fun n => ?_⟩
    simp only [lineNodes, Dict.get?_cons]
    split_ifs with h1 h2 h3 h4
    · rfl
    · rfl
    · exfalso
      have h := congrArg (fun t : String => t.toList.head?) h3
      simp only [String.toList_append] at h
      exact absurd h (by
        rw [show (lineModel.base).toList = ['x'] from by decide, show "fx0".toList = ['f', 'x', '0'] from by decide]
        simp)
    · exfalso
      have h := congrArg (fun t : String => t.toList.head?) h4
      simp only [String.toList_append] at h
      exact absurd h (by
        rw [show (lineModel.base).toList = ['x'] from by decide, show "fx1".toList = ['f', 'x', '1'] from by decide]
        simp)
    · rfl

/-- Regularised nodes: values 3 and -4 with rms 2. -/
example : ∃ c > 0, SplineModel.extractSplinePoints ⟨.base, ⟨["x"], 0, 1, 2, "linear", false, true⟩, "x",
      [], none, []⟩ [("x0", fin 0), ("x1", fin 1), ("fx0", fin 3), ("fx1", fin (-4)), ("rmsx", fin 2)] =
      .ok (([3, -4].map (c * ·)).map fin, [fin 0, fin 1]) ∧ rms ([3, -4].map (c * ·)) = 2 := by
  refine C36_regularised rfl (f := [3, -4]) (ρ := 2) ?_ ?_ (by norm_num) ⟨3, by simp, by norm_num⟩ ?_
  · show [fkey "x" 0, fkey "x" 1].mapM _ = _
    rw [show fkey "x" 0 = "fx0" from by decide, show fkey "x" 1 = "fx1" from by decide]
    rfl
  · rfl
  · show [xkey "x" 0, xkey "x" 1].mapM _ = _
    rw [show xkey "x" 0 = "x0" from by decide, show xkey "x" 1 = "x1" from by decide]
    rfl

end GW
