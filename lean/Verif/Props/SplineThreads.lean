import Verif.Model.SplineThreads
import Verif.Props.SplineHistory

/-!
# C124: spline models in threads, and interrupted evaluations
-/

noncomputable section

open Classical

namespace GW

open Fl SplineModel Spec

namespace SplineThreads

/-! ### Steps and whole evaluations -/

theorem advance_finished (b : Backend) (rule : SplineRule) (q : Request) (s : SplineModel)
    (r : Except PyErr (List Fl)) (k : ℕ) : advanceN b rule q s (.finished r) k = (.finished r, s) := by
  induction k with
  | zero => rfl
  | succ k ih => exact ih

theorem advanceN_add (b : Backend) (rule : SplineRule) (q : Request) (s : SplineModel) (st : Stage) (j k : ℕ) :
    advanceN b rule q s st (j + k) =
      advanceN b rule q (advanceN b rule q s st j).2 (advanceN b rule q s st j).1 k := by
  induction j generalizing s st with
  | zero => rw [Nat.zero_add]; rfl
  | succ j ih =>
    rw [Nat.succ_add]
    exact ih _ _

theorem advanceN_succ (b : Backend) (rule : SplineRule) (q : Request) (s : SplineModel) (st : Stage) (k : ℕ) :
    advanceN b rule q s st (k + 1) = advanceN b rule q (advance b rule q s st).2 (advance b rule q s st).1 k := rfl

theorem setup_steps (s : SplineModel) (x : List Fl) (d : Dict (List Fl)) :
    s.setupInterpolant x d = match withData (withNorm s x) x d with
      | .error e => (.error e, withNorm s x)
      | .ok s' => (.ok (), s') := by
  unfold setupInterpolant withData withNorm
  simp only
  have ht : ∀ o y, transform { s with normSpline := o } y = s.transform y := fun _ _ => rfl
  have hf : (transform { s with normSpline := some ⟨s.config.kind, x.map s.transform, (s.xs.map fin).map s.transform⟩ }) =
    s.transform := rfl
  simp only [hf]
  cases s.config.parameters.mapM (fun param => do
      let v ← d.get param
      return (param, (⟨s.config.kind, x.map s.transform, v.map s.transform⟩ : Interpolant))) with
  | error e => rfl
  | ok l => rfl

/-- The loop over the parameters. -/
theorem loop_steps (b : Backend) (rule : SplineRule) (q : Request) (f x : List Fl) (params : List String)
    (px : List Fl) (s : SplineModel) : ∃ n, advanceN b rule q s (.check params ⟨px, f, x⟩) n =
      match parameterLoop b rule q.dataset x f params px s with
      | (.error e, s1) => (.finished (.error e), s1)
      | (.ok px, s1) => (.check [] ⟨px, f, x⟩, s1) := by
  induction params generalizing px s with
  | nil => exact ⟨0, rfl⟩
  | cons p ps ih =>
    -- the evaluation once the interpolants exist
    have hev : ∀ s1 : SplineModel, ∃ n, advanceN b rule q s1 (.evaluate p ps ⟨px, f, x⟩) n =
        match (match evalUnnormed b rule s1 q.dataset p x f with
          | .error e => (.error e, s1)
          | .ok r => match inplaceMul b px r with
            | .error e => (.error e, s1)
            | .ok px1 => parameterLoop b rule q.dataset x f ps px1 s1 : Except PyErr (List Fl) × SplineModel) with
        | (.error e, s1) => (.finished (.error e), s1)
        | (.ok px, s1) => (.check [] ⟨px, f, x⟩, s1) := by
      intro s1
      cases he : evalUnnormed b rule s1 q.dataset p x f with
      | error e => exact ⟨1, by rw [advanceN_succ]; simp only [advance, he]; rfl⟩
      | ok r =>
        cases hm : inplaceMul b px r with
        | error e => exact ⟨1, by rw [advanceN_succ]; simp only [advance, he, hm]; rfl⟩
        | ok px1 =>
          obtain ⟨n, hn⟩ := ih px1 s1
          refine ⟨n + 1, ?_⟩
          rw [advanceN_succ]
          simp only [advance, he, hm]
          exact hn
    unfold parameterLoop pXUnnormed
    cases hs : s.normSpline with
    | some i =>
      obtain ⟨n, hn⟩ := hev s
      refine ⟨n + 1, ?_⟩
      rw [advanceN_succ]
      simp only [advance, hs]
      rw [hn]
      cases evalUnnormed b rule s q.dataset p x f with
      | error e => rfl
      | ok r => simp only; cases inplaceMul b px r <;> rfl
    | none =>
      simp only
      rw [setup_steps]
      cases hd : withData (withNorm s x) x q.dataset with
      | error e =>
        refine ⟨3, ?_⟩
        rw [advanceN_succ]
        simp only [advance, hs]
        rw [advanceN_succ]
        simp only [advance]
        rw [advanceN_succ]
        simp only [advance, hd]
        rfl
      | ok s1 =>
        obtain ⟨n, hn⟩ := hev s1
        refine ⟨n + 3, ?_⟩
        rw [advanceN_succ]
        simp only [advance, hs]
        rw [advanceN_succ]
        simp only [advance]
        rw [advanceN_succ]
        simp only [advance, hd]
        rw [hn]
        cases evalUnnormed b rule s1 q.dataset p x f with
        | error e => rfl
        | ok r => simp only; cases inplaceMul b px r <;> rfl

/-- The configuration does not change in the loop. -/
theorem loop_config (b : Backend) (rule : SplineRule) (d : Dict (List Fl)) (f x : List Fl) (params : List String)
    (px : List Fl) (s : SplineModel) :
    (parameterLoop b rule d x f params px s).2.config = s.config := by
  induction params generalizing px s with
  | nil => rfl
  | cons p ps ih =>
    have hset : (s.setupInterpolant x d).2.config = s.config := by
      unfold setupInterpolant
      simp only
      cases s.config.parameters.mapM (fun param => do
        let v ← d.get param
        return (param, (⟨s.config.kind, x.map s.transform, v.map s.transform⟩ : Interpolant))) <;> rfl
    have hp : (pXUnnormed b rule s d p x f).2.config = s.config := by
      unfold pXUnnormed
      cases s.normSpline with
      | some i => rfl
      | none =>
        simp only
        rcases hx : s.setupInterpolant x d with ⟨r, s1⟩
        rw [hx] at hset
        cases r <;> exact hset
    unfold parameterLoop
    rcases hx : pXUnnormed b rule s d p x f with ⟨r, s1⟩
    rw [hx] at hp
    cases r with
    | error e => exact hp
    | ok r =>
      simp only
      cases inplaceMul b px r with
      | error e => exact hp
      | ok px1 => exact (ih px1 s1).trans hp

/-- **C124, the steps are those of an evaluation**: an evaluation that is not disturbed finishes with the outcome and
the instance of an evaluation from beginning to end. -/
theorem C124_undisturbed (b : Backend) (rule : SplineRule) (q : Request) (s : SplineModel) :
    ∃ n, ∀ k, n ≤ k → advanceN b rule q s .begin k =
      (.finished (call b rule s q.dataset q.kwargs).1, (call b rule s q.dataset q.kwargs).2) := by
  suffices h : ∃ n, advanceN b rule q s .begin n =
      (.finished (call b rule s q.dataset q.kwargs).1, (call b rule s q.dataset q.kwargs).2) by
    obtain ⟨n, hn⟩ := h
    refine ⟨n, fun k hk => ?_⟩
    obtain ⟨j, rfl⟩ := Nat.exists_eq_add_of_le hk
    rw [advanceN_add, hn]
    exact advance_finished ..
  unfold call
  cases hi : s.inferNodes q.kwargs with
  | error e => exact ⟨1, by rw [advanceN_succ]; simp only [advance, hi]; rfl⟩
  | ok s' =>
    simp only
    cases he : s'.extractSplinePoints q.kwargs with
    | error e => exact ⟨1, by rw [advanceN_succ]; simp only [advance, hi, he]; rfl⟩
    | ok fx =>
      obtain ⟨f, x⟩ := fx
      simp only
      cases hg : q.dataset.get (s'.config.parameters.headD "") with
      | error e => exact ⟨1, by rw [advanceN_succ]; simp only [advance, hi, he, hg]; rfl⟩
      | ok values =>
        simp only
        obtain ⟨n, hn⟩ := loop_steps b rule q f x s'.config.parameters (values.map fun _ => 1) s'
        have hc := loop_config b rule q.dataset f x s'.config.parameters (values.map fun _ => 1) s'
        rcases hl : parameterLoop b rule q.dataset x f s'.config.parameters (values.map fun _ => 1) s' with ⟨r, s1⟩
        rw [hl] at hn hc
        cases r with
        | error e =>
          refine ⟨n + 1, ?_⟩
          rw [advanceN_succ]
          simp only [advance, hi, he, hg]
          exact hn
        | ok px =>
          refine ⟨(n + 1) + 1, ?_⟩
          rw [advanceN_succ]
          simp only [advance, hi, he, hg]
          rw [advanceN_add, hn, advanceN_succ]
          simp only [advance]
          cases normPX b rule s1 f x with
          | error e => rfl
          | ok norm =>
            simp only
            rw [hc]
            rfl

/-! ### An instance that has its interpolants -/

/-- The stages that assign. -/
def Stage.assigns : Stage → Prop
  | .assignNorm .. => True
  | .assignData .. => True
  | _ => False

theorem warm_step {b : Backend} {rule : SplineRule} {q : Request} {s : SplineModel} (hs : s.normSpline.isSome)
    {st : Stage} (hnew : st = .begin → ¬ q.kwargs.contains (nodeName s.base s.config.nodes)) (hst : ¬ st.assigns) :
    (advance b rule q s st).2 = s ∧ ¬ (advance b rule q s st).1.assigns := by
  cases st with
  | begin =>
    simp only [advance]
    rw [C34_no_new_partial (hnew rfl)]
    simp only
    cases s.extractSplinePoints q.kwargs with
    | error e => exact ⟨rfl, id⟩
    | ok fx =>
      simp only
      cases q.dataset.get (s.config.parameters.headD "") with
      | error e => exact ⟨rfl, id⟩
      | ok v => exact ⟨rfl, id⟩
  | check todo l =>
    cases todo with
    | nil =>
      simp only [advance]
      cases normPX b rule s l.f l.x <;> exact ⟨rfl, id⟩
    | cons p ps =>
      obtain ⟨i, hi⟩ := Option.isSome_iff_exists.1 hs
      simp only [advance, hi]
      exact ⟨trivial, id⟩
  | assignNorm p ps l => exact absurd trivial hst
  | assignData p ps l => exact absurd trivial hst
  | evaluate p ps l =>
    simp only [advance]
    cases evalUnnormed b rule s q.dataset p l.x l.f with
    | error e => exact ⟨rfl, id⟩
    | ok r =>
      simp only
      cases inplaceMul b l.px r <;> exact ⟨rfl, id⟩
  | finished r => exact ⟨rfl, id⟩

/-- **C124, full statement**: whatever the schedule of threads that evaluate the same data with the same nodes on one
new instance, every evaluation that has finished has the outcome it has alone. -/
def C124_statement (b : Backend) (rule : SplineRule) : Prop :=
  ∀ (s : SplineModel), Constructed s → ∀ (q : Request) (schedule : List ℕ) (i : ℕ) (r : Except PyErr (List Fl)),
    ((World.start s).run b rule (fun _ => q) schedule).stage i = .finished r →
    r = (call b rule s q.dataset q.kwargs).1

/-- **C124, proved part.** Threads that use an instance which has its interpolants (after a first evaluation that was
not disturbed), with any data and hyper-parameters without further nodes: for every schedule the instance stays as it
is, and each evaluation that has finished has the outcome it has alone on that instance. Missing: the first evaluation,
for which it is false, see `C124_raises_partial` and `C124_fails`. -/
theorem C124_warm_partial (b : Backend) (rule : SplineRule) {s : SplineModel} (hs : s.normSpline.isSome)
    (req : ℕ → Request) (schedule : List ℕ)
    (hnew : ∀ i ∈ schedule, ¬ (req i).kwargs.contains (nodeName s.base s.config.nodes)) :
    ((World.start s).run b rule req schedule).inst = s ∧
    ∀ i r, ((World.start s).run b rule req schedule).stage i = .finished r →
      r = (call b rule s (req i).dataset (req i).kwargs).1 := by
  have key : ∀ (l : List ℕ) (w : World),
      (∀ i ∈ l, ¬ (req i).kwargs.contains (nodeName s.base s.config.nodes)) → w.inst = s →
      (∀ j, ¬ (w.stage j).assigns ∧ ∃ k, advanceN b rule (req j) s .begin k = (w.stage j, s)) →
      (w.run b rule req l).inst = s ∧ ∀ j, ¬ ((w.run b rule req l).stage j).assigns ∧
        ∃ k, advanceN b rule (req j) s .begin k = ((w.run b rule req l).stage j, s) := by
    intro l
    induction l with
    | nil => intro w _ hi hw; exact ⟨hi, hw⟩
    | cons i l ih =>
      intro w hl hi hw
      obtain ⟨ha, k, hk⟩ := hw i
      obtain ⟨h1, h2⟩ := warm_step (b := b) (rule := rule) (q := req i) hs (fun _ => hl i (by simp)) ha
      refine ih (w.step b rule req i) (fun j hj => hl j (by simp [hj])) ?_ ?_
      · show (advance b rule (req i) w.inst (w.stage i)).2 = s
        rw [hi]; exact h1
      · intro j
        by_cases hj : j = i
        · subst hj
          have hst : (w.step b rule req j).stage j = (advance b rule (req j) s (w.stage j)).1 := by
            rw [← hi]; exact if_pos rfl
          rw [hst]
          refine ⟨h2, k + 1, ?_⟩
          rw [advanceN_add, hk]
          show advance b rule (req j) s (w.stage j) = _
          exact Prod.ext rfl h1
        · have hst : (w.step b rule req i).stage j = w.stage j := if_neg hj
          rw [hst]; exact hw j
  obtain ⟨h1, h2⟩ := key schedule (World.start s) hnew rfl (fun j => ⟨id, 0, rfl⟩)
  refine ⟨h1, fun i r hr => ?_⟩
  obtain ⟨-, k, hk⟩ := h2 i
  obtain ⟨n, hn⟩ := C124_undisturbed b rule (req i) s
  have h3 := hn (k + n) (Nat.le_add_left ..)
  rw [advanceN_add, hk, hr, advance_finished] at h3
  have h4 := congrArg Prod.fst h3
  simp only [Stage.finished.injEq] at h4
  exact h4

/-! ### The first evaluation -/

/-- The first three steps on a new instance. -/
theorem first_steps (b : Backend) (rule : SplineRule) {s : SplineModel} (hs : s.normSpline = none) {p : String}
    {ps : List String} (hparams : s.config.parameters = p :: ps) {q : Request}
    (hnew : ¬ q.kwargs.contains (nodeName s.base s.config.nodes)) {f x : List Fl}
    (hkw : s.extractSplinePoints q.kwargs = .ok (f, x)) (hd : q.dataset.contains p) : ∃ l : Locals, l.x = x ∧ l.f = f ∧
      advance b rule q s .begin = (.check (p :: ps) l, s) ∧
      advance b rule q s (.check (p :: ps) l) = (.assignNorm p ps l, s) ∧
      advance b rule q s (.assignNorm p ps l) = (.assignData p ps l, withNorm s x) := by
  obtain ⟨v, hv⟩ := Option.isSome_iff_exists.1 ((Dict.get?_isSome_iff _ _).2 hd)
  refine ⟨⟨v.map fun _ => 1, f, x⟩, rfl, rfl, ?_, ?_, rfl⟩
  · simp only [advance]
    rw [C34_no_new_partial hnew]
    simp only [hkw]
    rw [hparams, List.headD_cons, show q.dataset.get p = .ok v by unfold Dict.get; rw [hv]]
  · simp only [advance, hs]

/-- **C124, concurrent first evaluations**: two threads evaluate a new instance, with any data that have the first
parameter. For the schedule in which the second thread runs between the two assignments of the first one, the second
evaluation raises `KeyError`. -/
theorem C124_raises_partial (b : Backend) (rule : SplineRule) {s : SplineModel} (hs : s.normSpline = none)
    (hs' : s.dataSpline = []) {p : String} {ps : List String} (hparams : s.config.parameters = p :: ps)
    (req : ℕ → Request) (hnew : ∀ i < 2, ¬ (req i).kwargs.contains (nodeName s.base s.config.nodes))
    (hkw : ∀ i < 2, ∃ fx, s.extractSplinePoints (req i).kwargs = .ok fx) (hd : ∀ i < 2, (req i).dataset.contains p) :
    ((World.start s).run b rule req [0, 0, 0, 1, 1, 1]).stage 1 = .finished (.error (.keyError p)) := by
  obtain ⟨⟨f, x⟩, h0⟩ := hkw 0 (by norm_num)
  obtain ⟨⟨f', x'⟩, h1⟩ := hkw 1 (by norm_num)
  obtain ⟨l, hlx, -, a1, a2, a3⟩ := first_steps b rule hs hparams (hnew 0 (by norm_num)) h0 (hd 0 (by norm_num))
  obtain ⟨v, hv⟩ := Option.isSome_iff_exists.1 ((Dict.get?_isSome_iff _ _).2 (hd 1 (by norm_num)))
  have hnew1 : ¬ (req 1).kwargs.contains (nodeName (withNorm s x).base (withNorm s x).config.nodes) :=
    hnew 1 (by norm_num)
  have c1 : advance b rule (req 1) (withNorm s x) .begin =
      (.check (p :: ps) ⟨v.map fun _ => 1, f', x'⟩, withNorm s x) := by
    simp only [advance]
    rw [C34_no_new_partial hnew1]
    have hex : (withNorm s x).extractSplinePoints (req 1).kwargs = .ok (f', x') := h1
    simp only [hex]
    rw [show (withNorm s x).config.parameters = p :: ps from hparams, List.headD_cons,
      show (req 1).dataset.get p = .ok v by unfold Dict.get; rw [hv]]
  have c2 : advance b rule (req 1) (withNorm s x) (.check (p :: ps) ⟨v.map fun _ => 1, f', x'⟩) =
      (.evaluate p ps ⟨v.map fun _ => 1, f', x'⟩, withNorm s x) := rfl
  have c3 : advance b rule (req 1) (withNorm s x) (.evaluate p ps ⟨v.map fun _ => 1, f', x'⟩) =
      (.finished (.error (.keyError p)), withNorm s x) := by
    simp only [advance]
    unfold evalUnnormed
    rw [show (withNorm s x).dataSpline = [] from hs']
    rfl
  simp only [World.run, World.start, World.step, List.foldl_cons, List.foldl_nil, if_true, one_ne_zero, if_false, a1, a2,
    a3, c1, c2, c3]

/-- Both evaluations succeed one after the other, but not together: **C124 fails** for every interpolation rule with
finite values. -/
theorem C124_fails (b : Backend) {rule : SplineRule} {S : String → List ℝ → List ℝ → ℝ → ℝ}
    (hrule : RealRule rule S) : ¬ C124_statement b rule := by
  intro h
  have hr := C124_raises_partial b rule (s := lineModel) rfl rfl (p := "x") (ps := []) rfl
    (fun _ => ⟨lineData 1, lineNodes⟩) (fun _ _ => lineNodes_noNew) (fun _ _ => ⟨_, lineModel_points⟩)
    (fun _ _ => by show "x" ∈ _; simp [lineData])
  have h1 := h lineModel (.base lineModel_init) ⟨lineData 1, lineNodes⟩ _ _ _ hr
  rw [C36_value hrule (lineFirst 1) (lineGrid_norm S).ne'] at h1
  cases h1

/-- After an evaluation of the line model any number of threads may use it. -/
example (b : Backend) (rule : SplineRule) (schedule : List ℕ) (i : ℕ) (r : Except PyErr (List Fl)) (v : ℕ → ℝ)
    (hr : ((World.start (call b rule lineModel (lineData 1) lineNodes).2).run b rule
      (fun i => ⟨lineData (v i), lineNodes⟩) schedule).stage i = .finished r) :
    r = (call b rule (call b rule lineModel (lineData 1) lineNodes).2 (lineData (v i)) lineNodes).1 := by
  obtain ⟨w, hw, hfr, hwc, hwb, hwx, -⟩ := setup_frozen (s := lineModel) (x := [0, 1])
    (dataset := lineData 1) (rows := [fun _ => 1]) (lineFirst 1).data (lineFirst 1).positive.1
    (lineFirst 1).positive.2.1 (lineFirst 1).positive.2.2
  have hcall := (call_setup (b := b) (rule := rule) (dataset := lineData 1) (kwargs := lineNodes) rfl
    (lineFirst 1).params lineNodes_noNew lineModel_points hw hwc hwb).resolve_right
    (by rintro ⟨e, he⟩; cases he)
  have hws : w.normSpline.isSome := by rw [hfr.norm]; rfl
  have hnoW : ¬ lineNodes.contains (nodeName w.base w.config.nodes) := by
    rw [hwb, hwc]; exact lineNodes_noNew
  rw [hcall, call_state_warm hws hnoW] at hr ⊢
  exact (C124_warm_partial b rule hws (fun i => ⟨lineData (v i), lineNodes⟩) schedule (fun _ _ => hnoW)).2 i r hr

/-! ### Interrupted evaluations -/

/-- **C124, interruption between the two assignments**: if the first evaluation of an instance is abandoned after its
third step, no later evaluation returns a value, with whatever data and hyper-parameters without further nodes. -/
theorem C124_interrupted_partial (b : Backend) (rule : SplineRule) {s : SplineModel} (hs : s.normSpline = none)
    (hs' : s.dataSpline = []) {p : String} {ps : List String} (hparams : s.config.parameters = p :: ps) {q : Request}
    (hnew : ¬ q.kwargs.contains (nodeName s.base s.config.nodes)) {f x : List Fl}
    (hkw : s.extractSplinePoints q.kwargs = .ok (f, x)) (hd : q.dataset.contains p) {q' : Request}
    (hnew' : ¬ q'.kwargs.contains (nodeName s.base s.config.nodes)) (r : List Fl) :
    (call b rule (advanceN b rule q s .begin 3).2 q'.dataset q'.kwargs).1 ≠ .ok r := by
  obtain ⟨l, hlx, -, a1, a2, a3⟩ := first_steps b rule hs hparams hnew hkw hd
  have hst : (advanceN b rule q s .begin 3).2 = withNorm s x := by
    simp only [advanceN, a1, a2, a3]
  rw [hst]
  unfold call
  rw [C34_no_new_partial (s := withNorm s x) hnew']
  simp only
  split
  · simp
  · split
    · simp
    · rw [show (withNorm s x).config.parameters = p :: ps from hparams]
      unfold parameterLoop pXUnnormed evalUnnormed
      rw [show (withNorm s x).normSpline = some _ from rfl, show (withNorm s x).dataSpline = [] from hs']
      simp only [Dict.get, Dict.get?_nil, error_bind]
      simp

/-- The line model, abandoned in its first evaluation. -/
example (b : Backend) (rule : SplineRule) (v w : ℝ) (r : List Fl) :
    (call b rule (advanceN b rule ⟨lineData v, lineNodes⟩ lineModel .begin 3).2 (lineData w) lineNodes).1 ≠ .ok r :=
  C124_interrupted_partial b rule (s := lineModel) rfl rfl (p := "x") (ps := []) rfl (q := ⟨lineData v, lineNodes⟩)
    lineNodes_noNew lineModel_points (by show "x" ∈ _; simp [lineData]) (q' := ⟨lineData w, lineNodes⟩)
    lineNodes_noNew r

/-- An evaluation that does not change the instance any more. -/
def Settled (b : Backend) (rule : SplineRule) (q : Request) (s : SplineModel) (st : Stage) : Prop :=
  ∀ j, (advanceN b rule q s st j).2 = s

theorem settled_warm {b : Backend} {rule : SplineRule} {q : Request} {s : SplineModel} (hs : s.normSpline.isSome)
    {st : Stage} (hb : st ≠ .begin) (hst : ¬ st.assigns) : Settled b rule q s st := by
  have key : ∀ j (st : Stage), st ≠ .begin → ¬ st.assigns → (advanceN b rule q s st j).2 = s := by
    intro j
    induction j with
    | zero => intro st _ _; rfl
    | succ j ih =>
      intro st hb hst
      obtain ⟨h1, h2⟩ := warm_step (b := b) (rule := rule) (q := q) hs (fun h => absurd h hb) hst
      rw [advanceN_succ, h1]
      refine ih _ ?_ h2
      cases st with
      | begin => exact absurd rfl hb
      | check todo l =>
        cases todo with
        | nil => simp only [advance]; cases normPX b rule s l.f l.x <;> simp
        | cons p ps => simp only [advance]; cases s.normSpline <;> simp
      | assignNorm p ps l => simp [advance]
      | assignData p ps l => exact absurd trivial hst
      | evaluate p ps l =>
        simp only [advance]
        cases evalUnnormed b rule s q.dataset p l.x l.f with
        | error e => simp
        | ok r => simp only; cases inplaceMul b l.px r <;> simp
      | finished r => simp [advance]
  exact fun j => key j st hb hst

/-- **C124, all points of interruption**: whenever the first evaluation of an instance is abandoned (with
hyper-parameters without further nodes), the instance is as it was before, as a complete evaluation leaves it, or it has
the first of the two interpolants only. -/
theorem C124_points_partial (b : Backend) (rule : SplineRule) {s : SplineModel} (hs : s.normSpline = none) (q : Request)
    (hnew : ¬ q.kwargs.contains (nodeName s.base s.config.nodes)) (k : ℕ) :
    (advanceN b rule q s .begin k).2 = s ∨
    (advanceN b rule q s .begin k).2 = (call b rule s q.dataset q.kwargs).2 ∨
    ∃ f x, s.extractSplinePoints q.kwargs = .ok (f, x) ∧ (advanceN b rule q s .begin k).2 = withNorm s x := by
  have key : ∀ k, let w := advanceN b rule q s .begin k
      (w.2 = s ∧ (w.1 = .begin ∨ (∃ todo l f, s.extractSplinePoints q.kwargs = .ok (f, l.x) ∧ w.1 = .check todo l) ∨
        (∃ p ps l f, s.extractSplinePoints q.kwargs = .ok (f, l.x) ∧ w.1 = .assignNorm p ps l))) ∨
      (∃ p ps l f, s.extractSplinePoints q.kwargs = .ok (f, l.x) ∧ w.1 = .assignData p ps l ∧ w.2 = withNorm s l.x) ∨
      Settled b rule q w.2 w.1 := by
    intro k
    induction k with
    | zero => exact Or.inl ⟨rfl, Or.inl rfl⟩
    | succ k ih =>
      rw [advanceN_add]
      rcases hw : advanceN b rule q s .begin k with ⟨st, s1⟩
      rw [hw] at ih
      simp only at ih ⊢
      rw [show advanceN b rule q s1 st 1 = advance b rule q s1 st from rfl]
      have fin' : ∀ (s : SplineModel) r, Settled b rule q s (.finished r) := fun s r j => by
        rw [advance_finished]
      rcases ih with ⟨rfl, rfl | ⟨todo, l, f, hx, rfl⟩ | ⟨p, ps, l, f, hx, rfl⟩⟩ | ⟨p, ps, l, f, hx, rfl, rfl⟩ | hset
      · simp only [advance]
        rw [C34_no_new_partial hnew]
        simp only
        cases he : s1.extractSplinePoints q.kwargs with
        | error e => exact Or.inr (Or.inr (fin' _ _))
        | ok fx =>
          simp only
          cases q.dataset.get (s1.config.parameters.headD "") with
          | error e => exact Or.inr (Or.inr (fin' _ _))
          | ok v => exact Or.inl ⟨rfl, Or.inr (Or.inl ⟨_, ⟨_, fx.1, fx.2⟩, fx.1, rfl, rfl⟩)⟩
      · cases todo with
        | nil =>
          simp only [advance]
          cases normPX b rule s1 l.f l.x <;> exact Or.inr (Or.inr (fin' _ _))
        | cons p ps =>
          simp only [advance, hs]
          exact Or.inl ⟨trivial, Or.inr (Or.inr ⟨p, ps, l, f, hx, rfl⟩)⟩
      · exact Or.inr (Or.inl ⟨p, ps, l, f, hx, rfl, rfl⟩)
      · simp only [advance]
        cases hd : withData (withNorm s l.x) l.x q.dataset with
        | error e => exact Or.inr (Or.inr (fin' _ _))
        | ok s2 =>
          refine Or.inr (Or.inr (settled_warm ?_ (by simp) (by simp [Stage.assigns])))
          unfold withData at hd
          obtain ⟨d, -, hd⟩ := bind_eq_ok.1 hd
          rw [← Except.ok.inj hd]
          rfl
      · refine Or.inr (Or.inr ?_)
        have h1 : (advance b rule q s1 st).2 = s1 := hset 1
        intro j
        have := hset (j + 1)
        rw [advanceN_succ] at this
        rw [this, h1]
  rcases key k with ⟨h, -⟩ | ⟨p, ps, l, f, hx, -, h⟩ | h
  · exact Or.inl h
  · exact Or.inr (Or.inr ⟨f, l.x, hx, h⟩)
  · right; left
    obtain ⟨n, hn⟩ := C124_undisturbed b rule q s
    have h1 := hn (k + n) (Nat.le_add_left ..)
    rw [advanceN_add] at h1
    rw [← h n, h1]

/-- The line model, abandoned anywhere. -/
example (b : Backend) (rule : SplineRule) (v : ℝ) (k : ℕ) :
    let s := (advanceN b rule ⟨lineData v, lineNodes⟩ lineModel .begin k).2
    s = lineModel ∨ s = (call b rule lineModel (lineData v) lineNodes).2 ∨ s = withNorm lineModel [fin 0, fin 1] := by
  intro s
  rcases C124_points_partial b rule (s := lineModel) rfl ⟨lineData v, lineNodes⟩ lineNodes_noNew k with h | h | ⟨f, x, hx, h⟩
  · exact Or.inl h
  · exact Or.inr (Or.inl h)
  · rw [lineModel_points] at hx
    cases hx
    exact Or.inr (Or.inr h)

end SplineThreads

end GW
