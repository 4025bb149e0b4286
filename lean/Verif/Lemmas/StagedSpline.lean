import Verif.Lemmas.Staged

/-!
# Spline models under `jax.jit`: ordinary calls and traces of initialised instances
-/

noncomputable section

open Classical

namespace GW

open Fl

namespace Staged

variable {E α β : Type}

theorem op_eager (f : α → Except PyErr β) (a : α) :
    op (E := E) .eager f (.known a) = (f a).map .known := by
  show (f a >>= fun b => (.ok (.known b) : Except PyErr (Staged E β))) = _
  cases f a <;> rfl

theorem list_eager (l : List α) :
    list (E := E) .eager (l.map .known) = .ok (.known l) := by
  induction l with
  | nil => unfold list; rfl
  | cons a l ih => rw [List.map_cons]; unfold list; rw [ih]; rfl

theorem get_knownDict (d : Dict α) (k : String) :
    Dict.get (knownDict d : Dict (Staged E α)) k = (Dict.get d k).map .known := by
  unfold Dict.get
  have : Dict.get? (knownDict d : Dict (Staged E α)) k = (d.get? k).map Staged.known :=
    get?_map_snd d (fun _ => Staged.known) k
  rw [this]
  cases d.get? k <;> rfl

theorem mapM_get_knownDict (d : Dict α) (ks : List String) :
    ks.mapM (Dict.get (knownDict d : Dict (Staged E α))) =
      (ks.mapM (Dict.get d)).map (List.map .known) := by
  induction ks with
  | nil => rfl
  | cons k ks ih =>
    rw [List.mapM_cons, List.mapM_cons, ih, get_knownDict]
    cases Dict.get d k with
    | error e => rfl
    | ok a => cases ks.mapM (Dict.get d) <;> rfl

end Staged

/-- An interpolant whose arrays are concrete. -/
def StagedInterpolant.ofInterpolant {E : Type} (i : Interpolant) : StagedInterpolant E :=
  ⟨i.kind, i.nodes, .known (), .known i.values⟩

/-- An instance whose arrays are all concrete. -/
def StagedSpline.ofModel {E : Type} (m : SplineModel) : StagedSpline E where
  cls := m.cls
  config := m.config
  base := m.base
  xs := .known (m.xs.map fin)
  normSpline := m.normSpline.map .ofInterpolant
  dataSpline := m.dataSpline.map fun p => (p.1, .ofInterpolant p.2)

namespace StagedSpline

variable {E : Type}

theorem inferLoop_keys {kw kw' : Dict Fl} (h : ∀ k, kw.contains k ↔ kw'.contains k) (base : String)
    (n : ℕ) : SplineModel.inferLoop kw base n = SplineModel.inferLoop kw' base n := by
  fun_induction SplineModel.inferLoop kw base n with
  | case1 n hc ih =>
    rw [ih]
    conv_rhs => unfold SplineModel.inferLoop
    rw [if_pos ((h _).1 hc)]
  | case2 n hc =>
    conv_rhs => unfold SplineModel.inferLoop
    rw [if_neg (fun h' => hc ((h _).2 h'))]

theorem init_eager (cls : SplineClass) (cfg : SplineConfig) :
    init (E := E) .eager cls cfg = (SplineModel.init cls cfg).map ofModel := by
  unfold init SplineModel.init
  rw [Staged.op_eager]
  cases cfg.parameters <;> rfl

theorem reinit_eager (m : SplineModel) (n : ℕ) :
    (ofModel m : StagedSpline E).reinit .eager n = (m.reinit n).map ofModel := by
  unfold reinit SplineModel.reinit
  show (match m.cls with
    | .base => _
    | .spinMagnitude => _
    | .spinTilt => _) = _
  cases m.cls with
  | base => rfl
  | spinMagnitude => exact init_eager _ _
  | spinTilt => exact init_eager _ _

theorem inferNodes_eager (m : SplineModel) (kw : Dict Fl) :
    (ofModel m : StagedSpline E).inferNodes .eager (knownDict kw) =
      (m.inferNodes kw).map ofModel := by
  unfold inferNodes SplineModel.inferNodes
  have : SplineModel.inferLoop ((knownDict kw : Dict (Staged E Fl)).map fun p => (p.1, (0 : Fl)))
      (ofModel m : StagedSpline E).base (ofModel m : StagedSpline E).config.nodes =
      SplineModel.inferLoop kw m.base m.config.nodes := by
    refine inferLoop_keys (fun k => ?_) _ _
    simp [Dict.contains, knownDict]
  simp only [this]
  show (if _ ≠ m.config.nodes then _ else _) = _
  split_ifs
  · exact reinit_eager _ _
  · rfl

theorem interpolant_eager (m : SplineModel) (nodes values : List Fl) :
    (ofModel m : StagedSpline E).interpolant .eager (.known nodes) (.known values) =
      .ok (.ofInterpolant ⟨m.config.kind, nodes.map m.transform, values.map m.transform⟩) := rfl

theorem foldl_set_map {α β : Type} (f : α → β) (l : List (String × α)) (acc : Dict α) :
    (l.map fun p => (p.1, f p.2)).foldl (fun acc p => Dict.set acc p.1 p.2)
      (acc.map fun p => (p.1, f p.2)) =
      (l.foldl (fun acc p => Dict.set acc p.1 p.2) acc).map fun p => (p.1, f p.2) := by
  have hset : ∀ (acc : Dict α) (k : String) (v : α),
      Dict.set (acc.map fun p => (p.1, f p.2)) k (f v) =
        (Dict.set acc k v).map fun p => (p.1, f p.2) := by
    intro acc k v
    induction acc with
    | nil => rfl
    | cons p acc ih =>
      obtain ⟨k', v'⟩ := p
      simp only [List.map_cons, Dict.set]
      split_ifs
      · rfl
      · rw [ih]; rfl
  induction l generalizing acc with
  | nil => rfl
  | cons p l ih => rw [List.map_cons, List.foldl_cons, List.foldl_cons, hset, ih]

theorem setup_eager (m : SplineModel) (nodes : List Fl) (d : Dict (List Fl)) :
    (ofModel m : StagedSpline E).setupInterpolant .eager (.known nodes) (knownDict d) =
      ((m.setupInterpolant nodes d).1, ofModel (m.setupInterpolant nodes d).2) := by
  unfold setupInterpolant SplineModel.setupInterpolant
  have hm : ∀ ps : List String,
      ps.mapM (fun param => do
        let v ← Dict.get (knownDict d : Dict (Staged E (List Fl))) param
        let i ← (ofModel m : StagedSpline E).interpolant .eager (.known nodes) v
        return (param, i)) =
      (ps.mapM (fun param => do
        let v ← d.get param
        return (param, (⟨m.config.kind, nodes.map m.transform, v.map m.transform⟩ : Interpolant)))).map
        (List.map fun p : String × Interpolant => (p.1, StagedInterpolant.ofInterpolant p.2)) := by
    intro ps
    induction ps with
    | nil => rfl
    | cons p ps ih =>
      rw [List.mapM_cons, List.mapM_cons, ih, Staged.get_knownDict]
      cases hd : Dict.get d p with
      | error e => rfl
      | ok v =>
        simp only [Except.map, ok_bind, interpolant_eager, pure_eq_ok]
        generalize ps.mapM (fun param => (do
          let v ← d.get param
          .ok (param, (⟨m.config.kind, nodes.map m.transform, v.map m.transform⟩ : Interpolant)) :
            Except PyErr (String × Interpolant))) = r
        cases r <;> rfl
  have hx : (ofModel m : StagedSpline E).xs = .known (m.xs.map fin) := rfl
  have hp : (ofModel m : StagedSpline E).config = m.config := rfl
  rw [hx, interpolant_eager, hp, hm]
  simp only
  cases hmm : m.config.parameters.mapM (fun param => do
        let v ← d.get param
        return (param, (⟨m.config.kind, nodes.map m.transform, v.map m.transform⟩ : Interpolant))) with
  | error e => rfl
  | ok l =>
    simp only [Except.map]
    have := foldl_set_map (StagedInterpolant.ofInterpolant (E := E)) l []
    rw [List.map_nil] at this
    rw [this]
    rfl

theorem eval_eager (rule : SplineRule) (i : Interpolant) (y : List Fl) :
    (StagedInterpolant.ofInterpolant i : StagedInterpolant E).eval .eager rule (.known y) =
      .ok (.known (i.eval rule y)) := rfl

theorem get_dataSpline (m : SplineModel) (p : String) :
    Dict.get (ofModel m : StagedSpline E).dataSpline p =
      (Dict.get m.dataSpline p).map .ofInterpolant := by
  unfold Dict.get
  have : Dict.get? (ofModel m : StagedSpline E).dataSpline p =
      (m.dataSpline.get? p).map StagedInterpolant.ofInterpolant :=
    Staged.get?_map_snd m.dataSpline (fun _ => StagedInterpolant.ofInterpolant) p
  rw [this]
  cases m.dataSpline.get? p <;> rfl

theorem evalUnnormed_eager (rule : SplineRule) (m : SplineModel) (d : Dict (List Fl)) (p : String)
    (x f : List Fl) :
    (ofModel m : StagedSpline E).evalUnnormed .eager rule (knownDict d) p (.known x) (.known f) =
      (m.evalUnnormed .jax rule d p x f).map .known := by
  unfold evalUnnormed SplineModel.evalUnnormed
  rw [get_dataSpline]
  cases Dict.get m.dataSpline p with
  | error e => rfl
  | ok i =>
    simp only [Except.map, ok_bind, eval_eager, Staged.op_eager, Staged.get_knownDict]
    cases Dict.get d p with
    | error e => rfl
    | ok v =>
      simp only [ok_bind, Staged.pair, Staged.op_eager, Except.map]
      cases SplineModel.mask v x with
      | error e => rfl
      | ok k =>
        simp only [ok_bind, Staged.pair, Staged.op_eager, Except.map]

theorem pXUnnormed_eager (rule : SplineRule) (m : SplineModel) (d : Dict (List Fl)) (p : String)
    (x f : List Fl) :
    (ofModel m : StagedSpline E).pXUnnormed .eager rule (knownDict d) p (.known x) (.known f) =
      ((m.pXUnnormed .jax rule d p x f).1.map .known, ofModel (m.pXUnnormed .jax rule d p x f).2) := by
  unfold pXUnnormed SplineModel.pXUnnormed
  have hn : (ofModel m : StagedSpline E).normSpline = m.normSpline.map .ofInterpolant := rfl
  rw [hn]
  cases m.normSpline with
  | some i => simp only [Option.map_some, evalUnnormed_eager]
  | none =>
    simp only [Option.map_none, setup_eager]
    rcases m.setupInterpolant x d with ⟨r, s1⟩
    cases r with
    | error e => rfl
    | ok u => simp only [evalUnnormed_eager]

theorem normPX_eager (rule : SplineRule) (m : SplineModel) (f x : List Fl) :
    (ofModel m : StagedSpline E).normPX .eager rule (.known f) (.known x) =
      (m.normPX .jax rule f x).map .known := by
  unfold normPX SplineModel.normPX
  have hn : (ofModel m : StagedSpline E).normSpline = m.normSpline.map .ofInterpolant := rfl
  have hx : (ofModel m : StagedSpline E).xs = .known (m.xs.map fin) := rfl
  rw [hn, hx]
  cases m.normSpline with
  | none => rfl
  | some i =>
    simp only [Option.map_some, eval_eager, ok_bind, Staged.op_eager, Except.map, Staged.pair]
    cases SplineModel.mask (m.xs.map fin) x with
    | error e => rfl
    | ok k =>
      simp only [ok_bind, Staged.pair, Staged.op_eager, Except.map]
      cases SplineModel.inplaceMul .jax (List.map Fl.exp (Interpolant.eval rule i f)) k <;> rfl

theorem extract_eager (m : SplineModel) (kw : Dict Fl) :
    (ofModel m : StagedSpline E).extractSplinePoints .eager (knownDict kw) =
      (m.extractSplinePoints kw).map fun q => (.known q.1, .known q.2) := by
  unfold extractSplinePoints SplineModel.extractSplinePoints
  have h1 : (ofModel m : StagedSpline E).fkeys = m.fkeys := rfl
  have h2 : (ofModel m : StagedSpline E).xkeys = m.xkeys := rfl
  have h3 : (ofModel m : StagedSpline E).config = m.config := rfl
  have h4 : (ofModel m : StagedSpline E).base = m.base := rfl
  rw [h1, h2, h3, h4, Staged.mapM_get_knownDict]
  cases m.fkeys.mapM (Dict.get kw) with
  | error e => rfl
  | ok fs =>
    simp only [Except.map, ok_bind, Staged.list_eager, Staged.op_eager, SplineModel.regularise]
    have key : ∀ g : List Fl,
        (do
          let xs ← m.xkeys.mapM (Dict.get (knownDict kw : Dict (Staged E Fl)))
          let x ← Staged.list .eager xs
          let x ← Staged.op .eager .ok x
          return ((.known g : Staged E (List Fl)), x)) =
        (do
          let x ← m.xkeys.mapM (Dict.get kw)
          return (g, x) : Except PyErr (List Fl × List Fl)).map
            fun q => (.known q.1, .known q.2) := by
      intro g
      rw [Staged.mapM_get_knownDict]
      cases m.xkeys.mapM (Dict.get kw) with
      | error e => rfl
      | ok xs =>
        simp only [Except.map, ok_bind, Staged.list_eager, Staged.op_eager]
        rfl
    split_ifs
    · rw [Staged.get_knownDict]
      cases Dict.get kw (SplineModel.rmsKey m.base) with
      | error e => rfl
      | ok r =>
        simp only [Except.map, ok_bind, Staged.pair, Staged.op_eager, pure_eq_ok]
        have := key (fs.map (· * SplineModel.rmsFactor r fs))
        simp only [pure_eq_ok, Except.map] at this
        exact this
    · simp only [ok_bind]
      have := key fs
      simp only [Except.map] at this
      exact this

theorem loop_eager (rule : SplineRule) (d : Dict (List Fl)) (x f : List Fl) (ps : List String)
    (px : List Fl) (m : SplineModel) :
    parameterLoop (E := E) .eager rule (knownDict d) (.known x) (.known f) ps (.known px) (ofModel m) =
      ((SplineModel.parameterLoop .jax rule d x f ps px m).1.map .known,
        ofModel (SplineModel.parameterLoop .jax rule d x f ps px m).2) := by
  induction ps generalizing px m with
  | nil => rfl
  | cons p ps ih =>
    unfold parameterLoop SplineModel.parameterLoop
    rw [pXUnnormed_eager]
    rcases m.pXUnnormed .jax rule d p x f with ⟨r, s1⟩
    cases r with
    | error e => rfl
    | ok r =>
      simp only [Except.map, timesInPlace, Staged.pair, ok_bind, Staged.op_eager]
      cases SplineModel.inplaceMul .jax px r with
      | error e => rfl
      | ok px1 =>
        have := ih px1 s1
        simp only [Except.map] at this ⊢
        exact this

/-- Without `jax.jit`, instances behave as in the model of the plain package. -/
theorem call_eager (rule : SplineRule) (m : SplineModel) (d : Dict (List Fl)) (kw : Dict Fl) :
    (ofModel m : StagedSpline E).call .eager rule (knownDict d) (knownDict kw) =
      ((m.call .jax rule d kw).1.map .known, ofModel (m.call .jax rule d kw).2) := by
  unfold call SplineModel.call
  rw [inferNodes_eager]
  cases m.inferNodes kw with
  | error e => rfl
  | ok m =>
    simp only [Except.map, extract_eager]
    cases m.extractSplinePoints kw with
    | error e => rfl
    | ok q =>
      obtain ⟨f, x⟩ := q
      have h3 : (ofModel m : StagedSpline E).config = m.config := rfl
      simp only [ones, h3, Staged.get_knownDict]
      cases Dict.get d (m.config.parameters.headD "") with
      | error e => rfl
      | ok v =>
        simp only [Except.map, ok_bind, Staged.op_eager, loop_eager]
        rcases SplineModel.parameterLoop .jax rule d x f m.config.parameters (v.map fun _ => 1) m with
          ⟨r, s1⟩
        cases r with
        | error e => rfl
        | ok px =>
          simp only [normalise, normPX_eager]
          cases s1.normPX .jax rule f x with
          | error e => rfl
          | ok n =>
            simp only [Except.map, ok_bind, Staged.pair, Staged.op_eager]

/-! ### Calls of an instance whose interpolants exist, in any context -/

open Staged

variable {c : Ctx E} {G : E → Prop}

theorem eval_sim (hc : CtxOk c G) (rule : SplineRule) (i : Interpolant) {Y : Staged E (List Fl)}
    {y : E → List Fl} (hY : Sim c G Y y) :
    ∃ z, (StagedInterpolant.ofInterpolant i : StagedInterpolant E).eval c rule Y = .ok z ∧
      Sim c G z fun e => i.eval rule (y e) := by
  obtain ⟨a, ha, has⟩ := pair_sim (sim_known c G ()) (sim_known c G i.values)
  obtain ⟨b, hb, hbs⟩ := pair_sim has hY
  obtain ⟨z, hz, hzs⟩ := op_sim hc hbs
    (fun a => .ok (a.1.2.map (rule i.kind i.nodes a.2))) (fun e => i.eval rule (y e))
    (fun e _ => rfl)
  refine ⟨z, ?_, hzs⟩
  unfold StagedInterpolant.eval
  simp only [StagedInterpolant.ofInterpolant, ha, ok_bind, hb, hz]

/-- The common part of `p_x_unnormed` and `norm_p_x`. -/
theorem masked_sim (hc : CtxOk c G) {P V X : Staged E (List Fl)} {p v x : E → List Fl}
    (hP : Sim c G P p) (hV : Sim c G V v) (hX : Sim c G X x) {k r : E → List Fl}
    (hk : ∀ e, G e → SplineModel.mask (v e) (x e) = .ok (k e))
    (hr : ∀ e, G e → SplineModel.inplaceMul .jax ((p e).map Fl.exp) (k e) = .ok (r e)) :
    ∃ P1 vx K pm R, Staged.op c (fun l => .ok (l.map Fl.exp)) P = .ok P1 ∧
      Staged.pair c V X = .ok vx ∧
      Staged.op c (fun a => SplineModel.mask a.1 a.2) vx = .ok K ∧
      Staged.pair c P1 K = .ok pm ∧
      Staged.op c (fun a => SplineModel.inplaceMul .jax a.1 a.2) pm = .ok R ∧ Sim c G R r := by
  obtain ⟨P1, h1, s1⟩ := op_sim hc hP (fun l => .ok (l.map Fl.exp)) (fun e => (p e).map Fl.exp)
    (fun e _ => rfl)
  obtain ⟨vx, h2, s2⟩ := pair_sim hV hX
  obtain ⟨K, h3, s3⟩ := op_sim hc s2 (fun a => SplineModel.mask a.1 a.2) k hk
  obtain ⟨pm, h4, s4⟩ := pair_sim s1 s3
  obtain ⟨R, h5, s5⟩ := op_sim hc s4 (fun a => SplineModel.inplaceMul .jax a.1 a.2) r hr
  exact ⟨P1, vx, K, pm, R, h1, h2, h3, h4, h5, s5⟩

theorem evalUnnormed_sim (hc : CtxOk c G) (rule : SplineRule) (m : SplineModel)
    {D : Dict (Staged E (List Fl))} {d : E → Dict (List Fl)} (hD : SimDict c G D d) (q : String)
    {X F : Staged E (List Fl)} {x f : E → List Fl} (hX : Sim c G X x) (hF : Sim c G F f)
    {r : E → List Fl} (hr : ∀ e, G e → m.evalUnnormed .jax rule (d e) q (x e) (f e) = .ok (r e)) :
    ∃ R, (ofModel m : StagedSpline E).evalUnnormed c rule D q X F = .ok R ∧ Sim c G R r := by
  have hinv : ∀ e, G e → ∃ i v k, m.dataSpline.get q = .ok i ∧ (d e).get q = .ok v ∧
      SplineModel.mask v (x e) = .ok k ∧
      SplineModel.inplaceMul .jax ((i.eval rule (f e)).map Fl.exp) k = .ok (r e) := by
    intro e he
    have := hr e he
    unfold SplineModel.evalUnnormed at this
    obtain ⟨i, h1, this⟩ := bind_eq_ok.1 this
    obtain ⟨v, h2, this⟩ := bind_eq_ok.1 this
    obtain ⟨k, h3, this⟩ := bind_eq_ok.1 this
    exact ⟨i, v, k, h1, h2, h3, this⟩
  obtain ⟨i, hi⟩ : ∃ i, m.dataSpline.get q = .ok i := by
    obtain ⟨e, he⟩ := hc.nonempty
    obtain ⟨i, _, _, h, _⟩ := hinv e he
    exact ⟨i, h⟩
  have hinv' : ∀ e, G e → ∃ v k, (d e).get q = .ok v ∧ SplineModel.mask v (x e) = .ok k ∧
      SplineModel.inplaceMul .jax ((i.eval rule (f e)).map Fl.exp) k = .ok (r e) := by
    intro e he
    obtain ⟨i', v, k, h1, h2, h3, h4⟩ := hinv e he
    rw [hi] at h1
    cases h1
    exact ⟨v, k, h2, h3, h4⟩
  choose! v k h2 h3 h4 using hinv'
  obtain ⟨P, hP, hPs⟩ := eval_sim hc rule i hF
  obtain ⟨V, hV, hVs⟩ := hD.get hc.nonempty h2
  obtain ⟨P1, vx, K, pm, R, g1, g2, g3, g4, g5, gs⟩ := masked_sim hc hPs hVs hX h3 h4
  refine ⟨R, ?_, gs⟩
  unfold evalUnnormed
  rw [get_dataSpline, hi]
  simp only [Except.map, ok_bind, hP, g1, hV, g2, g3, g4, g5]

theorem pXUnnormed_sim (hc : CtxOk c G) (rule : SplineRule) {m : SplineModel} {ns : Interpolant}
    (hm : m.normSpline = some ns)
    {D : Dict (Staged E (List Fl))} {d : E → Dict (List Fl)} (hD : SimDict c G D d) (q : String)
    {X F : Staged E (List Fl)} {x f : E → List Fl} (hX : Sim c G X x) (hF : Sim c G F f)
    {r : E → List Fl} (hr : ∀ e, G e → m.evalUnnormed .jax rule (d e) q (x e) (f e) = .ok (r e)) :
    ∃ R, (ofModel m : StagedSpline E).pXUnnormed c rule D q X F = (.ok R, ofModel m) ∧
      Sim c G R r := by
  obtain ⟨R, h, hs⟩ := evalUnnormed_sim hc rule m hD q hX hF hr
  refine ⟨R, ?_, hs⟩
  unfold pXUnnormed
  have hn : (ofModel m : StagedSpline E).normSpline = some (.ofInterpolant ns) := by
    show m.normSpline.map _ = _
    rw [hm]; rfl
  rw [hn]
  simp only [h]

theorem loop_keeps {b : Backend} {rule : SplineRule} {m : SplineModel} {ns : Interpolant}
    (hm : m.normSpline = some ns) (d : Dict (List Fl)) (x f : List Fl) (ps : List String)
    (px : List Fl) : (SplineModel.parameterLoop b rule d x f ps px m).2 = m := by
  induction ps generalizing px with
  | nil => rfl
  | cons q ps ih =>
    unfold SplineModel.parameterLoop SplineModel.pXUnnormed
    rw [hm]
    simp only
    cases m.evalUnnormed b rule d q x f with
    | error e => rfl
    | ok r =>
      simp only
      cases SplineModel.inplaceMul b px r with
      | error e => rfl
      | ok px1 => exact ih px1

theorem loop_sim (hc : CtxOk c G) (rule : SplineRule) {m : SplineModel} {ns : Interpolant}
    (hm : m.normSpline = some ns)
    {D : Dict (Staged E (List Fl))} {d : E → Dict (List Fl)} (hD : SimDict c G D d)
    {X F : Staged E (List Fl)} {x f : E → List Fl} (hX : Sim c G X x) (hF : Sim c G F f)
    (ps : List String) {P : Staged E (List Fl)} {px : E → List Fl} (hP : Sim c G P px)
    {r : E → List Fl}
    (hr : ∀ e, G e → (SplineModel.parameterLoop .jax rule (d e) (x e) (f e) ps (px e) m).1 =
      .ok (r e)) :
    ∃ R, parameterLoop c rule D X F ps P (ofModel m : StagedSpline E) = (.ok R, ofModel m) ∧
      Sim c G R r := by
  induction ps generalizing P px with
  | nil => exact ⟨P, rfl, hP.congr fun e he => Except.ok.inj (hr e he)⟩
  | cons q ps ih =>
    have hinv : ∀ e, G e → ∃ u w, m.evalUnnormed .jax rule (d e) q (x e) (f e) = .ok u ∧
        SplineModel.inplaceMul .jax (px e) u = .ok w ∧
        (SplineModel.parameterLoop .jax rule (d e) (x e) (f e) ps w m).1 = .ok (r e) := by
      intro e he
      have := hr e he
      unfold SplineModel.parameterLoop SplineModel.pXUnnormed at this
      rw [hm] at this
      simp only at this
      cases hu : m.evalUnnormed .jax rule (d e) q (x e) (f e) with
      | error err => rw [hu] at this; cases this
      | ok u =>
        rw [hu] at this
        simp only at this
        cases hw : SplineModel.inplaceMul .jax (px e) u with
        | error err => rw [hw] at this; cases this
        | ok w =>
          rw [hw] at this
          exact ⟨u, w, rfl, hw, this⟩
    choose! u w h1 h2 h3 using hinv
    obtain ⟨R, hR, hRs⟩ := pXUnnormed_sim hc rule hm hD q hX hF h1
    obtain ⟨a, ha, has⟩ := pair_sim hP hRs
    obtain ⟨P1, hP1, hP1s⟩ := op_sim hc has (fun a => SplineModel.inplaceMul .jax a.1 a.2) w h2
    obtain ⟨Z, hZ, hZs⟩ := ih hP1s h3
    refine ⟨Z, ?_, hZs⟩
    unfold parameterLoop
    rw [hR]
    simp only [timesInPlace, ha, ok_bind, hP1]
    exact hZ

theorem normPX_sim (hc : CtxOk c G) (rule : SplineRule) {m : SplineModel} {ns : Interpolant}
    (hm : m.normSpline = some ns)
    {X F : Staged E (List Fl)} {x f : E → List Fl} (hX : Sim c G X x) (hF : Sim c G F f)
    {n : E → Fl} (hn : ∀ e, G e → m.normPX .jax rule (f e) (x e) = .ok (n e)) :
    ∃ N, (ofModel m : StagedSpline E).normPX c rule F X = .ok N ∧ Sim c G N n := by
  have hinv : ∀ e, G e → ∃ k p, SplineModel.mask (m.xs.map fin) (x e) = .ok k ∧
      SplineModel.inplaceMul .jax ((ns.eval rule (f e)).map Fl.exp) k = .ok p ∧
      Arr.trapz p (m.xs.map fin) = n e := by
    intro e he
    have := hn e he
    unfold SplineModel.normPX at this
    rw [hm] at this
    obtain ⟨k, h1, this⟩ := bind_eq_ok.1 this
    obtain ⟨p, h2, this⟩ := bind_eq_ok.1 this
    exact ⟨k, p, h1, h2, Except.ok.inj this⟩
  choose! k p h1 h2 h3 using hinv
  obtain ⟨P, hP, hPs⟩ := eval_sim hc rule ns hF
  obtain ⟨P1, vx, K, pm, R, g1, g2, g3, g4, g5, gs⟩ :=
    masked_sim hc hPs (sim_known c G (m.xs.map fin)) hX h1 h2
  obtain ⟨a, ha, has⟩ := pair_sim gs (sim_known c G (m.xs.map fin))
  obtain ⟨N, hN, hNs⟩ := op_sim hc has (fun a => .ok (Arr.trapz a.1 a.2)) n
    (fun e he => by rw [h3 e he])
  refine ⟨N, ?_, hNs⟩
  unfold normPX
  have hn : (ofModel m : StagedSpline E).normSpline = some (.ofInterpolant ns) := by
    show m.normSpline.map _ = _
    rw [hm]; rfl
  have hx : (ofModel m : StagedSpline E).xs = .known (m.xs.map fin) := rfl
  rw [hn, hx]
  simp only [ok_bind, hP, g1, g2, g3, g4, g5, ha, hN]

theorem extract_sim (hc : CtxOk c G) (m : SplineModel) {K : Dict (Staged E Fl)} {k : E → Dict Fl}
    (hK : SimDict c G K k) {f x : E → List Fl}
    (hfx : ∀ e, G e → m.extractSplinePoints (k e) = .ok (f e, x e)) :
    ∃ F X, (ofModel m : StagedSpline E).extractSplinePoints c K = .ok (F, X) ∧ Sim c G F f ∧
      Sim c G X x := by
  have hinv : ∀ e, G e → ∃ f0, m.fkeys.mapM (k e).get = .ok f0 ∧
      m.regularise (k e) f0 = .ok (f e) ∧ m.xkeys.mapM (k e).get = .ok (x e) := by
    intro e he
    have := hfx e he
    unfold SplineModel.extractSplinePoints at this
    obtain ⟨f0, h1, this⟩ := bind_eq_ok.1 this
    obtain ⟨f1, h2, this⟩ := bind_eq_ok.1 this
    obtain ⟨x1, h3, this⟩ := bind_eq_ok.1 this
    have := Prod.ext_iff.1 (Except.ok.inj this)
    exact ⟨f0, h1, h2.trans (congrArg _ this.1), h3.trans (congrArg _ this.2)⟩
  choose! f0 h1 h2 h3 using hinv
  obtain ⟨Fs, F0, a1, a2, a3⟩ := hK.mapM_get hc.nonempty m.fkeys h1
  obtain ⟨Xs, X0, b1, b2, b3⟩ := hK.mapM_get hc.nonempty m.xkeys h3
  obtain ⟨F1, a4, a5⟩ := op_sim hc a3 (Except.ok (ε := PyErr)) f0 (fun e _ => rfl)
  obtain ⟨X1, b4, b5⟩ := op_sim hc b3 (Except.ok (ε := PyErr)) x (fun e _ => rfl)
  have e1 : (ofModel m : StagedSpline E).fkeys = m.fkeys := rfl
  have e2 : (ofModel m : StagedSpline E).xkeys = m.xkeys := rfl
  have e3 : (ofModel m : StagedSpline E).config = m.config := rfl
  have e4 : (ofModel m : StagedSpline E).base = m.base := rfl
  unfold extractSplinePoints
  rw [e1, e2, e3, e4]
  simp only [a1, ok_bind, a2, a4, b1, b2, b4]
  unfold SplineModel.regularise at h2
  by_cases hreg : m.config.regularize = true
  · simp only [hreg, if_true] at h2 ⊢
    have hinv : ∀ e, G e → ∃ w, (k e).get (SplineModel.rmsKey m.base) = .ok w ∧
        (f0 e).map (· * SplineModel.rmsFactor w (f0 e)) = f e := by
      intro e he
      obtain ⟨w, g1, g2⟩ := bind_eq_ok.1 (h2 e he)
      exact ⟨w, g1, Except.ok.inj g2⟩
    choose! w g1 g2 using hinv
    obtain ⟨W, hW, hWs⟩ := hK.get hc.nonempty g1
    obtain ⟨a, ha, has⟩ := pair_sim hWs a5
    obtain ⟨F2, hF2, hF2s⟩ := op_sim hc has
      (fun a => .ok (a.2.map (· * SplineModel.rmsFactor a.1 a.2))) f
      (fun e he => by simp only [g2 e he])
    refine ⟨F2, X1, ?_, hF2s, b5⟩
    simp only [hW, ok_bind, ha, hF2]
    rfl
  · rw [if_neg hreg]
    simp only [hreg] at h2
    refine ⟨F1, X1, rfl, a5.congr fun e he => ?_, b5⟩
    exact Except.ok.inj (h2 e he)

/-- A call of an instance whose interpolants exist, with as many nodes as the instance has: in any
context, the staged result stands for the results of the ordinary calls. -/
theorem call_sim (hc : CtxOk c G) (rule : SplineRule) {m : SplineModel} {ns : Interpolant}
    (hm : m.normSpline = some ns)
    {D : Dict (Staged E (List Fl))} {d : E → Dict (List Fl)} (hD : SimDict c G D d)
    {K : Dict (Staged E Fl)} {k : E → Dict Fl} (hK : SimDict c G K k)
    (hn : ∀ e, G e → SplineModel.inferLoop (k e) m.base m.config.nodes = m.config.nodes)
    {v : E → List Fl} (hv : ∀ e, G e → (m.call .jax rule (d e) (k e)).1 = .ok (v e)) :
    ∃ Y, (ofModel m : StagedSpline E).call c rule D K = (.ok Y, ofModel m) ∧ Sim c G Y v := by
  have hinv : ∀ e, G e → ∃ f x w p n, m.extractSplinePoints (k e) = .ok (f, x) ∧
      (d e).get (m.config.parameters.headD "") = .ok w ∧
      (SplineModel.parameterLoop .jax rule (d e) x f m.config.parameters (w.map fun _ => 1) m).1 =
        .ok p ∧
      m.normPX .jax rule f x = .ok n ∧ v e = p.map (· / n ^ m.config.parameters.length) := by
    intro e he
    have := hv e he
    unfold SplineModel.call SplineModel.inferNodes at this
    rw [hn e he] at this
    simp only [ne_eq, not_true_eq_false, if_false] at this
    cases h1 : m.extractSplinePoints (k e) with
    | error err => rw [h1] at this; cases this
    | ok q =>
      obtain ⟨f, x⟩ := q
      rw [h1] at this
      simp only at this
      cases h2 : (d e).get (m.config.parameters.headD "") with
      | error err => rw [h2] at this; cases this
      | ok w =>
        rw [h2] at this
        simp only at this
        have hk := loop_keeps (b := .jax) (rule := rule) hm (d e) x f m.config.parameters
          (w.map fun _ => 1)
        rcases hl : SplineModel.parameterLoop .jax rule (d e) x f m.config.parameters
          (w.map fun _ => 1) m with ⟨r, s1⟩
        rw [hl] at this hk
        simp only at hk
        subst hk
        cases r with
        | error err => cases this
        | ok p =>
          simp only at this
          cases h4 : s1.normPX .jax rule f x with
          | error err => rw [h4] at this; cases this
          | ok n =>
            rw [h4] at this
            exact ⟨f, x, w, p, n, rfl, rfl, by rw [hl], h4, (Except.ok.inj this).symm⟩
  choose! f x w p n h1 h2 h3 h4 h5 using hinv
  have hinf : (ofModel m : StagedSpline E).inferNodes c K = .ok (ofModel m) := by
    unfold inferNodes
    obtain ⟨e, he⟩ := hc.nonempty
    have : SplineModel.inferLoop (K.map fun q => (q.1, (0 : Fl)))
        (ofModel m : StagedSpline E).base (ofModel m : StagedSpline E).config.nodes =
        m.config.nodes := by
      rw [← hn e he]
      refine inferLoop_keys (fun q => ?_) _ _
      rw [← hK.contains he q]
      simp [Dict.contains]
    simp only [this]
    exact if_neg (fun h => h rfl)
  obtain ⟨F, X, g1, gF, gX⟩ := extract_sim hc m hK h1
  obtain ⟨W, g2, gW⟩ := hD.get hc.nonempty h2
  obtain ⟨O, g3, gO⟩ := op_sim hc gW (fun l : List Fl => .ok (l.map fun _ => (1 : Fl)))
    (fun e => (w e).map fun _ => (1 : Fl)) (fun e _ => rfl)
  obtain ⟨P, g4, gP⟩ := loop_sim hc rule hm hD gX gF m.config.parameters gO h3
  obtain ⟨N, g5, gN⟩ := normPX_sim hc rule hm gX gF h4
  obtain ⟨a, g6, ga⟩ := pair_sim gP gN
  obtain ⟨Y, g7, gY⟩ := op_sim hc ga
    (fun a => .ok (a.1.map (· / a.2 ^ m.config.parameters.length))) v
    (fun e he => by simp only [h5 e he])
  refine ⟨Y, ?_, gY⟩
  have hcfg : (ofModel m : StagedSpline E).config = m.config := rfl
  unfold call
  rw [hinf]
  simp only [g1, ones, hcfg, g2, ok_bind, g3, g4, normalise, g5, g6, g7]

end StagedSpline

end GW
