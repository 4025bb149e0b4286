import Verif.Props.InterpPowerlaw
import Verif.Props.SmoothedHistory

/-!
# The interpolated power law: call histories (C72) and hyper-parameter names (C73)
-/

noncomputable section

open Classical

namespace GW

open Fl Spec

/-- The node positions given by two dictionaries of hyper-parameters agree. -/
def Spec.SamePositions (kw kw' : Dict Fl) : Prop :=
  ∀ n : ℕ, kw.get? ("mass" ++ toString n) = kw'.get? ("mass" ++ toString n)

/-- Real hyper-parameters in the documented ranges. -/
structure Spec.GoodArgs (b : Backend) (s : InterpPowerlaw) (kwargs : Dict Fl) (a lo hi d : ℝ)
    (x f : List ℝ) : Prop where
  args : InterpArgs s kwargs a lo hi d x f
  beta : ∃ v, kwargs.get? "beta" = some v
  alpha : b = .jax ∨ a ≠ -1
  order : lo < hi
  low : s.smoothed.mmin ≤ lo
  high : hi ≤ s.smoothed.mmax
  window : WindowOk b d
  nodes : x ≠ [] ∧ ∀ v ∈ x, 0 < v
  grid : ∃ m ∈ s.smoothed.m1s, lo ≤ m ∧ m ≤ hi

namespace InterpPowerlaw

open SplineModel

/-! ## Shapes -/

/-- In-place multiplication on numpy/cupy: which shapes are accepted. -/
theorem inplaceMul_numpy (b : Backend) (hb : b ≠ .jax) (xs ys : List Fl) :
    inplaceMul b xs ys =
      if xs.length = ys.length then .ok (List.zipWith (· * ·) xs ys)
      else if ys.length = 1 then .ok (xs.map (fun x => x * ys.headD nan))
      else .error .valueError := by
  by_cases h : xs.length = ys.length
  · rw [if_pos h, inplaceMul_same b h]
  · rw [if_neg h]
    unfold inplaceMul Smoothed.broadcast
    rw [if_neg h]
    rcases ys with _ | ⟨y, _ | ⟨y', ys⟩⟩
    · refine Eq.trans ?_ (if_neg (by simp)).symm
      rcases xs with _ | ⟨x, _ | ⟨x', xs⟩⟩
      · simp at h
      · exact if_pos ⟨hb, by simp⟩
      · simp only [if_neg hb]; rfl
    · refine Eq.trans ?_ (if_pos (by simp)).symm
      exact if_neg (by simp)
    · refine Eq.trans ?_ (if_neg (by simp)).symm
      rcases xs with _ | ⟨x, _ | ⟨x', xs⟩⟩
      · simp only [if_neg hb]; rfl
      · exact if_pos ⟨hb, by simp⟩
      · simp only [if_neg hb]; rfl

/-- Multiplication of arrays of different lengths, neither of them 1, fails on every backend. -/
theorem inplaceMul_mismatch (b : Backend) {xs ys : List Fl} (h : xs.length ≠ ys.length)
    (h1 : xs.length ≠ 1) (h2 : ys.length ≠ 1) (r : List Fl) : inplaceMul b xs ys ≠ .ok r := by
  unfold inplaceMul Smoothed.broadcast
  rw [if_neg h]
  rcases ys with _ | ⟨y, _ | ⟨y', ys⟩⟩
  · rcases xs with _ | ⟨x, _ | ⟨x', xs⟩⟩
    · simp at h
    · simp at h1
    · intro h'; cases h'
  · simp at h2
  · rcases xs with _ | ⟨x, _ | ⟨x', xs⟩⟩
    · intro h'; cases h'
    · simp at h1
    · intro h'; cases h'

theorem primaryAt_length {b : Backend} {s : InterpPowerlaw} {kwargs : Dict Fl} {masses r : List Fl}
    (h : s.primaryAt b kwargs masses = .ok r) : r.length = masses.length := by
  unfold primaryAt at h
  rw [bind_eq_ok] at h
  obtain ⟨_, -, h⟩ := h
  rw [bind_eq_ok] at h
  obtain ⟨_, -, h⟩ := h
  rw [bind_eq_ok] at h
  obtain ⟨_, -, h⟩ := h
  exact mapM_length h

theorem pMRaw_length {b : Backend} {s : InterpPowerlaw} {kwargs : Dict Fl} {masses r : List Fl}
    {mmin dm : Fl} (h : s.pMRaw b masses mmin dm kwargs = .ok r) : r.length = masses.length := by
  unfold pMRaw at h
  rw [bind_eq_ok] at h
  obtain ⟨pm, hpm, h⟩ := h
  have hl := primaryAt_length hpm
  rw [inplaceMul_same b (by rw [hl, List.length_map])] at h
  cases h
  simp [hl]

/-- The interpolant for the data was set up for `n` masses. -/
def FrozenAt (s : InterpPowerlaw) (n : ℕ) : Prop :=
  s.spline.normSpline.isSome ∧
    ∃ i, s.spline.dataSpline.get? "mass_1" = some i ∧ i.values.length = n

theorem mask_length {values x r : List Fl} (h : mask values x = .ok r) :
    r.length = values.length := by
  unfold mask at h
  split at h
  · cases h; simp
  · cases h

/-- With interpolants for another number of masses, the product of primary model and spline fails. -/
theorem pM1_mismatch {b : Backend} {rule : SplineRule} {s : InterpPowerlaw} {n : ℕ}
    (hs : FrozenAt s n) {masses : List Fl} (hne : masses.length ≠ n)
    (hb : b ≠ .jax ∨ (n ≠ 1 ∧ masses.length ≠ 1)) (kwargs : Dict Fl) (r : List Fl) :
    (s.pM1 b rule masses kwargs).1 ≠ .ok r := by
  obtain ⟨hn, i, hi, hlen⟩ := hs
  obtain ⟨j, hj⟩ := Option.isSome_iff_exists.1 hn
  unfold pM1
  split
  · simp
  · rename_i f x hex
    simp only
    split
    · simp
    · rename_i pm hpm
      have hpml := pMRaw_length hpm
      have hpx : s.spline.pXUnnormed b rule (massColumn masses) "mass_1" x f =
          (evalUnnormed b rule s.spline (massColumn masses) "mass_1" x f, s.spline) := by
        unfold pXUnnormed; rw [hj]
      rw [hpx]
      cases hev : evalUnnormed b rule s.spline (massColumn masses) "mass_1" x f with
      | error e => simp
      | ok px =>
        simp only
        unfold evalUnnormed at hev
        have hg : s.spline.dataSpline.get "mass_1" = .ok i := by unfold Dict.get; rw [hi]
        have hg' : (massColumn masses).get "mass_1" = .ok masses := rfl
        rw [hg, ok_bind, hg', ok_bind, bind_eq_ok] at hev
        obtain ⟨mk, hmk, hev⟩ := hev
        have hmkl := mask_length hmk
        have hil : ((i.eval rule f).map Fl.exp).length = n := by
          simp [Interpolant.eval, hlen]
        unfold finish
        rcases hb with hb | ⟨hb1, hb2⟩
        · rw [inplaceMul_numpy b hb, hil, hmkl, if_neg (Ne.symm hne)] at hev
          split_ifs at hev with h1
          cases hev
          rw [inplaceMul_numpy b hb, List.length_map, hil, hpml, if_neg hne, if_neg (by omega)]
          intro h'; cases h'
        · exact absurd hev (inplaceMul_mismatch b (by rw [hil, hmkl]; exact Ne.symm hne)
            (by rw [hil]; exact hb1) (by rw [hmkl]; exact hb2) px)

/-! ## States -/

theorem pM1_state (b : Backend) (rule : SplineRule) (s : InterpPowerlaw) (masses : List Fl)
    (kwargs : Dict Fl) :
    (s.pM1 b rule masses kwargs).2 = s ∨
      ∃ f x, s.spline.extractSplinePoints kwargs = .ok (f, x) ∧ s.spline.normSpline = none ∧
        (s.pM1 b rule masses kwargs).2 =
          { s with spline := (s.spline.setupInterpolant x (massColumn masses)).2 } := by
  unfold pM1
  split
  · exact .inl rfl
  · rename_i f x hex
    simp only
    split
    · exact .inl rfl
    · cases hn : s.spline.normSpline with
      | some i =>
        have hpx : s.spline.pXUnnormed b rule (massColumn masses) "mass_1" x f =
            (evalUnnormed b rule s.spline (massColumn masses) "mass_1" x f, s.spline) := by
          unfold pXUnnormed; rw [hn]
        rw [hpx]
        left
        cases evalUnnormed b rule s.spline (massColumn masses) "mass_1" x f <;> rfl
      | none =>
        right
        refine ⟨f, x, hex, rfl, ?_⟩
        have hpx : (s.spline.pXUnnormed b rule (massColumn masses) "mass_1" x f).2 =
            (s.spline.setupInterpolant x (massColumn masses)).2 := by
          unfold pXUnnormed
          rw [hn]
          simp only
          cases s.spline.setupInterpolant x (massColumn masses) with
          | mk a t => cases a <;> rfl
        rw [← hpx]
        cases s.spline.pXUnnormed b rule (massColumn masses) "mass_1" x f with
        | mk a t => cases a <;> rfl

/-- What a call leaves behind. -/
theorem call_state' (b : Backend) (rule : SplineRule) (s : InterpPowerlaw) (data : List (Fl × Fl))
    (kwargs : Dict Fl) :
    (s.call b rule data kwargs).2.py = s.py ∧
    SameConfig s.smoothed (s.call b rule data kwargs).2.smoothed ∧
    ((s.call b rule data kwargs).2.smoothed.qMasses = s.smoothed.qMasses ∨
      (s.call b rule data kwargs).2.smoothed.qMasses = some (data.map Prod.fst)) ∧
    ((s.call b rule data kwargs).2.spline = s.spline ∨
      ∃ f x, s.spline.extractSplinePoints (Dict.erase kwargs "beta") = .ok (f, x) ∧
        s.spline.normSpline = none ∧ (s.call b rule data kwargs).2.spline =
          (s.spline.setupInterpolant x (massColumn (data.map Prod.fst))).2) := by
  unfold call
  cases Dict.get? kwargs "beta" with
  | none => exact ⟨rfl, SameConfig.refl _, .inl rfl, .inl rfl⟩
  | some beta =>
    simp only
    split_ifs
    · exact ⟨rfl, SameConfig.refl _, .inl rfl, .inl rfl⟩
    · exact ⟨rfl, SameConfig.refl _, .inl rfl, .inl rfl⟩
    · have hst := pM1_state b rule s (data.map Prod.fst) (Dict.erase kwargs "beta")
      obtain ⟨u, hu⟩ : ∃ u, u = (s.pM1 b rule (data.map Prod.fst) (Dict.erase kwargs "beta")).2 :=
        ⟨_, rfl⟩
      rw [← hu] at hst
      have h1 : u.py = s.py := by
        rcases hst with h | ⟨_, _, -, -, h⟩ <;> rw [h]
      have h2 : u.smoothed = s.smoothed := by
        rcases hst with h | ⟨_, _, -, -, h⟩ <;> rw [h]
      have h3 : u.spline = s.spline ∨
          ∃ f x, s.spline.extractSplinePoints (Dict.erase kwargs "beta") = .ok (f, x) ∧
          s.spline.normSpline = none ∧ u.spline =
            (s.spline.setupInterpolant x (massColumn (data.map Prod.fst))).2 := by
        rcases hst with h | ⟨f, x, hex, hn, h⟩
        · exact .inl (by rw [h])
        · exact .inr ⟨f, x, hex, hn, by rw [h]⟩
      cases hp : s.pM1 b rule (data.map Prod.fst) (Dict.erase kwargs "beta") with
      | mk a t =>
        rw [hp] at hu
        simp only at hu
        subst hu
        cases a with
        | error e => exact ⟨h1, by rw [h2]; exact SameConfig.refl _, .inl (by rw [h2]), h3⟩
        | ok pm =>
          simp only
          have hq := pQ_state b u.smoothed data beta
            (Smoothed.kwGet (Dict.erase kwargs "beta") "mmin" (fin s.smoothed.mmin))
            (Smoothed.kwGet (Dict.erase kwargs "beta") "delta_m" 0)
          rcases hr : Smoothed.pQ b u.smoothed data beta
            (Smoothed.kwGet (Dict.erase kwargs "beta") "mmin" (fin s.smoothed.mmin))
            (Smoothed.kwGet (Dict.erase kwargs "beta") "delta_m" 0) with ⟨r, sm⟩
          rw [hr] at hq
          simp only at hq
          have h4 : SameConfig s.smoothed sm := by
            rcases hq with h | h
            · rw [h, h2]; exact SameConfig.refl _
            · rw [h, h2]; exact sameConfig_cache _ _
          have h5 : sm.qMasses = s.smoothed.qMasses ∨ sm.qMasses = some (data.map Prod.fst) := by
            rcases hq with h | h
            · rw [h, h2]; exact .inl rfl
            · rw [h]; exact .inr rfl
          cases r with
          | error e => exact ⟨h1, h4, h5, h3⟩
          | ok pq => exact ⟨h1, h4, h5, h3⟩

theorem setup_mass (t : SplineModel) (ht : t.config.parameters = ["mass_1"]) (x masses : List Fl) :
    t.setupInterpolant x (massColumn masses) =
      (.ok (), { t with
        normSpline := some ⟨t.config.kind, x.map t.transform, (t.xs.map fin).map t.transform⟩
        dataSpline := [("mass_1", ⟨t.config.kind, x.map t.transform, masses.map t.transform⟩)] }) := by
  unfold setupInterpolant
  simp only [ht]
  rfl

/-- A call that returns values leaves interpolants for its number of masses, if there were none. -/
theorem call_ok_frozen {b : Backend} {rule : SplineRule} {s : InterpPowerlaw} (hs : Wired s)
    (hn : s.spline.normSpline = none) {data : List (Fl × Fl)} {kwargs : Dict Fl} {r : List Fl}
    (h : (s.call b rule data kwargs).1 = .ok r) :
    FrozenAt (s.call b rule data kwargs).2 data.length := by
  unfold call at h ⊢
  cases hb : Dict.get? kwargs "beta" with
  | none => rw [hb] at h; cases h
  | some beta =>
    rw [hb] at h
    simp only at h ⊢
    split_ifs at h ⊢
    have hst := pM1_state b rule s (data.map Prod.fst) (Dict.erase kwargs "beta")
    have key : ∀ pm u, s.pM1 b rule (data.map Prod.fst) (Dict.erase kwargs "beta") = (.ok pm, u) →
        FrozenAt u data.length := by
      intro pm u hp
      unfold pM1 at hp
      split at hp
      · cases hp
      · rename_i f x hex
        simp only at hp
        split at hp
        · cases hp
        · unfold pXUnnormed at hp
          rw [hn] at hp
          simp only at hp
          rw [setup_mass s.spline hs.params] at hp
          simp only at hp
          split at hp
          · cases hp
          · rename_i px t heq
            simp only [Prod.mk.injEq] at heq hp
            rw [← hp.2, ← heq.2]
            exact ⟨rfl, _, rfl, by simp⟩
    cases hp : s.pM1 b rule (data.map Prod.fst) (Dict.erase kwargs "beta") with
    | mk a t =>
      rw [hp] at h
      cases a with
      | error e => cases h
      | ok pm =>
        simp only
        have hf := key pm t hp
        cases Smoothed.pQ b t.smoothed data beta
            (Smoothed.kwGet (Dict.erase kwargs "beta") "mmin" (fin s.smoothed.mmin))
            (Smoothed.kwGet (Dict.erase kwargs "beta") "delta_m" 0) with
        | mk a sm => cases a <;> exact hf

theorem call_frozen {b : Backend} {rule : SplineRule} {s : InterpPowerlaw} {n : ℕ}
    (hs : FrozenAt s n) (data : List (Fl × Fl)) (kwargs : Dict Fl) :
    FrozenAt (s.call b rule data kwargs).2 n := by
  obtain ⟨-, -, -, h⟩ := call_state' b rule s data kwargs
  rcases h with h | ⟨_, _, -, hn, -⟩
  · unfold FrozenAt; rw [h]; exact hs
  · have := hs.1
    rw [hn] at this
    cases this

theorem runCalls_frozen {b : Backend} {rule : SplineRule} {s : InterpPowerlaw} {n : ℕ}
    (hs : FrozenAt s n) (hist : List (List (Fl × Fl) × Dict Fl)) :
    FrozenAt (runCalls b rule s hist) n := by
  induction hist generalizing s with
  | nil => exact hs
  | cons c hist ih => exact ih (call_frozen hs c.1 c.2)

theorem call_mismatch {b : Backend} {rule : SplineRule} {s : InterpPowerlaw} {n : ℕ}
    (hs : FrozenAt s n) {data : List (Fl × Fl)} (hne : data.length ≠ n)
    (hb : b ≠ .jax ∨ (n ≠ 1 ∧ data.length ≠ 1)) (kwargs : Dict Fl) (r : List Fl) :
    (s.call b rule data kwargs).1 ≠ .ok r := by
  unfold call
  split
  · simp
  · simp only
    split_ifs
    · simp
    · simp
    · have := pM1_mismatch (b := b) (rule := rule) hs (masses := data.map Prod.fst)
        (by simpa using hne) (by simpa using hb) (Dict.erase kwargs "beta")
      cases hp : s.pM1 b rule (data.map Prod.fst) (Dict.erase kwargs "beta") with
      | mk a t =>
        rw [hp] at this
        cases a with
        | error e => simp
        | ok pm => exact absurd rfl (this pm)

/-! ## C72 -/

/-- The value of a call does not depend on the calls made before. -/
def C72_statement (b : Backend) (rule : SplineRule) : Prop :=
  ∀ (py : Bool) (nodes : ℕ) (kind : String) (mmin mmax : ℝ) (nM nQ : ℕ) (reg : Bool)
    (s : InterpPowerlaw) (hist : List (List (Fl × Fl) × Dict Fl)) (data : List (Fl × Fl))
    (kwargs : Dict Fl), init py nodes kind mmin mmax nM nQ reg = .ok s →
    (call b rule (runCalls b rule s hist) data kwargs).1 = (call b rule s data kwargs).1

/-- **C72.** Once a first call on an instance has returned values for `n` samples, no later call with
another number of samples returns values on numpy or cupy, whatever is called in between; on jax if
neither number is 1. -/
theorem C72_length_partial {b : Backend} {rule : SplineRule} {py : Bool} {nodes : ℕ}
    {kind : String} {mmin mmax : ℝ} {nM nQ : ℕ} {reg : Bool} {s : InterpPowerlaw}
    (hinit : init py nodes kind mmin mmax nM nQ reg = .ok s) {data₀ : List (Fl × Fl)}
    {kwargs₀ : Dict Fl} {r₀ : List Fl} (hfirst : (call b rule s data₀ kwargs₀).1 = .ok r₀)
    (hist : List (List (Fl × Fl) × Dict Fl)) {data : List (Fl × Fl)}
    (hne : data.length ≠ data₀.length)
    (hb : b ≠ .jax ∨ (data₀.length ≠ 1 ∧ data.length ≠ 1)) (kwargs : Dict Fl) (r : List Fl) :
    (call b rule (runCalls b rule s ((data₀, kwargs₀) :: hist)) data kwargs).1 ≠ .ok r := by
  obtain ⟨-, -, hw, hn, -⟩ := init_ok hinit
  exact call_mismatch (runCalls_frozen (call_ok_frozen hw hn hfirst) hist) hne hb kwargs r

/-- Two instances that differ at most in interpolants. -/
structure Twin (s t : InterpPowerlaw) : Prop where
  py : t.py = s.py
  smoothed : SameConfig s.smoothed t.smoothed
  config : t.spline.config = s.spline.config
  base : t.spline.base = s.spline.base

theorem twin_pMRaw {s t : InterpPowerlaw} (h : Twin s t) (b : Backend) (masses : List Fl)
    (mmin dm : Fl) (kwargs : Dict Fl) :
    t.pMRaw b masses mmin dm kwargs = s.pMRaw b masses mmin dm kwargs := by
  unfold pMRaw primaryAt
  rw [h.py, h.smoothed.mmax]

theorem twin_normPM1 {s t : InterpPowerlaw} (h : Twin s t) (b : Backend) (rule : SplineRule)
    (W : SplineModel) (dm : Fl) (f : List Fl) (kwargs : Dict Fl) :
    normPM1 b rule { t with spline := W } dm f kwargs =
      normPM1 b rule { s with spline := W } dm f kwargs := by
  unfold normPM1 primaryAt
  simp only [h.py, h.smoothed.mmax, h.smoothed.mmin, h.smoothed.m1s]

theorem twin_finish {s t : InterpPowerlaw} (h : Twin s t) (b : Backend) (rule : SplineRule)
    (W : SplineModel) (pm px f : List Fl) (dm : Fl) (kwargs : Dict Fl) :
    finish b rule { t with spline := W } pm px f dm kwargs =
      finish b rule { s with spline := W } pm px f dm kwargs := by
  unfold finish
  rw [twin_normPM1 h]

/-- The value of `p_m1` is the same on a new instance and on one with interpolants for these masses
and nodes. -/
theorem pM1_twin {b : Backend} {rule : SplineRule} {s t : InterpPowerlaw} (h : Twin s t)
    (hs : Wired s) (hn : s.spline.normSpline = none) {masses : List Fl} {kwargs : Dict Fl}
    (hst : t.spline = s.spline ∨ ∀ f x, s.spline.extractSplinePoints kwargs = .ok (f, x) →
      t.spline = (s.spline.setupInterpolant x (massColumn masses)).2) :
    (t.pM1 b rule masses kwargs).1 = (s.pM1 b rule masses kwargs).1 := by
  unfold pM1
  rw [extract_congr h.config h.base]
  cases hex : s.spline.extractSplinePoints kwargs with
  | error e => rfl
  | ok p =>
    obtain ⟨f, x⟩ := p
    simp only [twin_pMRaw h, h.smoothed.mmin]
    cases s.pMRaw b masses (Smoothed.kwGet kwargs "mmin" (fin s.smoothed.mmin))
        (Smoothed.kwGet kwargs "delta_m" 0) (Dict.erase kwargs "delta_m") with
    | error e => rfl
    | ok pm =>
      simp only
      have hpx : t.spline.pXUnnormed b rule (massColumn masses) "mass_1" x f =
          s.spline.pXUnnormed b rule (massColumn masses) "mass_1" x f := by
        rcases hst with hst | hst
        · rw [hst]
        · have := hst f x hex
          rw [setup_mass s.spline hs.params] at this
          unfold pXUnnormed
          rw [hn, setup_mass s.spline hs.params, this]
      rw [hpx]
      cases s.spline.pXUnnormed b rule (massColumn masses) "mass_1" x f with
      | mk a W =>
        cases a with
        | error e => rfl
        | ok px => exact twin_finish h b rule W pm px f _ _

/-- The state reached by calls with the masses `masses` and the node positions of `kwargs`. -/
structure Reached (s : InterpPowerlaw) (masses : List Fl) (kwargs : Dict Fl) (t : InterpPowerlaw) :
    Prop where
  twin : Twin s t
  q : t.smoothed.qMasses = none ∨ t.smoothed.qMasses = some masses
  spline : t.spline = s.spline ∨ ∀ f x,
    s.spline.extractSplinePoints (Dict.erase kwargs "beta") = .ok (f, x) →
      t.spline = (s.spline.setupInterpolant x (massColumn masses)).2

theorem positions_same {s : SplineModel} (hb : s.base = "mass") {kw kw' : Dict Fl}
    (h : SamePositions kw kw') {f x f' x' : List Fl}
    (h1 : s.extractSplinePoints (Dict.erase kw "beta") = .ok (f, x))
    (h2 : s.extractSplinePoints (Dict.erase kw' "beta") = .ok (f', x')) : x = x' := by
  have e : s.xkeys.mapM (Dict.get (Dict.erase kw "beta")) =
      s.xkeys.mapM (Dict.get (Dict.erase kw' "beta")) := by
    refine mapM_congr fun k hk => ?_
    obtain ⟨i, -, rfl⟩ := List.mem_map.1 hk
    unfold Dict.get
    rw [hb, Dict.get?_erase, Dict.get?_erase]
    rw [show kw.get? (xkey "mass" i) = kw'.get? (xkey "mass" i) from h i]
  have h3 := extract_positions h1
  rw [e, extract_positions h2] at h3
  exact (Except.ok.inj h3).symm

theorem reached_call {b : Backend} {rule : SplineRule} {s t : InterpPowerlaw} (hs : Wired s)
    (hbase : s.spline.base = "mass") (hn : s.spline.normSpline = none)
    {masses : List Fl} {kwargs : Dict Fl} (ht : Reached s masses kwargs t) {data : List (Fl × Fl)}
    (hd : data.map Prod.fst = masses) {kw : Dict Fl} (hkw : SamePositions kw kwargs) :
    Reached s masses kwargs (t.call b rule data kw).2 := by
  obtain ⟨h1, h2, h3, h4⟩ := call_state' b rule t data kw
  obtain ⟨u, hu⟩ : ∃ u, u = (t.call b rule data kw).2 := ⟨_, rfl⟩
  rw [← hu] at h1 h2 h3 h4 ⊢
  have hq : u.smoothed.qMasses = none ∨ u.smoothed.qMasses = some masses := by
    rcases h3 with h | h
    · rw [h]; exact ht.q
    · rw [h, hd]; exact .inr rfl
  rcases h4 with h | ⟨f, x, hex, htn, h⟩
  · exact ⟨⟨h1.trans ht.twin.py, ht.twin.smoothed.trans h2, by rw [h]; exact ht.twin.config,
      by rw [h]; exact ht.twin.base⟩, hq, by rw [h]; exact ht.spline⟩
  · rw [hd] at h
    rw [setup_mass t.spline (by rw [ht.twin.config, hs.params])] at h
    refine ⟨⟨h1.trans ht.twin.py, ht.twin.smoothed.trans h2, by rw [h]; exact ht.twin.config,
      by rw [h]; exact ht.twin.base⟩, hq, .inr fun f' x' hex' => ?_⟩
    have hts : t.spline = s.spline := by
      rcases ht.spline with h' | h'
      · exact h'
      · have := h' f' x' hex'
        rw [setup_mass s.spline hs.params] at this
        rw [this] at htn
        cases htn
    rw [hts] at hex h
    have := positions_same hbase hkw hex hex'
    subst this
    rw [h, setup_mass s.spline hs.params]

/-- **C72.** A history of calls with the same masses (the mass ratios may differ) and the same node
positions does not change the outcome of a call, value or exception. -/
theorem C72_same_partial {b : Backend} {rule : SplineRule} {py : Bool} {nodes : ℕ}
    {kind : String} {mmin mmax : ℝ} {nM nQ : ℕ} {reg : Bool} {s : InterpPowerlaw}
    (hinit : init py nodes kind mmin mmax nM nQ reg = .ok s)
    (hist : List (List (Fl × Fl) × Dict Fl)) (data : List (Fl × Fl)) (kwargs : Dict Fl)
    (hhist : ∀ c ∈ hist, c.1.map Prod.fst = data.map Prod.fst ∧ SamePositions c.2 kwargs) :
    (call b rule (runCalls b rule s hist) data kwargs).1 = (call b rule s data kwargs).1 := by
  obtain ⟨-, -, hs, hn, -, -, -, hq, hc, hbase, -⟩ := init_ok hinit
  have hreach : ∀ (hist : List (List (Fl × Fl) × Dict Fl)) (t : InterpPowerlaw),
      Reached s (data.map Prod.fst) kwargs t →
      (∀ c ∈ hist, c.1.map Prod.fst = data.map Prod.fst ∧ SamePositions c.2 kwargs) →
      Reached s (data.map Prod.fst) kwargs (runCalls b rule t hist) := by
    intro hist
    induction hist with
    | nil => intro t ht _; exact ht
    | cons c hist ih =>
      intro t ht hh
      obtain ⟨h1, h2⟩ := hh c (by simp)
      exact ih _ (reached_call hs hbase hn ht h1 h2) fun c' hc' => hh c' (by simp [hc'])
  have hr := hreach hist s
    ⟨⟨rfl, SameConfig.refl _, rfl, rfl⟩, .inl hq, .inl rfl⟩ hhist
  obtain ⟨t, ht⟩ : ∃ t, t = runCalls b rule s hist := ⟨_, rfl⟩
  rw [← ht] at hr ⊢
  unfold call
  cases Dict.get? kwargs "beta" with
  | none => rfl
  | some beta =>
    simp only [hr.twin.smoothed.mmin, hr.twin.smoothed.mmax]
    split_ifs
    · rfl
    · rfl
    · have hp := pM1_twin (b := b) (rule := rule) hr.twin hs hn (masses := data.map Prod.fst)
        (kwargs := Dict.erase kwargs "beta") hr.spline
      have hsm : ∀ u : InterpPowerlaw, (u.pM1 b rule (data.map Prod.fst)
          (Dict.erase kwargs "beta")).2.smoothed = u.smoothed := by
        intro u
        rcases pM1_state b rule u (data.map Prod.fst) (Dict.erase kwargs "beta") with h | ⟨_, _, -, -, h⟩
          <;> rw [h]
      have e1 := hsm s
      have e2 := hsm t
      cases hps : s.pM1 b rule (data.map Prod.fst) (Dict.erase kwargs "beta") with
      | mk a s' =>
        cases hpt : t.pM1 b rule (data.map Prod.fst) (Dict.erase kwargs "beta") with
        | mk a' t' =>
          rw [hps] at e1 hp
          rw [hpt] at e2 hp
          simp only at e1 e2 hp
          subst hp
          cases a' with
          | error e => rfl
          | ok pm =>
            simp only
            have q1 := pQ_fresh b s'.smoothed data beta
              (Smoothed.kwGet (Dict.erase kwargs "beta") "mmin" (fin s.smoothed.mmin))
              (Smoothed.kwGet (Dict.erase kwargs "beta") "delta_m" 0) (by rw [e1]; exact .inr (.inl hq))
            have q2 := pQ_fresh b t'.smoothed data beta
              (Smoothed.kwGet (Dict.erase kwargs "beta") "mmin" (fin s.smoothed.mmin))
              (Smoothed.kwGet (Dict.erase kwargs "beta") "delta_m" 0) (by rw [e2]; exact .inr hr.q)
            have hnorm : qNormAt b t'.smoothed beta
                (Smoothed.kwGet (Dict.erase kwargs "beta") "mmin" (fin s.smoothed.mmin))
                (Smoothed.kwGet (Dict.erase kwargs "beta") "delta_m" 0) =
                qNormAt b s'.smoothed beta
                (Smoothed.kwGet (Dict.erase kwargs "beta") "mmin" (fin s.smoothed.mmin))
                (Smoothed.kwGet (Dict.erase kwargs "beta") "delta_m" 0) := by
              funext m
              unfold qNormAt
              rw [e1, e2, hr.twin.smoothed.qs]
            have hm1 : t'.smoothed.m1s = s'.smoothed.m1s := by
              rw [e1, e2, hr.twin.smoothed.m1s]
            rw [hnorm, hm1, ← q1] at q2
            cases hqs : s'.smoothed.pQ b data beta
              (Smoothed.kwGet (Dict.erase kwargs "beta") "mmin" (fin s.smoothed.mmin))
              (Smoothed.kwGet (Dict.erase kwargs "beta") "delta_m" 0) with
            | mk c sm =>
              cases hqt : t'.smoothed.pQ b data beta
                (Smoothed.kwGet (Dict.erase kwargs "beta") "mmin" (fin s.smoothed.mmin))
                (Smoothed.kwGet (Dict.erase kwargs "beta") "delta_m" 0) with
              | mk c' sm' =>
                rw [hqs, hqt] at q2
                simp only at q2
                subst q2
                cases c' <;> rfl

/-! ## The first call -/

theorem append_ne_beta {c : Char} {l : List Char} (hc : c ≠ 'b') (u v : String)
    (hu : u.toList = c :: l) : u ++ v ≠ "beta" := by
  intro h
  have := congrArg String.toList h
  rw [String.toList_append, hu, show "beta".toList = ['b', 'e', 't', 'a'] from rfl,
    List.cons_append] at this
  exact hc (List.cons.inj this).1

theorem extract_erase_beta {s : SplineModel} (hb : s.base = "mass") (kwargs : Dict Fl) :
    s.extractSplinePoints (Dict.erase kwargs "beta") = s.extractSplinePoints kwargs := by
  have hx : s.xkeys.mapM (Dict.get (Dict.erase kwargs "beta")) = s.xkeys.mapM (Dict.get kwargs) := by
    refine mapM_congr fun k hk => ?_
    obtain ⟨i, -, rfl⟩ := List.mem_map.1 hk
    unfold Dict.get
    rw [hb, get?_erase_ne]
    exact append_ne_beta (c := 'm') (by decide) "mass" _ rfl
  have hf : s.fkeys.mapM (Dict.get (Dict.erase kwargs "beta")) = s.fkeys.mapM (Dict.get kwargs) := by
    refine mapM_congr fun k hk => ?_
    obtain ⟨i, -, rfl⟩ := List.mem_map.1 hk
    unfold Dict.get
    rw [hb, get?_erase_ne]
    exact append_ne_beta (c := 'f') (by decide) "fmass" _ rfl
  have hr : ∀ f, s.regularise (Dict.erase kwargs "beta") f = s.regularise kwargs f := by
    intro f
    unfold regularise Dict.get
    rw [hb, get?_erase_ne (by decide)]
  unfold extractSplinePoints
  rw [hx, hf]
  simp only [hr]

theorem interpArgs_erase {s : InterpPowerlaw} (hb : s.spline.base = "mass") {kwargs : Dict Fl}
    {a lo hi d : ℝ} {x f : List ℝ} (h : InterpArgs s kwargs a lo hi d x f) :
    InterpArgs s (Dict.erase kwargs "beta") a lo hi d x f :=
  ⟨by rw [get?_erase_ne (by decide)]; exact h.alpha, by rw [get?_erase_ne (by decide)]; exact h.mmin,
    by rw [get?_erase_ne (by decide)]; exact h.mmax, by
      rw [get?_erase_ne (by decide)]; exact h.delta, by
      rw [extract_erase_beta hb]; exact h.points⟩

/-- A first call with real positive masses and hyper-parameters in range returns values; the
interpolants afterwards are those of these masses and nodes. -/
theorem first_call {b : Backend} {rule : SplineRule}
    {S : String → List ℝ → List ℝ → ℝ → ℝ} (hrule : RealRule rule S)
    {py : Bool} {nodes : ℕ} {kind : String} {mmin mmax : ℝ} {nM nQ : ℕ} {reg : Bool}
    {s : InterpPowerlaw} {kwargs : Dict Fl} {a lo hi d : ℝ} {x f : List ℝ}
    (hinit : init py nodes kind mmin mmax nM nQ reg = .ok s) (hmin : 0 < mmin) (hmm : mmin < mmax)
    (hk : GoodArgs b s kwargs a lo hi d x f) {data : List (ℝ × Fl)} (hm : ∀ v ∈ data, 0 < v.1) :
    (∃ r, (s.call b rule (data.map fun v => (fin v.1, v.2)) kwargs).1 = .ok r ∧
      r.length = data.length) ∧
    Wired (s.call b rule (data.map fun v => (fin v.1, v.2)) kwargs).2 ∧
    Frozen (s.call b rule (data.map fun v => (fin v.1, v.2)) kwargs).2.spline x
      (data.map fun v _ => v.1) ∧
    Twin s (s.call b rule (data.map fun v => (fin v.1, v.2)) kwargs).2 := by
  obtain ⟨hM, -, hs, hn, hgrid, hsmin, hsmax, hq, -, hbase, -⟩ := init_ok hinit
  have hlo0 : 0 < lo := by have := hk.low; rw [hsmin] at this; linarith
  have hpos : ∀ m ∈ s.smoothed.m1s, 0 < m := fun m hm => by
    rw [hgrid] at hm
    linarith [linspaceR_ge hmm.le hm]
  have hZ := wide_pos S s.spline.config x f hlo0 hk.order (a := a) (top := s.smoothed.mmax) d
    (grid := s.smoothed.m1s) (by rw [hgrid]; exact linspaceR_sorted hmm hM)
    (by rw [hgrid, linspaceR_length]; exact hM) (by
      obtain ⟨m, hm, h1, h2⟩ := hk.grid
      exact ⟨m, hm, h1, h2, h2.trans hk.high⟩)
  have hargs := interpArgs_erase hbase hk.args
  obtain ⟨t, ht, hfr, hc, hb, htx⟩ := setup_masses hs (x := x) (ms := data.map Prod.fst) hk.nodes.2
    hpos (by simpa using fun m v hv => hm (m, v) hv)
  have key := pM1_frozen (b := b) hrule (s := { s with spline := t })
    ⟨by rw [← hs.params, ← hc], by rw [← hs.logNodes, ← hc], by rw [← hs.grid, ← htx]⟩
    (kwargs := Dict.erase kwargs "beta") (x₀ := x) (pairs := data.map fun v => (v.1, v.1))
    ⟨hargs.alpha, hargs.mmin, hargs.mmax, hargs.delta, by
      rw [← hargs.points]; exact extract_congr hc hb _⟩
    hk.alpha hlo0 hk.order hk.window hpos (by
      intro q hq
      obtain ⟨v, hv, rfl⟩ := List.mem_map.1 hq
      exact hm v hv) hk.nodes.1
    (by rw [List.map_map]; rw [List.map_map] at hfr; exact hfr) rfl
    (by simp only [hc]; exact hZ.ne')
  rw [show ((data.map fun v => (v.1, v.1)).map fun q => fin q.2) = (data.map Prod.fst).map fin from by
    rw [List.map_map, List.map_map]; rfl] at key
  have hp := pM1_setup hn hargs.points ht hc hb key
  have hmasses : (data.map fun v => (fin v.1, v.2)).map Prod.fst = (data.map Prod.fst).map fin := by
    rw [List.map_map, List.map_map]; rfl
  obtain ⟨beta, hbeta⟩ := hk.beta
  have e1 : Smoothed.kwGet (Dict.erase kwargs "beta") "mmin" (fin s.smoothed.mmin) = fin lo := by
    unfold Smoothed.kwGet; rw [hargs.mmin]; rfl
  have e2 : Smoothed.kwGet (Dict.erase kwargs "beta") "mmax" (fin s.smoothed.mmax) = fin hi := by
    unfold Smoothed.kwGet; rw [hargs.mmax]; rfl
  unfold call
  rw [hbeta]
  simp only [e1, e2]
  rw [if_neg (fun h => absurd (fin_lt.1 h.2) hk.low.not_gt),
    if_neg (fun h => absurd (fin_lt.1 h.2) hk.high.not_gt), hmasses, hp]
  simp only
  have q1 := pQ_fresh b s.smoothed (data.map fun v => (fin v.1, v.2)) beta (fin lo)
    (Smoothed.kwGet (Dict.erase kwargs "beta") "delta_m" 0) (.inr (.inl hq))
  have q2 := pQ_state b s.smoothed (data.map fun v => (fin v.1, v.2)) beta (fin lo)
    (Smoothed.kwGet (Dict.erase kwargs "beta") "delta_m" 0)
  cases hpq : s.smoothed.pQ b (data.map fun v => (fin v.1, v.2)) beta (fin lo)
      (Smoothed.kwGet (Dict.erase kwargs "beta") "delta_m" 0) with
  | mk c sm =>
    rw [hpq] at q1 q2
    simp only at q1 q2
    subst q1
    have hsc : SameConfig s.smoothed sm := by
      rcases q2 with h | h <;> rw [h]
      · exact SameConfig.refl _
      · exact sameConfig_cache _ _
    unfold times
    simp only
    rw [broadcast_same b _ (by simp)]
    refine ⟨⟨_, rfl, by simp⟩, ⟨?_, ?_, ?_⟩, ?_, ⟨rfl, hsc, hc, hb⟩⟩
    · rw [hc]; exact hs.params
    · rw [hc]; exact hs.logNodes
    · rw [htx, hsc.m1s]; exact hs.grid
    · rw [List.map_map] at hfr; exact hfr

/-- **C72.** After a first call with masses `m₀` and node positions `x₀`, the primary density of a call
with the same number of masses is computed from the spline through the *first* positions at the
*first* masses: only the power law, the window and the cut at the outer nodes use the current ones. -/
theorem C72_stale_partial {b : Backend} {rule : SplineRule}
    {S : String → List ℝ → List ℝ → ℝ → ℝ} (hrule : RealRule rule S)
    {py : Bool} {nodes : ℕ} {kind : String} {mmin mmax : ℝ} {nM nQ : ℕ} {reg : Bool}
    {s : InterpPowerlaw} {kwargs₀ kwargs : Dict Fl} {a₀ lo₀ hi₀ d₀ a lo hi d : ℝ}
    {x₀ f₀ x f : List ℝ}
    (hinit : init py nodes kind mmin mmax nM nQ reg = .ok s) (hmin : 0 < mmin) (hmm : mmin < mmax)
    (hk₀ : GoodArgs b s kwargs₀ a₀ lo₀ hi₀ d₀ x₀ f₀) (hk : GoodArgs b s kwargs a lo hi d x f)
    {pairs : List (ℝ × ℝ)} (q₀ : ℝ → Fl) (hm : ∀ q ∈ pairs, 0 < q.1 ∧ 0 < q.2) :
    ((s.call b rule (pairs.map fun q => (fin q.1, q₀ q.1)) kwargs₀).2.pM1 b rule
      (pairs.map fun q => fin q.2) kwargs).1 =
      .ok (pairs.map fun q => fin (tapered a lo hi s.smoothed.mmax d q.2 *
        (if Between x q.2 then expSpline S s.spline.config x₀ f q.1 else 0) /
        Arr.trapzR (s.smoothed.m1s.map (wideShape S s.spline.config x₀ f a lo hi s.smoothed.mmax d))
          s.smoothed.m1s)) := by
  obtain ⟨hM, -, -, -, hgrid, hsmin, -⟩ := init_ok hinit
  have hlo0 : 0 < lo := by have := hk.low; rw [hsmin] at this; linarith
  have hpos : ∀ m ∈ s.smoothed.m1s, 0 < m := fun m hm => by
    rw [hgrid] at hm
    linarith [linspaceR_ge hmm.le hm]
  have hZ := wide_pos S s.spline.config x₀ f hlo0 hk.order (a := a) (top := s.smoothed.mmax) d
    (grid := s.smoothed.m1s) (by rw [hgrid]; exact linspaceR_sorted hmm hM)
    (by rw [hgrid, linspaceR_length]; exact hM) (by
      obtain ⟨m, hm, h1, h2⟩ := hk.grid
      exact ⟨m, hm, h1, h2, h2.trans hk.high⟩)
  obtain ⟨-, h1, h2, h3⟩ := first_call (b := b) hrule hinit hmin hmm hk₀
    (data := pairs.map fun q => (q.1, q₀ q.1)) (by
      intro v hv
      obtain ⟨q, hq, rfl⟩ := List.mem_map.1 hv
      exact (hm q hq).1)
  rw [List.map_map] at h1 h2 h3
  obtain ⟨t, ht⟩ : ∃ t, t = (s.call b rule (pairs.map fun q => (fin q.1, q₀ q.1)) kwargs₀).2 :=
    ⟨_, rfl⟩
  have h1' : Wired t := by rw [ht]; exact h1
  have h2' : Frozen t.spline x₀ (pairs.map fun q _ => q.1) := by
    rw [ht]; rw [List.map_map] at h2; exact h2
  have h3' : Twin s t := by rw [ht]; exact h3
  rw [← ht]
  have key := pM1_frozen (b := b) hrule h1' (kwargs := kwargs) (x₀ := x₀) (pairs := pairs)
    ⟨hk.args.alpha, hk.args.mmin, hk.args.mmax, hk.args.delta, by
      rw [← hk.args.points]; exact extract_congr h3'.config h3'.base _⟩
    hk.alpha hlo0 hk.order hk.window (by rw [h3'.smoothed.m1s]; exact hpos)
    (fun q hq => (hm q hq).2) hk.nodes.1 h2' rfl
    (by rw [h3'.smoothed.m1s, h3'.smoothed.mmax, h3'.config]; exact hZ.ne')
  rw [key, h3'.smoothed.m1s, h3'.smoothed.mmax, h3'.config]
  rfl

theorem small_good (b : Backend) : GoodArgs b small (smallKwargs 3) 0 1 3 1 [1, 3] [0, 0] :=
  ⟨small_args 3, ⟨fin 0, rfl⟩, .inr (by norm_num), by norm_num, le_refl _, le_refl _, .inl one_pos,
    ⟨by simp, by simp⟩, ⟨1, by rw [small_grid]; simp, le_refl _, by norm_num⟩⟩

/-- The outcome depends on earlier calls, for every interpolation rule with real values: a call with
three samples succeeds on a new instance, and raises after a call with two samples. -/
theorem C72_fails (b : Backend) {rule : SplineRule} {S : String → List ℝ → List ℝ → ℝ → ℝ}
    (hrule : RealRule rule S) : ¬ C72_statement b rule := by
  intro H
  obtain ⟨⟨r₀, h₀, -⟩, -⟩ := first_call (b := b) hrule small_init one_pos (by norm_num) (small_good b)
    (data := [(2, fin 1), (3, fin 1)]) (by simp)
  obtain ⟨⟨r, h, -⟩, -⟩ := first_call (b := b) hrule small_init one_pos (by norm_num) (small_good b)
    (data := [(1, fin 1), (2, fin 1), (3, fin 1)]) (by simp)
  have := H false 2 "linear" 1 3 3 2 false small
    [([(2, fin 1), (3, fin 1)].map fun v : ℝ × Fl => (fin v.1, v.2), smallKwargs 3)]
    ([(1, fin 1), (2, fin 1), (3, fin 1)].map fun v : ℝ × Fl => (fin v.1, v.2)) (smallKwargs 3)
    small_init
  rw [h] at this
  exact C72_length_partial small_init h₀ [] (by simp) (.inr (by simp)) _ r this

/-- The hypotheses of `C72_stale_partial` hold for a concrete instance: after a call at mass 2, the
value at mass 3 uses the spline at mass 2. -/
example (b : Backend) {rule : SplineRule} {S : String → List ℝ → List ℝ → ℝ → ℝ}
    (hrule : RealRule rule S) :
    ((small.call b rule [(fin 2, fin 1)] (smallKwargs 3)).2.pM1 b rule [fin 3] (smallKwargs 3)).1 =
      .ok [fin (tapered 0 1 3 3 1 3 * expSpline S small.spline.config [1, 3] [0, 0] 2 /
        Arr.trapzR (small.smoothed.m1s.map (wideShape S small.spline.config [1, 3] [0, 0] 0 1 3 3 1))
          small.smoothed.m1s)] := by
  have := C72_stale_partial (b := b) hrule small_init one_pos (by norm_num) (small_good b)
    (small_good b) (pairs := [(2, 3)]) (fun _ => fin 1) (by simp)
  simp only [List.map_cons, List.map_nil] at this
  rw [if_pos (by constructor <;> simp)] at this
  exact this

/-- The hypotheses of `C72_same_partial`: two calls with the same masses and other mass ratios. -/
example (b : Backend) (rule : SplineRule) :
    (call b rule (runCalls b rule small [([(fin 2, fin 1)], smallKwargs 3)]) [(fin 2, fin 0.5)]
      (smallKwargs 3)).1 = (call b rule small [(fin 2, fin 0.5)] (smallKwargs 3)).1 :=
  C72_same_partial small_init _ _ _ (by
    intro c hc
    rw [List.mem_singleton] at hc
    subst hc
    exact ⟨rfl, fun _ => rfl⟩)

end InterpPowerlaw

end GW
