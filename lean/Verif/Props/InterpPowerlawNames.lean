import Verif.Props.InterpPowerlawHistory

/-!
# C73: the hyper-parameter names of the interpolated power law
-/

noncomputable section

open Classical

namespace GW

open Fl Spec

namespace InterpPowerlaw

open SplineModel

/-- **C73.** The advertised names: those of the power law and of the smoothing, the node positions and
values, and the root mean square if the node values are regularised. -/
theorem C73_names {py : Bool} {nodes : ℕ} {kind : String} {mmin mmax : ℝ} {nM nQ : ℕ} {reg : Bool}
    {s : InterpPowerlaw} (hinit : init py nodes kind mmin mmax nM nQ reg = .ok s) (k : String) :
    k ∈ s.variableNames ↔
      k ∈ ["alpha", "mmin", "mmax", "beta", "delta_m"] ∨
      (∃ i < nodes, k = "mass" ++ toString i ∨ k = "fmass" ++ toString i) ∨
      (reg = true ∧ k = "rmsmass") := by
  obtain ⟨-, -, -, -, -, -, -, -, -, hb, hn, hr, -⟩ := init_ok hinit
  have h1 : (GW.variableNames ⟨["mass", "alpha", "mmin", "mmax"], none⟩ []).1 =
      (["alpha", "mmin", "mmax", "beta", "delta_m"] : List String).dedup.filter (fun k => k ∉ ([] : List String)) := rfl
  unfold variableNames
  rw [List.mem_dedup, List.mem_append, h1, List.mem_filter, List.mem_dedup]
  refine or_congr (by simp) ?_
  unfold SplineModel.variableNames xkeys fkeys
  rw [hb, hn, hr]
  have h2 : k ∈ (List.range nodes).map (xkey "mass") ++ (List.range nodes).map (fkey "mass") ↔
      ∃ i < nodes, k = "mass" ++ toString i ∨ k = "fmass" ++ toString i := by
    rw [List.mem_append, List.mem_map, List.mem_map]
    constructor
    · rintro (⟨i, hi, rfl⟩ | ⟨i, hi, rfl⟩)
      · exact ⟨i, List.mem_range.1 hi, .inl rfl⟩
      · exact ⟨i, List.mem_range.1 hi, .inr rfl⟩
    · rintro ⟨i, hi, rfl | rfl⟩
      · exact .inl ⟨i, List.mem_range.2 hi, rfl⟩
      · exact .inr ⟨i, List.mem_range.2 hi, rfl⟩
  cases reg with
  | false => simpa using h2
  | true =>
    simp only [if_true]
    rw [List.mem_append, h2, List.mem_singleton]
    simp [rmsKey, show "rms" ++ "mass" = "rmsmass" from rfl]

/-! ### Missing names -/

theorem mapM_get_error {keys : List String} {d : Dict Fl} {e : PyErr}
    (h : keys.mapM d.get = .error e) : ∃ k ∈ keys, ¬ d.contains k ∧ e = .keyError k := by
  induction keys with
  | nil => cases h
  | cons a l ih =>
    rw [List.mapM_cons] at h
    cases hg : d.get? a with
    | none =>
      refine ⟨a, by simp, (Dict.get?_eq_none_iff d a).1 hg, ?_⟩
      unfold Dict.get at h
      rw [hg] at h
      cases h
      rfl
    | some v =>
      rw [show d.get a = .ok v from by unfold Dict.get; rw [hg], ok_bind] at h
      cases hl : l.mapM d.get with
      | error e' =>
        rw [hl] at h
        cases h
        obtain ⟨k, h1, h2, h3⟩ := ih hl
        exact ⟨k, by simp [h1], h2, h3⟩
      | ok r => rw [hl] at h; cases h

theorem extract_error {s : SplineModel} {d : Dict Fl} {e : PyErr}
    (h : s.extractSplinePoints d = .error e) :
    ∃ k ∈ s.variableNames, ¬ d.contains k ∧ e = .keyError k := by
  have sub : ∀ k', k' ∈ s.xkeys ∨ k' ∈ s.fkeys → k' ∈ s.variableNames := by
    intro k' h
    unfold SplineModel.variableNames
    simp only
    split_ifs
    · simp only [List.mem_append]; exact .inl h
    · simp only [List.mem_append]; exact h
  unfold extractSplinePoints at h
  cases hf : s.fkeys.mapM d.get with
  | error e' =>
    rw [hf] at h
    cases h
    obtain ⟨k, h1, h2, h3⟩ := mapM_get_error hf
    exact ⟨k, sub k (.inr h1), h2, h3⟩
  | ok f =>
    rw [hf, ok_bind] at h
    cases hr : s.regularise d f with
    | error e' =>
      rw [hr] at h
      cases h
      unfold regularise at hr
      split_ifs at hr with hreg
      unfold Dict.get at hr
      cases hg : d.get? (rmsKey s.base) with
      | some v => rw [hg] at hr; cases hr
      | none =>
        rw [hg] at hr
        cases hr
        refine ⟨_, ?_, (Dict.get?_eq_none_iff d _).1 hg, rfl⟩
        unfold SplineModel.variableNames
        simp only
        rw [if_pos hreg]
        simp
    | ok f' =>
      rw [hr, ok_bind] at h
      cases hx : s.xkeys.mapM d.get with
      | error e' =>
        rw [hx] at h
        cases h
        obtain ⟨k, h1, h2, h3⟩ := mapM_get_error hx
        exact ⟨k, sub k (.inl h1), h2, h3⟩
      | ok x => rw [hx] at h; cases h

theorem primaryAt_missing {b : Backend} {s : InterpPowerlaw} {d : Dict Fl} {masses : List Fl}
    {k : String} (hk : k ∈ ["alpha", "mmin", "mmax"]) (hmiss : ¬ d.contains k) :
    ∃ k' ∈ ["alpha", "mmin", "mmax"], ¬ d.contains k' ∧
      s.primaryAt b d masses = .error (.keyError k') := by
  unfold primaryAt Dict.get
  cases h1 : d.get? "alpha" with
  | none => exact ⟨"alpha", by simp, (Dict.get?_eq_none_iff d _).1 h1, rfl⟩
  | some a =>
    cases h2 : d.get? "mmin" with
    | none => exact ⟨"mmin", by simp, (Dict.get?_eq_none_iff d _).1 h2, rfl⟩
    | some lo =>
      cases h3 : d.get? "mmax" with
      | none => exact ⟨"mmax", by simp, (Dict.get?_eq_none_iff d _).1 h3, rfl⟩
      | some hi =>
        exfalso
        rw [← Dict.get?_eq_none_iff] at hmiss
        simp only [List.mem_cons, List.not_mem_nil, or_false] at hk
        rcases hk with rfl | rfl | rfl
        · rw [h1] at hmiss; cases hmiss
        · rw [h2] at hmiss; cases hmiss
        · rw [h3] at hmiss; cases hmiss

/-- What a history of calls preserves. -/
theorem runCalls_twin (b : Backend) (rule : SplineRule) (s : InterpPowerlaw)
    (hist : List (List (Fl × Fl) × Dict Fl)) : Twin s (runCalls b rule s hist) := by
  suffices H : ∀ (hist : List (List (Fl × Fl) × Dict Fl)) t, Twin s t →
      Twin s (runCalls b rule t hist) from H hist s ⟨rfl, SameConfig.refl _, rfl, rfl⟩
  intro hist
  induction hist with
  | nil => intro t ht; exact ht
  | cons c hist ih =>
    intro t ht
    refine ih _ ?_
    obtain ⟨h1, h2, -, h4⟩ := call_state' b rule t c.1 c.2
    refine ⟨h1.trans ht.py, ht.smoothed.trans h2, ?_, ?_⟩
    · rcases h4 with h | ⟨_, x, -, -, h⟩
      · rw [h]; exact ht.config
      · rw [h]
        unfold setupInterpolant
        simp only
        split <;> exact ht.config
    · rcases h4 with h | ⟨_, x, -, -, h⟩
      · rw [h]; exact ht.base
      · rw [h]
        unfold setupInterpolant
        simp only
        split <;> exact ht.base

/-- **C73.** Every advertised name except `delta_m` is required, after any history of calls: if one is
missing the call raises, `KeyError` for a missing name, or `ValueError` if a given bound is out of
range. -/
theorem C73_missing {b : Backend} {rule : SplineRule} {py : Bool} {nodes : ℕ}
    {kind : String} {mmin mmax : ℝ} {nM nQ : ℕ} {reg : Bool} {s : InterpPowerlaw}
    (hinit : init py nodes kind mmin mmax nM nQ reg = .ok s)
    (hist : List (List (Fl × Fl) × Dict Fl)) (data : List (Fl × Fl)) {kwargs : Dict Fl} {k : String}
    (hk : k ∈ s.variableNames) (hd : k ≠ "delta_m") (hmiss : ¬ kwargs.contains k) :
    (∃ k' ∈ s.variableNames, ¬ kwargs.contains k' ∧
      (call b rule (runCalls b rule s hist) data kwargs).1 = .error (.keyError k')) ∨
    (b ≠ .jax ∧ ((∃ v, kwargs.get? "mmin" = some v ∧ v < fin mmin) ∨
        (∃ v, kwargs.get? "mmax" = some v ∧ fin mmax < v)) ∧
      (call b rule (runCalls b rule s hist) data kwargs).1 = .error .valueError) := by
  obtain ⟨-, -, -, -, -, hsmin, hsmax, -, -, hb, -⟩ := init_ok hinit
  have ht := runCalls_twin b rule s hist
  obtain ⟨t, hteq⟩ : ∃ t, t = runCalls b rule s hist := ⟨_, rfl⟩
  rw [← hteq] at ht ⊢
  unfold call
  cases hbeta : Dict.get? kwargs "beta" with
  | none =>
    exact .inl ⟨"beta", (C73_names hinit _).2 (.inl (by simp)),
      (Dict.get?_eq_none_iff _ _).1 hbeta, rfl⟩
  | some beta =>
    simp only
    have hkb : k ≠ "beta" := by
      rintro rfl
      rw [← Dict.get?_eq_none_iff, hbeta] at hmiss
      cases hmiss
    have contains_erase : ∀ k', k' ≠ "beta" →
        ((Dict.erase kwargs "beta").contains k' ↔ kwargs.contains k') := by
      intro k' h
      rw [← not_iff_not, ← Dict.get?_eq_none_iff, ← Dict.get?_eq_none_iff, get?_erase_ne h]
    rw [ht.smoothed.mmin, ht.smoothed.mmax, hsmin, hsmax]
    have kw : ∀ k' (v : ℝ), k' ≠ "beta" → Smoothed.kwGet (Dict.erase kwargs "beta") k' (fin v) =
        (kwargs.get? k').getD (fin v) := by
      intro k' v h
      unfold Smoothed.kwGet
      rw [get?_erase_ne h]
    rw [kw "mmin" mmin (by decide), kw "mmax" mmax (by decide)]
    split_ifs with h1 h2
    · refine .inr ⟨h1.1, .inl ?_, rfl⟩
      cases hv : kwargs.get? "mmin" with
      | none => rw [hv] at h1; exact absurd (fin_lt.1 h1.2) (lt_irrefl _)
      | some v => rw [hv] at h1; exact ⟨v, rfl, h1.2⟩
    · refine .inr ⟨h2.1, .inr ?_, rfl⟩
      cases hv : kwargs.get? "mmax" with
      | none => rw [hv] at h2; exact absurd (fin_lt.1 h2.2) (lt_irrefl _)
      | some v => rw [hv] at h2; exact ⟨v, rfl, h2.2⟩
    · left
      have hnames : ∀ k', k' ∈ t.spline.variableNames → k' ∈ s.variableNames := by
        intro k' h
        have e : t.spline.variableNames = s.spline.variableNames := by
          unfold SplineModel.variableNames xkeys fkeys
          rw [ht.base, ht.config]
        rw [e] at h
        unfold variableNames
        rw [List.mem_dedup, List.mem_append]
        exact .inr h
      have hne : ∀ k', k' ∈ t.spline.variableNames → k' ≠ "beta" := by
        rintro k' h rfl
        unfold SplineModel.variableNames xkeys fkeys at h
        rw [ht.base, hb] at h
        have hx : "beta" ∉ (List.range t.spline.config.nodes).map (xkey "mass") ++
            (List.range t.spline.config.nodes).map (fkey "mass") := by
          intro h'
          rcases List.mem_append.1 h' with h' | h'
          · obtain ⟨i, -, h'⟩ := List.mem_map.1 h'
            exact append_ne_beta (c := 'm') (by decide) "mass" _ rfl h'
          · obtain ⟨i, -, h'⟩ := List.mem_map.1 h'
            exact append_ne_beta (c := 'f') (by decide) "fmass" _ rfl h'
        simp only at h
        split_ifs at h
        · rcases List.mem_append.1 h with h | h
          · exact hx h
          · rw [List.mem_singleton] at h
            exact absurd h (by decide)
        · exact hx h
      have herr : ∀ e, (t.pM1 b rule (data.map Prod.fst) (Dict.erase kwargs "beta")).1 = .error e →
          (match t.pM1 b rule (data.map Prod.fst) (Dict.erase kwargs "beta") with
            | (.error e, s') => (Except.error (α := List Fl) e, s')
            | (.ok pm, s') => times b s' pm (s'.smoothed.pQ b data beta
                ((kwargs.get? "mmin").getD (fin mmin))
                (Smoothed.kwGet (Dict.erase kwargs "beta") "delta_m" 0))).1 = .error e := by
        intro e he
        cases hp : t.pM1 b rule (data.map Prod.fst) (Dict.erase kwargs "beta") with
        | mk a u =>
          rw [hp] at he
          simp only at he
          subst he
          rfl
      cases hex : t.spline.extractSplinePoints (Dict.erase kwargs "beta") with
      | error e =>
        obtain ⟨k', h3, h4, rfl⟩ := extract_error hex
        refine ⟨k', hnames k' h3, by rw [← contains_erase _ (hne k' h3)]; exact h4, herr _ ?_⟩
        unfold pM1
        rw [hex]
      | ok p =>
        have hall := (C37_required t.spline _).1 ⟨p, hex⟩
        obtain ⟨f, x⟩ := p
        have hk3 : k ∈ ["alpha", "mmin", "mmax"] := by
          unfold variableNames at hk
          rw [List.mem_dedup, List.mem_append] at hk
          rcases hk with hk | hk
          · rw [show (GW.variableNames ⟨["mass", "alpha", "mmin", "mmax"], none⟩ []).1 =
              (["alpha", "mmin", "mmax", "beta", "delta_m"] : List String).dedup.filter
                (fun k => k ∉ ([] : List String)) from rfl, List.mem_filter, List.mem_dedup] at hk
            have h := hk.1
            simp only [List.mem_cons, List.not_mem_nil, or_false] at h ⊢
            rcases h with h | h | h | h | h
            · exact .inl h
            · exact .inr (.inl h)
            · exact .inr (.inr h)
            · exact absurd h hkb
            · exact absurd h hd
          · have e : t.spline.variableNames = s.spline.variableNames := by
              unfold SplineModel.variableNames xkeys fkeys
              rw [ht.base, ht.config]
            rw [← e] at hk
            exact absurd ((contains_erase k hkb).1 (hall k hk)) hmiss
        have h2e : ∀ k', k' ∈ ["alpha", "mmin", "mmax"] →
            ((Dict.erase (Dict.erase kwargs "beta") "delta_m").contains k' ↔ kwargs.contains k') := by
          intro k' h
          rw [← not_iff_not, ← Dict.get?_eq_none_iff, ← Dict.get?_eq_none_iff]
          simp only [List.mem_cons, List.not_mem_nil, or_false] at h
          rcases h with rfl | rfl | rfl <;>
            rw [get?_erase_ne (by decide), get?_erase_ne (by decide)]
        obtain ⟨k', h3, h4, h5⟩ := primaryAt_missing (b := b) (s := t)
          (d := Dict.erase (Dict.erase kwargs "beta") "delta_m") (masses := data.map Prod.fst) hk3
          (by rw [h2e k hk3]; exact hmiss)
        refine ⟨k', (C73_names hinit _).2 (.inl ?_), by rw [← h2e k' h3]; exact h4, herr _ ?_⟩
        · simp only [List.mem_cons, List.not_mem_nil, or_false] at h3 ⊢
          rcases h3 with h | h | h
          · exact .inl h
          · exact .inr (.inl h)
          · exact .inr (.inr (.inl h))
        · unfold pM1
          rw [hex]
          simp only
          have : ∀ m d', t.pMRaw b (data.map Prod.fst) m d'
              (Dict.erase (Dict.erase kwargs "beta") "delta_m") = .error (.keyError k') := by
            intro m d'
            unfold pMRaw
            rw [h5]
            rfl
          rw [this]

/-! ### Other names -/

/-- Two dictionaries agree on the advertised names. -/
def AgreeOn (names : List String) (kw kw' : Dict Fl) : Prop := ∀ k ∈ names, kw.get? k = kw'.get? k

theorem extract_agree {s : SplineModel} {kw kw' : Dict Fl} (h : AgreeOn s.variableNames kw kw') :
    s.extractSplinePoints kw = s.extractSplinePoints kw' := by
  have sub : ∀ k', k' ∈ s.xkeys ∨ k' ∈ s.fkeys → k' ∈ s.variableNames := by
    intro k' h
    unfold SplineModel.variableNames
    simp only
    split_ifs
    · simp only [List.mem_append]; exact .inl h
    · simp only [List.mem_append]; exact h
  unfold extractSplinePoints
  have hx : s.xkeys.mapM kw.get = s.xkeys.mapM kw'.get := by
    refine mapM_congr fun k hk => ?_
    unfold Dict.get
    rw [h k (sub k (.inl hk))]
  have hf : s.fkeys.mapM kw.get = s.fkeys.mapM kw'.get := by
    refine mapM_congr fun k hk => ?_
    unfold Dict.get
    rw [h k (sub k (.inr hk))]
  have hr : ∀ f, s.regularise kw f = s.regularise kw' f := by
    intro f
    unfold regularise
    by_cases hreg : s.config.regularize = true
    · rw [if_pos hreg, if_pos hreg]
      unfold Dict.get
      rw [h (rmsKey s.base) (by
        unfold SplineModel.variableNames
        simp only
        rw [if_pos hreg]
        simp)]
    · rw [if_neg hreg, if_neg hreg]
  rw [hx, hf]
  simp only [hr]

theorem primaryAt_agree {b : Backend} {s : InterpPowerlaw} {kw kw' : Dict Fl}
    (h : AgreeOn ["alpha", "mmin", "mmax"] kw kw') (masses : List Fl) :
    s.primaryAt b kw masses = s.primaryAt b kw' masses := by
  unfold primaryAt Dict.get
  rw [h "alpha" (by simp), h "mmin" (by simp), h "mmax" (by simp)]

theorem pM1_agree {b : Backend} {rule : SplineRule} {s : InterpPowerlaw} {kw kw' : Dict Fl}
    (h1 : AgreeOn ["alpha", "mmin", "mmax", "delta_m"] kw kw')
    (h2 : AgreeOn s.spline.variableNames kw kw') (masses : List Fl) :
    s.pM1 b rule masses kw = s.pM1 b rule masses kw' := by
  have he : AgreeOn ["alpha", "mmin", "mmax"] (Dict.erase kw "delta_m") (Dict.erase kw' "delta_m") := by
    intro k hk
    have := h1 k (by
      simp only [List.mem_cons, List.not_mem_nil, or_false] at hk ⊢
      tauto)
    rw [Dict.get?_erase, Dict.get?_erase, this]
  have e1 : ∀ v, Smoothed.kwGet kw "mmin" v = Smoothed.kwGet kw' "mmin" v := by
    intro v; unfold Smoothed.kwGet; rw [h1 "mmin" (by simp)]
  have e2 : ∀ v, Smoothed.kwGet kw "delta_m" v = Smoothed.kwGet kw' "delta_m" v := by
    intro v; unfold Smoothed.kwGet; rw [h1 "delta_m" (by simp)]
  have e3 : ∀ v, Smoothed.kwGet (Dict.erase kw "delta_m") "mmin" v =
      Smoothed.kwGet (Dict.erase kw' "delta_m") "mmin" v := by
    intro v; unfold Smoothed.kwGet; rw [he "mmin" (by simp)]
  have hraw : ∀ m d, s.pMRaw b masses m d (Dict.erase kw "delta_m") =
      s.pMRaw b masses m d (Dict.erase kw' "delta_m") := by
    intro m d
    unfold pMRaw
    rw [primaryAt_agree he]
  have hnorm : ∀ (W : SplineModel) d f, normPM1 b rule { s with spline := W } d f
      (Dict.erase kw "delta_m") =
      normPM1 b rule { s with spline := W } d f (Dict.erase kw' "delta_m") := by
    intro W d f
    unfold normPM1
    simp only [e3, primaryAt_agree he]
  have hfin : ∀ (W : SplineModel) pm px f d, finish b rule { s with spline := W } pm px f d
      (Dict.erase kw "delta_m") =
      finish b rule { s with spline := W } pm px f d (Dict.erase kw' "delta_m") := by
    intro W pm px f d
    unfold finish
    rw [hnorm]
  unfold pM1
  rw [extract_agree h2]
  simp only [e1, e2, hraw, hfin]

/-- **C73.** Names outside the advertised ones have no influence, after any history of calls: two
dictionaries that agree on the advertised names lead to the same outcome and the same instance. -/
theorem C73_unused {b : Backend} {rule : SplineRule} {py : Bool} {nodes : ℕ}
    {kind : String} {mmin mmax : ℝ} {nM nQ : ℕ} {reg : Bool} {s : InterpPowerlaw}
    (hinit : init py nodes kind mmin mmax nM nQ reg = .ok s)
    (hist : List (List (Fl × Fl) × Dict Fl)) (data : List (Fl × Fl)) {kw kw' : Dict Fl}
    (h : ∀ k ∈ s.variableNames, kw.get? k = kw'.get? k) :
    call b rule (runCalls b rule s hist) data kw = call b rule (runCalls b rule s hist) data kw' := by
  have ht := runCalls_twin b rule s hist
  obtain ⟨t, hteq⟩ : ∃ t, t = runCalls b rule s hist := ⟨_, rfl⟩
  rw [← hteq] at ht ⊢
  have hbase : ∀ k ∈ ["alpha", "mmin", "mmax", "beta", "delta_m"], kw.get? k = kw'.get? k :=
    fun k hk => h k ((C73_names hinit k).2 (.inl hk))
  have hsp : ∀ k ∈ t.spline.variableNames, kw.get? k = kw'.get? k := by
    intro k hk
    have e : t.spline.variableNames = s.spline.variableNames := by
      unfold SplineModel.variableNames xkeys fkeys
      rw [ht.base, ht.config]
    rw [e] at hk
    refine h k ?_
    unfold variableNames
    rw [List.mem_dedup, List.mem_append]
    exact .inr hk
  have hk : ∀ k v, k ∈ ["mmin", "mmax", "delta_m"] →
      Smoothed.kwGet (Dict.erase kw "beta") k v = Smoothed.kwGet (Dict.erase kw' "beta") k v := by
    intro k v hk
    unfold Smoothed.kwGet
    rw [Dict.get?_erase, Dict.get?_erase, hbase k (by
      simp only [List.mem_cons, List.not_mem_nil, or_false] at hk ⊢
      tauto)]
  have hpm := pM1_agree (b := b) (rule := rule) (s := t) (kw := Dict.erase kw "beta")
    (kw' := Dict.erase kw' "beta") (by
      intro k hk
      rw [Dict.get?_erase, Dict.get?_erase, hbase k (by
        simp only [List.mem_cons, List.not_mem_nil, or_false] at hk ⊢
        tauto)]) (by
      intro k hk
      rw [Dict.get?_erase, Dict.get?_erase, hsp k hk])
  unfold call
  rw [hbase "beta" (by simp)]
  simp only [hk "mmin" _ (by simp), hk "mmax" _ (by simp), hk "delta_m" _ (by simp), hpm]

/-- **C73.** The advertised names suffice: with real hyper-parameters in range, a first call returns
one value per sample (`delta_m` may be absent except on jax). -/
theorem C73_sufficient {b : Backend} {rule : SplineRule}
    {S : String → List ℝ → List ℝ → ℝ → ℝ} (hrule : RealRule rule S)
    {py : Bool} {nodes : ℕ} {kind : String} {mmin mmax : ℝ} {nM nQ : ℕ} {reg : Bool}
    {s : InterpPowerlaw} {kwargs : Dict Fl} {a lo hi d : ℝ} {x f : List ℝ}
    (hinit : init py nodes kind mmin mmax nM nQ reg = .ok s) (hmin : 0 < mmin) (hmm : mmin < mmax)
    (hk : GoodArgs b s kwargs a lo hi d x f) {data : List (ℝ × Fl)} (hm : ∀ v ∈ data, 0 < v.1) :
    ∃ r, (s.call b rule (data.map fun v => (fin v.1, v.2)) kwargs).1 = .ok r ∧
      r.length = data.length :=
  (first_call hrule hinit hmin hmm hk hm).1

/-- A third node given to an instance with two nodes has no influence. -/
example (b : Backend) (rule : SplineRule) (data : List (Fl × Fl)) (m v : Fl) :
    call b rule small data (smallKwargs 3 ++ [("mass2", m), ("fmass2", v)]) =
      call b rule small data (smallKwargs 3) := by
  refine C73_unused small_init [] data fun k hk => ?_
  rw [Dict.get?_append]
  have h2 : Dict.get? [("mass2", m), ("fmass2", v)] k = none := by
    rw [Dict.get?_cons, Dict.get?_cons, if_neg, if_neg]
    · rfl
    all_goals
      rintro rfl
      rcases (C73_names small_init _).1 hk with h | ⟨i, hi, h⟩ | h
      · revert h; decide
      · have : i = 0 ∨ i = 1 := by omega
        rcases this with rfl | rfl <;> revert h <;> decide
      · exact absurd h.1 (by decide)
  rw [h2, Option.or_none]

/-- Leaving out the first node position raises. -/
example (b : Backend) (rule : SplineRule) (data : List (Fl × Fl)) :
    ∃ k', (call b rule small data ((smallKwargs 3).erase "mass0")).1 = .error (.keyError k') := by
  rcases C73_missing (b := b) (rule := rule) small_init [] data
    (kwargs := (smallKwargs 3).erase "mass0") (k := "mass0")
    ((C73_names small_init _).2 (.inr (.inl ⟨0, by omega, .inl (by decide)⟩))) (by decide)
    (by rw [← Dict.get?_eq_none_iff, Dict.get?_erase, if_pos rfl]) with ⟨k', -, -, h⟩ | ⟨-, h, -⟩
  · exact ⟨k', h⟩
  · exfalso
    rcases h with ⟨v, h1, h2⟩ | ⟨v, h1, h2⟩
    · rw [get?_erase_ne (by decide)] at h1
      cases h1
      exact absurd (fin_lt.1 h2) (lt_irrefl _)
    · rw [get?_erase_ne (by decide)] at h1
      cases h1
      exact absurd (fin_lt.1 h2) (lt_irrefl _)

end InterpPowerlaw

end GW
