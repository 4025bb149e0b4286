import Verif.Model.Interped
import Verif.Props.SmoothedCore
import Mathlib.Data.Finset.Card
import Mathlib.Tactic.NormNum

/-!
# Spline models: node count, configuration and names (C33, C34, C37)
-/

noncomputable section

open Classical

namespace GW

open Fl SplineModel

/-! ## C33: inferring the number of nodes -/

/-- The name of node value `n`. -/
def Spec.nodeName (base : String) (n : ℕ) : String := "f" ++ base ++ toString n

/-- `m` is the smallest number at or above `n` for which the dictionary has no node value. -/
def Spec.IsFirstMissing (kwargs : Dict Fl) (base : String) (n m : ℕ) : Prop :=
  n ≤ m ∧ ¬ kwargs.contains (Spec.nodeName base m) ∧
    ∀ k, n ≤ k → k < m → kwargs.contains (Spec.nodeName base k)

open Spec

theorem toString_nat_inj {m n : ℕ} (h : toString m = toString n) : m = n := Nat.repr_injective h

theorem append_toString_inj {p : String} {m n : ℕ} (h : p ++ toString m = p ++ toString n) :
    m = n := by
  have h1 := congrArg String.toList h
  simp only [String.toList_append, List.append_cancel_left_eq] at h1
  exact toString_nat_inj (String.toList_inj.1 h1)

/-- There is at most one such number. -/
theorem firstMissing_unique {kwargs : Dict Fl} {base : String} {n m m' : ℕ}
    (h : IsFirstMissing kwargs base n m) (h' : IsFirstMissing kwargs base n m') : m = m' := by
  rcases lt_trichotomy m m' with hlt | he | hlt
  · exact absurd (h'.2.2 m h.1 hlt) h.2.1
  · exact he
  · exact absurd (h.2.2 m' h'.1 hlt) h'.2.1

/-- The loop of `infer_n_nodes` stops at the first missing node, for every dictionary, base name and
current number of nodes; in particular the number never decreases. -/
theorem C33_first_missing (kwargs : Dict Fl) (base : String) (n : ℕ) :
    IsFirstMissing kwargs base n (inferLoop kwargs base n) := by
  induction n using inferLoop.induct kwargs base with
  | case1 n h ih =>
    rw [inferLoop, if_pos h]
    refine ⟨by have := ih.1; omega, ih.2.1, fun k hk hk' => ?_⟩
    rcases hk.eq_or_lt with rfl | hlt
    · exact h
    · exact ih.2.2 k hlt hk'
  | case2 n h =>
    rw [inferLoop, if_neg h]
    exact ⟨le_refl _, h, fun k hk hk' => by omega⟩

/-- The loop makes at most as many steps as the dictionary has entries. -/
theorem C33_terminates (kwargs : Dict Fl) (base : String) (n : ℕ) :
    inferLoop kwargs base n ≤ n + kwargs.length := by
  obtain ⟨h1, -, h3⟩ := C33_first_missing kwargs base n
  obtain ⟨m, hm⟩ : ∃ m, m = inferLoop kwargs base n := ⟨_, rfl⟩
  rw [← hm] at h1 h3 ⊢
  have hcard : ((Finset.Ico n m).image (nodeName base)).card = m - n := by
    have hinj : Function.Injective (nodeName base) := fun a b h => append_toString_inj h
    rw [Finset.card_image_of_injective _ hinj, Nat.card_Ico]
  have hsub : (Finset.Ico n m).image (nodeName base) ⊆ kwargs.keys.toFinset := by
    intro k hk
    obtain ⟨i, hi, rfl⟩ := Finset.mem_image.1 hk
    rw [Finset.mem_Ico] at hi
    rw [List.mem_toFinset]
    exact h3 i hi.1 hi.2
  have h4 := Finset.card_le_card hsub
  have h5 := List.toFinset_card_le kwargs.keys
  have h6 : kwargs.keys.length = kwargs.length := by rw [Dict.keys, List.length_map]
  omega

theorem init_nodes {cls : SplineClass} {c : SplineConfig} {s : SplineModel} (h : init cls c = .ok s) :
    s.config = c ∧ s.cls = cls ∧ s.normSpline = none ∧ s.dataSpline = [] ∧
      s.xs = Arr.linspaceR c.minimum c.maximum (10 * c.nodes) := by
  unfold init at h
  split at h
  · cases h
  · cases h
    exact ⟨rfl, rfl, rfl, rfl, rfl⟩

theorem reinit_nodes {s s' : SplineModel} {n : ℕ} (h : s.reinit n = .ok s') :
    s'.config.nodes = n := by
  unfold reinit at h
  split at h
  · cases h
  · rw [(init_nodes h).1]
  · rw [(init_nodes h).1]

/-- After `infer_n_nodes` the instance has the number of the first missing node. -/
theorem C33_instance {s s' : SplineModel} {kwargs : Dict Fl} (h : s.inferNodes kwargs = .ok s') :
    IsFirstMissing kwargs s.base s.config.nodes s'.config.nodes := by
  have hm := C33_first_missing kwargs s.base s.config.nodes
  unfold inferNodes at h
  simp only at h
  split_ifs at h with hne
  · rw [reinit_nodes h]
    exact hm
  · cases h
    push Not at hne
    rwa [hne] at hm

/-- Five nodes configured, values for nodes 5 and 6 (and 8) in the dictionary: seven nodes are used. -/
example : inferLoop [("fa6", fin 1), ("fa5", fin 2), ("fa8", fin 0)] "a" 5 = 7 := by
  refine firstMissing_unique (C33_first_missing _ "a" 5) ⟨by norm_num, ?_, ?_⟩
  · show ¬ "fa7" ∈ _
    simp
  · intro k h1 h2
    obtain rfl | rfl : k = 5 ∨ k = 6 := by omega
    · show "fa5" ∈ _
      simp
    · show "fa6" ∈ _
      simp

/-! ## C34: the configuration after new nodes are found -/

/-- An instance made by one of the three constructors. -/
inductive Spec.Constructed : SplineModel → Prop
  | base {c s} : init .base c = .ok s → Constructed s
  | magnitude {lo hi n kind reg s} : initMagnitude lo hi n kind reg = .ok s → Constructed s
  | tilt {lo hi n kind reg s} : initTilt lo hi n kind reg = .ok s → Constructed s

/-- Finding new nodes changes the number of nodes only. -/
def C34_statement : Prop :=
  ∀ (s : SplineModel) (kwargs : Dict Fl), Constructed s →
    ∃ s', s.inferNodes kwargs = .ok s' ∧ s'.config = { s.config with nodes := s'.config.nodes }

/-- Without new nodes nothing changes. -/
theorem C34_no_new_partial {s : SplineModel} {kwargs : Dict Fl}
    (h : ¬ kwargs.contains (nodeName s.base s.config.nodes)) : s.inferNodes kwargs = .ok s := by
  unfold inferNodes
  have : inferLoop kwargs s.base s.config.nodes = s.config.nodes := by
    rw [inferLoop]
    exact if_neg h
  simp only [this, ne_eq, not_true_eq_false, if_false]

theorem inferLoop_ne {s : SplineModel} {kwargs : Dict Fl}
    (h : kwargs.contains (nodeName s.base s.config.nodes)) :
    inferLoop kwargs s.base s.config.nodes ≠ s.config.nodes := by
  intro he
  have := (C33_first_missing kwargs s.base s.config.nodes).2.1
  rw [he] at this
  exact this h

/-- An instance of the base class raises `TypeError` whenever there is a new node. -/
theorem C34_base_partial {c : SplineConfig} {s : SplineModel} (hs : init .base c = .ok s)
    {kwargs : Dict Fl} (h : kwargs.contains (nodeName s.base s.config.nodes)) :
    s.inferNodes kwargs = .error .typeError := by
  unfold inferNodes
  simp only [ne_eq, inferLoop_ne h, not_false_eq_true, if_true]
  unfold reinit
  rw [(init_nodes hs).2.1]

/-- A spin-magnitude model is reset to the range [0, 1], cubic interpolation and no regularisation
whenever there is a new node; its configuration survives exactly if it was that. -/
theorem C34_magnitude_partial {lo hi : ℝ} {n : ℕ} {kind : String} {reg : Bool} {s : SplineModel}
    (hs : initMagnitude lo hi n kind reg = .ok s) {kwargs : Dict Fl}
    (h : kwargs.contains (nodeName s.base s.config.nodes)) :
    ∃ s', s.inferNodes kwargs = .ok s' ∧ n < s'.config.nodes ∧
      s'.config = ⟨["a_1", "a_2"], 0, 1, s'.config.nodes, "cubic", false, false⟩ ∧
      (s'.config = { s.config with nodes := s'.config.nodes } ↔
        lo = 0 ∧ hi = 1 ∧ kind = "cubic" ∧ reg = false) := by
  have hc := init_nodes hs
  have hne := inferLoop_ne h
  have hlt := (C33_first_missing kwargs s.base s.config.nodes).1
  obtain ⟨m, hm⟩ : ∃ m, m = inferLoop kwargs s.base s.config.nodes := ⟨_, rfl⟩
  rw [← hm] at hne hlt
  have hn : s.config.nodes = n := by rw [hc.1]
  refine ⟨⟨.spinMagnitude, ⟨["a_1", "a_2"], 0, 1, m, "cubic", false, false⟩,
    String.ofList (pyStrip ['_', '1'] "a_1".toList), Arr.linspaceR 0 1 (10 * m), none, []⟩, ?_, ?_, rfl, ?_⟩
  · unfold inferNodes
    simp only [← hm, ne_eq, hne, not_false_eq_true, if_true]
    unfold reinit
    rw [hc.2.1]
    rfl
  · show n < m
    omega
  · rw [hc.1]
    simp only [SplineConfig.mk.injEq, true_and]
    constructor
    · rintro ⟨h1, h2, h3, h4⟩
      exact ⟨h1.symm, h2.symm, h3.symm, h4.symm⟩
    · rintro ⟨h1, h2, h3, h4⟩
      exact ⟨h1.symm, h2.symm, h3.symm, h4.symm⟩

/-- The same for the tilt model and the range [-1, 1]. -/
theorem C34_tilt_partial {lo hi : ℝ} {n : ℕ} {kind : String} {reg : Bool} {s : SplineModel}
    (hs : initTilt lo hi n kind reg = .ok s) {kwargs : Dict Fl}
    (h : kwargs.contains (nodeName s.base s.config.nodes)) :
    ∃ s', s.inferNodes kwargs = .ok s' ∧ n < s'.config.nodes ∧
      s'.config = ⟨["cos_tilt_1", "cos_tilt_2"], -1, 1, s'.config.nodes, "cubic", false, false⟩ ∧
      (s'.config = { s.config with nodes := s'.config.nodes } ↔
        lo = -1 ∧ hi = 1 ∧ kind = "cubic" ∧ reg = false) := by
  have hc := init_nodes hs
  have hne := inferLoop_ne h
  have hlt := (C33_first_missing kwargs s.base s.config.nodes).1
  obtain ⟨m, hm⟩ : ∃ m, m = inferLoop kwargs s.base s.config.nodes := ⟨_, rfl⟩
  rw [← hm] at hne hlt
  have hn : s.config.nodes = n := by rw [hc.1]
  refine ⟨⟨.spinTilt, ⟨["cos_tilt_1", "cos_tilt_2"], -1, 1, m, "cubic", false, false⟩,
    String.ofList (pyStrip ['_', '1'] "cos_tilt_1".toList), Arr.linspaceR (-1) 1 (10 * m), none, []⟩, ?_, ?_, rfl, ?_⟩
  · unfold inferNodes
    simp only [← hm, ne_eq, hne, not_false_eq_true, if_true]
    unfold reinit
    rw [hc.2.1]
    rfl
  · show n < m
    omega
  · rw [hc.1]
    simp only [SplineConfig.mk.injEq, true_and]
    constructor
    · rintro ⟨h1, h2, h3, h4⟩
      exact ⟨h1.symm, h2.symm, h3.symm, h4.symm⟩
    · rintro ⟨h1, h2, h3, h4⟩
      exact ⟨h1.symm, h2.symm, h3.symm, h4.symm⟩

/-- A regularised magnitude model with five nodes. -/
def regularisedMagnitude : SplineModel :=
  ⟨.spinMagnitude, ⟨["a_1", "a_2"], 0, 1, 5, "cubic", false, true⟩, "a", Arr.linspaceR 0 1 (10 * 5),
    none, []⟩

theorem strip_x_1 : String.ofList (pyStrip ['_', '1'] "x_1".toList) = "x" := by decide

theorem strip_a_1 : String.ofList (pyStrip ['_', '1'] "a_1".toList) = "a" := by decide

theorem regularisedMagnitude_init :
    initMagnitude 0 1 5 "cubic" true = .ok regularisedMagnitude := by
  unfold initMagnitude init regularisedMagnitude
  simp only [strip_a_1]

/-- The property fails: a sixth node switches the regularisation off. -/
theorem C34_fails : ¬ C34_statement := by
  intro H
  obtain ⟨s', h1, h2⟩ := H regularisedMagnitude [("fa5", fin 1)] (.magnitude regularisedMagnitude_init)
  obtain ⟨s'', h3, -, -, h4⟩ := C34_magnitude_partial regularisedMagnitude_init
    (kwargs := [("fa5", fin 1)]) (show "fa5" ∈ [("fa5", fin 1)].map Prod.fst by simp)
  rw [h1] at h3
  cases h3
  exact absurd (h4.1 h2).2.2.2 (by decide)

/-- The base class: three nodes, a dictionary with a fourth. -/
example : ∃ s, init .base ⟨["x_1"], 0, 1, 3, "cubic", false, false⟩ = .ok s ∧
    s.inferNodes [("fx3", fin 1)] = .error .typeError := by
  refine ⟨_, rfl, C34_base_partial (c := ⟨["x_1"], 0, 1, 3, "cubic", false, false⟩) rfl ?_⟩
  rw [strip_x_1]
  show "fx3" ∈ _
  simp

/-! ## C37: names -/

theorem count_toString (c : Char) (hc : ¬ c.isDigit) (n : ℕ) : (toString n).toList.count c = 0 := by
  rw [List.count_eq_zero]
  intro hmem
  have : c.isDigit = true := by
    have h : ∀ d ∈ (toString n).toList, d.isDigit = true := by
      intro d hd
      have hd' : d ∈ Nat.toDigits 10 n := by
        simpa [toString, Nat.repr] using hd
      exact Nat.isDigit_of_mem_toDigits (b := 10) (by norm_num) (by norm_num) hd'
    exact h c hmem
  exact hc this

/-- For every base name and number of nodes, all hyper-parameter names are different. -/
theorem C37_distinct (s : SplineModel) : s.variableNames.Nodup := by
  have hx : s.xkeys.Nodup :=
    List.Nodup.map (fun a b h => append_toString_inj h) List.nodup_range
  have hf : s.fkeys.Nodup :=
    List.Nodup.map (fun a b h => append_toString_inj h) List.nodup_range
  have hxf : List.Disjoint s.xkeys s.fkeys := by
    intro k h1 h2
    obtain ⟨i, -, hi⟩ := List.mem_map.1 h1
    obtain ⟨j, -, hj⟩ := List.mem_map.1 h2
    have h := congrArg (fun t : String => t.toList.count 'f') (hi.trans hj.symm)
    simp only [xkey, fkey, String.toList_append, List.count_append,
      count_toString 'f' (by decide)] at h
    have : ("f" : String).toList.count 'f' = 1 := by decide
    omega
  have hkeys : (s.xkeys ++ s.fkeys).Nodup := hx.append hf hxf
  unfold SplineModel.variableNames
  simp only
  split_ifs
  · refine hkeys.append (List.nodup_singleton _) ?_
    intro k h1 h2
    rw [List.mem_singleton] at h2
    subst h2
    rcases List.mem_append.1 h1 with h1 | h1
    · obtain ⟨i, -, hi⟩ := List.mem_map.1 h1
      have h := congrArg (fun t : String => t.toList.count 'r') hi
      simp only [xkey, rmsKey, String.toList_append, List.count_append,
        count_toString 'r' (by decide)] at h
      have : ("rms" : String).toList.count 'r' = 1 := by decide
      omega
    · obtain ⟨i, -, hi⟩ := List.mem_map.1 h1
      have h := congrArg (fun t : String => t.toList.head?) hi
      simp only [fkey, rmsKey, String.toList_append] at h
      have e1 : ("f" : String).toList = ['f'] := by decide
      have e2 : ("rms" : String).toList = ['r', 'm', 's'] := by decide
      rw [e1, e2] at h
      simp at h
  · exact hkeys

/-- The names are those of the documentation. -/
theorem C37_names (s : SplineModel) (k : String) : k ∈ s.variableNames ↔
    (∃ i < s.config.nodes, k = s.base ++ toString i) ∨
    (∃ i < s.config.nodes, k = "f" ++ s.base ++ toString i) ∨
    (s.config.regularize = true ∧ k = "rms" ++ s.base) := by
  have hx : k ∈ s.xkeys ↔ ∃ i < s.config.nodes, k = s.base ++ toString i := by
    unfold xkeys
    rw [List.mem_map]
    constructor
    · rintro ⟨i, hi, rfl⟩
      exact ⟨i, List.mem_range.1 hi, rfl⟩
    · rintro ⟨i, hi, rfl⟩
      exact ⟨i, List.mem_range.2 hi, rfl⟩
  have hf : k ∈ s.fkeys ↔ ∃ i < s.config.nodes, k = "f" ++ s.base ++ toString i := by
    unfold fkeys
    rw [List.mem_map]
    constructor
    · rintro ⟨i, hi, rfl⟩
      exact ⟨i, List.mem_range.1 hi, rfl⟩
    · rintro ⟨i, hi, rfl⟩
      exact ⟨i, List.mem_range.2 hi, rfl⟩
  unfold SplineModel.variableNames
  simp only
  rw [← hx, ← hf]
  split_ifs with h
  · rw [List.mem_append, List.mem_append, List.mem_singleton]
    simp [h, rmsKey, or_assoc]
  · rw [List.mem_append]
    simp [h]

theorem mapM_get_ok_iff {α : Type} {d : Dict α} {keys : List String} :
    (∃ l, keys.mapM d.get = .ok l) ↔ ∀ k ∈ keys, d.contains k := by
  induction keys with
  | nil =>
    exact ⟨fun _ k hk => absurd hk (by simp), fun _ => ⟨[], rfl⟩⟩
  | cons k keys ih =>
    rw [List.mapM_cons, List.forall_mem_cons, ← ih]
    constructor
    · rintro ⟨l, hl⟩
      rw [bind_eq_ok] at hl
      obtain ⟨a, h1, h2⟩ := hl
      rw [bind_eq_ok] at h2
      obtain ⟨l', h3, -⟩ := h2
      refine ⟨?_, l', h3⟩
      rw [← Dict.get?_isSome_iff]
      unfold Dict.get at h1
      cases hk : d.get? k with
      | none => rw [hk] at h1; cases h1
      | some v => rfl
    · rintro ⟨h1, l, hl⟩
      rw [← Dict.get?_isSome_iff] at h1
      obtain ⟨v, hv⟩ := Option.isSome_iff_exists.1 h1
      refine ⟨v :: l, ?_⟩
      have : d.get k = .ok v := by unfold Dict.get; rw [hv]
      rw [this, hl]
      rfl

/-- The nodes can be read from a dictionary exactly if it has all these names. -/
theorem C37_required (s : SplineModel) (kwargs : Dict Fl) :
    (∃ r, s.extractSplinePoints kwargs = .ok r) ↔ ∀ k ∈ s.variableNames, kwargs.contains k := by
  have hall : (∀ k ∈ s.variableNames, kwargs.contains k) ↔
      (∀ k ∈ s.fkeys, kwargs.contains k) ∧
      (s.config.regularize = true → kwargs.contains (rmsKey s.base)) ∧
      (∀ k ∈ s.xkeys, kwargs.contains k) := by
    unfold SplineModel.variableNames
    simp only
    split_ifs with h
    · simp only [List.forall_mem_append, List.forall_mem_singleton, h, true_imp_iff]
      tauto
    · simp only [List.forall_mem_append, h]
      tauto
  rw [hall, ← mapM_get_ok_iff, ← mapM_get_ok_iff]
  unfold extractSplinePoints
  constructor
  · rintro ⟨r, hr⟩
    rw [bind_eq_ok] at hr
    obtain ⟨f, hf, hr⟩ := hr
    rw [bind_eq_ok] at hr
    obtain ⟨f', hf', hr⟩ := hr
    rw [bind_eq_ok] at hr
    obtain ⟨x, hx, -⟩ := hr
    refine ⟨⟨f, hf⟩, fun hreg => ?_, ⟨x, hx⟩⟩
    unfold regularise at hf'
    rw [if_pos hreg, bind_eq_ok] at hf'
    obtain ⟨rms, h1, -⟩ := hf'
    rw [← Dict.get?_isSome_iff]
    unfold Dict.get at h1
    cases hk : kwargs.get? (rmsKey s.base) with
    | none => rw [hk] at h1; cases h1
    | some v => rfl
  · rintro ⟨⟨f, hf⟩, hreg, ⟨x, hx⟩⟩
    by_cases h : s.config.regularize = true
    · have h1 := hreg h
      rw [← Dict.get?_isSome_iff] at h1
      obtain ⟨v, hv⟩ := Option.isSome_iff_exists.1 h1
      have hv' : kwargs.get (rmsKey s.base) = .ok v := by unfold Dict.get; rw [hv]
      refine ⟨(f.map (· * rmsFactor v f), x), ?_⟩
      unfold regularise
      simp only [hf, if_pos h, hv', ok_bind, pure_eq_ok, hx]
    · refine ⟨(f, x), ?_⟩
      unfold regularise
      simp only [hf, if_neg h, ok_bind, pure_eq_ok, hx]

/-- The base name `frms`, which begins like the other names, with twelve nodes. -/
example : (SplineModel.variableNames ⟨.base, ⟨["frms_1"], 0, 1, 12, "cubic", false, true⟩, "frms", [],
    none, []⟩).Nodup := C37_distinct _

end GW
