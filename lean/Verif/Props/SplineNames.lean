import Verif.Props.SplineNodes

/-!
# C84: names of the hyper-parameters of spline models and the modelled parameter
-/

noncomputable section

open Classical

namespace GW

open Fl SplineModel

/-! ## Specification -/

/-- A character that `__init__` removes at the ends of the parameter's name. -/
def Spec.Removable (c : Char) : Prop := c = '_' ∨ c = '1'

/-- `base` is the name `p` without underscores and ones at both ends. -/
def Spec.Trimmed (p base : List Char) : Prop :=
  ∃ a c, p = a ++ base ++ c ∧ (∀ x ∈ a, Removable x) ∧ (∀ x ∈ c, Removable x) ∧
    (∀ x ∈ base.head?, ¬ Removable x) ∧ ∀ x ∈ base.getLast?, ¬ Removable x

/-- The last character is not a digit. -/
def Spec.NoFinalDigit (base : String) : Prop := ∀ x ∈ base.toList.getLast?, x.isDigit = false

open Spec

theorem mem_chars {x : Char} : x ∈ (['_', '1'] : List Char) ↔ Removable x := by
  simp [Removable]

theorem dropWhile_head {l : List Char} {x : Char} (h : x ∈ (l.dropWhile (· ∈ ['_', '1'])).head?) :
    ¬ Removable x := by
  intro hr
  have hne : l.dropWhile (· ∈ ['_', '1']) ≠ [] := by
    intro h0; rw [h0] at h; cases h
  have := List.head_dropWhile_not (· ∈ (['_', '1'] : List Char)) hne
  rw [List.head?_eq_some_head hne] at h
  cases h
  rw [decide_eq_false_iff_not] at this
  exact this (mem_chars.2 hr)

theorem takeWhile_all {l : List Char} {x : Char} (h : x ∈ l.takeWhile (· ∈ ['_', '1'])) : Removable x := by
  have := (List.all_eq_true.1 List.all_takeWhile) x h
  rw [decide_eq_true_eq] at this
  exact mem_chars.1 this

/-- The result of `strip("_1")`. -/
theorem pyStrip_trimmed (p : List Char) : Trimmed p (pyStrip ['_', '1'] p) := by
  unfold pyStrip
  set m := p.dropWhile (· ∈ ['_', '1']) with hm
  refine ⟨p.takeWhile (· ∈ ['_', '1']), (m.reverse.takeWhile (· ∈ ['_', '1'])).reverse, ?_,
    fun x hx => takeWhile_all hx, fun x hx => takeWhile_all (List.mem_reverse.1 hx), ?_, ?_⟩
  · rw [List.append_assoc, ← List.reverse_append, List.takeWhile_append_dropWhile, List.reverse_reverse,
      List.takeWhile_append_dropWhile]
  · intro x hx
    -- the first character of the result is the first one of `m`
    have : m = (m.reverse.dropWhile (· ∈ ['_', '1'])).reverse ++
        (m.reverse.takeWhile (· ∈ ['_', '1'])).reverse := by
      rw [← List.reverse_append, List.takeWhile_append_dropWhile, List.reverse_reverse]
    have hx' : x ∈ m.head? := by
      rw [this, List.head?_append]
      rw [Option.mem_def] at hx
      rw [hx]
      rfl
    exact dropWhile_head hx'
  · intro x hx
    rw [List.getLast?_reverse] at hx
    exact dropWhile_head hx

theorem trimmed_head {p base : List Char} {a c : List Char} (h : p = a ++ base ++ c)
    (ha : ∀ x ∈ a, Removable x) (hh : ∀ x ∈ base.head?, ¬ Removable x) (hne : base ≠ []) :
    p.dropWhile (· ∈ ['_', '1']) = base ++ c := by
  rw [h, List.append_assoc, List.dropWhile_append_of_pos fun x hx => decide_eq_true (mem_chars.2 (ha x hx))]
  obtain ⟨y, l, rfl⟩ := List.exists_cons_of_ne_nil hne
  rw [List.cons_append, List.dropWhile_cons_of_neg]
  have := hh y rfl
  rw [← mem_chars] at this
  simpa using this

/-- Such a part is unique if it is not empty. -/
theorem trimmed_unique {p base : List Char} (h : Trimmed p base) (hne : base ≠ []) :
    pyStrip ['_', '1'] p = base := by
  obtain ⟨a, c, hp, ha, hc, hh, hl⟩ := h
  unfold pyStrip
  rw [trimmed_head hp ha hh hne, List.reverse_append]
  rw [trimmed_head (p := c.reverse ++ base.reverse) (a := c.reverse) (c := []) (base := base.reverse)
    (by simp) (fun x hx => hc x (List.mem_reverse.1 hx)) (by rw [List.head?_reverse]; exact hl)
    (by simpa using hne)]
  simp

/-! ## C84 -/

/-- **C84, proved part**: the names are built from the name of the first parameter without underscores and ones
at its ends. -/
theorem C84_base_partial {cls : SplineClass} {c : SplineConfig} {s : SplineModel} (h : init cls c = .ok s) :
    ∃ p rest, c.parameters = p :: rest ∧ Trimmed p.toList s.base.toList := by
  unfold init at h
  split at h
  · cases h
  · rename_i p rest hp
    cases h
    refine ⟨p, rest, hp, ?_⟩
    simp only [String.toList_ofList]
    exact pyStrip_trimmed _

/-- **C84, proved part**: for parameters called `n_1` (and `n_2`), as in the package, where the name `n` does not
begin or end with `_` or `1`, the nodes are called `n0`, `n1`, … and the values `fn0`, `fn1`, …. -/
theorem C84_names_partial {cls : SplineClass} {c : SplineConfig} {s : SplineModel} (h : init cls c = .ok s)
    {n : String} {rest : List String} (hp : c.parameters = (n ++ "_1") :: rest) (hne : n ≠ "")
    (hh : ∀ x ∈ n.toList.head?, ¬ Removable x) (hl : ∀ x ∈ n.toList.getLast?, ¬ Removable x) (k : String) :
    k ∈ s.variableNames ↔ (∃ i < c.nodes, k = n ++ toString i) ∨
      (∃ i < c.nodes, k = "f" ++ n ++ toString i) ∨ (c.regularize = true ∧ k = "rms" ++ n) := by
  have hb : s.base = n := by
    unfold init at h
    split at h
    · rename_i h0; rw [h0] at hp; cases hp
    · rename_i p l hp'
      cases h
      rw [hp'] at hp
      obtain ⟨rfl, rfl⟩ := List.cons_eq_cons.1 hp
      simp only
      rw [trimmed_unique (base := n.toList) ⟨[], ['_', '1'], by simp, by simp, ?_, hh, hl⟩ ?_]
      · simp
      · simp [Removable]
      · intro h0
        exact hne (String.toList_inj.1 (by rw [h0]; rfl))
  rw [C37_names, hb, (init_nodes h).1]

theorem toString_digits (n : ℕ) : ∀ x ∈ (toString n).toList, x.isDigit = true := by
  intro x hx
  by_contra hd
  have := count_toString x (by simpa using hd) n
  rw [List.count_eq_zero] at this
  exact this hx

theorem toString_ne_nil (n : ℕ) : (toString n).toList ≠ [] := by
  intro h
  have h1 : (toString n) = "" := String.toList_inj.1 (by rw [h]; rfl)
  exact absurd h1 (by simp [toString])

theorem takeWhile_digits {u d : List Char} (hu : ∀ x ∈ u.getLast?, x.isDigit = false)
    (hd : ∀ x ∈ d, x.isDigit = true) : (u ++ d).reverse.takeWhile (·.isDigit) = d.reverse := by
  rw [List.reverse_append, List.takeWhile_append_of_pos fun x hx => hd x (List.mem_reverse.1 hx)]
  have : u.reverse.takeWhile (·.isDigit) = [] := by
    cases hr : u.reverse with
    | nil => rfl
    | cons y l =>
      have hy := hu y (by rw [← List.head?_reverse, hr]; rfl)
      rw [List.takeWhile_cons, hy]
      rfl
  rw [this, List.append_nil]

theorem append_number_inj {a b : String} (ha : NoFinalDigit a) (hb : NoFinalDigit b) {i j : ℕ}
    (h : a ++ toString i = b ++ toString j) : a = b ∧ i = j := by
  have h1 := congrArg String.toList h
  rw [String.toList_append, String.toList_append] at h1
  have h2 := congrArg (fun l => l.reverse.takeWhile (·.isDigit)) h1
  beta_reduce at h2
  rw [takeWhile_digits ha (toString_digits i), takeWhile_digits hb (toString_digits j)] at h2
  have h3 : (toString i).toList = (toString j).toList := List.reverse_injective h2
  have h4 : toString i = toString j := String.toList_inj.1 h3
  refine ⟨?_, toString_nat_inj h4⟩
  rw [h3] at h1
  exact String.toList_inj.1 (List.append_cancel_right h1)

theorem noFinalDigit_append {a b : String} (hb : NoFinalDigit b) (hne : b ≠ "") : NoFinalDigit (a ++ b) := by
  intro x hx
  rw [String.toList_append, List.getLast?_append] at hx
  have : b.toList ≠ [] := fun h0 => hne (String.toList_inj.1 (by rw [h0]; rfl))
  rw [List.getLast?_eq_some_getLast this] at hx
  apply hb x
  rw [List.getLast?_eq_some_getLast this]
  exact hx

/-- C84: two spline models for different parameters have no hyper-parameter in common. -/
def C84_statement : Prop :=
  ∀ (cls cls' : SplineClass) (c c' : SplineConfig) (s s' : SplineModel), init cls c = .ok s →
    init cls' c' = .ok s' → c.parameters.head? ≠ c'.parameters.head? →
      ∀ k ∈ s.variableNames, k ∉ s'.variableNames

/-- **C84, proved part**: exactly when two models share a name, if the trimmed names do not end with a digit:
the trimmed names are equal, or one is the other with an `f` in front. -/
theorem C84_disjoint_partial {s s' : SplineModel} (hb : NoFinalDigit s.base) (hb' : NoFinalDigit s'.base)
    (hne : s.base ≠ "") (hne' : s'.base ≠ "") (hn : 0 < s.config.nodes) (hn' : 0 < s'.config.nodes) :
    (∃ k ∈ s.variableNames, k ∈ s'.variableNames) ↔
      s.base = s'.base ∨ s.base = "f" ++ s'.base ∨ s'.base = "f" ++ s.base := by
  have hf := noFinalDigit_append (a := "f") hb hne
  have hf' := noFinalDigit_append (a := "f") hb' hne'
  have hr := noFinalDigit_append (a := "rms") hb hne
  have hr' := noFinalDigit_append (a := "rms") hb' hne'
  have hnum : ∀ {a : String} {i : ℕ}, ¬ NoFinalDigit (a ++ toString i) := by
    intro a i h
    have h0 := toString_ne_nil i
    have h1 := h ((toString i).toList.getLast h0) (by
      rw [String.toList_append, List.getLast?_append, List.getLast?_eq_some_getLast h0]
      rfl)
    rw [toString_digits i _ (List.getLast_mem h0)] at h1
    cases h1
  have hcancel : ∀ {p a b : String}, p ++ a = p ++ b → a = b := by
    intro p a b h
    have := congrArg String.toList h
    rw [String.toList_append, String.toList_append] at this
    exact String.toList_inj.1 (List.append_cancel_left this)
  constructor
  · rintro ⟨k, h1, h2⟩
    rw [C37_names] at h1 h2
    rcases h1 with ⟨i, -, rfl⟩ | ⟨i, -, rfl⟩ | ⟨-, rfl⟩ <;> rcases h2 with ⟨j, -, h⟩ | ⟨j, -, h⟩ | ⟨-, h⟩
    · exact .inl (append_number_inj hb hb' h).1
    · exact .inr (.inl (append_number_inj hb hf' h).1)
    · exact absurd (h ▸ hr') hnum
    · exact .inr (.inr (append_number_inj hf hb' h).1.symm)
    · exact .inl (hcancel (append_number_inj hf hf' h).1)
    · exact absurd (h ▸ hr') hnum
    · exact absurd (h ▸ hr) hnum
    · exact absurd (h ▸ hr) hnum
    · exact .inl (hcancel h)
  · rintro (h | h | h)
    · exact ⟨s.base ++ toString 0, (C37_names _ _).2 (.inl ⟨0, hn, rfl⟩),
        (C37_names _ _).2 (.inl ⟨0, hn', by rw [h]⟩)⟩
    · exact ⟨s.base ++ toString 0, (C37_names _ _).2 (.inl ⟨0, hn, rfl⟩),
        (C37_names _ _).2 (.inr (.inl ⟨0, hn', by rw [h]⟩))⟩
    · exact ⟨s'.base ++ toString 0, (C37_names _ _).2 (.inr (.inl ⟨0, hn, by rw [h]⟩)),
        (C37_names _ _).2 (.inl ⟨0, hn', rfl⟩)⟩

/-- **C84 is false**: models for `x_1` and for `x_11` have the same hyper-parameters. (So have, in part, models
for `a_1` and `fa_1`, by `C84_disjoint_partial`, and for `a_1` with 24 nodes and `a2_1`.) -/
theorem C84_fails : ¬ C84_statement := by
  intro h
  have h1 := h .base .base ⟨["x_1"], 0, 1, 3, "cubic", false, false⟩ ⟨["x_11"], 0, 1, 3, "cubic", false, false⟩
    _ _ rfl rfl (by decide)
  have e1 : String.ofList (pyStrip ['_', '1'] "x_11".toList) = "x" := by decide
  refine h1 ("x" ++ toString 0) ((C37_names _ _).2 (.inl ⟨0, by norm_num, ?_⟩))
    ((C37_names _ _).2 (.inl ⟨0, by norm_num, ?_⟩))
  · simp only [strip_x_1]
  · simp only [e1]

/-- The third way of sharing a name. -/
example : ∃ k, k ∈ SplineModel.variableNames ⟨.base, ⟨["a_1"], 0, 1, 24, "cubic", false, false⟩, "a", [],
    none, []⟩ ∧ k ∈ SplineModel.variableNames ⟨.base, ⟨["a2_1"], 0, 1, 4, "cubic", false, false⟩, "a2", [],
    none, []⟩ :=
  ⟨"a23", (C37_names _ _).2 (.inl ⟨23, by norm_num, by decide⟩),
    (C37_names _ _).2 (.inl ⟨3, by norm_num, by decide⟩)⟩

theorem strip_tilt_name : String.ofList (pyStrip ['_', '1'] "cos_tilt_1".toList) = "cos_tilt" := by decide

/-- The package's models for spin magnitude and tilt share no names. -/
example {s s' : SplineModel} {n n' : ℕ} (h : initMagnitude 0 1 (n + 1) "cubic" false = .ok s)
    (h' : initTilt (-1) 1 (n' + 1) "cubic" false = .ok s') : ¬ ∃ k ∈ s.variableNames, k ∈ s'.variableNames := by
  have e1 : s.base = "a" := by
    cases h
    exact strip_a_1
  have e2 : s'.base = "cos_tilt" := by
    cases h'
    exact strip_tilt_name
  have hn : s.config.nodes = n + 1 := by cases h; rfl
  have hn' : s'.config.nodes = n' + 1 := by cases h'; rfl
  rw [C84_disjoint_partial (by rw [e1]; intro x hx; revert hx; simp; rintro rfl; decide)
    (by rw [e2]; intro x hx; revert hx; simp; rintro rfl; decide) (by rw [e1]; decide)
    (by rw [e2]; decide) (by omega) (by omega), e1, e2]
  decide

end GW
