import Verif.Model.Backend

/-!
# C14, C15, C16: switching the array backend
-/

noncomputable section

open Classical

namespace GW

namespace Spec

/-- The name of the array module a user expects for each backend. -/
def arrayModule : Backend → List Char
  | .numpy => "numpy".toList
  | .cupy => "cupy".toList
  | .jax => "jax.numpy".toList

/-- The name of the scipy-like package a user expects for each backend. -/
def scipyPackage : Backend → List Char
  | .numpy => "scipy".toList
  | .cupy => "cupyx.scipy".toList
  | .jax => "jax.scipy".toList

/-- The name of a backend. -/
def backendName : Backend → String
  | .numpy => "numpy"
  | .cupy => "cupy"
  | .jax => "jax"

/-- Every registered module uses backend `b`. -/
structure UsesBackend (r : Registry) (b : Backend) (st : BState) : Prop where
  active : st.backend = some b
  xp : ∀ m ∈ r.xp, st.bind m "xp" = some (.mod (arrayModule b))
  scs : ∀ m ∈ r.scs, st.bind m "scs" = some (.attr (scipyPackage b) "special".toList)

/-- No registered extra function is itself called `xp` or `scs`. -/
def NoClash (r : Registry) : Prop :=
  ∀ e ∈ r.other, String.ofList (pyLastComponent e.2.toList) ≠ "xp" ∧
    String.ofList (pyLastComponent e.2.toList) ≠ "scs"

/-- The attribute `n` of module `m` is one that `set_backend` is asked to manage. -/
def Registered (r : Registry) (m n : String) : Prop :=
  (n = "xp" ∧ m ∈ r.xp) ∨ (n = "scs" ∧ m ∈ r.scs) ∨
    ∃ e ∈ r.other, e.1 = m ∧ String.ofList (pyLastComponent e.2.toList) = n

/-- In this environment every registered module can be imported and every registered function
found, for every backend. -/
def RegisteredImport (r : Registry) (env : BEnv) : Prop :=
  (∀ m ∈ r.xp, env.imp m.toList = none) ∧ (∀ m ∈ r.scs, env.imp m.toList = none) ∧
  (∀ e ∈ r.other, env.imp e.1.toList = none ∧ ∀ b, ∃ v, loadArbitrary env e.2.toList b = .ok v)

end Spec

open Spec

theorem npModule_eq (b : Backend) : npModule b = arrayModule b := by cases b <;> rfl
theorem scipyModule_eq (b : Backend) : scipyModule b = scipyPackage b := by cases b <;> rfl

theorem parseBackend_name (b : Backend) : parseBackend (backendName b) = some b := by
  cases b <;> rfl

theorem parseBackend_some {s : String} {b : Backend} (h : parseBackend s = some b) :
    s = backendName b := by
  unfold parseBackend at h
  split_ifs at h with h1 h2 h3 <;> cases h <;> assumption

/-! ### The loops -/

theorem forEach_bindIn_ok (env : BEnv) (name : String) (v : Bound) :
    ∀ (l : List String) (st st' : BState), forEach (bindIn env name v) l st = (st', none) →
      st' = { st with bind := fun m n => if n = name ∧ m ∈ l then some v else st.bind m n } := by
  intro l
  induction l with
  | nil => intro st st' h; cases h; simp
  | cons a l ih =>
    intro st st' h
    unfold forEach bindIn at h
    cases ha : env.imp a.toList with
    | some e => rw [ha] at h; cases h
    | none =>
      rw [ha] at h
      rw [ih _ _ h]
      simp only [BState.setattr]
      congr 1
      funext m n
      by_cases h1 : n = name ∧ m ∈ l
      · simp [h1]
      · by_cases h2 : m = a ∧ n = name
        · simp [h2]
        · have h3 : ¬ (n = name ∧ m ∈ a :: l) := by
            rintro ⟨e1, e2⟩
            rcases List.mem_cons.1 e2 with e | e
            · exact h2 ⟨e, e1⟩
            · exact h1 ⟨e1, e⟩
          rw [if_neg h1, if_neg h2, if_neg h3]

theorem forEach_bindIn_succeeds (env : BEnv) (name : String) (v : Bound) :
    ∀ (l : List String) (st : BState), (∀ m ∈ l, env.imp m.toList = none) →
      (forEach (bindIn env name v) l st).2 = none := by
  intro l
  induction l with
  | nil => intro st _; rfl
  | cons a l ih =>
    intro st h
    unfold forEach bindIn
    rw [h a List.mem_cons_self]
    exact ih _ (fun m hm => h m (List.mem_cons_of_mem _ hm))

/-- Whatever happens, one of the first two loops binds only `name`, only in listed modules, and
only to `v`. -/
theorem forEach_bindIn_frame (env : BEnv) (name : String) (v : Bound) :
    ∀ (l : List String) (st : BState),
      (forEach (bindIn env name v) l st).1.backend = st.backend ∧
      (forEach (bindIn env name v) l st).1.x64 = st.x64 ∧
      ∀ m n, (forEach (bindIn env name v) l st).1.bind m n = st.bind m n ∨
        (n = name ∧ m ∈ l ∧ (forEach (bindIn env name v) l st).1.bind m n = some v) := by
  intro l
  induction l with
  | nil => intro st; exact ⟨rfl, rfl, fun m n => Or.inl rfl⟩
  | cons a l ih =>
    intro st
    unfold forEach bindIn
    cases ha : env.imp a.toList with
    | some e => exact ⟨rfl, rfl, fun m n => Or.inl rfl⟩
    | none =>
      obtain ⟨i1, i2, i3⟩ := ih (st.setattr a name v)
      refine ⟨i1, i2, fun m n => ?_⟩
      rcases i3 m n with h | ⟨h1, h2, h3⟩
      · by_cases h2 : m = a ∧ n = name
        · refine Or.inr ⟨h2.2, by simp [h2.1], ?_⟩
          refine h.trans ?_
          simp [BState.setattr, h2]
        · refine Or.inl (h.trans ?_)
          simp [BState.setattr, h2]
      · exact Or.inr ⟨h1, List.mem_cons_of_mem _ h2, h3⟩

/-- The last component of a function path as an attribute name. -/
def attrName (f : String) : String := String.ofList (pyLastComponent f.toList)

theorem forEach_bindOther_frame (env : BEnv) (b : Backend) :
    ∀ (l : Dict String) (st : BState),
      (forEach (bindOther env b) l st).1.backend = st.backend ∧
      (forEach (bindOther env b) l st).1.x64 = st.x64 ∧
      ∀ m n, (∀ e ∈ l, ¬ (e.1 = m ∧ attrName e.2 = n)) →
        (forEach (bindOther env b) l st).1.bind m n = st.bind m n := by
  intro l
  induction l with
  | nil => intro st; exact ⟨rfl, rfl, fun m n _ => rfl⟩
  | cons a l ih =>
    intro st
    unfold forEach bindOther
    cases ha : env.imp a.1.toList with
    | some e => exact ⟨rfl, rfl, fun m n _ => rfl⟩
    | none =>
      cases hl : loadArbitrary env a.2.toList b with
      | error e => simp
      | ok v =>
        obtain ⟨i1, i2, i3⟩ := ih (st.setattr a.1 (attrName a.2) v)
        refine ⟨i1, i2, fun m n h => ?_⟩
        refine (i3 m n (fun e he => h e (List.mem_cons_of_mem _ he))).trans ?_
        have := h a List.mem_cons_self
        simp only [BState.setattr]
        rw [if_neg]
        rintro ⟨h1, h2⟩
        exact this ⟨h1.symm, h2.symm⟩

theorem forEach_bindOther_ok (env : BEnv) (b : Backend) :
    ∀ (l : Dict String) (st st' : BState), l.keys.Nodup →
      forEach (bindOther env b) l st = (st', none) →
      ∀ e ∈ l, ∃ v, loadArbitrary env e.2.toList b = .ok v ∧
        st'.bind e.1 (attrName e.2) = some v := by
  intro l
  induction l with
  | nil => intro st st' _ _ e he; cases he
  | cons a l ih =>
    intro st st' hn h e he
    rw [Dict.keys, List.map_cons, List.nodup_cons] at hn
    unfold forEach bindOther at h
    cases ha : env.imp a.1.toList with
    | some er => rw [ha] at h; cases h
    | none =>
      rw [ha] at h
      cases hl : loadArbitrary env a.2.toList b with
      | error er => rw [hl] at h; cases h
      | ok v =>
        rw [hl] at h
        rcases List.mem_cons.1 he with rfl | he
        · refine ⟨v, hl, ?_⟩
          have hf := (forEach_bindOther_frame env b l (st.setattr e.1 (attrName e.2) v)).2.2
            e.1 (attrName e.2) (fun e' he' hh => hn.1 (by
              rw [← hh.1]; exact List.mem_map_of_mem he'))
          have h' : (forEach (bindOther env b) l (st.setattr e.1 (attrName e.2) v)).1 = st' := by
            have := congrArg Prod.fst h
            exact this
          rw [h'] at hf
          rw [hf]
          simp [BState.setattr]
        · exact ih _ _ hn.2 h e he

theorem forEach_bindOther_succeeds (env : BEnv) (b : Backend) :
    ∀ (l : Dict String) (st : BState),
      (∀ e ∈ l, env.imp e.1.toList = none ∧ ∃ v, loadArbitrary env e.2.toList b = .ok v) →
      (forEach (bindOther env b) l st).2 = none := by
  intro l
  induction l with
  | nil => intro st _; rfl
  | cons a l ih =>
    intro st h
    obtain ⟨h1, v, h2⟩ := h a List.mem_cons_self
    unfold forEach bindOther
    rw [h1, h2]
    exact ih _ (fun m hm => h m (List.mem_cons_of_mem _ hm))

/-! ### The registry dictionary -/

theorem Dict.keys_set {α : Type} (d : Dict α) (k : String) (v : α) :
    (Dict.set d k v).keys = if k ∈ d.keys then d.keys else d.keys ++ [k] := by
  induction d with
  | nil => simp [Dict.set, Dict.keys]
  | cons p d ih =>
    obtain ⟨a, b⟩ := p
    unfold Dict.set
    by_cases h : a = k
    · subst h; simp [Dict.keys]
    · have h' : k ≠ a := fun e => h e.symm
      simp only [Dict.keys] at ih
      rw [if_neg h]
      simp only [Dict.keys, List.map_cons, ih, List.mem_cons, h', false_or]
      split_ifs <;> simp [*]

theorem Dict.nodup_set {α : Type} {d : Dict α} (h : d.keys.Nodup) (k : String) (v : α) :
    (Dict.set d k v).keys.Nodup := by
  rw [Dict.keys_set]
  split_ifs with hk
  · exact h
  · rw [List.nodup_append]
    refine ⟨h, by simp, ?_⟩
    intro a ha b hb e
    simp at hb; subst hb; subst e; exact hk ha

theorem Dict.mem_iff_get? {α : Type} {d : Dict α} (h : d.keys.Nodup) (k : String) (v : α) :
    (k, v) ∈ d ↔ Dict.get? d k = some v := by
  induction d with
  | nil => simp
  | cons p d ih =>
    obtain ⟨a, b⟩ := p
    rw [Dict.keys, List.map_cons, List.nodup_cons] at h
    rw [Dict.get?_cons, List.mem_cons]
    by_cases hk : k = a
    · subst hk
      rw [if_pos rfl]
      constructor
      · rintro (e | e)
        · cases e; rfl
        · exact absurd (List.mem_map_of_mem (f := Prod.fst) e) h.1
      · intro e; cases e; exact Or.inl rfl
    · rw [if_neg hk, ← ih h.2]
      constructor
      · rintro (e | e)
        · cases e; exact absurd rfl hk
        · exact e
      · exact Or.inr

theorem others_fold_nodup (l : List (String × String)) : ∀ d : Dict String, d.keys.Nodup →
    (l.foldl (fun d e => Dict.set d e.1 e.2) d).keys.Nodup := by
  induction l with
  | nil => intro d h; exact h
  | cons a l ih => intro d h; exact ih _ (Dict.nodup_set h _ _)

theorem others_nodup (r : Registry) : r.others.keys.Nodup :=
  others_fold_nodup r.other [] (by simp [Dict.keys])

theorem others_fold_get (l : List (String × String)) : ∀ (d : Dict String) (m f : String),
    Dict.get? (l.foldl (fun d e => Dict.set d e.1 e.2) d) m = some f →
    (m, f) ∈ l ∨ Dict.get? d m = some f := by
  induction l with
  | nil => intro d m f h; exact Or.inr h
  | cons a l ih =>
    intro d m f h
    rcases ih _ _ _ h with h | h
    · exact Or.inl (List.mem_cons_of_mem _ h)
    · rw [Dict.get?_set] at h
      by_cases hm : m = a.1
      · rw [if_pos hm] at h
        cases h
        left; rw [hm]; exact List.mem_cons_self
      · rw [if_neg hm] at h; exact Or.inr h

theorem others_mem (r : Registry) {e : String × String} (h : e ∈ r.others) : e ∈ r.other := by
  obtain ⟨m, f⟩ := e
  rw [Dict.mem_iff_get? (others_nodup r)] at h
  rcases others_fold_get r.other [] m f h with h | h
  · exact h
  · simp at h

/-- The last entry of a module is the one kept. -/
theorem others_last (r : Registry) (l₁ l₂ : List (String × String)) (m f : String)
    (h : r.other = l₁ ++ (m, f) :: l₂) (hl : ∀ e ∈ l₂, e.1 ≠ m) : (m, f) ∈ r.others := by
  rw [Dict.mem_iff_get? (others_nodup r), Registry.others, h, List.foldl_append, List.foldl_cons]
  generalize l₁.foldl (fun d e => Dict.set d e.1 e.2) [] = d
  have : ∀ d' : Dict String, Dict.get? d' m = some f →
      Dict.get? (l₂.foldl (fun d e => Dict.set d e.1 e.2) d') m = some f := by
    clear h
    induction l₂ with
    | nil => intro d' h; exact h
    | cons a l ih =>
      intro d' h
      refine ih (fun e he => hl e (List.mem_cons_of_mem _ he)) _ ?_
      rw [Dict.get?_set, if_neg (fun e => hl a List.mem_cons_self e.symm), h]
  exact this _ (by rw [Dict.get?_set, if_pos rfl])

/-! ### One call -/

theorem loadNumpyAndScipy_ok {env : BEnv} {b : Backend} {xp scs : Bound} {f : Bool}
    (h : loadNumpyAndScipy env b = .ok (xp, scs, f)) :
    xp = .mod (arrayModule b) ∧ scs = .attr (scipyPackage b) "special".toList ∧
      f = decide (b = .jax) := by
  unfold loadNumpyAndScipy at h
  obtain ⟨_, -, h⟩ := bind_eq_ok.1 h
  obtain ⟨s, hs, h⟩ := bind_eq_ok.1 h
  unfold BEnv.getattr at hs
  obtain ⟨_, -, hs⟩ := bind_eq_ok.1 hs
  split_ifs at hs
  cases hs
  by_cases hb : b = .jax
  · rw [if_pos hb] at h
    obtain ⟨_, -, h⟩ := bind_eq_ok.1 h
    cases h
    exact ⟨by rw [npModule_eq], by rw [scipyModule_eq], by simp [hb]⟩
  · rw [if_neg hb] at h
    cases h
    exact ⟨by rw [npModule_eq], by rw [scipyModule_eq], by simp [hb]⟩

theorem andThen_none {f g : BM} {st st' : BState} (h : BM.andThen f g st = (st', none)) :
    ∃ s, f st = (s, none) ∧ g s = (st', none) := by
  unfold BM.andThen at h
  rcases hf : f st with ⟨s, _ | e⟩
  · rw [hf] at h; exact ⟨s, rfl, h⟩
  · rw [hf] at h; cases h

/-- The effect of a call that switches the backend and returns normally. -/
theorem setBackend_ok {r : Registry} {env : BEnv} {name : String} {b : Backend} {st st' : BState}
    (hb : parseBackend name = some b) (hne : st.backend ≠ some b)
    (h : setBackend r env name st = (st', none)) :
    st'.backend = some b ∧ st'.x64 = (st.x64 || decide (b = .jax)) ∧
    (∀ e ∈ r.others, ∃ v, loadArbitrary env e.2.toList b = .ok v ∧
        st'.bind e.1 (attrName e.2) = some v) ∧
    (∀ m n, (∀ e ∈ r.others, ¬ (e.1 = m ∧ attrName e.2 = n)) →
      st'.bind m n =
        if n = "scs" ∧ m ∈ r.scs then some (.attr (scipyPackage b) "special".toList)
        else if n = "xp" ∧ m ∈ r.xp then some (.mod (arrayModule b)) else st.bind m n) := by
  unfold setBackend at h
  simp only [hb] at h
  rw [if_neg hne] at h
  cases hl : loadNumpyAndScipy env b with
  | error e => rw [hl] at h; cases h
  | ok t =>
    obtain ⟨xp, scs, f⟩ := t
    rw [hl] at h
    obtain ⟨rfl, rfl, rfl⟩ := loadNumpyAndScipy_ok hl
    obtain ⟨s1, h1, h⟩ := andThen_none h
    obtain ⟨s2, h2, h3⟩ := andThen_none h
    have e1 := forEach_bindIn_ok _ _ _ _ _ _ h1
    have e2 := forEach_bindIn_ok _ _ _ _ _ _ h2
    obtain ⟨f1, f2, f3⟩ := forEach_bindOther_frame env b r.others s2
    rw [h3] at f1 f2 f3
    refine ⟨?_, ?_, forEach_bindOther_ok env b _ _ _ (others_nodup r) h3, ?_⟩
    · rw [f1, e2, e1]
    · rw [f2, e2, e1]
    · intro m n hmn
      rw [f3 m n hmn, e2, e1]

theorem noClash_others {r : Registry} (hc : NoClash r) {n : String} (hn : n = "xp" ∨ n = "scs")
    (m : String) : ∀ e ∈ r.others, ¬ (e.1 = m ∧ attrName e.2 = n) := by
  rintro e he ⟨-, h⟩
  have := hc e (others_mem r he)
  rcases hn with rfl | rfl
  · exact this.1 h
  · exact this.2 h

theorem setBackend_uses {r : Registry} (hc : NoClash r) {env : BEnv} {name : String} {b : Backend}
    {st st' : BState} (hb : parseBackend name = some b) (hne : st.backend ≠ some b)
    (h : setBackend r env name st = (st', none)) : UsesBackend r b st' := by
  obtain ⟨h1, -, -, h4⟩ := setBackend_ok hb hne h
  refine ⟨h1, fun m hm => ?_, fun m hm => ?_⟩
  · rw [h4 m "xp" (noClash_others hc (Or.inl rfl) m), if_neg (by simp), if_pos ⟨rfl, hm⟩]
  · rw [h4 m "scs" (noClash_others hc (Or.inr rfl) m), if_pos ⟨rfl, hm⟩]

/-- A call in an environment where the registered modules import either returns normally or does
not change anything. -/
theorem setBackend_atomic {r : Registry} {env : BEnv} (he : RegisteredImport r env)
    (name : String) (st : BState) :
    (setBackend r env name st).2 = none ∨ (setBackend r env name st).1 = st := by
  unfold setBackend
  cases hb : parseBackend name with
  | none => exact Or.inr rfl
  | some b =>
    simp only
    by_cases hs : st.backend = some b
    · rw [if_pos hs]; exact Or.inr rfl
    · rw [if_neg hs]
      cases hl : loadNumpyAndScipy env b with
      | error e => exact Or.inr rfl
      | ok t =>
        obtain ⟨xp, scs, f⟩ := t
        left
        simp only
        generalize ({ st with backend := some b, x64 := st.x64 || f } : BState) = s0
        have h1 := forEach_bindIn_succeeds env "xp" xp r.xp s0 he.1
        unfold BM.andThen
        rcases q1 : forEach (bindIn env "xp" xp) r.xp s0 with ⟨s1, _ | e⟩
        swap
        · rw [q1] at h1; cases h1
        have h2 := forEach_bindIn_succeeds env "scs" scs r.scs s1 he.2.1
        simp only
        rcases q2 : forEach (bindIn env "scs" scs) r.scs s1 with ⟨s2, _ | e⟩
        swap
        · rw [q2] at h2; cases h2
        exact forEach_bindOther_succeeds env b r.others s2 (fun e h =>
          ⟨(he.2.2 e (others_mem r h)).1, (he.2.2 e (others_mem r h)).2 b⟩)

/-! ## C14 -/

theorem runHistory_inv (r : Registry) (hc : NoClash r) :
    ∀ (hist : List (BEnv × String)), (∀ c ∈ hist, RegisteredImport r c.1) →
      ∀ st : BState, (∀ b, st.backend = some b → UsesBackend r b st ∧ (b = .jax → st.x64 = true)) →
      ∀ b, (runHistory r hist st).backend = some b → UsesBackend r b (runHistory r hist st) ∧
        (b = .jax → (runHistory r hist st).x64 = true) := by
  intro hist
  induction hist with
  | nil => intro _ st h; exact h
  | cons c hist ih =>
    obtain ⟨env, name⟩ := c
    intro hh st hst
    unfold runHistory
    refine ih (fun c hc => hh c (List.mem_cons_of_mem _ hc)) _ ?_
    rcases setBackend_atomic (hh (env, name) List.mem_cons_self) name st with h | h
    · have he : setBackend r env name st = ((setBackend r env name st).1, none) :=
        Prod.ext rfl h
      cases hb : parseBackend name with
      | none =>
        unfold setBackend at he
        simp only [hb] at he
        cases he
      | some b0 =>
        by_cases hs : st.backend = some b0
        · have : (setBackend r env name st).1 = st := by
            unfold setBackend; simp only [hb]; rw [if_pos hs]
          rw [this]; exact hst
        · intro b hb'
          have hu := setBackend_uses hc hb hs he
          have : b = b0 := by
            have := hu.active
            rw [hb'] at this
            cases this; rfl
          subst this
          refine ⟨hu, fun hj => ?_⟩
          rw [(setBackend_ok hb hs he).2.1]
          simp [hj]
    · rw [h]; exact hst

/-- **C14.** After any history of `set_backend` calls (in environments where the registered
modules import; numpy, cupy or jax may be missing or broken in each of them), if the next call
returns normally then its argument names a backend `b` and every registered module uses `b`;
jax's 64-bit mode is on if `b` is jax. -/
theorem C14_setBackend_history (r : Registry) (hc : NoClash r)
    (bind : String → String → Option Bound) (hist : List (BEnv × String))
    (hh : ∀ c ∈ hist, RegisteredImport r c.1) (env : BEnv) (name : String) (st' : BState)
    (h : setBackend r env name (runHistory r hist (BState.initial bind)) = (st', none)) :
    ∃ b, name = backendName b ∧ UsesBackend r b st' ∧ (b = .jax → st'.x64 = true) := by
  cases hb : parseBackend name with
  | none =>
    unfold setBackend at h
    simp only [hb] at h
    cases h
  | some b =>
    refine ⟨b, parseBackend_some hb, ?_⟩
    by_cases hs : (runHistory r hist (BState.initial bind)).backend = some b
    · have : st' = runHistory r hist (BState.initial bind) := by
        unfold setBackend at h
        simp only [hb] at h
        rw [if_pos hs] at h
        cases h; rfl
      rw [this]
      exact runHistory_inv r hc hist hh _ (by simp [BState.initial]) b hs
    · refine ⟨setBackend_uses hc hb hs h, fun hj => ?_⟩
      rw [(setBackend_ok hb hs h).2.1]
      simp [hj]

/-- **C14.** Requesting the active backend again changes nothing and cannot fail. -/
theorem C14_setBackend_same (r : Registry) (env : BEnv) (b : Backend) (st : BState)
    (h : st.backend = some b) : setBackend r env (backendName b) st = (st, none) := by
  unfold setBackend
  simp only [parseBackend_name]
  rw [if_pos h]

theorem loadArbitrary_unique {env env' : BEnv} {f : List Char} {b : Backend} {v v' : Bound}
    (h : loadArbitrary env f b = .ok v) (h' : loadArbitrary env' f b = .ok v') : v = v' := by
  unfold loadArbitrary at h h'
  cases hp : pyRsplit (translatePath f b) with
  | none => rw [hp] at h; cases h
  | some p =>
    obtain ⟨m, n⟩ := p
    rw [hp] at h h'
    unfold BEnv.getattr at h h'
    obtain ⟨_, -, h⟩ := bind_eq_ok.1 h
    obtain ⟨_, -, h'⟩ := bind_eq_ok.1 h'
    split_ifs at h h'
    cases h; cases h'; rfl

/-- **C14.** Switching to another backend and back restores every module attribute of every
module, registered or not. -/
theorem C14_setBackend_back (r : Registry) (env₀ env₁ env₂ : BEnv)
    (b b' : Backend) (hbb : b ≠ b') (st₀ st st₁ st₂ : BState) (h₀ : st₀.backend ≠ some b)
    (hst : setBackend r env₀ (backendName b) st₀ = (st, none))
    (h₁ : setBackend r env₁ (backendName b') st = (st₁, none))
    (h₂ : setBackend r env₂ (backendName b) st₁ = (st₂, none)) :
    ∀ m n, st₂.bind m n = st.bind m n := by
  obtain ⟨a1, -, a3, a4⟩ := setBackend_ok (parseBackend_name b) h₀ hst
  have h1' : st.backend ≠ some b' := by rw [a1]; intro h; cases h; exact hbb rfl
  obtain ⟨b1, -, b3, b4⟩ := setBackend_ok (parseBackend_name b') h1' h₁
  have h2' : st₁.backend ≠ some b := by rw [b1]; intro h; cases h; exact hbb rfl
  obtain ⟨c1, -, c3, c4⟩ := setBackend_ok (parseBackend_name b) h2' h₂
  intro m n
  by_cases hmn : ∃ e ∈ r.others, e.1 = m ∧ attrName e.2 = n
  · obtain ⟨e, he, rfl, rfl⟩ := hmn
    obtain ⟨v, hv, hv'⟩ := a3 e he
    obtain ⟨w, hw, hw'⟩ := c3 e he
    rw [hv', hw', loadArbitrary_unique hv hw]
  · have hmn' : ∀ e ∈ r.others, ¬ (e.1 = m ∧ attrName e.2 = n) := by
      intro e he h; exact hmn ⟨e, he, h⟩
    rw [c4 m n hmn', a4 m n hmn', b4 m n hmn', a4 m n hmn']
    split_ifs <;> rfl

/-- **C14.** No call ever touches an attribute that is not registered. -/
theorem C14_setBackend_frame (r : Registry) (env : BEnv) (name : String) (st : BState)
    (m n : String) (h : ¬ Registered r m n) :
    (setBackend r env name st).1.bind m n = st.bind m n := by
  have hx : ¬ (n = "xp" ∧ m ∈ r.xp) := fun e => h (Or.inl e)
  have hs : ¬ (n = "scs" ∧ m ∈ r.scs) := fun e => h (Or.inr (Or.inl e))
  have ho : ∀ e ∈ r.others, ¬ (e.1 = m ∧ attrName e.2 = n) :=
    fun e he e' => h (Or.inr (Or.inr ⟨e, others_mem r he, e'⟩))
  unfold setBackend
  cases hb : parseBackend name with
  | none => rfl
  | some b =>
    simp only
    by_cases hsb : st.backend = some b
    · rw [if_pos hsb]
    · rw [if_neg hsb]
      cases hl : loadNumpyAndScipy env b with
      | error e => rfl
      | ok t =>
        obtain ⟨xp, scs, f⟩ := t
        simp only
        have h0 : st.bind m n =
          ({ st with backend := some b, x64 := st.x64 || f } : BState).bind m n := rfl
        rw [h0]
        generalize ({ st with backend := some b, x64 := st.x64 || f } : BState) = s0
        have g1 := (forEach_bindIn_frame env "xp" xp r.xp s0).2.2 m n
        unfold BM.andThen
        rcases q1 : forEach (bindIn env "xp" xp) r.xp s0 with ⟨s1, _ | e⟩ <;> rw [q1] at g1
        · have g1' : s1.bind m n = s0.bind m n := by
            rcases g1 with g | ⟨a, c, -⟩
            · exact g
            · exact absurd ⟨a, c⟩ hx
          have g2 := (forEach_bindIn_frame env "scs" scs r.scs s1).2.2 m n
          simp only
          rcases q2 : forEach (bindIn env "scs" scs) r.scs s1 with ⟨s2, _ | e⟩ <;> rw [q2] at g2
          · have g2' : s2.bind m n = s1.bind m n := by
              rcases g2 with g | ⟨a, c, -⟩
              · exact g
              · exact absurd ⟨a, c⟩ hs
            simp only
            rw [(forEach_bindOther_frame env b r.others s2).2.2 m n ho, g2', g1']
          · rcases g2 with g | ⟨a, c, -⟩
            · exact g.trans g1'
            · exact absurd ⟨a, c⟩ hs
        · rcases g1 with g | ⟨a, c, -⟩
          · exact g
          · exact absurd ⟨a, c⟩ hx

/-- The registry of the package itself (`pyproject.toml:45-57`). -/
def gwRegistry : Registry where
  xp := ["gwpopulation.hyperpe", "gwpopulation.models.interped", "gwpopulation.models.mass",
    "gwpopulation.models.redshift", "gwpopulation.models.spin", "gwpopulation.utils",
    "gwpopulation.vt", "gwpopulation.experimental.cosmo_models"]
  scs := ["gwpopulation.models.mass", "gwpopulation.utils"]
  other := []

/-- An environment in which everything imports. -/
def goodEnv : BEnv := ⟨fun _ => none, fun _ _ => True⟩

/-- An environment in which cupy is not installed. -/
def noCupyEnv : BEnv :=
  ⟨fun m => if m = "cupy".toList then some .moduleNotFound else none, fun _ _ => True⟩

theorem getattr_good (m f : List Char) : goodEnv.getattr m f = .ok (.attr m f) := by
  unfold BEnv.getattr BEnv.importModule goodEnv
  simp only [if_true]; rfl

theorem loadNumpyAndScipy_good (b : Backend) : loadNumpyAndScipy goodEnv b =
    .ok (.mod (npModule b), .attr (scipyModule b) "special".toList, decide (b = .jax)) := by
  unfold loadNumpyAndScipy BEnv.getattr BEnv.importModule goodEnv
  simp only [if_true]
  by_cases h : b = .jax
  · simp only [h, decide_true]; rfl
  · simp only [h, decide_false]; rfl

theorem setBackend_good (r : Registry) (ho : r.other = []) (b : Backend) (st : BState) :
    (setBackend r goodEnv (backendName b) st).2 = none := by
  rcases setBackend_atomic (r := r) (env := goodEnv)
    ⟨fun _ _ => rfl, fun _ _ => rfl, by simp [ho]⟩ (backendName b) st with h | h
  · exact h
  · by_cases hs : st.backend = some b
    · rw [C14_setBackend_same _ _ _ _ hs]
    · unfold setBackend at h ⊢
      simp only [parseBackend_name, loadNumpyAndScipy_good] at h ⊢
      rw [if_neg hs] at h ⊢
      have hoo : r.others = [] := by simp [Registry.others, ho]
      unfold BM.andThen
      generalize ({ st with backend := some b, x64 := st.x64 || decide (b = .jax) } : BState) = s0
      have h1 := forEach_bindIn_succeeds goodEnv "xp" (.mod (npModule b)) r.xp s0 (fun _ _ => rfl)
      rcases q1 : forEach (bindIn goodEnv "xp" (.mod (npModule b))) r.xp s0 with ⟨s1, _ | e⟩
      swap
      · rw [q1] at h1; cases h1
      simp only
      have h2 := forEach_bindIn_succeeds goodEnv "scs"
        (.attr (scipyModule b) "special".toList) r.scs s1 (fun _ _ => rfl)
      rcases q2 : forEach (bindIn goodEnv "scs" (.attr (scipyModule b) "special".toList)) r.scs s1
        with ⟨s2, _ | e⟩
      swap
      · rw [q2] at h2; cases h2
      simp only [hoo]
      rfl

/-- Non-vacuity of C14: the package's own registry has no clash, its modules import, and a call
after a failed one returns normally. -/
example : NoClash gwRegistry ∧ RegisteredImport gwRegistry goodEnv ∧
    RegisteredImport gwRegistry noCupyEnv ∧
    ∃ st', setBackend gwRegistry goodEnv "jax"
      (runHistory gwRegistry [(goodEnv, "numpy"), (noCupyEnv, "cupy")]
        (BState.initial (fun _ _ => none))) = (st', none) := by
  have key : ∀ st, ∃ st', setBackend gwRegistry goodEnv "jax" st = (st', none) :=
    fun st => ⟨_, Prod.ext rfl (setBackend_good gwRegistry rfl .jax st)⟩
  refine ⟨by simp [NoClash, gwRegistry], ⟨fun _ _ => rfl, fun _ _ => rfl, by simp [gwRegistry]⟩,
    ⟨?_, ?_, by simp [gwRegistry]⟩, key _⟩
  · intro m hm
    simp only [gwRegistry, List.mem_cons, List.not_mem_nil, or_false] at hm
    rcases hm with rfl | rfl | rfl | rfl | rfl | rfl | rfl | rfl <;> simp [noCupyEnv]
  · intro m hm
    simp only [gwRegistry, List.mem_cons, List.not_mem_nil, or_false] at hm
    rcases hm with rfl | rfl <;> simp [noCupyEnv]

/-! ## C15 -/

/-- **C15, full statement.** A raising call leaves everything as it was, and a later call for the
same backend that returns normally installs that backend completely. -/
def C15_statement : Prop :=
  ∀ (r : Registry) (env env' : BEnv) (name : String) (st st' st'' : BState) (e : PyErr),
    NoClash r →
    (∀ b, st.backend = some b → UsesBackend r b st) →
    setBackend r env name st = (st', some e) →
    st' = st ∧
    (∀ b, name = backendName b → setBackend r env' name st' = (st'', none) → UsesBackend r b st'')

/-- A registry with one plugin module. -/
def pluginRegistry : Registry := ⟨["plugin"], [], []⟩

/-- An environment in which the plugin fails to import. -/
def brokenPluginEnv : BEnv :=
  ⟨fun m => if m = "plugin".toList then some .importError else none, fun _ _ => True⟩

theorem brokenPlugin_call :
    setBackend pluginRegistry brokenPluginEnv "numpy" (BState.initial (fun _ _ => none)) =
      (⟨some .numpy, fun _ _ => none, false⟩, some .importError) := by
  have hl : loadNumpyAndScipy brokenPluginEnv .numpy =
      .ok (.mod (npModule .numpy), .attr (scipyModule .numpy) "special".toList, false) := by
    have i1 : brokenPluginEnv.imp (npModule .numpy) = none := by
      have h : "numpy".toList ≠ "plugin".toList := by decide
      exact if_neg (t := some PyErr.importError) h
    have i2 : brokenPluginEnv.imp (scipyModule .numpy) = none := by
      have h : "scipy".toList ≠ "plugin".toList := by decide
      exact if_neg (t := some PyErr.importError) h
    unfold loadNumpyAndScipy BEnv.getattr BEnv.importModule
    simp only [i1, i2]
    show (if brokenPluginEnv.has _ _ then _ else _ : Except PyErr Bound) >>= _ = _
    rw [if_pos (show brokenPluginEnv.has _ _ from trivial)]
    rfl
  have hp : parseBackend "numpy" = some .numpy := rfl
  unfold setBackend
  simp only [hp, hl]
  rw [if_neg (by simp [BState.initial])]
  have hi : brokenPluginEnv.imp "plugin".toList = some .importError := by
    simp [brokenPluginEnv]
  simp only [BM.andThen, pluginRegistry, forEach, bindIn, hi]
  rfl

/-- **C15 fails**: when a registered plugin cannot be imported, `set_backend` raises after it has
already recorded the new backend, so the retry returns at once without updating anything. -/
theorem C15_fails : ¬ C15_statement := by
  intro H
  have h := H pluginRegistry brokenPluginEnv goodEnv "numpy" _ _
    ⟨some .numpy, fun _ _ => none, false⟩ _ (by simp [NoClash, pluginRegistry])
    (by simp [BState.initial]) brokenPlugin_call
  have h1 := congrArg BState.backend h.1
  simp [BState.initial] at h1

/-- **C15 fails** also in its second half: the retry "succeeds" but the plugin has no backend. -/
theorem C15_retry_fails : ∃ (r : Registry) (env env' : BEnv) (st st' st'' : BState) (e : PyErr),
    st.backend = none ∧ setBackend r env "numpy" st = (st', some e) ∧
    RegisteredImport r env' ∧
    setBackend r env' "numpy" st' = (st'', none) ∧ ¬ UsesBackend r .numpy st'' := by
  refine ⟨pluginRegistry, brokenPluginEnv, goodEnv, _, _, _, _, rfl, brokenPlugin_call,
    ⟨fun _ _ => rfl, fun _ _ => rfl, by simp [pluginRegistry]⟩,
    C14_setBackend_same _ _ .numpy _ rfl, ?_⟩
  intro h
  have := h.xp "plugin" (by simp [pluginRegistry])
  cases this

/-- **C15, missing backends are reported.** If the backend is not the active one and its numpy or
its scipy cannot be imported, or has no `special`, or (for jax) the package itself cannot be
imported, then the call raises the error of that import - an `AttributeError` for `special` - and
nothing changes. -/
theorem C15_not_installed (r : Registry) (env : BEnv) (b : Backend) (st : BState)
    (hb : st.backend ≠ some b) (e : PyErr)
    (h : env.imp (npModule b) = some e ∨
      env.imp (npModule b) = none ∧ (env.imp (scipyModule b) = some e ∨
        env.imp (scipyModule b) = none ∧
          (¬ env.has (scipyModule b) "special".toList ∧ e = .attributeError ∨
            env.has (scipyModule b) "special".toList ∧ b = .jax ∧ env.imp "jax".toList = some e))) :
    setBackend r env (backendName b) st = (st, some e) := by
  have hl : loadNumpyAndScipy env b = .error e := by
    unfold loadNumpyAndScipy BEnv.getattr BEnv.importModule
    rcases h with h | ⟨h1, h | ⟨h2, ⟨h3, rfl⟩ | ⟨h3, hj, h4⟩⟩⟩
    · rw [h]; rfl
    · rw [h1, h]; rfl
    · rw [h1, h2]; simp only [if_neg h3]; rfl
    · subst hj; rw [h1, h2, h4]; simp only [if_pos h3, if_true]; rfl
  unfold setBackend
  rw [parseBackend_name]
  simp only [if_neg hb, hl]

/-- Non-vacuity: cupy not installed. -/
example (st : BState) (h : st.backend = none) :
    setBackend gwRegistry noCupyEnv "cupy" st = (st, some .moduleNotFound) :=
  C15_not_installed _ _ .cupy _ (by simp [h]) _ (.inl (by unfold noCupyEnv npModule; simp))

/-- **C15, what holds.** (1) If the name is unsupported or numpy/scipy/cupy/jax itself cannot be
loaded - in particular whenever all registered modules import - a raising call changes nothing.
(2) If a call raises after changing something, then the recorded backend is the requested one and
every attribute is either unchanged or registered. (3) A call for any *other* backend that returns
normally repairs the state completely. -/
theorem C15_atomic_partial (r : Registry) (hc : NoClash r) (env : BEnv) (name : String)
    (st st' : BState) (e : PyErr) (h : setBackend r env name st = (st', some e)) :
    (parseBackend name = none ∨ (∃ b e', parseBackend name = some b ∧
        loadNumpyAndScipy env b = .error e') ∨ RegisteredImport r env → st' = st) ∧
    (st' ≠ st → ∃ b, name = backendName b ∧ st'.backend = some b ∧
      ∀ m n, st'.bind m n = st.bind m n ∨ Registered r m n) ∧
    (∀ env' b st'', st'.backend ≠ some b → setBackend r env' (backendName b) st' = (st'', none) →
      UsesBackend r b st'') := by
  refine ⟨?_, ?_, ?_⟩
  · rintro (h1 | ⟨b, e', h1, h2⟩ | h1)
    · unfold setBackend at h
      simp only [h1] at h
      cases h; rfl
    · unfold setBackend at h
      simp only [h1, h2] at h
      by_cases hs : st.backend = some b
      · rw [if_pos hs] at h; cases h
      · rw [if_neg hs] at h; exact (congrArg Prod.fst h).symm
    · rcases setBackend_atomic h1 name st with h2 | h2
      · rw [h] at h2; cases h2
      · rw [h] at h2; exact h2
  · intro hne
    cases hb : parseBackend name with
    | none =>
      unfold setBackend at h
      simp only [hb] at h
      cases h; exact absurd rfl hne
    | some b =>
      refine ⟨b, parseBackend_some hb, ?_, ?_⟩
      · unfold setBackend at h
        simp only [hb] at h
        by_cases hs : st.backend = some b
        · rw [if_pos hs] at h; cases h
        · rw [if_neg hs] at h
          cases hl : loadNumpyAndScipy env b with
          | error e' => rw [hl] at h; cases h; exact absurd rfl hne
          | ok t =>
            obtain ⟨xp, scs, f⟩ := t
            rw [hl] at h
            simp only at h
            have h0 : ({ st with backend := some b, x64 := st.x64 || f } : BState).backend =
              some b := rfl
            generalize ({ st with backend := some b, x64 := st.x64 || f } : BState) = s0 at h h0
            have g1 := (forEach_bindIn_frame env "xp" xp r.xp s0).1
            unfold BM.andThen at h
            rcases q1 : forEach (bindIn env "xp" xp) r.xp s0 with ⟨s1, _ | e1⟩ <;>
              rw [q1] at g1 h <;> simp only at h g1
            · have g2 := (forEach_bindIn_frame env "scs" scs r.scs s1).1
              rcases q2 : forEach (bindIn env "scs" scs) r.scs s1 with ⟨s2, _ | e2⟩ <;>
                rw [q2] at g2 h <;> simp only at h g2
              · have g3 := (forEach_bindOther_frame env b r.others s2).1
                rw [h] at g3
                simp only at g3
                rw [g3, g2, g1, h0]
              · cases h; rw [g2, g1, h0]
            · cases h; rw [g1, h0]
      · intro m n
        by_cases hr : Registered r m n
        · exact Or.inr hr
        · left
          have := C14_setBackend_frame r env name st m n hr
          rw [h] at this
          exact this
  · intro env' b st'' hne hok
    exact setBackend_uses hc (parseBackend_name b) hne hok

/-- Non-vacuity of C15: a call that raises and changes the state, repaired by another backend. -/
example : ∃ st' e, setBackend pluginRegistry brokenPluginEnv "numpy"
      (BState.initial (fun _ _ => none)) = (st', some e) ∧ NoClash pluginRegistry ∧
      st'.backend ≠ some .jax ∧
      ∃ st'', setBackend pluginRegistry goodEnv (backendName .jax) st' = (st'', none) :=
  ⟨_, _, brokenPlugin_call, by simp [NoClash, pluginRegistry], by simp,
    _, Prod.ext rfl (setBackend_good pluginRegistry rfl .jax _)⟩

/-! ## C16 -/

/-- **C16, full statement.** For every registered extra function `m:scipy<mid>.<name>` (`name`
without dots) and every call that switches to backend `b`, attribute `name` of `m` is then
attribute `name` of the module `<scipy package of b><mid>`. -/
def C16_statement : Prop :=
  ∀ (r : Registry) (env : BEnv) (b : Backend) (st st' : BState) (m : String) (f : String)
    (mid name : List Char),
    st.backend ≠ some b → setBackend r env (backendName b) st = (st', none) →
    (m, f) ∈ r.other → f.toList = "scipy".toList ++ mid ++ '.' :: name → '.' ∉ name →
    st'.bind m (String.ofList name) = some (.attr (scipyPackage b ++ mid) name)

theorem pyRsplit_none {s : List Char} (h : '.' ∉ s) : pyRsplit s = none := by
  induction s with
  | nil => rfl
  | cons c s ih =>
    rw [List.mem_cons, not_or] at h
    unfold pyRsplit
    rw [ih h.2]
    simp only
    rw [if_neg (fun e => h.1 e.symm)]

theorem pyRsplit_eq {a name : List Char} (h : '.' ∉ name) :
    pyRsplit (a ++ '.' :: name) = some (a, name) := by
  induction a with
  | nil =>
    show pyRsplit ('.' :: name) = _
    unfold pyRsplit
    rw [pyRsplit_none h]
    simp
  | cons c a ih =>
    show pyRsplit (c :: (a ++ '.' :: name)) = _
    unfold pyRsplit
    rw [ih]

theorem pyReplace_not_infix {old new : List Char} : ∀ {s : List Char}, ¬ old <:+: s →
    pyReplace old new s = s := by
  intro s
  induction s with
  | nil => intro _; unfold pyReplace; rfl
  | cons c s ih =>
    intro h
    unfold pyReplace
    rw [dif_neg (fun h' => h h'.1.isInfix), ih]
    intro h'
    exact h (h'.trans (List.infix_cons (List.infix_rfl)))

theorem pyReplace_prefix {old new rest : List Char} (h0 : old ≠ []) :
    pyReplace old new (old ++ rest) = new ++ pyReplace old new rest := by
  cases old with
  | nil => exact absurd rfl h0
  | cons c o =>
    show pyReplace (c :: o) new (c :: (o ++ rest)) = _
    rw [pyReplace]
    rw [dif_pos ⟨List.prefix_append (c :: o) rest, h0⟩]
    congr 2
    exact List.drop_left (l₁ := c :: o) (l₂ := rest)

/-- Two functions registered for the same module. -/
def twoFunctions : Registry :=
  ⟨[], [], [("plugin", "scipy.linalg.toeplitz"), ("plugin", "scipy.linalg.solve")]⟩

theorem twoFunctions_others : twoFunctions.others = [("plugin", "scipy.linalg.solve")] := by
  simp [twoFunctions, Registry.others, Dict.set]

/-- **C16 fails**: with two functions for one module only the last one is ever bound. -/
theorem C16_fails : ¬ C16_statement := by
  intro H
  have hl : loadArbitrary goodEnv "scipy.linalg.solve".toList .numpy =
      .ok (.attr "scipy.linalg".toList "solve".toList) := by
    have ht : translatePath "scipy.linalg.solve".toList .numpy = "scipy.linalg.solve".toList := by
      unfold translatePath
      rw [if_pos (show pyStartsWith "scipy.linalg.solve".toList "scipy".toList from
        ⟨".linalg.solve".toList, rfl⟩)]
      rw [show "scipy.linalg.solve".toList = "scipy".toList ++ ".linalg.solve".toList from rfl,
        pyReplace_prefix (by decide), pyReplace_not_infix (by decide)]
      rfl
    unfold loadArbitrary
    rw [ht, show "scipy.linalg.solve".toList = "scipy.linalg".toList ++ '.' :: "solve".toList
      from rfl, pyRsplit_eq (by decide)]
    exact getattr_good _ _
  have hst : ∃ st', setBackend twoFunctions goodEnv (backendName .numpy)
      (BState.initial (fun _ _ => none)) = (st', none) ∧ st'.bind "plugin" "toeplitz" = none := by
    unfold setBackend
    simp only [parseBackend_name, loadNumpyAndScipy_good]
    rw [if_neg (by simp [BState.initial])]
    have hn : String.ofList (pyLastComponent "scipy.linalg.solve".toList) = "solve" := by
      rw [pyLastComponent, show "scipy.linalg.solve".toList =
        "scipy.linalg".toList ++ '.' :: "solve".toList from rfl, pyRsplit_eq (by decide)]
      rfl
    simp only [BM.andThen, twoFunctions_others, forEach, bindOther, hl, hn,
      show twoFunctions.xp = [] from rfl, show twoFunctions.scs = [] from rfl,
      show ∀ m, goodEnv.imp m = none from fun _ => rfl]
    exact ⟨_, rfl, rfl⟩
  obtain ⟨st', h1, h2⟩ := hst
  have := H twoFunctions goodEnv .numpy _ st' "plugin" "scipy.linalg.toeplitz" ".linalg".toList
    "toeplitz".toList (by simp [BState.initial]) h1 (by simp [twoFunctions]) rfl (by decide)
  rw [show String.ofList "toeplitz".toList = "toeplitz" from by simp, h2] at this
  cases this

/-- **C16, what holds.** Every registered function that is the last one registered for its module
is rebound as documented, for `scipy` paths, `numpy` paths and other paths, provided the text
`scipy` (`numpy`) does not occur a second time in the path. -/
theorem C16_others_partial (r : Registry) (env : BEnv) (b : Backend) (st st' : BState)
    (hne : st.backend ≠ some b) (h : setBackend r env (backendName b) st = (st', none))
    (l₁ l₂ : List (String × String)) (m f : String) (hr : r.other = l₁ ++ (m, f) :: l₂)
    (hlast : ∀ e ∈ l₂, e.1 ≠ m) (mid name : List Char) (hname : '.' ∉ name) :
    (f.toList = "scipy".toList ++ mid ++ '.' :: name →
      ¬ "scipy".toList <:+: mid ++ '.' :: name →
      st'.bind m (String.ofList name) = some (.attr (scipyPackage b ++ mid) name)) ∧
    (f.toList = "numpy".toList ++ mid ++ '.' :: name →
      ¬ "numpy".toList <:+: mid ++ '.' :: name →
      st'.bind m (String.ofList name) = some (.attr (arrayModule b ++ mid) name)) ∧
    (f.toList = mid ++ '.' :: name → ¬ "scipy".toList <+: f.toList → ¬ "numpy".toList <+: f.toList →
      st'.bind m (String.ofList name) = some (.attr mid name)) := by
  obtain ⟨-, -, h3, -⟩ := setBackend_ok (parseBackend_name b) hne h
  obtain ⟨v, hv, hb⟩ := h3 (m, f) (others_last r l₁ l₂ m f hr hlast)
  have key : ∀ a t : List Char, f.toList = t ++ '.' :: name →
      translatePath f.toList b = a ++ '.' :: name →
      st'.bind m (String.ofList name) = some (.attr a name) := by
    intro a t ht ha
    have hn : attrName f = String.ofList name := by
      rw [attrName, pyLastComponent, ht, pyRsplit_eq hname]
    simp only [hn] at hb
    rw [hb]
    unfold loadArbitrary at hv
    rw [ha, pyRsplit_eq hname] at hv
    unfold BEnv.getattr at hv
    obtain ⟨_, -, hv⟩ := bind_eq_ok.1 hv
    split_ifs at hv
    cases hv; rfl
  refine ⟨fun hf hi => ?_, fun hf hi => ?_, fun hf h1 h2 => ?_⟩
  · refine key _ _ hf ?_
    unfold translatePath
    rw [hf, List.append_assoc, if_pos (show pyStartsWith _ _ from List.prefix_append _ _),
      pyReplace_prefix (by decide), pyReplace_not_infix hi, scipyModule_eq, List.append_assoc]
  · refine key _ _ hf ?_
    unfold translatePath
    rw [hf, List.append_assoc, if_neg, if_pos (show pyStartsWith _ _ from List.prefix_append _ _),
      pyReplace_prefix (by decide), pyReplace_not_infix hi, npModule_eq, List.append_assoc]
    rintro ⟨t, ht⟩
    have := congrArg List.head? ht
    simp at this
  · refine key _ _ hf ?_
    unfold translatePath
    rw [if_neg (show ¬ pyStartsWith _ _ from h1), if_neg (show ¬ pyStartsWith _ _ from h2), hf]

/-- Non-vacuity of C16: the second of the two functions, for jax. -/
example : ∃ st', setBackend twoFunctions goodEnv (backendName .jax)
      (BState.initial (fun _ _ => none)) = (st', none) ∧
    st'.bind "plugin" "solve" = some (.attr "jax.scipy.linalg".toList "solve".toList) := by
  have ht : translatePath "scipy.linalg.solve".toList .jax = "jax.scipy.linalg.solve".toList := by
    unfold translatePath
    rw [if_pos (show pyStartsWith "scipy.linalg.solve".toList "scipy".toList from
        ⟨".linalg.solve".toList, rfl⟩)]
    rw [show "scipy.linalg.solve".toList = "scipy".toList ++ ".linalg.solve".toList from rfl,
      pyReplace_prefix (by decide), pyReplace_not_infix (by decide)]
    rfl
  have hl : loadArbitrary goodEnv "scipy.linalg.solve".toList .jax =
      .ok (.attr "jax.scipy.linalg".toList "solve".toList) := by
    unfold loadArbitrary
    rw [ht, show "jax.scipy.linalg.solve".toList =
      "jax.scipy.linalg".toList ++ '.' :: "solve".toList from rfl, pyRsplit_eq (by decide)]
    exact getattr_good _ _
  have hok : (setBackend twoFunctions goodEnv (backendName .jax)
      (BState.initial (fun _ _ => none))).2 = none := by
    unfold setBackend
    simp only [parseBackend_name, loadNumpyAndScipy_good]
    rw [if_neg (by simp [BState.initial])]
    simp only [BM.andThen, twoFunctions_others, forEach, bindOther, hl,
      show twoFunctions.xp = [] from rfl, show twoFunctions.scs = [] from rfl,
      show ∀ m, goodEnv.imp m = none from fun _ => rfl]
  refine ⟨_, Prod.ext rfl hok, ?_⟩
  have := (C16_others_partial twoFunctions goodEnv .jax _ _ (by simp [BState.initial])
    (Prod.ext rfl hok) [("plugin", "scipy.linalg.toeplitz")] [] "plugin" "scipy.linalg.solve" rfl
    (by simp) ".linalg".toList "solve".toList (by decide)).1 rfl (by decide)
  rw [show String.ofList "solve".toList = "solve" from by simp] at this
  exact this

end GW
