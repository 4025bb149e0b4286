import Verif.Model.Jit

/-!
# Simulation lemmas for staged values
-/

noncomputable section

open Classical

namespace GW

open Fl

namespace Staged

variable {E α β γ : Type}

/-- The context is ordinary Python or traces a call whose arguments are among those of `G`. -/
def CtxOk (c : Ctx E) (G : E → Prop) : Prop :=
  match c with
  | .eager => ∃ e, G e
  | .tracing _ e₀ => G e₀

/-- The staged value `x` stands for the value `a e` when the arguments are `e`, for all `e` of `G`. -/
def Sim (c : Ctx E) (G : E → Prop) (x : Staged E α) (a : E → α) : Prop :=
  match c, x with
  | _, .known a' => ∀ e, G e → a e = a'
  | .eager, .tracer _ _ => False
  | .tracing t _, .tracer t' f => t' = t ∧ ∀ e, G e → f e = .ok (a e)

theorem sim_known (c : Ctx E) (G : E → Prop) (a : α) : Sim c G (.known a) fun _ => a := by
  cases c <;> exact fun _ _ => rfl

theorem sim_known' {c : Ctx E} {G : E → Prop} {a : α} {f : E → α} (h : ∀ e, G e → f e = a) :
    Sim c G (.known a) f := by
  cases c <;> exact h

theorem Sim.congr {c : Ctx E} {G : E → Prop} {x : Staged E α} {a b : E → α} (h : Sim c G x a)
    (hab : ∀ e, G e → a e = b e) : Sim c G x b := by
  cases c <;> cases x <;> simp only [Sim] at h ⊢
  · exact fun e he => (hab e he).symm.trans (h e he)
  · exact fun e he => (hab e he).symm.trans (h e he)
  · exact ⟨h.1, fun e he => by rw [h.2 e he, hab e he]⟩

theorem read_sim {t : ℕ} {e₀ : E} {G : E → Prop} {x : Staged E α} {a : E → α}
    (h : Sim (.tracing t e₀) G x a) :
    ∃ f, x.read (.tracing t e₀) = .ok f ∧ ∀ e, G e → f e = .ok (a e) := by
  cases x with
  | known a' => exact ⟨_, rfl, fun e he => by rw [h e he]⟩
  | tracer t' f =>
    obtain ⟨rfl, hf⟩ := h
    exact ⟨f, by simp [read], hf⟩

theorem op_sim {c : Ctx E} {G : E → Prop} (hc : CtxOk c G) {x : Staged E α} {a : E → α}
    (h : Sim c G x a) (f : α → Except PyErr β) (b : E → β) (hf : ∀ e, G e → f (a e) = .ok (b e)) :
    ∃ y, op c f x = .ok y ∧ Sim c G y b := by
  cases c with
  | eager =>
    cases x with
    | tracer t g => exact h.elim
    | known a' =>
      obtain ⟨e, he⟩ := hc
      refine ⟨.known (b e), ?_, fun e' he' => ?_⟩
      · have := hf e he
        rw [h e he] at this
        simp [op, this, pure_eq_ok, ok_bind]
      · have h1 := hf e he
        have h2 := hf e' he'
        rw [h e he] at h1
        rw [h e' he', h1] at h2
        exact (Except.ok.inj h2).symm
  | tracing t e₀ =>
    obtain ⟨g, hg, hga⟩ := read_sim h
    refine ⟨.tracer t fun e => do let a ← g e; f a, ?_, rfl, fun e he => ?_⟩
    · simp only [op, hg, ok_bind, hga e₀ hc, hf e₀ hc]
      rfl
    · simp only [hga e he, ok_bind, hf e he]

theorem pair_sim {c : Ctx E} {G : E → Prop} {x : Staged E α} {a : E → α} {y : Staged E β}
    {b : E → β} (hx : Sim c G x a) (hy : Sim c G y b) :
    ∃ z, pair c x y = .ok z ∧ Sim c G z fun e => (a e, b e) := by
  cases c with
  | eager =>
    cases x with
    | tracer t g => exact hx.elim
    | known a' =>
      cases y with
      | tracer t g => exact hy.elim
      | known b' => exact ⟨_, rfl, fun e he => by simp only [hx e he, hy e he]⟩
  | tracing t e₀ =>
    obtain ⟨f, hf, hfa⟩ := read_sim hx
    obtain ⟨g, hg, hgb⟩ := read_sim hy
    refine ⟨.tracer t fun e => do let a ← f e; let b ← g e; return (a, b), ?_, rfl, fun e he => ?_⟩
    · simp only [pair, hf, hg, ok_bind]
      rfl
    · simp only [hfa e he, hgb e he, ok_bind]
      rfl

theorem list_sim {c : Ctx E} {G : E → Prop} {xs : List (Staged E α)} {as : List (E → α)}
    (h : List.Forall₂ (Sim c G) xs as) :
    ∃ z, list c xs = .ok z ∧ Sim c G z fun e => as.map fun a => a e := by
  induction h with
  | nil => exact ⟨_, by unfold list; rfl, sim_known _ _ _⟩
  | @cons x a xs as hx _ ih =>
    obtain ⟨z, hz, hza⟩ := ih
    cases c with
    | eager =>
      cases x with
      | tracer t g => exact hx.elim
      | known a' =>
        cases z with
        | tracer t g => exact hza.elim
        | known b' =>
          refine ⟨.known (a' :: b'), ?_, fun e he => ?_⟩
          · unfold list
            rw [hz]
            rfl
          · beta_reduce
            rw [List.map_cons, hx e he]
            exact congrArg _ (hza e he)
    | tracing t e₀ =>
      obtain ⟨f, hf, hfa⟩ := read_sim hx
      obtain ⟨g, hg, hgb⟩ := read_sim hza
      refine ⟨.tracer t fun e => do let a ← f e; let as ← g e; return a :: as, ?_, rfl,
        fun e he => ?_⟩
      · unfold list
        rw [hz]
        simp only [ok_bind, hf, hg]
        rfl
      · simp only [hfa e he, hgb e he, ok_bind]
        rfl

/-- A dictionary of staged values stands for the dictionary `d e` when the arguments are `e`. -/
def SimDict (c : Ctx E) (G : E → Prop) (D : Dict (Staged E α)) (d : E → Dict α) : Prop :=
  ∀ k, match D.get? k with
    | none => ∀ e, G e → (d e).get? k = none
    | some x => ∃ a, Sim c G x a ∧ ∀ e, G e → (d e).get? k = some (a e)

theorem SimDict.get {c : Ctx E} {G : E → Prop} {D : Dict (Staged E α)} {d : E → Dict α}
    (h : SimDict c G D d) (hc : ∃ e, G e) {k : String} {a : E → α}
    (ha : ∀ e, G e → (d e).get k = .ok (a e)) :
    ∃ x, D.get k = .ok x ∧ Sim c G x a := by
  have hk := h k
  unfold Dict.get
  revert hk
  cases D.get? k with
  | none =>
    intro hk
    obtain ⟨e, he⟩ := hc
    have := ha e he
    unfold Dict.get at this
    rw [hk e he] at this
    cases this
  | some x =>
    rintro ⟨a', hx, hk⟩
    refine ⟨x, rfl, hx.congr fun e he => ?_⟩
    have := ha e he
    unfold Dict.get at this
    rw [hk e he] at this
    exact Except.ok.inj this

theorem SimDict.contains {c : Ctx E} {G : E → Prop} {D : Dict (Staged E α)} {d : E → Dict α}
    (h : SimDict c G D d) {e : E} (he : G e) (k : String) :
    D.contains k ↔ (d e).contains k := by
  have hk := h k
  rw [← Dict.get?_isSome_iff, ← Dict.get?_isSome_iff]
  revert hk
  cases D.get? k with
  | none => intro hk; simp [hk e he]
  | some x => rintro ⟨a, -, hk⟩; simp [hk e he]

theorem SimDict.mapM_get {c : Ctx E} {G : E → Prop} {D : Dict (Staged E α)} {d : E → Dict α}
    (h : SimDict c G D d) (hc : ∃ e, G e) (ks : List String) {as : E → List α}
    (ha : ∀ e, G e → ks.mapM (d e).get = .ok (as e)) :
    ∃ xs z, ks.mapM D.get = .ok xs ∧ list c xs = .ok z ∧ Sim c G z as := by
  induction ks generalizing as with
  | nil =>
    refine ⟨[], _, rfl, by unfold list; rfl, sim_known' fun e he => ?_⟩
    have := ha e he
    rw [List.mapM_nil, pure_eq_ok] at this
    exact (Except.ok.inj this).symm
  | cons k ks ih =>
    have hinv : ∀ e, G e → ∃ a l, (d e).get k = .ok a ∧ ks.mapM (d e).get = .ok l ∧ as e = a :: l := by
      intro e he
      have := ha e he
      rw [List.mapM_cons, bind_eq_ok] at this
      obtain ⟨a, h1, h2⟩ := this
      rw [bind_eq_ok] at h2
      obtain ⟨l, h2, h3⟩ := h2
      rw [pure_eq_ok] at h3
      exact ⟨a, l, h1, h2, (Except.ok.inj h3).symm⟩
    haveI : Nonempty α := by
      obtain ⟨e, he⟩ := hc
      obtain ⟨a, -⟩ := hinv e he
      exact ⟨a⟩
    choose! a l h1 h2 h3 using hinv
    obtain ⟨x, hx, hxa⟩ := h.get hc h1
    obtain ⟨xs, z, hxs, hz, hza⟩ := ih h2
    refine ⟨x :: xs, ?_⟩
    have hm : (k :: ks).mapM D.get = .ok (x :: xs) := by
      rw [List.mapM_cons, hx, ok_bind, hxs]
      rfl
    cases c with
    | eager =>
      cases x with
      | tracer t g => exact hxa.elim
      | known a' =>
        cases z with
        | tracer t g => exact hza.elim
        | known b' =>
          refine ⟨.known (a' :: b'), hm, ?_, fun e he => ?_⟩
          · unfold list
            rw [hz]
            rfl
          · rw [h3 e he, hxa e he, hza e he]
    | tracing t e₀ =>
      obtain ⟨f, hf, hfa⟩ := read_sim hxa
      obtain ⟨g, hg, hgb⟩ := read_sim hza
      refine ⟨.tracer t fun e => do let a ← f e; let as ← g e; return a :: as, hm, ?_, rfl,
        fun e he => ?_⟩
      · unfold list
        rw [hz]
        simp only [ok_bind, hf, hg]
        rfl
      · simp only [hfa e he, hgb e he, ok_bind, h3 e he]
        rfl

theorem CtxOk.nonempty {c : Ctx E} {G : E → Prop} (h : CtxOk c G) : ∃ e, G e := by
  cases c with
  | eager => exact h
  | tracing t e => exact ⟨e, h⟩

theorem get?_map_snd {δ : Type} (d : Dict α) (f : String → α → δ) (k : String) :
    Dict.get? (d.map fun p => (p.1, f p.1 p.2)) k = (d.get? k).map (f k) := by
  induction d with
  | nil => rfl
  | cons p d ih =>
    rw [List.map_cons, Dict.get?_cons, Dict.get?_cons, ih]
    by_cases hk : k = p.1
    · subst hk; simp
    · simp [hk]

theorem simDict_known (c : Ctx E) (G : E → Prop) (d : Dict α) (d' : E → Dict α)
    (h : ∀ e, G e → ∀ k, (d' e).get? k = d.get? k) : SimDict c G (knownDict d) d' := by
  intro k
  have : Dict.get? (knownDict d : Dict (Staged E α)) k = (d.get? k).map Staged.known :=
    get?_map_snd d (fun _ => Staged.known) k
  rw [this]
  cases hk : d.get? k with
  | none => exact fun e he => (h e he k).trans hk
  | some a => exact ⟨fun _ => a, sim_known _ _ _, fun e he => (h e he k).trans hk⟩

end Staged

end GW
