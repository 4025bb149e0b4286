import Verif.Lemmas.StagedSpline
import Verif.Props.SmoothedHistory

/-!
# Refinement and simulation of the smoothed mass models under `jax.jit`
-/

noncomputable section

open Classical

namespace GW

open Fl Staged

namespace StagedSmoothed

variable {E : Type}

/-- The masses of an interpolant made of concrete arrays. -/
def concrete : Option (Staged E Unit × Staged E (List Fl)) → Option (List Fl)
  | some (.known _, .known l) => some l
  | _ => none

/-- The instance as ordinary Python sees it: an interpolant that contains tracers is as good as none. -/
def forget (s : StagedSmoothed E) : Smoothed := { s.base with qMasses := concrete s.interpolant }

theorem forget_cfg (s : StagedSmoothed E) : SameConfig s.base s.forget := ⟨rfl, rfl, rfl, rfl, rfl, rfl, rfl⟩

theorem qNorms_config (b : Backend) {s t : Smoothed} (h : SameConfig s t) (x y z : Fl) :
    Smoothed.qNorms b t x y z = Smoothed.qNorms b s x y z := by
  rw [qNorms_eq, qNorms_eq, h.m1s]
  have : qNormAt b t x y z = qNormAt b s x y z := by
    funext m; unfold qNormAt; rw [h.qs]
  rw [this]

theorem pair_eager_known {α β : Type} (a : α) (b : β) :
    pair (E := E) .eager (.known a) (.known b) = .ok (.known (a, b)) := rfl

/-! ### Ordinary execution -/

theorem cacheQNorms_eager (s : StagedSmoothed E) (l : List Fl) :
    s.cacheQNorms .eager (.known l) = .ok { s with interpolant := some (.known (), .known l) } := rfl

theorem normPQ_eager_some {s : StagedSmoothed E} {l : List Fl} (h : concrete s.interpolant = some l)
    (a : Fl × Fl × Fl) :
    s.normPQ .eager (.known a) = (Smoothed.normPQ .jax s.forget a.1 a.2.1 a.2.2).map .known := by
  unfold normPQ
  rw [op_eager, normPQ_eq, ← qNorms_config .jax s.forget_cfg, qNorms_eq]
  have hq : s.forget.qMasses = some l := h
  rw [hq]
  rcases hi : s.interpolant with _ | ⟨x, y⟩
  · rw [hi] at h; cases h
  · rw [hi] at h
    cases x with
    | tracer t f => cases h
    | known u =>
      cases y with
      | tracer t f => cases h
      | known l' => cases h; rfl

theorem normPQ_eager_none {s : StagedSmoothed E} (h : concrete s.interpolant = none)
    (a : Fl × Fl × Fl) : ∃ err, s.normPQ .eager (.known a) = .error err ∧ Smoothed.caught err := by
  unfold normPQ
  rw [op_eager, qNorms_eq]
  rcases hi : s.interpolant with _ | ⟨x, y⟩
  · exact ⟨.attributeError, rfl, trivial⟩
  · rw [hi] at h
    cases x with
    | tracer t f => exact ⟨.typeError, rfl, trivial⟩
    | known u =>
      cases y with
      | tracer t f => exact ⟨.typeError, rfl, trivial⟩
      | known l' => cases h

theorem divideByNorm_eager_some {s : StagedSmoothed E} {l : List Fl}
    (h : concrete s.interpolant = some l) (pq : List Fl) (a : Fl × Fl × Fl) :
    s.divideByNorm .eager (.known pq) (.known a) =
      (Smoothed.divideByNorm .jax s.forget pq a.1 a.2.1 a.2.2).map .known := by
  unfold divideByNorm Smoothed.divideByNorm
  rw [normPQ_eager_some h]
  cases Smoothed.normPQ .jax s.forget a.1 a.2.1 a.2.2 with
  | error e => rfl
  | ok n =>
    simp only [Except.map, ok_bind, pair_eager_known, op_eager]

theorem divideByNorm_eager_none {s : StagedSmoothed E} (h : concrete s.interpolant = none)
    (pq : List Fl) (a : Fl × Fl × Fl) :
    ∃ err, s.divideByNorm .eager (.known pq) (.known a) = .error err ∧ Smoothed.caught err := by
  obtain ⟨err, he, hc⟩ := normPQ_eager_none h a
  refine ⟨err, ?_, hc⟩
  unfold divideByNorm
  rw [he]
  rfl

theorem divideByNorm_none {b : Backend} {s : Smoothed} (h : s.qMasses = none) (pq : List Fl)
    (x y z : Fl) : Smoothed.divideByNorm b s pq x y z = .error .attributeError := by
  unfold Smoothed.divideByNorm
  rw [normPQ_eq, h]
  rfl

theorem rawPQ_eager (d : List (Fl × Fl)) (a : Fl × Fl × Fl) :
    rawPQ (E := E) .eager (.known d) (.known a) =
      .ok (.known (d.map fun x => pQVal .jax a.1 a.2.1 a.2.2 x.1 x.2)) := by
  unfold rawPQ
  rw [pair_eager_known]
  simp only [ok_bind, op_eager]
  rw [mapM_ok fun x _ => pQRaw_eq ..]
  rfl

theorem pQ_eager (s : StagedSmoothed E) (d : List (Fl × Fl)) (a : Fl × Fl × Fl) :
    (s.pQ .eager (.known d) (.known a)).1 =
        (Smoothed.pQ .jax s.forget d a.1 a.2.1 a.2.2).1.map .known ∧
      (s.pQ .eager (.known d) (.known a)).2.forget =
        (Smoothed.pQ .jax s.forget d a.1 a.2.1 a.2.2).2 ∧
      ((s.pQ .eager (.known d) (.known a)).2.interpolant = s.interpolant ∨
        ∃ l, (s.pQ .eager (.known d) (.known a)).2.interpolant = some (.known (), .known l)) ∧
      (s.pQ .eager (.known d) (.known a)).2.base = s.base := by
  unfold pQ Smoothed.pQ
  rw [rawPQ_eager, mapM_ok fun x _ => pQRaw_eq ..]
  set pq := d.map fun x => pQVal .jax a.1 a.2.1 a.2.2 x.1 x.2 with hpq
  set s1 : StagedSmoothed E := { s with interpolant := some (.known (), .known (d.map Prod.fst)) }
    with hs1
  have h1 : concrete s1.interpolant = some (d.map Prod.fst) := rfl
  have hf : s1.forget = Smoothed.cacheQNorms s.forget (d.map Prod.fst) := rfl
  have hm : masses (.known d : Staged E (List (Fl × Fl))) = .known (d.map Prod.fst) := rfl
  have hh : s.handler .eager (masses (.known d)) (.known pq) (.known a) =
      ((Smoothed.divideByNorm .jax (Smoothed.cacheQNorms s.forget (d.map Prod.fst)) pq
        a.1 a.2.1 a.2.2).map .known, s1) := by
    unfold handler
    rw [hm, cacheQNorms_eager, ← hf, ← divideByNorm_eager_some h1]
  have hh1 : s1.handler .eager (masses (.known d)) (.known pq) (.known a) =
      ((Smoothed.divideByNorm .jax (Smoothed.cacheQNorms s.forget (d.map Prod.fst)) pq
        a.1 a.2.1 a.2.2).map .known, s1) := by
    unfold handler
    rw [hm, cacheQNorms_eager, ← hf, ← divideByNorm_eager_some h1]
  have hcache : s.forget.cache = s.base.cache := rfl
  have hnn : ∀ r : Except PyErr (List Fl),
      ((r.map (Staged.known (E := E))) >>= Staged.op .eager (fun l => .ok (l.map nanToNum))) =
        (r.map (·.map nanToNum)).map .known := by
    intro r
    cases r <;> rfl
  by_cases hc : s.base.cache = true
  · have ht : s.tryBody .eager (masses (.known d)) (.known pq) (.known a) =
        (s.divideByNorm .eager (.known pq) (.known a), s) := by
      unfold tryBody
      rw [if_pos hc]
    simp only [ht, hcache, hc, if_true]
    cases hi : concrete s.interpolant with
    | none =>
      obtain ⟨err, he, hca⟩ := divideByNorm_eager_none hi pq a
      have hq : s.forget.qMasses = none := hi
      rw [he, divideByNorm_none hq]
      simp only
      rw [if_pos hca, if_pos (show Smoothed.caught .attributeError from trivial), hh]
      exact ⟨hnn _, hf, Or.inr ⟨_, rfl⟩, rfl⟩
    | some l =>
      rw [divideByNorm_eager_some hi]
      cases hr : Smoothed.divideByNorm .jax s.forget pq a.1 a.2.1 a.2.2 with
      | ok r => exact ⟨rfl, rfl, Or.inl rfl, rfl⟩
      | error e =>
        simp only [Except.map]
        by_cases hce : Smoothed.caught e
        · rw [if_pos hce, if_pos hce, hh]
          exact ⟨hnn _, hf, Or.inr ⟨_, rfl⟩, rfl⟩
        · rw [if_neg hce, if_neg hce]
          exact ⟨rfl, rfl, Or.inl rfl, rfl⟩
  · have ht : s.tryBody .eager (masses (.known d)) (.known pq) (.known a) =
        (s1.divideByNorm .eager (.known pq) (.known a), s1) := by
      unfold tryBody
      rw [if_neg hc, hm, cacheQNorms_eager]
    have hc' : s.base.cache = false := by simpa using hc
    simp only [ht, hcache, hc', Bool.false_eq_true, if_false]
    rw [divideByNorm_eager_some h1, ← hf]
    cases hr : Smoothed.divideByNorm .jax s1.forget pq a.1 a.2.1 a.2.2 with
    | ok r => exact ⟨rfl, rfl, Or.inr ⟨_, rfl⟩, rfl⟩
    | error e =>
      simp only [Except.map]
      by_cases hce : Smoothed.caught e
      · rw [if_pos hce, if_pos hce, hh1]
        exact ⟨hnn _, rfl, Or.inr ⟨_, rfl⟩, rfl⟩
      · rw [if_neg hce, if_neg hce]
        exact ⟨rfl, rfl, Or.inr ⟨_, rfl⟩, rfl⟩

theorem erase_knownDict (kw : Dict Fl) (k : String) :
    Dict.erase (knownDict kw : Dict (Staged E Fl)) k = knownDict (Dict.erase kw k) := by
  unfold Dict.erase knownDict
  rw [List.filter_map]
  rfl

theorem get?_knownDict (kw : Dict Fl) (k : String) :
    Dict.get? (knownDict kw : Dict (Staged E Fl)) k = (Dict.get? kw k).map Staged.known :=
  get?_map_snd kw (fun _ => Staged.known) k

theorem keys_knownDict (kw : Dict Fl) : Dict.keys (knownDict kw : Dict (Staged E Fl)) = Dict.keys kw := by
  simp [Dict.keys, knownDict]

theorem zip_keys (kw : Dict Fl) : (Dict.keys kw).zip (kw.map Prod.snd) = kw := by
  unfold Dict.keys
  rw [List.zip_map']
  simp

theorem kwOperand_eager (kw : Dict Fl) :
    kwOperand (E := E) .eager (knownDict kw) = .ok (.known kw) := by
  unfold kwOperand
  have : (knownDict kw : Dict (Staged E Fl)).map Prod.snd = (kw.map Prod.snd).map Staged.known := by
    simp [knownDict]
  rw [this, list_eager, keys_knownDict]
  show Except.ok (Staged.known ((Dict.keys kw).zip (kw.map Prod.snd))) = _
  rw [zip_keys]

theorem pM1_eager (s : StagedSmoothed E) (d : List (Fl × Fl)) (kw : Dict Fl) :
    s.pM1 .eager (.known d) (knownDict kw) =
      (Smoothed.pM1 .jax s.forget (d.map Prod.fst) (kw ++ s.forget.fixed)).map .known := by
  unfold pM1
  rw [kwOperand_eager]
  simp only [ok_bind, pair_eager_known, op_eager]
  rw [pM1_config .jax s.forget_cfg]
  rfl

theorem qArgs_eager (s : StagedSmoothed E) (beta : Fl) (kw : Dict Fl) :
    s.qArgs .eager (.known beta) (knownDict kw) =
      .ok (.known (beta, Smoothed.kwGet kw "mmin" (fin s.forget.mmin),
        Smoothed.kwGet kw "delta_m" 0)) := by
  unfold qArgs
  have : ∀ (k : String) (v : Fl), (Dict.get? (knownDict kw : Dict (Staged E Fl)) k).getD (.known v) =
      .known (Smoothed.kwGet kw k v) := by
    intro k v
    rw [get?_knownDict]
    unfold Smoothed.kwGet
    cases Dict.get? kw k <;> rfl
  rw [this, this]
  rfl

/-- An ordinary call is an ordinary call of the instance without the tracers. -/
theorem call_eager (s : StagedSmoothed E) (d : List (Fl × Fl)) (kw : Dict Fl) :
    (s.call .eager (.known d) (knownDict kw)).1 =
        (Smoothed.call .jax s.forget d kw).1.map .known ∧
      (s.call .eager (.known d) (knownDict kw)).2.forget = (Smoothed.call .jax s.forget d kw).2 ∧
      ((s.call .eager (.known d) (knownDict kw)).2.interpolant = s.interpolant ∨
        ∃ l, (s.call .eager (.known d) (knownDict kw)).2.interpolant = some (.known (), .known l)) ∧
      (s.call .eager (.known d) (knownDict kw)).2.base = s.base := by
  unfold call Smoothed.call
  rw [get?_knownDict]
  cases Dict.get? kw "beta" with
  | none => exact ⟨rfl, rfl, Or.inl rfl, rfl⟩
  | some beta =>
    simp only [Option.map, ne_eq, not_true_eq_false, false_and, if_false, erase_knownDict,
      keys_knownDict]
    have hfix : s.forget.fixed = s.base.fixed := rfl
    rw [hfix]
    split_ifs with hcl
    · exact ⟨rfl, rfl, Or.inl rfl, rfl⟩
    · rw [pM1_eager, hfix]
      cases Smoothed.pM1 .jax s.forget (d.map Prod.fst) (Dict.erase kw "beta" ++ s.base.fixed) with
      | error e => exact ⟨rfl, rfl, Or.inl rfl, rfl⟩
      | ok pm =>
        simp only [Except.map]
        rw [qArgs_eager]
        simp only
        obtain ⟨h1, h2, h3, h4⟩ := pQ_eager s d (beta,
          Smoothed.kwGet (Dict.erase kw "beta") "mmin" (fin s.forget.mmin),
          Smoothed.kwGet (Dict.erase kw "beta") "delta_m" 0)
        revert h1 h2 h3 h4
        rcases s.pQ .eager (.known d) (.known (beta,
          Smoothed.kwGet (Dict.erase kw "beta") "mmin" (fin s.forget.mmin),
          Smoothed.kwGet (Dict.erase kw "beta") "delta_m" 0)) with ⟨r1, s1⟩
        rcases Smoothed.pQ .jax s.forget d beta
          (Smoothed.kwGet (Dict.erase kw "beta") "mmin" (fin s.forget.mmin))
          (Smoothed.kwGet (Dict.erase kw "beta") "delta_m" 0) with ⟨r2, s2⟩
        rintro h1 h2 h3 h4
        simp only at h1 h2 h3 h4
        subst h1
        cases r2 with
        | error e => exact ⟨rfl, h2, h3, h4⟩
        | ok pq =>
          refine ⟨?_, h2, h3, h4⟩
          simp only [Except.map]
          unfold times
          rw [pair_eager_known, ok_bind, op_eager]
          rfl

/-! ### Execution during a trace -/

/-- The interpolant was set up by ordinary Python, or during a trace before the one with number `t`. -/
def Old (t : ℕ) (i : Option (Staged E Unit × Staged E (List Fl))) : Prop :=
  ∀ x y, i = some (x, y) → (∃ l, x = .known () ∧ y = .known l) ∨
    ∃ t₁ t₂ f g, x = .tracer t₁ f ∧ y = .tracer t₂ g ∧ t₁ < t ∧ t₂ < t

theorem op_error {α β : Type} {t : ℕ} {e₀ : E} {G : E → Prop} (h₀ : G e₀) {x : Staged E α} {a : E → α}
    (h : Sim (.tracing t e₀) G x a) {f : α → Except PyErr β} {err : PyErr} (hf : f (a e₀) = .error err) :
    op (.tracing t e₀) f x = .error err := by
  obtain ⟨g, hg, hga⟩ := read_sim h
  simp only [op, hg, ok_bind, hga e₀ h₀, hf]
  rfl

theorem op_tracer {α β : Type} {t : ℕ} {e₀ : E} {f : α → Except PyErr β} {x : Staged E α}
    {y : Staged E β} (h : op (.tracing t e₀) f x = .ok y) : ∃ g, y = .tracer t g := by
  unfold op at h
  obtain ⟨g, -, h⟩ := bind_eq_ok.1 h
  obtain ⟨a, -, h⟩ := bind_eq_ok.1 h
  obtain ⟨b, -, h⟩ := bind_eq_ok.1 h
  exact ⟨_, (Except.ok.inj h).symm⟩

/-- Which lengths can be divided on jax. -/
def Compat (n m : ℕ) : Prop := n = m ∨ m = 1 ∨ n = 1

theorem inplaceDiv_jax_eq (xs ys : List Fl) :
    Smoothed.inplaceDiv .jax xs ys = Smoothed.broadcast .jax (· / ·) xs ys := by
  unfold Smoothed.inplaceDiv
  cases Smoothed.broadcast .jax (· / ·) xs ys with
  | error e => rfl
  | ok r =>
    simp only [ok_bind]
    rw [if_neg (by simp)]

theorem inplaceDiv_compat {xs ys : List Fl} (h : Compat xs.length ys.length) :
    ∃ r, Smoothed.inplaceDiv .jax xs ys = .ok r := by
  rw [inplaceDiv_jax_eq]
  unfold Smoothed.broadcast
  by_cases he : xs.length = ys.length
  · exact ⟨_, if_pos he⟩
  rw [if_neg he]
  rcases h with h | h | h
  · exact absurd h he
  · obtain ⟨y, rfl⟩ := List.length_eq_one_iff.1 h
    exact ⟨_, rfl⟩
  · obtain ⟨x, rfl⟩ := List.length_eq_one_iff.1 h
    rcases ys with _ | ⟨y, _ | ⟨y', ys⟩⟩
    · exact ⟨_, rfl⟩
    · simp at he
    · exact ⟨_, rfl⟩

theorem inplaceDiv_incompat {xs ys : List Fl} (h : ¬ Compat xs.length ys.length) :
    Smoothed.inplaceDiv .jax xs ys = .error .typeError := by
  unfold Compat at h
  push Not at h
  obtain ⟨h1, h2, h3⟩ := h
  unfold Smoothed.inplaceDiv Smoothed.broadcast
  rw [if_neg h1]
  rcases ys with _ | ⟨y, _ | ⟨y', ys⟩⟩
  · rcases xs with _ | ⟨x, _ | ⟨x', xs⟩⟩
    · simp at h1
    · simp at h3
    · simp only [if_true]; rfl
  · simp at h2
  · rcases xs with _ | ⟨x, _ | ⟨x', xs⟩⟩
    · simp only [if_true]; rfl
    · simp at h3
    · simp only [if_true]; rfl

/-- The norms at the masses `l`. -/
def normVals (s : Smoothed) (a : Fl × Fl × Fl) (l : List Fl) : List Fl :=
  l.map (interpLinear s.m1s (s.m1s.map (qNormAt .jax s a.1 a.2.1 a.2.2)))

theorem divideByNorm_eq {s : Smoothed} {l : List Fl} (h : s.qMasses = some l) (pq : List Fl)
    (a : Fl × Fl × Fl) :
    Smoothed.divideByNorm .jax s pq a.1 a.2.1 a.2.2 =
      Smoothed.inplaceDiv .jax pq (normVals s a l) := by
  unfold Smoothed.divideByNorm normVals
  rw [normPQ_eq, h]
  rfl

section Trace

variable {t : ℕ} {e₀ : E} {G : E → Prop}

theorem masses_sim {c : Ctx E} {D : Staged E (List (Fl × Fl))} {d : E → List (Fl × Fl)}
    (hD : Sim c G D d) : Sim c G (masses D) fun e => (d e).map Prod.fst := by
  cases D with
  | known l =>
    refine sim_known' fun e he => ?_
    have : d e = l := by cases c <;> exact hD e he
    rw [this]
  | tracer t' f =>
    cases c with
    | eager => exact hD.elim
    | tracing t e₀ =>
      refine ⟨hD.1, fun e he => ?_⟩
      simp only [hD.2 e he, ok_bind, pure_eq_ok]

theorem rawPQ_sim {c : Ctx E} (hc : CtxOk c G) {D : Staged E (List (Fl × Fl))}
    {d : E → List (Fl × Fl)} (hD : Sim c G D d) {A : Staged E (Fl × Fl × Fl)} {a : E → Fl × Fl × Fl}
    (hA : Sim c G A a) :
    ∃ P, rawPQ c D A = .ok P ∧
      Sim c G P fun e => (d e).map fun x => pQVal .jax (a e).1 (a e).2.1 (a e).2.2 x.1 x.2 := by
  unfold rawPQ
  obtain ⟨z, hz, hzs⟩ := pair_sim hD hA
  rw [hz]
  exact op_sim hc hzs _ _ fun e _ => mapM_ok fun x _ => pQRaw_eq ..

theorem normPQ_sim {c : Ctx E} (hc : CtxOk c G) {s : StagedSmoothed E} {X : Staged E Unit}
    {Y : Staged E (List Fl)} (hi : s.interpolant = some (X, Y)) (hX : Sim c G X fun _ => ())
    {l : E → List Fl} (hY : Sim c G Y l) {A : Staged E (Fl × Fl × Fl)} {a : E → Fl × Fl × Fl}
    (hA : Sim c G A a) :
    ∃ N, s.normPQ c A = .ok N ∧ Sim c G N fun e => normVals s.base (a e) (l e) := by
  unfold normPQ
  obtain ⟨n, hn, hns⟩ := op_sim hc hA
    (fun a => Smoothed.qNorms .jax s.base a.1 a.2.1 a.2.2) _ fun e _ => qNorms_eq ..
  rw [hn, hi]
  simp only [ok_bind]
  obtain ⟨z, hz, hzs⟩ := pair_sim hX hY
  rw [hz]
  simp only [ok_bind]
  obtain ⟨w, hw, hws⟩ := pair_sim hzs hns
  rw [hw]
  exact op_sim hc hws _ _ fun e _ => rfl

theorem divide_sim {c : Ctx E} (hc : CtxOk c G) {s : StagedSmoothed E} {X : Staged E Unit}
    {Y : Staged E (List Fl)} (hi : s.interpolant = some (X, Y)) (hX : Sim c G X fun _ => ())
    {l : E → List Fl} (hY : Sim c G Y l) {A : Staged E (Fl × Fl × Fl)} {a : E → Fl × Fl × Fl}
    (hA : Sim c G A a) {P : Staged E (List Fl)} {pq : E → List Fl} (hP : Sim c G P pq)
    {r : E → List Fl}
    (hr : ∀ e, G e → Smoothed.inplaceDiv .jax (pq e) (normVals s.base (a e) (l e)) = .ok (r e)) :
    ∃ Z, s.divideByNorm c P A = .ok Z ∧ Sim c G Z r := by
  unfold divideByNorm
  obtain ⟨N, hN, hNs⟩ := normPQ_sim hc hi hX hY hA
  rw [hN]
  simp only [ok_bind]
  obtain ⟨z, hz, hzs⟩ := pair_sim hP hNs
  rw [hz]
  exact op_sim hc hzs _ _ hr

theorem divide_error (h₀ : G e₀) {s : StagedSmoothed E} {X : Staged E Unit}
    {Y : Staged E (List Fl)} (hi : s.interpolant = some (X, Y))
    (hX : Sim (.tracing t e₀) G X fun _ => ()) {l : E → List Fl} (hY : Sim (.tracing t e₀) G Y l)
    {A : Staged E (Fl × Fl × Fl)} {a : E → Fl × Fl × Fl} (hA : Sim (.tracing t e₀) G A a)
    {P : Staged E (List Fl)} {pq : E → List Fl} (hP : Sim (.tracing t e₀) G P pq) {err : PyErr}
    (hr : Smoothed.inplaceDiv .jax (pq e₀) (normVals s.base (a e₀) (l e₀)) = .error err) :
    s.divideByNorm (.tracing t e₀) P A = .error err := by
  have hc : CtxOk (.tracing t e₀) G := h₀
  unfold divideByNorm
  obtain ⟨N, hN, hNs⟩ := normPQ_sim hc hi hX hY hA
  rw [hN]
  simp only [ok_bind]
  obtain ⟨z, hz, hzs⟩ := pair_sim hP hNs
  rw [hz]
  exact op_error h₀ hzs hr

/-- Without an interpolant, or with one of an earlier trace, dividing raises an error that is caught. -/
theorem divide_none (h₀ : G e₀) {s : StagedSmoothed E} (ho : Old t s.interpolant)
    (hn : concrete s.interpolant = none) {A : Staged E (Fl × Fl × Fl)} {a : E → Fl × Fl × Fl}
    (hA : Sim (.tracing t e₀) G A a) (P : Staged E (List Fl)) :
    ∃ err, s.divideByNorm (.tracing t e₀) P A = .error err ∧ Smoothed.caught err := by
  have hc : CtxOk (.tracing t e₀) G := h₀
  unfold divideByNorm normPQ
  obtain ⟨n, hn', -⟩ := op_sim hc hA
    (fun a => Smoothed.qNorms .jax s.base a.1 a.2.1 a.2.2) _ fun e _ => qNorms_eq ..
  rw [hn']
  rcases hi : s.interpolant with _ | ⟨x, y⟩
  · exact ⟨.attributeError, rfl, trivial⟩
  · rcases ho x y hi with ⟨l, rfl, rfl⟩ | ⟨t₁, t₂, f, g, rfl, rfl, h1, h2⟩
    · rw [hi] at hn; cases hn
    · refine ⟨.typeError, ?_, trivial⟩
      have hne : t₁ ≠ t := h1.ne
      simp only [ok_bind, pair, Staged.read, if_neg hne]
      rfl

/-- `p_q` during a trace: the recorded computation returns what `p_q` returns in this state. -/
theorem pQ_trace (h₀ : G e₀) {s : StagedSmoothed E} (ho : Old t s.interpolant)
    {D : Staged E (List (Fl × Fl))} {d : E → List (Fl × Fl)} (hD : Sim (.tracing t e₀) G D d)
    (hlen : ∀ e, G e → (d e).length = (d e₀).length) {A : Staged E (Fl × Fl × Fl)}
    {a : E → Fl × Fl × Fl} (hA : Sim (.tracing t e₀) G A a) {w : E → List Fl}
    (hw : ∀ e, G e →
      (Smoothed.pQ .jax s.forget (d e) (a e).1 (a e).2.1 (a e).2.2).1 = .ok (w e)) :
    ∃ Y s', s.pQ (.tracing t e₀) D A = (.ok Y, s') ∧ Sim (.tracing t e₀) G Y w ∧
      s'.base = s.base ∧ (s'.interpolant = s.interpolant ∨
        ∃ f g, s'.interpolant = some (.tracer t f, .tracer t g)) := by
  have hc : CtxOk (.tracing t e₀) G := h₀
  obtain ⟨P, hP, hPs⟩ := rawPQ_sim hc hD hA
  set pq : E → List Fl := fun e =>
    (d e).map fun x => pQVal .jax (a e).1 (a e).2.1 (a e).2.2 x.1 x.2 with hpq
  have hM := masses_sim hD
  -- setting the interpolant up again
  obtain ⟨X, hX, hXs⟩ := op_sim hc (sim_known (.tracing t e₀) G ()) (fun _ => Except.ok ())
    (fun _ => ()) fun _ _ => rfl
  obtain ⟨V, hV, hVs⟩ := op_sim hc hM Except.ok _ fun _ _ => rfl
  set s1 : StagedSmoothed E := { s with interpolant := some (X, V) } with hs1
  have hcache : s.cacheQNorms (.tracing t e₀) (masses D) = .ok s1 := by
    unfold cacheQNorms
    rw [hX, ok_bind, hV]
    rfl
  have htr : ∃ f g, s1.interpolant = some (.tracer t f, .tracer t g) := by
    obtain ⟨f, rfl⟩ := op_tracer hX
    obtain ⟨g, rfl⟩ := op_tracer hV
    exact ⟨f, g, rfl⟩
  set r : E → List Fl := fun e => List.zipWith (· / ·) (pq e)
    (normVals s.base (a e) ((d e).map Prod.fst)) with hr
  have hlen' : ∀ e, (pq e).length = (normVals s.base (a e) ((d e).map Prod.fst)).length := by
    intro e; simp [hpq, normVals]
  obtain ⟨Z, hZ, hZs⟩ := divide_sim hc (s := s1) rfl hXs hVs hA hPs (r := r)
    fun e _ => inplaceDiv_same _ (hlen' e)
  obtain ⟨W, hW, hWs⟩ := op_sim hc hZs (fun l => Except.ok (l.map nanToNum)) _ fun _ _ => rfl
  have hfresh : ∀ e, Smoothed.divideByNorm .jax
      (Smoothed.cacheQNorms s.forget ((d e).map Prod.fst)) (pq e) (a e).1 (a e).2.1 (a e).2.2 =
      .ok (r e) := by
    intro e
    rw [divideByNorm_eq (l := (d e).map Prod.fst) rfl]
    exact inplaceDiv_same _ (hlen' e)
  have hraw : ∀ e, (d e).mapM (fun x => Smoothed.pQRaw .jax (a e).1 (a e).2.1 (a e).2.2 x.1 x.2) =
      .ok (pq e) := fun e => mapM_ok fun x _ => pQRaw_eq ..
  unfold pQ
  rw [hP]
  simp only
  by_cases hcb : s.base.cache = true
  · have ht : s.tryBody (.tracing t e₀) (masses D) P A = (s.divideByNorm (.tracing t e₀) P A, s) := by
      unfold tryBody
      rw [if_pos hcb]
    have hcb' : s.forget.cache = true := hcb
    have hh : s.handler (.tracing t e₀) (masses D) P A = (.ok Z, s1) := by
      unfold handler
      rw [hcache]
      simp only [hZ]
    have hrecache : ∀ err, s.divideByNorm (.tracing t e₀) P A = .error err → Smoothed.caught err →
        (∀ e, G e → w e = (r e).map nanToNum) →
        ∃ Y s', (match (s.divideByNorm (.tracing t e₀) P A, s) with
          | (.ok r, s1) => (Staged.op (.tracing t e₀) (fun l => .ok (l.map nanToNum)) r, s1)
          | (.error e, s1) =>
            if Smoothed.caught e then
              let r := s1.handler (.tracing t e₀) (masses D) P A
              (r.1 >>= Staged.op (.tracing t e₀) (fun l => .ok (l.map nanToNum)), r.2)
            else (.error e, s1)) = (.ok Y, s') ∧ Sim (.tracing t e₀) G Y w ∧
          s'.base = s.base ∧ (s'.interpolant = s.interpolant ∨
            ∃ f g, s'.interpolant = some (.tracer t f, .tracer t g)) := by
      intro err he hce hwe
      rw [he]
      simp only
      rw [if_pos hce, hh]
      simp only [ok_bind, hW]
      exact ⟨W, s1, rfl, hWs.congr fun e he => (hwe e he).symm, rfl, Or.inr htr⟩
    rw [ht]
    cases hi : concrete s.interpolant with
    | none =>
      obtain ⟨err, he, hce⟩ := divide_none h₀ ho hi hA P
      refine hrecache err he hce fun e hGe => ?_
      have := hw e hGe
      unfold Smoothed.pQ at this
      rw [hraw e] at this
      simp only [hcb', if_true] at this
      rw [divideByNorm_none (s := s.forget) hi] at this
      simp only at this
      rw [if_pos (show Smoothed.caught .attributeError from trivial), hfresh e] at this
      exact (Except.ok.inj this).symm
    | some l =>
      have hil : s.interpolant = some (.known (), .known l) := by
        rcases hs : s.interpolant with _ | ⟨x, y⟩
        · rw [hs] at hi; cases hi
        · rcases ho x y hs with ⟨l', rfl, rfl⟩ | ⟨t₁, t₂, f, g, rfl, rfl, h1, h2⟩
          · rw [hs] at hi; cases hi; rfl
          · rw [hs] at hi; cases hi
      have hdv : ∀ e, Smoothed.divideByNorm .jax s.forget (pq e) (a e).1 (a e).2.1 (a e).2.2 =
          Smoothed.inplaceDiv .jax (pq e) (normVals s.base (a e) l) := fun e =>
        divideByNorm_eq (s := s.forget) hi _ _
      have hX' := sim_known (.tracing t e₀) G ()
      have hY' := sim_known (.tracing t e₀) G l
      have hlp : ∀ e, G e → (pq e).length = (pq e₀).length := by
        intro e he; simp [hpq, hlen e he]
      have hll : ∀ e, (normVals s.base (a e) l).length = l.length := by intro e; simp [normVals]
      by_cases hcp : Compat (pq e₀).length l.length
      · have hok : ∀ e, G e → ∃ x, Smoothed.inplaceDiv .jax (pq e) (normVals s.base (a e) l) = .ok x :=
          fun e he => inplaceDiv_compat (by rw [hlp e he, hll e]; exact hcp)
        choose! x hx using hok
        obtain ⟨Z', hZ', hZs'⟩ := divide_sim hc hil hX' hY' hA hPs (r := x) hx
        obtain ⟨W', hW', hWs'⟩ := op_sim hc hZs' (fun l => Except.ok (l.map nanToNum)) _ fun _ _ => rfl
        rw [hZ']
        simp only [hW']
        refine ⟨W', s, rfl, hWs'.congr fun e he => ?_, rfl, Or.inl rfl⟩
        have := hw e he
        unfold Smoothed.pQ at this
        rw [hraw e] at this
        simp only [hcb', if_true] at this
        rw [hdv e, hx e he] at this
        exact Except.ok.inj this
      · have hbad : ∀ e, G e →
            Smoothed.inplaceDiv .jax (pq e) (normVals s.base (a e) l) = .error .typeError :=
          fun e he => inplaceDiv_incompat (by rw [hlp e he, hll e]; exact hcp)
        have he := divide_error h₀ hil hX' hY' hA hPs (hbad e₀ h₀)
        refine hrecache _ he trivial fun e hGe => ?_
        have := hw e hGe
        unfold Smoothed.pQ at this
        rw [hraw e] at this
        simp only [hcb', if_true] at this
        rw [hdv e, hbad e hGe] at this
        simp only at this
        rw [if_pos (show Smoothed.caught .typeError from trivial), hfresh e] at this
        exact (Except.ok.inj this).symm
  · have ht : s.tryBody (.tracing t e₀) (masses D) P A = (.ok Z, s1) := by
      unfold tryBody
      rw [if_neg hcb, hcache]
      simp only [hZ]
    rw [ht]
    simp only [hW]
    refine ⟨W, s1, rfl, hWs.congr fun e he => ?_, rfl, Or.inr htr⟩
    have := hw e he
    unfold Smoothed.pQ at this
    rw [hraw e] at this
    have hcb' : s.forget.cache = false := by
      have : s.forget.cache = s.base.cache := rfl
      rw [this]; simpa using hcb
    simp only [hcb', Bool.false_eq_true, if_false] at this
    rw [hfresh e] at this
    exact Except.ok.inj this

end Trace

/-! ### Keyword arguments during a trace -/

theorem get?_of_mem {d : Dict Fl} (h : (Dict.keys d).Nodup) {q : String × Fl} (hq : q ∈ d) :
    Dict.get? d q.1 = some q.2 := by
  induction d with
  | nil => cases hq
  | cons p d ih =>
    obtain ⟨k, x⟩ := p
    rw [Dict.get?_cons]
    have hn : k ∉ Dict.keys d ∧ (Dict.keys d).Nodup := List.nodup_cons.1 h
    rcases List.mem_cons.1 hq with rfl | hq'
    · simp
    · rw [if_neg, ih hn.2 hq']
      rintro rfl
      exact hn.1 (List.mem_map_of_mem hq')

theorem keys_erase {α : Type} (d : Dict α) (k : String) :
    Dict.keys (Dict.erase d k) = (Dict.keys d).filter (fun k' => k' ≠ k) := by
  unfold Dict.keys Dict.erase
  rw [List.filter_map]
  rfl

theorem erase_of_keys {d : Dict Fl} (h : (Dict.keys d).Nodup) (k : String) :
    Dict.erase d k = (Dict.keys (Dict.erase d k)).map fun k' => (k', (Dict.get? d k').getD 0) := by
  unfold Dict.keys
  rw [List.map_map]
  conv_lhs => rw [← List.map_id (Dict.erase d k)]
  apply List.map_congr_left
  intro q hq
  have hq' : q ∈ d := List.mem_of_mem_filter hq
  show q = (q.1, (Dict.get? d q.1).getD 0)
  rw [get?_of_mem h hq']
  rfl

theorem get?_isSome_of_mem {d : Dict Fl} {k : String} (h : k ∈ Dict.keys d) :
    Dict.get? d k = some ((Dict.get? d k).getD 0) := by
  have : (Dict.get? d k).isSome := (Dict.get?_isSome_iff _ _).2 h
  obtain ⟨v, hv⟩ := Option.isSome_iff_exists.1 this
  rw [hv]; rfl

/-- The keyword arguments of the call that is traced. -/
def tracedKw (t : ℕ) (kw : Dict Fl) : Dict (Staged SmoothedArgs Fl) :=
  kw.map fun q => (q.1, .tracer t fun e => Dict.get e.2 q.1)

theorem tracedKw_erase (t : ℕ) (kw : Dict Fl) (k : String) :
    Dict.erase (tracedKw t kw) k = tracedKw t (Dict.erase kw k) := by
  unfold Dict.erase tracedKw
  rw [List.filter_map]
  rfl

theorem tracedKw_keys (t : ℕ) (kw : Dict Fl) : Dict.keys (tracedKw t kw) = Dict.keys kw := by
  simp [Dict.keys, tracedKw]

theorem tracedKw_get? (t : ℕ) (kw : Dict Fl) (k : String) :
    Dict.get? (tracedKw t kw) k =
      (Dict.get? kw k).map fun _ => Staged.tracer t fun e : SmoothedArgs => Dict.get e.2 k :=
  get?_map_snd kw (fun k _ => Staged.tracer t fun e : SmoothedArgs => Dict.get e.2 k) k

section Kw

variable {t : ℕ} {e₀ : SmoothedArgs} {G : SmoothedArgs → Prop}

theorem tracer_get_sim {k : String} (hk : ∀ e, G e → k ∈ Dict.keys e.2) :
    Sim (.tracing t e₀) G (.tracer t fun e : SmoothedArgs => Dict.get e.2 k)
      fun e => (Dict.get? e.2 k).getD 0 := by
  refine ⟨rfl, fun e he => ?_⟩
  beta_reduce
  unfold Dict.get
  rw [get?_isSome_of_mem (hk e he)]
  rfl

theorem kwOperand_sim (hG : ∀ e, G e → Dict.keys e.2 = Dict.keys e₀.2 ∧ (Dict.keys e.2).Nodup)
    (k : String) :
    ∃ K, kwOperand (.tracing t e₀) (tracedKw t (Dict.erase e₀.2 k)) = .ok K ∧
      Sim (.tracing t e₀) G K fun e => Dict.erase e.2 k := by
  set d0 := Dict.erase e₀.2 k with hd0
  have hsub : ∀ q ∈ d0, q.1 ∈ Dict.keys e₀.2 := fun q hq =>
    List.mem_map_of_mem (List.mem_of_mem_filter hq)
  have hf : List.Forall₂ (Sim (.tracing t e₀) G) ((tracedKw t d0).map Prod.snd)
      (d0.map fun q e => (Dict.get? e.2 q.1).getD 0) := by
    unfold tracedKw
    rw [List.map_map, List.forall₂_map_left_iff, List.forall₂_map_right_iff, List.forall₂_same]
    exact fun q hq => tracer_get_sim fun e he => by rw [(hG e he).1]; exact hsub q hq
  obtain ⟨z, hz, hzs⟩ := list_sim hf
  have hval : ∀ e, G e → (Dict.keys d0).zip ((d0.map fun q (e : SmoothedArgs) =>
      (Dict.get? e.2 q.1).getD 0).map fun a => a e) = Dict.erase e.2 k := by
    intro e he
    rw [erase_of_keys (hG e he).2 k, keys_erase e.2, (hG e he).1, ← keys_erase e₀.2, ← hd0]
    unfold Dict.keys
    rw [List.map_map, List.map_map, List.zip_map']
    rfl
  unfold kwOperand
  rw [hz, ok_bind, tracedKw_keys]
  cases z with
  | known l =>
    refine ⟨_, rfl, sim_known' fun e he => ?_⟩
    rw [← hval e he]
    exact congrArg _ (hzs e he)
  | tracer t' f =>
    refine ⟨_, rfl, hzs.1, fun e he => ?_⟩
    beta_reduce
    rw [hzs.2 e he, ok_bind, pure_eq_ok, hval e he]

theorem get?_erase_ne (d : Dict Fl) {k k' : String} (h : k' ≠ k) :
    Dict.get? (Dict.erase d k) k' = Dict.get? d k' := by
  induction d with
  | nil => rfl
  | cons p d ih =>
    obtain ⟨a, x⟩ := p
    unfold Dict.erase at ih ⊢
    rw [List.filter_cons]
    by_cases ha : a = k
    · subst ha
      rw [if_neg (by simp), ih, Dict.get?_cons, if_neg h]
    · rw [if_pos (by simpa using ha), Dict.get?_cons, Dict.get?_cons, ih]

theorem kwGet_sim (hG : ∀ e, G e → Dict.keys e.2 = Dict.keys e₀.2) {k k' : String} (hk : k' ≠ k)
    (v : Fl) :
    Sim (.tracing t e₀) G ((Dict.get? (tracedKw t (Dict.erase e₀.2 k)) k').getD (.known v))
      fun e => Smoothed.kwGet (Dict.erase e.2 k) k' v := by
  rw [tracedKw_get?, get?_erase_ne _ hk]
  unfold Smoothed.kwGet
  simp only [get?_erase_ne _ hk]
  cases h : Dict.get? e₀.2 k' with
  | none =>
    refine sim_known' fun e he => ?_
    have h1 : k' ∉ Dict.keys e₀.2 := fun hm => by
      have := get?_isSome_of_mem hm
      rw [h] at this; cases this
    have : Dict.get? e.2 k' = none := by
      by_contra hne
      have := (Dict.get?_isSome_iff _ _).1 (Option.isSome_iff_ne_none.2 hne)
      exact h1 (by rw [← hG e he]; exact this)
    rw [this]; rfl
  | some x =>
    have h1 : k' ∈ Dict.keys e₀.2 := (Dict.get?_isSome_iff _ _).1 (by rw [h]; rfl)
    have hmem : ∀ e, G e → k' ∈ Dict.keys e.2 := fun e he => by rw [hG e he]; exact h1
    refine (tracer_get_sim hmem).congr fun e he => ?_
    rw [get?_isSome_of_mem (hmem e he)]
    rfl

/-- What a successful call on jax went through. -/
theorem call_inv {s : Smoothed} {d : List (Fl × Fl)} {kw : Dict Fl} {v : List Fl}
    (h : (Smoothed.call .jax s d kw).1 = .ok v) :
    ∃ beta pm pq, Dict.get? kw "beta" = some beta ∧
      (¬ ∃ k ∈ Dict.keys (Dict.erase kw "beta"), k ∈ Dict.keys s.fixed) ∧
      Smoothed.pM1 .jax s (d.map Prod.fst) (Dict.erase kw "beta" ++ s.fixed) = .ok pm ∧
      (Smoothed.pQ .jax s d beta (Smoothed.kwGet (Dict.erase kw "beta") "mmin" (fin s.mmin))
        (Smoothed.kwGet (Dict.erase kw "beta") "delta_m" 0)).1 = .ok pq ∧
      Smoothed.broadcast .jax (· * ·) pm pq = .ok v := by
  unfold Smoothed.call at h
  cases hb : Dict.get? kw "beta" with
  | none => rw [hb] at h; cases h
  | some beta =>
    rw [hb] at h
    simp only [ne_eq, not_true_eq_false, false_and, if_false] at h
    split_ifs at h with hcl
    cases hm : Smoothed.pM1 .jax s (d.map Prod.fst) (Dict.erase kw "beta" ++ s.fixed) with
    | error e => rw [hm] at h; cases h
    | ok pm =>
      rw [hm] at h
      simp only at h
      rcases hq : Smoothed.pQ .jax s d beta
        (Smoothed.kwGet (Dict.erase kw "beta") "mmin" (fin s.mmin))
        (Smoothed.kwGet (Dict.erase kw "beta") "delta_m" 0) with ⟨r, s'⟩
      rw [hq] at h
      cases r with
      | error e => cases h
      | ok pq => exact ⟨beta, pm, pq, rfl, hcl, rfl, by rw [hq], h⟩

/-- A call during a trace: the recorded computation returns, for all arguments with the signature of
the traced ones, what an ordinary call returns in the state at the time of the trace. -/
theorem call_trace (h₀ : G e₀) {s : StagedSmoothed SmoothedArgs} (ho : Old t s.interpolant)
    (hG : ∀ e, G e → smoothedSignature e = smoothedSignature e₀ ∧ (Dict.keys e.2).Nodup)
    {v : SmoothedArgs → List Fl}
    (hv : ∀ e, G e → (Smoothed.call .jax s.forget e.1 e.2).1 = .ok (v e)) :
    ∃ Y s', s.call (.tracing t e₀) (.tracer t fun e => .ok e.1) (tracedKw t e₀.2) = (.ok Y, s') ∧
      Sim (.tracing t e₀) G Y v ∧ s'.base = s.base ∧ (s'.interpolant = s.interpolant ∨
        ∃ f g, s'.interpolant = some (.tracer t f, .tracer t g)) := by
  have hc : CtxOk (.tracing t e₀) G := h₀
  have hlen : ∀ e, G e → e.1.length = e₀.1.length := fun e he => congrArg Prod.fst (hG e he).1
  have hkeys : ∀ e, G e → Dict.keys e.2 = Dict.keys e₀.2 := fun e he => congrArg Prod.snd (hG e he).1
  have hD : Sim (.tracing t e₀) G (.tracer t fun e : SmoothedArgs => .ok e.1) fun e => e.1 :=
    ⟨rfl, fun _ _ => rfl⟩
  have hex : ∀ e, G e → ∃ q : List Fl × List Fl, ∃ beta, Dict.get? e.2 "beta" = some beta ∧
      (¬ ∃ k ∈ Dict.keys (Dict.erase e.2 "beta"), k ∈ Dict.keys s.forget.fixed) ∧
      Smoothed.pM1 .jax s.forget (e.1.map Prod.fst) (Dict.erase e.2 "beta" ++ s.forget.fixed) =
        .ok q.1 ∧
      (Smoothed.pQ .jax s.forget e.1 beta
        (Smoothed.kwGet (Dict.erase e.2 "beta") "mmin" (fin s.forget.mmin))
        (Smoothed.kwGet (Dict.erase e.2 "beta") "delta_m" 0)).1 = .ok q.2 ∧
      Smoothed.broadcast .jax (· * ·) q.1 q.2 = .ok (v e) := by
    intro e he
    obtain ⟨beta, pm, pq, h1, h2, h3, h4, h5⟩ := call_inv (hv e he)
    exact ⟨(pm, pq), beta, h1, h2, h3, h4, h5⟩
  choose! q beta h1 h2 h3 h4 h5 using hex
  unfold call
  rw [tracedKw_get?, h1 e₀ h₀]
  simp only [Option.map, tracedKw_erase, tracedKw_keys]
  rw [if_neg (show ¬ ∃ k ∈ Dict.keys (Dict.erase e₀.2 "beta"), k ∈ Dict.keys s.base.fixed from
    h2 e₀ h₀)]
  have hbeta : Sim (.tracing t e₀) G (.tracer t fun e : SmoothedArgs => Dict.get e.2 "beta") beta := by
    refine ⟨rfl, fun e he => ?_⟩
    beta_reduce
    unfold Dict.get
    rw [h1 e he]
  -- the primary mass
  have hpm : ∃ PM, s.pM1 (.tracing t e₀) (.tracer t fun e => .ok e.1)
      (tracedKw t (Dict.erase e₀.2 "beta")) = .ok PM ∧ Sim (.tracing t e₀) G PM fun e => (q e).1 := by
    unfold pM1
    obtain ⟨K, hK, hKs⟩ := kwOperand_sim (t := t) (fun e he => ⟨hkeys e he, (hG e he).2⟩) "beta"
    rw [hK, ok_bind]
    obtain ⟨z, hz, hzs⟩ := pair_sim hD hKs
    rw [hz, ok_bind]
    refine op_sim hc hzs _ _ fun e he => ?_
    rw [← h3 e he, pM1_config .jax s.forget_cfg]
    rfl
  obtain ⟨PM, hPM, hPMs⟩ := hpm
  rw [hPM]
  simp only
  -- the arguments of the mass-ratio part
  have hargs : ∃ A, s.qArgs (.tracing t e₀) (.tracer t fun e => Dict.get e.2 "beta")
      (tracedKw t (Dict.erase e₀.2 "beta")) = .ok A ∧ Sim (.tracing t e₀) G A fun e =>
        (beta e, Smoothed.kwGet (Dict.erase e.2 "beta") "mmin" (fin s.base.mmin),
          Smoothed.kwGet (Dict.erase e.2 "beta") "delta_m" 0) := by
    unfold qArgs
    obtain ⟨z, hz, hzs⟩ := pair_sim
      (kwGet_sim (t := t) hkeys (k := "beta") (k' := "mmin") (by decide) (fin s.base.mmin))
      (kwGet_sim (t := t) hkeys (k := "beta") (k' := "delta_m") (by decide) 0)
    rw [hz, ok_bind]
    exact pair_sim hbeta hzs
  obtain ⟨A, hA, hAs⟩ := hargs
  rw [hA]
  simp only
  obtain ⟨PQ, s', hPQ, hPQs, hb, hi⟩ := pQ_trace h₀ ho hD hlen hAs (w := fun e => (q e).2)
    fun e he => h4 e he
  rw [hPQ]
  simp only
  unfold times
  obtain ⟨z, hz, hzs⟩ := pair_sim hPMs hPQs
  rw [hz, ok_bind]
  obtain ⟨Y, hY, hYs⟩ := op_sim hc hzs
    (fun a => Smoothed.broadcast .jax (· * ·) a.1 a.2) v fun e he => h5 e he
  exact ⟨Y, s', by rw [hY], hYs, hb, hi⟩

end Kw

end StagedSmoothed

end GW
