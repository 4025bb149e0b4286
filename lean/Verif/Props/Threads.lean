import Verif.Model.Threads
import Verif.Props.SharedSmoothed

/-!
# C122, C123: smoothed mass models in threads, and interrupted evaluations
-/

noncomputable section

open Classical

namespace GW

open Fl Spec

namespace SharedSmoothed

/-! ### Steps and whole evaluations -/

/-- What an evaluation does with the attribute once it is prepared. -/
theorem call_of_prepare (b : Backend) (m : SharedSmoothed) (data : Shaped (Fl × Fl)) (kwargs : Dict Fl) :
    call b m data kwargs = match prepare b m data kwargs with
      | .error e => (.error e, m)
      | .ok l =>
        let m1 := if m.inst.cache then m else cacheQNorms m (data.map Prod.fst)
        match divideByNorm b m1 l.pq l.beta l.mmin l.deltaM with
        | .ok r => (finish b l (.ok r), m1)
        | .error e =>
          if Smoothed.caught e then
            let m2 := cacheQNorms m1 (data.map Prod.fst)
            (finish b l (divideByNorm b m2 l.pq l.beta l.mmin l.deltaM), m2)
          else (.error e, m1) := by
  unfold call prepare
  cases Dict.get? kwargs "beta" with
  | none => rfl
  | some beta =>
    simp only
    by_cases h1 : b ≠ .jax ∧ Smoothed.kwGet (Dict.erase kwargs "beta") "mmin" (fin m.inst.mmin) < fin m.inst.mmin
    · simp only [if_pos h1]
    simp only [if_neg h1]
    by_cases h2 : b ≠ .jax ∧ fin m.inst.mmax < Smoothed.kwGet (Dict.erase kwargs "beta") "mmax" (fin m.inst.mmax)
    · simp only [if_pos h2]
    simp only [if_neg h2]
    by_cases h3 : ∃ k ∈ Dict.keys (Dict.erase kwargs "beta"), k ∈ Dict.keys m.inst.fixed
    · simp only [if_pos h3]
    simp only [if_neg h3]
    cases pM1 b m (data.map Prod.fst) (Dict.erase kwargs "beta" ++ m.inst.fixed) with
    | error e => rfl
    | ok pm =>
      unfold pQ
      simp only
      cases data.mapM (fun d => Smoothed.pQRaw b beta
        (Smoothed.kwGet (Dict.erase kwargs "beta") "mmin" (fin m.inst.mmin))
        (Smoothed.kwGet (Dict.erase kwargs "beta") "delta_m" 0) d.1 d.2) with
      | error e => rfl
      | ok pq =>
        simp only
        generalize (if m.inst.cache = true then m else cacheQNorms m (data.map Prod.fst)) = m1
        cases divideByNorm b m1 pq beta (Smoothed.kwGet (Dict.erase kwargs "beta") "mmin" (fin m.inst.mmin))
          (Smoothed.kwGet (Dict.erase kwargs "beta") "delta_m" 0) with
        | ok r => rfl
        | error e =>
          simp only
          by_cases hc : Smoothed.caught e
          · simp only [if_pos hc]
            cases divideByNorm b (cacheQNorms m1 (data.map Prod.fst)) pq beta
              (Smoothed.kwGet (Dict.erase kwargs "beta") "mmin" (fin m.inst.mmin))
              (Smoothed.kwGet (Dict.erase kwargs "beta") "delta_m" 0) <;> rfl
          · simp only [if_neg hc]

theorem advance_finished (b : Backend) (q : Request) (m : SharedSmoothed) (r : Except PyErr (Shaped Fl)) (k : ℕ) :
    advanceN b q m (.finished r) k = (.finished r, m) := by
  induction k with
  | zero => rfl
  | succ k ih => exact ih

theorem advanceN_add (b : Backend) (q : Request) (m : SharedSmoothed) (st : Stage) (j k : ℕ) :
    advanceN b q m st (j + k) = advanceN b q (advanceN b q m st j).2 (advanceN b q m st j).1 k := by
  induction j generalizing m st with
  | zero => rw [Nat.zero_add]; rfl
  | succ j ih =>
    rw [Nat.succ_add]
    exact ih _ _

/-- The parts of an evaluation that do not use the attribute. -/
theorem prepare_congr (b : Backend) {m m' : SharedSmoothed} (h : m'.inst = m.inst) (data : Shaped (Fl × Fl))
    (kwargs : Dict Fl) : prepare b m' data kwargs = prepare b m data kwargs := by
  unfold prepare pM1
  rw [h]

theorem advance_inst (b : Backend) (q : Request) (m : SharedSmoothed) (st : Stage) :
    (advance b q m st).2 = m ∨ (advance b q m st).2 = cacheQNorms m (q.data.map Prod.fst) := by
  cases st with
  | begin =>
    left
    simp only [advance]
    cases prepare b m q.data q.kwargs <;> rfl
  | write again l => right; rfl
  | read again l =>
    left
    simp only [advance]
    cases divideByNorm b m l.pq l.beta l.mmin l.deltaM with
    | ok r => rfl
    | error e => simp only; split_ifs <;> rfl
  | finished r => left; rfl

/-- **C122, the steps are those of an evaluation**: five steps of an evaluation that is not disturbed finish it, with the
outcome and the instance of an evaluation from beginning to end. -/
theorem C122_undisturbed (b : Backend) (q : Request) (m : SharedSmoothed) :
    advanceN b q m .begin 5 = (.finished (call b m q.data q.kwargs).1, (call b m q.data q.kwargs).2) := by
  rw [call_of_prepare]
  show advanceN b q (advance b q m .begin).2 (advance b q m .begin).1 4 = _
  simp only [advance]
  cases hp : prepare b m q.data q.kwargs with
  | error e => exact advance_finished b q m _ 4
  | ok l =>
    simp only
    have key : ∀ (m1 : SharedSmoothed) (k : ℕ), 3 ≤ k → advanceN b q m1 (.read false l) k =
        ((match divideByNorm b m1 l.pq l.beta l.mmin l.deltaM with
        | .ok r => ((.finished (finish b l (.ok r)), m1) : Stage × SharedSmoothed)
        | .error e =>
          if Smoothed.caught e then
            (.finished (finish b l (divideByNorm b (cacheQNorms m1 (q.data.map Prod.fst)) l.pq l.beta l.mmin l.deltaM)),
              cacheQNorms m1 (q.data.map Prod.fst))
          else (.finished (.error e), m1))) := by
      intro m1 k hk
      obtain ⟨k, rfl⟩ := Nat.exists_eq_add_of_le' hk
      show advanceN b q (advance b q m1 (.read false l)).2 (advance b q m1 (.read false l)).1 (k + 2) = _
      simp only [advance]
      cases divideByNorm b m1 l.pq l.beta l.mmin l.deltaM with
      | ok r => exact advance_finished b q m1 _ _
      | error e =>
        simp only [true_and]
        by_cases hc : Smoothed.caught e
        · simp only [if_pos hc]
          show advanceN b q (advance b q (cacheQNorms m1 (q.data.map Prod.fst)) (.read true l)).2
            (advance b q (cacheQNorms m1 (q.data.map Prod.fst)) (.read true l)).1 k = _
          simp only [advance]
          cases divideByNorm b (cacheQNorms m1 (q.data.map Prod.fst)) l.pq l.beta l.mmin l.deltaM with
          | ok r => exact advance_finished b q _ _ _
          | error e =>
            simp only [Bool.true_eq_false, false_and, if_false]
            exact advance_finished b q _ _ _
        · simp only [if_neg hc]
          exact advance_finished b q _ _ _
    have fin2 : ∀ m1 : SharedSmoothed, (match divideByNorm b m1 l.pq l.beta l.mmin l.deltaM with
        | .ok r => ((.finished (finish b l (.ok r)), m1) : Stage × SharedSmoothed)
        | .error e =>
          if Smoothed.caught e then
            (.finished (finish b l (divideByNorm b (cacheQNorms m1 (q.data.map Prod.fst)) l.pq l.beta l.mmin l.deltaM)),
              cacheQNorms m1 (q.data.map Prod.fst))
          else (.finished (.error e), m1)) =
        (let c := (match divideByNorm b m1 l.pq l.beta l.mmin l.deltaM with
          | .ok r => (finish b l (.ok r), m1)
          | .error e =>
            if Smoothed.caught e then
              let m2 := cacheQNorms m1 (q.data.map Prod.fst)
              (finish b l (divideByNorm b m2 l.pq l.beta l.mmin l.deltaM), m2)
            else (.error e, m1))
        (.finished c.1, c.2)) := by
      intro m1
      cases divideByNorm b m1 l.pq l.beta l.mmin l.deltaM with
      | ok r => rfl
      | error e => simp only; split_ifs <;> rfl
    by_cases hcache : m.inst.cache = true
    · simp only [if_pos hcache]
      rw [key m 4 (by norm_num), fin2]
    · simp only [if_neg hcache]
      show advanceN b q (cacheQNorms m (q.data.map Prod.fst)) (.read false l) 3 = _
      rw [key _ 3 le_rfl, fin2]

/-! ### C123: interrupted evaluations -/

theorem cacheQNorms_twice (m : SharedSmoothed) (l : Shaped Fl) : cacheQNorms (cacheQNorms m l) l = cacheQNorms m l := rfl

theorem advanceN_inst (b : Backend) (q : Request) (m : SharedSmoothed) (st : Stage) (k : ℕ) :
    (advanceN b q m st k).2 = m ∨ (advanceN b q m st k).2 = cacheQNorms m (q.data.map Prod.fst) := by
  induction k generalizing m st with
  | zero => exact Or.inl rfl
  | succ k ih =>
    have h := ih (advance b q m st).2 (advance b q m st).1
    show (advanceN b q (advance b q m st).2 (advance b q m st).1 k).2 = m ∨
      (advanceN b q (advance b q m st).2 (advance b q m st).1 k).2 = cacheQNorms m (q.data.map Prod.fst)
    rcases advance_inst b q m st with h1 | h1
    · rw [h1] at h ⊢; exact h
    · right
      rw [h1] at h ⊢
      rcases h with h | h <;> exact h

/-- **C123, one evaluation**: whenever an evaluation is abandoned, the instance is as it was before, or as a complete
evaluation leaves it. -/
theorem C123_atomic (b : Backend) (q : Request) (m : SharedSmoothed) (k : ℕ) :
    (advanceN b q m .begin k).2 = m ∨ (advanceN b q m .begin k).2 = (call b m q.data q.kwargs).2 := by
  rcases advanceN_inst b q m .begin k with h | h
  · exact Or.inl h
  · right
    have h1 : (advanceN b q m .begin (k + 5)).2 = (advanceN b q m .begin k).2 := by
      rw [advanceN_add]
      rcases advanceN_inst b q (advanceN b q m .begin k).2 (advanceN b q m .begin k).1 5 with h' | h'
      · exact h'
      · rw [h', h, cacheQNorms_twice]
    have h2 : (advanceN b q m .begin (5 + k)).2 = (call b m q.data q.kwargs).2 := by
      rw [advanceN_add, C122_undisturbed, advance_finished]
    rw [← h1, Nat.add_comm, h2]

/-- The arguments of `call`. -/
def Request.args (q : Request) : Shaped (Fl × Fl) × Dict Fl := (q.data, q.kwargs)

/-- **C123, histories**: after any history of evaluations, each abandoned at any point or complete, the instance is the
one after a history of some of these evaluations, all complete. -/
theorem C123_history (b : Backend) (m : SharedSmoothed) (hist : List (Request × ℕ)) :
    ∃ complete : List Request, complete.Sublist (hist.map Prod.fst) ∧
      runInterrupted b m hist = runCalls b m (complete.map Request.args) := by
  induction hist generalizing m with
  | nil => exact ⟨[], List.Sublist.refl _, rfl⟩
  | cons c hist ih =>
    obtain ⟨q, k⟩ := c
    obtain ⟨cs, hsub, hrun⟩ := ih (advanceN b q m .begin k).2
    rcases C123_atomic b q m k with h | h
    · exact ⟨cs, hsub.cons _, by show runInterrupted b _ hist = _; rw [hrun, h]⟩
    · exact ⟨q :: cs, hsub.cons_cons _, by show runInterrupted b _ hist = _; rw [hrun, h]; rfl⟩

/-- **C123, later evaluations**: a complete evaluation after a history of interrupted ones returns what a new instance
returns, under the conditions needed for complete ones: the instance does not cache, or each earlier dataset has the
same masses or a shape by which the values of this dataset cannot be divided. -/
theorem C123_later (b : Backend) (s : Smoothed) (hist : List (Request × ℕ)) (q : Request)
    (h : s.cache = false ∨ ∀ c ∈ hist, c.1.data.map Prod.fst = q.data.map Prod.fst ∨
      ¬ Divides b q.data.shape c.1.data.shape) :
    (call b (runInterrupted b (new s) hist) q.data q.kwargs).1 = (call b (new s) q.data q.kwargs).1 := by
  obtain ⟨cs, hsub, hrun⟩ := C123_history b (new s) hist
  rw [hrun]
  apply call_history
  rcases h with h | h
  · exact Or.inl h
  · right
    intro c hc
    obtain ⟨p, hp, rfl⟩ := List.mem_map.1 hc
    obtain ⟨p', hp', rfl⟩ := List.mem_map.1 (hsub.subset hp)
    exact h p' hp'

/-- The default instance, interrupted four times in evaluations of two events with three samples each and of five
injections, evaluates another point of the parameter space. -/
example (samples inj : List ℕ → Fl × Fl) (θ₁ θ₂ θ₃ : Dict Fl) {s : Smoothed}
    (_ : singlePeak false 2 100 1000 500 true = .ok s) :
    let events : Shaped (Fl × Fl) := ⟨[3, 2], samples⟩
    let injections : Shaped (Fl × Fl) := ⟨[5], inj⟩
    (call .numpy (runInterrupted .numpy (new s) [(⟨events, θ₁⟩, 1), (⟨injections, θ₁⟩, 3), (⟨events, θ₂⟩, 2),
      (⟨injections, θ₂⟩, 4)]) events θ₃).1 = (call .numpy (new s) events θ₃).1 := by
  intro events injections
  refine C123_later .numpy s _ ⟨events, θ₃⟩ (Or.inr ?_)
  have hd : ¬ Divides .numpy [3, 2] [5] := by
    rintro ⟨r, hr, -⟩
    simp [NArr.bshape] at hr
  intro c hc
  simp only [List.mem_cons, List.not_mem_nil, or_false] at hc
  rcases hc with rfl | rfl | rfl | rfl
  · exact Or.inl rfl
  · exact Or.inr hd
  · exact Or.inl rfl
  · exact Or.inr hd

/-! ### C122: threads -/

/-- **C122, full statement**: whatever the schedule of threads that evaluate one new instance, every evaluation that has
finished has the outcome it has alone. -/
def C122_statement (cache : Bool) : Prop :=
  ∀ (b : Backend) (py : Bool) (selfMin selfMax : ℝ) (nM nQ : ℕ) (s : Smoothed),
    singlePeak py selfMin selfMax nM nQ cache = .ok s →
    ∀ (req : ℕ → Request) (schedule : List ℕ) (i : ℕ) (r : Except PyErr (Shaped Fl)),
      ((World.start (new s)).run b req schedule).stage i = .finished r →
      r = (call b (new s) (req i).data (req i).kwargs).1

/-- The outcome on a new instance. -/
theorem fresh_outcome (b : Backend) (s : Smoothed) (data : Shaped (Fl × Fl)) (kwargs : Dict Fl) :
    (call b (new s) data kwargs).1 = match prepare b (new s) data kwargs with
      | .error e => .error e
      | .ok l => finish b l (divideByNorm b (cacheQNorms (new s) (data.map Prod.fst)) l.pq l.beta l.mmin l.deltaM) := by
  rw [call_of_prepare]
  cases prepare b (new s) data kwargs with
  | error e => rfl
  | ok l =>
    simp only
    by_cases hc : (new s).inst.cache = true
    · simp only [if_pos hc]
      have h : divideByNorm b (new s) l.pq l.beta l.mmin l.deltaM = .error .attributeError := by
        unfold divideByNorm
        rw [normPQ_shaped]
        rfl
      rw [h]
      simp only
      rw [if_pos (show Smoothed.caught .attributeError from trivial)]
    · simp only [if_neg hc]
      cases h : divideByNorm b (cacheQNorms (new s) (data.map Prod.fst)) l.pq l.beta l.mmin l.deltaM with
      | ok r => rfl
      | error e =>
        simp only
        by_cases he : Smoothed.caught e
        · simp only [if_pos he]
          rw [cacheQNorms_twice, h]
        · simp only [if_neg he]
          rfl

theorem run_append (b : Backend) (req : ℕ → Request) (w : World) (l l' : List ℕ) :
    w.run b req (l ++ l') = (w.run b req l).run b req l' := List.foldl_append ..

/-- Steps still to be made, at most. -/
def Stage.rank : Stage → ℕ
  | .begin => 5
  | .write false _ => 4
  | .read false _ => 3
  | .write true _ => 2
  | .read true _ => 1
  | .finished _ => 0

theorem advance_rank (b : Backend) (q : Request) (m : SharedSmoothed) (st : Stage) :
    (advance b q m st).1.rank ≤ st.rank - 1 := by
  cases st with
  | begin =>
    simp only [advance]
    cases prepare b m q.data q.kwargs with
    | error e => simp [Stage.rank]
    | ok l => simp only; split_ifs <;> simp [Stage.rank]
  | write again l => cases again <;> simp [advance, Stage.rank]
  | read again l =>
    simp only [advance]
    cases divideByNorm b m l.pq l.beta l.mmin l.deltaM with
    | ok r => simp [Stage.rank]
    | error e =>
      simp only
      by_cases h : again = false ∧ Smoothed.caught e
      · rw [if_pos h]
        rw [h.1]
        simp [Stage.rank]
      · rw [if_neg h]
        simp [Stage.rank]
  | finished r => simp [advance, Stage.rank]

theorem run_rank (b : Backend) (req : ℕ → Request) (w : World) (schedule : List ℕ) (i : ℕ) :
    ((w.run b req schedule).stage i).rank ≤ (w.stage i).rank - schedule.count i := by
  induction schedule generalizing w with
  | nil => exact le_rfl
  | cons j l ih =>
    have h := ih (w.step b req j)
    refine (show ((w.run b req (j :: l)).stage i).rank ≤ _ from h).trans ?_
    by_cases hj : j = i
    · subst hj
      have h1 := advance_rank b (req j) w.inst (w.stage j)
      have h2 : (w.step b req j).stage j = (advance b (req j) w.inst (w.stage j)).1 := if_pos rfl
      rw [h2, List.count_cons_self]
      omega
    · have h2 : (w.step b req j).stage i = w.stage i := if_neg (Ne.symm hj)
      rw [h2, List.count_cons_of_ne hj]

/-- **C122, termination**: a thread that is scheduled five times has finished, whatever the others do. -/
theorem C122_terminates (b : Backend) (req : ℕ → Request) (m : SharedSmoothed) (schedule : List ℕ) (i : ℕ)
    (h : 5 ≤ schedule.count i) : ∃ r, ((World.start m).run b req schedule).stage i = .finished r := by
  have h1 := run_rank b req (World.start m) schedule i
  have h2 : ((World.start m).stage i).rank = 5 := rfl
  have h3 : (((World.start m).run b req schedule).stage i).rank = 0 := by omega
  cases hst : ((World.start m).run b req schedule).stage i with
  | finished r => exact ⟨r, rfl⟩
  | begin => rw [hst] at h3; cases h3
  | write again l => rw [hst] at h3; cases again <;> cases h3
  | read again l => rw [hst] at h3; cases again <;> cases h3

/-- What holds of every thread when all datasets have the masses `c`. -/
def Sound (b : Backend) (s : Smoothed) (c : Shaped Fl) (q : Request) (m : SharedSmoothed) : Stage → Prop
  | .begin => True
  | .write _ l => prepare b (new s) q.data q.kwargs = .ok l
  | .read again l => prepare b (new s) q.data q.kwargs = .ok l ∧ (again = true ∨ s.cache = false → m.masses = some c)
  | .finished r => r = (call b (new s) q.data q.kwargs).1

theorem sound_cache {b : Backend} {s : Smoothed} {c : Shaped Fl} {q : Request} {m : SharedSmoothed} {st : Stage}
    (h : Sound b s c q m st) : Sound b s c q (cacheQNorms m c) st := by
  cases st with
  | begin => trivial
  | write again l => exact h
  | read again l => exact ⟨h.1, fun _ => rfl⟩
  | finished r => exact h

theorem advance_sound {b : Backend} {s : Smoothed} {c : Shaped Fl} {q : Request} (hq : q.data.map Prod.fst = c)
    {m : SharedSmoothed} (hi : m.inst = s) (hm : m.masses = none ∨ m.masses = some c) {st : Stage}
    (h : Sound b s c q m st) : Sound b s c q (advance b q m st).2 (advance b q m st).1 := by
  have hsome : m.masses = some c → m = cacheQNorms (new s) c := by
    intro hs
    obtain ⟨i, l⟩ := m
    simp only at hi hs
    rw [hi, hs]
    rfl
  cases st with
  | begin =>
    simp only [advance]
    rw [prepare_congr b (show m.inst = (new s).inst from hi)]
    cases hp : prepare b (new s) q.data q.kwargs with
    | error e =>
      show _ = _
      rw [fresh_outcome, hp]
    | ok l =>
      simp only [hi]
      by_cases hc : s.cache = true
      · simp only [if_pos hc]
        refine ⟨hp, fun h => ?_⟩
        rcases h with h | h
        · cases h
        · rw [hc] at h; cases h
      · simp only [if_neg hc]
        exact hp
  | write again l =>
    exact ⟨h, fun _ => by rw [← hq]; rfl⟩
  | read again l =>
    obtain ⟨hp, hag⟩ := h
    have right : m.masses = some c → ∀ x, divideByNorm b m l.pq l.beta l.mmin l.deltaM = x →
        finish b l x = (call b (new s) q.data q.kwargs).1 := by
      intro hc x hx
      rw [fresh_outcome, hp]
      simp only
      rw [hq, ← hsome hc, hx]
    simp only [advance]
    cases hd : divideByNorm b m l.pq l.beta l.mmin l.deltaM with
    | ok r =>
      have hc : m.masses = some c := by
        rcases hm with h | h
        · exfalso
          unfold divideByNorm at hd
          rw [normPQ_shaped, h] at hd
          cases hd
        · exact h
      exact right hc _ hd
    | error e =>
      simp only
      by_cases hc : again = false ∧ Smoothed.caught e
      · simp only [if_pos hc]
        exact hp
      · simp only [if_neg hc]
        have hmc : m.masses = some c := by
          rcases hm with h | h
          · exfalso
            unfold divideByNorm at hd
            rw [normPQ_shaped, h] at hd
            cases hd
            have ha : again = true := by
              cases again
              · exact absurd ⟨rfl, trivial⟩ hc
              · rfl
            rw [hag (Or.inl ha)] at h
            cases h
          · exact h
        exact right hmc _ hd
  | finished r => exact h

/-- **C122, proved part.** Threads that evaluate datasets with the same masses on one new instance, with any
hyper-parameters (also ones that raise), whether or not the instance caches: for every schedule, each evaluation that
has finished has the outcome it has alone. Missing: datasets with different masses, for which it is false, see
`C122_silent_partial`, `C122_raises_partial` and `C122_fails`. -/
theorem C122_same_partial (b : Backend) (s : Smoothed) (req : ℕ → Request) (schedule : List ℕ)
    (h : ∀ i ∈ schedule, ∀ j ∈ schedule, (req i).data.map Prod.fst = (req j).data.map Prod.fst)
    {i : ℕ} {r : Except PyErr (Shaped Fl)}
    (hr : ((World.start (new s)).run b req schedule).stage i = .finished r) :
    r = (call b (new s) (req i).data (req i).kwargs).1 := by
  rcases schedule with _ | ⟨j₀, rest⟩
  · cases hr
  set c := (req j₀).data.map Prod.fst with hc
  have hall : ∀ j ∈ j₀ :: rest, (req j).data.map Prod.fst = c := fun j hj => h j hj j₀ (by simp)
  generalize j₀ :: rest = sched at hall hr
  have key : ∀ (l : List ℕ) (w : World), (∀ j ∈ l, (req j).data.map Prod.fst = c) → w.inst.inst = s →
      (w.inst.masses = none ∨ w.inst.masses = some c) → (∀ j, Sound b s c (req j) w.inst (w.stage j)) →
      ∀ j, Sound b s c (req j) (w.run b req l).inst ((w.run b req l).stage j) := by
    intro l
    induction l with
    | nil => intro w _ _ _ hs; exact hs
    | cons k l ih =>
      intro w hl hi hm hs
      have hk := hl k (by simp)
      have hst := advance_inst b (req k) w.inst (w.stage k)
      rw [hk] at hst
      refine ih (w.step b req k) (fun j hj => hl j (by simp [hj])) ?_ ?_ ?_
      · show (advance b (req k) w.inst (w.stage k)).2.inst = s
        rcases hst with h | h <;> rw [h]
        · exact hi
        · exact hi
      · show (advance b (req k) w.inst (w.stage k)).2.masses = none ∨
          (advance b (req k) w.inst (w.stage k)).2.masses = some c
        rcases hst with h | h <;> rw [h]
        · exact hm
        · exact Or.inr rfl
      · intro j
        by_cases hj : j = k
        · subst hj
          have h2 : (w.step b req j).stage j = (advance b (req j) w.inst (w.stage j)).1 := if_pos rfl
          rw [h2]
          exact advance_sound hk hi hm (hs j)
        · have h2 : (w.step b req k).stage j = w.stage j := if_neg hj
          rw [h2]
          show Sound b s c (req j) (advance b (req k) w.inst (w.stage k)).2 _
          rcases hst with h | h <;> rw [h]
          · exact hs j
          · exact sound_cache (hs j)
  have hfin := key sched (World.start (new s)) hall rfl (Or.inl rfl) (fun _ => trivial) i
  rw [hr] at hfin
  exact hfin

/-- Two threads evaluate the posterior samples for two points of the parameter space, interleaved, and finish. -/
example (samples : List ℕ → Fl × Fl) (θ₀ θ₁ : Dict Fl) {s : Smoothed}
    (_ : singlePeak false 2 100 1000 500 true = .ok s) :
    let req : ℕ → Request := fun i => ⟨⟨[3, 2], samples⟩, if i = 0 then θ₀ else θ₁⟩
    let schedule := [0, 1, 1, 0, 0, 1, 1, 0, 0, 1]
    ((World.start (new s)).run .numpy req schedule).stage 1 =
      .finished (call .numpy (new s) ⟨[3, 2], samples⟩ θ₁).1 := by
  intro req schedule
  obtain ⟨r, hr⟩ := C122_terminates .numpy req (new s) schedule 1 (by decide)
  rw [hr, C122_same_partial .numpy s req schedule (fun _ _ _ _ => rfl) hr]
  rfl

/-- Two threads: the requests `q` of thread 0 and `q'` of the others. -/
def twoThreads (q q' : Request) (i : ℕ) : Request := if i = 0 then q else q'

/-- One step of thread 0. -/
theorem step_zero (b : Backend) (q q' : Request) (m : SharedSmoothed) (st st' : Stage) (f : ℕ → Stage) :
    (⟨m, fun i => if i = 0 then st else if i = 1 then st' else f i⟩ : World).step b (twoThreads q q') 0 =
      ⟨(advance b q m st).2, fun i => if i = 0 then (advance b q m st).1 else if i = 1 then st' else f i⟩ := by
  unfold World.step
  simp only [twoThreads, if_true]
  congr 1
  funext j
  by_cases h : j = 0 <;> simp [h]

/-- One step of thread 1. -/
theorem step_one (b : Backend) (q q' : Request) (m : SharedSmoothed) (st st' : Stage) (f : ℕ → Stage) :
    (⟨m, fun i => if i = 0 then st else if i = 1 then st' else f i⟩ : World).step b (twoThreads q q') 1 =
      ⟨(advance b q' m st').2, fun i => if i = 0 then st else if i = 1 then (advance b q' m st').1 else f i⟩ := by
  unfold World.step
  simp only [twoThreads, one_ne_zero, if_true, if_false]
  congr 1
  funext j
  by_cases h : j = 1
  · simp [h]
  · simp [h]

theorem start_two (m : SharedSmoothed) :
    World.start m = ⟨m, fun i => if i = 0 then .begin else if i = 1 then .begin else .begin⟩ := by
  unfold World.start
  congr 1
  funext i
  split_ifs <;> rfl

theorem divide_none (b : Backend) (s : Smoothed) (pq : Shaped Fl) (beta mmin deltaM : Fl) :
    divideByNorm b (new s) pq beta mmin deltaM = .error .attributeError := by
  unfold divideByNorm
  rw [normPQ_shaped]
  rfl

theorem advance_read_none (b : Backend) (q : Request) (s : Smoothed) (l : Locals) :
    advance b q (new s) (.read false l) = (.write true l, new s) := by
  simp only [advance]
  rw [divide_none]
  simp only
  rw [if_pos ⟨trivial, trivial⟩]

/-- A schedule after which thread 0 is about to read what thread 1 has written. -/
theorem race (b : Backend) (s : Smoothed) (q q' : Request) {l l' : Locals}
    (hl : prepare b (new s) q.data q.kwargs = .ok l) (hl' : prepare b (new s) q'.data q'.kwargs = .ok l') :
    ∃ (schedule : List ℕ) (again : Bool), again = s.cache ∧
      (World.start (new s)).run b (twoThreads q q') schedule =
        ⟨cacheQNorms (new s) (q'.data.map Prod.fst),
          fun i => if i = 0 then .read again l else if i = 1 then .read again l' else .begin⟩ := by
  have b0 : advance b q (new s) .begin = (if s.cache = true then .read false l else .write false l, new s) := by
    simp only [advance, hl]; rfl
  have b1 : advance b q' (new s) .begin = (if s.cache = true then .read false l' else .write false l', new s) := by
    simp only [advance, hl']; rfl
  by_cases hc : s.cache = true
  · refine ⟨[0, 0, 1, 1, 0, 1], true, hc.symm, ?_⟩
    rw [start_two]
    simp only [World.run, List.foldl_cons, List.foldl_nil]
    rw [if_pos hc] at b0 b1
    rw [step_zero, b0, step_zero, advance_read_none, step_one, b1, step_one, advance_read_none, step_zero, step_one]
    rfl
  · refine ⟨[0, 1, 0, 1], false, ?_, ?_⟩
    · cases h : s.cache
      · rfl
      · exact absurd h hc
    rw [start_two]
    simp only [World.run, List.foldl_cons, List.foldl_nil]
    rw [if_neg hc] at b0 b1
    rw [step_zero, b0, step_one, b1, step_zero, step_one]
    rfl

/-- A caching instance divides by what it has cached, and sets up the interpolant if that fails. -/
theorem call_caching (b : Backend) {m : SharedSmoothed} (hc : m.inst.cache = true) {data : Shaped (Fl × Fl)}
    {kwargs : Dict Fl} {l : Locals} (hp : prepare b m data kwargs = .ok l) :
    call b m data kwargs = match divideByNorm b m l.pq l.beta l.mmin l.deltaM with
      | .ok r => (finish b l (.ok r), m)
      | .error e =>
        if Smoothed.caught e then
          (finish b l (divideByNorm b (cacheQNorms m (data.map Prod.fst)) l.pq l.beta l.mmin l.deltaM),
            cacheQNorms m (data.map Prod.fst))
        else (.error e, m) := by
  rw [call_of_prepare, hp]
  simp only [if_pos hc]

theorem prepare_of_ok {b : Backend} {s : Smoothed} {q : Request} {r : Shaped Fl}
    (h : (call b (new s) q.data q.kwargs).1 = .ok r) : ∃ l, prepare b (new s) q.data q.kwargs = .ok l := by
  rw [fresh_outcome] at h
  cases hp : prepare b (new s) q.data q.kwargs with
  | error e => rw [hp] at h; cases h
  | ok l => exact ⟨l, rfl⟩

theorem divide_divides {b : Backend} {s : Smoothed} {q : Request} {l : Locals}
    (hl : prepare b (new s) q.data q.kwargs = .ok l) : l.pq.shape = q.data.shape := by
  unfold prepare at hl
  cases hb : Dict.get? q.kwargs "beta" with
  | none => rw [hb] at hl; cases hl
  | some beta =>
    rw [hb] at hl
    simp only at hl
    split_ifs at hl
    split at hl
    · cases hl
    · rw [raw_values] at hl
      simp only at hl
      rw [← Except.ok.inj hl]

/-- **C122, silent errors**: two threads whose datasets have the same shape but different masses. There is a schedule
for which the first thread's evaluation finishes without an exception with the outcome that a caching instance has
after the second thread's evaluation: its mass-ratio density is divided by the norms for the masses of the *other*
thread. This also happens on an instance made with `cache=False`. -/
theorem C122_silent_partial (b : Backend) (s : Smoothed) (q q' : Request)
    {r r' : Shaped Fl} (h : (call b (new s) q.data q.kwargs).1 = .ok r)
    (h' : (call b (new s) q'.data q'.kwargs).1 = .ok r') (hshape : Divides b q.data.shape q'.data.shape) :
    ∃ schedule, ((World.start (new s)).run b (twoThreads q q') schedule).stage 0 =
      .finished (call b (call b (new { s with cache := true }) q'.data q'.kwargs).2 q.data q.kwargs).1 := by
  obtain ⟨l, hl⟩ := prepare_of_ok h
  obtain ⟨l', hl'⟩ := prepare_of_ok h'
  obtain ⟨schedule, again, -, hrun⟩ := race b s q q' hl hl'
  refine ⟨schedule ++ [0], ?_⟩
  rw [run_append, hrun]
  simp only [World.run, List.foldl_cons, List.foldl_nil]
  rw [step_zero]
  simp only [if_true, advance]
  -- the caching instance
  have hp' : prepare b (new { s with cache := true }) q'.data q'.kwargs = .ok l' := hl'
  have hstate : (call b (new { s with cache := true }) q'.data q'.kwargs).2 =
      cacheQNorms (new { s with cache := true }) (q'.data.map Prod.fst) := by
    rw [call_caching b (m := new { s with cache := true }) rfl hp', divide_none]
    simp only
    rw [if_pos (show Smoothed.caught .attributeError from trivial)]
  have hp : prepare b (cacheQNorms (new { s with cache := true }) (q'.data.map Prod.fst)) q.data q.kwargs = .ok l := hl
  rw [hstate, call_caching b (m := cacheQNorms (new { s with cache := true }) (q'.data.map Prod.fst)) rfl hp]
  have hsame : divideByNorm b (cacheQNorms (new { s with cache := true }) (q'.data.map Prod.fst)) l.pq l.beta l.mmin
      l.deltaM = divideByNorm b (cacheQNorms (new s) (q'.data.map Prod.fst)) l.pq l.beta l.mmin l.deltaM := rfl
  rw [hsame]
  have hok : ∃ x, divideByNorm b (cacheQNorms (new s) (q'.data.map Prod.fst)) l.pq l.beta l.mmin l.deltaM = .ok x := by
    unfold divideByNorm
    rw [normPQ_shaped]
    obtain ⟨x, -, -, hx⟩ := inplaceDiv_divides (b := b) (x := l.pq)
      (y := (q'.data.map Prod.fst).map (normAt b (cacheQNorms (new s) (q'.data.map Prod.fst)).inst l.beta l.mmin l.deltaM))
      (by rw [divide_divides hl]; exact hshape)
    exact ⟨_, hx⟩
  obtain ⟨x, hx⟩ := hok
  rw [hx]

/-- **C122, exceptions**: two threads with datasets of shapes neither of which can be divided by the other (such as
posterior samples and injections). There is a schedule for which an evaluation raises that succeeds alone. This also
happens on an instance made with `cache=False`. -/
theorem C122_raises_partial (b : Backend) (s : Smoothed) (q q' : Request)
    {r r' : Shaped Fl} (h : (call b (new s) q.data q.kwargs).1 = .ok r)
    (h' : (call b (new s) q'.data q'.kwargs).1 = .ok r') (h1 : ¬ Divides b q.data.shape q'.data.shape)
    (h2 : ¬ Divides b q'.data.shape q.data.shape) :
    ∃ schedule e, ((World.start (new s)).run b (twoThreads q q') schedule).stage 0 = .finished (.error e) := by
  obtain ⟨l, hl⟩ := prepare_of_ok h
  obtain ⟨l', hl'⟩ := prepare_of_ok h'
  obtain ⟨schedule, again, -, hrun⟩ := race b s q q' hl hl'
  have raise : ∀ (k k' : Request) (y : Locals), prepare b (new s) k.data k.kwargs = .ok y →
      ¬ Divides b k.data.shape k'.data.shape → ∃ e,
        divideByNorm b (cacheQNorms (new s) (k'.data.map Prod.fst)) y.pq y.beta y.mmin y.deltaM = .error e ∧
        Smoothed.caught e := by
    intro k k' y hy hd
    unfold divideByNorm
    rw [normPQ_shaped]
    exact inplaceDiv_not_divides (b := b) (x := y.pq)
      (y := (k'.data.map Prod.fst).map (normAt b (cacheQNorms (new s) (k'.data.map Prod.fst)).inst y.beta y.mmin y.deltaM))
      (by rw [divide_divides hy]; exact hd)
  obtain ⟨e, he, hec⟩ := raise q q' l hl h1
  obtain ⟨e', he', hec'⟩ := raise q' q l' hl' h2
  cases again with
  | true =>
    refine ⟨schedule ++ [0], e, ?_⟩
    rw [run_append, hrun]
    simp only [World.run, List.foldl_cons, List.foldl_nil]
    rw [step_zero]
    simp only [if_true, advance, he]
    rw [if_neg (by simp)]
  | false =>
    have a0 : advance b q (cacheQNorms (new s) (q'.data.map Prod.fst)) (.read false l) =
        (.write true l, cacheQNorms (new s) (q'.data.map Prod.fst)) := by
      simp only [advance, he]
      rw [if_pos ⟨trivial, hec⟩]
    have a1 : advance b q' (cacheQNorms (new s) (q.data.map Prod.fst)) (.read false l') =
        (.write true l', cacheQNorms (new s) (q.data.map Prod.fst)) := by
      simp only [advance, he']
      rw [if_pos ⟨trivial, hec'⟩]
    refine ⟨schedule ++ [0, 0, 1, 1, 0], e, ?_⟩
    rw [run_append, hrun]
    simp only [World.run, List.foldl_cons, List.foldl_nil]
    rw [step_zero, a0, step_zero]
    rw [show advance b q (cacheQNorms (new s) (q'.data.map Prod.fst)) (.write true l) =
      (.read true l, cacheQNorms (new s) (q.data.map Prod.fst)) from rfl, step_one, a1, step_one]
    rw [show advance b q' (cacheQNorms (new s) (q.data.map Prod.fst)) (.write true l') =
      (.read true l', cacheQNorms (new s) (q'.data.map Prod.fst)) from rfl, step_zero]
    simp only [if_true, advance, he]
    rw [if_neg (by simp)]

/-- The outcome on a new instance does not depend on whether it caches. -/
theorem fresh_cache (b : Backend) (s : Smoothed) (cache : Bool) (data : Shaped (Fl × Fl)) (kwargs : Dict Fl) :
    (call b (new { s with cache := cache }) data kwargs).1 = (call b (new s) data kwargs).1 := by
  rw [fresh_outcome, fresh_outcome]
  rfl

/-- An evaluation of the instance of `C104_wrong` on an array of any shape. -/
theorem stale_evaluates (shape : List ℕ) :
    ∃ r, (call .numpy (new staleInst) (constant shape 2.5) staleKw).1 = .ok r := by
  obtain ⟨a, -, hpm⟩ := stale_pM1 .numpy (μ := 2.5) (by norm_num) (by norm_num)
  have q := pQ_right .numpy (new staleInst) (constant shape 2.5) (fin 0) (fin 2) (fin 1)
    (fun l hl => absurd hl.2.1 (by simp [new]))
  have c := stale_shaped_call .numpy (m := new staleInst) rfl shape (μ := 2.5) (by norm_num) (by norm_num)
    (Prod.ext q.1 q.2) (hpm _ (SameConfig.refl _))
  rw [c]
  unfold Shaped.zip
  simp only
  rw [show (freshQ .numpy (new staleInst).inst (fin 0) (fin 2) (fin 1) (constant shape 2.5)).shape = shape from rfl,
    bshape_self]
  exact ⟨_, rfl⟩

/-- The hypotheses of `C122_raises_partial` hold for two events with two samples each and three injections, on an
instance made with `cache=False` too. -/
example (cache : Bool) : ∃ (s : Smoothed) (q q' : Request) (schedule : List ℕ) (e : PyErr),
    singlePeak false 1 3 2 2 cache = .ok s ∧ q.data.shape = [2, 2] ∧ q'.data.shape = [3] ∧
    ((World.start (new s)).run .numpy (twoThreads q q') schedule).stage 0 = .finished (.error e) := by
  obtain ⟨r, hr⟩ := stale_evaluates [2, 2]
  obtain ⟨r', hr'⟩ := stale_evaluates [3]
  have h1 : ¬ Divides .numpy [2, 2] [3] := by
    rintro ⟨r, hr, -⟩
    simp [NArr.bshape] at hr
  have h2 : ¬ Divides .numpy [3] [2, 2] := by
    rintro ⟨r, hr, -⟩
    simp [NArr.bshape] at hr
  obtain ⟨schedule, e, h⟩ := C122_raises_partial .numpy { staleInst with cache := cache } ⟨constant [2, 2] 2.5, staleKw⟩
    ⟨constant [3] 2.5, staleKw⟩ (r := r) (r' := r') (by rw [fresh_cache]; exact hr) (by rw [fresh_cache]; exact hr') h1 h2
  exact ⟨_, _, _, schedule, e, init_ok _ _ _ _ _ le_rfl le_rfl, rfl, rfl, h⟩

/-- **C122 fails**, both for caching instances and for instances made with `cache=False`. -/
theorem C122_fails (cache : Bool) : ¬ C122_statement cache := by
  intro h
  obtain ⟨s, events, inj, kw, r, r', hs, hE, hI, c1, c0, c2, -, -, hne⟩ := C104_wrong (E := 1) (N := 1) one_pos one_pos
  obtain ⟨hM, hQ, hs'⟩ := init_inv hs
  have hcache : s.cache = true := by rw [hs']
  have hself : { s with cache := true } = s := by rw [← hcache]
  have hinit : singlePeak false 1 3 2 2 cache = .ok { s with cache := cache } := by
    rw [hs']; exact init_ok _ _ _ _ _ le_rfl le_rfl
  cases hout : (call .numpy (new s) inj kw).1 with
  | error e => rw [hout] at c0; cases c0
  | ok out =>
    obtain ⟨schedule, hst⟩ := C122_silent_partial .numpy { s with cache := cache } ⟨events, kw⟩ ⟨inj, kw⟩ (r := r)
      (r' := out) (by rw [fresh_cache]; exact c1) (by rw [fresh_cache]; exact hout)
      ⟨[1, 1], by show NArr.bshape events.shape inj.shape = _; rw [hE, hI]; rfl, fun _ => hE.symm⟩
    have h := h .numpy false 1 3 2 2 _ hinit _ _ _ _ hst
    have h' : (call .numpy (call .numpy (new s) inj kw).2 events kw).1 = (call .numpy (new s) events kw).1 := by
      rw [← fresh_cache .numpy s cache]
      refine Eq.trans ?_ h
      show _ = (call .numpy (call .numpy (new { s with cache := true }) inj kw).2 events kw).1
      rw [hself]
    rw [c1, c2] at h'
    exact hne (congrArg (fun a => a.elem [0, 0]) (Except.ok.inj h')).symm

theorem eq_cacheQNorms {m : SharedSmoothed} {s : Smoothed} {c : Shaped Fl} (hi : m.inst = s) (hm : m.masses = some c) :
    m = cacheQNorms (new s) c := by
  obtain ⟨i, l⟩ := m
  simp only at hi hm
  rw [hi, hm]
  rfl

/-- What can be said of a thread in general. -/
def Possible (b : Backend) (s : Smoothed) (req : ℕ → Request) (schedule : List ℕ) (i : ℕ) : Stage → Prop
  | .begin => True
  | .write _ l => prepare b (new s) (req i).data (req i).kwargs = .ok l
  | .read _ l => prepare b (new s) (req i).data (req i).kwargs = .ok l
  | .finished r => r = (call b (new s) (req i).data (req i).kwargs).1 ∨
    (∃ e, r = .error e ∧ (e = .attributeError ∨ e = .typeError ∨ e = .valueError)) ∨
    ∃ j ∈ schedule, r = (call b (cacheQNorms (new { s with cache := true }) ((req j).data.map Prod.fst))
      (req i).data (req i).kwargs).1

/-- **C122, nothing but these**: for any number of threads with any datasets and any schedule, an evaluation that has
finished has the outcome it has alone, or it raised `AttributeError`, `TypeError` or `ValueError`, or it has the outcome
that a caching instance has when the interpolant was set up for the masses of one of the threads. -/
theorem C122_outcomes_partial (b : Backend) (s : Smoothed) (req : ℕ → Request) (schedule : List ℕ) {i : ℕ}
    {r : Except PyErr (Shaped Fl)} (hr : ((World.start (new s)).run b req schedule).stage i = .finished r) :
    r = (call b (new s) (req i).data (req i).kwargs).1 ∨
    (∃ e, r = .error e ∧ (e = .attributeError ∨ e = .typeError ∨ e = .valueError)) ∨
    ∃ j ∈ schedule, r = (call b (cacheQNorms (new { s with cache := true }) ((req j).data.map Prod.fst))
      (req i).data (req i).kwargs).1 := by
  have herr : ∀ (m : SharedSmoothed) (l : Locals) (e : PyErr),
      divideByNorm b m l.pq l.beta l.mmin l.deltaM = .error e →
      e = .attributeError ∨ e = .typeError ∨ e = .valueError := by
    intro m l e he
    have hcaught : Smoothed.caught e := by
      unfold divideByNorm at he
      rw [normPQ_shaped] at he
      cases hm : m.masses with
      | none => rw [hm] at he; cases he; trivial
      | some y =>
        rw [hm] at he
        by_cases hd : Divides b l.pq.shape y.shape
        · obtain ⟨x, -, -, hx⟩ := inplaceDiv_divides (b := b) (x := l.pq)
            (y := y.map (normAt b m.inst l.beta l.mmin l.deltaM)) hd
          have he : Shaped.inplaceDiv b l.pq (y.map (normAt b m.inst l.beta l.mmin l.deltaM)) = .error e := he
          rw [hx] at he
          cases he
        · obtain ⟨e', he', hc⟩ := inplaceDiv_not_divides (b := b) (x := l.pq)
            (y := y.map (normAt b m.inst l.beta l.mmin l.deltaM)) hd
          have he : Shaped.inplaceDiv b l.pq (y.map (normAt b m.inst l.beta l.mmin l.deltaM)) = .error e := he
          rw [he'] at he
          cases he
          exact hc
    cases e <;> simp_all [Smoothed.caught]
  have key : ∀ (l : List ℕ) (w : World), l ⊆ schedule → w.inst.inst = s →
      (w.inst.masses = none ∨ ∃ j ∈ schedule, w.inst.masses = some ((req j).data.map Prod.fst)) →
      (∀ j, Possible b s req schedule j (w.stage j)) →
      ∀ j, Possible b s req schedule j ((w.run b req l).stage j) := by
    intro l
    induction l with
    | nil => intro w _ _ _ h; exact h
    | cons k l ih =>
      intro w hl hi hm hs
      have hk : k ∈ schedule := hl (by simp)
      have hst := advance_inst b (req k) w.inst (w.stage k)
      refine ih (w.step b req k) (fun j hj => hl (by simp [hj])) ?_ ?_ ?_
      · show (advance b (req k) w.inst (w.stage k)).2.inst = s
        rcases hst with h | h <;> rw [h]
        · exact hi
        · exact hi
      · show (advance b (req k) w.inst (w.stage k)).2.masses = none ∨ ∃ j ∈ schedule,
          (advance b (req k) w.inst (w.stage k)).2.masses = some ((req j).data.map Prod.fst)
        rcases hst with h | h <;> rw [h]
        · exact hm
        · exact Or.inr ⟨k, hk, rfl⟩
      · intro j
        by_cases hj : j = k
        · subst hj
          have h2 : (w.step b req j).stage j = (advance b (req j) w.inst (w.stage j)).1 := if_pos rfl
          rw [h2]
          have hp := hs j
          cases hw : w.stage j with
          | begin =>
            simp only [advance]
            rw [prepare_congr b (show w.inst.inst = (new s).inst from hi)]
            cases hprep : prepare b (new s) (req j).data (req j).kwargs with
            | error e =>
              refine Or.inl ?_
              rw [fresh_outcome, hprep]
            | ok y =>
              simp only
              split_ifs
              · exact hprep
              · exact hprep
          | write again y => rw [hw] at hp; exact hp
          | finished x => rw [hw] at hp; exact hp
          | read again y =>
            rw [hw] at hp
            have hp : prepare b (new s) (req j).data (req j).kwargs = .ok y := hp
            simp only [advance]
            cases hd : divideByNorm b w.inst y.pq y.beta y.mmin y.deltaM with
            | error e =>
              simp only
              by_cases hc : again = false ∧ Smoothed.caught e
              · simp only [if_pos hc]; exact hp
              · simp only [if_neg hc]
                exact Or.inr (Or.inl ⟨e, rfl, herr _ _ _ hd⟩)
            | ok x =>
              refine Or.inr (Or.inr ?_)
              rcases hm with hm | ⟨k', hk', hm⟩
              · exfalso
                unfold divideByNorm at hd
                rw [normPQ_shaped, hm] at hd
                cases hd
              · refine ⟨k', hk', ?_⟩
                have hp2 : prepare b (cacheQNorms (new { s with cache := true }) ((req k').data.map Prod.fst))
                  (req j).data (req j).kwargs = .ok y := hp
                rw [call_caching b (m := cacheQNorms (new { s with cache := true }) ((req k').data.map Prod.fst)) rfl hp2]
                have hsame : divideByNorm b (cacheQNorms (new { s with cache := true }) ((req k').data.map Prod.fst)) y.pq
                    y.beta y.mmin y.deltaM = divideByNorm b w.inst y.pq y.beta y.mmin y.deltaM := by
                  have : w.inst = cacheQNorms (new s) ((req k').data.map Prod.fst) := eq_cacheQNorms hi hm
                  rw [this]
                  rfl
                rw [hsame, hd]
        · have h2 : (w.step b req k).stage j = w.stage j := if_neg hj
          rw [h2]
          exact hs j
  have h := key schedule (World.start (new s)) (fun _ h => h) rfl (Or.inl rfl) (fun _ => trivial) i
  rw [hr] at h
  exact h

/-- Three threads with three different datasets. -/
example (d : ℕ → List ℕ → Fl × Fl) (θ : Dict Fl) (s : Smoothed) : ∃ r,
    ((World.start (new s)).run .jax (fun i => ⟨⟨[i + 1], d i⟩, θ⟩) [2, 0, 1, 0, 1, 2, 0, 1, 0, 1, 0]).stage 0 =
      .finished r ∧
    (r = (call .jax (new s) ⟨[1], d 0⟩ θ).1 ∨
      (∃ e, r = .error e ∧ (e = .attributeError ∨ e = .typeError ∨ e = .valueError)) ∨
      ∃ j, r = (call .jax (cacheQNorms (new { s with cache := true }) ⟨[j + 1], fun i => (d j i).1⟩) ⟨[1], d 0⟩ θ).1) := by
  obtain ⟨r, hr⟩ := C122_terminates .jax (fun i => ⟨⟨[i + 1], d i⟩, θ⟩) (new s) [2, 0, 1, 0, 1, 2, 0, 1, 0, 1, 0] 0
    (by decide)
  refine ⟨r, hr, ?_⟩
  rcases C122_outcomes_partial .jax s _ _ hr with h | h | ⟨j, -, h⟩
  · exact Or.inl h
  · exact Or.inr (Or.inl h)
  · exact Or.inr (Or.inr ⟨j, h⟩)

end SharedSmoothed

end GW
