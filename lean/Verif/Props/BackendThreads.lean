import Verif.Model.BackendThreads
import Verif.Props.Backend

/-!
# C125: switching the backend in threads and interrupted switches
-/

noncomputable section

open Classical

namespace GW

namespace BackendThreads

open Spec

/-! ## The steps of one call are the call -/

theorem advanceN_finished (r : Registry) (q : Request) (st : BState) (e : Option PyErr) (k : ℕ) :
    advanceN r q st (.finished e) k = (.finished e, st) := by
  induction k with
  | zero => rfl
  | succ k ih => exact ih

theorem advanceN_succ (r : Registry) (q : Request) (st : BState) (s : Stage) (k : ℕ) :
    advanceN r q st s (k + 1) = advanceN r q (advance r q st s).2 (advance r q st s).1 k := rfl

theorem advance_job_ok {r : Registry} {q : Request} {b : Backend} {xp scs : Bound} {j : Job} {todo : List Job}
    {st st' : BState} (h : runJob q.env b xp scs j st = (st', none)) :
    advance r q st (.update b xp scs (j :: todo)) = (.update b xp scs todo, st') := by
  simp only [advance, h]

theorem advance_job_error {r : Registry} {q : Request} {b : Backend} {xp scs : Bound} {j : Job} {todo : List Job}
    {st st' : BState} {e : PyErr} (h : runJob q.env b xp scs j st = (st', some e)) :
    advance r q st (.update b xp scs (j :: todo)) = (.finished (some e), st') := by
  simp only [advance, h]

theorem advance_begin_bad {r : Registry} {q : Request} {st : BState} (h : parseBackend q.name = none) :
    advance r q st .begin = (.finished (some .valueError), st) := by
  simp only [advance, h]

theorem advance_begin_same {r : Registry} {q : Request} {st : BState} {b : Backend} (h : parseBackend q.name = some b)
    (hb : st.backend = some b) : advance r q st .begin = (.finished none, st) := by
  simp only [advance, h, if_pos hb]

theorem advance_begin {r : Registry} {q : Request} {st : BState} {b : Backend} (h : parseBackend q.name = some b)
    (hb : st.backend ≠ some b) : advance r q st .begin = (.load b, st) := by
  simp only [advance, h, if_neg hb]

theorem advance_load_error {r : Registry} {q : Request} {st : BState} {b : Backend} {e : PyErr}
    (h : loadNumpyAndScipy q.env b = .error e) : advance r q st (.load b) = (.finished (some e), st) := by
  simp only [advance, h]

theorem advance_load {r : Registry} {q : Request} {st : BState} {b : Backend} {xp scs : Bound} {f : Bool}
    (h : loadNumpyAndScipy q.env b = .ok (xp, scs, f)) :
    advance r q st (.load b) = (.record b xp scs, { st with x64 := st.x64 || f }) := by
  simp only [advance, h]

theorem forEach_cons_ok {α : Type} {body : α → BM} {a : α} {l : List α} {st st' : BState}
    (h : body a st = (st', none)) : forEach body (a :: l) st = forEach body l st' := by
  simp only [forEach, h]

theorem forEach_cons_error {α : Type} {body : α → BM} {a : α} {l : List α} {st st' : BState} {e : PyErr}
    (h : body a st = (st', some e)) : forEach body (a :: l) st = (st', some e) := by
  simp only [forEach, h]

/-- The remaining assignments, one after the other. -/
def runJobs (env : BEnv) (b : Backend) (xp scs : Bound) (jobs : List Job) : BM :=
  forEach (runJob env b xp scs) jobs

theorem advanceN_update (r : Registry) (q : Request) (b : Backend) (xp scs : Bound) :
    ∀ (jobs : List Job) (st : BState) (k : ℕ), jobs.length + 1 ≤ k →
      advanceN r q st (.update b xp scs jobs) k =
        (.finished (runJobs q.env b xp scs jobs st).2, (runJobs q.env b xp scs jobs st).1) := by
  intro jobs
  induction jobs with
  | nil =>
    intro st k hk
    obtain ⟨k, rfl⟩ : ∃ k', k = k' + 1 := ⟨k - 1, by simp at hk; omega⟩
    exact advanceN_finished r q st none k
  | cons j jobs ih =>
    intro st k hk
    obtain ⟨k, rfl⟩ : ∃ k', k = k' + 1 := ⟨k - 1, by simp at hk; omega⟩
    unfold runJobs
    rw [advanceN_succ]
    rcases hj : runJob q.env b xp scs j st with ⟨st', _ | e⟩
    · rw [forEach_cons_ok hj, advance_job_ok hj]
      exact ih st' k (by simp at hk; omega)
    · rw [forEach_cons_error hj, advance_job_error hj]
      exact advanceN_finished r q st' (some e) k

theorem forEach_append {α : Type} (body : α → BM) (l₁ l₂ : List α) (st : BState) :
    forEach body (l₁ ++ l₂) st = BM.andThen (forEach body l₁) (forEach body l₂) st := by
  induction l₁ generalizing st with
  | nil => rfl
  | cons a l ih =>
    rw [List.cons_append]
    unfold BM.andThen
    rcases h : body a st with ⟨st', _ | e⟩
    · rw [forEach_cons_ok h, forEach_cons_ok h]; exact ih st'
    · rw [forEach_cons_error h, forEach_cons_error h]

theorem forEach_map {α β : Type} (f : α → β) (body : β → BM) (l : List α) (st : BState) :
    forEach body (l.map f) st = forEach (fun a => body (f a)) l st := by
  induction l generalizing st with
  | nil => rfl
  | cons a l ih =>
    rw [List.map_cons]
    rcases h : body (f a) st with ⟨st', _ | e⟩
    · rw [forEach_cons_ok h, forEach_cons_ok (body := fun a => body (f a)) h]; exact ih st'
    · rw [forEach_cons_error h, forEach_cons_error (body := fun a => body (f a)) h]

theorem runJobs_all (r : Registry) (env : BEnv) (b : Backend) (xp scs : Bound) (st : BState) :
    runJobs env b xp scs (Job.all r) st =
      (BM.andThen (forEach (bindIn env "xp" xp) r.xp)
        (BM.andThen (forEach (bindIn env "scs" scs) r.scs) (forEach (bindOther env b) r.others))) st := by
  unfold runJobs Job.all
  rw [forEach_append]
  unfold BM.andThen
  rw [forEach_map]
  have : ∀ st, forEach (runJob env b xp scs) (r.scs.map .scs ++ r.others.map .other) st =
      (match forEach (bindIn env "scs" scs) r.scs st with
      | (st, none) => forEach (bindOther env b) r.others st
      | (st, some e) => (st, some e)) := by
    intro st
    rw [forEach_append]
    unfold BM.andThen
    rw [forEach_map]
    have h2 : ∀ st, forEach (runJob env b xp scs) (r.others.map .other) st = forEach (bindOther env b) r.others st :=
      fun st => forEach_map _ _ _ _
    simp only [h2]
    rfl
  simp only [this]
  rfl

/-- **C125, the steps are those of `set_backend`.** A call that is neither interrupted nor disturbed by another thread ends
after at most four steps and one for each assignment, and its outcome and the state afterwards are those of
`set_backend`. -/
theorem C125_undisturbed (r : Registry) (q : Request) (st : BState) (k : ℕ) (hk : (Job.all r).length + 4 ≤ k) :
    advanceN r q st .begin k = (.finished (setBackend r q.env q.name st).2, (setBackend r q.env q.name st).1) := by
  obtain ⟨k, rfl⟩ : ∃ k', k = k' + 1 := ⟨k - 1, by omega⟩
  rw [advanceN_succ]
  unfold setBackend
  cases hp : parseBackend q.name with
  | none => rw [advance_begin_bad hp]; exact advanceN_finished r q st _ k
  | some b =>
    simp only
    by_cases hb : st.backend = some b
    · rw [advance_begin_same hp hb]
      simp only [if_pos hb]
      exact advanceN_finished r q st _ k
    · rw [advance_begin hp hb]
      simp only [if_neg hb]
      obtain ⟨k, rfl⟩ : ∃ k', k = k' + 1 := ⟨k - 1, by omega⟩
      rw [advanceN_succ]
      cases hl : loadNumpyAndScipy q.env b with
      | error e => rw [advance_load_error hl]; exact advanceN_finished r q st _ k
      | ok t =>
        obtain ⟨xp, scs, f⟩ := t
        obtain ⟨k, rfl⟩ : ∃ k', k = k' + 1 := ⟨k - 1, by omega⟩
        rw [advance_load hl, advanceN_succ]
        simp only [advance]
        rw [advanceN_update r q b xp scs _ _ k (by omega), runJobs_all]

example : advanceN gwRegistry ⟨goodEnv, "jax"⟩ (BState.initial fun _ _ => none) .begin 14 =
    (.finished none, (setBackend gwRegistry goodEnv "jax" (BState.initial fun _ _ => none)).1) := by
  rw [C125_undisturbed _ _ _ _ (by simp [Job.all, gwRegistry, Registry.others]),
    show (setBackend gwRegistry goodEnv "jax" (BState.initial fun _ _ => none)).2 = none from
      setBackend_good gwRegistry rfl .jax _]

/-! ## Schedules -/

theorem run_cons (r : Registry) (req : ℕ → Request) (w : World) (i : ℕ) (l : List ℕ) :
    w.run r req (i :: l) = (w.step r req i).run r req l := rfl

theorem run_append (r : Registry) (req : ℕ → Request) (w : World) (l l' : List ℕ) :
    w.run r req (l ++ l') = (w.run r req l).run r req l' := by
  unfold World.run; rw [List.foldl_append]

/-- Thread `i` running alone for `k` steps. -/
theorem run_alone (r : Registry) (req : ℕ → Request) (i : ℕ) : ∀ (k : ℕ) (w : World),
    w.run r req (List.replicate k i) =
      ⟨(advanceN r (req i) w.st (w.stage i) k).2,
        fun j => if j = i then (advanceN r (req i) w.st (w.stage i) k).1 else w.stage j⟩ := by
  intro k
  induction k with
  | zero =>
    intro w
    obtain ⟨st, s⟩ := w
    show (⟨st, s⟩ : World) = _
    congr 1
    funext j
    by_cases h : j = i
    · rw [if_pos h, h]; rfl
    · rw [if_neg h]
  | succ k ih =>
    intro w
    rw [List.replicate_succ, run_cons, ih]
    unfold World.step
    simp only [if_true]
    congr 1
    funext j
    by_cases h : j = i
    · simp only [if_pos h]; rfl
    · simp only [if_neg h]

/-- What is known about a thread that is under way. -/
def StageOK (r : Registry) (q : Request) : Stage → Prop
  | .begin => True
  | .load b => q.name = backendName b
  | .record b xp scs => q.name = backendName b ∧ xp = .mod (arrayModule b) ∧
      scs = .attr (scipyPackage b) "special".toList
  | .update b xp scs todo => q.name = backendName b ∧ xp = .mod (arrayModule b) ∧
      scs = .attr (scipyPackage b) "special".toList ∧ ∀ j ∈ todo, j ∈ Job.all r
  | .finished _ => True

theorem Job.mem_xp {r : Registry} {m : String} : Job.xp m ∈ Job.all r ↔ m ∈ r.xp := by
  simp [Job.all]

theorem Job.mem_scs {r : Registry} {m : String} : Job.scs m ∈ Job.all r ↔ m ∈ r.scs := by
  simp [Job.all]

theorem Job.mem_other {r : Registry} {e : String × String} : Job.other e ∈ Job.all r ↔ e ∈ r.others := by
  simp [Job.all]

theorem stageOK_advance (r : Registry) (q : Request) (st : BState) (s : Stage) (h : StageOK r q s) :
    StageOK r q (advance r q st s).1 := by
  cases s with
  | begin =>
    cases hp : parseBackend q.name with
    | none => rw [advance_begin_bad hp]; trivial
    | some b =>
      by_cases hb : st.backend = some b
      · rw [advance_begin_same hp hb]; trivial
      · rw [advance_begin hp hb]; exact parseBackend_some hp
  | load b =>
    cases hl : loadNumpyAndScipy q.env b with
    | error e => rw [advance_load_error hl]; trivial
    | ok t =>
      obtain ⟨xp, scs, f⟩ := t
      obtain ⟨h1, h2, -⟩ := loadNumpyAndScipy_ok hl
      rw [advance_load hl]
      exact ⟨h, h1, h2⟩
  | record b xp scs => exact ⟨h.1, h.2.1, h.2.2, fun j hj => hj⟩
  | update b xp scs todo =>
    cases todo with
    | nil => trivial
    | cons j todo =>
      rcases hj : runJob q.env b xp scs j st with ⟨st', _ | e⟩
      · rw [advance_job_ok hj]
        exact ⟨h.1, h.2.1, h.2.2.1, fun j' hj' => h.2.2.2 j' (List.mem_cons_of_mem _ hj')⟩
      · rw [advance_job_error hj]; trivial
  | finished e => trivial

theorem stageOK_step {r : Registry} {req : ℕ → Request} {w : World} (i : ℕ)
    (h : ∀ j, StageOK r (req j) (w.stage j)) : ∀ j, StageOK r (req j) ((w.step r req i).stage j) := by
  intro j
  unfold World.step
  simp only
  by_cases hj : j = i
  · rw [if_pos hj, hj]; exact stageOK_advance _ _ _ _ (h i)
  · rw [if_neg hj]; exact h j

/-- The effect of one assignment. -/
theorem runJob_effect (r : Registry) (env : BEnv) (b : Backend) (xp scs : Bound) (j : Job) (st : BState)
    (hj : j ∈ Job.all r) :
    (runJob env b xp scs j st).1.backend = st.backend ∧ (runJob env b xp scs j st).1.x64 = st.x64 ∧
    ∀ m n, (runJob env b xp scs j st).1.bind m n = st.bind m n ∨
      (n = "xp" ∧ m ∈ r.xp ∧ (runJob env b xp scs j st).1.bind m n = some xp) ∨
      (n = "scs" ∧ m ∈ r.scs ∧ (runJob env b xp scs j st).1.bind m n = some scs) ∨
      (∃ e ∈ r.other, e.1 = m ∧ attrName e.2 = n ∧
        ∃ v, loadArbitrary env e.2.toList b = .ok v ∧ (runJob env b xp scs j st).1.bind m n = some v) := by
  cases j with
  | xp m' =>
    cases hi : env.imp m'.toList with
    | some e =>
      rw [show runJob env b xp scs (.xp m') st = (st, some e) by simp only [runJob, bindIn, hi]]
      exact ⟨rfl, rfl, fun m n => Or.inl rfl⟩
    | none =>
      rw [show runJob env b xp scs (.xp m') st = (st.setattr m' "xp" xp, none) by simp only [runJob, bindIn, hi]]
      refine ⟨rfl, rfl, fun m n => ?_⟩
      by_cases h : m = m' ∧ n = "xp"
      · exact Or.inr (Or.inl ⟨h.2, h.1 ▸ Job.mem_xp.1 hj, by simp [BState.setattr, h]⟩)
      · exact Or.inl (by simp [BState.setattr, h])
  | scs m' =>
    cases hi : env.imp m'.toList with
    | some e =>
      rw [show runJob env b xp scs (.scs m') st = (st, some e) by simp only [runJob, bindIn, hi]]
      exact ⟨rfl, rfl, fun m n => Or.inl rfl⟩
    | none =>
      rw [show runJob env b xp scs (.scs m') st = (st.setattr m' "scs" scs, none) by simp only [runJob, bindIn, hi]]
      refine ⟨rfl, rfl, fun m n => ?_⟩
      by_cases h : m = m' ∧ n = "scs"
      · exact Or.inr (Or.inr (Or.inl ⟨h.2, h.1 ▸ Job.mem_scs.1 hj, by simp [BState.setattr, h]⟩))
      · exact Or.inl (by simp [BState.setattr, h])
  | other e =>
    cases hi : env.imp e.1.toList with
    | some err =>
      rw [show runJob env b xp scs (.other e) st = (st, some err) by simp only [runJob, bindOther, hi]]
      exact ⟨rfl, rfl, fun m n => Or.inl rfl⟩
    | none =>
      cases hl : loadArbitrary env e.2.toList b with
      | error err =>
        rw [show runJob env b xp scs (.other e) st = (st, some err) by simp only [runJob, bindOther, hi, hl]]
        exact ⟨rfl, rfl, fun m n => Or.inl rfl⟩
      | ok v =>
        rw [show runJob env b xp scs (.other e) st = (st.setattr e.1 (attrName e.2) v, none) by
          simp only [runJob, bindOther, hi, hl, attrName]]
        refine ⟨rfl, rfl, fun m n => ?_⟩
        by_cases h : m = e.1 ∧ n = attrName e.2
        · exact Or.inr (Or.inr (Or.inr ⟨e, others_mem r (Job.mem_other.1 hj), h.1.symm, h.2.symm, v, hl,
            by simp [BState.setattr, h]⟩))
        · exact Or.inl (by simp [BState.setattr, h])

/-- In an environment where the registered modules import, an assignment does not raise, and does not disturb the
attributes `xp` and `scs` of other modules. -/
theorem runJob_good {r : Registry} (hc : NoClash r) {env : BEnv} (he : RegisteredImport r env) (b : Backend)
    (xp scs : Bound) (j : Job) (st : BState) (hj : j ∈ Job.all r) :
    (runJob env b xp scs j st).2 = none ∧
    (∀ m, (j = .xp m ∨ st.bind m "xp" = some xp) → (runJob env b xp scs j st).1.bind m "xp" = some xp) ∧
    (∀ m, (j = .scs m ∨ st.bind m "scs" = some scs) → (runJob env b xp scs j st).1.bind m "scs" = some scs) := by
  cases j with
  | xp m' =>
    rw [show runJob env b xp scs (.xp m') st = (st.setattr m' "xp" xp, none) by
      simp only [runJob, bindIn, he.1 m' (Job.mem_xp.1 hj)]]
    refine ⟨rfl, fun m hm => ?_, fun m hm => ?_⟩
    · by_cases h : m = m'
      · simp [BState.setattr, h]
      · rcases hm with hm | hm
        · cases hm; exact absurd rfl h
        · simp [BState.setattr, h, hm]
    · rcases hm with hm | hm
      · cases hm
      · simp [BState.setattr, hm]
  | scs m' =>
    rw [show runJob env b xp scs (.scs m') st = (st.setattr m' "scs" scs, none) by
      simp only [runJob, bindIn, he.2.1 m' (Job.mem_scs.1 hj)]]
    refine ⟨rfl, fun m hm => ?_, fun m hm => ?_⟩
    · rcases hm with hm | hm
      · cases hm
      · simp [BState.setattr, hm]
    · by_cases h : m = m'
      · simp [BState.setattr, h]
      · rcases hm with hm | hm
        · cases hm; exact absurd rfl h
        · simp [BState.setattr, h, hm]
  | other e =>
    have hm := others_mem r (Job.mem_other.1 hj)
    obtain ⟨v, hv⟩ := (he.2.2 e hm).2 b
    rw [show runJob env b xp scs (.other e) st = (st.setattr e.1 (attrName e.2) v, none) by
      simp only [runJob, bindOther, (he.2.2 e hm).1, hv, attrName]]
    have h1 : "xp" ≠ attrName e.2 := fun h => (hc e hm).1 h.symm
    have h2 : "scs" ≠ attrName e.2 := fun h => (hc e hm).2 h.symm
    refine ⟨rfl, fun m hm => ?_, fun m hm => ?_⟩
    · rcases hm with hm | hm
      · cases hm
      · simp [BState.setattr, hm, h1]
    · rcases hm with hm | hm
      · cases hm
      · simp [BState.setattr, hm, h2]

theorem runJobs_good {r : Registry} (hc : NoClash r) {env : BEnv} (he : RegisteredImport r env) (b : Backend)
    (xp scs : Bound) : ∀ (jobs : List Job) (st : BState), (∀ j ∈ jobs, j ∈ Job.all r) →
    (runJobs env b xp scs jobs st).2 = none ∧ (runJobs env b xp scs jobs st).1.backend = st.backend ∧
    (∀ m, (Job.xp m ∈ jobs ∨ st.bind m "xp" = some xp) → (runJobs env b xp scs jobs st).1.bind m "xp" = some xp) ∧
    (∀ m, (Job.scs m ∈ jobs ∨ st.bind m "scs" = some scs) →
      (runJobs env b xp scs jobs st).1.bind m "scs" = some scs) := by
  intro jobs
  induction jobs with
  | nil => exact fun st _ => ⟨rfl, rfl, fun m h => h.resolve_left (by simp), fun m h => h.resolve_left (by simp)⟩
  | cons j jobs ih =>
    intro st hj
    obtain ⟨g1, g2, g3⟩ := runJob_good hc he b xp scs j st (hj j List.mem_cons_self)
    obtain ⟨e1, -, -⟩ := runJob_effect r env b xp scs j st (hj j List.mem_cons_self)
    unfold runJobs
    rcases hr : runJob env b xp scs j st with ⟨st', _ | e⟩
    · rw [hr] at g2 g3 e1
      rw [forEach_cons_ok hr]
      obtain ⟨i1, i2, i3, i4⟩ := ih st' (fun j h => hj j (List.mem_cons_of_mem _ h))
      refine ⟨i1, i2.trans e1, fun m h => i3 m ?_, fun m h => i4 m ?_⟩
      · rcases h with h | h
        · rcases List.mem_cons.1 h with h | h
          · exact Or.inr (g2 m (Or.inl h.symm))
          · exact Or.inl h
        · exact Or.inr (g2 m (Or.inr h))
      · rcases h with h | h
        · rcases List.mem_cons.1 h with h | h
          · exact Or.inr (g3 m (Or.inl h.symm))
          · exact Or.inl h
        · exact Or.inr (g3 m (Or.inr h))
    · rw [hr] at g1; cases g1

/-- A call in an environment where everything imports returns normally. -/
theorem setBackend_returns {r : Registry} {env : BEnv} (he : RegisteredImport r env) {b : Backend}
    {t : Bound × Bound × Bool} (hl : loadNumpyAndScipy env b = .ok t) (st : BState) :
    (setBackend r env (backendName b) st).2 = none := by
  by_cases hb : st.backend = some b
  · rw [C14_setBackend_same r env b st hb]
  · rcases setBackend_atomic he (backendName b) st with h | h
    · exact h
    · exfalso
      obtain ⟨xp, scs, f⟩ := t
      have h1 : (setBackend r env (backendName b) st).1.backend = some b := by
        unfold setBackend
        simp only [parseBackend_name, if_neg hb, hl]
        rw [← runJobs_all]
        have : ∀ (jobs : List Job) (s : BState), (∀ j ∈ jobs, j ∈ Job.all r) →
            (runJobs env b xp scs jobs s).1.backend = s.backend := by
          intro jobs
          induction jobs with
          | nil => exact fun s _ => rfl
          | cons j jobs ih =>
            intro s hj
            obtain ⟨e1, -, -⟩ := runJob_effect r env b xp scs j s (hj j List.mem_cons_self)
            unfold runJobs
            rcases hr : runJob env b xp scs j s with ⟨s', _ | e⟩
            · rw [hr] at e1
              rw [forEach_cons_ok hr]
              exact (ih s' (fun j h => hj j (List.mem_cons_of_mem _ h))).trans e1
            · rw [hr] at e1
              rw [forEach_cons_error hr]; exact e1
        exact this _ _ (fun j h => h)
      rw [h] at h1
      exact hb h1

end BackendThreads

/-! ## C125 -/

/-- Attribute `n` of module `m` has a value that the call `set_backend(b)` assigns to it in environment `env`. -/
def Spec.AssignedFor (r : Registry) (env : BEnv) (b : Backend) (m n : String) (v : Option Bound) : Prop :=
  (n = "xp" ∧ m ∈ r.xp ∧ v = some (.mod (Spec.arrayModule b))) ∨
  (n = "scs" ∧ m ∈ r.scs ∧ v = some (.attr (Spec.scipyPackage b) "special".toList)) ∨
  (∃ e ∈ r.other, e.1 = m ∧ String.ofList (pyLastComponent e.2.toList) = n ∧
    ∃ w, loadArbitrary env e.2.toList b = .ok w ∧ v = some w)

namespace BackendThreads

open Spec

/-- **C125, full statement.** (1) When all calls have returned, all registered modules use one backend, the one that is
recorded. (2) When all threads ask for one backend and a call has returned, all registered modules use it. (3) After an
interruption, a call that returns has installed its backend. -/
def C125_statement : Prop :=
  ∀ (r : Registry) (req : ℕ → Request) (st : BState) (schedule : List ℕ) (w : World),
    NoClash r → (∀ i, RegisteredImport r (req i).env) → (∀ b, st.backend = some b → UsesBackend r b st) →
    w = (World.start st).run r req schedule →
    ((∀ i, w.stage i = .begin ∨ w.stage i = .finished none) → ∀ b, w.st.backend = some b → UsesBackend r b w.st) ∧
    (∀ b, (∀ i, (req i).name = backendName b) → (∃ i, w.stage i = .finished none) → UsesBackend r b w.st) ∧
    (∀ env b st', RegisteredImport r env → setBackend r env (backendName b) w.st = (st', none) → UsesBackend r b st')

/-- **C125, nothing but what was asked for is installed.** For every schedule, every attribute of every module is as before or
has a value that one of the threads was asked to install for it, and the recorded backend is the one before or one that was
asked for. -/
theorem C125_values_partial (r : Registry) (req : ℕ → Request) (st : BState) (schedule : List ℕ) :
    (((World.start st).run r req schedule).st.backend = st.backend ∨
      ∃ i b, (req i).name = backendName b ∧ ((World.start st).run r req schedule).st.backend = some b) ∧
    ∀ m n, ((World.start st).run r req schedule).st.bind m n = st.bind m n ∨
      ∃ i b, (req i).name = backendName b ∧
        Spec.AssignedFor r (req i).env b m n (((World.start st).run r req schedule).st.bind m n) := by
  have key : ∀ (schedule : List ℕ) (w : World), (∀ j, StageOK r (req j) (w.stage j)) →
      ((w.st.backend = st.backend ∨ ∃ i b, (req i).name = backendName b ∧ w.st.backend = some b) ∧
      ∀ m n, w.st.bind m n = st.bind m n ∨
        ∃ i b, (req i).name = backendName b ∧ Spec.AssignedFor r (req i).env b m n (w.st.bind m n)) →
      (((w.run r req schedule).st.backend = st.backend ∨
        ∃ i b, (req i).name = backendName b ∧ (w.run r req schedule).st.backend = some b) ∧
      ∀ m n, (w.run r req schedule).st.bind m n = st.bind m n ∨
        ∃ i b, (req i).name = backendName b ∧
          Spec.AssignedFor r (req i).env b m n ((w.run r req schedule).st.bind m n)) := by
    intro schedule
    induction schedule with
    | nil => intro w _ h; exact h
    | cons i l ih =>
      intro w hok h
      rw [run_cons]
      refine ih _ (stageOK_step i hok) ?_
      have hi := hok i
      unfold World.step
      simp only
      cases hs : w.stage i with
      | begin =>
        cases hp : parseBackend (req i).name with
        | none => rw [advance_begin_bad hp]; exact h
        | some b =>
          by_cases hb : w.st.backend = some b
          · rw [advance_begin_same hp hb]; exact h
          · rw [advance_begin hp hb]; exact h
      | load b =>
        cases hl : loadNumpyAndScipy (req i).env b with
        | error e => rw [advance_load_error hl]; exact h
        | ok t => rw [advance_load hl]; exact h
      | record b xp scs =>
        rw [hs] at hi
        exact ⟨Or.inr ⟨i, b, hi.1, rfl⟩, h.2⟩
      | finished e => exact h
      | update b xp scs todo =>
        rw [hs] at hi
        cases todo with
        | nil => exact h
        | cons j todo =>
          obtain ⟨e1, -, e3⟩ := runJob_effect r (req i).env b xp scs j w.st (hi.2.2.2 j List.mem_cons_self)
          have hst : (advance r (req i) w.st (.update b xp scs (j :: todo))).2 = (runJob (req i).env b xp scs j w.st).1 := by
            rcases hj : runJob (req i).env b xp scs j w.st with ⟨st', _ | e⟩
            · rw [advance_job_ok hj]
            · rw [advance_job_error hj]
          rw [hst]
          refine ⟨by rw [e1]; exact h.1, fun m n => ?_⟩
          rcases e3 m n with e | e | e | e
          · rw [e]; exact h.2 m n
          · exact Or.inr ⟨i, b, hi.1, Or.inl ⟨e.1, e.2.1, by rw [e.2.2, hi.2.1]⟩⟩
          · exact Or.inr ⟨i, b, hi.1, Or.inr (Or.inl ⟨e.1, e.2.1, by rw [e.2.2, hi.2.2.1]⟩)⟩
          · obtain ⟨e, he, h1, h2, v, h3, h4⟩ := e
            exact Or.inr ⟨i, b, hi.1, Or.inr (Or.inr ⟨e, he, h1, h2, v, h3, h4⟩)⟩
  exact key schedule _ (fun _ => trivial) ⟨Or.inl rfl, fun m n => Or.inl rfl⟩

example : ∀ i : ℕ, ∃ b, (⟨goodEnv, if i = 0 then "jax" else "cupy"⟩ : Request).name = backendName b := fun i => by
  by_cases h : i = 0
  · exact ⟨.jax, by simp [h, backendName]⟩
  · exact ⟨.cupy, by simp [h, backendName]⟩

/-- **C125, several threads asking for one backend.** If all threads ask for the same backend and the registered modules
import, then for every schedule at whose end no call is under way and one has returned normally, every registered module
uses that backend; jax's 64-bit mode is on if it is jax. -/
theorem C125_same_partial (r : Registry) (hc : NoClash r) (req : ℕ → Request) (b : Backend)
    (hq : ∀ i, (req i).name = backendName b) (he : ∀ i, RegisteredImport r (req i).env) (st : BState)
    (hst : st.backend = some b → UsesBackend r b st ∧ (b = .jax → st.x64 = true)) (schedule : List ℕ)
    (hdone : ∀ i, ((World.start st).run r req schedule).stage i = .begin ∨
      ∃ o, ((World.start st).run r req schedule).stage i = .finished o)
    (hret : ∃ i, ((World.start st).run r req schedule).stage i = .finished none) :
    UsesBackend r b ((World.start st).run r req schedule).st ∧
      (b = .jax → ((World.start st).run r req schedule).st.x64 = true) := by
  let Inv : World → Prop := fun w =>
    (∀ j, StageOK r (req j) (w.stage j)) ∧
    (w.st.backend = some b →
      (∀ m ∈ r.xp, w.st.bind m "xp" = some (.mod (arrayModule b)) ∨
        ∃ i b' xp scs todo, w.stage i = .update b' xp scs todo ∧ Job.xp m ∈ todo) ∧
      (∀ m ∈ r.scs, w.st.bind m "scs" = some (.attr (scipyPackage b) "special".toList) ∨
        ∃ i b' xp scs todo, w.stage i = .update b' xp scs todo ∧ Job.scs m ∈ todo) ∧
      (b = .jax → w.st.x64 = true)) ∧
    (∀ j, (w.stage j = .finished none ∨ ∃ b' xp scs todo, w.stage j = .update b' xp scs todo) → w.st.backend = some b) ∧
    (∀ j b' xp scs, w.stage j = .record b' xp scs → b = .jax → w.st.x64 = true)
  have name_inj : ∀ b', backendName b = backendName b' → b' = b := by
    intro b' h; cases b <;> cases b' <;> simp_all [backendName]
  have hstep : ∀ w i, Inv w → Inv (w.step r req i) := by
    rintro w i ⟨i1, i2, i3, i4⟩
    have hi := i1 i
    have hok := stageOK_step (r := r) (req := req) i i1
    refine ⟨hok, ?_⟩
    cases hs : w.stage i with
    | begin =>
      by_cases hb : w.st.backend = some b
      · have ha : advance r (req i) w.st (w.stage i) = (.finished none, w.st) := by
          rw [hs]; exact advance_begin_same (by rw [hq i]; exact parseBackend_name b) hb
        unfold World.step
        simp only [ha]
        refine ⟨fun _ => ⟨fun m hm => ?_, fun m hm => ?_, (i2 hb).2.2⟩, fun _ _ => hb, fun j b' xp scs hj => ?_⟩
        · refine ((i2 hb).1 m hm).imp_right ?_
          rintro ⟨k, b', xp, scs, todo, hk, hm⟩
          have : k ≠ i := by rintro rfl; rw [hs] at hk; cases hk
          exact ⟨k, b', xp, scs, todo, by rw [if_neg this]; exact hk, hm⟩
        · refine ((i2 hb).2.1 m hm).imp_right ?_
          rintro ⟨k, b', xp, scs, todo, hk, hm⟩
          have : k ≠ i := by rintro rfl; rw [hs] at hk; cases hk
          exact ⟨k, b', xp, scs, todo, by rw [if_neg this]; exact hk, hm⟩
        · by_cases hji : j = i
          · rw [if_pos hji] at hj; cases hj
          · rw [if_neg hji] at hj; exact i4 j b' xp scs hj
      · have ha : advance r (req i) w.st (w.stage i) = (.load b, w.st) := by
          rw [hs]; exact advance_begin (by rw [hq i]; exact parseBackend_name b) hb
        unfold World.step
        simp only [ha]
        refine ⟨fun h => absurd h hb, fun j hj => ?_, fun j b' xp scs hj => ?_⟩
        · by_cases hji : j = i
          · simp only [if_pos hji] at hj
            rcases hj with hj | ⟨_, _, _, _, hj⟩ <;> cases hj
          · simp only [if_neg hji] at hj; exact i3 j hj
        · by_cases hji : j = i
          · rw [if_pos hji] at hj; cases hj
          · rw [if_neg hji] at hj; exact i4 j b' xp scs hj
    | load b₁ =>
      rw [hs] at hi
      have hb1 : b₁ = b := name_inj b₁ ((hq i).symm.trans hi)
      subst hb1
      cases hl : loadNumpyAndScipy (req i).env b₁ with
      | error e =>
        have ha : advance r (req i) w.st (w.stage i) = (.finished (some e), w.st) := by
          rw [hs]; exact advance_load_error hl
        unfold World.step
        simp only [ha]
        refine ⟨fun hb => ⟨fun m hm => ?_, fun m hm => ?_, (i2 hb).2.2⟩, fun j hj => ?_, fun j b' xp scs hj => ?_⟩
        · refine ((i2 hb).1 m hm).imp_right ?_
          rintro ⟨k, b', xp, scs, todo, hk, hm⟩
          have : k ≠ i := by rintro rfl; rw [hs] at hk; cases hk
          exact ⟨k, b', xp, scs, todo, by rw [if_neg this]; exact hk, hm⟩
        · refine ((i2 hb).2.1 m hm).imp_right ?_
          rintro ⟨k, b', xp, scs, todo, hk, hm⟩
          have : k ≠ i := by rintro rfl; rw [hs] at hk; cases hk
          exact ⟨k, b', xp, scs, todo, by rw [if_neg this]; exact hk, hm⟩
        · by_cases hji : j = i
          · simp only [if_pos hji] at hj
            rcases hj with hj | ⟨_, _, _, _, hj⟩ <;> cases hj
          · simp only [if_neg hji] at hj; exact i3 j hj
        · by_cases hji : j = i
          · rw [if_pos hji] at hj; cases hj
          · rw [if_neg hji] at hj; exact i4 j b' xp scs hj
      | ok t =>
        obtain ⟨xp, scs, f⟩ := t
        have hf := (loadNumpyAndScipy_ok hl).2.2
        have ha : advance r (req i) w.st (w.stage i) = (.record b₁ xp scs, { w.st with x64 := w.st.x64 || f }) := by
          rw [hs]; exact advance_load hl
        unfold World.step
        simp only [ha]
        refine ⟨fun hb => ⟨fun m hm => ?_, fun m hm => ?_, fun hj => by rw [(i2 hb).2.2 hj]; rfl⟩, fun j hj => ?_,
          fun j b' xp scs _ hj => by rw [hf]; simp [hj]⟩
        · refine ((i2 hb).1 m hm).imp_right ?_
          rintro ⟨k, b', xp, scs, todo, hk, hm⟩
          have : k ≠ i := by rintro rfl; rw [hs] at hk; cases hk
          exact ⟨k, b', xp, scs, todo, by rw [if_neg this]; exact hk, hm⟩
        · refine ((i2 hb).2.1 m hm).imp_right ?_
          rintro ⟨k, b', xp, scs, todo, hk, hm⟩
          have : k ≠ i := by rintro rfl; rw [hs] at hk; cases hk
          exact ⟨k, b', xp, scs, todo, by rw [if_neg this]; exact hk, hm⟩
        · by_cases hji : j = i
          · simp only [if_pos hji] at hj
            rcases hj with hj | ⟨_, _, _, _, hj⟩ <;> cases hj
          · simp only [if_neg hji] at hj; exact i3 j hj
    | record b₁ xp scs =>
      rw [hs] at hi
      have hb1 : b₁ = b := name_inj b₁ ((hq i).symm.trans hi.1)
      subst hb1
      have ha : advance r (req i) w.st (w.stage i) = (.update b₁ xp scs (Job.all r), { w.st with backend := some b₁ }) := by
        rw [hs]; rfl
      have h64 := i4 i b₁ xp scs hs
      unfold World.step
      simp only [ha]
      refine ⟨fun _ => ⟨fun m hm => Or.inr ⟨i, b₁, xp, scs, Job.all r, by rw [if_pos rfl], Job.mem_xp.2 hm⟩,
        fun m hm => Or.inr ⟨i, b₁, xp, scs, Job.all r, by rw [if_pos rfl], Job.mem_scs.2 hm⟩, h64⟩, fun _ _ => trivial,
        fun _ _ _ _ _ => h64⟩
    | finished e =>
      have ha : advance r (req i) w.st (w.stage i) = (.finished e, w.st) := by rw [hs]; rfl
      have hw : w.step r req i = w := by
        obtain ⟨st, s⟩ := w
        unfold World.step
        simp only at ha hs ⊢
        rw [ha]
        congr 1
        funext j
        by_cases hj : j = i
        · rw [if_pos hj, hj, hs]
        · rw [if_neg hj]
      rw [hw]
      exact ⟨i2, i3, i4⟩
    | update b₁ xp scs todo =>
      rw [hs] at hi
      have hb1 : b₁ = b := name_inj b₁ ((hq i).symm.trans hi.1)
      subst hb1
      have hb : w.st.backend = some b₁ := i3 i (Or.inr ⟨_, _, _, _, hs⟩)
      cases todo with
      | nil =>
        have ha : advance r (req i) w.st (w.stage i) = (.finished none, w.st) := by rw [hs]; rfl
        unfold World.step
        simp only [ha]
        refine ⟨fun _ => ⟨fun m hm => ?_, fun m hm => ?_, (i2 hb).2.2⟩, fun _ _ => hb, fun j b' xp scs hj => ?_⟩
        · refine ((i2 hb).1 m hm).imp_right ?_
          rintro ⟨k, b', xp, scs, todo, hk, hm⟩
          have : k ≠ i := by rintro rfl; rw [hs] at hk; cases hk; cases hm
          exact ⟨k, b', xp, scs, todo, by rw [if_neg this]; exact hk, hm⟩
        · refine ((i2 hb).2.1 m hm).imp_right ?_
          rintro ⟨k, b', xp, scs, todo, hk, hm⟩
          have : k ≠ i := by rintro rfl; rw [hs] at hk; cases hk; cases hm
          exact ⟨k, b', xp, scs, todo, by rw [if_neg this]; exact hk, hm⟩
        · by_cases hji : j = i
          · rw [if_pos hji] at hj; cases hj
          · rw [if_neg hji] at hj; exact i4 j b' xp scs hj
      | cons jb todo =>
        obtain ⟨g1, g2, g3⟩ := runJob_good hc (he i) b₁ xp scs jb w.st (hi.2.2.2 jb List.mem_cons_self)
        obtain ⟨e1, e2, -⟩ := runJob_effect r (req i).env b₁ xp scs jb w.st (hi.2.2.2 jb List.mem_cons_self)
        rcases hr : runJob (req i).env b₁ xp scs jb w.st with ⟨st', _ | e⟩
        swap
        · rw [hr] at g1; cases g1
        rw [hr] at g2 g3 e1 e2
        have ha : advance r (req i) w.st (w.stage i) = (.update b₁ xp scs todo, st') := by
          rw [hs]; exact advance_job_ok hr
        unfold World.step
        simp only [ha]
        refine ⟨fun _ => ⟨fun m hm => ?_, fun m hm => ?_, fun hj => e2.trans ((i2 hb).2.2 hj)⟩, fun _ _ => e1.trans hb,
          fun j b' xp scs hj hx => e2.trans ((i2 hb).2.2 hx)⟩
        · rcases (i2 hb).1 m hm with h | ⟨k, b', xp', scs', todo', hk, hm⟩
          · left; rw [← hi.2.1] at h ⊢; exact g2 m (Or.inr h)
          · by_cases hki : k = i
            · rw [hki, hs] at hk; cases hk
              rcases List.mem_cons.1 hm with h | h
              · left; rw [← hi.2.1]; exact g2 m (Or.inl h.symm)
              · exact Or.inr ⟨i, b₁, xp, scs, todo, by rw [if_pos rfl], h⟩
            · exact Or.inr ⟨k, b', xp', scs', todo', by rw [if_neg hki]; exact hk, hm⟩
        · rcases (i2 hb).2.1 m hm with h | ⟨k, b', xp', scs', todo', hk, hm⟩
          · left; rw [← hi.2.2.1] at h ⊢; exact g3 m (Or.inr h)
          · by_cases hki : k = i
            · rw [hki, hs] at hk; cases hk
              rcases List.mem_cons.1 hm with h | h
              · left; rw [← hi.2.2.1]; exact g3 m (Or.inl h.symm)
              · exact Or.inr ⟨i, b₁, xp, scs, todo, by rw [if_pos rfl], h⟩
            · exact Or.inr ⟨k, b', xp', scs', todo', by rw [if_neg hki]; exact hk, hm⟩
  have hrun : ∀ (l : List ℕ) (w : World), Inv w → Inv (w.run r req l) := by
    intro l
    induction l with
    | nil => exact fun w h => h
    | cons i l ih => exact fun w h => ih _ (hstep w i h)
  obtain ⟨-, i2, i3, -⟩ := hrun schedule (World.start st)
    ⟨fun _ => trivial, fun h => ⟨fun m hm => Or.inl ((hst h).1.xp m hm), fun m hm => Or.inl ((hst h).1.scs m hm), (hst h).2⟩,
      fun j hj => (by rcases hj with hj | ⟨_, _, _, _, hj⟩ <;> cases hj), fun j _ _ _ hj => (by cases hj)⟩
  obtain ⟨i, hi⟩ := hret
  have hb := i3 i (Or.inl hi)
  have none_under_way : ∀ k b' xp scs todo, ((World.start st).run r req schedule).stage k ≠ .update b' xp scs todo := by
    intro k b' xp scs todo h
    rcases hdone k with h' | ⟨o, h'⟩ <;> rw [h] at h' <;> cases h'
  refine ⟨⟨hb, fun m hm => ((i2 hb).1 m hm).resolve_right ?_, fun m hm => ((i2 hb).2.1 m hm).resolve_right ?_⟩, (i2 hb).2.2⟩
  · rintro ⟨k, b', xp, scs, todo, h, -⟩; exact none_under_way _ _ _ _ _ h
  · rintro ⟨k, b', xp, scs, todo, h, -⟩; exact none_under_way _ _ _ _ _ h

/-- Two threads that both ask for jax, the first of which runs alone before the second starts. -/
example : ∃ schedule, (∀ i, ((World.start (BState.initial fun _ _ => none)).run gwRegistry (fun _ => ⟨goodEnv, "jax"⟩)
      schedule).stage i = .begin ∨ ∃ o, ((World.start (BState.initial fun _ _ => none)).run gwRegistry
        (fun _ => ⟨goodEnv, "jax"⟩) schedule).stage i = .finished o) ∧
    ∃ i, ((World.start (BState.initial fun _ _ => none)).run gwRegistry (fun _ => ⟨goodEnv, "jax"⟩)
      schedule).stage i = .finished none := by
  have hk : (Job.all gwRegistry).length + 4 ≤ 14 := by simp [Job.all, gwRegistry, Registry.others]
  refine ⟨List.replicate 14 0, fun i => ?_, 0, ?_⟩
  · rw [run_alone]
    simp only
    by_cases h : i = 0
    · right
      rw [if_pos h]
      exact ⟨_, by rw [show (World.start (BState.initial fun _ _ => none)).stage 0 = .begin from rfl,
        C125_undisturbed _ _ _ _ hk]⟩
    · left; rw [if_neg h]; rfl
  · rw [run_alone]
    simp only [if_true]
    rw [show (World.start (BState.initial fun _ _ => none)).stage 0 = .begin from rfl, C125_undisturbed _ _ _ _ hk]
    simp only
    rw [show (setBackend gwRegistry goodEnv "jax" (World.start (BState.initial fun _ _ => none)).st).2 = none from
      setBackend_good gwRegistry rfl .jax _]

/-! ### What goes wrong -/

/-- The first three steps of a call for another backend than the recorded one record it and assign nothing else than jax's
flag. -/
theorem three_steps (r : Registry) (q : Request) (b : Backend) (hq : q.name = backendName b) {xp scs : Bound} {f : Bool}
    (hl : loadNumpyAndScipy q.env b = .ok (xp, scs, f)) (st : BState) (hb : st.backend ≠ some b) :
    advanceN r q st .begin 3 = (.update b xp scs (Job.all r), { st with backend := some b, x64 := st.x64 || f }) := by
  rw [advanceN_succ, advance_begin (by rw [hq]; exact parseBackend_name b) hb, advanceN_succ, advance_load hl]
  rfl

/-- **C125, the second of two equal calls returns too early.** Thread 0 asks for a backend that is not the recorded one and has
recorded it, but not yet installed it; a call for the same backend from any other thread then returns at once, although all
modules still use the backend before. -/
theorem C125_early_partial (r : Registry) (req : ℕ → Request) (b : Backend) (h0 : (req 0).name = backendName b)
    (h1 : (req 1).name = backendName b) {xp scs : Bound} {f : Bool}
    (hl : loadNumpyAndScipy (req 0).env b = .ok (xp, scs, f)) (st : BState) (hb : st.backend ≠ some b) :
    ((World.start st).run r req [0, 0, 0, 1]).stage 1 = .finished none ∧
    ((World.start st).run r req [0, 0, 0, 1]).st.bind = st.bind := by
  rw [show [0, 0, 0, 1] = List.replicate 3 0 ++ [1] from rfl, run_append, run_alone]
  rw [show (World.start st).stage 0 = .begin from rfl, show (World.start st).st = st from rfl,
    three_steps r (req 0) b h0 hl _ hb]
  simp only [World.run, List.foldl_cons, List.foldl_nil, World.step, if_true, if_neg (show (1 : ℕ) ≠ 0 by decide)]
  rw [show (World.start st).stage 1 = .begin from rfl,
    advance_begin_same (by rw [h1]; exact parseBackend_name b) rfl]
  exact ⟨rfl, rfl⟩

/-- **C125, two backends at once.** Thread 1 records its backend; thread 0 then switches to another one completely; thread 1
goes on. Both calls return normally, the recorded backend is that of thread 0, all modules use that of thread 1, and
repeating the call of thread 0 changes nothing. -/
theorem C125_mixed_partial (r : Registry) (hc : NoClash r) (req : ℕ → Request) (b₀ b₁ : Backend) (hne : b₀ ≠ b₁)
    (h0 : (req 0).name = backendName b₀) (h1 : (req 1).name = backendName b₁)
    (he : ∀ i, RegisteredImport r (req i).env) {t₀ t₁ : Bound × Bound × Bool}
    (hl0 : loadNumpyAndScipy (req 0).env b₀ = .ok t₀) (hl1 : loadNumpyAndScipy (req 1).env b₁ = .ok t₁) (st : BState)
    (hb : st.backend ≠ some b₁) :
    ∃ (schedule : List ℕ) (w : World), w = (World.start st).run r req schedule ∧
      w.stage 0 = .finished none ∧ w.stage 1 = .finished none ∧ (∀ i, 2 ≤ i → w.stage i = .begin) ∧
      w.st.backend = some b₀ ∧ (∀ m ∈ r.xp, w.st.bind m "xp" = some (.mod (arrayModule b₁))) ∧
      (∀ m ∈ r.scs, w.st.bind m "scs" = some (.attr (scipyPackage b₁) "special".toList)) ∧
      ∀ env, setBackend r env (backendName b₀) w.st = (w.st, none) := by
  obtain ⟨xp, scs, f⟩ := t₁
  obtain ⟨rfl, rfl, -⟩ := loadNumpyAndScipy_ok hl1
  refine ⟨List.replicate 3 1 ++ (List.replicate ((Job.all r).length + 4) 0 ++ List.replicate ((Job.all r).length + 1) 1),
    _, rfl, ?_⟩
  rw [run_append, run_append, run_alone r req 1 3, show (World.start st).stage 1 = .begin from rfl,
    show (World.start st).st = st from rfl, three_steps r (req 1) b₁ h1 hl1 _ hb, run_alone r req 0, run_alone r req 1]
  simp only [if_true, if_neg (show (0 : ℕ) ≠ 1 by decide), if_neg (show (1 : ℕ) ≠ 0 by decide)]
  rw [show (World.start st).stage 0 = .begin from rfl, C125_undisturbed _ _ _ _ le_rfl, h0]
  have hret := setBackend_returns (he 0) hl0
    ({ st with backend := some b₁, x64 := st.x64 || f } : BState)
  generalize hs : ({ st with backend := some b₁, x64 := st.x64 || f } : BState) = s at hret ⊢
  have hsb : s.backend ≠ some b₀ := by
    rw [← hs]; intro h; cases h; exact hne rfl
  have hrec : (setBackend r (req 0).env (backendName b₀) s).1.backend = some b₀ :=
    (setBackend_ok (parseBackend_name b₀) hsb (Prod.ext rfl hret)).1
  rw [hret]
  generalize (setBackend r (req 0).env (backendName b₀) s).1 = s' at hrec ⊢
  rw [advanceN_update r (req 1) b₁ _ _ _ s' _ le_rfl]
  obtain ⟨g1, g2, g3, g4⟩ := runJobs_good hc (he 1) b₁ (.mod (arrayModule b₁))
    (.attr (scipyPackage b₁) "special".toList) (Job.all r) s' (fun j h => h)
  refine ⟨rfl, by rw [g1], fun i hi => ?_, g2.trans hrec, fun m hm => g3 m (Or.inl (Job.mem_xp.2 hm)),
    fun m hm => g4 m (Or.inl (Job.mem_scs.2 hm)), fun env => C14_setBackend_same r env b₀ _ (g2.trans hrec)⟩
  rw [if_neg (by omega), if_neg (by omega), if_neg (by omega)]
  rfl

/-- **C125, an interrupted call.** A call for another backend than the recorded one that is abandoned after one or two steps
leaves the recorded backend and all modules as before. After the third it has recorded the backend: repeating the call
returns at once, and the modules that were not reached stay with the backend before. -/
theorem C125_interrupted_partial (r : Registry) (q : Request) (b : Backend) (hq : q.name = backendName b)
    {xp scs : Bound} {f : Bool} (hl : loadNumpyAndScipy q.env b = .ok (xp, scs, f)) (st : BState)
    (hb : st.backend ≠ some b) :
    (∀ k ≤ 2, (advanceN r q st .begin k).2.bind = st.bind ∧ (advanceN r q st .begin k).2.backend = st.backend) ∧
    (advanceN r q st .begin 3).2.bind = st.bind ∧
    ∀ k, 3 ≤ k → ∀ env, setBackend r env (backendName b) (advanceN r q st .begin k).2 = ((advanceN r q st .begin k).2, none) := by
  have hp : parseBackend q.name = some b := by rw [hq]; exact parseBackend_name b
  refine ⟨fun k hk => ?_, by rw [three_steps r q b hq hl st hb], fun k hk env => ?_⟩
  · rcases Nat.lt_or_ge k 1 with h | h
    · obtain rfl : k = 0 := by omega
      exact ⟨rfl, rfl⟩
    · rcases Nat.lt_or_ge k 2 with h | h
      · obtain rfl : k = 1 := by omega
        rw [advanceN_succ, advance_begin hp hb]; exact ⟨rfl, rfl⟩
      · obtain rfl : k = 2 := by omega
        rw [advanceN_succ, advance_begin hp hb, advanceN_succ, advance_load hl]; exact ⟨rfl, rfl⟩
  · refine C14_setBackend_same r env b _ ?_
    obtain ⟨k, rfl⟩ : ∃ k', k = 3 + k' := ⟨k - 3, by omega⟩
    have hadd : ∀ (a c : ℕ) (s : BState) (g : Stage),
        advanceN r q s g (a + c) = advanceN r q (advanceN r q s g a).2 (advanceN r q s g a).1 c := by
      intro a
      induction a with
      | zero => intro c s g; rw [Nat.zero_add]; rfl
      | succ a ih =>
        intro c s g
        rw [Nat.succ_add, Nat.succ_eq_add_one, advanceN_succ, advanceN_succ, ih]
    rw [hadd, three_steps r q b hq hl st hb]
    simp only
    have key : ∀ (k : ℕ) (jobs : List Job) (s : BState), (∀ j ∈ jobs, j ∈ Job.all r) → s.backend = some b →
        (advanceN r q s (.update b xp scs jobs) k).2.backend = some b := by
      intro k
      induction k with
      | zero => exact fun _ s _ h => h
      | succ k ih =>
        intro jobs s hj h
        cases jobs with
        | nil => rw [advanceN_succ, show advance r q s (.update b xp scs []) = (.finished none, s) from rfl,
            advanceN_finished]; exact h
        | cons j jobs =>
          obtain ⟨e1, -, -⟩ := runJob_effect r q.env b xp scs j s (hj j List.mem_cons_self)
          rw [advanceN_succ]
          rcases hr : runJob q.env b xp scs j s with ⟨s', _ | e⟩
          · rw [hr] at e1
            rw [advance_job_ok hr]
            exact ih jobs s' (fun j h => hj j (List.mem_cons_of_mem _ h)) (e1.trans h)
          · rw [hr] at e1
            rw [advance_job_error hr, advanceN_finished]; exact e1.trans h
    exact key k _ _ (fun j h => h) rfl

example : ∃ t, loadNumpyAndScipy goodEnv .jax = .ok t := ⟨_, loadNumpyAndScipy_good .jax⟩

theorem gwRegistry_imports : RegisteredImport gwRegistry goodEnv :=
  ⟨fun _ _ => rfl, fun _ _ => rfl, by simp [gwRegistry]⟩

/-- **C125 fails** for the package's own modules after numpy has been selected, in all its three parts. -/
theorem C125_fails : ¬ C125_statement ∧
    (∃ (req : ℕ → Request) (st : BState) (schedule : List ℕ), UsesBackend gwRegistry .numpy st ∧
      (∀ i, (req i).name = "jax") ∧
      (∃ i, ((World.start st).run gwRegistry req schedule).stage i = .finished none) ∧
      ((World.start st).run gwRegistry req schedule).st.bind "gwpopulation.utils" "xp" = some (.mod "numpy".toList)) ∧
    (∃ (req : ℕ → Request) (st : BState) (schedule : List ℕ), UsesBackend gwRegistry .numpy st ∧
      (∀ i, ((World.start st).run gwRegistry req schedule).stage i = .begin ∨
        ((World.start st).run gwRegistry req schedule).stage i = .finished none) ∧
      ((World.start st).run gwRegistry req schedule).st.backend = some .cupy ∧
      ((World.start st).run gwRegistry req schedule).st.bind "gwpopulation.utils" "xp" = some (.mod "jax.numpy".toList)) ∧
    (∃ (q : Request) (st : BState) (k : ℕ), UsesBackend gwRegistry .numpy st ∧
      setBackend gwRegistry goodEnv "jax" (advanceN gwRegistry q st .begin k).2 = ((advanceN gwRegistry q st .begin k).2, none) ∧
      (advanceN gwRegistry q st .begin k).2.bind "gwpopulation.utils" "xp" = some (.mod "numpy".toList)) := by
  have hc : NoClash gwRegistry := by simp [NoClash, gwRegistry]
  obtain ⟨st, hst⟩ : ∃ st, UsesBackend gwRegistry .numpy st :=
    ⟨_, setBackend_uses hc (parseBackend_name .numpy) (st := BState.initial fun _ _ => none) (by simp [BState.initial])
      (Prod.ext rfl (setBackend_good gwRegistry rfl .numpy _))⟩
  have hu : "gwpopulation.utils" ∈ gwRegistry.xp := by simp [gwRegistry]
  have hn : ∀ b : Backend, b ≠ .numpy → st.backend ≠ some b := by
    intro b hb h; rw [hst.active] at h; cases h; exact hb rfl
  obtain ⟨hA1, hA2⟩ := C125_early_partial gwRegistry (fun _ => ⟨goodEnv, "jax"⟩) .jax rfl rfl (loadNumpyAndScipy_good .jax) st
    (hn .jax (by decide))
  obtain ⟨sch, w, hw, hB0, hB1, hB2, hB3, hB4, -, -⟩ := C125_mixed_partial gwRegistry hc
    (fun i => if i = 0 then ⟨goodEnv, "cupy"⟩ else ⟨goodEnv, "jax"⟩) .cupy .jax (by decide) rfl rfl
    (fun i => by by_cases h : i = 0 <;> simp only [h, if_true, if_false] <;> exact gwRegistry_imports)
    (loadNumpyAndScipy_good .cupy) (loadNumpyAndScipy_good .jax) st (hn .jax (by decide))
  obtain ⟨-, hC1, hC2⟩ := C125_interrupted_partial gwRegistry ⟨goodEnv, "jax"⟩ .jax rfl (loadNumpyAndScipy_good .jax) st
    (hn .jax (by decide))
  subst hw
  have hx : st.bind "gwpopulation.utils" "xp" = some (.mod "numpy".toList) := hst.xp _ hu
  refine ⟨fun H => ?_, ?_, ?_, ?_⟩
  · generalize hw : World.run gwRegistry (fun _ => ⟨goodEnv, "jax"⟩) (World.start st) [0, 0, 0, 1] = w at hA1 hA2
    have h2 : w.st.bind "gwpopulation.utils" "xp" = some (.mod (arrayModule .jax)) :=
      ((H gwRegistry (fun _ => ⟨goodEnv, "jax"⟩) st [0, 0, 0, 1] w hc (fun _ => gwRegistry_imports)
        (fun b hb => by rw [hst.active] at hb; cases hb; exact hst) hw.symm).2.1 .jax (fun _ => rfl) ⟨1, hA1⟩).xp _ hu
    rw [hA2, hx] at h2
    exact absurd h2 (by decide)
  · refine ⟨fun _ => ⟨goodEnv, "jax"⟩, st, [0, 0, 0, 1], hst, fun _ => rfl, ⟨1, hA1⟩, ?_⟩
    rw [hA2]; exact hx
  · refine ⟨fun i => if i = 0 then ⟨goodEnv, "cupy"⟩ else ⟨goodEnv, "jax"⟩, st, sch, hst, fun i => ?_, hB3, ?_⟩
    · rcases Nat.lt_or_ge i 1 with h | h
      · obtain rfl : i = 0 := by omega
        exact Or.inr hB0
      · rcases Nat.lt_or_ge i 2 with h | h
        · obtain rfl : i = 1 := by omega
          exact Or.inr hB1
        · exact Or.inl (hB2 i h)
    · have := hB4 _ hu
      rw [show arrayModule .jax = "jax.numpy".toList from rfl] at this
      exact this
  · refine ⟨⟨goodEnv, "jax"⟩, st, 3, hst, ?_, ?_⟩
    · have := hC2 3 le_rfl goodEnv
      rw [show backendName .jax = "jax" from rfl] at this
      exact this
    · rw [hC1]; exact hx

/-! ### What helps -/

/-- **C125, recovery.** Whatever threads and interruptions have done, two calls for two different backends that run to the end
one after the other and return normally leave all registered modules with the second one. -/
theorem C125_recovery_partial (r : Registry) (hc : NoClash r) (req : ℕ → Request) (st : BState) (schedule : List ℕ)
    (b b' : Backend) (hbb : b' ≠ b) (env env' : BEnv) (st₁ st₂ : BState)
    (h₁ : setBackend r env' (backendName b') ((World.start st).run r req schedule).st = (st₁, none))
    (h₂ : setBackend r env (backendName b) st₁ = (st₂, none)) :
    UsesBackend r b st₂ := by
  have hb1 : st₁.backend = some b' := by
    by_cases h : ((World.start st).run r req schedule).st.backend = some b'
    · rw [C14_setBackend_same r env' b' _ h] at h₁
      cases h₁; exact h
    · exact (setBackend_ok (parseBackend_name b') h h₁).1
  refine setBackend_uses hc (parseBackend_name b) ?_ h₂
  rw [hb1]; intro h; cases h; exact hbb rfl

example (st : BState) : ∃ st₁ st₂, setBackend gwRegistry goodEnv (backendName .jax) st = (st₁, none) ∧
    setBackend gwRegistry goodEnv (backendName .numpy) st₁ = (st₂, none) :=
  ⟨_, _, Prod.ext rfl (setBackend_good gwRegistry rfl .jax _), Prod.ext rfl (setBackend_good gwRegistry rfl .numpy _)⟩

/-- How many steps a call has still to make at most. -/
def remaining (r : Registry) : Stage → ℕ
  | .begin => (Job.all r).length + 4
  | .load _ => (Job.all r).length + 3
  | .record _ _ _ => (Job.all r).length + 2
  | .update _ _ _ todo => todo.length + 1
  | .finished _ => 0

theorem remaining_advance (r : Registry) (q : Request) (st : BState) (s : Stage) :
    remaining r (advance r q st s).1 ≤ remaining r s - 1 := by
  cases s with
  | begin =>
    cases hp : parseBackend q.name with
    | none => rw [advance_begin_bad hp]; simp [remaining]
    | some b =>
      by_cases hb : st.backend = some b
      · rw [advance_begin_same hp hb]; simp [remaining]
      · rw [advance_begin hp hb]; simp [remaining]
  | load b =>
    cases hl : loadNumpyAndScipy q.env b with
    | error e => rw [advance_load_error hl]; simp [remaining]
    | ok t => rw [advance_load hl]; simp [remaining]
  | record b xp scs => simp [remaining, advance]
  | update b xp scs todo =>
    cases todo with
    | nil => simp [remaining, advance]
    | cons j todo =>
      rcases hj : runJob q.env b xp scs j st with ⟨st', _ | e⟩
      · rw [advance_job_ok hj]; simp [remaining]
      · rw [advance_job_error hj]; simp [remaining]
  | finished e => simp [remaining, advance]

/-- **C125, calls end.** For every schedule, a thread that has made four steps and one for each registered attribute has
returned or raised: no call waits for another. -/
theorem C125_terminates (r : Registry) (req : ℕ → Request) (st : BState) (schedule : List ℕ) (i : ℕ)
    (h : r.xp.length + r.scs.length + r.other.length + 4 ≤ schedule.count i) :
    ∃ o, ((World.start st).run r req schedule).stage i = .finished o := by
  have key : ∀ (l : List ℕ) (w : World),
      remaining r ((w.run r req l).stage i) ≤ remaining r (w.stage i) - l.count i := by
    intro l
    induction l with
    | nil => intro w; simp [World.run]
    | cons j l ih =>
      intro w
      rw [run_cons]
      refine (ih _).trans ?_
      unfold World.step
      simp only
      by_cases hj : i = j
      · subst hj
        rw [if_pos rfl, List.count_cons_self]
        have := remaining_advance r (req i) w.st (w.stage i)
        omega
      · rw [if_neg hj, List.count_cons_of_ne (fun h => hj h.symm)]
  have hle : r.others.length ≤ r.other.length := by
    unfold Registry.others
    have : ∀ (l : List (String × String)) (d : Dict String),
        (l.foldl (fun d e => Dict.set d e.1 e.2) d).length ≤ d.length + l.length := by
      intro l
      induction l with
      | nil => intro d; simp
      | cons e l ih =>
        intro d
        rw [List.foldl_cons]
        refine (ih _).trans ?_
        have h1 : (Dict.set d e.1 e.2).length ≤ d.length + 1 := by
          have := congrArg List.length (Dict.keys_set d e.1 e.2)
          unfold Dict.keys at this
          rw [List.length_map] at this
          rw [this]
          split_ifs <;> simp
        rw [List.length_cons]; omega
    simpa using this r.other []
  have h1 := key schedule (World.start st)
  have h2 : remaining r ((World.start st).stage i) ≤ schedule.count i := by
    show (Job.all r).length + 4 ≤ _
    simp only [Job.all, List.length_append, List.length_map]
    omega
  have h3 : remaining r (((World.start st).run r req schedule).stage i) = 0 := by omega
  cases hs : ((World.start st).run r req schedule).stage i with
  | finished o => exact ⟨o, rfl⟩
  | begin => rw [hs] at h3; simp [remaining] at h3
  | load b => rw [hs] at h3; simp [remaining] at h3
  | record b xp scs => rw [hs] at h3; simp [remaining] at h3
  | update b xp scs todo => rw [hs] at h3; simp [remaining] at h3

example : gwRegistry.xp.length + gwRegistry.scs.length + gwRegistry.other.length + 4 ≤ (List.replicate 14 0).count 0 := by
  simp [gwRegistry]

end BackendThreads

end GW
