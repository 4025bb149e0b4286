import Verif.Model.SharedSmoothed
import Verif.Props.SmoothedHistory

/-!
# C104: one smoothed mass model for posterior samples and injections
-/

noncomputable section

open Classical

namespace GW

open Fl Spec

namespace SharedSmoothed

/-! ### Arrays -/

theorem bshape_self (s : List ℕ) : NArr.bshape s s = some s := by
  induction s with
  | nil => rfl
  | cons n s ih => simp [NArr.bshape, ih]

theorem proj_indices {s i : List ℕ} (h : i ∈ NArr.indices s) : NArr.proj s i = i := by
  induction s generalizing i with
  | nil => simp only [NArr.indices, List.mem_singleton] at h; subst h; rfl
  | cons n s ih =>
    simp only [NArr.indices, List.mem_flatMap, List.mem_map, List.mem_range] at h
    obtain ⟨t, ht, k, hk, rfl⟩ := h
    simp only [NArr.proj, ih ht, List.cons.injEq, and_true]
    split_ifs with h1
    · omega
    · rfl

theorem mapM_total {α : Type} (f : α → Except PyErr Fl) (a : Shaped α) (g : List ℕ → Fl)
    (hf : ∀ i, f (a.elem i) = .ok (g i)) : a.mapM f = .ok ⟨a.shape, g⟩ := by
  unfold Shaped.mapM Shaped.elements
  rw [mapM_map, mapM_ok (g := g) fun i _ => hf i]
  simp only [hf]
  rfl

theorem map_elements {α β : Type} (f : α → β) (a : Shaped α) : (a.map f).elements = a.elements.map f := by
  simp only [Shaped.elements, Shaped.map, List.map_map]; rfl

theorem elements_length {α : Type} (a : Shaped α) : a.elements.length = (NArr.indices a.shape).length := by
  simp [Shaped.elements]

/-- Values of a computation that did not raise. -/
theorem mapM_values {α : Type} (f : α → Except PyErr Fl) {l : List α} {ys : List Fl} (h : l.mapM f = .ok ys) :
    l.map (fun x => match f x with | .ok y => y | .error _ => nan) = ys := by
  induction l generalizing ys with
  | nil => exact Except.ok.inj h
  | cons x l ih =>
    rw [List.mapM_cons] at h
    obtain ⟨y, hy, h⟩ := bind_eq_ok.1 h
    obtain ⟨ys', hys, h⟩ := bind_eq_ok.1 h
    rw [← Except.ok.inj h, List.map_cons, ih hys, hy]

/-- An array evaluated element by element is the evaluation of the list of its elements. -/
theorem mapM_elements {α : Type} (f : α → Except PyErr Fl) (a : Shaped α) :
    (a.mapM f).map (fun r => (r.shape, r.elements)) = (a.elements.mapM f).map fun l => (a.shape, l) := by
  unfold Shaped.mapM
  cases h : a.elements.mapM f with
  | error e => rfl
  | ok ys =>
    show Except.ok _ = Except.ok _
    rw [← mapM_values f h]
    simp only [Shaped.elements, List.map_map]
    rfl

theorem raw_values (b : Backend) (beta lo deltaM : Fl) (data : Shaped (Fl × Fl)) :
    data.mapM (fun d => Smoothed.pQRaw b beta lo deltaM d.1 d.2) =
      .ok ⟨data.shape, fun i => pQVal b beta lo deltaM (data.elem i).1 (data.elem i).2⟩ :=
  mapM_total _ data _ fun i => pQRaw_eq b beta lo deltaM (data.elem i).1 (data.elem i).2

/-- Whether `x /= y` works for arrays of these shapes. -/
def Divides (b : Backend) (x y : List ℕ) : Prop := ∃ r, NArr.bshape x y = some r ∧ (b ≠ .jax → r = x)

theorem inplaceDiv_divides {b : Backend} {x y : Shaped Fl} (h : Divides b x.shape y.shape) :
    ∃ r, NArr.bshape x.shape y.shape = some r ∧ (b ≠ .jax → r = x.shape) ∧
      Shaped.inplaceDiv b x y = .ok ⟨r, fun i => x.elem (NArr.proj x.shape i) / y.elem (NArr.proj y.shape i)⟩ := by
  obtain ⟨r, hr, hb⟩ := h
  refine ⟨r, hr, hb, ?_⟩
  unfold Shaped.inplaceDiv Shaped.zip
  rw [hr]
  show (if b ≠ .jax ∧ r ≠ x.shape then _ else _) = _
  rw [if_neg (fun h => h.2 (hb h.1))]

theorem inplaceDiv_not_divides {b : Backend} {x y : Shaped Fl} (h : ¬ Divides b x.shape y.shape) :
    ∃ e, Shaped.inplaceDiv b x y = .error e ∧ Smoothed.caught e := by
  unfold Shaped.inplaceDiv Shaped.zip
  cases hr : NArr.bshape x.shape y.shape with
  | none =>
    by_cases hb : b = .jax
    · exact ⟨_, rfl, by rw [if_pos hb]; trivial⟩
    · exact ⟨_, rfl, by rw [if_neg hb]; trivial⟩
  | some r =>
    by_cases hc : b ≠ .jax ∧ r ≠ x.shape
    · refine ⟨.valueError, ?_, trivial⟩
      show (if b ≠ .jax ∧ r ≠ x.shape then _ else _) = _
      rw [if_pos hc]
    · exact absurd ⟨r, hr, fun hb => by by_contra hn; exact hc ⟨hb, hn⟩⟩ h

/-! ### The mass-ratio part -/

/-- The norm interpolated at a mass. -/
def normAt (b : Backend) (s : Smoothed) (beta lo deltaM : Fl) (m : Fl) : Fl :=
  interpLinear s.m1s (s.m1s.map (qNormAt b s beta lo deltaM)) m

/-- The quotient formed with the masses of `cached`, at an index of the result. -/
def quotient (b : Backend) (s : Smoothed) (beta lo deltaM : Fl) (data : Shaped (Fl × Fl)) (cached : Shaped Fl)
    (i : List ℕ) : Fl :=
  nanToNum (pQVal b beta lo deltaM (data.elem (NArr.proj data.shape i)).1 (data.elem (NArr.proj data.shape i)).2 /
    normAt b s beta lo deltaM (cached.elem (NArr.proj cached.shape i)))

theorem normPQ_shaped (b : Backend) (m : SharedSmoothed) (beta lo deltaM : Fl) :
    normPQ b m beta lo deltaM = match m.masses with
      | none => .error .attributeError
      | some l => .ok (l.map (normAt b m.inst beta lo deltaM)) := by
  unfold normPQ
  rw [qNorms_eq]
  rfl

/-- `p_q` of a new instance. -/
def freshQ (b : Backend) (s : Smoothed) (beta lo deltaM : Fl) (data : Shaped (Fl × Fl)) : Shaped Fl :=
  ⟨data.shape, quotient b s beta lo deltaM data (data.map Prod.fst)⟩

/-- The cached interpolant is used although it belongs to other masses. -/
def Mistaken (b : Backend) (m : SharedSmoothed) (data : Shaped (Fl × Fl)) (l : Shaped Fl) : Prop :=
  m.inst.cache = true ∧ m.masses = some l ∧ Divides b data.shape l.shape

theorem pQ_mistaken (b : Backend) (m : SharedSmoothed) (data : Shaped (Fl × Fl)) (beta lo deltaM : Fl)
    (l : Shaped Fl) (h : Mistaken b m data l) : ∃ r, NArr.bshape data.shape l.shape = some r ∧
      (b ≠ .jax → r = data.shape) ∧
      pQ b m data beta lo deltaM = (.ok ⟨r, quotient b m.inst beta lo deltaM data l⟩, m) := by
  obtain ⟨hc, hl, hd⟩ := h
  obtain ⟨r, hr, hb, he⟩ := inplaceDiv_divides (b := b) (x := ⟨data.shape, fun i => pQVal b beta lo deltaM
    (data.elem i).1 (data.elem i).2⟩) (y := l.map (normAt b m.inst beta lo deltaM)) hd
  refine ⟨r, hr, hb, ?_⟩
  unfold pQ
  rw [raw_values]
  simp only
  rw [if_pos hc]
  unfold divideByNorm
  rw [normPQ_shaped, hl, ok_bind, he]
  rfl

theorem divideByNorm_own (b : Backend) (m : SharedSmoothed) (data : Shaped (Fl × Fl)) (beta lo deltaM : Fl)
    (h : m.masses = some (data.map Prod.fst)) :
    (divideByNorm b m ⟨data.shape, fun i => pQVal b beta lo deltaM (data.elem i).1 (data.elem i).2⟩ beta lo
      deltaM).map (·.map nanToNum) = .ok (freshQ b m.inst beta lo deltaM data) := by
  obtain ⟨r, hr, hb, he⟩ := inplaceDiv_divides (b := b) (x := ⟨data.shape, fun i => pQVal b beta lo deltaM
    (data.elem i).1 (data.elem i).2⟩) (y := (data.map Prod.fst).map (normAt b m.inst beta lo deltaM))
    ⟨data.shape, bshape_self _, fun _ => rfl⟩
  have hr' : data.shape = r := Option.some.inj ((bshape_self _).symm.trans hr)
  unfold divideByNorm
  rw [normPQ_shaped, h, ok_bind, he, ← hr']
  rfl

/-- Unless an interpolant is mistaken for the right one, `p_q` is that of a new instance. -/
theorem pQ_right (b : Backend) (m : SharedSmoothed) (data : Shaped (Fl × Fl)) (beta lo deltaM : Fl)
    (h : ∀ l, Mistaken b m data l → l = data.map Prod.fst) :
    (pQ b m data beta lo deltaM).1 = .ok (freshQ b m.inst beta lo deltaM data) ∧
      ((pQ b m data beta lo deltaM).2 = cacheQNorms m (data.map Prod.fst)) := by
  have own := fun (m' : SharedSmoothed) (hi : m'.inst = m.inst) (hm : m'.masses = some (data.map Prod.fst)) =>
    hi ▸ divideByNorm_own b m' data beta lo deltaM hm
  unfold pQ
  rw [raw_values]
  simp only
  by_cases hc : m.inst.cache = true
  · rw [if_pos hc]
    by_cases hown : m.masses = some (data.map Prod.fst)
    · have hm := own m rfl hown
      have hst : cacheQNorms m (data.map Prod.fst) = m := by
        unfold cacheQNorms; rw [← hown]
      cases hd : divideByNorm b m ⟨data.shape, fun i => pQVal b beta lo deltaM (data.elem i).1 (data.elem i).2⟩
          beta lo deltaM with
      | error e => rw [hd] at hm; cases hm
      | ok r => rw [hd] at hm; exact ⟨hm, hst.symm⟩
    · have herr : ∃ e, divideByNorm b m ⟨data.shape, fun i => pQVal b beta lo deltaM (data.elem i).1
          (data.elem i).2⟩ beta lo deltaM = .error e ∧ Smoothed.caught e := by
        unfold divideByNorm
        rw [normPQ_shaped]
        cases hl : m.masses with
        | none => exact ⟨_, rfl, trivial⟩
        | some l =>
          have hn : ¬ Divides b data.shape l.shape := fun hd => hown (by rw [hl, h l ⟨hc, hl, hd⟩])
          exact inplaceDiv_not_divides (b := b) (x := ⟨data.shape, _⟩)
            (y := l.map (normAt b m.inst beta lo deltaM)) hn
      obtain ⟨e, he, hca⟩ := herr
      rw [he]
      simp only
      rw [if_pos hca]
      exact ⟨own _ rfl rfl, rfl⟩
  · rw [if_neg hc]
    have hm := own (cacheQNorms m (data.map Prod.fst)) rfl rfl
    cases hd : divideByNorm b (cacheQNorms m (data.map Prod.fst)) ⟨data.shape, fun i => pQVal b beta lo deltaM
        (data.elem i).1 (data.elem i).2⟩ beta lo deltaM with
    | error e => rw [hd] at hm; cases hm
    | ok r => rw [hd] at hm; exact ⟨hm, rfl⟩

/-! ### Calls -/

theorem pQ_after (b : Backend) (m : SharedSmoothed) (data : Shaped (Fl × Fl)) (beta lo deltaM : Fl) :
    (pQ b m data beta lo deltaM).2 = m ∨ (pQ b m data beta lo deltaM).2 = cacheQNorms m (data.map Prod.fst) := by
  by_cases h : ∃ l, Mistaken b m data l
  · obtain ⟨l, hl⟩ := h
    obtain ⟨r, -, -, hp⟩ := pQ_mistaken b m data beta lo deltaM l hl
    rw [hp]; exact Or.inl rfl
  · exact Or.inr (pQ_right b m data beta lo deltaM fun l hl => absurd ⟨l, hl⟩ h).2

theorem call_after (b : Backend) (m : SharedSmoothed) (data : Shaped (Fl × Fl)) (kwargs : Dict Fl) :
    (call b m data kwargs).2 = m ∨ (call b m data kwargs).2 = cacheQNorms m (data.map Prod.fst) := by
  unfold call
  cases Dict.get? kwargs "beta" with
  | none => exact Or.inl rfl
  | some beta =>
    simp only
    split_ifs
    · exact Or.inl rfl
    · exact Or.inl rfl
    · exact Or.inl rfl
    · cases pM1 b m (data.map Prod.fst) (Dict.erase kwargs "beta" ++ m.inst.fixed) with
      | error e => exact Or.inl rfl
      | ok pm =>
        simp only
        have := pQ_after b m data beta
          (Smoothed.kwGet (Dict.erase kwargs "beta") "mmin" (fin m.inst.mmin))
          (Smoothed.kwGet (Dict.erase kwargs "beta") "delta_m" 0)
        rcases hq : pQ b m data beta
          (Smoothed.kwGet (Dict.erase kwargs "beta") "mmin" (fin m.inst.mmin))
          (Smoothed.kwGet (Dict.erase kwargs "beta") "delta_m" 0) with ⟨r, s'⟩
        rw [hq] at this
        cases r with
        | error e => exact this
        | ok pq => exact this

theorem runCalls_after (b : Backend) (m : SharedSmoothed) (hist : List (Shaped (Fl × Fl) × Dict Fl)) :
    (runCalls b m hist).inst = m.inst ∧ ((runCalls b m hist).masses = m.masses ∨
      ∃ c ∈ hist, (runCalls b m hist).masses = some (c.1.map Prod.fst)) := by
  induction hist generalizing m with
  | nil => exact ⟨rfl, Or.inl rfl⟩
  | cons c hist ih =>
    obtain ⟨data, kwargs⟩ := c
    obtain ⟨i1, i2⟩ := ih (call b m data kwargs).2
    have hst := call_after b m data kwargs
    refine ⟨i1.trans (by rcases hst with h | h <;> rw [h]; rfl), ?_⟩
    rcases i2 with h | ⟨c, hc, h⟩
    · rcases hst with h' | h'
      · exact Or.inl (h.trans (by rw [h']))
      · exact Or.inr ⟨(data, kwargs), by simp, h.trans (by rw [h']; rfl)⟩
    · exact Or.inr ⟨c, by simp [hc], h⟩

/-- A call depends on the cached interpolant only through `p_q`. -/
theorem call_masses (b : Backend) {m m' : SharedSmoothed} (hi : m'.inst = m.inst) (data : Shaped (Fl × Fl))
    (kwargs : Dict Fl)
    (hq : ∀ beta lo d, (pQ b m' data beta lo d).1 = (pQ b m data beta lo d).1) :
    (call b m' data kwargs).1 = (call b m data kwargs).1 := by
  have hp : ∀ x k, pM1 b m' x k = pM1 b m x k := by intro x k; unfold pM1; rw [hi]
  unfold call
  cases Dict.get? kwargs "beta" with
  | none => rfl
  | some beta =>
    simp only [hi, hp]
    split_ifs
    · rfl
    · rfl
    · rfl
    · cases pM1 b m (data.map Prod.fst) (Dict.erase kwargs "beta" ++ m.inst.fixed) with
      | error e => rfl
      | ok pm =>
        simp only
        have := hq beta (Smoothed.kwGet (Dict.erase kwargs "beta") "mmin" (fin m.inst.mmin))
          (Smoothed.kwGet (Dict.erase kwargs "beta") "delta_m" 0)
        rcases h1 : pQ b m' data beta
          (Smoothed.kwGet (Dict.erase kwargs "beta") "mmin" (fin m.inst.mmin))
          (Smoothed.kwGet (Dict.erase kwargs "beta") "delta_m" 0) with ⟨r1, t'⟩
        rcases h2 : pQ b m data beta
          (Smoothed.kwGet (Dict.erase kwargs "beta") "mmin" (fin m.inst.mmin))
          (Smoothed.kwGet (Dict.erase kwargs "beta") "delta_m" 0) with ⟨r2, s'⟩
        rw [h1, h2] at this
        simp only at this
        subst this
        cases r1 <;> rfl

/-- The general form: a call after a history of calls with any datasets returns what it returns on a new instance if
no dataset of the history has different masses of a shape by which this dataset's values can be divided. -/
theorem call_history (b : Backend) (s : Smoothed) (hist : List (Shaped (Fl × Fl) × Dict Fl))
    (data : Shaped (Fl × Fl)) (kwargs : Dict Fl)
    (h : s.cache = false ∨ ∀ c ∈ hist, c.1.map Prod.fst = data.map Prod.fst ∨ ¬ Divides b data.shape c.1.shape) :
    (call b (runCalls b (new s) hist) data kwargs).1 = (call b (new s) data kwargs).1 := by
  obtain ⟨hi, hm⟩ := runCalls_after b (new s) hist
  apply call_masses b hi
  intro beta lo d
  rw [(pQ_right b (new s) data beta lo d fun l hl => absurd hl.2.1 (by simp [new])).1,
    (pQ_right b _ data beta lo d ?_).1, hi]
  rintro l ⟨hc, hl, hd⟩
  rw [hi] at hc
  rcases h with h | h
  · rw [show (new s).inst = s from rfl, h] at hc; cases hc
  · rcases hm with hm | ⟨c, hcm, hm⟩
    · rw [hm] at hl; cases hl
    · rw [hm] at hl
      cases hl
      rcases h c hcm with h | h
      · exact h
      · exact absurd hd h

/-! ### One dataset: the array is evaluated sample by sample -/

theorem pM1_elements (b : Backend) (s : Smoothed) (masses : Shaped Fl) (kwargs : Dict Fl) :
    (pM1 b (new s) masses kwargs).map (fun r => (r.shape, r.elements)) =
      (Smoothed.pM1 b s masses.elements kwargs).map fun l => (masses.shape, l) := by
  have h := mapM_elements (Smoothed.pMRaw b s (Dict.erase kwargs "delta_m")
    (Smoothed.kwGet kwargs "mmin" (fin s.mmin)) (Smoothed.kwGet kwargs "delta_m" 0)) masses
  unfold pM1 Smoothed.pM1
  simp only [new]
  cases h1 : masses.mapM (Smoothed.pMRaw b s (Dict.erase kwargs "delta_m")
      (Smoothed.kwGet kwargs "mmin" (fin s.mmin)) (Smoothed.kwGet kwargs "delta_m" 0)) with
  | error e =>
    cases h2 : masses.elements.mapM (Smoothed.pMRaw b s (Dict.erase kwargs "delta_m")
      (Smoothed.kwGet kwargs "mmin" (fin s.mmin)) (Smoothed.kwGet kwargs "delta_m" 0)) with
    | error e' => rw [h1, h2] at h; cases h; rfl
    | ok l => rw [h1, h2] at h; cases h
  | ok r =>
    cases h2 : masses.elements.mapM (Smoothed.pMRaw b s (Dict.erase kwargs "delta_m")
      (Smoothed.kwGet kwargs "mmin" (fin s.mmin)) (Smoothed.kwGet kwargs "delta_m" 0)) with
    | error e' => rw [h1, h2] at h; cases h
    | ok l =>
      rw [h1, h2] at h
      have h := Except.ok.inj h
      simp only [Prod.mk.injEq] at h
      rw [ok_bind, ok_bind]
      cases Smoothed.normPM1 b s (Smoothed.kwGet kwargs "delta_m" 0) (Dict.erase kwargs "delta_m") with
      | error e => rfl
      | ok n =>
        show Except.ok (r.shape, (r.map (· / n)).elements) = Except.ok (masses.shape, l.map (· / n))
        rw [map_elements, h.2, h.1]

theorem freshQ_elements (b : Backend) (s : Smoothed) (beta lo deltaM : Fl) (data : Shaped (Fl × Fl)) :
    (freshQ b s beta lo deltaM data).elements = data.elements.map fun d =>
      nanToNum (pQVal b beta lo deltaM d.1 d.2 / normAt b s beta lo deltaM d.1) := by
  simp only [Shaped.elements, freshQ, List.map_map]
  apply List.map_congr_left
  intro i hi
  simp only [quotient, Function.comp, Shaped.map, proj_indices hi]

/-- **C104, one dataset**: on a new instance an array of any shape is evaluated sample by sample: the result has the
shape of the dataset, its elements are those computed for the list of samples, and an exception is the same. -/
theorem C104_fresh (b : Backend) {primary : Primary} {fixed : Dict Fl} {selfMin selfMax : ℝ} {nM nQ : ℕ}
    {cache : Bool} {s : Smoothed} (hs : Smoothed.init primary fixed selfMin selfMax nM nQ cache = .ok s)
    (data : Shaped (Fl × Fl)) (kwargs : Dict Fl) :
    (call b (new s) data kwargs).1.map (fun r => (r.shape, r.elements)) =
      (Smoothed.call b s data.elements kwargs).1.map fun l => (data.shape, l) := by
  obtain ⟨-, -, hs⟩ := init_inv hs
  unfold call Smoothed.call
  cases Dict.get? kwargs "beta" with
  | none => rfl
  | some beta =>
    simp only [show (new s).inst = s from rfl]
    split_ifs
    · rfl
    · rfl
    · rfl
    · have h := pM1_elements b s (data.map Prod.fst) (Dict.erase kwargs "beta" ++ s.fixed)
      rw [map_elements] at h
      cases h1 : pM1 b (new s) (data.map Prod.fst) (Dict.erase kwargs "beta" ++ s.fixed) with
      | error e =>
        cases h2 : Smoothed.pM1 b s (data.elements.map Prod.fst) (Dict.erase kwargs "beta" ++ s.fixed) with
        | error e' => rw [h1, h2] at h; cases h; rfl
        | ok l => rw [h1, h2] at h; cases h
      | ok pm =>
        cases h2 : Smoothed.pM1 b s (data.elements.map Prod.fst) (Dict.erase kwargs "beta" ++ s.fixed) with
        | error e' => rw [h1, h2] at h; cases h
        | ok l =>
          rw [h1, h2] at h
          have h := Except.ok.inj h
          simp only [Prod.mk.injEq] at h
          simp only
          have q1 := pQ_right b (new s) data beta (Smoothed.kwGet (Dict.erase kwargs "beta") "mmin" (fin s.mmin))
            (Smoothed.kwGet (Dict.erase kwargs "beta") "delta_m" 0) fun l hl => absurd hl.2.1 (by simp [new])
          have q2 := pQ_fresh b s data.elements beta (Smoothed.kwGet (Dict.erase kwargs "beta") "mmin" (fin s.mmin))
            (Smoothed.kwGet (Dict.erase kwargs "beta") "delta_m" 0) (Or.inr (Or.inl (by rw [hs])))
          rcases hq1 : pQ b (new s) data beta (Smoothed.kwGet (Dict.erase kwargs "beta") "mmin" (fin s.mmin))
            (Smoothed.kwGet (Dict.erase kwargs "beta") "delta_m" 0) with ⟨r1, t1⟩
          rcases hq2 : Smoothed.pQ b s data.elements beta
            (Smoothed.kwGet (Dict.erase kwargs "beta") "mmin" (fin s.mmin))
            (Smoothed.kwGet (Dict.erase kwargs "beta") "delta_m" 0) with ⟨r2, t2⟩
          rw [hq1] at q1
          rw [hq2] at q2
          simp only at q1 q2
          rw [q1.1, q2]
          simp only
          set Q := freshQ b s beta (Smoothed.kwGet (Dict.erase kwargs "beta") "mmin" (fin s.mmin))
            (Smoothed.kwGet (Dict.erase kwargs "beta") "delta_m" 0) data with hQ
          have hQe := freshQ_elements b s beta (Smoothed.kwGet (Dict.erase kwargs "beta") "mmin" (fin s.mmin))
            (Smoothed.kwGet (Dict.erase kwargs "beta") "delta_m" 0) data
          rw [← hQ] at hQe
          unfold normAt at hQe
          rw [← hQe]
          have hsh : pm.shape = data.shape := h.1
          have hz : Shaped.zip b (· * ·) pm Q = .ok ⟨data.shape, fun i => pm.elem (NArr.proj data.shape i) *
              Q.elem (NArr.proj data.shape i)⟩ := by
            unfold Shaped.zip
            rw [show Q.shape = data.shape from rfl, hsh, bshape_self]
          have hlen : l.length = Q.elements.length := by
            rw [← h.2, elements_length, elements_length, hsh]; rfl
          show Except.map _ (Shaped.zip b (· * ·) pm Q) = Except.map _ (Smoothed.broadcast b (· * ·) l Q.elements)
          rw [hz, broadcast_same b _ hlen]
          have hel : (⟨data.shape, fun i => pm.elem (NArr.proj data.shape i) *
              Q.elem (NArr.proj data.shape i)⟩ : Shaped Fl).elements = List.zipWith (· * ·) l Q.elements := by
            rw [← h.2]
            simp only [Shaped.elements, hsh, show Q.shape = data.shape from rfl]
            rw [List.zipWith_map, List.zipWith_self]
            apply List.map_congr_left
            intro i hi
            simp only [proj_indices hi]
          show Except.ok (data.shape, _) = Except.ok (data.shape, _)
          rw [hel]

/-- Two events with three samples each are evaluated like the list of six samples. -/
example (x : ℕ → ℕ → Fl × Fl) (kwargs : Dict Fl) : ∃ s, singlePeak false 2 100 1000 500 true = .ok s ∧
    (call .numpy (new s) ⟨[3, 2], fun i => x (i.getD 1 0) (i.getD 0 0)⟩ kwargs).1.map
      (fun r => (r.shape, r.elements)) =
    (Smoothed.call .numpy s [x 0 0, x 0 1, x 0 2, x 1 0, x 1 1, x 1 2] kwargs).1.map fun l => ([3, 2], l) :=
  ⟨_, init_ok _ _ _ _ _ (by norm_num) (by norm_num),
    C104_fresh .numpy (init_ok _ _ _ _ _ (by norm_num) (by norm_num)) ⟨[3, 2], _⟩ kwargs⟩

/-! ### Two datasets -/

/-- The dataset of a call: the posterior samples or the injections. -/
def pick (events inj : Shaped (Fl × Fl)) (c : Bool × Dict Fl) : Shaped (Fl × Fl) × Dict Fl :=
  (if c.1 then events else inj, c.2)

/-- **C104, full statement**: one instance may evaluate posterior samples (`E` events with `S` samples each) and `I`
injections in any order with any hyper-parameters; every call returns what a new instance returns. -/
def C104_statement : Prop :=
  ∀ (b : Backend) (py : Bool) (selfMin selfMax : ℝ) (nM nQ : ℕ) (cache : Bool) (s : Smoothed),
    singlePeak py selfMin selfMax nM nQ cache = .ok s →
    ∀ (E S I : ℕ) (events inj : Shaped (Fl × Fl)), events.shape = [S, E] → inj.shape = [I] →
    ∀ (calls : List (Bool × Dict Fl)) (c : Bool × Dict Fl),
      (call b (runCalls b (new s) (calls.map (pick events inj))) (pick events inj c).1 c.2).1 =
        (call b (new s) (pick events inj c).1 c.2).1

/-- **C104, proved part.** For every class, backend and order of the calls, with any hyper-parameters (also ones that
raise): every call returns what a new instance returns if the instance does not cache or if the number of injections is
neither one nor the number of samples per event (and, on jax, there is not just one sample per event). Missing: the
other sizes, where it is false, see `C104_stale_partial` and `C104_fails`. -/
theorem C104_shared_partial (b : Backend) {primary : Primary} {fixed : Dict Fl} {selfMin selfMax : ℝ} {nM nQ : ℕ}
    {cache : Bool} {s : Smoothed} (hs : Smoothed.init primary fixed selfMin selfMax nM nQ cache = .ok s)
    {E S I : ℕ} {events inj : Shaped (Fl × Fl)} (hE : events.shape = [S, E]) (hI : inj.shape = [I])
    (h : cache = false ∨ (I ≠ S ∧ I ≠ 1 ∧ (b = .jax → S ≠ 1)))
    (calls : List (Bool × Dict Fl)) (c : Bool × Dict Fl) :
    (call b (runCalls b (new s) (calls.map (pick events inj))) (pick events inj c).1 c.2).1 =
      (call b (new s) (pick events inj c).1 c.2).1 := by
  obtain ⟨-, -, hs⟩ := init_inv hs
  apply call_history
  rcases h with h | ⟨h1, h2, h3⟩
  · left; rw [hs, h]
  · right
    intro d hd
    obtain ⟨k, -, rfl⟩ := List.mem_map.1 hd
    have hEI : ¬ Divides b [S, E] [I] := by
      rintro ⟨r, hr, hb⟩
      simp only [NArr.bshape] at hr
      rw [if_neg (by tauto)] at hr
      by_cases hS : S = 1
      · rw [if_pos hS] at hr
        have hr := Option.some.inj hr
        have hb := hb fun hj => h3 hj hS
        rw [← hr] at hb
        exact h1 (List.cons.inj hb).1
      · rw [if_neg hS] at hr; cases hr
    have hIE : ¬ Divides b [I] [S, E] := by
      rintro ⟨r, hr, hb⟩
      simp only [NArr.bshape] at hr
      by_cases hj : b = .jax
      · rw [if_neg (by have := h3 hj; tauto), if_neg h2] at hr; cases hr
      · have hb := hb hj
        subst hb
        split_ifs at hr
        all_goals simp at hr
    rcases k with ⟨_ | _, k⟩ <;> rcases c with ⟨_ | _, c⟩
    · exact Or.inl rfl
    · right; show ¬ Divides b events.shape inj.shape; rw [hE, hI]; exact hEI
    · right; show ¬ Divides b inj.shape events.shape; rw [hE, hI]; exact hIE
    · exact Or.inl rfl

/-- The usual sizes: 3 events with 5000 samples, 40000 injections. -/
example : ∃ s, singlePeak false 2 100 1000 500 true = .ok s ∧ ∀ events inj : Shaped (Fl × Fl),
    events.shape = [5000, 3] → inj.shape = [40000] → ∀ kw : Dict Fl,
      (call .numpy (runCalls .numpy (new s) (([(true, kw), (false, kw)] : List (Bool × Dict Fl)).map
        (pick events inj))) events kw).1 = (call .numpy (new s) events kw).1 :=
  ⟨_, init_ok _ _ _ _ _ (by norm_num) (by norm_num), fun events inj hE hI kw =>
    C104_shared_partial .numpy (init_ok _ _ _ _ _ (by norm_num) (by norm_num)) hE hI
      (Or.inr ⟨by norm_num, by norm_num, by simp⟩) _ (true, kw)⟩

/-- A call that returns with its own masses or none in the cache leaves its own masses there. -/
theorem call_leaves (b : Backend) (m : SharedSmoothed) (data : Shaped (Fl × Fl)) (kwargs : Dict Fl)
    (h : ∀ l, Mistaken b m data l → l = data.map Prod.fst) {out : Shaped Fl}
    (hok : (call b m data kwargs).1 = .ok out) : (call b m data kwargs).2 = cacheQNorms m (data.map Prod.fst) := by
  revert hok
  unfold call
  cases Dict.get? kwargs "beta" with
  | none => intro h; cases h
  | some beta =>
    simp only
    split_ifs
    · intro h; cases h
    · intro h; cases h
    · intro h; cases h
    · cases pM1 b m (data.map Prod.fst) (Dict.erase kwargs "beta" ++ m.inst.fixed) with
      | error e => intro h; cases h
      | ok pm =>
        simp only
        have q := pQ_right b m data beta (Smoothed.kwGet (Dict.erase kwargs "beta") "mmin" (fin m.inst.mmin))
          (Smoothed.kwGet (Dict.erase kwargs "beta") "delta_m" 0) h
        rcases hq : pQ b m data beta (Smoothed.kwGet (Dict.erase kwargs "beta") "mmin" (fin m.inst.mmin))
          (Smoothed.kwGet (Dict.erase kwargs "beta") "delta_m" 0) with ⟨r, t⟩
        rw [hq] at q
        simp only at q
        rw [q.1]
        intro _
        exact q.2

/-- **C104, what happens with as many injections as samples per event** (numpy, cupy; the default `cache = True`):
after a call that evaluated the injections, the mass-ratio density of every posterior sample is divided by the norm
of the injection with the same number instead of the norm of its own mass. -/
theorem C104_stale_partial {b : Backend} (hb : b ≠ .jax) {primary : Primary} {fixed : Dict Fl}
    {selfMin selfMax : ℝ} {nM nQ : ℕ} {s : Smoothed}
    (hs : Smoothed.init primary fixed selfMin selfMax nM nQ true = .ok s)
    {E N : ℕ} {events inj : Shaped (Fl × Fl)} (hE : events.shape = [N, E]) (hI : inj.shape = [N])
    (calls : List (Bool × Dict Fl)) (kwargs : Dict Fl) {out : Shaped Fl}
    (hok : (call b (runCalls b (new s) (calls.map (pick events inj))) inj kwargs).1 = .ok out)
    (beta lo deltaM : Fl) : ∃ r,
    (pQ b (call b (runCalls b (new s) (calls.map (pick events inj))) inj kwargs).2 events beta lo deltaM).1 = .ok r ∧
    (pQ b (new s) events beta lo deltaM).1.map (fun r => r.shape) = .ok r.shape ∧ r.shape = [N, E] ∧
    ∀ j < N, ∀ e < E, r.elem [j, e] = nanToNum (pQVal b beta lo deltaM (events.elem [j, e]).1 (events.elem [j, e]).2 /
      interpLinear s.m1s (s.m1s.map (qNormAt b s beta lo deltaM)) (inj.elem [j]).1) := by
  obtain ⟨-, -, hs⟩ := init_inv hs
  obtain ⟨hi, hm⟩ := runCalls_after b (new s) (calls.map (pick events inj))
  set m := runCalls b (new s) (calls.map (pick events inj)) with hmdef
  have hst := call_leaves b m inj kwargs (by
    rintro l ⟨-, hl, hd⟩
    rcases hm with h | ⟨c, hc, h⟩
    · rw [h] at hl; cases hl
    · rw [h] at hl
      cases hl
      obtain ⟨⟨w, k⟩, -, rfl⟩ := List.mem_map.1 hc
      cases w
      · rfl
      · exfalso
        obtain ⟨r, hr, hb'⟩ := hd
        rw [show (Shaped.map Prod.fst (pick events inj (true, k)).1).shape = [N, E] from hE, hI] at hr
        rw [hI] at hb'
        rw [hb' hb] at hr
        simp [NArr.bshape] at hr) hok
  rw [hst]
  have hd : Divides b events.shape (inj.map Prod.fst).shape := by
    rw [hE, show (inj.map Prod.fst).shape = [N] from hI]
    exact ⟨[N, E], by simp [NArr.bshape], fun _ => rfl⟩
  obtain ⟨r, hr, hrb, hp⟩ := pQ_mistaken b (cacheQNorms m (inj.map Prod.fst)) events beta lo deltaM
    (inj.map Prod.fst) ⟨by show m.inst.cache = true; rw [hi, show (new s).inst = s from rfl, hs], rfl, hd⟩
  have hrE : r = [N, E] := (hrb hb).trans hE
  refine ⟨⟨r, quotient b m.inst beta lo deltaM events (inj.map Prod.fst)⟩, by rw [hp]; rfl, ?_, hrE, ?_⟩
  · rw [(pQ_right b (new s) events beta lo deltaM fun l hl => absurd hl.2.1 (by simp [new])).1]
    show Except.ok events.shape = _
    rw [hE, hrE]
  · intro j hj e he
    have p1 : NArr.proj [N, E] [j, e] = [j, e] := by
      simp only [NArr.proj]
      congr 1
      · split_ifs <;> omega
      · congr 1; split_ifs <;> omega
    have p2 : NArr.proj [N] [j, e] = [j] := by
      simp only [NArr.proj]
      congr 1
      split_ifs <;> omega
    simp only [quotient, hE, show (inj.map Prod.fst).shape = [N] from hI, p1, p2, normAt, hi]
    rfl

/-- **C104 on jax, as many injections as samples per event**: after a call that evaluated the posterior samples, the
mass-ratio density of the injections is not even an array with one value per injection: it has the shape of the
posterior samples. -/
theorem C104_jax_partial {primary : Primary} {fixed : Dict Fl} {selfMin selfMax : ℝ} {nM nQ : ℕ} {s : Smoothed}
    (hs : Smoothed.init primary fixed selfMin selfMax nM nQ true = .ok s)
    {E N : ℕ} {events inj : Shaped (Fl × Fl)} (hE : events.shape = [N, E]) (hI : inj.shape = [N])
    (kwargs : Dict Fl) {out : Shaped Fl} (hok : (call .jax (new s) events kwargs).1 = .ok out)
    (beta lo deltaM : Fl) :
    (pQ .jax (call .jax (new s) events kwargs).2 inj beta lo deltaM).1.map (fun r => r.shape) = .ok [N, E] ∧
    (pQ .jax (new s) inj beta lo deltaM).1.map (fun r => r.shape) = .ok [N] := by
  obtain ⟨-, -, hs⟩ := init_inv hs
  have none_mistaken : ∀ d l, Mistaken .jax (new s) d l → l = d.map Prod.fst :=
    fun d l hl => absurd hl.2.1 (by simp [new])
  constructor
  · rw [call_leaves .jax (new s) events kwargs (none_mistaken _) hok]
    have hsh : NArr.bshape inj.shape (events.map Prod.fst).shape = some [N, E] := by
      rw [hI, show (events.map Prod.fst).shape = [N, E] from hE]; simp [NArr.bshape]
    obtain ⟨r, hr, -, hp⟩ := pQ_mistaken .jax (cacheQNorms (new s) (events.map Prod.fst)) inj beta lo deltaM
      (events.map Prod.fst) ⟨by show s.cache = true; rw [hs], rfl, [N, E], hsh, fun h => absurd rfl h⟩
    rw [hsh] at hr
    rw [hp, ← Option.some.inj hr]
    rfl
  · rw [(pQ_right .jax (new s) inj beta lo deltaM (none_mistaken _)).1]
    show Except.ok inj.shape = _
    rw [hI]

/-- A call on arrays all of whose points are the same, `(μ, 1)`. -/
def constant (shape : List ℕ) (μ : ℝ) : Shaped (Fl × Fl) := ⟨shape, fun _ => (fin μ, fin 1)⟩

theorem constant_pM1 (b : Backend) (shape : List ℕ) {μ a : ℝ} {kwargs : Dict Fl} (m : SharedSmoothed)
    (h : Smoothed.pM1 b m.inst [fin μ] kwargs = .ok [fin a]) :
    pM1 b m ((constant shape μ).map Prod.fst) kwargs = .ok ⟨shape, fun _ => fin a⟩ := by
  unfold Smoothed.pM1 at h
  obtain ⟨ys, hys, h⟩ := bind_eq_ok.1 h
  obtain ⟨n, hn, h⟩ := bind_eq_ok.1 h
  rw [List.mapM_cons, List.mapM_nil] at hys
  obtain ⟨y, hy, hys⟩ := bind_eq_ok.1 hys
  have hys := Except.ok.inj hys
  have h := Except.ok.inj h
  rw [← hys, List.map_cons, List.map_nil] at h
  have h := (List.cons.inj h).1
  have hmap := mapM_total (Smoothed.pMRaw b m.inst (Dict.erase kwargs "delta_m")
    (Smoothed.kwGet kwargs "mmin" (fin m.inst.mmin)) (Smoothed.kwGet kwargs "delta_m" 0))
    ((constant shape μ).map Prod.fst) (fun _ => y) fun i => hy
  unfold pM1
  simp only
  rw [hmap, ok_bind, hn, ok_bind]
  show Except.ok _ = _
  simp only [Shaped.map, h, constant]

theorem stale_shaped_call (b : Backend) {m m' : SharedSmoothed} (hm : m.inst = staleInst) (shape : List ℕ) {μ : ℝ}
    (h2 : 2 < μ) (h3 : μ ≤ 3) {Q : Shaped Fl}
    (hpq : pQ b m (constant shape μ) (fin 0) (fin 2) (fin 1) = (.ok Q, m')) {a : ℝ}
    (hpm : Smoothed.pM1 b staleInst [fin μ]
      (Dict.erase staleKw "beta" ++ [("gaussian_mass_maximum", fin 3)]) = .ok [fin a]) :
    call b m (constant shape μ) staleKw = (Shaped.zip b (· * ·) ⟨shape, fun _ => fin a⟩ Q, m') := by
  have k0 : Dict.get? staleKw "beta" = some (fin 0) := by simp [staleKw, Dict.get?_cons]
  have k1 : ∀ y, Smoothed.kwGet (Dict.erase staleKw "beta") "mmin" y = fin 2 := by
    simp [Smoothed.kwGet, staleKw, Dict.erase, Dict.get?_cons]
  have k2 : ∀ y, Smoothed.kwGet (Dict.erase staleKw "beta") "mmax" y = fin 3 := by
    simp [Smoothed.kwGet, staleKw, Dict.erase, Dict.get?_cons]
  have k3 : ∀ y, Smoothed.kwGet (Dict.erase staleKw "beta") "delta_m" y = fin 1 := by
    simp [Smoothed.kwGet, staleKw, Dict.erase, Dict.get?_cons]
  unfold call
  rw [k0]
  simp only [k1, k2, k3, hm]
  rw [if_neg (by simp [staleInst]), if_neg (by simp [staleInst]),
    if_neg (by simp [staleInst, Dict.keys, staleKw, Dict.erase])]
  rw [show staleInst.fixed = [("gaussian_mass_maximum", fin 3)] from rfl,
    constant_pM1 b shape m (by rw [hm]; exact hpm)]
  simp only
  rw [hpq]

/-- **C104 fails for every number of events and samples**: there are posterior samples and as many injections as
samples per event such that, on numpy, evaluating the injections changes what the next evaluation of the posterior
samples returns. -/
theorem C104_wrong {E N : ℕ} (hE : 0 < E) (hN : 0 < N) : ∃ (s : Smoothed) (events inj : Shaped (Fl × Fl))
    (kwargs : Dict Fl) (r r' : Shaped Fl), singlePeak false 1 3 2 2 true = .ok s ∧ events.shape = [N, E] ∧
    inj.shape = [N] ∧
    (call .numpy (new s) events kwargs).1 = .ok r ∧
    (call .numpy (new s) inj kwargs).1.map (fun a => a.shape) = .ok [N] ∧
    (call .numpy (call .numpy (new s) inj kwargs).2 events kwargs).1 = .ok r' ∧
    r.shape = r'.shape ∧ [0, 0] ∈ NArr.indices r.shape ∧ r.elem [0, 0] ≠ r'.elem [0, 0] := by
  obtain ⟨a, ha, hpm⟩ := stale_pM1 .numpy (μ := 2.5) (by norm_num) (by norm_num)
  obtain ⟨a', -, hpm'⟩ := stale_pM1 .numpy (μ := 3) (by norm_num) (by norm_num)
  obtain ⟨c, hc, hN'⟩ := stale_norm .numpy
  obtain ⟨A, hA, hv⟩ := stale_pQVal .numpy
  have hs : singlePeak false 1 3 2 2 true = .ok staleInst := init_ok _ _ _ _ _ le_rfl le_rfl
  have none_mistaken : ∀ d l, Mistaken .numpy (new staleInst) d l → l = d.map Prod.fst :=
    fun d l hl => absurd hl.2.1 (by simp [new])
  -- the new instance
  have q1 := pQ_right .numpy (new staleInst) (constant [N, E] 2.5) (fin 0) (fin 2) (fin 1) (none_mistaken _)
  have c1 := stale_shaped_call .numpy (m := new staleInst) rfl [N, E] (μ := 2.5) (by norm_num) (by norm_num)
    (Prod.ext q1.1 q1.2) (hpm _ (SameConfig.refl _))
  -- the injections
  have q2 := pQ_right .numpy (new staleInst) (constant [N] 3) (fin 0) (fin 2) (fin 1) (none_mistaken _)
  have c2 := stale_shaped_call .numpy (m := new staleInst) rfl [N] (μ := 3) (by norm_num) (by norm_num)
    (Prod.ext q2.1 q2.2) (hpm' _ (SameConfig.refl _))
  -- the posterior samples afterwards
  obtain ⟨r, hr, hrb, q3⟩ := pQ_mistaken .numpy (cacheQNorms (new staleInst) ((constant [N] 3).map Prod.fst))
    (constant [N, E] 2.5) (fin 0) (fin 2) (fin 1) ((constant [N] 3).map Prod.fst)
    ⟨rfl, rfl, [N, E], by simp [NArr.bshape, constant, Shaped.map], fun _ => rfl⟩
  have hr' : r = [N, E] := hrb (by decide)
  subst hr'
  have c3 := stale_shaped_call .numpy (m := cacheQNorms (new staleInst) ((constant [N] 3).map Prod.fst)) rfl [N, E]
    (μ := 2.5) (by norm_num) (by norm_num) q3 (hpm _ (SameConfig.refl _))
  have hzip : ∀ f : List ℕ → Fl, Shaped.zip .numpy (· * ·) ⟨[N, E], fun _ => fin a⟩ ⟨[N, E], f⟩ =
      .ok ⟨[N, E], fun i => fin a * f (NArr.proj [N, E] i)⟩ := by
    intro f
    unfold Shaped.zip
    simp only
    rw [bshape_self]
  have hp : NArr.proj [N, E] [0, 0] = [0, 0] := by simp [NArr.proj]
  refine ⟨staleInst, constant [N, E] 2.5, constant [N] 3, staleKw,
    ⟨[N, E], fun i => fin a * quotient .numpy staleInst (fin 0) (fin 2) (fin 1) (constant [N, E] 2.5)
      ((constant [N, E] 2.5).map Prod.fst) (NArr.proj [N, E] i)⟩,
    ⟨[N, E], fun i => fin a * quotient .numpy staleInst (fin 0) (fin 2) (fin 1) (constant [N, E] 2.5)
      ((constant [N] 3).map Prod.fst) (NArr.proj [N, E] i)⟩, hs, rfl, rfl, ?_, ?_, ?_, rfl, ?_, ?_⟩
  · rw [c1]; exact hzip _
  · rw [c2]
    unfold Shaped.zip
    simp only
    rw [show (freshQ .numpy (new staleInst).inst (fin 0) (fin 2) (fin 1) (constant [N] 3)).shape = [N] from rfl,
      bshape_self]
    rfl
  · rw [c2]
    show (call .numpy (cacheQNorms (new staleInst) ((constant [N] 3).map Prod.fst)) (constant [N, E] 2.5)
      staleKw).1 = _
    rw [c3]; exact hzip _
  · simp only [NArr.indices, List.mem_flatMap, List.mem_map, List.mem_range]
    exact ⟨[0], ⟨[], by simp, 0, hE, rfl⟩, 0, hN, rfl⟩
  · have v1 := hN' staleInst (SameConfig.refl _) 2.5 (by norm_num) (by norm_num)
    have v2 := hN' staleInst (SameConfig.refl _) 3 (by norm_num) le_rfl
    simp only [quotient, normAt, constant, Shaped.map, hv, v1, v2]
    rw [fin_div (by norm_num; exact hc.ne'), fin_div (by norm_num; exact hc.ne'), nanToNum_fin, nanToNum_fin,
      fin_mul, fin_mul]
    intro h
    have h := mul_left_cancel₀ ha (fin_inj.1 h)
    have hc' := hc.ne'
    field_simp at h
    norm_num at h

/-- **C104 fails.** -/
theorem C104_fails : ¬ C104_statement := by
  intro h
  obtain ⟨s, events, inj, kw, r, r', hs, hE, hI, c1, -, c2, -, -, hne⟩ := C104_wrong (E := 1) (N := 1) one_pos one_pos
  have h := h .numpy false 1 3 2 2 true s hs 1 1 1 events inj hE hI [(false, kw)] (true, kw)
  have h' : (call .numpy (call .numpy (new s) inj kw).2 events kw).1 = (call .numpy (new s) events kw).1 := h
  rw [c1, c2] at h'
  exact hne (congrArg (fun a => a.elem [0, 0]) (Except.ok.inj h')).symm

/-- `C104_stale_partial` applies to the history of `C104_wrong`. -/
example {E N : ℕ} (hE : 0 < E) (hN : 0 < N) (beta lo deltaM : Fl) :
    ∃ (s : Smoothed) (events inj : Shaped (Fl × Fl)) (kw : Dict Fl) (r : Shaped Fl),
      (pQ .numpy (call .numpy (new s) inj kw).2 events beta lo deltaM).1 = .ok r ∧ r.shape = [N, E] := by
  obtain ⟨s, events, inj, kw, r, -, hs, h1, h2, -, h3, -⟩ := C104_wrong hE hN
  cases hout : (call .numpy (new s) inj kw).1 with
  | error e => rw [hout] at h3; cases h3
  | ok out =>
    obtain ⟨r, hr, -, hsh, -⟩ := C104_stale_partial (b := .numpy) (by decide) hs h1 h2 [] kw hout beta lo deltaM
    exact ⟨s, events, inj, kw, r, hr, hsh⟩

end SharedSmoothed

end GW
