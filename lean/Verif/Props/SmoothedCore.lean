import Verif.Props.Smoothing
import Verif.Props.Conversions
import Verif.Lemmas.Trapz

/-!
# Lemmas about the smoothed mass distributions
-/

noncomputable section

open Classical

namespace GW

open Fl

/-! ### Dictionaries and lists -/

theorem Dict.get?_erase {α : Type*} (d : Dict α) (k k' : String) :
    Dict.get? (Dict.erase d k) k' = if k' = k then none else Dict.get? d k' := by
  induction d with
  | nil => simp [Dict.erase]
  | cons p d ih =>
    obtain ⟨a, v⟩ := p
    unfold Dict.erase at ih ⊢
    by_cases h : a = k
    · subst h
      rw [List.filter_cons_of_neg (by simp), ih, Dict.get?_cons]
      by_cases h' : k' = a <;> simp [h']
    · rw [List.filter_cons_of_pos (by simp [h]), Dict.get?_cons, Dict.get?_cons, ih]
      by_cases h' : k' = a
      · subst h'; simp [h]
      · simp [h']

theorem Dict.get?_append {α : Type*} (d e : Dict α) (k : String) :
    Dict.get? (d ++ e) k = (Dict.get? d k).or (Dict.get? e k) := by
  induction d with
  | nil => simp
  | cons p d ih =>
    obtain ⟨a, v⟩ := p
    rw [List.cons_append, Dict.get?_cons, Dict.get?_cons, ih]
    by_cases h : k = a <;> simp [h]

theorem Dict.keys_erase {α : Type*} (d : Dict α) (k : String) :
    Dict.keys (Dict.erase d k) = (Dict.keys d).filter (fun x => x ≠ k) := by
  unfold Dict.keys Dict.erase
  rw [List.filter_map]
  rfl

theorem Dict.keys_append {α : Type*} (d e : Dict α) :
    Dict.keys (d ++ e) = Dict.keys d ++ Dict.keys e := List.map_append

theorem mapM_ok {α β ε : Type} {f : α → Except ε β} {g : α → β} {l : List α}
    (h : ∀ x ∈ l, f x = .ok (g x)) : l.mapM f = .ok (l.map g) := by
  induction l with
  | nil => rfl
  | cons a l ih =>
    rw [List.mapM_cons, h a (by simp), ih fun x hx => h x (by simp [hx])]
    rfl

theorem mapM_congr {α β ε : Type} {f g : α → Except ε β} {l : List α}
    (h : ∀ x ∈ l, f x = g x) : l.mapM f = l.mapM g := by
  induction l with
  | nil => rfl
  | cons a l ih =>
    rw [List.mapM_cons, List.mapM_cons, h a (by simp), ih fun x hx => h x (by simp [hx])]

/-- Evaluating `P d * k d` elementwise is evaluating all `P d` and multiplying afterwards. -/
theorem mapM_mul {α ε : Type} (P : α → Except ε Fl) (k : α → Fl) (l : List α) :
    l.mapM (fun d => do let p ← P d; return p * k d) =
      (do let ps ← l.mapM P; return List.zipWith (· * ·) ps (l.map k)) := by
  induction l with
  | nil => rfl
  | cons a l ih =>
    rw [List.mapM_cons, List.mapM_cons, ih]
    cases P a with
    | error e => rfl
    | ok p =>
      cases l.mapM P with
      | error e => rfl
      | ok ps => rfl

theorem mapM_map {α β γ ε : Type} (f : β → Except ε γ) (g : α → β) (l : List α) :
    (l.map g).mapM f = l.mapM (fun a => f (g a)) := by
  induction l with
  | nil => rfl
  | cons a l ih => rw [List.map_cons, List.mapM_cons, List.mapM_cons, ih]

theorem mapM_length {α β ε : Type} {f : α → Except ε β} {l : List α} {r : List β}
    (h : l.mapM f = .ok r) : r.length = l.length := by
  induction l generalizing r with
  | nil => cases h; rfl
  | cons a l ih =>
    rw [List.mapM_cons] at h
    obtain ⟨x, -, h⟩ := bind_eq_ok.1 h
    obtain ⟨xs, hxs, h⟩ := bind_eq_ok.1 h
    cases h
    simp [ih hxs]

/-! ### Total functions -/

/-- The positional power law with array bounds never raises. -/
theorem massRatioFactor_total (b : Backend) (q beta mmin m : Fl) :
    ∃ y, massRatioFactor b q beta mmin m = .ok y := by
  unfold massRatioFactor
  rw [powerlaw_eq, if_neg (by simp)]
  exact ⟨_, rfl⟩

/-- The returned number, if any. -/
def okVal : Except PyErr Fl → Fl
  | .ok y => y
  | .error _ => nan

/-- The value of `pQRaw`. -/
def pQVal (b : Backend) (beta mmin deltaM m q : Fl) : Fl :=
  okVal (massRatioFactor b q beta mmin m) * smoothing b (m * q) mmin m deltaM

theorem pQRaw_eq (b : Backend) (beta mmin deltaM m q : Fl) :
    Smoothed.pQRaw b beta mmin deltaM m q = .ok (pQVal b beta mmin deltaM m q) := by
  obtain ⟨y, hy⟩ := massRatioFactor_total b q beta mmin m
  simp only [Smoothed.pQRaw, pQVal, hy]
  rfl

theorem nanToNum_finite (y : Fl) : ∃ r : ℝ, nanToNum y = fin r := by
  cases y with
  | fin a => exact ⟨a, rfl⟩
  | pinf => exact ⟨_, rfl⟩
  | ninf => exact ⟨_, rfl⟩
  | nan => exact ⟨_, rfl⟩

/-- The norm at one grid mass. -/
def qNormAt (b : Backend) (s : Smoothed) (beta mmin deltaM : Fl) (m : ℝ) : Fl :=
  nanToNum (Arr.trapz (s.qs.map fun q => pQVal b beta mmin deltaM (fin m) (fin q)) (s.qs.map fin)) *
    ind (¬ eqf deltaM 0) + 1 * ind (eqf deltaM 0)

theorem qNorms_eq (b : Backend) (s : Smoothed) (beta mmin deltaM : Fl) :
    Smoothed.qNorms b s beta mmin deltaM = .ok (s.m1s.map (qNormAt b s beta mmin deltaM)) := by
  unfold Smoothed.qNorms
  apply mapM_ok
  intro m _
  rw [mapM_ok (g := fun q => pQVal b beta mmin deltaM (fin m) (fin q)) fun q _ => pQRaw_eq ..]
  rfl

theorem normPQ_eq (b : Backend) (s : Smoothed) (beta mmin deltaM : Fl) :
    Smoothed.normPQ b s beta mmin deltaM =
      match s.qMasses with
      | none => .error .attributeError
      | some masses =>
        .ok (masses.map (interpLinear s.m1s (s.m1s.map (qNormAt b s beta mmin deltaM)))) := by
  unfold Smoothed.normPQ
  rw [qNorms_eq]
  rfl

theorem qNormAt_finite (b : Backend) (s : Smoothed) (beta mmin deltaM : Fl) (m : ℝ) :
    ∃ r : ℝ, qNormAt b s beta mmin deltaM m = fin r := by
  unfold qNormAt
  obtain ⟨r, hr⟩ := nanToNum_finite
    (Arr.trapz (s.qs.map fun q => pQVal b beta mmin deltaM (fin m) (fin q)) (s.qs.map fin))
  rw [hr, ind_eq, ind_eq]
  exact ⟨_, rfl⟩

/-! ### Dividing by the norm -/

theorem broadcast_same (b : Backend) (op : Fl → Fl → Fl) {xs ys : List Fl}
    (h : xs.length = ys.length) : Smoothed.broadcast b op xs ys = .ok (List.zipWith op xs ys) := by
  unfold Smoothed.broadcast; rw [if_pos h]

theorem inplaceDiv_same (b : Backend) {xs ys : List Fl} (h : xs.length = ys.length) :
    Smoothed.inplaceDiv b xs ys = .ok (List.zipWith (· / ·) xs ys) := by
  unfold Smoothed.inplaceDiv
  rw [broadcast_same b _ h]
  show (if b ≠ .jax ∧ _ then _ else _) = _
  rw [if_neg]
  rintro ⟨-, h'⟩
  exact h' (by simp [h])

/-- In-place division on numpy/cupy: which shapes are accepted. -/
theorem inplaceDiv_numpy (b : Backend) (hb : b ≠ .jax) (xs ys : List Fl) :
    Smoothed.inplaceDiv b xs ys =
      if xs.length = ys.length then .ok (List.zipWith (· / ·) xs ys)
      else if ys.length = 1 then .ok (xs.map (fun x => x / ys.headD nan))
      else .error .valueError := by
  by_cases h : xs.length = ys.length
  · rw [if_pos h, inplaceDiv_same b h]
  · rw [if_neg h]
    unfold Smoothed.inplaceDiv Smoothed.broadcast
    rw [if_neg h]
    rcases ys with _ | ⟨y, _ | ⟨y', ys⟩⟩
    · refine Eq.trans ?_ (if_neg (by simp)).symm
      rcases xs with _ | ⟨x, _ | ⟨x', xs⟩⟩
      · simp at h
      · exact if_pos ⟨hb, by simp⟩
      · simp only [if_neg hb]; rfl
    · refine Eq.trans ?_ (if_pos (by simp)).symm
      exact if_neg (by simp)
    · refine Eq.trans ?_ (if_neg (by simp)).symm
      rcases xs with _ | ⟨x, _ | ⟨x', xs⟩⟩
      · simp only [if_neg hb]; rfl
      · exact if_pos ⟨hb, by simp⟩
      · simp only [if_neg hb]; rfl

/-! ### What a call can change -/

/-- Two instances that differ at most in the cached interpolant. -/
structure SameConfig (s t : Smoothed) : Prop where
  primary : t.primary = s.primary
  fixed : t.fixed = s.fixed
  mmin : t.mmin = s.mmin
  mmax : t.mmax = s.mmax
  m1s : t.m1s = s.m1s
  qs : t.qs = s.qs
  cache : t.cache = s.cache

theorem SameConfig.refl (s : Smoothed) : SameConfig s s := ⟨rfl, rfl, rfl, rfl, rfl, rfl, rfl⟩

theorem SameConfig.trans {s t u : Smoothed} (h : SameConfig s t) (h' : SameConfig t u) :
    SameConfig s u :=
  ⟨h'.1.trans h.1, h'.2.trans h.2, h'.3.trans h.3, h'.4.trans h.4, h'.5.trans h.5,
    h'.6.trans h.6, h'.7.trans h.7⟩

theorem sameConfig_cache (s : Smoothed) (l : List Fl) :
    SameConfig s (Smoothed.cacheQNorms s l) := ⟨rfl, rfl, rfl, rfl, rfl, rfl, rfl⟩

theorem pQ_state (b : Backend) (s : Smoothed) (data : List (Fl × Fl)) (beta mmin deltaM : Fl) :
    (Smoothed.pQ b s data beta mmin deltaM).2 = s ∨
      (Smoothed.pQ b s data beta mmin deltaM).2 = Smoothed.cacheQNorms s (data.map Prod.fst) := by
  unfold Smoothed.pQ
  cases data.mapM (fun d => Smoothed.pQRaw b beta mmin deltaM d.1 d.2) with
  | error e => exact Or.inl rfl
  | ok pq =>
    simp only
    by_cases hc : s.cache = true
    · rw [if_pos hc]
      cases Smoothed.divideByNorm b s pq beta mmin deltaM with
      | ok r => exact Or.inl rfl
      | error e =>
        simp only
        by_cases he : Smoothed.caught e
        · rw [if_pos he]; exact Or.inr rfl
        · rw [if_neg he]; exact Or.inl rfl
    · rw [if_neg hc]
      cases Smoothed.divideByNorm b (Smoothed.cacheQNorms s (data.map Prod.fst)) pq beta mmin
          deltaM with
      | ok r => exact Or.inr rfl
      | error e =>
        simp only
        by_cases he : Smoothed.caught e
        · rw [if_pos he]; exact Or.inr rfl
        · rw [if_neg he]; exact Or.inr rfl

theorem call_state (b : Backend) (s : Smoothed) (data : List (Fl × Fl)) (kwargs : Dict Fl) :
    (Smoothed.call b s data kwargs).2 = s ∨
      (Smoothed.call b s data kwargs).2 = Smoothed.cacheQNorms s (data.map Prod.fst) := by
  unfold Smoothed.call
  cases Dict.get? kwargs "beta" with
  | none => exact Or.inl rfl
  | some beta =>
    simp only
    split_ifs
    · exact Or.inl rfl
    · exact Or.inl rfl
    · exact Or.inl rfl
    · cases Smoothed.pM1 b s (data.map Prod.fst) (Dict.erase kwargs "beta" ++ s.fixed) with
      | error e => exact Or.inl rfl
      | ok pm =>
        simp only
        have := pQ_state b s data beta
          (Smoothed.kwGet (Dict.erase kwargs "beta") "mmin" (fin s.mmin))
          (Smoothed.kwGet (Dict.erase kwargs "beta") "delta_m" 0)
        rcases hq : Smoothed.pQ b s data beta
          (Smoothed.kwGet (Dict.erase kwargs "beta") "mmin" (fin s.mmin))
          (Smoothed.kwGet (Dict.erase kwargs "beta") "delta_m" 0) with ⟨r, s'⟩
        rw [hq] at this
        cases r with
        | error e => exact this
        | ok pq => exact this

/-- A history of calls changes only the cached interpolant, which is then the initial one or
belongs to one of the datasets of the history. -/
theorem runCalls_state (b : Backend) (s : Smoothed) (hist : List (List (Fl × Fl) × Dict Fl)) :
    SameConfig s (Smoothed.runCalls b s hist) ∧
      ((Smoothed.runCalls b s hist).qMasses = s.qMasses ∨
        ∃ c ∈ hist, (Smoothed.runCalls b s hist).qMasses = some (c.1.map Prod.fst)) := by
  induction hist generalizing s with
  | nil => exact ⟨SameConfig.refl s, Or.inl rfl⟩
  | cons c hist ih =>
    obtain ⟨data, kwargs⟩ := c
    obtain ⟨i1, i2⟩ := ih (Smoothed.call b s data kwargs).2
    have hst := call_state b s data kwargs
    refine ⟨SameConfig.trans ?_ i1, ?_⟩
    · rcases hst with h | h <;> rw [h]
      · exact SameConfig.refl s
      · exact sameConfig_cache _ _
    · rcases i2 with h | ⟨c, hc, h⟩
      · rcases hst with h' | h'
        · exact Or.inl (h.trans (by rw [h']))
        · exact Or.inr ⟨(data, kwargs), by simp, h.trans (by rw [h']; rfl)⟩
      · exact Or.inr ⟨c, by simp [hc], h⟩

end GW
