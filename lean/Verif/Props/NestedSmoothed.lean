import Verif.Props.Nested
import Verif.Props.SmoothedHistory

/-!
# Smoothed mass models that contain simpler ones reduce to them (C111)
-/

noncomputable section

open Classical

namespace GW

open Fl Spec

namespace Nested

open Smoothed

/-- The instance with another primary model. -/
def reprimary (p : Primary) (f : Dict Fl) (s : Smoothed) : Smoothed := { s with primary := p, fixed := f }

theorem pQ_reprimary (b : Backend) (p : Primary) (f : Dict Fl) (s : Smoothed) (data : List (Fl × Fl))
    (beta mmin deltaM : Fl) :
    pQ b (reprimary p f s) data beta mmin deltaM =
      ((pQ b s data beta mmin deltaM).1, reprimary p f (pQ b s data beta mmin deltaM).2) := by
  have hd : ∀ (s : Smoothed) pq, divideByNorm b (reprimary p f s) pq beta mmin deltaM =
      divideByNorm b s pq beta mmin deltaM := fun _ _ => rfl
  unfold pQ
  cases data.mapM (fun d => pQRaw b beta mmin deltaM d.1 d.2) with
  | error e => rfl
  | ok pq =>
    dsimp only
    have h1 : (if (reprimary p f s).cache then reprimary p f s
        else cacheQNorms (reprimary p f s) (data.map Prod.fst)) =
        reprimary p f (if s.cache then s else cacheQNorms s (data.map Prod.fst)) := by
      by_cases hc : s.cache = true
      · rw [if_pos (show (reprimary p f s).cache = true from hc), if_pos hc]
      · rw [if_neg (show ¬ (reprimary p f s).cache = true from hc), if_neg hc]; rfl
    rw [h1, hd]
    cases divideByNorm b (if s.cache then s else cacheQNorms s (data.map Prod.fst)) pq beta mmin deltaM with
    | ok r => rfl
    | error e =>
      dsimp only
      by_cases hc : caught e
      · rw [if_pos hc, if_pos hc]; rfl
      · rw [if_neg hc, if_neg hc]

theorem pM1_congr (b : Backend) (p : Primary) (f : Dict Fl) (s : Smoothed) (masses : List Fl)
    (kwargs kwargs' : Dict Fl)
    (h1 : Dict.get? kwargs "mmin" = Dict.get? kwargs' "mmin")
    (h2 : Dict.get? kwargs "delta_m" = Dict.get? kwargs' "delta_m")
    (hp : ∀ m, s.primary b (Dict.erase kwargs "delta_m") m = p b (Dict.erase kwargs' "delta_m") m) :
    pM1 b s masses kwargs = pM1 b (reprimary p f s) masses kwargs' := by
  have hr : ∀ mmin deltaM, pMRaw b s (Dict.erase kwargs "delta_m") mmin deltaM =
      pMRaw b (reprimary p f s) (Dict.erase kwargs' "delta_m") mmin deltaM := by
    intro mmin deltaM
    funext m
    unfold pMRaw
    rw [hp m]
    rfl
  have hg : kwGet (Dict.erase kwargs "delta_m") "mmin" = kwGet (Dict.erase kwargs' "delta_m") "mmin" := by
    funext d
    unfold kwGet
    rw [Dict.get?_erase, Dict.get?_erase, h1]
  have hn : ∀ deltaM, normPM1 b s deltaM (Dict.erase kwargs "delta_m") =
      normPM1 b (reprimary p f s) deltaM (Dict.erase kwargs' "delta_m") := by
    intro deltaM
    unfold normPM1
    simp only [hg, hr]
    rfl
  unfold pM1
  have hg1 : kwGet kwargs "mmin" = kwGet kwargs' "mmin" := by funext d; unfold kwGet; rw [h1]
  have hg2 : kwGet kwargs "delta_m" = kwGet kwargs' "delta_m" := by funext d; unfold kwGet; rw [h2]
  simp only [hg1, hg2, hr, hn]
  rfl

/-- Two instances with the same grids, whose primary models agree for the given parameters, return the same
and remember the same. -/
theorem call_congr (b : Backend) (p : Primary) (f : Dict Fl) (s : Smoothed) (data : List (Fl × Fl))
    (kwargs kwargs' : Dict Fl)
    (hc : ∀ k ∈ Dict.keys (Dict.erase kwargs "beta"), k ∉ Dict.keys s.fixed)
    (hc' : ∀ k ∈ Dict.keys (Dict.erase kwargs' "beta"), k ∉ Dict.keys f)
    (h : ∀ k ∈ ["beta", "mmin", "mmax", "delta_m"], Dict.get? kwargs k = Dict.get? kwargs' k)
    (hf : ∀ k ∈ ["mmin", "delta_m"], Dict.get? s.fixed k = Dict.get? f k)
    (hp : ∀ m, s.primary b (Dict.erase (Dict.erase kwargs "beta" ++ s.fixed) "delta_m") m =
      p b (Dict.erase (Dict.erase kwargs' "beta" ++ f) "delta_m") m) :
    call b (reprimary p f s) data kwargs' =
      ((call b s data kwargs).1, reprimary p f (call b s data kwargs).2) := by
  have hb := h "beta" (by simp)
  have e1 : ∀ k ∈ ["mmin", "mmax", "delta_m"], kwGet (Dict.erase kwargs "beta") k =
      kwGet (Dict.erase kwargs' "beta") k := by
    intro k hk
    funext d
    unfold kwGet
    rw [Dict.get?_erase, Dict.get?_erase, h k (by simp only [List.mem_cons] at hk ⊢; tauto)]
  have e2 : ∀ k ∈ ["mmin", "delta_m"], Dict.get? (Dict.erase kwargs "beta" ++ s.fixed) k =
      Dict.get? (Dict.erase kwargs' "beta" ++ f) k := by
    intro k hk
    rw [Dict.get?_append, Dict.get?_append, Dict.get?_erase, Dict.get?_erase,
      h k (by simp only [List.mem_cons] at hk ⊢; tauto), hf k hk]
  have e3 := pM1_congr b p f s (data.map Prod.fst) (Dict.erase kwargs "beta" ++ s.fixed)
    (Dict.erase kwargs' "beta" ++ f) (e2 "mmin" (by simp)) (e2 "delta_m" (by simp)) hp
  unfold call
  rw [← hb]
  cases Dict.get? kwargs "beta" with
  | none => rfl
  | some beta =>
    dsimp only
    rw [← e1 "mmin" (by simp), ← e1 "mmax" (by simp), ← e1 "delta_m" (by simp)]
    rw [if_neg (c := ∃ k ∈ Dict.keys (Dict.erase kwargs "beta"), k ∈ Dict.keys s.fixed) (by
      rintro ⟨k, h1, h2⟩; exact hc k h1 h2)]
    rw [if_neg (c := ∃ k ∈ Dict.keys (Dict.erase kwargs' "beta"), k ∈ Dict.keys (reprimary p f s).fixed) (by
      rintro ⟨k, h1, h2⟩; exact hc' k h1 h2)]
    rw [e3]
    have hm1 : (reprimary p f s).mmin = s.mmin := rfl
    have hm2 : (reprimary p f s).mmax = s.mmax := rfl
    have hm3 : (reprimary p f s).fixed = f := rfl
    rw [hm1, hm2, hm3]
    split_ifs
    · rfl
    · rfl
    · cases pM1 b (reprimary p f s) (data.map Prod.fst) (Dict.erase kwargs' "beta" ++ f) with
      | error e => rfl
      | ok pm =>
        dsimp only
        rw [pQ_reprimary]
        rcases pQ b s data beta (kwGet (Dict.erase kwargs "beta") "mmin" (fin s.mmin))
          (kwGet (Dict.erase kwargs "beta") "delta_m" 0) with ⟨_ | _, _⟩ <;> rfl

theorem call_reprimary_fields (b : Backend) (s : Smoothed) (data : List (Fl × Fl)) (kwargs : Dict Fl) :
    (call b s data kwargs).2.primary = s.primary ∧ (call b s data kwargs).2.fixed = s.fixed := by
  have h := (runCalls_state b s [(data, kwargs)]).1
  exact ⟨h.primary, h.fixed⟩

theorem runCalls_congr (b : Backend) (p : Primary) (f : Dict Fl) (s : Smoothed)
    (calls : List (List (Fl × Fl) × Dict Fl × Dict Fl))
    (h : ∀ c ∈ calls, ∀ s' : Smoothed, s'.primary = s.primary → s'.fixed = s.fixed →
      (call b (reprimary p f s') c.1 c.2.2) =
        ((call b s' c.1 c.2.1).1, reprimary p f (call b s' c.1 c.2.1).2)) :
    runCalls b (reprimary p f s) (calls.map fun c => (c.1, c.2.2)) =
      reprimary p f (runCalls b s (calls.map fun c => (c.1, c.2.1))) := by
  induction calls generalizing s with
  | nil => rfl
  | cons c calls ih =>
    simp only [List.map_cons, runCalls]
    rw [h c (by simp) s rfl rfl]
    refine ih (call b s c.1 c.2.1).2 (fun c' hc' s' h1 h2 => h c' (by simp [hc']) s' ?_ ?_)
    · rw [h1]; exact (call_reprimary_fields b s c.1 c.2.1).1
    · rw [h2]; exact (call_reprimary_fields b s c.1 c.2.1).2

end Nested

/-- The keyword arguments give exactly these parameters, in any order. -/
def Spec.Given (kwargs : Dict Fl) (names : List String) (θ : String → Fl) : Prop :=
  ∀ k, Dict.get? kwargs k = if k ∈ names then some (θ k) else none

namespace Nested

open Smoothed

theorem bindArgs_given {names : List String} {kwargs : Dict Fl} {θ : String → Fl} (h : Given kwargs names θ)
    (defaults : Dict Fl) :
    ∃ g, bindArgs names defaults kwargs = .ok g ∧ ∀ k ∈ names, g k = θ k := by
  have hk : ∀ k, Dict.contains kwargs k ↔ k ∈ names := by
    intro k
    rw [← not_iff_not, ← Dict.get?_eq_none_iff, h k]
    by_cases hk : k ∈ names <;> simp [hk]
  refine ⟨fun n => (Dict.get? kwargs n).getD ((Dict.get? defaults n).getD nan), ?_, fun k hk' => ?_⟩
  · unfold bindArgs
    rw [if_neg]
    rintro (⟨k, h1, h2⟩ | ⟨k, h1, h2, -⟩)
    · exact h2 ((hk k).1 h1)
    · exact h2 ((hk k).2 h1)
  · dsimp only
    rw [h k, if_pos hk']
    rfl

/-- What the primary model is given. -/
theorem given_primary {kwargs fixed : Dict Fl} {names opt : List String} {θ θf : String → Fl}
    {fnames : List String}
    (h : Given kwargs ("beta" :: opt ++ names) θ) (ho : ∀ k ∈ opt, k = "delta_m") (hb : "beta" ∉ names)
    (hd : "delta_m" ∉ names) (hf : Given fixed fnames θf) (hfd : "delta_m" ∉ fnames)
    (hn : ∀ k ∈ fnames, k ∉ names) :
    Given (Dict.erase (Dict.erase kwargs "beta" ++ fixed) "delta_m") (names ++ fnames)
      (fun k => if k ∈ fnames then θf k else θ k) := by
  intro k
  rw [Dict.get?_erase]
  by_cases h1 : k = "delta_m"
  · rw [if_pos h1, if_neg]
    rw [h1, List.mem_append]
    tauto
  · rw [if_neg h1, Dict.get?_append, Dict.get?_erase, h k, hf k]
    have h2 : k ∉ opt := fun hk => h1 (ho k hk)
    by_cases h3 : k = "beta"
    · subst h3
      by_cases h4 : "beta" ∈ fnames <;> simp [h4, hb]
    · by_cases h4 : k ∈ names
      · have h5 : k ∉ fnames := fun hk => hn k hk h4
        simp [h3, h4, h5]
      · by_cases h5 : k ∈ fnames <;> simp [h3, h4, h5, h2]

theorem given_fixed (v : Fl) : Given [("gaussian_mass_maximum", v)] ["gaussian_mass_maximum"] (fun _ => v) := by
  intro k
  rw [Dict.get?_cons]
  by_cases h : k = "gaussian_mass_maximum" <;> simp [h]

theorem given_none : Given [] [] (fun _ => nan) := fun k => by simp

theorem given_noClash {kwargs : Dict Fl} {names : List String} {θ : String → Fl} (h : Given kwargs names θ)
    {fixed : Dict Fl} (hn : ∀ k ∈ names, k ≠ "beta" → k ∉ Dict.keys fixed) :
    ∀ k ∈ Dict.keys (Dict.erase kwargs "beta"), k ∉ Dict.keys fixed := by
  intro k hk
  have h1 : Dict.get? (Dict.erase kwargs "beta") k ≠ none := fun h' => (Dict.get?_eq_none_iff _ _).1 h' hk
  rw [Dict.get?_erase, h k] at h1
  by_cases h2 : k = "beta"
  · simp [h2] at h1
  · by_cases h3 : k ∈ names
    · exact hn k h3 h2
    · simp [h3, h2] at h1

/-- Two instances whose primary models agree for all parameters of the calls, return the same in all calls. -/
theorem reduces {b : Backend} {p p' : Primary} {f f' : Dict Fl} {mn mx : ℝ} {nM nQ : ℕ} {cache : Bool}
    {s s' : Smoothed} (hs : Smoothed.init p f mn mx nM nQ cache = .ok s)
    (hs' : Smoothed.init p' f' mn mx nM nQ cache = .ok s')
    (R : Dict Fl → Dict Fl → Prop)
    (hR : ∀ k k', R k k' → ∀ (i : Smoothed) data, i.primary = p → i.fixed = f →
      call b (reprimary p' f' i) data k' = ((call b i data k).1, reprimary p' f' (call b i data k).2))
    (calls : List (List (Fl × Fl) × Dict Fl × Dict Fl)) (hc : ∀ c ∈ calls, R c.2.1 c.2.2)
    (data : List (Fl × Fl)) {k k' : Dict Fl} (hk : R k k') :
    (call b (runCalls b s (calls.map fun c => (c.1, c.2.1))) data k).1 =
      (call b (runCalls b s' (calls.map fun c => (c.1, c.2.2))) data k').1 := by
  obtain ⟨-, -, h1⟩ := init_inv hs
  obtain ⟨-, -, h2⟩ := init_inv hs'
  have hp : s.primary = p := by rw [h1]
  have hf : s.fixed = f := by rw [h1]
  have e : s' = reprimary p' f' s := by rw [h2, h1]; rfl
  rw [e, runCalls_congr b p' f' s calls fun c hc' i hi1 hi2 =>
    hR _ _ (hc c hc') i c.1 (hi1.trans hp) (hi2.trans hf)]
  have hst := (runCalls_state b s (calls.map fun c => (c.1, c.2.1))).1
  rw [hR k k' hk _ data (hst.primary.trans hp) (hst.fixed.trans hf)]

/-- The dictionaries of two calls that give the same model. -/
def Reduces (names names' : List String) (P : (String → Fl) → (String → Fl) → Prop) (k k' : Dict Fl) : Prop :=
  ∃ (opt : List String) (θ θ' : String → Fl), (∀ n ∈ opt, n = "delta_m") ∧
    Given k ("beta" :: opt ++ names) θ ∧ Given k' ("beta" :: opt ++ names') θ' ∧
    (∀ n ∈ ["beta", "delta_m", "mmin", "mmax"], θ n = θ' n) ∧ P θ θ'

theorem hR_of {b : Backend} {p p' : Primary} {f f' : Dict Fl} {names names' fn fn' : List String}
    {θf θf' : String → Fl}
    {P : (String → Fl) → (String → Fl) → Prop} (hf : Given f fn θf) (hf' : Given f' fn' θf')
    (hfx : ∀ k ∈ fn, k = "gaussian_mass_maximum") (hfx' : ∀ k ∈ fn', k = "gaussian_mass_maximum")
    (hn1 : ∀ k ∈ ["beta", "delta_m", "gaussian_mass_maximum"], k ∉ names ∧ k ∉ names')
    (hn2 : ∀ k ∈ ["mmin", "mmax"], k ∈ names ∧ k ∈ names')
    (hp : ∀ θ θ' kw kw', P θ θ' → (∀ n ∈ ["beta", "delta_m", "mmin", "mmax"], θ n = θ' n) →
      Given kw (names ++ fn) (fun k => if k ∈ fn then θf k else θ k) →
      Given kw' (names' ++ fn') (fun k => if k ∈ fn' then θf' k else θ' k) → ∀ m, p b kw m = p' b kw' m)
    (k k' : Dict Fl) (h : Reduces names names' P k k') (i : Smoothed) (data : List (Fl × Fl))
    (hi : i.primary = p) (hif : i.fixed = f) :
    call b (reprimary p' f' i) data k' = ((call b i data k).1, reprimary p' f' (call b i data k).2) := by
  obtain ⟨opt, θ, θ', ho, h1, h2, h3, h4⟩ := h
  have hkeys : ∀ {d : Dict Fl} {n : List String} {t : String → Fl}, Given d n t → ∀ k, k ∈ Dict.keys d → k ∈ n := by
    intro d n t hd k hk
    by_contra h
    exact (Dict.get?_eq_none_iff _ _).1 ((hd k).trans (if_neg h)) hk
  have cl : ∀ {d : Dict Fl} {n n' : List String} {t : String → Fl}, Given d n t →
      (∀ k ∈ n, k = "gaussian_mass_maximum") → "gaussian_mass_maximum" ∉ n' →
      ∀ k ∈ "beta" :: opt ++ n', k ≠ "beta" → k ∉ Dict.keys d := by
    intro d n n' t hd hn hn' k hk hkb hkd
    have := hn k (hkeys hd k hkd)
    subst this
    simp only [List.cons_append, List.mem_cons, List.mem_append] at hk
    rcases hk with hk | hk | hk
    · simp at hk
    · simpa using ho _ hk
    · exact hn' hk
  have g0 : ∀ {d : Dict Fl} {n : List String} {t : String → Fl}, Given d n t →
      (∀ k ∈ n, k = "gaussian_mass_maximum") → ∀ k ∈ ["mmin", "delta_m"], Dict.get? d k = none := by
    intro d n t hd hn k hk
    rw [hd k, if_neg]
    intro h
    have := hn k h
    subst this
    simp at hk
  refine call_congr b p' f' i data k k' ?_ ?_ ?_ ?_ ?_
  · rw [hif]; exact given_noClash h1 (cl hf hfx (hn1 _ (by simp)).1)
  · exact given_noClash h2 (cl hf' hfx' (hn1 _ (by simp)).2)
  · intro n hn
    rw [h1 n, h2 n, h3 n (by simp only [List.mem_cons] at hn ⊢; tauto)]
    simp only [List.mem_cons, List.not_mem_nil, or_false] at hn
    rcases hn with rfl | rfl | rfl | rfl
    · simp
    · simp [(hn2 "mmin" (by simp)).1, (hn2 "mmin" (by simp)).2]
    · simp [(hn2 "mmax" (by simp)).1, (hn2 "mmax" (by simp)).2]
    · simp [(hn1 "delta_m" (by simp)).1, (hn1 "delta_m" (by simp)).2]
  · intro n hn
    rw [hif, g0 hf hfx n hn, g0 hf' hfx' n hn]
  · rw [hi, hif]
    have aux : ∀ {n : List String}, (∀ k ∈ n, k = "gaussian_mass_maximum") → "delta_m" ∉ n := fun hn h => by
      simpa using hn _ h
    refine hp θ θ' _ _ h4 h3
      (given_primary h1 ho (hn1 _ (by simp)).1 (hn1 _ (by simp)).1 hf (aux hfx) fun k hk => ?_)
      (given_primary h2 ho (hn1 _ (by simp)).2 (hn1 _ (by simp)).2 hf' (aux hfx') fun k hk => ?_)
    · rw [hfx k hk]; exact (hn1 _ (by simp)).1
    · rw [hfx' k hk]; exact (hn1 _ (by simp)).2

end Nested

namespace Spec

/-- The parameters of the smoothed models, besides `beta` and `delta_m`. -/
def singlePeakNames : List String := ["alpha", "mmin", "mmax", "lam", "mpp", "sigpp"]
def multiPeakNames : List String :=
  ["alpha", "mmin", "mmax", "lam", "lam_1", "mpp_1", "sigpp_1", "mpp_2", "sigpp_2"]
def brokenNames : List String := ["alpha_1", "alpha_2", "mmin", "mmax", "break_fraction"]
def brokenPeakNames : List String := brokenNames ++ ["lam", "mpp", "sigpp"]

/-- `k` gives parameters of a model with two peaks and `k'` those of a model with one peak, the same except
that the weight of one of the two peaks is zero, and the other is the single peak. -/
def OnePeakLeft (b : Backend) (k k' : Dict Fl) : Prop :=
  ∃ (opt : List String) (θ θ' : String → Fl), (∀ n ∈ opt, n = "delta_m") ∧
    Given k ("beta" :: opt ++ multiPeakNames) θ ∧ Given k' ("beta" :: opt ++ singlePeakNames) θ' ∧
    (∀ n ∈ ["beta", "delta_m", "mmin", "mmax"], θ n = θ' n) ∧ θ "alpha" = θ' "alpha" ∧ θ "lam" = θ' "lam" ∧
    (∃ lam : ℝ, θ "lam" = fin lam) ∧
    (θ "lam_1" = fin 1 ∧ θ' "mpp" = θ "mpp_1" ∧ θ' "sigpp" = θ "sigpp_1" ∧ (b = .jax ∨ 0 < θ "sigpp_2") ∨
     θ "lam_1" = fin 0 ∧ θ' "mpp" = θ "mpp_2" ∧ θ' "sigpp" = θ "sigpp_2" ∧ (b = .jax ∨ 0 < θ "sigpp_1"))

/-- `k` gives parameters of a broken power law with a peak of zero weight, and `k'` those of the broken power
law without a peak. -/
def NoPeakLeft (b : Backend) (k k' : Dict Fl) : Prop :=
  ∃ (opt : List String) (θ θ' : String → Fl), (∀ n ∈ opt, n = "delta_m") ∧
    Given k ("beta" :: opt ++ brokenPeakNames) θ ∧ Given k' ("beta" :: opt ++ brokenNames) θ' ∧
    (∀ n ∈ ["beta", "delta_m", "mmin", "mmax"], θ n = θ' n) ∧ (∀ n ∈ brokenNames, θ n = θ' n) ∧
    θ "lam" = fin 0 ∧ (b = .jax ∨ 0 < θ "sigpp")

end Spec

namespace Nested

open Smoothed

/-- **C111**: with one of its two peaks without weight, `MultiPeakSmoothedMassDistribution` returns what
`SinglePeakSmoothedMassDistribution` returns for the other peak, in every call of any history of such calls, on
any grids, with or without the cache, exceptions included. -/
theorem C111_multiPeak (b : Backend) (py : Bool) {mn mx : ℝ} {nM nQ : ℕ} {cache : Bool} {s s' : Smoothed}
    (hs : multiPeak py mn mx nM nQ cache = .ok s) (hs' : singlePeak py mn mx nM nQ cache = .ok s')
    (calls : List (List (Fl × Fl) × Dict Fl × Dict Fl)) (hc : ∀ c ∈ calls, OnePeakLeft b c.2.1 c.2.2)
    (data : List (Fl × Fl)) {k k' : Dict Fl} (hk : OnePeakLeft b k k') :
    (call b (runCalls b s (calls.map fun c => (c.1, c.2.1))) data k).1 =
      (call b (runCalls b s' (calls.map fun c => (c.1, c.2.2))) data k').1 := by
  refine reduces hs hs' (OnePeakLeft b) ?_ calls hc data hk
  rintro k k' h i data hi hif
  refine hR_of (names := multiPeakNames) (names' := singlePeakNames) (given_fixed (fin mx)) (given_fixed (fin mx))
    (by simp) (by simp) (by decide) (by decide) ?_ k k' h i data hi hif
  rintro θ θ' kw kw' ⟨ha, hl, ⟨lam, hlam⟩, hw⟩ h4 g1 g2 m
  obtain ⟨g, hg, hg'⟩ := bindArgs_given g1 [("gaussian_mass_maximum", fin 100)]
  obtain ⟨g₂, hg₂, hg₂'⟩ := bindArgs_given g2 [("gaussian_mass_maximum", fin 100)]
  have e : ∀ n ∈ multiPeakNames, g n = θ n := fun n hn => by
    rw [hg' n (by simp [hn]), if_neg]
    rintro h
    simp only [List.mem_singleton] at h
    subst h
    revert hn; decide
  have e' : ∀ n ∈ singlePeakNames, g₂ n = θ' n := fun n hn => by
    rw [hg₂' n (by simp [hn]), if_neg]
    rintro h
    simp only [List.mem_singleton] at h
    subst h
    revert hn; decide
  have eg : g "gaussian_mass_maximum" = fin mx := by rw [hg' _ (by simp)]; simp
  have eg' : g₂ "gaussian_mass_maximum" = fin mx := by rw [hg₂' _ (by simp)]; simp
  have f1 := h4 "mmin" (by simp)
  have f2 := h4 "mmax" (by simp)
  have l1 : primThreeComponent py b kw m = threeComponentSingle b py m (θ "alpha") (θ "mmin") (θ "mmax") (θ "lam")
      (θ "lam_1") (θ "mpp_1") (θ "sigpp_1") (θ "mpp_2") (θ "sigpp_2") (fin mx) := by
    have hg : bindArgs ["alpha", "mmin", "mmax", "lam", "lam_1", "mpp_1", "sigpp_1", "mpp_2", "sigpp_2",
        "gaussian_mass_maximum"]
        [("gaussian_mass_maximum", fin 100)] kw = .ok g := hg
    unfold primThreeComponent
    rw [hg, ok_bind]
    rw [e "alpha" (by decide), e "mmin" (by decide), e "mmax" (by decide), e "lam" (by decide),
      e "lam_1" (by decide), e "mpp_1" (by decide), e "sigpp_1" (by decide), e "mpp_2" (by decide),
      e "sigpp_2" (by decide), eg]
  have l2 : primTwoComponent py b kw' m = twoComponentSingle b py m (θ' "alpha") (θ' "mmin") (θ' "mmax") (θ' "lam")
      (θ' "mpp") (θ' "sigpp") (fin mx) := by
    have hg₂ : bindArgs ["alpha", "mmin", "mmax", "lam", "mpp", "sigpp", "gaussian_mass_maximum"]
        [("gaussian_mass_maximum", fin 100)] kw' = .ok g₂ := hg₂
    unfold primTwoComponent
    rw [hg₂, ok_bind]
    rw [e' "alpha" (by decide), e' "mmin" (by decide), e' "mmax" (by decide), e' "lam" (by decide),
      e' "mpp" (by decide), e' "sigpp" (by decide), eg']
  rw [l1, l2, ← ha, ← hl, ← f1, ← f2, hlam]
  rcases hw with ⟨w1, w2, w3, w4⟩ | ⟨w1, w2, w3, w4⟩
  · rw [w1, w2, w3]; exact C111_firstPeak _ _ _ _ _ _ _ _ _ _ _ _ w4
  · rw [w1, w2, w3]; exact C111_secondPeak _ _ _ _ _ _ _ _ _ _ _ _ w4

/-- **C111**: with a peak of zero weight, `BrokenPowerLawPeakSmoothedMassDistribution` returns what
`BrokenPowerLawSmoothedMassDistribution` returns. -/
theorem C111_brokenPeak (b : Backend) (py : Bool) {mn mx : ℝ} {nM nQ : ℕ} {cache : Bool} {s s' : Smoothed}
    (hs : brokenPowerLawPeak py mn mx nM nQ cache = .ok s) (hs' : brokenPowerLaw py mn mx nM nQ cache = .ok s')
    (calls : List (List (Fl × Fl) × Dict Fl × Dict Fl)) (hc : ∀ c ∈ calls, NoPeakLeft b c.2.1 c.2.2)
    (data : List (Fl × Fl)) {k k' : Dict Fl} (hk : NoPeakLeft b k k') :
    (call b (runCalls b s (calls.map fun c => (c.1, c.2.1))) data k).1 =
      (call b (runCalls b s' (calls.map fun c => (c.1, c.2.2))) data k').1 := by
  refine reduces hs hs' (NoPeakLeft b) ?_ calls hc data hk
  rintro k k' h i data hi hif
  refine hR_of (names := brokenPeakNames) (names' := brokenNames) (given_fixed (fin mx)) given_none
    (by simp) (by simp) (by decide) (by decide) ?_ k k' h i data hi hif
  rintro θ θ' kw kw' ⟨ha, hl, hw⟩ h4 g1 g2 m
  obtain ⟨g, hg, hg'⟩ := bindArgs_given g1 [("gaussian_mass_maximum", fin 100)]
  obtain ⟨g₂, hg₂, hg₂'⟩ := bindArgs_given g2 []
  have e : ∀ n ∈ brokenPeakNames, g n = θ n := fun n hn => by
    rw [hg' n (by simp [hn]), if_neg]
    rintro h
    simp only [List.mem_singleton] at h
    subst h
    revert hn; decide
  have e' : ∀ n ∈ brokenNames, g₂ n = θ n := fun n hn => by
    rw [hg₂' n (by simp [hn]), if_neg (by simp), ha n hn]
  have eg : g "gaussian_mass_maximum" = fin mx := by rw [hg' _ (by simp)]; simp
  have hg : bindArgs ["alpha_1", "alpha_2", "mmin", "mmax", "break_fraction", "lam", "mpp", "sigpp",
      "gaussian_mass_maximum"]
      [("gaussian_mass_maximum", fin 100)] kw = .ok g := hg
  have hg₂ : bindArgs ["alpha_1", "alpha_2", "mmin", "mmax", "break_fraction"] [] kw' = .ok g₂ := hg₂
  unfold primDoublePowerLawPeak primDoublePowerLaw
  rw [hg, hg₂, ok_bind, ok_bind]
  rw [e "alpha_1" (by decide), e "alpha_2" (by decide), e "mmin" (by decide), e "mmax" (by decide),
    e "break_fraction" (by decide), e "lam" (by decide), e "mpp" (by decide), e "sigpp" (by decide), eg,
    e' "alpha_1" (by decide), e' "alpha_2" (by decide), e' "mmin" (by decide), e' "mmax" (by decide),
    e' "break_fraction" (by decide), hl]
  exact C111_brokenNoPeak _ _ _ _ _ _ _ _ _ _ _ hw

/-- What `two_component_single` computes for given parameters. -/
theorem primTwoComponent_given {b : Backend} {py : Bool} {mx : ℝ} {kw : Dict Fl} {θ : String → Fl}
    (h : Given kw (singlePeakNames ++ ["gaussian_mass_maximum"])
      (fun k => if k ∈ ["gaussian_mass_maximum"] then fin mx else θ k)) (m : Fl) :
    primTwoComponent py b kw m = twoComponentSingle b py m (θ "alpha") (θ "mmin") (θ "mmax") (θ "lam")
      (θ "mpp") (θ "sigpp") (fin mx) := by
  obtain ⟨g, hg, hg'⟩ := bindArgs_given h [("gaussian_mass_maximum", fin 100)]
  have e : ∀ n ∈ singlePeakNames, g n = θ n := fun n hn => by
    rw [hg' n (by simp [hn]), if_neg]
    rintro h
    simp only [List.mem_singleton] at h
    subst h
    revert hn; decide
  have eg : g "gaussian_mass_maximum" = fin mx := by rw [hg' _ (by simp)]; simp
  have hg : bindArgs ["alpha", "mmin", "mmax", "lam", "mpp", "sigpp", "gaussian_mass_maximum"]
      [("gaussian_mass_maximum", fin 100)] kw = .ok g := hg
  unfold primTwoComponent
  rw [hg, ok_bind, e "alpha" (by decide), e "mmin" (by decide), e "mmax" (by decide), e "lam" (by decide),
    e "mpp" (by decide), e "sigpp" (by decide), eg]

end Nested

/-- `k` and `k'` give parameters of the model with one peak; the peak has no weight, and all but the shape of
the peak is the same. -/
def Spec.SameWithoutPeak (b : Backend) (k k' : Dict Fl) : Prop :=
  ∃ (opt : List String) (θ θ' : String → Fl), (∀ n ∈ opt, n = "delta_m") ∧
    Given k ("beta" :: opt ++ singlePeakNames) θ ∧ Given k' ("beta" :: opt ++ singlePeakNames) θ' ∧
    (∀ n ∈ ["beta", "delta_m", "mmin", "mmax"], θ n = θ' n) ∧ θ "alpha" = θ' "alpha" ∧
    θ "lam" = fin 0 ∧ θ' "lam" = fin 0 ∧ (b = .jax ∨ 0 < θ "sigpp" ∧ 0 < θ' "sigpp")

namespace Nested

open Smoothed

/-- **C111**: if the peak has no weight, `SinglePeakSmoothedMassDistribution` does not depend on where the peak is
and how wide it is. -/
theorem C111_singlePeak (b : Backend) (py : Bool) {mn mx : ℝ} {nM nQ : ℕ} {cache : Bool} {s : Smoothed}
    (hs : singlePeak py mn mx nM nQ cache = .ok s)
    (calls : List (List (Fl × Fl) × Dict Fl × Dict Fl)) (hc : ∀ c ∈ calls, SameWithoutPeak b c.2.1 c.2.2)
    (data : List (Fl × Fl)) {k k' : Dict Fl} (hk : SameWithoutPeak b k k') :
    (call b (runCalls b s (calls.map fun c => (c.1, c.2.1))) data k).1 =
      (call b (runCalls b s (calls.map fun c => (c.1, c.2.2))) data k').1 := by
  refine reduces hs hs (SameWithoutPeak b) ?_ calls hc data hk
  rintro k k' h i data hi hif
  refine hR_of (names := singlePeakNames) (names' := singlePeakNames) (given_fixed (fin mx)) (given_fixed (fin mx))
    (by simp) (by simp) (by decide) (by decide) ?_ k k' h i data hi hif
  rintro θ θ' kw kw' ⟨ha, hl, hl', hw⟩ h4 g1 g2 m
  rw [primTwoComponent_given g1, primTwoComponent_given g2, hl, hl', ← ha, ← h4 "mmin" (by simp),
    ← h4 "mmax" (by simp), C111_noPeak _ _ _ _ _ _ _ _ _ (hw.imp_right And.left),
    C111_noPeak _ _ _ _ _ _ _ _ _ (hw.imp_right And.right)]

/-! ### The hypotheses hold -/

/-- Parameters of a model with two peaks, the second without weight. -/
def twoPeaks : Dict Fl :=
  [("alpha", fin 2), ("beta", fin 1), ("mmin", fin 5), ("mmax", fin 80), ("delta_m", fin 3), ("lam", fin 0.1),
   ("lam_1", fin 1), ("mpp_1", fin 35), ("sigpp_1", fin 4), ("mpp_2", fin 70), ("sigpp_2", fin 2)]

/-- The same with the first peak only, in another order. -/
def onePeak : Dict Fl :=
  [("mpp", fin 35), ("sigpp", fin 4), ("alpha", fin 2), ("beta", fin 1), ("mmin", fin 5), ("mmax", fin 80),
   ("delta_m", fin 3), ("lam", fin 0.1)]

theorem given_dict (d : Dict Fl) (names : List String) (hn : ∀ k, k ∈ Dict.keys d ↔ k ∈ names) :
    Given d names (fun k => (Dict.get? d k).getD nan) := by
  intro k
  by_cases hk : k ∈ names
  · rw [if_pos hk]
    have : Dict.get? d k ≠ none := fun h => (Dict.get?_eq_none_iff d k).1 h ((hn k).2 hk)
    obtain ⟨v, hv⟩ := Option.ne_none_iff_exists'.1 this
    simp [hv]
  · rw [if_neg hk]
    exact (Dict.get?_eq_none_iff d k).2 fun h => hk ((hn k).1 h)

theorem onePeakLeft_example (b : Backend) : OnePeakLeft b twoPeaks onePeak := by
  refine ⟨["delta_m"], _, _, by simp, given_dict twoPeaks _ ?_, given_dict onePeak _ ?_, ?_, ?_, ?_, ?_, ?_⟩
  · intro k; simp [twoPeaks, multiPeakNames, Dict.keys]; tauto
  · intro k; simp [onePeak, singlePeakNames, Dict.keys]; tauto
  · intro n hn
    simp only [List.mem_cons, List.not_mem_nil, or_false] at hn
    rcases hn with rfl | rfl | rfl | rfl <;> simp [twoPeaks, onePeak, Dict.get?_cons]
  · simp [twoPeaks, onePeak, Dict.get?_cons]
  · simp [twoPeaks, onePeak, Dict.get?_cons]
  · exact ⟨0.1, by simp [twoPeaks, Dict.get?_cons]⟩
  · left
    refine ⟨?_, ?_, ?_, Or.inr ?_⟩
    · simp [twoPeaks, Dict.get?_cons]
    · simp [twoPeaks, onePeak, Dict.get?_cons]
    · simp [twoPeaks, onePeak, Dict.get?_cons]
    · simp [twoPeaks, Dict.get?_cons]

/-- **Non-vacuity of `C111_multiPeak`**: on the default grid, after a call on other data. -/
example (b : Backend) (py : Bool) (d data : List (Fl × Fl)) : ∃ s s', multiPeak py 2 100 1000 500 true = .ok s ∧
    singlePeak py 2 100 1000 500 true = .ok s' ∧
    (call b (call b s d twoPeaks).2 data twoPeaks).1 = (call b (call b s' d onePeak).2 data onePeak).1 := by
  obtain ⟨s, hs⟩ : ∃ s, multiPeak py 2 100 1000 500 true = .ok s := ⟨_, rfl⟩
  obtain ⟨s', hs'⟩ : ∃ s', singlePeak py 2 100 1000 500 true = .ok s' := ⟨_, rfl⟩
  exact ⟨s, s', hs, hs', C111_multiPeak b py hs hs' [(d, twoPeaks, onePeak)]
    (by simpa using onePeakLeft_example b) data (onePeakLeft_example b)⟩

/-- Parameters of a broken power law with a peak of zero weight. -/
def brokenWithPeak : Dict Fl :=
  [("alpha_1", fin 2), ("alpha_2", fin 4), ("beta", fin 1), ("mmin", fin 5), ("mmax", fin 80),
   ("break_fraction", fin 0.4), ("delta_m", fin 3), ("lam", fin 0), ("mpp", fin 35), ("sigpp", fin 4)]

/-- The same without the peak. -/
def brokenWithout : Dict Fl :=
  [("alpha_1", fin 2), ("alpha_2", fin 4), ("beta", fin 1), ("mmin", fin 5), ("mmax", fin 80),
   ("break_fraction", fin 0.4), ("delta_m", fin 3)]

/-- **Non-vacuity of `C111_brokenPeak`.** -/
example (b : Backend) : NoPeakLeft b brokenWithPeak brokenWithout := by
  refine ⟨["delta_m"], _, _, by simp, given_dict brokenWithPeak _ ?_, given_dict brokenWithout _ ?_, ?_, ?_, ?_, ?_⟩
  · intro k; simp [brokenWithPeak, brokenPeakNames, brokenNames, Dict.keys]; tauto
  · intro k; simp [brokenWithout, brokenNames, Dict.keys]; tauto
  · intro n hn
    simp only [List.mem_cons, List.not_mem_nil, or_false] at hn
    rcases hn with rfl | rfl | rfl | rfl <;> simp [brokenWithPeak, brokenWithout, Dict.get?_cons]
  · intro n hn
    simp only [brokenNames, List.mem_cons, List.not_mem_nil, or_false] at hn
    rcases hn with rfl | rfl | rfl | rfl | rfl <;> simp [brokenWithPeak, brokenWithout, Dict.get?_cons]
  · simp [brokenWithPeak, Dict.get?_cons]
  · right; simp [brokenWithPeak, Dict.get?_cons]

/-- **Non-vacuity of `C111_singlePeak`**: two calls that differ in the place and the width of the peak. -/
example (b : Backend) : SameWithoutPeak b
    [("alpha", fin 2), ("beta", fin 1), ("mmin", fin 5), ("mmax", fin 80), ("lam", fin 0), ("mpp", fin 35),
      ("sigpp", fin 4)]
    [("alpha", fin 2), ("beta", fin 1), ("mmin", fin 5), ("mmax", fin 80), ("lam", fin 0), ("mpp", fin 20),
      ("sigpp", fin 1)] := by
  refine ⟨[], _, _, by simp, given_dict _ _ ?_, given_dict _ _ ?_, ?_, ?_, ?_, ?_, Or.inr ⟨?_, ?_⟩⟩
  · intro k; simp [singlePeakNames, Dict.keys]; tauto
  · intro k; simp [singlePeakNames, Dict.keys]; tauto
  · intro n hn
    simp only [List.mem_cons, List.not_mem_nil, or_false] at hn
    rcases hn with rfl | rfl | rfl | rfl <;> simp [Dict.get?_cons]
  all_goals simp [Dict.get?_cons]

end Nested

end GW
