import Verif.Props.SmoothedHistory
import Verif.Props.BetaDist
import Verif.Props.Truncnorm

/-!
# The conditions that the densities declare (C02), and the names that the mass models consume (C26)
-/

noncomputable section

open Classical

namespace GW

open Fl Spec

/-! ## C02 -/

/-- **C02**: `powerlaw` refuses a keyword `low` that is not at least 0 and a keyword `alpha` equal to 1, on numpy
and cupy; nothing else makes it raise `ValueError`. -/
theorem C02_powerlaw (b : Backend) (py : Bool) (xx alpha high low : Arg) :
    powerlaw b py xx alpha high low = .error .valueError ↔
      b ≠ .jax ∧ (low.kw = true ∧ ¬ 0 ≤ low.val ∨ alpha.kw = true ∧ eqf alpha.val 1) := by
  rw [powerlaw_eq]
  by_cases h : b ≠ .jax ∧ (low.kw = true ∧ ¬ 0 ≤ low.val ∨ alpha.kw = true ∧ eqf alpha.val 1)
  · rw [if_pos h]; exact ⟨fun _ => h, fun _ => rfl⟩
  · rw [if_neg h]
    refine ⟨fun he => ?_, fun h' => absurd h' h⟩
    exfalso
    revert he
    unfold powerlawBody pyDiv pyPow
    split_ifs <;> (intro he; cases he)

/-- **C02**: `truncnorm` refuses a keyword `sigma` that is not positive, on numpy and cupy, and nothing else. -/
theorem C02_truncnorm (b : Backend) (xx mu sigma high low : Arg) :
    truncnorm b xx mu sigma high low = .error .valueError ↔ b ≠ .jax ∧ sigma.kw = true ∧ ¬ 0 < sigma.val := by
  rw [truncnorm_eq]
  split_ifs with h
  · exact ⟨fun _ => h, fun _ => rfl⟩
  · exact ⟨fun he => (by cases he), fun h' => absurd h' h⟩

/-- **C02**: `beta_dist` refuses a keyword `alpha`, `beta` or `scale` that is not positive, on numpy and cupy, and
nothing else. -/
theorem C02_betaDist (junk : Fl → Fl → Fl) (b : Backend) (xx alpha beta scale : Arg) :
    betaDist junk b xx alpha beta scale = .error .valueError ↔
      b ≠ .jax ∧ (alpha.kw = true ∧ ¬ 0 < alpha.val ∨ beta.kw = true ∧ ¬ 0 < beta.val ∨
        scale.kw = true ∧ ¬ 0 < scale.val) := by
  rw [betaDist_eq]
  split_ifs with h
  · exact ⟨fun _ => h, fun _ => rfl⟩
  · exact ⟨fun he => (by cases he), fun h' => absurd h' h⟩

/-- **Non-vacuity**: a width of zero by keyword is refused by numpy, accepted by jax and when given by position. -/
example (x m h l : Arg) : truncnorm .numpy x m (kw 0) h l = .error .valueError ∧
    truncnorm .jax x m (kw 0) h l ≠ .error .valueError ∧ truncnorm .numpy x m (pos 0) h l ≠ .error .valueError := by
  refine ⟨(C02_truncnorm _ _ _ _ _ _).2 ⟨by decide, rfl, by simp [kw]⟩, fun h' => ?_, fun h' => ?_⟩
  · exact ((C02_truncnorm _ _ _ _ _ _).1 h').1 rfl
  · exact absurd ((C02_truncnorm _ _ _ _ _ _).1 h').2.1 (by simp [pos])

/-! ## C26 -/

/-- The primary models of the package (`mass.py:335`, `:38`, `:74`), for `variable_names`. -/
def infoThreeComponent : PrimaryInfo :=
  ⟨["mass", "alpha", "mmin", "mmax", "lam", "lam_1", "mpp_1", "sigpp_1", "mpp_2", "sigpp_2",
    "gaussian_mass_maximum"], none⟩

/-- See `infoThreeComponent`. -/
def infoDoublePowerLaw : PrimaryInfo := ⟨["mass", "alpha_1", "alpha_2", "mmin", "mmax", "break_fraction"], none⟩

/-- See `infoThreeComponent`. -/
def infoDoublePowerLawPeak : PrimaryInfo :=
  ⟨["mass", "alpha_1", "alpha_2", "mmin", "mmax", "break_fraction", "lam", "mpp", "sigpp",
    "gaussian_mass_maximum"], none⟩

/-- A primary model that takes its hyper-parameters as keywords, those in `optional` having defaults, consumes
what `variable_names` lists. -/
theorem consumes (b : Backend) {info : PrimaryInfo} {optional : List String} {s : Smoothed}
    (hprim : ∀ kw m v, s.primary b kw m = .ok v → (∀ k ∈ Dict.keys kw, k ∈ hyperParameters info) ∧
      ∀ n ∈ hyperParameters info, n ∉ optional → n ∈ Dict.keys kw)
    (hopt : ∀ k ∈ optional, k ∈ Dict.keys s.fixed) (hbeta' : "beta" ∉ Dict.keys s.fixed)
    {data : List (Fl × Fl)} (hne : data ≠ []) {kwargs : Dict Fl} {r : List Fl}
    (h : (Smoothed.call b s data kwargs).1 = .ok r) (k : String) (hk : k ≠ "delta_m") :
    k ∈ Dict.keys kwargs ↔ k ∈ (variableNames info (Dict.keys s.fixed)).1 := by
  obtain ⟨d, data, rfl⟩ := List.exists_cons_of_ne_nil hne
  unfold Smoothed.call at h
  cases hbeta : Dict.get? kwargs "beta" with
  | none => rw [hbeta] at h; cases h
  | some beta =>
    rw [hbeta] at h
    simp only at h
    split_ifs at h with h1 h2 h3
    cases hpm : Smoothed.pM1 b s ((d :: data).map Prod.fst)
        (Dict.erase kwargs "beta" ++ s.fixed) with
    | error e => rw [hpm] at h; cases h
    | ok pm =>
      unfold Smoothed.pM1 at hpm
      obtain ⟨raw, hraw, -⟩ := bind_eq_ok.1 hpm
      rw [List.map_cons, List.mapM_cons] at hraw
      obtain ⟨y, hy, -⟩ := bind_eq_ok.1 hraw
      unfold Smoothed.pMRaw at hy
      obtain ⟨z, hz, -⟩ := bind_eq_ok.1 hy
      obtain ⟨b1, b2⟩ := hprim _ _ _ hz
      rw [Dict.keys_erase, Dict.keys_append, Dict.keys_erase] at b1 b2
      simp only [List.mem_append, List.mem_filter] at b1 b2
      rw [mem_variableNames]
      have hb : "beta" ∈ Dict.keys kwargs := by
        by_contra hc
        rw [(Dict.get?_eq_none_iff _ _).2 hc] at hbeta
        cases hbeta
      constructor
      · intro hk'
        refine ⟨?_, fun hf => ?_⟩
        · by_cases e1 : k = "beta"
          · exact Or.inr (Or.inl e1)
          · exact Or.inl (b1 k ⟨Or.inl ⟨hk', by simpa using e1⟩, by simpa using hk⟩)
        · by_cases e1 : k = "beta"
          · subst e1; exact hbeta' hf
          · refine h3 ⟨k, ?_, hf⟩
            rw [Dict.keys_erase, List.mem_filter]
            exact ⟨hk', by simpa using e1⟩
      · rintro ⟨hn, hf⟩
        by_cases e1 : k = "beta"
        · rw [e1]; exact hb
        · have hkn := hn.resolve_right (by simp [e1, hk])
          rcases (b2 k hkn fun ho => hf (hopt k ho)).1 with h | h
          · exact h.1
          · exact absurd h hf

/-- The hyper-parameters that a call on a smoothed model is given, up to `delta_m`, are the listed ones. -/
def Spec.ConsumesListed (info : PrimaryInfo) (make : Except PyErr Smoothed) : Prop :=
  ∀ s, make = .ok s → ∀ (b : Backend) (history : List (List (Fl × Fl) × Dict Fl)) (data : List (Fl × Fl)),
    data ≠ [] → ∀ (kwargs : Dict Fl) (r : List Fl),
    (Smoothed.call b (Smoothed.runCalls b s history) data kwargs).1 = .ok r →
    ∀ k, k ≠ "delta_m" → (k ∈ Dict.keys kwargs ↔ k ∈ (variableNames info (Dict.keys s.fixed)).1)

theorem consumesListed_of {info : PrimaryInfo} {p : Primary} {fixed : Dict Fl} {optional : List String}
    (hprim : ∀ b kw m v, p b kw m = .ok v → (∀ k ∈ Dict.keys kw, k ∈ hyperParameters info) ∧
      ∀ n ∈ hyperParameters info, n ∉ optional → n ∈ Dict.keys kw)
    (hopt : ∀ k ∈ optional, k ∈ Dict.keys fixed) (hbeta' : "beta" ∉ Dict.keys fixed)
    (mn mx : ℝ) (nM nQ : ℕ) (cache : Bool) :
    ConsumesListed info (Smoothed.init p fixed mn mx nM nQ cache) := by
  intro s hs b history data hne kwargs r h k hk
  obtain ⟨-, -, hs⟩ := init_inv hs
  have hst := (runCalls_state b s history).1
  have e1 : (Smoothed.runCalls b s history).primary = p := by rw [hst.primary, hs]
  have e2 : (Smoothed.runCalls b s history).fixed = fixed := by rw [hst.fixed, hs]
  have e3 : s.fixed = fixed := by rw [hs]
  have := consumes b (info := info) (optional := optional) (by rw [e1]; exact hprim b) (by rwa [e2]) (by rwa [e2])
    hne h k hk
  rwa [e2, ← e3] at this

/-- **C26**: all four smoothed mass models consume what `variable_names` lists: a call on a dataset that is not
empty, after any history, returns only if it was given exactly the listed hyper-parameters, of which only
`delta_m` may be left out. -/
theorem C26_consumes (py : Bool) (mn mx : ℝ) (nM nQ : ℕ) (cache : Bool) :
    ConsumesListed infoTwoComponent (singlePeak py mn mx nM nQ cache) ∧
    ConsumesListed infoThreeComponent (multiPeak py mn mx nM nQ cache) ∧
    ConsumesListed infoDoublePowerLaw (brokenPowerLaw py mn mx nM nQ cache) ∧
    ConsumesListed infoDoublePowerLawPeak (brokenPowerLawPeak py mn mx nM nQ cache) := by
  have key : ∀ {names : List String} {defaults kw : Dict Fl} {g : String → Fl},
      bindArgs names defaults kw = .ok g → (∀ k ∈ Dict.keys kw, k ∈ names) ∧
        ∀ n ∈ names, n ∉ Dict.keys defaults → n ∈ Dict.keys kw := fun h => bindArgs_ok_inv h
  refine ⟨consumesListed_of (optional := ["gaussian_mass_maximum"]) ?_ (by simp [Dict.keys]) (by simp [Dict.keys])
      _ _ _ _ _,
    consumesListed_of (optional := ["gaussian_mass_maximum"]) ?_ (by simp [Dict.keys]) (by simp [Dict.keys]) _ _ _ _ _,
    consumesListed_of (optional := []) ?_ (by simp) (by simp [Dict.keys]) _ _ _ _ _,
    consumesListed_of (optional := ["gaussian_mass_maximum"]) ?_ (by simp [Dict.keys]) (by simp [Dict.keys]) _ _ _ _ _⟩
  · intro b kw m v h
    unfold primTwoComponent at h
    obtain ⟨g, hg, -⟩ := bind_eq_ok.1 h
    exact key hg
  · intro b kw m v h
    unfold primThreeComponent at h
    obtain ⟨g, hg, -⟩ := bind_eq_ok.1 h
    exact key hg
  · intro b kw m v h
    unfold primDoublePowerLaw at h
    obtain ⟨g, hg, -⟩ := bind_eq_ok.1 h
    exact key hg
  · intro b kw m v h
    unfold primDoublePowerLawPeak at h
    obtain ⟨g, hg, -⟩ := bind_eq_ok.1 h
    exact key hg

/-- The lists of the four models. -/
theorem C26_lists (py : Bool) (mn mx : ℝ) (nM nQ : ℕ) (cache : Bool) {s : Smoothed} :
    (singlePeak py mn mx nM nQ cache = .ok s → ∀ k, k ∈ (variableNames infoTwoComponent (Dict.keys s.fixed)).1 ↔
      k ∈ ["alpha", "beta", "mmin", "mmax", "lam", "mpp", "sigpp", "delta_m"]) ∧
    (multiPeak py mn mx nM nQ cache = .ok s → ∀ k, k ∈ (variableNames infoThreeComponent (Dict.keys s.fixed)).1 ↔
      k ∈ ["alpha", "beta", "mmin", "mmax", "lam", "lam_1", "mpp_1", "sigpp_1", "mpp_2", "sigpp_2", "delta_m"]) ∧
    (brokenPowerLaw py mn mx nM nQ cache = .ok s → ∀ k, k ∈ (variableNames infoDoublePowerLaw (Dict.keys s.fixed)).1 ↔
      k ∈ ["alpha_1", "alpha_2", "beta", "mmin", "mmax", "break_fraction", "delta_m"]) ∧
    (brokenPowerLawPeak py mn mx nM nQ cache = .ok s →
      ∀ k, k ∈ (variableNames infoDoublePowerLawPeak (Dict.keys s.fixed)).1 ↔
      k ∈ ["alpha_1", "alpha_2", "beta", "mmin", "mmax", "break_fraction", "lam", "mpp", "sigpp", "delta_m"]) := by
  refine ⟨?_, ?_, ?_, ?_⟩ <;> intro hs k <;> obtain ⟨-, -, hs⟩ := init_inv hs <;> rw [mem_variableNames, hs] <;>
    simp only [hyperParameters, infoTwoComponent, infoThreeComponent, infoDoublePowerLaw, infoDoublePowerLawPeak,
      Dict.keys, List.map_cons, List.map_nil, List.tail_cons, List.mem_cons, List.not_mem_nil, or_false,
      not_false_eq_true, and_true] <;>
    constructor
  · rintro ⟨h, h'⟩; tauto
  · rintro (rfl | rfl | rfl | rfl | rfl | rfl | rfl | rfl) <;> simp
  · rintro ⟨h, h'⟩; tauto
  · rintro (rfl | rfl | rfl | rfl | rfl | rfl | rfl | rfl | rfl | rfl | rfl) <;> simp
  · tauto
  · tauto
  · rintro ⟨h, h'⟩; tauto
  · rintro (rfl | rfl | rfl | rfl | rfl | rfl | rfl | rfl | rfl | rfl) <;> simp

/-- **Non-vacuity of `C26_consumes`**: a forgotten `break_fraction` makes every call fail, on every instance. -/
example (b : Backend) (py : Bool) (mn mx : ℝ) (nM nQ : ℕ) (cache : Bool) {s : Smoothed}
    (hs : brokenPowerLaw py mn mx nM nQ cache = .ok s) (m q : Fl) :
    ∀ r, (Smoothed.call b s [(m, q)] [("alpha_1", fin 2), ("alpha_2", fin 3), ("beta", fin 1), ("mmin", fin 5),
      ("mmax", fin 50)]).1 ≠ .ok r := by
  intro r h
  have := (C26_consumes py mn mx nM nQ cache).2.2.1 s hs b [] [(m, q)] (by simp) _ r h "break_fraction" (by decide)
  rw [(C26_lists py mn mx nM nQ cache).2.2.1 hs] at this
  simp [Dict.keys] at this

end GW
