import Verif.Props.NestedSmoothed

/-!
# Mass models with two peaks do not depend on which peak is called the first (C112)
-/

noncomputable section

open Classical

namespace GW

open Fl Spec

namespace PeakLabels

theorem truncnorm_error {b : Backend} {xx mu sigma high low : Arg} {e : PyErr}
    (h : truncnorm b xx mu sigma high low = .error e) : e = .valueError := by
  rw [truncnorm_eq] at h
  split_ifs at h
  cases h
  rfl

theorem truncnorm_ok {b : Backend} {x mu sigma high low : Fl} {v : Fl}
    (h : truncnorm b (pos x) (kw mu) (kw sigma) (kw high) (kw low) = .ok v) : ∃ r : ℝ, v = fin r := by
  obtain ⟨r, -, h1, -⟩ := C04_truncnorm_total b x mu sigma high low
  rw [truncnorm_eq, if_neg (by simp)] at h1
  rw [truncnorm_eq] at h
  split_ifs at h
  exact ⟨r, (Except.ok.inj h).symm.trans (Except.ok.inj h1)⟩

theorem add_swap (p : Fl) (a c : ℝ) : p + fin a + fin c = p + fin c + fin a := by
  cases p with
  | fin p => simp only [fin_add]; congr 1; ring
  | pinf => simp
  | ninf => simp
  | nan => simp

/-- **C112**: `three_component_single` with the two peaks exchanged and `lam_1` replaced by `1 - lam_1` returns
the same, at all masses, for all values of the other arguments, and raises the same. -/
theorem C112_single (b : Backend) (py : Bool) (m alpha mmin mmax mpp1 sigpp1 mpp2 sigpp2 gmm : Fl) (lam lam1 : ℝ) :
    threeComponentSingle b py m alpha mmin mmax (fin lam) (fin lam1) mpp1 sigpp1 mpp2 sigpp2 gmm =
      threeComponentSingle b py m alpha mmin mmax (fin lam) (fin (1 - lam1)) mpp2 sigpp2 mpp1 sigpp1 gmm := by
  unfold threeComponentSingle
  cases powerlaw b py (pos m) (kw (-alpha)) (kw mmax) (kw mmin) with
  | error e => rfl
  | ok p =>
    rw [ok_bind, ok_bind]
    cases h1 : truncnorm b (pos m) (kw mpp1) (kw sigpp1) (kw gmm) (kw mmin) with
    | error e1 =>
      rw [truncnorm_error h1]
      cases h2 : truncnorm b (pos m) (kw mpp2) (kw sigpp2) (kw gmm) (kw mmin) with
      | error e2 => rw [truncnorm_error h2]; rfl
      | ok q => rfl
    | ok n1 =>
      cases h2 : truncnorm b (pos m) (kw mpp2) (kw sigpp2) (kw gmm) (kw mmin) with
      | error e2 => rfl
      | ok n2 =>
        obtain ⟨r1, rfl⟩ := truncnorm_ok h1
        obtain ⟨r2, rfl⟩ := truncnorm_ok h2
        show Except.ok _ = Except.ok _
        simp only [one_eq, fin_sub, fin_mul]
        rw [add_swap]
        congr 3
        ring_nf

end PeakLabels

/-- The same parameters of the model with two peaks, with the names of the peaks exchanged. -/
def Spec.PeaksExchanged (k k' : Dict Fl) : Prop :=
  ∃ (opt : List String) (θ θ' : String → Fl), (∀ n ∈ opt, n = "delta_m") ∧
    Given k ("beta" :: opt ++ multiPeakNames) θ ∧ Given k' ("beta" :: opt ++ multiPeakNames) θ' ∧
    (∀ n ∈ ["beta", "delta_m", "mmin", "mmax"], θ n = θ' n) ∧ θ "alpha" = θ' "alpha" ∧ θ "lam" = θ' "lam" ∧
    (∃ lam : ℝ, θ "lam" = fin lam) ∧ (∃ lam1 : ℝ, θ "lam_1" = fin lam1 ∧ θ' "lam_1" = fin (1 - lam1)) ∧
    θ' "mpp_1" = θ "mpp_2" ∧ θ' "sigpp_1" = θ "sigpp_2" ∧ θ' "mpp_2" = θ "mpp_1" ∧ θ' "sigpp_2" = θ "sigpp_1"

namespace PeakLabels

open Smoothed Nested

theorem primThreeComponent_given {b : Backend} {py : Bool} {mx : ℝ} {kw : Dict Fl} {θ : String → Fl}
    (h : Given kw (multiPeakNames ++ ["gaussian_mass_maximum"])
      (fun k => if k ∈ ["gaussian_mass_maximum"] then fin mx else θ k)) (m : Fl) :
    primThreeComponent py b kw m = threeComponentSingle b py m (θ "alpha") (θ "mmin") (θ "mmax") (θ "lam")
      (θ "lam_1") (θ "mpp_1") (θ "sigpp_1") (θ "mpp_2") (θ "sigpp_2") (fin mx) := by
  obtain ⟨g, hg, hg'⟩ := bindArgs_given h [("gaussian_mass_maximum", fin 100)]
  have e : ∀ n ∈ multiPeakNames, g n = θ n := fun n hn => by
    rw [hg' n (by simp [hn]), if_neg]
    rintro h
    simp only [List.mem_singleton] at h
    subst h
    revert hn; decide
  have eg : g "gaussian_mass_maximum" = fin mx := by rw [hg' _ (by simp)]; simp
  have hg : bindArgs ["alpha", "mmin", "mmax", "lam", "lam_1", "mpp_1", "sigpp_1", "mpp_2", "sigpp_2",
      "gaussian_mass_maximum"] [("gaussian_mass_maximum", fin 100)] kw = .ok g := hg
  unfold primThreeComponent
  rw [hg, ok_bind, e "alpha" (by decide), e "mmin" (by decide), e "mmax" (by decide), e "lam" (by decide),
    e "lam_1" (by decide), e "mpp_1" (by decide), e "sigpp_1" (by decide), e "mpp_2" (by decide),
    e "sigpp_2" (by decide), eg]

/-- **C112**: exchanging the names of the peaks changes nothing in any call of
`MultiPeakSmoothedMassDistribution`, after any history of calls with exchanged names, on any grids. -/
theorem C112_smoothed (b : Backend) (py : Bool) {mn mx : ℝ} {nM nQ : ℕ} {cache : Bool} {s : Smoothed}
    (hs : multiPeak py mn mx nM nQ cache = .ok s)
    (calls : List (List (Fl × Fl) × Dict Fl × Dict Fl)) (hc : ∀ c ∈ calls, PeaksExchanged c.2.1 c.2.2)
    (data : List (Fl × Fl)) {k k' : Dict Fl} (hk : PeaksExchanged k k') :
    (call b (runCalls b s (calls.map fun c => (c.1, c.2.1))) data k).1 =
      (call b (runCalls b s (calls.map fun c => (c.1, c.2.2))) data k').1 := by
  refine reduces hs hs PeaksExchanged ?_ calls hc data hk
  rintro k k' h i data hi hif
  refine hR_of (names := multiPeakNames) (names' := multiPeakNames) (given_fixed (fin mx)) (given_fixed (fin mx))
    (by simp) (by simp) (by decide) (by decide) ?_ k k' h i data hi hif
  rintro θ θ' kw kw' ⟨ha, hl, ⟨lam, hlam⟩, ⟨lam1, hl1, hl1'⟩, w1, w2, w3, w4⟩ h4 g1 g2 m
  rw [primThreeComponent_given g1, primThreeComponent_given g2, ← ha, ← hl, ← h4 "mmin" (by simp),
    ← h4 "mmax" (by simp), hlam, hl1, hl1', w1, w2, w3, w4]
  exact C112_single _ _ _ _ _ _ _ _ _ _ _ _ _

/-! ### The hypotheses hold -/

/-- **Non-vacuity of `C112_smoothed`**: peaks at 10 and 35 with weights 0.7 and 0.3. -/
example : PeaksExchanged
    [("alpha", fin 2), ("beta", fin 1), ("mmin", fin 5), ("mmax", fin 80), ("delta_m", fin 3), ("lam", fin 0.1),
     ("lam_1", fin 0.7), ("mpp_1", fin 10), ("sigpp_1", fin 1), ("mpp_2", fin 35), ("sigpp_2", fin 4)]
    [("alpha", fin 2), ("beta", fin 1), ("mmin", fin 5), ("mmax", fin 80), ("delta_m", fin 3), ("lam", fin 0.1),
     ("lam_1", fin (1 - 0.7)), ("mpp_1", fin 35), ("sigpp_1", fin 4), ("mpp_2", fin 10), ("sigpp_2", fin 1)] := by
  refine ⟨["delta_m"], _, _, by simp, given_dict _ _ ?_, given_dict _ _ ?_, ?_, ?_, ?_, ⟨0.1, ?_⟩, ⟨0.7, ?_, ?_⟩,
    ?_, ?_, ?_, ?_⟩
  · intro k; simp [multiPeakNames, Dict.keys]; tauto
  · intro k; simp [multiPeakNames, Dict.keys]; tauto
  · intro n hn
    simp only [List.mem_cons, List.not_mem_nil, or_false] at hn
    rcases hn with rfl | rfl | rfl | rfl <;> simp [Dict.get?_cons]
  all_goals simp [Dict.get?_cons]

end PeakLabels

end GW
