import Verif.Props.Cosmo
import Verif.Props.Redshift
import Verif.Props.SmoothedCore

/-!
# C93: `variable_names` of the redshift models

The names are exactly the hyper-parameters that a call reads: other hyper-parameters do not change the result, and
without one of them the call raises.
-/

noncomputable section

open Classical

namespace GW

open Fl Redshift

namespace Spec

/-- The two redshift models of the package, made by their constructors. `py` says whether the hyper-parameters are
Python floats. -/
def IsRedshiftModel (py : Bool) (available : Dict CosmoEntry) (cosmoModel : String) (s : Redshift) : Prop :=
  ∃ zMax, Redshift.powerLaw available zMax cosmoModel = .ok s ∨
    Redshift.madauDickinson available py zMax cosmoModel = .ok s

/-- The arguments of the methods of a redshift model. -/
def reservedNames : List String := ["self", "dataset", "bounds", "redshift"]

/-- The cosmologies with parameters are classes in the table of cosmologies. -/
def FreeCosmologies (available : Dict CosmoEntry) : Prop :=
  ∀ k ∈ ["FlatwCDM", "FlatLambdaCDM"], ∀ c, available.get? k ≠ some (.fixed c)

end Spec

open Spec

theorem mapM_error_const {α β : Type} {f : α → Except PyErr β} {e : PyErr} {l : List α} (hl : l ≠ [])
    (h : ∀ x ∈ l, f x = .error e) : l.mapM f = .error e := by
  cases l with
  | nil => exact absurd rfl hl
  | cons a l =>
    rw [List.mapM_cons, h a (by simp)]
    rfl

theorem redshift_init_inv {available : Dict CosmoEntry} {names : Option (List String)}
    {psi : Fl → Dict Fl → Except PyErr Fl} {zMax : ℝ} {name : String} {s : Redshift}
    (h : Redshift.init available names psi zMax name = .ok s) :
    s.psiOfZ = psi ∧ s.zs ≠ [] ∧ available.get? name = some s.mixin.cosmo ∧
      s.mixin.cosmologyNames = (if name = "FlatwCDM" then ["H0", "Om0", "w0"]
        else if name = "FlatLambdaCDM" then ["H0", "Om0"] else []) ∧
      s.variableNames.1 = s.mixin.cosmologyNames ++ names.getD [] := by
  have hv := C60_variableNames h 0
  unfold Redshift.init at h
  obtain ⟨m, hm, h⟩ := bind_eq_ok.1 h
  cases he : available.get? name with
  | none => rw [(C60_names available name).1 he] at hm; cases hm
  | some e =>
    obtain ⟨m', hm', hc, hn⟩ := (C60_names available name).2 e he
    rw [hm'] at hm
    have hmm := Except.ok.inj hm
    subst hmm
    rw [pure_eq_ok] at h
    have := Except.ok.inj h
    subst this
    refine ⟨rfl, ?_, by rw [← hc], hn, ?_⟩
    · intro h0
      have := congrArg List.length h0
      simp [Arr.linspaceR] at this
    · exact hv.trans (by rw [← hn])

theorem noClash_error {l : List String} {p : Dict Fl} {k : String} (hk : k ∈ l) (h : p.contains k) :
    noClash l p = .error .typeError := if_pos ⟨k, hk, h⟩

theorem get_congr {p p' : Dict Fl} {k : String} (h : p.get? k = p'.get? k) : p.get k = p'.get k := by
  unfold Dict.get
  rw [h]

theorem cosmology_congr {m : CosmoMixin} {p p' : Dict Fl}
    (h : ∀ k ∈ m.cosmologyNames, p.get? k = p'.get? k) : m.cosmology p = m.cosmology p' := by
  unfold CosmoMixin.cosmology CosmoMixin.cosmologyVariables
  cases m.cosmo with
  | fixed c => rfl
  | free cls =>
    rw [mapM_congr fun k hk => by rw [get_congr (h k hk)]]

theorem volume_same {py : Bool} {available : Dict CosmoEntry} {cosmoModel : String} {s : Redshift}
    (hs : IsRedshiftModel py available cosmoModel s) {p p' : Dict Fl}
    (hp : ∀ k ∈ reservedNames, (p.contains k ↔ p'.contains k))
    (h : ∀ k ∈ s.variableNames.1, p.get? k = p'.get? k) (d : Dict Fl) :
    s.differentialSpacetimeVolume d true p = s.differentialSpacetimeVolume d true p' := by
  have clash : ∀ l : List String, l ⊆ reservedNames → noClash l p = noClash l p' := by
    intro l hl
    have hiff : (∃ k ∈ l, p.contains k) ↔ ∃ k ∈ l, p'.contains k :=
      exists_congr fun k => and_congr_right fun hk => hp k (hl hk)
    unfold noClash
    simp only [hiff]
  have n1 := clash ["self", "dataset", "bounds"] (by simp [reservedNames])
  have n2 := clash ["self", "redshift"] (by simp [reservedNames])
  have hv : ∀ z, s.dvcDz z p = s.dvcDz z p' := by
    intro z
    unfold Redshift.dvcDz
    rw [cosmology_congr]
    obtain ⟨zMax, hs | hs⟩ := hs <;> obtain ⟨-, -, -, -, hn⟩ := redshift_init_inv hs <;>
      exact fun k hk => h k (by rw [hn]; exact List.mem_append_left _ hk)
  have hpsi : ∀ z, s.psiOfZ z p = s.psiOfZ z p' := by
    intro z
    obtain ⟨zMax, hs | hs⟩ := hs <;> obtain ⟨hψ, -, -, -, hn⟩ := redshift_init_inv hs <;> rw [hψ] <;>
      rw [hn] at h
    · unfold psiPowerLaw
      rw [get_congr (h "lamb" (by simp))]
    · unfold psiMadauDickinson
      rw [get_congr (h "gamma" (by simp)), get_congr (h "kappa" (by simp)), get_congr (h "z_peak" (by simp))]
  unfold differentialSpacetimeVolume
  rw [n1, n2]
  simp only [hv, hpsi]

theorem normalisation_same {py : Bool} {available : Dict CosmoEntry} {cosmoModel : String} {s : Redshift}
    (hs : IsRedshiftModel py available cosmoModel s) {p p' : Dict Fl}
    (hp : ∀ k ∈ reservedNames, (p.contains k ↔ p'.contains k))
    (h : ∀ k ∈ s.variableNames.1, p.get? k = p'.get? k) : s.normalisation p = s.normalisation p' := by
  unfold Redshift.normalisation
  simp only [volume_same hs hp h]

/-- **C93, nothing else is read.** If two sets of hyper-parameters agree on `variable_names`, then the redshift models
return the same, for every data set. -/
theorem C93_reads {py : Bool} {available : Dict CosmoEntry} {cosmoModel : String} {s : Redshift}
    (hs : IsRedshiftModel py available cosmoModel s) {p p' : Dict Fl}
    (hp : ∀ k ∈ reservedNames, ¬ p.contains k ∧ ¬ p'.contains k)
    (h : ∀ k ∈ s.variableNames.1, p.get? k = p'.get? k) (dataset : Dict Fl) :
    s.probability dataset p = s.probability dataset p' := by
  have hp : ∀ k ∈ reservedNames, (p.contains k ↔ p'.contains k) := fun k hk => iff_of_false (hp k hk).1 (hp k hk).2
  unfold Redshift.probability
  simp only [volume_same hs hp h, normalisation_same hs hp h]

example (c : Cosmology) : ∃ s, IsRedshiftModel true [("Planck15", .fixed c)] "Planck15" s ∧
    ∀ d, s.probability d [("lamb", fin 3)] = s.probability d [("lamb", fin 3), ("alpha", fin 2)] := by
  refine ⟨_, ⟨2.3, .inl rfl⟩, fun d => C93_reads (py := true) (available := [("Planck15", .fixed c)])
    (cosmoModel := "Planck15") ⟨2.3, .inl rfl⟩ (by simp [reservedNames, Dict.contains]) ?_ d⟩
  intro k hk
  have : k = "lamb" := by simpa [Redshift.variableNames] using hk
  rw [this]
  simp [Dict.get?_cons]

theorem volume_error_psi {s : Redshift} {p : Dict Fl} (hp : ∀ k ∈ reservedNames, ¬ p.contains k) {z : Fl} {e : PyErr}
    (h : s.psiOfZ z p = .error e) : s.differentialSpacetimeVolume [("redshift", z)] true p = .error e := by
  unfold differentialSpacetimeVolume
  rw [noClash_ok fun k hk => hp k (by revert hk; simp [reservedNames]; tauto),
    noClash_ok fun k hk => hp k (by revert hk; simp [reservedNames]; tauto),
    show Dict.get [("redshift", z)] "redshift" = .ok z from rfl]
  simp only [ok_bind, h]
  rfl

theorem volume_error_cosmo {s : Redshift} {p : Dict Fl} (hp : ∀ k ∈ reservedNames, ¬ p.contains k) {z r : Fl}
    {e : PyErr} (h1 : s.psiOfZ z p = .ok r) (h : s.mixin.cosmology p = .error e) :
    s.differentialSpacetimeVolume [("redshift", z)] true p = .error e := by
  unfold differentialSpacetimeVolume dvcDz
  rw [noClash_ok fun k hk => hp k (by revert hk; simp [reservedNames]; tauto),
    noClash_ok fun k hk => hp k (by revert hk; simp [reservedNames]; tauto),
    show Dict.get [("redshift", z)] "redshift" = .ok z from rfl]
  simp only [ok_bind, h1, h]
  rfl

theorem probability_error {s : Redshift} {p : Dict Fl} {e : PyErr} (hz : s.zs ≠ [])
    (h : ∀ z, s.differentialSpacetimeVolume [("redshift", z)] true p = .error e) (dataset : Dict Fl) :
    s.probability dataset p = .error e := by
  unfold Redshift.probability Redshift.normalisation
  rw [mapM_error_const hz fun z _ => h (fin z)]
  rfl

/-- **C93, everything listed is needed.** If a hyper-parameter in `variable_names` is missing, the models raise
`KeyError` for a missing name. Python floats: see `C93_missing_python`. -/
theorem C93_missing {available : Dict CosmoEntry} (hfree : FreeCosmologies available) {cosmoModel : String}
    {s : Redshift} (hs : IsRedshiftModel false available cosmoModel s) {p : Dict Fl}
    (hp : ∀ k ∈ reservedNames, ¬ p.contains k) {k : String} (hk : k ∈ s.variableNames.1) (hm : ¬ p.contains k)
    (dataset : Dict Fl) :
    ∃ k' ∈ s.variableNames.1, ¬ p.contains k' ∧ s.probability dataset p = .error (.keyError k') := by
  have none_of : ∀ k, ¬ p.contains k → p.get k = .error (.keyError k) := by
    intro k hk
    unfold Dict.get
    rw [(Dict.get?_eq_none_iff p k).2 hk]
  have some_of : ∀ k, p.contains k → ∃ v, p.get k = .ok v := by
    intro k hk
    obtain ⟨v, hv⟩ := Option.isSome_iff_exists.1 ((Dict.get?_isSome_iff p k).2 hk)
    exact ⟨v, get_some hv⟩
  have cosmo : ∀ (zMax : ℝ) (names : Option (List String)) (psi : Fl → Dict Fl → Except PyErr Fl),
      Redshift.init available names psi zMax cosmoModel = .ok s → (∀ z, ∃ r, s.psiOfZ z p = .ok r) →
      k ∈ s.mixin.cosmologyNames → ∃ k' ∈ s.variableNames.1, ¬ p.contains k' ∧
        s.probability dataset p = .error (.keyError k') := by
    intro zMax names psi hs hψ hk
    obtain ⟨-, hz, he, hc, hn⟩ := redshift_init_inv hs
    cases hco : s.mixin.cosmo with
    | fixed c =>
      rw [hco] at he
      rw [hc] at hk
      split_ifs at hk with h1 h2
      · exact absurd he (by rw [h1]; exact hfree _ (by simp) c)
      · exact absurd he (by rw [h2]; exact hfree _ (by simp) c)
      · cases hk
    | free cls =>
      obtain ⟨k', h1, h2, h3⟩ := C60_missing hco hk hm
      refine ⟨k', by rw [hn]; exact List.mem_append_left _ h1, h2, probability_error hz (fun z => ?_) dataset⟩
      obtain ⟨r, hr⟩ := hψ z
      exact volume_error_cosmo hp hr h3
  obtain ⟨zMax, hs | hs⟩ := hs <;> obtain ⟨hψ, hz, he, hc, hn⟩ := redshift_init_inv hs
  · by_cases hl : p.contains "lamb"
    · refine cosmo _ _ _ hs (fun z => ?_) ?_
      · obtain ⟨v, hv⟩ := some_of _ hl
        rw [hψ]
        unfold psiPowerLaw
        rw [hv]
        exact ⟨_, rfl⟩
      · rw [hn] at hk
        rcases List.mem_append.1 hk with hk | hk
        · exact hk
        · simp only [Option.getD_some, List.mem_singleton] at hk
          exact absurd (hk ▸ hl) hm
    · refine ⟨"lamb", by rw [hn]; simp, hl, probability_error hz (fun z => volume_error_psi hp ?_) dataset⟩
      rw [hψ]
      unfold psiPowerLaw
      rw [none_of _ hl]
      rfl
  · by_cases hg : p.contains "gamma"
    · obtain ⟨g, eg⟩ := some_of _ hg
      by_cases hk' : p.contains "kappa"
      · obtain ⟨κ, eκ⟩ := some_of _ hk'
        by_cases hzp : p.contains "z_peak"
        · obtain ⟨zp, ezp⟩ := some_of _ hzp
          refine cosmo _ _ _ hs (fun z => ?_) ?_
          · rw [hψ]
            unfold psiMadauDickinson
            rw [eg, eκ, ezp]
            exact ⟨_, rfl⟩
          · rw [hn] at hk
            rcases List.mem_append.1 hk with hk | hk
            · exact hk
            · simp only [Option.getD_some, List.mem_cons, List.not_mem_nil, or_false] at hk
              rcases hk with rfl | rfl | rfl <;> contradiction
        · refine ⟨"z_peak", by rw [hn]; simp, hzp, probability_error hz (fun z => volume_error_psi hp ?_) dataset⟩
          rw [hψ]
          unfold psiMadauDickinson
          rw [eg, eκ, none_of _ hzp]
          rfl
      · refine ⟨"kappa", by rw [hn]; simp, hk', probability_error hz (fun z => volume_error_psi hp ?_) dataset⟩
        rw [hψ]
        unfold psiMadauDickinson
        rw [eg, none_of _ hk']
        rfl
    · refine ⟨"gamma", by rw [hn]; simp, hg, probability_error hz (fun z => volume_error_psi hp ?_) dataset⟩
      rw [hψ]
      unfold psiMadauDickinson
      rw [none_of _ hg]
      rfl

/-- Non-vacuity: a call with all rate parameters but without the matter density. -/
example (c : Cosmology) : ∃ s, IsRedshiftModel false [("FlatLambdaCDM", .free fun _ => .ok c)] "FlatLambdaCDM" s ∧
    ∀ d, ∃ k' ∈ s.variableNames.1, ¬ Dict.contains [("lamb", fin 3), ("H0", fin 70)] k' ∧
      s.probability d [("lamb", fin 3), ("H0", fin 70)] = .error (.keyError k') := by
  refine ⟨_, ⟨2.3, .inl rfl⟩, fun d => C93_missing (available := [("FlatLambdaCDM", .free fun _ => .ok c)])
    ?_ (cosmoModel := "FlatLambdaCDM") ⟨2.3, .inl rfl⟩ (by simp [reservedNames, Dict.contains])
    (k := "Om0") (by simp [Redshift.variableNames]) (by simp [Dict.contains]) d⟩
  intro k hk c'
  simp only [List.mem_cons, List.not_mem_nil, or_false] at hk
  rcases hk with rfl | rfl <;> simp [Dict.get?_cons]

/-- **C93, Python floats.** Also for Python floats, where a rate may raise other errors, a call that returns had all
hyper-parameters in `variable_names`. -/
theorem C93_missing_python {py : Bool} {available : Dict CosmoEntry} (hfree : FreeCosmologies available)
    {cosmoModel : String} {s : Redshift} (hs : IsRedshiftModel py available cosmoModel s) {p dataset : Dict Fl} {r : Fl}
    (h : s.probability dataset p = .ok r) : ∀ k ∈ s.variableNames.1, p.contains k := by
  unfold Redshift.probability Redshift.normalisation at h
  obtain ⟨n, hn, -⟩ := bind_eq_ok.1 h
  obtain ⟨l, hl, -⟩ := bind_eq_ok.1 hn
  have head : s.zs ≠ [] → ∃ z r, s.differentialSpacetimeVolume [("redshift", fin z)] true p = .ok r := by
    intro hz
    obtain ⟨z, zs, ez⟩ := List.exists_cons_of_ne_nil hz
    rw [ez, List.mapM_cons] at hl
    obtain ⟨r, hr, -⟩ := bind_eq_ok.1 hl
    exact ⟨z, r, hr⟩
  have found : ∀ {k : String} {v : Fl}, p.get k = .ok v → p.contains k := by
    intro k v hv
    by_contra hc
    unfold Dict.get at hv
    rw [(Dict.get?_eq_none_iff p k).2 hc] at hv
    cases hv
  have inside : s.zs ≠ [] → (∃ z r, s.psiOfZ z p = .ok r) ∧ ∃ c, s.mixin.cosmology p = .ok c := by
    intro hz
    obtain ⟨z, r, hr⟩ := head hz
    unfold differentialSpacetimeVolume dvcDz at hr
    obtain ⟨-, -, hr⟩ := bind_eq_ok.1 hr
    obtain ⟨z', -, hr⟩ := bind_eq_ok.1 hr
    obtain ⟨-, -, hr⟩ := bind_eq_ok.1 hr
    obtain ⟨ψ, hψ, hr⟩ := bind_eq_ok.1 hr
    obtain ⟨v, hv, -⟩ := bind_eq_ok.1 hr
    obtain ⟨c, hc, -⟩ := bind_eq_ok.1 hv
    exact ⟨⟨z', ψ, hψ⟩, c, hc⟩
  have cosmo : ∀ (zMax : ℝ) (names : Option (List String)) (psi : Fl → Dict Fl → Except PyErr Fl),
      Redshift.init available names psi zMax cosmoModel = .ok s → ∀ k ∈ s.mixin.cosmologyNames, p.contains k := by
    intro zMax names psi hs k hk
    obtain ⟨-, hz, he, hc, -⟩ := redshift_init_inv hs
    by_contra hm
    cases hco : s.mixin.cosmo with
    | fixed c =>
      rw [hco] at he
      rw [hc] at hk
      split_ifs at hk with h1 h2
      · exact absurd he (by rw [h1]; exact hfree _ (by simp) c)
      · exact absurd he (by rw [h2]; exact hfree _ (by simp) c)
      · cases hk
    | free cls =>
      obtain ⟨k', h1, h2, h3⟩ := C60_missing hco hk hm
      obtain ⟨-, c, hc⟩ := inside hz
      rw [h3] at hc
      cases hc
  intro k hk
  obtain ⟨zMax, hs | hs⟩ := hs <;> obtain ⟨hψ, hz, -, -, hn⟩ := redshift_init_inv hs <;> rw [hn] at hk <;>
    rcases List.mem_append.1 hk with hk | hk
  · exact cosmo _ _ _ hs k hk
  · obtain ⟨⟨z, r, hr⟩, -⟩ := inside hz
    rw [hψ] at hr
    obtain ⟨v, hv, -⟩ := bind_eq_ok.1 hr
    simp only [Option.getD_some, List.mem_singleton] at hk
    exact hk ▸ found hv
  · exact cosmo _ _ _ hs k hk
  · obtain ⟨⟨z, r, hr⟩, -⟩ := inside hz
    rw [hψ] at hr
    obtain ⟨v, hv, hr⟩ := bind_eq_ok.1 hr
    obtain ⟨v', hv', hr⟩ := bind_eq_ok.1 hr
    obtain ⟨v'', hv'', -⟩ := bind_eq_ok.1 hr
    simp only [Option.getD_some, List.mem_cons, List.not_mem_nil, or_false] at hk
    rcases hk with rfl | rfl | rfl
    exacts [found hv, found hv', found hv'']

/-- Non-vacuity: a call that returns. -/
example (c : Cosmology) : ∃ s r, IsRedshiftModel true [("Planck15", .fixed c)] "Planck15" s ∧
    FreeCosmologies [("Planck15", .fixed c)] ∧ s.probability [("redshift", fin 1)] [("lamb", fin 3)] = .ok r := by
  have key : ∀ (s : Redshift), s.psiOfZ = psiPowerLaw → s.mixin.cosmo = .fixed c → ∀ z, ∃ r,
      s.differentialSpacetimeVolume [("redshift", z)] true [("lamb", fin 3)] = .ok r := by
    intro s h1 h2 z
    unfold differentialSpacetimeVolume dvcDz CosmoMixin.cosmology
    rw [noClash_ok (by simp [Dict.contains]), noClash_ok (by simp [Dict.contains]), h1, h2]
    exact ⟨_, rfl⟩
  obtain ⟨s, hs⟩ : ∃ s, Redshift.powerLaw [("Planck15", .fixed c)] 2.3 "Planck15" = .ok s := ⟨_, rfl⟩
  obtain ⟨h1, -, h2, -⟩ := redshift_init_inv hs
  have h2 : s.mixin.cosmo = .fixed c := by simpa [Dict.get?_cons] using h2.symm
  choose g hg using key s h1 h2
  have hp : ∃ r, s.probability [("redshift", fin 1)] [("lamb", fin 3)] = .ok r := by
    unfold Redshift.probability Redshift.normalisation
    rw [mapM_ok (g := fun z => g (fin z)) fun z _ => hg (fin z), hg]
    exact ⟨_, rfl⟩
  obtain ⟨r, hr⟩ := hp
  exact ⟨s, r, ⟨2.3, .inl hs⟩, by simp [FreeCosmologies, Dict.get?_cons], hr⟩

/-- **C93.** Hyper-parameters with the names of arguments of the methods are refused with `TypeError`, by every
redshift model, also a user's. -/
theorem C93_reserved {available : Dict CosmoEntry} {names : Option (List String)}
    {psi : Fl → Dict Fl → Except PyErr Fl} {zMax : ℝ} {cosmoModel : String} {s : Redshift}
    (hs : Redshift.init available names psi zMax cosmoModel = .ok s) {p : Dict Fl} {k : String}
    (hk : k ∈ reservedNames) (h : p.contains k) (dataset : Dict Fl) :
    s.probability dataset p = .error .typeError := by
  obtain ⟨-, hz, -⟩ := redshift_init_inv hs
  refine probability_error hz (fun z => ?_) dataset
  unfold differentialSpacetimeVolume
  by_cases h1 : ∃ k ∈ ["self", "dataset", "bounds"], p.contains k
  · obtain ⟨k, hk, h⟩ := h1
    rw [noClash_error hk h]
    rfl
  · rw [noClash_ok (by push Not at h1; exact h1), noClash_error (k := "redshift") (by simp)]
    · rfl
    · have : k = "redshift" := by
        simp only [reservedNames, List.mem_cons, List.not_mem_nil, or_false] at hk
        rcases hk with rfl | rfl | rfl | rfl
        · exact absurd ⟨_, by simp, h⟩ h1
        · exact absurd ⟨_, by simp, h⟩ h1
        · exact absurd ⟨_, by simp, h⟩ h1
        · rfl
      rwa [← this]

example (c : Cosmology) : ∃ s, Redshift.powerLaw [("Planck15", .fixed c)] 2.3 "Planck15" = .ok s ∧
    ∀ d, s.probability d [("lamb", fin 3), ("redshift", fin 1)] = .error .typeError :=
  ⟨_, rfl, fun d => C93_reserved (available := [("Planck15", .fixed c)]) (names := some ["lamb"]) (psi := psiPowerLaw)
    (zMax := 2.3) (cosmoModel := "Planck15") rfl (k := "redshift") (by simp [reservedNames]) (by simp [Dict.contains]) d⟩

/-- **C93.** The base class has no hyper-parameters besides those of the cosmology and no rate: calling it raises
`NotImplementedError`. -/
theorem C93_base {available : Dict CosmoEntry} {zMax : ℝ} {cosmoModel : String} {s : Redshift}
    (hs : Redshift.init available none psiBase zMax cosmoModel = .ok s) {p : Dict Fl}
    (hp : ∀ k ∈ reservedNames, ¬ p.contains k) (dataset : Dict Fl) :
    s.variableNames.1 = s.mixin.cosmologyNames ∧ s.probability dataset p = .error .notImplemented := by
  obtain ⟨hψ, hz, -, -, hn⟩ := redshift_init_inv hs
  exact ⟨by simpa using hn, probability_error hz (fun z => volume_error_psi hp (by rw [hψ]; rfl)) dataset⟩

example (c : Cosmology) : ∃ s, Redshift.init [("Planck15", .fixed c)] none psiBase 2.3 "Planck15" = .ok s ∧
    ∀ d, s.probability d [("lamb", fin 3)] = .error .notImplemented :=
  ⟨_, rfl, fun d => (C93_base (available := [("Planck15", .fixed c)]) (zMax := 2.3) (cosmoModel := "Planck15") rfl
    (by simp [reservedNames, Dict.contains]) d).2⟩

end GW
