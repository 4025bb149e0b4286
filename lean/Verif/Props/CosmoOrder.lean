import Verif.Props.Cosmo

/-!
# C58: the order of the columns, for data with redshifts
-/

noncomputable section

open Classical

namespace GW

open Fl CosmoMixin

/-- The redshift comes before all detector-frame columns. -/
def Spec.RedshiftFirst (data : Dict Fl) : Prop :=
  ∃ pre z post, data = pre ++ ("redshift", z) :: post ∧ ∀ k ∈ Dict.keys pre, ¬ ∃ n, k = n ++ "_detector"

theorem sourceFrame_values {data S : Dict Fl} {z : Fl} (h : Spec.SourceFrame data z S)
    (hl : ¬ data.contains "luminosity_distance") (k : String) :
    S.get? k = if k = "redshift" then some z
      else if data.contains (k ++ "_detector") then
        (data.get? (k ++ "_detector")).map (· / (1 + z))
      else if ∃ n, k = n ++ "_detector" then none
      else data.get? k := by
  by_cases h1 : k = "redshift"
  · subst h1; rw [if_pos rfl, h.redshift]
  rw [if_neg h1]
  by_cases h3 : data.contains (k ++ "_detector")
  · obtain ⟨x, hx⟩ := get?_of_mem_keys h3
    rw [if_pos h3, hx, h.detector k x hx]; rfl
  rw [if_neg h3]
  by_cases h4 : ∃ n, k = n ++ "_detector"
  · rw [if_pos h4, (Dict.get?_eq_none_iff _ _).2]
    intro hk
    rcases h.nothing k hk with h' | h' | h'
    · exact h1 h'
    · exact h3 h'
    · exact h'.2.1 h4
  rw [if_neg h4]
  by_cases h5 : data.contains k
  · obtain ⟨x, hx⟩ := get?_of_mem_keys h5
    rw [hx, h.other k x h4 (fun h' => hl (h' ▸ h5)) h1 hx]
  · rw [(Dict.get?_eq_none_iff _ _).2 h5, (Dict.get?_eq_none_iff _ _).2]
    intro hk
    rcases h.nothing k hk with h' | h' | h'
    · exact h1 h'
    · exact h3 h'
    · exact h5 h'.1

/-- **C58, what holds**: with redshifts, no luminosity distance and no colliding names, all orders
with the redshift before the detector-frame columns give the same result. -/
theorem C58_redshift_partial (self : CosmoMixin) {data data' parameters : Dict Fl}
    (hnd : data.keys.Nodup) (hperm : data.Perm data') (hnc : Spec.NoCollision data)
    (hl : ¬ data.contains "luminosity_distance") (h : Spec.RedshiftFirst data)
    (h' : Spec.RedshiftFirst data') :
    ∃ S S' j, self.detectorFrameToSourceFrame data parameters = .ok (S, j) ∧
      self.detectorFrameToSourceFrame data' parameters = .ok (S', j) ∧ ∀ k, S'.get? k = S.get? k := by
  have hkp : data.keys.Perm data'.keys := hperm.map Prod.fst
  have hcont : ∀ k, data'.contains k ↔ data.contains k := fun k => hkp.mem_iff.symm
  have hnc' : Spec.NoCollision data' := by
    intro n hn
    rw [hcont] at hn ⊢
    exact hnc n hn
  have hnd' := hkp.nodup_iff.1 hnd
  have hl' : ¬ data'.contains "luminosity_distance" := by rwa [hcont]
  have hget := get?_perm hperm hnd
  have hz : ∀ {d : Dict Fl} {pre z post}, d.keys.Nodup → d = pre ++ ("redshift", z) :: post →
      d.get? "redshift" = some z := by
    intro d pre z post hd he
    rw [← Dict.mem_iff_get? hd, he]
    simp
  have hcount : Spec.detectorCount data' = Spec.detectorCount data := ((hkp.filter _).length_eq).symm
  obtain ⟨pre, z, post, he, hpre⟩ := h
  obtain ⟨pre', z', post', he', hpre'⟩ := h'
  have hzz : z' = z := by
    have h1 := hget "redshift"
    rw [hz hnd he, hz hnd' he'] at h1
    exact Option.some.inj h1
  subst hzz
  obtain ⟨S, h1, h2⟩ := C57_redshift_partial self (parameters := parameters) (he ▸ hnd) (he ▸ hnc)
    (he ▸ hl) hpre
  obtain ⟨S', h1', h2'⟩ := C57_redshift_partial self (parameters := parameters) (he' ▸ hnd')
    (he' ▸ hnc') (he' ▸ hl') hpre'
  rw [← he] at h1 h2
  rw [← he'] at h1' h2'
  refine ⟨S, S', _, h1, by rw [h1', hcount], fun k => ?_⟩
  rw [sourceFrame_values h2 hl, sourceFrame_values h2' hl']
  simp only [hcont, hget]

/-- **C58, what holds**: all other orders raise `KeyError: redshift`. -/
theorem C58_raises_partial (self : CosmoMixin) {data parameters : Dict Fl}
    (hnd : data.keys.Nodup) (hl : ¬ data.contains "luminosity_distance")
    (hr : data.contains "redshift") (h : ¬ Spec.RedshiftFirst data) :
    self.detectorFrameToSourceFrame data parameters = .error (.keyError "redshift") := by
  obtain ⟨z, hz⟩ := get?_of_mem_keys hr
  obtain ⟨pre, post, he⟩ := List.append_of_mem ((Dict.mem_iff_get? hnd _ _).2 hz)
  have hdet : ∃ k ∈ Dict.keys pre, isDetector k := by
    by_contra hcon
    refine h ⟨pre, z, post, he, fun k hk hn => hcon ⟨k, hk, isDetector_iff.2 hn⟩⟩
  have hkeys : data.keys = Dict.keys pre ++ "redshift" :: Dict.keys post := by
    rw [he]; simp [Dict.keys]
  -- the first detector-frame column
  obtain ⟨a, k, c, hpk, ha, hk⟩ : ∃ a k c, Dict.keys pre = a ++ k :: c ∧
      (∀ y ∈ a, ¬ isDetector y) ∧ isDetector k := by
    generalize Dict.keys pre = l at hdet
    induction l with
    | nil => simp at hdet
    | cons y l ih =>
      by_cases hy : isDetector y
      · exact ⟨[], y, l, rfl, by simp, hy⟩
      · obtain ⟨k, hk, hd⟩ := hdet
        rcases List.mem_cons.1 hk with rfl | hk
        · exact absurd hd hy
        · obtain ⟨a, k', c, h1, h2, h3⟩ := ih ⟨k, hk, hd⟩
          refine ⟨y :: a, k', c, by rw [h1]; rfl, ?_, h3⟩
          intro x hx
          rcases List.mem_cons.1 hx with rfl | hx
          · exact hy
          · exact h2 x hx
  have hsub : ∀ y ∈ a, y ∈ data.keys := by
    intro y hy; rw [hkeys, hpk]; simp [hy]
  obtain ⟨S, hS, hg⟩ := fold_copy data a hsub ha [] 1
  have hra : "redshift" ∉ a := by
    intro hmem
    rw [hkeys, hpk] at hnd
    exact (List.nodup_append.1 hnd).2.2 "redshift" (by simp [hmem]) "redshift" (by simp) rfl
  have hgr : S.get? "redshift" = none := by
    rw [hg, if_neg fun h => hra h.1]; rfl
  obtain ⟨x, hx⟩ := get?_of_mem_keys (show k ∈ data.keys by rw [hkeys, hpk]; simp)
  unfold detectorFrameToSourceFrame
  simp only [if_neg hl, if_neg (not_not.2 hr), pure_eq_ok, ok_bind]
  rw [hkeys, hpk, List.append_assoc, List.foldlM_append, hS, ok_bind, List.cons_append,
    List.foldlM_cons, convertKey, if_pos hk, get_some hx, ok_bind]
  unfold Dict.get
  rw [hgr]
  rfl

/-- **Non-vacuity of `C58_redshift_partial` and `C58_raises_partial`**: a redshift, a mass and a spin in three
orders. -/
example (c : Cosmology) (z m s : Fl) :
    (∃ S S' j,
      (fixedMixin c).detectorFrameToSourceFrame
        [("redshift", z), ("mass_1" ++ "_detector", m), ("spin", s)] [] = .ok (S, j) ∧
      (fixedMixin c).detectorFrameToSourceFrame
        [("spin", s), ("redshift", z), ("mass_1" ++ "_detector", m)] [] = .ok (S', j) ∧
      ∀ k, S'.get? k = S.get? k) ∧
    (fixedMixin c).detectorFrameToSourceFrame
        [("spin", s), ("mass_1" ++ "_detector", m), ("redshift", z)] [] =
      .error (.keyError "redshift") := by
  have hspin : ∀ n, "spin" ≠ n ++ "_detector" := fun n h =>
    absurd (h ▸ isDetector_append n) (by unfold isDetector; decide)
  constructor
  · refine C58_redshift_partial (fixedMixin c) (by simp [Dict.keys]) ?_ ?_ (by simp [Dict.contains]) ?_ ?_
    · exact (List.perm_middle (l₁ := [("redshift", z), ("mass_1" ++ "_detector", m)]) (l₂ := [])).trans
        (List.Perm.refl _)
    · intro n hn
      simp only [Dict.contains, List.map_cons, List.map_nil, List.mem_cons, List.not_mem_nil,
        or_false] at hn ⊢
      rcases hn with hn | hn | hn
      · exact absurd (hn ▸ isDetector_append n) not_isDetector_redshift
      · rw [append_detector_inj hn]; decide
      · exact absurd hn.symm (hspin n)
    · exact ⟨[], z, _, rfl, by simp [Dict.keys]⟩
    · refine ⟨[("spin", s)], z, _, rfl, ?_⟩
      intro k hk ⟨n, hn⟩
      have hk : k = "spin" := by simpa [Dict.keys] using hk
      exact hspin n (hk ▸ hn)
  · refine C58_raises_partial (fixedMixin c) (by simp [Dict.keys]) (by simp [Dict.contains])
      (by simp [Dict.contains]) ?_
    rintro ⟨pre, z', post, he, hpre⟩
    match pre, he with
    | [], he => simp at he
    | [a], he => simp at he
    | [a, b], he =>
      simp only [List.cons_append, List.nil_append, List.cons.injEq] at he
      exact hpre ("mass_1" ++ "_detector") (by simp [Dict.keys, ← he.2.1]) ⟨_, rfl⟩
    | a :: b :: d :: pre, he =>
      have := congrArg List.length he
      simp at this

end GW
