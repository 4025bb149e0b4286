import Verif.Props.Likelihood
import Verif.Props.Resampling
import Verif.Props.RatePosterior
import Verif.Model.Experimental

/-!
# C151: removing injections of weight zero
-/

noncomputable section

open Classical

namespace GW

open Fl Spec

/-! ## Specification -/

/-- The dictionary of injections made of rows, with the columns `cols`, and of further entries such as
`total_generated`. -/
def Spec.injectionTable (cols : List String) (settings : Dict Value) (rows : List (String → Fl)) : Dict Value :=
  (cols.map fun c => (c, Value.arr (rows.map fun r => r c))) ++ settings

/-- The population model evaluates every injection by itself; `d` is the density. -/
def Spec.InjectionWise (model : PopModel (Dict Value) (List Fl)) (cols : List String) (settings : Dict Value)
    (d : Dict Fl → (String → Fl) → Fl) : Prop :=
  ∀ rows φ, model.prob (injectionTable cols settings rows) φ = .ok (rows.map (d φ))

/-- The columns: there is a sampling density and the numbers are not columns. -/
def Spec.ProperColumns (cols : List String) : Prop :=
  "prior" ∈ cols ∧ "total_generated" ∉ cols ∧ "analysis_time" ∉ cols

/-- The injections removed have no weight at the parameters `φ`. -/
def Spec.DropsZeros (d : Dict Fl → (String → Fl) → Fl) (φ : Dict Fl) (keep : (String → Fl) → Bool)
    (rows : List (String → Fl)) : Prop :=
  ∀ r ∈ rows, keep r = false → d φ r / r "prior" = 0

/-- Two selection functions are the same at `φ`. -/
structure Spec.SameSelection (φ : Dict Fl) (vt vt' : ResamplingVT) : Prop where
  efficiency : vt.detectionEfficiency φ = vt'.detectionEfficiency φ
  factor : vt.vtFactor φ = vt'.vtFactor φ
  call : vt.call φ = vt'.call φ
  hypervolume : ∀ φ, vt.surveyedHypervolume φ = vt'.surveyedHypervolume φ

/-! ## Lemmas -/

namespace Dropped

theorem get?_column {cols : List String} {f : String → Value} {s : Dict Value} {k : String} (h : k ∈ cols) :
    Dict.get? ((cols.map fun c => (c, f c)) ++ s) k = some (f k) := by
  induction cols with
  | nil => cases h
  | cons c cs ih =>
    rw [List.map_cons, List.cons_append, Dict.get?_cons]
    by_cases hc : k = c
    · rw [if_pos hc, hc]
    · rw [if_neg hc]
      exact ih ((List.mem_cons.1 h).resolve_left hc)

theorem get?_setting {cols : List String} {f : String → Value} {s : Dict Value} {k : String} (h : k ∉ cols) :
    Dict.get? ((cols.map fun c => (c, f c)) ++ s) k = Dict.get? s k := by
  induction cols with
  | nil => rfl
  | cons c cs ih =>
    have hne : k ≠ c := by
      rintro rfl
      exact h List.mem_cons_self
    rw [List.map_cons, List.cons_append, Dict.get?_cons, if_neg hne]
    exact ih fun e => h (List.mem_cons_of_mem _ e)

variable {backend : Backend} {planck15 : Cosmology} {model : PopModel (Dict Value) (List Fl)}
  {cols : List String} {settings : Dict Value} {rows : List (String → Fl)} {n : Fl} {marg enf : Bool}

/-- The object made from a table. -/
def tableVT (backend : Backend) (planck15 : Cosmology) (model : PopModel (Dict Value) (List Fl)) (cols : List String)
    (settings : Dict Value) (n : Fl) (marg enf : Bool) (total time : Bool × Fl) (rows : List (String → Fl)) :
    ResamplingVT :=
  { backend := backend, model := model, data := injectionTable cols settings rows, nEvents := n,
    totalInjections := total, analysisTime := time.2, redshiftModel := lastRedshift model.models,
    marginalizeUncertainty := marg, enforceConvergence := enf,
    surveyedHypervolumeAttr := match lastRedshift model.models with
      | none => some (totalFourVolume planck15 0 time.2)
      | some _ => none }

theorem init_eq (hc : ProperColumns cols) :
    ResamplingVT.init backend planck15 model (injectionTable cols settings rows) n marg enf = (do
      let total ← getNumber settings "total_generated" (true, (rows.length : Fl))
      let time ← getNumber settings "analysis_time" (true, 1)
      return (tableVT backend planck15 model cols settings n marg enf total time rows,
        injectionTable cols settings rows)) := by
  have h1 : Dict.get (injectionTable cols settings rows) "prior" = .ok (.arr (rows.map fun r => r "prior")) := by
    unfold Dict.get injectionTable
    rw [get?_column hc.1]
  have h2 : ∀ dflt, getNumber (injectionTable cols settings rows) "total_generated" dflt =
      getNumber settings "total_generated" dflt := by
    intro dflt
    unfold getNumber injectionTable
    rw [get?_setting hc.2.1]
  have h3 : ∀ dflt, getNumber (injectionTable cols settings rows) "analysis_time" dflt =
      getNumber settings "analysis_time" dflt := by
    intro dflt
    unfold getNumber injectionTable
    rw [get?_setting hc.2.2]
  unfold ResamplingVT.init
  simp only [h1, ok_bind, Value.len, h2, h3, List.length_map]
  rfl

theorem init_vt (hc : ProperColumns cols) {vt : ResamplingVT} {data : Dict Value}
    (h : ResamplingVT.init backend planck15 model (injectionTable cols settings rows) n marg enf = .ok (vt, data)) :
    ∃ total time, getNumber settings "total_generated" (true, (rows.length : Fl)) = .ok total ∧
      getNumber settings "analysis_time" (true, 1) = .ok time ∧
      vt = tableVT backend planck15 model cols settings n marg enf total time rows := by
  rw [init_eq hc] at h
  obtain ⟨total, h1, h⟩ := bind_eq_ok.1 h
  obtain ⟨time, h2, h⟩ := bind_eq_ok.1 h
  rw [pure_eq_ok] at h
  injection h with h
  exact ⟨total, time, h1, h2, (congrArg Prod.fst h).symm⟩

theorem efficiency_eq {d : Dict Fl → (String → Fl) → Fl} (hc : ProperColumns cols)
    (hm : InjectionWise model cols settings d) {vt : ResamplingVT} (h1 : vt.model = model)
    (h2 : vt.data = injectionTable cols settings rows) (φ : Dict Fl) :
    vt.detectionEfficiency φ = (do
      let N := vt.totalInjections.2
      let mu := (rows.map fun r => d φ r / r "prior").sum / N
      let second ← pyDiv (decide (vt.backend ≠ .jax) && vt.totalInjections.1) (mu ^ 2) N
      return (mu, (rows.map fun r => (d φ r / r "prior") ^ 2).sum / N ^ 2 - second)) := by
  have h3 : Dict.get vt.data "prior" = .ok (.arr (rows.map fun r => r "prior")) := by
    rw [h2]
    unfold Dict.get injectionTable
    rw [get?_column hc.1]
  unfold ResamplingVT.detectionEfficiency
  rw [h1, h3, h2, hm]
  simp only [ok_bind, pure_eq_ok, Arr.divide, List.length_map, if_true, zipWith_map_same, toNumber, ite_self, id,
    Arr.sum, List.map_map, Function.comp_def]

theorem pyDiv_fin (py : Bool) {a b : ℝ} (hb : b ≠ 0) : pyDiv py (fin a) (fin b) = .ok (fin (a / b)) := by
  unfold pyDiv
  rw [if_neg, fin_div hb]
  rintro ⟨-, h⟩
  rw [zero_eq] at h
  exact hb h

/-- Rows of weight zero do not contribute to a sum. -/
theorem sum_filter {rows : List (String → Fl)} {keep : (String → Fl) → Bool} {w : (String → Fl) → Fl}
    (h : ∀ r ∈ rows, keep r = false → w r = 0) : ((rows.filter keep).map w).sum = (rows.map w).sum := by
  induction rows with
  | nil => rfl
  | cons r rs ih =>
    have hrs := ih fun x hx => h x (List.mem_cons_of_mem _ hx)
    cases hk : keep r with
    | true => rw [List.filter_cons_of_pos hk, List.map_cons, List.map_cons, List.sum_cons, List.sum_cons, hrs]
    | false =>
      rw [List.filter_cons_of_neg (by simp [hk]), hrs, List.map_cons, List.sum_cons,
        h r List.mem_cons_self hk, zero_add]

end Dropped

open Dropped

/-! ## The property -/

/-- **C151.** If `total_generated` is given, injections of weight zero can be removed: the reduced file is accepted, and
efficiency, variance, the value used by the likelihood and the surveyed volume are the same. For all other values,
including special values. -/
theorem C151_removed {backend : Backend} {planck15 : Cosmology} {model : PopModel (Dict Value) (List Fl)}
    {cols : List String} {settings : Dict Value} {rows : List (String → Fl)} {n : Fl} {marg enf : Bool}
    {d : Dict Fl → (String → Fl) → Fl} (hc : ProperColumns cols) (hm : InjectionWise model cols settings d)
    (ht : settings.get? "total_generated" ≠ none) {vt : ResamplingVT} {data : Dict Value}
    (h : ResamplingVT.init backend planck15 model (injectionTable cols settings rows) n marg enf = .ok (vt, data))
    (keep : (String → Fl) → Bool) :
    ∃ vt' data', ResamplingVT.init backend planck15 model (injectionTable cols settings (rows.filter keep)) n marg enf =
        .ok (vt', data') ∧
      ∀ φ, DropsZeros d φ keep rows → SameSelection φ vt vt' := by
  obtain ⟨total, time, h1, h2, rfl⟩ := init_vt hc h
  have h1' : getNumber settings "total_generated" (true, ((rows.filter keep).length : Fl)) = .ok total := by
    rw [← h1]
    unfold getNumber
    cases hg : settings.get? "total_generated" with
    | none => exact absurd hg ht
    | some v => cases v <;> rfl
  refine ⟨tableVT backend planck15 model cols settings n marg enf total time (rows.filter keep), _,
    by rw [init_eq hc, h1', h2]; rfl, fun φ hφ => ?_⟩
  have he : (tableVT backend planck15 model cols settings n marg enf total time rows).detectionEfficiency φ =
      (tableVT backend planck15 model cols settings n marg enf total time (rows.filter keep)).detectionEfficiency φ := by
    rw [efficiency_eq hc hm rfl rfl, efficiency_eq (rows := rows.filter keep) hc hm rfl rfl,
      sum_filter (w := fun r => d φ r / r "prior") hφ,
      sum_filter (w := fun r => (d φ r / r "prior") ^ 2) fun r hr hk => by
        rw [hφ r hr hk, zero_eq, fin_npow, zero_pow two_ne_zero]]
    rfl
  have hf : ∀ {a b : ResamplingVT}, a.detectionEfficiency φ = b.detectionEfficiency φ → a.backend = b.backend →
      a.nEvents = b.nEvents → a.vtFactor φ = b.vtFactor φ := by
    intro a b h1 h2 h3
    unfold ResamplingVT.vtFactor ResamplingVT.checkConvergence
    simp only [h1, h2, h3]
  refine ⟨he, hf he rfl rfl, ?_, fun _ => rfl⟩
  unfold ResamplingVT.call
  rw [he, hf he rfl rfl]
  rfl

/-- **C151, the likelihood.** Log-likelihood, variance, the value seen by samplers, the statistics and the drawn rate of
all three classes of likelihood do not change if the selection function is replaced by one that is the same at the
converted parameters. -/
theorem C151_likelihood (lik : Likelihood) {vt vt' : ResamplingVT} (hb : vt.backend = vt'.backend) {θ φ : Dict Fl}
    (hφ : lik.conversion θ = .ok φ) (h : SameSelection φ vt vt') :
    { lik with selection := vt.asSelection }.lnLikelihoodAndVariance θ =
      { lik with selection := vt'.asSelection }.lnLikelihoodAndVariance θ ∧
    { lik with selection := vt.asSelection }.logLikelihoodRatio θ =
      { lik with selection := vt'.asSelection }.logLikelihoodRatio θ ∧
    { lik with selection := vt.asSelection }.generateExtraStatistics θ =
      { lik with selection := vt'.asSelection }.generateExtraStatistics θ ∧
    ∀ g, { lik with selection := vt.asSelection }.generateRatePosteriorSample g φ =
      { lik with selection := vt'.asSelection }.generateRatePosteriorSample g φ := by
  have hcall : vt.asSelection.call φ = vt'.asSelection.call φ := by
    simp only [ResamplingVT.asSelection, h.call, hb]
  have h1 : { lik with selection := vt.asSelection }.lnLikelihoodAndVariance θ =
      { lik with selection := vt'.asSelection }.lnLikelihoodAndVariance θ := by
    unfold Likelihood.lnLikelihoodAndVariance Likelihood.lnLikelihoodAndVarianceBase Likelihood.selectionFactor
      Likelihood.selectionFactorHyper Likelihood.selectionFactorRate Likelihood.selectionWithUncertainty
      Likelihood.perEvent Likelihood.weights
    simp only [hφ, ok_bind, hcall]
  refine ⟨h1, ?_, ?_, fun g => ?_⟩
  · unfold Likelihood.logLikelihoodRatio
    simp only [h1]
  · unfold Likelihood.generateExtraStatistics Likelihood.selectionWithUncertainty Likelihood.perEvent
      Likelihood.weights
    simp only [hφ, ok_bind, hcall]
  · unfold Likelihood.generateRatePosteriorSample
    simp only [ResamplingVT.asSelection, h.efficiency, h.hypervolume]

/-- **C151, without the number of generated injections** the number of listed ones is used, so removing injections of
weight zero makes the efficiency larger by the factor by which the list becomes shorter. -/
theorem C151_total_needed {backend : Backend} {planck15 : Cosmology} {model : PopModel (Dict Value) (List Fl)}
    {cols : List String} {settings : Dict Value} {rows : List (String → Fl)} {n : Fl} {marg enf : Bool}
    {d : Dict Fl → (String → Fl) → Fl} (hc : ProperColumns cols) (hm : InjectionWise model cols settings d)
    (ht : settings.get? "total_generated" = none) {keep : (String → Fl) → Bool} {vt vt' : ResamplingVT}
    {data data' : Dict Value}
    (h : ResamplingVT.init backend planck15 model (injectionTable cols settings rows) n marg enf = .ok (vt, data))
    (h' : ResamplingVT.init backend planck15 model (injectionTable cols settings (rows.filter keep)) n marg enf =
      .ok (vt', data')) {φ : Dict Fl} (hφ : DropsZeros d φ keep rows) {u : (String → Fl) → ℝ}
    (hu : ∀ r ∈ rows, d φ r / r "prior" = fin (u r)) (hpos : 0 < (rows.map u).sum) :
    ∃ mu var mu' var' : ℝ, vt.detectionEfficiency φ = .ok (fin mu, fin var) ∧
      vt'.detectionEfficiency φ = .ok (fin mu', fin var') ∧
      mu' = mu * (rows.length / (rows.filter keep).length) ∧
      ((∃ r ∈ rows, keep r = false) → mu < mu') := by
  have value : ∀ {rs : List (String → Fl)} {v : ResamplingVT} {dat : Dict Value},
      ResamplingVT.init backend planck15 model (injectionTable cols settings rs) n marg enf = .ok (v, dat) →
      (∀ r ∈ rs, d φ r / r "prior" = fin (u r)) → rs ≠ [] →
      v.detectionEfficiency φ = .ok (fin ((rs.map u).sum / rs.length),
        fin ((rs.map fun r => u r ^ 2).sum / (rs.length : ℝ) ^ 2 -
          ((rs.map u).sum / rs.length) ^ 2 / rs.length)) := by
    intro rs v dat hi hu hne
    obtain ⟨total, time, k1, k2, rfl⟩ := init_vt hc hi
    have hl : (rs.length : ℝ) ≠ 0 := by exact_mod_cast (List.length_pos_of_ne_nil hne).ne'
    unfold getNumber at k1
    rw [ht] at k1
    injection k1 with k1
    subst k1
    have e1 : (rs.map fun r => d φ r / r "prior").sum = fin (rs.map u).sum := by
      rw [List.map_congr_left hu]
      exact sum_map_fin _ _
    have e2 : (rs.map fun r => (d φ r / r "prior") ^ 2).sum = fin (rs.map fun r => u r ^ 2).sum := by
      rw [List.map_congr_left (g := fun r => fin (u r ^ 2)) fun r hr => by rw [hu r hr, fin_npow]]
      exact sum_map_fin _ _
    rw [efficiency_eq hc hm rfl rfl]
    simp only [tableVT, e1, e2, natCast_eq, fin_div hl, fin_npow, Dropped.pyDiv_fin _ hl, ok_bind, pure_eq_ok,
      fin_div (pow_ne_zero 2 hl), fin_sub]
  have hne : rows ≠ [] := by
    rintro rfl
    simp at hpos
  have hsum : ((rows.filter keep).map u).sum = (rows.map u).sum := by
    have := sum_filter hφ
    rw [List.map_congr_left hu, List.map_congr_left fun r hr => hu r (List.mem_filter.1 hr).1] at this
    have k := (sum_map_fin _ _).symm.trans (this.trans (sum_map_fin _ _))
    injection k
  have hne' : rows.filter keep ≠ [] := by
    intro h0
    rw [h0] at hsum
    rw [← hsum] at hpos
    simp at hpos
  have hl : 0 < (rows.length : ℝ) := by exact_mod_cast List.length_pos_of_ne_nil hne
  have hl' : 0 < ((rows.filter keep).length : ℝ) := by exact_mod_cast List.length_pos_of_ne_nil hne'
  refine ⟨_, _, _, _, value h hu hne, value h' (fun r hr => hu r (List.mem_filter.1 hr).1) hne', ?_, ?_⟩
  · rw [hsum]
    field_simp
  · rintro ⟨r, hr, hk⟩
    rw [hsum]
    refine div_lt_div_of_pos_left hpos hl' ?_
    have : (rows.filter keep).length < rows.length :=
      List.length_filter_lt_length_iff_exists.2 ⟨r, hr, by simp [hk]⟩
    exact_mod_cast this

/-! ## Examples -/

namespace Dropped

/-- A model whose density is the column `x`. -/
def toyModel : PopModel (Dict Value) (List Fl) := ⟨[.other], fun data _ => do
  match ← data.get "x" with
  | .arr l => return l
  | .num _ _ => throw .typeError⟩

theorem toyModel_wise (settings : Dict Value) :
    InjectionWise toyModel ["x", "prior"] settings fun _ r => r "x" := by
  intro rows φ
  rfl

/-- Three injections, of which the second is outside of the population. -/
def toyRows : List (String → Fl) :=
  [fun _ => fin 1, fun k => if k = "x" then fin 0 else fin 3, fun k => if k = "x" then fin 1 else fin 2]

def toyKeep (r : String → Fl) : Bool := decide (r "x" ≠ 0)

theorem toyDrops (φ : Dict Fl) : DropsZeros (fun _ r => r "x") φ toyKeep toyRows := by
  intro r hr hk
  have h : r "x" = 0 := by
    unfold toyKeep at hk
    simpa using hk
  unfold toyRows at hr
  simp only [List.mem_cons, List.not_mem_nil, or_false] at hr
  rcases hr with rfl | rfl | rfl
  · rw [zero_eq] at h; injection h with h; norm_num at h
  · simp only [String.reduceEq, if_true, if_false]
    rw [fin_div (by norm_num), zero_div, zero_eq]
  · simp only [if_true] at h
    rw [zero_eq] at h; injection h with h; norm_num at h

end Dropped

/-- Non-vacuity: ten injections were generated and three found, one of which has no weight. -/
example (planck15 : Cosmology) : ∃ vt data vt' data',
    ResamplingVT.init .numpy planck15 toyModel
      (injectionTable ["x", "prior"] [("total_generated", .num true (fin 10))] toyRows) = .ok (vt, data) ∧
    ResamplingVT.init .numpy planck15 toyModel
      (injectionTable ["x", "prior"] [("total_generated", .num true (fin 10))] (toyRows.filter toyKeep)) =
        .ok (vt', data') ∧ (∀ φ, SameSelection φ vt vt') := by
  have hc : ProperColumns ["x", "prior"] := ⟨by decide, by decide, by decide⟩
  have h : ResamplingVT.init .numpy planck15 toyModel
      (injectionTable ["x", "prior"] [("total_generated", .num true (fin 10))] toyRows) = .ok (_, _) := rfl
  obtain ⟨vt', data', h1, h2⟩ := C151_removed hc (toyModel_wise _) (by simp [Dict.get?_cons]) h toyKeep
  exact ⟨_, _, vt', data', h, h1, fun φ => h2 φ (toyDrops φ)⟩

/-- Non-vacuity without `total_generated`: the efficiency is `3/2` of what it was. -/
example (planck15 : Cosmology) : ∃ vt data vt' data' mu var mu' var',
    ResamplingVT.init .numpy planck15 toyModel (injectionTable ["x", "prior"] [] toyRows) = .ok (vt, data) ∧
    ResamplingVT.init .numpy planck15 toyModel (injectionTable ["x", "prior"] [] (toyRows.filter toyKeep)) =
        .ok (vt', data') ∧
    vt.detectionEfficiency [] = .ok (fin mu, fin var) ∧ vt'.detectionEfficiency [] = .ok (fin mu', fin var') ∧
    mu < mu' := by
  have hc : ProperColumns ["x", "prior"] := ⟨by decide, by decide, by decide⟩
  have h : ResamplingVT.init .numpy planck15 toyModel (injectionTable ["x", "prior"] [] toyRows) = .ok (_, _) := rfl
  have h' : ResamplingVT.init .numpy planck15 toyModel
    (injectionTable ["x", "prior"] [] (toyRows.filter toyKeep)) = .ok (_, _) := rfl
  obtain ⟨mu, var, mu', var', k1, k2, -, k3⟩ := C151_total_needed hc (toyModel_wise _) rfl h h' (φ := []) (toyDrops _)
    (u := fun r => match r "x" / r "prior" with | fin x => x | _ => 0)
    (by
      intro r hr
      unfold toyRows at hr
      simp only [List.mem_cons, List.not_mem_nil, or_false] at hr
      rcases hr with rfl | rfl | rfl <;> simp [fin_div])
    (by simp [toyRows, fin_div]; norm_num)
  refine ⟨_, _, _, _, mu, var, mu', var', h, h', k1, k2, k3 ⟨_, List.mem_cons_of_mem _ List.mem_cons_self, ?_⟩⟩
  simp [toyKeep, zero_eq]

end GW
