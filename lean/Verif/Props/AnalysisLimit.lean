import Verif.Props.AnalysisValue

/-!
# C105: the limit of fine grids
-/

noncomputable section

open Classical Set Filter Topology MeasureTheory

namespace GW

open Fl Spec

namespace Analysis

/-! ## What the functions return -/

theorem mapM_value {α : Type} {f : α → Except PyErr Fl} {a : Shaped α} {g : List ℕ → ℝ}
    (h : ∀ i ∈ NArr.indices a.shape, f (a.elem i) = .ok (fin (g i))) :
    ∃ r, a.mapM f = .ok r ∧ r.shape = a.shape ∧ ∀ i ∈ NArr.indices a.shape, r.elem i = fin (g i) := by
  have he : a.elements.mapM f = .ok ((NArr.indices a.shape).map fun i => fin (g i)) := by
    unfold Shaped.elements
    rw [mapM_map]
    exact mapM_ok fun i hi => h i hi
  unfold Shaped.mapM
  rw [he]
  exact ⟨_, rfl, rfl, fun i hi => by simp only [h i hi]⟩

theorem returns_pointwise {b : Backend} {start : Instances} {f : ModelFn (Dict Fl) Fl} {φ θ : Dict Fl}
    (hs : f.select φ = .ok θ) {shape : List ℕ} {x : List ℕ → Source} {g : Source → ℝ}
    (h : ∀ i ∈ NArr.indices shape, f.call (x i).row θ = .ok (fin (g (x i)))) :
    Returns b start (sourceColumns shape x) φ shape (.pointwise f) fun i => g (x i) := by
  obtain ⟨r, hr, hs', he⟩ := mapM_value (a := (sourceColumns shape x).rows) (f := fun row => f.call row θ)
    (g := fun i => g (x i)) fun i hi => h i hi
  exact ⟨θ, r, hs, hr, hs', he⟩

theorem returns_smoothed {b : Backend} {start : Instances} {ref : ℕ} {names : List String} {φ θ : Dict Fl}
    (hs : bySignature names φ = .ok θ) {primary : Primary} {fixed : Dict Fl} {selfMin selfMax : ℝ} {nM nQ : ℕ}
    {cache : Bool} {s : Smoothed} (hinit : Smoothed.init primary fixed selfMin selfMax nM nQ cache = .ok s)
    (hstart : start ref = SharedSmoothed.new s) {shape : List ℕ} {x : List ℕ → Source} {pm : ℝ → ℝ → ℝ} {lo : ℝ}
    (h : ∀ data : List (ℝ × ℝ), (∀ e ∈ data, 0 < e.1 ∧ e.1 ≠ lo ∧ 0 < e.2) →
      (Smoothed.call b s (data.map fun e => (fin e.1, fin e.2)) θ).1 = .ok (data.map fun e => fin (pm e.1 e.2)))
    (hx : ∀ i ∈ NArr.indices shape, 0 < (x i).1.1.1.1 ∧ (x i).1.1.1.1 ≠ lo ∧ 0 < (x i).1.1.1.2) :
    Returns b start (sourceColumns shape x) φ shape (.smoothed ref names)
      fun i => pm (x i).1.1.1.1 (x i).1.1.1.2 := by
  set d : Shaped (Fl × Fl) := ⟨shape, fun i => (fin (x i).1.1.1.1, fin (x i).1.1.1.2)⟩ with hd
  have hm : (sourceColumns shape x).masses = .ok d := by
    simp [Columns.masses, sourceColumns, Dict.get, Dict.get?_cons, hd]
    rfl
  have hl := h ((NArr.indices shape).map fun i => ((x i).1.1.1.1, (x i).1.1.1.2)) (by
    intro e he
    obtain ⟨i, hi, rfl⟩ := List.mem_map.1 he
    exact hx i hi)
  have hf := SharedSmoothed.C104_fresh b hinit d θ
  have hel : d.elements = ((NArr.indices shape).map fun i => ((x i).1.1.1.1, (x i).1.1.1.2)).map
      fun e => (fin e.1, fin e.2) := by
    rw [List.map_map]; rfl
  rw [hel, hl] at hf
  cases hr : (SharedSmoothed.call b (SharedSmoothed.new s) d θ).1 with
  | error e => rw [hr] at hf; cases hf
  | ok r =>
    rw [hr] at hf
    have := Except.ok.inj hf
    simp only [Prod.mk.injEq] at this
    obtain ⟨h1, h2⟩ := this
    unfold Shaped.elements at h2
    rw [h1, List.map_map] at h2
    refine ⟨θ, r, hs, ?_, h1, fun i hi => List.map_inj_left.1 h2 i hi⟩
    unfold PopFn.call
    rw [hm]
    simp only
    rw [hstart]
    exact hr

/-! ## Limits -/

theorem mean_tendsto {ι : Type} {F : Filter ι} {k e : ℕ} {w : ι → List ℕ → ℝ} {w0 : List ℕ → ℝ}
    (h : ∀ j, j < k → Tendsto (fun t => w t [j, e]) F (𝓝 (w0 [j, e]))) :
    Tendsto (fun t => mean ((List.range k).map fun j => w t [j, e])) F
      (𝓝 (mean ((List.range k).map fun j => w0 [j, e]))) := by
  unfold mean
  simp only [List.length_map, List.length_range]
  exact (tendsto_list_sum (f := fun (j : ℕ) (t : ι) => w t [j, e]) (List.range k)
    fun j hj => h j (List.mem_range.1 hj)).div_const _

theorem table_tendsto {ι : Type} {F : Filter ι} {k n : ℕ} {w : ι → List ℕ → ℝ} {w0 : List ℕ → ℝ}
    (h : ∀ i ∈ NArr.indices [k, n], Tendsto (w · i) F (𝓝 (w0 i))) (hgood : GoodWeights k (eventTable k n w0)) :
    (∀ᶠ t in F, GoodWeights k (eventTable k n (w t))) ∧
    Tendsto (fun t => ((eventTable k n (w t)).map lnBayesFactor).sum) F
      (𝓝 ((eventTable k n w0).map lnBayesFactor).sum) ∧
    Tendsto (fun t => ((eventTable k n (w t)).map relativeVariance).sum) F
      (𝓝 ((eventTable k n w0).map relativeVariance).sum) := by
  have hm : ∀ e, e < n → Tendsto (fun t => mean ((List.range k).map fun j => w t [j, e])) F
      (𝓝 (mean ((List.range k).map fun j => w0 [j, e]))) :=
    fun e he => mean_tendsto fun j hj => h _ (mem_indices_two hj he)
  have hm2 : ∀ e, e < n → Tendsto (fun t => mean (((List.range k).map fun j => w t [j, e]).map (· ^ 2))) F
      (𝓝 (mean (((List.range k).map fun j => w0 [j, e]).map (· ^ 2)))) := by
    intro e he
    simp only [List.map_map]
    exact mean_tendsto (w := fun t i => w t i ^ 2) (w0 := fun i => w0 i ^ 2) fun j hj =>
      (h _ (mem_indices_two hj he)).pow 2
  have hpos : ∀ e, e < n → 0 < mean ((List.range k).map fun j => w0 [j, e]) := fun e he =>
    (hgood _ (List.mem_map.2 ⟨e, List.mem_range.2 he, rfl⟩)).2
  refine ⟨?_, ?_, ?_⟩
  · have : ∀ᶠ t in F, ∀ e ∈ Finset.range n, 0 < mean ((List.range k).map fun j => w t [j, e]) :=
      (eventually_all_finset _).2 fun e he =>
        (hm e (Finset.mem_range.1 he)).eventually (lt_mem_nhds (hpos e (Finset.mem_range.1 he)))
    filter_upwards [this] with t ht row hrow
    obtain ⟨e, he, rfl⟩ := List.mem_map.1 hrow
    exact ⟨by simp, ht e (Finset.mem_range.2 (List.mem_range.1 he))⟩
  · unfold eventTable
    simp only [List.map_map]
    refine tendsto_list_sum (f := fun (e : ℕ) (t : ι) => lnBayesFactor ((List.range k).map fun j => w t [j, e]))
      (List.range n) fun e he => ?_
    exact (hm e (List.mem_range.1 he)).log (hpos e (List.mem_range.1 he)).ne'
  · unfold eventTable
    simp only [List.map_map]
    refine tendsto_list_sum (f := fun (e : ℕ) (t : ι) => relativeVariance ((List.range k).map fun j => w t [j, e]))
      (List.range n) fun e he => ?_
    have he' := List.mem_range.1 he
    have hk : (k : ℝ) ≠ 0 := by
      intro hk
      have := hpos e he'
      rw [Nat.cast_eq_zero] at hk
      subst hk
      simp [mean] at this
    simp only [Function.comp, relativeVariance, List.length_map, List.length_range]
    exact ((hm2 e he').sub ((hm e he').pow 2)).div (((hm e he').pow 2).const_mul _)
      (mul_ne_zero hk (pow_ne_zero 2 (hpos e he').ne'))

theorem efficiency_tendsto {ι : Type} {F : Filter ι} {I : ℕ} {T : ℝ} {w : ι → List ℕ → ℝ} {w0 : List ℕ → ℝ}
    (h : ∀ i ∈ NArr.indices [I], Tendsto (w · i) F (𝓝 (w0 i))) :
    Tendsto (fun t => detectionEstimate I T (w t)) F (𝓝 (detectionEstimate I T w0)) ∧
    Tendsto (fun t => detectionVariance I T (w t)) F (𝓝 (detectionVariance I T w0)) := by
  have h1 : Tendsto (fun t => (injectionList I (w t)).sum) F (𝓝 (injectionList I w0).sum) :=
    tendsto_list_sum (f := fun (j : ℕ) (t : ι) => w t [j]) (List.range I) fun j hj =>
      h _ (mem_indices_one (List.mem_range.1 hj))
  have h2 : Tendsto (fun t => ((injectionList I (w t)).map (· ^ 2)).sum) F
      (𝓝 ((injectionList I w0).map (· ^ 2)).sum) := by
    unfold injectionList
    simp only [List.map_map]
    exact tendsto_list_sum (f := fun (j : ℕ) (t : ι) => w t [j] ^ 2) (List.range I) fun j hj =>
      (h _ (mem_indices_one (List.mem_range.1 hj))).pow 2
  exact ⟨h1.div_const _, (h2.div_const _).sub (((h1.div_const _).pow 2).div_const _)⟩

end Analysis

/-! ## Any smoothed mass distribution together with functions evaluated sample by sample -/

/-- The analysis in which posterior samples and injections have instances of their own (references 0 and 1) with the
same settings, and share the other functions. -/
def Spec.twoInstances (L : Likelihood) (V : ResamplingVT) (k n I : ℕ) (x y : List ℕ → Source) (cache : Bool)
    (names : List String) (rest : List (ModelFn (Dict Fl) Fl)) (s : Smoothed) : Analysis where
  likelihood := L
  vt := V
  events := sourceColumns [k, n] x
  injections := sourceColumns [I] y
  numerator := .new (.smoothed 0 names :: rest.map .pointwise) cache
  denominator := .new (.smoothed 1 names :: rest.map .pointwise) cache
  instances := fun _ => .new s

/-- A sample at which the mass model is defined. -/
def Spec.GoodMass (lo : ℝ) (x : Source) : Prop := 0 < x.1.1.1.1 ∧ x.1.1.1.1 ≠ lo ∧ 0 < x.1.1.1.2

namespace Analysis

theorem twoInstances_new (L : Likelihood) (V : ResamplingVT) (k n I : ℕ) (x y : List ℕ → Source) (cache : Bool)
    (names : List String) (rest : List (ModelFn (Dict Fl) Fl)) (s : Smoothed) (b : Backend) :
    NewAnalysis (twoInstances L V k n I x y cache names rest s) ∧
    InstancesApart b (twoInstances L V k n I x y cache names rest s) := by
  refine ⟨⟨fun _ => rfl, fun _ => rfl, fun _ => rfl⟩, ?_⟩
  have key : ∀ r ref, (∃ f ∈ PopFn.smoothed ref names :: rest.map PopFn.pointwise, f.IsInstance r) → r = ref := by
    rintro r ref ⟨f, hf, ns, rfl⟩
    rcases List.mem_cons.1 hf with h | h
    · cases h; rfl
    · obtain ⟨g, -, hg⟩ := List.mem_map.1 h
      cases hg
  intro r h1 h2
  have e1 := key r 0 h1
  have e2 := key r 1 h2
  rw [e1] at e2
  cases e2

/-- **C105, limit.** Let the mass model tend to the density `g` as its grids are refined (C85), and let the other
functions return the densities `hs` at the samples. Then, after any history of evaluations, the log-likelihood and its
variance tend to the documented ones for the population density `g` times the product of `hs`. -/
theorem C105_limit (b : Backend) {same : Dict Fl → Dict Fl → Prop} (hsame : ∀ θ θ', same θ θ' → θ = θ')
    {L : Likelihood} {V : ResamplingVT} {k n I : ℕ} {π q : List ℕ → ℝ} {T : ℝ} (hset : Setup L V k n I π q T)
    {θ φ : Dict Fl} (hconv : L.conversion θ = .ok φ) {x y : List ℕ → Source} (cache : Bool) {names : List String}
    {kw : Dict Fl} (hkw : bySignature names φ = .ok kw) {primary : Primary} {fixed : Dict Fl} {selfMin selfMax : ℝ}
    {cacheM : Bool} {lo : ℝ} {g : ℝ → ℝ → ℝ}
    (hg : TendsToDensity b (fun nM nQ => Smoothed.init primary fixed selfMin selfMax nM nQ cacheM) kw lo g)
    {fs : List (ModelFn (Dict Fl) Fl)} {hs : List (Source → ℝ)}
    (hrest : List.Forall₂ (fun (f : ModelFn (Dict Fl) Fl) h => ∃ t, f.select φ = .ok t ∧
      (∀ i ∈ NArr.indices [k, n], f.call (x i).row t = .ok (fin (h (x i)))) ∧
      ∀ i ∈ NArr.indices [I], f.call (y i).row t = .ok (fin (h (y i)))) fs hs)
    (hx : ∀ i ∈ NArr.indices [k, n], GoodMass lo (x i)) (hy : ∀ i ∈ NArr.indices [I], GoodMass lo (y i))
    {dens : Source → ℝ} (hdens : ∀ z, dens z = g z.1.1.1.1 z.1.1.1.2 * (hs.map (· z)).prod)
    (hgood : GoodWeights k (eventTable k n fun i => dens (x i) / π i))
    (hdet : 0 < detectionEstimate I T fun i => dens (y i) / q i)
    (hc : PassesCheck V (detectionEstimate I T fun i => dens (y i) / q i) (detectionVariance I T fun i => dens (y i) / q i)) :
    ∃ l v : ℕ × ℕ → ℝ,
      (∀ᶠ N in atTop, ∃ s, Smoothed.init primary fixed selfMin selfMax N.1 N.2 cacheM = .ok s ∧
        ∀ hist : List (Dict Fl),
          (((twoInstances L V k n I x y cache names fs s).run b same hist).evaluate b same θ).1 =
            .ok (fin (l N), fin (v N))) ∧
      Tendsto l atTop (𝓝 (lnLikelihood (eventTable k n fun i => dens (x i) / π i)
        (detectionEstimate I T fun i => dens (y i) / q i))) ∧
      Tendsto v atTop (𝓝 (lnLikelihoodVariance (eventTable k n fun i => dens (x i) / π i)
        (detectionEstimate I T fun i => dens (y i) / q i) (detectionVariance I T fun i => dens (y i) / q i))) := by
  obtain ⟨pm, hpm, hlim⟩ := hg
  -- the weights at finite grids
  set wx : ℕ × ℕ → List ℕ → ℝ := fun N i =>
    pm N (x i).1.1.1.1 (x i).1.1.1.2 * (hs.map (· (x i))).prod / π i with hwx
  set wy : ℕ × ℕ → List ℕ → ℝ := fun N i =>
    pm N (y i).1.1.1.1 (y i).1.1.1.2 * (hs.map (· (y i))).prod / q i with hwy
  have lx : ∀ i ∈ NArr.indices [k, n], Tendsto (wx · i) atTop (𝓝 (dens (x i) / π i)) := by
    intro i hi
    obtain ⟨h1, h2, h3⟩ := hx i hi
    rw [hdens]
    exact ((hlim _ _ h1 h2 h3).mul_const _).div_const _
  have ly : ∀ i ∈ NArr.indices [I], Tendsto (wy · i) atTop (𝓝 (dens (y i) / q i)) := by
    intro i hi
    obtain ⟨h1, h2, h3⟩ := hy i hi
    rw [hdens]
    exact ((hlim _ _ h1 h2 h3).mul_const _).div_const _
  obtain ⟨t1, t2, t3⟩ := table_tendsto (w0 := fun i => dens (x i) / π i) lx hgood
  obtain ⟨u1, u2⟩ := efficiency_tendsto (T := T) (w0 := fun i => dens (y i) / q i) ly
  have upos : ∀ᶠ N in atTop, 0 < detectionEstimate I T (wy N) := u1.eventually (lt_mem_nhds hdet)
  have ucheck : ∀ᶠ N in atTop, PassesCheck V (detectionEstimate I T (wy N)) (detectionVariance I T (wy N)) := by
    rcases hc with hc | ⟨m, hm, hlt⟩
    · exact Eventually.of_forall fun N => Or.inl hc
    · filter_upwards [(u2.const_mul (4 * m)).eventually_lt (u1.pow 2) hlt] with N hN
      exact Or.inr ⟨m, hm, hN⟩
  refine ⟨fun N => lnLikelihood (eventTable k n (wx N)) (detectionEstimate I T (wy N)),
    fun N => lnLikelihoodVariance (eventTable k n (wx N)) (detectionEstimate I T (wy N)) (detectionVariance I T (wy N)),
    ?_, ?_, ?_⟩
  · filter_upwards [hpm, t1, upos, ucheck] with N hN hgN hpN hcN
    obtain ⟨s, hs', hcall⟩ := hN
    refine ⟨s, hs', fun hist => ?_⟩
    obtain ⟨hnew, hap⟩ := twoInstances_new L V k n I x y cache names fs s b
    have hrx : List.Forall₂ (Returns b (fun _ => .new s) (sourceColumns [k, n] x) φ [k, n])
        (.smoothed 0 names :: fs.map .pointwise)
        ((fun i => pm N (x i).1.1.1.1 (x i).1.1.1.2) :: hs.map fun h i => h (x i)) := by
      refine List.Forall₂.cons (returns_smoothed hkw hs' rfl hcall hx) ?_
      rw [List.forall₂_map_left_iff, List.forall₂_map_right_iff]
      refine hrest.imp fun f h hf => ?_
      obtain ⟨t, ht, h1, -⟩ := hf
      exact returns_pointwise ht h1
    have hry : List.Forall₂ (Returns b (fun _ => .new s) (sourceColumns [I] y) φ [I])
        (.smoothed 1 names :: fs.map .pointwise)
        ((fun i => pm N (y i).1.1.1.1 (y i).1.1.1.2) :: hs.map fun h i => h (y i)) := by
      refine List.Forall₂.cons (returns_smoothed hkw hs' rfl hcall hy) ?_
      rw [List.forall₂_map_left_iff, List.forall₂_map_right_iff]
      refine hrest.imp fun f h hf => ?_
      obtain ⟨t, ht, -, h1⟩ := hf
      exact returns_pointwise ht h1
    have ex : (fun i => (((fun i => pm N (x i).1.1.1.1 (x i).1.1.1.2) :: hs.map fun h i => h (x i)).map
        (· i)).prod / π i) = wx N := by
      funext i
      simp [hwx, List.map_map, Function.comp_def]
    have ey : (fun i => (((fun i => pm N (y i).1.1.1.1 (y i).1.1.1.2) :: hs.map fun h i => h (y i)).map
        (· i)).prod / q i) = wy N := by
      funext i
      simp [hwy, List.map_map, Function.comp_def]
    have := C105_value b hsame hnew hap (a := twoInstances L V k n I x y cache names fs s) hset (θ := θ) (φ := φ) hconv
      (by simp [twoInstances, PopObject.new]) (by simp [twoInstances, PopObject.new]) hrx hry
      (by rw [ex]; exact hgN) (by rw [ey]; exact hpN) (by rw [ey]; exact hcN) hist
    rw [ex, ey] at this
    exact this
  · unfold lnLikelihood
    have hlen : ∀ w : List ℕ → ℝ, (eventTable k n w).length = n := fun w => by simp [eventTable]
    simp only [hlen]
    exact t2.sub ((u1.log hdet.ne').const_mul _)
  · unfold lnLikelihoodVariance
    have hlen : ∀ w : List ℕ → ℝ, (eventTable k n w).length = n := fun w => by simp [eventTable]
    simp only [hlen]
    exact t3.add ((u2.div (u1.pow 2) (pow_ne_zero 2 hdet.ne')).const_mul _)

/-- Non-vacuity of the history theorem: an analysis with two smoothed instances, whatever the sizes of the datasets. -/
example (b : Backend) (L : Likelihood) (V : ResamplingVT) (k n I : ℕ) (x y : List ℕ → Source)
    (names : List String) (rest : List (ModelFn (Dict Fl) Fl)) (s : Smoothed) (hist : List (Dict Fl)) (θ : Dict Fl) :
    (((twoInstances L V k n I x y true names rest s).run b (· = ·) hist).evaluate b (· = ·) θ).1 =
      ((twoInstances L V k n I x y true names rest s).evaluate b (· = ·) θ).1 :=
  C105_history b (fun _ _ h => h) (twoInstances_new L V k n I x y true names rest s b).1
    (twoInstances_new L V k n I x y true names rest s b).2 hist θ

end Analysis

end GW
