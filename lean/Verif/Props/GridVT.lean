import Verif.Model.VT
import Verif.Lemmas.Trapz
import Verif.Props.SmoothedCore
import Verif.Props.Backend
import Mathlib.Data.List.GetD

/-!
# Properties of `GridVT`: C38, C39
-/

noncomputable section

open Classical

namespace GW

open Fl Spec

/-- A multi-index lies inside a shape. -/
def Spec.Inside (idx shape : List ℕ) : Prop := List.Forall₂ (· < ·) idx shape

/-- The iterated trapezoid rule for the function `f` of the multi-index, over a product grid; the
first axis is the outermost. -/
def Spec.gridIntegral : List (List ℝ) → (List ℕ → ℝ) → ℝ
  | [], f => f []
  | x :: xs, f => trapezoidRule (x.length - 1)
      (fun i => gridIntegral xs fun idx => f (i :: idx)) (fun i => x.getD i 0)

/-- The data given to a `GridVT` are on a product grid: axis `i` of all arrays belongs to the
parameter `grid[i].1` and has the coordinates `grid[i].2`, which are strictly increasing. The dictionary
may list the parameters and `vt` in any order. -/
structure Spec.ProductGrid (grid : List (String × List ℝ)) (data : Dict ND) : Prop where
  /-- at least one parameter -/
  nonempty : grid ≠ []
  /-- `vt` is not the name of a parameter and names are distinct; these are all entries -/
  keys : data.keys.Perm ("vt" :: grid.map Prod.fst)
  nodup : data.keys.Nodup
  /-- increasing coordinates, at least one on each axis -/
  increasing : ∀ g ∈ grid, g.2.Pairwise (· < ·)
  pos : ∀ g ∈ grid, g.2 ≠ []
  /-- the coordinate arrays -/
  coords : ∀ (i : ℕ) (h : i < grid.length), ∃ a, data.get? grid[i].1 = some a ∧
    a.shape = grid.map (·.2.length) ∧
    ∀ idx, Inside idx (grid.map (·.2.length)) → a.at_ idx = fin (grid[i].2.getD (idx.getD i 0) 0)

/-! ## `numpy.unique` on a coordinate array -/

theorem ND.mem_indices {idx shape : List ℕ} : idx ∈ ND.indices shape ↔ Inside idx shape := by
  unfold Inside
  induction shape generalizing idx with
  | nil => simp [ND.indices, List.forall₂_nil_right_iff]
  | cons n s ih =>
    simp only [ND.indices, List.mem_flatMap, List.mem_range, List.mem_map, ih,
      List.forall₂_cons_right_iff]
    constructor
    · rintro ⟨i, hi, t, ht, rfl⟩
      exact ⟨i, t, hi, ht, rfl⟩
    · rintro ⟨i, t, hi, ht, rfl⟩
      exact ⟨i, hi, t, ht, rfl⟩

theorem ND.sortLe_total (x y : Fl) : ND.sortLe x y ∨ ND.sortLe y x := by
  unfold ND.sortLe
  cases x <;> cases y <;> simp
  exact le_total _ _

theorem ND.sortLe_trans {x y z : Fl} (h1 : ND.sortLe x y) (h2 : ND.sortLe y z) : ND.sortLe x z := by
  unfold ND.sortLe at *
  cases x <;> cases y <;> cases z <;> simp_all
  exact h1.trans h2

theorem ND.sortLe_antisymm {x y : Fl} (h1 : ND.sortLe x y) (h2 : ND.sortLe y x) : x = y := by
  unfold ND.sortLe at *
  cases x <;> cases y <;> simp_all
  exact le_antisymm h1 h2

/-- If the elements of an array are exactly the members of an increasing list, `unique` returns
that list. -/
theorem ND.unique_eq {a : ND} {x : List ℝ} (hx : x.Pairwise (· < ·))
    (h : ∀ y, y ∈ a.flatten ↔ y ∈ x.map fin) : a.unique = x.map fin := by
  have hnd : (x.map fin).Nodup :=
    List.Nodup.map (fun _ _ h => fin_inj.1 h) (hx.imp fun h => h.ne)
  unfold ND.unique
  refine List.Perm.eq_of_pairwise (le := fun x y => decide (ND.sortLe x y) = true)
    (fun a b _ _ h1 h2 => ND.sortLe_antisymm (of_decide_eq_true h1) (of_decide_eq_true h2)) ?_ ?_ ?_
  · refine List.pairwise_mergeSort ?_ ?_ _
    · intro a b c h1 h2
      exact decide_eq_true (ND.sortLe_trans (of_decide_eq_true h1) (of_decide_eq_true h2))
    · intro a b
      rcases ND.sortLe_total a b with h | h <;> simp [h]
  · rw [List.pairwise_map]
    refine hx.imp fun {a b} hab => decide_eq_true ?_
    exact Or.inl (fin_le.2 hab.le)
  · refine (List.mergeSort_perm _ _).trans ?_
    rw [List.perm_ext_iff_of_nodup (List.nodup_dedup _) hnd]
    intro y
    rw [List.mem_dedup, h]

theorem inside_zeros {shape : List ℕ} (h : ∀ n ∈ shape, 0 < n) :
    Inside (List.replicate shape.length 0) shape := by
  unfold Inside
  induction shape with
  | nil => simp
  | cons n s ih =>
    simp only [List.length_cons, List.replicate_succ, List.forall₂_cons]
    exact ⟨h n (by simp), ih fun m hm => h m (by simp [hm])⟩

theorem inside_set {shape idx : List ℕ} (h : Inside idx shape) {i j : ℕ} (hi : i < shape.length)
    (hj : j < shape[i]) : Inside (idx.set i j) shape := by
  unfold Inside at *
  induction h generalizing i with
  | nil => simp at hi
  | cons h1 h2 ih =>
    cases i with
    | zero => simpa using ⟨hj, h2⟩
    | succ i =>
      simp only [List.set_cons_succ, List.forall₂_cons]
      exact ⟨h1, ih (by simpa using hi) (by simpa using hj)⟩

theorem inside_getD {shape idx : List ℕ} (h : Inside idx shape) {i : ℕ} (hi : i < shape.length) :
    idx.getD i 0 < shape[i] := by
  unfold Inside at h
  induction h generalizing i with
  | nil => simp at hi
  | cons h1 h2 ih =>
    cases i with
    | zero => simpa using h1
    | succ i => simpa using ih (by simpa using hi)

/-- `unique` of the coordinate array of axis `i` is the list of coordinates. -/
theorem ND.unique_coords {grid : List (String × List ℝ)} (pos : ∀ g ∈ grid, g.2 ≠ []) {i : ℕ}
    (hi : i < grid.length) (hinc : grid[i].2.Pairwise (· < ·)) {a : ND}
    (hs : a.shape = grid.map (·.2.length))
    (ha : ∀ idx, Inside idx (grid.map (·.2.length)) →
      a.at_ idx = fin (grid[i].2.getD (idx.getD i 0) 0)) :
    a.unique = grid[i].2.map fin := by
  refine ND.unique_eq hinc fun y => ?_
  unfold ND.flatten
  rw [hs]
  have hi' : i < (grid.map (·.2.length)).length := by simpa using hi
  have hgi : (grid.map (·.2.length))[i] = grid[i].2.length := by simp
  constructor
  · intro hy
    obtain ⟨idx, hidx, rfl⟩ := List.mem_map.1 hy
    have hin := ND.mem_indices.1 hidx
    rw [ha idx hin]
    have hlt := inside_getD hin hi'
    rw [hgi] at hlt
    rw [List.getD_eq_getElem (l := grid[i].2) (d := (0 : ℝ)) hlt]
    exact List.mem_map_of_mem (List.getElem_mem _)
  · intro hy
    obtain ⟨r, hr, rfl⟩ := List.mem_map.1 hy
    obtain ⟨j, hj, rfl⟩ := List.mem_iff_getElem.1 hr
    have h0 : Inside (List.replicate (grid.map (·.2.length)).length 0) (grid.map (·.2.length)) := by
      refine inside_zeros ?_
      intro n hn
      obtain ⟨g, hg, rfl⟩ := List.mem_map.1 hn
      exact List.length_pos_iff.2 (pos g hg)
    have hin := inside_set h0 hi' (j := j) (by rw [hgi]; exact hj)
    refine List.mem_map.2 ⟨_, ND.mem_indices.2 hin, ?_⟩
    rw [ha _ hin]
    have : ((List.replicate (grid.map (·.2.length)).length 0).set i j).getD i 0 = j := by
      simp [hi]
    rw [this, List.getD_eq_getElem (l := grid[i].2) (d := (0 : ℝ)) hj]

/-! ## The constructor -/

theorem axesSet_of_notMem {l : List (ℕ × String)} {a : ℕ} {k : String} (h : a ∉ l.map Prod.fst) :
    axesSet l a k = l ++ [(a, k)] := by
  induction l with
  | nil => rfl
  | cons p l ih =>
    obtain ⟨a', k'⟩ := p
    simp only [List.map_cons, List.mem_cons, not_or] at h
    rw [axesSet, if_neg (fun h' => h.1 h'.symm), ih h.2]
    rfl

/-- A loop that always succeeds is a plain loop. -/
theorem foldlM_ok {α β : Type} {f : β → α → Except PyErr β} {g : β → α → β} {l : List α}
    (h : ∀ b, ∀ a ∈ l, f b a = .ok (g b a)) (b : β) : l.foldlM f b = .ok (l.foldl g b) := by
  induction l generalizing b with
  | nil => rfl
  | cons a l ih =>
    rw [List.foldlM_cons, h b a (by simp), ok_bind, List.foldl_cons, ih fun b a ha => h b a (by simp [ha])]

theorem foldl_axesSet {α : Type} (l : List α) (f : α → ℕ) (k : α → String) (acc : List (ℕ × String))
    (h : (acc.map Prod.fst ++ l.map f).Nodup) :
    l.foldl (fun axes p => axesSet axes (f p) (k p)) acc = acc ++ l.map fun p => (f p, k p) := by
  induction l generalizing acc with
  | nil => simp
  | cons p l ih =>
    rw [List.foldl_cons, axesSet_of_notMem, ih]
    · simp
    · simpa using h
    · intro hmem
      rw [List.map_cons, List.nodup_append] at h
      exact h.2.2 _ hmem _ (by simp) rfl

theorem lookup_of_mem {l : List (ℕ × String)} (h : (l.map Prod.fst).Nodup) {a : ℕ} {k : String}
    (hm : (a, k) ∈ l) : l.lookup a = some k := by
  induction l with
  | nil => simp at hm
  | cons p l ih =>
    obtain ⟨a', k'⟩ := p
    rw [List.map_cons, List.nodup_cons] at h
    rw [List.lookup_cons]
    rcases List.mem_cons.1 hm with he | hm'
    · rw [Prod.mk.injEq] at he
      simp [he.1, he.2]
    · have hne : a ≠ a' := fun he => h.1 (he ▸ List.mem_map_of_mem (f := Prod.fst) hm' : a' ∈ l.map Prod.fst)
      have hb : (a == a') = false := by simpa using hne
      rw [hb]
      exact ih h.2 hm'

/-- What `__init__` computes on a product grid with axes of different lengths. -/
theorem grid_init {grid : List (String × List ℝ)} {data : Dict ND} (hg : ProductGrid grid data)
    (hlen : (grid.map (·.2.length)).Nodup) (model : PopModel (Dict ND) ND) {vts : ND}
    (hvt : data.get? "vt" = some vts) :
    ∃ self, GridVT.init model data = .ok (self, data.erase "vt") ∧ self.model = model ∧
      self.vts = vts ∧ self.data = data.erase "vt" ∧ self.ndim = grid.length ∧
      ∀ (i : ℕ) (h : i < grid.length), self.axes.lookup i = some grid[i].1 ∧
        self.values.get? grid[i].1 = some (grid[i].2.map fin) := by
  have hkeys : ("vt" :: grid.map Prod.fst).Nodup := hg.keys.nodup_iff.1 hg.nodup
  have hvtn : "vt" ∉ grid.map Prod.fst := (List.nodup_cons.1 hkeys).1
  have hgn : (grid.map Prod.fst).Nodup := (List.nodup_cons.1 hkeys).2
  -- the remaining entries
  have hek : (data.erase "vt").keys.Perm (grid.map Prod.fst) := by
    rw [Dict.keys_erase]
    have h1 := hg.keys.filter (fun k => decide (k ≠ "vt"))
    refine h1.trans ?_
    rw [List.filter_cons_of_neg (by simp), List.filter_eq_self.2]
    intro k hk
    simp only [decide_eq_true_eq]
    rintro rfl
    exact hvtn hk
  have hend : (data.erase "vt").keys.Nodup := hek.nodup_iff.2 hgn
  -- an entry of the remaining dictionary is the coordinate array of its axis
  have hentry : ∀ p ∈ data.erase "vt", ∃ (i : ℕ) (h : i < grid.length), p.1 = grid[i].1 ∧
      p.2.unique = grid[i].2.map fin ∧ p.2.shape = grid.map (·.2.length) := by
    intro p hp
    have hk : p.1 ∈ grid.map Prod.fst := hek.mem_iff.1 (List.mem_map_of_mem (f := Prod.fst) hp)
    obtain ⟨g, hgm, hge⟩ := List.mem_map.1 hk
    obtain ⟨i, hi, rfl⟩ := List.mem_iff_getElem.1 hgm
    obtain ⟨a, ha, hs, hat⟩ := hg.coords i hi
    have hne : p.1 ≠ "vt" := fun h => hvtn (h ▸ hk)
    have hp' : (data.erase "vt").get? p.1 = some p.2 := (Dict.mem_iff_get? hend _ _).1 hp
    rw [Dict.get?_erase, if_neg hne, ← hge, ha] at hp'
    have : p.2 = a := (Option.some.inj hp').symm
    exact ⟨i, hi, hge.symm, by
      rw [this]; exact ND.unique_coords hg.pos hi (hg.increasing _ (List.getElem_mem _)) hs hat,
      by rw [this, hs]⟩
  choose! ax hax using fun p : String × ND => fun hp : p ∈ data.erase "vt" => hentry p hp
  have haxlt : ∀ p ∈ data.erase "vt", ax p < grid.length := fun p hp => (hax p hp).1
  have haxk : ∀ p (hp : p ∈ data.erase "vt"), p.1 = (grid[ax p]'(haxlt p hp)).1 := fun p hp =>
    (hax p hp).2.1
  have haxu : ∀ p (hp : p ∈ data.erase "vt"), p.2.unique = (grid[ax p]'(haxlt p hp)).2.map fin :=
    fun p hp => (hax p hp).2.2.1
  -- the axes are different
  have haxn : ((data.erase "vt").map ax).Nodup := by
    have hnd : (data.erase "vt").Nodup := hend.of_map
    refine List.Nodup.map_on ?_ hnd
    intro p hp q hq h
    refine List.inj_on_of_nodup_map hend hp hq ?_
    rw [haxk p hp, haxk q hq]
    simp only [h]
  -- the first axis with the length of the coordinates is the right one
  have hfirst : ∀ p (hp : p ∈ data.erase "vt"),
      GridVT.firstAxis (grid.map (·.2.length)) p.2.unique.length = .ok (ax p) := by
    intro p hp
    unfold GridVT.firstAxis
    have hlt : ax p < (grid.map (·.2.length)).length := by simpa using haxlt p hp
    have he : p.2.unique.length = (grid.map (·.2.length))[ax p] := by
      rw [haxu p hp]; simp
    rw [he, if_pos (List.getElem_mem _), hlen.idxOf_getElem]
  have hne : data.erase "vt" ≠ [] := by
    intro h
    rw [h] at hek
    have := hek.length_eq
    simp [Dict.keys] at this
    exact hg.nonempty (List.length_eq_zero_iff.1 this.symm)
  have hndim : (data.erase "vt").length = grid.length := by
    simpa [Dict.keys] using hek.length_eq
  generalize hL : data.erase "vt" = L at *
  have hfold : GridVT.findAxes (grid.map (·.2.length)) (L.map fun p => (p.1, p.2.unique)) [] =
      .ok (L.map fun p => (ax p, p.1)) := by
    unfold GridVT.findAxes
    rw [List.foldlM_map, foldlM_ok (g := fun axes p => axesSet axes (ax p) p.1),
      foldl_axesSet L ax Prod.fst [] (by simpa using haxn), List.nil_append]
    intro b p hp
    rw [hfirst p hp]
    rfl
  cases hLc : L with
  | nil => exact absurd hLc hne
  | cons p0 L' =>
    have hp0 : p0 ∈ L := by rw [hLc]; simp
    have hshape : p0.2.shape = grid.map (·.2.length) := (hax p0 hp0).2.2.2
    refine ⟨⟨vts, model, L, L.map fun p => (p.1, p.2.unique), L.map fun p => (ax p, p.1), L.length⟩,
      ?_, rfl, rfl, hLc, hndim, ?_⟩
    · have hfs : GridVT.firstShape L = .ok (grid.map (·.2.length)) := by
        rw [hLc]
        exact congrArg Except.ok hshape
      unfold GridVT.init
      simp only [Dict.get, hvt, ok_bind, hL, hfs, hfold, pure_eq_ok, List.length_map, ← hLc]
    · intro i hi
      have hk : grid[i].1 ∈ L.map Prod.fst :=
        hek.mem_iff.2 (List.mem_map_of_mem (f := Prod.fst) (List.getElem_mem _))
      obtain ⟨p, hp, hpe⟩ := List.mem_map.1 hk
      have haxi : ax p = i := by
        have h1 := haxk p hp
        rw [hpe] at h1
        have h2 := (List.nodup_iff_injective_getElem.1 hgn) (a₁ := ⟨ax p, by simpa using haxlt p hp⟩)
          (a₂ := ⟨i, by simpa using hi⟩) (by simpa using h1.symm)
        exact congrArg Fin.val h2
      constructor
      · refine lookup_of_mem (by simpa [Function.comp_def] using haxn) (List.mem_map.2 ⟨p, hp, ?_⟩)
        rw [haxi, hpe]
      · refine (Dict.mem_iff_get? (by simpa [Dict.keys, Function.comp_def] using hend) _ _).1
          (List.mem_map.2 ⟨p, hp, ?_⟩)
        rw [hpe, haxu p hp]
        simp only [haxi]

/-! ## The loop of trapezoid rules -/

theorem gridIntegral_concat (xs : List (List ℝ)) (x : List ℝ) (f : List ℕ → ℝ) :
    gridIntegral (xs ++ [x]) f = gridIntegral xs fun idx =>
      trapezoidRule (x.length - 1) (fun j => f (idx ++ [j])) (fun j => x.getD j 0) := by
  induction xs generalizing f with
  | nil => rfl
  | cons y xs ih =>
    rw [List.cons_append]
    unfold gridIntegral
    simp only [ih, List.cons_append]

theorem inside_concat {idx shape : List ℕ} {j n : ℕ} (h : Inside idx shape) (hj : j < n) :
    Inside (idx ++ [j]) (shape ++ [n]) := by
  unfold Inside at *
  exact List.rel_append h (List.Forall₂.cons hj List.Forall₂.nil)

/-- Integrating out the last axis. -/
theorem trapzLast_eq {xs : List (List ℝ)} {x : List ℝ} {v : ND} {F : List ℕ → ℝ}
    (hs : v.shape = (xs ++ [x]).map List.length)
    (hv : ∀ idx, Inside idx ((xs ++ [x]).map List.length) → v.at_ idx = fin (F idx)) :
    ∃ w, v.trapzLast (x.map fin) = .ok w ∧ w.shape = xs.map List.length ∧
      ∀ idx, Inside idx (xs.map List.length) → w.at_ idx =
        fin (trapezoidRule (x.length - 1) (fun j => F (idx ++ [j])) (fun j => x.getD j 0)) := by
  unfold ND.trapzLast
  rw [hs, List.map_append, List.map_cons, List.map_nil, List.getLast?_concat]
  simp only [List.length_map, if_true, List.dropLast_concat]
  refine ⟨_, rfl, rfl, fun idx hidx => ?_⟩
  have h1 : ((List.range x.length).map fun j => v.at_ (idx ++ [j])) =
      ((List.range x.length).map fun j => F (idx ++ [j])).map fin := by
    rw [List.map_map]
    refine List.map_congr_left fun j hj => ?_
    rw [hv _ (by
      rw [List.map_append]
      exact inside_concat hidx (List.mem_range.1 hj))]
    rfl
  simp only
  rw [h1, Arr.trapz_fin, Arr.trapzR_eq_rule _ _ (by simp)]
  simp only [List.length_map, List.length_range]
  unfold trapezoidRule
  congr 1
  refine Finset.sum_congr rfl fun i hi => ?_
  rw [Finset.mem_range] at hi
  have hget : ∀ j, j < x.length →
      ((List.range x.length).map fun j => F (idx ++ [j])).getD j 0 = F (idx ++ [j]) := by
    intro j hj
    rw [List.getD_eq_getElem (l := (List.range x.length).map fun j => F (idx ++ [j])) (d := (0 : ℝ))
      (by simpa using hj)]
    simp
  simp only [hget i (by omega), hget (i + 1) (by omega)]

/-- The loop of the call over the first `m` axes. -/
theorem grid_loop {self : GridVT} {grid : List (String × List ℝ)} 
    (hn : self.ndim = grid.length)
    (hax : ∀ (i : ℕ) (h : i < grid.length), self.axes.lookup i = some grid[i].1 ∧
        self.values.get? grid[i].1 = some (grid[i].2.map fin)) (m : ℕ) (hm : m ≤ grid.length)
    (v : ND) (F : List ℕ → ℝ) (hs : v.shape = ((grid.take m).map Prod.snd).map List.length)
    (hv : ∀ idx, Inside idx (((grid.take m).map Prod.snd).map List.length) →
      v.at_ idx = fin (F idx)) :
    ∃ r, (List.range' (grid.length - m) m).foldlM (fun v ii => self.step v ii) v = .ok r ∧
      r.shape = [] ∧ r.at_ [] = fin (gridIntegral ((grid.take m).map Prod.snd) F) := by
  induction m generalizing v F with
  | zero =>
    refine ⟨v, rfl, by simpa using hs, ?_⟩
    have := hv [] (by simp [Inside])
    simpa [gridIntegral] using this
  | succ m ih =>
    have hm' : m < grid.length := hm
    have htake : (grid.take (m + 1)).map Prod.snd = (grid.take m).map Prod.snd ++ [grid[m].2] := by
      rw [List.take_succ_eq_append_getElem hm', List.map_append, List.map_cons, List.map_nil]
    rw [htake] at hs hv
    obtain ⟨w, hw, hws, hwv⟩ := trapzLast_eq hs hv
    have hstep : self.step v (grid.length - (m + 1)) = .ok w := by
      unfold GridVT.step
      have : self.ndim - (grid.length - (m + 1)) - 1 = m := by rw [hn]; omega
      rw [this]
      simp only [(hax m hm').1, Dict.get, (hax m hm').2, ok_bind, hw]
    obtain ⟨r, hr, hrs, hrv⟩ := ih (by omega) w _ hws hwv
    refine ⟨r, ?_, hrs, ?_⟩
    · rw [List.range'_succ, List.foldlM_cons, hstep, ok_bind,
        show grid.length - (m + 1) + 1 = grid.length - m by omega]
      exact hr
    · rw [hrv, htake, gridIntegral_concat]

/-! ## C38 -/

/-- **C38, the full statement**: for every product grid, a `GridVT` can be constructed and its call
returns a single number, the iterated trapezoid integral of the population model times the
sensitivity. -/
def C38_statement : Prop :=
  ∀ (grid : List (String × List ℝ)) (data : Dict ND) (model : PopModel (Dict ND) ND) (vts p : ND)
    (P V : List ℕ → ℝ) (parameters : Dict Fl),
    ProductGrid grid data → data.get? "vt" = some vts → vts.shape = grid.map (·.2.length) →
    (∀ idx, Inside idx (grid.map (·.2.length)) → vts.at_ idx = fin (V idx)) →
    model.prob (data.erase "vt") parameters = .ok p → p.shape = grid.map (·.2.length) →
    (∀ idx, Inside idx (grid.map (·.2.length)) → p.at_ idx = fin (P idx)) →
    ∃ self d r, GridVT.init model data = .ok (self, d) ∧ self.call parameters = .ok r ∧
      r.shape = [] ∧ r.at_ [] = fin (gridIntegral (grid.map Prod.snd) fun idx => P idx * V idx)

/-- **C38 (partial).** The full statement holds if no two axes of the grid have the same length:
for any number of parameters, listed in any order in the dictionary. Missing: axes of equal
length, for which the full statement is false. -/
theorem C38_integral_partial {grid : List (String × List ℝ)} {data : Dict ND}
    {model : PopModel (Dict ND) ND} {vts p : ND} {P V : List ℕ → ℝ} {parameters : Dict Fl}
    (hlen : (grid.map (·.2.length)).Nodup)
    (hg : ProductGrid grid data) (hvt : data.get? "vt" = some vts)
    (hvs : vts.shape = grid.map (·.2.length))
    (hV : ∀ idx, Inside idx (grid.map (·.2.length)) → vts.at_ idx = fin (V idx))
    (hp : model.prob (data.erase "vt") parameters = .ok p) (hps : p.shape = grid.map (·.2.length))
    (hP : ∀ idx, Inside idx (grid.map (·.2.length)) → p.at_ idx = fin (P idx)) :
    ∃ self d r, GridVT.init model data = .ok (self, d) ∧ self.call parameters = .ok r ∧
      r.shape = [] ∧ r.at_ [] = fin (gridIntegral (grid.map Prod.snd) fun idx => P idx * V idx) := by
  obtain ⟨self, hself, hmod, hvts, hdata, hnd, hax⟩ := grid_init hg hlen model hvt
  have hcall : self.call parameters = (List.range' (grid.length - grid.length) grid.length).foldlM
      (fun v ii => self.step v ii) ⟨p.shape, fun i => p.at_ i * vts.at_ i⟩ := by
    unfold GridVT.call
    rw [hmod, hdata, hp, ok_bind]
    unfold ND.mul
    rw [hvts, if_pos (by rw [hps, hvs]), ok_bind, hnd, List.range_eq_range', Nat.sub_self]
  obtain ⟨r, hr, hrs, hrv⟩ := grid_loop hnd hax grid.length le_rfl
    ⟨p.shape, fun i => p.at_ i * vts.at_ i⟩ (fun idx => P idx * V idx)
    (by simp [hps, List.map_map, Function.comp_def])
    (by
      intro idx hidx
      rw [List.take_length, List.map_map] at hidx
      simp only
      rw [hP idx hidx, hV idx hidx, fin_mul])
  rw [List.take_length] at hrv
  exact ⟨self, _, r, hself, hcall.trans hr, hrs, hrv⟩

/-! ### Axes of equal length -/

theorem axesSet_keys (l : List (ℕ × String)) (a : ℕ) (k : String) :
    (axesSet l a k).map Prod.fst = if a ∈ l.map Prod.fst then l.map Prod.fst
      else l.map Prod.fst ++ [a] := by
  induction l with
  | nil => simp [axesSet]
  | cons p l ih =>
    obtain ⟨a', k'⟩ := p
    rw [axesSet]
    by_cases h : a' = a
    · subst h; simp
    · rw [if_neg h, List.map_cons, ih]
      by_cases h' : a ∈ l.map Prod.fst
      · rw [if_pos h', if_pos (by simp [h'])]; rfl
      · rw [if_neg h', if_neg (by
          rw [List.map_cons, List.mem_cons]
          exact fun hc => hc.elim (fun he => h he.symm) h')]
        rfl

/-- The loop of `__init__` only produces axes from the list of first occurrences. -/
theorem init_axes {shape : List ℕ} {values : Dict (List Fl)} {axes0 axes : List (ℕ × String)}
    (h0 : (axes0.map Prod.fst).Nodup) (h1 : ∀ a ∈ axes0.map Prod.fst, ∃ n ∈ shape, a = shape.idxOf n)
    (h : GridVT.findAxes shape values axes0 = .ok axes) :
    (axes.map Prod.fst).Nodup ∧ ∀ a ∈ axes.map Prod.fst, ∃ n ∈ shape, a = shape.idxOf n := by
  unfold GridVT.findAxes at h
  induction values generalizing axes0 with
  | nil =>
    rw [List.foldlM_nil, pure_eq_ok] at h
    rw [← Except.ok.inj h]
    exact ⟨h0, h1⟩
  | cons p values ih =>
    rw [List.foldlM_cons] at h
    obtain ⟨ax1, hax1, h⟩ := bind_eq_ok.1 h
    obtain ⟨a, ha, hax1⟩ := bind_eq_ok.1 hax1
    rw [pure_eq_ok] at hax1
    have hax1 := Except.ok.inj hax1
    unfold GridVT.firstAxis at ha
    split_ifs at ha with hmem
    have ha := Except.ok.inj ha
    refine ih ?_ ?_ h
    · rw [← hax1, axesSet_keys]
      split_ifs with hm
      · exact h0
      · rw [List.nodup_append]
        refine ⟨h0, by simp, ?_⟩
        intro x hx y hy
        rw [List.mem_singleton] at hy
        rintro rfl
        exact hm (hy ▸ hx)
    · rw [← hax1, axesSet_keys]
      intro x hx
      split_ifs at hx with hm
      · exact h1 x hx
      · rcases List.mem_append.1 hx with hx | hx
        · exact h1 x hx
        · rw [List.mem_singleton] at hx
          exact ⟨_, hmem, hx.trans ha.symm⟩

theorem step_shape {self : GridVT} {v w : ND} {ii : ℕ} (h : self.step v ii = .ok w) :
    v.shape.length = w.shape.length + 1 := by
  unfold GridVT.step at h
  simp only at h
  split at h
  · cases h
  · obtain ⟨x, -, h⟩ := bind_eq_ok.1 h
    unfold ND.trapzLast at h
    split at h
    · cases h
    · rename_i n hn
      split_ifs at h with hx
      have h := Except.ok.inj h
      rw [← h]
      have : v.shape ≠ [] := by
        intro h'
        rw [h'] at hn
        simp at hn
      have hl := List.length_pos_iff.2 this
      simp only [List.length_dropLast]
      omega

theorem loop_shape {self : GridVT} {l : List ℕ} {v r : ND}
    (h : l.foldlM (fun v ii => self.step v ii) v = .ok r) :
    v.shape.length = r.shape.length + l.length := by
  induction l generalizing v with
  | nil =>
    rw [List.foldlM_nil, pure_eq_ok] at h
    rw [Except.ok.inj h]; simp
  | cons i l ih =>
    rw [List.foldlM_cons] at h
    obtain ⟨w, hw, h⟩ := bind_eq_ok.1 h
    rw [step_shape hw, ih h, List.length_cons]
    omega

/-- **C38, what is missing.** As soon as two axes of the arrays have the same length, the call never
returns a single number, whatever the data, the model and the parameters are: it either raises or
returns an array with axes left over. -/
theorem C38_equal_lengths {model : PopModel (Dict ND) ND} {data d : Dict ND} {self : GridVT}
    (hself : GridVT.init model data = .ok (self, d)) {shape : List ℕ} (hdup : ¬ shape.Nodup)
    (hshape : ∀ k a, data.get? k = some a → a.shape = shape) (hn : data.keys.Nodup)
    {parameters : Dict Fl} {p r : ND} (hp : model.prob self.data parameters = .ok p)
    (hps : p.shape = shape) (hr : self.call parameters = .ok r) : r.shape ≠ [] := by
  -- the number of axes found is too small
  have hinit : self.model = model ∧ self.ndim < shape.length := by
    unfold GridVT.init at hself
    obtain ⟨v, hv, hself⟩ := bind_eq_ok.1 hself
    simp only at hself
    obtain ⟨s, hs, hself⟩ := bind_eq_ok.1 hself
    obtain ⟨axes, haxes, hself⟩ := bind_eq_ok.1 hself
    rw [pure_eq_ok] at hself
    have hself := (Prod.mk.inj (Except.ok.inj hself)).1
    have hss : s = shape := by
      cases hd : data.erase "vt" with
      | nil => rw [hd] at hs; cases hs
      | cons q l =>
        rw [hd] at hs
        rw [← Except.ok.inj hs]
        have hq : q ∈ data.erase "vt" := by rw [hd]; simp
        have hq' : q ∈ data := (List.mem_filter.1 hq).1
        exact hshape q.1 q.2 ((Dict.mem_iff_get? hn q.1 q.2).1 hq')
    rw [hss] at haxes
    obtain ⟨h1, h2⟩ := init_axes (by simp) (by simp) haxes
    refine ⟨by rw [← hself], ?_⟩
    have hnd : self.ndim = axes.length := by rw [← hself]
    rw [hnd, ← List.length_map (f := Prod.fst)]
    have hsub : axes.map Prod.fst ⊆ shape.dedup.map shape.idxOf := by
      intro a ha
      obtain ⟨n, hn, rfl⟩ := h2 a ha
      exact List.mem_map_of_mem (List.mem_dedup.2 hn)
    have hle := (h1.subperm hsub).length_le
    rw [List.length_map (f := fun a => shape.idxOf a)] at hle
    refine lt_of_le_of_lt hle ?_
    exact lt_of_le_of_ne (List.dedup_sublist _).length_le fun he =>
      hdup (List.dedup_eq_self.1 ((List.dedup_sublist _).eq_of_length he))
  obtain ⟨hm, hnd⟩ := hinit
  unfold GridVT.call at hr
  rw [hm, hp, ok_bind] at hr
  obtain ⟨w, hw, hr⟩ := bind_eq_ok.1 hr
  have hws : w.shape = shape := by
    unfold ND.mul at hw
    split_ifs at hw with h
    rw [← Except.ok.inj hw, hps]
  have := loop_shape hr
  rw [hws, List.length_range] at this
  intro h0
  rw [h0] at this
  simp at this
  omega

/-! ### Concrete grids -/

/-- The data of a product grid. -/
def gridData (grid : List (String × List ℝ)) (vts : ND) : Dict ND :=
  ("vt", vts) :: (List.range grid.length).map fun i =>
    ((grid.getD i ("", [])).1, ⟨grid.map (·.2.length), fun idx =>
      fin ((grid.getD i ("", [])).2.getD (idx.getD i 0) 0)⟩)

theorem gridData_ok {grid : List (String × List ℝ)} {vts : ND} (h0 : grid ≠ [])
    (hk : ("vt" :: grid.map Prod.fst).Nodup) (hinc : ∀ g ∈ grid, g.2.Pairwise (· < ·))
    (hpos : ∀ g ∈ grid, g.2 ≠ []) : ProductGrid grid (gridData grid vts) := by
  have hkeys : (gridData grid vts).keys = "vt" :: grid.map Prod.fst := by
    unfold gridData Dict.keys
    rw [List.map_cons, List.map_map]
    congr 1
    apply List.ext_getElem
    · simp
    · intro i h1 h2
      simp only [List.length_map, List.length_range] at h1
      simp [h1]
  refine ⟨h0, by rw [hkeys], by rw [hkeys]; exact hk, hinc, hpos, ?_⟩
  intro i hi
  refine ⟨⟨grid.map (·.2.length), fun idx => fin (grid[i].2.getD (idx.getD i 0) 0)⟩, ?_, rfl,
    fun _ _ => rfl⟩
  refine (Dict.mem_iff_get? (by rw [hkeys]; exact hk) _ _).1 ?_
  refine List.mem_cons_of_mem _ (List.mem_map.2 ⟨i, List.mem_range.2 hi, ?_⟩)
  rw [List.getD_eq_getElem (l := grid) (d := ("", ([] : List ℝ))) hi]

/-- **C38 fails** for a square grid: two parameters with two values each. -/
theorem C38_fails : ¬ C38_statement := by
  intro h
  let grid : List (String × List ℝ) := [("a", [0, 1]), ("b", [0, 1])]
  let one : ND := ⟨[2, 2], fun _ => fin 1⟩
  have hg : ProductGrid grid (gridData grid one) := gridData_ok (by simp [grid]) (by simp [grid])
    (by simp [grid]) (by simp [grid])
  obtain ⟨self, d, r, hself, hcall, hrs, -⟩ := h grid (gridData grid one)
    ⟨[], fun _ _ => .ok one⟩ one one (fun _ => 1) (fun _ => 1) [] hg (by
      simp [gridData, Dict.get?_cons]) (by simp [grid, one]) (fun _ _ => rfl) rfl (by simp [grid, one])
      (fun _ _ => rfl)
  refine C38_equal_lengths hself (shape := [2, 2]) (by simp) ?_ hg.nodup (p := one) rfl rfl hcall hrs
  intro k a hk
  have hm := (Dict.mem_iff_get? hg.nodup k a).2 hk
  unfold gridData at hm
  rcases List.mem_cons.1 hm with h1 | h1
  · rw [(Prod.mk.inj h1).2]
  · obtain ⟨i, -, hi⟩ := List.mem_map.1 h1
    rw [← (Prod.mk.inj hi).2]
    simp [grid]

/-- Non-vacuity of C38: a grid with two masses and three redshifts. -/
example : ∃ (grid : List (String × List ℝ)) (vts : ND), (grid.map (·.2.length)).Nodup ∧
    ProductGrid grid (gridData grid vts) ∧ grid.length = 2 ∧ vts.shape = grid.map (·.2.length) :=
  ⟨[("mass", [1, 2]), ("redshift", [0, 1, 3])], ⟨[2, 3], fun _ => fin 1⟩, by simp,
    gridData_ok (by simp) (by simp) (by norm_num) (by simp), rfl, rfl⟩

/-! ## C39 -/

/-- **C39, the full statement** for `GridVT`: after the construction the caller's dictionary is
what it was. -/
def C39_statement : Prop :=
  ∀ (model : PopModel (Dict ND) ND) (data d : Dict ND) (self : GridVT),
    GridVT.init model data = .ok (self, d) → d = data

theorem gridInit_data {model : PopModel (Dict ND) ND} {data d : Dict ND} {self : GridVT}
    (h : GridVT.init model data = .ok (self, d)) :
    d = data.erase "vt" ∧ data.get? "vt" = some self.vts := by
  unfold GridVT.init at h
  obtain ⟨v, hv, h⟩ := bind_eq_ok.1 h
  simp only at h
  obtain ⟨s, hs, h⟩ := bind_eq_ok.1 h
  obtain ⟨axes, haxes, h⟩ := bind_eq_ok.1 h
  rw [pure_eq_ok] at h
  have h := Prod.mk.inj (Except.ok.inj h)
  refine ⟨h.2.symm, ?_⟩
  unfold Dict.get at hv
  split at hv
  · rename_i v' hv'
    rw [hv', Except.ok.inj hv, ← h.1]
  · cases hv

/-- **C39 (partial: exactly what changes).** The construction of a `GridVT` removes the entry `vt`,
and nothing else, from the caller's dictionary; a second construction from the same dictionary
raises `KeyError`. In the full statement the dictionary should be unchanged. -/
theorem C39_grid_partial {model model' : PopModel (Dict ND) ND} {data d : Dict ND} {self : GridVT}
    (h : GridVT.init model data = .ok (self, d)) :
    (∀ k, k ≠ "vt" → d.get? k = data.get? k) ∧ d.get? "vt" = none ∧
    GridVT.init model' d = .error (.keyError "vt") := by
  obtain ⟨hd, -⟩ := gridInit_data h
  have hnone : d.get? "vt" = none := by rw [hd, Dict.get?_erase, if_pos rfl]
  refine ⟨fun k hk => by rw [hd, Dict.get?_erase, if_neg hk], hnone, ?_⟩
  unfold GridVT.init
  simp only [Dict.get, hnone]
  rfl

/-- **C39 fails** for `GridVT`. -/
theorem C39_fails : ¬ C39_statement := by
  intro h
  let grid : List (String × List ℝ) := [("a", [0, 1])]
  let one : ND := ⟨[2], fun _ => fin 1⟩
  have hg : ProductGrid grid (gridData grid one) := gridData_ok (by simp [grid]) (by simp [grid])
    (by simp [grid]) (by simp [grid])
  have hvt : (gridData grid one).get? "vt" = some one := by simp [gridData, Dict.get?_cons]
  obtain ⟨self, hself, -⟩ := grid_init hg (by simp [grid]) ⟨[], fun _ _ => .ok one⟩ hvt
  have := h _ _ _ _ hself
  rw [← this] at hvt
  rw [Dict.get?_erase, if_pos rfl] at hvt
  cases hvt

end GW
