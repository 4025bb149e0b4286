import Verif.Num.NArr

/-!
# Broadcasting

Lemmas about shapes: which shapes can be stretched into which, and what the operations on arrays compute as functions
on a common shape.
-/

noncomputable section

open Classical

namespace GW

open Fl NArr

/-- `s` can be stretched to `S`. -/
inductive Into : List ℕ → List ℕ → Prop where
  | nil {S : List ℕ} : Into [] S
  | one {s S : List ℕ} {n : ℕ} : Into s S → Into (1 :: s) (n :: S)
  | same {s S : List ℕ} {n : ℕ} : Into s S → Into (n :: s) (n :: S)

namespace Into

theorem refl : ∀ s : List ℕ, Into s s
  | [] => .nil
  | _ :: s => .same (refl s)

theorem trans {s t u : List ℕ} (h : Into s t) (k : Into t u) : Into s u := by
  induction h generalizing u with
  | nil => exact .nil
  | one _ ih => cases k with
    | one k => exact .one (ih k)
    | same k => exact .one (ih k)
  | same _ ih => cases k with
    | one k => exact .one (ih k)
    | same k => exact .same (ih k)

theorem antisymm {s t : List ℕ} (h : Into s t) (k : Into t s) : s = t := by
  induction h with
  | nil => cases k; rfl
  | one _ ih => cases k with
    | one k => rw [ih k]
    | same k => rw [ih k]
  | same _ ih => cases k with
    | one k => rw [ih k]
    | same k => rw [ih k]

end Into

/-- Two shapes that can be stretched to a common shape can be broadcast together, to the smallest such shape. -/
theorem bshape_of_into {s t S : List ℕ} (hs : Into s S) (ht : Into t S) :
    ∃ u, bshape s t = some u ∧ Into u S ∧ Into s u ∧ Into t u := by
  induction hs generalizing t with
  | nil => exact ⟨t, by simp [bshape], ht, .nil, .refl t⟩
  | @one s S n hs ih => cases ht with
    | nil => exact ⟨1 :: s, by simp [bshape], .one hs, .refl _, .nil⟩
    | @one t _ _ ht =>
      obtain ⟨u, hu, a, b, c⟩ := ih ht
      exact ⟨1 :: u, by simp [bshape, hu], .one a, .one b, .one c⟩
    | @same t _ _ ht =>
      obtain ⟨u, hu, a, b, c⟩ := ih ht
      refine ⟨n :: u, ?_, .same a, .one b, .same c⟩
      by_cases h : 1 = n
      · subst h; simp [bshape, hu]
      · by_cases h' : n = 1
        · exact absurd h'.symm h
        · simp [bshape, hu, h, h']
  | @same s S n hs ih => cases ht with
    | nil => exact ⟨n :: s, by simp [bshape], .same hs, .refl _, .nil⟩
    | @one t _ _ ht =>
      obtain ⟨u, hu, a, b, c⟩ := ih ht
      exact ⟨n :: u, by simp [bshape, hu], .same a, .same b, .one c⟩
    | @same t _ _ ht =>
      obtain ⟨u, hu, a, b, c⟩ := ih ht
      exact ⟨n :: u, by simp [bshape, hu], .same a, .same b, .same c⟩

/-- The broadcast shape is an upper bound. -/
theorem into_bshape {s t u : List ℕ} (h : bshape s t = some u) : Into s u ∧ Into t u := by
  induction s generalizing t u with
  | nil => simp [bshape] at h; subst h; exact ⟨.nil, .refl _⟩
  | cons m s ih => cases t with
    | nil => simp [bshape] at h; subst h; exact ⟨.refl _, .nil⟩
    | cons n t =>
      unfold bshape at h
      split_ifs at h with h1 h2
      · obtain ⟨v, hv, rfl⟩ := Option.map_eq_some_iff.1 h
        have := ih hv
        refine ⟨.same this.1, ?_⟩
        rcases h1 with h1 | h1
        · exact h1 ▸ .same this.2
        · exact h1 ▸ .one this.2
      · obtain ⟨v, hv, rfl⟩ := Option.map_eq_some_iff.1 h
        have := ih hv
        exact ⟨h2 ▸ .one this.1, .same this.2⟩

theorem proj_nil_idx (s : List ℕ) : proj s [] = s.map fun _ => 0 := by
  induction s with
  | nil => rfl
  | cons n s ih => simp [proj, ih]

/-- Projecting in two steps. -/
theorem proj_proj {s u : List ℕ} (h : Into s u) (idx : List ℕ) : proj s (proj u idx) = proj s idx := by
  induction h generalizing idx with
  | nil => simp [proj]
  | @one s u n h ih => cases idx with
    | nil => simp [proj, ih]
    | cons i idx => simp [proj, ih]
  | @same s u n h ih => cases idx with
    | nil => simp [proj, ih]
    | cons i idx => by_cases hn : n = 1 <;> simp [proj, ih, hn]

/-- The smallest shape into which all shapes of a list can be stretched. -/
def Lub (l : List (List ℕ)) (u : List ℕ) : Prop :=
  (∀ s ∈ l, Into s u) ∧ ∀ T, (∀ s ∈ l, Into s T) → Into u T

theorem Lub.unique {l : List (List ℕ)} {u v : List ℕ} (h : Lub l u) (k : Lub l v) : u = v :=
  (h.2 v k.1).antisymm (k.2 u h.1)

theorem Lub.append {l m : List (List ℕ)} {s t u : List ℕ} (hs : Lub l s) (ht : Lub m t)
    (hu : bshape s t = some u) : Lub (l ++ m) u := by
  have := into_bshape hu
  refine ⟨fun x hx => ?_, fun T hT => ?_⟩
  · rcases List.mem_append.1 hx with h | h
    · exact (hs.1 x h).trans this.1
    · exact (ht.1 x h).trans this.2
  · have h1 := hs.2 T fun x hx => hT x (List.mem_append_left _ hx)
    have h2 := ht.2 T fun x hx => hT x (List.mem_append_right _ hx)
    obtain ⟨v, hv, hvT, -⟩ := bshape_of_into h1 h2
    rw [hu] at hv
    cases hv
    exact hvT

/-- `a` has the smallest shape for the operands of shapes `l`, which can be stretched to `S`, and its element at an
index of `S` is given by `g`. -/
structure Rep (S : List ℕ) (l : List (List ℕ)) (a : NArr) (g : List ℕ → Fl) : Prop where
  lub : Lub l a.shape
  into : Into a.shape S
  elem : ∀ idx, a.elem (proj a.shape idx) = g idx

namespace Rep

variable {S : List ℕ} {l m : List (List ℕ)} {x y : NArr} {g h : List ℕ → Fl}

theorem input (x : NArr) (hx : Into x.shape S) : Rep S [x.shape] x (fun idx => x.elem (proj x.shape idx)) :=
  ⟨⟨by simp [Into.refl], fun T hT => hT _ (by simp)⟩, hx, fun _ => rfl⟩

theorem pyInt (n : ℤ) : Rep S [] (pyInt n) (fun _ => fin n) :=
  ⟨⟨by simp, fun T _ => .nil⟩, .nil, fun _ => rfl⟩

theorem pyFloat (v : Fl) : Rep S [] (pyFloat v) (fun _ => v) :=
  ⟨⟨by simp, fun T _ => .nil⟩, .nil, fun _ => rfl⟩

theorem congr {g' : List ℕ → Fl} {l' : List (List ℕ)} (h : Rep S l x g) (hg : ∀ i, g i = g' i)
    (hl : ∀ s, s ∈ l ↔ s ∈ l') : Rep S l' x g' :=
  ⟨⟨fun s hs => h.lub.1 s ((hl s).2 hs), fun T hT => h.lub.2 T fun s hs => hT s ((hl s).1 hs)⟩, h.into,
    fun idx => (h.elem idx).trans (hg idx)⟩

theorem lift2 (b : Backend) (dt : DType → DType → DType) (f : Fl → Fl → Fl) (hx : Rep S l x g)
    (hy : Rep S m y h) :
    ∃ r, NArr.lift2 b dt f x y = .ok r ∧ Rep S (l ++ m) r (fun i => f (g i) (h i)) ∧
      r.kind = libKind b r.shape ∧ r.dtype = dt x.dtype y.dtype := by
  obtain ⟨u, hu, huS, hxu, hyu⟩ := bshape_of_into hx.into hy.into
  refine ⟨⟨libKind b u, dt x.dtype y.dtype, u,
      fun idx => f (x.elem (proj x.shape idx)) (y.elem (proj y.shape idx))⟩, by simp only [NArr.lift2, hu],
    ⟨hx.lub.append hy.lub hu, huS, fun idx => ?_⟩, rfl, rfl⟩
  simp only [proj_proj hxu, proj_proj hyu, hx.elem, hy.elem]

theorem op2 (b : Backend) (dt : DType → DType → DType) (f : Fl → Fl → Fl) (hx : Rep S l x g)
    (hy : Rep S m y h) :
    ∃ r, NArr.op2 b dt f x y = .ok r ∧ Rep S (l ++ m) r (fun i => f (g i) (h i)) ∧
      r.kind = (if x.kind = .py ∧ y.kind = .py then .py else libKind b r.shape) ∧
      r.dtype = dt x.dtype y.dtype := by
  obtain ⟨r, hr, hrep, hk, hd⟩ := hx.lift2 b dt f hy
  by_cases hp : x.kind = .py ∧ y.kind = .py
  · exact ⟨{ r with kind := .py }, by simp [NArr.op2, hr, hp], ⟨hrep.lub, hrep.into, hrep.elem⟩, by simp [hp], hd⟩
  · refine ⟨r, ?_, hrep, by simp [hp, hk], hd⟩
    unfold NArr.op2
    rw [hr]
    simp only [if_neg hp]
    rfl

theorem lift1 (b : Backend) (dt : DType → DType) (f : Fl → Fl) (hx : Rep S l x g) :
    Rep S l (NArr.lift1 b dt f x) (fun i => f (g i)) :=
  ⟨hx.lub, hx.into, fun idx => by simp [NArr.lift1, hx.elem]⟩

theorem fn (b : Backend) (f : Fl → Fl) (hx : Rep S l x g) : Rep S l (NArr.fn b f x) (fun i => f (g i)) :=
  hx.lift1 b _ f

theorem neg (b : Backend) (hx : Rep S l x g) : Rep S l (NArr.neg b x) (fun i => -g i) :=
  ⟨hx.lub, hx.into, fun idx => by simp [NArr.neg, hx.elem]⟩

theorem array (hx : Rep S l x g) : Rep S l (NArr.array x) g := ⟨hx.lub, hx.into, hx.elem⟩

theorem div (b : Backend) (hx : Rep S l x g) (hy : Rep S m y h)
    (hz : ¬ (x.kind = .py ∧ y.kind = .py ∧ eqf (y.elem []) 0)) :
    ∃ r, NArr.div b x y = .ok r ∧ Rep S (l ++ m) r (fun i => g i / h i) ∧
      r.kind = (if x.kind = .py ∧ y.kind = .py then .py else libKind b r.shape) ∧ r.dtype = .float := by
  unfold NArr.div
  rw [if_neg hz]
  exact hx.op2 b _ _ hy

theorem power (b : Backend) (hx : Rep S l x g) (hy : Rep S m y h)
    (hz : x.dtype = .float ∨ y.dtype = .float) :
    ∃ r, NArr.power b x y = .ok r ∧ Rep S (l ++ m) r (fun i => Fl.pow (g i) (h i)) ∧
      r.kind = libKind b r.shape ∧ r.dtype = .float := by
  unfold NArr.power
  rw [if_neg (by tauto), if_neg (by tauto)]
  obtain ⟨r, h1, h2, h3, h4⟩ := hx.lift2 b promote Fl.pow hy
  refine ⟨r, h1, h2, h3, h4.trans ?_⟩
  rcases hz with hz | hz <;> rw [hz]
  · rfl
  · cases x.dtype <;> rfl

theorem pow (b : Backend) (hx : Rep S l x g) (hy : Rep S m y h)
    (hz : x.dtype = .float ∨ y.dtype = .float ∨ (x.kind = .py ∧ y.kind = .py))
    (hp : ¬ (x.kind = .py ∧ y.kind = .py ∧ eqf (x.elem []) 0)) :
    ∃ r, NArr.pow b x y = .ok r ∧ Rep S (l ++ m) r (fun i => Fl.pow (g i) (h i)) := by
  unfold NArr.pow
  by_cases hk : x.kind = .py ∧ y.kind = .py
  · rw [if_pos hk, if_neg (by tauto)]
    obtain ⟨r, h1, h2, -⟩ := hx.op2 b (fun d e => if y.elem [] < 0 then .float else promote d e) Fl.pow hy
    exact ⟨r, h1, h2⟩
  · rw [if_neg hk]
    obtain ⟨r, h1, h2, -⟩ := hx.power b hy (by tauto)
    exact ⟨r, h1, h2⟩

/-- The exponent 2 is never a problem, except for integers on jax, which are outside the model. -/
theorem square (b : Backend) (hx : Rep S l x g) (hz : x.dtype = .float ∨ x.kind = .py ∨ b ≠ .jax) :
    ∃ r, NArr.pow b x (NArr.pyInt 2) = .ok r ∧ Rep S l r (fun i => Fl.pow (g i) (fin 2)) ∧
      r.kind = (if x.kind = .py then .py else libKind b r.shape) ∧
      r.dtype = promote x.dtype .int := by
  have hpos : ¬ (NArr.pyInt 2).elem [] < 0 := by
    simp [NArr.pyInt, Fl.zero_eq]
  unfold NArr.pow
  by_cases hk : x.kind = .py
  · rw [if_pos ⟨hk, rfl⟩, if_neg (by tauto)]
    obtain ⟨r, h1, h2, h3, h4⟩ := hx.op2 b
      (fun d e => if (NArr.pyInt 2).elem [] < 0 then .float else promote d e) Fl.pow (Rep.pyInt 2)
    refine ⟨r, h1, h2.congr (by simp) (by simp), by simpa [hk, NArr.pyInt] using h3, ?_⟩
    rw [h4, if_neg hpos]
    rfl
  · rw [if_neg (by tauto)]
    unfold NArr.power
    rw [if_neg (by tauto), if_neg (by
      rintro ⟨-, -, e, he, hlt⟩
      simp [NArr.elements, NArr.pyInt, NArr.indices] at he
      subst he
      exact absurd hlt (by simp [Fl.zero_eq]))]
    obtain ⟨r, h1, h2, h3, h4⟩ := hx.lift2 b promote Fl.pow (Rep.pyInt 2)
    exact ⟨r, h1, h2.congr (by simp) (by simp), by simpa [hk] using h3, h4⟩

theorem where_ {c : NArr} {k : List (List ℕ)} {p : List ℕ → Fl} (hc : Rep S k c p) (hx : Rep S l x g)
    (hy : Rep S m y h) :
    ∃ r, NArr.where_ c x y = .ok r ∧
      Rep S (k ++ (l ++ m)) r (fun i => if p i = fin 1 then g i else h i) ∧
      r.kind = .array ∧ r.dtype = promote x.dtype y.dtype := by
  obtain ⟨u, hu, huS, hxu, hyu⟩ := bshape_of_into hx.into hy.into
  obtain ⟨v, hv, hvS, hcv, huv⟩ := bshape_of_into hc.into huS
  refine ⟨⟨.array, promote x.dtype y.dtype, v, fun idx =>
        if c.elem (proj c.shape idx) = fin 1 then x.elem (proj x.shape idx) else y.elem (proj y.shape idx)⟩,
    by simp only [NArr.where_, hu, hv], ⟨hc.lub.append (hx.lub.append hy.lub hu) hv, hvS, fun idx => ?_⟩, rfl, rfl⟩
  simp only [proj_proj (hxu.trans huv), proj_proj (hyu.trans huv), proj_proj hcv, hx.elem, hy.elem, hc.elem]

/-- An augmented assignment that succeeds. -/
theorem assign (b : Backend) (f : Fl → Fl → Fl) (hx : Rep S l x g) (hy : Rep S m y h)
    (hd : b = .jax ∨ x.dtype = .float)
    (hok : b = .jax ∨ x.kind ≠ .array ∨ Into y.shape x.shape) :
    ∃ r, NArr.assign b f x y = .ok r ∧ Rep S (l ++ m) r (fun i => f (g i) (h i)) ∧
      r.dtype = promote x.dtype y.dtype ∧
      (x.kind ≠ .py → r.kind ≠ .py) := by
  by_cases hb : b = .jax ∨ x.kind ≠ .array
  · unfold NArr.assign
    rw [if_pos hb]
    obtain ⟨r, h1, h2, h3, h4⟩ := hx.op2 b promote f hy
    refine ⟨r, h1, h2, h4, fun hk => ?_⟩
    rw [h3, if_neg (fun h => hk h.1), libKind]
    split_ifs <;> simp
  · push Not at hb
    have hd' : x.dtype = .float := by tauto
    have hin : Into y.shape x.shape := by tauto
    obtain ⟨u, hu, -, hxu, hyu⟩ := bshape_of_into (Into.refl x.shape) hin
    obtain ⟨w, hw, hwx, -, -⟩ := bshape_of_into (Into.refl x.shape) hin
    rw [hu] at hw
    cases hw
    have : u = x.shape := hwx.antisymm hxu
    subst this
    unfold NArr.assign
    rw [if_neg (by tauto), if_neg (by rw [hd']; cases y.dtype <;> simp [promote]), hu]
    refine ⟨_, if_pos rfl, ⟨hx.lub.append hy.lub hu, hx.into, fun idx => ?_⟩, by rw [hd']; cases y.dtype <;> rfl, id⟩
    simp only [proj_proj hin, hx.elem, hy.elem]

/-- An augmented assignment that would have to enlarge a numpy array fails. -/
theorem assign_fails (b : Backend) (f : Fl → Fl → Fl) (hx : Rep S l x g) (hy : Rep S m y h)
    (hb : b ≠ .jax) (hk : x.kind = .array) (hd : x.dtype = .float) (hin : ¬ Into y.shape x.shape) :
    NArr.assign b f x y = .error .valueError := by
  obtain ⟨u, hu, -, hxu, hyu⟩ := bshape_of_into hx.into hy.into
  unfold NArr.assign
  rw [if_neg (by tauto), if_neg (by rw [hd]; cases y.dtype <;> simp [promote]), hu]
  refine if_neg fun e => hin ?_
  rw [← e]
  exact hyu

end Rep

end GW
