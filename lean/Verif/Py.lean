import Verif.Num.Fl

/-!
# Python run-time notions used by the model

Exceptions as values, backends, insertion-ordered dictionaries and call arguments.
-/

noncomputable section

open Classical

namespace GW

/-- The Python exceptions that the modelled code can raise. -/
inductive PyErr where
  | valueError
  | keyError (key : String)
  | typeError
  | attributeError
  | indexError
  | zeroDivision
  | overflowError
  | moduleNotFound
  | importError
  | notImplemented
  deriving DecidableEq, Repr

/-- The supported array backends (`backend.py:4`). -/
inductive Backend where
  | numpy
  | cupy
  | jax
  deriving DecidableEq, Repr

/-- A sequence of two steps succeeds iff both do. -/
theorem bind_eq_ok {ε α β : Type} {x : Except ε α} {f : α → Except ε β} {b : β} :
    (x >>= f) = .ok b ↔ ∃ a, x = .ok a ∧ f a = .ok b := by
  cases x with
  | error e => exact ⟨fun h => (by cases h), fun ⟨_, h, _⟩ => (by cases h)⟩
  | ok a => exact ⟨fun h => ⟨a, rfl, h⟩, fun ⟨_, h, h'⟩ => (by cases h; exact h')⟩

theorem ok_bind {ε α β : Type} (a : α) (f : α → Except ε β) : (Except.ok a >>= f) = f a := rfl

theorem error_bind {ε α β : Type} (e : ε) (f : α → Except ε β) :
    (Except.error e >>= f) = .error e := rfl

theorem pure_eq_ok {ε α : Type} (a : α) : (pure a : Except ε α) = .ok a := rfl

/-- A Python `dict` with string keys, in insertion order. -/
abbrev Dict (α : Type*) := List (String × α)

namespace Dict

/-- `d.get(k)`. -/
def get? {α : Type*} (d : Dict α) (k : String) : Option α := List.lookup k d

/-- `d[k]`, raising `KeyError`. -/
def get {α : Type*} (d : Dict α) (k : String) : Except PyErr α :=
  match get? d k with
  | some v => .ok v
  | none => .error (.keyError k)

/-- `k in d`. -/
def contains {α : Type*} (d : Dict α) (k : String) : Prop := k ∈ d.map Prod.fst

/-- `d[k] = v`: replace in place, append a new key at the end. -/
def set {α : Type*} : Dict α → String → α → Dict α
  | [], k, v => [(k, v)]
  | (k', v') :: d, k, v => if k' = k then (k, v) :: d else (k', v') :: set d k v

/-- `del d[k]` / the dictionary part of `d.pop(k)`. -/
def erase {α : Type*} (d : Dict α) (k : String) : Dict α := d.filter (fun p => p.1 ≠ k)

/-- The keys in insertion order. -/
def keys {α : Type*} (d : Dict α) : List String := d.map Prod.fst

@[simp] theorem get?_nil {α : Type*} (k : String) : get? ([] : Dict α) k = none := rfl

theorem get?_cons {α : Type*} (k k' : String) (v : α) (d : Dict α) :
    get? ((k', v) :: d) k = if k = k' then some v else get? d k := by
  unfold get?
  by_cases h : k = k'
  · subst h; simp [List.lookup]
  · have : (k == k') = false := by simpa using h
    simp [List.lookup, this, h]

theorem get?_set {α : Type*} (d : Dict α) (k k' : String) (v : α) :
    get? (set d k v) k' = if k' = k then some v else get? d k' := by
  induction d with
  | nil => simp [set, get?_cons]
  | cons p d ih =>
    obtain ⟨a, b⟩ := p
    unfold set
    by_cases h : a = k
    · subst h
      rw [if_pos rfl, get?_cons, get?_cons]
      by_cases h' : k' = a <;> simp [h']
    · rw [if_neg h, get?_cons, get?_cons, ih]
      by_cases h' : k' = a
      · subst h'; simp [h]
      · simp [h']

theorem get?_eq_none_iff {α : Type*} (d : Dict α) (k : String) :
    get? d k = none ↔ ¬ contains d k := by
  induction d with
  | nil => simp [contains]
  | cons p d ih =>
    obtain ⟨a, b⟩ := p
    rw [get?_cons]
    by_cases h : k = a
    · subst h; simp [contains]
    · simp only [h, if_false, ih]
      simp [contains, h]

theorem get?_isSome_iff {α : Type*} (d : Dict α) (k : String) :
    (get? d k).isSome ↔ contains d k := by
  rw [← not_iff_not, ← get?_eq_none_iff]
  cases get? d k <;> simp

end Dict

/-- A scalar argument of a Python call together with the way it is passed. -/
structure Arg where
  /-- the value -/
  val : Fl
  /-- passed by keyword? -/
  kw : Bool

/-- Positional argument. -/
def pos (x : Fl) : Arg := ⟨x, false⟩

/-- Keyword argument. -/
def kw (x : Fl) : Arg := ⟨x, true⟩

@[simp] theorem pos_val (x : Fl) : (pos x).val = x := rfl
@[simp] theorem pos_kw (x : Fl) : (pos x).kw = false := rfl
@[simp] theorem kw_val (x : Fl) : (kw x).val = x := rfl
@[simp] theorem kw_kw (x : Fl) : (kw x).kw = true := rfl

/-- The `**kwargs` seen by a wrapper: the arguments passed by keyword, each as the
list of its elements (a scalar is a one-element list). -/
def kwargsOf (l : List (String × Arg)) : Dict (List Fl) :=
  (l.filter (fun p => p.2.kw)).map (fun p => (p.1, [p.2.val]))

/-- `a / b` between two numbers; `py` says that both are Python floats, for which
division by zero raises `ZeroDivisionError` (numpy scalars return inf / nan). -/
def pyDiv (py : Bool) (a b : Fl) : Except PyErr Fl :=
  if py = true ∧ Fl.eqf b 0 then .error .zeroDivision else .ok (a / b)

/-- `a ** b` between two numbers; for Python floats zero to a negative power raises
`ZeroDivisionError`. Simplification: a negative Python float to a non-integer power is
a complex number in Python and NaN here. -/
def pyPow (py : Bool) (a b : Fl) : Except PyErr Fl :=
  if py = true ∧ Fl.eqf a 0 ∧ b < 0 then .error .zeroDivision else .ok (Fl.pow a b)

end GW
