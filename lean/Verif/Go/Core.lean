/-!
# Go runtime fragments: results, panics, indexing

Values of Go functions of type `(T, error)` are modelled by `Res T`:
`ok v` is `(v, nil)`, `err e` is a non-nil error, `panic` is a run-time panic
(index out of range, nil dereference, slice bounds).
-/

namespace Dusk

/-- Byte strings (`[]byte` values, no aliasing; see `Verif.Go.Slice` for slices in memory). -/
abbrev Bytes := List UInt8

/-- Result of a Go call returning `(T, error)` that may also panic. -/
inductive Res (α : Type u) where
  | ok (a : α)
  | err (e : String)
  | panic
  deriving DecidableEq, Repr

namespace Res

/-- `if err != nil { return err }` sequencing; a panic propagates. -/
def bind {α : Type u} {β : Type v} : Res α → (α → Res β) → Res β
  | ok a, f => f a
  | err e, _ => err e
  | panic, _ => panic

def map {α : Type u} {β : Type v} (f : α → β) : Res α → Res β
  | ok a => ok (f a)
  | err e => err e
  | panic => panic

instance : Monad Res where
  pure := ok
  bind := bind

@[simp] theorem pure_eq {α : Type u} (a : α) : (pure a : Res α) = ok a := rfl
@[simp] theorem ok_bind {α β : Type u} (a : α) (f : α → Res β) : (ok a >>= f) = f a := rfl
@[simp] theorem err_bind {α β : Type u} (e : String) (f : α → Res β) : (err e >>= f) = err e := rfl
@[simp] theorem panic_bind {α β : Type u} (f : α → Res β) : ((panic : Res α) >>= f) = panic := rfl
@[simp] theorem bind_ok {α : Type u} {β : Type v} (a : α) (f : α → Res β) : (ok a).bind f = f a := rfl
@[simp] theorem bind_err {α : Type u} {β : Type v} (e : String) (f : α → Res β) :
    (err e : Res α).bind f = err e := rfl
@[simp] theorem bind_panic {α : Type u} {β : Type v} (f : α → Res β) :
    (panic : Res α).bind f = panic := rfl
@[simp] theorem map_ok {α : Type u} {β : Type v} (f : α → β) (a : α) : (ok a).map f = ok (f a) := rfl
@[simp] theorem map_err {α : Type u} {β : Type v} (f : α → β) (e : String) :
    (err e : Res α).map f = err e := rfl
@[simp] theorem map_panic {α : Type u} {β : Type v} (f : α → β) :
    (panic : Res α).map f = panic := rfl

/-- The call returned a non-nil error. -/
def IsErr {α : Type u} (r : Res α) : Prop := ∃ e, r = err e

@[simp] theorem isErr_err {α : Type u} (e : String) : IsErr (err e : Res α) := ⟨e, rfl⟩
@[simp] theorem not_isErr_ok {α : Type u} (a : α) : ¬ IsErr (ok a) := by rintro ⟨e, h⟩; cases h
@[simp] theorem not_isErr_panic {α : Type u} : ¬ IsErr (panic : Res α) := by rintro ⟨e, h⟩; cases h

theorem bind_eq_ok {α : Type u} {β : Type v} {r : Res α} {f : α → Res β} {b : β} :
    r.bind f = ok b ↔ ∃ a, r = ok a ∧ f a = ok b := by
  cases r <;> simp [bind]

theorem mbind_eq_ok {α β : Type u} {r : Res α} {f : α → Res β} {b : β} :
    (r >>= f) = ok b ↔ ∃ a, r = ok a ∧ f a = ok b := bind_eq_ok

theorem bind_eq_panic {α : Type u} {β : Type v} {r : Res α} {f : α → Res β} :
    r.bind f = panic ↔ r = panic ∨ ∃ a, r = ok a ∧ f a = panic := by
  cases r <;> simp [bind]

theorem mbind_eq_panic {α β : Type u} {r : Res α} {f : α → Res β} :
    (r >>= f) = panic ↔ r = panic ∨ ∃ a, r = ok a ∧ f a = panic := bind_eq_panic

end Res

/-- Go slice indexing `l[i]`: panics when out of range. -/
def idx {α : Type u} (l : List α) (i : Nat) : Res α :=
  match l[i]? with
  | some a => .ok a
  | none => .panic

theorem idx_of_lt {α : Type u} {l : List α} {i : Nat} (h : i < l.length) : idx l i = .ok l[i] := by
  simp [idx, h]

theorem idx_of_ge {α : Type u} {l : List α} {i : Nat} (h : l.length ≤ i) : idx l i = .panic := by
  simp [idx, h]

theorem idx_eq_ok {α : Type u} {l : List α} {i : Nat} {a : α} :
    idx l i = .ok a ↔ l[i]? = some a := by
  unfold idx; cases l[i]? <;> simp

/-- A Go loop over a list whose body may fail, collecting results in order. -/
def mapRes {α : Type u} {β : Type v} (f : α → Res β) : List α → Res (List β)
  | [] => .ok []
  | a :: as => (f a).bind fun b => (mapRes f as).bind fun bs => .ok (b :: bs)

end Dusk
