/-!
# Outcomes of Go functions

A Go call returns normally, returns a non-nil `error`, or panics.
-/
namespace Uip

/-- Error values: the names of `/repo/db/errors.go:5-31` that the modelled code returns;
`other` stands for errors that are built on the spot (`errors.New("...")`, JSON errors, ...). -/
inductive Err where
  | unsupportedFormat
  | databaseError
  | fileSize
  | metaData
  | ipFormat
  | noSupportLanguage
  | noSupportIPv4
  | noSupportIPv6
  | dataNotExists
  | invalidCIDR
  | cidrConflict
  | checkFailed
  | other (msg : String)
  deriving DecidableEq, Repr

/-- Result of a Go call: value with nil error, non-nil error, or a run-time panic. -/
inductive Res (α : Type) where
  | ok (a : α)
  | err (e : Err)
  | panic
  deriving DecidableEq, Repr

namespace Res

def bind {α β : Type} (x : Res α) (f : α → Res β) : Res β :=
  match x with
  | ok a => f a
  | err e => err e
  | panic => panic

instance : Monad Res where
  pure := ok
  bind := bind

@[simp] theorem pure_eq {α : Type} (a : α) : (pure a : Res α) = ok a := rfl
@[simp] theorem ok_bind {α β : Type} (a : α) (f : α → Res β) : (ok a >>= f) = f a := rfl
@[simp] theorem err_bind {α β : Type} (e : Err) (f : α → Res β) :
    ((err e : Res α) >>= f) = err e := rfl
@[simp] theorem panic_bind {α β : Type} (f : α → Res β) :
    ((panic : Res α) >>= f) = panic := rfl

theorem bind_eq_ok {α β : Type} {x : Res α} {f : α → Res β} {b : β} :
    (x >>= f) = ok b ↔ ∃ a, x = ok a ∧ f a = ok b := by
  cases x <;> simp

theorem bind_assoc {α β γ : Type} (x : Res α) (f : α → Res β) (g : β → Res γ) :
    ((x >>= f) >>= g) = (x >>= fun a => f a >>= g) := by
  cases x <;> rfl

/-- `true` when the call returned normally with a nil error. -/
def isOk {α : Type} : Res α → Bool
  | ok _ => true
  | _ => false

/-- An `Option` that panics when absent (indexing, nil dereference). -/
def ofOption {α : Type} : Option α → Res α
  | some a => ok a
  | none => panic

@[simp] theorem ofOption_some {α : Type} (a : α) : ofOption (some a) = ok a := rfl
@[simp] theorem ofOption_none {α : Type} : ofOption (none : Option α) = panic := rfl

theorem ofOption_eq_ok {α : Type} {o : Option α} {a : α} : ofOption o = ok a ↔ o = some a := by
  cases o <;> simp

/-- `for _, x := range xs { y = f(x) }` collecting the results, stopping at the first failure. -/
def mapM {α β : Type} (f : α → Res β) : List α → Res (List β)
  | [] => ok []
  | x :: xs => f x >>= fun y => mapM f xs >>= fun ys => ok (y :: ys)

theorem mapM_ok_length {α β : Type} {f : α → Res β} {xs : List α} {ys : List β}
    (h : mapM f xs = ok ys) : ys.length = xs.length := by
  induction xs generalizing ys with
  | nil => simp [mapM] at h; subst h; rfl
  | cons x xs ih =>
    simp only [mapM, bind_eq_ok] at h
    obtain ⟨y, _, zs, hz, h⟩ := h
    cases h
    simp [ih hz]

theorem mapM_ok_get {α β : Type} {f : α → Res β} {xs : List α} {ys : List β}
    (h : mapM f xs = ok ys) (i : Nat) (x : α) (hx : xs[i]? = some x) :
    ∃ y, ys[i]? = some y ∧ f x = ok y := by
  induction xs generalizing ys i with
  | nil => simp at hx
  | cons a as ih =>
    simp only [mapM, bind_eq_ok] at h
    obtain ⟨y, hy, zs, hz, h⟩ := h
    cases h
    cases i with
    | zero => simp at hx; subst hx; exact ⟨y, by simp, hy⟩
    | succ i => simp at hx; simpa using ih hz i hx

theorem mapM_eq_ok_map {α β : Type} {f : α → Res β} {g : α → β} {xs : List α}
    (h : ∀ x ∈ xs, f x = ok (g x)) : mapM f xs = ok (xs.map g) := by
  induction xs with
  | nil => rfl
  | cons x xs ih =>
    simp only [mapM, h x (by simp), ok_bind, ih (fun y hy => h y (by simp [hy])), List.map_cons]

end Res
end Uip
