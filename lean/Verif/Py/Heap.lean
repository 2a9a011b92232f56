import Verif.Py.Basic

/-!
# Computations on a mutable store

`HM M α` is Python code that reads and changes a store of type `M` and returns or raises. What has been
changed before an exception stays changed.
-/

namespace Leap

/-- Code acting on a store: the outcome and the store afterwards (also after an exception).
Python, not LEAP: used for instance in leap_ec/individual.py:118-151. -/
def HM (M α : Type) := M → PyM α × M

namespace HM
variable {M α β : Type}

/-- Return a value. Python, not LEAP: used for instance in leap_ec/individual.py:118-151. -/
def ret (a : α) : HM M α := fun m => (.ok a, m)

/-- Raise an exception. Python, not LEAP: used for instance in leap_ec/individual.py:118-151. -/
def raise (e : PyErr) : HM M α := fun m => (.error e, m)

/-- Sequence: an exception in the first part skips the second.
Python, not LEAP: used for instance in leap_ec/individual.py:118-151. -/
def andThen (x : HM M α) (f : α → HM M β) : HM M β := fun m =>
  match x m with
  | (.ok a, m') => f a m'
  | (.error e, m') => (.error e, m')

/-- Code on a store can be written with `do`. Python, not LEAP: used for instance in leap_ec/individual.py:118-151. -/
instance : Monad (HM M) where
  pure := ret
  bind := andThen

/-- A value or exception computed without the store. Python, not LEAP: used for instance in leap_ec/individual.py:118-151. -/
def lift (r : PyM α) : HM M α := fun m => (r, m)

/-- PEP 479 for the body of a generator: an escaping `StopIteration` becomes `RuntimeError`.
Python, not LEAP: used for instance in leap_ec/ops.py:372-405. -/
def pep479 (x : HM M α) : HM M α := fun m =>
  match x m with
  | (.error .stopIteration, m') => (.error .runtimeError, m')
  | r => r

@[simp] theorem pure_apply (a : α) (m : M) : (pure a : HM M α) m = (.ok a, m) := rfl

@[simp] theorem raise_apply (e : PyErr) (m : M) : (raise e : HM M α) m = (.error e, m) := rfl

@[simp] theorem lift_apply (r : PyM α) (m : M) : (lift r : HM M α) m = (r, m) := rfl

theorem bind_apply (x : HM M α) (f : α → HM M β) (m : M) :
    (x >>= f) m = match x m with
      | (.ok a, m') => f a m'
      | (.error e, m') => (.error e, m') := rfl

end HM

/-- A generator over a store: private state, what it yields. Python, not LEAP: used for instance in leap_ec/ops.py:328-352. -/
abbrev HGen (M σ α : Type) := σ → HM M (α × σ)

/-- `[next(it) for _ in range(n)]`. Python, not LEAP: used for instance in leap_ec/ops.py:1091-1117. -/
def hpull {M σ α : Type} (g : HGen M σ α) : Nat → σ → HM M (List α × σ)
  | 0, s => pure ([], s)
  | n + 1, s => do
    let (a, s1) ← g s
    let (as, s2) ← hpull g n s1
    pure (a :: as, s2)

/-- A computation whose outcome is `Q` when it returns and leaves the store in `E` when it raises.
Used in proofs only: it models no code. -/
def Ensures {M α : Type} (P : M → Prop) (x : HM M α) (Q : α → M → Prop) (E : M → Prop) : Prop :=
  ∀ m, P m → match x m with
    | (.ok a, m') => Q a m'
    | (.error _, m') => E m'

namespace Ensures
variable {M α β : Type} {P : M → Prop} {E : M → Prop}

theorem ret {a : α} {Q : α → M → Prop} (h : ∀ m, P m → Q a m) :
    Ensures P (Pure.pure a : HM M α) Q E := fun m hm => h m hm

theorem raise {e : PyErr} {Q : α → M → Prop} (h : ∀ m, P m → E m) :
    Ensures P (HM.raise e : HM M α) Q E := fun m hm => h m hm

theorem lift {r : PyM α} {Q : α → M → Prop} (h : ∀ m, P m → E m)
    (h2 : ∀ a m, r = .ok a → P m → Q a m) : Ensures P (HM.lift r : HM M α) Q E := by
  intro m hm
  simp only [HM.lift_apply]
  cases r with
  | error e => exact h m hm
  | ok a => exact h2 a m rfl hm

theorem seq {x : HM M α} {f : α → HM M β} {Q : α → M → Prop} {R : β → M → Prop}
    (hx : Ensures P x Q E) (hf : ∀ a, Ensures (Q a) (f a) R E) : Ensures P (x >>= f) R E := by
  intro m hm
  have h1 := hx m hm
  rw [HM.bind_apply]
  rcases e : x m with ⟨r, m1⟩
  rw [e] at h1
  cases r with
  | error err => exact h1
  | ok a => exact hf a m1 h1

theorem mono {x : HM M α} {P' : M → Prop} {Q Q' : α → M → Prop} {E' : M → Prop}
    (h : Ensures P' x Q' E') (hp : ∀ m, P m → P' m) (hq : ∀ a m, Q' a m → Q a m)
    (he : ∀ m, E' m → E m) : Ensures P x Q E := by
  intro m hm
  have h1 := h m (hp m hm)
  rcases e : x m with ⟨r, m1⟩
  rw [e] at h1
  cases r with
  | error err => exact he _ h1
  | ok a => exact hq _ _ h1

theorem pep {x : HM M α} {Q : α → M → Prop} (h : Ensures P x Q E) :
    Ensures P (HM.pep479 x) Q E := by
  intro m hm
  have h1 := h m hm
  simp only [HM.pep479]
  rcases e : x m with ⟨r, m1⟩
  rw [e] at h1
  cases r with
  | error err => cases err <;> exact h1
  | ok a => exact h1

end Ensures

end Leap
