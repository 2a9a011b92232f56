import Mathlib.Tactic.ByContra
import Verif.Model.OpTypes

/-!
# Type checks around operators (C58)
-/

namespace Leap

namespace Spec

/-- `g` is `f` with its input and output checked: a wrong input is refused without running `f`; otherwise `f` runs once
with the same arguments, what it raises is passed on, and its result is returned as it is if it has the right kind and
refused otherwise. -/
def Checked (input output : V → Prop) (f g : V → A → W → PyM V × W) : Prop :=
  ∀ x args w,
    (¬ input x → g x args w = (.error .valueError, w)) ∧
    (input x → ∀ e w', f x args w = (.error e, w') → g x args w = (.error e, w')) ∧
    (input x → ∀ r w', f x args w = (.ok r, w') → output r → g x args w = (.ok r, w')) ∧
    (input x → ∀ r w', f x args w = (.ok r, w') → ¬ output r → g x args w = (.error .valueError, w'))

end Spec

open Spec

/-- C58: `iteriter_op` checks for an iterator in and an iterator out. -/
theorem iteriter_checked (kind : V → OpKind) (f : WrappedOp V A W) :
    Checked (fun x => (kind x).isIterator = true) (fun x => (kind x).isIterator = true) f (iteriterOp kind f) := by
  intro x args w
  unfold iteriterOp
  refine ⟨?_, ?_, ?_, ?_⟩
  · intro h; simp [h]
  · intro h e w' hf; simp [h, hf]
  · intro h r w' hf ho; simp [h, hf, ho]
  · intro h r w' hf ho; simp [h, hf, ho]

/-- C58: `listlist_op` checks for a list in and a list out. -/
theorem listlist_checked (kind : V → OpKind) (f : WrappedOp V A W) :
    Checked (fun x => (kind x).isList = true) (fun x => (kind x).isList = true) f (listlistOp kind f) := by
  intro x args w
  unfold listlistOp
  refine ⟨?_, ?_, ?_, ?_⟩
  · intro h; simp [h]
  · intro h e w' hf; simp [h, hf]
  · intro h r w' hf ho; simp [h, hf, ho]
  · intro h r w' hf ho; simp [h, hf, ho]

/-- C58: `listiter_op` checks for a list in and an iterator out. -/
theorem listiter_checked (kind : V → OpKind) (f : WrappedOp V A W) :
    Checked (fun x => (kind x).isList = true) (fun x => (kind x).isIterator = true) f (listiterOp kind f) := by
  intro x args w
  unfold listiterOp
  refine ⟨?_, ?_, ?_, ?_⟩
  · intro h; simp [h]
  · intro h e w' hf; simp [h, hf]
  · intro h r w' hf ho; simp [h, hf, ho]
  · intro h r w' hf ho; simp [h, hf, ho]

/-- C58: `iterlist_op` checks for an iterator in and a list out. -/
theorem iterlist_checked (kind : V → OpKind) (f : WrappedOp V A W) :
    Checked (fun x => (kind x).isIterator = true) (fun x => (kind x).isList = true) f (iterlistOp kind f) := by
  intro x args w
  unfold iterlistOp
  refine ⟨?_, ?_, ?_, ?_⟩
  · intro h; simp [h]
  · intro h e w' hf; simp [h, hf]
  · intro h r w' hf ho; simp [h, hf, ho]
  · intro h r w' hf ho; simp [h, hf, ho]

/-- C58: chaining two checked operators works exactly when the kinds meet: if the first can only give what the second does
not take, the second never runs. -/
theorem checked_chain {input mid mid' output : V → Prop} {f f' g g' : V → A → W → PyM V × W}
    (h1 : Checked input mid f g) (h2 : Checked mid' output f' g') (x : V) (a b : A) (w w' : W) (r : V)
    (hr : g x a w = (.ok r, w')) :
    mid r ∧ f x a w = (.ok r, w') ∧ (¬ mid' r → g' r b w' = (.error .valueError, w')) := by
  obtain ⟨c1, c2, c3, c4⟩ := h1 x a w
  have hin : input x := by
    by_contra hn
    rw [c1 hn] at hr
    simp at hr
  have hf : f x a w = (.ok r, w') ∧ mid r := by
    match hfx : f x a w with
    | (.error e, w'') => rw [c2 hin e w'' hfx] at hr; simp at hr
    | (.ok r', w'') =>
      by_cases hm : mid r'
      · rw [c3 hin r' w'' hfx hm] at hr
        simp only [Prod.mk.injEq, Except.ok.injEq] at hr
        obtain ⟨rfl, rfl⟩ := hr
        exact ⟨rfl, hm⟩
      · rw [c4 hin r' w'' hfx hm] at hr; simp at hr
  exact ⟨hf.2, hf.1, (h2 r b w').1⟩

/-- A list operator that counts its calls. -/
def exOp : WrappedOp (List Nat ⊕ Nat) Unit Nat := fun x _ w => (.ok x, w + 1)
/-- Lists, and iterators represented by a number. -/
def exKind : List Nat ⊕ Nat → OpKind
  | .inl _ => ⟨true, false, false⟩
  | .inr _ => ⟨false, true, false⟩

example : listlistOp exKind exOp (.inl [1]) () 0 = (.ok (.inl [1]), 1) := rfl
example : listlistOp exKind exOp (.inr 1) () 0 = (.error .valueError, 0) := rfl
example : listiterOp exKind exOp (.inl [1]) () 0 = (.error .valueError, 1) := rfl

end Leap
