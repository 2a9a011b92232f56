import Verif.Py.Basic

/-!
# Type checks around operators

Models the four decorators of `leap_ec/ops.py`. `W` is everything the wrapped operator may change, so that it is visible
whether the operator ran.
-/

namespace Leap

/-- What the decorators ask about an object. For leap_ec/ops.py:77-113. -/
structure OpKind where
  isList : Bool
  isIterator : Bool
  isCurry : Bool
  deriving DecidableEq

/-- The wrapped operator: first argument, further arguments, world. For leap_ec/ops.py:77-113. -/
abbrev WrappedOp (V A W : Type) := V → A → W → PyM V × W

/-- `iteriter_op` (leap_ec/ops.py:77-113). -/
def iteriterOp (kind : V → OpKind) (f : WrappedOp V A W) : WrappedOp V A W := fun x args w =>
  if !(kind x).isIterator then
    if (kind x).isCurry then (.error .valueError, w) else (.error .valueError, w)
  else
    match f x args w with
    | (.error e, w') => (.error e, w')
    | (.ok result, w') => if !(kind result).isIterator then (.error .valueError, w') else (.ok result, w')

/-- `listlist_op` (leap_ec/ops.py:116-152). -/
def listlistOp (kind : V → OpKind) (f : WrappedOp V A W) : WrappedOp V A W := fun x args w =>
  if !(kind x).isList then
    if (kind x).isCurry then (.error .valueError, w) else (.error .valueError, w)
  else
    match f x args w with
    | (.error e, w') => (.error e, w')
    | (.ok result, w') => if !(kind result).isList then (.error .valueError, w') else (.ok result, w')

/-- `listiter_op` (leap_ec/ops.py:155-191). -/
def listiterOp (kind : V → OpKind) (f : WrappedOp V A W) : WrappedOp V A W := fun x args w =>
  if !(kind x).isList then
    if (kind x).isCurry then (.error .valueError, w) else (.error .valueError, w)
  else
    match f x args w with
    | (.error e, w') => (.error e, w')
    | (.ok result, w') => if !(kind result).isIterator then (.error .valueError, w') else (.ok result, w')

/-- `iterlist_op` (leap_ec/ops.py:194-230). -/
def iterlistOp (kind : V → OpKind) (f : WrappedOp V A W) : WrappedOp V A W := fun x args w =>
  if !(kind x).isIterator then
    if (kind x).isCurry then (.error .valueError, w) else (.error .valueError, w)
  else
    match f x args w with
    | (.error e, w') => (.error e, w')
    | (.ok result, w') => if !(kind result).isList then (.error .valueError, w') else (.ok result, w')

end Leap
