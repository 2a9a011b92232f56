import Verif.Py.Numpy

/-!
# Boolean masks
-/

namespace Leap

variable {γ : Type}

theorem maskStore_select_get (mask : List Bool) (a b : List γ) (ha : mask.length = a.length)
    (hb : mask.length = b.length) (i : Nat) (m : Bool) (hm : mask[i]? = some m) :
    (maskStore mask a (maskSelect mask b))[i]? = if m then b[i]? else a[i]? := by
  induction mask generalizing a b i with
  | nil => simp at hm
  | cons x mask ih =>
    cases a with
    | nil => simp at ha
    | cons p a =>
      cases b with
      | nil => simp at hb
      | cons q b =>
        simp only [List.length_cons, Nat.add_right_cancel_iff] at ha hb
        cases i with
        | zero =>
          simp only [List.getElem?_cons_zero, Option.some.injEq] at hm
          subst hm
          cases x <;> simp [maskStore, maskSelect]
        | succ i =>
          simp only [List.getElem?_cons_succ] at hm
          cases x
          · simp only [maskStore, maskSelect, List.getElem?_cons_succ]
            exact ih a b ha hb i hm
          · simp only [maskStore, maskSelect, List.getElem?_cons_succ]
            exact ih a b ha hb i hm

theorem maskStore_length (mask : List Bool) (a vs : List γ) :
    (maskStore mask a vs).length = a.length := by
  induction mask generalizing a vs with
  | nil => simp [maskStore]
  | cons x mask ih =>
    cases a with
    | nil => cases x <;> simp [maskStore]
    | cons p a =>
      cases x
      · simp [maskStore, ih]
      · cases vs <;> simp [maskStore, ih]

theorem maskSelect_length (mask : List Bool) (a : List γ) (h : mask.length = a.length) :
    (maskSelect mask a).length = mask.count true := by
  induction mask generalizing a with
  | nil => simp [maskSelect]
  | cons x mask ih =>
    cases a with
    | nil => simp at h
    | cons p a =>
      simp only [List.length_cons, Nat.add_right_cancel_iff] at h
      cases x <;> simp [maskSelect, ih a h]

/-- The value stored at a set position is the one whose rank is the number of set positions before. -/
theorem maskStore_get (mask : List Bool) (a vs : List γ) (ha : mask.length = a.length)
    (hv : vs.length = mask.count true) (i : Nat) (m : Bool) (hm : mask[i]? = some m) :
    (maskStore mask a vs)[i]? = if m then vs[(mask.take i).count true]? else a[i]? := by
  induction mask generalizing a vs i with
  | nil => simp at hm
  | cons x mask ih =>
    cases a with
    | nil => simp at ha
    | cons p a =>
      simp only [List.length_cons, Nat.add_right_cancel_iff] at ha
      cases x with
      | false =>
        have hv : vs.length = mask.count true := by simpa [List.count_cons] using hv
        cases i with
        | zero =>
          simp only [List.getElem?_cons_zero, Option.some.injEq] at hm
          subst hm
          simp [maskStore]
        | succ i =>
          simp only [List.getElem?_cons_succ] at hm
          simp only [maskStore, List.getElem?_cons_succ, ih a vs ha hv i hm,
            List.take_succ_cons, List.count_cons]
          simp
      | true =>
        cases vs with
        | nil => simp at hv
        | cons v vs =>
          simp only [List.length_cons, List.count_cons, beq_self_eq_true, if_true,
            Nat.add_right_cancel_iff] at hv
          cases i with
          | zero =>
            simp only [List.getElem?_cons_zero, Option.some.injEq] at hm
            subst hm
            simp [maskStore]
          | succ i =>
            simp only [List.getElem?_cons_succ] at hm
            simp only [maskStore, List.getElem?_cons_succ, ih a vs ha hv i hm,
              List.take_succ_cons, List.count_cons]
            simp

theorem maskSelect_get (mask : List Bool) (a : List γ) (ha : mask.length = a.length)
    (i : Nat) (hm : mask[i]? = some true) :
    (maskSelect mask a)[(mask.take i).count true]? = a[i]? := by
  induction mask generalizing a i with
  | nil => simp at hm
  | cons x mask ih =>
    cases a with
    | nil => simp at ha
    | cons p a =>
      simp only [List.length_cons, Nat.add_right_cancel_iff] at ha
      cases i with
      | zero =>
        simp only [List.getElem?_cons_zero, Option.some.injEq] at hm
        subst hm
        simp [maskSelect]
      | succ i =>
        simp only [List.getElem?_cons_succ] at hm
        cases x <;> simp [maskSelect, ih a ha i hm]

/-- Selection by a mask that comes from testing a second list. -/
theorem maskSelect_eq_filter {β : Type} (p : β → Bool) (u : List β) (a : List γ)
    (h : u.length = a.length) :
    maskSelect (u.map p) a = ((a.zip u).filter (fun q => p q.2)).map Prod.fst := by
  induction u generalizing a with
  | nil => simp [maskSelect]
  | cons x u ih =>
    cases a with
    | nil => simp at h
    | cons y a =>
      simp only [List.length_cons, Nat.add_right_cancel_iff] at h
      cases hx : p x <;> simp [maskSelect, hx, ih a h]

theorem count_map_true {β : Type} (p : β → Bool) (u : List β) :
    (u.map p).count true = u.countP p := by
  induction u with
  | nil => rfl
  | cons x u ih => cases h : p x <;> simp [List.count_cons, h, ih]

theorem bernoulliVector_ok {u : List ℚ} {p : ℚ} (h0 : 0 ≤ p) (h1 : p ≤ 1) :
    bernoulliVector u p = .ok (u.map fun x => decide (x < p)) := by
  simp [bernoulliVector, h0, h1]

end Leap
