import Verif.Spec.Pareto
import Verif.Spec.Order
import Verif.Lemmas.Order

/-!
# Lemmas about fronts and ranks
-/

namespace Leap
open Spec

section
variable {α : Type} {dom : α → α → Bool} {pop : List α}

theorem remaining_succ_subset (n : Nat) {x : α} (h : x ∈ remaining dom pop (n + 1)) : x ∈ remaining dom pop n := by
  simp only [remaining, List.mem_filter] at h; exact h.1

theorem remaining_anti {m n : Nat} (hmn : m ≤ n) {x : α} (h : x ∈ remaining dom pop n) : x ∈ remaining dom pop m := by
  induction hmn with
  | refl => exact h
  | step _ ih => exact ih (remaining_succ_subset _ h)

theorem remaining_mem {n : Nat} {x : α} (h : x ∈ remaining dom pop n) : x ∈ pop :=
  remaining_anti (Nat.zero_le n) h

theorem mem_remaining_succ {n : Nat} {x : α} :
    x ∈ remaining dom pop (n + 1) ↔ x ∈ remaining dom pop n ∧ ∃ y ∈ remaining dom pop n, dom y x = true := by
  simp [remaining]

theorem hasRank_unique {x : α} {r s : Nat} (h : HasRank dom pop x r) (h' : HasRank dom pop x s) : r = s := by
  obtain ⟨h1, h2, h3⟩ := h
  obtain ⟨h1', h2', h3'⟩ := h'
  by_contra hne
  rcases Nat.lt_or_gt_of_ne hne with hlt | hlt
  · exact h3 (remaining_anti (by omega) h2')
  · exact h3' (remaining_anti (by omega) h2)

theorem exists_maximal (hd : StrictPartial dom) (l : List α) (hl : l ≠ []) : ∃ x ∈ l, ∀ y ∈ l, dom y x = false := by
  cases l with
  | nil => exact absurd rfl hl
  | cons a l =>
    exact ⟨_, pyMaxFrom_mem dom a l, fun y hy => by
      have := pyMaxFrom_spec hd a l
      exact this y hy⟩

theorem remaining_eq_nil (hd : StrictPartial dom) (n : Nat)
    (h : ∀ x ∈ remaining dom pop n, x ∈ remaining dom pop (n + 1)) : remaining dom pop n = [] := by
  by_contra hne
  obtain ⟨x, hx, hx'⟩ := exists_maximal hd _ hne
  obtain ⟨y, hy, hyx⟩ := (mem_remaining_succ.1 (h x hx)).2
  rw [hx' y hy] at hyx; exact Bool.false_ne_true hyx

theorem hasRank_of_not_mem {x : α} (hx : x ∈ pop) : ∀ n : Nat, x ∉ remaining dom pop n → ∃ r, r ≤ n ∧ HasRank dom pop x r
  | 0, h => absurd hx h
  | n + 1, h => by
    by_cases h' : x ∈ remaining dom pop n
    · exact ⟨n + 1, le_refl _, by omega, h', h⟩
    · obtain ⟨r, hr, hh⟩ := hasRank_of_not_mem hx n h'
      exact ⟨r, by omega, hh⟩

theorem remaining_length (hd : StrictPartial dom) (n : Nat) : (remaining dom pop n).length + n ≤ pop.length ∨ remaining dom pop n = [] := by
  induction n with
  | zero => left; simp [remaining]
  | succ n ih =>
    by_cases he : remaining dom pop n = []
    · right; simp [remaining, he]
    · rcases ih with ih | ih
      · left
        obtain ⟨x, hx, hx'⟩ := exists_maximal hd _ he
        have : ((remaining dom pop n).filter fun x => (remaining dom pop n).any fun y => dom y x).length < (remaining dom pop n).length := by
          apply List.length_filter_lt_length_iff_exists.2
          exact ⟨x, hx, by simpa using hx'⟩
        simp only [remaining]; omega
      · exact absurd ih he

/-- In a finite strict partial order everybody has exactly one rank. -/
theorem hasRank_exists (hd : StrictPartial dom) {x : α} (hx : x ∈ pop) : ∃ r, HasRank dom pop x r := by
  have h : remaining dom pop (pop.length + 1) = [] := by
    rcases remaining_length (dom := dom) (pop := pop) hd (pop.length + 1) with h | h
    · omega
    · exact h
  obtain ⟨r, -, hr⟩ := hasRank_of_not_mem hx (pop.length + 1) (by rw [h]; simp)
  exact ⟨r, hr⟩

/-- A numbering that is larger than that of all dominators, and exactly one larger than that of some dominator unless it
is 1, is the rank. -/
theorem hasRank_of_numbering (ρ : α → Nat)
    (h1 : ∀ x ∈ pop, 1 ≤ ρ x)
    (h2 : ∀ x ∈ pop, ∀ y ∈ pop, dom y x = true → ρ y < ρ x)
    (h3 : ∀ x ∈ pop, 1 < ρ x → ∃ y ∈ pop, dom y x = true ∧ ρ y + 1 = ρ x)
    {x : α} (hx : x ∈ pop) : HasRank dom pop x (ρ x) := by
  have key : ∀ n, ∀ x ∈ pop, (x ∈ remaining dom pop n ↔ n < ρ x) := by
    intro n
    induction n with
    | zero => intro x hx; simp only [remaining, hx, true_iff]; exact h1 x hx
    | succ n ih =>
      intro x hx
      rw [mem_remaining_succ]
      constructor
      · rintro ⟨-, y, hy, hyx⟩
        have hyp := remaining_mem hy
        have := (ih y hyp).1 hy
        have := h2 x hx y hyp hyx
        omega
      · intro hlt
        obtain ⟨y, hy, hyx, he⟩ := h3 x hx (by omega)
        exact ⟨(ih x hx).2 (by omega), y, (ih y hy).2 (by omega), hyx⟩
  have := h1 x hx
  exact ⟨this, (key _ x hx).2 (by omega), fun h => by have := (key _ x hx).1 h; omega⟩

/-- Conversely the ranks satisfy these conditions. -/
theorem hasRank_lt {x y : α} {r s : Nat} (hx : HasRank dom pop x r) (hy : HasRank dom pop y s) (hd : dom y x = true) : s < r := by
  by_contra hlt
  obtain ⟨hr1, hr2, hr3⟩ := hx
  obtain ⟨hs1, hs2, hs3⟩ := hy
  apply hr3
  have : r = (r - 1) + 1 := by omega
  rw [this]
  exact mem_remaining_succ.2 ⟨hr2, y, remaining_anti (by omega) hs2, hd⟩

theorem hasRank_pred {x : α} {r : Nat} (hx : HasRank dom pop x r) (hr : 1 < r) :
    ∃ y ∈ pop, dom y x = true ∧ HasRank dom pop y (r - 1) := by
  obtain ⟨hr1, hr2, hr3⟩ := hx
  obtain ⟨n, rfl⟩ : ∃ n, r = n + 2 := ⟨r - 2, by omega⟩
  simp only [Nat.add_one_sub_one, Nat.add_succ_sub_one] at *
  obtain ⟨-, y, hy, hd⟩ := mem_remaining_succ.1 hr2
  refine ⟨y, remaining_mem hy, hd, by omega, by simpa using hy, ?_⟩
  intro h
  exact hr3 (mem_remaining_succ.2 ⟨hr2, y, h, hd⟩)

end

end Leap
