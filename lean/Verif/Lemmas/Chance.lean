import Mathlib.Algebra.BigOperators.Ring.Finset
import Mathlib.Algebra.BigOperators.Field
import Mathlib.Data.Fintype.Fin
import Mathlib.Data.Rat.Floor
import Mathlib.Algebra.Order.Floor.Ring
import Mathlib.Tactic.Linarith
import Mathlib.Tactic.FieldSimp
import Mathlib.Tactic.Ring
import Verif.Spec.Chance

/-! # Counting equally likely outcomes -/

namespace Leap
open Spec

theorem chance_congr {Ω : Type} {E F : Ω → Prop} (h : ∀ ω, E ω ↔ F ω) : chance E = chance F := by
  have : E = F := funext fun ω => propext (h ω)
  rw [this]

theorem chance_fintype {Ω : Type} [Fintype Ω] (E : Ω → Prop) [DecidablePred E] :
    chance E = ((Finset.univ.filter E).card : ℚ) / Fintype.card Ω := by
  unfold chance
  rw [Nat.card_eq_fintype_card, Nat.card_eq_fintype_card, Fintype.card_subtype]

/-- Independence. -/
theorem chance_pi {n : Nat} {Ω : Fin n → Type} (E : (i : Fin n) → Ω i → Prop) :
    chance (fun v : (i : Fin n) → Ω i => ∀ i, E i (v i)) = ∏ i, chance (E i) := by
  unfold chance
  have e : {v : (i : Fin n) → Ω i // ∀ i, E i (v i)} ≃ ((i : Fin n) → {x : Ω i // E i x}) := Equiv.subtypePiEquivPi
  rw [Nat.card_congr e, Nat.card_pi, Nat.card_pi, Finset.prod_div_distrib]
  push_cast
  rfl

theorem chance_true {Ω : Type} [Finite Ω] [Nonempty Ω] : chance (fun _ : Ω => True) = 1 := by
  unfold chance
  rw [Nat.card_congr (Equiv.subtypeUnivEquiv (fun _ => trivial))]
  have : (Nat.card Ω : ℚ) ≠ 0 := by
    have := Nat.card_pos (α := Ω)
    positivity
  exact div_self this

theorem chance_false {Ω : Type} {E : Ω → Prop} (h : ∀ ω, ¬ E ω) : chance E = 0 := by
  unfold chance
  have : IsEmpty {ω // E ω} := ⟨fun x => h x.1 x.2⟩
  rw [Nat.card_of_isEmpty]
  simp

theorem chance_not {Ω : Type} [Finite Ω] [Nonempty Ω] (E : Ω → Prop) : chance (fun ω => ¬ E ω) = 1 - chance E := by
  classical
  have := Fintype.ofFinite Ω
  rw [chance_fintype, chance_fintype]
  have hc : ((Finset.univ.filter fun ω => ¬ E ω).card : ℚ) + (Finset.univ.filter E).card = Fintype.card Ω := by
    have := Finset.card_filter_add_card_filter_not (s := (Finset.univ : Finset Ω)) E
    rw [Finset.card_univ] at this
    rw [add_comm]
    exact_mod_cast this
  have hp : (Fintype.card Ω : ℚ) ≠ 0 := by
    have := Fintype.card_pos (α := Ω)
    positivity
  rw [eq_sub_iff_add_eq, ← add_div, hc, div_self hp]

theorem chance_and {Ω Ω' : Type} (A : Ω → Prop) (B : Ω' → Prop) :
    chance (fun x : Ω × Ω' => A x.1 ∧ B x.2) = chance A * chance B := by
  unfold chance
  have e : {x : Ω × Ω' // A x.1 ∧ B x.2} ≃ {a // A a} × {b // B b} := Equiv.subtypeProdEquivProd
  rw [Nat.card_congr e, Nat.card_prod, Nat.card_prod]
  push_cast
  rw [mul_div_mul_comm]

theorem chance_or {Ω : Type} [Finite Ω] (A B : Ω → Prop) (h : ∀ ω, A ω → ¬ B ω) :
    chance (fun ω => A ω ∨ B ω) = chance A + chance B := by
  classical
  have := Fintype.ofFinite Ω
  rw [chance_fintype, chance_fintype, chance_fintype, ← add_div]
  congr 1
  rw [Finset.filter_or, Finset.card_union_of_disjoint]
  · push_cast; rfl
  · rw [Finset.disjoint_filter]
    intro ω _ ha hb
    exact h ω ha hb

/-- The chance of an event about one of several independent outcomes. -/
theorem chance_coord {n N : Nat} (hN : 0 < N) (i : Fin n) (E : Fin N → Prop) :
    chance (fun v : Fin n → Fin N => E (v i)) = chance E := by
  classical
  have : Nonempty (Fin N) := ⟨⟨0, hN⟩⟩
  have h := chance_pi (n := n) (Ω := fun _ => Fin N) (fun j x => j = i → E x)
  rw [chance_congr (F := fun v : Fin n → Fin N => E (v i)) (fun v => ⟨fun h => h i rfl, fun h j hj => hj ▸ h⟩)] at h
  rw [h]
  rw [Finset.prod_eq_single i]
  · exact chance_congr fun x => ⟨fun h => h rfl, fun h _ => h⟩
  · intro j _ hj
    rw [chance_congr (F := fun _ => True) (fun x => ⟨fun _ => trivial, fun _ h => absurd h hj⟩)]
    exact chance_true
  · intro h; exact absurd (Finset.mem_univ i) h

/-- The mean of the number of events that happen is the sum of their chances. -/
theorem mean_count {Ω : Type} [Fintype Ω] {n : Nat} (E : Fin n → Ω → Prop) :
    mean (fun ω => (Nat.card {i // E i ω} : ℚ)) = ∑ i, chance (E i) := by
  classical
  unfold mean
  have h1 : ∀ ω, (Nat.card {i // E i ω} : ℚ) = ∑ i, if E i ω then (1 : ℚ) else 0 := by
    intro ω
    rw [Nat.card_eq_fintype_card, Fintype.card_subtype, Finset.sum_boole]
  simp only [h1]
  rw [Finset.sum_comm, Finset.sum_div]
  apply Finset.sum_congr rfl
  intro i _
  rw [chance_fintype, Finset.sum_boole, Nat.card_eq_fintype_card]

theorem mean_congr {Ω : Type} [Fintype Ω] {f g : Ω → ℚ} (h : ∀ ω, f ω = g ω) : mean f = mean g := by
  have : f = g := funext h
  rw [this]

/-- The chance of a random number being below `p` is `p` up to the resolution of random numbers. -/
theorem below_eq (N : Nat) (hN : 0 < N) (p : ℚ) (h0 : 0 ≤ p) (h1 : p ≤ 1) : below N p = (⌈p * N⌉ : ℚ) / N := by
  classical
  have hNq : (0 : ℚ) < N := by exact_mod_cast hN
  unfold below
  rw [chance_fintype, Fintype.card_fin]
  congr 1
  have hc0 : 0 ≤ ⌈p * N⌉ := Int.ceil_nonneg (by positivity)
  have hcN : ⌈p * N⌉ ≤ N := by
    apply Int.ceil_le.2
    push_cast
    nlinarith
  have hset : (Finset.univ.filter fun x : Fin N => ((x : Nat) : ℚ) / N < p) = Finset.univ.filter fun x : Fin N => (x : Nat) < ⌈p * N⌉.toNat := by
    apply Finset.filter_congr
    intro x _
    rw [div_lt_iff₀ hNq]
    constructor
    · intro h
      have : ((x : Nat) : Int) < ⌈p * N⌉ := Int.lt_ceil.2 (by exact_mod_cast h)
      omega
    · intro h
      have : ((x : Nat) : Int) < ⌈p * N⌉ := by omega
      exact_mod_cast Int.lt_ceil.1 this
  rw [hset]
  have hcard : (Finset.univ.filter fun x : Fin N => (x : Nat) < ⌈p * N⌉.toNat).card = ⌈p * N⌉.toNat := by
    have := Fin.card_filter_val_lt (n := N) (m := ⌈p * N⌉.toNat)
    rw [this]
    omega
  rw [hcard]
  have : ((⌈p * N⌉.toNat : Int) : ℚ) = (⌈p * N⌉ : ℚ) := by rw [Int.toNat_of_nonneg hc0]
  exact_mod_cast this

end Leap
