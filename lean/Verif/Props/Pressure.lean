import Mathlib.Algebra.Order.Chebyshev
import Verif.Props.SelectChance

/-!
# C107: selection raises the mean
-/

namespace Leap
open Spec

variable {α : Type}

/-- The mean of a score over a population. -/
noncomputable def Spec.popMean {n : Nat} (score : Fin n → ℚ) : ℚ := mean score

/-- `winner` says, for every possible draw of a tournament of size `k`, who is selected. -/
def Spec.Winners (lt gt : α → α → Bool) (worst : Bool) {n : Nat} (pop : Fin n → α) (k : Nat) (winner : (Fin k → Fin n) → Fin n) : Prop :=
  ∀ v, tournamentStep lt gt worst (List.ofFn pop) k (indices v) = .ok ([(winner v : Nat)], pop (winner v))

theorem mean_mono {Ω : Type} [Fintype Ω] {f g : Ω → ℚ} (h : ∀ ω, f ω ≤ g ω) : mean f ≤ mean g := by
  unfold mean
  exact div_le_div_of_nonneg_right (Finset.sum_le_sum fun ω _ => h ω) (by positivity)

/-- A number that depends on the first `k` of `k + d` draws has the same mean as over `k` draws. -/
theorem mean_first {n k d : Nat} (hn : 0 < n) (f : (Fin k → Fin n) → ℚ) :
    mean (fun v : Fin (k + d) → Fin n => f fun t => v (Fin.castAdd d t)) = mean f := by
  have e : (Fin (k + d) → Fin n) ≃ (Fin k → Fin n) × (Fin d → Fin n) := (Fin.appendEquiv k d).symm
  have hs : ∑ v : Fin (k + d) → Fin n, f (fun t => v (Fin.castAdd d t)) = ∑ p : (Fin k → Fin n) × (Fin d → Fin n), f p.1 := by
    refine Fintype.sum_equiv (Fin.appendEquiv k d).symm _ _ fun v => ?_
    rfl
  unfold mean
  rw [hs, Fintype.sum_prod_type]
  simp only [Finset.sum_const, Finset.card_univ, nsmul_eq_mul, Nat.card_eq_fintype_card, Fintype.card_fun, Fintype.card_fin]
  rw [← Finset.mul_sum]
  have : (0 : ℚ) < n := by exact_mod_cast hn
  push_cast
  rw [pow_add]
  field_simp

/-- **C107** (tournament). Whatever the population, there is one winner for each draw, and the mean score of the winner is at least the mean score of the
population; it never falls when tournaments get bigger, and a tournament of one is a fair pick. -/
theorem tournament_pressure (score : α → ℚ) {n : Nat} (hn : 0 < n) (pop : Fin n → α) :
    let gt := fun a b => decide (score b < score a)
    let lt := fun a b => decide (score a < score b)
    (∀ k worst, 0 < k → ∃ winner, Winners lt gt worst pop k winner) ∧
    (∀ k d winner bigger, 0 < k → Winners lt gt false pop k winner → Winners lt gt false pop (k + d) bigger →
      mean (fun v => score (pop (winner v))) ≤ mean (fun v => score (pop (bigger v)))) ∧
    (∀ worst winner, Winners lt gt worst pop 1 winner → mean (fun v => score (pop (winner v))) = popMean fun i => score (pop i)) ∧
    (∀ k winner, 0 < k → Winners lt gt false pop k winner → popMean (fun i => score (pop i)) ≤ mean (fun v => score (pop (winner v)))) ∧
    (∀ k winner, 0 < k → Winners lt gt true pop k winner → mean (fun v => score (pop (winner v))) ≤ popMean fun i => score (pop i)) := by
  intro gt lt
  have hgt : StrictWeak gt := ⟨by intro a b; simp [gt]; exact fun h => h.le, by intro a b c; simp [gt]; exact fun h1 h2 => h1.trans h2⟩
  have hlt : StrictWeak lt := ⟨by intro a b; simp [lt]; exact fun h => h.le, by intro a b c; simp [lt]; exact fun h1 h2 => h2.trans h1⟩
  have hbest : ∀ k worst winner, 0 < k → Winners lt gt worst pop k winner → ∀ v : Fin k → Fin n,
      (∃ t, winner v = v t) ∧ ∀ s, (if worst then lt else gt) (pop (v s)) (pop (winner v)) = false := by
    intro k worst winner hk hw v
    obtain ⟨t, ht, hb⟩ := tournament_result lt gt hlt hgt worst hk hn pop v
    have h := hw v
    rw [ht] at h
    simp only [Except.ok.injEq, Prod.mk.injEq, List.cons.injEq, and_true] at h
    have : v t = winner v := Fin.ext h.1
    exact ⟨⟨t, this.symm⟩, fun s => this ▸ hb s⟩
  have hone : ∀ worst winner, Winners lt gt worst pop 1 winner → mean (fun v => score (pop (winner v))) = popMean fun i => score (pop i) := by
    intro worst winner hw
    have h1 : ∀ v, winner v = v 0 := by
      intro v
      obtain ⟨t, ht⟩ := (hbest 1 worst winner (by decide) hw v).1
      rw [ht, Subsingleton.elim t 0]
    unfold popMean mean
    congr 1
    · refine Fintype.sum_equiv (Equiv.funUnique (Fin 1) (Fin n)) _ _ fun v => ?_
      rw [h1]; rfl
    · simp
  have hex : ∀ k worst, 0 < k → ∃ winner, Winners lt gt worst pop k winner := by
    intro k worst hk
    refine ⟨fun v => v (tournament_result lt gt hlt hgt worst hk hn pop v).choose, fun v => ?_⟩
    exact (tournament_result lt gt hlt hgt worst hk hn pop v).choose_spec.1
  have hgrow : ∀ k d winner bigger, 0 < k → Winners lt gt false pop k winner → Winners lt gt false pop (k + d) bigger →
      mean (fun v => score (pop (winner v))) ≤ mean (fun v => score (pop (bigger v))) := by
    intro k d winner bigger hk hw hb
    rw [← mean_first (d := d) hn fun v => score (pop (winner v))]
    apply mean_mono
    intro v
    obtain ⟨t, ht⟩ := (hbest k false winner hk hw fun t => v (Fin.castAdd d t)).1
    have := (hbest (k + d) false bigger (by omega) hb v).2 (Fin.castAdd d t)
    simp only [Bool.false_eq_true, if_false, gt, decide_eq_false_iff_not, not_lt] at this
    rw [ht]; exact this
  refine ⟨hex, hgrow, hone, ?_, ?_⟩
  · intro k winner hk hw
    obtain ⟨w1, h1⟩ := hex 1 false (by decide)
    obtain ⟨k', rfl⟩ : ∃ k', k = 1 + k' := ⟨k - 1, by omega⟩
    rw [← hone false w1 h1]
    exact hgrow 1 k' w1 winner (by decide) h1 hw
  · intro k winner hk hw
    obtain ⟨w1, h1⟩ := hex 1 true (by decide)
    obtain ⟨k', rfl⟩ : ∃ k', k = 1 + k' := ⟨k - 1, by omega⟩
    rw [← hone true w1 h1, ← mean_first (d := k') hn fun v => score (pop (w1 v))]
    apply mean_mono
    intro v
    obtain ⟨t, ht⟩ := (hbest 1 true w1 (by decide) h1 fun t => v (Fin.castAdd k' t)).1
    have := (hbest (1 + k') true winner (by omega) hw v).2 (Fin.castAdd k' t)
    simp only [if_true, lt, decide_eq_false_iff_not, not_lt] at this
    rw [ht]; exact this

/-- **C107** (tournament, strictly). As soon as the population is not all equal, a tournament of two or more does strictly better than a fair pick. -/
theorem tournament_pressure_strict (score : α → ℚ) {n : Nat} (pop : Fin n → α) (i j : Fin n) (hij : score (pop i) < score (pop j)) (k : Nat) (hk : 2 ≤ k)
    (winner : (Fin k → Fin n) → Fin n)
    (hw : Winners (fun a b => decide (score a < score b)) (fun a b => decide (score b < score a)) false pop k winner) :
    popMean (fun i => score (pop i)) < mean (fun v => score (pop (winner v))) := by
  have hn : 0 < n := by have := i.2; omega
  set gt := fun a b => decide (score b < score a) with hgtd
  set lt := fun a b => decide (score a < score b) with hltd
  have hgt : StrictWeak gt := ⟨by intro a b; simp [gt]; exact fun h => h.le, by intro a b c; simp [gt]; exact fun h1 h2 => h1.trans h2⟩
  have hlt : StrictWeak lt := ⟨by intro a b; simp [lt]; exact fun h => h.le, by intro a b c; simp [lt]; exact fun h1 h2 => h2.trans h1⟩
  have hbest : ∀ v : Fin k → Fin n, ∀ s, score (pop (v s)) ≤ score (pop (winner v)) := by
    intro v s
    obtain ⟨t, ht, hb⟩ := tournament_result lt gt hlt hgt false (by omega) hn pop v
    have h := hw v
    rw [ht] at h
    simp only [Except.ok.injEq, Prod.mk.injEq, List.cons.injEq, and_true] at h
    have : v t = winner v := Fin.ext h.1
    have hb := hb s
    rw [this] at hb
    simpa [gt] using hb
  obtain ⟨k', rfl⟩ : ∃ k', k = 1 + (k' + 1) := ⟨k - 2, by omega⟩
  have hfair : mean (fun v : Fin 1 → Fin n => score (pop (v 0))) = popMean fun i => score (pop i) := by
    unfold popMean mean
    congr 1
    · refine Fintype.sum_equiv (Equiv.funUnique (Fin 1) (Fin n)) _ _ fun v => rfl
    · simp
  rw [← hfair, ← mean_first (d := k' + 1) hn fun v : Fin 1 → Fin n => score (pop (v 0))]
  unfold mean
  have : Nonempty (Fin n) := ⟨i⟩
  refine div_lt_div_of_pos_right ?_ (by exact_mod_cast Nat.card_pos)
  refine Finset.sum_lt_sum (fun v _ => hbest v _) ⟨Function.update (fun _ => j) 0 i, Finset.mem_univ _, ?_⟩
  have h1 : (Function.update (fun _ => j) 0 i : Fin (1 + (k' + 1)) → Fin n) (Fin.castAdd (k' + 1) 0) = i := by
    rw [show (Fin.castAdd (k' + 1) (0 : Fin 1)) = (0 : Fin (1 + (k' + 1))) from rfl, Function.update_self]
  have h2 := hbest (Function.update (fun _ => j) 0 i) (Fin.natAdd 1 0)
  rw [Function.update_of_ne (by intro h; have := congrArg Fin.val h; simp at this)] at h2
  show score (pop (Function.update (fun _ => j) 0 i (Fin.castAdd (k' + 1) 0))) < _
  rw [h1]
  exact lt_of_lt_of_le hij h2

/-- **C107** (truncation). The mean score of the survivors of truncation selection is at least the mean score of everybody who took part. -/
theorem truncation_pressure (score : α → ℚ) (offspring : List α) (size : Nat) (parents : Option (List α)) :
    let all := offspring ++ parents.getD []
    let kept := truncationSelection (fun a b => decide (score a < score b)) offspring size parents
    kept ≠ [] → (all.map score).sum / all.length ≤ (kept.map score).sum / kept.length := by
  intro all kept hne
  have hlt : StrictWeak fun a b : α => decide (score a < score b) :=
    ⟨by intro a b; simp; exact fun h => h.le, by intro a b c; simp; exact fun h1 h2 => h2.trans h1⟩
  obtain ⟨⟨rest, hperm, -, hbest⟩, -⟩ := truncation_keeps_best _ hlt offspring size parents
  change (kept ++ rest).Perm all at hperm
  have hsum : (all.map score).sum = (kept.map score).sum + (rest.map score).sum := by
    rw [← (hperm.map score).sum_eq, List.map_append, List.sum_append]
  have hlen : all.length = kept.length + rest.length := by rw [← hperm.length_eq, List.length_append]
  have hk : 0 < kept.length := List.length_pos_iff.2 hne
  have hkq : (0 : ℚ) < kept.length := by exact_mod_cast hk
  -- the worst of the kept separates
  have hcross : (rest.map score).sum * kept.length ≤ (kept.map score).sum * rest.length := by
    have hb : ∀ x ∈ kept, ∀ y ∈ rest, score y ≤ score x := by
      intro x hx y hy; simpa using hbest x hx y hy
    clear hperm hsum hlen hbest
    generalize kept = K at hb
    generalize rest = R at hb
    have h1 : ∀ x ∈ K, (R.map score).sum ≤ score x * R.length := by
      intro x hx
      have := hb x hx
      clear hb
      induction R with
      | nil => simp
      | cons y R ih =>
        have h2 := ih fun y hy => this y (List.mem_cons_of_mem _ hy)
        have h3 := this y List.mem_cons_self
        simp only [List.map_cons, List.sum_cons, List.length_cons]
        push_cast
        linarith
    clear hb
    induction K with
    | nil => simp
    | cons x K ih =>
      have h2 := ih fun x hx => h1 x (List.mem_cons_of_mem _ hx)
      have h3 := h1 x List.mem_cons_self
      simp only [List.map_cons, List.sum_cons, List.length_cons]
      push_cast
      linarith
  have haq : (0 : ℚ) < all.length := by rw [hlen]; push_cast; positivity
  rw [div_le_div_iff₀ haq hkq, hsum, hlen]
  push_cast
  linarith

/-- The mean of a number that depends on which of `n` members comes out. -/
theorem mean_by_member {Ω : Type} [Fintype Ω] {n : Nat} (idx : Ω → Fin n) (f : Fin n → ℚ) :
    mean (fun ω => f (idx ω)) = ∑ i, chance (fun ω => idx ω = i) * f i := by
  classical
  unfold mean
  simp only [chance_fintype, div_mul_eq_mul_div, Nat.card_eq_fintype_card]
  rw [← Finset.sum_div]
  congr 1
  rw [← Finset.sum_fiberwise_of_maps_to (t := Finset.univ) (g := idx) (fun _ _ => Finset.mem_univ _)]
  apply Finset.sum_congr rfl
  intro i _
  rw [Finset.sum_congr rfl (g := fun _ => f i) (by intro ω hω; rw [(Finset.mem_filter.1 hω).2]), Finset.sum_const, nsmul_eq_mul]

/-- Numbers weighted by a non-negative quantity that grows with them have at least the plain mean. -/
theorem weighted_mean {n : Nat} (f v w : Fin n → ℚ) (ε : ℚ) (hmono : Monovary f v) (hpos : 0 < ∑ i, v i)
    (hw : ∀ i, |w i - v i / ∑ j, v j| ≤ ε) :
    (∑ i, f i) / n - ε * ∑ i, |f i| ≤ ∑ i, w i * f i := by
  have hcheb : (∑ i, f i) * ∑ i, v i ≤ n * ∑ i, f i * v i := by
    have := hmono.sum_mul_sum_le_card_mul_sum
    simpa using this
  have h1 : ∀ i, v i / (∑ j, v j) * f i - ε * |f i| ≤ w i * f i := by
    intro i
    have h2 : |(w i - v i / ∑ j, v j) * f i| ≤ ε * |f i| := by
      rw [abs_mul]; exact mul_le_mul_of_nonneg_right (hw i) (abs_nonneg _)
    have := (abs_le.1 h2).1
    linarith
  have h3 := Finset.sum_le_sum fun i (_ : i ∈ Finset.univ) => h1 i
  rw [Finset.sum_sub_distrib, ← Finset.mul_sum] at h3
  refine le_trans (sub_le_sub_right ?_ _) h3
  have h4 : ∑ i, v i / (∑ j, v j) * f i = (∑ i, f i * v i) / ∑ j, v j := by
    rw [Finset.sum_div]
    apply Finset.sum_congr rfl
    intro i _
    ring
  rw [h4]
  rcases Nat.eq_zero_or_pos n with rfl | hn
  · simp
  · have hnq : (0 : ℚ) < n := by exact_mod_cast hn
    rw [div_le_div_iff₀ hnq hpos]
    linarith

/-- `off` is what the argument `offset` adds to every value: the number itself, or, for `'pop-min'`, what makes the least value 0. -/
def Spec.Adds (offset : Offset) {n : Nat} (values : Fin n → ℚ) (off : ℚ) : Prop :=
  match offset with
  | .num q => off = q
  | .popMin => (∃ i, values i + off = 0) ∧ ∀ i, 0 ≤ values i + off

theorem foldl_least (x : ℚ) (l : List ℚ) : l.foldl min x ∈ x :: l ∧ ∀ y ∈ x :: l, l.foldl min x ≤ y := by
  induction l generalizing x with
  | nil => simp
  | cons z l ih =>
    obtain ⟨h1, h2⟩ := ih (min x z)
    constructor
    · simp only [List.foldl_cons]
      rcases List.mem_cons.1 h1 with h | h
      · rw [h]
        rcases min_choice x z with h' | h' <;> rw [h'] <;> simp
      · simp [h]
    · intro y hy
      simp only [List.foldl_cons]
      have h3 := h2 (min x z) List.mem_cons_self
      rcases List.mem_cons.1 hy with rfl | hy
      · exact h3.trans (min_le_left _ _)
      · rcases List.mem_cons.1 hy with rfl | hy
        · exact h3.trans (min_le_right _ _)
        · exact h2 y (List.mem_cons_of_mem _ hy)

theorem values_of_adds (key : α → ℚ) (offset : Offset) (e : Nat) {n : Nat} (pop : Fin n → α) (off : ℚ) (h : Adds offset (fun i => key (pop i)) off) :
    computePopulationValues key offset e (List.ofFn pop) = .ok (List.ofFn fun i => (key (pop i) + off) ^ e) := by
  cases offset with
  | num q =>
    simp only [Adds] at h
    subst h
    rw [population_values_num, List.map_ofFn]; rfl
  | popMin =>
    obtain ⟨⟨i, hi⟩, hall⟩ := h
    have hn : 0 < n := by have := i.2; omega
    obtain ⟨n', rfl⟩ : ∃ n', n = n' + 1 := ⟨n - 1, by omega⟩
    have hm : npMin ((List.ofFn pop).map key) = .ok (-off) := by
      rw [List.map_ofFn, List.ofFn_succ]
      simp only [npMin]
      congr 1
      obtain ⟨h1, h2⟩ := foldl_least ((key ∘ pop) 0) (List.ofFn fun i => (key ∘ pop) (Fin.succ i))
      rw [← List.ofFn_succ (f := key ∘ pop)] at h1 h2
      obtain ⟨j, hj⟩ := (List.mem_ofFn' _ _).1 h1
      apply le_antisymm
      · have := h2 (key (pop i)) ((List.mem_ofFn' _ _).2 ⟨i, rfl⟩)
        linarith
      · rw [← hj]
        have := hall j
        simp only [Function.comp]
        linarith
    simp only [computePopulationValues, hm, neg_neg]
    rw [List.map_ofFn, List.map_ofFn]
    rfl

theorem adds_monovary {n : Nat} (f : Fin n → ℚ) (off : ℚ) (e : Nat) (h : ∀ i, 0 ≤ f i + off) : Monovary f fun i => (f i + off) ^ e := by
  intro i j hij
  by_contra hc
  have hc := not_le.1 hc
  have := pow_le_pow_left₀ (h j) (by linarith : f j + off ≤ f i + off) e
  exact absurd hij (not_lt.2 this)

/-- **C107** (fitness-proportional selection). As long as adding the offset leaves no negative number, the mean fitness (or other key) of the selected individual is
at least that of the population, up to the resolution `1/N` of random numbers, for every exponent. -/
theorem proportional_pressure (N : Nat) (hN : 0 < N) (key : α → ℚ) (offset : Offset) (e : Nat) {n : Nat} (pop : Fin n → α) (off : ℚ)
    (hoff : Adds offset (fun i => key (pop i)) off) (hnn : ∀ i, 0 ≤ key (pop i) + off) (hpos : 0 < ∑ i, (key (pop i) + off) ^ e) :
    ∃ sel : Fin N → Fin n,
      (∀ x : Fin N, ∃ s, proportionalSelection key offset e (fun _ => ((x : Nat) : ℚ) / N) (List.ofFn pop) 0 () = .ok (((sel x : Nat), pop (sel x)), s)) ∧
      popMean (fun i => key (pop i)) - 1 / N * ∑ i, |key (pop i)| ≤ mean fun x => key (pop (sel x)) := by
  have hNq : (0 : ℚ) < N := by exact_mod_cast hN
  have hv := values_of_adds key offset e pop off hoff
  have hvs : ∀ v ∈ List.ofFn fun i => (key (pop i) + off) ^ e, 0 ≤ v := by
    intro v h
    obtain ⟨i, rfl⟩ := (List.mem_ofFn' _ _).1 h
    exact pow_nonneg (hnn i) e
  have hsum : (List.ofFn fun i => (key (pop i) + off) ^ e).sum = ∑ i, (key (pop i) + off) ^ e := List.sum_ofFn
  have hpos' : 0 < (List.ofFn fun i => (key (pop i) + off) ^ e).sum := by rw [hsum]; exact hpos
  have hex : ∀ x : Fin N, ∃ i : Fin n, ∃ s,
      proportionalSelection key offset e (fun _ => ((x : Nat) : ℚ) / N) (List.ofFn pop) 0 () = .ok (((i : Nat), pop i), s) := by
    intro x
    have hx1 : ((x : Nat) : ℚ) / N < 1 := by rw [div_lt_one hNq]; exact_mod_cast x.2
    obtain ⟨i, a, he, hp, -⟩ := proportional_draw_interval key offset e (fun _ => ((x : Nat) : ℚ) / N) (List.ofFn pop) _ 0 hv hvs hpos' (by positivity) hx1
    have hi : i < n := by
      by_contra h
      rw [List.getElem?_eq_none (by simp; omega)] at hp; simp at hp
    have : a = pop ⟨i, hi⟩ := by
      have := ofFn_get pop ⟨i, hi⟩
      rw [hp] at this
      exact Option.some.inj this
    exact ⟨⟨i, hi⟩, _, this ▸ he⟩
  choose sel hsel using hex
  refine ⟨sel, hsel, ?_⟩
  rw [mean_by_member sel fun i => key (pop i)]
  have hw : ∀ i, |chance (fun x => sel x = i) - (key (pop i) + off) ^ e / ∑ j, (key (pop j) + off) ^ e| ≤ 1 / N := by
    intro i
    have h := (proportional_chance N hN key offset e (List.ofFn pop) _ hv hvs hpos' i _ (ofFn_get _ i)).1
    rw [hsum] at h
    refine le_trans (le_of_eq ?_) h.le
    congr 2
    apply chance_congr
    intro x
    obtain ⟨s, hs⟩ := hsel x
    constructor
    · rintro rfl; exact ⟨_, _, hs⟩
    · rintro ⟨a, s', h'⟩
      rw [hs] at h'
      simp only [Except.ok.injEq, Prod.mk.injEq] at h'
      exact Fin.ext h'.1.1
  have := weighted_mean (fun i => key (pop i)) (fun i => (key (pop i) + off) ^ e) _ _ (adds_monovary _ off e hnn) hpos hw
  unfold popMean mean
  rw [Nat.card_eq_fintype_card, Fintype.card_fin]
  exact this

theorem sus_start_ok {G N : Nat} (hG : 0 < G) (hN : 0 < N) {T : ℚ} (hT : 0 < T) (other : Nat → ℚ) (h : ∀ r, 0 ≤ other r ∧ other r < T / N) (r0 : Nat)
    (x : Fin G) (r : Nat) : 0 ≤ Function.update other r0 (T / N * ((x : Nat) / G)) r ∧ Function.update other r0 (T / N * ((x : Nat) / G)) r < T / N := by
  have hNq : (0 : ℚ) < N := by exact_mod_cast hN
  have hGq : (0 : ℚ) < G := by exact_mod_cast hG
  by_cases hr : r = r0
  · subst hr
    rw [Function.update_self]
    have h1 : ((x : Nat) : ℚ) / G < 1 := by rw [div_lt_one hGq]; exact_mod_cast x.2
    have h2 : 0 < T / N := by positivity
    exact ⟨by positivity, by nlinarith⟩
  · rw [Function.update_of_ne hr]; exact h r

theorem sus_pass_members (key : α → ℚ) (offset : Offset) (e : Nat) (n : Option Int) (N : Nat)
    (shuffle : Bool) (start : Nat → ℚ) (population : List α) (values : List ℚ)
    (hn : n.getD population.length = (N : Int)) (hN : 0 < N)
    (hv : computePopulationValues key offset e population = .ok values)
    (hnn : ∀ v ∈ values, 0 ≤ v) (hpos : 0 < values.sum)
    (hstart : ∀ r, 0 ≤ start r ∧ start r < values.sum / N) (m : Nat) :
    ∃ before s pass s',
      pull (susSelection key offset e n shuffle start population) (m * N) none () = .ok (before, s, ()) ∧
      pull (susSelection key offset e n shuffle start population) N s () = .ok (pass, s', ()) ∧
      pass.length = N ∧ ∀ p ∈ pass, population[p.1]? = some p.2 := by
  have hlen : values.length = population.length := values_length hv
  have hne : population ≠ [] := by
    rintro rfl
    have : values = [] := List.length_eq_zero_iff.mp (by simpa using hlen)
    subst this; simp at hpos
  have hNq : (0 : ℚ) < N := by exact_mod_cast hN
  set sp := values.sum / N with hspd
  have hsp : 0 < sp := div_pos hpos hNq
  have hT : values.sum = N * sp := by rw [hspd]; field_simp
  have hgen : susSelection key offset e n shuffle start population = susGen start shuffle N values sp population := by
    funext s u
    simp only [susSelection, sus_setup_ok key offset e n N population values hn hN hv hnn, susGen]
    rfl
  rw [hgen]
  obtain ⟨before, s, pass, s', e1, e2, hl, hspec⟩ := susGen_passes (start := start)
    (shuffle := shuffle) (n := N) (vs := values) (sp := sp) hlen hne hN hsp.le (by
      intro r j hj
      have h1 := (hstart r).2
      have h2 : ((j : ℚ) + 1) ≤ N := by exact_mod_cast hj
      have h3 : ((j : ℚ) + 1) * sp ≤ N * sp := by exact mul_le_mul_of_nonneg_right h2 hsp.le
      rw [hT]; linarith) m
  refine ⟨before, s, pass, s', e1, e2, hl, ?_⟩
  intro p hp
  obtain ⟨t, ht, rfl⟩ := List.getElem_of_mem hp
  obtain ⟨i, a, h1, h2, -⟩ := hspec t (by omega)
  rw [List.getElem?_eq_getElem ht, Option.some.injEq] at h1
  rw [h1]; exact h2

/-- **C107** (stochastic universal sampling). In every pass of `N` selections, the mean over the random start of the total fitness selected is at least `N` times the mean
of the population, up to the resolution `1/G` of random numbers. -/
theorem sus_pressure (G : Nat) (hG : 0 < G) (key : α → ℚ) (offset : Offset) (e : Nat) (num : Option Int) (N : Nat) (shuffle : Bool) (other : Nat → ℚ)
    {n : Nat} (pop : Fin n → α) (off : ℚ) (hnum : num.getD n = (N : Int)) (hN : 0 < N)
    (hoff : Adds offset (fun i => key (pop i)) off) (hnn : ∀ i, 0 ≤ key (pop i) + off) (hpos : 0 < ∑ i, (key (pop i) + off) ^ e)
    (hother : ∀ r, 0 ≤ other r ∧ other r < (∑ i, (key (pop i) + off) ^ e) / N) (m : Nat) :
    ∃ total : Fin G → ℚ,
      (∀ x : Fin G,
        let start := Function.update other (if shuffle then m else 0) ((∑ i, (key (pop i) + off) ^ e) / N * ((x : Nat) / G))
        ∃ before s pass s',
          pull (susSelection key offset e num shuffle start (List.ofFn pop)) (m * N) none () = .ok (before, s, ()) ∧
          pull (susSelection key offset e num shuffle start (List.ofFn pop)) N s () = .ok (pass, s', ()) ∧
          pass.length = N ∧ total x = (pass.map fun p => key p.2).sum) ∧
      N * popMean (fun i => key (pop i)) - 1 / G * ∑ i, |key (pop i)| ≤ mean total := by
  have hv := values_of_adds key offset e pop off hoff
  have hvs : ∀ v ∈ List.ofFn fun i => (key (pop i) + off) ^ e, 0 ≤ v := by
    intro v h
    obtain ⟨i, rfl⟩ := (List.mem_ofFn' _ _).1 h
    exact pow_nonneg (hnn i) e
  have hsum : (List.ofFn fun i => (key (pop i) + off) ^ e).sum = ∑ i, (key (pop i) + off) ^ e := List.sum_ofFn
  have hpos' : 0 < (List.ofFn fun i => (key (pop i) + off) ^ e).sum := by rw [hsum]; exact hpos
  have hnum' : num.getD (List.ofFn pop).length = (N : Int) := by simpa using hnum
  have hone := fun i : Fin n => sus_chance G hG key offset e num N shuffle other (List.ofFn pop) _ hnum' hN hv hvs hpos' (by rw [hsum]; exact hother) m i _
    (ofFn_get _ i)
  rw [hsum] at hone
  choose copies hcopies hnear using hone
  refine ⟨fun x => ∑ i, (copies i x : ℚ) * key (pop i), ?_, ?_⟩
  · intro x start
    have hstart := fun r => sus_start_ok (G := G) hG hN hpos other hother (if shuffle then m else 0) x r
    obtain ⟨before, s, pass, s', e1, e2, hl, hmem⟩ := sus_pass_members key offset e num N shuffle start (List.ofFn pop) _ hnum' hN hv hvs hpos'
      (by intro r; rw [hsum]; exact hstart r) m
    refine ⟨before, s, pass, s', e1, e2, hl, ?_⟩
    have hcount : ∀ i, copies i x = (pass.map Prod.fst).count (i : Nat) := by
      intro i
      obtain ⟨before', t, pass', t', f1, f2, f3⟩ := hcopies i x
      have h1 := e1.symm.trans f1
      simp only [Except.ok.injEq, Prod.mk.injEq] at h1
      obtain ⟨-, rfl, -⟩ := h1
      have h2 := e2.symm.trans f2
      simp only [Except.ok.injEq, Prod.mk.injEq] at h2
      rw [h2.1, f3]
    simp only [hcount]
    clear e1 e2 hl hcount
    induction pass with
    | nil => simp
    | cons p l ih =>
      obtain ⟨i, a⟩ := p
      have hp := hmem (i, a) List.mem_cons_self
      have hi : i < n := by
        by_contra h
        rw [List.getElem?_eq_none (by simp; omega)] at hp; simp at hp
      have ha : a = pop ⟨i, hi⟩ := by
        have := ofFn_get pop ⟨i, hi⟩
        rw [hp] at this
        exact Option.some.inj this
      have hr : (((i, a) :: l).map fun p => key p.2).sum = key a + (l.map fun p => key p.2).sum := by simp
      rw [hr, ← ih fun p hp => hmem p (List.mem_cons_of_mem _ hp)]
      have : ∀ j : Fin n, (((((i, a) :: l).map Prod.fst).count (j : Nat) : Nat) : ℚ) * key (pop j) =
          (if j = ⟨i, hi⟩ then key (pop j) else 0) + (((l.map Prod.fst).count (j : Nat) : Nat) : ℚ) * key (pop j) := by
        intro j
        rw [List.map_cons, List.count_cons]
        by_cases h : j = ⟨i, hi⟩
        · subst h; simp; ring
        · have : ¬ i = (j : Nat) := fun h' => h (Fin.ext h'.symm)
          simp [h, this]
      simp only [this, Finset.sum_add_distrib, Finset.sum_ite_eq', Finset.mem_univ, if_true]
      rw [ha]
  · have hm : mean (fun x => ∑ i, (copies i x : ℚ) * key (pop i)) = N * ∑ i, mean (fun x => (copies i x : ℚ)) / N * key (pop i) := by
      have hNq : (N : ℚ) ≠ 0 := by exact_mod_cast hN.ne'
      unfold mean
      rw [Finset.sum_comm, Finset.sum_div, Finset.mul_sum]
      apply Finset.sum_congr rfl
      intro i _
      rw [← Finset.sum_mul]
      field_simp
    rw [hm]
    have hNq : (0 : ℚ) < N := by exact_mod_cast hN
    have hGq : (0 : ℚ) < G := by exact_mod_cast hG
    have hw : ∀ i, |mean (fun x => (copies i x : ℚ)) / N - (key (pop i) + off) ^ e / ∑ j, (key (pop j) + off) ^ e| ≤ 1 / G / N := by
      intro i
      rw [le_div_iff₀ hNq, ← abs_of_pos hNq, ← abs_mul, abs_of_pos hNq, sub_mul, div_mul_cancel₀ _ hNq.ne', mul_comm (_ / _) (N : ℚ)]
      exact hnear i
    have := weighted_mean (fun i => key (pop i)) (fun i => (key (pop i) + off) ^ e) _ _ (adds_monovary _ off e hnn) hpos hw
    have h2 := mul_le_mul_of_nonneg_left this hNq.le
    refine le_trans (le_of_eq ?_) h2
    unfold popMean mean
    rw [Nat.card_eq_fintype_card, Fintype.card_fin, mul_sub]
    field_simp

/-- What the documentation of both operators promises: a `ValueError` whenever adding the offset to somebody's fitness leaves a negative number. -/
def Spec.RefusesNegative (e : Nat) : Prop :=
  ∀ (q : ℚ) (population : List ℚ) (draw : Nat → ℚ) (num : Option Int) (shuffle : Bool), (∃ a ∈ population, a + q < 0) →
    proportionalSelection id (.num q) e draw population 0 () = .error .valueError ∧
    susSelection id (.num q) e num shuffle draw population none () = .error .valueError

/-- **C107** (refusal). With an odd exponent a negative number is refused. -/
theorem odd_exponent_refuses (e : Nat) (he : Odd e) : RefusesNegative e := by
  rintro q population draw num shuffle ⟨a, ha, hneg⟩
  have hv := population_values_num id q e population
  have hbad : (population.map fun a => (id a + q) ^ e).any (fun v => decide (v < 0)) = true := by
    rw [List.any_eq_true]
    exact ⟨(a + q) ^ e, List.mem_map.2 ⟨a, ha, rfl⟩, by simpa using he.pow_neg hneg⟩
  constructor
  · simp only [proportionalSelection, proportionalWeights, hv, hbad, if_true]
  · have hs : susSetup id (.num q) e num population = .error .valueError := by
      unfold susSetup
      simp only [hv, hbad, if_true]
      simp
    simp only [susSelection, hs]

/-- **C107** is false without that proviso: with exponent 2 the sign is lost before it is looked at, so nothing is refused, and of the fitnesses -10 and 1 (to be maximised)
the worse one is selected by 100 of 101 random numbers: the mean selected is -999/101, below the mean -9/2 of the population. -/
theorem even_exponent_prefers_worse :
    ¬ RefusesNegative 2 ∧
    ∃ sel : Fin 101 → Fin 2,
      (∀ x : Fin 101, ∃ s, proportionalSelection id (.num 0) 2 (fun _ => ((x : Nat) : ℚ) / 101) [-10, 1] 0 () = .ok (((sel x : Nat), ![-10, 1] (sel x)), s)) ∧
      mean (fun x => (![-10, 1] (sel x) : ℚ)) = -999 / 101 ∧ popMean ![-10, 1] = -9 / 2 := by
  have hrun : ∀ x : Fin 101, proportionalSelection id (.num 0) 2 (fun _ => ((x : Nat) : ℚ) / 101) [-10, 1] 0 () =
      .ok ((((if (x : Nat) < 100 then 0 else 1 : Fin 2) : Nat), ![-10, 1] (if (x : Nat) < 100 then 0 else 1 : Fin 2)), 1, ()) := by
    intro x
    have hw : proportionalWeights id (.num 0) 2 [-10, 1] = .ok [100 / 101, 1 / 101] := by
      norm_num [proportionalWeights, computePopulationValues]
      intro h; simp at h
    have hc : choicesIndex [100 / 101, 1 / 101] (((x : Nat) : ℚ) / 101) = .ok (if (x : Nat) < 100 then 0 else 1) := by
      have hlt : ((x : Nat) : ℚ) / 101 < 100 / 101 ↔ (x : Nat) < 100 := by
        rw [div_lt_div_iff_of_pos_right (by norm_num)]; exact_mod_cast Iff.rfl
      norm_num [choicesIndex, choicesIndex.bisect]
      by_cases h : (x : Nat) < 100 <;> simp [h, hlt]
    simp only [proportionalSelection, hw, hc]
    by_cases h : (x : Nat) < 100 <;> simp [h]
  refine ⟨?_, fun x => if (x : Nat) < 100 then 0 else 1, fun x => ⟨_, hrun x⟩, ?_, ?_⟩
  · intro h
    have h1 := (h 0 [-10, 1] (fun _ => ((0 : Nat) : ℚ) / 101) none true ⟨-10, by simp, by norm_num⟩).1
    have h2 := hrun 0
    simp only [Fin.val_zero] at h2
    rw [h2] at h1
    simp at h1
  · unfold mean
    rw [Nat.card_eq_fintype_card, Fintype.card_fin]
    have : ∑ x : Fin 101, (![-10, 1] (if (x : Nat) < 100 then 0 else 1 : Fin 2) : ℚ) = -999 := by
      rw [Fin.sum_univ_castSucc]
      have : ∀ x : Fin 100, (![-10, 1] (if ((Fin.castSucc x : Fin 101) : Nat) < 100 then 0 else 1 : Fin 2) : ℚ) = -10 := by
        intro x; rw [if_pos (by simp)]; rfl
      simp only [this]
      norm_num
    rw [this]; norm_num
  · unfold popMean mean
    rw [Nat.card_eq_fintype_card, Fintype.card_fin]
    norm_num [Fin.sum_univ_two]

/-! ### Examples -/

example : ∃ winner, Winners (fun a b => decide ((a : ℚ) < b)) (fun a b => decide (b < a)) false ![5, 1, 3] 2 winner :=
  (tournament_pressure (fun x : ℚ => x) (n := 3) (by decide) ![5, 1, 3]).1 2 false (by decide)

example (winner : (Fin 2 → Fin 3) → Fin 3)
    (hw : Winners (fun a b => decide ((a : ℚ) < b)) (fun a b => decide (b < a)) false ![5, 1, 3] 2 winner) :
    popMean (fun i => ![5, 1, 3] i) < mean (fun v => (![5, 1, 3] (winner v) : ℚ)) :=
  tournament_pressure_strict (fun x : ℚ => x) ![5, 1, 3] 1 0 (by norm_num) 2 (by decide) winner hw

example : truncationSelection (fun a b : ℚ => decide (a < b)) [3, 1, 4] 2 (some [1, 5]) = [5, 4] ∧ (14 : ℚ) / 5 ≤ 9 / 2 := by
  constructor
  · decide +kernel
  · norm_num

example : Adds .popMin ![-10, 1] 10 ∧ (∀ i, 0 ≤ (![-10, 1] i : ℚ) + 10) ∧ 0 < ∑ i, ((![-10, 1] i : ℚ) + 10) ^ 2 := by
  refine ⟨⟨⟨0, by norm_num⟩, ?_⟩, ?_, ?_⟩
  · intro i; fin_cases i <;> norm_num
  · intro i; fin_cases i <;> norm_num
  · norm_num [Fin.sum_univ_two]

example : ∃ sel : Fin 101 → Fin 2, popMean (fun i => (![-10, 1] i : ℚ)) - 1 / 101 * ∑ i, |(![-10, 1] i : ℚ)| ≤ mean fun x => (![-10, 1] (sel x) : ℚ) := by
  obtain ⟨sel, -, h⟩ := proportional_pressure 101 (by decide) (id : ℚ → ℚ) .popMin 2 ![-10, 1] 10
    ⟨⟨0, by norm_num⟩, by intro i; fin_cases i <;> norm_num⟩ (by intro i; fin_cases i <;> norm_num) (by norm_num [Fin.sum_univ_two])
  exact ⟨sel, by exact_mod_cast h⟩

end Leap
