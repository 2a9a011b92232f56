import Verif.Lemmas.Chance
import Verif.Props.Selection
import Verif.Props.Proportional
import Verif.Props.Chance

/-!
# C96: the chances of being selected
-/

namespace Leap
open Spec

variable {α : Type}

/-- How many members satisfy a condition. -/
noncomputable def Spec.howMany {n : Nat} (c : Fin n → Prop) : ℚ := (Nat.card {j // c j} : ℚ)

theorem indices_valid {k n : Nat} (v : Fin k → Fin n) : ValidDraws n k (indices v) := by
  refine ⟨by simp [indices], ?_⟩
  intro i hi
  obtain ⟨j, rfl⟩ := (List.mem_ofFn' _ _).1 hi
  exact (v j).2

theorem mem_indices {k n : Nat} (v : Fin k → Fin n) (i : Nat) : i ∈ indices v ↔ ∃ j, (v j : Nat) = i := by
  simp only [indices]
  rw [List.mem_ofFn']
  rfl

/-- All of `k` independent members satisfy a condition. -/
theorem chance_all {k n : Nat} (c : Fin n → Prop) : chance (fun v : Fin k → Fin n => ∀ t, c (v t)) = (howMany c / n) ^ k := by
  rw [chance_pi (Ω := fun _ : Fin k => Fin n) (fun _ x => c x)]
  rw [Finset.prod_const, Finset.card_univ, Fintype.card_fin]
  unfold chance howMany
  rw [Nat.card_eq_fintype_card (α := Fin n), Fintype.card_fin]

/-- One tournament: index and winner. -/
theorem tournament_result (lt gt : α → α → Bool) (hlt : StrictWeak lt) (hgt : StrictWeak gt) (worst : Bool) {n k : Nat} (hk : 0 < k) (hn : 0 < n)
    (pop : Fin n → α) (v : Fin k → Fin n) :
    ∃ t, tournamentStep lt gt worst (List.ofFn pop) k (indices v) = .ok ([(v t : Nat)], pop (v t)) ∧
      ∀ s, (if worst then lt else gt) (pop (v s)) (pop (v t)) = false := by
  have part : ∀ {c : α → α → Bool}, StrictWeak c → StrictPartial c := by
    intro c h
    have hir : ∀ a, c a a = false := by
      intro a
      cases hc : c a a with
      | false => rfl
      | true => have := h.asymm a a hc; rw [hc] at this; simp at this
    refine ⟨hir, fun a b d h1 h2 => ?_⟩
    cases hc : c a d with
    | true => rfl
    | false =>
      have h3 : c d b = false := h.asymm b d h2
      have := h.negTrans a d b hc h3
      rw [this] at h1; simp at h1
  obtain ⟨i, ind, e, hi, hget, hbest⟩ := tournament_winner lt gt (part hlt) (part hgt) worst (List.ofFn pop) k (indices v)
    (by simpa using indices_valid v) hk (by
      intro h
      have := congrArg List.length h
      simp at this
      omega)
  obtain ⟨t, rfl⟩ := (mem_indices v i).1 hi
  rw [ofFn_get] at hget
  injection hget with hget
  subst hget
  refine ⟨t, e, fun s => ?_⟩
  have := hbest (v s) ((mem_indices v _).2 ⟨s, rfl⟩) _ (ofFn_get pop (v s))
  cases worst <;> simpa using this

/-- **C96** (tournament). The chance that the winner of a tournament of size `k` is no better than member `i` is `(c / n) ^ k`, where `c` is the number of
members no better than `i`; the chance that it is worse is `(b / n) ^ k`, where `b` counts the members worse than `i`. So a winner as good as
`i` has chance `(c ^ k - b ^ k) / n ^ k`. With `select_worst` the same holds with better and worse exchanged. -/
theorem tournament_chance (lt gt : α → α → Bool) (hlt : StrictWeak lt) (hgt : StrictWeak gt) (worst : Bool) {n k : Nat} (hk : 0 < k) (hn : 0 < n)
    (pop : Fin n → α) (i : Fin n) :
    let better := if worst then lt else gt
    let wins (good : α → Prop) := chance fun v : Fin k → Fin n =>
      ∃ w a, tournamentStep lt gt worst (List.ofFn pop) k (indices v) = .ok ([w], a) ∧ good a
    let c := howMany fun j => better (pop j) (pop i) = false
    let b := howMany fun j => better (pop i) (pop j) = true
    wins (fun a => better a (pop i) = false) = (c / n) ^ k ∧ wins (fun a => better (pop i) a = true) = (b / n) ^ k ∧
    wins (fun a => better a (pop i) = false ∧ better (pop i) a = false) = (c ^ k - b ^ k) / n ^ k := by
  intro better wins c b
  have hb : StrictWeak better := by cases worst <;> assumption
  have hcond : ∀ (good : α → Prop) (v : Fin k → Fin n),
      (∃ w a, tournamentStep lt gt worst (List.ofFn pop) k (indices v) = .ok ([w], a) ∧ good a) ↔
      ∃ t, (∀ s, better (pop (v s)) (pop (v t)) = false) ∧ tournamentStep lt gt worst (List.ofFn pop) k (indices v) = .ok ([(v t : Nat)], pop (v t)) ∧
        good (pop (v t)) := by
    intro good v
    obtain ⟨t, ht, hbest⟩ := tournament_result lt gt hlt hgt worst hk hn pop v
    constructor
    · rintro ⟨w, a, he, hg⟩
      rw [ht] at he
      injection he with he
      injection he with h1 h2
      subst h2
      exact ⟨t, hbest, ht, hg⟩
    · rintro ⟨t', hb', ht', hg⟩; exact ⟨_, _, ht', hg⟩
  have h1 : wins (fun a => better a (pop i) = false) = (c / n) ^ k := by
    show chance _ = _
    rw [← chance_all (fun j => better (pop j) (pop i) = false)]
    apply chance_congr
    intro v
    rw [hcond]
    constructor
    · rintro ⟨t, hbest, -, hg⟩ s
      exact hb.negTrans _ _ _ (hbest s) hg
    · intro h
      obtain ⟨t, ht, hbest⟩ := tournament_result lt gt hlt hgt worst hk hn pop v
      exact ⟨t, hbest, ht, h t⟩
  have h2 : wins (fun a => better (pop i) a = true) = (b / n) ^ k := by
    show chance _ = _
    rw [← chance_all (fun j => better (pop i) (pop j) = true)]
    apply chance_congr
    intro v
    rw [hcond]
    constructor
    · rintro ⟨t, hbest, -, hg⟩ s
      cases hc : better (pop i) (pop (v s)) with
      | true => rfl
      | false =>
        have := hb.negTrans _ _ _ hc (hbest s)
        rw [this] at hg; simp at hg
    · intro h
      obtain ⟨t, ht, hbest⟩ := tournament_result lt gt hlt hgt worst hk hn pop v
      exact ⟨t, hbest, ht, h t⟩
  refine ⟨h1, h2, ?_⟩
  have h3 : wins (fun a => better a (pop i) = false) =
      wins (fun a => better a (pop i) = false ∧ better (pop i) a = false) + wins (fun a => better (pop i) a = true) := by
    show chance _ = chance _ + chance _
    rw [← chance_or]
    · apply chance_congr
      intro v
      constructor
      · rintro ⟨w, a, he, hg⟩
        cases hc : better (pop i) a with
        | false => exact .inl ⟨w, a, he, hg, hc⟩
        | true => exact .inr ⟨w, a, he, hc⟩
      · rintro (⟨w, a, he, hg, -⟩ | ⟨w, a, he, hg⟩)
        · exact ⟨w, a, he, hg⟩
        · exact ⟨w, a, he, hb.asymm _ _ hg⟩
    · rintro v ⟨w, a, he, -, hg⟩ ⟨w', a', he', hg'⟩
      rw [he] at he'
      injection he' with he'
      injection he' with h1 h2
      subst h2
      rw [hg] at hg'; simp at hg'
  have h4 : wins (fun a => better a (pop i) = false ∧ better (pop i) a = false) = (c / n) ^ k - (b / n) ^ k := by
    rw [h1, h2] at h3; linarith
  rw [h4, div_pow, div_pow, sub_div]

/-- `max` over indices moved along with the comparison. -/
theorem pyMaxFrom_map {β δ : Type} (f : β → δ) (c : β → β → Bool) (c' : δ → δ → Bool) (h : ∀ x y, c' (f x) (f y) = c x y) (x : β) (l : List β) :
    pyMaxFrom c' (f x) (l.map f) = f (pyMaxFrom c x l) := by
  induction l generalizing x with
  | nil => rfl
  | cons y l ih =>
    simp only [List.map_cons, pyMaxFrom, h]
    split
    · exact ih y
    · exact ih x

/-- **C96** (ties). Members that are as good as each other have the same chance of winning a tournament, wherever they stand in the population: so each of
`m` equally good members wins with chance `(c ^ k - b ^ k) / (m n ^ k)`. -/
theorem tournament_ties (lt gt : α → α → Bool) (hlt : StrictWeak lt) (hgt : StrictWeak gt) (worst : Bool) {n k : Nat}
    (hk : 0 < k) (pop : Fin n → α) (i j : Fin n)
    (hij : (if worst then lt else gt) (pop i) (pop j) = false) (hji : (if worst then lt else gt) (pop j) (pop i) = false) :
    chance (fun v : Fin k → Fin n => ∃ a, tournamentStep lt gt worst (List.ofFn pop) k (indices v) = .ok ([(i : Nat)], a)) =
    chance (fun v : Fin k → Fin n => ∃ a, tournamentStep lt gt worst (List.ofFn pop) k (indices v) = .ok ([(j : Nat)], a)) := by
  have hn : 0 < n := by have := i.2; omega
  set better := if worst then lt else gt with hbetter
  have hb : StrictWeak better := by cases worst <;> assumption
  set σ : Equiv.Perm (Fin n) := Equiv.swap i j with hσ
  -- the comparison does not see the exchange
  have hl : ∀ a, better (pop i) a = better (pop j) a := by
    intro a
    cases h1 : better (pop i) a <;> cases h2 : better (pop j) a
    · rfl
    · have := hb.negTrans _ _ _ hji h1; rw [this] at h2; simp at h2
    · have := hb.negTrans _ _ _ hij h2; rw [this] at h1; simp at h1
    · rfl
  have hr : ∀ a, better a (pop i) = better a (pop j) := by
    intro a
    cases h1 : better a (pop i) <;> cases h2 : better a (pop j)
    · rfl
    · have := hb.negTrans _ _ _ h1 hij; rw [this] at h2; simp at h2
    · have := hb.negTrans _ _ _ h2 hji; rw [this] at h1; simp at h1
    · rfl
  have hswapl : ∀ x a, better (pop (σ x)) a = better (pop x) a := by
    intro x a
    by_cases hx : x = i
    · subst hx; rw [hσ, Equiv.swap_apply_left]; exact (hl a).symm
    · by_cases hx' : x = j
      · subst hx'; rw [hσ, Equiv.swap_apply_right]; exact hl a
      · rw [hσ, Equiv.swap_apply_of_ne_of_ne hx hx']
  have hswapr : ∀ x a, better a (pop (σ x)) = better a (pop x) := by
    intro x a
    by_cases hx : x = i
    · subst hx; rw [hσ, Equiv.swap_apply_left]; exact (hr a).symm
    · by_cases hx' : x = j
      · subst hx'; rw [hσ, Equiv.swap_apply_right]; exact hr a
      · rw [hσ, Equiv.swap_apply_of_ne_of_ne hx hx']
  -- the winner among drawn members, as an index
  have hstep : ∀ v : Fin k → Fin n, ∃ x : Fin n, tournamentStep lt gt worst (List.ofFn pop) k (indices v) = .ok ([(x : Nat)], pop x) ∧
      tournamentStep lt gt worst (List.ofFn pop) k (indices fun t => σ (v t)) = .ok ([(σ x : Nat)], pop (σ x)) := by
    intro v
    have hne : List.ofFn pop ≠ [] := by
      intro h
      have := congrArg List.length h
      simp at this
      omega
    obtain ⟨k', rfl⟩ : ∃ k', k = k' + 1 := ⟨k - 1, by omega⟩
    have hform : ∀ w : Fin (k' + 1) → Fin n, tournamentStep lt gt worst (List.ofFn pop) (k' + 1) (indices w) =
        .ok ([((pyMaxFrom (fun x y => better (pop x) (pop y)) (w 0) (List.ofFn fun t : Fin k' => w t.succ) : Fin n) : Nat)],
          pop (pyMaxFrom (fun x y => better (pop x) (pop y)) (w 0) (List.ofFn fun t : Fin k' => w t.succ))) := by
      intro w
      have hidx : indices w = (w 0 : Nat) :: (List.ofFn fun t : Fin k' => w t.succ).map fun x : Fin n => (x : Nat) := by
        rw [indices, List.ofFn_succ, List.map_ofFn]
        rfl
      have hcmp : ∀ x y : Fin n, cmpAt (List.ofFn pop) better (x : Nat) (y : Nat) = better (pop x) (pop y) := by
        intro x y; simp [cmpAt]
      have hmax := pyMaxFrom_map (fun x : Fin n => (x : Nat)) (fun x y => better (pop x) (pop y)) (cmpAt (List.ofFn pop) better) hcmp
        (w 0) (List.ofFn fun t : Fin k' => w t.succ)
      have hjudge : (if worst then pyMin (cmpAt (List.ofFn pop) lt) (indices w) else pyMax (cmpAt (List.ofFn pop) gt) (indices w)) =
          .ok ((pyMaxFrom (fun x y => better (pop x) (pop y)) (w 0) (List.ofFn fun t : Fin k' => w t.succ) : Fin n) : Nat) := by
        rw [hidx]
        cases worst with
        | true => simp only [if_true, pyMin, pyMinFrom_eq]; rw [← hmax]; rfl
        | false => simp only [Bool.false_eq_true, if_false, pyMax]; rw [← hmax]; rfl
      simp only [tournamentStep, hne, false_and, if_false]
      rw [hjudge]
      simp only [ofFn_get]
    refine ⟨_, hform v, ?_⟩
    rw [hform]
    have := pyMaxFrom_map (fun x => σ x) (fun x y => better (pop x) (pop y)) (fun x y => better (pop x) (pop y))
      (fun x y => by rw [hswapl, hswapr]) (v 0) (List.ofFn fun t : Fin k' => v t.succ)
    rw [List.map_ofFn] at this
    rw [← this]
    rfl
  -- the outcomes are exchanged by `σ`
  unfold chance
  congr 2
  apply Nat.card_congr
  have hto : ∀ (a b : Fin n), σ a = b → ∀ v : Fin k → Fin n, (∃ x, tournamentStep lt gt worst (List.ofFn pop) k (indices v) = .ok ([(a : Nat)], x)) →
      ∃ x, tournamentStep lt gt worst (List.ofFn pop) k (indices fun t => σ (v t)) = .ok ([(b : Nat)], x) := by
    rintro a b rfl v ⟨y, hy⟩
    obtain ⟨x, hx1, hx2⟩ := hstep v
    rw [hx1] at hy
    injection hy with hy
    injection hy with h1 h2
    injection h1 with h1
    have : x = a := Fin.ext h1
    subst this
    exact ⟨_, hx2⟩
  have hσσ : ∀ x, σ (σ x) = x := by intro x; rw [hσ]; exact Equiv.swap_apply_self i j x
  exact
    { toFun := fun v => ⟨fun t => σ (v.1 t), hto i j (by rw [hσ]; exact Equiv.swap_apply_left i j) v.1 v.2⟩
      invFun := fun v => ⟨fun t => σ (v.1 t), hto j i (by rw [hσ]; exact Equiv.swap_apply_right i j) v.1 v.2⟩
      left_inv := fun v => Subtype.ext (funext fun t => hσσ (v.1 t))
      right_inv := fun v => Subtype.ext (funext fun t => hσσ (v.1 t)) }

/-- The chance of a random number being in an interval. -/
theorem chance_between (N : Nat) (a b : ℚ) (hab : a ≤ b) :
    chance (fun x : Fin N => a ≤ ((x : Nat) : ℚ) / N ∧ ((x : Nat) : ℚ) / N < b) = below N b - below N a := by
  have : below N b = below N a + chance (fun x : Fin N => a ≤ ((x : Nat) : ℚ) / N ∧ ((x : Nat) : ℚ) / N < b) := by
    unfold below
    rw [← chance_or]
    · apply chance_congr
      intro x
      constructor
      · intro h
        by_cases ha : ((x : Nat) : ℚ) / N < a
        · exact .inl ha
        · exact .inr ⟨not_lt.1 ha, h⟩
      · rintro (h | h)
        · exact lt_of_lt_of_le h hab
        · exact h.2
    · intro x h h'; exact absurd h (not_lt.2 h'.1)
  rw [this]; ring

/-- **C96** (fitness-proportional selection). Each individual is selected with a chance that differs from its share of the total by less than the resolution
`1/N` of random numbers, and exactly with its share when the ends of its slice are multiples of the resolution. -/
theorem proportional_chance (N : Nat) (hN : 0 < N) (key : α → ℚ) (offset : Offset) (e : Nat) (population : List α) (values : List ℚ)
    (hv : computePopulationValues key offset e population = .ok values) (hnn : ∀ v ∈ values, 0 ≤ v) (hpos : 0 < values.sum)
    (j : Nat) (share : ℚ) (hj : values[j]? = some share) :
    let q := chance fun x : Fin N => ∃ a s, proportionalSelection key offset e (fun _ => ((x : Nat) : ℚ) / N) population 0 () = .ok ((j, a), s)
    |q - share / values.sum| < 1 / N ∧
    ((∃ m m' : Nat, wheel values j / values.sum = m / N ∧ wheel values (j + 1) / values.sum = m' / N) → q = share / values.sum) := by
  intro q
  have hNq : (0 : ℚ) < N := by exact_mod_cast hN
  have hjl : j < values.length := by
    by_contra h
    rw [List.getElem?_eq_none (by omega)] at hj; simp at hj
  have hlen : values.length = population.length := values_length hv
  have hshare : values[j] = share := by rw [List.getElem?_eq_getElem hjl] at hj; exact Option.some.inj hj
  have hw : wheel values (j + 1) = wheel values j + share := by rw [wheel_succ hjl, hshare]
  have hs0 : 0 ≤ share := hshare ▸ hnn _ (List.getElem_mem hjl)
  have hw0 : 0 ≤ wheel values j := by
    have := wheel_mono hnn (Nat.zero_le j); rwa [wheel_zero] at this
  have hw1 : wheel values (j + 1) ≤ values.sum := by
    have := wheel_mono hnn (show j + 1 ≤ values.length by omega)
    rwa [show wheel values values.length = values.sum by simp [wheel]] at this
  have hq : q = below N (wheel values (j + 1) / values.sum) - below N (wheel values j / values.sum) := by
    rw [← chance_between N _ _ (by rw [hw]; exact div_le_div_of_nonneg_right (by linarith) hpos.le)]
    apply chance_congr
    intro x
    have hx0 : (0 : ℚ) ≤ ((x : Nat) : ℚ) / N := by positivity
    have hx1 : ((x : Nat) : ℚ) / N < 1 := by
      rw [div_lt_one hNq]; exact_mod_cast x.2
    obtain ⟨i, a, he, hp, hi⟩ := proportional_draw_interval key offset e (fun _ => ((x : Nat) : ℚ) / N) population values 0 hv hnn hpos hx0 hx1
    rw [he]
    rw [← hi j (by omega)]
    constructor
    · rintro ⟨a', s, h⟩
      injection h with h
      injection h with h1 h2
      injection h1
    · rintro rfl; exact ⟨a, _, rfl⟩
  have ha0 : 0 ≤ wheel values j / values.sum := by positivity
  have hle : wheel values j / values.sum ≤ wheel values (j + 1) / values.sum := by
    rw [hw]; exact div_le_div_of_nonneg_right (by linarith) hpos.le
  have hb1 : wheel values (j + 1) / values.sum ≤ 1 := by rw [div_le_one hpos]; exact hw1
  obtain ⟨a1, a2, -, a4⟩ := below_near N hN _ ha0 (hle.trans hb1)
  obtain ⟨b1, b2, -, b4⟩ := below_near N hN _ (ha0.trans hle) hb1
  have hdiff : wheel values (j + 1) / values.sum - wheel values j / values.sum = share / values.sum := by
    rw [← sub_div, hw]; congr 1; ring
  constructor
  · rw [hq, abs_lt]
    constructor <;> linarith
  · rintro ⟨m, m', hm, hm'⟩
    rw [hq, a4 m hm, b4 m' hm', hdiff]

theorem hit_unique {vs : List ℚ} (hnn : ∀ v ∈ vs, 0 ≤ v) {len : Nat} {pt : ℚ} {i j : Nat} (hi : Hit vs len pt i) (hj : Hit vs len pt j) : i = j := by
  rcases hi with ⟨h1, h2⟩ | ⟨h1, h2, h3, h4⟩ <;> rcases hj with ⟨g1, g2⟩ | ⟨g1, g2, g3, g4⟩
  · omega
  · exact absurd h1 (not_le.2 g1)
  · exact absurd g1 (not_le.2 h1)
  · rcases Nat.lt_trichotomy i j with h | h | h
    · have := wheel_mono hnn (show i + 1 ≤ j by omega); linarith
    · exact h
    · have := wheel_mono hnn (show j + 1 ≤ i by omega); linarith

theorem ofFn_count {N : Nat} (f : Fin N → Nat) (i : Nat) : (List.ofFn f).count i = Nat.card {t : Fin N // f t = i} := by
  classical
  rw [Nat.card_eq_fintype_card, Fintype.card_subtype]
  induction N with
  | zero => simp
  | succ N ih =>
    rw [List.ofFn_succ, List.count_cons, ih, Finset.card_filter, Finset.card_filter, Fin.sum_univ_succ, add_comm]
    simp

/-- How many of `0, c, 2c, ..., (M-1)c` fall on a slice of a wheel of size `Mc`. -/
theorem hits_near (vs : List ℚ) (hnn : ∀ v ∈ vs, 0 ≤ v) (M : Nat) (hM : 0 < M) (c : ℚ) (hc : 0 < c) (hT : vs.sum = M * c) (i : Nat) (hi : i < vs.length) :
    |((Nat.card {m : Fin M // Hit vs vs.length ((m : Nat) * c) i} : Nat) : ℚ) - vs[i] / c| ≤ 1 := by
  classical
  have hw : wheel vs (i + 1) = wheel vs i + vs[i] := wheel_succ hi
  have hw0 : 0 ≤ wheel vs i := by have := wheel_mono hnn (Nat.zero_le i); rwa [wheel_zero] at this
  have hv0 : 0 ≤ vs[i] := hnn _ (List.getElem_mem hi)
  have hwl : wheel vs vs.length = vs.sum := by simp [wheel]
  have hw1 : wheel vs (i + 1) ≤ M * c := by
    have := wheel_mono hnn (show i + 1 ≤ vs.length by omega)
    rwa [hwl, hT] at this
  set w := wheel vs i / c with hwd
  set w' := wheel vs (i + 1) / c with hwd'
  have hww : vs[i] / c = w' - w := by rw [hwd, hwd', hw, ← sub_div]; congr 1; ring
  have e0 : 0 ≤ w := by positivity
  have e1 : w ≤ w' := by rw [hwd, hwd', hw]; exact div_le_div_of_nonneg_right (by linarith) hc.le
  have e2 : w' ≤ M := by rw [hwd', div_le_iff₀ hc]; exact hw1
  set f := ⌊w⌋₊ with hf
  set f' := ⌊w'⌋₊ with hf'
  have f0 : (f : ℚ) ≤ w := Nat.floor_le e0
  have f1 : w < f + 1 := Nat.lt_floor_add_one w
  have f0' : (f' : ℚ) ≤ w' := Nat.floor_le (e0.trans e1)
  have f1' : w' < f' + 1 := Nat.lt_floor_add_one w'
  have hff : f ≤ f' := Nat.floor_mono e1
  have hfM : f' ≤ M := by
    have : (f' : ℚ) ≤ M := f0'.trans e2
    exact_mod_cast this
  -- the multiples strictly inside the slice
  have hin : ∀ m : Nat, (0 < (m : ℚ) * c ∧ i < vs.length ∧ wheel vs i < m * c ∧ m * c ≤ wheel vs (i + 1)) ↔ f < m ∧ m ≤ f' := by
    intro m
    have a1 : wheel vs i < m * c ↔ f < m := by rw [← div_lt_iff₀ hc, hf, Nat.floor_lt e0]
    have a2 : m * c ≤ wheel vs (i + 1) ↔ m ≤ f' := by rw [← le_div_iff₀ hc, hf', Nat.le_floor_iff (e0.trans e1)]
    constructor
    · rintro ⟨-, -, h3, h4⟩; exact ⟨a1.1 h3, a2.1 h4⟩
    · rintro ⟨h3, h4⟩
      exact ⟨lt_of_le_of_lt hw0 (a1.2 h3), hi, a1.2 h3, a2.2 h4⟩
  have hzero : ∀ m : Nat, (m : ℚ) * c ≤ 0 ↔ m = 0 := by
    intro m
    constructor
    · intro h
      by_contra hm
      have : (0 : ℚ) < m := by exact_mod_cast Nat.pos_of_ne_zero hm
      have := mul_pos this hc
      linarith
    · rintro rfl; simp
  have hcard : Nat.card {m : Fin M // Hit vs vs.length ((m : Nat) * c) i} =
      ((Finset.range M).filter fun m => (m = 0 ∧ i + 1 = vs.length) ∨ (f < m ∧ m ≤ f')).card := by
    rw [Nat.card_eq_fintype_card, Fintype.card_subtype]
    apply Finset.card_bij (fun (m : Fin M) _ => (m : Nat))
    · intro m hm
      rw [Finset.mem_filter] at hm
      rw [Finset.mem_filter, Finset.mem_range]
      refine ⟨m.2, ?_⟩
      rcases hm.2 with ⟨h1, h2⟩ | h
      · exact .inl ⟨(hzero _).1 h1, h2⟩
      · exact .inr ((hin _).1 h)
    · intro a _ b _ h; exact Fin.ext h
    · intro m hm
      rw [Finset.mem_filter, Finset.mem_range] at hm
      refine ⟨⟨m, hm.1⟩, ?_, rfl⟩
      rw [Finset.mem_filter]
      refine ⟨Finset.mem_univ _, ?_⟩
      rcases hm.2 with ⟨h1, h2⟩ | h
      · exact .inl ⟨(hzero _).2 h1, h2⟩
      · exact .inr ((hin _).2 h)
  have hcount : ((Finset.range M).filter fun m => (m = 0 ∧ i + 1 = vs.length) ∨ (f < m ∧ m ≤ f')).card =
      (min f' (M - 1) - f) + if i + 1 = vs.length then 1 else 0 := by
    rw [Finset.filter_or, Finset.card_union_of_disjoint, add_comm]
    · congr 1
      · have : (Finset.range M).filter (fun m => f < m ∧ m ≤ f') = Finset.Ioc f (min f' (M - 1)) := by
          ext m; simp only [Finset.mem_filter, Finset.mem_range, Finset.mem_Ioc]; omega
        rw [this, Nat.card_Ioc]
      · split <;> rename_i hl0
        · have : (Finset.range M).filter (fun m => m = 0 ∧ i + 1 = vs.length) = {0} := by
            ext m; simp only [Finset.mem_filter, Finset.mem_range, Finset.mem_singleton]; omega
          rw [this]; rfl
        · have : (Finset.range M).filter (fun m => m = 0 ∧ i + 1 = vs.length) = ∅ := by
            ext m; simp only [Finset.mem_filter, Finset.mem_range, Finset.notMem_empty, hl0, and_false]
          rw [this]; rfl
    · rw [Finset.disjoint_filter]; intro m _; omega
  rw [hcard, hcount, hww]
  have hMq : ((M - 1 : Nat) : ℚ) = M - 1 := by rw [Nat.cast_sub (by omega)]; simp
  by_cases hl : i + 1 = vs.length
  · rw [if_pos hl]
    have hw'M : w' = M := by rw [hwd', hl, hwl, hT]; field_simp
    have hf'M : f' = M := by rw [hf', hw'M]; simp
    rw [hf'M, min_eq_right (by omega)]
    rw [hw'M]
    by_cases hfm : f ≤ M - 1
    · rw [Nat.cast_add, Nat.cast_sub hfm, hMq, abs_le]; push_cast; constructor <;> linarith
    · have hfe : f = M := by omega
      have : w = M := le_antisymm (e1.trans e2) (by rw [← hfe]; exact f0)
      rw [Nat.sub_eq_zero_of_le (by omega), this, abs_le]; push_cast; constructor <;> linarith
  · rw [if_neg hl]
    by_cases hf1 : f' ≤ M - 1
    · rw [min_eq_left hf1, Nat.add_zero, Nat.cast_sub hff, abs_le]; constructor <;> linarith
    · have hfe : f' = M := by omega
      have hw'M : w' = M := le_antisymm e2 (by rw [← hfe]; exact f0')
      rw [min_eq_right (by omega), Nat.add_zero, hw'M]
      by_cases hfm : f ≤ M - 1
      · rw [Nat.cast_sub hfm, hMq, abs_le]; constructor <;> linarith
      · have hfe : f = M := by omega
        have : w = M := le_antisymm (e1.trans e2) (by rw [← hfe]; exact f0)
        rw [Nat.sub_eq_zero_of_le (by omega), this]; simp

/-- **C96** (stochastic universal sampling). In every pass of `N` selections, the mean number of copies an individual gets, over the random start of that
pass, is `N` times its share of the total, up to the resolution `1/G` of random numbers. It holds in every pass whatever the starts of the other passes. -/
theorem sus_chance (G : Nat) (hG : 0 < G) (key : α → ℚ) (offset : Offset) (e : Nat) (n : Option Int) (N : Nat)
    (shuffle : Bool) (other : Nat → ℚ) (population : List α) (values : List ℚ)
    (hn : n.getD population.length = (N : Int)) (hN : 0 < N)
    (hv : computePopulationValues key offset e population = .ok values)
    (hnn : ∀ v ∈ values, 0 ≤ v) (hpos : 0 < values.sum)
    (hother : ∀ r, 0 ≤ other r ∧ other r < values.sum / N) (m : Nat) (i : Nat) (v : ℚ) (hi : values[i]? = some v) :
    ∃ copies : Fin G → Nat,
      (∀ x : Fin G,
        let start := Function.update other (if shuffle then m else 0) (values.sum / N * ((x : Nat) / G))
        ∃ before s pass s',
          pull (susSelection key offset e n shuffle start population) (m * N) none () = .ok (before, s, ()) ∧
          pull (susSelection key offset e n shuffle start population) N s () = .ok (pass, s', ()) ∧
          copies x = (pass.map Prod.fst).count i) ∧
      |mean (fun x => (copies x : ℚ)) - N * (v / values.sum)| ≤ 1 / G := by
  classical
  have hlen : values.length = population.length := values_length hv
  have hne : population ≠ [] := by
    rintro rfl
    have : values = [] := List.length_eq_zero_iff.mp (by simpa using hlen)
    subst this; simp at hpos
  have hNq : (0 : ℚ) < N := by exact_mod_cast hN
  have hGq : (0 : ℚ) < G := by exact_mod_cast hG
  have hil : i < values.length := by
    rcases Nat.lt_or_ge i values.length with h | h
    · exact h
    · rw [List.getElem?_eq_none h] at hi; simp at hi
  have hvi : values[i] = v := by rw [List.getElem?_eq_getElem hil, Option.some.injEq] at hi; exact hi
  set sp := values.sum / N with hspd
  have hsp : 0 < sp := div_pos hpos hNq
  have hT : values.sum = N * sp := by rw [hspd]; field_simp
  set r0 := if shuffle then m else 0 with hr0
  refine ⟨fun x => Nat.card {t : Fin N // Hit values values.length (sp * ((x : Nat) / G) + ((t : Nat) : ℚ) * sp) i}, ?_, ?_⟩
  · intro x start
    have hx0 : 0 ≤ sp * (((x : Nat) : ℚ) / G) := by positivity
    have hx1 : sp * (((x : Nat) : ℚ) / G) < sp := by
      have : ((x : Nat) : ℚ) / G < 1 := by rw [div_lt_one hGq]; exact_mod_cast x.2
      nlinarith
    have hstart : ∀ r, start r < sp := by
      intro r
      show Function.update other r0 _ r < sp
      by_cases hr : r = r0
      · rw [hr, Function.update_self]; exact hx1
      · rw [Function.update_of_ne hr]; exact (hother r).2
    have hgen : susSelection key offset e n shuffle start population = susGen start shuffle N values sp population := by
      funext s u
      simp only [susSelection, sus_setup_ok key offset e n N population values hn hN hv hnn, susGen]
      rfl
    rw [hgen]
    obtain ⟨before, s, pass, s', e1, e2, hl, hspec⟩ := susGen_passes (start := start)
      (shuffle := shuffle) (n := N) (vs := values) (sp := sp) hlen hne hN hsp.le (by
        intro r j hj
        have h1 := hstart r
        have h2 : ((j : ℚ) + 1) ≤ N := by exact_mod_cast hj
        have h3 : ((j : ℚ) + 1) * sp ≤ N * sp := by exact mul_le_mul_of_nonneg_right h2 hsp.le
        rw [hT]; linarith) m
    refine ⟨before, s, pass, s', e1, e2, ?_⟩
    have hst : start r0 = sp * ((x : Nat) / G) := Function.update_self ..
    rw [← hr0, hst, ← hlen] at hspec
    have hlist : pass.map Prod.fst = List.ofFn fun t : Fin N => (pass[(t : Nat)]'(by omega)).1 := by
      apply List.ext_getElem
      · simp [hl]
      · intro k h1 h2; simp
    rw [hlist, ofFn_count]
    refine Nat.card_congr (Equiv.subtypeEquivRight fun t => ?_)
    obtain ⟨i', a, h1, -, h3⟩ := hspec t t.2
    have ht : (t : Nat) < pass.length := by omega
    rw [List.getElem?_eq_getElem ht, Option.some.injEq] at h1
    rw [h1]
    constructor
    · intro h; exact (hit_unique hnn h3 h)
    · intro h; subst h; exact h3
  · set c := sp / G with hcd
    have hc : 0 < c := by positivity
    have hM : 0 < N * G := Nat.mul_pos hN hG
    have hTc : values.sum = ((N * G : Nat) : ℚ) * c := by rw [hT, hcd]; push_cast; field_simp
    have hnear := hits_near values hnn (N * G) hM c hc hTc i hil
    have hpt : ∀ (x : Fin G) (t : Fin N), (((finProdFinEquiv (t, x) : Fin (N * G)) : Nat) : ℚ) * c = sp * ((x : Nat) / G) + ((t : Nat) : ℚ) * sp := by
      intro x t
      rw [finProdFinEquiv_apply_val, hcd]; push_cast; field_simp
    have hsum : (∑ x : Fin G, ((Nat.card {t : Fin N // Hit values values.length (sp * ((x : Nat) / G) + ((t : Nat) : ℚ) * sp) i} : Nat) : ℚ)) =
        ((Nat.card {k : Fin (N * G) // Hit values values.length ((k : Nat) * c) i} : Nat) : ℚ) := by
      rw [← Nat.cast_sum]
      congr 1
      rw [← Nat.card_sigma]
      apply Nat.card_congr
      refine (Equiv.trans ?_ ((finProdFinEquiv (m := N) (n := G)).subtypeEquiv (p := fun q => Hit values values.length (((finProdFinEquiv q : Fin (N * G)) : Nat) * c) i)
        (fun q => Iff.rfl)))
      exact
        { toFun := fun q => ⟨(q.2.1, q.1), by
            rw [hpt]; exact q.2.2⟩
          invFun := fun q => ⟨q.1.2, q.1.1, by
            rw [← hpt]; exact q.2⟩
          left_inv := fun q => rfl
          right_inv := fun q => rfl }
    unfold mean
    rw [hsum, Nat.card_eq_fintype_card (α := Fin G), Fintype.card_fin]
    have hk : N * (v / values.sum) = (values[i] / c) / G := by
      rw [hvi, hT, hcd]; field_simp
    rw [hk, ← sub_div, abs_div, abs_of_pos hGq]
    exact div_le_div_of_nonneg_right hnear hGq.le

/-- Two of three members are as good as the first: a tournament of two is won by one of its kind with chance 8/9 - 0. -/
example : let gt := fun a b : Nat => decide (b < a)
    chance (fun v : Fin 2 → Fin 3 => ∃ w a, tournamentStep gt gt false (List.ofFn ![5, 1, 5]) 2 (indices v) = .ok ([w], a) ∧ (gt a 5 = false ∧ gt 5 a = false)) =
      (3 ^ 2 - 1 ^ 2) / 3 ^ 2 := by
  intro gt
  have hgt : StrictWeak gt := ⟨by intro a b; simp [gt]; omega, by intro a b c; simp [gt]; omega⟩
  have h := (tournament_chance gt gt hgt hgt false (n := 3) (k := 2) (by decide) (by decide) ![5, 1, 5] 0).2.2
  have c1 : howMany (fun j : Fin 3 => gt (![5, 1, 5] j) (![5, 1, 5] 0) = false) = 3 := by
    unfold howMany
    rw [Nat.card_eq_fintype_card, Fintype.card_subtype]
    have : (Finset.univ.filter fun j : Fin 3 => gt (![5, 1, 5] j) (![5, 1, 5] 0) = false).card = 3 := by decide
    rw [this]; rfl
  have c2 : howMany (fun j : Fin 3 => gt (![5, 1, 5] 0) (![5, 1, 5] j) = true) = 1 := by
    unfold howMany
    rw [Nat.card_eq_fintype_card, Fintype.card_subtype]
    have : (Finset.univ.filter fun j : Fin 3 => gt (![5, 1, 5] 0) (![5, 1, 5] j) = true).card = 1 := by decide
    rw [this]; rfl
  simp only [Bool.false_eq_true, if_false] at h
  rw [c1, c2] at h
  exact h

end Leap
