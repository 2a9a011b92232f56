import Mathlib.Algebra.Order.Floor.Ring
import Mathlib.Data.Rat.Floor
import Mathlib.Tactic.Linarith
import Mathlib.Tactic.Ring
import Mathlib.Tactic.FieldSimp
import Verif.Model.Proportional
import Verif.Lemmas.Gen
import Verif.Spec.Wheel

namespace Leap
open Spec

theorem wheel_zero (vs : List ℚ) : wheel vs 0 = 0 := by simp [wheel]

theorem wheel_succ {vs : List ℚ} {i : Nat} (h : i < vs.length) :
    wheel vs (i + 1) = wheel vs i + vs[i] := by
  unfold wheel
  rw [List.take_add_one, List.getElem?_eq_getElem h, List.sum_append]
  simp

theorem wheel_length (vs : List ℚ) : wheel vs vs.length = vs.sum := by simp [wheel]

theorem wheel_mono {vs : List ℚ} (h : ∀ v ∈ vs, 0 ≤ v) {i j : Nat} (hij : i ≤ j) :
    wheel vs i ≤ wheel vs j := by
  induction j with
  | zero => simp_all
  | succ j ih =>
    rcases Nat.lt_or_ge i (j + 1) with h1 | h1
    · have h2 := ih (by omega)
      rcases Nat.lt_or_ge j vs.length with h3 | h3
      · rw [wheel_succ h3]
        have := h vs[j] (List.getElem_mem h3)
        linarith
      · have : wheel vs (j + 1) = wheel vs j := by
          simp [wheel, List.take_of_length_le h3, List.take_of_length_le (Nat.le_succ_of_le h3)]
        linarith
    · have : i = j + 1 := by omega
      rw [this]

theorem wheel_le_sum {vs : List ℚ} (h : ∀ v ∈ vs, 0 ≤ v) (i : Nat) : wheel vs i ≤ vs.sum := by
  rcases Nat.le_total i vs.length with h1 | h1
  · rw [← wheel_length]; exact wheel_mono h h1
  · simp [wheel, List.take_of_length_le h1]

theorem sum_nonneg_of {vs : List ℚ} (h : ∀ v ∈ vs, 0 ≤ v) : 0 ≤ vs.sum := by
  have := wheel_le_sum h 0
  rwa [wheel_zero] at this

/-- `bisect` finds the slice containing `x`. -/
theorem bisect_spec (ws : List ℚ) (acc x : ℚ) (hne : ws ≠ []) (hlo : acc ≤ x)
    (hhi : x < acc + ws.sum) :
    choicesIndex.bisect acc x ws < ws.length ∧
    acc + wheel ws (choicesIndex.bisect acc x ws) ≤ x ∧
    x < acc + wheel ws (choicesIndex.bisect acc x ws + 1) := by
  induction ws generalizing acc with
  | nil => exact absurd rfl hne
  | cons w ws ih =>
    cases ws with
    | nil => simpa [choicesIndex.bisect, wheel] using And.intro hlo (by simpa using hhi)
    | cons w' ws =>
      simp only [choicesIndex.bisect]
      split
      · next h => simpa [wheel] using ⟨hlo, h⟩
      · next h =>
        obtain ⟨h1, h2, h3⟩ := ih (acc + w) (by simp) (by linarith)
          (by simp only [List.sum_cons] at hhi ⊢; linarith)
        refine ⟨by simpa using h1, ?_, ?_⟩
        · simp only [wheel, List.take_succ_cons, List.sum_cons] at h2 ⊢; linarith
        · simp only [wheel, List.take_succ_cons, List.sum_cons] at h3 ⊢; linarith

/-- Two slices `[S i, S (i+1))` that both contain `x` are the same. -/
theorem slice_unique {vs : List ℚ} (h : ∀ v ∈ vs, 0 ≤ v) {x : ℚ} {i j : Nat}
    (h1 : wheel vs i ≤ x) (h2 : x < wheel vs (i + 1))
    (h3 : wheel vs j ≤ x) (h4 : x < wheel vs (j + 1)) : i = j := by
  rcases Nat.lt_trichotomy i j with hij | hij | hij
  · have := wheel_mono h (show i + 1 ≤ j by omega); linarith
  · exact hij
  · have := wheel_mono h (show j + 1 ≤ i by omega); linarith

/-- The same for slices `(S i, S (i+1)]`. -/
theorem slice_unique' {vs : List ℚ} (h : ∀ v ∈ vs, 0 ≤ v) {x : ℚ} {i j : Nat}
    (h1 : wheel vs i < x) (h2 : x ≤ wheel vs (i + 1))
    (h3 : wheel vs j < x) (h4 : x ≤ wheel vs (j + 1)) : i = j := by
  rcases Nat.lt_trichotomy i j with hij | hij | hij
  · have := wheel_mono h (show i + 1 ≤ j by omega); linarith
  · exact hij
  · have := wheel_mono h (show j + 1 ≤ i by omega); linarith

theorem npMin_spec {xs : List ℚ} {m : ℚ} (h : npMin xs = .ok m) : m ∈ xs ∧ ∀ x ∈ xs, m ≤ x := by
  cases xs with
  | nil => simp [npMin] at h
  | cons x xs =>
    simp only [npMin, Except.ok.injEq] at h
    subst h
    induction xs generalizing x with
    | nil => simp
    | cons y ys ih =>
      simp only [List.foldl_cons]
      obtain ⟨h1, h2⟩ := ih (min x y)
      constructor
      · simp only [List.mem_cons] at h1 ⊢
        rcases h1 with h1 | h1
        · rw [h1]
          rcases min_choice x y with h | h <;> simp [h]
        · simp [h1]
      · have h3 := h2 (min x y) (by simp)
        intro z hz
        simp only [List.mem_cons] at hz
        rcases hz with rfl | rfl | hz
        · exact h3.trans (min_le_left _ _)
        · exact h3.trans (min_le_right _ _)
        · exact h2 z (by simp [hz])

theorem sum_map_div (vs : List ℚ) (t : ℚ) : (vs.map fun v => v / t).sum = vs.sum / t := by
  induction vs with
  | nil => simp
  | cons v vs ih => simp only [List.map_cons, List.sum_cons, ih]; ring

theorem wheel_map_div (vs : List ℚ) (t : ℚ) (i : Nat) :
    wheel (vs.map fun v => v / t) i = wheel vs i / t := by
  simp only [wheel, ← List.map_take, sum_map_div]

theorem values_length {α : Type} {key : α → ℚ} {offset : Offset} {e : Nat} {population : List α}
    {values : List ℚ} (hv : computePopulationValues key offset e population = .ok values) :
    values.length = population.length := by
  simp only [computePopulationValues] at hv
  cases offset with
  | num q => simp only [Except.ok.injEq] at hv; subst hv; simp
  | popMin =>
    cases hm : npMin (population.map key) with
    | error err => rw [hm] at hv; simp at hv
    | ok m => rw [hm] at hv; simp only [Except.ok.injEq] at hv; subst hv; simp

/-! ### Counting equally spaced points -/

theorem countP_range_lt (n k : Nat) : (List.range n).countP (fun j => decide (j < k)) = min k n := by
  induction n with
  | zero => simp
  | succ n ih =>
    rw [List.range_succ, List.countP_append, ih]
    by_cases h : n < k
    · simp [h]; omega
    · simp [h]; omega

/-- How many of `0, …, n-1` are at most `b`. -/
theorem countP_range_le_rat (n : Nat) (b : ℚ) (h1 : -1 ≤ b) (h2 : b < n) :
    ((List.range n).countP (fun j : Nat => decide ((j : ℚ) ≤ b)) : Int) = ⌊b⌋ + 1 := by
  have hf1 : (-1 : Int) ≤ ⌊b⌋ := Int.le_floor.mpr (by push_cast; exact h1)
  have hf2 : ⌊b⌋ < (n : Int) := Int.floor_lt.mpr (by push_cast; exact h2)
  have : (fun j : Nat => decide ((j : ℚ) ≤ b)) = (fun j : Nat => decide (j < (⌊b⌋ + 1).toNat)) := by
    funext j
    congr 1
    apply propext
    rw [show ((j : ℚ) ≤ b) ↔ ((j : Int) ≤ ⌊b⌋) by rw [Int.le_floor]; push_cast; rfl]
    omega
  rw [this, countP_range_lt]
  omega

theorem countP_split {α : Type} (p q : α → Bool) (l : List α) (h : ∀ x ∈ l, q x = true → p x = true) :
    l.countP p = l.countP (fun x => p x && !q x) + l.countP q := by
  induction l with
  | nil => simp
  | cons x xs ih =>
    have ih' := ih (fun y hy => h y (by simp [hy]))
    have hx := h x (by simp)
    simp only [List.countP_cons, ih']
    cases hp : p x <;> cases hq : q x <;> simp_all <;> omega

/-- How many of `0, …, n-1` lie in `(a, b]`. -/
theorem countP_range_Ioc (n : Nat) (a b : ℚ) (h1 : -1 ≤ a) (hab : a ≤ b) (h2 : b < n) :
    ((List.range n).countP (fun j : Nat => decide (a < (j : ℚ) ∧ (j : ℚ) ≤ b)) : Int) = ⌊b⌋ - ⌊a⌋ := by
  have hs := countP_split (fun j : Nat => decide ((j : ℚ) ≤ b)) (fun j : Nat => decide ((j : ℚ) ≤ a))
    (List.range n) (by intro x _; simp only [decide_eq_true_eq]; intro h; linarith)
  have e : (fun x : Nat => decide ((x : ℚ) ≤ b) && !decide ((x : ℚ) ≤ a)) =
      (fun j : Nat => decide (a < (j : ℚ) ∧ (j : ℚ) ≤ b)) := by
    funext x
    rw [Bool.eq_iff_iff]
    simp [and_comm]
  rw [e] at hs
  have hb := countP_range_le_rat n b (by linarith) h2
  have ha := countP_range_le_rat n a h1 (by linarith)
  omega

theorem floor_diff (a x : ℚ) : ⌊a + x⌋ - ⌊a⌋ = ⌊x⌋ ∨ ⌊a + x⌋ - ⌊a⌋ = ⌈x⌉ := by
  have h1 := Int.le_floor_add a x
  have h2 := Int.le_floor_add_floor a x
  have h3 : ⌊a + x⌋ - ⌊a⌋ ≤ ⌈x⌉ := by
    have : ⌊a + x⌋ < ⌊a⌋ + ⌈x⌉ + 1 := by
      rw [Int.floor_lt]
      push_cast
      have := Int.lt_floor_add_one a
      have := Int.le_ceil x
      linarith
    omega
  have h4 := Int.ceil_le_floor_add_one x
  omega

/-! ### One pass of stochastic universal sampling -/

/-- The wheel position `pt` falls on the slice `(S i, S (i+1)]` of individual `i`; a point that is not
positive falls, by Python's negative indexing, on the last of `len` individuals. -/
def Hit (vs : List ℚ) (len : Nat) (pt : ℚ) (i : Nat) : Prop :=
  (pt ≤ 0 ∧ i + 1 = len) ∨ (0 < pt ∧ i < len ∧ wheel vs i < pt ∧ pt ≤ wheel vs (i + 1))

theorem susAdvance_spec {vs : List ℚ} {pt : ℚ} (hpt : pt ≤ vs.sum) :
    ∀ (d idx : Nat), idx + d = vs.length → 
      ∃ k, susAdvance pt (vs.drop idx) (wheel vs idx) idx = .ok (wheel vs k, k) ∧ idx ≤ k ∧
        k ≤ vs.length ∧ pt ≤ wheel vs k ∧ ∀ p, idx ≤ p → p < k → wheel vs p < pt := by
  intro d
  induction d with
  | zero =>
    intro idx hidx
    have : idx = vs.length := by omega
    subst this
    refine ⟨vs.length, ?_, le_refl _, le_refl _, by rw [wheel_length]; exact hpt, by omega⟩
    rw [List.drop_length]
    simp only [susAdvance]
    rw [if_neg (by rw [wheel_length]; linarith)]
  | succ d ih =>
    intro idx hidx
    have hlt : idx < vs.length := by omega
    rw [List.drop_eq_getElem_cons hlt]
    simp only [susAdvance]
    split
    · next h =>
      obtain ⟨k, e, h1, h2, h3, h4⟩ := ih (idx + 1) (by omega)
      rw [← wheel_succ hlt]
      refine ⟨k, e, by omega, h2, h3, ?_⟩
      intro p hp hpk
      rcases Nat.eq_or_lt_of_le hp with rfl | hp'
      · exact h
      · exact h4 p hp' hpk
    · next h => exact ⟨idx, rfl, le_refl _, by omega, by linarith, by omega⟩

/-- One resumption in the middle of a pass. -/
theorem susStep_spec {α : Type} {start : Nat → ℚ} {shuffle : Bool} {n : Nat} {vs : List ℚ} {sp : ℚ}
    {population : List α} (hlen : vs.length = population.length) (hne : population ≠ [])
    {points : List ℚ} {j idx round : Nat} {pt : ℚ} (hpt : points[j]? = some pt)
    (hle : pt ≤ vs.sum) (hidx : idx ≤ vs.length) (hprev : ∀ p, p < idx → wheel vs p < pt) :
    ∃ i a k, susStep start shuffle n vs sp population ⟨points, j, idx, wheel vs idx, round⟩ =
        .ok ((i, a), ⟨points, j + 1, k, wheel vs k, round⟩) ∧ population[i]? = some a ∧
      Hit vs population.length pt i ∧ k ≤ vs.length ∧ (∀ p, p < k → wheel vs p < pt) := by
  have hj : j < points.length := by
    rcases Nat.lt_or_ge j points.length with h | h
    · exact h
    · rw [List.getElem?_eq_none h] at hpt; simp at hpt
  obtain ⟨k, e, h1, h2, h3, h4⟩ := susAdvance_spec hle (vs.length - idx) idx (by omega)
  have h5 : ∀ p, p < k → wheel vs p < pt := by
    intro p hp
    rcases Nat.lt_or_ge p idx with h | h
    · exact hprev p h
    · exact h4 p h hp
  have hpl : 0 < population.length := List.length_pos_iff.mpr hne
  by_cases hk : k = 0
  · subst hk
    refine ⟨population.length - 1, population[population.length - 1], 0, ?_, by simp, ?_, h2, h5⟩
    · have hp : pyPos population.length (((0 : Nat) : Int) - 1) = some (population.length - 1) := by
        unfold pyPos
        rw [if_neg (by decide), if_pos (by omega)]
        congr 1; omega
      simp only [susStep, if_neg (Nat.ne_of_lt hj), hpt, e, pyIndex, hp,
        List.getElem?_eq_getElem (show population.length - 1 < population.length by omega)]
    · left
      rw [wheel_zero] at h3
      exact ⟨h3, by omega⟩
  · have hkl : k - 1 < population.length := by omega
    refine ⟨k - 1, population[k - 1], k, ?_, by simp, ?_, h2, h5⟩
    · have hp : pyPos population.length ((k : Int) - 1) = some (k - 1) := by
        unfold pyPos
        rw [if_pos (by omega), if_pos (by omega)]
        congr 1; omega
      simp only [susStep, if_neg (Nat.ne_of_lt hj), hpt, e, pyIndex, hp,
        List.getElem?_eq_getElem hkl]
    · by_cases hpos : 0 < pt
      · right
        refine ⟨hpos, hkl, h5 _ (by omega), ?_⟩
        rw [show k - 1 + 1 = k by omega]; exact h3
      · exfalso
        have := h5 0 (by omega)
        rw [wheel_zero] at this
        exact hpos this


/-- The state of a pass about to begin. -/
def susFresh (points : List ℚ) (round : Nat) : SusState := ⟨points, 0, 0, 0, round⟩

theorem susPoints_get {start sp : ℚ} {n j : Nat} (h : j < n) :
    (susPoints start sp n)[j]? = some (start + j * sp) := by
  simp [susPoints, h]

/-- What a selector with fixed setup does (the part of `susSelection` after the setup). -/
def susGen {α : Type} (start : Nat → ℚ) (shuffle : Bool) (n : Nat) (vs : List ℚ) (sp : ℚ)
    (population : List α) : Gen Unit (Option SusState) (Nat × α) := fun s _ =>
  match susStep start shuffle n vs sp population
      (s.getD ⟨susPoints (start 0) sp n, 0, 0, 0, 1⟩) with
  | .error e => .error e
  | .ok (a, s') => .ok (a, some s', ())

theorem susGen_pass {α : Type} {start : Nat → ℚ} {shuffle : Bool} {n : Nat} {vs : List ℚ} {sp : ℚ}
    {population : List α} (hlen : vs.length = population.length) (hne : population ≠ [])
    {x : ℚ} (hsp : 0 ≤ sp) (hle : ∀ j : Nat, j < n → x + j * sp ≤ vs.sum) :
    ∀ (d j idx round : Nat), j + d = n → idx ≤ vs.length →
      (∀ p, p < idx → wheel vs p < x + j * sp) →
      ∃ out k, pull (susGen start shuffle n vs sp population) d
          (some ⟨susPoints x sp n, j, idx, wheel vs idx, round⟩) () =
          .ok (out, some ⟨susPoints x sp n, n, k, wheel vs k, round⟩, ()) ∧
        out.length = d ∧
        ∀ t, t < d → ∃ i a, out[t]? = some (i, a) ∧ population[i]? = some a ∧
          Hit vs population.length (x + ((j + t : Nat) : ℚ) * sp) i := by
  intro d
  induction d with
  | zero =>
    intro j idx round hj hidx hprev
    have : j = n := by omega
    subst this
    exact ⟨[], idx, rfl, rfl, by omega⟩
  | succ d ih =>
    intro j idx round hj hidx hprev
    obtain ⟨i, a, k, e, hia, hhit, hk, hprev'⟩ := susStep_spec (start := start) (shuffle := shuffle)
      (n := n) (sp := sp) (round := round) hlen hne (susPoints_get (start := x) (sp := sp) (n := n)
      (j := j) (by omega)) (hle j (by omega)) hidx hprev
    obtain ⟨out, k', e', hl, hspec⟩ := ih (j + 1) k round (by omega) hk (by
      intro p hp
      have := hprev' p hp
      push_cast
      linarith)
    refine ⟨(i, a) :: out, k', ?_, by simp [hl], ?_⟩
    · have hg : susGen start shuffle n vs sp population
          (some ⟨susPoints x sp n, j, idx, wheel vs idx, round⟩) () =
          .ok ((i, a), some ⟨susPoints x sp n, j + 1, k, wheel vs k, round⟩, ()) := by
        simp only [susGen, Option.getD_some, e]
      simp only [pull, hg, e']
    · intro t ht
      cases t with
      | zero => exact ⟨i, a, by simp, hia, by simpa using hhit⟩
      | succ t =>
        obtain ⟨i', a', h1, h2, h3⟩ := hspec t (by omega)
        refine ⟨i', a', by simpa using h1, h2, ?_⟩
        rw [show j + (t + 1) = j + 1 + t by omega]; exact h3

/-- Pass number `m` starts from the offset drawn for it. -/
theorem susGen_passes {α : Type} {start : Nat → ℚ} {shuffle : Bool} {n : Nat} {vs : List ℚ} {sp : ℚ}
    {population : List α} (hlen : vs.length = population.length) (hne : population ≠ [])
    (hn : 0 < n) (hsp : 0 ≤ sp) (hle : ∀ r j : Nat, j < n → start r + j * sp ≤ vs.sum) (m : Nat) :
    ∃ before s pass s',
      pull (susGen start shuffle n vs sp population) (m * n) none () = .ok (before, s, ()) ∧
      pull (susGen start shuffle n vs sp population) n s () = .ok (pass, s', ()) ∧
      pass.length = n ∧
      ∀ t, t < n → ∃ i a, pass[t]? = some (i, a) ∧ population[i]? = some a ∧
          Hit vs population.length (start (if shuffle then m else 0) + (t : ℚ) * sp) i := by
  have onePass : ∀ (r round : Nat), ∃ out k,
      pull (susGen start shuffle n vs sp population) n
          (some (susFresh (susPoints (start r) sp n) round)) () =
          .ok (out, some ⟨susPoints (start r) sp n, n, k, wheel vs k, round⟩, ()) ∧
        out.length = n ∧
        ∀ t, t < n → ∃ i a, out[t]? = some (i, a) ∧ population[i]? = some a ∧
          Hit vs population.length (start r + (t : ℚ) * sp) i := by
    intro r round
    obtain ⟨out, k, e, hl, hspec⟩ := susGen_pass (start := start) (shuffle := shuffle) hlen hne hsp
      (hle r) n 0 0 round (by omega) (by omega) (by omega)
    rw [wheel_zero] at e
    exact ⟨out, k, e, hl, by simpa using hspec⟩
  -- the state after `m` passes behaves like a fresh one
  have inv : ∀ m, ∃ before s, pull (susGen start shuffle n vs sp population) (m * n) none () =
      .ok (before, s, ()) ∧
      susGen start shuffle n vs sp population s () = susGen start shuffle n vs sp population
        (some (susFresh (susPoints (start (if shuffle then m else 0)) sp n)
          (if shuffle then m + 1 else 1))) () := by
    intro m
    induction m with
    | zero =>
      refine ⟨[], none, by simp [pull], ?_⟩
      cases shuffle <;> simp [susGen, susFresh]
    | succ m ih =>
      obtain ⟨before, s, e, hs⟩ := ih
      obtain ⟨out, k, e2, -, -⟩ := onePass (if shuffle then m else 0) (if shuffle then m + 1 else 1)
      rw [← pull_congr_first hs hn] at e2
      have e3 := pull_add _ _ _ e e2
      rw [← Nat.succ_mul] at e3
      refine ⟨before ++ out, _, e3, ?_⟩
      · have hpl : ∀ x, (susPoints x sp n).length = n := by simp [susPoints]
        cases shuffle with
        | true => 
          simp only [susGen, Option.getD_some, susStep, hpl, susFresh, if_true,
            if_neg (Nat.ne_of_lt hn)]
        | false =>
          simp only [susGen, Option.getD_some, susStep, hpl, susFresh, if_true,
            if_neg (Nat.ne_of_lt hn), Bool.false_eq_true, if_false]
  obtain ⟨before, s, e, hs⟩ := inv m
  obtain ⟨out, k, e2, hl, hspec⟩ := onePass (if shuffle then m else 0) (if shuffle then m + 1 else 1)
  rw [← pull_congr_first hs hn] at e2
  exact ⟨before, s, out, _, e, e2, hl, hspec⟩

/-- Position lists that agree pointwise with a predicate have the matching count. -/
theorem countP_of_pointwise {β : Type} (pass : List β) (n : Nat) (hl : pass.length = n)
    (p : β → Bool) (q : Nat → Bool)
    (h : ∀ t y, pass[t]? = some y → p y = q t) :
    pass.countP p = (List.range n).countP q := by
  induction pass generalizing n q with
  | nil => subst hl; simp
  | cons y ys ih =>
    subst hl
    simp only [List.length_cons]
    rw [List.range_succ_eq_map, List.countP_cons, List.countP_cons, List.countP_map]
    rw [ih ys.length rfl (q ∘ Nat.succ) (fun t z hz => h (t + 1) z (by simpa using hz))]
    rw [h 0 y (by simp)]

end Leap
