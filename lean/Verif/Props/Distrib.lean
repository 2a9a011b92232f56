import Mathlib.Tactic.Tauto
import Verif.Model.Distrib
import Verif.Spec.Order
import Verif.Lemmas.Order
import Verif.Props.Compare

/-! # Distributed evaluation (C41, C42, C65) -/

namespace Leap
open Spec

section
variable {α D : Type}

/-! ## C42 insertion -/

/-- What one insertion of `x` into `pop` may do: below capacity `x` is appended; otherwise nothing changes, or
`x` takes the place of one individual that was not viable or that `x` is better than. -/
def Spec.Inserted (viable : α → Bool) (gt : α → α → Bool) (maxSize : Nat) (x : α) (pop pop' : List α) : Prop :=
  (pop.length < maxSize ∧ pop' = pop ++ [x]) ∨
  (maxSize ≤ pop.length ∧ (pop' = pop ∨
    ∃ i old, pop[i]? = some old ∧ (viable old = false ∨ gt x old = true) ∧ pop' = pop.set i x))

/-- C42: replacing happens exactly when the individual there is not viable or strictly worse. -/
theorem replace_if_spec (viable : α → Bool) (gt : α → α → Bool) (x : α) (pop : List α) (i : Nat) :
    (∀ old, pop[i]? = some old → viable old = false ∨ gt x old = true →
      replaceIf viable gt x pop i = .ok (pop.set i x)) ∧
    (∀ old, pop[i]? = some old → viable old = true → gt x old = false → replaceIf viable gt x pop i = .ok pop) ∧
    (pop.length ≤ i → replaceIf viable gt x pop i = .error .indexError) := by
  refine ⟨?_, ?_, ?_⟩
  · intro old ho h
    simp only [replaceIf, ho]
    cases hv : viable old with
    | false => simp
    | true =>
      have hg : gt x old = true := by rcases h with h | h; simp [hv] at h; exact h
      simp [hg]
  · intro old ho hv hg
    simp [replaceIf, ho, hv, hg]
  · intro h
    simp [replaceIf, List.getElem?_eq_none h]

theorem replaceIf_inserted (viable : α → Bool) (gt : α → α → Bool) (x : α) (pop pop' : List α) (i maxSize : Nat)
    (hfull : maxSize ≤ pop.length) (h : replaceIf viable gt x pop i = .ok pop') :
    Inserted viable gt maxSize x pop pop' := by
  refine Or.inr ⟨hfull, ?_⟩
  unfold replaceIf at h
  cases ho : pop[i]? with
  | none => simp [ho] at h
  | some old =>
    simp only [ho] at h
    split at h
    · rename_i hv
      simp only [Except.ok.injEq] at h
      exact Or.inr ⟨i, old, ho, Or.inl (by simpa using hv), h.symm⟩
    · split at h
      · rename_i hg
        simp only [Except.ok.injEq] at h
        exact Or.inr ⟨i, old, ho, Or.inr hg, h.symm⟩
      · simp only [Except.ok.injEq] at h
        exact Or.inl h.symm

/-- C42, tournament inserter: below capacity it appends, at capacity it makes the tournament against the individual
drawn. -/
theorem tournament_insert_spec (viable : α → Bool) (gt : α → α → Bool) (draw : Nat) (x : α) (pop : List α)
    (maxSize : Nat) :
    (pop.length < maxSize → tournamentInsert viable gt draw x pop maxSize = .ok (pop ++ [x])) ∧
    (maxSize ≤ pop.length → pop ≠ [] → ∃ old, pop[draw % pop.length]? = some old ∧
      tournamentInsert viable gt draw x pop maxSize =
        .ok (if viable old = false ∨ gt x old = true then pop.set (draw % pop.length) x else pop)) ∧
    (maxSize = 0 → pop = [] → tournamentInsert viable gt draw x pop maxSize = .error .valueError) := by
  refine ⟨fun h => by simp [tournamentInsert, h], ?_, ?_⟩
  · intro h hne
    have hl : 0 < pop.length := List.length_pos_iff.mpr hne
    have hlt := Nat.mod_lt draw hl
    refine ⟨_, List.getElem?_eq_getElem hlt, ?_⟩
    simp only [tournamentInsert, if_neg (Nat.not_lt.mpr h), if_neg (Nat.ne_of_gt hl)]
    split
    · rename_i hc; exact (replace_if_spec viable gt x pop _).1 _ (List.getElem?_eq_getElem hlt) hc
    · rename_i hc
      exact (replace_if_spec viable gt x pop _).2.1 _ (List.getElem?_eq_getElem hlt) (by
        cases hv : viable pop[draw % pop.length] with
        | false => exact absurd (Or.inl hv) hc
        | true => rfl) (by
        cases hv : gt x pop[draw % pop.length] with
        | true => exact absurd (Or.inr hv) hc
        | false => rfl)
  · rintro rfl rfl; rfl

theorem tournament_inserted (viable : α → Bool) (gt : α → α → Bool) (draw : Nat) (x : α) (pop pop' : List α)
    (maxSize : Nat) (h : tournamentInsert viable gt draw x pop maxSize = .ok pop') :
    Inserted viable gt maxSize x pop pop' := by
  unfold tournamentInsert at h
  split at h
  · rename_i hl; simp only [Except.ok.injEq] at h; exact Or.inl ⟨hl, h.symm⟩
  · rename_i hl
    split at h
    · simp at h
    · exact replaceIf_inserted viable gt x pop pop' _ maxSize (by omega) h

/-- Running minimum over positions: the result is a valid position. -/
theorem indexMinFrom_cases (lt : Nat → α → α → Bool) (xs : List α) (best : Nat × α) (i : Nat) :
    indexMinFrom lt best i xs = best.1 ∨ ∃ k x, xs[k]? = some x ∧ indexMinFrom lt best i xs = i + k := by
  induction xs generalizing best i with
  | nil => exact Or.inl rfl
  | cons x xs ih =>
    simp only [indexMinFrom]
    rcases ih (if lt i x best.2 then (i, x) else best) (i + 1) with h | ⟨k, y, hk, h⟩
    · by_cases hl : lt i x best.2 = true
      · rw [h, if_pos hl]; exact Or.inr ⟨0, x, rfl, rfl⟩
      · rw [h, if_neg hl]; exact Or.inl rfl
    · exact Or.inr ⟨k + 1, y, by simpa using hk, by omega⟩

theorem indexMin_lt (lt : Nat → α → α → Bool) (x : α) (xs : List α) :
    indexMinFrom lt (0, x) 1 xs < (x :: xs).length := by
  rcases indexMinFrom_cases lt xs (0, x) 1 with h | ⟨k, y, hk, h⟩
  · rw [h]; simp
  · rw [h]
    have := (List.getElem?_eq_some_iff.1 hk).1
    simp; omega

/-- The position chosen by `greedy` when comparisons are consistent: nobody is worse than the chosen one, and
everybody before it is strictly better. -/
theorem indexMinFrom_least (lt : α → α → Bool) (hlt : StrictWeak lt) (xs : List α) (pre : List α) (b : Nat) (y : α)
    (hb : pre[b]? = some y) (hmin : ∀ z ∈ pre, lt z y = false)
    (hfirst : ∀ (k : Nat) (z : α), k < b → pre[k]? = some z → lt y z = true) :
    ∃ y', (pre ++ xs)[indexMinFrom (fun _ => lt) (b, y) pre.length xs]? = some y' ∧
      (∀ z ∈ pre ++ xs, lt z y' = false) ∧
      ∀ (k : Nat) (z : α), k < indexMinFrom (fun _ => lt) (b, y) pre.length xs → (pre ++ xs)[k]? = some z →
        lt y' z = true := by
  induction xs generalizing pre b y with
  | nil => simpa [indexMinFrom] using ⟨y, hb, hmin, hfirst⟩
  | cons x xs ih =>
    simp only [indexMinFrom]
    have e : pre ++ x :: xs = (pre ++ [x]) ++ xs := by simp
    have hl : (pre ++ [x]).length = pre.length + 1 := by simp
    rw [e, ← hl]
    by_cases hx : lt x y = true
    · rw [if_pos hx]
      apply ih (pre ++ [x]) pre.length x (by simp)
      · intro z hz
        simp only [List.mem_append, List.mem_singleton] at hz
        rcases hz with hz | rfl
        · by_contra hc
          have hc : lt z x = true := by simpa using hc
          have h1 := hlt.asymm z x hc
          have h2 := hmin z hz
          -- z < x < y but not z < y
          have h3 := hlt.asymm x y hx
          have := hlt.negTrans z y x h2 h3
          rw [this] at hc; simp at hc
        · exact StrictWeak.irrefl hlt z
      · intro k z hk hz
        rw [List.getElem?_append_left hk] at hz
        have h2 := hmin z (List.mem_of_getElem? hz)
        by_contra hc
        have hc : lt x z = false := by simpa using hc
        have := hlt.negTrans x z y hc h2
        rw [this] at hx; simp at hx
    · rw [if_neg hx]
      have hx : lt x y = false := by simpa using hx
      have hbl := (List.getElem?_eq_some_iff.1 hb).1
      apply ih (pre ++ [x]) b y (by rw [List.getElem?_append_left hbl, hb])
      · intro z hz
        simp only [List.mem_append, List.mem_singleton] at hz
        rcases hz with hz | rfl
        · exact hmin z hz
        · exact hx
      · intro k z hk hz
        rw [List.getElem?_append_left (by omega)] at hz
        exact hfirst k z hk hz

/-- C42, greedy inserter: below capacity it appends; at capacity it compares with the (first) weakest of the
population and replaces exactly that one, exactly when that one is not viable or strictly worse. -/
theorem greedy_insert_spec (viable : α → Bool) (lt gt : α → α → Bool) (hlt : StrictWeak lt) (x : α) (pop : List α)
    (maxSize : Nat) :
    (pop.length < maxSize → greedyInsert viable (fun _ => lt) gt x pop maxSize = .ok (pop ++ [x])) ∧
    (maxSize ≤ pop.length → pop ≠ [] → ∃ i old, pop[i]? = some old ∧ (∀ z ∈ pop, lt z old = false) ∧
      (∀ (k : Nat) (z : α), k < i → pop[k]? = some z → lt old z = true) ∧
      greedyInsert viable (fun _ => lt) gt x pop maxSize =
        .ok (if viable old = false ∨ gt x old = true then pop.set i x else pop)) ∧
    (maxSize = 0 → pop = [] → greedyInsert viable (fun _ => lt) gt x pop maxSize = .error .valueError) := by
  refine ⟨fun h => by simp [greedyInsert, h], ?_, ?_⟩
  · intro h hne
    cases pop with
    | nil => exact absurd rfl hne
    | cons y ys =>
      obtain ⟨y', h1, h2, h3⟩ := indexMinFrom_least lt hlt ys [y] 0 y rfl
        (by simpa using StrictWeak.irrefl hlt y) (by intro k z hk; omega)
      refine ⟨_, y', by simpa using h1, by simpa using h2, by simpa using h3, ?_⟩
      simp only [greedyInsert, if_neg (Nat.not_lt.mpr h)]
      have h1' : (y :: ys)[indexMinFrom (fun _ => lt) (0, y) 1 ys]? = some y' := by simpa using h1
      split
      · rename_i hc; exact (replace_if_spec viable gt x _ _).1 _ h1' hc
      · rename_i hc
        exact (replace_if_spec viable gt x _ _).2.1 _ h1' (by
          cases hv : viable y' with
          | false => exact absurd (Or.inl hv) hc
          | true => rfl) (by
          cases hv : gt x y' with
          | true => exact absurd (Or.inr hv) hc
          | false => rfl)
  · rintro rfl rfl; rfl

theorem greedy_inserted (viable : α → Bool) (lt : Nat → α → α → Bool) (gt : α → α → Bool) (x : α) (pop pop' : List α)
    (maxSize : Nat) (h : greedyInsert viable lt gt x pop maxSize = .ok pop') :
    Inserted viable gt maxSize x pop pop' := by
  unfold greedyInsert at h
  split at h
  · rename_i hl; simp only [Except.ok.injEq] at h; exact Or.inl ⟨hl, h.symm⟩
  · rename_i hl
    cases pop with
    | nil => simp at h
    | cons y ys => exact replaceIf_inserted viable gt x _ pop' _ maxSize (by omega) h

/-- C42: when the weakest is looked for, an individual that loses every comparison (such as one with NaN fitness)
is found if there is one, whatever coins are tossed between two such. `bad` says who they are. -/
theorem greedy_finds_nan (bad : α → Bool) (lt : Nat → α → α → Bool)
    (h1 : ∀ i a b, bad a = true → bad b = false → lt i a b = true)
    (h2 : ∀ i a b, bad a = false → bad b = true → lt i a b = false) (x : α) (xs : List α)
    (hex : ∃ z ∈ x :: xs, bad z = true) :
    ∃ y, (x :: xs)[indexMinFrom lt (0, x) 1 xs]? = some y ∧ bad y = true := by
  have key : ∀ (xs pre : List α) (b : Nat) (y : α), pre[b]? = some y →
      ((∃ z ∈ pre, bad z = true) → bad y = true) → (∃ z ∈ pre ++ xs, bad z = true) →
      ∃ y', (pre ++ xs)[indexMinFrom lt (b, y) pre.length xs]? = some y' ∧ bad y' = true := by
    intro xs
    induction xs with
    | nil =>
      intro pre b y hb hbad hex
      exact ⟨y, by simpa [indexMinFrom] using hb, hbad (by simpa using hex)⟩
    | cons x xs ih =>
      intro pre b y hb hbad hex
      simp only [indexMinFrom]
      have e : pre ++ x :: xs = (pre ++ [x]) ++ xs := by simp
      have hl : (pre ++ [x]).length = pre.length + 1 := by simp
      rw [e] at hex ⊢
      rw [← hl]
      have hbl := (List.getElem?_eq_some_iff.1 hb).1
      by_cases hx : lt pre.length x y = true
      · rw [if_pos hx]
        refine ih (pre ++ [x]) pre.length x (by simp) ?_ hex
        rintro ⟨z, hz, hzb⟩
        simp only [List.mem_append, List.mem_singleton] at hz
        rcases hz with hz | rfl
        · have hy := hbad ⟨z, hz, hzb⟩
          cases hxb : bad x with
          | true => rfl
          | false => rw [h2 _ x y hxb hy] at hx; simp at hx
        · exact hzb
      · rw [if_neg hx]
        refine ih (pre ++ [x]) b y (by rw [List.getElem?_append_left hbl, hb]) ?_ hex
        rintro ⟨z, hz, hzb⟩
        simp only [List.mem_append, List.mem_singleton] at hz
        rcases hz with hz | rfl
        · exact hbad ⟨z, hz, hzb⟩
        · cases hyb : bad y with
          | true => rfl
          | false => exact absurd (h1 _ z y hzb hyb) hx
  simpa using key xs [x] 0 x rfl (by simp) (by simpa using hex)

/-- C42: over any history of insertions by an inserter that does what `Inserted` allows, the population never exceeds
the maximum size (unless it did at the start), never shrinks, and grows by one per insertion until it is full. -/
theorem insertions_bounded (viable : α → Bool) (gt : D → α → α → Bool) (maxSize : Nat)
    (insert : D → α → List α → PyM (List α))
    (hins : ∀ d x pop pop', insert d x pop = .ok pop' → Inserted viable (gt d) maxSize x pop pop')
    (history : List (D × α)) (pop pop' : List α) (hle : pop.length ≤ maxSize)
    (h : insertAll insert history pop = .ok pop') :
    pop'.length = min maxSize (pop.length + history.length) := by
  induction history generalizing pop with
  | nil => simp only [insertAll, Except.ok.injEq] at h; subst h; simp; omega
  | cons dx rest ih =>
    obtain ⟨d, x⟩ := dx
    simp only [insertAll] at h
    cases e : insert d x pop with
    | error e' => rw [e] at h; simp at h
    | ok p1 =>
      rw [e] at h
      simp only at h
      have hl : p1.length = min maxSize (pop.length + 1) := by
        rcases hins d x pop p1 e with ⟨h1, rfl⟩ | ⟨h1, rfl | ⟨i, old, -, -, rfl⟩⟩
        · simp; omega
        · omega
        · simp; omega
      rw [ih p1 (by omega) h, hl]
      simp; omega

/-- C42: a viable individual is only ever displaced by a better viable one. `Better` is any transitive relation that
the comparison guarantees when the loser is viable, on individuals of some class `Good`. Over any history, whoever was viable in the population is
still there, or a better viable individual is: the best viable one is never lost. -/
theorem best_viable_never_lost (viable : α → Bool) (gt : D → α → α → Bool) (maxSize : Nat)
    (insert : D → α → List α → PyM (List α))
    (hins : ∀ d x pop pop', insert d x pop = .ok pop' → Inserted viable (gt d) maxSize x pop pop')
    (Good : α → Prop) (Better : α → α → Prop) (htrans : ∀ a b c, Better a b → Better b c → Better a c)
    (hgt : ∀ d a b, Good a → Good b → viable b = true → gt d a b = true → viable a = true ∧ Better a b)
    (history : List (D × α)) (pop pop' : List α) (hnew : ∀ d ∈ history, Good d.2) (hold : ∀ y ∈ pop, Good y)
    (h : insertAll insert history pop = .ok pop') (y : α) (hy : y ∈ pop) (hv : viable y = true) :
    ∃ z ∈ pop', viable z = true ∧ (z = y ∨ Better z y) := by
  induction history generalizing pop y with
  | nil => simp only [insertAll, Except.ok.injEq] at h; subst h; exact ⟨y, hy, hv, Or.inl rfl⟩
  | cons dx rest ih =>
    obtain ⟨d, x⟩ := dx
    simp only [insertAll] at h
    cases e : insert d x pop with
    | error e' => rw [e] at h; simp at h
    | ok p1 =>
      rw [e] at h
      simp only at h
      have step : ∃ z ∈ p1, viable z = true ∧ (z = y ∨ Better z y) := by
        rcases hins d x pop p1 e with ⟨h1, rfl⟩ | ⟨h1, rfl | ⟨i, old, ho, hc, rfl⟩⟩
        · exact ⟨y, by simp [hy], hv, Or.inl rfl⟩
        · exact ⟨y, hy, hv, Or.inl rfl⟩
        · obtain ⟨j, hj⟩ := List.mem_iff_getElem?.1 hy
          by_cases hij : i = j
          · subst hij
            rw [hj] at ho; cases ho
            have hg : gt d x y = true := by rcases hc with hc | hc; simp [hv] at hc; exact hc
            obtain ⟨hvx, hb⟩ := hgt d x y (hnew (d, x) (by simp)) (hold y hy) hv hg
            exact ⟨x, List.mem_of_getElem? (i := i) (by simp [(List.getElem?_eq_some_iff.1 hj).1]), hvx, Or.inr hb⟩
          · exact ⟨y, List.mem_of_getElem? (i := j) (by rw [List.getElem?_set_ne hij, hj]), hv, Or.inl rfl⟩
      obtain ⟨z, hz, hzv, hzy⟩ := step
      have hold1 : ∀ w ∈ p1, Good w := by
        intro w hw
        rcases hins d x pop p1 e with ⟨h1, rfl⟩ | ⟨h1, rfl | ⟨i, old, ho, hc, rfl⟩⟩
        · simp only [List.mem_append, List.mem_singleton] at hw
          rcases hw with hw | rfl
          · exact hold w hw
          · exact hnew (d, w) (by simp)
        · exact hold w hw
        · rcases List.mem_or_eq_of_mem_set hw with hw | rfl
          · exact hold w hw
          · exact hnew (d, w) (by simp)
      obtain ⟨z', h1, h2, h3⟩ := ih p1 (fun d' hd' => hnew d' (by simp [hd'])) hold1 h z hz hzv
      refine ⟨z', h1, h2, ?_⟩
      rcases h3 with rfl | h3
      · exact hzy
      · rcases hzy with rfl | hzy
        · exact Or.inr h3
        · exact Or.inr (htrans _ _ _ h3 hzy)

end

/-- An evaluated individual of a scalar problem: its viability attribute and its fitness. -/
abbrev VInd := Option Bool × SFit

/-- `a > b` on evaluated individuals (`indGt`, which does not raise then). -/
def gtInd (p : ScalarProblem) (coin : Bool) (a b : VInd) : Bool := (indGt p coin (some a.2) (some b.2)).toOption.getD false

theorem gtInd_better (p : ScalarProblem) (coin : Bool) (a b : VInd) (ha : a.2.val ≠ .nan) (hb : b.2.val ≠ .nan)
    (h : gtInd p coin a b = true) : Better p.maximize a.2.val b.2.val := by
  obtain ⟨va, fa, x⟩ := a
  obtain ⟨vb, fb, y⟩ := b
  simp only at ha hb
  unfold gtInd at h
  have hne : x ≠ y := by
    rintro rfl
    have he : p.equivalent ⟨fa, x⟩ ⟨fb, x⟩ = true := by
      have : Num.eq x x = true := by cases x <;> simp_all [Num.eq]
      simp only [ScalarProblem.equivalent, Num.isclose, this]
      split <;> simp
    simp only [indGt, deriveGt, indLt, indEq, he, bind, Except.bind] at h
    split at h <;> simp [Except.toOption] at h
  have hl := lt_iff_better p coin ⟨fa, x⟩ ⟨fb, y⟩ ha hb
  have hnl : ¬ Better p.maximize y x := by
    intro hB
    have := hl.1.2 hB
    simp [indGt, deriveGt, this, bind, Except.bind, Except.toOption] at h
  clear h hl
  cases hm : p.maximize <;> rw [hm] at hnl <;>
  cases x <;> cases y <;> simp_all [Better, point]
  all_goals first | exact lt_of_le_of_ne hnl (Ne.symm hne) | exact lt_of_le_of_ne hnl hne | exact WithBot.coe_lt_coe.mpr (WithTop.coe_lt_top _)

/-- C42 for scalar problems and both inserters: provided nobody viable has NaN fitness and everybody not viable has (as
robust evaluation ensures when the problem itself does not return NaN), over any history with any draws and
coins, whoever was viable is still in the population or a viable individual with better fitness is. -/
theorem best_viable_never_lost_scalar (p : ScalarProblem) (maxSize : Nat) (greedy : Bool)
    (history : List ((Nat × (Nat → Bool)) × VInd)) (pop pop' : List VInd)
    (hnew : ∀ d ∈ history, isViable d.2.1 = false ↔ d.2.2.val = .nan)
    (hold : ∀ y ∈ pop, isViable y.1 = false ↔ y.2.val = .nan)
    (h : insertAll (fun (d : Nat × (Nat → Bool)) x pop =>
      if greedy then greedyInsert (fun y : VInd => isViable y.1)
        (fun i a b => p.worseThan (d.2 i) a.2 b.2) (gtInd p (d.2 0)) x pop maxSize
      else tournamentInsert (fun y : VInd => isViable y.1) (gtInd p (d.2 0)) d.1 x pop maxSize) history pop = .ok pop')
    (y : VInd) (hy : y ∈ pop) (hv : isViable y.1 = true) :
    ∃ z ∈ pop', isViable z.1 = true ∧ (z = y ∨ Better p.maximize z.2.val y.2.val) := by
  refine best_viable_never_lost (fun y : VInd => isViable y.1) (fun d : Nat × (Nat → Bool) => gtInd p (d.2 0)) maxSize _
    ?_ (fun z => isViable z.1 = false ↔ z.2.val = .nan) (fun a b => Better p.maximize a.2.val b.2.val)
    (fun a b c h1 h2 => better_trans p.maximize h2 h1) ?_ history pop pop' hnew hold h y hy hv
  · intro d x q q' hq
    cases greedy with
    | true => exact greedy_inserted _ _ _ x q q' maxSize (by simpa using hq)
    | false => exact tournament_inserted _ _ _ x q q' maxSize (by simpa using hq)
  · intro d a b ha hb hvb hg
    have hbn : b.2.val ≠ .nan := fun hn => by have := hb.2 hn; simp [hvb] at this
    by_cases han : a.2.val = .nan
    · have h1 : indGt p (d.2 0) (some a.2) (some b.2) = .ok false := (nan_always_loses p (d.2 0) a.2 b.2 han hbn).1.gt_eq
      simp [gtInd, h1, Except.toOption] at hg
    · refine ⟨?_, gtInd_better p _ a b han hbn hg⟩
      cases hva : isViable a.1 with
      | true => rfl
      | false => exact absurd (ha.1 hva) han

example :
    let worst : VInd := (none, ⟨true, .fin 1⟩)
    let best : VInd := (some true, ⟨true, .fin 9⟩)
    let dead : VInd := (some false, ⟨true, .nan⟩)
    (insertAll (fun (_ : Nat × (Nat → Bool)) x pop => greedyInsert (fun y : VInd => isViable y.1)
      (fun _ a b => ScalarProblem.worseThan ⟨true⟩ true a.2 b.2) (gtInd ⟨true⟩ true) x pop 2)
      [((0, fun _ => true), dead), ((0, fun _ => true), best), ((0, fun _ => true), dead)] [worst]).toOption =
      some [worst, best] := by decide +kernel

/-! ## C41 the steady-state loop -/

section
variable {α D : Type}

/-- The number of counted births according to the user's rule: offspring submitted, less the evaluations that came back
not viable unless these count. -/
def Spec.countedBirths (cfg : SteadyConfig α D) (initial : List α) (st : SteadyState α) : Int :=
  (st.submitted.length : Int) - initial.length -
    if cfg.countNonviable then 0 else (st.completed.countP fun x => !cfg.viable x : Nat)

/-- What holds after every completion. -/
structure SteadyInv (cfg : SteadyConfig α D) (initial : List α) (k : Nat) (st : SteadyState α) : Prop where
  counted : st.counter.births = countedBirths cfg initial st
  context : st.counter.ctx.births = some st.counter.births
  conserved : st.pending.length + st.completed.length = st.submitted.length
  upper : st.counter.births ≤ max 0 (cfg.maxBirths + k - 1)

theorem steadyStep_ok (cfg : SteadyConfig α D) (st st' : SteadyState α) (c : Completion α D)
    (h : steadyStep cfg st c = .ok st') :
    ∃ x evaluated, st.pending[c.which % st.pending.length]? = some x ∧ c.result x = .ok evaluated ∧
      st'.completed = st.completed ++ [evaluated] ∧
      cfg.inserter c.draw evaluated st.pop cfg.popSize = .ok st'.pop ∧
      ∃ counter : BirthCounter,
        (if cfg.viable evaluated = false ∧ cfg.countNonviable = false then
          counter.births = st.counter.births - 1 ∧
            (∃ b, st.counter.ctx.births = some b ∧ counter.ctx.births = some (b - 1))
        else counter = st.counter) ∧
        ((counter.births < cfg.maxBirths ∧ ∃ offspring, cfg.pipeline c.draw st'.pop = .ok offspring ∧
          st'.pending = st.pending.eraseIdx (c.which % st.pending.length) ++ offspring ∧
          st'.submitted = st.submitted ++ offspring ∧ st'.counter.births = counter.births + offspring.length ∧
          (∃ b, counter.ctx.births = some b ∧ st'.counter.ctx.births = some (b + offspring.length))) ∨
        (cfg.maxBirths ≤ counter.births ∧ st'.pending = st.pending.eraseIdx (c.which % st.pending.length) ∧
          st'.submitted = st.submitted ∧ st'.counter = counter)) := by
  unfold steadyStep at h
  cases e1 : st.pending[c.which % st.pending.length]? with
  | none => simp [e1] at h
  | some x =>
    simp only [e1] at h
    cases e2 : c.result x with
    | error e => simp [e2] at h
    | ok ev =>
      simp only [e2] at h
      refine ⟨x, ev, rfl, e2, ?_⟩
      have hdec : ∀ cnt, (if (!cfg.viable ev && !cfg.countNonviable) = true then
          (match st.counter.decrement with
            | (.error e, _) => (.error e : PyM BirthCounter)
            | (.ok _, cnt) => .ok cnt) else .ok st.counter) = .ok cnt →
          (if cfg.viable ev = false ∧ cfg.countNonviable = false then
            cnt.births = st.counter.births - 1 ∧
              (∃ b, st.counter.ctx.births = some b ∧ cnt.ctx.births = some (b - 1))
          else cnt = st.counter) := by
        intro cnt hc
        by_cases hv : cfg.viable ev = false ∧ cfg.countNonviable = false
        · rw [if_pos hv]
          rw [if_pos (by simp [hv.1, hv.2])] at hc
          unfold BirthCounter.decrement at hc
          cases hb : st.counter.ctx.births with
          | none => simp [hb] at hc
          | some b =>
            simp only [hb, Except.ok.injEq] at hc
            subst hc
            exact ⟨rfl, b, rfl, rfl⟩
        · rw [if_neg hv]
          rw [if_neg] at hc
          · simpa using hc.symm
          · intro hc'; apply hv
            simpa using hc'
      split at h
      · simp at h
      · rename_i cnt hcnt
        have hd := hdec cnt hcnt
        cases e3 : cfg.inserter c.draw ev st.pop cfg.popSize with
        | error e => simp [e3] at h
        | ok pop =>
          simp only [e3] at h
          split at h
          · rename_i hlt
            cases e4 : cfg.pipeline c.draw pop with
            | error e => simp [e4] at h
            | ok offspring =>
              simp only [e4] at h
              unfold BirthCounter.increment at h
              cases hb : cnt.ctx.births with
              | none => simp [hb] at h
              | some b =>
                simp only [hb, Except.ok.injEq] at h
                subst h
                exact ⟨rfl, rfl, cnt, hd, Or.inl ⟨hlt, offspring, e4, rfl, rfl, rfl, b, hb, rfl⟩⟩
          · rename_i hlt
            simp only [Except.ok.injEq] at h
            subst h
            exact ⟨rfl, rfl, cnt, hd, Or.inr ⟨by omega, rfl, rfl, rfl⟩⟩

theorem steadyStep_inv (cfg : SteadyConfig α D) (initial : List α) (k : Nat)
    (hk : ∀ d pop off, cfg.pipeline d pop = .ok off → off.length ≤ k)
    (st st' : SteadyState α) (c : Completion α D) (hi : SteadyInv cfg initial k st)
    (h : steadyStep cfg st c = .ok st') : SteadyInv cfg initial k st' := by
  obtain ⟨x, ev, h1, -, h2, -, cnt, h3, h4⟩ := steadyStep_ok cfg st st' c h
  have hlt := (List.getElem?_eq_some_iff.1 h1).1
  have herase : (st.pending.eraseIdx (c.which % st.pending.length)).length + 1 = st.pending.length := by
    rw [List.length_eraseIdx_of_lt hlt]; omega
  have hcnt : cnt.births = st.counter.births - (if cfg.countNonviable then 0 else if cfg.viable ev then 0 else 1) ∧
      cnt.ctx.births = some cnt.births := by
    have hc := hi.context
    split at h3
    · rename_i hv
      obtain ⟨h3, b, hb, hb'⟩ := h3
      rw [hc] at hb; cases hb
      simp only [hv.1, hv.2, Bool.false_eq_true, if_false]
      exact ⟨h3, by rw [hb', h3]⟩
    · rename_i hv
      subst h3
      refine ⟨?_, hc⟩
      by_cases h5 : cfg.countNonviable = true
      · simp [h5]
      · by_cases h6 : cfg.viable ev = true
        · simp [h6]
        · exact absurd ⟨by simpa using h6, by simpa using h5⟩ hv
  have hcountP : (st'.completed.countP fun x => !cfg.viable x) =
      (st.completed.countP fun x => !cfg.viable x) + (if cfg.viable ev then 0 else 1) := by
    rw [h2, List.countP_append]
    cases hv : cfg.viable ev <;> simp [hv]
  have h5 := hi.counted
  have h6 := hi.conserved
  have h7 := hi.upper
  unfold countedBirths at h5
  have hlen2 : st'.completed.length = st.completed.length + 1 := by rw [h2]; simp
  rcases h4 with ⟨hb, off, ho, hp, hs, hc, b, hb1, hb2⟩ | ⟨hb, hp, hs, hc⟩
  · have hol := hk _ _ _ ho
    refine ⟨?_, ?_, ?_, ?_⟩
    · unfold countedBirths
      rw [hc, hcnt.1, h5, hs, hcountP]
      cases cfg.countNonviable <;> cases cfg.viable ev <;> simp <;> omega
    · rw [hb2, hc]
      rw [hcnt.2] at hb1; cases hb1; rfl
    · rw [hp, hs, hlen2]; simp; omega
    · rw [hc]; omega
  · refine ⟨?_, ?_, ?_, ?_⟩
    · unfold countedBirths
      rw [hc, hcnt.1, h5, hs, hcountP]
      cases cfg.countNonviable <;> cases cfg.viable ev <;> simp <;> omega
    · rw [hc]; exact hcnt.2
    · rw [hp, hs, hlen2]; omega
    · rw [hc, hcnt.1]
      have : (0 : Int) ≤ (if cfg.countNonviable then 0 else if cfg.viable ev then 0 else 1) := by
        split <;> [simp; (split <;> simp)]
      omega

theorem steadyRun_inv (cfg : SteadyConfig α D) (initial : List α) (k : Nat)
    (hk : ∀ d pop off, cfg.pipeline d pop = .ok off → off.length ≤ k)
    (cs : List (Completion α D)) (st st' : SteadyState α) (hi : SteadyInv cfg initial k st)
    (h : steadyRun cfg st cs = .ok st') : SteadyInv cfg initial k st' := by
  induction cs generalizing st with
  | nil => simp only [steadyRun, Except.ok.injEq] at h; exact h ▸ hi
  | cons c cs ih =>
    simp only [steadyRun] at h
    split at h
    · simp only [Except.ok.injEq] at h; exact h ▸ hi
    · cases e : steadyStep cfg st c with
      | error e' => rw [e] at h; simp at h
      | ok st1 => rw [e] at h; exact ih st1 (steadyStep_inv cfg initial k hk st st1 c hi e) h

theorem steadyInit_inv (cfg : SteadyConfig α D) (initial : List α) (k : Nat) (ctx : LeapCtx) :
    SteadyInv cfg initial k (steadyInit initial ctx) := by
  refine ⟨?_, rfl, by simp [steadyInit], ?_⟩
  · simp [steadyInit, countedBirths, incBirths, BirthCounter.births]
  · simp only [steadyInit, incBirths, BirthCounter.births]; omega

/-- C41, accounting: at every moment, for every completion order and every mix of outcomes: the birth count (and the
context entry) is the number of offspring submitted, less the evaluations that came back not viable (unless
these count); everything submitted is pending or has completed; the count never exceeds
`max_births + k - 1` if the pipeline makes at most `k` offspring at a time. -/
theorem steady_state_accounting (cfg : SteadyConfig α D) (initial : List α) (k : Nat) (ctx : LeapCtx)
    (hk : ∀ d pop off, cfg.pipeline d pop = .ok off → off.length ≤ k)
    (cs : List (Completion α D)) (st : SteadyState α)
    (h : steadyRun cfg (steadyInit initial ctx) cs = .ok st) :
    st.counter.births = countedBirths cfg initial st ∧ st.counter.ctx.births = some st.counter.births ∧
    st.pending.length + st.completed.length = st.submitted.length ∧
    st.counter.births ≤ max 0 (cfg.maxBirths + k - 1) := by
  have hi := steadyRun_inv cfg initial k hk cs _ st (steadyInit_inv cfg initial k ctx) h
  exact ⟨hi.counted, hi.context, hi.conserved, hi.upper⟩

/-- Running out of pending futures happens only at a moment when the budget is used up. -/
theorem steadyRun_budget (cfg : SteadyConfig α D)
    (hk1 : ∀ d pop off, cfg.pipeline d pop = .ok off → off ≠ [])
    (cs : List (Completion α D)) (st st' : SteadyState α) (h : steadyRun cfg st cs = .ok st')
    (h0 : st.pending = [] → cfg.maxBirths ≤ st.counter.births) :
    st'.pending = [] → cfg.maxBirths ≤ st'.counter.births := by
  induction cs generalizing st with
  | nil => simp only [steadyRun, Except.ok.injEq] at h; exact h ▸ h0
  | cons c cs ih =>
    simp only [steadyRun] at h
    split at h
    · simp only [Except.ok.injEq] at h; exact h ▸ h0
    · cases e : steadyStep cfg st c with
      | error e' => rw [e] at h; simp at h
      | ok st1 =>
        rw [e] at h
        refine ih st1 h ?_
        intro hp
        obtain ⟨x, ev, -, -, -, -, cnt, -, h4⟩ := steadyStep_ok cfg st st1 c e
        rcases h4 with ⟨-, off, ho, hp', -⟩ | ⟨hb, -, -, hc⟩
        · rw [hp'] at hp
          exact absurd (List.append_eq_nil_iff.mp hp).2 (hk1 _ _ _ ho)
        · rw [hc]; exact hb

/-- C41, the budget: for every completion order and every mix of outcomes, when `steady_state` ends (nothing is pending
any more) `max_births <= births <= max_births + k - 1`, where the pipeline makes between one and `k` offspring
at a time; everything submitted has been evaluated; not counting failures, the number of viable evaluations is
the initial population plus the births; counting them, the number of all evaluations is. -/
theorem steady_state_budget (cfg : SteadyConfig α D) (initial : List α) (hinit : initial ≠ []) (k : Nat)
    (ctx : LeapCtx) (hmax : 1 ≤ cfg.maxBirths)
    (hk : ∀ d pop off, cfg.pipeline d pop = .ok off → 1 ≤ off.length ∧ off.length ≤ k) (hk0 : 1 ≤ k)
    (cs : List (Completion α D)) (st : SteadyState α)
    (h : steadyRun cfg (steadyInit initial ctx) cs = .ok st) (hend : st.pending = []) :
    cfg.maxBirths ≤ st.counter.births ∧ st.counter.births < cfg.maxBirths + k ∧
    st.completed.length = st.submitted.length ∧
    (cfg.countNonviable = false →
      ((st.completed.countP cfg.viable : Nat) : Int) = initial.length + st.counter.births) ∧
    (cfg.countNonviable = true → (st.completed.length : Int) = initial.length + st.counter.births) := by
  obtain ⟨h1, -, h3, h4⟩ := steady_state_accounting cfg initial k ctx (fun d p o ho => (hk d p o ho).2) cs st h
  have h5 := steadyRun_budget cfg (fun d p o ho hn => by have := (hk d p o ho).1; simp [hn] at this) cs _ st h
    (fun hp => absurd hp hinit) hend
  have hlen : st.completed.length = st.submitted.length := by rw [hend] at h3; simpa using h3
  refine ⟨h5, by omega, hlen, ?_, ?_⟩
  · intro hc
    simp only [countedBirths, hc, Bool.false_eq_true, if_false] at h1
    have := List.length_eq_countP_add_countP cfg.viable (l := st.completed)
    simp only [Bool.not_eq_true, ← Bool.not_eq_true'] at this
    have e : st.completed.countP (fun a => decide ((!cfg.viable a) = true)) = st.completed.countP fun x => !cfg.viable x := by
      congr 1; funext a; simp
    omega
  · intro hc
    simp only [countedBirths, hc, if_true] at h1
    omega

/-- C41: every evaluated individual is handed to the inserter exactly once, in the order of completion: the population
is what inserting the completed individuals one after the other gives. -/
theorem steady_state_inserts_each_once (cfg : SteadyConfig α D) (initial : List α) (ctx : LeapCtx)
    (cs : List (Completion α D)) (st : SteadyState α)
    (h : steadyRun cfg (steadyInit initial ctx) cs = .ok st) :
    ∃ draws : List D, draws.length = st.completed.length ∧
      insertAll (fun d x pop => cfg.inserter d x pop cfg.popSize) (draws.zip st.completed) [] = .ok st.pop := by
  have app : ∀ (ins : D → α → List α → PyM (List α)) (l1 : List (D × α)) (d : D) (x : α) (p p1 p2 : List α),
      insertAll ins l1 p = .ok p1 → ins d x p1 = .ok p2 → insertAll ins (l1 ++ [(d, x)]) p = .ok p2 := by
    intro ins l1
    induction l1 with
    | nil => intro d x p p1 p2 h1 h2; simp only [insertAll, Except.ok.injEq] at h1; subst h1; simp [insertAll, h2]
    | cons dx l1 ih =>
      intro d x p p1 p2 h1 h2
      obtain ⟨d', x'⟩ := dx
      simp only [insertAll, List.cons_append] at h1 ⊢
      cases e : ins d' x' p with
      | error e' => rw [e] at h1; simp at h1
      | ok p3 => rw [e] at h1; simp only at h1 ⊢; exact ih d x p3 p1 p2 h1 h2
  have gen : ∀ (cs : List (Completion α D)) (st0 : SteadyState α), steadyRun cfg st0 cs = .ok st →
      (∃ draws : List D, draws.length = st0.completed.length ∧
        insertAll (fun d x pop => cfg.inserter d x pop cfg.popSize) (draws.zip st0.completed) [] = .ok st0.pop) →
      ∃ draws : List D, draws.length = st.completed.length ∧
        insertAll (fun d x pop => cfg.inserter d x pop cfg.popSize) (draws.zip st.completed) [] = .ok st.pop := by
    intro cs
    induction cs with
    | nil => intro st0 h h0; simp only [steadyRun, Except.ok.injEq] at h; exact h ▸ h0
    | cons c cs ih =>
      intro st0 h h0
      simp only [steadyRun] at h
      split at h
      · simp only [Except.ok.injEq] at h; exact h ▸ h0
      · cases e : steadyStep cfg st0 c with
        | error e' => rw [e] at h; simp at h
        | ok st1 =>
          rw [e] at h
          refine ih st1 h ?_
          obtain ⟨x, ev, -, -, h2, h3, -⟩ := steadyStep_ok cfg st0 st1 c e
          obtain ⟨draws, hd, hins⟩ := h0
          refine ⟨draws ++ [c.draw], by rw [h2]; simp [hd], ?_⟩
          rw [h2, List.zip_append hd]
          exact app _ _ _ _ _ _ _ hins h3
  exact gen cs _ h ⟨[], rfl, rfl⟩

/-- C41, progress: if failures count, or there are none, the loop ends after at most
`init + max_births + k - 1` completions, whatever their order. -/
theorem steady_state_terminates (cfg : SteadyConfig α D) (initial : List α) (k : Nat) (hk0 : 1 ≤ k) (ctx : LeapCtx)
    (hmax : 1 ≤ cfg.maxBirths)
    (hk : ∀ d pop off, cfg.pipeline d pop = .ok off → off.length ≤ k)
    (cs : List (Completion α D)) (st : SteadyState α)
    (h : steadyRun cfg (steadyInit initial ctx) cs = .ok st)
    (hv : cfg.countNonviable = true ∨ ∀ x ∈ st.completed, cfg.viable x = true)
    (hlen : (initial.length : Int) + cfg.maxBirths + k ≤ cs.length) : st.pending = [] := by
  have count : ∀ (cs : List (Completion α D)) (st0 : SteadyState α), steadyRun cfg st0 cs = .ok st →
      st.pending = [] ∨ st.completed.length = st0.completed.length + cs.length := by
    intro cs
    induction cs with
    | nil => intro st0 h; simp only [steadyRun, Except.ok.injEq] at h; subst h; exact Or.inr (by simp)
    | cons c cs ih =>
      intro st0 h
      simp only [steadyRun] at h
      split at h
      · rename_i he
        simp only [Except.ok.injEq] at h; subst h
        exact Or.inl (by simpa using he)
      · cases e : steadyStep cfg st0 c with
        | error e' => rw [e] at h; simp at h
        | ok st1 =>
          rw [e] at h
          obtain ⟨x, ev, -, -, h2, -⟩ := steadyStep_ok cfg st0 st1 c e
          rcases ih st1 h with h3 | h3
          · exact Or.inl h3
          · right; rw [h3, h2]; simp; omega
  obtain ⟨h1, -, h3, h4⟩ := steady_state_accounting cfg initial k ctx hk cs st h
  have hsub : (st.submitted.length : Int) = initial.length + st.counter.births := by
    unfold countedBirths at h1
    rcases hv with hv | hv
    · simp only [hv, if_true] at h1; omega
    · have : (st.completed.countP fun x => !cfg.viable x) = 0 := by
        rw [List.countP_eq_zero]; intro x hx; simp [hv x hx]
      rw [this] at h1
      split at h1 <;> simp at h1 <;> omega
  rcases count cs _ h with h5 | h5
  · exact h5
  · have : (steadyInit initial ctx).completed.length = 0 := rfl
    rw [this] at h5
    omega

/-- A configuration for the examples: two offspring per completion, odd numbers fail. -/
def exSteady : SteadyConfig Nat Unit where
  maxBirths := 3
  popSize := 2
  countNonviable := false
  viable := fun x => x % 2 == 0
  inserter := fun _ x pop n => greedyInsert (fun x => x % 2 == 0) (fun _ a b => decide (a < b)) (fun a b => decide (b < a)) x pop n
  pipeline := fun _ pop => .ok [pop.sum + 1, pop.sum + 2]

/-- Completions in the order given, values returned unchanged. -/
def exCompletions (l : List Nat) : List (Completion Nat Unit) := l.map fun i => ⟨i, fun x => .ok x, ()⟩

example : ((steadyRun exSteady (steadyInit [2, 4] {}) (exCompletions [1, 0, 3, 1, 0, 0, 0, 0])).toOption.map
    fun st => (st.pending, st.pop, st.counter.births, st.completed)) = some ([], [16, 17], 3, [4, 2, 8, 6, 5, 7, 16, 17]) := by
  decide +kernel

/-! ## C65 synchronous evaluation -/

/-- C65: whatever order the workers finish in, gathering gives the evaluated individuals in the order of the population,
each once. -/
theorem map_gather_order {β : Type} (f : α → β) (population : List α) (order : List Nat)
    (hall : ∀ i, i < population.length → i ∈ order) :
    mapGather f population order = population.map fun x => some (f x) := by
  have key : ∀ (order : List Nat) (futures : List (Option β)), futures.length = population.length →
      let r := order.foldl (fun futures i =>
        match population[i]? with
        | none => futures
        | some x => futures.set i (some (f x))) futures
      r.length = population.length ∧ ∀ (i : Nat) (x : α), population[i]? = some x →
        r[i]? = if i ∈ order then some (some (f x)) else futures[i]? := by
    intro order
    induction order with
    | nil => intro fu hl; exact ⟨hl, by simp⟩
    | cons j order ih =>
      intro fu hl
      simp only [List.foldl_cons]
      cases hj : population[j]? with
      | none =>
        obtain ⟨h1, h2⟩ := ih fu hl
        refine ⟨h1, fun i x hx => ?_⟩
        have hne : i ≠ j := by rintro rfl; rw [hj] at hx; simp at hx
        rw [h2 i x hx]; simp [hne]
      | some y =>
        obtain ⟨h1, h2⟩ := ih (fu.set j (some (f y))) (by simpa using hl)
        refine ⟨h1, fun i x hx => ?_⟩
        rw [h2 i x hx]
        by_cases hij : i = j
        · subst hij
          rw [hj] at hx; cases hx
          have : i < fu.length := by rw [hl]; exact (List.getElem?_eq_some_iff.1 hj).1
          simp [this]
        · simp [hij, List.getElem?_set_ne (Ne.symm hij)]
  obtain ⟨h1, h2⟩ := key order (population.map fun _ => none) (by simp)
  apply List.ext_getElem?
  intro i
  by_cases hi : i < population.length
  · have := h2 i _ (List.getElem?_eq_getElem hi)
    rw [if_pos (hall i hi)] at this
    rw [List.getElem?_map, List.getElem?_eq_getElem hi]
    exact this
  · have h1' : (mapGather f population order).length = population.length := h1
    rw [List.getElem?_eq_none (by omega), List.getElem?_eq_none (by simp; omega)]

example : mapGather (fun n : Nat => n * n) [1, 2, 3] [2, 0, 1] = [some 1, some 4, some 9] := by decide

end

end Leap
