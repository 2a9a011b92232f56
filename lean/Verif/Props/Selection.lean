import Verif.Model.Selection
import Verif.Lemmas.Order
import Verif.Lemmas.Gen
import Mathlib.Data.List.Basic
import Mathlib.Data.List.Nodup

/-!
# C09–C14: selection operators
-/

namespace Leap
open Spec
variable {α : Type}

/-! ## C09 truncation selection -/

/-- C09: `truncation_selection` returns the `size` best of the offspring (and parents, when given),
best first. -/
theorem truncation_keeps_best (lt : α → α → Bool) (h : StrictWeak lt) (offspring : List α)
    (size : Nat) (parents : Option (List α)) :
    KBest lt size (offspring ++ parents.getD []) (truncationSelection lt offspring size parents) ∧
    BestFirst lt (truncationSelection lt offspring size parents) := by
  cases parents with
  | none => simpa [truncationSelection] using ⟨topk_kbest h size offspring, topk_bestFirst h _ _⟩
  | some ps => simpa [truncationSelection] using
      ⟨topk_kbest h size (offspring ++ ps), topk_bestFirst h _ _⟩

/-- C09: among equally good individuals the earlier one (offspring before parents) is kept, and
the order among them is unchanged. -/
theorem truncation_ties_keep_earlier (lt : α → α → Bool) (h : StrictWeak lt) (offspring : List α)
    (size : Nat) (parents : Option (List α)) (hn : (offspring ++ parents.getD []).Nodup) (a b : α)
    (hab : [a, b].Sublist (offspring ++ parents.getD [])) (h1 : lt a b = false)
    (hb : b ∈ truncationSelection lt offspring size parents) :
    [a, b].Sublist (truncationSelection lt offspring size parents) := by
  obtain ⟨all, hall, heq⟩ : ∃ all, all = offspring ++ parents.getD [] ∧
      truncationSelection lt offspring size parents = topk lt size all := by
    cases parents with
    | none => exact ⟨offspring, by simp, by simp [truncationSelection]⟩
    | some ps => exact ⟨offspring ++ ps, by simp, by simp [truncationSelection]⟩
  rw [heq] at hb ⊢
  rw [← hall] at hab hn
  have hs : [a, b].Sublist (sortedDesc lt all) := sortedDesc_stable h h1 hab
  have hnd : (sortedDesc lt all).Nodup := (sortedDesc_perm lt all).nodup_iff.mpr hn
  unfold topk at hb ⊢
  rw [← List.take_append_drop size (sortedDesc lt all)] at hs hnd
  obtain ⟨l₁, l₂, e, s₁, s₂⟩ := List.sublist_append_iff.mp hs
  have hdisj := (List.nodup_append'.mp hnd).2.2
  have hl2 : l₂ = [] := by
    by_contra hne
    have : b ∈ l₂ := by
      rcases l₁ with _ | ⟨x, _ | ⟨y, l₁⟩⟩
      · simp at e; rw [← e]; simp
      · simp at e; rw [← e.2]; simp
      · simp at e; exact absurd e.2.2.2 hne
    exact hdisj hb (s₂.subset this)
  rw [hl2, List.append_nil] at e
  rw [e]; exact s₁

example : StrictWeak (fun a b : Nat => decide (a / 10 < b / 10)) ∧
    [21, 22].Sublist ([13, 21, 22] ++ (some [35]).getD []) ∧ ([13, 21, 22] ++ [35]).Nodup := by
  refine ⟨⟨?_, ?_⟩, by decide, by decide⟩
  · intro a b h; simp at *; omega
  · intro a b c h1 h2; simp at *; omega

/-! ## C10 elitist survival -/

/-- C10: exactly as many survivors as offspring; they are the best of the offspring together with
`k` best parents, best first. -/
theorem elitist_survivors (lt : α → α → Bool) (h : StrictWeak lt) (offspring parents : List α)
    (k : Nat) :
    (elitistSurvival lt offspring parents k).1.length = offspring.length ∧
    (∃ elites, KBest lt k parents elites ∧
      KBest lt offspring.length (offspring ++ elites) (elitistSurvival lt offspring parents k).1) ∧
    BestFirst lt (elitistSurvival lt offspring parents k).1 := by
  refine ⟨?_, ⟨topk lt k parents, topk_kbest h k parents, topk_kbest h _ _⟩, topk_bestFirst h _ _⟩
  simp [elitistSurvival, topk_length]

/-- C10: with at least one elite and at least one offspring, the first survivor is at least as good
as every parent and every offspring: the best is never lost. -/
theorem elitist_never_loses_best (lt : α → α → Bool) (h : StrictWeak lt)
    (offspring parents : List α) (k : Nat) (hk : 1 ≤ k) (ho : offspring ≠ []) :
    ∃ b, (elitistSurvival lt offspring parents k).1.head? = some b ∧
      ∀ x ∈ offspring ++ parents, lt b x = false := by
  have hlen := (elitist_survivors lt h offspring parents k).1
  cases e : (elitistSurvival lt offspring parents k).1 with
  | nil =>
    rw [e] at hlen
    exact absurd (List.length_eq_zero_iff.mp hlen.symm) ho
  | cons b t =>
    refine ⟨b, by simp, ?_⟩
    have hb : ∀ x ∈ offspring ++ topk lt k parents, lt b x = false :=
      topk_head_best h (show topk lt offspring.length (offspring ++ topk lt k parents) = b :: t from e)
    intro x hx
    rcases List.mem_append.mp hx with hx | hx
    · exact hb x (List.mem_append_left _ hx)
    · -- the best parent is among the elites
      cases e2 : topk lt k parents with
      | nil =>
        have hl := topk_length lt k parents
        rw [e2] at hl
        have : parents.length = 0 := by simp at hl; omega
        rw [List.length_eq_zero_iff] at this
        subst this; simp at hx
      | cons c u =>
        have h1 := topk_head_best h e2 x hx
        have h2 := hb c (by rw [e2]; simp)
        exact h.negTrans b c x h2 h1

/-- C10: the offspring list passed in is changed: the elites are appended to it. -/
theorem elitist_extends_argument (lt : α → α → Bool) (h : StrictWeak lt)
    (offspring parents : List α) (k : Nat) :
    ∃ elites, KBest lt k parents elites ∧ BestFirst lt elites ∧
      (elitistSurvival lt offspring parents k).2 = offspring ++ elites :=
  ⟨topk lt k parents, topk_kbest h k parents, topk_bestFirst h _ _, rfl⟩

example : (elitistSurvival (fun a b : Nat => decide (a < b)) [1, 5, 2] [9, 3] 1).1 = [9, 5, 2] := by
  decide

/-! ## C11 tournament selection -/

/-- C11: each tournament yields one of the sampled individuals that none of the sampled ones beats
(with `select_worst`, that none of the sampled ones is worse than), and reports its index. -/
theorem tournament_winner (lt gt : α → α → Bool) (hlt : StrictPartial lt) (hgt : StrictPartial gt)
    (selectWorst : Bool) (population : List α) (k : Nat) (draws : List Nat)
    (hd : ValidDraws population.length k draws) (hk : 0 < k) (hp : population ≠ []) :
    ∃ i ind, tournamentStep lt gt selectWorst population k draws = .ok ([i], ind) ∧
      i ∈ draws ∧ population[i]? = some ind ∧
      ∀ j ∈ draws, ∀ other, population[j]? = some other →
        (if selectWorst then lt other ind = false else gt other ind = false) := by
  obtain ⟨hl, hr⟩ := hd
  cases draws with
  | nil => simp at hl; omega
  | cons d ds =>
    have lift : ∀ c : α → α → Bool, StrictPartial c → StrictPartial (cmpAt population c) := by
      intro c hc
      constructor
      · intro i; unfold cmpAt; cases population[i]? <;> simp [hc.irrefl]
      · intro i j l h1 h2
        unfold cmpAt at *
        cases hi : population[i]? <;> cases hj : population[j]? <;> cases hm : population[l]? <;>
          simp_all
        exact hc.trans _ _ _ h1 h2
    cases selectWorst with
    | true =>
      have hmem := pyMinFrom_mem (cmpAt population lt) d ds
      have hspec := pyMinFrom_spec (lift lt hlt) d ds
      set best := pyMinFrom (cmpAt population lt) d ds with hbest
      have hlt' := hr best hmem
      refine ⟨best, population[best], ?_, hmem, List.getElem?_eq_getElem hlt', ?_⟩
      · simp only [tournamentStep, hp, false_and, if_false, if_true, pyMin]
        rw [← hbest]
        simp [List.getElem?_eq_getElem hlt']
      · intro j hj other ho
        have := hspec j hj
        simp only [cmpAt, List.getElem?_eq_getElem hlt', ho] at this
        simpa using this
    | false =>
      have hmem := pyMaxFrom_mem (cmpAt population gt) d ds
      have hspec := pyMaxFrom_spec (lift gt hgt) d ds
      set best := pyMaxFrom (cmpAt population gt) d ds with hbest
      have hlt' := hr best hmem
      refine ⟨best, population[best], ?_, hmem, List.getElem?_eq_getElem hlt', ?_⟩
      · simp only [tournamentStep, hp, false_and, if_false, Bool.false_eq_true, pyMax]
        rw [← hbest]
        simp [List.getElem?_eq_getElem hlt']
      · intro j hj other ho
        have := hspec j hj
        simp only [cmpAt, List.getElem?_eq_getElem hlt', ho] at this
        simpa using this

/-- C11, error branches: an empty population raises `IndexError`; a tournament of size 0 raises
`ValueError`. -/
theorem tournament_errors (lt gt : α → α → Bool) (w : Bool) (population : List α) :
    (∀ k draws, 0 < k → tournamentStep lt gt w ([] : List α) k draws = .error .indexError) ∧
    (∀ draws, ValidDraws population.length 0 draws →
      tournamentStep lt gt w population 0 draws = .error .valueError) := by
  refine ⟨?_, ?_⟩
  · intro k draws hk; simp [tournamentStep, hk]
  · intro draws hd
    have : draws = [] := List.length_eq_zero_iff.mp hd.1
    subst this
    cases w <;> simp [tournamentStep, pyMin, pyMax]

example : ValidDraws [10, 20, 30].length 2 [0, 2] ∧
    tournamentStep (fun a b : Nat => decide (a < b)) (fun a b => decide (b < a)) false
      [10, 20, 30] 2 [0, 2] = .ok ([2], 30) ∧
    tournamentStep (fun a b : Nat => decide (a < b)) (fun a b => decide (b < a)) true
      [10, 20, 30] 2 [0, 2] = .ok ([0], 10) := by
  refine ⟨⟨rfl, by decide⟩, by decide, by decide⟩

/-! ## C12 insertion selection -/

/-- The intended behaviour: each child in turn competes with the parent at its random place, the
child staying unless the parent is better. -/
def Spec.competeAll (gt : α → α → Bool) : List (α × Nat) → List α → List α
  | [], parents => parents
  | (child, i) :: rest, parents =>
    Spec.competeAll gt rest
      (match parents[i]? with
       | some p => parents.set i (if gt p child then p else child)
       | none => parents)

/-- C12, the full statement for a given draw of places. -/
def InsertionIsCompetition (gt : α → α → Bool) (offspring parents : List α) (places : List Nat) :
    Prop :=
  ∀ idx, places.head? = some idx →
    insertionSelection gt offspring parents idx =
      .ok (Spec.competeAll gt (offspring.zip places) parents)

/-- C12 is false of the code: with two children, a second child that beats every parent is not
inserted. -/
theorem insertion_loses_second_child :
    ∃ (offspring parents : List Nat) (places : List Nat),
      places.length = offspring.length ∧ (∀ i ∈ places, i < parents.length) ∧
      ¬ InsertionIsCompetition (fun a b => decide (b < a)) offspring parents places := by
  refine ⟨[1, 9], [5, 5], [0, 1], rfl, by decide, ?_⟩
  intro h
  have := h 0 rfl
  revert this
  decide

/-- C12: in fact every child after the first is ignored, whatever it is. -/
theorem insertion_ignores_later_children (gt : α → α → Bool) (child : α)
    (rest rest' parents : List α) (idx : Nat) :
    insertionSelection gt (child :: rest) parents idx =
      insertionSelection gt (child :: rest') parents idx := by
  simp [insertionSelection, insertionBody]

/-- C12: an empty offspring list is rejected with `ValueError` instead of returning the parents. -/
theorem insertion_empty_offspring_raises (gt : α → α → Bool) (parents : List α) (idx : Nat) :
    insertionSelection gt ([] : List α) parents idx = .error .valueError := by
  simp [insertionSelection, insertionBody]

/-- C12: a child with no parents to compete with is rejected with `ValueError`, whatever the draw. -/
theorem insertion_empty_parents_raises (gt : α → α → Bool) (offspring : List α) (idx : Nat) :
    insertionSelection gt offspring ([] : List α) idx = .error .valueError := by
  cases offspring <;> simp [insertionSelection, insertionBody]

/-- C12, the part that holds: for a single child the result is the intended competition: size is
kept, only the drawn place may change, it holds a winner, and nothing gets beaten out. Missing: more
than one child, or none. -/
theorem insertion_single_child_partial (gt : α → α → Bool) (child : α) (parents : List α)
    (idx : Nat) (hi : idx < parents.length) :
    InsertionIsCompetition gt [child] parents [idx] ∧
    ∃ result, insertionSelection gt [child] parents idx = .ok result ∧
      result.length = parents.length ∧
      (∀ j, j ≠ idx → result[j]? = parents[j]?) ∧
      result[idx]? = some (if gt parents[idx] child then parents[idx] else child) := by
  have e : insertionSelection gt [child] parents idx =
      .ok (parents.set idx (if gt parents[idx] child then parents[idx] else child)) := by
    have : parents.length ≠ 0 := by omega
    simp [insertionSelection, insertionBody, this, List.getElem?_eq_getElem hi, pyMaxFrom]
  refine ⟨?_, _, e, by simp, ?_, ?_⟩
  · intro i h
    simp at h; subst h
    rw [e]
    simp [Spec.competeAll, List.getElem?_eq_getElem hi]
  · intro j hj
    rw [List.getElem?_set_ne (by omega)]
  · simp [hi]

example : insertionSelection (fun a b : Nat => decide (b < a)) [7] [9, 5] 1 = .ok [9, 7] := by decide

/-! ## C13 cyclic selection -/

/-- C13: the first `n` individuals yielded by `naive_cyclic_selection` are the population repeated
in order, each reported with its index; it never raises on a non-empty population. -/
theorem naive_cyclic_order (population : List α) (hp : population ≠ []) (n : Nat) :
    ∃ out s, pull (naiveCyclic population) n 0 () = .ok (out, s, ()) ∧
      out.length = n ∧
      ∀ j, j < n → ∃ a, population[j % population.length]? = some a ∧
        out[j]? = some (j % population.length, a) := by
  have hpos : 0 < population.length := List.length_pos_iff.mpr hp
  have gen : ∀ (n i : Nat), i < population.length →
      ∃ out s, pull (naiveCyclic population) n i () = .ok (out, s, ()) ∧ out.length = n ∧
        ∀ j, j < n → ∃ a, population[(i + j) % population.length]? = some a ∧
          out[j]? = some ((i + j) % population.length, a) := by
    intro n
    induction n with
    | zero => intro i hi; exact ⟨[], i, rfl, rfl, by simp⟩
    | succ n ih =>
      intro i hi
      obtain ⟨out, s, e, hl, hspec⟩ := ih (if i + 1 < population.length then i + 1 else 0)
        (by split <;> omega)
      refine ⟨(i, population[i]) :: out, s, ?_, by simp [hl], ?_⟩
      · have hnext : naiveCyclic population i () =
            .ok ((i, population[i]), if i + 1 < population.length then i + 1 else 0, ()) := by
          simp [naiveCyclic, List.getElem?_eq_getElem hi]
        simp only [pull, hnext, e]
      · intro j hj
        cases j with
        | zero =>
          refine ⟨population[i], ?_, ?_⟩
          · simp [Nat.mod_eq_of_lt hi]
          · simp [Nat.mod_eq_of_lt hi]
        | succ j =>
          obtain ⟨a, ha, ho⟩ := hspec j (by omega)
          have hm : ((if i + 1 < population.length then i + 1 else 0) + j) % population.length =
              (i + (j + 1)) % population.length := by
            split
            · congr 1; omega
            · have : i + (j + 1) = j + population.length := by omega
              rw [this, Nat.add_mod_right, Nat.zero_add]
          rw [hm] at ha ho
          exact ⟨a, ha, by simpa using ho⟩
  simpa using gen n 0 hpos

example : pull (naiveCyclic [7, 8]) 3 0 () = .ok ([(0, 7), (1, 8), (0, 7)], 1, ()) := by rfl

/-- C13: `cyclic_selection` yields every individual exactly once in each block of `|population|`
draws: after any whole number `m` of tours, the next `|population|` draws succeed and are a
permutation of the population; the very first tour is in the given order. -/
theorem cyclic_each_tour_is_permutation (shuffle : Nat → List α → List α)
    (hs : ∀ r l, (shuffle r l).Perm l) (population : List α) (hp : population ≠ []) (m : Nat) :
    ∃ before s tour s',
      pull (cyclicSelection shuffle) (m * population.length) (cyclicInit population) () =
        .ok (before, s, ()) ∧
      pull (cyclicSelection shuffle) population.length s () = .ok (tour, s', ()) ∧
      tour.Perm population ∧ (m = 0 → tour = population) := by
  -- a tour from a state whose `todo` is known yields exactly `todo`
  have drain : ∀ (todo saved : List α) (r : Nat),
      pull (cyclicSelection shuffle) todo.length ⟨todo, saved, r⟩ () =
        .ok (todo, ⟨[], saved, r⟩, ()) := by
    intro todo saved r
    induction todo with
    | nil => rfl
    | cons a t ih =>
      have hnext : cyclicSelection shuffle ⟨a :: t, saved, r⟩ () = .ok (a, ⟨t, saved, r⟩, ()) := rfl
      simp only [List.length_cons, pull, hnext, ih]
  have tourStep : ∀ (saved : List α) (r : Nat), saved.Perm population →
      ∃ tour, pull (cyclicSelection shuffle) population.length ⟨[], saved, r⟩ () =
        .ok (tour, ⟨[], tour, r + 1⟩, ()) ∧ tour.Perm population := by
    intro saved r hperm
    have hsp : (shuffle r saved).Perm population := (hs r saved).trans hperm
    cases e : shuffle r saved with
    | nil =>
      rw [e] at hsp
      exact absurd (List.nil_perm.mp hsp) hp
    | cons a t =>
      have hlen : population.length = t.length + 1 := by
        rw [← hsp.length_eq, e]; simp
      have hne : saved ≠ [] := by
        rintro rfl
        exact hp (List.nil_perm.mp hperm)
      have hnext : cyclicSelection shuffle ⟨[], saved, r⟩ () = .ok (a, ⟨t, a :: t, r + 1⟩, ()) := by
        simp [cyclicSelection, hne, e]
      refine ⟨a :: t, ?_, by rw [← e]; exact hsp⟩
      rw [hlen]
      simp only [pull, hnext, drain]
  -- invariant: after m ≥ 1 tours the state is ⟨[], saved, _⟩ with saved a permutation
  have inv : ∀ m, ∃ before saved r,
      pull (cyclicSelection shuffle) ((m + 1) * population.length) (cyclicInit population) () =
        .ok (before, ⟨[], saved, r⟩, ()) ∧ saved.Perm population := by
    intro m
    induction m with
    | zero =>
      refine ⟨population, population, 0, ?_, List.Perm.refl _⟩
      simpa [cyclicInit] using drain population population 0
    | succ m ih =>
      obtain ⟨before, saved, r, e, hperm⟩ := ih
      obtain ⟨tour, et, hpt⟩ := tourStep saved r hperm
      refine ⟨before ++ tour, tour, r + 1, ?_, hpt⟩
      rw [show (m + 1 + 1) * population.length = (m + 1) * population.length + population.length by
        rw [Nat.succ_mul]]
      exact pull_add _ _ _ e et
  cases m with
  | zero =>
    refine ⟨[], cyclicInit population, population, ⟨[], population, 0⟩, ?_, ?_,
      List.Perm.refl _, fun _ => rfl⟩
    · simp [pull]
    · exact drain population population 0
  | succ m =>
    obtain ⟨before, saved, r, e, hperm⟩ := inv m
    obtain ⟨tour, et, hpt⟩ := tourStep saved r hperm
    exact ⟨before, _, tour, _, e, et, hpt, by omega⟩

example : (∀ r (l : List Nat), ((fun (_ : Nat) (l : List Nat) => l.reverse) r l).Perm l) ∧
    pull (cyclicSelection (fun _ l => l.reverse)) 7 (cyclicInit [1, 2, 3]) () =
      .ok ([1, 2, 3, 3, 2, 1, 1], ⟨[2, 3], [1, 2, 3], 2⟩, ()) := by
  refine ⟨fun r l => l.reverse_perm, rfl⟩

/-- C13: both cyclic selectors stop at once on an empty population. -/
theorem cyclic_empty_stops (shuffle : Nat → List α → List α) :
    naiveCyclic ([] : List α) 0 () = .error .stopIteration ∧
    cyclicSelection shuffle (cyclicInit ([] : List α)) () = .error .stopIteration := by
  constructor <;> rfl

/-! ## C14 pool and random selection -/

/-- C14: `random_selection` yields exactly the individual at each drawn index, and reports that
index. -/
theorem random_selection_yields_drawn (draw : Nat → Nat) (population : List α) (n : Nat)
    (hd : ∀ r, draw r < population.length) :
    ∃ out, pull (randomSelection draw population) n 0 () = .ok (out, n, ()) ∧ out.length = n ∧
      ∀ j, j < n → ∃ a, population[draw j]? = some a ∧ out[j]? = some (draw j, a) := by
  have hne : population ≠ [] := by
    intro h; have := hd 0; rw [h] at this; simp at this
  have gen : ∀ n r : Nat, ∃ out, pull (randomSelection draw population) n r () =
        .ok (out, r + n, ()) ∧ out.length = n ∧
      ∀ j, j < n → ∃ a, population[draw (r + j)]? = some a ∧ out[j]? = some (draw (r + j), a) := by
    intro n
    induction n with
    | zero => intro r; exact ⟨[], rfl, rfl, by simp⟩
    | succ n ih =>
      intro r
      obtain ⟨out, e, hl, hspec⟩ := ih (r + 1)
      have hnext : randomSelection draw population r () =
          .ok ((draw r, population[draw r]'(hd r)), r + 1, ()) := by
        simp [randomSelection, hne, List.getElem?_eq_getElem (hd r)]
      refine ⟨(draw r, population[draw r]'(hd r)) :: out, ?_, by simp [hl], ?_⟩
      · simp only [pull, hnext, e]
        rw [show r + 1 + n = r + (n + 1) by omega]
      · intro j hj
        cases j with
        | zero => exact ⟨population[draw r]'(hd r), by simp, by simp⟩
        | succ j =>
          obtain ⟨a, ha, ho⟩ := hspec j (by omega)
          rw [show r + 1 + j = r + (j + 1) by omega] at ha ho
          exact ⟨a, ha, by simpa using ho⟩
  simpa using gen n 0

example : pull (randomSelection (fun r => r % 2) [5, 6]) 3 0 () =
    .ok ([(0, 5), (1, 6), (0, 5)], 3, ()) := by rfl

/-- C14: selecting from an empty population raises `IndexError`. -/
theorem random_selection_empty_raises (draw : Nat → Nat) (r : Nat) :
    randomSelection draw ([] : List α) r () = .error .indexError := rfl

/-- C14: if `pool` succeeds it returns exactly `size` individuals, namely what the upstream
iterator yields on its first `size` resumptions, in order (`trace` lists the successive states). -/
theorem pool_exact {W σ β : Type} (g : Gen W σ β) (s : σ) (w : W) (size : Nat) (out : List β)
    (s' : σ) (w' : W) (h : pool g s w size = .ok (out, s', w')) :
    out.length = size ∧
    ∃ trace : Nat → σ × W, trace 0 = (s, w) ∧ trace size = (s', w') ∧
      ∀ i, i < size → ∃ a, out[i]? = some a ∧
        g (trace i).1 (trace i).2 = .ok (a, (trace (i + 1)).1, (trace (i + 1)).2) := by
  unfold pool at h
  induction size generalizing s w out with
  | zero =>
    simp only [pull, Except.ok.injEq, Prod.mk.injEq] at h
    obtain ⟨rfl, rfl, rfl⟩ := h
    exact ⟨rfl, fun _ => (s, w), rfl, rfl, by simp⟩
  | succ n ih =>
    obtain ⟨a, s1, w1, as, e, e2, rfl⟩ := pull_succ_ok h
    obtain ⟨hl, tr, t0, tn, hstep⟩ := ih s1 w1 as e2
    refine ⟨by simp [hl], fun i => match i with | 0 => (s, w) | i + 1 => tr i, rfl, tn, ?_⟩
    intro i hi
    cases i with
    | zero => exact ⟨a, by simp, by simp [e, t0]⟩
    | succ i =>
      obtain ⟨b, hb, hn⟩ := hstep i (by omega)
      exact ⟨b, by simpa using hb, hn⟩

/-- C14: if an upstream resumption raises before `size` individuals have been produced, `pool`
raises that same exception and returns nothing. -/
theorem pool_raises {W σ β : Type} (g : Gen W σ β) (s : σ) (w : W) (m size : Nat) (out : List β)
    (s' : σ) (w' : W) (e : PyErr) (hm : pool g s w m = .ok (out, s', w')) (he : g s' w' = .error e)
    (hlt : m < size) : pool g s w size = .error e := by
  unfold pool at *
  induction m generalizing s w out size with
  | zero =>
    simp only [pull, Except.ok.injEq, Prod.mk.injEq] at hm
    obtain ⟨rfl, rfl, rfl⟩ := hm
    obtain ⟨n, rfl⟩ : ∃ n, size = n + 1 := ⟨size - 1, by omega⟩
    simp only [pull, he]
  | succ m ih =>
    obtain ⟨n, rfl⟩ : ∃ n, size = n + 1 := ⟨size - 1, by omega⟩
    obtain ⟨a, s1, w1, as, e1, e2, rfl⟩ := pull_succ_ok hm
    simp only [pull, e1, ih s1 w1 n as e2 (by omega)]

/-- C14: over an upstream list of `n` individuals, `pool(size)` returns the first `size` when
`size ≤ n`, and raises `StopIteration` (never a shorter list) when `size > n`. -/
theorem pool_of_list {W : Type} (l : List α) (w : W) (size : Nat) :
    pool listIter l w size =
      if size ≤ l.length then .ok (l.take size, l.drop size, w) else .error .stopIteration := by
  unfold pool
  induction size generalizing l with
  | zero => simp [pull]
  | succ n ih =>
    cases l with
    | nil => simp [pull, listIter]
    | cons a t =>
      simp only [pull, listIter, ih t]
      by_cases hle : n ≤ t.length
      · simp [hle]
      · simp [hle]

example : pool (W := Unit) listIter [1, 2, 3] () 2 = .ok ([1, 2], [3], ()) ∧
    pool (W := Unit) listIter [1] () 2 = .error .stopIteration := by
  constructor <;> rfl

end Leap
