import Mathlib.Algebra.Order.Field.Rat
import Mathlib.Tactic.Linarith
import Verif.Model.Crossover
import Verif.Lemmas.Gen
import Verif.Lemmas.Order
import Verif.Lemmas.Mask

/-!
# C17–C19: crossover
-/

namespace Leap
open Spec

variable {γ : Type}

/-! ## C17 uniform crossover -/

/-- C17: on genomes of equal length uniform crossover succeeds, keeps both lengths, and at every
position `i` the children hold the parents' two genes of that position, exchanged exactly when
the `i`-th random number is below `p_swap`. -/
theorem uniform_crossover_swaps (p : ℚ) (hp0 : 0 ≤ p) (hp1 : p ≤ 1) (u : List ℚ) (a b : List γ)
    (hab : a.length = b.length) (hu : u.length = a.length) :
    ∃ a' b', uniformRecombine p u a b = (.ok (), a', b') ∧
      a'.length = a.length ∧ b'.length = b.length ∧
      ∀ (i : Nat) (x : ℚ), u[i]? = some x →
        (x < p → a'[i]? = b[i]? ∧ b'[i]? = a[i]?) ∧
        (p ≤ x → a'[i]? = a[i]? ∧ b'[i]? = b[i]?) := by
  have hmin : u.take (min a.length b.length) = u := by
    apply List.take_of_length_le; omega
  set mask := u.map fun x => decide (x < p) with hmask
  have hml : mask.length = a.length := by simp [hmask, hu]
  have hml' : mask.length = b.length := by omega
  have hsa := maskSelect_length mask a hml
  have hsb := maskSelect_length mask b hml'
  refine ⟨maskStore mask a (maskSelect mask b), maskStore mask b (maskSelect mask a), ?_,
    maskStore_length _ _ _, maskStore_length _ _ _, ?_⟩
  · have hbv : bernoulliVector u p = .ok mask := by
      simp [bernoulliVector, hp0, hp1, hmask]
    simp only [uniformRecombine, hmin, hbv, boolIndex, boolAssign]
    rw [if_pos hml]
    simp only
    rw [if_pos hml']
    simp only
    rw [if_pos hml, if_pos hsb]
    simp only
    rw [if_pos hml', if_pos hsa]
  · intro i x hx
    have hm : mask[i]? = some (decide (x < p)) := by simp [hmask, hx]
    have h1 := maskStore_select_get mask a b hml hml' i _ hm
    have h2 := maskStore_select_get mask b a hml' hml i _ hm
    constructor
    · intro h
      simp only [h, decide_true, if_true] at h1 h2
      exact ⟨h1, h2⟩
    · intro h
      have h3 : ¬ x < p := by linarith
      simp only [h3, decide_false, Bool.false_eq_true, if_false] at h1 h2
      exact ⟨h1, h2⟩

example : uniformRecombine (1 / 2) [1 / 4, 3 / 4, 0] [1, 2, 3] [4, 5, 6] =
    (.ok (), [4, 2, 6], [1, 5, 3]) := by decide +kernel

/-- C17: on genomes of different lengths uniform crossover raises `IndexError` and leaves both
genomes as they were. -/
theorem uniform_crossover_length_mismatch (p : ℚ) (hp0 : 0 ≤ p) (hp1 : p ≤ 1) (u : List ℚ)
    (a b : List γ) (hab : a.length ≠ b.length) (hu : u.length = min a.length b.length) :
    uniformRecombine p u a b = (.error .indexError, a, b) := by
  have hmin : u.take (min a.length b.length) = u := by
    apply List.take_of_length_le; omega
  simp only [uniformRecombine, hmin, bernoulliVector, hp0, hp1, and_self, if_true, boolIndex,
    List.length_map, hu]
  by_cases h : a.length < b.length
  · rw [if_pos (by omega)]
    simp only
    rw [if_neg (by omega)]
  · rw [if_neg (by omega)]

example : uniformRecombine (1 / 2) [1 / 4] [1] [4, 5] = (.error .indexError, [1], [4, 5]) := by
  decide +kernel

/-- C17: an out-of-range swap probability is rejected before anything changes. -/
theorem uniform_crossover_bad_probability (p : ℚ) (hp : p < 0 ∨ 1 < p) (u : List ℚ) (a b : List γ) :
    uniformRecombine p u a b = (.error .assertionError, a, b) := by
  have : ¬ (0 ≤ p ∧ p ≤ 1) := by
    rintro ⟨h1, h2⟩; rcases hp with h | h <;> linarith
  simp [uniformRecombine, bernoulliVector, this]

/-! ## C18 n-point crossover -/

theorem pySlice_length (l : List γ) (s t : Nat) (h : t ≤ l.length) :
    (pySlice l s t).length = t - s := by
  simp [pySlice]; omega

theorem pySlice_get (l : List γ) (s t j : Nat) (h : s + j < t) :
    (pySlice l s t)[j]? = l[s + j]? := by
  simp only [pySlice]
  rw [List.getElem?_take_of_lt (by omega), List.getElem?_drop]

theorem naryLoop_spec (n : Nat) (stops : List Nat) : ∀ (a b : List γ) (start : Nat),
    a.length = n → b.length = n → (start :: stops).Pairwise (· ≤ ·) →
    (start :: stops).getLast (by simp) = n →
    (naryLoop a b start stops).1.length = n - start ∧
    (naryLoop a b start stops).2.length = n - start ∧
    ∀ j, start + j < n →
      ((stops.countP (fun c => decide (c ≤ start + j))) % 2 = 0 →
        (naryLoop a b start stops).1[j]? = a[start + j]? ∧
        (naryLoop a b start stops).2[j]? = b[start + j]?) ∧
      ((stops.countP (fun c => decide (c ≤ start + j))) % 2 = 1 →
        (naryLoop a b start stops).1[j]? = b[start + j]? ∧
        (naryLoop a b start stops).2[j]? = a[start + j]?) := by
  induction stops with
  | nil =>
    intro a b start ha hb hs hl
    simp only [List.getLast_singleton] at hl
    subst hl
    simp [naryLoop]
  | cons t ts ih =>
    intro a b start ha hb hs hl
    have hst : start ≤ t := (List.pairwise_cons.mp hs).1 t (by simp)
    have hs' := (List.pairwise_cons.mp hs).2
    have hl' : (t :: ts).getLast (by simp) = n := by rw [← hl]; simp [List.getLast_cons]
    have htn : t ≤ n := by
      rw [← hl']
      rcases List.mem_cons.mp (List.getLast_mem (l := t :: ts) (by simp)) with h | h
      · omega
      · exact (List.pairwise_cons.mp hs').1 _ h
    obtain ⟨l1, l2, hget⟩ := ih b a t hb ha hs' hl'
    simp only [naryLoop]
    refine ⟨?_, ?_, ?_⟩
    · rw [List.length_append, pySlice_length _ _ _ (by omega), l1]; omega
    · rw [List.length_append, pySlice_length _ _ _ (by omega), l2]; omega
    · intro j hj
      by_cases hlt : start + j < t
      · -- inside the first section: no cut point at or below
        have hc : (t :: ts).countP (fun c => decide (c ≤ start + j)) = 0 := by
          rw [List.countP_eq_zero]
          intro c hc
          rcases List.mem_cons.mp hc with rfl | h
          · simp; omega
          · have := (List.pairwise_cons.mp hs').1 c h
            simp; omega
        rw [hc]
        refine ⟨fun _ => ?_, by omega⟩
        rw [List.getElem?_append_left (by rw [pySlice_length _ _ _ (by omega)]; omega),
          List.getElem?_append_left (by rw [pySlice_length _ _ _ (by omega)]; omega),
          pySlice_get _ _ _ _ hlt, pySlice_get _ _ _ _ hlt]
        exact ⟨rfl, rfl⟩
      · have hc : (t :: ts).countP (fun c => decide (c ≤ start + j)) =
            ts.countP (fun c => decide (c ≤ start + j)) + 1 := by
          rw [List.countP_cons_of_pos]; simp; omega
        have hj' : start + j = t + (j - (t - start)) := by omega
        obtain ⟨g1, g2⟩ := hget (j - (t - start)) (by omega)
        rw [← hj'] at g1 g2
        rw [hc, List.getElem?_append_right (by rw [pySlice_length _ _ _ (by omega)]; omega),
          List.getElem?_append_right (by rw [pySlice_length _ _ _ (by omega)]; omega),
          pySlice_length _ _ _ (by omega), pySlice_length _ _ _ (by omega)]
        constructor
        · intro h
          obtain ⟨x, y⟩ := g2 (by omega)
          exact ⟨x, y⟩
        · intro h
          obtain ⟨x, y⟩ := g1 (by omega)
          exact ⟨x, y⟩

theorem natLt_strictWeak : StrictWeak (fun x y : Nat => decide (x < y)) :=
  ⟨fun a b h => by simp at *; omega, fun a b c h1 h2 => by simp at *; omega⟩

/-- C18: on genomes of equal length `n`-point crossover with the cut points drawn succeeds, keeps
both lengths, and at position `i` the children hold the parents' two genes of that position,
exchanged exactly when an odd number of the cut points lie at or before `i`. -/
theorem nary_crossover_alternates (numPoints : Nat) (draws : List Nat) (a b : List γ)
    (hab : a.length = b.length) (hd : ValidCuts numPoints a.length draws) :
    ∃ a' b', naryRecombine numPoints draws a b = .ok (a', b') ∧
      a'.length = a.length ∧ b'.length = b.length ∧
      ∀ i, i < a.length →
        ((draws.countP (fun c => decide (c ≤ i))) % 2 = 0 → a'[i]? = a[i]? ∧ b'[i]? = b[i]?) ∧
        ((draws.countP (fun c => decide (c ≤ i))) % 2 = 1 → a'[i]? = b[i]? ∧ b'[i]? = a[i]?) := by
  obtain ⟨hd1, hd2, hd3⟩ := hd
  have hnp : numPoints ≤ a.length := by
    rw [← hd1]
    have := List.subperm_of_subset hd2 (l₂ := List.range a.length) (fun x hx => by
      simpa using hd3 x hx)
    simpa using this.length_le
  set ds := sortedAsc (fun x y : Nat => decide (x < y)) draws with hds
  have hperm : ds.Perm draws := sortedAsc_perm _ _
  have hsorted : (0 :: (ds ++ [a.length])).Pairwise (· ≤ ·) := by
    rw [List.pairwise_cons]
    refine ⟨fun _ _ => Nat.zero_le _, ?_⟩
    rw [List.pairwise_append]
    refine ⟨?_, by simp, ?_⟩
    · have := sortedAsc_pairwise natLt_strictWeak draws
      rw [← hds] at this
      exact this.imp (fun {x y} h => by simp at h; exact h)
    · intro x hx y hy
      simp only [List.mem_singleton] at hy
      subst hy
      exact (hd3 x (hperm.mem_iff.mp hx)).le
  have hlast : (0 :: (ds ++ [a.length])).getLast (by simp) = a.length := by simp
  obtain ⟨l1, l2, hget⟩ := naryLoop_spec a.length (ds ++ [a.length]) a b 0 rfl hab.symm hsorted hlast
  refine ⟨(naryLoop a b 0 (ds ++ [a.length])).1, (naryLoop a b 0 (ds ++ [a.length])).2, ?_,
    by omega, by omega, ?_⟩
  · simp only [naryRecombine, pickCrossoverPoints]
    rw [if_neg (by omega)]
    simp [← hds]
  · intro i hi
    obtain ⟨g1, g2⟩ := hget i (by omega)
    have hc : (ds ++ [a.length]).countP (fun c => decide (c ≤ 0 + i)) =
        draws.countP (fun c => decide (c ≤ i)) := by
      rw [List.countP_append, hperm.countP_eq]
      simp [hi]
    rw [hc, Nat.zero_add] at g1 g2
    exact ⟨g1, g2⟩

example : ValidCuts 2 5 [3, 1] ∧
    naryRecombine 2 [3, 1] [1, 2, 3, 4, 5] [6, 7, 8, 9, 10] =
      .ok ([1, 7, 8, 4, 5], [6, 2, 3, 9, 10]) := by
  refine ⟨⟨rfl, by decide, by decide⟩, by decide⟩

/-- C18: a genome shorter than the number of cut points is rejected with `RuntimeError`. -/
theorem nary_crossover_too_short (numPoints : Nat) (draws : List Nat) (a b : List γ)
    (h : a.length < numPoints ∨ b.length < numPoints) :
    naryRecombine numPoints draws a b = .error .runtimeError := by
  simp [naryRecombine, h]

theorem naryLoop_perm (stops : List Nat) : ∀ (a b : List γ) (start : Nat),
    (start :: stops).Pairwise (· ≤ ·) →
    ((naryLoop a b start stops).1 ++ (naryLoop a b start stops).2).Perm
      (pySlice a start ((start :: stops).getLast (by simp)) ++
       pySlice b start ((start :: stops).getLast (by simp))) := by
  have hslice : ∀ (l : List γ) (s t n : Nat), s ≤ t → t ≤ n →
      pySlice l s n = pySlice l s t ++ pySlice l t n := by
    intro l s t n h1 h2
    simp only [pySlice]
    have e1 : List.drop t l = List.drop (t - s) (List.drop s l) := by
      rw [List.drop_drop]; congr 1; omega
    rw [e1, show n - s = (t - s) + (n - t) by omega, List.take_add]
  induction stops with
  | nil => intro a b start _; simp [naryLoop, pySlice]
  | cons t ts ih =>
    intro a b start hs
    have hst : start ≤ t := (List.pairwise_cons.mp hs).1 t (by simp)
    have hs' := (List.pairwise_cons.mp hs).2
    have h := ih b a t hs'
    have hl : (start :: t :: ts).getLast (by simp) = (t :: ts).getLast (by simp) := by
      simp [List.getLast_cons]
    set n := (t :: ts).getLast (by simp) with hn
    have htn : t ≤ n := by
      rcases List.mem_cons.mp (List.getLast_mem (l := t :: ts) (by simp)) with h | h
      · omega
      · exact (List.pairwise_cons.mp hs').1 _ h
    rw [hl, hslice a start t n hst htn, hslice b start t n hst htn]
    simp only [naryLoop]
    set r := naryLoop b a t ts
    refine (?_ : (pySlice a start t ++ r.1 ++ (pySlice b start t ++ r.2)).Perm
      ((pySlice a start t ++ pySlice b start t) ++ (r.1 ++ r.2))).trans ?_
    · rw [List.append_assoc, List.append_assoc]
      apply List.Perm.append_left
      rw [← List.append_assoc, ← List.append_assoc]
      exact List.Perm.append_right _ List.perm_append_comm
    · refine (List.Perm.append_left _ h).trans ?_
      refine (List.Perm.append_left _ (List.perm_append_comm)).trans ?_
      rw [List.append_assoc, List.append_assoc]
      apply List.Perm.append_left
      rw [← List.append_assoc, ← List.append_assoc]
      exact List.Perm.append_right _ List.perm_append_comm

/-- C18: whatever the lengths, the genes in the two children are exactly the genes of the first
parent and of the first `|a|` positions of the second: a longer second parent loses precisely the
genes past the first parent's length. -/
theorem nary_crossover_gene_pool_partial (numPoints : Nat) (draws : List Nat) (a b : List γ)
    (hb : numPoints ≤ b.length) (hd : ValidCuts numPoints a.length draws) :
    ∃ a' b', naryRecombine numPoints draws a b = .ok (a', b') ∧
      (a' ++ b').Perm (a ++ b.take a.length) := by
  obtain ⟨hd1, hd2, hd3⟩ := hd
  have hnp : numPoints ≤ a.length := by
    rw [← hd1]
    have := List.subperm_of_subset hd2 (l₂ := List.range a.length) (fun x hx => by
      simpa using hd3 x hx)
    simpa using this.length_le
  set ds := sortedAsc (fun x y : Nat => decide (x < y)) draws with hds
  have hperm : ds.Perm draws := sortedAsc_perm _ _
  have hsorted : (0 :: (ds ++ [a.length])).Pairwise (· ≤ ·) := by
    rw [List.pairwise_cons]
    refine ⟨fun _ _ => Nat.zero_le _, ?_⟩
    rw [List.pairwise_append]
    refine ⟨?_, by simp, ?_⟩
    · have := sortedAsc_pairwise natLt_strictWeak draws
      rw [← hds] at this
      exact this.imp (fun {x y} h => by simp at h; exact h)
    · intro x hx y hy
      simp only [List.mem_singleton] at hy
      subst hy
      exact (hd3 x (hperm.mem_iff.mp hx)).le
  have h := naryLoop_perm (ds ++ [a.length]) a b 0 hsorted
  have hlast : (0 :: (ds ++ [a.length])).getLast (by simp) = a.length := by simp
  rw [hlast] at h
  refine ⟨(naryLoop a b 0 (ds ++ [a.length])).1, (naryLoop a b 0 (ds ++ [a.length])).2, ?_, ?_⟩
  · simp only [naryRecombine, pickCrossoverPoints]
    rw [if_neg (by omega)]
    simp [← hds]
  · simpa [pySlice] using h

/-- C18, disagreement: with a longer second parent a gene can vanish from both children. -/
theorem nary_crossover_loses_genes :
    ∃ (draws : List Nat) (a b a' b' : List Nat), ValidCuts 1 a.length draws ∧ 1 ≤ b.length ∧
      naryRecombine 1 draws a b = .ok (a', b') ∧ ∃ g ∈ b, g ∉ a' ∧ g ∉ b' :=
  ⟨[1], [1, 2], [3, 4, 5], [1, 4], [3, 2], ⟨rfl, by decide, by decide⟩, by decide, by decide,
    5, by decide, by decide, by decide⟩

/-! ## C19 the crossover operator as a generator -/

section
variable {U φ : Type}

theorem setUnion_mem (a b : List Nat) (x : Nat) : x ∈ setUnion a b ↔ x ∈ a ∨ x ∈ b := by
  simp only [setUnion, List.mem_append, List.mem_filter, Bool.not_eq_true', List.contains_iff_mem,
    Bool.eq_false_iff, ne_eq]
  constructor
  · rintro (h | ⟨h, -⟩) <;> simp [h]
  · rintro (h | h)
    · exact Or.inl h
    · by_cases hx : x ∈ a
      · exact Or.inl hx
      · exact Or.inr ⟨h, hx⟩

/-- C19: resumed twice from the top of its loop (or freshly created with nothing pending), a crossover
generator takes the next two upstream individuals `a`, `b` and yields two children. If the coin says
"no crossover" they are `a` and `b` untouched; otherwise they carry the recombined genomes, no
fitness, and both have the union of the parents' lineages. Nothing is left pending. -/
theorem crossover_pair (persist : Bool) (next : U → PyM (XInd γ φ × U)) (draw : U → Bool × U)
    (recombine : U → γ → γ → PyM ((γ × γ) × U)) (u u1 u2 u3 : U) (a b : XInd γ φ) (skip : Bool)
    (h1 : next u = .ok (a, u1)) (h2 : next u1 = .ok (b, u2)) (h3 : draw u2 = (skip, u3)) :
    (skip = true → pull (xoverGen persist next draw recombine) 2 .start ⟨none, u⟩ =
      .ok ([some a, some b], .loopTop, ⟨none, u3⟩)) ∧
    (skip = false → ∀ g1 g2 u4, recombine u3 a.genome b.genome = .ok ((g1, g2), u4) →
      ∃ c d, pull (xoverGen persist next draw recombine) 2 .start ⟨none, u⟩ =
          .ok ([some c, some d], .loopTop, ⟨none, u4⟩) ∧
        c.genome = g1 ∧ d.genome = g2 ∧ c.fitness = none ∧ d.fitness = none ∧
        (∀ x, x ∈ c.parents ↔ x ∈ a.parents ∨ x ∈ b.parents) ∧
        (∀ x, x ∈ d.parents ↔ x ∈ a.parents ∨ x ∈ b.parents)) ∧
    (skip = false → ∀ e, recombine u3 a.genome b.genome = .error e →
      pull (xoverGen persist next draw recombine) 2 .start ⟨none, u⟩ = pep479 (.error e)) := by
  refine ⟨?_, ?_, ?_⟩
  · rintro rfl
    simp [pull, xoverGen, xoverBody, h1, h2, h3, pep479, xoverPair]
  · rintro rfl g1 g2 u4 h4
    refine ⟨(xoverPair false (g1, g2) a b).1, (xoverPair false (g1, g2) a b).2, ?_, ?_⟩
    · simp [pull, xoverGen, xoverBody, h1, h2, h3, h4, pep479]
    · simp only [xoverPair, Bool.false_eq_true, if_false, setUnion_mem, true_and]
      constructor
      · intro x; trivial
      · intro x; tauto
  · rintro rfl e h4
    simp only [pull, xoverGen, Option.isSome_none, Bool.and_false, Bool.false_eq_true, if_false,
      xoverBody, h1, h2, h3, h4]
    cases e <;> rfl

/-- C19: with an exhausted upstream the generator raises `RuntimeError` (PEP 479), not
`StopIteration`. -/
theorem crossover_upstream_exhausted (persist : Bool) (next : U → PyM (XInd γ φ × U))
    (draw : U → Bool × U) (recombine : U → γ → γ → PyM ((γ × γ) × U)) (u : U)
    (h : next u = .error .stopIteration ∨
      ∃ a u1, next u = .ok (a, u1) ∧ next u1 = .error .stopIteration) :
    xoverGen persist next draw recombine .start ⟨none, u⟩ = .error .runtimeError := by
  rcases h with h | ⟨a, u1, h1, h2⟩
  · simp [xoverGen, xoverBody, h, pep479]
  · simp [xoverGen, xoverBody, h1, h2, pep479]

/-- A suspended crossover generator has a child pending exactly when it is between its two yields. -/
def XGood (pc : XPc) (w : XWorld U (XInd γ φ)) : Prop :=
  (pc = .loopTop ∧ w.secondChild = none) ∨ (pc = .afterFirst ∧ w.secondChild.isSome)

theorem xoverBody_good {next : U → PyM (XInd γ φ × U)} {draw : U → Bool × U}
    {recombine : U → γ → γ → PyM ((γ × γ) × U)} {w w' : XWorld U (XInd γ φ)}
    {y : Option (XInd γ φ)} {pc' : XPc}
    (h : xoverBody next draw recombine w = .ok (y, pc', w')) : XGood pc' w' := by
  right
  unfold xoverBody at h
  cases h1 : next w.up with
  | error e => rw [h1] at h; cases e <;> simp [pep479] at h
  | ok v1 =>
    obtain ⟨a, u1⟩ := v1
    rw [h1] at h; simp only at h
    cases h2 : next u1 with
    | error e => rw [h2] at h; cases e <;> simp [pep479] at h
    | ok v2 =>
      obtain ⟨b, u2⟩ := v2
      rw [h2] at h; simp only at h
      rcases h3 : draw u2 with ⟨sk, u3⟩
      rw [h3] at h
      cases sk with
      | true =>
        simp only [pep479, Except.ok.injEq, Prod.mk.injEq] at h
        obtain ⟨-, rfl, rfl⟩ := h
        exact ⟨rfl, rfl⟩
      | false =>
        simp only at h
        cases h4 : recombine u3 a.genome b.genome with
        | error e => rw [h4] at h; cases e <;> simp [pep479] at h
        | ok v4 =>
          rw [h4] at h
          simp only [pep479, Except.ok.injEq, Prod.mk.injEq] at h
          obtain ⟨-, rfl, rfl⟩ := h
          exact ⟨rfl, rfl⟩

theorem xoverGen_good {persist : Bool} {next : U → PyM (XInd γ φ × U)} {draw : U → Bool × U}
    {recombine : U → γ → γ → PyM ((γ × γ) × U)} {pc pc' : XPc} {w w' : XWorld U (XInd γ φ)}
    {y : Option (XInd γ φ)}
    (h : xoverGen persist next draw recombine pc w = .ok (y, pc', w')) : XGood pc' w' := by
  cases pc with
  | start =>
    simp only [xoverGen] at h
    split at h
    · simp only [Except.ok.injEq, Prod.mk.injEq] at h
      obtain ⟨-, rfl, rfl⟩ := h
      exact Or.inl ⟨rfl, rfl⟩
    · exact xoverBody_good h
  | loopTop => exact xoverBody_good h
  | afterFirst =>
    simp only [xoverGen, Except.ok.injEq, Prod.mk.injEq] at h
    obtain ⟨-, rfl, rfl⟩ := h
    exact Or.inl ⟨rfl, rfl⟩

theorem xoverGen_pull_good {persist : Bool} {next : U → PyM (XInd γ φ × U)} {draw : U → Bool × U}
    {recombine : U → γ → γ → PyM ((γ × γ) × U)} (k : Nat) :
    ∀ {pc pc' : XPc} {w w' : XWorld U (XInd γ φ)} {out : List (Option (XInd γ φ))},
      pull (xoverGen persist next draw recombine) k pc w = .ok (out, pc', w') →
      (pc' = pc ∧ w' = w) ∨ XGood pc' w' := by
  induction k with
  | zero =>
    intro pc pc' w w' out h
    simp only [pull, Except.ok.injEq, Prod.mk.injEq] at h
    obtain ⟨-, rfl, rfl⟩ := h
    exact Or.inl ⟨rfl, rfl⟩
  | succ k ih =>
    intro pc pc' w w' out h
    obtain ⟨y, pc1, w1, ys, e1, e2, rfl⟩ := pull_succ_ok h
    have hg := xoverGen_good e1
    rcases ih e2 with ⟨rfl, rfl⟩ | h2
    · exact Or.inr hg
    · exact Or.inr h2

/-- C19: with `persist_children=True`, dropping the generator after any number of individuals and
making a new one from the same operator, any number of times, yields exactly the stream that a single
generator would have yielded: no child is lost or repeated, and the final state (pending child,
upstream) is the same. This includes which exception is raised, if any. -/
theorem crossover_persist_restarts (next : U → PyM (XInd γ φ × U)) (draw : U → Bool × U)
    (recombine : U → γ → γ → PyM ((γ × γ) × U)) (ks : List Nat) (w : XWorld U (XInd γ φ)) :
    xoverSessions true next draw recombine ks w =
      (pull (xoverGen true next draw recombine) ks.sum .start w).map (fun r => (r.1, r.2.2)) := by
  induction ks generalizing w with
  | nil => simp [xoverSessions, pull, Except.map]
  | cons k ks ih =>
    simp only [xoverSessions, List.sum_cons, pull_add_eq]
    cases e : pull (xoverGen true next draw recombine) k .start w with
    | error err => simp [Except.map]
    | ok v =>
      obtain ⟨out, pc1, w1⟩ := v
      simp only [ih w1]
      have hfirst : xoverGen true next draw recombine .start w1 =
          xoverGen true next draw recombine pc1 w1 := by
        rcases xoverGen_pull_good k e with ⟨rfl, -⟩ | ⟨rfl, h⟩ | ⟨rfl, h⟩
        · rfl
        · simp [xoverGen, h]
        · simp [xoverGen, h]
      rcases Nat.eq_zero_or_pos ks.sum with h0 | hpos
      · rw [h0]; simp [pull, Except.map]
      · rw [pull_congr_first hfirst hpos]
        cases pull (xoverGen true next draw recombine) ks.sum pc1 w1 with
        | error err => simp [Except.map]
        | ok v2 => simp [Except.map]

/-- C19: with `persist_children=False`, a new generator ignores any pending child: what it yields does
not depend on it. So exactly the child pending when a generator is dropped is lost. -/
theorem crossover_no_persist_forgets (next : U → PyM (XInd γ φ × U)) (draw : U → Bool × U)
    (recombine : U → γ → γ → PyM ((γ × γ) × U)) (pending : Option (XInd γ φ)) (u : U) :
    xoverGen false next draw recombine .start ⟨pending, u⟩ =
      xoverGen false next draw recombine .start ⟨none, u⟩ := by
  simp [xoverGen, xoverBody]

/-- C19: every value yielded is an individual, never `None`, as long as the operator is used through one
generator at a time. -/
theorem crossover_yields_individuals (persist : Bool) (next : U → PyM (XInd γ φ × U))
    (draw : U → Bool × U) (recombine : U → γ → γ → PyM ((γ × γ) × U)) (k : Nat)
    (w w' : XWorld U (XInd γ φ)) (out : List (Option (XInd γ φ))) (pc' : XPc)
    (h : pull (xoverGen persist next draw recombine) k .start w = .ok (out, pc', w')) :
    out.length = k ∧ ∀ y ∈ out, y.isSome := by
  have hb : ∀ {w : XWorld U (XInd γ φ)} {y pc' w'},
      xoverBody next draw recombine w = .ok (y, pc', w') → y.isSome := by
    intro w y pc' w' h
    unfold xoverBody at h
    cases h1 : next w.up with
    | error e => rw [h1] at h; cases e <;> simp [pep479] at h
    | ok v1 =>
      obtain ⟨a, u1⟩ := v1
      rw [h1] at h; simp only at h
      cases h2 : next u1 with
      | error e => rw [h2] at h; cases e <;> simp [pep479] at h
      | ok v2 =>
        obtain ⟨b, u2⟩ := v2
        rw [h2] at h; simp only at h
        rcases h3 : draw u2 with ⟨sk, u3⟩
        rw [h3] at h
        cases sk with
        | true =>
          simp only [pep479, Except.ok.injEq, Prod.mk.injEq] at h
          obtain ⟨rfl, -⟩ := h
          rfl
        | false =>
          simp only at h
          cases h4 : recombine u3 a.genome b.genome with
          | error e => rw [h4] at h; cases e <;> simp [pep479] at h
          | ok v4 =>
            rw [h4] at h
            simp only [pep479, Except.ok.injEq, Prod.mk.injEq] at h
            obtain ⟨rfl, -⟩ := h
            rfl
  have gen : ∀ (k : Nat) (pc : XPc) (w : XWorld U (XInd γ φ)) out pc' w',
      (pc = .start ∨ XGood pc w) →
      pull (xoverGen persist next draw recombine) k pc w = .ok (out, pc', w') →
      out.length = k ∧ ∀ y ∈ out, y.isSome := by
    intro k
    induction k with
    | zero =>
      intro pc w out pc' w' _ h
      simp only [pull, Except.ok.injEq, Prod.mk.injEq] at h
      obtain ⟨rfl, -⟩ := h
      simp
    | succ k ih =>
      intro pc w out pc' w' hpc h
      obtain ⟨y, pc1, w1, ys, e1, e2, rfl⟩ := pull_succ_ok h
      obtain ⟨hl, hs⟩ := ih pc1 w1 ys pc' w' (Or.inr (xoverGen_good e1)) e2
      refine ⟨by simp [hl], ?_⟩
      intro z hz
      rcases List.mem_cons.mp hz with rfl | hz
      · rcases hpc with rfl | ⟨rfl, hn⟩ | ⟨rfl, hsome⟩
        · simp only [xoverGen] at e1
          split at e1
          · next hc =>
            simp only [Except.ok.injEq, Prod.mk.injEq] at e1
            obtain ⟨rfl, -⟩ := e1
            simp only [Bool.and_eq_true] at hc
            exact hc.2
          · exact hb e1
        · exact hb e1
        · simp only [xoverGen, Except.ok.injEq, Prod.mk.injEq] at e1
          obtain ⟨rfl, -⟩ := e1
          exact hsome
      · exact hs z hz
  exact gen k .start w out pc' w' (Or.inl rfl) h

end

/-- A small concrete operator: upstream counts up, every pair is recombined by swapping genomes. -/
def demoNext (u : Nat) : PyM (XInd Nat Nat × Nat) := .ok (⟨u, some u, [u]⟩, u + 1)

example : xoverSessions true demoNext (fun u => (u % 4 == 0, u)) (fun u a b => .ok ((b, a), u))
    [1, 2, 1] ⟨none, 0⟩ =
    .ok ([some ⟨1, none, [0, 1]⟩, some ⟨0, none, [1, 0]⟩, some ⟨2, some 2, [2]⟩,
      some ⟨3, some 3, [3]⟩], ⟨none, 4⟩) := by rfl

example : (xoverSessions false demoNext (fun u => (u % 4 == 0, u)) (fun u a b => .ok ((b, a), u))
    [1, 1] ⟨none, 0⟩).map (fun r => r.1) =
    .ok [some ⟨1, none, [0, 1]⟩, some ⟨2, some 2, [2]⟩] := by rfl

end Leap
