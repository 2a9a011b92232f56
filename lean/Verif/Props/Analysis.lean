import Verif.Model.Analysis
import Mathlib.Data.List.Sort
import Mathlib.Data.List.MinMax
import Mathlib.Data.List.Nodup
import Mathlib.Algebra.BigOperators.Group.List.Basic
import Mathlib.Algebra.Order.BigOperators.Group.List
import Mathlib.Tactic.Linarith
import Mathlib.Tactic.Ring

/-!
# Analysis of performance curves (C78)
-/

namespace Leap

namespace Spec

/-- `sort_values`: some ordering of the rows by increasing time. -/
structure SortsByTime (sortRows : List (ℚ × ℚ) → List (ℚ × ℚ)) : Prop where
  perm : ∀ l, (sortRows l).Perm l
  sorted : ∀ l, (sortRows l).Pairwise fun a b => a.1 ≤ b.1

/-- How long before time `t` the latest earlier measurement was; 0 if there is none. -/
def gapBefore (times : List ℚ) (t : ℚ) : ℚ :=
  match (times.filter fun s => s < t).max? with
  | none => 0
  | some s => t - s

/-- The area under the step curve through the points: each value counts for the time since the measurement before. -/
def stepArea (points : List (ℚ × ℚ)) : ℚ :=
  (points.map fun p => gapBefore (points.map Prod.fst) p.1 * p.2).sum

end Spec

open Spec

/-- The sum the code computes on sorted points. -/
theorem auc_sum (df : List (ℚ × ℚ)) (first : ℚ) :
    (List.zipWith (fun x m => x * m) (List.zipWith (fun t p => t - p) (df.map Prod.fst)
      (first :: (df.map Prod.fst).take ((df.map Prod.fst).length - 1))) (df.map Prod.snd)).sum =
    match df with
    | [] => 0
    | a :: l => (a.1 - first) * a.2 +
        (List.zipWith (fun b c : ℚ × ℚ => (c.1 - b.1) * c.2) (a :: l) l).sum := by
  cases df with
  | nil => rfl
  | cons a l =>
    simp only [List.map_cons, List.zipWith_cons_cons, List.sum_cons, List.length_cons, Nat.add_sub_cancel]
    congr 1
    clear first
    induction l generalizing a with
    | nil => simp
    | cons b l ih =>
      simp only [List.map_cons, List.length_cons, List.take_succ_cons, List.zipWith_cons_cons, List.sum_cons]
      rw [ih b]

theorem seriesMin_sorted (a : ℚ × ℚ) (l : List (ℚ × ℚ)) (h : (a :: l).Pairwise fun a b => a.1 ≤ b.1) :
    seriesMin ((a :: l).map Prod.fst) = some a.1 := by
  simp only [List.map_cons, seriesMin, Option.some.injEq]
  rw [List.pairwise_cons] at h
  have : ∀ l : List (ℚ × ℚ), (∀ b ∈ l, a.1 ≤ b.1) → (l.map Prod.fst).foldl min a.1 = a.1 := by
    intro l
    induction l with
    | nil => simp
    | cons b l ih =>
      intro hb
      simp only [List.map_cons, List.foldl_cons]
      rw [min_eq_left (hb b (by simp))]
      exact ih fun c hc => hb c (by simp [hc])
  exact this l h.1

/-- The value of `auc` in terms of the sorted points. -/
theorem auc_eq (sortRows : List (ℚ × ℚ) → List (ℚ × ℚ)) (hs : SortsByTime sortRows) (t m : String)
    (rows : List (String → ℚ)) (a : ℚ × ℚ) (l : List (ℚ × ℚ))
    (h : sortRows (rows.map fun r => (r t, r m)) = a :: l) :
    auc sortRows t m rows = .ok (some ((List.zipWith (fun b c : ℚ × ℚ => (c.1 - b.1) * c.2) (a :: l) l).sum)) := by
  have hsort := hs.sorted (rows.map fun r => (r t, r m))
  rw [h] at hsort
  simp only [auc, h]
  rw [seriesMin_sorted a l hsort]
  simp only
  rw [auc_sum]
  simp

theorem steps_snoc (a : ℚ × ℚ) (l : List (ℚ × ℚ)) (x : ℚ × ℚ) :
    (List.zipWith (fun b c : ℚ × ℚ => (c.1 - b.1) * c.2) (a :: (l ++ [x])) (l ++ [x])).sum =
      (List.zipWith (fun b c : ℚ × ℚ => (c.1 - b.1) * c.2) (a :: l) l).sum +
        (x.1 - ((a :: l).getLast (by simp)).1) * x.2 := by
  induction l generalizing a with
  | nil => simp
  | cons b l ih =>
    simp only [List.cons_append, List.zipWith_cons_cons, List.sum_cons]
    rw [ih b]
    simp only [List.getLast_cons_cons]
    ring

theorem max?_sorted_last (l : List ℚ) (h : l.Pairwise (· < ·)) (hne : l ≠ []) : l.max? = some (l.getLast hne) := by
  rw [List.max?_eq_some_iff]
  refine ⟨List.getLast_mem hne, fun b hb => ?_⟩
  obtain ⟨init, x, rfl⟩ : ∃ init x, l = init ++ [x] := ⟨l.dropLast, l.getLast hne, (List.dropLast_append_getLast hne).symm⟩
  simp only [List.getLast_append_singleton]
  simp only [List.mem_append, List.mem_singleton] at hb
  rcases hb with hb | hb
  · exact le_of_lt ((List.pairwise_append.1 h).2.2 b hb x (by simp))
  · exact le_of_eq hb

theorem stepArea_sorted (a : ℚ × ℚ) (l : List (ℚ × ℚ)) (h : ((a :: l).map Prod.fst).Pairwise (· < ·)) :
    stepArea (a :: l) = (List.zipWith (fun b c : ℚ × ℚ => (c.1 - b.1) * c.2) (a :: l) l).sum := by
  induction l using List.reverseRecOn with
  | nil => simp [stepArea, gapBefore]
  | append_singleton l x ih =>
    have h' : ((a :: l).map Prod.fst ++ [x.1]).Pairwise (· < ·) := by simpa using h
    obtain ⟨h1, _, h3⟩ := List.pairwise_append.1 h'
    have hlt : ∀ p ∈ a :: l, p.1 < x.1 := fun p hp => h3 p.1 (List.mem_map_of_mem hp) x.1 (by simp)
    rw [steps_snoc, ← ih h1]
    have e : a :: (l ++ [x]) = (a :: l) ++ [x] := rfl
    rw [e]
    unfold stepArea
    rw [List.map_append, List.map_append, List.sum_append]
    congr 1
    · congr 1
      apply List.map_congr_left
      intro p hp
      have : ¬ x.1 < p.1 := not_lt.2 (le_of_lt (hlt p hp))
      have hf : List.filter (fun s => decide (s < p.1)) ((a :: l).map Prod.fst ++ [x.1]) =
          List.filter (fun s => decide (s < p.1)) ((a :: l).map Prod.fst) := by
        rw [List.filter_append]; simp [this]
      simp only [gapBefore, List.map_append, List.map_cons (l := []), List.map_nil, hf]
    · simp only [List.map_cons, List.map_nil, List.sum_cons, List.sum_nil, add_zero]
      congr 1
      have hf : List.filter (fun s => decide (s < x.1)) (a.1 :: List.map Prod.fst l ++ [x.1]) =
          (a :: l).map Prod.fst := by
        rw [List.filter_append]
        have : List.filter (fun s => decide (s < x.1)) ((a :: l).map Prod.fst) = (a :: l).map Prod.fst := by
          rw [List.filter_eq_self]
          intro s hs
          obtain ⟨p, hp, rfl⟩ := List.mem_map.1 hs
          simpa using hlt p hp
        simpa using this
      have hmax := max?_sorted_last _ h1 (by simp)
      simp only [gapBefore, hf, hmax]
      rw [List.getLast_map]

theorem stepArea_perm {l l' : List (ℚ × ℚ)} (h : l.Perm l') : stepArea l = stepArea l' := by
  unfold stepArea
  have hg : ∀ t, gapBefore (l.map Prod.fst) t = gapBefore (l'.map Prod.fst) t := by
    intro t
    have hp : ((l.map Prod.fst).filter fun s => decide (s < t)).Perm ((l'.map Prod.fst).filter fun s => decide (s < t)) :=
      (h.map _).filter _
    unfold gapBefore
    have hm : ((l.map Prod.fst).filter fun s => decide (s < t)).max? =
        ((l'.map Prod.fst).filter fun s => decide (s < t)).max? := by
      apply Option.ext
      intro a
      rw [List.max?_eq_some_iff, List.max?_eq_some_iff]
      constructor
      · rintro ⟨h1, h2⟩; exact ⟨hp.mem_iff.1 h1, fun b hb => h2 b (hp.mem_iff.2 hb)⟩
      · rintro ⟨h1, h2⟩; exact ⟨hp.mem_iff.2 h1, fun b hb => h2 b (hp.mem_iff.1 hb)⟩
    rw [hm]
  simp only [hg]
  exact (h.map _).sum_eq

/-- C78: for a run measured at different times, whatever the order of its rows, `auc` is the area under its step
curve.
Missing from the full claim, because it is false of the code: runs with two rows at one time. -/
theorem auc_is_step_area_partial (sortRows : List (ℚ × ℚ) → List (ℚ × ℚ)) (hs : SortsByTime sortRows) (t m : String)
    (rows : List (String → ℚ)) (hne : rows ≠ []) (hd : (rows.map fun r => r t).Nodup) :
    auc sortRows t m rows = .ok (some (stepArea (rows.map fun r => (r t, r m)))) := by
  have hp := hs.perm (rows.map fun r => (r t, r m))
  cases h : sortRows (rows.map fun r => (r t, r m)) with
  | nil =>
    rw [h] at hp
    have := hp.length_eq
    simp at this
    exact absurd (List.length_eq_zero_iff.1 this.symm) hne
  | cons a l =>
    rw [auc_eq sortRows hs t m rows a l h, ← stepArea_perm hp, h, stepArea_sorted]
    have hsort := hs.sorted (rows.map fun r => (r t, r m))
    rw [h] at hsort
    have hnd : ((a :: l).map Prod.fst).Nodup := by
      rw [h] at hp
      have := (hp.map Prod.fst).nodup_iff.2 (by simpa [Function.comp_def] using hd)
      exact this
    have hle : ((a :: l).map Prod.fst).Pairwise (· ≤ ·) := by
      rw [List.pairwise_map]; exact hsort
    have := hle.and hnd
    exact this.imp fun h => lt_of_le_of_ne h.1 h.2

/-- C78: rows given in another order give the same area.
Missing, as above: two rows at one time. -/
theorem auc_order_irrelevant_partial (sortRows sortRows' : List (ℚ × ℚ) → List (ℚ × ℚ)) (hs : SortsByTime sortRows)
    (hs' : SortsByTime sortRows') (t m : String) (rows rows' : List (String → ℚ)) (hperm : rows.Perm rows')
    (hd : (rows.map fun r => r t).Nodup) : auc sortRows t m rows = auc sortRows' t m rows' := by
  by_cases hne : rows = []
  · subst hne
    have : rows' = [] := by simpa using hperm.symm
    subst this
    have e1 : sortRows [] = [] := by simpa using (hs.perm [])
    have e2 : sortRows' [] = [] := by simpa using (hs'.perm [])
    simp [auc, e1, e2]
  · have hne' : rows' ≠ [] := fun h => hne (by subst h; simpa using hperm)
    rw [auc_is_step_area_partial sortRows hs t m rows hne hd,
      auc_is_step_area_partial sortRows' hs' t m rows' hne' ((hperm.map _).nodup_iff.1 hd), stepArea_perm (hperm.map _)]

theorem steps_bounds (lo hi : ℚ) (a : ℚ × ℚ) (l : List (ℚ × ℚ)) (hsort : (a :: l).Pairwise fun a b => a.1 ≤ b.1)
    (hb : ∀ p ∈ l, lo ≤ p.2 ∧ p.2 ≤ hi) :
    lo * (((a :: l).getLast (by simp)).1 - a.1) ≤ (List.zipWith (fun b c : ℚ × ℚ => (c.1 - b.1) * c.2) (a :: l) l).sum ∧
    (List.zipWith (fun b c : ℚ × ℚ => (c.1 - b.1) * c.2) (a :: l) l).sum ≤ hi * (((a :: l).getLast (by simp)).1 - a.1) := by
  induction l generalizing a with
  | nil => simp
  | cons b l ih =>
    rw [List.pairwise_cons] at hsort
    obtain ⟨i1, i2⟩ := ih b hsort.2 (fun p hp => hb p (by simp [hp]))
    obtain ⟨b1, b2⟩ := hb b (by simp)
    have hab := hsort.1 b (by simp)
    simp only [List.zipWith_cons_cons, List.sum_cons, List.getLast_cons_cons]
    have hd : 0 ≤ b.1 - a.1 := by linarith
    have m1 := mul_le_mul_of_nonneg_left b1 hd
    have m2 := mul_le_mul_of_nonneg_left b2 hd
    constructor
    · have e : lo * (((b :: l).getLast (by simp)).1 - a.1) = lo * (((b :: l).getLast (by simp)).1 - b.1) + (b.1 - a.1) * lo := by ring
      rw [e]; linarith
    · have e : hi * (((b :: l).getLast (by simp)).1 - a.1) = hi * (((b :: l).getLast (by simp)).1 - b.1) + (b.1 - a.1) * hi := by ring
      rw [e]; linarith

/-- C78: the area lies between the smallest and the largest value times the time span, also when times repeat; for a
constant curve it is the constant times the span. -/
theorem auc_bounds (sortRows : List (ℚ × ℚ) → List (ℚ × ℚ)) (hs : SortsByTime sortRows) (t m : String)
    (rows : List (String → ℚ)) (hne : rows ≠ []) (lo hi start stop : ℚ) (hb : ∀ r ∈ rows, lo ≤ r m ∧ r m ≤ hi)
    (hstart : (∃ r ∈ rows, r t = start) ∧ ∀ r ∈ rows, start ≤ r t)
    (hstop : (∃ r ∈ rows, r t = stop) ∧ ∀ r ∈ rows, r t ≤ stop) :
    ∃ area, auc sortRows t m rows = .ok (some area) ∧ lo * (stop - start) ≤ area ∧ area ≤ hi * (stop - start) := by
  have hp := hs.perm (rows.map fun r => (r t, r m))
  cases h : sortRows (rows.map fun r => (r t, r m)) with
  | nil =>
    rw [h] at hp
    have := hp.length_eq
    simp at this
    exact absurd (List.length_eq_zero_iff.1 this.symm) hne
  | cons a l =>
    rw [h] at hp
    have hsort := hs.sorted (rows.map fun r => (r t, r m))
    rw [h] at hsort
    have hmem : ∀ p ∈ a :: l, ∃ r ∈ rows, p = (r t, r m) := by
      intro p hpm
      have := hp.mem_iff.1 hpm
      obtain ⟨r, hr, e⟩ := List.mem_map.1 this
      exact ⟨r, hr, e.symm⟩
    have hmem' : ∀ r ∈ rows, (r t, r m) ∈ a :: l := fun r hr =>
      hp.mem_iff.2 (List.mem_map.2 ⟨r, hr, rfl⟩)
    have ea : a.1 = start := by
      obtain ⟨⟨r, hr, e⟩, hall⟩ := hstart
      obtain ⟨r0, hr0, e0⟩ := hmem a (by simp)
      have h1 : start ≤ a.1 := by rw [e0]; exact hall r0 hr0
      have h2 : a.1 ≤ start := by
        have := hmem' r hr
        rw [List.mem_cons] at this
        rcases this with h | h
        · rw [← h, ← e]
        · rw [← e]; exact (List.pairwise_cons.1 hsort).1 _ h
      exact le_antisymm h2 h1
    have el : ((a :: l).getLast (by simp)).1 = stop := by
      obtain ⟨⟨r, hr, e⟩, hall⟩ := hstop
      obtain ⟨r0, hr0, e0⟩ := hmem _ (List.getLast_mem (by simp : a :: l ≠ []))
      have h1 : ((a :: l).getLast (by simp)).1 ≤ stop := by rw [e0]; exact hall r0 hr0
      have h2 : stop ≤ ((a :: l).getLast (by simp)).1 := by
        have hmm := hmem' r hr
        rw [← List.dropLast_append_getLast (by simp : a :: l ≠ [])] at hsort hmm
        rw [List.mem_append, List.mem_singleton] at hmm
        rcases hmm with h | h
        · have := (List.pairwise_append.1 hsort).2.2 _ h _ (List.mem_singleton_self _)
          rw [← e]; exact this
        · rw [← h, ← e]
      exact le_antisymm h1 h2
    refine ⟨_, auc_eq sortRows hs t m rows a l h, ?_⟩
    have := steps_bounds lo hi a l hsort (fun p hpm => by
      obtain ⟨r, hr, e⟩ := hmem p (by simp [hpm])
      rw [e]; exact hb r hr)
    rw [ea, el] at this
    exact this

/-- C78: an empty frame has no area: `ValueError`. -/
theorem auc_empty (sortRows : List (ℚ × ℚ) → List (ℚ × ℚ)) (hs : SortsByTime sortRows) (t m : String) :
    auc sortRows t m [] = .error .valueError := by
  have e : sortRows [] = [] := by simpa using (hs.perm [])
  simp [auc, e, seriesMin]

/-- C78: with two measurements at the same time the area depends on how the sort breaks the tie. -/
theorem auc_ties_ambiguous :
    ∃ (s1 s2 : List (ℚ × ℚ) → List (ℚ × ℚ)) (rows : List (String → ℚ)), SortsByTime s1 ∧ SortsByTime s2 ∧
      auc s1 "t" "m" rows ≠ auc s2 "t" "m" rows := by
  have htot : ∀ a b : ℚ × ℚ, a.1 ≤ b.1 ∨ b.1 ≤ a.1 := fun a b => le_total _ _
  have st : SortsByTime (fun l => l.insertionSort fun a b => a.1 ≤ b.1) :=
    haveI : Std.Total (fun a b : ℚ × ℚ => a.1 ≤ b.1) := ⟨htot⟩
    haveI : IsTrans (ℚ × ℚ) (fun a b : ℚ × ℚ => a.1 ≤ b.1) := ⟨fun _ _ _ h1 h2 => le_trans h1 h2⟩
    ⟨fun l => List.perm_insertionSort _ l, fun l => List.pairwise_insertionSort _ l⟩
  refine ⟨fun l => l.insertionSort fun a b => a.1 ≤ b.1, fun l => l.reverse.insertionSort fun a b => a.1 ≤ b.1,
    [fun c => if c = "t" then 0 else 0, fun c => if c = "t" then 1 else 5, fun c => if c = "t" then 1 else 7],
    st, ⟨fun l => (st.perm l.reverse).trans (List.reverse_perm l), fun l => st.sorted l.reverse⟩, ?_⟩
  decide +kernel

/-- C78: `max_value` is the largest value of the curve. -/
theorem max_value_spec (t m : String) (rows : List (String → ℚ)) :
    maxValue t m rows = .ok (rows.map fun r => r m).max? := by
  cases rows with
  | nil => rfl
  | cons r rs => simp [maxValue, seriesMax, List.max?]

/-- A curve with three measurements, out of order. -/
def exCurve : List (String → ℚ) :=
  [fun c => if c = "t" then 4 else 10, fun c => if c = "t" then 1 else 3, fun c => if c = "t" then 2 else 5]

example : (exCurve.map fun r => r "t").Nodup ∧ stepArea (exCurve.map fun r => (r "t", r "m")) = 25 := by decide +kernel
example : auc (fun l => l.insertionSort fun a b => a.1 ≤ b.1) "t" "m" exCurve = .ok (some 25) := by decide +kernel

/-! ### Grouping -/

namespace Spec

/-- `k` occurs as the values of the columns `cols` in some row. -/
def Occurs (rows : List (String → ℚ)) (cols : List String) (k : List ℚ) : Prop := ∃ r ∈ rows, cols.map r = k

/-- The rows whose values in `cols` are `k`. -/
def rowsWith (rows : List (String → ℚ)) (cols : List String) (k : List ℚ) : List (String → ℚ) :=
  rows.filter fun r => cols.map r = k

/-- The average of the values `f r` over `l`. -/
def average {β : Type} (l : List β) (f : β → ℚ) : ℚ := (l.map f).sum / l.length

/-- The sample variance, for at least two values. -/
def sampleVar {β : Type} (l : List β) (f : β → ℚ) : Option ℚ :=
  if 2 ≤ l.length then some ((l.map fun b => (f b - average l f) ^ 2).sum / (l.length - 1)) else none

end Spec

theorem sortedDedup_spec (ks : List (List ℚ)) :
    ((ks.dedup).insertionSort (· ≤ ·)).Pairwise (· < ·) ∧ ∀ k, k ∈ (ks.dedup).insertionSort (· ≤ ·) ↔ k ∈ ks := by
  have hperm := List.perm_insertionSort (· ≤ ·) ks.dedup
  have hnd : ((ks.dedup).insertionSort (· ≤ ·)).Nodup := hperm.nodup_iff.2 (List.nodup_dedup ks)
  have hs : ((ks.dedup).insertionSort (· ≤ ·)).Pairwise (· ≤ ·) := List.pairwise_insertionSort _ _
  refine ⟨(hs.and hnd).imp fun h => lt_of_le_of_ne h.1 h.2, fun k => ?_⟩
  rw [hperm.mem_iff, List.mem_dedup]

theorem frameGroups_spec (cols : List String) (rows : List (String → ℚ)) :
    ((frameGroups cols rows).map Prod.fst).Pairwise (· < ·) ∧
    (∀ k, k ∈ (frameGroups cols rows).map Prod.fst ↔ Occurs rows cols k) ∧
    ∀ g ∈ frameGroups cols rows, g.2 = rowsWith rows cols g.1 := by
  obtain ⟨h1, h2⟩ := sortedDedup_spec (rows.map fun r => cols.map r)
  have e : (frameGroups cols rows).map Prod.fst = ((rows.map fun r => cols.map r).dedup).insertionSort (· ≤ ·) := by
    simp [frameGroups, Function.comp_def]
  refine ⟨by rw [e]; exact h1, fun k => ?_, fun g hg => ?_⟩
  · rw [e, h2, List.mem_map]; rfl
  · obtain ⟨k, _, rfl⟩ := List.mem_map.1 hg
    rfl

theorem seriesMean_eq {β : Type} (l : List β) (f : β → ℚ) : seriesMean (l.map f) = average l f := by
  simp [seriesMean, average]

theorem seriesStdSq_eq {β : Type} (l : List β) (f : β → ℚ) : seriesStdSq (l.map f) = sampleVar l f := by
  unfold seriesStdSq sampleVar
  rw [seriesMean_eq]
  simp only [List.length_map, List.map_map, Function.comp_def]
  by_cases h : 2 ≤ l.length
  · rw [if_neg (by omega), if_pos h]
    simp only [pow_two]
  · rw [if_pos (by omega), if_neg h]

/-- C78: `avg_curves`. The table has exactly one row for each combination of time and experiment that occurs in the
data, in increasing order; it gives for each metric the mean over all rows of that combination and the sample
standard deviation (none for a single row). -/
theorem avg_curves_spec (a : Analyzer) :
    ((avgCurves a).map Prod.fst).Pairwise (· < ·) ∧
    (∀ k, k ∈ (avgCurves a).map Prod.fst ↔ Occurs a.df.rows (a.timeCol :: a.experimentCols) k) ∧
    ∀ g ∈ avgCurves a, g.2 = a.metricCols.map fun m =>
      (average (rowsWith a.df.rows (a.timeCol :: a.experimentCols) g.1) (fun r => r m),
        sampleVar (rowsWith a.df.rows (a.timeCol :: a.experimentCols) g.1) (fun r => r m)) := by
  obtain ⟨h1, h2, h3⟩ := frameGroups_spec (a.timeCol :: a.experimentCols) a.df.rows
  have e : (avgCurves a).map Prod.fst = (frameGroups (a.timeCol :: a.experimentCols) a.df.rows).map Prod.fst := by
    simp [avgCurves, Function.comp_def]
  refine ⟨by rw [e]; exact h1, fun k => by rw [e]; exact h2 k, fun g hg => ?_⟩
  obtain ⟨g', hg', rfl⟩ := List.mem_map.1 hg
  simp only [seriesMean_eq, seriesStdSq_eq, h3 g' hg']

/-- C78: `scalar_metrics_per_run`. If the measure gives a scalar for every run, the table has exactly one row for each
run of each experiment in the data, in increasing order, with the measure of that run's own rows. A metric that
is no column raises `KeyError`. -/
theorem scalar_per_run_spec (a : Analyzer) (metricCol : String) (measure : ScalarMeasure) (score : List (String → ℚ) → ℚ)
    (hmeasure : ∀ rows, rows ≠ [] → (∃ k, rows = rowsWith a.df.rows (a.runCol :: a.experimentCols) k) →
      measure a.timeCol metricCol rows = .ok (some (score rows))) :
    (metricCol ∉ a.df.columns → scalarPerRun a metricCol measure = .error .keyError) ∧
    (metricCol ∈ a.df.columns → ∃ table, scalarPerRun a metricCol measure = .ok table ∧
      (table.map Prod.fst).Pairwise (· < ·) ∧
      (∀ k, k ∈ table.map Prod.fst ↔ Occurs a.df.rows (a.runCol :: a.experimentCols) k) ∧
      ∀ g ∈ table, g.2 = some (score (rowsWith a.df.rows (a.runCol :: a.experimentCols) g.1))) := by
  constructor
  · intro h; simp [scalarPerRun, h]
  · intro h
    obtain ⟨h1, h2, h3⟩ := frameGroups_spec (a.runCol :: a.experimentCols) a.df.rows
    have hf : ∀ g ∈ frameGroups (a.runCol :: a.experimentCols) a.df.rows,
        (do pure (g.1, ← measure a.timeCol metricCol g.2) : PyM (List ℚ × Option ℚ)) = .ok (g.1, some (score g.2)) := by
      intro g hg
      have hne : g.2 ≠ [] := by
        obtain ⟨r, hr, e⟩ := (h2 g.1).1 (List.mem_map_of_mem hg)
        rw [h3 g hg]
        intro h0
        have : r ∈ rowsWith a.df.rows (a.runCol :: a.experimentCols) g.1 := by
          unfold rowsWith; rw [List.mem_filter]; exact ⟨hr, by simpa using e⟩
        rw [h0] at this; simp at this
      rw [hmeasure g.2 hne ⟨g.1, h3 g hg⟩]; rfl
    have hm : (frameGroups (a.runCol :: a.experimentCols) a.df.rows).mapM
        (fun g => (do pure (g.1, ← measure a.timeCol metricCol g.2) : PyM (List ℚ × Option ℚ))) =
        .ok ((frameGroups (a.runCol :: a.experimentCols) a.df.rows).map fun g => (g.1, some (score g.2))) := by
      clear h1 h2 h3
      revert hf
      generalize frameGroups (a.runCol :: a.experimentCols) a.df.rows = groups
      intro hf
      induction groups with
      | nil => rfl
      | cons g gs ih =>
        rw [List.mapM_cons, hf g (by simp), ih fun x hx => hf x (by simp [hx])]; rfl
    refine ⟨(frameGroups (a.runCol :: a.experimentCols) a.df.rows).map fun g => (g.1, some (score g.2)), ?_, ?_, ?_, ?_⟩
    · unfold scalarPerRun
      rw [if_neg (by simp [h])]
      exact hm
    · simpa [Function.comp_def] using h1
    · intro k
      rw [← h2 k]; simp [Function.comp_def]
    · intro g hg
      obtain ⟨g', hg', rfl⟩ := List.mem_map.1 hg
      simp only [h3 g' hg']

/-- C78: `avg_scalar_metrics`. One row for each experiment in the data; it gives the mean and sample standard deviation
of the measure over the runs of the experiment, each run counting once however many rows it has. -/
theorem avg_scalar_spec (a : Analyzer) (metricCol : String) (measure : ScalarMeasure) (score : List (String → ℚ) → ℚ)
    (hmeasure : ∀ rows, rows ≠ [] → (∃ k, rows = rowsWith a.df.rows (a.runCol :: a.experimentCols) k) →
      measure a.timeCol metricCol rows = .ok (some (score rows))) (hcol : metricCol ∈ a.df.columns) :
    ∃ result, avgScalar a metricCol measure = .ok result ∧ (result.map Prod.fst).Pairwise (· < ·) ∧
      (∀ e, e ∈ result.map Prod.fst ↔ Occurs a.df.rows a.experimentCols e) ∧
      ∀ g ∈ result, ∃ runs : List ℚ, runs.Nodup ∧
        (∀ run, run ∈ runs ↔ ∃ r ∈ a.df.rows, r a.runCol = run ∧ a.experimentCols.map r = g.1) ∧
        g.2.1 = average runs (fun run => score (rowsWith a.df.rows (a.runCol :: a.experimentCols) (run :: g.1))) ∧
        g.2.2 = sampleVar runs (fun run => score (rowsWith a.df.rows (a.runCol :: a.experimentCols) (run :: g.1))) := by
  obtain ⟨table, ht, hp, hk, hv⟩ := (scalar_per_run_spec a metricCol measure score hmeasure).2 hcol
  obtain ⟨s1, s2⟩ := sortedDedup_spec (table.map fun r => r.1.tail)
  refine ⟨((((table.map fun r => r.1.tail).dedup).insertionSort (· ≤ ·)).map fun k =>
        (k, seriesMean ((table.filter fun r => r.1.tail = k).filterMap fun r => r.2),
          seriesStdSq ((table.filter fun r => r.1.tail = k).filterMap fun r => r.2))),
    by simp only [avgScalar, ht], ?_, ?_, ?_⟩
  · simpa [Function.comp_def] using s1
  · intro e
    have e1 : (((((table.map fun r => r.1.tail).dedup).insertionSort (· ≤ ·)).map fun k =>
        (k, seriesMean ((table.filter fun r => r.1.tail = k).filterMap fun r => r.2),
          seriesStdSq ((table.filter fun r => r.1.tail = k).filterMap fun r => r.2))).map Prod.fst) =
        ((table.map fun r => r.1.tail).dedup).insertionSort (· ≤ ·) := by
      simp [Function.comp_def]
    rw [e1, s2]
    constructor
    · intro h
      obtain ⟨r, hr, rfl⟩ := List.mem_map.1 h
      obtain ⟨row, hrow, he⟩ := (hk r.1).1 (List.mem_map_of_mem hr)
      exact ⟨row, hrow, by rw [← he]; rfl⟩
    · rintro ⟨row, hrow, rfl⟩
      obtain ⟨r, hr, he⟩ := List.mem_map.1 ((hk _).2 ⟨row, hrow, rfl⟩)
      exact List.mem_map.2 ⟨r, hr, by rw [he]; rfl⟩
  · intro g hg
    obtain ⟨k, _, rfl⟩ := List.mem_map.1 hg
    have hcons : ∀ r ∈ table, ∃ run, r.1 = run :: r.1.tail := by
      intro r hr
      obtain ⟨row, _, he⟩ := (hk r.1).1 (List.mem_map_of_mem hr)
      exact ⟨row a.runCol, by rw [← he]; rfl⟩
    refine ⟨(table.filter fun r => r.1.tail = k).map fun r => r.1.headD 0, ?_, ?_, ?_, ?_⟩
    · have hnd : (table.map Prod.fst).Nodup := hp.imp fun h => ne_of_lt h
      have hnd2 : ((table.filter fun r => r.1.tail = k).map Prod.fst).Nodup :=
        hnd.sublist (List.filter_sublist.map _)
      rw [List.Nodup, List.pairwise_map] at hnd2 ⊢
      refine List.Pairwise.imp_of_mem ?_ hnd2
      intro x y hx hy hne heq
      rw [List.mem_filter] at hx hy
      obtain ⟨rx, ex⟩ := hcons x hx.1
      obtain ⟨ry, ey⟩ := hcons y hy.1
      have tx : x.1.tail = k := by simpa using hx.2
      have ty : y.1.tail = k := by simpa using hy.2
      apply hne
      rw [ex, ey, tx, ty]
      rw [ex, ey] at heq
      simp at heq
      rw [heq]
    · intro run
      rw [List.mem_map]
      constructor
      · rintro ⟨r, hr, rfl⟩
        rw [List.mem_filter] at hr
        obtain ⟨row, hrow, he⟩ := (hk r.1).1 (List.mem_map_of_mem hr.1)
        have htl : r.1.tail = k := by simpa using hr.2
        exact ⟨row, hrow, by rw [← he]; rfl, by rw [← htl, ← he]; rfl⟩
      · rintro ⟨row, hrow, rfl, he⟩
        obtain ⟨r, hr, e2⟩ := List.mem_map.1 ((hk _).2 ⟨row, hrow, rfl⟩)
        refine ⟨r, ?_, by rw [e2]; rfl⟩
        rw [List.mem_filter]
        refine ⟨hr, ?_⟩
        rw [e2]; simpa using he
    all_goals
      have hfm : ((table.filter fun r => r.1.tail = k).filterMap fun r => r.2) =
          (((table.filter fun r => r.1.tail = k).map fun r => r.1.headD 0).map fun run =>
            score (rowsWith a.df.rows (a.runCol :: a.experimentCols) (run :: k))) := by
        rw [List.map_map, ← List.filterMap_eq_map]
        apply List.filterMap_congr
        intro r hr
        rw [List.mem_filter] at hr
        obtain ⟨run, er⟩ := hcons r hr.1
        have htl : r.1.tail = k := by simpa using hr.2
        rw [hv r hr.1]
        simp only [Function.comp]
        rw [er, htl]; rfl
      simp only [hfm]
    · exact seriesMean_eq _ _
    · exact seriesStdSq_eq _ _

/-! ### Setting up -/

/-- C78: an analyzer is built exactly when all arguments are given, there is at least one metric and one experiment
column, and all named columns exist; otherwise `AssertionError`. -/
theorem analyzer_init_spec (df : Frame) (t run : String) (ms es : List String) :
    analyzerInit (some df) (some t) (some ms) (some es) (some run) =
      if ms ≠ [] ∧ es ≠ [] ∧ t ∈ df.columns ∧ run ∈ df.columns ∧ (∀ m ∈ ms, m ∈ df.columns) ∧ (∀ e ∈ es, e ∈ df.columns)
      then .ok ⟨df, t, ms, es, run⟩ else .error .assertionError := by
  unfold analyzerInit
  by_cases h1 : ms = []
  · simp [h1]
  by_cases h2 : es = []
  · simp [h1, h2]
  by_cases h3 : t ∈ df.columns
  swap
  · simp [h1, h2, h3]
  by_cases h4 : run ∈ df.columns
  swap
  · simp [h1, h2, h3, h4]
  by_cases h5 : ∀ m ∈ ms, m ∈ df.columns
  swap
  · have : ms.all df.columns.contains = false := by
      rw [Bool.eq_false_iff]; intro h; apply h5; simpa using h
    simp [h1, h2, h3, h4, h5, this]
  have h5' : ms.all df.columns.contains = true := by simpa using h5
  by_cases h6 : ∀ e ∈ es, e ∈ df.columns
  swap
  · have : es.all df.columns.contains = false := by
      rw [Bool.eq_false_iff]; intro h; apply h6; simpa using h
    simp [h1, h2, h3, h4, h5', h6, this]
  have h6' : es.all df.columns.contains = true := by simpa using h6
  simp [h1, h2, h3, h4, h5', h6']
  exact ⟨h5, h6⟩

/-- C78: a `None` anywhere is refused. -/
theorem analyzer_init_none (df : Option Frame) (t run : Option String) (ms es : Option (List String))
    (h : df = none ∨ t = none ∨ ms = none ∨ es = none ∨ run = none) :
    analyzerInit df t ms es run = .error .assertionError := by
  rcases h with rfl | rfl | rfl | rfl | rfl
  · rfl
  · cases df <;> rfl
  · cases df <;> cases t <;> rfl
  · cases df <;> cases t <;> cases ms <;> rfl
  · cases df <;> cases t <;> cases ms <;> cases es <;> rfl

/-- C78: the default arguments are refused for every data frame: the default for the experiment columns is empty. -/
theorem analyzer_defaults_refused (df : Frame) : analyzerDefault df = .error .assertionError := by
  rw [analyzerDefault, analyzer_init_spec]; simp

/-- C78: concatenated files hold the rows of each file, in the order given; no files give `ValueError`. -/
theorem cat_csv_spec (files : List Frame) :
    (files = [] → catCsv files = .error .valueError) ∧
    (∀ f fs, files = f :: fs → catCsv files = .ok ⟨f.columns, (files.map Frame.rows).flatten⟩) := by
  constructor
  · rintro rfl; rfl
  · rintro f fs rfl; simp [catCsv, List.flatMap]

/-- Two experiments; experiment 0 has a run with two rows and a run with one. -/
def exFrame : Frame :=
  ⟨["step", "job", "exp", "bsf"],
   [fun c => if c = "step" then 0 else if c = "job" then 1 else if c = "exp" then 0 else 4,
    fun c => if c = "step" then 1 else if c = "job" then 1 else if c = "exp" then 0 else 6,
    fun c => if c = "step" then 0 else if c = "job" then 2 else if c = "exp" then 0 else 8,
    fun c => if c = "step" then 0 else if c = "job" then 1 else if c = "exp" then 3 else 1]⟩

/-- Its analyzer. -/
def exAnalyzer : Analyzer := ⟨exFrame, "step", ["bsf"], ["exp"], "job"⟩

example : analyzerInit (some exFrame) (some "step") (some ["bsf"]) (some ["exp"]) (some "job") = .ok exAnalyzer := by
  rw [analyzer_init_spec, if_pos (by decide)]; rfl
example : avgCurves exAnalyzer = [([0, 0], [(6, some 8)]), ([0, 3], [(1, none)]), ([1, 0], [(6, none)])] := by
  decide +kernel
example : avgScalar exAnalyzer "bsf" maxValue = .ok [([0], 7, some 2), ([3], 1, none)] := by decide +kernel
example : "bsf" ∈ exAnalyzer.df.columns := by decide

/-- C78: with `auc` as the measure, runs measured at different times meet the hypothesis of the two theorems above, the
score being the step area. -/
theorem auc_measures_runs (sortRows : List (ℚ × ℚ) → List (ℚ × ℚ)) (hs : SortsByTime sortRows) (a : Analyzer)
    (metricCol : String)
    (hd : ∀ k, ((rowsWith a.df.rows (a.runCol :: a.experimentCols) k).map fun r => r a.timeCol).Nodup) :
    ∀ rows, rows ≠ [] → (∃ k, rows = rowsWith a.df.rows (a.runCol :: a.experimentCols) k) →
      auc sortRows a.timeCol metricCol rows = .ok (some (stepArea (rows.map fun r => (r a.timeCol, r metricCol)))) := by
  rintro rows hne ⟨k, rfl⟩
  exact auc_is_step_area_partial sortRows hs a.timeCol metricCol _ hne (hd k)

example : avgScalar exAnalyzer "bsf" (auc fun l => l.insertionSort fun a b => a.1 ≤ b.1) =
    .ok [([0], 3, some 18), ([3], 0, none)] := by decide +kernel

end Leap
