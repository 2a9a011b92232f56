import Mathlib.Tactic.Linarith
import Mathlib.Data.List.Dedup
import Mathlib.Data.List.NodupEquivFin
import Mathlib.Algebra.Order.Field.Basic
import Mathlib.Tactic.FieldSimp
import Verif.Model.Distribution

/-!
# Empirical distributions (C57)
-/

namespace Leap

namespace Spec

/-- The keys of a dictionary. -/
def keys (d : List (κ × V)) : List κ := d.map Prod.fst

/-- The count of a key, 0 if absent. -/
def countOf [DecidableEq κ] [Zero V] (d : List (κ × V)) (k : κ) : V := ((d.find? fun e => e.1 = k).map Prod.snd).getD 0

/-- `ks` lists the keys of either dictionary in increasing order. -/
structure UnionKeys [LinearOrder κ] (d1 d2 : List (κ × V)) (ks : List κ) : Prop where
  sorted : ks.Pairwise (· < ·)
  mem : ∀ k, k ∈ ks ↔ k ∈ keys d1 ∨ k ∈ keys d2

end Spec

open Spec

section
variable [DecidableEq κ]

theorem histGet_none (d : List (κ × V)) (k : κ) : histGet d k = none ↔ k ∉ keys d := by
  induction d with
  | nil => simp [histGet, keys]
  | cons e d ih =>
    rw [histGet, List.find?_cons]
    by_cases h : e.1 = k
    · simp [h, keys]
    · simp only [h, decide_false]
      rw [show ((d.find? fun e => decide (e.1 = k)).map Prod.snd) = histGet d k from rfl, ih]
      simp [keys, Ne.symm h]

theorem keys_histSet (d : List (κ × V)) (k : κ) (v : V) :
    keys (histSet d k v) = if k ∈ keys d then keys d else keys d ++ [k] := by
  unfold histSet keys
  by_cases h : k ∈ d.map Prod.fst
  · rw [if_pos h, if_pos h, List.map_map]
    apply List.map_congr_left
    intro e _
    by_cases he : e.1 = k <;> simp [he]
  · rw [if_neg h, if_neg h]; simp

theorem histGet_histSet (d : List (κ × V)) (k : κ) (v : V) (k' : κ) :
    histGet (histSet d k v) k' = if k' = k then some v else histGet d k' := by
  by_cases h : k ∈ d.map Prod.fst
  · rw [histSet, if_pos h]
    induction d with
    | nil => simp at h
    | cons e d ih =>
      rw [List.map_cons, histGet, List.find?_cons]
      by_cases he : e.1 = k
      · simp only [he, if_true]
        by_cases hk : k' = k
        · simp [hk]
        · simp only [show ¬ k = k' from fun x => hk x.symm, decide_false, if_neg hk]
          by_cases hm : k ∈ d.map Prod.fst
          · have := ih hm
            rw [if_neg hk] at this
            rw [histGet] at this
            rw [this]
            simp [histGet, he, show ¬ k = k' from fun x => hk x.symm]
          · have : (d.map fun e => if e.1 = k then (k, v) else e) = d := by
              conv_rhs => rw [← List.map_id d]
              apply List.map_congr_left
              intro x hx
              have : x.1 ≠ k := by rintro rfl; exact hm (List.mem_map.mpr ⟨x, hx, rfl⟩)
              simp [this]
            rw [this]
            simp [histGet, he, show ¬ k = k' from fun x => hk x.symm]
      · have hm : k ∈ d.map Prod.fst := by
          rw [List.map_cons, List.mem_cons] at h
          rcases h with h | h
          · exact absurd h.symm he
          · exact h
        simp only [if_neg he]
        by_cases hek : e.1 = k'
        · have : k' ≠ k := fun x => he (hek.trans x)
          simp [hek, this, histGet]
        · simp only [hek, decide_false]
          have := ih hm
          rw [histGet] at this
          rw [this]
          simp [histGet, hek]
  · rw [histSet, if_neg h, histGet, List.find?_append]
    by_cases hk : k' = k
    · subst hk
      have := (histGet_none d k').mpr h
      rw [histGet, Option.map_eq_none_iff] at this
      simp [this]
    · have : ¬ k = k' := fun x => hk x.symm
      simp [this, hk, histGet]

theorem nodup_histSet (d : List (κ × V)) (k : κ) (v : V) (h : (keys d).Nodup) : (keys (histSet d k v)).Nodup := by
  rw [keys_histSet]
  split
  · exact h
  · rename_i hk
    exact List.nodup_append.mpr ⟨h, List.nodup_singleton _, by
      intro a ha b hb
      rw [List.mem_singleton] at hb
      subst hb
      rintro rfl
      exact hk ha⟩

theorem sum_histSet (d : List (κ × Nat)) (k : κ) (h : (keys d).Nodup) :
    ((histSet d k ((histGet d k).getD 0 + 1)).map Prod.snd).sum = (d.map Prod.snd).sum + 1 := by
  by_cases hk : k ∈ d.map Prod.fst
  · generalize hv : (histGet d k).getD 0 + 1 = v
    rw [histSet, if_pos hk]
    induction d with
    | nil => simp at hk
    | cons e d ih =>
      rw [keys, List.map_cons, List.nodup_cons] at h
      by_cases he : e.1 = k
      · have hrest : (d.map fun e => if e.1 = k then (k, v) else e) = d := by
          conv_rhs => rw [← List.map_id d]
          apply List.map_congr_left
          intro x hx
          have : x.1 ≠ k := by rintro rfl; exact h.1 (he ▸ List.mem_map.mpr ⟨x, hx, rfl⟩)
          simp [this]
        rw [List.map_cons, hrest, if_pos he]
        simp only [histGet, he, decide_true, List.find?_cons_of_pos, Option.map_some, Option.getD_some] at hv
        simp only [List.map_cons, List.sum_cons]
        omega
      · have hm : k ∈ d.map Prod.fst := by
          rw [List.map_cons, List.mem_cons] at hk
          rcases hk with hk | hk
          · exact absurd hk.symm he
          · exact hk
        have := ih h.2 hm (by rw [← hv]; simp [histGet, he])
        rw [List.map_cons, if_neg he]
        simp only [List.map_cons, List.sum_cons, this]
        omega
  · have := (histGet_none d k).mpr hk
    rw [histSet, if_neg hk, this]
    simp

theorem collectFrom_ok (d : List (κ × Nat)) (os : List κ) (h : (keys d).Nodup) (hpos : ∀ e ∈ d, 0 < e.2) :
    ∃ d', collectFrom d (os.map .ok) = .ok d' ∧ (keys d').Nodup ∧ (∀ e ∈ d', 0 < e.2) ∧
      (∀ k, (histGet d' k).getD 0 = (histGet d k).getD 0 + os.count k) ∧
      (d'.map Prod.snd).sum = (d.map Prod.snd).sum + os.length := by
  induction os generalizing d with
  | nil => exact ⟨d, rfl, h, hpos, by simp, by simp⟩
  | cons o os ih =>
    have hp' : ∀ e ∈ histSet d o ((histGet d o).getD 0 + 1), 0 < e.2 := by
      intro e he
      unfold histSet at he
      split at he
      · obtain ⟨x, hx, rfl⟩ := List.mem_map.mp he
        split
        · simp
        · exact hpos x hx
      · rcases List.mem_append.mp he with he | he
        · exact hpos e he
        · rw [List.mem_singleton] at he; subst he; simp
    obtain ⟨d', h1, h2, h3, h4, h5⟩ := ih (histSet d o ((histGet d o).getD 0 + 1)) (nodup_histSet _ _ _ h) hp'
    refine ⟨d', by simpa [collectFrom, bind, Except.bind] using h1, h2, h3, ?_, ?_⟩
    · intro k
      rw [h4, histGet_histSet, List.count_cons]
      by_cases hk : k = o
      · subst hk; simp; omega
      · have : ¬ o = k := fun x => hk x.symm
        simp [hk, this]
    · rw [h5, sum_histSet d o h, List.length_cons]; omega

/-- C57: `collect_distribution` has one entry for every value returned, holding how often it was returned; the counts sum
to the number of samples. -/
theorem collect_distribution_spec (function : Nat → PyM κ) (g : Nat → κ) (samples : Int)
    (hf : ∀ i : Nat, (i : Int) < samples → function i = .ok (g i)) :
    ∃ d, collectDistribution function samples = .ok d ∧ (keys d).Nodup ∧
      (∀ k n, (k, n) ∈ d ↔ 0 < n ∧ n = ((List.range samples.toNat).filter fun i => g i = k).length) ∧
      (d.map Prod.snd).sum = samples.toNat := by
  have hmap : (List.range samples.toNat).map function = ((List.range samples.toNat).map g).map .ok := by
    rw [List.map_map]
    apply List.map_congr_left
    intro i hi
    rw [List.mem_range] at hi
    exact hf i (by omega)
  obtain ⟨d, h1, h2, h3, h4, h5⟩ := collectFrom_ok ([] : List (κ × Nat)) ((List.range samples.toNat).map g) (by simp [keys]) (by simp)
  refine ⟨d, by rw [collectDistribution, hmap]; exact h1, h2, ?_, by simpa using h5⟩
  intro k n
  have hcount : (histGet d k).getD 0 = ((List.range samples.toNat).filter fun i => g i = k).length := by
    rw [h4, List.count, List.countP_map, List.countP_eq_length_filter]
    simp only [histGet, List.find?_nil, Option.map_none, Option.getD_none, Nat.zero_add]
    congr 1
  have hget : ∀ k n, (k, n) ∈ d → histGet d k = some n := by
    clear h1 h3 h4 h5 hcount
    intro k n hm
    induction d with
    | nil => simp at hm
    | cons e d ih =>
      rw [keys, List.map_cons, List.nodup_cons] at h2
      rcases List.mem_cons.mp hm with rfl | hm
      · simp [histGet]
      · have : e.1 ≠ k := by rintro rfl; exact h2.1 (List.mem_map.mpr ⟨_, hm, rfl⟩)
        have := ih h2.2 hm
        simp [histGet, *] at this ⊢
        exact this
  constructor
  · intro hm
    rw [← hcount, hget k n hm]
    exact ⟨h3 _ hm, rfl⟩
  · rintro ⟨hn, he⟩
    cases hg : histGet d k with
    | none => rw [hg] at hcount; simp only [Option.getD_none] at hcount; omega
    | some m =>
      rw [hg] at hcount
      simp only [Option.getD_some] at hcount
      have : n = m := by omega
      subst this
      rw [histGet, Option.map_eq_some_iff] at hg
      obtain ⟨e, he1, he2⟩ := hg
      have hm := List.mem_of_find?_eq_some he1
      have hk := List.find?_some he1
      simp only [decide_eq_true_eq] at hk
      rw [← hk, ← he2]
      exact hm

/-- C57: if a call of the function raises, that exception comes out. -/
theorem collect_distribution_raises (function : Nat → PyM κ) (g : Nat → κ) (samples : Int) (n : Nat) (e : PyErr)
    (hn : (n : Int) < samples) (hf : ∀ i < n, function i = .ok (g i)) (he : function n = .error e) :
    collectDistribution function samples = .error e := by
  have key : ∀ (os : List κ) (rest : List (PyM κ)) (d : List (κ × Nat)),
      collectFrom d (os.map .ok ++ .error e :: rest) = .error e := by
    intro os
    induction os with
    | nil => intro rest d; rfl
    | cons o os ih => intro rest d; simpa [collectFrom, bind, Except.bind] using ih rest _
  have hsplit : (List.range samples.toNat).map function =
      ((List.range n).map g).map .ok ++ .error e :: ((List.range (samples.toNat - (n + 1))).map fun i => function (n + 1 + i)) := by
    apply List.ext_getElem
    · simp; omega
    · intro i h1 h2
      simp only [List.length_map, List.length_range] at h1
      rw [List.getElem_map, List.getElem_range]
      by_cases hi : i < n
      · rw [List.getElem_append_left (by simpa using hi)]
        simp [hf i hi]
      · rw [List.getElem_append_right (by simp; omega)]
        by_cases hin : i = n
        · subst hin; simp [he]
        · simp only [List.length_map, List.length_range]
          rw [List.getElem_cons, dif_neg (by omega)]
          simp only [List.getElem_map, List.getElem_range]
          congr 1
          omega
  rw [collectDistribution, hsplit]
  exact key _ _ _

theorem addKeysFrom_spec [Zero V] (d1 d2 : List (κ × V)) (h2 : (keys d2).Nodup) :
    (keys (addKeysFrom d1 d2)).Nodup ∧ (∀ k, k ∈ keys (addKeysFrom d1 d2) ↔ k ∈ keys d1 ∨ k ∈ keys d2) ∧
      (∀ k, (histGet (addKeysFrom d1 d2) k).getD 0 = (histGet d2 k).getD 0) := by
  unfold addKeysFrom
  induction d1 generalizing d2 with
  | nil => exact ⟨h2, by simp [keys], fun _ => rfl⟩
  | cons e d1 ih =>
    rw [List.foldl_cons]
    by_cases he : e.1 ∈ d2.map Prod.fst
    · rw [if_pos he]
      obtain ⟨a, b, c⟩ := ih d2 h2
      refine ⟨a, ?_, c⟩
      intro k
      rw [b]
      simp only [keys, List.map_cons, List.mem_cons]
      constructor
      · rintro (h | h)
        · exact Or.inl (Or.inr h)
        · exact Or.inr h
      · rintro ((rfl | h) | h)
        · exact Or.inr he
        · exact Or.inl h
        · exact Or.inr h
    · rw [if_neg he]
      obtain ⟨a, b, c⟩ := ih (histSet d2 e.1 0) (nodup_histSet _ _ _ h2)
      refine ⟨a, ?_, ?_⟩
      · intro k
        rw [b, keys_histSet, if_neg (show e.1 ∉ keys d2 from he)]
        simp only [keys, List.map_cons, List.mem_cons, List.mem_append, List.not_mem_nil, or_false]
        tauto
      · intro k
        rw [c, histGet_histSet]
        by_cases hk : k = e.1
        · subst hk
          rw [if_pos rfl, (histGet_none d2 e.1).mpr he]
          rfl
        · rw [if_neg hk]

theorem addKeysFrom_sum [AddCommMonoid V] (d1 d2 : List (κ × V)) :
    ((addKeysFrom d1 d2).map Prod.snd).sum = (d2.map Prod.snd).sum := by
  unfold addKeysFrom
  induction d1 generalizing d2 with
  | nil => rfl
  | cons e d1 ih =>
    rw [List.foldl_cons, ih]
    split
    · rfl
    · rename_i he
      rw [histSet, if_neg he]
      simp

end

theorem countOf_eq [DecidableEq κ] [Zero V] (d : List (κ × V)) (k : κ) : countOf d k = (histGet d k).getD 0 := rfl

/-- C57: after `_normalize_dicts` both dictionaries have the keys of either; no count has changed and missing ones are 0; the
two lists hold the counts of the same keys in the same, increasing, order. -/
theorem normalize_dicts_spec [LinearOrder κ] [Zero V] (d1 d2 : List (κ × V)) (h1 : (keys d1).Nodup) (h2 : (keys d2).Nodup) :
    (keys (normalizeDicts d1 d2).dict1).Nodup ∧ (keys (normalizeDicts d1 d2).dict2).Nodup ∧
    (∀ k, k ∈ keys (normalizeDicts d1 d2).dict1 ↔ k ∈ keys d1 ∨ k ∈ keys d2) ∧
    (∀ k, k ∈ keys (normalizeDicts d1 d2).dict2 ↔ k ∈ keys d1 ∨ k ∈ keys d2) ∧
    (∀ k, countOf (normalizeDicts d1 d2).dict1 k = countOf d1 k) ∧
    (∀ k, countOf (normalizeDicts d1 d2).dict2 k = countOf d2 k) ∧
    ∃ ks, UnionKeys d1 d2 ks ∧ (normalizeDicts d1 d2).values1 = ks.map (countOf d1) ∧
      (normalizeDicts d1 d2).values2 = ks.map (countOf d2) := by
  obtain ⟨a2, b2, c2⟩ := addKeysFrom_spec d1 d2 h2
  obtain ⟨a1, b1, c1⟩ := addKeysFrom_spec (addKeysFrom d1 d2) d1 h1
  have b1' : ∀ k, k ∈ keys (addKeysFrom (addKeysFrom d1 d2) d1) ↔ k ∈ keys d1 ∨ k ∈ keys d2 := by
    intro k; rw [b1, b2]; tauto
  have sorted : ∀ l : List κ, l.Nodup → (l.insertionSort (· ≤ ·)).Pairwise (· < ·) := by
    intro l hl
    have hs : (l.insertionSort (· ≤ ·)).Pairwise (· ≤ ·) := List.pairwise_insertionSort (· ≤ ·) l
    have hn : (l.insertionSort (· ≤ ·)).Nodup := (List.perm_insertionSort (· ≤ ·) l).nodup_iff.mpr hl
    refine List.Pairwise.imp₂ ?_ hs hn
    intro a b hab hne
    exact lt_of_le_of_ne hab hne
  have memk : ∀ l : List κ, ∀ k, k ∈ l.insertionSort (· ≤ ·) ↔ k ∈ l := fun l k => (List.perm_insertionSort (· ≤ ·) l).mem_iff
  have uniq : ∀ (l m : List κ), l.Pairwise (· < ·) → m.Pairwise (· < ·) → (∀ k, k ∈ l ↔ k ∈ m) → l = m := by
    intro l m hl hm hmem
    have hp : l.Perm m := (List.perm_ext_iff_of_nodup (hl.imp ne_of_lt) (hm.imp ne_of_lt)).mpr hmem
    exact hp.eq_of_pairwise (fun a b _ _ hab hba => absurd hba (lt_asymm hab)) hl hm
  refine ⟨a1, a2, b1', b2, c1, c2, (keys (addKeysFrom d1 d2)).insertionSort (· ≤ ·), ⟨sorted _ a2, fun k => (memk _ k).trans (b2 k)⟩, ?_, ?_⟩
  · show valuesSortedByKey (addKeysFrom (addKeysFrom d1 d2) d1) = _
    rw [valuesSortedByKey]
    have : (keys (addKeysFrom (addKeysFrom d1 d2) d1)).insertionSort (· ≤ ·) = (keys (addKeysFrom d1 d2)).insertionSort (· ≤ ·) :=
      uniq _ _ (sorted _ a1) (sorted _ a2) (fun k => by rw [memk, memk, b1', b2])
    show (List.insertionSort _ (keys _)).map _ = _
    rw [this]
    apply List.map_congr_left
    intro k _
    exact c1 k
  · show valuesSortedByKey (addKeysFrom d1 d2) = _
    rw [valuesSortedByKey]
    show (List.insertionSort _ (keys _)).map _ = _
    apply List.map_congr_left
    intro k _
    exact c2 k

theorem unionKeys_unique [LinearOrder κ] (d1 d2 e1 e2 : List (κ × V)) (ks ks' : List κ) (h : UnionKeys d1 d2 ks)
    (h' : UnionKeys e1 e2 ks') (he : ∀ k, (k ∈ keys d1 ∨ k ∈ keys d2) ↔ (k ∈ keys e1 ∨ k ∈ keys e2)) : ks = ks' := by
  have hp : ks.Perm ks' := (List.perm_ext_iff_of_nodup (h.sorted.imp ne_of_lt) (h'.sorted.imp ne_of_lt)).mpr
    fun k => by rw [h.mem, h'.mem, he]
  exact hp.eq_of_pairwise (fun a b _ _ hab hba => absurd hba (lt_asymm hab)) h.sorted h'.sorted

/-- C57: `stochastic_equals` compares the counts themselves when there is only one possible value. Otherwise it refuses
distributions with different numbers of samples, hands the aligned counts to the chi-square test, and answers whether
the p-value is not below the level. -/
theorem stochastic_equals_spec [LinearOrder κ] [AddCommMonoid V] [DecidableEq V] [LinearOrder P]
    (chisquare : List V → List V → PyM P) (expected observed : List (κ × V)) (he : (keys expected).Nodup)
    (ho : (keys observed).Nodup) (p : P) :
    ∃ ks, UnionKeys observed expected ks ∧
      (∀ k, ks = [k] → stochasticEquals chisquare expected observed p = .ok (decide (countOf observed k = countOf expected k))) ∧
      (ks.length ≠ 1 → (expected.map Prod.snd).sum ≠ (observed.map Prod.snd).sum →
        stochasticEquals chisquare expected observed p = .error .assertionError) ∧
      (ks.length ≠ 1 → (expected.map Prod.snd).sum = (observed.map Prod.snd).sum →
        (∀ e, chisquare (ks.map (countOf observed)) (ks.map (countOf expected)) = .error e →
          stochasticEquals chisquare expected observed p = .error e) ∧
        (∀ q, chisquare (ks.map (countOf observed)) (ks.map (countOf expected)) = .ok q →
          stochasticEquals chisquare expected observed p = .ok (decide (p ≤ q)))) := by
  obtain ⟨n1, n2, m1, m2, c1, c2, ks, hks, hv1, hv2⟩ := normalize_dicts_spec observed expected ho he
  have hsum1 : ((normalizeDicts observed expected).dict1.map Prod.snd).sum = (observed.map Prod.snd).sum := addKeysFrom_sum _ _
  have hsum2 : ((normalizeDicts observed expected).dict2.map Prod.snd).sum = (expected.map Prod.snd).sum := addKeysFrom_sum _ _
  obtain ⟨-, -, -, -, -, -, ks', hks', hv1', hv2'⟩ := normalize_dicts_spec _ _ n1 n2
  have hkk : ks' = ks := unionKeys_unique _ _ _ _ _ _ hks' hks (fun k => by rw [m1, m2]; tauto)
  subst hkk
  have hv1'' : (normalizeDicts (normalizeDicts observed expected).dict1 (normalizeDicts observed expected).dict2).values1 =
      ks'.map (countOf observed) := by rw [hv1']; exact List.map_congr_left fun k _ => c1 k
  have hv2'' : (normalizeDicts (normalizeDicts observed expected).dict1 (normalizeDicts observed expected).dict2).values2 =
      ks'.map (countOf expected) := by rw [hv2']; exact List.map_congr_left fun k _ => c2 k
  refine ⟨ks', hks, ?_, ?_, ?_⟩
  · intro k hk
    rw [stochasticEquals]
    simp only [hv1, hv2, hk]
    simp [beq_eq_decide]
  · intro hl hs
    rw [stochasticEquals]
    simp only [hv1, List.length_map, if_neg hl, stochasticChisquare, hsum1, hsum2, if_neg hs]
    rfl
  · intro hl hs
    have : stochasticEquals chisquare expected observed p =
        (chisquare (ks'.map (countOf observed)) (ks'.map (countOf expected))).bind fun q => .ok (!decide (q < p)) := by
      rw [stochasticEquals]
      simp only [hv1, List.length_map, if_neg hl, stochasticChisquare, hsum1, hsum2, if_pos hs, hv1'', hv2'']
      rfl
    constructor
    · intro e h; rw [this, h]; rfl
    · intro q h
      rw [this, h]
      show Except.ok _ = _
      congr 1
      by_cases hq : q < p
      · simp [hq]
      · simp [hq, not_lt.mp hq]

/-- C57: `equals_uniform` tests against the same number of samples spread evenly over the values observed. -/
theorem equals_uniform_spec [LinearOrder κ] [LinearOrder P] (chisquare : List ℚ → List ℚ → PyM P) (observed : List (κ × ℚ)) (p : P) :
    ∃ expected, equalsUniform chisquare observed p = stochasticEquals chisquare expected observed p ∧
      keys expected = keys observed ∧ (∀ e ∈ expected, ∀ e' ∈ expected, e.2 = e'.2) ∧
      (expected.map Prod.snd).sum = (observed.map Prod.snd).sum := by
  refine ⟨observed.map fun e => (e.1, (observed.map Prod.snd).sum / observed.length), rfl, by simp [keys], ?_, ?_⟩
  · intro e he e' he'
    obtain ⟨x, -, rfl⟩ := List.mem_map.mp he
    obtain ⟨y, -, rfl⟩ := List.mem_map.mp he'
    rfl
  · generalize hn : (observed.map Prod.snd).sum = n
    cases observed with
    | nil => simpa using hn
    | cons e es =>
      rw [List.map_map]
      show (List.map (fun _ => n / ((e :: es).length : ℚ)) (e :: es)).sum = n
      rw [List.map_const', List.sum_replicate, nsmul_eq_mul]
      have : ((e :: es).length : ℚ) ≠ 0 := by
        rw [List.length_cons]; push_cast; positivity
      field_simp

example : collectDistribution (fun i => .ok (i % 3)) 7 = .ok [(0, 3), (1, 2), (2, 2)] := by decide +kernel
example : normalizeDicts [(3, 5), (1, 2)] [(2, 7), (1, 4)] =
    (⟨[(3, 5), (1, 2), (2, 0)], [(2, 7), (1, 4), (3, 0)], [2, 0, 5], [4, 7, 0]⟩ : Normalized Nat Nat) := by decide +kernel
example : stochasticEquals (P := Nat) (fun _ _ => .ok 3) [(0, 5), (1, 5)] [(0, 4), (1, 6)] 2 = .ok true := by decide +kernel

end Leap
