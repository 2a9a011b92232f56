import Mathlib.Data.List.Sort
import Mathlib.Data.List.Nodup
import Mathlib.Tactic.Linarith
import Verif.Model.NonDom
import Verif.Lemmas.Ranks

/-!
# Lemmas about rank ordinal sorting
-/

namespace Leap
open Spec

theorem lexLt_asymm : ∀ a b : List ℚ, lexLt a b = true → lexLt b a = false
  | [], [], _ => rfl
  | [], _ :: _, _ => rfl
  | _ :: _, [], h => by simp [lexLt] at h
  | a :: as, b :: bs, h => by
    simp only [lexLt, Bool.or_eq_true, Bool.and_eq_true, decide_eq_true_eq] at h
    simp only [lexLt, Bool.or_eq_false_iff, Bool.and_eq_false_iff, decide_eq_false_iff_not]
    rcases h with h | ⟨rfl, h⟩
    · exact ⟨by linarith, Or.inl (by intro e; subst e; exact lt_irrefl _ h)⟩
    · exact ⟨lt_irrefl _, Or.inr (lexLt_asymm as bs h)⟩

theorem lexLt_total : ∀ a b : List ℚ, lexLt a b = false → lexLt b a = false → a = b
  | [], [], _, _ => rfl
  | [], _ :: _, h, _ => by simp [lexLt] at h
  | _ :: _, [], _, h => by simp [lexLt] at h
  | a :: as, b :: bs, h, h' => by
    simp only [lexLt, Bool.or_eq_false_iff, Bool.and_eq_false_iff, decide_eq_false_iff_not] at h h'
    have hab : a = b := le_antisymm (not_lt.1 h'.1) (not_lt.1 h.1)
    subst hab
    rw [lexLt_total as bs (by simpa using h.2) (by simpa using h'.2)]

theorem lexLt_trans : ∀ a b c : List ℚ, lexLt a b = true → lexLt b c = true → lexLt a c = true
  | [], _, [], _, h => by rename_i b _; cases b <;> simp [lexLt] at h
  | [], _, _ :: _, _, _ => rfl
  | _ :: _, [], _, h, _ => by simp [lexLt] at h
  | _ :: _, _ :: _, [], _, h => by simp [lexLt] at h
  | a :: as, b :: bs, c :: cs, h, h' => by
    simp only [lexLt, Bool.or_eq_true, Bool.and_eq_true, decide_eq_true_eq] at h h' ⊢
    rcases h with h | ⟨rfl, h⟩
    · rcases h' with h' | ⟨rfl, h'⟩
      · exact Or.inl (by linarith)
      · exact Or.inl h
    · rcases h' with h' | ⟨rfl, h'⟩
      · exact Or.inl h'
      · exact Or.inr ⟨rfl, lexLt_trans as bs cs h h'⟩

theorem lexLt_strictWeak : StrictWeak lexLt := by
  constructor
  · exact lexLt_asymm
  · intro a b c h1 h2
    cases h : lexLt a c
    · rfl
    · cases hb : lexLt b a
      · have := lexLt_total a b h1 hb; subst this; rw [h] at h2; cases h2
      · rw [lexLt_trans b a c hb h] at h2; cases h2

theorem ratLt_strictWeak {β : Type} (key : β → ℚ) : StrictWeak (fun a b => decide (key a < key b)) := by
  constructor
  · intro a b h; simp at *; linarith
  · intro a b c h1 h2; simp at *; linarith

/-- The unique rows: distinct, the same set, in ascending order. -/
theorem uniqueRows_spec (rows : List (List ℚ)) :
    (npUniqueRows rows).Nodup ∧ (∀ r, r ∈ npUniqueRows rows ↔ r ∈ rows) ∧
    (npUniqueRows rows).Pairwise fun a b => lexLt a b = true := by
  have hp := sortedAsc_perm lexLt rows.dedup
  have hn : (npUniqueRows rows).Nodup := hp.nodup_iff.2 (List.nodup_dedup _)
  refine ⟨hn, ?_, ?_⟩
  · intro r; unfold npUniqueRows; rw [hp.mem_iff]; simp
  · have h1 := sortedAsc_pairwise lexLt_strictWeak rows.dedup
    have := h1.and (List.nodup_iff_pairwise_ne.1 hn)
    refine this.imp ?_
    rintro a b ⟨h2, h3⟩
    by_contra h4
    exact h3 (lexLt_total a b (by simpa using h4) h2)

theorem perm_range (rows : List (List ℚ)) (j : Nat) : (objectivePermutation rows j).Perm (List.range rows.length) :=
  (List.reverse_perm _).trans (sortedAsc_perm _ _)

theorem perm_desc (rows : List (List ℚ)) (j : Nat) :
    ((objectivePermutation rows j).map fun q => entry rows q j).Pairwise (· ≥ ·) := by
  unfold objectivePermutation
  rw [List.map_reverse, List.pairwise_reverse]
  rw [List.pairwise_map]
  refine (sortedAsc_pairwise (ratLt_strictWeak fun q => entry rows q j) (List.range rows.length)).imp ?_
  intro a b h
  simpa using h

theorem idxOf_desc {l : List ℚ} (h : l.Pairwise (· ≥ ·)) {v w : ℚ} (hv : v ∈ l) (hw : w ∈ l) :
    l.idxOf v ≤ l.idxOf w ↔ w ≤ v := by
  have hv' := List.idxOf_lt_length_of_mem hv
  have hw' := List.idxOf_lt_length_of_mem hw
  have ev : l[l.idxOf v] = v := List.getElem_idxOf hv'
  have ew : l[l.idxOf w] = w := List.getElem_idxOf hw'
  constructor
  · intro hle
    rcases Nat.lt_or_eq_of_le hle with hlt | heq
    · have := List.pairwise_iff_getElem.1 h _ _ hv' hw' hlt
      rw [ev, ew] at this; exact this
    · rw [← ev, ← ew]; simp only [heq]; exact le_refl _
  · intro hle
    by_contra hlt
    have := List.pairwise_iff_getElem.1 h _ _ hw' hv' (by omega)
    rw [ev, ew] at this
    have : v = w := le_antisymm this hle
    subst this; omega

theorem objectiveRank_eq (rows : List (List ℚ)) (p j : Nat) (hp : p < rows.length) :
    objectiveRank rows p j = ((objectivePermutation rows j).map fun q => entry rows q j).idxOf (entry rows p j) := by
  unfold objectiveRank
  have hm : p ∈ objectivePermutation rows j := by rw [(perm_range rows j).mem_iff]; simpa using hp
  have hl := List.idxOf_lt_length_of_mem hm
  simp only
  congr 1
  rw [List.getD_eq_getElem?_getD, List.getElem?_map, List.getElem?_eq_getElem hl, List.getElem_idxOf]
  rfl

theorem objectiveRank_le (rows : List (List ℚ)) (a b j : Nat) (ha : a < rows.length) (hb : b < rows.length) :
    objectiveRank rows a j ≤ objectiveRank rows b j ↔ entry rows b j ≤ entry rows a j := by
  rw [objectiveRank_eq rows a j ha, objectiveRank_eq rows b j hb]
  have hm : ∀ p, p < rows.length → entry rows p j ∈ (objectivePermutation rows j).map fun q => entry rows q j := by
    intro p hp
    exact List.mem_map.2 ⟨p, by rw [(perm_range rows j).mem_iff]; simpa using hp, rfl⟩
  exact idxOf_desc (perm_desc rows j) (hm a ha) (hm b hb)

theorem idxOf_le_of_getElem (l : List ℚ) (v : ℚ) (t : Nat) (ht : t < l.length) (h : l[t] = v) : l.idxOf v ≤ t := by
  induction l generalizing t with
  | nil => simp at ht
  | cons a l ih =>
    by_cases hav : a = v
    · subst hav; simp
    · cases t with
      | zero => exact absurd h hav
      | succ t =>
        rw [List.idxOf_cons_ne _ hav]
        have := ih t (by simpa using ht) (by simpa using h)
        omega

theorem mem_dominable (rows : List (List ℚ)) (i u k : Nat) (hi : i < rows.length) (hu : u < rows.length)
    (h : entry rows u k ≤ entry rows i k) : u ∈ (objectivePermutation rows k).drop (objectiveRank rows i k) := by
  have hmi : i ∈ objectivePermutation rows k := by rw [(perm_range rows k).mem_iff]; simpa using hi
  have hm : u ∈ objectivePermutation rows k := by rw [(perm_range rows k).mem_iff]; simpa using hu
  have hl := List.idxOf_lt_length_of_mem hm
  set t := (objectivePermutation rows k).idxOf u with ht
  have hle : objectiveRank rows i k ≤ t := by
    refine le_trans ((objectiveRank_le rows i u k hi hu).2 h) ?_
    rw [objectiveRank_eq rows u k hu]
    have hlm : t < ((objectivePermutation rows k).map fun q => entry rows q k).length := by simpa using hl
    refine idxOf_le_of_getElem _ _ t hlm ?_
    simp only [List.getElem_map, ht, List.getElem_idxOf]
  rw [List.mem_iff_getElem?]
  refine ⟨t - objectiveRank rows i k, ?_⟩
  rw [List.getElem?_drop]
  have : objectiveRank rows i k + (t - objectiveRank rows i k) = t := by omega
  rw [this, List.getElem?_eq_getElem hl, List.getElem_idxOf]

theorem argmax_lt (l : List Nat) (hl : l ≠ []) : npArgmax l < l.length := by
  unfold npArgmax
  apply List.idxOf_lt_length_of_mem
  have key : ∀ (l : List Nat) (a : Nat), l.foldl max a ∈ a :: l := by
    intro l
    induction l with
    | nil => simp
    | cons b l ih =>
      intro a
      simp only [List.foldl_cons]
      have := ih (max a b)
      rcases List.mem_cons.1 this with h | h
      · rw [h]; rcases le_total a b with hab | hab
        · rw [max_eq_right hab]; simp
        · rw [max_eq_left hab]; simp
      · exact List.mem_cons_of_mem _ (List.mem_cons_of_mem _ h)
  cases l with
  | nil => exact absurd rfl hl
  | cons a l =>
    simp only [List.foldl_cons, Nat.zero_max]
    exact key l a

theorem permutation_zero (rows : List (List ℚ)) (hs : rows.Pairwise fun a b => lexLt a b = true) (m : Nat)
    (hm : ∀ r ∈ rows, r.length = m) (hm0 : 0 < m) : objectivePermutation rows 0 = (List.range rows.length).reverse := by
  unfold objectivePermutation sortedAsc
  congr 1
  apply List.Pairwise.insertionSort_eq
  rw [List.pairwise_iff_getElem]
  intro i j hi hj hij
  simp only [List.getElem_range]
  rw [List.length_range] at hi hj
  have := List.pairwise_iff_getElem.1 hs i j hi hj hij
  have h1 := hm _ (List.getElem_mem hi)
  have h2 := hm _ (List.getElem_mem hj)
  simp only [entry, List.getD_eq_getElem?_getD, List.getElem?_eq_getElem hi, List.getElem?_eq_getElem hj, Option.getD_some]
  revert this h1 h2
  generalize rows[i] = a
  generalize rows[j] = b
  intro h h1 h2
  cases a with
  | nil => simp at h1; omega
  | cons x a =>
    cases b with
    | nil => simp at h2; omega
    | cons y b =>
      simp only [lexLt, Bool.or_eq_true, Bool.and_eq_true, decide_eq_true_eq] at h
      simp only [List.getElem?_cons_zero, Option.getD_some, decide_eq_false_iff_not, not_lt]
      rcases h with h | ⟨rfl, -⟩
      · exact le_of_lt h
      · exact le_refl _

/-- Strict dominance between rows. -/
def rowDom (rows : List (List ℚ)) (m : Nat) (a b : Nat) : Bool :=
  decide (a ≠ b) && (decide (a < rows.length) && (decide (b < rows.length) && (List.range m).all fun j => entry rows b j ≤ entry rows a j))

theorem rowDom_iff (rows : List (List ℚ)) (m a b : Nat) : rowDom rows m a b = true ↔
    a ≠ b ∧ a < rows.length ∧ b < rows.length ∧ ∀ j, j < m → entry rows b j ≤ entry rows a j := by
  simp [rowDom]

theorem entry_ext (rows : List (List ℚ)) (hn : rows.Nodup) (m : Nat) (hm : ∀ r ∈ rows, r.length = m) (a b : Nat)
    (ha : a < rows.length) (hb : b < rows.length) (h : ∀ j, j < m → entry rows a j = entry rows b j) : a = b := by
  have h1 := hm _ (List.getElem_mem ha)
  have h2 := hm _ (List.getElem_mem hb)
  have : rows[a] = rows[b] := by
    apply List.ext_getElem (by omega)
    intro j hj hj'
    have := h j (by omega)
    simpa [entry, List.getElem?_eq_getElem ha, List.getElem?_eq_getElem hb, List.getElem?_eq_getElem hj,
      List.getElem?_eq_getElem hj'] using this
  exact (List.Nodup.getElem_inj_iff hn).1 this

theorem rowDom_strictPartial (rows : List (List ℚ)) (hn : rows.Nodup) (m : Nat) (hm : ∀ r ∈ rows, r.length = m) :
    StrictPartial (rowDom rows m) := by
  constructor
  · intro a; simp [rowDom]
  · intro a b c h1 h2
    rw [rowDom_iff] at *
    refine ⟨?_, h1.2.1, h2.2.2.1, fun j hj => le_trans (h2.2.2.2 j hj) (h1.2.2.2 j hj)⟩
    rintro rfl
    exact h1.1 (entry_ext rows hn m hm a b h1.2.1 h1.2.2.1 fun j hj => le_antisymm (h2.2.2.2 j hj) (h1.2.2.2 j hj))

theorem lexLt_of_ge : ∀ (a b : List ℚ), a.length = b.length → (∀ j, j < a.length → a.getD j 0 ≤ b.getD j 0) → lexLt b a = false
  | [], [], _, _ => rfl
  | [], _ :: _, h, _ => by simp at h
  | _ :: _, [], h, _ => by simp at h
  | x :: a, y :: b, h, hle => by
    have h0 := hle 0 (by simp)
    simp only [List.getD_cons_zero] at h0
    simp only [lexLt, Bool.or_eq_false_iff, Bool.and_eq_false_iff, decide_eq_false_iff_not, not_lt]
    refine ⟨h0, Or.inr (lexLt_of_ge a b (by simpa using h) ?_)⟩
    intro j hj
    have := hle (j + 1) (by simpa using hj)
    simpa using this

theorem rowDom_order (rows : List (List ℚ)) (hs : rows.Pairwise fun a b => lexLt a b = true) (m : Nat)
    (hm : ∀ r ∈ rows, r.length = m) (a b : Nat) (h : rowDom rows m a b = true) : b < a := by
  rw [rowDom_iff] at h
  obtain ⟨hne, ha, hb, hle⟩ := h
  by_contra hlt
  have hl := List.pairwise_iff_getElem.1 hs a b ha hb (by omega)
  have h1 := hm _ (List.getElem_mem ha)
  have h2 := hm _ (List.getElem_mem hb)
  have := lexLt_of_ge rows[b] rows[a] (by omega) (by
    intro j hj
    have := hle j (by omega)
    simpa [entry, List.getElem?_eq_getElem ha, List.getElem?_eq_getElem hb] using this)
  rw [this] at hl; cases hl

theorem ordinalStep_spec (rows : List (List ℚ)) (m : Nat) (hm0 : 0 < m) (ranks : Nat → Nat) (i : Nat) (hi : i < rows.length)
    (x : Nat) : ordinalStep rows m ranks i x =
      if (x = i ∨ rowDom rows m i x = true) ∧ ranks x = ranks i then ranks x + 1 else ranks x := by
  unfold ordinalStep
  have hk : npArgmax ((List.range m).map (objectiveRank rows i)) < m := by
    have := argmax_lt ((List.range m).map (objectiveRank rows i)) (by simp; omega)
    simpa using this
  generalize npArgmax ((List.range m).map (objectiveRank rows i)) = k at hk ⊢
  congr 1
  simp only [List.mem_filter, List.all_eq_true, List.mem_range, decide_eq_true_eq, eq_iff_iff]
  constructor
  · rintro ⟨⟨h1, h2⟩, h3⟩
    have hx : x < rows.length := by
      have := List.mem_of_mem_drop h1
      rw [(perm_range rows k).mem_iff] at this; simpa using this
    refine ⟨?_, h2.symm⟩
    by_cases hxi : x = i
    · exact Or.inl hxi
    · right; rw [rowDom_iff]
      exact ⟨Ne.symm hxi, hi, hx, fun j hj => (objectiveRank_le rows i x j hi hx).1 (h3 j hj)⟩
  · rintro ⟨h1 | h1, h2⟩
    · subst h1
      exact ⟨⟨mem_dominable rows x x k hi hi (le_refl _), rfl⟩, fun j _ => le_refl _⟩
    · rw [rowDom_iff] at h1
      obtain ⟨-, -, hx, hle⟩ := h1
      exact ⟨⟨mem_dominable rows i x k hi hx (hle k hk), h2.symm⟩, fun j hj => (objectiveRank_le rows i x j hi hx).2 (hle j hj)⟩

/-- The loop computes the ranks of the distinct rows. -/
theorem ordinalRanks_spec (rows : List (List ℚ)) (hn : rows.Nodup) (hs : rows.Pairwise fun a b => lexLt a b = true) (m : Nat)
    (hm : ∀ r ∈ rows, r.length = m) (hm0 : 0 < m) (a : Nat) (ha : a < rows.length) :
    HasRank (rowDom rows m) (List.range rows.length) a (ordinalRanks rows m a) := by
  have hd := rowDom_strictPartial rows hn m hm
  have hex : ∀ a : Nat, ∃ r, a ∈ List.range rows.length → HasRank (rowDom rows m) (List.range rows.length) a r := by
    intro a
    by_cases h : a ∈ List.range rows.length
    · obtain ⟨r, hr⟩ := hasRank_exists hd h; exact ⟨r, fun _ => hr⟩
    · exact ⟨0, fun h' => absurd h' h⟩
  choose ρ hρ' using hex
  have hρ : ∀ a, a < rows.length → HasRank (rowDom rows m) (List.range rows.length) a (ρ a) := fun a ha => hρ' a (by simpa using ha)
  unfold ordinalRanks
  rw [permutation_zero rows hs m hm hm0]
  -- after the rows `≥ t` have been processed
  have key : ∀ (t : Nat), t ≤ rows.length → ∀ ranks : Nat → Nat,
      (∀ a, t ≤ a → a < rows.length → ranks a = ρ a) →
      (∀ a, a < t → ∀ d, t ≤ d → rowDom rows m d a = true → ρ d ≤ ranks a) →
      (∀ a, a < t → ranks a = 0 ∨ ∃ d, t ≤ d ∧ rowDom rows m d a = true ∧ ρ d = ranks a) →
      ∀ a, a < rows.length → (List.range t).reverse.foldl (ordinalStep rows m) ranks a = ρ a := by
    intro t
    induction t with
    | zero => intro _ ranks h1 _ _ a ha; simpa using h1 a (Nat.zero_le _) ha
    | succ t ih =>
      intro htl ranks h1 h2 h3
      rw [List.range_succ, List.reverse_append]
      simp only [List.reverse_cons, List.reverse_nil, List.nil_append, List.singleton_append, List.foldl_cons]
      have hstep := ordinalStep_spec rows m hm0 ranks t (by omega)
      have hlt : ∀ d a, rowDom rows m d a = true → ρ d < ρ a := by
        intro d a h
        have := (rowDom_iff rows m d a).1 h
        exact hasRank_lt (hρ a this.2.2.1) (hρ d this.2.1) h
      -- the row about to be processed has all its dominators behind it
      have hrt : ranks t + 1 = ρ t := by
        have hr := hρ t (by omega)
        have hge : ρ t ≤ ranks t + 1 := by
          by_cases h : 1 < ρ t
          · obtain ⟨y, hy, hyt, hyr⟩ := hasRank_pred hr h
            have hyl : y < rows.length := by simpa using hy
            have := hasRank_unique hyr (hρ y hyl)
            have := h2 t (by omega) y (rowDom_order rows hs m hm y t hyt) hyt
            omega
          · omega
        rcases h3 t (by omega) with h0 | ⟨d, -, hdt, hd'⟩
        · have := hr.1; omega
        · have := hlt d t hdt; omega
      apply ih (by omega)
      · intro a hta hal
        rw [hstep]
        by_cases hat : a = t
        · subst hat; simp; exact hrt
        · rw [if_neg, h1 a (by omega) hal]
          rintro ⟨h | h, -⟩
          · exact hat h
          · have := rowDom_order rows hs m hm t a h; omega
      · intro a hat d htd hda
        rw [hstep]
        by_cases hdt : d = t
        · subst hdt
          by_cases he : ranks a = ranks d
          · rw [if_pos ⟨Or.inr hda, he⟩]; omega
          · rw [if_neg (fun h => he h.2)]
            have hge : ranks d ≤ ranks a := by
              rcases h3 d (by omega) with h0 | ⟨e, hte, hed, he'⟩
              · omega
              · rw [← he']; exact h2 a (by omega) e hte (hd.trans _ _ _ hed hda)
            omega
        · have := h2 a (by omega) d (by omega) hda
          split <;> omega
      · intro a hat
        rw [hstep]
        by_cases hc : (a = t ∨ rowDom rows m t a = true) ∧ ranks a = ranks t
        · rw [if_pos hc]
          right
          refine ⟨t, le_refl _, ?_, by omega⟩
          rcases hc.1 with h | h
          · omega
          · exact h
        · rw [if_neg hc]
          rcases h3 a (by omega) with h0 | ⟨d, hd1, hd2, hd3⟩
          · exact Or.inl h0
          · exact Or.inr ⟨d, by omega, hd2, hd3⟩
  rw [key rows.length (le_refl _) (fun _ => 0) (fun a h1 h2 => by omega) (fun a ha d hd1 hd2 => ?_) (fun a _ => Or.inl rfl) a ha]
  · exact hρ a ha
  · have := ((rowDom_iff rows m d a).1 hd2).2.1; omega

end Leap
