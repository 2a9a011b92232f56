import Mathlib.Data.List.Count
import Mathlib.Tactic.Linarith
import Verif.Model.NonDom
import Verif.Lemmas.Ranks
import Verif.Props.Pareto

/-!
# C44: fast non-dominated sorting
-/

namespace Leap
open Spec

theorem compareWithAll_spec {gt : Nat → Nat → Bool} (hd : StrictPartial gt) (x : Nat) (pop : List Nat) :
    compareWithAll gt x pop = (pop.filter fun y => gt x y, ((pop.countP fun y => gt y x : Nat) : Int)) := by
  have key : ∀ (l l0 : List Nat) (c : Int),
      l.foldl (fun acc other =>
        if x = other then acc
        else if gt x other then (acc.1 ++ [other], acc.2)
        else if gt other x then (acc.1, acc.2 + 1)
        else acc) (l0, c) = (l0 ++ l.filter fun y => gt x y, c + (l.countP fun y => gt y x : Nat)) := by
    intro l
    induction l with
    | nil => simp
    | cons y l ih =>
      intro l0 c
      simp only [List.foldl_cons]
      by_cases hxy : x = y
      · subst hxy
        rw [if_pos rfl, ih]; simp [hd.irrefl]
      · rw [if_neg hxy]
        by_cases h1 : gt x y = true
        · have h2 : gt y x = false := by
            cases h : gt y x
            · rfl
            · have := hd.trans _ _ _ h1 h; rw [hd.irrefl] at this; cases this
          rw [if_pos h1, ih]; simp [h1, h2]
        · by_cases h2 : gt y x = true
          · rw [if_neg h1, if_pos h2, ih]; simp [h1, h2]; omega
          · rw [if_neg h1, if_neg h2, ih]; simp [h1, h2]
  unfold compareWithAll
  rw [key]; simp

theorem firstFront_spec {gt : Nat → Nat → Bool} (hd : StrictPartial gt) (pop : List Nat) (st : SortAttrs) :
    (firstFront gt pop st).2 = pop.filter (fun x => !pop.any fun y => gt y x) ∧
    ∀ x, (firstFront gt pop st).1.dominates x = (if x ∈ pop then pop.filter (fun y => gt x y) else st.dominates x) ∧
      (firstFront gt pop st).1.dominatedBy x = (if x ∈ pop then ((pop.countP fun y => gt y x : Nat) : Int) else st.dominatedBy x) ∧
      (firstFront gt pop st).1.rank x = (if x ∈ pop then (if pop.any (fun y => gt y x) then 0 else 1) else st.rank x) := by
  have hz : ∀ x, (((pop.countP fun y => gt y x : Nat) : Int) = 0) ↔ (pop.any fun y => gt y x) = false := by
    intro x
    rw [Int.natCast_eq_zero, List.countP_eq_zero]
    simp
  have key : ∀ (l : List Nat) (st : SortAttrs) (f0 : List Nat),
      let r := l.foldl (fun acc individual =>
        let c := compareWithAll gt individual pop
        let st : SortAttrs := ⟨setAttr acc.1.dominates individual c.1, setAttr acc.1.dominatedBy individual c.2,
          setAttr acc.1.rank individual (if c.2 = 0 then 1 else 0)⟩
        (st, if c.2 = 0 then acc.2 ++ [individual] else acc.2)) (st, f0)
      r.2 = f0 ++ l.filter (fun x => !pop.any fun y => gt y x) ∧
      ∀ x, r.1.dominates x = (if x ∈ l then pop.filter (fun y => gt x y) else st.dominates x) ∧
        r.1.dominatedBy x = (if x ∈ l then ((pop.countP fun y => gt y x : Nat) : Int) else st.dominatedBy x) ∧
        r.1.rank x = (if x ∈ l then (if pop.any (fun y => gt y x) then 0 else 1) else st.rank x) := by
    intro l
    induction l with
    | nil => intro st f0; simp
    | cons a l ih =>
      intro st f0
      simp only [List.foldl_cons, compareWithAll_spec hd]
      obtain ⟨h1, h2⟩ := ih ⟨setAttr st.dominates a (pop.filter fun y => gt a y),
        setAttr st.dominatedBy a ((pop.countP fun y => gt y a : Nat)),
        setAttr st.rank a (if ((pop.countP fun y => gt y a : Nat) : Int) = 0 then 1 else 0)⟩
        (if ((pop.countP fun y => gt y a : Nat) : Int) = 0 then f0 ++ [a] else f0)
      simp only [compareWithAll_spec hd] at h1 h2
      refine ⟨?_, ?_⟩
      · rw [h1]
        cases ha : (pop.any fun y => gt y a)
        · rw [if_pos ((hz a).2 ha)]; simp only [List.filter_cons, ha]; simp
        · rw [if_neg (fun h => by rw [(hz a).1 h] at ha; cases ha)]; simp only [List.filter_cons, ha]; simp
      · intro x
        obtain ⟨h3, h4, h5⟩ := h2 x
        rw [h3, h4, h5]
        by_cases hxl : x ∈ l
        · simp [hxl]
        · by_cases hxa : x = a
          · subst hxa
            simp only [hxl, if_false, List.mem_cons, true_or, if_true, setAttr, true_and]
            cases ha : (pop.any fun y => gt y x)
            · rw [if_pos ((hz x).2 ha)]; simp
            · rw [if_neg (fun h => by rw [(hz x).1 h] at ha; cases ha)]; simp
          · simp [hxl, hxa, setAttr]
  obtain ⟨k1, k2⟩ := key pop st []
  rw [List.nil_append] at k1
  exact ⟨k1, k2⟩

/-- The effect of a sequence of decrements. -/
theorem decrements_spec (i : Nat) (es : List Nat) (st : SortAttrs) (f0 : List Nat) :
    let r := es.foldl (decrementOne i) (st, f0)
    r.1.dominates = st.dominates ∧
    (∀ x, r.1.dominatedBy x = st.dominatedBy x - es.count x) ∧
    (∀ x, r.1.rank x = if 0 < st.dominatedBy x ∧ st.dominatedBy x ≤ es.count x then i + 1 else st.rank x) ∧
    (∀ x, r.2.count x = f0.count x + if 0 < st.dominatedBy x ∧ st.dominatedBy x ≤ es.count x then 1 else 0) := by
  induction es generalizing st f0 with
  | nil => 
    refine ⟨rfl, by simp, ?_, ?_⟩ <;> intro x <;> rw [if_neg (by simp)] <;> simp
  | cons e es ih =>
    simp only [List.foldl_cons]
    by_cases hc : st.dominatedBy e - 1 = 0
    · have hd : decrementOne i (st, f0) e = (⟨st.dominates, setAttr st.dominatedBy e (st.dominatedBy e - 1),
          setAttr st.rank e (i + 1)⟩, f0 ++ [e]) := by simp [decrementOne, hc]
      rw [hd]
      obtain ⟨h1, h2, h3, h4⟩ := ih ⟨st.dominates, setAttr st.dominatedBy e (st.dominatedBy e - 1),
          setAttr st.rank e (i + 1)⟩ (f0 ++ [e])
      refine ⟨h1, ?_, ?_, ?_⟩
      · intro x; rw [h2]
        by_cases hx : x = e
        · subst hx; simp [setAttr]; omega
        · simp [setAttr, hx, List.count_cons, Ne.symm hx]
      · intro x; rw [h3]
        by_cases hx : x = e
        · subst hx; simp [setAttr]; omega
        · simp [setAttr, hx, List.count_cons, Ne.symm hx]
      · intro x; rw [h4]
        by_cases hx : x = e
        · subst hx
          have hone : st.dominatedBy x = 1 := by omega
          simp [setAttr, hone]
        · simp [setAttr, hx, List.count_cons, Ne.symm hx]
    · have hd : decrementOne i (st, f0) e = (⟨st.dominates, setAttr st.dominatedBy e (st.dominatedBy e - 1),
          st.rank⟩, f0) := by simp [decrementOne, hc]
      rw [hd]
      obtain ⟨h1, h2, h3, h4⟩ := ih ⟨st.dominates, setAttr st.dominatedBy e (st.dominatedBy e - 1), st.rank⟩ f0
      refine ⟨h1, ?_, ?_, ?_⟩
      · intro x; rw [h2]
        by_cases hx : x = e
        · subst hx; simp [setAttr]; omega
        · simp [setAttr, hx, List.count_cons, Ne.symm hx]
      · intro x; rw [h3]
        by_cases hx : x = e
        · subst hx; simp only [setAttr, if_true, List.count_cons_self]
          by_cases hh : 0 < st.dominatedBy x ∧ st.dominatedBy x ≤ ((es.count x + 1 : Nat) : Int)
          · rw [if_pos hh, if_pos (by omega)]
          · rw [if_neg hh, if_neg (by omega)]
        · simp [setAttr, hx, List.count_cons, Ne.symm hx]
      · intro x; rw [h4]
        by_cases hx : x = e
        · subst hx; simp only [setAttr, if_true, List.count_cons_self]
          by_cases hh : 0 < st.dominatedBy x ∧ st.dominatedBy x ≤ ((es.count x + 1 : Nat) : Int)
          · rw [if_pos hh, if_pos (by omega)]
          · rw [if_neg hh, if_neg (by omega)]
        · simp [setAttr, hx, List.count_cons, Ne.symm hx]

theorem nextFront_eq (i : Nat) (front : List Nat) (st : SortAttrs) :
    nextFront i front st = (front.flatMap st.dominates).foldl (decrementOne i) (st, []) := by
  have key : ∀ (front : List Nat) (acc : SortAttrs × List Nat), acc.1.dominates = st.dominates →
      front.foldl (fun acc individual => (acc.1.dominates individual).foldl (decrementOne i) acc) acc =
      (front.flatMap st.dominates).foldl (decrementOne i) acc := by
    intro front
    induction front with
    | nil => intro acc _; rfl
    | cons a front ih =>
      intro acc hacc
      simp only [List.foldl_cons, List.flatMap_cons, List.foldl_append]
      rw [hacc]
      apply ih
      obtain ⟨st', f'⟩ := acc
      rw [(decrements_spec i _ st' f').1]; exact hacc
  exact key front (st, []) rfl

/-- What holds before each round of the `while` loop. -/
structure RankInv (gt : Nat → Nat → Bool) (pop : List Nat) (i : Nat) (front : List Nat) (st : SortAttrs) : Prop where
  pos : 1 ≤ i
  nodup : front.Nodup
  front : ∀ x, x ∈ front ↔ x ∈ remaining gt pop (i - 1) ∧ x ∉ remaining gt pop i
  ranked : ∀ x ∈ pop, x ∉ remaining gt pop i → HasRank gt pop x (st.rank x)
  counts : ∀ x ∈ remaining gt pop i, st.dominatedBy x = ((remaining gt pop (i - 1)).countP fun y => gt y x : Nat)
  dominates : ∀ x ∈ pop, st.dominates x = pop.filter fun y => gt x y

theorem remaining_nodup {gt : Nat → Nat → Bool} {pop : List Nat} (h : pop.Nodup) : ∀ n, (remaining gt pop n).Nodup
  | 0 => h
  | n + 1 => (remaining_nodup h n).filter _

theorem flatMap_count {gt : Nat → Nat → Bool} {pop : List Nat} (hn : pop.Nodup) (front : List Nat) (st : SortAttrs)
    (hf : ∀ y ∈ front, st.dominates y = pop.filter fun z => gt y z) (x : Nat) :
    (front.flatMap st.dominates).count x = if x ∈ pop then front.countP (fun y => gt y x) else 0 := by
  induction front with
  | nil => simp
  | cons y front ih =>
    rw [List.flatMap_cons, List.count_append, ih (fun z hz => hf z (List.mem_cons_of_mem _ hz)), hf y (List.mem_cons_self ..)]
    by_cases hx : x ∈ pop
    · simp only [hx, if_true, List.countP_cons]
      have : (pop.filter fun z => gt y z).count x = if gt y x then 1 else 0 := by
        by_cases hg : gt y x = true
        · rw [List.count_filter (by simpa using hg), hn.count, if_pos hx, if_pos hg]
        · rw [if_neg hg, List.count_eq_zero]
          simp [hg]
      rw [this]; omega
    · simp only [hx, if_false, Nat.add_zero]
      rw [List.count_eq_zero]; simp [hx]

theorem rankInv_step {gt : Nat → Nat → Bool} (hd : StrictPartial gt) {pop : List Nat} (hn : pop.Nodup) {i : Nat}
    {front : List Nat} {st : SortAttrs} (h : RankInv gt pop i front st) :
    RankInv gt pop (i + 1) (nextFront i front st).2 (nextFront i front st).1 := by
  rw [nextFront_eq]
  obtain ⟨h1, h2, h3, h4⟩ := decrements_spec i (front.flatMap st.dominates) st []
  have hfp : ∀ y ∈ front, y ∈ pop := fun y hy => remaining_mem ((h.front y).1 hy).1
  have hcount : ∀ x, (front.flatMap st.dominates).count x = if x ∈ pop then front.countP (fun y => gt y x) else 0 :=
    flatMap_count hn front st (fun y hy => h.dominates y (hfp y hy))
  have hi := h.pos
  obtain ⟨n, rfl⟩ : ∃ n, i = n + 1 := ⟨i - 1, by omega⟩
  have hi' : n + 1 - 1 = n := rfl
  -- the round before splits into the front and the rest
  have hsplit : ∀ x, (remaining gt pop n).countP (fun y => gt y x) =
      front.countP (fun y => gt y x) + (remaining gt pop (n + 1)).countP (fun y => gt y x) := by
    intro x
    have hp : ((remaining gt pop n).filter fun x => !((remaining gt pop n).any fun y => gt y x)).Perm front := by
      rw [List.perm_ext_iff_of_nodup ((remaining_nodup hn n).filter _) h.nodup]
      intro a
      have := h.front a
      simp only [Nat.add_sub_cancel] at this
      rw [this, mem_remaining_succ]
      simp
      grind
    have hq := List.countP_eq_countP_filter_add (remaining gt pop n) (fun y => gt y x)
      (fun x => (remaining gt pop n).any fun y => gt y x)
    rw [hq, hp.countP_eq] 
    simp only [remaining]; omega
  -- nobody already ranked is dominated by the front
  have hnone : ∀ x ∈ pop, x ∉ remaining gt pop (n + 1) → front.countP (fun y => gt y x) = 0 := by
    intro x hx hxr
    rw [List.countP_eq_zero]
    intro y hy hyx
    obtain ⟨r, hr, hh⟩ := hasRank_of_not_mem hx (n + 1) hxr
    obtain ⟨hr1, hr2, hr3⟩ := hh
    apply hr3
    have : r = (r - 1) + 1 := by omega
    rw [this]
    refine mem_remaining_succ.2 ⟨hr2, y, remaining_anti (by omega) ((h.front y).1 hy).1, hyx⟩
  -- when the counter reaches zero
  have hhit : ∀ x ∈ remaining gt pop (n + 1), (0 < st.dominatedBy x ∧ st.dominatedBy x ≤
      ((front.flatMap st.dominates).count x : Nat)) ↔ x ∉ remaining gt pop (n + 1 + 1) := by
    intro x hx
    have hxp := remaining_mem hx
    have hc := h.counts x hx
    simp only [Nat.add_sub_cancel] at hc
    rw [hcount, if_pos hxp, hc, hsplit x, mem_remaining_succ (n := n + 1)]
    have hpos : 0 < (remaining gt pop n).countP (fun y => gt y x) := by
      obtain ⟨-, y, hy, hyx⟩ := mem_remaining_succ.1 hx
      exact List.countP_pos_iff.2 ⟨y, hy, hyx⟩
    rw [hsplit x] at hpos
    have hz : (remaining gt pop (n + 1)).countP (fun y => gt y x) = 0 ↔ ¬ ∃ y ∈ remaining gt pop (n + 1), gt y x = true := by
      rw [List.countP_eq_zero]; simp
    constructor
    · rintro ⟨-, hle⟩ ⟨-, hex⟩
      exact hz.1 (by omega) hex
    · intro hno
      have := hz.2 (fun hex => hno ⟨hx, hex⟩)
      omega
  have hmiss : ∀ x, x ∉ remaining gt pop (n + 1) → ¬ (0 < st.dominatedBy x ∧ st.dominatedBy x ≤
      ((front.flatMap st.dominates).count x : Nat)) := by
    intro x hx
    rw [hcount]
    by_cases hxp : x ∈ pop
    · rw [if_pos hxp, hnone x hxp hx]; omega
    · rw [if_neg hxp]; omega
  refine ⟨by omega, ?_, ?_, ?_, ?_, ?_⟩
  · rw [List.nodup_iff_count_le_one]
    intro x; rw [h4]; simp only [List.count_nil]; split <;> omega
  · intro x
    simp only [Nat.add_sub_cancel]
    rw [← List.count_pos_iff, h4]
    simp only [List.count_nil, Nat.zero_add]
    by_cases hx : x ∈ remaining gt pop (n + 1)
    · have := hhit x hx
      split
      · rename_i hh; simp [hx, this.1 hh]
      · rename_i hh; simp only [Nat.lt_irrefl, false_iff, not_and, not_not]
        intro _; by_contra hc; exact hh (this.2 hc)
    · rw [if_neg (hmiss x hx)]; simp [hx]
  · intro x hx hxr
    rw [h3]
    by_cases hx1 : x ∈ remaining gt pop (n + 1)
    · rw [if_pos ((hhit x hx1).2 hxr)]
      exact ⟨by omega, hx1, hxr⟩
    · rw [if_neg (hmiss x hx1)]
      exact h.ranked x hx hx1
  · intro x hx
    have hx1 := remaining_succ_subset _ hx
    have hc := h.counts x hx1
    simp only [Nat.add_sub_cancel] at *
    rw [h2, hc, hcount, if_pos (remaining_mem hx), hsplit x]; omega
  · intro x hx; rw [h1]; exact h.dominates x hx

theorem fillRanks_spec {gt : Nat → Nat → Bool} (hd : StrictPartial gt) {pop : List Nat} (hn : pop.Nodup) (fuel : Nat) :
    ∀ (i : Nat) (front : List Nat) (st : SortAttrs), RankInv gt pop i front st →
      (remaining gt pop (i - 1)).length ≤ fuel →
      ∃ st', fillRanks fuel i front st = some st' ∧ (∀ x ∈ pop, HasRank gt pop x (st'.rank x)) ∧
        ∀ x, x ∉ pop → st'.rank x = st.rank x := by
  induction fuel with
  | zero =>
    intro i front st h hl
    have he : remaining gt pop (i - 1) = [] := List.eq_nil_of_length_eq_zero (by omega)
    have hf : front = [] := by
      apply List.eq_nil_iff_forall_not_mem.2
      intro x hx; have := ((h.front x).1 hx).1; rw [he] at this; simp at this
    subst hf
    refine ⟨st, by simp [fillRanks], ?_, fun _ _ => rfl⟩
    intro x hx
    apply h.ranked x hx
    intro hxr
    have := remaining_anti (Nat.sub_le i 1) hxr
    rw [he] at this; simp at this
  | succ fuel ih =>
    intro i front st h hl
    by_cases hf : front = []
    · subst hf
      refine ⟨st, by simp [fillRanks], ?_, fun _ _ => rfl⟩
      have hi := h.pos
      have he : remaining gt pop (i - 1) = [] := by
        apply remaining_eq_nil hd
        intro x hx
        by_contra hno
        have : i - 1 + 1 = i := by omega
        rw [this] at hno
        have := (h.front x).2 ⟨hx, hno⟩
        simp at this
      intro x hx
      apply h.ranked x hx
      intro hxr
      have := remaining_anti (Nat.sub_le i 1) hxr
      rw [he] at this; simp at this
    · have hinv := rankInv_step hd hn h
      have hi := h.pos
      have hlt : (remaining gt pop i).length < (remaining gt pop (i - 1)).length := by
        obtain ⟨x, hx⟩ := List.exists_mem_of_ne_nil front hf
        obtain ⟨hx1, hx2⟩ := (h.front x).1 hx
        have : i = i - 1 + 1 := by omega
        rw [this] at hx2 ⊢
        simp only [Nat.add_sub_cancel]
        apply List.length_filter_lt_length_iff_exists.2
        refine ⟨x, hx1, ?_⟩
        intro hh
        exact hx2 (List.mem_filter.2 ⟨hx1, hh⟩)
      obtain ⟨st', h1, h2, h3⟩ := ih (i + 1) _ _ hinv (by simpa using (by omega : (remaining gt pop i).length ≤ fuel))
      refine ⟨st', ?_, h2, ?_⟩
      · rw [fillRanks, if_neg hf]; exact h1
      · intro x hx
        rw [h3 x hx, nextFront_eq, (decrements_spec i _ st []).2.2.1]
        rw [if_neg]
        rw [flatMap_count hn front st (fun y hy => h.dominates y (remaining_mem ((h.front y).1 hy).1)), if_neg hx]
        omega

/-- C44: on distinct individuals `fast_nondominated_sort` ends, returns the population followed by the parents, and
gives every one of them its true rank (whatever strict partial order `>` is); ranks of others are untouched.
Missing from the full claim, because it is false of the code: populations in which one object occurs twice. -/
theorem fast_sort_ranks_partial (gt : Nat → Nat → Bool) (hd : StrictPartial gt) (multi : Nat → Bool) (population : List Nat)
    (parents : Option (List Nat)) (st : SortAttrs) (hne : population ≠ [])
    (hm : ∀ x ∈ population, multi x = true) (hn : (population ++ parents.getD []).Nodup) (fuel : Nat)
    (hfuel : (population ++ parents.getD []).length ≤ fuel) :
    ∃ st', fastNondominatedSort gt multi population parents st fuel = .ok (population ++ parents.getD [], some st') ∧
      (∀ x ∈ population ++ parents.getD [], HasRank gt (population ++ parents.getD []) x (st'.rank x)) ∧
      ∀ x, x ∉ population ++ parents.getD [] → st'.rank x = st.rank x := by
  obtain ⟨h1, h2⟩ := firstFront_spec hd (population ++ parents.getD []) st
  have hinv : RankInv gt (population ++ parents.getD []) 1 (firstFront gt (population ++ parents.getD []) st).2
      (firstFront gt (population ++ parents.getD []) st).1 := by
    clear hfuel hm hne
    revert hn h1 h2
    generalize population ++ parents.getD [] = pop
    intro hn h1 h2
    refine ⟨le_refl _, ?_, ?_, ?_, ?_, ?_⟩
    · rw [h1]; exact hn.filter _
    · intro x; rw [h1]; simp [remaining]; grind
    · intro x hx hxr
      rw [(h2 x).2.2, if_pos hx]
      have : (pop.any fun y => gt y x) = false := by
        cases ha : (pop.any fun y => gt y x)
        · rfl
        · exact absurd (List.mem_filter.2 ⟨hx, ha⟩) hxr
      rw [this]
      exact ⟨le_refl _, hx, hxr⟩
    · intro x hx
      rw [(h2 x).2.1, if_pos (remaining_mem hx)]; rfl
    · intro x hx; rw [(h2 x).1, if_pos hx]
  obtain ⟨st', e, h3, h4⟩ := fillRanks_spec hd hn fuel 1 _ _ hinv (by simpa [remaining] using hfuel)
  refine ⟨st', ?_, h3, ?_⟩
  · unfold fastNondominatedSort
    cases hp : population with
    | nil => exact absurd hp hne
    | cons a l =>
      have := hm a (by rw [hp]; simp)
      simp only [this, if_true]
      rw [← hp]
      cases parents with
      | none => simp only [Option.getD_none, List.append_nil, withParents] at e ⊢; rw [e]
      | some ps => simp only [Option.getD_some, withParents] at e ⊢; rw [e]
  · intro x hx
    rw [h4 x hx, (h2 x).2.2, if_neg hx]

/-- C44: what is refused. -/
theorem fast_sort_refusals (gt : Nat → Nat → Bool) (multi : Nat → Bool) (parents : Option (List Nat)) (st : SortAttrs)
    (fuel : Nat) :
    fastNondominatedSort gt multi [] parents st fuel = .error .indexError ∧
    ∀ x xs, multi x = false → fastNondominatedSort gt multi (x :: xs) parents st fuel = .error .assertionError := by
  refine ⟨rfl, ?_⟩
  intro x xs h; simp [fastNondominatedSort, h]

/-- Everybody's rank is determined: there is exactly one. -/
theorem rank_exists_unique {α : Type} (dom : α → α → Bool) (hd : StrictPartial dom) (pop : List α) (x : α) (hx : x ∈ pop) :
    ∃! r, HasRank dom pop x r := by
  obtain ⟨r, hr⟩ := hasRank_exists hd hx
  exact ⟨r, hr, fun s hs => hasRank_unique hs hr⟩

/-- `>` on evaluated individuals of a multi-objective problem, as a total function. -/
def paretoGt (p : MOProblem) (fitness : Nat → List Num) (a b : Nat) : Bool :=
  (moGt p (some (fitness a)) (some (fitness b))).toOption.getD false

theorem paretoGt_iff_of (p : MOProblem) (fitness : Nat → List Num) (a b : Nat) (ha : (fitness a).length = p.maximize.length)
    (hb : (fitness b).length = p.maximize.length) : paretoGt p fitness a b = true ↔ Dominates p.maximize (fitness a) (fitness b) := by
  obtain ⟨r, e, h⟩ := (pareto_operators p (fitness a) (fitness b) ha hb).gt_iff
  unfold paretoGt; rw [e]; exact h

theorem paretoGt_iff (p : MOProblem) (fitness : Nat → List Num) (hf : ∀ x, (fitness x).length = p.maximize.length)
    (a b : Nat) : paretoGt p fitness a b = true ↔ Dominates p.maximize (fitness a) (fitness b) := by
  obtain ⟨r, e, h⟩ := (pareto_operators p (fitness a) (fitness b) (hf a) (hf b)).gt_iff
  unfold paretoGt; rw [e]; exact h

theorem paretoGt_strictPartial (p : MOProblem) (fitness : Nat → List Num)
    (hf : ∀ x, (fitness x).length = p.maximize.length) : StrictPartial (paretoGt p fitness) := by
  constructor
  · intro a
    have := (paretoGt_iff p fitness hf a a)
    cases h : paretoGt p fitness a a
    · rfl
    · exact absurd (this.1 h) (dominates_irrefl _ _)
  · intro a b c h1 h2
    rw [paretoGt_iff p fitness hf] at *
    exact dominates_trans _ _ _ _ (hf b) h1 h2

/-- C44, for Pareto dominance: rank 1 is exactly the individuals nobody dominates.
Missing, as above: one object occurring twice. -/
theorem fast_sort_first_front_partial (p : MOProblem) (fitness : Nat → List Num)
    (hf : ∀ x, (fitness x).length = p.maximize.length) (multi : Nat → Bool) (population : List Nat) (st : SortAttrs)
    (hne : population ≠ []) (hm : ∀ x ∈ population, multi x = true) (hn : population.Nodup) (fuel : Nat)
    (hfuel : population.length ≤ fuel) :
    ∃ st', fastNondominatedSort (paretoGt p fitness) multi population none st fuel = .ok (population, some st') ∧
      ∀ x ∈ population, (st'.rank x = 1 ↔ ∀ y ∈ population, ¬ Dominates p.maximize (fitness y) (fitness x)) := by
  obtain ⟨st', h1, h2, -⟩ := fast_sort_ranks_partial (paretoGt p fitness) (paretoGt_strictPartial p fitness hf) multi population none st
    hne hm (by simpa using hn) fuel (by simpa using hfuel)
  simp only [Option.getD_none, List.append_nil] at h1 h2
  refine ⟨st', h1, ?_⟩
  intro x hx
  have hr := h2 x hx
  constructor
  · intro h1 y hy hd
    rw [h1] at hr
    exact hr.2.2 (mem_remaining_succ.2 ⟨hx, y, hy, (paretoGt_iff p fitness hf y x).2 hd⟩)
  · intro hall
    by_contra hne
    have := hr.1
    obtain ⟨y, hy, hyx, -⟩ := hasRank_pred hr (by omega)
    exact hall y hy ((paretoGt_iff p fitness hf y x).1 hyx)

/-- A chain 0 > 1 > 2 and an incomparable 3. -/
def exGt (a b : Nat) : Bool := (a, b) ∈ [(0, 1), (0, 2), (1, 2)]

/-- No attributes set yet. -/
def noAttrs : SortAttrs := ⟨fun _ => [], fun _ => 0, fun _ => 0⟩

example : StrictPartial exGt := by
  constructor
  · intro a; simp [exGt]; omega
  · intro a b c; simp [exGt]; omega

example : ((fastNondominatedSort exGt (fun _ => true) [2, 3, 1] (some [0]) noAttrs 4).toOption.bind
    fun r => r.2.map fun st => (r.1, [0, 1, 2, 3].map st.rank)) = some ([2, 3, 1, 0], [1, 2, 3, 1]) := by decide

/-- C44 fails if one object occurs twice in the population: an individual dominated by it is never given a rank. -/
theorem fast_sort_duplicate_object_wrong :
    ∃ (gt : Nat → Nat → Bool) (population : List Nat), StrictPartial gt ∧ ∀ fuel, population.length ≤ fuel →
      ∃ st', fastNondominatedSort gt (fun _ => true) population none noAttrs fuel = .ok (population, some st') ∧
        ∃ x ∈ population, st'.rank x = 0 ∧ ¬ HasRank gt population x (st'.rank x) := by
  refine ⟨exGt, [0, 1, 1, 2], ?_, ?_⟩
  · constructor
    · intro a; simp [exGt]; omega
    · intro a b c; simp [exGt]; omega
  · intro fuel hf
    obtain ⟨n, rfl⟩ : ∃ n, fuel = n + 4 := ⟨fuel - 4, by simp at hf; omega⟩
    refine ⟨_, rfl, 2, by simp, by decide, ?_⟩
    rintro ⟨h, -⟩
    revert h; decide

end Leap
