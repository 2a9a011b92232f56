import Verif.Lemmas.Enlu
import Verif.Props.Nsga2

/-!
# C48: incremental non-dominated sorting and the steady-state NSGA-II inserter
-/

namespace Leap
open Spec

/-- C48: the start layer is one whose members do not dominate the individual, just below one with a dominating member. -/
theorem find_start_layer (gt : Nat → Nat → Bool) (ind : Nat) (layers : List (List Nat)) :
    findStartLayer gt ind layers ≤ layers.length ∧
    (∀ l, layers[findStartLayer gt ind layers]? = some l → ∀ i ∈ l, gt i ind = false) ∧
    (0 < findStartLayer gt ind layers → ∃ l, layers[findStartLayer gt ind layers - 1]? = some l ∧ ∃ i ∈ l, gt i ind = true) := by
  obtain ⟨h1, h2, h3⟩ := findStartLayer_spec gt ind layers
  refine ⟨h1, h3, fun hp => ?_⟩
  obtain ⟨i, hi, hg⟩ := h2 hp
  have hlt : findStartLayer gt ind layers - 1 < layers.length := by omega
  rw [List.getD_eq_getElem?_getD, List.getElem?_eq_getElem hlt] at hi
  exact ⟨_, List.getElem?_eq_getElem hlt, i, hi, hg⟩

/-- C48: in proper fronts, the start layer is the first one without a dominating member. -/
theorem find_start_layer_first (gt : Nat → Nat → Bool) (hd : StrictPartial gt) (ind : Nat) (layers : List (List Nat))
    (hf : Fronts gt layers) (j : Nat) (l : List Nat) (hj : layers[j]? = some l) :
    (∀ i ∈ l, gt i ind = false) ↔ findStartLayer gt ind layers ≤ j := by
  obtain ⟨h1, h2, h3⟩ := find_start_layer gt ind layers
  have hlt := (List.getElem?_eq_some_iff.1 hj).1
  constructor
  · intro h
    by_contra hc
    obtain ⟨l', hl', i, hi, hg⟩ := h3 (by omega)
    rcases Nat.lt_or_eq_of_le (by omega : j ≤ findStartLayer gt ind layers - 1) with hlt' | he
    · obtain ⟨z, hz, hzi⟩ := fronts_up hd hf hlt' hj hl' i hi
      have := h z hz
      rw [hd.trans _ _ _ hzi hg] at this
      exact Bool.noConfusion this
    · rw [← he, hj] at hl'
      simp only [Option.some.injEq] at hl'
      subst hl'
      rw [h i hi] at hg
      exact Bool.noConfusion hg
  · intro h i hi
    rcases Nat.lt_or_eq_of_le h with hlt' | he
    · cases hg : gt i ind
      · rfl
      · have hs : layers[findStartLayer gt ind layers]? = some (layers[findStartLayer gt ind layers]'(by omega)) :=
          List.getElem?_eq_getElem _
        obtain ⟨z, hz, hzi⟩ := fronts_up hd hf hlt' hs hj i hi
        have := h2 _ hs z hz
        rw [hd.trans _ _ _ hzi hg] at this
        exact Bool.noConfusion this
    · rw [← he] at hj; exact h2 l hj i hi

/-- The rows that `enlu_inds_rank` works on: all objectives turned into maximisation. -/
def Spec.moRow (ms : List Bool) (fitness : Nat → List ℚ) (x : Nat) : List ℚ := rowOf ms (fitness x)

theorem moRow_length {ms : List Bool} {fitness : Nat → List ℚ} (hf : ∀ x, (fitness x).length = ms.length) (x : Nat) :
    (moRow ms fitness x).length = ms.length := rowOf_length ms _ (hf x)

theorem mo_rowDominance {ms : List Bool} {fitness : Nat → List ℚ} (hf : ∀ x, (fitness x).length = ms.length) :
    RowDominance (moDominates ms fitness) (moRow ms fitness) ms.length := by
  intro a b
  unfold moDominates
  rw [paretoGt_iff ⟨ms⟩ _ (fun x => by simpa using hf x), dominates_rows ms _ _ (hf a) (hf b)]
  rfl

section
variable (ms : List Bool) (fitness : Nat → List ℚ)

/-- Inserting one individual. -/
def Spec.insertOne (x : Nat) (layers : List (List Nat)) (rank : Nat → Nat) : List (List Nat) × Nat × Nat × (Nat → Nat) :=
  enluIndsRank (moDominates ms fitness) (moRow ms fitness) x layers rank

variable {ms fitness}

theorem rankedFrom_append {rank : Nat → Nat} {depth : Nat} {a b : List (List Nat)} :
    RankedFrom rank depth (a ++ b) ↔ RankedFrom rank depth a ∧ RankedFrom rank (depth + a.length) b := by
  induction a generalizing depth with
  | nil => simp [RankedFrom]
  | cons l a ih =>
    simp only [List.cons_append, RankedFrom, ih, List.length_cons, and_assoc]
    have e : depth + 1 + a.length = depth + (a.length + 1) := by omega
    rw [e]

/-- C48, any number of objectives: inserting an individual loses and duplicates nobody, leaves no layer empty, everybody's
rank is the number of their layer, and all layers outside the returned range are as they were. -/
theorem enlu_conserves (hf : ∀ x, (fitness x).length = ms.length) (x : Nat) (layers : List (List Nat)) (rank : Nat → Nat)
    (hne : ∀ l ∈ layers, l ≠ []) (hn : (x :: layers.flatten).Nodup)
    (hr : ∀ (i : Nat) (l : List Nat), layers[i]? = some l → ∀ y ∈ l, rank y = i + 1) :
    let r := insertOne ms fitness x layers rank
    r.1.flatten.Perm (x :: layers.flatten) ∧ (∀ l ∈ r.1, l ≠ []) ∧
    (∀ (i : Nat) (l : List Nat), r.1[i]? = some l → ∀ y ∈ l, r.2.2.2 y = i + 1) ∧
    (∀ y, y ∉ x :: layers.flatten → r.2.2.2 y = rank y) ∧
    r.2.1 ≤ r.2.2.1 ∧ r.2.2.1 ≤ r.1.length ∧ r.1.take r.2.1 = layers.take r.2.1 ∧
    (∀ l ∈ r.1.drop r.2.2.1, l ∈ layers) := by
  set gt := moDominates ms fitness
  set s := findStartLayer gt x layers with hs
  have hsl : s ≤ layers.length := (findStartLayer_spec gt x layers).1
  have hsplit : layers.take s ++ layers.drop s = layers := List.take_append_drop _ _
  have hflat : layers.flatten = (layers.take s).flatten ++ (layers.drop s).flatten := by
    rw [← List.flatten_append, hsplit]
  have hranked : RankedFrom rank 0 layers := rankedFrom_of_getElem (by simpa using hr)
  have hranked' : RankedFrom rank 0 (layers.take s) ∧ RankedFrom rank (0 + (layers.take s).length) (layers.drop s) :=
    rankedFrom_append.1 (by rw [hsplit]; exact hranked)
  have hlen : (layers.take s).length = s := by simp [hsl]
  rw [hlen, Nat.zero_add] at hranked'
  have hn2 : ([x] ++ (layers.drop s).flatten).Nodup := by
    rw [hflat] at hn
    rw [List.nodup_cons, List.nodup_append, List.mem_append, not_or] at hn
    simp only [List.singleton_append, List.nodup_cons]
    exact ⟨hn.1.2, hn.2.2.1⟩
  obtain ⟨i1, i2, i3, i4, ch, sm, i5, i6, i7⟩ := enluLoop_conserves (moRow_length hf) (mo_rowDominance hf) (layers.drop s) [x] s rank
    (fun l hl => hne l (List.mem_of_mem_drop hl)) hn2 hranked'.2
  have hr1 : (insertOne ms fitness x layers rank) =
      (layers.take s ++ (enluLoop gt (moRow ms fitness) [x] s (layers.drop s) rank).1, s,
        (enluLoop gt (moRow ms fitness) [x] s (layers.drop s) rank).2.1,
        (enluLoop gt (moRow ms fitness) [x] s (layers.drop s) rank).2.2) := rfl
  rw [hr1]
  simp only
  set out := enluLoop gt (moRow ms fitness) [x] s (layers.drop s) rank
  have hperm : (layers.take s ++ out.1).flatten.Perm (x :: layers.flatten) := by
    rw [List.flatten_append, hflat]
    calc ((layers.take s).flatten ++ out.1.flatten).Perm ((layers.take s).flatten ++ ([x] ++ (layers.drop s).flatten)) :=
          List.Perm.append_left _ i1
      _ |>.Perm _ := by
          simp only [List.singleton_append]
          exact List.perm_middle
  refine ⟨hperm, ?_, ?_, ?_, by omega, ?_, ?_, ?_⟩
  · intro l hl
    rcases List.mem_append.1 hl with hl | hl
    · exact hne l (List.mem_of_mem_take hl)
    · exact i2 l hl
  · have : RankedFrom out.2.2 0 (layers.take s ++ out.1) := by
      rw [rankedFrom_append, hlen, Nat.zero_add]
      refine ⟨hranked'.1.congr fun y hy => i4 y ?_, i3⟩
      intro hy'
      have hnd := hperm.nodup_iff.2 hn
      rw [List.flatten_append, List.nodup_append] at hnd
      exact hnd.2.2 y hy y (i1.mem_iff.2 hy') rfl
    intro i l hi y hy
    have := this.getElem i l hi y hy
    omega
  · intro y hy
    apply i4
    intro hy'
    apply hy
    rw [hflat]
    rcases List.mem_append.1 hy' with h | h
    · rw [List.mem_singleton] at h; subst h; simp
    · simp [h]
  · rw [List.length_append, hlen, i5, List.length_append]; omega
  · rw [List.take_append_of_le_length (by omega), List.take_of_length_le (by omega)]
  · intro l hl
    rw [i5, ← List.append_assoc, List.drop_append_of_le_length (by simp [hsl]; omega),
      List.drop_of_length_le (by simp [hsl]; omega)] at hl
    exact List.mem_of_mem_drop (i7 l (by simpa using hl))

/-- C48, partial: with at most two objectives, inserting an individual into the successive fronts of a population gives
the successive fronts of the enlarged population. Missing: three and more objectives, for which this is false
(`enlu_three_objectives_wrong`). -/
theorem enlu_two_objectives_partial (hf : ∀ x, (fitness x).length = ms.length) (h2 : ms.length ≤ 2) (x : Nat)
    (layers : List (List Nat)) (rank : Nat → Nat) (hfr : Fronts (moDominates ms fitness) layers) :
    Fronts (moDominates ms fitness) (insertOne ms fitness x layers rank).1 := by
  have hg := mo_rowDominance hf
  have hd := hg.strictPartial
  set gt := moDominates ms fitness
  set s := findStartLayer gt x layers with hs
  obtain ⟨hs1, hs2, hs3⟩ := find_start_layer gt x layers
  rw [← hs] at hs1 hs2 hs3
  have hlen : (layers.take s).length = s := by simp [hs1]
  have hdrop : Fronts gt (layers.drop s) :=
    ⟨fun l hl => hfr.nonempty l (List.mem_of_mem_drop hl), fun l hl => hfr.within l (List.mem_of_mem_drop hl),
      fun i a b ha hb => hfr.below (s + i) a b (by simpa using ha) (by simpa [Nat.add_assoc] using hb)⟩
  obtain ⟨q1, q2⟩ := enluLoop_fronts (moRow_length hf) hg (zenithExact_two h2 hg) (layers.drop s) [x] s rank
    (fun y => ∀ l, 0 < s → layers[s - 1]? = some l → ∃ z ∈ l, gt z y = true) hdrop
    (by intro a ha b hb; rw [List.mem_singleton] at ha hb; subst ha; subst hb; exact hd.irrefl _)
    (by
      intro l hl
      have hl' : layers[s]? = some l := by
        rw [List.head?_eq_getElem?] at hl; simpa using hl
      refine ⟨?_, ?_, ?_⟩
      · intro y hy m hm
        rw [List.mem_singleton] at hm; subst hm
        exact hs2 l hl' y hy
      · rintro y hy ⟨z1, i, hi, m, hm, z2⟩
        rw [List.mem_singleton] at hm; subst hm
        refine ⟨m, List.mem_singleton.2 rfl, (hg m y).2 ⟨fun j hj => ?_, i, hi, z2⟩⟩
        obtain ⟨m', hm', h⟩ := z1 j hj
        rw [List.mem_singleton] at hm'; subst hm'; exact h
      · intro y hy
        left
        intro l0 hp hl0
        exact fronts_up hd hfr (by omega : s - 1 < s) hl0 hl' y hy)
    (by
      intro m hm l hp hl
      rw [List.mem_singleton] at hm; subst hm
      obtain ⟨l', hl', i, hi, hgi⟩ := hs3 hp
      rw [hl'] at hl
      simp only [Option.some.injEq] at hl
      subst hl
      exact ⟨i, hi, hgi⟩)
  have hr1 : (insertOne ms fitness x layers rank).1 =
      layers.take s ++ (enluLoop gt (moRow ms fitness) [x] s (layers.drop s) rank).1 := rfl
  rw [hr1]
  set out := enluLoop gt (moRow ms fitness) [x] s (layers.drop s) rank
  refine ⟨?_, ?_, ?_⟩
  · intro l hl
    rcases List.mem_append.1 hl with hl | hl
    · exact hfr.nonempty l (List.mem_of_mem_take hl)
    · exact q1.nonempty l hl
  · intro l hl
    rcases List.mem_append.1 hl with hl | hl
    · exact hfr.within l (List.mem_of_mem_take hl)
    · exact q1.within l hl
  · intro i a b ha hb
    rcases Nat.lt_trichotomy (i + 1) s with h | h | h
    · rw [List.getElem?_append_left (by omega), List.getElem?_take_of_lt (by omega)] at ha hb
      exact hfr.below i a b ha hb
    · rw [List.getElem?_append_left (by omega), List.getElem?_take_of_lt (by omega)] at ha
      rw [List.getElem?_append_right (by omega)] at hb
      have hb' : out.1.head? = some b := by
        rw [List.head?_eq_getElem?]
        have e : i + 1 - (layers.take s).length = 0 := by omega
        rw [e] at hb; exact hb
      have ha' : layers[s - 1]? = some a := by
        have e : s - 1 = i := by omega
        rw [e]; exact ha
      intro y hy
      exact q2 b hb' y hy a (by omega) ha'
    · rw [List.getElem?_append_right (by omega)] at ha hb
      refine q1.below (i - s) a b ?_ ?_
      · rw [hlen] at ha; exact ha
      · rw [hlen] at hb
        have e : i + 1 - s = i - s + 1 := by omega
        rw [e] at hb; exact hb

/-- C48, in terms of ranks: with at most two objectives, afterwards everybody's rank is their true non-domination rank,
the one a sort from scratch gives. -/
theorem enlu_two_objectives_ranks_partial (hf : ∀ x, (fitness x).length = ms.length) (h2 : ms.length ≤ 2) (x : Nat)
    (layers : List (List Nat)) (rank : Nat → Nat) (hn : (x :: layers.flatten).Nodup)
    (hfr : Fronts (moDominates ms fitness) layers)
    (hr : ∀ (i : Nat) (l : List Nat), layers[i]? = some l → ∀ y ∈ l, rank y = i + 1) :
    let r := insertOne ms fitness x layers rank
    r.1.flatten.Perm (x :: layers.flatten) ∧
    ∀ y ∈ r.1.flatten, HasRank (moDominates ms fitness) r.1.flatten y (r.2.2.2 y) := by
  obtain ⟨c1, _, c3, _⟩ := enlu_conserves hf x layers rank hfr.nonempty hn hr
  refine ⟨c1, fun y hy => ?_⟩
  exact fronts_hasRank (mo_rowDominance hf).strictPartial (enlu_two_objectives_partial hf h2 x layers rank hfr) _ c3 hy

/-- The first layer is the Pareto front: nobody in it is dominated by anybody, everybody else is dominated by somebody in it. -/
def Spec.FirstIsFront (gt : Nat → Nat → Bool) (layers : List (List Nat)) : Prop :=
  ∀ l, layers.head? = some l → (∀ x ∈ l, ∀ y ∈ layers.flatten, gt y x = false) ∧
    ∀ x ∈ layers.tail.flatten, ∃ y ∈ l, gt y x = true

/-- C48, any number of objectives: if the first layer is the Pareto front of the population, it is the Pareto front of
the enlarged population after the insertion, whatever the other layers look like. -/
theorem enlu_first_front (hf : ∀ x, (fitness x).length = ms.length) (x : Nat) (layers : List (List Nat)) (rank : Nat → Nat)
    (hne : ∀ l ∈ layers, l ≠ []) (hn : (x :: layers.flatten).Nodup)
    (hr : ∀ (i : Nat) (l : List Nat), layers[i]? = some l → ∀ y ∈ l, rank y = i + 1)
    (hfirst : FirstIsFront (moDominates ms fitness) layers) :
    FirstIsFront (moDominates ms fitness) (insertOne ms fitness x layers rank).1 := by
  have hg := mo_rowDominance hf
  have hd := hg.strictPartial
  obtain ⟨c1, _⟩ := enlu_conserves hf x layers rank hne hn hr
  have hr1 : insertOne ms fitness x layers rank = enluIndsRank (moDominates ms fitness) (moRow ms fitness) x layers rank := rfl
  set gt := moDominates ms fitness
  obtain ⟨hs1, hs2, hs3⟩ := find_start_layer gt x layers
  cases layers with
  | nil =>
    have h0 : findStartLayer gt x [] = 0 := by simpa using hs1
    rw [hr1, enluIndsRank]
    simp only [h0, List.take_nil, List.drop_nil, List.nil_append]
    rw [enluLoop]
    intro l hl
    simp only [List.head?_cons, Option.some.injEq] at hl
    subst hl
    simp [hd.irrefl]
  | cons L0 rest =>
    obtain ⟨f1, f2⟩ := hfirst L0 rfl
    simp only [List.tail_cons] at f2
    cases hs : findStartLayer gt x (L0 :: rest) with
    | succ s =>
      -- the first layer stays
      rw [hs] at hs3
      obtain ⟨l, hl, i, hi, hgi⟩ := hs3 (by omega)
      have hx0 : ∃ y ∈ L0, gt y x = true := by
        have hil : i ∈ (L0 :: rest).flatten := List.mem_flatten.2 ⟨l, List.mem_of_getElem? hl, hi⟩
        rw [List.flatten_cons, List.mem_append] at hil
        rcases hil with h | h
        · exact ⟨i, h, hgi⟩
        · obtain ⟨y, hy, hyi⟩ := f2 i h
          exact ⟨y, hy, hd.trans _ _ _ hyi hgi⟩
      have hout : (insertOne ms fitness x (L0 :: rest) rank).1 =
          L0 :: (insertOne ms fitness x (L0 :: rest) rank).1.tail := by
        rw [hr1, enluIndsRank]; simp only [hs, List.take_succ_cons, List.cons_append, List.tail_cons]
      intro l' hl'
      rw [hout] at hl' c1 ⊢
      simp only [List.head?_cons, Option.some.injEq] at hl'
      subst hl'
      have c2 : (insertOne ms fitness x (L0 :: rest) rank).1.tail.flatten.Perm (x :: rest.flatten) := by
        rw [List.flatten_cons, List.flatten_cons] at c1
        exact (List.perm_append_left_iff L0).1 (c1.trans List.perm_middle.symm)
      refine ⟨?_, ?_⟩
      · intro z hz y hy
        rcases List.mem_cons.1 (c1.mem_iff.1 hy) with rfl | hy
        · obtain ⟨w, hw, hwy⟩ := hx0
          cases hyz : gt y z
          · rfl
          · have := f1 z hz w (by rw [List.flatten_cons]; exact List.mem_append_left _ hw)
            rw [hd.trans _ _ _ hwy hyz] at this
            exact Bool.noConfusion this
        · exact f1 z hz y hy
      · intro z hz
        rcases List.mem_cons.1 (c2.mem_iff.1 hz) with rfl | hz
        · exact hx0
        · exact f2 z hz
    | zero =>
      rw [hs] at hs2
      have hx0 : ∀ y ∈ L0, gt y x = false := hs2 L0 rfl
      have hxall : ∀ y ∈ (L0 :: rest).flatten, gt y x = false := by
        intro y hy
        rw [List.flatten_cons, List.mem_append] at hy
        rcases hy with hy | hy
        · exact hx0 y hy
        · obtain ⟨w, hw, hwy⟩ := f2 y hy
          cases hyx : gt y x
          · rfl
          · have := hx0 w hw
            rw [hd.trans _ _ _ hwy hyx] at this
            exact Bool.noConfusion this
      have hout : (insertOne ms fitness x (L0 :: rest) rank).1 =
          (enluLoop gt (moRow ms fitness) [x] 0 (L0 :: rest) rank).1 := by
        rw [hr1, enluIndsRank]; simp only [hs, List.take_zero, List.drop_zero, List.nil_append]
      have hza : ∀ y, ZenithAbove (moRow ms fitness) ms.length [x] y → gt x y = true := by
        rintro y ⟨z1, i, hi, m, hm, z2⟩
        rw [List.mem_singleton] at hm; subst hm
        refine (hg m y).2 ⟨fun j hj => ?_, i, hi, z2⟩
        obtain ⟨m', hm', h⟩ := z1 j hj
        rw [List.mem_singleton] at hm'; subst hm'; exact h
      rcases enluLoop_step (moRow_length hf) hg [x] (by simp) 0 L0 rest rank with ⟨hall, he⟩ | ⟨newLayer, hmem, hperm, _, he⟩
      · rw [hout, he]
        intro l hl
        simp only [List.head?_cons, Option.some.injEq] at hl
        subst hl
        refine ⟨?_, ?_⟩
        · intro z hz y hy
          rw [List.mem_singleton] at hz; subst hz
          simp only [List.flatten_cons, List.mem_append, List.mem_singleton] at hy
          rcases hy with rfl | hy | hy
          · exact hd.irrefl _
          · exact hx0 y hy
          · exact hxall y (by rw [List.flatten_cons]; exact List.mem_append_right _ hy)
        · intro z hz
          simp only [List.tail_cons, List.flatten_cons, List.mem_append] at hz
          rcases hz with hz | hz
          · exact ⟨x, List.mem_singleton.2 rfl, hza z (hall z hz)⟩
          · obtain ⟨w, hw, hwz⟩ := f2 z hz
            exact ⟨x, List.mem_singleton.2 rfl, hd.trans _ _ _ (hza w (hall w hw)) hwz⟩
      · rw [hout] at c1 ⊢
        rw [he] at c1 ⊢
        intro l hl
        simp only [List.head?_cons, Option.some.injEq] at hl
        subst hl
        have hxn : x ∈ newLayer := (hmem x).2 (Or.inl (List.mem_singleton.2 rfl))
        refine ⟨?_, ?_⟩
        · intro z hz y hy
          have hy' := c1.mem_iff.1 hy
          rcases (hmem z).1 hz with h | ⟨hz0, hzx⟩
          · rw [List.mem_singleton] at h; subst h
            rcases List.mem_cons.1 hy' with rfl | hy'
            · exact hd.irrefl _
            · exact hxall y hy'
          · rcases List.mem_cons.1 hy' with rfl | hy'
            · exact hzx _ (List.mem_singleton.2 rfl)
            · exact f1 z hz0 y hy'
        · intro z hz
          have hzall : z ∈ x :: (L0 :: rest).flatten := c1.mem_iff.1 (by
            simp only [List.flatten_cons, List.mem_append, List.tail_cons] at hz ⊢
            exact Or.inr hz)
          have hnd := c1.nodup_iff.2 hn
          simp only [List.flatten_cons, List.tail_cons] at hnd hz
          have hznew : z ∉ newLayer := fun h => (List.nodup_append.1 hnd).2.2 z h z hz rfl
          have hkey : ∀ w ∈ L0, w ∉ newLayer → gt x w = true := by
            intro w hw hwn
            cases hxw : gt x w
            · exact absurd ((hmem w).2 (Or.inr ⟨hw, fun m hm => by rw [List.mem_singleton] at hm; subst hm; exact hxw⟩)) hwn
            · rfl
          rcases List.mem_cons.1 hzall with rfl | hz'
          · exact absurd hxn hznew
          · rw [List.flatten_cons, List.mem_append] at hz'
            rcases hz' with hz' | hz'
            · exact ⟨x, hxn, hkey z hz' hznew⟩
            · obtain ⟨w, hw, hwz⟩ := f2 z hz'
              by_cases hwn : w ∈ newLayer
              · exact ⟨w, hwn, hwz⟩
              · exact ⟨x, hxn, hd.trans _ _ _ (hkey w hw hwn) hwz⟩

/-- Three objectives, all maximised: 0, 1 and 2 do not dominate each other, 3 is dominated by 2 only, 4 dominates 0 and 1. -/
def exEnlu : Nat → List ℚ := fun x => [[3, 0, 2], [0, 3, 2], [2, 2, 6], [2, 2, 2], [5, 5, 5]].getD x [0, 0, 0]

/-- C48 is false from three objectives on: inserting 4 into the fronts `[0, 1, 2]`, `[3]` gives 3 the rank 3 although its
true rank is 2. -/
theorem enlu_three_objectives_wrong :
    (insertOne [true, true, true] exEnlu 4 [[0, 1, 2], [3]] (fun x => if x = 3 then 2 else 1)).1 = [[2, 4], [0, 1], [3]] ∧
    (insertOne [true, true, true] exEnlu 4 [[0, 1, 2], [3]] (fun x => if x = 3 then 2 else 1)).2.2.2 3 = 3 ∧
    HasRank (moDominates [true, true, true] exEnlu) [0, 1, 2, 3, 4] 3 2 := by
  refine ⟨by decide +kernel, by decide +kernel, ?_⟩
  unfold HasRank
  decide +kernel

example : Fronts (moDominates [true, true, true] exEnlu) [[0, 1, 2], [3]] := by
  refine ⟨by decide, by decide +kernel, ?_⟩
  intro i l l' h1 h2
  match i with
  | 0 => simp at h1 h2; subst h1; subst h2; decide +kernel
  | i + 1 => simp at h2

/-- Two objectives: one insertion pushing a member of each layer down. -/
example : (insertOne [true, true] (fun x => [[3, 1], [1, 3], [2, 0], [0, 2], [4, 2]].getD x [0, 0]) 4 [[0, 1], [2, 3]]
    (fun x => if x < 2 then 1 else 2)).1 = [[1, 4], [3, 0], [2]] := by decide +kernel

end

end Leap
