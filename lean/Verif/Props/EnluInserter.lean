import Verif.Props.Enlu

/-!
# C48, C66: the steady-state NSGA-II inserter over its whole history
-/

namespace Leap
open Spec

/-- What holds of an inserter at all times: no empty layers, nobody twice, ranks are layer numbers, distances are the
crowding distances within the layers, the first layer is the Pareto front, and with at most two objectives all layers are
the successive fronts. -/
structure Spec.EnluGood (ms : List Bool) (fitness : Nat → List ℚ) (st : EnluState) : Prop where
  nonempty : ∀ l ∈ st.layers, l ≠ []
  nodup : st.layers.flatten.Nodup
  ranked : ∀ (i : Nat) (l : List Nat), st.layers[i]? = some l → ∀ y ∈ l, st.rank y = i + 1
  crowded : ∀ l ∈ st.layers, Crowding fitness ms l st.distance
  front : FirstIsFront (moDominates ms fitness) st.layers
  fronts : ms.length ≤ 2 → Fronts (moDominates ms fitness) st.layers

/-- A call of the inserter in terms of the individuals' objective vectors. -/
def Spec.insertInd (ms : List Bool) (fitness : Nat → List ℚ) (popSize : Nat) (x : Nat) (st : EnluState) : PyM (EnluState × List Nat) :=
  enluInsert (moDominates ms fitness) (moRow ms fitness) fitness ms popSize x st

variable {ms : List Bool} {fitness : Nat → List ℚ}

theorem crowdLayers_spec (lps : List (List Nat)) (hne : ∀ l ∈ lps, l ≠ []) (hn : lps.flatten.Nodup) (d : Nat → WithTop ℚ) :
    ∃ d', crowdLayers fitness ms lps d = .ok d' ∧ (∀ l ∈ lps, Crowding fitness ms l d') ∧ ∀ x, x ∉ lps.flatten → d' x = d x := by
  induction lps generalizing d with
  | nil => exact ⟨d, rfl, by simp, by simp⟩
  | cons l lps ih =>
    rw [List.flatten_cons, List.nodup_append] at hn
    obtain ⟨res, d1, e1, c1, o1, _⟩ := per_rank_crowding fitness ms l (hne l (List.mem_cons_self ..)) hn.1 d
    obtain ⟨d2, e2, c2, o2⟩ := ih (fun l hl => hne l (List.mem_cons_of_mem _ hl)) hn.2.1 d1
    refine ⟨d2, ?_, ?_, ?_⟩
    · unfold crowdLayers
      rw [if_neg (hne l (List.mem_cons_self ..)), e1]
      simp only [bind, Except.bind]
      exact e2
    · intro l' hl'
      rcases List.mem_cons.1 hl' with rfl | hl'
      · exact crowding_congr c1 fun x hx => o2 x fun h => hn.2.2 x hx x h rfl
      · exact c2 l' hl'
    · intro x hx
      rw [List.flatten_cons, List.mem_append, not_or] at hx
      rw [o2 x hx.2, o1 x hx.1]

theorem distLt_strictPartial (d : Nat → WithTop ℚ) : StrictPartial fun i j => distLt (d i) (d j) := by
  constructor
  · intro a; simp [distLt_eq]
  · intro a b c h1 h2
    rw [distLt_eq, decide_eq_true_eq] at *
    exact lt_trans h1 h2

theorem firstIsFront_shrink {gt : Nat → Nat → Bool} {pre : List (List Nat)} {last last' : List Nat}
    (h : FirstIsFront gt (pre ++ [last])) (hs : ∀ x ∈ last', x ∈ last) :
    FirstIsFront gt (pre ++ [last']) ∧ FirstIsFront gt pre := by
  cases pre with
  | nil =>
    obtain ⟨h1, _⟩ := h last rfl
    refine ⟨?_, by intro l hl; simp at hl⟩
    intro l hl
    simp only [List.nil_append, List.head?_cons, Option.some.injEq] at hl
    subst hl
    refine ⟨fun x hx y hy => h1 x (hs x hx) y ?_, by simp⟩
    simpa using hs y (by simpa using hy)
  | cons l0 pre =>
    obtain ⟨h1, h2⟩ := h l0 rfl
    simp only [List.cons_append, List.flatten_cons, List.flatten_append, List.flatten_nil, List.append_nil,
      List.mem_append, List.tail_cons] at h1 h2
    constructor
    · intro l hl
      simp only [List.cons_append, List.head?_cons, Option.some.injEq] at hl
      subst hl
      simp only [List.cons_append, List.flatten_cons, List.flatten_append, List.flatten_nil, List.append_nil,
        List.mem_append, List.tail_cons]
      refine ⟨fun x hx y hy => h1 x hx y ?_, fun x hx => h2 x ?_⟩
      · rcases hy with hy | hy | hy
        · exact Or.inl hy
        · exact Or.inr (Or.inl hy)
        · exact Or.inr (Or.inr (hs y hy))
      · rcases hx with hx | hx
        · exact Or.inl hx
        · exact Or.inr (hs x hx)
    · intro l hl
      simp only [List.head?_cons, Option.some.injEq] at hl
      subst hl
      simp only [List.flatten_cons, List.mem_append, List.tail_cons]
      refine ⟨fun x hx y hy => h1 x hx y ?_, fun x hx => h2 x (Or.inl hx)⟩
      rcases hy with hy | hy
      · exact Or.inl hy
      · exact Or.inr (Or.inl hy)

theorem fronts_shrink {gt : Nat → Nat → Bool} {pre : List (List Nat)} {last last' : List Nat}
    (h : Fronts gt (pre ++ [last])) (hs : ∀ x ∈ last', x ∈ last) (hne : last' ≠ []) :
    Fronts gt (pre ++ [last']) := by
  refine ⟨?_, ?_, ?_⟩
  · intro l hl
    rcases List.mem_append.1 hl with hl | hl
    · exact h.nonempty l (List.mem_append_left _ hl)
    · rw [List.mem_singleton] at hl; subst hl; exact hne
  · intro l hl
    rcases List.mem_append.1 hl with hl | hl
    · exact h.within l (List.mem_append_left _ hl)
    · rw [List.mem_singleton] at hl; subst hl
      exact fun x hx y hy => h.within last (by simp) x (hs x hx) y (hs y hy)
  · intro i a b ha hb
    have hi : i < pre.length := by
      have := (List.getElem?_eq_some_iff.1 hb).1
      simp at this; omega
    rw [List.getElem?_append_left hi] at ha
    have ha' : (pre ++ [last])[i]? = some a := by rw [List.getElem?_append_left hi]; exact ha
    rcases Nat.lt_or_eq_of_le (by omega : i + 1 ≤ pre.length) with hi2 | hi2
    · rw [List.getElem?_append_left hi2] at hb
      exact h.below i a b ha' (by rw [List.getElem?_append_left hi2]; exact hb)
    · rw [List.getElem?_append_right (by omega)] at hb
      have e : i + 1 - pre.length = 0 := by omega
      rw [e] at hb
      simp only [List.getElem?_cons_zero, Option.some.injEq] at hb
      subst hb
      intro x hx
      exact h.below i a last ha' (by rw [List.getElem?_append_right (by omega), e]; rfl) x (hs x hx)

theorem fronts_prefix {gt : Nat → Nat → Bool} {pre post : List (List Nat)} (h : Fronts gt (pre ++ post)) : Fronts gt pre := by
  refine ⟨fun l hl => h.nonempty l (List.mem_append_left _ hl), fun l hl => h.within l (List.mem_append_left _ hl), ?_⟩
  intro i a b ha hb
  have h1 := (List.getElem?_eq_some_iff.1 ha).1
  have h2 := (List.getElem?_eq_some_iff.1 hb).1
  exact h.below i a b (by rw [List.getElem?_append_left h1]; exact ha) (by rw [List.getElem?_append_left h2]; exact hb)

theorem eraseIdx_perm (l : List Nat) (i : Nat) (h : i < l.length) : (l.getD i 0 :: l.eraseIdx i).Perm l := by
  induction l generalizing i with
  | nil => simp at h
  | cons a l ih =>
    cases i with
    | zero => simp
    | succ i =>
      have := ih i (by simpa using h)
      simp only [List.getD_cons_succ, List.eraseIdx_cons_succ]
      exact (List.Perm.swap _ _ _).trans (this.cons a)

/-- Dropping removes one member of the last layer, one with the least crowding distance there, and keeps everything that
holds of an inserter. -/
theorem drop_most_crowded (st : EnluState) (hg : EnluGood ms fitness st) (hne : st.layers ≠ []) :
    ∃ st' last victim, st.layers.getLast? = some last ∧ victim ∈ last ∧
      (∀ y ∈ last, st.distance victim ≤ st.distance y) ∧
      dropMostCrowded fitness ms st = .ok st' ∧ EnluGood ms fitness st' ∧
      (victim :: st'.layers.flatten).Perm st.layers.flatten := by
  obtain ⟨pre, last, hlay⟩ : ∃ pre last, st.layers = pre ++ [last] := ⟨_, _, (List.dropLast_append_getLast hne).symm⟩
  have hlast : st.layers.getLast? = some last := by rw [hlay]; simp
  have hln : last ≠ [] := hg.nonempty last (by rw [hlay]; simp)
  set lt := fun i j => distLt (st.distance (last.getD i 0)) (st.distance (last.getD j 0)) with hlt
  obtain ⟨idx, hidx, hidxlt, hmin⟩ : ∃ idx, pyMin lt (List.range last.length) = .ok idx ∧ idx < last.length ∧
      ∀ j < last.length, lt j idx = false := by
    have hl0 : 0 < last.length := List.length_pos_iff.2 hln
    obtain ⟨n, hn⟩ : ∃ n, last.length = n + 1 := ⟨last.length - 1, by omega⟩
    rw [hn, List.range_succ_eq_map]
    have hsp : StrictPartial lt := by
      have := distLt_strictPartial fun i => st.distance (last.getD i 0)
      exact this
    refine ⟨_, rfl, ?_, ?_⟩
    · have := pyMinFrom_mem lt 0 ((List.range n).map Nat.succ)
      rw [← List.range_succ_eq_map] at this
      simpa using this
    · intro j hj
      have := pyMinFrom_spec hsp 0 ((List.range n).map Nat.succ) j (by
        rw [← List.range_succ_eq_map]; simpa using hj)
      exact this
  set victim := last.getD idx 0 with hv
  have hperm := eraseIdx_perm last idx hidxlt
  have hvmem : victim ∈ last := hperm.mem_iff.1 (List.mem_cons_self ..)
  have hsub : ∀ x ∈ last.eraseIdx idx, x ∈ last := fun x hx => hperm.mem_iff.1 (List.mem_cons_of_mem _ hx)
  have hvmin : ∀ y ∈ last, st.distance victim ≤ st.distance y := by
    intro y hy
    obtain ⟨j, hj, rfl⟩ := List.getElem_of_mem hy
    have := hmin j hj
    rw [hlt] at this
    simp only [distLt_eq, decide_eq_false_iff_not, not_lt] at this
    rw [getD_of_lt hj] at this
    exact this
  have hflat : st.layers.flatten = pre.flatten ++ last := by rw [hlay]; simp
  have hnd := hg.nodup
  rw [hflat, List.nodup_append] at hnd
  have hstep : dropMostCrowded fitness ms st = (if last.eraseIdx idx = [] then .ok { st with layers := st.layers.dropLast }
      else (perRankCrowding fitness ms (last.eraseIdx idx) st.distance).bind fun r =>
        .ok { st with layers := st.layers.dropLast ++ [last.eraseIdx idx], distance := r.2 }) := by
    unfold dropMostCrowded
    rw [hlast]
    simp only
    rw [hidx]
    rfl
  have hdl : st.layers.dropLast = pre := by rw [hlay]; simp
  rw [hdl] at hstep
  have hrank := hg.ranked
  rw [hlay] at hrank
  by_cases he : last.eraseIdx idx = []
  · rw [if_pos he] at hstep
    refine ⟨_, last, victim, hlast, hvmem, hvmin, hstep, ?_, ?_⟩
    · refine ⟨fun l hl => hg.nonempty l (by rw [hlay]; exact List.mem_append_left _ hl), hnd.1, ?_,
        fun l hl => hg.crowded l (by rw [hlay]; exact List.mem_append_left _ hl), ?_, ?_⟩
      · intro i l hi y hy
        have h1 := (List.getElem?_eq_some_iff.1 hi).1
        exact hrank i l (by rw [List.getElem?_append_left h1]; exact hi) y hy
      · have := hg.front; rw [hlay] at this
        exact (firstIsFront_shrink this (fun x hx => hx)).2
      · intro h2
        have := hg.fronts h2; rw [hlay] at this
        exact fronts_prefix this
    · simp only
      rw [hflat]
      rw [he] at hperm
      have : (victim :: pre.flatten).Perm (pre.flatten ++ [victim]) := by
        simpa using (List.perm_append_comm : ([victim] ++ pre.flatten).Perm _)
      exact this.trans (List.Perm.append_left _ hperm)
  · rw [if_neg he] at hstep
    have hnd' : (last.eraseIdx idx).Nodup := by
      have := hperm.nodup_iff.2 hnd.2.1
      exact (List.nodup_cons.1 this).2
    obtain ⟨res, d', e1, c1, o1, _⟩ := per_rank_crowding fitness ms (last.eraseIdx idx) he hnd' st.distance
    rw [e1] at hstep
    refine ⟨_, last, victim, hlast, hvmem, hvmin, hstep, ?_, ?_⟩
    · refine ⟨?_, ?_, ?_, ?_, ?_, ?_⟩
      · intro l hl
        rcases List.mem_append.1 hl with hl | hl
        · exact hg.nonempty l (by rw [hlay]; exact List.mem_append_left _ hl)
        · rw [List.mem_singleton] at hl; subst hl; exact he
      · simp only [List.flatten_append, List.flatten_cons, List.flatten_nil, List.append_nil]
        rw [List.nodup_append]
        exact ⟨hnd.1, hnd', fun a ha b hb => hnd.2.2 a ha b (hsub b hb)⟩
      · intro i l hi y hy
        have h1 := (List.getElem?_eq_some_iff.1 hi).1
        simp only [List.length_append, List.length_singleton] at h1
        rcases Nat.lt_or_eq_of_le (by omega : i ≤ pre.length) with h | h
        · simp only at hi
          rw [List.getElem?_append_left h] at hi
          exact hrank i l (by rw [List.getElem?_append_left h]; exact hi) y hy
        · subst h
          simp only [List.getElem?_append_right (le_refl _), Nat.sub_self, List.getElem?_cons_zero, Option.some.injEq] at hi
          subst hi
          exact hrank pre.length last (by simp) y (hsub y hy)
      · intro l hl
        rcases List.mem_append.1 hl with hl | hl
        · refine crowding_congr (hg.crowded l (by rw [hlay]; exact List.mem_append_left _ hl)) fun x hx => o1 x fun hx' => ?_
          exact hnd.2.2 x (List.mem_flatten.2 ⟨l, hl, hx⟩) x (hsub x hx') rfl
        · rw [List.mem_singleton] at hl; subst hl; exact c1
      · have := hg.front; rw [hlay] at this
        exact (firstIsFront_shrink this hsub).1
      · intro h2
        have := hg.fronts h2; rw [hlay] at this
        exact fronts_shrink this hsub he
    · simp only [List.flatten_append, List.flatten_cons, List.flatten_nil, List.append_nil]
      rw [hflat]
      refine (List.perm_middle (l₁ := pre.flatten)).symm.trans ?_
      exact List.Perm.append_left _ hperm

/-- C66: one call of the inserter. Everything that holds of an inserter still holds. `flat_pop` becomes the members of all
layers. If there is room, everybody stays; otherwise exactly one individual leaves: one with the least crowding distance in
the last layer. -/
theorem enlu_insert_step (hf : ∀ x, (fitness x).length = ms.length) (popSize x : Nat) (st : EnluState)
    (hg : EnluGood ms fitness st) (hx : x ∉ st.layers.flatten) :
    ∃ st', insertInd ms fitness popSize x st = .ok (st', st'.layers.flatten) ∧ EnluGood ms fitness st' ∧
      (st.layers.flatten.length < popSize → st'.layers.flatten.Perm (x :: st.layers.flatten)) ∧
      (popSize ≤ st.layers.flatten.length → ∃ (mid : EnluState) (last : List Nat) (victim : Nat),
        EnluGood ms fitness mid ∧ mid.layers.flatten.Perm (x :: st.layers.flatten) ∧
        mid.layers.getLast? = some last ∧ victim ∈ last ∧ (∀ y ∈ last, mid.distance victim ≤ mid.distance y) ∧
        (victim :: st'.layers.flatten).Perm (x :: st.layers.flatten)) := by
  have hn : (x :: st.layers.flatten).Nodup := List.nodup_cons.2 ⟨hx, hg.nodup⟩
  obtain ⟨c1, c2, c3, c4, c5, c6, c7, c8⟩ := enlu_conserves hf x st.layers st.rank hg.nonempty hn hg.ranked
  have hfront := enlu_first_front hf x st.layers st.rank hg.nonempty hn hg.ranked hg.front
  have hfronts := fun h2 => enlu_two_objectives_partial hf h2 x st.layers st.rank (hg.fronts h2)
  have hins : enluIndsRank (moDominates ms fitness) (moRow ms fitness) x st.layers st.rank = insertOne ms fitness x st.layers st.rank := rfl
  set r := insertOne ms fitness x st.layers st.rank with hr
  obtain ⟨layers, start, stop, rank⟩ := r
  simp only at c1 c2 c3 c4 c5 c6 c7 c8 hfront hfronts
  have hnd := c1.nodup_iff.2 hn
  set changed := (layers.take stop).drop start with hch
  have hdecomp : layers = layers.take start ++ (changed ++ layers.drop stop) := by
    rw [← List.append_assoc]
    have h1 : layers.take start = (layers.take stop).take start := by rw [List.take_take, Nat.min_eq_left c5]
    rw [h1, hch, List.take_append_drop, List.take_append_drop]
  have hmemch : ∀ l ∈ changed, l ∈ layers := fun l hl => List.mem_of_mem_take (List.mem_of_mem_drop hl)
  have hndd := hnd
  rw [hdecomp, List.flatten_append, List.flatten_append, List.nodup_append, List.nodup_append] at hndd
  obtain ⟨d', e1, k1, k2⟩ := crowdLayers_spec (fitness := fitness) (ms := ms) changed (fun l hl => c2 l (hmemch l hl)) hndd.2.1.1 st.distance
  have hmid : EnluGood ms fitness ⟨layers, rank, d'⟩ := by
    refine ⟨c2, hnd, c3, ?_, hfront, hfronts⟩
    intro l hl
    have hl' := hl
    simp only at hl
    rw [hdecomp, List.mem_append, List.mem_append] at hl
    rcases hl with hl | hl | hl
    · have hlo : l ∈ st.layers := List.mem_of_mem_take (c7 ▸ hl)
      refine crowding_congr (hg.crowded l hlo) fun y hy => k2 y fun hy' => ?_
      exact hndd.2.2 y (List.mem_flatten.2 ⟨l, hl, hy⟩) y (List.mem_append_left _ hy') rfl
    · exact k1 l hl
    · refine crowding_congr (hg.crowded l (c8 l hl)) fun y hy => k2 y fun hy' => ?_
      exact hndd.2.1.2.2 y hy' y (List.mem_flatten.2 ⟨l, hl, hy⟩) rfl
  have hstep : insertInd ms fitness popSize x st =
      ((if popSize < (layers.map List.length).sum then dropMostCrowded fitness ms ⟨layers, rank, d'⟩ else .ok ⟨layers, rank, d'⟩).bind
        fun st => .ok (st, st.layers.flatten)) := by
    unfold insertInd enluInsert
    rw [hins]
    simp only
    rw [← hch, e1]
    simp only [bind, Except.bind]
    split <;> rfl
  have hsum : (layers.map List.length).sum = st.layers.flatten.length + 1 := by
    rw [← List.length_flatten, c1.length_eq, List.length_cons]
  rw [hsum] at hstep
  by_cases hroom : popSize < st.layers.flatten.length + 1
  · rw [if_pos hroom] at hstep
    have hlne : layers ≠ [] := by
      intro h
      rw [h] at c1
      have := c1.length_eq
      simp at this
    obtain ⟨st', last, victim, d1, d2, d3, d4, d5, d6⟩ := drop_most_crowded ⟨layers, rank, d'⟩ hmid hlne
    rw [d4] at hstep
    refine ⟨st', hstep, d5, fun h => by omega, fun _ => ⟨⟨layers, rank, d'⟩, last, victim, hmid, c1, d1, d2, d3, ?_⟩⟩
    exact d6.trans c1
  · rw [if_neg hroom] at hstep
    exact ⟨_, hstep, hmid, fun _ => c1, fun h => by omega⟩

/-- C66: an inserter starting empty, after any sequence of different individuals: it never fails, holds as many
individuals as fit, all of them inserted, nobody twice. Rank 1 is exactly the Pareto front of what it holds, for any number of
objectives; with at most two objectives all ranks are the true non-domination ranks. -/
theorem enlu_history (hf : ∀ x, (fitness x).length = ms.length) (popSize : Nat) (inds : List Nat) (hn : inds.Nodup)
    (rank0 : Nat → Nat) (d0 : Nat → WithTop ℚ) :
    ∃ st, enluInsertAll (moDominates ms fitness) (moRow ms fitness) fitness ms popSize inds ⟨[], rank0, d0⟩ = .ok st ∧
      st.layers.flatten.length = min popSize inds.length ∧ st.layers.flatten.Nodup ∧
      (∀ x ∈ st.layers.flatten, x ∈ inds) ∧
      (∀ x ∈ st.layers.flatten, st.rank x = 1 ↔ ∀ y ∈ st.layers.flatten, moDominates ms fitness y x = false) ∧
      (∀ l ∈ st.layers, Crowding fitness ms l st.distance) ∧
      (ms.length ≤ 2 → ∀ x ∈ st.layers.flatten, HasRank (moDominates ms fitness) st.layers.flatten x (st.rank x)) := by
  have key : ∀ (inds : List Nat), inds.Nodup → ∀ st, EnluGood ms fitness st → (∀ x ∈ inds, x ∉ st.layers.flatten) →
      st.layers.flatten.length ≤ popSize →
      ∃ st', enluInsertAll (moDominates ms fitness) (moRow ms fitness) fitness ms popSize inds st = .ok st' ∧
        EnluGood ms fitness st' ∧ st'.layers.flatten.length = min popSize (st.layers.flatten.length + inds.length) ∧
        ∀ x ∈ st'.layers.flatten, x ∈ st.layers.flatten ∨ x ∈ inds := by
    intro inds
    induction inds with
    | nil =>
      intro _ st hg _ hle
      exact ⟨st, rfl, hg, by simp only [List.length_nil, Nat.add_zero]; omega, fun x hx => Or.inl hx⟩
    | cons a inds ih =>
      intro hn st hg hnot hle
      rw [List.nodup_cons] at hn
      obtain ⟨st1, e1, g1, p1, p2⟩ := enlu_insert_step hf popSize a st hg (hnot a (List.mem_cons_self ..))
      have hsub : (∀ y ∈ st1.layers.flatten, y ∈ a :: st.layers.flatten) ∧
          st1.layers.flatten.length = min popSize (st.layers.flatten.length + 1) := by
        rcases Nat.lt_or_ge st.layers.flatten.length popSize with h | h
        · refine ⟨fun y hy => (p1 h).mem_iff.1 hy, ?_⟩
          rw [(p1 h).length_eq, List.length_cons]; omega
        · obtain ⟨_, _, v, _, _, _, _, _, pv⟩ := p2 h
          refine ⟨fun y hy => pv.mem_iff.1 (List.mem_cons_of_mem _ hy), ?_⟩
          have := pv.length_eq
          simp only [List.length_cons] at this
          omega
      obtain ⟨st2, e2, g2, l2, s2⟩ := ih hn.2 st1 g1 (by
        intro x hx hx'
        rcases List.mem_cons.1 (hsub.1 x hx') with rfl | h
        · exact hn.1 hx
        · exact hnot x (List.mem_cons_of_mem _ hx) h) (by rw [hsub.2]; omega)
      refine ⟨st2, ?_, g2, ?_, ?_⟩
      · unfold enluInsertAll
        have e1' : enluInsert (moDominates ms fitness) (moRow ms fitness) fitness ms popSize a st = .ok (st1, st1.layers.flatten) := e1
        rw [e1']
        simp only [bind, Except.bind]
        exact e2
      · rw [l2, hsub.2, List.length_cons]; omega
      · intro x hx
        rcases s2 x hx with h | h
        · rcases List.mem_cons.1 (hsub.1 x h) with rfl | h
          · exact Or.inr (List.mem_cons_self ..)
          · exact Or.inl h
        · exact Or.inr (List.mem_cons_of_mem _ h)
  obtain ⟨st, e, g, l, s⟩ := key inds hn ⟨[], rank0, d0⟩
    ⟨by simp, by simp, by simp, by simp, by intro l hl; simp at hl, fun _ => fronts_nil _⟩ (by simp) (by simp)
  refine ⟨st, e, by simpa using l, g.nodup, fun x hx => ?_, ?_, g.crowded, ?_⟩
  · rcases s x hx with h | h
    · simp at h
    · exact h
  · intro x hx
    obtain ⟨i, l, hi, hxl⟩ := mem_flatten_getElem hx
    have hxr := g.ranked i l hi x hxl
    constructor
    · intro h1
      have : i = 0 := by omega
      subst this
      exact (g.front l (by rw [List.head?_eq_getElem?]; exact hi)).1 x hxl
    · intro hall
      by_contra hne
      have h0 : 0 < st.layers.length := by have := (List.getElem?_eq_some_iff.1 hi).1; omega
      obtain ⟨l0, ls, hls⟩ : ∃ l0 ls, st.layers = l0 :: ls := List.exists_cons_of_length_pos h0
      obtain ⟨_, f2⟩ := g.front l0 (by rw [hls]; rfl)
      obtain ⟨i', rfl⟩ : ∃ i', i = i' + 1 := ⟨i - 1, by omega⟩
      rw [hls] at hi f2
      obtain ⟨y, hy, hyx⟩ := f2 x (List.mem_flatten.2 ⟨l, by simpa using List.mem_of_getElem? (by simpa using hi), hxl⟩)
      rw [hall y (by rw [hls]; exact List.mem_flatten.2 ⟨l0, by simp, hy⟩)] at hyx
      exact Bool.noConfusion hyx
  · intro h2 x hx
    exact fronts_hasRank (mo_rowDominance hf).strictPartial (g.fronts h2) _ g.ranked hx

/-- Five individuals through an inserter of three: the survivors by layer. -/
example : (enluInsertAll (moDominates [true, true] fun x => [[3, 1], [1, 3], [2, 0], [0, 2], [4, 2]].getD x [0, 0])
    (moRow [true, true] fun x => [[3, 1], [1, 3], [2, 0], [0, 2], [4, 2]].getD x [0, 0])
    (fun x => [[3, 1], [1, 3], [2, 0], [0, 2], [4, 2]].getD x [0, 0]) [true, true] 3 [2, 0, 3, 1, 4]
    ⟨[], fun _ => 0, fun _ => 0⟩).map (fun st => (st.layers, [0, 1, 2, 3, 4].map st.rank)) =
    .ok ([[1, 4], [0]], [2, 1, 2, 2, 1]) := by decide +kernel

end Leap
