import Verif.Lemmas.Rescore
import Verif.Props.NsgaFast

/-!
# C130: the units, zeros and signs of objectives do not matter to NSGA-II
-/

namespace Leap
open Spec

variable {γ ψ ρ : Type} {n : Nat} {allowed : Nat → γ → Prop} {truth : List γ → List ℚ → Prop}

/-! ### Specification -/

/-- Every objective `x` of a vector replaced by `h j x`, `j` being its position. -/
def Spec.objectivewise (h : Nat → ℚ → ℚ) (v : List ℚ) : List ℚ := v.mapIdx h

/-- The directions, reversed for the objectives that are not `up`. -/
def Spec.turned (up : Nat → Bool) (ms : List Bool) : List Bool := ms.mapIdx fun j b => if up j then b else !b

/-- Each objective is replaced by a strictly increasing function of it or, where the direction is reversed, by a strictly decreasing one. -/
def Spec.Monotonic (up : Nat → Bool) (h : Nat → ℚ → ℚ) : Prop := ∀ j, if up j then StrictMono (h j) else StrictAnti (h j)

/-- Other units and zeros: `c j * x + d j` in place of `x`. -/
def Spec.inUnits (c d : Nat → ℚ) (j : Nat) (x : ℚ) : ℚ := c j * x + d j

theorem inUnits_monotonic (c d : Nat → ℚ) (hc : ∀ j, c j ≠ 0) : Monotonic (fun j => decide (0 < c j)) (inUnits c d) := by
  intro j
  by_cases h : 0 < c j
  · simp only [h, decide_true, if_true]
    intro a b hab
    have := mul_lt_mul_of_pos_left hab h
    simp only [inUnits]; linarith
  · simp only [h, decide_false, Bool.false_eq_true, if_false]
    have hneg : c j < 0 := lt_of_le_of_ne (not_lt.1 h) (hc j)
    intro a b hab
    have := mul_lt_mul_of_neg_left hab hneg
    simp only [inUnits]; linarith

/-! ### Ranks -/

theorem notWorse_turned {h : ℚ → ℚ} {up : Bool} (hh : if up then StrictMono h else StrictAnti h) (m : Bool) (y x : ℚ) :
    NotWorse (if up then m else !m) (.fin (h y)) (.fin (h x)) ↔ NotWorse m (.fin y) (.fin x) := by
  unfold NotWorse
  cases up <;> cases m <;> simp [point] at hh ⊢ <;> first | exact hh.le_iff_le | exact hh.le_iff_ge

theorem better_turned {h : ℚ → ℚ} {up : Bool} (hh : if up then StrictMono h else StrictAnti h) (m : Bool) (y x : ℚ) :
    Better (if up then m else !m) (.fin (h y)) (.fin (h x)) ↔ Better m (.fin y) (.fin x) := by
  unfold Better
  cases up <;> cases m <;> simp [point] at hh ⊢ <;> first | exact hh.lt_iff_lt | exact hh.lt_iff_gt

/-- C130: Pareto dominance is the same. -/
theorem dominates_turned {up : Nat → Bool} {h : Nat → ℚ → ℚ} (hh : Monotonic up h) (ms : List Bool) (y x : List ℚ) :
    Dominates (turned up ms) ((objectivewise h y).map Num.fin) ((objectivewise h x).map Num.fin) ↔
      Dominates ms (y.map Num.fin) (x.map Num.fin) := by
  unfold Dominates turned objectivewise
  simp only [List.getElem?_map, List.getElem?_mapIdx, Option.map_eq_some_iff]
  constructor
  · rintro ⟨h1, i, m, a, b, ⟨m', hm, rfl⟩, ⟨a', ⟨a0, ha, rfl⟩, rfl⟩, ⟨b', ⟨b0, hb, rfl⟩, rfl⟩, h2⟩
    refine ⟨?_, i, m', _, _, hm, ⟨a0, ha, rfl⟩, ⟨b0, hb, rfl⟩, (better_turned (hh i) _ _ _).1 h2⟩
    rintro j m a b hm ⟨a0, ha, rfl⟩ ⟨b0, hb, rfl⟩
    exact (notWorse_turned (hh j) _ _ _).1 (h1 j _ _ _ ⟨m, hm, rfl⟩ ⟨_, ⟨a0, ha, rfl⟩, rfl⟩ ⟨_, ⟨b0, hb, rfl⟩, rfl⟩)
  · rintro ⟨h1, i, m, a, b, hm, ⟨a0, ha, rfl⟩, ⟨b0, hb, rfl⟩, h2⟩
    refine ⟨?_, i, _, _, _, ⟨m, hm, rfl⟩, ⟨_, ⟨a0, ha, rfl⟩, rfl⟩, ⟨_, ⟨b0, hb, rfl⟩, rfl⟩, (better_turned (hh i) _ _ _).2 h2⟩
    rintro j m a b ⟨m', hm, rfl⟩ ⟨a', ⟨a0, ha, rfl⟩, rfl⟩ ⟨b', ⟨b0, hb, rfl⟩, rfl⟩
    exact (notWorse_turned (hh j) _ _ _).2 (h1 j _ _ _ hm ⟨a0, ha, rfl⟩ ⟨b0, hb, rfl⟩)

theorem turned_length (up : Nat → Bool) (ms : List Bool) : (turned up ms).length = ms.length := by simp [turned]

theorem objectivewise_length (h : Nat → ℚ → ℚ) (v : List ℚ) : (objectivewise h v).length = v.length := by simp [objectivewise]

/-- C130: so are ranks: replacing each objective by any strictly increasing function of it, or by a strictly decreasing one with its direction reversed, does not
change what `rank_ordinal_sort` does. -/
theorem ranks_depend_on_order {up : Nat → Bool} {h : Nat → ℚ → ℚ} (hh : Monotonic up h) (ms : List Bool) (hms : ms ≠ [])
    (fit : Nat → List ℚ) (population parents : List Nat) (rank : Nat → Nat) (hf : ∀ x ∈ population ++ parents, (fit x).length = ms.length) :
    rankOrdinalSort (fun _ => turned up ms) (fun x => objectivewise h (fit x)) population (some parents) rank =
      rankOrdinalSort (fun _ => ms) fit population (some parents) rank := by
  by_cases hne : population ++ parents = []
  · simp only [rankOrdinalSort, withParents, hne]
    rfl
  have hms' : turned up ms ≠ [] := by
    intro h0; exact hms (List.length_eq_zero_iff.1 (by rw [← turned_length up ms, h0]; rfl))
  obtain ⟨r1, e1, a1, o1⟩ := rank_ordinal_ranks ms hms (fun _ => ms) fit population (some parents) rank (by simpa using hne) (fun _ _ => rfl) hf
  obtain ⟨r2, e2, a2, o2⟩ := rank_ordinal_ranks (turned up ms) hms' (fun _ => turned up ms) (fun x => objectivewise h (fit x)) population (some parents)
    rank (by simpa using hne) (fun _ _ => rfl) (fun x hx => by rw [objectivewise_length, turned_length]; exact hf x hx)
  have hgt : ∀ a ∈ population ++ parents, ∀ b ∈ population ++ parents,
      paretoGt ⟨turned up ms⟩ (fun y => (objectivewise h (fit y)).map Num.fin) a b = paretoGt ⟨ms⟩ (fun y => (fit y).map Num.fin) a b := by
    intro a ha b hb
    rw [Bool.eq_iff_iff, paretoGt_iff_of _ _ _ _ (by simp [objectivewise_length, turned_length, hf a ha]) (by simp [objectivewise_length, turned_length, hf b hb]),
      paretoGt_iff_of _ _ _ _ (by simp [hf a ha]) (by simp [hf b hb])]
    exact dominates_turned hh ms _ _
  have : r2 = r1 := by
    funext x
    by_cases hx : x ∈ population ++ parents
    · refine hasRank_unique ?_ (a1 x hx)
      have := a2 x hx
      simp only [HasRank, Option.getD_some] at this ⊢
      rw [remaining_congr _ _ _ hgt, remaining_congr _ _ _ hgt] at this
      exact this
    · rw [o1 x hx, o2 x hx]
  rw [e1, e2, this]

/-! ### Distances -/

theorem insertionSort_agree {α : Type} (r r' : α → α → Prop) [DecidableRel r] [DecidableRel r'] (xs : List α)
    (h : ∀ a ∈ xs, ∀ b ∈ xs, (r a b ↔ r' a b)) : xs.insertionSort r = xs.insertionSort r' := by
  induction xs with
  | nil => rfl
  | cons x xs ih =>
    simp only [List.insertionSort_cons]
    rw [ih fun a ha b hb => h a (by simp [ha]) b (by simp [hb])]
    have hm : ∀ y ∈ xs.insertionSort r', y ∈ xs := fun y hy => (List.mem_insertionSort r').1 hy
    generalize xs.insertionSort r' = ys at hm
    induction ys with
    | nil => rfl
    | cons y ys ihy =>
      have hy := hm y (by simp)
      have hxy := h x (by simp) y (by simp [hy])
      simp only [List.orderedInsert]
      by_cases hr : r x y
      · rw [if_pos hr, if_pos (hxy.1 hr)]
      · rw [if_neg hr, if_neg (fun h' => hr (hxy.2 h')), ihy fun z hz => hm z (by simp [hz])]

theorem sortedByObjective_turned {f f' : Nat → ℚ} {c d : ℚ} (hc : c ≠ 0) (m : Bool) (pop : List Nat) (hf : ∀ x ∈ pop, f' x = c * f x + d) :
    sortedByObjective f' (if 0 < c then m else !m) pop = sortedByObjective f m pop := by
  unfold sortedByObjective sortedAsc
  refine insertionSort_agree _ _ _ fun a ha b hb => ?_
  simp only [hf a ha, hf b hb, decide_eq_false_iff_not]
  refine not_congr ?_
  rcases lt_or_gt_of_ne hc with h | h
  · rw [if_neg (not_lt.2 h.le)]
    cases m
    · simp only [Bool.not_false, if_true, Bool.false_eq_true, if_false, neg_lt_neg_iff, add_lt_add_iff_right]
      exact mul_lt_mul_left_of_neg h
    · simp only [Bool.not_true, if_true, Bool.false_eq_true, if_false, neg_lt_neg_iff, add_lt_add_iff_right]
      exact mul_lt_mul_left_of_neg h
  · rw [if_pos h]
    cases m
    · simp only [Bool.false_eq_true, if_false, neg_lt_neg_iff, add_lt_add_iff_right]
      exact mul_lt_mul_iff_right₀ h
    · simp only [if_true, add_lt_add_iff_right]
      exact mul_lt_mul_iff_right₀ h

theorem objectiveRange_turned {f f' : Nat → ℚ} {c d : ℚ} (hc : c ≠ 0) (m : Bool) (first : Nat) (rest : List Nat)
    (hf : ∀ x ∈ first :: rest, f' x = c * f x + d) :
    objectiveRange f' (if 0 < c then m else !m) first rest = c * objectiveRange f m first rest := by
  have hmin : ∀ (l : List Nat), (∀ x ∈ l, f' x = c * f x + d) → ∀ a b : ℚ,
      (0 < c → l.foldl (fun m x => min m (f' x)) (c * a + d) = c * l.foldl (fun m x => min m (f x)) a + d) ∧
      (0 < c → l.foldl (fun m x => max m (f' x)) (c * b + d) = c * l.foldl (fun m x => max m (f x)) b + d) ∧
      (c < 0 → l.foldl (fun m x => min m (f' x)) (c * b + d) = c * l.foldl (fun m x => max m (f x)) b + d) ∧
      (c < 0 → l.foldl (fun m x => max m (f' x)) (c * a + d) = c * l.foldl (fun m x => min m (f x)) a + d) := by
    intro l
    induction l with
    | nil => intro _ a b; exact ⟨fun _ => rfl, fun _ => rfl, fun _ => rfl, fun _ => rfl⟩
    | cons y l ih =>
      intro hl a b
      have hy := hl y (by simp)
      have ih := ih fun x hx => hl x (by simp [hx])
      simp only [List.foldl_cons, hy]
      refine ⟨fun h => ?_, fun h => ?_, fun h => ?_, fun h => ?_⟩
      · rw [show min (c * a + d) (c * f y + d) = c * min a (f y) + d by rw [min_add_add_right, mul_min_of_nonneg _ _ h.le]]
        exact (ih (min a (f y)) b).1 h
      · rw [show max (c * b + d) (c * f y + d) = c * max b (f y) + d by rw [max_add_add_right, mul_max_of_nonneg _ _ h.le]]
        exact (ih a (max b (f y))).2.1 h
      · rw [show min (c * b + d) (c * f y + d) = c * max b (f y) + d by
          rw [min_add_add_right]; rcases le_total b (f y) with h' | h'
          · rw [max_eq_right h', min_eq_right (mul_le_mul_of_nonpos_left h' h.le)]
          · rw [max_eq_left h', min_eq_left (mul_le_mul_of_nonpos_left h' h.le)]]
        exact (ih a (max b (f y))).2.2.1 h
      · rw [show max (c * a + d) (c * f y + d) = c * min a (f y) + d by
          rw [max_add_add_right]; rcases le_total a (f y) with h' | h'
          · rw [min_eq_left h', max_eq_left (mul_le_mul_of_nonpos_left h' h.le)]
          · rw [min_eq_right h', max_eq_right (mul_le_mul_of_nonpos_left h' h.le)]]
        exact (ih (min a (f y)) b).2.2.2 h
  obtain ⟨p1, p2, p3, p4⟩ := hmin rest (fun x hx => hf x (by simp [hx])) (f first) (f first)
  unfold objectiveRange
  simp only [hf first (by simp)]
  rcases lt_or_gt_of_ne hc with h | h
  · rw [if_neg (not_lt.2 h.le), p3 h, p4 h]
    cases m <;> simp <;> ring
  · rw [if_pos h, p1 h, p2 h]
    cases m <;> simp <;> ring

theorem crowdObjective_turned {f f' : Nat → ℚ} {c d : ℚ} (hc : c ≠ 0) (m : Bool) (first : Nat) (rest : List Nat)
    (hf : ∀ x ∈ first :: rest, f' x = c * f x + d) (st : List Nat × (Nat → WithTop ℚ)) :
    crowdObjective f' (if 0 < c then m else !m) first rest st = crowdObjective f m first rest st := by
  unfold crowdObjective
  rw [objectiveRange_turned hc m first rest hf, sortedByObjective_turned hc m _ hf]
  simp only [mul_eq_zero, hc, false_or]
  split
  · rfl
  · congr 1
    unfold addGaps
    refine List.foldl_ext _ _ _ fun dist i hi => ?_
    have hmem : ∀ k, k < (sortedByObjective f m (first :: rest)).length →
        f' ((sortedByObjective f m (first :: rest)).getD k 0) = c * f ((sortedByObjective f m (first :: rest)).getD k 0) + d := by
      intro k hk
      refine hf _ ((show (sortedByObjective f m (first :: rest)).Perm (first :: rest) from sortedAsc_perm _ _).mem_iff.1 ?_)
      rw [List.getD_eq_getElem _ _ hk]
      exact List.getElem_mem hk
    rw [List.mem_range'_1] at hi
    rw [hmem (i + 1) (by omega), hmem (i - 1) (by omega)]
    congr 3
    rw [show c * f ((sortedByObjective f m (first :: rest)).getD (i + 1) 0) + d - (c * f ((sortedByObjective f m (first :: rest)).getD (i - 1) 0) + d) =
      c * (f ((sortedByObjective f m (first :: rest)).getD (i + 1) 0) - f ((sortedByObjective f m (first :: rest)).getD (i - 1) 0)) by ring]
    exact mul_div_mul_left _ _ hc

theorem perRankCrowding_units (c d : Nat → ℚ) (hc : ∀ j, c j ≠ 0) (ms : List Bool) (fit : Nat → List ℚ) (pop : List Nat)
    (hf : ∀ x ∈ pop, (fit x).length = ms.length) (distance : Nat → WithTop ℚ) :
    perRankCrowding (fun x => objectivewise (inUnits c d) (fit x)) (turned (fun j => decide (0 < c j)) ms) pop distance =
      perRankCrowding fit ms pop distance := by
  cases pop with
  | nil =>
    have : turned (fun j => decide (0 < c j)) ms = [] ↔ ms = [] := by
      rw [← List.length_eq_zero_iff, turned_length, List.length_eq_zero_iff]
    simp only [perRankCrowding, this]
  | cons first rest =>
    have hz : (turned (fun j => decide (0 < c j)) ms).zipIdx = ms.zipIdx.map fun p => (if 0 < c p.2 then p.1 else !p.1, p.2) := by
      refine List.ext_getElem (by simp [turned]) fun i h1 h2 => ?_
      simp [turned]
    simp only [perRankCrowding, hz, List.foldl_map]
    congr 1
    refine List.foldl_ext _ _ _ fun st p hp => ?_
    refine crowdObjective_turned (d := d p.2) (hc p.2) p.1 first rest (fun x hx => ?_) st
    have hj : p.2 < (fit x).length := by
      rw [hf x hx]
      have := List.mem_zipIdx hp
      omega
    unfold objective objectivewise
    rw [List.getD_eq_getElem _ _ (by simpa using hj), List.getD_eq_getElem _ _ hj, List.getElem_mapIdx]
    rfl

theorem crowdRanks_units (c d : Nat → ℚ) (hc : ∀ j, c j ≠ 0) (ms : List Bool) (fit : Nat → List ℚ) (rank : Nat → Nat) (pop : List Nat)
    (hf : ∀ x ∈ pop, (fit x).length = ms.length) (rs : List Nat) : ∀ acc,
    crowdRanks (fun x => objectivewise (inUnits c d) (fit x)) (turned (fun j => decide (0 < c j)) ms) rank pop rs acc =
      crowdRanks fit ms rank pop rs acc := by
  induction rs with
  | nil => exact fun _ => rfl
  | cons r rs ih =>
    intro acc
    unfold crowdRanks
    rw [perRankCrowding_units c d hc ms fit _ (fun x hx => hf x (List.mem_of_mem_filter hx))]
    simp only [ih]

/-- C130: crowding distances do not depend on the units, zeros and signs of the objectives. -/
theorem distances_units (c d : Nat → ℚ) (hc : ∀ j, c j ≠ 0) (ms : List Bool) (multi : Nat → Bool) (fit : Nat → List ℚ) (rank : Nat → Nat)
    (pop : List Nat) (hf : ∀ x ∈ pop, (fit x).length = ms.length) (distance : Nat → WithTop ℚ) :
    crowdingDistanceCalc (fun _ => turned (fun j => decide (0 < c j)) ms) multi (fun x => objectivewise (inUnits c d) (fit x)) rank pop distance =
      crowdingDistanceCalc (fun _ => ms) multi fit rank pop distance := by
  unfold crowdingDistanceCalc
  cases pop with
  | nil => rfl
  | cons first rest => simp only [crowdRanks_units c d hc ms fit rank _ hf]

theorem nsga2Survive_units (c d : Nat → ℚ) (hc : ∀ j, c j ≠ 0) (ms : List Bool) (hms : ms ≠ []) (multi : Nat → Bool) (fit : Nat → List ℚ)
    (offspring parents : List Nat) (hf : ∀ x ∈ offspring ++ parents, (fit x).length = ms.length) (rank : Nat → Nat) (distance : Nat → WithTop ℚ) :
    nsga2Survive (fun _ => turned (fun j => decide (0 < c j)) ms) multi (fun x => objectivewise (inUnits c d) (fit x)) offspring parents rank distance =
      nsga2Survive (fun _ => ms) multi fit offspring parents rank distance := by
  unfold nsga2Survive
  rw [ranks_depend_on_order (inUnits_monotonic c d hc) ms hms fit offspring parents rank hf]
  by_cases hne : offspring ++ parents = []
  · simp only [rankOrdinalSort, withParents, hne]
    rfl
  · obtain ⟨r1, e1, -, -⟩ := rank_ordinal_ranks ms hms (fun _ => ms) fit offspring (some parents) rank (by simpa using hne) (fun _ _ => rfl) hf
    rw [e1]
    show (crowdingDistanceCalc _ _ _ _ _ _ >>= _) = (crowdingDistanceCalc _ _ _ _ _ _ >>= _)
    rw [distances_units c d hc ms multi fit r1 _ (by simpa using hf)]

/-! ### Runs -/

/-- The same settings for the problem in other units, with the directions reversed where the sign is. -/
def Spec.nsgaInUnits (c d : Nat → ℚ) (cfg cfg' : NsgaConfig γ ψ ρ) : Prop :=
  cfg'.maximize = turned (fun j => decide (0 < c j)) cfg.maximize ∧
  cfg'.stages = cfg.stages.map (rescoredStage (objectivewise (inUnits c d))) ∧ cfg'.size = cfg.size ∧
  (∀ g rank distance pop m, cfg'.choose g rank distance pop (rescored (objectivewise (inUnits c d)) m) = cfg.choose g rank distance pop m) ∧
  ∀ g pop m, cfg'.stop g pop (rescored (objectivewise (inUnits c d)) m) = cfg.stop g pop m

theorem vectorOf_rescored (h : Nat → ℚ → ℚ) (m : Mem γ ψ (List ℚ) ρ) :
    vectorOf (rescored (objectivewise h) m) = fun x => objectivewise h (vectorOf m x) := by
  funext r
  unfold vectorOf
  rw [fitness_rescored]
  cases (m.inds[r]?).bind Obj.fitness <;> rfl

theorem nsgaLoop_units (c d : Nat → ℚ) (hc : ∀ j, c j ≠ 0) (cfg cfg' : NsgaConfig γ ψ ρ) (hcfg : nsgaInUnits c d cfg cfg') (hms : cfg.maximize ≠ [])
    (hst : ∀ st ∈ cfg.stages, StageOk n allowed truth st)
    (hev : endsEvaluated cfg.stages = true) (hlen : ∀ g f, truth g f → f.length = cfg.maximize.length) (fuel : Nat) :
    ∀ (g : Int) (st : NsgaState) (m : Mem γ ψ (List ℚ) ρ), Sound m → st.pop.Nodup → (∀ r ∈ st.pop, Member n allowed truth m r) →
      nsgaLoop cfg' fuel g st (rescored (objectivewise (inUnits c d)) m) =
        ((nsgaLoop cfg fuel g st m).1, rescored (objectivewise (inUnits c d)) (nsgaLoop cfg fuel g st m).2) := by
  obtain ⟨h1, h2, h3, h4, h5⟩ := hcfg
  induction fuel with
  | zero => exact fun _ _ _ _ _ _ => rfl
  | succ fuel ih =>
    intro g st m hm hnd hp
    have hgen : nsgaGeneration cfg' g st (rescored (objectivewise (inUnits c d)) m) =
        ((nsgaGeneration cfg g st m).1, rescored (objectivewise (inUnits c d)) (nsgaGeneration cfg g st m).2) := by
      unfold nsgaGeneration
      have hpipe := carries_runPipeline (h := objectivewise (inUnits c d)) st.pop (cfg.choose g st.rank st.distance st.pop)
        (cfg'.choose g st.rank st.distance st.pop) (h4 g st.rank st.distance st.pop) cfg.stages cfg.size m
      rw [h2, h3, hpipe]
      rcases e : runPipeline st.pop (cfg.choose g st.rank st.distance st.pop) cfg.stages cfg.size m with ⟨x, m1⟩
      cases x with
      | error err => rfl
      | ok off =>
        obtain ⟨s1, u1, l1, nd1, q1⟩ := pipeline_keeps_feasible m m1 hm st.pop (fun r hr => ((member_iff m r).1 (hp r hr)).1) _
          cfg.stages hst cfg.size off e
        have hmem : ∀ r ∈ off ++ st.pop, Member n allowed truth m1 r := by
          intro r hr
          rcases List.mem_append.1 hr with hr | hr
          · obtain ⟨-, -, a1, a2⟩ := q1 r hr
            exact (member_iff m1 r).2 ⟨a1, a2 hev⟩
          · exact member_unchanged hm u1 (hp r hr)
        simp only [Except.map, id, vectorOf_rescored, h1]
        rw [nsga2Survive_units c d hc cfg.maximize hms (fun _ => true) (vectorOf m1) off st.pop (fun x hx => by
          obtain ⟨g', -, -, ht⟩ := vectorOf_member (hmem x hx)
          exact hlen _ _ ht)]
        cases nsga2Survive (fun _ => cfg.maximize) (fun _ => true) (vectorOf m1) off st.pop st.rank st.distance <;> rfl
    unfold nsgaLoop
    rw [h5]
    split
    · rfl
    · rcases e : nsgaGeneration cfg g st m with ⟨x, m1⟩
      rw [e] at hgen
      simp only [HM.bind_apply, e, hgen]
      cases x with
      | error err => rfl
      | ok st1 =>
        obtain ⟨-, s1, -, nd1, -, q1⟩ := nsga_generation_spec cfg hms hst hev hlen g st st1 m m1 hm hnd hp e
        exact ih (g + 1) st1 m1 s1 nd1 fun r hr => (q1 r hr).1

/-- C130: NSGA-II on a problem, and on the same problem with each objective in another unit, from another zero or with the opposite sign (and direction): from
the same start and random numbers, with any operators that end with an evaluation, any selection and stop condition that decide the same on both (such as those
that look at ranks, distances and random numbers), for any number of generations, the two runs do the same. They return the same individuals, with the same genes,
ranks and distances, or raise the same exception, and everybody's fitness is that in the other units. -/
theorem nsga_units_irrelevant (c d : Nat → ℚ) (hc : ∀ j, c j ≠ 0) (cfg cfg' : NsgaConfig γ ψ ρ) (hcfg : nsgaInUnits c d cfg cfg') (hms : cfg.maximize ≠ [])
    (initGenome : ρ → PyM (List γ) × ρ) (dec : Dec γ ψ)
    (prob : Prob γ ψ (List ℚ) ρ) (hinit : ∀ s g s', initGenome s = (.ok g, s') → GenesIn n allowed g)
    (hst : ∀ st ∈ cfg.stages, StageOk n allowed (ScoredBy dec prob) st) (hev : endsEvaluated cfg.stages = true)
    (hlen : ∀ g f, ScoredBy dec prob g f → f.length = cfg.maximize.length) (isMulti : Bool)
    (problem popSize : Nat) (startGeneration maxGenerations : Int) (rank : Nat → Nat) (distance : Nat → WithTop ℚ) (m : Mem γ ψ (List ℚ) ρ)
    (hm : Sound m) :
    nsgaRun cfg' isMulti initGenome dec (rescoredProb (objectivewise (inUnits c d)) prob) problem popSize startGeneration maxGenerations rank distance
        (rescored (objectivewise (inUnits c d)) m) =
      let r := nsgaRun cfg isMulti initGenome dec prob problem popSize startGeneration maxGenerations rank distance m
      (r.1, rescored (objectivewise (inUnits c d)) r.2) := by
  dsimp only
  unfold nsgaRun
  split
  swap
  · rfl
  have c1 := carries_createPopulation (h := objectivewise (inUnits c d)) (γ := γ) (ψ := ψ) (ρ := ρ) initGenome problem popSize m
  rcases e1 : createPopulation initGenome problem popSize m with ⟨x, m1⟩
  rw [e1] at c1
  simp only [HM.bind_apply, e1, c1]
  cases x with
  | error err => rfl
  | ok parents =>
    simp only [Except.map, id]
    have c2 := carries_evaluatePopulation (h := objectivewise (inUnits c d)) dec prob parents m1
    rcases e2 : evaluatePopulation dec prob parents m1 with ⟨x, m2⟩
    rw [e2] at c2
    simp only [c2]
    cases x with
    | error err => rfl
    | ok u =>
      obtain ⟨s1, u1, l1, nd1, r1, g1⟩ := createPopulation_good (truth := ScoredBy dec prob) initGenome hinit problem popSize m m1 hm parents e1
      obtain ⟨s2, sm2, a2, b2, n2, k2, -, p2⟩ := evaluatePopulation_members dec prob (fun g c s f _ hc hf => ⟨c, s, hc, hf⟩) parents m1 m2 s1 g1 e2
      exact nsgaLoop_units c d hc cfg cfg' hcfg hms hst hev hlen _ _ _ _ s2 nd1 fun r hr => (member_iff m2 r).2 ⟨k2 r (g1 r hr), p2 r hr⟩

/-- The settings of the example for the first objective in cents and from another zero, and the second one with the opposite sign. -/
def exUnits : NsgaConfig Int Int Nat :=
  { exNsgaRun exTwo with
    maximize := [true, false]
    stages := (exNsgaRun exTwo).stages.map
      (rescoredStage (objectivewise (inUnits (fun j => if j = 0 then 100 else -1) (fun j => if j = 0 then 7 else 0)))) }

set_option synthInstance.maxSize 1000 in
set_option synthInstance.maxHeartbeats 100000 in
/-- A run that meets the hypotheses (the others are shown beside `nsga_run_members`), and what it returns in either units. -/
example :
    let c : Nat → ℚ := fun j => if j = 0 then 100 else -1
    let d : Nat → ℚ := fun j => if j = 0 then 7 else 0
    (∀ j, c j ≠ 0) ∧ nsgaInUnits c d (exNsgaRun exTwo) exUnits ∧
    ((nsgaRun (exNsgaRun exTwo) true exInit .identity exTwo 0 3 0 2 (fun _ => 0) (fun _ => 0) exEmpty).1.toOption.map fun st =>
      st.pop.map fun r => (fitness (nsgaRun (exNsgaRun exTwo) true exInit .identity exTwo 0 3 0 2 (fun _ => 0) (fun _ => 0) exEmpty).2 r, st.rank r)) =
      some [(some (some [2, -1]), 1), (some (some [0, 0]), 1), (some (some [0, 0]), 1)] ∧
    ((nsgaRun exUnits true exInit .identity (rescoredProb (objectivewise (inUnits c d)) exTwo) 0 3 0 2 (fun _ => 0) (fun _ => 0) exEmpty).1.toOption.map fun st =>
      st.pop.map fun r => (fitness (nsgaRun exUnits true exInit .identity (rescoredProb (objectivewise (inUnits c d)) exTwo) 0 3 0 2 (fun _ => 0)
        (fun _ => 0) exEmpty).2 r, st.rank r)) = some [(some (some [207, 1]), 1), (some (some [7, 0]), 1), (some (some [7, 0]), 1)] := by
  refine ⟨fun j => ?_, ⟨by decide +kernel, rfl, rfl, fun _ _ _ _ _ => rfl, fun _ _ _ => rfl⟩, by decide +kernel, by decide +kernel⟩
  dsimp only
  split <;> norm_num

/-- C130: for other increasing functions ranks stay but distances, and with them the survivors, may not: of five on one front two have to go. -/
theorem nonlinear_changes_survivors :
    let fit : Nat → List ℚ := fun x => [[0, 8], [4, 4], [5, 3], [6, 2], [8, 0]].getD x []
    let cubed : Nat → List ℚ := fun x => objectivewise (fun j v => if j = 0 then v ^ 3 else v) (fit x)
    Monotonic (fun _ => true) (fun j v => if j = 0 then v ^ 3 else v) ∧
    ((nsga2Survive (fun _ => [true, true]) (fun _ => true) fit [0, 1] [2, 3, 4] (fun _ => 9) (fun _ => 0)).map fun r => (r.1, [0, 1, 2, 3, 4].map r.2.1)) =
      .ok ([4, 0, 1], [1, 1, 1, 1, 1]) ∧
    ((nsga2Survive (fun _ => [true, true]) (fun _ => true) cubed [0, 1] [2, 3, 4] (fun _ => 9) (fun _ => 0)).map fun r => (r.1, [0, 1, 2, 3, 4].map r.2.1)) =
      .ok ([4, 0, 3], [1, 1, 1, 1, 1]) := by
  refine ⟨fun j => ?_, by decide +kernel, by decide +kernel⟩
  simp only [if_true]
  split
  · exact Odd.strictMono_pow (by decide)
  · exact strictMono_id

end Leap
