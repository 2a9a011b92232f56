import Verif.Props.Crowding
import Verif.Lemmas.Ranks

/-!
# C47: NSGA-II
-/

namespace Leap
open Spec

/-- NSGA-II's preference: `a` is worse than `b` if its rank is larger, or its rank is the same and its crowding distance
smaller. -/
def Spec.crowdedWorse (rank : Nat → Nat) (distance : Nat → WithTop ℚ) (a b : Nat) : Bool :=
  decide (rank b < rank a ∨ rank a = rank b ∧ distance a < distance b)

theorem crowdedWorse_strictWeak (rank : Nat → Nat) (distance : Nat → WithTop ℚ) : StrictWeak (crowdedWorse rank distance) := by
  constructor
  · intro a b h
    simp only [crowdedWorse, decide_eq_true_eq, decide_eq_false_iff_not] at *
    rintro (h' | ⟨h1, h2⟩)
    · rcases h with h | ⟨h, _⟩ <;> omega
    · rcases h with h | ⟨_, h⟩
      · omega
      · exact lt_asymm h h2
  · intro a b c h1 h2
    simp only [crowdedWorse, decide_eq_false_iff_not, not_or, not_and, not_lt] at *
    refine ⟨le_trans h1.1 h2.1, fun he => ?_⟩
    have e1 : rank a = rank b := le_antisymm h1.1 (by have := h2.1; omega)
    have e2 : rank b = rank c := by omega
    exact le_trans (h2.2 e2) (h1.2 e1)

theorem distLt_eq (a b : WithTop ℚ) : distLt a b = decide (a < b) := by
  cases a using WithTop.recTopCoe with
  | top => cases b using WithTop.recTopCoe <;> simp <;> rfl
  | coe a =>
    cases b using WithTop.recTopCoe with
    | top => simp; rfl
    | coe b => simp only [WithTop.coe_lt_coe]; rfl

theorem nsgaLt_eq (rank : Nat → Nat) (distance : Nat → WithTop ℚ) : nsgaLt rank distance = crowdedWorse rank distance := by
  funext a b
  unfold nsgaLt crowdedWorse
  rw [distLt_eq]
  rw [← Bool.decide_and, ← Bool.decide_or]

/-- `sort_by_dominance` orders the population best first in NSGA-II's preference, losing nobody. -/
theorem sort_by_dominance_spec (rank : Nat → Nat) (distance : Nat → WithTop ℚ) (population : List Nat) :
    (sortByDominance rank distance population).Perm population ∧
    BestFirst (crowdedWorse rank distance) (sortByDominance rank distance population) := by
  have hlt : (fun a b => decide (rank a < rank b) || (decide (rank a = rank b) && distLt (distance b) (distance a))) =
      fun a b => crowdedWorse rank distance b a := by
    funext a b
    unfold crowdedWorse
    rw [distLt_eq, ← Bool.decide_and, ← Bool.decide_or]
    simp only [eq_comm (a := rank a)]
  have hw := crowdedWorse_strictWeak rank distance
  have hw' : StrictWeak fun a b => crowdedWorse rank distance b a :=
    ⟨fun a b h => hw.asymm b a h, fun a b c h1 h2 => hw.negTrans c b a h2 h1⟩
  unfold sortByDominance
  rw [hlt]
  refine ⟨sortedAsc_perm _ _, ?_⟩
  exact sortedAsc_pairwise hw' population

example : sortByDominance (fun x => [2, 1, 1].getD x 0) (fun x => if x = 2 then ⊤ else 1) [0, 1, 2] = [2, 1, 0] := by
  decide +kernel

/-- The direction of "dominates" of a multi-objective problem on everybody's objective vectors. -/
def Spec.moDominates (ms : List Bool) (fitness : Nat → List ℚ) : Nat → Nat → Bool :=
  paretoGt ⟨ms⟩ fun y => (fitness y).map Num.fin

open Classical in
/-- C47: the survivors of one generation are the best by non-domination rank and crowding distance, among
everybody whose rank has members with different objective vectors; everybody else is lost first (the code's defect). -/
theorem nsga2_survivors (ms : List Bool) (hms : ms ≠ []) (maximize : Nat → List Bool) (multi : Nat → Bool)
    (fitness : Nat → List ℚ) (offspring parents : List Nat) (rank : Nat → Nat) (distance : Nat → WithTop ℚ)
    (hne : offspring ++ parents ≠ []) (hn : (offspring ++ parents).Nodup)
    (hmax : ∀ x ∈ offspring ++ parents, maximize x = ms) (hmulti : ∀ x ∈ offspring ++ parents, multi x = true)
    (hf : ∀ x ∈ offspring ++ parents, (fitness x).length = ms.length) :
    ∃ kept rank' distance',
      nsga2Survive maximize multi fitness offspring parents rank distance = .ok (kept, rank', distance') ∧
      (∀ x ∈ offspring ++ parents, HasRank (moDominates ms fitness) (offspring ++ parents) x (rank' x)) ∧
      (∀ x ∈ offspring ++ parents, Crowding fitness ms (rankClass rank' (offspring ++ parents) (rank' x)) distance') ∧
      KBest (crowdedWorse rank' distance') parents.length
        (List.filter (fun x => decide (Spreads fitness ms.length (rankClass rank' (offspring ++ parents) (rank' x))))
          (offspring ++ parents)) kept ∧
      BestFirst (crowdedWorse rank' distance') kept := by
  obtain ⟨rank', e1, r1, _⟩ := rank_ordinal_ranks ms hms maximize fitness offspring (some parents) rank (by simpa using hne)
    (by simpa using hmax) (by simpa using hf)
  simp only [Option.getD_some] at e1 r1
  obtain ⟨res, d', e2, c2, _, p2⟩ := crowding_calc_partial ms maximize multi fitness rank' (offspring ++ parents) hne hn hmax hmulti distance
  have hw := crowdedWorse_strictWeak rank' d'
  refine ⟨truncationSelection (nsgaLt rank' d') res parents.length none, rank', d', ?_, r1, c2, ?_, ?_⟩
  · unfold nsga2Survive
    rw [e1]
    simp only [bind, Except.bind]
    rw [e2]
  · obtain ⟨rest, h1, h2, h3⟩ := topk_kbest hw parents.length res
    simp only [truncationSelection, nsgaLt_eq]
    exact ⟨rest, h1.trans p2, by rw [h2, p2.length_eq], h3⟩
  · simp only [truncationSelection, nsgaLt_eq]
    exact topk_bestFirst hw _ _

/-- C47, partial: if no rank consists of individuals with one and the same objective vector, the result has exactly as
many individuals as there were parents, all of them from the parents and offspring, and a non-dominated individual is
left out only if all those kept are non-dominated. Missing: the condition on the ranks, without which the claim is
false (`nsga2_loses_everybody`). -/
theorem nsga2_keeps_first_front_partial (ms : List Bool) (hms : ms ≠ []) (maximize : Nat → List Bool) (multi : Nat → Bool)
    (fitness : Nat → List ℚ) (offspring parents : List Nat) (rank : Nat → Nat) (distance : Nat → WithTop ℚ)
    (hne : offspring ++ parents ≠ []) (hn : (offspring ++ parents).Nodup)
    (hmax : ∀ x ∈ offspring ++ parents, maximize x = ms) (hmulti : ∀ x ∈ offspring ++ parents, multi x = true)
    (hf : ∀ x ∈ offspring ++ parents, (fitness x).length = ms.length)
    (hdiff : ∀ x ∈ offspring ++ parents, ∀ r, HasRank (moDominates ms fitness) (offspring ++ parents) x r →
      ∃ y ∈ offspring ++ parents, HasRank (moDominates ms fitness) (offspring ++ parents) y r ∧ fitness y ≠ fitness x) :
    ∃ kept rank' distance',
      nsga2Survive maximize multi fitness offspring parents rank distance = .ok (kept, rank', distance') ∧
      kept.length = parents.length ∧ kept.Nodup ∧ (∀ x ∈ kept, x ∈ offspring ++ parents) ∧
      ∀ x ∈ offspring ++ parents, (∀ y ∈ offspring ++ parents, moDominates ms fitness y x = false) → x ∉ kept →
        ∀ z ∈ kept, ∀ y ∈ offspring ++ parents, moDominates ms fitness y z = false := by
  classical
  obtain ⟨kept, rank', d', e, hr, _, ⟨rest, k1, k2, k3⟩, _⟩ :=
    nsga2_survivors ms hms maximize multi fitness offspring parents rank distance hne hn hmax hmulti hf
  set ws := offspring ++ parents with hws
  have hall : (List.filter (fun x => decide (Spreads fitness ms.length (rankClass rank' ws (rank' x)))) ws) = ws := by
    rw [List.filter_eq_self]
    intro x hx
    obtain ⟨y, hy, hyr, hyx⟩ := hdiff x hx _ (hr x hx)
    have hry : rank' y = rank' x := hasRank_unique (hr y hy) hyr
    rw [decide_eq_true_eq]
    have : ∃ j < ms.length, objective fitness j y ≠ objective fitness j x := by
      by_contra hno
      apply hyx
      push Not at hno
      apply List.ext_getElem (by rw [hf y hy, hf x hx])
      intro j h1 h2
      have := hno j (by rw [← hf y hy]; exact h1)
      unfold objective at this
      rw [List.getD_eq_getElem?_getD, List.getD_eq_getElem?_getD, List.getElem?_eq_getElem h1, List.getElem?_eq_getElem h2] at this
      simpa using this
    obtain ⟨j, hj, hjne⟩ := this
    refine ⟨j, hj, y, ?_, x, ?_, hjne⟩
    · simp [rankClass, hy, hry]
    · simp [rankClass, hx]
  rw [hall] at k1 k2
  have hrank1 : ∀ x ∈ ws, (∀ y ∈ ws, moDominates ms fitness y x = false) ↔ rank' x = 1 := by
    intro x hx
    constructor
    · intro h
      refine hasRank_unique (hr x hx) ⟨le_refl _, by simpa [remaining] using hx, ?_⟩
      simp only [remaining, List.mem_filter, List.any_eq_true, not_and, not_exists]
      intro _ y hy
      rw [h y hy]; simp
    · intro h y hy
      obtain ⟨_, _, h3⟩ := hr x hx
      rw [h] at h3
      simp only [remaining, List.mem_filter, List.any_eq_true, not_and, not_exists] at h3
      have := h3 hx y hy
      simpa using this
  have hmem : ∀ x ∈ kept, x ∈ ws := fun x hx => k1.mem_iff.1 (List.mem_append_left _ hx)
  refine ⟨kept, rank', d', e, ?_, ?_, hmem, ?_⟩
  · rw [k2, hws, List.length_append]; omega
  · have := k1.nodup_iff.2 hn
    exact (List.nodup_append.1 this).1
  · intro x hx hx1 hxk z hz
    have hxr : x ∈ rest := by
      rcases List.mem_append.1 (k1.mem_iff.2 hx) with h | h
      · exact absurd h hxk
      · exact h
    have hb := k3 z hz x hxr
    rw [hrank1 z (hmem z hz)]
    rw [hrank1 x hx] at hx1
    simp only [crowdedWorse, decide_eq_false_iff_not, not_or, not_lt] at hb
    have := (hr z (hmem z hz)).1
    omega

/-- C47 is false without that condition: a parent dominating the only offspring is lost together with it. -/
theorem nsga2_loses_everybody :
    (nsga2Survive (fun _ => [true, true]) (fun _ => true) (fun x => if x = 0 then [2, 2] else [1, 1]) [1] [0]
      (fun _ => 0) (fun _ => 0)).map (fun r => r.1) = .ok [] := by decide +kernel

/-- C47 is false without that condition: three parents, one offspring; the non-dominated individual 0 is lost although a
dominated one is kept, and only two of three places are filled. -/
theorem nsga2_loses_best :
    (nsga2Survive (fun _ => [true, true]) (fun _ => true)
      (fun x => if x = 0 then [9, 9] else if x = 1 then [1, 2] else if x = 2 then [2, 1] else [0, 0]) [3] [0, 1, 2]
      (fun _ => 0) (fun _ => 0)).map (fun r => (r.1, r.2.1 0)) = .ok ([2, 1], 1) := by decide +kernel

/-- A generation that works: two fronts of two. -/
def exNsga : Nat → List ℚ := fun x => [[4, 1], [1, 4], [3, 0], [0, 3]].getD x [0, 0]

example : (nsga2Survive (fun _ => [true, true]) (fun _ => true) exNsga [2, 1] [0, 3] (fun _ => 0) (fun _ => 0)).map
    (fun r => (r.1, [0, 1, 2, 3].map r.2.1)) = .ok ([0, 1], [1, 1, 2, 2]) := by decide +kernel

example : ∀ x ∈ [2, 1] ++ [0, 3], ∃ y ∈ [2, 1] ++ [0, 3], exNsga y ≠ exNsga x ∧ ∃ r < 3,
    (1 ≤ r ∧ x ∈ remaining (moDominates [true, true] exNsga) ([2, 1] ++ [0, 3]) (r - 1) ∧
      x ∉ remaining (moDominates [true, true] exNsga) ([2, 1] ++ [0, 3]) r) ∧
    (1 ≤ r ∧ y ∈ remaining (moDominates [true, true] exNsga) ([2, 1] ++ [0, 3]) (r - 1) ∧
      y ∉ remaining (moDominates [true, true] exNsga) ([2, 1] ++ [0, 3]) r) := by decide +kernel

/-- The result of a generation is never larger than the parents, whatever the pipeline produces. -/
theorem nsga2_never_grows (maximize : Nat → List Bool) (multi : Nat → Bool) (fitness : Nat → List ℚ)
    (offspring parents : List Nat) (rank : Nat → Nat) (distance : Nat → WithTop ℚ) (kept : List Nat) (rank' : Nat → Nat)
    (distance' : Nat → WithTop ℚ)
    (h : nsga2Survive maximize multi fitness offspring parents rank distance = .ok (kept, rank', distance')) :
    kept.length ≤ parents.length := by
  unfold nsga2Survive at h
  cases h1 : rankOrdinalSort maximize fitness offspring (some parents) rank with
  | error e => simp [h1, bind, Except.bind] at h
  | ok r =>
    simp only [h1, bind, Except.bind] at h
    cases h2 : crowdingDistanceCalc maximize multi fitness r.2 r.1 distance with
    | error e => simp [h2] at h
    | ok c =>
      simp only [h2, Except.ok.injEq, Prod.mk.injEq] at h
      rw [← h.1]
      simp only [truncationSelection, topk_length]
      exact Nat.min_le_left _ _

section
variable {R : Type}

/-- What one generation of an NSGA-II run does to (population, world), the survivors being given. -/
def Spec.NsgaStep (pipeline : Pipeline (MoObjects R) Nat) (g : Int) (before after : List Nat × World (MoObjects R)) : Prop :=
  ∃ offspring w, pipeline before.2 before.1 = .ok (offspring, w) ∧
    nsga2Survive w.rest.maximize w.rest.multi w.rest.fitness offspring before.1 w.rest.rank w.rest.distance =
      .ok (after.1, after.2.rest.rank, after.2.rest.distance) ∧
    after.2.ctx = { w.ctx with generation := some (g + 1) } ∧
    after.2.rest = { w.rest with rank := after.2.rest.rank, distance := after.2.rest.distance }

theorem nsga2Generation_step (pipeline : Pipeline (MoObjects R) Nat) (g : Int) (parents : List Nat)
    (w : World (MoObjects R)) (after : List Nat × World (MoObjects R))
    (h : nsga2Generation pipeline g parents w = .ok after) : NsgaStep pipeline g (parents, w) after := by
  unfold nsga2Generation at h
  cases h1 : pipeline w parents with
  | error e => simp [h1, bind, Except.bind] at h
  | ok r =>
    obtain ⟨offspring, w1⟩ := r
    simp only [h1, bind, Except.bind] at h
    cases h2 : nsga2Survive w1.rest.maximize w1.rest.multi w1.rest.fitness offspring parents w1.rest.rank w1.rest.distance with
    | error e => simp [h2] at h
    | ok c =>
      obtain ⟨kept, rk, d⟩ := c
      simp only [h2, Except.ok.injEq] at h
      subst h
      exact ⟨offspring, w1, h1, h2, rfl, rfl⟩

theorem nsga2Loop_run (maxG : Int) (pipeline : Pipeline (MoObjects R) Nat) (stop : World (MoObjects R) → List Nat → Bool)
    (g : Int) (parents : List Nat) (w : World (MoObjects R)) (final : List Nat × World (MoObjects R))
    (h : nsga2Loop maxG pipeline stop g parents w = .ok final) :
    ∃ (n : Nat) (s : Nat → List Nat × World (MoObjects R)), s 0 = (parents, w) ∧ s n = final ∧
      (∀ i, i < n → g + i < maxG ∧ stop (s i).2 (s i).1 = false ∧ NsgaStep pipeline (g + i) (s i) (s (i + 1))) ∧
      (maxG ≤ g + n ∨ stop final.2 final.1 = true) := by
  generalize hm : (maxG - g).toNat = m
  induction m generalizing g parents w with
  | zero =>
    rw [nsga2Loop, dif_neg (by omega)] at h
    simp only [Except.ok.injEq] at h
    exact ⟨0, fun _ => (parents, w), rfl, h, by simp, Or.inl (by omega)⟩
  | succ m ih =>
    rw [nsga2Loop, dif_pos (by omega)] at h
    by_cases hs : stop w parents = true
    · rw [if_pos hs] at h
      simp only [Except.ok.injEq] at h
      exact ⟨0, fun _ => (parents, w), rfl, h, by simp, Or.inr (by rw [← h]; exact hs)⟩
    · rw [if_neg hs] at h
      cases hg : nsga2Generation pipeline g parents w with
      | error e => simp [hg] at h
      | ok r =>
        obtain ⟨kept, w'⟩ := r
        simp only [hg] at h
        obtain ⟨n, s, s0, sn, hstep, hend⟩ := ih (g + 1) kept w' h (by omega)
        refine ⟨n + 1, fun i => match i with | 0 => (parents, w) | i + 1 => s i, rfl, sn, ?_, ?_⟩
        · intro i hi
          cases i with
          | zero =>
            refine ⟨by simp; omega, by simpa using hs, ?_⟩
            have := nsga2Generation_step pipeline g parents w (kept, w') hg
            simp only [s0]
            simpa using this
          | succ i =>
            obtain ⟨a, b, c⟩ := hstep i (by omega)
            have e : g + 1 + (i : Int) = g + ((i + 1 : Nat) : Int) := by push_cast; omega
            rw [e] at a c
            exact ⟨a, b, c⟩
        · rcases hend with h | h
          · left; push_cast; omega
          · exact Or.inr h

/-- C47: an NSGA-II run is a number of such generations, starting from the evaluated initial population: one per
generation number from the start up to the limit, unless `stop` ends it earlier, and the population never grows. -/
theorem nsga2_run (maxG start : Int) (create : World (MoObjects R) → PyM (List Nat × World (MoObjects R)))
    (initEvaluate pipeline : Pipeline (MoObjects R) Nat) (stop : World (MoObjects R) → List Nat → Bool)
    (w : World (MoObjects R)) (final : List Nat × World (MoObjects R))
    (h : generalizedNsga2 true maxG create initEvaluate pipeline stop start w = .ok final) :
    ∃ (n : Nat) (s : Nat → List Nat × World (MoObjects R)) (pop0 : List Nat) (w0 : World (MoObjects R)),
      create w = .ok (pop0, w0) ∧
      initEvaluate ⟨{ w0.ctx with generation := some start }, w0.rest⟩ pop0 = .ok (s 0) ∧ s n = final ∧
      (∀ i, i < n → start + i < maxG ∧ stop (s i).2 (s i).1 = false ∧ NsgaStep pipeline (start + i) (s i) (s (i + 1))) ∧
      (maxG ≤ start + n ∨ stop final.2 final.1 = true) ∧
      ∀ i, i < n → (s (i + 1)).1.length ≤ (s i).1.length := by
  unfold generalizedNsga2 at h
  simp only [if_true] at h
  cases hc : create w with
  | error e => simp [hc] at h
  | ok r =>
    obtain ⟨pop0, w0⟩ := r
    simp only [hc] at h
    cases hi : initEvaluate (w0.setGeneration start) pop0 with
    | error e => simp [hi] at h
    | ok r1 =>
      obtain ⟨pop1, w1⟩ := r1
      simp only [hi] at h
      obtain ⟨n, s, s0, sn, hstep, hend⟩ := nsga2Loop_run _ _ _ _ _ _ _ h
      refine ⟨n, s, pop0, w0, rfl, by rw [s0]; exact hi, sn, hstep, hend, ?_⟩
      intro i hi
      obtain ⟨_, _, off, w', _, hsv, _⟩ := hstep i hi
      exact nsga2_never_grows _ _ _ _ _ _ _ _ _ _ hsv

/-- C47: NSGA-II refuses a problem that is not multi-objective. -/
theorem nsga2_single_objective (maxG start : Int) (create : World (MoObjects R) → PyM (List Nat × World (MoObjects R)))
    (initEvaluate pipeline : Pipeline (MoObjects R) Nat) (stop : World (MoObjects R) → List Nat → Bool)
    (w : World (MoObjects R)) :
    generalizedNsga2 false maxG create initEvaluate pipeline stop start w = .error .assertionError := by
  simp [generalizedNsga2]

end

/-- A run of two generations of the identity pipeline that makes clones `x + 4`. -/
example : (generalizedNsga2 (R := Unit) true 2 (fun w => .ok ([0, 1, 2, 3], w)) (fun w p => .ok (p, w))
    (fun w p => .ok (p.map (· + 4), w)) (fun _ _ => false) 0
    ⟨{ generation := none, currentSubpopulation := none }, ⟨fun _ => [true, true], fun _ => true, fun x => exNsga (x % 4), fun _ => 0, fun _ => 0, ()⟩⟩).map
    (fun r => (r.1.length, r.2.ctx.generation)) = .ok (4, some 2) := by decide +kernel

end Leap
