import Verif.Model.NsgaFast
import Verif.Props.NsgaRun

/-! # The two ranking functions in whole NSGA-II runs (C128) -/

namespace Leap
open Spec

variable {γ ψ ρ : Type} {n : Nat} {allowed : Nat → γ → Prop} {truth : List γ → List ℚ → Prop}

/-! ## The fast sort ends, whatever the comparison -/

theorem decrement_fold (i : Nat) (pop : List Nat) (l : List Nat) (hl : ∀ x ∈ l, x ∈ pop) : ∀ acc : SortAttrs × List Nat,
    (∀ y, (l.foldl (decrementOne i) acc).1.dominatedBy y ≤ acc.1.dominatedBy y) ∧
    (l.foldl (decrementOne i) acc).1.dominates = acc.1.dominates ∧
    ∀ y ∈ (l.foldl (decrementOne i) acc).2, y ∈ acc.2 ∨
      y ∈ pop ∧ 0 < acc.1.dominatedBy y ∧ (l.foldl (decrementOne i) acc).1.dominatedBy y ≤ 0 := by
  induction l with
  | nil => exact fun acc => ⟨fun _ => le_refl _, rfl, fun y hy => Or.inl hy⟩
  | cons x l ih =>
    intro acc
    rw [List.foldl_cons]
    obtain ⟨h1, h2, h3⟩ := ih (fun y hy => hl y (List.mem_cons_of_mem _ hy)) (decrementOne i acc x)
    have hdom : (decrementOne i acc x).1.dominates = acc.1.dominates := by unfold decrementOne; dsimp only; split <;> rfl
    have hby : ∀ y, (decrementOne i acc x).1.dominatedBy y = if y = x then acc.1.dominatedBy x - 1 else acc.1.dominatedBy y := by
      intro y; unfold decrementOne; dsimp only; split <;> rfl
    have hle : ∀ y, (decrementOne i acc x).1.dominatedBy y ≤ acc.1.dominatedBy y := by
      intro y; rw [hby]; split
      · rename_i h; subst h; omega
      · exact le_refl _
    refine ⟨fun y => (h1 y).trans (hle y), h2.trans hdom, fun y hy => ?_⟩
    rcases h3 y hy with h | ⟨a, b, c⟩
    · have hnf : (decrementOne i acc x).2 = if acc.1.dominatedBy x - 1 = 0 then acc.2 ++ [x] else acc.2 := by
        unfold decrementOne; dsimp only; split <;> rfl
      rw [hnf] at h
      split at h
      · rename_i h0
        rcases List.mem_append.1 h with h | h
        · exact Or.inl h
        · rw [List.mem_singleton] at h
          subst h
          refine Or.inr ⟨hl y (by simp), by omega, (h1 y).trans ?_⟩
          rw [hby, if_pos rfl]; omega
      · exact Or.inl h
    · exact Or.inr ⟨a, lt_of_lt_of_le b (hle y), c⟩

theorem nextFront_spec (i : Nat) (pop : List Nat) (st : SortAttrs) (hdom : ∀ x ∈ pop, ∀ y ∈ st.dominates x, y ∈ pop) (front : List Nat)
    (hf : ∀ x ∈ front, x ∈ pop) :
    (∀ y, (nextFront i front st).1.dominatedBy y ≤ st.dominatedBy y) ∧ (nextFront i front st).1.dominates = st.dominates ∧
    ∀ y ∈ (nextFront i front st).2, y ∈ pop ∧ 0 < st.dominatedBy y ∧ (nextFront i front st).1.dominatedBy y ≤ 0 := by
  unfold nextFront
  suffices h : ∀ (front : List Nat), (∀ x ∈ front, x ∈ pop) → ∀ acc : SortAttrs × List Nat, acc.1.dominates = st.dominates →
      (∀ y, acc.1.dominatedBy y ≤ st.dominatedBy y) → (∀ y ∈ acc.2, y ∈ pop ∧ 0 < st.dominatedBy y ∧ acc.1.dominatedBy y ≤ 0) →
      let r := front.foldl (fun acc individual => (acc.1.dominates individual).foldl (decrementOne i) acc) acc
      (∀ y, r.1.dominatedBy y ≤ st.dominatedBy y) ∧ r.1.dominates = st.dominates ∧
        ∀ y ∈ r.2, y ∈ pop ∧ 0 < st.dominatedBy y ∧ r.1.dominatedBy y ≤ 0 from
    h front hf (st, []) rfl (fun _ => le_refl _) (by simp)
  intro front
  induction front with
  | nil => exact fun _ acc h1 h2 h3 => ⟨h2, h1, h3⟩
  | cons x front ih =>
    intro hf acc h1 h2 h3
    have hx := hf x (by simp)
    obtain ⟨a1, a2, a3⟩ := decrement_fold i pop (acc.1.dominates x) (by rw [h1]; exact hdom x hx) acc
    refine ih (fun y hy => hf y (List.mem_cons_of_mem _ hy)) _ (a2.trans h1) (fun y => (a1 y).trans (h2 y)) fun y hy => ?_
    rcases a3 y hy with h | ⟨b1, b2, b3⟩
    · obtain ⟨c1, c2, c3⟩ := h3 y h
      exact ⟨c1, c2, (a1 y).trans c3⟩
    · exact ⟨b1, lt_of_lt_of_le b2 (h2 y), b3⟩

theorem fillRanks_ends (pop : List Nat) : ∀ (fuel i : Nat) (front : List Nat) (st : SortAttrs),
    (∀ x ∈ pop, ∀ y ∈ st.dominates x, y ∈ pop) → (∀ x ∈ front, x ∈ pop) →
    (pop.toFinset.filter fun y => 0 < st.dominatedBy y).card + 1 ≤ fuel → ∃ st', fillRanks fuel i front st = some st' := by
  intro fuel
  induction fuel with
  | zero => intro i front st _ _ h; omega
  | succ fuel ih =>
    intro i front st hdom hf hc
    unfold fillRanks
    split
    · exact ⟨st, rfl⟩
    · obtain ⟨h1, h2, h3⟩ := nextFront_spec i pop st hdom front hf
      dsimp only
      by_cases hne : (nextFront i front st).2 = []
      · rw [hne]
        unfold fillRanks
        exact ⟨_, if_pos rfl⟩
      · refine ih _ _ _ (by rw [h2]; exact hdom) (fun x hx => (h3 x hx).1) ?_
        obtain ⟨y, hy⟩ := List.exists_mem_of_ne_nil _ hne
        obtain ⟨a, b, c⟩ := h3 y hy
        have hlt : (pop.toFinset.filter fun y => 0 < (nextFront i front st).1.dominatedBy y).card <
            (pop.toFinset.filter fun y => 0 < st.dominatedBy y).card := by
          refine Finset.card_lt_card (Finset.ssubset_iff_of_subset ?_ |>.2 ⟨y, ?_, ?_⟩)
          · intro z hz
            rw [Finset.mem_filter] at hz ⊢
            exact ⟨hz.1, lt_of_lt_of_le hz.2 (h1 z)⟩
          · rw [Finset.mem_filter, List.mem_toFinset]; exact ⟨a, b⟩
          · rw [Finset.mem_filter]; rintro ⟨-, h⟩; omega
        omega

theorem compareWithAll_mem (gt : Nat → Nat → Bool) (x : Nat) (pop : List Nat) : ∀ y ∈ (compareWithAll gt x pop).1, y ∈ pop := by
  unfold compareWithAll
  suffices h : ∀ (l : List Nat), (∀ y ∈ l, y ∈ pop) → ∀ acc : List Nat × Int, (∀ y ∈ acc.1, y ∈ pop) →
      ∀ y ∈ (l.foldl (fun acc other => if x = other then acc else if gt x other then (acc.1 ++ [other], acc.2)
        else if gt other x then (acc.1, acc.2 + 1) else acc) acc).1, y ∈ pop from h pop (fun _ h => h) _ (by simp)
  intro l
  induction l with
  | nil => exact fun _ acc h => h
  | cons z l ih =>
    intro hl acc h
    refine ih (fun y hy => hl y (List.mem_cons_of_mem _ hy)) _ ?_
    dsimp only
    by_cases h1 : x = z
    · rwa [if_pos h1]
    · rw [if_neg h1]
      by_cases h2 : gt x z = true
      · rw [if_pos h2]
        intro y hy
        rcases List.mem_append.1 hy with hy | hy
        · exact h y hy
        · rw [List.mem_singleton] at hy; subst hy; exact hl y (by simp)
      · rw [if_neg h2]; split <;> exact h

theorem firstFront_members (gt : Nat → Nat → Bool) (pop : List Nat) (st : SortAttrs) :
    (∀ x ∈ pop, ∀ y ∈ (firstFront gt pop st).1.dominates x, y ∈ pop) ∧ ∀ x ∈ (firstFront gt pop st).2, x ∈ pop := by
  unfold firstFront
  suffices h : ∀ (l : List Nat), (∀ y ∈ l, y ∈ pop) → ∀ (done : List Nat) (acc : SortAttrs × List Nat),
      (∀ x ∈ done, ∀ y ∈ acc.1.dominates x, y ∈ pop) → (∀ x ∈ acc.2, x ∈ pop) →
      let r := l.foldl (fun acc individual =>
        let c := compareWithAll gt individual pop
        let st : SortAttrs := ⟨setAttr acc.1.dominates individual c.1, setAttr acc.1.dominatedBy individual c.2,
          setAttr acc.1.rank individual (if c.2 = 0 then 1 else 0)⟩
        (st, if c.2 = 0 then acc.2 ++ [individual] else acc.2)) acc
      (∀ x ∈ done ++ l, ∀ y ∈ r.1.dominates x, y ∈ pop) ∧ ∀ x ∈ r.2, x ∈ pop by
    simpa using h pop (fun _ h => h) [] (st, []) (by simp) (by simp)
  intro l
  induction l with
  | nil => intro _ done acc h1 h2; simpa using ⟨h1, h2⟩
  | cons z l ih =>
    intro hl done acc h1 h2
    have := ih (fun y hy => hl y (List.mem_cons_of_mem _ hy)) (done ++ [z])
      (⟨setAttr acc.1.dominates z (compareWithAll gt z pop).1, setAttr acc.1.dominatedBy z (compareWithAll gt z pop).2,
          setAttr acc.1.rank z (if (compareWithAll gt z pop).2 = 0 then 1 else 0)⟩,
        if (compareWithAll gt z pop).2 = 0 then acc.2 ++ [z] else acc.2) ?_ ?_
    · simpa using this
    · intro x hx y hy
      simp only [setAttr] at hy
      split at hy
      · exact compareWithAll_mem gt z pop y hy
      · rename_i hne
        rcases List.mem_append.1 hx with hx | hx
        · exact h1 x hx y hy
        · exact absurd (List.mem_singleton.1 hx) hne
    · intro x hx
      dsimp only at hx
      split at hx
      · rcases List.mem_append.1 hx with hx | hx
        · exact h2 x hx
        · rw [List.mem_singleton] at hx; subst hx; exact hl x (by simp)
      · exact h2 x hx

/-- C128: `fast_nondominated_sort` comes to an end on every non-empty population of a multi-objective problem, whatever comparing two
individuals answers (even if it is no order at all, as NaN may cause) and even if one individual occurs several times: after at most one round
more than there are individuals. -/
theorem fast_sort_ends (gt : Nat → Nat → Bool) (multi : Nat → Bool) (first : Nat) (population : List Nat) (hm : multi first = true)
    (parents : Option (List Nat)) (st : SortAttrs) (fuel : Nat) (hfuel : (first :: population ++ parents.getD []).length + 1 ≤ fuel) :
    ∃ st', fastNondominatedSort gt multi (first :: population) parents st fuel = .ok (first :: population ++ parents.getD [], some st') := by
  have hw : withParents (first :: population) parents = first :: population ++ parents.getD [] := by
    cases parents <;> simp [withParents]
  unfold fastNondominatedSort
  rw [hw]
  obtain ⟨h1, h2⟩ := firstFront_members gt (first :: population ++ parents.getD []) st
  obtain ⟨st', e⟩ := fillRanks_ends (first :: population ++ parents.getD []) fuel 1
    (firstFront gt (first :: population ++ parents.getD []) st).2 (firstFront gt (first :: population ++ parents.getD []) st).1 h1 h2 (by
      have := Finset.card_filter_le (first :: population ++ parents.getD []).toFinset fun y =>
        0 < (firstFront gt (first :: population ++ parents.getD []) st).1.dominatedBy y
      have := List.toFinset_card_le (first :: population ++ parents.getD [])
      omega)
  refine ⟨st', ?_⟩
  simp only [hm, if_true, e]

/-- A comparison in a circle, and an individual that occurs twice: still two rounds. -/
example : ((fastNondominatedSort (fun a b => decide ((a + 1) % 3 = b)) (fun _ => true) [0, 1, 2, 1] none ⟨fun _ => [], fun _ => 0, fun _ => 9⟩ 5).toOption.bind
    fun r => r.2.map fun st => [0, 1, 2, 3].map st.rank) = some [0, 0, 0, 9] := by decide

/-! ## The same ranks -/

theorem compareWithAll_congr (gt gt' : Nat → Nat → Bool) (pop : List Nat) (h : ∀ a ∈ pop, ∀ b ∈ pop, gt a b = gt' a b) (x : Nat) (hx : x ∈ pop) :
    compareWithAll gt x pop = compareWithAll gt' x pop := by
  unfold compareWithAll
  refine List.foldl_ext _ _ _ fun acc y hy => ?_
  rw [h x hx y hy, h y hy x hx]

theorem firstFront_congr (gt gt' : Nat → Nat → Bool) (pop : List Nat) (h : ∀ a ∈ pop, ∀ b ∈ pop, gt a b = gt' a b) (st : SortAttrs) :
    firstFront gt pop st = firstFront gt' pop st := by
  unfold firstFront
  refine List.foldl_ext _ _ _ fun acc y hy => ?_
  rw [compareWithAll_congr gt gt' pop h y hy]

theorem fast_sort_congr (gt gt' : Nat → Nat → Bool) (multi : Nat → Bool) (population parents : List Nat) (st : SortAttrs) (fuel : Nat)
    (h : ∀ a ∈ population ++ parents, ∀ b ∈ population ++ parents, gt a b = gt' a b) :
    fastNondominatedSort gt multi population (some parents) st fuel = fastNondominatedSort gt' multi population (some parents) st fuel := by
  cases population with
  | nil => rfl
  | cons first population =>
    unfold fastNondominatedSort
    simp only [withParents, firstFront_congr gt gt' _ h]

theorem remaining_congr {α : Type} (dom dom' : α → α → Bool) (pop : List α) (h : ∀ a ∈ pop, ∀ b ∈ pop, dom a b = dom' a b) (k : Nat) :
    remaining dom pop k = remaining dom' pop k := by
  induction k with
  | zero => rfl
  | succ k ih =>
    simp only [remaining, ← ih]
    refine List.filter_congr fun x hx => ?_
    rw [Bool.eq_iff_iff, List.any_eq_true, List.any_eq_true]
    have hx' := remaining_mem hx
    constructor
    · rintro ⟨y, hy, hd⟩; exact ⟨y, hy, by rw [← h y (remaining_mem hy) x hx']; exact hd⟩
    · rintro ⟨y, hy, hd⟩; exact ⟨y, hy, by rw [h y (remaining_mem hy) x hx']; exact hd⟩

/-- C128: on at least one offspring, with all individuals different objects of one problem and their vectors as long as the problem has objectives,
the two ranking functions do exactly the same: they return the same list, give everybody the same rank and touch nobody else's. -/
theorem rank_functions_same (ms : List Bool) (hms : ms ≠ []) (maximize : Nat → List Bool) (multi : Nat → Bool) (fit : Nat → List ℚ)
    (population parents : List Nat) (old : SortAttrs) (hne : population ≠ []) (hn : (population ++ parents).Nodup)
    (hmax : ∀ x ∈ population ++ parents, maximize x = ms) (hm : ∀ x ∈ population, multi x = true)
    (hf : ∀ x ∈ population ++ parents, (fit x).length = ms.length) :
    rankBy .fast maximize multi fit population parents old = rankBy .ordinal maximize multi fit population parents old := by
  set fit' : Nat → List ℚ := fun x => if x ∈ population ++ parents then fit x else ms.map fun _ => 0 with hfit'
  have hl : ∀ x, (fit' x).length = ms.length := by
    intro x; simp only [hfit']; split
    · rename_i hx; exact hf x hx
    · simp
  have hon : ∀ x ∈ population ++ parents, fit' x = fit x := fun x hx => if_pos hx
  obtain ⟨rank', e1, r1, o1⟩ := rank_ordinal_ranks ms hms maximize fit population (some parents) old.rank (by simp [hne]) hmax hf
  obtain ⟨st', e2, r2, o2⟩ := fast_sort_ranks_partial (paretoGt ⟨ms⟩ fun y => (fit' y).map Num.fin)
    (paretoGt_strictPartial ⟨ms⟩ _ (by intro x; simpa using hl x)) multi population (some parents) old hne hm hn
    (population.length + parents.length + 1) (by simp)
  have hgt : ∀ a ∈ population ++ parents, ∀ b ∈ population ++ parents,
      individualGt maximize fit a b = paretoGt ⟨ms⟩ (fun y => (fit' y).map Num.fin) a b := by
    intro a ha b hb
    simp only [individualGt, paretoGt, hon a ha, hon b hb, hmax a ha]
  have hgt' : ∀ a ∈ population ++ parents, ∀ b ∈ population ++ parents,
      paretoGt ⟨ms⟩ (fun y => (fit y).map Num.fin) a b = paretoGt ⟨ms⟩ (fun y => (fit' y).map Num.fin) a b := by
    intro a ha b hb
    simp only [paretoGt, hon a ha, hon b hb]
  have hrank : rank' = st'.rank := by
    funext x
    by_cases hx : x ∈ population ++ parents
    · refine hasRank_unique (r1 x hx) ?_
      have := r2 x hx
      simp only [HasRank, Option.getD_some] at this ⊢
      rw [remaining_congr _ _ _ hgt', remaining_congr _ _ _ hgt']
      exact this
    · rw [o1 x hx, o2 x hx]
  unfold rankBy
  simp only [e1]
  rw [fast_sort_congr _ _ multi population parents old _ hgt, e2]
  simp only [hrank]

/-- C128: the same survivors in the same order, with the same ranks and distances. -/
theorem survivors_same (ms : List Bool) (hms : ms ≠ []) (maximize : Nat → List Bool) (multi : Nat → Bool) (fit : Nat → List ℚ)
    (offspring parents : List Nat) (rank : Nat → Nat) (distance : Nat → WithTop ℚ) (hne : offspring ≠ []) (hn : (offspring ++ parents).Nodup)
    (hmax : ∀ x ∈ offspring ++ parents, maximize x = ms) (hm : ∀ x ∈ offspring, multi x = true)
    (hf : ∀ x ∈ offspring ++ parents, (fit x).length = ms.length) :
    surviveBy .fast maximize multi fit offspring parents rank distance = nsga2Survive maximize multi fit offspring parents rank distance := by
  unfold surviveBy nsga2Survive
  rw [rank_functions_same ms hms maximize multi fit offspring parents _ hne hn hmax hm hf]
  rfl

theorem surviveBy_ordinal (maximize : Nat → List Bool) (multi : Nat → Bool) (fit : Nat → List ℚ) (offspring parents : List Nat)
    (rank : Nat → Nat) (distance : Nat → WithTop ℚ) :
    surviveBy .ordinal maximize multi fit offspring parents rank distance = nsga2Survive maximize multi fit offspring parents rank distance := rfl

/-! ## The same runs -/

theorem nsgaGenerationBy_ordinal (cfg : NsgaConfig γ ψ ρ) (g : Int) (st : NsgaState) :
    nsgaGenerationBy .ordinal cfg g st = nsgaGeneration cfg g st := rfl

theorem nsgaLoopBy_ordinal (cfg : NsgaConfig γ ψ ρ) (fuel : Nat) : ∀ (g : Int) (st : NsgaState),
    nsgaLoopBy .ordinal cfg fuel g st = nsgaLoop cfg fuel g st := by
  induction fuel with
  | zero => exact fun _ _ => rfl
  | succ fuel ih =>
    intro g st
    unfold nsgaLoopBy nsgaLoop
    have : nsgaLoopBy .ordinal cfg fuel (g + 1) = nsgaLoop cfg fuel (g + 1) := funext (ih (g + 1))
    rw [this, nsgaGenerationBy_ordinal]

theorem nsgaRunBy_ordinal (cfg : NsgaConfig γ ψ ρ) (isMulti : Bool) (initGenome : ρ → PyM (List γ) × ρ) (dec : Dec γ ψ)
    (prob : Prob γ ψ (List ℚ) ρ) (problem popSize : Nat) (startGeneration maxGenerations : Int) (rank : Nat → Nat)
    (distance : Nat → WithTop ℚ) :
    nsgaRunBy .ordinal cfg isMulti initGenome dec prob problem popSize startGeneration maxGenerations rank distance =
      nsgaRun cfg isMulti initGenome dec prob problem popSize startGeneration maxGenerations rank distance := by
  unfold nsgaRunBy nsgaRun
  simp only [nsgaLoopBy_ordinal]

/-- C128: one generation, on a population of different members of the run. -/
theorem generation_same (cfg : NsgaConfig γ ψ ρ) (hms : cfg.maximize ≠ []) (hst : ∀ st ∈ cfg.stages, StageOk n allowed truth st)
    (hev : endsEvaluated cfg.stages = true) (hlen : ∀ g f, truth g f → f.length = cfg.maximize.length) (hsize : 0 < cfg.size) (g : Int)
    (st : NsgaState) (m : Mem γ ψ (List ℚ) ρ) (hm : Sound m) (hnd : st.pop.Nodup) (hp : ∀ r ∈ st.pop, Member n allowed truth m r) :
    nsgaGenerationBy .fast cfg g st m = nsgaGeneration cfg g st m := by
  unfold nsgaGenerationBy nsgaGeneration
  rcases e : runPipeline st.pop (cfg.choose g st.rank st.distance st.pop) cfg.stages cfg.size m with ⟨x, m1⟩
  cases x with
  | error err => rfl
  | ok off =>
    obtain ⟨s1, u1, l1, nd1, q1⟩ := pipeline_keeps_feasible m m1 hm st.pop (fun r hr => ((member_iff m r).1 (hp r hr)).1) _
      cfg.stages hst cfg.size off e
    have hmem : ∀ r ∈ off ++ st.pop, Member n allowed truth m1 r := by
      intro r hr
      rcases List.mem_append.1 hr with hr | hr
      · obtain ⟨-, -, a1, a2⟩ := q1 r hr
        exact (member_iff m1 r).2 ⟨a1, a2 hev⟩
      · exact member_unchanged hm u1 (hp r hr)
    have hall : (off ++ st.pop).Nodup := by
      refine List.nodup_append.2 ⟨nd1, hnd, fun a ha b hb hab => ?_⟩
      have h1 := (q1 a ha).1
      have h2 := member_lt (hp b hb)
      omega
    simp only
    rw [survivors_same cfg.maximize hms (fun _ => cfg.maximize) (fun _ => true) (vectorOf m1) off st.pop st.rank st.distance
      (by intro h; rw [h] at l1; simp at l1; omega) hall (fun _ _ => rfl) (fun _ _ => rfl) (fun x hx => by
        obtain ⟨g', -, -, ht⟩ := vectorOf_member (hmem x hx)
        exact hlen _ _ ht)]
    rfl

theorem loop_same (cfg : NsgaConfig γ ψ ρ) (hms : cfg.maximize ≠ []) (hst : ∀ st ∈ cfg.stages, StageOk n allowed truth st)
    (hev : endsEvaluated cfg.stages = true) (hlen : ∀ g f, truth g f → f.length = cfg.maximize.length) (hsize : 0 < cfg.size) (fuel : Nat) :
    ∀ (g : Int) (st : NsgaState) (m : Mem γ ψ (List ℚ) ρ), Sound m → st.pop.Nodup → (∀ r ∈ st.pop, Member n allowed truth m r) →
      nsgaLoopBy .fast cfg fuel g st m = nsgaLoop cfg fuel g st m := by
  induction fuel with
  | zero => exact fun _ _ _ _ _ _ => rfl
  | succ fuel ih =>
    intro g st m hm hnd hp
    unfold nsgaLoopBy nsgaLoop
    split
    · rfl
    · have hg := generation_same cfg hms hst hev hlen hsize g st m hm hnd hp
      rcases e : nsgaGeneration cfg g st m with ⟨x, m1⟩
      have e' := hg.trans e
      simp only [HM.bind_apply, e, e']
      cases x with
      | error err => rfl
      | ok st1 =>
        obtain ⟨-, s1, -, nd1, -, q1⟩ := nsga_generation_spec cfg hms hst hev hlen g st st1 m m1 hm hnd hp e
        exact ih (g + 1) st1 m1 s1 nd1 fun r hr => (q1 r hr).1

/-- C128: `rank_func` makes no difference. With any selection (which may look at ranks and distances), any chain of operators that ends with an
evaluation and makes at least one child, any stop condition, number of generations and random numbers, in a program that may hold other
individuals: a run of NSGA-II with `fast_nondominated_sort` and one with `rank_ordinal_sort` do the same. Either both return, the same
individuals in the same order, with the same ranks and distances, everything in memory the same and the same random numbers used; or both raise the same
exception with the same things done. -/
theorem rank_func_irrelevant (cfg : NsgaConfig γ ψ ρ) (hms : cfg.maximize ≠ []) (initGenome : ρ → PyM (List γ) × ρ) (dec : Dec γ ψ)
    (prob : Prob γ ψ (List ℚ) ρ) (hinit : ∀ s g s', initGenome s = (.ok g, s') → GenesIn n allowed g)
    (hst : ∀ st ∈ cfg.stages, StageOk n allowed (ScoredBy dec prob) st) (hev : endsEvaluated cfg.stages = true)
    (hlen : ∀ g f, ScoredBy dec prob g f → f.length = cfg.maximize.length) (hsize : 0 < cfg.size) (isMulti : Bool)
    (problem popSize : Nat) (startGeneration maxGenerations : Int) (rank : Nat → Nat) (distance : Nat → WithTop ℚ) (m : Mem γ ψ (List ℚ) ρ)
    (hm : Sound m) :
    nsgaRunBy .fast cfg isMulti initGenome dec prob problem popSize startGeneration maxGenerations rank distance m =
      nsgaRunBy .ordinal cfg isMulti initGenome dec prob problem popSize startGeneration maxGenerations rank distance m := by
  rw [nsgaRunBy_ordinal]
  unfold nsgaRunBy nsgaRun
  split
  swap
  · rfl
  rcases e1 : createPopulation initGenome problem popSize m with ⟨x, m1⟩
  simp only [HM.bind_apply, e1]
  cases x with
  | error err => rfl
  | ok parents =>
    simp only
    rcases e2 : evaluatePopulation dec prob parents m1 with ⟨x, m2⟩
    cases x with
    | error err => rfl
    | ok u =>
      obtain ⟨s1, u1, l1, nd1, r1, g1⟩ := createPopulation_good (truth := ScoredBy dec prob) initGenome hinit problem popSize m m1 hm parents e1
      obtain ⟨s2, sm2, a2, b2, n2, k2, -, p2⟩ := evaluatePopulation_members dec prob (fun g c s f _ hc hf => ⟨c, s, hc, hf⟩) parents m1 m2 s1 g1 e2
      exact loop_same cfg hms hst hev hlen hsize _ _ _ _ s2 nd1 fun r hr => (member_iff m2 r).2 ⟨k2 r (g1 r hr), p2 r hr⟩

/-! ## Where the two functions differ -/

/-- C128: without offspring (a pipeline ending in `pool(size=0)`, or a filter that drops everybody) the ranking functions differ: the default one ranks
the parents and the generation is completed; the fast one looks at the first offspring's problem and raises. -/
theorem no_offspring_differ (maximize : Nat → List Bool) (multi : Nat → Bool) (fit : Nat → List ℚ) (parents : List Nat) (rank : Nat → Nat)
    (distance : Nat → WithTop ℚ) :
    surviveBy .fast maximize multi fit [] parents rank distance = .error .indexError ∧
    ∀ ms : List Bool, ms ≠ [] → parents ≠ [] → parents.Nodup → (∀ x ∈ parents, maximize x = ms) → (∀ x ∈ parents, multi x = true) →
      (∀ x ∈ parents, (fit x).length = ms.length) → ∃ r, surviveBy .ordinal maximize multi fit [] parents rank distance = .ok r := by
  refine ⟨rfl, fun ms hms hne hn hmax hm hf => ?_⟩
  obtain ⟨kept, rank', distance', e, -⟩ := nsga2_survivors ms hms maximize multi fit [] parents rank distance (by simpa using hne)
    (by simpa using hn) (by simpa using hmax) (by simpa using hm) (by simpa using hf)
  exact ⟨_, e⟩

/-- C128: a pipeline without `clone` may return a parent as its own offspring, and then the functions disagree. The fast one counts both occurrences of
the individual (1) as dominating 2 and 3, but lets go of these only once for it, so they keep the rank 0, which selection takes for better than 1. Here 0 and 4
dominate 1, and 1 dominates 2 and 3. The default function keeps the best, the fast one the worst. -/
theorem no_clone_differ :
    let fit : Nat → List ℚ := fun x => [[3, 4], [2, 2], [1, 0], [0, 1], [4, 3]].getD x []
    ((surviveBy .ordinal (fun _ => [true, true]) (fun _ => true) fit [1, 4, 2, 3] [0, 1] (fun _ => 9) (fun _ => 0)).map fun r => (r.1, [0, 1, 2, 3, 4].map r.2.1)) =
      .ok ([4, 0], [1, 2, 3, 3, 1]) ∧
    ((surviveBy .fast (fun _ => [true, true]) (fun _ => true) fit [1, 4, 2, 3] [0, 1] (fun _ => 9) (fun _ => 0)).map fun r => (r.1, [0, 1, 2, 3, 4].map r.2.1)) =
      .ok ([2, 3], [1, 2, 0, 0, 1]) := by decide +kernel

set_option synthInstance.maxSize 1000 in
set_option synthInstance.maxHeartbeats 100000 in
/-- A run that meets the hypotheses of `rank_func_irrelevant` (the others are shown beside `nsga_run_members`), with either function. -/
example : 0 < (exNsgaRun exTwo).size ∧
    ∀ rf ∈ [RankFunc.fast, RankFunc.ordinal],
    ((nsgaRunBy rf (exNsgaRun exTwo) true exInit .identity exTwo 0 3 0 2 (fun _ => 0) (fun _ => 0) exEmpty).1.toOption.map fun st =>
      st.pop.map fun r => (genes (nsgaRunBy rf (exNsgaRun exTwo) true exInit .identity exTwo 0 3 0 2 (fun _ => 0) (fun _ => 0) exEmpty).2 r, st.rank r)) =
      some [(some [1, 1], 1), (some [0, 0], 1), (some [0, 0], 1)] := by decide +kernel

end Leap
