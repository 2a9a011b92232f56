import Verif.Model.MoFailure
import Verif.Props.SteadyNsga2

/-!
# C126: failing evaluations in multi-objective runs
-/

namespace Leap

/-- The evaluation of `x` gave an array with one value per objective. -/
def Spec.Scored (ms : List Bool) (fit : Nat → MoFit) (x : Nat) : Prop := ∃ l, fit x = .vec l ∧ l.length = ms.length

/-- The evaluation of `x` gave an array with one value per objective, or raised. -/
def Spec.Tried (ms : List Bool) (fit : Nat → MoFit) (x : Nat) : Prop := Scored ms fit x ∨ fit x = .failed

/-- The objective values, as the theorems about runs without failures want them. -/
def Spec.scores (ms : List Bool) (fit : Nat → MoFit) (x : Nat) : List ℚ := (fit x).values ms.length

open Spec

variable {ms : List Bool} {fit : Nat → MoFit}

/-! ### Crowding -/

theorem reads_one_ok {x : Nat} (h : Scored ms fit x) :
    ∃ vs, pyMapM (fun j => (fit x).at j) (List.range ms.length) = .ok vs := by
  obtain ⟨l, e, hl⟩ := h
  rw [e]
  have key : ∀ js : List Nat, (∀ j ∈ js, j < l.length) → ∃ vs, pyMapM (fun j => (MoFit.vec l).at j) js = .ok vs := by
    intro js
    induction js with
    | nil => intro _; exact ⟨[], rfl⟩
    | cons j js ih =>
      intro hj
      obtain ⟨vs, e⟩ := ih fun k hk => hj k (List.mem_cons_of_mem _ hk)
      have hjl : j < l.length := hj j (List.mem_cons_self ..)
      have e1 : (MoFit.vec l).at j = .ok l[j] := by
        simp [MoFit.at, List.getElem?_eq_getElem hjl]
      refine ⟨l[j] :: vs, ?_⟩
      simp only [pyMapM, e1, e, bind, Except.bind]
  exact key _ fun j hj => by rw [hl]; exact List.mem_range.1 hj

theorem reads_one_failed (hms : ms ≠ []) {x : Nat} (h : fit x = .failed) :
    pyMapM (fun j => (fit x).at j) (List.range ms.length) = .error .typeError := by
  cases ms with
  | nil => exact absurd rfl hms
  | cons m ms =>
    rw [List.length_cons, List.range_succ_eq_map, h]
    rfl

theorem reads_ok {pop : List Nat} (h : ∀ x ∈ pop, Scored ms fit x) : ∃ vs, crowdReads fit ms.length pop = .ok vs := by
  unfold crowdReads
  induction pop with
  | nil => exact ⟨[], rfl⟩
  | cons x pop ih =>
    obtain ⟨v, e⟩ := reads_one_ok (h x (List.mem_cons_self ..))
    obtain ⟨vs, e'⟩ := ih fun y hy => h y (List.mem_cons_of_mem _ hy)
    refine ⟨v :: vs, ?_⟩
    simp only [pyMapM, e, e', bind, Except.bind]

theorem reads_failed (hms : ms ≠ []) {pop : List Nat} (h : ∀ x ∈ pop, Tried ms fit x) (hf : ∃ x ∈ pop, fit x = .failed) :
    crowdReads fit ms.length pop = .error .typeError := by
  unfold crowdReads
  induction pop with
  | nil => simp at hf
  | cons x pop ih =>
    rcases h x (List.mem_cons_self ..) with hx | hx
    · obtain ⟨v, e⟩ := reads_one_ok hx
      have : ∃ y ∈ pop, fit y = .failed := by
        obtain ⟨y, hy, hy'⟩ := hf
        rcases List.mem_cons.1 hy with rfl | hy
        · obtain ⟨l, e, _⟩ := hx; rw [e] at hy'; cases hy'
        · exact ⟨y, hy, hy'⟩
      simp only [pyMapM, e, bind, Except.bind]
      rw [ih (fun y hy => h y (List.mem_cons_of_mem _ hy)) this]
    · simp only [pyMapM, bind, Except.bind, reads_one_failed hms hx]

/-- C126: crowding raises `TypeError` as soon as one of the individuals of a rank has failed. -/
theorem crowding_failed_raises (hms : ms ≠ []) (pop : List Nat) (h : ∀ x ∈ pop, Tried ms fit x)
    (hf : ∃ x ∈ pop, fit x = .failed) (d : Nat → WithTop ℚ) : perRankCrowdingMo fit ms pop d = .error .typeError := by
  simp [perRankCrowdingMo, reads_failed hms h hf, bind, Except.bind]

theorem crowding_scored (pop : List Nat) (h : ∀ x ∈ pop, Scored ms fit x) (d : Nat → WithTop ℚ) :
    perRankCrowdingMo fit ms pop d = perRankCrowding (scores ms fit) ms pop d := by
  obtain ⟨vs, e⟩ := reads_ok h
  unfold perRankCrowdingMo
  rw [e]
  rfl

/-! ### The inserter -/

theorem oriented_nan (hms : ms ≠ []) : MOProblem.oriented ⟨ms⟩ [.nan] = .ok (ms.map fun _ => Num.nan) := by
  have hn : ∀ b : Bool, (if b = true then Num.nan else Num.nan.neg) = Num.nan := by intro b; cases b <;> rfl
  match ms, hms with
  | [m], _ => cases m <;> rfl
  | m :: m' :: ms, _ => simp [MOProblem.oriented, npBroadcast, hn]

theorem failed_row (hms : ms ≠ []) {x : Nat} (h : fit x = .failed) : moFitRow ms fit x = ms.map fun _ => Num.nan := by
  simp only [moFitRow, h, MoFit.nums, oriented_nan hms]

theorem zenith_nan_dominates (z : List Num) (hz : ∀ v ∈ z, v = Num.nan) (f : List Num) : zenithDominatesNum z f = false := by
  unfold zenithDominatesNum
  have : (List.zipWith (fun a b => Num.lt b a) z f).any id = false := by
    induction z generalizing f with
    | nil => rfl
    | cons a z ih =>
      cases f with
      | nil => rfl
      | cons b f =>
        have ha := hz a (List.mem_cons_self ..)
        subst ha
        have hb : Num.lt b .nan = false := by cases b <;> rfl
        simp only [List.zipWith_cons_cons, List.any_cons, hb, id, Bool.false_or]
        exact ih (fun v hv => hz v (List.mem_cons_of_mem _ hv)) f
  rw [this, Bool.and_false]

theorem failed_splits_nobody (hms : ms ≠ []) {x : Nat} (h : fit x = .failed) (layer : List Nat) :
    splitDominatedNum (moFitRow ms fit) x [] layer = (layer, []) := by
  have hz : ∀ f, zenithDominatesNum (zenithNum (moFitRow ms fit) x []) f = false := by
    intro f
    apply zenith_nan_dominates
    intro v hv
    rw [zenithNum, List.foldl_nil, failed_row hms h, List.mem_map] at hv
    obtain ⟨_, _, rfl⟩ := hv
    rfl
  simp [splitDominatedNum, hz]

theorem failed_undominated (hms : ms ≠ []) {x y : Nat} (h : fit x = .failed) (hy : Tried ms fit y) :
    moFitGt ms fit y x = false := by
  unfold moFitGt
  rw [h]
  have e : moGt ⟨ms⟩ (some (fit y).nums) (some MoFit.failed.nums) = .ok false := by
    rcases hy with ⟨l, e, hl⟩ | e
    · rw [e]
      exact (pareto_failed_incomparable ⟨ms⟩ (l.map Num.fin) hms (by simpa using hl)).2.1
    · rw [e]
      have h1 := (pareto_failed_incomparable ⟨ms⟩ (ms.map fun _ => Num.nan) hms (by simp)).2.1
      have e2 := oriented_nan hms
      have e3 : MOProblem.oriented ⟨ms⟩ (ms.map fun _ => Num.nan) = .ok (ms.map fun _ => Num.nan) := by
        unfold MOProblem.oriented npBroadcast
        rw [if_pos (by simp)]
        congr 1
        clear h1 e2 hms
        induction ms with
        | nil => rfl
        | cons m ms ih => simp only [List.map_cons, List.zipWith_cons_cons, ih]; cases m <;> rfl
      have e4 : MOProblem.oriented ⟨ms⟩ [.nan] = MOProblem.oriented ⟨ms⟩ (ms.map fun _ => Num.nan) := by
        rw [e3]; exact e2
      have e5 : MoFit.failed.nums = [.nan] := rfl
      rw [e5]
      simp only [moGt, moEq, moLt, MOProblem.equivalent, MOProblem.worseThan, e4] at h1 ⊢
      exact h1
  rw [e]

theorem findStart_undominated (gt : Nat → Nat → Bool) (x : Nat) (layers : List (List Nat))
    (h : ∀ y ∈ layers.flatten, gt y x = false) : findStartLayer gt x layers = 0 := by
  have key : ∀ (n : Nat) (hi : Int), (hi + 1).toNat ≤ n → findStartLoop gt x layers 0 hi = 0 := by
    intro n
    induction n with
    | zero =>
      intro hi hn
      unfold findStartLoop
      rw [dif_neg (by omega)]
    | succ n ih =>
      intro hi hn
      unfold findStartLoop
      split
      · have hd : dominatedInLayer gt x (layers.getD (((0 : Int) + hi) / 2).toNat []) = false := by
          rw [dominatedInLayer, List.any_eq_false]
          intro y hy
          rw [Bool.not_eq_true]
          refine h y (List.mem_flatten.2 ⟨_, ?_, hy⟩)
          rw [List.getD_eq_getElem?_getD] at hy ⊢
          cases hl : layers[(((0 : Int) + hi) / 2).toNat]? with
          | none => rw [hl] at hy; simp at hy
          | some l => simpa using List.mem_of_getElem? hl
        simp only [hd, Bool.not_false, if_true]
        exact ih _ (by omega)
      · rfl
  unfold findStartLayer
  rw [key _ _ (le_refl _)]
  rfl

/-- C126: whatever a steady-state NSGA-II inserter holds, inserting an individual whose evaluation failed raises `TypeError`. -/
theorem enlu_failed_raises (hms : ms ≠ []) (popSize x : Nat) (st : EnluState)
    (hs : ∀ y ∈ st.layers.flatten, Scored ms fit y) (hx : fit x = .failed) :
    enluInsertMo fit ms popSize x st = .error .typeError := by
  have h0 : findStartLayer (moFitGt ms fit) x st.layers = 0 :=
    findStart_undominated _ _ _ fun y hy => failed_undominated hms hx (Or.inl (hs y hy))
  have hloop : ∃ (layer : List Nat) (below : List (List Nat)) (rank : Nat → Nat),
      enluIndsRankNum (moFitGt ms fit) (moFitRow ms fit) x st.layers st.rank = (layer :: below, 0, 1, rank) ∧ x ∈ layer ∧
      ∀ y ∈ layer, Tried ms fit y := by
    unfold enluIndsRankNum
    rw [h0]
    simp only [List.drop_zero, List.take_zero, List.nil_append]
    cases hl : st.layers with
    | nil => exact ⟨[x], [], _, rfl, by simp, by simp [Tried, hx]⟩
    | cons layer below =>
      unfold enluLoopNum
      simp only [failed_splits_nobody hms hx]
      by_cases he : layer = []
      · rw [if_pos he]
        exact ⟨[x], _, _, rfl, by simp, by simp [Tried, hx]⟩
      · rw [if_neg he]
        simp only [setDomination, List.map_nil, List.zip_nil_left, List.filter_nil, List.append_nil]
        refine ⟨layer ++ [x], below, setRanks st.rank (layer ++ [x]) 1, ?_, by simp, ?_⟩
        · cases below <;> rfl
        · intro y hy
          rcases List.mem_append.1 hy with hy | hy
          · exact Or.inl (hs y (by rw [hl, List.flatten_cons]; exact List.mem_append_left _ hy))
          · rw [List.mem_singleton] at hy; subst hy; exact Or.inr hx
  obtain ⟨layer, below, rank, e, hxl, htried⟩ := hloop
  unfold enluInsertMo
  rw [e]
  simp only [List.take_succ_cons, List.take_zero, List.drop_zero, bind, Except.bind]
  have hc : crowdLayersMo fit ms [layer] st.distance = .error .typeError := by
    unfold crowdLayersMo
    rw [if_neg (List.ne_nil_of_mem hxl), crowding_failed_raises hms layer htried ⟨x, hxl, hx⟩]
    rfl
  rw [hc]

/-! ### Without failures -/

theorem scores_length (ht : ∀ x, Tried ms fit x) (x : Nat) : (scores ms fit x).length = ms.length := by
  rcases ht x with ⟨l, e, hl⟩ | e
  · simp [scores, e, MoFit.values, hl]
  · simp [scores, e, MoFit.values]

theorem scored_values {x : Nat} (h : Scored ms fit x) : fit x = .vec (scores ms fit x) := by
  obtain ⟨l, e, _⟩ := h
  simp [scores, e, MoFit.values]

theorem scored_gt {x y : Nat} (hx : Scored ms fit x) (hy : Scored ms fit y) :
    moFitGt ms fit x y = moDominates ms (scores ms fit) x y := by
  unfold moFitGt moDominates paretoGt
  rw [scored_values hx, scored_values hy]
  simp only [MoFit.nums]
  cases moGt ⟨ms⟩ (some ((scores ms fit x).map Num.fin)) (some ((scores ms fit y).map Num.fin)) <;> rfl

theorem scored_row {x : Nat} (hx : Scored ms fit x) : moFitRow ms fit x = (moRow ms (scores ms fit) x).map Num.fin := by
  obtain ⟨l, e, hl⟩ := hx
  have hs : scores ms fit x = l := by simp [scores, e, MoFit.values]
  unfold moFitRow moRow rowOf
  rw [e, hs]
  simp only [MoFit.nums, MOProblem.oriented]
  rw [bcast_same _ _ _ (by simpa using hl)]
  simp only
  clear e hs
  induction l generalizing ms with
  | nil => rfl
  | cons a l ih =>
    cases ms with
    | nil => rfl
    | cons m ms =>
      simp only [List.map_cons, List.zipWith_cons_cons]
      rw [ih (by simpa using hl)]
      cases m <;> rfl

theorem zipMax_fin (a b : List ℚ) :
    List.zipWith npMaxNum (a.map Num.fin) (b.map Num.fin) = (List.zipWith max a b).map Num.fin := by
  induction a generalizing b with
  | nil => rfl
  | cons x a ih =>
    cases b with
    | nil => rfl
    | cons y b =>
      simp only [List.map_cons, List.zipWith_cons_cons, ih]
      congr 1
      simp only [npMaxNum, Num.lt, decide_eq_true_eq]
      split
      · rename_i h; rw [max_eq_right (le_of_lt h)]
      · rename_i h; rw [max_eq_left (not_lt.1 h)]

theorem zenithDominates_fin (z f : List ℚ) : zenithDominatesNum (z.map Num.fin) (f.map Num.fin) = zenithDominates z f := by
  unfold zenithDominatesNum zenithDominates
  congr 1
  · congr 1
    induction z generalizing f with
    | nil => rfl
    | cons a z ih =>
      cases f with
      | nil => rfl
      | cons b f =>
        simp only [List.map_cons, List.zipWith_cons_cons, ih]
        congr 1
        simp only [Num.ge, Num.lt, Num.eq, Num.fin.injEq]
        rw [Bool.eq_iff_iff]
        simp only [Bool.or_eq_true, decide_eq_true_eq]
        rw [le_iff_lt_or_eq]
        exact or_congr Iff.rfl eq_comm
  · congr 1
    induction z generalizing f with
    | nil => rfl
    | cons a z ih =>
      cases f with
      | nil => rfl
      | cons b f =>
        simp only [List.map_cons, List.zipWith_cons_cons, ih]
        rfl

theorem zenith_fin {first : Nat} {rest : List Nat} (h : ∀ x ∈ first :: rest, Scored ms fit x) :
    zenithNum (moFitRow ms fit) first rest = (zenith (moRow ms (scores ms fit)) first rest).map Num.fin := by
  unfold zenithNum zenith
  rw [scored_row (h first (List.mem_cons_self ..))]
  have key : ∀ (rest : List Nat), (∀ x ∈ rest, Scored ms fit x) → ∀ z : List ℚ,
      rest.foldl (fun z m => List.zipWith npMaxNum z (moFitRow ms fit m)) (z.map Num.fin) =
      (rest.foldl (fun z m => List.zipWith max z (moRow ms (scores ms fit) m)) z).map Num.fin := by
    intro rest
    induction rest with
    | nil => intro _ z; rfl
    | cons y rest ih =>
      intro hr z
      simp only [List.foldl_cons]
      rw [scored_row (hr y (List.mem_cons_self ..)), zipMax_fin]
      exact ih (fun x hx => hr x (List.mem_cons_of_mem _ hx)) _
  exact key rest (fun x hx => h x (List.mem_cons_of_mem _ hx)) _

theorem split_fin {first : Nat} {rest layer : List Nat} (h : ∀ x ∈ first :: rest, Scored ms fit x)
    (hl : ∀ x ∈ layer, Scored ms fit x) :
    splitDominatedNum (moFitRow ms fit) first rest layer = splitDominated (moRow ms (scores ms fit)) first rest layer := by
  unfold splitDominatedNum splitDominated
  have e : ∀ x ∈ layer, zenithDominatesNum (zenithNum (moFitRow ms fit) first rest) (moFitRow ms fit x) =
      zenithDominates (zenith (moRow ms (scores ms fit)) first rest) (moRow ms (scores ms fit) x) := by
    intro x hx
    rw [zenith_fin h, scored_row (hl x hx), zenithDominates_fin]
  simp only [Prod.mk.injEq]
  exact ⟨List.filter_congr fun x hx => by rw [e x hx], List.filter_congr fun x hx => e x hx⟩

theorem flagged_mem {l : List Nat} {bs : List Bool} (p : Nat × Bool → Bool) {x : Nat}
    (h : x ∈ ((l.zip bs).filter p).map fun q => q.1) : x ∈ l := by
  obtain ⟨q, hq, rfl⟩ := List.mem_map.1 h
  exact (List.of_mem_zip (List.mem_filter.1 hq).1).1

theorem enluLoop_fin (layers : List (List Nat)) : ∀ (moving : List Nat) (depth : Nat) (rank : Nat → Nat),
    (∀ x ∈ moving, Scored ms fit x) → (∀ x ∈ layers.flatten, Scored ms fit x) →
    enluLoopNum (moFitGt ms fit) (moFitRow ms fit) moving depth layers rank =
      enluLoop (moDominates ms (scores ms fit)) (moRow ms (scores ms fit)) moving depth layers rank := by
  induction layers with
  | nil =>
    intro moving depth rank _ _
    cases moving <;> rfl
  | cons layer below ih =>
    intro moving depth rank hm hl
    cases moving with
    | nil => rfl
    | cons first rest =>
      have hlayer : ∀ x ∈ layer, Scored ms fit x := fun x hx => hl x (by simp [hx])
      have hbelow : ∀ x ∈ below.flatten, Scored ms fit x := fun x hx =>
        hl x (by rw [List.flatten_cons]; exact List.mem_append_right _ hx)
      unfold enluLoopNum enluLoop
      simp only [split_fin hm hlayer]
      have hsub : ∀ x ∈ (splitDominated (moRow ms (scores ms fit)) first rest layer).2, Scored ms fit x :=
        fun x hx => hlayer x (List.mem_filter.1 hx).1
      have hdom : setDomination (moFitGt ms fit) (first :: rest) (splitDominated (moRow ms (scores ms fit)) first rest layer).2 =
          setDomination (moDominates ms (scores ms fit)) (first :: rest)
            (splitDominated (moRow ms (scores ms fit)) first rest layer).2 := by
        unfold setDomination
        apply List.map_congr_left
        intro r hr
        rw [Bool.eq_iff_iff, List.any_eq_true, List.any_eq_true]
        constructor
        · rintro ⟨l, h1, h2⟩; exact ⟨l, h1, by rwa [← scored_gt (hm l h1) (hsub r hr)]⟩
        · rintro ⟨l, h1, h2⟩; exact ⟨l, h1, by rwa [scored_gt (hm l h1) (hsub r hr)]⟩
      rw [hdom]
      split
      · rfl
      · rw [ih _ _ _ (fun x hx => hsub x (flagged_mem _ hx)) hbelow]

theorem enluLoop_members (gt : Nat → Nat → Bool) (row : Nat → List ℚ) (layers : List (List Nat)) :
    ∀ (moving : List Nat) (depth : Nat) (rank : Nat → Nat), ∀ x ∈ (enluLoop gt row moving depth layers rank).1.flatten,
      x ∈ moving ∨ x ∈ layers.flatten := by
  induction layers with
  | nil =>
    intro moving depth rank x hx
    cases moving with
    | nil => simp [enluLoop] at hx
    | cons first rest => left; simpa [enluLoop] using hx
  | cons layer below ih =>
    intro moving depth rank x hx
    cases moving with
    | nil => right; simpa [enluLoop] using hx
    | cons first rest =>
      unfold enluLoop at hx
      simp only at hx
      split at hx
      · rw [List.flatten_cons, List.mem_append] at hx
        exact hx
      · rw [List.flatten_cons, List.mem_append, List.mem_append, List.mem_append] at hx
        rcases hx with ((hx | hx) | hx) | hx
        · right; rw [List.flatten_cons]; exact List.mem_append_left _ (List.mem_filter.1 hx).1
        · exact Or.inl hx
        · right; rw [List.flatten_cons]; exact List.mem_append_left _ (List.mem_filter.1 (flagged_mem _ hx)).1
        · right
          rw [List.flatten_cons]
          rcases ih _ _ _ x hx with h | h
          · exact List.mem_append_left _ (List.mem_filter.1 (flagged_mem _ h)).1
          · exact List.mem_append_right _ h

theorem enluIndsRank_members (gt : Nat → Nat → Bool) (row : Nat → List ℚ) (x : Nat) (layers : List (List Nat))
    (rank : Nat → Nat) : ∀ y ∈ (enluIndsRank gt row x layers rank).1.flatten, y = x ∨ y ∈ layers.flatten := by
  intro y hy
  unfold enluIndsRank at hy
  simp only [List.flatten_append, List.mem_append] at hy
  rcases hy with hy | hy
  · obtain ⟨l, hl, hyl⟩ := List.mem_flatten.1 hy
    exact Or.inr (List.mem_flatten.2 ⟨l, List.mem_of_mem_take hl, hyl⟩)
  · rcases enluLoop_members _ _ _ _ _ _ y hy with h | h
    · exact Or.inl (by simpa using h)
    · obtain ⟨l, hl, hyl⟩ := List.mem_flatten.1 h
      exact Or.inr (List.mem_flatten.2 ⟨l, List.mem_of_mem_drop hl, hyl⟩)

theorem findStart_congr {gt gt' : Nat → Nat → Bool} (x : Nat) (layers : List (List Nat))
    (h : ∀ y ∈ layers.flatten, gt y x = gt' y x) : findStartLayer gt x layers = findStartLayer gt' x layers := by
  have hd : ∀ i : Nat, dominatedInLayer gt x (layers.getD i []) = dominatedInLayer gt' x (layers.getD i []) := by
    intro i
    unfold dominatedInLayer
    rw [List.getD_eq_getElem?_getD]
    cases hl : layers[i]? with
    | none => rfl
    | some l =>
      simp only [Option.getD_some]
      have hm := List.mem_of_getElem? hl
      rw [Bool.eq_iff_iff, List.any_eq_true, List.any_eq_true]
      constructor
      · rintro ⟨y, h1, h2⟩; exact ⟨y, h1, by rwa [← h y (List.mem_flatten.2 ⟨l, hm, h1⟩)]⟩
      · rintro ⟨y, h1, h2⟩; exact ⟨y, h1, by rwa [h y (List.mem_flatten.2 ⟨l, hm, h1⟩)]⟩
  have key : ∀ (n : Nat) (lo hi : Int), (hi + 1 - lo).toNat ≤ n → findStartLoop gt x layers lo hi = findStartLoop gt' x layers lo hi := by
    intro n
    induction n with
    | zero =>
      intro lo hi hn
      unfold findStartLoop
      rw [dif_neg (by omega), dif_neg (by omega)]
    | succ n ih =>
      intro lo hi hn
      rw [findStartLoop, findStartLoop.eq_def (gt := gt')]
      by_cases hlt : lo ≤ hi
      · rw [dif_pos hlt, dif_pos hlt]
        simp only [hd]
        split
        · exact ih _ _ (by omega)
        · exact ih _ _ (by omega)
      · rw [dif_neg hlt, dif_neg hlt]
  unfold findStartLayer
  rw [key _ _ _ (le_refl _)]

theorem crowdLayers_scored (lps : List (List Nat)) (h : ∀ x ∈ lps.flatten, Scored ms fit x) (d : Nat → WithTop ℚ) :
    crowdLayersMo fit ms lps d = crowdLayers (scores ms fit) ms lps d := by
  induction lps generalizing d with
  | nil => rfl
  | cons l lps ih =>
    unfold crowdLayersMo crowdLayers
    rw [crowding_scored l fun x hx => h x (by simp [hx])]
    split
    · rfl
    · cases perRankCrowding (scores ms fit) ms l d with
      | error e => rfl
      | ok r => exact ih (fun x hx => h x (by rw [List.flatten_cons]; exact List.mem_append_right _ hx)) r.2

theorem dropMostCrowded_scored (st : EnluState) (h : ∀ x ∈ st.layers.flatten, Scored ms fit x) :
    dropMostCrowdedMo fit ms st = dropMostCrowded (scores ms fit) ms st := by
  unfold dropMostCrowdedMo dropMostCrowded
  cases hl : st.layers.getLast? with
  | none => rfl
  | some last =>
    simp only
    have hlast : ∀ x ∈ last, Scored ms fit x := fun x hx => h x (List.mem_flatten.2 ⟨last, List.mem_of_getLast? hl, hx⟩)
    cases pyMin (fun i j => distLt (st.distance (last.getD i 0)) (st.distance (last.getD j 0))) (List.range last.length) with
    | error e => rfl
    | ok i =>
      simp only [bind, Except.bind]
      rw [crowding_scored (last.eraseIdx i) fun x hx => hlast x ((List.eraseIdx_sublist last i).subset hx)]

/-- C126: as long as no evaluation has failed the inserter does what C66 says of it. -/
theorem enlu_scored (popSize x : Nat) (st : EnluState) (hs : ∀ y ∈ st.layers.flatten, Scored ms fit y)
    (hx : Scored ms fit x) : enluInsertMo fit ms popSize x st = insertInd ms (scores ms fit) popSize x st := by
  have e : enluIndsRankNum (moFitGt ms fit) (moFitRow ms fit) x st.layers st.rank =
      enluIndsRank (moDominates ms (scores ms fit)) (moRow ms (scores ms fit)) x st.layers st.rank := by
    unfold enluIndsRankNum enluIndsRank
    rw [findStart_congr (gt' := moDominates ms (scores ms fit)) x st.layers fun y hy => scored_gt (hs y hy) hx]
    dsimp only
    rw [enluLoop_fin _ [x] _ _ (by simpa using hx) fun y hy => ?_]
    obtain ⟨l, hl, hyl⟩ := List.mem_flatten.1 hy
    exact hs y (List.mem_flatten.2 ⟨l, List.mem_of_mem_drop hl, hyl⟩)
  have hmem := enluIndsRank_members (moDominates ms (scores ms fit)) (moRow ms (scores ms fit)) x st.layers st.rank
  unfold enluInsertMo insertInd enluInsert
  rw [e]
  generalize enluIndsRank (moDominates ms (scores ms fit)) (moRow ms (scores ms fit)) x st.layers st.rank = r at hmem ⊢
  obtain ⟨layers, start, stop, rank⟩ := r
  simp only at hmem ⊢
  have hsc : ∀ y ∈ layers.flatten, Scored ms fit y := by
    intro y hy
    rcases hmem y hy with rfl | h
    · exact hx
    · exact hs y h
  rw [crowdLayers_scored _ fun y hy => by
    obtain ⟨l, hl, hyl⟩ := List.mem_flatten.1 hy
    exact hsc y (List.mem_flatten.2 ⟨l, List.mem_of_mem_take (List.mem_of_mem_drop hl), hyl⟩)]
  cases crowdLayers (scores ms fit) ms ((layers.take stop).drop start) st.distance with
  | error e => rfl
  | ok d =>
    simp only [bind, Except.bind]
    rw [dropMostCrowded_scored ⟨layers, rank, d⟩ hsc]

theorem enluInsert_members (gt : Nat → Nat → Bool) (row fitness : Nat → List ℚ) (popSize x : Nat) (st st' : EnluState)
    (flat : List Nat) (h : enluInsert gt row fitness ms popSize x st = .ok (st', flat)) :
    ∀ y ∈ st'.layers.flatten, y = x ∨ y ∈ st.layers.flatten := by
  have hmem := enluIndsRank_members gt row x st.layers st.rank
  unfold enluInsert at h
  generalize enluIndsRank gt row x st.layers st.rank = r at hmem h
  obtain ⟨layers, start, stop, rank⟩ := r
  simp only [bind, Except.bind] at h hmem
  cases hc : crowdLayers fitness ms ((layers.take stop).drop start) st.distance with
  | error e => rw [hc] at h; cases h
  | ok d =>
    rw [hc] at h
    simp only at h
    split at h
    · cases hdr : dropMostCrowded fitness ms ⟨layers, rank, d⟩ with
      | error e => rw [hdr] at h; cases h
      | ok s1 =>
        rw [hdr] at h
        simp only [Except.ok.injEq, Prod.mk.injEq] at h
        obtain ⟨rfl, -⟩ := h
        unfold dropMostCrowded at hdr
        cases hl : layers.getLast? with
        | none => simp only [hl] at hdr; cases hdr
        | some last =>
          simp only [hl, bind, Except.bind] at hdr
          have hpre : ∀ y ∈ layers.dropLast.flatten, y ∈ layers.flatten := by
            intro y hy
            obtain ⟨l, hll, hyl⟩ := List.mem_flatten.1 hy
            exact List.mem_flatten.2 ⟨l, (List.dropLast_sublist layers).subset hll, hyl⟩
          split at hdr
          · cases hdr
          · rename_i i _
            split at hdr
            · cases hdr; exact fun y hy => hmem y (hpre y hy)
            · split at hdr
              · cases hdr
              · cases hdr
                intro y hy
                simp only [List.flatten_append, List.flatten_cons, List.flatten_nil, List.append_nil, List.mem_append] at hy
                rcases hy with hy | hy
                · exact hmem y (hpre y hy)
                · exact hmem y (List.mem_flatten.2 ⟨last, List.mem_of_getLast? hl, (List.eraseIdx_sublist last i).subset hy⟩)
    · simp only [Except.ok.injEq, Prod.mk.injEq] at h
      obtain ⟨rfl, -⟩ := h
      exact hmem

/-! ### Asynchronous runs -/

variable {D : Type}

theorem statefulRun_append {α σ : Type} (cfg : StatefulConfig α D σ) (cs cs' : List (Completion α D)) (st st' : SteadyState α) (s s' : σ)
    (h : statefulRun cfg st s cs = .ok (st', s')) : statefulRun cfg st s (cs ++ cs') = statefulRun cfg st' s' cs' := by
  induction cs generalizing st s with
  | nil => cases h; rfl
  | cons c cs ih =>
    simp only [List.cons_append, statefulRun] at h ⊢
    by_cases he : st.pending.isEmpty = true
    · rw [if_pos he] at h ⊢
      cases h
      cases cs' with
      | nil => rfl
      | cons c' cs' => simp [statefulRun, he]
    · rw [if_neg he] at h ⊢
      cases hc : statefulStep cfg st s c with
      | error e => rw [hc] at h; cases h
      | ok r =>
        obtain ⟨st1, s1⟩ := r
        rw [hc] at h
        exact ih st1 s1 h

/-- The same settings for a problem whose evaluations do not fail. -/
def Spec.scoredConfig (fit : Nat → MoFit) (ms : List Bool) (maxBirths : Int) (popSize : Nat) (countNonviable : Bool)
    (pipeline : D → EnluState → List Nat → PyM (List Nat)) : StatefulConfig Nat D EnluState :=
  nsga2Config (moDominates ms (scores ms fit)) (moRow ms (scores ms fit)) (scores ms fit) ms maxBirths popSize countNonviable
    (fun x => (fit x).viable) pipeline

theorem discount_ok {b : Int} {v n : Bool} {counter : BirthCounter} (h : counter.ctx.births = some b) :
    ∃ cnt : BirthCounter, discount v n counter = .ok cnt ∧ ∃ b, cnt.ctx.births = some b := by
  unfold discount
  split
  · unfold BirthCounter.decrement
    simp only [h]
    exact ⟨_, rfl, _, rfl⟩
  · exact ⟨_, rfl, b, h⟩

theorem stepMo_scored (maxBirths : Int) (popSize : Nat) (countNonviable : Bool)
    (pipeline : D → EnluState → List Nat → PyM (List Nat)) (st : SteadyState Nat) (s : EnluState) (c : Completion Nat D)
    (hs : ∀ y ∈ s.layers.flatten, Scored ms fit y) (hr : ∀ x ev, c.result x = .ok ev → Scored ms fit ev) :
    statefulStep (nsga2ConfigMo fit ms maxBirths popSize countNonviable pipeline) st s c =
      statefulStep (scoredConfig fit ms maxBirths popSize countNonviable pipeline) st s c := by
  unfold statefulStep
  split
  · rfl
  · rename_i x _
    cases hx : c.result x with
    | error e => rfl
    | ok ev =>
      simp only [nsga2ConfigMo, scoredConfig, nsga2Config, enlu_scored popSize ev s hs (hr x ev hx), insertInd]
      rfl

theorem step_members (maxBirths : Int) (popSize : Nat) (countNonviable : Bool)
    (pipeline : D → EnluState → List Nat → PyM (List Nat)) (st st' : SteadyState Nat) (s s' : EnluState) (c : Completion Nat D)
    (h : statefulStep (scoredConfig fit ms maxBirths popSize countNonviable pipeline) st s c = .ok (st', s')) :
    ∃ x ev, c.result x = .ok ev ∧ st'.completed = st.completed ++ [ev] ∧
      ∀ y ∈ s'.layers.flatten, y = ev ∨ y ∈ s.layers.flatten := by
  unfold statefulStep at h
  split at h
  · cases h
  · rename_i x _
    cases hx : c.result x with
    | error e => rw [hx] at h; cases h
    | ok ev =>
      rw [hx] at h
      simp only [scoredConfig, nsga2Config] at h
      split at h
      · cases h
      · cases hi : enluInsert (moDominates ms (scores ms fit)) (moRow ms (scores ms fit)) (scores ms fit) ms popSize ev s with
        | error e => rw [hi] at h; cases h
        | ok r =>
          obtain ⟨s1, flat⟩ := r
          rw [hi] at h
          simp only at h
          have hm := enluInsert_members _ _ _ _ _ _ _ _ hi
          rename_i cnt _
          by_cases hlt : cnt.births < maxBirths
          · simp only [hlt, if_true] at h
            cases hpl : pipeline c.draw s1 flat with
            | error e => rw [hpl] at h; cases h
            | ok off =>
              rw [hpl] at h
              simp only at h
              split at h
              · cases h
              · cases h; exact ⟨x, ev, hx, rfl, hm⟩
          · simp only [hlt, if_false] at h
            cases h; exact ⟨x, ev, hx, rfl, hm⟩

theorem step_births {α σ : Type} (cfg : StatefulConfig α D σ) (st st' : SteadyState α) (s s' : σ) (c : Completion α D)
    (h : statefulStep cfg st s c = .ok (st', s')) (hb : ∃ b, st.counter.ctx.births = some b) :
    ∃ b, st'.counter.ctx.births = some b := by
  obtain ⟨b, hb⟩ := hb
  unfold statefulStep at h
  split at h
  · cases h
  · split at h
    · cases h
    · rename_i ev _
      obtain ⟨cnt, e, b', hb'⟩ := discount_ok (v := cfg.viable ev) (n := cfg.countNonviable) hb
      rw [e] at h
      simp only at h
      split at h
      · cases h
      · split at h
        · split at h
          · cases h
          · unfold BirthCounter.increment at h
            simp only [hb'] at h
            cases h
            exact ⟨_, rfl⟩
        · cases h; exact ⟨b', hb'⟩

theorem stepMo_failed (hms : ms ≠ []) (maxBirths : Int) (popSize : Nat) (countNonviable : Bool)
    (pipeline : D → EnluState → List Nat → PyM (List Nat)) (st : SteadyState Nat) (s : EnluState) (c : Completion Nat D)
    (hs : ∀ y ∈ s.layers.flatten, Scored ms fit y) (hb : ∃ b, st.counter.ctx.births = some b) (hp : st.pending ≠ [])
    (hr : ∀ x ∈ st.pending, ∃ ev, c.result x = .ok ev ∧ fit ev = .failed) :
    statefulStep (nsga2ConfigMo fit ms maxBirths popSize countNonviable pipeline) st s c = .error .typeError := by
  have hlt := Nat.mod_lt c.which (List.length_pos_of_ne_nil hp)
  obtain ⟨ev, hev, hf⟩ := hr _ (List.getElem_mem hlt)
  obtain ⟨b, hb⟩ := hb
  obtain ⟨cnt, e, -⟩ := discount_ok (v := (fit ev).viable) (n := countNonviable) hb
  unfold statefulStep
  simp only [List.getElem?_eq_getElem hlt, hev, nsga2ConfigMo, e, enlu_failed_raises hms popSize ev s hs hf]

/-- C126: any moment a run of `steady_state_nsga_2` reaches. Every evaluation that has come back gave its objective values; and
the run has gone exactly as it does for a problem whose evaluations do not fail (C85). -/
theorem steady_nsga2_reached (hms : ms ≠ []) (ht : ∀ x, Tried ms fit x) (maxBirths : Int) (popSize : Nat) (countNonviable : Bool)
    (pipeline : D → EnluState → List Nat → PyM (List Nat)) (initial : List Nat) (ctx : LeapCtx) (rank0 : Nat → Nat)
    (d0 : Nat → WithTop ℚ) (cs : List (Completion Nat D)) (st : SteadyState Nat) (s : EnluState)
    (h : steadyNsga2 (nsga2ConfigMo fit ms maxBirths popSize countNonviable pipeline) initial ctx rank0 d0 cs = .ok (st, s)) :
    (∀ x ∈ st.completed, Scored ms fit x) ∧ (∀ x ∈ s.layers.flatten, Scored ms fit x) ∧ (∃ b, st.counter.ctx.births = some b) ∧
    steadyNsga2 (scoredConfig fit ms maxBirths popSize countNonviable pipeline) initial ctx rank0 d0 cs = .ok (st, s) := by
  have key : ∀ (cs : List (Completion Nat D)) (st0 : SteadyState Nat) (s0 : EnluState),
      (∀ x ∈ st0.completed, Scored ms fit x) → (∀ x ∈ s0.layers.flatten, Scored ms fit x) → (∃ b, st0.counter.ctx.births = some b) →
      statefulRun (nsga2ConfigMo fit ms maxBirths popSize countNonviable pipeline) st0 s0 cs = .ok (st, s) →
      (∀ x ∈ st.completed, Scored ms fit x) ∧ (∀ x ∈ s.layers.flatten, Scored ms fit x) ∧ (∃ b, st.counter.ctx.births = some b) ∧
      statefulRun (scoredConfig fit ms maxBirths popSize countNonviable pipeline) st0 s0 cs = .ok (st, s) := by
    intro cs
    induction cs with
    | nil => intro st0 s0 h1 h2 h3 h4; cases h4; exact ⟨h1, h2, h3, rfl⟩
    | cons c cs ih =>
      intro st0 s0 h1 h2 h3 h4
      simp only [statefulRun] at h4 ⊢
      by_cases he : st0.pending.isEmpty = true
      · rw [if_pos he] at h4 ⊢
        cases h4
        exact ⟨h1, h2, h3, rfl⟩
      · rw [if_neg he] at h4 ⊢
        cases hstep : statefulStep (nsga2ConfigMo fit ms maxBirths popSize countNonviable pipeline) st0 s0 c with
        | error e => rw [hstep] at h4; cases h4
        | ok r =>
          obtain ⟨st1, s1⟩ := r
          rw [hstep] at h4
          have hpos : 0 < st0.pending.length := by
            cases hpe : st0.pending with
            | nil => simp [hpe] at he
            | cons a l => simp
          have hlt := Nat.mod_lt c.which hpos
          -- replace the completion by one that gives the same answer for the future that completed
          set x := st0.pending[c.which % st0.pending.length] with hx
          cases hev : c.result x with
          | error e =>
            unfold statefulStep at hstep
            simp only [List.getElem?_eq_getElem hlt, ← hx, hev] at hstep
            cases hstep
          | ok ev =>
            let c' : Completion Nat D := ⟨c.which, fun _ => .ok ev, c.draw⟩
            have hsame : ∀ cfg : StatefulConfig Nat D EnluState, statefulStep cfg st0 s0 c = statefulStep cfg st0 s0 c' := by
              intro cfg
              unfold statefulStep
              simp only [c', List.getElem?_eq_getElem hlt, ← hx, hev]
            have hsc : Scored ms fit ev := by
              rcases ht ev with h | h
              · exact h
              · have := stepMo_failed hms maxBirths popSize countNonviable pipeline st0 s0 c' h2 h3
                  (List.ne_nil_of_length_pos hpos) (fun x _ => ⟨ev, rfl, h⟩)
                rw [hsame, this] at hstep
                cases hstep
            rw [hsame, stepMo_scored maxBirths popSize countNonviable pipeline st0 s0 c' h2
              (fun x ev' h => by simp only [c', Except.ok.injEq] at h; exact h ▸ hsc)] at hstep
            rw [hsame, hstep]
            obtain ⟨_, ev', e1, e2, e3⟩ := step_members _ _ _ _ _ _ _ _ _ hstep
            simp only [c', Except.ok.injEq] at e1
            subst e1
            refine ih st1 s1 ?_ ?_ (step_births _ _ _ _ _ _ hstep h3) h4
            · intro y hy
              rw [e2, List.mem_append, List.mem_singleton] at hy
              rcases hy with hy | rfl
              · exact h1 y hy
              · exact hsc
            · intro y hy
              rcases e3 y hy with rfl | hy
              · exact hsc
              · exact h2 y hy
  exact key cs _ _ (by simp [steadyInit]) (by simp) ⟨0, rfl⟩ h

/-- C126, the claim is false of the code: whenever an evaluation that failed comes back, whatever has happened so far, in
whatever order, and whether or not failures count as births, the run of `steady_state_nsga_2` ends with `TypeError`. -/
theorem steady_nsga2_failure_ends (hms : ms ≠ []) (ht : ∀ x, Tried ms fit x) (maxBirths : Int) (popSize : Nat)
    (countNonviable : Bool) (pipeline : D → EnluState → List Nat → PyM (List Nat)) (initial : List Nat) (ctx : LeapCtx)
    (rank0 : Nat → Nat) (d0 : Nat → WithTop ℚ) (cs later : List (Completion Nat D)) (c : Completion Nat D) (st : SteadyState Nat)
    (s : EnluState)
    (h : steadyNsga2 (nsga2ConfigMo fit ms maxBirths popSize countNonviable pipeline) initial ctx rank0 d0 cs = .ok (st, s))
    (hp : st.pending ≠ []) (hr : ∀ x ∈ st.pending, ∃ ev, c.result x = .ok ev ∧ fit ev = .failed) :
    steadyNsga2 (nsga2ConfigMo fit ms maxBirths popSize countNonviable pipeline) initial ctx rank0 d0 (cs ++ c :: later) =
      .error .typeError := by
  obtain ⟨-, h2, h3, -⟩ := steady_nsga2_reached hms ht _ _ _ _ _ _ _ _ _ _ _ h
  unfold steadyNsga2 at h ⊢
  rw [statefulRun_append _ _ _ _ _ _ _ h]
  simp only [statefulRun]
  have he : ¬ st.pending.isEmpty = true := by simpa using hp
  rw [if_neg he, stepMo_failed hms maxBirths popSize countNonviable pipeline st s c h2 h3 hp hr]

/-- C126: a run in which no evaluation fails goes exactly as the runs of C85. -/
theorem steady_nsga2_no_failures (maxBirths : Int) (popSize : Nat) (countNonviable : Bool)
    (pipeline : D → EnluState → List Nat → PyM (List Nat)) (initial : List Nat) (ctx : LeapCtx) (rank0 : Nat → Nat)
    (d0 : Nat → WithTop ℚ) (cs : List (Completion Nat D)) (hr : ∀ c ∈ cs, ∀ x ev, c.result x = .ok ev → Scored ms fit ev) :
    steadyNsga2 (nsga2ConfigMo fit ms maxBirths popSize countNonviable pipeline) initial ctx rank0 d0 cs =
      steadyNsga2 (scoredConfig fit ms maxBirths popSize countNonviable pipeline) initial ctx rank0 d0 cs := by
  have key : ∀ (cs : List (Completion Nat D)) (_ : ∀ c ∈ cs, ∀ x ev, c.result x = .ok ev → Scored ms fit ev)
      (st0 : SteadyState Nat) (s0 : EnluState), (∀ x ∈ s0.layers.flatten, Scored ms fit x) →
      statefulRun (nsga2ConfigMo fit ms maxBirths popSize countNonviable pipeline) st0 s0 cs =
      statefulRun (scoredConfig fit ms maxBirths popSize countNonviable pipeline) st0 s0 cs := by
    intro cs
    induction cs with
    | nil => intro _ st0 s0 _; rfl
    | cons c cs ih =>
      intro hr st0 s0 h2
      simp only [statefulRun]
      rw [stepMo_scored maxBirths popSize countNonviable pipeline st0 s0 c h2 (hr c (List.mem_cons_self ..))]
      split
      · rfl
      · cases hstep : statefulStep (scoredConfig fit ms maxBirths popSize countNonviable pipeline) st0 s0 c with
        | error e => rfl
        | ok r =>
          obtain ⟨st1, s1⟩ := r
          obtain ⟨x, ev, e1, -, e3⟩ := step_members _ _ _ _ _ _ _ _ _ hstep
          refine ih (fun c' hc' => hr c' (List.mem_cons_of_mem _ hc')) st1 s1 ?_
          intro y hy
          rcases e3 y hy with rfl | hy
          · exact hr c (List.mem_cons_self ..) x y e1
          · exact h2 y hy
  exact key cs hr _ _ (by simp)

/-! ### Generational runs -/

theorem crowdRanks_failed (hms : ms ≠ []) (rank : Nat → Nat) (pop : List Nat) (ht : ∀ x ∈ pop, Tried ms fit x) (x : Nat)
    (hx : x ∈ pop) (hf : fit x = .failed) : ∀ (rs : List Nat), rank x ∈ rs → (∀ r ∈ rs, ∃ y ∈ pop, rank y = r) →
    ∀ acc, crowdRanksMo fit ms rank pop rs acc = .error .typeError := by
  intro rs
  induction rs with
  | nil => intro h; simp at h
  | cons r rs ih =>
    intro hr hex acc
    have htr : ∀ y ∈ pop.filter (fun x => rank x = r), Tried ms fit y := fun y hy => ht y (List.mem_filter.1 hy).1
    unfold crowdRanksMo
    by_cases hfr : ∃ y ∈ pop.filter (fun x => rank x = r), fit y = .failed
    · rw [crowding_failed_raises hms _ htr hfr]
      rfl
    · have hsc : ∀ y ∈ pop.filter (fun x => rank x = r), Scored ms fit y := by
        intro y hy
        rcases htr y hy with h | h
        · exact h
        · exact absurd ⟨y, hy, h⟩ hfr
      have hxr : rank x ∈ rs := by
        rcases List.mem_cons.1 hr with h | h
        · exact absurd ⟨x, List.mem_filter.2 ⟨hx, by simpa using h⟩, hf⟩ hfr
        · exact h
      rw [crowding_scored _ hsc]
      obtain ⟨y, hy, hyr⟩ := hex r (List.mem_cons_self ..)
      cases hl : pop.filter (fun x => rank x = r) with
      | nil =>
        have : y ∈ pop.filter (fun x => rank x = r) := List.mem_filter.2 ⟨hy, by simpa using hyr⟩
        rw [hl] at this
        simp at this
      | cons first rest =>
        simp only [perRankCrowding, bind, Except.bind]
        exact ih hxr (fun r' h' => hex r' (List.mem_cons_of_mem _ h')) _

/-- C126: whatever ranks the individuals have, `crowding_distance_calc` raises `TypeError` if one of them has failed. -/
theorem crowding_calc_failed_raises (hms : ms ≠ []) (maximize : Nat → List Bool) (multi : Nat → Bool) (rank : Nat → Nat)
    (pop : List Nat) (hmax : ∀ x ∈ pop, maximize x = ms) (hmulti : ∀ x ∈ pop, multi x = true) (ht : ∀ x ∈ pop, Tried ms fit x)
    (hf : ∃ x ∈ pop, fit x = .failed) (d : Nat → WithTop ℚ) :
    crowdingDistanceCalcMo maximize multi fit rank pop d = .error .typeError := by
  obtain ⟨x, hx, hxf⟩ := hf
  cases pop with
  | nil => simp at hx
  | cons first rest =>
    obtain ⟨-, g2⟩ := groupKeys_spec rank (first :: rest)
    unfold crowdingDistanceCalcMo
    simp only
    rw [if_pos (hmulti first (List.mem_cons_self ..)), hmax first (List.mem_cons_self ..)]
    exact crowdRanks_failed hms rank _ ht x hx hxf _ ((g2 _).2 ⟨x, hx, rfl⟩) (fun r hr => (g2 r).1 hr) _

/-- C126, the claim is false of the code: a generation of `generalized_nsga_2` ends with `TypeError` if the evaluation of one of
the offspring or parents has failed, whatever ranking function is used (one that returns everybody). -/
theorem nsga2_failure_ends {R : Type} (hms : ms ≠ [])
    (rankFunc : MoFitObjects R → List Nat → List Nat → PyM (List Nat × (Nat → Nat)))
    (pipeline : Pipeline (MoFitObjects R) Nat) (g : Int) (parents offspring ranked : List Nat) (rank : Nat → Nat)
    (w w' : World (MoFitObjects R)) (hp : pipeline w parents = .ok (offspring, w'))
    (hrank : rankFunc w'.rest offspring parents = .ok (ranked, rank)) (hall : ranked.Perm (offspring ++ parents))
    (hmax : ∀ x ∈ offspring ++ parents, w'.rest.maximize x = ms) (hmulti : ∀ x ∈ offspring ++ parents, w'.rest.multi x = true)
    (ht : ∀ x ∈ offspring ++ parents, Tried ms w'.rest.fit x) (hf : ∃ x ∈ offspring ++ parents, w'.rest.fit x = .failed) :
    nsga2GenerationMo rankFunc pipeline g parents w = .error .typeError := by
  have hm : ∀ x, x ∈ ranked ↔ x ∈ offspring ++ parents := fun x => hall.mem_iff
  unfold nsga2GenerationMo
  simp only [hp, hrank, bind, Except.bind]
  rw [crowding_calc_failed_raises hms _ _ _ _ (fun x hx => hmax x ((hm x).1 hx)) (fun x hx => hmulti x ((hm x).1 hx))
    (fun x hx => ht x ((hm x).1 hx))]
  obtain ⟨x, hx, hxf⟩ := hf
  exact ⟨x, (hm x).2 hx, hxf⟩

/-- C126: so a run of `generalized_nsga_2` whose initial population contains an individual that failed does not survive its first
generation. -/
theorem nsga2_initial_failure_ends {R : Type} (hms : ms ≠ [])
    (rankFunc : MoFitObjects R → List Nat → List Nat → PyM (List Nat × (Nat → Nat)))
    (pipeline : Pipeline (MoFitObjects R) Nat) (stop : World (MoFitObjects R) → List Nat → Bool) (maxGenerations g : Int)
    (parents offspring ranked : List Nat) (rank : Nat → Nat) (w w' : World (MoFitObjects R)) (hg : g < maxGenerations)
    (hstop : stop w parents = false) (hp : pipeline w parents = .ok (offspring, w'))
    (hrank : rankFunc w'.rest offspring parents = .ok (ranked, rank)) (hall : ranked.Perm (offspring ++ parents))
    (hmax : ∀ x ∈ offspring ++ parents, w'.rest.maximize x = ms) (hmulti : ∀ x ∈ offspring ++ parents, w'.rest.multi x = true)
    (ht : ∀ x ∈ offspring ++ parents, Tried ms w'.rest.fit x) (hkeep : ∀ x ∈ parents, w'.rest.fit x = w.rest.fit x)
    (hf : ∃ x ∈ parents, w.rest.fit x = .failed) :
    nsga2LoopMo rankFunc maxGenerations pipeline stop g parents w = .error .typeError := by
  obtain ⟨x, hx, hxf⟩ := hf
  unfold nsga2LoopMo
  rw [dif_pos hg, hstop, nsga2_failure_ends hms rankFunc pipeline g parents offspring ranked rank w w' hp hrank hall hmax hmulti ht
    ⟨x, List.mem_append_right _ hx, by rw [hkeep x hx, hxf]⟩]
  rfl

theorem crowdRanks_scored (rank : Nat → Nat) (pop : List Nat) (h : ∀ x ∈ pop, Scored ms fit x) (rs : List Nat) :
    ∀ acc, crowdRanksMo fit ms rank pop rs acc = crowdRanks (scores ms fit) ms rank pop rs acc := by
  induction rs with
  | nil => exact fun _ => rfl
  | cons r rs ih =>
    intro acc
    unfold crowdRanksMo crowdRanks
    rw [crowding_scored _ fun x hx => h x (List.mem_of_mem_filter hx)]
    simp only [ih]

/-- C126: a generation of `generalized_nsga_2` in which no evaluation fails is the generation without failures (C47): the ranks, distances and as many
survivors as there were parents. -/
theorem nsga2_no_failure {R : Type} (hms : ms ≠ [])
    (rankFunc : MoFitObjects R → List Nat → List Nat → PyM (List Nat × (Nat → Nat)))
    (pipeline : Pipeline (MoFitObjects R) Nat) (g : Int) (parents offspring : List Nat)
    (w w' : World (MoFitObjects R)) (hp : pipeline w parents = .ok (offspring, w')) (hne : offspring ++ parents ≠ [])
    (hrank : rankFunc w'.rest offspring parents =
      rankOrdinalSort w'.rest.maximize (scores ms w'.rest.fit) offspring (some parents) w'.rest.rank)
    (hmax : ∀ x ∈ offspring ++ parents, w'.rest.maximize x = ms) (ht : ∀ x ∈ offspring ++ parents, Scored ms w'.rest.fit x) :
    nsga2GenerationMo rankFunc pipeline g parents w =
      (nsga2Survive w'.rest.maximize w'.rest.multi (scores ms w'.rest.fit) offspring parents w'.rest.rank w'.rest.distance).map fun r =>
        (r.1, World.setGeneration { w' with rest := { w'.rest with rank := r.2.1, distance := r.2.2 } } (g + 1)) := by
  obtain ⟨rank', e, -, -⟩ := rank_ordinal_ranks ms hms w'.rest.maximize (scores ms w'.rest.fit) offspring (some parents) w'.rest.rank
    (by simpa using hne) hmax (fun x hx => by
      obtain ⟨l, h1, h2⟩ := ht x hx
      simp only [scores, h1, MoFit.values, h2])
  have hc : crowdingDistanceCalcMo w'.rest.maximize w'.rest.multi w'.rest.fit rank' (offspring ++ parents) w'.rest.distance =
      crowdingDistanceCalc w'.rest.maximize w'.rest.multi (scores ms w'.rest.fit) rank' (offspring ++ parents) w'.rest.distance := by
    cases hl : offspring ++ parents with
    | nil => rfl
    | cons first rest =>
      unfold crowdingDistanceCalcMo crowdingDistanceCalc
      simp only
      rw [hmax first (by rw [hl]; exact List.mem_cons_self ..), crowdRanks_scored rank' _ (by rw [← hl]; exact ht)]
  unfold nsga2GenerationMo nsga2Survive
  simp only [hp, hrank, e, bind, Except.bind, Option.getD_some, hc]
  cases crowdingDistanceCalc w'.rest.maximize w'.rest.multi (scores ms w'.rest.fit) rank' (offspring ++ parents) w'.rest.distance <;> rfl

/-- Five evaluations, the third of which raises. -/
def exFit : Nat → MoFit := fun x => if x = 2 then .failed else .vec ([[3, 1], [1, 3], [2, 0], [0, 2], [4, 2]].getD x [0, 0])

theorem exFit_tried (x : Nat) : Tried [true, true] exFit x := by
  unfold Tried Scored exFit
  split
  · exact Or.inr rfl
  · refine Or.inl ⟨_, rfl, ?_⟩
    match x with
    | 0 | 1 | 2 | 3 | 4 => rfl
    | _ + 5 => rfl

/-- The completions of a run with two initial individuals, of which the last shown comes back failed. -/
def exMoSchedule (n : Nat) : List (Completion Nat Unit) := (List.range n).map fun k => ⟨k, fun _ => .ok k, ()⟩

set_option synthInstance.maxSize 1000 in
set_option synthInstance.maxHeartbeats 100000 in
/-- Two evaluations come back and the run goes on, with the next offspring in work; the third has failed and ends it. -/
example :
    let cfg : StatefulConfig Nat Unit EnluState := nsga2ConfigMo exFit [true, true] 3 3 false (fun _ _ pop => .ok [20 + pop.length])
    (steadyNsga2 cfg [10, 11] {} (fun _ => 0) (fun _ => 0) (exMoSchedule 2)).map (fun r =>
      (r.1.pending, r.1.pop, r.1.completed, r.1.pop.map r.2.rank)) = .ok ([11, 22], [0, 1], [0, 1], [1, 1]) ∧
    (steadyNsga2 cfg [10, 11] {} (fun _ => 0) (fun _ => 0) (exMoSchedule 3)).map (fun r => r.1.pop) = .error .typeError := by
  decide +kernel

set_option synthInstance.maxSize 1000 in
set_option synthInstance.maxHeartbeats 100000 in
/-- The same run when the third evaluation gives values. -/
example :
    let cfg : StatefulConfig Nat Unit EnluState := nsga2ConfigMo (fun x => if x = 2 then .vec [2, 0] else exFit x) [true, true] 3 3 false
      (fun _ _ pop => .ok [20 + pop.length])
    (steadyNsga2 cfg [10, 11] {} (fun _ => 0) (fun _ => 0) (exMoSchedule 5)).map (fun r =>
      (r.1.pending, r.1.pop, r.1.completed, r.1.pop.map r.2.rank)) = .ok ([], [1, 4, 0], [0, 1, 2, 3, 4], [1, 1, 2]) := by
  decide +kernel

/-- A generation without failures, with one offspring more than parents: it meets the hypotheses of `nsga2_no_failure`. -/
example : ((nsga2GenerationMo (R := Unit) (fun o off par => rankOrdinalSort o.maximize (scores [true, true] o.fit) off (some par) o.rank)
    (fun w _ => .ok ([3, 4, 5], w)) 0 [0, 1] ⟨{}, ⟨fun _ => [true, true], fun _ => true, exFit, fun _ => 0, fun _ => 0, ()⟩⟩).map fun r =>
      (r.1, [0, 1, 3, 4, 5].map r.2.rest.rank)) = .ok ([4, 1], [2, 1, 2, 1, 3]) := by decide +kernel

/-- A generation with one failed parent, everybody of rank 1. -/
example : (nsga2GenerationMo (R := Unit) (fun _ off par => .ok (off ++ par, fun _ => 1)) (fun w _ => .ok ([3, 4], w)) 0 [0, 2]
    ⟨{}, ⟨fun _ => [true, true], fun _ => true, exFit, fun _ => 0, fun _ => 0, ()⟩⟩).map (fun r => r.1) = .error .typeError ∧
    (nsga2GenerationMo (R := Unit) (fun _ off par => .ok (off ++ par, fun _ => 1)) (fun w _ => .ok ([3, 4], w)) 0 [0, 1]
    ⟨{}, ⟨fun _ => [true, true], fun _ => true, exFit, fun _ => 0, fun _ => 0, ()⟩⟩).map (fun r => r.1) = .ok [0, 3] := by
  decide +kernel

end Leap
