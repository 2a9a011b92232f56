import Verif.Props.EvoRun
import Verif.Props.OtherCodes

/-!
# C134: longer runs of `random_search` and of synchronous distributed loops begin like shorter ones
-/

namespace Leap

open Spec

variable {γ ψ φ ρ : Type}

/-- The trajectory grows at its end. -/
theorem walkLoop_extends (choose : Int → List Nat → Mem γ ψ φ ρ → PyM Nat × ρ) (stages : List (Stage γ ψ φ ρ)) (size fuel : Nat) :
    ∀ (g : Int) (x : Nat) (t out : List Nat) (m m' : Mem γ ψ φ ρ), walkLoop choose stages size fuel g x t m = (.ok out, m') → ∃ rest, out = t ++ rest := by
  induction fuel with
  | zero =>
    intro g x t out m m' h
    cases h
    exact ⟨[], (List.append_nil t).symm⟩
  | succ fuel ih =>
    intro g x t out m m' h
    unfold walkLoop at h
    rcases hx : runPipeline [x] (choose g [x]) stages size m with ⟨e | (_ | ⟨next, more⟩), m1⟩ <;> rw [hx] at h
    · cases h
    · cases h
    · obtain ⟨rest, hr⟩ := ih _ _ _ _ _ _ h
      exact ⟨next :: more ++ rest, by rw [hr, List.append_assoc]⟩

theorem walkLoop_succ (choose : Int → List Nat → Mem γ ψ φ ρ → PyM Nat × ρ) (stages : List (Stage γ ψ φ ρ)) (size fuel : Nat) (g : Int) (x : Nat) (t : List Nat)
    (m : Mem γ ψ φ ρ) : walkLoop choose stages size (fuel + 1) g x t m =
      match runPipeline [x] (choose g [x]) stages size m with
      | (.error e, m1) => (.error e, m1)
      | (.ok [], m1) => (.error .indexError, m1)
      | (.ok (next :: more), m1) => walkLoop choose stages size fuel (g + 1) next (t ++ next :: more) m1 := rfl

theorem walkLoop_longer (choose : Int → List Nat → Mem γ ψ φ ρ → PyM Nat × ρ) (stages : List (Stage γ ψ φ ρ)) (size k j : Nat) :
    ∀ (g : Int) (x : Nat) (t : List Nat) (m : Mem γ ψ φ ρ),
      match walkLoop choose stages size j g x t m with
      | (.error e, m1) => walkLoop choose stages size (j + k) g x t m = (.error e, m1)
      | (.ok out, m1) => ∃ g' x', walkLoop choose stages size (j + k) g x t m = walkLoop choose stages size k g' x' out m1 := by
  induction j with
  | zero =>
    intro g x t m
    exact ⟨g, x, by rw [Nat.zero_add]⟩
  | succ j ih =>
    intro g x t m
    rw [Nat.add_right_comm, walkLoop_succ, walkLoop_succ]
    rcases runPipeline [x] (choose g [x]) stages size m with ⟨e | (_ | ⟨next, more⟩), m1⟩
    · rfl
    · rfl
    · exact ih _ _ _ m1

/-- **C134** (`random_search`): a longer search first does all a shorter one does. If the shorter raises, the longer raises the same; and the trajectory of the longer one
begins with that of the shorter. -/
theorem walk_longer_run_begins_alike (choose : Int → List Nat → Mem γ ψ φ ρ → PyM Nat × ρ) (stages : List (Stage γ ψ φ ρ)) (size : Nat)
    (init : ρ → PyM (List γ) × ρ) (dec : Dec γ ψ) (prob : Prob γ ψ φ ρ) (problem : Nat) (few many : Int) (hle : few ≤ many) (m : Mem γ ψ φ ρ) :
    match walkRun choose stages size init dec prob problem few m with
    | (.error e, m1) => walkRun choose stages size init dec prob problem many m = (.error e, m1)
    | (.ok short, _) => ∀ long m', walkRun choose stages size init dec prob problem many m = (.ok long, m') → ∃ rest, long = short ++ rest := by
  obtain ⟨k, hk⟩ : ∃ k, (many - 1).toNat = (few - 1).toNat + k := ⟨(many - 1).toNat - (few - 1).toNat, by omega⟩
  unfold walkRun
  rw [hk]
  simp only [HM.bind_apply]
  rcases createPopulation init problem 1 m with ⟨e | first, m1⟩
  · rfl
  · simp only
    rcases evaluatePopulation dec prob first m1 with ⟨e | u, m2⟩
    · rfl
    · simp only
      have hl := walkLoop_longer choose stages size k (few - 1).toNat 1 (first.headD 0) first m2
      rcases hx : walkLoop choose stages size (few - 1).toNat 1 (first.headD 0) first m2 with ⟨e | short, m3⟩ <;> rw [hx] at hl
      · exact hl
      · obtain ⟨g', x', hl⟩ := hl
        intro long m' h
        rw [hl] at h
        exact walkLoop_extends choose stages size k g' x' short long m3 m' h

theorem syncLoop_longer (cfg : SyncConfig γ ψ φ ρ) (hstop : ∀ g g', cfg.stop g = cfg.stop g') (env : Int → SyncRound ρ) (k j : Nat) :
    ∀ (g : Int) (parents : List Nat) (m : Mem γ ψ φ ρ),
      match syncLoop cfg env j g parents m with
      | (.error e, m1) => syncLoop cfg env (j + k) g parents m = (.error e, m1)
      | (.ok out, m1) => cfg.stop 0 out m1 = true → syncLoop cfg env (j + k) g parents m = (.ok out, m1) := by
  induction j with
  | zero =>
    intro g parents m hb
    rw [Nat.zero_add]
    cases k with
    | zero => rfl
    | succ k =>
      unfold syncLoop
      rw [hstop g 0, if_pos hb]
  | succ j ih =>
    intro g parents m
    rw [Nat.add_right_comm]
    unfold syncLoop
    by_cases hb : cfg.stop g parents m = true
    · rw [if_pos hb, if_pos hb]
      exact fun _ => rfl
    · rw [if_neg hb, if_neg hb]
      simp only [HM.bind_apply]
      rcases runPipeline parents (cfg.choose g parents) cfg.stages cfg.size m with ⟨e | pulled, m1⟩
      · rfl
      · simp only
        rcases syncEvaluate cfg.nan cfg.dec cfg.prob (env g) pulled m1 with ⟨e | off, m2⟩
        · rfl
        · simp only
          rcases syncSurvival cfg off parents m2 with ⟨e | survivors, m3⟩
          · rfl
          · exact ih _ _ m3

/-- **C134** (synchronous distributed loops): a run with more generations first does all the shorter run does, in every order of evaluation: if the shorter run raises, the
longer raises the same, and a population at which the shorter run was told to stop is what the longer run returns. -/
theorem sync_longer_run_begins_alike (cfg : SyncConfig γ ψ φ ρ) (hstop : ∀ g g', cfg.stop g = cfg.stop g') (init : ρ → PyM (List γ) × ρ) (problem popSize few many : Nat)
    (hle : few ≤ many) (env : Int → SyncRound ρ) (m : Mem γ ψ φ ρ) :
    match syncRun cfg init problem popSize few env m with
    | (.error e, m1) => syncRun cfg init problem popSize many env m = (.error e, m1)
    | (.ok pop, m1) => cfg.stop 0 pop m1 = true → syncRun cfg init problem popSize many env m = (.ok pop, m1) := by
  obtain ⟨k, rfl⟩ := Nat.exists_eq_add_of_le hle
  unfold syncRun
  simp only [HM.bind_apply]
  rcases createPopulation init problem popSize m with ⟨e | created, m1⟩
  · rfl
  · simp only
    rcases syncEvaluate cfg.nan cfg.dec cfg.prob (env (-1)) created m1 with ⟨e | parents, m2⟩
    · rfl
    · exact syncLoop_longer cfg hstop env k few 0 parents m2

set_option synthInstance.maxSize 1000 in
set_option synthInstance.maxHeartbeats 100000 in
/-- A walk of two and one of three; and a synchronous run that is told to stop as soon as there are three individuals, with one generation and with four. -/
example :
    exTell (walkRun (fun _ _ m => (.ok 0, m.rng)) (exBitStages exTwoFlips exSum) 1 exInit .identity exSum 0 2 exStart) =
      some [(some [0, 0], some (some 0)), (some [1, 0], some (some 1))] ∧
    exTell (walkRun (fun _ _ m => (.ok 0, m.rng)) (exBitStages exTwoFlips exSum) 1 exInit .identity exSum 0 3 exStart) =
      some [(some [0, 0], some (some 0)), (some [1, 0], some (some 1)), (some [1, 1], some (some 2))] ∧
    (let stopping : SyncConfig Int Int Int Nat := { exSync with stop := fun _ pop _ => pop.length == 3 }
     ∀ g g', stopping.stop g = stopping.stop g') ∧
    (let stopping : SyncConfig Int Int Int Nat := { exSync with stop := fun _ pop _ => pop.length == 3 }
     exTell (syncRun stopping exInit 0 2 1 exSyncEnv exStart) = exTell (syncRun stopping exInit 0 2 4 exSyncEnv exStart) ∧
     ((syncRun stopping exInit 0 2 1 exSyncEnv exStart).1.toOption.map List.length) = some 3) :=
  ⟨by decide +kernel, by decide +kernel, fun _ _ => rfl, by decide +kernel, by decide +kernel⟩

end Leap
