import Verif.Lemmas.RecodeLoops
import Verif.Lemmas.ReorderLoops
import Verif.Lemmas.RescoreLoops
import Verif.Props.Recode
import Verif.Props.Reorder
import Verif.Props.Rescore

/-!
# Hand-written loops and islands: other codes, other orders of genes, other fitness scales

C129, C131 and C133 for loops written by hand from the operators (evolution strategies, evolutionary programming) and for
`multi_population_ea` with migration.
-/

namespace Leap

open Spec

variable {γ γ' ψ φ ρ : Type}

/-! ### Specification -/

/-- A loop written by hand with tournaments of `k`. -/
def Spec.plainPlus (worse equal better : Option φ → Option φ → Bool) (k : Nat) (draw : ρ → Nat → List Nat × ρ) (stages : Int → List (Stage γ ψ φ ρ))
    (brood : Nat) (survival : Survival ρ) : PlusConfig γ ψ φ ρ where
  worse := worse
  equal := equal
  choose _ pop := tournamentChoice better k draw pop
  stages := stages
  brood := brood
  survival := survival

/-- What `migrate` and its topology are given, but for the selection of those who meet and those who leave, which is by tournaments of `kReplace` and `kSponsor`. -/
structure Spec.Travel (ρ : Type) where
  numIslands : Nat
  neighbors : Nat → List Nat
  gap : Int
  dest : ρ → Nat → Nat × ρ
  kReplace : Nat
  kSponsor : Nat

/-- `multi_population_ea` with tournaments of `k` on every island. -/
def Spec.plainIslands (worse better : Option φ → Option φ → Bool) (k : Nat) (draw : ρ → Nat → List Nat × ρ) (stages : List (Stage γ ψ φ ρ)) (size : Nat)
    (t : Travel ρ) : IslandConfig γ ψ φ ρ where
  worse := worse
  choose _ _ pop := tournamentChoice better k draw pop
  stages := stages
  size := size
  numIslands := t.numIslands
  neighbors := t.neighbors
  gap := t.gap
  replace pop := tournamentChoice better t.kReplace draw pop
  sponsor pop := tournamentChoice better t.kSponsor draw pop
  dest := t.dest
  stop _ _ _ := false

/-! ### Another code -/

section
variable {h : Nat → γ → γ'} {n : Nat}

/-- C131: hand-written loops with truncation or insertion do the same on genomes in another code. -/
theorem loop_recoded (worse equal better : Option φ → Option φ → Bool) (k : Nat) (draw : ρ → Nat → List Nat × ρ) (stages : Int → List (Stage γ ψ φ ρ))
    (stages' : Int → List (Stage γ' ψ φ ρ)) (hst : ∀ g, List.Forall₂ (RecodedStage h n) (stages g) (stages' g)) (brood : Nat) (survival : Survival ρ)
    (initGenome : ρ → PyM (List γ) × ρ) (initGenome' : ρ → PyM (List γ') × ρ)
    (hi : ∀ s, initGenome' s = ((initGenome s).1.map (recode h), (initGenome s).2)) (hin : ∀ s g, (initGenome s).1 = .ok g → g.length = n)
    (dec : Dec γ ψ) (dec' : Dec γ' ψ) (hd : RecodedDec h n dec dec') (prob : Prob γ ψ φ ρ) (prob' : Prob γ' ψ φ ρ) (hp : RecodedProb h n prob prob')
    (problem popSize : Nat) (maxGenerations : Int) (m : Mem γ ψ φ ρ) (hm : Sized n m) :
    plusRun (plainPlus worse equal better k draw stages' brood survival) initGenome' dec' prob' problem popSize maxGenerations (recoded h m) =
      recodedOutcome h (plusRun (plainPlus worse equal better k draw stages brood survival) initGenome dec prob problem popSize maxGenerations m) := by
  have := (recodes_plusRun (h := h) (n := n) (plainPlus worse equal better k draw stages brood survival) (plainPlus worse equal better k draw stages' brood survival)
    rfl rfl (fun _ _ _ => rfl) hst rfl rfl initGenome initGenome' hi hin dec dec' hd prob prob' hp problem popSize maxGenerations m hm).1
  rw [this]
  unfold recodedOutcome
  rw [except_map_id]

/-- C131: and so do islands that exchange individuals, whatever the topology and the migration gap: the same migrants travel to the same islands. -/
theorem islands_recoded (worse better : Option φ → Option φ → Bool) (k : Nat) (draw : ρ → Nat → List Nat × ρ) (stages : List (Stage γ ψ φ ρ))
    (stages' : List (Stage γ' ψ φ ρ)) (hst : List.Forall₂ (RecodedStage h n) stages stages') (size : Nat) (t : Travel ρ)
    (initGenome : ρ → PyM (List γ) × ρ) (initGenome' : ρ → PyM (List γ') × ρ)
    (hi : ∀ s, initGenome' s = ((initGenome s).1.map (recode h), (initGenome s).2)) (hin : ∀ s g, (initGenome s).1 = .ok g → g.length = n)
    (dec : Dec γ ψ) (dec' : Dec γ' ψ) (hd : RecodedDec h n dec dec') (prob : Prob γ ψ φ ρ) (prob' : Prob γ' ψ φ ρ) (hp : RecodedProb h n prob prob')
    (problem numPopulations popSize : Nat) (maxGenerations : Int) (m : Mem γ ψ φ ρ) (hm : Sized n m) :
    islandRun (plainIslands worse better k draw stages' size t) initGenome' dec' prob' problem numPopulations popSize maxGenerations (recoded h m) =
      recodedOutcome h (islandRun (plainIslands worse better k draw stages size t) initGenome dec prob problem numPopulations popSize maxGenerations m) := by
  have := (recodes_islandRun (h := h) (n := n) (plainIslands worse better k draw stages size t) (plainIslands worse better k draw stages' size t)
    rfl (fun _ _ _ _ => rfl) hst rfl rfl rfl rfl rfl (fun _ _ => rfl) (fun _ _ => rfl) (fun _ _ _ => rfl) initGenome initGenome' hi hin dec dec' hd prob prob' hp
    problem numPopulations popSize maxGenerations m hm).1
  rw [this]
  unfold recodedOutcome
  rw [except_map_id]

end

/-! ### Another order of the genes -/

section
variable {p : List Nat} {n : Nat}

/-- C133: hand-written loops with truncation or insertion do the same with the genes in another order. -/
theorem loop_reordered (hp : p.Perm (List.range n)) (worse equal better : Option φ → Option φ → Bool) (k : Nat) (draw : ρ → Nat → List Nat × ρ)
    (stages stages' : Int → List (Stage γ ψ φ ρ)) (hst : ∀ g, List.Forall₂ (ReorderedStage p n) (stages g) (stages' g)) (brood : Nat) (survival : Survival ρ)
    (initGenome initGenome' : ρ → PyM (List γ) × ρ) (hi : ∀ s, initGenome' s = ((initGenome s).1.map (rearranged p), (initGenome s).2))
    (hin : ∀ s g, (initGenome s).1 = .ok g → g.length = n) (dec dec' : Dec γ ψ) (hd : ReorderedDec p n dec dec') (prob prob' : Prob γ ψ φ ρ)
    (hprob : ReorderedProb p n prob prob') (problem popSize : Nat) (maxGenerations : Int) (m : Mem γ ψ φ ρ) (hm : Sized n m) :
    plusRun (plainPlus worse equal better k draw stages' brood survival) initGenome' dec' prob' problem popSize maxGenerations (reordered p m) =
      reorderedOutcome p (plusRun (plainPlus worse equal better k draw stages brood survival) initGenome dec prob problem popSize maxGenerations m) := by
  have := (reorders_plusRun hp (plainPlus worse equal better k draw stages brood survival) (plainPlus worse equal better k draw stages' brood survival)
    rfl rfl (fun _ _ _ => rfl) hst rfl rfl initGenome initGenome' hi hin dec dec' hd prob prob' hprob problem popSize maxGenerations m hm).1
  rw [this]
  unfold reorderedOutcome
  rw [except_map_id]

/-- C133: and so do islands that exchange individuals. -/
theorem islands_reordered (hp : p.Perm (List.range n)) (worse better : Option φ → Option φ → Bool) (k : Nat) (draw : ρ → Nat → List Nat × ρ)
    (stages stages' : List (Stage γ ψ φ ρ)) (hst : List.Forall₂ (ReorderedStage p n) stages stages') (size : Nat) (t : Travel ρ)
    (initGenome initGenome' : ρ → PyM (List γ) × ρ) (hi : ∀ s, initGenome' s = ((initGenome s).1.map (rearranged p), (initGenome s).2))
    (hin : ∀ s g, (initGenome s).1 = .ok g → g.length = n) (dec dec' : Dec γ ψ) (hd : ReorderedDec p n dec dec') (prob prob' : Prob γ ψ φ ρ)
    (hprob : ReorderedProb p n prob prob') (problem numPopulations popSize : Nat) (maxGenerations : Int) (m : Mem γ ψ φ ρ) (hm : Sized n m) :
    islandRun (plainIslands worse better k draw stages' size t) initGenome' dec' prob' problem numPopulations popSize maxGenerations (reordered p m) =
      reorderedOutcome p (islandRun (plainIslands worse better k draw stages size t) initGenome dec prob problem numPopulations popSize maxGenerations m) := by
  have := (reorders_islandRun hp (plainIslands worse better k draw stages size t) (plainIslands worse better k draw stages' size t)
    rfl (fun _ _ _ _ => rfl) hst rfl rfl rfl rfl rfl (fun _ _ => rfl) (fun _ _ => rfl) (fun _ _ _ => rfl) initGenome initGenome' hi hin dec dec' hd prob prob' hprob
    problem numPopulations popSize maxGenerations m hm).1
  rw [this]
  unfold reorderedOutcome
  rw [except_map_id]

end

/-! ### Another fitness scale -/

/-- C129: islands that exchange individuals look only at the order of the fitnesses: who migrates, where to, and whom they replace stay the same. -/
theorem islands_depend_on_order (pf maximize maximize' coin : Bool) (h : Num → Num) (hh : KeepsOrder pf maximize maximize' h) (k : Nat)
    (draw : ρ → Nat → List Nat × ρ) (stages : List (Stage γ ψ Num ρ)) (size : Nat) (t : Travel ρ) (initGenome : ρ → PyM (List γ) × ρ) (dec : Dec γ ψ)
    (prob : Prob γ ψ Num ρ) (problem numPopulations popSize : Nat) (maxGenerations : Int) (m : Mem γ ψ Num ρ) :
    islandRun (plainIslands (lessFit maximize' pf coin) (moreFit maximize' pf coin) k draw (stages.map (rescoredStage h)) size t) initGenome dec (rescoredProb h prob)
        problem numPopulations popSize maxGenerations (rescored h m) =
      rescoredOutcome h (islandRun (plainIslands (lessFit maximize pf coin) (moreFit maximize pf coin) k draw stages size t) initGenome dec prob problem
        numPopulations popSize maxGenerations m) := by
  have tc := fun k pop (m : Mem γ ψ Num ρ) =>
    tournamentChoice_rescored (h := h) (moreFit maximize pf coin) (moreFit maximize' pf coin) (fun a b => (hh coin a b).2.2) k draw pop m
  have := carries_islandRun (h := h) (plainIslands (lessFit maximize pf coin) (moreFit maximize pf coin) k draw stages size t)
    (plainIslands (lessFit maximize' pf coin) (moreFit maximize' pf coin) k draw (stages.map (rescoredStage h)) size t) (fun a b => (hh coin a b).1)
    (fun _ _ pop m => tc k pop m) rfl rfl rfl rfl rfl rfl (fun pop m => tc t.kReplace pop m) (fun pop m => tc t.kSponsor pop m) (fun _ _ _ => rfl) initGenome dec prob
    problem numPopulations popSize maxGenerations m
  rw [this]
  unfold rescoredOutcome
  rw [except_map_id]

/-! ### Some runs -/

/-- Genes and fitness of those on the islands and of those who travel. -/
def exTellIslands {φ : Type} (r : PyM (List (List Nat) × List (List Nat)) × Mem γ ψ φ Nat) :
    Option (List (List (Option (List γ) × Option (Option φ))) × List (List (Option (List γ) × Option (Option φ)))) :=
  r.1.toOption.map fun out => (out.1.map (·.map fun x => (genes r.2 x, fitness r.2 x)), out.2.map (·.map fun x => (genes r.2 x, fitness r.2 x)))

def exTravel : Travel Nat := ⟨2, fun i => [1 - i], 1, fun s n => (s % n, s + 1), 1, 2⟩

def exPairDraw (s k : Nat) : List Nat × Nat := ((List.range k).map fun i => (s + i) % 2, s + 1)

def exTwoFlips (s : Nat) : List ℚ × Nat := (if s % 5 < 3 then [1 / 4, 3 / 4] else [3 / 4, 1 / 4], s + 1)

def exBitStages (flips : Nat → List ℚ × Nat) (prob : Prob Int Int Int Nat) : List (Stage Int Int Int Nat) :=
  [.mutate (checkRateOp (some 1) none) false (bitflipFn (some 1) none flips), .evaluate .identity prob]

def exBitPlus (survival : Survival Nat) (flips : Nat → List ℚ × Nat) (prob : Prob Int Int Int Nat) : PlusConfig Int Int Int Nat :=
  plainPlus (fun a b => decide (a.getD 0 < b.getD 0)) (fun a b => a.getD 0 == b.getD 0) (fun a b => decide (b.getD 0 < a.getD 0)) 2 exPairDraw
    (fun _ => exBitStages flips prob) 2 survival

def exBitIslands (flips : Nat → List ℚ × Nat) (prob : Prob Int Int Int Nat) : IslandConfig Int Int Int Nat :=
  plainIslands (fun a b => decide (a.getD 0 < b.getD 0)) (fun a b => decide (b.getD 0 < a.getD 0)) 2 exPairDraw (exBitStages flips prob) 2 exTravel

/-- Genomes with the first bit flipped. -/
def exOther (s : Nat) : PyM (List Int) × Nat := ((exInit s).1.map (recode (flipped (· == 0))), (exInit s).2)

/-- Genomes with the last gene first. -/
def exLastFirst (s : Nat) : PyM (List Int) × Nat := ((exThree s).1.map (rearranged [2, 0, 1]), (exThree s).2)

set_option synthInstance.maxSize 1000 in
set_option synthInstance.maxHeartbeats 100000 in
/-- A loop and two islands that look for `[1, 1]`, and for the hidden string `[0, 1]`. -/
example :
    (∀ prob, List.Forall₂ (RecodedStage (flipped (· == 0)) 2) (exBitStages exTwoFlips prob) (exBitStages exTwoFlips (hiddenProb (· == 0) prob))) ∧
    (∀ s g, (exInit s).1 = .ok g → g.length = 2) ∧ Sized 2 exStart ∧
    exTell (plusRun (exBitPlus .truncation exTwoFlips exSum) exInit .identity exSum 0 2 2 exStart) =
      some [(some [1, 1], some (some 2)), (some [1, 1], some (some 2))] ∧
    exTell (plusRun (exBitPlus .truncation exTwoFlips (hiddenProb (· == 0) exSum)) exOther .identity (hiddenProb (· == 0) exSum) 0 2 2
        (recoded (flipped (· == 0)) exStart)) =
      some [(some [0, 1], some (some 2)), (some [0, 1], some (some 2))] ∧
    exTellIslands (islandRun (exBitIslands exTwoFlips exSum) exInit .identity exSum 0 2 2 2 exStart) =
      some ([[(some [0, 1], some (some 1)), (some [1, 1], some (some 2))], [(some [1, 1], some (some 2)), (some [1, 0], some (some 1))]],
        [[(some [1, 1], some (some 2))], []]) ∧
    exTellIslands (islandRun (exBitIslands exTwoFlips (hiddenProb (· == 0) exSum)) exOther .identity (hiddenProb (· == 0) exSum) 0 2 2 2
        (recoded (flipped (· == 0)) exStart)) =
      some ([[(some [1, 1], some (some 1)), (some [0, 1], some (some 2))], [(some [0, 1], some (some 2)), (some [0, 0], some (some 1))]],
        [[(some [0, 1], some (some 2))], []]) :=
  ⟨fun prob => .cons (.mutate (bitflip_recoded _ 2 _ _ _)) (.cons (.evaluate (identity_recoded _ _) (hiddenProb_recoded _ 2 prob)) .nil),
    by rintro s _ ⟨⟩; rfl, by simp [Sized, exStart], by decide +kernel, by decide +kernel, by decide +kernel, by decide +kernel⟩

set_option synthInstance.maxSize 1000 in
set_option synthInstance.maxHeartbeats 100000 in
/-- A loop and two islands with the genes in their order and with the last gene first. -/
example :
    [2, 0, 1].Perm (List.range 3) ∧
    (∀ prob, List.Forall₂ (ReorderedStage [2, 0, 1] 3) (exBitStages exFlips prob) (exBitStages (movedDraws [2, 0, 1] exFlips) (shuffledProb [2, 0, 1] 3 prob))) ∧
    (∀ s g, (exThree s).1 = .ok g → g.length = 3) ∧ Sized 3 exStart ∧
    exTell (plusRun (exBitPlus (.insertion fun s n => (s % n, s + 1)) exFlips exWeighted) exThree .identity exWeighted 0 2 2 exStart) =
      some [(some [1, 1, 1], some (some 7)), (some [0, 1, 1], some (some 6))] ∧
    exTell (plusRun (exBitPlus (.insertion fun s n => (s % n, s + 1)) (movedDraws [2, 0, 1] exFlips) (shuffledProb [2, 0, 1] 3 exWeighted)) exLastFirst .identity
        (shuffledProb [2, 0, 1] 3 exWeighted) 0 2 2 (reordered [2, 0, 1] exStart)) =
      some [(some [1, 1, 1], some (some 7)), (some [1, 0, 1], some (some 6))] ∧
    exTellIslands (islandRun (exBitIslands exFlips exWeighted) exThree .identity exWeighted 0 2 2 2 exStart) =
      some ([[(some [0, 1, 1], some (some 6)), (some [0, 0, 0], some (some 0))], [(some [0, 1, 1], some (some 6)), (some [0, 0, 1], some (some 4))]],
        [[(some [0, 1, 1], some (some 6))], []]) ∧
    exTellIslands (islandRun (exBitIslands (movedDraws [2, 0, 1] exFlips) (shuffledProb [2, 0, 1] 3 exWeighted)) exLastFirst .identity
        (shuffledProb [2, 0, 1] 3 exWeighted) 0 2 2 2 (reordered [2, 0, 1] exStart)) =
      some ([[(some [1, 0, 1], some (some 6)), (some [0, 0, 0], some (some 0))], [(some [1, 0, 1], some (some 6)), (some [1, 0, 0], some (some 4))]],
        [[(some [1, 0, 1], some (some 6))], []]) := by
  have hp : [2, 0, 1].Perm (List.range 3) := by decide
  refine ⟨hp, fun prob => .cons (.mutate (bitflip_reordered hp _ _ _ fun _ => rfl)) (.cons (.evaluate identity_reordered (shuffledProb_reordered hp prob)) .nil),
    by rintro s _ ⟨⟩; rfl, by simp [Sized, exStart], by decide +kernel, by decide +kernel, by decide +kernel, by decide +kernel⟩

set_option synthInstance.maxSize 1000 in
set_option synthInstance.maxHeartbeats 100000 in
/-- Two islands that maximize the sum, and two that maximize its cube. -/
example : KeepsOrder false true true (upward (· ^ 3)) ∧
    exTellIslands (islandRun (plainIslands (lessFit true false false) (moreFit true false false) 2 exNumDraw (exNumStages false) 2 exTravel) exInit .identity
        (exNumSum false) 0 2 2 2 ⟨[], [], [], 0, 0⟩) =
      some ([[(some [0, 1], some (some (.fin 1))), (some [1, 1], some (some (.fin 2)))], [(some [1, 1], some (some (.fin 2))), (some [1, 0], some (some (.fin 1)))]],
        [[(some [1, 1], some (some (.fin 2)))], []]) ∧
    exTellIslands (islandRun (plainIslands (lessFit true false false) (moreFit true false false) 2 exNumDraw ((exNumStages false).map (rescoredStage (upward (· ^ 3)))) 2
        exTravel) exInit .identity (rescoredProb (upward (· ^ 3)) (exNumSum false)) 0 2 2 2 ⟨[], [], [], 0, 0⟩) =
      some ([[(some [0, 1], some (some (.fin 1))), (some [1, 1], some (some (.fin 8)))], [(some [1, 1], some (some (.fin 8))), (some [1, 0], some (some (.fin 1)))]],
        [[(some [1, 1], some (some (.fin 8)))], []]) :=
  ⟨increasing_keeps_order _ (Odd.strictMono_pow (by decide)) _, by decide +kernel, by decide +kernel⟩
end Leap
