import Verif.Lemmas.Recode
import Verif.Model.Segmented
import Verif.Model.Transform
import Verif.Props.EvoRun
import Verif.Props.Mutation

/-!
# C131: no gene value and no place in the search space is preferred

Two runs with the same random numbers, one on a problem, the other on the same problem with its genomes in another code: bits flipped at some positions,
or real coordinates moved and stretched.
-/

namespace Leap
open Spec

variable {γ γ' ψ φ ρ : Type}

/-! ### Specification -/

/-- The outcome of a run with every genome in the other code. -/
def Spec.recodedOutcome {α : Type} (h : Nat → γ → γ') (r : PyM α × Mem γ ψ φ ρ) : PyM α × Mem γ' ψ φ ρ := (r.1, recoded h r.2)

/-- `generational_ea` with tournaments of `k` and elitism. -/
def Spec.plainEa (worse better : Option φ → Option φ → Bool) (k : Nat) (draw : ρ → Nat → List Nat × ρ) (stages : List (Stage γ ψ φ ρ))
    (size kElites : Nat) : EvoConfig γ ψ φ ρ where
  worse := worse
  choose _ pop := tournamentChoice better k draw pop
  stages := stages
  size := size
  kElites := kElites
  stop _ _ _ := false

/-- Flip the bits at the positions in `at_`. -/
def Spec.flipped (at_ : Nat → Bool) (i : Nat) (g : Int) : Int := if at_ i then 1 - g else g

/-- Coordinate `i` in a unit `1 / c i` and from another zero. -/
def Spec.moved (c t : Nat → ℚ) (i : Nat) (x : ℚ) : ℚ := c i * x + t i

/-- A pair of bounds moved with the coordinate. -/
def Spec.movedBound (f : ℚ → ℚ) (b : Bound ℚ) : Bound ℚ := (b.1.map f, b.2.map f)

/-- The second bounds are the first, moved with the coordinates; both are for `n` genes. -/
def Spec.MovedBounds (h : Nat → ℚ → ℚ) (n : Nat) (hard hard' : HardBounds ℚ) : Prop :=
  Fits hard n ∧ Fits hard' n ∧ ∀ i, i < n → boundAt hard' i = (boundAt hard i).map (movedBound (h i))

/-- The second standard deviations are the first in the new units. -/
def Spec.MovedStd (c : Nat → ℚ) (n : Nat) : ScalarOrList ℚ → ScalarOrList ℚ → Prop
  | .scalar s, .scalar s' => 0 < n ∧ ∀ i, i < n → s' = c i * s
  | .list ss, .list ss' => ss' = ss.mapIdx fun i s => c i * s
  | _, _ => False

/-- A real-valued problem with genomes as phenomes. -/
def Spec.realProb (p : RealProblem ℚ φ) : Prob ℚ ψ φ ρ where
  evaluate c s := match c with
    | .raw g => (p.evaluate (.array g), s)
    | .value _ => (.error .typeError, s)
  evaluateMultiple cs s := (cs.mapM fun c => match c with
    | .raw g => p.evaluate (.array g)
    | .value _ => .error .typeError, s)
  takesIndividuals := true

/-- Genomes made by `create_real_vector(bounds)`. -/
def Spec.uniformInit (bounds : List (ℚ × ℚ)) (rand : ρ → List ℚ × ρ) (s : ρ) : PyM (List ℚ) × ρ :=
  (.ok (createRealVector bounds (rand s).1), (rand s).2)

/-! ### Runs -/

section
variable {h : Nat → γ → γ'} {n : Nat}

theorem identity_recoded (h : Nat → γ → γ') (n : Nat) : RecodedDec (ψ := ψ) h n .identity .identity := trivial

theorem tournamentChoice_recoded (better : Option φ → Option φ → Bool) (k : Nat) (draw : ρ → Nat → List Nat × ρ) (pop : List Nat) (m : Mem γ ψ φ ρ) :
    tournamentChoice better k draw pop (recoded h m) = tournamentChoice better k draw pop m := rfl

/-- C131: `generational_ea` with tournaments of any size, any elitism, population, number of generations and random numbers, and any operators: if the initial
genomes, mutation, decoder and problem of the second run are those of the first in another code, then so is everything the second run does. It returns the same
individuals, with the same fitnesses, identities and parents and with their genomes in the other code, or raises the same exception, and it uses the same random
numbers. -/
theorem ea_recoded (worse better : Option φ → Option φ → Bool) (k : Nat) (draw : ρ → Nat → List Nat × ρ) (stages : List (Stage γ ψ φ ρ))
    (stages' : List (Stage γ' ψ φ ρ)) (hst : List.Forall₂ (RecodedStage h n) stages stages') (size kElites : Nat)
    (initGenome : ρ → PyM (List γ) × ρ) (initGenome' : ρ → PyM (List γ') × ρ)
    (hi : ∀ s, initGenome' s = ((initGenome s).1.map (recode h), (initGenome s).2)) (hin : ∀ s g, (initGenome s).1 = .ok g → g.length = n)
    (dec : Dec γ ψ) (dec' : Dec γ' ψ) (hd : RecodedDec h n dec dec') (prob : Prob γ ψ φ ρ) (prob' : Prob γ' ψ φ ρ) (hp : RecodedProb h n prob prob')
    (problem popSize : Nat) (startGeneration maxGenerations : Int) (m : Mem γ ψ φ ρ) (hm : Sized n m) :
    evoRun (plainEa worse better k draw stages' size kElites) initGenome' dec' prob' problem popSize startGeneration maxGenerations (recoded h m) =
      recodedOutcome h (evoRun (plainEa worse better k draw stages size kElites) initGenome dec prob problem popSize startGeneration maxGenerations m) := by
  have := (recodes_evoRun (h := h) (n := n) (plainEa worse better k draw stages size kElites) (plainEa worse better k draw stages' size kElites) rfl
    (fun _ _ _ => rfl) hst rfl rfl (fun _ _ _ => rfl) initGenome initGenome' hi hin dec dec' hd prob prob' hp problem popSize startGeneration
    maxGenerations m hm).1
  rw [this]
  unfold recodedOutcome
  rw [except_map_id]

/-- C131: and for asynchronous steady-state runs with any inserter that does not look at genomes, in every order of completion and whether workers get copies
or not. -/
theorem async_recoded (insert : Nat → List Nat → Mem γ ψ φ ρ → PyM (List Nat) × ρ) (insert' : Nat → List Nat → Mem γ' ψ φ ρ → PyM (List Nat) × ρ)
    (hins : ∀ r pop m, insert' r pop (recoded h m) = insert r pop m) (better : Option φ → Option φ → Bool) (k : Nat) (draw : ρ → Nat → List Nat × ρ)
    (stages : List (Stage γ ψ φ ρ)) (stages' : List (Stage γ' ψ φ ρ)) (hst : List.Forall₂ (RecodedStage h n) stages stages') (size popSize : Nat)
    (maxBirths : Int) (countNonviable : Bool) (nan : φ) (dec : Dec γ ψ) (dec' : Dec γ' ψ) (hd : RecodedDec h n dec dec') (prob : Prob γ ψ φ ρ)
    (prob' : Prob γ' ψ φ ρ) (hp : RecodedProb h n prob prob') (initGenome : ρ → PyM (List γ) × ρ) (initGenome' : ρ → PyM (List γ') × ρ)
    (hi : ∀ s, initGenome' s = ((initGenome s).1.map (recode h), (initGenome s).2)) (hin : ∀ s g, (initGenome s).1 = .ok g → g.length = n)
    (problem initSize : Nat) (copied : Nat → Bool) (rounds : List AsyncRound) (m : Mem γ ψ φ ρ) (hm : Sized n m) :
    asyncRun ⟨maxBirths, popSize, countNonviable, insert', tournamentChoice better k draw, stages', size, nan, dec', prob'⟩ initGenome' problem initSize copied
        rounds (recoded h m) =
      recodedOutcome h (asyncRun ⟨maxBirths, popSize, countNonviable, insert, tournamentChoice better k draw, stages, size, nan, dec, prob⟩ initGenome problem
        initSize copied rounds m) := by
  have := (recodes_asyncRun (h := h) (n := n) ⟨maxBirths, popSize, countNonviable, insert, tournamentChoice better k draw, stages, size, nan, dec, prob⟩
    ⟨maxBirths, popSize, countNonviable, insert', tournamentChoice better k draw, stages', size, nan, dec', prob'⟩ rfl rfl hins (fun _ _ => rfl) hst rfl rfl
    hd hp initGenome initGenome' hi hin problem initSize copied rounds m hm).1
  rw [this]
  unfold recodedOutcome
  rw [except_map_id]

/-- C131: LEAP's two inserters do not look at genomes. -/
theorem inserters_recoded (lt gt : Option φ → Option φ → Bool) (draw : ρ → Nat × ρ) (popSize r : Nat) (pop : List Nat) (m : Mem γ ψ φ ρ) :
    tournamentInserter gt draw popSize r pop (recoded h m) = tournamentInserter gt draw popSize r pop m ∧
    greedyInserter lt gt popSize r pop (recoded h m) = greedyInserter lt gt popSize r pop m := ⟨rfl, rfl⟩

end

/-! ### Bits -/

theorem maskStore_recode_values {h : Nat → γ → γ'} (mk : List Bool) (a v : List γ) (v' : List γ') (ha : mk.length = a.length)
    (hv : v.length = mk.count true) (hv' : v'.length = mk.count true)
    (hr : ∀ i, mk[i]? = some true → v'[(mk.take i).count true]? = (v[(mk.take i).count true]?).map (h i)) :
    maskStore mk (recode h a) v' = recode h (maskStore mk a v) := by
  refine recode_eq_of (by simp [maskStore_length]) fun i hi => ?_
  rw [maskStore_length] at hi
  have hm : mk[i]? = some mk[i] := List.getElem?_eq_getElem (by omega)
  rw [maskStore_get mk _ _ (by simpa using ha) hv' i _ hm, maskStore_get mk a v ha hv i _ hm]
  cases hmi : mk[i] with
  | false => simp [recode_get]
  | true => simpa using hr i (by rw [hm, hmi])

/-- C131: bit-flip mutation is the same operator in every code that flips bits: no bit value is preferred anywhere. -/
theorem bitflip_recoded (at_ : Nat → Bool) (n : Nat) (expected probability : Option ℚ) (rand : ρ → List ℚ × ρ) :
    RecodedMut (flipped at_) n (bitflipFn expected probability rand) (bitflipFn expected probability rand) := by
  intro g s hg
  have key : genomeMutateBitflip expected probability (rand s).1 (recode (flipped at_) g) =
      (genomeMutateBitflip expected probability (rand s).1 g).map (recode (flipped at_)) ∧
      ∀ g', genomeMutateBitflip expected probability (rand s).1 g = .ok g' → g'.length = n := by
    unfold genomeMutateBitflip
    rw [recode_length]
    cases checkRateGenome expected probability with
    | error e => exact ⟨rfl, by rintro _ ⟨⟩⟩
    | ok _ =>
      simp only
      cases mutationMask expected probability (rand s).1 g.length with
      | error e => exact ⟨rfl, by rintro _ ⟨⟩⟩
      | ok mk =>
        simp only [boolIndex, recode_length]
        by_cases hmk : mk.length = g.length
        · have l1 := maskSelect_length mk g hmk
          have l2 := maskSelect_length mk (recode (flipped at_) g) (by simpa using hmk)
          simp only [if_pos hmk, boolAssign, recode_length, List.length_map, l1, l2, if_true, Except.map]
          refine ⟨congrArg _ (maskStore_recode_values mk g _ _ hmk (by simpa using l1) (by simpa using l2) fun i hi => ?_), ?_⟩
          · rw [List.getElem?_map, List.getElem?_map, maskSelect_get mk g hmk i hi, maskSelect_get mk _ (by simpa using hmk) i hi, recode_get]
            cases g[i]? with
            | none => rfl
            | some x =>
              simp only [Option.map_some, Option.some.injEq, flipped]
              split <;> omega
          · rintro _ ⟨⟩; rw [maskStore_length, hg]
        · simp only [if_neg hmk]; exact ⟨rfl, by rintro _ ⟨⟩⟩
  obtain ⟨k1, k2⟩ := key
  simp only [bitflipFn, k1]
  cases hr : genomeMutateBitflip expected probability (rand s).1 g with
  | error e => exact ⟨rfl, hg, by rintro _ ⟨⟩⟩
  | ok g' => exact ⟨rfl, k2 g' hr, by rintro _ ⟨⟩⟩

theorem flipped_flipped (at_ : Nat → Bool) (g : List Int) : recode (flipped at_) (recode (flipped at_) g) = g := by
  apply List.ext_getElem?
  intro i
  rw [recode_get, recode_get]
  cases g[i]? with
  | none => rfl
  | some x =>
    simp only [Option.map_some, Option.some.injEq, flipped]
    split <;> omega

/-- The problem that reads its phenome with some bits flipped: for `MaxOnes`, the number of agreements with a hidden string. -/
def Spec.hiddenProb (at_ : Nat → Bool) (prob : Prob Int ψ φ ρ) : Prob Int ψ φ ρ where
  evaluate c s := prob.evaluate (recodeContent (flipped at_) c) s
  evaluateMultiple cs s := prob.evaluateMultiple (cs.map (recodeContent (flipped at_))) s
  takesIndividuals := prob.takesIndividuals

theorem hiddenProb_recoded (at_ : Nat → Bool) (n : Nat) (prob : Prob Int ψ φ ρ) : RecodedProb (flipped at_) n prob (hiddenProb at_ prob) := by
  intro c s _
  cases c with
  | raw g => simp only [hiddenProb, recodeContent, flipped_flipped]
  | value v => rfl

/-- C131: a genetic algorithm on bits (clone, bit-flip mutation, uniform or no crossover, evaluation) finds any hidden string exactly as it finds all ones. -/
theorem hidden_string_irrelevant (at_ : Nat → Bool) (n : Nat) (worse better : Option φ → Option φ → Bool) (k : Nat) (draw : ρ → Nat → List Nat × ρ)
    (expected probability : Option ℚ) (rand : ρ → List ℚ × ρ) (skip : ρ → Bool × ρ) (mask : ρ → Nat → PyM (List Bool) × ρ) (size kElites : Nat)
    (initGenome : ρ → PyM (List Int) × ρ) (hin : ∀ s g, (initGenome s).1 = .ok g → g.length = n) (prob : Prob Int ψ φ ρ)
    (problem popSize : Nat) (startGeneration maxGenerations : Int) (m : Mem Int ψ φ ρ) (hm : Sized n m) :
    let ga := fun prob => plainEa worse better k draw
      [.mutate (checkRateOp expected probability) false (bitflipFn expected probability rand), .crossover skip (.uniform mask), .evaluate .identity prob] size kElites
    evoRun (ga (hiddenProb at_ prob)) (fun s => ((initGenome s).1.map (recode (flipped at_)), (initGenome s).2)) .identity (hiddenProb at_ prob) problem popSize
        startGeneration maxGenerations (recoded (flipped at_) m) =
      recodedOutcome (flipped at_) (evoRun (ga prob) initGenome .identity prob problem popSize startGeneration maxGenerations m) := by
  intro ga
  exact ea_recoded worse better k draw _ _
    (.cons (.mutate (bitflip_recoded at_ n expected probability rand)) (.cons .uniform (.cons (.evaluate (identity_recoded _ _) (hiddenProb_recoded at_ n prob)) .nil)))
    size kElites initGenome _ (fun _ => rfl) hin _ _ (identity_recoded _ _) _ _ (hiddenProb_recoded at_ n prob) problem popSize startGeneration maxGenerations m hm

/-! ### Coordinates -/

theorem clip1_moved {f : ℚ → ℚ} (hf : Monotone f) (b : Bound ℚ) (x : ℚ) : clip1 (movedBound f b) (f x) = f (clip1 b x) := by
  obtain ⟨lo, hi⟩ := b
  cases lo <;> cases hi <;> simp [movedBound, clip1, hf.map_max, hf.map_min]

theorem applyHardBounds_moved {h : Nat → ℚ → ℚ} (hh : ∀ i, Monotone (h i)) {n : Nat} {hard hard' : HardBounds ℚ} (hb : MovedBounds h n hard hard')
    (g : List ℚ) (hg : g.length = n) :
    applyHardBounds (recode h g) hard' = (applyHardBounds g hard).map (recode h) ∧ ∀ g', applyHardBounds g hard = .ok g' → g'.length = n := by
  obtain ⟨f1, f2, hb⟩ := hb
  obtain ⟨a, ea, la, ha⟩ := applyHardBounds_get (hard := hard) (genome := g) (by rw [hg]; exact f1)
  obtain ⟨a', ea', la', ha'⟩ := applyHardBounds_get (hard := hard') (genome := recode h g) (by rw [recode_length, hg]; exact f2)
  rw [ea, ea']
  refine ⟨congrArg _ (recode_eq_of (by rw [la', recode_length, la]) fun i hi => ?_), by rintro _ ⟨⟩; rw [la, hg]⟩
  rw [la] at hi
  have hx : g[i]? = some g[i] := List.getElem?_eq_getElem hi
  obtain ⟨b, hbi, hai⟩ := ha i _ hx
  obtain ⟨b', hbi', hai'⟩ := ha' i (h i g[i]) (by rw [recode_get, hx]; rfl)
  rw [hb i (by omega), hbi] at hbi'
  cases hbi'
  rw [hai, hai', clip1_moved (hh i)]; rfl

theorem gaussStd_moved {c : Nat → ℚ} {n : Nat} {std std' : ScalarOrList ℚ} (hs : MovedStd c n std std') (mk : List Bool) (hmk : mk.length = n) :
    (∃ e, gaussStd std mk = .error e ∧ gaussStd std' mk = .error e) ∨
    ∃ v v', gaussStd std mk = .ok v ∧ gaussStd std' mk = .ok v' ∧ v.length = mk.count true ∧ v'.length = mk.count true ∧
      ∀ i, mk[i]? = some true → v'[(mk.take i).count true]? = (v[(mk.take i).count true]?).map (c i * ·) := by
  cases std with
  | scalar s =>
    cases std' with
    | list ss' => exact hs.elim
    | scalar s' =>
      right
      refine ⟨_, _, rfl, rfl, by simp, by simp, fun i hi => ?_⟩
      have hin : i < n := by rw [← hmk]; exact (List.getElem?_eq_some_iff.1 hi).1
      rw [hs.2 i hin]
      simp only [List.getElem?_replicate]
      split <;> rfl
  | list ss =>
    cases std' with
    | scalar s' => exact hs.elim
    | list ss' =>
      have hs : ss' = ss.mapIdx fun i s => c i * s := hs
      subst hs
      simp only [gaussStd, boolIndex, List.length_mapIdx]
      by_cases hl : mk.length = ss.length
      · right
        simp only [if_pos hl]
        refine ⟨_, _, rfl, rfl, maskSelect_length _ _ hl, maskSelect_length _ _ (by simpa using hl), fun i hi => ?_⟩
        rw [maskSelect_get mk ss hl i hi, maskSelect_get mk _ (by simpa using hl) i hi, List.getElem?_mapIdx]
      · left; simp only [if_neg hl]; exact ⟨_, rfl, rfl⟩

theorem stdAccepted_moved {c : Nat → ℚ} (hc : ∀ i, 0 < c i) {n : Nat} {std std' : ScalarOrList ℚ} (hs : MovedStd c n std std') :
    stdAccepted std' = stdAccepted std := by
  cases std with
  | scalar s =>
    cases std' with
    | list ss' => exact hs.elim
    | scalar s' =>
      simp only [stdAccepted, hs.2 0 hs.1, decide_eq_decide]
      exact mul_nonneg_iff_of_pos_left (hc 0)
  | list ss =>
    cases std' with
    | scalar s' => exact hs.elim
    | list ss' => rfl

/-- C131: Gaussian mutation has no preferred place, unit or scale: when coordinates, standard deviations and hard bounds move together, so does every mutant. -/
theorem gaussian_recoded (c t : Nat → ℚ) (hc : ∀ i, 0 < c i) (n : Nat) (std std' : ScalarOrList ℚ) (hs : MovedStd c n std std') (expected : GaussRate)
    (hard hard' : HardBounds ℚ) (hb : MovedBounds (moved c t) n hard hard') (rand : ρ → (List ℚ × List ℚ) × ρ) :
    RecodedMut (moved c t) n (gaussianFn std expected hard 1 0 rand) (gaussianFn std' expected hard' 1 0 rand) := by
  intro g s hg
  have hmono : ∀ i, Monotone (moved c t i) := fun i x y hxy => by
    have := mul_le_mul_of_nonneg_left hxy (hc i).le
    simp only [moved]; linarith
  have key : genomeMutateGaussian std' expected (.all (none, none)) 1 0 (rand s).1.1 (rand s).1.2 (recode (moved c t) g) =
      (genomeMutateGaussian std expected (.all (none, none)) 1 0 (rand s).1.1 (rand s).1.2 g).map (recode (moved c t)) ∧
      ∀ g', genomeMutateGaussian std expected (.all (none, none)) 1 0 (rand s).1.1 (rand s).1.2 g = .ok g' → g'.length = n := by
    unfold genomeMutateGaussian
    rw [recode_length, stdAccepted_moved hc hs]
    by_cases hacc : stdAccepted std = true
    · simp only [if_pos hacc]
      cases gaussProbability expected g.length with
      | error e => exact ⟨rfl, by rintro _ ⟨⟩⟩
      | ok p =>
        simp only
        cases bernoulliVector ((rand s).1.1.take g.length) p with
        | error e => exact ⟨rfl, by rintro _ ⟨⟩⟩
        | ok mk =>
          simp only
          by_cases hmk : mk.length = g.length
          · rcases gaussStd_moved hs mk (hmk.trans hg) with ⟨e, e1, e2⟩ | ⟨v, v', e1, e2, lv, lv', hv⟩
            · simp only [e1, e2]; exact ⟨rfl, by rintro _ ⟨⟩⟩
            · have l1 := maskSelect_length mk g hmk
              have l2 := maskSelect_length mk (recode (moved c t) g) (by simpa using hmk)
              simp only [e1, e2, boolIndex, recode_length, if_pos hmk, boolAssign, List.length_zipWith, l1, l2, lv, lv']
              by_cases hz : min (mk.count true) (min (rand s).1.2.length (mk.count true)) = mk.count true
              · simp only [if_pos hz]
                have hall : ∀ l : List ℚ, applyHardBounds l (.all (none, none)) = .ok l := by
                  intro l; exact congrArg Except.ok (List.map_id l)
                simp only [hall]
                refine ⟨congrArg _ (maskStore_recode_values mk g _ _ hmk ?_ ?_ fun i hi => ?_), ?_⟩
                · simp only [List.length_zipWith, l1, lv, hz]
                · simp only [List.length_zipWith, l2, lv', hz]
                · simp only [List.getElem?_zipWith, maskSelect_get mk g hmk i hi, maskSelect_get mk (recode (moved c t) g) (by simpa using hmk) i hi, hv i hi,
                    recode_get]
                  cases g[i]? with
                  | none => rfl
                  | some x =>
                    cases (rand s).1.2[(mk.take i).count true]? with
                    | none => rfl
                    | some z =>
                      cases v[(mk.take i).count true]? with
                      | none => rfl
                      | some sd =>
                        simp only [Option.map_some, Option.some.injEq, moved]
                        ring
                · rintro _ ⟨⟩; rw [maskStore_length, hg]
              · simp only [if_neg hz]; exact ⟨rfl, by rintro _ ⟨⟩⟩
          · have hb1 : boolIndex g mk = .error .indexError := by simp [boolIndex, hmk]
            have hb2 : boolIndex (recode (moved c t) g) mk = .error .indexError := by simp [boolIndex, hmk]
            simp only [hb1, hb2]
            have hstd : (∃ e, gaussStd std mk = .error e ∧ gaussStd std' mk = .error e) ∨ ∃ v v', gaussStd std mk = .ok v ∧ gaussStd std' mk = .ok v' := by
              cases std <;> cases std' <;> try exact hs.elim
              · exact Or.inr ⟨_, _, rfl, rfl⟩
              · rename_i ss ss'
                have hs : ss' = ss.mapIdx fun i s => c i * s := hs
                subst hs
                simp only [gaussStd, boolIndex, List.length_mapIdx]
                by_cases hl : mk.length = ss.length
                · simp only [if_pos hl]; exact Or.inr ⟨_, _, rfl, rfl⟩
                · simp only [if_neg hl]; exact Or.inl ⟨_, rfl, rfl⟩
            rcases hstd with ⟨e, e1, e2⟩ | ⟨v, v', e1, e2⟩ <;> simp only [e1, e2] <;> exact ⟨rfl, by rintro _ ⟨⟩⟩
    · simp only [if_neg hacc]; exact ⟨rfl, by rintro _ ⟨⟩⟩
  obtain ⟨k1, k2⟩ := key
  simp only [gaussianFn, k1]
  cases hr : genomeMutateGaussian std expected (.all (none, none)) 1 0 (rand s).1.1 (rand s).1.2 g with
  | error e => exact ⟨rfl, hg, by rintro _ ⟨⟩⟩
  | ok un =>
    obtain ⟨b1, b2⟩ := applyHardBounds_moved hmono hb un (k2 un hr)
    simp only [Except.map, b1]
    cases hq : applyHardBounds un hard with
    | error e => exact ⟨rfl, k2 un hr, by rintro _ ⟨⟩⟩
    | ok g' => exact ⟨rfl, k2 un hr, by rintro _ ⟨⟩; exact b2 g' hq⟩

/-- C131: vectors made by `create_real_vector` with moved bounds are the moved vectors. -/
theorem createRealVector_recoded (c t : Nat → ℚ) (bounds : List (ℚ × ℚ)) (u : List ℚ) :
    createRealVector (bounds.mapIdx fun i b => (moved c t i b.1, moved c t i b.2)) u = recode (moved c t) (createRealVector bounds u) := by
  apply List.ext_getElem?
  intro i
  simp only [createRealVector, recode_get, List.getElem?_zipWith, List.getElem?_mapIdx]
  cases bounds[i]? with
  | none => rfl
  | some b =>
    cases u[i]? with
    | none => rfl
    | some x =>
      simp only [Option.map_some, Option.some.injEq, moved]
      ring

theorem translatedProblem_recoded (p : RealProblem ℚ φ) (offset : List ℚ) (maximize : Option Bool) :
    RecodedProb (ψ := ψ) (ρ := ρ) (moved (fun _ => 1) (fun i => offset.getD i 0)) offset.length (realProb p) (realProb (translatedProblem p offset maximize)) := by
  intro c s hc
  cases c with
  | value v => rfl
  | raw g =>
    have hc : g.length = offset.length := hc
    have : vecSub (recode (moved (fun _ => 1) (fun i => offset.getD i 0)) g) offset = g := by
      apply List.ext_getElem?
      intro i
      simp only [vecSub, List.getElem?_zipWith, recode_get]
      by_cases hi : i < g.length
      · have ho : i < offset.length := by omega
        simp [List.getElem?_eq_getElem hi, List.getElem?_eq_getElem ho, moved]
      · simp [List.getElem?_eq_none (not_lt.1 hi)]
    simp only [realProb, recodeContent, translatedProblem, translatedEvaluate, Phenome.len, recode_length, hc, if_true, this]

theorem scaledProblem_recoded (p p' : RealProblem ℚ φ) (old new : ℚ × ℚ) (ho : old.1 < old.2) (hn : new.1 < new.2) (hpb : p.bounds = some old)
    (maximize : Option Bool) (hp' : scaledProblem p new maximize = .ok p') (n : Nat) :
    RecodedProb (ψ := ψ) (ρ := ρ) (moved (fun _ => (new.2 - new.1) / (old.2 - old.1)) (fun _ => new.1 - (new.2 - new.1) / (old.2 - old.1) * old.1)) n
      (realProb p) (realProb p') := by
  intro c s hc
  unfold scaledProblem at hp'
  rw [hpb] at hp'
  cases hp'
  cases c with
  | value v => rfl
  | raw g =>
    simp only [realProb, recodeContent, scaledEvaluate]
    congr 3
    apply List.ext_getElem?
    intro i
    simp only [List.getElem?_map, recode_get]
    cases g[i]? with
    | none => rfl
    | some x =>
      have h1 : old.2 - old.1 ≠ 0 := by linarith
      have h2 : new.2 - new.1 ≠ 0 := by linarith
      simp only [Option.map_some, Option.some.injEq, moved]
      field_simp
      ring

/-- C131: an evolutionary run of Gaussian mutation on a `TranslatedProblem`, with the bounds of the initial population and of mutation translated too, is the
translated run: no place is preferred. -/
theorem translated_run (p : RealProblem ℚ φ) (offset : List ℚ) (maximize : Option Bool) (worse better : Option φ → Option φ → Bool) (k : Nat)
    (draw : ρ → Nat → List Nat × ρ) (std : ScalarOrList ℚ) (expected : GaussRate) (hard hard' : HardBounds ℚ)
    (hb : MovedBounds (moved (fun _ => 1) (fun i => offset.getD i 0)) offset.length hard hard') (rand : ρ → (List ℚ × List ℚ) × ρ)
    (skip : ρ → Bool × ρ) (mask : ρ → Nat → PyM (List Bool) × ρ) (size kElites : Nat)
    (bounds : List (ℚ × ℚ)) (hbl : bounds.length = offset.length) (hpos : 0 < offset.length) (randInit : ρ → List ℚ × ρ)
    (hri : ∀ s, (randInit s).1.length = bounds.length)
    (problem popSize : Nat) (startGeneration maxGenerations : Int) (m : Mem ℚ ψ φ ρ) (hm : Sized offset.length m) :
    let ea := fun prob hard => plainEa worse better k draw
      [.mutate (.ok ()) false (gaussianFn std expected hard 1 0 rand), .crossover skip (.uniform mask), .evaluate .identity (realProb prob)] size kElites
    let there := moved (fun _ => 1) (fun i => offset.getD i 0)
    evoRun (ea (translatedProblem p offset maximize) hard') (uniformInit (bounds.mapIdx fun i b => (there i b.1, there i b.2)) randInit) .identity
        (realProb (translatedProblem p offset maximize)) problem popSize startGeneration maxGenerations (recoded there m) =
      recodedOutcome there (evoRun (ea p hard) (uniformInit bounds randInit) .identity (realProb p) problem popSize startGeneration maxGenerations m) := by
  intro ea there
  refine ea_recoded worse better k draw _ _ (.cons (.mutate (gaussian_recoded _ _ (fun _ => one_pos) _ std std ?_ expected hard hard' hb rand))
    (.cons .uniform (.cons (.evaluate (identity_recoded _ _) (translatedProblem_recoded p offset maximize)) .nil)))
    size kElites (uniformInit bounds randInit) _ (fun s => ?_) ?_ _ _ (identity_recoded _ _) _ _ (translatedProblem_recoded p offset maximize) problem popSize startGeneration
    maxGenerations m hm
  · cases std with
    | scalar s => exact ⟨hpos, fun _ _ => (one_mul s).symm⟩
    | list ss =>
      show ss = _
      simp [List.mapIdx_eq_zipIdx_map]
  · simp only [uniformInit, createRealVector_recoded, Except.map, there]
  · rintro s _ ⟨⟩
    simp only [createRealVector, List.length_zipWith, hri s, hbl, Nat.min_self]

/-- C131: and on a `ScaledProblem`, with standard deviations in the new unit, it is the scaled run. -/
theorem scaled_run (p p' : RealProblem ℚ φ) (old new : ℚ × ℚ) (ho : old.1 < old.2) (hn : new.1 < new.2) (hpb : p.bounds = some old)
    (maximize : Option Bool) (hp' : scaledProblem p new maximize = .ok p') (n : Nat) (hpos : 0 < n) (worse better : Option φ → Option φ → Bool) (k : Nat)
    (draw : ρ → Nat → List Nat × ρ) (std : ℚ) (expected : GaussRate) (rand : ρ → (List ℚ × List ℚ) × ρ) (skip : ρ → Bool × ρ)
    (mask : ρ → Nat → PyM (List Bool) × ρ) (size kElites : Nat) (randInit : ρ → List ℚ × ρ) (hri : ∀ s, (randInit s).1.length = n)
    (problem popSize : Nat) (startGeneration maxGenerations : Int) (m : Mem ℚ ψ φ ρ) (hm : Sized n m) :
    let ea := fun prob std (bounds : ℚ × ℚ) => plainEa worse better k draw
      [.mutate (.ok ()) false (gaussianFn (.scalar std) expected (.all (some bounds.1, some bounds.2)) 1 0 rand), .crossover skip (.uniform mask),
        .evaluate .identity (realProb prob)] size kElites
    let unit := (new.2 - new.1) / (old.2 - old.1)
    let there := moved (fun _ => unit) (fun _ => new.1 - unit * old.1)
    evoRun (ea p' (unit * std) new) (uniformInit (List.replicate n new) randInit) .identity (realProb p') problem popSize startGeneration maxGenerations
        (recoded there m) =
      recodedOutcome there (evoRun (ea p std old) (uniformInit (List.replicate n old) randInit) .identity (realProb p) problem popSize startGeneration
        maxGenerations m) := by
  intro ea unit there
  have h1 : old.2 - old.1 ≠ 0 := by linarith
  have hunit : 0 < unit := div_pos (by linarith) (by linarith)
  have e1 : ∀ i, there i old.1 = new.1 := fun i => by simp only [there, moved]; ring
  have e2 : ∀ i, there i old.2 = new.2 := fun i => by simp only [there, moved, unit]; field_simp; ring
  refine ea_recoded worse better k draw _ _ (.cons (.mutate (gaussian_recoded _ _ (fun _ => hunit) n (.scalar std) (.scalar (unit * std)) ⟨hpos, fun _ _ => rfl⟩
    expected (.all (some old.1, some old.2)) (.all (some new.1, some new.2)) ⟨trivial, trivial, fun i _ => ?_⟩ rand))
    (.cons .uniform (.cons (.evaluate (identity_recoded _ _) (scaledProblem_recoded p p' old new ho hn hpb maximize hp' n)) .nil)))
    size kElites (uniformInit (List.replicate n old) randInit) _ (fun s => ?_) ?_ _ _ (identity_recoded _ _) _ _ (scaledProblem_recoded p p' old new ho hn hpb maximize hp' n)
    problem popSize startGeneration maxGenerations m hm
  · simp only [boundAt, Option.map_some, movedBound, Option.some.injEq, Prod.mk.injEq]
    exact ⟨(e1 i).symm, (e2 i).symm⟩
  · have : (List.replicate n old).mapIdx (fun i b => (there i b.1, there i b.2)) = List.replicate n new := by
      apply List.ext_getElem?
      intro i
      simp only [List.getElem?_mapIdx, List.getElem?_replicate]
      split
      · simp [e1, e2]
      · rfl
    simp only [uniformInit, Except.map]
    rw [← this, createRealVector_recoded]
  · rintro s _ ⟨⟩
    simp [createRealVector, hri s]

/-! ### Some runs -/

/-- Genes and fitness of those returned. -/
def exTell {φ : Type} (r : PyM (List Nat) × Mem γ ψ φ Nat) : Option (List (Option (List γ) × Option (Option φ))) :=
  r.1.toOption.map fun out => out.map fun x => (genes r.2 x, fitness r.2 x)

def exBitGa (prob : Prob Int Int Int Nat) : EvoConfig Int Int Int Nat :=
  plainEa (fun a b => decide (a.getD 0 < b.getD 0)) (fun a b => decide (b.getD 0 < a.getD 0)) 2 (fun s k => ((List.range k).map fun i => (s + i) % 2, s + 1))
    [.mutate (checkRateOp (some 1) none) false (bitflipFn (some 1) none fun s => (if s % 5 < 3 then [1 / 4, 3 / 4] else [3 / 4, 1 / 4], s + 1)),
      .crossover (fun s => (s % 2 == 0, s + 1)) (.uniform fun s n => (.ok ((List.range n).map fun i => (s + i) % 3 == 0), s + 1)),
      .evaluate .identity prob] 2 1

/-- Three generations of looking for `[1, 1]` and for the hidden string `[0, 1]`. -/
example :
    (∀ s g, (exInit s).1 = .ok g → g.length = 2) ∧ Sized 2 exStart ∧
    exTell (evoRun (exBitGa exSum) exInit .identity exSum 0 2 0 3 exStart) = some [(some [1, 1], some (some 2)), (some [0, 1], some (some 1))] ∧
    exTell (evoRun (exBitGa (hiddenProb (· == 0) exSum)) (fun s => ((exInit s).1.map (recode (flipped (· == 0))), (exInit s).2)) .identity
      (hiddenProb (· == 0) exSum) 0 2 0 3 (recoded (flipped (· == 0)) exStart)) = some [(some [0, 1], some (some 2)), (some [1, 1], some (some 1))] :=
  ⟨by rintro s _ ⟨⟩; rfl, by simp [Sized, exStart], by decide +kernel, by decide +kernel⟩

/-- The sum of squares, on `[-1, 1]`. -/
def exSphere : RealProblem ℚ ℚ := ⟨fun v => .ok ((v.elements.map fun x => x * x).sum), false, some (-1, 1)⟩

def exRealEa (p : RealProblem ℚ ℚ) (std : ScalarOrList ℚ) (hard : HardBounds ℚ) : EvoConfig ℚ Int ℚ Nat :=
  plainEa (fun a b => decide (b.getD 0 < a.getD 0)) (fun a b => decide (a.getD 0 < b.getD 0)) 2 (fun s k => ((List.range k).map fun i => (s + i) % 2, s + 1))
    [.mutate (.ok ()) false (gaussianFn std .isotropic hard 1 0 fun s => (([0, 0], if s % 3 == 0 then [1 / 2, -1 / 4] else [-1 / 4, 1 / 4]), s + 1)),
      .crossover (fun s => (s % 2 == 0, s + 1)) (.uniform fun s n => (.ok ((List.range n).map fun i => (s + i) % 3 == 0), s + 1)),
      .evaluate .identity (realProb p)] 2 1

def exUniform (s : Nat) : List ℚ × Nat := ([((s % 3 : Nat) : ℚ) / 4, ((s % 5 : Nat) : ℚ) / 5], s + 1)

/-- Minimizing the sum of squares, and the same around `[2, -1]`. -/
example :
    let there := moved (fun _ => 1) (fun i => ([2, -1] : List ℚ).getD i 0)
    MovedBounds there 2 (.all (some (-1), some 1)) (.each [(some 1, some 3), (some (-2), some 0)]) ∧ (∀ s, (exUniform s).1.length = 2) ∧
    exTell (evoRun (exRealEa exSphere (.scalar 1) (.all (some (-1), some 1))) (uniformInit [(-1, 1), (0, 1)] exUniform) .identity (realProb exSphere) 0 2 0 2
      ⟨[], [], [], 0, 0⟩) = some [(some [0, -1 / 20], some (some (1 / 400))), (some [-1 / 4, 1 / 5], some (some (41 / 400)))] ∧
    exTell (evoRun (exRealEa (translatedProblem exSphere [2, -1] none) (.scalar 1) (.each [(some 1, some 3), (some (-2), some 0)]))
      (uniformInit [(1, 3), (-1, 0)] exUniform) .identity (realProb (translatedProblem exSphere [2, -1] none)) 0 2 0 2
      ⟨[], [], [], 0, 0⟩) = some [(some [2, -21 / 20], some (some (1 / 400))), (some [7 / 4, -4 / 5], some (some (41 / 400)))] := by
  refine ⟨⟨trivial, ⟨rfl, by simp⟩, fun i hi => ?_⟩, fun _ => rfl, by decide +kernel, by decide +kernel⟩
  rcases i with _ | _ | i
  · norm_num [boundAt, movedBound, moved]
  · norm_num [boundAt, movedBound, moved]
  · omega

/-- The same on a scale from 0 to 10. -/
example :
    exSphere.bounds = some (-1, 1) ∧ (∃ p', scaledProblem exSphere (0, 10) none = .ok p' ∧
    exTell (evoRun (exRealEa p' (.scalar 5) (.all (some 0, some 10))) (uniformInit (List.replicate 2 (0, 10)) exUniform) .identity (realProb p') 0 2 0 2
      ⟨[], [], [], 0, 0⟩) = some [(some [5 / 2, 2], some (some (61 / 100))), (some [5 / 4, 13 / 4], some (some (137 / 200)))]) ∧
    exTell (evoRun (exRealEa exSphere (.scalar 1) (.all (some (-1), some 1))) (uniformInit (List.replicate 2 (-1, 1)) exUniform) .identity (realProb exSphere)
      0 2 0 2 ⟨[], [], [], 0, 0⟩) = some [(some [-1 / 2, -3 / 5], some (some (61 / 100))), (some [-3 / 4, -7 / 20], some (some (137 / 200)))] :=
  ⟨rfl, ⟨_, rfl, by decide +kernel⟩, by decide +kernel⟩

/-! ### Where it does matter -/

/-- C131: hard bounds that stay where they are while the problem is translated change what mutation does. -/
theorem unmoved_bounds_differ :
    ∃ (offset g z : List ℚ) (hard : HardBounds ℚ), g.length = offset.length ∧ (∀ x ∈ g, 0 ≤ x ∧ x ≤ 1) ∧ hard = .all (some 0, some 1) ∧
      let there := moved (fun _ => 1) (fun i => offset.getD i 0)
      genomeMutateGaussian (.scalar 1) .isotropic hard 1 0 [0] z (recode there g) ≠
        (genomeMutateGaussian (.scalar 1) .isotropic hard 1 0 [0] z g).map (recode there) :=
  ⟨[1 / 2], [1 / 2], [1 / 4], _, rfl, by intro x hx; rw [List.mem_singleton.1 hx]; norm_num, rfl, by decide +kernel⟩

end Leap
