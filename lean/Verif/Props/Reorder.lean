import Verif.Lemmas.Reorder
import Verif.Props.Recode

/-!
# C133: the order of the genes does not matter, except to n-ary crossover

Two runs, one on a problem, the other on the same problem with its genes in another order and with the random numbers of each gene moved along with it.
-/

namespace Leap
open Spec

variable {γ ψ φ ρ : Type}

/-! ### Specification -/

/-- The outcome of a run with the genes of every genome in the other order. -/
def Spec.reorderedOutcome {α : Type} (p : List Nat) (r : PyM α × Mem γ ψ φ ρ) : PyM α × Mem γ ψ φ ρ := (r.1, reordered p r.2)

/-- A random list with one number for every one of `n` genes. -/
def Spec.OnePerGene {β : Type} (n : Nat) (rand : ρ → List β × ρ) : Prop := ∀ s, (rand s).1.length = n

/-- The same random numbers, moved with the genes. -/
def Spec.movedDraws {β : Type} (p : List Nat) (rand : ρ → List β × ρ) : ρ → List β × ρ := fun s => (rearranged p (rand s).1, (rand s).2)

/-- The swap mask of `UniformCrossover(p_swap)` from one uniform number per gene. -/
def Spec.swapMask (pSwap : ℚ) (rand : ρ → List ℚ × ρ) : ρ → Nat → PyM (List Bool) × ρ := fun s n => (bernoulliVector ((rand s).1.take n) pSwap, (rand s).2)

/-- What Gaussian mutation draws when gene `i` has the uniform number `u i`, which decides whether it is selected, and the normal number `z i`, which is drawn only if it is. -/
def Spec.gaussDraws (expected : GaussRate) (n : Nat) (noise : ρ → List (ℚ × ℚ) × ρ) : ρ → (List ℚ × List ℚ) × ρ := fun s =>
  (((noise s).1.map Prod.fst, match gaussProbability expected n with
    | .ok p => (noise s).1.filterMap fun x => if x.1 < p then some x.2 else none
    | .error _ => []), (noise s).2)

/-- One standard deviation for all genes, or one for each, moved with it. -/
def Spec.movedStds (p : List Nat) : ScalarOrList ℚ → ScalarOrList ℚ
  | .scalar s => .scalar s
  | .list ss => .list (rearranged p ss)

/-- There is one standard deviation for all genes or one for each. -/
def Spec.StdFits (n : Nat) : ScalarOrList ℚ → Prop
  | .scalar _ => True
  | .list ss => ss.length = n

/-- The same for hard bounds. -/
def Spec.movedHard (p : List Nat) : HardBounds ℚ → HardBounds ℚ
  | .all b => .all b
  | .each bs => .each (rearranged p bs)

/-- The order that undoes another. -/
def Spec.backOrder (p : List Nat) (n : Nat) : List Nat := (List.range n).map fun i => p.idxOf i

/-- The problem for genomes in the other order: it puts the genes back and asks the problem. -/
def Spec.shuffledProb (p : List Nat) (n : Nat) (prob : Prob γ ψ φ ρ) : Prob γ ψ φ ρ where
  evaluate c s := prob.evaluate (reorderContent (backOrder p n) c) s
  evaluateMultiple cs s := prob.evaluateMultiple (cs.map (reorderContent (backOrder p n))) s
  takesIndividuals := prob.takesIndividuals

/-- A problem that only counts the genes, such as `MaxOnes`. -/
def Spec.Counting (prob : Prob γ ψ φ ρ) : Prop := ∀ g g' s, g.Perm g' → prob.evaluate (.raw g) s = prob.evaluate (.raw g') s

/-! ### Runs -/

section
variable {p : List Nat} {n : Nat}

theorem identity_reordered : ReorderedDec (γ := γ) (ψ := ψ) p n .identity .identity := trivial

/-- **C133**: `generational_ea` with tournaments of any size, any elitism, population, number of generations and random numbers, and any operators: if the initial
genomes, mutation, crossover masks, decoder and problem of the second run are those of the first with the genes in another order, then so is everything the second run
does. -/
theorem ea_reordered (hp : p.Perm (List.range n)) (worse better : Option φ → Option φ → Bool) (k : Nat) (draw : ρ → Nat → List Nat × ρ) (stages stages' : List (Stage γ ψ φ ρ))
    (hst : List.Forall₂ (ReorderedStage p n) stages stages') (size kElites : Nat) (initGenome initGenome' : ρ → PyM (List γ) × ρ)
    (hi : ∀ s, initGenome' s = ((initGenome s).1.map (rearranged p), (initGenome s).2)) (hin : ∀ s g, (initGenome s).1 = .ok g → g.length = n)
    (dec dec' : Dec γ ψ) (hd : ReorderedDec p n dec dec') (prob prob' : Prob γ ψ φ ρ) (hprob : ReorderedProb p n prob prob')
    (problem popSize : Nat) (startGeneration maxGenerations : Int) (m : Mem γ ψ φ ρ) (hm : Sized n m) :
    evoRun (plainEa worse better k draw stages' size kElites) initGenome' dec' prob' problem popSize startGeneration maxGenerations (reordered p m) =
      reorderedOutcome p (evoRun (plainEa worse better k draw stages size kElites) initGenome dec prob problem popSize startGeneration maxGenerations m) := by
  have := (reorders_evoRun hp (plainEa worse better k draw stages size kElites) (plainEa worse better k draw stages' size kElites) rfl
    (fun _ _ _ => rfl) hst rfl rfl (fun _ _ _ => rfl) initGenome initGenome' hi hin dec dec' hd prob prob' hprob problem popSize startGeneration
    maxGenerations m hm).1
  rw [this]
  unfold reorderedOutcome
  rw [except_map_id]

/-- **C133**: and for asynchronous steady-state runs with any inserter that does not look at genomes, in every order of completion and whether workers get copies or not. -/
theorem async_reordered (hp : p.Perm (List.range n)) (insert : Nat → List Nat → Mem γ ψ φ ρ → PyM (List Nat) × ρ)
    (hins : ∀ r pop m, insert r pop (reordered p m) = insert r pop m) (better : Option φ → Option φ → Bool) (k : Nat) (draw : ρ → Nat → List Nat × ρ)
    (stages stages' : List (Stage γ ψ φ ρ)) (hst : List.Forall₂ (ReorderedStage p n) stages stages') (size popSize : Nat)
    (maxBirths : Int) (countNonviable : Bool) (nan : φ) (dec dec' : Dec γ ψ) (hd : ReorderedDec p n dec dec') (prob prob' : Prob γ ψ φ ρ)
    (hprob : ReorderedProb p n prob prob') (initGenome initGenome' : ρ → PyM (List γ) × ρ)
    (hi : ∀ s, initGenome' s = ((initGenome s).1.map (rearranged p), (initGenome s).2)) (hin : ∀ s g, (initGenome s).1 = .ok g → g.length = n)
    (problem initSize : Nat) (copied : Nat → Bool) (rounds : List AsyncRound) (m : Mem γ ψ φ ρ) (hm : Sized n m) :
    asyncRun ⟨maxBirths, popSize, countNonviable, insert, tournamentChoice better k draw, stages', size, nan, dec', prob'⟩ initGenome' problem initSize copied
        rounds (reordered p m) =
      reorderedOutcome p (asyncRun ⟨maxBirths, popSize, countNonviable, insert, tournamentChoice better k draw, stages, size, nan, dec, prob⟩ initGenome problem
        initSize copied rounds m) := by
  have := (reorders_asyncRun hp ⟨maxBirths, popSize, countNonviable, insert, tournamentChoice better k draw, stages, size, nan, dec, prob⟩
    ⟨maxBirths, popSize, countNonviable, insert, tournamentChoice better k draw, stages', size, nan, dec', prob'⟩ rfl rfl hins (fun _ _ => rfl) hst rfl rfl
    hd hprob initGenome initGenome' hi hin problem initSize copied rounds m hm).1
  rw [this]
  unfold reorderedOutcome
  rw [except_map_id]

/-- **C133**: LEAP's two inserters do not look at genomes. -/
theorem inserters_reordered (lt gt : Option φ → Option φ → Bool) (draw : ρ → Nat × ρ) (popSize r : Nat) (pop : List Nat) (m : Mem γ ψ φ ρ) :
    tournamentInserter gt draw popSize r pop (reordered p m) = tournamentInserter gt draw popSize r pop m ∧
    greedyInserter lt gt popSize r pop (reordered p m) = greedyInserter lt gt popSize r pop m := ⟨rfl, rfl⟩

/-! ### Operators -/

theorem rearranged_map {β : Type} (p : List Nat) (f : γ → β) (g : List γ) : rearranged p (g.map f) = (rearranged p g).map f := by
  simp [rearranged, List.map_filterMap]

theorem rearranged_zipWith {β δ : Type} (hp : p.Perm (List.range n)) (f : γ → β → δ) (a : List γ) (b : List β) (ha : a.length = n) (hb : b.length = n) :
    rearranged p (List.zipWith f a b) = List.zipWith f (rearranged p a) (rearranged p b) := by
  have hz : (List.zipWith f a b).length = n := by simp [ha, hb]
  symm
  refine rearranged_eq_of hp hz (by simp [rearranged_length hp a ha, rearranged_length hp b hb]) fun i j hij => ?_
  simp [List.getElem?_zipWith, rearranged_get hp a ha, rearranged_get hp b hb, hij]

theorem rearranged_replicate (hp : p.Perm (List.range n)) (x : γ) : rearranged p (List.replicate n x) = List.replicate n x := by
  symm
  refine rearranged_eq_of hp (by simp) (by simp) fun i j hij => ?_
  have hj := perm_lt hp j (List.mem_of_getElem? hij)
  have hi : i < n := by
    have := (List.getElem?_eq_some_iff.1 hij).1
    rw [hp.length_eq] at this; simpa using this
  simp [List.getElem?_replicate, hi, hj]

/-- **C133**: uniform crossover treats all positions alike. -/
theorem swapMask_reordered (hp : p.Perm (List.range n)) (pSwap : ℚ) (rand : ρ → List ℚ × ρ) (hr : OnePerGene n rand) :
    ReorderedMask p n (swapMask pSwap rand) (swapMask pSwap (movedDraws p rand)) := by
  intro s
  have h1 : (rand s).1.take n = (rand s).1 := List.take_of_length_le (hr s).le
  have h2 : (rearranged p (rand s).1).take n = rearranged p (rand s).1 := List.take_of_length_le (rearranged_length hp _ (hr s)).le
  simp only [swapMask, movedDraws, h1, h2, bernoulliVector]
  split
  · refine ⟨?_, ?_⟩
    · simp only [Except.map, rearranged_map]
    · rintro mk ⟨⟩; simpa using hr s
  · exact ⟨rfl, by rintro _ ⟨⟩⟩

theorem maskSelect_map' {β : Type} (f : γ → β) : ∀ (mk : List Bool) (a : List γ), maskSelect mk (a.map f) = (maskSelect mk a).map f := by
  intro mk
  induction mk with
  | nil => intro a; cases a <;> rfl
  | cons x mk ih => intro a; cases a <;> cases x <;> simp [maskSelect, ih]

theorem maskSelect_zipWith {β δ : Type} (f : γ → β → δ) : ∀ (mk : List Bool) (a : List γ) (b : List β), mk.length = a.length → mk.length = b.length →
    maskSelect mk (List.zipWith f a b) = List.zipWith f (maskSelect mk a) (maskSelect mk b) := by
  intro mk
  induction mk with
  | nil => intro a b ha hb; cases a <;> cases b <;> simp_all [maskSelect]
  | cons x mk ih =>
    intro a b ha hb
    cases a with
    | nil => simp at ha
    | cons y a =>
      cases b with
      | nil => simp at hb
      | cons z b =>
        simp at ha hb
        cases x <;> simp [maskSelect, ih a b ha hb]

theorem maskSelect_replicate (x : γ) : ∀ (mk : List Bool), maskSelect mk (List.replicate mk.length x) = List.replicate (mk.count true) x := by
  intro mk
  induction mk with
  | nil => rfl
  | cons y mk ih => cases y <;> simp [List.replicate_succ, maskSelect, ih]

theorem boolIndex_sized {β : Type} {mk : List Bool} {l : List β} (hm : mk.length = n) (hl : l.length = n) : boolIndex l mk = .ok (maskSelect mk l) := by
  simp [boolIndex, hm, hl]

theorem assign_reordered {β : Type} (hp : p.Perm (List.range n)) {mk : List Bool} {g F : List β} (hm : mk.length = n) (hg : g.length = n) (hF : F.length = n) :
    boolAssign (rearranged p g) (rearranged p mk) (maskSelect (rearranged p mk) (rearranged p F)) = (boolAssign g mk (maskSelect mk F)).map (rearranged p) ∧
      ∀ g', boolAssign g mk (maskSelect mk F) = .ok g' → g'.length = n := by
  have lm := rearranged_length hp mk hm
  have lg := rearranged_length hp g hg
  have lF := rearranged_length hp F hF
  have e1 : boolAssign g mk (maskSelect mk F) = .ok (maskStore mk g (maskSelect mk F)) := by
    simp [boolAssign, hm, hg, maskSelect_length mk F (hm.trans hF.symm)]
  have e2 : boolAssign (rearranged p g) (rearranged p mk) (maskSelect (rearranged p mk) (rearranged p F)) =
      .ok (maskStore (rearranged p mk) (rearranged p g) (maskSelect (rearranged p mk) (rearranged p F))) := by
    simp [boolAssign, lm, lg, maskSelect_length _ _ (lm.trans lF.symm)]
  rw [e1, e2, maskStore_reorder hp mk g F hm hg hF]
  exact ⟨rfl, by rintro _ ⟨⟩; rw [maskStore_length, hg]⟩

/-- **C133**: so does bit-flip mutation. -/
theorem bitflip_reordered (hp : p.Perm (List.range n)) (expected probability : Option ℚ) (rand : ρ → List ℚ × ρ) (hr : OnePerGene n rand) :
    ReorderedMut p n (bitflipFn expected probability rand) (bitflipFn expected probability (movedDraws p rand)) := by
  intro g s hg
  have lg := rearranged_length hp g hg
  have h1 : (rand s).1.take n = (rand s).1 := List.take_of_length_le (hr s).le
  have h2 : (rearranged p (rand s).1).take n = rearranged p (rand s).1 := List.take_of_length_le (rearranged_length hp _ (hr s)).le
  have key : genomeMutateBitflip expected probability (rearranged p (rand s).1) (rearranged p g) =
      (genomeMutateBitflip expected probability (rand s).1 g).map (rearranged p) ∧
      ∀ g', genomeMutateBitflip expected probability (rand s).1 g = .ok g' → g'.length = n := by
    unfold genomeMutateBitflip mutationMask
    rw [lg, hg, h1, h2]
    cases checkRateGenome expected probability with
    | error e => exact ⟨rfl, by rintro _ ⟨⟩⟩
    | ok _ =>
      simp only
      cases geneProbability expected probability n with
      | error e => exact ⟨rfl, by rintro _ ⟨⟩⟩
      | ok q =>
        by_cases hq : 0 ≤ q ∧ q ≤ 1
        · simp only [bernoulliVector, if_pos hq]
          have hmk : ((rand s).1.map fun x => decide (x < q)).length = n := by simpa using hr s
          rw [← rearranged_map]
          generalize (rand s).1.map (fun x => decide (x < q)) = mk at hmk
          have lm := rearranged_length hp mk hmk
          rw [boolIndex_sized lm lg, boolIndex_sized hmk hg]
          simp only [← maskSelect_map', ← rearranged_map]
          exact assign_reordered hp hmk hg (by simpa using hg)
        · simp only [bernoulliVector, if_neg hq]
          exact ⟨rfl, by rintro _ ⟨⟩⟩
  obtain ⟨k1, k2⟩ := key
  simp only [bitflipFn, movedDraws, k1]
  cases hr : genomeMutateBitflip expected probability (rand s).1 g with
  | error e => exact ⟨rfl, hg, by rintro _ ⟨⟩⟩
  | ok g' => exact ⟨rfl, k2 g' hr, by rintro _ ⟨⟩⟩

theorem select_filterMap {β : Type} (q : ℚ) : ∀ (l : List (ℚ × β)), (l.filterMap fun x => if x.1 < q then some x.2 else none) =
    maskSelect ((l.map Prod.fst).map fun x => decide (x < q)) (l.map Prod.snd) := by
  intro l
  induction l with
  | nil => rfl
  | cons x l ih =>
    by_cases h : x.1 < q <;> simp [h, maskSelect, ih]

theorem clip_reordered (hp : p.Perm (List.range n)) {hard : HardBounds ℚ} (hf : Fits hard n) (g : List ℚ) (hg : g.length = n) :
    applyHardBounds (rearranged p g) (movedHard p hard) = (applyHardBounds g hard).map (rearranged p) ∧ ∀ g', applyHardBounds g hard = .ok g' → g'.length = n := by
  have lg := rearranged_length hp g hg
  have hf' : Fits (movedHard p hard) n := by
    cases hard with
    | all b => trivial
    | each bs =>
      have := rearranged_length hp bs hf.1
      refine ⟨this, fun e => hf.2 ?_⟩
      have h0 : rearranged p bs = [] := e
      rw [h0] at this
      exact List.length_eq_zero_iff.1 (hf.1.trans this.symm)
  obtain ⟨a, ea, la, ha⟩ := applyHardBounds_get (hard := hard) (genome := g) (by rw [hg]; exact hf)
  obtain ⟨a', ea', la', ha'⟩ := applyHardBounds_get (hard := movedHard p hard) (genome := rearranged p g) (by rw [lg]; exact hf')
  rw [ea, ea']
  refine ⟨congrArg _ (rearranged_eq_of hp (la.trans hg) (la'.trans lg) fun i j hij => ?_), by rintro _ ⟨⟩; rw [la, hg]⟩
  have hj := perm_lt hp j (List.mem_of_getElem? hij)
  have hx : g[j]? = some g[j] := List.getElem?_eq_getElem (by omega)
  obtain ⟨b, hbi, hai⟩ := ha j _ hx
  obtain ⟨b', hbi', hai'⟩ := ha' i g[j] (by rw [rearranged_get hp g hg, hij]; exact hx)
  have : b' = b := by
    cases hard with
    | all c => exact (Option.some.inj hbi').symm.trans (Option.some.inj hbi)
    | each bs =>
      have h1 : (rearranged p bs)[i]? = some b' := hbi'
      have h2 : bs[j]? = some b := hbi
      rw [rearranged_get hp bs hf.1, hij] at h1
      exact Option.some.inj (h1.symm.trans h2)
  rw [hai, hai', this]

/-- **C133**: and Gaussian mutation, with standard deviations and hard bounds that go with the genes. -/
theorem gaussian_reordered (hp : p.Perm (List.range n)) (std : ScalarOrList ℚ) (hs : StdFits n std) (expected : GaussRate) (hard : HardBounds ℚ) (hf : Fits hard n)
    (slope intercept : ℚ) (noise : ρ → List (ℚ × ℚ) × ρ) (hr : OnePerGene n noise) :
    ReorderedMut p n (gaussianFn std expected hard slope intercept (gaussDraws expected n noise))
      (gaussianFn (movedStds p std) expected (movedHard p hard) slope intercept (gaussDraws expected n (movedDraws p noise))) := by
  intro g s hg
  have lg := rearranged_length hp g hg
  have hN := hr s
  have key : genomeMutateGaussian (movedStds p std) expected (.all (none, none)) slope intercept (gaussDraws expected n (movedDraws p noise) s).1.1
        (gaussDraws expected n (movedDraws p noise) s).1.2 (rearranged p g) =
      (genomeMutateGaussian std expected (.all (none, none)) slope intercept (gaussDraws expected n noise s).1.1 (gaussDraws expected n noise s).1.2 g).map (rearranged p) ∧
      ∀ g', genomeMutateGaussian std expected (.all (none, none)) slope intercept (gaussDraws expected n noise s).1.1 (gaussDraws expected n noise s).1.2 g = .ok g' →
        g'.length = n := by
    unfold genomeMutateGaussian
    rw [lg, hg]
    have hacc : stdAccepted (movedStds p std) = stdAccepted std := by cases std <;> rfl
    rw [hacc]
    by_cases ha : stdAccepted std = true
    · simp only [if_pos ha, gaussDraws, movedDraws]
      cases gaussProbability expected n with
      | error e => exact ⟨rfl, by rintro _ ⟨⟩⟩
      | ok q =>
        simp only [select_filterMap]
        generalize (noise s).1 = N at hN
        have lN := rearranged_length hp N hN
        rw [List.take_of_length_le (by simpa using lN.le), List.take_of_length_le (by simpa using hN.le)]
        by_cases hq : 0 ≤ q ∧ q ≤ 1
        · simp only [bernoulliVector, if_pos hq]
          rw [← rearranged_map, ← rearranged_map, ← rearranged_map]
          have hmk : ((N.map Prod.fst).map fun x => decide (x < q)).length = n := by simpa using hN
          have hz : (N.map Prod.snd).length = n := by simpa using hN
          generalize (N.map Prod.fst).map (fun x => decide (x < q)) = mk at hmk
          generalize N.map Prod.snd = z at hz
          have lm := rearranged_length hp mk hmk
          have lz := rearranged_length hp z hz
          obtain ⟨S, hS, e1, e2⟩ : ∃ S : List ℚ, S.length = n ∧ gaussStd std mk = .ok (maskSelect mk S) ∧
              gaussStd (movedStds p std) (rearranged p mk) = .ok (maskSelect (rearranged p mk) (rearranged p S)) := by
            cases std with
            | scalar x =>
              refine ⟨List.replicate n x, by simp, ?_, ?_⟩
              · rw [← hmk, maskSelect_replicate]; rfl
              · rw [rearranged_replicate hp]
                have := maskSelect_replicate x (rearranged p mk)
                rw [lm] at this
                rw [this]; rfl
            | list ss => exact ⟨ss, hs, boolIndex_sized hmk hs, boolIndex_sized lm (rearranged_length hp ss hs)⟩
          have lS := rearranged_length hp S hS
          simp only [e1, e2]
          rw [boolIndex_sized lm lg, boolIndex_sized hmk hg]
          simp only
          rw [← maskSelect_zipWith _ mk z S (hmk.trans hz.symm) (hmk.trans hS.symm),
            ← maskSelect_zipWith _ (rearranged p mk) (rearranged p z) (rearranged p S) (lm.trans lz.symm) (lm.trans lS.symm),
            ← rearranged_zipWith hp _ z S hz hS]
          have hW : (List.zipWith (· * ·) z S).length = n := by simp [hz, hS]
          generalize List.zipWith (· * ·) z S = W at hW
          have lW := rearranged_length hp W hW
          rw [← maskSelect_zipWith _ mk g W (hmk.trans hg.symm) (hmk.trans hW.symm),
            ← maskSelect_zipWith _ (rearranged p mk) (rearranged p g) (rearranged p W) (lm.trans lg.symm) (lm.trans lW.symm),
            ← rearranged_zipWith hp _ g W hg hW]
          obtain ⟨a1, a2⟩ := assign_reordered hp hmk hg (F := List.zipWith (fun g zs => slope * (g + zs) + intercept) g W) (by simp [hg, hW])
          rw [a1]
          have hall : ∀ l : List ℚ, applyHardBounds l (.all (none, none)) = .ok l := by
            intro l; exact congrArg Except.ok (List.map_id l)
          revert a2
          cases boolAssign g mk (maskSelect mk (List.zipWith (fun g zs => slope * (g + zs) + intercept) g W)) with
          | error e => exact fun _ => ⟨rfl, by rintro _ ⟨⟩⟩
          | ok g1 =>
            intro a2
            simp only [Except.map, hall]
            exact ⟨trivial, by rintro _ ⟨⟩; exact a2 g1 rfl⟩
        · simp only [bernoulliVector, if_neg hq]
          exact ⟨rfl, by rintro _ ⟨⟩⟩
    · simp only [if_neg ha]
      exact ⟨rfl, by rintro _ ⟨⟩⟩
  obtain ⟨k1, k2⟩ := key
  simp only [gaussianFn, k1]
  have hrng : (gaussDraws expected n (movedDraws p noise) s).2 = (gaussDraws expected n noise s).2 := rfl
  rw [hrng]
  revert k2
  cases genomeMutateGaussian std expected (.all (none, none)) slope intercept (gaussDraws expected n noise s).1.1 (gaussDraws expected n noise s).1.2 g with
  | error e => exact fun _ => ⟨rfl, hg, by rintro _ ⟨⟩⟩
  | ok g1 =>
    intro k2
    have hg1 := k2 g1 rfl
    obtain ⟨c1, c2⟩ := clip_reordered hp hf g1 hg1
    simp only [Except.map]
    rw [c1]
    revert c2
    cases applyHardBounds g1 hard with
    | error e => exact fun _ => ⟨rfl, hg1, by rintro _ ⟨⟩⟩
    | ok g2 => exact fun c2 => ⟨rfl, hg1, by rintro _ ⟨⟩; exact c2 g2 rfl⟩

/-! ### Problems -/

theorem rearranged_back (hp : p.Perm (List.range n)) (g : List γ) (hg : g.length = n) : rearranged (backOrder p n) (rearranged p g) = g := by
  have lp : p.length = n := by simpa using hp.length_eq
  have lg := rearranged_length hp g hg
  have hmem : ∀ i, i < n → i ∈ p := fun i hi => hp.mem_iff.2 (List.mem_range.2 hi)
  have hlt : ∀ j ∈ backOrder p n, j < (rearranged p g).length := by
    intro j hj
    obtain ⟨i, hi, rfl⟩ := List.mem_map.1 hj
    rw [lg, ← lp]
    exact List.idxOf_lt_length_iff.2 (hmem i (List.mem_range.1 hi))
  apply List.ext_getElem?
  intro i
  unfold rearranged at hlt ⊢
  rw [filterMap_at _ _ hlt]
  by_cases hi : i < n
  · have h1 : (backOrder p n)[i]? = some (p.idxOf i) := by simp [backOrder, hi]
    have h2 : p[p.idxOf i]? = some i := by
      have h := List.idxOf_lt_length_iff.2 (hmem i hi)
      rw [List.getElem?_eq_getElem h, List.getElem_idxOf h]
    have h3 := rearranged_get hp g hg (p.idxOf i)
    unfold rearranged at h3
    rw [h1]
    simp only [Option.bind_some]
    rw [h3, h2]
    rfl
  · rw [List.getElem?_eq_none (l := backOrder p n) (by simp [backOrder]; omega), List.getElem?_eq_none (l := g) (by omega)]
    rfl

theorem shuffledProb_reordered (hp : p.Perm (List.range n)) (prob : Prob γ ψ φ ρ) : ReorderedProb p n prob (shuffledProb p n prob) := by
  intro c s hc
  cases c with
  | raw g => simp only [shuffledProb, reorderContent, rearranged_back hp g hc]
  | value v => rfl

theorem rearranged_perm (hp : p.Perm (List.range n)) (g : List γ) (hg : g.length = n) : (rearranged p g).Perm g := by
  have h : (List.range n).filterMap (g[·]?) = g := by
    apply List.ext_getElem?
    intro i
    rw [filterMap_at g _ (fun j hj => by rw [hg]; exact List.mem_range.1 hj)]
    by_cases hi : i < n
    · simp [hi]
    · rw [List.getElem?_eq_none (l := g) (by omega), List.getElem?_eq_none (by simpa using Nat.le_of_not_lt hi)]; rfl
  conv_rhs => rw [← h]
  exact hp.filterMap _

theorem counting_reordered (hp : p.Perm (List.range n)) (prob : Prob γ ψ φ ρ) (hc : Counting prob) : ReorderedProb p n prob prob := by
  intro c s hcs
  cases c with
  | raw g => exact hc _ _ s (rearranged_perm hp g hcs)
  | value v => rfl

/-- **C133**: three of LEAP's problems on bits only count the genes; `MaxOnes` with a target does so in the order of the target, and `LeadingOnes` does not. -/
theorem bit_problems_count (g g' : List Int) (h : g.Perm g') :
    maxOnes none g = maxOnes none g' ∧ deceptiveTrap g = deceptiveTrap g' ∧ twoMax g = twoMax g' := by
  have hc := (h.map (· == 1)).count_eq true
  simp only [maxOnes, deceptiveTrap, twoMax, hc, h.length_eq, and_self]

theorem maxOnes_target_reordered (hp : p.Perm (List.range n)) (target g : List Int) (ht : target.length = n) (hg : g.length = n) :
    maxOnes (some (rearranged p target)) (rearranged p g) = maxOnes (some target) g := by
  have hm : (matches' g target).length = n := by simp [matches', ht, hg]
  have e : matches' (rearranged p g) (rearranged p target) = rearranged p (matches' g target) := (rearranged_zipWith hp _ g target hg ht).symm
  simp only [maxOnes, rearranged_length hp g hg, rearranged_length hp target ht, ht, hg, if_true, e, (rearranged_perm hp _ hm).count_eq true]

theorem leading_ones_not_counting : ∃ g g' : List Int, g.Perm g' ∧ leadingOnes none g ≠ leadingOnes none g' :=
  ⟨[1, 0], [0, 1], by decide, by decide⟩

/-- A genetic algorithm on bits: tournaments, bit-flip mutation, uniform crossover and evaluation. -/
def Spec.bitGa (worse better : Option φ → Option φ → Bool) (k : Nat) (draw : ρ → Nat → List Nat × ρ) (expected probability : Option ℚ) (skip : ρ → Bool × ρ) (pSwap : ℚ)
    (size kElites : Nat) (prob : Prob Int ψ φ ρ) (flips swaps : ρ → List ℚ × ρ) : EvoConfig Int ψ φ ρ :=
  plainEa worse better k draw [.mutate (checkRateOp expected probability) false (bitflipFn expected probability flips), .crossover skip (.uniform (swapMask pSwap swaps)),
    .evaluate .identity prob] size kElites

/-- **C133**: a genetic algorithm with uniform crossover does on a problem with its genes in any other order exactly what it does on the problem, when the random numbers of
each gene go with it. -/
theorem gene_order_irrelevant (hp : p.Perm (List.range n)) (worse better : Option φ → Option φ → Bool) (k : Nat) (draw : ρ → Nat → List Nat × ρ)
    (expected probability : Option ℚ) (flips swaps : ρ → List ℚ × ρ) (hf : OnePerGene n flips) (hs : OnePerGene n swaps) (skip : ρ → Bool × ρ) (pSwap : ℚ)
    (size kElites : Nat) (initGenome : ρ → PyM (List Int) × ρ) (hin : ∀ s g, (initGenome s).1 = .ok g → g.length = n) (prob : Prob Int ψ φ ρ)
    (problem popSize : Nat) (startGeneration maxGenerations : Int) (m : Mem Int ψ φ ρ) (hm : Sized n m) :
    evoRun (bitGa worse better k draw expected probability skip pSwap size kElites (shuffledProb p n prob) (movedDraws p flips) (movedDraws p swaps))
        (fun s => ((initGenome s).1.map (rearranged p), (initGenome s).2)) .identity (shuffledProb p n prob) problem popSize startGeneration maxGenerations (reordered p m) =
      reorderedOutcome p (evoRun (bitGa worse better k draw expected probability skip pSwap size kElites prob flips swaps) initGenome .identity prob problem popSize
        startGeneration maxGenerations m) :=
  ea_reordered hp worse better k draw _ _
    (.cons (.mutate (bitflip_reordered hp expected probability flips hf)) (.cons (.uniform (swapMask_reordered hp pSwap swaps hs))
      (.cons (.evaluate identity_reordered (shuffledProb_reordered hp prob)) .nil)))
    size kElites initGenome _ (fun _ => rfl) hin _ _ identity_reordered _ _ (shuffledProb_reordered hp prob) problem popSize startGeneration maxGenerations m hm

/-- **C133**: on a problem that only counts genes all positions are alike: moving the random numbers moves the genes and changes nothing else. -/
theorem positions_alike (hp : p.Perm (List.range n)) (worse better : Option φ → Option φ → Bool) (k : Nat) (draw : ρ → Nat → List Nat × ρ)
    (expected probability : Option ℚ) (flips swaps : ρ → List ℚ × ρ) (hf : OnePerGene n flips) (hs : OnePerGene n swaps) (skip : ρ → Bool × ρ) (pSwap : ℚ)
    (size kElites : Nat) (initGenome : ρ → PyM (List Int) × ρ) (hin : ∀ s g, (initGenome s).1 = .ok g → g.length = n) (prob : Prob Int ψ φ ρ) (hc : Counting prob)
    (problem popSize : Nat) (startGeneration maxGenerations : Int) (m : Mem Int ψ φ ρ) (hm : Sized n m) :
    evoRun (bitGa worse better k draw expected probability skip pSwap size kElites prob (movedDraws p flips) (movedDraws p swaps))
        (fun s => ((initGenome s).1.map (rearranged p), (initGenome s).2)) .identity prob problem popSize startGeneration maxGenerations (reordered p m) =
      reorderedOutcome p (evoRun (bitGa worse better k draw expected probability skip pSwap size kElites prob flips swaps) initGenome .identity prob problem popSize
        startGeneration maxGenerations m) :=
  ea_reordered hp worse better k draw _ _
    (.cons (.mutate (bitflip_reordered hp expected probability flips hf)) (.cons (.uniform (swapMask_reordered hp pSwap swaps hs))
      (.cons (.evaluate identity_reordered (counting_reordered hp prob hc)) .nil)))
    size kElites initGenome _ (fun _ => rfl) hin _ _ identity_reordered _ _ (counting_reordered hp prob hc) problem popSize startGeneration maxGenerations m hm

/-! ### n-ary crossover -/

/-- **C133**: one-point crossover keeps neighbours together: if a child has the genes of one parent at two positions where the parents differ, it has them at every position in
between. -/
theorem one_point_keeps_between (cuts : List Nat) (a b a' b' : List γ) (hab : a.length = b.length) (hv : ValidCuts 1 a.length cuts)
    (h : naryRecombine 1 cuts a b = .ok (a', b')) (i j l : Nat) (hij : i ≤ j) (hjl : j ≤ l) (hl : l < a.length) (di : a[i]? ≠ b[i]?) (dl : a[l]? ≠ b[l]?)
    (ki : a'[i]? = a[i]?) (kl : a'[l]? = a[l]?) : a'[j]? = a[j]? := by
  obtain ⟨a2, b2, e, _, _, hk⟩ := nary_crossover_alternates 1 cuts a b hab hv
  rw [h] at e
  cases e
  obtain ⟨c, rfl⟩ := List.length_eq_one_iff.1 hv.1
  have parity : ∀ x, x < a.length → a[x]? ≠ b[x]? → a'[x]? = a[x]? → ¬ c ≤ x := by
    intro x hx d k hc
    have := (hk x hx).2 (by simp [hc])
    exact d (k.symm.trans this.1)
  have hcl := parity l hl dl kl
  have hcj : ¬ c ≤ j := by omega
  exact ((hk j (by omega)).1 (by simp [hcj])).1

/-- **C133** does not hold with one-point crossover: the child `0 0 1` of `0 0 0` and `1 1 1` is made with the cut at 2, and with the last two genes exchanged, which changes
nothing in the parents, no cut makes the child `0 1 0`. -/
theorem one_point_order_matters :
    naryRecombine 1 [2] [0, 0, 0] [1, 1, 1] = .ok ([0, 0, 1], [1, 1, 0]) ∧
    rearranged [0, 2, 1] [0, 0, 0] = [0, 0, 0] ∧ rearranged [0, 2, 1] [1, 1, 1] = [1, 1, 1] ∧ rearranged [0, 2, 1] [0, 0, 1] = [0, 1, 0] ∧
    ∀ cuts b', ValidCuts 1 3 cuts → naryRecombine 1 cuts [0, 0, 0] [1, 1, 1] ≠ .ok ([0, 1, 0], b') := by
  refine ⟨by decide, by decide, by decide, by decide, fun cuts b' hv h => ?_⟩
  have := one_point_keeps_between cuts [0, 0, 0] [1, 1, 1] _ _ rfl hv h 0 1 2 (by decide) (by decide) (by decide) (by decide) (by decide) rfl rfl
  cases this

end

/-! ### Some runs -/

/-- The genes weigh 1, 2 and 4. -/
def exWeighted : Prob Int Int Int Nat where
  evaluate c s := match c with
    | .raw g => (.ok (List.zipWith (· * ·) g [1, 2, 4]).sum, s + 1)
    | .value v => (.ok v, s + 1)
  evaluateMultiple _ s := (.error .attributeError, s)
  takesIndividuals := false

def exThree (s : Nat) : PyM (List Int) × Nat := (.ok [((s % 2 : Nat) : Int), 0, ((s / 2 % 2 : Nat) : Int)], s + 1)

def exFlips (s : Nat) : List ℚ × Nat := ([((s % 3 : Nat) : ℚ) / 3, ((s % 5 : Nat) : ℚ) / 5, ((s % 4 : Nat) : ℚ) / 4], s + 1)

def exThreeGa (prob : Prob Int Int Int Nat) (flips swaps : Nat → List ℚ × Nat) : EvoConfig Int Int Int Nat :=
  bitGa (fun a b => decide (a.getD 0 < b.getD 0)) (fun a b => decide (b.getD 0 < a.getD 0)) 2 (fun s k => ((List.range k).map fun i => (s + i) % 2, s + 1))
    (some 1) none (fun s => (s % 3 == 0, s + 1)) (1 / 2) 2 1 prob flips swaps

/-- Two generations with the genes in their order and with the last gene first. -/
example :
    [2, 0, 1].Perm (List.range 3) ∧ OnePerGene 3 exFlips ∧ (∀ s g, (exThree s).1 = .ok g → g.length = 3) ∧ Sized 3 exStart ∧
    exTell (evoRun (exThreeGa exWeighted exFlips exFlips) exThree .identity exWeighted 0 2 0 2 exStart) = some [(some [1, 1, 1], some (some 7)), (some [1, 0, 1], some (some 5))] ∧
    exTell (evoRun (exThreeGa (shuffledProb [2, 0, 1] 3 exWeighted) (movedDraws [2, 0, 1] exFlips) (movedDraws [2, 0, 1] exFlips))
      (fun s => ((exThree s).1.map (rearranged [2, 0, 1]), (exThree s).2)) .identity (shuffledProb [2, 0, 1] 3 exWeighted) 0 2 0 2 (reordered [2, 0, 1] exStart)) = some [(some [1, 1, 1], some (some 7)), (some [1, 1, 0], some (some 5))] :=
  ⟨by decide, fun _ => rfl, by rintro s _ ⟨⟩; rfl, by simp [Sized, exStart], by decide +kernel, by decide +kernel⟩

/-- Adding up the genes only counts them. -/
example : Counting exSum ∧ exTell (evoRun (exThreeGa exSum exFlips exFlips) exThree .identity exSum 0 2 0 2 exStart) = some [(some [0, 1, 1], some (some 2)), (some [1, 1, 0], some (some 2))] :=
  ⟨fun g g' s h => by simp [exSum, h.sum_eq], by decide +kernel⟩

/-- Three genes with their own standard deviations and bounds; the third is not selected. -/
example :
    let noise : Nat → List (ℚ × ℚ) × Nat := fun s => ([(1 / 4, 1), (0, -1), (3 / 4, 2)], s + 1)
    OnePerGene 3 noise ∧ StdFits 3 (.list [1, 2, 3]) ∧ Fits (.each [(none, some 1), (some 0, none), (none, none)] : HardBounds ℚ) 3 ∧
    (gaussianFn (.list [1, 2, 3]) (.num (3 / 2)) (.each [(none, some 1), (some 0, none), (none, none)]) 1 0 (gaussDraws (.num (3 / 2)) 3 noise) [1 / 2, 1, 5] (0 : Nat)).result.toOption = some (some [1, 0, 5]) ∧
    (gaussianFn (movedStds [2, 0, 1] (.list [1, 2, 3])) (.num (3 / 2)) (movedHard [2, 0, 1] (.each [(none, some 1), (some 0, none), (none, none)])) 1 0
      (gaussDraws (.num (3 / 2)) 3 (movedDraws [2, 0, 1] noise)) [5, 1 / 2, 1] (0 : Nat)).result.toOption = some (some [5, 1, 0]) :=
  ⟨fun _ => rfl, rfl, ⟨rfl, by simp⟩, by decide +kernel, by decide +kernel⟩

/-- The cut at 2 of five genes, and what lies between. -/
example : ValidCuts 1 5 [2] ∧ naryRecombine 1 [2] [0, 0, 0, 0, 0] [1, 1, 1, 1, 1] = .ok ([0, 0, 1, 1, 1], [1, 1, 0, 0, 0]) := by
  refine ⟨⟨rfl, by decide, by decide⟩, by decide⟩

end Leap
