import Verif.Props.Pipeline
import Verif.Props.Crossover

/-! # Creating and evaluating populations, exact effect of mutation and crossover in memory (C04, C06, C19) -/

namespace Leap
open Spec

variable {γ ψ φ ρ : Type}

/-- `n` successive calls of the initialiser from random state `s` gave these genomes and left state `s'`. -/
inductive Spec.Drawn (initGenome : ρ → PyM (List γ) × ρ) : Nat → ρ → List (List γ) → ρ → Prop
  | zero (s) : Spec.Drawn initGenome 0 s [] s
  | succ {n s g s1 gs s2} : initGenome s = (.ok g, s1) → Spec.Drawn initGenome n s1 gs s2 →
      Spec.Drawn initGenome (n + 1) s (g :: gs) s2

theorem Spec.Drawn.length {initGenome : ρ → PyM (List γ) × ρ} {n s gs s'} (h : Drawn initGenome n s gs s') :
    gs.length = n := by
  induction h with
  | zero => rfl
  | succ _ _ ih => simp [ih]

/-- The exact effect of `create_population`: `n` new individuals with the genomes the initialiser gave, in order. -/
theorem create_population_effect (initGenome : ρ → PyM (List γ) × ρ) (problem n : Nat) (m : Mem γ ψ φ ρ)
    (gs : List (List γ)) (s' : ρ) (h : Drawn initGenome n m.rng gs s') :
    createPopulation initGenome problem n m = (.ok (List.range' m.inds.length n),
      { arrays := m.arrays ++ gs
        sets := m.sets ++ List.replicate n []
        inds := m.inds ++ (List.range n).map fun i =>
          { genome := m.arrays.length + i, fitness := none, phenome := none, uuid := m.nextUuid + i,
            parents := m.sets.length + i, problem := problem }
        nextUuid := m.nextUuid + n
        rng := s' }) := by
  induction n generalizing m gs with
  | zero => cases h; simp [createPopulation]
  | succ n ih =>
    cases h with
    | succ h1 h2 =>
      rename_i g s1 gs
      have := ih { arrays := m.arrays ++ [g], sets := m.sets ++ [[]], inds := m.inds ++ [
          { genome := m.arrays.length, fitness := none, phenome := none, uuid := m.nextUuid,
            parents := m.sets.length, problem := problem }], nextUuid := m.nextUuid + 1, rng := s1 } gs h2
      simp only [createPopulation, HM.bind_apply, useRng, h1, newArr, makeIndividual, freshUuid, newSet, newObj]
      rw [this]
      simp [List.range'_succ, List.replicate_succ, List.range_succ_eq_map, Function.comp_def, Nat.add_assoc,
        Nat.add_comm 1]

/-- C04: `create_population` returns exactly `n` new individuals, unevaluated and without parents, each with
the genome the initialiser gave for it, an identity of its own and the given problem; nobody else changes. -/
theorem create_population_spec (initGenome : ρ → PyM (List γ) × ρ) (problem n : Nat) (m : Mem γ ψ φ ρ)
    (hm : Sound m) (gs : List (List γ)) (s' : ρ) (h : Drawn initGenome n m.rng gs s') :
    ∃ out m', createPopulation initGenome problem n m = (.ok out, m') ∧ out.length = n ∧ out.Nodup ∧
      Unchanged m m' ∧ Sound m' ∧
      ∀ (i r : Nat), out[i]? = some r → m.inds.length ≤ r ∧ genes m' r = gs[i]? ∧ lineage m' r = some [] ∧
        ∃ o, m'.inds[r]? = some o ∧ o.fitness = none ∧ o.problem = problem ∧
          (∀ o' ∈ m.inds, o.uuid ≠ o'.uuid) ∧
          ∀ (j r' : Nat) (o' : Obj ψ φ), out[j]? = some r' → j ≠ i → m'.inds[r']? = some o' →
            o.uuid ≠ o'.uuid ∧ o.genome ≠ o'.genome ∧ o.parents ≠ o'.parents := by
  refine ⟨_, _, create_population_effect initGenome problem n m gs s' h, by simp, List.nodup_range', ?_, ?_, ?_⟩
  · exact ⟨fun r hr => by simp [List.getElem?_append_left hr], fun a ha => by simp [List.getElem?_append_left ha],
      fun s hs => by simp [List.getElem?_append_left hs]⟩
  · have hl := h.length
    refine ⟨?_, ?_, ?_⟩ <;>
    · intro o ho
      simp only [List.mem_append, List.mem_map, List.mem_range] at ho
      rcases ho with ho | ⟨i, hi, rfl⟩
      · have h1 := hm.genome o ho; have h2 := hm.parents o ho; have h3 := hm.uuid o ho
        simp; omega
      · simp; omega
  · have key : ∀ (i r : Nat), (List.range' m.inds.length n)[i]? = some r → i < n ∧ r = m.inds.length + i := by
      intro i r hi
      by_cases hin : i < n
      · rw [List.getElem?_range' hin] at hi; simp at hi; exact ⟨hin, by omega⟩
      · rw [List.getElem?_eq_none (by simp; omega)] at hi; simp at hi
    intro i r hi
    obtain ⟨hin, rfl⟩ := key i r hi
    have hl := h.length
    have hob : ∀ j, j < n → (m.inds ++ (List.range n).map fun i =>
        ({ genome := m.arrays.length + i, fitness := none, phenome := none, uuid := m.nextUuid + i,
           parents := m.sets.length + i, problem := problem } : Obj ψ φ))[m.inds.length + j]? =
        some { genome := m.arrays.length + j, fitness := none, phenome := none, uuid := m.nextUuid + j,
               parents := m.sets.length + j, problem := problem } := by
      intro j hj
      rw [List.getElem?_append_right (by omega)]
      simp [hj]
    refine ⟨by omega, ?_, ?_, _, hob i hin, rfl, rfl, ?_, ?_⟩
    · simp only [genes, hob i hin]
      rw [List.getElem?_append_right (by omega)]
      simp
    · simp only [lineage, hob i hin]
      rw [List.getElem?_append_right (by omega)]
      simp [hin]
    · intro o' ho'
      have := hm.uuid o' ho'
      simp; omega
    · intro j r' o' hj hne ho'
      obtain ⟨hjn, rfl⟩ := key j r' hj
      simp only [hob j hjn, Option.some.injEq] at ho'
      subst ho'
      simp; omega

/-- C04: an initialiser that raises on the `k`-th genome makes `create_population` raise. -/
theorem create_population_raises (initGenome : ρ → PyM (List γ) × ρ) (problem n k : Nat) (m : Mem γ ψ φ ρ)
    (gs : List (List γ)) (s1 s2 : ρ) (e : PyErr) (hk : k < n) (h : Drawn initGenome k m.rng gs s1)
    (he : initGenome s1 = (.error e, s2)) :
    (createPopulation initGenome problem n m).1 = .error e := by
  induction n generalizing m k gs with
  | zero => omega
  | succ n ih =>
    cases h with
    | zero => simp [createPopulation, HM.bind_apply, useRng, he]
    | succ h1 h2 =>
      rename_i k g s3 gs
      have := ih k { arrays := m.arrays ++ [g], sets := m.sets ++ [[]], inds := m.inds ++ [
          { genome := m.arrays.length, fitness := none, phenome := none, uuid := m.nextUuid,
            parents := m.sets.length, problem := problem }], nextUuid := m.nextUuid + 1, rng := s3 } gs (by omega) h2
      simp only [createPopulation, HM.bind_apply, useRng, h1, newArr, makeIndividual, freshUuid, newSet, newObj]
      generalize createPopulation initGenome problem n _ = z at this ⊢
      rcases z with ⟨r, m'⟩
      simp only at this
      rw [this]

example :
    let run := createPopulation (ψ := Int) (φ := Int) (fun s : Nat => (.ok [(s : Int)], s + 1)) 7 3 ⟨[], [], [], 0, 5⟩
    run.1.toOption = some [0, 1, 2] ∧ genes run.2 2 = some [7] := by decide +kernel

/-- C06 for whole populations: after `evaluate_population`, when no evaluation raises, everybody in the population
has the fitness the problem gave for their current genome, decoded, at some moment; genes and lineages of
all, and the fitness of everybody outside the population, are unchanged. -/
theorem evaluate_population_spec (dec : Dec γ ψ) (prob : Prob γ ψ φ ρ) (pop : List Nat) (m : Mem γ ψ φ ρ)
    (g : Nat → List γ) (c : Nat → Content γ ψ) (hg : ∀ r ∈ pop, genes m r = some (g r))
    (hc : ∀ r ∈ pop, decodeOf dec (g r) = .ok (c r))
    (hok : ∀ r ∈ pop, ∀ s, ∃ f s', prob.evaluate (c r) s = (.ok f, s')) :
    ∃ m', evaluatePopulation dec prob pop m = (.ok (), m') ∧
      (∀ r ∈ pop, ∃ f s s', prob.evaluate (c r) s = (.ok f, s') ∧ fitness m' r = some (some f)) ∧
      (∀ r, genes m' r = genes m r ∧ lineage m' r = lineage m r) ∧
      ∀ r, r ∉ pop → m'.inds[r]? = m.inds[r]? := by
  induction pop generalizing m with
  | nil => exact ⟨m, rfl, by simp, fun _ => ⟨rfl, rfl⟩, fun _ _ => rfl⟩
  | cons r rs ih =>
    obtain ⟨f, s, hf⟩ := hok r (by simp) m.rng
    obtain ⟨m1, h1, h2, h3, h4, -, h5, h6, h7⟩ := evaluate_scores_current_genome dec prob m r (g r) (hg r (by simp))
      (c r) (hc r (by simp)) f s hf
    have hgl : ∀ x, genes m1 x = genes m x ∧ lineage m1 x = lineage m x := by
      intro x
      by_cases hx : x = r
      · subst hx; exact ⟨h5, h6⟩
      · simp [genes, lineage, h7 x hx, h3, h4]
    obtain ⟨m2, i1, i2, i3, i4⟩ := ih m1 (fun x hx => by rw [(hgl x).1]; exact hg x (by simp [hx]))
      (fun x hx => hc x (by simp [hx])) (fun x hx => hok x (by simp [hx]))
    refine ⟨m2, by simp [evaluatePopulation, HM.bind_apply, h1, i1], ?_, ?_, ?_⟩
    · intro x hx
      by_cases hxr : x ∈ rs
      · exact i2 x hxr
      · have : x = r := by simpa [hxr] using hx
        subst this
        exact ⟨f, _, _, hf, by rw [← h2]; simp [fitness, i4 x hxr]⟩
    · intro x; rw [(i3 x).1, (i3 x).2]; exact hgl x
    · intro x hx
      simp only [List.mem_cons, not_or] at hx
      rw [i4 x hx.2, h7 x hx.1]

/-- C06: an evaluation that raises stops `evaluate_population` with that exception; those after it are not touched. -/
theorem evaluate_population_raises (dec : Dec γ ψ) (prob : Prob γ ψ φ ρ) (r : Nat) (rs : List Nat)
    (m : Mem γ ψ φ ρ) (g : List γ) (hg : genes m r = some g) (e : PyErr)
    (he : decodeOf dec g = .error e ∨ ∃ c, decodeOf dec g = .ok c ∧ (prob.evaluate c m.rng).1 = .error e) :
    ∃ m', evaluatePopulation dec prob (r :: rs) m = (.error e, m') ∧ ∀ x, x ≠ r → m'.inds[x]? = m.inds[x]? := by
  obtain ⟨m', h1, -, -, h2⟩ := evaluate_raises dec prob m r g hg e he
  exact ⟨m', by simp [evaluatePopulation, HM.bind_apply, h1], h2⟩

example :
    let run := evaluatePopulation .identity exProb [0, 1] exMem
    run.1.toOption = some () ∧ fitness run.2 0 = some (some 1) ∧ fitness run.2 1 = some (some 2) := by
  decide +kernel

/-- Mutation of an individual in memory: its genes become what the mutation function returned, its fitness is
cleared, its lineage stays; arrays of others and other individuals stay as they were. -/
theorem mutate_ind_effect (f : MutFn γ ρ) (m : Mem γ ψ φ ρ) (hm : Sound m) (r : Nat) (o : Obj ψ φ) (g : List γ)
    (ho : m.inds[r]? = some o) (hg : m.arrays[o.genome]? = some g) (new : Option (List γ))
    (hf : (f g m.rng).result = .ok new) :
    ∃ m', mutateInd f r m = (.ok (), m') ∧ genes m' r = some (new.getD (f g m.rng).left) ∧
      fitness m' r = some none ∧ lineage m' r = lineage m r ∧ m'.rng = (f g m.rng).rng ∧
      ∀ r' o', r' ≠ r → m.inds[r']? = some o' → m'.inds[r']? = some o' ∧
        (o'.genome ≠ o.genome → genes m' r' = genes m r') := by
  have hlt : o.genome < m.arrays.length := hm.genome o (List.mem_of_getElem? ho)
  cases new with
  | none =>
    refine ⟨{ m with arrays := m.arrays.set o.genome (f g m.rng).left, rng := (f g m.rng).rng,
                     inds := m.inds.modify r fun x => { x with fitness := none } },
      by simp only [mutateInd, HM.bind_apply, getObj, ho, getArr, hg, useRng, setArr, HM.lift_apply, hf,
        HM.pure_apply, modObj], ?_, ?_, ?_, rfl, ?_⟩
    · simp [genes, ho, hlt, List.getElem?_modify]
    · simp [fitness, ho, List.getElem?_modify]
    · simp [lineage, ho, List.getElem?_modify]
    · intro r' o' hne ho'
      simp only [genes, List.getElem?_modify, ho', Option.map_some]
      simp only [if_neg (Ne.symm hne)]
      exact ⟨rfl, fun h => List.getElem?_set_ne (Ne.symm h)⟩
  | some g' =>
    refine ⟨{ m with arrays := m.arrays.set o.genome (f g m.rng).left ++ [g'], rng := (f g m.rng).rng,
                     inds := (m.inds.modify r fun x =>
                       { x with genome := (m.arrays.set o.genome (f g m.rng).left).length }).modify r fun x =>
                       { x with fitness := none } },
      by simp only [mutateInd, HM.bind_apply, getObj, ho, getArr, hg, useRng, setArr, HM.lift_apply, hf,
        newArr, modObj], ?_, ?_, ?_, rfl, ?_⟩
    · simp [genes, ho, List.getElem?_modify]
    · simp [fitness, ho, List.getElem?_modify]
    · simp [lineage, ho, List.getElem?_modify]
    · intro r' o' hne ho'
      have hlt' : o'.genome < m.arrays.length := hm.genome o' (List.mem_of_getElem? ho')
      simp only [genes, List.getElem?_modify, ho', Option.map_some]
      simp only [if_neg (Ne.symm hne)]
      refine ⟨rfl, fun h => ?_⟩
      show (m.arrays.set o.genome (f g m.rng).left ++ [g'])[o'.genome]? = m.arrays[o'.genome]?
      rw [List.getElem?_append_left (by simpa using hlt'), List.getElem?_set_ne (Ne.symm h)]

/-- `recombine` worked on two individuals: their genes are now `a'` and `b'`; nothing else about anybody changed. -/
structure Spec.Recombined (m m1 : Mem γ ψ φ ρ) (ra rb : Nat) (a' b' : List γ) : Prop where
  first : genes m1 ra = some a'
  second : genes m1 rb = some b'
  sets : m1.sets = m.sets
  parents : ∀ r : Nat, (m1.inds[r]?).map Obj.parents = (m.inds[r]?).map Obj.parents
  others : ∀ r : Nat, r ≠ ra → r ≠ rb → m1.inds[r]? = m.inds[r]?

/-- The rest of the crossover step: lineages are joined, both fitnesses cleared. -/
theorem cross_after_recombine (rec : Recombiner ρ) (m m1 : Mem γ ψ φ ρ) (ra rb : Nat) (a' b' : List γ)
    (hne : ra ≠ rb) (oa ob : Obj ψ φ) (hoa : m.inds[ra]? = some oa) (hob : m.inds[rb]? = some ob)
    (hp : oa.parents ≠ ob.parents) (la lb : List Nat) (hla : m.sets[oa.parents]? = some la)
    (hlb : m.sets[ob.parents]? = some lb) (hrun : recombineInds rec ra rb m = (.ok (), m1))
    (hrec : Recombined m m1 ra rb a' b') :
    ∃ m' la' lb', crossInds rec ra rb m = (.ok (), m') ∧ genes m' ra = some a' ∧ genes m' rb = some b' ∧
      fitness m' ra = some none ∧ fitness m' rb = some none ∧
      lineage m' ra = some la' ∧ lineage m' rb = some lb' ∧
      (∀ x, x ∈ la' ↔ x ∈ la ∨ x ∈ lb) ∧ (∀ x, x ∈ lb' ↔ x ∈ la ∨ x ∈ lb) ∧
      m'.arrays = m1.arrays ∧ ∀ r, r ≠ ra → r ≠ rb → m'.inds[r]? = m.inds[r]? := by
  have ha1 : ∃ oa1, m1.inds[ra]? = some oa1 ∧ oa1.parents = oa.parents := by
    have := hrec.parents ra
    rw [hoa] at this
    cases h : m1.inds[ra]? with
    | none => rw [h] at this; simp at this
    | some o => rw [h] at this; exact ⟨o, rfl, by simpa using this⟩
  have hb1 : ∃ ob1, m1.inds[rb]? = some ob1 ∧ ob1.parents = ob.parents := by
    have := hrec.parents rb
    rw [hob] at this
    cases h : m1.inds[rb]? with
    | none => rw [h] at this; simp at this
    | some o => rw [h] at this; exact ⟨o, rfl, by simpa using this⟩
  obtain ⟨oa1, hoa1, hpa⟩ := ha1
  obtain ⟨ob1, hob1, hpb⟩ := hb1
  have hsa : m1.sets[oa1.parents]? = some la := by rw [hrec.sets, hpa, hla]
  have hsb : m1.sets[ob1.parents]? = some lb := by rw [hrec.sets, hpb, hlb]
  have hneq : oa1.parents ≠ ob1.parents := by rw [hpa, hpb]; exact hp
  have hlt1 := (List.getElem?_eq_some_iff.1 hsa).1
  have hlt2 := (List.getElem?_eq_some_iff.1 hsb).1
  have g1 : (m1.sets.set oa1.parents (setUnion la lb))[oa1.parents]? = some (setUnion la lb) := by simp [hlt1]
  have g2 : (m1.sets.set oa1.parents (setUnion la lb))[ob1.parents]? = some lb := by
    rw [List.getElem?_set_ne hneq, hsb]
  refine ⟨{ m1 with sets := (m1.sets.set oa1.parents (setUnion la lb)).set ob1.parents (setUnion lb (setUnion la lb)),
                    inds := (m1.inds.modify ra fun x => { x with fitness := none }).modify rb
                      fun x => { x with fitness := none } },
    setUnion la lb, setUnion lb (setUnion la lb), ?_, ?_, ?_, ?_, ?_, ?_, ?_, ?_, ?_, rfl, ?_⟩
  · simp only [crossInds, HM.bind_apply, hrun, getObj, hoa1, hob1, getSet, hsa, hsb, setSet, g1, g2, modObj]
  · have := hrec.first
    simp only [genes, hoa1] at this
    simp [genes, List.getElem?_modify, hoa1, this, Ne.symm hne]
  · have := hrec.second
    simp only [genes, hob1] at this
    simp [genes, List.getElem?_modify, hob1, this, hne]
  · simp [fitness, List.getElem?_modify, hoa1, Ne.symm hne]
  · simp [fitness, List.getElem?_modify, hob1, hne]
  · simp only [lineage, List.getElem?_modify, hoa1, Option.map_some]
    simp only [if_neg (Ne.symm hne), if_true]
    show ((m1.sets.set oa1.parents (setUnion la lb)).set ob1.parents _)[oa1.parents]? = _
    rw [List.getElem?_set_ne (Ne.symm hneq), g1]
  · simp only [lineage, List.getElem?_modify, hob1, Option.map_some]
    simp only [if_true, if_neg hne]
    show ((m1.sets.set oa1.parents (setUnion la lb)).set ob1.parents _)[ob1.parents]? = _
    simp [hlt2]
  · intro x; simp [setUnion_mem]
  · intro x; simp only [setUnion_mem]; tauto
  · intro r h1 h2
    simp [List.getElem?_modify, Ne.symm h1, Ne.symm h2, hrec.others r h1 h2]

/-- C19 in memory, uniform crossover: for two individuals that share neither genome array nor parent set, the
operator leaves in them exactly what uniform recombination makes of their genes (`uniform_crossover_swaps`),
clears both fitnesses, joins both lineages and touches nobody else. `p` is `p_swap`, `u` the numbers drawn. -/
theorem cross_uniform_effect (p : ℚ) (rand : ρ → List ℚ × ρ) (m : Mem γ ψ φ ρ) (hm : Sound m) (ra rb : Nat)
    (hne : ra ≠ rb) (oa ob : Obj ψ φ) (hoa : m.inds[ra]? = some oa) (hob : m.inds[rb]? = some ob)
    (hg : oa.genome ≠ ob.genome) (hp : oa.parents ≠ ob.parents) (a b a' b' : List γ)
    (ha : genes m ra = some a) (hb : genes m rb = some b)
    (hrec : uniformRecombine p (rand m.rng).1 a b = (.ok (), a', b')) :
    ∃ m' la lb la' lb',
      crossInds (.uniform fun s n => (bernoulliVector ((rand s).1.take n) p, (rand s).2)) ra rb m = (.ok (), m') ∧
      genes m' ra = some a' ∧ genes m' rb = some b' ∧ fitness m' ra = some none ∧ fitness m' rb = some none ∧
      lineage m ra = some la ∧ lineage m rb = some lb ∧ lineage m' ra = some la' ∧ lineage m' rb = some lb' ∧
      (∀ x, x ∈ la' ↔ x ∈ la ∨ x ∈ lb) ∧ (∀ x, x ∈ lb' ↔ x ∈ la ∨ x ∈ lb) ∧
      ∀ r, r ≠ ra → r ≠ rb → m'.inds[r]? = m.inds[r]? := by
  have haa : m.arrays[oa.genome]? = some a := by simpa [genes, hoa] using ha
  have hbb : m.arrays[ob.genome]? = some b := by simpa [genes, hob] using hb
  have hla := List.getElem?_eq_getElem (hm.parents oa (List.mem_of_getElem? hoa))
  have hlb := List.getElem?_eq_getElem (hm.parents ob (List.mem_of_getElem? hob))
  have lta := (List.getElem?_eq_some_iff.1 haa).1
  have ltb := (List.getElem?_eq_some_iff.1 hbb).1
  unfold uniformRecombine at hrec
  cases e1 : bernoulliVector ((rand m.rng).1.take (min a.length b.length)) p with
  | error e => simp [e1] at hrec
  | ok mask =>
    cases e2 : boolIndex a mask with
    | error e => simp [e1, e2] at hrec
    | ok tmp =>
      cases e3 : boolIndex b mask with
      | error e => simp [e1, e2, e3] at hrec
      | ok fromB =>
        cases e4 : boolAssign a mask fromB with
        | error e => simp [e1, e2, e3, e4] at hrec
        | ok x1 =>
          cases e5 : boolAssign b mask tmp with
          | error e => simp [e1, e2, e3, e4, e5] at hrec
          | ok x2 =>
            simp only [e1, e2, e3, e4, e5, Prod.mk.injEq, true_and] at hrec
            obtain ⟨rfl, rfl⟩ := hrec
            have hb2 : (m.arrays.set oa.genome x1)[ob.genome]? = some b := by
              rw [List.getElem?_set_ne hg, hbb]
            obtain ⟨m', la', lb', h1, h2, h3, h4, h5, h6, h7, h8, h9, -, h10⟩ := cross_after_recombine
              (.uniform fun s n => (bernoulliVector ((rand s).1.take n) p, (rand s).2)) m
              { m with arrays := (m.arrays.set oa.genome x1).set ob.genome x2, rng := (rand m.rng).2 } ra rb x1 x2 hne
              oa ob hoa hob hp _ _ hla hlb
              (by simp only [recombineInds, HM.bind_apply, getObj, hoa, hob, getArr, haa, hbb, useRng, e1,
                    HM.lift_apply, e2, e3, e4, setArr, hb2, e5])
              ⟨by
                simp only [genes, hoa]
                rw [List.getElem?_set_ne (Ne.symm hg)]; simp [lta],
               by simp [genes, hob, ltb], rfl, fun _ => rfl, fun _ _ _ => rfl⟩
            exact ⟨m', _, _, la', lb', h1, h2, h3, h4, h5, by simp only [lineage, hoa, hla], by simp only [lineage, hob, hlb],
              h6, h7, h8, h9, h10⟩

/-- C19 in memory, n-point crossover: likewise, with the genes of `nary_crossover_alternates`. -/
theorem cross_nary_effect (k : Nat) (cuts : ρ → Nat → List Nat × ρ) (m : Mem γ ψ φ ρ) (hm : Sound m) (ra rb : Nat)
    (hne : ra ≠ rb) (oa ob : Obj ψ φ) (hoa : m.inds[ra]? = some oa) (hob : m.inds[rb]? = some ob)
    (hp : oa.parents ≠ ob.parents) (a b a' b' : List γ)
    (ha : genes m ra = some a) (hb : genes m rb = some b)
    (hrec : naryRecombine k (cuts m.rng a.length).1 a b = .ok (a', b')) :
    ∃ m' la lb la' lb', crossInds (.nary k cuts) ra rb m = (.ok (), m') ∧
      genes m' ra = some a' ∧ genes m' rb = some b' ∧ fitness m' ra = some none ∧ fitness m' rb = some none ∧
      lineage m ra = some la ∧ lineage m rb = some lb ∧ lineage m' ra = some la' ∧ lineage m' rb = some lb' ∧
      (∀ x, x ∈ la' ↔ x ∈ la ∨ x ∈ lb) ∧ (∀ x, x ∈ lb' ↔ x ∈ la ∨ x ∈ lb) ∧
      (∀ r, r ≠ ra → r ≠ rb → m'.inds[r]? = m.inds[r]?) ∧
      ∀ i, i < m.arrays.length → m'.arrays[i]? = m.arrays[i]? := by
  have haa : m.arrays[oa.genome]? = some a := by simpa [genes, hoa] using ha
  have hbb : m.arrays[ob.genome]? = some b := by simpa [genes, hob] using hb
  have hla := List.getElem?_eq_getElem (hm.parents oa (List.mem_of_getElem? hoa))
  have hlb := List.getElem?_eq_getElem (hm.parents ob (List.mem_of_getElem? hob))
  obtain ⟨m', la', lb', h1, h2, h3, h4, h5, h6, h7, h8, h9, h11, h10⟩ := cross_after_recombine (.nary k cuts) m
    { m with arrays := m.arrays ++ [a'] ++ [b'], rng := (cuts m.rng a.length).2,
             inds := (m.inds.modify ra fun x => { x with genome := m.arrays.length }).modify rb
               fun x => { x with genome := (m.arrays ++ [a']).length } } ra rb a' b' hne oa ob hoa hob hp _ _ hla hlb
    (by simp only [recombineInds, HM.bind_apply, getObj, hoa, hob, getArr, haa, hbb, useRng, HM.lift_apply, hrec,
          newArr, modObj])
    ⟨by simp [genes, List.getElem?_modify, hoa, Ne.symm hne],
     by simp [genes, List.getElem?_modify, hob, hne], rfl,
     fun r => by
       simp only [List.getElem?_modify]
       cases m.inds[r]? <;> simp <;> split <;> split <;> rfl,
     fun r n1 n2 => by simp [List.getElem?_modify, Ne.symm n1, Ne.symm n2]⟩
  refine ⟨m', _, _, la', lb', h1, h2, h3, h4, h5, by simp only [lineage, hoa, hla], by simp only [lineage, hob, hlb],
    h6, h7, h8, h9, h10, ?_⟩
  intro i hi
  rw [h11]
  simp [List.getElem?_append_left hi]

example :
    let run := crossInds (.nary 1 fun _ _ => ([1], ())) 0 1 exMem
    genes run.2 0 = some [1, 1] ∧ genes run.2 1 = some [1, 0] ∧ fitness run.2 0 = some none := by decide +kernel

end Leap
