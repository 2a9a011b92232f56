import Verif.Model.Individual
import Verif.Spec.Memory

/-! # Cloning and evaluation of individuals (C04, C06, C07, C08) -/

namespace Leap
open Spec

variable {γ ψ φ ρ : Type}

theorem modify_append_last {α : Type} (l : List α) (x : α) (f : α → α) :
    (l ++ [x]).modify l.length f = l ++ [f x] := by
  induction l with
  | nil => rfl
  | cons a l ih => simpa using ih

theorem getElem?_append_last {α : Type} (l : List α) (x : α) : (l ++ [x])[l.length]? = some x := by
  simp

/-- The exact effect of `clone()`. -/
theorem clone_effect (m : Mem γ ψ φ ρ) (r : Nat) (o : Obj ψ φ) (g : List γ)
    (ho : m.inds[r]? = some o) (hg : m.arrays[o.genome]? = some g) :
    cloneInd r m = (.ok m.inds.length,
      { m with
        inds := m.inds ++ [{ o with genome := m.arrays.length, fitness := none, uuid := m.nextUuid,
                                    parents := m.sets.length }]
        arrays := m.arrays ++ [g]
        sets := m.sets ++ [[o.uuid]]
        nextUuid := m.nextUuid + 1 }) := by
  simp [cloneInd, HM.bind_apply, getObj, ho, newObj, getArr, hg, newArr, modObj, freshUuid, newSet,
    modify_append_last]

/-- C04: `clone()` returns a new individual with the same genes in an array of its own, no fitness, an identity
nobody has, and the original's identity as its only parent; nothing that existed before changes. -/
theorem clone_spec (m : Mem γ ψ φ ρ) (hm : Sound m) (r : Nat) (o : Obj ψ φ) (ho : m.inds[r]? = some o) :
    ∃ c m' oc, cloneInd r m = (.ok c, m') ∧ Unchanged m m' ∧ Sound m' ∧
      m.inds.length ≤ c ∧ m'.inds[c]? = some oc ∧
      genes m' c = genes m r ∧ (genes m r).isSome ∧
      oc.fitness = none ∧ (∀ o' ∈ m.inds, oc.uuid ≠ o'.uuid) ∧ lineage m' c = some [o.uuid] ∧
      (∀ o' ∈ m.inds, oc.genome ≠ o'.genome ∧ oc.parents ≠ o'.parents) ∧
      oc.problem = o.problem ∧ oc.phenome = o.phenome := by
  have hmem : o ∈ m.inds := List.mem_of_getElem? ho
  have hlt := hm.genome o hmem
  obtain ⟨g, hg⟩ : ∃ g, m.arrays[o.genome]? = some g := ⟨_, List.getElem?_eq_getElem hlt⟩
  refine ⟨_, _, _, clone_effect m r o g ho hg, ?_, ?_, Nat.le_refl _, getElem?_append_last _ _, ?_, ?_, rfl,
    ?_, ?_, ?_, rfl, rfl⟩
  · constructor
    · intro i hi; simp [List.getElem?_append_left hi]
    · intro i hi; simp [List.getElem?_append_left hi]
    · intro i hi; simp [List.getElem?_append_left hi]
  · constructor
    · intro o' h'
      simp only [List.mem_append, List.mem_singleton] at h'
      rcases h' with h' | rfl
      · have := hm.genome o' h'; simp; omega
      · simp
    · intro o' h'
      simp only [List.mem_append, List.mem_singleton] at h'
      rcases h' with h' | rfl
      · have := hm.parents o' h'; simp; omega
      · simp
    · intro o' h'
      simp only [List.mem_append, List.mem_singleton] at h'
      rcases h' with h' | rfl
      · have := hm.uuid o' h'; simp; omega
      · simp
  · simp [genes, ho, hg]
  · simp [genes, ho, hg]
  · intro o' h'; have := hm.uuid o' h'; simp; omega
  · simp [lineage]
  · intro o' h'
    have h1 := hm.genome o' h'
    have h2 := hm.parents o' h'
    constructor <;> simp <;> omega

/-- Edits of one individual do not touch an individual that shares neither genome array nor parent set. -/
theorem edits_frame (c r : Nat) (hne : c ≠ r) (edits : List (Edit γ ψ φ)) (m : Mem γ ψ φ ρ) (oc or_ : Obj ψ φ)
    (hc : m.inds[c]? = some oc) (hr : m.inds[r]? = some or_) (hg : oc.genome ≠ or_.genome)
    (hp : oc.parents ≠ or_.parents) :
    (edits.foldl (Edit.apply c) m).inds[r]? = m.inds[r]? ∧
    genes (edits.foldl (Edit.apply c) m) r = genes m r ∧
    lineage (edits.foldl (Edit.apply c) m) r = lineage m r := by
  induction edits generalizing m oc with
  | nil => exact ⟨rfl, rfl, rfl⟩
  | cons e es ih =>
    simp only [List.foldl_cons]
    have hlt : c < m.inds.length := (List.getElem?_eq_some_iff.1 hc).1
    cases e with
    | genes g =>
      have e1 : Edit.apply c m (Edit.genes (ψ := ψ) (φ := φ) g) = { m with arrays := m.arrays.set oc.genome g } := by
        simp [Edit.apply, hc]
      rw [e1]
      obtain ⟨h1, h2, h3⟩ := ih { m with arrays := m.arrays.set oc.genome g } oc hc hr hg hp
      refine ⟨h1, h2.trans ?_, h3.trans ?_⟩
      · simp [genes, hr, List.getElem?_set_ne hg]
      · simp [lineage]
    | fitness f =>
      have e1 : Edit.apply c m (Edit.fitness (γ := γ) (ψ := ψ) f) = { m with inds := m.inds.set c { oc with fitness := f } } := by
        simp [Edit.apply, hc]
      rw [e1]
      obtain ⟨h1, h2, h3⟩ := ih { m with inds := m.inds.set c { oc with fitness := f } } { oc with fitness := f }
        (by simp [hlt]) (by simp [List.getElem?_set_ne hne, hr]) hg hp
      refine ⟨h1.trans ?_, h2.trans ?_, h3.trans ?_⟩
      · simp [List.getElem?_set_ne hne]
      · simp [genes, List.getElem?_set_ne hne]
      · simp [lineage, List.getElem?_set_ne hne]
    | lineage s =>
      have e1 : Edit.apply c m (Edit.lineage (γ := γ) (ψ := ψ) (φ := φ) s) = { m with sets := m.sets.set oc.parents s } := by
        simp [Edit.apply, hc]
      rw [e1]
      obtain ⟨h1, h2, h3⟩ := ih { m with sets := m.sets.set oc.parents s } oc hc hr hg hp
      refine ⟨h1, h2.trans ?_, h3.trans ?_⟩
      · simp [genes]
      · simp [lineage, hr, List.getElem?_set_ne hp]
    | phenome p =>
      have e1 : Edit.apply c m (Edit.phenome (γ := γ) (φ := φ) p) = { m with inds := m.inds.set c { oc with phenome := p } } := by
        simp [Edit.apply, hc]
      rw [e1]
      obtain ⟨h1, h2, h3⟩ := ih { m with inds := m.inds.set c { oc with phenome := p } } { oc with phenome := p }
        (by simp [hlt]) (by simp [List.getElem?_set_ne hne, hr]) hg hp
      refine ⟨h1.trans ?_, h2.trans ?_, h3.trans ?_⟩
      · simp [List.getElem?_set_ne hne]
      · simp [genes, List.getElem?_set_ne hne]
      · simp [lineage, List.getElem?_set_ne hne]

/-- C04: whatever is later done to the clone (genes overwritten in place, fitness or lineage changed, any number
of times), the original keeps its attributes, its genes and its lineage. -/
theorem clone_independent (m : Mem γ ψ φ ρ) (hm : Sound m) (r : Nat) (hr : r < m.inds.length)
    (edits : List (Edit γ ψ φ)) :
    ∃ c m', cloneInd r m = (.ok c, m') ∧
      fitness (edits.foldl (Edit.apply c) m') r = fitness m r ∧
      genes (edits.foldl (Edit.apply c) m') r = genes m r ∧
      lineage (edits.foldl (Edit.apply c) m') r = lineage m r := by
  have ho := List.getElem?_eq_getElem hr
  obtain ⟨c, m', oc, hcl, hun, -, hc, hoc, -, -, -, -, -, hdis, -, -⟩ := clone_spec m hm r _ ho
  have hmem : m.inds[r] ∈ m.inds := List.getElem_mem hr
  have hr' : m'.inds[r]? = some m.inds[r] := by rw [hun.inds r hr, ho]
  obtain ⟨h1, h2, h3⟩ := edits_frame c r (by omega) edits m' oc _ hoc hr' (hdis _ hmem).1 (hdis _ hmem).2
  refine ⟨c, m', hcl, ?_, ?_, ?_⟩
  · simp [fitness, h1, hr', ho]
  · rw [h2]; simp only [genes, hr', ho]; exact hun.arrays _ (hm.genome _ hmem)
  · rw [h3]; simp only [lineage, hr', ho]; exact hun.sets _ (hm.parents _ hmem)

/-- C04, the other way round: edits of the original leave the clone alone. -/
theorem clone_independent_of_parent (m : Mem γ ψ φ ρ) (hm : Sound m) (r : Nat) (hr : r < m.inds.length)
    (edits : List (Edit γ ψ φ)) :
    ∃ c m', cloneInd r m = (.ok c, m') ∧
      fitness (edits.foldl (Edit.apply r) m') c = some none ∧
      genes (edits.foldl (Edit.apply r) m') c = genes m r ∧
      lineage (edits.foldl (Edit.apply r) m') c = some [m.inds[r].uuid] := by
  have ho := List.getElem?_eq_getElem hr
  obtain ⟨c, m', oc, hcl, hun, -, hc, hoc, hge, -, hfi, -, hli, hdis, -, -⟩ := clone_spec m hm r _ ho
  have hmem : m.inds[r] ∈ m.inds := List.getElem_mem hr
  have hr' : m'.inds[r]? = some m.inds[r] := by rw [hun.inds r hr, ho]
  obtain ⟨h1, h2, h3⟩ := edits_frame r c (by omega) edits m' _ oc hr' hoc (hdis _ hmem).1.symm (hdis _ hmem).2.symm
  refine ⟨c, m', hcl, ?_, ?_, ?_⟩
  · simp [fitness, h1, hoc, hfi]
  · rw [h2, hge]
  · rw [h3, hli]

/-- A memory with two individuals, used to show that hypotheses can be met. -/
def exMem : Mem Int Int Int Unit :=
  { arrays := [[1, 0], [1, 1]], sets := [[], []],
    inds := [{ genome := 0, fitness := some 1, phenome := none, uuid := 0, parents := 0, problem := 7 },
             { genome := 1, fitness := some 2, phenome := some (.alias 1), uuid := 1, parents := 1, problem := 7 }],
    nextUuid := 2, rng := () }

theorem exMem_sound : Sound exMem :=
  ⟨by simp [exMem], by simp [exMem], by simp [exMem]⟩

example : ∃ c m', cloneInd 1 exMem = (.ok c, m') ∧
    genes ([Edit.genes [5, 5], .fitness (some 9), .lineage [4]].foldl (Edit.apply c) m') 1 = some [1, 1] ∧
    genes ([Edit.genes [5, 5], .fitness (some 9), .lineage [4]].foldl (Edit.apply c) m') c = some [5, 5] :=
  ⟨_, _, rfl, rfl, rfl⟩

/-! ### Evaluation -/

/-- What decoding the genes `g` gives the problem to see. -/
def Spec.decodeOf (dec : Dec γ ψ) (g : List γ) : PyM (Content γ ψ) :=
  match dec with
  | .identity => .ok (.raw g)
  | .fn f => match f g with
    | .error e => .error e
    | .ok v => .ok (.value v)

theorem evaluateImp_effect (dec : Dec γ ψ) (prob : Prob γ ψ φ ρ) (m : Mem γ ψ φ ρ) (r : Nat) (o : Obj ψ φ)
    (g : List γ) (ho : m.inds[r]? = some o) (hg : m.arrays[o.genome]? = some g) :
    ∃ f : Obj ψ φ → Obj ψ φ,
      (∀ x, (f x).genome = x.genome ∧ (f x).fitness = x.fitness ∧ (f x).uuid = x.uuid ∧
        (f x).parents = x.parents ∧ (f x).problem = x.problem ∧ (f x).viable = x.viable ∧
        (f x).exception = x.exception) ∧
      evaluateImp dec prob r m =
        match decodeOf dec g with
        | .error e => (.error e, m)
        | .ok c => ((prob.evaluate c m.rng).1,
            { m with inds := m.inds.modify r f, rng := (prob.evaluate c m.rng).2 }) := by
  have hmod : ∀ f : Obj ψ φ → Obj ψ φ, (m.inds.modify r f)[r]? = some (f o) := by
    intro f; simp [List.getElem?_modify, ho]
  cases dec with
  | identity =>
    refine ⟨fun x => { x with phenome := some (.alias o.genome) }, fun x => ⟨rfl, rfl, rfl, rfl, rfl, rfl, rfl⟩, ?_⟩
    simp [evaluateImp, HM.bind_apply, decodeInd, getObj, ho, modObj, phenomeOf, hmod, contentOf, getArr, hg,
      useRng, decodeOf]
  | fn d =>
    cases hd : d g with
    | error e =>
      refine ⟨id, fun x => ⟨rfl, rfl, rfl, rfl, rfl, rfl, rfl⟩, ?_⟩
      simp [evaluateImp, HM.bind_apply, decodeInd, getObj, ho, getArr, hg, hd, decodeOf]
    | ok v =>
      refine ⟨fun x => { x with phenome := some (.decoded v) }, fun x => ⟨rfl, rfl, rfl, rfl, rfl, rfl, rfl⟩, ?_⟩
      simp [evaluateImp, HM.bind_apply, decodeInd, getObj, ho, modObj, phenomeOf, hmod, contentOf, getArr, hg,
        useRng, decodeOf, hd]

/-- C06: `evaluate()` stores and returns the problem's score of the decoding of the genes held at that moment.
Nothing is assumed about the cached phenome of the individual. Everybody else is left alone. -/
theorem evaluate_scores_current_genome (dec : Dec γ ψ) (prob : Prob γ ψ φ ρ) (m : Mem γ ψ φ ρ) (r : Nat)
    (g : List γ) (hg : genes m r = some g) (c : Content γ ψ) (hc : decodeOf dec g = .ok c)
    (f : φ) (s : ρ) (hs : prob.evaluate c m.rng = (.ok f, s)) :
    ∃ m', evaluateInd dec prob r m = (.ok f, m') ∧ fitness m' r = some (some f) ∧
      m'.arrays = m.arrays ∧ m'.sets = m.sets ∧ m'.rng = s ∧ genes m' r = genes m r ∧
      lineage m' r = lineage m r ∧ ∀ r', r' ≠ r → m'.inds[r']? = m.inds[r']? := by
  cases ho : m.inds[r]? with
  | none => simp [genes, ho] at hg
  | some o =>
    have hga : m.arrays[o.genome]? = some g := by simpa [genes, ho] using hg
    obtain ⟨k, hk, he⟩ := evaluateImp_effect dec prob m r o g ho hga
    rw [hc] at he
    simp only [hs] at he
    refine ⟨{ m with inds := (m.inds.modify r k).modify r fun x => { x with fitness := some f }, rng := s },
      by rw [evaluateInd, HM.bind_apply, he]; rfl, ?_, rfl, rfl, rfl, ?_, ?_, ?_⟩
    · simp [fitness, List.getElem?_modify, ho]
    · simp [genes, List.getElem?_modify, ho, (hk o).1]
    · simp [lineage, List.getElem?_modify, ho, (hk o).2.2.2.1]
    · intro r' hr'; simp [List.getElem?_modify, Ne.symm hr']

/-- C06: when decoding or the problem raises, `evaluate()` raises the same exception and the stored fitness
stays what it was. -/
theorem evaluate_raises (dec : Dec γ ψ) (prob : Prob γ ψ φ ρ) (m : Mem γ ψ φ ρ) (r : Nat)
    (g : List γ) (hg : genes m r = some g) (e : PyErr)
    (he : decodeOf dec g = .error e ∨ ∃ c, decodeOf dec g = .ok c ∧ (prob.evaluate c m.rng).1 = .error e) :
    ∃ m', evaluateInd dec prob r m = (.error e, m') ∧ fitness m' r = fitness m r ∧ genes m' r = genes m r ∧
      ∀ r', r' ≠ r → m'.inds[r']? = m.inds[r']? := by
  cases ho : m.inds[r]? with
  | none => simp [genes, ho] at hg
  | some o =>
    have hga : m.arrays[o.genome]? = some g := by simpa [genes, ho] using hg
    obtain ⟨k, hk, hi⟩ := evaluateImp_effect dec prob m r o g ho hga
    rcases he with h | ⟨c, h, h2⟩
    · rw [h] at hi
      exact ⟨m, by rw [evaluateInd, HM.bind_apply, hi], rfl, rfl, fun _ _ => rfl⟩
    · rw [h] at hi
      simp only [h2] at hi
      refine ⟨_, by rw [evaluateInd, HM.bind_apply, hi], ?_, ?_, ?_⟩
      · simp [fitness, List.getElem?_modify, ho, (hk o).2.1]
      · simp [genes, List.getElem?_modify, ho, (hk o).1]
      · intro r' hr'; simp [List.getElem?_modify, Ne.symm hr']

/-- A problem that adds up the genes, for the examples. -/
def exProb : Prob Int Int Int Unit :=
  { evaluate := fun c s => match c with
      | .raw g => (.ok g.sum, s)
      | .value v => if v < 0 then (.error (.userError 1), s) else (.ok v, s)
    evaluateMultiple := fun cs s =>
      (.ok (cs.map fun c => match c with | .raw g => g.sum | .value v => v), s)
    takesIndividuals := true }

example : ∃ m', evaluateInd .identity exProb 0 { exMem with
      inds := exMem.inds.modify 0 fun o => { o with phenome := some (.alias 1) } } = (.ok 1, m') ∧
    fitness m' 0 = some (some 1) := by
  obtain ⟨m', h, hf, -⟩ := evaluate_scores_current_genome (.identity : Dec Int Int) exProb
    { exMem with inds := exMem.inds.modify 0 fun o => { o with phenome := some (.alias 1) } } 0 [1, 0] rfl
    (.raw [1, 0]) rfl 1 () rfl
  exact ⟨m', h, hf⟩

/-- C08: evaluating a `RobustIndividual` never raises. On success fitness is the problem's score and `is_viable`
is true; if decoding or the problem raises, fitness is NaN, `is_viable` is false and the exception is
stored. -/
theorem robust_evaluate_never_raises (nan : φ) (dec : Dec γ ψ) (prob : Prob γ ψ φ ρ) (m : Mem γ ψ φ ρ) (r : Nat)
    (g : List γ) (hg : genes m r = some g) :
    ∃ f m' o', robustEvaluate nan dec prob r m = (.ok f, m') ∧ m'.inds[r]? = some o' ∧ o'.fitness = some f ∧
      (match decodeOf dec g with
        | .error e => f = nan ∧ o'.viable = some false ∧ o'.exception = some e
        | .ok c => match (prob.evaluate c m.rng).1 with
          | .error e => f = nan ∧ o'.viable = some false ∧ o'.exception = some e
          | .ok v => f = v ∧ o'.viable = some true) ∧
      genes m' r = genes m r ∧ lineage m' r = lineage m r ∧
      ∀ r', r' ≠ r → m'.inds[r']? = m.inds[r']? := by
  cases ho : m.inds[r]? with
  | none => simp [genes, ho] at hg
  | some o =>
    have hga : m.arrays[o.genome]? = some g := by simpa [genes, ho] using hg
    obtain ⟨k, hk, hi⟩ := evaluateImp_effect dec prob m r o g ho hga
    cases hd : decodeOf dec g with
    | error e =>
      rw [hd] at hi
      simp only at hi
      refine ⟨_, _, { o with fitness := some nan, exception := some e, viable := some false },
        by rw [robustEvaluate, hi], ?_, rfl, ⟨rfl, rfl, rfl⟩, ?_, ?_, ?_⟩
      · simp [List.getElem?_modify, ho]
      · simp [genes, List.getElem?_modify, ho]
      · simp [lineage, List.getElem?_modify, ho]
      · intro r' hr'; simp [List.getElem?_modify, Ne.symm hr']
    | ok c =>
      rw [hd] at hi
      simp only at hi
      cases hp : (prob.evaluate c m.rng).1 with
      | error e =>
        rw [hp] at hi
        refine ⟨_, _, { (k o) with fitness := some nan, exception := some e, viable := some false },
          by rw [robustEvaluate, hi], ?_, rfl, ?_, ?_, ?_, ?_⟩
        · simp [List.getElem?_modify, ho]
        · simp [hp]
        · simp [genes, List.getElem?_modify, ho, (hk o).1]
        · simp [lineage, List.getElem?_modify, ho, (hk o).2.2.2.1]
        · intro r' hr'; simp [List.getElem?_modify, Ne.symm hr']
      | ok v =>
        rw [hp] at hi
        refine ⟨_, _, { (k o) with fitness := some v, viable := some true },
          by rw [robustEvaluate, hi], ?_, rfl, ?_, ?_, ?_, ?_⟩
        · simp [List.getElem?_modify, ho]
        · simp [hp]
        · simp [genes, List.getElem?_modify, ho, (hk o).1]
        · simp [lineage, List.getElem?_modify, ho, (hk o).2.2.2.1]
        · intro r' hr'; simp [List.getElem?_modify, Ne.symm hr']

example : ∃ m' o', robustEvaluate (-99) (.fn fun g => .ok (g.sum - 5)) exProb 0 exMem = (.ok (-99), m') ∧
    m'.inds[0]? = some o' ∧ o'.viable = some false ∧ o'.exception = some (.userError 1) :=
  ⟨_, _, rfl, rfl, rfl, rfl⟩

/-- An exception stored by a failed evaluation stays there after a later successful one. -/
theorem robust_exception_not_cleared (nan : φ) (dec : Dec γ ψ) (prob : Prob γ ψ φ ρ) (m : Mem γ ψ φ ρ) (r : Nat)
    (o : Obj ψ φ) (g : List γ) (ho : m.inds[r]? = some o) (hg : m.arrays[o.genome]? = some g)
    (c : Content γ ψ) (hc : decodeOf dec g = .ok c) (v : φ) (hv : (prob.evaluate c m.rng).1 = .ok v) :
    ((robustEvaluate nan dec prob r m).2.inds[r]?).map Obj.exception = some o.exception := by
  obtain ⟨k, hk, hi⟩ := evaluateImp_effect dec prob m r o g ho hg
  rw [hc] at hi
  simp only [hv] at hi
  rw [robustEvaluate, hi]
  simp [List.getElem?_modify, ho, (hk o).2.2.2.2.2.2]

/-! ### Grouped evaluation -/

/-- What a problem sees when shown a phenome. -/
def Spec.seen (m : Mem γ ψ φ ρ) : Phen ψ → Option (Content γ ψ)
  | .alias a => (m.arrays[a]?).map .raw
  | .decoded v => some (.value v)

/-- What the problem is shown for individual `r` by grouped evaluation: the cached phenome if there is
one, otherwise the decoding of the genes. -/
def Spec.shown (dec : Dec γ ψ) (m : Mem γ ψ φ ρ) (r : Nat) : Option (Content γ ψ) :=
  match m.inds[r]? with
  | none => none
  | some o =>
    match o.phenome with
    | some p => seen m p
    | none => match m.arrays[o.genome]? with
      | none => none
      | some g => match decodeOf dec g with
        | .error _ => none
        | .ok c => some c

/-- An individual with its cached phenome left out of consideration. -/
def Obj.noPhenome (o : Obj ψ φ) : Obj ψ φ := { o with phenome := none }

/-- An individual with its fitness left out of consideration. -/
def Obj.noFitness (o : Obj ψ φ) : Obj ψ φ := { o with fitness := none }

/-- `m1` differs from `m` at most by phenomes cached since. -/
structure CachedMore (dec : Dec γ ψ) (m m1 : Mem γ ψ φ ρ) : Prop where
  arrays : m1.arrays = m.arrays
  sets : m1.sets = m.sets
  rng : m1.rng = m.rng
  shown : ∀ r : Nat, shown dec m1 r = shown dec m r
  inds : ∀ r : Nat, (m1.inds[r]?).map Obj.noPhenome =
    (m.inds[r]?).map Obj.noPhenome

theorem CachedMore.refl (dec : Dec γ ψ) (m : Mem γ ψ φ ρ) : CachedMore dec m m :=
  ⟨rfl, rfl, rfl, fun _ => rfl, fun _ => rfl⟩

theorem CachedMore.trans {dec : Dec γ ψ} {m m1 m2 : Mem γ ψ φ ρ} (h1 : CachedMore dec m m1)
    (h2 : CachedMore dec m1 m2) : CachedMore dec m m2 :=
  ⟨h2.arrays.trans h1.arrays, h2.sets.trans h1.sets, h2.rng.trans h1.rng,
   fun r => (h2.shown r).trans (h1.shown r), fun r => (h2.inds r).trans (h1.inds r)⟩

theorem seen_congr {m m1 : Mem γ ψ φ ρ} (h : m1.arrays = m.arrays) (p : Phen ψ) : seen m1 p = seen m p := by
  cases p <;> simp [seen, h]

theorem phenomeOf_shown (dec : Dec γ ψ) (m : Mem γ ψ φ ρ) (r : Nat) (c : Content γ ψ)
    (h : shown dec m r = some c) :
    ∃ p m1, phenomeOf dec r m = (.ok p, m1) ∧ seen m1 p = some c ∧ CachedMore dec m m1 := by
  cases ho : m.inds[r]? with
  | none => simp [shown, ho] at h
  | some o =>
    cases hp : o.phenome with
    | some p =>
      refine ⟨p, m, by simp [phenomeOf, HM.bind_apply, getObj, ho, hp], ?_, .refl dec m⟩
      simpa [shown, ho, hp] using h
    | none =>
      cases hg : m.arrays[o.genome]? with
      | none => simp [shown, ho, hp, hg] at h
      | some g =>
        have hmore : ∀ q, seen m q = some c →
            CachedMore dec m { m with inds := m.inds.modify r fun x => { x with phenome := some q } } := by
          intro q hq
          refine ⟨rfl, rfl, rfl, ?_, ?_⟩
          · intro r'
            by_cases hr : r = r'
            · subst hr
              rw [h]
              simp only [shown, List.getElem?_modify, ho]
              simpa using (seen_congr (m := m) (m1 := { m with inds := m.inds.modify r fun x => { x with phenome := some q } }) rfl q).trans hq
            · simp only [shown, List.getElem?_modify, hr, if_false]
              cases m.inds[r']? with
              | none => rfl
              | some o' =>
                simp only [Option.map_some, Option.map_eq_map]
                cases o'.phenome with
                | none => rfl
                | some p' => exact seen_congr rfl p'
          · intro r'
            by_cases hr : r = r'
            · subst hr; simp [List.getElem?_modify, ho, Obj.noPhenome]
            · simp [List.getElem?_modify, hr]
        cases dec with
        | identity =>
          have hc : c = .raw g := by simpa [shown, ho, hp, hg, decodeOf] using h.symm
          refine ⟨.alias o.genome, _, by simp [phenomeOf, HM.bind_apply, getObj, ho, hp, decodeInd, modObj]; rfl, ?_,
            hmore _ ?_⟩
          · simp [seen, hg, hc]
          · simp [seen, hg, hc]
        | fn d =>
          cases hd : d g with
          | error e => simp [shown, ho, hp, hg, decodeOf, hd] at h
          | ok v =>
            have hc : c = .value v := by simpa [shown, ho, hp, hg, decodeOf, hd] using h.symm
            refine ⟨.decoded v, _, by simp [phenomeOf, HM.bind_apply, getObj, ho, hp, decodeInd, modObj, getArr, hg, hd]; rfl, ?_,
              hmore _ ?_⟩
            · simp [seen, hc]
            · simp [seen, hc]

theorem phenomesOf_shown (dec : Dec γ ψ) (e : Nat → Content γ ψ) (rs : List Nat) (m : Mem γ ψ φ ρ)
    (h : ∀ r ∈ rs, shown dec m r = some (e r)) :
    ∃ ps m1, phenomesOf dec rs m = (.ok ps, m1) ∧ ps.map (seen m1) = rs.map (fun r => some (e r)) ∧
      CachedMore dec m m1 := by
  induction rs generalizing m with
  | nil => exact ⟨[], m, rfl, rfl, .refl dec m⟩
  | cons r rs ih =>
    obtain ⟨p, m1, h1, h2, h3⟩ := phenomeOf_shown dec m r (e r) (h r (by simp))
    obtain ⟨ps, m2, h4, h5, h6⟩ := ih m1 (fun r' hr' => by rw [h3.shown]; exact h r' (by simp [hr']))
    refine ⟨p :: ps, m2, by simp [phenomesOf, HM.bind_apply, h1, h4], ?_, h3.trans h6⟩
    simp [h5, seen_congr h6.arrays, h2]

theorem contentOf_seen (m : Mem γ ψ φ ρ) (p : Phen ψ) (c : Content γ ψ) (h : seen m p = some c) :
    contentOf p m = (.ok c, m) := by
  cases p with
  | alias a =>
    cases ha : m.arrays[a]? with
    | none => simp [seen, ha] at h
    | some g => simp [seen, ha] at h; simp [contentOf, HM.bind_apply, getArr, ha, h]
  | decoded v => simp [seen] at h; simp [contentOf, h]

theorem contentsOf_seen (m : Mem γ ψ φ ρ) (ps : List (Phen ψ)) (cs : List (Content γ ψ))
    (h : ps.map (seen m) = cs.map some) : contentsOf ps m = (.ok cs, m) := by
  induction ps generalizing cs with
  | nil => cases cs <;> simp_all [contentsOf]
  | cons p ps ih =>
    cases cs with
    | nil => simp at h
    | cons c cs =>
      simp only [List.map_cons, List.cons.injEq] at h
      simp [contentsOf, HM.bind_apply, contentOf_seen m p c h.1, ih cs h.2]

theorem evaluateChunks_shown (dec : Dec γ ψ) (prob : Prob γ ψ φ ρ) (hti : prob.takesIndividuals = true)
    (score : Content γ ψ → φ)
    (hmul : ∀ cs s, prob.evaluateMultiple cs s = (.ok (cs.map score), s))
    (e : Nat → Content γ ψ) (chs : List (List Nat)) (m : Mem γ ψ φ ρ)
    (h : ∀ r ∈ chs.flatten, shown dec m r = some (e r)) :
    ∃ m1, evaluateChunks dec prob chs m = (.ok (chs.flatten.map fun r => score (e r)), m1) ∧
      CachedMore dec m m1 := by
  induction chs generalizing m with
  | nil => exact ⟨m, rfl, .refl dec m⟩
  | cons ch chs ih =>
    obtain ⟨ps, m1, h1, h2, h3⟩ := phenomesOf_shown dec e ch m (fun r hr => h r (by simp [hr]))
    obtain ⟨m2, h4, h5⟩ := ih m1 (fun r hr => by
      rw [h3.shown]; exact h r (by rw [List.flatten_cons]; exact List.mem_append_right _ hr))
    have hcs : contentsOf ps m1 = (.ok (ch.map e), m1) :=
      contentsOf_seen m1 ps (ch.map e) (by simpa [Function.comp_def] using h2)
    refine ⟨m2, ?_, h3.trans h5⟩
    simp [evaluateChunks, HM.bind_apply, h1, hti, hcs, useRng, hmul, h4, Function.comp_def]

theorem chunksOf_flatten (n : Nat) (hn : 0 < n) (l : List Nat) : (chunksOf n hn l).flatten = l := by
  induction hl : l.length using Nat.strongRecOn generalizing l with
  | _ k ih =>
    cases l with
    | nil => simp [chunksOf]
    | cons x xs =>
      rw [chunksOf, List.flatten_cons, ih _ _ _ rfl, List.take_append_drop]
      simp only [List.length_cons] at hl
      simp only [List.length_drop, List.length_cons]
      omega

theorem assignFitnesses_effect (v : Nat → φ) (rs : List Nat) (m : Mem γ ψ φ ρ)
    (h : ∀ r ∈ rs, r < m.inds.length) :
    ∃ m1, assignFitnesses (rs.map v) rs m = (.ok (), m1) ∧ m1.arrays = m.arrays ∧ m1.sets = m.sets ∧
      m1.rng = m.rng ∧ (∀ r ∈ rs, fitness m1 r = some (some (v r))) ∧
      (∀ r : Nat, r ∉ rs → m1.inds[r]? = m.inds[r]?) ∧
      (∀ r : Nat, (m1.inds[r]?).map Obj.noFitness =
        (m.inds[r]?).map Obj.noFitness) := by
  induction rs generalizing m with
  | nil => exact ⟨m, rfl, rfl, rfl, rfl, by simp, fun _ _ => rfl, fun _ => rfl⟩
  | cons r rs ih =>
    obtain ⟨m1, h1, h2, h3, h4, h5, h6, h7⟩ :=
      ih { m with inds := m.inds.modify r fun x => { x with fitness := some (v r) } }
        (by intro r' hr'; simpa using h r' (by simp [hr']))
    refine ⟨m1, by simp [assignFitnesses, HM.bind_apply, modObj, h1], h2, h3, h4, ?_, ?_, ?_⟩
    · intro r' hr'
      by_cases hin : r' ∈ rs
      · exact h5 r' hin
      · have : r' = r := by simpa [hin] using hr'
        subst this
        have hlt := h r' (by simp)
        simp only [fitness, h6 r' hin, List.getElem?_modify, List.getElem?_eq_getElem hlt]
        simp
    · intro r' hr'
      simp only [List.mem_cons, not_or] at hr'
      rw [h6 r' hr'.2]
      simp [List.getElem?_modify, Ne.symm hr'.1]
    · intro r'
      rw [h7 r']
      by_cases hr : r = r'
      · subst hr
        cases ho : m.inds[r]? <;> simp [List.getElem?_modify, ho, Obj.noFitness]
      · simp [List.getElem?_modify, hr]

theorem problemsOf_effect (q : Nat) (rs : List Nat) (m : Mem γ ψ φ ρ)
    (h : ∀ r ∈ rs, ∃ o, m.inds[r]? = some o ∧ o.problem = q) :
    problemsOf rs m = (.ok (rs.map fun _ => q), m) := by
  induction rs with
  | nil => rfl
  | cons r rs ih =>
    obtain ⟨o, ho, hq⟩ := h r (by simp)
    simp [problemsOf, HM.bind_apply, getObj, ho, ih (fun r' hr' => h r' (by simp [hr'])), hq]

/-- C07, exactly what the code does: for every chunk size, `grouped_evaluate` returns the same individuals in
order and gives each the score of what the problem is shown for it, which is the cached phenome where
there is one. -/
theorem grouped_evaluate_exact (dec : Dec γ ψ) (prob : Prob γ ψ φ ρ) (hti : prob.takesIndividuals = true)
    (score : Content γ ψ → φ) (hmul : ∀ cs s, prob.evaluateMultiple cs s = (.ok (cs.map score), s))
    (chunk : Option Nat) (hchunk : ∀ n, chunk = some n → 0 < n)
    (pop : List Nat) (hne : pop ≠ []) (q : Nat) (m : Mem γ ψ φ ρ)
    (hq : ∀ r ∈ pop, ∃ o, m.inds[r]? = some o ∧ o.problem = q)
    (e : Nat → Content γ ψ) (he : ∀ r ∈ pop, shown dec m r = some (e r)) :
    ∃ m', groupedEvaluate dec prob chunk pop m = (.ok pop, m') ∧
      (∀ r ∈ pop, fitness m' r = some (some (score (e r))) ∧ genes m' r = genes m r ∧
        lineage m' r = lineage m r) ∧
      (∀ r, r ∉ pop → fitness m' r = fitness m r ∧ genes m' r = genes m r) := by
  cases pop with
  | nil => exact absurd rfl hne
  | cons p0 rest =>
    obtain ⟨o, ho, hoq⟩ := hq p0 (by simp)
    have hn : 0 < chunk.getD (p0 :: rest).length := by
      cases chunk with
      | none => simp
      | some n => exact hchunk n rfl
    obtain ⟨m1, h1, h2⟩ := evaluateChunks_shown dec prob hti score hmul e
      (chunksOf _ hn (p0 :: rest)) m (by rw [chunksOf_flatten]; exact he)
    rw [chunksOf_flatten] at h1
    have hlen : ∀ r ∈ p0 :: rest, r < m1.inds.length := by
      intro r hr
      obtain ⟨o', ho', -⟩ := hq r hr
      have := h2.inds r
      rw [ho'] at this
      cases h : m1.inds[r]? with
      | none => rw [h] at this; simp at this
      | some o2 => exact (List.getElem?_eq_some_iff.1 h).1
    obtain ⟨m2, g1, g2, g3, g4, g5, g6, g7⟩ := assignFitnesses_effect (fun r => score (e r)) (p0 :: rest) m1 hlen
    have hgenes : ∀ r, genes m2 r = genes m r ∧ lineage m2 r = lineage m r := by
      intro r
      have a := g7 r
      have b := h2.inds r
      simp only [genes, lineage, g2, g3, h2.arrays, h2.sets]
      cases c1 : m2.inds[r]? <;> cases c2 : m1.inds[r]? <;> cases c3 : m.inds[r]? <;>
        simp only [c1, c2, c3, Option.map_none, Option.map_some, reduceCtorEq, Option.some.injEq, Obj.noFitness, Obj.noPhenome, Obj.mk.injEq] at a b <;>
        simp_all
    refine ⟨m2, ?_, ?_, ?_⟩
    · have hall : (((p0 :: rest).map fun _ => q).all fun x => x == o.problem) = true := by
        simp [hoq]
      simp only [groupedEvaluate, HM.bind_apply, getObj, ho, problemsOf_effect q (p0 :: rest) m hq, hall, if_true]
      rw [dif_pos hn, HM.bind_apply, h1]
      simp only [HM.bind_apply, g1, HM.pure_apply]
    · intro r hr
      exact ⟨g5 r hr, hgenes r⟩
    · intro r hr
      refine ⟨?_, (hgenes r).1⟩
      simp only [fitness, g6 r hr]
      have b := h2.inds r
      cases c2 : m1.inds[r]? <;> cases c3 : m.inds[r]? <;>
        simp only [c2, c3, Option.map_none, Option.map_some, reduceCtorEq, Option.some.injEq, Obj.noFitness, Obj.noPhenome, Obj.mk.injEq] at b ⊢
      simp_all

/-- C07 (partial: it needs every cached phenome to be up to date, and a problem whose `evaluate_multiple`
accepts `individuals`): grouped evaluation gives every individual the fitness that evaluating it alone
gives, for every chunk size. -/
theorem grouped_evaluate_agrees_partial (dec : Dec γ ψ) (prob : Prob γ ψ φ ρ) (hti : prob.takesIndividuals = true)
    (score : Content γ ψ → φ) (hmul : ∀ cs s, prob.evaluateMultiple cs s = (.ok (cs.map score), s))
    (hone : ∀ c s, prob.evaluate c s = (.ok (score c), s))
    (chunk : Option Nat) (hchunk : ∀ n, chunk = some n → 0 < n)
    (pop : List Nat) (hne : pop ≠ []) (q : Nat) (m : Mem γ ψ φ ρ)
    (hq : ∀ r ∈ pop, ∃ o, m.inds[r]? = some o ∧ o.problem = q)
    (hdec : ∀ r ∈ pop, ∃ g c, genes m r = some g ∧ decodeOf dec g = .ok c ∧ shown dec m r = some c) :
    ∃ m', groupedEvaluate dec prob chunk pop m = (.ok pop, m') ∧
      ∀ r ∈ pop, ∃ f m1, evaluateInd dec prob r m = (.ok f, m1) ∧ fitness m1 r = some (some f) ∧
        fitness m' r = some (some f) := by
  classical
  let e : Nat → Content γ ψ := fun r => (shown dec m r).getD (.raw [])
  obtain ⟨m', h1, h2, -⟩ := grouped_evaluate_exact dec prob hti score hmul chunk hchunk pop hne q m hq e (by
    intro r hr
    obtain ⟨g, c, -, -, h⟩ := hdec r hr
    simp [e, h])
  refine ⟨m', h1, ?_⟩
  intro r hr
  obtain ⟨g, c, hg, hc, hs⟩ := hdec r hr
  obtain ⟨m1, k1, k2, -⟩ := evaluate_scores_current_genome dec prob m r g hg c hc (score c) m.rng (hone c m.rng)
  refine ⟨score c, m1, k1, k2, ?_⟩
  rw [(h2 r hr).1]
  simp [e, hs]

/-- C07 is false of the code: a clone of an evaluated parent, once its genes are changed, is given the parent's
score by `grouped_evaluate`, not its own. -/
theorem grouped_evaluate_stale :
    ∃ (m : Mem Int Int Int Unit) (r : Nat), Sound m ∧ genes m r = some [1, 0] ∧
      fitness (groupedEvaluate .identity exProb none [r] m).2 r = some (some 2) ∧
      fitness (evaluateInd .identity exProb r m).2 r = some (some 1) := by
  -- individual 1 of `exMem` (genes `[1, 1]`, evaluated) is cloned and the clone's second bit flipped
  refine ⟨(Edit.genes [1, 0]).apply 2 (cloneInd 1 exMem).2, 2, ?_, rfl, ?_, rfl⟩
  case refine_2 =>
    obtain ⟨m', h, h2, -⟩ := grouped_evaluate_exact (.identity : Dec Int Int) exProb rfl
      (fun c => match c with | .raw g => g.sum | .value v => v) (fun _ _ => rfl) none (by simp) [2] (by simp)
      7 ((Edit.genes [1, 0]).apply 2 (cloneInd 1 exMem).2) (by simp only [List.mem_singleton]; rintro r rfl; exact ⟨_, rfl, rfl⟩)
      (fun _ => .raw [1, 1]) (by simp only [List.mem_singleton]; rintro r rfl; rfl)
    rw [h]
    exact (h2 2 (by simp)).1
  constructor <;> simp [exMem, cloneInd, HM.bind_apply, getObj, newObj, getArr, newArr, modObj, freshUuid, newSet,
    Edit.apply, List.modify]

/-- C07: a problem whose `evaluate_multiple` does not take `individuals` (the default of `Problem`) makes
`grouped_evaluate` raise `TypeError` on every non-empty population of evaluable individuals. -/
theorem grouped_evaluate_default_problem (dec : Dec γ ψ) (prob : Prob γ ψ φ ρ) (hti : prob.takesIndividuals = false)
    (chunk : Option Nat) (hchunk : ∀ n, chunk = some n → 0 < n)
    (pop : List Nat) (hne : pop ≠ []) (q : Nat) (m : Mem γ ψ φ ρ)
    (hq : ∀ r ∈ pop, ∃ o, m.inds[r]? = some o ∧ o.problem = q)
    (he : ∀ r ∈ pop, (shown dec m r).isSome) :
    ∃ m', groupedEvaluate dec prob chunk pop m = (.error .typeError, m') := by
  cases pop with
  | nil => exact absurd rfl hne
  | cons p0 rest =>
    obtain ⟨o, ho, hoq⟩ := hq p0 (by simp)
    have hn : 0 < chunk.getD (p0 :: rest).length := by
      cases chunk with
      | none => simp
      | some n => exact hchunk n rfl
    let e : Nat → Content γ ψ := fun r => (shown dec m r).getD (.raw [])
    have hmem : ∀ r ∈ (p0 :: rest).take (chunk.getD (p0 :: rest).length), shown dec m r = some (e r) := by
      intro r hr
      have := he r (List.mem_of_mem_take hr)
      obtain ⟨c, hc⟩ := Option.isSome_iff_exists.1 this
      simp [e, hc]
    obtain ⟨ps, m1, h1, -, -⟩ := phenomesOf_shown dec e _ m hmem
    have hall : (((p0 :: rest).map fun _ => q).all fun x => x == o.problem) = true := by simp [hoq]
    refine ⟨m1, ?_⟩
    simp only [groupedEvaluate, HM.bind_apply, getObj, ho, problemsOf_effect q (p0 :: rest) m hq, hall, if_true]
    rw [dif_pos hn, HM.bind_apply, chunksOf, evaluateChunks, HM.bind_apply, h1]
    simp [hti]

/-- C07: an empty population and a chunk size of zero are refused. -/
theorem grouped_evaluate_refusals (dec : Dec γ ψ) (prob : Prob γ ψ φ ρ) (m : Mem γ ψ φ ρ) :
    (∀ chunk, groupedEvaluate dec prob chunk [] m = (.error .indexError, m)) ∧
    (∀ pop q, pop ≠ [] → (∀ r ∈ pop, ∃ o, m.inds[r]? = some o ∧ o.problem = q) →
      groupedEvaluate dec prob (some 0) pop m = (.error .valueError, m)) := by
  refine ⟨fun _ => rfl, ?_⟩
  intro pop q hne hq
  cases pop with
  | nil => exact absurd rfl hne
  | cons p0 rest =>
    obtain ⟨o, ho, hoq⟩ := hq p0 (by simp)
    have hall : (((p0 :: rest).map fun _ => q).all fun x => x == o.problem) = true := by simp [hoq]
    simp only [groupedEvaluate, HM.bind_apply, getObj, ho, problemsOf_effect q (p0 :: rest) m hq, hall, if_true]
    simp

/-- C07: individuals of different problems are refused. -/
theorem grouped_evaluate_mixed_problems (dec : Dec γ ψ) (prob : Prob γ ψ φ ρ) (chunk : Option Nat)
    (pop : List Nat) (m : Mem γ ψ φ ρ) (hex : ∀ r ∈ pop, r < m.inds.length)
    (r r' : Nat) (o o' : Obj ψ φ) (hr : r ∈ pop) (hr' : r' ∈ pop) (ho : m.inds[r]? = some o)
    (ho' : m.inds[r']? = some o') (hne : o.problem ≠ o'.problem) :
    groupedEvaluate dec prob chunk pop m = (.error .assertionError, m) := by
  have hprob : ∀ rs : List Nat, (∀ r ∈ rs, r < m.inds.length) → ∃ ps, problemsOf rs m = (.ok ps, m) ∧
      ∀ r ∈ rs, ∀ o, m.inds[r]? = some o → o.problem ∈ ps := by
    intro rs
    induction rs with
    | nil => intro _; exact ⟨[], rfl, by simp⟩
    | cons r rs ih =>
      intro h
      obtain ⟨ps, h1, h2⟩ := ih (fun r hr => h r (by simp [hr]))
      have hlt := h r (by simp)
      refine ⟨(m.inds[r]).problem :: ps, ?_, ?_⟩
      · simp [problemsOf, HM.bind_apply, getObj, List.getElem?_eq_getElem hlt, h1]
      · intro r2 hr2 o2 ho2
        simp only [List.mem_cons] at hr2
        rcases hr2 with rfl | hr2
        · rw [List.getElem?_eq_getElem hlt] at ho2; cases ho2; simp
        · exact List.mem_cons_of_mem _ (h2 r2 hr2 o2 ho2)
  cases pop with
  | nil => simp at hr
  | cons p0 rest =>
    have hlt := hex p0 (by simp)
    obtain ⟨ps, h1, h2⟩ := hprob (p0 :: rest) hex
    have hall : (ps.all fun x => x == (m.inds[p0]).problem) = false := by
      rw [List.all_eq_false]
      by_cases hh : o.problem = (m.inds[p0]).problem
      · exact ⟨o'.problem, h2 r' hr' o' ho', by simp only [beq_iff_eq]; intro hx; exact hne (hh.trans hx.symm)⟩
      · exact ⟨o.problem, h2 r hr o ho, by simpa using hh⟩
    simp only [groupedEvaluate, HM.bind_apply, getObj, List.getElem?_eq_getElem hlt, h1, hall]
    simp

example : ∃ m', groupedEvaluate (.identity : Dec Int Int) exProb (some 1) [1, 0] exMem = (.ok [1, 0], m') ∧
    fitness m' 0 = some (some 1) ∧ fitness m' 1 = some (some 2) := by
  obtain ⟨m', h, h2, -⟩ := grouped_evaluate_exact (.identity : Dec Int Int) exProb rfl
    (fun c => match c with | .raw g => g.sum | .value v => v) (fun _ _ => rfl) (some 1) (by simp) [1, 0] (by simp)
    7 exMem (by simp [exMem]) (fun r => if r = 0 then .raw [1, 0] else .raw [1, 1])
    (by intro r hr; simp only [List.mem_cons, List.not_mem_nil, or_false] at hr; rcases hr with rfl | rfl <;> rfl)
  exact ⟨m', h, (h2 0 (by simp)).1, (h2 1 (by simp)).1⟩

/-- `const_evaluate` gives everybody the same fitness and touches nothing else. -/
theorem const_evaluate_effect (v : φ) (pop : List Nat) (m : Mem γ ψ φ ρ) (h : ∀ r ∈ pop, r < m.inds.length) :
    ∃ m1, constEvaluate v pop m = (.ok (), m1) ∧ m1.arrays = m.arrays ∧ m1.sets = m.sets ∧
      (∀ r ∈ pop, fitness m1 r = some (some v)) ∧ (∀ r, r ∉ pop → m1.inds[r]? = m.inds[r]?) := by
  obtain ⟨m1, h1, h2, h3, -, h5, h6, -⟩ := assignFitnesses_effect (fun _ => v) pop m h
  refine ⟨m1, ?_, h2, h3, h5, h6⟩
  rw [← h1]
  clear h1 h2 h3 h5 h6 h
  induction pop generalizing m with
  | nil => rfl
  | cons r rs ih => simp only [constEvaluate, List.map_cons, assignFitnesses, HM.bind_apply, modObj]; exact ih _

end Leap
