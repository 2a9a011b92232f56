import Verif.Model.Individual

/-! # What it means for memory to be left alone -/

namespace Leap.Spec
variable {γ ψ φ ρ : Type}

/-- Everything that existed in `m` (individuals with all their attributes, contents of genome arrays, contents
of parent sets) is found unchanged in `m'`. New objects may have been added. -/
structure Unchanged (m m' : Mem γ ψ φ ρ) : Prop where
  inds : ∀ r, r < m.inds.length → m'.inds[r]? = m.inds[r]?
  arrays : ∀ a, a < m.arrays.length → m'.arrays[a]? = m.arrays[a]?
  sets : ∀ s, s < m.sets.length → m'.sets[s]? = m.sets[s]?

/-- Memory without dangling references, in which no identity is yet to be given out. -/
structure Sound (m : Mem γ ψ φ ρ) : Prop where
  genome : ∀ o ∈ m.inds, o.genome < m.arrays.length
  parents : ∀ o ∈ m.inds, o.parents < m.sets.length
  uuid : ∀ o ∈ m.inds, o.uuid < m.nextUuid

/-- The genes of individual `r`. -/
def genes (m : Mem γ ψ φ ρ) (r : Nat) : Option (List γ) :=
  match m.inds[r]? with
  | none => none
  | some o => m.arrays[o.genome]?

/-- The parent identities of individual `r`. -/
def lineage (m : Mem γ ψ φ ρ) (r : Nat) : Option (List Nat) :=
  match m.inds[r]? with
  | none => none
  | some o => m.sets[o.parents]?

/-- The fitness of individual `r` (`some none` when it is `None`). -/
def fitness (m : Mem γ ψ φ ρ) (r : Nat) : Option (Option φ) := (m.inds[r]?).map Obj.fitness

/-- Something done to one individual by its owner: overwrite genes in place, assign a fitness, change
the set of parents in place, assign a phenome. -/
inductive Edit (γ ψ φ : Type) where
  | genes (g : List γ)
  | fitness (f : Option φ)
  | lineage (s : List Nat)
  | phenome (p : Option (Phen ψ))

/-- The effect of an edit of individual `r`. -/
def Edit.apply (r : Nat) (m : Mem γ ψ φ ρ) (e : Edit γ ψ φ) : Mem γ ψ φ ρ :=
  match m.inds[r]? with
  | none => m
  | some o =>
    match e with
    | .genes g => { m with arrays := m.arrays.set o.genome g }
    | .fitness f => { m with inds := m.inds.set r { o with fitness := f } }
    | .lineage s => { m with sets := m.sets.set o.parents s }
    | .phenome p => { m with inds := m.inds.set r { o with phenome := p } }

end Leap.Spec
