import Verif.Lemmas.Pipeline

/-! # Reproduction pipelines leave the parents alone (C05) -/

namespace Leap
open Spec

variable {γ ψ φ ρ : Type}

theorem selection_fresh (m0 : Mem γ ψ φ ρ) (pop : List Nat) (choose : Mem γ ψ φ ρ → PyM Nat × ρ) (s : Unit) (k : Nat) :
    Ensures (FreshAt m0 k) ((selectionIter pop choose).next s) (fun _ => FreshAt m0 k) (Fresh m0) := by
  intro m hm
  have h : ∀ x : ρ, Fresh m0 { m with rng := x } := fun x =>
    ⟨⟨hm.1.unchanged.1, hm.1.unchanged.2, hm.1.unchanged.3⟩, ⟨hm.1.sound.1, hm.1.sound.2, hm.1.sound.3⟩,
     hm.1.inds, hm.1.arrays, hm.1.sets, hm.1.owned, hm.1.distinct⟩
  simp only [selectionIter]
  rcases choose m with ⟨x, s'⟩
  cases x with
  | error e => exact h s'
  | ok i =>
    cases hp : pop[i]? with
    | none => simpa [hp] using h s'
    | some r =>
      simp only [hp]
      exact ⟨h s', hm.2⟩

/-- C05: run any pipeline `select -> clone -> stages -> pool(size)`, with any selection, any chain of cloning,
mutation, crossover and evaluation operators, and any random numbers. Whether it returns or raises, every
individual, genome array and parent set that existed before is exactly as it was. If it returns, it returns
`size` new individuals, all different, none of which shares a genome array or a parent set with anybody
that existed before or with another of them. -/
theorem pipeline_leaves_parents_alone (m : Mem γ ψ φ ρ) (hm : Sound m) (pop : List Nat)
    (choose : Mem γ ψ φ ρ → PyM Nat × ρ) (stages : List (Stage γ ψ φ ρ)) (size : Nat) :
    Unchanged m (runPipeline pop choose stages size m).2 ∧
    ∀ out, (runPipeline pop choose stages size m).1 = .ok out →
      out.length = size ∧ out.Nodup ∧
      (∀ r ∈ out, m.inds.length ≤ r ∧ ∃ o, (runPipeline pop choose stages size m).2.inds[r]? = some o ∧
        ∀ o0 ∈ m.inds, o.genome ≠ o0.genome ∧ o.parents ≠ o0.parents) ∧
      (∀ r ∈ out, ∀ r' ∈ out, r ≠ r' → ∀ o o', (runPipeline pop choose stages size m).2.inds[r]? = some o →
        (runPipeline pop choose stages size m).2.inds[r']? = some o' →
        o.genome ≠ o'.genome ∧ o.parents ≠ o'.parents) := by
  obtain ⟨J, hJ⟩ := stages_yieldsNew stages _ _
    (clone_first (m0 := m) (selectionIter pop choose) (fun s k => selection_fresh m pop choose s k))
  have hrun := hpull_yieldsNew _ J hJ size (stagesIter (selectionIter pop choose) (Stage.clone :: stages)).init
    m.inds.length m.inds.length (Nat.le_refl _)
  have hE : Ensures (fun x => x = m) (runPipeline pop choose stages size)
      (fun os m1 => FreshAt m m.inds.length m1 ∧ os.length = size ∧ os.Pairwise (· < ·) ∧
        ∀ r ∈ os, m.inds.length ≤ r ∧ r < m1.inds.length) (Fresh m) := by
    unfold runPipeline
    refine Ensures.seq (hrun.mono ?_ (fun _ _ h => h) (fun _ h => h)) fun os => ?_
    · rintro x rfl
      exact ⟨⟨.refl _ hm, Nat.le_refl _⟩, hJ.2.2.1 _ (Nat.le_refl _)⟩
    · exact Ensures.ret fun _ h => h
  have h := hE m rfl
  rcases e : runPipeline pop choose stages size m with ⟨x, m1⟩
  rw [e] at h
  cases x with
  | error err => exact ⟨h.unchanged, by simp⟩
  | ok os =>
    obtain ⟨h1, h2, h3, h4⟩ := h
    refine ⟨h1.1.unchanged, ?_⟩
    rintro out ho
    cases ho
    refine ⟨h2, h3.imp (fun h => by omega), ?_, ?_⟩
    · intro r hr
      obtain ⟨g1, g2⟩ := h4 r hr
      refine ⟨g1, _, List.getElem?_eq_getElem g2, ?_⟩
      intro o0 ho0
      have a := h1.1.owned r _ g1 (List.getElem?_eq_getElem g2)
      have b := hm.genome o0 ho0
      have c := hm.parents o0 ho0
      omega
    · intro r hr r' hr' hne o o' ho ho'
      exact h1.1.distinct r r' o o' (h4 r hr).1 (h4 r' hr').1 hne ho ho'

/-- C05 in terms of what a user sees: genes, fitness and lineage of everybody in the old population are the same
after the pipeline as before. -/
theorem pipeline_parents_keep_genes_fitness_lineage (m : Mem γ ψ φ ρ) (hm : Sound m) (pop : List Nat)
    (choose : Mem γ ψ φ ρ → PyM Nat × ρ) (stages : List (Stage γ ψ φ ρ)) (size : Nat) (r : Nat)
    (hr : r < m.inds.length) :
    genes (runPipeline pop choose stages size m).2 r = genes m r ∧
    fitness (runPipeline pop choose stages size m).2 r = fitness m r ∧
    lineage (runPipeline pop choose stages size m).2 r = lineage m r := by
  obtain ⟨h, -⟩ := pipeline_leaves_parents_alone m hm pop choose stages size
  have ho := h.inds r hr
  have hg := List.getElem?_eq_getElem hr
  have hmem : m.inds[r] ∈ m.inds := List.getElem_mem hr
  refine ⟨?_, by simp only [fitness, ho], ?_⟩
  · simp only [genes, ho, hg]
    exact h.arrays _ (hm.genome _ hmem)
  · simp only [lineage, ho, hg]
    exact h.sets _ (hm.parents _ hmem)

/-- Flip the first gene in place. -/
def exFlip : MutFn Int Unit := fun g _ =>
  match g with
  | [] => ⟨[], .ok none, ()⟩
  | x :: xs => ⟨(1 - x) :: xs, .ok none, ()⟩

/-- A non-trivial run: the first parent is selected twice, its clones are mutated, crossed over and evaluated;
the first one's genes change, the parent's do not. -/
example :
    let stages : List (Stage Int Int Int Unit) := [.mutate (.ok ()) false exFlip,
      .crossover (fun _ => (false, ())) (.uniform fun _ n => (.ok (List.replicate n true), ())),
      .evaluate .identity exProb]
    let run := runPipeline [0, 1] (fun _ => (.ok 0, ())) stages 2 exMem
    run.1.toOption = some [2, 3] ∧
      genes run.2 2 = some [0, 0] ∧ fitness run.2 2 = some (some 0) ∧ lineage run.2 2 = some [0] ∧
      genes run.2 0 = some [1, 0] ∧ fitness run.2 0 = some (some 1) := by
  decide +kernel

/-- Without the clone stage the claim fails: mutating a selected parent directly changes it. -/
theorem mutating_without_clone_changes_parent :
    let it : HIter (Mem Int Int Int Unit) :=
      stagesIter (selectionIter [0, 1] fun _ => (.ok 0, ())) [Stage.mutate (.ok ()) false exFlip]
    let run := hpull it.next 1 it.init exMem
    run.1.toOption.map Prod.fst = some [0] ∧ genes run.2 0 = some [0, 0] ∧ fitness run.2 0 = some none := by
  decide +kernel

end Leap
