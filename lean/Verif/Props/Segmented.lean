import Mathlib.Algebra.Order.Field.Basic
import Mathlib.Tactic.Linarith
import Verif.Model.Segmented
import Verif.Props.Binary
import Verif.Props.Mutation

/-! # Segmented genomes and initialisers (C25, C62) -/

namespace Leap
open Spec

variable {γ φ ρ : Type}

/-- The contents of the segments of a genome, in order (`none` for a dangling address). -/
def Spec.segments (m : SegMem γ ρ) (ind : SegInd φ) : List (Option (List γ)) :=
  ind.genome.map fun a => m.segs[a]?

/-- A mutation function that keeps the length of the array it is given and of the one it returns. -/
def Spec.KeepsLength (f : MutFn γ ρ) : Prop :=
  ∀ g s, (f g s).left.length = g.length ∧ ∀ g', (f g s).result = .ok (some g') → g'.length = g.length

/-- The genome has no dangling address. -/
def Spec.Resolved (m : SegMem γ ρ) (ind : SegInd φ) : Prop := ∀ a ∈ ind.genome, a < m.segs.length

/-- Segments only grow in number and keep their lengths. -/
def LensKept (m m' : SegMem γ ρ) : Prop :=
  ∀ a, a < m.segs.length → (m'.segs[a]?).map List.length = (m.segs[a]?).map List.length

theorem LensKept.len {m m' : SegMem γ ρ} (h : LensKept m m') : m.segs.length ≤ m'.segs.length := by
  rcases Nat.lt_or_ge m'.segs.length m.segs.length with hlt | hge
  · have := h m'.segs.length hlt
    rw [List.getElem?_eq_none (Nat.le_refl _), List.getElem?_eq_getElem hlt] at this
    simp at this
  · exact hge

theorem LensKept.trans {m m1 m2 : SegMem γ ρ} (h : LensKept m m1) (h2 : LensKept m1 m2) : LensKept m m2 :=
  fun a ha => (h2 a (Nat.lt_of_lt_of_le ha h.len)).trans (h a ha)

theorem mutateSegment_lens (f : MutFn γ ρ) (hf : KeepsLength f) (a : Nat) (m : SegMem γ ρ) (ha : a < m.segs.length)
    (a' : Nat) (m' : SegMem γ ρ) (h : mutateSegment f a m = (.ok a', m')) :
    LensKept m m' ∧ a' < m'.segs.length ∧
      (m'.segs[a']?).map List.length = (m.segs[a]?).map List.length := by
  have hg := List.getElem?_eq_getElem ha
  have hset : ∀ i : Nat, ((m.segs.set a (f m.segs[a] m.rng).left)[i]?).map List.length = (m.segs[i]?).map List.length := by
    intro i
    by_cases hi : a = i
    · subst hi; simp [ha, (hf _ _).1]
    · simp [List.getElem?_set_ne hi]
  simp only [mutateSegment, hg] at h
  cases hr : (f m.segs[a] m.rng).result with
  | error e => rw [hr] at h; simp at h
  | ok o =>
    rw [hr] at h
    cases o with
    | none =>
      simp only [Prod.mk.injEq, Except.ok.injEq] at h
      obtain ⟨rfl, rfl⟩ := h
      exact ⟨fun i _ => hset i, by simpa using ha, hset a⟩
    | some g' =>
      simp only [Prod.mk.injEq, Except.ok.injEq] at h
      obtain ⟨rfl, rfl⟩ := h
      refine ⟨fun i hi => ?_, by simp, ?_⟩
      · rw [List.getElem?_append_left (by simpa using hi)]; exact hset i
      · rw [List.getElem?_append_right (by simp)]
        simp [hg, (hf _ _).2 g' hr]

theorem mutateSegments_lens (fs : List (MutFn γ ρ)) (as : List Nat) (hlen : as.length = fs.length)
    (hf : ∀ f ∈ fs, KeepsLength f) (m : SegMem γ ρ) (ha : ∀ a ∈ as, a < m.segs.length)
    (as' : List Nat) (m' : SegMem γ ρ) (h : mutateSegments fs as m = (.ok as', m')) :
    LensKept m m' ∧ (∀ a ∈ as', a < m'.segs.length) ∧
      as'.map (fun a => (m'.segs[a]?).map List.length) = as.map (fun a => (m.segs[a]?).map List.length) := by
  induction fs generalizing as m as' with
  | nil =>
    cases as with
    | nil => simp [mutateSegments] at h; obtain ⟨rfl, rfl⟩ := h; exact ⟨fun _ _ => rfl, by simp, rfl⟩
    | cons => simp at hlen
  | cons f fs ih =>
    cases as with
    | nil => simp at hlen
    | cons a as =>
      simp only [mutateSegments, HM.bind_apply] at h
      rcases e1 : mutateSegment f a m with ⟨r1, m1⟩
      rw [e1] at h
      cases r1 with
      | error e => simp at h
      | ok a1 =>
        simp only at h
        rcases e2 : mutateSegments fs as m1 with ⟨r2, m2⟩
        rw [e2] at h
        cases r2 with
        | error e => simp at h
        | ok as1 =>
          simp only [HM.pure_apply, Prod.mk.injEq, Except.ok.injEq] at h
          obtain ⟨rfl, rfl⟩ := h
          obtain ⟨k1, k2, k3⟩ := mutateSegment_lens f (hf f (by simp)) a m (ha a (by simp)) a1 m1 e1
          obtain ⟨l1, l2, l3⟩ := ih as (by simpa using hlen) (fun f hf' => hf f (by simp [hf'])) m1
            (fun b hb => Nat.lt_of_lt_of_le (ha b (by simp [hb])) k1.len) as1 e2
          refine ⟨k1.trans l1, ?_, ?_⟩
          · intro b hb
            simp only [List.mem_cons] at hb
            rcases hb with rfl | hb
            · exact Nat.lt_of_lt_of_le k2 l1.len
            · exact l2 b hb
          · simp only [List.map_cons]
            rw [l1 a1 k2, k3, l3]
            congr 1
            apply List.map_congr_left
            intro b hb
            exact k1 b (ha b (by simp [hb]))

/-- C25: `apply_mutation` with a length-keeping mutator keeps the number of segments and the length of each, and
clears the fitness; also when several entries of the genome are the same array. -/
theorem apply_mutation_shape (mutator : ℚ → MutFn γ ρ) (hf : ∀ p, KeepsLength (mutator p)) (expected : ℚ)
    (ind ind' : SegInd φ) (m m' : SegMem γ ρ) (hr : Resolved m ind)
    (h : applyMutation mutator expected ind m = (.ok ind', m')) :
    (segments m' ind').map (Option.map List.length) = (segments m ind).map (Option.map List.length) ∧
    ind'.fitness = none ∧ Resolved m' ind' := by
  simp only [applyMutation, HM.bind_apply, HM.lift_apply] at h
  cases hp : computeExpectedProbability expected ind.genome.length with
  | error e => rw [hp] at h; simp at h
  | ok p =>
    rw [hp] at h
    simp only at h
    rcases e : mutateSegments (List.replicate ind.genome.length (mutator p)) ind.genome m with ⟨r, m1⟩
    rw [e] at h
    cases r with
    | error e => simp at h
    | ok as =>
      simp only [HM.pure_apply, Prod.mk.injEq, Except.ok.injEq] at h
      obtain ⟨rfl, rfl⟩ := h
      obtain ⟨-, h2, h3⟩ := mutateSegments_lens _ _ (by simp) (fun f hf' => by rw [List.eq_of_mem_replicate hf']; exact hf p) m hr _ _ e
      exact ⟨by simpa [segments, Function.comp_def] using h3, rfl, h2⟩

/-- C25: the same for `segmented_mutate`. -/
theorem segmented_mutate_shape (mutators : List (MutFn γ ρ)) (hf : ∀ f ∈ mutators, KeepsLength f)
    (ind ind' : SegInd φ) (m m' : SegMem γ ρ) (hr : Resolved m ind)
    (h : segmentedMutate mutators ind m = (.ok ind', m')) :
    (segments m' ind').map (Option.map List.length) = (segments m ind).map (Option.map List.length) ∧
    ind'.fitness = none ∧ Resolved m' ind' ∧ ind.genome.length = mutators.length := by
  simp only [segmentedMutate] at h
  split at h
  · rename_i hl
    simp only [HM.bind_apply] at h
    rcases e : mutateSegments mutators ind.genome m with ⟨r, m1⟩
    rw [e] at h
    cases r with
    | error e => simp at h
    | ok as =>
      simp only [HM.pure_apply, Prod.mk.injEq, Except.ok.injEq] at h
      obtain ⟨rfl, rfl⟩ := h
      obtain ⟨-, h2, h3⟩ := mutateSegments_lens _ _ hl hf m hr _ _ e
      exact ⟨by simpa [segments, Function.comp_def] using h3, rfl, h2, hl⟩
  · simp at h

/-- C25: a wrong number of mutators is refused (with `NameError`, raised while building the assertion
message), and nothing is changed. -/
theorem segmented_mutate_mismatch (mutators : List (MutFn γ ρ)) (ind : SegInd φ) (m : SegMem γ ρ)
    (h : ind.genome.length ≠ mutators.length) : segmentedMutate mutators ind m = (.error .nameError, m) := by
  simp [segmentedMutate, h]

/-- What each mutator makes of its own segment, one call after the other, each seeing the random source
left by the one before. -/
def Spec.mutateEach : List (MutFn γ ρ) → List (List γ) → ρ → PyM (List (List γ))
  | f :: fs, g :: gs, s =>
    match (f g s).result with
    | .error e => .error e
    | .ok r =>
      match Spec.mutateEach fs gs (f g s).rng with
      | .error e => .error e
      | .ok gs' => .ok (r.getD (f g s).left :: gs')
  | _, _, _ => .ok []

theorem mutateSegments_values (fs : List (MutFn γ ρ)) (as : List Nat) (gs : List (List γ))
    (hnd : as.Nodup) (m : SegMem γ ρ) (hg : as.map (fun a => m.segs[a]?) = gs.map some) :
    m.segs.length ≤ (mutateSegments fs as m).2.segs.length ∧
    (∀ a, a < m.segs.length → a ∉ as → (mutateSegments fs as m).2.segs[a]? = m.segs[a]?) ∧
    match mutateEach fs gs m.rng with
    | .error e => (mutateSegments fs as m).1 = .error e
    | .ok gs' => ∃ as', (mutateSegments fs as m).1 = .ok as' ∧
        as'.map (fun a => (mutateSegments fs as m).2.segs[a]?) = gs'.map some := by
  induction fs generalizing as gs m with
  | nil => simp [mutateSegments, mutateEach]
  | cons f fs ih =>
    cases as with
    | nil =>
      cases gs with
      | nil => simp [mutateSegments, mutateEach]
      | cons => simp at hg
    | cons a as =>
      cases gs with
      | nil => simp at hg
      | cons g gs =>
        simp only [List.map_cons, List.cons.injEq] at hg
        obtain ⟨hga, hg⟩ := hg
        simp only [List.nodup_cons] at hnd
        have hlt : a < m.segs.length := by
          by_contra hc; rw [List.getElem?_eq_none (by omega)] at hga; simp at hga
        have hin : ∀ b ∈ as, b < m.segs.length := by
          intro b hb
          by_contra hc
          have : (m.segs[b]?) ∈ gs.map some := hg ▸ List.mem_map_of_mem (f := fun a => m.segs[a]?) hb
          rw [List.getElem?_eq_none (by omega)] at this
          simp at this
        simp only [mutateSegments, mutateEach, HM.bind_apply]
        cases hr : (f g m.rng).result with
        | error e =>
          have e1 : mutateSegment f a m = (.error e, ⟨m.segs.set a (f g m.rng).left, (f g m.rng).rng⟩) := by
            simp [mutateSegment, hga, hr]
          rw [e1]
          refine ⟨by simp, ?_, rfl⟩
          intro b _ hb
          simp only [List.mem_cons, not_or] at hb
          exact List.getElem?_set_ne (Ne.symm hb.1)
        | ok o =>
          obtain ⟨a1, m1, e1, h1, h2, h3, h4, h5⟩ : ∃ a1 m1, mutateSegment f a m = (.ok a1, m1) ∧
              m1.rng = (f g m.rng).rng ∧ m.segs.length ≤ m1.segs.length ∧
              (∀ b, b < m.segs.length → b ≠ a → m1.segs[b]? = m.segs[b]?) ∧
              m1.segs[a1]? = some (o.getD (f g m.rng).left) ∧ a1 ∉ as := by
            cases o with
            | none =>
              refine ⟨a, ⟨m.segs.set a (f g m.rng).left, (f g m.rng).rng⟩, by simp [mutateSegment, hga, hr], rfl,
                by simp, fun b _ hb => List.getElem?_set_ne (Ne.symm hb), by simp [hlt], hnd.1⟩
            | some g' =>
              refine ⟨m.segs.length, ⟨m.segs.set a (f g m.rng).left ++ [g'], (f g m.rng).rng⟩,
                by simp [mutateSegment, hga, hr], rfl, by simp, ?_, by simp, ?_⟩
              · intro b hb hba
                rw [List.getElem?_append_left (by simpa using hb)]
                exact List.getElem?_set_ne (Ne.symm hba)
              · intro hm; exact absurd (hin _ hm) (by omega)
          have ha1 : a1 < m1.segs.length := by
            by_contra hc; rw [List.getElem?_eq_none (by omega)] at h4; simp at h4
          have hg1 : as.map (fun a => m1.segs[a]?) = gs.map some := by
            rw [← hg]
            exact List.map_congr_left fun b hb => h3 b (hin b hb) (fun h => hnd.1 (h ▸ hb))
          obtain ⟨k1, k2, k3⟩ := ih as gs hnd.2 m1 hg1
          rw [h1] at k3
          rw [e1]
          simp only
          rcases e2 : mutateSegments fs as m1 with ⟨r2, m2⟩
          rw [e2] at k1 k2 k3
          simp only at k1 k2 k3
          have hframe : ∀ b, b < m.segs.length → b ∉ a :: as → m2.segs[b]? = m.segs[b]? := by
            intro b hb hba
            simp only [List.mem_cons, not_or] at hba
            rw [k2 b (by omega) hba.2, h3 b hb hba.1]
          cases hm : mutateEach fs gs (f g m.rng).rng with
          | error e =>
            rw [hm] at k3
            simp only at k3
            subst k3
            exact ⟨by simp; omega, hframe, rfl⟩
          | ok gs' =>
            rw [hm] at k3
            obtain ⟨as', rfl, h6⟩ := k3
            refine ⟨by simp; omega, hframe, a1 :: as', rfl, ?_⟩
            simp only [HM.pure_apply, List.map_cons, h6]
            rw [k2 a1 ha1 h5, h4]

/-- C25: on a genome of distinct arrays `segmented_mutate` gives every segment what its own mutator makes of
it, in order, fails exactly when one of the mutators fails, and touches no array of anyone else. -/
theorem segmented_mutate_each (mutators : List (MutFn γ ρ)) (ind : SegInd φ) (m : SegMem γ ρ) (gs : List (List γ))
    (hg : segments m ind = gs.map some) (hnd : ind.genome.Nodup) (hlen : ind.genome.length = mutators.length) :
    (∀ a, a < m.segs.length → a ∉ ind.genome → (segmentedMutate mutators ind m).2.segs[a]? = m.segs[a]?) ∧
    match mutateEach mutators gs m.rng with
    | .error e => (segmentedMutate mutators ind m).1 = .error e
    | .ok gs' => ∃ ind', (segmentedMutate mutators ind m).1 = .ok ind' ∧
        segments (segmentedMutate mutators ind m).2 ind' = gs'.map some ∧ ind'.fitness = none := by
  obtain ⟨-, h2, h3⟩ := mutateSegments_values mutators ind.genome gs hnd m hg
  simp only [segmentedMutate, hlen, if_true, HM.bind_apply]
  rcases e : mutateSegments mutators ind.genome m with ⟨r, m1⟩
  rw [e] at h2 h3
  cases hm : mutateEach mutators gs m.rng with
  | error e =>
    rw [hm] at h3
    simp only at h3
    subst h3
    exact ⟨h2, rfl⟩
  | ok gs' =>
    rw [hm] at h3
    obtain ⟨as', h4, h5⟩ := h3
    simp only at h4
    subst h4
    exact ⟨h2, ⟨as', none⟩, rfl, h5, rfl⟩

/-- C25: `apply_mutation` does the same with one mutator for all segments, given `expected / number of segments`
as the expected number of mutations of each segment. -/
theorem apply_mutation_each (mutator : ℚ → MutFn γ ρ) (expected : ℚ) (ind : SegInd φ) (m : SegMem γ ρ)
    (gs : List (List γ)) (hg : segments m ind = gs.map some) (hnd : ind.genome.Nodup) (hne : gs ≠ []) :
    (∀ a, a < m.segs.length → a ∉ ind.genome → (applyMutation mutator expected ind m).2.segs[a]? = m.segs[a]?) ∧
    match mutateEach (gs.map fun _ => mutator (expected / gs.length)) gs m.rng with
    | .error e => (applyMutation mutator expected ind m).1 = .error e
    | .ok gs' => ∃ ind', (applyMutation mutator expected ind m).1 = .ok ind' ∧
        segments (applyMutation mutator expected ind m).2 ind' = gs'.map some ∧ ind'.fitness = none := by
  have hl : ind.genome.length = gs.length := by
    have := congrArg List.length hg; simpa [segments] using this
  have hl0 : gs.length ≠ 0 := by simpa using hne
  have hp : computeExpectedProbability expected ind.genome.length = .ok (expected / gs.length) := by
    simp only [computeExpectedProbability, hl, if_neg hl0, Except.ok.injEq]; ring
  have hf : (gs.map fun _ => mutator (expected / gs.length)) =
      List.replicate ind.genome.length (mutator (expected / gs.length)) := by
    rw [hl]; simp
  obtain ⟨-, h2, h3⟩ := mutateSegments_values (List.replicate ind.genome.length (mutator (expected / gs.length)))
    ind.genome gs hnd m hg
  rw [hf]
  simp only [applyMutation, HM.bind_apply, HM.lift_apply, hp]
  rcases e : mutateSegments (List.replicate ind.genome.length (mutator (expected / gs.length))) ind.genome m with ⟨r, m1⟩
  rw [e] at h2 h3
  cases hm : mutateEach (List.replicate ind.genome.length (mutator (expected / gs.length))) gs m.rng with
  | error e =>
    rw [hm] at h3
    simp only at h3
    subst h3
    exact ⟨h2, rfl⟩
  | ok gs' =>
    rw [hm] at h3
    obtain ⟨as', h4, h5⟩ := h3
    simp only at h4
    subst h4
    exact ⟨h2, ⟨as', none⟩, rfl, h5, rfl⟩

/-- C25: `apply_mutation` on a genome without segments raises `ZeroDivisionError`. -/
theorem apply_mutation_empty (mutator : ℚ → MutFn γ ρ) (expected : ℚ) (f : Option φ) (m : SegMem γ ρ) :
    applyMutation mutator expected (⟨[], f⟩ : SegInd φ) m = (.error .zeroDivisionError, m) := rfl

theorem insertIdx_take_drop {α : Type} (a : α) (k : Nat) (l : List α) (h : k ≤ l.length) :
    l.insertIdx k a = l.take k ++ a :: l.drop k := by
  induction k generalizing l with
  | zero => simp
  | succ k ih =>
    cases l with
    | nil => simp at h
    | cons b l => simp [ih l (by simpa using h)]

/-- C25: when it takes effect, `add_segment` puts exactly one new segment in and keeps the others in order, and
clears the fitness; otherwise the individual is unchanged. The new array is nobody else's. -/
theorem add_segment_effect (append : Bool) (new : List γ) (pos : Nat) (ind : SegInd φ) (m : SegMem γ ρ)
    (hr : Resolved m ind) (hpos : pos ≤ ind.genome.length) :
    (∃ ind' m' k, addSegment true append new pos ind m = (.ok ind', m') ∧
      segments m' ind' = (segments m ind).take k ++ [some new] ++ (segments m ind).drop k ∧
      k = (if append then ind.genome.length else pos) ∧ ind'.fitness = none ∧ Resolved m' ind' ∧
      ∀ a, a < m.segs.length → m'.segs[a]? = m.segs[a]?) ∧
    addSegment false append new pos ind m = (.ok ind, m) := by
  refine ⟨?_, rfl⟩
  have hold : ∀ a, a < m.segs.length → (m.segs ++ [new])[a]? = m.segs[a]? := fun a ha => by
    simp [List.getElem?_append_left ha]
  have hmap : ∀ l : List Nat, (∀ a ∈ l, a < m.segs.length) →
      l.map (fun a => (m.segs ++ [new])[a]?) = l.map (fun a => m.segs[a]?) := fun l hl =>
    List.map_congr_left fun a ha => hold a (hl a ha)
  refine ⟨_, _, (if append then ind.genome.length else pos), rfl, ?_, rfl, rfl, ?_, hold⟩
  · cases append with
    | true =>
      have hl : (ind.genome.map fun a => m.segs[a]?).length = ind.genome.length := by simp
      simp only [segments, if_true, List.map_append, hmap _ hr]
      rw [← hl, List.take_length, List.drop_length]
      simp
    | false =>
      simp only [segments, Bool.false_eq_true, if_false]
      rw [insertIdx_take_drop _ _ _ hpos]
      simp [hmap _ (fun a ha => hr a (List.mem_of_mem_take ha)),
        hmap _ (fun a ha => hr a (List.mem_of_mem_drop ha)), List.map_take, List.map_drop]
  · intro a ha
    have : a = m.segs.length ∨ a ∈ ind.genome := by
      cases append with
      | true => simpa [or_comm] using ha
      | false =>
        simp only [Bool.false_eq_true, if_false] at ha
        rcases List.mem_insertIdx hpos |>.1 ha with h | h
        · exact Or.inl h
        · exact Or.inr h
    rcases this with rfl | h
    · simp
    · have := hr a h; simp; omega

/-- C25: `remove_segment` deletes at most one segment, keeping the others in order, and never the last one. -/
theorem remove_segment_effect (hit : Bool) (pos : Nat) (ind : SegInd φ) (m : SegMem γ ρ)
    (hpos : pos < ind.genome.length) :
    (hit = true ∧ 1 < ind.genome.length →
      segments m (removeSegment hit pos ind) = (segments m ind).take pos ++ (segments m ind).drop (pos + 1) ∧
      (removeSegment hit pos ind).fitness = none) ∧
    (¬(hit = true ∧ 1 < ind.genome.length) → removeSegment hit pos ind = ind) ∧
    1 ≤ (removeSegment hit pos ind).genome.length ∧
    ind.genome.length ≤ (removeSegment hit pos ind).genome.length + 1 := by
  refine ⟨?_, ?_, ?_⟩
  · rintro ⟨rfl, h⟩
    simp [removeSegment, h, segments, List.eraseIdx_eq_take_drop_succ, List.map_take, List.map_drop]
  · intro h
    unfold removeSegment
    split
    · split
      · exact absurd ⟨by assumption, by assumption⟩ h
      · rfl
    · rfl
  · unfold removeSegment
    split
    · split
      · rename_i h _
        simp only [List.length_eraseIdx, hpos, if_true]; omega
      · omega
    · omega

/-- C25: `copy_segment` adds one entry with the contents of an existing segment, keeping the others in order.
Missing from the full claim, because it is false of the code: that the copy is independent of the original. -/
theorem copy_segment_effect_partial (append : Bool) (src pos : Nat) (ind : SegInd φ) (m : SegMem γ ρ)
    (hsrc : src < ind.genome.length) (hpos : pos ≤ ind.genome.length) :
    (∃ ind' k, copySegment true append src pos ind = .ok ind' ∧ k = (if append then ind.genome.length else pos) ∧
      (∃ s, (segments m ind)[src]? = some s ∧
        segments m ind' = (segments m ind).take k ++ [s] ++ (segments m ind).drop k) ∧
      ind'.fitness = none) ∧
    copySegment false append src pos ind = .ok ind := by
  refine ⟨?_, rfl⟩
  have hne : ind.genome.length ≠ 0 := by omega
  have hg := List.getElem?_eq_getElem hsrc
  refine ⟨_, (if append then ind.genome.length else pos), by simp only [copySegment, hne, hg, if_true, if_false]; rfl, rfl,
    ⟨m.segs[ind.genome[src]]?, ?_, ?_⟩, rfl⟩
  · simp [segments, hg]
  · cases append with
    | true =>
      have hl : (ind.genome.map fun a => m.segs[a]?).length = ind.genome.length := by simp
      simp only [segments, if_true, List.map_append]
      rw [← hl, List.take_length, List.drop_length]
      simp
    | false =>
      simp only [segments, Bool.false_eq_true, if_false]
      rw [insertIdx_take_drop _ _ _ hpos]
      simp [List.map_take, List.map_drop]

/-- C25: on an empty genome `copy_segment` raises. -/
theorem copy_segment_empty (append : Bool) (src pos : Nat) (f : Option φ) :
    copySegment true append src pos (⟨[], f⟩ : SegInd φ) = .error .valueError := rfl

/-- Add one to every gene, in place. -/
def exBump : MutFn Int Unit := fun g _ => ⟨g.map (· + 1), .ok none, ()⟩

/-- Do nothing. -/
def exKeep : MutFn Int Unit := fun g _ => ⟨g, .ok none, ()⟩

/-- C25 is false of the code in one respect: the copy made by `copy_segment` is the same array, so mutating
one segment in place changes the other one too. -/
theorem copy_segment_not_independent :
    ∃ (m m' : SegMem Int Unit) (ind ind' ind'' : SegInd Int),
      copySegment true true 0 0 ind = .ok ind' ∧ segments m ind' = [some [0, 0], some [0, 0]] ∧
      segmentedMutate [exBump, exKeep] ind' m = (.ok ind'', m') ∧
      segments m' ind'' = [some [1, 1], some [1, 1]] :=
  ⟨⟨[[0, 0]], ()⟩, ⟨[[1, 1]], ()⟩, ⟨[0], none⟩, ⟨[0, 0], none⟩, ⟨[0, 0], none⟩, rfl, rfl, rfl, rfl⟩

example : ∃ ind' m', segmentedMutate [exBump, exKeep] (⟨[0, 1], some 3⟩ : SegInd Int) ⟨[[0, 0], [5]], ()⟩ =
    (.ok ind', m') ∧ segments m' ind' = [some [1, 1], some [5]] :=
  ⟨_, _, rfl, rfl⟩

theorem boolAssign_length {α : Type} {arr vals r : List α} {mask : List Bool} (h : boolAssign arr mask vals = .ok r) :
    r.length = arr.length := by
  unfold boolAssign at h
  split at h
  · split at h
    · simp only [Except.ok.injEq] at h; rw [← h, maskStore_length]
    · simp at h
  · simp at h

/-- C25: the bit-flip mutator keeps lengths, so the two theorems above apply to it. -/
theorem bitflipFn_keepsLength (expected probability : Option ℚ) (rand : ρ → List ℚ × ρ) :
    KeepsLength (bitflipFn expected probability rand) := by
  intro g s
  unfold bitflipFn
  cases h : genomeMutateBitflip expected probability (rand s).1 g with
  | error e => simp
  | ok g' =>
    refine ⟨?_, by simp⟩
    unfold genomeMutateBitflip at h
    repeat' split at h
    all_goals first | exact boolAssign_length h | simp at h

/-- C25: so does the integer resampling mutator. -/
theorem randintFn_keepsLength (bounds : List (Int × Int)) (expected probability : Option ℚ)
    (rand : ρ → (List ℚ × List Int) × ρ) : KeepsLength (randintFn bounds expected probability rand) := by
  intro g s
  unfold randintFn
  cases h : individualMutateRandint bounds expected probability (rand s).1.1 (rand s).1.2 g with
  | error e => simp
  | ok g' =>
    refine ⟨?_, by simp⟩
    unfold individualMutateRandint at h
    repeat' split at h
    all_goals first | exact boolAssign_length h | simp at h

example : ∃ ind' m', applyMutation (fun p => bitflipFn (some p) none (fun s => (s.take 3, s.drop 3))) 2
      (⟨[0, 1], some 3⟩ : SegInd Int) ⟨[[0, 0, 1], [1, 1, 1]], ([0, 1, 1, 1, 1, 1/4] : List ℚ)⟩ = (.ok ind', m') ∧
    segments m' ind' = [some [1, 0, 1], some [1, 1, 0]] := by
  refine ⟨⟨[0, 1], none⟩, ⟨[[1, 0, 1], [1, 1, 0]], []⟩, ?_, rfl⟩
  decide +kernel

/-! ## Decoding -/

theorem segmentedDecode_from (ds : List Nat) (genome : List (List Int)) (history : List (List Int))
    (hb : ∀ s ∈ genome, Binary s ∧ ds.sum ≤ s.length) (hd : ∀ d ∈ ds, 0 < d ∧ d ≤ 63) :
    (segmentedDecode ds genome (cacheAfter ds history)).1 =
      .ok (genome.map fun s => (pieces ds s).map bigEndian) := by
  induction genome generalizing history with
  | nil => rfl
  | cons s ss ih =>
    obtain ⟨b1, b2⟩ := hb s (by simp)
    have h1 := binary_to_int_value_partial ds history s b1 hd b2
    have h2 : cacheAfter ds (history ++ [s]) = (decodeInt ds (cacheAfter ds history) s).2 := by
      simp [cacheAfter]
    have h3 := ih (history ++ [s]) (fun t ht => hb t (by simp [ht]))
    rw [h2] at h3
    rcases e : decodeInt ds (cacheAfter ds history) s with ⟨r, c⟩
    rw [e] at h1 h3
    simp only at h1 h3
    subst h1
    simp only [segmentedDecode, e]
    rcases e2 : segmentedDecode ds ss c with ⟨r2, c2⟩
    rw [e2] at h3
    simp only at h3
    subst h3
    simp

/-- C25: whatever the wrapped decoder decoded before, a segmented genome is decoded segment by segment: one
entry per segment, each the value of that segment alone. -/
theorem segmented_decode_value (ds : List Nat) (genome : List (List Int)) (history : List (List Int))
    (hb : ∀ s ∈ genome, Binary s ∧ ds.sum ≤ s.length) (hd : ∀ d ∈ ds, 0 < d ∧ d ≤ 63) :
    ∃ ph, (segmentedDecode ds genome (cacheAfter ds history)).1 = .ok ph ∧ ph.length = genome.length ∧
      ∀ (i : Nat) (s : List Int), genome[i]? = some s → ph[i]? = some ((pieces ds s).map bigEndian) :=
  ⟨_, segmentedDecode_from ds genome history hb hd, by simp, fun i s h => by simp [h]⟩

example : (segmentedDecode [2, 2] [[1, 1, 0, 1], [0, 1, 1, 0]] none).1 = .ok [[3, 1], [1, 2]] := by decide

/-! ## C62 initialisers -/

/-- C62: a segmented initialiser makes the number of segments asked for, each made by the segment initialiser. -/
theorem create_segmented_spec (init : ρ → PyM (List γ) × ρ) (n : Nat) (s s' : ρ) (gs : List (List γ))
    (P : List γ → Prop) (hP : ∀ s g s', init s = (.ok g, s') → P g)
    (h : createSegmented init n s = (.ok gs, s')) : gs.length = n ∧ ∀ g ∈ gs, P g := by
  induction n generalizing s gs with
  | zero => simp [createSegmented] at h; simp [h.1]
  | succ n ih =>
    simp only [createSegmented] at h
    rcases e1 : init s with ⟨r1, s1⟩
    rw [e1] at h
    cases r1 with
    | error e => simp at h
    | ok g =>
      simp only at h
      rcases e2 : createSegmented init n s1 with ⟨r2, s2⟩
      rw [e2] at h
      cases r2 with
      | error e => simp at h
      | ok gs2 =>
        simp only [Prod.mk.injEq, Except.ok.injEq] at h
        obtain ⟨rfl, rfl⟩ := h
        obtain ⟨h1, h2⟩ := ih s1 gs2 e2
        refine ⟨by simp [h1], ?_⟩
        intro x hx
        simp only [List.mem_cons] at hx
        rcases hx with rfl | hx
        · exact hP _ _ _ e1
        · exact h2 x hx

/-- C62: it fails only if the segment initialiser fails. -/
theorem create_segmented_total (init : ρ → PyM (List γ) × ρ) (hok : ∀ s, ∃ g s', init s = (.ok g, s'))
    (n : Nat) (s : ρ) : ∃ gs s', createSegmented init n s = (.ok gs, s') := by
  induction n generalizing s with
  | zero => exact ⟨[], s, rfl⟩
  | succ n ih =>
    obtain ⟨g, s1, e1⟩ := hok s
    obtain ⟨gs, s2, e2⟩ := ih s1
    exact ⟨g :: gs, s2, by simp [createSegmented, e1, e2]⟩

/-- C62: an integer initialiser gives one gene per pair of bounds, each within its inclusive bounds. What
`np.random.randint(low, high)` may return is `low ≤ x < high`. -/
theorem create_int_vector_in_bounds (bounds : List (Int × Int)) (draws : List Int)
    (hdraw : List.Forall₂ (fun b x => b.1 ≤ x ∧ x < b.2) (bounds.map fun b => (b.1, b.2 + 1)) draws) :
    ∃ g, createIntVector bounds draws = .ok g ∧ List.Forall₂ (fun b x => b.1 ≤ x ∧ x ≤ b.2) bounds g := by
  have hv : ValidRandints bounds draws := by
    rw [List.forall₂_map_left_iff] at hdraw
    exact hdraw.imp fun b x h => ⟨h.1, by have := h.2; simp only at this; omega⟩
  exact ⟨draws, bounds_ok_of_valid hv, hv⟩

/-- C62: reversed bounds are refused. -/
theorem create_int_vector_reversed (bounds : List (Int × Int)) (draws : List Int)
    (h : ∃ b ∈ bounds, b.2 < b.1) : createIntVector bounds draws = .error .valueError := by
  obtain ⟨b, hb, hlt⟩ := h
  have : ¬ ((bounds.map Prod.fst).zip (bounds.map fun b => b.2 + 1)).all (fun b => decide (b.1 < b.2)) = true := by
    rw [List.zip_map', List.all_map, List.all_eq_true]
    intro hall
    have := hall b hb
    simp only [Function.comp, decide_eq_true_eq] at this
    omega
  simp [createIntVector, npRandint, this]

/-- C62: a real initialiser gives one gene per pair of bounds, each in `[low, high)`; equal bounds give exactly
that value. -/
theorem create_real_vector_in_bounds (bounds : List (ℚ × ℚ)) (u : List ℚ) (hlen : u.length = bounds.length)
    (hu : ∀ x ∈ u, 0 ≤ x ∧ x < 1) (hb : ∀ b ∈ bounds, b.1 ≤ b.2) :
    List.Forall₂ (fun b x => b.1 ≤ x ∧ (b.1 < b.2 → x < b.2) ∧ (b.1 = b.2 → x = b.1))
      bounds (createRealVector bounds u) := by
  induction bounds generalizing u with
  | nil => cases u <;> simp_all [createRealVector]
  | cons b bs ih =>
    cases u with
    | nil => simp at hlen
    | cons x xs =>
      obtain ⟨h0, h1⟩ := hu x (by simp)
      have hbb := hb b (by simp)
      refine .cons ⟨?_, ?_, ?_⟩ (ih xs (by simpa using hlen) (fun y hy => hu y (by simp [hy])) fun c hc => hb c (by simp [hc]))
      · have := mul_nonneg (sub_nonneg.mpr hbb) h0; linarith
      · intro hlt
        have := mul_lt_mul_of_pos_left h1 (sub_pos.mpr hlt); linarith
      · intro heq; simp [heq]

/-- C62: a binary initialiser gives the length asked for and one bit per random number, set when it is below
one half. -/
theorem create_binary_sequence_spec (n : Nat) (u : List ℚ) (hlen : u.length = n) :
    ∃ g, createBinarySequence n u = .ok g ∧ g.length = n ∧
      ∀ (i : Nat) (x : ℚ), u[i]? = some x → g[i]? = some (decide (x < 1 / 2)) := by
  have ht : u.take n = u := List.take_of_length_le (by omega)
  refine ⟨u.map fun x => decide (x < 1 / 2), ?_, by simp [hlen], fun i x hx => by simp [hx]⟩
  simp only [createBinarySequence, ht]
  exact bernoulliVector_ok (by norm_num) (by norm_num)

example : createIntVector [(0, 2), (-1, -1)] [2, -1] = .ok [2, -1] ∧
    createRealVector [(0, 10), (-1, 1)] [1/2, 1/4] = [5, -1/2] ∧
    createBinarySequence 2 [1/4, 3/4] = .ok [true, false] := by
  decide +kernel

end Leap
