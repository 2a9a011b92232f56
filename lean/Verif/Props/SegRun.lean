import Verif.Model.SegRun
import Verif.Props.Segmented
import Verif.Props.Selection
import Verif.Lemmas.Owns

/-! # Runs over segmented genomes (C114) -/

namespace Leap
open Spec

variable {γ φ ρ : Type}

/-! ### Specification -/

namespace Spec

/-- The arrays in the genome of the individual at `r`, in order. -/
def arraysOf (m : SegStore γ φ ρ) (r : Nat) : Option (List Nat) := do
  let o ← m.inds[r]?
  m.lists[o.genome]?

/-- What these arrays hold: the genome as its user sees it. -/
def segmentsOf (m : SegStore γ φ ρ) (r : Nat) : Option (List (List γ)) := do
  let l ← arraysOf m r
  l.mapM fun a => m.segs[a]?

/-- The fitness of the individual at `r`. -/
def segFitness (m : SegStore γ φ ρ) (r : Nat) : Option φ := (m.inds[r]?).bind SegObj.fitness

/-- Every individual, list and array that was there is still there, with the same contents. -/
def NothingChanged (m m' : SegStore γ φ ρ) : Prop := m.inds <+: m'.inds ∧ m.lists <+: m'.lists ∧ m.segs <+: m'.segs

/-- The individuals at `a` and `b` share neither their list nor any array. -/
def Apart (m : SegStore γ φ ρ) (a b : Nat) : Prop :=
  (∀ oa ob, m.inds[a]? = some oa → m.inds[b]? = some ob → oa.genome ≠ ob.genome) ∧
  ∀ la lb, arraysOf m a = some la → arraysOf m b = some lb → ∀ x ∈ la, x ∉ lb

/-- A mutation function that turns good segments into good ones, wherever it puts the result. When segments may share arrays
(`shared`), also what it leaves in its argument has to be good. -/
def KeepsGood (G : List γ → Prop) (shared : Bool) (f : MutFn γ ρ) : Prop :=
  ∀ g s, G g → ((f g s).result = .ok none → G (f g s).left) ∧ (∀ g', (f g s).result = .ok (some g') → G g') ∧
    (shared = true → G (f g s).left)

/-- The operators make good segments from good ones; `copy_segment` occurs only if segments may share arrays; what `evaluate` gives is a
value of the genome (more than one may be when evaluation is noisy). -/
def StageGood (G : List γ → Prop) (value : List (List γ) → φ → Prop) (shared : Bool) : SegStage γ φ ρ → Prop
  | .clone => True
  | .apply mutator _ => ∀ p, KeepsGood G shared (mutator p)
  | .segmented mutators => ∀ f ∈ mutators, KeepsGood G shared f
  | .each mutator => KeepsGood G shared mutator
  | .add _ init _ _ => ∀ s g, (init s).1 = .ok g → G g
  | .remove _ _ => True
  | .copy _ _ _ => shared = true
  | .evaluate score => ∀ gs s x, (score gs s).1 = .ok x → value gs x

/-- An individual as it should be: at least one segment, all segments good, no two of them the same array (unless `shared`), and
if it has a fitness, that is a value of its genome as it is now. -/
def ProperInd (G : List γ → Prop) (value : List (List γ) → φ → Prop) (shared : Bool) (m : SegStore γ φ ρ) (r : Nat) : Prop :=
  ∃ l gs, arraysOf m r = some l ∧ segmentsOf m r = some gs ∧ gs ≠ [] ∧ (∀ g ∈ gs, G g) ∧ (shared = false → l.Nodup) ∧
    ∀ f, segFitness m r = some f → value gs f

/-- From a number of segments allowed by `N`, an operator leads to another one. -/
def KeepsCount (N : Nat → Prop) : SegStage γ φ ρ → Prop
  | .add _ _ _ _ => ∀ n, N n → N (n + 1)
  | .copy _ _ _ => ∀ n, N n → N (n + 1)
  | .remove _ _ => ∀ n, 1 ≤ n → N (n + 1) → N n
  | _ => True

/-- The number of segments of an individual is allowed by `N`. -/
def Counted (N : Nat → Prop) (m : SegStore γ φ ρ) (r : Nat) : Prop := ∃ gs, segmentsOf m r = some gs ∧ N gs.length

/-- Mutate segments that are plain values, one after the other. -/
def mutateAll : List (MutFn γ ρ) → List (List γ) → ρ → PyM (List (List γ)) × ρ
  | f :: fs, g :: gs, s =>
    match (f g s).result with
    | .error e => (.error e, (f g s).rng)
    | .ok new =>
      match mutateAll fs gs (f g s).rng with
      | (.error e, s') => (.error e, s')
      | (.ok gs', s') => (.ok (new.getD (f g s).left :: gs'), s')
  | _, _, s => (.ok [], s)

/-- What an operator does, if genomes were values instead of objects in memory: from segments and fitness to segments and
fitness. -/
def byValue : SegStage γ φ ρ → List (List γ) × Option φ → ρ → PyM (List (List γ) × Option φ) × ρ
  | .clone, (gs, _), s => (.ok (gs, none), s)
  | .apply mutator expected, (gs, _), s =>
    if gs.length = 0 then (.error .zeroDivisionError, s)
    else
      match mutateAll (List.replicate gs.length (mutator (1 / (gs.length : ℚ) * expected))) gs s with
      | (.error e, s') => (.error e, s')
      | (.ok gs', s') => (.ok (gs', none), s')
  | .segmented mutators, (gs, _), s =>
    if gs.length = mutators.length then
      match mutateAll mutators gs s with
      | (.error e, s') => (.error e, s')
      | (.ok gs', s') => (.ok (gs', none), s')
    else (.error .nameError, s)
  | .each mutator, (gs, _), s =>
    match mutateAll (List.replicate gs.length mutator) gs s with
    | (.error e, s') => (.error e, s')
    | (.ok gs', s') => (.ok (gs', none), s')
  | .add hit init append range, (gs, f), s =>
    if (hit s).1 then
      match init (hit s).2 with
      | (.error e, s') => (.error e, s')
      | (.ok g, s') =>
        if append then (.ok (gs ++ [g], none), s')
        else (.ok (gs.insertIdx (range (gs.length + 1) s').1 g, none), (range (gs.length + 1) s').2)
    else (.ok (gs, f), (hit s).2)
  | .remove hit range, (gs, f), s =>
    if gs.length ≤ 1 then (.ok (gs, f), s)
    else if (hit s).1 then (.ok (gs.eraseIdx (range gs.length (hit s).2).1, none), (range gs.length (hit s).2).2)
    else (.ok (gs, f), (hit s).2)
  | .copy hit append range, (gs, f), s =>
    if (hit s).1 then
      if gs.length = 0 then (.error .valueError, (hit s).2)
      else
        match gs[(range gs.length (hit s).2).1]? with
        | none => (.error .indexError, (range gs.length (hit s).2).2)
        | some g =>
          if append then (.ok (gs ++ [g], none), (range gs.length (hit s).2).2)
          else (.ok (gs.insertIdx (range (gs.length + 1) (range gs.length (hit s).2).2).1 g, none),
            (range (gs.length + 1) (range gs.length (hit s).2).2).2)
    else (.ok (gs, f), (hit s).2)
  | .evaluate score, (gs, _), s =>
    match score gs s with
    | (.error e, s') => (.error e, s')
    | (.ok x, s') => (.ok (gs, some x), s')

/-- A chain of operators on values. -/
def chainByValue : List (SegStage γ φ ρ) → List (List γ) × Option φ → ρ → PyM (List (List γ) × Option φ) × ρ
  | [], v, s => (.ok v, s)
  | st :: rest, v, s =>
    match byValue st v s with
    | (.error e, s') => (.error (if e = .stopIteration then .runtimeError else e), s')
    | (.ok v', s') => chainByValue rest v' s'

/-- A pipeline on values: `parents` are the segments of the parents, `pick` gives the position of the next one. -/
def poolByValue (parents : List (List (List γ))) (pick : ρ → PyM Nat × ρ) (stages : List (SegStage γ φ ρ)) :
    Nat → ρ → PyM (List (List (List γ) × Option φ)) × ρ
  | 0, s => (.ok [], s)
  | n + 1, s =>
    match pick s with
    | (.error e, s') => (.error (if e = .stopIteration then .runtimeError else e), s')
    | (.ok i, s') =>
      match parents[i]? with
      | none => (.error .indexError, s')
      | some gs =>
        match chainByValue stages (gs, none) s' with
        | (.error e, s') => (.error e, s')
        | (.ok v, s') =>
          match poolByValue parents pick stages n s' with
          | (.error e, s') => (.error e, s')
          | (.ok vs, s') => (.ok (v :: vs), s')

end Spec

/-! ### Lists -/

theorem prefix_get {α : Type} {xs ys : List α} (h : xs <+: ys) {i : Nat} (hi : i < xs.length) : ys[i]? = xs[i]? := by
  obtain ⟨zs, rfl⟩ := h
  rw [List.getElem?_append_left hi]

theorem prefix_getSome {α : Type} {xs ys : List α} (h : xs <+: ys) {i : Nat} {a : α} (hi : xs[i]? = some a) : ys[i]? = some a := by
  have : i < xs.length := (List.getElem?_eq_some_iff.1 hi).1
  rw [prefix_get h this, hi]

theorem prefix_set {α : Type} {xs ys : List α} (h : xs <+: ys) {i : Nat} (hi : xs.length ≤ i) (a : α) : xs <+: ys.set i a := by
  obtain ⟨zs, rfl⟩ := h
  rw [List.set_append_right _ _ hi]
  exact List.prefix_append _ _

theorem prefix_push {α : Type} {xs ys : List α} (h : xs <+: ys) (zs : List α) : xs <+: ys ++ zs := h.trans (List.prefix_append _ _)

theorem mapM_get_some {α : Type} {xs : List α} {l : List Nat} (h : ∀ a ∈ l, a < xs.length) :
    ∃ gs, l.mapM (fun a => xs[a]?) = some gs ∧ gs.length = l.length ∧ ∀ g ∈ gs, ∃ a ∈ l, xs[a]? = some g := by
  induction l with
  | nil => exact ⟨[], rfl, rfl, by simp⟩
  | cons a l ih =>
    obtain ⟨gs, h1, h2, h3⟩ := ih fun b hb => h b (List.mem_cons_of_mem _ hb)
    have ha := List.getElem?_eq_getElem (h a (List.mem_cons_self))
    refine ⟨xs[a]'(h a List.mem_cons_self) :: gs, by simp [List.mapM_cons, ha, h1], by simp [h2], ?_⟩
    intro g hg
    rcases List.mem_cons.1 hg with rfl | hg
    · exact ⟨a, List.mem_cons_self, ha⟩
    · obtain ⟨b, hb, e⟩ := h3 g hg
      exact ⟨b, List.mem_cons_of_mem _ hb, e⟩

theorem mapM_get_congr {α : Type} {xs ys : List α} {l : List Nat} (h : ∀ a ∈ l, ys[a]? = xs[a]?) :
    l.mapM (fun a => ys[a]?) = l.mapM (fun a => xs[a]?) := by
  induction l with
  | nil => rfl
  | cons a l ih =>
    rw [List.mapM_cons, List.mapM_cons, h a List.mem_cons_self, ih fun b hb => h b (List.mem_cons_of_mem _ hb)]

theorem mapM_get_mem {α : Type} {xs : List α} {l : List Nat} {gs : List α} (h : l.mapM (fun a => xs[a]?) = some gs) :
    gs.length = l.length ∧ ∀ a ∈ l, ∃ g ∈ gs, xs[a]? = some g := by
  induction l generalizing gs with
  | nil => simp at h; subst h; simp
  | cons a l ih =>
    rw [List.mapM_cons] at h
    cases ea : xs[a]? with
    | none => rw [ea] at h; simp at h
    | some g =>
      cases el : l.mapM (fun a => xs[a]?) with
      | none => rw [ea, el] at h; simp at h
      | some gs' =>
        rw [ea, el] at h
        simp at h
        subst h
        obtain ⟨h1, h2⟩ := ih el
        refine ⟨by simp [h1], fun b hb => ?_⟩
        rcases List.mem_cons.1 hb with rfl | hb
        · exact ⟨g, List.mem_cons_self, ea⟩
        · obtain ⟨g', hg', e⟩ := h2 b hb
          exact ⟨g', List.mem_cons_of_mem _ hg', e⟩

/-! ### The invariant -/

/-- What is tracked about individuals: `track = false` for nothing. -/
structure SegCond (γ φ : Type) where
  track : Bool
  G : List γ → Prop
  value : List (List γ) → φ → Prop
  shared : Bool
  N : Nat → Prop

/-- The tracked facts about a list of arrays. -/
def SegCond.Arrays (c : SegCond γ φ) (segs : List (List γ)) (l : List Nat) : Prop :=
  (l ≠ [] ∧ c.N l.length) ∧ (∀ a ∈ l, ∀ g, segs[a]? = some g → c.G g) ∧ (c.shared = false → l.Nodup)

/-- The fitness is true. -/
def SegCond.Truth (c : SegCond γ φ) (segs : List (List γ)) (l : List Nat) (f : Option φ) : Prop :=
  ∀ x, f = some x → ∃ gs, l.mapM (fun a => segs[a]?) = some gs ∧ c.value gs x

/-- What is required of the operators. -/
def SegCond.Fits (c : SegCond γ φ) (st : SegStage γ φ ρ) : Prop := 
  c.track = true → StageGood c.G c.value c.shared st ∧ KeepsCount c.N st

/-- Everything from `m0` is unchanged, and a list of arrays all made since. -/
structure Fresh3 (c : SegCond γ φ) (m0 : SegStore γ φ ρ) (l : List Nat) (m : SegStore γ φ ρ) : Prop where
  kept : NothingChanged m0 m
  new : ∀ a ∈ l, m0.segs.length ≤ a ∧ a < m.segs.length
  good : c.track = true → c.Arrays m.segs l

/-- An individual, its list and its arrays all made since `m0`. -/
structure Mine (c : SegCond γ φ) (m0 : SegStore γ φ ρ) (r : Nat) (o : SegObj φ) (l : List Nat) (m : SegStore γ φ ρ) : Prop
    extends Fresh3 c m0 l m where
  newInd : m0.inds.length ≤ r
  ind : m.inds[r]? = some o
  newList : m0.lists.length ≤ o.genome
  list : m.lists[o.genome]? = some l
  truth : c.track = true → c.Truth m.segs l o.fitness

theorem Spec.NothingChanged.refl (m : SegStore γ φ ρ) : NothingChanged m m :=
  ⟨List.prefix_refl _, List.prefix_refl _, List.prefix_refl _⟩

theorem Spec.NothingChanged.trans {m m1 m2 : SegStore γ φ ρ} (h : NothingChanged m m1) (h2 : NothingChanged m1 m2) :
    NothingChanged m m2 := ⟨h.1.trans h2.1, h.2.1.trans h2.2.1, h.2.2.trans h2.2.2⟩

/-! ### Mutating arrays -/

theorem mutateSegment_frame (f : MutFn γ ρ) (a : Nat) (m : SegMem γ ρ) :
    m.segs.length ≤ (mutateSegment f a m).2.segs.length ∧
    (∀ i, i < m.segs.length → i ≠ a → (mutateSegment f a m).2.segs[i]? = m.segs[i]?) ∧
    (∀ P : List (List γ), P <+: m.segs → P.length ≤ a → P <+: (mutateSegment f a m).2.segs) ∧
    ∀ b, (mutateSegment f a m).1 = .ok b → (b = a ∨ m.segs.length ≤ b) ∧ b < (mutateSegment f a m).2.segs.length := by
  unfold mutateSegment
  cases ea : m.segs[a]? with
  | none => exact ⟨Nat.le_refl _, fun _ _ _ => rfl, fun P h _ => h, fun b h => by simp at h⟩
  | some g =>
    have hlt : a < m.segs.length := (List.getElem?_eq_some_iff.1 ea).1
    simp only
    cases (f g m.rng).result with
    | error e =>
      refine ⟨by simp, fun i hi hne => ?_, fun P h hl => prefix_set h hl _, fun b h => by simp at h⟩
      simp [List.getElem?_set, Ne.symm hne]
    | ok o =>
      cases o with
      | none =>
        refine ⟨by simp, fun i hi hne => ?_, fun P h hl => prefix_set h hl _, fun b h => ?_⟩
        · simp [List.getElem?_set, Ne.symm hne]
        · injection h with h; subst h; exact ⟨Or.inl rfl, by simpa using hlt⟩
      | some g' =>
        refine ⟨by simp, fun i hi hne => ?_, fun P h hl => prefix_push (prefix_set h hl _) _, fun b h => ?_⟩
        · simp only
          rw [List.getElem?_append_left (by simpa using hi)]
          simp [List.getElem?_set, Ne.symm hne]
        · injection h with h; subst h; exact ⟨Or.inr (Nat.le_refl _), by simp⟩

theorem mutateSegment_good {G : List γ → Prop} {shared : Bool} {f : MutFn γ ρ} (hf : KeepsGood G shared f) (a : Nat)
    (m : SegMem γ ρ) (ha : ∀ g, m.segs[a]? = some g → G g) (b : Nat) (hb : (mutateSegment f a m).1 = .ok b) :
    (∀ g, (mutateSegment f a m).2.segs[b]? = some g → G g) ∧
    (shared = true → ∀ g, (mutateSegment f a m).2.segs[a]? = some g → G g) := by
  unfold mutateSegment at hb ⊢
  cases ea : m.segs[a]? with
  | none => rw [ea] at hb; simp at hb
  | some g =>
    have hlt : a < m.segs.length := (List.getElem?_eq_some_iff.1 ea).1
    obtain ⟨h1, h2, h3⟩ := hf g m.rng (ha g ea)
    rw [ea] at hb
    simp only at hb ⊢
    cases er : (f g m.rng).result with
    | error e => rw [er] at hb; simp at hb
    | ok o =>
      cases o with
      | none =>
        rw [er] at hb
        simp only at hb ⊢
        injection hb with hb
        subst hb
        refine ⟨fun x hx => ?_, fun hs x hx => ?_⟩ <;> rw [List.getElem?_set_self hlt] at hx <;> injection hx with hx <;>
          subst hx <;> exact h1 er
      | some g' =>
        rw [er] at hb
        simp only at hb ⊢
        injection hb with hb
        subst hb
        refine ⟨fun x hx => ?_, fun hs x hx => ?_⟩
        · rw [List.getElem?_append_right (by simp)] at hx
          simp at hx
          subst hx
          exact h2 _ er
        · rw [List.getElem?_append_left (by simpa using hlt), List.getElem?_set_self hlt] at hx
          injection hx with hx
          subst hx
          exact h3 hs

theorem mutateSegments_frame (fs : List (MutFn γ ρ)) (as : List Nat) (m : SegMem γ ρ) :
    m.segs.length ≤ (mutateSegments fs as m).2.segs.length ∧
    (∀ i, i < m.segs.length → i ∉ as → (mutateSegments fs as m).2.segs[i]? = m.segs[i]?) ∧
    (∀ P : List (List γ), P <+: m.segs → (∀ a ∈ as, P.length ≤ a) → P <+: (mutateSegments fs as m).2.segs) ∧
    ∀ bs, (mutateSegments fs as m).1 = .ok bs →
      (fs.length = as.length → bs.length = as.length) ∧
      ∀ b ∈ bs, (b ∈ as ∨ m.segs.length ≤ b) ∧ b < (mutateSegments fs as m).2.segs.length := by
  induction fs generalizing as m with
  | nil => 
    refine ⟨Nat.le_refl _, fun _ _ _ => rfl, fun P h _ => h, fun bs h => ?_⟩
    simp only [mutateSegments, HM.pure_apply, Except.ok.injEq] at h
    subst h
    simp
  | cons f fs ih =>
    cases as with
    | nil =>
      refine ⟨Nat.le_refl _, fun _ _ _ => rfl, fun P h _ => h, fun bs h => ?_⟩
      simp only [mutateSegments, HM.pure_apply, Except.ok.injEq] at h
      subst h
      simp
    | cons a as =>
      obtain ⟨f1, f2, f3, f4⟩ := mutateSegment_frame f a m
      simp only [mutateSegments, HM.bind_apply, HM.pure_apply]
      rcases e1 : mutateSegment f a m with ⟨r, m1⟩
      rw [e1] at f1 f2 f3 f4
      cases r with
      | error e =>
        refine ⟨f1, fun i hi hn => f2 i hi fun h => hn (h ▸ List.mem_cons_self),
          fun P h hl => f3 P h (hl a List.mem_cons_self), fun bs h => by simp at h⟩
      | ok b =>
        obtain ⟨g1, g2, g3, g4⟩ := ih as m1
        simp only
        rcases e2 : mutateSegments fs as m1 with ⟨r, m2⟩
        rw [e2] at g1 g2 g3 g4
        have fr : m.segs.length ≤ m2.segs.length ∧ (∀ i, i < m.segs.length → i ∉ a :: as → m2.segs[i]? = m.segs[i]?) ∧
            (∀ P : List (List γ), P <+: m.segs → (∀ x ∈ a :: as, P.length ≤ x) → P <+: m2.segs) := by
          refine ⟨Nat.le_trans f1 g1, fun i hi hn => ?_, fun P h hl => ?_⟩
          · simp only [List.mem_cons, not_or] at hn
            exact (g2 i (Nat.lt_of_lt_of_le hi f1) hn.2).trans (f2 i hi hn.1)
          · exact g3 P (f3 P h (hl a List.mem_cons_self)) fun x hx => hl x (List.mem_cons_of_mem _ hx)
        cases r with
        | error e => exact ⟨fr.1, fr.2.1, fr.2.2, fun bs h => by simp at h⟩
        | ok bs' =>
          refine ⟨fr.1, fr.2.1, fr.2.2, fun bs h => ?_⟩
          simp only [Except.ok.injEq] at h
          subst h
          obtain ⟨g5, g6⟩ := g4 bs' rfl
          refine ⟨fun hl => by simpa using g5 (by simpa using hl), fun x hx => ?_⟩
          rcases List.mem_cons.1 hx with rfl | hx
          · obtain ⟨h1, h2⟩ := f4 _ rfl
            exact ⟨h1.imp (fun h => by rw [h]; exact List.mem_cons_self) id, Nat.lt_of_lt_of_le h2 g1⟩
          · obtain ⟨h1, h2⟩ := g6 x hx
            exact ⟨h1.imp (List.mem_cons_of_mem _) (Nat.le_trans f1), h2⟩

theorem mutateSegments_good {G : List γ → Prop} {shared : Bool} (fs : List (MutFn γ ρ)) (hf : ∀ f ∈ fs, KeepsGood G shared f)
    (as : List Nat) (m : SegMem γ ρ) (hlt : ∀ a ∈ as, a < m.segs.length) (hg : ∀ a ∈ as, ∀ g, m.segs[a]? = some g → G g)
    (hnd : shared = false → as.Nodup) (bs : List Nat) (hb : (mutateSegments fs as m).1 = .ok bs) :
    (∀ b ∈ bs, ∀ g, (mutateSegments fs as m).2.segs[b]? = some g → G g) ∧ (shared = false → bs.Nodup) ∧
    (shared = true → ∀ a, a < m.segs.length → (∀ g, m.segs[a]? = some g → G g) →
      ∀ g, (mutateSegments fs as m).2.segs[a]? = some g → G g) := by
  induction fs generalizing as m bs with
  | nil =>
    simp only [mutateSegments, HM.pure_apply, Except.ok.injEq] at hb
    subst hb
    exact ⟨by simp, by simp, fun _ a _ h => h⟩
  | cons f fs ih =>
    cases as with
    | nil =>
      simp only [mutateSegments, HM.pure_apply, Except.ok.injEq] at hb
      subst hb
      exact ⟨by simp, by simp, fun _ a _ h => h⟩
    | cons a as =>
      obtain ⟨f1, f2, f3, f4⟩ := mutateSegment_frame f a m
      have f5 := mutateSegment_good (hf f List.mem_cons_self) a m (hg a List.mem_cons_self)
      simp only [mutateSegments, HM.bind_apply, HM.pure_apply] at hb ⊢
      rcases e1 : mutateSegment f a m with ⟨r, m1⟩
      rw [e1] at f1 f2 f3 f4 f5 hb
      cases r with
      | error e => simp at hb
      | ok b =>
        simp only at hb ⊢
        obtain ⟨b1, b2⟩ := f4 b rfl
        obtain ⟨b3, b4⟩ := f5 b rfl
        obtain ⟨g1, g2, g3, g4⟩ := mutateSegments_frame fs as m1
        have hlt1 : ∀ x ∈ as, x < m1.segs.length := fun x hx => Nat.lt_of_lt_of_le (hlt x (List.mem_cons_of_mem _ hx)) f1
        have hg1 : ∀ x ∈ as, ∀ g, m1.segs[x]? = some g → G g := by
          intro x hx g hxg
          rcases Nat.decEq x a with hne | rfl
          · rw [f2 x (hlt x (List.mem_cons_of_mem _ hx)) hne] at hxg
            exact hg x (List.mem_cons_of_mem _ hx) g hxg
          · cases hs : shared with
            | true => exact b4 hs g hxg
            | false => exact absurd hx (List.nodup_cons.1 (hnd hs)).1
        have hnd1 : shared = false → as.Nodup := fun h => (List.nodup_cons.1 (hnd h)).2
        have hi := ih (fun f hf' => hf f (List.mem_cons_of_mem _ hf')) as m1 hlt1 hg1 hnd1
        rcases e2 : mutateSegments fs as m1 with ⟨r, m2⟩
        rw [e2] at g1 g2 g3 g4 hi hb
        cases r with
        | error e => simp at hb
        | ok bs' =>
          simp only [Except.ok.injEq] at hb
          subst hb
          obtain ⟨i1, i2, i3⟩ := hi bs' rfl
          have hnot : shared = false → b ∉ as := by
            intro hs hmem
            rcases b1 with rfl | hge
            · exact (List.nodup_cons.1 (hnd hs)).1 hmem
            · exact absurd (hlt b (List.mem_cons_of_mem _ hmem)) (by omega)
          refine ⟨fun x hx g hxg => ?_, fun hs => ?_, fun hs x hx hxG g hxg => ?_⟩
          · rcases List.mem_cons.1 hx with rfl | hx
            · cases hs : shared with
              | false => rw [g2 _ b2 (hnot hs)] at hxg; exact b3 g hxg
              | true => exact i3 hs _ b2 b3 g hxg
            · exact i1 x hx g hxg
          · refine List.nodup_cons.2 ⟨fun hmem => ?_, i2 hs⟩
            rcases (g4 bs' rfl).2 b hmem with ⟨h | h, _⟩
            · exact hnot hs h
            · exact absurd b2 (Nat.not_lt.2 h)
          · refine i3 hs x (Nat.lt_of_lt_of_le hx f1) ?_ g hxg
            intro g' hg'
            rcases Nat.decEq x a with hne | rfl
            · rw [f2 x hx hne] at hg'; exact hxG g' hg'
            · exact b4 hs g' hg'

/-! ### Primitive steps -/

section steps
variable {c : SegCond γ φ} {m0 : SegStore γ φ ρ} {r : Nat} {o : SegObj φ} {l : List Nat}

/-- A store with another random state. -/
theorem Mine.rng {m : SegStore γ φ ρ} (h : Mine c m0 r o l m) (s : ρ) : Mine c m0 r o l { m with rng := s } :=
  ⟨⟨h.kept, h.new, h.good⟩, h.newInd, h.ind, h.newList, h.list, h.truth⟩

theorem readSegInd_mine : Ensures (Mine c m0 r o l) (readSegInd r) (fun ind m => ind = ⟨l, o.fitness⟩ ∧ Mine c m0 r o l m)
    (NothingChanged m0) := by
  intro m hm
  simp only [readSegInd, hm.ind, hm.list]
  exact ⟨trivial, hm⟩

theorem segDraw_mine {α : Type} (f : ρ → PyM α × ρ) : Ensures (Mine c m0 r o l) (segDraw f)
    (fun a m => (∃ s, (f s).1 = .ok a) ∧ Mine c m0 r o l m) (NothingChanged m0) := by
  intro m hm
  simp only [segDraw]
  cases e : (f m.rng).1 with
  | error err => exact hm.kept
  | ok a => exact ⟨⟨_, e⟩, hm.rng _⟩

theorem segPick_mine {α : Type} (f : ρ → α × ρ) : Ensures (Mine c m0 r o l) (segPick f)
    (fun _ m => Mine c m0 r o l m) (NothingChanged m0) :=
  (segDraw_mine _).mono (fun _ h => h) (fun _ _ h => h.2) (fun _ h => h)

theorem segPickIf_mine (b : Bool) (f : ρ → Nat × ρ) : Ensures (Mine c m0 r o l) (segPickIf b f)
    (fun _ m => Mine c m0 r o l m) (NothingChanged m0) := by
  cases b with
  | true => exact segPick_mine f
  | false => exact Ensures.ret fun m h => h

/-- What is left of `Mine` when the genome is about to be replaced by the list `g`. -/
structure Pending (c : SegCond γ φ) (m0 : SegStore γ φ ρ) (r : Nat) (o : SegObj φ) (g : List Nat) (m : SegStore γ φ ρ) : Prop
    extends Fresh3 c m0 g m where
  newInd : m0.inds.length ≤ r
  ind : m.inds[r]? = some o
  newList : m0.lists.length ≤ o.genome
  inBounds : o.genome < m.lists.length

theorem putNewList_mine (g : List Nat) : Ensures (Pending c m0 r o g) (putNewList r g)
    (fun _ m => ∃ o' l', Mine c m0 r o' l' m) (NothingChanged m0) := by
  intro m hm
  simp only [putNewList]
  have hr : r < m.inds.length := (List.getElem?_eq_some_iff.1 hm.ind).1
  refine ⟨⟨m.lists.length, none⟩, g, ⟨⟨prefix_set hm.kept.1 hm.newInd _, prefix_push hm.kept.2.1 _, hm.kept.2.2⟩, hm.new,
    hm.good⟩, hm.newInd, ?_, hm.kept.2.1.length_le, by simp, ?_⟩
  · simp [List.getElem?_set_self hr]
  · intro _ x hx; simp at hx

theorem editList_mine (g : List Nat) : Ensures (Pending c m0 r o g) (editList r g)
    (fun _ m => ∃ o' l', Mine c m0 r o' l' m) (NothingChanged m0) := by
  intro m hm
  have hr : r < m.inds.length := (List.getElem?_eq_some_iff.1 hm.ind).1
  simp only [editList, hm.ind]
  refine ⟨⟨o.genome, none⟩, g, ⟨⟨prefix_set hm.kept.1 hm.newInd _, prefix_set hm.kept.2.1 hm.newList _, hm.kept.2.2⟩, hm.new,
    hm.good⟩, hm.newInd, ?_, hm.newList, ?_, ?_⟩
  · simp [List.getElem?_set_self hr]
  · simp [List.getElem?_set_self hm.inBounds]
  · intro _ x hx; simp at hx

theorem Mine.pending {m : SegStore γ φ ρ} (h : Mine c m0 r o l m) {g : List Nat} (hsub : ∀ a ∈ g, a ∈ l)
    (hne : c.track = true → g ≠ [] ∧ c.N g.length) (hnd : c.track = true → c.shared = false → g.Nodup) : Pending c m0 r o g m :=
  ⟨⟨h.kept, fun a ha => h.new a (hsub a ha), fun ht =>
    ⟨hne ht, fun a ha => (h.good ht).2.1 a (hsub a ha), hnd ht⟩⟩, h.newInd, h.ind, h.newList,
    (List.getElem?_eq_some_iff.1 h.list).1⟩

theorem mutateSegments_pending (fs : List (MutFn γ ρ)) (hlen : fs.length = l.length)
    (hf : c.track = true → ∀ f ∈ fs, KeepsGood c.G c.shared f) :
    Ensures (Mine c m0 r o l) (onSegs (mutateSegments fs l)) (fun g m => Pending c m0 r o g m) (NothingChanged m0) := by
  intro m hm
  obtain ⟨f1, f2, f3, f4⟩ := mutateSegments_frame fs l ⟨m.segs, m.rng⟩
  have hk := f3 m0.segs hm.kept.2.2 fun a ha => (hm.new a ha).1
  have hG := fun ht => mutateSegments_good fs (hf ht) l ⟨m.segs, m.rng⟩ (fun a ha => (hm.new a ha).2) (hm.good ht).2.1 (hm.good ht).2.2
  simp only [onSegs]
  rcases e : mutateSegments fs l ⟨m.segs, m.rng⟩ with ⟨res, sm⟩
  rw [e] at f1 f2 f3 f4 hk hG
  cases res with
  | error err => exact ⟨hm.kept.1, hm.kept.2.1, hk⟩
  | ok g =>
    obtain ⟨h1, h2⟩ := f4 g rfl
    refine ⟨⟨⟨hm.kept.1, hm.kept.2.1, hk⟩, fun a ha => ?_, fun ht => ?_⟩, hm.newInd, hm.ind, hm.newList,
      (List.getElem?_eq_some_iff.1 hm.list).1⟩
    · obtain ⟨h3 | h3, h4⟩ := h2 a ha
      · exact ⟨(hm.new a h3).1, h4⟩
      · exact ⟨Nat.le_trans hm.kept.2.2.length_le h3, h4⟩
    · obtain ⟨i1, i2, _⟩ := hG ht g rfl
      refine ⟨⟨fun h => (hm.good ht).1.1 ?_, by rw [h1 hlen]; exact (hm.good ht).1.2⟩, i1, i2⟩
      have := h1 hlen
      rw [h] at this
      exact List.length_eq_zero_iff.1 this.symm

theorem onSegs_bind {α β : Type} (x : HM (SegMem γ ρ) α) (f : α → HM (SegMem γ ρ) β) :
    (onSegs (x >>= f) : HM (SegStore γ φ ρ) β) = onSegs x >>= fun a => onSegs (f a) := by
  funext m
  simp only [onSegs, HM.bind_apply]
  rcases x ⟨m.segs, m.rng⟩ with ⟨res, sm⟩
  cases res <;> rfl

theorem onSegs_pure {α : Type} (a : α) : (onSegs (pure a) : HM (SegStore γ φ ρ) α) = pure a := rfl

theorem onSegs_lift {α : Type} (a : PyM α) : (onSegs (HM.lift a) : HM (SegStore γ φ ρ) α) = HM.lift a := rfl

/-! ### Operators -/

theorem applyAct_mine (mutator : ℚ → MutFn γ ρ) (expected : ℚ)
    (hf : c.track = true → ∀ p, KeepsGood c.G c.shared (mutator p)) :
    Ensures (Mine c m0 r o l) (applyAct mutator expected r) (fun _ m => ∃ o' l', Mine c m0 r o' l' m) (NothingChanged m0) := by
  refine readSegInd_mine.seq fun ind => ?_
  intro m ⟨hi, hm⟩
  subst hi
  revert m hm
  change Ensures (Mine c m0 r o l) _ _ _
  simp only [applyMutation, onSegs_bind, onSegs_lift, onSegs_pure]
  refine Ensures.seq (Q := fun out m => Pending c m0 r o out.genome m) ?_ fun out => putNewList_mine _
  refine Ensures.seq (Q := fun _ m => Mine c m0 r o l m) (Ensures.lift (fun m h => h.kept) fun _ _ _ h => h) fun p => ?_
  refine Ensures.seq (mutateSegments_pending _ (by simp) fun ht f hf' => ?_) fun g => Ensures.ret fun m h => h
  rw [List.eq_of_mem_replicate hf']
  exact hf ht p

theorem segmentedAct_mine (mutators : List (MutFn γ ρ)) (hf : c.track = true → ∀ f ∈ mutators, KeepsGood c.G c.shared f) :
    Ensures (Mine c m0 r o l) (segmentedAct mutators r) (fun _ m => ∃ o' l', Mine c m0 r o' l' m) (NothingChanged m0) := by
  refine readSegInd_mine.seq fun ind => ?_
  intro m ⟨hi, hm⟩
  subst hi
  revert m hm
  change Ensures (Mine c m0 r o l) _ _ _
  by_cases hl : l.length = mutators.length
  · simp only [segmentedMutate, hl, if_true, onSegs_bind, onSegs_pure]
    refine Ensures.seq (Q := fun out m => Pending c m0 r o out.genome m) ?_ fun out => putNewList_mine _
    exact Ensures.seq (mutateSegments_pending _ hl.symm hf) fun g => Ensures.ret fun m h => h
  · simp only [segmentedMutate, hl, if_false]
    exact fun m hm => hm.kept

theorem eachAct_mine (mutator : MutFn γ ρ) (hf : c.track = true → KeepsGood c.G c.shared mutator) :
    Ensures (Mine c m0 r o l) (eachAct mutator r) (fun _ m => ∃ o' l', Mine c m0 r o' l' m) (NothingChanged m0) := by
  refine readSegInd_mine.seq fun ind => ?_
  intro m ⟨hi, hm⟩
  subst hi
  revert m hm
  change Ensures (Mine c m0 r o l) _ _ _
  refine Ensures.seq (mutateSegments_pending _ (by simp) fun ht f hf' => ?_) fun g => putNewList_mine _
  rw [List.eq_of_mem_replicate hf']
  exact hf ht

theorem insertIdx_mem_sub {α : Type} {x a : α} {k : Nat} {l : List α} (h : x ∈ l.insertIdx k a) : x = a ∨ x ∈ l := by
  rcases Nat.lt_or_ge l.length k with hk | hk
  · rw [List.insertIdx_of_length_lt hk] at h; exact Or.inr h
  · exact (List.mem_insertIdx hk).1 h

theorem insertIdx_nodup {a : Nat} {k : Nat} {l : List Nat} (h : l.Nodup) (ha : a ∉ l) : (l.insertIdx k a).Nodup := by
  rcases Nat.lt_or_ge l.length k with hk | hk
  · rw [List.insertIdx_of_length_lt hk]; exact h
  · exact (List.perm_insertIdx a l hk).nodup_iff.2 (List.nodup_cons.2 ⟨ha, h⟩)

theorem insertIdx_ne_nil {a : Nat} {k : Nat} {l : List Nat} (h : l ≠ []) : l.insertIdx k a ≠ [] := by
  intro e
  have := List.length_le_length_insertIdx (l := l) (i := k) (x := a)
  rw [e] at this
  exact h (List.length_eq_zero_iff.1 (by simpa using this))

theorem insertIdx_count {N : Nat → Prop} (hN : ∀ n, N n → N (n + 1)) {a k : Nat} {l : List Nat} (h : N l.length) :
    N (l.insertIdx k a).length := by
  rcases Nat.lt_or_ge l.length k with hk | hk
  · rw [List.insertIdx_of_length_lt hk]; exact h
  · rw [List.length_insertIdx_of_le_length hk]; exact hN _ h

theorem addSegment_pending (append : Bool) (new : List γ) (pos : Nat) (hnew : c.track = true → c.G new)
    (hN : c.track = true → ∀ n, c.N n → c.N (n + 1)) :
    Ensures (Mine c m0 r o l) (onSegs (addSegment true append new pos ⟨l, o.fitness⟩)) (fun out m => Pending c m0 r o out.genome m)
      (NothingChanged m0) := by
  intro m hm
  have hb : m.segs.length ∉ l := fun h => Nat.lt_irrefl _ (hm.new _ h).2
  have hmem : ∀ a ∈ (if append then l ++ [m.segs.length] else l.insertIdx pos m.segs.length), a = m.segs.length ∨ a ∈ l := by
    intro a ha
    cases append with
    | true => simpa [or_comm] using ha
    | false => exact insertIdx_mem_sub (by simpa using ha)
  simp only [onSegs, addSegment, if_true]
  refine ⟨⟨⟨hm.kept.1, hm.kept.2.1, prefix_push hm.kept.2.2 _⟩, fun a ha => ?_, fun ht => ⟨?_, fun a ha g hg => ?_, fun hs => ?_⟩⟩,
    hm.newInd, hm.ind, hm.newList, (List.getElem?_eq_some_iff.1 hm.list).1⟩
  · rcases hmem a ha with rfl | h
    · exact ⟨hm.kept.2.2.length_le, by simp⟩
    · exact ⟨(hm.new a h).1, by have := (hm.new a h).2; simp; omega⟩
  · cases append with
    | true => exact ⟨by simp, by simpa using hN ht _ (hm.good ht).1.2⟩
    | false => exact ⟨by simpa using insertIdx_ne_nil (hm.good ht).1.1, insertIdx_count (hN ht) (hm.good ht).1.2⟩
  · rcases hmem a ha with rfl | h
    · simp at hg; subst hg; exact hnew ht
    · rw [List.getElem?_append_left (hm.new a h).2] at hg
      exact (hm.good ht).2.1 a h g hg
  · have := (hm.good ht).2.2 hs
    cases append with
    | true =>
      simp only [if_true]
      rw [List.nodup_append]
      refine ⟨this, by simp, ?_⟩
      intro a ha b hb' e
      simp at hb'
      subst hb' e
      exact hb ha
    | false => simpa using insertIdx_nodup this hb

theorem addAct_mine (hit : ρ → Bool × ρ) (init : ρ → PyM (List γ) × ρ) (append : Bool) (range : Nat → ρ → Nat × ρ)
    (hf : c.track = true → ∀ s g, (init s).1 = .ok g → c.G g) (hN : c.track = true → ∀ n, c.N n → c.N (n + 1)) :
    Ensures (Mine c m0 r o l) (addAct hit init append range r) (fun _ m => ∃ o' l', Mine c m0 r o' l' m) (NothingChanged m0) := by
  refine readSegInd_mine.seq fun ind => ?_
  intro m ⟨hi, hm⟩
  subst hi
  revert m hm
  change Ensures (Mine c m0 r o l) _ _ _
  refine (segPick_mine hit).seq fun h => ?_
  cases h with
  | false => exact Ensures.ret fun m hm => ⟨o, l, hm⟩
  | true =>
    simp only [if_true]
    refine (segDraw_mine init).seq fun new => ?_
    intro m ⟨⟨s, hs⟩, hm⟩
    revert m hm
    change Ensures (Mine c m0 r o l) _ _ _
    refine (segPickIf_mine _ _).seq fun pos => ?_
    exact (addSegment_pending append new pos (fun ht => hf ht s new hs) hN).seq fun out => editList_mine _

theorem removeAct_mine (hit : ρ → Bool × ρ) (range : Nat → ρ → Nat × ρ)
    (hN : c.track = true → ∀ n, 1 ≤ n → c.N (n + 1) → c.N n) :
    Ensures (Mine c m0 r o l) (removeAct hit range r) (fun _ m => ∃ o' l', Mine c m0 r o' l' m) (NothingChanged m0) := by
  refine readSegInd_mine.seq fun ind => ?_
  intro m ⟨hi, hm⟩
  subst hi
  revert m hm
  change Ensures (Mine c m0 r o l) _ _ _
  simp only
  by_cases hl : l.length > 1
  · simp only [hl, if_true]
    refine (segPick_mine hit).seq fun h => ?_
    cases h with
    | false => exact Ensures.ret fun m hm => ⟨o, l, hm⟩
    | true =>
      simp only [if_true]
      refine (segPick_mine _).seq fun pos => ?_
      refine (editList_mine (o := o) _).mono (fun m hm => ?_) (fun _ _ h => h) (fun _ h => h)
      refine hm.pending ?_ (fun ht => ⟨?_, ?_⟩) (fun ht hs => ?_)
      · intro a ha
        simp only [removeSegment, hl, if_true] at ha
        exact List.mem_of_mem_eraseIdx ha
      · intro e
        simp only [removeSegment, hl, if_true] at e
        have := List.le_length_eraseIdx l pos
        rw [e] at this
        simp at this
        omega
      · simp only [removeSegment, hl, if_true]
        have hc := (hm.good ht).1.2
        rcases Nat.lt_or_ge pos l.length with hp | hp
        · rw [List.length_eraseIdx_of_lt hp]
          exact hN ht _ (by omega) (by rw [Nat.sub_add_cancel (by omega)]; exact hc)
        · rw [List.eraseIdx_of_length_le hp]; exact hc
      · simp only [removeSegment, hl, if_true]
        exact ((hm.good ht).2.2 hs).sublist (List.eraseIdx_sublist _ _)
  · simp only [hl, if_false]
    exact Ensures.ret fun m hm => ⟨o, l, hm⟩

theorem copyAct_mine (hit : ρ → Bool × ρ) (append : Bool) (range : Nat → ρ → Nat × ρ) (hf : c.track = true → c.shared = true)
    (hN : c.track = true → ∀ n, c.N n → c.N (n + 1)) :
    Ensures (Mine c m0 r o l) (copyAct hit append range r) (fun _ m => ∃ o' l', Mine c m0 r o' l' m) (NothingChanged m0) := by
  refine readSegInd_mine.seq fun ind => ?_
  intro m ⟨hi, hm⟩
  subst hi
  revert m hm
  change Ensures (Mine c m0 r o l) _ _ _
  refine (segPick_mine hit).seq fun h => ?_
  cases h with
  | false => exact Ensures.ret fun m hm => ⟨o, l, hm⟩
  | true =>
    simp only [if_true]
    refine (segPickIf_mine _ _).seq fun src => ?_
    refine (segPickIf_mine _ _).seq fun pos => ?_
    refine Ensures.seq (Q := fun out m => Pending c m0 r o out.genome m) ?_ fun out => editList_mine _
    refine Ensures.lift (fun m h => h.kept) fun out m he hm => ?_
    simp only [copySegment, if_true] at he
    by_cases hz : l.length = 0
    · simp [hz] at he
    · simp only [hz, if_false] at he
      cases hg : l[src]? with
      | none => rw [hg] at he; simp at he
      | some a =>
        rw [hg] at he
        simp only [Except.ok.injEq] at he
        subst he
        have ha : a ∈ l := List.mem_of_getElem? hg
        have hne : l ≠ [] := fun h => hz (by simp [h])
        refine hm.pending ?_ (fun ht => ?_) (fun ht hs => by simp [hf ht] at hs)
        · intro b hb
          cases append with
          | true =>
            have hb : b ∈ l ∨ b = a := by simpa using hb
            rcases hb with h | h
            · exact h
            · exact h ▸ ha
          | false => rcases insertIdx_mem_sub (by simpa using hb) with h | h; exacts [h ▸ ha, h]
        · cases append with
          | true => exact ⟨by simp, by simpa using hN ht _ (hm.good ht).1.2⟩
          | false => exact ⟨by simpa using insertIdx_ne_nil hne, insertIdx_count (hN ht) (hm.good ht).1.2⟩

theorem readSegs_mine : Ensures (Mine c m0 r o l) (readSegs l)
    (fun gs m => Mine c m0 r o l m ∧ l.mapM (fun a => m.segs[a]?) = some gs) (NothingChanged m0) := by
  intro m hm
  obtain ⟨gs, h1, -, -⟩ := mapM_get_some fun a ha => (hm.new a ha).2
  simp only [readSegs, h1]
  exact ⟨hm, trivial⟩

theorem evaluateSeg_mine (score : List (List γ) → ρ → PyM φ × ρ)
    (hf : c.track = true → ∀ gs s x, (score gs s).1 = .ok x → c.value gs x) :
    Ensures (Mine c m0 r o l) (evaluateSeg score r)
      (fun _ m => ∃ o' l', Mine c m0 r o' l' m ∧ o'.fitness.isSome) (NothingChanged m0) := by
  refine readSegInd_mine.seq fun ind => ?_
  intro m ⟨hi, hm⟩
  subst hi
  revert m hm
  change Ensures (Mine c m0 r o l) _ _ _
  refine readSegs_mine.seq fun gs => ?_
  intro m ⟨hm, hgs⟩
  have hr : r < m.inds.length := (List.getElem?_eq_some_iff.1 hm.ind).1
  simp only [HM.bind_apply, segDraw, setSegFitness]
  cases e : (score gs m.rng).1 with
  | error err => exact hm.kept
  | ok f =>
    simp only [hm.ind]
    refine ⟨{ o with fitness := some f }, l, ⟨⟨⟨prefix_set hm.kept.1 hm.newInd _, hm.kept.2.1, hm.kept.2.2⟩, hm.new, hm.good⟩, hm.newInd,
      by simp [List.getElem?_set_self hr], hm.newList, hm.list, fun ht x hx => ?_⟩, rfl⟩
    simp only [Option.some.injEq] at hx
    subst hx
    exact ⟨gs, hgs, hf ht gs m.rng f e⟩

/-! ### Cloning -/

/-- The arrays made by `deepcopy`, in terms of what was already copied. -/
theorem deepcopySegs_spec (l : List Nat) (memo : List (Nat × Nat)) (m : SegStore γ φ ρ) (hl : ∀ a ∈ l, a < m.segs.length)
    (lo : Nat) (hlo : lo ≤ m.segs.length)
    (hm : ∀ a b, memo.lookup a = some b → lo ≤ b ∧ b < m.segs.length ∧ m.segs[b]? = m.segs[a]? )
    (hinj : ∀ a a' b, memo.lookup a = some b → memo.lookup a' = some b → a = a') :
    ∃ (cp : Nat → Nat) (m' : SegStore γ φ ρ), deepcopySegs l memo m = (.ok (l.map cp), m') ∧ m'.inds = m.inds ∧ m'.lists = m.lists ∧
      m'.rng = m.rng ∧ m.segs <+: m'.segs ∧ (∀ a b, memo.lookup a = some b → cp a = b) ∧
      (∀ a ∈ l, lo ≤ cp a ∧ cp a < m'.segs.length ∧ m'.segs[cp a]? = m.segs[a]?) ∧
      ∀ a a', (a ∈ l ∨ (memo.lookup a).isSome) → (a' ∈ l ∨ (memo.lookup a').isSome) → cp a = cp a' → a = a' := by
  induction l generalizing memo m with
  | nil =>
    refine ⟨fun a => (memo.lookup a).getD 0, m, rfl, rfl, rfl, rfl, List.prefix_refl _, fun a b h => by simp [h], by simp, ?_⟩
    intro a a' h h' e
    simp only [List.not_mem_nil, false_or, Option.isSome_iff_exists] at h h'
    obtain ⟨b, hb⟩ := h
    obtain ⟨b', hb'⟩ := h'
    simp only [hb, hb', Option.getD_some] at e
    subst e
    exact hinj a a' b hb hb'
  | cons a l ih =>
    have hl' : ∀ x ∈ l, x < m.segs.length := fun x hx => hl x (List.mem_cons_of_mem _ hx)
    unfold deepcopySegs
    cases ea : memo.lookup a with
    | some b =>
      obtain ⟨cp, m', h1, h2, h3, hrng, h4, h5, h6, h7⟩ := ih memo m hl' hlo hm hinj
      refine ⟨cp, m', by simp [h1, h5 a b ea], h2, h3, hrng, h4, h5, ?_, ?_⟩
      · intro x hx
        rcases List.mem_cons.1 hx with rfl | hx
        · obtain ⟨g1, g2, g3⟩ := hm x b ea
          rw [h5 x b ea]
          exact ⟨g1, Nat.lt_of_lt_of_le g2 h4.length_le, (prefix_get h4 g2).trans g3⟩
        · exact h6 x hx
      · intro x y hx hy e
        refine h7 x y ?_ ?_ e
        · rcases hx with hx | hx
          · rcases List.mem_cons.1 hx with rfl | hx
            · exact Or.inr (by simp [ea])
            · exact Or.inl hx
          · exact Or.inr hx
        · rcases hy with hy | hy
          · rcases List.mem_cons.1 hy with rfl | hy
            · exact Or.inr (by simp [ea])
            · exact Or.inl hy
          · exact Or.inr hy
    | none =>
      have ha := hl a List.mem_cons_self
      have hlk : ∀ x, ((a, m.segs.length) :: memo).lookup x = if x = a then some m.segs.length else memo.lookup x := by
        intro x
        by_cases h : x = a
        · subst h; simp [List.lookup_cons]
        · have : (x == a) = false := by simpa using h
          simp [List.lookup_cons, h, this]
      have hpre : m.segs <+: m.segs ++ [m.segs[a]] := List.prefix_append _ _
      obtain ⟨cp, m', h1, h2, h3, hrng, h4, h5, h6, h7⟩ := ih ((a, m.segs.length) :: memo) { m with segs := m.segs ++ [m.segs[a]] }
        (fun x hx => by have := hl' x hx; simp; omega) (by simp; omega)
        (by
          intro x b h
          rw [hlk] at h
          by_cases hx : x = a
          · subst hx
            simp at h
            subst h
            refine ⟨hlo, by simp, ?_⟩
            simp only
            rw [prefix_get hpre ha]
            simp
          · simp only [hx, if_false] at h
            obtain ⟨g1, g2, g3⟩ := hm x b h
            have hx' : x < m.segs.length := by
              by_contra hc
              rw [List.getElem?_eq_none (Nat.not_lt.1 hc), List.getElem?_eq_none_iff] at g3
              omega
            refine ⟨g1, by simp; omega, ?_⟩
            simp only
            rw [prefix_get hpre g2, prefix_get hpre hx', g3])
        (by
          intro x y b hx hy
          rw [hlk] at hx hy
          by_cases h : x = a <;> by_cases h' : y = a
          · rw [h, h']
          · simp only [h, if_true, h', if_false] at hx hy
            injection hx with hx
            have := (hm y b hy).2.1
            omega
          · simp only [h, if_false, h', if_true] at hx hy
            injection hy with hy
            have := (hm x b hx).2.1
            omega
          · simp only [h, if_false, h', if_false] at hx hy
            exact hinj x y b hx hy)
      have hcpa : cp a = m.segs.length := h5 a _ (by rw [hlk]; simp)
      refine ⟨cp, m', ?_, h2, h3, hrng, hpre.trans h4, ?_, ?_, ?_⟩
      · simp only [List.getElem?_eq_getElem ha, h1, List.map_cons, hcpa]
      · intro x b hx
        refine h5 x b ?_
        rw [hlk]
        by_cases h : x = a
        · subst h; rw [ea] at hx; simp at hx
        · simpa [h] using hx
      · intro x hx
        rcases List.mem_cons.1 hx with rfl | hx
        · rw [hcpa]
          have hlt : m.segs.length < m'.segs.length := by
            have := h4.length_le
            simp at this
            omega
          refine ⟨hlo, hlt, ?_⟩
          rw [prefix_get h4 (by simp)]
          simp
        · obtain ⟨g1, g2, g3⟩ := h6 x hx
          exact ⟨g1, g2, g3.trans (prefix_get hpre (hl' x hx))⟩
      · intro x y hx hy e
        refine h7 x y ?_ ?_ e
        · rcases hx with hx | hx
          · rcases List.mem_cons.1 hx with rfl | hx
            · exact Or.inr (by rw [hlk]; simp)
            · exact Or.inl hx
          · refine Or.inr ?_
            rw [hlk]
            by_cases h : x = a <;> simp [h, hx]
        · rcases hy with hy | hy
          · rcases List.mem_cons.1 hy with rfl | hy
            · exact Or.inr (by rw [hlk]; simp)
            · exact Or.inl hy
          · refine Or.inr ?_
            rw [hlk]
            by_cases h : y = a <;> simp [h, hy]

/-- A complete individual somewhere in memory. -/
structure Whole (c : SegCond γ φ) (r : Nat) (o : SegObj φ) (l : List Nat) (m : SegStore γ φ ρ) : Prop where
  ind : m.inds[r]? = some o
  list : m.lists[o.genome]? = some l
  arrays : ∀ a ∈ l, a < m.segs.length
  good : c.track = true → c.Arrays m.segs l
  truth : c.track = true → c.Truth m.segs l o.fitness

theorem Whole.later {m m' : SegStore γ φ ρ} (h : Whole c r o l m) (hk : NothingChanged m m') : Whole c r o l m' := by
  have hg : ∀ a ∈ l, m'.segs[a]? = m.segs[a]? := fun a ha => prefix_get hk.2.2 (h.arrays a ha)
  refine ⟨prefix_getSome hk.1 h.ind, prefix_getSome hk.2.1 h.list, fun a ha => Nat.lt_of_lt_of_le (h.arrays a ha) hk.2.2.length_le,
    fun ht => ⟨(h.good ht).1, fun a ha g hgx => (h.good ht).2.1 a ha g (by rw [← hg a ha]; exact hgx), (h.good ht).2.2⟩,
    fun ht x hx => ?_⟩
  obtain ⟨gs, h1, h2⟩ := h.truth ht x hx
  exact ⟨gs, (mapM_get_congr hg).trans h1, h2⟩

theorem Mine.whole {m : SegStore γ φ ρ} (h : Mine c m0 r o l m) : Whole c r o l m :=
  ⟨h.ind, h.list, fun a ha => (h.new a ha).2, h.good, h.truth⟩

theorem Mine.base {m1 m : SegStore γ φ ρ} (h : Mine c m1 r o l m) (hk : NothingChanged m0 m1) : Mine c m0 r o l m :=
  ⟨⟨hk.trans h.kept, fun a ha => ⟨Nat.le_trans hk.2.2.length_le (h.new a ha).1, (h.new a ha).2⟩, h.good⟩,
    Nat.le_trans hk.1.length_le h.newInd, h.ind, Nat.le_trans hk.2.1.length_le h.newList, h.list, h.truth⟩

theorem Mine.later {m m' : SegStore γ φ ρ} (h : Mine c m0 r o l m) (hk : NothingChanged m m') : Mine c m0 r o l m' :=
  have w := h.whole.later hk
  ⟨⟨h.kept.trans hk, fun a ha => ⟨(h.new a ha).1, w.arrays a ha⟩, w.good⟩, h.newInd, w.ind, h.newList, w.list, w.truth⟩

theorem cloneSeg_ok {m : SegStore γ φ ρ} (h : Whole c r o l m) :
    ∃ (cp : Nat → Nat) (m' : SegStore γ φ ρ), cloneSeg r m = (.ok m.inds.length, m') ∧
      Mine c m m.inds.length ⟨m.lists.length, none⟩ (l.map cp) m' ∧ (∀ a ∈ l, m'.segs[cp a]? = m.segs[a]?) ∧
      (∀ a ∈ l, ∀ a' ∈ l, cp a = cp a' → a = a') ∧ m'.rng = m.rng := by
  obtain ⟨cp, m', h1, h2, h3, hrng, h4, -, h6, h7⟩ := deepcopySegs_spec l [] m h.arrays m.segs.length (Nat.le_refl _) (by simp) (by simp)
  have hcp : ∀ a ∈ l, ∀ a' ∈ l, cp a = cp a' → a = a' := fun a ha a' ha' e => h7 a a' (Or.inl ha) (Or.inl ha') e
  refine ⟨cp, { m' with lists := m'.lists ++ [l.map cp], inds := m'.inds ++ [⟨m'.lists.length, none⟩] }, ?_, ?_,
    fun a ha => (h6 a ha).2.2, hcp, hrng⟩
  · simp only [cloneSeg, HM.bind_apply, readSegInd, h.ind, h.list, h1, newSegInd, h2]
  · refine ⟨⟨⟨?_, ?_, h4⟩, ?_, fun ht => ⟨?_, ?_, ?_⟩⟩, Nat.le_refl _, ?_, ?_, ?_, ?_⟩
    · rw [h2]; exact List.prefix_append _ _
    · rw [h3]; exact List.prefix_append _ _
    · intro b hb
      obtain ⟨a, ha, rfl⟩ := List.mem_map.1 hb
      exact ⟨(h6 a ha).1, (h6 a ha).2.1⟩
    · simpa using (h.good ht).1
    · intro b hb g hg
      obtain ⟨a, ha, rfl⟩ := List.mem_map.1 hb
      rw [(h6 a ha).2.2] at hg
      exact (h.good ht).2.1 a ha g hg
    · intro hs
      exact ((h.good ht).2.2 hs).map_on hcp
    · simp [h2, h3]
    · exact Nat.le_refl _
    · simp [h3]
    · intro _ x hx; simp at hx

theorem act_mine (st : SegStage γ φ ρ) (hf : c.Fits st) :
    Ensures (Mine c m0 r o l) (st.act r) (fun r' m => ∃ o' l', Mine c m0 r' o' l' m) (NothingChanged m0) := by
  cases st with
  | clone =>
    intro m hm
    obtain ⟨cp, m', e, h, -, -, -⟩ := cloneSeg_ok hm.whole
    simp only [SegStage.act, e]
    exact ⟨_, _, h.base hm.kept⟩
  | apply mutator expected => exact (applyAct_mine mutator expected fun ht => (hf ht).1).seq fun _ => Ensures.ret fun m h => h
  | segmented mutators => exact (segmentedAct_mine mutators fun ht => (hf ht).1).seq fun _ => Ensures.ret fun m h => h
  | each mutator => exact (eachAct_mine mutator fun ht => (hf ht).1).seq fun _ => Ensures.ret fun m h => h
  | add hit init append range => exact (addAct_mine hit init append range (fun ht => (hf ht).1) fun ht => (hf ht).2).seq fun _ => Ensures.ret fun m h => h
  | remove hit range => exact (removeAct_mine hit range fun ht => (hf ht).2).seq fun _ => Ensures.ret fun m h => h
  | copy hit append range => exact (copyAct_mine hit append range (fun ht => (hf ht).1) fun ht => (hf ht).2).seq fun _ => Ensures.ret fun m h => h
  | evaluate score =>
    exact (evaluateSeg_mine score fun ht => (hf ht).1).seq fun _ => Ensures.ret fun m ⟨o', l', h, _⟩ => ⟨o', l', h⟩

/-! ### Pipelines -/

/-- Everybody in a population is complete. -/
def AllWhole (c : SegCond γ φ) (pop : List Nat) (m : SegStore γ φ ρ) : Prop := ∀ r ∈ pop, ∃ o l, Whole c r o l m

theorem AllWhole.later {pop : List Nat} {m m' : SegStore γ φ ρ} (h : AllWhole c pop m) (hk : NothingChanged m m') :
    AllWhole c pop m' := fun r hr => let ⟨o, l, w⟩ := h r hr; ⟨o, l, w.later hk⟩

theorem segChain_append (up : HM (SegStore γ φ ρ) Nat) (xs ys : List (SegStage γ φ ρ)) :
    segChain up (xs ++ ys) = segChain (segChain up xs) ys := by
  induction xs generalizing up with
  | nil => rfl
  | cons x xs ih => exact ih _

/-- A `next` that yields a new individual, with `Q`, out of a complete population. -/
def MakesNew (c : SegCond γ φ) (pop : List Nat) (Q : SegObj φ → Prop) (x : HM (SegStore γ φ ρ) Nat) : Prop :=
  ∀ m, AllWhole c pop m → Ensures (fun m' => m' = m) x (fun r m' => ∃ o l, Mine c m r o l m' ∧ Q o) (NothingChanged m)

theorem MakesNew.then {pop : List Nat} {Q Q' : SegObj φ → Prop} {up : HM (SegStore γ φ ρ) Nat} (hup : MakesNew c pop Q up)
    (f : Nat → HM (SegStore γ φ ρ) Nat)
    (hf : ∀ m0 r o l, Ensures (Mine c m0 r o l) (f r) (fun r' m => ∃ o' l', Mine c m0 r' o' l' m ∧ Q' o') (NothingChanged m0)) :
    MakesNew c pop Q' (HM.pep479 (up >>= f)) :=
  fun m hm => ((hup m hm).seq fun r m1 ⟨o, l, h, _⟩ => hf m r o l m1 h).pep

theorem MakesNew.mono {pop : List Nat} {Q : SegObj φ → Prop} {x : HM (SegStore γ φ ρ) Nat} (h : MakesNew c pop Q x) :
    MakesNew c pop (fun _ => True) x :=
  fun m hm => (h m hm).mono (fun _ h => h) (fun _ _ ⟨o, l, h, _⟩ => ⟨o, l, h, trivial⟩) fun _ h => h

theorem segChain_makesNew {pop : List Nat} (stages : List (SegStage γ φ ρ)) (hf : ∀ st ∈ stages, c.Fits st)
    (up : HM (SegStore γ φ ρ) Nat) (hup : MakesNew c pop (fun _ => True) up) : MakesNew c pop (fun _ => True) (segChain up stages) := by
  induction stages generalizing up with
  | nil => exact hup
  | cons st rest ih =>
    refine ih (fun s hs => hf s (List.mem_cons_of_mem _ hs)) _ (hup.then _ fun m0 r o l => ?_)
    exact (act_mine st (hf st List.mem_cons_self)).mono (fun _ h => h) (fun _ _ ⟨o, l, h⟩ => ⟨o, l, h, trivial⟩) fun _ h => h

theorem segSelect_effect (pop : List Nat) (choose : SegStore γ φ ρ → PyM Nat × ρ) (m : SegStore γ φ ρ) :
    (∃ s, (HM.pep479 (segSelect pop choose) m).2 = { m with rng := s }) ∧
    ∀ r, (HM.pep479 (segSelect pop choose) m).1 = .ok r → r ∈ pop := by
  simp only [HM.pep479, segSelect]
  rcases choose m with ⟨res, s⟩
  cases res with
  | error e => cases e <;> exact ⟨⟨s, rfl⟩, fun r h => by simp at h⟩
  | ok i =>
    cases e : pop[i]? with
    | none => simp only [e]; exact ⟨⟨s, rfl⟩, fun r h => by simp at h⟩
    | some r => simp only [e]; exact ⟨⟨s, rfl⟩, fun r' h => by injection h with h; subst h; exact List.mem_of_getElem? e⟩

theorem segSelectClone_makesNew (pop : List Nat) (choose : SegStore γ φ ρ → PyM Nat × ρ) :
    MakesNew c pop (fun _ => True) (HM.pep479 (HM.pep479 (segSelect pop choose) >>= SegStage.clone.act)) := by
  intro m hm
  refine Ensures.pep ?_
  rintro m' rfl
  obtain ⟨⟨s, h1⟩, h2⟩ := segSelect_effect pop choose m'
  rw [HM.bind_apply]
  rcases e : HM.pep479 (segSelect pop choose) m' with ⟨res, m1⟩
  rw [e] at h1 h2
  simp only at h1
  subst h1
  cases res with
  | error err => exact Spec.NothingChanged.refl _
  | ok r =>
    obtain ⟨o, l, w⟩ := hm r (h2 r rfl)
    have w' : Whole c r o l { m' with rng := s } := ⟨w.ind, w.list, w.arrays, w.good, w.truth⟩
    obtain ⟨cp, m2, e2, h, -, -, -⟩ := cloneSeg_ok w'
    simp only [SegStage.act, e2]
    exact ⟨_, _, h.base (Spec.NothingChanged.refl m'), trivial⟩

/-- Everybody in a pool is new, and no two share anything. -/
structure Brood (c : SegCond γ φ) (m0 : SegStore γ φ ρ) (rs : List Nat) (Q : SegObj φ → Prop) (m : SegStore γ φ ρ) : Prop where
  kept : NothingChanged m0 m
  mine : ∀ r ∈ rs, ∃ o l, Mine c m0 r o l m ∧ Q o
  nodup : rs.Nodup
  apart : rs.Pairwise (Apart m)

theorem apart_of_mine {m1 m2 : SegStore γ φ ρ} {r' : Nat} {o' : SegObj φ} {l' : List Nat} (h : Mine c m0 r o l m1)
    (h' : Mine c m1 r' o' l' m2) : Apart m2 r r' ∧ r ≠ r' := by
  have w := h.whole.later h'.kept
  refine ⟨⟨fun oa ob ha hb => ?_, fun la lb ha hb x hx hx' => ?_⟩, ?_⟩
  · rw [w.ind] at ha
    rw [h'.ind] at hb
    injection ha with ha
    injection hb with hb
    subst ha hb
    have := (List.getElem?_eq_some_iff.1 h.list).1
    have := h'.newList
    omega
  · simp only [arraysOf, w.ind, h'.ind, Option.bind_eq_bind, Option.bind_some, w.list, h'.list, Option.some.injEq] at ha hb
    subst ha hb
    have := (h.new x hx).2
    have := (h'.new x hx').1
    omega
  · have := (List.getElem?_eq_some_iff.1 h.ind).1
    have := h'.newInd
    omega

theorem segPool_brood {pop : List Nat} {Q : SegObj φ → Prop} (next : HM (SegStore γ φ ρ) Nat) (hn : MakesNew c pop Q next) (n : Nat) :
    ∀ m, AllWhole c pop m →
      Ensures (fun m' => m' = m) (segPool next n) (fun rs m' => rs.length = n ∧ Brood c m rs Q m') (NothingChanged m) := by
  induction n with
  | zero => exact fun m _ => Ensures.ret fun m' e => e ▸ ⟨rfl, Spec.NothingChanged.refl _, by simp, by simp, by simp⟩
  | succ n ih =>
    intro m hm
    refine (hn m hm).seq fun r => ?_
    rintro m1 ⟨o, l, h, hq⟩
    have h2 := ih m1 (hm.later h.kept) m1 rfl
    rw [HM.bind_apply]
    rcases e2 : segPool next n m1 with ⟨res, m2⟩
    rw [e2] at h2
    cases res with
    | error err => exact h.kept.trans h2
    | ok rs =>
      obtain ⟨hl, hb⟩ := h2
      refine ⟨by simp [hl], h.kept.trans hb.kept, fun x hx => ?_, List.nodup_cons.2 ⟨fun hr => ?_, hb.nodup⟩,
        List.pairwise_cons.2 ⟨fun x hx => ?_, hb.apart⟩⟩
      · rcases List.mem_cons.1 hx with rfl | hx
        · exact ⟨o, l, h.later hb.kept, hq⟩
        · obtain ⟨o', l', h', hq'⟩ := hb.mine x hx
          exact ⟨o', l', h'.base h.kept, hq'⟩
      · obtain ⟨o', l', h', -⟩ := hb.mine r hr
        exact (apart_of_mine h h').2 rfl
      · obtain ⟨o', l', h', -⟩ := hb.mine x hx
        exact (apart_of_mine h h').1

end steps

/-! ### Reading individuals -/

theorem whole_of_proper {G : List γ → Prop} {value : List (List γ) → φ → Prop} {shared : Bool} {m : SegStore γ φ ρ} {r : Nat}
    {N : Nat → Prop} (h : ProperInd G value shared m r) (hN : Counted N m r) : ∃ o l, Whole ⟨true, G, value, shared, N⟩ r o l m := by
  obtain ⟨l, gs, h1, h2, h3, h4, h5, h6⟩ := h
  simp only [arraysOf, Option.bind_eq_bind, Option.bind_eq_some_iff] at h1
  obtain ⟨o, ho, hl⟩ := h1
  simp only [segmentsOf, arraysOf, ho, hl, Option.bind_eq_bind, Option.bind_some] at h2
  obtain ⟨gs', hN1, hN2⟩ := hN
  simp only [segmentsOf, arraysOf, ho, hl, Option.bind_eq_bind, Option.bind_some, h2, Option.some.injEq] at hN1
  subst hN1
  obtain ⟨h7, h8⟩ := mapM_get_mem h2
  refine ⟨o, l, ho, hl, fun a ha => ?_, fun _ => ⟨⟨?_, h7 ▸ hN2⟩, fun a ha g hg => ?_, h5⟩, fun _ x hx => ⟨gs, h2, h6 x ?_⟩⟩
  · obtain ⟨g, -, e⟩ := h8 a ha
    exact (List.getElem?_eq_some_iff.1 e).1
  · rintro rfl
    exact h3 (List.length_eq_zero_iff.1 h7)
  · obtain ⟨g', hg', e⟩ := h8 a ha
    rw [e] at hg
    injection hg with hg
    exact hg ▸ h4 g' hg'
  · simpa [segFitness, ho] using hx

theorem Whole.reads {c : SegCond γ φ} {r : Nat} {o : SegObj φ} {l : List Nat} {m : SegStore γ φ ρ} (h : Whole c r o l m) :
    arraysOf m r = some l ∧ segFitness m r = o.fitness ∧ ∃ gs, segmentsOf m r = some gs ∧ l.mapM (fun a => m.segs[a]?) = some gs := by
  obtain ⟨gs, h1, -, -⟩ := mapM_get_some h.arrays
  exact ⟨by simp [arraysOf, h.ind, h.list], by simp [segFitness, h.ind], gs, by simp [segmentsOf, arraysOf, h.ind, h.list, h1], h1⟩

theorem Whole.counted {G : List γ → Prop} {value : List (List γ) → φ → Prop} {shared : Bool} {m : SegStore γ φ ρ} {r : Nat}
    {o : SegObj φ} {l : List Nat} {N : Nat → Prop} (h : Whole ⟨true, G, value, shared, N⟩ r o l m) : Counted N m r := by
  obtain ⟨h1, h2, gs, h3, h4⟩ := h.reads
  exact ⟨gs, h3, (mapM_get_mem h4).1 ▸ (h.good rfl).1.2⟩

theorem Whole.proper {G : List γ → Prop} {value : List (List γ) → φ → Prop} {shared : Bool} {m : SegStore γ φ ρ} {r : Nat}
    {o : SegObj φ} {l : List Nat} {N : Nat → Prop} (h : Whole ⟨true, G, value, shared, N⟩ r o l m) : ProperInd G value shared m r := by
  obtain ⟨h1, h2, gs, h3, h4⟩ := h.reads
  obtain ⟨gs', g1, g2, g3⟩ := mapM_get_some h.arrays
  rw [h4] at g1
  injection g1 with g1
  subst g1
  refine ⟨l, gs, h1, h3, ?_, fun g hg => ?_, (h.good rfl).2.2, fun f hf => ?_⟩
  · rintro rfl
    exact (h.good rfl).1.1 (List.length_eq_zero_iff.1 g2.symm)
  · obtain ⟨a, ha, e⟩ := g3 g hg
    exact (h.good rfl).2.1 a ha g e
  · rw [h2] at hf
    obtain ⟨gs', e1, e2⟩ := h.truth rfl f hf
    rw [h4] at e1
    injection e1 with e1
    exact e1 ▸ e2

theorem whole_of_segments {m : SegStore γ φ ρ} {r : Nat} (h : (segmentsOf m r).isSome) :
    ∃ o l, Whole ⟨false, fun _ => True, fun _ _ => True, true, fun _ => True⟩ r o l m := by
  obtain ⟨gs, hg⟩ := Option.isSome_iff_exists.1 h
  simp only [segmentsOf, arraysOf, Option.bind_eq_bind, Option.bind_eq_some_iff] at hg
  obtain ⟨l, ⟨o, ho, hl⟩, h2⟩ := hg
  refine ⟨o, l, ho, hl, fun a ha => ?_, by simp, by simp⟩
  obtain ⟨g, -, e⟩ := (mapM_get_mem h2).2 a ha
  exact (List.getElem?_eq_some_iff.1 e).1

/-! ### C114: pipelines -/

theorem segPipeline_brood {c : SegCond γ φ} {Q : SegObj φ → Prop} (pop : List Nat) (choose : SegStore γ φ ρ → PyM Nat × ρ)
    (stages : List (SegStage γ φ ρ)) (h : MakesNew c pop Q (segChain (HM.pep479 (segSelect pop choose)) stages)) (size : Nat)
    (m : SegStore γ φ ρ) (hm : AllWhole c pop m) :
    NothingChanged m (segPipeline pop choose stages size m).2 ∧ ∀ rs, (segPipeline pop choose stages size m).1 = .ok rs →
      rs.length = size ∧ Brood c m rs Q (segPipeline pop choose stages size m).2 := by
  have h1 := segPool_brood _ h size m hm m rfl
  unfold segPipeline
  rcases e : segPool (segChain (HM.pep479 (segSelect pop choose)) stages) size m with ⟨res, m'⟩
  rw [e] at h1
  cases res with
  | error e => exact ⟨h1, fun rs h => by simp at h⟩
  | ok rs => exact ⟨h1.2.kept, fun rs' h => by injection h with h; subst h; exact h1⟩

theorem segChain_evaluated {c : SegCond γ φ} (pop : List Nat) (choose : SegStore γ φ ρ → PyM Nat × ρ)
    (ops : List (SegStage γ φ ρ)) (score : List (List γ) → ρ → PyM φ × ρ) (hf : ∀ st ∈ ops, c.Fits st)
    (hs : c.track = true → ∀ gs s x, (score gs s).1 = .ok x → c.value gs x) :
    MakesNew c pop (fun o => o.fitness.isSome)
      (segChain (HM.pep479 (segSelect pop choose)) (.clone :: (ops ++ [.evaluate score]))) := by
  change MakesNew c pop _ (segChain (HM.pep479 (HM.pep479 (segSelect pop choose) >>= SegStage.clone.act)) (ops ++ [.evaluate score]))
  rw [segChain_append]
  refine MakesNew.then (segChain_makesNew ops hf _ (segSelectClone_makesNew pop choose)) _ fun m0 r o l => ?_
  exact (evaluateSeg_mine score hs).seq fun _ => Ensures.ret fun m h => h

/-- C114: a pipeline that begins with `clone` changes nothing that was there, whatever its operators do and also when it raises. The
individuals it returns are as many as asked for, all new, made of new arrays only, and no two of them share a list or an array. -/
theorem seg_pipeline_isolated (pop : List Nat) (choose : SegStore γ φ ρ → PyM Nat × ρ) (ops : List (SegStage γ φ ρ)) (size : Nat)
    (m : SegStore γ φ ρ) (hpop : ∀ r ∈ pop, (segmentsOf m r).isSome) :
    NothingChanged m (segPipeline pop choose (.clone :: ops) size m).2 ∧
    ∀ rs, (segPipeline pop choose (.clone :: ops) size m).1 = .ok rs →
      rs.length = size ∧ rs.Nodup ∧ rs.Pairwise (Apart (segPipeline pop choose (.clone :: ops) size m).2) ∧
      ∀ r ∈ rs, m.inds.length ≤ r ∧ (segmentsOf (segPipeline pop choose (.clone :: ops) size m).2 r).isSome ∧
        ∀ l, arraysOf (segPipeline pop choose (.clone :: ops) size m).2 r = some l → ∀ a ∈ l, m.segs.length ≤ a := by
  have hfit : ∀ st ∈ ops, (⟨false, fun _ => True, fun _ _ => True, true, fun _ => True⟩ : SegCond γ φ).Fits st := fun st _ h => by simp at h
  obtain ⟨h1, h2⟩ := segPipeline_brood pop choose (.clone :: ops)
    (segChain_makesNew ops hfit _ (segSelectClone_makesNew pop choose)) size m fun r hr => whole_of_segments (hpop r hr)
  refine ⟨h1, fun rs hrs => ?_⟩
  obtain ⟨hl, hb⟩ := h2 rs hrs
  refine ⟨hl, hb.nodup, hb.apart, fun r hr => ?_⟩
  obtain ⟨o, l, h, -⟩ := hb.mine r hr
  obtain ⟨g1, -, gs, g2, -⟩ := h.whole.reads
  refine ⟨h.newInd, by simp [g2], fun l' hl' a ha => ?_⟩
  rw [g1] at hl'
  injection hl' with hl'
  exact (h.new a (hl' ▸ ha)).1

theorem keepsCount_true (st : SegStage γ φ ρ) : KeepsCount (fun _ => True) st := by
  cases st <;> simp [KeepsCount]

theorem counted_true {G : List γ → Prop} {value : List (List γ) → φ → Prop} {shared : Bool} {m : SegStore γ φ ρ} {r : Nat}
    (h : ProperInd G value shared m r) : Counted (fun _ => True) m r := by
  obtain ⟨l, gs, -, h2, -⟩ := h
  exact ⟨gs, h2, trivial⟩

theorem seg_pipeline_counted (G : List γ → Prop) (value : List (List γ) → φ → Prop) (shared : Bool) (pop : List Nat)
    (choose : SegStore γ φ ρ → PyM Nat × ρ) (ops : List (SegStage γ φ ρ)) (score : List (List γ) → ρ → PyM φ × ρ)
    (N : Nat → Prop)
    (hops : ∀ st ∈ ops, StageGood G value shared st ∧ KeepsCount N st) (hscore : ∀ gs s x, (score gs s).1 = .ok x → value gs x) (size : Nat)
    (m : SegStore γ φ ρ) (hpop : ∀ r ∈ pop, ProperInd G value shared m r ∧ Counted N m r) (rs : List Nat)
    (hrs : (segPipeline pop choose (.clone :: (ops ++ [.evaluate score])) size m).1 = .ok rs) :
    ∀ r ∈ rs, ProperInd G value shared (segPipeline pop choose (.clone :: (ops ++ [.evaluate score])) size m).2 r ∧
      Counted N (segPipeline pop choose (.clone :: (ops ++ [.evaluate score])) size m).2 r ∧
      (segFitness (segPipeline pop choose (.clone :: (ops ++ [.evaluate score])) size m).2 r).isSome := by
  obtain ⟨-, h2⟩ := segPipeline_brood (c := ⟨true, G, value, shared, N⟩) pop choose _
    (segChain_evaluated pop choose ops score (fun st hs _ => hops st hs) fun _ => hscore) size m fun r hr => whole_of_proper (hpop r hr).1 (hpop r hr).2
  intro r hr
  obtain ⟨o, l, h, hq⟩ := (h2 rs hrs).2.mine r hr
  exact ⟨h.whole.proper, h.whole.counted, by rw [h.whole.reads.2.1]; exact hq⟩

/-- C114: a pipeline that begins with `clone` and ends with `evaluate` turns proper parents into proper offspring: good segments, at
least one, a fitness that belongs to the genome as it is now. -/
theorem seg_pipeline_proper (G : List γ → Prop) (value : List (List γ) → φ → Prop) (shared : Bool) (pop : List Nat)
    (choose : SegStore γ φ ρ → PyM Nat × ρ) (ops : List (SegStage γ φ ρ)) (score : List (List γ) → ρ → PyM φ × ρ)
    (hops : ∀ st ∈ ops, StageGood G value shared st) (hscore : ∀ gs s x, (score gs s).1 = .ok x → value gs x) (size : Nat)
    (m : SegStore γ φ ρ) (hpop : ∀ r ∈ pop, ProperInd G value shared m r) (rs : List Nat)
    (hrs : (segPipeline pop choose (.clone :: (ops ++ [.evaluate score])) size m).1 = .ok rs) :
    ∀ r ∈ rs, ProperInd G value shared (segPipeline pop choose (.clone :: (ops ++ [.evaluate score])) size m).2 r ∧
      (segFitness (segPipeline pop choose (.clone :: (ops ++ [.evaluate score])) size m).2 r).isSome := by
  intro r hr
  obtain ⟨h1, -, h2⟩ := seg_pipeline_counted G value shared pop choose ops score (fun _ => True) (fun st hs => ⟨hops st hs, keepsCount_true st⟩)
    hscore size m (fun r hr => ⟨hpop r hr, counted_true (hpop r hr)⟩) rs hrs r hr
  exact ⟨h1, h2⟩

/-- C114: a clone has equal segments in arrays of its own, no fitness, and shares arrays between its segments exactly where the
original does. -/
theorem seg_clone_keeps_sharing (m : SegStore γ φ ρ) (r : Nat) (l : List Nat) (gs : List (List γ)) (hl : arraysOf m r = some l)
    (hgs : segmentsOf m r = some gs) :
    ∃ k l', (cloneSeg r m).1 = .ok k ∧ m.inds.length ≤ k ∧ NothingChanged m (cloneSeg r m).2 ∧
      segmentsOf (cloneSeg r m).2 k = some gs ∧ segFitness (cloneSeg r m).2 k = none ∧ arraysOf (cloneSeg r m).2 k = some l' ∧
      l'.length = l.length ∧ (∀ a ∈ l', m.segs.length ≤ a) ∧
      ∀ i j, i < l.length → j < l.length → (l'[i]? = l'[j]? ↔ l[i]? = l[j]?) := by
  obtain ⟨o, l2, w⟩ := whole_of_segments (m := m) (r := r) (by simp [hgs])
  obtain ⟨h1, -, gs2, h3, h4⟩ := w.reads
  rw [hl] at h1
  rw [hgs] at h3
  injection h1 with h1
  injection h3 with h3
  subst h1 h3
  obtain ⟨cp, m', e, h, hc, hi, -⟩ := cloneSeg_ok w
  obtain ⟨g1, g2, gs', g3, g4⟩ := h.whole.reads
  rw [e]
  refine ⟨_, l.map cp, rfl, Nat.le_refl _, h.kept, ?_, g2, g1, by simp, fun a ha => (h.new a ha).1, fun i j hil hjl => ?_⟩
  · have : (l.map cp).mapM (fun a => m'.segs[a]?) = l.mapM (fun a => m.segs[a]?) := by
      clear h g1 g4 hl hgs w h4 hi
      induction l with
      | nil => rfl
      | cons a l ih =>
        rw [List.map_cons, List.mapM_cons, List.mapM_cons, hc a List.mem_cons_self, ih fun b hb => hc b (List.mem_cons_of_mem _ hb)]
    rw [this, h4] at g4
    rw [g3, ← g4]
  · simp only [List.getElem?_map, List.getElem?_eq_getElem hil, List.getElem?_eq_getElem hjl, Option.map_some, Option.some.injEq]
    exact ⟨fun h => hi _ (List.getElem_mem _) _ (List.getElem_mem _) h, fun h => by rw [h]⟩

/-! ### C114: operators on values -/

theorem mapM_get_iff {α : Type} {xs : List α} {l : List Nat} {gs : List α} :
    l.mapM (fun a => xs[a]?) = some gs ↔ l.map (fun a => xs[a]?) = gs.map some := by
  induction l generalizing gs with
  | nil => cases gs <;> simp
  | cons a l ih =>
    rw [List.mapM_cons]
    cases gs with
    | nil =>
      cases ea : xs[a]? with
      | none => simp
      | some g => cases el : l.mapM (fun a => xs[a]?) <;> simp
    | cons g gs =>
      simp only [List.map_cons, List.cons.injEq, ← ih]
      cases ea : xs[a]? with
      | none => simp
      | some g' => cases el : l.mapM (fun a => xs[a]?) <;> simp

theorem mutateSegments_byValue (fs : List (MutFn γ ρ)) (as : List Nat) (gs : List (List γ)) (hnd : as.Nodup) (m : SegMem γ ρ)
    (hg : as.map (fun a => m.segs[a]?) = gs.map some) :
    (mutateSegments fs as m).2.rng = (mutateAll fs gs m.rng).2 ∧
    match (mutateAll fs gs m.rng).1 with
    | .error e => (mutateSegments fs as m).1 = .error e
    | .ok gs' => ∃ as', (mutateSegments fs as m).1 = .ok as' ∧
        as'.map (fun a => (mutateSegments fs as m).2.segs[a]?) = gs'.map some := by
  induction fs generalizing as gs m with
  | nil => exact ⟨rfl, [], rfl, rfl⟩
  | cons f fs ih =>
    cases as with
    | nil =>
      cases gs with
      | nil => exact ⟨rfl, [], rfl, rfl⟩
      | cons => simp at hg
    | cons a as =>
      cases gs with
      | nil => simp at hg
      | cons g gs =>
        simp only [List.map_cons, List.cons.injEq] at hg
        obtain ⟨hga, hg⟩ := hg
        obtain ⟨hna, hnd⟩ := List.nodup_cons.1 hnd
        have hlt : a < m.segs.length := (List.getElem?_eq_some_iff.1 hga).1
        have hin : ∀ b ∈ as, b < m.segs.length := by
          intro b hb
          obtain ⟨x, -, e⟩ := (mapM_get_mem (mapM_get_iff.2 hg)).2 b hb
          exact (List.getElem?_eq_some_iff.1 e).1
        obtain ⟨f1, f2, f3, f4⟩ := mutateSegment_frame f a m
        have hres : mutateSegment f a m = match (f g m.rng).result with
            | .error e => (.error e, ⟨m.segs.set a (f g m.rng).left, (f g m.rng).rng⟩)
            | .ok none => (.ok a, ⟨m.segs.set a (f g m.rng).left, (f g m.rng).rng⟩)
            | .ok (some g') => (.ok m.segs.length, ⟨m.segs.set a (f g m.rng).left ++ [g'], (f g m.rng).rng⟩) := by
          simp only [mutateSegment, hga]
          rcases (f g m.rng).result with e | (_ | g') <;> rfl
        simp only [mutateSegments, HM.bind_apply, HM.pure_apply, mutateAll]
        cases er : (f g m.rng).result with
        | error e => rw [hres, er]; exact ⟨rfl, rfl⟩
        | ok new =>
          obtain ⟨b, m1, e1, hrng, hb⟩ : ∃ b m1, mutateSegment f a m = (.ok b, m1) ∧ m1.rng = (f g m.rng).rng ∧
              m1.segs[b]? = some (new.getD (f g m.rng).left) := by
            rw [hres, er]
            cases new with
            | none => exact ⟨_, _, rfl, rfl, by simp [List.getElem?_set_self hlt]⟩
            | some g' => exact ⟨_, _, rfl, rfl, by simp⟩
          rw [e1] at f1 f2 f3 f4
          simp only at f1 f2
          obtain ⟨b1, b2⟩ := f4 b rfl
          have hg1 : as.map (fun x => m1.segs[x]?) = gs.map some := by
            rw [← hg]
            refine List.map_congr_left fun x hx => f2 x (hin x hx) fun h => hna (h ▸ hx)
          obtain ⟨i1, i2⟩ := ih as gs hnd m1 hg1
          obtain ⟨g1, g2, g3, g4⟩ := mutateSegments_frame fs as m1
          rw [hrng] at i1 i2
          rw [e1]
          simp only
          rcases e2 : mutateSegments fs as m1 with ⟨res, m2⟩
          rw [e2] at i1 i2 g2
          rcases e3 : mutateAll fs gs (f g m.rng).rng with ⟨vres, s2⟩
          rw [e3] at i1 i2
          simp only at i1 i2 g2
          cases vres with
          | error e => simp only at i2 ⊢; subst i2; exact ⟨i1, rfl⟩
          | ok gs' =>
            obtain ⟨as', j1, j2⟩ := i2
            subst j1
            refine ⟨i1, b :: as', rfl, ?_⟩
            simp only [List.map_cons, List.cons.injEq]
            refine ⟨?_, j2⟩
            rw [g2 b b2, hb]
            intro hmem
            rcases b1 with rfl | hge
            · exact hna hmem
            · exact absurd (hin b hmem) (by omega)

/-- The individual at `r` seen as a value. -/
structure Seen (m : SegStore γ φ ρ) (r : Nat) (o : SegObj φ) (l : List Nat) (gs : List (List γ)) : Prop where
  ind : m.inds[r]? = some o
  list : m.lists[o.genome]? = some l
  segs : l.map (fun a => m.segs[a]?) = gs.map some

theorem Seen.len {m : SegStore γ φ ρ} {r : Nat} {o : SegObj φ} {l : List Nat} {gs : List (List γ)} (h : Seen m r o l gs) :
    l.length = gs.length := by simpa using congrArg List.length h.segs

theorem seen_iff {m : SegStore γ φ ρ} {r : Nat} {gs : List (List γ)} :
    segmentsOf m r = some gs ↔ ∃ o l, Seen m r o l gs := by
  simp only [segmentsOf, arraysOf, Option.bind_eq_bind, Option.bind_eq_some_iff]
  constructor
  · rintro ⟨l, ⟨o, ho, hl⟩, h⟩
    exact ⟨o, l, ho, hl, mapM_get_iff.1 h⟩
  · rintro ⟨o, l, ho, hl, h⟩
    exact ⟨l, ⟨o, ho, hl⟩, mapM_get_iff.2 h⟩

/-- The outcome on memory is that on values. -/
def Agrees (v : PyM (List (List γ) × Option φ) × ρ) (x : PyM Nat × SegStore γ φ ρ) : Prop :=
  x.2.rng = v.2 ∧ match v.1 with
    | .error e => x.1 = .error e
    | .ok (gs, f) => ∃ r, x.1 = .ok r ∧ segmentsOf x.2 r = some gs ∧ segFitness x.2 r = f

theorem putNewList_seen {m : SegStore γ φ ρ} {r : Nat} (hr : r < m.inds.length) {l : List Nat} {gs : List (List γ)}
    (h : l.map (fun a => m.segs[a]?) = gs.map some) :
    ∃ m', putNewList r l m = (.ok (), m') ∧ m'.rng = m.rng ∧ segmentsOf m' r = some gs ∧ segFitness m' r = none :=
  ⟨_, rfl, rfl, seen_iff.2 ⟨⟨m.lists.length, none⟩, l, by simp [List.getElem?_set_self hr], by simp, h⟩,
    by simp [segFitness, List.getElem?_set_self hr]⟩

theorem editList_seen {m : SegStore γ φ ρ} {r : Nat} {o : SegObj φ} (ho : m.inds[r]? = some o) (hl : o.genome < m.lists.length)
    {l : List Nat} {gs : List (List γ)} (h : l.map (fun a => m.segs[a]?) = gs.map some) :
    ∃ m', editList r l m = (.ok (), m') ∧ m'.rng = m.rng ∧ segmentsOf m' r = some gs ∧ segFitness m' r = none := by
  have hr : r < m.inds.length := (List.getElem?_eq_some_iff.1 ho).1
  have e : editList r l m = (.ok (), { m with lists := m.lists.set o.genome l, inds := m.inds.set r ⟨o.genome, none⟩ }) := by
    simp only [editList, ho]
  refine ⟨_, e, rfl, seen_iff.2 ⟨⟨o.genome, none⟩, l, by simp [List.getElem?_set_self hr],
    by simp [List.getElem?_set_self hl], h⟩, by simp [segFitness, List.getElem?_set_self hr]⟩

theorem segDraw_apply {α : Type} (f : ρ → PyM α × ρ) (m : SegStore γ φ ρ) :
    segDraw f m = ((f m.rng).1, { m with rng := (f m.rng).2 }) := rfl

theorem segPick_apply {α : Type} (f : ρ → α × ρ) (m : SegStore γ φ ρ) :
    segPick f m = (.ok (f m.rng).1, { m with rng := (f m.rng).2 }) := rfl

theorem segPickIf_true (f : ρ → Nat × ρ) (m : SegStore γ φ ρ) :
    segPickIf true f m = (.ok (f m.rng).1, { m with rng := (f m.rng).2 }) := rfl

theorem segPickIf_false (f : ρ → Nat × ρ) (m : SegStore γ φ ρ) : segPickIf false f m = (.ok 0, m) := rfl

theorem addSegment_onSegs (append : Bool) (new : List γ) (pos : Nat) (ind : SegInd φ) (m : SegStore γ φ ρ) :
    onSegs (addSegment true append new pos ind) m =
      (.ok ⟨if append then ind.genome ++ [m.segs.length] else ind.genome.insertIdx pos m.segs.length, none⟩,
        { m with segs := m.segs ++ [new] }) := rfl

/-- C114: what each operator does to an individual, seen from outside: segments and fitness afterwards, or the exception, are those of
the operator on values. Mutation needs segments that are separate arrays. -/
theorem seg_act_by_value (st : SegStage γ φ ρ) (m : SegStore γ φ ρ) (r : Nat) (l : List Nat) (gs : List (List γ))
    (hl : arraysOf m r = some l) (hgs : segmentsOf m r = some gs)
    (hnd : (∃ mu e, st = .apply mu e) ∨ (∃ mus, st = .segmented mus) ∨ (∃ mu, st = .each mu) → l.Nodup) :
    (st.act r m).2.rng = (byValue st (gs, segFitness m r) m.rng).2 ∧
    match (byValue st (gs, segFitness m r) m.rng).1 with
    | .error e => (st.act r m).1 = .error e
    | .ok (gs', f') => ∃ r', (st.act r m).1 = .ok r' ∧ segmentsOf (st.act r m).2 r' = some gs' ∧ segFitness (st.act r m).2 r' = f' := by
  obtain ⟨o, l2, h⟩ := seen_iff.1 hgs
  have hl2 : l2 = l := by simpa [arraysOf, h.ind, h.list] using hl
  subst hl2
  have hfit : segFitness m r = o.fitness := by simp [segFitness, h.ind]
  have hr : r < m.inds.length := (List.getElem?_eq_some_iff.1 h.ind).1
  have hlo : o.genome < m.lists.length := (List.getElem?_eq_some_iff.1 h.list).1
  have hlen := h.len
  have hread : readSegInd r m = (.ok ⟨l2, o.fitness⟩, m) := by simp only [readSegInd, h.ind, h.list]
  change Agrees _ _
  rw [hfit]
  cases st with
  | clone =>
    obtain ⟨k, l', h1, -, -, h4, h5, -⟩ := seg_clone_keeps_sharing m r l2 gs hl hgs
    refine ⟨?_, k, h1, h4, h5⟩
    obtain ⟨o', l', w⟩ := whole_of_segments (m := m) (r := r) (by simp [hgs])
    obtain ⟨cp, m', e, -, -, -, hrng⟩ := cloneSeg_ok w
    simp only [SegStage.act, e, hrng, byValue]
  | apply mu e =>
    have hnd := hnd (Or.inl ⟨mu, e, rfl⟩)
    simp only [SegStage.act, applyAct, HM.bind_apply, hread, applyMutation, onSegs_bind, onSegs_lift, onSegs_pure, HM.lift_apply,
      computeExpectedProbability, HM.pure_apply, byValue, hlen]
    by_cases hz : gs.length = 0
    · simp only [hz, if_true]; exact ⟨rfl, rfl⟩
    · simp only [hz, if_false]
      obtain ⟨i1, i2⟩ := mutateSegments_byValue (List.replicate gs.length (mu (1 / (gs.length : ℚ) * e))) l2 gs hnd ⟨m.segs, m.rng⟩ h.segs
      simp only [onSegs]
      rcases e2 : mutateSegments (List.replicate gs.length (mu (1 / (gs.length : ℚ) * e))) l2 ⟨m.segs, m.rng⟩ with ⟨res, sm⟩
      rw [e2] at i1 i2
      rcases e3 : mutateAll (List.replicate gs.length (mu (1 / (gs.length : ℚ) * e))) gs m.rng with ⟨vres, s2⟩
      simp only [e3] at i1 i2
      cases vres with
      | error err => simp only at i2; subst i2; exact ⟨i1, rfl⟩
      | ok gs' =>
        obtain ⟨as', j1, j2⟩ := i2
        subst j1
        obtain ⟨m', p1, p2, p3, p4⟩ := putNewList_seen (m := { m with segs := sm.segs, rng := sm.rng }) (r := r) hr j2
        simp only [p1]
        exact ⟨p2.trans i1, r, rfl, p3, p4⟩
  | segmented mus =>
    have hnd := hnd (Or.inr (Or.inl ⟨mus, rfl⟩))
    simp only [SegStage.act, segmentedAct, HM.bind_apply, hread, segmentedMutate, HM.pure_apply, byValue, hlen]
    by_cases hz : gs.length = mus.length
    · simp only [hz, if_true, onSegs_bind, onSegs_pure, HM.bind_apply]
      obtain ⟨i1, i2⟩ := mutateSegments_byValue mus l2 gs hnd ⟨m.segs, m.rng⟩ h.segs
      simp only [onSegs]
      rcases e2 : mutateSegments mus l2 ⟨m.segs, m.rng⟩ with ⟨res, sm⟩
      rw [e2] at i1 i2
      rcases e3 : mutateAll mus gs m.rng with ⟨vres, s2⟩
      simp only [e3] at i1 i2
      cases vres with
      | error err => simp only at i2; subst i2; exact ⟨i1, rfl⟩
      | ok gs' =>
        obtain ⟨as', j1, j2⟩ := i2
        subst j1
        obtain ⟨m', p1, p2, p3, p4⟩ := putNewList_seen (m := { m with segs := sm.segs, rng := sm.rng }) (r := r) hr j2
        simp only [HM.pure_apply, p1]
        exact ⟨p2.trans i1, r, rfl, p3, p4⟩
    · simp only [hz, if_false]; exact ⟨rfl, rfl⟩
  | each mu =>
    have hnd := hnd (Or.inr (Or.inr ⟨mu, rfl⟩))
    simp only [SegStage.act, eachAct, HM.bind_apply, hread, HM.pure_apply, byValue, hlen]
    obtain ⟨i1, i2⟩ := mutateSegments_byValue (List.replicate gs.length mu) l2 gs hnd ⟨m.segs, m.rng⟩ h.segs
    simp only [onSegs]
    rcases e2 : mutateSegments (List.replicate gs.length mu) l2 ⟨m.segs, m.rng⟩ with ⟨res, sm⟩
    rw [e2] at i1 i2
    rcases e3 : mutateAll (List.replicate gs.length mu) gs m.rng with ⟨vres, s2⟩
    simp only [e3] at i1 i2
    cases vres with
    | error err => simp only at i2; subst i2; exact ⟨i1, rfl⟩
    | ok gs' =>
      obtain ⟨as', j1, j2⟩ := i2
      subst j1
      obtain ⟨m', p1, p2, p3, p4⟩ := putNewList_seen (m := { m with segs := sm.segs, rng := sm.rng }) (r := r) hr j2
      simp only [p1]
      exact ⟨p2.trans i1, r, rfl, p3, p4⟩
  | add hit init append range =>
    simp only [SegStage.act, addAct, HM.bind_apply, hread, segPick_apply, byValue]
    cases hh : (hit m.rng).1 with
    | false =>
      simp only [Bool.false_eq_true, if_false, HM.pure_apply]
      exact ⟨rfl, r, rfl, seen_iff.2 ⟨o, l2, h.ind, h.list, h.segs⟩, hfit⟩
    | true =>
      simp only [if_true, HM.bind_apply, segDraw_apply]
      rcases e1 : init (hit m.rng).2 with ⟨res, s1⟩
      cases res with
      | error err => exact ⟨rfl, rfl⟩
      | ok new =>
        have hs1 : l2.map (fun a => (m.segs ++ [new])[a]?) = gs.map some := by
          rw [← h.segs]
          refine List.map_congr_left fun a ha => ?_
          obtain ⟨x, -, e⟩ := (mapM_get_mem (mapM_get_iff.2 h.segs)).2 a ha
          exact List.getElem?_append_left (List.getElem?_eq_some_iff.1 e).1
        cases append with
        | true =>
          simp only [Bool.not_true, segPickIf_false, addSegment_onSegs, if_true]
          obtain ⟨m', p1, p2, p3, p4⟩ := editList_seen (m := { m with segs := m.segs ++ [new], rng := s1 }) (r := r) (o := o) h.ind hlo
            (l := l2 ++ [m.segs.length]) (gs := gs ++ [new]) (by simpa using hs1)
          simp only [p1]
          exact ⟨p2, r, rfl, p3, p4⟩
        | false =>
          simp only [Bool.not_false, segPickIf_true, Bool.false_eq_true, if_false, addSegment_onSegs, hlen]
          obtain ⟨m', p1, p2, p3, p4⟩ := editList_seen
            (m := { m with segs := m.segs ++ [new], rng := (range (gs.length + 1) s1).2 }) (r := r) (o := o) h.ind hlo
            (l := l2.insertIdx (range (gs.length + 1) s1).1 m.segs.length) (gs := gs.insertIdx (range (gs.length + 1) s1).1 new)
            (by simp only [List.map_insertIdx]; rw [hs1]; simp)
          simp only [p1]
          exact ⟨p2, r, rfl, p3, p4⟩
  | remove hit range =>
    simp only [SegStage.act, removeAct, HM.bind_apply, hread, byValue, hlen]
    by_cases hz : gs.length ≤ 1
    · have hz' : ¬ gs.length > 1 := by omega
      simp only [hz, hz', if_true, if_false, HM.pure_apply]
      exact ⟨rfl, r, rfl, hgs, hfit⟩
    · have hz' : gs.length > 1 := by omega
      simp only [hz, hz', if_true, if_false, HM.bind_apply, segPick_apply]
      cases hh : (hit m.rng).1 with
      | false =>
        simp only [Bool.false_eq_true, if_false, HM.pure_apply]
        exact ⟨rfl, r, rfl, seen_iff.2 ⟨o, l2, h.ind, h.list, h.segs⟩, hfit⟩
      | true =>
        have hl1 : l2.length > 1 := by omega
        simp only [if_true, HM.bind_apply, segPick_apply, removeSegment, hl1]
        obtain ⟨m', p1, p2, p3, p4⟩ := editList_seen (m := { m with rng := (range gs.length (hit m.rng).2).2 }) (r := r) (o := o) h.ind hlo
            (l := l2.eraseIdx (range gs.length (hit m.rng).2).1) (gs := gs.eraseIdx (range gs.length (hit m.rng).2).1)
            (by simp only [← List.eraseIdx_map]; rw [h.segs])
        simp only [p1]
        exact ⟨p2, r, rfl, p3, p4⟩
  | copy hit append range =>
    simp only [SegStage.act, copyAct, HM.bind_apply, hread, segPick_apply, byValue]
    cases hh : (hit m.rng).1 with
    | false =>
      simp only [Bool.false_eq_true, if_false, HM.pure_apply]
      exact ⟨rfl, r, rfl, seen_iff.2 ⟨o, l2, h.ind, h.list, h.segs⟩, hfit⟩
    | true =>
      simp only [if_true, HM.bind_apply]
      by_cases hz : gs.length = 0
      · have : l2 = [] := List.length_eq_zero_iff.1 (hlen.trans hz)
        subst this
        simp only [hz, if_true, List.length_nil]
        cases append <;> exact ⟨rfl, rfl⟩
      · have hb : (gs.length != 0) = true := by simpa using hz
        have hsrc : (l2[(range gs.length (hit m.rng).2).1]?).map (fun a => m.segs[a]?) =
            (gs[(range gs.length (hit m.rng).2).1]?).map some := by
          rw [← List.getElem?_map, ← List.getElem?_map, h.segs]
        simp only [hlen, hz, hb, if_false, segPickIf_true, HM.lift_apply, copySegment, if_true]
        cases e1 : l2[(range gs.length (hit m.rng).2).1]? with
        | none =>
          rw [e1] at hsrc
          have e2 : gs[(range gs.length (hit m.rng).2).1]? = none := by simpa using hsrc.symm
          simp only [Option.isSome_none, Bool.and_false, segPickIf_false, e2, e1]
          exact ⟨rfl, rfl⟩
        | some a =>
          rw [e1] at hsrc
          cases e2 : gs[(range gs.length (hit m.rng).2).1]? with
          | none => rw [e2] at hsrc; simp at hsrc
          | some g =>
            rw [e2] at hsrc
            have ha : m.segs[a]? = some g := by simpa using hsrc
            cases append with
            | true =>
              simp only [Bool.not_true, Bool.false_and, segPickIf_false, e1, if_true]
              obtain ⟨m', p1, p2, p3, p4⟩ := editList_seen (m := { m with rng := (range gs.length (hit m.rng).2).2 }) (r := r) (o := o) h.ind hlo
                (l := l2 ++ [a]) (gs := gs ++ [g]) (by simp only [List.map_append, h.segs]; simp [ha])
              simp only [p1]
              exact ⟨p2, r, rfl, p3, p4⟩
            | false =>
              simp only [Bool.not_false, Option.isSome_some, Bool.and_self, segPickIf_true, e1, Bool.false_eq_true, if_false]
              obtain ⟨m', p1, p2, p3, p4⟩ := editList_seen
                (m := { m with rng := (range (gs.length + 1) (range gs.length (hit m.rng).2).2).2 }) (r := r) (o := o) h.ind hlo
                (l := l2.insertIdx (range (gs.length + 1) (range gs.length (hit m.rng).2).2).1 a)
                (gs := gs.insertIdx (range (gs.length + 1) (range gs.length (hit m.rng).2).2).1 g)
                (by simp only [List.map_insertIdx]; rw [h.segs, ha])
              simp only [p1]
              exact ⟨p2, r, rfl, p3, p4⟩
  | evaluate score =>
    have hrd : readSegs l2 m = (.ok gs, m) := by simp only [readSegs, mapM_get_iff.2 h.segs]
    simp only [SegStage.act, evaluateSeg, HM.bind_apply, hread, hrd, segDraw, byValue]
    rcases e1 : score gs m.rng with ⟨res, s1⟩
    cases res with
    | error err => exact ⟨rfl, rfl⟩
    | ok x =>
      simp only [setSegFitness, h.ind, HM.pure_apply]
      exact ⟨rfl, r, rfl, seen_iff.2 ⟨{ o with fitness := some x }, l2, by simp [List.getElem?_set_self hr], h.list, h.segs⟩,
        by simp [segFitness, List.getElem?_set_self hr]⟩

theorem segmentsOf_later {m m' : SegStore γ φ ρ} (hk : NothingChanged m m') {r : Nat} {gs : List (List γ)}
    (h : segmentsOf m r = some gs) : segmentsOf m' r = some gs ∧ segFitness m' r = segFitness m r := by
  obtain ⟨o, l, s⟩ := seen_iff.1 h
  refine ⟨seen_iff.2 ⟨o, l, prefix_getSome hk.1 s.ind, prefix_getSome hk.2.1 s.list, ?_⟩, ?_⟩
  · rw [← s.segs]
    refine List.map_congr_left fun a ha => ?_
    obtain ⟨x, -, e⟩ := (mapM_get_mem (mapM_get_iff.2 s.segs)).2 a ha
    exact prefix_get hk.2.2 (List.getElem?_eq_some_iff.1 e).1
  · simp [segFitness, s.ind, prefix_getSome hk.1 s.ind]

/-- The facts tracked when nothing is required of segments but that they are separate arrays. -/
abbrev plain : SegCond γ φ := ⟨true, fun _ => True, fun _ _ => True, false, fun _ => True⟩

/-- A `next` that does what `v` does on values. -/
def NextAgrees (pop : List Nat) (parents : List (List (List γ))) (x : HM (SegStore γ φ ρ) Nat)
    (v : ρ → PyM (List (List γ) × Option φ) × ρ) : Prop :=
  ∀ m, AllWhole plain pop m → pop.map (segmentsOf m) = parents.map some → Agrees (v m.rng) (x m)

/-- An operator on values behind another one. -/
def stepByValue (v : ρ → PyM (List (List γ) × Option φ) × ρ) (st : SegStage γ φ ρ) (s : ρ) :
    PyM (List (List γ) × Option φ) × ρ :=
  match v s with
  | (.error e, s') => (.error e, s')
  | (.ok w, s') =>
    match byValue st w s' with
    | (.error e, s'') => (.error (if e = .stopIteration then .runtimeError else e), s'')
    | (.ok w', s'') => (.ok w', s'')

theorem pep479_error {M α : Type} {x : HM M α} {m : M} {e : PyErr} (h : (x m).1 = .error e) :
    HM.pep479 x m = (.error (if e = .stopIteration then .runtimeError else e), (x m).2) := by
  unfold HM.pep479
  rcases ex : x m with ⟨res, m'⟩
  rw [ex] at h
  simp only at h
  subst h
  cases e <;> simp

theorem pep479_ok {M α : Type} {x : HM M α} {m m' : M} {a : α} (h : x m = (.ok a, m')) : HM.pep479 x m = (.ok a, m') := by
  simp only [HM.pep479, h]

theorem nextAgrees_step {pop : List Nat} {parents : List (List (List γ))} {x : HM (SegStore γ φ ρ) Nat}
    {v : ρ → PyM (List (List γ) × Option φ) × ρ} (hx : MakesNew plain pop (fun _ => True) x) (h : NextAgrees pop parents x v)
    (hv : ∀ s e, (v s).1 = .error e → e ≠ .stopIteration) (st : SegStage γ φ ρ) :
    NextAgrees pop parents (HM.pep479 (x >>= st.act)) (stepByValue v st) := by
  intro m hm hp
  obtain ⟨h1, h2⟩ := h m hm hp
  have h3 := hx m hm m rfl
  unfold stepByValue
  have hve := hv m.rng
  rcases ev : v m.rng with ⟨vres, s⟩
  rw [ev] at h1 h2 hve
  rcases ex : x m with ⟨res, m1⟩
  rw [ex] at h1 h2 h3
  simp only at h1
  cases vres with
  | error e =>
    simp only at h2
    subst h2
    have hb : (x >>= st.act) m = (.error e, m1) := by rw [HM.bind_apply, ex]
    rw [Agrees, pep479_error (by rw [hb]), hb]
    exact ⟨h1, by simp [hve e rfl]⟩
  | ok w =>
    obtain ⟨gs, f⟩ := w
    obtain ⟨r, e1, e2, e3⟩ := h2
    subst e1
    obtain ⟨o, l, hmine, -⟩ := h3
    obtain ⟨w1, w2, gs', w3, w4⟩ := hmine.whole.reads
    have hact := seg_act_by_value st m1 r l gs w1 e2 fun _ => (hmine.good rfl).2.2 rfl
    change Agrees _ _ at hact
    simp only at e2 e3
    rw [e3, h1] at hact
    obtain ⟨a1, a2⟩ := hact
    have hb : (x >>= st.act) m = st.act r m1 := by rw [HM.bind_apply, ex]
    simp only
    rcases eb : byValue st (gs, f) s with ⟨bres, s2⟩
    rw [eb] at a1 a2
    rcases ea : st.act r m1 with ⟨ares, m2⟩
    rw [ea] at a1 a2 hb
    cases bres with
    | error e =>
      simp only at a2
      subst a2
      rw [Agrees, pep479_error (by rw [hb]), hb]
      exact ⟨a1, rfl⟩
    | ok w' =>
      obtain ⟨r', b1, b2, b3⟩ := a2
      simp only at b1
      subst b1
      rw [Agrees, pep479_ok hb]
      exact ⟨a1, r', rfl, b2, b3⟩

theorem nextAgrees_chain {pop : List Nat} {parents : List (List (List γ))} (stages : List (SegStage γ φ ρ))
    (hf : ∀ st ∈ stages, plain.Fits st) {x : HM (SegStore γ φ ρ) Nat} {v : ρ → PyM (List (List γ) × Option φ) × ρ}
    (hx : MakesNew plain pop (fun _ => True) x) (h : NextAgrees pop parents x v)
    (hv : ∀ s e, (v s).1 = .error e → e ≠ .stopIteration) :
    NextAgrees pop parents (segChain x stages) fun s =>
      match v s with
      | (.error e, s') => (.error e, s')
      | (.ok w, s') => chainByValue stages w s' := by
  induction stages generalizing x v with
  | nil =>
    intro m hm hp
    have := h m hm hp
    simp only [segChain]
    rcases ev : v m.rng with ⟨vres, s⟩
    rw [ev] at this
    cases vres <;> exact this
  | cons st rest ih =>
    have hstep := ih (fun s hs => hf s (List.mem_cons_of_mem _ hs))
      (hx.then _ fun m0 r o l => (act_mine st (hf st List.mem_cons_self)).mono (fun _ h => h)
        (fun _ _ ⟨o, l, h⟩ => ⟨o, l, h, trivial⟩) fun _ h => h) (nextAgrees_step hx h hv st) (by
        intro s e
        have hve := hv s
        unfold stepByValue
        rcases ev : v s with ⟨vres, s'⟩
        rw [ev] at hve
        cases vres with
        | error e' => exact hve e
        | ok w =>
          simp only
          rcases eb : byValue st w s' with ⟨bres, s2⟩
          cases bres with
          | error e' =>
            simp only [Except.error.injEq]
            rintro rfl
            by_cases h : e' = .stopIteration <;> simp [h]
          | ok w' => simp)
    intro m hm hp
    have := hstep m hm hp
    simp only [segChain]
    unfold stepByValue at this
    beta_reduce at this ⊢
    rcases ev : v m.rng with ⟨vres, s⟩
    rw [ev] at this
    cases vres with
    | error e => exact this
    | ok w =>
      simp only [chainByValue] at this ⊢
      rcases eb : byValue st w s with ⟨bres, s2⟩
      rw [eb] at this
      cases bres <;> exact this

/-- Selection and `clone` on values. -/
def selectByValue (parents : List (List (List γ))) (pick : ρ → PyM Nat × ρ) (s : ρ) : PyM (List (List γ) × Option φ) × ρ :=
  match pick s with
  | (.error e, s') => (.error (if e = .stopIteration then .runtimeError else e), s')
  | (.ok i, s') =>
    match parents[i]? with
    | none => (.error .indexError, s')
    | some gs => (.ok (gs, none), s')

theorem nextAgrees_select (pop : List Nat) (parents : List (List (List γ))) (pick : ρ → PyM Nat × ρ) :
    NextAgrees (φ := φ) pop parents (HM.pep479 (HM.pep479 (segSelect pop fun m => pick m.rng) >>= SegStage.clone.act))
      (selectByValue parents pick) := by
  intro m hm hp
  unfold selectByValue
  rcases ep : pick m.rng with ⟨res, s⟩
  cases res with
  | error e =>
    have h1 : HM.pep479 (segSelect pop fun m => pick m.rng) m =
        (.error (if e = .stopIteration then .runtimeError else e), { m with rng := s }) := by
      rw [pep479_error (e := e) (by simp only [segSelect, ep])]
      simp only [segSelect, ep]
    have h2 : (HM.pep479 (segSelect pop fun m => pick m.rng) >>= SegStage.clone.act) m =
        (.error (if e = .stopIteration then .runtimeError else e), { m with rng := s }) := by rw [HM.bind_apply, h1]
    rw [Agrees, pep479_error (by rw [h2]), h2]
    refine ⟨rfl, ?_⟩
    by_cases h : e = .stopIteration <;> simp [h]
  | ok i =>
    have hi : (pop[i]?).map (segmentsOf m) = (parents[i]?).map some := by rw [← List.getElem?_map, hp, List.getElem?_map]
    simp only
    cases ei : pop[i]? with
    | none =>
      have e2 : parents[i]? = none := by rw [ei] at hi; simpa using hi.symm
      have h1 : HM.pep479 (segSelect pop fun m => pick m.rng) m = (.error .indexError, { m with rng := s }) := by
        simp only [HM.pep479, segSelect, ep, ei]
      have h2 : (HM.pep479 (segSelect pop fun m => pick m.rng) >>= SegStage.clone.act) m =
          (.error .indexError, { m with rng := s }) := by rw [HM.bind_apply, h1]
      rw [Agrees, pep479_error (by rw [h2]), h2, e2]
      exact ⟨rfl, by simp⟩
    | some r =>
      rw [ei] at hi
      cases e2 : parents[i]? with
      | none => rw [e2] at hi; simp at hi
      | some gs =>
        rw [e2] at hi
        have hr : segmentsOf m r = some gs := by simpa using hi
        have hr' : segmentsOf ({ m with rng := s } : SegStore γ φ ρ) r = some gs := hr
        obtain ⟨o, l, w⟩ := hm r (List.mem_of_getElem? ei)
        have h1 : HM.pep479 (segSelect pop fun m => pick m.rng) m = (.ok r, { m with rng := s }) := by
          simp only [HM.pep479, segSelect, ep, ei]
        have hact := seg_act_by_value (.clone : SegStage γ φ ρ) { m with rng := s } r l gs w.reads.1 hr' (by simp)
        obtain ⟨a1, r', a2, a3, a4⟩ := hact
        have h2 : (HM.pep479 (segSelect pop fun m => pick m.rng) >>= SegStage.clone.act) m =
            SegStage.clone.act r { m with rng := s } := by rw [HM.bind_apply, h1]
        rcases ea : (SegStage.clone : SegStage γ φ ρ).act r { m with rng := s } with ⟨ares, m2⟩
        rw [ea] at a1 a2 a3 a4 h2
        simp only at a2
        subst a2
        rw [Agrees, pep479_ok h2]
        exact ⟨a1, r', rfl, a3, a4⟩

theorem segPool_byValue {pop : List Nat} {parents : List (List (List γ))} {pick : ρ → PyM Nat × ρ} {ops : List (SegStage γ φ ρ)}
    {x : HM (SegStore γ φ ρ) Nat} (hx : MakesNew plain pop (fun _ => True) x)
    (h : NextAgrees pop parents x fun s =>
      match selectByValue parents pick s with
      | (.error e, s') => (.error e, s')
      | (.ok w, s') => chainByValue ops w s') (n : Nat) :
    ∀ m, AllWhole plain pop m → pop.map (segmentsOf m) = parents.map some →
      (segPool x n m).2.rng = (poolByValue parents pick (.clone :: ops) n m.rng).2 ∧
      match (poolByValue parents pick (.clone :: ops) n m.rng).1 with
      | .error e => (segPool x n m).1 = .error e
      | .ok vs => ∃ rs, (segPool x n m).1 = .ok rs ∧
          rs.map (fun r => (segmentsOf (segPool x n m).2 r, segFitness (segPool x n m).2 r)) = vs.map fun v => (some v.1, v.2) := by
  induction n with
  | zero => exact fun m _ _ => ⟨rfl, [], rfl, rfl⟩
  | succ n ih =>
    intro m hm hp
    obtain ⟨h1, h2⟩ := h m hm hp
    have h3 := hx m hm m rfl
    have hu : poolByValue parents pick (.clone :: ops) (n + 1) m.rng =
        match (match selectByValue parents pick m.rng with
          | (.error e, s') => (.error e, s')
          | (.ok w, s') => chainByValue ops w s' : PyM (List (List γ) × Option φ) × ρ) with
        | (.error e, s') => (.error e, s')
        | (.ok v, s') =>
          match poolByValue parents pick (.clone :: ops) n s' with
          | (.error e, s') => (.error e, s')
          | (.ok vs, s') => (.ok (v :: vs), s') := by
      simp only [poolByValue, selectByValue]
      rcases pick m.rng with ⟨pres, s⟩
      cases pres with
      | error e => rfl
      | ok i =>
        simp only
        cases parents[i]? with
        | none => rfl
        | some gs => rfl
    rw [hu]
    beta_reduce at h1 h2
    generalize (match selectByValue parents pick m.rng with
          | (.error e, s') => (.error e, s')
          | (.ok w, s') => chainByValue ops w s' : PyM (List (List γ) × Option φ) × ρ) = V at h1 h2 ⊢
    obtain ⟨vres, s⟩ := V
    simp only [segPool, HM.bind_apply, HM.pure_apply]
    rcases ex : x m with ⟨res, m1⟩
    rw [ex] at h1 h2 h3
    simp only at h1
    cases vres with
    | error e =>
      simp only at h2
      subst h2
      exact ⟨h1, rfl⟩
    | ok w =>
      obtain ⟨gs, f⟩ := w
      obtain ⟨r, e1, e2, e3⟩ := h2
      simp only at e1
      subst e1
      obtain ⟨o, l, hmine, -⟩ := h3
      have hp1 : pop.map (segmentsOf m1) = parents.map some := by
        rw [← hp]
        refine List.map_congr_left fun q hq => ?_
        obtain ⟨o', l', w'⟩ := hm q hq
        obtain ⟨-, -, gs', g1, -⟩ := w'.reads
        rw [g1, (segmentsOf_later hmine.kept g1).1]
      obtain ⟨i1, i2⟩ := ih m1 (hm.later hmine.kept) hp1
      have hb := segPool_brood x hx n m1 (hm.later hmine.kept) m1 rfl
      simp only
      rw [h1] at i1 i2
      rcases es : segPool x n m1 with ⟨sres, m2⟩
      rw [es] at i1 i2 hb
      rcases evs : poolByValue parents pick (.clone :: ops) n s with ⟨pres, s2⟩
      rw [evs] at i1 i2
      cases pres with
      | error e =>
        simp only at i2
        subst i2
        exact ⟨i1, rfl⟩
      | ok vs =>
        obtain ⟨rs, j1, j2⟩ := i2
        simp only at j1
        subst j1
        refine ⟨i1, r :: rs, rfl, ?_⟩
        obtain ⟨k1, k2⟩ := segmentsOf_later hb.2.kept e2
        simp only at e3 j2
        simp only [List.map_cons, j2, k1, k2, e3]

/-- C114: without `copy_segment`, a pipeline behaves as if genomes were values: on parents whose segments are separate arrays, the
individuals it returns have the segments and fitnesses, or it raises the exception and uses the random numbers, that the same
operators give on values. -/
theorem seg_pipeline_by_value (pop : List Nat) (parents : List (List (List γ))) (pick : ρ → PyM Nat × ρ)
    (ops : List (SegStage γ φ ρ)) (hops : ∀ st ∈ ops, ∀ hit append range, st ≠ .copy hit append range) (size : Nat)
    (m : SegStore γ φ ρ) (hparents : pop.map (segmentsOf m) = parents.map some)
    (hsep : ∀ r ∈ pop, ∀ l, arraysOf m r = some l → l ≠ [] ∧ l.Nodup) :
    (segPipeline pop (fun m => pick m.rng) (.clone :: ops) size m).2.rng = (poolByValue parents pick (.clone :: ops) size m.rng).2 ∧
    match (poolByValue parents pick (.clone :: ops) size m.rng).1 with
    | .error e => (segPipeline pop (fun m => pick m.rng) (.clone :: ops) size m).1 = .error e
    | .ok vs => ∃ rs, (segPipeline pop (fun m => pick m.rng) (.clone :: ops) size m).1 = .ok rs ∧
        rs.map (fun r => (segmentsOf (segPipeline pop (fun m => pick m.rng) (.clone :: ops) size m).2 r,
          segFitness (segPipeline pop (fun m => pick m.rng) (.clone :: ops) size m).2 r)) = vs.map fun v => (some v.1, v.2) := by
  have hfit : ∀ st ∈ ops, (plain : SegCond γ φ).Fits st := by
    intro st hst _
    have := hops st hst
    refine ⟨?_, keepsCount_true st⟩
    cases st with
    | clone => trivial
    | apply mu e => exact fun p g s _ => ⟨fun _ => trivial, fun _ _ => trivial, fun _ => trivial⟩
    | segmented mus => exact fun f _ g s _ => ⟨fun _ => trivial, fun _ _ => trivial, fun _ => trivial⟩
    | each mu => exact fun g s _ => ⟨fun _ => trivial, fun _ _ => trivial, fun _ => trivial⟩
    | add => exact fun _ _ _ => trivial
    | remove => trivial
    | copy a b c => exact absurd rfl (this a b c)
    | evaluate => exact fun _ _ _ _ => trivial
  have hm : AllWhole plain pop m := by
    intro r hr
    have h1 : (segmentsOf m r).isSome := by
      have : segmentsOf m r ∈ pop.map (segmentsOf m) := List.mem_map_of_mem hr
      rw [hparents] at this
      obtain ⟨gs, -, e⟩ := List.mem_map.1 this
      simp [← e]
    obtain ⟨o, l, w⟩ := whole_of_segments h1
    obtain ⟨g1, -, gs, g2, g3⟩ := w.reads
    obtain ⟨k1, k2⟩ := hsep r hr l g1
    exact ⟨o, l, w.ind, w.list, w.arrays, fun _ => ⟨⟨k1, trivial⟩, fun _ _ _ _ => trivial, fun _ => k2⟩, fun _ x _ => ⟨gs, g3, trivial⟩⟩
  exact segPool_byValue (ops := ops) (segChain_makesNew ops hfit _ (segSelectClone_makesNew pop _))
    (nextAgrees_chain ops hfit (segSelectClone_makesNew pop _) (nextAgrees_select pop parents pick) (by
      intro s e
      unfold selectByValue
      rcases pick s with ⟨pres, s'⟩
      cases pres with
      | error e' =>
        simp only [Except.error.injEq]
        rintro rfl
        by_cases h : e' = .stopIteration <;> simp [h]
      | ok i =>
        simp only
        cases parents[i]? with
        | none => simp only [Except.error.injEq]; rintro rfl; simp
        | some gs => simp)) size m hm hparents

/-! ### C114: runs -/

theorem elitist_from {α : Type} {lt : α → α → Bool} {off parents : List α} {k : Nat} {r : α}
    (h : r ∈ (elitistSurvival lt off parents k).1) : r ∈ off ∨ r ∈ parents := by
  simp only [elitistSurvival] at h
  rcases List.mem_append.1 (topk_mem h) with h | h
  · exact Or.inl h
  · exact Or.inr (topk_mem h)

theorem proper_later {G : List γ → Prop} {value : List (List γ) → φ → Prop} {shared : Bool} {m m' : SegStore γ φ ρ}
    (hk : NothingChanged m m') {r : Nat} (h : ProperInd G value shared m r) :
    ProperInd G value shared m' r ∧ segFitness m' r = segFitness m r := by
  obtain ⟨o, l, w⟩ := whole_of_proper h (counted_true h)
  exact ⟨(w.later hk).proper, by rw [(w.later hk).reads.2.1, w.reads.2.1]⟩

/-- C114: whatever happens in the generations of a run, nothing that was there before is ever changed, as long as the pipeline begins
with `clone`: not the parents of any generation, nor anything else. -/
theorem seg_loop_isolated (cfg : SegConfig γ φ ρ) (ops : List (SegStage γ φ ρ)) (hst : cfg.stages = .clone :: ops) (fuel : Nat) (g : Int)
    (parents : List Nat) (m : SegStore γ φ ρ) (hp : ∀ r ∈ parents, (segmentsOf m r).isSome) :
    NothingChanged m (segLoop cfg fuel g parents m).2 := by
  induction fuel generalizing g parents m with
  | zero => exact Spec.NothingChanged.refl m
  | succ fuel ih =>
    simp only [segLoop]
    cases hs : cfg.stop g parents m with
    | true => exact Spec.NothingChanged.refl m
    | false =>
      simp only [Bool.false_eq_true, if_false]
      obtain ⟨h1, h2⟩ := seg_pipeline_isolated parents (cfg.choose g parents) ops cfg.size m hp
      rw [← hst] at h1 h2
      rcases e : segPipeline parents (cfg.choose g parents) cfg.stages cfg.size m with ⟨res, m1⟩
      rw [e] at h1 h2
      cases res with
      | error err => exact h1
      | ok off =>
        simp only
        refine h1.trans (ih _ _ m1 fun r hr => ?_)
        rcases elitist_from hr with h | h
        · exact ((h2 off rfl).2.2.2 r h).2.1
        · obtain ⟨gs, hg⟩ := Option.isSome_iff_exists.1 (hp r h)
          simp [(segmentsOf_later h1 hg).1]

theorem seg_loop_counted (G : List γ → Prop) (value : List (List γ) → φ → Prop) (shared : Bool) (cfg : SegConfig γ φ ρ)
    (ops : List (SegStage γ φ ρ)) (score : List (List γ) → ρ → PyM φ × ρ) (hst : cfg.stages = .clone :: (ops ++ [.evaluate score]))
    (N : Nat → Prop) (hops : ∀ st ∈ ops, StageGood G value shared st ∧ KeepsCount N st) (hscore : ∀ gs s x, (score gs s).1 = .ok x → value gs x) (fuel : Nat) (g : Int)
    (parents : List Nat) (m : SegStore γ φ ρ) (hp : ∀ r ∈ parents, ProperInd G value shared m r ∧ Counted N m r ∧ (segFitness m r).isSome)
    (rs : List Nat) (hrs : (segLoop cfg fuel g parents m).1 = .ok rs) :
    (rs.length = parents.length ∨ rs.length = cfg.size) ∧
    ∀ r ∈ rs, (r ∈ parents ∨ m.inds.length ≤ r) ∧ ProperInd G value shared (segLoop cfg fuel g parents m).2 r ∧
      Counted N (segLoop cfg fuel g parents m).2 r ∧ (segFitness (segLoop cfg fuel g parents m).2 r).isSome := by
  induction fuel generalizing g parents m with
  | zero =>
    simp only [segLoop, HM.pure_apply, Except.ok.injEq] at hrs ⊢
    subst hrs
    exact ⟨Or.inl rfl, fun r hr => ⟨Or.inl hr, hp r hr⟩⟩
  | succ fuel ih =>
    simp only [segLoop] at hrs ⊢
    cases hs : cfg.stop g parents m with
    | true =>
      simp only [hs, if_true, Except.ok.injEq] at hrs ⊢
      subst hrs
      exact ⟨Or.inl rfl, fun r hr => ⟨Or.inl hr, hp r hr⟩⟩
    | false =>
      simp only [hs, Bool.false_eq_true, if_false] at hrs ⊢
      have hsome : ∀ r ∈ parents, (segmentsOf m r).isSome := fun r hr => by
        obtain ⟨l, gs, -, h2, -⟩ := (hp r hr).1
        simp [h2]
      obtain ⟨h1, h2⟩ := seg_pipeline_isolated parents (cfg.choose g parents) (ops ++ [.evaluate score]) cfg.size m hsome
      have h3 := seg_pipeline_counted G value shared parents (cfg.choose g parents) ops score N hops hscore cfg.size m fun r hr =>
        ⟨(hp r hr).1, (hp r hr).2.1⟩
      rw [← hst] at h1 h2 h3
      rcases e : segPipeline parents (cfg.choose g parents) cfg.stages cfg.size m with ⟨res, m1⟩
      rw [e] at h1 h2 h3 hrs
      cases res with
      | error err => simp at hrs
      | ok off =>
        simp only at hrs ⊢
        obtain ⟨k1, k2⟩ := ih _ _ m1 (fun r hr => by
          rcases elitist_from hr with h | h
          · exact h3 off rfl r h
          · obtain ⟨g1, g2⟩ := proper_later h1 (hp r h).1
            obtain ⟨gs, c1, c2⟩ := (hp r h).2.1
            exact ⟨g1, ⟨gs, (segmentsOf_later h1 c1).1, c2⟩, by rw [g2]; exact (hp r h).2.2⟩) hrs
        have hl : (elitistSurvival (cfg.lt m1) off parents cfg.kElites).1.length = cfg.size := by
          simp only [elitistSurvival, topk_length, List.length_append, (h2 off rfl).1]
          omega
        refine ⟨Or.inr (by rcases k1 with k | k <;> omega), fun r hr => ?_⟩
        obtain ⟨j1, j2⟩ := k2 r hr
        refine ⟨?_, j2⟩
        rcases j1 with j | j
        · rcases elitist_from j with h | h
          · exact Or.inr ((h2 off rfl).2.2.2 r h).1
          · exact Or.inl h
        · exact Or.inr (Nat.le_trans h1.1.length_le j)

/-- C114: every generation of a run consists of proper individuals with a fitness. -/
theorem seg_loop_proper (G : List γ → Prop) (value : List (List γ) → φ → Prop) (shared : Bool) (cfg : SegConfig γ φ ρ)
    (ops : List (SegStage γ φ ρ)) (score : List (List γ) → ρ → PyM φ × ρ) (hst : cfg.stages = .clone :: (ops ++ [.evaluate score]))
    (hops : ∀ st ∈ ops, StageGood G value shared st) (hscore : ∀ gs s x, (score gs s).1 = .ok x → value gs x) (fuel : Nat) (g : Int)
    (parents : List Nat) (m : SegStore γ φ ρ) (hp : ∀ r ∈ parents, ProperInd G value shared m r ∧ (segFitness m r).isSome)
    (rs : List Nat) (hrs : (segLoop cfg fuel g parents m).1 = .ok rs) :
    (rs.length = parents.length ∨ rs.length = cfg.size) ∧
    ∀ r ∈ rs, (r ∈ parents ∨ m.inds.length ≤ r) ∧ ProperInd G value shared (segLoop cfg fuel g parents m).2 r ∧
      (segFitness (segLoop cfg fuel g parents m).2 r).isSome := by
  obtain ⟨h1, h2⟩ := seg_loop_counted G value shared cfg ops score hst (fun _ => True) (fun st hs => ⟨hops st hs, keepsCount_true st⟩) hscore
    fuel g parents m (fun r hr => ⟨(hp r hr).1, counted_true (hp r hr).1, (hp r hr).2⟩) rs hrs
  exact ⟨h1, fun r hr => ⟨(h2 r hr).1, (h2 r hr).2.1, (h2 r hr).2.2.2⟩⟩

/-- C114: with at least one elite a run never loses its best: somebody it returns is not worse than any of those it began with. -/
theorem seg_loop_keeps_best (cfg : SegConfig γ φ ρ) (ops : List (SegStage γ φ ρ)) (hst : cfg.stages = .clone :: ops)
    (hw : StrictWeak cfg.worse) (hk : 1 ≤ cfg.kElites) (hsz : 1 ≤ cfg.size) (fuel : Nat) (g : Int) (parents : List Nat)
    (hne : parents ≠ []) (m : SegStore γ φ ρ) (hp : ∀ r ∈ parents, (segmentsOf m r).isSome) (rs : List Nat)
    (hrs : (segLoop cfg fuel g parents m).1 = .ok rs) :
    ∃ b ∈ rs, ∀ x ∈ parents, cfg.worse (segFitness (segLoop cfg fuel g parents m).2 b) (segFitness m x) = false := by
  have hlt : ∀ m : SegStore γ φ ρ, StrictWeak (cfg.lt m) := fun m =>
    ⟨fun a b h => hw.asymm _ _ h, fun a b c h h' => hw.negTrans _ _ _ h h'⟩
  have hself : ∀ (ps : List Nat) (m : SegStore γ φ ρ), ps ≠ [] → ∃ b ∈ ps, ∀ x ∈ ps, cfg.worse (segFitness m b) (segFitness m x) = false := by
    intro ps m hps
    obtain ⟨b, hb, hbest⟩ := elitist_never_loses_best (cfg.lt m) (hlt m) ps ps 1 (Nat.le_refl _) hps
    refine ⟨b, ?_, fun x hx => hbest x (List.mem_append_left _ hx)⟩
    exact (elitist_from (List.mem_of_mem_head? hb)).elim id id
  induction fuel generalizing g parents m with
  | zero =>
    simp only [segLoop, HM.pure_apply, Except.ok.injEq] at hrs ⊢
    subst hrs
    exact hself _ m hne
  | succ fuel ih =>
    simp only [segLoop] at hrs ⊢
    cases hs : cfg.stop g parents m with
    | true =>
      simp only [hs, if_true, Except.ok.injEq] at hrs ⊢
      subst hrs
      exact hself _ m hne
    | false =>
      simp only [hs, Bool.false_eq_true, if_false] at hrs ⊢
      obtain ⟨h1, h2⟩ := seg_pipeline_isolated parents (cfg.choose g parents) ops cfg.size m hp
      rw [← hst] at h1 h2
      rcases e : segPipeline parents (cfg.choose g parents) cfg.stages cfg.size m with ⟨res, m1⟩
      rw [e] at h1 h2 hrs
      cases res with
      | error err => simp at hrs
      | ok off =>
        simp only at hrs ⊢
        have hoff : off ≠ [] := by
          have := (h2 off rfl).1
          rintro rfl
          simp at this
          omega
        obtain ⟨b, hb, hbest⟩ := elitist_never_loses_best (cfg.lt m1) (hlt m1) off parents cfg.kElites hk hoff
        have hb' : b ∈ (elitistSurvival (cfg.lt m1) off parents cfg.kElites).1 := List.mem_of_mem_head? hb
        obtain ⟨c, hc, hcb⟩ := ih _ _ (by intro hz; rw [hz] at hb'; simp at hb') m1 (fun r hr => by
          rcases elitist_from hr with h | h
          · exact ((h2 off rfl).2.2.2 r h).2.1
          · obtain ⟨gs, hg⟩ := Option.isSome_iff_exists.1 (hp r h)
            simp [(segmentsOf_later h1 hg).1]) hrs
        refine ⟨c, hc, fun x hx => ?_⟩
        obtain ⟨gs, hg⟩ := Option.isSome_iff_exists.1 (hp x hx)
        rw [← (segmentsOf_later h1 hg).2]
        exact hw.negTrans _ _ _ (hcb b hb') (hbest x (List.mem_append_right _ hx))

/-! Making and evaluating the initial population. -/

theorem createSegmented_good {G : List γ → Prop} {init : ρ → PyM (List γ) × ρ} (hi : ∀ s g, (init s).1 = .ok g → G g) (n : Nat) (s : ρ)
    (gs : List (List γ)) (h : (createSegmented init n s).1 = .ok gs) : gs.length = n ∧ ∀ g ∈ gs, G g := by
  induction n generalizing s gs with
  | zero => simp only [createSegmented, Except.ok.injEq] at h; subst h; simp
  | succ n ih =>
    simp only [createSegmented] at h
    have hi' := hi s
    rcases e : init s with ⟨res, s'⟩
    rw [e] at h hi'
    cases res with
    | error err => simp at h
    | ok g =>
      simp only at h
      have ih' := ih s'
      rcases e2 : createSegmented init n s' with ⟨res, s''⟩
      rw [e2] at h ih'
      cases res with
      | error err => simp at h
      | ok gs' =>
        simp only [Except.ok.injEq] at h
        subst h
        obtain ⟨h1, h2⟩ := ih' gs' rfl
        refine ⟨by simp [h1], fun x hx => ?_⟩
        rcases List.mem_cons.1 hx with rfl | hx
        · exact hi' _ rfl
        · exact h2 x hx

theorem newSegs_spec (gs : List (List γ)) (m : SegStore γ φ ρ) :
    ∃ as, newSegs gs m = (.ok as, { m with segs := m.segs ++ gs }) ∧ as = List.range' m.segs.length gs.length := by
  induction gs generalizing m with
  | nil => exact ⟨[], by simp [newSegs], by simp⟩
  | cons g gs ih =>
    obtain ⟨as, h1, h2⟩ := ih { m with segs := m.segs ++ [g] }
    refine ⟨m.segs.length :: as, by simp [newSegs, h1], ?_⟩
    simp [h2, List.range'_succ]

theorem createSegPop_brood {c : SegCond γ φ} (length : ρ → Nat × ρ) (init : ρ → PyM (List γ) × ρ)
    (hlen : c.track = true → ∀ s, 1 ≤ (length s).1 ∧ c.N (length s).1) (hinit : c.track = true → ∀ s g, (init s).1 = .ok g → c.G g) (n : Nat) :
    ∀ m : SegStore γ φ ρ, Ensures (fun m' => m' = m) (createSegPop length init n)
      (fun rs m' => rs.length = n ∧ Brood c m rs (fun o => o.fitness = none) m') (NothingChanged m) := by
  induction n with
  | zero => exact fun m => Ensures.ret fun m' e => e ▸ ⟨rfl, Spec.NothingChanged.refl _, by simp, by simp, by simp⟩
  | succ n ih =>
    rintro m m' rfl
    simp only [createSegPop, HM.bind_apply, segPick_apply, segDraw_apply]
    cases e1 : (createSegmented init (length m'.rng).1 (length m'.rng).2).1 with
    | error err => exact Spec.NothingChanged.refl m'
    | ok gs =>
      simp only
      generalize (createSegmented init (length m'.rng).1 (length m'.rng).2).2 = s
      obtain ⟨as, h1, h2⟩ := newSegs_spec gs ({ m' with rng := s } : SegStore γ φ ρ)
      rw [h1]
      simp only [newSegInd]
      have hmem : ∀ a ∈ as, m'.segs.length ≤ a ∧ a < m'.segs.length + gs.length := by
        intro a ha
        rw [h2] at ha
        simpa using ha
      have hmine : Mine c m' m'.inds.length ⟨m'.lists.length, none⟩ as
          ({ segs := m'.segs ++ gs, lists := m'.lists ++ [as], inds := m'.inds ++ [⟨m'.lists.length, none⟩], rng := s } :
            SegStore γ φ ρ) := by
        refine ⟨⟨⟨List.prefix_append _ _, List.prefix_append _ _, List.prefix_append _ _⟩, fun a ha => ⟨(hmem a ha).1, by
          simpa using (hmem a ha).2⟩, fun ht => ?_⟩, Nat.le_refl _, by simp, Nat.le_refl _, by simp, fun _ x hx => by simp at hx⟩
        obtain ⟨g1, g2⟩ := createSegmented_good (hinit ht) _ _ gs e1
        refine ⟨⟨?_, ?_⟩, fun a ha g hg => ?_, fun _ => by rw [h2]; exact List.nodup_range'⟩
        · rintro rfl
          have := congrArg List.length h2
          simp at this
          have := (hlen ht m'.rng).1
          omega
        · rw [h2, List.length_range', g1]
          exact (hlen ht m'.rng).2
        · rw [List.getElem?_append_right (hmem a ha).1] at hg
          exact g2 g (List.mem_of_getElem? hg)
      have h3 := ih ({ segs := m'.segs ++ gs, lists := m'.lists ++ [as], inds := m'.inds ++ [⟨m'.lists.length, none⟩], rng := s } :
            SegStore γ φ ρ) _ rfl
      generalize ({ segs := m'.segs ++ gs, lists := m'.lists ++ [as], inds := m'.inds ++ [⟨m'.lists.length, none⟩], rng := s } :
            SegStore γ φ ρ) = m1 at hmine h3 ⊢
      rcases e2 : createSegPop length init n m1 with ⟨res, m2⟩
      rw [e2] at h3
      cases res with
      | error err => exact hmine.kept.trans h3
      | ok rs =>
        obtain ⟨hl, hb⟩ := h3
        refine ⟨by simp [hl], hmine.kept.trans hb.kept, fun x hx => ?_, List.nodup_cons.2 ⟨fun hr => ?_, hb.nodup⟩,
          List.pairwise_cons.2 ⟨fun x hx => ?_, hb.apart⟩⟩
        · rcases List.mem_cons.1 hx with rfl | hx
          · exact ⟨_, _, hmine.later hb.kept, rfl⟩
          · obtain ⟨o', l', h', hq'⟩ := hb.mine x hx
            exact ⟨o', l', h'.base hmine.kept, hq'⟩
        · obtain ⟨o', l', h', -⟩ := hb.mine _ hr
          exact (apart_of_mine hmine h').2 rfl
        · obtain ⟨o', l', h', -⟩ := hb.mine x hx
          exact (apart_of_mine hmine h').1

/-- Evaluating changes the fitness of one individual and the random source, nothing else. -/
theorem evaluateSeg_only (score : List (List γ) → ρ → PyM φ × ρ) (r : Nat) (m : SegStore γ φ ρ) :
    (evaluateSeg score r m).2.segs = m.segs ∧ (evaluateSeg score r m).2.lists = m.lists ∧
    (evaluateSeg score r m).2.inds.length = m.inds.length ∧
    ∀ i, i ≠ r → (evaluateSeg score r m).2.inds[i]? = m.inds[i]? := by
  simp only [evaluateSeg, HM.bind_apply]
  cases e1 : m.inds[r]? with
  | none =>
    have h1 : readSegInd r m = (.error .attributeError, m) := by simp only [readSegInd, e1]
    simp [h1]
  | some o =>
    cases e2 : m.lists[o.genome]? with
    | none =>
      have h1 : readSegInd r m = (.error .attributeError, m) := by simp only [readSegInd, e1, e2]
      simp [h1]
    | some l =>
      have h1 : readSegInd r m = (.ok ⟨l, o.fitness⟩, m) := by simp only [readSegInd, e1, e2]
      cases e3 : l.mapM (fun a => m.segs[a]?) with
      | none =>
        have h2 : readSegs l m = (.error .attributeError, m) := by simp only [readSegs, e3]
        simp [h1, h2]
      | some gs =>
        have h2 : readSegs l m = (.ok gs, m) := by simp only [readSegs, e3]
        simp only [h1, h2, segDraw_apply]
        cases e4 : (score gs m.rng).1 with
        | error err => simp
        | ok x =>
          simp only [setSegFitness, e1]
          exact ⟨by simp, by simp, by simp, fun i hi => by simp [List.getElem?_set, Ne.symm hi]⟩

theorem evaluateSegPop_mine {c : SegCond γ φ} {m0 : SegStore γ φ ρ} (score : List (List γ) → ρ → PyM φ × ρ)
    (hf : c.track = true → ∀ gs s x, (score gs s).1 = .ok x → c.value gs x) (all : List Nat) (rs : List Nat) (hsub : ∀ r ∈ rs, r ∈ all)
    (done : List Nat) :
    Ensures (fun m => NothingChanged m0 m ∧ (∀ r ∈ all, ∃ o l, Mine c m0 r o l m) ∧ ∀ r ∈ done, (segFitness m r).isSome)
      (evaluateSegPop score rs)
      (fun _ m => NothingChanged m0 m ∧ (∀ r ∈ all, ∃ o l, Mine c m0 r o l m) ∧ ∀ r ∈ done ++ rs, (segFitness m r).isSome)
      (NothingChanged m0) := by
  induction rs generalizing done with
  | nil => exact Ensures.ret fun m h => by simpa using h
  | cons r rs ih =>
    simp only [evaluateSegPop]
    refine Ensures.seq (Q := fun _ m => NothingChanged m0 m ∧ (∀ r ∈ all, ∃ o l, Mine c m0 r o l m) ∧
      ∀ x ∈ done ++ [r], (segFitness m x).isSome) ?_ fun _ => by
        have := ih (fun x hx => hsub x (List.mem_cons_of_mem _ hx)) (done ++ [r])
        simpa using this
    intro m ⟨h0, hm, hd⟩
    obtain ⟨o, l, hr⟩ := hm r (hsub r List.mem_cons_self)
    have h1 := evaluateSeg_mine score hf m hr
    obtain ⟨e1, e2, e3, e4⟩ := evaluateSeg_only score r m
    rcases e : evaluateSeg score r m with ⟨res, m1⟩
    rw [e] at h1 e1 e2 e3 e4
    simp only at e1 e2 e3 e4
    cases res with
    | error err => exact h1
    | ok u =>
      obtain ⟨o', l', h', hs'⟩ := h1
      refine ⟨h'.kept, fun x hx => ?_, fun x hx => ?_⟩
      · by_cases hxr : x = r
        · subst hxr; exact ⟨o', l', h'⟩
        · obtain ⟨ox, lx, w⟩ := hm x hx
          exact ⟨ox, lx, ⟨h'.kept, by rw [e1]; exact w.new, by rw [e1]; exact w.good⟩, w.newInd, by rw [e4 x hxr]; exact w.ind,
            w.newList, by rw [e2]; exact w.list, by rw [e1]; exact w.truth⟩
      · by_cases hxr : x = r
        · subst hxr; simp [segFitness, h'.ind, hs']
        · rcases List.mem_append.1 hx with h | h
          · have := hd x h
            simp only [segFitness] at this ⊢
            rw [e4 x hxr]
            exact this
          · exact absurd (by simpa using h) hxr

theorem segRun_start {c : SegCond γ φ} (length : ρ → Nat × ρ) (init : ρ → PyM (List γ) × ρ) (score : List (List γ) → ρ → PyM φ × ρ)
    (hlen : c.track = true → ∀ s, 1 ≤ (length s).1 ∧ c.N (length s).1) (hinit : c.track = true → ∀ s g, (init s).1 = .ok g → c.G g)
    (hf : c.track = true → ∀ gs s x, (score gs s).1 = .ok x → c.value gs x) (n : Nat) (m : SegStore γ φ ρ) :
    Ensures (fun m' => m' = m)
      (do let parents ← createSegPop length init n; evaluateSegPop score parents; pure parents : HM (SegStore γ φ ρ) (List Nat))
      (fun rs m' => rs.length = n ∧ NothingChanged m m' ∧ ∀ r ∈ rs, (∃ o l, Mine c m r o l m') ∧ (segFitness m' r).isSome)
      (NothingChanged m) := by
  refine (createSegPop_brood length init hlen hinit n m).seq fun rs => ?_
  intro m1 ⟨hl, hb⟩
  have := evaluateSegPop_mine (c := c) (m0 := m) score hf rs rs (fun _ h => h) [] m1
    ⟨hb.kept, fun r hr => let ⟨o, l, h, _⟩ := hb.mine r hr; ⟨o, l, h⟩, by simp⟩
  rw [HM.bind_apply]
  rcases e : evaluateSegPop score rs m1 with ⟨res, m2⟩
  rw [e] at this
  cases res with
  | error err => exact this
  | ok u => exact ⟨hl, this.1, fun r hr => ⟨this.2.1 r hr, this.2.2 r (by simpa using hr)⟩⟩

theorem segRun_split (cfg : SegConfig γ φ ρ) (length : ρ → Nat × ρ) (init : ρ → PyM (List γ) × ρ)
    (score : List (List γ) → ρ → PyM φ × ρ) (n : Nat) (a b : Int) :
    segRun cfg length init score n a b =
      ((do let parents ← createSegPop length init n; evaluateSegPop score parents; pure parents : HM (SegStore γ φ ρ) (List Nat)) >>=
        fun parents => segLoop cfg (b - a).toNat a parents) := by
  funext m
  simp only [segRun, HM.bind_apply, HM.pure_apply]
  rcases createSegPop length init n m with ⟨res, m1⟩
  cases res with
  | error e => rfl
  | ok rs =>
    simp only
    rcases evaluateSegPop score rs m1 with ⟨res, m2⟩
    cases res <;> rfl

/-- C114: and where no operator changes the number of segments, or each keeps it among the allowed ones, the individuals
returned have an allowed number of segments. -/
theorem seg_run_counted (G : List γ → Prop) (value : List (List γ) → φ → Prop) (shared : Bool) (cfg : SegConfig γ φ ρ)
    (ops : List (SegStage γ φ ρ)) (length : ρ → Nat × ρ) (init : ρ → PyM (List γ) × ρ) (score : List (List γ) → ρ → PyM φ × ρ)
    (hst : cfg.stages = .clone :: (ops ++ [.evaluate score])) (N : Nat → Prop)
    (hops : ∀ st ∈ ops, StageGood G value shared st ∧ KeepsCount N st)
    (hscore : ∀ gs s x, (score gs s).1 = .ok x → value gs x) (hlen : ∀ s, 1 ≤ (length s).1 ∧ N (length s).1) (hinit : ∀ s g, (init s).1 = .ok g → G g)
    (popSize : Nat) (a b : Int) (m : SegStore γ φ ρ) :
    NothingChanged m (segRun cfg length init score popSize a b m).2 ∧
    ∀ rs, (segRun cfg length init score popSize a b m).1 = .ok rs → (rs.length = popSize ∨ rs.length = cfg.size) ∧
      ∀ r ∈ rs, m.inds.length ≤ r ∧ ProperInd G value shared (segRun cfg length init score popSize a b m).2 r ∧
        Counted N (segRun cfg length init score popSize a b m).2 r ∧ (segFitness (segRun cfg length init score popSize a b m).2 r).isSome := by
  have h0 := segRun_start (c := ⟨true, G, value, shared, N⟩) length init score (fun _ => hlen) (fun _ => hinit) (fun _ => hscore) popSize m m rfl
  rw [segRun_split, HM.bind_apply]
  generalize (do let parents ← createSegPop length init popSize; evaluateSegPop score parents; pure parents :
    HM (SegStore γ φ ρ) (List Nat)) = X at h0 ⊢
  rcases e : X m with ⟨res, m1⟩
  rw [e] at h0
  cases res with
  | error err => exact ⟨h0, fun rs h => by simp at h⟩
  | ok parents =>
    obtain ⟨hl, hk, hp⟩ := h0
    simp only
    have hpp : ∀ r ∈ parents, ProperInd G value shared m1 r ∧ Counted N m1 r ∧ (segFitness m1 r).isSome := fun r hr =>
      let ⟨⟨o, l, h⟩, hs⟩ := hp r hr
      ⟨h.whole.proper, h.whole.counted, hs⟩
    have hsome : ∀ r ∈ parents, (segmentsOf m1 r).isSome := fun r hr => by
      obtain ⟨l, gs, -, h2, -⟩ := (hpp r hr).1
      simp [h2]
    refine ⟨hk.trans (seg_loop_isolated cfg _ hst _ a parents m1 hsome), fun rs hrs => ?_⟩
    obtain ⟨h1, h2⟩ := seg_loop_counted G value shared cfg ops score hst N hops hscore _ a parents m1 hpp rs hrs
    refine ⟨by rw [← hl]; exact h1, fun r hr => ?_⟩
    obtain ⟨h3, h4, h5⟩ := h2 r hr
    refine ⟨?_, h4, h5⟩
    rcases h3 with h | h
    · obtain ⟨⟨o, l, w⟩, -⟩ := hp r h
      exact w.newInd
    · exact Nat.le_trans hk.1.length_le h

/-- C114: a run over segmented genomes changes nothing that was in memory before it, also when it raises; whoever it returns is new and
proper: at least one segment, all segments good, a fitness that is a value of the genome as it is now; and unless `copy_segment` is
used, no two segments of an individual are the same array. -/
theorem seg_run_proper (G : List γ → Prop) (value : List (List γ) → φ → Prop) (shared : Bool) (cfg : SegConfig γ φ ρ)
    (ops : List (SegStage γ φ ρ)) (length : ρ → Nat × ρ) (init : ρ → PyM (List γ) × ρ) (score : List (List γ) → ρ → PyM φ × ρ)
    (hst : cfg.stages = .clone :: (ops ++ [.evaluate score])) (hops : ∀ st ∈ ops, StageGood G value shared st)
    (hscore : ∀ gs s x, (score gs s).1 = .ok x → value gs x) (hlen : ∀ s, 1 ≤ (length s).1) (hinit : ∀ s g, (init s).1 = .ok g → G g)
    (popSize : Nat) (a b : Int) (m : SegStore γ φ ρ) :
    NothingChanged m (segRun cfg length init score popSize a b m).2 ∧
    ∀ rs, (segRun cfg length init score popSize a b m).1 = .ok rs → (rs.length = popSize ∨ rs.length = cfg.size) ∧
      ∀ r ∈ rs, m.inds.length ≤ r ∧ ProperInd G value shared (segRun cfg length init score popSize a b m).2 r ∧
        (segFitness (segRun cfg length init score popSize a b m).2 r).isSome := by
  obtain ⟨h1, h2⟩ := seg_run_counted G value shared cfg ops length init score hst (fun _ => True)
    (fun st hs => ⟨hops st hs, keepsCount_true st⟩) hscore (fun s => ⟨hlen s, trivial⟩) hinit popSize a b m
  refine ⟨h1, fun rs hrs => ⟨(h2 rs hrs).1, fun r hr => ?_⟩⟩
  obtain ⟨h3, h4, -, h5⟩ := (h2 rs hrs).2 r hr
  exact ⟨h3, h4, h5⟩

/-! ### Examples -/

/-- Two individuals: segments `[0, 0]`, `[0, 1]` with fitness 1, and a single segment `[1, 1]` with fitness 2. -/
def exSegStore : SegStore Int Int Nat := ⟨[[0, 0], [0, 1], [1, 1]], [[0, 1], [2]], [⟨0, some 1⟩, ⟨1, some 2⟩], 0⟩

/-- The number of ones. -/
def exSegOnes (gs : List (List Int)) (s : Nat) : PyM Int × Nat := (.ok (gs.map List.sum).sum, s)

/-- `genome_mutate_bitflip` with draws that always hit. -/
def exFlipAll (p : ℚ) : MutFn Int Nat := bitflipFn (some p) none fun s => ([0, 0], s + 1)

/-- Take parents in turn. -/
def exTurns (n : Nat) (s : Nat) : PyM Nat × Nat := (.ok (s % n), s + 1)

/-- Flip all bits, remove the first of several segments, append a segment of ones. -/
def exSegOps : List (SegStage Int Int Nat) :=
  [.apply exFlipAll 1, .remove (fun s => (true, s)) (fun _ s => (0, s)),
    .add (fun s => (true, s)) (fun s => (.ok [1, 1], s)) true fun _ s => (0, s)]

/-- A run: tournaments are replaced by taking turns, one elite, pools of two. -/
def exSegConfig : SegConfig Int Int Nat :=
  ⟨fun a b => decide (a.getD 0 < b.getD 0), fun _ pop m => exTurns pop.length m.rng, .clone :: (exSegOps ++ [.evaluate exSegOnes]), 2, 1,
    fun _ _ _ => false⟩

theorem exFlipAll_good (p : ℚ) (shared : Bool) : KeepsGood (fun g => g.length = 2) shared (exFlipAll p) := by
  intro g s hg
  obtain ⟨h1, h2⟩ := bitflipFn_keepsLength (some p) none (fun s => ([0, 0], s + 1)) g s
  exact ⟨fun _ => h1.trans hg, fun g' h => (h2 g' h).trans hg, fun _ => h1.trans hg⟩

theorem exSegOps_good (shared : Bool) :
    ∀ st ∈ exSegOps, StageGood (fun g => g.length = 2) (fun gs f => f = (gs.map List.sum).sum) shared st := by
  intro st hst
  simp only [exSegOps, List.mem_cons, List.not_mem_nil, or_false] at hst
  rcases hst with rfl | rfl | rfl
  · exact fun p => exFlipAll_good p shared
  · trivial
  · intro s g h
    simp only [Except.ok.injEq] at h
    subst h
    rfl

theorem exSegOnes_value : ∀ gs s x, (exSegOnes gs s).1 = .ok x → x = (gs.map List.sum).sum := by
  intro gs s x h
  simp only [exSegOnes, Except.ok.injEq] at h
  exact h.symm

example : ∀ r ∈ [0, 1], (segmentsOf exSegStore r).isSome ∧ ∀ l, arraysOf exSegStore r = some l → l ≠ [] ∧ l.Nodup := by decide +kernel

example : ∀ r ∈ [0, 1], ProperInd (fun g => g.length = 2) (fun gs f => f = (gs.map List.sum).sum) false exSegStore r := by
  intro r hr
  simp only [List.mem_cons, List.not_mem_nil, or_false] at hr
  rcases hr with rfl | rfl
  · exact ⟨[0, 1], [[0, 0], [0, 1]], rfl, rfl, by decide, by decide, by decide, fun f hf => by cases hf; rfl⟩
  · exact ⟨[2], [[1, 1]], rfl, rfl, by decide, by decide, by decide, fun f hf => by cases hf; rfl⟩

example : [0, 1].map (segmentsOf exSegStore) = [[[0, 0], [0, 1]], [[1, 1]]].map some := rfl

example :
    let out := segPipeline [0, 1] (fun m => exTurns 2 m.rng) (.clone :: (exSegOps ++ [.evaluate exSegOnes])) 3 exSegStore
    out.1.toOption = some [2, 3, 4] ∧
    [2, 3, 4].map (fun r => (segmentsOf out.2 r, segFitness out.2 r)) =
      [(some [[1, 0], [1, 1]], some 3), (some [[0, 0], [1, 1]], some 2), (some [[0, 0], [1, 1]], some 2)] := by decide +kernel

example :
    let out := segRun exSegConfig (fun s => (2, s)) (fun s => (.ok [0, 1], s + 1)) exSegOnes 2 0 3 ⟨[], [], [], 0⟩
    (out.1.toOption.map fun rs => rs.map (fun r => (segmentsOf out.2 r, segFitness out.2 r))).isSome := by decide +kernel

example : NothingChanged ⟨[], [], [], 0⟩ (segRun exSegConfig (fun s => (2, s)) (fun s => (.ok [0, 1], s + 1)) exSegOnes 2 0 3 ⟨[], [], [], 0⟩).2 :=
  (seg_run_proper (fun g => g.length = 2) (fun gs f => f = (gs.map List.sum).sum) false exSegConfig exSegOps _ _ exSegOnes rfl
    (exSegOps_good false) exSegOnes_value (by simp) (fun s g h => by simp only [Except.ok.injEq] at h; subst h; rfl) 2 0 3 _).1

/-- C114: with `copy_segment` a pipeline does not behave as if genomes were values. A child whose segment has been copied looks like
any individual with two equal segments, also to its own children: but the two are one array, in the child, in its clones and in their clones, so
that flipping every bit of every segment flips each bit twice and gives back the same genome. -/
theorem copied_segments_tied :
    ∃ (m : SegStore Int Int Nat) (g1 g2 : PyM (List Nat) × SegStore Int Int Nat),
      segmentsOf m 0 = some [[0, 0]] ∧
      g1 = segPipeline [0] (fun m => exTurns 1 m.rng)
        [.clone, .copy (fun s => (true, s)) true (fun _ s => (0, s)), .evaluate exSegOnes] 1 m ∧
      g1.1.toOption = some [1] ∧ segmentsOf g1.2 1 = some [[0, 0], [0, 0]] ∧
      g2 = segPipeline [1] (fun m => exTurns 1 m.rng) [.clone, .clone, .apply exFlipAll 2, .evaluate exSegOnes] 1 g1.2 ∧
      (g2.1.toOption.bind fun rs => rs.head?.bind (segmentsOf g2.2)) = some [[0, 0], [0, 0]] ∧
      ((poolByValue [[[0, 0], [0, 0]]] (exTurns 1) [.clone, .clone, .apply exFlipAll 2, .evaluate exSegOnes] 1 g1.2.rng).1.toOption.map
        fun vs => vs.map Prod.fst) = some [[[1, 1], [1, 1]]] :=
  ⟨⟨[[0, 0]], [[0]], [⟨0, some 0⟩], 0⟩, _, _, by decide +kernel, rfl, by decide +kernel, by decide +kernel, rfl, by decide +kernel,
    by decide +kernel⟩

end Leap
