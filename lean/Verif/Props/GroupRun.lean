import Verif.Model.GroupRun
import Verif.Lemmas.Tags

/-!
# C122: runs whose evaluations are made in groups

`grouped_evaluate` asks each individual for `phenome` (leap_ec/ops.py:292), which is decoded once and kept
(leap_ec/individual.py:78-83). `clone` makes a shallow copy of everything but the genome (leap_ec/individual.py:118-151), and no
operator clears the kept phenome.
-/

namespace Leap
open Spec

variable {γ ψ φ ρ : Type} {n : Nat} {allowed : Nat → γ → Prop}

/-! ### What grouped evaluation leaves alone -/

/-- An individual without its cached phenome and fitness. -/
def Obj.core (o : Obj ψ φ) : Obj ψ φ := { o with phenome := none, fitness := none }

/-- From `m` to `m'` only phenomes were cached and fitnesses set, of members of `rs`. -/
structure Graded (dec : Dec γ ψ) (rs : List Nat) (m m' : Mem γ ψ φ ρ) : Prop where
  arrays : m'.arrays = m.arrays
  sets : m'.sets = m.sets
  uuid : m'.nextUuid = m.nextUuid
  core : ∀ r : Nat, (m'.inds[r]?).map Obj.core = (m.inds[r]?).map Obj.core
  shown : ∀ r, shown dec m' r = shown dec m r
  kept : ∀ (r : Nat) (p : Phen ψ), (m.inds[r]?).bind Obj.phenome = some p → (m'.inds[r]?).bind Obj.phenome = some p
  others : ∀ r : Nat, r ∉ rs → m'.inds[r]? = m.inds[r]?

theorem Graded.same (dec : Dec γ ψ) (rs : List Nat) (m : Mem γ ψ φ ρ) : Graded dec rs m m :=
  ⟨rfl, rfl, rfl, fun _ => rfl, fun _ => rfl, fun _ _ h => h, fun _ _ => rfl⟩

theorem Graded.trans {dec : Dec γ ψ} {rs : List Nat} {m m1 m2 : Mem γ ψ φ ρ} (h : Graded dec rs m m1) (h' : Graded dec rs m1 m2) :
    Graded dec rs m m2 :=
  ⟨h'.arrays.trans h.arrays, h'.sets.trans h.sets, h'.uuid.trans h.uuid, fun r => (h'.core r).trans (h.core r),
    fun r => (h'.shown r).trans (h.shown r), fun r p hp => h'.kept r p (h.kept r p hp), fun r hr => (h'.others r hr).trans (h.others r hr)⟩

def KeepsGraded {α : Type} (dec : Dec γ ψ) (rs : List Nat) (x : HM (Mem γ ψ φ ρ) α) : Prop := ∀ m, Graded dec rs m (x m).2

theorem graded_bind {α β : Type} {dec : Dec γ ψ} {rs : List Nat} {x : HM (Mem γ ψ φ ρ) α} {f : α → HM (Mem γ ψ φ ρ) β}
    (hx : KeepsGraded dec rs x) (hf : ∀ a, KeepsGraded dec rs (f a)) : KeepsGraded dec rs (x >>= f) := by
  intro m
  have h := hx m
  rw [HM.bind_apply]
  rcases e : x m with ⟨r, m1⟩
  rw [e] at h
  cases r with
  | error e => exact h
  | ok a => exact h.trans (hf a m1)

theorem graded_pure {α : Type} (dec : Dec γ ψ) (rs : List Nat) (a : α) : KeepsGraded dec rs (pure a : HM (Mem γ ψ φ ρ) α) := fun m => .same dec rs m

theorem graded_raise {α : Type} (dec : Dec γ ψ) (rs : List Nat) (e : PyErr) : KeepsGraded dec rs (HM.raise e : HM (Mem γ ψ φ ρ) α) := fun m => .same dec rs m

theorem graded_getObj (dec : Dec γ ψ) (rs : List Nat) (r : Nat) : KeepsGraded dec rs (getObj r : HM (Mem γ ψ φ ρ) _) := by
  intro m; unfold getObj; split <;> exact .same dec rs m

theorem graded_useRng {α : Type} (dec : Dec γ ψ) (rs : List Nat) (f : ρ → PyM α × ρ) : KeepsGraded dec rs (useRng f : HM (Mem γ ψ φ ρ) α) :=
  fun _ => ⟨rfl, rfl, rfl, fun _ => rfl, fun _ => rfl, fun _ _ h => h, fun _ _ => rfl⟩

theorem graded_cache (dec : Dec γ ψ) (rs : List Nat) (m : Mem γ ψ φ ρ) (r : Nat) (hr : r ∈ rs) (o : Obj ψ φ) (ho : m.inds[r]? = some o)
    (hp : o.phenome = none) (q : Phen ψ) (hq : shown dec m r = seen m q) :
    Graded dec rs m { m with inds := m.inds.modify r fun x => { x with phenome := some q } } := by
  refine ⟨rfl, rfl, rfl, fun r' => ?_, fun r' => ?_, fun r' p h => ?_, fun r' h => ?_⟩
  · by_cases h : r = r'
    · subst h; simp [List.getElem?_modify, ho, Obj.core]
    · simp [List.getElem?_modify, h]
  · by_cases h : r = r'
    · subst h
      rw [hq]
      simp only [Spec.shown, List.getElem?_modify, ho]
      simpa using seen_congr (m := m) (m1 := { m with inds := m.inds.modify r fun x => { x with phenome := some q } }) rfl q
    · simp only [Spec.shown, List.getElem?_modify, h, if_false]
      cases m.inds[r']? with
      | none => rfl
      | some o' =>
        simp only [Option.map_some, Option.map_eq_map]
        cases o'.phenome with
        | none => rfl
        | some p' => exact seen_congr rfl p'
  · by_cases hrr : r = r'
    · subst hrr; rw [ho] at h; simp [hp] at h
    · simpa [List.getElem?_modify, hrr] using h
  · have : r ≠ r' := fun e => h (e ▸ hr)
    simp [List.getElem?_modify, this]

theorem graded_phenomeOf (dec : Dec γ ψ) (rs : List Nat) (r : Nat) (hr : r ∈ rs) : KeepsGraded dec rs (phenomeOf dec r : HM (Mem γ ψ φ ρ) _) := by
  intro m
  cases ho : m.inds[r]? with
  | none =>
    simp only [phenomeOf, HM.bind_apply, getObj, ho]
    exact .same dec rs m
  | some o =>
    cases hp : o.phenome with
    | some p =>
      simp only [phenomeOf, HM.bind_apply, getObj, ho, hp, HM.pure_apply]
      exact .same dec rs m
    | none =>
      cases dec with
      | identity =>
        simp only [phenomeOf, HM.bind_apply, getObj, ho, hp, decodeInd, modObj, HM.pure_apply]
        refine graded_cache _ rs m r hr o ho hp _ ?_
        simp only [Spec.shown, ho, hp, seen, decodeOf]
        cases m.arrays[o.genome]? <;> rfl
      | fn d =>
        cases hg : m.arrays[o.genome]? with
        | none =>
          simp only [phenomeOf, HM.bind_apply, getObj, ho, hp, decodeInd, getArr, hg]
          exact .same _ rs m
        | some g =>
          cases hd : d g with
          | error e =>
            simp only [phenomeOf, HM.bind_apply, getObj, ho, hp, decodeInd, getArr, hg, hd, HM.lift]
            exact .same _ rs m
          | ok v =>
            simp only [phenomeOf, HM.bind_apply, getObj, ho, hp, decodeInd, getArr, hg, hd, HM.lift, modObj, HM.pure_apply]
            refine graded_cache _ rs m r hr o ho hp _ ?_
            simp only [Spec.shown, ho, hp, seen, decodeOf, hg, hd]

/-- Asking for the phenome keeps it. -/
theorem phenomeOf_keeps (dec : Dec γ ψ) (r : Nat) (m m' : Mem γ ψ φ ρ) (p : Phen ψ) (h : phenomeOf dec r m = (.ok p, m')) :
    (m'.inds[r]?).bind Obj.phenome = some p := by
  cases ho : m.inds[r]? with
  | none => simp [phenomeOf, HM.bind_apply, getObj, ho] at h
  | some o =>
    cases hp : o.phenome with
    | some p' =>
      simp only [phenomeOf, HM.bind_apply, getObj, ho, hp, HM.pure_apply, Prod.mk.injEq, Except.ok.injEq] at h
      obtain ⟨rfl, rfl⟩ := h
      simp [ho, hp]
    | none =>
      cases dec with
      | identity =>
        simp only [phenomeOf, HM.bind_apply, getObj, ho, hp, decodeInd, modObj, HM.pure_apply, Prod.mk.injEq, Except.ok.injEq] at h
        obtain ⟨rfl, rfl⟩ := h
        simp [List.getElem?_modify, ho]
      | fn d =>
        cases hg : m.arrays[o.genome]? with
        | none => simp [phenomeOf, HM.bind_apply, getObj, ho, hp, decodeInd, getArr, hg] at h
        | some g =>
          cases hd : d g with
          | error e => simp [phenomeOf, HM.bind_apply, getObj, ho, hp, decodeInd, getArr, hg, hd, HM.lift] at h
          | ok v =>
            simp only [phenomeOf, HM.bind_apply, getObj, ho, hp, decodeInd, getArr, hg, hd, HM.lift, modObj, HM.pure_apply, Prod.mk.injEq,
              Except.ok.injEq] at h
            obtain ⟨rfl, rfl⟩ := h
            simp [List.getElem?_modify, ho]

theorem graded_phenomesOf (dec : Dec γ ψ) (all : List Nat) : ∀ rs : List Nat, (∀ r ∈ rs, r ∈ all) →
    KeepsGraded dec all (phenomesOf dec rs : HM (Mem γ ψ φ ρ) _)
  | [], _ => graded_pure dec all _
  | r :: rs, h => graded_bind (graded_phenomeOf dec all r (h r (by simp))) fun _ =>
      graded_bind (graded_phenomesOf dec all rs fun x hx => h x (by simp [hx])) fun _ => graded_pure dec all _

theorem graded_contentsOf (dec : Dec γ ψ) (all : List Nat) : ∀ ps : List (Phen ψ), KeepsGraded dec all (contentsOf ps : HM (Mem γ ψ φ ρ) _)
  | [] => graded_pure dec all _
  | p :: ps => graded_bind (by
      intro m
      cases p with
      | «alias» a =>
        simp only [contentOf, HM.bind_apply, getArr]
        cases m.arrays[a]? <;> exact .same dec all m
      | decoded v => exact .same dec all m) fun _ => graded_bind (graded_contentsOf dec all ps) fun _ => graded_pure dec all _

theorem graded_evaluateChunks (dec : Dec γ ψ) (prob : Prob γ ψ φ ρ) (all : List Nat) : ∀ chs : List (List Nat), (∀ r ∈ chs.flatten, r ∈ all) →
    KeepsGraded dec all (evaluateChunks dec prob chs)
  | [], _ => graded_pure dec all _
  | ch :: chs, h => by
    refine graded_bind (graded_phenomesOf dec all ch fun r hr => h r (by simp [hr])) fun ps => ?_
    split
    · exact graded_bind (graded_contentsOf dec all ps) fun _ => graded_bind (graded_useRng dec all _) fun _ =>
        graded_bind (graded_evaluateChunks dec prob all chs fun r hr => h r (by rw [List.flatten_cons]; exact List.mem_append_right _ hr)) fun _ =>
          graded_pure dec all _
    · exact graded_raise dec all _

theorem graded_assign (dec : Dec γ ψ) (all : List Nat) : ∀ (fs : List φ) (rs : List Nat), (∀ r ∈ rs, r ∈ all) →
    KeepsGraded dec all (assignFitnesses fs rs : HM (Mem γ ψ φ ρ) _)
  | [], rs, _ => by cases rs <;> exact graded_pure dec all _
  | _ :: _, [], _ => graded_pure dec all _
  | f :: fs, r :: rs, h => by
    refine graded_bind ?_ fun _ => graded_assign dec all fs rs fun x hx => h x (by simp [hx])
    intro m
    refine ⟨rfl, rfl, rfl, fun r' => ?_, fun r' => ?_, fun r' p hp => ?_, fun r' hr' => ?_⟩
    · by_cases hr : r = r'
      · subst hr; cases ho : m.inds[r]? <;> simp [modObj, List.getElem?_modify, ho, Obj.core]
      · simp [modObj, List.getElem?_modify, hr]
    · by_cases hr : r = r'
      · subst hr
        cases ho : m.inds[r]? with
        | none => simp [Spec.shown, modObj, List.getElem?_modify, ho]
        | some o =>
          simp only [Spec.shown, modObj, List.getElem?_modify, ho]
          simp only [if_true, Option.map_some, Option.map_eq_map]
          cases o.phenome with
          | none => rfl
          | some p => exact seen_congr rfl p
      · simp only [Spec.shown, modObj, List.getElem?_modify, hr, if_false]
        cases m.inds[r']? with
        | none => rfl
        | some o =>
          simp only [Option.map_some, Option.map_eq_map]
          cases o.phenome with
          | none => rfl
          | some p => exact seen_congr rfl p
    · by_cases hr : r = r'
      · subst hr
        cases ho : m.inds[r]? with
        | none => simp [ho] at hp
        | some o => simpa [modObj, List.getElem?_modify, ho] using hp
      · simpa [modObj, List.getElem?_modify, hr] using hp
    · have : r ≠ r' := fun e => hr' (e ▸ h r (by simp))
      simp [modObj, List.getElem?_modify, this]

theorem graded_problemsOf (dec : Dec γ ψ) (all : List Nat) : ∀ rs : List Nat, KeepsGraded dec all (problemsOf rs : HM (Mem γ ψ φ ρ) _)
  | [] => graded_pure dec all _
  | r :: rs => graded_bind (graded_getObj dec all r) fun _ => graded_bind (graded_problemsOf dec all rs) fun _ => graded_pure dec all _

theorem graded_grouped (dec : Dec γ ψ) (prob : Prob γ ψ φ ρ) (chunk : Option Nat) (pop : List Nat) :
    KeepsGraded dec pop (groupedEvaluate dec prob chunk pop) := by
  cases pop with
  | nil => exact graded_raise dec _ _
  | cons p0 rest =>
    refine graded_bind (graded_getObj dec _ _) fun o => graded_bind (graded_problemsOf dec _ _) fun ps => ?_
    split
    · dsimp only
      split
      · rename_i hn
        refine graded_bind (graded_evaluateChunks dec prob _ _ ?_) fun fs => graded_bind (graded_assign dec _ _ _ fun r hr => hr) fun _ =>
          graded_pure dec _ _
        intro r hr
        rwa [chunksOf_flatten] at hr
      · exact graded_raise dec _ _
    · exact graded_raise dec _ _

theorem KeepsGraded.ok {α : Type} {dec : Dec γ ψ} {rs : List Nat} {x : HM (Mem γ ψ φ ρ) α} (h : KeepsGraded dec rs x) {m m' : Mem γ ψ φ ρ} {a : α}
    (e : x m = (.ok a, m')) : Graded dec rs m m' := by
  have := h m; rw [e] at this; exact this

/-- After grouped evaluation, everybody has a phenome. -/
theorem phenomesOf_keeps (dec : Dec γ ψ) (all : List Nat) : ∀ (rs : List Nat) (m m' : Mem γ ψ φ ρ) (ps : List (Phen ψ)), (∀ r ∈ rs, r ∈ all) →
    phenomesOf dec rs m = (.ok ps, m') → ∀ r ∈ rs, ∃ p, (m'.inds[r]?).bind Obj.phenome = some p := by
  intro rs
  induction rs with
  | nil => intro m m' ps _ _ r hr; simp at hr
  | cons r0 rs ih =>
    intro m m' ps ha h r hr
    obtain ⟨p, m1, e1, h⟩ := bind_ok h
    obtain ⟨qs, m2, e2, h⟩ := bind_ok h
    simp only [HM.pure_apply, Prod.mk.injEq, Except.ok.injEq] at h
    obtain ⟨rfl, rfl⟩ := h
    rcases List.mem_cons.1 hr with rfl | hr
    · exact ⟨p, ((graded_phenomesOf dec all rs fun x hx => ha x (by simp [hx])).ok e2).kept _ _ (phenomeOf_keeps dec _ m m1 p e1)⟩
    · exact ih m1 m2 qs (fun x hx => ha x (by simp [hx])) e2 r hr

theorem chunks_keep (dec : Dec γ ψ) (prob : Prob γ ψ φ ρ) (all : List Nat) : ∀ (chs : List (List Nat)) (m m' : Mem γ ψ φ ρ) (fs : List φ),
    (∀ r ∈ chs.flatten, r ∈ all) → evaluateChunks dec prob chs m = (.ok fs, m') →
    ∀ r ∈ chs.flatten, ∃ p, (m'.inds[r]?).bind Obj.phenome = some p := by
  intro chs
  induction chs with
  | nil => intro m m' fs _ _ r hr; simp at hr
  | cons ch chs ih =>
    intro m m' fs ha h r hr
    obtain ⟨ps, m1, e1, h⟩ := bind_ok h
    split at h
    · obtain ⟨cs, m2, e2, h⟩ := bind_ok h
      obtain ⟨fit, m3, e3, h⟩ := bind_ok h
      obtain ⟨more, m4, e4, h⟩ := bind_ok h
      simp only [HM.pure_apply, Prod.mk.injEq, Except.ok.injEq] at h
      obtain ⟨rfl, rfl⟩ := h
      have hsub : ∀ x ∈ chs.flatten, x ∈ all := fun x hx => ha x (by rw [List.flatten_cons]; exact List.mem_append_right _ hx)
      rw [List.flatten_cons] at hr
      rcases List.mem_append.1 hr with hr | hr
      · obtain ⟨p, hp⟩ := phenomesOf_keeps dec all ch m m1 ps (fun x hx => ha x (by simp [hx])) e1 r hr
        exact ⟨p, ((graded_evaluateChunks dec prob all chs hsub).ok e4).kept _ _
          (((graded_useRng dec all _).ok e3).kept _ _ (((graded_contentsOf dec all ps).ok e2).kept _ _ hp))⟩
      · exact ih m3 m4 more hsub e4 r hr
    · simp [HM.raise] at h

theorem grouped_keeps (dec : Dec γ ψ) (prob : Prob γ ψ φ ρ) (chunk : Option Nat) (pop out : List Nat) (m m' : Mem γ ψ φ ρ)
    (h : groupedEvaluate dec prob chunk pop m = (.ok out, m')) : out = pop ∧ ∀ r ∈ pop, ∃ p, (m'.inds[r]?).bind Obj.phenome = some p := by
  cases pop with
  | nil => simp [groupedEvaluate, HM.raise] at h
  | cons p0 rest =>
    obtain ⟨o, m1, e1, h⟩ := bind_ok h
    obtain ⟨ps, m2, e2, h⟩ := bind_ok h
    split at h
    · dsimp only at h
      split at h
      · rename_i hn
        obtain ⟨fs, m3, e3, h⟩ := bind_ok h
        obtain ⟨_, m4, e4, h⟩ := bind_ok h
        simp only [HM.pure_apply, Prod.mk.injEq, Except.ok.injEq] at h
        obtain ⟨rfl, rfl⟩ := h
        refine ⟨rfl, fun r hr => ?_⟩
        obtain ⟨p, hp⟩ := chunks_keep dec prob (p0 :: rest) _ m2 m3 fs (by intro r hr; rwa [chunksOf_flatten] at hr) e3 r (by rwa [chunksOf_flatten])
        exact ⟨p, ((graded_assign dec (p0 :: rest) _ _ fun r hr => hr).ok e4).kept _ _ hp⟩
      · simp [HM.raise] at h
    · simp [HM.raise] at h

theorem Graded.sound {dec : Dec γ ψ} {rs : List Nat} {m m' : Mem γ ψ φ ρ} (h : Graded dec rs m m') (hm : Sound m) : Sound m' := by
  have hback : ∀ x ∈ m'.inds, ∃ y ∈ m.inds, y.genome = x.genome ∧ y.parents = x.parents ∧ y.uuid = x.uuid := by
    intro x hx
    obtain ⟨i, hi⟩ := List.mem_iff_getElem?.1 hx
    have := h.core i
    rw [hi] at this
    cases hy : m.inds[i]? with
    | none => rw [hy] at this; simp at this
    | some y =>
      rw [hy] at this
      simp only [Option.map_some, Option.some.injEq, Obj.core, Obj.mk.injEq] at this
      exact ⟨y, List.mem_of_getElem? hy, this.1.symm, this.2.2.2.2.1.symm, this.2.2.2.1.symm⟩
  refine ⟨fun x hx => ?_, fun x hx => ?_, fun x hx => ?_⟩ <;> obtain ⟨y, hy, e1, e2, e3⟩ := hback x hx
  · rw [h.arrays, ← e1]; exact hm.genome y hy
  · rw [h.sets, ← e2]; exact hm.parents y hy
  · rw [h.uuid, ← e3]; exact hm.uuid y hy

theorem Graded.length {dec : Dec γ ψ} {rs : List Nat} {m m' : Mem γ ψ φ ρ} (h : Graded dec rs m m') : m'.inds.length = m.inds.length := by
  have key : ∀ i, i < m'.inds.length ↔ i < m.inds.length := by
    intro i
    have := h.core i
    have hn : m'.inds[i]? = none ↔ m.inds[i]? = none := by
      cases h1 : m'.inds[i]? <;> cases h2 : m.inds[i]? <;> rw [h1, h2] at this <;> simp at this ⊢
    rw [List.getElem?_eq_none_iff, List.getElem?_eq_none_iff] at hn
    omega
  have h1 := key m.inds.length
  have h2 := key m'.inds.length
  omega

theorem Graded.genes {dec : Dec γ ψ} {rs : List Nat} {m m' : Mem γ ψ φ ρ} (h : Graded dec rs m m') (r : Nat) : genes m' r = genes m r := by
  have := h.core r
  simp only [Spec.genes, h.arrays]
  cases h1 : m'.inds[r]? <;> cases h2 : m.inds[r]? <;> rw [h1, h2] at this <;>
    simp only [Option.map_none, Option.map_some, reduceCtorEq, Option.some.injEq, Obj.core, Obj.mk.injEq] at this
  · simp [this.1]

theorem Graded.problem {dec : Dec γ ψ} {rs : List Nat} {m m' : Mem γ ψ φ ρ} (h : Graded dec rs m m') (r : Nat) (o : Obj ψ φ)
    (ho : m.inds[r]? = some o) : ∃ o', m'.inds[r]? = some o' ∧ o'.problem = o.problem := by
  have := h.core r
  rw [ho] at this
  cases h1 : m'.inds[r]? with
  | none => rw [h1] at this; simp at this
  | some o' =>
    rw [h1] at this
    simp only [Option.map_some, Option.some.injEq, Obj.core, Obj.mk.injEq] at this
    exact ⟨o', rfl, this.2.2.2.2.2.1⟩

/-! ### Members of the population -/

/-- Individual `r` has a kept phenome, one of `Q`, acceptable genes and problem `q`. -/
def Carrier (n : Nat) (allowed : Nat → γ → Prop) (Q : Content γ ψ → Prop) (q : Nat) (m : Mem γ ψ φ ρ) (r : Nat) : Prop :=
  ∃ o p c g, m.inds[r]? = some o ∧ o.phenome = some p ∧ seen m p = some c ∧ Q c ∧ o.problem = q ∧ genes m r = some g ∧ GenesIn n allowed g

/-- ... and the score of that phenome as its fitness. -/
def CarrierScored (n : Nat) (allowed : Nat → γ → Prop) (Q : Content γ ψ → Prop) (q : Nat) (score : Content γ ψ → φ) (m : Mem γ ψ φ ρ) (r : Nat) :
    Prop := ∃ o p c g, m.inds[r]? = some o ∧ o.phenome = some p ∧ seen m p = some c ∧ Q c ∧ o.problem = q ∧ genes m r = some g ∧
      GenesIn n allowed g ∧ o.fitness = some (score c)

theorem seen_unchanged {m m' : Mem γ ψ φ ρ} (h : Unchanged m m') {p : Phen ψ} {c : Content γ ψ} (hc : seen m p = some c) : seen m' p = some c := by
  cases p with
  | decoded v => exact hc
  | «alias» a =>
    simp only [seen] at hc ⊢
    cases ha : m.arrays[a]? with
    | none => rw [ha] at hc; simp at hc
    | some g => rw [h.arrays a (List.getElem?_eq_some_iff.1 ha).1, ha, ← hc, ha]

theorem carrierScored_unchanged {Q : Content γ ψ → Prop} {q : Nat} {score : Content γ ψ → φ} {m m' : Mem γ ψ φ ρ} (hm : Sound m) (h : Unchanged m m')
    {r : Nat} (hr : CarrierScored n allowed Q q score m r) : CarrierScored n allowed Q q score m' r := by
  obtain ⟨o, p, c, g, h1, h2, h3, h4, h5, h6, h7, h8⟩ := hr
  have hlt := (List.getElem?_eq_some_iff.1 h1).1
  exact ⟨o, p, c, g, by rw [h.inds r hlt, h1], h2, seen_unchanged h h3, h4, h5, by rw [(unchanged_same hm h hlt).2, h6], h7, h8⟩

/-- Grouped evaluation of individuals that show `e`. -/
theorem grouped_scores (dec : Dec γ ψ) (prob : Prob γ ψ φ ρ) (hti : prob.takesIndividuals = true) (score : Content γ ψ → φ)
    (hmul : ∀ cs s, prob.evaluateMultiple cs s = (.ok (cs.map score), s)) (chunk : Option Nat) (hchunk : ∀ k, chunk = some k → 0 < k)
    (Q : Content γ ψ → Prop) (q : Nat) (pop : List Nat) (hne : pop ≠ []) (m : Mem γ ψ φ ρ)
    (hpop : ∀ r ∈ pop, ∃ o c g, m.inds[r]? = some o ∧ shown dec m r = some c ∧ Q c ∧ o.problem = q ∧ genes m r = some g ∧ GenesIn n allowed g) :
    ∃ m', groupedEvaluate dec prob chunk pop m = (.ok pop, m') ∧ Graded dec pop m m' ∧ (∀ r ∈ pop, CarrierScored n allowed Q q score m' r) ∧
      ∀ r ∈ pop, ∀ c, shown dec m r = some c → fitness m' r = some (some (score c)) := by
  classical
  let e : Nat → Content γ ψ := fun r => (shown dec m r).getD (.raw [])
  have he : ∀ r ∈ pop, shown dec m r = some (e r) := by
    intro r hr
    obtain ⟨o, c, g, -, h, -⟩ := hpop r hr
    simp [e, h]
  obtain ⟨m', h1, h2, -⟩ := grouped_evaluate_exact dec prob hti score hmul chunk hchunk pop hne q m (by
    intro r hr
    obtain ⟨o, c, g, h1, -, -, h2, -⟩ := hpop r hr
    exact ⟨o, h1, h2⟩) e he
  have hg := (graded_grouped dec prob chunk pop).ok h1
  obtain ⟨-, hk⟩ := grouped_keeps dec prob chunk pop pop m m' h1
  refine ⟨m', h1, hg, fun r hr => ?_, fun r hr c hc => ?_⟩
  · obtain ⟨o, c, g, a1, a2, a3, a4, a5, a6⟩ := hpop r hr
    obtain ⟨o', b1, b2⟩ := hg.problem r o a1
    obtain ⟨p, hp⟩ := hk r hr
    rw [b1] at hp
    simp only [Option.bind_some] at hp
    have hs := hg.shown r
    rw [a2] at hs
    have hs' : seen m' p = some c := by simpa [Spec.shown, b1, hp] using hs
    have hf := (h2 r hr).1
    rw [show e r = c by simp [e, a2]] at hf
    simp only [fitness, b1, Option.map_some, Option.some.injEq] at hf
    exact ⟨o', p, c, g, b1, hp, hs', a3, b2.trans a4, by rw [hg.genes, a5], a6, hf⟩
  · rw [(h2 r hr).1, show e r = c by simp [e, hc]]

theorem carrierScored_member {Q : Content γ ψ → Prop} {q : Nat} {score : Content γ ψ → φ} {m : Mem γ ψ φ ρ} {r : Nat}
    (h : CarrierScored n allowed Q q score m r) : Member n allowed (fun _ _ => True) m r := by
  obtain ⟨o, p, c, g, h1, -, -, -, -, h6, h7, h8⟩ := h
  exact ⟨g, score c, h6, h7, by simp [fitness, h1, h8], trivial⟩

/-- One generation. -/
theorem group_generation (cfg : EvoConfig γ ψ φ ρ) (dec : Dec γ ψ) (prob : Prob γ ψ φ ρ) (hti : prob.takesIndividuals = true)
    (score : Content γ ψ → φ) (hmul : ∀ cs s, prob.evaluateMultiple cs s = (.ok (cs.map score), s)) (chunk : Option Nat)
    (hchunk : ∀ k, chunk = some k → 0 < k) (hst : ∀ st ∈ cfg.stages, StageOk n allowed (fun _ _ => True) st)
    (hne : ∀ st ∈ cfg.stages, evaluates st = false) (Q : Content γ ψ → Prop) (q : Nat) (g : Int) (parents : List Nat) (m m1 : Mem γ ψ φ ρ)
    (pooled : List Nat) (hm : Sound m) (hp : ∀ r ∈ parents, CarrierScored n allowed Q q score m r)
    (h : runPipeline parents (cfg.choose g parents) cfg.stages cfg.size m = (.ok pooled, m1)) (hpne : pooled ≠ []) :
    ∃ m2, groupedEvaluate dec prob chunk pooled m1 = (.ok pooled, m2) ∧ Sound m2 ∧ Unchanged m m2 ∧ pooled.length = cfg.size ∧ pooled.Nodup ∧
      ∀ r ∈ pooled, m.inds.length ≤ r ∧ CarrierScored n allowed Q q score m2 r := by
  have hgood : ∀ r ∈ parents, GoodInd (GenesIn n allowed) (fun _ _ => True) m r := fun r hr => ((member_iff m r).1 (carrierScored_member (hp r hr))).1
  have hlt : ∀ r ∈ parents, r < m.inds.length := by
    intro r hr
    obtain ⟨o, p, c, g, h1, -⟩ := hp r hr
    exact (List.getElem?_eq_some_iff.1 h1).1
  obtain ⟨s1, u1, l1, nd1, q1⟩ := pipeline_keeps_feasible m m1 hm parents hgood _ cfg.stages hst cfg.size pooled h
  obtain ⟨m2, e2, hg, hc, -⟩ := grouped_scores (n := n) (allowed := allowed) dec prob hti score hmul chunk hchunk Q q pooled hpne m1 (by
    intro r hr
    obtain ⟨-, b2, ⟨gg, fo, c1, -, c3, -⟩, -⟩ := q1 r hr
    obtain ⟨p, hpp, op, d1, d2, d3⟩ := pipeline_tags m m1 parents hlt _ cfg.stages hne cfg.size pooled h r hr m1.inds[r] (List.getElem?_eq_getElem b2)
    obtain ⟨o, ph, c, g0, f1, f2, f3, f4, f5, -⟩ := hp p hpp
    rw [d1] at f1
    cases f1
    exact ⟨m1.inds[r], c, gg, List.getElem?_eq_getElem b2, by
      simp [Spec.shown, List.getElem?_eq_getElem b2, d2.trans f2, seen_unchanged u1 f3], f4, d3.trans f5, c1, c3⟩)
  obtain ⟨k1, k2, k3⟩ := unchanged_length u1
  refine ⟨m2, e2, hg.sound s1, ⟨fun r hr => ?_, fun a ha => by rw [hg.arrays]; exact u1.arrays a ha, fun a ha => by rw [hg.sets]; exact u1.sets a ha⟩,
    l1, nd1, fun r hr => ⟨(q1 r hr).1, hc r hr⟩⟩
  rw [hg.others r fun hx => by have := (q1 r hx).1; omega]
  exact u1.inds r hr

theorem group_loop_members (cfg : EvoConfig γ ψ φ ρ) (dec : Dec γ ψ) (prob : Prob γ ψ φ ρ) (hti : prob.takesIndividuals = true)
    (score : Content γ ψ → φ) (hmul : ∀ cs s, prob.evaluateMultiple cs s = (.ok (cs.map score), s)) (chunk : Option Nat)
    (hchunk : ∀ k, chunk = some k → 0 < k) (hst : ∀ st ∈ cfg.stages, StageOk n allowed (fun _ _ => True) st)
    (hne : ∀ st ∈ cfg.stages, evaluates st = false) (Q : Content γ ψ → Prop) (q : Nat) (fuel : Nat) :
    ∀ (g : Int) (parents : List Nat) (m m' : Mem γ ψ φ ρ) (out : List Nat), Sound m → parents.Nodup →
      (∀ r ∈ parents, CarrierScored n allowed Q q score m r) → groupLoop cfg dec prob chunk fuel g parents m = (.ok out, m') →
      Unchanged m m' ∧ out.Nodup ∧ (out = parents ∨ out.length = cfg.size) ∧
      ∀ r ∈ out, (r ∈ parents ∨ m.inds.length ≤ r) ∧ CarrierScored n allowed Q q score m' r := by
  induction fuel with
  | zero =>
    intro g parents m m' out hm hnd hp h
    simp only [groupLoop, HM.pure_apply, Prod.mk.injEq, Except.ok.injEq] at h
    obtain ⟨rfl, rfl⟩ := h
    exact ⟨⟨fun _ _ => rfl, fun _ _ => rfl, fun _ _ => rfl⟩, hnd, Or.inl rfl, fun r hr => ⟨Or.inl hr, hp r hr⟩⟩
  | succ fuel ih =>
    intro g parents m m' out hm hnd hp h
    unfold groupLoop at h
    split at h
    · simp only [Prod.mk.injEq, Except.ok.injEq] at h
      obtain ⟨rfl, rfl⟩ := h
      exact ⟨⟨fun _ _ => rfl, fun _ _ => rfl, fun _ _ => rfl⟩, hnd, Or.inl rfl, fun r hr => ⟨Or.inl hr, hp r hr⟩⟩
    · cases e : runPipeline parents (cfg.choose g parents) cfg.stages cfg.size m with
      | mk x m1 =>
      rw [e] at h
      cases x with
      | error err => simp at h
      | ok pooled =>
      simp only at h
      have hpne : pooled ≠ [] := by
        rintro rfl
        simp [groupedEvaluate, HM.raise] at h
      obtain ⟨m2, e2, s2, u2, l2, nd2, q2⟩ := group_generation cfg dec prob hti score hmul chunk hchunk hst hne Q q g parents m m1 pooled hm hp e hpne
      rw [e2] at h
      simp only at h
      have hlt : ∀ r ∈ parents, r < m.inds.length := by
        intro r hr
        obtain ⟨o, p, c, g, h1, -⟩ := hp r hr
        exact (List.getElem?_eq_some_iff.1 h1).1
      have hr' : ∀ r ∈ (elitistSurvival (cfg.lt m2) pooled parents cfg.kElites).1, r ∈ pooled ∨ r ∈ parents := by
        intro r hr
        rcases List.mem_append.1 (topk_mem hr) with h | h
        · exact Or.inl h
        · exact Or.inr (topk_mem h)
      have hlen : (elitistSurvival (cfg.lt m2) pooled parents cfg.kElites).1.length = cfg.size := by
        simp [elitistSurvival, topk_length, l2]
      have hnd' : (elitistSurvival (cfg.lt m2) pooled parents cfg.kElites).1.Nodup := by
        refine nodup_of_subperm (topk_subperm _ _ _) (List.nodup_append.2 ⟨nd2, nodup_of_subperm (topk_subperm _ _ _) hnd, fun a ha b hb => ?_⟩)
        have h1 := (q2 a ha).1
        have h2 := hlt b (topk_mem hb)
        omega
      obtain ⟨u3, nd3, l3, q3⟩ := ih (g + 1) _ m2 m' out s2 hnd' (fun r hr => by
        rcases hr' r hr with h | h
        · exact (q2 r h).2
        · exact carrierScored_unchanged hm u2 (hp r h)) h
      obtain ⟨k1, k2, k3⟩ := unchanged_length u2
      refine ⟨unchanged_trans u2 u3 k1 k2 k3, nd3, Or.inr ?_, fun r hr => ⟨?_, (q3 r hr).2⟩⟩
      · rcases l3 with rfl | l3
        · exact hlen
        · exact l3
      · rcases (q3 r hr).1 with h | h
        · rcases hr' r h with h | h
          · exact Or.inr (q2 r h).1
          · exact Or.inl h
        · right; omega

theorem group_loop_returns (cfg : EvoConfig γ ψ φ ρ) (dec : Dec γ ψ) (prob : Prob γ ψ φ ρ) (hti : prob.takesIndividuals = true)
    (score : Content γ ψ → φ) (hmul : ∀ cs s, prob.evaluateMultiple cs s = (.ok (cs.map score), s)) (chunk : Option Nat)
    (hchunk : ∀ k, chunk = some k → 0 < k) (hst : ∀ st ∈ cfg.stages, StageOk n allowed (fun _ _ => True) st)
    (hsl : ∀ st ∈ cfg.stages, StageLive n allowed st) (hne : ∀ st ∈ cfg.stages, evaluates st = false) (hsize : 1 ≤ cfg.size)
    (hc : ∀ g pop m, pop ≠ [] → (∀ r ∈ pop, Member n allowed (fun _ _ => True) m r) → ∃ i, (cfg.choose g pop m).1 = .ok i ∧ i < pop.length)
    (Q : Content γ ψ → Prop) (q : Nat) (fuel : Nat) :
    ∀ (g : Int) (parents : List Nat) (m : Mem γ ψ φ ρ), Sound m → parents ≠ [] →
      (∀ r ∈ parents, CarrierScored n allowed Q q score m r) → ∃ out m', groupLoop cfg dec prob chunk fuel g parents m = (.ok out, m') := by
  induction fuel with
  | zero => intro g parents m _ _ _; exact ⟨parents, m, rfl⟩
  | succ fuel ih =>
    intro g parents m hm hpn hp
    unfold groupLoop
    split
    · exact ⟨_, _, rfl⟩
    · have hlt : ∀ r ∈ parents, r < m.inds.length := by
        intro r hr
        obtain ⟨o, p, c, g, h1, -⟩ := hp r hr
        exact (List.getElem?_eq_some_iff.1 h1).1
      have hgood : ∀ r ∈ parents, GoodInd (GenesIn n allowed) (fun _ _ => True) m r := fun r hr => ((member_iff m r).1 (carrierScored_member (hp r hr))).1
      obtain ⟨pooled, m1, e⟩ := pipeline_returns m hm parents hgood (cfg.choose g parents)
        (fun m1 hu => hc g parents m1 hpn fun r hr => member_same (unchanged_same hm hu (hlt r hr)) (carrierScored_member (hp r hr)))
        cfg.stages hst hsl cfg.size
      obtain ⟨-, -, l1, -⟩ := pipeline_keeps_feasible m m1 hm parents hgood _ cfg.stages hst cfg.size pooled e
      have hpne : pooled ≠ [] := by rintro rfl; simp at l1; omega
      obtain ⟨m2, e2, s2, u2, l2, nd2, q2⟩ := group_generation cfg dec prob hti score hmul chunk hchunk hst hne Q q g parents m m1 pooled hm hp e hpne
      rw [e]
      simp only
      rw [e2]
      simp only
      have hlen : (elitistSurvival (cfg.lt m2) pooled parents cfg.kElites).1.length = cfg.size := by
        simp [elitistSurvival, topk_length, l2]
      refine ih (g + 1) _ m2 s2 (by rintro h; rw [h] at hlen; simp at hlen; omega) fun r hr => ?_
      have hr' : r ∈ pooled ∨ r ∈ parents := by
        rcases List.mem_append.1 (topk_mem hr) with h | h
        · exact Or.inl h
        · exact Or.inr (topk_mem h)
      rcases hr' with h | h
      · exact (q2 r h).2
      · exact carrierScored_unchanged hm u2 (hp r h)

/-- The initial population: grouped evaluation gives everybody the score of its own genes. -/
theorem group_start (initGenome : ρ → PyM (List γ) × ρ) (dec : Dec γ ψ) (prob : Prob γ ψ φ ρ) (hti : prob.takesIndividuals = true)
    (score : Content γ ψ → φ) (hmul : ∀ cs s, prob.evaluateMultiple cs s = (.ok (cs.map score), s)) (chunk : Option Nat)
    (hchunk : ∀ k, chunk = some k → 0 < k) (hinit : ∀ s g s', initGenome s = (.ok g, s') → GenesIn n allowed g)
    (hdec : ∀ g, GenesIn n allowed g → ∃ c, decodeOf dec g = .ok c) (problem popSize : Nat) (hpop : 1 ≤ popSize) (m : Mem γ ψ φ ρ) (hm : Sound m)
    (gs : List (List γ)) (s' : ρ) (hd : Drawn initGenome popSize m.rng gs s') :
    ∃ m1 m2, createPopulation initGenome problem popSize m = (.ok (List.range' m.inds.length popSize), m1) ∧
      groupedEvaluate dec prob chunk (List.range' m.inds.length popSize) m1 = (.ok (List.range' m.inds.length popSize), m2) ∧
      Sound m2 ∧ Unchanged m m2 ∧
      (∀ r ∈ List.range' m.inds.length popSize, CarrierScored n allowed (fun c => ∃ g0 ∈ gs, decodeOf dec g0 = .ok c) problem score m2 r) ∧
      ∀ r ∈ List.range' m.inds.length popSize, ∃ g c, genes m2 r = some g ∧ decodeOf dec g = .ok c ∧ fitness m2 r = some (some (score c)) := by
  have heff := create_population_effect initGenome problem popSize m gs s' hd
  obtain ⟨parents, m1, e1, -, -, u1, s1, q1⟩ := create_population_spec initGenome problem popSize m hm gs s' hd
  have hp : parents = List.range' m.inds.length popSize := by rw [e1] at heff; cases heff; rfl
  have hm1 : ∀ r ∈ parents, ∃ o, m1.inds[r]? = some o ∧ o.phenome = none := by
    rw [e1] at heff
    cases heff
    intro r hr
    obtain ⟨i, hi, rfl⟩ : ∃ i, i < popSize ∧ r = m.inds.length + i := by
      simp only [List.mem_range'_1] at hr
      exact ⟨r - m.inds.length, by omega, by omega⟩
    exact ⟨_, by rw [List.getElem?_append_right (by omega)]; simp [hi]; rfl, rfl⟩
  subst hp
  have hall : ∀ r ∈ List.range' m.inds.length popSize, ∃ o c g, m1.inds[r]? = some o ∧ shown dec m1 r = some c ∧
      (∃ g0 ∈ gs, decodeOf dec g0 = .ok c) ∧ o.problem = problem ∧ genes m1 r = some g ∧ GenesIn n allowed g ∧ decodeOf dec g = .ok c := by
    intro r hr
    obtain ⟨i, hi⟩ := List.mem_iff_getElem?.1 hr
    obtain ⟨-, a2, -, o, a3, -, a5, -⟩ := q1 i r hi
    have hil : i < gs.length := by
      have := (List.getElem?_eq_some_iff.1 hi).1
      rw [hd.length]; simpa using this
    rw [List.getElem?_eq_getElem hil] at a2
    have hg := drawn_all hinit hd _ (List.getElem_mem hil)
    obtain ⟨c, hc⟩ := hdec _ hg
    obtain ⟨o', b1, b2⟩ := hm1 r hr
    rw [a3] at b1
    cases b1
    obtain ⟨o2, d1, d2, -⟩ := genes_lt a2
    rw [a3] at d1
    cases d1
    exact ⟨o, c, gs[i], a3, by simp [Spec.shown, a3, b2, d2, hc], ⟨_, List.getElem_mem hil, hc⟩, a5, a2, hg, hc⟩
  obtain ⟨m2, e2, hg, hcs, hf⟩ := grouped_scores (n := n) (allowed := allowed) dec prob hti score hmul chunk hchunk
    (fun c => ∃ g0 ∈ gs, decodeOf dec g0 = .ok c) problem (List.range' m.inds.length popSize)
    (by intro h; have := congrArg List.length h; simp at this; omega) m1 (by
      intro r hr
      obtain ⟨o, c, g, h1, h2, h3, h4, h5, h6, -⟩ := hall r hr
      exact ⟨o, c, g, h1, h2, h3, h4, h5, h6⟩)
  refine ⟨m1, m2, e1, e2, hg.sound s1, ⟨fun r hr => ?_, fun a ha => by rw [hg.arrays]; exact u1.arrays a ha, fun a ha => by rw [hg.sets]; exact u1.sets a ha⟩,
    hcs, fun r hr => ?_⟩
  · rw [hg.others r (by simp; omega)]
    exact u1.inds r hr
  · obtain ⟨o, c, g, -, h2, -, -, h5, -, h7⟩ := hall r hr
    exact ⟨g, c, by rw [hg.genes, h5], h7, hf r hr c h2⟩

/-! ## The run -/

/-- C122: run `generational_ea` with `grouped_evaluate` both for the initial population and at the end of the pipeline, with any selection,
clone, mutation and crossover operators, any chunk size, any number of generations and any random numbers, on a problem that scores a phenome
the same way every time. Whenever it returns, the fitness of everybody it returns is the score of the genome that some member of the *initial*
population was created with, whatever genes the individual has by now: no genome made by mutation or crossover is ever scored. The rest is as
in other runs: everybody returned is different and has acceptable genes, there are as many as the pool makes (or the initial population), and
nothing that existed before has changed. -/
theorem grouped_run_scores_founders (cfg : EvoConfig γ ψ φ ρ) (initGenome : ρ → PyM (List γ) × ρ) (dec : Dec γ ψ) (prob : Prob γ ψ φ ρ)
    (hti : prob.takesIndividuals = true) (score : Content γ ψ → φ) (hmul : ∀ cs s, prob.evaluateMultiple cs s = (.ok (cs.map score), s))
    (chunk : Option Nat) (hchunk : ∀ k, chunk = some k → 0 < k) (hinit : ∀ s g s', initGenome s = (.ok g, s') → GenesIn n allowed g)
    (hdec : ∀ g, GenesIn n allowed g → ∃ c, decodeOf dec g = .ok c) (hst : ∀ st ∈ cfg.stages, StageOk n allowed (fun _ _ => True) st)
    (hne : ∀ st ∈ cfg.stages, evaluates st = false) (problem popSize : Nat) (startGeneration maxGenerations : Int) (m m' : Mem γ ψ φ ρ) (hm : Sound m)
    (out : List Nat) (h : groupRun cfg initGenome dec prob chunk problem popSize startGeneration maxGenerations m = (.ok out, m')) :
    ∃ founders s', Drawn initGenome popSize m.rng founders s' ∧ Unchanged m m' ∧ out.Nodup ∧ (out.length = popSize ∨ out.length = cfg.size) ∧
      ∀ r ∈ out, m.inds.length ≤ r ∧ (∃ g, genes m' r = some g ∧ GenesIn n allowed g) ∧
        ∃ g0 ∈ founders, ∃ c, decodeOf dec g0 = .ok c ∧ fitness m' r = some (some (score c)) := by
  obtain ⟨created, m1, e1, h⟩ := bind_ok h
  obtain ⟨parents, m2, e2, h⟩ := bind_ok h
  obtain ⟨gs, s', hd⟩ : ∃ gs s', Drawn initGenome popSize m.rng gs s' := by
    rcases drawn_or_raises initGenome popSize m.rng with h | ⟨j, gs, s1, e, s2, h1, h2, h3⟩
    · exact h
    · have := create_population_raises initGenome problem popSize j m gs s1 s2 e h1 h2 h3
      rw [e1] at this
      cases this
  have hpop : 1 ≤ popSize := by
    by_contra hlt
    obtain rfl : popSize = 0 := by omega
    cases hd
    simp only [createPopulation, HM.pure_apply, Prod.mk.injEq, Except.ok.injEq] at e1
    obtain ⟨rfl, rfl⟩ := e1
    simp [groupedEvaluate, HM.raise] at e2
  obtain ⟨m1', m2', e1', e2', s2, u2, hc, -⟩ := group_start (n := n) (allowed := allowed) initGenome dec prob hti score hmul chunk hchunk hinit hdec
    problem popSize hpop m hm gs s' hd
  rw [e1] at e1'
  cases e1'
  rw [e2] at e2'
  cases e2'
  obtain ⟨u3, nd3, l3, q3⟩ := group_loop_members cfg dec prob hti score hmul chunk hchunk hst hne _ problem _ _ _ m2 m' out s2 List.nodup_range' hc h
  obtain ⟨k1, k2, k3⟩ := unchanged_length u2
  refine ⟨gs, s', hd, unchanged_trans u2 u3 k1 k2 k3, nd3, ?_, fun r hr => ?_⟩
  · rcases l3 with rfl | l3
    · left; simp
    · exact Or.inr l3
  · obtain ⟨hor, o, p, c, g, h1, -, -, ⟨g0, h4, h4'⟩, -, h6, h7, h8⟩ := q3 r hr
    refine ⟨?_, ⟨g, h6, h7⟩, g0, h4, c, h4', by simp [fitness, h1, h8]⟩
    rcases hor with h | h
    · simp only [List.mem_range'_1] at h; omega
    · omega

/-- C122: such runs do complete, when the operators accept acceptable genomes and selection picks somebody. -/
theorem grouped_run_completes (cfg : EvoConfig γ ψ φ ρ) (initGenome : ρ → PyM (List γ) × ρ) (dec : Dec γ ψ) (prob : Prob γ ψ φ ρ)
    (hti : prob.takesIndividuals = true) (score : Content γ ψ → φ) (hmul : ∀ cs s, prob.evaluateMultiple cs s = (.ok (cs.map score), s))
    (chunk : Option Nat) (hchunk : ∀ k, chunk = some k → 0 < k) (hinit : ∀ s, ∃ g, (initGenome s).1 = .ok g ∧ GenesIn n allowed g)
    (hdec : ∀ g, GenesIn n allowed g → ∃ c, decodeOf dec g = .ok c) (hst : ∀ st ∈ cfg.stages, StageOk n allowed (fun _ _ => True) st)
    (hsl : ∀ st ∈ cfg.stages, StageLive n allowed st) (hne : ∀ st ∈ cfg.stages, evaluates st = false) (hsize : 1 ≤ cfg.size)
    (hc : ∀ g pop m, pop ≠ [] → (∀ r ∈ pop, Member n allowed (fun _ _ => True) m r) → ∃ i, (cfg.choose g pop m).1 = .ok i ∧ i < pop.length)
    (problem popSize : Nat) (hpop : 1 ≤ popSize) (startGeneration maxGenerations : Int) (m : Mem γ ψ φ ρ) (hm : Sound m) :
    ∃ out m', groupRun cfg initGenome dec prob chunk problem popSize startGeneration maxGenerations m = (.ok out, m') := by
  have hinit' : ∀ s g s', initGenome s = (.ok g, s') → GenesIn n allowed g := by
    intro s g s' h
    obtain ⟨g', h1, h2⟩ := hinit s
    rw [h] at h1
    cases h1
    exact h2
  obtain ⟨gs, s', hd⟩ : ∃ gs s', Drawn initGenome popSize m.rng gs s' := by
    rcases drawn_or_raises initGenome popSize m.rng with h | ⟨j, gs, s1, e, s2, h1, h2, h3⟩
    · exact h
    · obtain ⟨g, hg, -⟩ := hinit s1
      rw [h3] at hg
      cases hg
  obtain ⟨m1, m2, e1, e2, s2, u2, hcs, -⟩ := group_start (n := n) (allowed := allowed) initGenome dec prob hti score hmul chunk hchunk hinit' hdec
    problem popSize hpop m hm gs s' hd
  obtain ⟨out, m', e3⟩ := group_loop_returns cfg dec prob hti score hmul chunk hchunk hst hsl hne hsize hc _ problem
    (maxGenerations - startGeneration).toNat startGeneration _ m2 s2 (by intro h; have := congrArg List.length h; simp at this; omega) hcs
  exact ⟨out, m', by rw [groupRun, bind_live e1, bind_live e2]; exact e3⟩

/-- C122 (partial: it holds of the initial population only, see `grouped_run_stale`): before the first generation everybody has the score of exactly its own genes. -/
theorem grouped_run_initial_partial (cfg : EvoConfig γ ψ φ ρ) (initGenome : ρ → PyM (List γ) × ρ) (dec : Dec γ ψ) (prob : Prob γ ψ φ ρ)
    (hti : prob.takesIndividuals = true) (score : Content γ ψ → φ) (hmul : ∀ cs s, prob.evaluateMultiple cs s = (.ok (cs.map score), s))
    (chunk : Option Nat) (hchunk : ∀ k, chunk = some k → 0 < k) (hinit : ∀ s, ∃ g, (initGenome s).1 = .ok g ∧ GenesIn n allowed g)
    (hdec : ∀ g, GenesIn n allowed g → ∃ c, decodeOf dec g = .ok c) (problem popSize : Nat) (hpop : 1 ≤ popSize)
    (startGeneration maxGenerations : Int) (hgen : maxGenerations ≤ startGeneration) (m : Mem γ ψ φ ρ) (hm : Sound m) :
    ∃ out m', groupRun cfg initGenome dec prob chunk problem popSize startGeneration maxGenerations m = (.ok out, m') ∧ out.length = popSize ∧
      ∀ r ∈ out, ∃ g c, genes m' r = some g ∧ decodeOf dec g = .ok c ∧ fitness m' r = some (some (score c)) := by
  have hinit' : ∀ s g s', initGenome s = (.ok g, s') → GenesIn n allowed g := by
    intro s g s' h
    obtain ⟨g', h1, h2⟩ := hinit s
    rw [h] at h1
    cases h1
    exact h2
  obtain ⟨gs, s', hd⟩ : ∃ gs s', Drawn initGenome popSize m.rng gs s' := by
    rcases drawn_or_raises initGenome popSize m.rng with h | ⟨j, gs, s1, e, s2, h1, h2, h3⟩
    · exact h
    · obtain ⟨g, hg, -⟩ := hinit s1
      rw [h3] at hg
      cases hg
  obtain ⟨m1, m2, e1, e2, -, -, -, hf⟩ := group_start (n := n) (allowed := allowed) initGenome dec prob hti score hmul chunk hchunk hinit' hdec
    problem popSize hpop m hm gs s' hd
  refine ⟨_, m2, ?_, by simp, hf⟩
  rw [groupRun, bind_live e1, bind_live e2]
  rw [show (maxGenerations - startGeneration).toNat = 0 by omega]
  rfl

/-! ## A run whose best individual is not scored -/

/-- Two genes; mutation flips every gene of the genome it is given; selection takes turns. -/
def exGroup : EvoConfig Int Int Int Nat where
  worse a b := decide (a.getD 0 < b.getD 0)
  choose _ _ m := (.ok (m.rng % 2), m.rng + 1)
  stages := [.mutate (.ok ()) false (bitflipFn (some 2) none fun s => ([1 / 4, 3 / 4], s + 1)),
    .crossover (fun s => (true, s)) (.uniform fun s k => (.ok (List.replicate k (s % 7 == 0)), s))]
  size := 2
  kElites := 1
  stop _ _ _ := false

def exGroupInit (s : Nat) : PyM (List Int) × Nat := (.ok [0, 0], s + 1)

theorem exGroup_ok : (∀ s, ∃ g, (exGroupInit s).1 = .ok g ∧ GenesIn 2 (fun _ x => x = 0 ∨ x = 1) g) ∧
    (∀ g : List Int, GenesIn 2 (fun _ x => x = 0 ∨ x = 1) g → ∃ c, decodeOf (.identity : Dec Int Int) g = .ok c) ∧
    (∀ st ∈ exGroup.stages, StageOk 2 (fun _ x => x = 0 ∨ x = 1) (fun _ _ => True) st) ∧ (∀ st ∈ exGroup.stages, evaluates st = false) ∧
    (∀ cs s, exSum.evaluateMultiple cs s = (.ok (cs.map fun c => match c with | .raw g => g.sum | .value v => v), s)) := by
  refine ⟨fun s => ⟨_, rfl, rfl, ?_⟩, fun g _ => ⟨_, rfl⟩, ?_, ?_, fun _ _ => rfl⟩
  · intro i x hx
    have := List.mem_of_getElem? hx
    simp only [List.mem_cons, List.not_mem_nil, or_false, or_self] at this
    exact Or.inl this
  · intro st hst
    simp only [exGroup, List.mem_cons, List.not_mem_nil, or_false] at hst
    rcases hst with rfl | rfl
    · exact bitflip_stage_ok _ _ _ _ _ _ _
    · exact uniform_crossover_stage_ok _ _
  · intro st hst
    simp only [exGroup, List.mem_cons, List.not_mem_nil, or_false] at hst
    rcases hst with rfl | rfl <;> rfl

/-- C122 fails of the code: a run (meeting every hypothesis of the theorems above) after one generation returns individuals with genes 1, 1,
which score 2, and fitness 0. -/
theorem grouped_run_stale :
    (groupRun exGroup exGroupInit .identity exSum (some 1) 0 2 0 1 exStart).1.toOption = some [2, 3] ∧
    (∀ r ∈ [2, 3], genes (groupRun exGroup exGroupInit .identity exSum (some 1) 0 2 0 1 exStart).2 r = some [1, 1] ∧
      fitness (groupRun exGroup exGroupInit .identity exSum (some 1) 0 2 0 1 exStart).2 r = some (some 0)) ∧
    ∀ s, (exSum.evaluate (.raw [1, 1]) s).1 = .ok 2 := by
  refine ⟨by decide +kernel, by decide +kernel, fun _ => rfl⟩

end Leap
