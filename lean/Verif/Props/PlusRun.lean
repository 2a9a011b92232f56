import Verif.Model.PlusRun
import Verif.Props.IslandRun

/-!
# C116: hand-written evolution loops

What `pipe(parents, select, clone, ..., evaluate, pool, truncation_selection(parents=parents))`, run in a loop, ends with, compared with
everything that was ever evaluated; and the same loop with `insertion_selection`.
-/

namespace Leap
open Spec

variable {γ ψ φ ρ : Type} {n : Nat} {allowed : Nat → γ → Prop} {truth : List γ → φ → Prop}

/-! ## Best of everything -/

/-- The best of the best: choosing from what was kept and newcomers is choosing from everything. -/
theorem kbest_then {α : Type} {lt : α → α → Bool} (h : StrictWeak lt) {k : Nat} {a b kept kept' : List α} (h1 : KBest lt k a kept)
    (h2 : KBest lt k (kept ++ b) kept') (hnd : (kept ++ b).Nodup) : KBest lt k (a ++ b) kept' := by
  obtain ⟨r1, p1, l1, w1⟩ := h1
  obtain ⟨r2, p2, l2, w2⟩ := h2
  have la := p1.length_eq
  have lb := p2.length_eq
  simp only [List.length_append] at la lb l2
  refine ⟨r2 ++ r1, ?_, ?_, ?_⟩
  · have : (kept' ++ (r2 ++ r1)).Perm ((kept ++ b) ++ r1) := by rw [← List.append_assoc]; exact p2.append_right r1
    refine this.trans ?_
    rw [List.append_assoc]
    refine (List.perm_append_comm.append_left kept).trans ?_
    rw [← List.append_assoc]
    exact p1.append_right b
  · simp only [List.length_append]; omega
  · intro x hx y hy
    rcases List.mem_append.1 hy with hy | hy
    · exact w2 x hx y hy
    · have hx' : x ∈ kept ++ b := p2.mem_iff.1 (by simp [hx])
      rcases List.mem_append.1 hx' with hxk | hxb
      · exact w1 x hxk y hy
      · by_cases hz : ∃ z ∈ kept, z ∈ r2
        · obtain ⟨z, hz1, hz2⟩ := hz
          exact h.negTrans _ _ _ (w2 x hx z hz2) (w1 z hz1 y hy)
        · exfalso
          have hsub : x :: kept ⊆ kept' := by
            intro z hz'
            rcases List.mem_cons.1 hz' with rfl | hz'
            · exact hx
            · have := p2.mem_iff.2 (List.mem_append.2 (Or.inl hz'))
              rcases List.mem_append.1 this with h3 | h3
              · exact h3
              · exact absurd ⟨z, hz', h3⟩ hz
          have hn : (x :: kept).Nodup := by
            rw [List.nodup_append] at hnd
            refine List.nodup_cons.2 ⟨fun hin => ?_, hnd.1⟩
            exact hnd.2.2 x hin x hxb rfl
          have := (hn.subperm hsub).length_le
          have hr : 0 < r1.length := List.length_pos_of_mem hy
          simp only [List.length_cons] at this
          omega

/-- The `i`-th of the best is not worse than the `i`-th of any selection, in order. -/
theorem kbest_dominates {α : Type} {lt : α → α → Bool} (h : StrictWeak lt) {k : Nat} {all kept : List α} (hk : KBest lt k all kept)
    (hb : BestFirst lt kept) (other : List α) (hnd : other.Nodup) (hsub : other ⊆ all) (hbo : BestFirst lt other) (i : Nat) (x y : α)
    (hx : kept[i]? = some x) (hy : other[i]? = some y) : lt x y = false := by
  cases e : lt x y with
  | false => rfl
  | true =>
    exfalso
    obtain ⟨rest, p, -, w⟩ := hk
    obtain ⟨hi, rfl⟩ := List.getElem?_eq_some_iff.1 hx
    obtain ⟨hj, rfl⟩ := List.getElem?_eq_some_iff.1 hy
    have hbetter : ∀ z ∈ other.take (i + 1), lt kept[i] z = true := by
      intro z hz
      obtain ⟨j, hj', rfl⟩ := List.mem_iff_getElem.1 hz
      rw [List.getElem_take]
      simp only [List.length_take] at hj'
      cases e' : lt kept[i] other[j] with
      | true => rfl
      | false =>
        have : lt other[j] other[i] = false := by
          rcases Nat.lt_or_ge j i with hlt | hge
          · exact List.pairwise_iff_getElem.1 hbo j i (by omega) hj hlt
          · have : j = i := by omega
            subst this
            exact StrictWeak.irrefl h _
        rw [h.negTrans _ _ _ e' this] at e
        cases e
    have hin : other.take (i + 1) ⊆ kept.take i := by
      intro z hz
      have hlt := hbetter z hz
      have hz' := p.mem_iff.2 (hsub (List.mem_of_mem_take hz))
      rcases List.mem_append.1 hz' with hz' | hz'
      · obtain ⟨j, hj', rfl⟩ := List.mem_iff_getElem.1 hz'
        rcases Nat.lt_or_ge j i with hlt' | hge
        · refine List.mem_iff_getElem.2 ⟨j, by simp; omega, by simp⟩
        · exfalso
          have : lt kept[i] kept[j] = false := by
            rcases Nat.lt_or_ge i j with hlt'' | hge'
            · exact List.pairwise_iff_getElem.1 hb i j hi hj' hlt''
            · have : i = j := by omega
              subst this
              exact StrictWeak.irrefl h _
          rw [this] at hlt
          cases hlt
      · rw [w _ (List.getElem_mem hi) z hz'] at hlt
        cases hlt
    have := ((hnd.sublist (List.take_sublist (i + 1) other)).subperm hin).length_le
    simp only [List.length_take] at this
    omega

/-! ## What was evaluated -/

/-- From population `p` in memory `m` at generation `g`, `k` turns of the loop ran one after the other, with the given broods of evaluated
offspring, and led to `p'` and `m'`. -/
inductive Spec.Broods (cfg : PlusConfig γ ψ φ ρ) : Int → List Nat → Mem γ ψ φ ρ → Nat → List (List Nat) → List Nat → Mem γ ψ φ ρ → Prop
  | none (g p m) : Broods cfg g p m 0 [] p m
  | next {g p m off m1 p1 m2 k offs p' m'}
      (hoff : runPipeline p (cfg.choose g p) (cfg.stages g) (p.length * cfg.brood) m = (.ok off, m1))
      (hsurv : survive cfg off p m1 = (.ok p1, m2)) (hrest : Broods cfg (g + 1) p1 m2 k offs p' m') :
      Broods cfg g p m (k + 1) (off :: offs) p' m'

/-- C116: the loop returns exactly after all its turns. -/
theorem plus_loop_broods (cfg : PlusConfig γ ψ φ ρ) (fuel : Nat) : ∀ (g : Int) (p : List Nat) (m : Mem γ ψ φ ρ) (out : List Nat)
    (m' : Mem γ ψ φ ρ), plusLoop cfg fuel g p m = (.ok out, m') ↔ ∃ offs, Broods cfg g p m fuel offs out m' := by
  induction fuel with
  | zero =>
    intro g p m out m'
    simp only [plusLoop, HM.pure_apply, Prod.mk.injEq, Except.ok.injEq]
    constructor
    · rintro ⟨rfl, rfl⟩; exact ⟨[], .none _ _ _⟩
    · rintro ⟨offs, h⟩; cases h; exact ⟨rfl, rfl⟩
  | succ fuel ih =>
    intro g p m out m'
    constructor
    · intro h
      obtain ⟨p1, m2, e, h⟩ := bind_ok h
      obtain ⟨off, m1, e1, e2⟩ := bind_ok e
      obtain ⟨offs, h⟩ := (ih _ _ _ _ _).1 h
      exact ⟨off :: offs, .next e1 e2 h⟩
    · rintro ⟨offs, h⟩
      cases h with
      | @next _ _ _ off m1 p1 m2 _ _ _ _ h1 h2 h3 =>
        have e : plusStep cfg g p m = (.ok p1, m2) := by rw [plusStep, bind_live h1]; exact h2
        rw [plusLoop, bind_live e]
        exact (ih _ _ _ _ _).2 ⟨_, h3⟩

/-- Everybody in the population is different and in order, and nothing but new individuals has been made since `m0`. -/
structure Spec.PlusOk (n : Nat) (allowed : Nat → γ → Prop) (truth : List γ → φ → Prop) (m : Mem γ ψ φ ρ) (p : List Nat) : Prop where
  sound : Sound m
  nodup : p.Nodup
  members : ∀ r ∈ p, Member n allowed truth m r

theorem survive_inds (cfg : PlusConfig γ ψ φ ρ) {off p p1 : List Nat} {m m' : Mem γ ψ φ ρ} (h : survive cfg off p m = (.ok p1, m')) :
    ∃ s, m' = { m with rng := s } := by
  unfold survive at h
  split at h
  · simp only [Prod.mk.injEq, Except.ok.injEq] at h
    exact ⟨m.rng, h.2.symm⟩
  · simp only [Prod.mk.injEq] at h
    exact ⟨_, h.2.symm⟩

theorem insertion_cases {α : Type} {gt : α → α → Bool} {off p p1 : List α} {i : Nat} (h : insertionSelection gt off p i = .ok p1) :
    ∃ child rest parent, off = child :: rest ∧ p[i]? = some parent ∧ p1 = p.set i (if gt parent child then parent else child) := by
  cases off with
  | nil => simp [insertionSelection, insertionBody] at h
  | cons child rest =>
    by_cases hp : p.length = 0
    · simp [insertionSelection, insertionBody, hp] at h
    · cases e : p[i]? with
      | none => simp [insertionSelection, insertionBody, hp, e] at h
      | some parent =>
        simp [insertionSelection, insertionBody, hp, e, pyMaxFrom] at h
        exact ⟨child, rest, parent, rfl, rfl, h.symm⟩

theorem survive_subset (cfg : PlusConfig γ ψ φ ρ) {off p p1 : List Nat} {m m' : Mem γ ψ φ ρ} (hnd : (off ++ p).Nodup)
    (h : survive cfg off p m = (.ok p1, m')) : p1.length = p.length ∧ p1.Nodup ∧ ∀ r ∈ p1, r ∈ off ++ p := by
  unfold survive at h
  split at h
  · simp only [Prod.mk.injEq, Except.ok.injEq] at h
    obtain ⟨rfl, -⟩ := h
    refine ⟨?_, nodup_of_subperm (topk_subperm _ _ _) hnd, fun r hr => topk_mem hr⟩
    simp [truncationSelection, topk_length]
  · simp only [Prod.mk.injEq] at h
    obtain ⟨child, rest, parent, rfl, e, rfl⟩ := insertion_cases h.1
    obtain ⟨hi, rfl⟩ := List.getElem?_eq_some_iff.1 e
    rw [List.nodup_append] at hnd
    refine ⟨by simp, ?_, fun r hr => ?_⟩
    · split
      · simpa using hnd.2.1
      · refine hnd.2.1.set fun hin => ?_
        exact hnd.2.2 child (by simp) child hin rfl
    · rcases List.mem_or_eq_of_mem_set hr with hr | rfl
      · simp [hr]
      · split
        · simp
        · simp

/-- One turn. -/
theorem plus_turn_ok (cfg : PlusConfig γ ψ φ ρ) (hst : ∀ g, ∀ st ∈ cfg.stages g, StageOk n allowed truth st)
    (hev : ∀ g, endsEvaluated (cfg.stages g) = true) {g : Int} {p off p1 : List Nat} {m m1 m2 : Mem γ ψ φ ρ}
    (hok : PlusOk n allowed truth m p)
    (hoff : runPipeline p (cfg.choose g p) (cfg.stages g) (p.length * cfg.brood) m = (.ok off, m1))
    (hsurv : survive cfg off p m1 = (.ok p1, m2)) :
    Unchanged m m1 ∧ (∃ s, m2 = { m1 with rng := s }) ∧ off.length = p.length * cfg.brood ∧ off.Nodup ∧
      (∀ r ∈ off, m.inds.length ≤ r ∧ Member n allowed truth m1 r) ∧ (off ++ p).Nodup ∧ p1.length = p.length ∧
      (∀ r ∈ p1, r ∈ off ++ p) ∧ PlusOk n allowed truth m2 p1 := by
  obtain ⟨s1, u1, l1, nd1, q1⟩ := pipeline_keeps_feasible m m1 hok.sound p (fun r hr => ((member_iff m r).1 (hok.members r hr)).1) _ _
    (hst g) _ off hoff
  obtain ⟨s, rfl⟩ := survive_inds cfg hsurv
  have hmo : ∀ r ∈ off, Member n allowed truth m1 r := fun r hr => (member_iff m1 r).2 ⟨(q1 r hr).2.2.1, (q1 r hr).2.2.2 (hev g)⟩
  have hnd : (off ++ p).Nodup := by
    rw [List.nodup_append]
    refine ⟨nd1, hok.nodup, ?_⟩
    rintro a ha b hb rfl
    have := (q1 a ha).1
    have := member_lt (hok.members a hb)
    omega
  obtain ⟨l2, nd2, sub2⟩ := survive_subset cfg hnd hsurv
  refine ⟨u1, ⟨s, rfl⟩, l1, nd1, fun r hr => ⟨(q1 r hr).1, hmo r hr⟩, hnd, l2, sub2, ⟨s1.genome, s1.parents, s1.uuid⟩, nd2, fun r hr => ?_⟩
  refine member_same (m := m1) ⟨rfl, rfl⟩ ?_
  rcases List.mem_append.1 (sub2 r hr) with h | h
  · exact hmo r h
  · exact member_unchanged hok.sound u1 (hok.members r h)

/-- C116: whatever is kept is among the initial population and the broods; all of these are different individuals that still carry, at the
end, the score of exactly their genes; every brood has the size asked for and the population keeps its size. -/
theorem plus_broods_members (cfg : PlusConfig γ ψ φ ρ) (hst : ∀ g, ∀ st ∈ cfg.stages g, StageOk n allowed truth st)
    (hev : ∀ g, endsEvaluated (cfg.stages g) = true) {g : Int} {p p' : List Nat} {m m' : Mem γ ψ φ ρ} {k : Nat} {offs : List (List Nat)}
    (h : Broods cfg g p m k offs p' m') (hok : PlusOk n allowed truth m p) :
    Unchanged m m' ∧ PlusOk n allowed truth m' p' ∧ p'.length = p.length ∧ offs.length = k ∧ (∀ o ∈ offs, o.length = p.length * cfg.brood) ∧
      (p ++ offs.flatten).Nodup ∧ (∀ r ∈ p', r ∈ p ++ offs.flatten) ∧
      (∀ r ∈ offs.flatten, m.inds.length ≤ r) ∧ ∀ r ∈ p ++ offs.flatten, Member n allowed truth m' r := by
  induction h with
  | none g p m =>
    exact ⟨unchanged_rng m m.rng, hok, rfl, rfl, by simp, by simpa using hok.nodup, by simp, by simp, by simpa using hok.members⟩
  | @next g p m off m1 p1 m2 k offs p' m' hoff hsurv hrest ih =>
    obtain ⟨u1, ⟨s, rfl⟩, l1, nd1, q1, nd2, l2, sub2, ok2⟩ := plus_turn_ok cfg hst hev hok hoff hsurv
    obtain ⟨u3, ok3, l3, n3, z3, nd3, sub3, new3, mem3⟩ := ih ok2
    have u2 : Unchanged m1 ({ m1 with rng := s } : Mem γ ψ φ ρ) := unchanged_rng m1 s
    have hlen := (unchanged_length u1).1
    have hlt2 : ∀ r ∈ off ++ p, r < m1.inds.length := by
      intro r hr
      rcases List.mem_append.1 hr with hr | hr
      · exact member_lt (q1 r hr).2
      · have := member_lt (hok.members r hr); omega
    have hnew3 : ∀ r ∈ offs.flatten, m1.inds.length ≤ r := new3
    refine ⟨unchanged_then (unchanged_then u1 u2) u3, ok3, l3.trans l2, by simp [n3], ?_, ?_, ?_, ?_, ?_⟩
    · intro o ho
      rcases List.mem_cons.1 ho with rfl | ho
      · exact l1
      · rw [z3 o ho, l2]
    · rw [List.flatten_cons, ← List.append_assoc, List.nodup_append]
      refine ⟨List.perm_append_comm.nodup_iff.1 nd2, (List.nodup_append.1 nd3).2.1, ?_⟩
      rintro a ha b hb rfl
      have := hlt2 a (List.perm_append_comm.mem_iff.1 ha)
      have := hnew3 a hb
      omega
    · intro r hr
      rcases List.mem_append.1 (sub3 r hr) with h | h
      · have := sub2 r h
        simp only [List.mem_append, List.flatten_cons] at this ⊢
        tauto
      · simp only [List.mem_append, List.flatten_cons]
        tauto
    · intro r hr
      rw [List.flatten_cons] at hr
      rcases List.mem_append.1 hr with h | h
      · exact (q1 r h).1
      · have := hnew3 r h; omega
    · intro r hr
      rw [List.flatten_cons] at hr
      have hsm : Sound ({ m1 with rng := s } : Mem γ ψ φ ρ) := ok2.sound
      have hmm : ∀ r, Member n allowed truth m1 r → Member n allowed truth m' r := fun r h =>
        member_unchanged hsm u3 (member_same (m := m1) ⟨rfl, rfl⟩ h)
      rcases List.mem_append.1 hr with h | h
      · have hs1 : Sound m1 := ⟨hsm.genome, hsm.parents, hsm.uuid⟩
        exact hmm r (member_unchanged hok.sound u1 (hok.members r h))
      · rcases List.mem_append.1 h with h | h
        · exact hmm r (q1 r h).2
        · exact mem3 r (by simp [h])

theorem plus_lt_strictWeak (cfg : PlusConfig γ ψ φ ρ) (h : StrictWeak cfg.worse) (m : Mem γ ψ φ ρ) : StrictWeak (cfg.lt m) :=
  ⟨fun _ _ => h.asymm _ _, fun _ _ _ => h.negTrans _ _ _⟩

theorem plus_lt_unchanged (cfg : PlusConfig γ ψ φ ρ) {m m' : Mem γ ψ φ ρ} (hu : Unchanged m m') {a b : Nat} (ha : a < m.inds.length)
    (hb : b < m.inds.length) : cfg.lt m' a b = cfg.lt m a b := by
  simp [PlusConfig.lt, hu.inds a ha, hu.inds b hb]

/-! ## Truncation -/

theorem kbest_congr {α : Type} {lt lt' : α → α → Bool} {k : Nat} {all kept : List α} (h : KBest lt k all kept)
    (he : ∀ a ∈ all, ∀ b ∈ all, lt' a b = lt a b) : KBest lt' k all kept := by
  obtain ⟨rest, p, l, w⟩ := h
  refine ⟨rest, p, l, fun x hx y hy => ?_⟩
  rw [he x (p.mem_iff.1 (by simp [hx])) y (p.mem_iff.1 (by simp [hy]))]
  exact w x hx y hy

theorem kbest_perm {α : Type} {lt : α → α → Bool} {k : Nat} {all all' kept : List α} (h : KBest lt k all kept) (hp : all.Perm all') :
    KBest lt k all' kept := by
  obtain ⟨rest, p, l, w⟩ := h
  exact ⟨rest, p.trans hp, by rw [l, hp.length_eq], w⟩

/-- C116: with truncation, the population that a loop ends with is the best of everything that was ever evaluated: as many as there were parents,
and nobody who was ever evaluated and is not in it is better than anybody in it. -/
theorem plus_keeps_best_ever (cfg : PlusConfig γ ψ φ ρ) (ht : cfg.survival = .truncation) (hw : StrictWeak cfg.worse)
    (hst : ∀ g, ∀ st ∈ cfg.stages g, StageOk n allowed truth st) (hev : ∀ g, endsEvaluated (cfg.stages g) = true)
    {g : Int} {p p' : List Nat} {m m' : Mem γ ψ φ ρ} {k : Nat} {offs : List (List Nat)}
    (h : Broods cfg g p m k offs p' m') (hok : PlusOk n allowed truth m p) :
    KBest (cfg.lt m') p.length (p ++ offs.flatten) p' ∧ (0 < k → BestFirst (cfg.lt m') p') := by
  induction h with
  | none g p m => exact ⟨⟨[], by simp, by simp, by simp⟩, fun h => absurd h (Nat.lt_irrefl 0)⟩
  | @next g p m off m1 p1 m2 k offs p' m' hoff hsurv hrest ih =>
    obtain ⟨u1, ⟨s, rfl⟩, l1, nd1, q1, nd2, l2, sub2, ok2⟩ := plus_turn_ok cfg hst hev hok hoff hsurv
    obtain ⟨u3, ok3, l3, n3, z3, nd3, sub3, new3, mem3⟩ := plus_broods_members cfg hst hev hrest ok2
    obtain ⟨b3, f3⟩ := ih ok2
    have hlt2 : ∀ r ∈ off ++ p, r < m1.inds.length := by
      intro r hr
      rcases List.mem_append.1 hr with hr | hr
      · exact member_lt (q1 r hr).2
      · have := member_lt (hok.members r hr)
        have := (unchanged_length u1).1
        omega
    have hp1 : p1 = truncationSelection (cfg.lt m1) off p.length (some p) := by
      simp only [survive, ht, Prod.mk.injEq, Except.ok.injEq] at hsurv
      exact hsurv.1.symm
    obtain ⟨t1, t2⟩ := truncation_keeps_best (cfg.lt m1) (plus_lt_strictWeak cfg hw m1) off p.length (some p)
    rw [← hp1] at t1 t2
    have heq : ∀ a ∈ off ++ p, ∀ b ∈ off ++ p, cfg.lt m' a b = cfg.lt m1 a b := by
      intro a ha b hb
      have : Unchanged m1 m' := unchanged_then (unchanged_rng m1 s) u3
      exact plus_lt_unchanged cfg this (hlt2 a ha) (hlt2 b hb)
    have t1' : KBest (cfg.lt m') p.length (off ++ p) p1 := kbest_congr t1 heq
    rw [l2] at b3
    refine ⟨?_, fun _ => ?_⟩
    · have := kbest_then (plus_lt_strictWeak cfg hw m') t1' b3 nd3
      refine kbest_perm this ?_
      rw [List.flatten_cons, ← List.append_assoc]
      exact List.perm_append_comm.append_right _
    · cases hrest with
      | none =>
        refine List.Pairwise.imp_of_mem (fun {a b} ha hb hab => ?_) t2
        rw [heq a (sub2 a ha) b (sub2 b hb)]
        exact hab
      | next _ _ _ => exact f3 (Nat.succ_pos _)

/-- C116: hence no choice of individuals that were ever evaluated, however it is made, is better in any place than the population a loop with
truncation ends with, both in order. In particular the `i`-th best of the population never gets worse. -/
theorem plus_dominates_history (cfg : PlusConfig γ ψ φ ρ) (ht : cfg.survival = .truncation) (hw : StrictWeak cfg.worse)
    (hst : ∀ g, ∀ st ∈ cfg.stages g, StageOk n allowed truth st) (hev : ∀ g, endsEvaluated (cfg.stages g) = true)
    {g : Int} {p p' : List Nat} {m m' : Mem γ ψ φ ρ} {k : Nat} {offs : List (List Nat)} (hk : 0 < k)
    (h : Broods cfg g p m k offs p' m') (hok : PlusOk n allowed truth m p) (other : List Nat) (hnd : other.Nodup)
    (hsub : other ⊆ p ++ offs.flatten) (hbo : BestFirst (cfg.lt m') other) (i x y : Nat) (hx : p'[i]? = some x) (hy : other[i]? = some y) :
    cfg.lt m' x y = false := by
  obtain ⟨b, f⟩ := plus_keeps_best_ever cfg ht hw hst hev h hok
  exact kbest_dominates (plus_lt_strictWeak cfg hw m') b (f hk) other hnd hsub hbo i x y hx hy

/-! ## Insertion -/

/-- C116: with insertion only the first of each brood can survive: whoever is in the final population was in the initial one or is the first
of a brood. No place gets worse. -/
theorem insertion_first_only (cfg : PlusConfig γ ψ φ ρ) (draw : ρ → Nat → Nat × ρ) (hi : cfg.survival = .insertion draw)
    (hw : StrictWeak cfg.worse) (he : ∀ a b, cfg.equal a b = true → cfg.worse b a = false)
    (hst : ∀ g, ∀ st ∈ cfg.stages g, StageOk n allowed truth st) (hev : ∀ g, endsEvaluated (cfg.stages g) = true)
    {g : Int} {p p' : List Nat} {m m' : Mem γ ψ φ ρ} {k : Nat} {offs : List (List Nat)}
    (h : Broods cfg g p m k offs p' m') (hok : PlusOk n allowed truth m p) :
    (∀ r ∈ p', r ∈ p ∨ ∃ o ∈ offs, o.head? = some r) ∧
    (∀ (i x y : Nat), p'[i]? = some x → p[i]? = some y → cfg.lt m' x y = false) := by
  induction h with
  | none g p m =>
    refine ⟨fun r hr => Or.inl hr, fun i x y hx hy => ?_⟩
    rw [hx] at hy
    cases hy
    exact StrictWeak.irrefl (plus_lt_strictWeak cfg hw m) x
  | @next g p m off m1 p1 m2 k offs p' m' hoff hsurv hrest ih =>
    obtain ⟨u1, ⟨s, rfl⟩, l1, nd1, q1, nd2, l2, sub2, ok2⟩ := plus_turn_ok cfg hst hev hok hoff hsurv
    obtain ⟨u3, ok3, l3, n3, z3, nd3, sub3, new3, mem3⟩ := plus_broods_members cfg hst hev hrest ok2
    obtain ⟨a3, b3⟩ := ih ok2
    have hlt2 : ∀ r ∈ off ++ p, r < m1.inds.length := by
      intro r hr
      rcases List.mem_append.1 hr with hr | hr
      · exact member_lt (q1 r hr).2
      · have := member_lt (hok.members r hr)
        have := (unchanged_length u1).1
        omega
    have hum : Unchanged m1 m' := unchanged_then (unchanged_rng m1 s) u3
    simp only [survive, hi, Prod.mk.injEq] at hsurv
    obtain ⟨child, rest, parent, rfl, e, rfl⟩ := insertion_cases hsurv.1
    obtain ⟨hj, rfl⟩ := List.getElem?_eq_some_iff.1 e
    refine ⟨fun r hr => ?_, fun i x y hx hy => ?_⟩
    · rcases a3 r hr with h | ⟨o, ho, h⟩
      · rcases List.mem_or_eq_of_mem_set h with h | rfl
        · exact Or.inl h
        · split
          · exact Or.inl (List.getElem_mem _)
          · exact Or.inr ⟨child :: rest, List.mem_cons_self, rfl⟩
      · exact Or.inr ⟨o, by simp [ho], h⟩
    · -- who is there after the first turn
      obtain ⟨hip, rfl⟩ := List.getElem?_eq_some_iff.1 hy
      have hz := List.getElem?_eq_getElem (l := p.set (draw m1.rng p.length).1 (if cfg.gt m1 p[(draw m1.rng p.length).1] child then
        p[(draw m1.rng p.length).1] else child)) (i := i) (by simpa using hip)
      refine (plus_lt_strictWeak cfg hw m').negTrans _ _ _ (b3 i x _ hx hz) ?_
      rw [List.getElem_set]
      split
      · rename_i hd
        subst hd
        split
        · exact StrictWeak.irrefl (plus_lt_strictWeak cfg hw m') _
        · rename_i hg
          rw [plus_lt_unchanged cfg hum (hlt2 child (by simp)) (hlt2 _ (List.mem_append_right _ (List.getElem_mem hj)))]
          simp only [PlusConfig.gt, Bool.and_eq_true, Bool.not_eq_true', not_and, Bool.not_eq_false] at hg
          cases hl : cfg.lt m1 p[(draw m1.rng p.length).1] child with
          | true => exact (plus_lt_strictWeak cfg hw m1).asymm _ _ hl
          | false => exact he _ _ (hg hl)
      · exact StrictWeak.irrefl (plus_lt_strictWeak cfg hw m') _

/-- C116: so a loop with insertion keeps at most one newcomer for each generation, however large the broods are. -/
theorem insertion_keeps_few (cfg : PlusConfig γ ψ φ ρ) (draw : ρ → Nat → Nat × ρ) (hi : cfg.survival = .insertion draw)
    (hw : StrictWeak cfg.worse) (he : ∀ a b, cfg.equal a b = true → cfg.worse b a = false)
    (hst : ∀ g, ∀ st ∈ cfg.stages g, StageOk n allowed truth st) (hev : ∀ g, endsEvaluated (cfg.stages g) = true)
    {g : Int} {p p' : List Nat} {m m' : Mem γ ψ φ ρ} {k : Nat} {offs : List (List Nat)}
    (h : Broods cfg g p m k offs p' m') (hok : PlusOk n allowed truth m p) :
    (p'.filter fun r => decide (r ∉ p)).length ≤ k ∧ offs.flatten.length = k * (p.length * cfg.brood) := by
  obtain ⟨a, -⟩ := insertion_first_only cfg draw hi hw he hst hev h hok
  obtain ⟨-, ok', -, n1, z1, -⟩ := plus_broods_members cfg hst hev h hok
  constructor
  · have hsub : (p'.filter fun r => decide (r ∉ p)) ⊆ offs.filterMap List.head? := by
      intro r hr
      simp only [List.mem_filter, decide_eq_true_eq] at hr
      rcases a r hr.1 with h | ⟨o, ho, h⟩
      · exact absurd h hr.2
      · exact List.mem_filterMap.2 ⟨o, ho, h⟩
    have := ((ok'.nodup.filter _).subperm hsub).length_le
    have := List.length_filterMap_le List.head? offs
    omega
  · have : ∀ l : List (List Nat), (∀ o ∈ l, o.length = p.length * cfg.brood) → l.flatten.length = l.length * (p.length * cfg.brood) := by
      intro l
      induction l with
      | nil => simp
      | cons o l ih =>
        intro h
        rw [List.flatten_cons, List.length_append, ih fun o ho => h o (by simp [ho]), h o (by simp), List.length_cons, Nat.add_mul, Nat.one_mul]
        omega
    rw [this offs z1, n1]

/-! ## Whole runs -/

theorem plus_first (initGenome : ρ → PyM (List γ) × ρ) (dec : Dec γ ψ) (prob : Prob γ ψ φ ρ)
    (hinit : ∀ s g s', initGenome s = (.ok g, s') → GenesIn n allowed g) (problem popSize : Nat) (m m1 m2 : Mem γ ψ φ ρ) (hm : Sound m)
    (parents : List Nat) (e1 : createPopulation initGenome problem popSize m = (.ok parents, m1))
    (e2 : evaluatePopulation dec prob parents m1 = (.ok (), m2)) :
    Unchanged m m2 ∧ parents.length = popSize ∧ (∀ r ∈ parents, m.inds.length ≤ r) ∧ PlusOk n allowed (ScoredBy dec prob) m2 parents := by
  obtain ⟨s1, u1, l1, nd1, r1, hgood⟩ := createPopulation_good (truth := ScoredBy dec prob) initGenome hinit problem popSize m m1 hm parents e1
  obtain ⟨s2, sm2, a2, b2, n2, k2, -, p2⟩ := evaluatePopulation_members dec prob (fun g c s f _ hc hf => ⟨c, s, hc, hf⟩) parents m1 m2 s1
    hgood e2
  refine ⟨⟨fun r hr => ?_, fun a ha => by rw [a2]; exact u1.arrays a ha, fun a ha => by rw [b2]; exact u1.sets a ha⟩, l1,
    fun r hr => (r1 r hr).1, s2, nd1, fun r hr => (member_iff m2 r).2 ⟨k2 r (hgood r hr), p2 r hr⟩⟩
  rw [(sm2 r fun hin => by have := (r1 r hin).1; omega).1]
  exact u1.inds r hr

/-- C116: whoever the script ends with: as many individuals as it started with, all different, all made by it, all with the score of exactly
their genes, and their genes allowed. It evaluated `popSize` individuals and `popSize * brood` per generation, never one twice, and with
truncation it ends with the best of all of these. -/
theorem plus_run_members (cfg : PlusConfig γ ψ φ ρ) (initGenome : ρ → PyM (List γ) × ρ) (dec : Dec γ ψ) (prob : Prob γ ψ φ ρ)
    (hinit : ∀ s g s', initGenome s = (.ok g, s') → GenesIn n allowed g)
    (hst : ∀ g, ∀ st ∈ cfg.stages g, StageOk n allowed (ScoredBy dec prob) st) (hev : ∀ g, endsEvaluated (cfg.stages g) = true)
    (problem popSize : Nat) (maxGenerations : Int) (m m' : Mem γ ψ φ ρ) (hm : Sound m) (out : List Nat)
    (h : plusRun cfg initGenome dec prob problem popSize maxGenerations m = (.ok out, m')) :
    Unchanged m m' ∧ out.Nodup ∧ out.length = popSize ∧
    (∀ r ∈ out, m.inds.length ≤ r ∧ Member n allowed (ScoredBy dec prob) m' r) ∧
    ∃ (evaluated : List Nat), evaluated.Nodup ∧ evaluated.length = popSize + maxGenerations.toNat * (popSize * cfg.brood) ∧
      (∀ r ∈ evaluated, m.inds.length ≤ r ∧ Member n allowed (ScoredBy dec prob) m' r) ∧ out ⊆ evaluated ∧
      (cfg.survival = .truncation → StrictWeak cfg.worse → KBest (cfg.lt m') popSize evaluated out ∧
        (0 < maxGenerations → BestFirst (cfg.lt m') out)) := by
  obtain ⟨parents, m1, e1, h⟩ := bind_ok h
  obtain ⟨_, m2, e2, h⟩ := bind_ok h
  obtain ⟨u2, l2, new2, ok2⟩ := plus_first initGenome dec prob hinit problem popSize m m1 m2 hm parents e1 e2
  obtain ⟨offs, h⟩ := (plus_loop_broods cfg _ _ _ _ _ _).1 h
  obtain ⟨u3, ok3, l3, n3, z3, nd3, sub3, new3, mem3⟩ := plus_broods_members cfg hst hev h ok2
  have hnew : ∀ r ∈ parents ++ offs.flatten, m.inds.length ≤ r := by
    intro r hr
    rcases List.mem_append.1 hr with hr | hr
    · exact new2 r hr
    · have := new3 r hr
      have := (unchanged_length u2).1
      omega
  have hlen : ∀ l : List (List Nat), (∀ o ∈ l, o.length = parents.length * cfg.brood) →
      l.flatten.length = l.length * (parents.length * cfg.brood) := by
    intro l
    induction l with
    | nil => simp
    | cons o l ih =>
      intro h
      rw [List.flatten_cons, List.length_append, ih fun o ho => h o (by simp [ho]), h o (by simp), List.length_cons, Nat.add_mul, Nat.one_mul]
      omega
  refine ⟨unchanged_then u2 u3, ok3.nodup, l3.trans l2, fun r hr => ⟨hnew r (sub3 r hr), ok3.members r hr⟩,
    parents ++ offs.flatten, nd3, ?_, fun r hr => ⟨hnew r hr, mem3 r hr⟩, sub3, fun ht hw => ?_⟩
  · rw [List.length_append, hlen offs z3, n3, l2]
  · obtain ⟨b, f⟩ := plus_keeps_best_ever cfg ht hw hst hev h ok2
    rw [l2] at b
    exact ⟨b, fun hpos => f (by omega)⟩

theorem plus_loop_returns (cfg : PlusConfig γ ψ φ ρ) (hst : ∀ g, ∀ st ∈ cfg.stages g, StageOk n allowed truth st)
    (hsl : ∀ g, ∀ st ∈ cfg.stages g, StageLive n allowed st) (hev : ∀ g, endsEvaluated (cfg.stages g) = true)
    (hc : ∀ (g : Int) (pop : List Nat) (m : Mem γ ψ φ ρ), pop ≠ [] → (∀ r ∈ pop, Member n allowed truth m r) →
      ∃ i, (cfg.choose g pop m).1 = .ok i ∧ i < pop.length)
    (hi : ∀ draw, cfg.survival = .insertion draw → 1 ≤ cfg.brood ∧ ∀ s k, 0 < k → (draw s k).1 < k)
    (fuel : Nat) : ∀ (g : Int) (p : List Nat) (m : Mem γ ψ φ ρ), p ≠ [] → PlusOk n allowed truth m p →
      ∃ out m', plusLoop cfg fuel g p m = (.ok out, m') := by
  induction fuel with
  | zero => exact fun g p m _ _ => ⟨p, m, rfl⟩
  | succ fuel ih =>
    intro g p m hne hok
    obtain ⟨off, m1, e1⟩ := pipeline_returns m hok.sound p (fun r hr => ((member_iff m r).1 (hok.members r hr)).1) (cfg.choose g p)
      (fun m1 hu => hc g p m1 hne fun r hr => member_unchanged hok.sound hu (hok.members r hr)) (cfg.stages g) (hst g) (hsl g)
      (p.length * cfg.brood)
    have l1 := (pipeline_keeps_feasible m m1 hok.sound p (fun r hr => ((member_iff m r).1 (hok.members r hr)).1) _ _ (hst g) _ off e1).2.2.1
    have hpos := List.length_pos_iff.2 hne
    obtain ⟨p1, m2, e2⟩ : ∃ p1 m2, survive cfg off p m1 = (.ok p1, m2) := by
      unfold survive
      split
      · exact ⟨_, _, rfl⟩
      · rename_i draw hs
        obtain ⟨hb, hdr⟩ := hi draw hs
        have : 0 < off.length := by rw [l1]; exact Nat.mul_pos hpos hb
        cases off with
        | nil => simp at this
        | cons c rest =>
          have hlt := hdr m1.rng p.length hpos
          refine ⟨p.set (draw m1.rng p.length).1 (if cfg.gt m1 p[(draw m1.rng p.length).1] c then p[(draw m1.rng p.length).1] else c), _,
            Prod.ext ?_ rfl⟩
          simp [insertionSelection, insertionBody, pyMaxFrom, hlt, hne]
    obtain ⟨-, -, -, -, -, -, l2, -, ok2⟩ := plus_turn_ok cfg hst hev hok e1 e2
    have e : plusStep cfg g p m = (.ok p1, m2) := by rw [plusStep, bind_live e1]; exact e2
    rw [plusLoop, bind_live e]
    exact ih _ _ _ (List.length_pos_iff.1 (by omega)) ok2

/-- C116: the script runs to its end. -/
theorem plus_run_returns (cfg : PlusConfig γ ψ φ ρ) (initGenome : ρ → PyM (List γ) × ρ) (dec : Dec γ ψ) (prob : Prob γ ψ φ ρ)
    (hinit : ∀ s, ∃ g, (initGenome s).1 = .ok g ∧ GenesIn n allowed g)
    (hst : ∀ g, ∀ st ∈ cfg.stages g, StageOk n allowed (ScoredBy dec prob) st) (hsl : ∀ g, ∀ st ∈ cfg.stages g, StageLive n allowed st)
    (hev : ∀ g, endsEvaluated (cfg.stages g) = true)
    (hd : ∀ g, GenesIn n allowed g → ∃ c, decodeOf dec g = .ok c ∧ ∀ s, ∃ f, (prob.evaluate c s).1 = .ok f)
    (hc : ∀ (g : Int) (pop : List Nat) (m : Mem γ ψ φ ρ), pop ≠ [] → (∀ r ∈ pop, Member n allowed (ScoredBy dec prob) m r) →
      ∃ i, (cfg.choose g pop m).1 = .ok i ∧ i < pop.length)
    (hi : ∀ draw, cfg.survival = .insertion draw → 1 ≤ cfg.brood ∧ ∀ s k, 0 < k → (draw s k).1 < k)
    (problem popSize : Nat) (hpop : 1 ≤ popSize) (maxGenerations : Int) (m : Mem γ ψ φ ρ) (hm : Sound m) :
    ∃ out m', plusRun cfg initGenome dec prob problem popSize maxGenerations m = (.ok out, m') := by
  have hinit' : ∀ s g s', initGenome s = (.ok g, s') → GenesIn n allowed g := by
    intro s g s' h
    obtain ⟨g', h1, h2⟩ := hinit s
    rw [h] at h1
    cases h1
    exact h2
  obtain ⟨gs, s', hd'⟩ : ∃ gs s', Drawn initGenome popSize m.rng gs s' := by
    rcases drawn_or_raises initGenome popSize m.rng with h | ⟨j, gs, s1, e, s2, h1, h2, h3⟩
    · exact h
    · obtain ⟨g, hg, -⟩ := hinit s1
      rw [h3] at hg
      cases hg
  obtain ⟨parents, m1, e1, -⟩ := create_population_spec initGenome problem popSize m hm gs s' hd'
  obtain ⟨s1, -, -, -, -, hgood⟩ := createPopulation_good (truth := ScoredBy dec prob) initGenome hinit' problem popSize m m1 hm parents e1
  obtain ⟨m2, e2⟩ := evaluatePopulation_returns dec prob hd parents m1 s1 hgood
  obtain ⟨-, l2, -, ok2⟩ := plus_first initGenome dec prob hinit' problem popSize m m1 m2 hm parents e1 e2
  obtain ⟨out, m', e3⟩ := plus_loop_returns cfg hst hsl hev hc hi maxGenerations.toNat 0 parents m2 (List.length_pos_iff.1 (by omega)) ok2
  refine ⟨out, m', ?_⟩
  rw [plusRun, bind_live e1, bind_live e2]
  exact e3

/-! ## Runs -/

/-- Two parents, broods of four; the step size depends on the generation. -/
def exPlus (survival : Survival Nat) : PlusConfig Int Int Int Nat where
  worse a b := decide (a.getD 0 < b.getD 0)
  equal a b := decide (a.getD 0 = b.getD 0)
  choose _ pop m := (.ok (m.rng % pop.length), m.rng + 1)
  stages g := [.mutate (.ok ()) false (bitflipFn (some (if g = 0 then 1 else 2)) none fun s =>
      (if s % 5 < 3 then [1 / 4, 3 / 4] else [3 / 4, 1 / 4], s + 1)),
    .evaluate .identity exSum]
  brood := 2
  survival := survival

/-- `random.randrange` for the examples. -/
def exRandrange (s k : Nat) : Nat × Nat := (s % k, s + 1)

set_option synthInstance.maxSize 1000 in
set_option synthInstance.maxHeartbeats 100000 in
/-- The runs meet the hypotheses of the theorems above. -/
example (survival : Survival Nat) (hs : survival = .truncation ∨ survival = .insertion exRandrange) :
    (∀ s, ∃ g, (exInit s).1 = .ok g ∧ GenesIn 2 (fun _ x => x = 0 ∨ x = 1) g) ∧
    (∀ g, ∀ st ∈ (exPlus survival).stages g, StageOk 2 (fun _ x => x = 0 ∨ x = 1) (ScoredBy .identity exSum) st) ∧
    (∀ g, ∀ st ∈ (exPlus survival).stages g, StageLive 2 (fun _ x => x = 0 ∨ x = 1) st) ∧
    (∀ g, endsEvaluated ((exPlus survival).stages g) = true) ∧ StrictWeak (exPlus survival).worse ∧ Sound exStart ∧
    (∀ a b, (exPlus survival).equal a b = true → (exPlus survival).worse b a = false) ∧
    (∀ (g : Int) (pop : List Nat) (m : Mem Int Int Int Nat), pop ≠ [] → (∀ r ∈ pop, Member 2 (fun _ x => x = 0 ∨ x = 1) (ScoredBy .identity exSum) m r) →
      ∃ i, ((exPlus survival).choose g pop m).1 = .ok i ∧ i < pop.length) ∧
    (∀ draw, (exPlus survival).survival = .insertion draw → 1 ≤ (exPlus survival).brood ∧ ∀ s k, 0 < k → (draw s k).1 < k) := by
  refine ⟨?_, ?_, ?_, fun _ => rfl, ⟨?_, ?_⟩, ⟨by simp [exStart], by simp [exStart], by simp [exStart]⟩, ?_, ?_, ?_⟩
  · intro s
    refine ⟨_, rfl, rfl, fun i x hx => ?_⟩
    have := List.mem_of_getElem? hx
    simp only [List.mem_cons, List.not_mem_nil, or_false] at this
    rcases this with rfl | rfl
    · omega
    · exact Or.inl rfl
  · intro g st hst
    simp only [exPlus, List.mem_cons, List.not_mem_nil, or_false] at hst
    rcases hst with rfl | rfl
    · exact bitflip_stage_ok _ _ _ _ _ _ _
    · exact evaluate_stage_ok _ _
  · intro g st hst
    simp only [exPlus, List.mem_cons, List.not_mem_nil, or_false] at hst
    rcases hst with rfl | rfl
    · refine bitflip_stage_live _ _ _ _ (if g = 0 then 1 / 2 else 1) (Or.inr ⟨rfl, by decide, if g = 0 then 1 else 2, rfl, ?_⟩) ?_ ?_
        (fun s => by split <;> rfl) _
      all_goals split <;> norm_num
    · exact fun g _ => ⟨_, rfl, fun s => ⟨_, rfl⟩⟩
  · intro a b; simp [exPlus]; omega
  · intro a b c; simp [exPlus]; omega
  · intro a b; simp [exPlus]; omega
  · exact fun g pop m hne _ => ⟨_, rfl, Nat.mod_lt _ (List.length_pos_iff.2 hne)⟩
  · intro draw h
    refine ⟨Nat.le_succ 1, fun s k hk => ?_⟩
    rcases hs with rfl | rfl
    · cases h
    · simp only [exPlus, Survival.insertion.injEq] at h
      subst h
      exact Nat.mod_lt _ hk

set_option synthInstance.maxSize 1000 in
set_option synthInstance.maxHeartbeats 100000 in
/-- A run with truncation ends with both of the individuals that scored 2 among the fourteen it evaluated. -/
example :
    (plusRun (exPlus .truncation) exInit .identity exSum 0 2 3 exStart).1.toOption = some [3, 5] ∧
    ((plusRun (exPlus .truncation) exInit .identity exSum 0 2 3 exStart).2.inds.map fun o => o.fitness) =
      [some 0, some 1, some 1, some 2, some 1, some 2, some 0, some 0, some 0, some 0, some 0, some 0, some 0, some 0] := by
  decide +kernel

set_option synthInstance.maxSize 1000 in
set_option synthInstance.maxHeartbeats 100000 in
/-- C116: the same run with insertion loses the best: two of the fourteen individuals it evaluated scored 2, and nobody in the population it
ends with did, since only the first of every brood was looked at. -/
theorem insertion_run_loses_best : ∃ out m',
    plusRun (exPlus (.insertion exRandrange)) exInit .identity exSum 0 2 3 exStart = (.ok out, m') ∧
    m'.inds.length = 2 + 3 * 4 ∧ fitness m' 3 = some (some 2) ∧ fitness m' 5 = some (some 2) ∧
    ∀ r ∈ out, fitness m' r = some (some 1) := by
  have h : (plusRun (exPlus (.insertion exRandrange)) exInit .identity exSum 0 2 3 exStart).1.toOption = some [10, 6] := by decide +kernel
  have h' : (plusRun (exPlus (.insertion exRandrange)) exInit .identity exSum 0 2 3 exStart).1 = .ok [10, 6] := by
    revert h
    cases (plusRun (exPlus (.insertion exRandrange)) exInit .identity exSum 0 2 3 exStart).1 <;> simp [Except.toOption]
  refine ⟨[10, 6], (plusRun (exPlus (.insertion exRandrange)) exInit .identity exSum 0 2 3 exStart).2, ?_, ?_, ?_, ?_, ?_⟩
  · rw [← h']
  all_goals decide +kernel

end Leap
