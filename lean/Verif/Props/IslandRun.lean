import Verif.Model.IslandRun
import Verif.Props.EvoTotal

/-! # Whole runs of island models: feasible, scored, of the right size, and sharing nothing (C88) -/

namespace Leap
open Spec

variable {γ ψ φ ρ : Type} {n : Nat} {allowed : Nat → γ → Prop} {truth : List γ → φ → Prop}

/-- Everybody on an island or travelling is a member in the sense of C86, and nobody is in two places. -/
def Spec.IslandsOk (n : Nat) (allowed : Nat → γ → Prop) (truth : List γ → φ → Prop) (m : Mem γ ψ φ ρ) (pops queues : List (List Nat)) :
    Prop :=
  (pops.flatten ++ queues.flatten).Nodup ∧ ∀ r ∈ pops.flatten ++ queues.flatten, Member n allowed truth m r

theorem flatten_perm {α : Type} {l : List (List α)} {i : Nat} {x : List α} (h : l[i]? = some x) :
    l.flatten.Perm (x ++ (l.eraseIdx i).flatten) := by
  induction l generalizing i with
  | nil => simp at h
  | cons a l ih =>
    cases i with
    | zero => simp only [List.getElem?_cons_zero, Option.some.injEq] at h; subst h; simp
    | succ i =>
      simp only [List.getElem?_cons_succ] at h
      simp only [List.flatten_cons, List.eraseIdx_cons_succ]
      refine ((ih h).append_left a).trans ?_
      rw [← List.append_assoc, ← List.append_assoc]
      exact List.perm_append_comm.append_right _

theorem flatten_set_perm {α : Type} {l : List (List α)} {i : Nat} {x : List α} (y : List α) (h : l[i]? = some x) :
    (l.set i y).flatten.Perm (y ++ (l.eraseIdx i).flatten) := by
  have hi := (List.getElem?_eq_some_iff.1 h).1
  have := flatten_perm (l := l.set i y) (i := i) (x := y) (by simp [hi])
  rwa [List.eraseIdx_set_eq] at this

theorem pickOne_ok {choose : Mem γ ψ φ ρ → PyM Nat × ρ} {pop : List Nat} {m m' : Mem γ ψ φ ρ} {i r : Nat}
    (h : pickOne choose pop m = (.ok (i, r), m')) :
    (choose m).1 = .ok i ∧ pop[i]? = some r ∧ m' = { m with rng := (choose m).2 } := by
  unfold pickOne at h
  rcases e : choose m with ⟨x, s⟩
  rw [e] at h
  cases x with
  | error err => simp at h
  | ok j =>
    simp only at h
    cases hj : pop[j]? with
    | none => rw [hj] at h; simp at h
    | some q =>
      rw [hj] at h
      simp only [Prod.mk.injEq, Except.ok.injEq] at h
      obtain ⟨⟨rfl, rfl⟩, rfl⟩ := h
      exact ⟨rfl, hj, rfl⟩

theorem set_subperm {α : Type} {pop : List α} {i : Nat} (x : α) : (pop.set i x).Subperm (x :: pop) := by
  induction pop generalizing i with
  | nil => simp
  | cons a l ih =>
    cases i with
    | zero => exact (List.sublist_cons_self a l).cons_cons x |>.subperm
    | succ i =>
      simp only [List.set_cons_succ]
      exact ((List.subperm_cons a).2 ih).trans (List.Perm.swap x a l).subperm

/-- C88: immigration changes no individual, keeps the size of the island, places only immigrants and residents, each at most once,
and does not lose the best: whoever lived there or arrived, somebody at least as good lives there afterwards. -/
theorem immigrate_inds_spec (cfg : IslandConfig γ ψ φ ρ) (queue : List Nat) : ∀ (pop out : List Nat) (m m' : Mem γ ψ φ ρ),
    immigrateInds cfg queue pop m = (.ok out, m') →
    (∃ s, m' = { m with rng := s }) ∧ out.length = pop.length ∧ out.Subperm (queue ++ pop) ∧
    (StrictWeak cfg.worse → ∀ x ∈ queue ++ pop, ∃ b ∈ out, cfg.lt m b x = false) := by
  induction queue with
  | nil =>
    intro pop out m m' h
    simp only [immigrateInds, HM.pure_apply, Prod.mk.injEq, Except.ok.injEq] at h
    obtain ⟨rfl, rfl⟩ := h
    refine ⟨⟨m.rng, rfl⟩, rfl, List.Subperm.refl _, fun hw x hx => ⟨x, hx, ?_⟩⟩
    cases e : cfg.lt m x x with
    | false => rfl
    | true => exact absurd (hw.asymm _ _ e) (by rw [show cfg.worse _ _ = true from e]; simp)
  | cons imm rest ih =>
    intro pop out m m' h
    obtain ⟨⟨i, contestant⟩, m1, e1, h⟩ := bind_ok h
    obtain ⟨-, h2, rfl⟩ := pickOne_ok e1
    obtain ⟨⟨s, rfl⟩, q2, q3, q4⟩ := ih _ _ _ _ h
    have hlt : ∀ (t : ρ) (a b : Nat), cfg.lt { m with rng := t } a b = cfg.lt m a b := fun _ _ _ => rfl
    simp only [hlt] at q2 q3 q4
    refine ⟨⟨s, rfl⟩, by rw [q2]; split <;> simp, q3.trans ?_, fun hw x hx => ?_⟩
    · split
      · exact ((List.sublist_cons_self imm (rest ++ pop))).subperm
      · refine ((List.Subperm.refl rest).append (set_subperm imm)).trans ?_
        exact List.perm_middle.subperm
    · have hw' : StrictWeak (cfg.lt m) := ⟨fun a b => hw.asymm _ _, fun a b c => hw.negTrans _ _ _⟩
      have hself : ∀ a, cfg.lt m a a = false := fun a => by
        cases e : cfg.lt m a a with
        | false => rfl
        | true => exact absurd (hw'.asymm _ _ e) (by simp [e])
      have q4' : ∀ x ∈ rest ++ (if cfg.lt m imm contestant then pop else pop.set i imm), ∃ b ∈ out, cfg.lt m b x = false := q4 hw
      -- it is enough that somebody at least as good is still in the running
      suffices hs : ∃ y ∈ rest ++ (if cfg.lt m imm contestant then pop else pop.set i imm), cfg.lt m y x = false by
        obtain ⟨y, hy, hyx⟩ := hs
        obtain ⟨b, hb, hby⟩ := q4' y hy
        exact ⟨b, hb, hw'.negTrans _ _ _ hby hyx⟩
      have hi := (List.getElem?_eq_some_iff.1 h2).1
      by_cases hc : cfg.lt m imm contestant = true
      · rw [if_pos hc]
        rcases List.mem_cons.1 (show x ∈ imm :: (rest ++ pop) from hx) with rfl | hx
        · exact ⟨contestant, by simp [List.mem_of_getElem? h2], hw'.asymm _ _ hc⟩
        · exact ⟨x, hx, hself x⟩
      · rw [if_neg hc]
        have himm : imm ∈ rest ++ pop.set i imm :=
          List.mem_append.2 (Or.inr (List.mem_of_getElem? (i := i) (by simp [hi])))
        rcases List.mem_cons.1 (show x ∈ imm :: (rest ++ pop) from hx) with rfl | hx
        · exact ⟨x, himm, hself x⟩
        · rcases List.mem_append.1 hx with hx | hx
          · exact ⟨x, List.mem_append.2 (Or.inl hx), hself x⟩
          · obtain ⟨j, hj⟩ := List.mem_iff_getElem?.1 hx
            by_cases hij : j = i
            · subst hij
              rw [h2] at hj
              cases hj
              exact ⟨imm, himm, by simpa using hc⟩
            · exact ⟨x, List.mem_append.2 (Or.inr (List.mem_of_getElem? (i := j)
                (by rw [List.getElem?_set_ne (Ne.symm hij)]; exact hj))), hself x⟩

/-- C88: an emigrant is a new individual with its sponsor's genes, fitness and problem. -/
theorem clone_with_fitness_spec {m m' : Mem γ ψ φ ρ} (hm : Sound m) {r c : Nat} (hr : Member n allowed truth m r)
    (h : cloneWithFitness r m = (.ok c, m')) :
    c = m.inds.length ∧ m'.inds.length = m.inds.length + 1 ∧ Sound m' ∧ Unchanged m m' ∧ genes m' c = genes m r ∧
      fitness m' c = fitness m r ∧ Member n allowed truth m' c ∧ (m'.inds[c]?).map Obj.problem = (m.inds[r]?).map Obj.problem := by
  obtain ⟨g, f, hg, hG, hf, ht⟩ := hr
  obtain ⟨o, ho, ha, hlt⟩ := genes_lt hg
  have he := clone_effect m r o g ho ha
  obtain ⟨c1, m1, e1, h⟩ := bind_ok h
  have hfr := (cloneInd_fresh (m0 := m) (k := 0) r).ok ⟨Fresh.refl m hm, Nat.zero_le _⟩ e1
  rw [e1] at he
  simp only [Prod.mk.injEq, Except.ok.injEq] at he
  obtain ⟨rfl, rfl⟩ := he
  have hro : (m.inds ++ [{ o with genome := m.arrays.length, fitness := none, uuid := m.nextUuid, parents := m.sets.length }])[r]? = some o := by
    rw [List.getElem?_append_left hlt, ho]
  simp only [HM.bind_apply, getObj, hro, modObj, HM.pure_apply, Prod.mk.injEq, Except.ok.injEq] at h
  obtain ⟨rfl, rfl⟩ := h
  have hof : o.fitness = some f := by simpa [fitness, ho] using hf
  have hgc : genes (⟨m.arrays ++ [g], m.sets ++ [[o.uuid]], (m.inds ++ [{ o with genome := m.arrays.length, fitness := none, uuid := m.nextUuid, parents := m.sets.length }]).modify m.inds.length fun x => { x with fitness := o.fitness }, m.nextUuid + 1, m.rng⟩ : Mem γ ψ φ ρ) m.inds.length = some g := by
    simp [genes, List.getElem?_modify]
  have hfc : fitness (⟨m.arrays ++ [g], m.sets ++ [[o.uuid]], (m.inds ++ [{ o with genome := m.arrays.length, fitness := none, uuid := m.nextUuid, parents := m.sets.length }]).modify m.inds.length fun x => { x with fitness := o.fitness }, m.nextUuid + 1, m.rng⟩ : Mem γ ψ φ ρ) m.inds.length = some (some f) := by
    simp [fitness, List.getElem?_modify, hof]
  refine ⟨rfl, by simp, ⟨fun x hx => ?_, fun x hx => ?_, fun x hx => ?_⟩, ⟨fun y hy => ?_, fun y hy => ?_, fun y hy => ?_⟩, ?_, ?_, ?_, ?_⟩
  · rcases mem_modify hx with h | ⟨y, h, e⟩
    · exact hfr.1.1.sound.genome x h
    · rw [e]; exact hfr.1.1.sound.genome y h
  · rcases mem_modify hx with h | ⟨y, h, e⟩
    · exact hfr.1.1.sound.parents x h
    · rw [e]; exact hfr.1.1.sound.parents y h
  · rcases mem_modify hx with h | ⟨y, h, e⟩
    · exact hfr.1.1.sound.uuid x h
    · rw [e]; exact hfr.1.1.sound.uuid y h
  · have : (m.inds.length = y) = False := by simp; omega
    simp [List.getElem?_modify, this, List.getElem?_append_left hy]
  · exact List.getElem?_append_left hy
  · exact List.getElem?_append_left hy
  · rw [hgc, hg]
  · rw [hfc, hf]
  · exact ⟨g, f, hgc, hG, hfc, ht⟩
  · simp [List.getElem?_modify, ho]

theorem member_lt {m : Mem γ ψ φ ρ} {r : Nat} (h : Member n allowed truth m r) : r < m.inds.length := by
  obtain ⟨g, f, hg, -⟩ := h
  obtain ⟨-, -, -, h⟩ := genes_lt hg
  exact h

theorem member_unchanged {m m' : Mem γ ψ φ ρ} (hm : Sound m) (hu : Unchanged m m') {r : Nat} (h : Member n allowed truth m r) :
    Member n allowed truth m' r := member_same (unchanged_same hm hu (member_lt h)) h

theorem unchanged_rng (m : Mem γ ψ φ ρ) (s : ρ) : Unchanged m { m with rng := s } := ⟨fun _ _ => rfl, fun _ _ => rfl, fun _ _ => rfl⟩

theorem sound_rng {m : Mem γ ψ φ ρ} (h : Sound m) (s : ρ) : Sound { m with rng := s } := ⟨h.1, h.2, h.3⟩

theorem unchanged_then {m m1 m2 : Mem γ ψ φ ρ} (h1 : Unchanged m m1) (h2 : Unchanged m1 m2) : Unchanged m m2 := by
  obtain ⟨a, b, c⟩ := unchanged_length h1
  exact unchanged_trans h1 h2 a b c

/-- Emigration changes no individual and at most adds one new member to one queue. -/
theorem emigrate_inds_spec (cfg : IslandConfig γ ψ φ ρ) (g : Int) (cur : Nat) (pop : List Nat) (queues queues' : List (List Nat))
    (m m' : Mem γ ψ φ ρ) (hm : Sound m) (hp : ∀ r ∈ pop, Member n allowed truth m r)
    (h : emigrateInds cfg g cur pop queues m = (.ok queues', m')) :
    Sound m' ∧ Unchanged m m' ∧ cfg.gap ≠ 0 ∧
    (¬ g % cfg.gap = 0 → queues' = queues) ∧
    (g % cfg.gap = 0 → ∃ i r, (cfg.sponsor pop m).1 = .ok i ∧ pop[i]? = some r ∧ ∃ d ∈ cfg.neighbors cur, ∃ q, queues[d]? = some q ∧
      queues' = queues.set d (q ++ [m.inds.length]) ∧ Member n allowed truth m' m.inds.length ∧
      genes m' m.inds.length = genes m r ∧ fitness m' m.inds.length = fitness m r ∧
      (m'.inds[m.inds.length]?).map Obj.problem = (m.inds[r]?).map Obj.problem) := by
  unfold emigrateInds at h
  split at h
  · simp [HM.lift_apply] at h
  · rename_i hgap
    split at h
    · rename_i hg
      obtain ⟨⟨i, sponsor⟩, m1, e1, h⟩ := bind_ok h
      obtain ⟨h1, h2, rfl⟩ := pickOne_ok e1
      have hs : sponsor ∈ pop := List.mem_of_getElem? h2
      obtain ⟨c, m2, e2, h⟩ := bind_ok h
      obtain ⟨rfl, a2, a3, a4, a5, a6, a7, a8⟩ := clone_with_fitness_spec (sound_rng hm _)
        (member_same (m' := { m with rng := (cfg.sponsor pop m).2 }) ⟨rfl, rfl⟩ (hp sponsor hs)) e2
      obtain ⟨k, m3, e3, h⟩ := bind_ok h
      simp only [useRng, Prod.mk.injEq, Except.ok.injEq] at e3
      obtain ⟨rfl, rfl⟩ := e3
      cases hd : (cfg.neighbors cur)[(cfg.dest m2.rng (cfg.neighbors cur).length).1]? with
      | none => rw [hd] at h; simp [HM.lift_apply] at h
      | some d =>
        rw [hd] at h
        simp only at h
        cases hq : queues[d]? with
        | none => rw [hq] at h; simp [HM.lift_apply] at h
        | some q =>
          rw [hq] at h
          simp only [HM.pure_apply, Prod.mk.injEq, Except.ok.injEq] at h
          obtain ⟨rfl, rfl⟩ := h
          exact ⟨sound_rng a3 _, unchanged_then (unchanged_rng m _) (unchanged_then a4 (unchanged_rng m2 _)), hgap,
            fun hn => absurd hg hn, fun _ => ⟨i, sponsor, h1, h2, d, List.mem_of_getElem? hd, q, hq, rfl, member_same ⟨rfl, rfl⟩ a7, a5, a6, a8⟩⟩
    · rename_i hg
      simp only [HM.pure_apply, Prod.mk.injEq, Except.ok.injEq] at h
      obtain ⟨rfl, rfl⟩ := h
      exact ⟨hm, unchanged_rng m m.rng, hgap, fun _ => rfl, fun hn => absurd hn hg⟩

/-- What one island does in one generation keeps everybody on the islands and in transit in order. -/
theorem island_step_ok (cfg : IslandConfig γ ψ φ ρ) (hst : ∀ st ∈ cfg.stages, StageOk n allowed truth st)
    (hev : endsEvaluated cfg.stages = true) (g : Int) (cur : Nat) (pops queues queues' : List (List Nat)) (parents pop : List Nat)
    (m m' : Mem γ ψ φ ρ) (hm : Sound m) (hok : IslandsOk n allowed truth m pops queues) (hpar : pops[cur]? = some parents)
    (h : islandStep cfg g cur parents queues m = (.ok (pop, queues'), m')) :
    Sound m' ∧ Unchanged m m' ∧ pop.length = cfg.size ∧ queues'.length = queues.length ∧
      IslandsOk n allowed truth m' (pops.set cur pop) queues' ∧
      ∀ r ∈ (pops.set cur pop).flatten ++ queues'.flatten, r ∈ pops.flatten ++ queues.flatten ∨ m.inds.length ≤ r := by
  obtain ⟨off, m1, e1, h⟩ := bind_ok h
  have hmem : ∀ r ∈ parents, Member n allowed truth m r := fun r hr =>
    hok.2 r (List.mem_append.2 (Or.inl ((flatten_perm hpar).mem_iff.2 (by simp [hr]))))
  obtain ⟨s1, u1, l1, nd1, q1⟩ := pipeline_keeps_feasible m m1 hm parents (fun r hr => ((member_iff m r).1 (hmem r hr)).1) _
    cfg.stages hst cfg.size off e1
  cases hq : queues[cur]? with
  | none => rw [hq] at h; simp [HM.lift_apply] at h
  | some queue =>
    rw [hq] at h
    simp only at h
    obtain ⟨pop1, m2, e2, h⟩ := bind_ok h
    obtain ⟨queues1, m3, e3, h⟩ := bind_ok h
    simp only [HM.pure_apply, Prod.mk.injEq, Except.ok.injEq] at h
    obtain ⟨⟨rfl, rfl⟩, rfl⟩ := h
    obtain ⟨⟨s, rfl⟩, l2, sub2, -⟩ := immigrate_inds_spec cfg queue off pop1 m1 m2 e2
    -- everybody else
    set E := (pops.eraseIdx cur).flatten with hE
    set F := (queues.eraseIdx cur).flatten with hF
    have hperm : (pops.flatten ++ queues.flatten).Perm ((parents ++ E) ++ (queue ++ F)) :=
      (flatten_perm hpar).append (flatten_perm hq)
    have hnd0 : ((parents ++ E) ++ (queue ++ F)).Nodup := hperm.nodup_iff.1 hok.1
    have hm0 : ∀ r ∈ (parents ++ E) ++ (queue ++ F), Member n allowed truth m r := fun r hr => hok.2 r (hperm.mem_iff.2 hr)
    have hnd1 : ((off ++ E) ++ (queue ++ F)).Nodup := by
      rw [List.append_assoc, List.nodup_append]
      refine ⟨nd1, (List.nodup_append.1 (by rwa [List.append_assoc] at hnd0)).2.1, ?_⟩
      rintro a ha b hb rfl
      have h1 := (q1 a ha).1
      have h2 := member_lt (hm0 a (by rw [List.append_assoc]; exact List.mem_append.2 (Or.inr hb)))
      omega
    have hm1 : ∀ r ∈ (off ++ E) ++ (queue ++ F), Member n allowed truth m1 r := by
      intro r hr
      rw [List.append_assoc] at hr
      rcases List.mem_append.1 hr with hr | hr
      · obtain ⟨-, -, a1, a2⟩ := q1 r hr
        exact (member_iff m1 r).2 ⟨a1, a2 hev⟩
      · exact member_unchanged hm u1 (hm0 r (by rw [List.append_assoc]; exact List.mem_append.2 (Or.inr hr)))
    have hsub : ((pop1 ++ E) ++ F).Subperm ((off ++ E) ++ (queue ++ F)) := by
      have h1 : ((pop1 ++ E) ++ F).Subperm (((queue ++ off) ++ E) ++ F) := (sub2.append (.refl E)).append (.refl F)
      refine h1.trans (List.Perm.subperm ?_)
      rw [List.append_assoc (off ++ E) queue F |>.symm]
      refine List.Perm.append_right F ?_
      rw [List.append_assoc queue off E]
      exact List.perm_append_comm
    have hnd2 : ((pop1 ++ E) ++ F).Nodup := nodup_of_subperm hsub hnd1
    have hm2 : ∀ r ∈ (pop1 ++ E) ++ F, Member n allowed truth m1 r := fun r hr => hm1 r (hsub.subset hr)
    have hcur := (List.getElem?_eq_some_iff.1 hq).1
    have hpops : (pops.set cur pop1).flatten.Perm (pop1 ++ E) := flatten_set_perm pop1 hpar
    have hqs : (queues.set cur []).flatten.Perm F := by simpa using flatten_set_perm (l := queues) [] hq
    have hm3 : ∀ r ∈ pop1, Member n allowed truth { m1 with rng := s } r := fun r hr =>
      member_same ⟨rfl, rfl⟩ (hm2 r (by simp [hr]))
    obtain ⟨s3, u3, -, b1, b2⟩ := emigrate_inds_spec cfg g cur pop1 _ _ _ _ (sound_rng s1 s) hm3 e3
    have hbase : ((pops.set cur pop1).flatten ++ (queues.set cur []).flatten).Perm ((pop1 ++ E) ++ F) := hpops.append hqs
    have hmb : ∀ r ∈ (pops.set cur pop1).flatten ++ (queues.set cur []).flatten, Member n allowed truth m3 r := fun r hr =>
      member_unchanged (sound_rng s1 s) u3 (member_same ⟨rfl, rfl⟩ (hm2 r (hbase.mem_iff.1 hr)))
    have hold : ∀ r ∈ (pops.set cur pop1).flatten ++ (queues.set cur []).flatten, r ∈ pops.flatten ++ queues.flatten ∨ m.inds.length ≤ r := by
      intro r hr
      have := hsub.subset (hbase.mem_iff.1 hr)
      rw [List.append_assoc] at this
      rcases List.mem_append.1 this with h | h
      · exact Or.inr (q1 r h).1
      · exact Or.inl (hperm.mem_iff.2 (by rw [List.append_assoc]; exact List.mem_append.2 (Or.inr h)))
    have hgrow := (unchanged_length u1).1
    refine ⟨s3, unchanged_then u1 (unchanged_then (unchanged_rng m1 s) u3), by omega, ?_, ?_⟩
    · by_cases hg : g % cfg.gap = 0
      · obtain ⟨_, _, _, _, d, _, q, _, e, _⟩ := b2 hg
        rw [e]; simp
      · rw [b1 hg]; simp
    · by_cases hg : g % cfg.gap = 0
      · obtain ⟨_, _, _, _, d, _, q, hqd, e, hnew, _⟩ := b2 hg
        have hp1 : queues1.flatten.Perm (m1.inds.length :: (queues.set cur []).flatten) := by
          rw [e]
          refine (flatten_set_perm _ hqd).trans (List.Perm.trans ?_ ((flatten_perm hqd).symm.cons _))
          rw [List.append_assoc]
          exact List.perm_middle
        have hp2 : ((pops.set cur pop1).flatten ++ queues1.flatten).Perm
            (m1.inds.length :: ((pops.set cur pop1).flatten ++ (queues.set cur []).flatten)) :=
          (hp1.append_left _).trans List.perm_middle
        refine ⟨⟨hp2.nodup_iff.2 (List.nodup_cons.2 ⟨fun hin => ?_, hbase.nodup_iff.2 hnd2⟩), fun r hr => ?_⟩, fun r hr => ?_⟩
        · have := member_lt (hm2 _ (hbase.mem_iff.1 hin))
          omega
        · rcases List.mem_cons.1 (hp2.mem_iff.1 hr) with rfl | hr
          · exact hnew
          · exact hmb r hr
        · rcases List.mem_cons.1 (hp2.mem_iff.1 hr) with rfl | hr
          · exact Or.inr hgrow
          · exact hold r hr
      · rw [b1 hg]
        exact ⟨⟨hbase.nodup_iff.2 hnd2, hmb⟩, hold⟩

theorem island_sweep_ok (cfg : IslandConfig γ ψ φ ρ) (hst : ∀ st ∈ cfg.stages, StageOk n allowed truth st)
    (hev : endsEvaluated cfg.stages = true) (g : Int) (k : Nat) : ∀ (cur : Nat) (pops queues pops' queues' : List (List Nat))
    (m m' : Mem γ ψ φ ρ), Sound m → IslandsOk n allowed truth m pops queues → cur + k ≤ pops.length →
      islandSweep cfg g k cur pops queues m = (.ok (pops', queues'), m') →
      Sound m' ∧ Unchanged m m' ∧ pops'.length = pops.length ∧ queues'.length = queues.length ∧ IslandsOk n allowed truth m' pops' queues' ∧
      (∀ r ∈ pops'.flatten ++ queues'.flatten, r ∈ pops.flatten ++ queues.flatten ∨ m.inds.length ≤ r) ∧
      ∀ (i : Nat) (p : List Nat), pops'[i]? = some p → (cur ≤ i ∧ i < cur + k → p.length = cfg.size) ∧
        (¬ (cur ≤ i ∧ i < cur + k) → pops[i]? = some p) := by
  induction k with
  | zero =>
    intro cur pops queues pops' queues' m m' hm hok _ h
    simp only [islandSweep, HM.pure_apply, Prod.mk.injEq, Except.ok.injEq] at h
    obtain ⟨⟨rfl, rfl⟩, rfl⟩ := h
    exact ⟨hm, unchanged_rng m m.rng, rfl, rfl, hok, fun r hr => Or.inl hr, fun i p hi => ⟨fun h => by omega, fun _ => hi⟩⟩
  | succ k ih =>
    intro cur pops queues pops' queues' m m' hm hok hk h
    obtain ⟨⟨pop, queues1⟩, m1, e1, h⟩ := bind_ok h
    have hcur : pops[cur]? = some (pops.getD cur []) := by
      rw [List.getD_eq_getElem?_getD, List.getElem?_eq_getElem (by omega : cur < pops.length)]; rfl
    obtain ⟨s1, u1, l1, n1, ok1, w1⟩ := island_step_ok cfg hst hev g cur pops queues queues1 _ pop m m1 hm hok hcur e1
    obtain ⟨s2, u2, l2, n2, ok2, w2, q2⟩ := ih (cur + 1) (pops.set cur pop) queues1 pops' queues' m1 m' s1 ok1 (by simp; omega) h
    refine ⟨s2, unchanged_then u1 u2, by simpa using l2, n2.trans n1, ok2,
      fun r hr => (w2 r hr).elim (w1 r) (fun h => Or.inr (Nat.le_trans (unchanged_length u1).1 h)), fun i p hi => ?_⟩
    obtain ⟨a1, a2⟩ := q2 i p hi
    by_cases hc : i = cur
    · subst hc
      have := a2 (by omega)
      rw [List.getElem?_set_self (by omega)] at this
      cases this
      exact ⟨fun _ => l1, fun h => absurd ⟨Nat.le_refl _, by omega⟩ h⟩
    · refine ⟨fun h => a1 (by omega), fun h => ?_⟩
      have := a2 (by omega)
      rwa [List.getElem?_set_ne (Ne.symm hc)] at this

theorem island_loop_ok (cfg : IslandConfig γ ψ φ ρ) (hst : ∀ st ∈ cfg.stages, StageOk n allowed truth st)
    (hev : endsEvaluated cfg.stages = true) (fuel : Nat) : ∀ (g : Int) (pops queues pops' queues' : List (List Nat))
    (m m' : Mem γ ψ φ ρ), Sound m → IslandsOk n allowed truth m pops queues →
      islandLoop cfg fuel g pops queues m = (.ok (pops', queues'), m') →
      Sound m' ∧ Unchanged m m' ∧ pops'.length = pops.length ∧ queues'.length = queues.length ∧ IslandsOk n allowed truth m' pops' queues' ∧
      (∀ r ∈ pops'.flatten ++ queues'.flatten, r ∈ pops.flatten ++ queues.flatten ∨ m.inds.length ≤ r) ∧
      (pops' = pops ∨ ∀ p ∈ pops', p.length = cfg.size) := by
  induction fuel with
  | zero =>
    intro g pops queues pops' queues' m m' hm hok h
    simp only [islandLoop, HM.pure_apply, Prod.mk.injEq, Except.ok.injEq] at h
    obtain ⟨⟨rfl, rfl⟩, rfl⟩ := h
    exact ⟨hm, unchanged_rng m m.rng, rfl, rfl, hok, fun r hr => Or.inl hr, Or.inl rfl⟩
  | succ fuel ih =>
    intro g pops queues pops' queues' m m' hm hok h
    unfold islandLoop at h
    split at h
    · simp only [Prod.mk.injEq, Except.ok.injEq] at h
      obtain ⟨⟨rfl, rfl⟩, rfl⟩ := h
      exact ⟨hm, unchanged_rng m m.rng, rfl, rfl, hok, fun r hr => Or.inl hr, Or.inl rfl⟩
    · obtain ⟨⟨pops1, queues1⟩, m1, e1, h⟩ := bind_ok h
      obtain ⟨s1, u1, l1, n1, ok1, w1, q1⟩ := island_sweep_ok cfg hst hev g pops.length 0 pops queues pops1 queues1 m m1 hm hok (by omega) e1
      obtain ⟨s2, u2, l2, n2, ok2, w2, q2⟩ := ih (g + 1) pops1 queues1 pops' queues' m1 m' s1 ok1 h
      refine ⟨s2, unchanged_then u1 u2, l2.trans l1, n2.trans n1, ok2,
        fun r hr => (w2 r hr).elim (w1 r) (fun h => Or.inr (Nat.le_trans (unchanged_length u1).1 h)), Or.inr ?_⟩
      rcases q2 with rfl | q2
      · intro p hp
        obtain ⟨i, hi⟩ := List.mem_iff_getElem?.1 hp
        have := (List.getElem?_eq_some_iff.1 hi).1
        exact (q1 i p hi).1 (by omega)
      · exact q2


theorem createPopulation_good (initGenome : ρ → PyM (List γ) × ρ) {G : List γ → Prop} (hinit : ∀ s g s', initGenome s = (.ok g, s') → G g)
    (problem popSize : Nat) (m m' : Mem γ ψ φ ρ) (hm : Sound m) (pop : List Nat)
    (h : createPopulation initGenome problem popSize m = (.ok pop, m')) :
    Sound m' ∧ Unchanged m m' ∧ pop.length = popSize ∧ pop.Nodup ∧ (∀ r ∈ pop, m.inds.length ≤ r ∧ r < m'.inds.length) ∧
      ∀ r ∈ pop, GoodInd G truth m' r := by
  rcases drawn_or_raises initGenome popSize m.rng with ⟨gs, s', hd⟩ | ⟨j, gs, s1, e, s2, h1, h2, h3⟩
  swap
  · have := create_population_raises initGenome problem popSize j m gs s1 s2 e h1 h2 h3
    rw [h] at this
    cases this
  obtain ⟨out, m1, e1, l1, nd1, u1, s1, q1⟩ := create_population_spec initGenome problem popSize m hm gs s' hd
  rw [h] at e1
  simp only [Prod.mk.injEq, Except.ok.injEq] at e1
  obtain ⟨rfl, rfl⟩ := e1
  have hall : ∀ r ∈ pop, m.inds.length ≤ r ∧ GoodInd G truth m' r := by
    intro r hr
    obtain ⟨i, hi⟩ := List.mem_iff_getElem?.1 hr
    obtain ⟨a1, a2, -, o, a3, a4, -⟩ := q1 i r hi
    have hil : i < gs.length := by
      have := (List.getElem?_eq_some_iff.1 hi).1
      rw [hd.length]; omega
    rw [List.getElem?_eq_getElem hil] at a2
    exact ⟨a1, gs[i], none, a2, by simp [fitness, a3, a4], drawn_all hinit hd _ (List.getElem_mem hil), by simp⟩
  refine ⟨s1, u1, l1, nd1, fun r hr => ⟨(hall r hr).1, ?_⟩, fun r hr => (hall r hr).2⟩
  obtain ⟨-, g, fo, hg, -⟩ := hall r hr
  obtain ⟨-, -, -, hlt⟩ := genes_lt hg
  exact hlt

theorem createIslands_good (initGenome : ρ → PyM (List γ) × ρ) {G : List γ → Prop} (hinit : ∀ s g s', initGenome s = (.ok g, s') → G g)
    (problem popSize k : Nat) : ∀ (m m' : Mem γ ψ φ ρ) (pops : List (List Nat)), Sound m →
      createIslands initGenome problem popSize k m = (.ok pops, m') →
      Sound m' ∧ Unchanged m m' ∧ pops.length = k ∧ (∀ p ∈ pops, p.length = popSize) ∧ pops.flatten.Nodup ∧
      (∀ r ∈ pops.flatten, m.inds.length ≤ r ∧ r < m'.inds.length) ∧ ∀ r ∈ pops.flatten, GoodInd G truth m' r := by
  induction k with
  | zero =>
    intro m m' pops hm h
    simp only [createIslands, HM.pure_apply, Prod.mk.injEq, Except.ok.injEq] at h
    obtain ⟨rfl, rfl⟩ := h
    exact ⟨hm, unchanged_rng m m.rng, rfl, by simp, by simp, by simp, by simp⟩
  | succ k ih =>
    intro m m' pops hm h
    obtain ⟨p, m1, e1, h⟩ := bind_ok h
    obtain ⟨ps, m2, e2, h⟩ := bind_ok h
    simp only [HM.pure_apply, Prod.mk.injEq, Except.ok.injEq] at h
    obtain ⟨rfl, rfl⟩ := h
    obtain ⟨s1, u1, l1, nd1, r1, g1⟩ := createPopulation_good (truth := truth) initGenome hinit problem popSize m m1 hm p e1
    obtain ⟨s2, u2, l2, z2, nd2, r2, g2⟩ := ih m1 m2 ps s1 e2
    obtain ⟨c1, -, -⟩ := unchanged_length u1
    obtain ⟨c2, -, -⟩ := unchanged_length u2
    refine ⟨s2, unchanged_then u1 u2, by simp [l2], ?_, ?_, ?_, ?_⟩
    · intro q hq
      rcases List.mem_cons.1 hq with rfl | hq
      · exact l1
      · exact z2 q hq
    · rw [List.flatten_cons, List.nodup_append]
      refine ⟨nd1, nd2, ?_⟩
      rintro a ha b hb rfl
      have := (r1 a ha).2
      have := (r2 a hb).1
      omega
    · intro r hr
      rw [List.flatten_cons] at hr
      rcases List.mem_append.1 hr with hr | hr
      · have := r1 r hr; omega
      · have := r2 r hr; omega
    · intro r hr
      rw [List.flatten_cons] at hr
      rcases List.mem_append.1 hr with hr | hr
      · exact goodInd_same (unchanged_same s1 u2 (r1 r hr).2) (g1 r hr)
      · exact g2 r hr

theorem evaluatePopulation_append (dec : Dec γ ψ) (prob : Prob γ ψ φ ρ) (a b : List Nat) (m : Mem γ ψ φ ρ) :
    evaluatePopulation dec prob (a ++ b) m = (evaluatePopulation dec prob a >>= fun _ => evaluatePopulation dec prob b) m := by
  induction a generalizing m with
  | nil => rfl
  | cons r rs ih =>
    simp only [List.cons_append, evaluatePopulation, HM.bind_apply]
    rcases evaluateInd dec prob r m with ⟨x, m1⟩
    cases x with
    | error e => rfl
    | ok f => exact ih m1

theorem evaluateIslands_eq (dec : Dec γ ψ) (prob : Prob γ ψ φ ρ) (pops : List (List Nat)) (m : Mem γ ψ φ ρ) :
    evaluateIslands dec prob pops m = evaluatePopulation dec prob pops.flatten m := by
  induction pops generalizing m with
  | nil => rfl
  | cons p ps ih =>
    rw [List.flatten_cons, evaluatePopulation_append]
    simp only [evaluateIslands, HM.bind_apply]
    rcases evaluatePopulation dec prob p m with ⟨x, m1⟩
    cases x with
    | error e => rfl
    | ok f => exact ih m1

/-- C88: run an island model with any parent, emigrant and replacement selection, any chain of operators that ends with an
evaluation, any topology and migration gap, any stop condition, any number of islands and generations and any random numbers, in a
program that may hold other individuals. Whenever it returns, there are as many islands as asked for, each of the size that the pool
makes (or the initial size, if no generation ran); every individual on an island or travelling is a new one, has acceptable genes and
carries the problem's score of exactly these genes; nobody is in two places; and nothing that existed before has changed. -/
theorem island_run_members (cfg : IslandConfig γ ψ φ ρ) (initGenome : ρ → PyM (List γ) × ρ) (dec : Dec γ ψ) (prob : Prob γ ψ φ ρ)
    (hinit : ∀ s g s', initGenome s = (.ok g, s') → GenesIn n allowed g)
    (hst : ∀ st ∈ cfg.stages, StageOk n allowed (ScoredBy dec prob) st) (hev : endsEvaluated cfg.stages = true)
    (problem numPopulations popSize : Nat) (maxGenerations : Int) (m m' : Mem γ ψ φ ρ) (hm : Sound m) (pops queues : List (List Nat))
    (h : islandRun cfg initGenome dec prob problem numPopulations popSize maxGenerations m = (.ok (pops, queues), m')) :
    Unchanged m m' ∧ pops.length = numPopulations ∧ queues.length = cfg.numIslands ∧
    ((∀ p ∈ pops, p.length = popSize) ∨ ∀ p ∈ pops, p.length = cfg.size) ∧
    (pops.flatten ++ queues.flatten).Nodup ∧
    (∀ r ∈ pops.flatten ++ queues.flatten, m.inds.length ≤ r ∧ Member n allowed (ScoredBy dec prob) m' r) := by
  obtain ⟨pops0, m1, e1, h⟩ := bind_ok h
  obtain ⟨_, m2, e2, h⟩ := bind_ok h
  obtain ⟨s1, u1, l1, z1, nd1, r1, g1⟩ := createIslands_good (truth := ScoredBy dec prob) initGenome hinit problem popSize numPopulations
    m m1 pops0 hm e1
  rw [evaluateIslands_eq] at e2
  obtain ⟨s2, same2, a2, b2, n2, k2, -, p2⟩ := evaluatePopulation_members dec prob (fun g c s f _ hc hf => ⟨c, s, hc, hf⟩) pops0.flatten
    m1 m2 s1 g1 e2
  have u2 : Unchanged m m2 := by
    refine ⟨fun y hy => ?_, fun y hy => by rw [a2]; exact u1.arrays y hy, fun y hy => by rw [b2]; exact u1.sets y hy⟩
    rw [(same2 y (fun hin => by have := (r1 y hin).1; omega)).1]
    exact u1.inds y hy
  have hok : IslandsOk n allowed (ScoredBy dec prob) m2 pops0 (List.replicate cfg.numIslands []) := by
    have : (List.replicate cfg.numIslands ([] : List Nat)).flatten = [] := by simp
    refine ⟨by rw [this, List.append_nil]; exact nd1, fun r hr => ?_⟩
    rw [this, List.append_nil] at hr
    exact (member_iff m2 r).2 ⟨k2 r (g1 r hr), p2 r hr⟩
  obtain ⟨s3, u3, l3, n3, ok3, w3, q3⟩ := island_loop_ok cfg hst hev _ _ _ _ _ _ m2 m' s2 hok h
  refine ⟨unchanged_then u2 u3, l3.trans l1, by simpa using n3, ?_, ok3.1, fun r hr => ⟨?_, ok3.2 r hr⟩⟩
  swap
  · rcases w3 r hr with h | h
    · simp only [List.flatten_replicate_nil, List.append_nil] at h
      exact (r1 r h).1
    · exact Nat.le_trans (unchanged_length u2).1 h
  rcases q3 with rfl | q3
  · exact Or.inl z1
  · exact Or.inr q3

/-! ## When a run returns -/

/-- Selection that never fails on islands with members. -/
def Spec.Picks (n : Nat) (allowed : Nat → γ → Prop) (truth : List γ → φ → Prop) (choose : List Nat → Mem γ ψ φ ρ → PyM Nat × ρ) : Prop :=
  ∀ pop m, pop ≠ [] → (∀ r ∈ pop, Member n allowed truth m r) → ∃ i, (choose pop m).1 = .ok i ∧ i < pop.length

theorem pickOne_returns {choose : List Nat → Mem γ ψ φ ρ → PyM Nat × ρ} (hc : Picks n allowed truth choose) {pop : List Nat}
    {m : Mem γ ψ φ ρ} (hne : pop ≠ []) (hp : ∀ r ∈ pop, Member n allowed truth m r) :
    ∃ i r, pickOne (choose pop) pop m = (.ok (i, r), { m with rng := (choose pop m).2 }) ∧ pop[i]? = some r := by
  obtain ⟨i, h1, h2⟩ := hc pop m hne hp
  refine ⟨i, pop[i], ?_, List.getElem?_eq_getElem h2⟩
  rcases e : choose pop m with ⟨x, s⟩
  rw [e] at h1
  simp only at h1
  subst h1
  simp [pickOne, e, h2]

theorem immigrate_inds_returns (cfg : IslandConfig γ ψ φ ρ) (hr : Picks n allowed truth cfg.replace) (queue : List Nat) :
    ∀ (pop : List Nat) (m : Mem γ ψ φ ρ), pop ≠ [] → (∀ r ∈ queue ++ pop, Member n allowed truth m r) →
      ∃ out m', immigrateInds cfg queue pop m = (.ok out, m') := by
  induction queue with
  | nil => intro pop m _ _; exact ⟨pop, m, rfl⟩
  | cons imm rest ih =>
    intro pop m hne hp
    obtain ⟨i, c, e, -⟩ := pickOne_returns hr hne (fun r h => hp r (by simp [h]))
    obtain ⟨out, m', e'⟩ := ih (if cfg.lt m imm c then pop else pop.set i imm) { m with rng := (cfg.replace pop m).2 }
      (by split
          · exact hne
          · intro h; exact hne (by simpa using h))
      (fun r h => by
        refine member_same (m := m) ⟨rfl, rfl⟩ (hp r ?_)
        rcases List.mem_append.1 h with h | h
        · simp [h]
        · split at h
          · simp [h]
          · rcases List.mem_or_eq_of_mem_set h with h | h <;> simp [h])
    exact ⟨out, m', (bind_live e).trans e'⟩

theorem clone_with_fitness_returns {m : Mem γ ψ φ ρ} {r : Nat} (hr : Member n allowed truth m r) :
    ∃ c m', cloneWithFitness r m = (.ok c, m') := by
  obtain ⟨g, f, hg, hG, hf, ht⟩ := hr
  obtain ⟨o, ho, ha, hlt⟩ := genes_lt hg
  have he := clone_effect m r o g ho ha
  have hro : (m.inds ++ [{ o with genome := m.arrays.length, fitness := none, uuid := m.nextUuid, parents := m.sets.length }])[r]? = some o := by
    rw [List.getElem?_append_left hlt, ho]
  exact ⟨_, _, by rw [cloneWithFitness, bind_live he]; simp only [HM.bind_apply, getObj, hro, modObj, HM.pure_apply]; rfl⟩

theorem emigrate_inds_returns (cfg : IslandConfig γ ψ φ ρ) (hs : Picks n allowed truth cfg.sponsor) (hgap : cfg.gap ≠ 0)
    (hdest : ∀ s k, 0 < k → (cfg.dest s k).1 < k) (g : Int) (cur : Nat) (pop : List Nat) (queues : List (List Nat))
    (hnb : cfg.neighbors cur ≠ [] ∧ ∀ d ∈ cfg.neighbors cur, d < queues.length)
    (m : Mem γ ψ φ ρ) (hne : pop ≠ []) (hp : ∀ r ∈ pop, Member n allowed truth m r) :
    ∃ queues' m', emigrateInds cfg g cur pop queues m = (.ok queues', m') := by
  unfold emigrateInds
  rw [if_neg hgap]
  split
  · obtain ⟨i, c, e, hc⟩ := pickOne_returns hs hne hp
    obtain ⟨c', m2, e2⟩ := clone_with_fitness_returns (m := { m with rng := (cfg.sponsor pop m).2 })
      (member_same (m := m) ⟨rfl, rfl⟩ (hp c (List.mem_of_getElem? hc)))
    have hk := hdest m2.rng (cfg.neighbors cur).length (List.length_pos_iff.2 hnb.1)
    have hq := hnb.2 _ (List.getElem_mem hk)
    rw [bind_live e]
    simp only
    rw [bind_live e2]
    simp only [HM.bind_apply, useRng, List.getElem?_eq_getElem hk, List.getElem?_eq_getElem hq, HM.pure_apply]
    exact ⟨_, _, rfl⟩
  · exact ⟨queues, m, rfl⟩

theorem island_step_returns (cfg : IslandConfig γ ψ φ ρ) (hst : ∀ st ∈ cfg.stages, StageOk n allowed truth st)
    (hsl : ∀ st ∈ cfg.stages, StageLive n allowed st) (hev : endsEvaluated cfg.stages = true) (hsize : 1 ≤ cfg.size)
    (hc : ∀ g cur, Picks n allowed truth (cfg.choose g cur)) (hr : Picks n allowed truth cfg.replace)
    (hs : Picks n allowed truth cfg.sponsor) (hgap : cfg.gap ≠ 0) (hdest : ∀ s k, 0 < k → (cfg.dest s k).1 < k)
    (g : Int) (cur : Nat) (pops queues : List (List Nat)) (parents : List Nat) (hcur : cur < queues.length)
    (hnb : cfg.neighbors cur ≠ [] ∧ ∀ d ∈ cfg.neighbors cur, d < queues.length)
    (m : Mem γ ψ φ ρ) (hm : Sound m) (hok : IslandsOk n allowed truth m pops queues) (hpar : pops[cur]? = some parents) (hne : parents ≠ []) :
    ∃ pop queues' m', islandStep cfg g cur parents queues m = (.ok (pop, queues'), m') := by
  have hmem : ∀ r ∈ parents, Member n allowed truth m r := fun r hr =>
    hok.2 r (List.mem_append.2 (Or.inl ((flatten_perm hpar).mem_iff.2 (by simp [hr]))))
  have hgood : ∀ r ∈ parents, GoodInd (GenesIn n allowed) truth m r := fun r hr => ((member_iff m r).1 (hmem r hr)).1
  obtain ⟨off, m1, e1⟩ := pipeline_returns m hm parents hgood (cfg.choose g cur parents)
    (fun m1 hu => hc g cur parents m1 hne fun r hr => member_unchanged hm hu (hmem r hr)) cfg.stages hst hsl cfg.size
  obtain ⟨s1, u1, l1, nd1, q1⟩ := pipeline_keeps_feasible m m1 hm parents hgood _ cfg.stages hst cfg.size off e1
  have hq : queues[cur]? = some queues[cur] := List.getElem?_eq_getElem hcur
  have hall : ∀ r ∈ queues[cur] ++ off, Member n allowed truth m1 r := by
    intro r h
    rcases List.mem_append.1 h with h | h
    · exact member_unchanged hm u1 (hok.2 r (List.mem_append.2 (Or.inr ((flatten_perm hq).mem_iff.2 (by simp [h])))))
    · obtain ⟨-, -, a1, a2⟩ := q1 r h
      exact (member_iff m1 r).2 ⟨a1, a2 hev⟩
  obtain ⟨pop, m2, e2⟩ := immigrate_inds_returns cfg hr queues[cur] off m1 (by rintro rfl; simp at l1; omega) hall
  obtain ⟨⟨s, rfl⟩, l2, sub2, -⟩ := immigrate_inds_spec cfg queues[cur] off pop m1 m2 e2
  obtain ⟨queues', m3, e3⟩ := emigrate_inds_returns cfg hs hgap hdest g cur pop (queues.set cur [])
    ⟨hnb.1, by simpa using hnb.2⟩ { m1 with rng := s } (by rintro rfl; simp at l2; omega)
    (fun r h => member_same (m := m1) ⟨rfl, rfl⟩ (hall r (sub2.subset h)))
  refine ⟨pop, queues', m3, ?_⟩
  rw [islandStep, bind_live e1, hq]
  simp only
  rw [bind_live e2, bind_live e3]
  rfl

theorem island_sweep_returns (cfg : IslandConfig γ ψ φ ρ) (hst : ∀ st ∈ cfg.stages, StageOk n allowed truth st)
    (hsl : ∀ st ∈ cfg.stages, StageLive n allowed st) (hev : endsEvaluated cfg.stages = true) (hsize : 1 ≤ cfg.size)
    (hc : ∀ g cur, Picks n allowed truth (cfg.choose g cur)) (hr : Picks n allowed truth cfg.replace)
    (hs : Picks n allowed truth cfg.sponsor) (hgap : cfg.gap ≠ 0) (hdest : ∀ s k, 0 < k → (cfg.dest s k).1 < k)
    (hnb : ∀ i < cfg.numIslands, cfg.neighbors i ≠ [] ∧ ∀ d ∈ cfg.neighbors i, d < cfg.numIslands) (g : Int) (k : Nat) :
    ∀ (cur : Nat) (pops queues : List (List Nat)) (m : Mem γ ψ φ ρ), queues.length = cfg.numIslands → pops.length ≤ cfg.numIslands →
      cur + k = pops.length → (∀ p ∈ pops, p ≠ []) → Sound m → IslandsOk n allowed truth m pops queues →
      ∃ pops' queues' m', islandSweep cfg g k cur pops queues m = (.ok (pops', queues'), m') ∧ ∀ p ∈ pops', p ≠ [] := by
  induction k with
  | zero => intro cur pops queues m _ _ _ hp _ _; exact ⟨pops, queues, m, rfl, hp⟩
  | succ k ih =>
    intro cur pops queues m hq hle hk hp hm hok
    have hcur : cur < pops.length := by omega
    have hpar : pops[cur]? = some pops[cur] := List.getElem?_eq_getElem hcur
    obtain ⟨pop, queues1, m1, e1⟩ := island_step_returns cfg hst hsl hev hsize hc hr hs hgap hdest g cur pops queues pops[cur] (by omega)
      (by rw [hq]; exact hnb cur (by omega)) m hm hok hpar (hp _ (List.getElem_mem hcur))
    obtain ⟨s1, u1, l1, n1, ok1, -⟩ := island_step_ok cfg hst hev g cur pops queues queues1 pops[cur] pop m m1 hm hok hpar e1
    obtain ⟨pops', queues', m', e2, hp'⟩ := ih (cur + 1) (pops.set cur pop) queues1 m1 (n1.trans hq) (by simpa using hle) (by simp; omega)
      (fun p hp1 => by
        rcases List.mem_or_eq_of_mem_set hp1 with h | h
        · exact hp p h
        · rw [h]; rintro rfl; simp at l1; omega) s1 ok1
    refine ⟨pops', queues', m', ?_, hp'⟩
    have hgd : pops.getD cur [] = pops[cur] := by simp [List.getD, hpar]
    rw [islandSweep, hgd]
    exact (bind_live e1).trans e2

theorem island_loop_returns (cfg : IslandConfig γ ψ φ ρ) (hst : ∀ st ∈ cfg.stages, StageOk n allowed truth st)
    (hsl : ∀ st ∈ cfg.stages, StageLive n allowed st) (hev : endsEvaluated cfg.stages = true) (hsize : 1 ≤ cfg.size)
    (hc : ∀ g cur, Picks n allowed truth (cfg.choose g cur)) (hr : Picks n allowed truth cfg.replace)
    (hs : Picks n allowed truth cfg.sponsor) (hgap : cfg.gap ≠ 0) (hdest : ∀ s k, 0 < k → (cfg.dest s k).1 < k)
    (hnb : ∀ i < cfg.numIslands, cfg.neighbors i ≠ [] ∧ ∀ d ∈ cfg.neighbors i, d < cfg.numIslands) (fuel : Nat) :
    ∀ (g : Int) (pops queues : List (List Nat)) (m : Mem γ ψ φ ρ), queues.length = cfg.numIslands → pops.length ≤ cfg.numIslands →
      (∀ p ∈ pops, p ≠ []) → Sound m → IslandsOk n allowed truth m pops queues →
      ∃ pops' queues' m', islandLoop cfg fuel g pops queues m = (.ok (pops', queues'), m') := by
  induction fuel with
  | zero => intro g pops queues m _ _ _ _ _; exact ⟨pops, queues, m, rfl⟩
  | succ fuel ih =>
    intro g pops queues m hq hle hp hm hok
    unfold islandLoop
    split
    · exact ⟨_, _, _, rfl⟩
    · obtain ⟨pops1, queues1, m1, e1, hp1⟩ := island_sweep_returns cfg hst hsl hev hsize hc hr hs hgap hdest hnb g pops.length 0 pops queues m
        hq hle (by omega) hp hm hok
      obtain ⟨s1, u1, l1, n1, ok1, -⟩ := island_sweep_ok cfg hst hev g _ _ _ _ _ _ m m1 hm hok (by omega) e1
      obtain ⟨pops', queues', m', e2⟩ := ih (g + 1) pops1 queues1 m1 (n1.trans hq) (by omega) hp1 s1 ok1
      exact ⟨pops', queues', m', (bind_live e1).trans e2⟩

theorem createIslands_returns (initGenome : ρ → PyM (List γ) × ρ) (hinit : ∀ s, ∃ g, (initGenome s).1 = .ok g) (problem popSize k : Nat) :
    ∀ (m : Mem γ ψ φ ρ), Sound m → ∃ pops m', createIslands initGenome problem popSize k m = (.ok pops, m') := by
  induction k with
  | zero => intro m _; exact ⟨[], m, rfl⟩
  | succ k ih =>
    intro m hm
    obtain ⟨gs, s', hd'⟩ : ∃ gs s', Drawn initGenome popSize m.rng gs s' := by
      rcases drawn_or_raises initGenome popSize m.rng with h | ⟨j, gs, s1, e, s2, h1, h2, h3⟩
      · exact h
      · obtain ⟨g, hg⟩ := hinit s1
        rw [h3] at hg
        cases hg
    obtain ⟨p, m1, e1, -, -, u1, s1, -⟩ := create_population_spec initGenome problem popSize m hm gs s' hd'
    obtain ⟨ps, m2, e2⟩ := ih m1 s1
    exact ⟨p :: ps, m2, by rw [createIslands, bind_live e1, bind_live e2]; rfl⟩

/-- C88: a run returns if genomes can be created, the operators accept genomes in the domain, genomes in the domain decode and evaluate,
the selections pick somebody on every island with members, each node of the topology has a neighbour, `random.choice` picks an element, and
there are no more islands than nodes. -/
theorem island_run_returns (cfg : IslandConfig γ ψ φ ρ) (initGenome : ρ → PyM (List γ) × ρ) (dec : Dec γ ψ) (prob : Prob γ ψ φ ρ)
    (hinit : ∀ s, ∃ g, (initGenome s).1 = .ok g ∧ GenesIn n allowed g)
    (hst : ∀ st ∈ cfg.stages, StageOk n allowed (ScoredBy dec prob) st) (hsl : ∀ st ∈ cfg.stages, StageLive n allowed st)
    (hev : endsEvaluated cfg.stages = true)
    (hd : ∀ g, GenesIn n allowed g → ∃ c, decodeOf dec g = .ok c ∧ ∀ s, ∃ f, (prob.evaluate c s).1 = .ok f)
    (hc : ∀ g cur, Picks n allowed (ScoredBy dec prob) (cfg.choose g cur)) (hr : Picks n allowed (ScoredBy dec prob) cfg.replace)
    (hs : Picks n allowed (ScoredBy dec prob) cfg.sponsor) (hgap : cfg.gap ≠ 0) (hdest : ∀ s k, 0 < k → (cfg.dest s k).1 < k)
    (hnb : ∀ i < cfg.numIslands, cfg.neighbors i ≠ [] ∧ ∀ d ∈ cfg.neighbors i, d < cfg.numIslands) (hsize : 1 ≤ cfg.size)
    (problem numPopulations popSize : Nat) (hpop : 1 ≤ popSize) (hnum : numPopulations ≤ cfg.numIslands) (maxGenerations : Int)
    (m : Mem γ ψ φ ρ) (hm : Sound m) :
    ∃ pops queues m', islandRun cfg initGenome dec prob problem numPopulations popSize maxGenerations m = (.ok (pops, queues), m') := by
  have hinit' : ∀ s g s', initGenome s = (.ok g, s') → GenesIn n allowed g := by
    intro s g s' h
    obtain ⟨g', h1, h2⟩ := hinit s
    rw [h] at h1
    cases h1
    exact h2
  obtain ⟨pops0, m1, e1⟩ := createIslands_returns initGenome (fun s => (hinit s).imp fun _ h => h.1) problem popSize numPopulations m hm
  obtain ⟨s1, u1, l1, z1, nd1, r1, g1⟩ := createIslands_good (truth := ScoredBy dec prob) initGenome hinit' problem popSize numPopulations
    m m1 pops0 hm e1
  obtain ⟨m2, e2⟩ := evaluatePopulation_returns dec prob hd pops0.flatten m1 s1 g1
  obtain ⟨s2, -, -, -, -, k2, -, p2⟩ := evaluatePopulation_members dec prob (fun g c s f _ hc hf => ⟨c, s, hc, hf⟩) pops0.flatten
    m1 m2 s1 g1 e2
  have hok : IslandsOk n allowed (ScoredBy dec prob) m2 pops0 (List.replicate cfg.numIslands []) := by
    have : (List.replicate cfg.numIslands ([] : List Nat)).flatten = [] := by simp
    refine ⟨by rw [this, List.append_nil]; exact nd1, fun r hr => ?_⟩
    rw [this, List.append_nil] at hr
    exact (member_iff m2 r).2 ⟨k2 r (g1 r hr), p2 r hr⟩
  obtain ⟨pops, queues, m', e3⟩ := island_loop_returns cfg hst hsl hev hsize hc hr hs hgap hdest hnb maxGenerations.toNat 0 pops0
    (List.replicate cfg.numIslands []) m2 (by simp) (by omega) (fun p hp h => by have := z1 p hp; rw [h] at this; simp at this; omega) s2 hok
  refine ⟨pops, queues, m', ?_⟩
  rw [← evaluateIslands_eq] at e2
  rw [islandRun, bind_live e1, bind_live e2]
  exact e3

/-! ## When it stops -/

/-- `k` generations of the loop, none of which starts with the stop condition met. -/
inductive Spec.IslandGenerations (cfg : IslandConfig γ ψ φ ρ) : Int → List (List Nat) → List (List Nat) → Mem γ ψ φ ρ → Nat →
    List (List Nat) → List (List Nat) → Mem γ ψ φ ρ → Prop
  | none (g p q m) : IslandGenerations cfg g p q m 0 p q m
  | next {g p q m p1 q1 m1 k p' q' m'} (hstop : cfg.stop g p m = false)
      (hsweep : islandSweep cfg g p.length 0 p q m = (.ok (p1, q1), m1))
      (hrest : IslandGenerations cfg (g + 1) p1 q1 m1 k p' q' m') : IslandGenerations cfg g p q m (k + 1) p' q' m'

/-- C88: the loop returns exactly after the generation at which the stop condition first holds or the budget is used up; each
generation steps the islands once, in order, under its own number. -/
theorem island_loop_generations (cfg : IslandConfig γ ψ φ ρ) (fuel : Nat) : ∀ (g : Int) (p q : List (List Nat)) (m : Mem γ ψ φ ρ)
    (p' q' : List (List Nat)) (m' : Mem γ ψ φ ρ), islandLoop cfg fuel g p q m = (.ok (p', q'), m') ↔
      ∃ k ≤ fuel, IslandGenerations cfg g p q m k p' q' m' ∧ (k = fuel ∨ cfg.stop (g + k) p' m' = true) := by
  induction fuel with
  | zero =>
    intro g p q m p' q' m'
    simp only [islandLoop, HM.pure_apply, Prod.mk.injEq, Except.ok.injEq]
    constructor
    · rintro ⟨⟨rfl, rfl⟩, rfl⟩
      exact ⟨0, Nat.le_refl _, .none _ _ _ _, Or.inl rfl⟩
    · rintro ⟨k, hk, h, -⟩
      cases h with
      | none => exact ⟨⟨rfl, rfl⟩, rfl⟩
      | next => omega
  | succ fuel ih =>
    intro g p q m p' q' m'
    cases hstop : cfg.stop g p m with
    | true =>
      simp only [islandLoop, hstop, if_true, Prod.mk.injEq, Except.ok.injEq]
      constructor
      · rintro ⟨⟨rfl, rfl⟩, rfl⟩
        exact ⟨0, Nat.zero_le _, .none _ _ _ _, Or.inr (by simpa using hstop)⟩
      · rintro ⟨k, hk, h, -⟩
        cases h with
        | none => exact ⟨⟨rfl, rfl⟩, rfl⟩
        | next h1 => rw [hstop] at h1; cases h1
    | false =>
      simp only [islandLoop, hstop, Bool.false_eq_true, if_false]
      constructor
      · intro h
        obtain ⟨⟨p1, q1⟩, m1, e1, h⟩ := bind_ok h
        obtain ⟨k, hk, h1, h2⟩ := (ih _ _ _ _ _ _ _).1 h
        refine ⟨k + 1, by omega, .next hstop e1 h1, h2.imp (by omega) fun h => ?_⟩
        rw [← h]; congr 1; push_cast; omega
      · rintro ⟨k, hk, h, h2⟩
        cases h with
        | none =>
          rcases h2 with h2 | h2
          · omega
          · rw [show g + ((0 : Nat) : Int) = g by simp, hstop] at h2; cases h2
        | @next _ _ _ _ p1 q1 m1 k _ _ _ h1 h3 h4 =>
          rw [bind_live h3]
          refine (ih _ _ _ _ _ _ _).2 ⟨k, by omega, h4, h2.imp (by omega) fun h => ?_⟩
          rw [← h]; congr 1; push_cast; omega

/-! ## A run -/

/-- Two islands of two individuals exchanging somebody every generation. Selection takes turns; the worse resident is challenged. -/
def exIslands : IslandConfig Int Int Int Nat where
  worse a b := decide (a.getD 0 < b.getD 0)
  choose _ _ pop m := (.ok (m.rng % pop.length), m.rng + 1)
  stages := [.mutate (.ok ()) false (bitflipFn (some 1) none fun s => (if s % 5 < 3 then [1 / 4, 3 / 4] else [3 / 4, 1 / 4], s + 1)),
    .evaluate .identity exSum]
  size := 2
  numIslands := 2
  neighbors i := [1 - i]
  gap := 1
  replace _ m := (.ok 0, m.rng + 1)
  sponsor pop m := (.ok (m.rng % pop.length), m.rng + 1)
  dest s k := (s % k, s + 1)
  stop _ _ _ := false

set_option synthInstance.maxSize 1000 in
set_option synthInstance.maxHeartbeats 100000 in
/-- The run meets the hypotheses of `island_run_members` and `island_run_returns`; somebody is still travelling at the end. -/
example :
    (∀ s, ∃ g, (exInit s).1 = .ok g ∧ GenesIn 2 (fun _ x => x = 0 ∨ x = 1) g) ∧
    (∀ st ∈ exIslands.stages, StageOk 2 (fun _ x => x = 0 ∨ x = 1) (ScoredBy .identity exSum) st) ∧
    (∀ st ∈ exIslands.stages, StageLive 2 (fun _ x => x = 0 ∨ x = 1) st) ∧
    endsEvaluated exIslands.stages = true ∧ StrictWeak exIslands.worse ∧ Sound exStart ∧
    (∀ g cur, Picks 2 (fun _ x => x = 0 ∨ x = 1) (ScoredBy .identity exSum) (exIslands.choose g cur)) ∧
    Picks 2 (fun _ x => x = 0 ∨ x = 1) (ScoredBy .identity exSum) exIslands.replace ∧
    Picks 2 (fun _ x => x = 0 ∨ x = 1) (ScoredBy .identity exSum) exIslands.sponsor ∧
    (∀ s k, 0 < k → (exIslands.dest s k).1 < k) ∧
    (∀ i < exIslands.numIslands, exIslands.neighbors i ≠ [] ∧ ∀ d ∈ exIslands.neighbors i, d < exIslands.numIslands) ∧
    ((islandRun exIslands exInit .identity exSum 0 2 2 3 exStart).1.toOption.map fun out =>
      (out.1.map fun p => p.map fun r => (genes (islandRun exIslands exInit .identity exSum 0 2 2 3 exStart).2 r,
        fitness (islandRun exIslands exInit .identity exSum 0 2 2 3 exStart).2 r), out.2.map List.length)) =
      some ([[(some [0, 1], some (some 1)), (some [0, 0], some (some 0))], [(some [0, 1], some (some 1)), (some [1, 1], some (some 2))]], [1, 0]) := by
  refine ⟨?_, ?_, ?_, rfl, ⟨?_, ?_⟩, ⟨by simp [exStart], by simp [exStart], by simp [exStart]⟩, ?_, ?_, ?_, ?_, ?_, ?_⟩
  · intro s
    refine ⟨_, rfl, rfl, fun i x hx => ?_⟩
    have := List.mem_of_getElem? hx
    simp only [List.mem_cons, List.not_mem_nil, or_false] at this
    rcases this with rfl | rfl
    · omega
    · exact Or.inl rfl
  · intro st hst
    simp only [exIslands, List.mem_cons, List.not_mem_nil, or_false] at hst
    rcases hst with rfl | rfl
    · exact bitflip_stage_ok _ _ _ _ _ _ _
    · exact evaluate_stage_ok _ _
  · intro st hst
    simp only [exIslands, List.mem_cons, List.not_mem_nil, or_false] at hst
    rcases hst with rfl | rfl
    · exact bitflip_stage_live _ _ _ _ (1 / 2) (Or.inr ⟨rfl, by decide, 1, rfl, by norm_num⟩) (by norm_num) (by norm_num)
        (fun s => by split <;> rfl) _
    · exact fun g _ => ⟨_, rfl, fun s => ⟨_, rfl⟩⟩
  · intro a b; simp [exIslands]; omega
  · intro a b c; simp [exIslands]; omega
  · exact fun g cur pop m hne _ => ⟨_, rfl, Nat.mod_lt _ (List.length_pos_iff.2 hne)⟩
  · exact fun pop m hne _ => ⟨_, rfl, List.length_pos_iff.2 hne⟩
  · exact fun pop m hne _ => ⟨_, rfl, Nat.mod_lt _ (List.length_pos_iff.2 hne)⟩
  · exact fun s k hk => Nat.mod_lt _ hk
  · intro i hi
    simp only [exIslands] at hi ⊢
    simp
  · decide +kernel

end Leap
