import Verif.Model.SteadyNsga2
import Verif.Props.EnluInserter
import Verif.Props.Distrib

/-!
# C85: asynchronous steady-state NSGA-II under every completion order
-/

namespace Leap
open Spec

section
variable {α D σ : Type}

theorem steadyStep_eq (cfg : SteadyConfig α D) (st : SteadyState α) (c : Completion α D) :
    steadyStep cfg st c = (match st.pending[c.which % st.pending.length]? with
      | none => .error .stopAsync
      | some x =>
        match c.result x with
        | .error e => .error e
        | .ok evaluated =>
          match discount (cfg.viable evaluated) cfg.countNonviable st.counter with
          | .error e => .error e
          | .ok counter =>
            match cfg.inserter c.draw evaluated st.pop cfg.popSize with
            | .error e => .error e
            | .ok pop =>
              if counter.births < cfg.maxBirths then
                match cfg.pipeline c.draw pop with
                | .error e => .error e
                | .ok offspring =>
                  match counter.increment 0 offspring.length with
                  | (.error e, _) => .error e
                  | (.ok _, counter) =>
                    .ok ⟨st.pending.eraseIdx (c.which % st.pending.length) ++ offspring, pop, counter, st.submitted ++ offspring,
                      st.completed ++ [evaluated]⟩
              else .ok ⟨st.pending.eraseIdx (c.which % st.pending.length), pop, counter, st.submitted,
                st.completed ++ [evaluated]⟩) := rfl

/-- The loop with an inserter state of no content is the loop of C41. -/
theorem stateful_unit (cfg : SteadyConfig α D) (st : SteadyState α) (cs : List (Completion α D)) :
    statefulRun ⟨cfg.maxBirths, cfg.popSize, cfg.countNonviable, cfg.viable,
      fun d x pop n (_ : Unit) => (cfg.inserter d x pop n).map fun p => (p, ()), fun d _ pop => cfg.pipeline d pop⟩ st () cs =
      (steadyRun cfg st cs).map fun st => (st, ()) := by
  induction cs generalizing st with
  | nil => rfl
  | cons c cs ih =>
    simp only [statefulRun, steadyRun]
    split
    · rfl
    · have hs : statefulStep ⟨cfg.maxBirths, cfg.popSize, cfg.countNonviable, cfg.viable,
          fun d x pop n (_ : Unit) => (cfg.inserter d x pop n).map fun p => (p, ()), fun d _ pop => cfg.pipeline d pop⟩ st () c =
          (steadyStep cfg st c).map fun st => (st, ()) := by
        rw [steadyStep_eq]; unfold statefulStep
        cases st.pending[c.which % st.pending.length]? with
        | none => rfl
        | some x =>
          simp only
          cases c.result x with
          | error e => rfl
          | ok ev =>
            simp only
            cases discount (cfg.viable ev) cfg.countNonviable st.counter with
            | error e => rfl
            | ok counter =>
              simp only
              cases cfg.inserter c.draw ev st.pop cfg.popSize with
              | error e => rfl
              | ok pop =>
                simp only [Except.map]
                by_cases hlt : counter.births < cfg.maxBirths
                · simp only [if_pos hlt]
                  cases cfg.pipeline c.draw pop with
                  | error e => rfl
                  | ok off =>
                    simp only
                    rcases counter.increment 0 off.length with ⟨r, cnt⟩
                    cases r <;> rfl
                · simp only [if_neg hlt]
      rw [hs]
      cases steadyStep cfg st c with
      | error e => rfl
      | ok st1 => exact ih st1

/-- The configuration of C41 whose draws carry the states of the inserter before and after each insertion. -/
def Spec.forget (cfg : StatefulConfig α D σ) : SteadyConfig α (D × σ × σ) where
  maxBirths := cfg.maxBirths
  popSize := cfg.popSize
  countNonviable := cfg.countNonviable
  viable := cfg.viable
  inserter := fun d x pop n => (cfg.inserter d.1 x pop n d.2.1).map Prod.fst
  pipeline := fun d pop => cfg.pipeline d.1 d.2.2 pop

theorem statefulStep_forget (cfg : StatefulConfig α D σ) (st st' : SteadyState α) (s s' : σ) (c : Completion α D)
    (h : statefulStep cfg st s c = .ok (st', s')) :
    steadyStep (forget cfg) st ⟨c.which, c.result, (c.draw, s, s')⟩ = .ok st' ∧
      ∃ x ev, c.result x = .ok ev ∧ cfg.inserter c.draw ev st.pop cfg.popSize s = .ok (st'.pop, s') ∧
        st'.completed = st.completed ++ [ev] := by
  unfold statefulStep at h
  rw [steadyStep_eq]
  cases hp : st.pending[c.which % st.pending.length]? with
  | none => simp [hp] at h
  | some x =>
    simp only [hp] at h ⊢
    cases hr : c.result x with
    | error e => simp [hr] at h
    | ok ev =>
      simp only [hr, forget] at h ⊢
      split at h
      · simp at h
      · rename_i cnt hcnt
        rw [hcnt]
        simp only
        cases hi : cfg.inserter c.draw ev st.pop cfg.popSize s with
        | error e => simp [hi] at h
        | ok r =>
          obtain ⟨pop, s1⟩ := r
          simp only [hi] at h
          simp only [Except.map]
          split at h
          · rename_i hlt
            simp only [hlt, if_true]
            cases ho : cfg.pipeline c.draw s1 pop with
            | error e => simp [ho] at h
            | ok off =>
              simp only [ho] at h
              split at h
              · simp at h
              · rename_i cnt2 hc2
                simp only [Except.ok.injEq, Prod.mk.injEq] at h
                obtain ⟨rfl, rfl⟩ := h
                simp only [ho, hc2]
                exact ⟨by trivial, x, ev, hr, hi, rfl⟩
          · rename_i hlt
            simp only [hlt, if_false]
            simp only [Except.ok.injEq, Prod.mk.injEq] at h
            obtain ⟨rfl, rfl⟩ := h
            exact ⟨rfl, x, ev, hr, hi, rfl⟩

/-- Every run with a stateful inserter is a run of the loop of C41, so that everything proved there for every inserter holds. -/
theorem stateful_is_steady (cfg : StatefulConfig α D σ) (cs : List (Completion α D)) (st st' : SteadyState α) (s s' : σ)
    (h : statefulRun cfg st s cs = .ok (st', s')) :
    ∃ cs' : List (Completion α (D × σ × σ)), cs'.length ≤ cs.length ∧
      (cs'.length < cs.length → st'.pending = []) ∧ steadyRun (forget cfg) st cs' = .ok st' := by
  induction cs generalizing st s with
  | nil =>
    simp only [statefulRun, Except.ok.injEq, Prod.mk.injEq] at h
    exact ⟨[], by simp, by simp, by simp [steadyRun, h.1]⟩
  | cons c cs ih =>
    simp only [statefulRun] at h
    split at h
    · rename_i he
      simp only [Except.ok.injEq, Prod.mk.injEq] at h
      obtain ⟨rfl, rfl⟩ := h
      exact ⟨[], by simp, fun _ => by simpa using he, rfl⟩
    · rename_i he
      cases hs : statefulStep cfg st s c with
      | error e => simp [hs] at h
      | ok r =>
        obtain ⟨st1, s1⟩ := r
        simp only [hs] at h
        obtain ⟨cs', h1, h2, h3⟩ := ih st1 s1 h
        refine ⟨⟨c.which, c.result, (c.draw, s, s1)⟩ :: cs', by simp [h1], fun hl => h2 (by simpa using hl), ?_⟩
        rw [steadyRun, if_neg he, (statefulStep_forget cfg st st1 s s1 c hs).1]
        exact h3

end

/-! ### The inserter keeps the front -/

variable {ms : List Bool} {fitness : Nat → List ℚ}

/-- The non-dominated members of a list of individuals. -/
def Spec.paretoFront (ms : List Bool) (fitness : Nat → List ℚ) (inds : List Nat) : List Nat :=
  inds.filter fun x => inds.all fun y => !moDominates ms fitness y x

theorem mem_paretoFront (inds : List Nat) (x : Nat) :
    x ∈ paretoFront ms fitness inds ↔ x ∈ inds ∧ ∀ y ∈ inds, moDominates ms fitness y x = false := by
  simp [paretoFront]

/-- What is in the inserter represents everything seen so far: nothing is missing that is not dominated by a member. -/
def Spec.Represents (ms : List Bool) (fitness : Nat → List ℚ) (pop seen : List Nat) : Prop :=
  (∀ x ∈ pop, x ∈ seen) ∧ ∀ x ∈ seen, x ∈ pop ∨ ∃ z ∈ pop, moDominates ms fitness z x = true

theorem represents_front (hf : ∀ x, (fitness x).length = ms.length) {pop seen : List Nat} (h : Represents ms fitness pop seen)
    (x : Nat) : x ∈ paretoFront ms fitness seen ↔ x ∈ paretoFront ms fitness pop := by
  have hd := (mo_rowDominance hf).strictPartial
  simp only [mem_paretoFront]
  constructor
  · rintro ⟨hx, hall⟩
    rcases h.2 x hx with hp | ⟨z, hz, hzx⟩
    · exact ⟨hp, fun y hy => hall y (h.1 y hy)⟩
    · rw [hall z (h.1 z hz)] at hzx; cases hzx
  · rintro ⟨hx, hall⟩
    refine ⟨h.1 x hx, fun y hy => ?_⟩
    rcases h.2 y hy with hp | ⟨z, hz, hzy⟩
    · exact hall y hp
    · by_contra hc
      have hyx : moDominates ms fitness y x = true := by simpa using hc
      have := hd.trans z y x hzy hyx
      rw [hall z hz] at this; cases this

theorem enlu_keeps_front_from (hf : ∀ x, (fitness x).length = ms.length) (popSize : Nat) (inds : List Nat) :
    ∀ (seen : List Nat) (st : EnluState), (seen ++ inds).Nodup → EnluGood ms fitness st →
      Represents ms fitness st.layers.flatten seen →
      (∀ n, seen.length < n → n ≤ (seen ++ inds).length → (paretoFront ms fitness ((seen ++ inds).take n)).length ≤ popSize) →
      ∃ st', enluInsertAll (moDominates ms fitness) (moRow ms fitness) fitness ms popSize inds st = .ok st' ∧
        EnluGood ms fitness st' ∧ Represents ms fitness st'.layers.flatten (seen ++ inds) := by
  have hd := (mo_rowDominance hf).strictPartial
  induction inds with
  | nil => intro seen st _ hg hr _; exact ⟨st, rfl, hg, by simpa using hr⟩
  | cons a inds ih =>
    intro seen st hn hg hr hfit
    have hnot : a ∉ seen := by
      intro ha
      rw [List.nodup_append] at hn
      exact hn.2.2 a ha a (List.mem_cons_self ..) rfl
    have hx : a ∉ st.layers.flatten := fun h => hnot (hr.1 a h)
    obtain ⟨st1, e1, g1, p1, p2⟩ := enlu_insert_step hf popSize a st hg hx
    have e : seen ++ a :: inds = (seen ++ [a]) ++ inds := by simp
    have hfitA := hfit (seen.length + 1) (by omega) (by simp)
    have ht : (seen ++ a :: inds).take (seen.length + 1) = seen ++ [a] := by
      rw [e, List.take_append_of_le_length (by simp), List.take_of_length_le (by simp)]
    rw [ht] at hfitA
    -- everything seen and the new one is represented by the enlarged population
    have hbig : Represents ms fitness (a :: st.layers.flatten) (seen ++ [a]) := by
      constructor
      · intro x hx
        rcases List.mem_cons.1 hx with rfl | hx
        · simp
        · exact List.mem_append_left _ (hr.1 x hx)
      · intro x hx
        rcases List.mem_append.1 hx with hx | hx
        · rcases hr.2 x hx with h | ⟨z, hz, h⟩
          · exact Or.inl (List.mem_cons_of_mem _ h)
          · exact Or.inr ⟨z, List.mem_cons_of_mem _ hz, h⟩
        · rw [List.mem_singleton] at hx; subst hx; exact Or.inl (List.mem_cons_self ..)
    have hrep : Represents ms fitness st1.layers.flatten (seen ++ [a]) := by
      rcases Nat.lt_or_ge st.layers.flatten.length popSize with h | h
      · have hp := p1 h
        exact ⟨fun x hx => hbig.1 x (hp.mem_iff.1 hx), fun x hx => by
          rcases hbig.2 x hx with h | ⟨z, hz, h⟩
          · exact Or.inl (hp.mem_iff.2 h)
          · exact Or.inr ⟨z, hp.mem_iff.2 hz, h⟩⟩
      · obtain ⟨mid, last, v, gm, pm, hlast, hv, -, pv⟩ := p2 h
        have hnd : (a :: st.layers.flatten).Nodup := List.nodup_cons.2 ⟨hx, hg.nodup⟩
        -- the victim is dominated: otherwise there is one layer only and the front is too big
        have hvdom : ∃ z ∈ st1.layers.flatten, moDominates ms fitness z v = true := by
          obtain ⟨l0, ls, hls⟩ : ∃ l0 ls, mid.layers = l0 :: ls := by
            cases hm : mid.layers with
            | nil => rw [hm] at hlast; simp at hlast
            | cons l0 ls => exact ⟨l0, ls, rfl⟩
          cases ls with
          | nil =>
            exfalso
            have hff := (gm.front l0 (by rw [hls]; rfl)).1
            have hsub : (paretoFront ms fitness (seen ++ [a])).length < (a :: st.layers.flatten).length := by
              simp only [List.length_cons]; omega
            have hall : ∀ x ∈ a :: st.layers.flatten, x ∈ paretoFront ms fitness (seen ++ [a]) := by
              intro x hx
              rw [represents_front hf hbig, mem_paretoFront]
              refine ⟨hx, fun y hy => ?_⟩
              have hx' := pm.mem_iff.2 hx
              have hy' := pm.mem_iff.2 hy
              refine hff x ?_ y hy'
              rw [hls] at hx'
              simpa using hx'
            have := (List.subperm_of_subset hnd hall).length_le
            omega
          | cons l1 ls =>
            obtain ⟨_, f2⟩ := gm.front l0 (by rw [hls]; rfl)
            have hvt : v ∈ mid.layers.tail.flatten := by
              rw [hls] at hlast ⊢
              refine List.mem_flatten.2 ⟨last, ?_, hv⟩
              rw [List.getLast?_cons_cons] at hlast
              exact List.mem_of_getLast? hlast
            obtain ⟨z, hz, hzv⟩ := f2 v hvt
            have hzm : z ∈ mid.layers.flatten := by rw [hls]; exact List.mem_flatten.2 ⟨l0, by simp, hz⟩
            have hzb := pv.mem_iff.2 (pm.mem_iff.1 hzm)
            rcases List.mem_cons.1 hzb with rfl | hzb
            · rw [hd.irrefl] at hzv; cases hzv
            · exact ⟨z, hzb, hzv⟩
        obtain ⟨z0, hz0, hz0v⟩ := hvdom
        refine ⟨fun x hx => hbig.1 x (pv.mem_iff.1 (List.mem_cons_of_mem _ hx)), fun x hx => ?_⟩
        rcases hbig.2 x hx with h | ⟨z, hz, h⟩
        · rcases List.mem_cons.1 (pv.mem_iff.2 h) with rfl | h
          · exact Or.inr ⟨z0, hz0, hz0v⟩
          · exact Or.inl h
        · rcases List.mem_cons.1 (pv.mem_iff.2 hz) with rfl | hz
          · exact Or.inr ⟨z0, hz0, hd.trans _ _ _ hz0v h⟩
          · exact Or.inr ⟨z, hz, h⟩
    obtain ⟨st2, e2, g2, r2⟩ := ih (seen ++ [a]) st1 (by rw [← e]; exact hn) g1 hrep (by
      intro n h1 h2
      rw [← e] at h2 ⊢
      exact hfit n (by simp at h1; omega) h2)
    refine ⟨st2, ?_, g2, by rw [e]; exact r2⟩
    unfold enluInsertAll
    have e1' : enluInsert (moDominates ms fitness) (moRow ms fitness) fitness ms popSize a st = .ok (st1, st1.layers.flatten) := e1
    rw [e1']
    simp only [bind, Except.bind]
    exact e2

theorem enluGood_empty (rank0 : Nat → Nat) (d0 : Nat → WithTop ℚ) : EnluGood ms fitness ⟨[], rank0, d0⟩ :=
  ⟨by simp, by simp, by simp, by simp, by intro l hl; simp at hl, fun _ => fronts_nil _⟩

theorem good_rank_one (st : EnluState) (g : EnluGood ms fitness st) (x : Nat) (hx : x ∈ st.layers.flatten) :
    st.rank x = 1 ↔ ∀ y ∈ st.layers.flatten, moDominates ms fitness y x = false := by
  obtain ⟨i, l, hi, hxl⟩ := mem_flatten_getElem hx
  have hxr := g.ranked i l hi x hxl
  constructor
  · intro h1
    have : i = 0 := by omega
    subst this
    exact (g.front l (by rw [List.head?_eq_getElem?]; exact hi)).1 x hxl
  · intro hall
    by_contra hne
    have h0 : 0 < st.layers.length := by have := (List.getElem?_eq_some_iff.1 hi).1; omega
    obtain ⟨l0, ls, hls⟩ : ∃ l0 ls, st.layers = l0 :: ls := List.exists_cons_of_length_pos h0
    obtain ⟨_, f2⟩ := g.front l0 (by rw [hls]; rfl)
    obtain ⟨i', rfl⟩ : ∃ i', i = i' + 1 := ⟨i - 1, by omega⟩
    rw [hls] at hi f2
    obtain ⟨y, hy, hyx⟩ := f2 x (List.mem_flatten.2 ⟨l, by simpa using List.mem_of_getElem? (by simpa using hi), hxl⟩)
    rw [hall y (by rw [hls]; exact List.mem_flatten.2 ⟨l0, by simp, hy⟩)] at hyx
    exact Bool.noConfusion hyx

/-- C85: the inserter as an archive. If the Pareto front of what was inserted so far always fits into the population, nothing
that matters is ever dropped, for any number of objectives: whoever is missing is dominated by a member, and the members of
rank 1 are exactly the Pareto front of *everything* ever inserted. -/
theorem enlu_keeps_front (hf : ∀ x, (fitness x).length = ms.length) (popSize : Nat) (inds : List Nat) (hn : inds.Nodup)
    (rank0 : Nat → Nat) (d0 : Nat → WithTop ℚ)
    (hfit : ∀ n, n ≤ inds.length → (paretoFront ms fitness (inds.take n)).length ≤ popSize) :
    ∃ st, enluInsertAll (moDominates ms fitness) (moRow ms fitness) fitness ms popSize inds ⟨[], rank0, d0⟩ = .ok st ∧
      (∀ x ∈ inds, x ∉ st.layers.flatten → ∃ z ∈ st.layers.flatten, moDominates ms fitness z x = true) ∧
      ∀ x, (x ∈ st.layers.flatten ∧ st.rank x = 1) ↔ x ∈ inds ∧ ∀ y ∈ inds, moDominates ms fitness y x = false := by
  obtain ⟨st, e, g, r⟩ := enlu_keeps_front_from hf popSize inds [] ⟨[], rank0, d0⟩ (by simpa using hn)
    (enluGood_empty rank0 d0) ⟨by simp, by simp⟩ (fun n _ h => by simpa using hfit n (by simpa using h))
  rw [List.nil_append] at r
  refine ⟨st, e, fun x hx hnot => (r.2 x hx).resolve_left hnot, fun x => ?_⟩
  rw [← mem_paretoFront, represents_front hf r, mem_paretoFront]
  constructor
  · rintro ⟨hx, h1⟩; exact ⟨hx, (good_rank_one st g x hx).1 h1⟩
  · rintro ⟨hx, h1⟩; exact ⟨hx, (good_rank_one st g x hx).2 h1⟩

/-- The condition is needed: with room for two, a point of the front of everything inserted is dropped for good when a third
one arrives. -/
theorem enlu_overflow_loses_front :
    let fitness : Nat → List ℚ := fun x => [[0, 4], [2, 2], [4, 0], [0, 4]].getD x [0, 0]
    ((enluInsertAll (moDominates [true, true] fitness) (moRow [true, true] fitness) fitness [true, true] 2 [0, 1, 2]
      ⟨[], fun _ => 0, fun _ => 0⟩).map fun st => st.layers) = .ok [[0, 2]] ∧
    ∀ y ∈ [0, 1, 2], moDominates [true, true] fitness y 1 = false := by decide +kernel

/-! ### The asynchronous run -/

variable {D : Type}

theorem enluInsertAll_append (gt : Nat → Nat → Bool) (row fit : Nat → List ℚ) (maximize : List Bool) (popSize : Nat) (l : List Nat)
    (x : Nat) (st st1 : EnluState) (h : enluInsertAll gt row fit maximize popSize l st = .ok st1) :
    enluInsertAll gt row fit maximize popSize (l ++ [x]) st = (enluInsert gt row fit maximize popSize x st1).map Prod.fst := by
  induction l generalizing st with
  | nil =>
    simp only [enluInsertAll, Except.ok.injEq] at h
    subst h
    simp only [List.nil_append, enluInsertAll, bind, Except.bind]
    cases enluInsert gt row fit maximize popSize x st <;> rfl
  | cons a l ih =>
    simp only [enluInsertAll, List.cons_append, bind, Except.bind] at h ⊢
    cases hi : enluInsert gt row fit maximize popSize a st with
    | error e => simp [hi] at h
    | ok r => simp only [hi] at h ⊢; exact ih r.1 h

theorem enluInsert_flat (gt : Nat → Nat → Bool) (row fit : Nat → List ℚ) (maximize : List Bool) (popSize x : Nat)
    (st st' : EnluState) (flat : List Nat) (h : enluInsert gt row fit maximize popSize x st = .ok (st', flat)) :
    flat = st'.layers.flatten := by
  unfold enluInsert at h
  simp only [bind, Except.bind] at h
  split at h
  · simp at h
  · split at h
    · split at h
      · simp at h
      · simp only [Except.ok.injEq, Prod.mk.injEq] at h
        obtain ⟨rfl, rfl⟩ := h
        rfl
    · simp only [Except.ok.injEq, Prod.mk.injEq] at h
      obtain ⟨rfl, rfl⟩ := h
      rfl

/-- C85: every evaluated individual goes through the inserter exactly once, in the order of completion, and the population is
what the inserter holds. -/
theorem steady_nsga2_inserts (gt : Nat → Nat → Bool) (row fit : Nat → List ℚ) (maximize : List Bool) (maxBirths : Int)
    (popSize : Nat) (countNonviable : Bool) (viable : Nat → Bool) (pipeline : D → EnluState → List Nat → PyM (List Nat))
    (initial : List Nat) (ctx : LeapCtx) (rank0 : Nat → Nat) (d0 : Nat → WithTop ℚ) (cs : List (Completion Nat D))
    (st : SteadyState Nat) (s : EnluState)
    (h : steadyNsga2 (nsga2Config gt row fit maximize maxBirths popSize countNonviable viable pipeline) initial ctx rank0 d0 cs =
      .ok (st, s)) :
    enluInsertAll gt row fit maximize popSize st.completed ⟨[], rank0, d0⟩ = .ok s ∧ st.pop = s.layers.flatten := by
  have key : ∀ (cs : List (Completion Nat D)) (st0 : SteadyState Nat) (s0 : EnluState),
      enluInsertAll gt row fit maximize popSize st0.completed ⟨[], rank0, d0⟩ = .ok s0 ∧ st0.pop = s0.layers.flatten →
      statefulRun (nsga2Config gt row fit maximize maxBirths popSize countNonviable viable pipeline) st0 s0 cs = .ok (st, s) →
      enluInsertAll gt row fit maximize popSize st.completed ⟨[], rank0, d0⟩ = .ok s ∧ st.pop = s.layers.flatten := by
    intro cs
    induction cs with
    | nil =>
      intro st0 s0 h0 h
      simp only [statefulRun, Except.ok.injEq, Prod.mk.injEq] at h
      obtain ⟨rfl, rfl⟩ := h
      exact h0
    | cons c cs ih =>
      intro st0 s0 h0 h
      simp only [statefulRun] at h
      split at h
      · simp only [Except.ok.injEq, Prod.mk.injEq] at h
        obtain ⟨rfl, rfl⟩ := h
        exact h0
      · cases hs : statefulStep (nsga2Config gt row fit maximize maxBirths popSize countNonviable viable pipeline) st0 s0 c with
        | error e => simp [hs] at h
        | ok r =>
          obtain ⟨st1, s1⟩ := r
          simp only [hs] at h
          refine ih st1 s1 ?_ h
          obtain ⟨-, x, ev, -, hi, hc⟩ := statefulStep_forget _ st0 st1 s0 s1 c hs
          simp only [nsga2Config] at hi
          cases he : enluInsert gt row fit maximize popSize ev s0 with
          | error e => simp [he] at hi
          | ok r =>
            obtain ⟨s2, flat⟩ := r
            simp only [he, Except.ok.injEq, Prod.mk.injEq] at hi
            obtain ⟨h1, rfl⟩ := hi
            refine ⟨?_, ?_⟩
            · rw [hc, enluInsertAll_append _ _ _ _ _ _ _ _ _ h0.1, he]; rfl
            · rw [← h1]; exact enluInsert_flat _ _ _ _ _ _ _ _ _ he
  exact key cs _ _ ⟨rfl, rfl⟩ h

/-- C85: at every moment of `steady_state_nsga_2`, for every completion order, pipeline and mix of outcomes: the population
has as many members as fit, all of them evaluated, nobody twice; rank 1 is the Pareto front of the population; with at most
two objectives all ranks are the true ones; and as long as the front of everything evaluated has always fitted, it is in the
population. -/
theorem steady_nsga2_population (hf : ∀ x, (fitness x).length = ms.length) (maxBirths : Int)
    (popSize : Nat) (countNonviable : Bool) (viable : Nat → Bool) (pipeline : D → EnluState → List Nat → PyM (List Nat))
    (initial : List Nat) (ctx : LeapCtx) (rank0 : Nat → Nat) (d0 : Nat → WithTop ℚ) (cs : List (Completion Nat D))
    (st : SteadyState Nat) (s : EnluState)
    (h : steadyNsga2 (nsga2Config (moDominates ms fitness) (moRow ms fitness) fitness ms maxBirths popSize countNonviable viable
      pipeline) initial ctx rank0 d0 cs = .ok (st, s))
    (hn : st.completed.Nodup) :
    st.pop.length = min popSize st.completed.length ∧ st.pop.Nodup ∧ (∀ x ∈ st.pop, x ∈ st.completed) ∧
    (∀ x ∈ st.pop, s.rank x = 1 ↔ ∀ y ∈ st.pop, moDominates ms fitness y x = false) ∧
    (ms.length ≤ 2 → ∀ x ∈ st.pop, HasRank (moDominates ms fitness) st.pop x (s.rank x)) ∧
    ((∀ n, n ≤ st.completed.length → (paretoFront ms fitness (st.completed.take n)).length ≤ popSize) →
      ∀ x, (x ∈ st.pop ∧ s.rank x = 1) ↔ x ∈ st.completed ∧ ∀ y ∈ st.completed, moDominates ms fitness y x = false) := by
  obtain ⟨h1, h2⟩ := steady_nsga2_inserts _ _ _ _ _ _ _ _ _ _ _ _ _ _ _ _ h
  obtain ⟨s', e, a1, a2, a3, a4, -, a6⟩ := enlu_history hf popSize st.completed hn rank0 d0
  rw [e] at h1
  cases h1
  rw [h2]
  refine ⟨a1, a2, a3, a4, a6, fun hfit => ?_⟩
  obtain ⟨s'', e', -, k⟩ := enlu_keeps_front hf popSize st.completed hn rank0 d0 hfit
  rw [e] at e'
  cases e'
  exact k

/-- C85: the birth budget of C41 holds for `steady_state_nsga_2`. -/
theorem steady_nsga2_budget (gt : Nat → Nat → Bool) (row fit : Nat → List ℚ) (maximize : List Bool) (maxBirths : Int)
    (popSize : Nat) (countNonviable : Bool) (viable : Nat → Bool) (pipeline : D → EnluState → List Nat → PyM (List Nat))
    (initial : List Nat) (hinit : initial ≠ []) (ctx : LeapCtx) (rank0 : Nat → Nat) (d0 : Nat → WithTop ℚ)
    (k : Nat) (hmax : 1 ≤ maxBirths) (hk0 : 1 ≤ k)
    (hk : ∀ d s pop off, pipeline d s pop = .ok off → 1 ≤ off.length ∧ off.length ≤ k)
    (cs : List (Completion Nat D)) (st : SteadyState Nat) (s : EnluState)
    (h : steadyNsga2 (nsga2Config gt row fit maximize maxBirths popSize countNonviable viable pipeline) initial ctx rank0 d0 cs =
      .ok (st, s)) :
    st.pending.length + st.completed.length = st.submitted.length ∧
    (st.pending = [] → maxBirths ≤ st.counter.births ∧ st.counter.births < maxBirths + k ∧
      (countNonviable = false → ((st.completed.countP viable : Nat) : Int) = initial.length + st.counter.births) ∧
      (countNonviable = true → (st.completed.length : Int) = initial.length + st.counter.births)) := by
  obtain ⟨cs', -, -, h'⟩ := stateful_is_steady _ cs _ st _ s h
  refine ⟨(steady_state_accounting _ initial k ctx (fun d p o ho => (hk _ _ _ _ ho).2) cs' st h').2.2.1, fun hend => ?_⟩
  obtain ⟨b1, b2, -, b4, b5⟩ := steady_state_budget _ initial hinit k ctx hmax (fun d p o ho => hk _ _ _ _ ho) hk0 cs' st h' hend
  exact ⟨b1, b2, b4, b5⟩

/-- C85: `steady_state_nsga_2` never fails by itself: if evaluations come back (as objects of their own) and the pipeline makes
offspring, the run goes on to its end, whatever the order of completions. -/
theorem steady_nsga2_total (hf : ∀ x, (fitness x).length = ms.length) (maxBirths : Int)
    (popSize : Nat) (countNonviable : Bool) (viable : Nat → Bool) (pipeline : D → EnluState → List Nat → PyM (List Nat))
    (hp : ∀ d s pop, ∃ off, pipeline d s pop = .ok off)
    (initial : List Nat) (ctx : LeapCtx) (rank0 : Nat → Nat) (d0 : Nat → WithTop ℚ) (cs : List (Completion Nat D))
    (serial : Nat → Nat)
    (hres : ∀ (j : Nat) (c : Completion Nat D), cs[j]? = some c → ∀ x, ∃ ev, c.result x = .ok ev ∧ serial ev = j) :
    ∃ st s, steadyNsga2 (nsga2Config (moDominates ms fitness) (moRow ms fitness) fitness ms maxBirths popSize countNonviable viable
      pipeline) initial ctx rank0 d0 cs = .ok (st, s) ∧ st.completed.Nodup := by
  have key : ∀ (cs : List (Completion Nat D)) (n : Nat)
      (_ : ∀ (j : Nat) (c : Completion Nat D), cs[j]? = some c → ∀ x, ∃ ev, c.result x = .ok ev ∧ serial ev = n + j)
      (st0 : SteadyState Nat) (s0 : EnluState), EnluGood ms fitness s0 → (∃ b, st0.counter.ctx.births = some b) →
      (∀ x ∈ s0.layers.flatten, x ∈ st0.completed) → st0.completed.Nodup → (∀ x ∈ st0.completed, serial x < n) →
      ∃ st s, statefulRun (nsga2Config (moDominates ms fitness) (moRow ms fitness) fitness ms maxBirths popSize countNonviable viable
        pipeline) st0 s0 cs = .ok (st, s) ∧ st.completed.Nodup := by
    intro cs
    induction cs with
    | nil => intro n _ st0 s0 _ _ _ hn _; exact ⟨st0, s0, rfl, hn⟩
    | cons c cs ih =>
      intro n hres st0 s0 hg hb hin hn hser
      simp only [statefulRun]
      split
      · exact ⟨st0, s0, rfl, hn⟩
      · rename_i hne
        have hpos : 0 < st0.pending.length := by
          cases hpe : st0.pending with
          | nil => simp [hpe] at hne
          | cons a l => simp
        have hlt := Nat.mod_lt c.which hpos
        obtain ⟨ev, hev, hevs⟩ := hres 0 c rfl (st0.pending[c.which % st0.pending.length])
        have hfresh : ev ∉ st0.completed := fun h => by have := hser ev h; omega
        obtain ⟨s1, e1, g1, p1, p2⟩ := enlu_insert_step hf popSize ev s0 hg (fun h => hfresh (hin ev h))
        have e1' : enluInsert (moDominates ms fitness) (moRow ms fitness) fitness ms popSize ev s0 = .ok (s1, s1.layers.flatten) := e1
        have hin1 : ∀ x ∈ s1.layers.flatten, x ∈ st0.completed ++ [ev] := by
          intro x hx
          have : x ∈ ev :: s0.layers.flatten := by
            rcases Nat.lt_or_ge s0.layers.flatten.length popSize with h | h
            · exact (p1 h).mem_iff.1 hx
            · obtain ⟨_, _, v, _, _, _, _, _, pv⟩ := p2 h
              exact pv.mem_iff.1 (List.mem_cons_of_mem _ hx)
          rcases List.mem_cons.1 this with rfl | h
          · simp
          · exact List.mem_append_left _ (hin x h)
        obtain ⟨b, hb⟩ := hb
        have hdec : ∃ cnt : BirthCounter, discount (viable ev) countNonviable st0.counter = .ok cnt ∧
            ∃ b, cnt.ctx.births = some b := by
          unfold discount
          split
          · unfold BirthCounter.decrement
            simp only [hb]
            exact ⟨_, rfl, _, rfl⟩
          · exact ⟨_, rfl, b, hb⟩
        obtain ⟨cnt, hcnt, b', hb'⟩ := hdec
        have hstep : ∃ st1, statefulStep (nsga2Config (moDominates ms fitness) (moRow ms fitness) fitness ms maxBirths popSize
            countNonviable viable pipeline) st0 s0 c = .ok (st1, s1) ∧ st1.completed = st0.completed ++ [ev] ∧
            ∃ b, st1.counter.ctx.births = some b := by
          unfold statefulStep
          simp only [List.getElem?_eq_getElem hlt, hev, nsga2Config]
          rw [hcnt]
          simp only [e1']
          by_cases hlt2 : cnt.births < maxBirths
          · simp only [hlt2, if_true]
            obtain ⟨off, ho⟩ := hp c.draw s1 s1.layers.flatten
            simp only [ho]
            unfold BirthCounter.increment
            simp only [hb']
            exact ⟨_, rfl, rfl, _, rfl⟩
          · simp only [hlt2, if_false]
            exact ⟨_, rfl, rfl, b', hb'⟩
        obtain ⟨st1, hs1, hc1, hb1⟩ := hstep
        rw [hs1]
        simp only
        refine ih (n + 1) ?_ st1 s1 g1 hb1 (by rw [hc1]; exact hin1) ?_ ?_
        · intro j c' hj x
          obtain ⟨ev', h1, h2⟩ := hres (j + 1) c' (by simpa using hj) x
          exact ⟨ev', h1, by omega⟩
        · rw [hc1, List.nodup_append]
          exact ⟨hn, by simp, by intro a ha b hb; rw [List.mem_singleton] at hb; subst hb; rintro rfl; exact hfresh ha⟩
        · intro x hx
          rw [hc1, List.mem_append, List.mem_singleton] at hx
          rcases hx with hx | rfl
          · have := hser x hx; omega
          · omega
  exact key cs 0 (by simpa using hres) _ _ (enluGood_empty rank0 d0) ⟨0, rfl⟩ (by simp) (by simp [steadyInit]) (by simp [steadyInit])

set_option synthInstance.maxSize 1000 in
set_option synthInstance.maxHeartbeats 100000 in
/-- Two initial individuals (numbered 10 and 11), one offspring at a time, six completions in a mixed order; the evaluated
individuals are new objects 0 to 5. -/
example :
    let fitness : Nat → List ℚ := fun x => [[3, 1], [1, 3], [2, 0], [0, 2], [4, 2], [5, 0]].getD x [0, 0]
    let cfg : StatefulConfig Nat Unit EnluState := nsga2Config (moDominates [true, true] fitness) (moRow [true, true] fitness) fitness
      [true, true] 3 3 true (fun _ => true) (fun _ _ pop => .ok [20 + pop.length])
    let cs : List (Completion Nat Unit) := [1, 0, 1, 0, 0].zipIdx.map fun p => ⟨p.1, fun _ => .ok p.2, ()⟩
    (steadyNsga2 cfg [10, 11] {} (fun _ => 0) (fun _ => 0) cs).map (fun r =>
      (r.1.pending, r.1.pop, r.1.counter.births, r.1.submitted, r.1.completed, r.1.pop.map r.2.rank)) =
      .ok ([], [1, 4, 0], 3, [10, 11, 21, 22, 23], [0, 1, 2, 3, 4], [1, 1, 2]) := by decide +kernel

end Leap
