import Mathlib.Tactic.Linarith
import Mathlib.Tactic.FieldSimp
import Verif.Model.Probe
import Verif.Lemmas.Order
import Verif.Props.Compare

/-!
# Probes: best so far (C52) and CSV rows (C67)
-/

namespace Leap

variable {α F U M V : Type}

namespace Spec

/-- `b` has been seen, and nothing that has been seen beats it. -/
def Champion (gt : α → α → Bool) (seen : List α) (b : α) : Prop := b ∈ seen ∧ ∀ y ∈ seen, gt y b = false

/-- The same with one step in between: everything seen fails to beat something seen that fails to beat `b`. For a
comparison with a tolerance this says "within twice the tolerance of the best". -/
def NearChampion (gt : α → α → Bool) (seen : List α) (b : α) : Prop :=
  b ∈ seen ∧ ∀ y ∈ seen, ∃ m ∈ seen, gt y m = false ∧ gt m b = false

/-- The individuals seen in some calls. -/
def seenIn (calls : List (Int × List α)) : List α := calls.flatMap Prod.snd

end Spec

open Spec

theorem strictWeak_order {gt : α → α → Bool} (h : StrictWeak gt) : StrictPartial gt :=
  ⟨fun a => Leap.StrictWeak.irrefl h a, fun _ _ _ h1 h2 => Leap.StrictWeak.trans h h1 h2⟩

/-- When comparison is a strict weak order there is no difference. -/
theorem near_champion (gt : α → α → Bool) (h : StrictWeak gt) (seen : List α) (b : α) :
    NearChampion gt seen b ↔ Champion gt seen b := by
  constructor
  · rintro ⟨h1, h2⟩
    refine ⟨h1, fun y hy => ?_⟩
    obtain ⟨m, -, h3, h4⟩ := h2 y hy
    exact h.negTrans y m b h3 h4
  · rintro ⟨h1, h2⟩
    exact ⟨h1, fun y hy => ⟨b, h1, h2 y hy, Leap.StrictWeak.irrefl h b⟩⟩

/-! ### Best so far -/

/-- The invariant of the probes that look at populations: `seen` so far, best so far `bsf`. -/
def BsfInv (near : (α → α → Bool) → List α → α → Prop) (gt : α → α → Bool) (seen : List α) (bsf : Option α) : Prop :=
  (bsf = none ∧ seen = []) ∨ ∃ b, bsf = some b ∧ near gt seen b

theorem bsfUpdate_near {gt : α → α → Bool} (h : StrictPartial gt) (seen : List α) (bsf : Option α) (population : List α)
    (best : α) (hb : pyMax gt population = .ok best) (hbsf : BsfInv NearChampion gt seen bsf) :
    NearChampion gt (seen ++ population) (bsfUpdate gt bsf best) := by
  cases population with
  | nil => simp [pyMax] at hb
  | cons x xs =>
    simp only [pyMax, Except.ok.injEq] at hb
    have hmem := pyMaxFrom_mem gt x xs
    have hspec := pyMaxFrom_spec h x xs
    rw [hb] at hmem hspec
    rcases hbsf with ⟨rfl, rfl⟩ | ⟨b, rfl, hb1, hb2⟩
    · simp only [bsfUpdate, List.nil_append]
      exact ⟨hmem, fun y hy => ⟨best, hmem, hspec y hy, h.irrefl best⟩⟩
    · simp only [bsfUpdate]
      by_cases hg : gt best b = true
      · rw [if_pos hg]
        refine ⟨List.mem_append_right _ hmem, ?_⟩
        intro y hy
        rcases List.mem_append.mp hy with hy | hy
        · obtain ⟨m, hm, h1, h2⟩ := hb2 y hy
          refine ⟨m, List.mem_append_left _ hm, h1, ?_⟩
          by_contra hc
          rw [h.trans m best b (by simpa using hc) hg] at h2
          cases h2
        · exact ⟨best, List.mem_append_right _ hmem, hspec y hy, h.irrefl best⟩
      · rw [if_neg hg]
        refine ⟨List.mem_append_left _ hb1, ?_⟩
        intro y hy
        rcases List.mem_append.mp hy with hy | hy
        · obtain ⟨m, hm, h12⟩ := hb2 y hy
          exact ⟨m, List.mem_append_left _ hm, h12⟩
        · exact ⟨best, List.mem_append_right _ hmem, hspec y hy, by simpa using hg⟩

theorem bsfUpdate_champion {gt : α → α → Bool} (h : StrictPartial gt) (seen : List α) (bsf : Option α) (ind : α)
    (hbsf : BsfInv Champion gt seen bsf) : Champion gt (seen ++ [ind]) (bsfUpdate gt bsf ind) := by
  rcases hbsf with ⟨rfl, rfl⟩ | ⟨b, rfl, hb1, hb2⟩
  · simp only [bsfUpdate, List.nil_append]
    exact ⟨List.mem_singleton.mpr rfl, fun y hy => by rw [List.mem_singleton.mp hy]; exact h.irrefl ind⟩
  · simp only [bsfUpdate]
    by_cases hg : gt ind b = true
    · rw [if_pos hg]
      refine ⟨by simp, ?_⟩
      intro y hy
      rcases List.mem_append.mp hy with hy | hy
      · by_contra hc
        have := h.trans y ind b (by simpa using hc) hg
        rw [hb2 y hy] at this
        cases this
      · rw [List.mem_singleton.mp hy]; exact h.irrefl ind
    · rw [if_neg hg]
      refine ⟨by simp [hb1], ?_⟩
      intro y hy
      rcases List.mem_append.mp hy with hy | hy
      · exact hb2 y hy
      · rw [List.mem_singleton.mp hy]; simpa using hg

/-- Call a `BestSoFarProbe` on one population after another, each with its generation number. -/
def bsfRun (gt : α → α → Bool) (fitness : α → Option F) : List (Int × List α) → BsfState α F → PyM (BsfState α F)
  | [], st => .ok st
  | (g, population) :: calls, st =>
    match bestSoFarProbe gt fitness (some (some g)) population st with
    | .error e => .error e
    | .ok (_, st) => bsfRun gt fitness calls st

/-- C52: one call returns the population unchanged; the errors. -/
theorem best_so_far_step (gt : α → α → Bool) (fitness : α → Option F) (population : List α) (st : BsfState α F) :
    (∀ g, population ≠ [] → (∀ x ∈ population, fitness x ≠ none) → ∃ st', bestSoFarProbe gt fitness (some (some g)) population st =
      .ok (population, st')) ∧
    (bestSoFarProbe gt fitness none population st = .error .assertionError) ∧
    (bestSoFarProbe gt fitness (some none) population st = .error .assertionError) ∧
    (∀ g, bestSoFarProbe gt fitness (some (some g)) [] st = .error .valueError) ∧
    (∀ g, population ≠ [] → (∀ x ∈ population, fitness x = none) →
      bestSoFarProbe gt fitness (some (some g)) population st = .error .assertionError) := by
  refine ⟨?_, rfl, rfl, fun _ => rfl, ?_⟩
  · intro g hne hf
    cases population with
    | nil => exact absurd rfl hne
    | cons x xs =>
      refine ⟨⟨some (bsfUpdate gt st.bsf (pyMaxFrom gt x xs)), st.rows ++ [(g, fitness (bsfUpdate gt st.bsf (pyMaxFrom gt x xs)))]⟩, ?_⟩
      unfold bestSoFarProbe
      simp only [probeGeneration, pyMax]
      rw [if_neg (hf _ (pyMaxFrom_mem gt x xs))]
  · intro g hne hf
    cases population with
    | nil => exact absurd rfl hne
    | cons x xs =>
      unfold bestSoFarProbe
      simp only [probeGeneration, pyMax]
      rw [if_pos (hf _ (pyMaxFrom_mem gt x xs))]

/-- C52, every history of calls of `BestSoFarProbe`: one row per call, with its generation number and the fitness of an
individual seen until then such that nothing seen until then beats it by more than the comparison can tell; rows
never worsen. -/
theorem best_so_far_history {gt : α → α → Bool} (h : StrictPartial gt) (fitness : α → Option F)
    (calls : List (Int × List α)) (hne : ∀ c ∈ calls, c.2 ≠ []) (hf : ∀ c ∈ calls, ∀ x ∈ c.2, fitness x ≠ none) :
    ∃ (st : BsfState α F) (bs : List α), bsfRun gt fitness calls ⟨none, []⟩ = .ok st ∧ st.bsf = bs.getLast? ∧ bs.length = calls.length ∧
      st.rows = List.zipWith (fun c b => (c.1, fitness b)) calls bs ∧
      (∀ k b, bs[k]? = some b → NearChampion gt (seenIn (calls.take (k + 1))) b) ∧
      (∀ (k : Nat) b b', bs[k]? = some b → bs[k + 1]? = some b' → b' = b ∨ gt b' b = true) := by
  have gen : ∀ (rest done : List (Int × List α)) (bs0 : List α) (st : BsfState α F),
      (∀ c ∈ rest, c.2 ≠ []) → (∀ c ∈ rest, ∀ x ∈ c.2, fitness x ≠ none) →
      bs0.length = done.length → st.bsf = bs0.getLast? → BsfInv NearChampion gt (seenIn done) st.bsf →
      st.rows = List.zipWith (fun c b => (c.1, fitness b)) done bs0 →
      (∀ k b, bs0[k]? = some b → NearChampion gt (seenIn (done.take (k + 1))) b) →
      (∀ (k : Nat) b b', bs0[k]? = some b → bs0[k + 1]? = some b' → b' = b ∨ gt b' b = true) →
      ∃ (st' : BsfState α F) (bs : List α), bsfRun gt fitness rest st = .ok st' ∧ st'.bsf = bs.getLast? ∧ bs.length = (done ++ rest).length ∧
        st'.rows = List.zipWith (fun c b => (c.1, fitness b)) (done ++ rest) bs ∧
        (∀ k b, bs[k]? = some b → NearChampion gt (seenIn ((done ++ rest).take (k + 1))) b) ∧
        (∀ (k : Nat) b b', bs[k]? = some b → bs[k + 1]? = some b' → b' = b ∨ gt b' b = true) := by
    intro rest
    induction rest with
    | nil =>
      intro done bs0 st _ _ h1 h2 h3 h4 h5 h6
      exact ⟨st, bs0, rfl, h2, by simpa using h1, by simpa using h4, by simpa using h5, h6⟩
    | cons c rest ih =>
      intro done bs0 st hne hf h1 h2 h3 h4 h5 h6
      obtain ⟨g, population⟩ := c
      have hpne := hne (g, population) (List.mem_cons_self ..)
      have hpf := hf (g, population) (List.mem_cons_self ..)
      obtain ⟨best, hbest⟩ : ∃ best, pyMax gt population = .ok best := by
        cases population with
        | nil => exact absurd rfl hpne
        | cons x xs => exact ⟨_, rfl⟩
      have hbm : best ∈ population := by
        cases population with
        | nil => exact absurd rfl hpne
        | cons x xs =>
          simp only [pyMax, Except.ok.injEq] at hbest
          rw [← hbest]; exact pyMaxFrom_mem gt x xs
      have hupd := bsfUpdate_near h (seenIn done) st.bsf population best hbest h3
      set b' := bsfUpdate gt st.bsf best with hb'
      have hstep : bestSoFarProbe gt fitness (some (some g)) population st =
          .ok (population, ⟨some b', st.rows ++ [(g, fitness b')]⟩) := by
        unfold bestSoFarProbe
        simp only [probeGeneration, hbest]
        rw [if_neg (hpf best hbm)]
      rw [bsfRun, hstep]
      simp only
      have hseen : seenIn (done ++ [(g, population)]) = seenIn done ++ population := by simp [seenIn]
      have happ : done ++ (g, population) :: rest = (done ++ [(g, population)]) ++ rest := by simp
      rw [happ]
      refine ih (done ++ [(g, population)]) (bs0 ++ [b']) ⟨some b', st.rows ++ [(g, fitness b')]⟩
        (fun c hc => hne c (List.mem_cons_of_mem _ hc)) (fun c hc => hf c (List.mem_cons_of_mem _ hc))
        (by simp [h1]) (by simp) (Or.inr ⟨b', rfl, by rw [hseen]; exact hupd⟩) ?_ ?_ ?_
      · rw [h4, List.zipWith_append h1.symm]
        rfl
      · intro k b hb
        by_cases hk : k < bs0.length
        · rw [List.getElem?_append_left hk] at hb
          have := h5 k b hb
          rwa [List.take_append_of_le_length (by omega)]
        · have hk' : k = bs0.length := by
            have := (List.getElem?_eq_some_iff.mp hb).1
            simp at this
            omega
          subst hk'
          rw [List.getElem?_append_right (le_refl _)] at hb
          simp at hb
          subst hb
          rw [List.take_of_length_le (by simp [h1]), hseen]
          exact hupd
      · intro k b b2 hb hb2
        by_cases hk : k + 1 < bs0.length
        · rw [List.getElem?_append_left (by omega)] at hb
          rw [List.getElem?_append_left hk] at hb2
          exact h6 k b b2 hb hb2
        · have hk' : k + 1 = bs0.length := by
            have := (List.getElem?_eq_some_iff.mp hb2).1
            simp at this
            omega
          rw [List.getElem?_append_left (by omega)] at hb
          rw [List.getElem?_append_right (by omega)] at hb2
          simp only [hk', Nat.sub_self, List.getElem?_cons_zero, Option.some.injEq] at hb2
          subst hb2
          have hlast : st.bsf = some b := by
            rw [h2, List.getLast?_eq_getElem?, ← hk']
            simpa using hb
          rw [hb', hlast]
          simp only [bsfUpdate]
          by_cases hg : gt best b = true
          · rw [if_pos hg]; exact Or.inr hg
          · rw [if_neg hg]; exact Or.inl rfl
  obtain ⟨st, bs, r⟩ := gen calls [] [] ⟨none, []⟩ hne hf rfl rfl (Or.inl ⟨rfl, rfl⟩) rfl (by simp) (by simp)
  exact ⟨st, bs, by simpa using r⟩

/-- C52: when comparison is a strict weak order (whole numbers, numpy numbers, floats further apart than the tolerance)
nothing seen beats the best so far. Missing: Python floats within the tolerance, where it is false
(`best_so_far_float_tolerance`) and `best_so_far_history` is what holds. -/
theorem best_so_far_history_partial {gt : α → α → Bool} (h : StrictWeak gt) (fitness : α → Option F)
    (calls : List (Int × List α)) (hne : ∀ c ∈ calls, c.2 ≠ []) (hf : ∀ c ∈ calls, ∀ x ∈ c.2, fitness x ≠ none) :
    ∃ (st : BsfState α F) (bs : List α), bsfRun gt fitness calls ⟨none, []⟩ = .ok st ∧ st.bsf = bs.getLast? ∧ bs.length = calls.length ∧
      st.rows = List.zipWith (fun c b => (c.1, fitness b)) calls bs ∧
      (∀ k b, bs[k]? = some b → Champion gt (seenIn (calls.take (k + 1))) b) := by
  obtain ⟨st, bs, h1, h2, h3, h4, h5, -⟩ := best_so_far_history (strictWeak_order h) fitness calls hne hf
  exact ⟨st, bs, h1, h2, h3, h4, fun k b hb => (near_champion gt h _ _).mp (h5 k b hb)⟩

/-- `a > b` on individuals whose fitnesses are the Python floats `a` and `b`, maximised. -/
def floatGt (a b : ℚ) : Bool := decide (indGt ⟨true⟩ true (some ⟨true, .fin a⟩) (some ⟨true, .fin b⟩) = .ok true)

theorem floatGt_strictPartial : StrictPartial floatGt := by
  constructor
  · intro a
    simp only [floatGt, decide_eq_false_iff_not, (float_gt_iff ⟨true⟩ true a a).1]
    simp
  · intro a b c h1 h2
    simp only [floatGt, decide_eq_true_eq] at *
    exact float_gt_transitive ⟨true⟩ true true true a b c h1 h2

/-- C52 is false of the code for Python floats closer than the tolerance of their comparison: the second population holds
an individual that beats the best so far, but the probe compares only `max(population)`. -/
theorem best_so_far_float_tolerance :
    ∃ (calls : List (Int × List ℚ)) (st : BsfState ℚ ℚ) (b y : ℚ), bsfRun floatGt some calls ⟨none, []⟩ = .ok st ∧
      st.bsf = some b ∧ y ∈ seenIn calls ∧ floatGt y b = true := by
  refine ⟨[(0, [1 - 5/10000000000]), (1, [1, 1 + 9/10000000000])],
    ⟨some (1 - 5/10000000000), [(0, some (1 - 5/10000000000)), (1, some (1 - 5/10000000000))]⟩, 1 - 5/10000000000,
    1 + 9/10000000000, ?_, rfl, by decide +kernel, by decide +kernel⟩
  have h1 : floatGt (1 + 9/10000000000) 1 = false := by decide +kernel
  have h2 : floatGt 1 (1 - 5/10000000000) = false := by decide +kernel
  simp only [bsfRun, bestSoFarProbe, probeGeneration, pyMax, pyMaxFrom, bsfUpdate, h1, h2, Bool.false_eq_true, if_false,
    reduceCtorEq, List.nil_append, List.cons_append]

/-- Resume a `BestSoFarIterProbe` on the individuals of a list, the context holding generation `g`. -/
def bsfIterOn (gt : α → α → Bool) (fitness : α → Option F) (g : Int) : Gen (List α) (BsfIterState α F) α :=
  bestSoFarIterProbe gt fitness (fun _ => some (some g)) fun l => (listIter l ()).map fun r => (r.1, r.2.1)

/-- C52, `BestSoFarIterProbe`: it yields the individuals unchanged and in order, writes one row per individual, and the best
so far is never beaten by anything it has seen, also for Python floats. -/
theorem best_so_far_iter {gt : α → α → Bool} (h : StrictPartial gt) (fitness : α → Option F) (g : Int) (l rest : List α)
    (hf : ∀ x ∈ l, fitness x ≠ none) :
    ∃ (st : BsfIterState α F) (bs : List α), pull (bsfIterOn gt fitness g) l.length ⟨false, ⟨none, []⟩⟩ (l ++ rest) = .ok (l, st, rest) ∧
      st.probe.bsf = bs.getLast? ∧ bs.length = l.length ∧ st.probe.rows = bs.map (fun b => (g, fitness b)) ∧
      ∀ (k : Nat) b, bs[k]? = some b → Champion gt (l.take (k + 1)) b := by
  have gen : ∀ (l done bs0 : List α) (st : BsfIterState α F), (∀ x ∈ l, fitness x ≠ none) →
      bs0.length = done.length → st.probe.bsf = bs0.getLast? → BsfInv Champion gt done st.probe.bsf →
      st.probe.rows = bs0.map (fun b => (g, fitness b)) → (∀ (k : Nat) b, bs0[k]? = some b → Champion gt (done.take (k + 1)) b) →
      ∃ (st' : BsfIterState α F) (bs : List α), pull (bsfIterOn gt fitness g) l.length st (l ++ rest) = .ok (l, st', rest) ∧
        st'.probe.bsf = bs.getLast? ∧ bs.length = (done ++ l).length ∧ st'.probe.rows = bs.map (fun b => (g, fitness b)) ∧
        ∀ (k : Nat) b, bs[k]? = some b → Champion gt ((done ++ l).take (k + 1)) b := by
    intro l
    induction l with
    | nil =>
      intro done bs0 st _ h1 h2 h3 h4 h5
      exact ⟨st, bs0, rfl, h2, by simpa using h1, h4, by simpa using h5⟩
    | cons x l ih =>
      intro done bs0 st hf h1 h2 h3 h4 h5
      have hupd := bsfUpdate_champion h done st.probe.bsf x h3
      set b' := bsfUpdate gt st.probe.bsf x with hb'
      have hstep : bsfIterOn gt fitness g st (x :: (l ++ rest)) =
          .ok (x, ⟨true, ⟨some b', st.probe.rows ++ [(g, fitness b')]⟩⟩, l ++ rest) := by
        unfold bsfIterOn bestSoFarIterProbe
        have hchk : (if st.started = true then Except.ok (0 : Int) else probeGeneration (some (some g))) =
            (if st.started = true then Except.ok (0 : Int) else Except.ok g : PyM Int) := rfl
        cases hs : st.started <;>
          simp only [probeGeneration, listIter, Except.map, if_neg (hf x (List.mem_cons_self ..)), Bool.false_eq_true, if_false,
            if_true, ← hb']
      have happ : done ++ x :: l = (done ++ [x]) ++ l := by simp
      obtain ⟨st', bs, i1, i2, i3, i4, i5⟩ := ih (done ++ [x]) (bs0 ++ [b'])
        ⟨true, ⟨some b', st.probe.rows ++ [(g, fitness b')]⟩⟩ (fun y hy => hf y (List.mem_cons_of_mem _ hy))
        (by simp [h1]) (by simp) (Or.inr ⟨b', rfl, hupd⟩) (by simp [h4]) (by
          intro k b hb
          by_cases hk : k < bs0.length
          · rw [List.getElem?_append_left hk] at hb
            rw [List.take_append_of_le_length (by omega)]
            exact h5 k b hb
          · have hk' : k = bs0.length := by
              have := (List.getElem?_eq_some_iff.mp hb).1
              simp at this
              omega
            subst hk'
            rw [List.getElem?_append_right (le_refl _)] at hb
            simp at hb
            subst hb
            rw [List.take_of_length_le (by simp [h1])]
            exact hupd)
      rw [happ]
      refine ⟨st', bs, ?_, i2, i3, i4, i5⟩
      rw [List.length_cons, List.cons_append, pull, hstep]
      simp only
      rw [i1]
  obtain ⟨st, bs, r⟩ := gen l [] [] ⟨false, ⟨none, []⟩⟩ hf rfl rfl (Or.inl ⟨rfl, rfl⟩) rfl (by simp)
  exact ⟨st, bs, by simpa using r⟩

/-- C52, errors of `BestSoFarIterProbe`: the end of upstream becomes `RuntimeError`, an unevaluated individual
`AssertionError`, and a context without a generation `AssertionError` at the first `next`. -/
theorem best_so_far_iter_errors (gt : α → α → Bool) (fitness : α → Option F) (ctx : U → Option (Option Int))
    (next : U → PyM (α × U)) (st : BsfIterState α F) (u : U) :
    (∀ g, ctx u = some (some g) → ∀ e, next u = .error e →
      bestSoFarIterProbe gt fitness ctx next st u = .error (if e = .stopIteration then .runtimeError else e)) ∧
    (∀ g, ctx u = some (some g) → ∀ x u', next u = .ok (x, u') → fitness x = none →
      bestSoFarIterProbe gt fitness ctx next st u = .error .assertionError) ∧
    ((ctx u = none ∨ ctx u = some none) → st.started = false →
      bestSoFarIterProbe gt fitness ctx next st u = .error .assertionError) := by
  refine ⟨?_, ?_, ?_⟩
  · intro g hg e he
    unfold bestSoFarIterProbe
    cases st.started <;> simp only [hg, probeGeneration, he, if_true, if_false, Bool.false_eq_true] <;> cases e <;> rfl
  · intro g hg x u' hx hn
    unfold bestSoFarIterProbe
    cases st.started <;> simp [hg, probeGeneration, hx, hn]
  · rintro (hc | hc) hs <;> simp [bestSoFarIterProbe, hs, hc, probeGeneration]

example : StrictPartial floatGt := floatGt_strictPartial
example : (bsfRun (fun (a b : Int) => decide (a > b)) some [(0, [1, 3]), (1, [2]), (2, [5, 4])] ⟨none, []⟩).toOption.map
    BsfState.rows = some [(0, some 3), (1, some 3), (2, some 5)] := by decide +kernel

/-! ### Fitness statistics -/

/-- Call a `FitnessStatsCSVProbe` on one population after another; the results and the final state. -/
def statsRun (c : StatsConfig α M) (gt : α → α → Bool) (fitness : α → ℚ) :
    List (Int × List α) → StatsState α M → List (PyM (List α)) × StatsState α M
  | [], st => ([], st)
  | (g, population) :: calls, st =>
    match statsProbe c gt fitness (some (some g)) population st with
    | (r, st) => (r :: (statsRun c gt fitness calls st).1, (statsRun c gt fitness calls st).2)

/-- C52, every history of calls of `FitnessStatsCSVProbe` with a non-zero `modulo`: every population is returned unchanged;
there is a row exactly for each call whose generation is divisible by `modulo`; the best so far in it accounts for all
calls until then, also those that wrote nothing. -/
theorem stats_history {gt : α → α → Bool} (h : StrictPartial gt) (c : StatsConfig α M) (hm : c.modulo ≠ 0)
    (fitness : α → ℚ) (calls : List (Int × List α)) (hne : ∀ c ∈ calls, c.2 ≠ []) :
    ∃ bs : List α, bs.length = calls.length ∧
      (statsRun c gt fitness calls ⟨none, []⟩).1 = calls.map (fun call => .ok call.2) ∧
      (statsRun c gt fitness calls ⟨none, []⟩).2.bsf = bs.getLast? ∧
      (statsRun c gt fitness calls ⟨none, []⟩).2.rows =
        ((List.zip calls bs).filter (fun x => decide (c.modulo ∣ x.1.1))).map
          (fun x => statsRow c fitness x.1.1 x.2 x.1.2) ∧
      (∀ (k : Nat) b, bs[k]? = some b → NearChampion gt (seenIn (calls.take (k + 1))) b) := by
  have gen : ∀ (rest done : List (Int × List α)) (bs0 : List α) (st : StatsState α M),
      (∀ c ∈ rest, c.2 ≠ []) → bs0.length = done.length → st.bsf = bs0.getLast? →
      BsfInv NearChampion gt (seenIn done) st.bsf →
      st.rows = ((List.zip done bs0).filter (fun x => decide (c.modulo ∣ x.1.1))).map
          (fun x => statsRow c fitness x.1.1 x.2 x.1.2) →
      (∀ (k : Nat) b, bs0[k]? = some b → NearChampion gt (seenIn (done.take (k + 1))) b) →
      ∃ bs : List α, bs.length = (done ++ rest).length ∧
        (statsRun c gt fitness rest st).1 = rest.map (fun call => .ok call.2) ∧
        (statsRun c gt fitness rest st).2.bsf = bs.getLast? ∧
        (statsRun c gt fitness rest st).2.rows =
          ((List.zip (done ++ rest) bs).filter (fun x => decide (c.modulo ∣ x.1.1))).map
            (fun x => statsRow c fitness x.1.1 x.2 x.1.2) ∧
        (∀ (k : Nat) b, bs[k]? = some b → NearChampion gt (seenIn ((done ++ rest).take (k + 1))) b) := by
    intro rest
    induction rest with
    | nil =>
      intro done bs0 st _ h1 h2 h3 h4 h5
      exact ⟨bs0, by simpa using h1, rfl, h2, by simpa [statsRun] using h4, by simpa using h5⟩
    | cons call rest ih =>
      intro done bs0 st hne h1 h2 h3 h4 h5
      obtain ⟨g, population⟩ := call
      have hpne := hne (g, population) (List.mem_cons_self ..)
      obtain ⟨best, hbest⟩ : ∃ best, pyMax gt population = .ok best := by
        cases population with
        | nil => exact absurd rfl hpne
        | cons x xs => exact ⟨_, rfl⟩
      have hupd := bsfUpdate_near h (seenIn done) st.bsf population best hbest h3
      set b' := bsfUpdate gt st.bsf best with hb'
      have hdvd : Int.fmod g c.modulo = 0 ↔ c.modulo ∣ g := (Int.dvd_iff_fmod_eq_zero).symm
      have hstep : statsProbe c gt fitness (some (some g)) population st =
          (.ok population, ⟨some b', st.rows ++
            (if c.modulo ∣ g then [statsRow c fitness g b' population] else [])⟩) := by
        unfold statsProbe
        simp only [probeGeneration, if_pos (List.length_pos_iff.mpr hpne), hbest, if_neg hm, ← hb']
        by_cases hd : c.modulo ∣ g
        · rw [if_neg (by rw [Ne, hdvd]; exact not_not.mpr hd), if_pos hd]
        · rw [if_pos (by rw [Ne, hdvd]; exact hd), if_neg hd, List.append_nil]
      have hseen : seenIn (done ++ [(g, population)]) = seenIn done ++ population := by simp [seenIn]
      have happ : done ++ (g, population) :: rest = (done ++ [(g, population)]) ++ rest := by simp
      rw [happ]
      obtain ⟨bs, i1, i2, i3, i4, i5⟩ := ih (done ++ [(g, population)]) (bs0 ++ [b'])
        ⟨some b', st.rows ++ (if c.modulo ∣ g then [statsRow c fitness g b' population] else [])⟩
        (fun c hc => hne c (List.mem_cons_of_mem _ hc)) (by simp [h1]) (by simp)
        (Or.inr ⟨b', rfl, by rw [hseen]; exact hupd⟩) (by
          simp only
          rw [h4, List.zip_append h1.symm, List.filter_append, List.map_append]
          congr 1
          by_cases hd : c.modulo ∣ g
          · simp [hd]
          · simp [hd]) (by
          intro k b hb
          by_cases hk : k < bs0.length
          · rw [List.getElem?_append_left hk] at hb
            have := h5 k b hb
            rwa [List.take_append_of_le_length (by omega)]
          · have hk' : k = bs0.length := by
              have := (List.getElem?_eq_some_iff.mp hb).1
              simp at this
              omega
            subst hk'
            rw [List.getElem?_append_right (le_refl _)] at hb
            simp at hb
            subst hb
            rw [List.take_of_length_le (by simp [h1]), hseen]
            exact hupd)
      refine ⟨bs, i1, ?_, ?_, ?_, i5⟩
      · simp only [statsRun, hstep, List.map_cons]
        rw [i2]
      · simp only [statsRun, hstep]
        exact i3
      · simp only [statsRun, hstep]
        exact i4
  obtain ⟨bs, r⟩ := gen calls [] [] ⟨none, []⟩ hne rfl rfl (Or.inl ⟨rfl, rfl⟩) rfl (by simp)
  exact ⟨bs, by simpa using r⟩

/-- C52, errors: an empty population or a context without a generation is refused and changes nothing; a `modulo` of zero
raises after the best so far has been updated. -/
theorem stats_errors (c : StatsConfig α M) (gt : α → α → Bool) (fitness : α → ℚ) (population : List α)
    (st : StatsState α M) :
    (statsProbe c gt fitness none population st = (.error .assertionError, st)) ∧
    (statsProbe c gt fitness (some none) population st = (.error .assertionError, st)) ∧
    (∀ g, statsProbe c gt fitness (some (some g)) [] st = (.error .assertionError, st)) ∧
    (∀ g, c.modulo = 0 → population ≠ [] → (statsProbe c gt fitness (some (some g)) population st).1 = .error .zeroDivisionError ∧
      (statsProbe c gt fitness (some (some g)) population st).2.rows = st.rows) := by
  refine ⟨rfl, rfl, fun _ => rfl, ?_⟩
  intro g hm hne
  cases population with
  | nil => exact absurd rfl hne
  | cons x xs => simp [statsProbe, probeGeneration, pyMax, hm]

theorem foldl_min_spec (l : List ℚ) (x : ℚ) : l.foldl min x ∈ x :: l ∧ ∀ y ∈ x :: l, l.foldl min x ≤ y := by
  induction l generalizing x with
  | nil => simp
  | cons a l ih =>
    obtain ⟨h1, h2⟩ := ih (min x a)
    rw [List.foldl_cons]
    constructor
    · rcases List.mem_cons.mp h1 with h1 | h1
      · rw [h1]
        rcases min_choice x a with h | h <;> simp [h]
      · simp [h1]
    · intro y hy
      have h3 := h2 (min x a) (List.mem_cons_self ..)
      rcases List.mem_cons.mp hy with rfl | hy
      · exact le_trans h3 (min_le_left ..)
      · rcases List.mem_cons.mp hy with rfl | hy
        · exact le_trans h3 (min_le_right ..)
        · exact h2 y (List.mem_cons_of_mem _ hy)

theorem foldl_max_spec (l : List ℚ) (x : ℚ) : l.foldl max x ∈ x :: l ∧ ∀ y ∈ x :: l, y ≤ l.foldl max x := by
  induction l generalizing x with
  | nil => simp
  | cons a l ih =>
    obtain ⟨h1, h2⟩ := ih (max x a)
    rw [List.foldl_cons]
    constructor
    · rcases List.mem_cons.mp h1 with h1 | h1
      · rw [h1]
        rcases max_choice x a with h | h <;> simp [h]
      · simp [h1]
    · intro y hy
      have h3 := h2 (max x a) (List.mem_cons_self ..)
      rcases List.mem_cons.mp hy with rfl | hy
      · exact le_trans (le_max_left ..) h3
      · rcases List.mem_cons.mp hy with rfl | hy
        · exact le_trans (le_max_right ..) h3
        · exact h2 y (List.mem_cons_of_mem _ hy)

/-- C67, what a row of `FitnessStatsCSVProbe` holds under each column name of the header: it has a cell for every column, in
order: the job, the notes, the generation, the best fitness so far, mean, deviation, least and greatest fitness of the
population, the extra metrics of the population. -/
theorem stats_row_columns (c : StatsConfig α M) (fitness : α → ℚ) (g : Int) (b : α) (population : List α)
    (hne : population ≠ []) :
    ∃ mean var low high : ℚ,
      List.zip (statsHeader c) (statsRow c fitness g b population) =
        (c.job.toList.map fun j => ("job", StatCell.text j)) ++ (c.notes.map fun n => (n.1, StatCell.text n.2)) ++
        [("step", .step g), ("bsf", .fit (fitness b)), ("mean_fitness", .mean mean), ("std_fitness", .variance var),
          ("min_fitness", .fit low), ("max_fitness", .fit high)] ++
        (c.extraMetrics.map fun m => (m.1, StatCell.metric (m.2 population))) ∧
      (statsRow c fitness g b population).length = (statsHeader c).length ∧
      mean * population.length = (population.map fitness).sum ∧
      var * population.length = ((population.map fitness).map fun x => (x - mean) ^ 2).sum ∧
      (low ∈ population.map fitness ∧ ∀ y ∈ population.map fitness, low ≤ y) ∧
      (high ∈ population.map fitness ∧ ∀ y ∈ population.map fitness, y ≤ high) := by
  have hpos : (population.length : ℚ) ≠ 0 := by
    have := List.length_pos_iff.mpr hne
    positivity
  refine ⟨statMean (population.map fitness), statVariance (population.map fitness), statMin (population.map fitness),
    statMax (population.map fitness), ?_, ?_, ?_, ?_, ?_, ?_⟩
  · have hz : ∀ {β γ : Type} (l : List (String × β)) (f : β → γ), List.zip (l.map Prod.fst) (l.map fun x => f x.2) =
        l.map fun x => (x.1, f x.2) := by
      intro β γ l f
      induction l with
      | nil => rfl
      | cons x l ih => simp [ih]
    unfold statsHeader statsRow
    rw [List.zip_append, List.zip_append, List.zip_append]
    · rw [hz c.notes fun s => StatCell.text s, hz c.extraMetrics fun m => StatCell.metric (m population)]
      cases c.job <;> rfl
    · cases c.job <;> rfl
    · cases c.job <;> simp
    · cases c.job <;> simp
  · unfold statsHeader statsRow
    cases c.job <;> simp
  · simp only [statMean, List.length_map]
    field_simp
  · simp only [statVariance]
    rw [statMean]
    simp only [List.length_map]
    field_simp
  · cases population with
    | nil => exact absurd rfl hne
    | cons x xs => exact foldl_min_spec (xs.map fitness) (fitness x)
  · cases population with
    | nil => exact absurd rfl hne
    | cons x xs => exact foldl_max_spec (xs.map fitness) (fitness x)

/-- `best_of_gen`: a champion of the population; an empty population is refused. -/
theorem best_of_gen_spec {gt : α → α → Bool} (h : StrictPartial gt) (population : List α) :
    (population ≠ [] → ∃ b, bestOfGen gt population = .ok b ∧ Champion gt population b) ∧
    (population = [] → bestOfGen gt population = .error .assertionError) := by
  constructor
  · intro hne
    cases population with
    | nil => exact absurd rfl hne
    | cons x xs => exact ⟨_, rfl, pyMaxFrom_mem gt x xs, pyMaxFrom_spec h x xs⟩
  · rintro rfl; rfl

def exStats : StatsConfig ℚ ℚ := ⟨true, [("size", fun p => p.length)], some "15", [("note", "x")], 2⟩

example : statsHeader exStats =
    ["job", "note", "step", "bsf", "mean_fitness", "std_fitness", "min_fitness", "max_fitness", "size"] := rfl
-- generation 1 writes nothing, but its individual is the best so far of the row of generation 2
example : (statsRun exStats (fun a b => decide (a > b)) id [(0, [1, 2]), (1, [7]), (2, [3, 5])] ⟨none, []⟩).2.rows =
    [[.text "15", .text "x", .step 0, .fit 2, .mean (3/2), .variance (1/4), .fit 1, .fit 2, .metric 2],
     [.text "15", .text "x", .step 2, .fit 7, .mean 4, .variance 1, .fit 3, .fit 5, .metric 2]] := by decide +kernel

/-! ### Attributes -/

namespace Spec

/-- The row of an individual before the extra metrics: the generation, its attributes, the job, the notes, fitness and
genome if asked for. -/
def attrBase (c : AttrConfig V) (step : V) (ind : AttrInd V) (vals : List V) : List (String × V) :=
  ("step", step) :: List.zip c.attributes vals ++ (c.job.toList.map fun j => ("job", j)) ++ c.notes ++
    (if c.doFitness then [("fitness", ind.fitness)] else []) ++ (if c.doGenome then [("genome", ind.genome)] else [])

/-- Each extra metric is computed from the row so far. -/
def withExtras : List (String × V) → List (String × (List (String × V) → V)) → List (String × V)
  | row, [] => row
  | row, m :: ms => withExtras (row ++ [(m.1, m.2 row)]) ms

end Spec

theorem dictSet_new (row : List (String × V)) (k : String) (v : V) (h : k ∉ row.map Prod.fst) :
    dictSet row k v = row ++ [(k, v)] := by
  rw [dictSet, if_neg h]

theorem attrRowFrom_ok (get : String → Option V) (as : List String) (vals : List V) (row : List (String × V))
    (hv : List.Forall₂ (fun a v => get a = some v) as vals) (hn : (row.map Prod.fst ++ as).Nodup) :
    attrRowFrom get as row = .ok (row ++ List.zip as vals) := by
  induction hv generalizing row with
  | nil => simp [attrRowFrom]
  | @cons a v as vals ha _ ih =>
    rw [attrRowFrom, ha]
    simp only
    rw [dictSet_new row a v (by
      intro hm
      rw [List.nodup_append] at hn
      exact hn.2.2 a hm a (List.mem_cons_self ..) rfl)]
    rw [ih _ (by simpa using hn)]
    simp

theorem foldl_dictSet (notes row : List (String × V)) (hn : (row.map Prod.fst ++ notes.map Prod.fst).Nodup) :
    notes.foldl (fun row n => dictSet row n.1 n.2) row = row ++ notes := by
  induction notes generalizing row with
  | nil => simp
  | cons n notes ih =>
    rw [List.foldl_cons, dictSet_new row n.1 n.2 (by
      intro hm
      rw [List.nodup_append] at hn
      exact hn.2.2 n.1 hm n.1 (by simp) rfl), ih _ (by simpa using hn)]
    simp

theorem foldl_extras (ms : List (String × (List (String × V) → V))) (row : List (String × V))
    (hn : (row.map Prod.fst ++ ms.map Prod.fst).Nodup) :
    ms.foldl (fun row m => dictSet row m.1 (m.2 row)) row = withExtras row ms := by
  induction ms generalizing row with
  | nil => rfl
  | cons m ms ih =>
    rw [List.foldl_cons, dictSet_new row m.1 _ (by
      intro hm
      rw [List.nodup_append] at hn
      exact hn.2.2 m.1 hm m.1 (by simp) rfl), ih _ (by simpa using hn), withExtras]

theorem withExtras_keys (ms : List (String × (List (String × V) → V))) (row : List (String × V)) :
    (withExtras row ms).map Prod.fst = row.map Prod.fst ++ ms.map Prod.fst ∧ row <+: withExtras row ms := by
  induction ms generalizing row with
  | nil => simp [withExtras]
  | cons m ms ih =>
    obtain ⟨h1, h2⟩ := ih (row ++ [(m.1, m.2 row)])
    exact ⟨by rw [withExtras, h1]; simp, (List.prefix_append ..).trans h2⟩

theorem attr_names (c : AttrConfig V) (names : List String) (hnames : attrFieldnames c = .ok names) (step : V) (ind : AttrInd V)
    (vals : List V) (hl : c.attributes.length = vals.length) :
    ((attrBase c step ind vals).map Prod.fst ++ c.extraMetrics.map Prod.fst).Perm names := by
  unfold attrFieldnames at hnames
  split at hnames
  · cases hnames
  · rw [Except.ok.injEq] at hnames
    subst hnames
    have hz : (List.zip c.attributes vals).map Prod.fst = c.attributes := List.map_fst_zip (by omega)
    unfold attrBase
    simp only [List.cons_append, List.map_cons, List.map_append, hz]
    rw [List.perm_iff_count]
    intro a
    cases c.job <;> cases c.doFitness <;> cases c.doGenome <;>
      simp [List.count_append, List.count_cons] <;> omega

/-- C67: the row dictionary of an individual, when no two columns have the same name: all the declared values, and each
extra metric applied to the row so far (not to the population, as the documentation says). -/
theorem attr_row (c : AttrConfig V) (names : List String) (hnames : attrFieldnames c = .ok names) (hn : names.Nodup)
    (step : V) (ind : AttrInd V) (vals : List V) (hv : List.Forall₂ (fun a v => ind.get a = some v) c.attributes vals) :
    attrRow c step ind = .ok (withExtras (attrBase c step ind vals) c.extraMetrics) ∧
    (∀ k v, (k, v) ∈ withExtras (attrBase c step ind vals) c.extraMetrics →
      dictGet (withExtras (attrBase c step ind vals) c.extraMetrics) k = some v) := by
  have hnd := (attr_names c names hnames step ind vals hv.length_eq).nodup_iff.mpr hn
  have hl := hv.length_eq
  have hz : (List.zip c.attributes vals).map Prod.fst = c.attributes := List.map_fst_zip (by omega)
  constructor
  · unfold attrBase at hnd
    have sub : ∀ {l1 l2 : List String}, (l1 ++ l2).Nodup → l1.Nodup := fun h => (List.nodup_append.mp h).1
    simp only [List.map_append, List.map_cons, List.cons_append, hz] at hnd
    unfold attrRow
    rw [attrRowFrom_ok ind.get c.attributes vals [("step", step)] hv (by
      have h1 : ("step" :: c.attributes).Nodup := by
        apply List.Nodup.sublist _ hnd
        apply List.Sublist.cons_cons
        simp only [List.append_assoc]
        exact List.sublist_append_left ..
      simpa using h1)]
    simp only [List.cons_append, List.nil_append]
    have hjob : attrSetJob (("step", step) :: List.zip c.attributes vals) c.job =
        ("step", step) :: List.zip c.attributes vals ++ (c.job.toList.map fun j => ("job", j)) := by
      cases hj : c.job with
      | none => simp [attrSetJob]
      | some j =>
        simp only [Option.toList_some, List.map_cons, List.map_nil, attrSetJob]
        apply dictSet_new
        simp only [List.map_cons, hz]
        rw [hj] at hnd
        simp only [Option.toList_some, List.map_cons, List.map_nil] at hnd
        intro hm
        have h1 : (("step" :: c.attributes) ++ ["job"]).Nodup := by
          apply List.Nodup.sublist _ hnd
          simp only [List.append_assoc, List.cons_append]
          apply List.Sublist.cons_cons
          apply List.Sublist.append_left
          simp
        rw [List.nodup_append] at h1
        exact h1.2.2 "job" hm "job" (by simp) rfl
    rw [hjob]
    rw [foldl_dictSet c.notes _ (by
      apply List.Nodup.sublist _ hnd
      simp only [List.map_cons, List.map_append, hz, List.append_assoc, List.cons_append]
      apply List.Sublist.cons_cons
      apply List.Sublist.append_left
      apply List.Sublist.append_left
      exact List.sublist_append_left ..)]
    have hfit : (if c.doFitness = true then dictSet (("step", step) :: List.zip c.attributes vals ++
          (c.job.toList.map fun j => ("job", j)) ++ c.notes) "fitness" ind.fitness
        else ("step", step) :: List.zip c.attributes vals ++ (c.job.toList.map fun j => ("job", j)) ++ c.notes) =
        ("step", step) :: List.zip c.attributes vals ++ (c.job.toList.map fun j => ("job", j)) ++ c.notes ++
          (if c.doFitness then [("fitness", ind.fitness)] else []) := by
      cases hf : c.doFitness with
      | false => simp
      | true =>
        simp only [if_true]
        apply dictSet_new
        rw [hf] at hnd
        simp only [if_true, List.map_cons, List.map_nil] at hnd
        intro hm
        simp only [List.map_cons, List.map_append, hz, List.cons_append] at hm
        simp only [← List.cons_append] at hnd
        have h1 := sub (sub hnd)
        simp only [← List.cons_append] at hm
        rw [List.nodup_append] at h1
        exact h1.2.2 "fitness" hm "fitness" (by simp) rfl
    rw [hfit]
    have hgen : (if c.doGenome = true then dictSet (("step", step) :: List.zip c.attributes vals ++
          (c.job.toList.map fun j => ("job", j)) ++ c.notes ++ (if c.doFitness then [("fitness", ind.fitness)] else [])) "genome"
            ind.genome
        else ("step", step) :: List.zip c.attributes vals ++ (c.job.toList.map fun j => ("job", j)) ++ c.notes ++
          (if c.doFitness then [("fitness", ind.fitness)] else [])) = attrBase c step ind vals := by
      unfold attrBase
      cases hg : c.doGenome with
      | false => simp
      | true =>
        simp only [if_true]
        apply dictSet_new
        rw [hg] at hnd
        simp only [if_true, List.map_cons, List.map_nil] at hnd
        intro hm
        simp only [List.map_cons, List.map_append, hz, List.cons_append] at hm
        simp only [← List.cons_append] at hnd
        have h1 := sub hnd
        simp only [← List.cons_append] at hm
        rw [List.nodup_append] at h1
        exact h1.2.2 "genome" hm "genome" (by simp) rfl
    rw [hgen]
    rw [foldl_extras]
    exact (attr_names c names hnames step ind vals hl).nodup_iff.mpr hn
  · intro k v hkv
    have hk := (withExtras_keys c.extraMetrics (attrBase c step ind vals)).1
    rw [← hk] at hnd
    generalize withExtras (attrBase c step ind vals) c.extraMetrics = row at hnd hkv
    unfold dictGet
    induction row with
    | nil => simp at hkv
    | cons e row ih =>
      rw [List.map_cons, List.nodup_cons] at hnd
      rcases List.mem_cons.mp hkv with rfl | hkv
      · simp
      · have hne : e.1 ≠ k := by
          rintro rfl
          exact hnd.1 (List.mem_map.mpr ⟨(e.1, v), hkv, rfl⟩)
        rw [List.find?_cons_of_neg (by simpa using hne)]
        exact ih hnd.2 hkv

/-- C67: the columns declared, and the refusal of a probe whose data would go nowhere. -/
theorem attr_fieldnames (c : AttrConfig V) :
    (c.stream = true ∨ c.doDataframe = true → attrFieldnames c =
      .ok (c.job.toList.map (fun _ => "job") ++ c.notes.map Prod.fst ++ "step" :: c.attributes ++
        (if c.doFitness then ["fitness"] else []) ++ (if c.doGenome then ["genome"] else []) ++ c.extraMetrics.map Prod.fst)) ∧
    (c.stream = false → c.doDataframe = false → attrFieldnames c = .error .valueError) := by
  constructor
  · intro h
    unfold attrFieldnames
    rw [if_neg (by rintro ⟨h1, h2⟩; rcases h with h | h <;> simp_all)]
    cases c.job <;> simp
  · intro h1 h2
    simp [attrFieldnames, h1, h2]

/-- C67: `AttributesCSVProbe` returns the population unchanged and records one row for every individual (or only for the
best one), in order. -/
theorem attr_probe (c : AttrConfig V) (names : List String) (gt : AttrInd V → AttrInd V → Bool) (ofStep : Int → V) (g : Int)
    (population recorded : List (AttrInd V)) (rowOf : AttrInd V → List (String × V)) (st : AttrState V)
    (hrec : (c.bestOnly = false ∧ recorded = population) ∨ (c.bestOnly = true ∧ ∃ b, pyMax gt population = .ok b ∧ recorded = [b]))
    (hrow : ∀ ind ∈ recorded, attrRow c (ofStep g) ind = .ok (rowOf ind)) :
    ∃ st', attrProbe c names gt ofStep (some (some g)) population st = (.ok population, st') ∧
      st'.written = st.written ++ (if c.stream then recorded.map (fun ind => names.map (dictGet (rowOf ind))) else []) ∧
      st'.data = st.data ++ (if c.doDataframe then recorded.map rowOf else []) := by
  have hrows : ∀ (l : List (AttrInd V)) (st : AttrState V), (∀ ind ∈ l, attrRow c (ofStep g) ind = .ok (rowOf ind)) →
      ∃ st', attrRows c names (ofStep g) l st = (.ok (), st') ∧
        st'.written = st.written ++ (if c.stream then l.map (fun ind => names.map (dictGet (rowOf ind))) else []) ∧
        st'.data = st.data ++ (if c.doDataframe then l.map rowOf else []) := by
    intro l
    induction l with
    | nil => intro st _; exact ⟨st, rfl, by simp, by simp⟩
    | cons ind l ih =>
      intro st hl
      rw [attrRows, hl ind (List.mem_cons_self ..)]
      simp only
      obtain ⟨st', i1, i2, i3⟩ := ih _ fun i hi => hl i (List.mem_cons_of_mem _ hi)
      refine ⟨st', i1, ?_, ?_⟩
      · rw [i2]; cases c.stream <;> simp
      · rw [i3]; cases c.doDataframe <;> simp
  obtain ⟨st', h1, h2, h3⟩ := hrows recorded st hrow
  refine ⟨st', ?_, h2, h3⟩
  unfold attrProbe
  simp only [probeGeneration]
  rcases hrec with ⟨hb, rfl⟩ | ⟨hb, b, hmax, rfl⟩
  · simp [hb, h1]
  · simp [hb, hmax, Except.map, h1]

/-- C67: an individual that lacks a declared attribute makes the probe raise `ValueError`; the rows of the individuals before
it stay written. -/
theorem attr_missing_attribute (c : AttrConfig V) (names : List String) (gt : AttrInd V → AttrInd V → Bool) (ofStep : Int → V)
    (g : Int) (pre post : List (AttrInd V)) (ind : AttrInd V) (rowOf : AttrInd V → List (String × V)) (st : AttrState V)
    (hb : c.bestOnly = false) (hpre : ∀ x ∈ pre, attrRow c (ofStep g) x = .ok (rowOf x))
    (hmiss : ∃ a ∈ c.attributes, ind.get a = none) :
    ∃ st', attrProbe c names gt ofStep (some (some g)) (pre ++ ind :: post) st = (.error .valueError, st') ∧
      st'.written = st.written ++ (if c.stream then pre.map (fun x => names.map (dictGet (rowOf x))) else []) := by
  have hbad : attrRow c (ofStep g) ind = .error .valueError := by
    have : ∀ (as : List String) (row : List (String × V)), (∃ a ∈ as, ind.get a = none) →
        attrRowFrom ind.get as row = .error .valueError := by
      intro as
      induction as with
      | nil => rintro row ⟨a, ha, -⟩; simp at ha
      | cons a as ih =>
        rintro row ⟨a', ha', hn⟩
        rw [attrRowFrom]
        cases hg : ind.get a with
        | none => rfl
        | some v =>
          rcases List.mem_cons.mp ha' with rfl | ha'
          · rw [hg] at hn; cases hn
          · exact ih _ ⟨a', ha', hn⟩
    rw [attrRow, this _ _ hmiss]
  have hrows : ∀ (l : List (AttrInd V)) (st : AttrState V), (∀ x ∈ l, attrRow c (ofStep g) x = .ok (rowOf x)) →
      ∃ st', attrRows c names (ofStep g) (l ++ ind :: post) st = (.error .valueError, st') ∧
        st'.written = st.written ++ (if c.stream then l.map (fun x => names.map (dictGet (rowOf x))) else []) := by
    intro l
    induction l with
    | nil => intro st _; exact ⟨st, by rw [List.nil_append, attrRows, hbad], by simp⟩
    | cons x l ih =>
      intro st hl
      rw [List.cons_append, attrRows, hl x (List.mem_cons_self ..)]
      simp only
      obtain ⟨st', i1, i2⟩ := ih _ fun i hi => hl i (List.mem_cons_of_mem _ hi)
      refine ⟨st', i1, ?_⟩
      rw [i2]; cases c.stream <;> simp
  obtain ⟨st', h1, h2⟩ := hrows pre st hpre
  exact ⟨st', by simp [attrProbe, probeGeneration, hb, h1], h2⟩

def exAttr : AttrConfig Int := ⟨["foo"], false, true, false, [("note", 7)], [("sum", fun row => (row.map Prod.snd).sum)],
  some 15, true, true⟩
def exInd (f : Int) : AttrInd Int := ⟨fun s => if s = "foo" then some (f * 10) else none, f, 0⟩

example : attrFieldnames exAttr = .ok ["job", "note", "step", "foo", "fitness", "sum"] := by decide +kernel
example : (["job", "note", "step", "foo", "fitness", "sum"] : List String).Nodup := by decide +kernel
example : (attrProbe exAttr ["job", "note", "step", "foo", "fitness", "sum"] (fun a b => decide (a.fitness > b.fitness)) id
    (some (some 3)) [exInd 1, exInd 2] ⟨[], []⟩).2.written =
    [[some 15, some 7, some 3, some 10, some 1, some 36], [some 15, some 7, some 3, some 20, some 2, some 47]] := by
  decide +kernel

end Leap
