import Mathlib.Tactic.Linarith
import Mathlib.Tactic.Ring
import Mathlib.Data.Nat.ModEq
import Verif.Model.Algorithm
import Verif.Props.Selection

/-!
# C34–C36: the main loops
-/

namespace Leap
open Spec

variable {α R : Type}

/-! ## C34 generational EA -/

/-- One generation: the pipeline is run once on the parents, elitist survival chooses the next parents, and
the context then shows the new generation number. -/
def Spec.Generation (lt : α → α → Bool) (kElites : Nat) (pipeline : Pipeline R α) (g : Int)
    (before after : List α × World R) : Prop :=
  ∃ offspring w1, pipeline before.2 before.1 = .ok (offspring, w1) ∧
    after.1.length = offspring.length ∧
    (∃ elites, KBest lt kElites before.1 elites ∧
      KBest lt offspring.length (offspring ++ elites) after.1) ∧
    after.2.ctx = { w1.ctx with generation := some (g + 1) } ∧ after.2.rest = w1.rest

theorem generationalLoop_run (lt : α → α → Bool) (hlt : StrictWeak lt) (maxG : Int) (k : Nat)
    (pipeline : Pipeline R α) (stop : World R → List α → Bool) (g : Int) (parents : List α)
    (w : World R) (final : List α × World R)
    (h : generationalLoop lt maxG k pipeline stop g parents w = .ok final) :
    ∃ (n : Nat) (s : Nat → List α × World R), s 0 = (parents, w) ∧ s n = final ∧
      (∀ i, i < n → g + i < maxG ∧ stop (s i).2 (s i).1 = false ∧
        Generation lt k pipeline (g + i) (s i) (s (i + 1))) ∧
      (maxG ≤ g + n ∨ stop final.2 final.1 = true) := by
  generalize hm : (maxG - g).toNat = m
  induction m using Nat.strong_induction_on generalizing g parents w with
  | _ m ih =>
    rw [generationalLoop] at h
    by_cases hg : g < maxG
    · rw [dif_pos hg] at h
      by_cases hs : stop w parents = true
      · rw [if_pos hs, Except.ok.injEq] at h
        subst h
        exact ⟨0, fun _ => (parents, w), rfl, rfl, by intro i hi; omega, Or.inr hs⟩
      · rw [if_neg hs] at h
        cases hp : pipeline w parents with
        | error e => rw [hp] at h; simp at h
        | ok v =>
          obtain ⟨off, w1⟩ := v
          rw [hp] at h
          simp only at h
          obtain ⟨n, s, s0, sn, hstep, hend⟩ := ih _ (by omega) _ _ _ h rfl
          refine ⟨n + 1, fun i => match i with | 0 => (parents, w) | i + 1 => s i, rfl, sn, ?_, ?_⟩
          · intro i hi
            cases i with
            | zero =>
              refine ⟨by simpa using hg, by simpa using hs, ?_⟩
              obtain ⟨e1, e2, -⟩ := elitist_survivors lt hlt off parents k
              simp only [s0]
              exact ⟨off, w1, hp, e1, e2, by simp [World.setGeneration], by simp [World.setGeneration]⟩
            | succ i =>
              have := hstep i (by omega)
              push_cast
              rw [show g + ((i : Int) + 1) = g + 1 + i by ring]
              exact this
          · rcases hend with h1 | h1
            · left; push_cast; linarith
            · right; exact h1
    · rw [dif_neg hg, Except.ok.injEq] at h
      subst h
      exact ⟨0, fun _ => (parents, w), rfl, rfl, by intro i hi; omega, Or.inl (by simpa using hg)⟩

/-- C34: a run of `generational_ea` that returns went through states `s 0, ..., s n`: `s 0` is the evaluated
initial population, each step is one generation (the pipeline applied once, then elitist survival), no
step is made once the stop condition holds or the generation limit is reached, and the run ends exactly
then; after at least one step the context shows the generation number reached. -/
theorem generational_ea_run (lt : α → α → Bool) (hlt : StrictWeak lt) (maxG start : Int) (k : Nat)
    (create : World R → PyM (List α × World R)) (initEvaluate pipeline : Pipeline R α)
    (stop : World R → List α → Bool) (w : World R) (final : List α × World R)
    (h : generationalEa lt maxG k create initEvaluate pipeline stop start w = .ok final) :
    ∃ (n : Nat) (s : Nat → List α × World R) (pop0 : List α) (w0 : World R),
      create w = .ok (pop0, w0) ∧
      initEvaluate ⟨{ w0.ctx with generation := some start }, w0.rest⟩ pop0 = .ok (s 0) ∧
      s n = final ∧
      (∀ i, i < n → start + i < maxG ∧ stop (s i).2 (s i).1 = false ∧
        Generation lt k pipeline (start + i) (s i) (s (i + 1))) ∧
      (start + n = maxG ∨ (n = 0 ∧ maxG ≤ start) ∨ stop final.2 final.1 = true) ∧
      (0 < n → final.2.ctx.generation = some (start + n)) := by
  simp only [generationalEa] at h
  cases hc : create w with
  | error e => rw [hc] at h; simp at h
  | ok v =>
    obtain ⟨pop0, w0⟩ := v
    rw [hc] at h
    simp only at h
    cases hi : initEvaluate (w0.setGeneration start) pop0 with
    | error e => rw [hi] at h; simp at h
    | ok v =>
      obtain ⟨pop1, w1⟩ := v
      rw [hi] at h
      simp only at h
      obtain ⟨n, s, s0, sn, hstep, hend⟩ := generationalLoop_run lt hlt _ _ _ _ _ _ _ _ h
      refine ⟨n, s, pop0, w0, rfl, ?_, sn, hstep, ?_, ?_⟩
      · rw [s0]; exact hi
      · rcases hend with h1 | h1
        · rcases Nat.eq_zero_or_pos n with h0 | h0
          · right; left; subst h0; simpa using h1
          · left
            have := (hstep (n - 1) (by omega)).1
            have e : ((n - 1 : Nat) : Int) = n - 1 := by omega
            rw [e] at this
            linarith
        · right; right; exact h1
      · intro h0
        obtain ⟨-, -, off, w2, -, -, -, hctx, -⟩ := hstep (n - 1) (by omega)
        rw [show n - 1 + 1 = n by omega, sn] at hctx
        rw [hctx]
        have e : ((n - 1 : Nat) : Int) = n - 1 := by omega
        simp only [e, Option.some.injEq]
        ring

/-- C34: with at least one elite and pipelines that return at least one offspring, no generation's best is
worse than any individual of any earlier generation. -/
theorem generational_ea_best_never_worsens (lt : α → α → Bool) (hlt : StrictWeak lt) (k : Nat)
    (hk : 1 ≤ k) (pipeline : Pipeline R α) (start : Int)
    (hne : ∀ w p off w', p ≠ [] → pipeline w p = .ok (off, w') → off ≠ [])
    (n : Nat) (s : Nat → List α × World R) (h0 : (s 0).1 ≠ [])
    (hstep : ∀ i, i < n → Generation lt k pipeline (start + i) (s i) (s (i + 1)))
    (i j : Nat) (hij : i ≤ j) (hj : j ≤ n) :
    ∃ b ∈ (s j).1, ∀ x ∈ (s i).1, lt b x = false := by
  have hnonempty : ∀ i, i ≤ n → (s i).1 ≠ [] := by
    intro i
    induction i with
    | zero => intro _; exact h0
    | succ i ih =>
      intro hi
      obtain ⟨off, w1, hp, hl, -⟩ := hstep i (by omega)
      have := hne _ _ _ _ (ih (by omega)) hp
      intro hcon
      rw [hcon] at hl
      exact this (List.length_eq_zero_iff.mp hl.symm)
  have hbest : ∀ l : List α, l ≠ [] → ∃ b ∈ l, ∀ x ∈ l, lt b x = false := by
    intro l hl
    cases e : topk lt 1 l with
    | nil =>
      have := topk_length lt 1 l
      rw [e] at this
      have h1 : l.length ≠ 0 := fun h => hl (List.length_eq_zero_iff.mp h)
      simp at this; omega
    | cons b t =>
      obtain ⟨rest, hperm, -, -⟩ := topk_kbest hlt 1 l
      refine ⟨b, ?_, topk_head_best hlt e⟩
      rw [e] at hperm
      exact hperm.subset (by simp)
  obtain ⟨d, rfl⟩ := Nat.exists_eq_add_of_le hij
  clear hij
  induction d with
  | zero => exact hbest _ (hnonempty i (by omega))
  | succ d ih =>
    obtain ⟨b, hb, hbx⟩ := ih (by omega)
    obtain ⟨off, w1, hp, hl, ⟨elites, ⟨erest, eperm, elen, ebest⟩, ⟨srest, sperm, slen, sbest⟩⟩, -⟩ :=
      hstep (i + d) (by omega)
    have hcur := hnonempty (i + d) (by omega)
    have hnext := hnonempty (i + d + 1) (by omega)
    -- a best element of the next population
    obtain ⟨c, hc, hcx⟩ := hbest _ hnext
    refine ⟨c, hc, fun x hx => ?_⟩
    -- `c` is at least as good as everything that entered the selection
    have hc_all : ∀ y ∈ off ++ elites, lt c y = false := by
      intro y hy
      rcases List.mem_append.mp (sperm.symm.subset hy) with h | h
      · exact hcx y h
      · exact sbest c hc y h
    -- some elite is at least as good as everything in the current population
    obtain ⟨e, he⟩ : ∃ e, e ∈ elites := by
      cases elites with
      | nil =>
        have h1 : (s (i + d)).1.length ≠ 0 := fun h => hcur (List.length_eq_zero_iff.mp h)
        simp at elen; omega
      | cons e es => exact ⟨e, by simp⟩
    obtain ⟨e, he, hex⟩ : ∃ e ∈ elites, ∀ y ∈ (s (i + d)).1, lt e y = false := by
      obtain ⟨e, he, hee⟩ := hbest elites (List.ne_nil_of_mem he)
      refine ⟨e, he, fun y hy => ?_⟩
      rcases List.mem_append.mp (eperm.symm.subset hy) with h | h
      · exact hee y h
      · exact ebest e he y h
    exact hlt.negTrans c e x (hc_all e (List.mem_append_right _ he))
      (hlt.negTrans e b x (hex b hb) (hbx x hx))

/-- C34: with `start < max` and no early stop, the pipeline is applied exactly `max - start` times. -/
theorem generational_ea_full_run (lt : α → α → Bool) (hlt : StrictWeak lt) (maxG start : Int) (k : Nat)
    (create : World R → PyM (List α × World R)) (initEvaluate pipeline : Pipeline R α)
    (w : World R) (final : List α × World R) (hs : start < maxG)
    (h : generationalEa lt maxG k create initEvaluate pipeline (fun _ _ => false) start w = .ok final) :
    ∃ (n : Nat) (s : Nat → List α × World R), (n : Int) = maxG - start ∧ s n = final ∧
      (∀ i, i < n → Generation lt k pipeline (start + i) (s i) (s (i + 1))) ∧
      final.2.ctx.generation = some maxG := by
  obtain ⟨n, s, _, _, -, -, sn, hstep, hend, hctx⟩ := generational_ea_run lt hlt _ _ _ _ _ _ _ _ _ h
  have hn : (n : Int) = maxG - start := by
    rcases hend with h1 | ⟨h1, h2⟩ | h1
    · linarith
    · linarith
    · simp at h1
  refine ⟨n, s, hn, sn, fun i hi => (hstep i hi).2.2, ?_⟩
  rw [hctx (by omega)]
  congr 1; linarith

/-- C34: if `max ≤ start`, or the initial population already satisfies the stop condition, the pipeline is
not run at all. -/
theorem generational_ea_no_generation (lt : α → α → Bool) (maxG start : Int) (k : Nat)
    (create : World R → PyM (List α × World R)) (initEvaluate pipeline : Pipeline R α)
    (stop : World R → List α → Bool) (w w0 w1 : World R) (pop0 pop1 : List α)
    (hc : create w = .ok (pop0, w0))
    (hi : initEvaluate ⟨{ w0.ctx with generation := some start }, w0.rest⟩ pop0 = .ok (pop1, w1))
    (hstop : maxG ≤ start ∨ stop w1 pop1 = true) :
    generationalEa lt maxG k create initEvaluate pipeline stop start w = .ok (pop1, w1) := by
  have hi' : initEvaluate (w0.setGeneration start) pop0 = .ok (pop1, w1) := hi
  simp only [generationalEa, hc, hi']
  rw [generationalLoop]
  rcases hstop with h | h
  · rw [dif_neg (by omega)]
  · by_cases hg : start < maxG
    · rw [dif_pos hg, if_pos h]
    · rw [dif_neg hg]

/-- An exception from the pipeline ends the run with that exception. -/
theorem generational_ea_pipeline_error (lt : α → α → Bool) (maxG start : Int) (k : Nat)
    (create : World R → PyM (List α × World R)) (initEvaluate pipeline : Pipeline R α)
    (stop : World R → List α → Bool) (w w0 w1 : World R) (pop0 pop1 : List α) (e : PyErr)
    (hc : create w = .ok (pop0, w0))
    (hi : initEvaluate ⟨{ w0.ctx with generation := some start }, w0.rest⟩ pop0 = .ok (pop1, w1))
    (hg : start < maxG) (hs : stop w1 pop1 = false) (hp : pipeline w1 pop1 = .error e) :
    generationalEa lt maxG k create initEvaluate pipeline stop start w = .error e := by
  have hi' : initEvaluate (w0.setGeneration start) pop0 = .ok (pop1, w1) := hi
  simp only [generationalEa, hc, hi']
  rw [generationalLoop, dif_pos hg]
  simp [hs, hp]

/-- A concrete run: two generations in which the pipeline adds one to every individual. -/
example : (generationalEa (R := Unit) (fun a b : Nat => decide (a < b)) 2 1
    (fun w => .ok ([3, 1], w)) (fun w p => .ok (p, w)) (fun w p => .ok (p.map (· + 1), w))
    (fun _ _ => false) 0 ⟨{}, ()⟩).map Prod.fst = .ok [5, 4] := by
  have e : ∀ g p w, generationalLoop (R := Unit) (fun a b : Nat => decide (a < b)) 2 1
      (fun w p => .ok (p.map (· + 1), w)) (fun _ _ => false) g p w =
      if g < 2 then generationalLoop (fun a b : Nat => decide (a < b)) 2 1
        (fun w p => .ok (p.map (· + 1), w)) (fun _ _ => false) (g + 1)
        ((elitistSurvival (fun a b : Nat => decide (a < b)) (p.map (· + 1)) p 1).1)
        (w.setGeneration (g + 1)) else .ok (p, w) := by
    intro g p w
    rw [generationalLoop]
    by_cases h : g < 2 <;> simp [h]
  simp only [generationalEa]
  rw [e, if_pos (by norm_num), e, if_pos (by norm_num), e, if_neg (by norm_num)]
  decide

/-- C34: `stop_at_generation(m)` stops exactly from generation `m` on. -/
theorem stop_at_generation_iff (m : Int) (ctx : LeapCtx) :
    (0 ≤ m → ∀ g, ctx.generation = some g → stopAtGeneration m ctx = .ok (decide (m ≤ g))) ∧
    (m < 0 → stopAtGeneration m ctx = .error .assertionError) ∧
    (0 ≤ m → ctx.generation = none → stopAtGeneration m ctx = .error .keyError) := by
  refine ⟨?_, ?_, ?_⟩
  · intro h g hg
    simp only [stopAtGeneration, if_pos h, hg]
    congr 1
    by_cases hm : m ≤ g
    · simp [hm]
    · simp [hm]; omega
  · intro h
    rw [stopAtGeneration, if_neg (by omega)]
  · intro h hg
    simp only [stopAtGeneration, if_pos h, hg]

/-! ## C35 multi-population EA -/

/-- One visit of sub-population `i`: its own operators run after the shared ones, in a context that shows
`i`, on its current members; only entry `i` of the populations changes. -/
def Spec.Visit (shared : List (SubpopOp R α)) (own : List (List (SubpopOp R α))) (i : Nat)
    (before after : List (List α) × World R) : Prop :=
  ∃ parents offspring ops, before.1[i]? = some parents ∧
    (own = [] ∧ ops = shared ∨ ∃ o, own[i]? = some o ∧ ops = shared ++ o) ∧
    runOps ops before.1 parents
      ⟨{ before.2.ctx with currentSubpopulation := some i }, before.2.rest⟩ =
      .ok (offspring, after.2) ∧
    after.1 = before.1.set i offspring

theorem sweep_run (shared : List (SubpopOp R α)) (own : List (List (SubpopOp R α))) (n i : Nat)
    (pops : List (List α)) (w : World R) (final : List (List α) × World R)
    (hn : i + n = pops.length) (h : sweep shared own n i pops w = .ok final) :
    ∃ s : Nat → List (List α) × World R, s 0 = (pops, w) ∧ s n = final ∧
      (∀ j, j < n → Visit shared own (i + j) (s j) (s (j + 1))) ∧ final.1.length = pops.length := by
  induction n generalizing i pops w with
  | zero =>
    simp only [sweep, Except.ok.injEq] at h
    subst h
    exact ⟨fun _ => (pops, w), rfl, rfl, by intro j hj; omega, rfl⟩
  | succ n ih =>
    have hi : i < pops.length := by omega
    simp only [sweep, List.getElem?_eq_getElem hi] at h
    cases ho : subpopOps own i with
    | error e => rw [ho] at h; simp at h
    | ok o =>
      rw [ho] at h
      simp only at h
      cases hr : runOps (shared ++ o) pops pops[i] (w.setSubpop i) with
      | error e => rw [hr] at h; simp at h
      | ok v =>
        obtain ⟨off, w1⟩ := v
        rw [hr] at h
        simp only at h
        obtain ⟨s, s0, sn, hv, hl⟩ := ih (i + 1) (pops.set i off) w1 (by simp; omega) h
        refine ⟨fun j => match j with | 0 => (pops, w) | j + 1 => s j, rfl, sn, ?_, by simpa using hl⟩
        intro j hj
        cases j with
        | zero =>
          simp only [s0]
          refine ⟨pops[i], off, shared ++ o, List.getElem?_eq_getElem hi, ?_, hr, rfl⟩
          simp only [subpopOps] at ho
          by_cases he : own.isEmpty = true
          · rw [if_pos he, Except.ok.injEq] at ho
            subst ho
            left
            exact ⟨by simpa using he, by simp⟩
          · rw [if_neg he] at ho
            cases hg : own[i]? with
            | none => rw [hg] at ho; simp at ho
            | some o' =>
              rw [hg] at ho
              simp only [Except.ok.injEq] at ho
              subst ho
              right
              exact ⟨_, by simpa using hg, rfl⟩
        | succ j =>
          have := hv j (by omega)
          rw [show i + (j + 1) = i + 1 + j by omega]
          exact this

/-- C35: a run of `multi_population_ea` that returns consists of `n` generations; in each, every
sub-population is visited exactly once, in index order, starting from what the previous visits
left, with the context showing its index; the number of sub-populations never changes; the run ends when
the generation limit is reached or the stop condition holds, not before. -/
theorem multi_population_run (maxG : Int) (creators : List (World R → PyM (List α × World R)))
    (initEvaluate : Pipeline R α) (shared : List (SubpopOp R α)) (own : List (List (SubpopOp R α)))
    (stop : World R → List (List α) → Bool) (w : World R) (final : List (List α) × World R)
    (h : multiPopulationEa maxG true creators initEvaluate shared own stop w = .ok final) :
    ∃ (n : Nat) (pops0 : List (List α)) (w0 : World R)
      (start : Nat → List (List α) × World R) (s : Nat → Nat → List (List α) × World R),
      pops0.length = creators.length ∧ w0.ctx.generation = some 0 ∧
      start 0 = (pops0, w0) ∧ start n = final ∧
      (∀ g, g < n → (g : Int) < maxG ∧ stop (start g).2 (start g).1 = false ∧
        s g 0 = start g ∧
        (∀ i, i < creators.length → Visit shared own i (s g i) (s g (i + 1))) ∧
        (start (g + 1)).1 = (s g creators.length).1 ∧
        (start (g + 1)).2.ctx = { (s g creators.length).2.ctx with generation := some (g + 1 : Int) } ∧
        (start (g + 1)).2.rest = (s g creators.length).2.rest) ∧
      (∀ g, g ≤ n → (start g).1.length = creators.length) ∧
      ((n : Int) = maxG ∨ (n = 0 ∧ maxG ≤ 0) ∨ stop final.2 final.1 = true) := by
  have loop : ∀ (m : Nat) (g : Int) (pops : List (List α)) (w : World R), (maxG - g).toNat = m →
      multiPopLoop maxG shared own stop g pops w = .ok final →
      ∃ (n : Nat) (start : Nat → List (List α) × World R) (s : Nat → Nat → List (List α) × World R),
        start 0 = (pops, w) ∧ start n = final ∧
        (∀ i, i < n → g + i < maxG ∧ stop (start i).2 (start i).1 = false ∧
          s i 0 = start i ∧
          (∀ j, j < pops.length → Visit shared own j (s i j) (s i (j + 1))) ∧
          (start (i + 1)).1 = (s i pops.length).1 ∧
          (start (i + 1)).2.ctx = { (s i pops.length).2.ctx with generation := some (g + i + 1 : Int) } ∧
          (start (i + 1)).2.rest = (s i pops.length).2.rest) ∧
        (∀ i, i ≤ n → (start i).1.length = pops.length) ∧
        (maxG ≤ g + n ∨ stop final.2 final.1 = true) := by
    intro m
    induction m using Nat.strong_induction_on with
    | _ m ih =>
      intro g pops w hm h
      rw [multiPopLoop] at h
      by_cases hg : g < maxG
      · rw [dif_pos hg] at h
        by_cases hs : stop w pops = true
        · rw [if_pos hs, Except.ok.injEq] at h
          subst h
          exact ⟨0, fun _ => (pops, w), fun _ _ => (pops, w), rfl, rfl, by intro i hi; omega,
            by intro i hi; rfl, Or.inr hs⟩
        · rw [if_neg hs] at h
          cases hp : sweep shared own pops.length 0 pops w with
          | error e => rw [hp] at h; simp at h
          | ok v =>
            obtain ⟨pops1, w1⟩ := v
            rw [hp] at h
            simp only at h
            obtain ⟨t, t0, tn, tv, tl⟩ := sweep_run shared own _ 0 pops w (pops1, w1) (by simp) hp
            simp only at tl
            obtain ⟨n, start, s, s0, sn, hstep, hlen, hend⟩ := ih _ (by omega) _ _ _ rfl h
            rw [tl] at hstep hlen
            refine ⟨n + 1, fun i => match i with | 0 => (pops, w) | i + 1 => start i,
              fun i => match i with | 0 => t | i + 1 => s i, rfl, sn, ?_, ?_, ?_⟩
            · intro i hi
              cases i with
              | zero =>
                refine ⟨by simpa using hg, by simpa using hs, t0, ?_, ?_, ?_, ?_⟩
                · intro j hj
                  have := tv j hj
                  rwa [Nat.zero_add] at this
                · simp [s0, tn]
                · simp [s0, tn, World.setGeneration]
                · simp [s0, tn, World.setGeneration]
              | succ i =>
                obtain ⟨a, b, c, d, e, f, k⟩ := hstep i (by omega)
                refine ⟨by push_cast; linarith, b, c, d, e, ?_, k⟩
                simp only [f]
                congr 2
                push_cast; ring
            · intro i hi
              cases i with
              | zero => rfl
              | succ i => exact hlen i (by omega)
            · rcases hend with h1 | h1
              · left; push_cast; linarith
              · right; exact h1
      · rw [dif_neg hg, Except.ok.injEq] at h
        subst h
        exact ⟨0, fun _ => (pops, w), fun _ _ => (pops, w), rfl, rfl, by intro i hi; omega,
          by intro i hi; rfl, Or.inl (by simpa using hg)⟩
  have each_len : ∀ {β γ : Type} (f : β → World R → PyM (γ × World R)) (l : List β) (w : World R)
      (out : List γ) (w' : World R), runEach f l w = .ok (out, w') → out.length = l.length := by
    intro β γ f l
    induction l with
    | nil =>
      intro w out w' h
      simp only [runEach, Except.ok.injEq, Prod.mk.injEq] at h
      rw [← h.1]; rfl
    | cons b l ih =>
      intro w out w' h
      simp only [runEach] at h
      cases h1 : f b w with
      | error e => rw [h1] at h; simp at h
      | ok v =>
        obtain ⟨c, w1⟩ := v
        rw [h1] at h
        simp only at h
        cases h2 : runEach f l w1 with
        | error e => rw [h2] at h; simp at h
        | ok v2 =>
          obtain ⟨cs, w2⟩ := v2
          rw [h2] at h
          simp only [Except.ok.injEq, Prod.mk.injEq] at h
          rw [← h.1, List.length_cons, List.length_cons, ih _ _ _ h2]
  simp only [multiPopulationEa, if_true] at h
  cases h1 : runEach (fun c w => c w) creators w with
  | error e => rw [h1] at h; simp at h
  | ok v =>
    obtain ⟨pops, w1⟩ := v
    rw [h1] at h
    simp only at h
    cases h2 : runEach (fun p w => initEvaluate w p) pops w1 with
    | error e => rw [h2] at h; simp at h
    | ok v2 =>
      obtain ⟨pops0, w2⟩ := v2
      rw [h2] at h
      simp only at h
      have hl : pops0.length = creators.length := by
        rw [each_len _ _ _ _ _ h2, each_len _ _ _ _ _ h1]
      obtain ⟨n, start, s, s0, sn, hstep, hlen, hend⟩ := loop _ _ _ _ rfl h
      rw [hl] at hstep hlen
      refine ⟨n, pops0, w2.setGeneration 0, start, s, hl, rfl, s0, sn, ?_, hlen, ?_⟩
      · intro g hg
        have := hstep g hg
        simpa using this
      · rcases hend with h3 | h3
        · rcases Nat.eq_zero_or_pos n with h0 | h0
          · right; left; subst h0; simpa using h3
          · left
            have := (hstep (n - 1) (by omega)).1
            have e : ((n - 1 : Nat) : Int) = n - 1 := by omega
            rw [e] at this
            linarith
        · right; right; exact h3

/-- C35: different numbers of problems and representations are rejected; too few sub-population
pipelines raise `IndexError` at the first sub-population without one. -/
theorem multi_population_errors (maxG : Int) (creators : List (World R → PyM (List α × World R)))
    (initEvaluate : Pipeline R α) (shared : List (SubpopOp R α)) (own : List (List (SubpopOp R α)))
    (stop : World R → List (List α) → Bool) (w : World R) (n : Nat) (pops : List (List α)) :
    multiPopulationEa maxG false creators initEvaluate shared own stop w = .error .assertionError ∧
    (own ≠ [] → own.length < pops.length →
      sweep shared own (n + 1) own.length pops w = .error .indexError) := by
  refine ⟨by simp [multiPopulationEa], ?_⟩
  intro h1 h2
  have : own.isEmpty = false := by simpa using h1
  simp [sweep, List.getElem?_eq_getElem h2, subpopOps, this]

example : (sweep (R := Unit) [fun w _ p => .ok (p.map (· + w.ctx.currentSubpopulation.getD 7), w)] [] 2 0
    [[1, 2], [3]] ⟨{}, ()⟩).map Prod.fst = .ok [[1, 2], [4]] := by decide

/-! ## C36 random search -/

/-- C36: with a budget of at least one and a pipeline that returns exactly one individual, `random_search`
creates exactly `evaluations` individuals and returns all of them in order: the first is the random
one, each next is what the pipeline made of the previous one. -/
theorem random_search_budget (evaluations : Int) (he : 1 ≤ evaluations)
    (createEvaluated : World R → PyM (α × World R)) (pipeline : World R → α → PyM (List α × World R))
    (hp : ∀ w i out w', pipeline w i = .ok (out, w') → ∃ j, out = [j])
    (w w' : World R) (traj : List α)
    (h : randomSearch evaluations createEvaluated pipeline w = .ok (traj, w')) :
    (traj.length : Int) = evaluations ∧ w'.ctx.generation = some evaluations ∧
    (∃ i0 w0, createEvaluated w = .ok (i0, w0) ∧ traj[0]? = some i0) ∧
    (∀ (k : Nat) (x y : α), traj[k]? = some x → traj[k + 1]? = some y →
      ∃ wk wk', wk.ctx.generation = some (k + 1 : Int) ∧ pipeline wk x = .ok ([y], wk')) := by
  have loop : ∀ (m : Nat) (g : Int) (i : α) (pre : List α) (w : World R), (evaluations - g).toNat = m →
      g ≤ evaluations → ((pre.length : Int) + 1 = g) → w.ctx.generation = some g →
      randomSearchLoop evaluations pipeline g i (pre ++ [i]) w = .ok (traj, w') →
      (traj.length : Int) = evaluations ∧ w'.ctx.generation = some evaluations ∧
      (∀ k : Nat, k ≤ pre.length → traj[k]? = (pre ++ [i])[k]?) ∧
      (∀ (k : Nat) (x y : α), pre.length ≤ k → traj[k]? = some x → traj[k + 1]? = some y →
        ∃ wk wk', wk.ctx.generation = some (k + 1 : Int) ∧ pipeline wk x = .ok ([y], wk')) := by
    intro m
    induction m using Nat.strong_induction_on with
    | _ m ih =>
      intro g i pre w hm hge hpre hctx h
      rw [randomSearchLoop] at h
      by_cases hg : g < evaluations
      · rw [dif_pos hg] at h
        cases e : pipeline w i with
        | error e' => rw [e] at h; simp at h
        | ok v =>
          obtain ⟨out, w1⟩ := v
          obtain ⟨j, rfl⟩ := hp _ _ _ _ e
          rw [e] at h
          simp only at h
          obtain ⟨a, b, c, d⟩ := ih _ (by omega) (g + 1) j (pre ++ [i]) (w1.setGeneration (g + 1)) rfl
            (by omega) (by simp; omega) rfl h
          refine ⟨a, b, ?_, ?_⟩
          · intro k hk
            rw [c k (by simp; omega), List.getElem?_append_left (by simp; omega)]
          · intro k x y hk hx hy
            rcases Nat.lt_or_ge pre.length k with hlt | hge'
            · exact d k x y (by simp; omega) hx hy
            · obtain rfl : k = pre.length := by omega
              rw [c _ (by simp)] at hx
              rw [c _ (by simp)] at hy
              simp at hx hy
              subst hx; subst hy
              refine ⟨w, w1, ?_, e⟩
              rw [hctx, hpre]
      · rw [dif_neg hg, Except.ok.injEq, Prod.mk.injEq] at h
        obtain ⟨rfl, rfl⟩ := h
        refine ⟨by simp; omega, by rw [hctx]; congr 1; omega, fun k _ => rfl, ?_⟩
        intro k x y hk hx hy
        rw [List.getElem?_eq_none (by simp; omega)] at hy
        simp at hy
  simp only [randomSearch] at h
  cases hc : createEvaluated w with
  | error e => rw [hc] at h; simp at h
  | ok v =>
    obtain ⟨i0, w0⟩ := v
    rw [hc] at h
    simp only at h
    obtain ⟨a, b, c, d⟩ := loop _ 1 i0 [] (w0.setGeneration 1) rfl he (by simp) rfl h
    exact ⟨a, b, ⟨i0, w0, rfl, by simpa using c 0 (by simp)⟩, fun k x y => d k x y (by simp)⟩

/-- C36 is false for a budget of zero (or less): one individual is evaluated and returned anyway. -/
theorem random_search_zero_budget (evaluations : Int) (he : evaluations ≤ 0)
    (createEvaluated : World R → PyM (α × World R)) (pipeline : World R → α → PyM (List α × World R))
    (w w0 : World R) (i : α) (h : createEvaluated w = .ok (i, w0)) :
    ∃ w', randomSearch evaluations createEvaluated pipeline w = .ok ([i], w') := by
  simp only [randomSearch, h]
  rw [randomSearchLoop, dif_neg (by omega)]
  exact ⟨_, rfl⟩

/-- Rounds `g+1, ..., limit` of a search: each round runs the pipeline on the first individual the previous round
returned, keeps everything returned, and then records the round number. -/
inductive Spec.SearchRounds (pipeline : World R → α → PyM (List α × World R)) (limit : Int) :
    Int → α → World R → List α → World R → Prop
  | done {g i w} : limit ≤ g → Spec.SearchRounds pipeline limit g i w [] w
  | round {g i w j rest w1 out w2} : g < limit → pipeline w i = .ok (j :: rest, w1) →
      Spec.SearchRounds pipeline limit (g + 1) j ⟨{ w1.ctx with generation := some (g + 1) }, w1.rest⟩ out w2 →
      Spec.SearchRounds pipeline limit g i w (j :: rest ++ out) w2

/-- C36: also for pipelines that return several individuals: the result is the first individual followed by
everything the rounds returned, in order. -/
theorem random_search_trajectory (evaluations : Int) (createEvaluated : World R → PyM (α × World R))
    (pipeline : World R → α → PyM (List α × World R)) (w w' : World R) (traj : List α) :
    randomSearch evaluations createEvaluated pipeline w = .ok (traj, w') ↔
    ∃ i0 w0 out, createEvaluated w = .ok (i0, w0) ∧ traj = i0 :: out ∧
      SearchRounds pipeline evaluations 1 i0 ⟨{ w0.ctx with generation := some 1 }, w0.rest⟩ out w' := by
  have loop : ∀ (m : Nat) (g : Int) (i : α) (pre : List α) (w : World R) (traj : List α),
      (evaluations - g).toNat = m →
      (randomSearchLoop evaluations pipeline g i pre w = .ok (traj, w') ↔
        ∃ out, traj = pre ++ out ∧ SearchRounds pipeline evaluations g i w out w') := by
    intro m
    induction m with
    | zero =>
      intro g i pre w traj hm
      rw [randomSearchLoop, dif_neg (by omega)]
      constructor
      · intro h
        simp only [Except.ok.injEq, Prod.mk.injEq] at h
        obtain ⟨rfl, rfl⟩ := h
        exact ⟨[], by simp, .done (by omega)⟩
      · rintro ⟨out, rfl, h⟩
        cases h with
        | done _ => simp
        | round h _ _ => omega
    | succ m ih =>
      intro g i pre w traj hm
      rw [randomSearchLoop, dif_pos (by omega)]
      constructor
      · intro h
        rcases e : pipeline w i with e' | ⟨out, w1⟩
        · rw [e] at h; simp at h
        · rw [e] at h
          cases out with
          | nil => simp at h
          | cons j rest =>
            simp only at h
            obtain ⟨out, rfl, hr⟩ := (ih (g + 1) j _ _ traj (by omega)).1 h
            exact ⟨j :: rest ++ out, by simp, .round (by omega) e hr⟩
      · rintro ⟨out, rfl, h⟩
        cases h with
        | done h => omega
        | round _ e hr =>
          rw [e]
          simp only
          exact (ih (g + 1) _ _ _ _ (by omega)).2 ⟨_, by simp, hr⟩
  simp only [randomSearch]
  rcases e : createEvaluated w with e' | ⟨i0, w0⟩
  · simp
  · simp only [loop _ 1 i0 [i0] (w0.setGeneration 1) traj rfl]
    constructor
    · rintro ⟨out, rfl, h⟩
      exact ⟨i0, w0, out, rfl, rfl, h⟩
    · rintro ⟨i, w1, out, h1, rfl, h2⟩
      cases h1
      exact ⟨out, rfl, h2⟩

/-- C36: a pipeline that returns no individual raises `IndexError`. -/
theorem random_search_empty_pipeline (evaluations : Int) (he : 1 < evaluations)
    (createEvaluated : World R → PyM (α × World R)) (pipeline : World R → α → PyM (List α × World R))
    (w w0 w1 : World R) (i : α) (h : createEvaluated w = .ok (i, w0))
    (hp : pipeline ⟨{ w0.ctx with generation := some 1 }, w0.rest⟩ i = .ok ([], w1)) :
    randomSearch evaluations createEvaluated pipeline w = .error .indexError := by
  have hp' : pipeline (w0.setGeneration 1) i = .ok ([], w1) := hp
  simp only [randomSearch, h]
  rw [randomSearchLoop, dif_pos (by omega)]
  simp [hp']

example : (randomSearch (R := Unit) 1 (fun w => .ok (5, w)) (fun w i => .ok ([i + 1], w))
    ⟨{}, ()⟩).map Prod.fst = .ok [5] := by
  simp only [randomSearch]
  rw [randomSearchLoop, dif_neg (by norm_num)]
  rfl

example : (randomSearch (R := Unit) 3 (fun w => .ok (5, w)) (fun w i => .ok ([i + 1], w))
    ⟨{}, ()⟩).map Prod.fst = .ok [5, 6, 7] := by
  simp only [randomSearch]
  rw [randomSearchLoop, dif_pos (by norm_num)]
  simp only
  rw [randomSearchLoop, dif_pos (by norm_num)]
  simp only
  rw [randomSearchLoop, dif_neg (by norm_num)]
  rfl

end Leap
