import Verif.Props.Budget
import Verif.Props.PlusRun
import Verif.Model.SyncRun

/-!
# C113 for loops written by hand and for distributed runs

What `Props/Budget.lean` says of the runs there is said here of the scripts of examples/simple and of the asynchronous and the synchronous distributed run.
-/

namespace Leap

open Spec

section
variable {γ ψ φ ρ α β : Type} {calls : ρ → Nat}

/-! ### Loops written by hand -/

namespace Spec

/-- A survival operator does not call the problem. -/
def SilentSurvival (calls : ρ → Nat) : Survival ρ → Prop
  | .truncation => True
  | .insertion draw => ∀ s n, calls (draw s n).2 = calls s

/-- A run that has called the problem exactly `n` times if it returns, and not more often if it raises. -/
def Spends (calls : ρ → Nat) (n : Nat) (m : Mem γ ψ φ ρ) : PyM α × Mem γ ψ φ ρ → Prop
  | (.ok _, m') => calls m'.rng = calls m.rng + n
  | (.error _, m') => calls m.rng ≤ calls m'.rng ∧ calls m'.rng ≤ calls m.rng + n

end Spec

theorem free_survive {cfg : PlusConfig γ ψ φ ρ} (h : SilentSurvival calls cfg.survival) (off par : List Nat) :
    Costs calls 0 0 (survive cfg off par) fun l => l.length = par.length := by
  intro m
  unfold survive
  cases hs : cfg.survival with
  | truncation =>
    refine ⟨Nat.le_refl _, Nat.le_refl _, fun a ea => ⟨Nat.le_refl _, ?_⟩⟩
    simp only [Except.ok.injEq] at ea
    subst ea
    simp [truncationSelection, topk_length]
  | insertion draw =>
    rw [hs] at h
    have e := h m.rng par.length
    simp only
    refine ⟨by omega, by omega, fun a ea => ⟨by omega, ?_⟩⟩
    obtain ⟨child, rest, parent, -, -, rfl⟩ := insertion_cases ea
    simp

theorem cost_plusLoop {c : Nat} {cfg : PlusConfig γ ψ φ ρ} {before : Int → List (Stage γ ψ φ ρ)} {last : Int → Stage γ ψ φ ρ}
    (hst : ∀ g, cfg.stages g = before g ++ [last g]) (hb : ∀ g, ∀ st ∈ before g, Silent calls st) (hl : ∀ g, Ending calls c c (last g))
    (hc : ∀ g pop, SilentChoice calls (cfg.choose g pop)) (hs : SilentSurvival calls cfg.survival) (size : Nat) :
    ∀ fuel g parents, parents.length = size → ∀ m, WithinBudget calls 0 (size * cfg.brood * c) fuel (fun _ _ _ => False) m (plusLoop cfg fuel g parents m) := by
  intro fuel
  induction fuel with
  | zero => intro g parents _ m; exact budget_ret (fun h => absurd h (by simp))
  | succ fuel ih =>
    intro g parents hp m
    unfold plusLoop
    refine budget_step (Q := fun l => l.length = size) ?_ (fun l hl m1 => ih (g + 1) l hl m1) m
    unfold plusStep
    rw [hst, ← hp]
    exact Costs.then0 (cost_pipeline (hb g) (hl g) (hc g parents) _) fun off _ => free_survive hs off parents

/-- **C113** (evolution loops written by hand). With `popSize` parents and `brood` offspring each, the problem is called exactly `popSize + n * popSize * brood` times in `n` generations,
whichever of the two survival operators ends the pipeline and whatever the operators of a generation; survivors are never scored again. A run that raises has not called it more often. -/
theorem plus_budget {c : Nat} {cfg : PlusConfig γ ψ φ ρ} {dec : Dec γ ψ} {prob : Prob γ ψ φ ρ} {before : Int → List (Stage γ ψ φ ρ)}
    (hst : ∀ g, cfg.stages g = before g ++ [.evaluate dec prob]) (hb : ∀ g, ∀ st ∈ before g, Silent calls st) (hp : Charges calls c prob)
    (hc : ∀ g pop, SilentChoice calls (cfg.choose g pop)) (hs : SilentSurvival calls cfg.survival) {initGenome : ρ → PyM (List γ) × ρ}
    (hi : ∀ s, calls (initGenome s).2 = calls s) (problem popSize : Nat) (generations : Int) (m : Mem γ ψ φ ρ) :
    Spends calls ((popSize + generations.toNat * (popSize * cfg.brood)) * c) m (plusRun cfg initGenome dec prob problem popSize generations m) ∧
    ∀ out m', plusRun cfg initGenome dec prob problem popSize generations m = (.ok out, m') → out.length = popSize := by
  have hlen : ∀ fuel g (parents : List Nat) (m : Mem γ ψ φ ρ) out m', plusLoop cfg fuel g parents m = (.ok out, m') → out.length = parents.length := by
    intro fuel
    induction fuel with
    | zero =>
      intro g parents m out m' h
      simp only [plusLoop, HM.pure_apply, Prod.mk.injEq, Except.ok.injEq] at h
      rw [h.1]
    | succ fuel ih =>
      intro g parents m out m' h
      unfold plusLoop plusStep at h
      simp only [HM.bind_apply] at h
      generalize runPipeline parents (cfg.choose g parents) (cfg.stages g) (parents.length * cfg.brood) m = res at h
      rcases res with ⟨r, m1⟩
      cases r with
      | error => simp at h
      | ok off =>
        simp only at h
        have hsv := (free_survive hs off parents m1).2.2
        generalize survive cfg off parents m1 = res2 at h hsv
        rcases res2 with ⟨r2, m2⟩
        cases r2 with
        | error => simp at h
        | ok p1 =>
          simp only at h
          rw [ih _ _ _ _ _ h]
          exact (hsv p1 rfl).2
  have h1 : Costs calls (popSize * c) (popSize * c)
      (createPopulation initGenome problem popSize >>= fun parents => evaluatePopulation dec prob parents >>= fun _ => pure parents) fun l => l.length = popSize := by
    refine Costs.seq0 (free_createPopulation hi problem popSize) fun l hl => ?_
    rw [← hl]
    exact Costs.then0 (cost_evaluatePopulation hp dec l) fun _ _ => Costs.ret rfl
  have h2 := budget_first h1 (fun a ha m => cost_plusLoop hst hb (fun _ => .evaluate hp) hc hs popSize generations.toNat 0 a ha m) m
  have e : plusRun cfg initGenome dec prob problem popSize generations = (createPopulation initGenome problem popSize >>= fun parents =>
      evaluatePopulation dec prob parents >>= fun _ => pure parents) >>= fun parents => plusLoop cfg generations.toNat 0 parents := by
    funext m
    unfold plusRun
    simp only [HM.bind_apply]
    rcases createPopulation initGenome problem popSize m with ⟨r, m1⟩
    cases r with
    | error => rfl
    | ok l =>
      simp only
      rcases evaluatePopulation dec prob l m1 with ⟨r, m2⟩
      cases r <;> rfl
  have h3 : ∀ out m', plusRun cfg initGenome dec prob problem popSize generations m = (.ok out, m') → out.length = popSize := by
    intro out m' h
    rw [e, HM.bind_apply] at h
    have hq := (h1 m).2.2
    generalize (createPopulation initGenome problem popSize >>= fun parents =>
      evaluatePopulation dec prob parents >>= fun _ => (pure parents : HM (Mem γ ψ φ ρ) (List Nat))) m = res at h hq
    rcases res with ⟨r, m1⟩
    cases r with
    | error => simp at h
    | ok l =>
      simp only at h
      rw [hlen _ _ _ _ _ _ h]
      exact (hq l rfl).2
  have h4 : (popSize + generations.toNat * (popSize * cfg.brood)) * c = popSize * c + generations.toNat * (popSize * cfg.brood * c) := by ring
  rw [← e] at h2
  refine ⟨?_, h3⟩
  rcases er : plusRun cfg initGenome dec prob problem popSize generations m with ⟨r, m'⟩
  rw [er] at h2
  cases r with
  | ok out =>
    obtain ⟨n, hn, hcalls, hall⟩ := h2
    have hn' : n = generations.toNat := by
      by_contra hne
      exact hall (by omega)
    change calls m'.rng = _
    rw [h4, hcalls, hn', Nat.add_assoc]
  | error err =>
    refine ⟨h2.1, ?_⟩
    rw [h4]
    have := h2.2
    omega

/-! ### Asynchronous runs -/

theorem silent_pipeline {stages : List (Stage γ ψ φ ρ)} (hb : ∀ st ∈ stages, Silent calls st) {pop : List Nat} {choose : Mem γ ψ φ ρ → PyM Nat × ρ}
    (hc : SilentChoice calls choose) (size : Nat) : Costs calls 0 0 (runPipeline pop choose stages size) fun l => l.length = size := by
  unfold runPipeline
  have h := cost_hpull (M := stagesIter (selectionIter pop choose) (Stage.clone :: stages)) (lo := 0) (hi := 0) (calls := calls)
    (silent_stages _ _ (free_selection hc) (by
      intro st hst
      rcases List.mem_cons.1 hst with rfl | hst
      · trivial
      · exact hb st hst)) size
  rw [Nat.mul_zero] at h
  exact Costs.then0 (h _) fun q hq => Costs.ret hq

theorem free_submitInd (copied : Bool) (r : Nat) : Costs calls 0 0 (submitInd copied r : HM (Mem γ ψ φ ρ) Nat) fun _ => True := by
  unfold submitInd
  cases copied
  · exact Costs.ret trivial
  · simp only [if_true]; costless

theorem free_submitAll (copied : Nat → Bool) : ∀ l, Costs calls 0 0 (submitAll copied l : HM (Mem γ ψ φ ρ) (List Nat)) fun sent => sent.length = l.length := by
  intro l
  induction l with
  | nil => exact Costs.ret rfl
  | cons r rs ih =>
    unfold submitAll
    exact Costs.seq0 (free_submitInd _ _) fun _ _ => Costs.seq0 ih fun cs hcs => Costs.ret (by simp [hcs])

namespace Spec

/-- An inserter does not call the problem. -/
def SilentInsert (calls : ρ → Nat) (insert : Nat → List Nat → Mem γ ψ φ ρ → PyM (List Nat) × ρ) : Prop := ∀ r pop m, calls (insert r pop m).2 = calls m.rng

/-- How many offspring are made at most after `births` births, with `size` offspring at a time. -/
def stillToCome (maxBirths births : Int) (size : Nat) : Nat := if births < maxBirths then (maxBirths - births).toNat + size - 1 else 0

end Spec

theorem stillToCome_step {maxBirths births : Int} {size : Nat} (h : births < maxBirths) :
    size + stillToCome maxBirths (births + size) size ≤ stillToCome maxBirths births size := by
  unfold stillToCome
  rw [if_pos h]
  split <;> omega

theorem cost_asyncStep {c : Nat} {cfg : AsyncConfig γ ψ φ ρ} (hb : ∀ st ∈ cfg.stages, Silent calls st) (hp : Charges calls c cfg.prob)
    (hc : ∀ pop, SilentChoice calls (cfg.choose pop)) (hi : SilentInsert calls cfg.insert) (r : AsyncRound) (st : AsyncState) :
    Costs calls 0 c (asyncStep cfg r st) fun st' => st'.completed.length = st.completed.length + 1 ∧
      (cfg.countNonviable = true → st'.completed.length + st'.pending.length + stillToCome cfg.maxBirths st'.births cfg.size ≤
        st.completed.length + st.pending.length + stillToCome cfg.maxBirths st.births cfg.size) := by
  unfold asyncStep
  cases hx : st.pending[r.which % st.pending.length]? with
  | none => exact Costs.bad
  | some x =>
    simp only
    refine Costs.then0 (cost_robustEvaluate hp cfg.nan cfg.dec x) fun _ _ => ?_
    intro m
    have hlt := (List.getElem?_eq_some_iff.1 hx).1
    have hpend : (st.pending.eraseIdx (r.which % st.pending.length)).length + 1 = st.pending.length := by
      rw [List.length_eraseIdx]
      split <;> omega
    generalize hbirths : (if (!viableInd m x && !cfg.countNonviable) = true then st.births - 1 else st.births) = births
    have hbb : cfg.countNonviable = true → births = st.births := by
      intro h
      rw [← hbirths, if_neg (by simp [h])]
    refine Costs.seq0 (P := fun _ => True) ?_ (fun pop _ => ?_) m
    · intro m1
      have := hi x st.pop m1
      simp only [insertInd]
      exact ⟨by omega, by omega, fun _ _ => ⟨by omega, trivial⟩⟩
    · rw [hbirths]
      by_cases hlt : births < cfg.maxBirths
      · rw [if_pos hlt]
        refine Costs.seq0 (silent_pipeline hb (hc pop) cfg.size) fun off hoff => ?_
        refine Costs.seq0 (free_submitAll _ off) fun sent hsent => Costs.ret ⟨by simp, fun hcn => ?_⟩
        have := stillToCome_step (size := cfg.size) hlt
        rw [hbb hcn] at this ⊢
        simp only [List.length_append, List.length_singleton, hsent, hoff]
        omega
      · rw [if_neg hlt]
        refine Costs.ret ⟨by simp, fun hcn => ?_⟩
        rw [hbb hcn]
        simp only [List.length_append, List.length_singleton]
        omega

theorem cost_asyncLoop {c : Nat} {cfg : AsyncConfig γ ψ φ ρ} (hb : ∀ st ∈ cfg.stages, Silent calls st) (hp : Charges calls c cfg.prob)
    (hc : ∀ pop, SilentChoice calls (cfg.choose pop)) (hi : SilentInsert calls cfg.insert) : ∀ (rounds : List AsyncRound) (st : AsyncState) (m : Mem γ ψ φ ρ),
      calls m.rng ≤ calls (asyncLoop cfg rounds st m).2.rng ∧ calls (asyncLoop cfg rounds st m).2.rng ≤ calls m.rng + rounds.length * c ∧
      (cfg.countNonviable = true →
        calls (asyncLoop cfg rounds st m).2.rng ≤ calls m.rng + (st.pending.length + stillToCome cfg.maxBirths st.births cfg.size) * c) ∧
      ∀ out, (asyncLoop cfg rounds st m).1 = .ok out → st.completed.length ≤ out.completed.length ∧
        calls (asyncLoop cfg rounds st m).2.rng ≤ calls m.rng + (out.completed.length - st.completed.length) * c := by
  intro rounds
  induction rounds with
  | nil =>
    intro st m
    refine ⟨Nat.le_refl _, by simp [asyncLoop], fun _ => by simp [asyncLoop], fun out h => ?_⟩
    simp only [asyncLoop, HM.pure_apply, Except.ok.injEq] at h
    subst h
    simp [asyncLoop]
  | cons r rest ih =>
    intro st m
    unfold asyncLoop
    by_cases he : st.pending.isEmpty = true
    · rw [if_pos he]
      refine ⟨Nat.le_refl _, by simp, fun _ => by simp, fun out h => ?_⟩
      simp only [HM.pure_apply, Except.ok.injEq] at h
      subst h
      simp
    · rw [if_neg he, HM.bind_apply]
      have hpos : 0 < st.pending.length := by
        cases hpd : st.pending with
        | nil => simp [hpd] at he
        | cons _ _ => simp
      obtain ⟨k1, k2, k3⟩ := cost_asyncStep hb hp hc hi r st m
      rcases es : asyncStep cfg r st m with ⟨res, m1⟩
      rw [es] at k1 k2 k3
      simp only at k1 k2
      cases res with
      | error err =>
        simp only
        refine ⟨k1, ?_, fun _ => ?_, fun out h => by simp at h⟩
        · rw [List.length_cons, Nat.succ_mul]; omega
        · have : 1 * c ≤ (st.pending.length + stillToCome cfg.maxBirths st.births cfg.size) * c := Nat.mul_le_mul_right _ (by omega)
          omega
      | ok st1 =>
        obtain ⟨-, k4, k5⟩ := k3 st1 rfl
        obtain ⟨j1, j2, j3, j4⟩ := ih st1 m1
        simp only
        refine ⟨by omega, ?_, fun hcn => ?_, fun out h => ?_⟩
        · rw [List.length_cons, Nat.succ_mul]; omega
        · have h5 := k5 hcn
          have h6 := j3 hcn
          have : (st1.pending.length + stillToCome cfg.maxBirths st1.births cfg.size + 1) * c ≤
              (st.pending.length + stillToCome cfg.maxBirths st.births cfg.size) * c := Nat.mul_le_mul_right _ (by omega)
          rw [Nat.succ_mul] at this
          omega
        · obtain ⟨h5, h6⟩ := j4 out h
          refine ⟨by omega, ?_⟩
          have : (out.completed.length - st1.completed.length + 1) * c ≤ (out.completed.length - st.completed.length) * c := Nat.mul_le_mul_right _ (by omega)
          rw [Nat.succ_mul] at this
          omega

/-- **C113** (`steady_state`). The problem is called at most once for every individual that came back from a worker. If individuals that are not viable count as births, it is called, whatever
the workers do and whether or not the run raises, at most once for each of the initial individuals and `max_births + size - 1` times more, where `size` is the number of offspring made at a time;
and not more often than for the initial individuals if `max_births` is not positive. -/
theorem async_budget {c : Nat} {cfg : AsyncConfig γ ψ φ ρ} (hb : ∀ st ∈ cfg.stages, Silent calls st) (hp : Charges calls c cfg.prob)
    (hc : ∀ pop, SilentChoice calls (cfg.choose pop)) (hi : SilentInsert calls cfg.insert) {initGenome : ρ → PyM (List γ) × ρ}
    (hg : ∀ s, calls (initGenome s).2 = calls s) (problem initSize : Nat) (copied : Nat → Bool) (rounds : List AsyncRound) (m : Mem γ ψ φ ρ) :
    calls m.rng ≤ calls (asyncRun cfg initGenome problem initSize copied rounds m).2.rng ∧
    (∀ out m', asyncRun cfg initGenome problem initSize copied rounds m = (.ok out, m') → calls m'.rng ≤ calls m.rng + out.completed.length * c) ∧
    (cfg.countNonviable = true → calls (asyncRun cfg initGenome problem initSize copied rounds m).2.rng ≤
      calls m.rng + (initSize + if 0 < cfg.maxBirths then cfg.maxBirths.toNat + cfg.size - 1 else 0) * c) := by
  have h1 : Costs calls 0 0 (createPopulation initGenome problem initSize >>= submitAll copied : HM (Mem γ ψ φ ρ) (List Nat)) fun l => l.length = initSize :=
    Costs.seq0 (free_createPopulation hg problem initSize) fun l hl => (free_submitAll copied l).mono (Nat.le_refl _) (Nat.le_refl _) fun a ha => ha.trans hl
  have e : asyncRun cfg initGenome problem initSize copied rounds = (createPopulation initGenome problem initSize >>= submitAll copied) >>= fun sent =>
      asyncLoop cfg rounds ⟨sent, [], 0, []⟩ := by
    funext m
    unfold asyncRun
    simp only [HM.bind_apply]
    rcases createPopulation initGenome problem initSize m with ⟨r, m1⟩
    cases r <;> rfl
  obtain ⟨k1, k2, k3⟩ := h1 m
  rw [e, HM.bind_apply]
  generalize (createPopulation initGenome problem initSize >>= submitAll copied : HM (Mem γ ψ φ ρ) (List Nat)) m = res at k1 k2 k3
  rcases res with ⟨r, m1⟩
  simp only at k1 k2
  cases r with
  | error err =>
    refine ⟨k1, fun out m' h => by simp at h, fun _ => ?_⟩
    simp only
    omega
  | ok sent =>
    obtain ⟨-, hs⟩ := k3 sent rfl
    obtain ⟨j1, -, j3, j4⟩ := cost_asyncLoop hb hp hc hi rounds ⟨sent, [], 0, []⟩ m1
    simp only
    refine ⟨by omega, fun out m' h => ?_, fun hcn => ?_⟩
    · have := (j4 out (by rw [h])).2
      rw [h] at this
      simp only [List.length_nil, Nat.sub_zero] at this
      omega
    · have := j3 hcn
      simp only [hs, stillToCome, Int.sub_zero] at this
      omega

/-! ### Synchronous distributed runs -/

theorem cost_worker {c : Nat} {prob : Prob γ ψ φ ρ} (hp : Charges calls c prob) (nan : φ) (dec : Dec γ ψ) (own : Option ρ) (r : Nat) :
    Costs calls 0 c (workerEvaluate nan dec prob own r) fun _ => True := by
  cases own with
  | none => exact cost_robustEvaluate hp nan dec r
  | some s =>
    intro m
    refine ⟨Nat.le_refl _, Nat.le_add_right _ _, fun _ _ => ⟨Nat.le_refl _, trivial⟩⟩

theorem cost_complete {c : Nat} {prob : Prob γ ψ φ ρ} (hp : Charges calls c prob) (nan : φ) (dec : Dec γ ψ) (own : Nat → Option ρ) (sent : List Nat) :
    ∀ order : List Nat, Costs calls 0 (order.length * c) (completeAll nan dec prob own sent order) fun _ => True := by
  intro order
  induction order with
  | nil => rw [List.length_nil, Nat.zero_mul]; exact Costs.ret trivial
  | cons i is ih =>
    unfold completeAll
    rw [List.length_cons, Nat.succ_mul, Nat.add_comm]
    cases sent[i]? with
    | none => exact ih.mono (Nat.le_refl _) (by omega) fun _ h => h
    | some r => exact (Costs.seq (cost_worker hp nan dec _ r) fun _ _ => ih).mono (Nat.zero_le _) (Nat.le_refl _) fun _ h => h

theorem cost_syncEvaluate {c : Nat} {prob : Prob γ ψ φ ρ} (hp : Charges calls c prob) (nan : φ) (dec : Dec γ ψ) (r : SyncRound ρ) (population : List Nat)
    (ho : r.order.length ≤ population.length) :
    Costs calls 0 (population.length * c) (syncEvaluate nan dec prob r population) fun _ => True := by
  unfold syncEvaluate
  refine Costs.seq0 (free_submitAll r.copied population) fun sent _ => ?_
  exact (Costs.then0 (cost_complete hp nan dec r.own sent r.order) fun _ _ => Costs.ret trivial).mono (Nat.le_refl _) (Nat.mul_le_mul_right _ ho) fun _ h => h

theorem cost_syncLoop {c : Nat} {cfg : SyncConfig γ ψ φ ρ} (hb : ∀ st ∈ cfg.stages, Silent calls st) (hp : Charges calls c cfg.prob)
    (hc : ∀ g pop, SilentChoice calls (cfg.choose g pop)) (hbest : ∀ k pop m, calls (cfg.best k pop m).2 = calls m.rng) (env : Int → SyncRound ρ)
    (ho : ∀ g, 0 ≤ g → (env g).order.length ≤ cfg.size) :
    ∀ fuel g, 0 ≤ g → ∀ parents, Costs calls 0 (fuel * cfg.size * c) (syncLoop cfg env fuel g parents) fun _ => True := by
  intro fuel
  induction fuel with
  | zero => intro g _ parents; rw [Nat.zero_mul, Nat.zero_mul]; exact Costs.ret trivial
  | succ fuel ih =>
    intro g hg parents m
    unfold syncLoop
    by_cases hs : cfg.stop g parents m = true
    · rw [if_pos hs]
      exact ⟨Nat.le_refl _, Nat.le_add_right _ _, fun _ _ => ⟨Nat.le_refl _, trivial⟩⟩
    · rw [if_neg hs]
      revert m
      intro m _
      refine (show Costs calls 0 ((fuel + 1) * cfg.size * c) _ fun _ => True from ?_) m
      rw [show (fuel + 1) * cfg.size * c = cfg.size * c + fuel * cfg.size * c by ring]
      refine Costs.seq0 (silent_pipeline hb (hc g parents) cfg.size) fun pulled hpl => ?_
      rw [← hpl]
      refine (Costs.seq (lo1 := 0) (lo2 := 0) (cost_syncEvaluate hp cfg.nan cfg.dec (env g) pulled (by rw [hpl]; exact ho g hg)) fun off _ => ?_)
      rw [hpl]
      refine Costs.seq0 (P := fun _ => True) ?_ fun survivors _ => ih (g + 1) (by omega) survivors
      intro m
      have h1 := hbest cfg.kElites parents m
      have h2 := hbest off.length (off ++ (cfg.best cfg.kElites parents m).1) { m with rng := (cfg.best cfg.kElites parents m).2 }
      simp only [syncSurvival] at h1 h2 ⊢
      exact ⟨by omega, by omega, fun _ _ => ⟨by omega, trivial⟩⟩

/-- **C113** (synchronous distributed runs). If the workers evaluate nobody twice, the problem is called at most `popSize + generations * size` times, whatever order they work in, whoever of
them is in another process, and whether or not the run raises. -/
theorem sync_budget {c : Nat} {cfg : SyncConfig γ ψ φ ρ} (hb : ∀ st ∈ cfg.stages, Silent calls st) (hp : Charges calls c cfg.prob)
    (hc : ∀ g pop, SilentChoice calls (cfg.choose g pop)) (hbest : ∀ k pop m, calls (cfg.best k pop m).2 = calls m.rng) {initGenome : ρ → PyM (List γ) × ρ}
    (hg : ∀ s, calls (initGenome s).2 = calls s) (problem popSize generations : Nat) (env : Int → SyncRound ρ)
    (h0 : (env (-1)).order.Perm (List.range popSize)) (ho : ∀ g, 0 ≤ g → (env g).order.Perm (List.range cfg.size)) (m : Mem γ ψ φ ρ) :
    calls m.rng ≤ calls (syncRun cfg initGenome problem popSize generations env m).2.rng ∧
      calls (syncRun cfg initGenome problem popSize generations env m).2.rng ≤ calls m.rng + (popSize + generations * cfg.size) * c := by
  have h : Costs calls 0 (popSize * c + generations * cfg.size * c) (syncRun cfg initGenome problem popSize generations env) fun _ => True := by
    unfold syncRun
    refine Costs.seq0 (free_createPopulation hg problem popSize) fun l hl => ?_
    refine Costs.seq (lo1 := 0) (lo2 := 0) (P := fun _ => True) ?_ fun parents _ =>
      cost_syncLoop hb hp hc hbest env (fun g hg => by rw [(ho g hg).length_eq, List.length_range]) generations 0 (Int.le_refl _) parents
    rw [← hl]
    exact cost_syncEvaluate hp cfg.nan cfg.dec (env (-1)) l (by rw [h0.length_eq, List.length_range, hl])
  have := h m
  rw [Nat.add_mul]
  exact ⟨this.1, this.2.1⟩

end

/-! ### Examples -/

/-- A script: each of the parents has two offspring, and the best of all survive. -/
def tallyPlus : PlusConfig Int Int ℚ Nat where
  worse := fun a b => decide (a.getD 0 < b.getD 0)
  equal := fun a b => decide (a.getD 0 = b.getD 0)
  choose := fun _ _ m => (.ok 0, m.rng)
  stages := fun _ => [tallyMutation, tallyCrossover] ++ [.evaluate .identity tallyProblem]
  brood := 2
  survival := .truncation

/-- Four parents, five generations: 4 + 5 * 8 calls. -/
example : (plusRun tallyPlus (fun s => (.ok [0, 1], s)) .identity tallyProblem 0 4 5 tallyStart).2.rng = 44 ∧
    (plusRun tallyPlus (fun s => (.ok [0, 1], s)) .identity tallyProblem 0 4 5 tallyStart).1.toOption.isSome = true := by
  decide +kernel

seal Spec.Spends in
/-- The hypotheses of `plus_budget` hold of this run, and of the one with insertion selection. -/
example (survival : Survival Nat) (hs : survival = .truncation ∨ survival = .insertion fun s _ => (0, s)) (m : Mem Int Int ℚ Nat) :
    Spends id ((4 + 5 * (4 * 2)) * 1) m (plusRun { tallyPlus with survival := survival } (fun s => (.ok [0, 1], s)) .identity tallyProblem 0 4 5 m) :=
  (plus_budget (calls := id) (cfg := { tallyPlus with survival := survival }) (before := fun _ => [tallyMutation, tallyCrossover]) (fun _ => rfl)
    (fun _ => tally_silent) tally_charges (fun _ _ _ => rfl) (by rcases hs with rfl | rfl <;> simp [SilentSurvival]) (fun _ => rfl) 0 4 5 m).1

/-- An asynchronous run: two offspring at a time until five births, greedy insertion into a population of two. -/
def tallyAsync : AsyncConfig Int Int ℚ Nat where
  maxBirths := 5
  popSize := 2
  countNonviable := true
  insert := greedyInserter (fun a b => decide (a.getD 0 < b.getD 0)) (fun a b => decide (b.getD 0 < a.getD 0)) 2
  choose := fun _ m => (.ok 0, m.rng)
  stages := [tallyMutation, tallyCrossover]
  size := 2
  nan := 0
  dec := .identity
  prob := tallyProblem

/-- The hypotheses of `async_budget` hold of it. -/
example (rounds : List AsyncRound) (copied : Nat → Bool) (m : Mem Int Int ℚ Nat) :
    (asyncRun tallyAsync (fun s => (.ok [0, 1], s)) 0 3 copied rounds m).2.rng ≤ m.rng + (3 + 6) * 1 :=
  (async_budget (calls := id) (cfg := tallyAsync) (c := 1) tally_silent tally_charges (fun _ _ => rfl) (fun _ _ _ => rfl) (fun _ => rfl) 0 3 copied rounds m).2.2 rfl

/-- Births come in twos, so there are six of them; three initial individuals and six offspring are evaluated: the bound is reached. -/
example : (asyncRun tallyAsync (fun s => (.ok [0, 1], s)) 0 3 (fun _ => true) (List.replicate 20 ⟨1, fun _ => false⟩) tallyStart).2.rng = 9 := by
  decide +kernel

/-- A synchronous run with two generations of three offspring. -/
def tallySync : SyncConfig Int Int ℚ Nat :=
  { tallyConfig with stages := [tallyMutation, tallyCrossover], stop := fun _ _ _ => false, best := fun k pop m => (pop.take k, m.rng), nan := 0, dec := .identity, prob := tallyProblem }

/-- What the workers do. -/
def tallyEnv (g : Int) : SyncRound Nat := ⟨fun _ => true, if g = -1 then [3, 1, 0, 2] else [1, 2, 0], fun _ => none⟩

/-- The hypotheses of `sync_budget` hold of it, -/
example (m : Mem Int Int ℚ Nat) : (syncRun tallySync (fun s => (.ok [0, 1], s)) 0 4 2 tallyEnv m).2.rng ≤ m.rng + (4 + 2 * 3) * 1 :=
  (sync_budget (calls := id) (cfg := tallySync) (c := 1) tally_silent tally_charges (fun _ _ _ => rfl) (fun _ _ _ => rfl) (fun _ => rfl) 0 4 2 tallyEnv (by decide)
    (fun g hg => by
      have : ¬ g = -1 := by omega
      simp only [tallyEnv, this, if_false]
      decide) m).2

/-- and the bound is reached. -/
example : (syncRun tallySync (fun s => (.ok [0, 1], s)) 0 4 2 tallyEnv tallyStart).2.rng = 10 := by
  decide +kernel

end Leap
