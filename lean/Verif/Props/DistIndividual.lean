import Verif.Model.DistIndividual
import Mathlib.Data.List.Basic
import Mathlib.Data.List.Count
import Mathlib.Data.List.Nodup
import Mathlib.Data.List.Range
import Mathlib.Tactic.Ring

/-!
# Distributed individuals, evaluation on workers and logs of distributed runs (C76, C77)
-/

namespace Leap

variable {G F : Type}

namespace Spec

/-- What a program does with distributed individuals: create one, clone the `i`-th made, or have the `i`-th
evaluated on a worker and take back the result. -/
inductive DistOp (G F : Type)
  | create (decoderIsType problemIsType : Bool) (genome : G) (uuid : Nat)
  | clone (i uuid : Nat)
  | evaluate (i : Nat) (nan : F) (imp : G → PyM F) (info : WorkerInfo) (nonViable : Option Nat)

/-- One step; an operation that raises leaves the world as it was. -/
def DistOp.run : DistOp G F → DistWorld G F → DistWorld G F
  | .create dt pt g u, w => match distCreate dt pt g u w with
    | .ok w' => w'
    | .error _ => w
  | .clone i u, w => match distClone i u w with
    | .ok w' => w'
    | .error _ => w
  | .evaluate i nan imp info n, w =>
    match w.inds[i]? with
    | none => w
    | some x => match distEvaluate nan imp info x n with
      | .ok (y, _) => { w with inds := w.inds.set i y }
      | .error _ => w

/-- What an individual looks like when it comes back from a worker where `imp` scored its genome. -/
def CameBack (nan : F) (imp : G → PyM F) (info : WorkerInfo) (x y : DistInd G F) : Prop :=
  y.genome = x.genome ∧ y.uuid = x.uuid ∧ y.parents = x.parents ∧ y.birthId = x.birthId ∧
  y.startTime = some info.start ∧ y.stopTime = some info.stop ∧ y.hostname = some info.host ∧ y.pid = some info.pid ∧
  match imp x.genome with
  | .ok v => y.fitness = some v ∧ y.isViable = true ∧ y.exception = x.exception
  | .error e => y.fitness = some nan ∧ y.isViable = false ∧ y.exception = some e

/-- Does scoring this individual raise? -/
def fails (imp : G → PyM F) (x : DistInd G F) : Bool :=
  match imp x.genome with
  | .ok _ => false
  | .error _ => true

end Spec

open Spec

/-! ### C76 -/

/-- C76: a new individual has no fitness, no parents, no times, is not viable, and takes the next identifier; a
class given for the decoder or the problem is refused with `ValueError` and uses up no identifier. -/
theorem dist_create_spec (dt pt : Bool) (g : G) (u : Nat) (w : DistWorld G F) :
    ((dt || pt) = true → distCreate dt pt g u w = .error .valueError) ∧
    ((dt || pt) = false → distCreate dt pt g u w = .ok ⟨w.nextBirth + 1, w.inds ++
      [{ genome := g, fitness := none, uuid := u, parents := [], birthId := w.nextBirth, startTime := none,
         stopTime := none, isViable := false, exception := none, hostname := none, pid := none }]⟩) := by
  cases dt <;> cases pt <;> simp [distCreate]

/-- C76: a clone has the parent's genome, no fitness, the parent as its only parent, and the next identifier; all
other attributes – viability, exception, times and place of the last evaluation – are the parent's. -/
theorem dist_clone_spec (i u : Nat) (w : DistWorld G F) :
    (∀ p, w.inds[i]? = some p → ∃ c, distClone i u w = .ok ⟨w.nextBirth + 1, w.inds ++ [c]⟩ ∧
      c.genome = p.genome ∧ c.fitness = none ∧ c.uuid = u ∧ c.parents = [p.uuid] ∧ c.birthId = w.nextBirth ∧
      c.isViable = p.isViable ∧ c.exception = p.exception ∧ c.startTime = p.startTime ∧ c.stopTime = p.stopTime ∧
      c.hostname = p.hostname ∧ c.pid = p.pid) ∧
    (w.inds[i]? = none → distClone i u w = .error .indexError) := by
  constructor
  · intro p hp
    exact ⟨{ p with fitness := none, uuid := u, parents := [p.uuid], birthId := w.nextBirth }, by simp [distClone, hp],
      rfl, rfl, rfl, rfl, rfl, rfl, rfl, rfl, rfl, rfl, rfl⟩
  · intro h; simp [distClone, h]

theorem distEvaluate_ok (nan : F) (imp : G → PyM F) (info : WorkerInfo) (x : DistInd G F) (n : Option Nat)
    (h : fails imp x = true → n ≠ none) :
    ∃ y, distEvaluate nan imp info x n = .ok (y, if fails imp x then n.map (· + 1) else n) ∧
      CameBack nan imp info x y := by
  unfold fails at h ⊢
  cases hi : imp x.genome with
  | ok v =>
    refine ⟨{ x with startTime := some info.start, fitness := some v, isViable := true, stopTime := some info.stop,
                     hostname := some info.host, pid := some info.pid }, ?_, ?_⟩
    · simp [distEvaluate, robustStep, hi]
    · simp [CameBack, hi]
  | error e =>
    simp only [hi] at h
    cases n with
    | none => simp at h
    | some n =>
      refine ⟨{ x with startTime := some info.start, fitness := some nan, exception := some e, isViable := false,
                       stopTime := some info.stop, hostname := some info.host, pid := some info.pid }, ?_, ?_⟩
      · simp [distEvaluate, robustStep, hi]
      · simp [CameBack, hi]

/-- C76: evaluation on a worker. The individual comes back with its score, or with NaN, not viable and the exception
recorded, when scoring raised; with the times and place of the evaluation; and otherwise unchanged. Exactly a
failure adds one to the count of non-viable individuals; without that count in the context a failure raises
`KeyError`. -/
theorem dist_evaluate_spec (nan : F) (imp : G → PyM F) (info : WorkerInfo) (x : DistInd G F) :
    (∀ n : Nat, ∃ y, distEvaluate nan imp info x (some n) = .ok (y, some (n + if fails imp x then 1 else 0)) ∧
      CameBack nan imp info x y) ∧
    (fails imp x = true → distEvaluate nan imp info x none = .error .keyError) ∧
    (fails imp x = false → ∃ y, distEvaluate nan imp info x none = .ok (y, none) ∧ CameBack nan imp info x y) := by
  refine ⟨fun n => ?_, fun h => ?_, fun h => ?_⟩
  · obtain ⟨y, hy, hc⟩ := distEvaluate_ok nan imp info x (some n) (by simp)
    refine ⟨y, ?_, hc⟩
    rw [hy]; cases fails imp x <;> simp
  · unfold fails at h
    cases hi : imp x.genome with
    | ok v => simp [hi] at h
    | error e => simp [distEvaluate, robustStep, hi]
  · obtain ⟨y, hy, hc⟩ := distEvaluate_ok nan imp info x none (by simp [h])
    exact ⟨y, by rw [hy]; simp, hc⟩

/-- C76: over every history of creating, cloning and evaluating, with refused operations among them, the `k`-th
individual made has birth identifier `k`: identifiers are unique, also for clones, the first is 0 and the last
one less than the number made. -/
theorem distributed_birth_ids (ops : List (DistOp G F)) :
    let w := ops.foldl (fun w op => op.run w) ⟨0, []⟩
    (∀ (k : Nat) x, w.inds[k]? = some x → x.birthId = k) ∧ w.nextBirth = w.inds.length := by
  have key : ∀ (ops : List (DistOp G F)) (w : DistWorld G F),
      (∀ (k : Nat) x, w.inds[k]? = some x → x.birthId = k) ∧ w.nextBirth = w.inds.length →
      (∀ (k : Nat) x, (ops.foldl (fun w op => op.run w) w).inds[k]? = some x → x.birthId = k) ∧
        (ops.foldl (fun w op => op.run w) w).nextBirth = (ops.foldl (fun w op => op.run w) w).inds.length := by
    intro ops
    induction ops with
    | nil => intro w h; exact h
    | cons op ops ih =>
      intro w h
      simp only [List.foldl_cons]
      apply ih
      have happend : ∀ c : DistInd G F, c.birthId = w.nextBirth →
          (∀ (k : Nat) x, (w.inds ++ [c])[k]? = some x → x.birthId = k) ∧ w.nextBirth + 1 = (w.inds ++ [c]).length := by
        intro c hc
        refine ⟨fun k x hx => ?_, by simp [h.2]⟩
        rcases Nat.lt_trichotomy k w.inds.length with hk | hk | hk
        · rw [List.getElem?_append_left hk] at hx
          exact h.1 k x hx
        · subst hk
          simp at hx
          rw [← hx, hc, h.2]
        · rw [List.getElem?_eq_none (by simp; omega)] at hx
          simp at hx
      cases op with
      | create dt pt g u =>
        cases hdt : (dt || pt) with
        | true => simp only [DistOp.run, (dist_create_spec dt pt g u w).1 hdt]; exact h
        | false =>
          simp only [DistOp.run, (dist_create_spec dt pt g u w).2 hdt]
          exact happend _ rfl
      | clone i u =>
        cases hp : w.inds[i]? with
        | none => simp only [DistOp.run, distClone, hp]; exact h
        | some p =>
          simp only [DistOp.run, distClone, hp]
          exact happend _ rfl
      | evaluate i nan imp info n =>
        cases hp : w.inds[i]? with
        | none => simp only [DistOp.run, hp]; exact h
        | some x =>
          simp only [DistOp.run, hp]
          cases he : distEvaluate nan imp info x n with
          | error e => exact h
          | ok r =>
            obtain ⟨y, m⟩ := r
            refine ⟨fun k z hz => ?_, by simp [h.2]⟩
            simp only [List.getElem?_set] at hz
            have hy : y.birthId = x.birthId := by
              by_cases hn : fails imp x = true → n ≠ none
              · obtain ⟨y', hy', hc⟩ := distEvaluate_ok nan imp info x n hn
                rw [hy'] at he
                simp only [Except.ok.injEq, Prod.mk.injEq] at he
                rw [← he.1]; exact hc.2.2.2.1
              · have hf : fails imp x = true := by
                  by_contra hf; exact hn fun h' => absurd h' hf
                have hnone : n = none := by
                  by_contra hne; exact hn fun _ => hne
                rw [hnone, (dist_evaluate_spec nan imp info x).2.1 hf] at he
                simp at he
            split at hz
            · rename_i hik
              split at hz
              · simp only [Option.some.injEq] at hz
                rw [← hz, hy, ← hik]; exact h.1 i x hp
              · simp at hz
            · exact h.1 k z hz
  exact key ops ⟨0, []⟩ ⟨by simp, rfl⟩

/-- A failed evaluation, a clone of it and a refused creation. -/
def exDistOps : List (DistOp Nat Int) :=
  [.create false false 7 100, .create true false 8 101, .evaluate 0 (-1) (fun _ => .error (.userError 3)) ⟨1, 2, "h", 9⟩ (some 0),
   .clone 0 102, .create false false 9 103, .clone 1 104]

example : ((exDistOps.foldl (fun w (op : DistOp Nat Int) => op.run w) ⟨0, []⟩).inds.map fun x => (x.birthId, x.genome, x.parents)) =
    [(0, 7, []), (1, 7, [100]), (2, 9, []), (3, 7, [102])] := by decide +kernel

/-- The clone made before any evaluation of its own carries the failure and the times of its parent. -/
example : ((exDistOps.foldl (fun w (op : DistOp Nat Int) => op.run w) ⟨0, []⟩).inds[1]?.map fun x => (x.fitness, x.exception, x.stopTime)) =
    some (none, some (.userError 3), some 2) := by decide +kernel

/-! ### Evaluating a pool -/

theorem drawFrom_spec {β : Type} (n : Nat) (up : List β) :
    drawFrom n up = if n ≤ up.length then .ok (up.take n, up.drop n) else .error .stopIteration := by
  induction n generalizing up with
  | zero => simp [drawFrom]
  | succ n ih =>
    cases up with
    | nil => simp [drawFrom]
    | cons x up =>
      rw [drawFrom, ih]
      by_cases h : n ≤ up.length <;> simp [h]

theorem gatherFutures_all {β : Type} (ys : List β) :
    gatherFutures (ys.map fun y => some (Except.ok y)) = some (.ok ys) := by
  induction ys with
  | nil => rfl
  | cons y ys ih => rw [List.map_cons, gatherFutures, ih]

theorem gather_pointwise {β : Type} (l : List (Option (PyM β))) (P : Nat → β → Prop)
    (h : ∀ (i : Nat) (hi : i < l.length), ∃ y, l[i] = some (.ok y) ∧ P i y) :
    ∃ ys, gatherFutures l = some (.ok ys) ∧ ys.length = l.length ∧ ∀ (i : Nat) y, ys[i]? = some y → P i y := by
  induction l generalizing P with
  | nil => exact ⟨[], rfl, rfl, by simp⟩
  | cons a l ih =>
    obtain ⟨y, hy, hp⟩ := h 0 (by simp)
    obtain ⟨ys, h1, h2, h3⟩ := ih (fun i => P (i + 1)) (fun i hi => by
      have := h (i + 1) (by simpa using hi)
      simpa using this)
    simp only [List.getElem_cons_zero] at hy
    subst hy
    refine ⟨y :: ys, by rw [gatherFutures, h1], by simp [h2], fun i z hz => ?_⟩
    cases i with
    | zero => simp at hz; rw [← hz]; exact hp
    | succ i => exact h3 i z (by simpa using hz)

theorem runTasks_invariant (shared : Bool) (nan : F) (imp : G → PyM F) (info : Nat → WorkerInfo)
    (pop : List (DistInd G F)) (order done : List Nat) (fut : List (Option (PyM (DistInd G F)))) (n0 n : Nat)
    (hnd : (done ++ order).Nodup) (hlt : ∀ i ∈ order, i < pop.length) (hlen : fut.length = pop.length)
    (hdone : ∀ i ∈ done, ∃ x y, pop[i]? = some x ∧ fut[i]? = some (some (.ok y)) ∧ CameBack nan imp (info i) x y)
    (hn : n = n0) :
    ∃ fut', (order.foldl (fun st i =>
        match pop[i]? with
        | none => st
        | some x =>
          match distEvaluate nan imp (info i) x st.2 with
          | .error e => (st.1.set i (some (.error e)), st.2)
          | .ok (y, n) => (st.1.set i (some (.ok y)), if shared then n else st.2)) (fut, some n)) =
        (fut', some (n0 + if shared then (order.filterMap fun i => pop[i]?).countP (fails imp) else 0)) ∧
      fut'.length = pop.length ∧
      ∀ i ∈ done ++ order, ∃ x y, pop[i]? = some x ∧ fut'[i]? = some (some (.ok y)) ∧ CameBack nan imp (info i) x y := by
  induction order generalizing done fut n0 n with
  | nil => exact ⟨fut, by simp [hn], hlen, by simpa using hdone⟩
  | cons i order ih =>
    have hi : i < pop.length := hlt i (by simp)
    have hx : pop[i]? = some pop[i] := List.getElem?_eq_getElem hi
    obtain ⟨y, hy, hc⟩ := (dist_evaluate_spec nan imp (info i) pop[i]).1 n
    have hnd' : ((done ++ [i]) ++ order).Nodup := by simpa using hnd
    obtain ⟨fut', h1, h2, h3⟩ := ih (done ++ [i]) (fut.set i (some (.ok y)))
      (if shared then n0 + (if fails imp pop[i] then 1 else 0) else n0)
      (if shared then n + (if fails imp pop[i] then 1 else 0) else n)
      hnd' (fun j hj => hlt j (by simp [hj])) (by simpa using hlen)
      (fun j hj => by
        by_cases hji : j = i
        · subst hji
          exact ⟨pop[j], y, hx, by rw [List.getElem?_set_self (by omega)], hc⟩
        · have : j ∈ done := by simpa [hji] using hj
          obtain ⟨x, z, e1, e2, e3⟩ := hdone j this
          exact ⟨x, z, e1, by rw [List.getElem?_set_ne (Ne.symm hji)]; exact e2, e3⟩)
      (by rw [hn])
    refine ⟨fut', ?_, h2, fun j hj => h3 j (by simpa using hj)⟩
    rw [List.foldl_cons]
    simp only [hx, hy]
    have hif : (if shared = true then some (n + if fails imp pop[i] = true then 1 else 0) else some n) =
        some (if shared = true then n + (if fails imp pop[i] = true then 1 else 0) else n) := by
      cases shared <;> rfl
    rw [hif, h1]
    congr 2
    cases shared with
    | false => rfl
    | true =>
      simp only [if_true, List.filterMap_cons, hx, List.countP_cons]
      omega

theorem filterMap_getElem_perm {β : Type} (l : List β) (order : List Nat) (h : order.Perm (List.range l.length)) :
    (order.filterMap fun i => l[i]?).Perm l := by
  have hr : ∀ l : List β, (List.range l.length).filterMap (fun i => l[i]?) = l := by
    intro l
    induction l with
    | nil => rfl
    | cons a l ih =>
      rw [List.length_cons, List.range_succ_eq_map, List.filterMap_cons]
      simp only [List.getElem?_cons_zero, List.filterMap_map, Function.comp_def, List.getElem?_cons_succ]
      rw [ih]
  exact (h.filterMap _).trans (by rw [hr])

/-- C76: `eval_pool`. For every order in which the workers finish, if upstream still holds `size` individuals, the
result lists exactly these, in the order they were taken, each as it came back from its worker; upstream keeps
the rest. The count of non-viable individuals in the caller's context grows by the number of failures when the
workers are threads of the caller, and not at all when they are other processes. -/
theorem eval_pool_spec (shared : Bool) (nan : F) (imp : G → PyM F) (info : Nat → WorkerInfo)
    (upstream : List (DistInd G F)) (size : Int) (order : List Nat) (n : Nat)
    (horder : order.Perm (List.range size.toNat)) (hsize : size ≤ upstream.length) :
    ∃ pool, evalPool shared nan imp info upstream size order (some n) =
        some (.ok pool, some (n + if shared then (upstream.take size.toNat).countP (fails imp) else 0),
          upstream.drop size.toNat) ∧
      pool.length = size.toNat ∧
      ∀ (i : Nat) y, pool[i]? = some y → ∃ x, upstream[i]? = some x ∧ CameBack nan imp (info i) x y := by
  have hk : size.toNat ≤ upstream.length := by omega
  have hlen : (upstream.take size.toNat).length = size.toNat := by simp [hk]
  obtain ⟨fut, h1, h2, h3⟩ := runTasks_invariant shared nan imp info (upstream.take size.toNat) order []
    ((upstream.take size.toNat).map fun _ => none) n n
    (by simpa using horder.nodup_iff.2 List.nodup_range)
    (fun i hi => by rw [hlen]; simpa using horder.mem_iff.1 hi) (by simp) (by simp) rfl
  obtain ⟨ys, g1, g2, g3⟩ := gather_pointwise fut
    (fun i y => ∃ x, upstream[i]? = some x ∧ CameBack nan imp (info i) x y) (fun i hi => by
      have hi' : i < size.toNat := by omega
      obtain ⟨x, y, e1, e2, e3⟩ := h3 i (by simpa using horder.mem_iff.2 (by simpa using hi'))
      refine ⟨y, ?_, x, ?_, e3⟩
      · rw [List.getElem?_eq_getElem hi] at e2; simpa using e2
      · rw [List.getElem?_take_of_lt hi'] at e1; exact e1)
  refine ⟨ys, ?_, by omega, g3⟩
  have hp : ((order.filterMap fun i => (upstream.take size.toNat)[i]?).countP (fails imp)) =
      (upstream.take size.toNat).countP (fails imp) :=
    (filterMap_getElem_perm _ order (by rw [hlen]; exact horder)).countP_eq _
  rw [hp] at h1
  have h1' : runTasks shared nan imp info (upstream.take size.toNat) order (some n) = _ := h1
  simp only [evalPool, drawFrom_spec, hk, if_true, h1', g1, Option.map_some]

/-- C76: `eval_pool` with too few individuals upstream raises `StopIteration` before anything is evaluated. -/
theorem eval_pool_exhausted (shared : Bool) (nan : F) (imp : G → PyM F) (info : Nat → WorkerInfo)
    (upstream : List (DistInd G F)) (size : Int) (order : List Nat) (n : Option Nat)
    (hsize : (upstream.length : Int) < size) :
    evalPool shared nan imp info upstream size order n = some (.error .stopIteration, n, []) := by
  have hk : ¬ size.toNat ≤ upstream.length := by omega
  simp [evalPool, drawFrom_spec, hk]

/-- C76: without the count in the context, `eval_pool` fails with `KeyError` as soon as one individual fails. -/
theorem eval_pool_missing_count (shared : Bool) (nan : F) (imp : G → PyM F) (info : Nat → WorkerInfo)
    (x : DistInd G F) (hx : fails imp x = true) :
    evalPool shared nan imp info [x] 1 [0] none = some (.error .keyError, none, []) := by
  have := (dist_evaluate_spec nan imp (info 0) x).2.1 hx
  simp [evalPool, drawFrom, runTasks, this, gatherFutures]

/-- Three individuals upstream, a pool of two finished in reverse order, the second fails. -/
def exUpstream : List (DistInd Nat Int) :=
  [⟨4, none, 1, [], 0, none, none, false, none, none, none⟩, ⟨0, none, 2, [], 1, none, none, false, none, none, none⟩,
   ⟨6, none, 3, [], 2, none, none, false, none, none, none⟩]

/-- Scores a number by its double; zero fails. -/
def exImp (g : Nat) : PyM Int := if g = 0 then .error .zeroDivisionError else .ok (2 * g)

example : ((evalPool true (-1) exImp (fun i => ⟨i, i + 1, "w", i⟩) exUpstream 2 [1, 0] (some 5)).map fun r =>
    ((r.1.toOption.getD []).map (fun x => (x.fitness, x.isViable)), r.2.1, r.2.2.length)) =
    some ([(some 8, true), (some (-1), false)], some 6, 1) := by decide +kernel

example : ((evalPool false (-1) exImp (fun i => ⟨i, i + 1, "w", i⟩) exUpstream 2 [1, 0] (some 5)).map fun r => r.2.1) =
    some (some 5) := by decide +kernel

/-! ### C77: the logs -/

namespace Spec

/-- The attributes the population log reads are all there. -/
def PopLoggable (x : LogInd F) : Prop := x.birthId ≠ none ∧ x.startTime ≠ none ∧ x.stopTime ≠ none

instance (x : LogInd F) : Decidable (PopLoggable x) := inferInstanceAs (Decidable (_ ∧ _ ∧ _))

/-- The attributes the worker log reads are all there. -/
def WorkerLoggable (x : LogInd F) : Prop := PopLoggable x ∧ x.hostname ≠ none ∧ x.pid ≠ none

instance (x : LogInd F) : Decidable (WorkerLoggable x) := inferInstanceAs (Decidable (_ ∧ _ ∧ _))

/-- A value that may be missing or `None`, as text in a file: both give an empty cell here. -/
def optCell {β : Type} (f : β → LogCell F) : Option (Option β) → LogCell F
  | some (some v) => f v
  | _ => .none

/-- A number that may be missing. -/
def numCell : Option Nat → LogCell F
  | some v => .int v
  | none => .none

/-- The row of an individual in snapshot number `k`. -/
def snapshotRow (k : Nat) (x : LogInd F) : List (LogCell F) :=
  [.int k, .int x.uuid, numCell x.birthId, optCell .time x.startTime, optCell .time x.stopTime,
   optCell .fitness (some x.fitness)]

/-- The row of an individual in the worker log. -/
def workerRow (x : LogInd F) : List (LogCell F) :=
  [.text (x.hostname.getD ""), numCell x.pid, .int x.uuid, numCell x.birthId, optCell .time x.startTime,
   optCell .time x.stopTime, optCell .fitness (some x.fitness)]

end Spec

theorem popLogRow_ok (k : Nat) (x : LogInd F) (h : PopLoggable x) : popLogRow k x = .ok (snapshotRow k x) := by
  obtain ⟨u, b, s, t, f, hn, p⟩ := x
  obtain ⟨h1, h2, h3⟩ := h
  cases b <;> cases s <;> cases t <;> simp at h1 h2 h3
  rename_i b s t
  cases s <;> cases t <;> cases f <;> rfl

theorem popLogRow_error (k : Nat) (x : LogInd F) (h : ¬ PopLoggable x) : popLogRow k x = .error .attributeError := by
  obtain ⟨u, b, s, t, f, hn, p⟩ := x
  cases b <;> cases s <;> cases t <;> first | rfl | exact absurd ⟨by simp, by simp, by simp⟩ h

theorem popLogRows_ok (k : Nat) (pop : List (LogInd F)) (s : LogStream F) (h : ∀ x ∈ pop, PopLoggable x) :
    popLogRows k pop s = (.ok (), s ++ pop.map (snapshotRow k)) := by
  induction pop generalizing s with
  | nil => simp [popLogRows]
  | cons x xs ih =>
    rw [popLogRows, popLogRow_ok k x (h x (by simp))]
    simp only
    rw [ih _ (fun y hy => h y (by simp [hy]))]
    simp

/-- C77: one call of the population log. With an update interval of zero it raises `ZeroDivisionError` and nothing
happens. Otherwise, on calls whose number is a multiple of the interval, it writes one row per individual, in
order; on the others nothing. An individual without the attributes of distributed evaluation raises
`AttributeError`: the rows before it stay and the call does not count. -/
theorem log_pop_call (u : Int) (pop : List (LogInd F)) (log : PopLog F) :
    (u = 0 → popLogCall u pop log = (.error .zeroDivisionError, log)) ∧
    (u ≠ 0 → ¬ u ∣ log.interval → popLogCall u pop log = (.ok (), ⟨log.stream, log.interval + 1⟩)) ∧
    (u ≠ 0 → u ∣ log.interval → (∀ x ∈ pop, PopLoggable x) →
      popLogCall u pop log = (.ok (), ⟨log.stream ++ pop.map (snapshotRow log.interval), log.interval + 1⟩)) ∧
    (u ≠ 0 → u ∣ log.interval → ∀ before x after, pop = before ++ x :: after → (∀ y ∈ before, PopLoggable y) →
      ¬ PopLoggable x →
      popLogCall u pop log =
        (.error .attributeError, ⟨log.stream ++ before.map (snapshotRow log.interval), log.interval⟩)) := by
  refine ⟨fun h => by simp [popLogCall, h], fun h hd => ?_, fun h hd hp => ?_, fun h hd before x after he hb hx => ?_⟩
  · simp [popLogCall, h, ← Int.dvd_iff_emod_eq_zero, hd]
  · simp [popLogCall, h, ← Int.dvd_iff_emod_eq_zero, hd, popLogRows_ok _ pop _ hp]
  · have : ∀ s : LogStream F, popLogRows log.interval (before ++ x :: after) s =
        (.error .attributeError, s ++ before.map (snapshotRow log.interval)) := by
      clear he
      induction before with
      | nil => intro s; simp [popLogRows, popLogRow_error _ x hx]
      | cons y ys ih =>
        intro s
        rw [List.cons_append, popLogRows, popLogRow_ok _ y (hb y (by simp))]
        simp only
        rw [ih (fun z hz => hb z (by simp [hz]))]
        simp
    subst he
    simp [popLogCall, h, ← Int.dvd_iff_emod_eq_zero, hd, this]

/-- C77: over a whole run. After calls with any populations the log holds the header, if asked for, and then for each
call whose number is a multiple of the update interval, from call 0 on, one row per individual of the population
shown in that call. -/
theorem log_pop_history (u : Int) (hu : u ≠ 0) (header : Bool) (stream : LogStream F) (pops : List (List (LogInd F)))
    (h : ∀ p ∈ pops, ∀ x ∈ p, PopLoggable x) :
    popLogHistory u pops (popLogStart header stream) =
      ⟨stream ++ (if header then [[.text "interval", .text "uuid", .text "birth_id", .text "start_eval_time",
          .text "stop_eval_time", .text "fitness"]] else []) ++
        (pops.zipIdx.flatMap fun pk => if u ∣ (pk.2 : Int) then pk.1.map (snapshotRow pk.2) else []), pops.length⟩ := by
  have key : ∀ (pops : List (List (LogInd F))) (log : PopLog F), (∀ p ∈ pops, ∀ x ∈ p, PopLoggable x) →
      popLogHistory u pops log = ⟨log.stream ++
        ((pops.zipIdx log.interval).flatMap fun pk => if u ∣ (pk.2 : Int) then pk.1.map (snapshotRow pk.2) else []),
        log.interval + pops.length⟩ := by
    intro pops
    induction pops with
    | nil => intro log _; simp [popLogHistory]
    | cons p ps ih =>
      intro log h
      rw [popLogHistory]
      obtain ⟨_, c2, c3, _⟩ := log_pop_call u p log
      by_cases hd : u ∣ (log.interval : Int)
      · rw [c3 hu hd (h p (by simp))]
        rw [ih _ (fun q hq => h q (by simp [hq]))]
        simp [hd, List.zipIdx_cons, Nat.add_comm, Nat.add_left_comm]
      · rw [c2 hu hd, ih _ (fun q hq => h q (by simp [hq]))]
        simp [hd, List.zipIdx_cons, Nat.add_comm, Nat.add_left_comm]
  rw [key pops _ h]
  cases header <;> simp [popLogStart]

/-- C77: the worker log. After any calls it holds the header, if asked for, and one row per individual shown that
has all the attributes of distributed evaluation, in the order of the calls; for the others the call raises
`AttributeError` and writes nothing. -/
theorem log_worker_history (header : Bool) (stream : LogStream F) (xs : List (LogInd F)) :
    workerLogHistory xs (workerLogStart header stream) =
      stream ++ (if header then [[.text "hostname", .text "pid", .text "uuid", .text "birth_id", .text "start_eval_time",
          .text "stop_eval_time", .text "fitness"]] else []) ++ (xs.filter fun x => decide (WorkerLoggable x)).map workerRow := by
  have key : ∀ (xs : List (LogInd F)) (s : LogStream F),
      workerLogHistory xs s = s ++ (xs.filter fun x => decide (WorkerLoggable x)).map workerRow := by
    intro xs
    induction xs with
    | nil => intro s; simp [workerLogHistory]
    | cons x xs ih =>
      intro s
      rw [workerLogHistory]
      by_cases hx : WorkerLoggable x
      · have : workerLogCall x s = .ok (s ++ [workerRow x]) := by
          obtain ⟨u, b, st, t, f, hn, p⟩ := x
          obtain ⟨⟨h1, h2, h3⟩, h4, h5⟩ := hx
          cases b <;> cases st <;> cases t <;> cases hn <;> cases p <;> simp at h1 h2 h3 h4 h5
          rename_i b st t hn p
          cases st <;> cases t <;> cases f <;> rfl
        rw [this]
        simp only
        rw [ih]
        simp [hx]
      · have : workerLogCall x s = .error .attributeError := by
          obtain ⟨u, b, st, t, f, hn, p⟩ := x
          cases b <;> cases st <;> cases t <;> cases hn <;> cases p <;>
            first | rfl | exact absurd ⟨⟨by simp, by simp, by simp⟩, by simp, by simp⟩ hx
        rw [this]
        simp only
        rw [ih]
        simp [hx]
  rw [key]
  cases header <;> simp [workerLogStart]

/-- C77: and the call on an individual without them raises. -/
theorem log_worker_missing (x : LogInd F) (s : LogStream F) (hx : ¬ WorkerLoggable x) :
    workerLogCall x s = .error .attributeError := by
  obtain ⟨u, b, st, t, f, hn, p⟩ := x
  cases b <;> cases st <;> cases t <;> cases hn <;> cases p <;>
    first | rfl | exact absurd ⟨⟨by simp, by simp, by simp⟩, by simp, by simp⟩ hx

/-- An evaluated individual and one that has not been evaluated. -/
def exLogInds : List (LogInd Int) :=
  [⟨11, some 0, some (some 1), some (some 2), some 5, some "host", some 77⟩, ⟨12, some 1, some none, some none, none, none, none⟩]

example : ∀ x ∈ exLogInds, PopLoggable x := by decide +kernel
example : (popLogHistory 2 [exLogInds, [], exLogInds] (popLogStart false [])).stream =
    [[.int 0, .int 11, .int 0, .time 1, .time 2, .fitness 5], [.int 0, .int 12, .int 1, .none, .none, .none],
     [.int 2, .int 11, .int 0, .time 1, .time 2, .fitness 5], [.int 2, .int 12, .int 1, .none, .none, .none]] := by
  decide +kernel
example : workerLogHistory exLogInds (workerLogStart false []) =
    [[.text "host", .int 77, .int 11, .int 0, .time 1, .time 2, .fitness 5]] := by decide +kernel

end Leap
