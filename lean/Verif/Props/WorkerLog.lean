import Mathlib.Data.List.Induction
import Verif.Model.WorkerLog

/-!
# C93: logging on distributed workers
-/

namespace Leap

/-- The worker is set up somewhere in the history. -/
def Spec.SetUpIn (w : Nat) (evs : List LogEvent) : Prop := ∃ v, LogEvent.setup v w ∈ evs

open Spec

theorem run_snoc (p : LogProc) (evs : List LogEvent) (e : LogEvent) : p.run (evs ++ [e]) = (p.run evs).step e := by
  simp [LogProc.run]

theorem workerLog_same (p : LogProc) (w l : Nat) (t : LogText) :
    (p.workerLog w l t).2.workers = p.workers ∧ (p.workerLog w l t).2.level = p.level ∧
    (p.workerLog w l t).2.filterHost = p.filterHost ∧ (p.workerLog w l t).2.filterPid = p.filterPid ∧
    (p.workerLog w l t).2.pid = p.pid := by
  unfold LogProc.workerLog LogProc.emit
  cases p.workers w
  · exact ⟨rfl, rfl, rfl, rfl, rfl⟩
  · simp only
    split <;> exact ⟨rfl, rfl, rfl, rfl, rfl⟩
  · exact ⟨rfl, rfl, rfl, rfl, rfl⟩

theorem setup_workers (p : LogProc) (v : Bool) (w u : Nat) :
    (p.setup v w).2.workers u = if u = w ∧ p.workers w = .absent then .shared else p.workers u := by
  unfold LogProc.setup
  cases h : p.workers w
  · simp only [(workerLog_same _ _ _ _).1, LogProc.setupLogger, and_true]
  · simp [(workerLog_same _ _ _ _).1]
  · simp [(workerLog_same _ _ _ _).1]

theorem setup_level (p : LogProc) (v : Bool) (w : Nat) :
    (p.setup v w).2.level = if p.workers w = .absent then some (if v then 10 else 20) else p.level := by
  unfold LogProc.setup
  cases h : p.workers w
  · simp only [(workerLog_same _ _ _ _).2.1, LogProc.setupLogger, if_true]
    rfl
  · simp [(workerLog_same _ _ _ _).2.1]
  · simp [(workerLog_same _ _ _ _).2.1]

/-- **C93** (one logger). After any history a worker that had no logger has the module's logger exactly when a plugin was set up on it; a
worker that had another logger keeps it. -/
theorem worker_logger (host pid : Nat) (workers : Nat → WorkerLogger) (evs : List LogEvent) (w : Nat) :
    (workers w = .foreign → ((importLogger host pid workers).run evs).workers w = .foreign) ∧
    (workers w = .absent → SetUpIn w evs → ((importLogger host pid workers).run evs).workers w = .shared) ∧
    (workers w = .absent → ¬ SetUpIn w evs → ((importLogger host pid workers).run evs).workers w = .absent) := by
  induction evs using List.reverseRecOn with
  | nil => exact ⟨fun h => h, fun _ ⟨v, h⟩ => by simp at h, fun h _ => h⟩
  | append_singleton evs e ih =>
    obtain ⟨i1, i2, i3⟩ := ih
    rw [run_snoc]
    generalize (importLogger host pid workers).run evs = p at i1 i2 i3
    have hkeep : (∀ v u, e ≠ .setup v u) → (p.step e).workers w = p.workers w ∧ (SetUpIn w (evs ++ [e]) ↔ SetUpIn w evs) := by
      intro hne
      constructor
      · cases e with
        | setup v u => exact absurd rfl (hne v u)
        | teardown u => exact congrFun (workerLog_same _ _ _ _).1 w
        | log u l n => exact congrFun (workerLog_same _ _ _ _).1 w
      · constructor
        · rintro ⟨v, h⟩
          rw [List.mem_append, List.mem_singleton] at h
          rcases h with h | h
          · exact ⟨v, h⟩
          · exact absurd h.symm (hne v w)
        · rintro ⟨v, h⟩; exact ⟨v, List.mem_append_left _ h⟩
    cases e with
    | teardown u => obtain ⟨k1, k2⟩ := hkeep (by intro v u; simp); rw [k1, k2]; exact ⟨i1, i2, i3⟩
    | log u l n => obtain ⟨k1, k2⟩ := hkeep (by intro v u; simp); rw [k1, k2]; exact ⟨i1, i2, i3⟩
    | setup v u =>
      show ((workers w = .foreign → (p.setup v u).2.workers w = .foreign) ∧ _)
      rw [show (p.step (.setup v u)).workers w = (p.setup v u).2.workers w from rfl, setup_workers]
      have hset : SetUpIn w (evs ++ [.setup v u]) ↔ SetUpIn w evs ∨ w = u := by
        constructor
        · rintro ⟨v', h⟩
          rw [List.mem_append, List.mem_singleton] at h
          rcases h with h | h
          · exact .inl ⟨v', h⟩
          · injection h with _ h; exact .inr h
        · rintro (⟨v', h⟩ | rfl)
          · exact ⟨v', List.mem_append_left _ h⟩
          · exact ⟨v, by simp⟩
      refine ⟨fun h => ?_, fun h hs => ?_, fun h hs => ?_⟩
      · rw [if_neg, i1 h]
        rintro ⟨rfl, hc⟩
        rw [i1 h] at hc; simp at hc
      · by_cases hin : SetUpIn w evs
        · rw [if_neg, i2 h hin]
          rintro ⟨rfl, hc⟩
          rw [i2 h hin] at hc; simp at hc
        · have : w = u := (hset.1 hs).resolve_left hin
          subst this
          rw [if_pos ⟨rfl, i3 h hin⟩]
      · have hin : ¬ SetUpIn w evs := fun hc => hs (hset.2 (.inl hc))
        have hne : w ≠ u := fun hc => hs (hset.2 (.inr hc))
        rw [if_neg (fun hc => hne hc.1), i3 h hin]

/-- **C93** (level). The level of all workers of the process is that of the plugin set up last on a worker then without logger: setting up
plugins again on workers that have one does not change it. Without any such setup the logger has no level of its own. -/
theorem worker_log_level (host pid : Nat) (workers : Nat → WorkerLogger) (hw : ∀ w, workers w ≠ .shared) :
    (∀ (before after : List LogEvent) (v : Bool) (w : Nat), workers w = .absent → ¬ SetUpIn w before →
      (∀ v' u, LogEvent.setup v' u ∈ after → workers u = .foreign ∨ SetUpIn u (before ++ [.setup v w])) →
      ((importLogger host pid workers).run (before ++ .setup v w :: after)).level = some (if v then 10 else 20)) ∧
    (∀ evs, (∀ w, SetUpIn w evs → workers w = .foreign) → ((importLogger host pid workers).run evs).level = none) := by
  constructor
  · intro before after v w hw0 hb ha
    induction after using List.reverseRecOn with
    | nil =>
      rw [run_snoc]
      show ((LogProc.run _ before).setup v w).2.level = _
      rw [setup_level, if_pos ((worker_logger host pid workers before w).2.2 hw0 hb)]
    | append_singleton after e ih =>
      rw [show before ++ .setup v w :: (after ++ [e]) = (before ++ .setup v w :: after) ++ [e] by simp, run_snoc]
      have ih' := ih (fun v' u h => ha v' u (List.mem_append_left _ h))
      cases e with
      | teardown u => rw [← ih']; exact (workerLog_same _ _ _ _).2.1
      | log u l n => rw [← ih']; exact (workerLog_same _ _ _ _).2.1
      | setup v' u =>
        show ((LogProc.run _ _).setup v' u).2.level = _
        have hu : ((importLogger host pid workers).run (before ++ .setup v w :: after)).workers u ≠ .absent := by
          obtain ⟨w1, w2, w3⟩ := worker_logger host pid workers (before ++ .setup v w :: after) u
          cases hwu : workers u with
          | shared => exact absurd hwu (hw u)
          | foreign => rw [w1 hwu]; simp
          | absent =>
            rw [w2 hwu]
            · simp
            · rcases ha v' u (by simp) with hf | ⟨v'', hm⟩
              · rw [hwu] at hf; simp at hf
              · refine ⟨v'', ?_⟩
                rw [List.mem_append, List.mem_singleton] at hm
                rcases hm with hm | hm
                · exact List.mem_append_left _ hm
                · rw [hm]; simp
        rw [setup_level, if_neg hu, ih']
  · intro evs h
    induction evs using List.reverseRecOn with
    | nil => rfl
    | append_singleton evs e ih =>
      have ih' := ih (fun w ⟨v, hm⟩ => h w ⟨v, List.mem_append_left _ hm⟩)
      rw [run_snoc]
      cases e with
      | teardown u => rw [← ih']; exact (workerLog_same _ _ _ _).2.1
      | log u l n => rw [← ih']; exact (workerLog_same _ _ _ _).2.1
      | setup v' u =>
        show ((LogProc.run _ _).setup v' u).2.level = _
        rw [setup_level, if_neg, ih']
        rw [(worker_logger host pid workers evs u).1 (h u ⟨v', by simp⟩)]
        simp

/-- **C93** (lines). A message logged on a worker that has the module's logger is written exactly when its level reaches the process's level
(`WARNING` while none was set), with the host and process numbers taken when the module was imported, after all earlier lines;
nothing else changes. On a worker without a logger it is an `AttributeError`. -/
theorem worker_message (p : LogProc) (w l : Nat) (t : LogText) :
    (p.workers w = .shared → p.level.getD 30 ≤ l →
      p.workerLog w l t = (.ok (), { p with out := p.out ++ [⟨p.filterHost, p.filterPid, l, t⟩] })) ∧
    (p.workers w = .shared → l < p.level.getD 30 → p.workerLog w l t = (.ok (), p)) ∧
    (p.workers w = .foreign → p.workerLog w l t = (.ok (), { p with foreignOut := p.foreignOut ++ [(l, t)] })) ∧
    (p.workers w = .absent → p.workerLog w l t = (.error .attributeError, p)) := by
  refine ⟨fun h hl => ?_, fun h hl => ?_, fun h => ?_, fun h => ?_⟩ <;> simp only [LogProc.workerLog, h]
  · simp only [LogProc.emit]; rw [if_pos]; exact hl
  · simp only [LogProc.emit]; rw [if_neg]; exact Nat.not_le.2 hl

/-- **C93** (plugin). Setting a plugin up on a worker without logger gives it the module's logger, sets the level and announces the worker, at
either verbosity. On a worker that has a logger it only warns, on that logger. Tearing down logs one message at the level `INFO`,
which needs a logger. -/
theorem worker_plugin (p : LogProc) (v : Bool) (w : Nat) :
    (p.workers w = .absent → p.setup v w = (.ok (),
      { p with workers := fun u => if u = w then .shared else p.workers u, level := some (if v then 10 else 20),
               out := p.out ++ [⟨p.filterHost, p.filterPid, 20, .workerSetup w⟩] })) ∧
    (p.workers w = .shared → (∀ l, p.level = some l → l ≤ 30) → p.setup v w = (.ok (),
      { p with out := p.out ++ [⟨p.filterHost, p.filterPid, 30, .alreadyHasLogger⟩] })) ∧
    (p.workers w = .foreign → p.setup v w = (.ok (), { p with foreignOut := p.foreignOut ++ [(30, .alreadyHasLogger)] })) ∧
    (p.workers w = .shared → p.level ≠ none → (∀ l, p.level = some l → l ≤ 20) → p.teardown w = (.ok (),
      { p with out := p.out ++ [⟨p.filterHost, p.filterPid, 20, .tearingDown w⟩] })) ∧
    (p.workers w = .absent → p.teardown w = (.error .attributeError, p)) := by
  refine ⟨fun h => ?_, fun h hl => ?_, fun h => ?_, fun h hn hl => ?_, fun h => ?_⟩
  · simp only [LogProc.setup, h]
    rw [(worker_message _ w logInfo (.workerSetup w)).1]
    · rfl
    · simp [LogProc.setupLogger]
    · cases v <;> simp [LogProc.setupLogger, logInfo, logDebug]
  · simp only [LogProc.setup, h]
    rw [(worker_message p w logWarning .alreadyHasLogger).1 h]
    · rfl
    · cases hp : p.level with
      | none => simp [logWarning]
      | some l => simpa [logWarning] using hl l hp
  · simp only [LogProc.setup, h]
    rw [(worker_message p w logWarning .alreadyHasLogger).2.2.1 h]
    rfl
  · simp only [LogProc.teardown]
    rw [(worker_message p w logInfo (.tearingDown w)).1 h]
    · rfl
    · cases hp : p.level with
      | none => exact absurd hp hn
      | some l => simpa [logInfo] using hl l hp
  · exact (worker_message p w logInfo (.tearingDown w)).2.2.2 h

/-- **C93** (numbers). Every line of a process that imported the module itself carries its host and process numbers. -/
theorem log_numbers (host pid : Nat) (workers : Nat → WorkerLogger) (evs : List LogEvent) :
    ∀ l ∈ ((importLogger host pid workers).run evs).out, l.hostname = host ∧ l.processId = pid := by
  have key : ∀ (evs : List LogEvent) (p : LogProc), p.filterHost = host → p.filterPid = pid →
      (∀ l ∈ p.out, l.hostname = host ∧ l.processId = pid) → ∀ l ∈ (p.run evs).out, l.hostname = host ∧ l.processId = pid := by
    have hlog : ∀ (p : LogProc) (w l : Nat) (t : LogText), p.filterHost = host → p.filterPid = pid →
        (∀ l ∈ p.out, l.hostname = host ∧ l.processId = pid) →
        ∀ k ∈ (p.workerLog w l t).2.out, k.hostname = host ∧ k.processId = pid := by
      intro p w l t h1 h2 h3
      unfold LogProc.workerLog LogProc.emit
      cases p.workers w
      · exact h3
      · simp only
        split
        · intro k hk
          simp only [List.mem_append, List.mem_singleton] at hk
          rcases hk with hk | rfl
          · exact h3 k hk
          · exact ⟨h1, h2⟩
        · exact h3
      · exact h3
    intro evs
    induction evs with
    | nil => intro p _ _ h; exact h
    | cons e evs ih =>
      intro p h1 h2 h3
      show ∀ l ∈ ((p.step e).run evs).out, _
      cases e with
      | teardown u =>
        exact ih _ ((workerLog_same _ _ _ _).2.2.1.trans h1) ((workerLog_same _ _ _ _).2.2.2.1.trans h2) (hlog _ _ _ _ h1 h2 h3)
      | log u l n =>
        exact ih _ ((workerLog_same _ _ _ _).2.2.1.trans h1) ((workerLog_same _ _ _ _).2.2.2.1.trans h2) (hlog _ _ _ _ h1 h2 h3)
      | setup v u =>
        have hs : (p.setup v u).2.filterHost = host ∧ (p.setup v u).2.filterPid = pid ∧
            ∀ l ∈ (p.setup v u).2.out, l.hostname = host ∧ l.processId = pid := by
          unfold LogProc.setup
          cases p.workers u
          · exact ⟨(workerLog_same _ _ _ _).2.2.1.trans h1, (workerLog_same _ _ _ _).2.2.2.1.trans h2, hlog _ _ _ _ h1 h2 h3⟩
          · exact ⟨(workerLog_same _ _ _ _).2.2.1.trans h1, (workerLog_same _ _ _ _).2.2.2.1.trans h2, hlog _ _ _ _ h1 h2 h3⟩
          · exact ⟨(workerLog_same _ _ _ _).2.2.1.trans h1, (workerLog_same _ _ _ _).2.2.2.1.trans h2, hlog _ _ _ _ h1 h2 h3⟩
        exact ih _ hs.1 hs.2.1 hs.2.2
  exact key evs _ rfl rfl (by simp [importLogger])

/-- C93: a process forked after the import keeps reporting the number of its parent. -/
theorem forked_worker_reports_parent (host parent child : Nat) (hc : child ≠ parent) (v : Bool) (w : Nat) (workers : Nat → WorkerLogger)
    (h : workers w = .absent) :
    let p := (((importLogger host parent workers).fork child).setup v w).2
    p.pid = child ∧ p.out = [⟨host, parent, 20, .workerSetup w⟩] ∧ ∀ l ∈ p.out, l.processId ≠ p.pid := by
  have := (worker_plugin ((importLogger host parent workers).fork child) v w).1 h
  simp only [this]
  refine ⟨rfl, rfl, ?_⟩
  intro l hl
  simp only [LogProc.fork, importLogger, List.nil_append, List.mem_singleton] at hl
  subst hl
  simpa [LogProc.fork] using hc.symm

/-- Two workers in one process: the quiet plugin of the second silences the debug messages of the first. -/
example : ((importLogger 7 42 fun _ => .absent).run
    [.setup true 1, .log 1 10 0, .setup false 2, .log 1 10 1, .setup true 1, .log 1 10 2, .teardown 2, .teardown 3]).out =
    [⟨7, 42, 20, .workerSetup 1⟩, ⟨7, 42, 10, .user 0⟩, ⟨7, 42, 20, .workerSetup 2⟩, ⟨7, 42, 30, .alreadyHasLogger⟩, ⟨7, 42, 20, .tearingDown 2⟩] := by
  decide +kernel

end Leap
