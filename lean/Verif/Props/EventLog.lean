import Verif.Model.EventLog
import Verif.Props.Wrappers
import Verif.Props.Migration

/-!
# C82: logs of migrations and of cooperative trials
-/

namespace Leap

namespace Spec

/-- The columns every migration log has. -/
def migrationColumns : List String := ["generation", "migrant_fitness", "contestant_fitness", "success"]

/-- The row of one event of a migration log with the given notes. -/
def migrationRow {V F G : Type} (notes : List (String × V)) (generation : Int) (migrant contestant : Option F) (success : Bool) :
    List (EvCell V F G) :=
  notes.map (fun kv => .note kv.2) ++ [.int generation, .fitness migrant, .fitness contestant, .flag success]

/-- The rows of one cooperative trial: one for each member of the team, by sub-population, and one for the combined individual
with its genome and its fitness. -/
def trialRows {γ F : Type} (generation : Int) (cur : Nat) (team : List (CoInd γ F)) (genome : List γ) (f : F) :
    List (List (EvCell Unit F (List γ))) :=
  team.zipIdx.map (fun xi => [.int generation, .int cur, .text "Collaborator", .int xi.2, .genome xi.1.genome,
    .fitness xi.1.fitness]) ++
  [[.int generation, .int cur, .text "Combined Individual", .blank, .genome genome, .fitness (some f)]]

end Spec

open Spec

section
variable {V F G α : Type}

theorem dictSet_fresh {V : Type} (row : List (String × V)) (k : String) (v : V) (h : k ∉ row.map Prod.fst) :
    dictSet row k v = row ++ [(k, v)] := by
  unfold dictSet; rw [if_neg h]

theorem dictGet_append_left {V : Type} (a b : List (String × V)) (k : String) (h : k ∈ a.map Prod.fst) :
    dictGet (a ++ b) k = dictGet a k := by
  unfold dictGet
  rw [List.find?_append]
  obtain ⟨e, he, rfl⟩ := List.mem_map.1 h
  have : (a.find? fun x => decide (x.1 = e.1)).isSome := by
    rw [List.find?_isSome]; exact ⟨e, he, by simp⟩
  obtain ⟨y, hy⟩ := Option.isSome_iff_exists.1 this
  rw [hy]; rfl

theorem dictGet_append_right {V : Type} (a b : List (String × V)) (k : String) (h : k ∉ a.map Prod.fst) :
    dictGet (a ++ b) k = dictGet b k := by
  unfold dictGet
  rw [List.find?_append]
  have : (a.find? fun x => decide (x.1 = k)) = none := by
    rw [List.find?_eq_none]
    intro x hx hk
    exact h (List.mem_map.2 ⟨x, hx, by simpa using hk⟩)
  rw [this]; rfl

/-- Reading all keys of a dict gives all its values. -/
theorem dictGet_keys {V : Type} (a : List (String × V)) (h : (a.map Prod.fst).Nodup) (d : V) :
    a.map (fun e => (dictGet a e.1).getD d) = a.map Prod.snd := by
  induction a with
  | nil => rfl
  | cons x a ih =>
    rw [List.map_cons, List.nodup_cons] at h
    rw [List.map_cons, List.map_cons]
    congr 1
    · simp [dictGet]
    · rw [← ih h.2]
      apply List.map_congr_left
      intro e he
      have hne : x.1 ≠ e.1 := fun hx => h.1 (hx ▸ List.mem_map.2 ⟨e, he, rfl⟩)
      simp [dictGet, List.find?_cons, hne]

/-- C82: with notes whose names are not among the columns of the log, an event writes one row: the notes, then the event. -/
theorem migration_metric_row (notes : List (String × V)) (hn : (notes.map Prod.fst).Nodup)
    (hd : ∀ k ∈ notes.map Prod.fst, k ∉ migrationColumns) (g : Int) (mf cf : Option F) (ok : Bool)
    (rows : List (List (EvCell V F G))) :
    measureMigration notes g mf cf ok (some rows) = some (rows ++ [migrationRow notes g mf cf ok]) := by
  have hk : ∀ k ∈ migrationColumns, k ∉ (notes.map fun kv => (kv.1, (EvCell.note kv.2 : EvCell V F G))).map Prod.fst := by
    intro k hk hm
    rw [List.map_map] at hm
    exact hd k hm hk
  unfold measureMigration
  simp only
  have m1 : "generation" ∈ migrationColumns := by simp [migrationColumns]
  have m2 : "migrant_fitness" ∈ migrationColumns := by simp [migrationColumns]
  have m3 : "contestant_fitness" ∈ migrationColumns := by simp [migrationColumns]
  have m4 : "success" ∈ migrationColumns := by simp [migrationColumns]
  rw [dictSet_fresh (notes.map fun kv => (kv.1, (EvCell.note kv.2 : EvCell V F G))) "generation" _ (hk _ m1)]
  rw [dictSet_fresh (_ ++ [_]) "migrant_fitness" _
    (by rw [List.map_append, List.mem_append, not_or]; exact ⟨hk _ m2, by simp⟩)]
  rw [dictSet_fresh (_ ++ [_] ++ [_]) "contestant_fitness" _ (by
    rw [List.map_append, List.map_append, List.mem_append, List.mem_append, not_or, not_or]
    exact ⟨⟨hk _ m3, by simp⟩, by simp⟩)]
  rw [dictSet_fresh (_ ++ [_] ++ [_] ++ [_]) "success" _ (by
    rw [List.map_append, List.map_append, List.map_append, List.mem_append, List.mem_append, List.mem_append, not_or, not_or,
      not_or]
    exact ⟨⟨⟨hk _ m4, by simp⟩, by simp⟩, by simp⟩)]
  congr 3
  rw [dictRow, migrationFields, List.map_append, migrationRow]
  congr 1
  · have h1 := dictGet_keys (notes.map fun kv => (kv.1, (EvCell.note kv.2 : EvCell V F G)))
      (by rw [List.map_map]; exact hn) .blank
    rw [List.map_map, List.map_map] at h1
    rw [List.map_map]
    refine Eq.trans ?_ h1
    apply List.map_congr_left
    intro e he
    have : e.1 ∈ (notes.map fun kv => (kv.1, (EvCell.note kv.2 : EvCell V F G))).map Prod.fst :=
      List.mem_map.2 ⟨(e.1, .note e.2), List.mem_map.2 ⟨e, he, rfl⟩, rfl⟩
    simp only [Function.comp, List.append_assoc]
    rw [dictGet_append_left _ _ _ this]
  · simp only [List.map_cons, List.map_nil, List.append_assoc]
    rw [dictGet_append_right _ _ _ (hk _ m1), dictGet_append_right _ _ _ (hk _ m2), dictGet_append_right _ _ _ (hk _ m3),
      dictGet_append_right _ _ _ (hk _ m4)]
    simp [dictGet]

example : ((["run", "description"] : List String)).Nodup ∧ ∀ k ∈ ["run", "description"], k ∉ migrationColumns := by decide

/-- The example in the documentation of `migration_metric`. -/
example : measureMigration [("run", "0"), ("description", "Test output")] 0 (some (3 : Int)) (some 2) true
    (migrationMetricStart (G := Unit) (some []) true [("run", "0"), ("description", "Test output")]) =
    some [[.text "run", .text "description", .text "generation", .text "migrant_fitness", .text "contestant_fitness",
        .text "success"],
      [.note "0", .note "Test output", .int 0, .fitness (some 3), .fitness (some 2), .flag true]] := by decide

/-- C82: a note named like a column of the event is overwritten by the event, in both columns of that name. -/
theorem migration_metric_clash (v : V) (g : Int) (mf cf : Option F) (ok : Bool) :
    measureMigration [("generation", v)] g mf cf ok (some ([] : List (List (EvCell V F G)))) =
      some [[.int g, .int g, .fitness mf, .fitness cf, .flag ok]] := by
  simp [measureMigration, dictSet, dictRow, migrationFields, dictGet]

/-- C82: what the metric writes when it is made: the names of the notes and the four columns, if a header is asked for. Without
a stream it never writes. -/
theorem migration_metric_start (notes : List (String × V)) (rows : List (List (EvCell V F G))) :
    migrationMetricStart (some rows) true notes =
      some (rows ++ [(notes.map fun kv => .text kv.1) ++ migrationColumns.map .text]) ∧
    migrationMetricStart (some rows) false notes = some rows ∧
    (∀ header, migrationMetricStart (none : Option (List (List (EvCell V F G)))) header notes = none) ∧
    (∀ g mf cf ok, measureMigration notes g mf cf ok (none : Option (List (List (EvCell V F G)))) = none) := by
  refine ⟨?_, rfl, fun _ => rfl, fun _ _ _ _ => rfl⟩
  simp [migrationMetricStart, migrationFields, migrationColumns]

theorem logMetrics_rows (notes : List (String × V)) (hn : (notes.map Prod.fst).Nodup)
    (hd : ∀ k ∈ notes.map Prod.fst, k ∉ migrationColumns) (fit : α → Option F) (g : Int) (ms : List (MetricCall α))
    (rows : List (List (EvCell V F G))) :
    logMetrics notes fit g ms (some rows) =
      some (rows ++ ms.map fun m => migrationRow notes g (fit m.immigrant) (fit m.contestant) m.success) := by
  induction ms generalizing rows with
  | nil => simp [logMetrics]
  | cons m ms ih =>
    have h := ih (rows ++ [migrationRow notes g (fit m.immigrant) (fit m.contestant) m.success])
    unfold logMetrics at h ⊢
    rw [List.foldl_cons, migration_metric_row notes hn hd, h]
    simp

/-- C82: the log of a whole history of migrations. It grows by one row per event: for each call in order, for each immigrant it
met in order, the generation of the call, the fitness of the immigrant and of the individual it met, and whether it was let
in. -/
theorem migration_log_history (notes : List (String × V)) (hn : (notes.map Prod.fst).Nodup)
    (hd : ∀ k ∈ notes.map Prod.fst, k ∉ migrationColumns) (fit : α → Option F) (c : MigConfig α) (steps : List (MigStep α))
    (qs : List (List α)) (rows : List (List (EvCell V F G))) :
    migrateLogged notes fit c steps qs (some rows) =
      some (rows ++ ((steps.zip (migrateRun c steps qs).1).flatMap fun sr =>
        sr.2.metrics.map fun m => migrationRow notes sr.1.generation (fit m.immigrant) (fit m.contestant) m.success)) := by
  induction steps generalizing qs rows with
  | nil => simp [migrateLogged, migrateRun]
  | cons s ss ih =>
    rw [migrateLogged, migrateRun]
    simp only [logMetrics_rows notes hn hd]
    cases ho : (migrateCall c s.draws s.generation s.cur s.pop qs).outcome with
    | error e => simp
    | ok u =>
      simp only [ih]
      simp

/-- C82: in every call that succeeds the log gets exactly one row per waiting immigrant, in the order of arrival, and `success`
is written exactly for those not worse than the individual they met. -/
theorem migration_log_call (notes : List (String × V)) (hn : (notes.map Prod.fst).Nodup)
    (hd : ∀ k ∈ notes.map Prod.fst, k ∉ migrationColumns) (fit : α → Option F) (c : MigConfig α) (s : MigStep α)
    (qs : List (List α)) (q : List α) (hq : qs[s.cur]? = some q)
    (hok : (migrateCall c s.draws s.generation s.cur s.pop qs).outcome = .ok ()) (rows : List (List (EvCell V F G))) :
    ∃ met : List α, met.length = q.length ∧
      migrateLogged notes fit c [s] qs (some rows) = some (rows ++ (List.zip q met).map fun xm =>
        migrationRow notes s.generation (fit (c.stamp xm.1 s.cur)) (fit xm.2) (!(c.lt (c.stamp xm.1 s.cur) xm.2))) := by
  obtain ⟨ps, -, -, -, h1, h2⟩ := migration_processes_each_once c s.draws s.generation s.cur s.pop qs q hq hok
  set ms := (migrateCall c s.draws s.generation s.cur s.pop qs).metrics with hms
  refine ⟨ms.map (·.contestant), ?_, ?_⟩
  · have := congrArg List.length h1
    simpa using this
  · have hrun : migrateLogged notes fit c [s] qs (some rows) = logMetrics notes fit s.generation ms (some rows) := by
      rw [migrateLogged]
      simp only [hok, migrateLogged, ← hms]
    rw [hrun, logMetrics_rows notes hn hd]
    congr 2
    clear_value ms
    clear hms hrun hok hq
    induction ms generalizing q with
    | nil =>
      simp only [List.map_nil] at h1
      simp
    | cons m ms ih =>
      cases q with
      | nil => simp at h1
      | cons x q =>
        simp only [List.map_cons, List.cons.injEq] at h1
        have hr := ih q h1.2 fun m' hm' => h2 m' (by simp [hm'])
        have hs := h2 m (by simp)
        rw [List.map_cons, List.map_cons, List.zip_cons_cons, List.map_cons, hr, hs, h1.1]

/-- Two islands; an immigrant of value 5 waits on island 0, meets 3, and replaces it. -/
example : migrateLogged (V := Unit) (G := Unit) [] (fun x : Int => some x)
    ⟨2, fun i => [1 - i], 1, fun x _ => x, fun a b => decide (a < b), id⟩
    [⟨4, 0, [3, 7], ⟨fun _ _ => .ok 0, fun _ => .ok 1, fun _ => 0⟩⟩] [[5], []] (some []) =
    some [[.int 4, .fitness (some 5), .fitness (some 3), .flag true]] := by decide

end

/-! ### Cooperative evaluation -/

section
variable {γ F W σ : Type}

/-- C82: combining a team concatenates the genomes in the order of the sub-populations; the result has no fitness. An empty
team is an `IndexError`. -/
theorem concat_combine_spec (team : List (CoInd γ F)) :
    (team ≠ [] → concatCombine team = .ok ⟨team.flatMap CoInd.genome, none⟩) ∧
    (team = [] → concatCombine team = .error .indexError) := by
  cases team with
  | nil => simp [concatCombine]
  | cons x xs => simp [concatCombine, List.flatMap]

example : concatCombine [(⟨[1, 2], some 5⟩ : CoInd Nat Int), ⟨[3], none⟩] = .ok ⟨[1, 2, 3], none⟩ := by decide

theorem collaboratorRows_eq (g : Int) (cur : Nat) (i : Nat) (team : List (CoInd γ F)) :
    collaboratorRows g cur i team = (team.zipIdx i).map (fun xi => [.int g, .int cur, .text "Collaborator", .int xi.2,
      .genome xi.1.genome, .fitness xi.1.fitness]) := by
  induction team generalizing i with
  | nil => rfl
  | cons x xs ih =>
    rw [collaboratorRows, ih, List.zipIdx_cons, List.map_cons]
    congr 1

/-- C82: the log of a trial, and the header. -/
theorem cooperative_log_trial (g : Int) (cur : Nat) (team : List (CoInd γ F)) (genome : List γ) (f : F)
    (rows : List (List (EvCell Unit F (List γ)))) :
    logTrial (some g) cur team ⟨genome, some f⟩ rows = .ok (rows ++ trialRows g cur team genome f) ∧
    logTrial none cur team ⟨genome, some f⟩ rows = .error .keyError ∧
    cooperativeLogStart (some rows) = some (rows ++ [[.text "generation", .text "subpopulation", .text "individual_type",
      .text "collaborator_subpopulation", .text "genome", .text "fitness"]]) ∧
    cooperativeLogStart (none : Option (List (List (EvCell Unit F (List γ))))) = none := by
  refine ⟨?_, rfl, rfl, rfl⟩
  rw [logTrial, collaboratorRows_eq, trialRows]
  simp [dictRow, cooperativeFields, dictGet]

/-- Choosing collaborators does not touch the log. -/
theorem choose_besideLog {L ι : Type} (next : Nat → Gen W σ ι) (current : ι) (cur i : Nat) (ss : List σ) (w : W) (l : L) :
    chooseCollaborators (besideLog next) current cur i ss (w, l) =
      (chooseCollaborators next current cur i ss w).map fun r => (r.1, r.2.1, r.2.2, l) := by
  induction ss generalizing i w with
  | nil => rfl
  | cons s ss ih =>
    rw [chooseCollaborators, chooseCollaborators]
    by_cases h : i ≠ cur
    · simp only [if_pos h, besideLog]
      cases next i s w with
      | error e => rfl
      | ok r =>
        obtain ⟨x, s', w'⟩ := r
        simp only
        have := ih (i + 1) w'
        rw [this]
        cases chooseCollaborators next current cur (i + 1) ss w' <;> rfl
    · simp only [if_neg h]
      rw [ih (i + 1) w]
      cases chooseCollaborators next current cur (i + 1) ss w <;> rfl

/-- The trials with a log are the trials without it, plus the rows. -/
theorem trials_logged (combine : List (CoInd γ ℚ) → PyM (CoInd γ ℚ)) (evaluate : List γ → W → PyM (ℚ × W))
    (next : Nat → Gen W σ (CoInd γ ℚ)) (g : Int) (current : CoInd γ ℚ) (cur : Nat) (k : Nat) (ss : List σ) (w : W)
    (rows : List (List (EvCell Unit ℚ (List γ)))) :
    cooperativeTrials (besideLog next) (loggedTeam combine evaluate (some g) cur) current cur k ss (w, some rows) =
      (cooperativeTrials (besideLog next) (loggedTeam combine evaluate none cur) current cur k ss (w, none)).map fun r =>
        (r.1, r.2.1, some (rows ++ r.1.flatMap fun t => match combine t.1 with
          | .ok c => trialRows g cur t.1 c.genome t.2
          | .error _ => [])) := by
  induction k generalizing ss w rows with
  | zero => simp [cooperativeTrials, Except.map]
  | succ k ih =>
    rw [cooperativeTrials, cooperativeTrials, choose_besideLog, choose_besideLog]
    cases chooseCollaborators next current cur 0 ss w with
    | error e => rfl
    | ok r =>
      obtain ⟨team, ss', w1⟩ := r
      simp only [Except.map]
      cases hc : combine team with
      | error e => simp [loggedTeam, hc]
      | ok c =>
        cases he : evaluate c.genome w1 with
        | error e => simp [loggedTeam, hc, he]
        | ok fw =>
          obtain ⟨f, w2⟩ := fw
          have h1 := (cooperative_log_trial g cur team c.genome f rows).1
          simp only [loggedTeam, hc, he, h1]
          have h2 := ih ss' w2 (rows ++ trialRows g cur team c.genome f)
          rw [h2]
          cases cooperativeTrials (besideLog next) (loggedTeam combine evaluate none cur) current cur k ss' (w2, none) with
          | error e => rfl
          | ok r =>
            obtain ⟨ts, w3, l⟩ := r
            simp only [Except.map, List.flatMap_cons, hc, List.append_assoc]

/-- C82: logging cooperative evaluation changes nothing but the log: the same fitness is assigned, the same teams are chosen, the
same exceptions are raised as without a log. The log grows, trial by trial, by one row for each member of the team and one for
the combined individual with its fitness. -/
theorem cooperative_log_transparent (combine : List (CoInd γ ℚ) → PyM (CoInd γ ℚ)) (evaluate : List γ → W → PyM (ℚ × W))
    (init : Nat → σ) (next : Nat → Gen W σ (CoInd γ ℚ)) (g : Int) (gen' : Option Int) (numTrials n : Nat)
    (current : CoInd γ ℚ) (cur : Nat) (w : W) (rows : List (List (EvCell Unit ℚ (List γ)))) :
    cooperativeLogged combine evaluate init next (some g) numTrials n current cur w (some rows) =
      (cooperativeLogged combine evaluate init next gen' numTrials n current cur w none).map fun r =>
        (r.1, r.2.1, r.2.2.1, some (rows ++ r.2.1.flatMap fun t => match combine t.1 with
          | .ok c => trialRows g cur t.1 c.genome t.2
          | .error _ => [])) := by
  have hnone : ∀ k ss w, cooperativeTrials (besideLog next) (loggedTeam combine evaluate gen' cur) current cur k ss (w, none) =
      cooperativeTrials (besideLog next) (loggedTeam combine evaluate none cur) current cur k ss (w, none) := by
    intro k
    induction k with
    | zero => intro ss w; rfl
    | succ k ih =>
      intro ss w
      rw [cooperativeTrials, cooperativeTrials, choose_besideLog]
      cases chooseCollaborators next current cur 0 ss w with
      | error e => rfl
      | ok r =>
        obtain ⟨team, ss', w1⟩ := r
        simp only [Except.map]
        cases hc : combine team with
        | error e => simp [loggedTeam, hc]
        | ok c =>
          cases he : evaluate c.genome w1 with
          | error e => simp [loggedTeam, hc, he]
          | ok fw => simp only [loggedTeam, hc, he, ih]
  unfold cooperativeLogged cooperativeEvaluate
  rw [trials_logged, hnone]
  cases cooperativeTrials (besideLog next) (loggedTeam combine evaluate none cur) current cur numTrials
      ((List.range n).map init) (w, none) with
  | error e => rfl
  | ok r =>
    obtain ⟨ts, w', l⟩ := r
    simp only [Except.map]
    by_cases h : ts = [] <;> simp [h]

/-- C82: without a log this is the cooperative evaluation of C40: the mean over the given number of trials, with teams of one
member per sub-population. -/
theorem cooperative_unlogged (combine : List (CoInd γ ℚ) → PyM (CoInd γ ℚ)) (evaluate : List γ → W → PyM (ℚ × W))
    (init : Nat → σ) (next : Nat → Gen W σ (CoInd γ ℚ)) (gen : Option Int) (numTrials n : Nat)
    (current : CoInd γ ℚ) (cur : Nat) (w w' : W) (f : ℚ) (ts : List (List (CoInd γ ℚ) × ℚ))
    (l : Option (List (List (EvCell Unit ℚ (List γ)))))
    (h : cooperativeLogged combine evaluate init next gen numTrials n current cur w none = .ok (f, ts, w', l)) :
    ts.length = numTrials ∧ f = (ts.map Prod.snd).sum / numTrials ∧
    ∀ t ∈ ts, t.1.length = n ∧ (cur < n → t.1[cur]? = some current) ∧
      ∃ c w1 w2, combine t.1 = .ok c ∧ evaluate c.genome w1 = .ok (t.2, w2) := by
  obtain ⟨h1, h2, h3⟩ := cooperative_evaluate_spec init (besideLog next) (loggedTeam combine evaluate gen cur) numTrials n
    current cur (w, none) (w', l) f ts (fun _ _ => True) (fun _ _ => True) (fun _ _ => trivial) (fun _ _ _ _ _ _ _ _ => ⟨trivial, trivial⟩) h
  refine ⟨h1, h2, fun t ht => ?_⟩
  obtain ⟨⟨t1, t2, -⟩, w1, w2, e⟩ := h3 t ht
  refine ⟨t1, t2, ?_⟩
  unfold loggedTeam at e
  cases hc : combine t.1 with
  | error x => simp [hc] at e
  | ok c =>
    simp only [hc] at e
    cases he : evaluate c.genome w1.1 with
    | error x => simp [he] at e
    | ok fw =>
      obtain ⟨f', w3⟩ := fw
      simp only [he] at e
      refine ⟨c, w1.1, w3, rfl, ?_⟩
      rw [he]
      cases hl : w1.2 with
      | none => simp [hl] at e; rw [e.1]
      | some rows =>
        simp only [hl] at e
        cases hg : logTrial gen cur t.1 { c with fitness := some f' } rows with
        | error x => simp [hg] at e
        | ok r => simp [hg] at e; rw [e.1]

set_option synthInstance.maxSize 1000 in
set_option synthInstance.maxHeartbeats 100000 in
/-- Two sub-populations; the first is being evaluated, the second always sends `[3]`. -/
example : cooperativeLogged (W := Unit) (σ := Unit) concatCombine (fun g w => .ok ((g.length : ℚ), w)) (fun _ => ())
    (fun _ s w => .ok (⟨[3], some 7⟩, s, w)) (some 4) 1 2 (⟨[1, 2], none⟩ : CoInd Nat ℚ) 0 () (some []) =
    .ok (3, [([⟨[1, 2], none⟩, ⟨[3], some 7⟩], 3)], (), some
      [[.int 4, .int 0, .text "Collaborator", .int 0, .genome [1, 2], .fitness none],
       [.int 4, .int 0, .text "Collaborator", .int 1, .genome [3], .fitness (some 7)],
       [.int 4, .int 0, .text "Combined Individual", .blank, .genome [1, 2, 3], .fitness (some 3)]]) := by decide +kernel

end

end Leap
