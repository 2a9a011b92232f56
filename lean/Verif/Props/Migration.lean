import Mathlib.Data.List.Basic
import Mathlib.Tactic.Linarith
import Verif.Model.Migration
import Verif.Lemmas.Order

/-! # Island migration (C37) -/

namespace Leap
open Spec

variable {α : Type}

/-- `b` is at least as good as `a`. -/
def Spec.AtLeast (lt : α → α → Bool) (b a : α) : Prop := lt b a = false

theorem immigrate_length (c : MigConfig α) (d : MigDraws α) (cur : Nat) (q : List α) (k : Nat) (pop : List α) :
    (immigrate c d cur q k pop).2.1.length = pop.length := by
  induction q generalizing k pop with
  | nil => rfl
  | cons x xs ih =>
    simp only [immigrate]
    split
    · rfl
    · split
      · rfl
      · simp only [ih]; split <;> simp

theorem emigrate_pop (c : MigConfig α) (d : MigDraws α) (g : Int) (cur : Nat) (pop : List α)
    (qs : List (List α)) (ms : List (MetricCall α)) :
    (emigrate c d g cur pop qs ms).pop = pop ∧ (emigrate c d g cur pop qs ms).metrics = ms := by
  unfold emigrate
  repeat' split
  all_goals exact ⟨rfl, rfl⟩

/-- C37: a call never changes the size of the island, whatever happens. -/
theorem migration_keeps_size (c : MigConfig α) (d : MigDraws α) (g : Int) (cur : Nat) (pop : List α)
    (qs : List (List α)) : (migrateCall c d g cur pop qs).pop.length = pop.length := by
  unfold migrateCall
  split
  · rfl
  · rename_i q _
    have := immigrate_length c d cur q 0 pop
    split
    · rename_i h; rw [h] at this; exact this
    · rename_i h; rw [h] at this; rw [(emigrate_pop ..).1]; exact this

theorem immigrate_spec (c : MigConfig α) (hlt : StrictWeak c.lt) (d : MigDraws α) (cur : Nat) (q : List α) (k : Nat)
    (pop : List α) :
    (∀ (i : Nat) (x : α), pop[i]? = some x → ∃ y, (immigrate c d cur q k pop).2.1[i]? = some y ∧
      AtLeast c.lt y x ∧ (y = x ∨ ∃ m ∈ q, y = c.stamp m cur)) := by
  induction q generalizing k pop with
  | nil => intro i x h; exact ⟨x, h, StrictWeak.irrefl hlt x, Or.inl rfl⟩
  | cons m ms ih =>
    intro i x h
    simp only [immigrate]
    split
    · exact ⟨x, h, StrictWeak.irrefl hlt x, Or.inl rfl⟩
    · rename_i j _
      split
      · exact ⟨x, h, StrictWeak.irrefl hlt x, Or.inl rfl⟩
      · rename_i con hcon
        simp only
        obtain ⟨z, hz, hzx, hzo⟩ : ∃ z, (if (!c.lt (c.stamp m cur) con) = true then pop.set j (c.stamp m cur) else pop)[i]? = some z ∧
            AtLeast c.lt z x ∧ (z = x ∨ z = c.stamp m cur) := by
          split
          · rename_i hs
            by_cases hij : j = i
            · subst hij
              rw [hcon, Option.some.injEq] at h
              subst h
              have hjl : j < pop.length := by
                by_contra hc; rw [List.getElem?_eq_none (by omega)] at hcon; simp at hcon
              exact ⟨c.stamp m cur, by simp [hjl], by simpa [AtLeast] using hs, Or.inr rfl⟩
            · exact ⟨x, by rw [List.getElem?_set_ne hij]; exact h, StrictWeak.irrefl hlt x, Or.inl rfl⟩
          · exact ⟨x, h, StrictWeak.irrefl hlt x, Or.inl rfl⟩
        obtain ⟨y, hy, hyz, hyo⟩ := ih (k + 1) _ i z hz
        refine ⟨y, hy, hlt.negTrans _ _ _ hyz hzx, ?_⟩
        rcases hyo with rfl | ⟨m', hm', rfl⟩
        · rcases hzo with rfl | rfl
          · exact Or.inl rfl
          · exact Or.inr ⟨m, by simp, rfl⟩
        · exact Or.inr ⟨m', by simp [hm'], rfl⟩

/-- C37: at every position of the island there is afterwards either the individual that was there or an arrived
immigrant that is at least as good; so no individual is replaced by a worse one and the best gets no
worse. This also holds when the call raises. -/
theorem migration_never_worsens (c : MigConfig α) (hlt : StrictWeak c.lt) (d : MigDraws α) (g : Int) (cur : Nat)
    (pop : List α) (qs : List (List α)) (i : Nat) (x : α) (hx : pop[i]? = some x) :
    ∃ y, (migrateCall c d g cur pop qs).pop[i]? = some y ∧ AtLeast c.lt y x ∧
      (y = x ∨ ∃ q m, qs[cur]? = some q ∧ m ∈ q ∧ y = c.stamp m cur) := by
  unfold migrateCall
  split
  · exact ⟨x, hx, StrictWeak.irrefl hlt x, Or.inl rfl⟩
  · rename_i q hq
    obtain ⟨y, h1, h2, h3⟩ := immigrate_spec c hlt d cur q 0 pop i x hx
    have h4 : y = x ∨ ∃ q' m, qs[cur]? = some q' ∧ m ∈ q' ∧ y = c.stamp m cur := by
      rcases h3 with h | ⟨m, hm, rfl⟩
      · exact Or.inl h
      · exact Or.inr ⟨q, m, hq, hm, rfl⟩
    split
    · rename_i h; rw [h] at h1; exact ⟨y, h1, h2, h4⟩
    · rename_i h; rw [h] at h1; exact ⟨y, by rw [(emigrate_pop ..).1]; exact h1, h2, h4⟩

theorem immigrate_metrics (c : MigConfig α) (d : MigDraws α) (cur : Nat) (q : List α) (k : Nat) (pop : List α)
    (h : (immigrate c d cur q k pop).1 = .ok ()) :
    (immigrate c d cur q k pop).2.2.map (·.immigrant) = q.map (c.stamp · cur) ∧
    (∀ m ∈ (immigrate c d cur q k pop).2.2, m.success = !(c.lt m.immigrant m.contestant)) := by
  induction q generalizing k pop with
  | nil => simp [immigrate]
  | cons x xs ih =>
    simp only [immigrate] at h ⊢
    split
    · rename_i e he; simp [he] at h
    · rename_i j hj
      simp only [hj] at h
      split
      · rename_i hn; simp [hn] at h
      · rename_i con hcon
        simp only [hcon] at h
        obtain ⟨h1, h2⟩ := ih _ _ h
        refine ⟨by simp only [List.map_cons, h1], ?_⟩
        intro m hm
        simp only [List.mem_cons] at hm
        rcases hm with rfl | hm
        · rfl
        · exact h2 m hm

/-- What one arrival does to the island: the contestant at the selected position is replaced exactly when the
immigrant is not worse. -/
def Spec.arrive (lt : α → α → Bool) (pop : List α) (i : Nat) (imm : α) : List α :=
  match pop[i]? with
  | some x => if lt imm x then pop else pop.set i imm
  | none => pop

/-- The island after a sequence of arrivals with their selected positions. -/
def Spec.arriveAll (lt : α → α → Bool) (pop : List α) (arrivals : List (Nat × α)) : List α :=
  arrivals.foldl (fun p a => arrive lt p a.1 a.2) pop

theorem immigrate_exact (c : MigConfig α) (d : MigDraws α) (cur : Nat) (q : List α) (k : Nat) (pop : List α)
    (h : (immigrate c d cur q k pop).1 = .ok ()) :
    ∃ positions : List Nat, positions.length = q.length ∧ (∀ i ∈ positions, i < pop.length) ∧
      (immigrate c d cur q k pop).2.1 = arriveAll c.lt pop (positions.zip (q.map (c.stamp · cur))) := by
  induction q generalizing k pop with
  | nil => exact ⟨[], rfl, by simp, rfl⟩
  | cons x xs ih =>
    simp only [immigrate] at h ⊢
    split
    · rename_i e he; simp [he] at h
    · rename_i j hj
      simp only [hj] at h
      split
      · rename_i hn; simp [hn] at h
      · rename_i con hcon
        simp only [hcon] at h
        obtain ⟨ps, h1, h2, h3⟩ := ih _ _ h
        have hjl : j < pop.length := by
          by_contra hc; rw [List.getElem?_eq_none (by omega)] at hcon; simp at hcon
        refine ⟨j :: ps, by simp [h1], ?_, ?_⟩
        · intro i hi
          simp only [List.mem_cons] at hi
          rcases hi with rfl | hi
          · exact hjl
          · have := h2 i hi
            split at this <;> simpa using this
        · simp only [h3, arriveAll, List.map_cons, List.zip_cons_cons, List.foldl_cons, arrive, hcon]
          congr 1
          cases hc : c.lt (c.stamp x cur) con <;> simp

/-- C37: a call that succeeds processes every waiting immigrant exactly once, in order of arrival: each is stamped,
meets the individual at one position and replaces it exactly when it is not worse; the metric is
told about each of them. -/
theorem migration_processes_each_once (c : MigConfig α) (d : MigDraws α) (g : Int) (cur : Nat) (pop : List α)
    (qs : List (List α)) (q : List α) (hq : qs[cur]? = some q)
    (h : (migrateCall c d g cur pop qs).outcome = .ok ()) :
    ∃ positions : List Nat, positions.length = q.length ∧ (∀ i ∈ positions, i < pop.length) ∧
      (migrateCall c d g cur pop qs).pop = arriveAll c.lt pop (positions.zip (q.map (c.stamp · cur))) ∧
      (migrateCall c d g cur pop qs).metrics.map (·.immigrant) = q.map (c.stamp · cur) ∧
      ∀ m ∈ (migrateCall c d g cur pop qs).metrics, m.success = !(c.lt m.immigrant m.contestant) := by
  unfold migrateCall at h ⊢
  simp only [hq] at h ⊢
  rcases hi : immigrate c d cur q 0 pop with ⟨r, p, ms⟩
  rw [hi] at h
  cases r with
  | error e => simp at h
  | ok u =>
    have hok : (immigrate c d cur q 0 pop).1 = .ok () := by rw [hi]
    obtain ⟨ps, h1, h2, h3⟩ := immigrate_exact c d cur q 0 pop hok
    obtain ⟨h4, h5⟩ := immigrate_metrics c d cur q 0 pop hok
    rw [hi] at h3 h4 h5
    simp only at h3 h4 h5 ⊢
    rw [(emigrate_pop ..).1, (emigrate_pop ..).2]
    exact ⟨ps, h1, h2, h3, h4, h5⟩

/-- C37: what a successful call does to the queues. The island's own queue is emptied. In a generation that is a
multiple of the gap exactly one emigrant, a copy of a member of the island, is appended to the queue of a
neighbour; in any other generation none is sent. All other queues are unchanged. -/
theorem migration_sends (c : MigConfig α) (d : MigDraws α) (g : Int) (cur : Nat) (pop : List α)
    (qs : List (List α)) (h : (migrateCall c d g cur pop qs).outcome = .ok ()) :
    cur < qs.length ∧ c.gap ≠ 0 ∧
    (c.gap ∣ g → ∃ dest s q, dest ∈ c.neighbors cur ∧ s ∈ (migrateCall c d g cur pop qs).pop ∧
      (migrateCall c d g cur pop qs).sent = some (dest, c.copy s) ∧
      (qs.set cur [])[dest]? = some q ∧
      (migrateCall c d g cur pop qs).queues = (qs.set cur []).set dest (q ++ [c.copy s])) ∧
    (¬ c.gap ∣ g → (migrateCall c d g cur pop qs).sent = none ∧
      (migrateCall c d g cur pop qs).queues = qs.set cur []) := by
  unfold migrateCall at h ⊢
  cases hq : qs[cur]? with
  | none => rw [hq] at h; simp at h
  | some q =>
    have hcur : cur < qs.length := by
      by_contra hc; rw [List.getElem?_eq_none (by omega)] at hq; simp at hq
    simp only [hq] at h ⊢
    rcases hi : immigrate c d cur q 0 pop with ⟨r, p, ms⟩
    rw [hi] at h
    cases r with
    | error e => simp at h
    | ok u =>
      simp only at h ⊢
      unfold emigrate at h ⊢
      by_cases hg : c.gap = 0
      · simp [hg] at h
      · simp only [hg, if_false] at h ⊢
        refine ⟨hcur, by simpa using hg, ?_, ?_⟩
        · intro hd
          have hm : g % c.gap = 0 := Int.emod_eq_zero_of_dvd hd
          simp only [hm, if_true] at h ⊢
          cases hs : d.sponsor p with
          | error e => simp [hs] at h
          | ok i =>
            simp only [hs] at h ⊢
            cases hp : p[i]? with
            | none => simp [hp] at h
            | some s =>
              simp only [hp] at h ⊢
              cases hn : (c.neighbors cur)[d.dest (c.neighbors cur).length]? with
              | none => simp [hn] at h
              | some dest =>
                simp only [hn] at h ⊢
                cases hqd : (qs.set cur [])[dest]? with
                | none => simp [hqd] at h
                | some qd =>
                  exact ⟨dest, s, qd, List.mem_of_getElem? hn, List.mem_of_getElem? hp, rfl, hqd, rfl⟩
        · intro hd
          have hm : ¬ g % c.gap = 0 := fun hm => hd (Int.dvd_of_emod_eq_zero hm)
          simp [hm]

/-- Everything sent to island `j` in a list of results, in order. -/
def Spec.sentTo (j : Nat) (rs : List (MigResult α)) : List α :=
  rs.filterMap fun r => match r.sent with
    | some (dest, x) => if dest = j then some x else none
    | none => none

/-- Everything that arrived at island `j` (as reported by the metric), in order. -/
def Spec.arrivedAt (j : Nat) (steps : List (MigStep α)) (rs : List (MigResult α)) : List α :=
  (List.zipWith (fun s r => if s.cur = j then r.metrics.map (·.immigrant) else []) steps rs).flatten

theorem migrateRun_balance (c : MigConfig α) (steps : List (MigStep α)) (qs : List (List α)) (j : Nat) (q : List α)
    (hq : qs[j]? = some q) (hok : ∀ r ∈ (migrateRun c steps qs).1, r.outcome = .ok ()) :
    (migrateRun c steps qs).1.length = steps.length ∧
    ∃ q', (migrateRun c steps qs).2[j]? = some q' ∧
      (q ++ sentTo j (migrateRun c steps qs).1).map (c.stamp · j) =
        arrivedAt j steps (migrateRun c steps qs).1 ++ q'.map (c.stamp · j) := by
  induction steps generalizing qs q with
  | nil => exact ⟨rfl, q, hq, by simp [migrateRun, sentTo, arrivedAt]⟩
  | cons s ss ih =>
    have hr : (migrateCall c s.draws s.generation s.cur s.pop qs).outcome = .ok () := by
      apply hok; simp only [migrateRun]; split <;> simp
    simp only [migrateRun, hr] at hok ⊢
    set r := migrateCall c s.draws s.generation s.cur s.pop qs with hrdef
    obtain ⟨hcur, hgap, hs1, hs2⟩ := migration_sends c s.draws s.generation s.cur s.pop qs hr
    rw [← hrdef] at hs1 hs2
    have hjl : j < qs.length := by
      by_contra hc; rw [List.getElem?_eq_none (by omega)] at hq; simp at hq
    -- the island's queue after this call
    obtain ⟨q1, hq1, hbal⟩ : ∃ q1, r.queues[j]? = some q1 ∧
        q ++ sentTo j [r] = (if s.cur = j then q else []) ++ q1 := by
      have hbase : (qs.set s.cur [])[j]? = some (if s.cur = j then [] else q) := by
        by_cases hc : s.cur = j
        · simp [hc, hjl]
        · simp [List.getElem?_set_ne hc, hq, hc]
      by_cases hd : c.gap ∣ s.generation
      · obtain ⟨dest, x, qd, -, -, h3, h4, h5⟩ := hs1 hd
        rw [h5]
        by_cases hdj : dest = j
        · subst hdj
          rw [hbase, Option.some.injEq] at h4
          refine ⟨qd ++ [c.copy x], by simp [hjl], ?_⟩
          subst h4
          by_cases hc : s.cur = dest <;> simp [sentTo, h3, hc]
        · refine ⟨if s.cur = j then [] else q, by rw [List.getElem?_set_ne hdj, hbase], ?_⟩
          by_cases hc : s.cur = j <;> simp [sentTo, h3, hdj, hc]
      · obtain ⟨h3, h4⟩ := hs2 hd
        rw [h4]
        refine ⟨_, hbase, ?_⟩
        by_cases hc : s.cur = j <;> simp [sentTo, h3, hc]
    obtain ⟨hlen, q', hq', hrest⟩ := ih r.queues q1 hq1 (fun r' hr' => hok r' (by simp [hr']))
    refine ⟨by simp [hlen], q', hq', ?_⟩
    have hsent : sentTo j (r :: (migrateRun c ss r.queues).1) = sentTo j [r] ++ sentTo j (migrateRun c ss r.queues).1 := by
      simp only [sentTo, ← List.filterMap_append]; rfl
    have harr : arrivedAt j (s :: ss) (r :: (migrateRun c ss r.queues).1) =
        (if s.cur = j then q else []).map (c.stamp · j) ++ arrivedAt j ss (migrateRun c ss r.queues).1 := by
      simp only [arrivedAt, List.zipWith_cons_cons, List.flatten_cons]
      congr 1
      by_cases hc : s.cur = j
      · obtain ⟨_, _, _, _, hm, _⟩ := migration_processes_each_once c s.draws s.generation s.cur s.pop qs q (by rw [hc]; exact hq) hr
        rw [hrdef, if_pos hc, if_pos hc, hm, hc]
      · simp [hc]
    rw [hsent, harr, ← List.append_assoc, hbal, List.append_assoc, List.map_append, hrest]
    simp

/-- C37: nobody is lost or duplicated in transit. Over any history of calls of the operator (any schedule of
islands, populations and choices), the emigrants sent to island `j` are, in the order sent, those that have been
processed on arrival at `j` followed by those still waiting. -/
theorem migration_no_loss (c : MigConfig α) (steps : List (MigStep α)) (j : Nat) (hj : j < c.numIslands)
    (hok : ∀ r ∈ (migrateRun c steps (migrateInit c)).1, r.outcome = .ok ()) :
    ∃ waiting, (migrateRun c steps (migrateInit c)).2[j]? = some waiting ∧
      (sentTo j (migrateRun c steps (migrateInit c)).1).map (c.stamp · j) =
        arrivedAt j steps (migrateRun c steps (migrateInit c)).1 ++ waiting.map (c.stamp · j) := by
  obtain ⟨-, q', h1, h2⟩ := migrateRun_balance c steps (migrateInit c) j [] (by simp [migrateInit, hj]) hok
  exact ⟨q', h1, by simpa using h2⟩

/-- C37: refusals. A zero gap raises `ZeroDivisionError`; an island without neighbours raises `IndexError` in a
generation that is a multiple of the gap; a current sub-population outside the topology raises `IndexError`. -/
theorem migration_errors (c : MigConfig α) (d : MigDraws α) (g : Int) (cur : Nat) (pop : List α)
    (qs : List (List α)) :
    (qs.length ≤ cur → (migrateCall c d g cur pop qs).outcome = .error .indexError) ∧
    (qs[cur]? = some [] → c.gap = 0 → (migrateCall c d g cur pop qs).outcome = .error .zeroDivisionError) ∧
    (qs[cur]? = some [] → c.gap ≠ 0 → c.gap ∣ g → c.neighbors cur = [] →
      (∃ i, d.sponsor pop = .ok i ∧ i < pop.length) →
      (migrateCall c d g cur pop qs).outcome = .error .indexError) := by
  refine ⟨?_, ?_, ?_⟩
  · intro h; simp [migrateCall, List.getElem?_eq_none h]
  · intro h hg; simp [migrateCall, h, immigrate, emigrate, hg]
  · rintro h hg hd hn ⟨i, hi, hl⟩
    simp [migrateCall, h, immigrate, emigrate, hg, Int.emod_eq_zero_of_dvd hd, hi, hn, hl]

/-- A small two-island configuration. -/
def exMig : MigConfig Nat :=
  ⟨2, fun i => if i = 0 then [1] else [0], 2, fun x _ => x, fun a b => decide (a < b), id⟩

/-- Always position 0. -/
def exMigDraws : MigDraws Nat := ⟨fun _ _ => .ok 0, fun _ => .ok 1, fun _ => 0⟩

example : StrictWeak exMig.lt := by
  constructor
  · intro a b h; simp [exMig] at h ⊢; omega
  · intro a b c h1 h2; simp [exMig] at h1 h2 ⊢; omega

/-- In generation 0 island 0 sends 7 to island 1, where it replaces 3; island 1 sends 5 to island 0, where it
replaces 4 in generation 1. -/
example : (migrateRun exMig [⟨0, 0, [4, 7], exMigDraws⟩, ⟨0, 1, [3, 5], exMigDraws⟩, ⟨1, 0, [4, 7], exMigDraws⟩]
      (migrateInit exMig)).1.map (fun r => (r.outcome, r.pop, r.sent)) =
    [(.ok (), [4, 7], some (1, 7)), (.ok (), [7, 5], some (0, 5)), (.ok (), [5, 7], none)] := by
  decide +kernel

end Leap
