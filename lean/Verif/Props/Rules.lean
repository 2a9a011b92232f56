import Mathlib.Algebra.Order.Ring.Rat
import Mathlib.Algebra.Order.BigOperators.Group.List
import Mathlib.Tactic.Linarith
import Verif.Model.Rules
import Verif.Lemmas.Order
import Verif.Props.RankOrdinal

/-!
# Pitt-approach rule systems (C51)
-/

namespace Leap

namespace Spec

/-- A condition `(low, high)` holds of `x`: the interval contains it, or the condition is a wildcard (`low > high`). -/
def CondHolds (c : ℚ × ℚ) (x : ℚ) : Prop := c.2 < c.1 ∨ (c.1 ≤ x ∧ x ≤ c.2)

/-- All conditions of the rule hold of the input. -/
def ExactMatch (rule : PittRule) (input : List ℚ) : Prop :=
  ∀ (i : Nat) (c : ℚ × ℚ) (x : ℚ), rule.conditions[i]? = some c → input[i]? = some x → CondHolds c x

/-- How far `x` is from satisfying the condition. -/
def ruleGap (c : ℚ × ℚ) (x : ℚ) : ℚ :=
  if c.2 < c.1 then 0 else if x < c.1 then c.1 - x else if c.2 < x then x - c.2 else 0

/-- The squared Euclidean distance of the input from the box of the rule. -/
def ruleDistance (rule : PittRule) (input : List ℚ) : ℚ :=
  ((List.zip rule.conditions input).map fun p => ruleGap p.1 p.2 ^ 2).sum

/-- `n` is `q` rounded to the nearest whole number, ties to even. -/
def IsRounded (q : ℚ) (n : Int) : Prop := |q - n| ≤ 1 / 2 ∧ (|q - n| = 1 / 2 → n % 2 = 0)

/-- `o` is the answer of rule number `r`: its rounded actions, without the list if there is just one. -/
def Answers (rules : List PittRule) (r : Nat) (o : PittOutput) : Prop :=
  ∃ rule, rules[r]? = some rule ∧
    match o with
    | .one a => ∃ q, rule.actions = [q] ∧ IsRounded q a
    | .many as => 2 ≤ as.length ∧ List.Forall₂ IsRounded rule.actions as

/-- A rule system with `numOutputs` outputs can be run on inputs of this size. -/
def Runnable (numOutputs : Nat) (rules : List PittRule) (input : List ℚ) : Prop :=
  ∀ rule ∈ rules, input.length ≤ rule.conditions.length ∧ rule.actions.length = numOutputs

/-- `np.random.choice` returns a member. -/
def Chooses (choose : List Nat → Nat) : Prop := ∀ l, l ≠ [] → choose l ∈ l

end Spec

open Spec

theorem matchDiff_eq (c : ℚ × ℚ) (x : ℚ) : matchDiff c x = ruleGap c x := by
  unfold matchDiff ruleGap
  by_cases h : c.2 < c.1
  · simp [h]
  · rw [if_neg h, if_neg h]
    by_cases h1 : x < c.1
    · rw [if_neg (by intro hh; linarith [hh.1]), if_pos h1]
      rw [abs_of_pos (by linarith), abs_of_pos (by linarith [not_lt.mp h])]
      exact min_eq_left (by linarith [not_lt.mp h])
    · by_cases h2 : c.2 < x
      · rw [if_neg (by intro hh; linarith [hh.2]), if_neg h1, if_pos h2]
        rw [abs_of_nonpos (by linarith [not_lt.mp h]), abs_of_nonpos (by linarith)]
        rw [min_eq_right (by linarith [not_lt.mp h])]
        ring
      · rw [if_pos ⟨not_lt.mp h1, not_lt.mp h2⟩, if_neg h1, if_neg h2]

theorem ruleGap_nonneg (c : ℚ × ℚ) (x : ℚ) : 0 ≤ ruleGap c x := by
  unfold ruleGap
  split_ifs <;> linarith

theorem ruleGap_eq_zero_iff (c : ℚ × ℚ) (x : ℚ) : ruleGap c x = 0 ↔ CondHolds c x := by
  unfold ruleGap CondHolds
  by_cases h : c.2 < c.1
  · simp [h]
  · rw [if_neg h]
    by_cases h1 : x < c.1
    · rw [if_pos h1]
      constructor
      · intro h2; linarith
      · rintro (h2 | h2)
        · exact absurd h2 h
        · linarith [h2.1]
    · rw [if_neg h1]
      by_cases h2 : c.2 < x
      · rw [if_pos h2]
        constructor
        · intro h3; linarith
        · rintro (h3 | h3)
          · exact absurd h3 h
          · linarith [h3.2]
      · rw [if_neg h2]
        exact ⟨fun _ => Or.inr ⟨not_lt.mp h1, not_lt.mp h2⟩, fun _ => rfl⟩

theorem ruleDistance_nonneg (rule : PittRule) (input : List ℚ) : 0 ≤ ruleDistance rule input := by
  apply List.sum_nonneg
  intro y hy
  obtain ⟨p, -, rfl⟩ := List.mem_map.mp hy
  positivity

/-- C51: the distance is zero exactly for exactly matching rules. -/
theorem rule_distance_zero_iff (rule : PittRule) (input : List ℚ) :
    ruleDistance rule input = 0 ↔ ExactMatch rule input := by
  have gen : ∀ (cs : List (ℚ × ℚ)) (xs : List ℚ), ((List.zip cs xs).map fun p => ruleGap p.1 p.2 ^ 2).sum = 0 ↔
      ∀ (i : Nat) (c : ℚ × ℚ) (x : ℚ), cs[i]? = some c → xs[i]? = some x → CondHolds c x := by
    intro cs
    induction cs with
    | nil => intro xs; simp
    | cons c cs ih =>
      intro xs
      cases xs with
      | nil => simp
      | cons x xs =>
        rw [List.zip_cons_cons, List.map_cons, List.sum_cons]
        have h1 : 0 ≤ ((List.zip cs xs).map fun p => ruleGap p.1 p.2 ^ 2).sum := ruleDistance_nonneg ⟨cs, []⟩ xs
        have h2 : 0 ≤ ruleGap c x ^ 2 := by positivity
        rw [add_eq_zero_iff_of_nonneg h2 h1, ih xs, pow_eq_zero_iff (by norm_num), ruleGap_eq_zero_iff]
        constructor
        · rintro ⟨ha, hb⟩ i c' x' e1 e2
          cases i with
          | zero => simp at e1 e2; subst e1; subst e2; exact ha
          | succ i => simp at e1 e2; exact hb i c' x' e1 e2
        · intro h
          exact ⟨h 0 c x rfl rfl, fun i c' x' e1 e2 => h (i + 1) c' x' (by simpa using e1) (by simpa using e2)⟩
  exact gen rule.conditions input

theorem matchScoreFrom_eq (cs : List (ℚ × ℚ)) (xs : List ℚ) (acc : ℚ) (h : xs.length ≤ cs.length) :
    matchScoreFrom cs xs acc = .ok (acc + ((List.zip cs xs).map fun p => ruleGap p.1 p.2 ^ 2).sum) := by
  induction xs generalizing cs acc with
  | nil => simp [matchScoreFrom]
  | cons x xs ih =>
    cases cs with
    | nil => simp at h
    | cons c cs =>
      rw [matchScoreFrom, ih cs _ (by simpa using h), matchDiff_eq]
      simp only [List.zip_cons_cons, List.map_cons, List.sum_cons, Except.ok.injEq]
      ring

theorem matchScore_eq (xs : List ℚ) (rule : PittRule) (h : xs.length ≤ rule.conditions.length) :
    matchScore xs rule = .ok (ruleDistance rule xs) := by
  rw [matchScore, matchScoreFrom_eq _ _ _ h, zero_add]; rfl

theorem matchScoreFrom_short (cs : List (ℚ × ℚ)) (xs : List ℚ) (acc : ℚ) (h : cs.length < xs.length) :
    matchScoreFrom cs xs acc = .error .indexError := by
  induction xs generalizing cs acc with
  | nil => simp at h
  | cons x xs ih =>
    cases cs with
    | nil => rfl
    | cons c cs => rw [matchScoreFrom, ih cs _ (by simpa using h)]

/-- `ml` are the numbers of the rules at minimal distance among `pre`, `best` that distance. -/
structure MatchInv (xs : List ℚ) (pre : List PittRule) (ml : List Nat) (best : ℚ) : Prop where
  empty : ml = [] ↔ pre = []
  mem : ∀ i, i ∈ ml ↔ ∃ rule, pre[i]? = some rule ∧ ruleDistance rule xs = best
  least : ∀ rule ∈ pre, best ≤ ruleDistance rule xs

theorem matchSetFrom_spec (xs : List ℚ) (rules pre : List PittRule) (ml : List Nat) (best : ℚ)
    (hc : ∀ rule ∈ rules, xs.length ≤ rule.conditions.length) (hinv : MatchInv xs pre ml best) :
    ∃ ml' best', matchSetFrom xs rules pre.length ml best = .ok (ml', best') ∧ MatchInv xs (pre ++ rules) ml' best' := by
  induction rules generalizing pre ml best with
  | nil => exact ⟨ml, best, rfl, by simpa using hinv⟩
  | cons rule rules ih =>
    have hc' := fun r hr => hc r (List.mem_cons_of_mem _ hr)
    have hlen : pre.length + 1 = (pre ++ [rule]).length := by simp
    rw [matchSetFrom, matchScore_eq xs rule (hc rule (List.mem_cons_self ..))]
    simp only [hlen]
    have happ : pre ++ rule :: rules = (pre ++ [rule]) ++ rules := by simp
    rw [happ]
    have hget : ∀ i r, (pre ++ [rule])[i]? = some r ↔ pre[i]? = some r ∨ (i = pre.length ∧ r = rule) := by
      intro i r
      by_cases hi : i < pre.length
      · rw [List.getElem?_append_left hi]
        constructor
        · exact Or.inl
        · rintro (h | ⟨h, -⟩)
          · exact h
          · omega
      · rw [List.getElem?_append_right (by omega), List.getElem?_eq_none (l := pre) (by omega)]
        by_cases h0 : i = pre.length
        · subst h0; simp [eq_comm]
        · rw [List.getElem?_eq_none (by simp; omega)]; simp [h0]
    have hpre : ∀ {i : Nat} {r : PittRule}, pre[i]? = some r → r ∈ pre := fun h => List.mem_of_getElem? h
    by_cases h1 : ml = [] ∨ ruleDistance rule xs < best
    · rw [if_pos h1]
      have hlt : ∀ r ∈ pre, ruleDistance rule xs < ruleDistance r xs := by
        intro r hr
        rcases h1 with h1 | h1
        · rw [hinv.empty] at h1; subst h1; simp at hr
        · exact lt_of_lt_of_le h1 (hinv.least r hr)
      refine ih (pre ++ [rule]) [pre.length] _ hc' ⟨by simp, ?_, ?_⟩
      · intro i
        simp only [List.mem_singleton, hget]
        constructor
        · rintro rfl; exact ⟨rule, Or.inr ⟨rfl, rfl⟩, rfl⟩
        · rintro ⟨r, h | h, e⟩
          · exact absurd e (ne_of_gt (hlt r (hpre h)))
          · exact h.1
      · intro r hr
        rcases List.mem_append.mp hr with hr | hr
        · exact le_of_lt (hlt r hr)
        · rw [List.mem_singleton.mp hr]
    · rw [if_neg h1]
      rw [not_or] at h1
      by_cases h2 : ruleDistance rule xs = best
      · rw [if_pos h2]
        refine ih (pre ++ [rule]) (ml ++ [pre.length]) best hc' ⟨by simp, ?_, ?_⟩
        · intro i
          simp only [List.mem_append, List.mem_singleton, hget, hinv.mem]
          constructor
          · rintro (⟨r, h, e⟩ | rfl)
            · exact ⟨r, Or.inl h, e⟩
            · exact ⟨rule, Or.inr ⟨rfl, rfl⟩, h2⟩
          · rintro ⟨r, h | h, e⟩
            · exact Or.inl ⟨r, h, e⟩
            · exact Or.inr h.1
        · intro r hr
          rcases List.mem_append.mp hr with hr | hr
          · exact hinv.least r hr
          · rw [List.mem_singleton.mp hr, h2]
      · rw [if_neg h2]
        refine ih (pre ++ [rule]) ml best hc' ⟨by simp [h1.1], ?_, ?_⟩
        · intro i
          simp only [hget, hinv.mem]
          constructor
          · rintro ⟨r, h, e⟩; exact ⟨r, Or.inl h, e⟩
          · rintro ⟨r, h | h, e⟩
            · exact ⟨r, h, e⟩
            · rw [h.2] at e; exact absurd e h2
        · intro r hr
          rcases List.mem_append.mp hr with hr | hr
          · exact hinv.least r hr
          · rw [List.mem_singleton.mp hr]; exact not_lt.mp h1.2

theorem roundHalfEven_spec (q : ℚ) : IsRounded q (roundHalfEven q) := by
  have h1 := Int.floor_le q
  have h2 := Int.lt_floor_add_one q
  unfold roundHalfEven IsRounded
  by_cases ha : q - ⌊q⌋ < 1 / 2
  · rw [if_pos ha, abs_of_nonneg (by linarith)]
    exact ⟨le_of_lt ha, fun h => by linarith⟩
  · rw [if_neg ha]
    by_cases hb : q - ⌊q⌋ > 1 / 2
    · rw [if_pos hb]
      push_cast
      rw [abs_of_nonpos (by linarith)]
      exact ⟨by linarith, fun h => by linarith⟩
    · rw [if_neg hb]
      have he : q - ⌊q⌋ = 1 / 2 := le_antisymm (not_lt.mp hb) (not_lt.mp ha)
      by_cases hc : ⌊q⌋ % 2 = 0
      · rw [if_pos hc, he]
        exact ⟨by norm_num [abs_of_pos], fun _ => hc⟩
      · rw [if_neg hc]
        push_cast
        have : q - (⌊q⌋ + 1) = -(1 / 2) := by linarith
        rw [this]
        exact ⟨by norm_num [abs_of_pos], fun _ => by omega⟩

/-- The rounding is determined: two rounded values of the same number agree. -/
theorem rounded_unique (q : ℚ) (m n : Int) (hm : IsRounded q m) (hn : IsRounded q n) : m = n := by
  obtain ⟨h1, h2⟩ := hm
  obtain ⟨h3, h4⟩ := hn
  have a1 := abs_le.mp h1
  have a2 := abs_le.mp h3
  have b1 : (m : ℚ) - n ≤ 1 := by linarith
  have b2 : (n : ℚ) - m ≤ 1 := by linarith
  have c1 : m - n ≤ 1 := by exact_mod_cast b1
  have c2 : n - m ≤ 1 := by exact_mod_cast b2
  by_contra hne
  have heven : m % 2 = 0 ∧ n % 2 = 0 := by
    rcases lt_or_gt_of_ne hne with hlt | hlt
    · have hnm : n = m + 1 := by omega
      subst hnm
      push_cast at a2 b1 b2 h3 h4
      have e : q - m = 1 / 2 := by linarith
      refine ⟨h2 (by rw [e]; norm_num [abs_of_pos]), h4 ?_⟩
      have : q - (m + 1) = -(1 / 2) := by linarith
      rw [this]; norm_num [abs_of_pos]
    · have hnm : m = n + 1 := by omega
      subst hnm
      push_cast at a1 b1 b2 h1 h2
      have e : q - n = 1 / 2 := by linarith
      refine ⟨h2 ?_, h4 (by rw [e]; norm_num [abs_of_pos])⟩
      have : q - (n + 1) = -(1 / 2) := by linarith
      rw [this]; norm_num [abs_of_pos]
  omega

theorem answers_unique (rules : List PittRule) (r : Nat) (o o' : PittOutput) (n : Nat)
    (hn : ∀ rule ∈ rules, rule.actions.length = n) (h : Answers rules r o) (h' : Answers rules r o') : o = o' := by
  obtain ⟨rule, e, h⟩ := h
  obtain ⟨rule', e', h'⟩ := h'
  rw [e, Option.some.injEq] at e'
  subst e'
  have hf : ∀ (qs : List ℚ) (as bs : List Int), List.Forall₂ IsRounded qs as → List.Forall₂ IsRounded qs bs → as = bs := by
    intro qs as bs h1
    induction h1 generalizing bs with
    | nil => intro h2; cases h2; rfl
    | cons ha _ ih =>
      intro h2
      cases h2 with
      | cons hb ht => rw [rounded_unique _ _ _ ha hb, ih _ ht]
  cases o with
  | one a =>
    obtain ⟨q, hq, ha⟩ := h
    cases o' with
    | one b =>
      obtain ⟨q', hq', hb⟩ := h'
      rw [hq] at hq'
      cases hq'
      rw [rounded_unique _ _ _ ha hb]
    | many bs =>
      have := h'.2.length_eq
      rw [hq] at this
      have h2 := h'.1
      simp at this
      omega
  | many as =>
    cases o' with
    | one b =>
      obtain ⟨q', hq', hb⟩ := h'
      have := h.2.length_eq
      rw [hq'] at this
      have h2 := h.1
      simp at this
      omega
    | many bs => rw [hf _ _ _ h.2 h'.2]

theorem output_answers (e : PittExec) (hmem : e.memory = []) (hn : 0 < e.numOutputs) (r : Nat) (rule : PittRule)
    (hr : e.rules[r]? = some rule) (ha : rule.actions.length = e.numOutputs) :
    ∃ o, e.output r = .ok o ∧ Answers e.rules r o := by
  have hfire : e.fire r = .ok rule.actions := by
    simp only [PittExec.fire, hr, hmem, List.length_nil, gt_iff_lt, lt_irrefl, if_false, ha, if_true]
  have hround : List.Forall₂ IsRounded rule.actions (rule.actions.map roundHalfEven) := by
    rw [List.forall₂_map_right_iff]
    exact List.forall₂_same.mpr fun q _ => roundHalfEven_spec q
  unfold PittExec.output
  rw [hfire]
  simp only [List.length_map, ha, if_true]
  by_cases h1 : e.numOutputs > 1
  · rw [if_pos h1]
    exact ⟨_, rfl, rule, hr, by simp [ha]; omega, hround⟩
  · rw [if_neg h1]
    have h2 : rule.actions.length = 1 := by omega
    obtain ⟨q, hq⟩ := List.length_eq_one_iff.mp h2
    rw [hq]
    exact ⟨_, rfl, rule, hr, q, hq, roundHalfEven_spec q⟩

theorem pittExec_ok (numOutputs : Nat) (rules : List PittRule) (hne : rules ≠ []) (mem : List ℚ) :
    pittExec numOutputs rules .ruleOrder mem = .ok ⟨numOutputs, mem, rules, List.range rules.length⟩ := by
  have : pyMapM (rulePriority .ruleOrder) (List.range rules.length) = .ok (List.range rules.length) := by
    rw [pyMapM_ok (rulePriority .ruleOrder) (fun x => x) _ (fun x _ => rfl)]
    simp
  have hl : rules.length > 0 := List.length_pos_iff.mpr hne
  simp [pittExec, hl, this]

/-- C51: when some rule matches the input exactly, the answer is that of the lowest-numbered rule that does, whatever is
drawn. -/
theorem pitt_exact_match (numOutputs : Nat) (hn : 0 < numOutputs) (rules : List PittRule) (e : PittExec)
    (he : pittExec numOutputs rules .ruleOrder [] = .ok e) (input : List ℚ) (hrun : Runnable numOutputs rules input)
    (r : Nat) (rule : PittRule) (hr : rules[r]? = some rule) (hex : ExactMatch rule input)
    (hfirst : ∀ r' < r, ∀ rule', rules[r']? = some rule' → ¬ ExactMatch rule' input) :
    ∃ o, Answers rules r o ∧ ∀ choose, Chooses choose → e.call choose input = .ok o := by
  have hne : rules ≠ [] := by rintro rfl; simp at hr
  rw [pittExec_ok _ _ hne] at he
  cases he
  obtain ⟨ml, best, hms, hinv⟩ := matchSetFrom_spec input rules [] [] (-1) (fun rule h => (hrun rule h).1)
    ⟨by simp, by simp, by simp⟩
  rw [List.nil_append] at hinv
  have hrm : rule ∈ rules := List.mem_of_getElem? hr
  obtain ⟨o, ho, hans⟩ := output_answers ⟨numOutputs, [], rules, List.range rules.length⟩ rfl hn r rule hr (hrun rule hrm).2
  refine ⟨o, hans, ?_⟩
  intro choose hchoose
  have hbest : best = 0 := by
    have h1 := hinv.least rule hrm
    rw [(rule_distance_zero_iff rule input).mpr hex] at h1
    have hml : ml ≠ [] := by rw [Ne, hinv.empty]; exact hne
    obtain ⟨i, hi⟩ := List.exists_mem_of_ne_nil ml hml
    obtain ⟨r', -, e⟩ := (hinv.mem i).mp hi
    have := ruleDistance_nonneg r' input
    linarith
  subst hbest
  have hmem : ∀ i, i ∈ ml ↔ ∃ rule, rules[i]? = some rule ∧ ExactMatch rule input := by
    intro i
    rw [hinv.mem]
    simp only [rule_distance_zero_iff]
  have hrml : r ∈ ml := (hmem r).mpr ⟨rule, hr, hex⟩
  have hge : ∀ i ∈ ml, r ≤ i := by
    intro i hi
    by_contra hlt
    obtain ⟨rule', h1, h2⟩ := (hmem i).mp hi
    exact hfirst i (by omega) rule' h1 h2
  have hprio : ∀ i ∈ ml, PittExec.priority ⟨numOutputs, [], rules, List.range rules.length⟩ i = i := by
    intro i hi
    obtain ⟨rule', h1, -⟩ := (hmem i).mp hi
    have : i < rules.length := (List.getElem?_eq_some_iff.mp h1).1
    simp [PittExec.priority, List.getD_eq_getElem?_getD, List.getElem?_range this]
  have hcall : PittExec.matchSet ⟨numOutputs, [], rules, List.range rules.length⟩ input = .ok (ml, 0) := by
    rw [PittExec.matchSet, List.append_nil]; exact hms
  unfold PittExec.call
  rw [hcall]
  simp only [if_true]
  unfold PittExec.cull
  cases hml : ml with
  | nil => rw [hml] at hrml; simp at hrml
  | cons a l =>
    simp only [pyMin]
    set lt : Nat → Nat → Bool := fun x y => decide (PittExec.priority ⟨numOutputs, [], rules, List.range rules.length⟩ x <
      PittExec.priority ⟨numOutputs, [], rules, List.range rules.length⟩ y) with hlt
    have hsp : StrictPartial lt := by
      constructor
      · intro x; simp [hlt]
      · intro x y z h1 h2; simp only [hlt, decide_eq_true_eq] at *; omega
    have hmin := pyMinFrom_mem lt a l
    have hspec := pyMinFrom_spec hsp a l
    set m := pyMinFrom lt a l with hm
    rw [← hml] at hmin hspec
    have hmr : m = r := by
      have h1 := hge m hmin
      have h2 := hspec r hrml
      simp only [hlt, decide_eq_false_iff_not, hprio r hrml, hprio m hmin] at h2
      omega
    have hfil : ∀ i, i ∈ (a :: l).filter (fun i => decide (PittExec.priority ⟨numOutputs, [], rules, List.range rules.length⟩ i ≤
        PittExec.priority ⟨numOutputs, [], rules, List.range rules.length⟩ m)) ↔ i = r := by
      intro i
      rw [← hml, List.mem_filter, decide_eq_true_eq, hprio m hmin]
      constructor
      · rintro ⟨h1, h2⟩
        rw [hprio i h1] at h2
        have := hge i h1
        omega
      · rintro rfl
        exact ⟨hrml, by rw [hprio i hrml]; omega⟩
    cases hf : (a :: l).filter (fun i => decide (PittExec.priority ⟨numOutputs, [], rules, List.range rules.length⟩ i ≤
        PittExec.priority ⟨numOutputs, [], rules, List.range rules.length⟩ m)) with
    | nil =>
      have := (hfil r).mpr rfl
      rw [hf] at this
      simp at this
    | cons b bs =>
      simp only
      have hc := hchoose (b :: bs) (by simp)
      rw [← hf, hfil] at hc
      rw [← hf, hc, ho]

/-- C51: when no rule matches exactly, the answer is that of some rule at minimal distance; and each of these can be the
one chosen. -/
theorem pitt_nearest (numOutputs : Nat) (hn : 0 < numOutputs) (rules : List PittRule) (hne : rules ≠ []) (e : PittExec)
    (he : pittExec numOutputs rules .ruleOrder [] = .ok e) (input : List ℚ) (hrun : Runnable numOutputs rules input)
    (hno : ∀ rule ∈ rules, ¬ ExactMatch rule input) :
    (∀ choose, Chooses choose → ∃ r rule o, rules[r]? = some rule ∧
      (∀ rule' ∈ rules, ruleDistance rule input ≤ ruleDistance rule' input) ∧ Answers rules r o ∧
      e.call choose input = .ok o) ∧
    (∀ r rule, rules[r]? = some rule → (∀ rule' ∈ rules, ruleDistance rule input ≤ ruleDistance rule' input) →
      ∃ choose o, Chooses choose ∧ Answers rules r o ∧ e.call choose input = .ok o) := by
  rw [pittExec_ok _ _ hne] at he
  cases he
  obtain ⟨ml, best, hms, hinv⟩ := matchSetFrom_spec input rules [] [] (-1) (fun rule h => (hrun rule h).1)
    ⟨by simp, by simp, by simp⟩
  rw [List.nil_append] at hinv
  have hml : ml ≠ [] := by rw [Ne, hinv.empty]; exact hne
  have hbest : best ≠ 0 := by
    intro h0
    obtain ⟨i, hi⟩ := List.exists_mem_of_ne_nil ml hml
    obtain ⟨r', h1, e⟩ := (hinv.mem i).mp hi
    exact hno r' (List.mem_of_getElem? h1) ((rule_distance_zero_iff r' input).mp (by rw [e, h0]))
  have hcall : ∀ choose, PittExec.call ⟨numOutputs, [], rules, List.range rules.length⟩ choose input =
      PittExec.output ⟨numOutputs, [], rules, List.range rules.length⟩ (choose ml) := by
    intro choose
    have hms' : PittExec.matchSet ⟨numOutputs, [], rules, List.range rules.length⟩ input = .ok (ml, best) := by
      rw [PittExec.matchSet, List.append_nil]; exact hms
    unfold PittExec.call
    rw [hms']
    simp only [if_neg hbest]
  constructor
  · intro choose hc
    obtain ⟨rule, h1, h2⟩ := (hinv.mem _).mp (hc ml hml)
    obtain ⟨o, ho, ha⟩ := output_answers ⟨numOutputs, [], rules, List.range rules.length⟩ rfl hn (choose ml) rule h1
      (hrun rule (List.mem_of_getElem? h1)).2
    exact ⟨choose ml, rule, o, h1, fun r' hr' => by rw [h2]; exact hinv.least r' hr', ha, by rw [hcall, ho]⟩
  · intro r rule hr hleast
    have hrm : rule ∈ rules := List.mem_of_getElem? hr
    have hrml : r ∈ ml := by
      refine (hinv.mem r).mpr ⟨rule, hr, le_antisymm ?_ (hinv.least rule hrm)⟩
      obtain ⟨i, hi⟩ := List.exists_mem_of_ne_nil ml hml
      obtain ⟨r', h1, e⟩ := (hinv.mem i).mp hi
      rw [← e]
      exact hleast r' (List.mem_of_getElem? h1)
    obtain ⟨o, ho, ha⟩ := output_answers ⟨numOutputs, [], rules, List.range rules.length⟩ rfl hn r rule hr (hrun rule hrm).2
    refine ⟨fun l => if r ∈ l then r else l.headD 0, o, ?_, ha, ?_⟩
    · intro l hl
      by_cases h : r ∈ l
      · simp [h]
      · simp only [h, if_false]
        cases l with
        | nil => exact absurd rfl hl
        | cons x l => simp
    · rw [hcall, if_pos hrml, ho]

/-- C51: a wildcard condition costs nothing, whatever the input. -/
theorem pitt_wildcard (c : ℚ × ℚ) (h : c.1 > c.2) (x : ℚ) : CondHolds c x ∧ matchDiff c x = 0 :=
  ⟨Or.inl h, by simp [matchDiff, h]⟩

/-- C51, refusals: no rules or something that is not a metric (AssertionError), an unimplemented metric (ValueError). -/
theorem pitt_constructor_refusals (numOutputs : Nat) (rules : List PittRule) (metric : PriorityMetric) (mem : List ℚ) :
    (rules = [] → pittExec numOutputs rules metric mem = .error .assertionError) ∧
    (rules ≠ [] → metric = .other → pittExec numOutputs rules metric mem = .error .assertionError) ∧
    (rules ≠ [] → metric ≠ .other → metric ≠ .ruleOrder → pittExec numOutputs rules metric mem = .error .valueError) := by
  refine ⟨?_, ?_, ?_⟩
  · rintro rfl; rfl
  · rintro h rfl
    simp [pittExec, List.length_pos_iff.mpr h]
  · intro h h1 h2
    have hl : rules.length > 0 := List.length_pos_iff.mpr h
    have : pyMapM (rulePriority metric) (List.range rules.length) = .error .valueError := by
      obtain ⟨n, hn⟩ : ∃ n, rules.length = n + 1 := ⟨rules.length - 1, by omega⟩
      rw [hn, List.range_succ_eq_map, pyMapM]
      cases metric <;> first | contradiction | rfl
    simp [pittExec, hl, h1, this]

/-- C51, refusals when called: the first rule with too few conditions raises IndexError; memory registers raise ValueError;
a winner with the wrong number of actions raises AssertionError. -/
theorem pitt_call_refusals (e : PittExec) (choose : List Nat → Nat) (input : List ℚ) :
    (∀ pre rule post, e.rules = pre ++ rule :: post → (∀ r ∈ pre, (input ++ e.memory).length ≤ r.conditions.length) →
      rule.conditions.length < (input ++ e.memory).length → e.call choose input = .error .indexError) ∧
    (∀ r, r < e.rules.length → e.memory ≠ [] → e.output r = .error .valueError) ∧
    (∀ (r : Nat) rule, e.rules[r]? = some rule → e.memory = [] → rule.actions.length ≠ e.numOutputs →
      e.output r = .error .assertionError) := by
  refine ⟨?_, ?_, ?_⟩
  · intro pre rule post hr hpre hshort
    have gen : ∀ (pre : List PittRule) (r : Nat) (ml : List Nat) (best : ℚ),
        (∀ r ∈ pre, (input ++ e.memory).length ≤ r.conditions.length) →
        matchSetFrom (input ++ e.memory) (pre ++ rule :: post) r ml best = .error .indexError := by
      intro pre
      induction pre with
      | nil =>
        intro r ml best _
        rw [List.nil_append, matchSetFrom]
        simp only [matchScore]
        rw [matchScoreFrom_short _ _ _ hshort]
      | cons p pre ih =>
        intro r ml best h
        rw [List.cons_append, matchSetFrom, matchScore_eq _ _ (h p (List.mem_cons_self ..))]
        have h' := fun r hr => h r (List.mem_cons_of_mem _ hr)
        simp only
        split
        · exact ih _ _ _ h'
        · split
          · exact ih _ _ _ h'
          · exact ih _ _ _ h'
    unfold PittExec.call PittExec.matchSet
    rw [hr, gen pre 0 [] (-1) hpre]
  · intro r hr hm
    unfold PittExec.output PittExec.fire
    rw [List.getElem?_eq_getElem hr]
    simp only
    rw [if_pos (List.length_pos_iff.mpr hm)]
  · intro r rule hr hm ha
    unfold PittExec.output PittExec.fire
    rw [hr]
    simp only [hm, List.length_nil, gt_iff_lt, lt_irrefl, if_false, if_neg ha]

/-! ### Genomes -/

theorem pairUp_get (l : List ℚ) (j : Nat) (low high : ℚ) :
    (pairUp l)[j]? = some (low, high) ↔ l[2 * j]? = some low ∧ l[2 * j + 1]? = some high := by
  induction l using pairUp.induct generalizing j with
  | case1 a b rest ih =>
    cases j with
    | zero => simp [pairUp]
    | succ j =>
      have e1 : 2 * (j + 1) = 2 * j + 1 + 1 := by omega
      have e2 : 2 * (j + 1) + 1 = 2 * j + 1 + 1 + 1 := by omega
      rw [pairUp, List.getElem?_cons_succ, ih, e2, e1]
      simp only [List.getElem?_cons_succ]
  | case2 l h =>
    have hl : l.length ≤ 1 := by
      match l, h with
      | [], _ => simp
      | [a], _ => simp
      | a :: b :: rest, h => exact absurd rfl (h a b rest)
    have hp : pairUp l = [] := by
      match l, h with
      | [], _ => rfl
      | [a], _ => rfl
      | a :: b :: rest, h => exact absurd rfl (h a b rest)
    rw [hp]
    have : l[2 * j + 1]? = none := List.getElem?_eq_none (by omega)
    simp [this]

theorem splitRule_ok (d : PittDims) (hm : d.numMemory = 0) (hn : 0 < d.numOutputs) (segment : List ℚ)
    (hl : segment.length = d.numInputs * 2 + d.numOutputs) :
    splitRule d segment = .ok (segment.take (d.numInputs * 2), segment.drop (d.numInputs * 2), []) := by
  have hg : segment.length = d.genesPerRule := by rw [PittDims.genesPerRule, hm]; omega
  have he : segment.length - d.numOutputs = d.numInputs * 2 := by omega
  unfold splitRule
  rw [if_pos hg]
  simp only [hm, if_true, pyLast, if_neg (by omega : ¬ d.numOutputs = 0), he, List.length_take, List.length_drop,
    List.length_nil]
  rw [if_pos (by omega)]

/-- C51, decoding: rule `i` of the decoded system has for condition `j` the genes `2j` and `2j+1` of segment `i`, and for
actions the remaining genes; segments of any other length, and empty genomes, are refused. -/
theorem pitt_genome_to_rules (d : PittDims) (hm : d.numMemory = 0) (hn : 0 < d.numOutputs) (genome : List (List ℚ)) :
    ((genome ≠ [] ∧ ∀ s ∈ genome, s.length = d.numInputs * 2 + d.numOutputs) →
      ∃ rules, genomeToRules d genome = .ok rules ∧ rules.length = genome.length ∧
        ∀ (i : Nat) (s : List ℚ) (rule : PittRule), genome[i]? = some s → rules[i]? = some rule →
          rule.conditions.length = d.numInputs ∧
          (∀ (j : Nat) (low high : ℚ), j < d.numInputs →
            (rule.conditions[j]? = some (low, high) ↔ s[2 * j]? = some low ∧ s[2 * j + 1]? = some high)) ∧
          rule.actions.length = d.numOutputs ∧ ∀ k < d.numOutputs, rule.actions[k]? = s[d.numInputs * 2 + k]?) ∧
    (¬ (genome ≠ [] ∧ ∀ s ∈ genome, s.length = d.numInputs * 2 + d.numOutputs) →
      genomeToRules d genome = .error .assertionError) := by
  have hg : d.genesPerRule = d.numInputs * 2 + d.numOutputs := by rw [PittDims.genesPerRule, hm]; omega
  have hseg : ∀ s : List ℚ, s.length = d.numInputs * 2 + d.numOutputs →
      segmentToRule d s = .ok ⟨pairUp (s.take (d.numInputs * 2)), s.drop (d.numInputs * 2)⟩ := by
    intro s hs
    unfold segmentToRule
    rw [if_pos (by omega), splitRule_ok d hm hn s hs]
  have hpl : ∀ (n : Nat) (l : List ℚ), l.length = n * 2 → (pairUp l).length = n := by
    intro n
    induction n with
    | zero => intro l hl; cases l <;> simp_all [pairUp]
    | succ n ih =>
      intro l hl
      match l, hl with
      | [], hl => simp at hl
      | [a], hl => simp at hl; omega
      | a :: b :: rest, hl =>
        simp only [List.length_cons] at hl
        simp only [pairUp, List.length_cons, ih rest (by omega)]
  constructor
  · rintro ⟨hne, hall⟩
    refine ⟨_, by rw [genomeToRules, if_pos (List.length_pos_iff.mpr hne)]; exact pyMapM_ok _ _ _ fun s hs => hseg s (hall s hs),
      by simp, ?_⟩
    intro i s rule hi hr
    rw [List.getElem?_map, hi, Option.map_some, Option.some.injEq] at hr
    subst hr
    have hs := hall s (List.mem_of_getElem? hi)
    refine ⟨hpl _ _ (by simp; omega), ?_, by simp; omega, ?_⟩
    · intro j low high hj
      simp only
      rw [pairUp_get, List.getElem?_take_of_lt (by omega), List.getElem?_take_of_lt (by omega)]
    · intro k hk
      rw [List.getElem?_drop]
  · intro h
    unfold genomeToRules
    by_cases hne : genome = []
    · subst hne; rfl
    · rw [if_pos (List.length_pos_iff.mpr hne)]
      have hex : ∃ s ∈ genome, s.length ≠ d.numInputs * 2 + d.numOutputs := by
        by_contra hcon
        push Not at hcon
        exact h ⟨hne, hcon⟩
      obtain ⟨s, hs, hbad⟩ := hex
      have hbad' : segmentToRule d s = .error .assertionError := by
        unfold segmentToRule
        rw [if_neg (by omega)]
      clear h hne
      induction genome with
      | nil => simp at hs
      | cons t ts ih =>
        rcases List.mem_cons.mp hs with rfl | hs
        · simp only [pyMapM, hbad', bind, Except.bind]
        · by_cases ht : t.length = d.numInputs * 2 + d.numOutputs
          · simp only [pyMapM, hseg t ht, bind, Except.bind, ih hs]
          · have : segmentToRule d t = .error .assertionError := by
              unfold segmentToRule
              rw [if_neg (by omega)]
            simp only [pyMapM, this, bind, Except.bind]

/-- With memory registers no genome at all can be decoded: the segment length demanded does not agree with how segments are
split. -/
theorem pitt_memory_unusable (d : PittDims) (hm : 0 < d.numMemory) (metric : PriorityMetric) (genome : List (List ℚ)) :
    pittDecode d metric genome = .error .assertionError := by
  have hsplit : ∀ s : List ℚ, segmentToRule d s = .error .assertionError := by
    intro s
    unfold segmentToRule
    by_cases hs : s.length = d.genesPerRule
    · rw [if_pos hs]
      unfold splitRule
      have hs' := hs
      unfold PittDims.genesPerRule at hs'
      rw [if_pos hs]
      simp only [if_neg (by omega : ¬ d.numMemory = 0), pyLast, List.length_take, List.length_drop]
      rw [if_neg (by omega)]
    · rw [if_neg hs]
  have : genomeToRules d genome = .error .assertionError := by
    unfold genomeToRules
    cases genome with
    | nil => rfl
    | cons s ss => simp [pyMapM, hsplit, bind, Except.bind]
  rw [pittDecode, this]

/-- Decoding, then running: the metric defaults to rule order. -/
theorem pitt_decode (d : PittDims) (genome : List (List ℚ)) (rules : List PittRule) (hg : genomeToRules d genome = .ok rules) :
    pittDecode d .none genome = pittExec d.numOutputs rules .ruleOrder [] ∧
    pittDecode d .ruleOrder genome = pittExec d.numOutputs rules .ruleOrder [] := by
  simp [pittDecode, hg]

/-- The mutator applies the two operators to the two parts of every rule and forgets the fitness. -/
theorem pitt_mutate {U : Type} (d : PittDims) (hm : d.numMemory = 0) (hn : 0 < d.numOutputs)
    (cm am : List ℚ → List ℚ) (next : U → PyM (PittInd × U)) (u u' : U) (ind : PittInd) (hnext : next u = .ok (ind, u'))
    (hall : ∀ s ∈ ind.genome, s.length = d.numInputs * 2 + d.numOutputs) :
    pittMutator (ρ := Unit) d (fun l s => .ok (cm l, s)) (fun l s => .ok (am l, s)) next () u =
      .ok (⟨ind.genome.map fun s => cm (s.take (d.numInputs * 2)) ++ am (s.drop (d.numInputs * 2)), none⟩, (), u') := by
  have hg : d.genesPerRule = d.numInputs * 2 + d.numOutputs := by rw [PittDims.genesPerRule, hm]; omega
  have : ∀ genome : List (List ℚ), (∀ s ∈ genome, s.length = d.numInputs * 2 + d.numOutputs) →
      ruleSetMutate (ρ := Unit) d (fun l s => .ok (cm l, s)) (fun l s => .ok (am l, s)) genome () =
        .ok (genome.map fun s => cm (s.take (d.numInputs * 2)) ++ am (s.drop (d.numInputs * 2)), ()) := by
    intro genome
    induction genome with
    | nil => intro _; rfl
    | cons s ss ih =>
      intro h
      have hs := h s (List.mem_cons_self ..)
      rw [ruleSetMutate, ruleMutate, if_pos (by omega), splitRule_ok d hm hn s hs]
      simp only
      rw [ih fun s hs => h s (List.mem_cons_of_mem _ hs)]
      rfl
  simp only [pittMutator, hnext, this ind.genome hall]

/-- The initialiser for a one-dimensional input space makes a rule within the declared bounds. -/
theorem pitt_create_rule (d : PittDims) (hm : d.numMemory = 0) (ho : d.numOutputs = 1) (lo hi low high : List ℚ) (n : Nat)
    (action : ℚ) (hl : low.length = d.numInputs)
    (h1 : List.Forall₂ (fun (b : ℚ × ℚ) x => b.1 ≤ x ∧ x ≤ b.2) (List.zip lo hi) low)
    (h2 : List.Forall₂ (fun (b : ℚ × ℚ) x => b.1 ≤ x ∧ x ≤ b.2) (List.zip lo hi) high)
    (ha : 0 ≤ action ∧ action ≤ (n : ℚ) - 1) :
    ∃ s bs, createRule d (flatPairs low high) action = .ok s ∧ pittBounds d lo hi n 1 = .ok [bs] ∧
      List.Forall₂ (fun (b : ℚ × ℚ) x => b.1 ≤ x ∧ x ≤ b.2) bs s ∧ s.length = d.numInputs * 2 + d.numOutputs := by
  have key : ∀ (zs : List (ℚ × ℚ)) (low high : List ℚ),
      List.Forall₂ (fun (b : ℚ × ℚ) x => b.1 ≤ x ∧ x ≤ b.2) zs low →
      List.Forall₂ (fun (b : ℚ × ℚ) x => b.1 ≤ x ∧ x ≤ b.2) zs high →
      List.Forall₂ (fun (b : ℚ × ℚ) x => b.1 ≤ x ∧ x ≤ b.2) (zs.flatMap fun b => [b, b]) (flatPairs low high) ∧
      (flatPairs low high).length = low.length * 2 := by
    intro zs low high h1
    induction h1 generalizing high with
    | nil => intro h2; cases h2; exact ⟨List.Forall₂.nil, rfl⟩
    | @cons b x bs xs hb hbs ih =>
      intro h2
      cases h2 with
      | cons hc hcs =>
        obtain ⟨i1, i2⟩ := ih _ hcs
        refine ⟨List.Forall₂.cons hb (List.Forall₂.cons hc i1), ?_⟩
        unfold flatPairs at i2 ⊢
        simp only [List.zip_cons_cons, List.flatMap_cons, List.length_append, List.length_cons, List.length_nil, i2]
        omega
  obtain ⟨k1, k2⟩ := key _ _ _ h1 h2
  have hlen : (flatPairs low high ++ [action]).length = d.numInputs * 2 + d.numOutputs := by
    rw [List.length_append, k2, hl, ho]; rfl
  refine ⟨flatPairs low high ++ [action], conditionBounds lo hi ++ [(0, (n : ℚ) - 1)], ?_, ?_, ?_, hlen⟩
  · unfold createRule
    rw [if_neg (by omega), if_pos (by rw [hlen, PittDims.genesPerRule, hm]; omega)]
  · unfold pittBounds
    rw [if_neg (by omega)]
    rfl
  · exact List.rel_append k1 (List.Forall₂.cons ha List.Forall₂.nil)

/-- A disagreement: for the input space of shape (1, 2) of the documentation the initialiser puts all the lower samples
before all the upper ones, so the genes it makes can fall outside the bounds it declares. -/
theorem pitt_create_rule_two_dimensional :
    ∃ (lo hi low high : List ℚ) (s : List ℚ) (bs : List (ℚ × ℚ)),
      List.Forall₂ (fun (b : ℚ × ℚ) x => b.1 ≤ x ∧ x ≤ b.2) (List.zip lo hi) low ∧
      List.Forall₂ (fun (b : ℚ × ℚ) x => b.1 ≤ x ∧ x ≤ b.2) (List.zip lo hi) high ∧
      createRule ⟨2, 1, 0⟩ (flatPairs2 [low] [high]) 0 = .ok s ∧ pittBounds ⟨2, 1, 0⟩ lo hi 4 1 = .ok [bs] ∧
      ¬ List.Forall₂ (fun (b : ℚ × ℚ) x => b.1 ≤ x ∧ x ≤ b.2) bs s := by
  refine ⟨[0, 10], [1, 20], [0, 10], [1, 20], [0, 10, 1, 20, 0], [(0, 1), (0, 1), (10, 20), (10, 20), (0, 3)], ?_, ?_, ?_, ?_, ?_⟩
  all_goals decide +kernel

/-- `space_dimensions`: a scalar space counts one, a box the product of its sizes, a tuple the sum of its parts.
Missing from C69, because it is false of the code: that `num_inputs` and `num_outputs` return this number. -/
theorem space_dimensions_spec_partial (shape : List Nat) (shapes : List (List Nat)) :
    spaceDimensions (.simple []) = 1 ∧ (∀ n, spaceDimensions (.simple (n :: shape)) = n * spaceDimensions (.simple shape)) ∧
    spaceDimensions (.tuple []) = 0 ∧
    spaceDimensions (.tuple (shape :: shapes)) = spaceDimensions (.simple shape) + spaceDimensions (.tuple shapes) := by
  simp [spaceDimensions]

/-! ### A concrete rule system -/

def exRules : List PittRule :=
  [⟨[(0, 3/5), (0, 2/5)], [0]⟩, ⟨[(2/5, 1), (3/5, 1)], [1]⟩, ⟨[(1/10, 1/5), (4/5, 1)], [5/2]⟩, ⟨[(1/2, 2/5), (3/5, 1)], [7/2]⟩]

def exRunRules (rules : List PittRule) (input : List ℚ) : PyM PittOutput :=
  match pittExec 1 rules .ruleOrder [] with
  | .error e => .error e
  | .ok e => e.call (fun l => l.headD 0) input

example : Chooses (fun l => l.headD 0) := by
  intro l hl; cases l <;> simp_all
example : Runnable 1 exRules [1/2, 1] := by
  unfold Runnable; decide +kernel
-- two rules match: the lower-numbered one answers
example : exRunRules exRules [1/2, 1] = .ok (.one 1) := by decide +kernel
-- only the wildcard rule matches; 7/2 is rounded to the even neighbour
example : exRunRules exRules [0, 9/10] = .ok (.one 4) := by decide +kernel
-- nothing matches exactly
example : exRunRules exRules [1/10, 9/20] = .ok (.one 0) := by decide +kernel
example : exRunRules exRules [1/2, 1, 1] = .error .indexError := by decide +kernel
example : pittDecode ⟨2, 1, 0⟩ .none [[0, 3/5, 0, 2/5, 0]] =
    .ok ⟨1, [], [⟨[(0, 3/5), (0, 2/5)], [0]⟩], [0]⟩ := by rfl

end Leap
