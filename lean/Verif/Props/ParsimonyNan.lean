import Verif.Model.ParsimonyNan
import Verif.Props.NLargest
import Verif.Props.SelectChance
import Verif.Props.PlusRun

/-!
# C127: selection by a parsimony key

What the selection operators do when they are given `lexical_parsimony` or `koza_parsimony` as a key: with fitnesses that are numbers, and with
fitnesses of which some are NaN.
-/

namespace Leap
open Spec

variable {α : Type}

namespace Spec

/-- The evaluation of this individual failed. -/
def Failed (a : PInd) : Prop := a.fit = .nan

/-- The fitness with the penalty for size: taken off when maximizing, added when minimizing. -/
def penalty (c : ℚ) (a : PInd) : Num := a.fit.addFin (if a.maximize then -(c * a.length) else c * a.length)

/-- `b` is preferred to `a`: fitter, or as fit and shorter; or fitter with the penalty. -/
def Preferred (key : PKey) (b a : PInd) : Prop :=
  match key with
  | .lexical => Better a.maximize b.fit a.fit ∨ (b.fit = a.fit ∧ b.length < a.length)
  | .koza c => Better a.maximize (penalty c b) (penalty c a)

end Spec

/-! ## The order -/

theorem num_lt_point {x y : Num} (hx : x ≠ .nan) (hy : y ≠ .nan) : Num.lt x y = true ↔ Better true y x := by
  have := (lt_iff_better ⟨true⟩ false ⟨false, x⟩ ⟨false, y⟩ hx hy).1
  simp only [indLt, Except.ok.injEq] at this
  rw [← this]
  have h1 : x.isNan = false := by cases x <;> simp_all [Num.isNan]
  have h2 : y.isNan = false := by cases y <;> simp_all [Num.isNan]
  simp [ScalarProblem.worseThan, h1, h2]

theorem num_gt_point {x y : Num} (hx : x ≠ .nan) (hy : y ≠ .nan) : Num.lt y x = true ↔ Better false y x := by
  have := (lt_iff_better ⟨false⟩ false ⟨false, x⟩ ⟨false, y⟩ hx hy).1
  simp only [indLt, Except.ok.injEq] at this
  rw [← this]
  have h1 : x.isNan = false := by cases x <;> simp_all [Num.isNan]
  have h2 : y.isNan = false := by cases y <;> simp_all [Num.isNan]
  simp [ScalarProblem.worseThan, h1, h2]

theorem num_neg_lt (x y : Num) : Num.lt x.neg y.neg = Num.lt y x := by
  cases x <;> cases y <;> simp [Num.neg, Num.lt]

theorem num_neg_eq (x y : Num) : Num.eq x.neg y.neg = Num.eq x y := by
  cases x <;> cases y <;> simp [Num.neg, Num.eq]

theorem num_neg_nan (x : Num) : x.neg = .nan ↔ x = .nan := by cases x <;> simp [Num.neg]
theorem num_add_nan (c : ℚ) (x : Num) : x.addFin c = .nan ↔ x = .nan := by cases x <;> simp [Num.addFin]
theorem num_neg_add (c : ℚ) (x : Num) : x.neg.addFin (-c) = (x.addFin c).neg := by
  cases x <;> simp [Num.neg, Num.addFin]; ring

theorem num_isNan (x : Num) : x.isNan = true ↔ x = .nan := by cases x <;> simp [Num.isNan]

theorem num_eq_iff {x y : Num} (hx : x ≠ .nan) : Num.eq x y = true ↔ x = y := by
  cases x <;> cases y <;> simp_all [Num.eq]

theorem num_lt_nan {x y : Num} (h : Num.lt x y = true) : x ≠ .nan ∧ y ≠ .nan := by
  cases x <;> cases y <;> simp_all [Num.lt]

theorem num_lt_trans {x y z : Num} (h1 : Num.lt x y = true) (h2 : Num.lt y z = true) : Num.lt x z = true := by
  cases x <;> cases y <;> cases z <;> simp_all [Num.lt]
  exact h1.trans h2

theorem num_lt_irrefl (x : Num) : Num.lt x x = false := by cases x <;> simp [Num.lt]

theorem num_lt_asymm {x y : Num} (h : Num.lt x y = true) : Num.lt y x = false := by
  cases e : Num.lt y x
  · rfl
  · have := num_lt_trans h e; rw [num_lt_irrefl] at this; cases this

theorem num_connected {x y : Num} (hx : x ≠ .nan) (hy : y ≠ .nan) (h1 : Num.lt x y = false) (h2 : Num.lt y x = false) : x = y := by
  cases x <;> cases y <;> simp_all [Num.lt]
  exact le_antisymm h2 h1

theorem lexKey_num_nan (a : PInd) : (lexKey a).num = .nan ↔ Failed a := by
  unfold lexKey Failed; split
  · exact Iff.rfl
  · exact num_neg_nan _

theorem kozaKey_nan (c : ℚ) (a : PInd) : kozaKey c a = .nan ↔ Failed a := by
  unfold kozaKey Failed; split
  · exact num_add_nan _ _
  · rw [num_add_nan]; exact num_neg_nan _

theorem sameNum_nan {a b : LexKey} (h : a.sameNum b = true) : a.num = .nan ↔ b.num = .nan := by
  unfold LexKey.sameNum at h
  simp only [Bool.or_eq_true, Bool.and_eq_true, num_isNan] at h
  rcases h with h | h
  · by_cases ha : a.num = .nan
    · rw [ha] at h; simp [Num.eq] at h
    · rw [num_eq_iff ha] at h; rw [h]
  · simp [h.1]

theorem sameNum_val {a b : LexKey} (h : a.sameNum b = true) : a.num = b.num := by
  by_cases ha : a.num = .nan
  · rw [ha, (sameNum_nan h).1 ha]
  · unfold LexKey.sameNum at h
    simp only [Bool.or_eq_true, Bool.and_eq_true, num_isNan] at h
    rcases h with h | h
    · exact (num_eq_iff ha).1 h
    · exact absurd h.1.1 ha

theorem sameNum_num {a b : LexKey} (ha : a.num ≠ .nan) : a.sameNum b = true ↔ a.num = b.num := by
  refine ⟨sameNum_val, fun h => ?_⟩
  unfold LexKey.sameNum
  rw [(num_eq_iff ha).2 h]; rfl

theorem sameNum_comm (a b : LexKey) : a.sameNum b = b.sameNum a := by
  unfold LexKey.sameNum
  have h1 : Num.eq a.num b.num = Num.eq b.num a.num := by
    cases a.num <;> cases b.num <;> simp [Num.eq, eq_comm]
  rw [h1, Bool.and_comm (a.num.isNan)]
  congr 2
  cases a.obj <;> cases b.obj <;> simp [eq_comm]

theorem sameNum_trans {a b c : LexKey} (h1 : a.sameNum b = true) (h2 : b.sameNum c = true) : a.sameNum c = true := by
  by_cases ha : a.num = .nan
  · have hb := (sameNum_nan h1).1 ha
    have hc := (sameNum_nan h2).1 hb
    unfold LexKey.sameNum at *
    rw [ha, hb] at h1
    rw [hb, hc] at h2
    rw [ha, hc]
    simp only [Num.eq, Num.isNan, Bool.false_or, Bool.true_and, Bool.and_true] at *
    cases ea : a.obj <;> cases eb : b.obj <;> cases ec : c.obj <;> simp_all
  · rw [sameNum_num ha] at *
    rw [sameNum_num (by rw [← h1]; exact ha)] at h2
    exact h1.trans h2

theorem lexKey_gt_flip (a b : LexKey) : a.gt b = b.lt a := by
  unfold LexKey.gt LexKey.lt; rw [sameNum_comm]

theorem pkey_gt_flip (key : PKey) (a b : PInd) : key.gt a b = key.lt b a := by
  cases key with
  | lexical => exact lexKey_gt_flip _ _
  | koza c => rfl

theorem lexKey_lt_nan {a b : LexKey} (h : a.lt b = true) : a.num = .nan ↔ b.num = .nan := by
  unfold LexKey.lt at h
  split at h
  · rename_i e; exact sameNum_nan e
  · have := num_lt_nan h; simp [this]

/-- C127: a comparison of keys never tells a failed individual from one that did not fail. -/
theorem pkey_lt_failed (key : PKey) (a b : PInd) (h : key.lt a b = true) : Failed a ↔ Failed b := by
  cases key with
  | lexical => rw [← lexKey_num_nan, ← lexKey_num_nan]; exact lexKey_lt_nan h
  | koza c => rw [← kozaKey_nan c, ← kozaKey_nan c]; have := num_lt_nan h; simp [this]

theorem pkey_gt_failed (key : PKey) (a b : PInd) (h : key.gt a b = true) : Failed a ↔ Failed b := by
  rw [pkey_gt_flip] at h; exact (pkey_lt_failed key b a h).symm

theorem lexKey_partial : StrictPartial LexKey.lt := by
  constructor
  · intro a; unfold LexKey.lt; split
    · simp
    · exact num_lt_irrefl _
  · intro a b c h1 h2
    unfold LexKey.lt at *
    by_cases e1 : a.sameNum b = true
    · have v1 := sameNum_val e1
      by_cases e2 : b.sameNum c = true
      · rw [if_pos e1] at h1; rw [if_pos e2] at h2
        rw [if_pos (sameNum_trans e1 e2)]
        simp only [decide_eq_true_eq] at *
        omega
      · rw [if_neg e2] at h2
        rw [if_neg (fun h => e2 (sameNum_trans (by rw [sameNum_comm]; exact e1) h)), v1]
        exact h2
    · rw [if_neg e1] at h1
      by_cases e2 : b.sameNum c = true
      · rw [if_neg (fun h => e1 (sameNum_trans h (by rw [sameNum_comm]; exact e2))), ← sameNum_val e2]
        exact h1
      · rw [if_neg e2] at h2
        have h3 := num_lt_trans h1 h2
        rw [if_neg]
        · exact h3
        · intro h; rw [sameNum_val h, num_lt_irrefl] at h3; cases h3

theorem pkey_lt_partial (key : PKey) : StrictPartial key.lt := by
  cases key with
  | lexical => exact ⟨fun a => lexKey_partial.irrefl _, fun a b c => lexKey_partial.trans _ _ _⟩
  | koza c => exact ⟨fun a => num_lt_irrefl _, fun a b c => num_lt_trans⟩

theorem pkey_gt_partial (key : PKey) : StrictPartial key.gt := by
  refine ⟨fun a => ?_, fun a b c h1 h2 => ?_⟩
  · rw [pkey_gt_flip]; exact (pkey_lt_partial key).irrefl a
  · rw [pkey_gt_flip] at *; exact (pkey_lt_partial key).trans _ _ _ h2 h1

/-- C127: between individuals of one direction that did not fail, the keys say what is preferred: the fitter, and the shorter only between equally fit
ones; or the fitter with the penalty. -/
theorem parsimony_order (key : PKey) (a b : PInd) (hd : a.maximize = b.maximize) (ha : ¬ Failed a) (hb : ¬ Failed b) :
    (key.lt a b = true ↔ Preferred key b a) ∧ (key.gt a b = true ↔ Preferred key a b) ∧
      (key.eq a b = true ↔ ¬ Preferred key b a ∧ ¬ Preferred key a b) := by
  have lt_ : ∀ a b : PInd, a.maximize = b.maximize → ¬ Failed a → ¬ Failed b → (key.lt a b = true ↔ Preferred key b a) := by
    intro a b hd ha hb
    cases key with
    | lexical =>
      have ka : (lexKey a).num ≠ .nan := fun h => ha ((lexKey_num_nan a).1 h)
      simp only [PKey.lt, LexKey.lt, Preferred]
      have hs : (lexKey a).sameNum (lexKey b) = true ↔ b.fit = a.fit := by
        rw [sameNum_num ka]; unfold lexKey; rw [← hd]; split
        · exact eq_comm
        · show a.fit.neg = b.fit.neg ↔ _
          cases a.fit <;> cases b.fit <;> simp [Num.neg, eq_comm]
      have hl : Num.lt (lexKey a).num (lexKey b).num = true ↔ Better a.maximize b.fit a.fit := by
        unfold lexKey; rw [← hd]; split
        · rename_i h; rw [h]; exact num_lt_point ha hb
        · rename_i h
          simp only [Bool.not_eq_true] at h; rw [h]
          show Num.lt a.fit.neg b.fit.neg = true ↔ _
          rw [num_neg_lt]; exact num_gt_point ha hb
      have ht : (lexKey a).tail < (lexKey b).tail ↔ b.length < a.length := by
        unfold lexKey; split <;> split <;> simp
      have nob : b.fit = a.fit → ¬ Better a.maximize b.fit a.fit := by
        intro h hB
        rw [← hl] at hB
        rw [← sameNum_val (hs.2 h), num_lt_irrefl] at hB; cases hB
      by_cases e : b.fit = a.fit
      · rw [if_pos (hs.2 e), decide_eq_true_eq, ht]
        exact ⟨fun h => Or.inr ⟨e, h⟩, fun h => h.elim (fun h => absurd h (nob e)) (fun h => h.2)⟩
      · rw [if_neg (fun h => e (hs.1 h)), hl]
        exact ⟨Or.inl, fun h => h.elim id (fun h => absurd h.1 e)⟩
    | koza c =>
      have ka : penalty c a ≠ .nan := fun h => ha ((num_add_nan _ _).1 h)
      have kb : penalty c b ≠ .nan := fun h => hb ((num_add_nan _ _).1 h)
      simp only [PKey.lt, Preferred]
      have : ∀ x : PInd, kozaKey c x = if x.maximize then penalty c x else (penalty c x).neg := by
        intro x; unfold kozaKey penalty; split
        · rfl
        · rw [num_neg_add]
      rw [this, this, ← hd]
      cases a.maximize
      · simp only [Bool.false_eq_true, if_false]; rw [num_neg_lt]; exact num_gt_point ka kb
      · simp only [if_true]; exact num_lt_point ka kb
  refine ⟨lt_ a b hd ha hb, by rw [pkey_gt_flip]; exact lt_ b a hd.symm hb ha, ?_⟩
  rw [← lt_ a b hd ha hb, ← lt_ b a hd.symm hb ha]
  cases key with
  | lexical =>
    have ka : (lexKey a).num ≠ .nan := fun h => ha ((lexKey_num_nan a).1 h)
    have kb : (lexKey b).num ≠ .nan := fun h => hb ((lexKey_num_nan b).1 h)
    simp only [PKey.eq, PKey.lt, LexKey.eq, LexKey.lt, Bool.and_eq_true, decide_eq_true_eq]
    rw [sameNum_comm (lexKey b)]
    by_cases e : (lexKey a).sameNum (lexKey b) = true
    · simp only [e, if_true, decide_eq_true_eq, true_and]; omega
    · simp only [e, if_false, false_and, false_iff, Bool.false_eq_true]
      intro h
      exact e ((sameNum_num ka).2 (num_connected ka kb (by simpa using h.1) (by simpa using h.2)))
  | koza c =>
    have ka : kozaKey c a ≠ .nan := fun h => ha ((kozaKey_nan c a).1 h)
    have kb : kozaKey c b ≠ .nan := fun h => hb ((kozaKey_nan c b).1 h)
    simp only [PKey.eq, PKey.lt]
    rw [num_eq_iff ka]
    constructor
    · intro h; rw [h]; simp [num_lt_irrefl]
    · intro h; exact num_connected ka kb (by simpa using h.1) (by simpa using h.2)

theorem pkey_weak (key : PKey) (rd : α → PInd) (dir : Bool) (hrd : ∀ a, (rd a).maximize = dir ∧ ¬ Failed (rd a)) :
    StrictWeak (fun a b => key.lt (rd a) (rd b)) := by
  constructor
  · intro a b h
    cases e : key.lt (rd b) (rd a)
    · rfl
    · have := (pkey_lt_partial key).trans _ _ _ h e
      rw [(pkey_lt_partial key).irrefl] at this; cases this
  · intro a b c h1 h2
    cases e : key.lt (rd a) (rd c)
    · rfl
    · -- `b` is as good as `a` and `c`, or between
      exfalso
      have fin : ∀ x y : α, key.lt (rd x) (rd y) = false → key.lt (rd y) (rd x) = false → key.eq (rd x) (rd y) = true := by
        intro x y hxy hyx
        have o := parsimony_order key (rd x) (rd y) ((hrd x).1.trans (hrd y).1.symm) (hrd x).2 (hrd y).2
        rw [o.2.2, ← o.1, ← o.2.1, pkey_gt_flip]; simp [hxy, hyx]
      have sub : ∀ x y z : α, key.eq (rd x) (rd y) = true → key.lt (rd x) (rd z) = key.lt (rd y) (rd z) ∧ key.lt (rd z) (rd x) = key.lt (rd z) (rd y) := by
        intro x y z h
        cases key with
        | lexical =>
          simp only [PKey.eq, LexKey.eq, Bool.and_eq_true, decide_eq_true_eq] at h
          have kx : (lexKey (rd x)).num ≠ .nan := fun h => (hrd x).2 ((lexKey_num_nan _).1 h)
          have ky : (lexKey (rd y)).num ≠ .nan := fun h => (hrd y).2 ((lexKey_num_nan _).1 h)
          have kz : (lexKey (rd z)).num ≠ .nan := fun h => (hrd z).2 ((lexKey_num_nan _).1 h)
          have hv := sameNum_val h.1
          have s1 : (lexKey (rd x)).sameNum (lexKey (rd z)) = (lexKey (rd y)).sameNum (lexKey (rd z)) := by
            rw [Bool.eq_iff_iff, sameNum_num kx, sameNum_num ky, hv]
          simp only [PKey.lt, LexKey.lt]
          rw [sameNum_comm (lexKey (rd z)), sameNum_comm (lexKey (rd z)), s1, hv, h.2]
          exact ⟨rfl, rfl⟩
        | koza c =>
          have kx : kozaKey c (rd x) ≠ .nan := fun h => (hrd x).2 ((kozaKey_nan c _).1 h)
          simp only [PKey.eq] at h
          rw [num_eq_iff kx] at h
          simp only [PKey.lt, h, and_self]
      have h3 : key.lt (rd b) (rd a) = true := by
        cases e3 : key.lt (rd b) (rd a)
        · rw [(sub a b c (fin a b h1 e3)).1, h2] at e; cases e
        · rfl
      have := (pkey_lt_partial key).trans _ _ _ h3 e
      have h2' : key.lt (rd b) (rd c) = false := h2
      rw [h2'] at this; cases this

/-! ## Populations without failures -/

theorem nlargestKey_topk {lt gt eq : α → α → Bool} (hW : StrictWeak lt) (hgt : ∀ a b, gt a b = lt b a) (heq : ∀ a b, eq a b = (!lt a b && !lt b a))
    (hasLen : Bool) (n : Nat) (xs : List α) : nlargestKey lt gt eq hasLen n xs = topk lt n xs := by
  have ex : Exact lt (fun a b (s : Unit) => (lt a b, s)) eq (fun _ _ => false) := ⟨fun _ _ _ => rfl, heq, by simp⟩
  unfold nlargestKey
  split
  · rename_i hn
    subst hn
    have := nlargest_is_topk hW ex hasLen 1 xs ()
    rw [← this]
    cases xs with
    | nil => simp [nlargest]
    | cons x rest =>
      simp only [nlargest, if_true]
      rw [maxAsk_eq_pyMax (g := gt)]
      intro a b s
      have := hW.asymm a b
      simp only [askGt, heq, hgt]
      cases e1 : lt a b <;> cases e2 : lt b a <;> simp_all
  · exact nlargest_is_topk hW ex hasLen n xs ()

theorem pkey_eq_exact (key : PKey) (rd : α → PInd) (dir : Bool) (hrd : ∀ a, (rd a).maximize = dir ∧ ¬ Failed (rd a)) (a b : α) :
    key.eq (rd a) (rd b) = (!key.lt (rd a) (rd b) && !key.lt (rd b) (rd a)) := by
  have o := parsimony_order key (rd a) (rd b) ((hrd a).1.trans (hrd b).1.symm) (hrd a).2 (hrd b).2
  rw [Bool.eq_iff_iff, o.2.2, ← o.1, ← o.2.1, pkey_gt_flip]; simp

theorem nlargestKey_pkey (key : PKey) (rd : α → PInd) (dir : Bool) (hrd : ∀ a, (rd a).maximize = dir ∧ ¬ Failed (rd a)) (hasLen : Bool) (n : Nat) (xs : List α) :
    nlargestKey (fun a b => key.lt (rd a) (rd b)) (fun a b => key.gt (rd a) (rd b)) (fun a b => key.eq (rd a) (rd b)) hasLen n xs =
      topk (fun a b => key.lt (rd a) (rd b)) n xs :=
  nlargestKey_topk (pkey_weak key rd dir hrd) (fun _ _ => pkey_gt_flip key _ _) (pkey_eq_exact key rd dir hrd) hasLen n xs

/-- Nobody in `left` is preferred to anybody in `kept`. -/
def Spec.NonePreferred (key : PKey) (rd : α → PInd) (left kept : List α) : Prop := ∀ y ∈ left, ∀ x ∈ kept, ¬ Preferred key (rd y) (rd x)

/-- C127: when no evaluation failed, truncation selection with a parsimony key keeps `size` of the candidates, and nobody left out is preferred
to anybody kept; the result is the stable sort by preference, cut off. -/
theorem parsimony_truncation (key : PKey) (rd : α → PInd) (dir : Bool) (hrd : ∀ a, (rd a).maximize = dir ∧ ¬ Failed (rd a)) (offspring : List α)
    (size : Nat) (parents : Option (List α)) :
    (∃ left, (truncationKey key rd offspring size parents ++ left).Perm (offspring ++ parents.getD []) ∧
      NonePreferred key rd left (truncationKey key rd offspring size parents)) ∧
    (truncationKey key rd offspring size parents).length = min size (offspring ++ parents.getD []).length ∧
    (truncationKey key rd offspring size parents).Pairwise (fun a b => ¬ Preferred key (rd b) (rd a)) := by
  have e : truncationKey key rd offspring size parents = topk (fun a b => key.lt (rd a) (rd b)) size (offspring ++ parents.getD []) := by
    cases parents with
    | none => simp only [truncationKey, Option.getD_none, List.append_nil]; exact nlargestKey_pkey key rd dir hrd _ _ _
    | some ps => exact nlargestKey_pkey key rd dir hrd _ _ _
  rw [e]
  have hW := pkey_weak key rd dir hrd
  obtain ⟨left, p, l, w⟩ := topk_kbest hW size (offspring ++ parents.getD [])
  have tr : ∀ a b, key.lt (rd a) (rd b) = false → ¬ Preferred key (rd b) (rd a) := by
    intro a b h hp
    have o := (parsimony_order key (rd a) (rd b) ((hrd a).1.trans (hrd b).1.symm) (hrd a).2 (hrd b).2).1
    rw [o.2 hp] at h; cases h
  exact ⟨⟨left, p, fun y hy x hx => tr x y (w x hx y hy)⟩, l, (topk_bestFirst hW _ _).imp (fun h => tr _ _ h)⟩

/-- C127: when no evaluation failed, elitist survival with a parsimony key returns as many as there were offspring, and with `k ≥ 1` and offspring the first of
them has nobody among offspring and parents preferred to it. -/
theorem parsimony_elitism (key : PKey) (rd : α → PInd) (dir : Bool) (hrd : ∀ a, (rd a).maximize = dir ∧ ¬ Failed (rd a)) (offspring parents : List α)
    (k : Nat) (hk : 0 < k) :
    (elitistKey key rd offspring parents k).length = offspring.length ∧
    ∀ first, (elitistKey key rd offspring parents k).head? = some first → NonePreferred key rd (offspring ++ parents) [first] := by
  have hW := pkey_weak key rd dir hrd
  have e : elitistKey key rd offspring parents k = (elitistSurvival (fun a b => key.lt (rd a) (rd b)) offspring parents k).1 := by
    simp only [elitistKey, elitistSurvival, nlargestKey_pkey key rd dir hrd]
  rw [e]
  refine ⟨(elitist_survivors _ hW offspring parents k).1, ?_⟩
  intro first hf y hy x hx hp
  simp only [List.mem_singleton] at hx
  subst hx
  have o := (parsimony_order key (rd x) (rd y) ((hrd x).1.trans (hrd y).1.symm) (hrd x).2 (hrd y).2).1
  have ho : offspring ≠ [] := by
    rintro rfl
    have := (elitist_survivors _ hW [] parents k).1
    rw [List.length_nil, List.length_eq_zero_iff] at this
    rw [this] at hf; cases hf
  obtain ⟨b, hb, hbest⟩ := elitist_never_loses_best _ hW offspring parents k hk ho
  rw [hb] at hf
  injection hf with hf
  subst hf
  have := hbest y hy
  rw [o.2 hp] at this; cases this

/-- C127: when no evaluation failed, a loop that ends every generation with `truncation_selection(size, parents=parents, key=key)` ends with `size` best of everybody it
ever had, by preference: nobody lost on the way is preferred to anybody in the final population. -/
theorem parsimony_history (key : PKey) (rd : α → PInd) (dir : Bool) (hrd : ∀ a, (rd a).maximize = dir ∧ ¬ Failed (rd a)) (size : Nat)
    (broods : List (List α)) (start : List α) (hs : start.length = size) (hnd : (start ++ broods.flatten).Nodup) :
    ∃ lost, (plusKey key rd size broods start ++ lost).Perm (start ++ broods.flatten) ∧ (plusKey key rd size broods start).length = size ∧
      NonePreferred key rd lost (plusKey key rd size broods start) := by
  have hW := pkey_weak key rd dir hrd
  have tr : ∀ a b, key.lt (rd a) (rd b) = false → ¬ Preferred key (rd b) (rd a) := by
    intro a b h hp
    have o := (parsimony_order key (rd a) (rd b) ((hrd a).1.trans (hrd b).1.symm) (hrd a).2 (hrd b).2).1
    rw [o.2 hp] at h; cases h
  have gen : ∀ (broods : List (List α)) (all kept : List α), KBest (fun a b => key.lt (rd a) (rd b)) size all kept → kept.length = size →
      (all ++ broods.flatten).Nodup → KBest (fun a b => key.lt (rd a) (rd b)) size (all ++ broods.flatten) (plusKey key rd size broods kept) ∧
        (plusKey key rd size broods kept).length = size := by
    intro broods
    induction broods with
    | nil => intro all kept h hl _; simpa [plusKey] using ⟨h, hl⟩
    | cons brood rest ih =>
      intro all kept h hl hnd
      have e : truncationKey key rd brood size (some kept) = topk (fun a b => key.lt (rd a) (rd b)) size (brood ++ kept) := nlargestKey_pkey key rd dir hrd _ _ _
      simp only [plusKey, List.flatten_cons] at *
      rw [← List.append_assoc] at hnd ⊢
      refine ih (all ++ brood) _ ?_ ?_ hnd
      · rw [e]
        have hk := topk_kbest hW size (brood ++ kept)
        have hk' := kbest_perm hk (List.perm_append_comm (l₁ := brood) (l₂ := kept))
        refine kbest_then hW h hk' ?_
        obtain ⟨r, p, -, -⟩ := h
        have hsub : (kept ++ brood).Nodup := by
          have h1 : (kept ++ r ++ brood).Nodup := ((p.append_right brood).nodup_iff).2 (List.Nodup.sublist (List.sublist_append_left _ _) hnd)
          refine List.Nodup.sublist ?_ h1
          exact List.Sublist.append_right (List.sublist_append_left kept r) brood
        exact hsub
      · rw [e, topk_length]; simp; omega
  obtain ⟨⟨lost, p, l, w⟩, hl⟩ := gen broods start start ⟨[], by simp, by omega, by simp⟩ hs hnd
  exact ⟨lost, p, hl, fun y hy x hx => tr x y (w x hx y hy)⟩

/-! ## Populations with failures -/

theorem pyMaxFrom_failed {bad : α → Prop} {gt : α → α → Bool} (h : ∀ a b, gt a b = true → (bad a ↔ bad b)) (x : α) (l : List α) :
    bad (pyMaxFrom gt x l) ↔ bad x := by
  induction l generalizing x with
  | nil => rfl
  | cons y ys ih =>
    simp only [pyMaxFrom]
    rw [ih]
    split
    · rename_i e; exact h _ _ e
    · rfl

/-- C127: a tournament with a parsimony key is won by a failed individual exactly when the one drawn first failed, however good the others are, for `select_worst` too. The winner is
one of those drawn, and if it did not fail, nobody drawn who did not fail is preferred to it (less preferred, with `select_worst`). -/
theorem parsimony_tournament (key : PKey) (rd : α → PInd) (dir : Bool) (hdir : ∀ a, (rd a).maximize = dir) (worst : Bool) (population : List α)
    (d : Nat) (ds : List Nat) (hd : ∀ i ∈ d :: ds, i < population.length) :
    ∃ i winner first, tournamentKey key rd worst population (ds.length + 1) (d :: ds) = .ok ([i], winner) ∧ i ∈ d :: ds ∧ population[i]? = some winner ∧
      population[d]? = some first ∧ (Failed (rd winner) ↔ Failed (rd first)) ∧
      (¬ Failed (rd first) → ∀ j ∈ d :: ds, ∀ other, population[j]? = some other → ¬ Failed (rd other) →
        if worst then ¬ Preferred key (rd winner) (rd other) else ¬ Preferred key (rd other) (rd winner)) := by
  have hp : population ≠ [] := by
    rintro rfl; have := hd d (by simp); simp at this
  have lt_ : StrictPartial (fun a b : α => key.lt (rd a) (rd b)) := ⟨fun a => (pkey_lt_partial key).irrefl _, fun a b c => (pkey_lt_partial key).trans _ _ _⟩
  have gt_ : StrictPartial (fun a b : α => key.gt (rd a) (rd b)) := ⟨fun a => (pkey_gt_partial key).irrefl _, fun a b c => (pkey_gt_partial key).trans _ _ _⟩
  obtain ⟨i, w, e, hi, hw, hb⟩ := tournament_winner _ _ lt_ gt_ worst population (ds.length + 1) (d :: ds) ⟨by simp, hd⟩ (by omega) hp
  have hdl := hd d (by simp)
  have hiff : Failed (rd w) ↔ Failed (rd population[d]) := by
    have idx : ∀ c : PInd → PInd → Bool, (∀ a b, c a b = true → (Failed a ↔ Failed b)) → ∀ i j, cmpAt population (fun a b => c (rd a) (rd b)) i j = true →
        ((∃ a, population[i]? = some a ∧ Failed (rd a)) ↔ ∃ a, population[j]? = some a ∧ Failed (rd a)) := by
      intro c hc i j h
      unfold cmpAt at h
      cases hi : population[i]? <;> cases hj : population[j]? <;> simp [hi, hj] at h
      simpa using hc _ _ h
    have key2 : (∃ a, population[i]? = some a ∧ Failed (rd a)) ↔ ∃ a, population[d]? = some a ∧ Failed (rd a) := by
      cases worst with
      | false =>
        have := pyMaxFrom_failed (idx key.gt (pkey_gt_failed key)) d ds
        have e' := e
        simp only [tournamentStep, hp, false_and, if_false, Bool.false_eq_true, pyMax] at e'
        rw [← this]
        split at e'
        · injection e' with e'; injection e' with e1 e2; injection e1 with e1; rw [e1]
        · cases e'
      | true =>
        have := pyMaxFrom_failed (idx key.lt (pkey_lt_failed key)) d ds
        have e' := e
        simp only [tournamentStep, hp, false_and, if_false, if_true, pyMin] at e'
        rw [← this, ← pyMinFrom_eq]
        split at e'
        · injection e' with e'; injection e' with e1 e2; injection e1 with e1; rw [e1]
        · cases e'
    rw [hw, List.getElem?_eq_getElem hdl] at key2
    simpa using key2
  refine ⟨i, w, population[d], e, hi, hw, List.getElem?_eq_getElem hdl, hiff, ?_⟩
  · intro hf j hj other ho hno
    have hb := hb j hj other ho
    have hfw : ¬ Failed (rd w) := fun h => hf (hiff.1 h)
    have o := parsimony_order key (rd other) (rd w) ((hdir _).trans (hdir _).symm) hno hfw
    cases worst with
    | false => simp only [Bool.false_eq_true, if_false] at hb ⊢; intro h; rw [o.2.1.2 h] at hb; cases hb
    | true => simp only [if_true] at hb ⊢; intro h; rw [o.1.2 h] at hb; cases hb

/-- C127: so the chance that a tournament of any size picks a failed individual is the share of failed individuals in the population: larger tournaments do not
avoid them. -/
theorem parsimony_tournament_chance (key : PKey) (rd : α → PInd) (dir : Bool) (hdir : ∀ a, (rd a).maximize = dir) (worst : Bool) {n k : Nat} (hn : 0 < n) (hk : 0 < k)
    (pop : Fin n → α) :
    chance (fun v : Fin k → Fin n => ∃ i winner, tournamentKey key rd worst (List.ofFn pop) k (indices v) = .ok ([i], winner) ∧ Failed (rd winner)) =
      howMany (fun j => Failed (rd (pop j))) / n := by
  obtain ⟨k, rfl⟩ : ∃ m, k = m + 1 := ⟨k - 1, by omega⟩
  rw [chance_congr (F := fun v : Fin (k + 1) → Fin n => Failed (rd (pop (v 0)))), chance_coord hn 0 (fun j => Failed (rd (pop j)))]
  · unfold chance howMany
    rw [Nat.card_eq_fintype_card (α := Fin n), Fintype.card_fin]
  · intro v
    have hv : indices v = (v 0 : Nat) :: indices (fun t : Fin k => v t.succ) := by simp [indices, List.ofFn_succ]
    obtain ⟨i, w, f, e, -, -, hf, hiff, -⟩ := parsimony_tournament key rd dir hdir worst (List.ofFn pop) (v 0) (indices fun t : Fin k => v t.succ) (by
      rw [← hv]; have := (indices_valid v).2; simpa using this)
    rw [← hv] at e
    have hl : (indices fun t : Fin k => v t.succ).length = k := by simp [indices]
    rw [hl] at e
    rw [ofFn_get] at hf
    injection hf with hf
    subst hf
    rw [← hiff]
    constructor
    · rintro ⟨i', w', e', h⟩
      rw [e] at e'; injection e' with e'; injection e' with e1 e2; subst e2; exact h
    · intro h; exact ⟨i, w, e, h⟩

/-- C127: `insertion_selection` with a parsimony key: a failed child takes the place of any parent that did not fail, however good; and a child that did not fail
takes the place of a failed parent. -/
theorem parsimony_insertion (key : PKey) (rd : α → PInd) (child : α) (rest parents : List α) (idx : Nat) (parent : α) (hp : parents[idx]? = some parent)
    (h : Failed (rd child) ↔ ¬ Failed (rd parent)) : insertionKey key rd (child :: rest) parents idx = .ok (parents.set idx child) := by
  have hl := (List.getElem?_eq_some_iff.mp hp).1
  have hg : key.gt (rd parent) (rd child) = false := by
    cases e : key.gt (rd parent) (rd child)
    · rfl
    · have := pkey_gt_failed key _ _ e; tauto
  have h0 : parents.length ≠ 0 := by omega
  simp [insertionKey, insertionSelection, insertionBody, hp, h0, pyMaxFrom, hg]

theorem nlargestLoop_failed {bad : α → Prop} {lt : Ask α Unit} {eq same : α → α → Bool} (h : ∀ a b s, (lt a b s).1 = true → (bad a ↔ bad b)) :
    ∀ (xs : List α) (heap : List (α × Int)) (order : Int) (s : Unit), (∀ x ∈ heap, bad x.1) →
      ∀ x ∈ (nlargestLoop lt eq same heap order xs s).1, bad x.1 := by
  have triv : StrictWeak (fun _ _ : α × Int => false) := ⟨by simp, by simp⟩
  intro xs
  induction xs with
  | nil => intro heap order s hh; simpa [nlargestLoop] using hh
  | cons x xs ih =>
    intro heap order s hh
    cases heap with
    | nil => simp [nlargestLoop]
    | cons top t =>
      simp only [nlargestLoop]
      split
      · rename_i e
        refine ih _ _ _ ?_
        intro y hy
        have := (heapReplace_spec triv (lt := tupleLt lt eq same) (fun _ _ _ => ⟨by simp, by simp⟩) (top := top) (t := t) (x, order) (lt top.1 x s).2
          (fun _ _ _ _ _ _ _ => rfl)).2.mem_iff.1 hy
        rcases List.mem_cons.1 this with rfl | hm
        · exact (h _ _ _ e).1 (hh top (by simp))
        · exact hh y (by simp [hm])
      · exact ih _ _ _ hh

theorem nlargestKey_failed {bad : α → Prop} {lt gt eq : α → α → Bool} (hlt : ∀ a b, lt a b = true → (bad a ↔ bad b)) (hgt : ∀ a b, gt a b = true → (bad a ↔ bad b))
    (hasLen : Bool) (n : Nat) (xs : List α) (hn : n ≤ xs.length) (h : ∀ x ∈ xs.take n, bad x) : ∀ x ∈ nlargestKey lt gt eq hasLen n xs, bad x := by
  have triv : ∀ β : Type, StrictWeak (fun _ _ : β => false) := fun _ => ⟨by simp, by simp⟩
  unfold nlargestKey
  split
  · rename_i h1
    subst h1
    cases xs with
    | nil => simp
    | cons x rest =>
      intro y hy
      simp only [List.mem_singleton] at hy
      subst hy
      rw [pyMaxFrom_failed hgt]
      exact h x (by simp)
  · rename_i h1
    unfold nlargest
    rw [if_neg h1]
    split
    · rename_i hc
      simp only [Bool.and_eq_true, decide_eq_true_eq] at hc
      intro y hy
      have := (sortDescFrom_spec (triv α) (lt := fun a b (s : Unit) => (lt a b, s)) (fun _ _ _ => ⟨by simp, by simp⟩) xs [] () (by simp [BestFirst])).2.mem_iff.1
        (List.mem_of_mem_take hy)
      refine h y ?_
      rw [List.take_of_length_le (by omega)]; simpa using this
    · split
      · simp
      · dsimp only
        intro y hy
        obtain ⟨z, hz, rfl⟩ := List.mem_map.1 hy
        have := (sortDescFrom_spec (triv (α × Int)) (lt := tupleLt (fun a b (s : Unit) => (lt a b, s)) eq fun _ _ => false) (fun _ _ _ => ⟨by simp, by simp⟩) _ [] _
          (by simp [BestFirst])).2.mem_iff.1 hz
        refine nlargestLoop_failed (bad := bad) (fun a b s e => hlt a b e) _ _ _ _ ?_ z (by simpa using this)
        intro w hw
        have hw := (heapify_spec (triv (α × Int)) (lt := tupleLt (fun a b (s : Unit) => (lt a b, s)) eq fun _ _ => false) (fun _ _ _ => ⟨by simp, by simp⟩) _ _).2.mem_iff.1 hw
        refine h w.1 ?_
        rw [← numbered_fst 0 (xs.take n)]
        exact List.mem_map_of_mem hw

/-- C127: if the first `size` candidates of a truncation selection with a parsimony key failed, then everybody it keeps failed, whoever else there is. The candidates
are the offspring in order, then the parents. -/
theorem parsimony_truncation_failed (key : PKey) (rd : α → PInd) (offspring : List α) (size : Nat) (parents : Option (List α))
    (hs : size ≤ (offspring ++ parents.getD []).length) (h : ∀ x ∈ (offspring ++ parents.getD []).take size, Failed (rd x)) :
    ∀ x ∈ truncationKey key rd offspring size parents, Failed (rd x) := by
  have hl := fun a b : α => pkey_lt_failed key (rd a) (rd b)
  have hg := fun a b : α => pkey_gt_failed key (rd a) (rd b)
  cases parents with
  | none =>
    simp only [Option.getD_none, List.append_nil] at hs h
    exact nlargestKey_failed (bad := fun a => Failed (rd a)) hl hg _ _ _ hs h
  | some ps => exact nlargestKey_failed (bad := fun a => Failed (rd a)) hl hg _ _ _ hs h

/-- C127: with `size=1` the one that truncation keeps failed exactly when the first candidate did. -/
theorem parsimony_single (key : PKey) (rd : α → PInd) (first : α) (offspring : List α) (parents : Option (List α)) :
    ∃ kept, truncationKey key rd (first :: offspring) 1 parents = [kept] ∧ (Failed (rd kept) ↔ Failed (rd first)) := by
  have hg := fun a b : α => pkey_gt_failed key (rd a) (rd b)
  cases parents <;> exact ⟨_, rfl, pyMaxFrom_failed (bad := fun a => Failed (rd a)) hg _ _⟩

/-- C127: so one failed evaluation wipes out what a (1 + 1) loop with a parsimony key has found, however good: the failed child is kept, and then the next child that does
not fail, however bad. -/
theorem parsimony_forgets (key : PKey) (rd : α → PInd) (best failed bad : α) (h1 : ¬ Failed (rd best)) (h2 : Failed (rd failed)) (h3 : ¬ Failed (rd bad)) :
    plusKey key rd 1 [[failed]] [best] = [failed] ∧ plusKey key rd 1 [[failed], [bad]] [best] = [bad] := by
  have g1 : key.gt (rd best) (rd failed) = false := by
    cases e : key.gt (rd best) (rd failed)
    · rfl
    · have := pkey_gt_failed key _ _ e; tauto
  have g2 : key.gt (rd failed) (rd bad) = false := by
    cases e : key.gt (rd failed) (rd bad)
    · rfl
    · have := pkey_gt_failed key _ _ e; tauto
  simp [plusKey, truncationKey, nlargestKey, pyMaxFrom, g1, g2]

theorem nlargestKey_subset (lt gt eq : α → α → Bool) (hasLen : Bool) (n : Nat) (xs : List α) : nlargestKey lt gt eq hasLen n xs ⊆ xs := by
  unfold nlargestKey
  split
  · cases xs with
    | nil => simp
    | cons x rest =>
      intro y hy
      simp only [List.mem_singleton] at hy
      subst hy
      exact pyMaxFrom_mem gt x rest
  · obtain ⟨⟨left, p, -, -⟩, -⟩ := nlargest_kbest (W := fun _ _ : α => false) ⟨by simp, by simp⟩ (lt := fun a b (s : Unit) => (lt a b, s)) (fun _ _ _ => ⟨by simp, by simp⟩)
      (eq := eq) (same := fun _ _ => false) (by simp) (by simp) hasLen n xs ()
    exact fun y hy => p.mem_iff.1 (List.mem_append_left _ hy)

/-- C127: if the first `k` parents failed, then elitist survival with a parsimony key and `k` elites saves no parent that did not fail, however good: everybody who
survives is an offspring or failed. -/
theorem parsimony_elites_failed (key : PKey) (rd : α → PInd) (offspring parents : List α) (k : Nat) (hk : k ≤ parents.length)
    (h : ∀ x ∈ parents.take k, Failed (rd x)) : ∀ x ∈ elitistKey key rd offspring parents k, x ∈ offspring ∨ (x ∈ parents ∧ Failed (rd x)) := by
  intro x hx
  rcases List.mem_append.1 (nlargestKey_subset _ _ _ _ _ _ hx) with h1 | h1
  · exact Or.inl h1
  · exact Or.inr ⟨nlargestKey_subset _ _ _ _ _ _ h1, nlargestKey_failed (bad := fun a => Failed (rd a)) (fun a b => pkey_lt_failed key (rd a) (rd b))
      (fun a b => pkey_gt_failed key (rd a) (rd b)) _ _ _ hk h x h1⟩

/-! ## Examples -/

/-- Two failed individuals that share the NaN object of `leap_ec.individual`, and three that did not fail. -/
def parsPop : Fin 5 → PInd := ![⟨true, .nan, 0, 4⟩, ⟨true, .fin 7, 1, 3⟩, ⟨true, .fin 7, 2, 2⟩, ⟨true, .nan, 0, 1⟩, ⟨true, .posInf, 3, 9⟩]

example : truncationKey .lexical parsPop [1, 2, 4] 2 none = [4, 2] := by decide +kernel
example : truncationKey (.koza 1) parsPop [1, 2, 4] 2 (some []) = [4, 2] := by decide +kernel
/-- A failed one first: the infinitely good one is not kept. -/
example : truncationKey .lexical parsPop [0, 3] 2 (some [4, 2]) = [3, 0] ∧ truncationKey (.koza 1) parsPop [0, 3] 2 (some [4, 2]) = [3, 0] := by decide +kernel
/-- A failed one among others can push out the best, or a lesser one. -/
example : truncationKey .lexical parsPop [2, 0, 4] 2 (some []) = [0, 2] ∧ truncationKey .lexical parsPop [0, 2, 4] 2 none = [0, 4] := by decide +kernel
example : tournamentKey .lexical parsPop false [0, 1, 2, 3, 4] 3 [0, 4, 2] = .ok ([0], 0) := by decide +kernel
example : tournamentKey .lexical parsPop false [0, 1, 2, 3, 4] 3 [1, 0, 2] = .ok ([2], 2) := by decide +kernel
example : insertionKey .lexical parsPop [0] [4, 2] 0 = .ok [0, 2] := by decide +kernel
example : elitistKey .lexical parsPop [1] [0, 4] 1 = [1] := by decide +kernel

/-- A population without failures meets the hypotheses above; its loop ends with the two best, the shorter of the equally fit ones first. -/
def parsGood : Fin 4 → PInd := ![⟨false, .fin 7, 1, 3⟩, ⟨false, .fin 7, 2, 2⟩, ⟨false, .posInf, 3, 1⟩, ⟨false, .fin (1/2), 4, 9⟩]

example : (∀ a, (parsGood a).maximize = false ∧ ¬ Failed (parsGood a)) ∧ plusKey .lexical parsGood 2 [[0, 2], [3]] [1] = [3, 1] ∧
    plusKey (.koza 2) parsGood 2 [[0, 2], [3]] [1] = [1, 0] ∧ elitistKey .lexical parsGood [2, 0] [1, 3] 1 = [3, 0] := by
  refine ⟨fun a => ?_, by decide +kernel, by decide +kernel, by decide +kernel⟩
  fin_cases a <;> simp [parsGood, Failed]

/-- Half of the population failed: so does half of all tournaments pick one that failed, whatever their size. -/
example (k : Nat) (hk : 0 < k) : chance (fun v : Fin k → Fin 2 => ∃ i winner,
    tournamentKey .lexical parsPop false (List.ofFn (![0, 4] : Fin 2 → Fin 5)) k (indices v) = .ok ([i], winner) ∧ Failed (parsPop winner)) = 1 / 2 := by
  rw [parsimony_tournament_chance .lexical parsPop true (by intro a; fin_cases a <;> rfl) false (by omega) hk]
  have : howMany (fun j => Failed (parsPop ((![0, 4] : Fin 2 → Fin 5) j))) = 1 := by
    have e : ∀ j, Failed (parsPop ((![0, 4] : Fin 2 → Fin 5) j)) ↔ j = 0 := by
      intro j; fin_cases j <;> simp [parsPop, Failed]
    simp only [howMany, e]
    simp
  rw [this]; norm_num

end Leap
