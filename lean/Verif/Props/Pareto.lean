import Verif.Model.Pareto
import Verif.Spec.Pareto
import Verif.Props.Compare

/-!
# C43: Pareto dominance
-/

namespace Leap
open Spec

theorem bcast_same {α β γ : Type} (f : α → β → γ) (xs : List α) (ys : List β) (h : xs.length = ys.length) :
    npBroadcast f xs ys = .ok (List.zipWith f xs ys) := by simp [npBroadcast, h]

theorem atLeast_true_fin (a b : ℚ) : NotWorse true (.fin b) (.fin a) ↔ a ≤ b := by simp [NotWorse, point]
theorem atLeast_false_fin (a b : ℚ) : NotWorse false (.fin b) (.fin a) ↔ b ≤ a := by simp [NotWorse, point]
theorem better_true_fin (a b : ℚ) : Better true (.fin b) (.fin a) ↔ a < b := by simp [Better, point]
theorem better_false_fin (a b : ℚ) : Better false (.fin b) (.fin a) ↔ b < a := by simp [Better, point]

theorem fin_lt_top (q : ℚ) : ((q : WithTop ℚ) : WithBot (WithTop ℚ)) < ((⊤ : WithTop ℚ) : WithBot (WithTop ℚ)) :=
  WithBot.coe_lt_coe.mpr (WithTop.coe_lt_top _)

theorem numGe_iff (a b : Num) : Num.ge b a = true ↔ NotWorse true b a := by
  cases a <;> cases b
  case fin.fin x y => rw [atLeast_true_fin]; simp [Num.ge, Num.lt, Num.eq, le_iff_lt_or_eq (a := x), eq_comm (a := x)]
  all_goals simp [Num.ge, Num.lt, Num.eq, NotWorse, point, fin_lt_top, (fin_lt_top _).le]

theorem numLt_iff' (a b : Num) : Num.lt a b = true ↔ Better true b a := by
  cases a <;> cases b <;> simp_all [Num.lt, Better, point]
  exact fin_lt_top _

theorem point_neg_le (a b : Num) : Num.ge b.neg a.neg = true ↔ NotWorse false b a := by
  rw [numGe_iff]
  cases a <;> cases b
  case fin.fin x y => simp only [Num.neg]; rw [atLeast_true_fin, atLeast_false_fin, neg_le_neg_iff]
  all_goals simp [Num.neg, NotWorse, point]

theorem point_neg_lt (a b : Num) : Num.lt a.neg b.neg = true ↔ Better false b a := by
  rw [numLt_iff']
  cases a <;> cases b
  case fin.fin x y => simp only [Num.neg]; rw [better_true_fin, better_false_fin, neg_lt_neg_iff]
  case fin.negInf x => exact iff_of_true ⟨_, _, rfl, rfl, fin_lt_top _⟩ ⟨_, _, rfl, rfl, by simp⟩
  case posInf.fin x => exact iff_of_true ⟨_, _, rfl, rfl, by simp [point]⟩ ⟨_, _, rfl, rfl, fin_lt_top _⟩
  all_goals simp [Num.neg, Better, point]

/-- The oriented comparison of one objective. -/
def orient (m : Bool) (x : Num) : Num := if m then x else x.neg

theorem orient_ge (m : Bool) (a b : Num) : Num.ge (orient m b) (orient m a) = true ↔ NotWorse m b a := by
  cases m
  · exact point_neg_le a b
  · exact numGe_iff a b

theorem orient_gt (m : Bool) (a b : Num) : Num.lt (orient m a) (orient m b) = true ↔ Better m b a := by
  cases m
  · exact point_neg_lt a b
  · exact numLt_iff' a b

/-- C43: `worse_than` never raises on complete vectors and is exactly Pareto dominance in the declared directions. -/
theorem pareto_worse_than_spec (p : MOProblem) (first second : List Num)
    (h1 : first.length = p.maximize.length) (h2 : second.length = p.maximize.length) :
    ∃ w, p.worseThan first second = .ok w ∧ (w = true ↔ Dominates p.maximize second first) := by
  obtain ⟨ms⟩ := p
  simp only at h1 h2
  have e1 : MOProblem.oriented ⟨ms⟩ first = .ok (List.zipWith (fun x m => orient m x) first ms) := bcast_same _ _ _ h1
  have e2 : MOProblem.oriented ⟨ms⟩ second = .ok (List.zipWith (fun x m => orient m x) second ms) := bcast_same _ _ _ h2
  simp only [MOProblem.worseThan, e1, e2, bind, Except.bind]
  rw [bcast_same _ _ _ (by simp [h1, h2]), bcast_same _ _ _ (by simp [h1, h2])]
  simp only
  have hall : (List.zipWith Num.ge (List.zipWith (fun x m => orient m x) second ms)
      (List.zipWith (fun x m => orient m x) first ms)).all id = true ↔
      ∀ (i : Nat) (m : Bool) (a b : Num), ms[i]? = some m → first[i]? = some a → second[i]? = some b → NotWorse m b a := by
    simp only [List.all_eq_true, List.mem_iff_getElem?, id]
    constructor
    · intro h i m a b hm ha hb
      exact (orient_ge m a b).1 (h _ ⟨i, by simp [List.getElem?_zipWith, hm, ha, hb]⟩)
    · rintro h x ⟨i, hi⟩
      simp only [List.getElem?_zipWith] at hi
      cases hm : ms[i]? <;> cases ha : first[i]? <;> cases hb : second[i]? <;> simp [hm, ha, hb] at hi
      subst hi
      exact (orient_ge _ _ _).2 (h i _ _ _ hm ha hb)
  have hany : (List.zipWith (fun x y => Num.lt y x) (List.zipWith (fun x m => orient m x) second ms)
      (List.zipWith (fun x m => orient m x) first ms)).any id = true ↔
      ∃ (i : Nat) (m : Bool) (a b : Num), ms[i]? = some m ∧ first[i]? = some a ∧ second[i]? = some b ∧ Better m b a := by
    simp only [List.any_eq_true, List.mem_iff_getElem?, id]
    constructor
    · rintro ⟨x, ⟨i, hi⟩, hx⟩
      subst hx
      simp only [List.getElem?_zipWith] at hi
      cases hm : ms[i]? <;> cases ha : first[i]? <;> cases hb : second[i]? <;> simp [hm, ha, hb] at hi
      exact ⟨i, _, _, _, hm, ha, hb, (orient_gt _ _ _).1 hi⟩
    · rintro ⟨i, m, a, b, hm, ha, hb, h⟩
      exact ⟨true, ⟨i, by simp [List.getElem?_zipWith, hm, ha, hb, (orient_gt m a b).2 h]⟩, rfl⟩
  unfold Dominates
  rw [← hall, ← hany]
  split
  · rename_i h; exact ⟨_, rfl, by simp [h]⟩
  · rename_i h; exact ⟨_, rfl, by simp [h]⟩

theorem better_atLeast {m : Bool} {a b : Num} (h : Better m b a) : NotWorse m b a := by
  obtain ⟨x, y, h1, h2, h3⟩ := h
  refine ⟨x, y, h1, h2, ?_⟩
  cases m <;> simp_all [le_of_lt]

theorem atLeast_trans {m : Bool} {a b c : Num} (h : NotWorse m c b) (h' : NotWorse m b a) : NotWorse m c a := by
  obtain ⟨x, y, h1, h2, h3⟩ := h
  obtain ⟨x', y', h1', h2', h3'⟩ := h'
  rw [h1] at h2'; cases h2'
  refine ⟨x', y, h1', h2, ?_⟩
  cases m
  · simp only [Bool.false_eq_true, if_false] at *; exact le_trans h3 h3'
  · simp only [if_true] at *; exact le_trans h3' h3

theorem atLeast_better_trans {m : Bool} {a b c : Num} (h : NotWorse m c b) (h' : Better m b a) : Better m c a := by
  obtain ⟨x, y, h1, h2, h3⟩ := h
  obtain ⟨x', y', h1', h2', h3'⟩ := h'
  rw [h1] at h2'; cases h2'
  refine ⟨x', y, h1', h2, ?_⟩
  cases m
  · simp only [Bool.false_eq_true, if_false] at *; exact lt_of_le_of_lt h3 h3'
  · simp only [if_true] at *; exact lt_of_lt_of_le h3' h3

theorem dominates_irrefl (ms : List Bool) (x : List Num) : ¬ Dominates ms x x := by
  rintro ⟨-, i, m, a, b, -, ha, hb, h⟩
  rw [ha] at hb; cases hb
  exact better_irrefl _ _ h

theorem dominates_trans (ms : List Bool) (x y z : List Num) (hy : y.length = ms.length)
    (h1 : Dominates ms z y) (h2 : Dominates ms y x) : Dominates ms z x := by
  refine ⟨?_, ?_⟩
  · intro i m a c hm ha hc
    have hi : i < y.length := by rw [hy]; exact (List.getElem?_eq_some_iff.1 hm).1
    exact atLeast_trans (h1.1 i m _ c hm (List.getElem?_eq_getElem hi) hc) (h2.1 i m a _ hm ha (List.getElem?_eq_getElem hi))
  · obtain ⟨i, m, a, b, hm, ha, hb, h⟩ := h2.2
    obtain ⟨j, m', b', c', hm', hb', hc', h'⟩ := h1.2
    by_cases hz : i < z.length
    · exact ⟨i, m, a, _, hm, ha, List.getElem?_eq_getElem hz,
        atLeast_better_trans (h1.1 i m b _ hm hb (List.getElem?_eq_getElem hz)) h⟩
    · by_cases hx : j < x.length
      · obtain ⟨q1, q2, q3, q4, q5⟩ := h'
        obtain ⟨r1, r2, r3, r4, r5⟩ := h2.1 j m' _ b' hm' (List.getElem?_eq_getElem hx) hb'
        rw [q3] at r4; cases r4
        refine ⟨j, m', _, c', hm', List.getElem?_eq_getElem hx, hc', r1, q2, r3, q4, ?_⟩
        cases m'
        · simp only [Bool.false_eq_true, if_false] at *; exact lt_of_lt_of_le q5 r5
        · simp only [if_true] at *; exact lt_of_le_of_lt r5 q5
      · exfalso
        have a1 := (List.getElem?_eq_some_iff.1 ha).1
        have a2 := (List.getElem?_eq_some_iff.1 hc').1
        omega

/-- All five operators at once on evaluated individuals of a multi-objective problem. -/
structure MOResults (p : MOProblem) (a b : List Num) (lt le eq ge gt : Prop) : Prop where
  lt_iff : ∃ r, moLt p (some a) (some b) = .ok r ∧ (r = true ↔ lt)
  le_iff : ∃ r, moLe p (some a) (some b) = .ok r ∧ (r = true ↔ le)
  eq_iff : ∃ r, moEq p (some a) (some b) = .ok r ∧ (r = true ↔ eq)
  ge_iff : ∃ r, moGe p (some a) (some b) = .ok r ∧ (r = true ↔ ge)
  gt_iff : ∃ r, moGt p (some a) (some b) = .ok r ∧ (r = true ↔ gt)

theorem dominates_asymm (ms : List Bool) (x y : List Num) (hx : x.length = ms.length) (hy : y.length = ms.length)
    (h : Dominates ms y x) : ¬ Dominates ms x y :=
  fun h' => dominates_irrefl ms y (dominates_trans ms y x y hx h h')

/-- C43: the operators on individuals with complete fitness vectors: `>` is exactly dominance, `<` being dominated,
`==` mutual non-dominance, `<=` not dominating, `>=` not being dominated. -/
theorem pareto_operators (p : MOProblem) (a b : List Num)
    (ha : a.length = p.maximize.length) (hb : b.length = p.maximize.length) :
    MOResults p a b (Dominates p.maximize b a) (¬ Dominates p.maximize a b)
      (¬ Dominates p.maximize a b ∧ ¬ Dominates p.maximize b a) (¬ Dominates p.maximize b a)
      (Dominates p.maximize a b) := by
  obtain ⟨w, e1, h1⟩ := pareto_worse_than_spec p a b ha hb
  obtain ⟨w', e2, h2⟩ := pareto_worse_than_spec p b a hb ha
  have has := dominates_asymm p.maximize a b ha hb
  constructor <;>
    simp only [moLt, moLe, moEq, moGe, moGt, deriveGt, deriveGe, deriveLe, MOProblem.equivalent, e1, e2, bind, Except.bind]
  · exact ⟨_, rfl, h1⟩
  all_goals
    cases w <;> cases w' <;> simp_all

/-- C43: dominance, as the operators compute it, is irreflexive, asymmetric and transitive. -/
theorem pareto_strict_order (p : MOProblem) (a b c : List Num) (ha : a.length = p.maximize.length)
    (hb : b.length = p.maximize.length) (hc : c.length = p.maximize.length) :
    moGt p (some a) (some a) = .ok false ∧
    (moGt p (some a) (some b) = .ok true → moGt p (some b) (some a) = .ok false) ∧
    (moGt p (some a) (some b) = .ok true → moGt p (some b) (some c) = .ok true →
      moGt p (some a) (some c) = .ok true) := by
  obtain ⟨r1, e1, h1⟩ := (pareto_operators p a a ha ha).gt_iff
  obtain ⟨r2, e2, h2⟩ := (pareto_operators p a b ha hb).gt_iff
  obtain ⟨r3, e3, h3⟩ := (pareto_operators p b a hb ha).gt_iff
  obtain ⟨r4, e4, h4⟩ := (pareto_operators p b c hb hc).gt_iff
  obtain ⟨r5, e5, h5⟩ := (pareto_operators p a c ha hc).gt_iff
  rw [e1, e2, e3, e4, e5]
  simp only [Except.ok.injEq]
  refine ⟨?_, ?_, ?_⟩
  · cases r1
    · rfl
    · exact absurd (h1.1 rfl) (dominates_irrefl _ _)
  · intro h
    cases r3
    · rfl
    · exact absurd (h3.1 rfl) (dominates_asymm _ _ _ hb ha (h2.1 h))
  · intro h h'
    exact h5.2 (dominates_trans _ _ _ _ hb (h2.1 h) (h4.1 h'))

example : moGt ⟨[true, false]⟩ (some [.fin 3, .fin 1]) (some [.fin 3, .fin 2]) = .ok true ∧
    moEq ⟨[true, false]⟩ (some [.fin 3, .fin 1]) (some [.fin 4, .posInf]) = .ok true := by decide +kernel

/-- C43: a fitness vector containing NaN neither dominates nor is dominated: it is `==` to everything, itself included.
(So a failed evaluation is never ranked below a successful one; compare C01 for scalar problems.) -/
theorem pareto_nan_incomparable (p : MOProblem) (a b : List Num)
    (ha : a.length = p.maximize.length) (hb : b.length = p.maximize.length) (hnan : Num.nan ∈ a) :
    moGt p (some a) (some b) = .ok false ∧ moGt p (some b) (some a) = .ok false ∧
    moEq p (some a) (some b) = .ok true ∧ moEq p (some b) (some a) = .ok true := by
  obtain ⟨i, hi⟩ := List.mem_iff_getElem?.1 hnan
  have hi' : i < p.maximize.length := by rw [← ha]; exact (List.getElem?_eq_some_iff.1 hi).1
  have hib : i < b.length := by omega
  have n1 : ¬ Dominates p.maximize a b := by
    intro h
    obtain ⟨x, y, h1, h2, -⟩ := h.1 i _ _ _ (List.getElem?_eq_getElem hi') (List.getElem?_eq_getElem hib) hi
    simp [point] at h2
  have n2 : ¬ Dominates p.maximize b a := by
    intro h
    obtain ⟨x, y, h1, h2, -⟩ := h.1 i _ _ _ (List.getElem?_eq_getElem hi') hi (List.getElem?_eq_getElem hib)
    simp [point] at h1
  obtain ⟨r1, e1, h1⟩ := (pareto_operators p a b ha hb).gt_iff
  obtain ⟨r2, e2, h2⟩ := (pareto_operators p b a hb ha).gt_iff
  obtain ⟨r3, e3, h3⟩ := (pareto_operators p a b ha hb).eq_iff
  obtain ⟨r4, e4, h4⟩ := (pareto_operators p b a hb ha).eq_iff
  rw [e1, e2, e3, e4]
  simp only [Except.ok.injEq]
  refine ⟨?_, ?_, h3.2 ⟨n1, n2⟩, h4.2 ⟨n2, n1⟩⟩
  · cases r1
    · rfl
    · exact absurd (h1.1 rfl) n1
  · cases r2
    · rfl
    · exact absurd (h2.1 rfl) n2

/-- C43: the single NaN that robust evaluation stores is broadcast to all objectives, with the same effect. -/
theorem pareto_failed_incomparable (p : MOProblem) (b : List Num) (hp : p.maximize ≠ [])
    (hb : b.length = p.maximize.length) :
    moGt p (some [.nan]) (some b) = .ok false ∧ moGt p (some b) (some [.nan]) = .ok false ∧
    moEq p (some [.nan]) (some b) = .ok true ∧ moEq p (some b) (some [.nan]) = .ok true := by
  obtain ⟨ms⟩ := p
  simp only at hp hb
  have e : MOProblem.oriented ⟨ms⟩ [.nan] = MOProblem.oriented ⟨ms⟩ (ms.map fun _ => .nan) := by
    unfold MOProblem.oriented npBroadcast
    have h0 : ∀ ms : List Bool, List.zipWith (fun (x : Num) (m : Bool) => if m then x else x.neg) (ms.map fun _ => .nan) ms =
        ms.map fun m => if m then Num.nan else Num.nan.neg := by
      intro ms; induction ms with
      | nil => rfl
      | cons m ms ih => simp [ih]
    match ms, hp with
    | [m], _ => simp
    | m :: m' :: ms, _ => simp [h0]
  have hb' : (ms.map fun _ => Num.nan).length = (MOProblem.mk ms).maximize.length := by simp
  have hm : Num.nan ∈ ms.map fun _ => Num.nan := by
    cases ms with
    | nil => exact absurd rfl hp
    | cons m ms => simp
  have key := pareto_nan_incomparable ⟨ms⟩ (ms.map fun _ => .nan) b hb' hb hm
  simpa only [moGt, moEq, moLt, MOProblem.equivalent, MOProblem.worseThan, e] using key

/-- C43: ordering an unevaluated individual, or vectors whose lengths do not fit (and are not 1), raises. -/
theorem pareto_refusals (p : MOProblem) :
    (∀ a b, (a = none ∨ b = none) → moLt p a b = .error .typeError ∧ moGt p a b = .error .typeError ∧
      moEq p a b = .error .typeError ∧ moLe p a b = .error .typeError ∧ moGe p a b = .error .typeError) ∧
    (∀ a b, a.length ≠ p.maximize.length → a.length ≠ 1 → p.maximize.length ≠ 1 →
      p.worseThan a b = .error .valueError ∧ p.equivalent a b = .error .valueError) ∧
    (∀ m, m = none ∨ m = some [] → MOProblem.make m = .error .assertionError) ∧
    (∀ m ms, MOProblem.make (some (m :: ms)) = .ok ⟨m :: ms⟩) := by
  refine ⟨?_, ?_, ?_, ?_⟩
  · rintro a b (rfl | rfl)
    · cases b <;> simp [moLt, moGt, moEq, moLe, moGe, deriveGt, deriveLe, deriveGe, bind, Except.bind]
    · cases a <;> simp [moLt, moGt, moEq, moLe, moGe, deriveGt, deriveLe, deriveGe, bind, Except.bind]
  · intro a b h1 h2 h3
    have : p.oriented a = .error .valueError := by
      unfold MOProblem.oriented npBroadcast
      rw [if_neg h1]
      split
      · simp at h2
      · exact absurd (by simp_all) h3
      · rfl
    simp [MOProblem.worseThan, MOProblem.equivalent, this, bind, Except.bind]
  · rintro m (rfl | rfl) <;> simp [MOProblem.make]
  · intro m ms; simp [MOProblem.make]

example : (MOProblem.mk [true, false]).worseThan [.fin 1, .fin 2, .fin 3] [.fin 1, .fin 2] = .error .valueError ∧
    (MOProblem.mk [true, false]).worseThan [.fin 1] [.fin 1, .fin 2] = .ok false := by decide +kernel

end Leap
