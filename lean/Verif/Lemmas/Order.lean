import Verif.Py.Order
import Verif.Spec.Order

namespace Leap
open Spec
variable {α : Type _}

theorem StrictWeak.irrefl {lt : α → α → Bool} (h : StrictWeak lt) (a : α) : lt a a = false := by
  cases e : lt a a
  · rfl
  · have := h.asymm a a e; rw [e] at this; exact this

theorem StrictWeak.trans {lt : α → α → Bool} (h : StrictWeak lt) {a b c : α}
    (h1 : lt a b = true) (h2 : lt b c = true) : lt a c = true := by
  cases e : lt a c
  · have h3 := h.asymm _ _ h2
    have := h.negTrans a c b e h3
    rw [h1] at this; cases this
  · rfl

theorem sortedDesc_perm (lt : α → α → Bool) (xs : List α) : (sortedDesc lt xs).Perm xs :=
  List.perm_insertionSort _ _

theorem sortedAsc_perm (lt : α → α → Bool) (xs : List α) : (sortedAsc lt xs).Perm xs :=
  List.perm_insertionSort _ _

theorem StrictWeak.total {lt : α → α → Bool} (h : StrictWeak lt) :
    Std.Total (fun a b => lt a b = false) :=
  ⟨fun a b => by cases e : lt a b; exact Or.inl rfl; exact Or.inr (h.asymm _ _ e)⟩

theorem StrictWeak.isTrans {lt : α → α → Bool} (h : StrictWeak lt) :
    IsTrans α (fun a b => lt a b = false) := ⟨h.negTrans⟩

theorem StrictWeak.swap {lt : α → α → Bool} (h : StrictWeak lt) :
    StrictWeak (fun a b => lt b a) :=
  ⟨fun a b h1 => h.asymm _ _ h1, fun a b c h1 h2 => h.negTrans c b a h2 h1⟩

theorem sortedDesc_pairwise {lt : α → α → Bool} (h : StrictWeak lt) (xs : List α) :
    BestFirst lt (sortedDesc lt xs) := by
  haveI := StrictWeak.total h
  haveI := StrictWeak.isTrans h
  exact List.pairwise_insertionSort (fun a b => lt a b = false) xs

theorem sortedDesc_stable {lt : α → α → Bool} (h : StrictWeak lt) {xs : List α} {a b : α}
    (hab : lt a b = false) (hs : [a, b].Sublist xs) : [a, b].Sublist (sortedDesc lt xs) := by
  haveI := StrictWeak.total h
  haveI := StrictWeak.isTrans h
  exact List.pair_sublist_insertionSort (r := fun a b => lt a b = false) hab hs

theorem sortedAsc_eq_sortedDesc (lt : α → α → Bool) (xs : List α) :
    sortedAsc lt xs = sortedDesc (fun a b => lt b a) xs := rfl

theorem sortedAsc_pairwise {lt : α → α → Bool} (h : StrictWeak lt) (xs : List α) :
    (sortedAsc lt xs).Pairwise (fun a b => lt b a = false) :=
  sortedDesc_pairwise (StrictWeak.swap h) xs

theorem topk_length (lt : α → α → Bool) (k : Nat) (xs : List α) :
    (topk lt k xs).length = min k xs.length := by
  simp [topk, (sortedDesc_perm lt xs).length_eq]

theorem topk_kbest {lt : α → α → Bool} (h : StrictWeak lt) (k : Nat) (xs : List α) :
    KBest lt k xs (topk lt k xs) := by
  refine ⟨(sortedDesc lt xs).drop k, ?_, topk_length lt k xs, ?_⟩
  · rw [topk, List.take_append_drop]; exact sortedDesc_perm lt xs
  · have hp := sortedDesc_pairwise h xs
    unfold BestFirst at hp
    rw [← List.take_append_drop k (sortedDesc lt xs), List.pairwise_append] at hp
    exact hp.2.2

theorem topk_bestFirst {lt : α → α → Bool} (h : StrictWeak lt) (k : Nat) (xs : List α) :
    BestFirst lt (topk lt k xs) :=
  (sortedDesc_pairwise h xs).sublist (List.take_sublist _ _)

theorem topk_mem {lt : α → α → Bool} {k : Nat} {xs : List α} {x : α} (hx : x ∈ topk lt k xs) :
    x ∈ xs :=
  (sortedDesc_perm lt xs).mem_iff.mp (List.mem_of_mem_take hx)

/-- The first of the top `k` is not worse than anything. -/
theorem topk_head_best {lt : α → α → Bool} (h : StrictWeak lt) {k : Nat} {xs : List α} {b : α}
    {t : List α} (ht : topk lt k xs = b :: t) : ∀ x ∈ xs, lt b x = false := by
  intro x hx
  have hp := sortedDesc_pairwise h xs
  unfold topk at ht
  cases e : sortedDesc lt xs with
  | nil => simp [e] at ht
  | cons y ys =>
    cases k with
    | zero => simp at ht
    | succ k =>
      rw [e] at ht hp
      simp only [List.take_succ_cons, List.cons.injEq] at ht
      rw [← ht.1]
      have hx' := (sortedDesc_perm lt xs).mem_iff.mpr hx
      rw [e] at hx'
      rcases List.mem_cons.mp hx' with rfl | hx'
      · exact StrictWeak.irrefl h _
      · exact List.rel_of_pairwise_cons hp hx'

theorem pyMaxFrom_mem (gt : α → α → Bool) (x : α) (l : List α) : pyMaxFrom gt x l ∈ x :: l := by
  induction l generalizing x with
  | nil => simp [pyMaxFrom]
  | cons y ys ih =>
    simp only [pyMaxFrom]
    have := ih (if gt y x then y else x)
    split at this <;> split <;> simp_all
    all_goals grind

theorem pyMaxFrom_spec {gt : α → α → Bool} (h : StrictPartial gt) (x : α) (l : List α) :
    ∀ y ∈ x :: l, gt y (pyMaxFrom gt x l) = false := by
  -- generalised: the result is never beaten by anything not beating the start
  have key : ∀ (l : List α) (x z : α), gt z x = false → gt z (pyMaxFrom gt x l) = false := by
    intro l
    induction l with
    | nil => intro x z hz; simpa [pyMaxFrom] using hz
    | cons y ys ih =>
      intro x z hz
      simp only [pyMaxFrom]
      apply ih
      split
      · rename_i hyx
        cases e : gt z y
        · rfl
        · rw [h.trans z y x e hyx] at hz; cases hz
      · exact hz
  induction l generalizing x with
  | nil => intro y hy; simp at hy; subst hy; simpa [pyMaxFrom] using h.irrefl y
  | cons y ys ih =>
    intro z hz
    simp only [pyMaxFrom]
    rcases List.mem_cons.mp hz with rfl | hz
    · apply key
      split
      · rename_i hyx
        cases e : gt z y
        · rfl
        · have := h.trans _ _ _ e hyx; rw [h.irrefl] at this; cases this
      · exact h.irrefl _
    · rcases List.mem_cons.mp hz with rfl | hz
      · apply key
        split
        · exact h.irrefl _
        · simp_all
      · exact ih _ z (List.mem_cons_of_mem _ hz)

theorem pyMinFrom_eq (lt : α → α → Bool) (x : α) (l : List α) :
    pyMinFrom lt x l = pyMaxFrom lt x l := by
  induction l generalizing x with
  | nil => rfl
  | cons y ys ih => simp only [pyMinFrom, pyMaxFrom, ih]

theorem pyMinFrom_mem (lt : α → α → Bool) (x : α) (l : List α) : pyMinFrom lt x l ∈ x :: l := by
  rw [pyMinFrom_eq]; exact pyMaxFrom_mem _ _ _

theorem pyMinFrom_spec {lt : α → α → Bool} (h : StrictPartial lt) (x : α) (l : List α) :
    ∀ y ∈ x :: l, lt y (pyMinFrom lt x l) = false := by
  rw [pyMinFrom_eq]; exact pyMaxFrom_spec h _ _

end Leap
