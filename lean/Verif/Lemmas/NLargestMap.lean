import Verif.Py.NLargest

/-!
# `heapq.nlargest` under renaming

Used in proofs only. If the comparisons say the same about the images as about the elements, `nlargest` of the images gives the images.
-/

namespace Leap

section
variable {α β σ : Type} {f : α → β} {lt : Ask α σ} {lt' : Ask β σ}

/-- The images of the first component. -/
def imaged (f : α → β) (p : List α × σ) : List β × σ := (p.1.map f, p.2)

theorem siftDown_map (h : ∀ a b s, lt' (f a) (f b) s = lt a b s) (start : Nat) (new : α) : ∀ (fuel : Nat) (l : List α) (pos : Nat) (s : σ),
    siftDown lt' start (f new) fuel (l.map f) pos s = imaged f (siftDown lt start new fuel l pos s) := by
  intro fuel
  induction fuel with
  | zero => intro l pos s; simp [siftDown, imaged, List.map_set]
  | succ fuel ih =>
    intro l pos s
    unfold siftDown
    split
    · rw [List.getElem?_map]
      cases l[(pos - 1) / 2]? with
      | none => simp [imaged, List.map_set]
      | some p =>
        simp only [Option.map_some, h]
        split
        · rw [← List.map_set]; exact ih _ _ _
        · simp [imaged, List.map_set]
    · simp [imaged, List.map_set]

theorem smallerChild_map (h : ∀ a b s, lt' (f a) (f b) s = lt a b s) (l : List α) (pos : Nat) (s : σ) : smallerChild lt' (l.map f) pos s = smallerChild lt l pos s := by
  unfold smallerChild
  rw [List.getElem?_map, List.getElem?_map]
  cases l[2 * pos + 1]? <;> cases l[2 * pos + 2]? <;> simp [h]

theorem siftToLeaf_map (h : ∀ a b s, lt' (f a) (f b) s = lt a b s) : ∀ (fuel : Nat) (l : List α) (pos : Nat) (s : σ),
    siftToLeaf lt' fuel (l.map f) pos s = ((siftToLeaf lt fuel l pos s).1.map f, (siftToLeaf lt fuel l pos s).2) := by
  intro fuel
  induction fuel with
  | zero => intro l pos s; rfl
  | succ fuel ih =>
    intro l pos s
    unfold siftToLeaf
    rw [smallerChild_map h, List.getElem?_map]
    cases l[(smallerChild lt l pos s).1]? with
    | none => rfl
    | some c =>
      simp only [Option.map_some]
      rw [← List.map_set, ih]

theorem siftUp_map (h : ∀ a b s, lt' (f a) (f b) s = lt a b s) (l : List α) (pos : Nat) (s : σ) : siftUp lt' (l.map f) pos s = imaged f (siftUp lt l pos s) := by
  unfold siftUp
  rw [List.getElem?_map]
  cases l[pos]? with
  | none => rfl
  | some x =>
    simp only [Option.map_some, List.length_map, siftToLeaf_map h]
    exact siftDown_map h _ _ _ _ _ _

theorem heapifyFrom_map (h : ∀ a b s, lt' (f a) (f b) s = lt a b s) : ∀ (k : Nat) (l : List α) (s : σ), heapifyFrom lt' k (l.map f) s = imaged f (heapifyFrom lt k l s) := by
  intro k
  induction k with
  | zero => intro l s; rfl
  | succ k ih =>
    intro l s
    unfold heapifyFrom
    simp only [siftUp_map h, imaged]
    exact ih _ _

theorem heapReplace_map (h : ∀ a b s, lt' (f a) (f b) s = lt a b s) (l : List α) (x : α) (s : σ) :
    heapReplace lt' (l.map f) (f x) s = imaged f (heapReplace lt l x s) := by
  unfold heapReplace
  rw [← List.map_set]
  exact siftUp_map h _ _ _

theorem putDesc_map (h : ∀ a b s, lt' (f a) (f b) s = lt a b s) (x : α) : ∀ (l : List α) (s : σ), putDesc lt' (f x) (l.map f) s = imaged f (putDesc lt x l s) := by
  intro l
  induction l with
  | nil => intro s; rfl
  | cons z l ih =>
    intro s
    simp only [List.map_cons, putDesc, h]
    split
    · rfl
    · rw [ih]; rfl

theorem sortDescFrom_map (h : ∀ a b s, lt' (f a) (f b) s = lt a b s) : ∀ (xs acc : List α) (s : σ),
    sortDescFrom lt' (acc.map f) (xs.map f) s = imaged f (sortDescFrom lt acc xs s) := by
  intro xs
  induction xs with
  | nil => intro acc s; rfl
  | cons x xs ih =>
    intro acc s
    simp only [List.map_cons, sortDescFrom, putDesc_map h, imaged]
    exact ih _ _

theorem maxAsk_map (h : ∀ a b s, lt' (f a) (f b) s = lt a b s) : ∀ (xs : List α) (x : α) (s : σ), maxAsk lt' (f x) (xs.map f) s = (f (maxAsk lt x xs s).1, (maxAsk lt x xs s).2) := by
  intro xs
  induction xs with
  | nil => intro x s; rfl
  | cons y xs ih =>
    intro x s
    simp only [List.map_cons, maxAsk, h]
    have : (if (lt y x s).1 = true then f y else f x) = f (if (lt y x s).1 = true then y else x) := by split <;> rfl
    rw [this]
    exact ih _ _

/-- On numbered elements. -/
def onFirst (f : α → β) (p : α × Int) : β × Int := (f p.1, p.2)

theorem numbered_map (xs : List α) : ∀ i, numbered i (xs.map f) = (numbered i xs).map (onFirst f) := by
  induction xs with
  | nil => intro i; rfl
  | cons x xs ih => intro i; simp [numbered, ih, onFirst]

theorem tupleLt_map {eq same : α → α → Bool} {eq' same' : β → β → Bool} (h : ∀ a b s, lt' (f a) (f b) s = lt a b s) (he : ∀ a b, eq' (f a) (f b) = eq a b)
    (hs : ∀ a b, same' (f a) (f b) = same a b) (a b : α × Int) (s : σ) : tupleLt lt' eq' same' (onFirst f a) (onFirst f b) s = tupleLt lt eq same a b s := by
  simp only [tupleLt, onFirst, h, he, hs]
  split <;> rfl

theorem nlargestLoop_map {eq same : α → α → Bool} {eq' same' : β → β → Bool} (h : ∀ a b s, lt' (f a) (f b) s = lt a b s) (he : ∀ a b, eq' (f a) (f b) = eq a b)
    (hs : ∀ a b, same' (f a) (f b) = same a b) : ∀ (xs : List α) (heap : List (α × Int)) (order : Int) (s : σ),
      nlargestLoop lt' eq' same' (heap.map (onFirst f)) order (xs.map f) s = imaged (onFirst f) (nlargestLoop lt eq same heap order xs s) := by
  intro xs
  induction xs with
  | nil => intro heap order s; simp [nlargestLoop, imaged]
  | cons x xs ih =>
    intro heap order s
    cases heap with
    | nil => rfl
    | cons top heap =>
      simp only [List.map_cons, nlargestLoop]
      have e : (onFirst f top).1 = f top.1 := rfl
      rw [e, h]
      split
      · have := heapReplace_map (tupleLt_map h he hs) (top :: heap) (x, order) (lt top.1 x s).2
        simp only [List.map_cons] at this
        have e2 : onFirst f (x, order) = (f x, order) := rfl
        rw [e2] at this
        rw [this]
        exact ih _ _ _
      · exact ih (top :: heap) _ _

theorem nlargest_map {eq same : α → α → Bool} {eq' same' : β → β → Bool} (h : ∀ a b s, lt' (f a) (f b) s = lt a b s) (he : ∀ a b, eq' (f a) (f b) = eq a b)
    (hs : ∀ a b, same' (f a) (f b) = same a b) (hasLen : Bool) (n : Nat) (xs : List α) (s : σ) :
    nlargest lt' eq' same' hasLen n (xs.map f) s = imaged f (nlargest lt eq same hasLen n xs s) := by
  have hg : ∀ a b s, askGt lt' eq' (f a) (f b) s = askGt lt eq a b s := fun a b s => by simp [askGt, h, he]
  unfold nlargest
  rw [List.length_map]
  split
  · cases xs with
    | nil => rfl
    | cons x rest => simp only [List.map_cons, maxAsk_map hg, imaged, List.map_nil]
  · split
    · have := sortDescFrom_map h xs [] s
      simp only [List.map_nil] at this
      rw [this]
      simp [imaged, List.map_take]
    · rw [← List.map_take, ← List.map_drop, numbered_map]
      cases e : numbered 0 (xs.take n) with
      | nil => rfl
      | cons r rs =>
        have h1 := heapifyFrom_map (tupleLt_map h he hs) ((r :: rs).length / 2) (r :: rs) s
        have h2 := nlargestLoop_map h he hs (xs.drop n) (heapify (tupleLt lt eq same) (r :: rs) s).1 (-(n : Int)) (heapify (tupleLt lt eq same) (r :: rs) s).2
        have h3 := sortDescFrom_map (tupleLt_map h he hs) (nlargestLoop lt eq same (heapify (tupleLt lt eq same) (r :: rs) s).1 (-(n : Int)) (xs.drop n)
          (heapify (tupleLt lt eq same) (r :: rs) s).2).1 [] (nlargestLoop lt eq same (heapify (tupleLt lt eq same) (r :: rs) s).1 (-(n : Int)) (xs.drop n)
          (heapify (tupleLt lt eq same) (r :: rs) s).2).2
        have h1' : heapify (tupleLt lt' eq' same') ((r :: rs).map (onFirst f)) s = imaged (onFirst f) (heapify (tupleLt lt eq same) (r :: rs) s) := by
          simpa [heapify] using h1
        simp only [List.map_cons] at h1' ⊢
        simp only [h1', imaged] at h2 h3 ⊢
        rw [h2]
        simp only [List.map_nil] at h3
        rw [h3]
        simp [Function.comp_def, onFirst]

end

end Leap
