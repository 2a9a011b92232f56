import Verif.Py.NLargest
import Verif.Lemmas.Order

namespace Leap
open Spec
variable {α β σ : Type}

/-- `lt` answers every question that the order `W` settles as `W` does. How it answers about two elements of the same rank is open, and may
differ from one call to the next. -/
def Spec.AnswersAs (W : β → β → Bool) (lt : Ask β σ) : Prop :=
  ∀ a b s, (W a b = true → (lt a b s).1 = true) ∧ (W b a = true → (lt a b s).1 = false)

theorem Spec.AnswersAs.yes {W : β → β → Bool} {lt : Ask β σ} (h : AnswersAs W lt) {a b : β} {s : σ} (e : (lt a b s).1 = true) : W b a = false := by
  cases hw : W b a
  · rfl
  · rw [(h a b s).2 hw] at e; cases e

theorem Spec.AnswersAs.no {W : β → β → Bool} {lt : Ask β σ} (h : AnswersAs W lt) {a b : β} {s : σ} (e : ¬ (lt a b s).1 = true) : W a b = false := by
  cases hw : W a b
  · rfl
  · exact absurd ((h a b s).1 hw) e

/-- `pos` is in the subtree of `k`. -/
inductive Below (k : Nat) : Nat → Prop
  | here : Below k k
  | left {p : Nat} : Below k p → Below k (2 * p + 1)
  | right {p : Nat} : Below k p → Below k (2 * p + 2)

theorem Below.up {k p : Nat} (h : Below k p) : p = k ∨ (0 < p ∧ Below k ((p - 1) / 2)) := by
  cases h with
  | here => exact Or.inl rfl
  | @left q h => right; refine ⟨by omega, ?_⟩; rwa [show (2 * q + 1 - 1) / 2 = q by omega]
  | @right q h => right; refine ⟨by omega, ?_⟩; rwa [show (2 * q + 2 - 1) / 2 = q by omega]

theorem Below.le {k p : Nat} (h : Below k p) : k ≤ p := by
  induction h with
  | here => exact Nat.le_refl _
  | left _ ih => omega
  | right _ ih => omega

/-- From `k` on, no element is less than its parent. -/
def HeapFrom (W : β → β → Bool) (k : Nat) (h : List β) : Prop :=
  ∀ i x y, 0 < i → k ≤ (i - 1) / 2 → h[i]? = some x → h[(i - 1) / 2]? = some y → W x y = false

/-- A heap from `k` on with a hole at `pos`. -/
structure Hole (W : β → β → Bool) (k pos : Nat) (h : List β) : Prop where
  bound : pos < h.length
  below : Below k pos
  rest : ∀ i x y, 0 < i → k ≤ (i - 1) / 2 → i ≠ pos → (i - 1) / 2 ≠ pos → h[i]? = some x → h[(i - 1) / 2]? = some y → W x y = false
  across : ∀ i x y, pos ≠ k → 0 < i → (i - 1) / 2 = pos → h[i]? = some x → h[(pos - 1) / 2]? = some y → W x y = false

theorem set_swap_perm {h : List β} {i j : Nat} {v new : β} (hi : i < h.length) (hj : h[j]? = some v) (hij : j ≠ i) :
    ((h.set i v).set j new).Perm (h.set i new) := by
  obtain ⟨hjl, hv⟩ := List.getElem?_eq_some_iff.mp hj
  have := List.set_set_perm (as := h.set i new) (i := i) (j := j) (by simpa using hi) (by simpa using hjl)
  rw [List.getElem_set_ne (by omega), List.getElem_set_self, List.set_set, hv] at this
  exact this

theorem siftDown_spec {W : β → β → Bool} (hW : StrictWeak W) {lt : Ask β σ} (hlt : AnswersAs W lt) {k : Nat} {new : β} :
    ∀ (fuel : Nat) (h : List β) (pos : Nat) (s : σ), pos ≤ fuel → Hole W k pos h →
      (∀ i x, 0 < i → (i - 1) / 2 = pos → h[i]? = some x → W x new = false) →
      HeapFrom W k (siftDown lt k new fuel h pos s).1 ∧ (siftDown lt k new fuel h pos s).1.Perm (h.set pos new) := by
  have done : ∀ (h : List β) (pos : Nat), Hole W k pos h →
      (∀ i x, 0 < i → (i - 1) / 2 = pos → h[i]? = some x → W x new = false) →
      (∀ y, pos ≠ k → h[(pos - 1) / 2]? = some y → W new y = false) → HeapFrom W k (h.set pos new) := by
    intro h pos H hc hp i x y h0 hk hx hy
    by_cases hi : i = pos
    · subst hi
      rw [List.getElem?_set_self H.bound] at hx
      rw [List.getElem?_set_ne (by omega)] at hy
      cases hx
      refine hp y ?_ hy
      rintro rfl; omega
    · rw [List.getElem?_set_ne (by omega)] at hx
      by_cases hpar : (i - 1) / 2 = pos
      · rw [hpar, List.getElem?_set_self H.bound] at hy
        cases hy
        exact hc i x h0 hpar hx
      · rw [List.getElem?_set_ne (by omega)] at hy
        exact H.rest i x y h0 hk hi hpar hx hy
  intro fuel
  induction fuel with
  | zero =>
    intro h pos s hf H hc
    refine ⟨done h pos H hc ?_, List.Perm.refl _⟩
    intro y hne
    have := H.below.le
    omega
  | succ fuel ih =>
    intro h pos s hf H hc
    simp only [siftDown]
    split
    · rename_i hst
      obtain hk | ⟨hpos, hup⟩ := H.below.up
      · omega
      have hb := H.bound
      obtain ⟨pv, hpv⟩ : ∃ pv, h[(pos - 1) / 2]? = some pv := ⟨h[(pos - 1) / 2]'(by omega), List.getElem?_eq_getElem _⟩
      simp only [hpv]
      split
      · rename_i hl
        have hl' := hlt.yes hl
        have hkp := hup.le
        have hsib : ∀ i x, 0 < i → (i - 1) / 2 = (pos - 1) / 2 → (h.set pos pv)[i]? = some x → W x pv = false := by
          intro i x h0 hpar hx
          by_cases hi : i = pos
          · subst hi
            rw [List.getElem?_set_self hb] at hx
            cases hx
            exact StrictWeak.irrefl hW _
          · rw [List.getElem?_set_ne (by omega)] at hx
            exact H.rest i x pv h0 (by omega) hi (by omega) hx (by rw [hpar]; exact hpv)
        have := ih (h.set pos pv) ((pos - 1) / 2) (lt new pv s).2 (by omega)
          { bound := by simp; omega
            below := hup
            rest := by
              intro i x y h0 hk hi hpar hx hy
              by_cases hi' : i = pos
              · subst hi'; omega
              · rw [List.getElem?_set_ne (by omega)] at hx
                by_cases hp' : (i - 1) / 2 = pos
                · rw [hp', List.getElem?_set_self hb] at hy
                  cases hy
                  exact H.across i x pv (by omega) h0 hp' hx hpv
                · rw [List.getElem?_set_ne (by omega)] at hy
                  exact H.rest i x y h0 hk hi' hp' hx hy
            across := by
              intro i x y hne h0 hpar hx hy
              have h1 := hsib i x h0 hpar hx
              obtain hc' | ⟨hpp, hup'⟩ := hup.up
              · exact absurd hc' hne
              rw [List.getElem?_set_ne (by omega)] at hy
              have h2 := H.rest ((pos - 1) / 2) pv y hpp hup'.le (by omega) (by omega) hpv hy
              exact hW.negTrans _ _ _ h1 h2 }
          (by
            intro i x h0 hpar hx
            exact hW.negTrans _ _ _ (hsib i x h0 hpar hx) hl')
        exact ⟨this.1, this.2.trans (set_swap_perm hb hpv (by omega))⟩
      · rename_i hl
        refine ⟨done h pos H hc ?_, List.Perm.refl _⟩
        intro y _ hy
        rw [hpv] at hy; cases hy
        exact hlt.no hl
    · rename_i hst
      refine ⟨done h pos H hc ?_, List.Perm.refl _⟩
      intro y hne
      have := H.below.le
      omega

theorem smallerChild_spec {W : β → β → Bool} (hW : StrictWeak W) {lt : Ask β σ} (hlt : AnswersAs W lt) (h : List β) (pos : Nat) (s : σ) :
    ((smallerChild lt h pos s).1 = 2 * pos + 1 ∨ (smallerChild lt h pos s).1 = 2 * pos + 2) ∧
    (h[(smallerChild lt h pos s).1]? = none → h.length ≤ 2 * pos + 1) ∧
    (∀ v, h[(smallerChild lt h pos s).1]? = some v → ∀ i x, 0 < i → (i - 1) / 2 = pos → h[i]? = some x → W x v = false) := by
  have two : ∀ i, 0 < i → (i - 1) / 2 = pos → i = 2 * pos + 1 ∨ i = 2 * pos + 2 := by intro i h0 hi; omega
  unfold smallerChild
  cases hl : h[2 * pos + 1]? with
  | none =>
    refine ⟨Or.inl rfl, fun _ => List.getElem?_eq_none_iff.mp hl, ?_⟩
    intro v hv
    simp [hl] at hv
  | some l =>
    cases hr : h[2 * pos + 2]? with
    | none =>
      refine ⟨Or.inl rfl, fun e => by simp [hl] at e, ?_⟩
      intro v hv i x h0 hi hx
      simp only [hl] at hv; cases hv
      rcases two i h0 hi with rfl | rfl
      · rw [hl] at hx; cases hx; exact StrictWeak.irrefl hW _
      · rw [hr] at hx; cases hx
    | some r =>
      by_cases e : (lt l r s).1 = true
      · simp only [e, if_true]
        refine ⟨Or.inl trivial, fun e => by simp [hl] at e, ?_⟩
        intro v hv i x h0 hi hx
        rw [hl] at hv; cases hv
        rcases two i h0 hi with rfl | rfl
        · rw [hl] at hx; cases hx; exact StrictWeak.irrefl hW _
        · rw [hr] at hx; cases hx; exact hlt.yes e
      · simp only [e, Bool.false_eq_true, if_false]
        refine ⟨Or.inr trivial, fun e => by simp [hr] at e, ?_⟩
        intro v hv i x h0 hi hx
        rw [hr] at hv; cases hv
        rcases two i h0 hi with rfl | rfl
        · rw [hl] at hx; cases hx; exact hlt.no e
        · rw [hr] at hx; cases hx; exact StrictWeak.irrefl hW _

theorem siftToLeaf_spec {W : β → β → Bool} (hW : StrictWeak W) {lt : Ask β σ} (hlt : AnswersAs W lt) {k : Nat} (new : β) :
    ∀ (fuel : Nat) (h : List β) (pos : Nat) (s : σ), h.length ≤ pos + fuel → Hole W k pos h →
      Hole W k (siftToLeaf lt fuel h pos s).2.1 (siftToLeaf lt fuel h pos s).1 ∧
      (siftToLeaf lt fuel h pos s).1.length ≤ 2 * (siftToLeaf lt fuel h pos s).2.1 + 1 ∧
      ((siftToLeaf lt fuel h pos s).1.set (siftToLeaf lt fuel h pos s).2.1 new).Perm (h.set pos new) := by
  intro fuel
  induction fuel with
  | zero => intro h pos s hf H; have := H.bound; omega
  | succ fuel ih =>
    intro h pos s hf H
    obtain ⟨hc, hnone, hsome⟩ := smallerChild_spec hW hlt h pos s
    simp only [siftToLeaf]
    generalize hcd : smallerChild lt h pos s = cs at hc hnone hsome ⊢
    obtain ⟨c, s1⟩ := cs
    simp only at hc hnone hsome ⊢
    cases hv : h[c]? with
    | none => exact ⟨H, hnone hv, List.Perm.refl _⟩
    | some v =>
      simp only
      have hpar : (c - 1) / 2 = pos := by rcases hc with rfl | rfl <;> omega
      have hcl : c < h.length := (List.getElem?_eq_some_iff.mp hv).1
      have hb := H.bound
      have hcp : pos < c := by omega
      have hkp := H.below.le
      have := ih (h.set pos v) c s1 (by simp; omega)
        { bound := by simpa using hcl
          below := by rcases hc with rfl | rfl; exact H.below.left; exact H.below.right
          rest := by
            intro i x y h0 hk hi hpi hx hy
            by_cases hi' : i = pos
            · subst hi'
              rw [List.getElem?_set_self hb] at hx
              rw [List.getElem?_set_ne (by omega)] at hy
              cases hx
              exact H.across c v y (by rintro rfl; omega) (by omega) hpar hv hy
            · rw [List.getElem?_set_ne (by omega)] at hx
              by_cases hp' : (i - 1) / 2 = pos
              · rw [hp', List.getElem?_set_self hb] at hy
                cases hy
                exact hsome v hv i x h0 hp' hx
              · rw [List.getElem?_set_ne (by omega)] at hy
                exact H.rest i x y h0 hk hi' hp' hx hy
          across := by
            intro i x y hne h0 hpi hx hy
            rw [hpar, List.getElem?_set_self hb] at hy
            cases hy
            rw [List.getElem?_set_ne (by omega)] at hx
            exact H.rest i x v h0 (by omega) (by omega) (by omega) hx (by rw [hpi]; exact hv) }
      exact ⟨this.1, this.2.1, this.2.2.trans (set_swap_perm hb hv (by omega))⟩

theorem siftUp_spec {W : β → β → Bool} (hW : StrictWeak W) {lt : Ask β σ} (hlt : AnswersAs W lt) {k : Nat} {h : List β} (s : σ)
    (hk : k < h.length) (hh : HeapFrom W (k + 1) h) : HeapFrom W k (siftUp lt h k s).1 ∧ (siftUp lt h k s).1.Perm h := by
  have H : Hole W k k h :=
    { bound := hk
      below := .here
      rest := fun i x y h0 hk' _ hp hx hy => hh i x y h0 (by omega) hx hy
      across := fun i x y hne => absurd rfl hne }
  unfold siftUp
  rw [List.getElem?_eq_getElem hk]
  simp only
  have h1 := siftToLeaf_spec hW hlt h[k] h.length h k s (by omega) H
  generalize siftToLeaf lt h.length h k s = r at h1 ⊢
  obtain ⟨h1l, leaf, s1⟩ := r
  simp only at h1 ⊢
  have h2 := siftDown_spec hW hlt (new := h[k]) h1l.length h1l leaf s1 (Nat.le_of_lt h1.1.bound) h1.1 (by
    intro i x h0 hp hx
    have := (List.getElem?_eq_some_iff.mp hx).1
    omega)
  refine ⟨h2.1, h2.2.trans (h1.2.2.trans ?_)⟩
  rw [List.set_getElem_self]

theorem heapifyFrom_spec {W : β → β → Bool} (hW : StrictWeak W) {lt : Ask β σ} (hlt : AnswersAs W lt) :
    ∀ (k : Nat) (h : List β) (s : σ), k ≤ h.length → HeapFrom W k h →
      HeapFrom W 0 (heapifyFrom lt k h s).1 ∧ (heapifyFrom lt k h s).1.Perm h := by
  intro k
  induction k with
  | zero => intro h s _ hh; exact ⟨hh, List.Perm.refl _⟩
  | succ k ih =>
    intro h s hk hh
    have h1 := siftUp_spec hW hlt s (by omega) hh
    simp only [heapifyFrom]
    have h2 := ih (siftUp lt h k s).1 (siftUp lt h k s).2 (by rw [h1.2.length_eq]; omega) h1.1
    exact ⟨h2.1, h2.2.trans h1.2⟩

theorem heapify_spec {W : β → β → Bool} (hW : StrictWeak W) {lt : Ask β σ} (hlt : AnswersAs W lt) (h : List β) (s : σ) :
    HeapFrom W 0 (heapify lt h s).1 ∧ (heapify lt h s).1.Perm h := by
  refine heapifyFrom_spec hW hlt _ h s (by omega) ?_
  intro i x y h0 hk hx
  have := (List.getElem?_eq_some_iff.mp hx).1
  omega

/-- The root of a heap is a least element. -/
theorem heap_root_least {W : β → β → Bool} (hW : StrictWeak W) {top : β} {t : List β} (hh : HeapFrom W 0 (top :: t)) :
    ∀ x ∈ top :: t, W x top = false := by
  have key : ∀ (i : Nat) (x : β), (top :: t)[i]? = some x → W x top = false := by
    intro i
    induction i using Nat.strong_induction_on with
    | _ i ih =>
      intro x hx
      by_cases h0 : i = 0
      · subst h0; simp at hx; subst hx; exact StrictWeak.irrefl hW _
      · have hl := (List.getElem?_eq_some_iff.mp hx).1
        have hy : (top :: t)[(i - 1) / 2]? = some ((top :: t)[(i - 1) / 2]'(by omega)) := List.getElem?_eq_getElem _
        exact hW.negTrans _ _ _ (hh i x _ (by omega) (by omega) hx hy) (ih _ (by omega) _ hy)
  intro x hx
  obtain ⟨i, hi⟩ := List.mem_iff_getElem?.mp hx
  exact key i x hi

theorem heapReplace_spec {W : β → β → Bool} (hW : StrictWeak W) {lt : Ask β σ} (hlt : AnswersAs W lt) {top : β} {t : List β} (item : β) (s : σ)
    (hh : HeapFrom W 0 (top :: t)) :
    HeapFrom W 0 (heapReplace lt (top :: t) item s).1 ∧ (heapReplace lt (top :: t) item s).1.Perm (item :: t) := by
  unfold heapReplace
  refine siftUp_spec hW hlt s (by simp) ?_
  intro i x y h0 hk hx hy
  rw [List.getElem?_set_ne (by omega)] at hx hy
  exact hh i x y h0 (by omega) hx hy

theorem putDesc_spec {W : β → β → Bool} (hW : StrictWeak W) {lt : Ask β σ} (hlt : AnswersAs W lt) (x : β) :
    ∀ (l : List β) (s : σ), BestFirst W l → BestFirst W (putDesc lt x l s).1 ∧ (putDesc lt x l s).1.Perm (x :: l) := by
  intro l
  induction l with
  | nil => intro s _; exact ⟨by simp [putDesc, BestFirst], by simp [putDesc]⟩
  | cons z l ih =>
    intro s hl
    unfold BestFirst at hl ⊢
    rw [List.pairwise_cons] at hl
    simp only [putDesc]
    by_cases e : (lt z x s).1 = true
    · simp only [e, if_true]
      have h1 := hlt.yes e
      refine ⟨?_, List.Perm.refl _⟩
      rw [List.pairwise_cons]
      refine ⟨?_, List.pairwise_cons.mpr hl⟩
      intro y hy
      rcases List.mem_cons.mp hy with rfl | hy
      · exact h1
      · exact hW.negTrans _ _ _ h1 (hl.1 y hy)
    · simp only [e]
      have h1 := ih (lt z x s).2 hl.2
      refine ⟨?_, ?_⟩
      · simp only [Bool.false_eq_true, if_false]
        rw [List.pairwise_cons]
        refine ⟨?_, h1.1⟩
        intro y hy
        rcases List.mem_cons.mp (h1.2.mem_iff.mp hy) with rfl | hy
        · exact hlt.no e
        · exact hl.1 y hy
      · exact (h1.2.cons z).trans (List.Perm.swap _ _ _)

theorem sortDescFrom_spec {W : β → β → Bool} (hW : StrictWeak W) {lt : Ask β σ} (hlt : AnswersAs W lt) :
    ∀ (xs acc : List β) (s : σ), BestFirst W acc →
      BestFirst W (sortDescFrom lt acc xs s).1 ∧ (sortDescFrom lt acc xs s).1.Perm (acc ++ xs) := by
  intro xs
  induction xs with
  | nil => intro acc s h; simpa [sortDescFrom] using h
  | cons x xs ih =>
    intro acc s h
    have h1 := putDesc_spec hW hlt x acc s h
    simp only [sortDescFrom]
    have h2 := ih _ (putDesc lt x acc s).2 h1.1
    refine ⟨h2.1, h2.2.trans ((h1.2.append_right xs).trans ?_)⟩
    exact List.perm_middle.symm

theorem maxAsk_spec {W : α → α → Bool} (hW : StrictWeak W) {gt : Ask α σ} (hgt : AnswersAs (fun a b => W b a) gt) :
    ∀ (xs : List α) (x : α) (s : σ), (maxAsk gt x xs s).1 ∈ x :: xs ∧ ∀ y ∈ x :: xs, W (maxAsk gt x xs s).1 y = false := by
  intro xs
  induction xs with
  | nil => intro x s; simp [maxAsk, StrictWeak.irrefl hW]
  | cons y ys ih =>
    intro x s
    simp only [maxAsk]
    by_cases e : (gt y x s).1 = true
    · simp only [e, if_true]
      obtain ⟨h1, h2⟩ := ih y (gt y x s).2
      refine ⟨List.mem_cons_of_mem _ h1, ?_⟩
      intro z hz
      rcases List.mem_cons.mp hz with rfl | hz
      · have := hgt.yes e
        exact hW.negTrans _ _ _ (h2 y (by simp)) this
      · exact h2 z hz
    · simp only [e, Bool.false_eq_true, if_false]
      obtain ⟨h1, h2⟩ := ih x (gt y x s).2
      refine ⟨by rcases List.mem_cons.mp h1 with h | h <;> simp [h], ?_⟩
      intro z hz
      rcases List.mem_cons.mp hz with rfl | hz
      · exact h2 z (by simp)
      · rcases List.mem_cons.mp hz with rfl | hz
        · exact hW.negTrans _ _ _ (h2 x (by simp)) (hgt.no e)
        · exact h2 z (by simp [hz])

theorem numbered_fst (i : Int) (xs : List α) : (numbered i xs).map Prod.fst = xs := by
  induction xs generalizing i with
  | nil => rfl
  | cons x xs ih => simp [numbered, ih]

end Leap
