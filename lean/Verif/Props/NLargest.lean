import Mathlib.Data.Fintype.Basic
import Mathlib.Tactic.FinCases
import Mathlib.Algebra.Order.Archimedean.Basic
import Verif.Lemmas.NLargest
import Verif.Model.SelectionAsk
import Verif.Model.Selection
import Verif.Props.Compare

/-!
# C125: taking the best with `heapq.nlargest`

What truncation selection and elitist survival keep, with the heap that finds the best, the coins that comparing two NaN tosses, and the tolerance
of `==` between Python floats.
-/

namespace Leap
open Spec
variable {α σ : Type}

theorem tupleLt_answers {W : α → α → Bool} {lt : Ask α σ} (hlt : AnswersAs W lt) {eq same : α → α → Bool}
    (heq : ∀ a b, eq a b = true → W a b = false ∧ W b a = false) (hsame : ∀ a b, same a b = true → W a b = false ∧ W b a = false) :
    AnswersAs (fun a b : α × Int => W a.1 b.1) (tupleLt lt eq same) := by
  intro a b s
  simp only [tupleLt]
  have key : (same a.1 b.1 || eq a.1 b.1) = true → W a.1 b.1 = false ∧ W b.1 a.1 = false := by
    intro h
    rcases Bool.or_eq_true_iff.mp h with h | h
    · exact hsame _ _ h
    · exact heq _ _ h
  constructor
  · intro h
    split
    · rename_i e; rw [(key e).1] at h; cases h
    · exact (hlt _ _ _).1 h
  · intro h
    split
    · rename_i e; rw [(key e).2] at h; cases h
    · exact (hlt _ _ _).2 h

theorem gt_answers {W : α → α → Bool} (hW : StrictWeak W) {lt : Ask α σ} (hlt : AnswersAs W lt) {eq : α → α → Bool}
    (heq : ∀ a b, eq a b = true → W a b = false ∧ W b a = false) : AnswersAs (fun a b => W b a) (askGt lt eq) := by
  intro a b s
  simp only [askGt]
  constructor
  · intro h
    have h1 := (hlt a b s).2 h
    cases e : eq a b
    · simp [h1]
    · rw [(heq a b e).2] at h; cases h
  · intro h
    simp [(hlt a b s).1 h]

theorem StrictWeak.onFst {W : α → α → Bool} (hW : StrictWeak W) : StrictWeak (fun a b : α × Int => W a.1 b.1) :=
  ⟨fun a b => hW.asymm a.1 b.1, fun a b c => hW.negTrans a.1 b.1 c.1⟩

/-- What the loop has kept and dropped of what it has seen. -/
structure Keeping (W : α → α → Bool) (heap : List (α × Int)) (dropped seen : List α) : Prop where
  isHeap : HeapFrom (fun a b : α × Int => W a.1 b.1) 0 heap
  perm : (heap.map Prod.fst ++ dropped).Perm seen
  best : ∀ x ∈ heap, ∀ y ∈ dropped, W x.1 y = false

theorem nlargestLoop_keeps {W : α → α → Bool} (hW : StrictWeak W) {lt : Ask α σ} (hlt : AnswersAs W lt) {eq same : α → α → Bool}
    (heq : ∀ a b, eq a b = true → W a b = false ∧ W b a = false) (hsame : ∀ a b, same a b = true → W a b = false ∧ W b a = false) :
    ∀ (xs : List α) (heap : List (α × Int)) (order : Int) (s : σ) (dropped seen : List α), heap ≠ [] → Keeping W heap dropped seen →
      (nlargestLoop lt eq same heap order xs s).1.length = heap.length ∧
      ∃ dropped', Keeping W (nlargestLoop lt eq same heap order xs s).1 dropped' (seen ++ xs) := by
  intro xs
  induction xs with
  | nil => intro heap order s dropped seen _ H; exact ⟨rfl, dropped, by simpa [nlargestLoop] using H⟩
  | cons x xs ih =>
    intro heap order s dropped seen hne H
    cases heap with
    | nil => exact absurd rfl hne
    | cons top t =>
      have hroot := heap_root_least (StrictWeak.onFst hW) H.isHeap
      simp only [nlargestLoop]
      split
      · rename_i e
        have hx := hlt.yes e
        obtain ⟨hh, hp⟩ := heapReplace_spec (StrictWeak.onFst hW) (tupleLt_answers hlt heq hsame) (x, order) (lt top.1 x s).2 H.isHeap
        have := ih (heapReplace (tupleLt lt eq same) (top :: t) (x, order) (lt top.1 x s).2).1 (order - 1)
          (heapReplace (tupleLt lt eq same) (top :: t) (x, order) (lt top.1 x s).2).2 (top.1 :: dropped) (seen ++ [x])
          (by intro h; rw [h] at hp; exact absurd hp.length_eq (by simp))
          { isHeap := hh
            perm := by
              refine ((hp.map Prod.fst).append_right _).trans ?_
              have h1 := H.perm
              simp only [List.map_cons, List.cons_append] at h1 ⊢
              refine (List.Perm.trans ?_ (h1.cons x)).trans (List.perm_append_singleton x seen).symm
              exact List.perm_middle.cons x
            best := by
              intro h hh' y hy
              have hold : ∀ z ∈ top :: t, W z.1 y = false := by
                intro z hz
                rcases List.mem_cons.mp hy with rfl | hy
                · exact hroot z hz
                · exact H.best z hz y hy
              rcases List.mem_cons.mp (hp.mem_iff.mp hh') with rfl | hh'
              · exact hW.negTrans _ _ _ hx (hold top (by simp))
              · exact hold h (by simp [hh']) }
        obtain ⟨hl, d, hd⟩ := this
        refine ⟨by rw [hl, hp.length_eq]; simp, d, ?_⟩
        simpa using hd
      · rename_i e
        have hx := hlt.no e
        have := ih (top :: t) order (lt top.1 x s).2 (x :: dropped) (seen ++ [x]) (by simp)
          { isHeap := H.isHeap
            perm := (List.perm_middle.trans (H.perm.cons x)).trans (List.perm_append_singleton x seen).symm
            best := by
              intro h hh y hy
              rcases List.mem_cons.mp hy with rfl | hy
              · exact hW.negTrans _ _ _ (hroot h hh) hx
              · exact H.best h hh y hy }
        obtain ⟨hl, d, hd⟩ := this
        exact ⟨hl, d, by simpa using hd⟩

/-- C125: if `<` answers as the order `W` wherever `W` tells two elements apart, and `==` only holds between elements `W` does not tell apart, then
`heapq.nlargest(n, xs)` returns `n` best elements in order, whatever `<` answers (coins) about elements of the same rank. -/
theorem nlargest_kbest {W : α → α → Bool} (hW : StrictWeak W) {lt : Ask α σ} (hlt : AnswersAs W lt) {eq same : α → α → Bool}
    (heq : ∀ a b, eq a b = true → W a b = false ∧ W b a = false) (hsame : ∀ a b, same a b = true → a = b)
    (hasLen : Bool) (n : Nat) (xs : List α) (s : σ) :
    KBest W n xs (nlargest lt eq same hasLen n xs s).1 ∧ BestFirst W (nlargest lt eq same hasLen n xs s).1 := by
  have hsame' : ∀ a b, same a b = true → W a b = false ∧ W b a = false := by
    intro a b h; obtain rfl := hsame a b h; exact ⟨StrictWeak.irrefl hW _, StrictWeak.irrefl hW _⟩
  unfold nlargest
  split
  · rename_i hn
    subst hn
    cases xs with
    | nil => exact ⟨⟨[], by simp, by simp, by simp⟩, by simp [BestFirst]⟩
    | cons x rest =>
      obtain ⟨hm, hb⟩ := maxAsk_spec hW (gt_answers hW hlt heq) rest x s
      obtain ⟨l1, l2, hl⟩ := List.append_of_mem hm
      refine ⟨⟨l1 ++ l2, ?_, by simp, ?_⟩, by simp [BestFirst]⟩
      · show ([(maxAsk (askGt lt eq) x rest s).1] ++ (l1 ++ l2)).Perm (x :: rest)
        rw [hl, List.singleton_append]; exact List.perm_middle.symm
      · intro a ha y hy
        simp only [List.mem_singleton] at ha
        subst ha
        refine hb y ?_
        rw [hl]
        rcases List.mem_append.mp hy with h | h <;> simp [h]
  · split
    · rename_i h
      simp only [Bool.and_eq_true, decide_eq_true_eq] at h
      obtain ⟨hb, hp⟩ := sortDescFrom_spec hW hlt xs [] s (by simp [BestFirst])
      simp only [List.nil_append] at hp
      have htake : ((sortDescFrom lt [] xs s).1).take n = (sortDescFrom lt [] xs s).1 := by
        rw [List.take_of_length_le]; rw [hp.length_eq]; exact h.2
      simp only [htake]
      refine ⟨⟨[], by simpa using hp, ?_, by simp⟩, hb⟩
      rw [hp.length_eq]; omega
    · split
      · rename_i h
        have h' : xs.take n = [] := by rw [← numbered_fst 0 (xs.take n), h]; rfl
        refine ⟨⟨xs, by simp, ?_, by simp⟩, by simp [BestFirst]⟩
        have := congrArg List.length h'
        simp only [List.length_take, List.length_nil] at this ⊢
        omega
      · rename_i result hne
        have hA := tupleLt_answers hlt heq hsame'
        obtain ⟨hh, hp⟩ := heapify_spec (StrictWeak.onFst hW) hA (numbered 0 (xs.take n)) s
        have hfst := (hp.map Prod.fst)
        rw [numbered_fst] at hfst
        have hlen : (numbered 0 (xs.take n)).length = min n xs.length := by
          have := congrArg List.length (numbered_fst 0 (xs.take n)); simpa using this
        obtain ⟨hl, d, H⟩ := nlargestLoop_keeps hW hlt heq hsame' (xs.drop n) (heapify (tupleLt lt eq same) (numbered 0 (xs.take n)) s).1 (-(n : Int))
          (heapify (tupleLt lt eq same) (numbered 0 (xs.take n)) s).2 [] (xs.take n)
          (by intro h; rw [h] at hp; exact hne (List.nil_perm.mp hp))
          ⟨hh, by simpa using hfst, by simp⟩
        rw [List.take_append_drop] at H
        obtain ⟨hb, hp2⟩ := sortDescFrom_spec (StrictWeak.onFst hW) hA
          (nlargestLoop lt eq same (heapify (tupleLt lt eq same) (numbered 0 (xs.take n)) s).1 (-(n : Int)) (xs.drop n)
            (heapify (tupleLt lt eq same) (numbered 0 (xs.take n)) s).2).1 []
          (nlargestLoop lt eq same (heapify (tupleLt lt eq same) (numbered 0 (xs.take n)) s).1 (-(n : Int)) (xs.drop n)
            (heapify (tupleLt lt eq same) (numbered 0 (xs.take n)) s).2).2 (by simp [BestFirst])
        simp only [List.nil_append] at hp2
        refine ⟨⟨d, ((hp2.map Prod.fst).append_right d).trans H.perm, ?_, ?_⟩, ?_⟩
        · simp only [List.length_map]; rw [hp2.length_eq, hl, hp.length_eq, hlen]
        · intro x hx y hy
          obtain ⟨z, hz, rfl⟩ := List.mem_map.mp hx
          exact H.best z (hp2.mem_iff.mp hz) y hy
        · unfold BestFirst at hb ⊢
          rw [List.pairwise_map]; exact hb

/-! ## With exact comparisons it is the stable sort -/

/-- Put `x` behind everything before it that is not worse. -/
def putPure (W : α → α → Bool) (x : α) : List α → List α
  | [] => [x]
  | z :: l => if W z x then x :: z :: l else z :: putPure W x l

theorem insert_put {W : α → α → Bool} (hW : StrictWeak W) (x y : α) (l : List α) :
    List.orderedInsert (fun a b => W a b = false) y (putPure W x l) = putPure W x (List.orderedInsert (fun a b => W a b = false) y l) := by
  induction l with
  | nil => cases e : W y x <;> simp [putPure, e]
  | cons z l ih =>
    cases hzx : W z x
    · cases hyz : W y z
      · have := hW.negTrans _ _ _ hyz hzx
        simp [putPure, hzx, hyz, this]
      · simp [putPure, hzx, hyz, ih]
    · cases hyx : W y x
      · have hyz : W y z = false := by
          cases e : W y z
          · rfl
          · rw [StrictWeak.trans hW e hzx] at hyx; cases hyx
        simp [putPure, hzx, hyz, hyx]
      · cases hyz : W y z <;> simp [putPure, hzx, hyz, hyx]

theorem sortedDesc_snoc {W : α → α → Bool} (hW : StrictWeak W) (xs : List α) (x : α) :
    sortedDesc W (xs ++ [x]) = putPure W x (sortedDesc W xs) := by
  unfold sortedDesc
  induction xs with
  | nil => simp [putPure]
  | cons y ys ih => rw [List.cons_append, List.insertionSort_cons, ih, insert_put hW, List.insertionSort_cons]

theorem putDesc_pure {W : β → β → Bool} {lt : Ask β σ} (hlt : ∀ a b s, (lt a b s).1 = W a b) (x : β) (l : List β) (s : σ) :
    (putDesc lt x l s).1 = putPure W x l := by
  induction l generalizing s with
  | nil => rfl
  | cons z l ih =>
    simp only [putDesc, putPure, hlt]
    split
    · rfl
    · rw [ih]

theorem sortDescFrom_pure {W : β → β → Bool} (hW : StrictWeak W) {lt : Ask β σ} (hlt : ∀ a b s, (lt a b s).1 = W a b) (xs ys : List β) (s : σ) :
    (sortDescFrom lt (sortedDesc W ys) xs s).1 = sortedDesc W (ys ++ xs) := by
  induction xs generalizing ys s with
  | nil => simp [sortDescFrom]
  | cons x xs ih =>
    simp only [sortDescFrom]
    rw [putDesc_pure hlt, ← sortedDesc_snoc hW, ih]
    simp

/-- Putting one more element into the best `n`. -/
theorem take_put {W : α → α → Bool} (hW : StrictWeak W) (x : α) :
    ∀ (n : Nat) (l : List α) (last : α), BestFirst W l → l[n]? = some last →
      (putPure W x l).take (n + 1) = if W last x then putPure W x (l.take n) else l.take (n + 1) := by
  intro n
  induction n with
  | zero =>
    intro l last hl hlast
    cases l with
    | nil => simp at hlast
    | cons z l =>
      simp at hlast; subst hlast
      cases e : W z x <;> simp [putPure, e]
  | succ n ih =>
    intro l last hl hlast
    cases l with
    | nil => simp at hlast
    | cons z l =>
      unfold BestFirst at hl
      rw [List.pairwise_cons] at hl
      simp only [List.getElem?_cons_succ] at hlast
      have hz : W z last = false := hl.1 last (List.mem_of_getElem? hlast)
      have := ih l last hl.2 hlast
      cases e : W z x
      · simp only [putPure, e, Bool.false_eq_true, if_false, List.take_succ_cons, this]
        split <;> rfl
      · have hlx : W last x = true := by
          cases e' : W last x
          · rw [hW.negTrans _ _ _ hz e'] at e; cases e
          · rfl
        simp [putPure, e, hlx]

/-- The order of the entries `(element, number)` when `==` is exact. -/
def entryLess (W : α → α → Bool) (a b : α × Int) : Bool := W a.1 b.1 || (!W b.1 a.1 && decide (a.2 < b.2))

theorem entryLess_weak {W : α → α → Bool} (hW : StrictWeak W) : StrictWeak (entryLess W) := by
  constructor
  · intro a b h
    unfold entryLess at *
    have := hW.asymm a.1 b.1
    cases e : W a.1 b.1 <;> cases e' : W b.1 a.1 <;> simp_all
    omega
  · intro a b c h1 h2
    unfold entryLess at *
    have h3 := hW.negTrans a.1 b.1 c.1
    have h4 := hW.negTrans c.1 b.1 a.1
    have h5 := hW.negTrans c.1 a.1 b.1
    have h6 := hW.negTrans b.1 c.1 a.1
    have h7 := hW.negTrans b.1 a.1 c.1
    have h8 := hW.negTrans a.1 c.1 b.1
    have a1 := hW.asymm a.1 b.1
    have a2 := hW.asymm b.1 c.1
    have a3 := hW.asymm a.1 c.1
    cases e1 : W a.1 b.1 <;> cases e2 : W b.1 a.1 <;> cases e3 : W b.1 c.1 <;> cases e4 : W c.1 b.1 <;> cases e5 : W a.1 c.1 <;>
      cases e6 : W c.1 a.1 <;> simp_all
    omega

/-- What exact comparisons are: `<` is the order and `==` holds exactly between elements the order does not tell apart. -/
structure Spec.Exact (W : α → α → Bool) (lt : Ask α σ) (eq same : α → α → Bool) : Prop where
  lt : ∀ a b s, (lt a b s).1 = W a b
  eq : ∀ a b, eq a b = (!W a b && !W b a)
  same : ∀ a b, same a b = true → a = b

theorem tupleLt_exact {W : α → α → Bool} (hW : StrictWeak W) {lt : Ask α σ} {eq same : α → α → Bool} (h : Exact W lt eq same) (a b : α × Int) (s : σ) :
    (tupleLt lt eq same a b s).1 = entryLess W a b := by
  unfold tupleLt entryLess
  have hs := h.same a.1 b.1
  have hi := StrictWeak.irrefl hW a.1
  have ha := hW.asymm a.1 b.1
  cases e : same a.1 b.1
  · rw [h.eq]
    cases e1 : W a.1 b.1 <;> cases e2 : W b.1 a.1 <;> simp_all [h.lt]
  · have := hs e
    rw [← this]
    simp [hi]

theorem answers_of_eq {W : β → β → Bool} (hW : StrictWeak W) {lt : Ask β σ} (hlt : ∀ a b s, (lt a b s).1 = W a b) : AnswersAs W lt :=
  fun a b s => ⟨fun h => by rw [hlt, h], fun h => by rw [hlt]; exact hW.asymm _ _ h⟩

/-- The heap and the stable sort of what has been seen: the same entries, and the sort's are numbered downwards. -/
structure Mirror (W : α → α → Bool) (n : Nat) (heap : List (α × Int)) (order : Int) (seen : List α) : Prop where
  isHeap : HeapFrom (entryLess W) 0 heap
  mirror : ∃ d : List (α × Int), heap.Perm d ∧ d.Pairwise (fun a b => entryLess W b a = true) ∧ (∀ a ∈ d, order < a.2) ∧
    d.map Prod.fst = (sortedDesc W seen).take n

theorem put_entries {W : α → α → Bool} (hW : StrictWeak W) (x : α) (o : Int) (d : List (α × Int))
    (hd : d.Pairwise (fun a b => entryLess W b a = true)) (ho : ∀ a ∈ d, o < a.2) :
    (putPure (fun a b : α × Int => W a.1 b.1) (x, o) d).Pairwise (fun a b => entryLess W b a = true) ∧
    (putPure (fun a b : α × Int => W a.1 b.1) (x, o) d).map Prod.fst = putPure W x (d.map Prod.fst) ∧
    (putPure (fun a b : α × Int => W a.1 b.1) (x, o) d).Perm ((x, o) :: d) := by
  have hE := entryLess_weak hW
  induction d with
  | nil => simp [putPure]
  | cons z d ih =>
    rw [List.pairwise_cons] at hd
    obtain ⟨h1, h2, h3⟩ := ih hd.2 (fun a ha => ho a (by simp [ha]))
    cases e : W z.1 x
    · simp only [putPure, e, Bool.false_eq_true, if_false, List.map_cons, h2]
      refine ⟨?_, trivial, (h3.cons z).trans (List.Perm.swap _ _ _)⟩
      rw [List.pairwise_cons]
      refine ⟨?_, h1⟩
      intro a ha
      rcases List.mem_cons.mp (h3.mem_iff.mp ha) with rfl | ha
      · have := ho z (by simp)
        simp [entryLess, e, this]
      · exact hd.1 a ha
    · simp only [putPure, e, if_true, List.map_cons]
      refine ⟨?_, trivial, List.Perm.refl _⟩
      rw [List.pairwise_cons]
      have hzx : entryLess W z (x, o) = true := by simp [entryLess, e]
      refine ⟨?_, List.pairwise_cons.mpr hd⟩
      intro a ha
      rcases List.mem_cons.mp ha with rfl | ha
      · exact hzx
      · exact StrictWeak.trans hE (hd.1 a ha) hzx

theorem nlargestLoop_mirrors {W : α → α → Bool} (hW : StrictWeak W) {lt : Ask α σ} {eq same : α → α → Bool} (h : Exact W lt eq same) (n : Nat) :
    ∀ (xs : List α) (heap : List (α × Int)) (order : Int) (s : σ) (seen : List α), heap.length = n + 1 → Mirror W (n + 1) heap order seen →
      ∃ order', Mirror W (n + 1) (nlargestLoop lt eq same heap order xs s).1 order' (seen ++ xs) := by
  have hE := entryLess_weak hW
  intro xs
  induction xs with
  | nil => intro heap order s seen _ H; exact ⟨order, by simpa [nlargestLoop] using H⟩
  | cons x xs ih =>
    intro heap order s seen hlen H
    cases heap with
    | nil => simp at hlen
    | cons top t =>
      obtain ⟨d, hp, hd, ho, hm⟩ := H.mirror
      have hroot := heap_root_least hE H.isHeap
      have hdlen : d.length = n + 1 := by rw [← hp.length_eq, hlen]
      -- the root is the last of the sorted entries
      have hdne : d ≠ [] := by intro e; rw [e] at hdlen; simp at hdlen
      have hlast : d.getLast hdne = top := by
        have hmem : top ∈ d := hp.mem_iff.mp (by simp)
        rw [← List.dropLast_append_getLast hdne] at hmem hd
        rcases List.mem_append.mp hmem with hm' | hm'
        · have h1 := (List.pairwise_append.mp hd).2.2 top hm' (d.getLast hdne) (by simp)
          have h2 := hroot (d.getLast hdne) (hp.mem_iff.mpr (List.getLast_mem hdne))
          rw [h1] at h2; cases h2
        · exact (List.mem_singleton.mp hm').symm
      have hsplit : d = d.dropLast ++ [top] := by rw [← hlast]; exact (List.dropLast_append_getLast hdne).symm
      have hnth : (sortedDesc W seen)[n]? = some top.1 := by
        have h1 : (d.map Prod.fst)[n]? = some top.1 := by
          rw [hsplit, List.map_append, List.getElem?_append_right (by simp [hdlen])]
          simp [hdlen]
        rw [hm, List.getElem?_take] at h1
        simpa using h1
      have hput := take_put hW x n (sortedDesc W seen) top.1 (sortedDesc_pairwise hW seen) hnth
      rw [← sortedDesc_snoc hW] at hput
      simp only [nlargestLoop, h.lt]
      split
      · rename_i e
        simp only [e, if_true] at hput
        obtain ⟨hh, hp2⟩ := heapReplace_spec hE (answers_of_eq hE (tupleLt_exact hW h)) (x, order) (lt top.1 x s).2 H.isHeap
        have hdd : d.dropLast.Pairwise (fun a b => entryLess W b a = true) := hd.sublist (List.dropLast_sublist d)
        obtain ⟨q1, q2, q3⟩ := put_entries hW x order d.dropLast hdd (fun a ha => ho a ((List.dropLast_sublist d).subset ha))
        have htd : t.Perm d.dropLast := by
          rw [hsplit] at hp
          exact List.Perm.cons_inv (hp.trans (List.perm_append_singleton _ _))
        have := ih (heapReplace (tupleLt lt eq same) (top :: t) (x, order) (lt top.1 x s).2).1 (order - 1)
          (heapReplace (tupleLt lt eq same) (top :: t) (x, order) (lt top.1 x s).2).2 (seen ++ [x])
          (by rw [hp2.length_eq]; simpa using hlen)
          { isHeap := hh
            mirror := by
              refine ⟨_, hp2.trans ((htd.cons _).trans q3.symm), q1, ?_, ?_⟩
              · intro a ha
                rcases List.mem_cons.mp (q3.mem_iff.mp ha) with rfl | ha
                · simp
                · have := ho a ((List.dropLast_sublist d).subset ha); omega
              · rw [q2, hput]
                congr 1
                have h2 : (d.map Prod.fst).take n = (sortedDesc W seen).take n := by rw [hm, List.take_take]; congr 1; omega
                rw [← h2, hsplit]
                simp [hdlen] }
        obtain ⟨o', ho'⟩ := this
        exact ⟨o', by simpa using ho'⟩
      · rename_i e
        simp only [e, Bool.false_eq_true, if_false] at hput
        obtain ⟨o', ho'⟩ := ih (top :: t) order (lt top.1 x s).2 (seen ++ [x]) hlen ⟨H.isHeap, d, hp, hd, ho, by rw [hm, hput]⟩
        exact ⟨o', by simpa using ho'⟩

theorem numbered_sorted {W : α → α → Bool} (hW : StrictWeak W) (xs seen : List α) (d : List (α × Int)) (i : Int)
    (hd : d.Pairwise (fun a b => entryLess W b a = true)) (ho : ∀ a ∈ d, i < a.2) (hm : d.map Prod.fst = sortedDesc W seen) :
    ∃ d' : List (α × Int), d'.Perm (d ++ numbered i xs) ∧ d'.Pairwise (fun a b => entryLess W b a = true) ∧
      (∀ a ∈ d', i - xs.length < a.2) ∧ d'.map Prod.fst = sortedDesc W (seen ++ xs) := by
  induction xs generalizing seen d i with
  | nil => exact ⟨d, by simp [numbered], hd, by simpa using ho, by simpa using hm⟩
  | cons x xs ih =>
    obtain ⟨q1, q2, q3⟩ := put_entries hW x i d hd ho
    obtain ⟨d', h1, h2, h3, h4⟩ := ih (seen ++ [x]) _ (i - 1) q1 (by
      intro a ha
      rcases List.mem_cons.mp (q3.mem_iff.mp ha) with rfl | ha
      · simp
      · have := ho a ha; omega) (by rw [q2, hm, sortedDesc_snoc hW])
    refine ⟨d', h1.trans ((q3.append_right _).trans ?_), h2, ?_, by simpa using h4⟩
    · exact List.perm_middle.symm
    · intro a ha
      have := h3 a ha
      simp only [List.length_cons] at this ⊢
      push_cast
      omega

/-- Strictly sorted entries are determined by what they contain. -/
theorem sorted_entries_unique {E : β → β → Bool} (hE : StrictWeak E) (a b : List β) (hp : a.Perm b)
    (ha : BestFirst E a) (hb : b.Pairwise (fun x y => E y x = true)) : a = b := by
  induction b generalizing a with
  | nil => exact hp.eq_nil
  | cons y ys ih =>
    cases a with
    | nil => exact absurd hp.length_eq (by simp)
    | cons x xs =>
      unfold BestFirst at ha
      rw [List.pairwise_cons] at ha hb
      have hx : x = y := by
        rcases List.mem_cons.mp (hp.mem_iff.mp (List.mem_cons_self (a := x) (l := xs))) with h | h
        · exact h
        · have h1 := hb.1 x h
          rcases List.mem_cons.mp (hp.mem_iff.mpr (List.mem_cons_self (a := y) (l := ys))) with h' | h'
          · exact h'.symm
          · rw [ha.1 y h'] at h1; cases h1
      subst hx
      rw [ih xs hp.cons_inv ha.2 hb.2]

theorem maxAsk_pure {W : α → α → Bool} (hW : StrictWeak W) {gt : Ask α σ} (hgt : ∀ a b s, (gt a b s).1 = W b a) (xs seen : List α) (x : α) (s : σ)
    (h : (sortedDesc W seen).head? = some x) : (sortedDesc W (seen ++ xs)).head? = some (maxAsk gt x xs s).1 := by
  induction xs generalizing seen x s with
  | nil => simpa [maxAsk] using h
  | cons y ys ih =>
    simp only [maxAsk, hgt]
    have := ih (seen ++ [y]) (if W x y then y else x) (gt y x s).2 (by
      rw [sortedDesc_snoc hW]
      cases e : sortedDesc W seen with
      | nil => rw [e] at h; cases h
      | cons z l =>
        rw [e] at h; simp at h; subst h
        simp only [putPure]
        split <;> simp)
    simpa using this

/-- C125: with exact comparisons, `heapq.nlargest(n, xs)` is `sorted(xs, reverse=True)[:n]`, order and ties included, through the single-element, the sorting and
the heap path alike. This is what `Verif/Py/Order.lean` takes it to be. -/
theorem nlargest_is_topk {W : α → α → Bool} (hW : StrictWeak W) {lt : Ask α σ} {eq same : α → α → Bool} (h : Exact W lt eq same)
    (hasLen : Bool) (n : Nat) (xs : List α) (s : σ) : (nlargest lt eq same hasLen n xs s).1 = topk W n xs := by
  have hE := entryLess_weak hW
  unfold nlargest topk
  split
  · rename_i hn
    subst hn
    cases xs with
    | nil => simp [sortedDesc]
    | cons x rest =>
      have := maxAsk_pure hW (gt := askGt lt eq) (by
        intro a b s
        simp only [askGt, h.lt, h.eq]
        have := hW.asymm a b
        cases e1 : W a b <;> cases e2 : W b a <;> simp_all) rest [x] x s (by simp [sortedDesc])
      simp only [List.cons_append, List.nil_append] at this
      cases e : sortedDesc W (x :: rest) with
      | nil => rw [e] at this; cases this
      | cons z l => rw [e] at this; simp at this; simp [this]
  · split
    · have := sortDescFrom_pure hW h.lt xs [] s
      simp only [List.nil_append] at this
      have h0 : sortedDesc W ([] : List α) = [] := rfl
      rw [h0] at this
      simp only [this]
    · split
      · rename_i hnil
        have h' : xs.take n = [] := by rw [← numbered_fst 0 (xs.take n), hnil]; rfl
        rcases List.take_eq_nil_iff.mp h' with rfl | rfl
        · simp
        · simp [sortedDesc]
      · rename_i result hne
        have hA := answers_of_eq hE (tupleLt_exact hW h)
        have hlen : (numbered 0 (xs.take n)).length = min n xs.length := by
          have := congrArg List.length (numbered_fst 0 (xs.take n)); simpa using this
        obtain ⟨hh, hp⟩ := heapify_spec hE hA (numbered 0 (xs.take n)) s
        obtain ⟨d, d1, d2, d3, d4⟩ := numbered_sorted hW (xs.take n) [] [] 0 (by simp) (by simp) (by simp [sortedDesc])
        simp only [List.nil_append] at d1 d4
        have fin : ∀ (heap : List (α × Int)) (s : σ) (d : List (α × Int)), heap.Perm d → d.Pairwise (fun a b => entryLess W b a = true) →
            (sortDescFrom (tupleLt lt eq same) [] heap s).1 = d := by
          intro heap s d hpd hd
          obtain ⟨b1, b2⟩ := sortDescFrom_spec hE hA heap [] s (by simp [BestFirst])
          exact sorted_entries_unique hE _ _ (by simpa using b2.trans hpd) b1 hd
        by_cases hshort : xs.length < n
        · -- fewer elements than asked for: the loop has nothing to do
          rw [List.drop_of_length_le (by omega)]
          simp only [nlargestLoop]
          rw [fin _ _ d (hp.trans d1.symm) d2, d4, List.take_of_length_le (by omega), List.take_of_length_le]
          rw [(sortedDesc_perm W xs).length_eq]; omega
        · obtain ⟨m, rfl⟩ : ∃ m, n = m + 1 := by
            cases n with
            | zero => simp [numbered] at hne
            | succ m => exact ⟨m, rfl⟩
          obtain ⟨o', M⟩ := nlargestLoop_mirrors hW h m (xs.drop (m + 1)) (heapify (tupleLt lt eq same) (numbered 0 (xs.take (m + 1))) s).1
            (-((m + 1 : Nat) : Int)) (heapify (tupleLt lt eq same) (numbered 0 (xs.take (m + 1))) s).2 (xs.take (m + 1))
            (by rw [hp.length_eq, hlen]; omega)
            ⟨hh, d, hp.trans d1.symm, d2, by
              intro a ha
              have := d3 a ha
              simp only [List.length_take] at this
              push_cast at this ⊢
              omega, by
              rw [d4, List.take_of_length_le (l := sortedDesc W (xs.take (m + 1))) (by rw [(sortedDesc_perm W _).length_eq]; simp)]⟩
          rw [List.take_append_drop] at M
          obtain ⟨d', m1, m2, _, m4⟩ := M.mirror
          dsimp only
          rw [fin _ _ d' m1 m2, m4]

/-! ## Truncation selection and elitist survival of evaluated individuals -/

/-- `a` ranks below `b`: a NaN below every number, numbers by the direction of the problem, and two NaN on a par. -/
def Spec.ranksBelow (p : ScalarProblem) (fit : α → SFit) (a b : α) : Bool := p.worseThan false (fit a) (fit b)

/-- C125: `ranksBelow` says what it should. -/
theorem ranks_below_iff (p : ScalarProblem) (fit : α → SFit) (a b : α) :
    ranksBelow p fit a b = true ↔
      ((fit a).val = .nan ∧ (fit b).val ≠ .nan) ∨ Better p.maximize (fit b).val (fit a).val := by
  unfold ranksBelow
  by_cases ha : (fit a).val = .nan
  · have nb : ∀ m v, ¬ Better m v .nan := by rintro m v ⟨px, py, h, _⟩; simp [point] at h
    by_cases hb : (fit b).val = .nan <;> simp [ScalarProblem.worseThan, ha, hb, Num.isNan, nb]
  · by_cases hb : (fit b).val = .nan
    · have nb : ∀ m v, ¬ Better m .nan v := by rintro m v ⟨px, py, _, h, _⟩; simp [point] at h
      have hna : (fit a).val.isNan = false := by cases e : (fit a).val <;> simp_all [Num.isNan]
      simp [ScalarProblem.worseThan, ha, hb, hna, Num.isNan, nb]
    · have := (lt_iff_better p false (fit a) (fit b) ha hb).1
      simp only [indLt, Except.ok.injEq] at this
      rw [this]
      simp [ha]

theorem ranksBelow_weak (p : ScalarProblem) (fit : α → SFit) : StrictWeak (ranksBelow p fit) := by
  have num : ∀ x y : Num, x.isNan = false → y.isNan = false → Num.lt x y = true → Num.lt y x = false := by
    intro x y hx hy
    cases x <;> cases y <;> simp_all [Num.lt, Num.isNan]
    exact le_of_lt
  have neg : ∀ x y z : Num, x.isNan = false → y.isNan = false → z.isNan = false → Num.lt x y = false → Num.lt y z = false → Num.lt x z = false := by
    intro x y z hx hy hz
    cases x <;> cases y <;> cases z <;> simp_all [Num.lt, Num.isNan]
    exact fun h1 h2 => h2.trans h1
  constructor
  · intro a b
    unfold ranksBelow ScalarProblem.worseThan
    cases ha : (fit a).val.isNan <;> cases hb : (fit b).val.isNan <;> simp
    cases p.maximize <;> simp
    · exact num _ _ hb ha
    · exact num _ _ ha hb
  · intro a b c
    unfold ranksBelow ScalarProblem.worseThan
    cases ha : (fit a).val.isNan <;> cases hb : (fit b).val.isNan <;> cases hc : (fit c).val.isNan <;> simp
    cases p.maximize <;> simp
    · exact fun h1 h2 => neg _ _ _ hc hb ha h2 h1
    · exact neg _ _ _ ha hb hc

theorem fitAsk_answers (p : ScalarProblem) (fit : α → SFit) (coin : Nat → Bool) : AnswersAs (ranksBelow p fit) (fitAsk p fit coin) := by
  intro a b n
  have h := (ranksBelow_weak p fit).asymm b a
  unfold ranksBelow fitAsk ScalarProblem.worseThan at *
  cases ha : (fit a).val.isNan <;> cases hb : (fit b).val.isNan <;> simp_all

/-- No two Python float fitnesses are nearly equal without being equal. -/
def Spec.FloatsApart (fit : α → SFit) : Prop :=
  ∀ a b x y, fit a = ⟨true, .fin x⟩ → fit b = ⟨true, .fin y⟩ → WithinTol x y → x = y

theorem fitEq_exact (p : ScalarProblem) (fit : α → SFit) (hfit : FloatsApart fit) (a b : α) (h : fitEq p fit a b = true) :
    ranksBelow p fit a b = false ∧ ranksBelow p fit b a = false := by
  have hval : (fit a).val = (fit b).val := by
    unfold fitEq ScalarProblem.equivalent at h
    have heq : ∀ x y : Num, Num.eq x y = true → x = y := by intro x y; cases x <;> cases y <;> simp [Num.eq]
    split at h
    · rename_i hf
      simp only [Bool.and_eq_true] at hf
      have hA := hfit a b
      rcases ea : fit a with ⟨fa, va⟩
      rcases eb : fit b with ⟨fb, vb⟩
      rw [ea, eb] at h hf hA
      simp only at h hf
      rw [hf.1, hf.2] at hA
      cases va <;> cases vb <;> simp_all [Num.isclose, Num.eq, Num.isInf]
      rename_i x y
      refine hA ?_
      rw [← isclose_fin_iff]
      simp only [Num.isclose, Num.eq, Num.isInf]
      simpa using h
    · exact heq _ _ h
  have hirr : ∀ v w : SFit, v.val = w.val → p.worseThan false v w = false := by
    intro v w e
    unfold ScalarProblem.worseThan
    rw [e]
    cases w.val <;> cases p.maximize <;> simp [Num.isNan, Num.lt]
  exact ⟨hirr _ _ hval, hirr _ _ hval.symm⟩

theorem same_eq [DecidableEq α] (a b : α) (h : (fun x y : α => decide (x = y)) a b = true) : a = b := by simpa using h

/-- C125: truncation selection of evaluated individuals keeps `size` best of them, best first, whatever the coins tossed between NaN fitnesses, provided no two Python float fitnesses are
nearly equal. Two of `α` are the same exactly if they are the same object. -/
theorem truncation_any_coins [DecidableEq α] (p : ScalarProblem) (fit : α → SFit) (hfit : FloatsApart fit) (coin : Nat → Bool) (offspring : List α)
    (size : Nat) (parents : Option (List α)) (n : Nat) :
    KBest (ranksBelow p fit) size (offspring ++ parents.getD [])
      (truncationAsk (fitAsk p fit coin) (fitEq p fit) (fun a b => decide (a = b)) offspring size parents n).1 ∧
    BestFirst (ranksBelow p fit) (truncationAsk (fitAsk p fit coin) (fitEq p fit) (fun a b => decide (a = b)) offspring size parents n).1 := by
  cases parents with
  | none =>
    simp only [truncationAsk, Option.getD_none, List.append_nil]
    exact nlargest_kbest (ranksBelow_weak p fit) (fitAsk_answers p fit coin) (fitEq_exact p fit hfit) same_eq true size offspring n
  | some ps =>
    simp only [truncationAsk, Option.getD_some]
    exact nlargest_kbest (ranksBelow_weak p fit) (fitAsk_answers p fit coin) (fitEq_exact p fit hfit) same_eq false size (offspring ++ ps) n

/-- C125: elitist survival of evaluated individuals returns as many as there were offspring, all of them offspring or parents, best first, and with at least one elite the first of them ranks below
no offspring and no parent, whatever the coins, provided no two Python float fitnesses are nearly equal. -/
theorem elitist_any_coins [DecidableEq α] (p : ScalarProblem) (fit : α → SFit) (hfit : FloatsApart fit) (coin : Nat → Bool) (offspring parents : List α)
    (k : Nat) (n : Nat) (out : List α)
    (hout : out = (elitistAsk (fitAsk p fit coin) (fitEq p fit) (fun a b => decide (a = b)) offspring parents k n).1) :
    out.length = offspring.length ∧ (∀ x ∈ out, x ∈ offspring ∨ x ∈ parents) ∧ BestFirst (ranksBelow p fit) out ∧
    (0 < k → ∀ b ∈ out.head?, ∀ x ∈ offspring ++ parents, ranksBelow p fit b x = false) := by
  have hW := ranksBelow_weak p fit
  subst hout
  simp only [elitistAsk]
  obtain ⟨⟨r1, p1, l1, b1⟩, f1⟩ := nlargest_kbest hW (fitAsk_answers p fit coin) (fitEq_exact p fit hfit) same_eq true k parents n
  generalize nlargest (fitAsk p fit coin) (fitEq p fit) (fun a b => decide (a = b)) true k parents n = el at *
  obtain ⟨⟨r2, p2, l2, b2⟩, f2⟩ := nlargest_kbest hW (fitAsk_answers p fit coin) (fitEq_exact p fit hfit) same_eq true offspring.length (offspring ++ el.1) el.2
  generalize nlargest (fitAsk p fit coin) (fitEq p fit) (fun a b => decide (a = b)) true offspring.length (offspring ++ el.1) el.2 = out at *
  have hmem : ∀ x ∈ out.1, x ∈ offspring ∨ x ∈ el.1 := fun x hx => List.mem_append.mp (p2.mem_iff.mp (List.mem_append_left _ hx))
  have hel : ∀ x ∈ el.1, x ∈ parents := fun x hx => p1.mem_iff.mp (List.mem_append_left _ hx)
  refine ⟨by rw [l2]; simp, fun x hx => (hmem x hx).imp id (hel x), f2, ?_⟩
  intro hk b hb x hx
  have hb' : b ∈ out.1 := List.mem_of_mem_head? hb
  have hfirst : ∀ y ∈ offspring ++ el.1, ranksBelow p fit b y = false := by
    intro y hy
    rcases List.mem_append.mp (p2.mem_iff.mpr hy) with h | h
    · cases e : out.1 with
      | nil => rw [e] at h; cases h
      | cons z l =>
        rw [e] at hb h f2
        simp at hb; subst hb
        rcases List.mem_cons.mp h with rfl | h
        · exact StrictWeak.irrefl hW _
        · exact (List.pairwise_cons.mp f2).1 y h
    · exact b2 b hb' y h
  rcases List.mem_append.mp hx with h | h
  · exact hfirst x (List.mem_append_left _ h)
  · rcases List.mem_append.mp (p1.mem_iff.mpr h) with h1 | h1
    · exact hfirst x (List.mem_append_right _ h1)
    · cases e : el.1 with
      | nil =>
        rw [e] at l1 p1
        have := p1.length_eq
        have hpos := List.length_pos_of_mem h
        simp only [List.length_nil] at l1
        omega
      | cons z l =>
        exact hW.negTrans _ _ _ (hfirst z (List.mem_append_right _ (by rw [e]; simp))) (b1 z (by rw [e]; simp) x h1)

example : FloatsApart (fun i : Fin 3 => (⟨true, [.fin 1, .nan, .fin 2].getD i .nan⟩ : SFit)) := by
  intro a b x y ha hb h
  fin_cases a <;> fin_cases b <;> simp at ha hb <;> subst ha <;> subst hb <;> first | rfl | (norm_num [WithinTol, abs_of_neg] at h)

/-- Fitnesses that no numpy array or Python float is involved in (or only numpy's) are always apart. -/
theorem apart_of_not_float (fit : α → SFit) (h : ∀ a, (fit a).pyFloat = false) : FloatsApart fit := by
  intro a b x y ha
  have := h a
  rw [ha] at this; cases this

/-! ## What the tolerance does -/

/-- Python floats: 1, a little more than 1, and 2. -/
def closeFits : Fin 4 → SFit
  | 0 => ⟨true, .fin 1⟩
  | 1 => ⟨true, .fin (1 + 1 / 10000000000)⟩
  | 2 => ⟨true, .fin 2⟩
  | 3 => ⟨true, .fin (1 / 2)⟩

/-- C125, negation: with Python float fitnesses, truncation selection can drop an individual that is better than one it keeps. Of 1.0, 1.0000000001 and 2.0 it keeps 2.0 and 1.0. -/
theorem truncation_drops_better : ∀ coin : Nat → Bool,
    (truncationAsk (fitAsk ⟨true⟩ closeFits coin) (fitEq ⟨true⟩ closeFits) (fun a b => decide (a = b)) [0, 1, 2] 2 none 0).1 = [2, 0] ∧
    ranksBelow ⟨true⟩ closeFits 0 1 = true ∧
    ¬ KBest (ranksBelow ⟨true⟩ closeFits) 2 [0, 1, 2] [2, 0] := by
  intro coin
  have hr : ranksBelow ⟨true⟩ closeFits 0 1 = true := by decide +kernel
  refine ⟨?_, hr, ?_⟩
  · have : fitAsk ⟨true⟩ closeFits coin = fitAsk ⟨true⟩ closeFits (fun _ => false) := by
      funext a b n; fin_cases a <;> fin_cases b <;> simp [fitAsk, closeFits, ScalarProblem.worseThan, Num.isNan]
    rw [this]; decide +kernel
  · rintro ⟨rest, hp, hl, hb⟩
    have h1 : (1 : Fin 4) ∈ [2, 0] ++ rest := hp.mem_iff.mpr (by simp)
    have : (1 : Fin 4) ∈ rest := by simpa using h1
    have := hb 0 (by simp) 1 this
    rw [hr] at this; cases this

/-- C125, negation: with Python float fitnesses, elitist survival with one elite can lose the best individual there is. The parents 1.0 and 1.0000000001 and offspring of 0.5 leave 1.0. -/
theorem elitism_loses_best : ∀ coin : Nat → Bool,
    (elitistAsk (fitAsk ⟨true⟩ closeFits coin) (fitEq ⟨true⟩ closeFits) (fun a b => decide (a = b)) [3, 3] [0, 1] 1 0).1 = [0, 3] ∧
    ranksBelow ⟨true⟩ closeFits 0 1 = true ∧ ranksBelow ⟨true⟩ closeFits 3 1 = true := by
  intro coin
  have : fitAsk ⟨true⟩ closeFits coin = fitAsk ⟨true⟩ closeFits (fun _ => false) := by
    funext a b n; fin_cases a <;> fin_cases b <;> simp [fitAsk, closeFits, ScalarProblem.worseThan, Num.isNan]
  rw [this]; decide +kernel

theorem maxAsk_eq_pyMax {gt : Ask α σ} {g : α → α → Bool} (h : ∀ a b s, (gt a b s).1 = g a b) (x : α) (xs : List α) (s : σ) :
    (maxAsk gt x xs s).1 = pyMaxFrom g x xs := by
  induction xs generalizing x s with
  | nil => rfl
  | cons y ys ih => simp only [maxAsk, pyMaxFrom, h, ih]

/-- C125: what the tolerance can cost a single elite: of finite Python floats, `nlargest(1, …)` returns one that nothing is better than by more than one part in a billion. -/
theorem single_elite_within_tolerance (p : ScalarProblem) (val : α → ℚ) (same : α → α → Bool) (coin : Nat → Bool) (hasLen : Bool) (x : α) (xs : List α) (n : Nat) :
    ∃ b ∈ x :: xs, (nlargest (fitAsk p (fun a => ⟨true, .fin (val a)⟩) coin) (fitEq p (fun a => ⟨true, .fin (val a)⟩)) same hasLen 1 (x :: xs) n).1 = [b] ∧
      ∀ y ∈ x :: xs, Better p.maximize (.fin (val y)) (.fin (val b)) → WithinTol (val b) (val y) := by
  let fit : α → SFit := fun a => ⟨true, .fin (val a)⟩
  let g : α → α → Bool := fun a b => !p.worseThan false (fit a) (fit b) && !p.equivalent (fit a) (fit b)
  have hg : ∀ a b s, (askGt (fitAsk p fit coin) (fitEq p fit) a b s).1 = g a b := by
    intro a b s
    simp [askGt, fitAsk, fitEq, g, fit, ScalarProblem.worseThan, Num.isNan]
  have hgt : ∀ a b, g a b = true ↔ indGt p false (some ⟨true, .fin (val a)⟩) (some ⟨true, .fin (val b)⟩) = .ok true := by
    intro a b
    simp only [g, fit, indGt, indLt, indEq, deriveGt, bind, Except.bind]
    cases p.worseThan false ⟨true, .fin (val a)⟩ ⟨true, .fin (val b)⟩ <;> simp
  have hg2 : StrictPartial g := by
    constructor
    · intro a
      have : p.equivalent (fit a) (fit a) = true := by simp [fit, ScalarProblem.equivalent, Num.isclose, Num.eq]
      simp [g, this]
    · intro a b c h1 h2
      exact (hgt a c).mpr (float_gt_transitive p false false false _ _ _ ((hgt a b).mp h1) ((hgt b c).mp h2))
  refine ⟨(maxAsk (askGt (fitAsk p fit coin) (fitEq p fit)) x xs n).1, ?_, by simp [nlargest, fit], ?_⟩
  · rw [maxAsk_eq_pyMax hg]; exact pyMaxFrom_mem _ _ _
  · intro y hy hbetter
    rw [maxAsk_eq_pyMax hg] at hbetter ⊢
    have h := pyMaxFrom_spec hg2 x xs y hy
    generalize pyMaxFrom g x xs = b at *
    rw [← isclose_fin_iff]
    have h1 := (lt_iff_better p false (fit b) (fit y) (by simp [fit]) (by simp [fit])).1.mpr hbetter
    simp only [indLt, Except.ok.injEq] at h1
    have h2 := (ranksBelow_weak p fit).asymm b y h1
    unfold ranksBelow at h2
    simp only [g, h2, Bool.not_false, Bool.true_and, Bool.not_eq_false'] at h
    have hc : Num.isclose (.fin (val y)) (.fin (val b)) = true := by simpa [fit, ScalarProblem.equivalent] using h
    rw [isclose_fin_iff] at hc ⊢
    unfold WithinTol at *
    rwa [abs_sub_comm, max_comm]

/-- A generation of a run that keeps one individual and makes one child, with elitist survival and one elite: Python float fitnesses stand for the individuals, more is better. -/
def elitistStep (coin : Nat → Bool) (kept child : ℚ) : List ℚ :=
  (elitistAsk (fitAsk ⟨true⟩ (fun q : ℚ => ⟨true, .fin q⟩) coin) (fitEq ⟨true⟩ (fun q : ℚ => ⟨true, .fin q⟩)) (fun a b => decide (a = b)) [child] [kept] 1 0).1

theorem elitistStep_near (coin : Nat → Bool) (kept child : ℚ) (h : WithinTol kept child) : elitistStep coin kept child = [child] := by
  have hc := (isclose_fin_iff kept child).mpr h
  simp [elitistStep, elitistAsk, nlargest, maxAsk, askGt, fitAsk, fitEq, ScalarProblem.worseThan, ScalarProblem.equivalent, Num.isNan, hc]

/-- C125, negation: elitism does not keep the fitness of the best from falling, not even within the tolerance: however small `ε`, there are children such that a run that starts with fitness 1 and always keeps the
elite ends below `ε`. Each child is a little worse than the elite and replaces it. -/
theorem elitism_drifts_without_bound (coin : Nat → Bool) (ε : ℚ) (hε : 0 < ε) :
    ∃ children : List ℚ, ∃ last : ℚ, children.foldl (fun kept child => kept.flatMap (fun k => elitistStep coin k child)) [1] = [last] ∧ last < ε := by
  have walk : ∀ (n : Nat) (a : ℚ), 0 < a → ∃ children : List ℚ,
      children.foldl (fun kept child => kept.flatMap (fun k => elitistStep coin k child)) [a] = [a * (1 - 1 / 10000000000) ^ n] := by
    intro n
    induction n with
    | zero => intro a _; exact ⟨[], by simp⟩
    | succ n ih =>
      intro a ha
      obtain ⟨children, h⟩ := ih (a * (1 - 1 / 10000000000)) (by nlinarith)
      refine ⟨a * (1 - 1 / 10000000000) :: children, ?_⟩
      rw [List.foldl_cons, List.flatMap_singleton, elitistStep_near, h, pow_succ]
      · congr 1; ring
      · unfold WithinTol
        rw [show a - a * (1 - 1 / 10000000000) = a * (1 / 10000000000) by ring, abs_of_pos (by linarith), abs_of_pos ha]
        exact le_trans (by linarith) (le_max_left _ _)
  obtain ⟨n, hn⟩ := exists_pow_lt_of_lt_one hε (show (1 - 1 / 10000000000 : ℚ) < 1 by norm_num)
  obtain ⟨children, h⟩ := walk n 1 one_pos
  exact ⟨children, _, h, by simpa using hn⟩

/-- Four individuals, two of them without a usable fitness. -/
def nanFits : Fin 4 → SFit
  | 0 => ⟨true, .nan⟩
  | 1 => ⟨true, .fin 1⟩
  | 2 => ⟨true, .nan⟩
  | 3 => ⟨true, .fin 2⟩

example : (elitistAsk (fitAsk ⟨true⟩ nanFits (fun n => n % 2 == 0)) (fitEq ⟨true⟩ nanFits) (fun a b => decide (a = b)) [0, 2, 0] [2, 1, 3] 2 0).1 = [3, 1, 0] := by
  decide +kernel

example : Exact (fun a b : Nat => decide (a < b)) (fun a b (s : Unit) => (decide (a < b), s)) (fun a b => decide (a = b)) (fun a b => decide (a = b)) :=
  ⟨fun _ _ _ => rfl, fun a b => by rw [Bool.eq_iff_iff]; simp; omega, fun a b h => by simpa using h⟩

example : (nlargest (fun a b (s : Unit) => (decide (a < b), s)) (fun a b => decide (a = b)) (fun a b => decide (a = b)) false 3 [3, 1, 4, 1, 5, 9, 2, 6] ()).1 = [9, 6, 5] := by
  decide +kernel

end Leap
