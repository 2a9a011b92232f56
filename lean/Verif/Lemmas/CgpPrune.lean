import Verif.Lemmas.CgpExec

/-! # Pruning a feed-forward graph -/

namespace Leap

variable {V : Type}

/-! ### The backward search reaches a fixed point -/

theorem mem_backStep (nodes : List Int) (edges : List CgpEdge) (acc : List Int) (n : Int) :
    n ∈ cgpBackStep nodes edges acc ↔ n ∈ nodes ∧ (n ∈ acc ∨ ∃ e ∈ edges, e.src = n ∧ e.dst ∈ acc) := by
  simp [cgpBackStep]

theorem backReach_succ (nodes : List Int) (edges : List CgpEdge) (k : Nat) (acc : List Int) :
    cgpBackReach nodes edges (k + 1) acc = cgpBackStep nodes edges (cgpBackReach nodes edges k acc) := by
  induction k generalizing acc with
  | zero => rfl
  | succ k ih => rw [cgpBackReach, ih, cgpBackReach]

theorem backReach_subset (nodes : List Int) (edges : List CgpEdge) (k : Nat) (acc : List Int) (h : ∀ n ∈ acc, n ∈ nodes) :
    ∀ n ∈ cgpBackReach nodes edges k acc, n ∈ nodes := by
  cases k with
  | zero => exact h
  | succ k => rw [backReach_succ]; intro n hn; exact ((mem_backStep ..).mp hn).1

/-- Nothing can be added. -/
def BackClosed (nodes : List Int) (edges : List CgpEdge) (acc : List Int) : Prop :=
  ∀ e ∈ edges, e.src ∈ nodes → e.dst ∈ acc → e.src ∈ acc

theorem countP_mem_lt {nodes acc acc' : List Int} {x : Int} (h1 : x ∈ nodes) (h3 : x ∉ acc) (hin : x ∈ acc')
    (himp : ∀ n ∈ nodes, n ∈ acc → n ∈ acc') :
    nodes.countP (fun n => decide (n ∈ acc)) < nodes.countP (fun n => decide (n ∈ acc')) := by
  induction nodes with
  | nil => simp at h1
  | cons a l ihl =>
    have hmono : l.countP (fun n => decide (n ∈ acc)) ≤ l.countP (fun n => decide (n ∈ acc')) :=
      List.countP_mono_left fun n hn => by
        simpa using himp n (List.mem_cons_of_mem _ hn)
    rw [List.countP_cons, List.countP_cons]
    rcases List.mem_cons.mp h1 with h1 | h1
    · subst h1
      rw [if_neg (by simpa using h3), if_pos (by simpa using hin)]
      omega
    · have := ihl h1 fun n hn => himp n (List.mem_cons_of_mem _ hn)
      have ha := himp a (List.mem_cons_self ..)
      by_cases haa : a ∈ acc
      · rw [if_pos (by simpa using haa), if_pos (by simpa using ha haa)]; omega
      · rw [if_neg (by simpa using haa)]; omega

theorem backReach_closed (nodes : List Int) (edges : List CgpEdge) (start : List Int) (h : ∀ n ∈ start, n ∈ nodes) :
    BackClosed nodes edges (cgpBackReach nodes edges nodes.length start) := by
  have key : ∀ k, BackClosed nodes edges (cgpBackReach nodes edges k start) ∨
      k ≤ (nodes.filter fun n => decide (n ∈ cgpBackReach nodes edges k start)).length := by
    intro k
    induction k with
    | zero => right; omega
    | succ k ih =>
      rw [backReach_succ]
      have hsub := backReach_subset nodes edges k start h
      generalize cgpBackReach nodes edges k start = acc at ih hsub
      by_cases hc : BackClosed nodes edges acc
      · left
        have hsame : ∀ n, n ∈ cgpBackStep nodes edges acc → n ∈ acc := by
          intro n hn
          rcases (mem_backStep ..).mp hn with ⟨h1, h2 | ⟨e, he, rfl, h2⟩⟩
          · exact h2
          · exact hc e he h1 h2
        intro e he h1 h2
        exact (mem_backStep ..).mpr ⟨h1, Or.inl (hc e he h1 (hsame _ h2))⟩
      · right
        have ih := ih.resolve_left hc
        unfold BackClosed at hc
        push Not at hc
        obtain ⟨e, he, h1, h2, h3⟩ := hc
        have hin : e.src ∈ cgpBackStep nodes edges acc := (mem_backStep ..).mpr ⟨h1, Or.inr ⟨e, he, rfl, h2⟩⟩
        have hlt : (nodes.filter fun n => decide (n ∈ acc)).length <
            (nodes.filter fun n => decide (n ∈ cgpBackStep nodes edges acc)).length := by
          rw [← List.countP_eq_length_filter, ← List.countP_eq_length_filter]
          exact countP_mem_lt h1 h3 hin fun n hn ha => (mem_backStep ..).mpr ⟨hn, Or.inl ha⟩
        omega
  rcases key nodes.length with h1 | h1
  · exact h1
  · intro e _ hs _
    have hle := List.length_filter_le (fun n => decide (n ∈ cgpBackReach nodes edges nodes.length start)) nodes
    have := List.length_filter_eq_length_iff.mp (Nat.le_antisymm hle h1) e.src hs
    simpa using this

theorem backReach_start (nodes : List Int) (edges : List CgpEdge) (start : List Int) (h : ∀ n ∈ start, n ∈ nodes) (k : Nat) :
    ∀ n ∈ start, n ∈ cgpBackReach nodes edges k start := by
  intro n hn
  induction k with
  | zero => exact hn
  | succ k ih => rw [backReach_succ]; exact (mem_backStep ..).mpr ⟨h n hn, Or.inl ih⟩

/-- Whatever holds at the start and is inherited backwards along edges holds everywhere. -/
theorem backReach_induct (nodes : List Int) (edges : List CgpEdge) (P : Int → Prop) (start : List Int) (h0 : ∀ n ∈ start, P n)
    (hb : ∀ e ∈ edges, P e.dst → P e.src) (k : Nat) : ∀ n ∈ cgpBackReach nodes edges k start, P n := by
  induction k with
  | zero => exact h0
  | succ k ih =>
    rw [backReach_succ]
    intro n hn
    rcases (mem_backStep ..).mp hn with ⟨-, h2 | ⟨e, he, rfl, h2⟩⟩
    · exact ih n h2
    · exact hb e he (ih _ h2)

/-! ### The necessary nodes -/

theorem intRange_add (a : Int) (m n : Nat) : intRange a (m + n) = intRange a m ++ intRange (a + m) n := by
  simp [intRange, List.range_add, List.map_map, Function.comp_def, Int.add_assoc]

theorem mem_intRange (a : Int) (n : Nat) (i : Int) : i ∈ intRange a n ↔ a ≤ i ∧ i < a + n := by
  simp only [intRange, List.mem_map, List.mem_range]
  constructor
  · rintro ⟨k, hk, rfl⟩; omega
  · rintro ⟨h0, h1⟩; exact ⟨(i - a).toNat, by omega, by omega⟩

theorem intRange_length (a : Int) (n : Nat) : (intRange a n).length = n := by simp [intRange]

theorem intRange_get (a : Int) (n k : Nat) (hk : k < n) : (intRange a n)[k]? = some (a + k) := by
  simp [intRange, hk]

theorem intRange_sorted (a : Int) (n : Nat) : (intRange a n).Pairwise (· < ·) := by
  rw [List.pairwise_iff_getElem]
  intro i j hi hj hij
  simp [intRange]
  exact hij

section

variable {g : CgpGraph V} {nIn H nOut : Nat} (h : FeedForward g nIn H nOut)
include h

theorem ff_lastNodes : lastNodes g.nodes nOut = intRange (nIn + H : Nat) nOut := by
  rw [lastNodes, h.nodes, intRange_length, Nat.add_sub_cancel, intRange_add, List.drop_left' (by rw [intRange_length])]
  simp

theorem ff_mem_nodes (i : Int) : i ∈ g.nodes ↔ 0 ≤ i ∧ i < nIn + H + nOut := by
  rw [h.nodes, mem_intRange]; push_cast; simp

/-- The backward search from the outputs. -/
def ffReach (g : CgpGraph V) (nOut : Nat) : List Int :=
  cgpBackReach g.nodes g.edges g.nodes.length (lastNodes g.nodes nOut)

theorem ff_start : ∀ n ∈ lastNodes g.nodes nOut, n ∈ g.nodes := by
  intro n hn
  exact List.mem_of_mem_drop hn

theorem ff_reach_closed : ∀ e ∈ g.edges, e.dst ∈ ffReach g nOut → e.src ∈ ffReach g nOut := by
  intro e he hd
  refine backReach_closed g.nodes g.edges _ (ff_start h) e he ?_ hd
  have := h.forward e he
  rw [ff_mem_nodes h]; omega

theorem ff_reach_outputs (o : Int) (h0 : (nIn + H : Nat) ≤ o) (h1 : o < nIn + H + nOut) : o ∈ ffReach g nOut := by
  apply backReach_start g.nodes g.edges _ (ff_start h)
  rw [ff_lastNodes h, mem_intRange]; push_cast at *; omega

/-- The hidden nodes that are kept. -/
def ffMid (g : CgpGraph V) (nIn H nOut : Nat) : List Int := (intRange nIn H).filter fun n => decide (n ∈ ffReach g nOut)

theorem ff_necessary : cgpNecessary g nIn nOut = intRange 0 nIn ++ ffMid g nIn H nOut ++ intRange (nIn + H : Nat) nOut := by
  have hsorted : ∀ p : Int → Bool, sortedAsc (fun a b => decide (a < b)) (g.nodes.filter p) = g.nodes.filter p := by
    intro p
    apply List.Pairwise.insertionSort_eq
    refine List.Pairwise.filter _ ?_
    rw [h.nodes]
    refine (intRange_sorted 0 _).imp fun hab => ?_
    simp only [decide_eq_false_iff_not]; omega
  have hunf : cgpNecessary g nIn nOut = sortedAsc (fun a b => decide (a < b)) (g.nodes.filter fun (n : Int) =>
      (decide (0 ≤ n) && decide (n < nIn)) || decide (n ∈ lastNodes g.nodes nOut) || decide (n ∈ ffReach g nOut)) := rfl
  rw [hunf, hsorted, ff_lastNodes h, h.nodes, intRange_add, intRange_add, List.filter_append, List.filter_append]
  have e : (0 : Int) + ((nIn + H : Nat) : Int) = ((nIn + H : Nat) : Int) := by simp
  have e' : (0 : Int) + (nIn : Int) = nIn := by simp
  rw [e, e']
  congr 1
  · congr 1
    · rw [List.filter_eq_self]
      intro n hn
      rw [mem_intRange] at hn
      simp; omega
    · unfold ffMid
      apply List.filter_congr
      intro n hn
      rw [mem_intRange] at hn
      have h1 : ¬ (n < (nIn : Int)) := by omega
      have h2 : n ∉ intRange (nIn + H : Nat) nOut := by rw [mem_intRange]; push_cast; omega
      simp only [h1, h2, decide_false, Bool.and_false, Bool.false_or]
  · rw [List.filter_eq_self]
    intro n hn
    simp only [hn, decide_true, Bool.or_true, Bool.true_or]

theorem ff_necessary_sorted : (cgpNecessary g nIn nOut).Pairwise (· < ·) := by
  rw [ff_necessary h, List.append_assoc, List.pairwise_append, List.pairwise_append]
  refine ⟨intRange_sorted _ _, ⟨(intRange_sorted _ _).filter _, intRange_sorted _ _, ?_⟩, ?_⟩
  · intro a ha b hb
    have := List.mem_of_mem_filter ha
    rw [mem_intRange] at this hb
    push_cast at hb
    omega
  · intro a ha b hb
    rw [mem_intRange] at ha
    rcases List.mem_append.mp hb with hb | hb
    · have := List.mem_of_mem_filter hb
      rw [mem_intRange] at this
      omega
    · rw [mem_intRange] at hb; push_cast at hb; omega

theorem ff_nodup : (cgpNecessary g nIn nOut).Nodup := by
  refine (ff_necessary_sorted h).imp ?_
  intro a b hab; omega

theorem ff_mem_necessary (n : Int) : n ∈ cgpNecessary g nIn nOut ↔
    (0 ≤ n ∧ n < nIn) ∨ (0 ≤ n ∧ n < nIn + H + nOut ∧ n ∈ ffReach g nOut) := by
  rw [ff_necessary h]
  simp only [List.mem_append, ffMid, List.mem_filter, mem_intRange, decide_eq_true_eq]
  constructor
  · rintro ((h1 | ⟨h1, h2⟩) | h1)
    · left; omega
    · right; exact ⟨by omega, by omega, h2⟩
    · right; push_cast at h1
      exact ⟨by omega, by omega, ff_reach_outputs h n (by push_cast; omega) (by omega)⟩
  · rintro (h1 | ⟨h1, h2, h3⟩)
    · left; left; omega
    · by_cases ha : n < nIn
      · left; left; omega
      · by_cases hb : n < nIn + H
        · left; right; exact ⟨by omega, h3⟩
        · right; push_cast; omega

theorem ff_pred_necessary : ∀ e ∈ g.edges, e.dst ∈ cgpNecessary g nIn nOut → e.src ∈ cgpNecessary g nIn nOut := by
  intro e he hd
  have hf := h.forward e he
  have ht := h.target e he
  rw [ff_mem_necessary h] at hd ⊢
  rcases hd with hd | ⟨-, -, hd⟩
  · omega
  · right
    exact ⟨hf.1, by omega, ff_reach_closed h e he hd⟩

/-! ### Renumbering -/

theorem idxOf_get_of_mem {α : Type} [DecidableEq α] {l : List α} {a : α} (ha : a ∈ l) : l[l.idxOf a]? = some a := by
  have hlt := List.idxOf_lt_length_iff.mpr ha
  rw [List.getElem?_eq_getElem hlt, List.getElem_idxOf]

theorem idxOf_of_get {α : Type} [DecidableEq α] {l : List α} (hn : l.Nodup) {i : Nat} {a : α} (hi : l[i]? = some a) : l.idxOf a = i := by
  obtain ⟨hlt, rfl⟩ := List.getElem?_eq_some_iff.mp hi
  exact hn.idxOf_getElem i hlt

theorem relabel_inj {a b : Int} (ha : a ∈ cgpNecessary g nIn nOut) (hb : b ∈ cgpNecessary g nIn nOut)
    (hab : cgpRelabel (cgpNecessary g nIn nOut) a = cgpRelabel (cgpNecessary g nIn nOut) b) : a = b := by
  have h1 := idxOf_get_of_mem h ha
  have h2 := idxOf_get_of_mem h hb
  unfold cgpRelabel at hab
  have : (cgpNecessary g nIn nOut).idxOf a = (cgpNecessary g nIn nOut).idxOf b := by exact_mod_cast hab
  rw [this, h2] at h1
  exact (Option.some.inj h1).symm

theorem relabel_lt {a b : Int} (ha : a ∈ cgpNecessary g nIn nOut) (hb : b ∈ cgpNecessary g nIn nOut) (hab : a < b) :
    cgpRelabel (cgpNecessary g nIn nOut) a < cgpRelabel (cgpNecessary g nIn nOut) b := by
  unfold cgpRelabel
  by_contra hcon
  have hle : (cgpNecessary g nIn nOut).idxOf b ≤ (cgpNecessary g nIn nOut).idxOf a := by omega
  have h1 := List.idxOf_lt_length_iff.mpr ha
  have h2 := List.idxOf_lt_length_iff.mpr hb
  rcases Nat.lt_or_eq_of_le hle with hlt | heq
  · have := List.pairwise_iff_getElem.mp (ff_necessary_sorted h) _ _ h2 h1 hlt
    rw [List.getElem_idxOf, List.getElem_idxOf] at this
    omega
  · have : cgpRelabel (cgpNecessary g nIn nOut) a = cgpRelabel (cgpNecessary g nIn nOut) b := by
      unfold cgpRelabel; rw [heq]
    have := relabel_inj h ha hb this
    omega

theorem relabel_input (i : Nat) (hi : i < nIn) : cgpRelabel (cgpNecessary g nIn nOut) i = i := by
  unfold cgpRelabel
  congr 1
  apply idxOf_of_get h (ff_nodup h)
  rw [ff_necessary h, List.append_assoc, List.getElem?_append_left (by rw [intRange_length]; exact hi), intRange_get _ _ _ hi]
  simp

theorem relabel_output (o : Nat) (ho : o < nOut) : cgpRelabel (cgpNecessary g nIn nOut) (nIn + H + o : Nat) =
    (nIn + (ffMid g nIn H nOut).length + o : Nat) := by
  unfold cgpRelabel
  congr 1
  apply idxOf_of_get h (ff_nodup h)
  rw [ff_necessary h, List.getElem?_append_right (by rw [List.length_append, intRange_length]; omega), List.length_append,
    intRange_length, Nat.add_sub_cancel_left, intRange_get _ _ _ ho]
  simp

theorem relabel_mid (m : Nat) (hm : m < (ffMid g nIn H nOut).length) :
    cgpRelabel (cgpNecessary g nIn nOut) (ffMid g nIn H nOut)[m] = (nIn + m : Nat) := by
  unfold cgpRelabel
  congr 1
  apply idxOf_of_get h (ff_nodup h)
  rw [ff_necessary h, List.getElem?_append_left (by rw [List.length_append, intRange_length]; omega),
    List.getElem?_append_right (by rw [intRange_length]; omega), intRange_length, Nat.add_sub_cancel_left]
  exact List.getElem?_eq_getElem hm

theorem oldAttr_relabel {β : Type} (attr : Int → Option β) {n : Int} (hn : n ∈ cgpNecessary g nIn nOut) :
    cgpOldAttr (cgpNecessary g nIn nOut) attr (cgpRelabel (cgpNecessary g nIn nOut) n) = attr n := by
  unfold cgpOldAttr cgpRelabel
  rw [if_pos (by omega)]
  have : (((cgpNecessary g nIn nOut).idxOf n : Nat) : Int).toNat = (cgpNecessary g nIn nOut).idxOf n := by omega
  rw [this, idxOf_get_of_mem h hn]

/-- The relabelled edge. -/
def relEdge (nec : List Int) (e : CgpEdge) : CgpEdge := ⟨cgpRelabel nec e.src, cgpRelabel nec e.dst, e.order⟩

theorem prune_into {n : Int} (hn : n ∈ cgpNecessary g nIn nOut) :
    (pruneGraph g nIn nOut).into (cgpRelabel (cgpNecessary g nIn nOut) n) =
      (g.into n).map (relEdge (cgpNecessary g nIn nOut)) := by
  have hpred := ff_pred_necessary h
  have hinj : ∀ a, a ∈ cgpNecessary g nIn nOut → cgpRelabel (cgpNecessary g nIn nOut) a =
      cgpRelabel (cgpNecessary g nIn nOut) n → a = n := fun a ha => relabel_inj h ha hn
  simp only [CgpGraph.into, pruneGraph]
  revert hpred
  generalize g.edges = es
  generalize cgpNecessary g nIn nOut = nec at *
  intro hpred
  induction es with
  | nil => rfl
  | cons e es ih =>
    have ih := ih fun e he => hpred e (List.mem_cons_of_mem _ he)
    by_cases hd : e.dst = n
    · have hs : e.src ∈ nec := hpred e (List.mem_cons_self ..) (by rw [hd]; exact hn)
      rw [List.filter_cons_of_pos (by simp [hs, hd, hn]), List.map_cons, List.filter_cons_of_pos (by simp [hd]), ih,
        List.filter_cons_of_pos (by simp [hd]), List.map_cons]
      rfl
    · rw [List.filter_cons_of_neg (a := e) (p := fun e => decide (e.dst = n)) (by simp [hd])]
      by_cases hk : e.src ∈ nec ∧ e.dst ∈ nec
      · rw [List.filter_cons_of_pos (by simp [hk]), List.map_cons, List.filter_cons_of_neg, ih]
        simp only [decide_eq_true_eq]
        intro hc
        exact hd (hinj _ hk.2 hc)
      · rw [List.filter_cons_of_neg (by simpa using hk), ih]

theorem prune_edge {e : CgpEdge} (he : e ∈ (pruneGraph g nIn nOut).edges) : ∃ e' ∈ g.edges,
    e'.src ∈ cgpNecessary g nIn nOut ∧ e'.dst ∈ cgpNecessary g nIn nOut ∧ e = relEdge (cgpNecessary g nIn nOut) e' := by
  simp only [pruneGraph, List.mem_map, List.mem_filter, Bool.and_eq_true, decide_eq_true_eq] at he
  obtain ⟨e', ⟨h1, h2, h3⟩, rfl⟩ := he
  exact ⟨e', h1, h2, h3, rfl⟩

/-- Pruning keeps a graph feed-forward. -/
theorem prune_feedForward : FeedForward (pruneGraph g nIn nOut) nIn (ffMid g nIn H nOut).length nOut := by
  refine ⟨?_, ?_, ?_, ?_, ?_, ?_⟩
  · simp only [pruneGraph]
    apply List.ext_getElem?
    intro i
    have hlen : (cgpNecessary g nIn nOut).length = nIn + (ffMid g nIn H nOut).length + nOut := by
      rw [ff_necessary h]; simp [intRange_length]; omega
    by_cases hi : i < (cgpNecessary g nIn nOut).length
    · rw [List.getElem?_map, List.getElem?_eq_getElem hi, intRange_get _ _ _ (by omega)]
      simp only [Option.map_some, cgpRelabel, (ff_nodup h).idxOf_getElem i hi]
      simp
    · rw [List.getElem?_eq_none (by simp; omega), List.getElem?_eq_none (by rw [intRange_length]; omega)]
  · intro i
    by_cases hi : ∃ n ∈ cgpNecessary g nIn nOut, cgpRelabel (cgpNecessary g nIn nOut) n = i
    · obtain ⟨n, hn, rfl⟩ := hi
      rw [prune_into h hn]
      exact List.Pairwise.map _ (fun _ _ hab => hab) (h.ordered n)
    · have : (pruneGraph g nIn nOut).into i = [] := by
        rw [CgpGraph.into, List.filter_eq_nil_iff]
        intro e he
        obtain ⟨e', h1, h2, h3, rfl⟩ := prune_edge h he
        simp only [decide_eq_true_eq]
        exact fun hc => hi ⟨e'.dst, h3, hc⟩
      rw [this]; exact List.Pairwise.nil
  · intro e he
    obtain ⟨e', h1, h2, h3, rfl⟩ := prune_edge h he
    have hf := h.forward e' h1
    have hlt := relabel_lt h h2 h3 hf.2.1
    refine ⟨by simp [relEdge, cgpRelabel], hlt, ?_⟩
    simp only [relEdge]
    by_cases hi : e'.src < nIn
    · obtain ⟨i, hi'⟩ : ∃ i : Nat, e'.src = i := ⟨e'.src.toNat, by omega⟩
      rw [hi'] at hi ⊢
      rw [relabel_input h i (by omega)]; omega
    · rcases (ff_mem_necessary h e'.src).mp h2 with hh | ⟨-, -, hh⟩
      · omega
      · have hm : e'.src ∈ ffMid g nIn H nOut := by
          simp only [ffMid, List.mem_filter, mem_intRange, decide_eq_true_eq]
          exact ⟨by omega, hh⟩
        obtain ⟨m, hm', e⟩ := List.getElem_of_mem hm
        rw [← e, relabel_mid h m hm']
        omega
  · intro e he
    obtain ⟨e', h1, h2, h3, rfl⟩ := prune_edge h he
    have ht := h.target e' h1
    simp only [relEdge]
    rcases (ff_mem_necessary h e'.dst).mp h3 with hh | ⟨-, -, hh⟩
    · omega
    · by_cases ho : e'.dst < nIn + H
      · have hm : e'.dst ∈ ffMid g nIn H nOut := by
          simp only [ffMid, List.mem_filter, mem_intRange, decide_eq_true_eq]
          exact ⟨by omega, hh⟩
        obtain ⟨m, hm', e⟩ := List.getElem_of_mem hm
        rw [← e, relabel_mid h m hm']
        omega
      · obtain ⟨o, ho'⟩ : ∃ o : Nat, e'.dst = (nIn + H + o : Nat) := ⟨(e'.dst - nIn - H).toNat, by omega⟩
        rw [ho', relabel_output h o (by omega)]
        omega
  · intro o ho
    obtain ⟨e, he⟩ := h.output o ho
    have hn : ((nIn + H + o : Nat) : Int) ∈ cgpNecessary g nIn nOut := by
      rw [ff_mem_necessary h]; right
      exact ⟨by omega, by omega, ff_reach_outputs h _ (by omega) (by omega)⟩
    have := prune_into h hn
    rw [relabel_output h o ho, he] at this
    exact ⟨_, this⟩
  · intro m hm
    have hmem : (ffMid g nIn H nOut)[m] ∈ ffMid g nIn H nOut := List.getElem_mem hm
    have hr := (mem_intRange ..).mp (List.mem_of_mem_filter hmem)
    have hreach : (ffMid g nIn H nOut)[m] ∈ ffReach g nOut := by simpa using (List.mem_filter.mp hmem).2
    have hn : (ffMid g nIn H nOut)[m] ∈ cgpNecessary g nIn nOut := by
      rw [ff_mem_necessary h]; right
      exact ⟨by omega, by omega, hreach⟩
    obtain ⟨f, hf⟩ := h.function ((ffMid g nIn H nOut)[m] - nIn).toNat (by omega)
    refine ⟨f, ?_⟩
    rw [← relabel_mid h m hm]
    simp only [pruneGraph]
    rw [oldAttr_relabel h _ hn, ← hf]
    congr 1
    omega

theorem prune_inNodes {n : Int} (hn : n ∈ cgpNecessary g nIn nOut) :
    (pruneGraph g nIn nOut).inNodes (cgpRelabel (cgpNecessary g nIn nOut) n) =
      (g.inNodes n).map (cgpRelabel (cgpNecessary g nIn nOut)) := by
  rw [(prune_feedForward h).inNodes, h.inNodes, prune_into h hn, List.map_map, List.map_map]
  rfl

theorem ff_inNodes_necessary {n : Int} (hn : n ∈ cgpNecessary g nIn nOut) :
    ∀ s ∈ g.inNodes n, s ∈ cgpNecessary g nIn nOut := by
  intro s hs
  rw [h.inNodes] at hs
  simp only [CgpGraph.into, List.mem_map, List.mem_filter, decide_eq_true_eq] at hs
  obtain ⟨e, ⟨he, rfl⟩, rfl⟩ := hs
  exact ff_pred_necessary h e he hn

/-- A kept node has the same value as before. -/
theorem prune_values (input : List V) {n : Int} (hn : n ∈ cgpNecessary g nIn nOut) (v : V) :
    GVal (pruneGraph g nIn nOut) nIn input (cgpRelabel (cgpNecessary g nIn nOut) n) v ↔ GVal g nIn input n v := by
  constructor
  · intro hg
    generalize hi : cgpRelabel (cgpNecessary g nIn nOut) n = i at hg
    induction hg generalizing n with
    | input i v hlt hx =>
      have hmem : (i : Int) ∈ cgpNecessary g nIn nOut := by rw [ff_mem_necessary h]; left; omega
      have : n = i := relabel_inj h hn hmem (by rw [hi, relabel_input h i hlt])
      subst this
      exact GVal.input i v hlt hx
    | node i f args v hle hf hlen hargs hcall ih =>
      subst hi
      rw [prune_inNodes h hn, List.length_map] at hlen
      simp only [pruneGraph] at hf hcall
      rw [oldAttr_relabel h _ hn] at hf hcall
      have hle' : (nIn : Int) ≤ n := by
        by_contra hcon
        have h0 : 0 ≤ n := by
          rcases (ff_mem_necessary h n).mp hn with hh | hh
          · exact hh.1
          · exact hh.1
        obtain ⟨k, rfl⟩ := Int.eq_ofNat_of_zero_le h0
        rw [relabel_input h k (by omega)] at hle
        omega
      refine GVal.node n f args v hle' hf hlen ?_ hcall
      intro j s x hs hx
      refine ih j (cgpRelabel (cgpNecessary g nIn nOut) s) x ?_ hx (ff_inNodes_necessary h hn s (List.mem_of_getElem? hs)) rfl
      rw [prune_inNodes h hn, List.getElem?_map, hs]
      rfl
  · intro hg
    induction hg with
    | input i v hlt hx => rw [relabel_input h i hlt]; exact GVal.input i v hlt hx
    | node n f args v hle hf hlen hargs hcall ih =>
      have hle' : (nIn : Int) ≤ cgpRelabel (cgpNecessary g nIn nOut) n := by
        by_contra hcon
        have h0 : 0 ≤ cgpRelabel (cgpNecessary g nIn nOut) n := by unfold cgpRelabel; omega
        obtain ⟨k, hk⟩ := Int.eq_ofNat_of_zero_le h0
        have hmem : (k : Int) ∈ cgpNecessary g nIn nOut := by rw [ff_mem_necessary h]; left; omega
        have := relabel_inj h hn hmem (by rw [relabel_input h k (by omega)]; exact hk)
        omega
      refine GVal.node _ f args v hle' ?_ ?_ ?_ ?_
      · simp only [pruneGraph]; rw [oldAttr_relabel h _ hn]; exact hf
      · rw [prune_inNodes h hn, List.length_map]; exact hlen
      · intro j s x hs hx
        rw [prune_inNodes h hn, List.getElem?_map] at hs
        cases hs' : (g.inNodes n)[j]? with
        | none => rw [hs'] at hs; cases hs
        | some s' =>
          rw [hs'] at hs
          simp only [Option.map_some, Option.some.injEq] at hs
          subst hs
          exact ih j s' x hs' hx (ff_inNodes_necessary h hn s' (List.mem_of_getElem? hs'))
      · simp only [pruneGraph]; rw [oldAttr_relabel h _ hn]; exact hcall

theorem prune_outputs (input : List V) (o : Nat) (ho : o < nOut) (v : V) :
    GOut (pruneGraph g nIn nOut) nIn (ffMid g nIn H nOut).length input o v ↔ GOut g nIn H input o v := by
  have hn : ((nIn + H + o : Nat) : Int) ∈ cgpNecessary g nIn nOut := by
    rw [ff_mem_necessary h]; right
    exact ⟨by omega, by omega, ff_reach_outputs h _ (by omega) (by omega)⟩
  have hinto := prune_into h hn
  rw [relabel_output h o ho] at hinto
  obtain ⟨e, he⟩ := h.output o ho
  have hmem : e ∈ g.into (nIn + H + o : Nat) := by rw [he]; exact List.mem_singleton.mpr rfl
  have hsrc : e.src ∈ cgpNecessary g nIn nOut := by
    have := List.mem_filter.mp hmem
    refine ff_pred_necessary h e this.1 ?_
    have hd : e.dst = (nIn + H + o : Nat) := by simpa using this.2
    rw [hd]; exact hn
  unfold GOut
  rw [hinto, he]
  simp only [List.map_cons, List.map_nil]
  constructor
  · rintro ⟨e', h1, h2⟩
    cases h1
    exact ⟨e, rfl, (prune_values h input hsrc v).mp h2⟩
  · rintro ⟨e', h1, h2⟩
    cases h1
    exact ⟨_, rfl, (prune_values h input hsrc v).mpr h2⟩

/-- If the outputs have values then so has every kept node. -/
theorem ff_reach_values (input : List V) (hout : ∀ o < nOut, ∃ v, GOut g nIn H input o v) :
    ∀ n ∈ ffReach g nOut, n < nIn + H → ∃ v, GVal g nIn input n v := by
  have key : ∀ n ∈ ffReach g nOut, (n < nIn + H → ∃ v, GVal g nIn input n v) ∧
      (∀ e ∈ g.edges, e.dst = n → ∃ v, GVal g nIn input e.src v) := by
    apply backReach_induct
    · intro n hn
      rw [ff_lastNodes h, mem_intRange] at hn
      push_cast at hn
      refine ⟨by omega, ?_⟩
      intro e he hd
      obtain ⟨o, ho⟩ : ∃ o : Nat, n = (nIn + H + o : Nat) := ⟨(n - nIn - H).toNat, by omega⟩
      obtain ⟨v, e', h1, h2⟩ := hout o (by omega)
      have : e ∈ g.into (nIn + H + o : Nat) := by
        rw [CgpGraph.into, List.mem_filter]; exact ⟨he, by simp [hd, ho]⟩
      rw [h1, List.mem_singleton] at this
      subst this
      exact ⟨v, h2⟩
    · intro e he hP
      obtain ⟨v, hv⟩ := hP.2 e he rfl
      refine ⟨fun _ => ⟨v, hv⟩, ?_⟩
      intro e2 he2 hd2
      have ht := h.target e2 he2
      generalize hz : e.src = z at hv
      cases hv with
      | input i _ hi => omega
      | node _ f args _ hle hf hlen hargs hcall =>
        have hin : e2.src ∈ g.inNodes z := by
          rw [h.inNodes, List.mem_map]
          refine ⟨e2, ?_, rfl⟩
          rw [CgpGraph.into, List.mem_filter]
          exact ⟨he2, by simp [hd2, hz]⟩
        obtain ⟨j, hj⟩ := List.getElem?_of_mem hin
        have hjl : j < args.length := by rw [hlen]; exact (List.getElem?_eq_some_iff.mp hj).1
        exact ⟨_, hargs j _ _ hj (List.getElem?_eq_getElem hjl)⟩
  exact fun n hn => (key n hn).1

/-- Executing the pruned graph succeeds exactly when the outputs have values, and returns them. -/
theorem prune_call (out : Int → Option V) (input : List V) (hl : input.length = nIn) (r : List V) :
    (∃ out', cgpCall (pruneGraph g nIn nOut) nIn nOut out input = .ok (r, out')) ↔
      List.Forall₂ (GOut g nIn H input) (List.range nOut) r := by
  rw [cgpCall_spec (prune_feedForward h) out input hl r]
  have hiff : List.Forall₂ (GOut (pruneGraph g nIn nOut) nIn (ffMid g nIn H nOut).length input) (List.range nOut) r ↔
      List.Forall₂ (GOut g nIn H input) (List.range nOut) r := by
    rw [List.forall₂_iff_get, List.forall₂_iff_get]
    apply and_congr_right
    intro hlen
    apply forall_congr'; intro i
    apply forall_congr'; intro h1
    apply forall_congr'; intro h2
    simp only [List.get_eq_getElem, List.getElem_range]
    exact prune_outputs h input i (by simpa using h1) _
  rw [hiff]
  constructor
  · exact fun hh => hh.2
  · intro hh
    refine ⟨?_, hh⟩
    have hout : ∀ o < nOut, ∃ v, GOut g nIn H input o v := by
      intro o ho
      rw [List.forall₂_iff_get] at hh
      have hlr : r.length = nOut := by rw [← hh.1]; simp
      have := hh.2 o (by simpa using ho) (by omega)
      simp only [List.get_eq_getElem, List.getElem_range] at this
      exact ⟨_, this⟩
    intro m hm
    have hmem : (ffMid g nIn H nOut)[m] ∈ ffMid g nIn H nOut := List.getElem_mem hm
    have hr := (mem_intRange ..).mp (List.mem_of_mem_filter hmem)
    have hreach : (ffMid g nIn H nOut)[m] ∈ ffReach g nOut := by simpa using (List.mem_filter.mp hmem).2
    have hn : (ffMid g nIn H nOut)[m] ∈ cgpNecessary g nIn nOut := by
      rw [ff_mem_necessary h]; right
      exact ⟨by omega, by omega, hreach⟩
    obtain ⟨v, hv⟩ := ff_reach_values h input hout _ hreach (by omega)
    refine ⟨v, ?_⟩
    rw [← relabel_mid h m hm]
    exact (prune_values h input hn v).mpr hv

end

end Leap
