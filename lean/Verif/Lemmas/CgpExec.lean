import Verif.Lemmas.CgpGraph
import Verif.Lemmas.Order

/-! # Executing a feed-forward CGP graph -/

namespace Leap

variable {V : Type}

/-- The edges into a node. -/
def CgpGraph.into (g : CgpGraph V) (i : Int) : List CgpEdge := g.edges.filter fun e => e.dst = i

/-- A graph with `nIn` inputs, `H` hidden nodes and `nOut` outputs, numbered in this order, whose edges go upwards. -/
structure FeedForward (g : CgpGraph V) (nIn H nOut : Nat) : Prop where
  nodes : g.nodes = intRange 0 (nIn + H + nOut)
  ordered : ∀ i, (g.into i).Pairwise fun a b => ¬ b.order < a.order
  forward : ∀ e ∈ g.edges, 0 ≤ e.src ∧ e.src < e.dst ∧ e.src < nIn + H
  target : ∀ e ∈ g.edges, (nIn : Int) ≤ e.dst ∧ e.dst < nIn + H + nOut
  output : ∀ o < nOut, ∃ e, g.into (nIn + H + o : Nat) = [e]
  function : ∀ m < H, ∃ f, g.function (nIn + m : Nat) = some f

theorem FeedForward.inNodes {g : CgpGraph V} {nIn H nOut : Nat} (h : FeedForward g nIn H nOut) (i : Int) :
    g.inNodes i = (g.into i).map CgpEdge.src := by
  unfold CgpGraph.inNodes
  congr 1
  apply List.Pairwise.insertionSort_eq
  refine (h.ordered i).imp fun hab => ?_
  simpa using hab

/-- The value of a node of the graph. -/
inductive GVal (g : CgpGraph V) (nIn : Nat) (input : List V) : Int → V → Prop
  | input (i : Nat) (v : V) : i < nIn → input[i]? = some v → GVal g nIn input i v
  | node (i : Int) (f : CgpPrimitive V) (args : List V) (v : V) : (nIn : Int) ≤ i → g.function i = some f →
      args.length = (g.inNodes i).length →
      (∀ (j : Nat) (s : Int) (x : V), (g.inNodes i)[j]? = some s → args[j]? = some x → GVal g nIn input s x) →
      f.call (args ++ (g.parameters i).getD []) = .ok v → GVal g nIn input i v

theorem GVal.det {g : CgpGraph V} {nIn : Nat} {input : List V} {i : Int} {v w : V} (h1 : GVal g nIn input i v)
    (h2 : GVal g nIn input i w) : v = w := by
  induction h1 generalizing w with
  | input i v hi hv =>
    generalize hz : (i : Int) = z at h2
    cases h2 with
    | input i' _ _ hw =>
      have : i = i' := by omega
      subst this
      rw [hv] at hw; exact Option.some.inj hw
    | node _ f args _ hle => omega
  | node i f args v hle hf hlen _ hcall ih =>
    cases h2 with
    | input i' _ hi' hw => omega
    | node _ f' args' _ _ hf' hlen' hargs' hcall' =>
      rw [hf] at hf'
      cases Option.some.inj hf'
      have : args = args' := by
        apply List.ext_getElem (by omega)
        intro j hj hj'
        exact ih j _ _ (List.getElem?_eq_getElem (by omega)) (List.getElem?_eq_getElem hj)
          (hargs' j _ _ (List.getElem?_eq_getElem (by omega)) (List.getElem?_eq_getElem hj'))
      subst this
      rw [hcall] at hcall'
      exact Except.ok.inj hcall'

/-- The first `m` hidden nodes have been computed. -/
def Computed (g : CgpGraph V) (nIn : Nat) (input : List V) (m : Nat) (out : Int → Option V) : Prop :=
  ∀ j : Int, 0 ≤ j → j < nIn + m → ∃ v, out j = some v ∧ GVal g nIn input j v

theorem pyMapM_readOutput (out : Int → Option V) (l : List Int) (h : ∀ s ∈ l, ∃ v, out s = some v) :
    ∃ vs, pyMapM (readOutput out) l = .ok vs ∧ vs.length = l.length ∧
      ∀ (j : Nat) (s : Int) (x : V), l[j]? = some s → vs[j]? = some x → out s = some x := by
  induction l with
  | nil => exact ⟨[], rfl, rfl, by simp⟩
  | cons a l ih =>
    obtain ⟨v, hv⟩ := h a (List.mem_cons_self ..)
    obtain ⟨vs, e, hl, hs⟩ := ih fun s hs => h s (List.mem_cons_of_mem _ hs)
    refine ⟨v :: vs, ?_, by simp [hl], ?_⟩
    · simp [pyMapM, readOutput, hv, bind, Except.bind, e]
    · intro j s x h1 h2
      cases j with
      | zero => simp at h1 h2; subst h1; subst h2; exact hv
      | succ j => simp at h1 h2; exact hs j s x h1 h2

theorem FeedForward.inNodes_lt {g : CgpGraph V} {nIn H nOut : Nat} (h : FeedForward g nIn H nOut) (i : Int) :
    ∀ s ∈ g.inNodes i, 0 ≤ s ∧ s < i ∧ s < nIn + H := by
  intro s hs
  rw [h.inNodes] at hs
  simp only [CgpGraph.into, List.mem_map, List.mem_filter, decide_eq_true_eq] at hs
  obtain ⟨e, ⟨he, rfl⟩, rfl⟩ := hs
  exact h.forward e he

theorem cgpStep_spec {g : CgpGraph V} {nIn H nOut : Nat} (h : FeedForward g nIn H nOut) {input : List V} {m : Nat}
    (hm : m < H) {out : Int → Option V} (hc : Computed g nIn input m out) :
    (∃ v, cgpStep g out (nIn + m : Nat) = .ok (setNode out (nIn + m : Nat) (some v)) ∧ GVal g nIn input (nIn + m : Nat) v) ∨
    (∃ e, cgpStep g out (nIn + m : Nat) = .error e ∧ ∀ v, ¬ GVal g nIn input (nIn + m : Nat) v) := by
  have hread : ∀ s ∈ g.inNodes (nIn + m : Nat), ∃ v, out s = some v := by
    intro s hs
    have := h.inNodes_lt _ s hs
    obtain ⟨v, hv, -⟩ := hc s this.1 (by omega)
    exact ⟨v, hv⟩
  obtain ⟨vs, e, hl, hs⟩ := pyMapM_readOutput out _ hread
  obtain ⟨f, hf⟩ := h.function m hm
  have hargs : ∀ (j : Nat) (s : Int) (x : V), (g.inNodes (nIn + m : Nat))[j]? = some s → vs[j]? = some x →
      GVal g nIn input s x := by
    intro j s x h1 h2
    have h3 := hs j s x h1 h2
    have := h.inNodes_lt _ s (List.mem_of_getElem? h1)
    obtain ⟨v, hv, hg⟩ := hc s this.1 (by omega)
    rw [hv] at h3
    rw [← Option.some.inj h3]; exact hg
  cases hcall : f.call (vs ++ (g.parameters (nIn + m : Nat)).getD []) with
  | ok v =>
    left
    refine ⟨v, ?_, GVal.node _ f vs v (by omega) hf hl hargs hcall⟩
    simp only [cgpStep, e, bind, Except.bind, hf, hcall]
  | error err =>
    right
    refine ⟨err, ?_, ?_⟩
    · simp only [cgpStep, e, bind, Except.bind, hf, hcall]
    · intro v hv
      generalize hz : ((nIn + m : Nat) : Int) = z at hv
      cases hv with
      | input i' _ hi' => omega
      | node _ f' args' _ _ hf' hlen' hargs' hcall' =>
        subst hz
        rw [hf] at hf'
        cases Option.some.inj hf'
        have : vs = args' := by
          apply List.ext_getElem (by omega)
          intro j hj hj'
          exact (hargs j _ _ (List.getElem?_eq_getElem (by omega)) (List.getElem?_eq_getElem hj)).det
            (hargs' j _ _ (List.getElem?_eq_getElem (by omega)) (List.getElem?_eq_getElem hj'))
        subst this
        rw [hcall] at hcall'
        cases hcall'

theorem Computed.set {g : CgpGraph V} {nIn : Nat} {input : List V} {m : Nat} {out : Int → Option V} {v : V}
    (hc : Computed g nIn input m out) (hv : GVal g nIn input (nIn + m : Nat) v) :
    Computed g nIn input (m + 1) (setNode out (nIn + m : Nat) (some v)) := by
  intro j h0 h1
  unfold setNode
  by_cases hj : j = (nIn + m : Nat)
  · subst hj; exact ⟨v, by simp, hv⟩
  · rw [if_neg hj]; exact hc j h0 (by omega)

theorem intRange_succ (a : Int) (n : Nat) : intRange a (n + 1) = a :: intRange (a + 1) n := by
  simp [intRange, List.range_succ_eq_map, List.map_map, Function.comp_def]
  intro k _; ring

theorem cgpRunNodes_spec {g : CgpGraph V} {nIn H nOut : Nat} (h : FeedForward g nIn H nOut) {input : List V} (k m : Nat)
    (hm : m + k = H) {out : Int → Option V} (hc : Computed g nIn input m out) :
    (∃ out', cgpRunNodes g (intRange (nIn + m : Nat) k) out = .ok out' ∧ Computed g nIn input H out') ∨
    (∃ e, cgpRunNodes g (intRange (nIn + m : Nat) k) out = .error e ∧
      ∃ m' < H, ∀ v, ¬ GVal g nIn input (nIn + m' : Nat) v) := by
  induction k generalizing m out with
  | zero =>
    left
    refine ⟨out, rfl, ?_⟩
    have : m = H := by omega
    rwa [← this]
  | succ k ih =>
    rw [intRange_succ]
    rcases cgpStep_spec h (by omega) hc with ⟨v, e, hv⟩ | ⟨e, he, hv⟩
    · simp only [cgpRunNodes, e]
      have := ih (m + 1) (by omega) (hc.set hv)
      rw [← Nat.add_assoc] at this
      push_cast at this ⊢
      exact this
    · right
      refine ⟨e, ?_, m, by omega, hv⟩
      simp only [cgpRunNodes, he]

/-- The source of output `o`. -/
def GOut (g : CgpGraph V) (nIn H : Nat) (input : List V) (o : Nat) (v : V) : Prop :=
  ∃ e, g.into (nIn + H + o : Nat) = [e] ∧ GVal g nIn input e.src v

theorem cgpRunOutputs_spec {g : CgpGraph V} {nIn H nOut : Nat} (h : FeedForward g nIn H nOut) {input : List V} (k o : Nat)
    (ho : o + k = nOut) {out : Int → Option V} (hc : Computed g nIn input H out) (acc : List V) :
    ∃ vs out', cgpRunOutputs g (intRange (nIn + H + o : Nat) k) out acc = .ok (acc ++ vs, out') ∧
      List.Forall₂ (GOut g nIn H input) (List.range' o k) vs := by
  induction k generalizing o out acc with
  | zero => exact ⟨[], out, by simp [intRange, cgpRunOutputs], by simp⟩
  | succ k ih =>
    rw [intRange_succ]
    obtain ⟨e, he⟩ := h.output o (by omega)
    have hmem : e ∈ g.edges := by
      have : e ∈ g.into (nIn + H + o : Nat) := by rw [he]; exact List.mem_singleton.mpr rfl
      exact List.mem_of_mem_filter this
    have hf := h.forward e hmem
    obtain ⟨v, hv, hg⟩ := hc e.src hf.1 (by omega)
    have hc' : Computed g nIn input H (setNode out (nIn + H + o : Nat) (some v)) := by
      intro j h0 h1
      unfold setNode
      rw [if_neg (by omega)]
      exact hc j h0 h1
    obtain ⟨vs, out', e1, e2⟩ := ih (o + 1) (by omega) hc' (acc ++ [v])
    refine ⟨v :: vs, out', ?_, ?_⟩
    · simp only [CgpGraph.into] at he
      simp only [cgpRunOutputs, he, readOutput, hv]
      have hcast : (((nIn + H + o : Nat) : Int) + 1) = ((nIn + H + (o + 1) : Nat) : Int) := by push_cast; ring
      rw [hcast, e1]
      simp
    · rw [List.range'_succ]
      exact List.Forall₂.cons ⟨e, he, hg⟩ e2

theorem assign_inputs (n : Nat) (input : List V) (hl : input.length = n) (out : Int → Option V) (j : Int) :
    (List.zip (intRange 0 n) input).foldl (fun o iv => setNode o iv.1 (some iv.2)) out j =
      if 0 ≤ j ∧ j < n then input[j.toNat]? else out j := by
  have key : ∀ (input : List V) (a : Nat) (out : Int → Option V),
      (List.zip (intRange a input.length) input).foldl (fun o iv => setNode o iv.1 (some iv.2)) out j =
      if (a : Int) ≤ j ∧ j < a + input.length then input[(j - a).toNat]? else out j := by
    intro input
    induction input with
    | nil => intro a out; simp [intRange]
    | cons x xs ih =>
      intro a out
      rw [List.length_cons, intRange_succ, List.zip_cons_cons, List.foldl_cons]
      have := ih (a + 1) (setNode out a (some x))
      push_cast at this
      rw [this]
      by_cases h1 : j = a
      · subst h1
        rw [if_neg (by omega), if_pos (by simp only [Nat.cast_add, Nat.cast_one]; omega)]
        simp [setNode]
      · by_cases h2 : (a : Int) + 1 ≤ j ∧ j < a + 1 + xs.length
        · rw [if_pos h2, if_pos (by push_cast; omega)]
          have : (j - a).toNat = (j - (a + 1)).toNat + 1 := by omega
          rw [this]; rfl
        · rw [if_neg h2, if_neg (by push_cast; omega)]
          simp [setNode, h1]
  have := key input 0 out
  rw [hl] at this
  simpa using this

/-- Executing a feed-forward graph: it succeeds exactly when every hidden node has a value, and then returns the values of
the sources of the outputs. -/
theorem cgpCall_spec {g : CgpGraph V} {nIn H nOut : Nat} (h : FeedForward g nIn H nOut) (out : Int → Option V)
    (input : List V) (hl : input.length = nIn) (r : List V) :
    (∃ out', cgpCall g nIn nOut out input = .ok (r, out')) ↔
      (∀ m < H, ∃ v, GVal g nIn input (nIn + m : Nat) v) ∧ List.Forall₂ (GOut g nIn H input) (List.range nOut) r := by
  have hH : g.nodes.length - nIn - nOut = H := by
    rw [h.nodes]; simp [intRange]; omega
  have h0 : Computed g nIn input 0
      ((List.zip (intRange 0 nIn) input).foldl (fun o iv => setNode o iv.1 (some iv.2)) out) := by
    intro j h0 h1
    rw [assign_inputs nIn input hl, if_pos (by omega)]
    refine ⟨input[j.toNat]'(by omega), List.getElem?_eq_getElem _, ?_⟩
    have hj : ((j.toNat : Nat) : Int) = j := by omega
    have := GVal.input (g := g) (nIn := nIn) (input := input) j.toNat _ (by omega) (List.getElem?_eq_getElem (by omega))
    rwa [hj] at this
  have hcast : (((nIn : Int) + (H : Int))) = ((nIn + H + 0 : Nat) : Int) := by simp
  rcases cgpRunNodes_spec h H 0 (by omega) h0 with ⟨out1, e1, hc⟩ | ⟨e, he, m', hm', hno⟩
  · obtain ⟨vs, out2, e2, hvs⟩ := cgpRunOutputs_spec h nOut 0 (by omega) hc []
    have hcall : cgpCall g nIn nOut out input = .ok (vs, out2) := by
      simp only [cgpCall, if_pos hl, hH]
      rw [Nat.add_zero] at e1
      rw [e1]
      simp only
      rw [hcast, e2]
      simp
    rw [← List.range_eq_range'] at hvs
    have hall : ∀ m < H, ∃ v, GVal g nIn input (nIn + m : Nat) v := by
      intro m hm
      obtain ⟨v, -, hv⟩ := hc (nIn + m : Nat) (by omega) (by omega)
      exact ⟨v, hv⟩
    constructor
    · rintro ⟨out', e⟩
      rw [hcall] at e
      simp only [Except.ok.injEq, Prod.mk.injEq] at e
      obtain ⟨rfl, -⟩ := e
      exact ⟨hall, hvs⟩
    · rintro ⟨-, hr⟩
      have : vs = r := by
        clear hcall e2
        revert hvs hr
        generalize List.range nOut = os
        intro h1 h2
        induction h1 generalizing r with
        | nil => cases h2; rfl
        | cons ha _ ih =>
          cases h2 with
          | cons hb h2 =>
            obtain ⟨e, he, hv⟩ := ha
            obtain ⟨e', he', hv'⟩ := hb
            rw [he] at he'
            cases he'
            rw [hv.det hv', ih _ h2]
      subst this
      exact ⟨out2, hcall⟩
  · constructor
    · rintro ⟨out', e'⟩
      exfalso
      simp only [cgpCall, if_pos hl, hH] at e'
      rw [Nat.add_zero] at he
      rw [he] at e'
      cases e'
    · rintro ⟨hall, -⟩
      obtain ⟨v, hv⟩ := hall m' hm'
      exact absurd hv (hno v)

/-! ### What earlier calls left behind does not matter -/

theorem pyMapM_congr {α β : Type} (f f' : α → PyM β) (l : List α) (h : ∀ x ∈ l, f x = f' x) : pyMapM f l = pyMapM f' l := by
  induction l with
  | nil => rfl
  | cons a l ih =>
    simp only [pyMapM, h a (List.mem_cons_self ..), ih fun x hx => h x (List.mem_cons_of_mem _ hx)]

/-- The results of two runs agree: the same exception, or outputs that agree below `b`. -/
def AgreeBelow (b : Int) : PyM (Int → Option V) → PyM (Int → Option V) → Prop
  | .ok o1, .ok o2 => ∀ j, 0 ≤ j → j < b → o1 j = o2 j
  | .error e1, .error e2 => e1 = e2
  | _, _ => False

theorem cgpStep_agree {g : CgpGraph V} {nIn H nOut : Nat} (h : FeedForward g nIn H nOut) (i : Int) (o1 o2 : Int → Option V)
    (ha : ∀ j, 0 ≤ j → j < i → o1 j = o2 j) : AgreeBelow (i + 1) (cgpStep g o1 i) (cgpStep g o2 i) := by
  have hm : pyMapM (readOutput o1) (g.inNodes i) = pyMapM (readOutput o2) (g.inNodes i) := by
    apply pyMapM_congr
    intro s hs
    have := h.inNodes_lt i s hs
    simp only [readOutput, ha s this.1 this.2.1]
  simp only [cgpStep, hm, bind, Except.bind]
  cases pyMapM (readOutput o2) (g.inNodes i) with
  | error e => simp [AgreeBelow]
  | ok vs =>
    simp only
    cases g.function i with
    | none => simp [AgreeBelow]
    | some f =>
      simp only
      cases f.call (vs ++ (g.parameters i).getD []) with
      | error e => simp [AgreeBelow]
      | ok v =>
        simp only [AgreeBelow]
        intro j h0 h1
        unfold setNode
        by_cases hj : j = i
        · simp [hj]
        · rw [if_neg hj, if_neg hj]; exact ha j h0 (by omega)

theorem cgpRunNodes_agree {g : CgpGraph V} {nIn H nOut : Nat} (h : FeedForward g nIn H nOut) (k : Nat) (i : Int)
    (o1 o2 : Int → Option V) (ha : ∀ j, 0 ≤ j → j < i → o1 j = o2 j) :
    AgreeBelow (i + k) (cgpRunNodes g (intRange i k) o1) (cgpRunNodes g (intRange i k) o2) := by
  induction k generalizing i o1 o2 with
  | zero => simpa [intRange, cgpRunNodes, AgreeBelow] using ha
  | succ k ih =>
    rw [intRange_succ]
    have hs := cgpStep_agree h i o1 o2 ha
    simp only [cgpRunNodes]
    cases h1 : cgpStep g o1 i with
    | error e1 =>
      cases h2 : cgpStep g o2 i with
      | error e2 => rw [h1, h2] at hs; simpa [AgreeBelow] using hs
      | ok o2' => rw [h1, h2] at hs; simp [AgreeBelow] at hs
    | ok o1' =>
      cases h2 : cgpStep g o2 i with
      | error e2 => rw [h1, h2] at hs; simp [AgreeBelow] at hs
      | ok o2' =>
        rw [h1, h2] at hs
        simp only [AgreeBelow] at hs
        have := ih (i + 1) o1' o2' hs
        have e : i + ((k + 1 : Nat) : Int) = i + 1 + k := by push_cast; ring
        rw [e]
        exact this

theorem cgpRunOutputs_agree {g : CgpGraph V} {nIn H nOut : Nat} (h : FeedForward g nIn H nOut) (k o : Nat)
    (o1 o2 : Int → Option V) (acc : List V) (ha : ∀ j : Int, 0 ≤ j → j < nIn + H → o1 j = o2 j) :
    (cgpRunOutputs g (intRange (nIn + H + o : Nat) k) o1 acc).map Prod.fst =
      (cgpRunOutputs g (intRange (nIn + H + o : Nat) k) o2 acc).map Prod.fst := by
  induction k generalizing o o1 o2 acc with
  | zero => rfl
  | succ k ih =>
    rw [intRange_succ]
    simp only [cgpRunOutputs]
    split
    · rename_i e he
      have hmem : e ∈ g.edges := by
        have : e ∈ g.edges.filter fun e : CgpEdge => e.dst = ((nIn + H + o : Nat) : Int) := by rw [he]; exact List.mem_singleton.mpr rfl
        exact List.mem_of_mem_filter this
      have hf := h.forward e hmem
      have hr : readOutput o1 e.src = readOutput o2 e.src := by
        simp only [readOutput, ha e.src hf.1 (by omega)]
      rw [hr]
      cases readOutput o2 e.src with
      | error err => rfl
      | ok v =>
        simp only
        have hcast : (((nIn + H + o : Nat) : Int) + 1) = ((nIn + H + (o + 1) : Nat) : Int) := by push_cast; ring
        rw [hcast]
        apply ih
        intro j h0 h1
        unfold setNode
        rw [if_neg (by omega), if_neg (by omega)]
        exact ha j h0 h1
    · rfl

/-- The result of a call, including which exception is raised, does not depend on the stored attributes. -/
theorem cgpCall_stale {g : CgpGraph V} {nIn H nOut : Nat} (h : FeedForward g nIn H nOut) (o1 o2 : Int → Option V)
    (input : List V) : (cgpCall g nIn nOut o1 input).map Prod.fst = (cgpCall g nIn nOut o2 input).map Prod.fst := by
  by_cases hl : input.length = nIn
  · have hH : g.nodes.length - nIn - nOut = H := by
      rw [h.nodes]; simp [intRange]; omega
    simp only [cgpCall, if_pos hl, hH]
    have hr := cgpRunNodes_agree h H nIn
      ((List.zip (intRange 0 nIn) input).foldl (fun o iv => setNode o iv.1 (some iv.2)) o1)
      ((List.zip (intRange 0 nIn) input).foldl (fun o iv => setNode o iv.1 (some iv.2)) o2) (by
        intro j h0 h1
        rw [assign_inputs nIn input hl, assign_inputs nIn input hl, if_pos ⟨h0, h1⟩, if_pos ⟨h0, h1⟩])
    have hcast : (((nIn : Int) + (H : Int))) = ((nIn + H + 0 : Nat) : Int) := by simp
    cases h1 : cgpRunNodes g (intRange nIn H)
        ((List.zip (intRange 0 nIn) input).foldl (fun o iv => setNode o iv.1 (some iv.2)) o1) with
    | error e1 =>
      cases h2 : cgpRunNodes g (intRange nIn H)
          ((List.zip (intRange 0 nIn) input).foldl (fun o iv => setNode o iv.1 (some iv.2)) o2) with
      | error e2 => rw [h1, h2] at hr; simp only [AgreeBelow] at hr; rw [hr]
      | ok o2' => rw [h1, h2] at hr; simp [AgreeBelow] at hr
    | ok o1' =>
      cases h2 : cgpRunNodes g (intRange nIn H)
          ((List.zip (intRange 0 nIn) input).foldl (fun o iv => setNode o iv.1 (some iv.2)) o2) with
      | error e2 => rw [h1, h2] at hr; simp [AgreeBelow] at hr
      | ok o2' =>
        rw [h1, h2] at hr
        simp only [AgreeBelow] at hr
        simp only
        rw [hcast]
        exact cgpRunOutputs_agree h nOut 0 o1' o2' [] hr
  · simp only [cgpCall, if_neg hl]

end Leap
