import Verif.Model.Printing
import Verif.Props.Wrappers
import Verif.Props.Probe

/-!
# C84: printing operators pass everything through and write exactly what they are told
-/

namespace Leap

variable {α : Type}

open Spec

/-- C84: `print_probe` returns the population it was given and writes the prefix and what the probe says about it, once; when
the probe raises, the exception goes through and nothing is written. -/
theorem print_probe_spec {β : Type} (probe : List α → PyM β) (str : β → List Char) (pre : List Char) (population : List α)
    (stream : List Char) :
    (∀ v, probe population = .ok v → printProbe probe str pre population stream = (.ok population, stream ++ pre ++ str v)) ∧
    (∀ e, probe population = .error e → printProbe probe str pre population stream = (.error e, stream)) := by
  constructor <;> intro v hv <;> simp [printProbe, hv]

example : printProbe (fun p : List Nat => .ok p.length) (fun n => (toString n).toList) "n=".toList [4, 5] "a".toList =
    (.ok [4, 5], "an=2".toList) := by decide

/-- C84: `print_individual` is invisible to what follows it: pulling `n` individuals through it gives exactly what pulling them
from upstream gives, and writes one line for each of them in order; an exception of upstream goes through (`StopIteration` as
`RuntimeError`). -/
theorem print_individual_echo {W σ : Type} (next : Gen W σ α) (str : α → List Char) (pre : List Char) (n : Nat) (s : σ) (w : W)
    (out : List Char) :
    (∀ inds s' w', pull next n s w = .ok (inds, s', w') →
      pull (printIndividual next str pre) n s (w, out) =
        .ok (inds, s', (w', out ++ unlines (inds.map fun ind => pre ++ str ind)))) ∧
    (∀ e, pull next n s w = .error e →
      pull (printIndividual next str pre) n s (w, out) = pep479 (.error e)) := by
  induction n generalizing s w out with
  | zero =>
    refine ⟨?_, ?_⟩
    · intro inds s' w' h
      simp only [pull, Except.ok.injEq, Prod.mk.injEq] at h
      obtain ⟨rfl, rfl, rfl⟩ := h
      simp [pull, unlines]
    · intro e h; simp [pull] at h
  | succ n ih =>
    simp only [pull, printIndividual]
    cases hn : next s w with
    | error e =>
      refine ⟨by intro _ _ _ h; simp at h, ?_⟩
      intro e' h
      simp only [Except.error.injEq] at h
      subst h
      cases e <;> rfl
    | ok r =>
      obtain ⟨a, s1, w1⟩ := r
      simp only
      obtain ⟨i1, i2⟩ := ih s1 w1 (out ++ (pre ++ str a ++ ['\n']))
      cases hp : pull next n s1 w1 with
      | error e =>
        refine ⟨by intro _ _ _ h; simp at h, ?_⟩
        intro e' h
        simp only [Except.error.injEq] at h
        subst h
        rw [i2 e hp]
        cases e <;> rfl
      | ok r =>
        obtain ⟨as, s2, w2⟩ := r
        refine ⟨?_, by intro e h; simp at h⟩
        intro inds s' w' h
        simp only [Except.ok.injEq, Prod.mk.injEq] at h
        obtain ⟨rfl, rfl, rfl⟩ := h
        rw [i1 as s2 w2 hp]
        simp [unlines]

example : pull (printIndividual (listIter (W := Unit)) (fun n : Nat => (toString n).toList) "> ".toList) 2 [7, 8, 9] ((), []) =
      .ok ([7, 8], [9], ((), "> 7\n> 8\n".toList)) ∧
    pull (printIndividual (listIter (W := Unit)) (fun n : Nat => (toString n).toList) []) 2 [7] ((), []) =
      .error .runtimeError := by decide

/-- C84: `print_population` writes one line per individual, in order. -/
theorem print_population_spec (genome fitness : α → List Char) (generation : List Char) (population : List α) :
    printPopulation genome fitness generation population =
      unlines (population.map fun ind => generation ++ ' ' :: genome ind ++ ' ' :: fitness ind) := by
  have key : ∀ (l : List α) (out : List Char),
      l.foldl (fun out ind => out ++ (generation ++ [' '] ++ genome ind ++ [' '] ++ fitness ind ++ ['\n'])) out =
        out ++ unlines (l.map fun ind => generation ++ ' ' :: genome ind ++ ' ' :: fitness ind) := by
    intro l
    induction l with
    | nil => intro out; simp [unlines]
    | cons x l ih => intro out; rw [List.foldl_cons, ih]; simp [unlines]
  exact (key population []).trans (by simp)

theorem pyJoin_eq (sep : List Char) (l : List (List Char)) : pyJoin sep l = sep.intercalate l := by
  induction l with
  | nil => rfl
  | cons p ps ih =>
    cases ps with
    | nil => simp [pyJoin]
    | cons q qs => rw [pyJoin, ih, List.intercalate_cons_cons]; simp

/-- C84: `print_list` writes the texts of the elements between brackets, separated by commas. -/
theorem print_list_spec (str : α → List Char) (l : List α) :
    printList str l = '[' :: ([',', ' '].intercalate (l.map str)) ++ "]\n".toList := by
  simp [printList, pyJoin_eq]

example : printList (fun n : Nat => (toString n).toList) [1, 23] = "[1, 23]\n".toList := by decide

/-- C84: within a probe that prints arrays as lists, arrays are printed as lists, and afterwards, whether or not the body
raised, in numpy's own way; a probe that does not leaves the setting to the body.
Missing from the full claim, because it is false of the code: that a user's own setting comes back. -/
theorem array_text_restored_partial {β : Type} (body : NumpyText → PyM β × NumpyText) (t : NumpyText) :
    maybeList true body t = ((body ⟨.asList, .asList⟩).1, ⟨.numpyDefault, .numpyDefault⟩) ∧
    maybeList false body t = body t := ⟨rfl, rfl⟩

/-- C84: numpy's own way is not always the way from before: a user's own setting is lost, so using the probe is visible
elsewhere. -/
theorem array_text_not_restored :
    ∃ t : NumpyText, ∀ (body : NumpyText → PyM Unit × NumpyText), (maybeList true body t).2 ≠ t :=
  ⟨⟨.custom 1, .custom 1⟩, by intro body h; cases h⟩

theorem splitLines_intercalate (l : List Char) : ['\n'].intercalate (splitLines l) = l ∧ ∀ p ∈ splitLines l, '\n' ∉ p := by
  induction l with
  | nil => simp [splitLines]
  | cons c cs ih =>
    obtain ⟨h1, h2⟩ := ih
    simp only [splitLines]
    split
    · rename_i hc
      subst hc
      refine ⟨?_, ?_⟩
      · cases hs : splitLines cs with
        | nil => exact absurd hs (splitLines_ne cs)
        | cons p ps =>
          rw [List.intercalate_cons_cons, ← hs, h1]; rfl
      · intro p hp
        rcases List.mem_cons.1 hp with rfl | hp
        · simp
        · exact h2 p hp
    · rename_i hc
      cases hs : splitLines cs with
      | nil => exact absurd hs (splitLines_ne cs)
      | cons p ps =>
        rw [hs] at h1 h2
        simp only
        refine ⟨?_, ?_⟩
        · cases ps with
          | nil => simp at h1 ⊢; exact h1
          | cons q qs =>
            rw [List.intercalate_cons_cons] at h1 ⊢
            simp only [List.cons_append, List.append_assoc] at h1 ⊢
            rw [h1]
        · intro r hr
          rcases List.mem_cons.1 hr with rfl | hr
          · simp only [List.mem_cons, not_or]
            exact ⟨fun h => hc h.symm, h2 p (by simp)⟩
          · exact h2 r (by simp [hr])

theorem intercalate_newline (ls : List (List Char)) (h : ls ≠ []) : ['\n'].intercalate ls ++ ['\n'] = unlines ls := by
  induction ls with
  | nil => exact absurd rfl h
  | cons l ls ih =>
    cases ls with
    | nil => simp [unlines]
    | cons m ms =>
      rw [List.intercalate_cons_cons, List.append_assoc, ih (by simp)]
      simp [unlines]

/-- C84: a comment of one or more lines is written line by line, each marked with the comment character, so that it can be read
back: the lines are those of the comment. An empty comment writes nothing. -/
theorem comment_lines (character comment : List Char) :
    commentText character [] = [] ∧
    (comment ≠ [] → ∃ ls : List (List Char), ls ≠ [] ∧ (∀ l ∈ ls, '\n' ∉ l) ∧ ['\n'].intercalate ls = comment ∧
      commentText character comment = unlines (ls.map fun l => character ++ ' ' :: l)) := by
  refine ⟨rfl, fun h => ⟨splitLines comment, splitLines_ne comment, (splitLines_intercalate comment).2,
    (splitLines_intercalate comment).1, ?_⟩⟩
  rw [commentText, if_neg h, pyJoin_eq, intercalate_newline _ (by simpa using splitLines_ne comment)]
  simp

example : commentText "#".toList "one\ntwo".toList = "# one\n# two\n".toList := by decide

theorem intercalate_append (sep : List Char) (a b : List (List Char)) (ha : a ≠ []) (hb : b ≠ []) :
    sep.intercalate (a ++ b) = sep.intercalate a ++ sep ++ sep.intercalate b := by
  induction a with
  | nil => exact absurd rfl ha
  | cons x a ih =>
    cases a with
    | nil =>
      cases b with
      | nil => exact absurd rfl hb
      | cons y b => rw [List.singleton_append, List.intercalate_cons_cons]; simp
    | cons y a =>
      rw [List.cons_append, List.cons_append, List.intercalate_cons_cons, List.intercalate_cons_cons,
        ← List.cons_append, ih (by simp)]
      simp

/-- The columns of the statistics. -/
def Spec.statsColumns : List (List Char) :=
  ["step", "bsf", "mean_fitness", "std_fitness", "min_fitness", "max_fitness"].map String.toList

/-- C84: the header line names the columns of the rows in their order, separated by a comma and a blank. -/
theorem header_text_columns (job : Bool) (notes extras : List (List Char)) :
    headerText job notes extras =
      [',', ' '].intercalate ((if job then ["job".toList] else []) ++ notes ++ statsColumns ++ extras) ++ ['\n'] := by
  have hs : [',', ' '].intercalate statsColumns = "step, bsf, mean_fitness, std_fitness, min_fitness, max_fitness".toList := by
    decide
  have hsn : statsColumns ≠ [] := by decide
  have h1 : [',', ' '].intercalate (statsColumns ++ extras) = "step, bsf, mean_fitness, std_fitness, min_fitness, max_fitness".toList ++
      (if extras = [] then [] else [',', ' '] ++ pyJoin [',', ' '] extras) := by
    by_cases he : extras = []
    · simp [he, hs]
    · rw [intercalate_append _ _ _ hsn he, hs, if_neg he, pyJoin_eq]; simp
  have h2 : [',', ' '].intercalate (notes ++ (statsColumns ++ extras)) =
      (if notes = [] then [] else pyJoin [',', ' '] notes ++ [',', ' ']) ++ [',', ' '].intercalate (statsColumns ++ extras) := by
    by_cases hn : notes = []
    · simp [hn]
    · rw [intercalate_append _ _ _ hn (by simp [hsn]), if_neg hn, pyJoin_eq]
  have hne : notes ++ (statsColumns ++ extras) ≠ [] := by simp [hsn]
  unfold headerText
  cases job with
  | false => simp only [Bool.false_eq_true, if_false, List.nil_append, List.append_assoc, h2, h1]
  | true =>
    simp only [if_true, List.append_assoc]
    rw [intercalate_append _ _ _ (by simp) hne, h2, h1]
    simp

/-- C84: the constructor writes the comment and then the header; without a header the comment is not written either. -/
theorem stats_start (character comment : List Char) (job : Bool) (notes extras : List (List Char)) :
    statsStart true character comment job notes extras = commentText character comment ++ headerText job notes extras ∧
    statsStart false character comment job notes extras = [] := ⟨rfl, rfl⟩

/-- The names of the columns are those of the model of the probe. -/
theorem header_text_agrees {M : Type} (c : StatsConfig α M) :
    (statsHeader c).map String.toList = (if c.job.isSome then ["job".toList] else []) ++
      (c.notes.map fun n => n.1.toList) ++ statsColumns ++ c.extraMetrics.map fun m => m.1.toList := by
  unfold statsHeader statsColumns
  cases c.job <;> simp [Function.comp_def]

/-! ### Dataframes -/

theorem attrRows_parallel {V : Type} (c : AttrConfig V) (hs : c.stream = true) (hd : c.doDataframe = true) (fieldnames : List String)
    (step : V) (inds : List (AttrInd V)) (st : AttrState V) (head : List (List (Option V)))
    (h : st.written = head ++ st.data.map fun row => fieldnames.map (dictGet row)) :
    (attrRows c fieldnames step inds st).2.written =
      head ++ (attrRows c fieldnames step inds st).2.data.map fun row => fieldnames.map (dictGet row) := by
  induction inds generalizing st with
  | nil => exact h
  | cons ind inds ih =>
    rw [attrRows]
    cases attrRow c step ind with
    | error e => exact h
    | ok row =>
      simp only [hs, hd, if_true]
      apply ih
      simp [h]

/-- C84: a probe that writes both a stream and a dataframe puts the same table in both: after any calls, also failing ones, the
dataframe has exactly the rows written after the header, in the same order and columns. A probe made without a dataframe
refuses to give one. -/
theorem dataframe_is_stream {V : Type} (c : AttrConfig V) (hs : c.stream = true) (hd : c.doDataframe = true)
    (fieldnames : List String) (gt : AttrInd V → AttrInd V → Bool) (ofStep : Int → V)
    (calls : List (Option (Option Int) × List (AttrInd V))) (head : List (List (Option V))) :
    ∃ rows, attrDataframe c fieldnames (attrHistory c fieldnames gt ofStep calls ⟨head, []⟩) = .ok rows ∧
      (attrHistory c fieldnames gt ofStep calls ⟨head, []⟩).written = head ++ rows := by
  refine ⟨_, by rw [attrDataframe, if_pos hd], ?_⟩
  have key : ∀ (calls : List (Option (Option Int) × List (AttrInd V))) (st : AttrState V),
      (st.written = head ++ st.data.map fun row => fieldnames.map (dictGet row)) →
      (attrHistory c fieldnames gt ofStep calls st).written =
        head ++ (attrHistory c fieldnames gt ofStep calls st).data.map fun row => fieldnames.map (dictGet row) := by
    intro calls
    induction calls with
    | nil => intro st h; exact h
    | cons call calls ih =>
      intro st h
      apply ih
      unfold attrProbe
      cases probeGeneration call.1 with
      | error e => exact h
      | ok g =>
        simp only
        cases hb : (if c.bestOnly then (pyMax gt call.2).map (fun b => [b]) else .ok call.2 : PyM (List (AttrInd V))) with
        | error e => exact h
        | ok inds =>
          simp only
          have := attrRows_parallel c hs hd fieldnames (ofStep g) inds st head h
          rcases hr : attrRows c fieldnames (ofStep g) inds st with ⟨r, st'⟩
          rw [hr] at this
          cases r <;> exact this
  exact key calls ⟨head, []⟩ (by simp)

theorem dataframe_refused {V : Type} (c : AttrConfig V) (hd : c.doDataframe = false) (fieldnames : List String)
    (st : AttrState V) : attrDataframe c fieldnames st = .error .valueError := by
  simp [attrDataframe, hd]

/-- Two calls, the second fails at its second individual, which lacks the attribute. -/
example :
    let good (v : Nat) : AttrInd Nat := ⟨fun k => if k = "foo" then some v else none, 0, 0⟩
    let bad : AttrInd Nat := ⟨fun _ => none, 0, 0⟩
    let c : AttrConfig Nat := ⟨["foo"], false, false, false, [], [], none, true, true⟩
    let st := attrHistory c ["step", "foo"] (fun _ _ => false) Int.toNat
      [(some (some 1), [good 5]), (some (some 2), [good 6, bad])] ⟨[], []⟩
    attrDataframe c ["step", "foo"] st = .ok [[some 1, some 5], [some 2, some 6]] ∧
      st.written = [[some 1, some 5], [some 2, some 6]] := by decide

end Leap
