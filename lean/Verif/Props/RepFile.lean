import Mathlib.Data.List.Basic
import Mathlib.Tactic.Ring
import Verif.Model.RepFile

/-!
# C94: saved repertoires are read back
-/

namespace Leap

/-- What is assumed of numbers as text: never empty, without commas, quotes and line ends, and `float` of it is the number. -/
def Spec.NumbersAsText (text : NumText) : Prop :=
  (∀ g, text.show' g ≠ [] ∧ ∀ c ∈ text.show' g, c ≠ ',' ∧ c ≠ '\n' ∧ c ≠ '\r' ∧ c ≠ '"') ∧
  (∀ q, text.float (text.show' (.float q)) = some q) ∧
  (∀ z, text.float (text.show' (.int z)) = some (z : ℚ)) ∧
  (∀ b, text.float (text.show' (.bool b)) = none)

/-- The number a gene is, if it is one. -/
def Spec.numberOf : RepGene → Option ℚ
  | .float q => some q
  | .int z => some z
  | .bool _ => none

open Spec

theorem cutAt_ne_nil (c : Char) (l : List Char) : cutAt c l ≠ [] := by
  cases l with
  | nil => simp [cutAt]
  | cons x xs =>
    simp only [cutAt]
    split
    · simp
    · split <;> simp

theorem cutAt_none (c : Char) (l : List Char) (h : c ∉ l) : cutAt c l = [l] := by
  induction l with
  | nil => rfl
  | cons x xs ih =>
    simp only [List.mem_cons, not_or] at h
    simp only [cutAt, if_neg (Ne.symm h.1), ih h.2]

theorem cutAt_append (c : Char) (l r : List Char) (h : c ∉ l) : cutAt c (l ++ c :: r) = l :: cutAt c r := by
  induction l with
  | nil => simp [cutAt]
  | cons x xs ih =>
    simp only [List.mem_cons, not_or] at h
    simp only [List.cons_append, cutAt, if_neg (Ne.symm h.1), ih h.2]

theorem newlines_append (l r : List Char) (h : '\r' ∉ l) : universalNewlines (l ++ '\r' :: '\n' :: r) = l ++ '\n' :: universalNewlines r := by
  induction l with
  | nil => rfl
  | cons x xs ih =>
    simp only [List.mem_cons, not_or] at h
    have hx : x ≠ '\r' := Ne.symm h.1
    rw [List.cons_append, List.cons_append, ← ih h.2]
    rw [universalNewlines.eq_def]
    split
    · simp at *
    · rename_i heq; injection heq with h1 _; exact absurd h1 hx
    · rename_i heq; injection heq with h1 _; exact absurd h1 hx
    · rename_i heq; injection heq with h1 h2; rw [h1, h2]

theorem commaSeparated_free (fs : List (List Char)) (c : Char) (hc : c ≠ ',') (h : ∀ f ∈ fs, c ∉ f) : c ∉ commaSeparated fs := by
  induction fs with
  | nil => simp [commaSeparated]
  | cons f fs ih =>
    cases fs with
    | nil => simpa [commaSeparated] using h f (by simp)
    | cons g gs =>
      simp only [commaSeparated, List.mem_append, List.mem_cons, not_or]
      exact ⟨h f (by simp), hc, ih (fun f hf => h f (List.mem_cons_of_mem _ hf))⟩

theorem csvFields_commaSeparated (fs : List (List Char)) (h : ∀ f ∈ fs, f ≠ [] ∧ ',' ∉ f) : csvFields (commaSeparated fs) = fs := by
  have key : ∀ f fs, (∀ g ∈ f :: fs, g ≠ [] ∧ ',' ∉ g) → cutAt ',' (commaSeparated (f :: fs)) = f :: fs := by
    intro f fs
    induction fs generalizing f with
    | nil => intro h; exact cutAt_none _ _ (h f (by simp)).2
    | cons g gs ih =>
      intro h
      simp only [commaSeparated]
      rw [cutAt_append _ _ _ (h f (by simp)).2, ih g (fun x hx => h x (List.mem_cons_of_mem _ hx))]
  cases fs with
  | nil => rfl
  | cons f fs =>
    unfold csvFields
    rw [if_neg, key f fs h]
    have hf := (h f (by simp)).1
    cases fs with
    | nil => simpa [commaSeparated] using hf
    | cons g gs => simp [commaSeparated]

/-- **C94** (lines of the file). The file read in text mode has one line for each genome, in order. -/
theorem repertoire_lines (text : NumText) (ht : NumbersAsText text) (repertoire : List (List RepGene)) :
    (fileLines (universalNewlines (exportRepertoire text repertoire))).map csvFields = repertoire.map fun g => g.map text.show' := by
  have hfree : ∀ (c : Char), c ≠ ',' → (c = '\n' ∨ c = '\r') → ∀ g : List RepGene, c ∉ commaSeparated (g.map text.show') := by
    intro c hc hcc g
    apply commaSeparated_free _ _ hc
    intro f hf
    obtain ⟨x, -, rfl⟩ := List.mem_map.1 hf
    intro hm
    rcases hcc with rfl | rfl
    · exact ((ht.1 x).2 _ hm).2.1 rfl
    · exact ((ht.1 x).2 _ hm).2.2.1 rfl
  have hun : ∀ r : List (List RepGene), cutAt '\n' (universalNewlines (exportRepertoire text r)) =
      (r.map fun g => commaSeparated (g.map text.show')) ++ [[]] := by
    intro r
    induction r with
    | nil => rfl
    | cons g r ih =>
      have : exportRepertoire text (g :: r) = commaSeparated (g.map text.show') ++ '\r' :: '\n' :: exportRepertoire text r := by
        simp [exportRepertoire]
      rw [this, newlines_append _ _ (hfree '\r' (by decide) (.inr rfl) g), cutAt_append _ _ _ (hfree '\n' (by decide) (.inl rfl) g), ih]
      rfl
  have hl : fileLines (universalNewlines (exportRepertoire text repertoire)) = repertoire.map fun g => commaSeparated (g.map text.show') := by
    simp only [fileLines, hun]
    simp
  rw [hl, List.map_map]
  apply List.map_congr_left
  intro g _
  apply csvFields_commaSeparated
  intro f hf
  obtain ⟨x, -, rfl⟩ := List.mem_map.1 hf
  exact ⟨(ht.1 x).1, fun hm => ((ht.1 x).2 _ hm).1 rfl⟩

theorem readRow_of_fields (text : NumText) (ht : NumbersAsText text) (line : List Char) (g : List RepGene)
    (h : csvFields line = g.map text.show') :
    (∀ qs : List ℚ, g.map numberOf = qs.map some → readRow text line = .ok (qs.map .float)) ∧
    ((∃ b, RepGene.bool b ∈ g) → readRow text line = .error .valueError) := by
  unfold readRow
  rw [h]
  clear h
  constructor
  · intro qs hq
    induction g generalizing qs with
    | nil =>
      cases qs with
      | nil => rfl
      | cons q qs => simp at hq
    | cons x g ih =>
      cases qs with
      | nil => simp at hq
      | cons q qs =>
        simp only [List.map_cons, List.cons.injEq] at hq
        have hx : text.float (text.show' x) = some q := by
          cases x with
          | float r => rw [ht.2.1]; exact hq.1
          | int z => rw [ht.2.2.1]; exact hq.1
          | bool b => simp [numberOf] at hq
        simp only [List.map_cons, List.mapM_cons, hx]
        rw [ih qs hq.2]
        rfl
  · rintro ⟨b, hb⟩
    induction g with
    | nil => simp at hb
    | cons x g ih =>
      simp only [List.map_cons, List.mapM_cons]
      cases hx : text.float (text.show' x) with
      | none => rfl
      | some q =>
        have hb' : RepGene.bool b ∈ g := by
          rcases List.mem_cons.1 hb with rfl | hb
          · rw [ht.2.2.2] at hx; simp at hx
          · exact hb
        rw [ih hb']
        rfl

theorem readRows_of_fields (text : NumText) (ht : NumbersAsText text) (lines : List (List Char)) (r : List (List RepGene))
    (h : lines.map csvFields = r.map fun g => g.map text.show') :
    (∀ qss : List (List ℚ), r.map (·.map numberOf) = qss.map (·.map some) →
      lines.mapM (readRow text) = .ok (qss.map (·.map .float))) ∧
    ((∃ g ∈ r, ∃ b, RepGene.bool b ∈ g) → lines.mapM (readRow text) = .error .valueError) := by
  induction r generalizing lines with
  | nil =>
    cases lines with
    | nil =>
      refine ⟨fun qss hq => ?_, fun ⟨g, hg, _⟩ => by simp at hg⟩
      cases qss with
      | nil => rfl
      | cons q qss => simp at hq
    | cons l ls => simp at h
  | cons g r ih =>
    cases lines with
    | nil => simp at h
    | cons l ls =>
      simp only [List.map_cons, List.cons.injEq] at h
      obtain ⟨a1, a2⟩ := readRow_of_fields text ht l g h.1
      obtain ⟨b1, b2⟩ := ih ls h.2
      constructor
      · intro qss hq
        cases qss with
        | nil => simp at hq
        | cons qs qss =>
          simp only [List.map_cons, List.cons.injEq] at hq
          rw [List.mapM_cons, a1 qs hq.1, b1 qss hq.2]
          rfl
      · rintro ⟨g', hg', b, hb⟩
        rw [List.mapM_cons]
        by_cases hg : ∃ b, RepGene.bool b ∈ g
        · rw [a2 hg]; rfl
        · have hrest : ∃ g ∈ r, ∃ b, RepGene.bool b ∈ g := by
            rcases List.mem_cons.1 hg' with rfl | hm
            · exact absurd ⟨b, hb⟩ hg
            · exact ⟨g', hm, b, hb⟩
          have hnum : ∃ qs : List ℚ, g.map numberOf = qs.map some := by
            clear a1 a2 h hg'
            induction g with
            | nil => exact ⟨[], rfl⟩
            | cons x g ihg =>
              obtain ⟨qs, hqs⟩ := ihg (fun ⟨b, hb⟩ => hg ⟨b, List.mem_cons_of_mem _ hb⟩)
              cases x with
              | float q => exact ⟨q :: qs, by simp [numberOf, hqs]⟩
              | int z => exact ⟨(z : ℚ) :: qs, by simp [numberOf, hqs]⟩
              | bool b => exact absurd ⟨b, by simp⟩ hg
          obtain ⟨qs, hqs⟩ := hnum
          rw [a1 qs hqs, b2 hrest]
          rfl

/-- **C94** (round trip). A repertoire of genomes of numbers, exported and read by a new repertoire object, is the same list of genomes, in
order, genome by genome and gene by gene; integers have become floats. Empty genomes and the empty repertoire are included. -/
theorem repertoire_round_trip (text : NumText) (ht : NumbersAsText text) (repertoire : List (List RepGene)) (qss : List (List ℚ))
    (h : repertoire.map (·.map numberOf) = qss.map (·.map some)) :
    loadRepertoire text true (some (exportRepertoire text repertoire)) = .ok (qss.map (·.map .float)) :=
  (readRows_of_fields text ht _ repertoire (repertoire_lines text ht repertoire)).1 qss h

/-- C94: exporting and reading again what was read changes nothing more. -/
theorem repertoire_stable (text : NumText) (ht : NumbersAsText text) (qss : List (List ℚ)) :
    loadRepertoire text true (some (exportRepertoire text (qss.map (·.map .float)))) = .ok (qss.map (·.map .float)) :=
  repertoire_round_trip text ht _ qss (by rw [List.map_map]; apply List.map_congr_left; intro q _; simp [numberOf])

/-- C94: a repertoire with a genome of NumPy booleans, as `create_binary_sequence` makes them, can be exported, but not read: `ValueError`. -/
theorem binary_repertoire_unreadable (text : NumText) (ht : NumbersAsText text) (repertoire : List (List RepGene))
    (h : ∃ g ∈ repertoire, ∃ b, RepGene.bool b ∈ g) :
    loadRepertoire text true (some (exportRepertoire text repertoire)) = .error .valueError :=
  (readRows_of_fields text ht _ repertoire (repertoire_lines text ht repertoire)).2 h

/-- C94: a new repertoire object needs an algorithm, and starts empty when no file is given. -/
theorem repertoire_init (text : NumText) (f : Option (List Char)) :
    loadRepertoire text false f = .error .assertionError ∧ loadRepertoire text true none = .ok [] := ⟨rfl, rfl⟩

/-- Numbers in unary, with sign and denominator. -/
def exText : NumText where
  show'
    | .float q => (if q.num < 0 then ['-'] else []) ++ List.replicate q.num.natAbs '1' ++ '/' :: List.replicate q.den '1'
    | .int z => (if z < 0 then ['-'] else []) ++ List.replicate z.natAbs '1' ++ ['/', '1']
    | .bool b => if b then ['T'] else ['F']
  float cs :=
    if '/' ∈ cs then
      let n := (cs.takeWhile (· ≠ '/')).count '1'
      let d := (cs.dropWhile (· ≠ '/')).count '1'
      some ((if '-' ∈ cs then -(n : ℚ) else n) / d)
    else none

example : NumbersAsText exText := by
  have key : ∀ (z : Int) (d : Nat), d ≠ 0 →
      exText.float ((if z < 0 then ['-'] else []) ++ List.replicate z.natAbs '1' ++ '/' :: List.replicate d '1') = some ((z : ℚ) / d) := by
    intro z d hd
    have h1 : ∀ n : Nat, (List.replicate n '1' ++ '/' :: List.replicate d '1').takeWhile (· ≠ '/') = List.replicate n '1' := by
      intro n; induction n with
      | zero => simp
      | succ n ih => simpa [List.replicate_succ] using ih
    have h2 : ∀ n : Nat, (List.replicate n '1' ++ '/' :: List.replicate d '1').dropWhile (· ≠ '/') = '/' :: List.replicate d '1' := by
      intro n; induction n with
      | zero => simp
      | succ n ih => simpa [List.replicate_succ] using ih
    by_cases hz : z < 0
    · have h3 : ((z.natAbs : Nat) : ℚ) = -(z : ℚ) := by
        have : ((z.natAbs : Int)) = -z := by omega
        rw [← Int.cast_natCast, this, Int.cast_neg]
      have h1' := h1 z.natAbs
      have h2' := h2 z.natAbs
      simp only [exText, if_pos hz, List.append_assoc]
      rw [if_pos (by simp)]
      simp only [List.cons_append, List.nil_append]
      rw [List.takeWhile_cons_of_pos (by decide), List.dropWhile_cons_of_pos (by decide), h1', h2']
      simp [h3]
    · have h3 : ((z.natAbs : Nat) : ℚ) = (z : ℚ) := by
        have : ((z.natAbs : Int)) = z := by omega
        rw [← Int.cast_natCast, this]
      simp only [exText, if_neg hz, List.nil_append]
      rw [if_pos (by simp), h1, h2, if_neg (by simp)]
      simp [h3]
  refine ⟨fun g => ?_, fun q => ?_, fun z => ?_, fun b => ?_⟩
  · cases g with
    | float q =>
      refine ⟨by simp [exText], ?_⟩
      intro c hc
      simp only [exText, List.mem_append, List.mem_cons, List.mem_replicate] at hc
      split at hc
      · simp at hc; rcases hc with (rfl | ⟨_, rfl⟩) | rfl | ⟨_, rfl⟩ <;> decide
      · simp at hc; rcases hc with ⟨_, rfl⟩ | rfl | ⟨_, rfl⟩ <;> decide
    | int z =>
      refine ⟨by simp [exText], ?_⟩
      intro c hc
      simp only [exText, List.mem_append, List.mem_cons, List.mem_replicate] at hc
      split at hc
      · simp at hc; rcases hc with (rfl | ⟨_, rfl⟩) | rfl | rfl <;> decide
      · simp at hc; rcases hc with ⟨_, rfl⟩ | rfl | rfl <;> decide
    | bool b => cases b <;> exact ⟨by decide, by decide⟩
  · have := key q.num q.den q.den_nz
    rw [Rat.num_div_den] at this
    exact this
  · have := key z 1 (by decide)
    simp only [Nat.cast_one, div_one] at this
    exact this
  · cases b <;> decide

example : loadRepertoire exText true (some (exportRepertoire exText [[.float (-3/2), .int 2], [], [.int 0]])) =
    .ok [[.float (-3/2), .float 2], [], [.float 0]] := by decide +kernel

end Leap
