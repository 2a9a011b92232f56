import Verif.Lemmas.Ordinal
import Verif.Props.NonDom

/-!
# C45: rank ordinal sorting
-/

namespace Leap
open Spec

/-- The objective values of an individual, all turned into maximisation. -/
def rowOf (ms : List Bool) (fitness : List ℚ) : List ℚ := List.zipWith (fun x m => if m then x else -x) fitness ms

theorem rowOf_length (ms : List Bool) (f : List ℚ) (h : f.length = ms.length) : (rowOf ms f).length = ms.length := by
  simp [rowOf, h]

theorem dominates_rows (ms : List Bool) (f g : List ℚ) (hf : f.length = ms.length) (hg : g.length = ms.length) :
    Dominates ms (f.map Num.fin) (g.map Num.fin) ↔
      (∀ j, j < ms.length → (rowOf ms g).getD j 0 ≤ (rowOf ms f).getD j 0) ∧
      ∃ j, j < ms.length ∧ (rowOf ms g).getD j 0 < (rowOf ms f).getD j 0 := by
  have hrow : ∀ (f : List ℚ) (j : Nat) (m : Bool) (a : ℚ), ms[j]? = some m → f[j]? = some a →
      (rowOf ms f).getD j 0 = if m then a else -a := by
    intro f j m a h1 h2
    simp [rowOf, List.getElem?_zipWith, h1, h2]
  unfold Dominates
  constructor
  · rintro ⟨h1, i, m, a, b, hm, ha, hb, hbet⟩
    refine ⟨?_, i, (List.getElem?_eq_some_iff.1 hm).1, ?_⟩
    · intro j hj
      have e1 : ms[j]? = some ms[j] := List.getElem?_eq_getElem hj
      have e2 : f[j]? = some (f[j]'(by omega)) := List.getElem?_eq_getElem _
      have e3 : g[j]? = some (g[j]'(by omega)) := List.getElem?_eq_getElem _
      rw [hrow f j _ _ e1 e2, hrow g j _ _ e1 e3]
      have := h1 j _ _ _ e1 (by rw [List.getElem?_map, e3]; rfl) (by rw [List.getElem?_map, e2]; rfl)
      cases hm : ms[j] <;> rw [hm] at this
      · rw [atLeast_false_fin] at this; simpa using this
      · rw [atLeast_true_fin] at this; simpa using this
    · rw [List.getElem?_map] at ha hb
      cases e2 : f[i]? <;> rw [e2] at hb <;> simp at hb
      cases e3 : g[i]? <;> rw [e3] at ha <;> simp at ha
      subst ha; subst hb
      rw [hrow f i _ _ hm e2, hrow g i _ _ hm e3]
      cases m
      · rw [better_false_fin] at hbet; simpa using hbet
      · rw [better_true_fin] at hbet; simpa using hbet
  · rintro ⟨h1, j, hj, hlt⟩
    constructor
    · intro i m a b hm ha hb
      rw [List.getElem?_map] at ha hb
      cases e2 : f[i]? <;> rw [e2] at hb <;> simp at hb
      cases e3 : g[i]? <;> rw [e3] at ha <;> simp at ha
      subst ha; subst hb
      have := h1 i (List.getElem?_eq_some_iff.1 hm).1
      rw [hrow f i _ _ hm e2, hrow g i _ _ hm e3] at this
      cases m
      · rw [atLeast_false_fin]; simpa using this
      · rw [atLeast_true_fin]; simpa using this
    · have e1 : ms[j]? = some ms[j] := List.getElem?_eq_getElem hj
      have e2 : f[j]? = some (f[j]'(by omega)) := List.getElem?_eq_getElem _
      have e3 : g[j]? = some (g[j]'(by omega)) := List.getElem?_eq_getElem _
      refine ⟨j, _, _, _, e1, by rw [List.getElem?_map, e3]; rfl, by rw [List.getElem?_map, e2]; rfl, ?_⟩
      rw [hrow f j _ _ e1 e2, hrow g j _ _ e1 e3] at hlt
      cases hm : ms[j] <;> rw [hm] at hlt
      · rw [better_false_fin]; simpa using hlt
      · rw [better_true_fin]; simpa using hlt

theorem pyMapM_ok {α β : Type} (f : α → PyM β) (g : α → β) (l : List α) (h : ∀ x ∈ l, f x = .ok (g x)) :
    pyMapM f l = .ok (l.map g) := by
  induction l with
  | nil => rfl
  | cons a l ih =>
    simp only [pyMapM, h a (List.mem_cons_self ..), ih fun x hx => h x (List.mem_cons_of_mem _ hx), bind, Except.bind, List.map_cons]

theorem assign_ranks (ws : List Nat) (g : Nat → Nat) (rank : Nat → Nat) (x : Nat) :
    ((ws.zip (ws.map g)).foldl (fun rank xi => setAttr rank xi.1 xi.2) rank) x = if x ∈ ws then g x else rank x := by
  induction ws generalizing rank with
  | nil => simp
  | cons a ws ih =>
    simp only [List.map_cons, List.zip_cons_cons, List.foldl_cons]
    rw [ih]
    by_cases hx : x ∈ ws
    · simp [hx]
    · by_cases hxa : x = a
      · subst hxa; simp [hx, setAttr]
      · simp [hx, hxa, setAttr]

/-- C45: `rank_ordinal_sort` returns the population followed by the parents, and gives every one of them, duplicates
in objective space included, its true Pareto rank; ranks of others are untouched. -/
theorem rank_ordinal_ranks (ms : List Bool) (hms : ms ≠ []) (maximize : Nat → List Bool) (fitness : Nat → List ℚ)
    (population : List Nat) (parents : Option (List Nat)) (rank : Nat → Nat) (hne : population ++ parents.getD [] ≠ [])
    (hmax : ∀ x ∈ population ++ parents.getD [], maximize x = ms)
    (hf : ∀ x ∈ population ++ parents.getD [], (fitness x).length = ms.length) :
    ∃ rank', rankOrdinalSort maximize fitness population parents rank = .ok (population ++ parents.getD [], rank') ∧
      (∀ x ∈ population ++ parents.getD [],
        HasRank (paretoGt ⟨ms⟩ fun y => (fitness y).map Num.fin) (population ++ parents.getD []) x (rank' x)) ∧
      ∀ x, x ∉ population ++ parents.getD [] → rank' x = rank x := by
  set ws := population ++ parents.getD [] with hws
  have hw : withParents population parents = ws := by rw [hws]; cases parents <;> simp [withParents]
  have hm0 : 0 < ms.length := List.length_pos_iff.2 hms
  set row : Nat → List ℚ := fun x => rowOf ms (fitness x) with hrow
  have hlen : ∀ x ∈ ws, (row x).length = ms.length := fun x hx => rowOf_length ms _ (hf x hx)
  have hmap : pyMapM (fun x => orientedRow (maximize x) (fitness x)) ws = .ok (ws.map row) := by
    apply pyMapM_ok
    intro x hx
    rw [hmax x hx]
    exact bcast_same _ _ _ (hf x hx)
  set U := npUniqueRows (ws.map row) with hU
  obtain ⟨hn, hmem, hs⟩ := uniqueRows_spec (ws.map row)
  have hUm : ∀ r ∈ U, r.length = ms.length := by
    intro r hr
    obtain ⟨x, hx, rfl⟩ := List.mem_map.1 ((hmem r).1 hr)
    exact hlen x hx
  set idx : Nat → Nat := fun x => U.idxOf (row x) with hidx
  have hidxlt : ∀ x ∈ ws, idx x < U.length := fun x hx =>
    List.idxOf_lt_length_of_mem ((hmem _).2 (List.mem_map.2 ⟨x, hx, rfl⟩))
  have hUidx : ∀ x ∈ ws, U.getD (idx x) [] = row x := by
    intro x hx
    rw [List.getD_eq_getElem?_getD, List.getElem?_eq_getElem (hidxlt x hx)]
    simp [hidx]
  have hrun : rankOrdinalSort maximize fitness population parents rank =
      .ok (ws, fun x => if x ∈ ws then ordinalRanks U ms.length (idx x) else rank x) := by
    unfold rankOrdinalSort
    simp only [hw, hmap, bind, Except.bind]
    have hfirst : ∀ (r : List ℚ) (rs : List (List ℚ)), ws.map row = r :: rs → r.length = ms.length := by
      intro r rs h
      have : r ∈ ws.map row := by rw [h]; simp
      obtain ⟨x, hx, rfl⟩ := List.mem_map.1 this
      exact hlen x hx
    split
    · rename_i h; exact absurd (List.map_eq_nil_iff.1 h) hne
    · rename_i r rs h
      have hr := hfirst r rs h
      rw [if_pos, if_neg (by omega)]
      · congr 2
        funext x
        rw [← hU, List.map_map, hr]
        have e : (ws.zip (ws.map ((fun r => U.idxOf r) ∘ row))).foldl
            (fun rank xi => setAttr rank xi.1 (ordinalRanks U ms.length xi.2)) rank =
            (ws.zip (ws.map fun x => ordinalRanks U ms.length (idx x))).foldl (fun rank xi => setAttr rank xi.1 xi.2) rank := by
          simp only [List.zip_map_right, List.foldl_map]
          rfl
        rw [e, assign_ranks]
      · simp only [List.all_eq_true, decide_eq_true_eq]
        intro r' hr'
        obtain ⟨x, hx, rfl⟩ := List.mem_map.1 hr'
        rw [hlen x hx, hr]
  refine ⟨_, hrun, ?_, fun x hx => if_neg hx⟩
  intro x hx
  have hp : ∀ a, (fun y => (fitness y).map Num.fin) a = (fitness a).map Num.fin := fun _ => rfl
  have hpar : ∀ a ∈ ws, ∀ b ∈ ws, (paretoGt ⟨ms⟩ (fun y => (fitness y).map Num.fin) a b = true ↔
      (∀ j, j < ms.length → (row b).getD j 0 ≤ (row a).getD j 0) ∧ ∃ j, j < ms.length ∧ (row b).getD j 0 < (row a).getD j 0) := by
    intro a ha b hb
    rw [paretoGt_iff_of ⟨ms⟩ _ a b (by simpa using hf a ha) (by simpa using hf b hb)]
    exact dominates_rows ms _ _ (hf a ha) (hf b hb)
  -- dominance between individuals is dominance between the rows
  have hdom : ∀ a ∈ ws, ∀ b ∈ ws, (paretoGt ⟨ms⟩ (fun y => (fitness y).map Num.fin) a b = true ↔
      rowDom U ms.length (idx a) (idx b) = true) := by
    intro a ha b hb
    rw [hpar a ha b hb, rowDom_iff]
    simp only [entry, hUidx a ha, hUidx b hb]
    constructor
    · rintro ⟨h1, j, hj, hlt⟩
      refine ⟨?_, hidxlt a ha, hidxlt b hb, h1⟩
      intro e
      have := hUidx a ha
      rw [e, hUidx b hb] at this
      rw [this] at hlt
      exact lt_irrefl _ hlt
    · rintro ⟨hne', -, -, h1⟩
      refine ⟨h1, ?_⟩
      by_contra hno
      apply hne'
      apply entry_ext U hn ms.length hUm _ _ (hidxlt a ha) (hidxlt b hb)
      intro j hj
      simp only [entry, hUidx a ha, hUidx b hb]
      refine le_antisymm ?_ (h1 j hj)
      by_contra hlt
      exact hno ⟨j, hj, not_le.1 hlt⟩
  have hU2 : ∀ a ∈ ws, HasRank (rowDom U ms.length) (List.range U.length) (idx a) (ordinalRanks U ms.length (idx a)) :=
    fun a ha => ordinalRanks_spec U hn hs ms.length hUm hm0 _ (hidxlt a ha)
  have := hasRank_of_numbering (dom := paretoGt ⟨ms⟩ fun y => (fitness y).map Num.fin) (pop := ws)
    (fun x => ordinalRanks U ms.length (idx x)) (fun a ha => (hU2 a ha).1)
    (fun a ha b hb h => hasRank_lt (hU2 a ha) (hU2 b hb) ((hdom b hb a ha).1 h))
    (fun a ha h => ?_) hx
  · simpa [hx] using this
  · obtain ⟨y, hy, hya, hyr⟩ := hasRank_pred (hU2 a ha) h
    have hyl : y < U.length := by simpa using hy
    obtain ⟨b, hb, hby⟩ := List.mem_map.1 ((hmem U[y]).1 (List.getElem_mem hyl))
    have hib : idx b = y := by
      simp only [hidx, hby]
      exact hn.idxOf_getElem y hyl
    refine ⟨b, hb, (hdom b hb a ha).2 (by rw [hib]; exact hya), ?_⟩
    have h5 := hU2 b hb
    rw [hib] at h5
    have := hasRank_unique h5 hyr
    rw [hib]
    omega

/-- C45: the two sorting operators give the same ranks. -/
theorem sorts_agree (ms : List Bool) (hms : ms ≠ []) (maximize : Nat → List Bool) (fitness : Nat → List ℚ)
    (multi : Nat → Bool) (population : List Nat) (parents : Option (List Nat)) (rank : Nat → Nat) (st : SortAttrs)
    (hne : population ≠ []) (hmax : ∀ x ∈ population ++ parents.getD [], maximize x = ms)
    (hf : ∀ x, (fitness x).length = ms.length) (hm : ∀ x ∈ population, multi x = true)
    (hn : (population ++ parents.getD []).Nodup) (fuel : Nat) (hfuel : (population ++ parents.getD []).length ≤ fuel) :
    ∃ rank' st', rankOrdinalSort maximize fitness population parents rank = .ok (population ++ parents.getD [], rank') ∧
      fastNondominatedSort (paretoGt ⟨ms⟩ fun y => (fitness y).map Num.fin) multi population parents st fuel =
        .ok (population ++ parents.getD [], some st') ∧
      ∀ x ∈ population ++ parents.getD [], rank' x = st'.rank x := by
  have hne' : population ++ parents.getD [] ≠ [] := by simp [hne]
  obtain ⟨rank', e1, h1, -⟩ := rank_ordinal_ranks ms hms maximize fitness population parents rank hne' hmax (fun x _ => hf x)
  obtain ⟨st', e2, h2, -⟩ := fast_sort_ranks_partial (paretoGt ⟨ms⟩ fun y => (fitness y).map Num.fin)
    (paretoGt_strictPartial ⟨ms⟩ _ (by intro x; simpa using hf x)) multi population parents st hne hm hn fuel hfuel
  exact ⟨rank', st', e1, e2, fun x hx => hasRank_unique (h1 x hx) (h2 x hx)⟩

/-- Five points, two of them equal, one objective maximised and one minimised. -/
def exFitness (x : Nat) : List ℚ := [[1, 1], [2, 1], [0, 5], [2, 1], [3, 7]].getD x [0, 0]

example : ((rankOrdinalSort (fun _ => [true, false]) exFitness [2, 0, 1] (some [3, 4]) fun _ => 9).toOption.map
    fun r => (r.1, [0, 1, 2, 3, 4, 5].map r.2)) = some ([2, 0, 1, 3, 4], [2, 1, 3, 1, 1, 9]) := by decide +kernel

/-- C45: an empty population is refused. -/
theorem rank_ordinal_empty (maximize : Nat → List Bool) (fitness : Nat → List ℚ) (rank : Nat → Nat) :
    rankOrdinalSort maximize fitness [] none rank = .error .indexError ∧
    rankOrdinalSort maximize fitness [] (some []) rank = .error .indexError := by
  constructor <;> rfl

end Leap
