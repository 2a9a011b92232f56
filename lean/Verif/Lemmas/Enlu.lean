import Mathlib.Tactic.Linarith
import Verif.Model.Enlu
import Verif.Lemmas.Ranks

/-!
# Lemmas about the incremental non-dominated sort
-/

namespace Leap
open Spec

/-! ## Binary search -/

theorem findStartLoop_spec (gt : Nat → Nat → Bool) (ind : Nat) (layers : List (List Nat)) (lo hi : Int)
    (h0 : 0 ≤ lo) (hle : lo ≤ hi + 1) (hh : hi < layers.length)
    (hlo : 0 < lo → dominatedInLayer gt ind (layers.getD (lo - 1).toNat []) = true)
    (hhi : hi + 1 < layers.length → dominatedInLayer gt ind (layers.getD (hi + 1).toNat []) = false) :
    let s := findStartLoop gt ind layers lo hi
    0 ≤ s ∧ s ≤ layers.length ∧ (0 < s → dominatedInLayer gt ind (layers.getD (s - 1).toNat []) = true) ∧
      (s < layers.length → dominatedInLayer gt ind (layers.getD s.toNat []) = false) := by
  generalize hm : (hi + 1 - lo).toNat = m
  induction m using Nat.strongRecOn generalizing lo hi with
  | ind m ih =>
    by_cases h : lo ≤ hi
    · rw [findStartLoop, dif_pos h]
      simp only
      have hmid1 : lo ≤ (lo + hi) / 2 := by omega
      have hmid2 : (lo + hi) / 2 ≤ hi := by omega
      by_cases hd : dominatedInLayer gt ind (layers.getD ((lo + hi) / 2).toNat []) = true
      · rw [if_neg (by rw [hd]; decide)]
        refine ih _ ?_ ((lo + hi) / 2 + 1) hi (by omega) (by omega) hh ?_ hhi rfl
        · omega
        · intro _; simpa using hd
      · rw [if_pos (by rw [Bool.not_eq_true] at hd; rw [hd]; rfl)]
        refine ih _ ?_ lo ((lo + hi) / 2 - 1) h0 (by omega) (by omega) hlo ?_ rfl
        · omega
        · intro _; simpa using hd
    · rw [findStartLoop, dif_neg h]
      have : hi = lo - 1 := by omega
      subst this
      refine ⟨h0, by omega, hlo, ?_⟩
      intro hl
      have := hhi (by omega)
      simpa using this

theorem findStartLayer_spec (gt : Nat → Nat → Bool) (ind : Nat) (layers : List (List Nat)) :
    findStartLayer gt ind layers ≤ layers.length ∧
    (0 < findStartLayer gt ind layers → ∃ i ∈ layers.getD (findStartLayer gt ind layers - 1) [], gt i ind = true) ∧
    (∀ l, layers[findStartLayer gt ind layers]? = some l → ∀ i ∈ l, gt i ind = false) := by
  obtain ⟨h1, h2, h3, h4⟩ := findStartLoop_spec gt ind layers 0 ((layers.length : Int) - 1) (by omega) (by omega) (by omega)
    (by omega) (by omega)
  set s := findStartLoop gt ind layers 0 ((layers.length : Int) - 1) with hs
  have he : findStartLayer gt ind layers = s.toNat := rfl
  rw [he]
  refine ⟨by omega, ?_, ?_⟩
  · intro hp
    have := h3 (by omega)
    have e : (s - 1).toNat = s.toNat - 1 := by omega
    rw [e] at this
    simpa [dominatedInLayer] using this
  · intro l hl i hi
    have hlt := (List.getElem?_eq_some_iff.1 hl).1
    have := h4 (by omega)
    rw [List.getD_eq_getElem?_getD, hl] at this
    simp only [dominatedInLayer, Option.getD_some, List.any_eq_false] at this
    simpa using this i hi

/-! ## The zenith -/

theorem zipWith_getD {f : ℚ → ℚ → ℚ} {a b : List ℚ} {i : Nat} (ha : i < a.length) (hb : i < b.length) :
    (List.zipWith f a b).getD i 0 = f (a.getD i 0) (b.getD i 0) := by
  simp [List.getD_eq_getElem?_getD, List.getElem?_zipWith, List.getElem?_eq_getElem ha, List.getElem?_eq_getElem hb]

theorem zenith_spec {row : Nat → List ℚ} {k : Nat} (hk : ∀ x, (row x).length = k) (first : Nat) (rest : List Nat) :
    (zenith row first rest).length = k ∧ ∀ i, i < k →
      (∀ m ∈ first :: rest, (row m).getD i 0 ≤ (zenith row first rest).getD i 0) ∧
      ∃ m ∈ first :: rest, (zenith row first rest).getD i 0 = (row m).getD i 0 := by
  have key : ∀ (rest : List Nat) (z : List ℚ) (M : List Nat), z.length = k →
      (∀ i, i < k → (∀ m ∈ M, (row m).getD i 0 ≤ z.getD i 0) ∧ ∃ m ∈ M, z.getD i 0 = (row m).getD i 0) →
      (rest.foldl (fun z m => List.zipWith max z (row m)) z).length = k ∧ ∀ i, i < k →
        (∀ m ∈ M ++ rest, (row m).getD i 0 ≤ (rest.foldl (fun z m => List.zipWith max z (row m)) z).getD i 0) ∧
        ∃ m ∈ M ++ rest, (rest.foldl (fun z m => List.zipWith max z (row m)) z).getD i 0 = (row m).getD i 0 := by
    intro rest
    induction rest with
    | nil => intro z M hz h; simpa [hz] using h
    | cons a rest ih =>
      intro z M hz h
      simp only [List.foldl_cons]
      have := ih (List.zipWith max z (row a)) (M ++ [a]) (by simp [hz, hk]) (by
        intro i hi
        rw [zipWith_getD (by omega) (by rw [hk]; exact hi)]
        obtain ⟨h1, m, hm, h2⟩ := h i hi
        refine ⟨?_, ?_⟩
        · intro m' hm'
          rcases List.mem_append.1 hm' with hm' | hm'
          · exact le_trans (h1 m' hm') (le_max_left _ _)
          · rw [List.mem_singleton] at hm'; subst hm'; exact le_max_right _ _
        · rcases le_total (z.getD i 0) ((row a).getD i 0) with hle | hle
          · exact ⟨a, by simp, by rw [max_eq_right hle]⟩
          · exact ⟨m, by simp [hm], by rw [max_eq_left hle, h2]⟩)
      simpa using this
  have := key rest (row first) [first] (hk first) (by intro i hi; simp)
  simpa [zenith] using this

/-- The zenith test, without the zenith. -/
def ZenithAbove (row : Nat → List ℚ) (k : Nat) (M : List Nat) (l : Nat) : Prop :=
  (∀ i, i < k → ∃ m ∈ M, (row l).getD i 0 ≤ (row m).getD i 0) ∧ ∃ i, i < k ∧ ∃ m ∈ M, (row l).getD i 0 < (row m).getD i 0

theorem zip_all_iff {P : ℚ → ℚ → Bool} {k : Nat} {a b : List ℚ} (ha : a.length = k) (hb : b.length = k) :
    (List.zipWith P a b).all id = true ↔ ∀ i, i < k → P (a.getD i 0) (b.getD i 0) = true := by
  induction k generalizing a b with
  | zero =>
    rw [List.length_eq_zero_iff] at ha hb
    subst ha; subst hb; simp
  | succ k ih =>
    cases a with
    | nil => simp at ha
    | cons x a =>
      cases b with
      | nil => simp at hb
      | cons y b =>
        simp only [List.zipWith_cons_cons, List.all_cons, Bool.and_eq_true, id,
          ih (a := a) (b := b) (by simpa using ha) (by simpa using hb)]
        constructor
        · rintro ⟨h0, h⟩ i hi
          cases i with
          | zero => simpa using h0
          | succ i => simpa using h i (by omega)
        · intro h
          exact ⟨by simpa using h 0 (by omega), fun i hi => by simpa using h (i + 1) (by omega)⟩

theorem zip_any_iff {P : ℚ → ℚ → Bool} {k : Nat} {a b : List ℚ} (ha : a.length = k) (hb : b.length = k) :
    (List.zipWith P a b).any id = true ↔ ∃ i, i < k ∧ P (a.getD i 0) (b.getD i 0) = true := by
  induction k generalizing a b with
  | zero =>
    rw [List.length_eq_zero_iff] at ha hb
    subst ha; subst hb; simp
  | succ k ih =>
    cases a with
    | nil => simp at ha
    | cons x a =>
      cases b with
      | nil => simp at hb
      | cons y b =>
        simp only [List.zipWith_cons_cons, List.any_cons, Bool.or_eq_true, id,
          ih (a := a) (b := b) (by simpa using ha) (by simpa using hb)]
        constructor
        · rintro (h0 | ⟨i, hi, h⟩)
          · exact ⟨0, by omega, by simpa using h0⟩
          · exact ⟨i + 1, by omega, by simpa using h⟩
        · rintro ⟨i, hi, h⟩
          cases i with
          | zero => left; simpa using h
          | succ i => right; exact ⟨i, by omega, by simpa using h⟩

theorem zenithDominates_iff {row : Nat → List ℚ} {k : Nat} (hk : ∀ x, (row x).length = k) (first : Nat) (rest : List Nat) (l : Nat) :
    zenithDominates (zenith row first rest) (row l) = true ↔ ZenithAbove row k (first :: rest) l := by
  obtain ⟨hz, h⟩ := zenith_spec hk first rest
  unfold zenithDominates ZenithAbove
  rw [Bool.and_eq_true, zip_all_iff hz (hk l), zip_any_iff hz (hk l)]
  simp only [decide_eq_true_eq]
  constructor
  · rintro ⟨h1, i, hi, h2⟩
    refine ⟨fun i hi => ?_, i, hi, ?_⟩
    · obtain ⟨m, hm, e⟩ := (h i hi).2
      exact ⟨m, hm, e ▸ h1 i hi⟩
    · obtain ⟨m, hm, e⟩ := (h i hi).2
      exact ⟨m, hm, e ▸ h2⟩
  · rintro ⟨h1, i, hi, m, hm, h2⟩
    refine ⟨fun i hi => ?_, i, hi, lt_of_lt_of_le h2 ((h i hi).1 m hm)⟩
    obtain ⟨m', hm', h'⟩ := h1 i hi
    exact le_trans h' ((h i hi).1 m' hm')

/-- `gt` is dominance of the rows. -/
def RowDominance (gt : Nat → Nat → Bool) (row : Nat → List ℚ) (k : Nat) : Prop :=
  ∀ a b, gt a b = true ↔ (∀ j, j < k → (row b).getD j 0 ≤ (row a).getD j 0) ∧ ∃ j, j < k ∧ (row b).getD j 0 < (row a).getD j 0

theorem RowDominance.strictPartial {gt : Nat → Nat → Bool} {row : Nat → List ℚ} {k : Nat} (h : RowDominance gt row k) :
    StrictPartial gt := by
  constructor
  · intro a
    cases e : gt a a
    · rfl
    · obtain ⟨_, j, _, hj⟩ := (h a a).1 e
      exact absurd hj (lt_irrefl _)
  · intro a b c h1 h2
    rw [h] at *
    obtain ⟨a1, j, hj, a2⟩ := h1
    obtain ⟨b1, _⟩ := h2
    exact ⟨fun i hi => le_trans (b1 i hi) (a1 i hi), j, hj, lt_of_le_of_lt (b1 j hj) a2⟩

theorem RowDominance.zenith {gt : Nat → Nat → Bool} {row : Nat → List ℚ} {k : Nat} (h : RowDominance gt row k)
    {M : List Nat} {m l : Nat} (hm : m ∈ M) (hg : gt m l = true) : ZenithAbove row k M l := by
  obtain ⟨h1, j, hj, h2⟩ := (h m l).1 hg
  exact ⟨fun i hi => ⟨m, hm, h1 i hi⟩, j, hj, m, hm, h2⟩

/-! ## One step of the loop -/

theorem zip_filter_map (p : Nat → Bool) (l : List Nat) :
    ((l.zip (l.map p)).filter fun q => q.2).map (fun q => q.1) = l.filter p ∧
    ((l.zip (l.map p)).filter fun q => !q.2).map (fun q => q.1) = l.filter fun x => !p x := by
  induction l with
  | nil => simp
  | cons a l ih =>
    obtain ⟨h1, h2⟩ := ih
    cases h : p a <;> simp [h, h1, h2]

/-- Who is pushed down from a layer. -/
def pushed (gt : Nat → Nat → Bool) (M layer : List Nat) : List Nat := layer.filter fun l => M.any fun m => gt m l

/-- One step, the moving points being non-empty. -/
theorem enluLoop_step {gt : Nat → Nat → Bool} {row : Nat → List ℚ} {k : Nat} (hk : ∀ x, (row x).length = k)
    (hg : RowDominance gt row k) (M : List Nat) (hM : M ≠ []) (depth : Nat) (layer : List Nat) (below : List (List Nat))
    (rank : Nat → Nat) :
    ((∀ l ∈ layer, ZenithAbove row k M l) ∧
      enluLoop gt row M depth (layer :: below) rank =
        (M :: layer :: below, depth + 1, setLayerRanks rank (M :: layer :: below) depth)) ∨
    (∃ newLayer, (∀ y, y ∈ newLayer ↔ y ∈ M ∨ y ∈ layer ∧ ∀ m ∈ M, gt m y = false) ∧
      (newLayer ++ pushed gt M layer).Perm (M ++ layer) ∧
      (∃ l ∈ layer, ¬ ZenithAbove row k M l) ∧
      enluLoop gt row M depth (layer :: below) rank =
        (newLayer :: (enluLoop gt row (pushed gt M layer) (depth + 1) below (setRanks rank newLayer (depth + 1))).1,
          (enluLoop gt row (pushed gt M layer) (depth + 1) below (setRanks rank newLayer (depth + 1))).2)) := by
  cases M with
  | nil => exact absurd rfl hM
  | cons first rest =>
    set M := first :: rest with hMdef
    have hz : ∀ l, zenithDominates (zenith row first rest) (row l) = true ↔ ZenithAbove row k M l :=
      zenithDominates_iff hk first rest
    by_cases hnd : (splitDominated row first rest layer).1 = []
    · left
      refine ⟨?_, ?_⟩
      · intro l hl
        simp only [splitDominated, List.filter_eq_nil_iff, Bool.not_eq_true', Bool.not_eq_false] at hnd
        exact (hz l).1 (hnd l hl)
      · rw [hMdef, enluLoop]; simp only; rw [if_pos hnd]
    · right
      have e1 := (zip_filter_map (fun r => M.any fun l => gt l r) (splitDominated row first rest layer).2).1
      have e2 := (zip_filter_map (fun r => M.any fun l => gt l r) (splitDominated row first rest layer).2).2
      have e1' : (splitDominated row first rest layer).2.filter (fun r => M.any fun l => gt l r) = pushed gt M layer := by
        simp only [splitDominated, List.filter_filter, pushed]
        apply List.filter_congr
        intro l _
        cases hd : (M.any fun m => gt m l)
        · simp
        · simp only [List.any_eq_true] at hd
          obtain ⟨m, hm, hml⟩ := hd
          simp [(hz l).2 (hg.zenith hm hml)]
      have he : enluLoop gt row M depth (layer :: below) rank =
          (((splitDominated row first rest layer).1 ++ M ++ (splitDominated row first rest layer).2.filter fun x => !(M.any fun l => gt l x)) ::
            (enluLoop gt row (pushed gt M layer) (depth + 1) below (setRanks rank
              ((splitDominated row first rest layer).1 ++ M ++ (splitDominated row first rest layer).2.filter fun x => !(M.any fun l => gt l x)) (depth + 1))).1,
            (enluLoop gt row (pushed gt M layer) (depth + 1) below (setRanks rank
              ((splitDominated row first rest layer).1 ++ M ++ (splitDominated row first rest layer).2.filter fun x => !(M.any fun l => gt l x)) (depth + 1))).2) := by
        rw [← e1', ← e1, ← e2, hMdef, enluLoop]
        simp only
        rw [if_neg hnd]
        rfl
      refine ⟨_, ?_, ?_, ?_, he⟩
      · intro y
        simp only [splitDominated, List.mem_append, List.mem_filter, Bool.not_eq_true', List.any_eq_false]
        constructor
        · rintro ((⟨h1, h2⟩ | h) | ⟨⟨h1, _⟩, h3⟩)
          · right
            refine ⟨h1, fun m hm => ?_⟩
            cases hgy : gt m y
            · rfl
            · rw [(hz y).2 (hg.zenith hm hgy)] at h2; exact absurd h2 (by simp)
          · exact Or.inl h
          · exact Or.inr ⟨h1, fun m hm => by simpa using h3 m hm⟩
        · rintro (h | ⟨h1, h2⟩)
          · exact Or.inl (Or.inr h)
          · cases hd : zenithDominates (zenith row first rest) (row y)
            · exact Or.inl (Or.inl ⟨h1, rfl⟩)
            · exact Or.inr ⟨⟨h1, rfl⟩, fun m hm => by simp [h2 m hm]⟩
      · rw [← e1']
        set nd := (splitDominated row first rest layer).1 with hnd'
        set dm := (splitDominated row first rest layer).2 with hdm'
        have p1 : (dm.filter (fun r => M.any fun l => gt l r) ++ dm.filter fun r => !(M.any fun l => gt l r)).Perm dm :=
          List.filter_append_perm _ _
        have p2 : (dm ++ nd).Perm layer := by
          simp only [hnd', hdm', splitDominated]
          exact List.filter_append_perm _ _
        calc (nd ++ M ++ dm.filter (fun x => !(M.any fun l => gt l x)) ++ dm.filter (fun r => M.any fun l => gt l r)).Perm
              (nd ++ M ++ dm) := by
                rw [List.append_assoc]
                exact List.Perm.append_left _ (List.perm_append_comm.trans p1)
          _ |>.Perm (M ++ layer) := by
                rw [List.append_assoc]
                refine List.perm_append_comm.trans ?_
                rw [List.append_assoc]
                exact List.Perm.append_left _ p2
      · by_contra hno
        push Not at hno
        apply hnd
        simp only [splitDominated, List.filter_eq_nil_iff, Bool.not_eq_true', Bool.not_eq_false]
        exact fun l hl => (hz l).2 (hno l hl)

/-! ## Conservation, ranks, changed layers -/

theorem setRanks_apply (rank : Nat → Nat) (layer : List Nat) (r x : Nat) :
    setRanks rank layer r x = if x ∈ layer then r else rank x := by
  unfold setRanks
  induction layer generalizing rank with
  | nil => simp
  | cons a layer ih =>
    simp only [List.foldl_cons]
    rw [ih]
    by_cases hx : x ∈ layer
    · simp [hx]
    · by_cases hxa : x = a
      · subst hxa; simp [setAttr]
      · simp [hx, hxa, setAttr]

/-- Everybody's rank is the number of the layer, the first of these layers having number `depth + 1`. -/
def RankedFrom (rank : Nat → Nat) : Nat → List (List Nat) → Prop
  | _, [] => True
  | depth, l :: ls => (∀ x ∈ l, rank x = depth + 1) ∧ RankedFrom rank (depth + 1) ls

theorem RankedFrom.congr {rank rank' : Nat → Nat} {depth : Nat} {ls : List (List Nat)} (h : RankedFrom rank depth ls)
    (he : ∀ x ∈ ls.flatten, rank' x = rank x) : RankedFrom rank' depth ls := by
  induction ls generalizing depth with
  | nil => trivial
  | cons l ls ih =>
    refine ⟨fun x hx => ?_, ih h.2 (fun x hx => he x (by simp only [List.flatten_cons, List.mem_append]; exact Or.inr hx))⟩
    rw [he x (by simp only [List.flatten_cons, List.mem_append]; exact Or.inl hx), h.1 x hx]

theorem setLayerRanks_other (rank : Nat → Nat) (ls : List (List Nat)) (depth x : Nat) (hx : x ∉ ls.flatten) :
    setLayerRanks rank ls depth x = rank x := by
  induction ls generalizing rank depth with
  | nil => rfl
  | cons l ls ih =>
    simp only [List.flatten_cons, List.mem_append, not_or] at hx
    rw [setLayerRanks, ih _ _ hx.2, setRanks_apply, if_neg hx.1]

theorem setLayerRanks_ranked (rank : Nat → Nat) (ls : List (List Nat)) (depth : Nat) (hn : ls.flatten.Nodup) :
    RankedFrom (setLayerRanks rank ls depth) depth ls := by
  induction ls generalizing rank depth with
  | nil => trivial
  | cons l ls ih =>
    rw [List.flatten_cons, List.nodup_append] at hn
    refine ⟨fun x hx => ?_, ih _ _ hn.2.1⟩
    rw [setLayerRanks, setLayerRanks_other _ _ _ _ (fun h => hn.2.2 x hx x h rfl), setRanks_apply, if_pos hx]

theorem pushed_sublist (gt : Nat → Nat → Bool) (M layer : List Nat) : (pushed gt M layer).Sublist layer := List.filter_sublist

theorem enluLoop_conserves {gt : Nat → Nat → Bool} {row : Nat → List ℚ} {k : Nat} (hk : ∀ x, (row x).length = k)
    (hg : RowDominance gt row k) (layers : List (List Nat)) :
    ∀ (M : List Nat) (depth : Nat) (rank : Nat → Nat), (∀ l ∈ layers, l ≠ []) → (M ++ layers.flatten).Nodup →
    RankedFrom rank depth layers →
    let r := enluLoop gt row M depth layers rank
    r.1.flatten.Perm (M ++ layers.flatten) ∧ (∀ l ∈ r.1, l ≠ []) ∧ RankedFrom r.2.2 depth r.1 ∧
    (∀ x, x ∉ M ++ layers.flatten → r.2.2 x = rank x) ∧
    ∃ changed same, r.1 = changed ++ same ∧ depth + changed.length = r.2.1 ∧ ∀ l ∈ same, l ∈ layers := by
  induction layers with
  | nil =>
    intro M depth rank _ hn hr
    cases M with
    | nil => exact ⟨by simp [enluLoop], by simp [enluLoop], by simp [enluLoop, RankedFrom], by simp [enluLoop], [], [], rfl, rfl, by simp⟩
    | cons f t =>
      refine ⟨by simp [enluLoop], by simp [enluLoop], ?_, ?_, [f :: t], [], rfl, rfl, by simp⟩
      · rw [enluLoop]
        exact ⟨fun x hx => by simp only; rw [setRanks_apply, if_pos hx], trivial⟩
      · intro x hx
        rw [enluLoop]; simp only; rw [setRanks_apply, if_neg (by simpa using hx)]
  | cons layer below ih =>
    intro M depth rank hne hn hr
    by_cases hM : M = []
    · subst hM
      rw [enluLoop]
      exact ⟨by simp, hne, hr, by simp, [], layer :: below, rfl, rfl, fun l hl => hl⟩
    · have hn' := hn
      rw [List.flatten_cons, ← List.append_assoc] at hn
      rcases enluLoop_step hk hg M hM depth layer below rank with ⟨_, he⟩ | ⟨newLayer, hmem, hperm, _, he⟩
      · rw [he]
        refine ⟨by simp, ?_, ?_, ?_, [M], layer :: below, rfl, rfl, fun l hl => hl⟩
        · intro l hl
          rcases List.mem_cons.1 hl with rfl | hl
          · exact hM
          · exact hne l hl
        · exact setLayerRanks_ranked _ _ _ (by simpa using hn')
        · intro x hx
          exact setLayerRanks_other _ _ _ _ (by simpa using hx)
      · rw [he]
        have hn2 : (newLayer ++ (pushed gt M layer ++ below.flatten)).Nodup := by
          rw [← List.append_assoc]
          exact (List.Perm.append_right _ hperm).nodup_iff.2 hn
        have hn3 := List.nodup_append.1 hn2
        obtain ⟨i1, i2, i3, i4, ch, sm, i5, i6, i7⟩ := ih (pushed gt M layer) (depth + 1) (setRanks rank newLayer (depth + 1))
          (fun l hl => hne l (List.mem_cons_of_mem _ hl)) hn3.2.1 (hr.2.congr (fun x hx => by
            rw [setRanks_apply, if_neg]
            intro hx'
            exact hn3.2.2 x hx' x (List.mem_append_right _ hx) rfl))
        have hperm' : (newLayer ++ (pushed gt M layer ++ below.flatten)).Perm (M ++ (layer :: below).flatten) := by
          rw [List.flatten_cons, ← List.append_assoc, ← List.append_assoc]
          exact List.Perm.append_right _ hperm
        refine ⟨?_, ?_, ⟨?_, i3⟩, ?_, newLayer :: ch, sm, ?_, ?_, ?_⟩
        · rw [List.flatten_cons]
          exact (List.Perm.append_left _ i1).trans hperm'
        · intro l hl
          rcases List.mem_cons.1 hl with rfl | hl
          · obtain ⟨m, hm⟩ := List.exists_mem_of_ne_nil M hM
            exact List.ne_nil_of_mem ((hmem m).2 (Or.inl hm))
          · exact i2 l hl
        · intro x hx
          rw [i4 x (fun h => hn3.2.2 x hx x h rfl), setRanks_apply, if_pos hx]
        · intro x hx
          have hx' : x ∉ newLayer ++ (pushed gt M layer ++ below.flatten) := fun h => hx (hperm'.mem_iff.1 h)
          rw [List.mem_append, not_or] at hx'
          rw [i4 x hx'.2, setRanks_apply, if_neg hx'.1]
        · simp only [List.cons_append]; rw [i5]
        · simp only [List.length_cons]; omega
        · intro l hl; exact List.mem_cons_of_mem _ (i7 l hl)

/-! ## Fronts -/

theorem fronts_nil (dom : Nat → Nat → Bool) : Fronts dom [] := ⟨by simp, by simp, by simp⟩

theorem fronts_cons {dom : Nat → Nat → Bool} {l : List Nat} {ls : List (List Nat)} :
    Fronts dom (l :: ls) ↔ l ≠ [] ∧ (∀ x ∈ l, ∀ y ∈ l, dom x y = false) ∧
      (∀ l', ls.head? = some l' → ∀ x ∈ l', ∃ y ∈ l, dom y x = true) ∧ Fronts dom ls := by
  constructor
  · rintro ⟨h1, h2, h3⟩
    refine ⟨h1 l (List.mem_cons_self ..), h2 l (List.mem_cons_self ..), ?_, ⟨fun l' hl => h1 l' (List.mem_cons_of_mem _ hl),
      fun l' hl => h2 l' (List.mem_cons_of_mem _ hl), fun i a b ha hb => h3 (i + 1) a b (by simpa using ha) (by simpa using hb)⟩⟩
    intro l' hl'
    exact h3 0 l l' rfl (by simpa [List.head?_eq_getElem?] using hl')
  · rintro ⟨h1, h2, h3, h4⟩
    refine ⟨?_, ?_, ?_⟩
    · intro l' hl'
      rcases List.mem_cons.1 hl' with rfl | hl'
      · exact h1
      · exact h4.nonempty l' hl'
    · intro l' hl'
      rcases List.mem_cons.1 hl' with rfl | hl'
      · exact h2
      · exact h4.within l' hl'
    · intro i a b ha hb
      cases i with
      | zero =>
        simp only [List.getElem?_cons_zero, Option.some.injEq] at ha
        subst ha
        exact h3 b (by simpa [List.head?_eq_getElem?] using hb)
      | succ i => exact h4.below i a b (by simpa using ha) (by simpa using hb)

theorem fronts_up {dom : Nat → Nat → Bool} (hd : StrictPartial dom) {layers : List (List Nat)} (hf : Fronts dom layers)
    {i j : Nat} (hij : i < j) {l l' : List Nat} (hi : layers[i]? = some l) (hj : layers[j]? = some l') :
    ∀ x ∈ l', ∃ z ∈ l, dom z x = true := by
  induction hij generalizing l' with
  | refl => exact hf.below i l l' hi hj
  | @step j hij ih =>
    intro x hx
    have hj1 := (List.getElem?_eq_some_iff.1 hj).1
    have hj' : layers[j]? = some (layers[j]'(by omega)) := List.getElem?_eq_getElem _
    obtain ⟨y, hy, hyx⟩ := hf.below j _ l' hj' hj x hx
    obtain ⟨z, hz, hzy⟩ := ih hj' y hy
    exact ⟨z, hz, hd.trans _ _ _ hzy hyx⟩

theorem fronts_order {dom : Nat → Nat → Bool} (hd : StrictPartial dom) {layers : List (List Nat)} (hf : Fronts dom layers)
    {i j : Nat} {l l' : List Nat} (hi : layers[i]? = some l) (hj : layers[j]? = some l') {x y : Nat} (hx : x ∈ l) (hy : y ∈ l')
    (hyx : dom y x = true) : j < i := by
  by_contra hle
  rcases Nat.lt_or_eq_of_le (Nat.le_of_not_lt hle) with hlt | rfl
  · obtain ⟨z, hz, hzy⟩ := fronts_up hd hf hlt hi hj y hy
    have := hf.within l (List.mem_of_getElem? hi) z hz x hx
    rw [hd.trans _ _ _ hzy hyx] at this
    exact Bool.noConfusion this
  · rw [hi] at hj
    simp only [Option.some.injEq] at hj
    subst hj
    have := hf.within l (List.mem_of_getElem? hi) y hy x hx
    rw [hyx] at this
    exact Bool.noConfusion this

theorem fronts_same {dom : Nat → Nat → Bool} (hd : StrictPartial dom) {layers : List (List Nat)} (hf : Fronts dom layers)
    {i j : Nat} {l l' : List Nat} (hi : layers[i]? = some l) (hj : layers[j]? = some l') {x : Nat} (hx : x ∈ l) (hx' : x ∈ l') :
    i = j := by
  have key : ∀ (i j : Nat) (l l' : List Nat), layers[i]? = some l → layers[j]? = some l' → x ∈ l → x ∈ l' → ¬ i < j := by
    intro i j l l' hi hj hx hx' hlt
    obtain ⟨z, hz, hzx⟩ := fronts_up hd hf hlt hi hj x hx'
    have := hf.within l (List.mem_of_getElem? hi) z hz x hx
    rw [hzx] at this
    exact Bool.noConfusion this
  have := key i j l l' hi hj hx hx'
  have := key j i l' l hj hi hx' hx
  omega

theorem mem_flatten_getElem {layers : List (List Nat)} {x : Nat} (hx : x ∈ layers.flatten) :
    ∃ (i : Nat) (l : List Nat), layers[i]? = some l ∧ x ∈ l := by
  obtain ⟨l, hl, hxl⟩ := List.mem_flatten.1 hx
  obtain ⟨i, hi⟩ := List.mem_iff_getElem?.1 hl
  exact ⟨i, l, hi, hxl⟩

/-- In successive fronts, the number of the layer is the rank. -/
theorem fronts_hasRank {dom : Nat → Nat → Bool} (hd : StrictPartial dom) {layers : List (List Nat)} (hf : Fronts dom layers)
    (ρ : Nat → Nat) (hρ : ∀ (i : Nat) (l : List Nat), layers[i]? = some l → ∀ x ∈ l, ρ x = i + 1) {x : Nat} (hx : x ∈ layers.flatten) :
    HasRank dom layers.flatten x (ρ x) := by
  refine hasRank_of_numbering ρ ?_ ?_ ?_ hx
  · intro x hx
    obtain ⟨i, l, hi, hxl⟩ := mem_flatten_getElem hx
    rw [hρ i l hi x hxl]; omega
  · intro x hx y hy hyx
    obtain ⟨i, l, hi, hxl⟩ := mem_flatten_getElem hx
    obtain ⟨j, l', hj, hyl⟩ := mem_flatten_getElem hy
    rw [hρ i l hi x hxl, hρ j l' hj y hyl]
    have := fronts_order hd hf hi hj hxl hyl hyx
    omega
  · intro x hx h1
    obtain ⟨i, l, hi, hxl⟩ := mem_flatten_getElem hx
    rw [hρ i l hi x hxl] at h1
    have hlt := (List.getElem?_eq_some_iff.1 hi).1
    have hi' : layers[i - 1]? = some (layers[i - 1]'(by omega)) := List.getElem?_eq_getElem _
    obtain ⟨y, hy, hyx⟩ := fronts_up hd hf (by omega : i - 1 < i) hi' hi x hxl
    refine ⟨y, List.mem_flatten.2 ⟨_, List.mem_of_getElem? hi', hy⟩, hyx, ?_⟩
    rw [hρ i l hi x hxl, hρ _ _ hi' y hy]; omega

theorem RankedFrom.getElem {rank : Nat → Nat} {depth : Nat} {ls : List (List Nat)} (h : RankedFrom rank depth ls) :
    ∀ (i : Nat) (l : List Nat), ls[i]? = some l → ∀ x ∈ l, rank x = depth + i + 1 := by
  induction ls generalizing depth with
  | nil => intro i l hi; simp at hi
  | cons a ls ih =>
    intro i l hi x hx
    cases i with
    | zero => simp only [List.getElem?_cons_zero, Option.some.injEq] at hi; subst hi; rw [h.1 x hx]
    | succ i => rw [ih h.2 i l (by simpa using hi) x hx]; omega

theorem rankedFrom_of_getElem {rank : Nat → Nat} {depth : Nat} {ls : List (List Nat)}
    (h : ∀ (i : Nat) (l : List Nat), ls[i]? = some l → ∀ x ∈ l, rank x = depth + i + 1) : RankedFrom rank depth ls := by
  induction ls generalizing depth with
  | nil => trivial
  | cons a ls ih =>
    refine ⟨fun x hx => h 0 a rfl x hx, ih fun i l hi x hx => ?_⟩
    rw [h (i + 1) l (by simpa using hi) x hx]; omega

/-! ## The loop produces fronts where the zenith test is exact -/

/-- The zenith test is exact between the moving points and a layer. -/
def ZenithExact (gt : Nat → Nat → Bool) (row : Nat → List ℚ) (k : Nat) (M layer : List Nat) : Prop :=
  ∀ l ∈ layer, ZenithAbove row k M l → ∃ m ∈ M, gt m l = true

theorem enluLoop_fronts {gt : Nat → Nat → Bool} {row : Nat → List ℚ} {k : Nat} (hk : ∀ x, (row x).length = k)
    (hg : RowDominance gt row k)
    (hexact : ∀ M L L' : List Nat, ZenithExact gt row k M L → (∀ x ∈ L, ∀ y ∈ L, gt x y = false) →
      (∀ x ∈ L', ∃ y ∈ L, gt y x = true) → ZenithExact gt row k (pushed gt M L) L')
    (layers : List (List Nat)) :
    ∀ (M : List Nat) (depth : Nat) (rank : Nat → Nat) (Q : Nat → Prop), Fronts gt layers →
    (∀ x ∈ M, ∀ y ∈ M, gt x y = false) →
    (∀ l, layers.head? = some l → (∀ x ∈ l, ∀ m ∈ M, gt x m = false) ∧ ZenithExact gt row k M l ∧
      ∀ x ∈ l, Q x ∨ ∃ m ∈ M, gt m x = true) →
    (∀ m ∈ M, Q m) →
    Fronts gt (enluLoop gt row M depth layers rank).1 ∧
    ∀ l, (enluLoop gt row M depth layers rank).1.head? = some l → ∀ x ∈ l, Q x := by
  have hd := hg.strictPartial
  induction layers with
  | nil =>
    intro M depth rank Q _ hM _ hQ
    cases M with
    | nil => rw [enluLoop]; exact ⟨fronts_nil _, by simp⟩
    | cons f t =>
      rw [enluLoop]
      refine ⟨fronts_cons.2 ⟨by simp, hM, by simp, fronts_nil _⟩, ?_⟩
      intro l hl
      simp only [List.head?_cons, Option.some.injEq] at hl
      subst hl; exact hQ
  | cons layer below ih =>
    intro M depth rank Q hf hM hlayer hQ
    obtain ⟨hl1, hl2, hl3⟩ := hlayer layer rfl
    obtain ⟨f1, f2, f3, f4⟩ := fronts_cons.1 hf
    by_cases hMn : M = []
    · subst hMn
      rw [enluLoop]
      refine ⟨hf, ?_⟩
      intro l hl
      simp only [List.head?_cons, Option.some.injEq] at hl
      subst hl
      intro x hx
      rcases hl3 x hx with h | ⟨m, hm, _⟩
      · exact h
      · simp at hm
    · rcases enluLoop_step hk hg M hMn depth layer below rank with ⟨hall, he⟩ | ⟨newLayer, hmem, _, _, he⟩
      · rw [he]
        refine ⟨fronts_cons.2 ⟨hMn, hM, ?_, hf⟩, ?_⟩
        · intro l hl
          simp only [List.head?_cons, Option.some.injEq] at hl
          subst hl
          exact fun x hx => hl2 x hx (hall x hx)
        · intro l hl
          simp only [List.head?_cons, Option.some.injEq] at hl
          subst hl; exact hQ
      · rw [he]
        have hpm : ∀ y, y ∈ pushed gt M layer ↔ y ∈ layer ∧ ∃ m ∈ M, gt m y = true := by
          intro y; simp [pushed]
        obtain ⟨i1, i2⟩ := ih (pushed gt M layer) (depth + 1) (setRanks rank newLayer (depth + 1))
          (fun y => ∃ n ∈ newLayer, gt n y = true) f4
          (fun x hx y hy => f2 x ((hpm x).1 hx).1 y ((hpm y).1 hy).1)
          (fun l hl => by
            have hbl := f3 l hl
            refine ⟨?_, hexact M layer l hl2 f2 hbl, ?_⟩
            · intro x hx m hm
              obtain ⟨e, he, hex⟩ := hbl x hx
              cases hxm : gt x m
              · rfl
              · have := f2 e he m ((hpm m).1 hm).1
                rw [hd.trans _ _ _ hex hxm] at this
                exact Bool.noConfusion this
            · intro x hx
              obtain ⟨e, he, hex⟩ := hbl x hx
              by_cases hep : ∃ m ∈ M, gt m e = true
              · exact Or.inr ⟨e, (hpm e).2 ⟨he, hep⟩, hex⟩
              · refine Or.inl ⟨e, (hmem e).2 (Or.inr ⟨he, fun m hm => ?_⟩), hex⟩
                cases hme : gt m e
                · rfl
                · exact absurd ⟨m, hm, hme⟩ hep)
          (fun m hm => by
            obtain ⟨_, m', hm', hmm⟩ := (hpm m).1 hm
            exact ⟨m', (hmem m').2 (Or.inl hm'), hmm⟩)
        refine ⟨fronts_cons.2 ⟨?_, ?_, i2, i1⟩, ?_⟩
        · obtain ⟨m, hm⟩ := List.exists_mem_of_ne_nil M hMn
          exact List.ne_nil_of_mem ((hmem m).2 (Or.inl hm))
        · intro x hx y hy
          rcases (hmem x).1 hx with hx | ⟨hx, hx'⟩ <;> rcases (hmem y).1 hy with hy | ⟨hy, hy'⟩
          · exact hM x hx y hy
          · exact hy' x hx
          · exact hl1 x hx y hy
          · exact f2 x hx y hy
        · intro l hl
          simp only [List.head?_cons, Option.some.injEq] at hl
          subst hl
          intro x hx
          rcases (hmem x).1 hx with hx | ⟨hx, hx'⟩
          · exact hQ x hx
          · rcases hl3 x hx with h | ⟨m, hm, h⟩
            · exact h
            · rw [hx' m hm] at h; exact Bool.noConfusion h

/-- With at most two objectives an exact zenith test stays exact. -/
theorem zenithExact_two {gt : Nat → Nat → Bool} {row : Nat → List ℚ} {k : Nat} (hk2 : k ≤ 2) (hg : RowDominance gt row k)
    (M L L' : List Nat) (hz : ZenithExact gt row k M L) (hL : ∀ x ∈ L, ∀ y ∈ L, gt x y = false)
    (hbelow : ∀ x ∈ L', ∃ y ∈ L, gt y x = true) : ZenithExact gt row k (pushed gt M L) L' := by
  have hpm : ∀ y, y ∈ pushed gt M L ↔ y ∈ L ∧ ∃ m ∈ M, gt m y = true := by
    intro y; simp [pushed]
  have htrue : ∀ a b, gt a b = false → gt a b = true → False := fun a b h1 h2 => by rw [h1] at h2; exact Bool.noConfusion h2
  -- two coordinates describe the dominance
  have hab : ∃ a b : Nat → ℚ, (∀ x y, gt x y = true ↔ (a y ≤ a x ∧ b y ≤ b x) ∧ (a y < a x ∨ b y < b x)) ∧
      ∀ M l, M ≠ [] → (ZenithAbove row k M l ↔ ((∃ m ∈ M, a l ≤ a m) ∧ ∃ m ∈ M, b l ≤ b m) ∧ ∃ m ∈ M, a l < a m ∨ b l < b m) := by
    have hcases : k = 0 ∨ k = 1 ∨ k = 2 := by omega
    rcases hcases with rfl | rfl | rfl
    · refine ⟨fun _ => 0, fun _ => 0, ?_, ?_⟩
      · intro x y; rw [hg]; simp
      · intro M l _; unfold ZenithAbove; simp
    · refine ⟨fun x => (row x).getD 0 0, fun _ => 0, ?_, ?_⟩
      · intro x y
        rw [hg]
        simp only [Nat.lt_one_iff, forall_eq, exists_eq_left, le_refl, and_true, lt_irrefl, or_false]
      · intro M l hM
        unfold ZenithAbove
        obtain ⟨m, hm⟩ := List.exists_mem_of_ne_nil M hM
        simp only [Nat.lt_one_iff, forall_eq, exists_eq_left, le_refl, and_true, lt_irrefl, or_false]
        constructor
        · rintro ⟨h1, h2⟩; exact ⟨⟨h1, m, hm⟩, h2⟩
        · rintro ⟨⟨h1, _⟩, h2⟩; exact ⟨h1, h2⟩
    · refine ⟨fun x => (row x).getD 0 0, fun x => (row x).getD 1 0, ?_, ?_⟩
      · intro x y
        rw [hg]
        constructor
        · rintro ⟨h1, j, hj, h2⟩
          refine ⟨⟨h1 0 (by omega), h1 1 (by omega)⟩, ?_⟩
          have : j = 0 ∨ j = 1 := by omega
          rcases this with rfl | rfl
          · exact Or.inl h2
          · exact Or.inr h2
        · rintro ⟨⟨h1, h2⟩, h3⟩
          refine ⟨fun j hj => ?_, ?_⟩
          · have : j = 0 ∨ j = 1 := by omega
            rcases this with rfl | rfl
            · exact h1
            · exact h2
          · rcases h3 with h3 | h3
            · exact ⟨0, by omega, h3⟩
            · exact ⟨1, by omega, h3⟩
      · intro M l _
        unfold ZenithAbove
        constructor
        · rintro ⟨h1, j, hj, m, hm, h2⟩
          refine ⟨⟨h1 0 (by omega), h1 1 (by omega)⟩, m, hm, ?_⟩
          have : j = 0 ∨ j = 1 := by omega
          rcases this with rfl | rfl
          · exact Or.inl h2
          · exact Or.inr h2
        · rintro ⟨⟨h1, h2⟩, m, hm, h3⟩
          refine ⟨fun j hj => ?_, ?_⟩
          · have : j = 0 ∨ j = 1 := by omega
            rcases this with rfl | rfl
            · exact h1
            · exact h2
          · rcases h3 with h3 | h3
            · exact ⟨0, by omega, m, hm, h3⟩
            · exact ⟨1, by omega, m, hm, h3⟩
  obtain ⟨a, b, hgt, hzen⟩ := hab
  intro l hl hza
  by_cases hP : pushed gt M L = []
  · rw [hP] at hza
    obtain ⟨_, i, _, m, hm, _⟩ := hza
    simp at hm
  obtain ⟨⟨⟨m2, hm2, ha2⟩, m1, hm1, hb1⟩, _⟩ := (hzen _ l hP).1 hza
  obtain ⟨hm2L, p2, hp2, hp2m⟩ := (hpm m2).1 hm2
  obtain ⟨hm1L, p1, hp1, hp1m⟩ := (hpm m1).1 hm1
  obtain ⟨e, he, hel⟩ := hbelow l hl
  have hel' := (hgt e l).1 hel
  by_cases hep : e ∈ pushed gt M L
  · exact ⟨e, hep, hel⟩
  have hnot : ∀ m ∈ M, gt m e = false := by
    intro m hm
    cases hme : gt m e
    · rfl
    · exact absurd ((hpm e).2 ⟨he, m, hm, hme⟩) hep
  rcases lt_or_ge (a m2) (a e) with h | h
  · -- to the right of m2
    have : b e < b m2 := by
      by_contra hb
      exact htrue e m2 (hL e he m2 hm2L) ((hgt e m2).2 ⟨⟨le_of_lt h, not_lt.1 hb⟩, Or.inl h⟩)
    exact ⟨m2, hm2, (hgt m2 l).2 ⟨⟨ha2, le_of_lt (lt_of_le_of_lt hel'.1.2 this)⟩, Or.inr (lt_of_le_of_lt hel'.1.2 this)⟩⟩
  rcases lt_or_ge (b m1) (b e) with h' | h'
  · have : a e < a m1 := by
      by_contra hb
      exact htrue e m1 (hL e he m1 hm1L) ((hgt e m1).2 ⟨⟨not_lt.1 hb, le_of_lt h'⟩, Or.inr h'⟩)
    exact ⟨m1, hm1, (hgt m1 l).2 ⟨⟨le_of_lt (lt_of_le_of_lt hel'.1.1 this), hb1⟩, Or.inl (lt_of_le_of_lt hel'.1.1 this)⟩⟩
  · exfalso
    have hp2' := (hgt p2 m2).1 hp2m
    have hp1' := (hgt p1 m1).1 hp1m
    have hnz : ¬ ZenithAbove row k M e := by
      intro hz'
      obtain ⟨m, hm, hme⟩ := hz e he hz'
      exact htrue m e (hnot m hm) hme
    rw [hzen M e (List.ne_nil_of_mem hp2)] at hnz
    have hle : ∀ m ∈ M, a m ≤ a e ∧ b m ≤ b e := by
      intro m hm
      by_contra hc
      apply hnz
      refine ⟨⟨⟨p2, hp2, le_trans h hp2'.1.1⟩, p1, hp1, le_trans h' hp1'.1.2⟩, m, hm, ?_⟩
      by_contra hc'
      rw [not_or, not_lt, not_lt] at hc'
      exact hc hc'
    obtain ⟨q1, q2⟩ := hle p2 hp2
    refine htrue e m2 (hL e he m2 hm2L) ((hgt e m2).2 ⟨⟨le_trans hp2'.1.1 q1, le_trans hp2'.1.2 q2⟩, ?_⟩)
    rcases hp2'.2 with h3 | h3
    · exact Or.inl (lt_of_lt_of_le h3 q1)
    · exact Or.inr (lt_of_lt_of_le h3 q2)

end Leap
