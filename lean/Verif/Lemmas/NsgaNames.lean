import Verif.Props.Crowding

/-!
# NSGA-II survival does not depend on who the individuals are

Used in proofs only. The individuals `f x` stand for the individuals `x`: if they have the same objective values, the same positions survive.
-/

namespace Leap

section
variable {α β : Type}

/-- On those in `D`, an attribute has the same value under both names. -/
def Agree (f : Nat → Nat) (D : Nat → Prop) (A A' : Nat → β) : Prop := ∀ x, D x → A' (f x) = A x

theorem agree_setAttr {f : Nat → Nat} {D S : Nat → Prop} (hinj : ∀ x y, S x → S y → f x = f y → x = y) (hD : ∀ x, D x → S x) {A A' : Nat → β} (h : Agree f D A A') {k : Nat}
    (hk : S k) (v : β) : Agree f (fun x => D x ∨ x = k) (setAttr A k v) (setAttr A' (f k) v) := by
  rintro x (hx | rfl)
  · unfold setAttr
    by_cases e : x = k
    · simp [e]
    · have : f x ≠ f k := fun e' => e (hinj x k (hD x hx) hk e')
      simp [e, this, h x hx]
  · simp [setAttr]

theorem agree_mono {f : Nat → Nat} {D E : Nat → Prop} {A A' : Nat → β} (h : Agree f D A A') (hE : ∀ x, E x → D x) : Agree f E A A' := fun x hx => h x (hE x hx)

theorem agree_foldl {f : Nat → Nat} {S : Nat → Prop} (hinj : ∀ x y, S x → S y → f x = f y → x = y) (w : α → β) (L : List (Nat × α)) : ∀ {D : Nat → Prop}
    (_ : ∀ x, D x → S x) {A A' : Nat → β} (_ : Agree f D A A') (_ : ∀ p ∈ L, S p.1), Agree f (fun x => D x ∨ ∃ p ∈ L, x = p.1)
      (L.foldl (fun A p => setAttr A p.1 (w p.2)) A) ((L.map fun p => (f p.1, p.2)).foldl (fun A p => setAttr A p.1 (w p.2)) A') := by
  induction L with
  | nil => intro D _ A A' h _; exact agree_mono h (by simp)
  | cons p L ih =>
    intro D hD A A' h hL
    have hp : S p.1 := hL p (by simp)
    refine agree_mono (ih (D := fun x => D x ∨ x = p.1) ?_ (agree_setAttr hinj hD h hp (w p.2)) fun q hq => hL q (by simp [hq])) ?_
    · rintro x (hx | rfl)
      · exact hD x hx
      · exact hp
    · rintro x (hx | ⟨q, hq, rfl⟩)
      · exact .inl (.inl hx)
      · rcases List.mem_cons.1 hq with rfl | hq
        · exact .inl (.inr rfl)
        · exact .inr ⟨q, hq, rfl⟩

/-! ### Ranks -/

theorem pyMapM_names {f : Nat → Nat} {g g' : Nat → PyM β} (l : List Nat) (h : ∀ x ∈ l, g' (f x) = g x) : pyMapM g' (l.map f) = pyMapM g l := by
  induction l with
  | nil => rfl
  | cons x l ih => simp only [List.map_cons, pyMapM, h x (by simp), ih fun y hy => h y (by simp [hy])]

theorem pyMapM_length {g : Nat → PyM β} : ∀ {l : List Nat} {r : List β}, pyMapM g l = .ok r → r.length = l.length := by
  intro l
  induction l with
  | nil => rintro r ⟨⟩; rfl
  | cons x l ih =>
    intro r h
    unfold pyMapM at h
    cases h1 : g x with
    | error e => rw [h1] at h; cases h
    | ok y =>
      cases h2 : pyMapM g l with
      | error e => rw [h1, h2] at h; cases h
      | ok ys =>
        rw [h1, h2] at h
        cases h
        simp [ih h2]

/-- What two sorts under different names have in common. -/
def SameRanks (f : Nat → Nat) (S : List Nat) (r r' : PyM (List Nat × (Nat → β))) : Prop :=
  match r, r' with
  | .ok (l, A), .ok (l', A') => (∀ x ∈ l, x ∈ S) ∧ l' = l.map f ∧ Agree f (· ∈ S) A A'
  | .error e, .error e' => e = e'
  | _, _ => False

theorem rankOrdinalSort_names {f : Nat → Nat} {off par : List Nat} (hinj : ∀ x y, x ∈ off ++ par → y ∈ off ++ par → f x = f y → x = y) (mx : List Bool)
    {fit fit' : Nat → List ℚ} (hfit : Agree f (· ∈ off ++ par) fit fit') (rank rank' : Nat → Nat) :
    SameRanks f (off ++ par) (rankOrdinalSort (fun _ => mx) fit off (some par) rank) (rankOrdinalSort (fun _ => mx) fit' (off.map f) (some (par.map f)) rank') := by
  unfold rankOrdinalSort
  simp only [withParents, ← List.map_append]
  rw [pyMapM_names (g := fun x => orientedRow mx (fit x)) (off ++ par) fun x hx => by rw [hfit x hx]]
  cases hr : pyMapM (fun x => orientedRow mx (fit x)) (off ++ par) with
  | error e => rfl
  | ok rows =>
    have hlen := pyMapM_length hr
    simp only [bind, Except.bind]
    cases rows with
    | nil => rfl
    | cons first rest =>
      simp only
      split
      · split
        · rfl
        · refine ⟨fun _ hx => hx, rfl, ?_⟩
          generalize hinv : (first :: rest).map (fun r => (npUniqueRows (first :: rest)).idxOf r) = inv
          have hl : inv.length = (off ++ par).length := by rw [← hinv, List.length_map, hlen]
          have := agree_foldl hinj (fun i => ordinalRanks (npUniqueRows (first :: rest)) first.length i) ((off ++ par).zip inv) (D := fun _ => False) (by simp)
            (A := rank) (A' := rank') (fun _ h => h.elim) (fun p hp => (List.of_mem_zip hp).1)
          have hz : ((off ++ par).zip inv).map (fun p => (f p.1, p.2)) = ((off ++ par).map f).zip inv := by
            rw [List.zip_map_left]; rfl
          rw [hz] at this
          refine agree_mono this fun x hx => .inr ?_
          obtain ⟨i, hi, rfl⟩ := List.getElem_of_mem hx
          exact ⟨((off ++ par)[i], inv[i]), by
            rw [← List.getElem_zip (h := by simp [hl] at hi ⊢; omega)]
            exact List.getElem_mem _, rfl⟩
      · rfl

/-! ### Distances -/

theorem sortedAsc_names {f : Nat → Nat} {lt lt' : Nat → Nat → Bool} (l : List Nat) (h : ∀ a ∈ l, ∀ b ∈ l, lt' (f a) (f b) = lt a b) : sortedAsc lt' (l.map f) = (sortedAsc lt l).map f := by
  unfold sortedAsc
  exact (List.map_insertionSort (r := fun a b => lt b a = false) (s := fun a b => lt' b a = false) f l (fun a ha b hb => by rw [h b hb a ha])).symm

theorem topk_names {f : Nat → Nat} {lt lt' : Nat → Nat → Bool} (k : Nat) (l : List Nat) (h : ∀ a ∈ l, ∀ b ∈ l, lt' (f a) (f b) = lt a b) : topk lt' k (l.map f) = (topk lt k l).map f := by
  unfold topk sortedDesc
  rw [← List.map_insertionSort (r := fun a b => lt a b = false) (s := fun a b => lt' a b = false) f l (fun a ha b hb => by rw [h a ha b hb]), List.map_take]

theorem mem_sortedAsc {lt : Nat → Nat → Bool} {l : List Nat} {x : Nat} : x ∈ sortedAsc lt l ↔ x ∈ l := by
  unfold sortedAsc
  exact (List.perm_insertionSort _ l).mem_iff

theorem foldl_names {f : Nat → Nat} {F F' : Nat → ℚ} (op : ℚ → ℚ → ℚ) (l : List Nat) (h : ∀ x ∈ l, F' (f x) = F x) : ∀ a, (l.map f).foldl (fun m x => op m (F' x)) a = l.foldl (fun m x => op m (F x)) a := by
  induction l with
  | nil => intro a; rfl
  | cons x l ih => intro a; simp only [List.map_cons, List.foldl_cons, h x (by simp)]; exact ih (fun y hy => h y (by simp [hy])) _

theorem objectiveRange_names {f : Nat → Nat} {F F' : Nat → ℚ} (mx : Bool) (first : Nat) (rest : List Nat) (h : ∀ x ∈ first :: rest, F' (f x) = F x) :
    objectiveRange F' mx (f first) (rest.map f) = objectiveRange F mx first rest := by
  unfold objectiveRange
  rw [h first (by simp), foldl_names min rest (fun x hx => h x (by simp [hx])), foldl_names max rest (fun x hx => h x (by simp [hx]))]

theorem sortedByObjective_names {f : Nat → Nat} {F F' : Nat → ℚ} (mx : Bool) (l : List Nat) (h : ∀ x ∈ l, F' (f x) = F x) :
    sortedByObjective F' mx (l.map f) = (sortedByObjective F mx l).map f := by
  unfold sortedByObjective
  exact sortedAsc_names l fun a ha b hb => by simp only [h a ha, h b hb]

theorem getD_names (f : Nat → Nat) (l : List Nat) {i : Nat} (hi : i < l.length) : (l.map f).getD i 0 = f (l.getD i 0) := by
  simp [List.getD_eq_getElem?_getD, hi]

theorem getD_in {l : List Nat} {i : Nat} (hi : i < l.length) : l.getD i 0 ∈ l := by
  simp [List.getD_eq_getElem?_getD, hi]

theorem addGaps_names {f : Nat → Nat} {S : Nat → Prop} (hinj : ∀ x y, S x → S y → f x = f y → x = y) {F F' : Nat → ℚ} (range : ℚ) (sorted : List Nat) (hS : ∀ x ∈ sorted, S x)
    (hF : ∀ x ∈ sorted, F' (f x) = F x) {D : Nat → Prop} (hD : ∀ x, D x → S x) (hsub : ∀ x ∈ sorted, D x) {d d' : Nat → WithTop ℚ} (h : Agree f D d d') :
    Agree f D (addGaps F range sorted d) (addGaps F' range (sorted.map f) d') := by
  unfold addGaps
  rw [List.length_map]
  have key : ∀ (L : List Nat), (∀ i ∈ L, 1 ≤ i ∧ i + 1 < sorted.length) → ∀ {d d' : Nat → WithTop ℚ}, Agree f D d d' →
      Agree f D (L.foldl (fun distance i => setAttr distance (sorted.getD i 0)
          (distance (sorted.getD i 0) + (((F (sorted.getD (i + 1) 0) - F (sorted.getD (i - 1) 0)) / range : ℚ) : WithTop ℚ))) d)
        (L.foldl (fun distance i => setAttr distance ((sorted.map f).getD i 0)
          (distance ((sorted.map f).getD i 0) + (((F' ((sorted.map f).getD (i + 1) 0) - F' ((sorted.map f).getD (i - 1) 0)) / range : ℚ) : WithTop ℚ))) d') := by
    intro L
    induction L with
    | nil => exact fun _ _ _ h => h
    | cons i L ih =>
      intro hL d d' h
      obtain ⟨h1, h2⟩ := hL i (by simp)
      rw [List.foldl_cons, List.foldl_cons]
      refine ih (fun j hj => hL j (by simp [hj])) ?_
      rw [getD_names f sorted (by omega), getD_names f sorted (by omega), getD_names f sorted (by omega), hF _ (getD_in (by omega)), hF _ (getD_in (by omega)),
        h _ (hsub _ (getD_in (by omega)))]
      exact agree_mono (agree_setAttr hinj hD h (hS _ (getD_in (by omega))) _) fun x hx => .inl hx
  exact key _ (fun i hi => by rw [List.mem_range'_1] at hi; omega) h

theorem crowdObjective_names {f : Nat → Nat} {S : Nat → Prop} (hinj : ∀ x y, S x → S y → f x = f y → x = y) {F F' : Nat → ℚ} (mx : Bool) (first : Nat) (rest : List Nat)
    (hS : ∀ x ∈ first :: rest, S x) (hF : ∀ x ∈ first :: rest, F' (f x) = F x) {D : Nat → Prop} (hD : ∀ x, D x → S x) (hsub : ∀ x ∈ first :: rest, D x)
    {st st' : List Nat × (Nat → WithTop ℚ)} (h1 : st'.1 = st.1.map f) (h2 : Agree f D st.2 st'.2) (h3 : ∀ x ∈ st.1, x ∈ first :: rest) :
    (crowdObjective F' mx (f first) (rest.map f) st').1 = (crowdObjective F mx first rest st).1.map f ∧
      Agree f D (crowdObjective F mx first rest st).2 (crowdObjective F' mx (f first) (rest.map f) st').2 ∧
      ∀ x ∈ (crowdObjective F mx first rest st).1, x ∈ first :: rest := by
  unfold crowdObjective
  simp only [objectiveRange_names mx first rest hF]
  split
  · exact ⟨h1, h2, h3⟩
  · have hs : sortedByObjective F' mx (f first :: rest.map f) = (sortedByObjective F mx (first :: rest)).map f := sortedByObjective_names mx (first :: rest) hF
    have hmem : ∀ x, x ∈ sortedByObjective F mx (first :: rest) → x ∈ first :: rest := fun x hx => mem_sortedAsc.1 hx
    have hpos : 0 < (sortedByObjective F mx (first :: rest)).length := by
      have : first ∈ sortedByObjective F mx (first :: rest) := mem_sortedAsc.2 (by simp)
      exact List.length_pos_of_mem this
    refine ⟨hs, ?_, hmem⟩
    simp only [hs, List.length_map]
    rw [getD_names f _ hpos, getD_names f _ (by omega)]
    refine addGaps_names hinj _ _ (fun x hx => hS x (hmem x hx)) (fun x hx => hF x (hmem x hx)) hD (fun x hx => hsub x (hmem x hx)) ?_
    have a1 := agree_mono (agree_setAttr hinj hD h2 (hS _ (hmem _ (getD_in hpos))) (⊤ : WithTop ℚ)) (E := D) fun x hx => .inl hx
    exact agree_mono (agree_setAttr hinj hD a1 (hS _ (hmem _ (getD_in (by omega)))) (⊤ : WithTop ℚ)) fun x hx => .inl hx

theorem perRank_names {f : Nat → Nat} {S : List Nat} (hinj : ∀ x y, x ∈ S → y ∈ S → f x = f y → x = y) {fit fit' : Nat → List ℚ} (hfit : Agree f (· ∈ S) fit fit')
    (mx : List Bool) (l : List Nat) (hl : ∀ x ∈ l, x ∈ S) {D : Nat → Prop} (hD : ∀ x, D x → x ∈ S) {d d' : Nat → WithTop ℚ} (h : Agree f D d d') :
    match perRankCrowding fit mx l d, perRankCrowding fit' mx (l.map f) d' with
    | .ok (r, e), .ok (r', e') => r' = r.map f ∧ (∀ x ∈ r, x ∈ l) ∧ Agree f (fun x => D x ∨ x ∈ l) e e'
    | .error e, .error e' => e = e'
    | _, _ => False := by
  unfold perRankCrowding
  cases l with
  | nil =>
    simp only [List.map_nil]
    by_cases hm : mx = []
    · simp only [hm, if_true]
      exact ⟨rfl, by simp, agree_mono h (by simp)⟩
    · simp only [hm, if_false]
  | cons first rest =>
    simp only [List.map_cons]
    have a0 : Agree f (fun x => D x ∨ x ∈ first :: rest) ((first :: rest).foldl (fun d x => setAttr d x (0 : WithTop ℚ)) d)
        ((f first :: rest.map f).foldl (fun d x => setAttr d x (0 : WithTop ℚ)) d') := by
      have := agree_foldl (S := (· ∈ S)) hinj (fun _ : Unit => (0 : WithTop ℚ)) ((first :: rest).map fun x => (x, ())) hD h (by
        intro p hp
        obtain ⟨x, hx, rfl⟩ := List.mem_map.1 hp
        exact hl x hx)
      rw [List.map_map, List.foldl_map, List.foldl_map] at this
      rw [← List.map_cons, List.foldl_map]
      refine agree_mono this ?_
      rintro x (hx | hx)
      · exact .inl hx
      · exact .inr ⟨(x, ()), List.mem_map.2 ⟨x, hx, rfl⟩, rfl⟩
    have key : ∀ (L : List (Bool × Nat)) (st st' : List Nat × (Nat → WithTop ℚ)), st'.1 = st.1.map f → Agree f (fun x => D x ∨ x ∈ first :: rest) st.2 st'.2 →
        (∀ x ∈ st.1, x ∈ first :: rest) →
        (L.foldl (fun st mj => crowdObjective (objective fit' mj.2) mj.1 (f first) (rest.map f) st) st').1 =
            (L.foldl (fun st mj => crowdObjective (objective fit mj.2) mj.1 first rest st) st).1.map f ∧
          Agree f (fun x => D x ∨ x ∈ first :: rest) (L.foldl (fun st mj => crowdObjective (objective fit mj.2) mj.1 first rest st) st).2
            (L.foldl (fun st mj => crowdObjective (objective fit' mj.2) mj.1 (f first) (rest.map f) st) st').2 ∧
          ∀ x ∈ (L.foldl (fun st mj => crowdObjective (objective fit mj.2) mj.1 first rest st) st).1, x ∈ first :: rest := by
      intro L
      induction L with
      | nil => exact fun _ _ h1 h2 h3 => ⟨h1, h2, h3⟩
      | cons mj L ih =>
        intro st st' h1 h2 h3
        obtain ⟨k1, k2, k3⟩ := crowdObjective_names (S := (· ∈ S)) hinj (F := objective fit mj.2) (F' := objective fit' mj.2) mj.1 first rest hl
          (fun x hx => by unfold objective; rw [hfit x (hl x hx)]) (D := fun x => D x ∨ x ∈ first :: rest) (by
            rintro x (hx | hx)
            · exact hD x hx
            · exact hl x hx) (fun x hx => .inr hx) h1 h2 h3
        exact ih _ _ k1 k2 k3
    obtain ⟨k1, k2, k3⟩ := key mx.zipIdx ([], _) ([], _) rfl a0 (by simp)
    exact ⟨k1, k3, k2⟩

theorem groupKeys_names {f : Nat → Nat} {rank rank' : Nat → Nat} (l : List Nat) (h : ∀ x ∈ l, rank' (f x) = rank x) : groupKeys rank' (l.map f) = groupKeys rank l := by
  have key : ∀ acc, (l.map f).foldl (fun keys x => if rank' x ∈ keys then keys else keys ++ [rank' x]) acc = l.foldl (fun keys x => if rank x ∈ keys then keys else keys ++ [rank x]) acc := by
    induction l with
    | nil => exact fun _ => rfl
    | cons x l ih =>
      intro acc
      simp only [List.map_cons, List.foldl_cons, h x (by simp)]
      exact ih (fun y hy => h y (by simp [hy])) _
  exact key []

theorem mem_groupKeys {rank : Nat → Nat} {l : List Nat} {x : Nat} (hx : x ∈ l) : rank x ∈ groupKeys rank l := by
  unfold groupKeys
  have keep : ∀ (l : List Nat) (acc : List Nat) (k : Nat), k ∈ acc → k ∈ l.foldl (fun keys x => if rank x ∈ keys then keys else keys ++ [rank x]) acc := by
    intro l
    induction l with
    | nil => exact fun _ _ h => h
    | cons y l ih =>
      intro acc k hk
      rw [List.foldl_cons]
      refine ih _ k ?_
      split
      · exact hk
      · simp [hk]
  have key : ∀ acc, rank x ∈ l.foldl (fun keys x => if rank x ∈ keys then keys else keys ++ [rank x]) acc := by
    induction l with
    | nil => cases hx
    | cons y l ih =>
      intro acc
      rw [List.foldl_cons]
      rcases List.mem_cons.1 hx with rfl | hx
      · refine keep _ _ _ ?_
        split
        · assumption
        · simp
      · exact ih hx _
  exact key []

theorem crowdRanks_names {f : Nat → Nat} {S : List Nat} (hinj : ∀ x y, x ∈ S → y ∈ S → f x = f y → x = y) {fit fit' : Nat → List ℚ} (hfit : Agree f (· ∈ S) fit fit')
    (mx : List Bool) {rank rank' : Nat → Nat} (hrank : Agree f (· ∈ S) rank rank') (rs : List Nat) : ∀ {D : Nat → Prop} (_ : ∀ x, D x → x ∈ S)
    {acc acc' : List Nat × (Nat → WithTop ℚ)} (_ : acc'.1 = acc.1.map f) (_ : ∀ x ∈ acc.1, x ∈ S) (_ : Agree f D acc.2 acc'.2),
    match crowdRanks fit mx rank S rs acc, crowdRanks fit' mx rank' (S.map f) rs acc' with
    | .ok (r, e), .ok (r', e') => r' = r.map f ∧ (∀ x ∈ r, x ∈ S) ∧ Agree f (fun x => D x ∨ (x ∈ S ∧ rank x ∈ rs)) e e'
    | .error e, .error e' => e = e'
    | _, _ => False := by
  induction rs with
  | nil => exact fun _ acc acc' h1 h2 h3 => ⟨h1, h2, agree_mono h3 (by simp)⟩
  | cons r rs ih =>
    intro D hD acc acc' h1 h2 h3
    have hfilter : (S.map f).filter (fun x => rank' x = r) = (S.filter fun x => rank x = r).map f := by
      rw [List.filter_map]
      congr 1
      exact List.filter_congr fun x hx => by simp [hrank x hx]
    have hin : ∀ x ∈ S.filter (fun x => rank x = r), x ∈ S := fun x hx => (List.mem_filter.1 hx).1
    have hk := perRank_names hinj hfit mx (S.filter fun x => rank x = r) hin hD h3
    unfold crowdRanks
    rw [hfilter]
    rcases e1 : perRankCrowding fit mx (S.filter fun x => rank x = r) acc.2 with e | ⟨l, d⟩ <;>
      rcases e2 : perRankCrowding fit' mx ((S.filter fun x => rank x = r).map f) acc'.2 with e' | ⟨l', d'⟩ <;> rw [e1, e2] at hk
    · exact hk
    · exact hk.elim
    · exact hk.elim
    · obtain ⟨k1, k2, k3⟩ := hk
      simp only [bind, Except.bind]
      have := ih (D := fun x => D x ∨ x ∈ S.filter fun x => rank x = r) (by
          rintro x (hx | hx)
          · exact hD x hx
          · exact hin x hx) (acc := (acc.1 ++ l, d)) (acc' := (acc'.1 ++ l', d')) (by simp [h1, k1]) (by
          intro x hx
          rcases List.mem_append.1 hx with hx | hx
          · exact h2 x hx
          · exact hin x (k2 x hx)) k3
      rcases e3 : crowdRanks fit mx rank S rs (acc.1 ++ l, d) with e | ⟨a, b⟩ <;> rcases e4 : crowdRanks fit' mx rank' (S.map f) rs (acc'.1 ++ l', d') with e' | ⟨a', b'⟩ <;>
        rw [e3, e4] at this
      · exact this
      · exact this.elim
      · exact this.elim
      · refine ⟨this.1, this.2.1, agree_mono this.2.2 ?_⟩
        rintro x (hx | ⟨hx, hr⟩)
        · exact .inl (.inl hx)
        · rcases List.mem_cons.1 hr with hr | hr
          · exact .inl (.inr (List.mem_filter.2 ⟨hx, by simp [hr]⟩))
          · exact .inr ⟨hx, hr⟩

theorem crowding_names {f : Nat → Nat} {S : List Nat} (hinj : ∀ x y, x ∈ S → y ∈ S → f x = f y → x = y) {fit fit' : Nat → List ℚ} (hfit : Agree f (· ∈ S) fit fit')
    (mx : List Bool) {rank rank' : Nat → Nat} (hrank : Agree f (· ∈ S) rank rank') (d d' : Nat → WithTop ℚ) :
    SameRanks f S (crowdingDistanceCalc (fun _ => mx) (fun _ => true) fit rank S d) (crowdingDistanceCalc (fun _ => mx) (fun _ => true) fit' rank' (S.map f) d') := by
  unfold crowdingDistanceCalc
  cases S with
  | nil => rfl
  | cons x S =>
    simp only [List.map_cons, if_true]
    have := crowdRanks_names hinj hfit mx hrank (groupKeys rank (x :: S)) (D := fun _ => False) (by simp) (acc := ([], d)) (acc' := ([], d')) rfl (by simp) (fun _ h => h.elim)
    rw [← List.map_cons, groupKeys_names (x :: S) hrank]
    unfold SameRanks
    rcases e3 : crowdRanks fit mx rank (x :: S) (groupKeys rank (x :: S)) ([], d) with e | ⟨a, b⟩ <;>
      rcases e4 : crowdRanks fit' mx rank' ((x :: S).map f) (groupKeys rank (x :: S)) ([], d') with e' | ⟨a', b'⟩ <;> rw [e3, e4] at this
    · exact this
    · exact this.elim
    · exact this.elim
    · exact ⟨this.2.1, this.1, agree_mono this.2.2 fun y hy => .inr ⟨hy, mem_groupKeys hy⟩⟩

/-- **Survival by names**: the individuals `f x` have the objective values of the individuals `x`. Then the same survive, whatever the attributes before. -/
theorem nsga2Survive_names {f : Nat → Nat} {off par : List Nat} (hinj : ∀ x y, x ∈ off ++ par → y ∈ off ++ par → f x = f y → x = y) (mx : List Bool)
    {fit fit' : Nat → List ℚ} (hfit : Agree f (· ∈ off ++ par) fit fit') (rank rank' : Nat → Nat) (d d' : Nat → WithTop ℚ) :
    match nsga2Survive (fun _ => mx) (fun _ => true) fit off par rank d, nsga2Survive (fun _ => mx) (fun _ => true) fit' (off.map f) (par.map f) rank' d' with
    | .ok (kept, _), .ok (kept', _) => (∀ x ∈ kept, x ∈ off ++ par) ∧ kept' = kept.map f
    | .error e, .error e' => e = e'
    | _, _ => False := by
  unfold nsga2Survive
  have h1 := rankOrdinalSort_names hinj mx hfit rank rank'
  rcases e1 : rankOrdinalSort (fun _ => mx) fit off (some par) rank with e | ⟨l, A⟩ <;>
    rcases e2 : rankOrdinalSort (fun _ => mx) fit' (off.map f) (some (par.map f)) rank' with e' | ⟨l', A'⟩ <;> rw [e1, e2] at h1
  · exact h1
  · exact h1.elim
  · exact h1.elim
  · obtain ⟨g1, rfl, g3⟩ := h1
    simp only [bind, Except.bind]
    have h2 := crowding_names (S := l) (fun x y hx hy => hinj x y (g1 x hx) (g1 y hy)) (agree_mono hfit g1) mx (agree_mono g3 g1) d d'
    rcases e3 : crowdingDistanceCalc (fun _ => mx) (fun _ => true) fit A l d with e | ⟨k, B⟩ <;>
      rcases e4 : crowdingDistanceCalc (fun _ => mx) (fun _ => true) fit' A' (l.map f) d' with e' | ⟨k', B'⟩ <;> rw [e3, e4] at h2
    · exact h2
    · exact h2.elim
    · exact h2.elim
    · obtain ⟨f1, rfl, f3⟩ := h2
      simp only [truncationSelection, List.length_map]
      have hsub : ∀ x ∈ topk (nsgaLt A B) par.length k, x ∈ off ++ par := by
        intro x hx
        unfold topk sortedDesc at hx
        exact g1 x (f1 x ((List.perm_insertionSort _ k).mem_iff.1 (List.mem_of_mem_take hx)))
      refine ⟨hsub, topk_names _ k fun a ha b hb => ?_⟩
      unfold nsgaLt
      rw [g3 a (g1 a (f1 a ha)), g3 b (g1 b (f1 b hb)), f3 a (f1 a ha), f3 b (f1 b hb)]

/-! ### Nobody survives twice -/

theorem perRank_list {fit : Nat → List ℚ} {mx : List Bool} {l r : List Nat} {d e : Nat → WithTop ℚ} (hl : l.Nodup) (h : perRankCrowding fit mx l d = .ok (r, e)) :
    r.Nodup ∧ ∀ x ∈ r, x ∈ l := by
  unfold perRankCrowding at h
  cases l with
  | nil =>
    simp only at h
    split at h
    · cases h; simp
    · cases h
  | cons first rest =>
    simp only [Except.ok.injEq] at h
    have key : ∀ (L : List (Bool × Nat)) (st : List Nat × (Nat → WithTop ℚ)), (st.1.Nodup ∧ ∀ x ∈ st.1, x ∈ first :: rest) →
        (L.foldl (fun st mj => crowdObjective (objective fit mj.2) mj.1 first rest st) st).1.Nodup ∧
          ∀ x ∈ (L.foldl (fun st mj => crowdObjective (objective fit mj.2) mj.1 first rest st) st).1, x ∈ first :: rest := by
      intro L
      induction L with
      | nil => exact fun _ h => h
      | cons mj L ih =>
        intro st hst
        rw [List.foldl_cons]
        refine ih _ ?_
        unfold crowdObjective
        simp only
        split
        · exact hst
        · exact ⟨(List.perm_insertionSort _ _).nodup_iff.2 hl, fun x hx => mem_sortedAsc.1 hx⟩
    have := key mx.zipIdx ([], (first :: rest).foldl (fun d x => setAttr d x 0) d) (by simp)
    rw [h] at this
    exact this

theorem crowdRanks_nodup {fit : Nat → List ℚ} {mx : List Bool} {rank : Nat → Nat} {S : List Nat} (hS : S.Nodup) (rs : List Nat) : ∀ {acc res : List Nat × (Nat → WithTop ℚ)},
    rs.Nodup → acc.1.Nodup → (∀ x ∈ acc.1, rank x ∉ rs) → crowdRanks fit mx rank S rs acc = .ok res → res.1.Nodup := by
  induction rs with
  | nil => intro acc res _ h _ e; cases e; exact h
  | cons r rs ih =>
    intro acc res hrs hacc hdis h
    unfold crowdRanks at h
    rcases e1 : perRankCrowding fit mx (S.filter fun x => rank x = r) acc.2 with e | ⟨l, d⟩
    · rw [e1] at h; cases h
    rw [e1] at h
    obtain ⟨k1, k2⟩ := perRank_list (hS.filter _) e1
    rw [List.nodup_cons] at hrs
    have hr : ∀ x ∈ l, rank x = r := fun x hx => by simpa using (List.mem_filter.1 (k2 x hx)).2
    refine ih (acc := (acc.1 ++ l, d)) hrs.2 ?_ ?_ h
    · refine List.nodup_append.2 ⟨hacc, k1, ?_⟩
      rintro x hx y hy rfl
      exact hdis x hx (by simp [hr x hy])
    · intro x hx
      rcases List.mem_append.1 hx with hx | hx
      · exact fun h => hdis x hx (by simp [h])
      · rw [hr x hx]; exact hrs.1

theorem nsga2Survive_nodup {off par : List Nat} (hn : (off ++ par).Nodup) {mx : List Bool} {fit : Nat → List ℚ} {rank rank' : Nat → Nat} {d d' : Nat → WithTop ℚ} {kept : List Nat}
    (h : nsga2Survive (fun _ => mx) (fun _ => true) fit off par rank d = .ok (kept, rank', d')) : kept.Nodup := by
  unfold nsga2Survive at h
  rcases e1 : rankOrdinalSort (fun _ => mx) fit off (some par) rank with e | ⟨l, A⟩
  · rw [e1] at h; cases h
  have hl : l = off ++ par := by
    unfold rankOrdinalSort at e1
    simp only [withParents] at e1
    cases hr : pyMapM (fun x => orientedRow mx (fit x)) (off ++ par) with
    | error e => rw [hr] at e1; cases e1
    | ok rows =>
      rw [hr] at e1
      simp only [bind, Except.bind] at e1
      cases rows with
      | nil => cases e1
      | cons first rest =>
        simp only at e1
        split at e1
        · split at e1
          · cases e1
          · cases e1; rfl
        · cases e1
  subst hl
  rw [e1] at h
  simp only [bind, Except.bind] at h
  rcases e2 : crowdingDistanceCalc (fun _ => mx) (fun _ => true) fit A (off ++ par) d with e | ⟨k, B⟩
  · rw [e2] at h; cases h
  rw [e2] at h
  have hk : k.Nodup := by
    unfold crowdingDistanceCalc at e2
    split at e2
    · cases e2
    · rename_i first rest heq
      simp only [if_true] at e2
      exact crowdRanks_nodup (res := (k, B)) hn _ (groupKeys_spec A (off ++ par)).1 List.nodup_nil (by simp) e2
  cases h
  unfold truncationSelection topk sortedDesc
  exact ((List.perm_insertionSort _ k).nodup_iff.2 hk).sublist (List.take_sublist _ _)

end

end Leap
