import Verif.Model.EaSolve
import Verif.Props.Algorithm
import Verif.Props.Mutation
import Verif.Props.Crossover
import Verif.Props.Probe
import Verif.Props.Segmented

/-! # C75: `ea_solve` -/

namespace Leap
open Spec

namespace Spec

/-- A point with one coordinate per pair of bounds, each within its bounds. -/
def InBox (bounds : List (ℚ × ℚ)) (g : List ℚ) : Prop :=
  g.length = bounds.length ∧ ∀ (i : Nat) (b : ℚ × ℚ) (x : ℚ), bounds[i]? = some b → g[i]? = some x → b.1 ≤ x ∧ x ≤ b.2

/-- What the random sources promise: the numbers asked for, uniform ones in `[0, 1)`, choices in range. -/
structure EaRandomValid {ρ : Type} (rand : EaRandom ρ) : Prop where
  uniform_length : ∀ n s, (rand.uniform n s).1.length = n
  uniform_range : ∀ n s, ∀ x ∈ (rand.uniform n s).1, 0 ≤ x ∧ x < 1
  normal_length : ∀ n s, (rand.normal n s).1.length = n
  choices : ∀ n k s, 0 < n → ValidDraws n k (rand.choices n k s).1

/-- A point `ea_solve` may call the function with: of the right length, and inside the bounds when they are hard. -/
def EaPoint (hard : Bool) (bounds : List (ℚ × ℚ)) (g : List ℚ) : Prop :=
  g.length = bounds.length ∧ (hard = true → InBox bounds g)

/-- The value of a point: what the function returns, or NaN when it raises. -/
def score {F : Type} (nan : F) (f : List ℚ → PyM F) (g : List ℚ) : F :=
  match f g with
  | .ok v => v
  | .error _ => nan

/-- `b` is one of `points` and the function is nowhere among them better. -/
def BestAmong {F : Type} (gt : F → F → Bool) (fn : List ℚ → F) (points : List (List ℚ)) (b : List ℚ) : Prop :=
  b ∈ points ∧ ∀ c ∈ points, gt (fn c) (fn b) = false

end Spec

variable {ρ F : Type}

theorem eaGt_order {gt : F → F → Bool} (h : StrictWeak gt) : StrictPartial (eaGt gt) := by
  have hp := strictWeak_order h
  constructor
  · rintro ⟨g, f⟩
    cases f <;> simp [eaGt, hp.irrefl]
  · rintro ⟨g1, f1⟩ ⟨g2, f2⟩ ⟨g3, f3⟩ h1 h2
    cases f1 <;> cases f2 <;> cases f3 <;> simp_all [eaGt]
    exact hp.trans _ _ _ h1 h2

theorem eaCreate_spec (rand : EaRandom ρ) (hr : EaRandomValid rand) (bounds : List (ℚ × ℚ)) (hb : ∀ b ∈ bounds, b.1 ≤ b.2)
    (n : Nat) (w : EaRest ρ F) :
    (eaCreate rand bounds n w).1.length = n ∧ (∀ i ∈ (eaCreate rand bounds n w).1, InBox bounds i.genome) ∧
    (eaCreate rand bounds n w).2.calls = w.calls ∧ (eaCreate rand bounds n w).2.probe = w.probe := by
  induction n generalizing w with
  | zero => simp [eaCreate]
  | succ n ih =>
    obtain ⟨h1, h2, h3, h4⟩ := ih { w with rng := (rand.uniform bounds.length w.rng).2 }
    refine ⟨by simp [eaCreate, h1], ?_, by simpa [eaCreate] using h3, by simpa [eaCreate] using h4⟩
    intro i hi
    simp only [eaCreate, List.mem_cons] at hi
    rcases hi with rfl | hi
    · have hf := create_real_vector_in_bounds bounds (rand.uniform bounds.length w.rng).1 (hr.uniform_length _ _)
        (hr.uniform_range _ _) hb
      refine ⟨hf.length_eq.symm, ?_⟩
      intro i b x hbi hx
      obtain ⟨hi1, hi1'⟩ := List.getElem?_eq_some_iff.mp hbi
      obtain ⟨hi2, hi2'⟩ := List.getElem?_eq_some_iff.mp hx
      have := (List.forall₂_iff_get.mp hf).2 i hi1 hi2
      simp only [List.get_eq_getElem, hi1', hi2'] at this
      refine ⟨this.1, ?_⟩
      rcases lt_or_eq_of_le (hb b (List.mem_of_getElem? hbi)) with hlt | heq
      · exact le_of_lt (this.2.1 hlt)
      · rw [this.2.2 heq, heq]
    · exact h2 i hi

theorem eaEvaluate_spec (nan : F) (f : List ℚ → PyM F) (g : List ℚ) (w : EaRest ρ F) :
    eaEvaluate nan f g w = (⟨g, some (score nan f g)⟩, { w with calls := w.calls ++ [g] }) := by
  simp only [eaEvaluate, score]
  cases f g <;> rfl

theorem eaEvaluateAll_spec (nan : F) (f : List ℚ → PyM F) (pop : List (EaInd F)) (w : EaRest ρ F) :
    eaEvaluateAll nan f pop w =
      (pop.map fun i => ⟨i.genome, some (score nan f i.genome)⟩, { w with calls := w.calls ++ pop.map EaInd.genome }) := by
  induction pop generalizing w with
  | nil => simp [eaEvaluateAll]
  | cons i is ih => simp [eaEvaluateAll, eaEvaluate_spec, ih]

theorem eaHardBounds_spec (hard : Bool) (bounds : List (ℚ × ℚ)) (hb : ∀ b ∈ bounds, b.1 ≤ b.2) (hne : bounds ≠ []) :
    Fits (eaHardBounds hard bounds) bounds.length ∧
    (∀ i b, boundAt (eaHardBounds hard bounds) i = some b → Proper b) := by
  cases hard with
  | false =>
    refine ⟨trivial, ?_⟩
    intro i b h
    simp only [eaHardBounds, boundAt, Bool.false_eq_true, if_false, Option.some.injEq] at h
    subst h
    intro lo hi h1; simp at h1
  | true =>
    refine ⟨⟨by simp, by simpa using hne⟩, ?_⟩
    intro i b h
    simp only [eaHardBounds, boundAt, if_true, List.getElem?_map, Option.map_eq_some_iff] at h
    obtain ⟨c, hc, rfl⟩ := h
    intro lo hi h1 h2
    simp only [Option.some.injEq] at h1 h2
    rw [← h1, ← h2]
    exact hb c (List.mem_of_getElem? hc)

theorem eaChild_spec (rand : EaRandom ρ) (hr : EaRandomValid rand) {gt : F → F → Bool} (hgt : StrictWeak gt)
    (hard : Bool) (bounds : List (ℚ × ℚ)) (hb : ∀ b ∈ bounds, b.1 ≤ b.2) (hne : bounds ≠ []) (std : ℚ) (hstd : 0 ≤ std)
    (parents : List (EaInd F)) (hp : parents ≠ []) (ha : ∀ i ∈ parents, EaPoint hard bounds i.genome) (w : EaRest ρ F) :
    ∃ g s, eaChild rand gt std (eaHardBounds hard bounds) parents w = .ok (g, { w with rng := s }) ∧
      EaPoint hard bounds g := by
  have hpl : 0 < parents.length := List.length_pos_iff.mpr hp
  have hpart := eaGt_order hgt
  obtain ⟨i, ind, ht, -, hind, -⟩ := tournament_winner (fun a b => eaGt gt b a) (eaGt gt)
    ⟨fun a => hpart.irrefl a, fun a b c h1 h2 => hpart.trans c b a h2 h1⟩ hpart false parents 2
    (rand.choices parents.length 2 w.rng).1 (hr.choices _ _ _ hpl) (by omega) hp
  have hadm := ha ind (List.mem_of_getElem? hind)
  set s1 := (rand.choices parents.length 2 w.rng).2
  set u := (rand.uniform ind.genome.length s1).1 with hu
  set s2 := (rand.uniform ind.genome.length s1).2
  set z := (rand.normal ind.genome.length s2).1 with hz
  have hul : u.length = ind.genome.length := hr.uniform_length _ _
  have hcount : u.countP (fun x => decide (x < 1)) = u.length := by
    rw [List.countP_eq_length]
    intro x hx
    simpa using (hr.uniform_range _ _ x hx).2
  obtain ⟨hfit, hprop⟩ := eaHardBounds_spec hard bounds hb hne
  obtain ⟨g', he, hl, hs⟩ := gaussian_mutation_bounded (.scalar std) .isotropic (eaHardBounds hard bounds) 1 0 u z ind.genome 1
    rfl (by norm_num) (by norm_num) hul (by rw [hcount, hul]; exact hr.normal_length _ _) trivial
    (by rintro s h; cases h; exact hstd) (by rw [hadm.1]; exact hfit) hprop
  refine ⟨g', (rand.normal ind.genome.length s2).2, ?_, by rw [hl, hadm.1], ?_⟩
  · simp only [eaChild, ht]
    rw [← hu, ← hz, he]
  · intro hh
    refine ⟨by rw [hl, hadm.1], ?_⟩
    intro i b x hbi hx
    have hi : i < ind.genome.length := by
      rw [← hl]; exact (List.getElem?_eq_some_iff.mp hx).1
    obtain ⟨b', y, hb', hy, hwithin, -⟩ := hs i (u[i]'(by omega)) ind.genome[i] (List.getElem?_eq_getElem _) (List.getElem?_eq_getElem _)
    rw [hx] at hy
    cases hy
    subst hh
    simp only [eaHardBounds, if_true, boundAt, List.getElem?_map, hbi, Option.map_some, Option.some.injEq] at hb'
    subst hb'
    exact ⟨hwithin.1 _ rfl, hwithin.2 _ rfl⟩

theorem eaCross_spec (rand : EaRandom ρ) (hr : EaRandomValid rand) (hard : Bool) (bounds : List (ℚ × ℚ)) (a b : List ℚ)
    (ha : EaPoint hard bounds a) (hb : EaPoint hard bounds b) (w : EaRest ρ F) :
    ∃ a' b' s, eaCross rand a b w = .ok ((a', b'), { w with rng := s }) ∧
      EaPoint hard bounds a' ∧ EaPoint hard bounds b' := by
  have hhead : ¬ ((rand.uniform 1 w.rng).1.headD 0 > 1) := by
    cases h : (rand.uniform 1 w.rng).1 with
    | nil => norm_num
    | cons x xs =>
      have := (hr.uniform_range 1 w.rng x (by simp [h])).2
      simp; linarith
  set s1 := (rand.uniform 1 w.rng).2
  set u := (rand.uniform (min a.length b.length) s1).1 with hu
  have hab : a.length = b.length := by rw [ha.1, hb.1]
  have hul : u.length = a.length := by rw [hu, hr.uniform_length]; omega
  obtain ⟨a', b', he, hla, hlb, hs⟩ := uniform_crossover_swaps (1 / 5) (by norm_num) (by norm_num) u a b hab hul
  refine ⟨a', b', (rand.uniform (min a.length b.length) s1).2, ?_, ⟨by rw [hla, ha.1], fun hh => ⟨by rw [hla, ha.1], ?_⟩⟩, ⟨by rw [hlb, hb.1], fun hh => ⟨by rw [hlb, hb.1], ?_⟩⟩⟩
  · simp only [eaCross, if_neg hhead]
    rw [← hu, he]
  · intro i bd x hbd hx
    have hi : i < u.length := by rw [hul, ← hla]; exact (List.getElem?_eq_some_iff.mp hx).1
    have hsi := hs i u[i] (List.getElem?_eq_getElem _)
    rcases lt_or_ge u[i] (1 / 5) with h | h
    · rw [(hsi.1 h).1] at hx
      exact (hb.2 hh).2 i bd x hbd hx
    · rw [(hsi.2 h).1] at hx
      exact (ha.2 hh).2 i bd x hbd hx
  · intro i bd x hbd hx
    have hi : i < u.length := by rw [hul, hab, ← hlb]; exact (List.getElem?_eq_some_iff.mp hx).1
    have hsi := hs i u[i] (List.getElem?_eq_getElem _)
    rcases lt_or_ge u[i] (1 / 5) with h | h
    · rw [(hsi.1 h).2] at hx
      exact (ha.2 hh).2 i bd x hbd hx
    · rw [(hsi.2 h).2] at hx
      exact (hb.2 hh).2 i bd x hbd hx

/-- The offspring of one generation for a function that does not raise. -/
theorem eaOffspring_spec (rand : EaRandom ρ) (hr : EaRandomValid rand) {gt : F → F → Bool} (hgt : StrictWeak gt)
    (hard : Bool) (bounds : List (ℚ × ℚ)) (hb : ∀ b ∈ bounds, b.1 ≤ b.2) (hne : bounds ≠ []) (std : ℚ) (hstd : 0 ≤ std)
    (parents : List (EaInd F)) (hp : parents ≠ []) (ha : ∀ i ∈ parents, EaPoint hard bounds i.genome)
    (nan : F) (f : List ℚ → PyM F) (n : Nat) :
    ∀ (pending : Option (List ℚ)) (w : EaRest ρ F), (∀ g, pending = some g → EaPoint hard bounds g) →
    ∃ (gs : List (List ℚ)) (s : ρ), eaOffspring rand gt nan f std (eaHardBounds hard bounds) parents n pending w =
        .ok (gs.map (fun g => ⟨g, some (score nan f g)⟩), ⟨s, w.calls ++ gs, w.probe⟩) ∧
      gs.length = n ∧ ∀ g ∈ gs, EaPoint hard bounds g := by
  induction n with
  | zero => intro pending w _; exact ⟨[], w.rng, by simp [eaOffspring], rfl, by simp⟩
  | succ n ih =>
    intro pending w hpend
    cases pending with
    | some g =>
      obtain ⟨gs, s, h1, h2, h3⟩ := ih none { w with calls := w.calls ++ [g] } (by simp)
      refine ⟨g :: gs, s, ?_, by simp [h2], ?_⟩
      · simp [eaOffspring, eaEvaluate_spec, h1]
      · intro x hx
        rcases List.mem_cons.mp hx with rfl | hx
        · exact hpend _ rfl
        · exact h3 x hx
    | none =>
      obtain ⟨a, s1, e1, a1⟩ := eaChild_spec rand hr hgt hard bounds hb hne std hstd parents hp ha w
      obtain ⟨b, s2, e2, a2⟩ := eaChild_spec rand hr hgt hard bounds hb hne std hstd parents hp ha { w with rng := s1 }
      obtain ⟨a', b', s3, e3, a3, a4⟩ := eaCross_spec rand hr hard bounds a b a1 a2 { w with rng := s2 }
      obtain ⟨gs, s, h1, h2, h3⟩ := ih (some b') { w with rng := s3, calls := w.calls ++ [a'] } (by rintro g h; cases h; exact a4)
      refine ⟨a' :: gs, s, ?_, by simp [h2], ?_⟩
      · simp only [] at e2 e3
        simp [eaOffspring, e1, e2, e3, eaEvaluate_spec, h1]
      · intro x hx
        rcases List.mem_cons.mp hx with rfl | hx
        · exact a3
        · exact h3 x hx

/-- What holds between two generations: `init` are the initial points, `batches` the points of each generation so far. -/
structure EaInv (gt : F → F → Bool) (fn : List ℚ → F) (hard : Bool) (bounds : List (ℚ × ℚ)) (popSize : Nat)
    (init : List (List ℚ)) (batches : List (List (List ℚ))) (w : EaRest ρ F) : Prop where
  calls : w.calls = init ++ batches.flatten
  sizes : ∀ b ∈ batches, b.length = popSize ∧ ∀ g ∈ b, EaPoint hard bounds g
  rows : w.probe.rows.length = batches.length
  row : ∀ k < batches.length, ∃ b, BestAmong gt fn (batches.take (k + 1)).flatten b ∧ w.probe.rows[k]? = some ((k : Int), some (fn b))
  bsf : (batches = [] ∧ w.probe.bsf = none) ∨ ∃ b, w.probe.bsf = some ⟨b, some (fn b)⟩ ∧ BestAmong gt fn batches.flatten b

theorem eaPipeline_step (rand : EaRandom ρ) (hr : EaRandomValid rand) {gt : F → F → Bool} (hgt : StrictWeak gt)
    (hard : Bool) (bounds : List (ℚ × ℚ)) (hb : ∀ b ∈ bounds, b.1 ≤ b.2) (hne : bounds ≠ []) (std : ℚ) (hstd : 0 ≤ std)
    (parents : List (EaInd F)) (hp : parents ≠ []) (ha : ∀ i ∈ parents, EaPoint hard bounds i.genome)
    (nan : F) (f : List ℚ → PyM F) (popSize : Nat) (hpop : 1 ≤ popSize) (init : List (List ℚ)) (batches : List (List (List ℚ)))
    (w : World (EaRest ρ F)) (hinv : EaInv gt (score nan f) hard bounds popSize init batches w.rest)
    (hg : w.ctx.generation = some (batches.length : Int)) :
    ∃ batch rest, eaPipeline rand gt nan f std (eaHardBounds hard bounds) popSize w parents =
        .ok (batch.map (fun g => ⟨g, some (score nan f g)⟩), { w with rest := rest }) ∧
      batch.length = popSize ∧ (∀ g ∈ batch, EaPoint hard bounds g) ∧
      EaInv gt (score nan f) hard bounds popSize init (batches ++ [batch]) rest := by
  obtain ⟨gs, s, he, hl, hadm⟩ := eaOffspring_spec rand hr hgt hard bounds hb hne std hstd parents hp ha nan f popSize none w.rest (by simp)
  obtain ⟨g0, gt', rfl⟩ : ∃ g0 t, gs = g0 :: t := by
    cases gs with
    | nil => simp at hl; omega
    | cons a t => exact ⟨a, t, rfl⟩
  have hpart := eaGt_order hgt
  set mk : List ℚ → EaInd F := fun g => ⟨g, some (score nan f g)⟩ with hmk
  have hmem := pyMaxFrom_mem (eaGt gt) (mk g0) (gt'.map mk)
  have hspec := pyMaxFrom_spec hpart (mk g0) (gt'.map mk)
  rw [← List.map_cons] at hmem hspec
  obtain ⟨best, hbm, hbe⟩ := List.mem_map.mp hmem
  have hbest : ∀ c ∈ g0 :: gt', gt (score nan f c) (score nan f best) = false := by
    intro c hc
    have := hspec (mk c) (List.mem_map_of_mem hc)
    rw [← hbe] at this
    simpa [eaGt, hmk] using this
  -- the best so far after this call
  obtain ⟨b', hb', hba⟩ : ∃ b', bsfUpdate (eaGt gt) w.rest.probe.bsf (mk best) = mk b' ∧
      BestAmong gt (score nan f) (batches ++ [g0 :: gt']).flatten b' := by
    have hflat : (batches ++ [g0 :: gt']).flatten = batches.flatten ++ (g0 :: gt') := by simp
    rw [hflat]
    rcases hinv.bsf with ⟨h0, h1⟩ | ⟨b, h1, h2, h3⟩
    · refine ⟨best, by rw [h1]; rfl, ?_⟩
      subst h0
      exact ⟨by simpa using hbm, by simpa using hbest⟩
    · rw [h1]
      simp only [bsfUpdate]
      by_cases hc : gt (score nan f best) (score nan f b) = true
      · refine ⟨best, by simp [eaGt, hmk, hc], List.mem_append_right _ hbm, ?_⟩
        intro c hcm
        rcases List.mem_append.mp hcm with h | h
        · refine hgt.negTrans _ _ _ (h3 c h) (hgt.asymm _ _ hc)
        · exact hbest c h
      · have hc' : gt (score nan f best) (score nan f b) = false := by simpa using hc
        refine ⟨b, by simp [eaGt, hmk, hc'], List.mem_append_left _ h2, ?_⟩
        intro c hcm
        rcases List.mem_append.mp hcm with h | h
        · exact h3 c h
        · exact hgt.negTrans _ _ _ (hbest c h) hc'
  refine ⟨g0 :: gt', ⟨s, w.rest.calls ++ (g0 :: gt'), ⟨some (mk b'), w.rest.probe.rows ++ [((batches.length : Int), some (score nan f b'))]⟩⟩,
    ?_, hl, hadm, ?_⟩
  · have hmax : pyMax (eaGt gt) ((g0 :: gt').map mk) = .ok (mk best) := by
      rw [hbe]; rfl
    simp only [eaPipeline, he, bestSoFarProbe, hg, probeGeneration, hmax]
    rw [if_neg (by simp [hmk]), hb']
  · refine ⟨by simp [hinv.calls], ?_, by simp [hinv.rows], ?_, ?_⟩
    · intro b hbb
      rcases List.mem_append.mp hbb with h | h
      · exact hinv.sizes b h
      · rw [List.mem_singleton.mp h]; exact ⟨hl, hadm⟩
    · intro k hk
      simp only [List.length_append, List.length_cons, List.length_nil] at hk
      rcases Nat.lt_or_ge k batches.length with hlt | hge
      · obtain ⟨b, h1, h2⟩ := hinv.row k hlt
        refine ⟨b, ?_, ?_⟩
        · rwa [List.take_append_of_le_length (by omega)]
        · simp only
          rw [List.getElem?_append_left (by rw [hinv.rows]; exact hlt)]
          exact h2
      · have hk' : k = batches.length := by omega
        subst hk'
        refine ⟨b', ?_, ?_⟩
        · rw [List.take_of_length_le (by simp)]; exact hba
        · simp only
          rw [List.getElem?_append_right (by rw [hinv.rows]), hinv.rows]
          simp
    · exact Or.inr ⟨b', rfl, hba⟩

theorem eaLoop_spec (rand : EaRandom ρ) (hr : EaRandomValid rand) {gt : F → F → Bool} (hgt : StrictWeak gt)
    (hard : Bool) (bounds : List (ℚ × ℚ)) (hb : ∀ b ∈ bounds, b.1 ≤ b.2) (hne : bounds ≠ []) (std : ℚ) (hstd : 0 ≤ std)
    (nan : F) (f : List ℚ → PyM F) (popSize : Nat) (hpop : 1 ≤ popSize) (init : List (List ℚ)) (n : Nat) :
    ∀ (parents : List (EaInd F)) (batches : List (List (List ℚ))) (w : World (EaRest ρ F)),
      parents.length = popSize → (∀ i ∈ parents, EaPoint hard bounds i.genome) →
      EaInv gt (score nan f) hard bounds popSize init batches w.rest → w.ctx.generation = some (batches.length : Int) →
    ∃ pop batches' w', generationalLoop (fun a b => eaGt gt b a) ((batches.length + n : Nat) : Int) 1
        (eaPipeline rand gt nan f std (eaHardBounds hard bounds) popSize) (fun _ _ => false)
        (batches.length : Int) parents w = .ok (pop, w') ∧
      batches'.length = batches.length + n ∧ EaInv gt (score nan f) hard bounds popSize init batches' w'.rest := by
  induction n with
  | zero =>
    intro parents batches w _ _ hinv _
    refine ⟨parents, batches, w, ?_, rfl, hinv⟩
    rw [generationalLoop, dif_neg (by simp)]
  | succ n ih =>
    intro parents batches w hpl ha hinv hg
    have hp : parents ≠ [] := by rintro rfl; simp at hpl; omega
    obtain ⟨batch, rest, he, hl, hadm, hinv'⟩ := eaPipeline_step rand hr hgt hard bounds hb hne std hstd parents hp ha nan f popSize hpop
      init batches w hinv hg
    set lt := fun a b => eaGt gt b a with hlt
    set off : List (EaInd F) := batch.map (fun g => ⟨g, some (score nan f g)⟩) with hoff
    have hsurv : (elitistSurvival lt off parents 1).1.length = popSize := by
      have h1 : off.length = popSize := by simp [hoff, hl]
      simp [elitistSurvival, topk_length, h1]
    have hsa : ∀ i ∈ (elitistSurvival lt off parents 1).1, EaPoint hard bounds i.genome := by
      intro i hi
      simp only [elitistSurvival] at hi
      rcases List.mem_append.mp (topk_mem hi) with h | h
      · obtain ⟨g, hgm, rfl⟩ := List.mem_map.mp h
        exact hadm g hgm
      · exact ha i (topk_mem h)
    obtain ⟨pop, batches', w', h1, h2, h3⟩ := ih (elitistSurvival lt off parents 1).1 (batches ++ [batch])
      (World.setGeneration { w with rest := rest } (batches.length + 1)) hsurv hsa hinv' (by simp [World.setGeneration])
    refine ⟨pop, batches', w', ?_, by rw [h2]; simp; omega, h3⟩
    rw [generationalLoop, dif_pos (by push_cast; omega)]
    simp only [Bool.false_eq_true, if_false, he]
    have e1 : ((batches.length + (n + 1) : Nat) : Int) = (((batches ++ [batch]).length + n : Nat) : Int) := by simp; ring
    have e2 : (batches.length : Int) + 1 = ((batches ++ [batch]).length : Int) := by simp
    rw [e1, ← h1, ← e2]

/-- C75: `ea_solve` with at least one generation, one individual and one pair of proper bounds, for any function and any random
numbers, does not raise. It calls the function first on `pop_size` points, then on `pop_size` points in each of the
`generations` generations, and never otherwise. Every point has one coordinate per pair of bounds; initial points are inside the
bounds, and with `hard_bounds` all are. The genome returned is one of the points tried after initialisation, and none of
those has a better value. The stream gets one row per generation with the best value of the points tried after
initialisation until then.
Missing from the full claim, because it is false of the code: that the initial points count for the best. -/
theorem ea_solve_spec_partial (rand : EaRandom ρ) (hr : EaRandomValid rand) {gt : F → F → Bool} (hgt : StrictWeak gt)
    (nan : F) (f : List ℚ → PyM F) (bounds : List (ℚ × ℚ)) (hb : ∀ b ∈ bounds, b.1 ≤ b.2) (hne : bounds ≠ []) (generations popSize : Nat)
    (hgen : 1 ≤ generations) (hpop : 1 ≤ popSize) (std : ℚ) (hstd : 0 ≤ std) (hard : Bool) (ctx : LeapCtx) (rng : ρ) :
    ∃ (genome : List ℚ) (w : World (EaRest ρ F)) (init : List (List ℚ)) (batches : List (List (List ℚ))),
      eaSolve rand gt nan f bounds generations popSize std hard ctx rng = .ok (genome, w) ∧
      w.rest.calls = init ++ batches.flatten ∧
      init.length = popSize ∧ (∀ g ∈ init, InBox bounds g) ∧
      batches.length = generations ∧
      (∀ b ∈ batches, b.length = popSize ∧ ∀ g ∈ b, g.length = bounds.length ∧ (hard = true → InBox bounds g)) ∧
      BestAmong gt (score nan f) batches.flatten genome ∧
      w.rest.probe.rows.length = generations ∧
      (∀ k < generations, ∃ b, BestAmong gt (score nan f) (batches.take (k + 1)).flatten b ∧
        w.rest.probe.rows[k]? = some ((k : Int), some (score nan f b))) := by
  set w0 : EaRest ρ F := ⟨rng, [], ⟨none, []⟩⟩ with hw0
  obtain ⟨h1, h2, h3, h4⟩ := eaCreate_spec (F := F) rand hr bounds hb popSize w0
  set pop0 := (eaCreate rand bounds popSize w0).1 with hpop0
  set w1 := (eaCreate rand bounds popSize w0).2 with hw1
  have hev := eaEvaluateAll_spec nan f pop0 w1
  set pop1 : List (EaInd F) := pop0.map fun i => ⟨i.genome, some (score nan f i.genome)⟩ with hpop1
  set w2 : EaRest ρ F := { w1 with calls := w1.calls ++ pop0.map EaInd.genome } with hw2
  obtain ⟨pop, batches, w', hl, hlen, hinv⟩ := eaLoop_spec rand hr hgt hard bounds hb hne std hstd nan f popSize hpop
    (pop0.map EaInd.genome) generations pop1 [] ⟨{ ctx with generation := some 0 }, w2⟩ (by simp [hpop1, h1])
    (by
      intro i hi
      obtain ⟨j, hj, rfl⟩ := List.mem_map.mp hi
      exact ⟨(h2 j hj).1, fun _ => h2 j hj⟩)
    ⟨by simp [hw2, h3, hw0], by simp, by simp [hw2, h4, hw0], by simp, Or.inl ⟨rfl, by simp [hw2, h4, hw0]⟩⟩ rfl
  simp only [List.length_nil, Nat.zero_add] at hlen
  obtain ⟨hc, hs, hrows, hrow, hbsf⟩ := hinv
  rcases hbsf with ⟨h0, -⟩ | ⟨b, hb1, hb2⟩
  · rw [h0] at hlen; simp at hlen; omega
  · refine ⟨b, w', pop0.map EaInd.genome, batches, ?_, hc, by simp [h1], ?_, hlen, hs, hb2, by rw [hrows, hlen], ?_⟩
    · simp only [List.length_nil, Nat.zero_add, Nat.cast_zero] at hl
      simp only [eaSolve, generationalEa, World.setGeneration, ← hpop0, ← hw1, ← hw0, hev]
      rw [hl]
      simp [hb1]
    · intro g hg
      obtain ⟨i, hi, rfl⟩ := List.mem_map.mp hg
      exact h2 i hi
    · intro k hk
      exact hrow k (by omega)

/-- C75, improper arguments: without a generation there is no best and `AttributeError` is raised; without individuals
`ValueError`; a negative standard deviation is an `AssertionError`. -/
theorem ea_solve_errors (rand : EaRandom ρ) (hr : EaRandomValid rand) {gt : F → F → Bool} (hgt : StrictWeak gt)
    (nan : F) (f : List ℚ → PyM F) (bounds : List (ℚ × ℚ)) (hb : ∀ b ∈ bounds, b.1 ≤ b.2) (generations : Int) (popSize : Nat) (std : ℚ)
    (hard : Bool) (ctx : LeapCtx) (rng : ρ) :
    (generations ≤ 0 → eaSolve rand gt nan f bounds generations popSize std hard ctx rng = .error .attributeError) ∧
    (1 ≤ generations → popSize = 0 →
      eaSolve rand gt nan f bounds generations popSize std hard ctx rng = .error .valueError) ∧
    (1 ≤ generations → 1 ≤ popSize → std < 0 →
      eaSolve rand gt nan f bounds generations popSize std hard ctx rng = .error .assertionError) := by
  obtain ⟨h1, h2, h3, h4⟩ := eaCreate_spec (F := F) rand hr bounds hb popSize ⟨rng, [], ⟨none, []⟩⟩
  refine ⟨?_, ?_, ?_⟩
  · intro hg
    simp only [eaSolve, generationalEa, World.setGeneration, eaEvaluateAll_spec]
    rw [generationalLoop, dif_neg (by omega)]
    simp [h4]
  · intro hg hp
    subst hp
    simp only [eaSolve, generationalEa, World.setGeneration, eaEvaluateAll_spec]
    rw [generationalLoop, dif_pos (by omega)]
    simp [eaPipeline, eaOffspring, bestSoFarProbe, probeGeneration, pyMax]
  · intro hg hp hs
    obtain ⟨n, rfl⟩ : ∃ n, popSize = n + 1 := ⟨popSize - 1, by omega⟩
    simp only [eaSolve, generationalEa, World.setGeneration, eaEvaluateAll_spec]
    rw [generationalLoop, dif_pos (by omega)]
    set pop : List (EaInd F) := List.map (fun i : EaInd F => (⟨i.genome, some (score nan f i.genome)⟩ : EaInd F))
      (eaCreate rand bounds (n + 1) (⟨rng, [], ⟨none, []⟩⟩ : EaRest ρ F)).1 with hpop
    have hpl : pop.length = n + 1 := by simp [hpop, h1]
    have hpne : pop ≠ [] := by intro h; rw [h] at hpl; simp at hpl
    have hpart := eaGt_order hgt
    have hchild : ∀ w : EaRest ρ F, eaChild rand gt std (eaHardBounds hard bounds) pop w = .error .assertionError := by
      intro w
      obtain ⟨i, ind, ht, -⟩ := tournament_winner (fun a b => eaGt gt b a) (eaGt gt)
        ⟨fun a => hpart.irrefl a, fun a b c h1 h2 => hpart.trans c b a h2 h1⟩ hpart false pop 2
        (rand.choices pop.length 2 w.rng).1 (hr.choices _ _ _ (by omega)) (by omega) hpne
      simp only [eaChild, ht, gaussian_negative_std std hs]
    simp [eaPipeline, eaOffspring, hchild]

/-- Random numbers for the examples: uniform numbers 0, normal numbers 1/2, first individuals. -/
def eaExampleRandom : EaRandom Unit :=
  ⟨fun n s => (List.replicate n 0, s), fun n s => (List.replicate n (1 / 2), s), fun _ k s => (List.replicate k 0, s)⟩

theorem eaExampleRandom_valid : EaRandomValid eaExampleRandom :=
  ⟨by simp [eaExampleRandom], by simp [eaExampleRandom], by simp [eaExampleRandom],
   fun n k s hn => ⟨by simp [eaExampleRandom], fun i hi => by
    simp only [eaExampleRandom, List.mem_replicate] at hi; omega⟩⟩

/-- The returned genome and the points tried. -/
def eaExampleOutcome (r : PyM (List ℚ × World (EaRest Unit ℚ))) : Option (List ℚ × List (List ℚ)) :=
  match r with
  | .ok (g, w) => some (g, w.rest.calls)
  | .error _ => none

theorem ratGt_strictWeak : StrictWeak (fun x y : ℚ => decide (x < y)) :=
  ⟨fun a b h => by simp only [decide_eq_true_eq, decide_eq_false_iff_not, not_lt] at *; exact le_of_lt h,
   fun a b c h1 h2 => by simp only [decide_eq_false_iff_not, not_lt] at *; exact le_trans h2 h1⟩

/-- Disagreement with C75: the best point tried can be lost. Minimising the coordinate of one point in `[0, 1]`, `ea_solve` tries 0
first, then 1/2, and returns 1/2: the probe that remembers the best does not see the initial population. -/
theorem ea_solve_forgets_initial_best :
    ∃ g w, eaSolve eaExampleRandom (fun x y : ℚ => decide (x < y)) 0 (fun g => .ok g.sum) [(0, 1)] 1 1 1 true {} () = .ok (g, w) ∧
      g = [1 / 2] ∧ w.rest.calls = [[0], [1 / 2]] ∧
      ∃ c ∈ w.rest.calls, (fun x y : ℚ => decide (x < y)) c.sum g.sum = true := by
  have h : eaExampleOutcome (eaSolve eaExampleRandom (fun x y : ℚ => decide (x < y)) 0 (fun g => .ok g.sum) [(0, 1)] 1 1 1 true {} ()) =
      some ([1 / 2], [[0], [1 / 2]]) := by
    have hloop : ∀ (lt : EaInd ℚ → EaInd ℚ → Bool) (pipe : Pipeline (EaRest Unit ℚ) (EaInd ℚ)) (parents : List (EaInd ℚ))
        (w : World (EaRest Unit ℚ)), generationalLoop lt 1 1 pipe (fun _ _ => false) 0 parents w =
          match pipe w parents with
          | .error e => .error e
          | .ok (off, w) => .ok ((elitistSurvival lt off parents 1).1, w.setGeneration 1) := by
      intro lt pipe parents w
      rw [generationalLoop, dif_pos (by norm_num)]
      simp only [Bool.false_eq_true, if_false]
      cases pipe w parents with
      | error e => rfl
      | ok v =>
        simp only
        rw [generationalLoop, dif_neg (by norm_num)]
        rfl
    simp only [eaSolve, generationalEa, hloop]
    decide +kernel
  cases hr : eaSolve eaExampleRandom (fun x y : ℚ => decide (x < y)) 0 (fun g => .ok g.sum) [(0, 1)] 1 1 1 true {} () with
  | error e => rw [hr] at h; simp [eaExampleOutcome] at h
  | ok v =>
    obtain ⟨g, w⟩ := v
    rw [hr] at h
    simp only [eaExampleOutcome, Option.some.injEq, Prod.mk.injEq] at h
    refine ⟨g, w, rfl, h.1, h.2, [0], by simp [h.2], ?_⟩
    rw [h.1]
    decide +kernel

example : ∃ (genome : List ℚ) (w : World (EaRest Unit ℚ)),
    eaSolve eaExampleRandom (fun x y : ℚ => decide (x < y)) 0 (fun g => .ok g.sum) [(0, 1), (-1, 1)] 3 4 2 true {} () = .ok (genome, w) := by
  obtain ⟨g, w, -, -, h, -⟩ := ea_solve_spec_partial eaExampleRandom eaExampleRandom_valid ratGt_strictWeak 0 (fun g => .ok g.sum) [(0, 1), (-1, 1)]
    (by decide +kernel) (by simp) 3 4 (by omega) (by omega) 2 (by norm_num) true {} ()
  exact ⟨g, w, h⟩

end Leap
