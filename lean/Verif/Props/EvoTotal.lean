import Verif.Props.EvoRun
import Verif.Props.Binary
import Verif.Props.Cgp

/-! # Runs return, and what they return decodes (C87) -/

namespace Leap
open Spec

variable {γ ψ φ ρ : Type} {n : Nat} {allowed : Nat → γ → Prop} {truth : List γ → φ → Prop}

/-! ## The operators do not raise -/

/-- C87: bit flipping with a usable rate and one random number per gene never raises. -/
theorem bitflip_stage_live (pop : Bool) (expected probability : Option ℚ) (rand : ρ → List ℚ × ρ) (p : ℚ)
    (hr : RateGives expected probability n p) (h0 : 0 ≤ p) (h1 : p ≤ 1) (hu : ∀ s, (rand s).1.length = n)
    (allowed : Nat → Int → Prop) :
    StageLive n allowed (.mutate (.ok ()) pop (bitflipFn expected probability rand) : Stage Int ψ φ ρ) := by
  refine ⟨rfl, fun g s hg => ?_⟩
  obtain ⟨g', e, -⟩ := bitflip_flips_drawn expected probability (rand s).1 g p (by rw [hg.1]; exact hr) h0 h1 (by rw [hg.1]; exact hu s)
  exact ⟨none, by simp [bitflipFn, e]⟩

/-- C87: integer resampling with a usable rate, one random number per gene and draws within the bounds never raises. -/
theorem randint_stage_live (pop : Bool) (bounds : List (Int × Int)) (expected probability : Option ℚ)
    (rand : ρ → (List ℚ × List Int) × ρ) (p : ℚ) (hne : bounds ≠ []) (hr : RateGives expected probability bounds.length p) (h0 : 0 ≤ p)
    (h1 : p ≤ 1) (hu : ∀ s, (rand s).1.1.length = bounds.length)
    (hd : ∀ s, ValidRandints (((bounds.zip (rand s).1.1).filter (fun q => decide (q.2 < p))).map Prod.fst) (rand s).1.2)
    (allowed : Nat → Int → Prop) :
    StageLive bounds.length allowed (.mutate (.ok ()) pop (randintFn bounds expected probability rand) : Stage Int ψ φ ρ) := by
  refine ⟨rfl, fun g s hg => ?_⟩
  have hl := hg.1
  obtain ⟨g', e, -⟩ := randint_resamples bounds expected probability (rand s).1.1 (rand s).1.2 g p (by rw [hl]; exact hr) h0 h1
    (by rw [hl]; exact hu s) hl.symm (by rintro rfl; exact hne (List.eq_nil_of_length_eq_zero hl.symm)) (hd s)
  exact ⟨none, by simp [randintFn, e]⟩

/-- C87: Gaussian mutation with a usable rate and standard deviation never raises. -/
theorem gaussian_stage_live (pop : Bool) (std : ScalarOrList ℚ) (expected : GaussRate) (bounds : HardBounds ℚ)
    (slope intercept : ℚ) (rand : ρ → (List ℚ × List ℚ) × ρ) (p : ℚ) (hr : GaussRateGives expected n p) (h0 : 0 ≤ p) (h1 : p ≤ 1)
    (hu : ∀ s, (rand s).1.1.length = n) (hz : ∀ s, (rand s).1.2.length = (rand s).1.1.countP (fun x => decide (x < p)))
    (hstd : PerGene std n) (hnn : ∀ s, std = .scalar s → 0 ≤ s) (hf : Fits bounds n) (allowed : Nat → ℚ → Prop) :
    StageLive n allowed (.mutate (.ok ()) pop (gaussianFn std expected bounds slope intercept rand) : Stage ℚ ψ φ ρ) := by
  refine ⟨rfl, fun g s hg => ?_⟩
  have hl := hg.1
  obtain ⟨un, e, lu, -⟩ := gaussian_mutation_bounded std expected (.all (none, none)) slope intercept (rand s).1.1 (rand s).1.2 g p
    (by rw [hl]; exact hr) h0 h1 (by rw [hl]; exact hu s) (hz s) (by rw [hl]; exact hstd) hnn trivial
    (fun i b hb => by simp only [boundAt, Option.some.injEq] at hb; subst hb; intro lo hi h1; cases h1)
  obtain ⟨g', e', -⟩ := applyHardBounds_get (hard := bounds) (genome := un) (by rw [lu, hl]; exact hf)
  exact ⟨some g', by simp [gaussianFn, e, e']⟩

/-- C87: a tournament among at least one drawn position always picks one of the drawn positions, and none of the drawn individuals
is better than the one picked. -/
theorem tournament_choice_picks (better : Option φ → Option φ → Bool) (hb : StrictPartial better) (k : Nat) (hk : 0 < k)
    (draw : ρ → Nat → List Nat × ρ) (pop : List Nat) (hp : pop ≠ []) (m : Mem γ ψ φ ρ)
    (hd : ValidDraws pop.length k (draw m.rng pop.length).1) :
    ∃ i, tournamentChoice better k draw pop m = (.ok i, (draw m.rng pop.length).2) ∧ i < pop.length ∧
      i ∈ (draw m.rng pop.length).1 ∧
      ∀ j ∈ (draw m.rng pop.length).1, ∀ r q, pop[i]? = some r → pop[j]? = some q →
        better ((m.inds[q]?).bind Obj.fitness) ((m.inds[r]?).bind Obj.fitness) = false := by
  obtain ⟨i, r, e, hi, hr, hbest⟩ := tournament_winner
    (fun a b => better ((m.inds[b]?).bind Obj.fitness) ((m.inds[a]?).bind Obj.fitness))
    (fun a b => better ((m.inds[a]?).bind Obj.fitness) ((m.inds[b]?).bind Obj.fitness))
    ⟨fun a => hb.irrefl _, fun a b c h1 h2 => hb.trans _ _ _ h2 h1⟩ ⟨fun a => hb.irrefl _, fun a b c h1 h2 => hb.trans _ _ _ h1 h2⟩
    false pop k _ hd hk hp
  refine ⟨i, by simp only [tournamentChoice, e], hd.2 i hi, hi, fun j hj r' q hr' hq => ?_⟩
  rw [hr] at hr'
  cases hr'
  simpa using hbest j hj q hq

/-! ## Runs on binary-encoded real vectors -/

/-- C87: a genetic algorithm on binary-encoded real parameters. Genomes start as bit strings of the total length; each generation
selects by tournament, clones, flips bits, crosses over uniformly and evaluates. Whatever the random numbers, the run returns, and
each returned individual is scored by the problem on a vector with one value per parameter, each within its bounds. -/
theorem binary_run_returns_feasible (segs : List (Nat × ℚ × ℚ)) (hs : ∀ t ∈ segs, 0 < t.1 ∧ t.1 ≤ 63 ∧ t.2.1 ≤ t.2.2)
    (prob : Prob Int (List (Option ℚ)) φ ρ)
    (hprob : ∀ xs : List ℚ, List.Forall₂ (fun t x => t.2.1 ≤ x ∧ x ≤ t.2.2) segs xs → ∀ s, ∃ f, (prob.evaluate (.value (xs.map some)) s).1 = .ok f)
    (history : List (List Int)) (worse better : Option φ → Option φ → Bool) (hb : StrictPartial better) (k : Nat) (hk : 0 < k)
    (draw : ρ → Nat → List Nat × ρ) (hdraw : ∀ s N, 0 < N → ValidDraws N k (draw s N).1)
    (expected probability : Option ℚ) (p : ℚ) (hr : RateGives expected probability (segs.map (·.1)).sum p) (h0 : 0 ≤ p) (h1 : p ≤ 1)
    (flips : ρ → List ℚ × ρ) (hflips : ∀ s, (flips s).1.length = (segs.map (·.1)).sum)
    (coin : ρ → Bool × ρ) (mask : ρ → Nat → PyM (List Bool) × ρ) (hmask : ∀ s N, ∃ mk, (mask s N).1 = .ok mk ∧ mk.length = N)
    (size : Nat) (hsize : 1 ≤ size) (kElites : Nat) (stop : Int → List Nat → Mem Int (List (Option ℚ)) φ ρ → Bool)
    (initGenome : ρ → PyM (List Int) × ρ)
    (hinit : ∀ s, ∃ g, (initGenome s).1 = .ok g ∧ g.length = (segs.map (·.1)).sum ∧ Binary g)
    (problem popSize : Nat) (hpop : 1 ≤ popSize) (start stopAt : Int) (m : Mem Int (List (Option ℚ)) φ ρ) (hm : Sound m) :
    let dec : Dec Int (List (Option ℚ)) :=
      .fn (binaryToReal (segs.map fun t => realDim t.1 t.2.1 t.2.2) (cacheAfter (segs.map (·.1)) history))
    let cfg : EvoConfig Int (List (Option ℚ)) φ ρ :=
      { worse := worse, choose := fun _ pop m => tournamentChoice better k draw pop m,
        stages := [.mutate (.ok ()) false (bitflipFn expected probability flips), .crossover coin (.uniform mask), .evaluate dec prob],
        size := size, kElites := kElites, stop := stop }
    ∃ out m', evoRun cfg initGenome dec prob problem popSize start stopAt m = (.ok out, m') ∧
      (out.length = popSize ∨ out.length = size) ∧
      ∀ r ∈ out, ∃ g xs f s, genes m' r = some g ∧ fitness m' r = some (some f) ∧
        binaryToReal (segs.map fun t => realDim t.1 t.2.1 t.2.2) (cacheAfter (segs.map (·.1)) history) g = .ok (xs.map some) ∧
        List.Forall₂ (fun t x => t.2.1 ≤ x ∧ x ≤ t.2.2) segs xs ∧ (prob.evaluate (.value (xs.map some)) s).1 = .ok f := by
  intro dec cfg
  set N := (segs.map (·.1)).sum with hN
  have hdec : ∀ g, GenesIn N (fun _ x => x = 0 ∨ x = 1) g → ∃ xs : List ℚ,
      binaryToReal (segs.map fun t => realDim t.1 t.2.1 t.2.2) (cacheAfter (segs.map (·.1)) history) g = .ok (xs.map some) ∧
      List.Forall₂ (fun t x => t.2.1 ≤ x ∧ x ≤ t.2.2) segs xs := by
    intro g hg
    refine (real_decode_in_bounds segs history g ?_ hs (by rw [hg.1])).1
    intro x hx
    obtain ⟨i, hi⟩ := List.mem_iff_getElem?.1 hx
    exact hg.2 i x hi
  have hin : ∀ s, ∃ g, (initGenome s).1 = .ok g ∧ GenesIn N (fun _ x => x = 0 ∨ x = 1) g := by
    intro s
    obtain ⟨g, h1, h2, h3⟩ := hinit s
    exact ⟨g, h1, h2, fun i x hx => h3 x (List.mem_of_getElem? hx)⟩
  have hst : ∀ st ∈ cfg.stages, StageOk N (fun _ x => x = 0 ∨ x = 1) (ScoredBy dec prob) st := by
    intro st h
    simp only [cfg, List.mem_cons, List.not_mem_nil, or_false] at h
    rcases h with rfl | rfl | rfl
    · exact bitflip_stage_ok _ _ _ _ _ _ _
    · exact uniform_crossover_stage_ok _ _
    · exact evaluate_stage_ok _ _
  have hd : ∀ g, GenesIn N (fun _ x => x = 0 ∨ x = 1) g → ∃ c, decodeOf dec g = .ok c ∧ ∀ s, ∃ f, (prob.evaluate c s).1 = .ok f := by
    intro g hg
    obtain ⟨xs, h1, h2⟩ := hdec g hg
    exact ⟨.value (xs.map some), by simp [dec, decodeOf, h1], hprob xs h2⟩
  have hsl : ∀ st ∈ cfg.stages, StageLive N (fun _ x => x = 0 ∨ x = 1) st := by
    intro st h
    simp only [cfg, List.mem_cons, List.not_mem_nil, or_false] at h
    rcases h with rfl | rfl | rfl
    · exact bitflip_stage_live false expected probability flips p hr h0 h1 hflips _
    · exact fun s => hmask s N
    · exact hd
  obtain ⟨out, m', e⟩ := evo_run_returns cfg initGenome dec prob hin hst hsl rfl hd
    (fun g pop m' hne _ => by
      obtain ⟨i, e, hi, -⟩ := tournament_choice_picks better hb k hk draw pop hne m' (hdraw _ _ (List.length_pos_iff.2 hne))
      exact ⟨i, by rw [show cfg.choose g pop m' = _ from e], hi⟩)
    hsize problem popSize hpop start stopAt m hm
  obtain ⟨-, -, hl, hmem, -⟩ := evo_run_members cfg initGenome dec prob
    (fun s g s' h => by obtain ⟨g', h1, h2⟩ := hin s; rw [h] at h1; cases h1; exact h2) hst rfl problem popSize start stopAt m m' hm out e
  refine ⟨out, m', e, hl, fun r hr => ?_⟩
  obtain ⟨-, g, f, hg, hG, hf, c, s, hc, hs'⟩ := hmem r hr
  obtain ⟨xs, h1, h2⟩ := hdec g hG
  refine ⟨g, xs, f, s, hg, hf, h1, h2, ?_⟩
  simp only [dec, decodeOf, h1] at hc
  cases hc
  exact hs'

/-- Two parameters on 2 and 1 bits; the random state counts calls; the score adds the parameters. -/
def exSegs : List (Nat × ℚ × ℚ) := [(2, 0, 3), (1, -1, 1)]

def exAdd : Prob Int (List (Option ℚ)) ℚ Nat where
  evaluate c s := match c with
    | .value v => (.ok (v.map fun x => x.getD 0).sum, s + 1)
    | .raw _ => (.error .typeError, s)
  evaluateMultiple _ s := (.error .typeError, s)
  takesIndividuals := false

/-- All hypotheses of `binary_run_returns_feasible` hold of this set-up. -/
example := binary_run_returns_feasible exSegs (by simp [exSegs]) exAdd (fun xs _ s => ⟨_, rfl⟩) [[1, 0, 1]]
  (fun a b => decide (a.getD 0 < b.getD 0)) (fun a b => decide (b.getD 0 < a.getD 0))
  ⟨fun a => by simp, fun a b c => by simp; intro h1 h2; exact lt_trans h2 h1⟩ 2 (by omega)
  (fun s N => ([s % N, (s + 1) % N], s + 1)) (fun s N hN => ⟨rfl, by simp [Nat.mod_lt _ hN]⟩)
  (some 1) none (1 / 3) (Or.inr ⟨rfl, by decide, 1, rfl, by norm_num [exSegs]⟩) (by norm_num) (by norm_num)
  (fun s => (if s % 2 = 0 then [1 / 4, 3 / 4, 1 / 5] else [3 / 4, 1 / 4, 3 / 4], s + 1)) (fun s => by dsimp only; split <;> rfl)
  (fun s => (s % 3 == 0, s + 1)) (fun s k => (.ok (List.replicate k (s % 2 == 0)), s + 1)) (fun s N => ⟨_, rfl, by simp⟩)
  3 (by omega) 1 (fun _ _ _ => false) (fun s => (.ok [((s % 2 : Nat) : Int), 0, 1], s + 1))
  (fun s => ⟨_, rfl, rfl, by simp [Binary]; omega⟩) 0 2 (by omega) 0 2 ⟨[], [], [], 0, 0⟩ ⟨by simp, by simp, by simp⟩

/-! ## Runs on Cartesian genetic programs -/

theorem genes_in_cgp_bounds_iff {V : Type} (d : CgpDecoder V) (hnpl : 0 < d.nodesPerLayer) (g : List Int) :
    GenesIn d.bounds.length (fun i x => ∃ b, d.bounds[i]? = some b ∧ b.1 ≤ x ∧ x ≤ b.2) g ↔ CgpValid d g := by
  rw [← within_bounds_iff d g hnpl, List.forall₂_iff_get]
  constructor
  · rintro ⟨hl, h⟩
    refine ⟨hl.symm, fun i hi hi' => ?_⟩
    obtain ⟨b, hb, q⟩ := h i _ (List.getElem?_eq_getElem hi')
    rw [List.getElem?_eq_getElem hi] at hb
    cases hb
    simpa using q
  · rintro ⟨hl, h⟩
    refine ⟨hl.symm, fun i x hx => ?_⟩
    obtain ⟨hi, rfl⟩ := List.getElem?_eq_some_iff.1 hx
    exact ⟨_, List.getElem?_eq_getElem (by omega), by simpa using h i (by omega) hi⟩

/-- C87: evolving Cartesian genetic programs with integer resampling within the decoder's bounds and any crossover, in any order
and with any other operators that keep to the bounds, every individual a run returns respects the constraints of the decoder, and
decodes to a feed-forward graph that has the promised nodes and one connection per output. -/
theorem cgp_run_decodes {V : Type} (d : CgpDecoder V) (hnpl : 0 < d.nodesPerLayer) (cfg : EvoConfig Int ψ φ ρ)
    (initGenome : ρ → PyM (List Int) × ρ) (hinit : ∀ s g s', initGenome s = (.ok g, s') → CgpValid d g) (dec : Dec Int ψ)
    (prob : Prob Int ψ φ ρ)
    (hst : ∀ st ∈ cfg.stages, StageOk d.bounds.length (fun i x => ∃ b, d.bounds[i]? = some b ∧ b.1 ≤ x ∧ x ≤ b.2) (ScoredBy dec prob) st)
    (hev : endsEvaluated cfg.stages = true) (problem popSize : Nat) (start stopAt : Int) (m m' : Mem Int ψ φ ρ) (hm : Sound m)
    (out : List Nat) (h : evoRun cfg initGenome dec prob problem popSize start stopAt m = (.ok out, m')) :
    ∀ r ∈ out, ∃ genome g, genes m' r = some genome ∧ CgpValid d genome ∧ cgpDecode d genome = .ok g ∧
      (∀ e ∈ g.edges, e.src < e.dst) ∧ (∀ e ∈ g.edges, e.src ∈ g.nodes ∧ e.dst ∈ g.nodes) ∧
      ∀ o < d.numOutputs, ((g.edges.filter fun e => e.dst = (g.nodes.length : Int) - d.numOutputs + o).length = 1) := by
  intro r hr
  obtain ⟨-, -, -, hmem, -⟩ := evo_run_members cfg initGenome dec prob
    (fun s g s' h => (genes_in_cgp_bounds_iff d hnpl g).2 (hinit s g s' h)) hst hev problem popSize start stopAt m m' hm out h
  obtain ⟨-, genome, f, hg, hG, -⟩ := hmem r hr
  have hv := (genes_in_cgp_bounds_iff d hnpl genome).1 hG
  obtain ⟨g, e1, e2, e3, -, e4⟩ := cgp_decode_feed_forward d genome hv
  exact ⟨genome, g, hg, hv, e1, e2, e3, e4⟩

/-- The hypotheses on the operators are met by resetting each gene to its lower bound, uniform crossover and
evaluation. -/
example : ∀ st ∈ ([.mutate (.ok ()) false (randintFn (exDecoder true).bounds none (some 1) fun s =>
        ((List.replicate 14 0, (exDecoder true).bounds.map Prod.fst), s + 1)),
      .crossover (fun s => (true, s)) (.uniform fun s k => (.ok (List.replicate k (s % 2 == 0)), s)),
      .evaluate .identity exSum] : List (Stage Int Int Int Nat)),
    StageOk (exDecoder true).bounds.length (fun i x => ∃ b, (exDecoder true).bounds[i]? = some b ∧ b.1 ≤ x ∧ x ≤ b.2)
      (ScoredBy .identity exSum) st := by
  intro st h
  simp only [List.mem_cons, List.not_mem_nil, or_false] at h
  rcases h with rfl | rfl | rfl
  · refine randint_stage_ok _ _ _ _ _ _ 1 (by decide +kernel) (Or.inl ⟨rfl, rfl⟩) (by norm_num) (by norm_num)
      (fun s => show (List.replicate 14 (0 : ℚ)).length = (exDecoder true).bounds.length by decide +kernel) (fun s => ?_) _
    have : ValidRandints ((((exDecoder true).bounds.zip (List.replicate 14 (0 : ℚ))).filter (fun q => decide (q.2 < 1))).map Prod.fst)
      ((exDecoder true).bounds.map Prod.fst) := by unfold ValidRandints; decide +kernel
    exact this
  · exact uniform_crossover_stage_ok _ _
  · exact evaluate_stage_ok _ _

end Leap
