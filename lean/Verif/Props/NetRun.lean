import Verif.Model.NetRun
import Verif.Props.EvoTotal
import Verif.Props.NeuralNet
import Verif.Props.Segmented

/-! # Evolving the weights of network controllers (C120) -/

namespace Leap

variable {R ρ : Type}

namespace Spec

/-- The environment: observations have `k` numbers; resetting and rendering do not raise, nor does stepping with one of the `n`
actions. With anything else it may raise. -/
def AcceptsActions (k n : Nat) (env : GymEnv ρ (List R) Nat) : Prop :=
  (∀ w, ∃ w' o, env.reset w = .ok (w', o) ∧ o.length = k) ∧ (∀ w, ∃ w', env.render w = .ok w') ∧
  ∀ w a, a < n → ∃ w' o x t u, env.step w a = .ok (w', o, x, t, u) ∧ o.length = k

/-- What a network with these weights does: it takes the first of the outputs that are greatest. -/
def TakesGreatest [Semiring R] [LinearOrder R] (activation : List R → List R) (ws : List (WeightMatrix R)) (o : List R) (a : Nat) : Prop :=
  ∃ b, (forward activation ws o)[a]? = some b ∧ ∀ (j : Nat) y, (forward activation ws o)[j]? = some y → y ≤ b ∧ (j < a → y < b)

end Spec

open Spec

/-- C120: every genome of the length the decoder asks for becomes a controller that answers each observation of the right size with the number
of its greatest output. -/
theorem net_controls [Semiring R] [LinearOrder R] (toR : ℚ → R) (activation : List R → List R) (hact : ∀ v, (activation v).length = v.length)
    (a b : Nat) (shape mid : List Nat) (d : NNDecoder) (hd : nnDecoder shape = .ok d) (hs : shape.filter (· ≠ 0) = a :: (mid ++ [b]))
    (genome : List ℚ) (hg : genome.length = d.length) :
    ∃ controller ws, netDecode d toR activation (fun x y => decide (x < y)) genome = .ok controller ∧ allWeights ws = genome.map toR ∧
      ∀ o, o.length = a → ∃ k, controller o = .ok k ∧ k < b ∧ TakesGreatest activation ws o k := by
  obtain ⟨ws, hw, -, -, -, hall⟩ := (nn_decode shape d hd (genome.map toR)).2 (by simpa using hg)
  refine ⟨_, ws, (wrapper_decoder_spec _ _ _ _).2 ⟨ws, hw, rfl⟩, hall, fun o ho => ?_⟩
  obtain ⟨h1, h2⟩ := (nn_decoded_call activation hact a b shape mid d hd hs _ ws hw o).1 ho
  have hb : 0 < b := by
    have : b ∈ shape.filter (· ≠ 0) := by rw [hs]; simp
    have := (List.mem_filter.1 this).2
    simp at this
    omega
  obtain ⟨k, v, h3, h4, h5⟩ := (argmax_spec (nnCall activation ws) o).2.2 _ h1 (by
    intro h
    rw [h] at h2
    simp at h2
    omega)
  exact ⟨k, h3, by rw [← h2]; exact (List.getElem?_eq_some_iff.1 h4).1, v, h4, h5⟩

/-- If resetting gives good observations, good observations give legal actions and legal actions give good observations, an evaluation
does not raise. -/
theorem envEvaluate_total {W O A : Type} (c : EnvCalls W O A) (good : O → Prop) (legal : A → Prop)
    (hreset : ∀ w, ∃ w' o, c.reset w = .ok (w', o) ∧ good o) (hrender : ∀ w, ∃ w', c.render w = .ok w')
    (hact : ∀ w o, good o → ∃ w' x, c.act w o = .ok (w', x) ∧ legal x)
    (hstep : ∀ w x, legal x → ∃ w' o r t u, c.step w x = .ok (w', o, r, t, u) ∧ good o) (p : EnvProblem) (w : W) :
    ∃ out, envEvaluate c p w = .ok out := by
  have hsteps : ∀ (t : Nat) w o, good o → ∃ out, envSteps c p.gui p.stopOnDone t w o = .ok out := by
    intro t
    induction t with
    | zero => exact fun w o _ => ⟨_, rfl⟩
    | succ t ih =>
      intro w o ho
      have hr : ∃ w1, envRender c p.gui w = .ok w1 := by
        unfold envRender
        split
        · exact hrender w
        · exact ⟨w, rfl⟩
      obtain ⟨w1, h1⟩ := hr
      obtain ⟨w2, x, h2, h3⟩ := hact w1 o ho
      obtain ⟨w3, o3, r, tm, tr, h4, h5⟩ := hstep w2 x h3
      simp only [envSteps, h1, bind, Except.bind, h2, h4]
      split
      · exact ⟨_, rfl⟩
      · obtain ⟨out, hout⟩ := ih w3 o3 h5
        rw [hout]
        exact ⟨_, rfl⟩
  have hruns : ∀ (r : Nat) w, ∃ out, envRuns c p r w = .ok out := by
    intro r
    induction r with
    | zero => exact fun w => ⟨_, rfl⟩
    | succ r ih =>
      intro w
      obtain ⟨w1, o, h1, h2⟩ := hreset w
      obtain ⟨out, h3⟩ := hsteps p.steps w1 o h2
      obtain ⟨out2, h4⟩ := ih out.1
      simp only [envRuns, bind, Except.bind, h1, h3, h4]
      exact ⟨_, rfl⟩
  obtain ⟨out, h⟩ := hruns p.runs w
  simp only [envEvaluate, bind, Except.bind, h]
  exact ⟨_, rfl⟩

theorem netProblem_scores [Semiring R] [LinearOrder R] (toR : ℚ → R) (activation : List R → List R)
    (hact : ∀ v, (activation v).length = v.length) (a b : Nat) (shape mid : List Nat) (d : NNDecoder) (hd : nnDecoder shape = .ok d)
    (hs : shape.filter (· ≠ 0) = a :: (mid ++ [b])) (env : GymEnv ρ (List R) Nat) (henv : AcceptsActions a b env) (p : EnvProblem)
    (genome : List ℚ) (hg : genome.length = d.length) :
    ∃ c, decodeOf (.fn (netDecode d toR activation fun x y => decide (x < y))) genome = .ok c ∧
      ∀ s, ∃ f, ((netProblem env p).evaluate c s).1 = .ok f := by
  obtain ⟨controller, ws, h1, -, h2⟩ := net_controls toR activation hact a b shape mid d hd hs genome hg
  refine ⟨.value controller, by simp [decodeOf, h1], fun s => ?_⟩
  obtain ⟨out, h3⟩ := envEvaluate_total (netCalls env controller) (fun o => o.length = a) (· < b) henv.1 henv.2.1
    (fun w o ho => by
      obtain ⟨k, hk, hkb, -⟩ := h2 o ho
      exact ⟨w, k, by simp only [netCalls, hk], hkb⟩) henv.2.2 p s
  exact ⟨out.2, by simp only [netProblem, h3]⟩

/-- The bounds of the genes, as the run theorems of C86 and C87 put them. -/
def netGene (lo hi : ℚ) (i : Nat) (x : ℚ) : Prop := ∃ b, boundAt (.all (some lo, some hi) : HardBounds ℚ) i = some b ∧ Within b x

theorem netGene_iff (lo hi : ℚ) (i : Nat) (x : ℚ) : netGene lo hi i x ↔ lo ≤ x ∧ x ≤ hi := by
  simp [netGene, boundAt, Within]

theorem netInit_ok (lo hi : ℚ) (hlh : lo ≤ hi) (n : Nat) (u : List ℚ) (hl : u.length = n) (hu : ∀ x ∈ u, 0 ≤ x ∧ x < 1) :
    GenesIn n (netGene lo hi) (createRealVector (List.replicate n (lo, hi)) u) := by
  have h := create_real_vector_in_bounds (List.replicate n (lo, hi)) u (by simpa using hl) hu (by
    intro b hb
    rw [List.eq_of_mem_replicate hb]
    exact hlh)
  have hlen : (createRealVector (List.replicate n (lo, hi)) u).length = n := by simpa using h.length_eq.symm
  refine ⟨hlen, fun i x hx => ?_⟩
  obtain ⟨hi', rfl⟩ := List.getElem?_eq_some_iff.1 hx
  have := h.get (i := i) (by simp; omega) hi'
  simp only [List.get_eq_getElem, List.getElem_replicate] at this
  rw [netGene_iff]
  refine ⟨this.1, ?_⟩
  rcases lt_or_eq_of_le hlh with hlt | heq
  · exact (this.2.1 hlt).le
  · rw [this.2.2 heq]
    exact hlh

theorem netStages_ok [Semiring R] [LinearOrder R] (n : Nat) (lo hi : ℚ) (hlh : lo ≤ hi) (dec : Dec ℚ (List R → PyM Nat))
    (prob : Prob ℚ (List R → PyM Nat) ℚ ρ) (std : ScalarOrList ℚ) (expected : GaussRate) (normal : ρ → (List ℚ × List ℚ) × ρ) :
    ∀ st ∈ ([.mutate (.ok ()) false (gaussianFn std expected (.all (some lo, some hi)) 1 0 normal), .evaluate dec prob] :
      List (Stage ℚ (List R → PyM Nat) ℚ ρ)), StageOk n (netGene lo hi) (ScoredBy dec prob) st := by
  intro st hst
  simp only [List.mem_cons, List.not_mem_nil, or_false] at hst
  rcases hst with rfl | rfl
  · exact gaussian_stage_ok _ _ std expected (.all (some lo, some hi)) _ _ normal n trivial (fun i b hb => by
      simp only [boundAt, Option.some.injEq] at hb
      subst hb
      intro x y hx hy
      simp only [Option.some.injEq] at hx hy
      rw [← hx, ← hy]
      exact hlh) _
  · exact evaluate_stage_ok _ _

/-- C120: evolving the weights of a network controller. The genes lie within the bounds given, whatever the standard deviation, rate and random
numbers; the run changes nothing that was in memory before; everybody it returns decodes to a network with exactly the genes as
weights, which answers each observation with the number of its greatest output, and has as fitness what this network got in the environment. -/
theorem net_run_members [Semiring R] [LinearOrder R] (toR : ℚ → R) (activation : List R → List R)
    (hact : ∀ v, (activation v).length = v.length) (a b : Nat) (shape mid : List Nat) (d : NNDecoder) (hd : nnDecoder shape = .ok d)
    (hs : shape.filter (· ≠ 0) = a :: (mid ++ [b])) (env : GymEnv ρ (List R) Nat) (p : EnvProblem) (lo hi : ℚ) (hlh : lo ≤ hi)
    (uniform : ρ → List ℚ × ρ) (huni : ∀ s, (uniform s).1.length = d.length ∧ ∀ x ∈ (uniform s).1, 0 ≤ x ∧ x < 1) (std : ScalarOrList ℚ)
    (expected : GaussRate) (normal : ρ → (List ℚ × List ℚ) × ρ) (worse : Option ℚ → Option ℚ → Bool)
    (choose : Int → List Nat → Mem ℚ (List R → PyM Nat) ℚ ρ → PyM Nat × ρ) (stop : Int → List Nat → Mem ℚ (List R → PyM Nat) ℚ ρ → Bool)
    (popSize kElites problem : Nat) (generations : Int) (m m' : Mem ℚ (List R → PyM Nat) ℚ ρ) (hm : Sound m) (out : List Nat)
    (h : netRun d toR activation (fun x y => decide (x < y)) env p lo hi uniform std expected normal worse choose stop popSize kElites problem
      generations m = (.ok out, m')) :
    Unchanged m m' ∧ out.Nodup ∧ out.length = popSize ∧ ∀ r ∈ out, m.inds.length ≤ r ∧
      ∃ g f controller ws s s', genes m' r = some g ∧ g.length = d.length ∧ (∀ x ∈ g, lo ≤ x ∧ x ≤ hi) ∧ fitness m' r = some (some f) ∧
        netDecode d toR activation (fun x y => decide (x < y)) g = .ok controller ∧ allWeights ws = g.map toR ∧
        (∀ o, o.length = a → ∃ k, controller o = .ok k ∧ k < b ∧ TakesGreatest activation ws o k) ∧
        envEvaluate (netCalls env controller) p s = .ok (s', f) := by
  obtain ⟨h1, h2, h3, h4, -⟩ := evo_run_members _ _ (.fn (netDecode d toR activation fun x y => decide (x < y))) (netProblem env p)
    (n := d.length) (allowed := netGene lo hi)
    (fun s g s' h => by
      simp only [Prod.mk.injEq, Except.ok.injEq] at h
      rw [← h.1]
      exact netInit_ok lo hi hlh _ _ (huni s).1 (huni s).2)
    (netStages_ok d.length lo hi hlh _ _ std expected normal) rfl problem popSize 0 generations m m' hm out h
  refine ⟨h1, h2, by rcases h3 with h | h <;> exact h, fun r hr => ?_⟩
  obtain ⟨h5, g, f, hg, hG, hf, c, s, hc, hv⟩ := h4 r hr
  obtain ⟨controller, ws, e1, e2, e3⟩ := net_controls toR activation hact a b shape mid d hd hs g hG.1
  simp only [decodeOf, e1, Except.ok.injEq] at hc
  subst hc
  simp only [netProblem] at hv
  cases e4 : envEvaluate (netCalls env controller) p s with
  | error e => rw [e4] at hv; simp at hv
  | ok v =>
    rw [e4] at hv
    simp only [Except.ok.injEq] at hv
    refine ⟨h5, g, f, controller, ws, s, v.1, hg, hG.1, fun x hx => ?_, hf, e1, e2, e3, by rw [e4, ← hv]⟩
    obtain ⟨i, hxi⟩ := List.mem_iff_getElem?.1 hx
    exact (netGene_iff lo hi i x).1 (hG.2 i x hxi)

/-- C120: the run completes: no network that arises gives the environment anything but one of its actions, and none is given an observation
it cannot take. -/
theorem net_run_completes [Semiring R] [LinearOrder R] (toR : ℚ → R) (activation : List R → List R)
    (hact : ∀ v, (activation v).length = v.length) (a b : Nat) (shape mid : List Nat) (d : NNDecoder) (hd : nnDecoder shape = .ok d)
    (hs : shape.filter (· ≠ 0) = a :: (mid ++ [b])) (env : GymEnv ρ (List R) Nat) (henv : AcceptsActions a b env) (p : EnvProblem) (lo hi : ℚ)
    (hlh : lo ≤ hi) (uniform : ρ → List ℚ × ρ) (huni : ∀ s, (uniform s).1.length = d.length ∧ ∀ x ∈ (uniform s).1, 0 ≤ x ∧ x < 1)
    (std : ScalarOrList ℚ) (hstd : PerGene std d.length) (hnn : ∀ s, std = .scalar s → 0 ≤ s) (expected : GaussRate) (q : ℚ)
    (hr : GaussRateGives expected d.length q) (h0 : 0 ≤ q) (h1 : q ≤ 1) (normal : ρ → (List ℚ × List ℚ) × ρ)
    (hnorm : ∀ s, (normal s).1.1.length = d.length ∧ (normal s).1.2.length = (normal s).1.1.countP fun x => decide (x < q))
    (worse : Option ℚ → Option ℚ → Bool) (choose : Int → List Nat → Mem ℚ (List R → PyM Nat) ℚ ρ → PyM Nat × ρ)
    (hsel : ∀ g pop m, pop ≠ [] → (∀ r ∈ pop, ∃ f, fitness m r = some (some f)) → ∃ i, (choose g pop m).1 = .ok i ∧ i < pop.length)
    (stop : Int → List Nat → Mem ℚ (List R → PyM Nat) ℚ ρ → Bool) (popSize : Nat) (hpos : 0 < popSize) (kElites problem : Nat)
    (generations : Int) (m : Mem ℚ (List R → PyM Nat) ℚ ρ) (hm : Sound m) :
    ∃ out m', netRun d toR activation (fun x y => decide (x < y)) env p lo hi uniform std expected normal worse choose stop popSize kElites
      problem generations m = (.ok out, m') := by
  have hscore := fun g (hg : GenesIn d.length (netGene lo hi) g) =>
    netProblem_scores toR activation hact a b shape mid d hd hs env henv p g hg.1
  refine evo_run_returns ⟨worse, choose, _, popSize, kElites, stop⟩ _ (.fn (netDecode d toR activation fun x y => decide (x < y))) (netProblem env p)
    (n := d.length) (allowed := netGene lo hi) (fun s => ⟨_, rfl, netInit_ok lo hi hlh _ _ (huni s).1 (huni s).2⟩)
    (netStages_ok d.length lo hi hlh _ _ std expected normal) (fun st hst => ?_) rfl hscore (fun g pop m' hne hmem => ?_) hpos problem popSize hpos
    0 generations m hm
  · simp only [List.mem_cons, List.not_mem_nil, or_false] at hst
    rcases hst with rfl | rfl
    · exact gaussian_stage_live false std expected (.all (some lo, some hi)) 1 0 normal q hr h0 h1 (fun s => (hnorm s).1) (fun s => (hnorm s).2) hstd hnn trivial _
    · exact hscore
  · exact hsel g pop m' hne fun r hr => by
      obtain ⟨g, f, -, -, hf, -⟩ := hmem r hr
      exact ⟨f, hf⟩

/-! ### Example: two inputs, a hidden layer of three, two actions -/

/-- An environment that raises on everything but the actions 0 and 1. -/
def exNetGym : GymEnv Nat (List ℚ) Nat where
  reset := fun w => .ok (w + 1, [0, 1])
  render := fun w => .ok w
  step := fun w a => if a < 2 then .ok (w + 1, [(w % 3 : Nat) - 1, (w % 7 : Nat)], a, false, false) else .error .assertionError

def exRelu (v : List ℚ) : List ℚ := v.map (max 0)

/-- The hypotheses of both theorems hold of this environment, a network with rectified linear units, a population of four, cyclic selection,
one elite, five generations. -/
example : ∃ out m', netRun ⟨[(3, 3), (4, 2)], 17⟩ id exRelu (fun x y => decide (x < y)) exNetGym ⟨2, 10, .reward, true, true⟩ (-1) 1
      (fun s => (List.replicate 17 ((s % 4 : Nat) / 4), s + 1)) (.scalar (1 / 20)) (.num 1) (fun s => ((0 :: List.replicate 16 (3 / 4), [1 / 2]), s + 1))
      (fun a b => decide (a.getD 0 < b.getD 0)) (fun _ pop m => (.ok (m.rng % pop.length), m.rng + 1)) (fun _ _ _ => false) 4 1 0 5
      ⟨[], [], [], 0, 0⟩ = (.ok out, m') ∧ out.length = 4 := by
  have hd : nnDecoder [2, 3, 2] = .ok ⟨[(3, 3), (4, 2)], 17⟩ := by decide +kernel
  have huni : ∀ s : Nat, (List.replicate 17 (((s % 4 : Nat) : ℚ) / 4)).length = 17 ∧ ∀ x ∈ List.replicate 17 (((s % 4 : Nat) : ℚ) / 4), 0 ≤ x ∧ x < 1 := by
    intro s
    refine ⟨by simp, fun x hx => ?_⟩
    rw [List.eq_of_mem_replicate hx]
    have : s % 4 < 4 := Nat.mod_lt _ (by decide)
    refine ⟨by positivity, ?_⟩
    rw [div_lt_one (by norm_num)]
    exact_mod_cast this
  obtain ⟨out, m', h⟩ := net_run_completes id exRelu (fun v => by simp [exRelu]) 2 2 [2, 3, 2] [3] _ hd (by decide) exNetGym
    ⟨fun w => ⟨_, _, rfl, rfl⟩, fun w => ⟨_, rfl⟩, fun w a ha => by
      simp only [exNetGym, if_pos ha]
      exact ⟨_, _, _, _, _, rfl, rfl⟩⟩
    ⟨2, 10, .reward, true, true⟩ (-1) 1 (by norm_num) (fun s => (List.replicate 17 ((s % 4 : Nat) / 4), s + 1)) huni (.scalar (1 / 20)) trivial
    (fun s h => by simp only [ScalarOrList.scalar.injEq] at h; subst h; norm_num) (.num 1) (1 / 17) ⟨by decide, by norm_num⟩ (by norm_num)
    (by norm_num) (fun s => ((0 :: List.replicate 16 (3 / 4), [1 / 2]), s + 1)) (fun s => ⟨by simp, by norm_num [List.countP_cons, List.countP_replicate]⟩)
    (fun a b => decide (a.getD 0 < b.getD 0)) (fun _ pop m => (.ok (m.rng % pop.length), m.rng + 1))
    (fun g pop m hne _ => ⟨_, rfl, Nat.mod_lt _ (List.length_pos_iff.2 hne)⟩) (fun _ _ _ => false) 4 (by decide) 1 0 5 ⟨[], [], [], 0, 0⟩
    ⟨by simp, by simp, by simp⟩
  exact ⟨out, m', h, (net_run_members id exRelu (fun v => by simp [exRelu]) 2 2 [2, 3, 2] [3] _ hd (by decide) exNetGym _ (-1) 1 (by norm_num) _
    huni _ _ _ _ _ _ 4 1 0 5 _ _ ⟨by simp, by simp, by simp⟩ out h).2.2.1⟩

end Leap
