import Verif.Model.PittRun
import Verif.Props.SegLive
import Verif.Props.Rules
import Verif.Props.Branches

/-! # Learning rule systems in an environment (C119) -/

namespace Leap

variable {ρ : Type}

namespace Spec

/-- Condition genes: two for each input, both within the range of that input. -/
def InRanges (lo hi : List ℚ) (g : List ℚ) : Prop :=
  g.length = 2 * lo.length ∧ ∀ (j : Nat) (x : ℚ), g[j]? = some x → ∃ a b, lo[j / 2]? = some a ∧ hi[j / 2]? = some b ∧ a ≤ x ∧ x ≤ b

/-- Action genes: the number of one of the `n` actions. -/
def IsAction (n : Nat) (g : List ℚ) : Prop := ∃ a : Int, g = [(a : ℚ)] ∧ 0 ≤ a ∧ a < n

/-- A segment for a rule: condition genes, then action genes. -/
def LegalRule (lo hi : List ℚ) (n : Nat) (segment : List ℚ) : Prop := ∃ c a, segment = c ++ a ∧ InRanges lo hi c ∧ IsAction n a

/-- What a mutation function returns for a good array, if it returns, is good. -/
def KeepsArray (P : List ℚ → Prop) (f : MutFn ℚ ρ) : Prop :=
  ∀ g s new, P g → (f g s).result = .ok new → P (new.getD (f g s).left)

/-- A mutation function does not raise on good arrays. -/
def WorksOn (P : List ℚ → Prop) (f : MutFn ℚ ρ) : Prop := ∀ g s, P g → ∃ new, (f g s).result = .ok new

/-- Samples of the input space are in the box, samples of the output space are actions. -/
def Samples (lo hi : List ℚ) (n : Nat) (sampleIn : ρ → List ℚ × ρ) (sampleOut : ρ → Int × ρ) : Prop :=
  (∀ s, (sampleIn s).1.length = lo.length ∧
    ∀ (i : Nat) (x : ℚ), (sampleIn s).1[i]? = some x → ∃ a b, lo[i]? = some a ∧ hi[i]? = some b ∧ a ≤ x ∧ x ≤ b) ∧
  ∀ s, 0 ≤ (sampleOut s).1 ∧ (sampleOut s).1 < n

/-- The environment: observations have at most `k` numbers; resetting and rendering do not raise, nor does stepping with one of the `n`
actions. With anything else it may raise. -/
def Accepts (k n : Nat) (env : GymEnv ρ (List ℚ) PittOutput) : Prop :=
  (∀ w, ∃ w' o, env.reset w = .ok (w', o) ∧ o.length ≤ k) ∧ (∀ w, ∃ w', env.render w = .ok w') ∧
  ∀ w (a : Int), 0 ≤ a → a < n → ∃ w' o x t u, env.step w (.one a) = .ok (w', o, x, t, u) ∧ o.length ≤ k

/-- A controller answers each observation of at most `k` numbers with one of the `n` actions, whatever is drawn. -/
def Controls (k n : Nat) (e : PittExec) : Prop :=
  ∀ choose o, Chooses choose → o.length ≤ k → ∃ a : Int, e.call choose o = .ok (.one a) ∧ 0 ≤ a ∧ a < n

end Spec

open Spec

/-! ### Rules -/

theorem legal_length {lo hi : List ℚ} {n : Nat} {g : List ℚ} (h : LegalRule lo hi n g) : g.length = 2 * lo.length + 1 := by
  obtain ⟨c, a, rfl, hc, x, rfl, -⟩ := h
  simp [hc.1]

theorem legal_split {d : PittDims} {lo hi : List ℚ} {n : Nat} (hm : d.numMemory = 0) (ho : d.numOutputs = 1) (hk : d.numInputs = lo.length)
    {g : List ℚ} (h : LegalRule lo hi n g) :
    g.length = d.genesPerRule ∧ ∃ c a, splitRule d g = .ok (c, a, []) ∧ InRanges lo hi c ∧ IsAction n a := by
  have hl := legal_length h
  refine ⟨by rw [PittDims.genesPerRule]; omega, ?_⟩
  obtain ⟨c, a, rfl, hc, ha⟩ := h
  have hcl : c.length = d.numInputs * 2 := by rw [hc.1]; omega
  refine ⟨c, a, ?_, hc, ha⟩
  rw [splitRule_ok d hm (by omega) _ (by omega), ← hcl, List.take_left, List.drop_left]

/-- C119: the rule mutator turns legal rules into legal rules, in arrays of their own, when the two mutation functions keep condition genes
in the box and action genes actions. -/
theorem rule_mutator_legal {d : PittDims} {lo hi : List ℚ} {n : Nat} (hm : d.numMemory = 0) (ho : d.numOutputs = 1)
    (hk : d.numInputs = lo.length) {cm am : MutFn ℚ ρ} (hcm : KeepsArray (InRanges lo hi) cm) (ham : KeepsArray (IsAction n) am) (g : List ℚ)
    (s : ρ) (hg : LegalRule lo hi n g) :
    (ruleFn d cm am g s).result ≠ .ok none ∧ (∀ g', (ruleFn d cm am g s).result = .ok (some g') → LegalRule lo hi n g') ∧
    (WorksOn (InRanges lo hi) cm → WorksOn (IsAction n) am → ∃ new, (ruleFn d cm am g s).result = .ok new) := by
  obtain ⟨hl, c, a, e, hc, ha⟩ := legal_split hm ho hk hg
  unfold ruleFn
  rw [if_pos hl, e]
  simp only
  cases e1 : (cm c s).result with
  | error err =>
    refine ⟨by simp, by simp, fun h _ => ?_⟩
    obtain ⟨new, h⟩ := h c s hc
    rw [e1] at h
    cases h
  | ok c' =>
    simp only
    cases e2 : (am a (cm c s).rng).result with
    | error err =>
      refine ⟨by simp, by simp, fun _ h => ?_⟩
      obtain ⟨new, h⟩ := h a (cm c s).rng ha
      rw [e2] at h
      cases h
    | ok a' =>
      refine ⟨by simp, fun g' h => ?_, fun _ _ => ⟨_, rfl⟩⟩
      simp only [Except.ok.injEq, Option.some.injEq] at h
      exact ⟨_, _, h.symm, hcm c s c' hc e1, ham a _ a' ha e2⟩

theorem rule_keepsGood {d : PittDims} {lo hi : List ℚ} {n : Nat} (hm : d.numMemory = 0) (ho : d.numOutputs = 1) (hk : d.numInputs = lo.length)
    {cm am : MutFn ℚ ρ} (hcm : KeepsArray (InRanges lo hi) cm) (ham : KeepsArray (IsAction n) am) :
    KeepsGood (LegalRule lo hi n) false (ruleFn d cm am) := by
  intro g s hg
  obtain ⟨h1, h2, -⟩ := rule_mutator_legal hm ho hk hcm ham g s hg
  exact ⟨fun h => absurd h h1, h2, by simp⟩

theorem flatPairs_get (low high : List ℚ) (j : Nat) (x : ℚ) (h : (flatPairs low high)[j]? = some x) :
    low[j / 2]? = some x ∨ high[j / 2]? = some x := by
  induction low generalizing high j with
  | nil => simp [flatPairs] at h
  | cons a low ih =>
    cases high with
    | nil => simp [flatPairs] at h
    | cons b high =>
      match j with
      | 0 => left; simpa [flatPairs] using h
      | 1 => right; simpa [flatPairs] using h
      | j + 2 =>
        have := ih high j (by simpa [flatPairs] using h)
        simpa [Nat.add_div_right] using this

theorem flatPairs_length (low high : List ℚ) (h : low.length = high.length) : (flatPairs low high).length = 2 * low.length := by
  induction low generalizing high with
  | nil => simp [flatPairs]
  | cons a low ih =>
    cases high with
    | nil => simp at h
    | cons b high =>
      have := ih high (by simpa using h)
      simp only [flatPairs, List.zip_cons_cons, List.flatMap_cons, List.length_append, List.length_cons, List.length_nil] at this ⊢
      omega

/-- C119: the initialiser makes legal rules and does not raise. -/
theorem rule_init_legal {d : PittDims} {lo hi : List ℚ} {n : Nat} (hm : d.numMemory = 0) (ho : d.numOutputs = 1) (hk : d.numInputs = lo.length)
    {sampleIn : ρ → List ℚ × ρ} {sampleOut : ρ → Int × ρ} (hs : Samples lo hi n sampleIn sampleOut) (s : ρ) :
    ∃ g, (initRule d sampleIn sampleOut s).1 = .ok g ∧ LegalRule lo hi n g := by
  obtain ⟨h1, h2⟩ := hs.1 s
  obtain ⟨h3, h4⟩ := hs.1 (sampleIn s).2
  have hl := flatPairs_length (sampleIn s).1 (sampleIn (sampleIn s).2).1 (by omega)
  have hbox : InRanges lo hi (flatPairs (sampleIn s).1 (sampleIn (sampleIn s).2).1) := by
    refine ⟨by omega, fun j x hx => ?_⟩
    rcases flatPairs_get _ _ j x hx with h | h
    · exact h2 _ x h
    · exact h4 _ x h
  refine ⟨_, ?_, _, _, rfl, hbox, _, rfl, hs.2 (sampleIn (sampleIn s).2).2⟩
  unfold initRule createRule
  simp only [hm, gt_iff_lt, lt_irrefl, if_false]
  rw [if_pos (by rw [PittDims.genesPerRule]; simp only [List.length_append, List.length_cons, List.length_nil]; omega)]

/-! ### Controllers -/

/-- C119: every genome of legal rules can be decoded, and the rule system answers every observation of the size of the input space with one
of the actions. -/
theorem legal_rules_control {d : PittDims} {lo hi : List ℚ} {n : Nat} (hm : d.numMemory = 0) (ho : d.numOutputs = 1)
    (hk : d.numInputs = lo.length) {metric : PriorityMetric} (hmet : metric = .none ∨ metric = .ruleOrder) {gs : List (List ℚ)} (hne : gs ≠ [])
    (hg : ∀ g ∈ gs, LegalRule lo hi n g) : ∃ e, pittDecode d metric gs = .ok e ∧ Controls d.numInputs n e := by
  have hlen : ∀ s ∈ gs, s.length = d.numInputs * 2 + d.numOutputs := fun s hs => by rw [legal_length (hg s hs)]; omega
  obtain ⟨rules, hr, hrl, hrs⟩ := (pitt_genome_to_rules d hm (by omega) gs).1 ⟨hne, hlen⟩
  obtain ⟨p1, p2⟩ := pitt_decode d gs rules hr
  have hrne : rules ≠ [] := by
    rintro rfl
    exact hne (List.length_eq_zero_iff.1 (by simpa using hrl.symm))
  have hex := pittExec_ok d.numOutputs rules hrne []
  refine ⟨_, by rcases hmet with rfl | rfl; exacts [p1.trans hex, p2.trans hex], fun choose o hch hol => ?_⟩
  have hact : ∀ (r : Nat) (rule : PittRule), rules[r]? = some rule → o.length ≤ rule.conditions.length ∧ rule.actions.length = d.numOutputs ∧
      ∃ a : Int, rule.actions = [(a : ℚ)] ∧ 0 ≤ a ∧ a < n := by
    intro r rule hrule
    have hrlt : r < gs.length := by rw [← hrl]; exact (List.getElem?_eq_some_iff.1 hrule).1
    have hseg := List.getElem?_eq_getElem hrlt
    obtain ⟨q1, -, q3, q4⟩ := hrs r gs[r] rule hseg hrule
    refine ⟨by omega, q3, ?_⟩
    obtain ⟨c, a, e, hc, x, rfl, hx⟩ := hg gs[r] (List.getElem_mem hrlt)
    refine ⟨x, ?_, hx⟩
    have h0 := q4 0 (by omega)
    rw [e, Nat.add_zero, List.getElem?_append_right (by rw [hc.1]; omega)] at h0
    rw [show d.numInputs * 2 - c.length = 0 by rw [hc.1]; omega] at h0
    rw [ho] at q3
    obtain ⟨y, hy⟩ := List.length_eq_one_iff.1 q3
    rw [hy] at h0 ⊢
    simpa using h0
  have hrun : Runnable d.numOutputs rules o := by
    intro rule hrule
    obtain ⟨r, hr⟩ := List.getElem?_of_mem hrule
    exact ⟨(hact r rule hr).1, (hact r rule hr).2.1⟩
  have hfin : ∀ r out, Answers rules r out → ∃ a : Int, out = .one a ∧ 0 ≤ a ∧ a < n := by
    rintro r out ⟨rule, hrule, h⟩
    obtain ⟨-, h2, a, h3, h4⟩ := hact r rule hrule
    cases out with
    | one b =>
      obtain ⟨q, hq, hb⟩ := h
      rw [h3] at hq
      simp only [List.cons.injEq, and_true] at hq
      subst hq
      have hself : IsRounded (a : ℚ) a := by simp [IsRounded]
      refine ⟨b, rfl, ?_⟩
      rw [rounded_unique _ b a hb hself]
      exact h4
    | many as =>
      have := h.2.length_eq
      rw [h2, ho] at this
      omega
  by_cases hm1 : ∃ (r : Nat) (rule : PittRule), rules[r]? = some rule ∧ ExactMatch rule o
  · classical
    have hf := Nat.find_spec hm1
    have hmin := fun r' (h : r' < Nat.find hm1) => Nat.find_min hm1 h
    obtain ⟨rule, h1, h2⟩ := hf
    obtain ⟨out, h3, h4⟩ := pitt_exact_match d.numOutputs (by omega) rules _ hex o hrun (Nat.find hm1) rule h1 h2
      (fun r' h rule' h5 h6 => hmin r' h ⟨rule', h5, h6⟩)
    obtain ⟨a, rfl, ha⟩ := hfin _ out h3
    exact ⟨a, h4 choose hch, ha⟩
  · have hno : ∀ rule ∈ rules, ¬ ExactMatch rule o := by
      intro rule hrule hx
      obtain ⟨r, hr⟩ := List.getElem?_of_mem hrule
      exact hm1 ⟨r, rule, hr, hx⟩
    obtain ⟨r, rule, out, -, -, h3, h4⟩ := (pitt_nearest d.numOutputs (by omega) rules hrne _ hex o hrun hno).1 choose hch
    obtain ⟨a, rfl, ha⟩ := hfin r out h3
    exact ⟨a, h4, ha⟩

theorem envSteps_live {k n : Nat} {env : GymEnv ρ (List ℚ) PittOutput} (henv : Accepts k n env) {choice : ρ → (List Nat → Nat) × ρ}
    (hch : ∀ w, Chooses (choice w).1) {e : PittExec} (he : Controls k n e) (gui stopOnDone : Bool) (t : Nat) (w : ρ) (o : List ℚ)
    (ho : o.length ≤ k) : ∃ out, envSteps (ruleCalls env choice e) gui stopOnDone t w o = .ok out := by
  induction t generalizing w o with
  | zero => exact ⟨_, rfl⟩
  | succ t ih =>
    have hr : ∃ w1, envRender (ruleCalls env choice e) gui w = .ok w1 := by
      unfold envRender
      cases gui with
      | true => exact henv.2.1 w
      | false => exact ⟨w, rfl⟩
    obtain ⟨w1, h1⟩ := hr
    obtain ⟨a, h2, h3, h4⟩ := he (choice w1).1 o (hch w1) ho
    obtain ⟨w2, o2, x, tm, tr, h5, h6⟩ := henv.2.2 (choice w1).2 a h3 h4
    have hact : (ruleCalls env choice e).act w1 o = .ok ((choice w1).2, .one a) := by simp only [ruleCalls, h2]
    have hstep : (ruleCalls env choice e).step (choice w1).2 (.one a) = .ok (w2, o2, x, tm, tr) := h5
    simp only [envSteps, h1, bind, Except.bind, hact, hstep]
    split
    · exact ⟨_, rfl⟩
    · obtain ⟨out, hout⟩ := ih w2 o2 h6
      rw [hout]
      exact ⟨_, rfl⟩

theorem envEvaluate_live {k n : Nat} {env : GymEnv ρ (List ℚ) PittOutput} (henv : Accepts k n env) {choice : ρ → (List Nat → Nat) × ρ}
    (hch : ∀ w, Chooses (choice w).1) {e : PittExec} (he : Controls k n e) (p : EnvProblem) (w : ρ) :
    ∃ out, envEvaluate (ruleCalls env choice e) p w = .ok out := by
  have : ∀ (r : Nat) (w : ρ), ∃ out, envRuns (ruleCalls env choice e) p r w = .ok out := by
    intro r
    induction r with
    | zero => exact fun w => ⟨_, rfl⟩
    | succ r ih =>
      intro w
      obtain ⟨w1, o, h1, h2⟩ := henv.1 w
      obtain ⟨out, h3⟩ := envSteps_live henv hch he p.gui p.stopOnDone p.steps w1 o h2
      obtain ⟨out2, h4⟩ := ih out.1
      have hreset : (ruleCalls env choice e).reset w = .ok (w1, o) := h1
      simp only [envRuns, bind, Except.bind, hreset, h3, h4]
      exact ⟨_, rfl⟩
  obtain ⟨out, h⟩ := this p.runs w
  simp only [envEvaluate, bind, Except.bind, h]
  exact ⟨_, rfl⟩

/-! ### Runs -/

/-- C119: whoever a rule-learning run returns has `numRules` rules, all legal, in arrays no two of which are the same; it can be decoded; it answers
every observation with one of the actions; and its fitness is one that evaluating this genome gives. The run changes nothing that was in memory
before, also when it raises. -/
theorem rule_run_legal {d : PittDims} {lo hi : List ℚ} {n : Nat} (hm : d.numMemory = 0) (ho : d.numOutputs = 1) (hk : d.numInputs = lo.length)
    {metric : PriorityMetric} (hmet : metric = .none ∨ metric = .ruleOrder) (env : GymEnv ρ (List ℚ) PittOutput) (p : EnvProblem) (choice : ρ → (List Nat → Nat) × ρ)
    {sampleIn : ρ → List ℚ × ρ} {sampleOut : ρ → Int × ρ} (hs : Samples lo hi n sampleIn sampleOut) {numRules : Nat} (hn : 0 < numRules)
    {cm am : MutFn ℚ ρ} (hcm : KeepsArray (InRanges lo hi) cm) (ham : KeepsArray (IsAction n) am) (worse : Option ℚ → Option ℚ → Bool)
    (choose : Int → List Nat → SegStore ℚ ℚ ρ → PyM Nat × ρ) (stop : Int → List Nat → SegStore ℚ ℚ ρ → Bool) (popSize kElites : Nat)
    (generations : Int) (m : SegStore ℚ ℚ ρ) :
    let out := ruleRun d metric env p choice sampleIn sampleOut numRules cm am worse choose stop popSize kElites generations m
    NothingChanged m out.2 ∧ ∀ rs, out.1 = .ok rs → rs.length = popSize ∧ ∀ r ∈ rs, m.inds.length ≤ r ∧
      ∃ l gs f e s s', arraysOf out.2 r = some l ∧ l.Nodup ∧ segmentsOf out.2 r = some gs ∧ segFitness out.2 r = some f ∧
        gs.length = numRules ∧ (∀ g ∈ gs, LegalRule lo hi n g) ∧ pittDecode d metric gs = .ok e ∧ Controls d.numInputs n e ∧
        envEvaluate (ruleCalls env choice e) p s = .ok (s', f) := by
  intro out
  obtain ⟨h1, h2⟩ := seg_run_counted (LegalRule lo hi n)
    (fun gs f => ∃ e s s', pittDecode d metric gs = .ok e ∧ envEvaluate (ruleCalls env choice e) p s = .ok (s', f)) false
    ⟨worse, choose, [.clone, .each (ruleFn d cm am), .evaluate (ruleScore d metric env p choice)], popSize, kElites, stop⟩
    [.each (ruleFn d cm am)] (fun s => (numRules, s)) (initRule d sampleIn sampleOut) (ruleScore d metric env p choice) rfl (· = numRules)
    (fun st hst => by
      simp only [List.mem_singleton] at hst
      subst hst
      exact ⟨rule_keepsGood hm ho hk hcm ham, trivial⟩)
    (fun gs s x hx => by
      unfold ruleScore at hx
      cases e1 : pittDecode d metric gs with
      | error err => rw [e1] at hx; simp at hx
      | ok e =>
        rw [e1] at hx
        simp only at hx
        cases e2 : envEvaluate (ruleCalls env choice e) p s with
        | error err => rw [e2] at hx; simp at hx
        | ok v =>
          rw [e2] at hx
          simp only [Except.ok.injEq] at hx
          exact ⟨e, s, v.1, rfl, by rw [e2, ← hx]⟩)
    (fun s => ⟨hn, rfl⟩)
    (fun s g h => by
      obtain ⟨g', e, hg⟩ := rule_init_legal hm ho hk hs s
      rw [e] at h
      simp only [Except.ok.injEq] at h
      exact h ▸ hg) popSize 0 generations m
  refine ⟨h1, fun rs hrs => ⟨by rcases (h2 rs hrs).1 with h | h <;> exact h, fun r hr => ?_⟩⟩
  obtain ⟨h3, ⟨l, gs, g1, g2, g3, g4, g5, g6⟩, ⟨gs', c1, c2⟩, h5⟩ := (h2 rs hrs).2 r hr
  rw [g2, Option.some.injEq] at c1
  subst c1
  obtain ⟨f, hf⟩ := Option.isSome_iff_exists.1 h5
  obtain ⟨e, s, s', e1, e2⟩ := g6 f hf
  obtain ⟨e', e3, e4⟩ := legal_rules_control hm ho hk hmet g3 g4
  rw [e1, Except.ok.injEq] at e3
  subst e3
  exact ⟨h3, l, gs, f, e, s, s', g1, g5 rfl, g2, hf, c2, g4, e1, e4, e2⟩

/-- C119: a rule-learning run completes: no rule system that arises gives the environment anything but one of its actions. (The
environment may raise on everything else.) -/
theorem rule_run_completes {d : PittDims} {lo hi : List ℚ} {n : Nat} (hm : d.numMemory = 0) (ho : d.numOutputs = 1)
    (hk : d.numInputs = lo.length) {metric : PriorityMetric} (hmet : metric = .none ∨ metric = .ruleOrder) {env : GymEnv ρ (List ℚ) PittOutput}
    (henv : Accepts d.numInputs n env) (p : EnvProblem) {choice : ρ → (List Nat → Nat) × ρ} (hch : ∀ w, Chooses (choice w).1)
    {sampleIn : ρ → List ℚ × ρ} {sampleOut : ρ → Int × ρ} (hs : Samples lo hi n sampleIn sampleOut) {numRules : Nat} (hn : 0 < numRules)
    {cm am : MutFn ℚ ρ} (hcm : KeepsArray (InRanges lo hi) cm) (ham : KeepsArray (IsAction n) am) (hcw : WorksOn (InRanges lo hi) cm)
    (haw : WorksOn (IsAction n) am) (worse : Option ℚ → Option ℚ → Bool) {choose : Int → List Nat → SegStore ℚ ℚ ρ → PyM Nat × ρ}
    (hsel : ∀ g, Selects (choose g)) (stop : Int → List Nat → SegStore ℚ ℚ ρ → Bool) {popSize : Nat} (hpos : 0 < popSize) (kElites : Nat)
    (generations : Int) (m : SegStore ℚ ℚ ρ) :
    ∃ rs, (ruleRun d metric env p choice sampleIn sampleOut numRules cm am worse choose stop popSize kElites generations m).1 = .ok rs := by
  refine seg_run_completes (LegalRule lo hi n) (fun _ _ => True) (· = numRules)
    ⟨worse, choose, [.clone, .each (ruleFn d cm am), .evaluate (ruleScore d metric env p choice)], popSize, kElites, stop⟩
    [.each (ruleFn d cm am)] (fun s => (numRules, s)) (initRule d sampleIn sampleOut) (ruleScore d metric env p choice) rfl hpos hsel
    (fun st hst => ?_) (fun _ _ _ _ => trivial) ?_ (fun s => ⟨hn, rfl⟩) (fun s g h => ?_) (fun s => ?_) popSize hpos 0 generations m
  · simp only [List.mem_singleton] at hst
    subst hst
    refine ⟨rule_keepsGood hm ho hk hcm ham, trivial, fun gs f s _ hg _ => ?_⟩
    have : ∀ (gs : List (List ℚ)) (s : ρ), (∀ g ∈ gs, LegalRule lo hi n g) →
        ∃ v, (mutateAll (List.replicate gs.length (ruleFn d cm am)) gs s).1 = .ok v := by
      intro gs
      induction gs with
      | nil => exact fun _ _ => ⟨[], rfl⟩
      | cons g gs ih =>
        intro s hg
        obtain ⟨new, h1⟩ := (rule_mutator_legal hm ho hk hcm ham g s (hg g List.mem_cons_self)).2.2 hcw haw
        obtain ⟨v, h2⟩ := ih (ruleFn d cm am g s).rng fun x hx => hg x (List.mem_cons_of_mem _ hx)
        simp only [List.length_cons, List.replicate_succ, mutateAll, h1]
        rw [pair_of_ok h2]
        exact ⟨_, rfl⟩
    obtain ⟨v, hv⟩ := this gs s hg
    simp only [byValue]
    rw [pair_of_ok hv]
    exact ⟨_, rfl⟩
  · intro gs f s hne hg _
    obtain ⟨e, h1, h2⟩ := legal_rules_control hm ho hk hmet hne hg
    obtain ⟨v, h3⟩ := envEvaluate_live henv hch h2 p s
    simp only [byValue, ruleScore, h1, h3]
    exact ⟨_, rfl⟩
  · obtain ⟨g', e, hg⟩ := rule_init_legal hm ho hk hs s
    rw [e] at h
    simp only [Except.ok.injEq] at h
    exact h ▸ hg
  · obtain ⟨g', e, -⟩ := rule_init_legal hm ho hk hs s
    exact ⟨g', e⟩

/-! ### The two mutation functions of the example -/

theorem conditionBounds_get (lo hi : List ℚ) (h : lo.length = hi.length) (j : Nat) :
    ((conditionBounds lo hi)[j]? = none ↔ 2 * lo.length ≤ j) ∧
    ∀ b, (conditionBounds lo hi)[j]? = some b → lo[j / 2]? = some b.1 ∧ hi[j / 2]? = some b.2 := by
  induction lo generalizing hi j with
  | nil => simp [conditionBounds]
  | cons a lo ih =>
    cases hi with
    | nil => simp at h
    | cons b hi =>
      match j with
      | 0 => simp [conditionBounds]
      | 1 => simp [conditionBounds]; omega
      | j + 2 =>
        have h1 := ih hi (by simpa using h) j
        simp only [conditionBounds, List.zip_cons_cons, List.flatMap_cons, List.cons_append, List.nil_append, List.getElem?_cons_succ,
          Nat.add_div_right j (by decide : 0 < 2), Nat.succ_eq_add_one, List.length_cons] at h1 ⊢
        exact ⟨h1.1.trans (by omega), h1.2⟩

theorem conditionBounds_length (lo hi : List ℚ) (h : lo.length = hi.length) : (conditionBounds lo hi).length = 2 * lo.length := by
  have h1 := (conditionBounds_get lo hi h (2 * lo.length)).1.2 (by omega)
  have h2 := fun h3 => (conditionBounds_get lo hi h (2 * lo.length - 1)).1.1 h3
  rw [List.getElem?_eq_none_iff] at h1 h2
  by_contra hne
  have : 2 * lo.length ≤ 2 * lo.length - 1 := h2 (by omega)
  omega

/-- C119: Gaussian mutation with `bounds=decoder.condition_bounds` keeps the condition genes in the box, and does not raise. The random
source gives one number for each gene and one normal deviate for each gene mutated. -/
theorem gaussian_keeps_box {lo hi : List ℚ} (hne : lo ≠ []) (hlen : lo.length = hi.length)
    (hord : ∀ (i : Nat) (a b : ℚ), lo[i]? = some a → hi[i]? = some b → a ≤ b) (std : ScalarOrList ℚ) (hstd : PerGene std (2 * lo.length))
    (hnn : ∀ s, std = .scalar s → 0 ≤ s) (expected : GaussRate) (p : ℚ) (hr : GaussRateGives expected (2 * lo.length) p) (h0 : 0 ≤ p)
    (h1 : p ≤ 1) (slope intercept : ℚ) (rand : ρ → (List ℚ × List ℚ) × ρ)
    (hrand : ∀ s, (rand s).1.1.length = 2 * lo.length ∧ (rand s).1.2.length = (rand s).1.1.countP fun x => decide (x < p)) :
    let f := gaussianFn std expected (.each ((conditionBounds lo hi).map fun b => (some b.1, some b.2))) slope intercept rand
    KeepsArray (InRanges lo hi) f ∧ WorksOn (InRanges lo hi) f := by
  intro f
  have hbl := conditionBounds_length lo hi hlen
  have key : ∀ g s, InRanges lo hi g → ∃ g', (f g s).result = .ok (some g') ∧ InRanges lo hi g' := by
    intro g s hg
    obtain ⟨hu, hz⟩ := hrand s
    obtain ⟨g', e, hl, hv⟩ := gaussian_mutation_bounded std expected (.each ((conditionBounds lo hi).map fun b => (some b.1, some b.2)))
      slope intercept (rand s).1.1 (rand s).1.2 g p (by rw [hg.1]; exact hr) h0 h1 (by rw [hg.1]; exact hu) hz (by rw [hg.1]; exact hstd) hnn
      ⟨by rw [List.length_map, hbl, hg.1], by
        intro h
        have := congrArg List.length h
        rw [List.length_map, hbl] at this
        have := List.length_pos_iff.2 hne
        simp only [List.length_nil] at *
        omega⟩
      (fun i b hb => by
        simp only [boundAt, List.getElem?_map, Option.map_eq_some_iff] at hb
        obtain ⟨b', hb', rfl⟩ := hb
        obtain ⟨q1, q2⟩ := (conditionBounds_get lo hi hlen i).2 b' hb'
        intro x y hx hy
        simp only [Option.some.injEq] at hx hy
        subst hx hy
        exact hord _ _ _ q1 q2)
    refine ⟨g', (gaussian_fn_exact std expected _ slope intercept rand g s _ _ _ rfl).2.1 g' e, by rw [hl, hg.1], fun j x hx => ?_⟩
    have hj : j < g.length := by rw [← hl]; exact (List.getElem?_eq_some_iff.1 hx).1
    have hju : j < (rand s).1.1.length := by rw [hu, ← hg.1]; exact hj
    obtain ⟨b, y, hb, hy, hw, -⟩ := hv j _ _ (List.getElem?_eq_getElem hju) (List.getElem?_eq_getElem hj)
    rw [hx, Option.some.injEq] at hy
    subst hy
    simp only [boundAt, List.getElem?_map, Option.map_eq_some_iff] at hb
    obtain ⟨b', hb', rfl⟩ := hb
    obtain ⟨q1, q2⟩ := (conditionBounds_get lo hi hlen j).2 b' hb'
    exact ⟨_, _, q1, q2, hw.1 _ rfl, hw.2 _ rfl⟩
  refine ⟨fun g s new hg h => ?_, fun g s hg => ?_⟩
  · obtain ⟨g', e, hb⟩ := key g s hg
    rw [e, Except.ok.injEq] at h
    subst h
    exact hb
  · obtain ⟨g', e, -⟩ := key g s hg
    exact ⟨_, e⟩

/-- C119: `individual_mutate_randint` with `bounds=decoder.action_bounds` turns actions into actions, and does not raise. The random
source gives one number for the gene, and a number within the bounds when the gene is mutated. -/
theorem randint_keeps_action {n : Nat} (hn : 0 < n) (expected probability : Option ℚ) (p : ℚ) (hr : RateGives expected probability 1 p)
    (h0 : 0 ≤ p) (h1 : p ≤ 1) (rand : ρ → (List ℚ × List Int) × ρ)
    (hrand : ∀ s, ∃ x draws, (rand s).1 = ([x], draws) ∧ (p ≤ x → draws = []) ∧ (x < p → ∃ a, draws = [a] ∧ ∀ b ∈ actionBounds n, b.1 ≤ a ∧ a ≤ b.2)) :
    let f := randintFloatsFn (actionBounds n) expected probability rand
    KeepsArray (IsAction n) f ∧ WorksOn (IsAction n) f ∧
    ∀ g s x a, IsAction n g → (rand s).1 = ([x], [a]) → (f g s).left = [(a : ℚ)] := by
  intro f
  have key : ∀ g s, IsAction n g → ∃ g', f g s = ⟨g', .ok none, (rand s).2⟩ ∧ IsAction n g' ∧
      ∀ x a, (rand s).1 = ([x], [a]) → g' = [(a : ℚ)] := by
    rintro g s ⟨a, rfl, ha⟩
    obtain ⟨x, draws, e, hd1, hd2⟩ := hrand s
    obtain ⟨m1, m2⟩ := mutationMask_ok (u := [x]) hr h0 h1 rfl
    have hpos : ((0 : Int) < (n : Int) - 1 + 1) := by omega
    rcases lt_or_ge x p with hx | hx
    · obtain ⟨b, rfl, hb0⟩ := hd2 hx
      have hb : 0 ≤ b ∧ b < n := by
        have := hb0 (0, (n : Int) - 1) (by simp [actionBounds])
        exact ⟨this.1, by have := this.2; simp only at this; omega⟩
      refine ⟨[(b : ℚ)], ?_, ⟨b, rfl, hb⟩, fun x' a' h => ?_⟩
      · simp only [f, randintFloatsFn, randintOnFloats, e, m1, m2, List.length_cons, List.length_nil, Nat.zero_add]
        simp [boolIndex, actionBounds, maskSelect, hx, npRandint, boolAssign, maskStore, hn]
      · rw [e] at h
        simp only [Prod.mk.injEq, List.cons.injEq, and_true] at h
        rw [h.2]
    · have hx' : ¬ x < p := not_lt.2 hx
      obtain rfl := hd1 hx
      refine ⟨[(a : ℚ)], ?_, ⟨a, rfl, ha⟩, fun x' a' h => ?_⟩
      · simp only [f, randintFloatsFn, randintOnFloats, e, m1, m2, List.length_cons, List.length_nil, Nat.zero_add]
        simp [boolIndex, actionBounds, maskSelect, hx', npRandint, boolAssign, maskStore]
      · rw [e] at h
        simp at h
  refine ⟨fun g s new hg h => ?_, fun g s hg => ?_, fun g s x a hg h => ?_⟩
  · obtain ⟨g', e, hb, -⟩ := key g s hg
    rw [e] at h ⊢
    simp only [Except.ok.injEq] at h
    subst h
    exact hb
  · obtain ⟨g', e, -⟩ := key g s hg
    exact ⟨_, by rw [e]⟩
  · obtain ⟨g', e, -, hb⟩ := key g s hg
    rw [e]
    exact hb x a h

/-! ### Example: two inputs, two actions -/

def exBoxLo : List ℚ := [-1, 0]
def exBoxHi : List ℚ := [1, 5]
def exRuleDims : PittDims := ⟨2, 1, 0⟩

/-- An environment that raises on everything but the actions 0 and 1. -/
def exGym : GymEnv Nat (List ℚ) PittOutput where
  reset := fun w => .ok (w + 1, [0, 2])
  render := fun w => .ok w
  step := fun w action =>
    match action with
    | .one a => if 0 ≤ a ∧ a < 2 then .ok (w + 1, [(w % 3 : Nat) - 1, (w % 7 : Nat)], a, false, false) else .error .assertionError
    | .many _ => .error .assertionError

def exSampleIn (s : Nat) : List ℚ × Nat := ([if s % 2 = 0 then -1 else 1 / 2, (s % 5 : Nat)], s + 1)
def exSampleOut (s : Nat) : Int × Nat := ((s % 2 : Nat), s + 1)
def exGaussFn : MutFn ℚ Nat :=
  gaussianFn (.scalar 1) (.num 2) (.each ((conditionBounds exBoxLo exBoxHi).map fun b => (some b.1, some b.2))) 1 0
    fun s => (([0, 3 / 4, 0, 3 / 4], [9, -1 / 2]), s + 1)
def exActionFn : MutFn ℚ Nat := randintFloatsFn (actionBounds 2) none (some 1) fun s => (([1 / 2], [((s % 2 : Nat) : Int)]), s + 1)
def exFirst (s : Nat) : (List Nat → Nat) × Nat := (fun l => l.headD 0, s)

theorem exBox_order (i : Nat) (a b : ℚ) (ha : exBoxLo[i]? = some a) (hb : exBoxHi[i]? = some b) : a ≤ b := by
  match i with
  | 0 => simp [exBoxLo, exBoxHi] at ha hb; subst ha hb; norm_num
  | 1 => simp [exBoxLo, exBoxHi] at ha hb; subst ha hb; norm_num
  | i + 2 => simp [exBoxLo] at ha

theorem exSamples : Samples exBoxLo exBoxHi 2 exSampleIn exSampleOut := by
  refine ⟨fun s => ⟨rfl, fun i x hx => ?_⟩, fun s => ?_⟩
  · match i with
    | 0 =>
      refine ⟨-1, 1, rfl, rfl, ?_⟩
      simp only [exSampleIn, List.getElem?_cons_zero, Option.some.injEq] at hx
      subst hx
      split <;> norm_num
    | 1 =>
      refine ⟨0, 5, rfl, rfl, ?_⟩
      simp only [exSampleIn, List.getElem?_cons_succ, List.getElem?_cons_zero, Option.some.injEq] at hx
      subst hx
      exact ⟨by positivity, by exact_mod_cast (Nat.mod_lt s (by decide : 0 < 5)).le⟩
    | i + 2 => simp [exSampleIn] at hx
  · simp only [exSampleOut]
    omega

theorem exGauss_good : KeepsArray (InRanges exBoxLo exBoxHi) exGaussFn ∧ WorksOn (InRanges exBoxLo exBoxHi) exGaussFn := by
  refine gaussian_keeps_box (lo := exBoxLo) (hi := exBoxHi) (by simp [exBoxLo]) rfl exBox_order (.scalar 1) trivial (fun s h => ?_) (.num 2) (1 / 2)
    ⟨by decide, by norm_num [exBoxLo]⟩ (by norm_num) (by norm_num) 1 0 (fun s : Nat => (([0, 3 / 4, 0, 3 / 4], [9, -1 / 2]), s + 1))
    fun s => ⟨rfl, ?_⟩
  · simp only [ScalarOrList.scalar.injEq] at h
    subst h
    norm_num
  · norm_num [List.countP_cons]

theorem exAction_good : KeepsArray (IsAction 2) exActionFn ∧ WorksOn (IsAction 2) exActionFn := by
  have := randint_keeps_action (n := 2) (by decide) none (some 1) 1 (Or.inl ⟨rfl, rfl⟩) (by norm_num) (by norm_num)
    (fun s : Nat => (([1 / 2], [((s % 2 : Nat) : Int)]), s + 1)) fun s =>
      ⟨1 / 2, [((s % 2 : Nat) : Int)], rfl, fun h => by norm_num at h, fun _ => ⟨_, rfl, by simp [actionBounds]; omega⟩⟩
  exact ⟨this.1, this.2.1⟩

theorem exGym_accepts : Accepts 2 2 exGym := by
  refine ⟨fun w => ⟨_, _, rfl, by simp⟩, fun w => ⟨_, rfl⟩, fun w a h0 h1 => ?_⟩
  have : 0 ≤ a ∧ a < 2 := ⟨h0, by exact_mod_cast h1⟩
  simp only [exGym, if_pos this]
  exact ⟨_, _, _, _, _, rfl, by simp⟩

theorem exFirst_chooses (w : Nat) : Chooses (exFirst w).1 := by
  intro l hl
  cases l with
  | nil => exact absurd rfl hl
  | cons a l => simp [exFirst]

/-- The hypotheses of `rule_run_completes`, and of `rule_run_legal`, are met: the environment above, rules of two inputs, three rules per
individual, a population of four, cyclic selection, one elite, five generations. -/
example : let m : SegStore ℚ ℚ Nat := ⟨[], [], [], 0⟩
    let out := ruleRun exRuleDims .ruleOrder exGym ⟨2, 10, .reward, true, true⟩ exFirst exSampleIn exSampleOut 3 exGaussFn exActionFn
      (fun a b => decide (a.getD 0 < b.getD 0)) (fun _ pop m => exTurns pop.length m.rng) (fun _ _ _ => false) 4 1 5 m
    ∃ rs, out.1 = .ok rs ∧ rs.length = 4 ∧ ∀ r ∈ rs, ∃ gs f e, segmentsOf out.2 r = some gs ∧ gs.length = 3 ∧ segFitness out.2 r = some f ∧
      pittDecode exRuleDims .ruleOrder gs = .ok e ∧ Controls 2 2 e := by
  intro m out
  obtain ⟨rs, h⟩ := rule_run_completes (d := exRuleDims) rfl rfl rfl (Or.inr rfl) exGym_accepts ⟨2, 10, .reward, true, true⟩ exFirst_chooses
    exSamples (by decide : 0 < 3) exGauss_good.1 exAction_good.1 exGauss_good.2 exAction_good.2 (fun a b => decide (a.getD 0 < b.getD 0))
    (choose := fun _ pop m => exTurns pop.length m.rng)
    (fun g pop m hne _ => ⟨m.rng % pop.length, Nat.mod_lt _ (List.length_pos_iff.2 hne), rfl⟩) (fun _ _ _ => false) (by decide : 0 < 4) 1 5 m
  obtain ⟨-, h2⟩ := rule_run_legal (d := exRuleDims) rfl rfl rfl (Or.inr rfl) exGym ⟨2, 10, .reward, true, true⟩ exFirst exSamples
    (by decide : 0 < 3) exGauss_good.1 exAction_good.1 (fun a b => decide (a.getD 0 < b.getD 0))
    (fun _ pop m => exTurns pop.length m.rng) (fun _ _ _ => false) 4 1 5 m
  obtain ⟨h3, h4⟩ := h2 rs h
  refine ⟨rs, h, h3, fun r hr => ?_⟩
  obtain ⟨-, l, gs, f, e, s, s', -, -, q1, q2, q3, -, q4, q5, -⟩ := h4 r hr
  exact ⟨gs, f, e, q1, q3, q2, q4, q5⟩

/-- A rule is mutated: two condition genes, one of them clipped, and the action. -/
example : (ruleFn exRuleDims exGaussFn exActionFn [0, 0, 1, 2, 0] 0).result.toOption = some (some [1, 0, 1 / 2, 2, 1]) := by decide +kernel

end Leap
