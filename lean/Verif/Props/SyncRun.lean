import Verif.Model.SyncRun
import Verif.Props.AsyncRun

/-! # Synchronous distributed runs: feasible, truly scored, elitist and the same in every order of completion (C124) -/

namespace Leap
open Spec

variable {γ ψ φ ρ : Type} {n : Nat} {allowed : Nat → γ → Prop}

/-- Acceptable genes, and either viable with the problem's score of exactly these genes, or not viable with NaN because scoring these genes
raises. -/
def Spec.Gathered (n : Nat) (allowed : Nat → γ → Prop) (cfg : SyncConfig γ ψ φ ρ) (m : Mem γ ψ φ ρ) (r : Nat) : Prop :=
  ∃ g f, genes m r = some g ∧ GenesIn n allowed g ∧ fitness m r = some (some f) ∧
    (viableInd m r = true ∧ ScoredBy cfg.dec cfg.prob g f ∨ viableInd m r = false ∧ f = cfg.nan ∧ Fails cfg.dec cfg.prob g)

/-- Every task gets done once before the results are gathered. -/
def Spec.Completes (c : SyncRound ρ) (k : Nat) : Prop := c.order.Perm (List.range k)

/-- The fitnesses that may be seen. -/
def Spec.MayCarry (cfg : SyncConfig γ ψ φ ρ) (g : List γ) (f : φ) : Prop :=
  ScoredBy cfg.dec cfg.prob g f ∨ f = cfg.nan ∧ Fails cfg.dec cfg.prob g

/-- The part of the configuration that a worker of an asynchronous run would need. -/
def SyncConfig.worker (cfg : SyncConfig γ ψ φ ρ) : AsyncConfig γ ψ φ ρ :=
  ⟨0, 0, false, fun _ _ m => (.ok [], m.rng), fun _ m => (.ok 0, m.rng), [], 0, cfg.nan, cfg.dec, cfg.prob⟩

theorem gathered_iff (cfg : SyncConfig γ ψ φ ρ) (m : Mem γ ψ φ ρ) (r : Nat) :
    Gathered n allowed cfg m r ↔ Returned n allowed cfg.worker m r := by
  constructor
  · rintro ⟨g, f, h1, h2, h3, ⟨h4, h5⟩ | ⟨h4, h5⟩⟩
    · exact ⟨g, f, h1, h2, h3, fun _ => h5, fun h => by simp [h4] at h⟩
    · exact ⟨g, f, h1, h2, h3, fun h => by simp [h4] at h, fun _ => h5⟩
  · rintro ⟨g, f, h1, h2, h3, h4, h5⟩
    refine ⟨g, f, h1, h2, h3, ?_⟩
    cases hv : viableInd m r with
    | true => exact Or.inl ⟨rfl, h4 hv⟩
    | false => exact Or.inr ⟨rfl, h5 hv⟩

theorem gathered_same {cfg : SyncConfig γ ψ φ ρ} {m m' : Mem γ ψ φ ρ} {r : Nat} (h : SameInd m m' r) (hr : Gathered n allowed cfg m r) :
    Gathered n allowed cfg m' r := (gathered_iff cfg m' r).2 (returned_same h ((gathered_iff cfg m r).1 hr))

theorem gathered_good {cfg : SyncConfig γ ψ φ ρ} {m : Mem γ ψ φ ρ} {r : Nat} (h : Gathered n allowed cfg m r) :
    GoodInd (GenesIn n allowed) (MayCarry cfg) m r := returned_good ((gathered_iff cfg m r).1 h)

theorem gathered_member {cfg : SyncConfig γ ψ φ ρ} {m : Mem γ ψ φ ρ} {r : Nat} (h : Gathered n allowed cfg m r) :
    Member n allowed (MayCarry cfg) m r := returned_member ((gathered_iff cfg m r).1 h)

/-- What one worker does. -/
theorem worker_ok (cfg : SyncConfig γ ψ φ ρ) (own : Option ρ) {m : Mem γ ψ φ ρ} (hm : Sound m) {r : Nat}
    (hgood : GoodInd (GenesIn n allowed) (MayCarry cfg) m r) :
    ∃ f m', workerEvaluate cfg.nan cfg.dec cfg.prob own r m = (.ok f, m') ∧ Sound m' ∧ m'.arrays = m.arrays ∧ m'.sets = m.sets ∧
      Local [r] m m' ∧ genes m' r = genes m r ∧ Gathered n allowed cfg m' r := by
  have key : ∀ m : Mem γ ψ φ ρ, Sound m → GoodInd (GenesIn n allowed) (MayCarry cfg) m r → ∃ f m', robustEvaluate cfg.nan cfg.dec cfg.prob r m = (.ok f, m') ∧
      Sound m' ∧ m'.arrays = m.arrays ∧ m'.sets = m.sets ∧ Local [r] m m' ∧ genes m' r = genes m r ∧ Gathered n allowed cfg m' r := by
    intro m hm hgood
    obtain ⟨g, fo, hg, -⟩ := id hgood
    obtain ⟨f, m', o', e, -, -, -, hgen, -⟩ := robust_evaluate_never_raises cfg.nan cfg.dec cfg.prob m r g hg
    obtain ⟨a1, a2, a3, a4, a5⟩ := worker_evaluates cfg.worker hm hgood e
    exact ⟨f, m', e, a1, a2, a3, a4, hgen, (gathered_iff cfg m' r).2 a5⟩
  cases own with
  | none => exact key m hm hgood
  | some s =>
    obtain ⟨f, m', e, a1, a2, a3, a4, a5, a6⟩ := key { m with rng := s } ⟨hm.genome, hm.parents, hm.uuid⟩ hgood
    refine ⟨f, { m' with rng := m.rng }, ?_, ⟨a1.genome, a1.parents, a1.uuid⟩, a2, a3, ⟨a4.1, a4.2⟩, a5, a6⟩
    simp only [workerEvaluate]
    rw [e]

theorem completeAll_ok (cfg : SyncConfig γ ψ φ ρ) (own : Nat → Option ρ) (sent : List Nat) (hs : sent.Nodup) (is : List Nat) :
    ∀ (m : Mem γ ψ φ ρ), Sound m → is.Nodup → (∀ i ∈ is, ∃ r, sent[i]? = some r ∧ GoodInd (GenesIn n allowed) (MayCarry cfg) m r) →
      ∃ m', completeAll cfg.nan cfg.dec cfg.prob own sent is m = (.ok (), m') ∧ Sound m' ∧ m'.arrays = m.arrays ∧ m'.sets = m.sets ∧
        m'.inds.length = m.inds.length ∧ (∀ r, r ∉ sent → SameInd m m' r) ∧ (∀ i r, i ∉ is → sent[i]? = some r → SameInd m m' r) ∧
        (∀ r, genes m' r = genes m r) ∧ ∀ i ∈ is, ∀ r, sent[i]? = some r → Gathered n allowed cfg m' r := by
  induction is with
  | nil => intro m hm _ _; exact ⟨m, rfl, hm, rfl, rfl, rfl, fun _ _ => ⟨rfl, rfl⟩, fun _ _ _ _ => ⟨rfl, rfl⟩, fun _ => rfl, by simp⟩
  | cons i is ih =>
    intro m hm hnd hall
    obtain ⟨hi, hnd⟩ := List.nodup_cons.1 hnd
    obtain ⟨r, hr, hg⟩ := hall i (by simp)
    obtain ⟨f, m1, e1, s1, a1, b1, l1, g1, q1⟩ := worker_ok cfg (own i) hm hg
    have hother : ∀ j x, j ≠ i → sent[j]? = some x → x ≠ r := by
      rintro j x hj hx rfl
      exact hj ((List.getElem?_inj (List.getElem?_eq_some_iff.1 hx).1 hs).1 (hx.trans hr.symm))
    have hsame : ∀ x, x ≠ r → SameInd m m1 x := fun x hx => l1.2 x (by simpa using hx)
    obtain ⟨m2, e2, s2, a2, b2, n2, o2, p2, g2, q2⟩ := ih m1 s1 hnd (by
      intro j hj
      obtain ⟨x, hx, hgx⟩ := hall j (by simp [hj])
      exact ⟨x, hx, goodInd_same (hsame x (hother j x (fun h => hi (h ▸ hj)) hx)) hgx⟩)
    refine ⟨m2, ?_, s2, a2.trans a1, b2.trans b1, n2.trans l1.1, ?_, ?_, ?_, ?_⟩
    · rw [completeAll, hr]
      simp only
      rw [bind_live e1]
      exact e2
    · intro x hx
      have h1 := hsame x (fun h => hx (h ▸ List.mem_of_getElem? hr))
      have h2 := o2 x hx
      exact ⟨h2.1.trans h1.1, h2.2.trans h1.2⟩
    · intro j x hj hx
      have h1 := hsame x (hother j x (fun h => hj (by simp [h])) hx)
      have h2 := p2 j x (fun h => hj (by simp [h])) hx
      exact ⟨h2.1.trans h1.1, h2.2.trans h1.2⟩
    · intro x
      rw [g2]
      by_cases hx : x = r
      · rw [hx, g1]
      · exact (hsame x hx).2
    · intro j hj x hx
      rcases List.mem_cons.1 hj with rfl | hj
      · rw [hr] at hx
        cases hx
        exact gathered_same (p2 j r hi hr) q1
      · exact q2 j hj x hx

theorem submit_genes {truth : List γ → φ → Prop} {G : List γ → Prop} (copied : Bool) {m m' : Mem γ ψ φ ρ} {r c : Nat}
    (hr : GoodInd G truth m r) (h : submitInd copied r m = (.ok c, m')) : genes m' c = genes m r := by
  obtain ⟨g, fo, hg, hfit, hG, ht⟩ := hr
  obtain ⟨o, ho, ha, hlt⟩ := genes_lt hg
  cases copied with
  | false =>
    simp only [submitInd, Bool.false_eq_true, if_false, HM.pure_apply, Prod.mk.injEq, Except.ok.injEq] at h
    obtain ⟨rfl, rfl⟩ := h
    rfl
  | true =>
    cases hp : m.sets[o.parents]? with
    | none => simp [submitInd, HM.bind_apply, getObj, ho, getArr, ha, newArr, getSet, hp] at h
    | some ps =>
      simp only [submitInd, if_true, HM.bind_apply, getObj, ho, getArr, ha, newArr, getSet, hp, newSet, newObj,
        Prod.mk.injEq, Except.ok.injEq] at h
      obtain ⟨rfl, rfl⟩ := h
      rw [hg]
      simp [genes]

theorem submitAll_genes {truth : List γ → φ → Prop} {G : List γ → Prop} (copied : Nat → Bool) (rs : List Nat) :
    ∀ (m m' : Mem γ ψ φ ρ) (out : List Nat), Sound m → rs.Nodup → (∀ r ∈ rs, GoodInd G truth m r) →
      submitAll copied rs m = (.ok out, m') → out.map (genes m') = rs.map (genes m) := by
  induction rs with
  | nil =>
    intro m m' out hm _ _ h
    simp only [submitAll, HM.pure_apply, Prod.mk.injEq, Except.ok.injEq] at h
    obtain ⟨rfl, rfl⟩ := h
    rfl
  | cons r rs ih =>
    intro m m' out hm hnd hg h
    obtain ⟨c, m1, e1, h⟩ := bind_ok h
    obtain ⟨cs, m2, e2, h⟩ := bind_ok h
    simp only [HM.pure_apply, Prod.mk.injEq, Except.ok.injEq] at h
    obtain ⟨rfl, rfl⟩ := h
    obtain ⟨s1, u1, g1, c1, l1⟩ := submit_spec (copied r) hm (hg r (by simp)) e1
    have hkeep : ∀ x ∈ rs, SameInd m m1 x := fun x hx => unchanged_same hm u1 (good_lt (hg x (by simp [hx])))
    have hgood : ∀ x ∈ rs, GoodInd G truth m1 x := fun x hx => goodInd_same (hkeep x hx) (hg x (by simp [hx]))
    have h2 := ih m1 m2 cs s1 (List.nodup_cons.1 hnd).2 hgood e2
    have hu2 : SameInd m1 m2 c := unchanged_same s1 (submitAll_spec copied rs m1 m2 cs s1 (List.nodup_cons.1 hnd).2 hgood e2).2.1 l1
    simp only [List.map_cons, List.cons.injEq]
    refine ⟨by rw [hu2.2, submit_genes (copied r) (hg r (by simp)) e1], h2.trans (List.map_congr_left fun x hx => (hkeep x hx).2)⟩

/-- C124: evaluating a population on the workers, whichever individuals are copied, in whichever order the evaluations are done and with
whatever random numbers the workers have. It always returns, even if decoding or scoring raises: as many as were given, in the order of
submission, each with the genes of the one submitted, viable with the score of these genes or not viable with NaN. Nobody else changes. -/
theorem sync_evaluate_ok (cfg : SyncConfig γ ψ φ ρ) (c : SyncRound ρ) (rs : List Nat) (hc : Completes c rs.length) (m : Mem γ ψ φ ρ) (hm : Sound m)
    (hnd : rs.Nodup) (hgood : ∀ r ∈ rs, GoodInd (GenesIn n allowed) (MayCarry cfg) m r) :
    ∃ out m', syncEvaluate cfg.nan cfg.dec cfg.prob c rs m = (.ok out, m') ∧ Sound m' ∧ out.length = rs.length ∧ out.Nodup ∧
      (∀ r < m.inds.length, r ∉ rs → m'.inds[r]? = m.inds[r]?) ∧ (∀ a < m.arrays.length, m'.arrays[a]? = m.arrays[a]?) ∧
      (∀ a < m.sets.length, m'.sets[a]? = m.sets[a]?) ∧ m.inds.length ≤ m'.inds.length ∧
      out.map (genes m') = rs.map (genes m) ∧ ∀ r ∈ out, (r ∈ rs ∨ m.inds.length ≤ r) ∧ Gathered n allowed cfg m' r := by
  obtain ⟨sent, m1, e1⟩ := submitAll_returns c.copied rs m hm hnd hgood
  obtain ⟨s1, u1, l1, nd1, q1⟩ := submitAll_spec c.copied rs m m1 sent hm hnd hgood e1
  have hgen := submitAll_genes c.copied rs m m1 sent hm hnd hgood e1
  have hmem : ∀ i ∈ c.order, ∃ r, sent[i]? = some r ∧ r ∈ sent := by
    intro i hi
    have : i < sent.length := by rw [l1]; simpa using (hc.mem_iff).1 hi
    exact ⟨sent[i], List.getElem?_eq_getElem this, List.getElem_mem this⟩
  obtain ⟨m2, e2, s2, a2, b2, n2, o2, -, g2, q2⟩ := completeAll_ok cfg c.own sent nd1 c.order m1 s1 (hc.nodup_iff.2 List.nodup_range)
    (fun i hi => by
      obtain ⟨r, hr, hr'⟩ := hmem i hi
      exact ⟨r, hr, (q1 r hr').1⟩)
  refine ⟨sent, m2, ?_, s2, l1, nd1, fun r hr hn => ?_, fun a ha => by rw [a2]; exact u1.arrays a ha, fun a ha => by rw [b2]; exact u1.sets a ha, ?_, ?_,
    fun r hr => ⟨(q1 r hr).2.1, ?_⟩⟩
  · rw [syncEvaluate, bind_live e1, bind_live e2]
    rfl
  · rw [(o2 r fun h => ?_).1]
    · exact u1.inds r hr
    · rcases (q1 r h).2.1 with h | h
      · exact hn h
      · omega
  · rw [n2]; exact (unchanged_length u1).1
  · rw [← hgen]
    exact List.map_congr_left fun x _ => g2 x
  · obtain ⟨i, hi⟩ := List.mem_iff_getElem?.1 hr
    refine q2 i (hc.mem_iff.2 ?_) r hi
    have := (List.getElem?_eq_some_iff.1 hi).1
    simp; omega

/-! ## One generation -/

theorem kbest_mem {α : Type} {lt : α → α → Bool} {k : Nat} {all kept : List α} (h : KBest lt k all kept) {x : α} (hx : x ∈ kept) : x ∈ all := by
  obtain ⟨rest, hp, -, -⟩ := h
  exact hp.mem_iff.1 (List.mem_append_left _ hx)

theorem kbest_nodup {α : Type} {lt : α → α → Bool} {k : Nat} {all kept : List α} (h : KBest lt k all kept) (hn : all.Nodup) : kept.Nodup := by
  obtain ⟨rest, hp, -, -⟩ := h
  exact (List.nodup_append.1 (hp.nodup_iff.2 hn)).1

theorem kbest_covers {α : Type} {lt : α → α → Bool} (hw : StrictWeak lt) {k : Nat} (hk : 1 ≤ k) {all kept : List α} (h : KBest lt k all kept)
    {x : α} (hx : x ∈ all) : ∃ b ∈ kept, lt b x = false := by
  obtain ⟨rest, hp, hl, hr⟩ := h
  rcases List.mem_append.1 (hp.mem_iff.2 hx) with h | h
  · refine ⟨x, h, ?_⟩
    cases e : lt x x with
    | false => rfl
    | true => exact absurd (hw.asymm _ _ e) (by simp [e])
  · have : all.length ≠ 0 := fun h0 => by rw [List.length_eq_zero_iff.1 h0] at hx; simp at hx
    cases kept with
    | nil => simp at hl; omega
    | cons b t => exact ⟨b, by simp, hr b (by simp) x h⟩

theorem sync_survival_ok (cfg : SyncConfig γ ψ φ ρ) (hbest : ∀ k l m, KBest (cfg.lt m) k l (cfg.best k l m).1) (offspring parents : List Nat)
    (m : Mem γ ψ φ ρ) (hn : offspring.Nodup) (hp : parents.Nodup) (hdis : ∀ r ∈ offspring, r ∉ parents) :
    ∃ out s, syncSurvival cfg offspring parents m = (.ok out, { m with rng := s }) ∧ out.length = offspring.length ∧ out.Nodup ∧
      (∀ r ∈ out, r ∈ offspring ∨ r ∈ parents) ∧
      (StrictWeak cfg.worse → 1 ≤ cfg.kElites → 1 ≤ offspring.length → ∀ x ∈ parents, ∃ b ∈ out, cfg.lt m b x = false) := by
  have h1 := hbest cfg.kElites parents m
  have h2 := hbest offspring.length (offspring ++ (cfg.best cfg.kElites parents m).1) { m with rng := (cfg.best cfg.kElites parents m).2 }
  refine ⟨_, _, rfl, ?_, kbest_nodup h2 ?_, fun r hr => ?_, fun hw hk ho x hx => ?_⟩
  · obtain ⟨-, -, hl, -⟩ := h2
    simpa using hl
  · exact List.nodup_append.2 ⟨hn, kbest_nodup h1 hp, fun a ha b hb hab => hdis a ha (hab ▸ kbest_mem h1 hb)⟩
  · rcases List.mem_append.1 (kbest_mem h2 hr) with h | h
    · exact Or.inl h
    · exact Or.inr (kbest_mem h1 h)
  · obtain ⟨e, he, hex⟩ := kbest_covers (evo_lt_strictWeak cfg.toEvoConfig hw m) hk h1 hx
    obtain ⟨b, hb, hbe⟩ := kbest_covers (evo_lt_strictWeak cfg.toEvoConfig hw _) ho h2 (List.mem_append_right offspring he)
    exact ⟨b, hb, (evo_lt_strictWeak cfg.toEvoConfig hw m).negTrans _ _ _ hbe hex⟩

theorem gathered_lt {cfg : SyncConfig γ ψ φ ρ} {m : Mem γ ψ φ ρ} {r : Nat} (h : Gathered n allowed cfg m r) : r < m.inds.length :=
  good_lt (gathered_good h)

/-- What happens between the pipeline and the next generation. -/
theorem sync_generation (cfg : SyncConfig γ ψ φ ρ) (hbest : ∀ k l m, KBest (cfg.lt m) k l (cfg.best k l m).1)
    (hst : ∀ st ∈ cfg.stages, StageOk n allowed (MayCarry cfg) st) (c : SyncRound ρ) (hc : Completes c cfg.size) (g : Int) (parents : List Nat)
    (m m1 : Mem γ ψ φ ρ) (pulled : List Nat) (hm : Sound m) (hnd : parents.Nodup) (hp : ∀ r ∈ parents, Gathered n allowed cfg m r)
    (h : runPipeline parents (cfg.choose g parents) cfg.stages cfg.size m = (.ok pulled, m1)) :
    ∃ offspring m2 survivors m3, syncEvaluate cfg.nan cfg.dec cfg.prob c pulled m1 = (.ok offspring, m2) ∧
      syncSurvival cfg offspring parents m2 = (.ok survivors, m3) ∧ Sound m3 ∧ Unchanged m m3 ∧ survivors.length = cfg.size ∧ survivors.Nodup ∧
      (∀ r ∈ survivors, (r ∈ parents ∨ m.inds.length ≤ r) ∧ Gathered n allowed cfg m3 r) ∧
      (StrictWeak cfg.worse → 1 ≤ cfg.kElites → 1 ≤ cfg.size → ∀ x ∈ parents, ∃ b ∈ survivors, cfg.lt m3 b x = false) := by
  obtain ⟨s1, u1, l1, nd1, q1⟩ := pipeline_keeps_feasible m m1 hm parents (fun r hr => gathered_good (hp r hr)) _ cfg.stages hst cfg.size pulled h
  obtain ⟨k1, k2, k3⟩ := unchanged_length u1
  obtain ⟨offspring, m2, e2, s2, l2, nd2, i2, a2, b2, n2, -, q2⟩ := sync_evaluate_ok cfg c pulled (l1 ▸ hc) m1 s1 nd1 (fun r hr => (q1 r hr).2.2.1)
  have u2 : Unchanged m m2 := by
    refine ⟨fun r hr => ?_, fun a ha => (a2 a (by omega)).trans (u1.arrays a ha), fun a ha => (b2 a (by omega)).trans (u1.sets a ha)⟩
    rw [i2 r (by omega) fun hx => by have := (q1 r hx).1; omega]
    exact u1.inds r hr
  have hnew : ∀ r ∈ offspring, m.inds.length ≤ r := by
    intro r hr
    rcases (q2 r hr).1 with h | h
    · exact (q1 r h).1
    · omega
  have hlt : ∀ r ∈ parents, r < m.inds.length := fun r hr => gathered_lt (hp r hr)
  obtain ⟨out, s, e3, l3, nd3, q3, b3⟩ := sync_survival_ok cfg hbest offspring parents m2 nd2 hnd (fun r hr hr' => by
    have := hnew r hr
    have := hlt r hr'
    omega)
  have hlen : offspring.length = cfg.size := by omega
  refine ⟨offspring, m2, out, _, e2, e3, ⟨s2.genome, s2.parents, s2.uuid⟩, ⟨u2.inds, u2.arrays, u2.sets⟩, l3.trans hlen, nd3, fun r hr => ?_,
    fun hw hk hs x hx => b3 hw hk (by omega) x hx⟩
  rcases q3 r hr with h | h
  · exact ⟨Or.inr (hnew r h), (q2 r h).2⟩
  · exact ⟨Or.inl h, gathered_same (unchanged_same hm u2 (hlt r h)) (hp r h)⟩

/-! ## The loop -/

theorem sync_loop_members (cfg : SyncConfig γ ψ φ ρ) (hbest : ∀ k l m, KBest (cfg.lt m) k l (cfg.best k l m).1)
    (hst : ∀ st ∈ cfg.stages, StageOk n allowed (MayCarry cfg) st) (env : Int → SyncRound ρ) (hc : ∀ g : Int, 0 ≤ g → Completes (env g) cfg.size)
    (fuel : Nat) : ∀ (g : Int) (parents : List Nat) (m m' : Mem γ ψ φ ρ) (out : List Nat), 0 ≤ g → Sound m → parents.Nodup →
      (∀ r ∈ parents, Gathered n allowed cfg m r) → syncLoop cfg env fuel g parents m = (.ok out, m') →
      Unchanged m m' ∧ out.Nodup ∧ (out = parents ∨ out.length = cfg.size) ∧
      (∀ r ∈ out, (r ∈ parents ∨ m.inds.length ≤ r) ∧ Gathered n allowed cfg m' r) ∧
      (StrictWeak cfg.worse → 1 ≤ cfg.kElites → 1 ≤ cfg.size → ∀ x ∈ parents, ∃ b ∈ out, cfg.lt m' b x = false) := by
  have hrefl : ∀ (m : Mem γ ψ φ ρ) (parents : List Nat), StrictWeak cfg.worse → ∀ x ∈ parents, ∃ b ∈ parents, cfg.lt m b x = false := by
    intro m parents hw x hx
    refine ⟨x, hx, ?_⟩
    cases e : cfg.lt m x x with
    | false => rfl
    | true => exact absurd ((evo_lt_strictWeak cfg.toEvoConfig hw m).asymm _ _ e) (by simp [e])
  induction fuel with
  | zero =>
    intro g parents m m' out _ hm hnd hp h
    simp only [syncLoop, HM.pure_apply, Prod.mk.injEq, Except.ok.injEq] at h
    obtain ⟨rfl, rfl⟩ := h
    exact ⟨⟨fun _ _ => rfl, fun _ _ => rfl, fun _ _ => rfl⟩, hnd, Or.inl rfl, fun r hr => ⟨Or.inl hr, hp r hr⟩, fun hw _ _ => hrefl m parents hw⟩
  | succ fuel ih =>
    intro g parents m m' out hg hm hnd hp h
    unfold syncLoop at h
    split at h
    · simp only [Prod.mk.injEq, Except.ok.injEq] at h
      obtain ⟨rfl, rfl⟩ := h
      exact ⟨⟨fun _ _ => rfl, fun _ _ => rfl, fun _ _ => rfl⟩, hnd, Or.inl rfl, fun r hr => ⟨Or.inl hr, hp r hr⟩, fun hw _ _ => hrefl m parents hw⟩
    · obtain ⟨pulled, m1, e1, h⟩ := bind_ok h
      obtain ⟨offspring, m2, survivors, m3, e2, e3, s3, u3, l3, nd3, q3, b3⟩ := sync_generation cfg hbest hst (env g) (hc g hg) g parents m m1 pulled hm hnd hp e1
      rw [bind_live e2, bind_live e3] at h
      obtain ⟨u4, nd4, l4, q4, b4⟩ := ih (g + 1) survivors m3 m' out (by omega) s3 nd3 (fun r hr => (q3 r hr).2) h
      obtain ⟨k1, k2, k3⟩ := unchanged_length u3
      refine ⟨unchanged_trans u3 u4 k1 k2 k3, nd4, Or.inr ?_, fun r hr => ⟨?_, (q4 r hr).2⟩, fun hw hk hs x hx => ?_⟩
      · rcases l4 with rfl | l4
        · exact l3
        · exact l4
      · rcases (q4 r hr).1 with h | h
        · exact (q3 r h).1
        · right; omega
      · obtain ⟨b, hb, hbx⟩ := b3 hw hk hs x hx
        obtain ⟨d, hd, hdb⟩ := b4 hw hk hs b hb
        refine ⟨d, hd, (evo_lt_strictWeak cfg.toEvoConfig hw m').negTrans _ _ _ hdb ?_⟩
        rw [evo_lt_same cfg.toEvoConfig (u4.inds b (gathered_lt (q3 b hb).2)) (u4.inds x (by have := gathered_lt (hp x hx); omega))]
        exact hbx

theorem sync_loop_returns (cfg : SyncConfig γ ψ φ ρ) (hbest : ∀ k l m, KBest (cfg.lt m) k l (cfg.best k l m).1)
    (hst : ∀ st ∈ cfg.stages, StageOk n allowed (MayCarry cfg) st) (hsl : ∀ st ∈ cfg.stages, StageLive n allowed st)
    (hch : ∀ g pop m, pop ≠ [] → (∀ r ∈ pop, Member n allowed (MayCarry cfg) m r) → ∃ i, (cfg.choose g pop m).1 = .ok i ∧ i < pop.length)
    (hsize : 1 ≤ cfg.size) (env : Int → SyncRound ρ) (hc : ∀ g : Int, 0 ≤ g → Completes (env g) cfg.size)
    (fuel : Nat) : ∀ (g : Int) (parents : List Nat) (m : Mem γ ψ φ ρ), 0 ≤ g → Sound m → parents.Nodup → parents ≠ [] →
      (∀ r ∈ parents, Gathered n allowed cfg m r) → ∃ out m', syncLoop cfg env fuel g parents m = (.ok out, m') := by
  induction fuel with
  | zero => intro g parents m _ _ _ _ _; exact ⟨parents, m, rfl⟩
  | succ fuel ih =>
    intro g parents m hg hm hnd hne hp
    unfold syncLoop
    split
    · exact ⟨_, _, rfl⟩
    · obtain ⟨pulled, m1, e1⟩ := pipeline_returns m hm parents (fun r hr => gathered_good (hp r hr)) (cfg.choose g parents)
        (fun m1 hu => hch g parents m1 hne fun r hr => member_same (unchanged_same hm hu (gathered_lt (hp r hr))) (gathered_member (hp r hr)))
        cfg.stages hst hsl cfg.size
      obtain ⟨offspring, m2, survivors, m3, e2, e3, s3, u3, l3, nd3, q3, b3⟩ := sync_generation cfg hbest hst (env g) (hc g hg) g parents m m1 pulled hm hnd hp e1
      rw [bind_live e1, bind_live e2, bind_live e3]
      exact ih (g + 1) survivors m3 (by omega) s3 nd3 (by rintro rfl; simp at l3; omega) fun r hr => (q3 r hr).2

/-! ## The run -/

/-- The evaluated initial population. -/
theorem sync_start (cfg : SyncConfig γ ψ φ ρ) (initGenome : ρ → PyM (List γ) × ρ)
    (hinit : ∀ s g s', initGenome s = (.ok g, s') → GenesIn n allowed g) (problem popSize : Nat) (c : SyncRound ρ) (hc : Completes c popSize)
    (m m1 : Mem γ ψ φ ρ) (hm : Sound m) (created : List Nat) (e1 : createPopulation initGenome problem popSize m = (.ok created, m1)) :
    ∃ founders s' parents m2, Drawn initGenome popSize m.rng founders s' ∧
      syncEvaluate cfg.nan cfg.dec cfg.prob c created m1 = (.ok parents, m2) ∧ Sound m2 ∧ Unchanged m m2 ∧ parents.length = popSize ∧ parents.Nodup ∧
      parents.map (genes m2) = founders.map some ∧ ∀ r ∈ parents, m.inds.length ≤ r ∧ Gathered n allowed cfg m2 r := by
  obtain ⟨gs, s', hd⟩ : ∃ gs s', Drawn initGenome popSize m.rng gs s' := by
    rcases drawn_or_raises initGenome popSize m.rng with h | ⟨j, gs, s1, e, s2, h1, h2, h3⟩
    · exact h
    · have := create_population_raises initGenome problem popSize j m gs s1 s2 e h1 h2 h3
      rw [e1] at this
      cases this
  obtain ⟨s1, u1, l1, nd1, r1, g1⟩ := createPopulation_good (truth := MayCarry cfg) initGenome hinit problem popSize m m1 hm created e1
  obtain ⟨out', m1', e1', l1', -, -, -, q1⟩ := create_population_spec initGenome problem popSize m hm gs s' hd
  rw [e1] at e1'
  cases e1'
  have hnew : ∀ r ∈ created, m.inds.length ≤ r := by
    intro r hr
    obtain ⟨i, hi⟩ := List.mem_iff_getElem?.1 hr
    exact (q1 i r hi).1
  obtain ⟨parents, m2, e2, s2, l2, nd2, i2, a2, b2, n2, gn2, q2⟩ := sync_evaluate_ok cfg c created (l1' ▸ hc) m1 s1 nd1 g1
  obtain ⟨k1, k2, k3⟩ := unchanged_length u1
  refine ⟨gs, s', parents, m2, hd, e2, s2, ⟨fun r hr => ?_, fun a ha => (a2 a (by omega)).trans (u1.arrays a ha),
    fun a ha => (b2 a (by omega)).trans (u1.sets a ha)⟩, l2.trans l1', nd2, ?_, fun r hr => ⟨?_, (q2 r hr).2⟩⟩
  · rw [i2 r (by omega) fun hx => by have := hnew r hx; omega]
    exact u1.inds r hr
  · rw [gn2]
    apply List.ext_getElem?
    intro i
    simp only [List.getElem?_map]
    cases e : created[i]? with
    | none =>
      have h1 : created.length ≤ i := List.getElem?_eq_none_iff.1 e
      have h2 : gs[i]? = none := List.getElem?_eq_none_iff.2 (by have := hd.length; omega)
      simp [h2]
    | some r =>
      have h1 := (q1 i r e).2.1
      have h2 : i < gs.length := by have := (List.getElem?_eq_some_iff.1 e).1; have := hd.length; omega
      rw [List.getElem?_eq_getElem h2] at h1 ⊢
      simp [h1]
  · rcases (q2 r hr).1 with h | h
    · exact hnew r h
    · omega

/-- C124: a synchronous distributed run with any selection, clone, mutation and crossover operators, any number of elites and generations, on any
workers: whichever individuals are copied, in whichever order the evaluations of each generation are done, whatever random numbers the workers
have, and however often decoding or scoring raises. Whenever it returns, everybody returned is different and new, has acceptable genes, and is
either viable with the score of exactly these genes or not viable with NaN because scoring them raises. There are as many as `eval_pool` makes
(or the initial population), and nothing that existed before has changed. The initial population was scored in the same way, with the genomes
the initialiser drew in order, and with at least one elite the final population has for each of them one that is not worse. -/
theorem sync_run_members (cfg : SyncConfig γ ψ φ ρ) (hbest : ∀ k l m, KBest (cfg.lt m) k l (cfg.best k l m).1)
    (initGenome : ρ → PyM (List γ) × ρ) (hinit : ∀ s g s', initGenome s = (.ok g, s') → GenesIn n allowed g)
    (hst : ∀ st ∈ cfg.stages, StageOk n allowed (MayCarry cfg) st) (problem popSize generations : Nat) (env : Int → SyncRound ρ)
    (hc0 : Completes (env (-1)) popSize) (hc : ∀ g : Int, 0 ≤ g → Completes (env g) cfg.size) (m m' : Mem γ ψ φ ρ) (hm : Sound m) (out : List Nat)
    (h : syncRun cfg initGenome problem popSize generations env m = (.ok out, m')) :
    Unchanged m m' ∧ out.Nodup ∧ (out.length = popSize ∨ out.length = cfg.size) ∧
    (∀ r ∈ out, m.inds.length ≤ r ∧ Gathered n allowed cfg m' r) ∧
    ∃ founders s', ∃ initial : List Nat, Drawn initGenome popSize m.rng founders s' ∧ initial.map (genes m') = founders.map some ∧
      (∀ x ∈ initial, Gathered n allowed cfg m' x) ∧
      (StrictWeak cfg.worse → 1 ≤ cfg.kElites → 1 ≤ cfg.size → ∀ x ∈ initial, ∃ b ∈ out, cfg.lt m' b x = false) := by
  obtain ⟨created, m1, e1, h⟩ := bind_ok h
  obtain ⟨gs, s', parents, m2, hd, e2, s2, u2, l2, nd2, gn2, q2⟩ := sync_start cfg initGenome hinit problem popSize (env (-1)) hc0 m m1 hm created e1
  rw [bind_live e2] at h
  obtain ⟨u3, nd3, l3, q3, b3⟩ := sync_loop_members cfg hbest hst env hc generations 0 parents m2 m' out (by omega) s2 nd2 (fun r hr => (q2 r hr).2) h
  obtain ⟨k1, k2, k3⟩ := unchanged_length u2
  have hsame : ∀ r ∈ parents, SameInd m2 m' r := fun r hr => unchanged_same s2 u3 (gathered_lt (q2 r hr).2)
  refine ⟨unchanged_trans u2 u3 k1 k2 k3, nd3, ?_, fun r hr => ⟨?_, (q3 r hr).2⟩, gs, s', parents, hd, ?_,
    fun x hx => gathered_same (hsame x hx) (q2 x hx).2, b3⟩
  · rcases l3 with rfl | l3
    · exact Or.inl l2
    · exact Or.inr l3
  · rcases (q3 r hr).1 with h | h
    · exact (q2 r h).1
    · omega
  · rw [← gn2]
    exact List.map_congr_left fun x hx => (hsame x hx).2

/-- C124: it returns when the initialiser does, the operators accept acceptable genomes, and selection picks somebody from every non-empty
population of evaluated individuals. Scoring may raise as it likes. -/
theorem sync_run_completes (cfg : SyncConfig γ ψ φ ρ) (hbest : ∀ k l m, KBest (cfg.lt m) k l (cfg.best k l m).1)
    (initGenome : ρ → PyM (List γ) × ρ) (hinit : ∀ s, ∃ g, (initGenome s).1 = .ok g ∧ GenesIn n allowed g)
    (hst : ∀ st ∈ cfg.stages, StageOk n allowed (MayCarry cfg) st) (hsl : ∀ st ∈ cfg.stages, StageLive n allowed st)
    (hch : ∀ g pop m, pop ≠ [] → (∀ r ∈ pop, Member n allowed (MayCarry cfg) m r) → ∃ i, (cfg.choose g pop m).1 = .ok i ∧ i < pop.length)
    (hsize : 1 ≤ cfg.size) (problem popSize generations : Nat) (hpop : 1 ≤ popSize) (env : Int → SyncRound ρ)
    (hc0 : Completes (env (-1)) popSize) (hc : ∀ g : Int, 0 ≤ g → Completes (env g) cfg.size) (m : Mem γ ψ φ ρ) (hm : Sound m) :
    ∃ out m', syncRun cfg initGenome problem popSize generations env m = (.ok out, m') := by
  have hinit' : ∀ s g s', initGenome s = (.ok g, s') → GenesIn n allowed g := by
    intro s g s' h
    obtain ⟨g', h1, h2⟩ := hinit s
    rw [h] at h1
    cases h1
    exact h2
  obtain ⟨created, m1, e1⟩ : ∃ created m1, createPopulation initGenome problem popSize m = (.ok created, m1) := by
    rcases drawn_or_raises initGenome popSize m.rng with ⟨gs, s', hd⟩ | ⟨j, gs, s1, e, s2, h1, h2, h3⟩
    · obtain ⟨out, m1, e1, -⟩ := create_population_spec initGenome problem popSize m hm gs s' hd
      exact ⟨out, m1, e1⟩
    · obtain ⟨g, hg, -⟩ := hinit s1
      rw [h3] at hg
      cases hg
  obtain ⟨gs, s', parents, m2, hd, e2, s2, u2, l2, nd2, gn2, q2⟩ := sync_start cfg initGenome hinit' problem popSize (env (-1)) hc0 m m1 hm created e1
  obtain ⟨out, m', e3⟩ := sync_loop_returns cfg hbest hst hsl hch hsize env hc generations 0 parents m2 (by omega) s2 nd2
    (by rintro rfl; simp at l2; omega) (fun r hr => (q2 r hr).2)
  exact ⟨out, m', by rw [syncRun, bind_live e1, bind_live e2]; exact e3⟩

/-! ## The order of completion -/

/-- What an evaluation does to an individual, when scores do not depend on random numbers. -/
def marked (nan : φ) (dec : Dec γ ψ) (score : Content γ ψ → PyM φ) (arrays : List (List γ)) (o : Obj ψ φ) : Obj ψ φ :=
  let fail := fun (o : Obj ψ φ) (e : PyErr) => { o with fitness := some nan, exception := some e, viable := some false }
  let finish := fun (o : Obj ψ φ) (c : Content γ ψ) => match score c with
    | .ok f => { o with fitness := some f, viable := some true }
    | .error e => fail o e
  match dec with
  | .identity => match arrays[o.genome]? with
    | none => fail { o with phenome := some (.alias o.genome) } .attributeError
    | some g => finish { o with phenome := some (.alias o.genome) } (.raw g)
  | .fn d => match arrays[o.genome]? with
    | none => fail o .attributeError
    | some g => match d g with
      | .error e => fail o e
      | .ok v => finish { o with phenome := some (.decoded v) } (.value v)

theorem marked_twice (nan : φ) (dec : Dec γ ψ) (score : Content γ ψ → PyM φ) (arrays : List (List γ)) (o : Obj ψ φ) :
    marked nan dec score arrays (marked nan dec score arrays o) = marked nan dec score arrays o := by
  cases dec with
  | identity =>
    cases h : arrays[o.genome]? with
    | none => simp [marked, h]
    | some g => cases hs : score (.raw g) <;> simp [marked, h, hs]
  | fn d =>
    cases h : arrays[o.genome]? with
    | none => simp [marked, h]
    | some g =>
      cases hd : d g with
      | error e => simp [marked, h, hd]
      | ok v => cases hs : score (.value v) <;> simp [marked, h, hd, hs]

theorem modify_at {α : Type} (l : List α) (r : Nat) (o : α) (f f' : α → α) (h : l[r]? = some o) (hf : f o = f' o) : l.modify r f = l.modify r f' := by
  apply List.ext_getElem?
  intro i
  simp only [List.getElem?_modify]
  by_cases hi : r = i
  · subst hi; simp [h, hf]
  · simp [hi]

theorem robust_marked (nan : φ) (dec : Dec γ ψ) (prob : Prob γ ψ φ ρ) (score : Content γ ψ → PyM φ) (hdet : ∀ c s, prob.evaluate c s = (score c, s))
    (r : Nat) (m : Mem γ ψ φ ρ) :
    ∃ f, robustEvaluate nan dec prob r m = (.ok f, { m with inds := m.inds.modify r (marked nan dec score m.arrays) }) := by
  cases ho : m.inds[r]? with
  | none =>
    have hno : ∀ f : Obj ψ φ → Obj ψ φ, m.inds.modify r f = m.inds := by
      intro f
      apply List.ext_getElem?
      intro i
      simp only [List.getElem?_modify]
      by_cases hi : r = i
      · subst hi; simp [ho]
      · simp [hi]
    refine ⟨nan, ?_⟩
    cases dec <;> simp [robustEvaluate, evaluateImp, decodeInd, getObj, ho, HM.bind_apply, hno]
  | some o =>
    have hmod : ∀ f : Obj ψ φ → Obj ψ φ, (m.inds.modify r f)[r]? = some (f o) := by
      intro f; simp [List.getElem?_modify, ho]
    cases dec with
    | identity =>
      cases hg : m.arrays[o.genome]? with
      | none =>
        refine ⟨nan, ?_⟩
        simp [robustEvaluate, evaluateImp, decodeInd, getObj, ho, HM.bind_apply, modObj, phenomeOf, hmod, contentOf, getArr, hg,
          List.modify_modify_eq]
        exact modify_at _ _ _ _ _ ho (by simp [marked, hg])
      | some g =>
        cases hs : score (.raw g) with
        | error e =>
          refine ⟨nan, ?_⟩
          simp [robustEvaluate, evaluateImp, decodeInd, getObj, ho, HM.bind_apply, modObj, phenomeOf, hmod, contentOf, getArr, hg,
            useRng, hdet, hs, List.modify_modify_eq]
          exact modify_at _ _ _ _ _ ho (by simp [marked, hg, hs])
        | ok f =>
          refine ⟨f, ?_⟩
          simp [robustEvaluate, evaluateImp, decodeInd, getObj, ho, HM.bind_apply, modObj, phenomeOf, hmod, contentOf, getArr, hg,
            useRng, hdet, hs, List.modify_modify_eq]
          exact modify_at _ _ _ _ _ ho (by simp [marked, hg, hs])
    | fn d =>
      cases hg : m.arrays[o.genome]? with
      | none =>
        refine ⟨nan, ?_⟩
        simp [robustEvaluate, evaluateImp, decodeInd, getObj, ho, HM.bind_apply, getArr, hg]
        exact modify_at _ _ _ _ _ ho (by simp [marked, hg])
      | some g =>
        cases hd : d g with
        | error e =>
          refine ⟨nan, ?_⟩
          simp [robustEvaluate, evaluateImp, decodeInd, getObj, ho, HM.bind_apply, getArr, hg, hd]
          exact modify_at _ _ _ _ _ ho (by simp [marked, hg, hd])
        | ok v =>
          cases hs : score (.value v) with
          | error e =>
            refine ⟨nan, ?_⟩
            simp [robustEvaluate, evaluateImp, decodeInd, getObj, ho, HM.bind_apply, modObj, phenomeOf, hmod, contentOf, getArr, hg, hd,
              useRng, hdet, hs, List.modify_modify_eq]
            exact modify_at _ _ _ _ _ ho (by simp [marked, hg, hd, hs])
          | ok f =>
            refine ⟨f, ?_⟩
            simp [robustEvaluate, evaluateImp, decodeInd, getObj, ho, HM.bind_apply, modObj, phenomeOf, hmod, contentOf, getArr, hg, hd,
              useRng, hdet, hs, List.modify_modify_eq]
            exact modify_at _ _ _ _ _ ho (by simp [marked, hg, hd, hs])

theorem worker_marked (nan : φ) (dec : Dec γ ψ) (prob : Prob γ ψ φ ρ) (score : Content γ ψ → PyM φ) (hdet : ∀ c s, prob.evaluate c s = (score c, s))
    (own : Option ρ) (r : Nat) (m : Mem γ ψ φ ρ) :
    ∃ f, workerEvaluate nan dec prob own r m = (.ok f, { m with inds := m.inds.modify r (marked nan dec score m.arrays) }) := by
  cases own with
  | none => exact robust_marked nan dec prob score hdet r m
  | some s =>
    obtain ⟨f, e⟩ := robust_marked nan dec prob score hdet r { m with rng := s }
    exact ⟨f, by simp only [workerEvaluate]; rw [e]⟩

theorem completeAll_marked (nan : φ) (dec : Dec γ ψ) (prob : Prob γ ψ φ ρ) (score : Content γ ψ → PyM φ) (hdet : ∀ c s, prob.evaluate c s = (score c, s))
    (own : Nat → Option ρ) (sent is : List Nat) : ∀ m : Mem γ ψ φ ρ, completeAll nan dec prob own sent is m =
      (.ok (), { m with inds := m.inds.mapIdx fun x o => if is.any (fun i => sent[i]? == some x) then marked nan dec score m.arrays o else o }) := by
  induction is with
  | nil =>
    intro m
    have : m.inds.mapIdx (fun _ o => o) = m.inds := by
      apply List.ext_getElem?
      intro i
      simp
    simp [completeAll, this]
  | cons i is ih =>
    intro m
    rw [completeAll]
    cases hr : sent[i]? with
    | none =>
      simp only
      rw [ih]
      simp [hr]
    | some r =>
      simp only
      obtain ⟨f, e⟩ := worker_marked nan dec prob score hdet (own i) r m
      rw [bind_live e, ih]
      congr 2
      apply List.ext_getElem?
      intro x
      simp only [List.getElem?_mapIdx, List.getElem?_modify, List.any_cons, hr]
      cases ho : m.inds[x]? with
      | none => simp
      | some o =>
        by_cases hx : r = x
        · subst hx
          simp [marked_twice]
        · simp [hx]

/-- C124: evaluation on the workers has the same effect in every order and with all random numbers of the workers, when scores depend on
nothing but the phenome: the same individuals in the same places, with the same attributes. -/
theorem sync_evaluate_order_free (nan : φ) (dec : Dec γ ψ) (prob : Prob γ ψ φ ρ) (score : Content γ ψ → PyM φ)
    (hdet : ∀ c s, prob.evaluate c s = (score c, s)) (c c' : SyncRound ρ) (hcop : c'.copied = c.copied) (hord : c'.order.Perm c.order)
    (population : List Nat) (m : Mem γ ψ φ ρ) : syncEvaluate nan dec prob c' population m = syncEvaluate nan dec prob c population m := by
  have hany : ∀ (sent : List Nat) (x : Nat), c'.order.any (fun i => sent[i]? == some x) = c.order.any (fun i => sent[i]? == some x) := by
    intro sent x
    rw [Bool.eq_iff_iff, List.any_eq_true, List.any_eq_true]
    exact ⟨fun ⟨i, h1, h2⟩ => ⟨i, hord.mem_iff.1 h1, h2⟩, fun ⟨i, h1, h2⟩ => ⟨i, hord.mem_iff.2 h1, h2⟩⟩
  have hall : ∀ sent, completeAll nan dec prob c'.own sent c'.order = completeAll nan dec prob c.own sent c.order := by
    intro sent
    funext m
    rw [completeAll_marked nan dec prob score hdet, completeAll_marked nan dec prob score hdet]
    simp only [hany]
  simp only [syncEvaluate, hcop, hall]

theorem sync_loop_order_free (cfg : SyncConfig γ ψ φ ρ) (score : Content γ ψ → PyM φ) (hdet : ∀ c s, cfg.prob.evaluate c s = (score c, s))
    (env env' : Int → SyncRound ρ) (h : ∀ g, (env' g).copied = (env g).copied ∧ (env' g).order.Perm (env g).order) (fuel : Nat) :
    ∀ (g : Int) (parents : List Nat), syncLoop cfg env' fuel g parents = syncLoop cfg env fuel g parents := by
  induction fuel with
  | zero => intro g parents; rfl
  | succ fuel ih =>
    intro g parents
    have he : ∀ pulled, syncEvaluate cfg.nan cfg.dec cfg.prob (env' g) pulled = syncEvaluate cfg.nan cfg.dec cfg.prob (env g) pulled :=
      fun pulled => funext fun m => sync_evaluate_order_free cfg.nan cfg.dec cfg.prob score hdet (env g) (env' g) (h g).1 (h g).2 pulled m
    simp only [syncLoop, he, ih]
    rfl

/-- C124: so the whole run has the same outcome (or raises the same exception) and leaves the same memory, in whichever order the workers
finish and whatever random numbers they have. -/
theorem sync_run_order_free (cfg : SyncConfig γ ψ φ ρ) (score : Content γ ψ → PyM φ) (hdet : ∀ c s, cfg.prob.evaluate c s = (score c, s))
    (initGenome : ρ → PyM (List γ) × ρ) (problem popSize generations : Nat) (env env' : Int → SyncRound ρ)
    (h : ∀ g, (env' g).copied = (env g).copied ∧ (env' g).order.Perm (env g).order) (m : Mem γ ψ φ ρ) :
    syncRun cfg initGenome problem popSize generations env' m = syncRun cfg initGenome problem popSize generations env m := by
  have he : ∀ pulled, syncEvaluate cfg.nan cfg.dec cfg.prob (env' (-1)) pulled = syncEvaluate cfg.nan cfg.dec cfg.prob (env (-1)) pulled :=
    fun pulled => funext fun m => sync_evaluate_order_free cfg.nan cfg.dec cfg.prob score hdet _ _ (h _).1 (h _).2 pulled m
  simp only [syncRun, he, sync_loop_order_free cfg score hdet env env' h]

/-! ## A run -/

/-- Two genes, two individuals, one elite, and `-1` for NaN; `[0, 0]` cannot be scored. -/
def exSync : SyncConfig Int Int Int Nat where
  worse a b := decide (a.getD 0 < b.getD 0)
  choose _ pop m := (.ok (m.rng % pop.length), m.rng + 1)
  stages := [.mutate (.ok ()) false (bitflipFn (some 1) none fun s => (if s % 5 < 3 then [1 / 4, 3 / 4] else [3 / 4, 1 / 4], s + 1))]
  size := 3
  kElites := 1
  stop _ _ _ := false
  best k l m := (topk (fun a b => decide ((((m.inds[a]?).bind Obj.fitness).getD 0) < (((m.inds[b]?).bind Obj.fitness).getD 0))) k l, m.rng + 1)
  nan := -1
  dec := .identity
  prob := exPicky

/-- Odd individuals are copied, and the evaluations are done back to front, by workers with their own random numbers. -/
def exSyncEnv : Int → SyncRound Nat := fun g => ⟨fun r => r % 2 == 1, if g = -1 then [1, 0] else [2, 1, 0], fun i => some (7 * i)⟩

set_option synthInstance.maxSize 1000 in
set_option synthInstance.maxHeartbeats 100000 in
/-- The run meets the hypotheses of `sync_run_members` and `sync_run_completes`. -/
example :
    (∀ k l m, KBest (exSync.lt m) k l (exSync.best k l m).1) ∧ StrictWeak exSync.worse ∧
    (∀ s, ∃ g, (exInit s).1 = .ok g ∧ GenesIn 2 (fun _ x => x = 0 ∨ x = 1) g) ∧
    (∀ st ∈ exSync.stages, StageOk 2 (fun _ x => x = 0 ∨ x = 1) (MayCarry exSync) st) ∧
    (∀ st ∈ exSync.stages, StageLive 2 (fun _ x => x = 0 ∨ x = 1) st) ∧ Sound exStart ∧
    Completes (exSyncEnv (-1)) 2 ∧ (∀ g : Int, 0 ≤ g → Completes (exSyncEnv g) exSync.size) ∧
    (∀ g pop m, pop ≠ [] → (∀ r ∈ pop, Member 2 (fun _ x => x = 0 ∨ x = 1) (MayCarry exSync) m r) →
      ∃ i, (exSync.choose g pop m).1 = .ok i ∧ i < pop.length) ∧
    ((syncRun exSync exInit 0 2 3 exSyncEnv exStart).1.toOption.map fun out =>
      out.map fun r => (r, genes (syncRun exSync exInit 0 2 3 exSyncEnv exStart).2 r, fitness (syncRun exSync exInit 0 2 3 exSyncEnv exStart).2 r)) =
      some [(15, some [1, 0], some (some 1)), (14, some [0, 1], some (some 1)), (6, some [0, 1], some (some 1))] := by
  have hw : StrictWeak exSync.worse := ⟨fun a b => by simp [exSync]; omega, fun a b c => by simp [exSync]; omega⟩
  refine ⟨fun k l m => topk_kbest (evo_lt_strictWeak exSync.toEvoConfig hw m) k l, hw, ?_, ?_, ?_, ⟨by simp [exStart], by simp [exStart], by simp [exStart]⟩, ?_, ?_, ?_, ?_⟩
  · intro s
    refine ⟨_, rfl, rfl, fun i x hx => ?_⟩
    have := List.mem_of_getElem? hx
    simp only [List.mem_cons, List.not_mem_nil, or_false] at this
    rcases this with rfl | rfl
    · omega
    · exact Or.inl rfl
  · intro st hst
    simp only [exSync, List.mem_cons, List.not_mem_nil, or_false] at hst
    subst hst
    exact bitflip_stage_ok _ _ _ _ _ _ _
  · intro st hst
    simp only [exSync, List.mem_cons, List.not_mem_nil, or_false] at hst
    subst hst
    exact bitflip_stage_live _ _ _ _ (1 / 2) (Or.inr ⟨rfl, by decide, 1, rfl, by norm_num⟩) (by norm_num) (by norm_num)
      (fun s => by split <;> rfl) _
  · exact (by decide : [1, 0].Perm (List.range 2))
  · intro g hg
    have : g ≠ -1 := by omega
    simp only [Completes, exSyncEnv, this, if_false]
    exact (by decide : [2, 1, 0].Perm (List.range 3))
  · exact fun g pop m hne _ => ⟨_, rfl, Nat.mod_lt _ (List.length_pos_iff.2 hne)⟩
  · decide +kernel

/-- As `exSync`, with scores that use no random numbers. -/
def exStill : SyncConfig Int Int Int Nat :=
  { exSync with prob := { exPicky with evaluate := fun c s => ((exPicky.evaluate c 0).1, s) } }

/-- A run in which workers finish in the order of submission meets the hypotheses of `sync_run_order_free` together with the one above. -/
example : (∀ c s, exStill.prob.evaluate c s = ((exPicky.evaluate c 0).1, s)) ∧
    (∀ g, (exSyncEnv g).copied = (fun r => r % 2 == 1) ∧ (exSyncEnv g).order.Perm (if g = -1 then [0, 1] else [0, 1, 2])) ∧
    (syncRun exStill exInit 0 2 3 exSyncEnv exStart).1.toOption = some [15, 14, 6] := by
  refine ⟨fun c s => rfl, fun g => ⟨rfl, ?_⟩, by decide +kernel⟩
  by_cases hg : g = -1
  · simp only [exSyncEnv, hg, if_true]
    exact (by decide : [1, 0].Perm [0, 1])
  · simp only [exSyncEnv, hg, if_false]
    exact (by decide : [2, 1, 0].Perm [0, 1, 2])

end Leap
