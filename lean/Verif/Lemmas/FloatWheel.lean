import Mathlib.Data.List.Induction
import Verif.Spec.FloatSum
import Verif.Model.FloatOps
import Verif.Lemmas.Float
import Verif.Lemmas.Gen

namespace Leap
open Spec

theorem floatSum_concat (l : List ℚ) (v : ℚ) : floatSum (l ++ [v]) = fl64 (floatSum l + v) := by simp [floatSum]

theorem floatSum_float (l : List ℚ) : fl64 (floatSum l) = floatSum l := by
  induction l using List.reverseRecOn with
  | nil => simp [floatSum, fl64_zero]
  | append_singleton l v _ => rw [floatSum_concat, fl64_idem]

theorem floatWheel_zero (vs : List ℚ) : floatWheel vs 0 = 0 := by simp [floatWheel, floatSum]

theorem floatWheel_succ {vs : List ℚ} {i : Nat} (h : i < vs.length) : floatWheel vs (i + 1) = fl64 (floatWheel vs i + vs[i]) := by
  unfold floatWheel
  rw [List.take_add_one, List.getElem?_eq_getElem h]
  exact floatSum_concat _ _

theorem floatWheel_length (vs : List ℚ) : floatWheel vs vs.length = floatSum vs := by simp [floatWheel]

theorem floatWheel_mono {vs : List ℚ} (h : ∀ v ∈ vs, 0 ≤ v) {i j : Nat} (hij : i ≤ j) : floatWheel vs i ≤ floatWheel vs j := by
  induction j with
  | zero => simp_all
  | succ j ih =>
    rcases Nat.lt_or_ge i (j + 1) with h1 | h1
    · have h2 := ih (by omega)
      rcases Nat.lt_or_ge j vs.length with h3 | h3
      · rw [floatWheel_succ h3]
        have := h vs[j] (List.getElem_mem h3)
        refine h2.trans ?_
        conv_lhs => rw [floatWheel, ← floatSum_float]
        exact fl64_mono (by rw [← floatWheel]; linarith)
      · have : floatWheel vs (j + 1) = floatWheel vs j := by
          simp [floatWheel, List.take_of_length_le h3, List.take_of_length_le (Nat.le_succ_of_le h3)]
        linarith
    · have : i = j + 1 := by omega
      rw [this]

theorem floatWheel_le {vs : List ℚ} (h : ∀ v ∈ vs, 0 ≤ v) (i : Nat) : floatWheel vs i ≤ floatSum vs := by
  rcases Nat.le_total i vs.length with h1 | h1
  · rw [← floatWheel_length]; exact floatWheel_mono h h1
  · simp [floatWheel, List.take_of_length_le h1]

theorem floatWheel_nonneg {vs : List ℚ} (h : ∀ v ∈ vs, 0 ≤ v) (i : Nat) : 0 ≤ floatWheel vs i := by
  rw [← floatWheel_zero vs]; exact floatWheel_mono h (Nat.zero_le _)

/-! ### Cumulated weights -/

theorem accumulateF_get (ws : List ℚ) (i : Nat) (h : i < ws.length) :
    (accumulateF fl64 0 ws)[i]? = some (floatWheel ws (i + 1)) := by
  have key : ∀ (ws : List ℚ) (acc : ℚ) (i : Nat), i < ws.length → (accumulateF fl64 acc ws)[i]? = some ((ws.take (i + 1)).foldl (fun s v => fl64 (s + v)) acc) := by
    intro ws
    induction ws with
    | nil => intro acc i hi; simp at hi
    | cons w ws ih =>
      intro acc i hi
      cases i with
      | zero => simp [accumulateF]
      | succ i =>
        simp only [accumulateF, List.getElem?_cons_succ, List.take_succ_cons, List.foldl_cons]
        exact ih _ _ (by simpa using hi)
  exact key ws 0 i h

theorem accumulateF_length (fl : ℚ → ℚ) (acc : ℚ) (ws : List ℚ) : (accumulateF fl acc ws).length = ws.length := by
  induction ws generalizing acc with
  | nil => rfl
  | cons w ws ih => simp [accumulateF, ih]

theorem bisectF_spec (x : ℚ) (cum : List ℚ) (c : ℚ) (hlast : cum.getLast? = some c) (hx : x < c) :
    ∃ h : bisectF x cum < cum.length, x < cum[bisectF x cum] ∧ ∀ i (hi : i < bisectF x cum), cum[i] ≤ x := by
  induction cum with
  | nil => simp at hlast
  | cons a as ih =>
    cases as with
    | nil =>
      simp at hlast
      subst hlast
      exact ⟨by simp [bisectF], by simpa [bisectF] using hx, by simp [bisectF]⟩
    | cons b bs =>
      by_cases hxa : x < a
      · have e : bisectF x (a :: b :: bs) = 0 := by simp [bisectF, hxa]
        refine ⟨by rw [e]; simp, ?_, ?_⟩
        · simp only [e]; exact hxa
        · intro i hi; rw [e] at hi; omega
      · have e : bisectF x (a :: b :: bs) = bisectF x (b :: bs) + 1 := by simp [bisectF, hxa]
        obtain ⟨h1, h2, h3⟩ := ih (by simpa using hlast)
        refine ⟨by rw [e]; simpa using h1, ?_, ?_⟩
        · simp only [e, List.getElem_cons_succ]; exact h2
        · intro i hi
          cases i with
          | zero => simpa using not_lt.1 hxa
          | succ i =>
            simp only [List.getElem_cons_succ]
            exact h3 i (by omega)

/-! ### One pass of stochastic universal sampling -/

theorem susAdvanceF_spec {vs : List ℚ} {pt : ℚ} (hpt : pt ≤ floatSum vs) : ∀ (d idx : Nat), idx + d = vs.length →
      ∃ k, susAdvanceF fl64 pt (vs.drop idx) (floatWheel vs idx) idx = .ok (floatWheel vs k, k) ∧ idx ≤ k ∧
        k ≤ vs.length ∧ pt ≤ floatWheel vs k ∧ ∀ p, idx ≤ p → p < k → floatWheel vs p < pt := by
  intro d
  induction d with
  | zero =>
    intro idx hidx
    have : idx = vs.length := by omega
    subst this
    refine ⟨vs.length, ?_, le_refl _, le_refl _, by rw [floatWheel_length]; exact hpt, by omega⟩
    rw [List.drop_length]
    simp only [susAdvanceF]
    rw [if_neg (by rw [floatWheel_length]; linarith)]
  | succ d ih =>
    intro idx hidx
    have hlt : idx < vs.length := by omega
    rw [List.drop_eq_getElem_cons hlt]
    simp only [susAdvanceF]
    split
    · next h =>
      obtain ⟨k, e, h1, h2, h3, h4⟩ := ih (idx + 1) (by omega)
      rw [← floatWheel_succ hlt]
      refine ⟨k, e, by omega, h2, h3, ?_⟩
      intro p hp hpk
      rcases Nat.eq_or_lt_of_le hp with rfl | hp'
      · exact h
      · exact h4 p hp' hpk
    · next h => exact ⟨idx, rfl, le_refl _, by omega, by linarith, by omega⟩

/-- A point beyond the last slice makes the loop run off the end. -/
theorem susAdvanceF_beyond {vs : List ℚ} {pt : ℚ} (hv : ∀ v ∈ vs, 0 ≤ v) (hpt : floatSum vs < pt) : ∀ (d idx : Nat), idx + d = vs.length →
    susAdvanceF fl64 pt (vs.drop idx) (floatWheel vs idx) idx = .error .indexError := by
  intro d
  induction d with
  | zero =>
    intro idx hidx
    have : idx = vs.length := by omega
    subst this
    rw [List.drop_length]
    simp only [susAdvanceF]
    rw [if_pos (by rw [floatWheel_length]; exact hpt)]
  | succ d ih =>
    intro idx hidx
    have hlt : idx < vs.length := by omega
    rw [List.drop_eq_getElem_cons hlt]
    simp only [susAdvanceF]
    rw [if_pos (lt_of_le_of_lt (floatWheel_le hv idx) hpt), ← floatWheel_succ hlt]
    exact ih (idx + 1) (by omega)

theorem susStepF_spec {u : Nat → ℚ} {shuffle : Bool} {n : Nat} {vs : List ℚ} {sp : ℚ} (hne : vs ≠ [])
    {points : List ℚ} {j idx round : Nat} {pt : ℚ} (hpt : points[j]? = some pt)
    (hle : pt ≤ floatSum vs) (hidx : idx ≤ vs.length) (hprev : ∀ p, p < idx → floatWheel vs p < pt) :
    ∃ i k, susStepF fl64 u shuffle n vs sp ⟨points, j, idx, floatWheel vs idx, round⟩ =
        .ok (i, ⟨points, j + 1, k, floatWheel vs k, round⟩) ∧ HitF vs pt i ∧ k ≤ vs.length ∧ (∀ p, p < k → floatWheel vs p < pt) := by
  have hj : j < points.length := by
    rcases Nat.lt_or_ge j points.length with h | h
    · exact h
    · rw [List.getElem?_eq_none h] at hpt; simp at hpt
  obtain ⟨k, e, h1, h2, h3, h4⟩ := susAdvanceF_spec hle (vs.length - idx) idx (by omega)
  have h5 : ∀ p, p < k → floatWheel vs p < pt := by
    intro p hp
    rcases Nat.lt_or_ge p idx with h | h
    · exact hprev p h
    · exact h4 p h hp
  have hpl : 0 < vs.length := List.length_pos_iff.mpr hne
  by_cases hk : k = 0
  · subst hk
    refine ⟨vs.length - 1, 0, ?_, ?_, h2, h5⟩
    · have hp : pyPos vs.length (((0 : Nat) : Int) - 1) = some (vs.length - 1) := by
        unfold pyPos
        rw [if_neg (by decide), if_pos (by omega)]
        congr 1; omega
      simp only [susStepF, if_neg (Nat.ne_of_lt hj), hpt, e, hp]
    · left
      rw [floatWheel_zero] at h3
      exact ⟨h3, by omega⟩
  · have hkl : k - 1 < vs.length := by omega
    refine ⟨k - 1, k, ?_, ?_, h2, h5⟩
    · have hp : pyPos vs.length ((k : Int) - 1) = some (k - 1) := by
        unfold pyPos
        rw [if_pos (by omega), if_pos (by omega)]
        congr 1; omega
      simp only [susStepF, if_neg (Nat.ne_of_lt hj), hpt, e, hp]
    · by_cases hpos : 0 < pt
      · right
        refine ⟨hpos, hkl, h5 _ (by omega), ?_⟩
        rw [show k - 1 + 1 = k by omega]; exact h3
      · exfalso
        have := h5 0 (by omega)
        rw [floatWheel_zero] at this
        exact hpos this

theorem susStepF_beyond {u : Nat → ℚ} {shuffle : Bool} {n : Nat} {vs : List ℚ} {sp : ℚ} (hv : ∀ v ∈ vs, 0 ≤ v)
    {points : List ℚ} {j idx round : Nat} {pt : ℚ} (hpt : points[j]? = some pt) (hle : floatSum vs < pt) (hidx : idx ≤ vs.length) :
    susStepF fl64 u shuffle n vs sp ⟨points, j, idx, floatWheel vs idx, round⟩ = .error .indexError := by
  have hj : j < points.length := by
    rcases Nat.lt_or_ge j points.length with h | h
    · exact h
    · rw [List.getElem?_eq_none h] at hpt; simp at hpt
  simp only [susStepF, if_neg (Nat.ne_of_lt hj), hpt, susAdvanceF_beyond hv hle (vs.length - idx) idx (by omega)]

theorem pointF_mono {x sp : ℚ} (hsp : 0 ≤ sp) {i j : Nat} (h : i ≤ j) : pointF x sp i ≤ pointF x sp j := by
  have : fl64 (i : ℚ) ≤ fl64 (j : ℚ) := fl64_mono (by exact_mod_cast h)
  exact fl64_mono (add_le_add le_rfl (fl64_mono (mul_le_mul_of_nonneg_right this hsp)))

theorem susPointsF_get {x sp : ℚ} {n j : Nat} (h : j < n) : (susPointsF fl64 x sp n)[j]? = some (pointF x sp j) := by
  simp [susPointsF, pointF, h]

/-- What a selector with fixed setup does (the part of `susF` after the setup). -/
def susGenF (u : Nat → ℚ) (shuffle : Bool) (n : Nat) (vs : List ℚ) (sp : ℚ) : Gen Unit (Option SusState) Nat := fun s _ =>
  match susStepF fl64 u shuffle n vs sp (s.getD ⟨susPointsF fl64 (fl64 (sp * u 0)) sp n, 0, 0, 0, 1⟩) with
  | .error e => .error e
  | .ok (a, s') => .ok (a, some s', ())

/-- The next `d` selections of a pass, all of whose points are on the wheel. -/
theorem susGenF_pass {u : Nat → ℚ} {shuffle : Bool} {n : Nat} {vs : List ℚ} {sp : ℚ} (hne : vs ≠ []) {x : ℚ} (hsp : 0 ≤ sp) :
    ∀ (d j idx round : Nat), j + d ≤ n → idx ≤ vs.length → (∀ t, j ≤ t → t < j + d → pointF x sp t ≤ floatSum vs) →
      (∀ p, p < idx → floatWheel vs p < pointF x sp j) →
      ∃ out k, pull (susGenF u shuffle n vs sp) d (some ⟨susPointsF fl64 x sp n, j, idx, floatWheel vs idx, round⟩) () =
          .ok (out, some ⟨susPointsF fl64 x sp n, j + d, k, floatWheel vs k, round⟩, ()) ∧
        out.length = d ∧ k ≤ vs.length ∧ ∀ t, t < d → ∃ i, out[t]? = some i ∧ HitF vs (pointF x sp (j + t)) i := by
  intro d
  induction d with
  | zero =>
    intro j idx round hj hidx _ hprev
    exact ⟨[], idx, rfl, rfl, hidx, by omega⟩
  | succ d ih =>
    intro j idx round hj hidx hle hprev
    obtain ⟨i, k, e, hhit, hk, hprev'⟩ := susStepF_spec (u := u) (shuffle := shuffle)
      (n := n) (sp := sp) (round := round) hne (susPointsF_get (x := x) (sp := sp) (n := n)
      (j := j) (by omega)) (hle j (le_refl _) (by omega)) hidx hprev
    obtain ⟨out, k', e', hl, hk', hspec⟩ := ih (j + 1) k round (by omega) hk (fun t h1 h2 => hle t (by omega) (by omega)) (by
      intro p hp
      exact lt_of_lt_of_le (hprev' p hp) (pointF_mono hsp (by omega)))
    refine ⟨i :: out, k', ?_, by simp [hl], hk', ?_⟩
    · have hg : susGenF u shuffle n vs sp (some ⟨susPointsF fl64 x sp n, j, idx, floatWheel vs idx, round⟩) () =
          .ok (i, some ⟨susPointsF fl64 x sp n, j + 1, k, floatWheel vs k, round⟩, ()) := by
        simp only [susGenF, Option.getD_some, e]
      simp only [pull, hg, e']
      rw [show j + 1 + d = j + (d + 1) by omega]
    · intro t ht
      cases t with
      | zero => exact ⟨i, by simp, by simpa using hhit⟩
      | succ t =>
        obtain ⟨i', h1, h2⟩ := hspec t (by omega)
        refine ⟨i', by simpa using h1, ?_⟩
        rw [show j + (t + 1) = j + 1 + t by omega]; exact h2

/-- Selection runs up to the first point beyond the wheel and raises there. -/
theorem susGenF_breaks {u : Nat → ℚ} {shuffle : Bool} {n : Nat} {vs : List ℚ} {sp : ℚ} (hne : vs ≠ []) (hv : ∀ v ∈ vs, 0 ≤ v) {x : ℚ} (hsp : 0 ≤ sp)
    (round t : Nat) (ht : t < n) (hbefore : ∀ i, i < t → pointF x sp i ≤ floatSum vs) (hat : floatSum vs < pointF x sp t) :
    pull (susGenF u shuffle n vs sp) (t + 1) (some ⟨susPointsF fl64 x sp n, 0, 0, 0, round⟩) () = .error .indexError := by
  obtain ⟨out, k, e, -, hk, -⟩ := susGenF_pass (u := u) (shuffle := shuffle) (n := n) hne hsp t 0 0 round (by omega) (by omega)
    (fun i _ h => hbefore i (by omega)) (by omega)
  rw [floatWheel_zero] at e
  rw [pull_add_eq, e]
  have hg : susGenF u shuffle n vs sp (some ⟨susPointsF fl64 x sp n, 0 + t, k, floatWheel vs k, round⟩) () = .error .indexError := by
    simp only [susGenF, Option.getD_some]
    rw [susStepF_beyond hv (susPointsF_get (by omega)) (by rw [Nat.zero_add]; exact hat) hk]
  simp only [pull, hg]

/-- The state after `m` complete passes behaves like a fresh one. -/
theorem susGenF_passes {u : Nat → ℚ} {shuffle : Bool} {n : Nat} {vs : List ℚ} {sp : ℚ} (hne : vs ≠ []) (hn : 0 < n) (hsp : 0 ≤ sp) (m : Nat)
    (hle : ∀ r t : Nat, r < (if shuffle then m else 1) → t < n → pointF (fl64 (sp * u r)) sp t ≤ floatSum vs) :
    ∃ before s, pull (susGenF u shuffle n vs sp) (m * n) none () = .ok (before, s, ()) ∧ before.length = m * n ∧
      susGenF u shuffle n vs sp s () = susGenF u shuffle n vs sp
        (some ⟨susPointsF fl64 (fl64 (sp * u (if shuffle then m else 0))) sp n, 0, 0, 0, if shuffle then m + 1 else 1⟩) () := by
  induction m with
  | zero =>
    refine ⟨[], none, by simp [pull], by simp, ?_⟩
    cases shuffle <;> simp [susGenF]
  | succ m ih =>
    obtain ⟨before, s, e, hl, hs⟩ := ih (by
      intro r t hr ht
      refine hle r t ?_ ht
      cases shuffle <;> simp_all; omega)
    obtain ⟨out, k, e2, hl2, -, -⟩ := susGenF_pass (u := u) (shuffle := shuffle) (n := n) (x := fl64 (sp * u (if shuffle then m else 0))) hne hsp n 0 0
      (if shuffle then m + 1 else 1) (by omega) (by omega) (fun t _ h => hle _ t (by cases shuffle <;> simp) (by omega)) (by omega)
    rw [floatWheel_zero, ← pull_congr_first hs hn] at e2
    have e3 := pull_add _ _ _ e e2
    rw [← Nat.succ_mul] at e3
    refine ⟨before ++ out, _, e3, by simp [hl, hl2, Nat.succ_mul], ?_⟩
    have hpl : ∀ x, (susPointsF fl64 x sp n).length = n := by simp [susPointsF]
    cases shuffle with
    | true => simp only [susGenF, Option.getD_some, susStepF, hpl, if_true, Nat.zero_add, if_neg (Nat.ne_of_lt hn)]
    | false => simp only [susGenF, Option.getD_some, susStepF, hpl, if_true, Nat.zero_add, if_neg (Nat.ne_of_lt hn), Bool.false_eq_true, if_false]

end Leap
