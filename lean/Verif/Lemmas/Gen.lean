import Verif.Py.Gen

namespace Leap

variable {W σ α : Type}

theorem pull_succ_ok {g : Gen W σ α} {n : Nat} {s : σ} {w : W} {out : List α} {s' : σ} {w' : W}
    (h : pull g (n + 1) s w = .ok (out, s', w')) :
    ∃ a s1 w1 as, g s w = .ok (a, s1, w1) ∧ pull g n s1 w1 = .ok (as, s', w') ∧ out = a :: as := by
  simp only [pull] at h
  cases e : g s w with
  | error err => rw [e] at h; simp at h
  | ok v =>
    obtain ⟨a, s1, w1⟩ := v
    rw [e] at h
    simp only at h
    cases e2 : pull g n s1 w1 with
    | error err => rw [e2] at h; simp at h
    | ok v2 =>
      obtain ⟨as, s2, w2⟩ := v2
      rw [e2] at h
      simp only [Except.ok.injEq, Prod.mk.injEq] at h
      obtain ⟨rfl, rfl, rfl⟩ := h
      exact ⟨a, s1, w1, as, rfl, e2, rfl⟩

theorem pull_add {g : Gen W σ α} (a b : Nat) (s : σ) {w : W} {l1 l2 : List α} {s1 s2 : σ}
    {w1 w2 : W} (h1 : pull g a s w = .ok (l1, s1, w1)) (h2 : pull g b s1 w1 = .ok (l2, s2, w2)) :
    pull g (a + b) s w = .ok (l1 ++ l2, s2, w2) := by
  induction a generalizing s w l1 with
  | zero =>
    simp only [pull, Except.ok.injEq, Prod.mk.injEq] at h1
    obtain ⟨rfl, rfl, rfl⟩ := h1
    simpa using h2
  | succ a ih =>
    obtain ⟨x, sx, wx, xs, e, e2, rfl⟩ := pull_succ_ok h1
    rw [show a + 1 + b = (a + b) + 1 by omega]
    simp only [pull, e, ih sx e2, List.cons_append]

/-- Pulling `a + b` times is pulling `a` times and then `b` times, exceptions included. -/
theorem pull_add_eq (g : Gen W σ α) (a b : Nat) (s : σ) (w : W) :
    pull g (a + b) s w =
      match pull g a s w with
      | .error e => .error e
      | .ok (l1, s1, w1) =>
        match pull g b s1 w1 with
        | .error e => .error e
        | .ok (l2, s2, w2) => .ok (l1 ++ l2, s2, w2) := by
  induction a generalizing s w with
  | zero =>
    simp only [Nat.zero_add, pull, List.nil_append]
    cases pull g b s w <;> rfl
  | succ a ih =>
    rw [show a + 1 + b = (a + b) + 1 by omega]
    simp only [pull]
    cases g s w with
    | error e => rfl
    | ok v =>
      obtain ⟨x, s1, w1⟩ := v
      simp only [ih]
      cases pull g a s1 w1 with
      | error e => rfl
      | ok v1 =>
        obtain ⟨l1, s2, w2⟩ := v1
        simp only
        cases pull g b s2 w2 with
        | error e => rfl
        | ok v2 => rfl

theorem pull_congr_first {g : Gen W σ α} {s s' : σ} {w : W} (h : g s w = g s' w)
    {n : Nat} (hn : 0 < n) : pull g n s w = pull g n s' w := by
  obtain ⟨m, rfl⟩ : ∃ m, n = m + 1 := ⟨n - 1, by omega⟩
  simp only [pull, h]

end Leap
