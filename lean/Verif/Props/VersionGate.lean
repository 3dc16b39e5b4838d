import Verif.Version

/-!
# C77: the SciPy version gate
-/

namespace Conj

namespace Spec

/-- version order (PEP 440): at the first component that differs, missing components counting as zero -/
def Before (r p : List ℕ) : Prop := ∃ k, r.getD k 0 < p.getD k 0 ∧ ∀ j < k, r.getD j 0 = p.getD j 0

end Spec

open Spec

theorem before_nil_right (r : List ℕ) : ¬ Before r [] := by
  rintro ⟨k, h, -⟩
  simp at h

theorem before_cons {x y : ℕ} {r p : List ℕ} : Before (x :: r) (y :: p) ↔ x < y ∨ (x = y ∧ Before r p) := by
  constructor
  · rintro ⟨k, hk, hj⟩
    cases k with
    | zero => left; simpa using hk
    | succ k =>
      right
      refine ⟨by simpa using hj 0 (by omega), k, by simpa using hk, fun j hjk => ?_⟩
      simpa using hj (j + 1) (by omega)
  · rintro (h | ⟨rfl, k, hk, hj⟩)
    · exact ⟨0, by simpa using h, by simp⟩
    · refine ⟨k + 1, by simpa using hk, fun j hjk => ?_⟩
      cases j with
      | zero => rfl
      | succ j => simpa using hj j (by omega)

/-- For versions with as many components as the bound or more, the comparison of tuples is the order
of versions. -/
theorem tupleLt_iff {r p : List ℕ} (h : p.length ≤ r.length) : tupleLt r p = true ↔ Before r p := by
  induction p generalizing r with
  | nil => simp [tupleLt, before_nil_right]
  | cons y p ih =>
    cases r with
    | nil => simp at h
    | cons x r =>
      rw [before_cons, ← ih (by simpa using h), tupleLt]
      split_ifs with h1 h2
      · simp [h1]
      · simp [h2]
      · simp [h1, h2]

/-- The gate in full: `dist` raises exactly for releases before 1.12.0 - and for a release written
`1.12`. -/
theorem C77_gate_iff (scipy : Version) (d : BetaNegativeBinomial ℝ) (hr : scipy.release ≠ []) :
    d.distProperty scipy = .error (.notImplemented "BetaNegativeBinomial.dist requires scipy >= 1.12.0") ↔
      Before scipy.release [1, 12, 0] ∨ scipy.release = [1, 12] := by
  have e : d.distProperty scipy = .error (.notImplemented "BetaNegativeBinomial.dist requires scipy >= 1.12.0") ↔
      tupleLt scipy.release [1, 12, 0] = true := by
    unfold BetaNegativeBinomial.distProperty
    split_ifs with h <;> simp [h]
  rw [e]
  generalize scipy.release = r at hr ⊢
  have nb : ∀ p : List ℕ, (∀ k, p.getD k 0 = 0) → ∀ r, ¬ Before r p := by
    rintro p hp r ⟨k, hk, -⟩
    rw [hp] at hk
    omega
  have b2 : ∀ r, ¬ Before r [0] := nb [0] (by intro k; rcases k with _ | k <;> simp)
  match r, hr with
  | [x], _ =>
    have : Before [] [12, 0] := ⟨0, by simp, by simp⟩
    rw [before_cons, tupleLt]
    split_ifs with h1 h2
    · simp [h1]
    · simp [h2, tupleLt, this]
    · simp [h1, h2]
  | [x, y], _ =>
    rw [before_cons, before_cons, tupleLt, tupleLt]
    have := b2 []
    split_ifs with h1 h2 h3 h4
    · simp [h1]
    · simp [h2, h3]
    · simp [h2, h4, tupleLt]
    · simp [h2, h3, h4]
    · simp [h1, h2]
  | x :: y :: z :: l, _ =>
    rw [tupleLt_iff (by simp)]
    simp

/-- C77 for version numbers written with three components or more, as SciPy's all are.
Missing: the release `1.12` written with two. -/
theorem C77_gate_partial (scipy : Version) (d : BetaNegativeBinomial ℝ) (hr : 3 ≤ scipy.release.length) :
    (Before scipy.release [1, 12, 0] →
      d.distProperty scipy = .error (.notImplemented "BetaNegativeBinomial.dist requires scipy >= 1.12.0")) ∧
    (¬ Before scipy.release [1, 12, 0] → d.distProperty scipy = .ok d.dist) := by
  have h0 : scipy.release ≠ [] := by rintro h; rw [h] at hr; simp at hr
  have h1 := C77_gate_iff scipy d h0
  constructor
  · exact fun h => h1.2 (Or.inl h)
  · intro h
    have ht : ¬ tupleLt scipy.release [1, 12, 0] = true := by
      rw [tupleLt_iff (by simpa using hr)]
      exact h
    simp [BetaNegativeBinomial.distProperty, ht]

/-- SciPy `1.12` is not before 1.12.0, yet `dist` raises. -/
theorem C77_two_components_false (d : BetaNegativeBinomial ℝ) :
    ¬ Before [1, 12] [1, 12, 0] ∧ d.distProperty { release := [1, 12] } =
      .error (.notImplemented "BetaNegativeBinomial.dist requires scipy >= 1.12.0") := by
  refine ⟨?_, (C77_gate_iff { release := [1, 12] } d (by simp)).2 (Or.inr rfl)⟩
  rw [before_cons, before_cons]
  rintro (h | ⟨-, h | ⟨-, k, hk, -⟩⟩)
  · omega
  · omega
  · rcases k with _ | k <;> simp at hk

/-- A release candidate of 1.12.0 counts as 1.12.0: only `.release` is looked at. -/
theorem C77_pre_release (scipy scipy' : Version) (h : scipy.release = scipy'.release) (d : BetaNegativeBinomial ℝ) :
    d.distProperty scipy = d.distProperty scipy' := by
  simp [BetaNegativeBinomial.distProperty, h]

example : Before [1, 9, 3] [1, 12, 0] ∧ ¬ Before [1, 13, 0] [1, 12, 0] ∧ ¬ Before [2, 0, 0] [1, 12, 0] := by
  have h : ∀ r : List ℕ, 3 ≤ r.length → (Before r [1, 12, 0] ↔ tupleLt r [1, 12, 0] = true) :=
    fun r hr => (tupleLt_iff (by simpa using hr)).symm
  rw [h _ (by simp), h _ (by simp), h _ (by simp)]
  decide

end Conj
