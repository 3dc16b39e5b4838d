import Verif.Thompson
import Mathlib.Tactic.IntervalCases

/-!
# C78: updating only the arm played
-/

namespace Conj

namespace Spec

/-- `i` is the first position of the least entry -/
def IsArgmin (l : List ℝ) (i : ℕ) : Prop :=
  i < l.length ∧ (∀ j < l.length, l.getD i 0 ≤ l.getD j 0) ∧ ∀ j < i, l.getD i 0 < l.getD j 0

/-- a play: the arm and the reward -/
abbrev Play := ℕ × ℝ

/-- a one-dimensional array with these entries -/
def Holds (a : ArrExpr ℝ) (k : ℕ) (f : ℕ → ℝ) : Prop :=
  ∃ A, a = .ok A ∧ A.rshape = [k] ∧ ∀ i < k, A.get [i] = f i

/-- the rewards of one arm -/
def rewards (h : List Play) (i : ℕ) : List ℝ := (h.filter (fun p => p.1 = i)).map Prod.snd

end Spec

open Spec

theorem argmin_spec (l : List ℝ) (hl : l ≠ []) : ∃ i, argmin l = .ok i ∧ IsArgmin l i := by
  induction l with
  | nil => exact absurd rfl hl
  | cons x l ih =>
    cases l with
    | nil =>
      refine ⟨0, rfl, by simp, ?_, by simp⟩
      intro j hj
      have : j = 0 := by simpa using hj
      subst this; rfl
    | cons y l =>
      obtain ⟨i, hi, hlt, hmin, hfirst⟩ := ih (by simp)
      have e : argmin (x :: y :: l) = .ok (if x ≤ (y :: l).getD i 0 then 0 else i + 1) := by
        rw [argmin, hi]
        simp
      refine ⟨_, e, ?_⟩
      split_ifs with hx
      · refine ⟨by simp, ?_, by simp⟩
        intro j hj
        cases j with
        | zero => rfl
        | succ j =>
          simp only [List.getD_cons_zero, List.getD_cons_succ]
          exact hx.trans (hmin j (by simpa using hj))
      · push Not at hx
        refine ⟨by simpa using hlt, ?_, ?_⟩
        · intro j hj
          cases j with
          | zero => simpa only [List.getD_cons_zero, List.getD_cons_succ] using hx.le
          | succ j =>
            simp only [List.getD_cons_succ]
            exact hmin j (by simpa using hj)
        · intro j hj
          cases j with
          | zero => simpa only [List.getD_cons_zero, List.getD_cons_succ] using hx
          | succ j =>
            simp only [List.getD_cons_succ]
            exact hfirst j (by omega)

theorem argmin_unique {l : List ℝ} {i j : ℕ} (hi : IsArgmin l i) (hj : IsArgmin l j) : i = j := by
  rcases lt_trichotomy i j with h | h | h
  · exact absurd (hi.2.1 j hj.1) (not_le.2 (hj.2.2 i h))
  · exact h
  · exact absurd (hj.2.1 i hi.1) (not_le.2 (hi.2.2 j h))

theorem holds_add {a b : ArrExpr ℝ} {k : ℕ} {f g : ℕ → ℝ} (ha : Holds a k f) (hb : Holds b k g) :
    Holds (a + b) k (fun i => f i + g i) := by
  obtain ⟨A, rfl, hA, hf⟩ := ha
  obtain ⟨B, rfl, hB, hg⟩ := hb
  have hop : (Except.ok A + Except.ok B : ArrExpr ℝ) = NdArr.op (· + ·) A B := rfl
  have hbc : NdArr.bcast A.rshape B.rshape = some [k] := by
    rw [hA, hB]; simp [NdArr.bcast, NdArr.bdim]
  refine ⟨_, by rw [hop, NdArr.op, hbc], rfl, ?_⟩
  intro i hi
  have hp : NdArr.proj [k] [i] = [i] := by
    by_cases h1 : k = 1
    · subst h1
      have : i = 0 := by omega
      subst this
      rfl
    · simp [NdArr.proj, h1]
  simp only [hA, hB, hp, hf i hi, hg i hi]

theorem holds_stats {g k : ℕ} (hg : g < k) (x : ℝ) :
    ∃ X N, bayesian_update_stats g x k = .ok (X, N) ∧
      Holds (.ok X) k (fun i => if i = g then x else 0) ∧ Holds (.ok N) k (fun i => if i = g then 1 else 0) := by
  refine ⟨_, _, by simp only [bayesian_update_stats, NdArr.set1, NdArr.zeros, hg, if_true]; rfl, ?_, ?_⟩
  · refine ⟨_, rfl, rfl, ?_⟩
    intro i _
    simp
  · refine ⟨_, rfl, rfl, ?_⟩
    intro i _
    simp

/-- One step plays the arm with the least sampled value (the first one on ties), adds its reward to
that arm's `alpha` and one to its `beta`, and leaves every other arm alone. -/
theorem C78_step (k : ℕ) (hk : 0 < k) (estimate : Gamma (ArrExpr ℝ)) (a b : ℕ → ℝ)
    (ha : Holds estimate.alpha k a) (hb : Holds estimate.beta k b) (sample : List ℝ) (hs : sample.length = k)
    (trueSample : ℕ → ℝ) :
    ∃ g e, IsArgmin sample g ∧ thompson_step k estimate sample trueSample = .ok e ∧
      Holds e.alpha k (fun i => if i = g then a i + trueSample g else a i) ∧
      Holds e.beta k (fun i => if i = g then b i + 1 else b i) := by
  obtain ⟨g, hg, hmin⟩ := argmin_spec sample (by rintro rfl; simp at hs; omega)
  obtain ⟨X, N, hst, hX, hN⟩ := holds_stats (hs ▸ hmin.1) (trueSample g)
  refine ⟨g, exponential_gamma (.ok X) (.ok N) estimate, hmin, ?_, ?_, ?_⟩
  · simp only [thompson_step, hg]
    change (bayesian_update_stats g (trueSample g) k >>= _) = _
    rw [hst]
    rfl
  · have := holds_add ha hX
    obtain ⟨A, h1, h2, h3⟩ := this
    exact ⟨A, h1, h2, fun i hi => by rw [h3 i hi]; dsimp only; split_ifs <;> simp⟩
  · have := holds_add hb hN
    obtain ⟨A, h1, h2, h3⟩ := this
    exact ⟨A, h1, h2, fun i hi => by rw [h3 i hi]; dsimp only; split_ifs <;> simp⟩

/-- After any number of steps: the plays `h` are one per step, each of the arm with the least sampled value
with the reward that arm gave; every arm's parameters are its prior plus its own history. -/
theorem C78_history (k : ℕ) (hk : 0 < k) (draws : List (List ℝ × (ℕ → ℝ)))
    (hd : ∀ d ∈ draws, d.1.length = k) (prior : Gamma (ArrExpr ℝ)) (a b : ℕ → ℝ)
    (ha : Holds prior.alpha k a) (hb : Holds prior.beta k b) :
    ∃ (h : List Play) (e : Gamma (ArrExpr ℝ)),
      List.Forall₂ (fun d p => IsArgmin d.1 p.1 ∧ p.2 = d.2 p.1) draws h ∧
      thompson_run k prior draws = .ok e ∧
      Holds e.alpha k (fun i => a i + (rewards h i).sum) ∧
      Holds e.beta k (fun i => b i + (rewards h i).length) := by
  induction draws generalizing prior a b with
  | nil =>
    refine ⟨[], prior, List.Forall₂.nil, rfl, ?_, ?_⟩
    · simpa [rewards] using ha
    · simpa [rewards] using hb
  | cons d draws ih =>
    obtain ⟨g, e1, hg, hstep, hA, hB⟩ := C78_step k hk prior a b ha hb d.1 (hd d (by simp)) d.2
    obtain ⟨h, e, hf, hrun, hA', hB'⟩ := ih (fun d' h' => hd d' (by simp [h'])) e1 _ _ hA hB
    refine ⟨(g, d.2 g) :: h, e, List.Forall₂.cons ⟨hg, rfl⟩ hf, ?_, ?_, ?_⟩
    · rw [thompson_run, hstep]; exact hrun
    · obtain ⟨A, h1, h2, h3⟩ := hA'
      refine ⟨A, h1, h2, fun i hi => ?_⟩
      rw [h3 i hi]
      by_cases hig : g = i
      · subst hig; simp [rewards, add_assoc]
      · have : ¬ i = g := fun e => hig e.symm
        simp [rewards, hig, this]
    · obtain ⟨A, h1, h2, h3⟩ := hB'
      refine ⟨A, h1, h2, fun i hi => ?_⟩
      rw [h3 i hi]
      by_cases hig : g = i
      · subst hig; simp [rewards]; ring
      · have : ¬ i = g := fun e => hig e.symm
        simp [rewards, hig, this]

theorem plays_total (k : ℕ) (h : List Play) (hb : ∀ p ∈ h, p.1 < k) :
    ∑ i ∈ Finset.range k, ((rewards h i).length : ℝ) = h.length := by
  induction h with
  | nil => simp [rewards]
  | cons p h ih =>
    have h1 := ih (fun q hq => hb q (by simp [hq]))
    have : ∀ i : ℕ, ((rewards (p :: h) i).length : ℝ) = (if i = p.1 then 1 else 0) + (rewards h i).length := by
      intro i
      by_cases hi : p.1 = i
      · simp [rewards, hi]; ring
      · have : ¬ i = p.1 := fun e => hi e.symm
        simp [rewards, hi, this]
    simp only [this, Finset.sum_add_distrib, h1]
    have hp : p.1 < k := hb p (by simp)
    simp [hp]
    ring

/-- The documented `n_times_sampled = estimate.beta - 1`: from a prior with `beta = 1` it counts the plays
of each arm, and the counts add up to the number of steps. -/
theorem C78_times_sampled (k : ℕ) (hk : 0 < k) (draws : List (List ℝ × (ℕ → ℝ)))
    (hd : ∀ d ∈ draws, d.1.length = k) (prior : Gamma (ArrExpr ℝ)) (a : ℕ → ℝ)
    (ha : Holds prior.alpha k a) (hb : Holds prior.beta k (fun _ => 1)) :
    ∃ (e : Gamma (ArrExpr ℝ)) (count : ℕ → ℝ), thompson_run k prior draws = .ok e ∧
      Holds (e.beta - lit 1) k count ∧ ∑ i ∈ Finset.range k, count i = draws.length := by
  obtain ⟨h, e, hf, hrun, -, B, hB1, hB2, hB3⟩ := C78_history k hk draws hd prior a _ ha hb
  refine ⟨e, fun i => (rewards h i).length, hrun, ?_, ?_⟩
  · rw [hB1]
    refine ⟨{ rshape := [k], get := fun idx => B.get (NdArr.proj B.rshape idx) - (lit 1 : ℝ) }, ?_, rfl, ?_⟩
    · change NdArr.op (· - ·) B (NdArr.scalar (lit 1)) = _
      rw [NdArr.op, hB2]
      rfl
    · intro i hi
      have hp : NdArr.proj [k] [i] = [i] := by
        by_cases h1 : k = 1
        · subst h1
          have : i = 0 := by omega
          subst this
          rfl
        · simp [NdArr.proj, h1]
      simp [hB2, hp, hB3 i hi]
  · rw [plays_total k h]
    · rw [hf.length_eq]
    · intro p hp
      obtain ⟨d, hdm, hh⟩ : ∃ d ∈ draws, IsArgmin d.1 p.1 := by
        clear hrun hB3
        induction hf with
        | nil => simp at hp
        | cons hx _ ih =>
          rcases List.mem_cons.1 hp with rfl | hp
          · exact ⟨_, by simp, hx.1⟩
          · obtain ⟨d, hd', h'⟩ := ih (fun d' h' => hd d' (by simp [h'])) hp
            exact ⟨d, by simp [hd'], h'⟩
      have := hh.1
      rw [hd d hdm] at this
      exact this

/-- three arms, two steps: the hypotheses hold, and the run gives arm 1 its two rewards -/
example : ∃ e, thompson_run 3 ⟨.ok ⟨[3], fun _ => 1⟩, .ok ⟨[3], fun _ => 1⟩⟩
      [([3, 1, 2], fun _ => 5), ([4, 0, 2], fun _ => 7)] = .ok e ∧
    Holds e.alpha 3 (fun i => if i = 1 then 13 else 1) := by
  obtain ⟨h, e, hf, hrun, hA, -⟩ := C78_history 3 (by norm_num) [([3, 1, 2], fun _ => 5), ([4, 0, 2], fun _ => 7)]
    (by simp) ⟨.ok ⟨[3], fun _ => 1⟩, .ok ⟨[3], fun _ => 1⟩⟩ (fun _ => 1) (fun _ => 1)
    ⟨_, rfl, rfl, fun _ _ => rfl⟩ ⟨_, rfl, rfl, fun _ _ => rfl⟩
  refine ⟨e, hrun, ?_⟩
  have am : ∀ l : List ℝ, l = [3, 1, 2] ∨ l = [4, 0, 2] → IsArgmin l 1 := by
    rintro l (rfl | rfl) <;> (refine ⟨by simp, ?_, ?_⟩ <;> intro j hj <;> have hj' : j < 3 := by simp at hj; omega) <;>
      interval_cases j <;> first | simp | simp at hj
  cases hf with
  | cons h1 h2 =>
    cases h2 with
    | cons h3 h4 =>
      cases h4
      rename_i p q
      obtain ⟨p1, p2⟩ := p
      obtain ⟨q1, q2⟩ := q
      have e1 := argmin_unique h1.1 (am _ (Or.inl rfl))
      have e2 := argmin_unique h3.1 (am _ (Or.inr rfl))
      simp only at e1 e2
      subst e1 e2
      have e3 := h1.2
      have e4 := h3.2
      simp only at e3 e4
      subst e3 e4
      obtain ⟨A, g1, g2, g3⟩ := hA
      refine ⟨A, g1, g2, fun i hi => ?_⟩
      rw [g3 i hi]
      interval_cases i <;> norm_num [rewards]

end Conj
