import Verif.Props.Identifiable
import Verif.Props.Hypergeometric
import Verif.Props.PredictiveGeometricPoisson
import Verif.Props.Dirichlet
import Verif.Lemmas.DiscreteMeans

/-!
# C97: different parameters mean different distributions (counts and categories)
-/

open Real Filter Topology Set

namespace Conj

open Scipy

/-- C97, `Poisson`. -/
theorem C97_poisson (d d' : Poisson ℝ) (h : ∀ k : ℤ, d.dist.pmf k = d'.dist.pmf k) : d = d' := by
  have e0 := h (0 : ℕ)
  rw [Poisson.pmf_nat, Poisson.pmf_nat] at e0
  simp only [pow_zero, Nat.factorial_zero, Nat.cast_one, div_one, mul_one] at e0
  have := exp_injective e0
  cases d; cases d'
  simp only [Poisson.mk.injEq] at *
  linarith

/-- C97, `Binomial`: the number of trials is determined, and so is the probability unless there are no
trials. -/
theorem C97_binomial (n n' : ℕ) (p p' : ℝ) (hp : p ∈ Ioo (0 : ℝ) 1) (hp' : p' ∈ Ioo (0 : ℝ) 1) :
    (∀ k : ℤ, (Binomial.dist ⟨n, p⟩).pmf k = (Binomial.dist ⟨n', p'⟩).pmf k) ↔ n = n' ∧ (n = 0 ∨ p = p') := by
  have hpos : ∀ (n : ℕ) (p : ℝ), p ∈ Ioo (0 : ℝ) 1 → 0 < (Binomial.dist ⟨n, p⟩).pmf n := by
    intro n p hp
    have h1 := hp.1
    rw [Binomial.pmf_nat n n le_rfl]
    simp only [Nat.choose_self, Nat.sub_self, pow_zero]
    positivity
  constructor
  · intro h
    have hn : n = n' := by
      rcases lt_trichotomy n n' with hlt | he | hlt
      · exact absurd ((binomial_gt n n' hlt p).symm.trans (h n')) (hpos n' p' hp').ne
      · exact he
      · exact absurd ((binomial_gt n' n hlt p').symm.trans (h n).symm) (hpos n p hp).ne
    refine ⟨hn, ?_⟩
    rcases Nat.eq_zero_or_pos n with h0 | h0
    · exact Or.inl h0
    · right
      have e := h n
      rw [← hn, Binomial.pmf_nat n n le_rfl, Binomial.pmf_nat n n le_rfl] at e
      simp only [Nat.choose_self, Nat.sub_self, pow_zero, mul_one, Nat.cast_one, one_mul] at e
      exact (pow_left_inj₀ hp.1.le hp'.1.le h0.ne').1 e
  · rintro ⟨rfl, h | rfl⟩ k
    · subst h
      rcases lt_trichotomy k 0 with hk | rfl | hk
      · rw [binomial_neg _ _ _ hk, binomial_neg _ _ _ hk]
      · have e : ∀ p, (Binomial.dist ⟨((0 : ℕ) : ℝ), p⟩).pmf ((0 : ℕ) : ℤ) = 1 := fun p => by
          rw [Binomial.pmf_nat 0 0 le_rfl]; simp
        exact (e p).trans (e p').symm
      · obtain ⟨m, rfl⟩ := Int.eq_ofNat_of_zero_le hk.le
        have hm : 0 < m := by exact_mod_cast hk
        rw [binomial_gt 0 m hm, binomial_gt 0 m hm]
    · rfl

/-- C97, `Geometric`: both the probability and where counting starts. -/
theorem C97_geometric (d d' : Geometric ℝ) (hp : 0 < d.p) (hp' : 0 < d'.p)
    (h : ∀ k : ℤ, d.dist.pmf k = d'.dist.pmf k) : d = d' := by
  obtain ⟨p, s⟩ := d
  obtain ⟨p', s'⟩ := d'
  have f0 : ∀ p, (Geometric.dist ⟨p, false⟩).pmf ((0 : ℕ) : ℤ) = p := fun p => by
    rw [Geometric.pmf_zero_start]; simp
  have t0 : ∀ p, (Geometric.dist ⟨p, true⟩).pmf ((0 : ℕ) : ℤ) = 0 := fun p => geometric_zero p
  have t1 : ∀ p, (Geometric.dist ⟨p, true⟩).pmf ((1 : ℕ) : ℤ) = p := fun p => by
    rw [Geometric.pmf_one_start p 1 le_rfl]; simp
  have e0 := h (0 : ℕ)
  have e1 := h (1 : ℕ)
  simp only at hp hp'
  cases s <;> cases s'
  · rw [f0, f0] at e0; rw [e0]
  · rw [f0, t0] at e0; exact absurd e0 hp.ne'
  · rw [f0, t0] at e0; exact absurd e0 hp'.ne
  · rw [t1, t1] at e1; rw [e1]

theorem choose_step (r : ℝ) (hr : 0 < r) (k : ℕ) :
    choose (((k + 1 : ℕ) : ℝ) + r - 1) ((k + 1 : ℕ) : ℝ) = choose ((k : ℝ) + r - 1) k * ((r + k) / (k + 1)) := by
  rw [choose, choose]
  push_cast
  have e1 : (k : ℝ) + 1 + r - 1 + 1 = (k + r) + 1 := by ring
  have e2 : (k : ℝ) + 1 + r - 1 - (k + 1) + 1 = r := by ring
  have e3 : (k : ℝ) + r - 1 + 1 = k + r := by ring
  have e4 : (k : ℝ) + r - 1 - k + 1 = r := by ring
  rw [e1, e2, e3, e4, Real.Gamma_add_one (s := (k : ℝ) + r) (by positivity),
    Real.Gamma_add_one (s := (k : ℝ) + 1) (by positivity)]
  have h1 : 0 < Real.Gamma ((k : ℝ) + 1) := Real.Gamma_pos_of_pos (by positivity)
  have h2 : 0 < Real.Gamma r := Real.Gamma_pos_of_pos hr
  field_simp
  ring

/-- C97, `NegativeBinomial`. -/
theorem C97_negative_binomial (d d' : NegativeBinomial ℝ) (hn : 0 < d.n) (hp : d.p ∈ Ioo (0 : ℝ) 1)
    (hn' : 0 < d'.n) (hp' : d'.p ∈ Ioo (0 : ℝ) 1) (h : ∀ k : ℤ, d.dist.pmf k = d'.dist.pmf k) : d = d' := by
  have step : ∀ e : NegativeBinomial ℝ, 0 < e.n → ∀ k : ℕ, e.dist.pmf ((k + 1 : ℕ) : ℤ) =
      e.dist.pmf (k : ℤ) * ((e.n + k) / (k + 1) * (1 - e.p)) := by
    intro e he k
    have a1 := NegativeBinomial.pmf_nat e.n e.p (k + 1)
    have a2 := NegativeBinomial.pmf_nat e.n e.p k
    rw [choose_step e.n he k, pow_succ] at a1
    rw [show e.dist = NegativeBinomial.dist ⟨e.n, e.p⟩ from rfl, a1, a2]
    ring
  have pos : ∀ e : NegativeBinomial ℝ, 0 < e.n → e.p ∈ Ioo (0 : ℝ) 1 → ∀ k : ℕ, 0 < e.dist.pmf (k : ℤ) := by
    intro e he hp k
    have := hp.1
    have := sub_pos.2 hp.2
    have := choose_add_sub_one_pos k he
    rw [show e.dist = NegativeBinomial.dist ⟨e.n, e.p⟩ from rfl, NegativeBinomial.pmf_nat]
    positivity
  have r : ∀ k : ℕ, (d.n + k) / (k + 1) * (1 - d.p) = (d'.n + k) / (k + 1) * (1 - d'.p) := by
    intro k
    have e := h ((k + 1 : ℕ) : ℤ)
    rw [step d hn, step d' hn', ← h k] at e
    exact mul_left_cancel₀ (pos d hn hp k).ne' e
  have r0 := r 0
  have r1 := r 1
  norm_num at r0 r1
  have ep : d.p = d'.p := by linarith
  have en : d.n = d'.n := by
    rw [← ep] at r0
    exact mul_right_cancel₀ (sub_pos.2 hp.2).ne' r0
  cases d; cases d'
  simp only [NegativeBinomial.mk.injEq] at *
  exact ⟨en, ep⟩

/-- C97, `BetaBinomial` with at least two trials. -/
theorem C97_beta_binomial (n n' : ℕ) (hn : 2 ≤ n) (a b a' b' : ℝ) (ha : 0 < a) (hb : 0 < b) (ha' : 0 < a')
    (hb' : 0 < b') (h : ∀ k : ℤ, (BetaBinomial.dist ⟨(n : ℝ), a, b⟩).pmf k =
      (BetaBinomial.dist ⟨(n' : ℝ), a', b'⟩).pmf k) : n = n' ∧ a = a' ∧ b = b' := by
  have gt0 : ∀ (n k : ℕ) (a b : ℝ), n < k → (BetaBinomial.dist ⟨(n : ℝ), a, b⟩).pmf k = 0 := by
    intro n k a b hk
    simp only [BetaBinomial.dist, Disc.pmf, sub_zero, DiscFamily.pmf0]
    rw [if_neg]
    rintro ⟨-, h2⟩
    have : k ≤ n := by exact_mod_cast h2
    omega
  have en : n = n' := by
    rcases lt_trichotomy n n' with hlt | he | hlt
    · exact absurd ((gt0 n n' a b hlt).symm.trans (h n')) (BetaBinomial.pmf_pos n' n' le_rfl a' b' ha' hb').ne
    · exact he
    · exact absurd ((gt0 n' n a' b' hlt).symm.trans (h n).symm) (BetaBinomial.pmf_pos n n le_rfl a b ha hb).ne
  subst en
  refine ⟨rfl, ?_⟩
  obtain ⟨m, rfl⟩ : ∃ m, n = m + 2 := ⟨n - 2, by omega⟩
  have low : ∀ a b : ℝ, 0 < a → 0 < b → (BetaBinomial.dist ⟨((m + 2 : ℕ) : ℝ), a, b⟩).pmf ((1 : ℕ) : ℤ) =
      (BetaBinomial.dist ⟨((m + 2 : ℕ) : ℝ), a, b⟩).pmf ((0 : ℕ) : ℤ) * ((m + 2) * a / (m + 1 + b)) := by
    intro a b ha hb
    rw [BetaBinomial.pmf_nat _ _ (by omega), BetaBinomial.pmf_nat _ _ (by omega)]
    simp only [Nat.choose_one_right, Nat.choose_zero_right, Nat.cast_one, Nat.cast_zero]
    push_cast
    have s1 := betaFn_succ_left (a := a) (b := m + 1 + b) ha (by positivity)
    have s2 := betaFn_succ_right (a := a) (b := m + 1 + b) ha (by positivity)
    have hB := betaFn_pos ha hb
    have hB' := betaFn_pos (a := a) (b := m + 1 + b) ha (by positivity)
    rw [show (1 : ℝ) + a = a + 1 by ring, show (m : ℝ) + 2 - 1 + b = m + 1 + b by ring,
      show (m : ℝ) + 2 - 0 + b = m + 1 + b + 1 by ring, zero_add, s1, s2]
    field_simp
  have high : ∀ a b : ℝ, 0 < a → 0 < b → (BetaBinomial.dist ⟨((m + 2 : ℕ) : ℝ), a, b⟩).pmf ((m + 1 : ℕ) : ℤ) =
      (BetaBinomial.dist ⟨((m + 2 : ℕ) : ℝ), a, b⟩).pmf ((m + 2 : ℕ) : ℤ) * ((m + 2) * b / (m + 1 + a)) := by
    intro a b ha hb
    rw [BetaBinomial.pmf_nat _ _ (by omega), BetaBinomial.pmf_nat _ _ (by omega)]
    rw [show (m + 2).choose (m + 1) = m + 2 from Nat.choose_succ_self_right (m + 1), Nat.choose_self]
    push_cast
    have s1 := betaFn_succ_left (a := m + 1 + a) (b := b) (by positivity) hb
    have s2 := betaFn_succ_right (a := m + 1 + a) (b := b) (by positivity) hb
    have hB := betaFn_pos ha hb
    have hB' := betaFn_pos (a := m + 1 + a) (b := b) (by positivity) hb
    rw [show (m : ℝ) + 2 - (m + 1) + b = b + 1 by ring, show (m : ℝ) + 2 - (m + 2) + b = b by ring,
      show (m : ℝ) + 2 + a = m + 1 + a + 1 by ring, s1, s2]
    field_simp
  have e0 := h ((1 : ℕ) : ℤ)
  rw [low a b ha hb, low a' b' ha' hb', ← h ((0 : ℕ) : ℤ)] at e0
  have e0' := mul_left_cancel₀ (BetaBinomial.pmf_pos _ 0 (by omega) a b ha hb).ne' e0
  have e1 := h ((m + 1 : ℕ) : ℤ)
  rw [high a b ha hb, high a' b' ha' hb', ← h ((m + 2 : ℕ) : ℤ)] at e1
  have e1' := mul_left_cancel₀ (BetaBinomial.pmf_pos _ (m + 2) le_rfl a b ha hb).ne' e1
  rw [div_eq_div_iff (by positivity) (by positivity)] at e0' e1'
  have hm : (0 : ℝ) < m + 2 := by positivity
  have f0 : a * (m + 1 + b') = a' * (m + 1 + b) := by
    apply mul_left_cancel₀ hm.ne'; linear_combination e0'
  have f1 : b * (m + 1 + a') = b' * (m + 1 + a) := by
    apply mul_left_cancel₀ hm.ne'; linear_combination e1'
  have hm1 : (0 : ℝ) < m + 1 := by positivity
  have s : (a + b) = (a' + b') := by
    apply mul_left_cancel₀ hm1.ne'; linear_combination f0 + f1
  have : (a - a') * (m + 1 + (a' + b')) = 0 := by linear_combination f0 + a' * s
  have hpos : 0 < (m : ℝ) + 1 + (a' + b') := by positivity
  rcases mul_eq_zero.1 this with h | h
  · exact ⟨by linarith, by linarith⟩
  · exact absurd h hpos.ne'

/-- C97 is false for a `BetaBinomial` with one trial: only the share `alpha / (alpha + beta)` matters, so
different priors print differently and are the same distribution. -/
theorem C97_beta_binomial_one_trial_false :
    (BetaBinomial.mk (1 : ℝ) 1 1) ≠ ⟨1, 2, 2⟩ ∧
      ∀ k : ℤ, (BetaBinomial.dist ⟨(1 : ℝ), 1, 1⟩).pmf k = (BetaBinomial.dist ⟨1, 2, 2⟩).pmf k := by
  refine ⟨by simp, fun k => ?_⟩
  have g3 : Real.Gamma 3 = 2 := by
    rw [show (3 : ℝ) = 2 + 1 by norm_num, Real.Gamma_add_one (by norm_num), Real.Gamma_two]; norm_num
  have g4 : Real.Gamma 4 = 6 := by
    rw [show (4 : ℝ) = 3 + 1 by norm_num, Real.Gamma_add_one (by norm_num), g3]; norm_num
  have g5 : Real.Gamma 5 = 24 := by
    rw [show (5 : ℝ) = 4 + 1 by norm_num, Real.Gamma_add_one (by norm_num), g4]; norm_num
  simp only [BetaBinomial.dist, Disc.pmf, sub_zero, DiscFamily.pmf0]
  split_ifs with hk
  · have h2 : k ≤ 1 := by exact_mod_cast hk.2
    have h3 : k = 0 ∨ k = 1 := by have := hk.1; omega
    rcases h3 with rfl | rfl
    · simp only [betaFn, Int.cast_zero, sub_zero, zero_add]
      norm_num [Real.Gamma_one, Real.Gamma_two, g3, g4, g5]
      ring
    · simp only [betaFn, Int.cast_one, sub_self, zero_add]
      norm_num [Real.Gamma_one, Real.Gamma_two, g3, g4, g5]
      ring
  · rfl

theorem BetaNegativeBinomial.pmf_zero (n a b : ℝ) (hn : 0 < n) :
    (BetaNegativeBinomial.dist ⟨n, a, b⟩).pmf ((0 : ℕ) : ℤ) = betaFn (a + n) b / betaFn a b := by
  simp only [BetaNegativeBinomial.dist, Disc.pmf, sub_zero, DiscFamily.pmf0]
  rw [if_pos (by simp)]
  have e : choose (n + (((0 : ℕ) : ℤ) : ℝ) - 1) (((0 : ℕ) : ℤ) : ℝ) = 1 := by
    have h2 : 0 < Real.Gamma n := Real.Gamma_pos_of_pos hn
    rw [choose]
    simp only [Nat.cast_zero, Int.cast_zero, add_zero, sub_zero, zero_add, Real.Gamma_one, one_mul,
      sub_add_cancel]
    exact div_self h2.ne'
  rw [e]
  simp

theorem BetaNegativeBinomial.pmf_succ (n a b : ℝ) (hn : 0 < n) (ha : 0 < a) (hb : 0 < b) (k : ℕ) :
    (BetaNegativeBinomial.dist ⟨n, a, b⟩).pmf ((k + 1 : ℕ) : ℤ) =
      (BetaNegativeBinomial.dist ⟨n, a, b⟩).pmf (k : ℤ) *
        ((n + k) * (b + k) / ((k + 1) * (a + n + b + k))) := by
  simp only [BetaNegativeBinomial.dist, Disc.pmf, sub_zero, DiscFamily.pmf0]
  rw [if_pos (by positivity), if_pos (by positivity)]
  have e := choose_step n hn k
  have s := betaFn_succ_right (a := a + n) (b := b + k) (by positivity) (by positivity)
  have hB := betaFn_pos ha hb
  have hB' := betaFn_pos (a := a + n) (b := b + k) (by positivity) (by positivity)
  rw [Int.cast_natCast, Int.cast_natCast, show n + ((k + 1 : ℕ) : ℝ) - 1 = ((k + 1 : ℕ) : ℝ) + n - 1 by ring, e,
    show n + (k : ℝ) - 1 = (k : ℝ) + n - 1 by ring,
    show b + ((k + 1 : ℕ) : ℝ) = b + k + 1 by push_cast; ring, s]
  have p1 : 0 < a + n + b + k := by positivity
  have p2 : 0 < a + n + (b + k) := by positivity
  have p3 : (0 : ℝ) < k + 1 := by positivity
  field_simp
  ring

theorem BetaNegativeBinomial.pmf_pos (n a b : ℝ) (hn : 0 < n) (ha : 0 < a) (hb : 0 < b) (k : ℕ) :
    0 < (BetaNegativeBinomial.dist ⟨n, a, b⟩).pmf (k : ℤ) := by
  induction k with
  | zero =>
    rw [BetaNegativeBinomial.pmf_zero n a b hn]
    have := betaFn_pos ha hb
    have := betaFn_pos (a := a + n) (b := b) (by positivity) hb
    positivity
  | succ k ih =>
    rw [BetaNegativeBinomial.pmf_succ n a b hn ha hb]
    positivity

/-- C97, `BetaNegativeBinomial`: exchanging `n` and `beta` gives the same distribution, and this is the only
ambiguity. -/
theorem C97_beta_negative_binomial (d d' : BetaNegativeBinomial ℝ) (hn : 0 < d.n) (ha : 0 < d.alpha)
    (hb : 0 < d.beta) (hn' : 0 < d'.n) (ha' : 0 < d'.alpha) (hb' : 0 < d'.beta) :
    (∀ k : ℤ, d.dist.pmf k = d'.dist.pmf k) ↔
      d = d' ∨ d = ⟨d'.beta, d'.alpha, d'.n⟩ := by
  obtain ⟨n, a, b⟩ := d
  obtain ⟨n', a', b'⟩ := d'
  simp only at *
  have swap : ∀ (n a b : ℝ), 0 < n → 0 < a → 0 < b → ∀ k : ℤ,
      (BetaNegativeBinomial.dist ⟨n, a, b⟩).pmf k = (BetaNegativeBinomial.dist ⟨b, a, n⟩).pmf k := by
    intro n a b hn ha hb k
    rcases lt_or_ge k 0 with hk | hk
    · simp only [BetaNegativeBinomial.dist, Disc.pmf, sub_zero, DiscFamily.pmf0]
      rw [if_neg (by omega), if_neg (by omega)]
    · obtain ⟨m, rfl⟩ := Int.eq_ofNat_of_zero_le hk
      induction m with
      | zero =>
        rw [show ((0 : ℕ) : ℤ) = ((0 : ℕ) : ℤ) from rfl]
        have e1 := BetaNegativeBinomial.pmf_zero n a b hn
        have e2 := BetaNegativeBinomial.pmf_zero b a n hb
        refine e1.trans (Eq.trans ?_ e2.symm)
        have g1 : 0 < Real.Gamma a := Real.Gamma_pos_of_pos ha
        have g2 : 0 < Real.Gamma b := Real.Gamma_pos_of_pos hb
        have g3 : 0 < Real.Gamma n := Real.Gamma_pos_of_pos hn
        have g4 : 0 < Real.Gamma (a + b) := Real.Gamma_pos_of_pos (by positivity)
        have g5 : 0 < Real.Gamma (a + n) := Real.Gamma_pos_of_pos (by positivity)
        have g6 : 0 < Real.Gamma (a + n + b) := Real.Gamma_pos_of_pos (by positivity)
        simp only [betaFn]
        rw [show a + b + n = a + n + b by ring]
        field_simp
      | succ m ih =>
        have e1 := BetaNegativeBinomial.pmf_succ n a b hn ha hb m
        have e2 := BetaNegativeBinomial.pmf_succ b a n hb ha hn m
        refine e1.trans (Eq.trans ?_ e2.symm)
        have i := ih (by positivity)
        refine (congrArg (· * ((n + m) * (b + m) / ((m + 1) * (a + n + b + m)))) i).trans ?_
        beta_reduce
        rw [show a + b + n = a + n + b by ring, mul_comm (b + (m : ℝ))]
  constructor
  · intro h
    have r : ∀ k : ℕ, (n + k) * (b + k) * (a' + n' + b' + k) = (n' + k) * (b' + k) * (a + n + b + k) := by
      intro k
      have e := h ((k + 1 : ℕ) : ℤ)
      rw [BetaNegativeBinomial.pmf_succ n a b hn ha hb, BetaNegativeBinomial.pmf_succ n' a' b' hn' ha' hb',
        ← h (k : ℤ)] at e
      have e' := mul_left_cancel₀ (BetaNegativeBinomial.pmf_pos n a b hn ha hb k).ne' e
      rw [div_eq_div_iff (by positivity) (by positivity)] at e'
      have p3 : (0 : ℝ) < k + 1 := by positivity
      apply mul_left_cancel₀ p3.ne'
      linear_combination e'
    have r0 := r 0
    have r1 := r 1
    have r2 := r 2
    push_cast at r0 r1 r2
    have hT : a + n + b = a' + n' + b' := by
      have e : ((n - (a + n + b)) * (b - (a + n + b))) * (a' + n' + b' - (a + n + b)) = 0 := by
        set T := a + n + b with hT
        linear_combination (T + 1) * (T + 2) / 2 * r0 - T * (T + 2) * r1 + T * (T + 1) / 2 * r2
      rcases mul_eq_zero.1 e with h | h
      · rcases mul_eq_zero.1 h with h | h
        · linarith
        · linarith
      · linarith
    rw [← hT] at r0 r1
    have q0 : n * b = n' * b' := by
      have : 0 < a + n + b := by positivity
      apply mul_right_cancel₀ this.ne'
      linear_combination r0
    have q1 : n + b = n' + b' := by
      have : 0 < a + n + b + 1 := by positivity
      have e : (n + 1) * (b + 1) = (n' + 1) * (b' + 1) := by
        apply mul_right_cancel₀ this.ne'
        linear_combination r1
      linear_combination e - q0
    have ea : a = a' := by linarith
    have e : (n - n') * (n - b') = 0 := by linear_combination n * q1 - q0
    simp only [BetaNegativeBinomial.mk.injEq]
    rcases mul_eq_zero.1 e with h | h
    · left; exact ⟨by linarith, ea, by linarith⟩
    · right; exact ⟨by linarith, ea, by linarith⟩
  · rintro (h | h) k
    · simp only [BetaNegativeBinomial.mk.injEq] at h
      obtain ⟨rfl, rfl, rfl⟩ := h
      rfl
    · simp only [BetaNegativeBinomial.mk.injEq] at h
      obtain ⟨rfl, rfl, rfl⟩ := h
      exact swap _ _ _ hn ha hb k

/-- C97 is false for `Hypergeometric`: exchanging the number of success states and the number of draws gives
the same distribution. -/
theorem C97_hypergeometric_false (N k n : ℕ) (hk : k ≤ N) (hn : n ≤ N) (x : ℤ) :
    (Hypergeometric.dist ⟨(N : ℝ), k, n⟩).pmf x = (Hypergeometric.dist ⟨(N : ℝ), n, k⟩).pmf x := by
  simp only [Hypergeometric.dist, Disc.pmf, sub_zero, DiscFamily.pmf0]
  rw [show (n : ℝ) - (N - k) = k - (N - n) by ring, min_comm (k : ℝ)]
  split_ifs with h
  · have g1 : 0 < Real.Gamma ((k : ℝ) + 1) := Real.Gamma_pos_of_pos (by positivity)
    have g2 : 0 < Real.Gamma ((n : ℝ) + 1) := Real.Gamma_pos_of_pos (by positivity)
    have g3 : 0 < Real.Gamma ((N : ℝ) + 1) := Real.Gamma_pos_of_pos (by positivity)
    have hk' : (k : ℝ) ≤ N := by exact_mod_cast hk
    have hn' : (n : ℝ) ≤ N := by exact_mod_cast hn
    have g4 : 0 < Real.Gamma ((N : ℝ) - n + 1) := Real.Gamma_pos_of_pos (by linarith)
    have g5 : 0 < Real.Gamma ((N : ℝ) - k + 1) := Real.Gamma_pos_of_pos (by linarith)
    simp only [choose]
    rw [show (N : ℝ) - k - (n - x) + 1 = N - n - (k - x) + 1 by ring]
    field_simp
  · rfl

/-- C97, `BetaGeometric`: parameters and where counting starts. -/
theorem C97_beta_geometric (d d' : BetaGeometric ℝ) (ha : 0 < d.alpha) (hb : 0 < d.beta) (ha' : 0 < d'.alpha)
    (hb' : 0 < d'.beta) (h : ∀ k : ℕ, 1 ≤ k → d.pmf k = d'.pmf k) : d = d' := by
  have form : ∀ e : BetaGeometric ℝ, ∃ s : ℝ, (s = if e.one_start then 0 else 1) ∧ 0 ≤ s ∧ ∀ x,
      e.pmf x = betaFn (e.alpha + 1) (x + s + e.beta) / betaFn e.alpha e.beta := by
    rintro ⟨a, b, s⟩
    cases s
    · exact ⟨1, by simp, by norm_num, fun x => by simp [BetaGeometric.pmf, betaGeometricPmf]⟩
    · exact ⟨0, by simp, le_rfl, fun x => by simp [BetaGeometric.pmf, betaGeometricPmf]⟩
  obtain ⟨s, hs, hs0, f⟩ := form d
  obtain ⟨s', hs', hs0', f'⟩ := form d'
  have step : ∀ (a b s : ℝ), 0 < a → 0 < b → 0 ≤ s → ∀ k : ℕ, 
      betaFn (a + 1) (((k + 1 : ℕ) : ℝ) + s + b) / betaFn a b =
        betaFn (a + 1) ((k : ℝ) + s + b) / betaFn a b * ((k + s + b) / (a + 1 + (k + s + b))) := by
    intro a b s ha hb hs k
    have e := betaFn_succ_right (a := a + 1) (b := k + s + b) (by positivity) (by positivity)
    rw [show ((k + 1 : ℕ) : ℝ) + s + b = k + s + b + 1 by push_cast; ring, e]
    ring
  have r : ∀ k : ℕ, 1 ≤ k → (k + s + d.beta) * (d'.alpha + 1) = (k + s' + d'.beta) * (d.alpha + 1) := by
    intro k hk
    have e := h (k + 1) (by omega)
    rw [f, f', step _ _ _ ha hb hs0, step _ _ _ ha' hb' hs0'] at e
    have e2 := h k hk
    rw [f, f'] at e2
    rw [← e2] at e
    have p1 := betaFn_pos ha hb
    have p2 := betaFn_pos (a := d.alpha + 1) (b := k + s + d.beta) (by positivity) (by positivity)
    have e' := mul_left_cancel₀ (by positivity) e
    rw [div_eq_div_iff (by positivity) (by positivity)] at e'
    linear_combination e'
  have r1 := r 1 le_rfl
  have r2 := r 2 (by norm_num)
  push_cast at r1 r2
  have ea : d.alpha = d'.alpha := by linear_combination r1 - r2
  have eb : s + d.beta = s' + d'.beta := by
    rw [← ea] at r1
    have : 0 < d.alpha + 1 := by positivity
    have := mul_right_cancel₀ this.ne' r1
    linarith
  have e := h 1 le_rfl
  rw [f, f', ← ea, show ((1 : ℕ) : ℝ) + s' + d'.beta = (1 : ℕ) + s + d.beta by linarith] at e
  have p2 := betaFn_pos (a := d.alpha + 1) (b := (1 : ℕ) + s + d.beta) (by positivity) (by positivity)
  have eB : betaFn d.alpha d.beta = betaFn d.alpha d'.beta := by
    have p1 := betaFn_pos ha hb
    have p3 := betaFn_pos ha hb'
    rw [div_eq_div_iff p1.ne' p3.ne'] at e
    exact (mul_left_cancel₀ p2.ne' e).symm
  have lt : ∀ b : ℝ, 0 < b → betaFn d.alpha (b + 1) ≠ betaFn d.alpha b := by
    intro b hb hc
    have e := betaFn_succ_right ha hb
    have p := betaFn_pos ha hb
    rw [hc] at e
    have q : 0 < d.alpha + b := by positivity
    have : betaFn d.alpha b * (d.alpha / (d.alpha + b)) = 0 := by
      have e2 : b / (d.alpha + b) = 1 - d.alpha / (d.alpha + b) := by field_simp; ring
      rw [e2] at e
      linear_combination e
    exact absurd this (by positivity)
  obtain ⟨a, b, t⟩ := d
  obtain ⟨a', b', t'⟩ := d'
  simp only at *
  subst ea
  cases t <;> cases t' <;> simp at hs hs' <;> subst hs <;> subst hs' <;>
    simp only [BetaGeometric.mk.injEq, true_and]
  · exact ⟨by linarith, trivial⟩
  · exact absurd (by rw [show b + 1 = b' by linarith]; exact eB.symm) (lt b hb)
  · exact absurd (by rw [show b' + 1 = b by linarith]; exact eB) (lt b' hb')
  · exact ⟨by linarith, trivial⟩

/-! ## Categories -/

variable {k : ℕ}

/-- C97, `Dirichlet` over at least two categories. -/
theorem C97_dirichlet (d d' : Dirichlet (Fin (k + 2) → ℝ)) (hd : ∀ i, 0 < d.alpha i) (hd' : ∀ i, 0 < d'.alpha i)
    (h : ∀ q : Fin (k + 2) → ℝ, (∀ i, 0 < q i) → ∑ i, q i = 1 → d.pdf q = d'.pdf q) : d = d' := by
  set c : (Fin (k + 2) → ℝ) → ℝ := fun a => Real.Gamma (∑ i, a i) / ∏ i, Real.Gamma (a i) with hc
  have hcpos : ∀ a : Fin (k + 2) → ℝ, (∀ i, 0 < a i) → 0 < c a := fun a ha =>
    div_pos (Real.Gamma_pos_of_pos (Finset.sum_pos (fun i _ => ha i) ⟨0, Finset.mem_univ _⟩))
      (Finset.prod_pos fun i _ => Real.Gamma_pos_of_pos (ha i))
  have hlog : ∀ q : Fin (k + 2) → ℝ, (∀ i, 0 < q i) → ∑ i, q i = 1 →
      ∑ i, (d.alpha i - d'.alpha i) * log (q i) = log (c d'.alpha) - log (c d.alpha) := by
    intro q hq hs
    have key : ∀ e : Dirichlet (Fin (k + 2) → ℝ), (∀ i, 0 < e.alpha i) →
        log (e.pdf q) = log (c e.alpha) + ∑ i, (e.alpha i - 1) * log (q i) := by
      intro e he
      have hp : ∀ i, q i ^ (e.alpha i - 1) ≠ 0 := fun i => (rpow_pos_of_pos (hq i) _).ne'
      rw [Dirichlet.pdf, dirichletPdf, log_mul (hcpos _ he).ne' (Finset.prod_ne_zero_iff.2 fun i _ => hp i),
        log_prod fun i _ => hp i]
      congr 1
      exact Finset.sum_congr rfl fun i _ => log_rpow (hq i) _
    have e := congrArg log (h q hq hs)
    rw [key d hd, key d' hd'] at e
    have : ∑ i, (d.alpha i - d'.alpha i) * log (q i) =
        ∑ i, (d.alpha i - 1) * log (q i) - ∑ i, (d'.alpha i - 1) * log (q i) := by
      rw [← Finset.sum_sub_distrib]
      exact Finset.sum_congr rfl fun i _ => by ring
    rw [this]
    linarith
  obtain ⟨C, hC⟩ : ∃ C, C = log (c d'.alpha) - log (c d.alpha) := ⟨_, rfl⟩
  obtain ⟨δ, hδ⟩ : ∃ δ : Fin (k + 2) → ℝ, δ = fun i => d.alpha i - d'.alpha i := ⟨_, rfl⟩
  replace hlog : ∀ q : Fin (k + 2) → ℝ, (∀ i, 0 < q i) → ∑ i, q i = 1 → ∑ i, δ i * log (q i) = C := by
    rw [hδ, hC]; exact hlog
  -- one category gets `t` times the weight of each of the others
  have one : ∀ (j : Fin (k + 2)) (t : ℝ), 0 < t →
      δ j * log t - (∑ i, δ i) * log (k + 1 + t) = C := by
    intro j t ht
    have hT : 0 < (k : ℝ) + 1 + t := by positivity
    have e := hlog (fun i => (if i = j then t else 1) / (k + 1 + t))
      (fun i => by split_ifs <;> positivity) (by
        rw [← Finset.sum_div, Finset.sum_ite, Finset.sum_const, Finset.sum_const]
        have c1 : (Finset.univ.filter fun i : Fin (k + 2) => i = j).card = 1 := by
          rw [Finset.filter_eq' Finset.univ j]; simp
        have c2 : (Finset.univ.filter fun i : Fin (k + 2) => ¬ i = j).card = k + 1 := by
          have := Finset.card_filter_add_card_filter_not (s := (Finset.univ : Finset (Fin (k + 2)))) (fun i => i = j)
          rw [c1, Finset.card_univ, Fintype.card_fin] at this
          omega
        rw [c1, c2]
        simp only [one_smul, nsmul_eq_mul, mul_one]
        push_cast
        rw [add_comm t, div_self hT.ne'])
    rw [← e]
    have : ∀ i, δ i * log ((if i = j then t else 1) / (k + 1 + t)) =
        (if i = j then δ i * log t else 0) - δ i * log (k + 1 + t) := by
      intro i
      split_ifs
      · rw [log_div ht.ne' hT.ne']; ring
      · rw [log_div one_ne_zero hT.ne', log_one]; ring
    rw [Finset.sum_congr rfl fun i _ => this i, Finset.sum_sub_distrib, Finset.sum_mul]
    congr 1
    simp
  have l2 : 0 < log 2 := log_pos (by norm_num)
  have eqd : ∀ i j, δ i = δ j := by
    intro i j
    have e := (one i 2 (by norm_num)).trans (one j 2 (by norm_num)).symm
    have : (δ i - δ j) * log 2 = 0 := by linear_combination e
    rcases mul_eq_zero.1 this with h | h
    · linarith
    · exact absurd h l2.ne'
  have hsum : ∑ i, δ i = (k + 2) * δ 0 := by
    rw [Finset.sum_congr rfl fun i _ => eqd i 0, Finset.sum_const, Finset.card_univ, Fintype.card_fin,
      nsmul_eq_mul]
    push_cast
    ring
  have z : δ 0 = 0 := by
    have hg : Tendsto (fun x : ℝ => -log x) (𝓝[>] 0) atTop := tendsto_neg_atBot_atTop.comp tendsto_log_nhdsGT_zero
    have hf : Tendsto (fun t : ℝ => (k + 2) * δ 0 * log (k + 1 + t) + 0 * -log t) (𝓝[>] 0)
        (𝓝 ((k + 2) * δ 0 * log (k + 1 + 0))) := by
      simp only [zero_mul, add_zero]
      refine Tendsto.const_mul _ (Tendsto.mono_left ?_ nhdsWithin_le_nhds)
      have : ContinuousAt (fun t : ℝ => log (k + 1 + t)) 0 :=
        ContinuousAt.log (by fun_prop) (by positivity)
      simpa using this.tendsto
    have hf' : Tendsto (fun t : ℝ => (k + 2) * δ 0 * log (k + 1 + t) + δ 0 * -log t) (𝓝[>] 0) (𝓝 (-C)) := by
      refine tendsto_const_nhds.congr' ?_
      filter_upwards [self_mem_nhdsWithin] with t ht
      have e := one 0 t ht
      rw [hsum] at e
      linarith
    exact (rate_unique hg hf hf').1.symm
  have : d.alpha = d'.alpha := by
    funext i
    have := eqd i 0
    rw [z] at this
    simp only [hδ] at this
    linarith
  cases d; cases d'
  simp only [Dirichlet.mk.injEq] at *
  exact this

/-- all `n` trials in category `i` -/
theorem multinomialPmf_single (n : ℕ) (q : Fin (k + 1) → ℝ) (i : Fin (k + 1)) :
    multinomialPmf (n : ℝ) q (fun j => if j = i then n else 0) = q i ^ n := by
  have hs : ∑ j : Fin (k + 1), (((if j = i then n else 0 : ℕ)) : ℝ) = n := by
    rw [Finset.sum_eq_single i (fun j _ hj => by simp [hj]) (fun h => absurd (Finset.mem_univ i) h)]
    simp
  rw [multinomialPmf, if_pos hs, Finset.prod_eq_single i (fun j _ hj => by simp [hj])
    (fun h => absurd (Finset.mem_univ i) h), Finset.prod_eq_single i (fun j _ hj => by simp [hj])
    (fun h => absurd (Finset.mem_univ i) h)]
  have := Real.Gamma_pos_of_pos (show (0 : ℝ) < n + 1 by positivity)
  simp only [if_true]
  rw [div_self this.ne', one_mul]

/-- C97, `Multinomial`: the number of trials, and the probabilities unless there are no trials. -/
theorem C97_multinomial (n n' : ℕ) (q q' : Fin (k + 1) → ℝ) (hq : ∀ i, 0 ≤ q i) (hs : ∑ i, q i = 1)
    (hq' : ∀ i, 0 ≤ q' i) (hs' : ∑ i, q' i = 1) :
    (∀ x, (Multinomial.mk (n : ℝ) q).pmf x = (Multinomial.mk (n' : ℝ) q').pmf x) ↔ n = n' ∧ (n = 0 ∨ q = q') := by
  have pos : ∀ q : Fin (k + 1) → ℝ, (∀ i, 0 ≤ q i) → ∑ i, q i = 1 → ∃ i, 0 < q i := by
    intro q hq hs
    by_contra hc
    push Not at hc
    have : ∑ i, q i ≤ 0 := Finset.sum_nonpos fun i _ => hc i
    linarith
  have hsum : ∀ (n : ℕ) (i : Fin (k + 1)), ∑ j : Fin (k + 1), (((if j = i then n else 0 : ℕ)) : ℝ) = n := by
    intro n i
    rw [Finset.sum_eq_single i (fun j _ hj => by simp [hj]) (fun h => absurd (Finset.mem_univ i) h)]
    simp
  constructor
  · intro h
    have hn : n = n' := by
      by_contra hne
      obtain ⟨i, hi⟩ := pos q hq hs
      have e := h fun j => if j = i then n else 0
      simp only [Multinomial.pmf] at e
      rw [multinomialPmf_single, multinomialPmf, if_neg] at e
      · exact absurd e (by positivity)
      · rw [hsum]; exact_mod_cast hne
    subst hn
    refine ⟨rfl, ?_⟩
    by_cases hn : n = 0
    · exact Or.inl hn
    · refine Or.inr (funext fun i => ?_)
      have e := h fun j => if j = i then n else 0
      simp only [Multinomial.pmf] at e
      rw [multinomialPmf_single, multinomialPmf_single] at e
      exact (pow_left_inj₀ (hq i) (hq' i) hn).1 e
  · rintro ⟨rfl, rfl | rfl⟩ x
    · simp only [Multinomial.pmf, multinomialPmf]
      split_ifs with h
      · have : ∀ i, x i = 0 := fun i => by
          have h2 : (∑ i, x i) = 0 := by exact_mod_cast h
          exact (Finset.sum_eq_zero_iff.1 h2) i (Finset.mem_univ i)
        simp [this]
      · rfl
    · rfl

/-- C97, `DirichletMultinomial` with at least two trials over at least two categories. -/
theorem C97_dirichlet_multinomial (n n' : ℕ) (hn : 2 ≤ n) (a a' : Fin (k + 2) → ℝ) (ha : ∀ i, 0 < a i)
    (ha' : ∀ i, 0 < a' i)
    (h : ∀ x, (DirichletMultinomial.mk a (n : ℝ)).pmf x = (DirichletMultinomial.mk a' (n' : ℝ)).pmf x) :
    n = n' ∧ a = a' := by
  have hsum : ∀ (n : ℕ) (i : Fin (k + 2)), ∑ j : Fin (k + 2), (((if j = i then n else 0 : ℕ)) : ℝ) = n := by
    intro n i
    rw [Finset.sum_eq_single i (fun j _ hj => by simp [hj]) (fun h => absurd (Finset.mem_univ i) h)]
    simp
  have gp : ∀ a : Fin (k + 2) → ℝ, (∀ i, 0 < a i) → ∀ i, Real.Gamma (0 + a i) / (Real.Gamma (a i) * Real.Gamma (0 + 1)) = 1 := by
    intro a ha i
    have := Real.Gamma_pos_of_pos (ha i)
    rw [zero_add, zero_add, Real.Gamma_one, mul_one, div_self this.ne']
  set c : (Fin (k + 2) → ℝ) → ℝ := fun a => Real.Gamma (∑ i, a i) * Real.Gamma ((n : ℝ) + 1) / Real.Gamma ((n : ℝ) + ∑ i, a i)
    with hc
  have cpos : ∀ a : Fin (k + 2) → ℝ, (∀ i, 0 < a i) → 0 < c a := by
    intro a ha
    have h1 : 0 < ∑ i, a i := Finset.sum_pos (fun i _ => ha i) ⟨0, Finset.mem_univ _⟩
    exact div_pos (mul_pos (Real.Gamma_pos_of_pos h1) (Real.Gamma_pos_of_pos (by positivity)))
      (Real.Gamma_pos_of_pos (by positivity))
  have one : ∀ a : Fin (k + 2) → ℝ, (∀ i, 0 < a i) → ∀ i,
      dirichletMultinomialPmf a (n : ℝ) (fun j => if j = i then n else 0) =
        c a * (Real.Gamma (n + a i) / (Real.Gamma (a i) * Real.Gamma (n + 1))) := by
    intro a ha i
    rw [dirichletMultinomialPmf, if_pos (hsum n i), Finset.prod_eq_single i
      (fun j _ hj => by simp only [if_neg hj, Nat.cast_zero]; exact gp a ha j)
      (fun h => absurd (Finset.mem_univ i) h)]
    simp only [if_true, hc]
  have hnn : n = n' := by
    by_contra hne
    have e := h fun j => if j = 0 then n else 0
    simp only [DirichletMultinomial.pmf] at e
    rw [one a ha, dirichletMultinomialPmf, if_neg] at e
    · have h1 := Real.Gamma_pos_of_pos (ha 0)
      have h2 := Real.Gamma_pos_of_pos (show (0 : ℝ) < n + a 0 from add_pos_of_nonneg_of_pos (by positivity) (ha 0))
      have h3 := Real.Gamma_pos_of_pos (show (0 : ℝ) < n + 1 by positivity)
      have := cpos a ha
      exact absurd e (by positivity)
    · rw [hsum]; exact_mod_cast hne
  subst hnn
  refine ⟨rfl, ?_⟩
  obtain ⟨m, rfl⟩ : ∃ m, n = m + 1 := ⟨n - 1, by omega⟩
  have hm : (0 : ℝ) < m := by exact_mod_cast (by omega : 0 < m)
  have two : ∀ a : Fin (k + 2) → ℝ, (∀ i, 0 < a i) → ∀ i j, i ≠ j →
      dirichletMultinomialPmf a ((m + 1 : ℕ) : ℝ) (fun l => if l = i then m else if l = j then 1 else 0) =
        c a * (Real.Gamma (m + a i) / (Real.Gamma (a i) * Real.Gamma (m + 1)) * a j) := by
    intro a ha i j hij
    have hs : ∑ l : Fin (k + 2), (((if l = i then m else if l = j then 1 else 0 : ℕ)) : ℝ) = (m + 1 : ℕ) := by
      rw [Finset.sum_eq_add i j hij (fun l _ hl => by simp [hl.1, hl.2]) (fun h => absurd (Finset.mem_univ i) h)
        (fun h => absurd (Finset.mem_univ j) h)]
      simp [hij.symm]
    rw [dirichletMultinomialPmf, if_pos hs, Finset.prod_eq_mul i j hij
      (fun l _ hl => by simp only [if_neg hl.1, if_neg hl.2, Nat.cast_zero]; exact gp a ha l)
      (fun h => absurd (Finset.mem_univ i) h) (fun h => absurd (Finset.mem_univ j) h)]
    simp only [if_true, hc, if_neg hij.symm, Nat.cast_one]
    have hg := Real.Gamma_pos_of_pos (ha j)
    rw [show (1 : ℝ) + a j = a j + 1 by ring, Real.Gamma_add_one (ha j).ne', one_add_one_eq_two, Real.Gamma_two, mul_one,
      mul_div_cancel_right₀ _ hg.ne']
  have step : ∀ a : Fin (k + 2) → ℝ, (∀ i, 0 < a i) → ∀ i j, i ≠ j →
      (DirichletMultinomial.mk a ((m + 1 : ℕ) : ℝ)).pmf (fun l => if l = i then m + 1 else 0) * ((m + 1) * a j) =
        (DirichletMultinomial.mk a ((m + 1 : ℕ) : ℝ)).pmf (fun l => if l = i then m else if l = j then 1 else 0) *
          (m + a i) := by
    intro a ha i j hij
    simp only [DirichletMultinomial.pmf]
    rw [one a ha, two a ha i j hij]
    have h0 := ha i
    have h1 := Real.Gamma_pos_of_pos (ha i)
    have h3 := Real.Gamma_pos_of_pos (show (0 : ℝ) < m + 1 by positivity)
    push_cast
    rw [show (m : ℝ) + 1 + a i = (m + a i) + 1 by ring, Real.Gamma_add_one (show (m : ℝ) + a i ≠ 0 by positivity),
      Real.Gamma_add_one (show (m : ℝ) + 1 ≠ 0 by positivity)]
    field_simp
  have r : ∀ i j, i ≠ j → (m + a i) * a' j = (m + a' i) * a j := by
    intro i j hij
    have e1 := step a ha i j hij
    have e2 := step a' ha' i j hij
    rw [← h, ← h] at e2
    have hp : 0 < (DirichletMultinomial.mk a ((m + 1 : ℕ) : ℝ)).pmf (fun l => if l = i then m + 1 else 0) := by
      have h0 := ha i
      have h1 := Real.Gamma_pos_of_pos (ha i)
      have h2 := Real.Gamma_pos_of_pos (show (0 : ℝ) < (m + 1 : ℕ) + a i by positivity)
      have h3 := Real.Gamma_pos_of_pos (show (0 : ℝ) < (m + 1 : ℕ) + 1 by positivity)
      have := cpos a ha
      simp only [DirichletMultinomial.pmf]
      rw [one a ha]
      positivity
    have hp1 : (0 : ℝ) < m + 1 := by positivity
    refine mul_left_cancel₀ (mul_pos hp hp1).ne' ?_
    linear_combination (m + a i) * e2 - (m + a' i) * e1
  funext i
  obtain ⟨j, hj⟩ : ∃ j, j ≠ i := exists_ne i
  have r1 := r i j hj.symm
  have r2 := r j i hj
  have h1 := ha i
  have h2 := ha j
  have hu : (a' i - a i) * (m + a i + a j) = 0 := by
    refine (mul_eq_zero.1 (?_ : (m : ℝ) * ((a' i - a i) * (m + a i + a j)) = 0)).resolve_left hm.ne'
    linear_combination (m + a i) * r2 + a i * r1
  have := (mul_eq_zero.1 hu).resolve_right (by positivity)
  linarith

/-- C97 is false for a `DirichletMultinomial` with one trial: only the shares of `alpha` matter. -/
theorem C97_dirichlet_multinomial_one_trial_false (a : Fin (k + 1) → ℝ) (ha : ∀ i, 0 < a i) (c : ℝ) (hc : 0 < c)
    (x : Fin (k + 1) → ℕ) :
    (DirichletMultinomial.mk (fun i => c * a i) (1 : ℝ)).pmf x = (DirichletMultinomial.mk a (1 : ℝ)).pmf x := by
  have key : ∀ a : Fin (k + 1) → ℝ, (∀ i, 0 < a i) → ∀ i, x i = 1 → (∀ j, j ≠ i → x j = 0) →
      (DirichletMultinomial.mk a (1 : ℝ)).pmf x = a i / ∑ j, a j := by
    intro a ha i hi h0
    have hs : ∑ j, (x j : ℝ) = 1 := by
      rw [Finset.sum_eq_single i (fun j _ hj => by simp [h0 j hj]) (fun h => absurd (Finset.mem_univ i) h), hi]
      simp
    have hpos : 0 < ∑ j, a j := Finset.sum_pos (fun i _ => ha i) ⟨0, Finset.mem_univ _⟩
    have hg := Real.Gamma_pos_of_pos hpos
    have hgi := Real.Gamma_pos_of_pos (ha i)
    rw [DirichletMultinomial.pmf, dirichletMultinomialPmf, if_pos hs, Finset.prod_eq_single i
      (fun j _ hj => by
        have := Real.Gamma_pos_of_pos (ha j)
        simp only [h0 j hj, Nat.cast_zero, zero_add, Real.Gamma_one, mul_one]
        rw [div_self this.ne']) (fun h => absurd (Finset.mem_univ i) h), hi, Nat.cast_one]
    rw [one_add_one_eq_two, Real.Gamma_two, add_comm 1 (∑ j, a j), add_comm 1 (a i), Real.Gamma_add_one hpos.ne',
      Real.Gamma_add_one (ha i).ne']
    field_simp
  by_cases hs : ∑ j, (x j : ℝ) = 1
  · have hs' : ∑ j, x j = 1 := by exact_mod_cast hs
    obtain ⟨i, hi⟩ : ∃ i, x i ≠ 0 := by
      by_contra hc
      push Not at hc
      simp [hc] at hs'
    have hle : x i ≤ 1 := hs' ▸ Finset.single_le_sum (f := x) (fun _ _ => Nat.zero_le _) (Finset.mem_univ i)
    have hi1 : x i = 1 := by omega
    have h0 : ∀ j, j ≠ i → x j = 0 := by
      intro j hj
      have e := Finset.add_sum_erase Finset.univ x (Finset.mem_univ i)
      have : ∑ l ∈ Finset.univ.erase i, x l = 0 := by omega
      exact Finset.sum_eq_zero_iff.1 this j (Finset.mem_erase.2 ⟨hj, Finset.mem_univ j⟩)
    rw [key a ha i hi1 h0, key (fun i => c * a i) (fun i => mul_pos hc (ha i)) i hi1 h0, ← Finset.mul_sum,
      mul_div_mul_left _ _ hc.ne']
  · simp only [DirichletMultinomial.pmf, dirichletMultinomialPmf, if_neg hs]

/-! ## The hypotheses are met

For each distribution two different valid sets of parameters; the theorems give a point where the masses differ. -/

example : ∃ k : ℤ, (Poisson.dist ⟨(1 : ℝ)⟩).pmf k ≠ (Poisson.dist ⟨2⟩).pmf k := by
  by_contra h
  push Not at h
  have := C97_poisson _ _ h
  norm_num at this

example : ∃ k : ℤ, (Binomial.dist ⟨((3 : ℕ) : ℝ), 1 / 2⟩).pmf k ≠ (Binomial.dist ⟨((3 : ℕ) : ℝ), 1 / 3⟩).pmf k := by
  by_contra h
  push Not at h
  have := (C97_binomial 3 3 (1 / 2) (1 / 3) (by constructor <;> norm_num) (by constructor <;> norm_num)).1 h
  norm_num at this

example : ∃ k : ℤ, (Geometric.dist ⟨(1 / 2 : ℝ), true⟩).pmf k ≠ (Geometric.dist ⟨1 / 2, false⟩).pmf k := by
  by_contra h
  push Not at h
  have := C97_geometric ⟨1 / 2, true⟩ ⟨1 / 2, false⟩ (by norm_num) (by norm_num) h
  simp at this

example : ∃ k : ℤ, (NegativeBinomial.dist ⟨(2 : ℝ), 1 / 2⟩).pmf k ≠ (NegativeBinomial.dist ⟨3, 1 / 2⟩).pmf k := by
  by_contra h
  push Not at h
  have := C97_negative_binomial ⟨2, 1 / 2⟩ ⟨3, 1 / 2⟩ (by norm_num) (by constructor <;> norm_num) (by norm_num)
    (by constructor <;> norm_num) h
  norm_num at this

example : ∃ k : ℤ, (BetaBinomial.dist ⟨((2 : ℕ) : ℝ), 1, 1⟩).pmf k ≠ (BetaBinomial.dist ⟨((2 : ℕ) : ℝ), 2, 2⟩).pmf k := by
  by_contra h
  push Not at h
  have := C97_beta_binomial 2 2 le_rfl 1 1 2 2 one_pos one_pos two_pos two_pos h
  norm_num at this

example : ∃ k : ℤ, (BetaNegativeBinomial.dist ⟨(2 : ℝ), 1, 3⟩).pmf k ≠ (BetaNegativeBinomial.dist ⟨2, 3, 1⟩).pmf k := by
  by_contra h
  push Not at h
  have := (C97_beta_negative_binomial ⟨2, 1, 3⟩ ⟨2, 3, 1⟩ (by norm_num) (by norm_num) (by norm_num) (by norm_num)
    (by norm_num) (by norm_num)).1 h
  norm_num at this

example : ∃ k : ℕ, 1 ≤ k ∧ (BetaGeometric.mk (1 : ℝ) 2 true).pmf k ≠ (BetaGeometric.mk (1 : ℝ) 1 false).pmf k := by
  by_contra h
  push Not at h
  have := C97_beta_geometric ⟨1, 2, true⟩ ⟨1, 1, false⟩ (by norm_num) (by norm_num) (by norm_num) (by norm_num) h
  norm_num at this

example : ∃ q : Fin 2 → ℝ, (∀ i, 0 < q i) ∧ ∑ i, q i = 1 ∧
    (Dirichlet.mk (fun _ : Fin 2 => (1 : ℝ))).pdf q ≠ (Dirichlet.mk (fun _ : Fin 2 => (2 : ℝ))).pdf q := by
  by_contra h
  push Not at h
  have := C97_dirichlet (k := 0) ⟨fun _ => 1⟩ ⟨fun _ => 2⟩ (fun _ => by norm_num) (fun _ => by norm_num) h
  simp only [Dirichlet.mk.injEq] at this
  have := congrFun this 0
  norm_num at this

example : ∃ x : Fin 2 → ℕ, (Multinomial.mk ((3 : ℕ) : ℝ) (fun _ : Fin 2 => (1 / 2 : ℝ))).pmf x ≠
    (Multinomial.mk ((4 : ℕ) : ℝ) (fun _ : Fin 2 => (1 / 2 : ℝ))).pmf x := by
  by_contra h
  push Not at h
  have := (C97_multinomial (k := 1) 3 4 (fun _ => 1 / 2) (fun _ => 1 / 2) (fun _ => by norm_num) (by norm_num)
    (fun _ => by norm_num) (by norm_num)).1 h
  norm_num at this

example : ∃ x : Fin 2 → ℕ, (DirichletMultinomial.mk (fun _ : Fin 2 => (1 : ℝ)) ((2 : ℕ) : ℝ)).pmf x ≠
    (DirichletMultinomial.mk (fun _ : Fin 2 => (2 : ℝ)) ((2 : ℕ) : ℝ)).pmf x := by
  by_contra h
  push Not at h
  have := (C97_dirichlet_multinomial (k := 0) 2 2 le_rfl (fun _ => 1) (fun _ => 2) (fun _ => by norm_num)
    (fun _ => by norm_num) h).2
  have := congrFun this 0
  norm_num at this

end Conj
