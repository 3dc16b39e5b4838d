import Verif.Lemmas.Sums

/-!
# Distribution arithmetic (C49, C50, C51)

`sumLaw μ ν` is the law of the sum of two independent variables, `sumOfCopies μ k` of the sum
of `k` independent copies (`Verif/SumSpec.lean`).  Multiplying from the left is the same Python
function (`__rmul__ = __mul__`).
-/

open MeasureTheory Set Real

namespace Conj

open Scipy Spec

noncomputable instance (d : Cont) : SigmaFinite (contLaw d) := SigmaFinite.withDensity_ofReal _
noncomputable instance (d : Disc) : SigmaFinite (discLaw d) := SigmaFinite.withDensity_ofReal _

/-- C49. `Poisson(a) + Poisson(b)` is the law of the sum of independent counts. -/
theorem C49_poisson_add (p q : Poisson ℝ) (hp : 0 ≤ p.lam) (hq : 0 ≤ q.lam) :
    discLaw (p.add q).dist = sumLaw (discLaw p.dist) (discLaw q.dist) :=
  (poisson_conv p.lam q.lam hp hq).symm

theorem poisson_zero_law : discLaw (Poisson.dist ⟨0⟩) = Measure.dirac 0 := by
  refine Measure.ext_of_singleton fun k => ?_
  rw [discLaw, withDensity_apply _ (measurableSet_singleton k), Measure.restrict_singleton,
    lintegral_smul_measure, lintegral_dirac, Measure.count_singleton, one_smul]
  rcases lt_trichotomy k 0 with hk | rfl | hk
  · rw [poisson_neg 0 k hk]; simp [hk.ne']
  · have := Poisson.pmf_nat 0 0
    simp at this
    simp [this]
  · obtain ⟨n, rfl⟩ := Int.eq_ofNat_of_zero_le hk.le
    have hn : n ≠ 0 := by rintro rfl; simp at hk
    rw [Poisson.pmf_nat]
    simp [hn]

/-- C49. `k * Poisson(a)` is the law of the sum of `k` independent copies, `k = 0` included. -/
theorem C49_poisson_mul (p : Poisson ℝ) (hp : 0 ≤ p.lam) (k : ℕ) :
    discLaw (p.mul (k : ℝ)).dist = sumOfCopies (discLaw p.dist) k := by
  cases k with
  | zero =>
    rw [sumOfCopies_zero, ← poisson_zero_law]
    simp [Poisson.mul]
  | succ k =>
    exact (sumOfCopies_family (fun a => discLaw (Poisson.dist ⟨a⟩)) (fun a => 0 ≤ a)
      (fun _ _ => add_nonneg) (fun a b ha hb => poisson_conv a b ha hb) hp k).symm

/-- C49. Poisson arithmetic is commutative, associative and distributive. -/
theorem C49_poisson_algebra (p q r : Poisson ℝ) (k l : ℝ) :
    p.add q = q.add p ∧ (p.add q).add r = p.add (q.add r) ∧
    (p.add q).mul k = (p.mul k).add (q.mul k) ∧ p.mul (k + l) = (p.mul k).add (p.mul l) ∧
    (p.mul k).mul l = p.mul (k * l) ∧ p.mul 1 = p := by
  refine ⟨?_, ?_, ?_, ?_, ?_, ?_⟩ <;> simp only [Poisson.add, Poisson.mul] <;> congr 1 <;> ring

/-- C50. `k * Gamma(alpha, beta)` is the law of the sum of `k >= 1` independent copies. -/
theorem C50_gamma_mul (d : Gamma ℝ) (ha : 0 < d.alpha) (hb : 0 < d.beta) (k : ℕ) (hk : 1 ≤ k) :
    contLaw (d.mul (k : ℝ)).dist = sumOfCopies (contLaw d.dist) k := by
  obtain ⟨k, rfl⟩ := Nat.exists_eq_succ_of_ne_zero (show k ≠ 0 by omega)
  exact (sumOfCopies_family (fun a => contLaw (Gamma.dist ⟨a, d.beta⟩)) (fun a => 0 < a)
    (fun _ _ => add_pos) (fun a b h1 h2 => gamma_conv a b d.beta h1 h2 hb) ha k).symm

/-- C50. `k * NegativeBinomial(n, p)` is the law of the sum of `k >= 1` independent copies. -/
theorem C50_negative_binomial_mul (d : NegativeBinomial ℝ) (hn : 0 < d.n) (hp : 0 < d.p)
    (hp1 : d.p ≤ 1) (k : ℕ) (hk : 1 ≤ k) :
    discLaw (d.mul (k : ℝ)).dist = sumOfCopies (discLaw d.dist) k := by
  obtain ⟨k, rfl⟩ := Nat.exists_eq_succ_of_ne_zero (show k ≠ 0 by omega)
  exact (sumOfCopies_family (fun a => discLaw (NegativeBinomial.dist ⟨a, d.p⟩)) (fun a => 0 < a)
    (fun _ _ => add_pos) (fun a b h1 h2 => nb_conv a b d.p h1 h2 hp hp1) hn k).symm

theorem exponential_law (lam : ℝ) :
    contLaw (Exponential.dist ⟨lam⟩) = contLaw (Gamma.dist ⟨1, 1 / lam⟩) := by
  unfold contLaw
  congr 1
  funext x
  simp only [Exponential.dist, Gamma.dist, Cont.pdf, Family.std, one_div, inv_inv, sub_zero,
    sub_self, rpow_zero, one_mul, Real.Gamma_one, div_one]

/-- C50. `k * Exponential(lam)` is the law of the sum of `k >= 1` independent copies of
`Exponential(lam).dist` (which has mean `lam`, see C54). -/
theorem C50_exponential_mul (d : Exponential ℝ) (hl : 0 < d.lam) (k : ℕ) (hk : 1 ≤ k) :
    contLaw (d.mul (k : ℝ)).dist = sumOfCopies (contLaw d.dist) k := by
  rw [exponential_law d.lam, ← C50_gamma_mul ⟨1, 1 / d.lam⟩ one_pos (by simpa using hl) k hk]
  simp [Exponential.mul, Gamma.mul]

/-- C51. `k * Normal(mu, sigma)` is the law of the sum of `k >= 1` independent copies. -/
theorem C51_normal_mul (d : Normal ℝ) (hs : 0 < d.sigma) (k : ℕ) (hk : 1 ≤ k) :
    contLaw (d.mul (k : ℝ)).dist = sumOfCopies (contLaw d.dist) k := by
  have hk' : 0 < (k : ℝ) := by exact_mod_cast hk
  have hsp : 0 < √(d.sigma ^ 2 * k) := Real.sqrt_pos.2 (by positivity)
  have e : (d.mul (k : ℝ)) = ⟨d.mu * k, √(d.sigma ^ 2 * k)⟩ := by
    simp [Normal.mul, powq_half, powq_two]
  have hfam := fun m => sumOfCopies_family
    (fun a => ProbabilityTheory.gaussianReal (d.mu * a) (Real.toNNReal (d.sigma ^ 2 * a)))
    (fun a => 0 < a) (fun _ _ => add_pos)
    (fun a b ha hb => by
      rw [sumLaw_eq_conv, ProbabilityTheory.gaussianReal_conv_gaussianReal,
        ← Real.toNNReal_add (by positivity) (by positivity)]
      congr 1 <;> ring_nf) one_pos m
  obtain ⟨m, rfl⟩ := Nat.exists_eq_succ_of_ne_zero (show k ≠ 0 by omega)
  have := hfam m
  rw [e, normal_law _ hsp, Real.sq_sqrt (by positivity), normal_law _ hs]
  simp only [mul_one, one_mul] at this
  exact this.symm

/-- C51. Mean `k * mu` and variance `k * sigma ** 2`, for every `k >= 0`. -/
theorem C51_normal_parameters (d : Normal ℝ) (k : ℝ) (hk : 0 ≤ k) :
    (d.mul k).mu = k * d.mu ∧ (d.mul k).sigma ^ 2 = k * d.sigma ^ 2 ∧ 0 ≤ (d.mul k).sigma := by
  simp only [Normal.mul, powq_half, powq_two]
  refine ⟨mul_comm _ _, ?_, Real.sqrt_nonneg _⟩
  rw [Real.sq_sqrt (by positivity)]; ring

/-- C51. Scaling composes. -/
theorem C51_normal_composes (d : Normal ℝ) (k l : ℝ) (hk : 0 ≤ k) :
    (d.mul k).mul l = d.mul (k * l) := by
  simp only [Normal.mul, powq_half, powq_two]
  rw [Real.sq_sqrt (by positivity), mul_assoc, mul_assoc]

/-- C50. Scaling composes for the other distributions too. -/
theorem C50_mul_composes (g : Gamma ℝ) (b : NegativeBinomial ℝ) (e : Exponential ℝ) (k l : ℝ) :
    (g.mul k).mul l = g.mul (k * l) ∧ (b.mul k).mul l = b.mul (k * l) ∧
      (e.mul k).mul l = e.mul (k * l) := by
  refine ⟨?_, ?_, ?_⟩ <;> simp [Gamma.mul, NegativeBinomial.mul, Exponential.mul, mul_assoc]

/-- the hypotheses are met -/
example := C49_poisson_mul ⟨2⟩ (by norm_num) 3
example := C50_gamma_mul ⟨2, 3⟩ (by norm_num) (by norm_num) 5 (by norm_num)
example := C50_negative_binomial_mul ⟨2, 1 / 3⟩ (by norm_num) (by norm_num) (by norm_num) 5
  (by norm_num)
example := C51_normal_mul ⟨2, 1 / 3⟩ (by norm_num) 5 (by norm_num)

end Conj
