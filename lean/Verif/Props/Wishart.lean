import Verif.Lemmas.NiwNorm
import Verif.Props.MultivariateNormal

/-!
# Multivariate normal with unknown covariance (C22, C23, C35)

The `_kernel` theorems hold for matrices over any finite index type; the `_posterior` and
`_predictive` theorems integrate over the covariance, described by its entries on and above the
diagonal (`Verif/SymSpec.lean`), for every dimension `n`.
-/

open MeasureTheory Set Real Matrix

set_option linter.unusedSectionVars false

namespace Conj

open Scipy Spec

variable {m p : Type} [Fintype m] [Fintype p] [DecidableEq m] [DecidableEq p]

/-- C22. Known mean, unknown covariance, up to the constant. `X` has one observation per row. -/
theorem C22_multivariate_normal_known_mean_kernel (X : Matrix m p ℝ) (mu : p → ℝ)
    (prior : InverseWishart ℝ (Matrix p p ℝ)) (hnu : (Fintype.card p : ℝ) - 1 < prior.nu)
    (hpsi : prior.psi.PosDef) :
    (multivariate_normal_known_mean X mu prior).psi.PosDef ∧
    IsPosteriorKernel {S : Matrix p p ℝ | S.PosDef} prior.pdf
      (fun S => ∏ i, (MultivariateNormal.mk mu S).pdf (X i))
      (multivariate_normal_known_mean X mu prior).pdf := by
  have hpost : (prior.psi + (subRow X mu)ᵀ * subRow X mu).PosDef :=
    hpsi.add_posSemidef (subRow_gram_posSemidef X mu)
  refine ⟨hpost, (√((2 * π) ^ (Fintype.card p : ℝ)))⁻¹ ^ Fintype.card m *
    (iwConst prior.nu prior.psi / iwConst (prior.nu + (Fintype.card m : ℝ))
      (prior.psi + (subRow X mu)ᵀ * subRow X mu)), ?_, ?_⟩
  · have h1 := iwConst_pos hnu hpsi
    have h2 := iwConst_pos (nu := prior.nu + (Fintype.card m : ℝ))
      (by have : (0 : ℝ) ≤ Fintype.card m := Nat.cast_nonneg _
          linarith) hpost
    positivity
  · intro S (hS : S.PosDef)
    have h := iw_kernel (psi := prior.psi) hpost hnu (Nat.cast_nonneg (Fintype.card m)) hS
      (t := ((subRow X mu)ᵀ * subRow X mu * S⁻¹).trace) (by rw [Matrix.add_mul, trace_add])
    simp only [MultivariateNormal.pdf, InverseWishart.pdf, multivariate_normal_known_mean]
    rw [prod_mvn hS, mul_left_comm, h, mul_assoc]

example := C22_multivariate_normal_known_mean_kernel
  (!![1, 2; 3, -1; 0, 5] : Matrix (Fin 3) (Fin 2) ℝ) ![1, 1] ⟨4, 1⟩
  (by simp; norm_num) PosDef.one

/-- C23. Unknown mean and covariance, at least one row, up to the constant. The posterior is
again valid. -/
theorem C23_multivariate_normal_kernel [Nonempty m] (X : Matrix m p ℝ)
    (prior : NormalInverseWishart ℝ (p → ℝ) (Matrix p p ℝ)) (hk : 0 < prior.kappa)
    (hnu : (Fintype.card p : ℝ) - 1 < prior.nu) (hpsi : prior.psi.PosDef) :
    ∃ post, multivariate_normal X prior = .ok post ∧ post.psi.PosDef ∧ 0 < post.kappa ∧
      (Fintype.card p : ℝ) - 1 < post.nu ∧
      IsPosteriorKernel {θ : (p → ℝ) × Matrix p p ℝ | θ.2.PosDef}
        (fun θ => prior.jointPdf θ.1 θ.2)
        (fun θ => ∏ i, (MultivariateNormal.mk θ.1 θ.2).pdf (X i))
        (fun θ => post.jointPdf θ.1 θ.2) := by
  have hN : 0 < (Fintype.card m : ℝ) := by exact_mod_cast Fintype.card_pos
  have hN0 : Fintype.card m ≠ 0 := Fintype.card_ne_zero
  set N : ℝ := (Fintype.card m : ℝ) with hNdef
  set xb : p → ℝ := fun j => (∑ i, X i j) / N with hxb
  set d := xb - prior.mu with hd
  have hx : (Fintype.card m : ℝ) • xb = fun j => ∑ i, X i j := by
    funext j; simp only [Pi.smul_apply, smul_eq_mul, hxb, ← hNdef]; field_simp
  have hkN : 0 < prior.kappa + N := by positivity
  have hvv : (vecMulVec d d).PosSemidef := by
    have := posSemidef_vecMulVec_self_star d
    rwa [star_trivial] at this
  have hmat : (Matrix.of fun i j => vecMulVec d d i j * N * prior.kappa / (prior.kappa + N)) =
      (N * prior.kappa / (prior.kappa + N)) • vecMulVec d d := by
    ext i j; simp only [of_apply, Matrix.smul_apply, smul_eq_mul]; ring
  set psi' := prior.psi + (subRow X xb)ᵀ * subRow X xb +
    (N * prior.kappa / (prior.kappa + N)) • vecMulVec d d with hpsi'
  have hpost : psi'.PosDef :=
    (hpsi.add_posSemidef (subRow_gram_posSemidef X xb)).add_posSemidef
      (hvv.smul (by positivity))
  refine ⟨⟨fun j => (prior.mu j * prior.kappa + N * xb j) / (prior.kappa + N),
    prior.kappa + N, prior.nu + N, psi'⟩, ?_, hpost, hkN, by simp only; linarith, ?_⟩
  · simp only [multivariate_normal, meanAxis0, if_neg hN0, bind, Except.bind, pure, Except.pure]
    rw [← hNdef, ← hxb, ← hd, hmat]
  have hc1 := iwConst_pos hnu hpsi
  have hc2 := iwConst_pos (nu := prior.nu + N) (by linarith) hpost
  refine ⟨(√((2 * π) ^ (Fintype.card p : ℝ)))⁻¹ ^ Fintype.card m *
    ((1 / prior.kappa) ^ (-((Fintype.card p : ℝ) / 2)) /
      (1 / (prior.kappa + N)) ^ (-((Fintype.card p : ℝ) / 2))) *
    (iwConst prior.nu prior.psi / iwConst (prior.nu + N) psi'), by positivity, ?_⟩
  rintro ⟨b, S⟩ (hS : S.PosDef)
  exact niw_kernel X prior.mu xb hx hk hnu hpost hpsi' b hS

example := C23_multivariate_normal_kernel
  (!![1, 2; 3, -1; 0, 5] : Matrix (Fin 3) (Fin 2) ℝ) ⟨![1, 1], 2, 4, 1⟩ (by norm_num)
  (by simp; norm_num) PosDef.one

/-- C41. With a valid normal inverse Wishart prior and at least one row the call succeeds and its result is valid. -/
theorem C41_multivariate_normal [Nonempty m] (X : Matrix m p ℝ)
    (prior : NormalInverseWishart ℝ (p → ℝ) (Matrix p p ℝ)) (hk : 0 < prior.kappa)
    (hnu : (Fintype.card p : ℝ) - 1 < prior.nu) (hpsi : prior.psi.PosDef) :
    ∃ post, multivariate_normal X prior = .ok post ∧ post.psi.PosDef ∧ 0 < post.kappa ∧
      (Fintype.card p : ℝ) - 1 < post.nu := by
  obtain ⟨post, h1, h2, h3, h4, -⟩ := C23_multivariate_normal_kernel X prior hk hnu hpsi
  exact ⟨post, h1, h2, h3, h4⟩

variable {n : ℕ}

/-- C22. Known mean, unknown covariance: Bayes' rule. `X` has one observation per row. -/
theorem C22_multivariate_normal_known_mean_posterior (X : Matrix m (Fin n) ℝ) (mu : Fin n → ℝ)
    (prior : InverseWishart ℝ (Matrix (Fin n) (Fin n) ℝ)) (hnu : (n : ℝ) - 1 < prior.nu)
    (hpsi : prior.psi.PosDef) :
    IsPosterior volume {c : UpperIdx n → ℝ | (symOf c).PosDef} (fun c => prior.pdf (symOf c))
      (fun c => ∏ i, (MultivariateNormal.mk mu (symOf c)).pdf (X i))
      (fun c => (multivariate_normal_known_mean X mu prior).pdf (symOf c)) := by
  obtain ⟨h1, c, hc, h2⟩ := C22_multivariate_normal_known_mean_kernel X mu prior
    (by simpa using hnu) hpsi
  refine IsPosterior.of_density measurableSet_posDef (iw_isDensity h1 ?_) hc fun a ha => h2 _ ha
  have : (0 : ℝ) ≤ Fintype.card m := Nat.cast_nonneg _
  simp only [multivariate_normal_known_mean]
  linarith

example := C22_multivariate_normal_known_mean_posterior
  (!![1, 2; 3, -1; 0, 5] : Matrix (Fin 3) (Fin 2) ℝ) ![1, 1] ⟨4, 1⟩ (by norm_num) PosDef.one

/-- C23. Unknown mean and covariance, at least one row: Bayes' rule. -/
theorem C23_multivariate_normal_posterior [Nonempty m] (X : Matrix m (Fin n) ℝ)
    (prior : NormalInverseWishart ℝ (Fin n → ℝ) (Matrix (Fin n) (Fin n) ℝ))
    (hk : 0 < prior.kappa) (hnu : (n : ℝ) - 1 < prior.nu) (hpsi : prior.psi.PosDef) :
    ∃ post, multivariate_normal X prior = .ok post ∧ 0 < post.kappa ∧ (n : ℝ) - 1 < post.nu ∧
      post.psi.PosDef ∧
      IsPosterior volume {θ : (Fin n → ℝ) × (UpperIdx n → ℝ) | (symOf θ.2).PosDef}
        (fun θ => prior.jointPdf θ.1 (symOf θ.2))
        (fun θ => ∏ i, (MultivariateNormal.mk θ.1 (symOf θ.2)).pdf (X i))
        (fun θ => post.jointPdf θ.1 (symOf θ.2)) := by
  obtain ⟨post, h0, h1, h2, h3, c, hc, h4⟩ := C23_multivariate_normal_kernel X prior hk
    (by simpa using hnu) hpsi
  refine ⟨post, h0, h2, by simpa using h3, h1, IsPosterior.of_density (measurableSet_posDef.preimage measurable_snd)
    (niw_isDensity h2 (by simpa [NormalInverseWishart.inverse_wishart] using h3) h1 post.mu) hc fun θ hθ => h4 (θ.1, symOf θ.2) hθ⟩

example := C23_multivariate_normal_posterior
  (!![1, 2; 3, -1; 0, 5] : Matrix (Fin 3) (Fin 2) ℝ) ⟨![1, 1], 2, 4, 1⟩ (by norm_num)
  (by norm_num) PosDef.one

/-- C35. The density of the returned multivariate t at `x` is the mixture of the normal densities
at `x` over the normal inverse-Wishart distribution of mean and covariance. -/
theorem C35_multivariate_normal_predictive
    (dist : NormalInverseWishart ℝ (Fin n → ℝ) (Matrix (Fin n) (Fin n) ℝ))
    (hk : 0 < dist.kappa) (hnu : (n : ℝ) - 1 < dist.nu) (hpsi : dist.psi.PosDef)
    (x : Fin n → ℝ) :
    IsPredictive volume {θ : (Fin n → ℝ) × (UpperIdx n → ℝ) | (symOf θ.2).PosDef}
      (fun θ => (MultivariateNormal.mk θ.1 (symOf θ.2)).pdf x)
      (fun θ => dist.jointPdf θ.1 (symOf θ.2))
      ((multivariate_normal_predictive dist).pdf x) := by
  have hvv : (vecMulVec (x - dist.mu) (x - dist.mu)).PosSemidef := by
    have := posSemidef_vecMulVec_self_star (x - dist.mu)
    rwa [star_trivial] at this
  have hpost : (dist.psi + (dist.kappa / (dist.kappa + 1)) •
      vecMulVec (x - dist.mu) (x - dist.mu)).PosDef :=
    hpsi.add_posSemidef (hvv.smul (by positivity))
  have hnu' : (Fintype.card (Fin n) : ℝ) - 1 < dist.nu := by simpa using hnu
  refine IsPredictive.of_density (measurableSet_posDef.preimage measurable_snd)
    (niw_isDensity (nu := dist.nu + 1) (kappa := dist.kappa + 1) (by linarith) (by linarith) hpost
      (fun j => (dist.mu j * dist.kappa + x j) / (dist.kappa + 1))) fun θ hθ => ?_
  have hconst := niw_constant hpsi hk hnu' dist.mu x
  have hker := niw_kernel (fun (_ : Unit) => x) dist.mu x (by funext j; simp) hk hnu' (psi := dist.psi)
    hpost (by
      have : subRow (fun (_ : Unit) => x) x = 0 := by ext i j; simp [subRow]
      rw [this]; simp) θ.1 (show (symOf θ.2).PosDef from hθ)
  simp only [Fintype.card_unit, Nat.cast_one, pow_one, one_mul, Finset.univ_unique,
    Finset.prod_singleton] at hker
  rw [hconst] at hker
  have hsig : (multivariate_normal_predictive dist).sigma =
      ((dist.kappa + 1) / (dist.kappa * (dist.nu - (Fintype.card (Fin n) : ℝ) + 1))) • dist.psi := by
    ext i j
    simp only [multivariate_normal_predictive, of_apply, Matrix.smul_apply, smul_eq_mul]
    ring
  rw [MultivariateStudentT.pdf, hsig]
  exact (mul_comm _ _).trans hker

example := C35_multivariate_normal_predictive (n := 2) ⟨![1, 1], 2, 4, !![2, 1; 1, 2]⟩
  (by norm_num) (by norm_num) exampleCov_posDef

end Conj
