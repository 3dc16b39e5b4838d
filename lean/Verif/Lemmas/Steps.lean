import Verif.Models
import Verif.Lemmas.Kernel

/-! One-observation kernel identities for the scalar models, and the fold = pooled lemmas. -/

open MeasureTheory Set Real

namespace Conj

open Scipy Spec

/-- validity of two positive shape parameters -/
def Beta.Valid (d : Beta ℝ) : Prop := 0 < d.alpha ∧ 0 < d.beta
/-- validity -/
def Gamma.Valid (d : Gamma ℝ) : Prop := 0 < d.alpha ∧ 0 < d.beta
/-- validity -/
def InverseGamma.Valid (d : InverseGamma ℝ) : Prop := 0 < d.alpha ∧ 0 < d.beta
/-- validity -/
def Pareto.Valid (d : Pareto ℝ) : Prop := 0 < d.x_m ∧ 0 < d.alpha

/-- General Beta update: a likelihood `C p^u (1-p)^v`, with the constant. -/
theorem beta_kernel (d d' : Beta ℝ) (hd : d.Valid) (hd' : d'.Valid) {f : ℝ → ℝ} {C u v : ℝ}
    (hf : ∀ p ∈ Ioo (0 : ℝ) 1, f p = C * p ^ u * (1 - p) ^ v)
    (h1 : d'.alpha = d.alpha + u) (h2 : d'.beta = d.beta + v) :
    ∀ p ∈ Ioo (0 : ℝ) 1, d.dist.pdf p * f p =
      C * betaFn d'.alpha d'.beta / betaFn d.alpha d.beta * d'.dist.pdf p := by
  have hB := betaFn_pos hd.1 hd.2
  have hB' := betaFn_pos hd'.1 hd'.2
  intro p hp
  have hp1 : 0 < 1 - p := sub_pos.2 hp.2
  rw [Beta.pdf_eq _ hp, Beta.pdf_eq _ hp, hf p hp]
  have e1 : p ^ (d'.alpha - 1) = p ^ (d.alpha - 1) * p ^ u := by
    rw [← rpow_add hp.1, h1]; ring_nf
  have e2 : (1 - p) ^ (d'.beta - 1) = (1 - p) ^ (d.beta - 1) * (1 - p) ^ v := by
    rw [← rpow_add hp1, h2]; ring_nf
  rw [e1, e2]
  field_simp

theorem beta_step (d d' : Beta ℝ) (hd : d.Valid) (hd' : d'.Valid) {f : ℝ → ℝ} {C u v : ℝ}
    (hC : 0 < C) (hf : ∀ p ∈ Ioo (0 : ℝ) 1, f p = C * p ^ u * (1 - p) ^ v)
    (h1 : d'.alpha = d.alpha + u) (h2 : d'.beta = d.beta + v) :
    ∃ c : ℝ, 0 < c ∧ ∀ p ∈ Ioo (0 : ℝ) 1, d.dist.pdf p * f p = c * d'.dist.pdf p :=
  ⟨_, by
    have hB := betaFn_pos hd.1 hd.2
    have hB' := betaFn_pos hd'.1 hd'.2
    positivity, beta_kernel d d' hd hd' hf h1 h2⟩

/-- normalising constant of a Gamma / InverseGamma density -/
noncomputable def gammaConst (a b : ℝ) : ℝ := b ^ a / Real.Gamma a

theorem gammaConst_pos {a b : ℝ} (ha : 0 < a) (hb : 0 < b) : 0 < gammaConst a b :=
  div_pos (rpow_pos_of_pos hb _) (Real.Gamma_pos_of_pos ha)

/-- General Gamma update: a likelihood `C λ^u exp(-v λ)`, with the constant. -/
theorem gamma_kernel (d d' : Gamma ℝ) (hd : d.Valid) (hd' : d'.Valid) {f : ℝ → ℝ} {C u v : ℝ}
    (hf : ∀ l ∈ Ioi (0 : ℝ), f l = C * l ^ u * exp (-(v * l)))
    (h1 : d'.alpha = d.alpha + u) (h2 : d'.beta = d.beta + v) :
    ∀ l ∈ Ioi (0 : ℝ), d.dist.pdf l * f l =
      C * gammaConst d.alpha d.beta / gammaConst d'.alpha d'.beta * d'.dist.pdf l := by
  have hG' := gammaConst_pos hd'.1 hd'.2
  intro l hl
  have hl : 0 < l := hl
  rw [Gamma.pdf_eq _ hd.2 hl, Gamma.pdf_eq _ hd'.2 hl, hf l hl, ← gammaConst, ← gammaConst]
  have e1 : l ^ (d'.alpha - 1) = l ^ (d.alpha - 1) * l ^ u := by
    rw [← rpow_add hl, h1]; ring_nf
  have e2 : exp (-(d'.beta * l)) = exp (-(d.beta * l)) * exp (-(v * l)) := by
    rw [← exp_add, h2]; ring_nf
  rw [e1, e2]
  field_simp

theorem gamma_step (d d' : Gamma ℝ) (hd : d.Valid) (hd' : d'.Valid) {f : ℝ → ℝ} {C u v : ℝ}
    (hC : 0 < C) (hf : ∀ l ∈ Ioi (0 : ℝ), f l = C * l ^ u * exp (-(v * l)))
    (h1 : d'.alpha = d.alpha + u) (h2 : d'.beta = d.beta + v) :
    ∃ c : ℝ, 0 < c ∧ ∀ l ∈ Ioi (0 : ℝ), d.dist.pdf l * f l = c * d'.dist.pdf l :=
  ⟨_, by
    have hG := gammaConst_pos hd.1 hd.2
    have hG' := gammaConst_pos hd'.1 hd'.2
    positivity, gamma_kernel d d' hd hd' hf h1 h2⟩

/-- General inverse-Gamma update: a likelihood `C t^(-u) exp(-v / t)`, with the constant. -/
theorem invgamma_kernel (d d' : InverseGamma ℝ) (hd : d.Valid) (hd' : d'.Valid) {f : ℝ → ℝ}
    {C u v : ℝ} (hf : ∀ t ∈ Ioi (0 : ℝ), f t = C * t ^ (-u) * exp (-(v / t)))
    (h1 : d'.alpha = d.alpha + u) (h2 : d'.beta = d.beta + v) :
    ∀ t ∈ Ioi (0 : ℝ), d.dist.pdf t * f t =
      C * gammaConst d.alpha d.beta / gammaConst d'.alpha d'.beta * d'.dist.pdf t := by
  have hG' := gammaConst_pos hd'.1 hd'.2
  intro t ht
  have ht : 0 < t := ht
  rw [InverseGamma.pdf_eq _ hd.2 ht, InverseGamma.pdf_eq _ hd'.2 ht, hf t ht, ← gammaConst,
    ← gammaConst]
  have e1 : t ^ (-d'.alpha - 1) = t ^ (-d.alpha - 1) * t ^ (-u) := by
    rw [← rpow_add ht, h1]; ring_nf
  have e2 : exp (-(d'.beta / t)) = exp (-(d.beta / t)) * exp (-(v / t)) := by
    rw [← exp_add, h2]; ring_nf
  rw [e1, e2]
  field_simp

theorem invgamma_step (d d' : InverseGamma ℝ) (hd : d.Valid) (hd' : d'.Valid) {f : ℝ → ℝ}
    {C u v : ℝ}
    (hC : 0 < C) (hf : ∀ t ∈ Ioi (0 : ℝ), f t = C * t ^ (-u) * exp (-(v / t)))
    (h1 : d'.alpha = d.alpha + u) (h2 : d'.beta = d.beta + v) :
    ∃ c : ℝ, 0 < c ∧ ∀ t ∈ Ioi (0 : ℝ), d.dist.pdf t * f t = c * d'.dist.pdf t :=
  ⟨_, by
    have hG := gammaConst_pos hd.1 hd.2
    have hG' := gammaConst_pos hd'.1 hd'.2
    positivity, invgamma_kernel d d' hd hd' hf h1 h2⟩

end Conj
