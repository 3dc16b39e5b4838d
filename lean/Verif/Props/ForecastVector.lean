import Verif.Props.Forecast
import Verif.Props.Marginals
import Verif.Lemmas.MatAlg

/-!
# C111 for vectors with known covariance

Every coordinate of a new observation has the predicted variance:
that of the posterior of the mean plus that of the noise.
-/

open MeasureTheory Set Real Matrix

namespace Conj

open Scipy Spec

variable {p : Type} [Fintype p] [DecidableEq p]

/-- C111. Multivariate normal with known covariance: coordinate by coordinate the prediction has the mean of the mean, and its variance
is the variance of the mean plus the known variance. -/
theorem C111_multivariate_normal_known_covariance (d : MultivariateNormal (p → ℝ) (Matrix p p ℝ)) (hd : d.cov.PosDef)
    (cov : Matrix p p ℝ) (hc : cov.PosDef) (j : p) :
    ∃ m v, MeanVar ((densLaw d.pdf).map fun x => x j) m v ∧
      MeanVar ((densLaw (multivariate_normal_known_covariance_predictive d cov).pdf).map fun x => x j) m (v + cov j j) := by
  have hp : (multivariate_normal_known_covariance_predictive d cov).cov.PosDef := by
    simp only [multivariate_normal_known_covariance_predictive]
    exact hd.add hc
  rw [C56_multivariate_normal_int d hd j, C56_multivariate_normal_int _ hp j]
  have h1 := normal_meanVar (d.mu j) (sqrt_pos.2 (hd.diag_pos (i := j)))
  have h2 := normal_meanVar ((multivariate_normal_known_covariance_predictive d cov).mu j) (sqrt_pos.2 (hp.diag_pos (i := j)))
  rw [← powq_half] at h1 h2
  refine ⟨_, _, h1, h2.of_eq rfl ?_⟩
  rw [powq_half, powq_half, sq_sqrt hp.diag_pos.le, sq_sqrt hd.diag_pos.le]
  rfl

/-- C111. The same with known precision. -/
theorem C111_multivariate_normal_known_precision (d : MultivariateNormal (p → ℝ) (Matrix p p ℝ)) (hd : d.cov.PosDef)
    (precision : Matrix p p ℝ) (hc : precision.PosDef) :
    ∃ pred, multivariate_normal_known_precision_predictive d precision = .ok pred ∧
      ∀ j, ∃ m v, MeanVar ((densLaw d.pdf).map fun x => x j) m v ∧
        MeanVar ((densLaw pred.pdf).map fun x => x j) m (v + precision⁻¹ j j) := by
  refine ⟨multivariate_normal_known_covariance_predictive d precision⁻¹, ?_, fun j =>
    C111_multivariate_normal_known_covariance d hd _ hc.inv j⟩
  simp [multivariate_normal_known_precision_predictive, linalgInv_posDef hc, bind, Except.bind, pure, Except.pure,
    multivariate_normal_known_covariance_predictive]

example := C111_multivariate_normal_known_covariance ⟨![0, 1], (1 : Matrix (Fin 2) (Fin 2) ℝ)⟩ PosDef.one 1 PosDef.one 0
example := C111_multivariate_normal_known_precision ⟨![0, 1], (1 : Matrix (Fin 2) (Fin 2) ℝ)⟩ PosDef.one 1 PosDef.one

end Conj
