import Verif.PredictiveSpec
import Verif.Lemmas.Bayes

/-!
# From posterior and predictive to evidence ratios
-/

open MeasureTheory Set

namespace Conj.Spec

variable {Θ : Type*} [MeasurableSpace Θ] {μ : Measure Θ} {S : Set Θ}

/-- predicting from a Bayes posterior gives the ratio of evidences -/
theorem IsPosteriorPredictive.of (hS : MeasurableSet S) {prior lik post new : Θ → ℝ} {pred : ℝ}
    (h : IsPosterior μ S prior lik post) (hp : IsPredictive μ S new post pred) :
    IsPosteriorPredictive μ S prior lik new pred := by
  obtain ⟨hZ, h⟩ := h
  obtain ⟨hi, rfl⟩ := hp
  set Z := ∫ θ in S, prior θ * lik θ ∂μ
  have e : ∀ θ ∈ S, prior θ * lik θ * new θ = Z * (new θ * post θ) := by
    intro θ hθ
    rw [h θ hθ]
    field_simp
  refine ⟨hZ, ?_, ?_⟩
  · rw [integrableOn_congr_fun e hS]
    exact hi.const_mul Z
  · rw [setIntegral_congr_fun hS e, integral_const_mul]
    change _ = Z * _ / Z
    field_simp

/-- conversely -/
theorem IsPosteriorPredictive.isPredictive (hS : MeasurableSet S) {prior lik post new : Θ → ℝ}
    {pred : ℝ} (h : IsPosterior μ S prior lik post)
    (hp : IsPosteriorPredictive μ S prior lik new pred) : IsPredictive μ S new post pred := by
  obtain ⟨hZ, h⟩ := h
  obtain ⟨-, hi, rfl⟩ := hp
  set Z := ∫ θ in S, prior θ * lik θ ∂μ
  have e : ∀ θ ∈ S, new θ * post θ = Z⁻¹ * (prior θ * lik θ * new θ) := by
    intro θ hθ
    rw [h θ hθ]
    field_simp
  refine ⟨?_, ?_⟩
  · rw [integrableOn_congr_fun e hS]
    exact hi.const_mul _
  · rw [setIntegral_congr_fun hS e, integral_const_mul]
    ring

/-- the prior and posterior predictives are both determined by the data: uniqueness -/
theorem IsPosteriorPredictive.unique {prior lik new : Θ → ℝ} {p q : ℝ}
    (h : IsPosteriorPredictive μ S prior lik new p)
    (h' : IsPosteriorPredictive μ S prior lik new q) : p = q := h.2.2.trans h'.2.2.symm

theorem evidence_cons (hS : MeasurableSet S) {prior f post lik : Θ → ℝ} {p q : ℝ}
    (hpost : IsPosterior μ S prior f post) (hpred : IsPredictive μ S f prior p)
    (hq : IsEvidence μ S post lik q) : IsEvidence μ S prior (fun θ => f θ * lik θ) (p * q) := by
  obtain ⟨hZ, h⟩ := hpost
  obtain ⟨-, rfl⟩ := hpred
  obtain ⟨hi, rfl⟩ := hq
  have eZ : ∫ θ in S, f θ * prior θ ∂μ = ∫ θ in S, prior θ * f θ ∂μ := by
    simp only [mul_comm]
  rw [eZ]
  set Z := ∫ θ in S, prior θ * f θ ∂μ
  have e : ∀ θ ∈ S, prior θ * (f θ * lik θ) = Z * (post θ * lik θ) := by
    intro θ hθ
    rw [h θ hθ]
    field_simp
  refine ⟨?_, ?_⟩
  · rw [integrableOn_congr_fun e hS]
    exact hi.const_mul Z
  · rw [setIntegral_congr_fun hS e, integral_const_mul]

omit [MeasurableSpace Θ] in
theorem likelihood_cons {X : Type*} (f : Θ → X → ℝ) (x : X) (xs : List X) :
    likelihood f (x :: xs) = fun θ => f θ x * likelihood f xs θ := by
  funext θ; simp [likelihood]

theorem evidence_nil {X : Type*} {f : Θ → X → ℝ} {prior : Θ → ℝ} (h : IsDensity μ S prior) :
    IsEvidence μ S prior (likelihood f []) 1 := by
  refine ⟨?_, ?_⟩ <;> simp only [likelihood, List.map_nil, List.prod_nil, mul_one]
  · exact h.2.1
  · exact h.2.2.symm

/-- chaining one-step predictives gives the evidence -/
theorem prequential_evidence {D X : Type*} (hS : MeasurableSet S) {dens : D → Θ → ℝ}
    {f : Θ → X → ℝ} {update : D → X → D} {pred : D → X → ℝ} {valid : D → Prop} {ok : X → Prop}
    (hdens : ∀ d, valid d → IsDensity μ S (dens d))
    (hvalid : ∀ d x, valid d → ok x → valid (update d x))
    (hpost : ∀ d x, valid d → ok x → IsPosterior μ S (dens d) (f · x) (dens (update d x)))
    (hpred : ∀ d x, valid d → ok x → IsPredictive μ S (f · x) (dens d) (pred d x)) :
    ∀ (xs : List X) (d : D), (∀ x ∈ xs, ok x) → valid d →
      IsEvidence μ S (dens d) (likelihood f xs) (prequential update pred d xs) := by
  intro xs
  induction xs with
  | nil => intro d _ hd; exact evidence_nil (hdens d hd)
  | cons x l ih =>
    intro d hx hd
    have hx0 := hx x (by simp)
    rw [likelihood_cons]
    exact evidence_cons hS (hpost d x hd hx0) (hpred d x hd hx0)
      (ih _ (fun y hy => hx y (by simp [hy])) (hvalid d x hd hx0))

/-- the same for functions that can raise: nothing is raised -/
theorem prequentialM_evidence {D X E : Type} (hS : MeasurableSet S) {dens : D → Θ → ℝ}
    {f : Θ → X → ℝ} {update : D → X → Except E D} {pred : D → X → Except E ℝ} {valid : D → Prop}
    {ok : X → Prop}
    (hdens : ∀ d, valid d → IsDensity μ S (dens d))
    (hpost : ∀ d x, valid d → ok x → ∃ d', update d x = .ok d' ∧ valid d' ∧
      IsPosterior μ S (dens d) (f · x) (dens d'))
    (hpred : ∀ d x, valid d → ok x → ∃ p, pred d x = .ok p ∧
      IsPredictive μ S (f · x) (dens d) p) :
    ∀ (xs : List X) (d : D), (∀ x ∈ xs, ok x) → valid d →
      ∃ ev, prequentialM update pred d xs = .ok ev ∧
        IsEvidence μ S (dens d) (likelihood f xs) ev := by
  intro xs
  induction xs with
  | nil => intro d _ hd; exact ⟨1, rfl, evidence_nil (hdens d hd)⟩
  | cons x l ih =>
    intro d hx hd
    have hx0 := hx x (by simp)
    obtain ⟨d', h1, h2, h3⟩ := hpost d x hd hx0
    obtain ⟨p, h4, h5⟩ := hpred d x hd hx0
    obtain ⟨q, h6, h7⟩ := ih d' (fun y hy => hx y (by simp [hy])) h2
    refine ⟨p * q, ?_, ?_⟩
    · simp only [prequentialM, h4, h1, h6, bind, Except.bind, pure, Except.pure]
    · rw [likelihood_cons]
      exact evidence_cons hS h3 h5 h7

end Conj.Spec
