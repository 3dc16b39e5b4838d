import Verif.Models
import Mathlib.Analysis.SpecialFunctions.Sqrt
import Mathlib.Analysis.SpecialFunctions.Log.Basic
import Mathlib.Tactic.FieldSimp
import Mathlib.Tactic.Linarith
import Mathlib.Tactic.LinearCombination

/-!
# C75: every data argument matters

`Matters f S`: two different values of the argument, both in `S`, always give different posteriors.
-/

namespace Conj

namespace Spec

/-- different values of the argument give different results -/
def Matters {R : Type*} (f : ℝ → R) (S : Set ℝ := Set.univ) : Prop := ∀ x ∈ S, ∀ y ∈ S, x ≠ y → f x ≠ f y

/-- the argument is ignored -/
def Ignored {R : Type*} (f : ℝ → R) : Prop := ∀ x y, f x = f y

end Spec

open Spec

theorem matters_of_inj {R : Type*} {f : ℝ → R} {S : Set ℝ}
    (h : ∀ x ∈ S, ∀ y ∈ S, f x = f y → x = y) : Matters f S :=
  fun x hx y hy hne he => hne (h x hx y hy he)

section scalar

theorem C75_binomial_beta (n x : ℝ) (prior : Beta ℝ) :
    Matters (fun n => binomial_beta n x prior) ∧ Matters (fun x => binomial_beta n x prior) := by
  constructor <;> refine matters_of_inj fun a _ b _ h => ?_ <;>
    simp only [binomial_beta, getBinomialBetaPosteriorParams, Beta.mk.injEq] at h <;> linarith [h.1, h.2]

theorem C75_bernoulli_beta (prior : Beta ℝ) : Matters (fun x => bernoulli_beta x prior) :=
  (C75_binomial_beta _ 0 prior).2

theorem C75_negative_binomial_beta (r n x : ℝ) (prior : Beta ℝ) :
    (n ≠ 0 → Matters (fun r => negative_binomial_beta r n x prior)) ∧
    (r ≠ 0 → Matters (fun n => negative_binomial_beta r n x prior)) ∧
    Matters (fun x => negative_binomial_beta r n x prior) := by
  refine ⟨fun hn => ?_, fun hr => ?_, ?_⟩ <;> refine matters_of_inj fun a _ b _ h => ?_ <;>
    simp only [negative_binomial_beta, Beta.mk.injEq] at h
  · exact mul_right_cancel₀ hn (by linarith [h.1])
  · exact mul_left_cancel₀ hr (by linarith [h.1])
  · linarith [h.2]

/-- `x_total` matters ... -/
theorem C75_hypergeometric_beta_binomial_partial (n : ℝ) (prior : BetaBinomial ℝ) :
    Matters (fun x => hypergeometric_beta_binomial x n prior) := by
  refine matters_of_inj fun a _ b _ h => ?_
  simp only [hypergeometric_beta_binomial, BetaBinomial.mk.injEq] at h
  linarith [h.2.1]

/-- ... the documented sample size `n` does not. -/
theorem C75_hypergeometric_n_ignored (x : ℝ) (prior : BetaBinomial ℝ) :
    Ignored (fun n => hypergeometric_beta_binomial x n prior) := fun _ _ => rfl

theorem C75_geometric_beta (x n : ℝ) (prior : Beta ℝ) (one_start : Bool) :
    Matters (fun x => geometric_beta x n prior one_start) ∧
    Matters (fun n => geometric_beta x n prior one_start) ∧
    (n ≠ 0 → geometric_beta x n prior true ≠ geometric_beta x n prior false) := by
  refine ⟨?_, ?_, fun hn h => ?_⟩
  · refine matters_of_inj fun a _ b _ h => ?_
    cases one_start <;> simp [geometric_beta] at h <;> linarith
  · refine matters_of_inj fun a _ b _ h => ?_
    cases one_start <;> simp [geometric_beta] at h <;> first | exact h | exact h.1
  · simp [geometric_beta] at h
    exact hn (by linarith)

theorem C75_dirichlet {I : Type} (prior : Dirichlet (I → ℝ)) (x y : I → ℝ) (h : x ≠ y) :
    categorical_dirichlet x prior ≠ categorical_dirichlet y prior ∧
    multinomial_dirichlet x prior ≠ multinomial_dirichlet y prior := by
  have key : ∀ x y : I → ℝ, categorical_dirichlet x prior = categorical_dirichlet y prior → x = y := by
    intro x y he
    have he' : (Except.ok (Dirichlet.mk fun i => prior.alpha i + x i) : Except PyErr (Dirichlet (I → ℝ))) =
        Except.ok (Dirichlet.mk fun i => prior.alpha i + y i) := he
    simp only [Except.ok.injEq, Dirichlet.mk.injEq] at he'
    funext i
    have := congrFun he' i
    linarith
  exact ⟨fun he => h (key x y he), fun he => h (key x y he)⟩

theorem C75_poisson_gamma (x n : ℝ) (prior : Gamma ℝ) :
    Matters (fun x => poisson_gamma x n prior) ∧ Matters (fun n => poisson_gamma x n prior) := by
  constructor <;> refine matters_of_inj fun a _ b _ h => ?_ <;>
    simp only [poisson_gamma, getPoissonGammaPosteriorParams, Gamma.mk.injEq] at h <;> linarith [h.1, h.2]

theorem C75_exponential_gamma (x n : ℝ) (prior : Gamma ℝ) :
    Matters (fun x => exponential_gamma x n prior) ∧ Matters (fun n => exponential_gamma x n prior) :=
  C75_poisson_gamma x n prior

theorem C75_gamma_known_shape (x n alpha : ℝ) (prior : Gamma ℝ) :
    Matters (fun x => gamma_known_shape x n alpha prior) ∧
    (alpha ≠ 0 → Matters (fun n => gamma_known_shape x n alpha prior)) ∧
    (n ≠ 0 → Matters (fun alpha => gamma_known_shape x n alpha prior)) := by
  refine ⟨?_, fun ha => ?_, fun hn => ?_⟩ <;> refine matters_of_inj fun a _ b _ h => ?_ <;>
    simp only [gamma_known_shape, Gamma.mk.injEq] at h
  · linarith [h.2]
  · exact mul_right_cancel₀ ha (by linarith [h.1])
  · exact mul_left_cancel₀ hn (by linarith [h.1])

theorem C75_inverse_gamma_known_rate (x n alpha : ℝ) (prior : Gamma ℝ) :
    Matters (fun x => inverse_gamma_known_rate x n alpha prior) ∧
    (alpha ≠ 0 → Matters (fun n => inverse_gamma_known_rate x n alpha prior)) ∧
    (n ≠ 0 → Matters (fun alpha => inverse_gamma_known_rate x n alpha prior)) :=
  C75_gamma_known_shape x n alpha prior

theorem sqrt_recip_inj {a b : ℝ} (ha : 0 < a) (hb : 0 < b) (h : Real.sqrt (1 / a) = Real.sqrt (1 / b)) : a = b := by
  have := (Real.sqrt_inj (by positivity) (by positivity)).1 h
  simpa using this

theorem C75_normal_known_variance (x n var : ℝ) (prior : Normal ℝ) (hs : 0 < prior.sigma) :
    (0 < var → 0 ≤ n → Matters (fun x => normal_known_variance x n var prior)) ∧
    (0 < var → Matters (fun n => normal_known_variance x n var prior) (Set.Ici 0)) ∧
    (0 < n → Matters (fun var => normal_known_variance x n var prior) (Set.Ioi 0)) := by
  have hs2 : 0 < prior.sigma ^ 2 := by positivity
  refine ⟨fun hv hn => ?_, fun hv => ?_, fun hn => ?_⟩ <;> refine matters_of_inj fun a ha b hb h => ?_ <;>
    simp only [normal_known_variance, powq_two, powq_half, lit_real, Rat.cast_one, Normal.mk.injEq] at h
  · have hd : 0 < 1 / prior.sigma ^ 2 + n / var := by positivity
    have h1 := h.1
    rw [div_left_inj' hd.ne'] at h1
    have : a / var = b / var := by linarith
    exact (div_left_inj' hv.ne').1 this
  · have ha' : (0 : ℝ) ≤ a := ha
    have hb' : (0 : ℝ) ≤ b := hb
    have := sqrt_recip_inj (a := 1 / prior.sigma ^ 2 + a / var) (b := 1 / prior.sigma ^ 2 + b / var)
      (by positivity) (by positivity) h.2
    exact (div_left_inj' hv.ne').1 (by linarith)
  · have ha' : (0 : ℝ) < a := ha
    have hb' : (0 : ℝ) < b := hb
    have := sqrt_recip_inj (a := 1 / prior.sigma ^ 2 + n / a) (b := 1 / prior.sigma ^ 2 + n / b)
      (by positivity) (by positivity) h.2
    have h2 : n / a = n / b := by linarith
    field_simp at h2
    linarith

theorem C75_normal_known_precision (x n precision : ℝ) (prior : Normal ℝ) (hs : 0 < prior.sigma) :
    (0 < precision → 0 ≤ n → Matters (fun x => normal_known_precision x n precision prior)) ∧
    (0 < precision → Matters (fun n => normal_known_precision x n precision prior) (Set.Ici 0)) ∧
    (0 < n → Matters (fun precision => normal_known_precision x n precision prior) (Set.Ioi 0)) := by
  obtain ⟨h1, h2, h3⟩ := C75_normal_known_variance x n (lit 1 / precision) prior hs
  refine ⟨fun hp hn => h1 (by simpa using hp) hn, fun hp => h2 (by simpa using hp), fun hn a ha b hb hne => ?_⟩
  have ha' : (0 : ℝ) < a := ha
  have hb' : (0 : ℝ) < b := hb
  refine h3 hn (lit 1 / a) (by simpa using ha') (lit 1 / b) (by simpa using hb') ?_
  simpa using hne

/-- `mu` is the one argument of which two values can give the same posterior: exactly when both are at the same distance
of the sample mean, where the likelihoods agree too. -/
theorem C75_normal_known_mean (x x2 n mu : ℝ) (prior : InverseGamma ℝ) :
    (mu ≠ 0 → Matters (fun x => normal_known_mean x x2 n mu (.inverseGamma prior))) ∧
    Matters (fun x2 => normal_known_mean x x2 n mu (.inverseGamma prior)) ∧
    Matters (fun n => normal_known_mean x x2 n mu (.inverseGamma prior)) ∧
    (n ≠ 0 → ∀ mu mu', normal_known_mean x x2 n mu (.inverseGamma prior) =
      normal_known_mean x x2 n mu' (.inverseGamma prior) ↔ mu = mu' ∨ mu - x / n = -(mu' - x / n)) := by
  refine ⟨fun hm => ?_, ?_, ?_, fun hn mu mu' => ?_⟩
  · refine matters_of_inj fun a _ b _ h => ?_
    simp only [normal_known_mean, normalKnownMeanInverseGammaPrior, VariancePrior.inverseGamma.injEq,
      InverseGamma.mk.injEq, lit_real, powq_two] at h
    have h2 := h.2
    push_cast at h2
    exact mul_left_cancel₀ hm (by linarith)
  · refine matters_of_inj fun a _ b _ h => ?_
    simp only [normal_known_mean, normalKnownMeanInverseGammaPrior, VariancePrior.inverseGamma.injEq,
      InverseGamma.mk.injEq, lit_real, powq_two] at h
    have h2 := h.2
    push_cast at h2
    linarith
  · refine matters_of_inj fun a _ b _ h => ?_
    simp only [normal_known_mean, normalKnownMeanInverseGammaPrior, VariancePrior.inverseGamma.injEq,
      InverseGamma.mk.injEq, lit_real, powq_two] at h
    have h1 := h.1
    push_cast at h1
    linarith
  · simp only [normal_known_mean, normalKnownMeanInverseGammaPrior, VariancePrior.inverseGamma.injEq,
      InverseGamma.mk.injEq, lit_real, powq_two, true_and]
    push_cast
    constructor
    · intro h
      have : (mu - mu') * (n * (mu + mu') - 2 * x) = 0 := by linarith
      rcases mul_eq_zero.1 this with h | h
      · left; linarith
      · right
        have : mu + mu' = 2 * x / n := by rw [eq_div_iff hn]; linarith
        rw [show 2 * x / n = 2 * (x / n) by ring] at this
        linarith
    · rintro (rfl | h)
      · rfl
      · have : mu + mu' = 2 * (x / n) := by linarith
        have h2 : n * (mu + mu') = 2 * x := by rw [this]; field_simp
        have : (mu - mu') * (n * (mu + mu') - 2 * x) = 0 := by rw [h2]; ring
        linarith

/-- for one observation or more -/
theorem C75_normal (x x2 n : ℝ) (mu nu alpha beta : ℝ) (hnu : 0 < nu) :
    (0 < n → Matters (fun x => normalUpdate x x2 n mu nu alpha beta)) ∧
    Matters (fun x2 => normalUpdate x x2 n mu nu alpha beta) ∧
    Matters (fun n => normalUpdate x x2 n mu nu alpha beta) := by
  refine ⟨fun hn => ?_, ?_, ?_⟩ <;> refine matters_of_inj fun a _ b _ h => ?_ <;>
    simp only [normalUpdate, Prod.mk.injEq, lit_real, powq_two] at h
  · have h1 := h.1
    rw [div_left_inj' (by positivity)] at h1
    have : n * (a / n) = n * (b / n) := by linarith
    rwa [mul_div_cancel₀ _ hn.ne', mul_div_cancel₀ _ hn.ne'] at this
  · have h2 := h.2.2.2
    push_cast at h2
    linarith
  · linarith [h.2.1]

theorem C75_normal_posterior {M : Type} (x x2 n : ℝ) (prior : NormalGamma ℝ) (hnu : 0 < prior.lam) :
    (0 < n → Matters (fun x => normal (M := M) x x2 n (.ng prior))) ∧
    Matters (fun x2 => normal (M := M) x x2 n (.ng prior)) ∧
    Matters (fun n => normal (M := M) x x2 n (.ng prior)) := by
  obtain ⟨h1, h2, h3⟩ := C75_normal x x2 n prior.mu prior.lam prior.alpha prior.beta hnu
  have key : ∀ r r' : ℝ × ℝ × ℝ × ℝ,
      (Except.ok (.ng { mu := r.1, lam := r.2.1, alpha := r.2.2.1, beta := r.2.2.2 }) : Except PyErr (NormalPrior ℝ M)) =
      Except.ok (.ng { mu := r'.1, lam := r'.2.1, alpha := r'.2.2.1, beta := r'.2.2.2 }) → r = r' := by
    rintro ⟨a, b, c, d⟩ ⟨a', b', c', d'⟩ h
    simpa using h
  exact ⟨fun hn a ha b hb hne he => h1 hn a ha b hb hne (key _ _ he),
    fun a ha b hb hne he => h2 a ha b hb hne (key _ _ he), fun a ha b hb hne he => h3 a ha b hb hne (key _ _ he)⟩

/-- `x_max` matters once it exceeds the prior's `x_m` -/
theorem C75_uniform_pareto (x n : ℝ) (prior : Pareto ℝ) :
    Matters (fun n => uniform_pareto x n prior max) ∧
    Matters (fun x => uniform_pareto x n prior max) (Set.Ici prior.x_m) := by
  refine ⟨?_, ?_⟩ <;> refine matters_of_inj fun a ha b hb h => ?_ <;>
    simp only [uniform_pareto, Pareto.mk.injEq] at h
  · linarith [h.2]
  · have h1 := h.1
    rwa [max_eq_right (Set.mem_Ici.1 ha), max_eq_right (Set.mem_Ici.1 hb)] at h1

theorem C75_pareto_gamma (n lx xm : ℝ) (prior : Gamma ℝ) :
    Matters (fun n => pareto_gamma n lx xm prior Real.log) ∧
    Matters (fun lx => pareto_gamma n lx xm prior Real.log) ∧
    (n ≠ 0 → Matters (fun xm => pareto_gamma n lx xm prior Real.log) (Set.Ioi 0)) := by
  refine ⟨?_, ?_, fun hn => ?_⟩ <;> refine matters_of_inj fun a ha b hb h => ?_ <;>
    simp only [pareto_gamma, Gamma.mk.injEq] at h
  · linarith [h.1]
  · linarith [h.2]
  · exact Real.log_injOn_pos ha hb (mul_left_cancel₀ hn (by linarith [h.2]))

theorem C75_gamma (x xp n : ℝ) (prior : GammaProportional ℝ) :
    Matters (fun x => gamma x xp n prior) ∧ (prior.p ≠ 0 → Matters (fun xp => gamma x xp n prior)) ∧
    Matters (fun n => gamma x xp n prior) := by
  refine ⟨?_, fun hp => ?_, ?_⟩ <;> refine matters_of_inj fun a _ b _ h => ?_ <;>
    simp only [gamma, GammaProportional.mk.injEq] at h
  · linarith [h.2.1]
  · exact mul_left_cancel₀ hp h.1
  · linarith [h.2.2.1]

theorem C75_gamma_known_rate_partial (xp n beta : ℝ) (prior : GammaKnownRateProportional ℝ) :
    (prior.a ≠ 0 → Matters (fun xp => gamma_known_rate xp n beta prior)) ∧
    Matters (fun n => gamma_known_rate xp n beta prior) := by
  refine ⟨fun hp => ?_, ?_⟩ <;> refine matters_of_inj fun a _ b _ h => ?_ <;>
    simp only [gamma_known_rate, GammaKnownRateProportional.mk.injEq] at h
  · exact mul_left_cancel₀ hp h.1
  · linarith [h.2.1]

/-- The known rate is ignored. -/
theorem C75_gamma_known_rate_beta_ignored (xp n : ℝ) (prior : GammaKnownRateProportional ℝ) :
    Ignored (fun beta => gamma_known_rate xp n beta prior) := fun _ _ => rfl

theorem C75_beta (xp op n : ℝ) (prior : BetaProportional ℝ) :
    (prior.p ≠ 0 → Matters (fun xp => Conj.beta xp op n prior)) ∧
    (prior.q ≠ 0 → Matters (fun op => Conj.beta xp op n prior)) ∧
    Matters (fun n => Conj.beta xp op n prior) := by
  refine ⟨fun hp => ?_, fun hq => ?_, ?_⟩ <;> refine matters_of_inj fun a _ b _ h => ?_ <;>
    simp only [Conj.beta, BetaProportional.mk.injEq] at h
  · exact mul_left_cancel₀ hp h.1
  · exact mul_left_cancel₀ hq h.2.1
  · linarith [h.2.2]

/-- whatever `sin`, `cos` and `arctan2` do -/
theorem C75_von_mises_known_concentration_partial (c s n kappa : ℝ) (prior : VonMisesKnownConcentration ℝ)
    (sin cos : ℝ → ℝ) (arctan2 : ℝ → ℝ → ℝ) :
    (kappa ≠ 0 → Matters (fun s => von_mises_known_concentration c s n kappa prior sin cos arctan2)) ∧
    (prior.a * sin prior.b + s ≠ 0 →
      Matters (fun kappa => von_mises_known_concentration c s n kappa prior sin cos arctan2)) ∧
    ((Function.Injective fun x => arctan2 (prior.a * sin prior.b + s) x) →
      Matters (fun c => von_mises_known_concentration c s n kappa prior sin cos arctan2)) := by
  refine ⟨fun hk => ?_, fun hs => ?_, fun hi => ?_⟩ <;> refine matters_of_inj fun a _ b _ h => ?_ <;>
    simp only [von_mises_known_concentration, VonMisesKnownConcentration.mk.injEq] at h
  · linarith [mul_left_cancel₀ hk h.1]
  · exact mul_right_cancel₀ hs h.1
  · linarith [hi h.2]

/-- The number of observations is ignored. -/
theorem C75_von_mises_n_ignored (c s kappa : ℝ) (prior : VonMisesKnownConcentration ℝ)
    (sin cos : ℝ → ℝ) (arctan2 : ℝ → ℝ → ℝ) :
    Ignored (fun n => von_mises_known_concentration c s n kappa prior sin cos arctan2) := fun _ _ => rfl

theorem C75_von_mises_known_direction (c n : ℝ) (prior : VonMisesKnownDirectionProportional ℝ) :
    Matters (fun c => von_mises_known_direction c n prior) ∧ Matters (fun n => von_mises_known_direction c n prior) := by
  constructor <;> refine matters_of_inj fun a _ b _ h => ?_ <;>
    simp only [von_mises_known_direction, VonMisesKnownDirectionProportional.mk.injEq] at h <;> linarith [h.1, h.2]

theorem C75_weibull_inverse_gamma_known_shape (n x : ℝ) (prior : InverseGamma ℝ) :
    Matters (fun n => weibull_inverse_gamma_known_shape n x prior) ∧
    Matters (fun x => weibull_inverse_gamma_known_shape n x prior) := by
  constructor <;> refine matters_of_inj fun a _ b _ h => ?_ <;>
    simp only [weibull_inverse_gamma_known_shape, InverseGamma.mk.injEq] at h <;> linarith [h.1, h.2]

end scalar

/-- the hypotheses are met: one observation, a unit prior -/
example : Matters (fun x => normal_known_variance x 1 1 ⟨0, 1⟩) :=
  (C75_normal_known_variance 0 1 1 ⟨0, 1⟩ one_pos).1 one_pos zero_le_one

end Conj
