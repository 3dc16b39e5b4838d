import Verif.Models
import Verif.Scipy
import Mathlib.Tactic.Ring
import Mathlib.Tactic.FieldSimp
import Mathlib.Tactic.Positivity
import Mathlib.Tactic.Linarith

/-!
# Sequential updating (C37, C40): scalar models

A batch is given by its statistics.  Feeding a list of batches one after the other
(`List.foldl`: the posterior of one call is the prior of the next) gives the posterior of
the pooled statistics.  The lists are arbitrary; the empty list is the no-data case.
-/

namespace Conj

/-- C37 binomial: batches `(n, x)`. -/
theorem C37_binomial_beta (batches : List (ℝ × ℝ)) (prior : Beta ℝ) :
    batches.foldl (fun d b => binomial_beta b.1 b.2 d) prior =
      binomial_beta (batches.map Prod.fst).sum (batches.map Prod.snd).sum prior := by
  induction batches generalizing prior with
  | nil => ext <;> simp [binomial_beta, getBinomialBetaPosteriorParams]
  | cons b l ih =>
    rw [List.foldl_cons, ih]
    ext <;> simp [binomial_beta, getBinomialBetaPosteriorParams] <;> ring

/-- C37 bernoulli: a list of single outcomes is one binomial call. -/
theorem C37_bernoulli_beta (xs : List ℝ) (prior : Beta ℝ) :
    xs.foldl (fun d x => bernoulli_beta x d) prior =
      binomial_beta (xs.length : ℝ) xs.sum prior := by
  induction xs generalizing prior with
  | nil => ext <;> simp [binomial_beta, getBinomialBetaPosteriorParams]
  | cons b l ih =>
    rw [List.foldl_cons, ih]
    ext <;> simp [bernoulli_beta, binomial_beta, getBinomialBetaPosteriorParams] <;> ring

/-- C37 negative binomial: batches `(n, x)`, the same known `r`. -/
theorem C37_negative_binomial_beta (r : ℝ) (batches : List (ℝ × ℝ)) (prior : Beta ℝ) :
    batches.foldl (fun d b => negative_binomial_beta r b.1 b.2 d) prior =
      negative_binomial_beta r (batches.map Prod.fst).sum (batches.map Prod.snd).sum prior := by
  induction batches generalizing prior with
  | nil => ext <;> simp [negative_binomial_beta]
  | cons b l ih =>
    rw [List.foldl_cons, ih]
    ext <;> simp [negative_binomial_beta] <;> ring

/-- C37 geometric: batches `(x_total, n)`, either convention. -/
theorem C37_geometric_beta (one_start : Bool) (batches : List (ℝ × ℝ)) (prior : Beta ℝ) :
    batches.foldl (fun d b => geometric_beta b.1 b.2 d one_start) prior =
      geometric_beta (batches.map Prod.fst).sum (batches.map Prod.snd).sum prior one_start := by
  induction batches generalizing prior with
  | nil => ext <;> simp [geometric_beta]
  | cons b l ih =>
    rw [List.foldl_cons, ih]
    ext <;> cases one_start <;> simp [geometric_beta] <;> ring

/-- C37 Poisson: batches `(x_total, n)`. -/
theorem C37_poisson_gamma (batches : List (ℝ × ℝ)) (prior : Gamma ℝ) :
    batches.foldl (fun d b => poisson_gamma b.1 b.2 d) prior =
      poisson_gamma (batches.map Prod.fst).sum (batches.map Prod.snd).sum prior := by
  induction batches generalizing prior with
  | nil => ext <;> simp [poisson_gamma, getPoissonGammaPosteriorParams]
  | cons b l ih =>
    rw [List.foldl_cons, ih]
    ext <;> simp [poisson_gamma, getPoissonGammaPosteriorParams] <;> ring

/-- C37 exponential: batches `(x_total, n)`. -/
theorem C37_exponential_gamma (batches : List (ℝ × ℝ)) (prior : Gamma ℝ) :
    batches.foldl (fun d b => exponential_gamma b.1 b.2 d) prior =
      exponential_gamma (batches.map Prod.fst).sum (batches.map Prod.snd).sum prior := by
  induction batches generalizing prior with
  | nil =>
    ext <;> simp [exponential_gamma, getExponentialGammaPosteriorParams,
      getPoissonGammaPosteriorParams]
  | cons b l ih =>
    rw [List.foldl_cons, ih]
    ext <;> simp [exponential_gamma, getExponentialGammaPosteriorParams,
      getPoissonGammaPosteriorParams] <;> ring

/-- C37 gamma with known shape: batches `(x_total, n)`. -/
theorem C37_gamma_known_shape (alpha : ℝ) (batches : List (ℝ × ℝ)) (prior : Gamma ℝ) :
    batches.foldl (fun d b => gamma_known_shape b.1 b.2 alpha d) prior =
      gamma_known_shape (batches.map Prod.fst).sum (batches.map Prod.snd).sum alpha prior := by
  induction batches generalizing prior with
  | nil => ext <;> simp [gamma_known_shape]
  | cons b l ih =>
    rw [List.foldl_cons, ih]
    ext <;> simp [gamma_known_shape] <;> ring

/-- C37 inverse gamma with known shape: batches `(reciprocal_x_total, n)`. -/
theorem C37_inverse_gamma_known_rate (alpha : ℝ) (batches : List (ℝ × ℝ)) (prior : Gamma ℝ) :
    batches.foldl (fun d b => inverse_gamma_known_rate b.1 b.2 alpha d) prior =
      inverse_gamma_known_rate (batches.map Prod.fst).sum (batches.map Prod.snd).sum alpha
        prior := by
  induction batches generalizing prior with
  | nil => ext <;> simp [inverse_gamma_known_rate]
  | cons b l ih =>
    rw [List.foldl_cons, ih]
    ext <;> simp [inverse_gamma_known_rate] <;> ring

/-- C37 Pareto: batches `(n, ln_x_total)`, the same `x_m`, any `ln` function. -/
theorem C37_pareto_gamma (x_m : ℝ) (ln : ℝ → ℝ) (batches : List (ℝ × ℝ)) (prior : Gamma ℝ) :
    batches.foldl (fun d b => pareto_gamma b.1 b.2 x_m d ln) prior =
      pareto_gamma (batches.map Prod.fst).sum (batches.map Prod.snd).sum x_m prior ln := by
  induction batches generalizing prior with
  | nil => ext <;> simp [pareto_gamma]
  | cons b l ih =>
    rw [List.foldl_cons, ih]
    ext <;> simp [pareto_gamma] <;> ring

/-- C37 Weibull: batches `(n, x_beta_total)`. -/
theorem C37_weibull (batches : List (ℝ × ℝ)) (prior : InverseGamma ℝ) :
    batches.foldl (fun d b => weibull_inverse_gamma_known_shape b.1 b.2 d) prior =
      weibull_inverse_gamma_known_shape (batches.map Prod.fst).sum (batches.map Prod.snd).sum
        prior := by
  induction batches generalizing prior with
  | nil => ext <;> simp [weibull_inverse_gamma_known_shape]
  | cons b l ih =>
    rw [List.foldl_cons, ih]
    ext <;> simp [weibull_inverse_gamma_known_shape] <;> ring

/-- C37 gamma (both parameters unknown): batches `(x_total, x_prod, n)`. -/
theorem C37_gamma (batches : List (ℝ × ℝ × ℝ)) (prior : GammaProportional ℝ) :
    batches.foldl (fun d b => gamma b.1 b.2.1 b.2.2 d) prior =
      gamma (batches.map (·.1)).sum (batches.map (·.2.1)).prod (batches.map (·.2.2)).sum
        prior := by
  induction batches generalizing prior with
  | nil => ext <;> simp [gamma]
  | cons b l ih =>
    rw [List.foldl_cons, ih]
    ext <;> simp [gamma] <;> ring

/-- C37 gamma with known rate: batches `(x_prod, n)`. -/
theorem C37_gamma_known_rate (beta : ℝ) (batches : List (ℝ × ℝ))
    (prior : GammaKnownRateProportional ℝ) :
    batches.foldl (fun d b => gamma_known_rate b.1 b.2 beta d) prior =
      gamma_known_rate (batches.map Prod.fst).prod (batches.map Prod.snd).sum beta prior := by
  induction batches generalizing prior with
  | nil => ext <;> simp [gamma_known_rate]
  | cons b l ih =>
    rw [List.foldl_cons, ih]
    ext <;> simp [gamma_known_rate] <;> ring

/-- C37 beta likelihood: batches `(x_prod, one_minus_x_prod, n)`. -/
theorem C37_beta (batches : List (ℝ × ℝ × ℝ)) (prior : BetaProportional ℝ) :
    batches.foldl (fun d b => beta b.1 b.2.1 b.2.2 d) prior =
      beta (batches.map (·.1)).prod (batches.map (·.2.1)).prod (batches.map (·.2.2)).sum
        prior := by
  induction batches generalizing prior with
  | nil => ext <;> simp [beta]
  | cons b l ih =>
    rw [List.foldl_cons, ih]
    ext <;> simp [beta] <;> ring

/-- C37 Von Mises with known direction: batches `(centered_cos_total, n)`. -/
theorem C37_von_mises_known_direction (batches : List (ℝ × ℝ))
    (prior : VonMisesKnownDirectionProportional ℝ) :
    batches.foldl (fun d b => von_mises_known_direction b.1 b.2 d) prior =
      von_mises_known_direction (batches.map Prod.fst).sum (batches.map Prod.snd).sum prior := by
  induction batches generalizing prior with
  | nil => ext <;> simp [von_mises_known_direction]
  | cons b l ih =>
    rw [List.foldl_cons, ih]
    ext <;> simp [von_mises_known_direction] <;> ring

/-- C37 Dirichlet (categorical and multinomial), any index set of categories: no call
fails and the counts add up. -/
theorem C37_categorical_dirichlet {I : Type*} (batches : List (I → ℝ)) (prior : Dirichlet (I → ℝ)) :
    batches.foldlM (fun d x => categorical_dirichlet x d) prior =
      categorical_dirichlet batches.sum prior := by
  induction batches generalizing prior with
  | nil =>
    simp only [categorical_dirichlet, getDirichletPosteriorParams, PySeq.tryAdd]
    change Except.ok prior = Except.ok _
    congr 1
    ext i
    simp
  | cons b l ih =>
    have : categorical_dirichlet b prior = Except.ok ⟨fun i => prior.alpha i + b i⟩ := rfl
    rw [List.foldlM_cons, this]
    change List.foldlM _ (⟨fun i => prior.alpha i + b i⟩ : Dirichlet (I → ℝ)) l = _
    rw [ih]
    change Except.ok (⟨_⟩ : Dirichlet (I → ℝ)) = Except.ok _
    congr 1
    ext i
    simp only [List.sum_cons, Pi.add_apply]
    ring

/-- C37: `multinomial_dirichlet` is the same function of its arguments. -/
theorem C37_multinomial_dirichlet {I : Type*} (batches : List (I → ℝ)) (prior : Dirichlet (I → ℝ)) :
    batches.foldlM (fun d x => multinomial_dirichlet x d) prior =
      multinomial_dirichlet batches.sum prior :=
  C37_categorical_dirichlet batches prior

/-- C37 uniform: batches `(x_max, n)`, nonempty; `m` is the maximum over the batches. -/
theorem C37_uniform_pareto (batches : List (ℝ × ℝ)) (prior : Pareto ℝ) (m : ℝ)
    (hm : ∀ b ∈ batches, b.1 ≤ m) (hm' : ∃ b ∈ batches, b.1 = m) :
    batches.foldl (fun d b => uniform_pareto b.1 b.2 d max) prior =
      uniform_pareto m (batches.map Prod.snd).sum prior max := by
  have gen : ∀ (l : List (ℝ × ℝ)) (d : Pareto ℝ),
      l.foldl (fun d b => uniform_pareto b.1 b.2 d max) d =
        ⟨(l.map Prod.fst).foldl max d.x_m, d.alpha + (l.map Prod.snd).sum⟩ := by
    intro l
    induction l with
    | nil => intro d; ext <;> simp
    | cons b l ih =>
      intro d
      rw [List.foldl_cons, ih]
      ext <;> simp [uniform_pareto]; ring
  rw [gen]
  ext
  · simp only [uniform_pareto]
    obtain ⟨b, hb, rfl⟩ := hm'
    apply le_antisymm
    · have : ∀ (l : List ℝ) (a t : ℝ), a ≤ t → (∀ x ∈ l, x ≤ t) → l.foldl max a ≤ t := by
        intro l
        induction l with
        | nil => intro a t h _; simpa using h
        | cons x l ih =>
          intro a t h hl
          exact ih _ _ (max_le h (hl x (by simp))) (fun y hy => hl y (by simp [hy]))
      apply this
      · exact le_max_left _ _
      · intro x hx
        obtain ⟨c, hc, rfl⟩ := List.mem_map.1 hx
        exact (hm c hc).trans (le_max_right _ _)
    · have h1 : ∀ (l : List ℝ) (a : ℝ), a ≤ l.foldl max a := by
        intro l
        induction l with
        | nil => intro a; simp
        | cons x l ih => intro a; exact (le_max_left a x).trans (ih _)
      have h2 : ∀ (l : List ℝ) (a x : ℝ), x ∈ l → x ≤ l.foldl max a := by
        intro l
        induction l with
        | nil => intro a x h; simp at h
        | cons y l ih =>
          intro a x h
          rcases List.mem_cons.1 h with rfl | h
          · exact (le_max_right a x).trans (h1 _ _)
          · exact ih _ _ h
      exact max_le (h1 _ _) (h2 _ _ _ (List.mem_map.2 ⟨b, hb, rfl⟩))
  · simp [uniform_pareto]

/-! ### Normal models: divisions, hence guards -/

/-- C37 normal with known variance: batches `(x_total, n)`, `n ≥ 0`. -/
theorem C37_normal_known_variance (var : ℝ) (hvar : 0 < var) (batches : List (ℝ × ℝ))
    (hn : ∀ b ∈ batches, 0 ≤ b.2) (prior : Normal ℝ) (hs : 0 < prior.sigma) :
    batches.foldl (fun d b => normal_known_variance b.1 b.2 var d) prior =
      normal_known_variance (batches.map Prod.fst).sum (batches.map Prod.snd).sum var prior := by
  induction batches generalizing prior with
  | nil =>
    ext
    · simp [normal_known_variance]; field_simp
    · simp [normal_known_variance, Real.sqrt_sq hs.le]
  | cons b l ih =>
    have hb : 0 ≤ b.2 := hn b (by simp)
    have hsum : 0 ≤ (l.map Prod.snd).sum :=
      List.sum_nonneg (by
        intro x hx
        obtain ⟨c, hc, rfl⟩ := List.mem_map.1 hx
        exact hn c (by simp [hc]))
    have hpos : 0 < (1 : ℝ) / prior.sigma ^ 2 + b.2 / var := by positivity
    rw [List.foldl_cons, ih (fun c hc => hn c (by simp [hc])) _ (by
      simp only [normal_known_variance, powq_two, powq_half, lit_real, Rat.cast_one]
      exact Real.sqrt_pos.2 (by positivity))]
    have hsq : (√(1 / (1 / prior.sigma ^ 2 + b.2 / var))) ^ 2 =
        1 / (1 / prior.sigma ^ 2 + b.2 / var) := Real.sq_sqrt (by positivity)
    have hpos2 : 0 < (1 : ℝ) / prior.sigma ^ 2 + (b.2 + (l.map Prod.snd).sum) / var := by positivity
    have e : (1 : ℝ) / (1 / (1 / prior.sigma ^ 2 + b.2 / var)) + (l.map Prod.snd).sum / var =
        1 / prior.sigma ^ 2 + (b.2 + (l.map Prod.snd).sum) / var := by
      rw [one_div_one_div]; ring
    ext
    · simp only [normal_known_variance, powq_two, powq_half, lit_real, Rat.cast_one, hsq, e,
        List.map_cons, List.sum_cons]
      congr 1
      rw [div_div_eq_mul_div, div_one, div_mul_cancel₀ _ hpos.ne']
      ring
    · simp only [normal_known_variance, powq_two, powq_half, lit_real, Rat.cast_one, hsq, e,
        List.map_cons, List.sum_cons]

/-- C37 normal with known precision. -/
theorem C37_normal_known_precision (precision : ℝ) (hp : 0 < precision) (batches : List (ℝ × ℝ))
    (hn : ∀ b ∈ batches, 0 ≤ b.2) (prior : Normal ℝ) (hs : 0 < prior.sigma) :
    batches.foldl (fun d b => normal_known_precision b.1 b.2 precision d) prior =
      normal_known_precision (batches.map Prod.fst).sum (batches.map Prod.snd).sum precision
        prior := by
  have h := C37_normal_known_variance (1 / precision) (by positivity) batches hn prior hs
  simpa [normal_known_precision] using h

/-- C37 normal with known mean, InverseGamma prior: batches `(x_total, x2_total, n)`. -/
theorem C37_normal_known_mean_inverse_gamma (mu : ℝ) (batches : List (ℝ × ℝ × ℝ))
    (prior : InverseGamma ℝ) :
    batches.foldl (fun d b => normal_known_mean b.1 b.2.1 b.2.2 mu d) (.inverseGamma prior) =
      normal_known_mean (batches.map (·.1)).sum (batches.map (·.2.1)).sum
        (batches.map (·.2.2)).sum mu (.inverseGamma prior) := by
  induction batches generalizing prior with
  | nil =>
    simp only [List.foldl_nil, normal_known_mean, VariancePrior.inverseGamma.injEq]
    ext <;> simp [normalKnownMeanInverseGammaPrior]
  | cons b l ih =>
    have : normal_known_mean b.1 b.2.1 b.2.2 mu (.inverseGamma prior) =
      .inverseGamma (normalKnownMeanInverseGammaPrior b.1 b.2.1 b.2.2 mu prior) := rfl
    rw [List.foldl_cons, this, ih]
    simp only [normal_known_mean, VariancePrior.inverseGamma.injEq]
    ext <;> simp [normalKnownMeanInverseGammaPrior] <;> ring

/-- C37 normal with known mean, ScaledInverseChiSquared prior: `nu > 0` and `n ≥ 0`
keep the conversions to and from InverseGamma invertible. -/
theorem C37_normal_known_mean_scaled_inverse_chi_squared (mu : ℝ) (batches : List (ℝ × ℝ × ℝ))
    (hn : ∀ b ∈ batches, 0 ≤ b.2.2) (prior : ScaledInverseChiSquared ℝ) (hnu : 0 < prior.nu) :
    batches.foldl (fun d b => normal_known_mean b.1 b.2.1 b.2.2 mu d)
        (.scaledInverseChiSquared prior) =
      normal_known_mean (batches.map (·.1)).sum (batches.map (·.2.1)).sum
        (batches.map (·.2.2)).sum mu (.scaledInverseChiSquared prior) := by
  induction batches generalizing prior with
  | nil =>
    simp only [List.foldl_nil, normal_known_mean, VariancePrior.scaledInverseChiSquared.injEq]
    ext <;> simp [normalKnownMeanInverseGammaPrior, ScaledInverseChiSquared.from_inverse_gamma,
      ScaledInverseChiSquared.to_inverse_gamma]
    field_simp
  | cons b l ih =>
    have hb : 0 ≤ b.2.2 := hn b (by simp)
    have : normal_known_mean b.1 b.2.1 b.2.2 mu (.scaledInverseChiSquared prior) =
      .scaledInverseChiSquared (ScaledInverseChiSquared.from_inverse_gamma
        (normalKnownMeanInverseGammaPrior b.1 b.2.1 b.2.2 mu prior.to_inverse_gamma)) := rfl
    rw [List.foldl_cons, this, ih (fun c hc => hn c (by simp [hc])) _ (by
      simp [normalKnownMeanInverseGammaPrior, ScaledInverseChiSquared.from_inverse_gamma,
        ScaledInverseChiSquared.to_inverse_gamma]
      positivity)]
    have hne : prior.nu / 2 + b.2.2 / 2 ≠ 0 := by positivity
    have hsum : 0 ≤ (l.map (·.2.2)).sum :=
      List.sum_nonneg (by
        intro x hx
        obtain ⟨c, hc, rfl⟩ := List.mem_map.1 hx
        exact hn c (by simp [hc]))
    simp only [normal_known_mean, VariancePrior.scaledInverseChiSquared.injEq]
    ext
    · simp [normalKnownMeanInverseGammaPrior, ScaledInverseChiSquared.from_inverse_gamma,
        ScaledInverseChiSquared.to_inverse_gamma]
      ring
    · simp [normalKnownMeanInverseGammaPrior, ScaledInverseChiSquared.from_inverse_gamma,
        ScaledInverseChiSquared.to_inverse_gamma]
      have h2 : prior.nu / 2 + (b.2.2 + (l.map (·.2.2)).sum) / 2 ≠ 0 := by positivity
      have h3 : (prior.nu / 2 + b.2.2 / 2) * 2 / 2 + (l.map (·.2.2)).sum / 2 ≠ 0 := by positivity
      field_simp
      ring

/-- the `NormalPrior` with `nu` and four numbers, NormalInverseGamma form -/
def nigPrior (M : Type*) (mu nu alpha beta : ℝ) : NormalPrior ℝ M :=
  .nig { mu := mu, alpha := alpha, beta := beta, delta_inverse := none, nu := some nu }

/-- the `NormalPrior` with four numbers, NormalGamma form -/
def ngPrior (M : Type*) (mu lam alpha beta : ℝ) : NormalPrior ℝ M :=
  .ng { mu := mu, lam := lam, alpha := alpha, beta := beta }

theorem normalUpdate_two (mu nu alpha beta s1 q1 n1 s2 q2 n2 : ℝ) (hnu : 0 < nu) (h1 : 0 < n1)
    (h2 : 0 < n2) :
    let r := normalUpdate s1 q1 n1 mu nu alpha beta
    normalUpdate s2 q2 n2 r.1 r.2.1 r.2.2.1 r.2.2.2 =
      normalUpdate (s1 + s2) (q1 + q2) (n1 + n2) mu nu alpha beta := by
  have a1 : nu + n1 ≠ 0 := by positivity
  have a2 : nu + n1 + n2 ≠ 0 := by positivity
  have a3 : nu + (n1 + n2) ≠ 0 := by positivity
  have a4 : n1 + n2 ≠ 0 := by positivity
  simp only [normalUpdate, powq_two, lit_real]
  refine Prod.ext ?_ (Prod.ext ?_ (Prod.ext ?_ ?_))
  · simp only; field_simp; ring
  · simp only; ring
  · simp only; ring
  · simp only
    field_simp
    ring

/-- C37 normal, NormalInverseGamma prior with `nu`: any nonempty list of nonempty batches
`(x_total, x2_total, n)`; every call succeeds. -/
theorem C37_normal_nig {M : Type*} (batches : List (ℝ × ℝ × ℝ)) (hne : batches ≠ [])
    (hn : ∀ b ∈ batches, 0 < b.2.2) (mu nu alpha beta : ℝ) (hnu : 0 < nu) :
    batches.foldlM (fun d b => normal b.1 b.2.1 b.2.2 d) (nigPrior M mu nu alpha beta) =
      normal (batches.map (·.1)).sum (batches.map (·.2.1)).sum (batches.map (·.2.2)).sum
        (nigPrior M mu nu alpha beta) := by
  have step : ∀ (s q n mu nu alpha beta : ℝ), normal s q n (nigPrior M mu nu alpha beta) =
      .ok (nigPrior M (normalUpdate s q n mu nu alpha beta).1
        (normalUpdate s q n mu nu alpha beta).2.1 (normalUpdate s q n mu nu alpha beta).2.2.1
        (normalUpdate s q n mu nu alpha beta).2.2.2) := fun _ _ _ _ _ _ _ => rfl
  induction batches generalizing mu nu alpha beta with
  | nil => exact absurd rfl hne
  | cons b l ih =>
    rw [List.foldlM_cons, step]
    change List.foldlM _ (nigPrior M _ _ _ _) l = _
    have hb := hn b (by simp)
    rcases l with _ | ⟨c, l⟩
    · simp [step]; rfl
    · rw [ih (by simp) (fun d hd => hn d (by simp [hd])) _ _ _ _ (by
        simp only [normalUpdate]; positivity), step, step]
      have hsum : 0 < ((c :: l).map (·.2.2)).sum := by
        have hc := hn c (by simp)
        have : 0 ≤ (l.map (·.2.2)).sum := List.sum_nonneg (by
          intro x hx
          obtain ⟨d, hd, rfl⟩ := List.mem_map.1 hx
          exact (hn d (by simp [hd])).le)
        simp only [List.map_cons, List.sum_cons]
        positivity
      have := normalUpdate_two mu nu alpha beta b.1 b.2.1 b.2.2 ((c :: l).map (·.1)).sum
        ((c :: l).map (·.2.1)).sum _ hnu hb hsum
      simp only at this
      rw [this]
      simp only [List.map_cons, List.sum_cons]

/-- C37 normal, NormalGamma prior. -/
theorem C37_normal_ng {M : Type*} (batches : List (ℝ × ℝ × ℝ)) (hne : batches ≠ [])
    (hn : ∀ b ∈ batches, 0 < b.2.2) (mu lam alpha beta : ℝ) (hnu : 0 < lam) :
    batches.foldlM (fun d b => normal b.1 b.2.1 b.2.2 d) (ngPrior M mu lam alpha beta) =
      normal (batches.map (·.1)).sum (batches.map (·.2.1)).sum (batches.map (·.2.2)).sum
        (ngPrior M mu lam alpha beta) := by
  have step : ∀ (s q n mu nu alpha beta : ℝ), normal s q n (ngPrior M mu nu alpha beta) =
      .ok (ngPrior M (normalUpdate s q n mu nu alpha beta).1
        (normalUpdate s q n mu nu alpha beta).2.1 (normalUpdate s q n mu nu alpha beta).2.2.1
        (normalUpdate s q n mu nu alpha beta).2.2.2) := fun _ _ _ _ _ _ _ => rfl
  induction batches generalizing mu lam alpha beta with
  | nil => exact absurd rfl hne
  | cons b l ih =>
    rw [List.foldlM_cons, step]
    change List.foldlM _ (ngPrior M _ _ _ _) l = _
    have hb := hn b (by simp)
    rcases l with _ | ⟨c, l⟩
    · simp [step]; rfl
    · rw [ih (by simp) (fun d hd => hn d (by simp [hd])) _ _ _ _ (by
        simp only [normalUpdate]; positivity), step, step]
      have hsum : 0 < ((c :: l).map (·.2.2)).sum := by
        have hc := hn c (by simp)
        have : 0 ≤ (l.map (·.2.2)).sum := List.sum_nonneg (by
          intro x hx
          obtain ⟨d, hd, rfl⟩ := List.mem_map.1 hx
          exact (hn d (by simp [hd])).le)
        simp only [List.map_cons, List.sum_cons]
        positivity
      have := normalUpdate_two mu lam alpha beta b.1 b.2.1 b.2.2 ((c :: l).map (·.1)).sum
        ((c :: l).map (·.2.1)).sum _ hnu hb hsum
      simp only at this
      rw [this]
      simp only [List.map_cons, List.sum_cons]

/-- C37 log-normal: the same with sums of logs. -/
theorem C37_log_normal {M : Type*} (batches : List (ℝ × ℝ × ℝ)) (hne : batches ≠ [])
    (hn : ∀ b ∈ batches, 0 < b.2.2) (mu nu alpha beta : ℝ) (hnu : 0 < nu) :
    batches.foldlM (fun d b => log_normal b.1 b.2.1 b.2.2 d) (nigPrior M mu nu alpha beta) =
      log_normal (batches.map (·.1)).sum (batches.map (·.2.1)).sum (batches.map (·.2.2)).sum
        (nigPrior M mu nu alpha beta) :=
  C37_normal_nig batches hne hn mu nu alpha beta hnu

/-- C37 log-normal, NormalGamma prior. -/
theorem C37_log_normal_ng {M : Type*} (batches : List (ℝ × ℝ × ℝ)) (hne : batches ≠ [])
    (hn : ∀ b ∈ batches, 0 < b.2.2) (mu lam alpha beta : ℝ) (hlam : 0 < lam) :
    batches.foldlM (fun d b => log_normal b.1 b.2.1 b.2.2 d) (ngPrior M mu lam alpha beta) =
      log_normal (batches.map (·.1)).sum (batches.map (·.2.1)).sum (batches.map (·.2.2)).sum
        (ngPrior M mu lam alpha beta) :=
  C37_normal_ng batches hne hn mu lam alpha beta hlam

/-- the hypotheses of the guarded C37 theorems are met by ordinary data: two batches
`(total, total of squares, n)` of sizes 2 and 1 -/
example : ([((3 : ℝ), (5 : ℝ), (2 : ℝ)), (4, 16, 1)] : List (ℝ × ℝ × ℝ)) ≠ [] ∧
    (∀ b ∈ ([((3 : ℝ), (5 : ℝ), (2 : ℝ)), (4, 16, 1)] : List (ℝ × ℝ × ℝ)), 0 < b.2.2) := by
  simp

/-- ... and the update is not trivial: two batches of coin flips -/
example : ([((10 : ℝ), (4 : ℝ)), (5, 1)]).foldl (fun d b => binomial_beta b.1 b.2 d)
    (⟨1, 1⟩ : Beta ℝ) = ⟨6, 11⟩ := by
  rw [C37_binomial_beta]
  ext <;> norm_num [binomial_beta, getBinomialBetaPosteriorParams]

/-! ### Where it fails -/

/-- C37 is false of `hypergeometric_beta_binomial`: two batches with one success each do
not give the posterior of the pooled batch, whatever population and prior. -/
theorem C37_hypergeometric_fails (prior : BetaBinomial ℝ) (hN : prior.n ≠ 0) (x₁ n₁ x₂ n₂ : ℝ) :
    hypergeometric_beta_binomial x₂ n₂ (hypergeometric_beta_binomial x₁ n₁ prior) ≠
      hypergeometric_beta_binomial (x₁ + x₂) (n₁ + n₂) prior := by
  intro h
  have := congrArg BetaBinomial.beta h
  simp only [hypergeometric_beta_binomial] at this
  apply hN
  linarith

/-- C37 is false of `von_mises_known_concentration`: prior `a = 1, b = 0`, known
`kappa = 2`, an observation at angle `0` followed by one at angle `pi / 2`.  One call per
observation ends with a direction different from that of the pooled call. -/
theorem C37_von_mises_known_concentration_fails :
    let upd := fun (c s n : ℝ) (d : VonMisesKnownConcentration ℝ) =>
      von_mises_known_concentration c s n 2 d Real.sin Real.cos Scipy.arctan2
    upd (Real.cos (Real.pi / 2)) (Real.sin (Real.pi / 2)) 1
        (upd (Real.cos 0) (Real.sin 0) 1 ⟨1, 0⟩) ≠
      upd (Real.cos 0 + Real.cos (Real.pi / 2)) (Real.sin 0 + Real.sin (Real.pi / 2)) 2 ⟨1, 0⟩ := by
  intro upd h
  have hb := congrArg VonMisesKnownConcentration.b h
  simp [upd, von_mises_known_concentration, Scipy.arctan2] at hb
  have h1 : Complex.arg ⟨0, 1⟩ = Real.pi / 2 := by
    rw [Complex.arg_eq_pi_div_two_iff]; simp
  rw [h1] at hb
  have := (Complex.arg_eq_pi_div_two_iff.1 hb.symm).1
  norm_num at this

end Conj
