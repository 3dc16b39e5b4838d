import Verif.Props.DecisionPredictMean
import Verif.Props.DecisionPredictVector

/-!
# C125: the mean of the predictive distribution as best guess, further models

Where the predictive distribution has heavy tails the parameters must be large enough for a variance to exist; the
hypothesis is on the prior, as updates only make these parameters larger.
-/

open MeasureTheory Set Real

namespace Conj

open Scipy Spec

variable {Ω : Type} [MeasurableSpace Ω] {P : Measure Ω} {n : ℕ}

/-- for data with countably many outcomes every function of them is measurable -/
theorem Spec.LossesKept.guess_countable {A : Type} [MeasurableSpace A] [Countable A] [MeasurableSingletonClass A]
    {Y : Ω → ℝ} {X : Ω → Fin n → A} {post : (Fin n → A) → Measure ℝ} (h : LossesKept P Y X post)
    (hmv : ∀ᵐ ω ∂P, ∃ m v, MeanVar (post (X ω)) m v) :
    ∃ guess error : (Fin n → A) → ℝ,
      (∀ᵐ ω ∂P, MeanVar (post (X ω)) (guess (X ω)) (error (X ω))) ∧ BestGuess P Y X guess error := by
  classical
  have key : ∀ x : Fin n → A, ∃ g e : ℝ, (∃ m v, MeanVar (post x) m v) → MeanVar (post x) g e := fun x => by
    by_cases hx : ∃ m v, MeanVar (post x) m v
    · obtain ⟨m, v, h⟩ := hx
      exact ⟨m, v, fun _ => h⟩
    · exact ⟨0, 0, fun h => absurd h hx⟩
  choose g e hge using key
  have h' : ∀ᵐ ω ∂P, MeanVar (post (X ω)) (g (X ω)) (e (X ω)) := by filter_upwards [hmv] with ω hω using hge _ hω
  exact ⟨g, e, h', h.bestGuess (measurable_of_countable g) h'⟩

/-- for other data: the guess is a measurable function of the data wherever the data can fall -/
theorem Spec.LossesKept.guess_of {A : Type} [MeasurableSpace A]
    {Y : Ω → ℝ} {X : Ω → Fin n → A} {post : (Fin n → A) → Measure ℝ} (h : LossesKept P Y X post)
    {guess : (Fin n → A) → ℝ} (hg : Measurable guess) (hmv : ∀ᵐ ω ∂P, ∃ v, MeanVar (post (X ω)) (guess (X ω)) v) :
    ∃ error : (Fin n → A) → ℝ,
      (∀ᵐ ω ∂P, MeanVar (post (X ω)) (guess (X ω)) (error (X ω))) ∧ BestGuess P Y X guess error := by
  classical
  have key : ∀ x : Fin n → A, ∃ e : ℝ, (∃ v, MeanVar (post x) (guess x) v) → MeanVar (post x) (guess x) e := fun x => by
    by_cases hx : ∃ v, MeanVar (post x) (guess x) v
    · obtain ⟨v, h⟩ := hx
      exact ⟨v, fun _ => h⟩
    · exact ⟨0, fun h => absurd h hx⟩
  choose e he using key
  have h' : ∀ᵐ ω ∂P, MeanVar (post (X ω)) (guess (X ω)) (e (X ω)) := by filter_upwards [hmv] with ω hω using he _ hω
  exact ⟨e, h', h.bestGuess hg h'⟩

/-- C125. After yes/no outcomes one at a time: the predictive probability of yes is the best guess of a new outcome. -/
theorem C125_bernoulli_beta_guess (prior : Beta ℝ) (ha : 0 < prior.alpha) (hb : 0 < prior.beta) {θ : Ω → ℝ}
    {X : Ω → Fin n → Bool} {Y : Ω → ℤ}
    (h : DrawThenPredict P θ X Y (contLaw prior.dist) (fun _ p => pmfLaw fun b : Bool => if b then p else 1 - p)
      fun p => discLaw (Binomial.dist ⟨1, p⟩)) :
    ∃ guess error : (Fin n → Bool) → ℝ,
      (∀ᵐ ω ∂P, MeanVar (discRealLaw (bernoulli_beta_predictive ((List.ofFn (X ω)).foldl
        (fun d b => bernoulli_beta (if b then 1 else 0 : ℝ) d) prior)).dist) (guess (X ω)) (error (X ω))) ∧
      BestGuess P (fun ω => (Y ω : ℝ)) X guess error := by
  obtain ⟨hl, -, -⟩ := C125_bernoulli_beta prior ha hb h
  have key : ∀ (l : List Bool) (d : Beta ℝ), 0 < d.alpha → 0 < d.beta →
      0 < (l.foldl (fun d b => bernoulli_beta (if b then 1 else 0 : ℝ) d) d).alpha ∧
      0 < (l.foldl (fun d b => bernoulli_beta (if b then 1 else 0 : ℝ) d) d).beta := by
    intro l
    induction l with
    | nil => exact fun d h1 h2 => ⟨h1, h2⟩
    | cons b l ih =>
      intro d h1 h2
      refine ih _ ?_ ?_ <;> cases b <;>
        simp [bernoulli_beta, binomial_beta, getBinomialBetaPosteriorParams] <;> linarith
  refine hl.guess_countable (Filter.Eventually.of_forall fun ω => ?_)
  obtain ⟨m, v, -, h2⟩ := C111_bernoulli_beta _ (key (List.ofFn (X ω)) prior ha hb).1 (key _ prior ha hb).2
  exact ⟨_, _, h2⟩

/-- C125. After counts of failures: the mean of the predictive distribution, which exists with a variance for `alpha > 2`, is the
best guess of a new count. -/
theorem C125_negative_binomial_beta_guess (prior : Beta ℝ) (ha : 2 < prior.alpha) (hb : 0 < prior.beta) (r : ℝ) (hr : 0 < r)
    {θ : Ω → ℝ} {X : Ω → Fin n → ℤ} {Y : Ω → ℤ}
    (h : DrawThenPredict P θ X Y (contLaw prior.dist) (fun _ p => discLaw (NegativeBinomial.dist ⟨r, p⟩))
      fun p => discLaw (NegativeBinomial.dist ⟨r, p⟩)) :
    ∃ guess error : (Fin n → ℤ) → ℝ,
      (∀ᵐ ω ∂P, MeanVar (discRealLaw (negative_binomial_beta_predictive r
        (negative_binomial_beta r (n : ℝ) (∑ i, (X ω i : ℝ)) prior)).dist) (guess (X ω)) (error (X ω))) ∧
      BestGuess P (fun ω => (Y ω : ℝ)) X guess error := by
  obtain ⟨hl, -, -⟩ := C125_negative_binomial_beta prior (by linarith) hb r hr h
  refine hl.guess_countable ?_
  filter_upwards [(bayes_negative_binomial (n := n) prior (by linarith) hb r hr).ae_data h.past] with ω hω
  have h0 : 0 ≤ ∑ i, (X ω i : ℝ) := Finset.sum_nonneg fun i _ => by exact_mod_cast hω i
  obtain ⟨m, v, e, -, -, -, -, h2⟩ := C111_negative_binomial_beta r hr
    (negative_binomial_beta r (n : ℝ) (∑ i, (X ω i : ℝ)) prior)
    (by simp only [negative_binomial_beta]; have : 0 ≤ r * n := by positivity
        linarith)
    (by simp only [negative_binomial_beta]; linarith)
  exact ⟨_, _, h2⟩

/-- C125. After normal observations with known precision: the posterior mean is the best guess of a new observation. -/
theorem C125_normal_known_precision_guess (prior : Normal ℝ) (hs : 0 < prior.sigma) (precision : ℝ) (hv : 0 < precision)
    {θ : Ω → ℝ} {X : Ω → Fin n → ℝ} {Y : Ω → ℝ}
    (h : DrawThenPredict P θ X Y (contLaw prior.dist) (fun _ m => contLaw (Normal.dist ⟨m, √(1 / precision)⟩))
      fun m => contLaw (Normal.dist ⟨m, √(1 / precision)⟩)) :
    ∃ guess error : (Fin n → ℝ) → ℝ,
      (∀ᵐ ω ∂P, MeanVar (contLaw (normal_known_precision_predictive precision
        (normal_known_precision (∑ i, X ω i) (n : ℝ) precision prior)).dist) (guess (X ω)) (error (X ω))) ∧
      BestGuess P Y X guess error := by
  have h := C125_normal_known_variance_guess prior hs (1 / precision) (by positivity) h
  simpa only [normal_known_precision, normal_known_precision_predictive, lit_real, Rat.cast_one] using h

/-- C125. After normal observations with known mean: the known mean is the best guess of a new observation, and the predictive
variance, which exists when the prior's variance has a mean, announces the error; both classes of prior. -/
theorem C125_normal_known_mean_guess (prior : VariancePrior ℝ) (hp : prior.Valid) (mu : ℝ)
    (hm : match prior with | .inverseGamma d => 1 < d.alpha | .scaledInverseChiSquared d => 2 < d.nu)
    {θ : Ω → ℝ} {X : Ω → Fin n → ℝ} {Y : Ω → ℝ}
    (h : DrawThenPredict P θ X Y (contLaw prior.frozen) (fun _ v => contLaw (Normal.dist ⟨mu, √v⟩))
      fun v => contLaw (Normal.dist ⟨mu, √v⟩)) :
    ∃ error : (Fin n → ℝ) → ℝ,
      (∀ᵐ ω ∂P, MeanVar (contLaw (normal_known_mean_predictive mu
        (normal_known_mean (∑ i, X ω i) (∑ i, X ω i ^ 2) (n : ℝ) mu prior)).dist) mu (error (X ω))) ∧
      BestGuess P Y X (fun _ => mu) error := by
  obtain ⟨hl, -, -⟩ := C125_normal_known_mean prior hp mu h
  refine hl.guess_of measurable_const (Filter.Eventually.of_forall fun ω => ?_)
  have hv : (normal_known_mean (∑ i, X ω i) (∑ i, X ω i ^ 2) (n : ℝ) mu prior).Valid := by
    have h := normal_known_mean_valid prior hp mu (List.ofFn (X ω))
    rw [List.map_ofFn, List.sum_ofFn, List.sum_ofFn, List.length_ofFn] at h
    exact h
  cases prior with
  | inverseGamma d =>
    have h1 := C111_normal_known_mean mu _ ?_ hv.2
    · obtain ⟨m, -, -, h1⟩ := h1
      exact ⟨m, h1⟩
    · have hm : 1 < d.alpha := hm
      have : (0 : ℝ) ≤ n := by positivity
      simp only [normalKnownMeanInverseGammaPrior, lit_real]
      push_cast
      linarith
  | scaledInverseChiSquared d =>
    have h1 := C111_normal_known_mean_scaled_inverse_chi_squared mu _ ?_ hv.2
    · obtain ⟨m, -, -, h1⟩ := h1
      exact ⟨m, h1⟩
    · have hm : 2 < d.nu := hm
      have : (0 : ℝ) ≤ n := by positivity
      simp only [normalKnownMeanInverseGammaPrior, ScaledInverseChiSquared.from_inverse_gamma,
        ScaledInverseChiSquared.to_inverse_gamma, lit_real]
      push_cast
      linarith

/-- C125. After waiting times with known shape: the mean of the predictive distribution is the best guess of a new waiting time. -/
theorem C125_gamma_known_shape_guess (prior : Gamma ℝ) (ha : 2 < prior.alpha) (hb : 0 < prior.beta) (shape : ℝ) (hk : 0 < shape)
    {θ : Ω → ℝ} {X : Ω → Fin n → ℝ} {Y : Ω → ℝ}
    (h : DrawThenPredict P θ X Y (contLaw prior.dist) (fun _ r => contLaw (Gamma.dist ⟨shape, r⟩))
      fun r => contLaw (Gamma.dist ⟨shape, r⟩)) :
    ∃ guess error : (Fin n → ℝ) → ℝ,
      (∀ᵐ ω ∂P, MeanVar (lawOn (Ioi 0) (gamma_known_shape_predictive
        (gamma_known_shape (∑ i, X ω i) (n : ℝ) shape prior) shape).pdf) (guess (X ω)) (error (X ω))) ∧
      BestGuess P Y X guess error := by
  obtain ⟨hl, -, -⟩ := C125_gamma_known_shape prior (by linarith) hb shape hk h
  refine ⟨fun x => shape * ((prior.beta + ∑ i, x i) / (prior.alpha + n * shape - 1)), hl.guess_of (guess := fun x => shape * ((prior.beta + ∑ i, x i) /
    (prior.alpha + n * shape - 1))) ?_ ?_⟩
  · have hsum : Measurable fun x : Fin n → ℝ => ∑ i, x i := Finset.measurable_sum _ fun i _ => measurable_pi_apply i
    fun_prop
  filter_upwards [(bayes_gamma_known_shape (n := n) prior (by linarith) hb shape hk).ae_data h.past] with ω hω
  have h0 : 0 ≤ ∑ i, X ω i := Finset.sum_nonneg fun i _ => le_of_lt (hω i)
  obtain ⟨d, hd⟩ : ∃ d, d = gamma_known_shape (∑ i, X ω i) (n : ℝ) shape prior := ⟨_, rfl⟩
  have ea : d.alpha = prior.alpha + n * shape := by rw [hd]; simp only [gamma_known_shape]
  have eb : d.beta = prior.beta + ∑ i, X ω i := by rw [hd]; simp only [gamma_known_shape]
  have hns : 0 ≤ n * shape := by positivity
  have ha' : 2 < d.alpha := by linarith
  have hb' : 0 < d.beta := by linarith
  obtain ⟨m, v, e, h1, -, -, h2⟩ := C111_gamma_known_shape shape hk d ha' hb'
  rw [← hd, ← ea, ← eb]
  refine ⟨v + e, ?_⟩
  have hi := mean_of_tilt measurableSet_Ioi (Gamma.isDensity d (by linarith) hb')
    (Gamma.isDensity ⟨d.alpha - 1, d.beta⟩ (by simp only; linarith) hb') (T := fun x => 1 / x)
    fun x hx => Gamma.tilt_inv d (by linarith) hb' hx
  have e1 : m = shape * (d.beta / (d.alpha - 1)) := by
    rw [← h1.mean, integral_map (by fun_prop) (by fun_prop), gamma_lawOn _ hb', ← hi.2, ← integral_const_mul]
    refine integral_congr_ae (Filter.Eventually.of_forall fun x => ?_)
    simp only
    ring
  rwa [e1] at h2

/-- C125. Mean and variance unknown, `NormalInverseGamma`: the location of the predictive distribution is the best guess of a new
observation. -/
theorem C125_normal_nig_guess {M : Type} (prior : NormalInverseGamma ℝ ℝ M) (nu : ℝ) (hn : prior.nu = some nu) (hnu : 0 < nu)
    (ha : 0 < prior.alpha) (hb : 0 < prior.beta) (hv : 1 < prior.alpha + ((n + 1 : ℕ) : ℝ) / 2)
    {θ : Ω → ℝ × ℝ} {X : Ω → Fin (n + 1) → ℝ} {Y : Ω → ℝ}
    (h : DrawThenPredict P θ X Y (nigLaw prior) (fun _ t => contLaw (Normal.dist ⟨t.1, √t.2⟩))
      fun t => contLaw (Normal.dist ⟨t.1, √t.2⟩)) :
    ∃ (pred : (Fin (n + 1) → ℝ) → StudentT ℝ) (error : (Fin (n + 1) → ℝ) → ℝ),
      (∀ x, (normal (∑ i, x i) (∑ i, x i ^ 2) ((n + 1 : ℕ) : ℝ) (.nig prior)).bind normal_predictive = .ok (pred x)) ∧
      (∀ᵐ ω ∂P, MeanVar (contLaw (pred (X ω)).dist) (pred (X ω)).mu (error (X ω))) ∧
      BestGuess P Y X (fun x => (pred x).mu) error := by
  obtain ⟨pred, h1, hl, -, -⟩ := C125_normal_nig prior nu hn hnu ha hb h
  have key : ∀ x, (pred x).mu = (nu * prior.mu + ((n + 1 : ℕ) : ℝ) * ((∑ i, x i) / ((n + 1 : ℕ) : ℝ))) / (nu + ((n + 1 : ℕ) : ℝ)) ∧
      ∃ v, MeanVar (contLaw (pred x).dist) (pred x).mu v := fun x => by
    obtain ⟨p, nu', e1, e2, g1, g2, g3, -⟩ := C14_normal_posterior_nig prior nu hn hnu ha hb (List.ofFn x) (ofFn_ne_nil x)
    rw [List.map_ofFn, List.sum_ofFn, List.sum_ofFn, List.length_ofFn] at e2
    have h2 := h1 x
    change normal (∑ i, x i) (∑ i, x i ^ 2) ((n + 1 : ℕ) : ℝ) (.nig prior) = _ at e2
    rw [e2] at h2
    simp only [normal, hn, NormalInverseGamma.new, Except.map, normalUpdate] at e2
    simp only [Except.bind, normal_predictive, e1, Except.ok.injEq] at h2
    have e4 : p.mu = (nu * prior.mu + ((n + 1 : ℕ) : ℝ) * ((∑ i, x i) / ((n + 1 : ℕ) : ℝ))) / (nu + ((n + 1 : ℕ) : ℝ)) ∧
        p.alpha = prior.alpha + ((n + 1 : ℕ) : ℝ) / 2 := by
      simp at e2
      rw [← e2]
      simp
    rw [← h2]
    exact ⟨e4.1, _, predictive_meanVar p.mu g1 (by rw [e4.2]; exact hv) g3⟩
  refine ⟨pred, ?_⟩
  have hsum : Measurable fun x : Fin (n + 1) → ℝ => ∑ i, x i := Finset.measurable_sum _ fun i _ => measurable_pi_apply i
  obtain ⟨e, h2, h3⟩ := hl.guess_of (guess := fun x => (pred x).mu) (by simp only [(key _).1]; fun_prop)
    (Filter.Eventually.of_forall fun ω => (key _).2)
  exact ⟨e, h1, h2, h3⟩

/-- C125. The same for `NormalGamma`. -/
theorem C125_normal_ng_guess {M : Type} (prior : NormalGamma ℝ) (hl : 0 < prior.lam)
    (ha : 0 < prior.alpha) (hb : 0 < prior.beta) (hv : 1 < prior.alpha + ((n + 1 : ℕ) : ℝ) / 2)
    {θ : Ω → ℝ × ℝ} {X : Ω → Fin (n + 1) → ℝ} {Y : Ω → ℝ}
    (h : DrawThenPredict P θ X Y (ngLaw prior) (fun _ t => contLaw (Normal.dist ⟨t.1, √(1 / t.2)⟩))
      fun t => contLaw (Normal.dist ⟨t.1, √(1 / t.2)⟩)) :
    ∃ (pred : (Fin (n + 1) → ℝ) → StudentT ℝ) (error : (Fin (n + 1) → ℝ) → ℝ),
      (∀ x, (normal (∑ i, x i) (∑ i, x i ^ 2) ((n + 1 : ℕ) : ℝ) (.ng prior : NormalPrior ℝ M)).bind normal_predictive =
        .ok (pred x)) ∧
      (∀ᵐ ω ∂P, MeanVar (contLaw (pred (X ω)).dist) (pred (X ω)).mu (error (X ω))) ∧
      BestGuess P Y X (fun x => (pred x).mu) error := by
  obtain ⟨pred, h1, hL, -, -⟩ := C125_normal_ng (M := M) prior hl ha hb h
  have key : ∀ x, (pred x).mu = (prior.lam * prior.mu + ((n + 1 : ℕ) : ℝ) * ((∑ i, x i) / ((n + 1 : ℕ) : ℝ))) /
      (prior.lam + ((n + 1 : ℕ) : ℝ)) ∧ ∃ v, MeanVar (contLaw (pred x).dist) (pred x).mu v := fun x => by
    obtain ⟨p, e2, g1, g2, g3, -⟩ := C14_normal_posterior_ng (M := M) prior hl ha hb (List.ofFn x) (ofFn_ne_nil x)
    rw [List.map_ofFn, List.sum_ofFn, List.sum_ofFn, List.length_ofFn] at e2
    have h2 := h1 x
    change normal (∑ i, x i) (∑ i, x i ^ 2) ((n + 1 : ℕ) : ℝ) (.ng prior : NormalPrior ℝ M) = _ at e2
    rw [e2] at h2
    simp only [normal, normalUpdate] at e2
    simp only [Except.bind, normal_predictive, Except.ok.injEq] at h2
    have e4 : p.mu = (prior.lam * prior.mu + ((n + 1 : ℕ) : ℝ) * ((∑ i, x i) / ((n + 1 : ℕ) : ℝ))) /
        (prior.lam + ((n + 1 : ℕ) : ℝ)) ∧ p.alpha = prior.alpha + ((n + 1 : ℕ) : ℝ) / 2 := by
      simp at e2
      rw [← e2]
      simp
    rw [← h2]
    exact ⟨e4.1, _, predictive_meanVar p.mu g1 (by rw [e4.2]; exact hv) g3⟩
  refine ⟨pred, ?_⟩
  have hsum : Measurable fun x : Fin (n + 1) → ℝ => ∑ i, x i := Finset.measurable_sum _ fun i _ => measurable_pi_apply i
  obtain ⟨e, h2, h3⟩ := hL.guess_of (guess := fun x => (pred x).mu) (by simp only [(key _).1]; fun_prop)
    (Filter.Eventually.of_forall fun ω => (key _).2)
  exact ⟨e, h1, h2, h3⟩

/-! ## The settings exist -/

example : ∃ (Ω : Type) (_ : MeasurableSpace Ω) (P : Measure Ω) (X : Ω → Fin 3 → ℝ) (Y : Ω → ℝ)
    (guess error : (Fin 3 → ℝ) → ℝ), BestGuess P Y X guess error := by
  obtain ⟨Ω, i, P, θ, X, Y, h⟩ := (bayes_gamma_known_shape (n := 3) ⟨3, 1⟩ three_pos one_pos 2 two_pos).exists_again 0
  obtain ⟨g, e, -, hb⟩ := C125_gamma_known_shape_guess ⟨3, 1⟩ (by norm_num) one_pos 2 two_pos h
  exact ⟨Ω, i, P, X, Y, g, e, hb⟩

example : ∃ (Ω : Type) (_ : MeasurableSpace Ω) (P : Measure Ω) (X : Ω → Fin 3 → ℤ) (Y : Ω → ℤ)
    (guess error : (Fin 3 → ℤ) → ℝ), BestGuess P (fun ω => (Y ω : ℝ)) X guess error := by
  obtain ⟨Ω, i, P, θ, X, Y, h⟩ := (bayes_negative_binomial (n := 3) ⟨3, 1⟩ three_pos one_pos 2 two_pos).exists_again 0
  obtain ⟨g, e, -, hb⟩ := C125_negative_binomial_beta_guess ⟨3, 1⟩ (by norm_num) one_pos 2 two_pos h
  exact ⟨Ω, i, P, X, Y, g, e, hb⟩

example : ∃ (Ω : Type) (_ : MeasurableSpace Ω) (P : Measure Ω) (X : Ω → Fin 3 → ℝ) (Y : Ω → ℝ)
    (error : (Fin 3 → ℝ) → ℝ), BestGuess P Y X (fun _ => 5) error := by
  obtain ⟨Ω, i, P, θ, X, Y, h⟩ := (bayes_normal_known_mean (n := 3) (.inverseGamma ⟨2, 1⟩) ⟨two_pos, one_pos⟩ 5).exists_again 0
  obtain ⟨e, -, hb⟩ := C125_normal_known_mean_guess (.inverseGamma ⟨2, 1⟩) ⟨two_pos, one_pos⟩ 5 (by norm_num) h
  exact ⟨Ω, i, P, X, Y, e, hb⟩

example : ∃ (Ω : Type) (_ : MeasurableSpace Ω) (P : Measure Ω) (X : Ω → Fin 3 → ℝ) (Y : Ω → ℝ)
    (guess error : (Fin 3 → ℝ) → ℝ), BestGuess P Y X guess error := by
  obtain ⟨post, -, hB⟩ := bayes_normal_nig (n := 2) (M := Unit) ⟨0, 2, 3, none, some 1⟩ 1 rfl one_pos two_pos three_pos
  obtain ⟨Ω, i, P, θ, X, Y, h⟩ := hB.exists_again 0
  obtain ⟨g, e, -, -, hb⟩ := C125_normal_nig_guess (n := 2) (M := Unit) ⟨0, 2, 3, none, some 1⟩ 1 rfl one_pos two_pos three_pos
    (by norm_num) h
  exact ⟨Ω, i, P, X, Y, _, e, hb⟩

example : ∃ (Ω : Type) (_ : MeasurableSpace Ω) (P : Measure Ω) (X : Ω → Fin 3 → ℝ) (Y : Ω → ℝ)
    (guess error : (Fin 3 → ℝ) → ℝ), BestGuess P Y X guess error := by
  obtain ⟨post, -, hB⟩ := bayes_normal_ng (n := 2) (M := Unit) ⟨0, 1, 2, 3⟩ one_pos two_pos three_pos
  obtain ⟨Ω, i, P, θ, X, Y, h⟩ := hB.exists_again 0
  obtain ⟨g, e, -, -, hb⟩ := C125_normal_ng_guess (n := 2) (M := Unit) ⟨0, 1, 2, 3⟩ one_pos two_pos three_pos (by norm_num) h
  exact ⟨Ω, i, P, X, Y, _, e, hb⟩

end Conj
