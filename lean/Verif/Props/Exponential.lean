import Verif.Props.PredictiveScalar
import Verif.Props.PosteriorScalar
import Mathlib.Analysis.SpecialFunctions.Log.Deriv
import Mathlib.Analysis.Complex.ExponentialBounds

/-!
# Exponential data (C06, C28)

The code adds the sum of the data to the Gamma's shape and the number of observations to
its rate.  C06 and C28 are false of the code.  Proved here: exactly when it is right, that
the reading of `Exponential(lam)` as a mean does not save it, and what the returned
numbers do stand for.
-/

open MeasureTheory Set Real

namespace Conj

open Scipy Spec

/-- Full statement of C06 with `lam` a rate (`.dist` has `scale = lam`, so the rate is `1/lam`). -/
def C06_statement_rate (prior : Gamma ℝ) (xs : List ℝ) : Prop :=
  IsPosterior volume (Ioi 0) prior.dist.pdf
    (likelihood (fun r x => (Exponential.dist { lam := 1 / r }).pdf x) xs)
    (exponential_gamma xs.sum (xs.length : ℝ) prior).dist.pdf

/-- Full statement of C06 with `lam` the mean, as in `Exponential.dist`. -/
def C06_statement_mean (prior : Gamma ℝ) (xs : List ℝ) : Prop :=
  IsPosterior volume (Ioi 0) prior.dist.pdf
    (likelihood (fun m x => (Exponential.dist { lam := m }).pdf x) xs)
    (exponential_gamma xs.sum (xs.length : ℝ) prior).dist.pdf

/-- C06: the call with its two data arguments exchanged is Bayes' rule for the rate. What is
missing: the call as documented. -/
theorem C06_exponential_gamma_swapped_partial (prior : Gamma ℝ) (ha : 0 < prior.alpha)
    (hb : 0 < prior.beta) (xs : List ℝ) (hx : ∀ x ∈ xs, 0 < x) :
    IsPosterior volume (Ioi 0) prior.dist.pdf
      (likelihood (fun r x => (Exponential.dist { lam := 1 / r }).pdf x) xs)
      (exponential_gamma (xs.length : ℝ) xs.sum prior).dist.pdf := by
  have hval : ∀ (d : Gamma ℝ) (x : ℝ), d.Valid → 0 < x →
      (exponential_gamma 1 x d).Valid := by
    intro d x hd hx
    have h1 := hd.1; have h2 := hd.2
    exact ⟨by simp only [exponential_gamma, getExponentialGammaPosteriorParams,
        getPoissonGammaPosteriorParams]; positivity,
      by simp only [exponential_gamma, getExponentialGammaPosteriorParams,
        getPoissonGammaPosteriorParams]; positivity⟩
  refine posterior_of_steps measurableSet_Ioi (valid := Gamma.Valid) (ok := fun x => 0 < x)
    (pdf := fun d : Gamma ℝ => d.dist.pdf)
    (step := fun d x => exponential_gamma 1 x d)
    (fun d hd => Gamma.isDensity d hd.1 hd.2) hval ?_ xs hx prior ⟨ha, hb⟩ ?_
  · intro d x hd hx
    refine gamma_step d _ hd (hval d x hd hx) (C := 1)
      (u := 1) (v := x) one_pos (fun l hl => ?_) rfl rfl
    have hl : 0 < l := hl
    rw [Exponential.pdf_eq _ (by positivity) hx.le]
    have : x / (1 / l) = x * l := by field_simp
    rw [this, rpow_one]
    field_simp
  · have h := C37_exponential_gamma (xs.map fun x => ((1 : ℝ), x)) prior
    rw [List.foldl_map] at h
    rw [h, List.map_map, List.map_map]
    congr 1 <;> simp [Function.comp_def]

/-- two Gamma densities agree only if their parameters do, when the parameters differ in
this crossed way -/
theorem gamma_cross {a b D : ℝ} (ha : 0 < a) (hb : 0 < b) (ha' : 0 < a + D)
    (hb' : 0 < b - D)
    (h : ∀ t ∈ Ioi (0 : ℝ), (Gamma.dist ⟨a + D, b - D⟩).pdf t = (Gamma.dist ⟨a, b⟩).pdf t) :
    D = 0 := by
  have h1 := h 1 (by simp)
  have h2 := h 2 (by simp)
  rw [Gamma.pdf_eq ⟨a + D, b - D⟩ hb' (by norm_num), Gamma.pdf_eq ⟨a, b⟩ hb (by norm_num),
    ← gammaConst, ← gammaConst] at h1 h2
  have c1 : 0 < gammaConst (a + D) (b - D) := gammaConst_pos ha' hb'
  have c2 : 0 < gammaConst a b := gammaConst_pos ha hb
  simp only [one_rpow, mul_one] at h1
  have l1 := congrArg Real.log h1
  have l2 := congrArg Real.log h2
  rw [Real.log_mul c1.ne' (exp_pos _).ne', Real.log_mul c2.ne' (exp_pos _).ne', Real.log_exp,
    Real.log_exp] at l1
  rw [Real.log_mul (by positivity) (exp_pos _).ne', Real.log_mul (by positivity) (exp_pos _).ne',
    Real.log_mul c1.ne' (by positivity), Real.log_mul c2.ne' (by positivity),
    Real.log_rpow (by norm_num), Real.log_rpow (by norm_num), Real.log_exp, Real.log_exp] at l2
  have : D * (Real.log 2 + 1) = 0 := by linear_combination l2 - l1
  have hl : 0 < Real.log 2 := Real.log_pos (by norm_num)
  rcases mul_eq_zero.1 this with h | h
  · exact h
  · linarith

/-- C06 (disagreement). For positive data the rate reading holds exactly when the sum of the
data happens to equal the number of observations. -/
theorem C06_exponential_gamma_rate_iff (prior : Gamma ℝ) (ha : 0 < prior.alpha)
    (hb : 0 < prior.beta) (xs : List ℝ) (hx : ∀ x ∈ xs, 0 < x) :
    C06_statement_rate prior xs ↔ xs.sum = (xs.length : ℝ) := by
  have hs : 0 ≤ xs.sum := List.sum_nonneg fun x h => (hx x h).le
  have htrue := C06_exponential_gamma_swapped_partial prior ha hb xs hx
  constructor
  · intro h
    have hu := IsPosterior.unique h htrue
    have := gamma_cross (a := prior.alpha + xs.length) (b := prior.beta + xs.sum)
      (D := xs.sum - xs.length) (by positivity) (by positivity)
      (by have := hs; linarith) (by ring_nf; positivity) (by
        intro t ht
        have := hu t ht
        simp only [exponential_gamma, getExponentialGammaPosteriorParams,
          getPoissonGammaPosteriorParams] at this
        rw [show prior.alpha + xs.length + (xs.sum - xs.length) = prior.alpha + xs.sum by ring,
          show prior.beta + xs.sum - (xs.sum - xs.length) = prior.beta + xs.length by ring]
        exact this)
    linarith
  · intro h
    rw [← h] at htrue
    rw [C06_statement_rate, ← h]
    exact htrue

/-- C06 (disagreement). The mean reading is wrong for every prior and every nonempty data set. -/
theorem C06_exponential_gamma_mean_false (prior : Gamma ℝ) (ha : 0 < prior.alpha)
    (hb : 0 < prior.beta) (xs : List ℝ) (hne : xs ≠ []) (hx : ∀ x ∈ xs, 0 < x) :
    ¬ C06_statement_mean prior xs := by
  intro ⟨hZ, h⟩
  set Z := ∫ θ in Ioi (0 : ℝ), prior.dist.pdf θ *
    likelihood (fun m x => (Exponential.dist { lam := m }).pdf x) xs θ with hZdef
  have hs : 0 ≤ xs.sum := List.sum_nonneg fun x h => (hx x h).le
  have hn : (0 : ℝ) < xs.length := by
    have := List.length_pos_of_ne_nil hne
    exact_mod_cast this
  have hlik : ∀ (l : List ℝ), (∀ x ∈ l, 0 < x) → ∀ t : ℝ, 0 < t →
      0 < likelihood (fun m x => (Exponential.dist { lam := m }).pdf x) l t ∧
      Real.log (likelihood (fun m x => (Exponential.dist { lam := m }).pdf x) l t) =
        -(l.sum / t) - l.length * Real.log t := by
    intro l hl t ht
    induction l with
    | nil => simp [likelihood]
    | cons x l ih =>
      obtain ⟨i1, i2⟩ := ih (fun y hy => hl y (by simp [hy]))
      have hp : 0 < (Exponential.dist { lam := t }).pdf x := by
        rw [Exponential.pdf_eq t ht (hl x (by simp)).le]; positivity
      simp only [likelihood, List.map_cons, List.prod_cons] at i1 i2 ⊢
      refine ⟨mul_pos hp i1, ?_⟩
      rw [Real.log_mul hp.ne' i1.ne', i2, Exponential.pdf_eq t ht (hl x (by simp)).le,
        Real.log_div (exp_pos _).ne' ht.ne', Real.log_exp]
      simp only [List.sum_cons, List.length_cons]
      push_cast
      ring
  have key : ∀ t : ℝ, 0 < t →
      (Real.log (gammaConst (prior.alpha + xs.sum) (prior.beta + xs.length)) -
        Real.log (gammaConst prior.alpha prior.beta) + Real.log Z) +
      (xs.sum + xs.length) * Real.log t - xs.length * t + xs.sum / t = 0 := by
    intro t ht
    have e := h t ht
    obtain ⟨l1, l2⟩ := hlik xs hx t ht
    have hpost : (exponential_gamma xs.sum (xs.length : ℝ) prior) =
      ⟨prior.alpha + xs.sum, prior.beta + xs.length⟩ := rfl
    have hb' : 0 < prior.beta + xs.length := by positivity
    have ha' : 0 < prior.alpha + xs.sum := by positivity
    rw [hpost, Gamma.pdf_eq ⟨prior.alpha + xs.sum, prior.beta + xs.length⟩ hb' ht,
      Gamma.pdf_eq prior hb ht, ← gammaConst, ← gammaConst] at e
    have c1 : 0 < gammaConst (prior.alpha + xs.sum) (prior.beta + xs.length) :=
      gammaConst_pos ha' hb'
    have c2 : 0 < gammaConst prior.alpha prior.beta := gammaConst_pos ha hb
    have e' := congrArg Real.log e
    simp only at e'
    rw [Real.log_div (by positivity) hZ.ne', Real.log_mul (by positivity) (exp_pos _).ne',
      Real.log_mul c1.ne' (by positivity), Real.log_mul (by positivity) l1.ne',
      Real.log_mul (by positivity) (exp_pos _).ne', Real.log_mul c2.ne' (by positivity),
      Real.log_rpow ht, Real.log_rpow ht, Real.log_exp, Real.log_exp, l2] at e'
    linear_combination e'
  have k1 := key 1 one_pos
  have k2 := key 2 two_pos
  have k3 := key (1 / 2) (by norm_num)
  have hL : Real.log (1 / 2) = -Real.log 2 := by rw [one_div, Real.log_inv]
  rw [hL] at k3
  rw [Real.log_one] at k1
  have hb2 := Real.log_two_lt_d9
  set L := Real.log 2
  set n : ℝ := (xs.length : ℝ)
  set s := xs.sum
  have a1 : (s + n) * L = n + s / 2 := by linear_combination k2 - k1
  have a2 : (s + n) * L = s + n / 2 := by linear_combination k1 - k3
  have hsn : s = n := by linarith
  rw [hsn] at a1
  have : L = 3 / 4 := by
    have : n * (L - 3 / 4) = 0 := by linear_combination a1 / 2
    rcases mul_eq_zero.1 this with h | h <;> linarith
  linarith

/-- C06: what the returned numbers are: the Poisson posterior of the same statistics. -/
theorem C06_exponential_gamma_is_poisson_gamma (x_total n : ℝ) (prior : Gamma ℝ) :
    exponential_gamma x_total n prior = poisson_gamma x_total n prior := rfl

/-- concrete disagreement: two observations summing to 3 -/
example : ¬ C06_statement_rate ⟨1, 1⟩ [1, 2] := by
  rw [C06_exponential_gamma_rate_iff ⟨1, 1⟩ (by norm_num) (by norm_num) [1, 2] (by simp)]
  norm_num
example := C06_exponential_gamma_mean_false ⟨1, 1⟩ (by norm_num) (by norm_num) [1, 2] (by simp)
  (by simp)
example := C06_exponential_gamma_swapped_partial ⟨1, 1⟩ (by norm_num) (by norm_num) [1, 2] (by simp)

/-! ## C28 -/

theorem Lomax.pdf_eq (d : Lomax ℝ) (hl : 0 < d.lam) {x : ℝ} (hx : 0 ≤ x) :
    d.dist.pdf x = d.alpha / d.lam * ((d.lam + x) / d.lam) ^ (-(d.alpha + 1)) := by
  simp only [Lomax.dist, Cont.pdf, sub_zero, Family.std]
  have h : 0 ≤ x / d.lam := by positivity
  have e : 1 + x / d.lam = (d.lam + x) / d.lam := by field_simp
  rw [if_pos h, e, rpow_neg (by positivity)]
  ring

/-- The true predictive of exponential data: Lomax(alpha, beta). -/
theorem exponential_predictive_true (d : Gamma ℝ) (ha : 0 < d.alpha) (hb : 0 < d.beta) (x : ℝ)
    (hx : 0 ≤ x) :
    IsPredictive volume (Ioi 0) (fun r => (Exponential.dist { lam := 1 / r }).pdf x) d.dist.pdf
      ((Lomax.dist { alpha := d.alpha, lam := d.beta }).pdf x) := by
  have h := gamma_kernel d ⟨d.alpha + 1, d.beta + x⟩ ⟨ha, hb⟩
      ⟨by simp only; positivity, by simp only; positivity⟩ (u := 1) (v := x)
      (f := fun r => (Exponential.dist { lam := 1 / r }).pdf x) (C := 1)
      (fun l hl => by
        have hl : 0 < l := hl
        rw [Exponential.pdf_eq _ (by positivity) hx]
        have : x / (1 / l) = x * l := by field_simp
        rw [this, rpow_one]
        field_simp) rfl rfl
  have hc : 1 * gammaConst d.alpha d.beta / gammaConst (d.alpha + 1) (d.beta + x) =
      (Lomax.dist { alpha := d.alpha, lam := d.beta }).pdf x := by
    have hbx : 0 < d.beta + x := by positivity
    have hG := Real.Gamma_pos_of_pos ha
    rw [Lomax.pdf_eq ⟨d.alpha, d.beta⟩ hb hx]
    simp only [gammaConst]
    rw [Real.Gamma_add_one ha.ne', rpow_neg (by positivity), div_rpow hbx.le hb.le,
      rpow_add_one hb.ne']
    have p1 := rpow_pos_of_pos hb d.alpha
    have p3 := rpow_pos_of_pos hbx (d.alpha + 1)
    field_simp
  rw [← hc]
  exact IsPredictive.of_density measurableSet_Ioi
    (Gamma.isDensity ⟨d.alpha + 1, d.beta + x⟩ (by simp only; positivity)
      (by simp only; positivity)) (fun p hp => by rw [mul_comm]; exact h p hp)

/-- Full statement of C28. -/
def C28_statement (d : Gamma ℝ) : Prop := ∀ x : ℝ, 0 ≤ x →
  IsPredictive volume (Ioi 0) (fun r => (Exponential.dist { lam := 1 / r }).pdf x) d.dist.pdf
    ((exponential_gamma_predictive d).dist.pdf x)

/-- C28 (disagreement). `exponential_gamma_predictive` is the predictive exactly when the
Gamma's two parameters are equal. -/
theorem C28_exponential_gamma_predictive_iff (d : Gamma ℝ) (ha : 0 < d.alpha) (hb : 0 < d.beta) :
    C28_statement d ↔ d.alpha = d.beta := by
  constructor
  · intro h
    have h0 := (h 0 le_rfl).2
    rw [← (exponential_predictive_true d ha hb 0 le_rfl).2, exponential_gamma_predictive,
      Lomax.pdf_eq ⟨d.beta, d.alpha⟩ ha le_rfl, Lomax.pdf_eq ⟨d.alpha, d.beta⟩ hb le_rfl] at h0
    simp only [add_zero, div_self ha.ne', div_self hb.ne', one_rpow, mul_one] at h0
    rw [div_eq_div_iff ha.ne' hb.ne'] at h0
    nlinarith [h0]
  · intro h x hx
    have := exponential_predictive_true d ha hb x hx
    have e : exponential_gamma_predictive d = { alpha := d.alpha, lam := d.beta } := by
      simp [exponential_gamma_predictive, h]
    rw [e]
    exact this

/-- C28: with the Gamma's parameters exchanged the call is right. Missing: the call as documented. -/
theorem C28_exponential_gamma_predictive_swapped_partial (d : Gamma ℝ) (ha : 0 < d.alpha)
    (hb : 0 < d.beta) (x : ℝ) (hx : 0 ≤ x) :
    IsPredictive volume (Ioi 0) (fun r => (Exponential.dist { lam := 1 / r }).pdf x) d.dist.pdf
      ((exponential_gamma_predictive { alpha := d.beta, beta := d.alpha }).dist.pdf x) :=
  exponential_predictive_true d ha hb x hx

/-- C28: the posterior and the predictive are consistently exchanged: predicting from
`exponential_gamma` started at the exchanged prior is the true predictive of the true posterior. -/
theorem C28_exponential_pipeline (prior : Gamma ℝ) (ha : 0 < prior.alpha) (hb : 0 < prior.beta)
    (xs : List ℝ) (hx : ∀ x ∈ xs, 0 < x) (y : ℝ) (hy : 0 ≤ y) :
    ∃ post : ℝ → ℝ,
      IsPosterior volume (Ioi 0) prior.dist.pdf
        (likelihood (fun r x => (Exponential.dist { lam := 1 / r }).pdf x) xs) post ∧
      IsPredictive volume (Ioi 0) (fun r => (Exponential.dist { lam := 1 / r }).pdf y) post
        ((exponential_gamma_predictive (exponential_gamma xs.sum (xs.length : ℝ)
          { alpha := prior.beta, beta := prior.alpha })).dist.pdf y) := by
  have hs : 0 ≤ xs.sum := List.sum_nonneg fun x h => (hx x h).le
  refine ⟨_, C06_exponential_gamma_swapped_partial prior ha hb xs hx, ?_⟩
  exact exponential_predictive_true
    (exponential_gamma (xs.length : ℝ) xs.sum prior)
    (by simp only [exponential_gamma, getExponentialGammaPosteriorParams,
        getPoissonGammaPosteriorParams]; positivity)
    (by simp only [exponential_gamma, getExponentialGammaPosteriorParams,
        getPoissonGammaPosteriorParams]; positivity) y hy

example : ¬ C28_statement ⟨1, 2⟩ := by
  rw [C28_exponential_gamma_predictive_iff ⟨1, 2⟩ (by norm_num) (by norm_num)]; norm_num
example := C28_exponential_pipeline ⟨2, 5⟩ (by norm_num) (by norm_num) [1, 4] (by simp) 3
  (by norm_num)

end Conj
