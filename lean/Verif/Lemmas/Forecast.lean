import Verif.ForecastSpec
import Verif.Lemmas.TwoStage
import Verif.Lemmas.DiscreteMeans
import Verif.Lemmas.DataMeans
import Verif.Lemmas.ConcentrationJoint

/-!
# Mean and variance of mixtures
-/

open MeasureTheory Set

namespace Conj

open Scipy Spec

theorem integrable_sq_sub {μ : Measure ℝ} [IsProbabilityMeasure μ] (h : MemLp (fun x => x) 2 μ) (c : ℝ) :
    Integrable (fun x => (x - c) ^ 2) μ := (h.sub (memLp_const c)).integrable_sq

theorem integral_sq_sub {μ : Measure ℝ} [IsProbabilityMeasure μ] (h : MemLp (fun x => x) 2 μ) (c : ℝ) :
    ∫ x, (x - c) ^ 2 ∂μ = ∫ x, x ^ 2 ∂μ - 2 * c * ∫ x, x ∂μ + c ^ 2 := by
  have h1 : Integrable (fun x : ℝ => x) μ := h.integrable one_le_two
  have h2 : Integrable (fun x : ℝ => x ^ 2) μ := h.integrable_sq
  have e : ∀ x : ℝ, (x - c) ^ 2 = x ^ 2 - 2 * c * x + c ^ 2 := fun x => by ring
  simp only [e]
  have h3 : Integrable (fun x : ℝ => x ^ 2 - 2 * c * x) μ := h2.sub (h1.const_mul _)
  rw [integral_add h3 (integrable_const _), integral_sub h2 (h1.const_mul _), integral_const_mul]
  simp

theorem Spec.MeanVar.sq {μ : Measure ℝ} {m v : ℝ} (h : MeanVar μ m v) : ∫ x, x ^ 2 ∂μ = v + m ^ 2 := by
  have := h.prob
  have e := integral_sq_sub h.memLp m
  rw [h.var, h.mean] at e
  linarith

theorem Spec.MeanVar.of_eq {μ : Measure ℝ} {m v m' v' : ℝ} (h : MeanVar μ m v) (hm : m = m') (hv : v = v') :
    MeanVar μ m' v' := by rwa [← hm, ← hv]

theorem meanVar_of_sq {μ : Measure ℝ} (hp : IsProbabilityMeasure μ) {m s : ℝ}
    (h2 : Integrable (fun x => x ^ 2) μ) (hm : ∫ x, x ∂μ = m) (hs : ∫ x, x ^ 2 ∂μ = s) : MeanVar μ m (s - m ^ 2) := by
  have hl : MemLp (fun x => x) 2 μ := (memLp_two_iff_integrable_sq (by fun_prop)).2 h2
  refine ⟨hp, hl, hm, ?_⟩
  rw [integral_sq_sub hl, hm, hs]
  ring

theorem Spec.MeanVar.nonneg {μ : Measure ℝ} {m v : ℝ} (h : MeanVar μ m v) : 0 ≤ v := by
  rw [← h.var]; exact integral_nonneg fun x => sq_nonneg _

theorem Spec.MeanVar.lintegral {μ : Measure ℝ} {m v : ℝ} (h : MeanVar μ m v) (c : ℝ) :
    ∫⁻ x, ENNReal.ofReal ((x - c) ^ 2) ∂μ = ENNReal.ofReal (v + (m - c) ^ 2) := by
  have := h.prob
  rw [← ofReal_integral_eq_lintegral_ofReal (integrable_sq_sub h.memLp c) (Filter.Eventually.of_forall fun x => sq_nonneg _),
    integral_sq_sub h.memLp, h.sq, h.mean]
  congr 1
  ring

/-- mean and variance from the squares about every point -/
theorem meanVar_of_lintegral {μ : Measure ℝ} (hp : IsProbabilityMeasure μ) {m v : ℝ} (hv : 0 ≤ v)
    (h : ∀ c, ∫⁻ x, ENNReal.ofReal ((x - c) ^ 2) ∂μ = ENNReal.ofReal (v + (m - c) ^ 2)) : MeanVar μ m v := by
  have i : ∀ c, Integrable (fun x : ℝ => (x - c) ^ 2) μ := fun c => by
    refine ⟨by fun_prop, ?_⟩
    rw [hasFiniteIntegral_iff_ofReal (Filter.Eventually.of_forall fun x => sq_nonneg _), h]
    exact ENNReal.ofReal_lt_top
  have e : ∀ c, ∫ x, (x - c) ^ 2 ∂μ = v + (m - c) ^ 2 := fun c => by
    have h1 := ofReal_integral_eq_lintegral_ofReal (i c) (Filter.Eventually.of_forall fun x => sq_nonneg _)
    rw [h] at h1
    exact (ENNReal.ofReal_eq_ofReal_iff (integral_nonneg fun x => sq_nonneg _) (by positivity)).1 h1
  have hl : MemLp (fun x => x) 2 μ := by
    rw [memLp_two_iff_integrable_sq (by fun_prop)]
    simpa using i 0
  have e0 := e 0
  have e1 := e 1
  rw [integral_sq_sub hl] at e0 e1
  refine ⟨hp, hl, by linarith, ?_⟩
  rw [e, sub_self]; simp

/-- total mean and variance -/
theorem Spec.Mixes.meanVar {pred post : Measure ℝ} [IsProbabilityMeasure post] {model : ℝ → Measure ℝ} (h : Mixes pred post model)
    {g w : ℝ → ℝ} (hT : ∀ᵐ θ ∂post, MeanVar (model θ) (g θ) (w θ)) (hg : Measurable g) {m v : ℝ}
    (hm : MeanVar (post.map g) m v) (hw : Integrable w post) : MeanVar pred m (v + ∫ θ, w θ ∂post) := by
  have hw0 : 0 ≤ᵐ[post] w := hT.mono fun θ hθ => hθ.nonneg
  refine meanVar_of_lintegral ⟨?_⟩ (add_nonneg hm.nonneg (integral_nonneg_of_ae hw0)) fun c => ?_
  · have := h (fun _ => 1) measurable_const
    rw [lintegral_one] at this
    rw [this]
    have e : ∀ᵐ θ ∂post, ∫⁻ _, 1 ∂model θ = 1 := hT.mono fun θ hθ => by
      have := hθ.prob
      simp
    rw [lintegral_congr_ae e]; simp
  · rw [h _ (by fun_prop)]
    have e : ∀ᵐ θ ∂post, ∫⁻ x, ENNReal.ofReal ((x - c) ^ 2) ∂model θ =
        ENNReal.ofReal (w θ) + ENNReal.ofReal ((g θ - c) ^ 2) := hT.mono fun θ hθ => by
      rw [hθ.lintegral, ENNReal.ofReal_add hθ.nonneg (sq_nonneg _)]
    rw [lintegral_congr_ae e, lintegral_add_right _ (by fun_prop),
      ← ofReal_integral_eq_lintegral_ofReal hw hw0]
    have := hm.lintegral c
    rw [lintegral_map (by fun_prop) hg] at this
    rw [this, ← ENNReal.ofReal_add (integral_nonneg_of_ae hw0) (add_nonneg hm.nonneg (sq_nonneg _))]
    congr 1
    ring

theorem mixes_cont {post : Cont} {S : Set ℝ} (hS : MeasurableSet S) (he : contLaw post = lawOn S post.pdf)
    (hd : IsDensity volume S post.pdf) {model : ℝ → Cont} (hm : Measurable fun q : ℝ × ℝ => (model q.1).pdf q.2)
    (h0 : ∀ θ ∈ S, ∀ x, 0 ≤ (model θ).pdf x) {pred : ℝ → ℝ} (hpred : Measurable pred)
    (hp : ∀ᵐ x, IsPredictive volume S (fun θ => (model θ).pdf x) post.pdf (pred x)) :
    Mixes (volume.withDensity fun x => ENNReal.ofReal (pred x)) (contLaw post) fun θ => contLaw (model θ) := by
  intro F hF
  have hFm : Measurable fun q : ℝ × ℝ => ENNReal.ofReal ((model q.1).pdf q.2) * F q.2 := by fun_prop
  have e1 : ∀ θ, ∫⁻ x, F x ∂contLaw (model θ) = ∫⁻ x, ENNReal.ofReal ((model θ).pdf x) * F x := by
    intro θ
    have hθ : Measurable fun x => (model θ).pdf x := hm.comp (f := fun x : ℝ => (θ, x)) (by fun_prop)
    rw [contLaw, lintegral_withDensity_eq_lintegral_mul _ hθ.ennreal_ofReal hF]
    rfl
  rw [lintegral_withDensity_eq_lintegral_mul _ hpred.ennreal_ofReal hF]
  simp only [e1]
  rw [he, lintegral_lawOn hd hFm.lintegral_prod_right]
  exact mixture_lintegral hS hd hm h0 hp hF

theorem mixes_disc {post : Cont} {S : Set ℝ} (hS : MeasurableSet S) (he : contLaw post = lawOn S post.pdf)
    (hd : IsDensity volume S post.pdf) {model : ℝ → Disc} (hm : ∀ k, Measurable fun θ => (model θ).pmf k)
    (h0 : ∀ θ ∈ S, ∀ k, 0 ≤ (model θ).pmf k) {pred : ℤ → ℝ}
    (hp : ∀ k, IsPredictive volume S (fun θ => (model θ).pmf k) post.pdf (pred k)) :
    Mixes ((Measure.count.withDensity fun k : ℤ => ENNReal.ofReal (pred k)).map fun k : ℤ => (k : ℝ)) (contLaw post)
      fun θ => discRealLaw (model θ) := by
  intro F hF
  have hmm : Measurable fun q : ℝ × ℤ => (model q.1).pmf q.2 := measurable_from_prod_countable_left hm
  have hFz : Measurable fun k : ℤ => F k := measurable_of_countable _
  have hFm : Measurable fun q : ℝ × ℤ => ENNReal.ofReal ((model q.1).pmf q.2) * F q.2 :=
    hmm.ennreal_ofReal.mul (hFz.comp measurable_snd)
  have e1 : ∀ θ, ∫⁻ x, F x ∂discRealLaw (model θ) = ∫⁻ k : ℤ, ENNReal.ofReal ((model θ).pmf k) * F k ∂Measure.count := by
    intro θ
    rw [discRealLaw, discLaw, lintegral_map hF (measurable_of_countable _),
      lintegral_withDensity_eq_lintegral_mul _ (measurable_of_countable _) hFz]
    rfl
  rw [lintegral_map hF (measurable_of_countable _),
    lintegral_withDensity_eq_lintegral_mul _ (measurable_of_countable _) hFz]
  simp only [e1]
  rw [he, lintegral_lawOn hd hFm.lintegral_prod_right]
  exact mixture_lintegral hS hd hmm h0 (Filter.Eventually.of_forall hp) hFz

/-- mean and variance of `T` by moving mass between densities -/
theorem meanVar_of_tilt {S : Set ℝ} {f f1 f2 T : ℝ → ℝ} {c1 c2 : ℝ} (hT : Measurable T) (hS : MeasurableSet S)
    (hf : IsDensity volume S f) (hf1 : IsDensity volume S f1) (hf2 : IsDensity volume S f2)
    (h1 : ∀ x ∈ S, T x * f x = c1 * f1 x) (h2 : ∀ x ∈ S, T x * f1 x = c2 * f2 x) :
    MeanVar ((lawOn S f).map T) c1 (c1 * c2 - c1 ^ 2) := by
  have hp := lawOn_prob hS hf
  obtain ⟨i1, e1⟩ := mean_of_tilt hS hf hf1 h1
  obtain ⟨i2, e2⟩ := mean_of_tilt hS hf hf2 (T := fun x => T x ^ 2) (c1 := c1 * c2) fun x hx => by
    rw [pow_two, mul_assoc, h1 x hx, mul_left_comm, h2 x hx, mul_assoc]
  refine meanVar_of_sq (Measure.isProbabilityMeasure_map hT.aemeasurable) ?_ ?_ ?_
  · exact (integrable_map_measure (by fun_prop) hT.aemeasurable).2 i2
  · rw [integral_map hT.aemeasurable (by fun_prop)]; exact e1
  · rw [integral_map hT.aemeasurable (by fun_prop)]; exact e2

theorem disc_meanVar {d : Disc} (hneg : ∀ k : ℤ, k < 0 → d.pmf k = 0) (h0 : ∀ k, 0 ≤ d.pmf k) {m s : ℝ}
    (ht : HasSum (fun k : ℕ => d.pmf k) 1) (hm : HasSum (fun k : ℕ => d.pmf k * ((k : ℤ) : ℝ)) m)
    (hs : HasSum (fun k : ℕ => d.pmf k * (((k : ℤ) : ℝ) * (((k : ℤ) : ℝ) - 1))) s) :
    MeanVar (discRealLaw d) m (s + m - m ^ 2) := by
  have hp := disc_prob hneg h0 ht
  have hc : Measurable fun k : ℤ => (k : ℝ) := measurable_of_countable _
  obtain ⟨-, e1⟩ := disc_mean hneg h0 (T := fun k => (k : ℝ)) (fun k => by simp) hm
  obtain ⟨i2, e2⟩ := disc_mean hneg h0 (T := fun k => (k : ℝ) ^ 2) (m := s + m) (fun k => by positivity) (by
    refine (congrArg (HasSum · (s + m)) (funext fun k : ℕ => ?_)).mp (hs.add hm)
    ring)
  refine meanVar_of_sq (Measure.isProbabilityMeasure_map hc.aemeasurable) ?_ ?_ ?_
  · exact (integrable_map_measure (by fun_prop) hc.aemeasurable).2 i2
  · exact (integral_map hc.aemeasurable (by fun_prop)).trans e1
  · exact (integral_map hc.aemeasurable (by fun_prop)).trans e2

theorem poisson_meanVar {l : ℝ} (hl : 0 ≤ l) : MeanVar (discRealLaw (Poisson.dist ⟨l⟩)) l l := by
  have h := disc_meanVar (poisson_neg l) (poisson_nonneg l hl) (poisson_total l) (poisson_mean l) (s := l ^ 2) (by
    have h := (poisson_mean l).mul_left l
    rw [← pow_two] at h
    rw [← hasSum_nat_add_iff' 1]
    simp only [Finset.range_one, Finset.sum_singleton, CharP.cast_eq_zero, Int.cast_zero, zero_mul, mul_zero, sub_zero]
    refine (congrArg (HasSum · (l ^ 2)) (funext fun k : ℕ => ?_)).mp h
    simp only [Poisson.pmf_nat, Nat.factorial_succ]
    push_cast
    have : (k.factorial : ℝ) ≠ 0 := by exact_mod_cast k.factorial_ne_zero
    field_simp
    ring)
  rwa [show l ^ 2 + l - l ^ 2 = l by ring] at h

theorem binomial_meanVar (n : ℕ) {p : ℝ} (hp : 0 ≤ p) (hp1 : p ≤ 1) :
    MeanVar (discRealLaw (Binomial.dist ⟨n, p⟩)) (n * p) (n * p * (1 - p)) := by
  have h := disc_meanVar (binomial_neg n p) (binomial_nonneg n hp hp1) (binomial_total n p) (binomial_mean n p)
    (s := n * (n - 1) * p ^ 2) (by
    have h := binomial_hasSum n p fun k => (k : ℝ) * ((k : ℝ) - 1)
    have e := congrArg (Polynomial.eval p) (bernsteinPolynomial.sum_mul_smul ℝ n)
    rw [Polynomial.eval_finsetSum] at e
    simp only [nsmul_eq_mul, Polynomial.eval_mul, Polynomial.eval_natCast, Polynomial.eval_X, Polynomial.eval_pow] at e
    have c : ∀ k : ℕ, ((k * (k - 1) : ℕ) : ℝ) = (k : ℝ) * ((k : ℝ) - 1) := by
      intro k
      cases k <;> simp
    simp only [c] at e
    simp only [mul_comm (Polynomial.eval p _)] at h
    rw [e] at h
    simpa [mul_comm] using h)
  convert h using 1
  ring

theorem nb_meanVar {r p : ℝ} (hr : 0 < r) (hp : 0 < p) (hp1 : p ≤ 1) :
    MeanVar (discRealLaw (NegativeBinomial.dist ⟨r, p⟩)) (r * (1 - p) / p) (r * (1 - p) / p ^ 2) := by
  have h := disc_meanVar (nb_neg r p) (nb_nonneg r p hr hp.le hp1) (nb_total hr hp hp1) (nb_mean hr hp hp1)
    (s := r * (1 - p) / p * ((r + 1) * (1 - p) / p)) (by
    have h := (nb_mean (r := r + 1) (by positivity) hp hp1).mul_left (r * (1 - p) / p)
    rw [← hasSum_nat_add_iff' 1]
    simp only [Finset.range_one, Finset.sum_singleton, CharP.cast_eq_zero, Int.cast_zero, zero_mul, mul_zero, sub_zero]
    refine (congrArg (HasSum · (r * (1 - p) / p * ((r + 1) * (1 - p) / p))) (funext fun k : ℕ => ?_)).mp h
    rw [NegativeBinomial.pmf_nat, NegativeBinomial.pmf_nat, choose_eq_nbCoef r hr,
      choose_eq_nbCoef (r + 1) (by positivity), Real.rpow_add hp, Real.rpow_one]
    have := nbCoef_shift r k
    push_cast
    have e : nbCoef r (k + 1) * p ^ r * (1 - p) ^ (k + 1) * (((k : ℝ) + 1) * ((k : ℝ) + 1 - 1)) =
        (((k : ℝ) + 1) * nbCoef r (k + 1)) * p ^ r * (1 - p) ^ (k + 1) * k := by ring
    rw [e, this, pow_succ]
    field_simp)
  convert h using 1
  field_simp
  ring

theorem normal_meanVar (m : ℝ) {s : ℝ} (hs : 0 < s) : MeanVar (contLaw (Normal.dist ⟨m, s⟩)) m (s ^ 2) := by
  have h := meanVar_of_sq (normal_prob m hs) (normal_expect_sq m hs).1 (normal_expect m hs).2 (normal_expect_sq m hs).2
  rwa [add_sub_cancel_right] at h

theorem Spec.MeanVar.map_id {μ : Measure ℝ} {m v : ℝ} (h : MeanVar μ m v) : MeanVar (μ.map fun x => x) m v := by
  rwa [show μ.map (fun x => x) = μ from Measure.map_id]

theorem beta_meanVar {a b : ℝ} (ha : 0 < a) (hb : 0 < b) :
    MeanVar (contLaw (Beta.dist ⟨a, b⟩)) (a / (a + b)) (a / (a + b) * ((a + 1) / (a + 1 + b)) - (a / (a + b)) ^ 2) := by
  have h1' : 0 < a + 1 := by positivity
  have h1'' : 0 < a + 1 + 1 := by positivity
  have h := meanVar_of_tilt measurable_id measurableSet_Ioo (Beta.isDensity ⟨a, b⟩ ha hb)
    (Beta.isDensity ⟨a + 1, b⟩ h1' hb) (Beta.isDensity ⟨a + 1 + 1, b⟩ h1'' hb)
    (fun x hx => Beta.tilt ⟨a, b⟩ ha hb hx) (fun x hx => Beta.tilt ⟨a + 1, b⟩ h1' hb hx)
  rw [beta_lawOn]
  rwa [Measure.map_id] at h

theorem gamma_meanVar {a b : ℝ} (ha : 0 < a) (hb : 0 < b) :
    MeanVar (contLaw (Gamma.dist ⟨a, b⟩)) (a / b) (a / b ^ 2) := by
  have h1' : 0 < a + 1 := by positivity
  have h1'' : 0 < a + 1 + 1 := by positivity
  have h := meanVar_of_tilt measurable_id measurableSet_Ioi (Gamma.isDensity ⟨a, b⟩ ha hb)
    (Gamma.isDensity ⟨a + 1, b⟩ h1' hb) (Gamma.isDensity ⟨a + 1 + 1, b⟩ h1'' hb)
    (fun x hx => Gamma.tilt ⟨a, b⟩ ha hb hx) (fun x hx => Gamma.tilt ⟨a + 1, b⟩ h1' hb hx)
  rw [gamma_lawOn _ hb]
  rw [Measure.map_id] at h
  convert h using 1
  simp only
  field_simp
  ring

theorem Spec.MeanVar.scale {μ : Measure ℝ} {m v : ℝ} (h : MeanVar μ m v) (c : ℝ) :
    MeanVar (μ.map fun x => c * x) (c * m) (c ^ 2 * v) := by
  have := h.prob
  have hc : Measurable fun x : ℝ => c * x := by fun_prop
  have e := meanVar_of_sq (μ := μ.map fun x => c * x) (m := c * m) (s := c ^ 2 * (v + m ^ 2))
    (Measure.isProbabilityMeasure_map hc.aemeasurable)
    ((integrable_map_measure (by fun_prop) hc.aemeasurable).2 (by
      simpa only [Function.comp_def, mul_pow] using h.memLp.integrable_sq.const_mul (c ^ 2)))
    (by rw [integral_map hc.aemeasurable (by fun_prop), integral_const_mul, h.mean])
    (by rw [integral_map hc.aemeasurable (by fun_prop)]; simp only [mul_pow]; rw [integral_const_mul, h.sq])
  convert e using 1
  ring

theorem meanVar_const (μ : Measure ℝ) [IsProbabilityMeasure μ] (c : ℝ) : MeanVar (μ.map fun _ => c) c 0 := by
  have hc : Measurable fun _ : ℝ => c := measurable_const
  have e := meanVar_of_sq (μ := μ.map fun _ => c) (m := c) (s := c ^ 2) (Measure.isProbabilityMeasure_map hc.aemeasurable)
    ((integrable_map_measure (by fun_prop) hc.aemeasurable).2 (integrable_const _))
    (by rw [integral_map hc.aemeasurable (by fun_prop)]; simp)
    (by rw [integral_map hc.aemeasurable (by fun_prop)]; simp)
  rwa [sub_self] at e

/-- as `mixes_cont`, for observations in `T` -/
theorem mixes_cont_on {post : Cont} {S T : Set ℝ} (hS : MeasurableSet S) (he : contLaw post = lawOn S post.pdf)
    (hd : IsDensity volume S post.pdf) {model : ℝ → Cont} (hm : Measurable fun q : ℝ × ℝ => (model q.1).pdf q.2)
    (h0 : ∀ θ ∈ S, ∀ x, 0 ≤ (model θ).pdf x) (hT : MeasurableSet T)
    (hmT : ∀ θ ∈ S, contLaw (model θ) = lawOn T (model θ).pdf) {pred : ℝ → ℝ} (hpred : Measurable pred)
    (hp : ∀ x ∈ T, IsPredictive volume S (fun θ => (model θ).pdf x) post.pdf (pred x)) :
    Mixes (lawOn T pred) (contLaw post) fun θ => contLaw (model θ) := by
  intro F hF
  have hFm : Measurable fun q : ℝ × ℝ => ENNReal.ofReal ((model q.1).pdf q.2) * F q.2 := by fun_prop
  have e1 : ∀ θ ∈ S, ∫⁻ x, F x ∂contLaw (model θ) = ∫⁻ x in T, ENNReal.ofReal ((model θ).pdf x) * F x := by
    intro θ hθ
    have hθ' : Measurable fun x => (model θ).pdf x := hm.comp (f := fun x : ℝ => (θ, x)) (by fun_prop)
    rw [hmT θ hθ, lawOn, lintegral_withDensity_eq_lintegral_mul _ hθ'.ennreal_ofReal hF]
    rfl
  have hS' : ∀ᵐ θ ∂contLaw post, θ ∈ S := by rw [he]; exact ae_lawOn_mem hS _
  rw [lintegral_congr_ae (hS'.mono e1), lawOn, lintegral_withDensity_eq_lintegral_mul _ hpred.ennreal_ofReal hF, he,
    lintegral_lawOn hd hFm.lintegral_prod_right]
  exact mixture_lintegral hS hd hm h0 ((ae_restrict_iff' hT).2 (Filter.Eventually.of_forall hp)) hF

/-- the mean in a normal model with random variance -/
theorem scaleMix_meanVar {g V : ℝ → ℝ} {m : ℝ} (hg : IsDensity volume (Ioi 0) g) (hV : ∀ y ∈ Ioi (0 : ℝ), 0 < V y)
    (hd : IsDensity volume (univ ×ˢ Ioi 0) (scaleMix g V m)) (hi : Integrable V (lawOn (Ioi 0) g)) :
    MeanVar ((lawOn (univ ×ˢ Ioi 0) (scaleMix g V m)).map Prod.fst) m (∫ y, V y ∂lawOn (Ioi 0) g) := by
  have hp := lawOn_prob measurableSet_Ioi hg
  have hmix : Mixes ((lawOn (univ ×ˢ Ioi 0) (scaleMix g V m)).map Prod.fst) (lawOn (Ioi 0) g)
      fun y => contLaw (Normal.dist ⟨m, √(V y)⟩) := by
    intro F hF
    rw [lintegral_map hF measurable_fst, scaleMix_lintegral hg hV hd (F := fun z => F z.1) (hF.comp measurable_fst)]
  have hS : ∀ᵐ y ∂lawOn (Ioi 0) g, y ∈ Ioi (0 : ℝ) := ae_lawOn_mem measurableSet_Ioi _
  have h := hmix.meanVar (g := fun _ => m) (w := V)
    (hS.mono fun y hy => by
      have := normal_meanVar m (Real.sqrt_pos.2 (hV y hy))
      rwa [Real.sq_sqrt (hV y hy).le] at this) measurable_const (meanVar_const _ m) hi
  rwa [zero_add] at h

end Conj
