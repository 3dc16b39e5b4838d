import Verif.Lemmas.PredictionUnique
import Verif.Props.Prediction

/-!
# C116: predictions that are not kept

`geometric_beta_predictive`, `poisson_gamma_predictive` for other than one interval, and `exponential_gamma_predictive`
after an update with the prior as documented.
-/

open MeasureTheory Set Real

namespace Conj

open Scipy Spec

variable {Ω : Type} [MeasurableSpace Ω] {P : Measure Ω} {n : ℕ}

theorem discLaw_singleton (d : Disc) (k : ℤ) : discLaw d {k} = ENNReal.ofReal (d.pmf k) := by
  rw [discLaw, withDensity_apply _ (measurableSet_singleton k)]
  simp

/-- the probability of a count, from its predictive probabilities -/
theorem kept_point {Θ A : Type} [MeasureSpace Θ] [SFinite (volume : Measure Θ)] [MeasurableSpace A] {S : Set Θ}
    {prior : Θ → ℝ} {ν : Fin n → Measure A} [∀ i, SigmaFinite (ν i)] {D : Fin n → Set A} {f : Fin n → Θ → A → ℝ}
    {post : (Fin n → A) → Θ → ℝ} {priorLaw : Measure Θ} {model : Fin n → Θ → Measure A}
    {postLaw : (Fin n → A) → Measure Θ} {θ : Ω → Θ} {X : Ω → Fin n → A} {Y : Ω → ℤ} {d : Θ → Disc}
    (hB : BayesModel S prior ν D f post priorLaw model postLaw)
    (h : DrawThenPredict P θ X Y priorLaw model fun t => discLaw (d t)) {k : ℤ}
    (hm : Measurable fun t => (d t).pmf k) (h0 : ∀ t ∈ S, 0 ≤ (d t).pmf k) {c : (Fin n → A) → ℝ}
    (hc : ∀ x, (∀ i, x i ∈ D i) → IsPredictive volume S (fun t => (d t).pmf k) (post x) (c x)) :
    P {ω | Y ω = k} = ∫⁻ ω, ENNReal.ofReal (c (X ω)) ∂P := by
  have hE : MeasurableSet {z : (Θ × (Fin n → A)) × ℤ | z.2 = k} := measurable_snd (measurableSet_singleton k)
  have hG : Measurable fun z : Θ × (Fin n → A) => ENNReal.ofReal ((d z.1).pmf k) :=
    (hm.comp measurable_fst).ennreal_ofReal
  have e2 : ∀ t, discLaw (d t) {y | y = k} = ENNReal.ofReal ((d t).pmf k) := fun t => discLaw_singleton _ k
  refine (h.law _ hE).trans ?_
  simp only [mem_ofPred_eq, e2]
  rw [hB.avg h.past hG]
  refine lintegral_congr_ae ?_
  filter_upwards [hB.ae_data h.past] with ω hω
  obtain ⟨hi, hv⟩ := hc _ hω
  rw [hB.post_law _ hω, lintegral_lawOn (hB.post_dens hω) hm.ennreal_ofReal, hv,
    ofReal_integral_eq_lintegral_ofReal hi]
  · refine setLIntegral_congr_fun hB.hS fun t ht => ?_
    beta_reduce
    rw [ENNReal.ofReal_mul (h0 t ht), mul_comm]
  · filter_upwards [ae_restrict_mem hB.hS] with t ht
    exact mul_nonneg (h0 t ht) ((hB.post_dens hω).1 t ht)

theorem measurable_geometric_pmf (one_start : Bool) (k : ℤ) :
    Measurable fun p : ℝ => (Geometric.dist ⟨p, one_start⟩).pmf k := by
  cases one_start <;> simp only [Geometric.dist, Disc.pmf, DiscFamily.pmf0] <;> split_ifs <;> fun_prop

section Geometric

variable (prior : Beta ℝ) (ha : 0 < prior.alpha) (hb : 0 < prior.beta) (one_start : Bool)
include ha hb

theorem geometric_beta_pos {x : Fin n → ℤ} (hx : ∀ i, x i ∈ Ici (if one_start then 1 else 0 : ℤ)) :
    0 < (geometric_beta (∑ i, (x i : ℝ)) (n : ℝ) prior one_start).alpha ∧
      0 < (geometric_beta (∑ i, (x i : ℝ)) (n : ℝ) prior one_start).beta := by
  have h1 : (n : ℝ) * (if one_start then 1 else 0) ≤ ∑ i, (x i : ℝ) := by
    have h2 : ∀ i ∈ Finset.univ, (if one_start then 1 else 0 : ℝ) ≤ (x i : ℝ) := fun i _ => by
      have := hx i
      simp only [mem_Ici] at this
      cases one_start
      · simp only [Bool.false_eq_true, if_false] at this ⊢
        exact_mod_cast this
      · simp only [if_true] at this ⊢
        exact_mod_cast this
    simpa using Finset.card_nsmul_le_sum _ _ _ h2
  cases one_start <;> simp [geometric_beta] at h1 ⊢ <;> constructor <;> linarith

/-- C116 (disagreement). What `geometric_beta_predictive` announces as the probability of `k` is the probability of
`k + 1`, in both conventions. -/
theorem C116_geometric_beta_shifted_partial {θ : Ω → ℝ} {X : Ω → Fin n → ℤ} {Y : Ω → ℤ}
    (h : DrawThenPredict P θ X Y (contLaw prior.dist) (fun _ p => discLaw (Geometric.dist ⟨p, one_start⟩))
      fun p => discLaw (Geometric.dist ⟨p, one_start⟩)) (k : ℕ) :
    P {ω | Y ω = (k + 1 : ℕ)} = ∫⁻ ω, ENNReal.ofReal ((geometric_beta_predictive
      (geometric_beta (∑ i, (X ω i : ℝ)) (n : ℝ) prior one_start) one_start).pmf k) ∂P :=
  kept_point (bayes_geometric prior ha hb one_start) h (measurable_geometric_pmf one_start _)
    (fun p hp => geometric_nonneg hp.1.le hp.2.le one_start _)
    (c := fun x => (geometric_beta_predictive
      (geometric_beta (∑ i, (x i : ℝ)) (n : ℝ) prior one_start) one_start).pmf k) fun x hx =>
    C26_geometric_beta_predictive_shifted_partial _ (geometric_beta_pos prior ha hb one_start hx).1
      (geometric_beta_pos prior ha hb one_start hx).2 one_start k

/-- C116 (disagreement). The announced probability of every value is too low. -/
theorem C116_geometric_beta_too_low {θ : Ω → ℝ} {X : Ω → Fin n → ℤ} {Y : Ω → ℤ}
    (h : DrawThenPredict P θ X Y (contLaw prior.dist) (fun _ p => discLaw (Geometric.dist ⟨p, one_start⟩))
      fun p => discLaw (Geometric.dist ⟨p, one_start⟩)) (k : ℕ) (hk : one_start = true → 1 ≤ k) :
    ∫⁻ ω, ENNReal.ofReal ((geometric_beta_predictive
      (geometric_beta (∑ i, (X ω i : ℝ)) (n : ℝ) prior one_start) one_start).pmf k) ∂P < P {ω | Y ω = k} := by
  have hB := bayes_geometric (n := n) prior ha hb one_start
  have := hB.prob h.past
  have hlt : ∀ d : Beta ℝ, 0 < d.alpha → 0 < d.beta → ∃ c, 0 ≤ (geometric_beta_predictive d one_start).pmf k ∧
      (geometric_beta_predictive d one_start).pmf k < c ∧
      IsPredictive volume (Ioo 0 1) (fun p => (Geometric.dist ⟨p, one_start⟩).pmf (k : ℤ)) d.dist.pdf c := by
    intro d h1 h2
    obtain ⟨m, hm, hm'⟩ : ∃ m : ℕ, (∀ p : ℝ, (Geometric.dist ⟨p, one_start⟩).pmf (k : ℤ) = (1 - p) ^ m * p) ∧
        (geometric_beta_predictive d one_start).pmf k = betaFn (d.alpha + 1) (d.beta + m + 1) / betaFn d.alpha d.beta := by
      cases one_start
      · refine ⟨k, fun p => by rw [Geometric.pmf_zero_start], ?_⟩
        simp only [geometric_beta_predictive, BetaGeometric.pmf, betaGeometricPmf]
        simp
        ring_nf
      · refine ⟨k - 1, fun p => by rw [Geometric.pmf_one_start _ k (hk rfl)], ?_⟩
        have : ((k - 1 : ℕ) : ℝ) = k - 1 := by rw [Nat.cast_sub (hk rfl)]; simp
        simp only [geometric_beta_predictive, BetaGeometric.pmf, betaGeometricPmf, this]
        simp
        ring_nf
    have hp : ∀ a b : ℝ, 0 < a → 0 < b → 0 < betaFn a b := fun a b ha hb => by
      have h1 := Real.Gamma_pos_of_pos ha
      have h2 := Real.Gamma_pos_of_pos hb
      have h3 := Real.Gamma_pos_of_pos (add_pos ha hb)
      simp only [betaFn]
      positivity
    have hbm : 0 < d.beta + m := by positivity
    refine ⟨betaFn (d.alpha + 1) (d.beta + m) / betaFn d.alpha d.beta, ?_, ?_, ?_⟩
    · rw [hm']
      exact (div_pos (hp _ _ (by linarith) (by linarith)) (hp _ _ h1 h2)).le
    · rw [hm', betaFn_succ_right (by linarith) hbm]
      have h3 := hp (d.alpha + 1) (d.beta + m) (by linarith) hbm
      refine (div_lt_div_iff_of_pos_right (hp _ _ h1 h2)).2 ?_
      have : (d.beta + m) / (d.alpha + 1 + (d.beta + m)) < 1 := by
        rw [div_lt_one (by linarith)]; linarith
      nlinarith
    · simp only [hm]
      exact geometric_predictive_true d h1 h2 m
  classical
  obtain ⟨c, hc⟩ : ∃ c : (Fin n → ℤ) → ℝ, ∀ x : Fin n → ℤ, (∀ i, x i ∈ Ici (if one_start then 1 else 0 : ℤ)) →
      0 ≤ (geometric_beta_predictive (geometric_beta (∑ i, (x i : ℝ)) (n : ℝ) prior one_start) one_start).pmf k ∧
      (geometric_beta_predictive (geometric_beta (∑ i, (x i : ℝ)) (n : ℝ) prior one_start) one_start).pmf k < c x ∧
      IsPredictive volume (Ioo 0 1) (fun p => (Geometric.dist ⟨p, one_start⟩).pmf (k : ℤ))
        (geometric_beta (∑ i, (x i : ℝ)) (n : ℝ) prior one_start).dist.pdf (c x) := by
    refine ⟨fun x => if hx : ∀ i, x i ∈ Ici (if one_start then 1 else 0 : ℤ) then
      (hlt _ (geometric_beta_pos prior ha hb one_start hx).1 (geometric_beta_pos prior ha hb one_start hx).2).choose
      else 0, fun x hx => ?_⟩
    simp only [dif_pos hx]
    exact (hlt _ (geometric_beta_pos prior ha hb one_start hx).1
      (geometric_beta_pos prior ha hb one_start hx).2).choose_spec
  rw [kept_point hB h (measurable_geometric_pmf one_start _)
    (fun p hp => geometric_nonneg hp.1.le hp.2.le one_start _) (c := c) fun x hx => (hc x hx).2.2]
  have hm : ∀ g : (Fin n → ℤ) → ENNReal, AEMeasurable (fun ω => g (X ω)) P := fun g =>
    ((measurable_of_countable g).comp h.past.measurable_data).aemeasurable
  refine lintegral_strict_mono (IsProbabilityMeasure.ne_zero P) (hm fun x => ENNReal.ofReal (c x)) ?_ ?_
  · rw [← C116_geometric_beta_shifted_partial prior ha hb one_start h k]
    exact measure_ne_top _ _
  · filter_upwards [hB.ae_data h.past] with ω hω
    obtain ⟨h1, h2, -⟩ := hc _ hω
    exact (ENNReal.ofReal_lt_ofReal_iff (h1.trans_lt h2)).2 h2

end Geometric

/-! ## Counts over other than one interval -/

section Poisson

/-- C116 (disagreement). After Poisson counts, the predictions of `poisson_gamma_predictive(posterior, n=w)` for the
count in a window of `w` intervals are kept exactly for `w = 1`. -/
theorem C116_poisson_gamma_iff (prior : Gamma ℝ) (ha : 0 < prior.alpha) (hb : 0 < prior.beta) (w : ℝ) (hw : 0 < w)
    {θ : Ω → ℝ} {X : Ω → Fin n → ℤ} {Y : Ω → ℤ}
    (h : DrawThenPredict P θ X Y (contLaw prior.dist) (fun _ l => discLaw (Poisson.dist ⟨l⟩))
      fun l => discLaw (Poisson.dist ⟨w * l⟩)) :
    PredictionsKept P X Y (fun x => discLaw (poisson_gamma_predictive
      (poisson_gamma (∑ i, (x i : ℝ)) (n : ℝ) prior) w).dist) ↔ w = 1 := by
  have hB := bayes_poisson (n := n) prior ha hb
  have := hB.prob h.past
  constructor
  · intro hk
    have ht := (poisson_gamma_kept prior ha hb hw (pred := fun d => NegativeBinomial.dist ⟨d.alpha, d.beta / (w + d.beta)⟩)
      (fun d h1 h2 k => poisson_predictive_true d h1 h2 w hw k) h).1
    have hall : ∀ᵐ ω ∂P, ∀ k : ℤ, _ := ae_all_iff.2 fun k : ℤ =>
      kept_ae_eq hk ht h.past.measurable_data (measurableSet_singleton k) (measurable_of_countable _)
        (measurable_of_countable _)
    obtain ⟨ω, hω, hD⟩ := (hall.and (hB.ae_data h.past)).exists
    obtain ⟨h1, h2⟩ := poisson_gamma_pos prior ha hb hD
    refine (C27_poisson_gamma_predictive_iff _ h1 h2 w hw).1 fun k => ?_
    have e := hω k
    rw [discLaw_singleton, discLaw_singleton, ENNReal.ofReal_eq_ofReal_iff] at e
    · rw [e]
      exact poisson_predictive_true _ h1 h2 w hw k
    · simp only [poisson_gamma_predictive, lit_real, Rat.cast_one]
      exact nb_nonneg _ _ (by positivity) (by positivity) (by rw [div_le_one (by positivity)]; linarith) _
    · exact nb_nonneg _ _ h1 (by positivity) (by rw [div_le_one (by positivity)]; linarith) _
  · rintro rfl
    exact (poisson_gamma_kept prior ha hb one_pos (pred := fun d => (poisson_gamma_predictive d 1).dist)
      (fun d h1 h2 => C27_poisson_gamma_predictive_partial d h1 h2) h).1

/-- C116 (disagreement). For a window of `w ≠ 1` intervals some limit `ppf(p)` computed as in docs/examples/limit.md
is kept with a probability below `p`, whatever the posterior; `pred k` is the predictive probability of `k`. -/
theorem C116_poisson_gamma_limit_broken (d : Gamma ℝ) (ha : 0 < d.alpha) (hb : 0 < d.beta) (w : ℝ) (hw : 0 < w)
    (hw1 : w ≠ 1) (pred : ℤ → ℝ)
    (hp : ∀ k, IsPredictive volume (Ioi 0) (fun l => (Poisson.dist ⟨w * l⟩).pmf k) d.dist.pdf (pred k)) :
    ∃ p, 0 < p ∧ p < 1 ∧
      intLaw pred (Iic (ppf (discRealLaw (poisson_gamma_predictive d w).dist) p)) < ENNReal.ofReal p := by
  by_contra hc
  push Not at hc
  obtain ⟨m, v, v', h1, h2, h3, -⟩ := C111_poisson_gamma_variance_iff d ha hb w hw pred hp
  have i1 := h1.prob
  have i2 := h2.prob
  have hpred : pred = (NegativeBinomial.dist ⟨d.alpha, d.beta / (w + d.beta)⟩).pmf := funext fun k => by
    rw [(hp k).2, (poisson_predictive_true d ha hb w hw k).2]
  have hnn : ∀ p : ℤ → ℝ, (∀ k < 0, p k = 0) → ∀ᵐ x ∂intLaw p, 0 ≤ x := fun p h0 => by
    have hm : Measurable fun k : ℤ => (k : ℝ) := measurable_of_countable _
    rw [intLaw, ae_map_iff hm.aemeasurable measurableSet_Ici, ae_withDensity_iff (measurable_of_countable _)]
    refine Filter.Eventually.of_forall fun k hk => ?_
    by_contra hlt
    exact hk (by rw [h0 k (by exact_mod_cast not_le.1 hlt), ENNReal.ofReal_zero])
  have e := eq_of_quantiles (μ := intLaw pred) (ν := discRealLaw (poisson_gamma_predictive d w).dist)
    (hnn pred fun k hk => by rw [hpred]; exact nb_neg _ _ k hk)
    (hnn (poisson_gamma_predictive d w).dist.pmf fun k hk => nb_neg _ _ k hk)
    (h2.memLp.integrable (by norm_num)) (h1.memLp.integrable (by norm_num)) (by rw [h1.mean, h2.mean]) hc
  have hv := h2.var
  rw [e, h1.var] at hv
  exact hw1 (h3.1 hv)

end Poisson

/-! ## Waiting times -/

section Exponential

theorem lomax_tail (d : Lomax ℝ) (ha : 0 < d.alpha) (hl : 0 < d.lam) {q : ℝ} (hq : 0 ≤ q) :
    lawOn (Ioi 0) d.dist.pdf (Ioi q) = ENNReal.ofReal (((d.lam + q) / d.lam) ^ (-d.alpha)) := by
  have hsub : Ioi q ∩ Ioi (0 : ℝ) = Ioi q := inter_eq_left.2 (Ioi_subset_Ioi hq)
  have hpos : ∀ x, q ≤ x → 0 < (d.lam + x) / d.lam := fun x hx => div_pos (by linarith) hl
  have hderiv : ∀ x ∈ Ici q, HasDerivAt (fun x => -((d.lam + x) / d.lam) ^ (-d.alpha)) (d.dist.pdf x) x := fun x hx => by
    rw [Lomax.pdf_eq d hl (hq.trans hx)]
    have h1 : HasDerivAt (fun x : ℝ => (d.lam + x) / d.lam) (1 / d.lam) x :=
      ((hasDerivAt_id x).const_add d.lam).div_const d.lam
    refine (h1.rpow_const (p := -d.alpha) (Or.inl (hpos x hx).ne')).neg.congr_deriv ?_
    rw [show -d.alpha - 1 = -(d.alpha + 1) by ring]
    ring
  have hlim : Filter.Tendsto (fun x => -((d.lam + x) / d.lam) ^ (-d.alpha)) Filter.atTop (nhds 0) := by
    rw [← neg_zero]
    refine Filter.Tendsto.neg ((tendsto_rpow_neg_atTop ha).comp ?_)
    exact (Filter.tendsto_atTop_add_const_left _ _ Filter.tendsto_id).atTop_div_const hl
  have hnn : ∀ x ∈ Ioi q, 0 ≤ d.dist.pdf x := fun x hx => by
    rw [Lomax.pdf_eq d hl (hq.trans (le_of_lt hx))]
    exact mul_nonneg (by positivity) (rpow_nonneg (hpos x (le_of_lt hx)).le _)
  have hint := integrableOn_Ioi_deriv_of_nonneg' hderiv hnn hlim
  have hI := integral_Ioi_of_hasDerivAt_of_tendsto' hderiv hint hlim
  rw [lawOn, withDensity_apply _ measurableSet_Ioi, Measure.restrict_restrict measurableSet_Ioi, hsub,
    ← ofReal_integral_eq_lintegral_ofReal hint (by
      filter_upwards [ae_restrict_mem measurableSet_Ioi] with x hx using hnn x hx), hI]
  simp

theorem lomax_tail_lt {s s' l l' q : ℝ} (hs' : 0 < s') (hss : s' < s) (hl : 0 < l) (hll : l < l') (hq : 0 < q) :
    ((l + q) / l) ^ (-s) < ((l' + q) / l') ^ (-s') := by
  have hl' : 0 < l' := hl.trans hll
  have h1 : 1 < (l' + q) / l' := by rw [one_lt_div hl']; linarith
  have h2 : (l' + q) / l' < (l + q) / l := by
    rw [div_lt_div_iff₀ hl' hl]
    nlinarith
  calc ((l + q) / l) ^ (-s) < ((l + q) / l) ^ (-s') :=
        rpow_lt_rpow_of_exponent_lt (h1.trans h2) (by linarith)
    _ < ((l' + q) / l') ^ (-s') := rpow_lt_rpow_of_neg (by linarith) h2 (by linarith)

variable (prior : Gamma ℝ) (ha : 0 < prior.alpha) (hb : 0 < prior.beta)
include ha hb

/-- C116 (disagreement). After exponential waiting times, with the prior as documented: the announced probability of
waiting longer than `q` is below the true one if `alpha < beta`, and above it if `beta < alpha`; for every `q > 0`. -/
theorem C116_exponential_gamma_waiting {θ : Ω → ℝ} {X : Ω → Fin n → ℝ} {Y : Ω → ℝ}
    (h : DrawThenPredict P θ X Y (contLaw prior.dist) (fun _ r => contLaw (Exponential.dist ⟨1 / r⟩))
      fun r => contLaw (Exponential.dist ⟨1 / r⟩)) (q : ℝ) (hq : 0 < q) :
    (prior.alpha < prior.beta → ∫⁻ ω, lawOn (Ioi 0) (exponential_gamma_predictive
      (exponential_gamma (∑ i, X ω i) (n : ℝ) prior)).dist.pdf (Ioi q) ∂P < P {ω | q < Y ω}) ∧
    (prior.beta < prior.alpha → P {ω | q < Y ω} < ∫⁻ ω, lawOn (Ioi 0) (exponential_gamma_predictive
      (exponential_gamma (∑ i, X ω i) (n : ℝ) prior)).dist.pdf (Ioi q) ∂P) := by
  have hB := bayes_exponential (n := n) prior ha hb
  have := hB.prob h.past
  have hk := (exponential_kept prior ha hb h).1 (fun _ => Ioi q) (measurable_fst measurableSet_Ioi)
  have hY : P {ω | q < Y ω} = _ := hk
  have e : ∀ x : Fin n → ℝ, exponential_gamma_predictive (exponential_gamma (∑ i, x i) (n : ℝ) prior) =
      ⟨prior.beta + n, prior.alpha + ∑ i, x i⟩ := fun x => rfl
  have hs : ∀ x : Fin n → ℝ, (∀ i, x i ∈ Ioi (0 : ℝ)) → 0 ≤ ∑ i, x i := fun x hx =>
    Finset.sum_nonneg fun i _ => le_of_lt (hx i)
  have et : ∀ᵐ ω ∂P, lawOn (Ioi 0) (Lomax.dist ⟨prior.alpha + n, prior.beta + ∑ i, X ω i⟩).pdf (Ioi q) =
      ENNReal.ofReal (((prior.beta + ∑ i, X ω i + q) / (prior.beta + ∑ i, X ω i)) ^ (-(prior.alpha + n))) := by
    filter_upwards [hB.ae_data h.past] with ω hω
    have := hs _ hω
    exact lomax_tail ⟨_, _⟩ (by simp only; positivity) (by simp only; positivity) hq.le
  have ec : ∀ᵐ ω ∂P, lawOn (Ioi 0) (exponential_gamma_predictive
      (exponential_gamma (∑ i, X ω i) (n : ℝ) prior)).dist.pdf (Ioi q) =
      ENNReal.ofReal (((prior.alpha + ∑ i, X ω i + q) / (prior.alpha + ∑ i, X ω i)) ^ (-(prior.beta + n))) := by
    filter_upwards [hB.ae_data h.past] with ω hω
    have := hs _ hω
    rw [e]
    exact lomax_tail ⟨_, _⟩ (by simp only; positivity) (by simp only; positivity) hq.le
  rw [hY, lintegral_congr_ae et, lintegral_congr_ae ec]
  have hm : ∀ a b : ℝ, Measurable fun ω =>
      ENNReal.ofReal (((a + ∑ i, X ω i + q) / (a + ∑ i, X ω i)) ^ (-(b + n))) := fun a b => by
    have := h.past.measurable_data
    have hsum : Measurable fun ω => ∑ i, X ω i :=
      Finset.measurable_sum _ fun i _ => (measurable_pi_apply i).comp this
    fun_prop
  have hfin : ∀ a b : ℝ, 0 < a → 0 < b →
      ∫⁻ ω, ENNReal.ofReal (((a + ∑ i, X ω i + q) / (a + ∑ i, X ω i)) ^ (-(b + n))) ∂P ≠ ⊤ := fun a b h1 h2 => by
    refine ((lintegral_mono_ae (g := fun _ => 1) ?_).trans_lt (by simp)).ne
    filter_upwards [hB.ae_data h.past] with ω hω
    have := hs _ hω
    rw [ENNReal.ofReal_le_one]
    refine rpow_le_one_of_one_le_of_nonpos ?_ (by have : (0 : ℝ) ≤ n := by positivity
                                                  linarith)
    rw [one_le_div (by linarith)]
    linarith
  have hlt : ∀ a b : ℝ, 0 < a → a < b →
      ∫⁻ ω, ENNReal.ofReal (((a + ∑ i, X ω i + q) / (a + ∑ i, X ω i)) ^ (-(b + n))) ∂P <
      ∫⁻ ω, ENNReal.ofReal (((b + ∑ i, X ω i + q) / (b + ∑ i, X ω i)) ^ (-(a + n))) ∂P := fun a b h0 hab => by
    refine lintegral_strict_mono (IsProbabilityMeasure.ne_zero P) (hm b a).aemeasurable
      (hfin a b h0 (h0.trans hab)) ?_
    filter_upwards [hB.ae_data h.past] with ω hω
    have := hs _ hω
    have hn : (0 : ℝ) ≤ n := by positivity
    refine (ENNReal.ofReal_lt_ofReal_iff (rpow_pos_of_pos (div_pos (by linarith) (by linarith)) _)).2 ?_
    exact lomax_tail_lt (by linarith) (by linarith) (by linarith) (by linarith) hq
  exact ⟨hlt _ _ ha, hlt _ _ hb⟩

/-- C116 (disagreement). With the prior as documented, predictions of waiting times are kept exactly when the prior's
two parameters are equal. -/
theorem C116_exponential_gamma_iff {θ : Ω → ℝ} {X : Ω → Fin n → ℝ} {Y : Ω → ℝ}
    (h : DrawThenPredict P θ X Y (contLaw prior.dist) (fun _ r => contLaw (Exponential.dist ⟨1 / r⟩))
      fun r => contLaw (Exponential.dist ⟨1 / r⟩)) :
    PredictionsKept P X Y (fun x => lawOn (Ioi 0) (exponential_gamma_predictive
      (exponential_gamma (∑ i, x i) (n : ℝ) prior)).dist.pdf) ↔ prior.alpha = prior.beta := by
  constructor
  · intro hk
    have hq : P {ω | 1 < Y ω} = _ := hk (fun _ => Ioi 1) (measurable_fst measurableSet_Ioi)
    obtain ⟨h1, h2⟩ := C116_exponential_gamma_waiting prior ha hb h 1 one_pos
    rcases lt_trichotomy prior.alpha prior.beta with hlt | heq | hgt
    · exact absurd hq (h1 hlt).ne'
    · exact heq
    · exact absurd hq (h2 hgt).ne
  · intro he
    have e : prior = ⟨prior.beta, prior.alpha⟩ := by
      cases prior
      simp_all
    conv in exponential_gamma _ _ prior => rw [e]
    exact (C116_exponential_gamma_swapped_partial prior ha hb h).1

end Exponential

end Conj
