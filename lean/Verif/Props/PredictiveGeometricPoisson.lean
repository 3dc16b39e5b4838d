import Verif.Props.PredictiveScalar
import Mathlib.Analysis.Convex.SpecificFunctions.Basic

/-!
# Geometric and Poisson predictives (C26, C27), normalisation of the hand-written
distributions (C55)

C26, C27 and the BetaGeometric half of C55 are false of the code.
-/

open MeasureTheory Set Real Filter Topology

namespace Conj

open Scipy Spec

/-! ## C26 -/

/-- Full statement of C26 at one point `k` of the support. -/
def C26_statement (d : Beta ℝ) (one_start : Bool) (k : ℕ) : Prop :=
  IsPredictive volume (Ioo 0 1)
    (fun p => (Geometric.dist { p := p, one_start := one_start }).pmf k) d.dist.pdf
    ((geometric_beta_predictive d one_start).pmf k)

/-- the true predictive pmf with `m` failures before the first success -/
theorem geometric_predictive_true (d : Beta ℝ) (ha : 0 < d.alpha) (hb : 0 < d.beta) (m : ℕ) :
    IsPredictive volume (Ioo 0 1) (fun p => (1 - p) ^ m * p) d.dist.pdf
      (betaFn (d.alpha + 1) (d.beta + m) / betaFn d.alpha d.beta) := by
  have h := beta_kernel d ⟨d.alpha + 1, d.beta + m⟩ ⟨ha, hb⟩
      ⟨by simp only; positivity, by simp only; positivity⟩ (u := 1) (v := m)
      (f := fun p => (1 - p) ^ m * p) (C := 1)
      (fun p hp => by rw [rpow_natCast, rpow_one]; ring) rfl rfl
  rw [one_mul] at h
  exact IsPredictive.of_density measurableSet_Ioo
    (Beta.isDensity ⟨d.alpha + 1, d.beta + m⟩ (by simp only; positivity)
      (by simp only; positivity)) (fun p hp => by rw [mul_comm]; exact h p hp)

/-- C26. What the code's pmf at `k` is: the predictive probability of `k + 1`, in both
conventions. Missing: the probability of `k` itself. -/
theorem C26_geometric_beta_predictive_shifted_partial (d : Beta ℝ) (ha : 0 < d.alpha)
    (hb : 0 < d.beta) (one_start : Bool) (k : ℕ) :
    IsPredictive volume (Ioo 0 1)
      (fun p => (Geometric.dist { p := p, one_start := one_start }).pmf ((k + 1 : ℕ) : ℤ))
      d.dist.pdf ((geometric_beta_predictive d one_start).pmf k) := by
  cases one_start
  · have h := geometric_predictive_true d ha hb (k + 1)
    simp only [Geometric.pmf_zero_start]
    simp only [geometric_beta_predictive, BetaGeometric.pmf, betaGeometricPmf]
    convert h using 2
    simp
    ring_nf
  · have h := geometric_predictive_true d ha hb k
    simp only [Geometric.pmf_one_start _ (k + 1) (by simp), Nat.add_sub_cancel]
    simp only [geometric_beta_predictive, BetaGeometric.pmf, betaGeometricPmf]
    convert h using 2
    simp
    ring_nf

theorem betaFn_succ_right {a b : ℝ} (ha : 0 < a) (hb : 0 < b) :
    betaFn a (b + 1) = betaFn a b * (b / (a + b)) := by
  simp only [betaFn]
  rw [Real.Gamma_add_one hb.ne', ← add_assoc, Real.Gamma_add_one (add_pos ha hb).ne']
  have := Real.Gamma_pos_of_pos (add_pos ha hb)
  field_simp

theorem betaFn_succ_left {a b : ℝ} (ha : 0 < a) (hb : 0 < b) :
    betaFn (a + 1) b = betaFn a b * (a / (a + b)) := by
  simp only [betaFn]
  rw [Real.Gamma_add_one ha.ne', show a + 1 + b = a + b + 1 by ring,
    Real.Gamma_add_one (add_pos ha hb).ne']
  have := Real.Gamma_pos_of_pos (add_pos ha hb)
  field_simp

/-- C26 (disagreement). The predictive is wrong at every point of the support, for every
Beta distribution and in both conventions. -/
theorem C26_geometric_beta_predictive_false (d : Beta ℝ) (ha : 0 < d.alpha) (hb : 0 < d.beta)
    (one_start : Bool) (k : ℕ) (hk : one_start = true → 1 ≤ k) :
    ¬ C26_statement d one_start k := by
  intro h
  have h1 := h.2
  have main : ∀ m : ℕ, betaFn (d.alpha + 1) (d.beta + m + 1) / betaFn d.alpha d.beta ≠
      betaFn (d.alpha + 1) (d.beta + m) / betaFn d.alpha d.beta := by
    intro m e
    have hB := betaFn_pos ha hb
    have hm : 0 < betaFn (d.alpha + 1) (d.beta + m) := betaFn_pos (by positivity) (by positivity)
    rw [div_left_inj' hB.ne', betaFn_succ_right (by positivity) (by positivity)] at e
    have : (d.beta + m) / (d.alpha + 1 + (d.beta + m)) = 1 := by
      rw [mul_eq_left₀ hm.ne'] at e; exact e
    rw [div_eq_one_iff_eq (by positivity)] at this
    linarith
  cases one_start
  · have ht := (geometric_predictive_true d ha hb k).2
    simp only [Geometric.pmf_zero_start] at h1
    rw [← ht] at h1
    simp only [geometric_beta_predictive, BetaGeometric.pmf, betaGeometricPmf] at h1
    refine main k (Eq.trans ?_ h1)
    congr 2
    simp
    ring
  · obtain ⟨m, rfl⟩ := Nat.exists_eq_add_of_le' (hk rfl)
    have ht := (geometric_predictive_true d ha hb m).2
    simp only [Geometric.pmf_one_start _ (m + 1) (by simp), Nat.add_sub_cancel] at h1
    rw [← ht] at h1
    simp only [geometric_beta_predictive, BetaGeometric.pmf, betaGeometricPmf] at h1
    refine main m (Eq.trans ?_ h1)
    congr 2
    simp
    ring

example := C26_geometric_beta_predictive_false ⟨2, 3⟩ (by norm_num) (by norm_num) true 4 (by simp)
example := C26_geometric_beta_predictive_shifted_partial ⟨2, 3⟩ (by norm_num) (by norm_num) true 4

/-! ## C55 -/

/-- averaging densities over a density gives a density -/
theorem isDensity_mixture {A B : Type*} [MeasurableSpace A] [MeasurableSpace B] {μ : Measure A}
    {ν : Measure B} [SFinite μ] [SFinite ν] {S : Set A} {T : Set B} (hS : MeasurableSet S)
    (hT : MeasurableSet T) {g : B → ℝ} {h : A → B → ℝ} {m : A → ℝ} (hg : IsDensity ν T g)
    (hh : ∀ b ∈ T, IsDensity μ S (fun a => h a b))
    (hm : AEStronglyMeasurable (fun p : A × B => g p.2 * h p.1 p.2)
      ((μ.prod ν).restrict (S ×ˢ T)))
    (hpred : ∀ a ∈ S, IsPredictive ν T (fun b => h a b) g (m a)) : IsDensity μ S m := by
  have hd := isDensity_prod hS hT hg hh hm
  have hr : (μ.prod ν).restrict (S ×ˢ T) = (μ.restrict S).prod (ν.restrict T) :=
    (Measure.prod_restrict S T).symm
  have hint := hd.2.1
  rw [IntegrableOn, hr] at hint
  have h1 := hd.2.2
  rw [hr, integral_prod _ hint] at h1
  apply isDensity_of_integral
  · intro a ha
    rw [(hpred a ha).2]
    apply setIntegral_nonneg hT
    intro b hb
    exact mul_nonneg ((hh b hb).1 a ha) (hg.1 b hb)
  · rw [← h1]
    apply setIntegral_congr_fun hS
    intro a ha
    simp only
    rw [(hpred a ha).2]
    apply setIntegral_congr_fun hT
    intro b _
    simp only
    ring

/-- C55. The compound-gamma density integrates to one. -/
theorem C55_compound_gamma_normalised (d : CompoundGamma ℝ) (ha : 0 < d.alpha) (hb : 0 < d.beta)
    (hl : 0 < d.lam) : IsDensity volume (Ioi 0) d.pdf := by
  have hg := Gamma.isDensity ⟨d.beta, d.lam⟩ hb hl
  refine isDensity_mixture (h := fun x rate => (Gamma.dist ⟨d.alpha, rate⟩).pdf x)
    measurableSet_Ioi measurableSet_Ioi hg
    (fun rate hr => Gamma.isDensity ⟨d.alpha, rate⟩ ha hr) ?_
    (fun x hx => C29_gamma_known_shape_predictive d.alpha ha ⟨d.beta, d.lam⟩ hb hl x hx)
  have hmeas : Measurable (fun p : ℝ × ℝ =>
      (d.lam ^ d.beta / Real.Gamma d.beta * p.2 ^ (d.beta - 1) * exp (-(d.lam * p.2))) *
      (p.2 ^ d.alpha / Real.Gamma d.alpha * p.1 ^ (d.alpha - 1) * exp (-(p.2 * p.1)))) := by
    fun_prop
  refine hmeas.aestronglyMeasurable.congr ?_
  filter_upwards [ae_restrict_mem (measurableSet_Ioi.prod measurableSet_Ioi)] with p hp
  have hp1 : 0 < p.1 := hp.1
  have hp2 : 0 < p.2 := hp.2
  rw [Gamma.pdf_eq ⟨d.beta, d.lam⟩ hl hp2, Gamma.pdf_eq ⟨d.alpha, p.2⟩ hp2 hp1]

/-- moments of `1 - p` under a Beta vanish in the limit -/
theorem tendsto_betaFn_ratio (a b : ℝ) (ha : 0 < a) (hb : 0 < b) :
    Tendsto (fun n : ℕ => betaFn a (b + n) / betaFn a b) atTop (𝓝 0) := by
  have hd := Beta.isDensity ⟨a, b⟩ ha hb
  have e : ∀ n : ℕ, betaFn a (b + n) / betaFn a b =
      ∫ p in Ioo (0 : ℝ) 1, (1 - p) ^ n * (Beta.dist ⟨a, b⟩).pdf p := by
    intro n
    have h := beta_kernel ⟨a, b⟩ ⟨a, b + n⟩ ⟨ha, hb⟩
      ⟨ha, by simp only; positivity⟩ (u := 0) (v := n)
      (f := fun p => (1 - p) ^ n) (C := 1)
      (fun p hp => by rw [rpow_natCast, rpow_zero]; ring) (by simp) rfl
    rw [one_mul] at h
    exact (IsPredictive.of_density measurableSet_Ioo
      (Beta.isDensity ⟨a, b + n⟩ ha (by simp only; positivity))
      (fun p hp => by rw [mul_comm]; exact h p hp)).2
  simp_rw [e]
  suffices key : Tendsto (fun n : ℕ => ∫ p in Ioo (0 : ℝ) 1, (1 - p) ^ n *
      (Beta.dist ⟨a, b⟩).pdf p) atTop (𝓝 (∫ _ in Ioo (0 : ℝ) 1, (0 : ℝ))) by simpa using key
  refine tendsto_integral_of_dominated_convergence (μ := volume.restrict (Ioo (0 : ℝ) 1))
    (F := fun (n : ℕ) (p : ℝ) => (1 - p) ^ n * (Beta.dist ⟨a, b⟩).pdf p)
    (fun p => (Beta.dist ⟨a, b⟩).pdf p) ?_ hd.2.1 ?_ ?_
  · intro n
    exact ((measurable_const.sub measurable_id).pow_const n).aestronglyMeasurable.mul
      hd.2.1.aestronglyMeasurable
  · intro n
    filter_upwards [ae_restrict_mem measurableSet_Ioo] with p hp
    have hp0 := hd.1 p hp
    have h1 : 0 ≤ (1 - p) ^ n := pow_nonneg (sub_nonneg.2 hp.2.le) n
    rw [Real.norm_of_nonneg (mul_nonneg h1 hp0)]
    have h2 : (1 - p) ^ n ≤ 1 := pow_le_one₀ (sub_nonneg.2 hp.2.le) (by linarith [hp.1])
    exact mul_le_of_le_one_left hp0 h2
  · filter_upwards [ae_restrict_mem measurableSet_Ioo] with p hp
    have := (tendsto_pow_atTop_nhds_zero_of_lt_one (sub_nonneg.2 hp.2.le)
      (by linarith [hp.1] : 1 - p < 1)).mul_const ((Beta.dist ⟨a, b⟩).pdf p)
    rwa [zero_mul] at this

theorem hasSum_betaFn (a b : ℝ) (ha : 0 < a) (hb : 0 < b) :
    HasSum (fun n : ℕ => betaFn (a + 1) (b + n) / betaFn a b) 1 := by
  have e : ∀ n : ℕ, betaFn (a + 1) (b + n) / betaFn a b =
      betaFn a (b + n) / betaFn a b - betaFn a (b + (n + 1 : ℕ)) / betaFn a b := by
    intro n
    rw [betaFn_succ_left ha (by positivity)]
    push_cast
    rw [← add_assoc b, betaFn_succ_right ha (by positivity)]
    have := betaFn_pos ha hb
    field_simp
    ring
  rw [hasSum_iff_tendsto_nat_of_nonneg]
  · have hs : ∀ n : ℕ, ∑ i ∈ Finset.range n, betaFn (a + 1) (b + i) / betaFn a b =
        1 - betaFn a (b + n) / betaFn a b := by
      intro n
      simp_rw [e]
      rw [Finset.sum_range_sub' (fun i : ℕ => betaFn a (b + i) / betaFn a b)]
      have := betaFn_pos ha hb
      simp [this.ne']
    simp_rw [hs]
    simpa using (tendsto_betaFn_ratio a b ha hb).const_sub 1
  · intro n
    have h1 := betaFn_pos ha hb
    have h2 : 0 < betaFn (a + 1) (b + n) := betaFn_pos (by positivity) (by positivity)
    positivity

/-- C55 (disagreement). The pmf of `BetaGeometric.dist` sums over its support (from 1, or
from 0) to `beta / (alpha + beta)`, not to 1. -/
theorem C55_beta_geometric_total (d : BetaGeometric ℝ) (ha : 0 < d.alpha) (hb : 0 < d.beta) :
    HasSum (fun n : ℕ => d.pmf (if d.one_start then (n : ℝ) + 1 else n))
      (d.beta / (d.alpha + d.beta)) := by
  have h := hasSum_betaFn d.alpha (d.beta + 1) ha (by positivity)
  have hB := betaFn_pos ha hb
  have h2 := h.mul_right (betaFn d.alpha (d.beta + 1) / betaFn d.alpha d.beta)
  have h3 : 0 < betaFn d.alpha (d.beta + 1) := betaFn_pos ha (by positivity)
  have e1 : (1 : ℝ) * (betaFn d.alpha (d.beta + 1) / betaFn d.alpha d.beta) =
      d.beta / (d.alpha + d.beta) := by
    rw [betaFn_succ_right ha hb]; field_simp
  rw [e1] at h2
  refine (congrArg (HasSum · (d.beta / (d.alpha + d.beta))) (funext fun n : ℕ => ?_)).mpr h2
  have : betaFn (d.alpha + 1) (d.beta + 1 + n) / betaFn d.alpha (d.beta + 1) *
      (betaFn d.alpha (d.beta + 1) / betaFn d.alpha d.beta) =
      betaFn (d.alpha + 1) (d.beta + 1 + n) / betaFn d.alpha d.beta := by
    field_simp
  rw [this]
  simp only [BetaGeometric.pmf, betaGeometricPmf]
  cases d.one_start <;> simp <;> ring_nf

/-- C55 (disagreement). So it is never normalised. -/
theorem C55_beta_geometric_not_normalised (d : BetaGeometric ℝ) (ha : 0 < d.alpha)
    (hb : 0 < d.beta) :
    ¬ HasSum (fun n : ℕ => d.pmf (if d.one_start then (n : ℝ) + 1 else n)) 1 := by
  intro h
  have := h.unique (C55_beta_geometric_total d ha hb)
  rw [eq_div_iff (by positivity)] at this
  linarith

/-- C55: one shift to the left the values do sum to one. Missing: the values as given. -/
theorem C55_beta_geometric_shifted_partial (d : BetaGeometric ℝ) (ha : 0 < d.alpha)
    (hb : 0 < d.beta) :
    HasSum (fun n : ℕ => d.pmf (if d.one_start then (n : ℝ) else n - 1)) 1 := by
  convert hasSum_betaFn d.alpha d.beta ha hb using 2 with n
  simp only [BetaGeometric.pmf, betaGeometricPmf]
  cases d.one_start <;> simp <;> ring_nf

example := C55_compound_gamma_normalised ⟨2, 3, 4⟩ (by norm_num) (by norm_num) (by norm_num)
example := C55_beta_geometric_not_normalised ⟨2, 3, true⟩ (by norm_num) (by norm_num)

/-! ## C27 -/

/-- Full statement of C27: a Poisson count over `n` intervals, the rate per interval having
the Gamma distribution `d`. -/
def C27_statement (d : Gamma ℝ) (n : ℝ) : Prop := ∀ k : ℤ,
  IsPredictive volume (Ioi 0) (fun l => (Poisson.dist { lam := n * l }).pmf k) d.dist.pdf
    ((poisson_gamma_predictive d n).dist.pmf k)

/-- the true predictive: negative binomial with `p = beta / (n + beta)` -/
theorem poisson_predictive_true (d : Gamma ℝ) (ha : 0 < d.alpha) (hb : 0 < d.beta) (n : ℝ)
    (hn : 0 < n) (k : ℤ) :
    IsPredictive volume (Ioi 0) (fun l => (Poisson.dist { lam := n * l }).pmf k) d.dist.pdf
      ((NegativeBinomial.dist { n := d.alpha, p := d.beta / (n + d.beta) }).pmf k) := by
  by_cases hk : 0 ≤ k
  · obtain ⟨m, rfl⟩ := Int.eq_ofNat_of_zero_le hk
    have h := gamma_kernel d ⟨d.alpha + m, d.beta + n⟩ ⟨ha, hb⟩
      ⟨by simp only; positivity, by simp only; positivity⟩ (u := m) (v := n)
      (f := fun l => (Poisson.dist { lam := n * l }).pmf (m : ℤ)) (C := n ^ m / m.factorial)
      (fun l hl => by rw [Poisson.pmf_nat, rpow_natCast, mul_pow]; ring) rfl rfl
    have hc : n ^ m / (m.factorial : ℝ) * gammaConst d.alpha d.beta /
        gammaConst (d.alpha + m) (d.beta + n) =
        (NegativeBinomial.dist { n := d.alpha, p := d.beta / (n + d.beta) }).pmf (m : ℤ) := by
      rw [NegativeBinomial.pmf_nat]
      have e1 : (m : ℝ) + d.alpha - 1 + 1 = d.alpha + m := by ring
      have e2 : (m : ℝ) + d.alpha - 1 - m + 1 = d.alpha := by ring
      simp only [choose, gammaConst]
      rw [e1, e2, Real.Gamma_nat_eq_factorial]
      have e3 : 1 - d.beta / (n + d.beta) = n / (d.beta + n) := by field_simp; ring
      have hbn : 0 < d.beta + n := by positivity
      rw [e3, add_comm n d.beta, div_rpow hb.le hbn.le, rpow_add hbn, rpow_natCast, div_pow]
      have g1 := Real.Gamma_pos_of_pos ha
      have g2 : 0 < Real.Gamma (d.alpha + m) := Real.Gamma_pos_of_pos (by positivity)
      have p1 := rpow_pos_of_pos hb d.alpha
      have p2 := rpow_pos_of_pos hbn d.alpha
      field_simp
    change IsPredictive _ _ _ _
      ((NegativeBinomial.dist { n := d.alpha, p := d.beta / (n + d.beta) }).pmf (m : ℤ))
    rw [← hc]
    exact IsPredictive.of_density measurableSet_Ioi
      (Gamma.isDensity ⟨d.alpha + m, d.beta + n⟩ (by simp only; positivity)
        (by simp only; positivity)) (fun p hp => by rw [mul_comm]; exact h p hp)
  · have : (NegativeBinomial.dist { n := d.alpha, p := d.beta / (n + d.beta) }).pmf k = 0 := by
      simp only [NegativeBinomial.dist, Disc.pmf, DiscFamily.pmf0, sub_zero]
      rw [if_neg hk]
    rw [this]
    apply IsPredictive.zero
    intro p
    simp only [Poisson.dist, Disc.pmf, DiscFamily.pmf0, sub_zero]
    rw [if_neg hk]

/-- C27 with the default `n = 1` (one interval). Missing: `n ≠ 1`, where the code is wrong. -/
theorem C27_poisson_gamma_predictive_partial (d : Gamma ℝ) (ha : 0 < d.alpha) (hb : 0 < d.beta) :
    C27_statement d 1 := by
  intro k
  have h := poisson_predictive_true d ha hb 1 one_pos k
  simpa [poisson_gamma_predictive] using h

/-- C27 (disagreement). For `n > 0` intervals the code is right exactly when `n = 1`. -/
theorem C27_poisson_gamma_predictive_iff (d : Gamma ℝ) (ha : 0 < d.alpha) (hb : 0 < d.beta)
    (n : ℝ) (hn : 0 < n) : C27_statement d n ↔ n = 1 := by
  constructor
  · intro h
    have h0 := (h 0).2
    rw [← (poisson_predictive_true d ha hb n hn 0).2] at h0
    have z : (0 : ℤ) = ((0 : ℕ) : ℤ) := rfl
    simp only [poisson_gamma_predictive, lit_real, Rat.cast_one] at h0
    rw [z, NegativeBinomial.pmf_nat, NegativeBinomial.pmf_nat] at h0
    have c : ∀ r : ℝ, 0 < r → choose (((0 : ℕ) : ℝ) + r - 1) ((0 : ℕ) : ℝ) = 1 := by
      intro r hr
      have := Real.Gamma_pos_of_pos hr
      simp [choose, this.ne']
    rw [c _ (by positivity), c _ ha] at h0
    simp only [one_mul, pow_zero, mul_one] at h0
    rw [rpow_mul (by positivity)] at h0
    have h1 := (Real.rpow_left_inj (by positivity) (by positivity) ha.ne').1 h0
    -- (b / (1 + b)) ^ n = b / (n + b)
    have h2 : (1 + 1 / d.beta) ^ n = 1 + n * (1 / d.beta) := by
      have e1 : 1 + 1 / d.beta = (d.beta / (1 + d.beta))⁻¹ := by field_simp; ring
      rw [e1, inv_rpow (by positivity), h1]
      field_simp
      ring
    have hp : (0 : ℝ) < 1 / d.beta := by positivity
    rcases lt_trichotomy n 1 with hlt | heq | hgt
    · have := rpow_one_add_lt_one_add_mul_self (s := 1 / d.beta) (by linarith) hp.ne' hn hlt
      linarith
    · exact heq
    · have := one_add_mul_self_lt_rpow_one_add (s := 1 / d.beta) (by linarith) hp.ne' hgt
      linarith
  · rintro rfl
    exact C27_poisson_gamma_predictive_partial d ha hb

example : ¬ C27_statement ⟨1, 1⟩ 7 := by
  rw [C27_poisson_gamma_predictive_iff ⟨1, 1⟩ (by norm_num) (by norm_num) 7 (by norm_num)]
  norm_num
example := C27_poisson_gamma_predictive_partial ⟨2, 3⟩ (by norm_num) (by norm_num)

end Conj
