import Verif.Lemmas.ConcentrationJoint
import Verif.Props.Dirichlet
import Verif.Props.Consistency
import Mathlib.Data.Nat.Choose.Multinomial

/-!
# Learning the true parameter (C88): categorical and multinomial data
-/

open MeasureTheory Set Filter Topology

namespace Conj

open Scipy Spec

variable {Ω : Type} [MeasurableSpace Ω] {Q : Measure Ω} {k : ℕ}

/-! ## Laws on countable sets -/

section
variable {A : Type} [MeasurableSpace A] [Countable A] [MeasurableSingletonClass A] {p : A → ℝ}

theorem pmf_expect (h0 : ∀ a, 0 ≤ p a) {T : A → ℝ} (hT : ∀ a, 0 ≤ T a) {m : ℝ} (h : HasSum (fun a => p a * T a) m) :
    Integrable T (pmfLaw p) ∧ ∫ a, T a ∂pmfLaw p = m := by
  have hn : ∀ a, 0 ≤ p a * T a := fun a => mul_nonneg (h0 a) (hT a)
  have hm : Measurable fun a => Real.toNNReal (p a) := measurable_of_countable _
  have e : pmfLaw p = Measure.count.withDensity fun a => ((Real.toNNReal (p a) : NNReal) : ENNReal) := rfl
  have hs : ∀ a, Real.toNNReal (p a) • T a = p a * T a := fun a => by
    rw [NNReal.smul_def, Real.coe_toNNReal _ (h0 a), smul_eq_mul]
  have hi : Integrable (fun a => p a * T a) Measure.count := by
    rw [integrable_count_iff]
    simpa only [Real.norm_of_nonneg (hn _)] using h.summable
  constructor
  · rw [e, integrable_withDensity_iff_integrable_smul hm]
    simpa only [hs] using hi
  · rw [e, integral_withDensity_eq_integral_smul hm]
    simp only [hs]
    rw [integral_countable hi]
    simp only [Measure.real, Measure.count_singleton, ENNReal.toReal_one, one_smul]
    exact h.tsum_eq

theorem pmf_prob (h0 : ∀ a, 0 ≤ p a) (h : HasSum p 1) : IsProbabilityMeasure (pmfLaw p) := by
  have h1 := pmf_expect h0 (T := fun _ => 1) (fun _ => zero_le_one) (m := 1) (by simpa using h)
  have hfin : IsFiniteMeasure (pmfLaw p) := ((integrable_const_iff (c := (1 : ℝ))).1 h1.1).resolve_left one_ne_zero
  refine ⟨?_⟩
  have h2 := h1.2
  rw [integral_const, smul_eq_mul, mul_one, Measure.real] at h2
  rw [← ENNReal.toReal_eq_one_iff]
  exact h2

end

/-! ## Moments of the Dirichlet distribution -/

theorem measurable_fullVector_apply (i : Fin (k + 1)) : Measurable fun p : Fin k → ℝ => fullVector p i := by
  refine Fin.lastCases ?_ (fun j => ?_) i
  · simp only [fullVector, Fin.snoc_last]; fun_prop
  · simp only [fullVector, Fin.snoc_castSucc]; fun_prop

theorem measurable_fullVector : Measurable (fullVector : (Fin k → ℝ) → Fin (k + 1) → ℝ) :=
  measurable_pi_iff.2 measurable_fullVector_apply

/-- one more unit of concentration on coordinate `j` -/
noncomputable def bump (alpha : Fin (k + 1) → ℝ) (j : Fin (k + 1)) : Fin (k + 1) → ℝ :=
  fun i => alpha i + if i = j then 1 else 0

theorem dirichlet_tilt (alpha : Fin (k + 1) → ℝ) (ha : ∀ i, 0 < alpha i) (j : Fin (k + 1)) {p : Fin k → ℝ}
    (hp : p ∈ simplex k) : fullVector p j * dirichletPdf alpha (fullVector p) =
      alpha j / (∑ i, alpha i) * dirichletPdf (bump alpha j) (fullVector p) := by
  have hs : 0 < ∑ i, alpha i := Finset.sum_pos (fun i _ => ha i) ⟨0, Finset.mem_univ _⟩
  have hG := (Real.Gamma_pos_of_pos hs).ne'
  have hP : ∏ i, Real.Gamma (alpha i) ≠ 0 := Finset.prod_ne_zero_iff.2 fun i _ => (Real.Gamma_pos_of_pos (ha i)).ne'
  have e1 : ∑ i, bump alpha j i = ∑ i, alpha i + 1 := by
    simp [bump, Finset.sum_add_distrib]
  have e2 : ∏ i, Real.Gamma (bump alpha j i) = alpha j * ∏ i, Real.Gamma (alpha i) := by
    have : ∀ i, Real.Gamma (bump alpha j i) = (if i = j then alpha j else 1) * Real.Gamma (alpha i) := by
      intro i
      by_cases h : i = j
      · subst h; simp [bump, Real.Gamma_add_one (ha i).ne']
      · simp [bump, h]
    simp only [this, Finset.prod_mul_distrib, Finset.prod_ite_eq', Finset.mem_univ, if_true]
  have e3 : ∏ i, fullVector p i ^ (bump alpha j i - 1) =
      fullVector p j * ∏ i, fullVector p i ^ (alpha i - 1) := by
    have : ∀ i, fullVector p i ^ (bump alpha j i - 1) =
        (if i = j then fullVector p j else 1) * fullVector p i ^ (alpha i - 1) := by
      intro i
      by_cases h : i = j
      · subst h
        simp only [bump, add_sub_cancel_right, if_true]
        rw [mul_comm, ← Real.rpow_add_one (fullVector_pos hp i).ne', sub_add_cancel]
      · simp [bump, h]
    simp only [this, Finset.prod_mul_distrib, Finset.prod_ite_eq', Finset.mem_univ, if_true]
  have := (ha j).ne'
  rw [dirichletPdf, dirichletPdf, e1, e2, e3, Real.Gamma_add_one hs.ne']
  field_simp

theorem recovers_dirichlet {alpha : ℕ → Fin (k + 1) → ℝ} {q : Fin (k + 1) → ℝ} (ha : ∀ n i, 0 < alpha n i)
    (hlim : ∀ i, Tendsto (fun n => alpha n i / ∑ j, alpha n j) atTop (𝓝 (q i)))
    (hinf : Tendsto (fun n => ∑ j, alpha n j) atTop atTop) (i : Fin (k + 1)) :
    Recovers (fun n => (lawOn (simplex k) fun p => dirichletPdf (alpha n) (fullVector p)).map fun p => fullVector p i)
      (q i) := by
  have hp : ∀ n, IsProbabilityMeasure (lawOn (simplex k) fun p => dirichletPdf (alpha n) (fullVector p)) := fun n =>
    lawOn_prob (measurableSet_simplex k) (dirichlet_isDensity _ (ha n))
  have hpos : ∀ (a : Fin (k + 1) → ℝ), (∀ i, 0 < a i) → ∀ l, 0 < bump a i l := by
    intro a h l
    have h1 := h l
    simp only [bump]
    positivity
  refine recovers_of_moments (mean := fun n => alpha n i / ∑ j, alpha n j) (var := fun n => 1 / ∑ j, alpha n j)
    (Eventually.of_forall fun n => Measure.isProbabilityMeasure_map (measurable_fullVector_apply i).aemeasurable)
    (Eventually.of_forall fun n => ?_) (hlim i) (tendsto_const_nhds.div_atTop hinf) (Eventually.of_forall fun n => ?_)
  · have hs : 0 < ∑ j, alpha n j := Finset.sum_pos (fun i _ => ha n i) ⟨0, Finset.mem_univ _⟩
    have hle : alpha n i ≤ ∑ j, alpha n j := Finset.single_le_sum (fun j _ => (ha n j).le) (Finset.mem_univ i)
    have h0 := ha n i
    have h1 := hpos _ (ha n)
    have h2 := hpos _ h1
    rw [lintegral_map (by fun_prop) (measurable_fullVector_apply i),
      variance_of_tilt' (measurable_fullVector_apply i) (measurableSet_simplex k) (dirichlet_isDensity _ (ha n))
        (dirichlet_isDensity _ h1) (dirichlet_isDensity _ h2) (fun p hp => dirichlet_tilt _ (ha n) i hp)
        (fun p hp => dirichlet_tilt _ h1 i hp)]
    refine ENNReal.ofReal_le_ofReal ?_
    have e : ∑ j, bump (alpha n) i j = ∑ j, alpha n j + 1 := by simp [bump, Finset.sum_add_distrib]
    rw [e]
    simp only [bump, if_true]
    generalize ∑ j, alpha n j = A at *
    generalize alpha n i = a at *
    rw [show a / A * ((a + 1) / (A + 1)) - (a / A) ^ 2 = (a / A) * ((A - a) / (A + 1)) * (1 / A) by field_simp; ring]
    refine mul_le_of_le_one_left (by positivity) (mul_le_one₀ ((div_le_one hs).2 hle) ?_ ?_)
    · exact div_nonneg (by linarith) (by linarith)
    · rw [div_le_one (by linarith)]; linarith
  · obtain ⟨h1, h2⟩ := mean_of_tilt (measurableSet_simplex k) (dirichlet_isDensity _ (ha n))
      (dirichlet_isDensity _ (hpos _ (ha n))) fun p hp => dirichlet_tilt _ (ha n) i hp
    have hm := measurable_fullVector_apply (k := k) i
    constructor
    · rw [integrable_map_measure (by fun_prop) hm.aemeasurable]; exact h1
    · rw [integral_map hm.aemeasurable (by fun_prop)]; exact h2

theorem concentrates_dirichlet {alpha : ℕ → Fin (k + 1) → ℝ} {q : Fin (k + 1) → ℝ} (ha : ∀ n i, 0 < alpha n i)
    (hlim : ∀ i, Tendsto (fun n => alpha n i / ∑ j, alpha n j) atTop (𝓝 (q i)))
    (hinf : Tendsto (fun n => ∑ j, alpha n j) atTop atTop) :
    ConcentratesAt (fun n => (lawOn (simplex k) fun p => dirichletPdf (alpha n) (fullVector p)).map fullVector) q := by
  have hp : ∀ n, IsProbabilityMeasure (lawOn (simplex k) fun p => dirichletPdf (alpha n) (fullVector p)) := fun n =>
    lawOn_prob (measurableSet_simplex k) (dirichlet_isDensity _ (ha n))
  refine concentrates_pi (Eventually.of_forall fun n =>
    Measure.isProbabilityMeasure_map measurable_fullVector.aemeasurable) fun i => ?_
  have hm : ∀ n, ((lawOn (simplex k) fun p => dirichletPdf (alpha n) (fullVector p)).map fullVector).map
      (fun x => x i) = (lawOn (simplex k) fun p => dirichletPdf (alpha n) (fullVector p)).map fun p => fullVector p i :=
    fun n => Measure.map_map (measurable_pi_apply i) measurable_fullVector
  simp only [hm]
  exact (recovers_dirichlet ha hlim hinf i).concentrates

theorem dirichlet_limit {c : ℕ → Fin (k + 1) → ℝ} {alpha : Fin (k + 1) → ℝ} {q : Fin (k + 1) → ℝ} {N : ℝ}
    (ha : ∀ i, 0 < alpha i) (hc : ∀ n i, 0 ≤ c n i) (hN : 0 < N) (hq : ∑ i, q i = 1)
    (hlim : ∀ i, Tendsto (fun n : ℕ => c n i / n) atTop (𝓝 (N * q i))) :
    (ConcentratesAt (fun n => (lawOn (simplex k) fun p =>
      dirichletPdf (fun i => alpha i + c n i) (fullVector p)).map fullVector) q) ∧
    ∀ i, Recovers (fun n => (lawOn (simplex k) fun p =>
      dirichletPdf (fun i => alpha i + c n i) (fullVector p)).map fun p => fullVector p i) (q i) := by
  have hA : ∀ i, Tendsto (fun n : ℕ => (alpha i + c n i) / n) atTop (𝓝 (N * q i)) := fun i => average_const_add (hlim i)
  have hsum : Tendsto (fun n : ℕ => (∑ i, (alpha i + c n i)) / n) atTop (𝓝 N) := by
    have := tendsto_finsetSum Finset.univ fun i _ => hA i
    rw [← Finset.mul_sum, hq, mul_one] at this
    simpa only [Finset.sum_div] using this
  have h1 : ∀ n i, 0 < alpha i + c n i := fun n i => by have := ha i; have := hc n i; positivity
  have h2 : ∀ i, Tendsto (fun n => (alpha i + c n i) / ∑ j, (alpha j + c n j)) atTop (𝓝 (q i)) := fun i => by
    have := ratio_of_averages (hA i) hsum hN.ne'
    rwa [mul_div_cancel_left₀ _ hN.ne'] at this
  have h3 := atTop_of_average hsum hN
  exact ⟨concentrates_dirichlet h1 h2 h3, recovers_dirichlet h1 h2 h3⟩

/-- probabilities of three categories, for the examples -/
noncomputable def threeProbs (i : Fin 3) : ℝ := if i = 0 then 1 / 2 else 1 / 4

theorem threeProbs_nonneg (i : Fin 3) : 0 ≤ threeProbs i := by unfold threeProbs; positivity

theorem threeProbs_sum : ∑ i, threeProbs i = 1 := by
  rw [Fin.sum_univ_three]; norm_num [threeProbs, Fin.ext_iff]

theorem categorical_limit {X : ℕ → Ω → Fin (k + 1)} (prior : Dirichlet (Fin (k + 1) → ℝ))
    (hp : ∀ i, 0 < prior.alpha i) (q : Fin (k + 1) → ℝ) (h0 : ∀ i, 0 ≤ q i) (h1 : ∑ i, q i = 1)
    (h : IIDFrom Q X (pmfLaw q)) :
    ∀ᵐ ω ∂Q, ∃ post : ℕ → Dirichlet (Fin (k + 1) → ℝ),
      (∀ n, categorical_dirichlet (fun j => ((List.range n).countP fun i => X i ω = j : ℝ)) prior = .ok (post n)) ∧
      (ConcentratesAt (fun n => (lawOn (simplex k) fun p => (post n).pdf (fullVector p)).map fullVector) q) ∧
      ∀ i, Recovers (fun n => (lawOn (simplex k) fun p => (post n).pdf (fullVector p)).map fun p => fullVector p i)
        (q i) := by
  have hE : ∀ j, Integrable (fun a => if a = j then (1 : ℝ) else 0) (pmfLaw q) ∧
      ∫ a, (if a = j then (1 : ℝ) else 0) ∂pmfLaw q = q j := fun j => by
    refine pmf_expect h0 (fun a => by positivity) ?_
    have := hasSum_fintype fun a => q a * (if a = j then (1 : ℝ) else 0)
    simpa using this
  have hall : ∀ᵐ ω ∂Q, ∀ j, Tendsto (fun n : ℕ => (∑ i ∈ Finset.range n, if X i ω = j then (1 : ℝ) else 0) / n) atTop
      (𝓝 (q j)) := by
    rw [ae_all_iff]
    intro j
    have := iid_average h (T := fun a => if a = j then (1 : ℝ) else 0) (measurable_of_countable _) (hE j).1
    simpa only [(hE j).2] using this
  filter_upwards [hall] with ω hω
  have hcount : ∀ (n : ℕ) j, ((List.range n).countP fun i => X i ω = j : ℝ) =
      ∑ i ∈ Finset.range n, if X i ω = j then (1 : ℝ) else 0 := by
    intro n j
    induction n with
    | zero => simp
    | succ n ih =>
      rw [List.range_succ, List.countP_append, Finset.sum_range_succ, ← ih]
      by_cases h : X n ω = j <;> simp [h]
  refine ⟨fun n => ⟨fun j => prior.alpha j + ((List.range n).countP fun i => X i ω = j : ℝ)⟩, fun n => rfl, ?_⟩
  exact dirichlet_limit (N := 1) (c := fun n j => ((List.range n).countP fun i => X i ω = j : ℝ)) hp
    (fun n i => Nat.cast_nonneg _) one_pos h1 fun j => by simpa only [hcount, one_mul] using hω j

/-- C88. Categorical data: `q` are the true probabilities, `X i` the category seen at step `i`. The posterior is a law
of probability vectors. -/
theorem C88_categorical_dirichlet {X : ℕ → Ω → Fin (k + 1)} (prior : Dirichlet (Fin (k + 1) → ℝ))
    (hp : ∀ i, 0 < prior.alpha i) (q : Fin (k + 1) → ℝ) (h0 : ∀ i, 0 ≤ q i) (h1 : ∑ i, q i = 1)
    (h : IIDFrom Q X (pmfLaw q)) :
    ∀ᵐ ω ∂Q, ∃ post : ℕ → Dirichlet (Fin (k + 1) → ℝ),
      (∀ n, categorical_dirichlet (fun j => ((List.range n).countP fun i => X i ω = j : ℝ)) prior = .ok (post n)) ∧
      ConcentratesAt (fun n => (lawOn (simplex k) fun p => (post n).pdf (fullVector p)).map fullVector) q :=
  (categorical_limit prior hp q h0 h1 h).mono fun _ ⟨post, h1, h2, _⟩ => ⟨post, h1, h2⟩

/-- C92. Categorical data: the posterior's mean and credible intervals of every category's probability. -/
theorem C92_categorical_dirichlet {X : ℕ → Ω → Fin (k + 1)} (prior : Dirichlet (Fin (k + 1) → ℝ))
    (hp : ∀ i, 0 < prior.alpha i) (q : Fin (k + 1) → ℝ) (h0 : ∀ i, 0 ≤ q i) (h1 : ∑ i, q i = 1)
    (h : IIDFrom Q X (pmfLaw q)) :
    ∀ᵐ ω ∂Q, ∃ post : ℕ → Dirichlet (Fin (k + 1) → ℝ),
      (∀ n, categorical_dirichlet (fun j => ((List.range n).countP fun i => X i ω = j : ℝ)) prior = .ok (post n)) ∧
      ∀ i, Recovers (fun n => (lawOn (simplex k) fun p => (post n).pdf (fullVector p)).map fun p => fullVector p i)
        (q i) :=
  (categorical_limit prior hp q h0 h1 h).mono fun _ ⟨post, h1, _, h2⟩ => ⟨post, h1, h2⟩

example : ∃ (Q : Measure (ℕ → Fin 3)) (X : ℕ → (ℕ → Fin 3) → Fin 3), IsProbabilityMeasure Q ∧
    IIDFrom Q X (pmfLaw threeProbs) ∧ ∀ᵐ ω ∂Q, ∃ post : ℕ → Dirichlet (Fin 3 → ℝ),
      (∀ n, categorical_dirichlet (fun j => ((List.range n).countP fun i => X i ω = j : ℝ)) ⟨fun _ => 1⟩ = .ok (post n)) ∧
      ConcentratesAt (fun n => (lawOn (simplex 2) fun p => (post n).pdf (fullVector p)).map fullVector)
        threeProbs := by
  have := pmf_prob (p := threeProbs) threeProbs_nonneg
    (threeProbs_sum ▸ hasSum_fintype threeProbs)
  obtain ⟨Q, X, hQ, h⟩ := exists_iid (pmfLaw threeProbs)
  exact ⟨Q, X, hQ, h, C88_categorical_dirichlet _ (fun _ => one_pos) _ threeProbs_nonneg threeProbs_sum h⟩

/-! ## Multinomial data -/

theorem multinomialPmf_eq (N : ℕ) (q : Fin (k + 1) → ℝ) (x : Fin (k + 1) → ℕ) :
    multinomialPmf N q x = if x ∈ Finset.piAntidiag Finset.univ N then
      (Nat.multinomial Finset.univ x : ℝ) * ∏ i, q i ^ x i else 0 := by
  have hiff : (∑ i, (x i : ℝ)) = N ↔ x ∈ Finset.piAntidiag Finset.univ N := by
    simp only [Finset.mem_piAntidiag, Finset.mem_univ, implies_true, and_true]
    exact_mod_cast Iff.rfl
  rw [multinomialPmf]
  simp only [hiff]
  split_ifs with h
  · congr 1
    have hN : ∑ i, x i = N := (Finset.mem_piAntidiag.1 h).1
    have hs := Nat.multinomial_spec Finset.univ x
    rw [hN] at hs
    have hs' : (∏ i, ((x i).factorial : ℝ)) * (Nat.multinomial Finset.univ x : ℝ) = N.factorial := by exact_mod_cast hs
    simp only [Real.Gamma_nat_eq_factorial]
    have : ∏ i, ((x i).factorial : ℝ) ≠ 0 :=
      Finset.prod_ne_zero_iff.2 fun i _ => by exact_mod_cast (x i).factorial_ne_zero
    rw [← hs']; field_simp
  · rfl

theorem multinomial_hasSum (N : ℕ) (q : Fin (k + 1) → ℝ) (T : (Fin (k + 1) → ℕ) → ℝ) :
    HasSum (fun x => multinomialPmf N q x * T x)
      (∑ x ∈ Finset.piAntidiag Finset.univ N, ((Nat.multinomial Finset.univ x : ℝ) * ∏ i, q i ^ x i) * T x) := by
  have := hasSum_sum_of_ne_finset_zero (L := SummationFilter.unconditional _) (f := fun x => multinomialPmf N q x * T x)
    (s := Finset.piAntidiag Finset.univ N) fun x hx => by rw [multinomialPmf_eq, if_neg hx, zero_mul]
  convert this using 1
  refine Finset.sum_congr rfl fun x hx => ?_
  rw [multinomialPmf_eq, if_pos hx]

theorem multinomial_total (N : ℕ) {q : Fin (k + 1) → ℝ} (h1 : ∑ i, q i = 1) : HasSum (multinomialPmf N q) 1 := by
  have := multinomial_hasSum N q fun _ => 1
  simp only [mul_one] at this
  rwa [← Finset.sum_pow_eq_sum_piAntidiag, h1, one_pow] at this

theorem multinomial_mean (N : ℕ) {q : Fin (k + 1) → ℝ} (h1 : ∑ i, q i = 1) (j : Fin (k + 1)) :
    HasSum (fun x => multinomialPmf N q x * (x j : ℝ)) (N * q j) := by
  have h := multinomial_hasSum N q fun x => x j
  convert h using 1
  have e : ∀ t : ℝ, (1 + (t - 1) * q j) ^ N = ∑ x ∈ Finset.piAntidiag Finset.univ N,
      ((Nat.multinomial Finset.univ x : ℝ) * ∏ i, q i ^ x i) * t ^ x j := by
    intro t
    have hp := Finset.sum_pow_eq_sum_piAntidiag Finset.univ (fun i => (if i = j then t else 1) * q i) N
    have hs : ∑ i, (if i = j then t else 1) * q i = 1 + (t - 1) * q j := by
      have : ∀ i, (if i = j then t else 1) * q i = q i + if i = j then (t - 1) * q j else 0 := by
        intro i; split_ifs with h
        · subst h; ring
        · ring
      simp only [this, Finset.sum_add_distrib, h1, Finset.sum_ite_eq', Finset.mem_univ, if_true]
    rw [hs] at hp
    rw [hp]
    refine Finset.sum_congr rfl fun x _ => ?_
    have : ∀ i, ((if i = j then t else 1) * q i) ^ x i = (if i = j then t ^ x j else 1) * q i ^ x i := by
      intro i; rw [mul_pow]; split_ifs with h
      · subst h; rfl
      · rw [one_pow]
    simp only [this, Finset.prod_mul_distrib, Finset.prod_ite_eq', Finset.mem_univ, if_true]
    ring
  have d1 : HasDerivAt (fun t : ℝ => (1 + (t - 1) * q j) ^ N) (N * q j) 1 := by
    have h2 : HasDerivAt (fun t : ℝ => 1 + (t - 1) * q j) (1 * q j) 1 :=
      (((hasDerivAt_id (1 : ℝ)).sub_const 1).mul_const (q j)).const_add 1
    have := h2.fun_pow N
    simpa using this
  have d2 : HasDerivAt (fun t : ℝ => ∑ x ∈ Finset.piAntidiag Finset.univ N,
      ((Nat.multinomial Finset.univ x : ℝ) * ∏ i, q i ^ x i) * t ^ x j)
      (∑ x ∈ Finset.piAntidiag Finset.univ N, ((Nat.multinomial Finset.univ x : ℝ) * ∏ i, q i ^ x i) * (x j : ℝ)) 1 := by
    refine HasDerivAt.fun_sum fun x _ => ?_
    have := (hasDerivAt_pow (x j) (1 : ℝ)).const_mul ((Nat.multinomial Finset.univ x : ℝ) * ∏ i, q i ^ x i)
    simpa using this
  rw [show (fun t : ℝ => (1 + (t - 1) * q j) ^ N) = _ from funext e] at d1
  exact d1.unique d2

theorem multinomialPmf_nonneg (N : ℕ) {q : Fin (k + 1) → ℝ} (h0 : ∀ i, 0 ≤ q i) (x : Fin (k + 1) → ℕ) :
    0 ≤ multinomialPmf N q x := by
  rw [multinomialPmf_eq]
  split_ifs
  · exact mul_nonneg (Nat.cast_nonneg _) (Finset.prod_nonneg fun i _ => pow_nonneg (h0 i) _)
  · exact le_rfl

theorem multinomial_limit {X : ℕ → Ω → Fin (k + 1) → ℕ} (prior : Dirichlet (Fin (k + 1) → ℝ))
    (hp : ∀ i, 0 < prior.alpha i) (N : ℕ) (hN : 0 < N) (q : Fin (k + 1) → ℝ) (h0 : ∀ i, 0 ≤ q i) (h1 : ∑ i, q i = 1)
    (h : IIDFrom Q X (pmfLaw (Multinomial.mk (N : ℝ) q).pmf)) :
    ∀ᵐ ω ∂Q, ∃ post : ℕ → Dirichlet (Fin (k + 1) → ℝ),
      (∀ n, multinomial_dirichlet (fun j => ∑ i ∈ Finset.range n, (X i ω j : ℝ)) prior = .ok (post n)) ∧
      (ConcentratesAt (fun n => (lawOn (simplex k) fun p => (post n).pdf (fullVector p)).map fullVector) q) ∧
      ∀ i, Recovers (fun n => (lawOn (simplex k) fun p => (post n).pdf (fullVector p)).map fun p => fullVector p i)
        (q i) := by
  have hE : ∀ j, Integrable (fun x : Fin (k + 1) → ℕ => (x j : ℝ)) (pmfLaw (Multinomial.mk (N : ℝ) q).pmf) ∧
      ∫ x : Fin (k + 1) → ℕ, (x j : ℝ) ∂pmfLaw (Multinomial.mk (N : ℝ) q).pmf = N * q j := fun j =>
    pmf_expect (multinomialPmf_nonneg N h0) (fun x => Nat.cast_nonneg _) (multinomial_mean N h1 j)
  have hall : ∀ᵐ ω ∂Q, ∀ j, Tendsto (fun n : ℕ => (∑ i ∈ Finset.range n, (X i ω j : ℝ)) / n) atTop (𝓝 (N * q j)) := by
    rw [ae_all_iff]
    intro j
    have := iid_average h (T := fun x : Fin (k + 1) → ℕ => (x j : ℝ)) (measurable_of_countable _) (hE j).1
    simpa only [(hE j).2] using this
  filter_upwards [hall] with ω hω
  refine ⟨fun n => ⟨fun j => prior.alpha j + ∑ i ∈ Finset.range n, (X i ω j : ℝ)⟩, fun n => rfl, ?_⟩
  exact dirichlet_limit (c := fun n j => ∑ i ∈ Finset.range n, (X i ω j : ℝ)) hp
    (fun n i => sum_nonneg_of (fun l => Nat.cast_nonneg _) n) (by exact_mod_cast hN) h1 hω

/-- C88. Multinomial data: `X i` is the count vector of batch `i`, with `N` trials. -/
theorem C88_multinomial_dirichlet {X : ℕ → Ω → Fin (k + 1) → ℕ} (prior : Dirichlet (Fin (k + 1) → ℝ))
    (hp : ∀ i, 0 < prior.alpha i) (N : ℕ) (hN : 0 < N) (q : Fin (k + 1) → ℝ) (h0 : ∀ i, 0 ≤ q i) (h1 : ∑ i, q i = 1)
    (h : IIDFrom Q X (pmfLaw (Multinomial.mk (N : ℝ) q).pmf)) :
    ∀ᵐ ω ∂Q, ∃ post : ℕ → Dirichlet (Fin (k + 1) → ℝ),
      (∀ n, multinomial_dirichlet (fun j => ∑ i ∈ Finset.range n, (X i ω j : ℝ)) prior = .ok (post n)) ∧
      ConcentratesAt (fun n => (lawOn (simplex k) fun p => (post n).pdf (fullVector p)).map fullVector) q :=
  (multinomial_limit prior hp N hN q h0 h1 h).mono fun _ ⟨post, h1, h2, _⟩ => ⟨post, h1, h2⟩

/-- C92. Multinomial data: the posterior's mean and credible intervals of every category's probability. -/
theorem C92_multinomial_dirichlet {X : ℕ → Ω → Fin (k + 1) → ℕ} (prior : Dirichlet (Fin (k + 1) → ℝ))
    (hp : ∀ i, 0 < prior.alpha i) (N : ℕ) (hN : 0 < N) (q : Fin (k + 1) → ℝ) (h0 : ∀ i, 0 ≤ q i) (h1 : ∑ i, q i = 1)
    (h : IIDFrom Q X (pmfLaw (Multinomial.mk (N : ℝ) q).pmf)) :
    ∀ᵐ ω ∂Q, ∃ post : ℕ → Dirichlet (Fin (k + 1) → ℝ),
      (∀ n, multinomial_dirichlet (fun j => ∑ i ∈ Finset.range n, (X i ω j : ℝ)) prior = .ok (post n)) ∧
      ∀ i, Recovers (fun n => (lawOn (simplex k) fun p => (post n).pdf (fullVector p)).map fun p => fullVector p i)
        (q i) :=
  (multinomial_limit prior hp N hN q h0 h1 h).mono fun _ ⟨post, h1, _, h2⟩ => ⟨post, h1, h2⟩

example : ∃ (Q : Measure (ℕ → (Fin 3 → ℕ))) (X : ℕ → (ℕ → (Fin 3 → ℕ)) → (Fin 3 → ℕ)), IsProbabilityMeasure Q ∧
    IIDFrom Q X (pmfLaw (Multinomial.mk ((10 : ℕ) : ℝ)
      threeProbs).pmf) ∧ ∀ᵐ ω ∂Q, ∃ post : ℕ → Dirichlet (Fin 3 → ℝ),
      (∀ n, multinomial_dirichlet (fun j => ∑ i ∈ Finset.range n, (X i ω j : ℝ)) ⟨fun _ => 1⟩ = .ok (post n)) ∧
      ConcentratesAt (fun n => (lawOn (simplex 2) fun p => (post n).pdf (fullVector p)).map fullVector)
        threeProbs := by
  have := pmf_prob (p := (Multinomial.mk ((10 : ℕ) : ℝ)
    threeProbs).pmf)
    (multinomialPmf_nonneg 10 threeProbs_nonneg) (multinomial_total 10 threeProbs_sum)
  obtain ⟨Q, X, hQ, h⟩ := exists_iid (pmfLaw (Multinomial.mk ((10 : ℕ) : ℝ)
      threeProbs).pmf)
  exact ⟨Q, X, hQ, h, C88_multinomial_dirichlet _ (fun _ => one_pos) 10 (by norm_num) _ threeProbs_nonneg threeProbs_sum h⟩

example : ∃ (Q : Measure (ℕ → (Fin 3 → ℕ))) (X : ℕ → (ℕ → (Fin 3 → ℕ)) → (Fin 3 → ℕ)), IsProbabilityMeasure Q ∧
    IIDFrom Q X (pmfLaw (Multinomial.mk ((10 : ℕ) : ℝ)
      threeProbs).pmf) ∧ ∀ᵐ ω ∂Q, ∃ post : ℕ → Dirichlet (Fin 3 → ℝ),
      (∀ n, multinomial_dirichlet (fun j => ∑ i ∈ Finset.range n, (X i ω j : ℝ)) ⟨fun _ => 1⟩ = .ok (post n)) ∧
      ∀ i, Recovers (fun n => (lawOn (simplex 2) fun p => (post n).pdf (fullVector p)).map fun p => fullVector p i)
        (threeProbs i) := by
  have := pmf_prob (p := (Multinomial.mk ((10 : ℕ) : ℝ)
    threeProbs).pmf)
    (multinomialPmf_nonneg 10 threeProbs_nonneg) (multinomial_total 10 threeProbs_sum)
  obtain ⟨Q, X, hQ, h⟩ := exists_iid (pmfLaw (Multinomial.mk ((10 : ℕ) : ℝ)
      threeProbs).pmf)
  exact ⟨Q, X, hQ, h, C92_multinomial_dirichlet _ (fun _ => one_pos) 10 (by norm_num) _ threeProbs_nonneg threeProbs_sum h⟩

end Conj
