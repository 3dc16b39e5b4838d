import Verif.Lemmas.Calibration
import Verif.Props.TwoStage
import Verif.Props.PosteriorNormal
import Verif.Props.Evidence

/-!
# C103: credible regions contain the unknown as often as they announce

If the unknown is drawn from the prior and the data from the model, then the region announced from the data
contains the unknown with the announced posterior probability; in particular the interval from `dist.ppf(0.025)` to
`dist.ppf(0.975)` of `scripts/parameter-recovery.py` contains it with probability 0.95.
-/

open MeasureTheory Set Real

namespace Conj

open Scipy Spec

variable {Ω : Type} [MeasurableSpace Ω] {P : Measure Ω} {n : ℕ}

/-! ## From Bayes' rule for lists to Bayes' rule for the observations -/

theorem likelihood_ofFn {A Θ : Type} (f : Θ → A → ℝ) (x : Fin n → A) :
    likelihood f (List.ofFn x) = fun t => ∏ i, f t (x i) := by
  funext t
  simp [likelihood, List.prod_ofFn]

theorem likelihood_toNat {Θ : Type} (d : Θ → Disc) {x : Fin n → ℤ} (hx : ∀ i, 0 ≤ x i) :
    likelihood (fun t (k : ℕ) => (d t).pmf k) (List.ofFn fun i => (x i).toNat) = fun t => ∏ i, (d t).pmf (x i) := by
  rw [likelihood_ofFn]
  funext t
  exact Finset.prod_congr rfl fun i _ => by rw [Int.toNat_of_nonneg (hx i)]

theorem sum_toNat {x : Fin n → ℤ} (hx : ∀ i, 0 ≤ x i) :
    (((List.ofFn fun i => (x i).toNat).sum : ℕ) : ℝ) = ∑ i, (x i : ℝ) := by
  rw [List.sum_ofFn]
  push_cast
  refine Finset.sum_congr rfl fun i _ => ?_
  exact_mod_cast congrArg (fun k : ℤ => (k : ℝ)) (Int.toNat_of_nonneg (hx i))

theorem forall_ofFn {A : Type} {p : A → Prop} {x : Fin n → A} (hx : ∀ i, p (x i)) : ∀ a ∈ List.ofFn x, p a := by
  intro a ha
  obtain ⟨i, rfl⟩ := (List.mem_ofFn' _ _).1 ha
  exact hx i

/-- count data: the observations are in `D`, a set of counts -/
theorem bayes_disc {prior : Cont} {S : Set ℝ} (hS : MeasurableSet S) (he : contLaw prior = lawOn S prior.pdf)
    (hd : IsDensity volume S prior.pdf) (hpm : Measurable prior.pdf) {d : ℝ → Disc} (D : Set ℤ)
    (hD : ∀ k ∈ D, 0 ≤ k) (hz : ∀ t ∈ S, ∀ k, k ∉ D → (d t).pmf k = 0)
    (hm : ∀ k, Measurable fun t => (d t).pmf k) (hprob : ∀ t ∈ S, IsProbabilityMeasure (discLaw (d t)))
    (h0 : ∀ t ∈ S, ∀ k, 0 ≤ (d t).pmf k) {post : (Fin n → ℤ) → Cont}
    (hb : ∀ x, (∀ i, x i ∈ D) → IsPosterior volume S prior.pdf
      (likelihood (fun t (k : ℕ) => (d t).pmf k) (List.ofFn fun i => (x i).toNat)) (post x).pdf)
    (hl : ∀ x, (∀ i, x i ∈ D) → contLaw (post x) = lawOn S (post x).pdf) :
    BayesModel S prior.pdf (fun _ : Fin n => Measure.count.restrict D) (fun _ => D) (fun _ t k => (d t).pmf k)
      (fun x => (post x).pdf) (contLaw prior) (fun _ t => discLaw (d t)) (fun x => contLaw (post x)) where
  hS := hS
  hD _ := MeasurableSet.of_discrete
  hν _ := ae_restrict_mem MeasurableSet.of_discrete
  prior_meas := hpm
  prior_dens := hd
  meas _ := measurable_from_prod_countable_left hm
  nonneg _ t ht a _ := h0 t ht a
  prior_law := he
  model_law _ t ht := by
    rw [discLaw, ← withDensity_indicator MeasurableSet.of_discrete]
    congr 1
    funext k
    by_cases hk : k ∈ D
    · rw [indicator_of_mem hk]
    · rw [indicator_of_notMem hk, hz t ht k hk, ENNReal.ofReal_zero]
  model_prob _ := hprob
  bayes x hx := by
    rw [← likelihood_toNat d fun i => hD _ (hx i)]
    exact hb x hx
  post_law := hl

/-- measured data: the observations are in `D` -/
theorem bayes_cont {prior : Cont} {S : Set ℝ} (hS : MeasurableSet S) (he : contLaw prior = lawOn S prior.pdf)
    (hd : IsDensity volume S prior.pdf) (hpm : Measurable prior.pdf) {d : ℝ → Cont} {D : Set ℝ}
    (hD : MeasurableSet D) (hz : ∀ t ∈ S, contLaw (d t) = lawOn D (d t).pdf)
    (hm : Measurable fun q : ℝ × ℝ => (d q.1).pdf q.2) (hprob : ∀ t ∈ S, IsProbabilityMeasure (contLaw (d t)))
    (h0 : ∀ t ∈ S, ∀ a ∈ D, 0 ≤ (d t).pdf a) {post : (Fin n → ℝ) → Cont}
    (hb : ∀ x, (∀ i, x i ∈ D) → IsPosterior volume S prior.pdf
      (likelihood (fun t a => (d t).pdf a) (List.ofFn x)) (post x).pdf)
    (hl : ∀ x, (∀ i, x i ∈ D) → contLaw (post x) = lawOn S (post x).pdf) :
    BayesModel S prior.pdf (fun _ : Fin n => volume.restrict D) (fun _ => D) (fun _ t a => (d t).pdf a)
      (fun x => (post x).pdf) (contLaw prior) (fun _ t => contLaw (d t)) (fun x => contLaw (post x)) where
  hS := hS
  hD _ := hD
  hν _ := ae_restrict_mem hD
  prior_meas := hpm
  prior_dens := hd
  meas _ := hm
  nonneg _ := h0
  prior_law := he
  model_law _ t ht := hz t ht
  model_prob _ := hprob
  bayes x hx := by
    rw [← likelihood_ofFn (fun t a => (d t).pdf a)]
    exact hb x hx
  post_law := hl

theorem BayesModel.prob {Θ A : Type} [MeasureSpace Θ] [MeasurableSpace A] {S : Set Θ} {prior : Θ → ℝ}
    {ν : Fin n → Measure A} {D : Fin n → Set A} {f : Fin n → Θ → A → ℝ} {post : (Fin n → A) → Θ → ℝ}
    {priorLaw : Measure Θ} {model : Fin n → Θ → Measure A} {postLaw : (Fin n → A) → Measure Θ}
    (h : BayesModel S prior ν D f post priorLaw model postLaw) {θ : Ω → Θ} {X : Ω → Fin n → A}
    (hd : DrawThenObserve P θ X priorLaw model) : IsProbabilityMeasure P := by
  refine ⟨?_⟩
  have h0 := hd.law univ MeasurableSet.univ
  have h1 : ∀ᵐ t ∂priorLaw, Measure.pi (fun i => model i t) {x | (t, x) ∈ (univ : Set (Θ × (Fin n → A)))} = 1 := by
    rw [h.prior_law]
    filter_upwards [ae_lawOn_mem h.hS prior] with t ht
    have := fun i => h.model_prob i t ht
    simp
  have := lawOn_prob h.hS h.prior_dens
  rw [lintegral_congr_ae h1, h.prior_law] at h0
  simpa using h0

/-- both conclusions -/
theorem BayesModel.both {A : Type} [MeasurableSpace A] {S : Set ℝ} {prior : ℝ → ℝ}
    {ν : Fin n → Measure A} [∀ i, SigmaFinite (ν i)] {D : Fin n → Set A} {f : Fin n → ℝ → A → ℝ}
    {post : (Fin n → A) → ℝ → ℝ}
    {priorLaw : Measure ℝ} {model : Fin n → ℝ → Measure A} {postLaw : (Fin n → A) → Measure ℝ}
    (h : BayesModel S prior ν D f post priorLaw model postLaw) {θ : Ω → ℝ} {X : Ω → Fin n → A}
    (hd : DrawThenObserve P θ X priorLaw model) : Calibrated P θ X postLaw ∧ IntervalCoverage P θ X postLaw := by
  have := h.prob hd
  exact ⟨h.calibrated hd, h.interval hd⟩

/-! ## Beta priors -/

section Beta

variable (prior : Beta ℝ) (ha : 0 < prior.alpha) (hb : 0 < prior.beta)
include ha hb

theorem bayes_binomial (N : ℕ) : BayesModel (Ioo 0 1) prior.dist.pdf (fun _ : Fin n => Measure.count.restrict (Icc 0 (N : ℤ)))
    (fun _ => Icc 0 (N : ℤ)) (fun _ p k => (Binomial.dist ⟨(N : ℝ), p⟩).pmf k)
    (fun x => (binomial_beta ((n : ℝ) * N) (∑ i, (x i : ℝ)) prior).dist.pdf) (contLaw prior.dist)
    (fun _ p => discLaw (Binomial.dist ⟨(N : ℝ), p⟩))
    (fun x => contLaw (binomial_beta ((n : ℝ) * N) (∑ i, (x i : ℝ)) prior).dist) := by
  refine bayes_disc (d := fun p => Binomial.dist ⟨(N : ℝ), p⟩)
    (post := fun x => (binomial_beta ((n : ℝ) * N) (∑ i, (x i : ℝ)) prior).dist) measurableSet_Ioo (beta_lawOn _)
    (Beta.isDensity _ ha hb) (measurable_pdf (measurable_std_beta _ _) _ _) _ (fun k hk => hk.1) (fun p hp k hk => ?_)
    (measurable_binomial_pmf N) (fun p hp => binomial_prob N hp.1.le hp.2.le)
    (fun p hp => binomial_nonneg N hp.1.le hp.2.le) (fun x hx => ?_) fun x hx => beta_lawOn _
  · simp only [Binomial.dist, Disc.pmf, DiscFamily.pmf0, sub_zero]
    rw [if_neg]
    rintro ⟨h1, h2⟩
    exact hk ⟨h1, by exact_mod_cast h2⟩
  · have h := C01_binomial_beta_posterior_list prior ha hb (List.ofFn fun i => (N, (x i).toNat))
      (forall_ofFn (p := fun e : ℕ × ℕ => e.2 ≤ e.1) fun i => by
        have h1 := (hx i).1; have h2 := (hx i).2
        simp only; omega)
    have e1 : ((((List.ofFn fun i : Fin n => (N, (x i).toNat)).map Prod.fst).sum : ℕ) : ℝ) = (n : ℝ) * N := by
      simp [List.map_ofFn, List.sum_ofFn]
    have e2 : ((((List.ofFn fun i : Fin n => (N, (x i).toNat)).map Prod.snd).sum : ℕ) : ℝ) = ∑ i, (x i : ℝ) := by
      rw [List.map_ofFn]
      exact sum_toNat fun i => (hx i).1
    rw [e1, e2] at h
    have e3 : likelihood (fun p (e : ℕ × ℕ) => (Binomial.dist ⟨e.1, p⟩).pmf e.2)
        (List.ofFn fun i : Fin n => (N, (x i).toNat)) =
        likelihood (fun p (k : ℕ) => (Binomial.dist ⟨(N : ℝ), p⟩).pmf k) (List.ofFn fun i => (x i).toNat) := by
      rw [likelihood_ofFn, likelihood_ofFn]
    rw [e3] at h
    exact h

/-- C103. Binomial experiments of `N` trials each. -/
theorem C103_binomial_beta (N : ℕ) {θ : Ω → ℝ} {X : Ω → Fin n → ℤ}
    (h : DrawThenObserve P θ X (contLaw prior.dist) fun _ p => discLaw (Binomial.dist ⟨(N : ℝ), p⟩)) :
    Calibrated P θ X (fun x => contLaw (binomial_beta ((n : ℝ) * N) (∑ i, (x i : ℝ)) prior).dist) ∧
    IntervalCoverage P θ X fun x => contLaw (binomial_beta ((n : ℝ) * N) (∑ i, (x i : ℝ)) prior).dist :=
  (bayes_binomial prior ha hb N).both h

theorem bayes_bernoulli : BayesModel (Ioo 0 1) prior.dist.pdf (fun _ : Fin n => Measure.count)
    (fun _ => univ) (fun _ p (b : Bool) => if b then p else 1 - p)
    (fun x => ((List.ofFn x).foldl (fun d b => bernoulli_beta (if b then 1 else 0 : ℝ) d) prior).dist.pdf)
    (contLaw prior.dist) (fun _ p => pmfLaw fun b : Bool => if b then p else 1 - p)
    (fun x => contLaw ((List.ofFn x).foldl (fun d b => bernoulli_beta (if b then 1 else 0 : ℝ) d) prior).dist) where
  hS := measurableSet_Ioo
  hD _ := MeasurableSet.univ
  hν _ := Filter.Eventually.of_forall fun _ => mem_univ _
  prior_meas := measurable_pdf (measurable_std_beta _ _) _ _
  prior_dens := Beta.isDensity _ ha hb
  meas _ := measurable_from_prod_countable_left fun b => by cases b <;> simp <;> fun_prop
  nonneg _ t ht b _ := by
    cases b
    · simpa using ht.2.le
    · simpa using ht.1.le
  prior_law := beta_lawOn _
  model_law _ t _ := rfl
  model_prob _ t ht := by
    refine ⟨?_⟩
    rw [pmfLaw, withDensity_apply _ MeasurableSet.univ, Measure.restrict_univ, lintegral_count, tsum_fintype]
    simp only [Fintype.univ_bool, Finset.mem_singleton, Bool.true_eq_false, not_false_eq_true,
      Finset.sum_insert, Finset.sum_singleton, if_true, Bool.false_eq_true, if_false]
    rw [← ENNReal.ofReal_add ht.1.le (by linarith [ht.2])]
    simp
  bayes x _ := by
    have h := C02_bernoulli_beta_posterior prior ha hb (List.ofFn x)
    rwa [likelihood_ofFn] at h
  post_law x _ := beta_lawOn _

/-- C103. Flips, absorbed one at a time. -/
theorem C103_bernoulli_beta {θ : Ω → ℝ} {X : Ω → Fin n → Bool}
    (h : DrawThenObserve P θ X (contLaw prior.dist) fun _ p => pmfLaw fun b : Bool => if b then p else 1 - p) :
    Calibrated P θ X (fun x => contLaw ((List.ofFn x).foldl
      (fun d b => bernoulli_beta (if b then 1 else 0 : ℝ) d) prior).dist) ∧
    IntervalCoverage P θ X (fun x => contLaw ((List.ofFn x).foldl
      (fun d b => bernoulli_beta (if b then 1 else 0 : ℝ) d) prior).dist) :=
  (bayes_bernoulli prior ha hb).both h

theorem bayes_negative_binomial (r : ℝ) (hr : 0 < r) : BayesModel (Ioo 0 1) prior.dist.pdf
    (fun _ : Fin n => Measure.count.restrict (Ici (0 : ℤ)))
    (fun _ => Ici (0 : ℤ)) (fun _ p k => (NegativeBinomial.dist ⟨r, p⟩).pmf k)
    (fun x => (negative_binomial_beta r (n : ℝ) (∑ i, (x i : ℝ)) prior).dist.pdf) (contLaw prior.dist)
    (fun _ p => discLaw (NegativeBinomial.dist ⟨r, p⟩))
    (fun x => contLaw (negative_binomial_beta r (n : ℝ) (∑ i, (x i : ℝ)) prior).dist) := by
  refine bayes_disc (d := fun p => NegativeBinomial.dist ⟨r, p⟩)
    (post := fun x => (negative_binomial_beta r (n : ℝ) (∑ i, (x i : ℝ)) prior).dist) measurableSet_Ioo (beta_lawOn _)
    (Beta.isDensity _ ha hb) (measurable_pdf (measurable_std_beta _ _) _ _) _ (fun k hk => hk) (fun p hp k hk => ?_)
    (fun k => ?_) (fun p hp => nb_prob hr hp.1 hp.2.le)
    (fun p hp => nb_nonneg r _ hr hp.1.le hp.2.le) (fun x hx => ?_) fun x hx => beta_lawOn _
  · simp only [NegativeBinomial.dist, Disc.pmf, DiscFamily.pmf0, sub_zero]
    exact if_neg fun h => hk h
  · simp only [NegativeBinomial.dist, Disc.pmf, DiscFamily.pmf0]
    split_ifs <;> fun_prop
  · have h := C03_negative_binomial_beta_posterior prior ha hb r hr (List.ofFn fun i => (x i).toNat)
    rw [sum_toNat hx, List.length_ofFn] at h
    exact h

/-- C103. Counts of failures before the `r`-th success. -/
theorem C103_negative_binomial_beta (r : ℝ) (hr : 0 < r) {θ : Ω → ℝ} {X : Ω → Fin n → ℤ}
    (h : DrawThenObserve P θ X (contLaw prior.dist) fun _ p => discLaw (NegativeBinomial.dist ⟨r, p⟩)) :
    Calibrated P θ X (fun x => contLaw (negative_binomial_beta r (n : ℝ) (∑ i, (x i : ℝ)) prior).dist) ∧
    IntervalCoverage P θ X fun x => contLaw (negative_binomial_beta r (n : ℝ) (∑ i, (x i : ℝ)) prior).dist :=
  (bayes_negative_binomial prior ha hb r hr).both h

theorem bayes_geometric (one_start : Bool) : BayesModel (Ioo 0 1) prior.dist.pdf
    (fun _ : Fin n => Measure.count.restrict (Ici (if one_start then 1 else 0 : ℤ)))
    (fun _ => Ici (if one_start then 1 else 0 : ℤ)) (fun _ p k => (Geometric.dist ⟨p, one_start⟩).pmf k)
    (fun x => (geometric_beta (∑ i, (x i : ℝ)) (n : ℝ) prior one_start).dist.pdf) (contLaw prior.dist)
    (fun _ p => discLaw (Geometric.dist ⟨p, one_start⟩))
    (fun x => contLaw (geometric_beta (∑ i, (x i : ℝ)) (n : ℝ) prior one_start).dist) := by
  refine bayes_disc (d := fun p => Geometric.dist ⟨p, one_start⟩)
    (post := fun x => (geometric_beta (∑ i, (x i : ℝ)) (n : ℝ) prior one_start).dist) measurableSet_Ioo (beta_lawOn _)
    (Beta.isDensity _ ha hb) (measurable_pdf (measurable_std_beta _ _) _ _) _ (fun k hk => ?_) (fun p hp k hk => ?_)
    (fun k => ?_) (fun p hp => geometric_prob hp.1 hp.2.le one_start)
    (fun p hp => geometric_nonneg hp.1.le hp.2.le one_start) (fun x hx => ?_) fun x hx => beta_lawOn _
  · have : (if one_start then 1 else 0 : ℤ) ≤ k := hk
    cases one_start <;> simp at this <;> omega
  · rcases lt_or_ge k 0 with h | h
    · exact geometric_neg _ _ _ h
    · have hk : ¬ (if one_start then 1 else 0 : ℤ) ≤ k := hk
      cases one_start
      · exact absurd h (by simpa using hk)
      · have : k = 0 := by simp at hk; omega
        subst this
        exact geometric_zero p
  · cases one_start <;> simp only [Geometric.dist, Disc.pmf, DiscFamily.pmf0] <;> split_ifs <;> fun_prop
  · have hx0 : ∀ i, 0 ≤ x i := fun i => by
      have : (if one_start then 1 else 0 : ℤ) ≤ x i := hx i
      cases one_start <;> simp at this <;> omega
    have h := C04_geometric_beta_posterior prior ha hb one_start (List.ofFn fun i => (x i).toNat)
      (forall_ofFn (p := fun x : ℕ => one_start = true → 1 ≤ x) fun i h1 => by
        have : (if one_start then 1 else 0 : ℤ) ≤ x i := hx i
        rw [h1] at this
        simp at this
        omega)
    rw [sum_toNat hx0, List.length_ofFn] at h
    exact h

/-- C103. Waiting times, counted from 0 or from 1. -/
theorem C103_geometric_beta (one_start : Bool) {θ : Ω → ℝ} {X : Ω → Fin n → ℤ}
    (h : DrawThenObserve P θ X (contLaw prior.dist) fun _ p => discLaw (Geometric.dist ⟨p, one_start⟩)) :
    Calibrated P θ X (fun x => contLaw (geometric_beta (∑ i, (x i : ℝ)) (n : ℝ) prior one_start).dist) ∧
    IntervalCoverage P θ X fun x => contLaw (geometric_beta (∑ i, (x i : ℝ)) (n : ℝ) prior one_start).dist :=
  (bayes_geometric prior ha hb one_start).both h

end Beta

/-! ## Gamma priors -/

section Gamma

variable (prior : Gamma ℝ) (ha : 0 < prior.alpha) (hb : 0 < prior.beta)
include ha hb

theorem bayes_poisson : BayesModel (Ioi 0) prior.dist.pdf (fun _ : Fin n => Measure.count.restrict (Ici (0 : ℤ)))
    (fun _ => Ici (0 : ℤ)) (fun _ l k => (Poisson.dist ⟨l⟩).pmf k)
    (fun x => (poisson_gamma (∑ i, (x i : ℝ)) (n : ℝ) prior).dist.pdf) (contLaw prior.dist)
    (fun _ l => discLaw (Poisson.dist ⟨l⟩))
    (fun x => contLaw (poisson_gamma (∑ i, (x i : ℝ)) (n : ℝ) prior).dist) := by
  refine bayes_disc (d := fun l => Poisson.dist ⟨l⟩)
    (post := fun x => (poisson_gamma (∑ i, (x i : ℝ)) (n : ℝ) prior).dist) measurableSet_Ioi (gamma_lawOn _ hb)
    (Gamma.isDensity _ ha hb) (measurable_pdf (measurable_std_gamma _) _ _) _ (fun k hk => hk) (fun l hl k hk => ?_)
    (fun k => ?_) (fun l hl => poisson_prob (le_of_lt hl)) (fun l hl => poisson_nonneg _ (le_of_lt hl)) (fun x hx => ?_)
    fun x hx => gamma_lawOn _ ?_
  · simp only [Poisson.dist, Disc.pmf, DiscFamily.pmf0, sub_zero]
    exact if_neg fun h => hk h
  · simp only [Poisson.dist, Disc.pmf, DiscFamily.pmf0]
    split_ifs <;> fun_prop
  · have h := C05_poisson_gamma_posterior prior ha hb (List.ofFn fun i => (x i).toNat)
    rw [sum_toNat hx, List.length_ofFn] at h
    exact h
  · simp only [poisson_gamma, getPoissonGammaPosteriorParams]
    positivity

/-- C103. Counts with a Poisson distribution. -/
theorem C103_poisson_gamma {θ : Ω → ℝ} {X : Ω → Fin n → ℤ}
    (h : DrawThenObserve P θ X (contLaw prior.dist) fun _ l => discLaw (Poisson.dist ⟨l⟩)) :
    Calibrated P θ X (fun x => contLaw (poisson_gamma (∑ i, (x i : ℝ)) (n : ℝ) prior).dist) ∧
    IntervalCoverage P θ X fun x => contLaw (poisson_gamma (∑ i, (x i : ℝ)) (n : ℝ) prior).dist :=
  (bayes_poisson prior ha hb).both h

theorem bayes_gamma_known_shape (shape : ℝ) (hk : 0 < shape) : BayesModel (Ioi 0) prior.dist.pdf
    (fun _ : Fin n => volume.restrict (Ioi 0)) (fun _ => Ioi 0) (fun _ r a => (Gamma.dist ⟨shape, r⟩).pdf a)
    (fun x => (gamma_known_shape (∑ i, x i) (n : ℝ) shape prior).dist.pdf) (contLaw prior.dist)
    (fun _ r => contLaw (Gamma.dist ⟨shape, r⟩))
    (fun x => contLaw (gamma_known_shape (∑ i, x i) (n : ℝ) shape prior).dist) := by
  refine bayes_cont (d := fun r => Gamma.dist ⟨shape, r⟩)
    (post := fun x => (gamma_known_shape (∑ i, x i) (n : ℝ) shape prior).dist) measurableSet_Ioi (gamma_lawOn _ hb)
    (Gamma.isDensity _ ha hb) (measurable_pdf (measurable_std_gamma _) _ _) measurableSet_Ioi
    (fun r hr => gamma_lawOn _ hr) (measurable_loc_scale (loc := fun _ : ℝ => 0) (scale := fun θ : ℝ => 1 / θ)
      (measurable_std_gamma shape) measurable_const (by fun_prop)) (fun r hr => gamma_prob hk hr)
    (fun r hr => (Gamma.isDensity ⟨shape, r⟩ hk hr).1) (fun x hx => ?_) fun x hx => gamma_lawOn _ ?_
  · have h := C07_gamma_known_shape_posterior prior ha hb shape hk (List.ofFn x) (forall_ofFn hx)
    rw [List.sum_ofFn, List.length_ofFn] at h
    exact h
  · simp only [gamma_known_shape]
    have : 0 ≤ ∑ i, x i := Finset.sum_nonneg fun i _ => le_of_lt (hx i)
    positivity

/-- C103. Gamma observations with known shape. -/
theorem C103_gamma_known_shape (shape : ℝ) (hk : 0 < shape) {θ : Ω → ℝ} {X : Ω → Fin n → ℝ}
    (h : DrawThenObserve P θ X (contLaw prior.dist) fun _ r => contLaw (Gamma.dist ⟨shape, r⟩)) :
    Calibrated P θ X (fun x => contLaw (gamma_known_shape (∑ i, x i) (n : ℝ) shape prior).dist) ∧
    IntervalCoverage P θ X fun x => contLaw (gamma_known_shape (∑ i, x i) (n : ℝ) shape prior).dist :=
  (bayes_gamma_known_shape prior ha hb shape hk).both h

theorem bayes_inverse_gamma (shape : ℝ) (hk : 0 < shape) : BayesModel (Ioi 0) prior.dist.pdf
    (fun _ : Fin n => volume.restrict (Ioi 0)) (fun _ => Ioi 0) (fun _ s a => (InverseGamma.dist ⟨shape, s⟩).pdf a)
    (fun x => (inverse_gamma_known_rate (∑ i, 1 / x i) (n : ℝ) shape prior).dist.pdf) (contLaw prior.dist)
    (fun _ s => contLaw (InverseGamma.dist ⟨shape, s⟩))
    (fun x => contLaw (inverse_gamma_known_rate (∑ i, 1 / x i) (n : ℝ) shape prior).dist) := by
  refine bayes_cont (d := fun s => InverseGamma.dist ⟨shape, s⟩)
    (post := fun x => (inverse_gamma_known_rate (∑ i, 1 / x i) (n : ℝ) shape prior).dist) measurableSet_Ioi
    (gamma_lawOn _ hb)
    (Gamma.isDensity _ ha hb) (measurable_pdf (measurable_std_gamma _) _ _) measurableSet_Ioi
    (fun r hr => invgamma_lawOn _ hr) (measurable_loc_scale (loc := fun _ : ℝ => 0) (scale := fun θ : ℝ => θ)
      (measurable_std_invgamma shape) measurable_const measurable_id) (fun r hr => invgamma_prob hk hr)
    (fun r hr => (InverseGamma.isDensity ⟨shape, r⟩ hk hr).1) (fun x hx => ?_) fun x hx => gamma_lawOn _ ?_
  · have h := C08_inverse_gamma_known_rate_posterior prior ha hb shape hk (List.ofFn x) (forall_ofFn hx)
    rw [List.map_ofFn, List.sum_ofFn, List.length_ofFn] at h
    exact h
  · simp only [inverse_gamma_known_rate]
    have : 0 ≤ ∑ i, 1 / x i := Finset.sum_nonneg fun i _ => one_div_nonneg.2 (le_of_lt (hx i))
    positivity

/-- C103. Inverse gamma observations with known shape. -/
theorem C103_inverse_gamma_known_rate (shape : ℝ) (hk : 0 < shape) {θ : Ω → ℝ} {X : Ω → Fin n → ℝ}
    (h : DrawThenObserve P θ X (contLaw prior.dist) fun _ s => contLaw (InverseGamma.dist ⟨shape, s⟩)) :
    Calibrated P θ X (fun x => contLaw (inverse_gamma_known_rate (∑ i, 1 / x i) (n : ℝ) shape prior).dist) ∧
    IntervalCoverage P θ X fun x => contLaw (inverse_gamma_known_rate (∑ i, 1 / x i) (n : ℝ) shape prior).dist :=
  (bayes_inverse_gamma prior ha hb shape hk).both h

theorem bayes_pareto (x_m : ℝ) (hm : 0 < x_m) : BayesModel (Ioi 0) prior.dist.pdf
    (fun _ : Fin n => volume.restrict (Ici x_m)) (fun _ => Ici x_m) (fun _ s a => (Pareto.dist ⟨x_m, s⟩).pdf a)
    (fun x => (pareto_gamma (n : ℝ) (∑ i, log (x i)) x_m prior Real.log).dist.pdf) (contLaw prior.dist)
    (fun _ s => contLaw (Pareto.dist ⟨x_m, s⟩))
    (fun x => contLaw (pareto_gamma (n : ℝ) (∑ i, log (x i)) x_m prior Real.log).dist) := by
  refine bayes_cont (d := fun s => Pareto.dist ⟨x_m, s⟩)
    (post := fun x => (pareto_gamma (n : ℝ) (∑ i, log (x i)) x_m prior Real.log).dist) measurableSet_Ioi
    (gamma_lawOn _ hb)
    (Gamma.isDensity _ ha hb) (measurable_pdf (measurable_std_gamma _) _ _) measurableSet_Ici
    (fun a ha => contLaw_eq_lawOn _ measurableSet_Ici (Filter.Eventually.of_forall fun x hx =>
      Pareto.pdf_eq_zero ⟨x_m, a⟩ hm (not_le.1 hx))) ?_ (fun a ha => pareto_prob hm ha)
    (fun a ha x hx => ?_) (fun x hx => ?_) fun x hx => gamma_lawOn _ ?_
  · have h1 : Measurable fun q : ℝ × ℝ => (q.1, (q.2 - 0) / x_m) := by fun_prop
    exact (measurable_std_pareto.comp h1).div_const x_m
  · have ha : 0 < a := ha
    have hx : x_m ≤ x := hx
    have hx0 := hm.trans_le hx
    rw [Pareto.pdf_eq ⟨x_m, a⟩ hm hx]
    positivity
  · have h := C09_pareto_gamma_posterior prior ha hb x_m hm (List.ofFn x) (forall_ofFn hx)
    rw [List.map_ofFn, List.sum_ofFn, List.length_ofFn] at h
    exact h
  · have e : (pareto_gamma (n : ℝ) (∑ i, log (x i)) x_m prior Real.log).beta =
        prior.beta + ∑ i, (log (x i) - log x_m) := by
      simp only [pareto_gamma, Finset.sum_sub_distrib]
      simp
      ring
    have h2 : 0 ≤ ∑ i, (log (x i) - log x_m) :=
      Finset.sum_nonneg fun i _ => sub_nonneg.2 (log_le_log hm (hx i))
    rw [e]
    positivity

/-- C103. Pareto observations with known minimum. -/
theorem C103_pareto_gamma (x_m : ℝ) (hm : 0 < x_m) {θ : Ω → ℝ} {X : Ω → Fin n → ℝ}
    (h : DrawThenObserve P θ X (contLaw prior.dist) fun _ s => contLaw (Pareto.dist ⟨x_m, s⟩)) :
    Calibrated P θ X (fun x => contLaw (pareto_gamma (n : ℝ) (∑ i, log (x i)) x_m prior Real.log).dist) ∧
    IntervalCoverage P θ X fun x => contLaw (pareto_gamma (n : ℝ) (∑ i, log (x i)) x_m prior Real.log).dist :=
  (bayes_pareto prior ha hb x_m hm).both h

end Gamma

/-! ## Other priors -/

theorem bayes_uniform (prior : Pareto ℝ) (hm : 0 < prior.x_m) (ha : 0 < prior.alpha) : BayesModel (Ioi 0) prior.dist.pdf
    (fun _ : Fin (n + 1) => volume.restrict (Ioi 0)) (fun _ => Ioi 0) (fun _ t a => (Uniform.dist ⟨0, t⟩).pdf a)
    (fun x => (uniform_pareto (Finset.univ.sup' Finset.univ_nonempty x) ((n + 1 : ℕ) : ℝ) prior max).dist.pdf)
    (contLaw prior.dist) (fun _ t => contLaw (Uniform.dist ⟨0, t⟩))
    (fun x => contLaw (uniform_pareto (Finset.univ.sup' Finset.univ_nonempty x) ((n + 1 : ℕ) : ℝ) prior max).dist) := by
  have hpm : Measurable prior.dist.pdf := by
    have h1 : Measurable fun x : ℝ => (prior.alpha, (x - 0) / prior.x_m) := by fun_prop
    exact (measurable_std_pareto.comp h1).div_const _
  refine bayes_cont (d := fun t => Uniform.dist ⟨0, t⟩)
    (post := fun x => (uniform_pareto (Finset.univ.sup' Finset.univ_nonempty x) ((n + 1 : ℕ) : ℝ) prior max).dist)
    measurableSet_Ioi (pareto_lawOn _ hm) (Pareto.isDensity _ hm ha) hpm measurableSet_Ioi
    (fun t ht => contLaw_eq_lawOn _ measurableSet_Ioi ?_)
    (measurable_loc_scale (loc := fun _ : ℝ => 0) (scale := fun θ : ℝ => θ) measurable_std_uniform
      measurable_const measurable_id) (fun t ht => uniform_prob ht)
    (fun t ht x hx => ?_) (fun x hx => ?_) fun x hx => pareto_lawOn _ ?_
  · have h0 : ∀ᵐ x : ℝ, x ≠ 0 := by simp [ae_iff]
    filter_upwards [h0] with x hx hx'
    have ht : 0 < t := ht
    have hx' : x < 0 := lt_of_le_of_ne (not_lt.1 hx') hx
    simp only [Uniform.dist, Cont.pdf, Family.std, sub_zero]
    rw [if_neg (by
      rintro ⟨h, -⟩
      exact absurd h (not_le.2 (div_neg_of_neg_of_pos hx' ht))), zero_div]
  · have ht : 0 < t := ht
    simp only [Uniform.dist, Cont.pdf, Family.std]
    split_ifs <;> positivity
  · obtain ⟨j, -, hj⟩ := Finset.exists_mem_eq_sup' (Finset.univ_nonempty (α := Fin (n + 1))) x
    have h := C10_uniform_pareto_posterior prior hm ha (List.ofFn x) (forall_ofFn hx)
      (Finset.univ.sup' Finset.univ_nonempty x) ((List.mem_ofFn' _ _).2 ⟨j, hj.symm⟩)
      (forall_ofFn (p := fun a => a ≤ Finset.univ.sup' Finset.univ_nonempty x) fun i =>
        Finset.le_sup' x (Finset.mem_univ i))
    rw [List.length_ofFn] at h
    exact h
  · simp only [uniform_pareto]
    exact lt_max_of_lt_left hm

/-- C103. Uniform observations on `(0, θ)`; at least one. -/
theorem C103_uniform_pareto (prior : Pareto ℝ) (hm : 0 < prior.x_m) (ha : 0 < prior.alpha) {θ : Ω → ℝ}
    {X : Ω → Fin (n + 1) → ℝ}
    (h : DrawThenObserve P θ X (contLaw prior.dist) fun _ t => contLaw (Uniform.dist ⟨0, t⟩)) :
    Calibrated P θ X (fun x => contLaw
      (uniform_pareto (Finset.univ.sup' Finset.univ_nonempty x) ((n + 1 : ℕ) : ℝ) prior max).dist) ∧
    IntervalCoverage P θ X fun x => contLaw
      (uniform_pareto (Finset.univ.sup' Finset.univ_nonempty x) ((n + 1 : ℕ) : ℝ) prior max).dist :=
  (bayes_uniform prior hm ha).both h

theorem bayes_weibull (prior : InverseGamma ℝ) (ha : 0 < prior.alpha) (hb : 0 < prior.beta) (k : ℝ) (hk : 0 < k) :
    BayesModel (Ioi 0) prior.dist.pdf
    (fun _ : Fin n => volume.restrict (Ioi 0)) (fun _ => Ioi 0) (fun _ t a => (Weibull.dist ⟨k, t⟩).pdf a)
    (fun x => (weibull_inverse_gamma_known_shape (n : ℝ) (∑ i, x i ^ k) prior).dist.pdf)
    (contLaw prior.dist) (fun _ t => contLaw (Weibull.dist ⟨k, t⟩))
    (fun x => contLaw (weibull_inverse_gamma_known_shape (n : ℝ) (∑ i, x i ^ k) prior).dist) := by
  refine bayes_cont (d := fun t => Weibull.dist ⟨k, t⟩)
    (post := fun x => (weibull_inverse_gamma_known_shape (n : ℝ) (∑ i, x i ^ k) prior).dist)
    measurableSet_Ioi (invgamma_lawOn _ hb) (InverseGamma.isDensity _ ha hb)
    (measurable_pdf (measurable_std_invgamma _) _ _) measurableSet_Ioi
    (fun t ht => contLaw_eq_lawOn _ measurableSet_Ioi ?_)
    (measurable_loc_scale (loc := fun _ : ℝ => 0) (scale := fun θ : ℝ => θ ^ (1 / k)) (measurable_std_weibull k)
      measurable_const (by fun_prop)) (fun t ht => weibull_prob hk ht)
    (fun t ht x hx => ?_) (fun x hx => ?_) fun x hx => invgamma_lawOn _ ?_
  · have h0 : ∀ᵐ x : ℝ, x ≠ 0 := by simp [ae_iff]
    filter_upwards [h0] with x hx hx'
    have hs := rpow_pos_of_pos ht (1 / k)
    have hx' : x < 0 := lt_of_le_of_ne (not_lt.1 hx') hx
    simp only [Weibull.dist, Cont.pdf, Family.std, sub_zero]
    rw [if_neg (not_le.2 (div_neg_of_neg_of_pos hx' hs)), zero_div]
  · have ht : 0 < t := ht
    have hs := rpow_pos_of_pos ht (1 / k)
    simp only [Weibull.dist, Cont.pdf, Family.std, sub_zero]
    split_ifs with h
    · positivity
    · simp
  · have h := C11_weibull_posterior prior ha hb k hk (List.ofFn x) (forall_ofFn hx)
    rw [List.map_ofFn, List.sum_ofFn, List.length_ofFn] at h
    exact h
  · simp only [weibull_inverse_gamma_known_shape]
    have : 0 ≤ ∑ i, x i ^ k := Finset.sum_nonneg fun i _ => rpow_nonneg (le_of_lt (hx i)) k
    positivity

/-- C103. Weibull observations with known shape. -/
theorem C103_weibull_inverse_gamma (prior : InverseGamma ℝ) (ha : 0 < prior.alpha) (hb : 0 < prior.beta) (k : ℝ)
    (hk : 0 < k) {θ : Ω → ℝ} {X : Ω → Fin n → ℝ}
    (h : DrawThenObserve P θ X (contLaw prior.dist) fun _ t => contLaw (Weibull.dist ⟨k, t⟩)) :
    Calibrated P θ X (fun x => contLaw (weibull_inverse_gamma_known_shape (n : ℝ) (∑ i, x i ^ k) prior).dist) ∧
    IntervalCoverage P θ X fun x => contLaw (weibull_inverse_gamma_known_shape (n : ℝ) (∑ i, x i ^ k) prior).dist :=
  (bayes_weibull prior ha hb k hk).both h

theorem bayes_normal_known_variance (prior : Normal ℝ) (hs : 0 < prior.sigma) (var : ℝ) (hv : 0 < var) :
    BayesModel univ prior.dist.pdf
    (fun _ : Fin n => volume.restrict univ) (fun _ => univ) (fun _ m a => (Normal.dist ⟨m, √var⟩).pdf a)
    (fun x => (normal_known_variance (∑ i, x i) (n : ℝ) var prior).dist.pdf)
    (contLaw prior.dist) (fun _ m => contLaw (Normal.dist ⟨m, √var⟩))
    (fun x => contLaw (normal_known_variance (∑ i, x i) (n : ℝ) var prior).dist) := by
  refine bayes_cont (d := fun m => Normal.dist ⟨m, √var⟩)
    (post := fun x => (normal_known_variance (∑ i, x i) (n : ℝ) var prior).dist)
    MeasurableSet.univ (norm_lawOn _) (Normal.isDensity _ hs) (measurable_pdf measurable_std_norm _ _)
    MeasurableSet.univ (fun t ht => norm_lawOn _)
    (measurable_loc_scale (loc := fun m : ℝ => m) (scale := fun _ : ℝ => √var) measurable_std_norm
      measurable_id measurable_const) (fun m _ => normal_prob m (sqrt_pos.2 hv))
    (fun m _ x _ => normal_pdf_nonneg m (sqrt_pos.2 hv) x) (fun x hx => ?_) fun x hx => norm_lawOn _
  have h := C12_normal_known_variance_posterior prior hs var hv (List.ofFn x)
  rw [List.sum_ofFn, List.length_ofFn] at h
  exact h

/-- C103. Normal observations with known variance. -/
theorem C103_normal_known_variance (prior : Normal ℝ) (hs : 0 < prior.sigma) (var : ℝ) (hv : 0 < var)
    {θ : Ω → ℝ} {X : Ω → Fin n → ℝ}
    (h : DrawThenObserve P θ X (contLaw prior.dist) fun _ m => contLaw (Normal.dist ⟨m, √var⟩)) :
    Calibrated P θ X (fun x => contLaw (normal_known_variance (∑ i, x i) (n : ℝ) var prior).dist) ∧
    IntervalCoverage P θ X fun x => contLaw (normal_known_variance (∑ i, x i) (n : ℝ) var prior).dist :=
  (bayes_normal_known_variance prior hs var hv).both h

/-- C103. Normal observations with known precision. -/
theorem C103_normal_known_precision (prior : Normal ℝ) (hs : 0 < prior.sigma) (precision : ℝ) (hv : 0 < precision)
    {θ : Ω → ℝ} {X : Ω → Fin n → ℝ}
    (h : DrawThenObserve P θ X (contLaw prior.dist) fun _ m => contLaw (Normal.dist ⟨m, √(1 / precision)⟩)) :
    Calibrated P θ X (fun x => contLaw (normal_known_precision (∑ i, x i) (n : ℝ) precision prior).dist) ∧
    IntervalCoverage P θ X fun x => contLaw (normal_known_precision (∑ i, x i) (n : ℝ) precision prior).dist := by
  have h := C103_normal_known_variance prior hs (1 / precision) (by positivity) h
  simpa only [normal_known_precision, lit_real, Rat.cast_one] using h

/-- the frozen distribution of either class -/
noncomputable def VariancePrior.frozen : VariancePrior ℝ → Cont
  | .inverseGamma d => d.dist
  | .scaledInverseChiSquared d => d.dist

theorem VariancePrior.frozen_lawOn (d : VariancePrior ℝ) (h : d.Valid) :
    contLaw d.frozen = lawOn (Ioi 0) d.pdf ∧ d.frozen.pdf = d.pdf ∧ Measurable d.pdf := by
  cases d with
  | inverseGamma d => exact ⟨invgamma_lawOn d h.2, rfl, measurable_pdf (measurable_std_invgamma _) _ _⟩
  | scaledInverseChiSquared d =>
    have h1 := h.1; have h2 := h.2
    refine ⟨?_, rfl, measurable_pdf (measurable_std_invgamma _) _ _⟩
    simp only [VariancePrior.frozen, VariancePrior.pdf, ScaledInverseChiSquared.dist_eq]
    exact invgamma_lawOn _ (by simp [ScaledInverseChiSquared.to_inverse_gamma]; positivity)

theorem normal_known_mean_valid (prior : VariancePrior ℝ) (hp : prior.Valid) (mu : ℝ) (xs : List ℝ) :
    (normal_known_mean xs.sum (xs.map (· ^ 2)).sum (xs.length : ℝ) mu prior).Valid := by
  cases prior with
  | inverseGamma d => exact (C13_inverse_gamma d hp.1 hp.2 mu xs).1
  | scaledInverseChiSquared d =>
    have h1 := hp.1; have h2 := hp.2
    have h := (C13_inverse_gamma d.to_inverse_gamma
      (by simp [ScaledInverseChiSquared.to_inverse_gamma]; positivity)
      (by simp [ScaledInverseChiSquared.to_inverse_gamma]; positivity) mu xs).1
    have e1 := h.1; have e2 := h.2
    simp only [normal_known_mean, VariancePrior.Valid, ScaledInverseChiSquared.from_inverse_gamma]
    constructor
    · simp; exact e1
    · simp; positivity

theorem bayes_normal_known_mean (prior : VariancePrior ℝ) (hp : prior.Valid) (mu : ℝ) :
    BayesModel (Ioi 0) prior.frozen.pdf
    (fun _ : Fin n => volume.restrict univ) (fun _ => univ) (fun _ v a => (Normal.dist ⟨mu, √v⟩).pdf a)
    (fun x => (normal_known_mean (∑ i, x i) (∑ i, x i ^ 2) (n : ℝ) mu prior).frozen.pdf)
    (contLaw prior.frozen) (fun _ v => contLaw (Normal.dist ⟨mu, √v⟩))
    (fun x => contLaw (normal_known_mean (∑ i, x i) (∑ i, x i ^ 2) (n : ℝ) mu prior).frozen) := by
  obtain ⟨h1, h2, h3⟩ := prior.frozen_lawOn hp
  have hv : ∀ x : Fin n → ℝ, (normal_known_mean (∑ i, x i) (∑ i, x i ^ 2) (n : ℝ) mu prior).Valid := fun x => by
    have h := normal_known_mean_valid prior hp mu (List.ofFn x)
    rw [List.map_ofFn, List.sum_ofFn, List.sum_ofFn, List.length_ofFn] at h
    exact h
  refine bayes_cont (d := fun v => Normal.dist ⟨mu, √v⟩)
    (post := fun x => (normal_known_mean (∑ i, x i) (∑ i, x i ^ 2) (n : ℝ) mu prior).frozen)
    measurableSet_Ioi (h2 ▸ h1) (h2 ▸ prior.isDensity hp) (h2 ▸ h3)
    MeasurableSet.univ (fun t ht => norm_lawOn _)
    (measurable_loc_scale (loc := fun _ : ℝ => mu) (scale := fun v : ℝ => √v) measurable_std_norm
      measurable_const (by fun_prop)) (fun v hv => normal_prob mu (sqrt_pos.2 hv))
    (fun v hv x _ => normal_pdf_nonneg mu (sqrt_pos.2 hv) x) (fun x hx => ?_) fun x hx => ?_
  · have h := C13_normal_known_mean_posterior prior hp mu (List.ofFn x)
    rw [List.map_ofFn, List.sum_ofFn, List.sum_ofFn, List.length_ofFn] at h
    rw [h2, (VariancePrior.frozen_lawOn _ (hv x)).2.1]
    exact h
  · obtain ⟨e1, e2, -⟩ := VariancePrior.frozen_lawOn _ (hv x)
    rw [e2]
    exact e1

/-- C103. Normal observations with known mean; either class of prior for the variance. -/
theorem C103_normal_known_mean (prior : VariancePrior ℝ) (hp : prior.Valid) (mu : ℝ)
    {θ : Ω → ℝ} {X : Ω → Fin n → ℝ}
    (h : DrawThenObserve P θ X (contLaw prior.frozen) fun _ v => contLaw (Normal.dist ⟨mu, √v⟩)) :
    Calibrated P θ X
      (fun x => contLaw (normal_known_mean (∑ i, x i) (∑ i, x i ^ 2) (n : ℝ) mu prior).frozen) ∧
    IntervalCoverage P θ X
      fun x => contLaw (normal_known_mean (∑ i, x i) (∑ i, x i ^ 2) (n : ℝ) mu prior).frozen :=
  (bayes_normal_known_mean prior hp mu).both h

/-! ## The setting of each theorem exists -/

example := (bayes_binomial (n := 3) ⟨1, 2⟩ one_pos two_pos 10).exists_draw
example := (bayes_bernoulli (n := 3) ⟨1, 2⟩ one_pos two_pos).exists_draw
example := (bayes_negative_binomial (n := 3) ⟨1, 2⟩ one_pos two_pos (5 / 2) (by norm_num)).exists_draw
example := (bayes_geometric (n := 3) ⟨1, 2⟩ one_pos two_pos true).exists_draw
example := (bayes_poisson (n := 3) ⟨1, 2⟩ one_pos two_pos).exists_draw
example := (bayes_gamma_known_shape (n := 3) ⟨1, 2⟩ one_pos two_pos (1 / 2) (by norm_num)).exists_draw
example := (bayes_inverse_gamma (n := 3) ⟨1, 2⟩ one_pos two_pos (1 / 2) (by norm_num)).exists_draw
example := (bayes_pareto (n := 3) ⟨1, 2⟩ one_pos two_pos (1 / 2) (by norm_num)).exists_draw
example := (bayes_uniform (n := 3) ⟨1, 2⟩ one_pos two_pos).exists_draw
example := (bayes_weibull (n := 3) ⟨1, 2⟩ one_pos two_pos (1 / 2) (by norm_num)).exists_draw
example := (bayes_normal_known_variance (n := 3) ⟨1, 2⟩ two_pos (1 / 2) (by norm_num)).exists_draw
example := (bayes_normal_known_mean (n := 3) (.inverseGamma ⟨1, 2⟩) ⟨one_pos, two_pos⟩ 5).exists_draw

/-- the 95% interval of `scripts/parameter-recovery.py` for Poisson data, on an actual probability space -/
example : ∃ (Ω : Type) (_ : MeasurableSpace Ω) (P : Measure Ω) (θ : Ω → ℝ) (X : Ω → Fin 5 → ℤ),
    DrawThenObserve P θ X (contLaw (Gamma.dist ⟨5, 1⟩)) (fun _ l => discLaw (Poisson.dist ⟨l⟩)) ∧
    P {ω | ppf (contLaw (poisson_gamma (∑ i, (X ω i : ℝ)) ((5 : ℕ) : ℝ) ⟨5, 1⟩).dist) 0.025 ≤ θ ω ∧
      θ ω ≤ ppf (contLaw (poisson_gamma (∑ i, (X ω i : ℝ)) ((5 : ℕ) : ℝ) ⟨5, 1⟩).dist) 0.975} =
        ENNReal.ofReal 0.95 := by
  have h5 : (0 : ℝ) < 5 := by norm_num
  obtain ⟨Ω, m, P, θ, X, -, h⟩ := (bayes_poisson (n := 5) ⟨5, 1⟩ h5 one_pos).exists_draw
  refine ⟨Ω, m, P, θ, X, h, ?_⟩
  have := (C103_poisson_gamma ⟨5, 1⟩ h5 one_pos h).2 0.025 0.975 (by norm_num) (by norm_num) (by norm_num)
  rw [show (0.975 : ℝ) - 0.025 = 0.95 by norm_num] at this
  exact this

end Conj
