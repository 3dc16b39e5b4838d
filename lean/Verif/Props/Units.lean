import Verif.UnitsSpec
import Verif.Props.Identifiable
import Verif.Props.IdentifiableMatrix
import Verif.Props.MonotonePredictive
import Verif.Props.PosteriorNormal
import Mathlib.MeasureTheory.Measure.Haar.NormedSpace

/-!
# C101: changing the units of the data changes the units of the answer and nothing else
-/

open MeasureTheory Set Real

namespace Conj

open Scipy Spec

/-- What `Rescaled` says about probabilities: every event has the same probability in both units. -/
theorem Rescaled.law {c d : ℝ} (hc : c ≠ 0) {f g : ℝ → ℝ} (h : Rescaled c d f g) (B : Set ℝ) (hB : MeasurableSet B) :
    ∫ x in {x | c * x + d ∈ B}, f x = ∫ y in B, g y := by
  have hm : Measurable fun x : ℝ => c * x + d := by fun_prop
  rw [← integral_indicator (show MeasurableSet {x | c * x + d ∈ B} from hm hB), ← integral_indicator hB]
  have e : (fun x => ({x | c * x + d ∈ B} : Set ℝ).indicator f x) =
      fun x => |c| * (fun y => B.indicator g (y + d)) (c * x) := by
    funext x
    by_cases hx : c * x + d ∈ B
    · rw [indicator_of_mem (show x ∈ {x | c * x + d ∈ B} from hx), h x]
      simp only [indicator_of_mem hx]
    · rw [indicator_of_notMem (show x ∉ {x | c * x + d ∈ B} from hx)]
      simp only [indicator_of_notMem hx, mul_zero]
  rw [show (∫ x, ({x | c * x + d ∈ B} : Set ℝ).indicator f x) = ∫ x, |c| * (fun y => B.indicator g (y + d)) (c * x) from
    congrArg _ e, integral_const_mul, Measure.integral_comp_mul_left (fun y => B.indicator g (y + d)) c,
    integral_add_right_eq_self (fun y => B.indicator g y) d, smul_eq_mul, abs_inv, ← mul_assoc,
    mul_inv_cancel₀ (abs_pos.2 hc).ne', one_mul]

theorem Rescaled.unique {c d : ℝ} (hc : c ≠ 0) {f g h : ℝ → ℝ} (h1 : Rescaled c d f g) (h2 : Rescaled c d f h) :
    ∀ y, g y = h y := by
  intro y
  have e := (h1 ((y - d) / c)).symm.trans (h2 ((y - d) / c))
  rw [show c * ((y - d) / c) + d = y by field_simp; ring] at e
  exact mul_left_cancel₀ (abs_pos.2 hc).ne' e

theorem Cont.rescaled (F : Family) (l s : ℝ) {c : ℝ} (hc : 0 < c) (d : ℝ) :
    Rescaled c d (Cont.pdf ⟨F, l, s⟩) (Cont.pdf ⟨F, c * l + d, c * s⟩) := by
  intro x
  simp only [Cont.pdf]
  rw [abs_of_pos hc, show c * x + d - (c * l + d) = c * (x - l) by ring, mul_div_mul_left _ _ hc.ne']
  rw [← mul_div_assoc, mul_div_mul_left _ _ hc.ne']

/-! ## The families -/

theorem Gamma.rescaled_iff {d d' : Gamma ℝ} (hd : d.Valid) (hd' : d'.Valid) {c : ℝ} (hc : 0 < c) :
    Rescaled c 0 d.dist.pdf d'.dist.pdf ↔ d' = ⟨d.alpha, d.beta / c⟩ := by
  have base : Rescaled c 0 d.dist.pdf (Gamma.dist ⟨d.alpha, d.beta / c⟩).pdf := by
    have := Cont.rescaled (.gamma d.alpha) 0 (1 / d.beta) hc 0
    rw [show c * 0 + 0 = (0 : ℝ) by ring, show c * (1 / d.beta) = 1 / (d.beta / c) by
      have := hd.2; field_simp] at this
    exact this
  constructor
  · intro h
    exact C97_gamma d' ⟨d.alpha, d.beta / c⟩ hd' ⟨hd.1, div_pos hd.2 hc⟩ fun x _ => Rescaled.unique hc.ne' h base x
  · rintro rfl
    exact base

theorem InverseGamma.rescaled_iff {d d' : InverseGamma ℝ} (hd : d.Valid) (hd' : d'.Valid) {c : ℝ} (hc : 0 < c) :
    Rescaled c 0 d.dist.pdf d'.dist.pdf ↔ d' = ⟨d.alpha, c * d.beta⟩ := by
  have base : Rescaled c 0 d.dist.pdf (InverseGamma.dist ⟨d.alpha, c * d.beta⟩).pdf := by
    have := Cont.rescaled (.invgamma d.alpha) 0 d.beta hc 0
    rw [show c * 0 + 0 = (0 : ℝ) by ring] at this
    exact this
  constructor
  · intro h
    exact C97_inverse_gamma d' ⟨d.alpha, c * d.beta⟩ hd' ⟨hd.1, mul_pos hc hd.2⟩ fun x _ => Rescaled.unique hc.ne' h base x
  · rintro rfl
    exact base

theorem ScaledInverseChiSquared.rescaled_iff {d d' : ScaledInverseChiSquared ℝ} (hn : 0 < d.nu) (hs : 0 < d.sigma2)
    (hn' : 0 < d'.nu) (hs' : 0 < d'.sigma2) {c : ℝ} (hc : 0 < c) :
    Rescaled c 0 d.dist.pdf d'.dist.pdf ↔ d' = ⟨d.nu, c * d.sigma2⟩ := by
  have base : Rescaled c 0 d.dist.pdf (ScaledInverseChiSquared.dist ⟨d.nu, c * d.sigma2⟩).pdf := by
    have := Cont.rescaled (.invgamma (d.nu / 2)) 0 (d.nu * d.sigma2 / 2) hc 0
    rw [show c * 0 + 0 = (0 : ℝ) by ring, show c * (d.nu * d.sigma2 / 2) = d.nu * (c * d.sigma2) / 2 by ring] at this
    exact this
  constructor
  · intro h
    exact C97_scaled_inverse_chi_squared d' ⟨d.nu, c * d.sigma2⟩ hn' hs' hn (mul_pos hc hs)
      fun x _ => Rescaled.unique hc.ne' h base x
  · rintro rfl
    exact base

theorem Pareto.rescaled_iff {d d' : Pareto ℝ} (hd : d.Valid) (hd' : d'.Valid) {c : ℝ} (hc : 0 < c) :
    Rescaled c 0 d.dist.pdf d'.dist.pdf ↔ d' = ⟨c * d.x_m, d.alpha⟩ := by
  have base : Rescaled c 0 d.dist.pdf (Pareto.dist ⟨c * d.x_m, d.alpha⟩).pdf := by
    have := Cont.rescaled (.pareto d.alpha) 0 d.x_m hc 0
    rw [show c * 0 + 0 = (0 : ℝ) by ring] at this
    exact this
  constructor
  · intro h
    exact C97_pareto d' ⟨c * d.x_m, d.alpha⟩ hd' ⟨mul_pos hc hd.1, hd.2⟩ fun x _ => Rescaled.unique hc.ne' h base x
  · rintro rfl
    exact base

theorem Normal.rescaled (m s : ℝ) {c : ℝ} (hc : c ≠ 0) (d : ℝ) :
    Rescaled c d (Normal.dist ⟨m, s⟩).pdf (Normal.dist ⟨c * m + d, |c| * s⟩).pdf := by
  have h := Cont.rescaled .norm m s (abs_pos.2 hc) d
  rcases lt_or_gt_of_ne hc with hn | hp
  · intro x
    have e := h x
    rw [abs_abs] at e
    refine e.trans ?_
    simp only [Normal.dist, Cont.pdf, Family.std]
    rw [abs_of_neg hn]
    congr 5
    field_simp
    ring
  · rw [abs_of_pos hp] at h ⊢
    exact h

theorem Normal.rescaled_iff {e e' : Normal ℝ} (hs : 0 < e.sigma) (hs' : 0 < e'.sigma) {c : ℝ} (hc : c ≠ 0) (d : ℝ) :
    Rescaled c d e.dist.pdf e'.dist.pdf ↔ e' = ⟨c * e.mu + d, |c| * e.sigma⟩ := by
  constructor
  · intro h
    exact C97_normal e' ⟨c * e.mu + d, |c| * e.sigma⟩ hs' (mul_pos (abs_pos.2 hc) hs)
      fun x => Rescaled.unique hc h (Normal.rescaled e.mu e.sigma hc d) x
  · rintro rfl
    exact Normal.rescaled e.mu e.sigma hc d

theorem StudentT.rescaled (m s nu : ℝ) {c : ℝ} (hc : c ≠ 0) (d : ℝ) :
    Rescaled c d (StudentT.dist ⟨m, s, nu⟩).pdf (StudentT.dist ⟨c * m + d, |c| * s, nu⟩).pdf := by
  have h := Cont.rescaled (.t nu) m s (abs_pos.2 hc) d
  rcases lt_or_gt_of_ne hc with hn | hp
  · intro x
    have e := h x
    rw [abs_abs] at e
    refine e.trans ?_
    simp only [StudentT.dist, Cont.pdf, Family.std]
    rw [show |c| * x + d - (|c| * m + d) = -(c * x + d - (c * m + d)) by rw [abs_of_neg hn]; ring, neg_div, neg_sq]
  · rw [abs_of_pos hp] at h ⊢
    exact h

/-! ## Rates -/

/-- C101 Poisson: rates per another unit of exposure.  The rate is multiplied by `c`, the exposure divided by it. -/
theorem C101_poisson_gamma {prior prior' : Gamma ℝ} (hp : prior.Valid) (hp' : prior'.Valid) {c : ℝ} (hc : 0 < c)
    (h : Rescaled c 0 prior.dist.pdf prior'.dist.pdf) {x n : ℝ} (hx : 0 ≤ x) (hn : 0 ≤ n) :
    Rescaled c 0 (poisson_gamma x n prior).dist.pdf (poisson_gamma x (n / c) prior').dist.pdf := by
  obtain rfl := (Gamma.rescaled_iff hp hp' hc).1 h
  obtain ⟨a, b⟩ := prior
  obtain ⟨ha, hb⟩ : 0 < a ∧ 0 < b := hp
  refine (Gamma.rescaled_iff ?_ ?_ hc).2 ?_
  · exact ⟨by show 0 < a + x; linarith, by show 0 < b + n; linarith⟩
  · exact ⟨by show 0 < a + x; linarith, by show 0 < b / c + n / c; positivity⟩
  · show (⟨a + x, b / c + n / c⟩ : Gamma ℝ) = ⟨a + x, (b + n) / c⟩
    rw [add_div]

example : Rescaled 60 0 (poisson_gamma 5 180 ⟨1, 120⟩ : Gamma ℝ).dist.pdf (poisson_gamma 5 (180 / 60) ⟨1, 120 / 60⟩).dist.pdf :=
  C101_poisson_gamma ⟨by norm_num, by norm_num⟩ ⟨by norm_num, by norm_num⟩ (by norm_num)
    ((Gamma.rescaled_iff ⟨by norm_num, by norm_num⟩ ⟨by norm_num, by norm_num⟩ (by norm_num)).2 rfl) (by norm_num) (by norm_num)

theorem sum_map_mul (c : ℝ) (xs : List ℝ) : (xs.map (c * ·)).sum = c * xs.sum := by
  induction xs with
  | nil => simp
  | cons x l ih => simp only [List.map_cons, List.sum_cons, ih]; ring

theorem sum_map_affine (c d : ℝ) (xs : List ℝ) : (xs.map (c * · + d)).sum = c * xs.sum + xs.length * d := by
  induction xs with
  | nil => simp
  | cons x l ih => simp only [List.map_cons, List.sum_cons, List.length_cons, ih]; push_cast; ring

theorem sum_map_affine_sq (c d : ℝ) (xs : List ℝ) : ((xs.map (c * · + d)).map (· ^ 2)).sum =
    c ^ 2 * (xs.map (· ^ 2)).sum + 2 * c * d * xs.sum + xs.length * d ^ 2 := by
  induction xs with
  | nil => simp
  | cons x l ih => simp only [List.map_cons, List.sum_cons, List.length_cons, ih]; push_cast; ring

/-- C101 gamma with known shape: data in another unit.  The data are multiplied by `c`, so the rate is divided by it. -/
theorem C101_gamma_known_shape {prior prior' : Gamma ℝ} (hp : prior.Valid) (hp' : prior'.Valid) {c : ℝ} (hc : 0 < c)
    (h : Rescaled c⁻¹ 0 prior.dist.pdf prior'.dist.pdf) {shape : ℝ} (hs : 0 < shape) (xs : List ℝ)
    (hx : ∀ x ∈ xs, 0 < x) :
    Rescaled c⁻¹ 0 (gamma_known_shape xs.sum xs.length shape prior).dist.pdf
      (gamma_known_shape (xs.map (c * ·)).sum (xs.map (c * ·)).length shape prior').dist.pdf := by
  obtain rfl := (Gamma.rescaled_iff hp hp' (inv_pos.2 hc)).1 h
  obtain ⟨a, b⟩ := prior
  obtain ⟨ha, hb⟩ : 0 < a ∧ 0 < b := hp
  have hx0 : 0 ≤ xs.sum := List.sum_nonneg fun x h => (hx x h).le
  rw [sum_map_mul, List.length_map]
  refine (Gamma.rescaled_iff ?_ ?_ (inv_pos.2 hc)).2 ?_
  · exact ⟨by show 0 < a + xs.length * shape; positivity, by show 0 < b + xs.sum; positivity⟩
  · exact ⟨by show 0 < a + xs.length * shape; positivity, by show 0 < b / c⁻¹ + c * xs.sum; positivity⟩
  · show (⟨a + xs.length * shape, b / c⁻¹ + c * xs.sum⟩ : Gamma ℝ) = ⟨a + xs.length * shape, (b + xs.sum) / c⁻¹⟩
    congr 1
    field_simp

example : Rescaled 10⁻¹ 0 (gamma_known_shape [1, 2].sum (([1, 2] : List ℝ).length : ℝ) 3 ⟨1, 2⟩ : Gamma ℝ).dist.pdf
    (gamma_known_shape ([1, 2].map (10 * ·)).sum ((([1, 2] : List ℝ).map (10 * ·)).length : ℝ) 3 ⟨1, 2 / 10⁻¹⟩).dist.pdf :=
  C101_gamma_known_shape ⟨by norm_num, by norm_num⟩ ⟨by norm_num, by norm_num⟩ (by norm_num)
    ((Gamma.rescaled_iff ⟨by norm_num, by norm_num⟩ ⟨by norm_num, by norm_num⟩ (by norm_num)).2 rfl) (by norm_num) _
    (by simp)

/-- C101, `gamma_known_shape_predictive`: predictions in the other unit. -/
theorem C101_gamma_known_shape_predictive {d d' : Gamma ℝ} (hd : d.Valid) (hd' : d'.Valid) {c : ℝ} (hc : 0 < c)
    (h : Rescaled c⁻¹ 0 d.dist.pdf d'.dist.pdf) (shape : ℝ) :
    Rescaled c 0 (gamma_known_shape_predictive d shape).pdf (gamma_known_shape_predictive d' shape).pdf := by
  obtain rfl := (Gamma.rescaled_iff hd hd' (inv_pos.2 hc)).1 h
  intro x
  simp only [gamma_known_shape_predictive, CompoundGamma.pdf, compoundGammaPdf]
  have hb := hd.2
  rw [abs_of_pos hc, add_zero, div_inv_eq_mul, mul_comm d.beta c, mul_div_mul_left _ _ hc.ne', mul_assoc,
    ← mul_div_assoc, mul_div_mul_left _ _ hc.ne']

example : Rescaled 10 0 (gamma_known_shape_predictive ⟨1, 2⟩ (3 : ℝ)).pdf
    (gamma_known_shape_predictive ⟨1, 2 / 10⁻¹⟩ 3).pdf :=
  C101_gamma_known_shape_predictive (d := ⟨1, 2⟩) ⟨by norm_num, by norm_num⟩ ⟨by norm_num, by norm_num⟩ (by norm_num)
    ((Gamma.rescaled_iff ⟨by norm_num, by norm_num⟩ ⟨by norm_num, by norm_num⟩ (by norm_num)).2 rfl) 3

/-- C101 inverse gamma: the data are multiplied by `c` and so is the rate. -/
theorem C101_inverse_gamma_known_rate {prior prior' : Gamma ℝ} (hp : prior.Valid) (hp' : prior'.Valid) {c : ℝ}
    (hc : 0 < c) (h : Rescaled c 0 prior.dist.pdf prior'.dist.pdf) {shape : ℝ} (hs : 0 < shape) (xs : List ℝ)
    (hx : ∀ x ∈ xs, 0 < x) :
    Rescaled c 0 (inverse_gamma_known_rate (xs.map (·⁻¹)).sum xs.length shape prior).dist.pdf
      (inverse_gamma_known_rate ((xs.map (c * ·)).map (·⁻¹)).sum (xs.map (c * ·)).length shape prior').dist.pdf := by
  obtain rfl := (Gamma.rescaled_iff hp hp' hc).1 h
  obtain ⟨a, b⟩ := prior
  obtain ⟨ha, hb⟩ : 0 < a ∧ 0 < b := hp
  have hx0 : 0 ≤ (xs.map (·⁻¹)).sum := List.sum_nonneg fun y hy => by
    obtain ⟨x, h, rfl⟩ := List.mem_map.1 hy
    exact (inv_pos.2 (hx x h)).le
  have e : ((xs.map (c * ·)).map (·⁻¹)).sum = c⁻¹ * (xs.map (·⁻¹)).sum := by
    rw [← sum_map_mul, List.map_map, List.map_map]
    congr 1
    refine List.map_congr_left fun x _ => ?_
    simp [mul_comm]
  rw [e, List.length_map]
  generalize (xs.map (·⁻¹)).sum = T at *
  refine (Gamma.rescaled_iff ?_ ?_ hc).2 ?_
  · exact ⟨by show 0 < a + xs.length * shape; positivity, by show 0 < b + T; positivity⟩
  · exact ⟨by show 0 < a + xs.length * shape; positivity, by show 0 < b / c + c⁻¹ * T; positivity⟩
  · show (⟨a + xs.length * shape, b / c + c⁻¹ * T⟩ : Gamma ℝ) = ⟨a + xs.length * shape, (b + T) / c⟩
    congr 1
    field_simp

example : Rescaled 10 0
    (inverse_gamma_known_rate ([1, 2].map (·⁻¹)).sum (([1, 2] : List ℝ).length : ℝ) 3 ⟨1, 2⟩ : Gamma ℝ).dist.pdf
    (inverse_gamma_known_rate (([1, 2].map (10 * ·)).map (·⁻¹)).sum ((([1, 2] : List ℝ).map (10 * ·)).length : ℝ) 3
      ⟨1, 2 / 10⟩).dist.pdf :=
  C101_inverse_gamma_known_rate ⟨by norm_num, by norm_num⟩ ⟨by norm_num, by norm_num⟩ (by norm_num)
    ((Gamma.rescaled_iff ⟨by norm_num, by norm_num⟩ ⟨by norm_num, by norm_num⟩ (by norm_num)).2 rfl) (by norm_num) _
    (by simp)

/-- Full statement of C101 for `exponential_gamma`: waiting times multiplied by `c`, the rate divided by it. -/
def C101_exponential_statement (c : ℝ) (prior prior' : Gamma ℝ) (xs : List ℝ) : Prop :=
  Rescaled c⁻¹ 0 prior.dist.pdf prior'.dist.pdf →
    Rescaled c⁻¹ 0 (exponential_gamma xs.sum xs.length prior).dist.pdf
      (exponential_gamma (xs.map (c * ·)).sum (xs.map (c * ·)).length prior').dist.pdf

/-- C101 is false for `exponential_gamma`, for every prior, all data and every change of unit: the answer depends on
the unit in which the waiting times are written. -/
theorem C101_exponential_gamma_false {prior : Gamma ℝ} (hp : prior.Valid) {c : ℝ} (hc : 0 < c) (hc1 : c ≠ 1)
    (xs : List ℝ) (hx : ∀ x ∈ xs, 0 < x) (hne : xs ≠ []) :
    ∃ prior' : Gamma ℝ, prior'.Valid ∧ ¬ C101_exponential_statement c prior prior' xs := by
  obtain ⟨a, b⟩ := prior
  obtain ⟨ha, hb⟩ : 0 < a ∧ 0 < b := hp
  have hv : (⟨a, b / c⁻¹⟩ : Gamma ℝ).Valid := ⟨ha, by show 0 < b / c⁻¹; positivity⟩
  have hx0 : 0 < xs.sum := List.sum_pos xs hx hne
  refine ⟨⟨a, b / c⁻¹⟩, hv, fun h => ?_⟩
  have h := h ((Gamma.rescaled_iff ⟨ha, hb⟩ hv (inv_pos.2 hc)).2 rfl)
  rw [sum_map_mul, List.length_map] at h
  have := (Gamma.rescaled_iff (d := ⟨a + xs.sum, b + xs.length⟩) (d' := ⟨a + c * xs.sum, b / c⁻¹ + xs.length⟩)
    ⟨by show 0 < a + xs.sum; positivity, by show 0 < b + xs.length; positivity⟩
    ⟨by show 0 < a + c * xs.sum; positivity, by show 0 < b / c⁻¹ + xs.length; positivity⟩ (inv_pos.2 hc)).1 h
  have e : a + c * xs.sum = a + xs.sum := congrArg Gamma.alpha this
  apply hc1
  have : (c - 1) * xs.sum = 0 := by linarith
  rcases mul_eq_zero.1 this with h | h
  · linarith
  · exact absurd h hx0.ne'

example : ∃ prior' : Gamma ℝ, prior'.Valid ∧ ¬ C101_exponential_statement 60 ⟨1, 2⟩ prior' [1, 2] :=
  C101_exponential_gamma_false ⟨by norm_num, by norm_num⟩ (by norm_num) (by norm_num) _ (by simp) (by simp)

/-- C101 exponential, what is proved: with the two arguments exchanged the unit does not matter.
Missing: the call as documented, which is false. -/
theorem C101_exponential_gamma_partial {prior prior' : Gamma ℝ} (hp : prior.Valid) (hp' : prior'.Valid) {c : ℝ}
    (hc : 0 < c) (h : Rescaled c⁻¹ 0 prior.dist.pdf prior'.dist.pdf) (xs : List ℝ) (hx : ∀ x ∈ xs, 0 < x) :
    Rescaled c⁻¹ 0 (exponential_gamma (xs.length : ℝ) xs.sum prior).dist.pdf
      (exponential_gamma ((xs.map (c * ·)).length : ℝ) (xs.map (c * ·)).sum prior').dist.pdf := by
  have := C101_poisson_gamma hp hp' (inv_pos.2 hc) h (x := xs.length) (n := xs.sum) (by positivity)
    (List.sum_nonneg fun x h => (hx x h).le)
  rw [sum_map_mul, List.length_map, mul_comm c, ← div_inv_eq_mul]
  exact this

/-- C101 Pareto: the tail index has no unit, so data and lower bound in another unit give the same posterior. -/
theorem C101_pareto_gamma (prior : Gamma ℝ) {c x_m : ℝ} (hc : 0 < c) (hm : 0 < x_m) (xs : List ℝ) (hx : ∀ x ∈ xs, 0 < x) :
    pareto_gamma ((xs.map (c * ·)).length : ℝ) ((xs.map (c * ·)).map Real.log).sum (c * x_m) prior Real.log =
      pareto_gamma (xs.length : ℝ) (xs.map Real.log).sum x_m prior Real.log := by
  have e : ((xs.map (c * ·)).map Real.log).sum = (xs.map Real.log).sum + xs.length * Real.log c := by
    induction xs with
    | nil => simp
    | cons x l ih =>
      have := ih fun y hy => hx y (List.mem_cons_of_mem _ hy)
      simp only [List.map_cons, List.sum_cons, List.length_cons, this,
        Real.log_mul hc.ne' (hx x List.mem_cons_self).ne']
      push_cast
      ring
  simp only [pareto_gamma, e, List.length_map, Real.log_mul hc.ne' hm.ne']
  congr 1
  ring

example : pareto_gamma ((([2, 3] : List ℝ).map (10 * ·)).length : ℝ) (([2, 3].map (10 * ·)).map Real.log).sum (10 * 1) ⟨1, 1⟩
    Real.log = pareto_gamma (([2, 3] : List ℝ).length : ℝ) ([2, 3].map Real.log).sum 1 ⟨1, 1⟩ Real.log :=
  C101_pareto_gamma ⟨1, 1⟩ (by norm_num) one_pos _ (by simp)

/-- C101 uniform. -/
theorem C101_uniform_pareto {prior prior' : Pareto ℝ} (hp : prior.Valid) (hp' : prior'.Valid) {c : ℝ} (hc : 0 < c)
    (h : Rescaled c 0 prior.dist.pdf prior'.dist.pdf) {x n : ℝ} (hn : 0 ≤ n) :
    Rescaled c 0 (uniform_pareto x n prior max).dist.pdf (uniform_pareto (c * x) n prior' max).dist.pdf := by
  obtain rfl := (Pareto.rescaled_iff hp hp' hc).1 h
  obtain ⟨m, a⟩ := prior
  obtain ⟨hm, ha⟩ : 0 < m ∧ 0 < a := hp
  refine (Pareto.rescaled_iff ?_ ?_ hc).2 ?_
  · exact ⟨lt_max_of_lt_left hm, by show 0 < a + n; positivity⟩
  · exact ⟨lt_max_of_lt_left (mul_pos hc hm), by show 0 < a + n; positivity⟩
  · show (⟨max (c * m) (c * x), a + n⟩ : Pareto ℝ) = ⟨c * max m x, a + n⟩
    rw [mul_max_of_nonneg _ _ hc.le]

example : Rescaled 10 0 (uniform_pareto 5 3 ⟨1, 2⟩ max : Pareto ℝ).dist.pdf (uniform_pareto (10 * 5) 3 ⟨10 * 1, 2⟩ max).dist.pdf :=
  C101_uniform_pareto ⟨by norm_num, by norm_num⟩ ⟨by norm_num, by norm_num⟩ (by norm_num)
    ((Pareto.rescaled_iff ⟨by norm_num, by norm_num⟩ ⟨by norm_num, by norm_num⟩ (by norm_num)).2 rfl) (by norm_num)

/-- C101 Weibull: lifetimes multiplied by `c`, the scale parameter by `c ^ shape`. -/
theorem C101_weibull {prior prior' : InverseGamma ℝ} (hp : prior.Valid) (hp' : prior'.Valid) {c : ℝ} (hc : 0 < c)
    (shape : ℝ) (h : Rescaled (c ^ shape) 0 prior.dist.pdf prior'.dist.pdf) (xs : List ℝ) (hx : ∀ x ∈ xs, 0 < x) :
    Rescaled (c ^ shape) 0 (weibull_inverse_gamma_known_shape (xs.length : ℝ) (xs.map (· ^ shape)).sum prior).dist.pdf
      (weibull_inverse_gamma_known_shape ((xs.map (c * ·)).length : ℝ) ((xs.map (c * ·)).map (· ^ shape)).sum
        prior').dist.pdf := by
  have hcs : 0 < c ^ shape := rpow_pos_of_pos hc _
  obtain rfl := (InverseGamma.rescaled_iff hp hp' hcs).1 h
  obtain ⟨a, b⟩ := prior
  obtain ⟨ha, hb⟩ : 0 < a ∧ 0 < b := hp
  have hx0 : 0 ≤ (xs.map (· ^ shape)).sum := List.sum_nonneg fun y hy => by
    obtain ⟨x, h, rfl⟩ := List.mem_map.1 hy
    exact (rpow_pos_of_pos (hx x h) _).le
  have e : ((xs.map (c * ·)).map (· ^ shape)).sum = c ^ shape * (xs.map (· ^ shape)).sum := by
    rw [← sum_map_mul, List.map_map, List.map_map]
    congr 1
    refine List.map_congr_left fun x h => ?_
    exact mul_rpow hc.le (hx x h).le
  rw [e, List.length_map]
  generalize (xs.map (· ^ shape)).sum = T at *
  generalize c ^ shape = k at *
  refine (InverseGamma.rescaled_iff ?_ ?_ hcs).2 ?_
  · exact ⟨by show 0 < a + xs.length; positivity, by show 0 < b + T; positivity⟩
  · exact ⟨by show 0 < a + xs.length; positivity, by show 0 < k * b + k * T; positivity⟩
  · show (⟨a + xs.length, k * b + k * T⟩ : InverseGamma ℝ) = ⟨a + xs.length, k * (b + T)⟩
    rw [mul_add]

/-! ## Normal data -/

/-- C101 normal with known variance: any affine change of unit, reversing the axis included. -/
theorem C101_normal_known_variance {prior prior' : Normal ℝ} (hs : 0 < prior.sigma) (hs' : 0 < prior'.sigma)
    {c : ℝ} (hc : c ≠ 0) (d : ℝ) (h : Rescaled c d prior.dist.pdf prior'.dist.pdf) {var : ℝ} (hv : 0 < var)
    (xs : List ℝ) :
    Rescaled c d (normal_known_variance xs.sum xs.length var prior).dist.pdf
      (normal_known_variance (xs.map (c * · + d)).sum (xs.map (c * · + d)).length (c ^ 2 * var) prior').dist.pdf := by
  obtain rfl := (Normal.rescaled_iff hs hs' hc d).1 h
  obtain ⟨m, s⟩ := prior
  simp only at hs hs'
  have hc2 : 0 < c ^ 2 := by positivity
  have hn : (0 : ℝ) ≤ xs.length := by positivity
  rw [sum_map_affine, List.length_map]
  generalize (xs.length : ℝ) = n at *
  generalize xs.sum = X
  refine (Normal.rescaled_iff ?_ ?_ hc d).2 ?_
  · simp only [normal_known_variance, powq_two, powq_half, lit_real]
    positivity
  · simp only [normal_known_variance, powq_two, powq_half, lit_real]
    positivity
  · simp only [normal_known_variance, powq_two, powq_half, lit_real, mul_pow, sq_abs, Rat.cast_one, Normal.mk.injEq]
    constructor
    · field_simp
      ring
    · rw [show |c| = √(c ^ 2) from (Real.sqrt_sq_eq_abs c).symm, ← Real.sqrt_mul hc2.le]
      congr 1
      field_simp

example : Rescaled (9 / 5) 32 (normal_known_variance [10, 20].sum (([10, 20] : List ℝ).length : ℝ) 4 ⟨15, 5⟩ : Normal ℝ).dist.pdf
    (normal_known_variance ([10, 20].map (9 / 5 * · + 32)).sum ((([10, 20] : List ℝ).map (9 / 5 * · + 32)).length : ℝ)
      ((9 / 5) ^ 2 * 4) ⟨9 / 5 * 15 + 32, |9 / 5| * 5⟩).dist.pdf :=
  C101_normal_known_variance (prior := ⟨15, 5⟩) (by norm_num) (by norm_num) (by norm_num) 32
    ((Normal.rescaled_iff (by norm_num) (by norm_num) (by norm_num) 32).2 rfl) (by norm_num) _

/-- C101 normal with known precision. -/
theorem C101_normal_known_precision {prior prior' : Normal ℝ} (hs : 0 < prior.sigma) (hs' : 0 < prior'.sigma)
    {c : ℝ} (hc : c ≠ 0) (d : ℝ) (h : Rescaled c d prior.dist.pdf prior'.dist.pdf) {precision : ℝ}
    (hv : 0 < precision) (xs : List ℝ) :
    Rescaled c d (normal_known_precision xs.sum xs.length precision prior).dist.pdf
      (normal_known_precision (xs.map (c * · + d)).sum (xs.map (c * · + d)).length (precision / c ^ 2) prior').dist.pdf := by
  have := C101_normal_known_variance hs hs' hc d h (var := 1 / precision) (by positivity) xs
  simp only [normal_known_precision, lit_real, Rat.cast_one]
  rw [one_div_div, ← mul_one_div (c ^ 2)]
  exact this

/-- C101, `normal_known_variance_predictive`. -/
theorem C101_normal_known_variance_predictive {e e' : Normal ℝ} (hs : 0 < e.sigma) (hs' : 0 < e'.sigma)
    {c : ℝ} (hc : c ≠ 0) (d : ℝ) (h : Rescaled c d e.dist.pdf e'.dist.pdf) {var : ℝ} (_hv : 0 < var) :
    Rescaled c d (normal_known_variance_predictive var e).dist.pdf
      (normal_known_variance_predictive (c ^ 2 * var) e').dist.pdf := by
  obtain rfl := (Normal.rescaled_iff hs hs' hc d).1 h
  have := Normal.rescaled e.mu (√(var + e.sigma ^ 2)) hc d
  rw [show |c| = √(c ^ 2) from (Real.sqrt_sq_eq_abs c).symm, ← Real.sqrt_mul (by positivity), mul_add] at this
  simp only [normal_known_variance_predictive, powq_two, powq_half, mul_pow, sq_abs]
  exact this

/-- C101 normal with known mean, `InverseGamma` prior: the variance is multiplied by `c ^ 2`. -/
theorem C101_normal_known_mean_inverse_gamma {prior prior' : InverseGamma ℝ} (hp : prior.Valid) (hp' : prior'.Valid)
    {c : ℝ} (hc : c ≠ 0) (d : ℝ) (h : Rescaled (c ^ 2) 0 prior.dist.pdf prior'.dist.pdf) (mu : ℝ) (xs : List ℝ) :
    Rescaled (c ^ 2) 0
      (normal_known_mean xs.sum (xs.map (· ^ 2)).sum (xs.length : ℝ) mu (.inverseGamma prior)).pdf
      (normal_known_mean (xs.map (c * · + d)).sum ((xs.map (c * · + d)).map (· ^ 2)).sum
        ((xs.map (c * · + d)).length : ℝ) (c * mu + d) (.inverseGamma prior')).pdf := by
  have hc2 : 0 < c ^ 2 := by positivity
  obtain rfl := (InverseGamma.rescaled_iff hp hp' hc2).1 h
  obtain ⟨a, b⟩ := prior
  obtain ⟨ha, hb⟩ : 0 < a ∧ 0 < b := hp
  have hs : (xs.map (· ^ 2)).sum - 2 * mu * xs.sum + xs.length * mu ^ 2 = (xs.map fun x => (x - mu) ^ 2).sum := by
    clear h
    induction xs with
    | nil => simp
    | cons x l ih =>
      simp only [List.map_cons, List.sum_cons, List.length_cons, Nat.cast_add, Nat.cast_one]
      linarith
  have hx : 0 ≤ (xs.map fun x => (x - mu) ^ 2).sum := List.sum_nonneg (by
    intro y hy
    obtain ⟨x, _, rfl⟩ := List.mem_map.1 hy
    positivity)
  rw [← hs] at hx
  rw [sum_map_affine_sq, sum_map_affine, List.length_map]
  have hn : (0 : ℝ) ≤ xs.length := by positivity
  generalize (xs.length : ℝ) = n at *
  generalize xs.sum = X at *
  generalize (xs.map (· ^ 2)).sum = X2 at *
  simp only [normal_known_mean, normalKnownMeanInverseGammaPrior, VariancePrior.pdf, lit_real, powq_two]
  push_cast
  have e : c ^ 2 * b + 1 / 2 * (c ^ 2 * X2 + 2 * c * d * X + n * d ^ 2 - 2 * (c * mu + d) * (c * X + n * d) +
      n * (c * mu + d) ^ 2) = c ^ 2 * (b + 1 / 2 * (X2 - 2 * mu * X + n * mu ^ 2)) := by ring
  rw [e]
  refine (InverseGamma.rescaled_iff ?_ ?_ hc2).2 rfl
  · exact ⟨by show 0 < a + n / 2; positivity, by show 0 < b + _; positivity⟩
  · exact ⟨by show 0 < a + n / 2; positivity, by show 0 < c ^ 2 * (b + _); positivity⟩

/-- C101 normal with known mean, `ScaledInverseChiSquared` prior. -/
theorem C101_normal_known_mean_scaled_inverse_chi_squared {prior prior' : ScaledInverseChiSquared ℝ}
    (hn : 0 < prior.nu) (hs : 0 < prior.sigma2) (hn' : 0 < prior'.nu) (hs' : 0 < prior'.sigma2)
    {c : ℝ} (hc : c ≠ 0) (d : ℝ) (h : Rescaled (c ^ 2) 0 prior.dist.pdf prior'.dist.pdf) (mu : ℝ) (xs : List ℝ) :
    Rescaled (c ^ 2) 0
      (normal_known_mean xs.sum (xs.map (· ^ 2)).sum (xs.length : ℝ) mu (.scaledInverseChiSquared prior)).pdf
      (normal_known_mean (xs.map (c * · + d)).sum ((xs.map (c * · + d)).map (· ^ 2)).sum
        ((xs.map (c * · + d)).length : ℝ) (c * mu + d) (.scaledInverseChiSquared prior')).pdf := by
  have conv : ∀ (n x x2 m : ℝ) (p : ScaledInverseChiSquared ℝ), 0 < p.nu → 0 ≤ n →
      (normal_known_mean x x2 n m (.scaledInverseChiSquared p)).pdf =
        (normal_known_mean x x2 n m (.inverseGamma ⟨p.nu / 2, p.nu * p.sigma2 / 2⟩)).pdf := by
    intro n x x2 m p hp hn
    have h1 : p.nu / 2 + n / 2 ≠ 0 := by positivity
    simp only [normal_known_mean, normalKnownMeanInverseGammaPrior, ScaledInverseChiSquared.to_inverse_gamma,
      ScaledInverseChiSquared.from_inverse_gamma, VariancePrior.pdf, ScaledInverseChiSquared.dist, InverseGamma.dist,
      lit_real]
    push_cast
    congr 2
    · congr 1
      field_simp
    · field_simp
  rw [conv _ _ _ _ _ hn (by positivity), conv _ _ _ _ _ hn' (by positivity)]
  exact C101_normal_known_mean_inverse_gamma (prior := ⟨prior.nu / 2, prior.nu * prior.sigma2 / 2⟩)
    (prior' := ⟨prior'.nu / 2, prior'.nu * prior'.sigma2 / 2⟩) ⟨by show 0 < prior.nu / 2; positivity, by
      show 0 < prior.nu * prior.sigma2 / 2; positivity⟩ ⟨by show 0 < prior'.nu / 2; positivity, by
      show 0 < prior'.nu * prior'.sigma2 / 2; positivity⟩ hc d h mu xs

example : Rescaled (2 ^ 2) 0
    (normal_known_mean [1, 4].sum ([1, 4].map (· ^ 2)).sum (([1, 4] : List ℝ).length : ℝ) 3 (.inverseGamma ⟨1, 2⟩)).pdf
    (normal_known_mean ([1, 4].map (2 * · + 7)).sum (([1, 4].map (2 * · + 7)).map (· ^ 2)).sum
      ((([1, 4] : List ℝ).map (2 * · + 7)).length : ℝ) (2 * 3 + 7) (.inverseGamma ⟨1, 2 ^ 2 * 2⟩)).pdf :=
  C101_normal_known_mean_inverse_gamma ⟨by norm_num, by norm_num⟩ ⟨by norm_num, by norm_num⟩ two_ne_zero 7
    ((InverseGamma.rescaled_iff ⟨by norm_num, by norm_num⟩ ⟨by norm_num, by norm_num⟩ (by norm_num)).2 rfl) 3 _

/-- C101, `normal_known_mean_predictive`. -/
theorem C101_normal_known_mean_predictive {e e' : InverseGamma ℝ} (he : e.Valid) (he' : e'.Valid) {c : ℝ} (hc : c ≠ 0)
    (d : ℝ) (h : Rescaled (c ^ 2) 0 e.dist.pdf e'.dist.pdf) (mu : ℝ) :
    Rescaled c d (normal_known_mean_predictive mu (.inverseGamma e)).dist.pdf
      (normal_known_mean_predictive (c * mu + d) (.inverseGamma e')).dist.pdf := by
  have hc2 : 0 < c ^ 2 := by positivity
  obtain rfl := (InverseGamma.rescaled_iff he he' hc2).1 h
  have := StudentT.rescaled mu (√(e.beta / e.alpha)) (2 * e.alpha) hc d
  rw [show |c| = √(c ^ 2) from (Real.sqrt_sq_eq_abs c).symm, ← Real.sqrt_mul hc2.le, ← mul_div_assoc] at this
  simp only [normal_known_mean_predictive, powq_half, lit_real]
  push_cast
  exact this

example : Rescaled 2 7 (normal_known_mean_predictive 3 (.inverseGamma (⟨1, 2⟩ : InverseGamma ℝ))).dist.pdf
    (normal_known_mean_predictive (2 * 3 + 7) (.inverseGamma ⟨1, 2 ^ 2 * 2⟩)).dist.pdf :=
  C101_normal_known_mean_predictive ⟨by norm_num, by norm_num⟩ ⟨by norm_num, by norm_num⟩ two_ne_zero 7
    ((InverseGamma.rescaled_iff ⟨by norm_num, by norm_num⟩ ⟨by norm_num, by norm_num⟩ (by norm_num)).2 rfl) 3

theorem abs_mul_powq_half (c : ℝ) {x : ℝ} : |c| * powq x (1 / 2) = powq (c ^ 2 * x) (1 / 2) := by
  rw [powq_half, powq_half, Real.sqrt_mul (sq_nonneg c), Real.sqrt_sq_eq_abs]

theorem RescaledPair.unique {c d s : ℝ} (hc : c ≠ 0) (hs : 0 < s) {f g h : ℝ → ℝ → ℝ} (h1 : RescaledPair c d s f g)
    (h2 : RescaledPair c d s f h) : ∀ m v, 0 < v → g m v = h m v := by
  intro m v hv
  have e := (h1 ((m - d) / c) (v / s) (by positivity)).symm.trans (h2 ((m - d) / c) (v / s) (by positivity))
  rw [show c * ((m - d) / c) + d = m by field_simp; ring, show s * (v / s) = v by field_simp] at e
  exact mul_left_cancel₀ (mul_pos (abs_pos.2 hc) hs).ne' e

theorem NormalInverseGamma.rescaled {M : Type*} (e e' : NormalInverseGamma ℝ ℝ M) {nu : ℝ} {c : ℝ} (hc : c ≠ 0) (d : ℝ)
    (hm : e'.mu = c * e.mu + d) (ha : e'.alpha = e.alpha) (hb : e'.beta = c ^ 2 * e.beta) :
    RescaledPair c d (c ^ 2) (e.jointPdf nu) (e'.jointPdf nu) := by
  intro m v hv
  have h1 := Cont.rescaled (.invgamma e.alpha) 0 e.beta (show 0 < c ^ 2 by positivity) 0 v
  have h2 := Normal.rescaled e.mu (powq (v / nu) (1 / 2)) hc d m
  rw [show c ^ 2 * 0 + 0 = (0 : ℝ) by ring, abs_of_pos (show 0 < c ^ 2 by positivity), add_zero] at h1
  rw [abs_mul_powq_half, ← mul_div_assoc] at h2
  simp only [NormalInverseGamma.jointPdf, ha, hb, hm, h2]
  show (Cont.pdf ⟨.invgamma e.alpha, 0, e.beta⟩ v) * _ = _ * (Cont.pdf ⟨.invgamma e.alpha, 0, c ^ 2 * e.beta⟩ _ * _)
  rw [h1]
  ring

theorem NormalInverseGamma.rescaled_iff {M : Type*} {e e' : NormalInverseGamma ℝ ℝ M} {nu nu' : ℝ} (hnu : 0 < nu)
    (ha : 0 < e.alpha) (hb : 0 < e.beta) (hnu' : 0 < nu') (ha' : 0 < e'.alpha) (hb' : 0 < e'.beta) {c : ℝ}
    (hc : c ≠ 0) (d : ℝ) :
    RescaledPair c d (c ^ 2) (e.jointPdf nu) (e'.jointPdf nu') ↔
      e'.mu = c * e.mu + d ∧ nu' = nu ∧ e'.alpha = e.alpha ∧ e'.beta = c ^ 2 * e.beta := by
  constructor
  · intro h
    have base := NormalInverseGamma.rescaled (M := M) e ⟨c * e.mu + d, e.alpha, c ^ 2 * e.beta, none, none⟩ (nu := nu)
      hc d rfl rfl rfl
    exact C97_normal_inverse_gamma e' ⟨c * e.mu + d, e.alpha, c ^ 2 * e.beta, none, none⟩ nu' nu hnu' ha' hb' hnu ha
      (by show 0 < c ^ 2 * e.beta; positivity) (RescaledPair.unique hc (by positivity) h base)
  · rintro ⟨h1, rfl, h3, h4⟩
    exact NormalInverseGamma.rescaled e e' hc d h1 h3 h4

theorem NormalGamma.rescaled (m lam a b : ℝ) {c : ℝ} (hc : c ≠ 0) (d : ℝ) :
    RescaledPair c d (c ^ 2)⁻¹ (NormalGamma.jointPdf ⟨m, lam, a, b⟩) (NormalGamma.jointPdf ⟨c * m + d, lam, a, c ^ 2 * b⟩) := by
  intro x t ht
  have hc2 : 0 < c ^ 2 := by positivity
  have h1 := Cont.rescaled (.gamma a) 0 (1 / b) (inv_pos.2 hc2) 0 t
  have h2 := Normal.rescaled m (powq (1 / (lam * t)) (1 / 2)) hc d x
  rw [show (c ^ 2)⁻¹ * 0 + 0 = (0 : ℝ) by ring, abs_of_pos (inv_pos.2 hc2), add_zero,
    show (c ^ 2)⁻¹ * (1 / b) = 1 / (c ^ 2 * b) by rw [one_div, one_div, mul_inv]] at h1
  rw [abs_mul_powq_half, show c ^ 2 * (1 / (lam * t)) = 1 / (lam * ((c ^ 2)⁻¹ * t)) by
    rw [one_div, one_div, mul_inv, mul_inv, mul_inv, inv_inv]; ring] at h2
  simp only [NormalGamma.jointPdf, h2]
  show (Cont.pdf ⟨.gamma a, 0, 1 / b⟩ t) * _ = _ * (Cont.pdf ⟨.gamma a, 0, 1 / (c ^ 2 * b)⟩ _ * _)
  rw [h1]
  ring

theorem NormalGamma.rescaled_iff {e e' : NormalGamma ℝ} (hl : 0 < e.lam) (ha : 0 < e.alpha) (hb : 0 < e.beta)
    (hl' : 0 < e'.lam) (ha' : 0 < e'.alpha) (hb' : 0 < e'.beta) {c : ℝ} (hc : c ≠ 0) (d : ℝ) :
    RescaledPair c d (c ^ 2)⁻¹ e.jointPdf e'.jointPdf ↔ e' = ⟨c * e.mu + d, e.lam, e.alpha, c ^ 2 * e.beta⟩ := by
  have hc2 : 0 < c ^ 2 := by positivity
  constructor
  · intro h
    exact C97_normal_gamma e' ⟨c * e.mu + d, e.lam, e.alpha, c ^ 2 * e.beta⟩ hl' ha' hb' hl ha (mul_pos hc2 hb)
      (RescaledPair.unique hc (inv_pos.2 hc2) h (NormalGamma.rescaled e.mu e.lam e.alpha e.beta hc d))
  · rintro rfl
    exact NormalGamma.rescaled e.mu e.lam e.alpha e.beta hc d

theorem normalUpdate_affine (X X2 mu nu a b : ℝ) {n : ℝ} (hn : 0 < n) (hnu : 0 < nu) (c d : ℝ) :
    let r := normalUpdate X X2 n mu nu a b
    normalUpdate (c * X + n * d) (c ^ 2 * X2 + 2 * c * d * X + n * d ^ 2) n (c * mu + d) nu a (c ^ 2 * b) =
      (c * r.1 + d, r.2.1, r.2.2.1, c ^ 2 * r.2.2.2) := by
  simp only [normalUpdate, powq_two, lit_real, Prod.mk.injEq]
  push_cast
  refine ⟨?_, trivial, trivial, ?_⟩
  · field_simp
    ring
  · field_simp
    ring

/-- C101 normal data, unknown mean and variance, `NormalInverseGamma` prior. -/
theorem C101_normal_nig {M : Type*} {prior prior' : NormalInverseGamma ℝ ℝ M} {nu nu' : ℝ} (hn : prior.nu = some nu)
    (hnu : 0 < nu) (ha : 0 < prior.alpha) (hb : 0 < prior.beta) (hn' : prior'.nu = some nu') (hnu' : 0 < nu')
    (ha' : 0 < prior'.alpha) (hb' : 0 < prior'.beta) {c : ℝ} (hc : c ≠ 0) (d : ℝ)
    (h : RescaledPair c d (c ^ 2) (prior.jointPdf nu) (prior'.jointPdf nu')) (xs : List ℝ) (hne : xs ≠ []) :
    ∃ (post post' : NormalInverseGamma ℝ ℝ M) (k k' : ℝ), post.nu = some k ∧ post'.nu = some k' ∧
      normal xs.sum (xs.map (· ^ 2)).sum (xs.length : ℝ) (.nig prior) = .ok (.nig post) ∧
      normal (xs.map (c * · + d)).sum ((xs.map (c * · + d)).map (· ^ 2)).sum ((xs.map (c * · + d)).length : ℝ)
        (.nig prior') = .ok (.nig post') ∧
      RescaledPair c d (c ^ 2) (post.jointPdf k) (post'.jointPdf k') := by
  obtain ⟨e1, rfl, e3, e4⟩ := (NormalInverseGamma.rescaled_iff hnu ha hb hnu' ha' hb' hc d).1 h
  have hlen : (0 : ℝ) < xs.length := by exact_mod_cast List.length_pos_of_ne_nil hne
  have key := normalUpdate_affine xs.sum (xs.map (· ^ 2)).sum prior.mu nu' prior.alpha prior.beta hlen hnu' c d
  obtain ⟨r, hr⟩ : ∃ r, r = normalUpdate xs.sum (xs.map (· ^ 2)).sum (xs.length : ℝ) prior.mu nu' prior.alpha prior.beta :=
    ⟨_, rfl⟩
  simp only [← hr] at key
  refine ⟨⟨r.1, r.2.2.1, r.2.2.2, none, some r.2.1⟩, ⟨c * r.1 + d, r.2.2.1, c ^ 2 * r.2.2.2, none, some r.2.1⟩, r.2.1,
    r.2.1, rfl, rfl, ?_, ?_, NormalInverseGamma.rescaled _ _ hc d rfl rfl rfl⟩
  · simp only [normal, hn, ← hr]; rfl
  · rw [sum_map_affine, sum_map_affine_sq, List.length_map]
    simp only [normal, hn', e1, e3, e4, key]; rfl

/-- C101 normal data, unknown mean and precision, `NormalGamma` prior. -/
theorem C101_normal_ng {M : Type*} {prior prior' : NormalGamma ℝ} (hl : 0 < prior.lam) (ha : 0 < prior.alpha)
    (hb : 0 < prior.beta) (hl' : 0 < prior'.lam) (ha' : 0 < prior'.alpha) (hb' : 0 < prior'.beta) {c : ℝ} (hc : c ≠ 0)
    (d : ℝ) (h : RescaledPair c d (c ^ 2)⁻¹ prior.jointPdf prior'.jointPdf) (xs : List ℝ) (hne : xs ≠ []) :
    ∃ post post' : NormalGamma ℝ,
      normal xs.sum (xs.map (· ^ 2)).sum (xs.length : ℝ) (.ng prior : NormalPrior ℝ M) = .ok (.ng post) ∧
      normal (xs.map (c * · + d)).sum ((xs.map (c * · + d)).map (· ^ 2)).sum ((xs.map (c * · + d)).length : ℝ)
        (.ng prior' : NormalPrior ℝ M) = .ok (.ng post') ∧
      RescaledPair c d (c ^ 2)⁻¹ post.jointPdf post'.jointPdf := by
  obtain rfl := (NormalGamma.rescaled_iff hl ha hb hl' ha' hb' hc d).1 h
  have hlen : (0 : ℝ) < xs.length := by exact_mod_cast List.length_pos_of_ne_nil hne
  have key := normalUpdate_affine xs.sum (xs.map (· ^ 2)).sum prior.mu prior.lam prior.alpha prior.beta hlen hl c d
  obtain ⟨r, hr⟩ : ∃ r, r = normalUpdate xs.sum (xs.map (· ^ 2)).sum (xs.length : ℝ) prior.mu prior.lam prior.alpha
    prior.beta := ⟨_, rfl⟩
  simp only [← hr] at key
  refine ⟨⟨r.1, r.2.1, r.2.2.1, r.2.2.2⟩, ⟨c * r.1 + d, r.2.1, r.2.2.1, c ^ 2 * r.2.2.2⟩, ?_, ?_,
    NormalGamma.rescaled _ _ _ _ hc d⟩
  · simp only [normal, ← hr]
  · rw [sum_map_affine, sum_map_affine_sq, List.length_map]
    simp only [normal, key]

/-- C101 log-normal data: multiplying the data by `c > 0` shifts the mean of the logarithms by `log c`. -/
theorem C101_log_normal_nig {M : Type*} {prior prior' : NormalInverseGamma ℝ ℝ M} {nu nu' : ℝ}
    (hn : prior.nu = some nu) (hnu : 0 < nu) (ha : 0 < prior.alpha) (hb : 0 < prior.beta) (hn' : prior'.nu = some nu')
    (hnu' : 0 < nu') (ha' : 0 < prior'.alpha) (hb' : 0 < prior'.beta) {c : ℝ} (hc : 0 < c)
    (h : RescaledPair 1 (Real.log c) 1 (prior.jointPdf nu) (prior'.jointPdf nu')) (xs : List ℝ)
    (hx : ∀ x ∈ xs, 0 < x) (hne : xs ≠ []) :
    ∃ (post post' : NormalInverseGamma ℝ ℝ M) (k k' : ℝ), post.nu = some k ∧ post'.nu = some k' ∧
      log_normal (xs.map Real.log).sum ((xs.map Real.log).map (· ^ 2)).sum (xs.length : ℝ) (.nig prior) = .ok (.nig post) ∧
      log_normal ((xs.map (c * ·)).map Real.log).sum (((xs.map (c * ·)).map Real.log).map (· ^ 2)).sum
        ((xs.map (c * ·)).length : ℝ) (.nig prior') = .ok (.nig post') ∧
      RescaledPair 1 (Real.log c) 1 (post.jointPdf k) (post'.jointPdf k') := by
  have e : (xs.map (c * ·)).map Real.log = (xs.map Real.log).map (1 * · + Real.log c) := by
    rw [List.map_map, List.map_map]
    refine List.map_congr_left fun x hm => ?_
    simp only [Function.comp_apply, Real.log_mul hc.ne' (hx x hm).ne', one_mul, add_comm]
  have := C101_normal_nig hn hnu ha hb hn' hnu' ha' hb' (c := 1) one_ne_zero (Real.log c) (by simpa using h)
    (xs.map Real.log) (by simpa using hne)
  rw [e]
  simpa only [log_normal, List.length_map, one_pow] using this

/-- C101, `normal_predictive`. -/
theorem C101_normal_predictive_nig {M : Type*} {e e' : NormalInverseGamma ℝ ℝ M} {nu nu' : ℝ} (hn : e.nu = some nu)
    (hnu : 0 < nu) (ha : 0 < e.alpha) (hb : 0 < e.beta) (hn' : e'.nu = some nu') (hnu' : 0 < nu') (ha' : 0 < e'.alpha)
    (hb' : 0 < e'.beta) {c : ℝ} (hc : c ≠ 0) (d : ℝ)
    (h : RescaledPair c d (c ^ 2) (e.jointPdf nu) (e'.jointPdf nu')) :
    ∃ t t' : StudentT ℝ, normal_predictive (.nig e) = .ok t ∧ normal_predictive (.nig e') = .ok t' ∧
      Rescaled c d t.dist.pdf t'.dist.pdf := by
  obtain ⟨e1, rfl, e3, e4⟩ := (NormalInverseGamma.rescaled_iff hnu ha hb hnu' ha' hb' hc d).1 h
  have base := StudentT.rescaled e.mu (powq (e.beta * (nu' + 1) / (nu' * e.alpha)) (1 / 2)) (2 * e.alpha) hc d
  rw [abs_mul_powq_half] at base
  refine ⟨⟨e.mu, powq (e.beta * (nu' + 1) / (nu' * e.alpha)) (1 / 2), 2 * e.alpha⟩,
    ⟨c * e.mu + d, powq (c ^ 2 * (e.beta * (nu' + 1) / (nu' * e.alpha))) (1 / 2), 2 * e.alpha⟩, ?_, ?_, base⟩
  · simp only [normal_predictive, hn, lit_real]; push_cast; rfl
  · simp only [normal_predictive, hn', lit_real, e1, e3, e4]
    push_cast
    rw [show c ^ 2 * e.beta * (nu' + 1) / (nu' * e.alpha) = c ^ 2 * (e.beta * (nu' + 1) / (nu' * e.alpha)) by ring]

example := C101_normal_nig (M := Unit) (prior := ⟨0, 2, 3, none, some 1⟩) (prior' := ⟨9 / 5 * 0 + 32, 2, (9 / 5) ^ 2 * 3, none, some 1⟩)
  rfl one_pos (by norm_num) (by norm_num) rfl one_pos (by norm_num) (by norm_num) (c := 9 / 5) (by norm_num) 32
  ((NormalInverseGamma.rescaled_iff one_pos (by norm_num) (by norm_num) one_pos (by norm_num) (by norm_num) (by norm_num) 32).2
    ⟨rfl, rfl, rfl, rfl⟩) [1, -3, 4] (by simp)
example := C101_normal_ng (M := Unit) (prior := ⟨0, 1, 2, 3⟩) (prior' := ⟨9 / 5 * 0 + 32, 1, 2, (9 / 5) ^ 2 * 3⟩)
  one_pos (by norm_num) (by norm_num) one_pos (by norm_num) (by norm_num) (c := 9 / 5) (by norm_num) 32
  (NormalGamma.rescaled 0 1 2 3 (by norm_num) 32) [1, -3, 4] (by simp)
example := C101_log_normal_nig (M := Unit) (prior := ⟨0, 2, 3, none, some 1⟩) (prior' := ⟨1 * 0 + Real.log 10, 2, 1 ^ 2 * 3, none, some 1⟩)
  rfl one_pos (by norm_num) (by norm_num) rfl one_pos (by norm_num) (by norm_num) (c := 10) (by norm_num)
  (by
    have := NormalInverseGamma.rescaled (M := Unit) ⟨0, 2, 3, none, some 1⟩ ⟨1 * 0 + Real.log 10, 2, 1 ^ 2 * 3, none, some 1⟩
      (nu := 1) (c := 1) one_ne_zero (Real.log 10) rfl rfl rfl
    simpa only [one_pow] using this) [1, 4] (by simp) (by simp)
example := C101_normal_predictive_nig (M := Unit) (e := ⟨0, 2, 3, none, some 1⟩) (e' := ⟨9 / 5 * 0 + 32, 2, (9 / 5) ^ 2 * 3, none, some 1⟩)
  rfl one_pos (by norm_num) (by norm_num) rfl one_pos (by norm_num) (by norm_num) (c := 9 / 5) (by norm_num) 32
  ((NormalInverseGamma.rescaled_iff one_pos (by norm_num) (by norm_num) one_pos (by norm_num) (by norm_num) (by norm_num) 32).2
    ⟨rfl, rfl, rfl, rfl⟩)
example := C101_weibull (prior := ⟨1, 2⟩) (prior' := ⟨1, 10 ^ (2 : ℝ) * 2⟩) ⟨by norm_num, by norm_num⟩
  ⟨by norm_num, by norm_num⟩ (c := 10) (by norm_num) 2
  ((InverseGamma.rescaled_iff ⟨by norm_num, by norm_num⟩ ⟨by norm_num, by norm_num⟩ (by norm_num)).2 rfl) [1, 2] (by simp)

example := C101_exponential_gamma_partial (prior := ⟨1, 2⟩) (prior' := ⟨1, 2 / 60⁻¹⟩) ⟨by norm_num, by norm_num⟩
  ⟨by norm_num, by norm_num⟩ (c := 60) (by norm_num)
  ((Gamma.rescaled_iff ⟨by norm_num, by norm_num⟩ ⟨by norm_num, by norm_num⟩ (by norm_num)).2 rfl) [1, 2] (by simp)
example := C101_normal_known_precision (prior := ⟨15, 5⟩) (prior' := ⟨9 / 5 * 15 + 32, |9 / 5| * 5⟩) (by norm_num)
  (by norm_num) (c := 9 / 5) (by norm_num) 32
  ((Normal.rescaled_iff (by norm_num) (by norm_num) (by norm_num) 32).2 rfl) (precision := 1 / 4) (by norm_num) [10, 20]
example := C101_normal_known_variance_predictive (e := ⟨15, 5⟩) (e' := ⟨9 / 5 * 15 + 32, |9 / 5| * 5⟩) (by norm_num)
  (by norm_num) (c := 9 / 5) (by norm_num) 32
  ((Normal.rescaled_iff (by norm_num) (by norm_num) (by norm_num) 32).2 rfl) (var := 4) (by norm_num)
example := C101_normal_known_mean_scaled_inverse_chi_squared (prior := ⟨2, 3⟩) (prior' := ⟨2, 2 ^ 2 * 3⟩) (by norm_num)
  (by norm_num) (by norm_num) (by norm_num) two_ne_zero 7
  ((ScaledInverseChiSquared.rescaled_iff (by norm_num) (by norm_num) (by norm_num) (by norm_num) (by norm_num)).2 rfl) 3 [1, 4]

end Conj
