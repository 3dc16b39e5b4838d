import Verif.Band
import Verif.Lemmas.Band
import Verif.Props.SequentialMatrix

/-!
# C123: the predictive band of a linear regression widens away from the data
-/

open MeasureTheory Set Matrix

namespace Conj

open Scipy Spec

variable {m n p : Type} [Fintype m] [DecidableEq m] [Fintype n] [DecidableEq n] [Fintype p] [DecidableEq p]

/-! ### Any features -/

theorem band_sigma (X : Matrix m p ℝ) (D : Matrix p p ℝ) (i : m) (c : ℝ) :
    (c • (1 + X * D * Xᵀ) : Matrix m m ℝ) i i = c * (1 + X i ⬝ᵥ D *ᵥ X i) := by
  simp only [Matrix.smul_apply, Matrix.add_apply, Matrix.one_apply_eq, smul_eq_mul]
  congr 2
  rw [Matrix.mul_assoc, Matrix.mul_apply]
  simp only [dotProduct, mulVec, Matrix.mul_apply, Matrix.transpose_apply]

/-- Of two predictions, row `i` is the more uncertain one exactly if its leverage is the larger. -/
theorem C123_wider_iff (X : Matrix m p ℝ) (dist : NormalInverseGamma ℝ (p → ℝ) (Matrix p p ℝ)) (D : Matrix p p ℝ)
    (h : dist.delta_inverse = some D) (hD : D.PosDef) (ha : 0 < dist.alpha) (hb : 0 < dist.beta)
    (pp : MultivariateStudentT ℝ (m → ℝ) (Matrix m m ℝ)) (hpp : linear_regression_predictive dist X = .ok pp) (i j : m) :
    Wider ((densLaw pp.pdf).map fun y => y i) (pp.mu i) ((densLaw pp.pdf).map fun y => y j) (pp.mu j) ↔
      X j ⬝ᵥ D *ᵥ X j < X i ⬝ᵥ D *ᵥ X i := by
  have hM : (1 + X * D * Xᵀ).PosDef := by
    have := posSemidef_conj hD.posSemidef Xᵀ
    rw [transpose_transpose] at this
    exact PosDef.one.add_posSemidef this
  have hc : 0 < dist.beta / dist.alpha := div_pos hb ha
  simp only [linear_regression_predictive, h, bind, Except.bind, pure, Except.pure, Except.ok.injEq] at hpp
  subst hpp
  have hS : ((dist.beta / dist.alpha) • (1 + X * D * Xᵀ)).PosDef := hM.smul hc
  have hd : ∀ i, 0 < dist.beta / dist.alpha * (1 + X i ⬝ᵥ D *ᵥ X i) := fun i => by
    rw [← band_sigma]
    exact hS.diag_pos
  rw [C56_multivariate_student_t_int_partial _ hS (by positivity) i, C56_multivariate_student_t_int_partial _ hS (by positivity) j]
  simp only [MultivariateStudentT.getInt, band_sigma]
  rw [student_wider (Real.sqrt_pos.2 (hd i)) (Real.sqrt_pos.2 (hd j)) (by positivity), Real.sqrt_lt_sqrt_iff (hd j).le,
    mul_lt_mul_iff_right₀ hc, add_lt_add_iff_left]

/-- A wider prediction has the longer interval: two intervals around the means with the same probability, of half widths `w`
and `w'`. -/
theorem C123_intervals {law law' : Measure ℝ} {c c' w w' : ℝ} (h : Wider law c law' c') (hw : 0 < w')
    (he : law (Icc (c - w) (c + w)) = law' (Icc (c' - w') (c' + w'))) : w' < w := by
  by_contra hn
  rw [not_lt] at hn
  have h1 : law (Icc (c - w) (c + w)) ≤ law (Icc (c - w') (c + w')) :=
    measure_mono (Icc_subset_Icc (by linarith) (by linarith))
  exact absurd (h w' hw) (not_lt.2 (he ▸ h1))

/-! ### One covariate and an intercept -/

/-- the point where the band is narrowest, from the prior's precision matrix and the training points -/
noncomputable def bandCentre (precision : Matrix (Fin 2) (Fin 2) ℝ) (x : n → ℝ) : ℝ :=
  (precision 0 1 + ∑ k, x k) / (precision 0 0 + Fintype.card n)

theorem leverage {A : Matrix (Fin 2) (Fin 2) ℝ} (hA : A.PosDef) (u : ℝ) :
    ![1, u] ⬝ᵥ A⁻¹ *ᵥ ![1, u] = (A 1 1 - 2 * u * A 0 1 + u ^ 2 * A 0 0) / A.det := by
  have hs : A 1 0 = A 0 1 := by
    have := congrFun (congrFun hA.isHermitian 0) 1
    simpa using this
  rw [Matrix.inv_def, Matrix.adjugate_fin_two, Ring.inverse_eq_inv']
  simp [dotProduct, mulVec, Fin.sum_univ_two, hs]
  field_simp
  ring

theorem leverage_lt {A : Matrix (Fin 2) (Fin 2) ℝ} (hA : A.PosDef) (u v : ℝ) :
    ![1, u] ⬝ᵥ A⁻¹ *ᵥ ![1, u] < ![1, v] ⬝ᵥ A⁻¹ *ᵥ ![1, v] ↔ |u - A 0 1 / A 0 0| < |v - A 0 1 / A 0 0| := by
  have h0 : 0 < A 0 0 := hA.diag_pos
  rw [leverage hA, leverage hA, div_lt_div_iff_of_pos_right hA.det_pos, ← sq_lt_sq]
  have e : ∀ t : ℝ, A 0 0 * (t - A 0 1 / A 0 0) ^ 2 = t ^ 2 * A 0 0 - 2 * t * A 0 1 + A 0 1 ^ 2 / A 0 0 := fun t => by
    field_simp
    ring
  constructor <;> intro h
  · refine lt_of_mul_lt_mul_left ?_ h0.le
    rw [e, e]
    linarith
  · have := mul_lt_mul_of_pos_left h h0
    rw [e, e] at this
    linarith

omit [DecidableEq n] in
theorem gram_create_X (x : n → ℝ) : ((create_X x)ᵀ * create_X x) 0 0 = Fintype.card n ∧ ((create_X x)ᵀ * create_X x) 0 1 = ∑ k, x k := by
  constructor <;> simp [Matrix.mul_apply, create_X]

/-- The whole pipeline of docs/examples/linear-regression.md: fit on the points `x`, predict at the points `new`. Prediction `i`
is wider than prediction `j` exactly if `new i` is further from the centre. -/
theorem C123_band (x : n → ℝ) (y : n → ℝ) (prior : NormalInverseGamma ℝ (Fin 2 → ℝ) (Matrix (Fin 2) (Fin 2) ℝ))
    (D : Matrix (Fin 2) (Fin 2) ℝ) (h : prior.delta_inverse = some D) (hD : D.PosDef) (ha : 0 < prior.alpha) (hb : 0 < prior.beta)
    (new : m → ℝ) :
    ∃ post pp, linear_regression (create_X x) y prior = .ok post ∧ linear_regression_predictive post (create_X new) = .ok pp ∧
      ∀ i j, Wider ((densLaw pp.pdf).map fun y => y i) (pp.mu i) ((densLaw pp.pdf).map fun y => y j) (pp.mu j) ↔
        |new j - bandCentre D⁻¹ x| < |new i - bandCentre D⁻¹ x| := by
  have hA := gram_add_posDef (create_X x) hD
  have hM : (1 + create_X x * D * (create_X x)ᵀ).PosDef := by
    have := posSemidef_conj hD.posSemidef (create_X x)ᵀ
    rw [transpose_transpose] at this
    exact PosDef.one.add_posSemidef this
  have hq : 0 ≤ quad (1 + create_X x * D * (create_X x)ᵀ)⁻¹ (y - create_X x *ᵥ prior.mu) := quad_nonneg hM.inv.posSemidef _
  obtain ⟨post, he, hdi, hal, hbe⟩ : ∃ post, linear_regression (create_X x) y prior = .ok post ∧
      post.delta_inverse = some ((create_X x)ᵀ * create_X x + D⁻¹)⁻¹ ∧ 0 < post.alpha ∧ 0 < post.beta :=
    ⟨_, linear_regression_eq (create_X x) y prior h hD, rfl, by positivity, by positivity⟩
  obtain ⟨pp, hpp⟩ : ∃ pp, linear_regression_predictive post (create_X new) = .ok pp :=
    by
    simp only [linear_regression_predictive, hdi, bind, Except.bind, pure, Except.pure]
    exact ⟨_, rfl⟩
  refine ⟨post, pp, he, hpp, fun i j => ?_⟩
  rw [C123_wider_iff (create_X new) post _ hdi hA.inv hal hbe pp hpp i j]
  have := leverage_lt hA (new j) (new i)
  have ec : ((create_X x)ᵀ * create_X x + D⁻¹) 0 1 / ((create_X x)ᵀ * create_X x + D⁻¹) 0 0 = bandCentre D⁻¹ x := by
    rw [Matrix.add_apply, Matrix.add_apply, (gram_create_X x).1, (gram_create_X x).2, bandCentre, add_comm, add_comm (D⁻¹ 0 0)]
  rw [ec] at this
  exact this

/-- "The band widens as we move away from the data": of any two new points the one further from the mean of the training points
has the wider prediction. -/
def Spec.WidensFromData (x : n → ℝ) (y : n → ℝ) (prior : NormalInverseGamma ℝ (Fin 2 → ℝ) (Matrix (Fin 2) (Fin 2) ℝ)) : Prop :=
  ∀ near far : ℝ, |near - (∑ k, x k) / Fintype.card n| < |far - (∑ k, x k) / Fintype.card n| →
    ∃ post pp, linear_regression (create_X x) y prior = .ok post ∧
      linear_regression_predictive post (create_X ![near, far]) = .ok pp ∧
      Wider ((densLaw pp.pdf).map fun y => y 1) (pp.mu 1) ((densLaw pp.pdf).map fun y => y 0) (pp.mu 0)

theorem farther_iff (a c : ℝ) : (∀ u v : ℝ, |u - a| < |v - a| → |u - c| < |v - c|) ↔ c = a := by
  constructor
  · intro h
    by_contra hne
    have h1 := h a c (by simpa using abs_pos.2 (sub_ne_zero.2 hne))
    simp only [sub_self, abs_zero] at h1
    exact absurd h1 (not_lt.2 (abs_nonneg _))
  · rintro rfl u v h
    exact h

/-- The claim holds exactly if the prior is centred at the data: `precision 0 1 = mean * precision 0 0`. -/
theorem C123_widens_iff [Nonempty n] (x : n → ℝ) (y : n → ℝ)
    (prior : NormalInverseGamma ℝ (Fin 2 → ℝ) (Matrix (Fin 2) (Fin 2) ℝ))
    (D : Matrix (Fin 2) (Fin 2) ℝ) (h : prior.delta_inverse = some D) (hD : D.PosDef) (ha : 0 < prior.alpha) (hb : 0 < prior.beta) :
    WidensFromData x y prior ↔ D⁻¹ 0 1 = (∑ k, x k) / Fintype.card n * D⁻¹ 0 0 := by
  have hn : (0 : ℝ) < Fintype.card n := by exact_mod_cast Fintype.card_pos
  have h0 : 0 < D⁻¹ 0 0 := hD.inv.diag_pos
  have h1 : WidensFromData x y prior ↔ ∀ u v : ℝ, |u - (∑ k, x k) / Fintype.card n| < |v - (∑ k, x k) / Fintype.card n| →
      |u - bandCentre D⁻¹ x| < |v - bandCentre D⁻¹ x| := by
    refine forall_congr' fun u => forall_congr' fun v => imp_congr_right fun _ => ?_
    obtain ⟨post, pp, e1, e2, hw⟩ := C123_band x y prior D h hD ha hb ![u, v]
    constructor
    · rintro ⟨post', pp', e1', e2', hw'⟩
      rw [e1] at e1'
      cases e1'
      rw [e2] at e2'
      cases e2'
      simpa using (hw 1 0).1 hw'
    · intro hlt
      exact ⟨post, pp, e1, e2, (hw 1 0).2 (by simpa using hlt)⟩
  rw [h1, farther_iff, bandCentre, div_eq_div_iff (by positivity) hn.ne', div_mul_eq_mul_div, eq_div_iff hn.ne']
  constructor <;> intro e <;> linarith

/-- the documented prior: mean zero, the identity matrix -/
theorem C123_documented_prior_iff [Nonempty n] (x : n → ℝ) (y : n → ℝ)
    (prior : NormalInverseGamma ℝ (Fin 2 → ℝ) (Matrix (Fin 2) (Fin 2) ℝ)) (h : prior.delta_inverse = some 1)
    (ha : 0 < prior.alpha) (hb : 0 < prior.beta) : WidensFromData x y prior ↔ ∑ k, x k = 0 := by
  have hn : (0 : ℝ) < Fintype.card n := by exact_mod_cast Fintype.card_pos
  rw [C123_widens_iff x y prior 1 h PosDef.one ha hb]
  simp only [inv_one, Matrix.one_apply_eq, mul_one]
  rw [Matrix.one_apply_ne (by decide), eq_comm, div_eq_zero_iff]
  simp [hn.ne']

theorem linspace_sum (L : ℝ) {k : ℕ} (hk : 2 ≤ k) : (linspace (-L) L k).sum = 0 := by
  have hk' : ((k - 1 : ℕ) : ℝ) ≠ 0 := by
    rw [Nat.cast_ne_zero]
    omega
  have e : linspace (-L) L k = (List.range k).map fun i : ℕ => i * ((2 * L) / ((k - 1 : ℕ) : ℝ)) - L := by
    refine List.map_congr_left fun i _ => ?_
    split_ifs with hi
    · have : i = k - 1 := by omega
      subst this
      field_simp
      ring
    · ring
  have e2 : ((List.range k).map fun i : ℕ => (i : ℝ) * ((2 * L) / ((k - 1 : ℕ) : ℝ)) - L).sum =
      ∑ i ∈ Finset.range k, ((i : ℝ) * ((2 * L) / ((k - 1 : ℕ) : ℝ)) - L) := rfl
  have e3 : (∑ i ∈ Finset.range k, (i : ℝ)) * 2 = k * ((k - 1 : ℕ) : ℝ) := by
    have := congrArg (Nat.cast : ℕ → ℝ) (Finset.sum_range_id_mul_two k)
    push_cast at this ⊢
    exact this
  rw [e, e2, Finset.sum_sub_distrib, ← Finset.sum_mul, Finset.sum_const, Finset.card_range, nsmul_eq_mul, mul_div_assoc',
    ← mul_assoc, e3]
  field_simp
  ring

/-- The documented data: the points `np.linspace(-x_lim, x_lim, n_points)`, whatever was observed there. -/
theorem C123_documented_partial (x_lim : ℝ) (n_points : ℕ) (hn : 2 ≤ n_points)
    (y : Fin (linspace (-x_lim) x_lim n_points).length → ℝ)
    (prior : NormalInverseGamma ℝ (Fin 2 → ℝ) (Matrix (Fin 2) (Fin 2) ℝ)) (h : prior.delta_inverse = some 1)
    (ha : 0 < prior.alpha) (hb : 0 < prior.beta) : WidensFromData (documentedPoints x_lim n_points) y prior := by
  have : Nonempty (Fin (linspace (-x_lim) x_lim n_points).length) := ⟨⟨0, by simp [linspace]; omega⟩⟩
  rw [C123_documented_prior_iff _ y prior h ha hb]
  have := linspace_sum x_lim hn
  rw [← List.sum_ofFn]
  have e : List.ofFn (documentedPoints x_lim n_points) = linspace (-x_lim) x_lim n_points :=
    List.ofFn_getElem
  rw [e, this]

/-- With the documented prior and training points all on one side of zero the claim is false, whatever was observed. -/
theorem C123_one_sided_false [Nonempty n] (x : n → ℝ) (hx : ∀ k, 0 < x k) (y : n → ℝ)
    (prior : NormalInverseGamma ℝ (Fin 2 → ℝ) (Matrix (Fin 2) (Fin 2) ℝ)) (h : prior.delta_inverse = some 1)
    (ha : 0 < prior.alpha) (hb : 0 < prior.beta) : ¬ WidensFromData x y prior := by
  rw [C123_documented_prior_iff x y prior h ha hb]
  exact (Finset.sum_pos (fun k _ => hx k) Finset.univ_nonempty).ne'

/-- What is always true of the documented prior: right of zero and of all training points the band widens to the right, left of
them to the left. -/
theorem C123_beyond (x : n → ℝ) (y : n → ℝ)
    (prior : NormalInverseGamma ℝ (Fin 2 → ℝ) (Matrix (Fin 2) (Fin 2) ℝ)) (h : prior.delta_inverse = some 1)
    (ha : 0 < prior.alpha) (hb : 0 < prior.beta) (near far : ℝ)
    (hf : (0 ≤ near ∧ (∀ k, x k ≤ near) ∧ near < far) ∨ (near ≤ 0 ∧ (∀ k, near ≤ x k) ∧ far < near)) :
    ∃ post pp, linear_regression (create_X x) y prior = .ok post ∧
      linear_regression_predictive post (create_X ![near, far]) = .ok pp ∧
      Wider ((densLaw pp.pdf).map fun y => y 1) (pp.mu 1) ((densLaw pp.pdf).map fun y => y 0) (pp.mu 0) := by
  obtain ⟨post, pp, e1, e2, hw⟩ := C123_band x y prior 1 h PosDef.one ha hb ![near, far]
  refine ⟨post, pp, e1, e2, (hw 1 0).2 ?_⟩
  have hc : bandCentre (1 : Matrix (Fin 2) (Fin 2) ℝ)⁻¹ x = (∑ k, x k) / (1 + Fintype.card n) := by
    simp [bandCentre]
  have hn : (0 : ℝ) < 1 + Fintype.card n := by positivity
  have hcard : ∀ t : ℝ, ∑ _k : n, t = Fintype.card n * t := fun t => by simp
  simp only [cons_val_zero, cons_val_one, hc]
  rcases hf with ⟨h0, hx, hlt⟩ | ⟨h0, hx, hlt⟩
  · have : (∑ k, x k) / (1 + Fintype.card n) ≤ near := by
      rw [div_le_iff₀ hn]
      have := Finset.sum_le_sum fun k (_ : k ∈ Finset.univ) => hx k
      rw [hcard] at this
      linarith
    rw [abs_of_nonneg (by linarith), abs_of_nonneg (by linarith)]
    linarith
  · have : near ≤ (∑ k, x k) / (1 + Fintype.card n) := by
      rw [le_div_iff₀ hn]
      have := Finset.sum_le_sum fun k (_ : k ∈ Finset.univ) => hx k
      rw [hcard] at this
      linarith
    rw [abs_of_nonpos (by linarith), abs_of_nonpos (by linarith)]
    linarith

/-- the documented prior -/
noncomputable def documentedPrior : NormalInverseGamma ℝ (Fin 2 → ℝ) (Matrix (Fin 2) (Fin 2) ℝ) :=
  { mu := 0, alpha := 1, beta := 1, delta_inverse := some 1, nu := none }

/-- non-vacuity: the documented call -/
example (y : Fin (linspace (-3) 3 100).length → ℝ) : WidensFromData (documentedPoints 3 100) y documentedPrior :=
  C123_documented_partial 3 100 (by norm_num) y documentedPrior rfl one_pos one_pos

example (y : Fin 2 → ℝ) : ¬ WidensFromData ![10, 11] y documentedPrior :=
  C123_one_sided_false _ (fun k => by fin_cases k <;> norm_num) y documentedPrior rfl one_pos one_pos

end Conj
