import Verif.Lemmas.RowsAlg

/-!
# Batches, order, no data and validity for the matrix models (C38, C39, C40, C41)

Rows arrive as a list of batches; the posterior of one call is the prior of the next
(`List.foldlM`, because the functions can raise).  The result is the posterior of a single
call on all rows.
-/

open Matrix

set_option linter.unusedSectionVars false

namespace Conj

open Scipy Spec

variable {p : Type} [Fintype p] [DecidableEq p]

/-- parameter space of a regression distribution (built with `delta_inverse`, not `nu`) -/
def RegValid (d : NormalInverseGamma ℝ (p → ℝ) (Matrix p p ℝ)) : Prop :=
  d.nu = none ∧ ∃ D, d.delta_inverse = some D ∧ D.PosDef

theorem regression_no_rows (d : NormalInverseGamma ℝ (p → ℝ) (Matrix p p ℝ)) (hd : RegValid d)
    {m : Type} [Fintype m] [DecidableEq m] [IsEmpty m] (X : Matrix m p ℝ) (y : m → ℝ) :
    linear_regression X y d = .ok d := by
  obtain ⟨hn, D, h, hD⟩ := hd
  have hX : Xᵀ * X = 0 := by ext i j; simp [mul_apply]
  have hy : Xᵀ *ᵥ y = 0 := by ext i; simp [mulVec, dotProduct]
  have hm : D⁻¹⁻¹ *ᵥ D⁻¹ *ᵥ d.mu = d.mu := by
    rw [mulVec_mulVec, nonsing_inv_mul _ (posDef_unit hD.inv), one_mulVec]
  rw [linear_regression_stats X y d h hD, hX, hy, zero_add, add_zero, hm,
    nonsing_inv_nonsing_inv _ (posDef_unit hD)]
  congr 1
  ext <;> simp [dotProduct, h, hn]

/-- C38. `linear_regression` over any split of the rows into batches. -/
theorem C38_linear_regression (batches : List (List ((p → ℝ) × ℝ)))
    (prior : NormalInverseGamma ℝ (p → ℝ) (Matrix p p ℝ)) (hp : RegValid prior) :
    batches.foldlM (fun d b => linear_regression (designX b) (designY b) d) prior =
      linear_regression (designX batches.flatten) (designY batches.flatten) prior := by
  refine foldlM_eq_flatten (fun d b => linear_regression (designX b) (designY b) d) RegValid
    ?_ ?_ ?_ batches prior hp
  · intro d hd
    exact regression_no_rows (m := Fin 0) d hd _ _
  · rintro d l d' ⟨_, D, h, hD⟩ he
    simp only [linear_regression_stats _ _ d h hD, Except.ok.injEq] at he
    subst he
    exact ⟨rfl, _, rfl, (gram_add_posDef _ hD).inv⟩
  · rintro d l l' ⟨_, D, h, hD⟩
    refine linear_regression_compose _ _ _ _ _ _ ?_ ?_ ?_ ?_ d h hD
    · simp only [design_gram, List.map_append, List.sum_append]
    · simp only [design_xy, List.map_append, List.sum_append]
    · simp only [design_yy, List.map_append, List.sum_append]
    · simp

example := C38_linear_regression [[(![1, 2], 3)], [(![(0 : ℝ), 1], -1), (![5, 5], 2)], []]
  ⟨![0, 1], 3, 2, some 1, none⟩ ⟨rfl, 1, rfl, PosDef.one⟩

/-- C38. `multivariate_normal_known_covariance`: each batch is passed as its size and its
mean (any vector for an empty batch). -/
theorem C38_multivariate_normal_known_covariance (cov : Matrix p p ℝ) (hc : cov.PosDef)
    (batches : List (List (p → ℝ) × (p → ℝ)))
    (hb : ∀ b ∈ batches, (b.1.length : ℝ) • b.2 = b.1.sum) (x_bar : p → ℝ)
    (hx : (((batches.map Prod.fst).flatten.length : ℕ) : ℝ) • x_bar =
      (batches.map Prod.fst).flatten.sum)
    (prior : MultivariateNormal (p → ℝ) (Matrix p p ℝ)) (hS : prior.cov.PosDef) :
    batches.foldlM (fun d b => multivariate_normal_known_covariance (b.1.length : ℝ) b.2 cov d)
        prior =
      multivariate_normal_known_covariance ((batches.map Prod.fst).flatten.length : ℝ) x_bar cov
        prior := by
  rw [mvn_known_cov_eq _ _ _ hx hc prior hS]
  clear hx
  induction batches generalizing prior with
  | nil =>
    simp only [List.map_nil, List.flatten_nil, List.length_nil, Nat.cast_zero, zero_smul,
      List.sum_nil, mulVec_zero, add_zero, mulVec_mulVec]
    rw [nonsing_inv_nonsing_inv _ (posDef_unit hS), mul_nonsing_inv _ (posDef_unit hS), one_mulVec]
    rfl
  | cons b bs ih =>
    have hA : (prior.cov⁻¹ + (b.1.length : ℝ) • cov⁻¹).PosDef :=
      hS.inv.add_posSemidef (natSmul_posSemidef hc.inv _)
    rw [List.foldlM_cons, mvn_known_cov_eq b.1.length b.2 _ (hb b (by simp)) hc prior hS]
    simp only [bind, Except.bind]
    rw [ih (fun b' hb' => hb b' (by simp [hb'])) _ hA.inv]
    simp only [List.map_cons, List.flatten_cons, List.length_append, List.sum_append, mulVec_mulVec]
    rw [nonsing_inv_nonsing_inv _ (posDef_unit hA)]
    have e1 : prior.cov⁻¹ + (b.1.length : ℝ) • cov⁻¹ +
        ((bs.map Prod.fst).flatten.length : ℝ) • cov⁻¹ =
        prior.cov⁻¹ + ((b.1.length + (bs.map Prod.fst).flatten.length : ℕ) : ℝ) • cov⁻¹ := by
      push_cast; rw [add_smul, add_assoc]
    rw [e1, mul_nonsing_inv _ (posDef_unit hA), one_mulVec, mulVec_add cov⁻¹, add_assoc]

/-- C38. `multivariate_normal_known_precision`. -/
theorem C38_multivariate_normal_known_precision (precision : Matrix p p ℝ)
    (hp : precision.PosDef) (batches : List (List (p → ℝ) × (p → ℝ)))
    (hb : ∀ b ∈ batches, (b.1.length : ℝ) • b.2 = b.1.sum) (x_bar : p → ℝ)
    (hx : (((batches.map Prod.fst).flatten.length : ℕ) : ℝ) • x_bar =
      (batches.map Prod.fst).flatten.sum)
    (prior : MultivariateNormal (p → ℝ) (Matrix p p ℝ)) (hS : prior.cov.PosDef) :
    batches.foldlM
        (fun d b => multivariate_normal_known_precision (b.1.length : ℝ) b.2 precision d) prior =
      multivariate_normal_known_precision ((batches.map Prod.fst).flatten.length : ℝ) x_bar
        precision prior := by
  have key : ∀ (n : ℕ) (x s : p → ℝ), (n : ℝ) • x = s →
      ∀ d : MultivariateNormal (p → ℝ) (Matrix p p ℝ), d.cov.PosDef →
      multivariate_normal_known_precision (n : ℝ) x precision d =
        multivariate_normal_known_covariance (n : ℝ) x precision⁻¹ d := by
    intro n x s hs d hd
    rw [mvn_known_prec_eq n x s hs hp d hd, mvn_known_cov_eq n x s hs hp.inv d hd,
      nonsing_inv_nonsing_inv _ (posDef_unit hp)]
  have h := C38_multivariate_normal_known_covariance precision⁻¹ hp.inv batches hb x_bar hx prior hS
  rw [key _ _ _ hx prior hS, ← h]
  clear h hx
  induction batches generalizing prior with
  | nil => rfl
  | cons b bs ih =>
    rw [List.foldlM_cons, List.foldlM_cons, key _ _ _ (hb b (by simp)) prior hS,
      mvn_known_cov_eq b.1.length b.2 _ (hb b (by simp)) hp.inv prior hS]
    exact ih (fun b' hb' => hb b' (by simp [hb'])) _
      (hS.inv.add_posSemidef (natSmul_posSemidef hp.inv.inv _)).inv

example := C38_multivariate_normal_known_covariance (1 : Matrix (Fin 2) (Fin 2) ℝ) PosDef.one
  [([![1, 3], ![3, 5]], ![2, 4]), ([![5, 1]], ![5, 1])]
  (by intro b hb; simp at hb; rcases hb with rfl | rfl <;> ext i <;> fin_cases i <;> norm_num)
  ![3, 3] (by ext i; fin_cases i <;> norm_num) ⟨![0, 1], 1⟩ PosDef.one

/-- C38. `multivariate_normal_known_mean`. -/
theorem C38_multivariate_normal_known_mean (mu : p → ℝ) (batches : List (List (p → ℝ)))
    (prior : InverseWishart ℝ (Matrix p p ℝ)) :
    batches.foldl (fun d b => multivariate_normal_known_mean (rows b) mu d) prior =
      multivariate_normal_known_mean (rows batches.flatten) mu prior := by
  induction batches generalizing prior with
  | nil =>
    simp only [List.foldl_nil, List.flatten_nil, multivariate_normal_known_mean]
    ext <;> simp [mul_apply]
  | cons b bs ih =>
    rw [List.foldl_cons, ih]
    simp only [multivariate_normal_known_mean, subRow_gram, List.flatten_cons, List.map_append,
      List.sum_append, Fintype.card_fin, List.length_append]
    ext
    · simp only; push_cast; ring
    · simp only [Matrix.add_apply]; ring

/-- C38. `multivariate_normal`, nonempty batches (an empty one yields `nan`, see C40). -/
theorem C38_multivariate_normal (b : List (p → ℝ)) (batches : List (List (p → ℝ)))
    (hb : b ≠ []) (hbs : ∀ l ∈ batches, l ≠ [])
    (prior : NormalInverseWishart ℝ (p → ℝ) (Matrix p p ℝ)) (hk : 0 < prior.kappa) :
    (b :: batches).foldlM (fun d l => multivariate_normal (rows l) d) prior =
      multivariate_normal (rows (b :: batches).flatten) prior := by
  have hne : ∀ l : List (p → ℝ), l ≠ [] → Nonempty (Fin l.length) := fun l hl =>
    ⟨⟨0, List.length_pos_iff.2 hl⟩⟩
  have hkn : ∀ (k : ℝ), 0 < k → ∀ l : List (p → ℝ),
      k + (Fintype.card (Fin l.length) : ℝ) ≠ 0 := fun k hk l => by positivity
  induction batches generalizing prior b with
  | nil =>
    have e : multivariate_normal (rows [b].flatten) prior = multivariate_normal (rows b) prior :=
      congrArg (fun l => multivariate_normal (rows l) prior) (by simp)
    rw [e, List.foldlM_cons]
    simp only [List.foldlM_nil]
    cases multivariate_normal (rows b) prior <;> rfl
  | cons c cs ih =>
    have h2 : (c :: cs).flatten ≠ [] := by
      have := hbs c (by simp)
      cases c with
      | nil => exact absurd rfl this
      | cons x xs => simp
    have h3 : (b :: c :: cs).flatten ≠ [] := by
      cases b with
      | nil => exact absurd rfl hb
      | cons x xs => simp
    have := hne _ hb
    have := hne _ h2
    have := hne _ h3
    rw [List.foldlM_cons, mvnormal_stats (rows b) prior (hkn _ hk b)]
    simp only [bind, Except.bind]
    have hk' : 0 < prior.kappa + (Fintype.card (Fin b.length) : ℝ) := by positivity
    rw [ih c (hbs c (by simp)) (fun l hl => hbs l (by simp [hl])) _ hk',
      mvnormal_stats _ _ (hkn _ hk' _), mvnormal_stats _ prior (hkn _ hk _)]
    simp only [rows_total, rows_gram, Fintype.card_fin] at hk' ⊢
    have e : ((b :: c :: cs).flatten.length : ℝ) = b.length + ((c :: cs).flatten.length : ℝ) := by
      rw [List.flatten_cons, List.length_append]; push_cast; ring
    have e1 : (b :: c :: cs).flatten = b ++ (c :: cs).flatten := rfl
    have hu : (prior.kappa + (b.length : ℝ)) • (prior.kappa + (b.length : ℝ))⁻¹ •
        (prior.kappa • prior.mu + b.sum) = prior.kappa • prior.mu + b.sum := by
      rw [smul_smul, mul_inv_cancel₀ hk'.ne', one_smul]
    rw [hu, e, e1, List.sum_append, List.map_append, List.sum_append, ← add_assoc, ← add_assoc,
      ← add_assoc]
    congr 2
    abel

example := C38_multivariate_normal [![1, 2], ![(0 : ℝ), 1]] [[![3, 3]]] (by simp) (by simp)
  ⟨![0, 0], 1, 5, 1⟩ (by norm_num)

/-! ## C39: order of rows and batches -/

/-- C39. Permuting rows does not change the regression posterior, whatever the prior and
inversion function. -/
theorem C39_linear_regression {l₁ l₂ : List ((p → ℝ) × ℝ)} (h : l₁.Perm l₂)
    (prior : NormalInverseGamma ℝ (p → ℝ) (Matrix p p ℝ)) (inv : InvFn p) :
    linear_regression (designX l₁) (designY l₁) prior inv =
      linear_regression (designX l₂) (designY l₂) prior inv := by
  simp only [linear_regression, design_gram, design_xy, design_yy, Fintype.card_fin, h.length_eq,
    (h.map _).sum_eq]

/-- C39. Permuting the batches of a regression. -/
theorem C39_linear_regression_batches {b₁ b₂ : List (List ((p → ℝ) × ℝ))} (h : b₁.Perm b₂)
    (prior : NormalInverseGamma ℝ (p → ℝ) (Matrix p p ℝ)) (hp : RegValid prior) :
    b₁.foldlM (fun d b => linear_regression (designX b) (designY b) d) prior =
      b₂.foldlM (fun d b => linear_regression (designX b) (designY b) d) prior := by
  rw [C38_linear_regression b₁ prior hp, C38_linear_regression b₂ prior hp]
  exact C39_linear_regression h.flatten prior linalgInv

/-- C39. -/
theorem C39_multivariate_normal_known_mean (mu : p → ℝ) {l₁ l₂ : List (p → ℝ)} (h : l₁.Perm l₂)
    (prior : InverseWishart ℝ (Matrix p p ℝ)) :
    multivariate_normal_known_mean (rows l₁) mu prior =
      multivariate_normal_known_mean (rows l₂) mu prior := by
  simp only [multivariate_normal_known_mean, subRow_gram, Fintype.card_fin, h.length_eq,
    (h.map _).sum_eq]

/-- C39. -/
theorem C39_multivariate_normal_known_mean_batches (mu : p → ℝ) {b₁ b₂ : List (List (p → ℝ))}
    (h : b₁.Perm b₂) (prior : InverseWishart ℝ (Matrix p p ℝ)) :
    b₁.foldl (fun d b => multivariate_normal_known_mean (rows b) mu d) prior =
      b₂.foldl (fun d b => multivariate_normal_known_mean (rows b) mu d) prior := by
  rw [C38_multivariate_normal_known_mean, C38_multivariate_normal_known_mean]
  exact C39_multivariate_normal_known_mean mu h.flatten prior

/-- C39. Rows of `multivariate_normal`. -/
theorem C39_multivariate_normal {l₁ l₂ : List (p → ℝ)} (h : l₁.Perm l₂)
    (prior : NormalInverseWishart ℝ (p → ℝ) (Matrix p p ℝ)) :
    multivariate_normal (rows l₁) prior = multivariate_normal (rows l₂) prior := by
  have hm : meanAxis0 (rows l₁) = meanAxis0 (rows l₂) := by
    simp only [meanAxis0, Fintype.card_fin, h.length_eq]
    have := (rows_total l₁).trans (h.sum_eq.trans (rows_total l₂).symm)
    have h2 : ∀ j, ∑ i, rows l₁ i j = ∑ i, rows l₂ i j := fun j => congrFun this j
    simp only [h2]
  simp only [multivariate_normal, hm, subRow_gram, Fintype.card_fin, h.length_eq,
    (h.map _).sum_eq]

/-- C39. Batches of `multivariate_normal`, nonempty ones. -/
theorem C39_multivariate_normal_batches {b₁ b₂ : List (List (p → ℝ))} (h : b₁.Perm b₂)
    (hb : ∀ l ∈ b₁, l ≠ []) (prior : NormalInverseWishart ℝ (p → ℝ) (Matrix p p ℝ))
    (hk : 0 < prior.kappa) :
    b₁.foldlM (fun d l => multivariate_normal (rows l) d) prior =
      b₂.foldlM (fun d l => multivariate_normal (rows l) d) prior := by
  cases b₁ with
  | nil => rw [List.nil_perm.1 h]
  | cons c₁ cs₁ =>
    cases b₂ with
    | nil => exact absurd h.symm (by simp)
    | cons c₂ cs₂ =>
      rw [C38_multivariate_normal c₁ cs₁ (hb c₁ (by simp)) (fun l hl => hb l (by simp [hl])) prior hk,
        C38_multivariate_normal c₂ cs₂ (hb c₂ (h.mem_iff.2 (by simp)))
          (fun l hl => hb l (h.mem_iff.2 (by simp [hl]))) prior hk]
      exact C39_multivariate_normal h.flatten prior

/-- C39. Batches of the known-covariance model. -/
theorem C39_multivariate_normal_known_covariance (cov : Matrix p p ℝ) (hc : cov.PosDef)
    {b₁ b₂ : List (List (p → ℝ) × (p → ℝ))} (h : b₁.Perm b₂)
    (hb : ∀ b ∈ b₁, (b.1.length : ℝ) • b.2 = b.1.sum) 
    (prior : MultivariateNormal (p → ℝ) (Matrix p p ℝ)) (hS : prior.cov.PosDef) :
    b₁.foldlM (fun d b => multivariate_normal_known_covariance (b.1.length : ℝ) b.2 cov d) prior =
      b₂.foldlM (fun d b => multivariate_normal_known_covariance (b.1.length : ℝ) b.2 cov d)
        prior := by
  have hx : ∀ l : List (p → ℝ), ((l.length : ℕ) : ℝ) • ((l.length : ℝ)⁻¹ • l.sum) = l.sum := by
    intro l
    cases l with
    | nil => simp
    | cons x xs =>
      rw [smul_smul, mul_inv_cancel₀ (by simp; positivity), one_smul]
  have hf : (b₁.map Prod.fst).flatten.Perm (b₂.map Prod.fst).flatten := (h.map _).flatten
  rw [C38_multivariate_normal_known_covariance cov hc b₁ hb _ (hx _) prior hS,
    C38_multivariate_normal_known_covariance cov hc b₂ (fun b hb' => hb b (h.mem_iff.2 hb')) _
      (hx _) prior hS, hf.length_eq, hf.sum_eq]

example := C39_linear_regression (List.Perm.swap (![1, 2], (3 : ℝ)) (![0, 1], -1) [])
  ⟨![0, 1], 3, 2, some 1, none⟩ linalgInv

/-! ## C40: no data -/

/-- C40. No rows: regression returns the prior. -/
theorem C40_linear_regression {m : Type} [Fintype m] [DecidableEq m] [IsEmpty m]
    (X : Matrix m p ℝ) (y : m → ℝ) (prior : NormalInverseGamma ℝ (p → ℝ) (Matrix p p ℝ))
    (hp : RegValid prior) : linear_regression X y prior = .ok prior :=
  regression_no_rows prior hp X y

/-- C40. -/
theorem C40_multivariate_normal_known_covariance (x_bar : p → ℝ) (cov : Matrix p p ℝ)
    (hc : cov.PosDef) (prior : MultivariateNormal (p → ℝ) (Matrix p p ℝ)) (hS : prior.cov.PosDef) :
    multivariate_normal_known_covariance 0 x_bar cov prior = .ok prior ∧
      multivariate_normal_known_precision 0 x_bar cov prior = .ok prior := by
  have h1 := mvn_known_cov_eq 0 x_bar 0 (by simp) hc prior hS
  have h2 := mvn_known_prec_eq 0 x_bar 0 (by simp) hc prior hS
  simp only [Nat.cast_zero, zero_smul, mulVec_zero, add_zero, mulVec_mulVec,
    nonsing_inv_nonsing_inv _ (posDef_unit hS), mul_nonsing_inv _ (posDef_unit hS), one_mulVec]
    at h1 h2
  exact ⟨h1, h2⟩

/-- C40. -/
theorem C40_multivariate_normal_known_mean {m : Type} [Fintype m] [IsEmpty m]
    (X : Matrix m p ℝ) (mu : p → ℝ) (prior : InverseWishart ℝ (Matrix p p ℝ)) :
    multivariate_normal_known_mean X mu prior = prior := by
  ext <;> simp [multivariate_normal_known_mean, mul_apply]

/-- C40 is false for `multivariate_normal`: without rows the column mean is `nan`. -/
theorem C40_multivariate_normal_no_rows_nan {m : Type} [Fintype m] [IsEmpty m]
    (X : Matrix m p ℝ) (prior : NormalInverseWishart ℝ (p → ℝ) (Matrix p p ℝ)) :
    multivariate_normal X prior = .error .nanResult := by
  simp [multivariate_normal, meanAxis0, bind, Except.bind]

/-! ## C41: valid priors give valid posteriors -/

/-- C41. Regression: shape and rate stay positive, the scaled covariance positive definite. -/
theorem C41_linear_regression {m : Type} [Fintype m] [DecidableEq m] (X : Matrix m p ℝ)
    (y : m → ℝ) (prior : NormalInverseGamma ℝ (p → ℝ) (Matrix p p ℝ)) (hp : RegValid prior)
    (ha : 0 < prior.alpha) (hb : 0 < prior.beta) :
    ∃ post, linear_regression X y prior = .ok post ∧ RegValid post ∧ 0 < post.alpha ∧
      0 < post.beta ∧ prior.beta ≤ post.beta := by
  obtain ⟨_, D, h, hD⟩ := hp
  have hM : (1 + X * D * Xᵀ).PosDef := by
    have := posSemidef_conj hD.posSemidef Xᵀ
    rw [transpose_transpose] at this
    exact PosDef.one.add_posSemidef this
  have hq : 0 ≤ quad (1 + X * D * Xᵀ)⁻¹ (y - X *ᵥ prior.mu) := quad_nonneg hM.inv.posSemidef _
  refine ⟨_, linear_regression_eq X y prior h hD, ⟨rfl, _, rfl, (gram_add_posDef X hD).inv⟩, ?_, ?_,
    ?_⟩
  · simp only; positivity
  · simp only; positivity
  · simp only; linarith

/-- C41. Known covariance: the posterior covariance is positive definite, for every `n`. -/
theorem C41_multivariate_normal_known_covariance (n : ℕ) (x_bar : p → ℝ) (cov : Matrix p p ℝ)
    (hc : cov.PosDef) (prior : MultivariateNormal (p → ℝ) (Matrix p p ℝ)) (hS : prior.cov.PosDef) :
    (∃ post, multivariate_normal_known_covariance (n : ℝ) x_bar cov prior = .ok post ∧
      post.cov.PosDef) ∧
    (∃ post, multivariate_normal_known_precision (n : ℝ) x_bar cov prior = .ok post ∧
      post.cov.PosDef) :=
  ⟨⟨_, mvn_known_cov_eq n x_bar _ rfl hc prior hS,
    (hS.inv.add_posSemidef (natSmul_posSemidef hc.inv n)).inv⟩,
   ⟨_, mvn_known_prec_eq n x_bar _ rfl hc prior hS,
    (hS.inv.add_posSemidef (natSmul_posSemidef hc n)).inv⟩⟩

/-- C41. Known mean. -/
theorem C41_multivariate_normal_known_mean {m : Type} [Fintype m] [DecidableEq m]
    (X : Matrix m p ℝ) (mu : p → ℝ) (prior : InverseWishart ℝ (Matrix p p ℝ))
    (hnu : (Fintype.card p : ℝ) - 1 < prior.nu) (hpsi : prior.psi.PosDef) :
    (Fintype.card p : ℝ) - 1 < (multivariate_normal_known_mean X mu prior).nu ∧
      (multivariate_normal_known_mean X mu prior).psi.PosDef := by
  refine ⟨?_, hpsi.add_posSemidef (subRow_gram_posSemidef X mu)⟩
  have : (0 : ℝ) ≤ Fintype.card m := Nat.cast_nonneg _
  simp only [multivariate_normal_known_mean]; linarith

example := C41_linear_regression !![1, 2; 3, 4; (5 : ℝ), 6] ![1, 2, 3]
  ⟨![0, 1], 3, 2, some 1, none⟩ ⟨rfl, 1, rfl, PosDef.one⟩ (by norm_num) (by norm_num)

end Conj
