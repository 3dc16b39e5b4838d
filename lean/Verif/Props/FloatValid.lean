import Verif.Props.FloatError
import Mathlib.Analysis.SpecialFunctions.Log.Deriv
import Mathlib.Analysis.Complex.ExponentialBounds

/-!
# Valid parameters in floating point (C91)

Valid float parameters and data give valid float parameters.  This is false for the updates that subtract:
`normal` (hence `log_normal`), `normal_known_mean`, `geometric_beta` with `one_start` and `pareto_gamma` can return
a parameter that is zero or negative although the data are ordinary.
-/

namespace Conj

open Spec

variable {u : ℝ} {F : FloatArith}

section
variable (hF : Accurate u F.rnd F.pow)
include hF

theorem rnd_pos {x : ℝ} (hx : 0 < x) : 0 < F.rnd x :=
  near_pos hF.u_nonneg hF.u_le (near_rnd hF (near_refl x)) hx

theorem rnd_nonneg {x : ℝ} (hx : 0 ≤ x) : 0 ≤ F.rnd x :=
  near_nonneg hF.u_nonneg hF.u_le (near_rnd hF (near_refl x)) hx

theorem fpow_pos {x : ℝ} (c : ℚ) (hx : 0 < x) : 0 < F.pow x c :=
  near_pos hF.u_nonneg hF.u_le (near_of_relError_two hF.u_nonneg hF.u_le (hF.pow_error x c hx))
    (Real.rpow_pos_of_pos hx _)

/-- C91 binomial -/
theorem C91_binomial_beta (n x : Fl F) (prior : Beta (Fl F)) (hx : 0 ≤ x.val) (hn : x.val ≤ n.val)
    (hp : Params.All (fun y : Fl F => 0 < y.val) prior) :
    Params.All (fun y : Fl F => 0 < y.val) (binomial_beta n x prior) :=
  ⟨rnd_pos hF (add_pos_of_pos_of_nonneg hp.1 hx),
    rnd_pos hF (add_pos_of_pos_of_nonneg hp.2 (rnd_nonneg hF (sub_nonneg.2 hn)))⟩

/-- C91 negative binomial -/
theorem C91_negative_binomial_beta (r n x : Fl F) (prior : Beta (Fl F)) (hr : 0 ≤ r.val) (hn : 0 ≤ n.val)
    (hx : 0 ≤ x.val) (hp : Params.All (fun y : Fl F => 0 < y.val) prior) :
    Params.All (fun y : Fl F => 0 < y.val) (negative_binomial_beta r n x prior) :=
  ⟨rnd_pos hF (add_pos_of_pos_of_nonneg hp.1 (rnd_nonneg hF (mul_nonneg hr hn))),
    rnd_pos hF (add_pos_of_pos_of_nonneg hp.2 hx)⟩

/-- C91 geometric, counting from zero -/
theorem C91_geometric_beta_zero_start (x_total n : Fl F) (prior : Beta (Fl F)) (hx : 0 ≤ x_total.val)
    (hn : 0 ≤ n.val) (hp : Params.All (fun y : Fl F => 0 < y.val) prior) :
    Params.All (fun y : Fl F => 0 < y.val) (geometric_beta x_total n prior false) :=
  ⟨rnd_pos hF (add_pos_of_pos_of_nonneg hp.1 hn), rnd_pos hF (add_pos_of_pos_of_nonneg hp.2 hx)⟩

/-- C91 Poisson -/
theorem C91_poisson_gamma (x_total n : Fl F) (prior : Gamma (Fl F)) (hx : 0 ≤ x_total.val) (hn : 0 ≤ n.val)
    (hp : Params.All (fun y : Fl F => 0 < y.val) prior) :
    Params.All (fun y : Fl F => 0 < y.val) (poisson_gamma x_total n prior) :=
  ⟨rnd_pos hF (add_pos_of_pos_of_nonneg hp.1 hx), rnd_pos hF (add_pos_of_pos_of_nonneg hp.2 hn)⟩

/-- C91 exponential -/
theorem C91_exponential_gamma (x_total n : Fl F) (prior : Gamma (Fl F)) (hx : 0 ≤ x_total.val) (hn : 0 ≤ n.val)
    (hp : Params.All (fun y : Fl F => 0 < y.val) prior) :
    Params.All (fun y : Fl F => 0 < y.val) (exponential_gamma x_total n prior) :=
  C91_poisson_gamma hF x_total n prior hx hn hp

/-- C91 gamma with known shape -/
theorem C91_gamma_known_shape (x_total n alpha : Fl F) (prior : Gamma (Fl F)) (hx : 0 ≤ x_total.val)
    (hn : 0 ≤ n.val) (ha : 0 ≤ alpha.val) (hp : Params.All (fun y : Fl F => 0 < y.val) prior) :
    Params.All (fun y : Fl F => 0 < y.val) (gamma_known_shape x_total n alpha prior) :=
  ⟨rnd_pos hF (add_pos_of_pos_of_nonneg hp.1 (rnd_nonneg hF (mul_nonneg hn ha))),
    rnd_pos hF (add_pos_of_pos_of_nonneg hp.2 hx)⟩

/-- C91 inverse gamma with known shape -/
theorem C91_inverse_gamma_known_rate (x_total n alpha : Fl F) (prior : Gamma (Fl F)) (hx : 0 ≤ x_total.val)
    (hn : 0 ≤ n.val) (ha : 0 ≤ alpha.val) (hp : Params.All (fun y : Fl F => 0 < y.val) prior) :
    Params.All (fun y : Fl F => 0 < y.val) (inverse_gamma_known_rate x_total n alpha prior) :=
  ⟨rnd_pos hF (add_pos_of_pos_of_nonneg hp.1 (rnd_nonneg hF (mul_nonneg hn ha))),
    rnd_pos hF (add_pos_of_pos_of_nonneg hp.2 hx)⟩

/-- C91 Weibull -/
theorem C91_weibull_inverse_gamma_known_shape (n x_beta_total : Fl F) (prior : InverseGamma (Fl F)) (hn : 0 ≤ n.val)
    (hx : 0 ≤ x_beta_total.val) (hp : Params.All (fun y : Fl F => 0 < y.val) prior) :
    Params.All (fun y : Fl F => 0 < y.val) (weibull_inverse_gamma_known_shape n x_beta_total prior) :=
  ⟨rnd_pos hF (add_pos_of_pos_of_nonneg hp.1 hn), rnd_pos hF (add_pos_of_pos_of_nonneg hp.2 hx)⟩

/-- C91 uniform; `max_fn` returns one of its arguments -/
theorem C91_uniform_pareto (x_max n : Fl F) (prior : Pareto (Fl F)) (max_fn : Fl F → Fl F → Fl F)
    (hm : ∀ a b, max_fn a b = a ∨ max_fn a b = b) (hx : 0 < x_max.val) (hn : 0 ≤ n.val)
    (hp : Params.All (fun y : Fl F => 0 < y.val) prior) :
    Params.All (fun y : Fl F => 0 < y.val) (uniform_pareto x_max n prior max_fn) := by
  refine ⟨?_, rnd_pos hF (add_pos_of_pos_of_nonneg hp.2 hn)⟩
  change 0 < (max_fn prior.x_m x_max).val
  rcases hm prior.x_m x_max with h | h <;> rw [h]
  · exact hp.1
  · exact hx

/-- C91 categorical and multinomial -/
theorem C91_multinomial_dirichlet {I : Type} (x : I → Fl F) (prior : Dirichlet (I → Fl F))
    (hx : ∀ i, 0 ≤ (x i).val) (hp : ∀ i, 0 < (prior.alpha i).val) :
    ∃ post, multinomial_dirichlet x prior = .ok post ∧ categorical_dirichlet x prior = .ok post ∧
      ∀ i, 0 < (post.alpha i).val :=
  ⟨_, rfl, rfl, fun i => rnd_pos hF (add_pos_of_pos_of_nonneg (hp i) (hx i))⟩

/-- C91 normal with known variance: the posterior standard deviation is positive -/
theorem C91_normal_known_variance (x_total n var : Fl F) (prior : Normal (Fl F)) (hs : 0 < prior.sigma.val)
    (hn : 0 ≤ n.val) (hv : 0 < var.val) : 0 < (normal_known_variance x_total n var prior).sigma.val := by
  have one : 0 < F.rnd ((1 : ℚ) : ℝ) := rnd_pos hF (by simp)
  exact fpow_pos hF _ (rnd_pos hF (div_pos one (rnd_pos hF (add_pos_of_pos_of_nonneg
    (rnd_pos hF (div_pos one (fpow_pos hF 2 hs))) (rnd_nonneg hF (div_nonneg hn hv.le))))))

/-- C91 normal with known precision -/
theorem C91_normal_known_precision (x_total n precision : Fl F) (prior : Normal (Fl F)) (hs : 0 < prior.sigma.val)
    (hn : 0 ≤ n.val) (hv : 0 < precision.val) : 0 < (normal_known_precision x_total n precision prior).sigma.val :=
  C91_normal_known_variance hF _ _ _ _ hs hn (rnd_pos hF (div_pos (rnd_pos hF (by simp)) hv))

/-- C91 normal predictive distributions: positive scale and degrees of freedom -/
theorem C91_normal_predictive {M : Type} (d : NormalGamma (Fl F)) (hl : 0 < d.lam.val) (ha : 0 < d.alpha.val)
    (hb : 0 < d.beta.val) : ∃ t, normal_predictive (.ng d : NormalPrior (Fl F) M) = .ok t ∧ 0 < t.sigma.val ∧
      0 < t.nu.val := by
  have one : 0 < F.rnd ((1 : ℚ) : ℝ) := rnd_pos hF (by simp)
  have two : 0 < F.rnd ((2 : ℚ) : ℝ) := rnd_pos hF (by simp)
  exact ⟨_, rfl, fpow_pos hF _ (rnd_pos hF (div_pos (rnd_pos hF (mul_pos hb (rnd_pos hF (add_pos hl one))))
    (rnd_pos hF (mul_pos hl ha)))), rnd_pos hF (mul_pos two ha)⟩

/-- C91 normal, what holds: the two counters stay positive. Missing: `beta`, for which it is false
(`C91_normal_false`). -/
theorem C91_normal_partial {M : Type} (x_total x2_total n : Fl F) (d : NormalGamma (Fl F)) (hn : 0 ≤ n.val)
    (hl : 0 < d.lam.val) (ha : 0 < d.alpha.val) : ∃ post : NormalGamma (Fl F),
      normal x_total x2_total n (.ng d : NormalPrior (Fl F) M) = .ok (.ng post) ∧ 0 < post.lam.val ∧
      0 < post.alpha.val := by
  have two : 0 < F.rnd ((2 : ℚ) : ℝ) := rnd_pos hF (by simp)
  exact ⟨_, rfl, rnd_pos hF (add_pos_of_pos_of_nonneg hl hn),
    rnd_pos hF (add_pos_of_pos_of_nonneg ha (rnd_nonneg hF (div_nonneg hn two.le)))⟩

end

example : ∃ (F : FloatArith) (u : ℝ), Accurate u F.rnd F.pow ∧
    Params.All (fun y : Fl F => 0 < y.val) (fmap Fl.mk (⟨1 / 2, 3⟩ : Beta ℝ)) :=
  ⟨binary 53, _, binary_accurate (by norm_num), by change (0 : ℝ) < 1 / 2; norm_num, by change (0 : ℝ) < 3; norm_num⟩

/-! ## Where it fails: Python floats -/

/-- integers up to `2 ^ 53` and their halves and quarters are Python floats -/
theorem py_keep {x : ℝ} (k : ℕ) (m : ℤ) (h : x = m / 2 ^ k) (hm : |m| ≤ 2 ^ 53) : roundBits 53 x = x := by
  have := roundBits_keeps (p := 53) (by norm_num) m (-k) hm
  rw [zpow_neg, zpow_natCast, ← div_eq_mul_inv] at this
  rw [h, this]

theorem py_rnd : (binary 53).rnd = roundBits 53 := rfl
theorem py_pow (x : ℝ) (c : ℚ) : (binary 53).pow x c = roundBits 53 (x ^ (c : ℝ)) := rfl

/-- C91 is false of `normal`: the prior is centred at the first observation and has variance about 1/4, the two
observations differ by one; the statistics are exact integers; the ideal posterior has `beta = 7 / 12`, the computed
one `beta = -3 / 4`. -/
theorem C91_normal_false {M : Type} :
    let data : List ℝ := [67108859, 67108860]
    let prior : NormalGamma ℝ := ⟨67108859, 1, 1, 1 / 4⟩
    (∃ post : NormalGamma ℝ, normal data.sum (data.map (· ^ 2)).sum data.length (.ng prior : NormalPrior ℝ M) =
      .ok (.ng post) ∧ post.beta = 7 / 12) ∧
    ∃ post : NormalGamma (Fl (binary 53)),
      normal (⟨data.sum⟩ : Fl (binary 53)) ⟨(data.map (· ^ 2)).sum⟩ ⟨data.length⟩
        (.ng (fmap Fl.mk prior) : NormalPrior (Fl (binary 53)) M) = .ok (.ng post) ∧ post.beta.val = -3 / 4 := by
  dsimp only
  constructor
  · refine ⟨_, rfl, ?_⟩
    simp only [normalUpdate, List.sum_cons, List.sum_nil, List.map_cons, List.map_nil, List.length_cons,
      List.length_nil, powq_two, lit_real]
    norm_num
  · refine ⟨_, rfl, ?_⟩
    have hh : roundBits 53 ((1 / 2 : ℚ) : ℝ) = 1 / 2 := by
      rw [show (((1 / 2 : ℚ) : ℚ) : ℝ) = 1 / 2 by norm_num]; exact py_keep 1 1 (by norm_num) (by norm_num)
    have e1 : roundBits 53 (134217719 / 2) = 134217719 / 2 := py_keep 1 134217719 (by norm_num) (by norm_num)
    have e2 : roundBits 53 ((1 : ℝ) + 2) = 3 := by rw [py_keep 0 3 (by norm_num) (by norm_num)]; norm_num
    have e3 : roundBits 53 ((1 : ℝ) * 67108859) = 67108859 := by
      rw [py_keep 0 67108859 (by norm_num) (by norm_num)]; norm_num
    have e4 : roundBits 53 ((2 : ℝ) * (134217719 / 2)) = 134217719 := by
      rw [py_keep 0 134217719 (by norm_num) (by norm_num)]; norm_num
    have e5 : roundBits 53 ((67108859 : ℝ) + 134217719) = 201326578 := by
      rw [py_keep 0 201326578 (by norm_num) (by norm_num)]; norm_num
    have e6 : roundBits 53 ((201326578 : ℝ) / 3) = 9007198628391595 / 134217728 := by
      rw [roundBits_eq (-27) 9007198628391595 (by norm_num) (by norm_num [abs_lt]) (Or.inl (by norm_num [abs_lt]))]
      norm_num
    have e7 : roundBits 53 ((67108859 : ℝ) ^ ((2 : ℚ) : ℝ)) = 67108859 ^ 2 := by
      rw [Rat.cast_ofNat, Real.rpow_two]
      exact py_keep 0 4503598956281881 (by norm_num) (by norm_num)
    have e8 : roundBits 53 ((67108859 : ℝ) ^ 2 * 1) = 67108859 ^ 2 := by
      rw [mul_one]; exact py_keep 0 4503598956281881 (by norm_num) (by norm_num)
    have e9 : roundBits 53 ((67108859 : ℝ) ^ 2 + 9007198046781481) = 13510797003063362 := by
      have := roundBits_keeps (p := 53) (by norm_num) 6755398501531681 1 (by norm_num)
      norm_num at this ⊢
      exact this
    have e10 : roundBits 53 ((9007198628391595 / 134217728 : ℝ) ^ ((2 : ℚ) : ℝ)) = 4503599001021121 := by
      rw [Rat.cast_ofNat, Real.rpow_two,
        roundBits_eq (-1) 9007198002042242 (by norm_num) (by norm_num [abs_lt]) (Or.inl (by norm_num [abs_lt]))]
      norm_num
    have e11 : roundBits 53 ((4503599001021121 : ℝ) * 3) = 13510797003063364 := by
      rw [roundBits_eq 1 6755398501531682 (by norm_num) (by norm_num [abs_lt])
        (Or.inr ⟨by norm_num, by decide⟩)]
      norm_num
    have e12 : roundBits 53 ((13510797003063362 : ℝ) - 13510797003063364) = -2 := by
      rw [py_keep 0 (-2) (by norm_num) (by norm_num)]; norm_num
    have e13 : roundBits 53 ((1 / 2 : ℝ) * -2) = -1 := by rw [py_keep 0 (-1) (by norm_num) (by norm_num)]; norm_num
    have e14 : roundBits 53 ((1 / 4 : ℝ) + -1) = -3 / 4 := by
      rw [py_keep 2 (-3) (by norm_num) (by norm_num)]; norm_num
    have s1 : ([67108859, 67108860] : List ℝ).sum = 134217719 := by norm_num
    have s2 : (([67108859, 67108860] : List ℝ).map (· ^ 2)).sum = 9007198046781481 := by norm_num
    have s3 : ((([67108859, 67108860] : List ℝ).length : ℕ) : ℝ) = 2 := by norm_num
    rw [s1, s2, s3]
    simp only [normalUpdate, fmap, Fl.add_val, Fl.sub_val, Fl.mul_val, Fl.div_val, Fl.lit_val, Fl.powq_val, py_rnd, py_pow,
      hh, e1, e2, e3, e4, e5, e6, e7, e8, e9, e10, e11, e12, e13, e14]

/-- C91 is false of `normal_known_mean`: two observations within 1/4 of the known mean; the statistics are exact
integers; the ideal posterior has `beta = 5 / 16`, the computed one `beta = -1 / 4`. -/
theorem C91_normal_known_mean_false :
    let data : List ℝ := [60000001, 60000001]
    let mu : ℝ := 240000003 / 4
    let prior : InverseGamma ℝ := ⟨1, 1 / 4⟩
    (∃ post : InverseGamma ℝ, normal_known_mean data.sum (data.map (· ^ 2)).sum data.length mu (.inverseGamma prior) =
      .inverseGamma post ∧ post.beta = 5 / 16) ∧
    ∃ post : InverseGamma (Fl (binary 53)),
      normal_known_mean (⟨data.sum⟩ : Fl (binary 53)) ⟨(data.map (· ^ 2)).sum⟩ ⟨data.length⟩ ⟨mu⟩
        (.inverseGamma (fmap Fl.mk prior)) = .inverseGamma post ∧ post.beta.val = -1 / 4 := by
  dsimp only
  constructor
  · refine ⟨_, rfl, ?_⟩
    simp only [normalKnownMeanInverseGammaPrior, List.sum_cons, List.sum_nil, List.map_cons, List.map_nil,
      List.length_cons, List.length_nil, powq_two, lit_real]
    norm_num
  · refine ⟨_, rfl, ?_⟩
    have h2 : roundBits 53 ((2 : ℚ) : ℝ) = 2 := by rw [Rat.cast_ofNat]; exact py_keep 0 2 (by norm_num) (by norm_num)
    have hh : roundBits 53 ((1 / 2 : ℚ) : ℝ) = 1 / 2 := by
      rw [show (((1 / 2 : ℚ) : ℚ) : ℝ) = 1 / 2 by norm_num]; exact py_keep 1 1 (by norm_num) (by norm_num)
    have e1 : roundBits 53 (2 * (240000003 / 4 : ℝ)) = 240000003 / 2 := by
      rw [py_keep 1 240000003 (by norm_num) (by norm_num)]; norm_num
    have e2 : roundBits 53 ((240000003 / 2 : ℝ) * 120000002) = 14400000420000004 := by
      rw [roundBits_eq 1 7200000210000002 (by norm_num) (by norm_num [abs_lt]) (Or.inr ⟨by norm_num, by decide⟩)]
      norm_num
    have e3 : roundBits 53 ((7200000240000002 : ℝ) - 14400000420000004) = -7200000180000002 := by
      rw [py_keep 0 (-7200000180000002) (by norm_num) (by norm_num)]; norm_num
    have e4 : roundBits 53 ((240000003 / 4 : ℝ) ^ ((2 : ℚ) : ℝ)) = 7200000180000001 / 2 := by
      rw [Rat.cast_ofNat, Real.rpow_two,
        roundBits_eq (-1) 7200000180000001 (by norm_num) (by norm_num [abs_lt]) (Or.inl (by norm_num [abs_lt]))]
      norm_num
    have e5 : roundBits 53 (2 * (7200000180000001 / 2 : ℝ)) = 7200000180000001 := by
      rw [py_keep 0 7200000180000001 (by norm_num) (by norm_num)]; norm_num
    have e6 : roundBits 53 ((-7200000180000002 : ℝ) + 7200000180000001) = -1 := by
      rw [py_keep 0 (-1) (by norm_num) (by norm_num)]; norm_num
    have e7 : roundBits 53 ((1 / 2 : ℝ) * -1) = -1 / 2 := by
      rw [py_keep 1 (-1) (by norm_num) (by norm_num)]; norm_num
    have e8 : roundBits 53 ((1 / 4 : ℝ) + -1 / 2) = -1 / 4 := by
      rw [py_keep 2 (-1) (by norm_num) (by norm_num)]; norm_num
    have s1 : ([60000001, 60000001] : List ℝ).sum = 120000002 := by norm_num
    have s2 : (([60000001, 60000001] : List ℝ).map (· ^ 2)).sum = 7200000240000002 := by norm_num
    have s3 : ((([60000001, 60000001] : List ℝ).length : ℕ) : ℝ) = 2 := by norm_num
    rw [s1, s2, s3]
    simp only [normalKnownMeanInverseGammaPrior, fmap, Fl.add_val, Fl.sub_val, Fl.mul_val, Fl.lit_val, Fl.powq_val,
      py_rnd, py_pow, h2, hh, e1, e2, e3, e4, e5, e6, e7, e8]

/-- C91 is false of `geometric_beta` counting from one: ten observations, all equal to one, and a prior with a small
`beta`; the computed posterior has `beta = 0`. -/
theorem C91_geometric_beta_false :
    (geometric_beta (10 : ℝ) 10 ⟨1, 1 / 2 ^ 60⟩ true).beta = 1 / 2 ^ 60 ∧
    (geometric_beta (⟨10⟩ : Fl (binary 53)) ⟨10⟩ (fmap Fl.mk (⟨1, 1 / 2 ^ 60⟩ : Beta ℝ)) true).beta.val = 0 := by
  constructor
  · simp [geometric_beta]
  · have e1 : roundBits 53 ((1 / 2 ^ 60 : ℝ) + 10) = 10 := by
      rw [roundBits_eq (-49) 5629499534213120 (by norm_num) (by norm_num [abs_lt]) (Or.inl (by norm_num [abs_lt]))]
      norm_num
    have e2 : roundBits 53 ((10 : ℝ) - 10) = 0 := by simp [roundBits]
    simp only [geometric_beta, fmap, if_true, Fl.add_val, Fl.sub_val, py_rnd, e1, e2]

/-- C91 is false of `pareto_gamma`: one observation at the known minimum 2, with NumPy's logarithm rounded to the
nearest float, and a prior with a small `beta`; the computed posterior has `beta = 0`. -/
theorem C91_pareto_gamma_false :
    let ln : Fl (binary 53) → Fl (binary 53) := fun x => ⟨roundBits 53 (Real.log x.val)⟩
    (pareto_gamma (1 : ℝ) (Real.log 2) 2 ⟨1, 1 / 2 ^ 60⟩ Real.log).beta = 1 / 2 ^ 60 ∧
    (pareto_gamma (⟨1⟩ : Fl (binary 53)) (ln ⟨2⟩) ⟨2⟩ (fmap Fl.mk (⟨1, 1 / 2 ^ 60⟩ : Gamma ℝ)) ln).beta.val = 0 := by
  dsimp only
  constructor
  · simp [pareto_gamma]
  · have hl := Real.log_two_gt_d9
    have hu := Real.log_two_lt_d9
    have hlog : 0 < Real.log 2 := by linarith
    have hr : |Real.log 2 / 2 ^ (-53 : ℤ) - roundHalfEven (Real.log 2 / 2 ^ (-53 : ℤ))| ≤ 1 / 2 := by
      rw [abs_sub_comm]; exact roundHalfEven_err _
    obtain ⟨m, hm⟩ : ∃ m, roundHalfEven (Real.log 2 / 2 ^ (-53 : ℤ)) = m := ⟨_, rfl⟩
    have hround : roundBits 53 (Real.log 2) = m * 2 ^ (-53 : ℤ) := by
      have : Int.log 2 |Real.log 2| = -1 := by
        rw [abs_of_pos hlog]
        apply le_antisymm
        · have := (Int.lt_zpow_iff_log_lt (b := 2) (by norm_num) hlog (x := 0)).1 (by norm_num; linarith)
          omega
        · exact (Int.zpow_le_iff_le_log (b := 2) (by norm_num) hlog (x := -1)).1 (by norm_num; linarith)
      simp only [roundBits, hlog.ne', if_false, this]
      norm_num at hm ⊢
      rw [hm]
    rw [hm, abs_le] at hr
    norm_num at hr
    have hm1 : (6243000000000000 : ℝ) < m := by linarith [hr.2]
    have hm2 : (m : ℝ) < 6244000000000000 := by linarith [hr.1]
    have hm1' : 6243000000000000 < m := by exact_mod_cast hm1
    have hm2' : m < 6244000000000000 := by exact_mod_cast hm2
    have e1 : roundBits 53 (1 / 2 ^ 60 + (m : ℝ) * 2 ^ (-53 : ℤ)) = m * 2 ^ (-53 : ℤ) := by
      have hp : (0 : ℝ) < 1 / 2 ^ 60 + (m : ℝ) * 2 ^ (-53 : ℤ) := by norm_num; linarith
      apply roundBits_eq
      · rw [abs_of_pos hp]; norm_num; linarith
      · rw [abs_of_pos hp]; norm_num; linarith
      · left; rw [abs_lt]; norm_num; constructor <;> linarith
    have e2 : roundBits 53 (1 * ((m : ℝ) * 2 ^ (-53 : ℤ))) = m * 2 ^ (-53 : ℤ) := by
      rw [one_mul]
      exact roundBits_keeps (by norm_num) m (-53) (by rw [abs_le]; constructor <;> norm_num <;> omega)
    have e3 : roundBits 53 ((m : ℝ) * 2 ^ (-53 : ℤ) - m * 2 ^ (-53 : ℤ)) = 0 := by simp [roundBits]
    simp only [pareto_gamma, fmap, Fl.add_val, Fl.sub_val, Fl.mul_val, py_rnd, hround, e1, e2, e3]

end Conj
