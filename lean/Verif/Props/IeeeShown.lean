import Verif.Lemmas.IeeeSize

/-!
# Overflow and missing values (C110)

Any doubles as inputs: infinities, `nan`, any exponents.
-/

namespace Conj

open Spec

/-- a double that exists: `num x` has a nonzero `x` with 53 bits, in range -/
def Spec.Valid : F64 → Prop
  | .num x => x ≠ 0 ∧ IsDouble x
  | _ => True

/-- if `v` is finite, then so are `a` and `b`, and `v` is their sum rounded to 53 bits -/
def Spec.RoundedSum (v a b : F64) : Prop :=
  ∀ y, v.value = some y → ∃ s t, a.value = some s ∧ b.value = some t ∧ y = roundBits 53 (s + t)

/-- if `v` is finite, then so is `a` -/
def Spec.Shows (v a : F64) : Prop := v.value.isSome → a.value.isSome

/-- the number of a double, with an unbounded exponent (nothing is claimed of it if the double is not finite) -/
def Spec.number (v : F64) : Fl (binary 53) := ⟨v.value.getD 0⟩

/-- every parameter computed with doubles that is finite is the number computed with 53 bits and unbounded exponents -/
def Spec.SameIfFinite {D : Type → Type} [Params D] (doubles : D F64) (floats : D (Fl (binary 53))) : Prop :=
  Params.Rel (fun (v : F64) y => ∀ z, v.value = some z → y.val = z) doubles floats

theorem round_value {x y : ℝ} (hx : x ≠ 0) (hk : ∃ k : ℤ, x = k * 2 ^ (-1074 : ℤ)) (h : (F64.round x).value = some y) :
    y = roundBits 53 x := by
  by_cases hb : |x| ≤ 2 ^ 1023
  · have := (round_eq hx hb (.inr hk)).value
    rw [h] at this
    exact Option.some.inj this
  · push Not at hb
    have hx' : 0 < |x| := abs_pos.2 hx
    have hl : 1023 ≤ Int.log 2 |x| := by
      refine (Int.zpow_le_iff_le_log (b := 2) (by norm_num) hx').1 ?_
      exact_mod_cast hb.le
    have e : F64.lastBit x = Int.log 2 |x| - 52 := by rw [F64.lastBit, max_eq_left (by omega)]
    have e' : Int.log 2 |x| - (((53 : ℕ) : ℤ) - 1) = F64.lastBit x := by rw [e]; norm_num
    have hr : roundBits 53 x = roundHalfEven (x / 2 ^ F64.lastBit x) * 2 ^ F64.lastBit x := by
      rw [roundBits, if_neg hx]; dsimp only; rw [e']
    rw [F64.round] at h
    split_ifs at h with h1 h2
    · have : y = 0 := (Option.some.inj h).symm
      rw [this, hr, h1]; simp
    · cases h
    · rw [hr]; exact (Option.some.inj h).symm

theorem roundedSum_add (a b : F64) (ha : Valid a) (hb : Valid b) : RoundedSum (a + b) a b := by
  intro y h
  change (F64.add a b).value = some y at h
  cases a <;> cases b <;> simp only [F64.add, F64.value, reduceCtorEq, Option.some.injEq] at h ⊢
  case inf.inf s t => split_ifs at h
  case zero.zero => exact ⟨0, 0, rfl, rfl, by rw [add_zero, roundBits_zero, h]⟩
  case zero.num s x => exact ⟨0, x, rfl, rfl, by rw [zero_add, grid_keep hb.2.2, h]⟩
  case num.zero x s => exact ⟨x, 0, rfl, rfl, by rw [add_zero, grid_keep ha.2.2, h]⟩
  case num.num x z =>
    refine ⟨x, z, rfl, rfl, ?_⟩
    by_cases h0 : x + z = 0
    · rw [if_pos h0] at h
      rw [h0, roundBits_zero]; exact (Option.some.inj h).symm
    · rw [if_neg h0] at h
      obtain ⟨k, hk⟩ := grid_multiple ha.2.2
      obtain ⟨l, hl⟩ := grid_multiple hb.2.2
      exact round_value h0 ⟨k + l, by push_cast; rw [add_mul, ← hk, ← hl]⟩ h

theorem round_valid {x : ℝ} (hx : x ≠ 0) : Valid (F64.round x) := by
  have hx' : 0 < |x| := abs_pos.2 hx
  have hlog2 : |x| < (2 : ℝ) ^ (Int.log 2 |x| + 1) := by
    exact_mod_cast Int.lt_zpow_succ_log_self (b := 2) (by norm_num) |x|
  have h2 : (0 : ℝ) < 2 ^ F64.lastBit x := by positivity
  have hb : |x / 2 ^ F64.lastBit x| < 2 ^ 53 := by
    rw [abs_div, abs_of_pos h2, div_lt_iff₀ h2]
    refine hlog2.trans_le ?_
    rw [← zpow_natCast, ← zpow_add₀ (by norm_num)]
    refine zpow_le_zpow_right₀ (by norm_num) ?_
    have : Int.log 2 |x| - 52 ≤ F64.lastBit x := le_max_left _ _
    push_cast; omega
  have herr := roundHalfEven_err (x / 2 ^ F64.lastBit x)
  have h3 : |(roundHalfEven (x / 2 ^ F64.lastBit x) : ℝ)| < 2 ^ 53 + 1 := by
    have := abs_sub_abs_le_abs_sub (roundHalfEven (x / 2 ^ F64.lastBit x) : ℝ) (x / 2 ^ F64.lastBit x)
    linarith
  have hm : |roundHalfEven (x / 2 ^ F64.lastBit x)| < 2 ^ 53 + 1 := by exact_mod_cast h3
  rw [F64.round]
  split_ifs with h h'
  · trivial
  · trivial
  · exact ⟨mul_ne_zero (by exact_mod_cast h) h2.ne', not_le.1 h', _, _, by omega, le_max_right _ _, rfl⟩

theorem valid_neg {a : F64} (h : Valid a) : Valid a.neg := by
  cases a <;> simp only [F64.neg, Valid] at h ⊢
  exact ⟨neg_ne_zero.2 h.1, by rw [abs_neg]; exact h.2.1, grid_neg h.2.2⟩

theorem valid_add {a b : F64} (ha : Valid a) (hb : Valid b) : Valid (a + b) := by
  change Valid (F64.add a b)
  cases a <;> cases b <;> simp only [F64.add]
  case inf.inf => split_ifs <;> trivial
  case num.num =>
    split_ifs with h
    · trivial
    · exact round_valid h
  all_goals first | trivial | exact ha | exact hb

theorem valid_lit (q : ℚ) : Valid (lit q : F64) := by
  change Valid (if q = 0 then .zero false else F64.round q)
  split_ifs with h
  · trivial
  · exact round_valid (by exact_mod_cast h)

/-- what sums keep -/
structure IfFin (v : F64) (y : Fl (binary 53)) : Prop where
  valid : Valid v
  same : ∀ z, v.value = some z → y.val = z

theorem ifFin_number {v : F64} (h : Valid v) : IfFin v (number v) := ⟨h, fun z hz => by rw [number, hz]; rfl⟩

theorem IfFin.neg {v : F64} {y : Fl (binary 53)} (h : IfFin v y) : ∀ z, v.neg.value = some z → -y.val = z := by
  intro z hz
  have : v.value = some (-z) := by
    cases v <;> simp only [F64.neg, F64.value, Option.some.injEq, reduceCtorEq] at hz ⊢
    · rw [← hz, neg_zero]
    · rw [← hz, neg_neg]
  rw [h.same _ this, neg_neg]

theorem IfFin.add {a b : F64} {x y : Fl (binary 53)} (ha : IfFin a x) (hb : IfFin b y) : IfFin (a + b) (x + y) := by
  refine ⟨valid_add ha.1 hb.1, fun z hz => ?_⟩
  obtain ⟨s, t, hs, ht, rfl⟩ := roundedSum_add _ _ ha.1 hb.1 z hz
  change roundBits 53 (x.val + y.val) = _
  rw [ha.same _ hs, hb.same _ ht]

theorem IfFin.sub {a b : F64} {x y : Fl (binary 53)} (ha : IfFin a x) (hb : IfFin b y) : IfFin (a - b) (x - y) := by
  refine ⟨valid_add ha.1 (valid_neg hb.1), fun z hz => ?_⟩
  obtain ⟨s, t, hs, ht, rfl⟩ := roundedSum_add _ _ ha.1 (valid_neg hb.1) z hz
  change roundBits 53 (x.val - y.val) = _
  rw [ha.same _ hs, sub_eq_add_neg, hb.neg _ ht]

theorem IfFin.one : IfFin (lit 1) (lit 1) := by
  refine ⟨valid_lit 1, fun z hz => ?_⟩
  have h : Rep (lit 1) (roundBits 53 ((1 : ℚ) : ℝ)) := rep_lit (by norm_num)
    (by rw [Rat.cast_one, abs_one]; exact one_le_pow₀ (by norm_num))
    (by rw [Rat.cast_one, abs_one]; exact zpow_le_one_of_nonpos₀ (by norm_num) (by norm_num))
  rw [h.value] at hz
  exact Option.some.inj hz

/-! ## Sums: a finite parameter is the right one -/

theorem C110_poisson_gamma (x_total n : F64) (prior : Gamma F64) (hx : Valid x_total) (hn : Valid n)
    (hp : Params.All Valid prior) :
    RoundedSum (poisson_gamma x_total n prior).alpha prior.alpha x_total ∧
      RoundedSum (poisson_gamma x_total n prior).beta prior.beta n :=
  ⟨roundedSum_add _ _ hp.1 hx, roundedSum_add _ _ hp.2 hn⟩

theorem C110_exponential_gamma (x_total n : F64) (prior : Gamma F64) (hx : Valid x_total) (hn : Valid n)
    (hp : Params.All Valid prior) :
    RoundedSum (exponential_gamma x_total n prior).alpha prior.alpha x_total ∧
      RoundedSum (exponential_gamma x_total n prior).beta prior.beta n :=
  ⟨roundedSum_add _ _ hp.1 hx, roundedSum_add _ _ hp.2 hn⟩

theorem C110_weibull_inverse_gamma_known_shape (n x_beta_total : F64) (prior : InverseGamma F64) (hn : Valid n)
    (hx : Valid x_beta_total) (hp : Params.All Valid prior) :
    RoundedSum (weibull_inverse_gamma_known_shape n x_beta_total prior).alpha prior.alpha n ∧
      RoundedSum (weibull_inverse_gamma_known_shape n x_beta_total prior).beta prior.beta x_beta_total :=
  ⟨roundedSum_add _ _ hp.1 hn, roundedSum_add _ _ hp.2 hx⟩

theorem C110_von_mises_known_direction (centered_cos_total n : F64) (prior : VonMisesKnownDirectionProportional F64)
    (hx : Valid centered_cos_total) (hn : Valid n) (hp : Params.All Valid prior) :
    RoundedSum (von_mises_known_direction centered_cos_total n prior).c prior.c n ∧
      RoundedSum (von_mises_known_direction centered_cos_total n prior).r prior.r centered_cos_total :=
  ⟨roundedSum_add _ _ hp.1 hn, roundedSum_add _ _ hp.2 hx⟩

theorem C110_multinomial_dirichlet {I : Type} (x : I → F64) (prior : Dirichlet (I → F64)) (hx : ∀ i, Valid (x i))
    (hp : ∀ i, Valid (prior.alpha i)) : ∃ d, multinomial_dirichlet x prior = .ok d ∧
      ∀ i, RoundedSum (d.alpha i) (prior.alpha i) (x i) :=
  ⟨_, rfl, fun i => roundedSum_add _ _ (hp i) (hx i)⟩

theorem C110_categorical_dirichlet {I : Type} (x : I → F64) (prior : Dirichlet (I → F64)) (hx : ∀ i, Valid (x i))
    (hp : ∀ i, Valid (prior.alpha i)) : ∃ d, categorical_dirichlet x prior = .ok d ∧
      ∀ i, RoundedSum (d.alpha i) (prior.alpha i) (x i) :=
  ⟨_, rfl, fun i => roundedSum_add _ _ (hp i) (hx i)⟩

/-- with `np.maximum`, the default -/
theorem C110_uniform_pareto (x_max n : F64) (prior : Pareto F64) (hn : Valid n) (hp : Params.All Valid prior) :
    RoundedSum (uniform_pareto x_max n prior F64.maximum).alpha prior.alpha n ∧
      (uniform_pareto .nan n prior F64.maximum).x_m = .nan ∧
      ∀ x_m y, prior.x_m.value = some x_m → x_max.value = some y →
        (uniform_pareto x_max n prior F64.maximum).x_m.value = some (max x_m y) := by
  refine ⟨roundedSum_add _ _ hp.2 hn, ?_, ?_⟩
  · simp only [uniform_pareto]
    cases prior.x_m <;> rfl
  · intro x_m y h1 h2
    simp only [uniform_pareto]
    have e : F64.maximum prior.x_m x_max = open Classical in if x_m < y then x_max else prior.x_m := by
      generalize prior.x_m = a at h1
      cases a <;> cases x_max <;> simp_all [F64.maximum, F64.value]
    rw [e]
    split_ifs with h
    · rw [h2, max_eq_right h.le]
    · rw [h1, max_eq_left (not_lt.1 h)]

/-! ## Sums, differences and products: what is not finite shows -/

theorem finite_add {a b : F64} (h : (a + b).value.isSome) : a.value.isSome ∧ b.value.isSome := by
  change (F64.add a b).value.isSome at h
  cases a <;> cases b <;> simp_all [F64.add, F64.value]
  split_ifs at h <;> simp at h

theorem finite_neg {a : F64} (h : a.neg.value.isSome) : a.value.isSome := by
  cases a <;> simp_all [F64.neg, F64.value]

theorem finite_sub {a b : F64} (h : (a - b).value.isSome) : a.value.isSome ∧ b.value.isSome :=
  (finite_add (b := b.neg) h).imp_right finite_neg

theorem finite_mul {a b : F64} (h : (a * b).value.isSome) : a.value.isSome ∧ b.value.isSome := by
  change (F64.mul a b).value.isSome at h
  cases a <;> cases b <;> simp_all [F64.mul, F64.value]

theorem C110_binomial_beta (n x : F64) (prior : Beta F64) (hn : Valid n) (hx : Valid x)
    (hp : Params.All Valid prior) :
    (∀ v ∈ [prior.alpha, x], Shows (binomial_beta n x prior).alpha v) ∧
      (∀ v ∈ [prior.beta, n, x], Shows (binomial_beta n x prior).beta v) ∧
      SameIfFinite (binomial_beta n x prior) (binomial_beta (number n) (number x) (fmap number prior)) := by
  rw [← and_assoc]
  refine ⟨?_, show _ ∧ _ from ⟨((ifFin_number hp.1).add (ifFin_number hx)).same,
    ((ifFin_number hp.2).add ((ifFin_number hn).sub (ifFin_number hx))).same⟩⟩
  simp only [List.forall_mem_cons, List.not_mem_nil, IsEmpty.forall_iff, implies_true, and_true]
  refine ⟨⟨?_, ?_⟩, ?_, ?_, ?_⟩ <;> intro h
  exacts [(finite_add h).1, (finite_add h).2, (finite_add h).1, (finite_sub (finite_add h).2).1,
    (finite_sub (finite_add h).2).2]

theorem C110_bernoulli_beta (x : F64) (prior : Beta F64) (hx : Valid x) (hp : Params.All Valid prior) :
    (∀ v ∈ [prior.alpha, x], Shows (bernoulli_beta x prior).alpha v) ∧
      (∀ v ∈ [prior.beta, x], Shows (bernoulli_beta x prior).beta v) ∧
      SameIfFinite (bernoulli_beta x prior) (bernoulli_beta (number x) (fmap number prior)) := by
  rw [← and_assoc]
  refine ⟨?_, show _ ∧ _ from ⟨((ifFin_number hp.1).add (ifFin_number hx)).same,
    ((ifFin_number hp.2).add (IfFin.one.sub (ifFin_number hx))).same⟩⟩
  simp only [List.forall_mem_cons, List.not_mem_nil, IsEmpty.forall_iff, implies_true, and_true]
  refine ⟨⟨?_, ?_⟩, ?_, ?_⟩ <;> intro h
  exacts [(finite_add h).1, (finite_add h).2, (finite_add h).1, (finite_sub (finite_add h).2).2]

theorem C110_negative_binomial_beta (r n x : F64) (prior : Beta F64) :
    (∀ v ∈ [prior.alpha, r, n], Shows (negative_binomial_beta r n x prior).alpha v) ∧
      ∀ v ∈ [prior.beta, x], Shows (negative_binomial_beta r n x prior).beta v := by
  simp only [List.forall_mem_cons, List.not_mem_nil, IsEmpty.forall_iff, implies_true, and_true]
  refine ⟨⟨?_, ?_, ?_⟩, ?_, ?_⟩ <;> intro h
  exacts [(finite_add h).1, (finite_mul (finite_add h).2).1, (finite_mul (finite_add h).2).2, (finite_add h).1,
    (finite_add h).2]

theorem C110_hypergeometric_beta_binomial (x_total n : F64) (prior : BetaBinomial F64) (hx : Valid x_total)
    (hp : Params.All Valid prior) :
    (∀ v ∈ [prior.alpha, x_total], Shows (hypergeometric_beta_binomial x_total n prior).alpha v) ∧
      (∀ v ∈ [prior.beta, prior.n, x_total], Shows (hypergeometric_beta_binomial x_total n prior).beta v) ∧
      SameIfFinite (hypergeometric_beta_binomial x_total n prior)
        (hypergeometric_beta_binomial (number x_total) (number n) (fmap number prior)) := by
  rw [← and_assoc]
  refine ⟨?_, show _ ∧ _ ∧ _ from ⟨(ifFin_number hp.1).same, ((ifFin_number hp.2.1).add (ifFin_number hx)).same,
    ((ifFin_number hp.2.2).add ((ifFin_number hp.1).sub (ifFin_number hx))).same⟩⟩
  simp only [List.forall_mem_cons, List.not_mem_nil, IsEmpty.forall_iff, implies_true, and_true]
  refine ⟨⟨?_, ?_⟩, ?_, ?_, ?_⟩ <;> intro h
  exacts [(finite_add h).1, (finite_add h).2, (finite_add h).1, (finite_sub (finite_add h).2).1,
    (finite_sub (finite_add h).2).2]

theorem C110_geometric_beta (x_total n : F64) (prior : Beta F64) (one_start : Bool) (hx : Valid x_total)
    (hn : Valid n) (hp : Params.All Valid prior) :
    (∀ v ∈ [prior.alpha, n], Shows (geometric_beta x_total n prior one_start).alpha v) ∧
      (∀ v ∈ [prior.beta, x_total], Shows (geometric_beta x_total n prior one_start).beta v) ∧
      SameIfFinite (geometric_beta x_total n prior one_start)
        (geometric_beta (number x_total) (number n) (fmap number prior) one_start) := by
  rw [← and_assoc]
  refine ⟨?_, show _ ∧ _ from ⟨((ifFin_number hp.1).add (ifFin_number hn)).same, by
    cases one_start
    · exact ((ifFin_number hp.2).add (ifFin_number hx)).same
    · exact (((ifFin_number hp.2).add (ifFin_number hx)).sub (ifFin_number hn)).same⟩⟩
  simp only [List.forall_mem_cons, List.not_mem_nil, IsEmpty.forall_iff, implies_true, and_true]
  refine ⟨⟨fun h => (finite_add h).1, fun h => (finite_add h).2⟩, ?_⟩
  cases one_start
  · exact ⟨fun h => (finite_add h).1, fun h => (finite_add h).2⟩
  · exact ⟨fun h => (finite_add (finite_sub h).1).1, fun h => (finite_add (finite_sub h).1).2⟩

theorem C110_gamma_known_shape (x_total n alpha : F64) (prior : Gamma F64) :
    (∀ v ∈ [prior.alpha, n, alpha], Shows (gamma_known_shape x_total n alpha prior).alpha v) ∧
      ∀ v ∈ [prior.beta, x_total], Shows (gamma_known_shape x_total n alpha prior).beta v := by
  simp only [List.forall_mem_cons, List.not_mem_nil, IsEmpty.forall_iff, implies_true, and_true]
  refine ⟨⟨?_, ?_, ?_⟩, ?_, ?_⟩ <;> intro h
  exacts [(finite_add h).1, (finite_mul (finite_add h).2).1, (finite_mul (finite_add h).2).2, (finite_add h).1,
    (finite_add h).2]

theorem C110_inverse_gamma_known_rate (reciprocal_x_total n alpha : F64) (prior : Gamma F64) :
    (∀ v ∈ [prior.alpha, n, alpha], Shows (inverse_gamma_known_rate reciprocal_x_total n alpha prior).alpha v) ∧
      ∀ v ∈ [prior.beta, reciprocal_x_total], Shows (inverse_gamma_known_rate reciprocal_x_total n alpha prior).beta v := by
  simp only [List.forall_mem_cons, List.not_mem_nil, IsEmpty.forall_iff, implies_true, and_true]
  refine ⟨⟨?_, ?_, ?_⟩, ?_, ?_⟩ <;> intro h
  exacts [(finite_add h).1, (finite_mul (finite_add h).2).1, (finite_mul (finite_add h).2).2, (finite_add h).1,
    (finite_add h).2]

theorem C110_pareto_gamma (n ln_x_total x_m : F64) (prior : Gamma F64) (ln : F64 → F64) :
    (∀ v ∈ [prior.alpha, n], Shows (pareto_gamma n ln_x_total x_m prior ln).alpha v) ∧
      ∀ v ∈ [prior.beta, ln_x_total, n, ln x_m], Shows (pareto_gamma n ln_x_total x_m prior ln).beta v := by
  simp only [List.forall_mem_cons, List.not_mem_nil, IsEmpty.forall_iff, implies_true, and_true]
  refine ⟨⟨?_, ?_⟩, ?_, ?_, ?_, ?_⟩ <;> intro h
  exacts [(finite_add h).1, (finite_add h).2, (finite_add (finite_sub h).1).1, (finite_add (finite_sub h).1).2,
    (finite_mul (finite_sub h).2).1, (finite_mul (finite_sub h).2).2]

theorem C110_gamma (x_total x_prod n : F64) (prior : GammaProportional F64) :
    (∀ v ∈ [prior.p, x_prod], Shows (gamma x_total x_prod n prior).p v) ∧
      (∀ v ∈ [prior.q, x_total], Shows (gamma x_total x_prod n prior).q v) ∧
      (∀ v ∈ [prior.r, n], Shows (gamma x_total x_prod n prior).r v) ∧
      ∀ v ∈ [prior.s, n], Shows (gamma x_total x_prod n prior).s v := by
  simp only [List.forall_mem_cons, List.not_mem_nil, IsEmpty.forall_iff, implies_true, and_true]
  exact ⟨⟨fun h => (finite_mul h).1, fun h => (finite_mul h).2⟩, ⟨fun h => (finite_add h).1, fun h => (finite_add h).2⟩,
    ⟨fun h => (finite_add h).1, fun h => (finite_add h).2⟩, fun h => (finite_add h).1, fun h => (finite_add h).2⟩

theorem C110_gamma_known_rate (x_prod n rate : F64) (prior : GammaKnownRateProportional F64) :
    (∀ v ∈ [prior.a, x_prod], Shows (gamma_known_rate x_prod n rate prior).a v) ∧
      (∀ v ∈ [prior.b, n], Shows (gamma_known_rate x_prod n rate prior).b v) ∧
      ∀ v ∈ [prior.c, n], Shows (gamma_known_rate x_prod n rate prior).c v := by
  simp only [List.forall_mem_cons, List.not_mem_nil, IsEmpty.forall_iff, implies_true, and_true]
  exact ⟨⟨fun h => (finite_mul h).1, fun h => (finite_mul h).2⟩, ⟨fun h => (finite_add h).1, fun h => (finite_add h).2⟩,
    fun h => (finite_add h).1, fun h => (finite_add h).2⟩

theorem C110_beta (x_prod one_minus_x_prod n : F64) (prior : BetaProportional F64) :
    (∀ v ∈ [prior.p, x_prod], Shows (beta x_prod one_minus_x_prod n prior).p v) ∧
      (∀ v ∈ [prior.q, one_minus_x_prod], Shows (beta x_prod one_minus_x_prod n prior).q v) ∧
      ∀ v ∈ [prior.k, n], Shows (beta x_prod one_minus_x_prod n prior).k v := by
  simp only [List.forall_mem_cons, List.not_mem_nil, IsEmpty.forall_iff, implies_true, and_true]
  exact ⟨⟨fun h => (finite_mul h).1, fun h => (finite_mul h).2⟩, ⟨fun h => (finite_mul h).1, fun h => (finite_mul h).2⟩,
    fun h => (finite_add h).1, fun h => (finite_add h).2⟩

/-! ## The normal models: `nan` shows, an overflow may not -/

@[simp] theorem nan_add (b : F64) : F64.nan + b = .nan := by change F64.add _ _ = _; cases b <;> rfl
@[simp] theorem add_nan (a : F64) : a + F64.nan = .nan := by change F64.add _ _ = _; cases a <;> rfl
@[simp] theorem nan_sub (b : F64) : F64.nan - b = .nan := nan_add _
@[simp] theorem sub_nan (a : F64) : a - F64.nan = .nan := add_nan _
@[simp] theorem nan_mul (b : F64) : F64.nan * b = .nan := by change F64.mul _ _ = _; cases b <;> rfl
@[simp] theorem mul_nan (a : F64) : a * F64.nan = .nan := by change F64.mul _ _ = _; cases a <;> rfl
@[simp] theorem nan_div (b : F64) : F64.nan / b = .nan := by change F64.div _ _ = _; cases b <;> rfl
@[simp] theorem div_nan (a : F64) : a / F64.nan = .nan := by change F64.div _ _ = _; cases a <;> rfl
@[simp] theorem nan_sq : powq F64.nan 2 = .nan := by change F64.pow _ _ = _; simp [F64.pow]
@[simp] theorem nan_sqrt : powq F64.nan (1 / 2) = .nan := by change F64.pow _ _ = _; simp [F64.pow]
@[simp] theorem nan_sqrt' : powq F64.nan 2⁻¹ = .nan := by change F64.pow _ _ = _; simp [F64.pow]

/-- C110, only for `nan` inputs: an infinity or an overflow need not show (`C110_normal_known_variance_false`) -/
theorem C110_normal_known_variance_partial (x_total n var : F64) (prior : Normal F64) :
    ((normal_known_variance .nan n var prior).mu = .nan) ∧
      ((normal_known_variance x_total .nan var prior).mu = .nan ∧
        (normal_known_variance x_total .nan var prior).sigma = .nan) ∧
      (normal_known_variance x_total n .nan prior).mu = .nan ∧
        (normal_known_variance x_total n .nan prior).sigma = .nan := by
  simp [normal_known_variance]

theorem finite_div {a b : F64} (h : (a / b).value.isSome) : a.value.isSome := by
  change (F64.div a b).value.isSome at h
  cases a <;> cases b <;> simp_all [F64.div, F64.value]

theorem finite_sq {a : F64} (h : (powq a 2).value.isSome) : a.value.isSome := by
  change (F64.pow a 2).value.isSome at h
  cases a <;> simp_all [F64.pow, F64.value]

theorem C110_normal_known_mean (x_total x2_total n mu : F64) (prior : InverseGamma F64) :
    ∃ d, normal_known_mean x_total x2_total n mu (.inverseGamma prior) = .inverseGamma d ∧
      (∀ v ∈ [prior.alpha, n], Shows d.alpha v) ∧
      ∀ v ∈ [prior.beta, x2_total, mu, x_total, n], Shows d.beta v := by
  refine ⟨_, rfl, ?_⟩
  simp only [List.forall_mem_cons, List.not_mem_nil, IsEmpty.forall_iff, implies_true, and_true]
  refine ⟨⟨fun h => (finite_add h).1, fun h => finite_div (finite_add h).2⟩, fun h => (finite_add h).1, ?_⟩
  have key : ∀ {P : Prop}, (((x2_total - (lit 2 * mu * x_total)) + (n * powq mu 2)).value.isSome → P) →
      ((normalKnownMeanInverseGammaPrior x_total x2_total n mu prior).beta.value.isSome → P) :=
    fun h h' => h (finite_mul (finite_add h').2).2
  refine ⟨key fun h => (finite_sub (finite_add h).1).1, key fun h => finite_sq (finite_mul (finite_add h).2).2,
    key fun h => (finite_mul (finite_sub (finite_add h).1).2).2, key fun h => (finite_mul (finite_add h).2).1⟩

/-- C110, only for inputs that are not finite, and overflows of the other parameters in `beta`; missing: an overflow of
`lam + n` in `mu` -/
theorem C110_normal_partial {M : Type} (x_total x2_total n : F64) (prior : NormalGamma F64) :
    ∃ d, normal (M := M) x_total x2_total n (.ng prior) = .ok (.ng d) ∧
      (∀ v ∈ [prior.lam, prior.mu, x_total, n], Shows d.mu v) ∧
      (∀ v ∈ [prior.lam, n], Shows d.lam v) ∧
      (∀ v ∈ [prior.alpha, n], Shows d.alpha v) ∧
      ∀ v ∈ [prior.beta, prior.mu, prior.lam, x2_total, x_total, n, d.mu, d.lam], Shows d.beta v := by
  refine ⟨_, rfl, ?_⟩
  simp only [List.forall_mem_cons, List.not_mem_nil, IsEmpty.forall_iff, implies_true, and_true]
  have hmu : ∀ {P : Prop}, ((prior.lam * prior.mu).value.isSome ∧ (n * (x_total / n)).value.isSome → P) →
      ((normalUpdate x_total x2_total n prior.mu prior.lam prior.alpha prior.beta).1.value.isSome → P) :=
    fun h h' => h (finite_add (finite_div h'))
  refine ⟨⟨hmu fun h => (finite_mul h.1).1, hmu fun h => (finite_mul h.1).2, hmu fun h => finite_div (finite_mul h.2).2,
      hmu fun h => (finite_mul h.2).1⟩, ⟨fun h => (finite_add h).1, fun h => (finite_add h).2⟩,
    ⟨fun h => (finite_add h).1, fun h => finite_div (finite_add h).2⟩, fun h => (finite_add h).1, ?_⟩
  have key : ∀ {P : Prop}, ((powq prior.mu 2 * prior.lam + x2_total).value.isSome ∧
      (normalUpdate x_total x2_total n prior.mu prior.lam prior.alpha prior.beta).1.value.isSome ∧
      (prior.lam + n).value.isSome → P) →
      ((normalUpdate x_total x2_total n prior.mu prior.lam prior.alpha prior.beta).2.2.2.value.isSome → P) := by
    intro P h h'
    have := finite_sub (finite_mul (finite_add h').2).2
    exact h ⟨this.1, finite_sq (finite_mul this.2).1, (finite_mul this.2).2⟩
  exact ⟨key fun h => finite_sq (finite_mul (finite_add h.1).1).1, key fun h => (finite_add h.2.2).1,
    key fun h => (finite_add h.1).2, key fun h => hmu (fun h => finite_div (finite_mul h.2).2) h.2.1,
    key fun h => (finite_add h.2.2).2, key fun h => h.2.1, key fun h => h.2.2⟩

/-! ## What does not show -/

theorem round_pow (k : ℕ) (hk : k ≤ 1023) : F64.round (2 ^ k) = .num (2 ^ k) := by
  have h : Rep (F64.round (2 ^ k)) (roundBits 53 (2 ^ k)) := by
    refine round_eq (by positivity) ?_ (.inl ?_)
    · rw [abs_of_pos (by positivity)]; exact pow_le_pow_right₀ (by norm_num) hk
    · rw [abs_of_pos (by positivity)]
      exact (zpow_le_zpow_right₀ (by norm_num) (by norm_num : (-1022 : ℤ) ≤ 0)).trans (by
        rw [zpow_zero]; exact one_le_pow₀ (by norm_num))
  have e : roundBits 53 (2 ^ k) = (2 : ℝ) ^ k := by
    have := roundBits_keeps (p := 53) (by norm_num) 1 k (by norm_num)
    simpa using this
  rw [e] at h
  rcases h with ⟨_, _, h0⟩ | ⟨h, _, _⟩
  · exact absurd h0 (by positivity)
  · exact h

/-- `2 ^ 1024` is an infinity -/
theorem round_overflow : F64.round (2 ^ 1024) = .inf false := by
  have hx : (0 : ℝ) < 2 ^ 1024 := by positivity
  have hl : Int.log 2 |(2 : ℝ) ^ 1024| = 1024 := by
    rw [abs_of_pos hx]
    exact_mod_cast Int.log_zpow (R := ℝ) (b := 2) (by norm_num) 1024
  have e : F64.lastBit (2 ^ 1024) = 972 := by rw [F64.lastBit, hl]; norm_num
  have hq : (2 : ℝ) ^ 1024 / 2 ^ (972 : ℤ) = ((2 ^ 52 : ℤ) : ℝ) := by
    have : (2 : ℝ) ^ 1024 = 2 ^ 52 * 2 ^ 972 := by rw [← pow_add]
    rw [div_eq_iff (by positivity), this, zpow_ofNat, Int.cast_pow, Int.cast_ofNat]
  rw [F64.round]
  rw [e, hq, roundHalfEven_int, if_neg (by norm_num), if_pos, decide_eq_false (not_lt.2 hx.le)]
  rw [← hq, div_mul_cancel₀ _ (by positivity)]
  exact le_abs_self _

/-- C110 (disagreement). One observation `0` with variance `1` and the prior `Normal(2 ** 1023, 2 ** 512)`: the exact
posterior mean is almost one half. The square of the prior's `sigma` overflows, the prior is lost, and the answer `0`
is finite. -/
theorem C110_normal_known_variance_false :
    (normal_known_variance (F64.ofReal 0) (F64.ofReal 1) (F64.ofReal 1)
        ⟨F64.ofReal (2 ^ 1023), F64.ofReal (2 ^ 512)⟩).mu.value = some 0 ∧
      1 / 4 < (normal_known_variance (0 : ℝ) 1 1 ⟨2 ^ 1023, 2 ^ 512⟩).mu := by
  constructor
  · have z : F64.ofReal 0 = .zero false := by simp [F64.ofReal]
    have o : F64.ofReal 1 = .num 1 := by simp [F64.ofReal]
    have l : (lit 1 : F64) = .num 1 := by
      change (if (1 : ℚ) = 0 then F64.zero false else F64.round (1 : ℚ)) = _
      rw [if_neg (by norm_num)]
      have := round_pow 0 (by norm_num)
      simpa using this
    have m : F64.ofReal (2 ^ 1023) = .num (2 ^ 1023) := by rw [F64.ofReal, if_neg (by positivity)]
    have s : F64.ofReal (2 ^ 512) = .num (2 ^ 512) := by rw [F64.ofReal, if_neg (by positivity)]
    have s2 : powq (F64.num (2 ^ 512)) 2 = .inf false := by
      change F64.pow _ _ = _
      rw [F64.pow, if_neg (by norm_num)]
      simp only
      rw [if_neg (by simp)]
      have : ((2 : ℝ) ^ 512) ^ ((2 : ℚ) : ℝ) = 2 ^ 1024 := by
        push_cast
        rw [Real.rpow_ofNat, ← pow_mul]
      rw [this, round_overflow]
    have r1 : F64.round (1 / 1) = .num 1 := by
      have := round_pow 0 (by norm_num)
      simpa using this
    simp only [normal_known_variance, z, o, m, s, l, s2]
    change (F64.div (F64.add (F64.div _ _) (F64.div _ _)) (F64.add (F64.div _ _) (F64.div _ _))).value = _
    simp only [F64.div, F64.add, r1, F64.value]
  · have h : (2 : ℝ) ^ 1024 = 2 * 2 ^ 1023 := by rw [pow_succ' (2 : ℝ) 1023]
    have h2 : ((2 : ℝ) ^ 512) ^ 2 = 2 * 2 ^ 1023 := by rw [← h, ← pow_mul]
    simp only [normal_known_variance, lit_real, powq_two, h2, Rat.cast_one]
    have h3 : (1 : ℝ) ≤ 2 ^ 1023 := one_le_pow₀ (by norm_num)
    generalize (2 : ℝ) ^ 1023 = b at h3 ⊢
    have hb : 0 < b := by linarith
    rw [div_add_div _ _ (by positivity) one_ne_zero, div_add_div _ _ (by positivity) one_ne_zero, div_div_div_cancel_right₀
      (by positivity), lt_div_iff₀ (by positivity)]
    nlinarith

/-- C110 (disagreement). No data at all (`x_total = x2_total = n = 0`) is not an error and not the prior: the mean of
the posterior is `nan`, whatever the prior. -/
theorem C110_normal_no_data_nan {M : Type} (prior : NormalGamma F64) :
    ∃ d, normal (M := M) (F64.ofReal 0) (F64.ofReal 0) (F64.ofReal 0) (.ng prior) = .ok (.ng d) ∧ d.mu = .nan ∧
      d.beta = .nan := by
  have z : F64.ofReal 0 = .zero false := by simp [F64.ofReal]
  have d : (F64.zero false / F64.zero false) = .nan := rfl
  refine ⟨_, rfl, ?_, ?_⟩ <;> simp [normalUpdate, z, d]

/-- finite inputs, finite result: a `Gamma(4, 1)` prior and one observation `4` -/
example : (poisson_gamma (F64.ofReal 4) (F64.ofReal 1) ⟨F64.ofReal 4, F64.ofReal 1⟩).alpha.value = some 8 := by
  have h4 : F64.ofReal 4 = .num 4 := by simp [F64.ofReal]
  have := round_pow 3 (by norm_num)
  norm_num at this
  simp only [poisson_gamma, getPoissonGammaPosteriorParams, h4]
  change (F64.add _ _).value = _
  rw [F64.add, if_neg (by norm_num)]
  norm_num [this, F64.value]

end Conj
