import Verif.Lemmas.Sql
import Verif.Models

/-!
# C106: model functions on SQL terms

`docs/examples/sql.md`, `docs/examples/generalized-inputs.md`: called with PyPika terms, a model function gives terms whose
text a database computes to the parameters the function computes from the numbers. True where division is division, as
long as no negative number follows a minus sign; PyPika writes `a--1` for `a - (-1)`, which is a comment.
-/

namespace Conj

open Spec.Sql

variable {row : String → ℝ}

/-- C106. The operators the library uses, on any two values: the text of the result means the result. -/
theorem C106_operators {a b : SqlVal} {x y : ℝ} (ha : Means row a.text x) (hb : Means row b.text y) :
    Means row (a + b).text (x + y) ∧ Means row (a * b).text (x * y) ∧ Means row (a / b).text (x / y) ∧
    (b.text.head? ≠ some .minus → Means row (a - b).text (x - y)) ∧ ∀ q : ℚ, Means row (powq a q).text (x ^ (q : ℝ)) :=
  ⟨Means.add ha hb, Means.mul ha hb, Means.div ha hb, fun h => Means.sub ha ⟨hb, h⟩, Means.pow ha⟩

section Models

variable {n' x' x2' a' b' m' s' r' v' : ℝ}

theorem C106_binomial_beta {n x : SqlVal} {prior : Beta SqlVal} (hn : Operand row n.text n') (hx : Operand row x.text x')
    (ha : Operand row prior.alpha.text a') (hb : Operand row prior.beta.text b') :
    Means row (binomial_beta n x prior).alpha.text (binomial_beta n' x' ⟨a', b'⟩).alpha ∧
    Means row (binomial_beta n x prior).beta.text (binomial_beta n' x' ⟨a', b'⟩).beta := by
  constructor <;> simp only [binomial_beta, getBinomialBetaPosteriorParams] <;> sql

theorem C106_negative_binomial_beta {r n x : SqlVal} {prior : Beta SqlVal} (hr : Operand row r.text r')
    (hn : Operand row n.text n') (hx : Operand row x.text x') (ha : Operand row prior.alpha.text a')
    (hb : Operand row prior.beta.text b') :
    Means row (negative_binomial_beta r n x prior).alpha.text (negative_binomial_beta r' n' x' ⟨a', b'⟩).alpha ∧
    Means row (negative_binomial_beta r n x prior).beta.text (negative_binomial_beta r' n' x' ⟨a', b'⟩).beta := by
  constructor <;> simp only [negative_binomial_beta] <;> sql

theorem C106_geometric_beta {x n : SqlVal} {prior : Beta SqlVal} (one_start : Bool)
    (hn : Operand row n.text n') (hx : Operand row x.text x') (ha : Operand row prior.alpha.text a')
    (hb : Operand row prior.beta.text b') :
    Means row (geometric_beta x n prior one_start).alpha.text (geometric_beta x' n' ⟨a', b'⟩ one_start).alpha ∧
    Means row (geometric_beta x n prior one_start).beta.text (geometric_beta x' n' ⟨a', b'⟩ one_start).beta := by
  cases one_start <;> constructor <;> simp only [geometric_beta, Bool.false_eq_true, if_true, if_false] <;> sql

theorem C106_hypergeometric_beta_binomial {x n : SqlVal} {prior : BetaBinomial SqlVal} (hn : Operand row prior.n.text n')
    (hx : Operand row x.text x') (ha : Operand row prior.alpha.text a') (hb : Operand row prior.beta.text b') :
    Means row (hypergeometric_beta_binomial x n prior).alpha.text (hypergeometric_beta_binomial x' m' ⟨n', a', b'⟩).alpha ∧
    Means row (hypergeometric_beta_binomial x n prior).beta.text (hypergeometric_beta_binomial x' m' ⟨n', a', b'⟩).beta := by
  constructor <;> simp only [hypergeometric_beta_binomial] <;> sql

theorem C106_poisson_gamma {x n : SqlVal} {prior : Gamma SqlVal} (hn : Operand row n.text n') (hx : Operand row x.text x')
    (ha : Operand row prior.alpha.text a') (hb : Operand row prior.beta.text b') :
    Means row (poisson_gamma x n prior).alpha.text (poisson_gamma x' n' ⟨a', b'⟩).alpha ∧
    Means row (poisson_gamma x n prior).beta.text (poisson_gamma x' n' ⟨a', b'⟩).beta := by
  constructor <;> simp only [poisson_gamma, getPoissonGammaPosteriorParams] <;> sql

theorem C106_gamma_known_shape {x n shape : SqlVal} {prior : Gamma SqlVal} (hn : Operand row n.text n')
    (hx : Operand row x.text x') (hs : Operand row shape.text s') (ha : Operand row prior.alpha.text a')
    (hb : Operand row prior.beta.text b') :
    Means row (gamma_known_shape x n shape prior).alpha.text (gamma_known_shape x' n' s' ⟨a', b'⟩).alpha ∧
    Means row (gamma_known_shape x n shape prior).beta.text (gamma_known_shape x' n' s' ⟨a', b'⟩).beta := by
  constructor <;> simp only [gamma_known_shape] <;> sql

theorem C106_inverse_gamma_known_rate {x n shape : SqlVal} {prior : Gamma SqlVal} (hn : Operand row n.text n')
    (hx : Operand row x.text x') (hs : Operand row shape.text s') (ha : Operand row prior.alpha.text a')
    (hb : Operand row prior.beta.text b') :
    Means row (inverse_gamma_known_rate x n shape prior).alpha.text (inverse_gamma_known_rate x' n' s' ⟨a', b'⟩).alpha ∧
    Means row (inverse_gamma_known_rate x n shape prior).beta.text (inverse_gamma_known_rate x' n' s' ⟨a', b'⟩).beta := by
  constructor <;> simp only [inverse_gamma_known_rate] <;> sql

theorem C106_weibull_inverse_gamma {x n : SqlVal} {prior : InverseGamma SqlVal} (hn : Operand row n.text n')
    (hx : Operand row x.text x') (ha : Operand row prior.alpha.text a') (hb : Operand row prior.beta.text b') :
    Means row (weibull_inverse_gamma_known_shape n x prior).alpha.text
      (weibull_inverse_gamma_known_shape n' x' ⟨a', b'⟩).alpha ∧
    Means row (weibull_inverse_gamma_known_shape n x prior).beta.text
      (weibull_inverse_gamma_known_shape n' x' ⟨a', b'⟩).beta := by
  constructor <;> simp only [weibull_inverse_gamma_known_shape] <;> sql

/-- C106. The prior mean may be a negative number. -/
theorem C106_normal_known_variance {x n var : SqlVal} {prior : Normal SqlVal} (hn : Means row n.text n')
    (hx : Means row x.text x') (hv : Means row var.text v') (hm : Means row prior.mu.text m')
    (hs : Means row prior.sigma.text s') :
    Means row (normal_known_variance x n var prior).mu.text (normal_known_variance x' n' v' ⟨m', s'⟩).mu ∧
    Means row (normal_known_variance x n var prior).sigma.text (normal_known_variance x' n' v' ⟨m', s'⟩).sigma ∧
    Means row (normal_known_variance_predictive var prior).sigma.text (normal_known_variance_predictive v' ⟨m', s'⟩).sigma := by
  refine ⟨?_, ?_, ?_⟩ <;> simp only [normal_known_variance, normal_known_variance_predictive] <;> sql

theorem C106_normal_known_precision {x n precision : SqlVal} {prior : Normal SqlVal} (hn : Means row n.text n')
    (hx : Means row x.text x') (hv : Means row precision.text v') (hm : Means row prior.mu.text m')
    (hs : Means row prior.sigma.text s') :
    Means row (normal_known_precision x n precision prior).mu.text (normal_known_precision x' n' v' ⟨m', s'⟩).mu ∧
    Means row (normal_known_precision x n precision prior).sigma.text (normal_known_precision x' n' v' ⟨m', s'⟩).sigma := by
  refine ⟨?_, ?_⟩ <;> simp only [normal_known_precision, normal_known_variance] <;> sql

/-- C106. A known mean that is not written with a minus sign. What is missing: negative known means, see
`C106_normal_known_mean_negative`. -/
theorem C106_normal_known_mean_partial {x x2 n mu : SqlVal} {prior : InverseGamma SqlVal} (hn : Operand row n.text n')
    (hx : Operand row x.text x') (hx2 : Operand row x2.text x2') (hm : Operand row mu.text m')
    (ha : Operand row prior.alpha.text a') (hb : Operand row prior.beta.text b') :
    ∃ post : InverseGamma SqlVal, normal_known_mean x x2 n mu (.inverseGamma prior) = .inverseGamma post ∧
      ∃ post' : InverseGamma ℝ, normal_known_mean x' x2' n' m' (.inverseGamma ⟨a', b'⟩) = .inverseGamma post' ∧
      Means row post.alpha.text post'.alpha ∧ Means row post.beta.text post'.beta := by
  refine ⟨_, rfl, _, rfl, ?_, ?_⟩ <;> simp only [normalKnownMeanInverseGammaPrior] <;> sql

/-- C106. Unknown mean and variance, and the predictive of `docs/examples/sql.md`. The prior mean may be negative. -/
theorem C106_normal {x x2 n mu nu alpha beta : SqlVal} (hn : Operand row n.text n') (hx : Operand row x.text x')
    (hx2 : Operand row x2.text x2') (hm : Means row mu.text m') (hnu : Operand row nu.text v')
    (ha : Operand row alpha.text a') (hb : Operand row beta.text b') :
    ∃ (post : NormalPrior SqlVal Unit) (pred : StudentT SqlVal) (post' : NormalPrior ℝ Unit) (pred' : StudentT ℝ),
      normal x x2 n (.nig ⟨mu, alpha, beta, none, some nu⟩) = .ok post ∧ normal_predictive post = .ok pred ∧
      normal x' x2' n' (.nig ⟨m', a', b', none, some v'⟩) = .ok post' ∧ normal_predictive post' = .ok pred' ∧
      Means row pred.mu.text pred'.mu ∧ Means row pred.sigma.text pred'.sigma ∧ Means row pred.nu.text pred'.nu := by
  refine ⟨_, _, _, _, rfl, rfl, rfl, rfl, ?_, ?_, ?_⟩ <;> simp only [normalUpdate] <;> sql

end Models

/-! ## The documented query -/

/-- `fn.Count("*")`, `fn.Sum(sales)`, `fn.Sum(sales**2)` (`docs/examples/sql.md:25-28`) -/
def count : SqlVal := .term (.field "COUNT(*)")
@[inherit_doc count] def sumSales : SqlVal := .term (.field "SUM(sales)")
@[inherit_doc count] def sumSquares : SqlVal := .term (.field "SUM(POW(sales, 2))")

/-- `docs/examples/sql.md:48-62`: `normal` with `NormalInverseGamma(mu=0, nu=1 / 10, alpha=1 / 10, beta=1)`, then
`normal_predictive` -/
noncomputable def documentedPredictive : Except PyErr (StudentT SqlVal) := do
  let prior : NormalInverseGamma SqlVal SqlVal Unit ← NormalInverseGamma.new (.num 0 false) (.num (1 / 10) true) (.num 1 false)
    (nu := some (.num (1 / 10) true))
  let posterior ← normal sumSales sumSquares count (.nig prior)
  normal_predictive posterior

/-- `(0.0+COUNT(*)*SUM("sales")/COUNT(*))/(0.1+COUNT(*))` (`docs/examples/sql.md:81`) -/
noncomputable def documentedMu : List Tok :=
  [.lparen, .num 0 true, .plus, .col "COUNT(*)", .times, .col "SUM(sales)", .slash, .col "COUNT(*)", .rparen, .slash,
    .lparen, .num 0.1 true, .plus, .col "COUNT(*)", .rparen]

/-- `POW((1+0.5*(0.0+SUM(POW("sales", 2))-POW((0.0+COUNT(*)*SUM("sales")/COUNT(*))/(0.1+COUNT(*)), 2)*(0.1+COUNT(*))))*`
`(0.1+COUNT(*)+1)/((0.1+COUNT(*))*(0.1+COUNT(*)/2)), 0.5)` (`docs/examples/sql.md:82`) -/
noncomputable def documentedSigma : List Tok :=
  [.pow, .lparen, .num 1 false, .plus, .num 0.5 true, .times, .lparen, .num 0 true, .plus, .col "SUM(POW(sales, 2))", .minus,
    .pow] ++ documentedMu ++ [.comma, .num 2 false, .rparen, .times, .lparen, .num 0.1 true, .plus, .col "COUNT(*)", .rparen,
    .rparen, .rparen, .times, .lparen, .num 0.1 true, .plus, .col "COUNT(*)", .plus, .num 1 false, .rparen, .slash, .lparen,
    .lparen, .num 0.1 true, .plus, .col "COUNT(*)", .rparen, .times, .lparen, .num 0.1 true, .plus, .col "COUNT(*)", .slash,
    .num 2 false, .rparen, .rparen, .comma, .num 0.5 true, .rparen]

/-- `2*(0.1+COUNT(*)/2)` (`docs/examples/sql.md:83`) -/
noncomputable def documentedNu : List Tok :=
  [.num 2 false, .times, .lparen, .num 0.1 true, .plus, .col "COUNT(*)", .slash, .num 2 false, .rparen]

/-- C106. The three columns have the documented text. -/
theorem C106_documented_text : ∃ pred, documentedPredictive = .ok pred ∧ pred.mu.text = documentedMu ∧
    pred.sigma.text = documentedSigma ∧ pred.nu.text = documentedNu := by
  have hd : (1 / 2 : ℚ).den = 2 := by rw [one_div, Rat.inv_ofNat_den]
  refine ⟨_, rfl, ?_, ?_, ?_⟩
  all_goals
    simp only [normalUpdate, hd, count, sumSales, sumSquares, SqlVal.add_nt, SqlVal.add_tn,
      SqlVal.sub_tt, SqlVal.mul_nn, SqlVal.mul_nt, SqlVal.mul_tt, SqlVal.div_tn,
      SqlVal.div_tt, SqlVal.pow_n, SqlVal.pow_t, SqlVal.lit_n, SqlVal.text, SqlVal.wrap, Term.text, Term.operator,
      leftNeedsParens, rightNeedsParens, ArithOp.isAddOrder, ArithOp.text, parens, reduceCtorEq]
    norm_num [numText, documentedMu, documentedSigma, documentedNu]

/-- the aggregates of a group of sales -/
noncomputable def aggregates (xs : List ℝ) : String → ℝ := fun s =>
  if s = "COUNT(*)" then xs.length else if s = "SUM(sales)" then xs.sum
  else if s = "SUM(POW(sales, 2))" then (xs.map (· ^ 2)).sum else 0

/-- C106. On every group the documented query computes the predictive the library computes from the group's sales. -/
theorem C106_documented_query (xs : List ℝ) : ∃ (post : NormalPrior ℝ Unit) (pred : StudentT ℝ),
    normal xs.sum (xs.map (· ^ 2)).sum (xs.length : ℝ) (.nig ⟨0, 1 / 10, 1, none, some (1 / 10)⟩) = .ok post ∧
    normal_predictive post = .ok pred ∧ value real (aggregates xs) documentedMu = some pred.mu ∧
    value real (aggregates xs) documentedSigma = some pred.sigma ∧
    value real (aggregates xs) documentedNu = some pred.nu := by
  have hop : ∀ s, Operand (aggregates xs) (SqlVal.term (.field s)).text (aggregates xs s) :=
    fun s => ⟨means_iff.2 ⟨rfl, rfl⟩, by simp [SqlVal.text, SqlVal.wrap, Term.text]⟩
  obtain ⟨post, pred, post', pred', h1, h2, h3, h4, h5, h6, h7⟩ := C106_normal (row := aggregates xs)
    (n := count) (x := sumSales) (x2 := sumSquares) (mu := .num 0 false) (nu := .num (1 / 10) true)
    (alpha := .num (1 / 10) true) (beta := .num 1 false) (hop _) (hop _) (hop _) (means_num _)
    (operand_num _ (by norm_num)) (operand_num _ (by norm_num)) (operand_num _ (by norm_num))
  obtain ⟨p, hp, t1, t2, t3⟩ := C106_documented_text
  have e : documentedPredictive = .ok pred := by
    have : documentedPredictive = (normal sumSales sumSquares count (.nig ⟨.num 0 false, .num (1 / 10) true, .num 1 false,
      none, some (.num (1 / 10) true)⟩) >>= normal_predictive : Except PyErr (StudentT SqlVal)) := rfl
    rw [this, h1]
    exact h2
  obtain rfl : p = pred := Except.ok.inj (hp.symm.trans e)
  rw [t1] at h5; rw [t2] at h6; rw [t3] at h7
  exact ⟨post', pred', h3, h4, h5.2, h6.2, h7.2⟩

/-! ## Disagreements -/

/-- C106 (disagreement). A negative known mean, data in columns: PyPika writes `x2--…*x`, the rest is a comment and the
column a syntax error. -/
theorem C106_normal_known_mean_negative {V : Type} (A : Arith V) (row : String → V) (x x2 n : String) (mu : ℝ) (hmu : mu < 0)
    (fm : Bool) (a b : ℝ) (hb : 0 < b) (fa fb : Bool) :
    ∃ post, normal_known_mean (SqlVal.term (.field x)) (.term (.field x2)) (.term (.field n)) (.num mu fm)
      (.inverseGamma ⟨.num a fa, .num b fb⟩) = .inverseGamma post ∧ value A row post.beta.text = none := by
  refine ⟨_, rfl, ?_⟩
  have h2 : ¬ b < 0 := not_lt.2 hb.le
  have h3 : (2 : ℝ) * mu < 0 := by linarith
  have h4 : ¬ ((1 : ℝ) / 2 < 0) := by norm_num
  simp only [normalKnownMeanInverseGammaPrior, SqlVal.add_nt, SqlVal.add_tt, SqlVal.sub_tt, SqlVal.mul_nn, SqlVal.mul_nt,
    SqlVal.mul_tn, SqlVal.pow_n, SqlVal.lit_n, SqlVal.text, SqlVal.wrap, Term.text, Term.operator,
    leftNeedsParens, rightNeedsParens, ArithOp.isAddOrder, ArithOp.text, parens, reduceCtorEq, numText]
  norm_num [h2, h3, h4, hmu, value, uncommented, scan]

/-- C106 (disagreement). In a database that divides integers to integers the documented degrees of freedom are right
exactly for groups of an even number of sales. -/
theorem C106_integer_division (row : String → Num) (n : ℕ) (hn : row "COUNT(*)" = .int n) :
    (value integerDivision row documentedNu).map Num.val = some (2 * (0.1 + (n : ℝ) / 2)) ↔ Even n := by
  have h1 : ⌊(2 : ℝ)⌋ = 2 := by norm_num
  simp only [value, documentedNu, uncommented, scan, hn, finish, Ctx.operand, integerDivision, Num.op, h1,
    Bool.false_eq_true, if_false, if_true, Option.map_some, Num.val, Option.some.injEq]
  have e : ((n : ℤ).tdiv 2) = ((n / 2 : ℕ) : ℤ) := by rfl
  rw [e]
  constructor
  · intro h
    have h2 : ((n / 2 : ℕ) : ℝ) = (n : ℝ) / 2 := by
      rw [Int.cast_ofNat, Int.cast_natCast] at h
      linarith
    rw [eq_div_iff (by norm_num)] at h2
    have h3 : n / 2 * 2 = n := by exact_mod_cast h2
    exact ⟨n / 2, by omega⟩
  · rintro ⟨k, rfl⟩
    have : (k + k) / 2 = k := by omega
    rw [this]
    push_cast
    ring

/-- C106. The documented location is right there too, for every group: the product comes before the quotient. -/
theorem C106_integer_division_mu (row : String → Num) (n : ℕ) (h0 : 0 < n) (s : ℤ) (hn : row "COUNT(*)" = .int n)
    (hs : row "SUM(sales)" = .int s) :
    (value integerDivision row documentedMu).map Num.val = some ((s : ℝ) / (0.1 + n)) := by
  have e : ((n : ℤ) * s).tdiv n = s := Int.mul_tdiv_cancel_left s (by exact_mod_cast h0.ne')
  simp only [value, documentedMu, uncommented, scan, hn, hs, finish, Ctx.operand, integerDivision, Num.op,
    Bool.false_eq_true, if_false, if_true, Option.map_some, Num.val, Option.some.injEq, e]
  push_cast
  ring

/-- C106. A quotient of Python numbers is written with a decimal point, so its value is right there too, whatever the
numbers: with a Python integer for `n` the term `n / 2` is exact. -/
theorem C106_integer_division_numbers (row : String → Num) (x y : ℝ) (a b : Bool) :
    value integerDivision row (SqlVal.num x a / SqlVal.num y b : SqlVal).text = some (.dec (x / y)) := by
  rw [SqlVal.div_nn]
  by_cases h : x / y < 0 <;>
    simp [SqlVal.text, SqlVal.wrap, Term.text, numText, h, value, uncommented, scan, finish, Ctx.operand, integerDivision]

/-- C106. With Python integers for prior and `n` and a column for the data the shape `alpha + n / 2` of
`normal_known_mean` is right for odd `n` too. -/
theorem C106_integer_division_shape (row : String → Num) (x x2 : SqlVal) (mu : SqlVal) (alpha n : ℕ) (beta : SqlVal) :
    value integerDivision row (normalKnownMeanInverseGammaPrior x x2 (.num n false) mu ⟨.num alpha false, beta⟩).alpha.text =
      some (.dec (alpha + n / 2)) := by
  have h : ¬ ((alpha : ℝ) + n / 2 < 0) := not_lt.2 (by positivity)
  have e : (normalKnownMeanInverseGammaPrior x x2 (.num n false) mu ⟨.num alpha false, beta⟩).alpha =
      .num ((alpha : ℝ) + n / 2) true := by
    simp [normalKnownMeanInverseGammaPrior, SqlVal.lit_n, SqlVal.div_nn, SqlVal.add_nn]
  rw [e]
  simp [SqlVal.text, SqlVal.wrap, Term.text, numText, h, value, uncommented, scan, finish, Ctx.operand, integerDivision]

/-! ## Examples -/

/-- the printed texts of `docs/examples/generalized-inputs.md:60-61`: `1+"successes"` and `1+"total"-"successes"` -/
example : (binomial_beta (SqlVal.term (.field "total")) (.term (.field "successes")) ⟨.num 1 false, .num 1 false⟩).alpha.text =
      [.num 1 false, .plus, .col "successes"] ∧
    (binomial_beta (SqlVal.term (.field "total")) (.term (.field "successes")) ⟨.num 1 false, .num 1 false⟩).beta.text =
      [.num 1 false, .plus, .col "total", .minus, .col "successes"] := by
  constructor <;> simp [binomial_beta, getBinomialBetaPosteriorParams, SqlVal.add_nt, SqlVal.sub_tt, SqlVal.text,
    SqlVal.wrap, Term.text, Term.operator, leftNeedsParens, rightNeedsParens, ArithOp.text, parens, numText,
    not_lt.2 (zero_le_one' ℝ)]

end Conj
