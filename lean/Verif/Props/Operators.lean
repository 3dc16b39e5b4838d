import Verif.Lemmas.Operators
import Verif.Props.Arithmetic
import Verif.RvsSpec

/-!
# C119: arithmetic with distributions in either order, sums, and what is accepted by mistake
-/

open MeasureTheory

namespace Conj

open Spec NdArr

/-- a number times the parameters never raises -/
theorem numberTimes_ok {d : DistObj} (hd : Scalable d) (x : ℝ) : ∃ r, numberTimes x d = .ok r := by
  cases d with
  | other => exact hd.elim
  | poisson d => exact ⟨_, by rw [numberTimes, DistObj.rmulMethod, poisson_mulMethod, op_scalar_right]; rfl⟩
  | exponential d => exact ⟨_, by rw [numberTimes, DistObj.rmulMethod, exponential_mulMethod]⟩
  | gamma d => exact ⟨_, by rw [numberTimes, DistObj.rmulMethod, gamma_mulMethod, op_scalar_right]; rfl⟩
  | negativeBinomial d =>
    exact ⟨_, by rw [numberTimes, DistObj.rmulMethod, negativeBinomial_mulMethod, op_scalar_right]; rfl⟩
  | normal d => exact ⟨_, by rw [numberTimes, DistObj.rmulMethod, normal_mulMethod, op_scalar_right, op_scalar_right]; rfl⟩

/-- C119. A number may stand on either side. -/
theorem C119_either_order (x : ℝ) (d : DistObj) : pyMul (.num x) (.dist d) = pyMul (.dist d) (.num x) := by
  cases d <;> rfl

theorem array_times {d : DistObj} (hd : Scalable d) (a : NdArr ℝ) :
    pyMul (.arr a) (.dist d) = .ok (.objects a.rshape fun i => numberTimes (a.get i) d) := by
  have : (d.rmulMethod (.scalar 0)).isSome := by
    cases d with
    | other => exact hd.elim
    | _ => rfl
  exact if_pos (.inl this)

/-- C119. An array on the left gives an array of distributions, entry by entry multiples of `d`. -/
theorem C119_array_left {d : DistObj} (hd : Scalable d) (a : NdArr ℝ) :
    ∃ get, pyMul (.arr a) (.dist d) = .ok (.objects a.rshape get) ∧
      ∀ i, (get i).map Thing.dist = pyMul (.dist d) (.num (a.get i)) := by
  exact ⟨_, array_times hd a, fun i => C119_either_order (a.get i) d⟩

/-- C119. On the right the array gives one vectorised distribution; its entries are the entries of the product with the
array on the left. -/
theorem C119_array_either_side {d : DistObj} (hd : Scalar d) (a : NdArr ℝ) :
    ∃ get D, pyMul (.arr a) (.dist d) = .ok (.objects a.rshape get) ∧ pyMul (.dist d) (.arr a) = .ok (.dist D) ∧
      ∀ i, InShape i a.rshape → (get i).map (entryOf []) = .ok (entryOf i D) := by
  cases d with
  | other => exact hd.elim
  | poisson d =>
    have hd : d.lam.rshape = [] := hd
    refine ⟨_, _, array_times (d := .poisson d) trivial a, by rw [pyMul, poisson_mulMethod, op_number_left _ hd]; rfl, fun i hi => ?_⟩
    rw [numberTimes, DistObj.rmulMethod, poisson_mulMethod, op_number_left _ hd]
    simp [Except.map, entryOf, entryOf.at', proj_inShape hi, scalar, proj]
  | exponential d =>
    have hd : d.lam.rshape = [] := hd
    refine ⟨_, _, array_times (d := .exponential d) trivial a, by rw [pyMul, exponential_mulMethod]; rfl, fun i hi => ?_⟩
    rw [numberTimes, DistObj.rmulMethod, exponential_mulMethod]
    simp [Except.map, entryOf, entryOf.at', proj_inShape hi, scalar, proj, hd]
  | gamma d =>
    have h1 : d.alpha.rshape = [] := hd.1
    have h2 : d.beta.rshape = [] := hd.2
    refine ⟨_, _, array_times (d := .gamma d) trivial a, by rw [pyMul, gamma_mulMethod, op_number_left _ h1]; rfl, fun i hi => ?_⟩
    rw [numberTimes, DistObj.rmulMethod, gamma_mulMethod, op_number_left _ h1]
    simp [Except.map, entryOf, entryOf.at', proj_inShape hi, scalar, proj, h2]
  | negativeBinomial d =>
    have h1 : d.n.rshape = [] := hd.1
    have h2 : d.p.rshape = [] := hd.2
    refine ⟨_, _, array_times (d := .negativeBinomial d) trivial a, by rw [pyMul, negativeBinomial_mulMethod, op_number_left _ h1]; rfl, fun i hi => ?_⟩
    rw [numberTimes, DistObj.rmulMethod, negativeBinomial_mulMethod, op_number_left _ h1]
    simp [Except.map, entryOf, entryOf.at', proj_inShape hi, scalar, proj, h2]
  | normal d =>
    have h1 : d.mu.rshape = [] := hd.1
    have h2 : (d.sigma.map (powq · 2)).rshape = [] := hd.2
    refine ⟨_, _, array_times (d := .normal d) trivial a, by rw [pyMul, normal_mulMethod, op_number_left _ h1, op_number_left _ h2]; rfl,
      fun i hi => ?_⟩
    rw [numberTimes, DistObj.rmulMethod, normal_mulMethod, op_number_left _ h1, op_number_left _ h2]
    simp [Except.map, Except.bind, entryOf, entryOf.at', proj_inShape hi, scalar, proj, NdArr.map]

example : Scalar (.gamma ⟨.scalar 2, .scalar 3⟩) ∧ InShape [1] ({ rshape := [2], get := fun i => (i.sum : ℝ) } : NdArr ℝ).rshape :=
  ⟨⟨rfl, rfl⟩, by simp [InShape]⟩

/-- C119. `k * d` and `d * k` are the distribution of the sum of `k` independent copies, for the four classes with more than
counts. -/
theorem C119_gamma_multiple (a b : ℝ) (ha : 0 < a) (hb : 0 < b) (k : ℕ) (hk : 1 ≤ k) :
    ∃ g : Gamma ℝ, pyMul (.num k) (.dist (.gamma ⟨.scalar a, .scalar b⟩)) = .ok (.dist (.gamma ⟨.scalar g.alpha, .scalar g.beta⟩)) ∧
      pyMul (.dist (.gamma ⟨.scalar a, .scalar b⟩)) (.num k) = .ok (.dist (.gamma ⟨.scalar g.alpha, .scalar g.beta⟩)) ∧
      contLaw g.dist = sumOfCopies (contLaw (Gamma.dist ⟨a, b⟩)) k :=
  ⟨⟨a * k, b⟩, rfl, rfl, C50_gamma_mul ⟨a, b⟩ ha hb k hk⟩

theorem C119_negative_binomial_multiple (n p : ℝ) (hn : 0 < n) (hp : 0 < p) (hp1 : p ≤ 1) (k : ℕ) (hk : 1 ≤ k) :
    ∃ g : NegativeBinomial ℝ,
      pyMul (.num k) (.dist (.negativeBinomial ⟨.scalar n, .scalar p⟩)) = .ok (.dist (.negativeBinomial ⟨.scalar g.n, .scalar g.p⟩)) ∧
      pyMul (.dist (.negativeBinomial ⟨.scalar n, .scalar p⟩)) (.num k) = .ok (.dist (.negativeBinomial ⟨.scalar g.n, .scalar g.p⟩)) ∧
      discLaw g.dist = sumOfCopies (discLaw (NegativeBinomial.dist ⟨n, p⟩)) k :=
  ⟨⟨n * k, p⟩, rfl, rfl, C50_negative_binomial_mul ⟨n, p⟩ hn hp hp1 k hk⟩

theorem C119_exponential_multiple (lam : ℝ) (hl : 0 < lam) (k : ℕ) (hk : 1 ≤ k) :
    ∃ g : Gamma ℝ, pyMul (.num k) (.dist (.exponential ⟨.scalar lam⟩)) = .ok (.dist (.gamma ⟨.scalar g.alpha, .scalar g.beta⟩)) ∧
      pyMul (.dist (.exponential ⟨.scalar lam⟩)) (.num k) = .ok (.dist (.gamma ⟨.scalar g.alpha, .scalar g.beta⟩)) ∧
      contLaw g.dist = sumOfCopies (contLaw (Exponential.dist ⟨lam⟩)) k :=
  ⟨⟨k, lit 1 / lam⟩, rfl, rfl, C50_exponential_mul ⟨lam⟩ hl k hk⟩

theorem C119_normal_multiple (m s : ℝ) (hs : 0 < s) (k : ℕ) (hk : 1 ≤ k) :
    ∃ g : Normal ℝ, pyMul (.num k) (.dist (.normal ⟨.scalar m, .scalar s⟩)) = .ok (.dist (.normal ⟨.scalar g.mu, .scalar g.sigma⟩)) ∧
      pyMul (.dist (.normal ⟨.scalar m, .scalar s⟩)) (.num k) = .ok (.dist (.normal ⟨.scalar g.mu, .scalar g.sigma⟩)) ∧
      contLaw g.dist = sumOfCopies (contLaw (Normal.dist ⟨m, s⟩)) k :=
  ⟨Normal.mul ⟨m, s⟩ (k : ℝ), rfl, rfl, C51_normal_mul ⟨m, s⟩ hs k hk⟩

/-! ## Expressions and sums of Poisson distributions -/

theorem poisson_plus (l m : ℝ) : pyAdd (.dist (.poisson ⟨.scalar l⟩)) (.dist (.poisson ⟨.scalar m⟩)) =
    .ok (.dist (.poisson ⟨.scalar (l + m)⟩)) := rfl

theorem poisson_times (l k : ℝ) : pyMul (.dist (.poisson ⟨.scalar l⟩)) (.num k) =
    .ok (.dist (.poisson ⟨.scalar (l * k)⟩)) := rfl

/-- C119. Every expression in Poisson distributions, with sums and multiples on either side, evaluates to the Poisson
distribution of the total count. -/
theorem C119_poisson_expressions (e : PoissonExpr) (he : e.Valid) :
    ∃ lam, 0 ≤ lam ∧ e.eval = .ok (.dist (.poisson ⟨.scalar lam⟩)) ∧ discLaw (Poisson.dist ⟨lam⟩) = e.law := by
  induction e with
  | leaf lam => exact ⟨lam, he, rfl, rfl⟩
  | add l r ihl ihr =>
    obtain ⟨a, ha, ea, la⟩ := ihl he.1
    obtain ⟨b, hb, eb, lb⟩ := ihr he.2
    refine ⟨a + b, add_nonneg ha hb, by simp only [PoissonExpr.eval, ea, eb]; rfl, ?_⟩
    rw [PoissonExpr.law, ← la, ← lb]
    exact C49_poisson_add ⟨a⟩ ⟨b⟩ ha hb
  | scaleLeft k e ih =>
    obtain ⟨a, ha, ea, la⟩ := ih he
    refine ⟨a * k, by positivity, by simp only [PoissonExpr.eval, ea]; rfl, ?_⟩
    rw [PoissonExpr.law, ← la]
    exact C49_poisson_mul ⟨a⟩ ha k
  | scaleRight e k ih =>
    obtain ⟨a, ha, ea, la⟩ := ih he
    refine ⟨a * k, by positivity, by simp only [PoissonExpr.eval, ea]; rfl, ?_⟩
    rw [PoissonExpr.law, ← la]
    exact C49_poisson_mul ⟨a⟩ ha k

/-- docs/examples/scaling-distributions.md: `daily_pois + daily_pois`, `7 * daily_pois` -/
example : (PoissonExpr.add (.leaf 0.25) (.scaleLeft 7 (.leaf 0.25))).Valid := by norm_num [PoissonExpr.Valid]

/-- C119 (disagreement). `sum` of any Poisson distributions raises: `0 + p` asks `0` for its `lam`. -/
theorem C119_sum_raises (p : Poisson (NdArr ℝ)) (rest : List Thing) :
    pySum (.dist (.poisson p) :: rest) = .error .attributeError := rfl

/-- C119. With a Poisson distribution to start from, `sum` is the Poisson distribution of the total count. -/
theorem C119_sum_with_start (lam : ℝ) (lams : List ℝ) :
    pySum (lams.map fun l => .dist (.poisson ⟨.scalar l⟩)) (.dist (.poisson ⟨.scalar lam⟩)) =
      .ok (.dist (.poisson ⟨.scalar (lam + lams.sum)⟩)) := by
  induction lams generalizing lam with
  | nil => simp [pySum, pure, Except.pure]
  | cons l lams ih =>
    have := ih (lam + l)
    rw [List.sum_cons, ← add_assoc, ← this]
    rfl

theorem C119_sum_with_start_law (lam : ℝ) (lams : List ℝ) (h0 : 0 ≤ lam) (h : ∀ l ∈ lams, 0 ≤ l) :
    discLaw (Poisson.dist ⟨lam + lams.sum⟩) =
      (lams.map fun l => discLaw (Poisson.dist ⟨l⟩)).foldl sumLaw (discLaw (Poisson.dist ⟨lam⟩)) := by
  induction lams generalizing lam with
  | nil => simp
  | cons l lams ih =>
    have hl := h l List.mem_cons_self
    rw [List.map_cons, List.foldl_cons, List.sum_cons, ← add_assoc,
      ih (lam + l) (add_nonneg h0 hl) fun x m => h x (List.mem_cons_of_mem _ m)]
    congr 1
    exact C49_poisson_add ⟨lam⟩ ⟨l⟩ h0 hl

/-- C119. Adding a number or an array with entries raises, on either side. -/
theorem C119_poisson_plus_number (p : Poisson (NdArr ℝ)) (x : ℝ) (a : NdArr ℝ) (ha : 0 ∉ a.rshape) :
    pyAdd (.dist (.poisson p)) (.num x) = .error .attributeError ∧ pyAdd (.num x) (.dist (.poisson p)) = .error .attributeError ∧
    pyAdd (.dist (.poisson p)) (.arr a) = .error .attributeError ∧ pyAdd (.arr a) (.dist (.poisson p)) = .error .attributeError :=
  ⟨rfl, rfl, rfl, if_neg ha⟩

/-- C119. Classes without operators raise `TypeError`, with numbers and arrays on either side. -/
theorem C119_no_operators (lam : Option (NdArr ℝ)) (x : ℝ) (a : NdArr ℝ) (ha : 0 ∉ a.rshape) :
    pyMul (.dist (.other lam)) (.num x) = .error .typeError ∧ pyMul (.num x) (.dist (.other lam)) = .error .typeError ∧
    pyMul (.dist (.other lam)) (.arr a) = .error .typeError ∧ pyMul (.arr a) (.dist (.other lam)) = .error .typeError ∧
    pyAdd (.dist (.other lam)) (.num x) = .error .typeError ∧ pyAdd (.num x) (.dist (.other lam)) = .error .typeError :=
  ⟨rfl, rfl, if_neg ha, if_neg (by simp [DistObj.rmulMethod, DistObj.mulMethod, ha]), rfl, rfl⟩

/-! ## What is accepted by mistake -/

/-- C119 (disagreement). A Poisson distribution plus an Exponential one is accepted, in either order. -/
theorem C119_mixed_sum (l m : ℝ) :
    pyAdd (.dist (.poisson ⟨.scalar l⟩)) (.dist (.exponential ⟨.scalar m⟩)) = .ok (.dist (.poisson ⟨.scalar (l + m)⟩)) ∧
    pyAdd (.dist (.exponential ⟨.scalar m⟩)) (.dist (.poisson ⟨.scalar l⟩)) = .ok (.dist (.poisson ⟨.scalar (l + m)⟩)) :=
  ⟨rfl, rfl⟩

/-- ... and the result is never the distribution of the sum. -/
theorem C119_mixed_sum_wrong (l m : ℝ) (hl : 0 ≤ l) (hm : 0 < m) :
    discRealLaw (Poisson.dist ⟨l + m⟩) ≠ sumLaw (discRealLaw (Poisson.dist ⟨l⟩)) (contLaw (Exponential.dist ⟨m⟩)) := by
  intro h
  have h1 := congrArg (fun μ : Measure ℝ => μ {(0 : ℝ)}) h
  beta_reduce at h1
  have e1 : discRealLaw (Poisson.dist ⟨l + m⟩) {(0 : ℝ)} = ENNReal.ofReal (Real.exp (-(l + m))) := by
    rw [discRealLaw, Measure.map_apply (measurable_from_top) (measurableSet_singleton _)]
    have : (fun k : ℤ => (k : ℝ)) ⁻¹' {0} = {0} := by
      ext k
      simp
    rw [this, discLaw, withDensity_apply _ (measurableSet_singleton _), Measure.restrict_singleton]
    have := Poisson.pmf_nat (l + m) 0
    simp only [Nat.cast_zero, pow_zero, Nat.factorial_zero, Nat.cast_one, div_one, mul_one] at this
    simp [this]
  have e2 : sumLaw (discRealLaw (Poisson.dist ⟨l⟩)) (contLaw (Exponential.dist ⟨m⟩)) {(0 : ℝ)} = 0 := by
    rw [sumLaw, Measure.map_apply (by fun_prop) (measurableSet_singleton _),
      Measure.measure_prod_null ((measurableSet_singleton (0 : ℝ)).preimage (by fun_prop))]
    refine Filter.Eventually.of_forall fun x => ?_
    have : Prod.mk x ⁻¹' ((fun z : ℝ × ℝ => z.1 + z.2) ⁻¹' {0}) = {-x} := by
      ext y
      simp [eq_neg_iff_add_eq_zero, add_comm]
    simp only [this, Pi.zero_apply]
    exact withDensity_absolutelyContinuous _ _ Real.volume_singleton
  rw [e1, e2, ENNReal.ofReal_eq_zero] at h1
  exact absurd h1 (not_le.2 (Real.exp_pos _))

/-- C119 (disagreement). The product of two distributions is accepted: a `Gamma` object whose `alpha` is a distribution. -/
theorem C119_product_accepted (a b c d : ℝ) :
    pyMul (.dist (.gamma ⟨.scalar a, .scalar b⟩)) (.dist (.gamma ⟨.scalar c, .scalar d⟩)) =
      .ok (.holds "Gamma" (.dist (.gamma ⟨.scalar (c * a), .scalar d⟩))) ∧
    pyMul (.dist (.poisson ⟨.scalar a⟩)) (.dist (.poisson ⟨.scalar c⟩)) =
      .ok (.holds "Poisson" (.dist (.poisson ⟨.scalar (c * a)⟩))) :=
  ⟨rfl, rfl⟩

/-- C119. The product of two Normal distributions is a `TypeError`. -/
theorem C119_normal_product (p q : Normal (NdArr ℝ)) (hp : 0 ∉ p.sigma.rshape) :
    pyMul (.dist (.normal p)) (.dist (.normal q)) = .error .typeError := by
  rw [pyMul, DistObj.mulDist, if_neg hp]

end Conj
