import Verif.Sampling

/-!
# C68, C69, C71: seeded sampling
-/

set_option linter.unusedSectionVars false

namespace Conj

namespace Spec

/-- the number of deviates the first `i` of several consecutive draws use -/
def usedBefore {A : Type} : List (Draw A) → Stream → ℕ → ℕ
  | _, _, 0 => 0
  | [], _, _ + 1 => 0
  | d :: l, s, i + 1 => d.used s + usedBefore l (s.drop (d.used s)) i

end Spec

open Spec

variable {ι : Type}

@[simp] theorem drop_drop (s : Stream) (m n : ℕ) : (s.drop m).drop n = s.drop (m + n) := by
  funext i; simp [Stream.drop, Nat.add_assoc]

@[simp] theorem drop_zero (s : Stream) : s.drop 0 = s := by funext i; simp [Stream.drop]

/-- `drawAll` gives every draw its own part of the stream. -/
theorem drawAll_getElem? {A : Type} (l : List (Draw A)) (s : Stream) (i : ℕ) :
    (drawAll l s).1[i]? = l[i]?.map (fun d => d.value (s.drop (usedBefore l s i))) := by
  induction l generalizing s i with
  | nil => simp [drawAll]
  | cons d l ih =>
    cases i with
    | zero => simp [drawAll, Draw.run, usedBefore]
    | succ i =>
      simp only [drawAll, Draw.run, List.getElem?_cons_succ, ih, usedBefore, drop_drop]

theorem drawAll_length {A : Type} (l : List (Draw A)) (s : Stream) : (drawAll l s).1.length = l.length := by
  induction l generalizing s with
  | nil => rfl
  | cons d l ih => simp [drawAll, ih]

theorem rvsEach_generator (lib : Samplers ι) {A : Type} (l : List (Draw A)) (w : World) :
    rvsEach lib .generator l w = rvs lib .generator l w := by
  induction l generalizing w with
  | nil => rfl
  | cons d l ih => simp only [rvsEach, ih]; simp [rvs, drawAll]

theorem rvsEach_none (lib : Samplers ι) {A : Type} (l : List (Draw A)) (w : World) :
    rvsEach lib .none l w = rvs lib .none l w := by
  induction l generalizing w with
  | nil => rfl
  | cons d l ih => simp only [rvsEach, ih]; simp [rvs, drawAll]

theorem rvsEach_seed (lib : Samplers ι) {A : Type} (k : ℕ) (l : List (Draw A)) (w : World) :
    rvsEach lib (.seed k) l w = (l.map (fun d => d.value (lib.seeded k)), w) := by
  induction l generalizing w with
  | nil => rfl
  | cons d l ih => simp only [rvsEach, ih]; simp [rvs, drawAll, Draw.run]

theorem rvs_length (lib : Samplers ι) {A : Type} (rs : RandomState) (l : List (Draw A)) (w : World) :
    (rvs lib rs l w).1.length = l.length := by
  cases rs <;> simp [rvs, drawAll_length]

theorem rvsEach_length (lib : Samplers ι) {A : Type} (rs : RandomState) (l : List (Draw A)) (w : World) :
    (rvsEach lib rs l w).1.length = l.length := by
  cases rs <;> simp [rvsEach_none, rvsEach_generator, rvsEach_seed, rvs_length]

/-! ## C68 -/

/-- `f` called with an integer seed: the result does not depend on the state of any generator, and no
generator is touched -/
def Spec.Reproducible {R : Type} (f : World → R × World) : Prop :=
  ∀ w w', (f w).1 = (f w').1 ∧ (f w).2 = w

theorem C68_seeded_normal_inverse_gamma {M : Type} (lib : Samplers ι) (d : NormalInverseGamma ℝ ℝ M)
    (nu : ℝ) (size k : ℕ) (rv : Bool) :
    Reproducible (d.sample_variance lib size (.seed k)) ∧
    Reproducible (d.sample_beta lib nu size rv (.seed k)) := by
  refine ⟨fun w w' => ⟨rfl, rfl⟩, fun w w' => ⟨rfl, rfl⟩⟩

theorem C68_seeded_normal_inverse_gamma_nd (lib : Samplers ι)
    (d : NormalInverseGamma ℝ (ι → ℝ) (Matrix ι ι ℝ)) (di : Matrix ι ι ℝ) (size k : ℕ) (rv : Bool) :
    Reproducible (d.sample_beta_nd lib di size rv (.seed k)) := by
  intro w w'
  simp only [NormalInverseGamma.sample_beta_nd, NormalInverseGamma.sampleBothNd,
    NormalInverseGamma.sampleBetaNd, rvsEach_seed]
  exact ⟨rfl, rfl⟩

theorem C68_seeded_normal_gamma (lib : Samplers ι) (d : NormalGamma ℝ) (size k : ℕ) (rv : Bool) :
    Reproducible (d.sample_variance lib size (.seed k)) ∧
    Reproducible (d.sample_beta lib size rv (.seed k)) :=
  ⟨fun _ _ => ⟨rfl, rfl⟩, fun _ _ => ⟨rfl, rfl⟩⟩

theorem C68_seeded_normal_wishart [Fintype ι] [DecidableEq ι] (lib : Samplers ι)
    (d : NormalWishart ℝ (ι → ℝ) (Matrix ι ι ℝ)) (size k : ℕ) (rv : Bool) :
    Reproducible (d.sample_variance lib size (.seed k)) ∧
    Reproducible (d.sample_mean lib size rv (.seed k)) := by
  refine ⟨fun _ _ => ⟨rfl, rfl⟩, fun w w' => ?_⟩
  simp only [NormalWishart.sample_mean, rvsEach_seed]
  exact ⟨rfl, rfl⟩

theorem C68_seeded_normal_inverse_wishart (lib : Samplers ι)
    (d : NormalInverseWishart ℝ (ι → ℝ) (Matrix ι ι ℝ)) (size k : ℕ) (rv : Bool) :
    Reproducible (d.sample_variance lib size (.seed k)) ∧
    Reproducible (d.sample_mean lib size rv (.seed k)) := by
  refine ⟨fun _ _ => ⟨rfl, rfl⟩, fun w w' => ?_⟩
  simp only [NormalInverseWishart.sample_mean, rvsEach_seed]
  exact ⟨rfl, rfl⟩

theorem C68_seeded_rvs (lib : Samplers ι) (g : BetaGeometric ℝ) (c : CompoundGamma ℝ) (size k : ℕ) :
    Reproducible (g.rvs lib size (.seed k)) ∧ Reproducible (c.rvs lib size (.seed k)) :=
  ⟨fun _ _ => ⟨rfl, rfl⟩, fun _ _ => ⟨rfl, rfl⟩⟩

/-- `return_variance=True` returns the same means (and leaves the generators in the same state), plus the
variances: for every kind of `random_state`. -/
theorem C68_return_variance {M : Type} [Fintype ι] [DecidableEq ι] (lib : Samplers ι) (rs : RandomState)
    (w : World) (size : ℕ) (d1 : NormalInverseGamma ℝ ℝ M) (nu : ℝ)
    (d2 : NormalInverseGamma ℝ (ι → ℝ) (Matrix ι ι ℝ)) (di : Matrix ι ι ℝ) (d3 : NormalGamma ℝ)
    (d4 : NormalWishart ℝ (ι → ℝ) (Matrix ι ι ℝ)) (d5 : NormalInverseWishart ℝ (ι → ℝ) (Matrix ι ι ℝ)) :
    (∃ b v w', d1.sample_beta lib nu size true rs w = (.meanAndVariance b v, w') ∧
      d1.sample_beta lib nu size false rs w = (.mean b, w') ∧ v = (d1.sample_variance lib size rs w).1) ∧
    (∃ b v w', d2.sample_beta_nd lib di size true rs w = (.meanAndVariance b v, w') ∧
      d2.sample_beta_nd lib di size false rs w = (.mean b, w') ∧ v = (d2.sample_variance lib size rs w).1) ∧
    (∃ b v w', d3.sample_beta lib size true rs w = (.meanAndVariance b v, w') ∧
      d3.sample_beta lib size false rs w = (.mean b, w') ∧ v = (d3.sample_variance lib size rs w).1) ∧
    (∃ b v w', d4.sample_mean lib size true rs w = (.meanAndVariance b v, w') ∧
      d4.sample_mean lib size false rs w = (.mean b, w') ∧ v = (d4.sample_variance lib size rs w).1) ∧
    (∃ b v w', d5.sample_mean lib size true rs w = (.meanAndVariance b v, w') ∧
      d5.sample_mean lib size false rs w = (.mean b, w') ∧ v = (d5.sample_variance lib size rs w).1) :=
  ⟨⟨_, _, _, rfl, rfl, rfl⟩, ⟨_, _, _, rfl, rfl, rfl⟩, ⟨_, _, _, rfl, rfl, rfl⟩,
    ⟨_, _, _, rfl, rfl, rfl⟩, ⟨_, _, _, rfl, rfl, rfl⟩⟩

/-! ## C69 -/

/-- With a `Generator`, sample `i` of the mean is drawn from the part of the stream after everything
drawn before it: the variances and the earlier samples.
Missing for C69: integer seeds, where it is false. -/
theorem C69_generator_fresh_partial (lib : Samplers ι) (d : NormalInverseGamma ℝ (ι → ℝ) (Matrix ι ι ℝ))
    (di : Matrix ι ι ℝ) (size : ℕ) (w : World) :
    let vs := List.replicate size (lib.invgamma d.alpha d.beta)
    let var := (drawAll vs w.gen).1
    let draws := var.map (fun v => lib.multivariate_normal d.mu (v • di))
    let after := (drawAll vs w.gen).2
    ∃ betas w', d.sample_beta_nd lib di size true .generator w = (.meanAndVariance betas var, w') ∧
      ∀ i : ℕ, betas[i]? = draws[i]?.map (fun x : Draw (ι → ℝ) => x.value (after.drop (usedBefore draws after i))) := by
  intro vs var draws after
  have hc : (scaledCovariances di var).map (fun v => lib.multivariate_normal d.mu v) = draws := by
    simp only [scaledCovariances, List.map_map, draws]
    refine List.map_congr_left fun v _ => ?_
    have : (Matrix.of fun a b => di a b * v) = v • di := by
      ext a b; simp [mul_comm]
    simp only [Function.comp_apply, this]
  refine ⟨(drawAll draws after).1, { w with gen := (drawAll draws after).2 }, ?_, fun i => drawAll_getElem? _ _ i⟩
  simp only [NormalInverseGamma.sample_beta_nd, NormalInverseGamma.sampleBothNd,
    NormalInverseGamma.sampleBetaNd, rvsEach_generator, NormalInverseGamma.sample_variance,
    NormalInverseGamma.inverse_gamma]
  simp only [rvs]
  rw [hc]
  rfl

/-- The same for the normal-inverse-Wishart and normal-Wishart distributions. -/
theorem C69_generator_fresh_wishart_partial [Fintype ι] [DecidableEq ι] (lib : Samplers ι)
    (d : NormalInverseWishart ℝ (ι → ℝ) (Matrix ι ι ℝ)) (e : NormalWishart ℝ (ι → ℝ) (Matrix ι ι ℝ))
    (size : ℕ) (w : World) :
    (let v := d.sample_variance lib size .generator w
     let draws := v.1.map (fun c => lib.multivariate_normal d.mu c)
     ∃ m w', d.sample_mean lib size false .generator w = (.mean m, w') ∧
      ∀ i : ℕ, m[i]? = draws[i]?.map (fun x : Draw (ι → ℝ) => x.value (v.2.gen.drop (usedBefore draws v.2.gen i)))) ∧
    (let v := e.sample_variance lib size .generator w
     let draws := v.1.map (fun c => lib.multivariate_normal e.mu c)
     ∃ m w', e.sample_mean lib size false .generator w = (.mean m, w') ∧
      ∀ i : ℕ, m[i]? = draws[i]?.map (fun x : Draw (ι → ℝ) => x.value (v.2.gen.drop (usedBefore draws v.2.gen i)))) := by
  constructor
  · intro v draws
    refine ⟨(drawAll draws v.2.gen).1, { v.2 with gen := (drawAll draws v.2.gen).2 }, ?_,
      fun i => drawAll_getElem? _ _ i⟩
    simp only [NormalInverseWishart.sample_mean, rvsEach_generator]
    rfl
  · intro v draws
    refine ⟨(drawAll draws v.2.gen).1, { v.2 with gen := (drawAll draws v.2.gen).2 }, ?_,
      fun i => drawAll_getElem? _ _ i⟩
    simp only [NormalWishart.sample_mean, rvsEach_generator]
    rfl

/-- With an integer seed every sample of the mean is drawn from the start of the same stream - the one
the variances were drawn from. -/
theorem C69_seed_restarts [Fintype ι] [DecidableEq ι] (lib : Samplers ι) (k size : ℕ) (w : World)
    (d : NormalInverseGamma ℝ (ι → ℝ) (Matrix ι ι ℝ)) (di : Matrix ι ι ℝ)
    (e : NormalInverseWishart ℝ (ι → ℝ) (Matrix ι ι ℝ)) (f : NormalWishart ℝ (ι → ℝ) (Matrix ι ι ℝ)) :
    d.sample_beta_nd lib di size false (.seed k) w =
      (.mean ((d.sample_variance lib size (.seed k) w).1.map
        (fun v => (lib.multivariate_normal d.mu (v • di)).value (lib.seeded k))), w) ∧
    e.sample_mean lib size false (.seed k) w =
      (.mean ((e.sample_variance lib size (.seed k) w).1.map
        (fun c => (lib.multivariate_normal e.mu c).value (lib.seeded k))), w) ∧
    f.sample_mean lib size false (.seed k) w =
      (.mean ((f.sample_variance lib size (.seed k) w).1.map
        (fun c => (lib.multivariate_normal f.mu c).value (lib.seeded k))), w) := by
  refine ⟨?_, ?_, ?_⟩
  · have : ∀ v : ℝ, (Matrix.of fun a b => di a b * v) = v • di := by
      intro v; ext a b; simp [mul_comm]
    simp only [NormalInverseGamma.sample_beta_nd, NormalInverseGamma.sampleBothNd,
      NormalInverseGamma.sampleBetaNd, rvsEach_seed, scaledCovariances, List.map_map, Function.comp_def, this]
    rfl
  · simp only [NormalInverseWishart.sample_mean, rvsEach_seed, List.map_map, Function.comp_def]
    rfl
  · simp only [NormalWishart.sample_mean, rvsEach_seed, List.map_map, Function.comp_def]
    rfl

/-- numpy draws a multivariate normal as `mean + factor(cov) z`, where scaling the covariance scales the
factor (`svd`: same vectors, scaled singular values) -/
def Spec.FactorSampler [Fintype ι] (lib : Samplers ι) : Prop :=
  ∃ (factor : Matrix ι ι ℝ → Matrix ι ι ℝ) (z : Stream → ι → ℝ),
    (∀ mean cov s, (lib.multivariate_normal mean cov).value s = mean + (factor cov).mulVec (z s)) ∧
    ∀ (c : ℝ) cov, 0 ≤ c → factor (c • cov) = Real.sqrt c • factor cov

/-- So with an integer seed all samples of a multivariate `sample_beta` lie on one line through `mu`,
for every number of samples and of features. -/
theorem C69_seeded_samples_on_a_line [Fintype ι] (lib : Samplers ι) (hf : FactorSampler lib) (k size : ℕ)
    (w : World) (d : NormalInverseGamma ℝ (ι → ℝ) (Matrix ι ι ℝ)) (di : Matrix ι ι ℝ)
    (hpos : ∀ v ∈ (d.sample_variance lib size (.seed k) w).1, 0 ≤ v) :
    ∃ u : ι → ℝ, d.sample_beta_nd lib di size false (.seed k) w =
      (.mean ((d.sample_variance lib size (.seed k) w).1.map (fun v => d.mu + Real.sqrt v • u)), w) := by
  classical
  obtain ⟨factor, z, h1, h2⟩ := hf
  refine ⟨(factor di).mulVec (z (lib.seeded k)), ?_⟩
  rw [(C69_seed_restarts lib k size w d di ⟨d.mu, 1, 1, di⟩ ⟨d.mu, 1, di, 1⟩).1]
  congr 2
  refine List.map_congr_left fun v hv => ?_
  rw [h1, h2 v di (hpos v hv), Matrix.smul_mulVec]

/-! ## C71 -/

/-- `NormalInverseGamma.sample_variance` returns the draws of the inverse gamma itself, and the means
have standard deviation `sqrt(variance / nu)`. -/
theorem C71_normal_inverse_gamma_partial {M : Type} (lib : Samplers ι) (d : NormalInverseGamma ℝ ℝ M) (nu : ℝ)
    (size : ℕ) (w : World) :
    let draws := List.replicate size (lib.invgamma d.alpha d.beta)
    (d.sample_variance lib size .generator w).1 = (drawAll draws w.gen).1 ∧
    ∃ w', d.sample_beta lib nu size false .generator w =
      (.mean (drawAll ((drawAll draws w.gen).1.map (fun v => lib.norm d.mu (Real.sqrt (v / nu))))
        (drawAll draws w.gen).2).1, w') := by
  intro draws
  exact ⟨rfl, _, rfl⟩

/-- `NormalGamma.sample_variance` is the reciprocal of `lam` times the precision: for nonzero precisions
it is the observation variance `1 / precision` only if `lam = 1`. -/
theorem C71_normal_gamma_iff (lib : Samplers ι) (d : NormalGamma ℝ) (size : ℕ) (w : World)
    (hs : 0 < size)
    (hpos : ∀ g ∈ (drawAll (List.replicate size (lib.gamma d.alpha (1 / d.beta))) w.gen).1, g ≠ 0) :
    (d.sample_variance lib size .generator w).1 =
      (drawAll (List.replicate size (lib.gamma d.alpha (1 / d.beta))) w.gen).1.map (fun g => 1 / g) ↔
    d.lam = 1 := by
  set gs := (drawAll (List.replicate size (lib.gamma d.alpha (1 / d.beta))) w.gen).1 with hg
  have hlen : gs.length = size := by rw [hg, drawAll_length]; simp
  have e : (d.sample_variance lib size .generator w).1 = gs.map (fun g => 1 / (d.lam * g)) := by
    simp only [NormalGamma.sample_variance, NormalGamma.gamma, rvs, List.map_map, Function.comp_def, hg]
  rw [e]
  constructor
  · intro h
    obtain ⟨g, l, hgl⟩ : ∃ g l, gs = g :: l := by
      cases hgs : gs with
      | nil => rw [hgs] at hlen; simp at hlen; omega
      | cons g l => exact ⟨g, l, rfl⟩
    rw [hgl] at h hpos
    simp only [List.map_cons, List.cons.injEq] at h
    have hg0 := hpos g (by simp)
    have h1 := h.1
    simp only [one_div, inv_inj] at h1
    exact mul_right_cancel₀ hg0 (by rw [h1, one_mul])
  · intro h
    rw [h]
    simp

/-- `NormalInverseWishart.sample_variance` divides the draws by `kappa`, `NormalWishart.sample_variance`
divides the inverses by `lam`. -/
theorem C71_wishart_scaled [Fintype ι] [DecidableEq ι] (lib : Samplers ι)
    (d : NormalInverseWishart ℝ (ι → ℝ) (Matrix ι ι ℝ)) (e : NormalWishart ℝ (ι → ℝ) (Matrix ι ι ℝ))
    (he : e.lam ≠ 0) (size : ℕ) (w : World) :
    (d.sample_variance lib size .generator w).1 =
      (drawAll (List.replicate size (lib.invwishart d.nu d.psi)) w.gen).1.map (fun S => (1 / d.kappa) • S) ∧
    ((∀ L ∈ (drawAll (List.replicate size (lib.wishart e.nu e.W)) w.gen).1, IsUnit L.det) →
    (e.sample_variance lib size .generator w).1 =
      (drawAll (List.replicate size (lib.wishart e.nu e.W)) w.gen).1.map (fun L => (1 / e.lam) • L⁻¹)) := by
  refine ⟨rfl, fun hu => ?_⟩
  simp only [NormalWishart.sample_variance, NormalWishart.wishart, rvs]
  refine List.map_congr_left fun L hL => ?_
  have := Matrix.inv_smul' L (Units.mk0 e.lam he) (hu L hL)
  simpa [Units.smul_def] using this

/-- So with `kappa ≠ 1` the normal-inverse-Wishart variances are not the drawn covariances. -/
theorem C71_normal_inverse_wishart_iff (lib : Samplers ι)
    (d : NormalInverseWishart ℝ (ι → ℝ) (Matrix ι ι ℝ)) (size : ℕ) (hs : 0 < size) (w : World)
    (hpos : ∀ S ∈ (drawAll (List.replicate size (lib.invwishart d.nu d.psi)) w.gen).1, S ≠ 0) :
    (d.sample_variance lib size .generator w).1 =
      (drawAll (List.replicate size (lib.invwishart d.nu d.psi)) w.gen).1 ↔ d.kappa = 1 := by
  set gs := (drawAll (List.replicate size (lib.invwishart d.nu d.psi)) w.gen).1 with hg
  have hlen : gs.length = size := by rw [hg, drawAll_length]; simp
  have e : (d.sample_variance lib size .generator w).1 = gs.map (fun S => (1 / d.kappa) • S) := rfl
  rw [e]
  constructor
  · intro h
    obtain ⟨g, l, hgl⟩ : ∃ g l, gs = g :: l := by
      cases hgs : gs with
      | nil => rw [hgs] at hlen; simp at hlen; omega
      | cons g l => exact ⟨g, l, rfl⟩
    rw [hgl] at h hpos
    simp only [List.map_cons, List.cons.injEq] at h
    have hg0 := hpos g (by simp)
    obtain ⟨i, j, hij⟩ : ∃ i j, g i j ≠ 0 := by
      by_contra hc
      push Not at hc
      exact hg0 (by ext i j; simpa using hc i j)
    have h1 := congrFun (congrFun h.1 i) j
    simp only [Matrix.smul_apply, smul_eq_mul] at h1
    have h2 : 1 / d.kappa = 1 := mul_right_cancel₀ hij (by rw [h1, one_mul])
    rw [one_div, inv_eq_one] at h2
    exact h2
  · intro h
    rw [h]
    simp

end Conj
