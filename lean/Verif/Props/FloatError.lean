import Verif.Lemmas.FloatNear
import Verif.Props.Sequential

/-!
# Rounding errors stay small (C90)

`u` is the unit of rounding (`2 ^ -53` for Python floats).  Updating with `N` batches, one after the other, in
floating point gives every parameter of the ideal posterior of the pooled data up to the fraction
`2 * (N + 1) * u`.  Predictive distributions and the posteriors of the normal models are off by a few `u`.
-/

namespace Conj

open Spec

variable {u : ℝ} {F : FloatArith}

theorem rel_mono {D : Type → Type} [LawfulParams D] {α β : Type} {R R' : α → β → Prop} (h : ∀ a b, R a b → R' a b)
    {d : D α} {d' : D β} (hd : Params.Rel R d d') : Params.Rel R' d d' := by
  obtain ⟨e, rfl, rfl⟩ := LawfulParams.rel_lift hd
  exact LawfulParams.rel_fmap _ _ (fun a => h _ _ a.2) e

/-- each float parameter is the exact one up to the fraction `ε` -/
def Spec.Off {D : Type → Type} [Params D] (ε : ℝ) (exact : D ℝ) (computed : D (Fl F)) : Prop :=
  Params.Rel (fun x (y : Fl F) => RelError ε x y.val) exact computed

theorem fold_near {D : Type → Type} [LawfulParams D] (hF : Accurate u F.rnd F.pow) {B : Type} (f : D ℝ → B → D ℝ)
    (g : D (Fl F) → B → D (Fl F)) (Inv : D ℝ → Prop) (Good : B → Prop)
    (hstep : ∀ k d d' b, 1 ≤ k → Inv d → Good b → Params.Rel (fun x (y : Fl F) => Near u k x y.val) d d' →
      Params.Rel (fun x (y : Fl F) => Near u (k + 1) x y.val) (f d b) (g d' b) ∧ Inv (f d b))
    (bs : List B) (hbs : ∀ b ∈ bs, Good b) (d : D ℝ) (d' : D (Fl F)) (hd : Inv d)
    (h : Params.Rel (fun x (y : Fl F) => Near u 1 x y.val) d d') (hN : 2 * ((bs.length + 1) * u) ≤ 1) :
    Off (2 * (bs.length + 1) * u) (bs.foldl f d) (bs.foldl g d') := by
  have key : ∀ (k : ℕ) (bs : List B) (d : D ℝ) (d' : D (Fl F)), 1 ≤ k → (∀ b ∈ bs, Good b) → Inv d →
      Params.Rel (fun x (y : Fl F) => Near u k x y.val) d d' →
      Params.Rel (fun x (y : Fl F) => Near u (k + bs.length) x y.val) (bs.foldl f d) (bs.foldl g d') := by
    intro k bs
    induction bs generalizing k with
    | nil => intro d d' _ _ _ h; exact h
    | cons b bs ih =>
      intro d d' hk hb hd h
      obtain ⟨h1, h2⟩ := hstep k d d' b hk hd (hb b (by simp)) h
      have := ih (k + 1) (f d b) (g d' b) (by omega) (fun c hc => hb c (List.mem_cons_of_mem _ hc)) h2 h1
      rw [List.length_cons, ← Nat.add_assoc, Nat.add_right_comm]
      exact this
  refine rel_mono (fun x y h => ?_) (key 1 bs d d' le_rfl hbs hd h)
  have := near_bound hF.u_nonneg hF.u_le h (by push_cast; rw [add_comm (1 : ℝ)]; exact hN)
  push_cast at this
  rwa [add_comm (1 : ℝ)] at this

section
variable (hF : Accurate u F.rnd F.pow)
include hF

theorem near_exact (x : ℝ) (k : ℕ) : Near u k x x := near_mono hF.u_nonneg hF.u_le (near_refl x) (Nat.zero_le k)

theorem near_fl_add {k : ℕ} {a b a' b' : ℝ} (ha : 0 ≤ a) (hb : 0 ≤ b) (h : Near u k a a') (h' : Near u k b b') :
    Near u (k + 1) (a + b) (F.rnd (a' + b')) := near_rnd hF (near_add ha hb h h')

theorem near_fl_op {k : ℕ} (hk : 1 ≤ k) (x : ℝ) : Near u k x (F.rnd x) :=
  near_mono hF.u_nonneg hF.u_le (near_rnd hF (near_refl x)) hk

/-- C90 binomial: batches `(n, x)` -/
theorem C90_binomial_beta (batches : List (ℝ × ℝ)) (prior : Beta ℝ) (hp : Params.All (0 ≤ ·) prior)
    (hb : ∀ b ∈ batches, 0 ≤ b.2 ∧ b.2 ≤ b.1) (hN : 2 * ((batches.length + 1) * u) ≤ 1) :
    Off (2 * (batches.length + 1) * u)
      (binomial_beta (batches.map Prod.fst).sum (batches.map Prod.snd).sum prior)
      (batches.foldl (fun (d : Beta (Fl F)) b => binomial_beta ⟨b.1⟩ ⟨b.2⟩ d) (fmap Fl.mk prior)) := by
  rw [← C37_binomial_beta]
  refine fold_near hF _ _ (Params.All (0 ≤ ·)) (fun b => 0 ≤ b.2 ∧ b.2 ≤ b.1) ?_ _ hb _ _ hp
    ⟨near_exact hF _ _, near_exact hF _ _⟩ hN
  rintro k d d' b hk ⟨d1, d2⟩ ⟨b1, b2⟩ ⟨h1, h2⟩
  exact ⟨⟨near_fl_add hF d1 b1 h1 (near_exact hF _ _),
    near_fl_add hF d2 (sub_nonneg.2 b2) h2 (near_fl_op hF hk _)⟩,
    add_nonneg d1 b1, add_nonneg d2 (sub_nonneg.2 b2)⟩

/-- C90 negative binomial: batches `(n, x)` -/
theorem C90_negative_binomial_beta (r : ℝ) (hr : 0 ≤ r) (batches : List (ℝ × ℝ)) (prior : Beta ℝ)
    (hp : Params.All (0 ≤ ·) prior) (hb : ∀ b ∈ batches, 0 ≤ b.1 ∧ 0 ≤ b.2)
    (hN : 2 * ((batches.length + 1) * u) ≤ 1) :
    Off (2 * (batches.length + 1) * u)
      (negative_binomial_beta r (batches.map Prod.fst).sum (batches.map Prod.snd).sum prior)
      (batches.foldl (fun (d : Beta (Fl F)) b => negative_binomial_beta ⟨r⟩ ⟨b.1⟩ ⟨b.2⟩ d) (fmap Fl.mk prior)) := by
  rw [← C37_negative_binomial_beta]
  refine fold_near hF _ _ (Params.All (0 ≤ ·)) (fun b => 0 ≤ b.1 ∧ 0 ≤ b.2) ?_ _ hb _ _ hp
    ⟨near_exact hF _ _, near_exact hF _ _⟩ hN
  rintro k d d' b hk ⟨d1, d2⟩ ⟨b1, b2⟩ ⟨h1, h2⟩
  exact ⟨⟨near_fl_add hF d1 (mul_nonneg hr b1) h1 (near_fl_op hF hk _), near_fl_add hF d2 b2 h2 (near_exact hF _ _)⟩,
    add_nonneg d1 (mul_nonneg hr b1), add_nonneg d2 b2⟩

/-- C90 geometric, counting from zero: batches `(x_total, n)` -/
theorem C90_geometric_beta_zero_start (batches : List (ℝ × ℝ)) (prior : Beta ℝ) (hp : Params.All (0 ≤ ·) prior)
    (hb : ∀ b ∈ batches, 0 ≤ b.1 ∧ 0 ≤ b.2) (hN : 2 * ((batches.length + 1) * u) ≤ 1) :
    Off (2 * (batches.length + 1) * u)
      (geometric_beta (batches.map Prod.fst).sum (batches.map Prod.snd).sum prior false)
      (batches.foldl (fun (d : Beta (Fl F)) b => geometric_beta ⟨b.1⟩ ⟨b.2⟩ d false) (fmap Fl.mk prior)) := by
  rw [← C37_geometric_beta]
  refine fold_near hF _ _ (Params.All (0 ≤ ·)) (fun b => 0 ≤ b.1 ∧ 0 ≤ b.2) ?_ _ hb _ _ hp
    ⟨near_exact hF _ _, near_exact hF _ _⟩ hN
  rintro k d d' b hk ⟨d1, d2⟩ ⟨b1, b2⟩ ⟨h1, h2⟩
  exact ⟨⟨near_fl_add hF d1 b2 h1 (near_exact hF _ _), near_fl_add hF d2 b1 h2 (near_exact hF _ _)⟩,
    add_nonneg d1 b2, add_nonneg d2 b1⟩

/-- C90 Poisson: batches `(x_total, n)` -/
theorem C90_poisson_gamma (batches : List (ℝ × ℝ)) (prior : Gamma ℝ) (hp : Params.All (0 ≤ ·) prior)
    (hb : ∀ b ∈ batches, 0 ≤ b.1 ∧ 0 ≤ b.2) (hN : 2 * ((batches.length + 1) * u) ≤ 1) :
    Off (2 * (batches.length + 1) * u)
      (poisson_gamma (batches.map Prod.fst).sum (batches.map Prod.snd).sum prior)
      (batches.foldl (fun (d : Gamma (Fl F)) b => poisson_gamma ⟨b.1⟩ ⟨b.2⟩ d) (fmap Fl.mk prior)) := by
  rw [← C37_poisson_gamma]
  refine fold_near hF _ _ (Params.All (0 ≤ ·)) (fun b => 0 ≤ b.1 ∧ 0 ≤ b.2) ?_ _ hb _ _ hp
    ⟨near_exact hF _ _, near_exact hF _ _⟩ hN
  rintro k d d' b hk ⟨d1, d2⟩ ⟨b1, b2⟩ ⟨h1, h2⟩
  exact ⟨⟨near_fl_add hF d1 b1 h1 (near_exact hF _ _), near_fl_add hF d2 b2 h2 (near_exact hF _ _)⟩,
    add_nonneg d1 b1, add_nonneg d2 b2⟩

/-- C90 exponential: batches `(x_total, n)` -/
theorem C90_exponential_gamma (batches : List (ℝ × ℝ)) (prior : Gamma ℝ) (hp : Params.All (0 ≤ ·) prior)
    (hb : ∀ b ∈ batches, 0 ≤ b.1 ∧ 0 ≤ b.2) (hN : 2 * ((batches.length + 1) * u) ≤ 1) :
    Off (2 * (batches.length + 1) * u)
      (exponential_gamma (batches.map Prod.fst).sum (batches.map Prod.snd).sum prior)
      (batches.foldl (fun (d : Gamma (Fl F)) b => exponential_gamma ⟨b.1⟩ ⟨b.2⟩ d) (fmap Fl.mk prior)) :=
  C90_poisson_gamma hF batches prior hp hb hN

/-- C90 gamma with known shape: batches `(x_total, n)` -/
theorem C90_gamma_known_shape (shape : ℝ) (hs : 0 ≤ shape) (batches : List (ℝ × ℝ)) (prior : Gamma ℝ)
    (hp : Params.All (0 ≤ ·) prior) (hb : ∀ b ∈ batches, 0 ≤ b.1 ∧ 0 ≤ b.2)
    (hN : 2 * ((batches.length + 1) * u) ≤ 1) :
    Off (2 * (batches.length + 1) * u)
      (gamma_known_shape (batches.map Prod.fst).sum (batches.map Prod.snd).sum shape prior)
      (batches.foldl (fun (d : Gamma (Fl F)) b => gamma_known_shape ⟨b.1⟩ ⟨b.2⟩ ⟨shape⟩ d) (fmap Fl.mk prior)) := by
  rw [← C37_gamma_known_shape]
  refine fold_near hF _ _ (Params.All (0 ≤ ·)) (fun b => 0 ≤ b.1 ∧ 0 ≤ b.2) ?_ _ hb _ _ hp
    ⟨near_exact hF _ _, near_exact hF _ _⟩ hN
  rintro k d d' b hk ⟨d1, d2⟩ ⟨b1, b2⟩ ⟨h1, h2⟩
  exact ⟨⟨near_fl_add hF d1 (mul_nonneg b2 hs) h1 (near_fl_op hF hk _), near_fl_add hF d2 b1 h2 (near_exact hF _ _)⟩,
    add_nonneg d1 (mul_nonneg b2 hs), add_nonneg d2 b1⟩

/-- C90 inverse gamma with known shape: batches `(reciprocal_x_total, n)` -/
theorem C90_inverse_gamma_known_rate (shape : ℝ) (hs : 0 ≤ shape) (batches : List (ℝ × ℝ)) (prior : Gamma ℝ)
    (hp : Params.All (0 ≤ ·) prior) (hb : ∀ b ∈ batches, 0 ≤ b.1 ∧ 0 ≤ b.2)
    (hN : 2 * ((batches.length + 1) * u) ≤ 1) :
    Off (2 * (batches.length + 1) * u)
      (inverse_gamma_known_rate (batches.map Prod.fst).sum (batches.map Prod.snd).sum shape prior)
      (batches.foldl (fun (d : Gamma (Fl F)) b => inverse_gamma_known_rate ⟨b.1⟩ ⟨b.2⟩ ⟨shape⟩ d)
        (fmap Fl.mk prior)) := by
  rw [← C37_inverse_gamma_known_rate]
  refine fold_near hF _ _ (Params.All (0 ≤ ·)) (fun b => 0 ≤ b.1 ∧ 0 ≤ b.2) ?_ _ hb _ _ hp
    ⟨near_exact hF _ _, near_exact hF _ _⟩ hN
  rintro k d d' b hk ⟨d1, d2⟩ ⟨b1, b2⟩ ⟨h1, h2⟩
  exact ⟨⟨near_fl_add hF d1 (mul_nonneg b2 hs) h1 (near_fl_op hF hk _), near_fl_add hF d2 b1 h2 (near_exact hF _ _)⟩,
    add_nonneg d1 (mul_nonneg b2 hs), add_nonneg d2 b1⟩

/-- C90 Weibull: batches `(n, x_beta_total)` -/
theorem C90_weibull_inverse_gamma_known_shape (batches : List (ℝ × ℝ)) (prior : InverseGamma ℝ)
    (hp : Params.All (0 ≤ ·) prior) (hb : ∀ b ∈ batches, 0 ≤ b.1 ∧ 0 ≤ b.2)
    (hN : 2 * ((batches.length + 1) * u) ≤ 1) :
    Off (2 * (batches.length + 1) * u)
      (weibull_inverse_gamma_known_shape (batches.map Prod.fst).sum (batches.map Prod.snd).sum prior)
      (batches.foldl (fun (d : InverseGamma (Fl F)) b => weibull_inverse_gamma_known_shape ⟨b.1⟩ ⟨b.2⟩ d)
        (fmap Fl.mk prior)) := by
  rw [← C37_weibull]
  refine fold_near hF _ _ (Params.All (0 ≤ ·)) (fun b => 0 ≤ b.1 ∧ 0 ≤ b.2) ?_ _ hb _ _ hp
    ⟨near_exact hF _ _, near_exact hF _ _⟩ hN
  rintro k d d' b hk ⟨d1, d2⟩ ⟨b1, b2⟩ ⟨h1, h2⟩
  exact ⟨⟨near_fl_add hF d1 b1 h1 (near_exact hF _ _), near_fl_add hF d2 b2 h2 (near_exact hF _ _)⟩,
    add_nonneg d1 b1, add_nonneg d2 b2⟩

/-- C90 gamma with both parameters unknown: batches `(x_total, x_prod, n)` -/
theorem C90_gamma (batches : List (ℝ × ℝ × ℝ)) (prior : GammaProportional ℝ) (hp : Params.All (0 ≤ ·) prior)
    (hb : ∀ b ∈ batches, 0 ≤ b.1 ∧ 0 ≤ b.2.1 ∧ 0 ≤ b.2.2) (hN : 2 * ((batches.length + 1) * u) ≤ 1) :
    Off (2 * (batches.length + 1) * u)
      (gamma (batches.map (·.1)).sum (batches.map (·.2.1)).prod (batches.map (·.2.2)).sum prior)
      (batches.foldl (fun (d : GammaProportional (Fl F)) b => gamma ⟨b.1⟩ ⟨b.2.1⟩ ⟨b.2.2⟩ d) (fmap Fl.mk prior)) := by
  rw [← C37_gamma]
  refine fold_near hF _ _ (Params.All (0 ≤ ·)) (fun b => 0 ≤ b.1 ∧ 0 ≤ b.2.1 ∧ 0 ≤ b.2.2) ?_ _ hb _ _ hp
    ⟨near_exact hF _ _, near_exact hF _ _, near_exact hF _ _, near_exact hF _ _⟩ hN
  rintro k d d' b hk ⟨d1, d2, d3, d4⟩ ⟨b1, b2, b3⟩ ⟨h1, h2, h3, h4⟩
  exact ⟨⟨near_rnd hF (near_mul hF.u_nonneg hF.u_le h1 (near_refl _)),
    near_fl_add hF d2 b1 h2 (near_exact hF _ _), near_fl_add hF d3 b3 h3 (near_exact hF _ _),
    near_fl_add hF d4 b3 h4 (near_exact hF _ _)⟩,
    mul_nonneg d1 b2, add_nonneg d2 b1, add_nonneg d3 b3, add_nonneg d4 b3⟩

/-- C90 Poisson predictive, one call -/
theorem C90_poisson_gamma_predictive (hu : 6 * u ≤ 1) (d : Gamma ℝ) (n : ℝ) (hb : 0 ≤ d.beta) :
    Off (6 * u) (poisson_gamma_predictive d n) (poisson_gamma_predictive (fmap Fl.mk d) (⟨n⟩ : Fl F)) := by
  have h0 := hF.u_nonneg
  have h1 := hF.u_le
  have e1 : Near u 1 (n * d.alpha) (F.rnd (n * d.alpha)) := near_fl_op hF le_rfl _
  have hl : Near u 1 (lit 1 : ℝ) (F.rnd ((1 : ℚ) : ℝ)) := near_lit hF 1
  have e2 : Near u 2 (lit 1 + d.beta) (F.rnd (F.rnd ((1 : ℚ) : ℝ) + d.beta)) :=
    near_fl_add hF (by simp) hb hl (near_exact hF _ _)
  have e3 : Near u 3 (d.beta / (lit 1 + d.beta)) (F.rnd (d.beta / F.rnd (F.rnd ((1 : ℚ) : ℝ) + d.beta))) := by
    have := near_rnd hF (near_div h0 h1 (near_refl d.beta) e2)
    simpa using this
  have hb : ∀ {x y}, Near u 3 x y → RelError (6 * u) x y := fun h =>
    near_bound' h0 h1 h (by norm_num) hu
  exact ⟨hb (near_mono h0 h1 e1 (by norm_num)), hb e3⟩

/-- C90 normal with known variance: the posterior standard deviation, one call -/
theorem C90_normal_known_variance_sigma (hu : 22 * u ≤ 1) (x_total n var : ℝ) (prior : Normal ℝ)
    (hs : 0 < prior.sigma) (hn : 0 ≤ n) (hv : 0 < var) :
    RelError (22 * u) (normal_known_variance x_total n var prior).sigma
      (normal_known_variance (⟨x_total⟩ : Fl F) ⟨n⟩ ⟨var⟩ (fmap Fl.mk prior)).sigma.val := by
  have h0 := hF.u_nonneg
  have h1 := hF.u_le
  have hl : Near u 1 (lit 1 : ℝ) (F.rnd ((1 : ℚ) : ℝ)) := near_lit hF 1
  have s2 : Near u 3 (powq prior.sigma 2) (F.pow prior.sigma 2) := near_pow_two hF (k := 0) hs (near_refl _)
  have hs2 : (0 : ℝ) < powq prior.sigma 2 := by rw [powq_two]; positivity
  have e1 := near_rnd hF (near_div h0 h1 hl s2)
  have e2 : Near u 5 (n / var) (F.rnd (n / var)) := near_fl_op hF (by norm_num) _
  have p1 : 0 < (lit 1 : ℝ) / powq prior.sigma 2 := by simp only [lit_real]; positivity
  have e3 := near_fl_add hF p1.le (div_nonneg hn hv.le) e1 e2
  have p2 : 0 < (lit 1 : ℝ) / powq prior.sigma 2 + n / var := add_pos_of_pos_of_nonneg p1 (div_nonneg hn hv.le)
  have e4 := near_rnd hF (near_div h0 h1 hl e3)
  have p3 : 0 < (lit 1 : ℝ) / ((lit 1 : ℝ) / powq prior.sigma 2 + n / var) := by
    have : (0 : ℝ) < lit 1 := by simp
    positivity
  have e5 := near_pow_half hF p3 e4
  exact near_bound' h0 h1 e5 (by norm_num) hu

/-- C90 normal with known variance: the posterior mean, one call. The error is a fraction of the weighted sizes of
the prior mean and the data, not of the result (which may be zero by cancellation). -/
theorem C90_normal_known_variance_mu (hu : 24 * u ≤ 1) (x_total n var : ℝ) (prior : Normal ℝ) (hs : 0 < prior.sigma)
    (hn : 0 ≤ n) (hv : 0 < var) :
    |(normal_known_variance (⟨x_total⟩ : Fl F) ⟨n⟩ ⟨var⟩ (fmap Fl.mk prior)).mu.val -
        (normal_known_variance x_total n var prior).mu| ≤
      24 * u * ((|prior.mu| / prior.sigma ^ 2 + |x_total| / var) / (1 / prior.sigma ^ 2 + n / var)) := by
  have h0 := hF.u_nonneg
  have h1 := hF.u_le
  have hl : Near u 1 (lit 1 : ℝ) (F.rnd ((1 : ℚ) : ℝ)) := near_lit hF 1
  have s2 : Near u 3 (powq prior.sigma 2) (F.pow prior.sigma 2) := near_pow_two hF (k := 0) hs (near_refl _)
  have hs2 : (0 : ℝ) < powq prior.sigma 2 := by rw [powq_two]; positivity
  have e1 := near_rnd hF (near_div h0 h1 hl s2)
  have e2 : Near u 5 (n / var) (F.rnd (n / var)) := near_fl_op hF (by norm_num) _
  have p1 : 0 < (lit 1 : ℝ) / powq prior.sigma 2 := by simp only [lit_real]; positivity
  have e3 := near_fl_add hF p1.le (div_nonneg hn hv.le) e1 e2
  have p2 : 0 < (lit 1 : ℝ) / powq prior.sigma 2 + n / var := add_pos_of_pos_of_nonneg p1 (div_nonneg hn hv.le)
  have a1 := near_rnd hF (near_div h0 h1 (near_refl prior.mu) s2)
  have a2 : Near u 4 (x_total / var) (F.rnd (x_total / var)) := near_fl_op hF (by norm_num) _
  -- the numerator is rounded once more, then divided and rounded: one common factor for both summands
  obtain ⟨t, tl, tr, te⟩ := near_fl_op hF (k := 1) le_rfl
    (F.rnd (prior.mu / F.pow prior.sigma 2) + F.rnd (x_total / var))
  set den := F.rnd (F.rnd (F.rnd ((1 : ℚ) : ℝ) / F.pow prior.sigma 2) + F.rnd (n / var)) with hden
  have hq : Near u (6 + 1) ((F.rnd (F.rnd (prior.mu / F.pow prior.sigma 2) + F.rnd (x_total / var))) /
      ((lit 1 : ℝ) / powq prior.sigma 2 + n / var))
      (F.rnd (F.rnd (F.rnd (prior.mu / F.pow prior.sigma 2) + F.rnd (x_total / var)) / den)) := by
    have := near_rnd hF (near_div h0 h1 (near_refl
      (F.rnd (F.rnd (prior.mu / F.pow prior.sigma 2) + F.rnd (x_total / var)))) e3)
    simpa using this
  obtain ⟨s, sl, sr, se⟩ := hq
  have hval : (normal_known_variance (⟨x_total⟩ : Fl F) ⟨n⟩ ⟨var⟩ (fmap Fl.mk prior)).mu.val =
      F.rnd (F.rnd (F.rnd (prior.mu / F.pow prior.sigma 2) + F.rnd (x_total / var)) / den) := rfl
  have hts : Near u 8 1 (t * s) := by
    have := near_mul h0 h1 (⟨t, tl, tr, (one_mul t).symm⟩ : Near u 1 1 t) (⟨s, sl, sr, (one_mul s).symm⟩ : Near u 7 1 s)
    simpa using this
  have b1 := near_mul h0 h1 a1 hts
  have b2 := near_mul h0 h1 a2 hts
  rw [mul_one] at b1 b2
  have c1 := near_bound' h0 h1 b1 (by norm_num) hu
  have c2 := near_bound' h0 h1 b2 (by norm_num) hu
  rw [RelError] at c1 c2
  rw [hval, se, te]
  have hmu : (normal_known_variance x_total n var prior).mu =
      (prior.mu / powq prior.sigma 2 + x_total / var) / ((lit 1 : ℝ) / powq prior.sigma 2 + n / var) := rfl
  rw [hmu]
  set D := (lit 1 : ℝ) / powq prior.sigma 2 + n / var with hD
  have hD' : (1 : ℝ) / prior.sigma ^ 2 + n / var = D := by rw [hD, powq_two, lit_real, Rat.cast_one]
  rw [hD']
  have hdiff : (F.rnd (prior.mu / F.pow prior.sigma 2) + F.rnd (x_total / var)) * t / D * s -
      (prior.mu / powq prior.sigma 2 + x_total / var) / D =
      ((F.rnd (prior.mu / F.pow prior.sigma 2) * (t * s) - prior.mu / powq prior.sigma 2) +
        (F.rnd (x_total / var) * (t * s) - x_total / var)) / D := by
    field_simp
    ring
  rw [hdiff, abs_div, abs_of_pos p2, ← mul_div_assoc]
  refine div_le_div_of_nonneg_right ?_ p2.le
  refine (abs_add_le _ _).trans ?_
  rw [abs_div, abs_of_pos hs2] at c1
  rw [abs_div, abs_of_pos hv] at c2
  rw [← powq_two prior.sigma, mul_add]
  exact add_le_add c1 c2

/-- C90 normal with known variance: the predictive distribution, one call -/
theorem C90_normal_known_variance_predictive (hu : 14 * u ≤ 1) (var : ℝ) (d : Normal ℝ) (hs : 0 < d.sigma)
    (hv : 0 < var) :
    Off (14 * u) (normal_known_variance_predictive var d)
      (normal_known_variance_predictive (⟨var⟩ : Fl F) (fmap Fl.mk d)) := by
  have h0 := hF.u_nonneg
  have h1 := hF.u_le
  have s2 : Near u 3 (powq d.sigma 2) (F.pow d.sigma 2) := near_pow_two hF (k := 0) hs (near_refl _)
  have hs2 : (0 : ℝ) < powq d.sigma 2 := by rw [powq_two]; positivity
  have e1 := near_fl_add hF hv.le hs2.le (near_exact hF var 3) s2
  have e2 := near_pow_half hF (add_pos hv hs2) e1
  exact ⟨near_bound' h0 h1 (near_exact hF d.mu 0) (by norm_num) hu, near_bound' h0 h1 e2 (by norm_num) hu⟩

/-- C90 normal with unknown mean and variance: the predictive Student t, one call -/
theorem C90_normal_predictive {M : Type} (hu : 16 * u ≤ 1) (d : NormalGamma ℝ) (hl : 0 < d.lam) (ha : 0 < d.alpha)
    (hb : 0 < d.beta) : ∃ (t : StudentT ℝ) (t' : StudentT (Fl F)),
      normal_predictive (.ng d : NormalPrior ℝ M) = .ok t ∧
      normal_predictive (.ng (fmap Fl.mk d) : NormalPrior (Fl F) M) = .ok t' ∧ Off (16 * u) t t' := by
  have h0 := hF.u_nonneg
  have h1 := hF.u_le
  have one : Near u 1 (lit 1 : ℝ) (F.rnd ((1 : ℚ) : ℝ)) := near_lit hF 1
  have two : Near u 1 (lit 2 : ℝ) (F.rnd ((2 : ℚ) : ℝ)) := near_lit hF 2
  have p1 : (0 : ℝ) < lit 1 := by simp
  have e1 := near_fl_add hF hl.le p1.le (near_exact hF d.lam 1) one
  have e2 := near_rnd hF (near_mul h0 h1 (near_refl d.beta) e1)
  have e3 := near_rnd hF (near_mul h0 h1 (near_refl d.lam) (near_refl d.alpha))
  have e4 := near_rnd hF (near_div h0 h1 e2 e3)
  have e5 := near_pow_half hF (div_pos (mul_pos hb (add_pos hl p1)) (mul_pos hl ha)) e4
  have e6 := near_rnd hF (near_mul h0 h1 two (near_refl d.alpha))
  exact ⟨_, _, rfl, rfl, near_bound' h0 h1 (near_exact hF d.mu 0) (by norm_num) hu,
    near_bound' h0 h1 e5 (by norm_num) hu, near_bound' h0 h1 e6 (by norm_num) hu⟩

/-- C90 normal with known mean: the predictive Student t, one call -/
theorem C90_normal_known_mean_predictive (hu : 8 * u ≤ 1) (mu : ℝ) (d : InverseGamma ℝ) (ha : 0 < d.alpha)
    (hb : 0 < d.beta) :
    Off (8 * u) (normal_known_mean_predictive mu (.inverseGamma d))
      (normal_known_mean_predictive (⟨mu⟩ : Fl F) (.inverseGamma (fmap Fl.mk d))) := by
  have h0 := hF.u_nonneg
  have h1 := hF.u_le
  have two : Near u 1 (lit 2 : ℝ) (F.rnd ((2 : ℚ) : ℝ)) := near_lit hF 2
  have e4 := near_rnd hF (near_div h0 h1 (near_refl d.beta) (near_refl d.alpha))
  have e5 := near_pow_half hF (div_pos hb ha) e4
  have e6 := near_rnd hF (near_mul h0 h1 two (near_refl d.alpha))
  exact ⟨near_bound' h0 h1 (near_exact hF mu 0) (by norm_num) hu,
    near_bound' h0 h1 e5 (by norm_num) hu, near_bound' h0 h1 e6 (by norm_num) hu⟩

/-- C90 categorical and multinomial: count vectors, one after the other -/
theorem dirichlet_near {I : Type} (batches : List (I → ℝ)) (hb : ∀ b ∈ batches, ∀ i, 0 ≤ b i) (k : ℕ) (a : I → ℝ)
    (a' : I → Fl F) (ha : ∀ i, 0 ≤ a i) (h : ∀ i, Near u k (a i) (a' i).val) :
    ∃ post : Dirichlet (I → Fl F),
      batches.foldlM (fun (d : Dirichlet (I → Fl F)) b => multinomial_dirichlet (fun i => ⟨b i⟩) d) ⟨a'⟩ = .ok post ∧
      ∀ i, Near u (k + batches.length) (a i + (batches.map (· i)).sum) (post.alpha i).val := by
  induction batches generalizing k a a' with
  | nil => exact ⟨⟨a'⟩, rfl, by simpa using h⟩
  | cons b bs ih =>
    have hb0 := hb b (by simp)
    obtain ⟨post, h1, h2⟩ := ih (fun c hc => hb c (List.mem_cons_of_mem _ hc)) (k + 1) (fun i => a i + b i)
      (fun i => ⟨F.rnd ((a' i).val + b i)⟩) (fun i => add_nonneg (ha i) (hb0 i))
      fun i => near_fl_add hF (ha i) (hb0 i) (h i) (near_exact hF _ _)
    refine ⟨post, h1, fun i => ?_⟩
    have := h2 i
    rw [List.length_cons, ← Nat.add_assoc, Nat.add_right_comm, List.map_cons, List.sum_cons, ← add_assoc]
    exact this

/-- C90 multinomial -/
theorem C90_multinomial_dirichlet {I : Type} (batches : List (I → ℝ)) (prior : Dirichlet (I → ℝ))
    (hp : ∀ i, 0 ≤ prior.alpha i) (hb : ∀ b ∈ batches, ∀ i, 0 ≤ b i) (hN : 2 * batches.length * u ≤ 1) :
    ∃ post : Dirichlet (I → Fl F),
      batches.foldlM (fun (d : Dirichlet (I → Fl F)) b => multinomial_dirichlet (fun i => ⟨b i⟩) d)
        ⟨fun i => ⟨prior.alpha i⟩⟩ = .ok post ∧
      ∀ i, RelError (2 * batches.length * u) (prior.alpha i + (batches.map (· i)).sum) (post.alpha i).val := by
  obtain ⟨post, h1, h2⟩ := dirichlet_near hF batches hb 0 prior.alpha (fun i => ⟨prior.alpha i⟩) hp
    fun i => near_refl _
  exact ⟨post, h1, fun i => near_bound' hF.u_nonneg hF.u_le (h2 i) (by simp) hN⟩

/-- C90 categorical -/
theorem C90_categorical_dirichlet {I : Type} (batches : List (I → ℝ)) (prior : Dirichlet (I → ℝ))
    (hp : ∀ i, 0 ≤ prior.alpha i) (hb : ∀ b ∈ batches, ∀ i, 0 ≤ b i) (hN : 2 * batches.length * u ≤ 1) :
    ∃ post : Dirichlet (I → Fl F),
      batches.foldlM (fun (d : Dirichlet (I → Fl F)) b => categorical_dirichlet (fun i => ⟨b i⟩) d)
        ⟨fun i => ⟨prior.alpha i⟩⟩ = .ok post ∧
      ∀ i, RelError (2 * batches.length * u) (prior.alpha i + (batches.map (· i)).sum) (post.alpha i).val :=
  C90_multinomial_dirichlet hF batches prior hp hb hN

end

/-- Python floats: a million batches of binomial data cost at most ten digits -/
example (batches : List (ℝ × ℝ)) (hlen : batches.length = 10 ^ 6) (hb : ∀ b ∈ batches, 0 ≤ b.2 ∧ b.2 ≤ b.1) :
    Off (10 ^ (-9 : ℤ) : ℝ)
      (binomial_beta (batches.map Prod.fst).sum (batches.map Prod.snd).sum (⟨1 / 10, 3⟩ : Beta ℝ))
      (batches.foldl (fun (d : Beta (Fl (binary 53))) b => binomial_beta ⟨b.1⟩ ⟨b.2⟩ d)
        (fmap Fl.mk (⟨1 / 10, 3⟩ : Beta ℝ))) := by
  have h := C90_binomial_beta (binary_accurate (p := 53) (by norm_num)) batches (⟨1 / 10, 3⟩ : Beta ℝ)
    ⟨by norm_num, by norm_num⟩ hb (by rw [hlen]; norm_num)
  refine rel_mono (fun x y hxy => hxy.trans ?_) h
  rw [hlen]
  gcongr
  norm_num

/-- the float hypotheses of the one-call theorems hold for Python floats -/
example : Accurate (1 / 2 ^ 53) (binary 53).rnd (binary 53).pow ∧ (24 * (1 / 2 ^ 53) : ℝ) ≤ 1 :=
  ⟨binary_accurate (by norm_num), by norm_num⟩

end Conj
