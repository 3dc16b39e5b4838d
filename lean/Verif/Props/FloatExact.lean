import Verif.Lemmas.Rounding
import Verif.Params
import Verif.Props.Sequential

/-!
# Count data in floating point (C89)

Floats have `p` significant bits (53 for Python floats).  If the prior's parameters and the data have at
most `k` bits after the point and the totals stay below `2 ^ p / 2 ^ k`, then updating batch after batch in
floating point makes no rounding error at all: the result is, bit for bit, the ideal posterior of the pooled
data.  With `k = 0` these are integer counts up to `2 ^ 53`, with `k = 1` priors like `Beta(0.5, 0.5)` are
included.
-/

namespace Conj

open Spec

variable {F : FloatArith} {p k : ℕ}

/-- carry an exactness invariant along a fold -/
theorem fold_exact {D : Type → Type} [Params D] {B : Type} (f : D ℝ → B → D ℝ) (g : D (Fl F) → B → D (Fl F))
    (Inv : D ℝ → List B → Prop)
    (hstep : ∀ d b bs, Inv d (b :: bs) → g (fmap Fl.mk d) b = fmap Fl.mk (f d b) ∧ Inv (f d b) bs)
    (bs : List B) (d : D ℝ) (h : Inv d bs) : bs.foldl g (fmap Fl.mk d) = fmap Fl.mk (bs.foldl f d) := by
  induction bs generalizing d with
  | nil => rfl
  | cons b bs ih =>
    obtain ⟨h1, h2⟩ := hstep d b bs h
    rw [List.foldl_cons, List.foldl_cons, h1, ih _ h2]

theorem keep (hF : KeepsBits p F.rnd) {x : ℝ} (hx : FracBits k x) (h0 : 0 ≤ x) (hb : x ≤ 2 ^ p / 2 ^ k) :
    F.rnd x = x := keeps_fracBits hF hx (by rwa [abs_of_nonneg h0])

/-- both numbers of a batch have `k` bits after the point and are not negative -/
def Spec.GoodBatch (k : ℕ) (b : ℝ × ℝ) : Prop := FracBits k b.1 ∧ FracBits k b.2 ∧ 0 ≤ b.1 ∧ 0 ≤ b.2

/-- both parameters have `k` bits after the point and are not negative -/
def Spec.GoodParam (k : ℕ) (x : ℝ) : Prop := FracBits k x ∧ 0 ≤ x

theorem sum_fst_nonneg {bs : List (ℝ × ℝ)} (h : ∀ b ∈ bs, GoodBatch k b) : 0 ≤ (bs.map Prod.fst).sum :=
  List.sum_nonneg fun x hx => by
    obtain ⟨b, hb, rfl⟩ := List.mem_map.1 hx
    exact (h b hb).2.2.1

theorem sum_snd_nonneg {bs : List (ℝ × ℝ)} (h : ∀ b ∈ bs, GoodBatch k b) : 0 ≤ (bs.map Prod.snd).sum :=
  List.sum_nonneg fun x hx => by
    obtain ⟨b, hb, rfl⟩ := List.mem_map.1 hx
    exact (h b hb).2.2.2

/-- C89 binomial: batches `(n, x)` -/
theorem C89_binomial_beta (hF : KeepsBits p F.rnd) (batches : List (ℝ × ℝ)) (prior : Beta ℝ)
    (hp : Params.All (GoodParam k) prior) (hb : ∀ b ∈ batches, GoodBatch k b ∧ b.2 ≤ b.1)
    (hmax : prior.alpha + prior.beta + (batches.map Prod.fst).sum ≤ 2 ^ p / 2 ^ k) :
    batches.foldl (fun (d : Beta (Fl F)) b => binomial_beta ⟨b.1⟩ ⟨b.2⟩ d) (fmap Fl.mk prior) =
      fmap Fl.mk (binomial_beta (batches.map Prod.fst).sum (batches.map Prod.snd).sum prior) := by
  rw [← C37_binomial_beta]
  refine fold_exact (fun d b => binomial_beta b.1 b.2 d) _ (fun d bs => Params.All (GoodParam k) d ∧
    (∀ b ∈ bs, GoodBatch k b ∧ b.2 ≤ b.1) ∧ d.alpha + d.beta + (bs.map Prod.fst).sum ≤ 2 ^ p / 2 ^ k) ?_ _ _
    ⟨hp, hb, hmax⟩
  rintro d b bs ⟨⟨⟨a1, a2⟩, b1, b2⟩, hbs, hm⟩
  obtain ⟨⟨n1, x1, n0, x0⟩, hle⟩ := hbs b (by simp)
  have hs := sum_fst_nonneg fun c hc => (hbs c (List.mem_cons_of_mem _ hc)).1
  rw [List.map_cons, List.sum_cons] at hm
  have e1 := keep hF (a1.add x1) (by linarith) (by linarith)
  have e2 := keep hF (n1.sub x1) (by linarith) (by linarith)
  have e3 := keep hF (b1.add (n1.sub x1)) (by linarith) (by linarith)
  refine ⟨?_, ⟨⟨a1.add x1, add_nonneg a2 x0⟩, b1.add (n1.sub x1), add_nonneg b2 (by linarith)⟩,
    fun c hc => hbs c (List.mem_cons_of_mem _ hc), ?_⟩
  · ext <;> simp [binomial_beta, getBinomialBetaPosteriorParams, fmap, e1, e2, e3]
  · simp only [binomial_beta, getBinomialBetaPosteriorParams]; linarith

/-- Python floats, a `Beta(0.5, 0.5)` prior, two batches of a million billion trials -/
example : [((10 ^ 15 : ℝ), (3 * 10 ^ 14 : ℝ)), (10 ^ 15, 7)].foldl
      (fun (d : Beta (Fl (binary 53))) b => binomial_beta ⟨b.1⟩ ⟨b.2⟩ d) (fmap Fl.mk (⟨1 / 2, 1 / 2⟩ : Beta ℝ)) =
    fmap Fl.mk (⟨3 * 10 ^ 14 + 7.5, 17 * 10 ^ 14 - 6.5⟩ : Beta ℝ) := by
  have h : ∀ n : ℕ, FracBits 1 (n : ℝ) := fracBits_nat 1
  have h2 : FracBits 1 (1 / 2) := ⟨1, by norm_num⟩
  rw [C89_binomial_beta (p := 53) (k := 1) (binary_keeps (by norm_num)) _ _
    ⟨⟨h2, by norm_num⟩, h2, by norm_num⟩ ?_ (by norm_num)]
  · congr 1
    ext <;> simp [binomial_beta, getBinomialBetaPosteriorParams] <;> norm_num
  · intro b hb
    simp only [List.mem_cons, List.not_mem_nil, or_false] at hb
    rcases hb with rfl | rfl
    · exact ⟨⟨by exact_mod_cast h (10 ^ 15), by exact_mod_cast h (3 * 10 ^ 14), by norm_num, by norm_num⟩, by norm_num⟩
    · exact ⟨⟨by exact_mod_cast h (10 ^ 15), by exact_mod_cast h 7, by norm_num, by norm_num⟩, by norm_num⟩

/-- C89 Bernoulli: single outcomes, one at a time. The literal `1` is exact. -/
theorem C89_bernoulli_beta (hF : KeepsBits p F.rnd) (xs : List ℝ) (prior : Beta ℝ)
    (hp : Params.All (GoodParam k) prior) (hb : ∀ x ∈ xs, x = 0 ∨ x = 1)
    (hmax : prior.alpha + prior.beta + xs.length ≤ 2 ^ p / 2 ^ k) :
    xs.foldl (fun (d : Beta (Fl F)) x => bernoulli_beta ⟨x⟩ d) (fmap Fl.mk prior) =
      fmap Fl.mk (binomial_beta xs.length xs.sum prior) := by
  rw [← C37_bernoulli_beta]
  refine fold_exact (fun d x => bernoulli_beta x d) _ (fun d xs => Params.All (GoodParam k) d ∧
    (∀ x ∈ xs, x = 0 ∨ x = 1) ∧ d.alpha + d.beta + xs.length ≤ 2 ^ p / 2 ^ k) ?_ _ _ ⟨hp, hb, hmax⟩
  rintro d x xs ⟨⟨⟨a1, a2⟩, b1, b2⟩, hbs, hm⟩
  have hx := hbs x (by simp)
  have hs : (0 : ℝ) ≤ xs.length := Nat.cast_nonneg _
  rw [List.length_cons] at hm; push_cast at hm
  have one : FracBits k 1 := by exact_mod_cast fracBits_nat k 1
  have x1 : FracBits k x := by
    rcases hx with rfl | rfl
    · exact_mod_cast fracBits_nat k 0
    · exact one
  have x0 : 0 ≤ x ∧ x ≤ 1 := by rcases hx with rfl | rfl <;> norm_num
  have e0 := keep hF one (by linarith) (by linarith)
  have e1 := keep hF (a1.add x1) (by linarith) (by linarith)
  have e2 := keep hF (one.sub x1) (by linarith) (by linarith)
  have e3 := keep hF (b1.add (one.sub x1)) (by linarith) (by linarith)
  refine ⟨?_, ⟨⟨by simpa [bernoulli_beta, binomial_beta, getBinomialBetaPosteriorParams] using a1.add x1, ?_⟩,
    by simpa [bernoulli_beta, binomial_beta, getBinomialBetaPosteriorParams] using b1.add (one.sub x1), ?_⟩,
    fun c hc => hbs c (List.mem_cons_of_mem _ hc), ?_⟩
  · ext <;> simp [bernoulli_beta, binomial_beta, getBinomialBetaPosteriorParams, fmap, e0, e1, e2, e3]
  all_goals simp only [bernoulli_beta, binomial_beta, getBinomialBetaPosteriorParams, lit_real, Rat.cast_one]; linarith

/-- C89 negative binomial: batches `(n, x)`, the known number of successes `r` a natural number -/
theorem C89_negative_binomial_beta (hF : KeepsBits p F.rnd) (r : ℕ) (batches : List (ℝ × ℝ)) (prior : Beta ℝ)
    (hp : Params.All (GoodParam k) prior) (hb : ∀ b ∈ batches, GoodBatch k b)
    (hmax : prior.alpha + prior.beta + r * (batches.map Prod.fst).sum + (batches.map Prod.snd).sum ≤ 2 ^ p / 2 ^ k) :
    batches.foldl (fun (d : Beta (Fl F)) b => negative_binomial_beta ⟨r⟩ ⟨b.1⟩ ⟨b.2⟩ d) (fmap Fl.mk prior) =
      fmap Fl.mk (negative_binomial_beta r (batches.map Prod.fst).sum (batches.map Prod.snd).sum prior) := by
  rw [← C37_negative_binomial_beta]
  refine fold_exact (fun d b => negative_binomial_beta (r : ℝ) b.1 b.2 d) _ (fun d bs => Params.All (GoodParam k) d ∧
    (∀ b ∈ bs, GoodBatch k b) ∧ d.alpha + d.beta + r * (bs.map Prod.fst).sum + (bs.map Prod.snd).sum ≤
      2 ^ p / 2 ^ k) ?_ _ _ ⟨hp, hb, hmax⟩
  rintro d b bs ⟨⟨⟨a1, a2⟩, b1, b2⟩, hbs, hm⟩
  obtain ⟨n1, x1, n0, x0⟩ := hbs b (by simp)
  have hbs' : ∀ c ∈ bs, GoodBatch k c := fun c hc => hbs c (List.mem_cons_of_mem _ hc)
  have hs := mul_nonneg (Nat.cast_nonneg (α := ℝ) r) (sum_fst_nonneg hbs')
  have hs' := sum_snd_nonneg hbs'
  have hrn := mul_nonneg (Nat.cast_nonneg (α := ℝ) r) n0
  rw [List.map_cons, List.sum_cons, List.map_cons, List.sum_cons, mul_add] at hm
  have e1 := keep hF (n1.nat_mul r) (by linarith) (by linarith)
  have e2 := keep hF (a1.add (n1.nat_mul r)) (by linarith) (by linarith)
  have e3 := keep hF (b1.add x1) (by linarith) (by linarith)
  refine ⟨?_, ⟨⟨a1.add (n1.nat_mul r), add_nonneg a2 hrn⟩, b1.add x1, add_nonneg b2 x0⟩, hbs', ?_⟩
  · ext <;> simp [negative_binomial_beta, fmap, e1, e2, e3]
  · simp only [negative_binomial_beta]; linarith

/-- C89 geometric: batches `(x_total, n)`. Counting from one, the total is at least the number of observations. -/
theorem C89_geometric_beta (hF : KeepsBits p F.rnd) (one_start : Bool) (batches : List (ℝ × ℝ)) (prior : Beta ℝ)
    (hp : Params.All (GoodParam k) prior)
    (hb : ∀ b ∈ batches, GoodBatch k b ∧ (one_start = true → b.2 ≤ b.1))
    (hmax : prior.alpha + prior.beta + (batches.map Prod.fst).sum + (batches.map Prod.snd).sum ≤ 2 ^ p / 2 ^ k) :
    batches.foldl (fun (d : Beta (Fl F)) b => geometric_beta ⟨b.1⟩ ⟨b.2⟩ d one_start) (fmap Fl.mk prior) =
      fmap Fl.mk (geometric_beta (batches.map Prod.fst).sum (batches.map Prod.snd).sum prior one_start) := by
  rw [← C37_geometric_beta]
  refine fold_exact (fun d b => geometric_beta b.1 b.2 d one_start) _ (fun d bs => Params.All (GoodParam k) d ∧
    (∀ b ∈ bs, GoodBatch k b ∧ (one_start = true → b.2 ≤ b.1)) ∧
    d.alpha + d.beta + (bs.map Prod.fst).sum + (bs.map Prod.snd).sum ≤ 2 ^ p / 2 ^ k) ?_ _ _ ⟨hp, hb, hmax⟩
  rintro d b bs ⟨⟨⟨a1, a2⟩, b1, b2⟩, hbs, hm⟩
  obtain ⟨⟨x1, n1, x0, n0⟩, hle⟩ := hbs b (by simp)
  have hbs' : ∀ c ∈ bs, GoodBatch k c ∧ (one_start = true → c.2 ≤ c.1) := fun c hc => hbs c (List.mem_cons_of_mem _ hc)
  have hs := sum_fst_nonneg fun c hc => (hbs' c hc).1
  have hs' := sum_snd_nonneg fun c hc => (hbs' c hc).1
  rw [List.map_cons, List.sum_cons, List.map_cons, List.sum_cons] at hm
  have e1 := keep hF (a1.add n1) (by linarith) (by linarith)
  have e2 := keep hF (b1.add x1) (by linarith) (by linarith)
  cases one_start
  · refine ⟨?_, ⟨⟨a1.add n1, add_nonneg a2 n0⟩, b1.add x1, add_nonneg b2 x0⟩, hbs', ?_⟩
    · ext <;> simp [geometric_beta, fmap, e1, e2]
    · simp only [geometric_beta, Bool.false_eq_true, if_false]; linarith
  · have hle := hle rfl
    have e3 := keep hF ((b1.add x1).sub n1) (by linarith) (by linarith)
    refine ⟨?_, ⟨⟨a1.add n1, add_nonneg a2 n0⟩, (b1.add x1).sub n1, ?_⟩, hbs', ?_⟩
    · ext <;> simp [geometric_beta, fmap, e1, e2, e3]
    all_goals simp only [geometric_beta, if_true]; linarith

/-- C89 Poisson: batches `(x_total, n)` -/
theorem C89_poisson_gamma (hF : KeepsBits p F.rnd) (batches : List (ℝ × ℝ)) (prior : Gamma ℝ)
    (hp : Params.All (GoodParam k) prior) (hb : ∀ b ∈ batches, GoodBatch k b)
    (h1 : prior.alpha + (batches.map Prod.fst).sum ≤ 2 ^ p / 2 ^ k)
    (h2 : prior.beta + (batches.map Prod.snd).sum ≤ 2 ^ p / 2 ^ k) :
    batches.foldl (fun (d : Gamma (Fl F)) b => poisson_gamma ⟨b.1⟩ ⟨b.2⟩ d) (fmap Fl.mk prior) =
      fmap Fl.mk (poisson_gamma (batches.map Prod.fst).sum (batches.map Prod.snd).sum prior) := by
  rw [← C37_poisson_gamma]
  refine fold_exact (fun d b => poisson_gamma b.1 b.2 d) _ (fun d bs => Params.All (GoodParam k) d ∧
    (∀ b ∈ bs, GoodBatch k b) ∧ d.alpha + (bs.map Prod.fst).sum ≤ 2 ^ p / 2 ^ k ∧
    d.beta + (bs.map Prod.snd).sum ≤ 2 ^ p / 2 ^ k) ?_ _ _ ⟨hp, hb, h1, h2⟩
  rintro d b bs ⟨⟨⟨a1, a2⟩, b1, b2⟩, hbs, hm, hm'⟩
  obtain ⟨x1, n1, x0, n0⟩ := hbs b (by simp)
  have hbs' : ∀ c ∈ bs, GoodBatch k c := fun c hc => hbs c (List.mem_cons_of_mem _ hc)
  have hs := sum_fst_nonneg hbs'
  have hs' := sum_snd_nonneg hbs'
  rw [List.map_cons, List.sum_cons] at hm hm'
  have e1 := keep hF (a1.add x1) (by linarith) (by linarith)
  have e2 := keep hF (b1.add n1) (by linarith) (by linarith)
  refine ⟨?_, ⟨⟨a1.add x1, add_nonneg a2 x0⟩, b1.add n1, add_nonneg b2 n0⟩, hbs', ?_⟩
  · ext <;> simp [poisson_gamma, getPoissonGammaPosteriorParams, fmap, e1, e2]
  · simp only [poisson_gamma, getPoissonGammaPosteriorParams]; constructor <;> linarith

/-- C89 exponential: batches `(x_total, n)`; waiting times with `k` bits after the point -/
theorem C89_exponential_gamma (hF : KeepsBits p F.rnd) (batches : List (ℝ × ℝ)) (prior : Gamma ℝ)
    (hp : Params.All (GoodParam k) prior) (hb : ∀ b ∈ batches, GoodBatch k b)
    (h1 : prior.alpha + (batches.map Prod.fst).sum ≤ 2 ^ p / 2 ^ k)
    (h2 : prior.beta + (batches.map Prod.snd).sum ≤ 2 ^ p / 2 ^ k) :
    batches.foldl (fun (d : Gamma (Fl F)) b => exponential_gamma ⟨b.1⟩ ⟨b.2⟩ d) (fmap Fl.mk prior) =
      fmap Fl.mk (exponential_gamma (batches.map Prod.fst).sum (batches.map Prod.snd).sum prior) :=
  C89_poisson_gamma hF batches prior hp hb h1 h2

/-- C89 Weibull: batches `(n, x_beta_total)` -/
theorem C89_weibull_inverse_gamma_known_shape (hF : KeepsBits p F.rnd) (batches : List (ℝ × ℝ))
    (prior : InverseGamma ℝ) (hp : Params.All (GoodParam k) prior) (hb : ∀ b ∈ batches, GoodBatch k b)
    (h1 : prior.alpha + (batches.map Prod.fst).sum ≤ 2 ^ p / 2 ^ k)
    (h2 : prior.beta + (batches.map Prod.snd).sum ≤ 2 ^ p / 2 ^ k) :
    batches.foldl (fun (d : InverseGamma (Fl F)) b => weibull_inverse_gamma_known_shape ⟨b.1⟩ ⟨b.2⟩ d)
        (fmap Fl.mk prior) =
      fmap Fl.mk (weibull_inverse_gamma_known_shape (batches.map Prod.fst).sum (batches.map Prod.snd).sum prior) := by
  rw [← C37_weibull]
  refine fold_exact (fun d b => weibull_inverse_gamma_known_shape b.1 b.2 d) _ (fun d bs =>
    Params.All (GoodParam k) d ∧ (∀ b ∈ bs, GoodBatch k b) ∧ d.alpha + (bs.map Prod.fst).sum ≤ 2 ^ p / 2 ^ k ∧
    d.beta + (bs.map Prod.snd).sum ≤ 2 ^ p / 2 ^ k) ?_ _ _ ⟨hp, hb, h1, h2⟩
  rintro d b bs ⟨⟨⟨a1, a2⟩, b1, b2⟩, hbs, hm, hm'⟩
  obtain ⟨x1, n1, x0, n0⟩ := hbs b (by simp)
  have hbs' : ∀ c ∈ bs, GoodBatch k c := fun c hc => hbs c (List.mem_cons_of_mem _ hc)
  have hs := sum_fst_nonneg hbs'
  have hs' := sum_snd_nonneg hbs'
  rw [List.map_cons, List.sum_cons] at hm hm'
  have e1 := keep hF (a1.add x1) (by linarith) (by linarith)
  have e2 := keep hF (b1.add n1) (by linarith) (by linarith)
  refine ⟨?_, ⟨⟨a1.add x1, add_nonneg a2 x0⟩, b1.add n1, add_nonneg b2 n0⟩, hbs', ?_⟩
  · ext <;> simp [weibull_inverse_gamma_known_shape, fmap, e1, e2]
  · simp only [weibull_inverse_gamma_known_shape]; constructor <;> linarith

/-- C89 gamma with known shape, a natural number: batches `(x_total, n)` -/
theorem C89_gamma_known_shape (hF : KeepsBits p F.rnd) (shape : ℕ) (batches : List (ℝ × ℝ)) (prior : Gamma ℝ)
    (hp : Params.All (GoodParam k) prior) (hb : ∀ b ∈ batches, GoodBatch k b)
    (h1 : prior.alpha + shape * (batches.map Prod.snd).sum ≤ 2 ^ p / 2 ^ k)
    (h2 : prior.beta + (batches.map Prod.fst).sum ≤ 2 ^ p / 2 ^ k) :
    batches.foldl (fun (d : Gamma (Fl F)) b => gamma_known_shape ⟨b.1⟩ ⟨b.2⟩ ⟨shape⟩ d) (fmap Fl.mk prior) =
      fmap Fl.mk (gamma_known_shape (batches.map Prod.fst).sum (batches.map Prod.snd).sum shape prior) := by
  rw [← C37_gamma_known_shape]
  refine fold_exact (fun d b => gamma_known_shape b.1 b.2 (shape : ℝ) d) _ (fun d bs => Params.All (GoodParam k) d ∧
    (∀ b ∈ bs, GoodBatch k b) ∧ d.alpha + shape * (bs.map Prod.snd).sum ≤ 2 ^ p / 2 ^ k ∧
    d.beta + (bs.map Prod.fst).sum ≤ 2 ^ p / 2 ^ k) ?_ _ _ ⟨hp, hb, h1, h2⟩
  rintro d b bs ⟨⟨⟨a1, a2⟩, b1, b2⟩, hbs, hm, hm'⟩
  obtain ⟨x1, n1, x0, n0⟩ := hbs b (by simp)
  have hbs' : ∀ c ∈ bs, GoodBatch k c := fun c hc => hbs c (List.mem_cons_of_mem _ hc)
  have hs := sum_fst_nonneg hbs'
  have hs' := mul_nonneg (Nat.cast_nonneg (α := ℝ) shape) (sum_snd_nonneg hbs')
  have hrn := mul_nonneg (Nat.cast_nonneg (α := ℝ) shape) n0
  have nm : FracBits k (b.2 * shape) := by rw [mul_comm]; exact n1.nat_mul shape
  rw [List.map_cons, List.sum_cons] at hm hm'
  rw [mul_add, mul_comm _ b.2] at hm
  rw [mul_comm] at hrn
  have e1 := keep hF nm (by linarith) (by linarith)
  have e2 := keep hF (a1.add nm) (by linarith) (by linarith)
  have e3 := keep hF (b1.add x1) (by linarith) (by linarith)
  refine ⟨?_, ⟨⟨a1.add nm, add_nonneg a2 hrn⟩, b1.add x1, add_nonneg b2 x0⟩, hbs', ?_⟩
  · ext <;> simp [gamma_known_shape, fmap, e1, e2, e3]
  · simp only [gamma_known_shape]; constructor <;> linarith

/-- C89 categorical and multinomial: a list of count vectors, one after the other; both functions are the same
update. The counts of a category are added up exactly. -/
theorem dirichlet_exact {I : Type} (hF : KeepsBits p F.rnd) (batches : List (I → ℝ)) (prior : Dirichlet (I → ℝ))
    (hp : ∀ i, GoodParam k (prior.alpha i)) (hb : ∀ b ∈ batches, ∀ i, GoodParam k (b i))
    (hmax : ∀ i, prior.alpha i + (batches.map (· i)).sum ≤ 2 ^ p / 2 ^ k) :
    batches.foldlM (fun (d : Dirichlet (I → Fl F)) b => multinomial_dirichlet (fun i => ⟨b i⟩) d)
        ⟨fun i => ⟨prior.alpha i⟩⟩ =
      .ok (⟨fun i => ⟨prior.alpha i + (batches.map (· i)).sum⟩⟩ : Dirichlet (I → Fl F)) := by
  induction batches generalizing prior with
  | nil => simp only [List.foldlM_nil, List.map_nil, List.sum_nil, add_zero]; rfl
  | cons b bs ih =>
    have hb0 := hb b (by simp)
    have hbs : ∀ c ∈ bs, ∀ i, GoodParam k (c i) := fun c hc => hb c (List.mem_cons_of_mem _ hc)
    have hs : ∀ i, 0 ≤ (bs.map (· i)).sum := fun i => List.sum_nonneg fun x hx => by
      obtain ⟨c, hc, rfl⟩ := List.mem_map.1 hx
      exact (hbs c hc i).2
    simp only [List.map_cons, List.sum_cons] at hmax
    have e : ∀ i, F.rnd (prior.alpha i + b i) = prior.alpha i + b i := fun i => by
      have h1 := hp i; have h2 := hb0 i; have h3 := hs i; have h4 := hmax i
      exact keep hF (h1.1.add h2.1) (add_nonneg h1.2 h2.2) (by linarith)
    have hstep : multinomial_dirichlet (fun i => (⟨b i⟩ : Fl F)) ⟨fun i => ⟨prior.alpha i⟩⟩ =
        .ok ⟨fun i => ⟨prior.alpha i + b i⟩⟩ := by
      change Except.ok _ = _
      congr 2
      funext i
      ext
      exact e i
    rw [List.foldlM_cons, hstep]
    have := ih ⟨fun i => prior.alpha i + b i⟩ (fun i => ⟨(hp i).1.add (hb0 i).1, add_nonneg (hp i).2 (hb0 i).2⟩) hbs
      fun i => by have := hmax i; dsimp only; linarith
    refine this.trans ?_
    simp only [List.map_cons, List.sum_cons, add_assoc]

/-- C89 multinomial -/
theorem C89_multinomial_dirichlet {I : Type} (hF : KeepsBits p F.rnd) (batches : List (I → ℝ))
    (prior : Dirichlet (I → ℝ)) (hp : ∀ i, GoodParam k (prior.alpha i))
    (hb : ∀ b ∈ batches, ∀ i, GoodParam k (b i))
    (hmax : ∀ i, prior.alpha i + (batches.map (· i)).sum ≤ 2 ^ p / 2 ^ k) :
    batches.foldlM (fun (d : Dirichlet (I → Fl F)) b => multinomial_dirichlet (fun i => ⟨b i⟩) d)
        ⟨fun i => ⟨prior.alpha i⟩⟩ =
      .ok (⟨fun i => ⟨prior.alpha i + (batches.map (· i)).sum⟩⟩ : Dirichlet (I → Fl F)) :=
  dirichlet_exact hF batches prior hp hb hmax

/-- C89 categorical -/
theorem C89_categorical_dirichlet {I : Type} (hF : KeepsBits p F.rnd) (batches : List (I → ℝ))
    (prior : Dirichlet (I → ℝ)) (hp : ∀ i, GoodParam k (prior.alpha i))
    (hb : ∀ b ∈ batches, ∀ i, GoodParam k (b i))
    (hmax : ∀ i, prior.alpha i + (batches.map (· i)).sum ≤ 2 ^ p / 2 ^ k) :
    batches.foldlM (fun (d : Dirichlet (I → Fl F)) b => categorical_dirichlet (fun i => ⟨b i⟩) d)
        ⟨fun i => ⟨prior.alpha i⟩⟩ =
      .ok (⟨fun i => ⟨prior.alpha i + (batches.map (· i)).sum⟩⟩ : Dirichlet (I → Fl F)) :=
  dirichlet_exact hF batches prior hp hb hmax

/-- the bounds of the other theorems are met by ordinary counts in single precision too -/
example : Params.All (GoodParam 1) (⟨1 / 2, 3⟩ : Gamma ℝ) ∧ (∀ b ∈ [((12 : ℝ), (5 : ℝ)), (100, 40)], GoodBatch 1 b) ∧
    KeepsBits 24 (binary 24).rnd ∧ (1 / 2 : ℝ) + (12 + 100) ≤ 2 ^ 24 / 2 ^ 1 := by
  have h : ∀ n : ℕ, FracBits 1 (n : ℝ) := fracBits_nat 1
  refine ⟨⟨⟨⟨1, by norm_num⟩, by norm_num⟩, by exact_mod_cast h 3, by norm_num⟩, ?_, binary_keeps (by norm_num),
    by norm_num⟩
  intro b hb
  simp only [List.mem_cons, List.not_mem_nil, or_false] at hb
  rcases hb with rfl | rfl
  · exact ⟨by exact_mod_cast h 12, by exact_mod_cast h 5, by norm_num, by norm_num⟩
  · exact ⟨by exact_mod_cast h 100, by exact_mod_cast h 40, by norm_num, by norm_num⟩

/-! ## The bound cannot be raised -/

/-- one more than `2 ^ 53` rounds back -/
theorem two_pow_53_add_one : roundBits 53 ((2 : ℝ) ^ 53 + 1) = 2 ^ 53 := by
  rw [roundBits_eq 1 4503599627370496 (by norm_num) (by norm_num [abs_lt]) (Or.inr ⟨by norm_num, by decide⟩)]
  norm_num

/-- Python floats, total `2 ^ 53`: a count arriving one at a time is lost for ever, however long the stream. -/
theorem C89_poisson_gamma_stuck (k : ℕ) (beta n : Fl (binary 53)) :
    ((List.replicate k (⟨1⟩ : Fl (binary 53))).foldl (fun d x => poisson_gamma x n d) ⟨⟨2 ^ 53⟩, beta⟩).alpha =
      ⟨2 ^ 53⟩ := by
  induction k generalizing beta with
  | zero => rfl
  | succ k ih =>
    rw [List.replicate_succ, List.foldl_cons]
    have : poisson_gamma (⟨1⟩ : Fl (binary 53)) n ⟨⟨2 ^ 53⟩, beta⟩ = ⟨⟨2 ^ 53⟩, beta + n⟩ := by
      change (⟨⟨roundBits 53 (2 ^ 53 + 1)⟩, beta + n⟩ : Gamma (Fl (binary 53))) = _
      rw [two_pow_53_add_one]
    rw [this, ih]

/-- Past the bound pooling matters: two batches of one event each are not one batch of two events. -/
theorem C89_batches_disagree :
    ∃ prior : Gamma ℝ, prior.alpha = 2 ^ 53 ∧
      poisson_gamma (⟨1⟩ : Fl (binary 53)) ⟨1⟩ (poisson_gamma ⟨1⟩ ⟨1⟩ (fmap Fl.mk prior)) ≠
        poisson_gamma ⟨2⟩ ⟨2⟩ (fmap Fl.mk prior) := by
  refine ⟨⟨2 ^ 53, 1⟩, rfl, fun h => ?_⟩
  have ha : roundBits 53 (roundBits 53 ((2 : ℝ) ^ 53 + 1) + 1) = roundBits 53 (2 ^ 53 + 2) :=
    congrArg (fun d => Fl.val (Gamma.alpha d)) h
  have h2 : roundBits 53 ((2 : ℝ) ^ 53 + 2) = 2 ^ 53 + 2 := by
    rw [roundBits_eq 1 4503599627370497 (by norm_num) (by norm_num [abs_lt]) (Or.inl (by norm_num))]
    norm_num
  rw [two_pow_53_add_one, two_pow_53_add_one, h2] at ha
  norm_num at ha

end Conj
