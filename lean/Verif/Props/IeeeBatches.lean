import Verif.Lemmas.IeeeSize
import Verif.Props.FloatError

/-!
# Batch after batch in double precision (C109)

Sums of doubles of any size: no lower bound on the numbers, and the only upper bound is on the totals. With C89 and C90
this bounds the error of posteriors computed with `np.float64` over any number of batches up to `2 ^ 52`.
-/

namespace Conj

open Spec

/-- `Rep` on floats -/
theorem rep_add_fl {a b : F64} {x y : Fl (binary 53)} (ha : Rep a x.val) (hb : Rep b y.val)
    (h : |x.val + y.val| ≤ 2 ^ 1023) : Rep (a + b) (x + y).val := rep_add ha hb h

theorem rep_sub_fl {a b : F64} {x y : Fl (binary 53)} (ha : Rep a x.val) (hb : Rep b y.val)
    (h : |x.val - y.val| ≤ 2 ^ 1023) : Rep (a - b) (x - y).val := rep_sub ha hb h

theorem le_two_mul_of_off {ε x y : ℝ} (h : RelError ε x y) (hx : 0 ≤ x) (hε : ε ≤ 1) : |y| ≤ 2 * x := by
  unfold RelError at h
  rw [abs_of_nonneg hx] at h
  have h1 : ε * x ≤ 1 * x := by gcongr
  have h2 := abs_sub_abs_le_abs_sub y x
  rw [abs_of_nonneg hx] at h2
  linarith

theorem double_bound {s x S T : ℝ} (hs : |s| ≤ 2 * S) (hx : |x| ≤ 2 * T) (hT : S + T ≤ 2 ^ 1022) : |s + x| ≤ 2 ^ 1023 := by
  have h := abs_add_le s x
  have e : (2 : ℝ) ^ 1023 = 2 * 2 ^ 1022 := by rw [pow_succ' (2 : ℝ) 1022]
  rw [e]
  generalize (2 : ℝ) ^ 1022 = B at hT ⊢
  linarith

/-- both parameters, after the batches, are the same numbers -/
theorem fold_doubles {D : Type → Type} [LawfulParams D] {B : Type} {d0 : D ℝ} (f : D F64 → B → D F64)
    (g : D (Fl (binary 53)) → B → D (Fl (binary 53))) (Good : List B → Prop)
    (hstep : ∀ bs b d, Good (bs ++ [b]) → Params.Rel (fun v (y : Fl (binary 53)) => Rep v y.val) d (bs.foldl g (fmap Fl.mk d0)) →
      Params.Rel (fun v (y : Fl (binary 53)) => Rep v y.val) (f d b) (g (bs.foldl g (fmap Fl.mk d0)) b))
    (hpre : ∀ bs b, Good (bs ++ [b]) → Good bs)
    (h0 : Params.Rel (fun v (y : Fl (binary 53)) => Rep v y.val) (fmap F64.ofReal d0) (fmap Fl.mk d0)) (bs : List B)
    (h : Good bs) : SameNumbers (bs.foldl f (fmap F64.ofReal d0)) (bs.foldl g (fmap Fl.mk d0)) := by
  refine rel_mono (fun v y h => Rep.value h) ?_
  induction bs using List.reverseRecOn with
  | nil => exact h0
  | append_singleton bs b ih =>
    rw [List.foldl_append, List.foldl_append]
    exact hstep bs b _ h (ih (hpre _ _ h))

/-- a batch of two totals that are doubles and not negative -/
def Spec.DoubleBatch (b : ℝ × ℝ) : Prop := IsDouble b.1 ∧ IsDouble b.2 ∧ 0 ≤ b.1 ∧ 0 ≤ b.2

theorem few_le {N : ℕ} (h : N + 1 ≤ 2 ^ 52) : 2 * ((N + 1) * (1 / 2 ^ 53 : ℝ)) ≤ 1 := by
  have : ((N : ℝ) + 1) ≤ 2 ^ 52 := by exact_mod_cast h
  calc 2 * (((N : ℝ) + 1) * (1 / 2 ^ 53)) ≤ 2 * (2 ^ 52 * (1 / 2 ^ 53)) := by gcongr
    _ ≤ 1 := by norm_num

/-- C109 Poisson, batch after batch -/
theorem C109_poisson_gamma_batches (batches : List (ℝ × ℝ)) (prior : Gamma ℝ) (hp : Params.All IsDouble prior)
    (hp0 : Params.All (0 ≤ ·) prior) (hb : ∀ b ∈ batches, DoubleBatch b) (hN : batches.length + 1 ≤ 2 ^ 52)
    (h1 : prior.alpha + (batches.map Prod.fst).sum ≤ 2 ^ 1022) (h2 : prior.beta + (batches.map Prod.snd).sum ≤ 2 ^ 1022) :
    SameNumbers
      (batches.foldl (fun d b => poisson_gamma (F64.ofReal b.1) (F64.ofReal b.2) d) (fmap F64.ofReal prior))
      (batches.foldl (fun d b => poisson_gamma ⟨b.1⟩ ⟨b.2⟩ d) (fmap Fl.mk prior)) := by
  refine fold_doubles (d0 := prior) _ _ (fun bs => (∀ b ∈ bs, DoubleBatch b) ∧ bs.length + 1 ≤ 2 ^ 52 ∧
    prior.alpha + (bs.map Prod.fst).sum ≤ 2 ^ 1022 ∧ prior.beta + (bs.map Prod.snd).sum ≤ 2 ^ 1022) ?_ ?_
    (show _ ∧ _ from ⟨rep_ofReal hp.1, rep_ofReal hp.2⟩) _ ⟨hb, hN, h1, h2⟩
  · rintro bs b d ⟨hb, hN, h1, h2⟩ ⟨r1, r2⟩
    obtain ⟨b1, b2, b3, b4⟩ := hb b (by simp)
    have hN' : bs.length + 1 ≤ 2 ^ 52 := by rw [List.length_append] at hN; omega
    have hf := few_le hN'
    have hbs : ∀ c ∈ bs, 0 ≤ c.1 ∧ 0 ≤ c.2 := fun c hc => (hb c (by simp [hc])).2.2
    obtain ⟨o1, o2⟩ := C90_poisson_gamma (binary_accurate (p := 53) (by norm_num)) bs prior hp0 hbs hf
    have s1 : 0 ≤ (bs.map Prod.fst).sum := List.sum_nonneg fun x hx => by
      obtain ⟨c, hc, rfl⟩ := List.mem_map.1 hx; exact (hbs c hc).1
    have s2 : 0 ≤ (bs.map Prod.snd).sum := List.sum_nonneg fun x hx => by
      obtain ⟨c, hc, rfl⟩ := List.mem_map.1 hx; exact (hbs c hc).2
    simp only [List.map_append, List.map_cons, List.map_nil, List.sum_append, List.sum_singleton, ← add_assoc] at h1 h2
    have t1 := le_two_mul_of_off o1 (by exact add_nonneg hp0.1 s1) (by linarith)
    have t2 := le_two_mul_of_off o2 (by exact add_nonneg hp0.2 s2) (by linarith)
    exact ⟨rep_add_fl (y := ⟨b.1⟩) r1 (rep_ofReal b1) (double_bound t1 (by rw [abs_of_nonneg b3]; linarith) h1),
      rep_add_fl (y := ⟨b.2⟩) r2 (rep_ofReal b2) (double_bound t2 (by rw [abs_of_nonneg b4]; linarith) h2)⟩
  · rintro bs b ⟨hb, hN, h1, h2⟩
    obtain ⟨b1, b2, b3, b4⟩ := hb b (by simp)
    simp only [List.map_append, List.map_cons, List.map_nil, List.sum_append, List.sum_singleton, List.length_append,
      List.length_singleton] at h1 h2 hN
    exact ⟨fun c hc => hb c (by simp [hc]), by omega, by linarith, by linarith⟩

/-- C109 exponential, batch after batch -/
theorem C109_exponential_gamma_batches (batches : List (ℝ × ℝ)) (prior : Gamma ℝ) (hp : Params.All IsDouble prior)
    (hp0 : Params.All (0 ≤ ·) prior) (hb : ∀ b ∈ batches, DoubleBatch b) (hN : batches.length + 1 ≤ 2 ^ 52)
    (h1 : prior.alpha + (batches.map Prod.fst).sum ≤ 2 ^ 1022) (h2 : prior.beta + (batches.map Prod.snd).sum ≤ 2 ^ 1022) :
    SameNumbers
      (batches.foldl (fun d b => exponential_gamma (F64.ofReal b.1) (F64.ofReal b.2) d) (fmap F64.ofReal prior))
      (batches.foldl (fun d b => exponential_gamma ⟨b.1⟩ ⟨b.2⟩ d) (fmap Fl.mk prior)) :=
  C109_poisson_gamma_batches batches prior hp hp0 hb hN h1 h2

/-- C109 binomial, batches `(n, x)` -/
theorem C109_binomial_beta_batches (batches : List (ℝ × ℝ)) (prior : Beta ℝ) (hp : Params.All IsDouble prior)
    (hp0 : Params.All (0 ≤ ·) prior) (hb : ∀ b ∈ batches, DoubleBatch b ∧ b.2 ≤ b.1) (hN : batches.length + 1 ≤ 2 ^ 52)
    (h : prior.alpha + prior.beta + (batches.map Prod.fst).sum ≤ 2 ^ 1022) :
    SameNumbers
      (batches.foldl (fun d b => binomial_beta (F64.ofReal b.1) (F64.ofReal b.2) d) (fmap F64.ofReal prior))
      (batches.foldl (fun d b => binomial_beta ⟨b.1⟩ ⟨b.2⟩ d) (fmap Fl.mk prior)) := by
  refine fold_doubles (d0 := prior) _ _ (fun bs => (∀ b ∈ bs, DoubleBatch b ∧ b.2 ≤ b.1) ∧ bs.length + 1 ≤ 2 ^ 52 ∧
    prior.alpha + prior.beta + (bs.map Prod.fst).sum ≤ 2 ^ 1022) ?_ ?_
    (show _ ∧ _ from ⟨rep_ofReal hp.1, rep_ofReal hp.2⟩) _ ⟨hb, hN, h⟩
  · rintro bs b d ⟨hb, hN, h⟩ ⟨r1, r2⟩
    obtain ⟨⟨b1, b2, b3, b4⟩, b5⟩ := hb b (by simp)
    have hN' : bs.length + 1 ≤ 2 ^ 52 := by rw [List.length_append] at hN; omega
    have hf := few_le hN'
    have hbs : ∀ c ∈ bs, 0 ≤ c.2 ∧ c.2 ≤ c.1 := fun c hc => ⟨(hb c (by simp [hc])).1.2.2.2, (hb c (by simp [hc])).2⟩
    obtain ⟨o1, o2⟩ := C90_binomial_beta (binary_accurate (p := 53) (by norm_num)) bs prior hp0 hbs hf
    have s2 : 0 ≤ (bs.map Prod.snd).sum := List.sum_nonneg fun x hx => by
      obtain ⟨c, hc, rfl⟩ := List.mem_map.1 hx; exact (hbs c hc).1
    have s3 : (bs.map Prod.snd).sum ≤ (bs.map Prod.fst).sum := List.sum_le_sum fun c hc => (hbs c hc).2
    simp only [List.map_append, List.map_cons, List.map_nil, List.sum_append, List.sum_singleton, ← add_assoc] at h
    have p1 : 0 ≤ prior.alpha := hp0.1
    have p2 : 0 ≤ prior.beta := hp0.2
    have t1 := le_two_mul_of_off o1 (by exact add_nonneg p1 s2) (by linarith)
    have t2 := le_two_mul_of_off o2 (by exact add_nonneg p2 (sub_nonneg.2 s3)) (by linarith)
    have hd : |b.1 - b.2| ≤ 2 ^ 1023 := by
      have := double_bound (s := b.1) (x := -b.2) (S := b.1 / 2) (T := b.2 / 2)
        (by rw [abs_of_nonneg b3]; linarith) (by rw [abs_neg, abs_of_nonneg b4]; linarith)
        (by refine le_trans ?_ h; linarith)
      rwa [← sub_eq_add_neg] at this
    have hr := (abs_roundBits (b.1 - b.2)).2.1
    rw [abs_of_nonneg (sub_nonneg.2 b5)] at hr
    refine ⟨rep_add_fl (y := ⟨b.2⟩) r1 (rep_ofReal b2)
        (double_bound t1 (T := b.2) (by rw [abs_of_nonneg b4]; linarith) (le_trans ?_ h)),
      rep_add_fl (y := ⟨b.1⟩ - ⟨b.2⟩) r2 (rep_sub_fl (x := ⟨b.1⟩) (y := ⟨b.2⟩) (rep_ofReal b1) (rep_ofReal b2) hd)
        (double_bound t2 (T := b.1 - b.2) hr (le_trans ?_ h))⟩
    · simp only [binomial_beta, getBinomialBetaPosteriorParams]; linarith
    · simp only [binomial_beta, getBinomialBetaPosteriorParams]; linarith
  · rintro bs b ⟨hb, hN, h⟩
    obtain ⟨⟨b1, b2, b3, b4⟩, b5⟩ := hb b (by simp)
    simp only [List.map_append, List.map_cons, List.map_nil, List.sum_append, List.sum_singleton, List.length_append,
      List.length_singleton] at h hN
    exact ⟨fun c hc => hb c (by simp [hc]), by omega, by linarith⟩

theorem isDouble_int (k : ℤ) (hk : |k| ≤ 2 ^ 53) : IsDouble (k : ℝ) := by
  have h2 : |(k : ℝ)| ≤ 2 ^ 53 := by exact_mod_cast hk
  exact ⟨h2.trans_lt (pow_lt_pow_right₀ (by norm_num) (by norm_num)), k, 0, hk, by norm_num, by simp⟩

/-- a flat prior and two batches, the first without events -/
example : SameNumbers
    ([((0 : ℝ), (3 : ℝ)), (7, 2)].foldl (fun d b => poisson_gamma (F64.ofReal b.1) (F64.ofReal b.2) d)
      (fmap F64.ofReal ⟨1, 1⟩))
    ([((0 : ℝ), (3 : ℝ)), (7, 2)].foldl (fun d b => poisson_gamma ⟨b.1⟩ ⟨b.2⟩ d) (fmap Fl.mk ⟨1, 1⟩)) := by
  have i := isDouble_int
  have big : (8 : ℝ) ≤ 2 ^ 1022 := le_trans (by norm_num : (8 : ℝ) ≤ 2 ^ 3) (pow_le_pow_right₀ (by norm_num) (by norm_num))
  have one : IsDouble 1 := by exact_mod_cast i 1 (by norm_num)
  refine C109_poisson_gamma_batches _ ⟨1, 1⟩ ⟨one, one⟩ ⟨zero_le_one, zero_le_one⟩ ?_ (by norm_num) ?_ ?_
  · intro b hb
    simp only [List.mem_cons, List.not_mem_nil, or_false] at hb
    rcases hb with rfl | rfl
    · exact ⟨by exact_mod_cast i 0 (by norm_num), by exact_mod_cast i 3 (by norm_num), le_rfl, by norm_num⟩
    · exact ⟨by exact_mod_cast i 7 (by norm_num), by exact_mod_cast i 2 (by norm_num), by norm_num, by norm_num⟩
  · refine le_trans ?_ big; norm_num
  · refine le_trans ?_ big; norm_num

end Conj
