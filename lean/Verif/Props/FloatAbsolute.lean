import Verif.Lemmas.FloatMag
import Verif.Props.FloatError
import Verif.Props.FloatValid

/-!
# Rounding errors of the updates that subtract (C90, C91)

When a parameter is computed with a subtraction, its error is not a small fraction of the result (`C91_normal_false`).
It is a small fraction of the sizes of what was added and subtracted.  From this follows when the computed
parameter is positive.
-/

namespace Conj

open Spec

variable {u : ℝ} {F : FloatArith}

section
variable (hF : Accurate u F.rnd F.pow)
include hF

theorem geometric_mag (batches : List (ℝ × ℝ)) (hb : ∀ b ∈ batches, 0 ≤ b.1 ∧ 0 ≤ b.2) (k : ℕ) (A : ℝ)
    (d : Beta ℝ) (d' : Beta (Fl F)) (ha : 0 ≤ d.alpha) (h1 : Near u k d.alpha d'.alpha.val)
    (h2 : Mag u k A d.beta d'.beta.val) :
    Near u (k + 2 * batches.length)
      (geometric_beta (batches.map Prod.fst).sum (batches.map Prod.snd).sum d true).alpha
      (batches.foldl (fun (d : Beta (Fl F)) b => geometric_beta ⟨b.1⟩ ⟨b.2⟩ d true) d').alpha.val ∧
    Mag u (k + 2 * batches.length) (A + (batches.map Prod.fst).sum + (batches.map Prod.snd).sum)
      (geometric_beta (batches.map Prod.fst).sum (batches.map Prod.snd).sum d true).beta
      (batches.foldl (fun (d : Beta (Fl F)) b => geometric_beta ⟨b.1⟩ ⟨b.2⟩ d true) d').beta.val := by
  have u0 := hF.u_nonneg
  have u1 := hF.u_le
  induction batches generalizing k A d d' with
  | nil => simpa [geometric_beta] using ⟨h1, h2⟩
  | cons b l ih =>
    obtain ⟨b1, b2⟩ := hb b (by simp)
    have e1 := mag_exact u0 u1 b.1 k
    have e2 := mag_exact u0 u1 b.2 (k + 1)
    rw [abs_of_nonneg b1] at e1
    rw [abs_of_nonneg b2] at e2
    have m := mag_fl_sub hF (mag_fl_add hF h2 e1) e2
    have n := near_mono u0 u1 (near_fl_add hF ha b2 h1 (near_exact hF b.2 k)) (Nat.le_succ _)
    obtain ⟨r1, r2⟩ := ih (fun c hc => hb c (by simp [hc])) (k + 2) (A + b.1 + b.2)
      (geometric_beta b.1 b.2 d true) (geometric_beta ⟨b.1⟩ ⟨b.2⟩ d' true) (add_nonneg ha b2) n m
    have es := C37_geometric_beta true (b :: l) d
    rw [List.foldl_cons, C37_geometric_beta] at es
    rw [es] at r1 r2
    rw [List.foldl_cons, List.length_cons]
    rw [show k + 2 * (l.length + 1) = k + 2 + 2 * l.length by ring]
    refine ⟨r1, ?_⟩
    have eA : A + ((b :: l).map Prod.fst).sum + ((b :: l).map Prod.snd).sum =
        A + b.1 + b.2 + (l.map Prod.fst).sum + (l.map Prod.snd).sum := by
      simp only [List.map_cons, List.sum_cons]; ring
    rw [eA]
    exact r2

/-- C90 geometric, counting from one: batches `(x_total, n)`. `beta` is off by a fraction of all that was added to
and subtracted from it. -/
theorem C90_geometric_beta_one_start (batches : List (ℝ × ℝ)) (prior : Beta ℝ) (hp : Params.All (0 ≤ ·) prior)
    (hb : ∀ b ∈ batches, 0 ≤ b.1 ∧ 0 ≤ b.2) (hN : 4 * batches.length * u ≤ 1) :
    let ideal := geometric_beta (batches.map Prod.fst).sum (batches.map Prod.snd).sum prior true
    let computed := batches.foldl (fun (d : Beta (Fl F)) b => geometric_beta ⟨b.1⟩ ⟨b.2⟩ d true) (fmap Fl.mk prior)
    RelError (4 * batches.length * u) ideal.alpha computed.alpha.val ∧
    |computed.beta.val - ideal.beta| ≤
      4 * batches.length * u * (prior.beta + (batches.map Prod.fst).sum + (batches.map Prod.snd).sum) := by
  have u0 := hF.u_nonneg
  have u1 := hF.u_le
  have m := mag_exact u0 u1 prior.beta 0
  rw [abs_of_nonneg hp.2] at m
  obtain ⟨r1, r2⟩ := geometric_mag hF batches hb 0 prior.beta prior (fmap Fl.mk prior) hp.1 (near_refl _) m
  exact ⟨near_bound' u0 u1 r1 (by push_cast; linarith) hN, mag_bound u0 u1 r2 (by push_cast; linarith) hN⟩

theorem pareto_mag (x_m L : ℝ) (ln : Fl F → Fl F) (hln : RelError (2 * u) L (ln ⟨x_m⟩).val)
    (batches : List (ℝ × ℝ)) (hb : ∀ b ∈ batches, 0 ≤ b.1) (k : ℕ) (hk : 3 ≤ k) (A : ℝ)
    (d : Gamma ℝ) (d' : Gamma (Fl F)) (ha : 0 ≤ d.alpha) (h1 : Near u k d.alpha d'.alpha.val)
    (h2 : Mag u k A d.beta d'.beta.val) :
    Near u (k + 2 * batches.length)
      (pareto_gamma (batches.map Prod.fst).sum (batches.map Prod.snd).sum x_m d (fun _ => L)).alpha
      (batches.foldl (fun (d : Gamma (Fl F)) b => pareto_gamma ⟨b.1⟩ ⟨b.2⟩ ⟨x_m⟩ d ln) d').alpha.val ∧
    Mag u (k + 2 * batches.length)
      (A + (batches.map fun b => |b.2|).sum + (batches.map Prod.fst).sum * |L|)
      (pareto_gamma (batches.map Prod.fst).sum (batches.map Prod.snd).sum x_m d (fun _ => L)).beta
      (batches.foldl (fun (d : Gamma (Fl F)) b => pareto_gamma ⟨b.1⟩ ⟨b.2⟩ ⟨x_m⟩ d ln) d').beta.val := by
  have u0 := hF.u_nonneg
  have u1 := hF.u_le
  induction batches generalizing k A d d' with
  | nil => simpa [pareto_gamma] using ⟨h1, h2⟩
  | cons b l ih =>
    have b1 := hb b (by simp)
    have e1 := mag_exact u0 u1 b.2 k
    have e2 := near_rnd hF (near_mul u0 u1 (near_refl b.1) (near_of_relError_two u0 u1 hln))
    have e3 := mag_mono u0 u1 (mag_of_near u0 u1 e2 (A := b.1 * |L|) (by rw [abs_mul, abs_of_nonneg b1]))
      (show 0 + 3 + 1 ≤ k + 1 by omega)
    have m := mag_fl_sub hF (mag_fl_add hF h2 e1) e3
    have n := near_mono u0 u1 (near_fl_add hF ha b1 h1 (near_exact hF b.1 k)) (Nat.le_succ _)
    obtain ⟨r1, r2⟩ := ih (fun c hc => hb c (by simp [hc])) (k + 2) (by omega) (A + |b.2| + b.1 * |L|)
      (pareto_gamma b.1 b.2 x_m d (fun _ => L)) (pareto_gamma ⟨b.1⟩ ⟨b.2⟩ ⟨x_m⟩ d' ln) (add_nonneg ha b1) n m
    have es := C37_pareto_gamma x_m (fun _ => L) (b :: l) d
    rw [List.foldl_cons, C37_pareto_gamma] at es
    rw [es] at r1 r2
    rw [List.foldl_cons, List.length_cons]
    rw [show k + 2 * (l.length + 1) = k + 2 + 2 * l.length by ring]
    refine ⟨r1, ?_⟩
    have eA : A + ((b :: l).map fun b => |b.2|).sum + ((b :: l).map Prod.fst).sum * |L| =
        A + |b.2| + b.1 * |L| + (l.map fun b => |b.2|).sum + (l.map Prod.fst).sum * |L| := by
      simp only [List.map_cons, List.sum_cons]; ring
    rw [eA]
    exact r2

/-- C90 Pareto: batches `(n, ln_x_total)`; the logarithm used is accurate to less than one unit in the last place. -/
theorem C90_pareto_gamma (x_m : ℝ) (ln : Fl F → Fl F) (hln : RelError (2 * u) (Real.log x_m) (ln ⟨x_m⟩).val)
    (batches : List (ℝ × ℝ)) (prior : Gamma ℝ) (hp : Params.All (0 ≤ ·) prior) (hb : ∀ b ∈ batches, 0 ≤ b.1)
    (hN : (4 * batches.length + 6) * u ≤ 1) :
    let ideal := pareto_gamma (batches.map Prod.fst).sum (batches.map Prod.snd).sum x_m prior Real.log
    let computed := batches.foldl (fun (d : Gamma (Fl F)) b => pareto_gamma ⟨b.1⟩ ⟨b.2⟩ ⟨x_m⟩ d ln) (fmap Fl.mk prior)
    RelError ((4 * batches.length + 6) * u) ideal.alpha computed.alpha.val ∧
    |computed.beta.val - ideal.beta| ≤ (4 * batches.length + 6) * u *
      (prior.beta + (batches.map fun b => |b.2|).sum + (batches.map Prod.fst).sum * |Real.log x_m|) := by
  have u0 := hF.u_nonneg
  have u1 := hF.u_le
  have m := mag_exact u0 u1 prior.beta 3
  rw [abs_of_nonneg hp.2] at m
  obtain ⟨r1, r2⟩ := pareto_mag hF x_m (Real.log x_m) ln hln batches hb 3 le_rfl prior.beta prior (fmap Fl.mk prior)
    hp.1 (near_exact hF _ 3) m
  exact ⟨near_bound' u0 u1 r1 (by push_cast; linarith) hN, mag_bound u0 u1 r2 (by push_cast; linarith) hN⟩

/-! ## Normal data with known mean -/

/-- What one batch adds to `beta`. -/
theorem known_mean_increment (hsq : AccurateSquare u F.pow) (mu x x2 n : ℝ) (hn : 0 ≤ n) (hx : x ^ 2 ≤ n * x2)
    (hx2 : 0 ≤ x2) :
    Mag u 7 (x2 + n * mu ^ 2) ((lit (1 / 2) : ℝ) * (x2 - lit 2 * mu * x + n * powq mu 2))
      (F.rnd (F.rnd (((1 / 2 : ℚ)) : ℝ) * F.rnd (F.rnd (x2 - F.rnd (F.rnd (F.rnd ((2 : ℚ) : ℝ) * mu) * x)) +
        F.rnd (n * F.pow mu 2)))) := by
  have u0 := hF.u_nonneg
  have u1 := hF.u_le
  have two : Near u 1 (lit 2 : ℝ) (F.rnd ((2 : ℚ) : ℝ)) := near_lit hF 2
  have half : Near u 1 (lit (1 / 2) : ℝ) (F.rnd ((1 / 2 : ℚ) : ℝ)) := near_lit hF (1 / 2)
  have e1 := near_rnd hF (near_mul u0 u1 (near_rnd hF (near_mul u0 u1 two (near_refl mu))) (near_refl x))
  have hxx := mag_exact u0 u1 x2 3
  have e2 := mag_fl_sub hF hxx (mag_of_near u0 u1 e1 le_rfl)
  have e3 := mag_rnd hF (mag_mul u0 u1 (mag_exact u0 u1 n 0) (mag_pow_two hF hsq (mag_exact u0 u1 mu 0)))
  have e4 := mag_fl_add hF e2 e3
  have e5 := mag_rnd hF (mag_mul u0 u1 (mag_of_near u0 u1 half le_rfl) e4)
  rw [powq_two]
  refine mag_weaken u0 u1 e5 ?_
  simp only [lit_real]
  rw [abs_of_nonneg hx2, abs_of_nonneg hn, abs_mul, abs_mul, abs_of_pos (show (0 : ℝ) < ((1 / 2 : ℚ) : ℝ) by norm_num),
    abs_of_pos (show (0 : ℝ) < ((2 : ℚ) : ℝ) by norm_num), sq_abs]
  push_cast
  have key : 2 * |mu| * |x| ≤ n * mu ^ 2 + x2 := by
    rcases hn.eq_or_lt with h | h
    · rw [← h, zero_mul] at hx
      have : x = 0 := by nlinarith
      rw [this, ← h]; simp [hx2]
    · refine le_of_mul_le_mul_left ?_ h
      rw [← sq_abs x] at hx
      rw [← sq_abs mu]
      nlinarith [sq_nonneg (n * |mu| - |x|)]
  linarith

theorem known_mean_mag (hsq : AccurateSquare u F.pow) (mu : ℝ) (batches : List (ℝ × ℝ × ℝ))
    (hb : ∀ b ∈ batches, 0 ≤ b.2.2 ∧ 0 ≤ b.2.1 ∧ b.1 ^ 2 ≤ b.2.2 * b.2.1) (k : ℕ) (hk : 7 ≤ k) (A : ℝ)
    (d : InverseGamma ℝ) (d' : InverseGamma (Fl F)) (ha : 0 ≤ d.alpha) (h1 : Near u k d.alpha d'.alpha.val)
    (h2 : Mag u k A d.beta d'.beta.val) :
    ∃ (ideal : InverseGamma ℝ) (computed : InverseGamma (Fl F)),
    normal_known_mean (batches.map (·.1)).sum (batches.map (·.2.1)).sum (batches.map (·.2.2)).sum mu
      (.inverseGamma d) = .inverseGamma ideal ∧
    batches.foldl (fun (d : VariancePrior (Fl F)) b => normal_known_mean ⟨b.1⟩ ⟨b.2.1⟩ ⟨b.2.2⟩ ⟨mu⟩ d)
      (.inverseGamma d') = .inverseGamma computed ∧
    Near u (k + batches.length) ideal.alpha computed.alpha.val ∧
    Mag u (k + batches.length) (A + (batches.map (·.2.1)).sum + (batches.map (·.2.2)).sum * mu ^ 2)
      ideal.beta computed.beta.val := by
  have u0 := hF.u_nonneg
  have u1 := hF.u_le
  induction batches generalizing k A d d' with
  | nil => exact ⟨_, _, rfl, rfl, by simpa [normalKnownMeanInverseGammaPrior] using ⟨h1, h2⟩⟩
  | cons b l ih =>
    obtain ⟨b1, b2, b3⟩ := hb b (by simp)
    have inc := mag_mono u0 u1 (known_mean_increment hF hsq mu b.1 b.2.1 b.2.2 b1 b3 b2) hk
    have m := mag_fl_add hF h2 inc
    have two : Near u 1 (lit 2 : ℝ) (F.rnd ((2 : ℚ) : ℝ)) := near_lit hF 2
    have hh := near_mono u0 u1 (near_rnd hF (near_div u0 u1 (near_refl b.2.2) two)) (show 0 + 1 + 1 ≤ k by omega)
    have p : 0 ≤ b.2.2 / (lit 2 : ℝ) := div_nonneg b1 (by simp)
    have n := near_fl_add hF ha p h1 hh
    obtain ⟨ideal, computed, r1, r2, r3, r4⟩ := ih (fun c hc => hb c (by simp [hc])) (k + 1) (by omega)
      (A + (b.2.1 + b.2.2 * mu ^ 2)) (normalKnownMeanInverseGammaPrior b.1 b.2.1 b.2.2 mu d)
      (normalKnownMeanInverseGammaPrior ⟨b.1⟩ ⟨b.2.1⟩ ⟨b.2.2⟩ ⟨mu⟩ d') (add_nonneg ha p) n m
    refine ⟨ideal, computed, ?_, ?_, ?_, ?_⟩
    · rw [← C37_normal_known_mean_inverse_gamma] at r1 ⊢
      rw [List.foldl_cons]
      exact r1
    · rw [List.foldl_cons]
      exact r2
    · rw [List.length_cons, show k + (l.length + 1) = k + 1 + l.length by ring]
      exact r3
    · rw [List.length_cons, show k + (l.length + 1) = k + 1 + l.length by ring]
      refine mag_weaken u0 u1 r4 (le_of_eq ?_)
      simp only [List.map_cons, List.sum_cons]; ring

/-- C90 normal with known mean, inverse gamma prior: batches `(x_total, x2_total, n)`. -/
theorem C90_normal_known_mean (hsq : AccurateSquare u F.pow) (mu : ℝ) (batches : List (ℝ × ℝ × ℝ))
    (hb : ∀ b ∈ batches, 0 ≤ b.2.2 ∧ 0 ≤ b.2.1 ∧ b.1 ^ 2 ≤ b.2.2 * b.2.1) (prior : InverseGamma ℝ)
    (hp : Params.All (0 ≤ ·) prior) (hN : (2 * batches.length + 14) * u ≤ 1) :
    ∃ (ideal : InverseGamma ℝ) (computed : InverseGamma (Fl F)),
    normal_known_mean (batches.map (·.1)).sum (batches.map (·.2.1)).sum (batches.map (·.2.2)).sum mu
      (.inverseGamma prior) = .inverseGamma ideal ∧
    batches.foldl (fun (d : VariancePrior (Fl F)) b => normal_known_mean ⟨b.1⟩ ⟨b.2.1⟩ ⟨b.2.2⟩ ⟨mu⟩ d)
      (.inverseGamma (fmap Fl.mk prior)) = .inverseGamma computed ∧
    RelError ((2 * batches.length + 14) * u) ideal.alpha computed.alpha.val ∧
    |computed.beta.val - ideal.beta| ≤ (2 * batches.length + 14) * u *
      (prior.beta + (batches.map (·.2.1)).sum + (batches.map (·.2.2)).sum * mu ^ 2) := by
  have u0 := hF.u_nonneg
  have u1 := hF.u_le
  have m := mag_exact u0 u1 prior.beta 7
  rw [abs_of_nonneg hp.2] at m
  obtain ⟨i, c, r1, r2, r3, r4⟩ := known_mean_mag hF hsq mu batches hb 7 le_rfl prior.beta prior (fmap Fl.mk prior)
    hp.1 (near_exact hF _ 7) m
  exact ⟨i, c, r1, r2, near_bound' u0 u1 r3 (by push_cast; linarith) hN,
    mag_bound u0 u1 r4 (by push_cast; linarith) hN⟩

/-- C90 normal with known mean, scaled inverse chi squared prior, one call: `sigma2`, an average, is off by a
fraction of the average size of what went into it. -/
theorem C90_normal_known_mean_chi_squared (hsq : AccurateSquare u F.pow) (hu : 44 * u ≤ 1) (mu x x2 n : ℝ)
    (hn : 0 ≤ n) (hx : x ^ 2 ≤ n * x2) (hx2 : 0 ≤ x2) (prior : ScaledInverseChiSquared ℝ) (hnu : 0 < prior.nu)
    (hs : 0 ≤ prior.sigma2) :
    ∃ (ideal : ScaledInverseChiSquared ℝ) (computed : ScaledInverseChiSquared (Fl F)),
    normal_known_mean x x2 n mu (.scaledInverseChiSquared prior) = .scaledInverseChiSquared ideal ∧
    normal_known_mean (⟨x⟩ : Fl F) ⟨x2⟩ ⟨n⟩ ⟨mu⟩ (.scaledInverseChiSquared (fmap Fl.mk prior)) =
      .scaledInverseChiSquared computed ∧
    RelError (44 * u) ideal.nu computed.nu.val ∧
    |computed.sigma2.val - ideal.sigma2| ≤
      44 * u * ((prior.nu * prior.sigma2 + 2 * x2 + 2 * n * mu ^ 2) / (prior.nu + n)) := by
  have u0 := hF.u_nonneg
  have u1 := hF.u_le
  have two : Near u 1 (lit 2 : ℝ) (F.rnd ((2 : ℚ) : ℝ)) := near_lit hF 2
  have p2 : (0 : ℝ) < lit 2 := by simp
  have ea := near_rnd hF (near_div u0 u1 (near_refl prior.nu) two)
  have eh := near_rnd hF (near_div u0 u1 (near_refl n) two)
  have ea' := near_fl_add hF (div_pos hnu p2).le (div_nonneg hn p2.le) ea eh
  have enu := near_rnd hF (near_mul u0 u1 ea' two)
  have eb := near_rnd hF (near_div u0 u1 (near_rnd hF (near_mul u0 u1 (near_refl prior.nu) (near_refl prior.sigma2)))
    two)
  have pb : 0 ≤ prior.nu * prior.sigma2 / (lit 2 : ℝ) := div_nonneg (mul_nonneg hnu.le hs) p2.le
  have mb := mag_mono u0 u1 (mag_of_near u0 u1 eb (A := prior.nu * prior.sigma2 / (lit 2 : ℝ))
    (by rw [abs_of_nonneg pb])) (show 0 + 0 + 1 + 1 + 1 ≤ 7 by norm_num)
  have m := mag_fl_add hF mb (known_mean_increment hF hsq mu x x2 n hn hx hx2)
  have m2 := mag_rnd hF (mag_mul u0 u1 m (mag_of_near u0 u1 two le_rfl))
  have m3 := mag_rnd hF (mag_div u0 u1 m2 enu)
  refine ⟨_, _, rfl, rfl, near_bound' u0 u1 enu (by norm_num) hu, ?_⟩
  refine mag_bound u0 u1 (mag_weaken u0 u1 m3 (le_of_eq ?_)) (by norm_num) hu
  simp only [lit_real]
  push_cast
  rw [abs_of_pos (show (0 : ℝ) < 2 by norm_num), abs_of_pos (show (0 : ℝ) < (prior.nu / 2 + n / 2) * 2 by positivity)]
  congr 1 <;> ring

/-! ## Normal data, mean and variance unknown -/

/-- C90 `normal`, the calculation shared by both prior classes, one call. -/
theorem normalUpdate_error (hsq : AccurateSquare u F.pow) (hu : 38 * u ≤ 1) (x x2 n mu nu alpha beta : ℝ)
    (hn : 0 < n) (hx : x ^ 2 ≤ n * x2) (hnu : 0 < nu) (ha : 0 ≤ alpha) (hb : 0 ≤ beta) :
    let ideal := normalUpdate x x2 n mu nu alpha beta
    let computed := normalUpdate (⟨x⟩ : Fl F) ⟨x2⟩ ⟨n⟩ ⟨mu⟩ ⟨nu⟩ ⟨alpha⟩ ⟨beta⟩
    |computed.1.val - ideal.1| ≤ 38 * u * ((nu * |mu| + |x|) / (nu + n)) ∧
    RelError (38 * u) ideal.2.1 computed.2.1.val ∧ RelError (38 * u) ideal.2.2.1 computed.2.2.1.val ∧
    |computed.2.2.2.val - ideal.2.2.2| ≤ 38 * u * (beta + nu * mu ^ 2 + x2) := by
  have u0 := hF.u_nonneg
  have u1 := hF.u_le
  have two : Near u 1 (lit 2 : ℝ) (F.rnd ((2 : ℚ) : ℝ)) := near_lit hF 2
  have half : Near u 1 (lit (1 / 2) : ℝ) (F.rnd ((1 / 2 : ℚ) : ℝ)) := near_lit hF (1 / 2)
  have p2 : (0 : ℝ) < lit 2 := by simp
  have hx2 : 0 ≤ x2 := by
    by_contra h
    push Not at h
    nlinarith [sq_nonneg x]
  have e1 := near_rnd hF (near_div u0 u1 (near_refl x) (near_refl n))
  have e2 := near_rnd hF (near_mul u0 u1 (near_refl n) e1)
  have e3 := near_mono u0 u1 (near_rnd hF (near_mul u0 u1 (near_refl nu) (near_refl mu))) (show 0 + 0 + 1 ≤ 2 by norm_num)
  have enu := near_fl_add hF hnu.le hn.le (near_refl nu) (near_refl n)
  have hpos : 0 < nu + n := by positivity
  have m1 := mag_fl_add hF (mag_of_near u0 u1 e3 le_rfl) (mag_of_near u0 u1 e2 le_rfl)
  have m2 := mag_rnd hF (mag_div u0 u1 m1 enu)
  have eA : (|nu * mu| + |n * (x / n)|) / |nu + n| = (nu * |mu| + |x|) / (nu + n) := by
    rw [abs_mul, abs_of_pos hnu, mul_div_cancel₀ _ hn.ne', abs_of_pos hpos]
  rw [eA] at m2
  have ealpha := near_fl_add hF ha (div_nonneg hn.le p2.le) (near_exact hF alpha 2)
    (near_rnd hF (near_div u0 u1 (near_refl n) two))
  have s1 := mag_rnd hF (mag_mul u0 u1 (mag_pow_two hF hsq (mag_exact u0 u1 mu 0)) (mag_exact u0 u1 nu 0))
  have s2 := mag_fl_add hF s1 (mag_exact u0 u1 x2 4)
  have s3 := mag_rnd hF (mag_mul u0 u1 (mag_pow_two hF hsq m2) (mag_of_near u0 u1 enu le_rfl))
  have s4 := mag_fl_sub hF (mag_mono u0 u1 s2 (show 4 + 1 ≤ 15 by norm_num)) s3
  have s5 := mag_rnd hF (mag_mul u0 u1 (mag_of_near u0 u1 half le_rfl) s4)
  have s6 := mag_fl_add hF (mag_exact u0 u1 beta _) s5
  refine ⟨mag_bound u0 u1 m2 (by norm_num) hu, near_bound' u0 u1 enu (by norm_num) hu,
    near_bound' u0 u1 ealpha (by norm_num) hu, ?_⟩
  have e : (normalUpdate x x2 n mu nu alpha beta).2.2.2 = beta + (lit (1 / 2) : ℝ) * (mu ^ 2 * nu + x2 -
      ((nu * mu + n * (x / n)) / (nu + n)) ^ 2 * (nu + n)) := by
    simp only [normalUpdate, powq_two]
  rw [e]
  refine mag_bound u0 u1 (mag_weaken u0 u1 s6 ?_) (by norm_num) hu
  rw [abs_of_nonneg hb, abs_of_nonneg hx2, abs_of_pos hnu, abs_of_pos hpos, sq_abs, lit_real,
    abs_of_pos (show (0 : ℝ) < ((1 / 2 : ℚ) : ℝ) by norm_num)]
  push_cast
  have key : ((nu * |mu| + |x|) / (nu + n)) ^ 2 * (nu + n) ≤ nu * mu ^ 2 + x2 := by
    rw [div_pow, div_mul_eq_mul_div, div_le_iff₀ (by positivity)]
    have hx' : |x| ^ 2 ≤ n * x2 := by rw [sq_abs]; exact hx
    have hm : |mu| ^ 2 = mu ^ 2 := sq_abs mu
    rw [← hm]
    obtain ⟨a, ha'⟩ : ∃ a, a = |mu| := ⟨_, rfl⟩
    obtain ⟨y, hy⟩ : ∃ y, y = |x| := ⟨_, rfl⟩
    rw [← ha', ← hy]
    rw [← hy] at hx'
    have c1 : (nu * a + y) ^ 2 ≤ (nu + n) * (nu * a ^ 2 + x2) := by
      refine le_of_mul_le_mul_left ?_ hn
      nlinarith [mul_nonneg hnu.le (sq_nonneg (n * a - y)), mul_le_mul_of_nonneg_left hx' hpos.le]
    nlinarith
  nlinarith

/-- C90 `normal` with a `NormalGamma` prior, one call. -/
theorem C90_normal {M : Type} (hsq : AccurateSquare u F.pow) (hu : 38 * u ≤ 1) (x x2 n : ℝ) (hn : 0 < n)
    (hx : x ^ 2 ≤ n * x2) (d : NormalGamma ℝ) (hl : 0 < d.lam) (ha : 0 ≤ d.alpha) (hb : 0 ≤ d.beta) :
    ∃ (ideal : NormalGamma ℝ) (computed : NormalGamma (Fl F)),
    normal x x2 n (.ng d : NormalPrior ℝ M) = .ok (.ng ideal) ∧
    normal (⟨x⟩ : Fl F) ⟨x2⟩ ⟨n⟩ (.ng (fmap Fl.mk d) : NormalPrior (Fl F) M) = .ok (.ng computed) ∧
    |computed.mu.val - ideal.mu| ≤ 38 * u * ((d.lam * |d.mu| + |x|) / (d.lam + n)) ∧
    RelError (38 * u) ideal.lam computed.lam.val ∧ RelError (38 * u) ideal.alpha computed.alpha.val ∧
    |computed.beta.val - ideal.beta| ≤ 38 * u * (d.beta + d.lam * d.mu ^ 2 + x2) :=
  ⟨_, _, rfl, rfl, normalUpdate_error hF hsq hu x x2 n d.mu d.lam d.alpha d.beta hn hx hl ha hb⟩

/-- C90 `normal` with a `NormalInverseGamma` prior, one call. -/
theorem C90_normal_inverse_gamma {M : Type} (hsq : AccurateSquare u F.pow) (hu : 38 * u ≤ 1) (x x2 n : ℝ)
    (hn : 0 < n) (hx : x ^ 2 ≤ n * x2) (mu nu alpha beta : ℝ) (hl : 0 < nu) (ha : 0 ≤ alpha) (hb : 0 ≤ beta) :
    ∃ (m v a b : ℝ) (m' v' a' b' : Fl F),
    normal x x2 n (.nig ⟨mu, alpha, beta, none, some nu⟩ : NormalPrior ℝ M) = .ok (.nig ⟨m, a, b, none, some v⟩) ∧
    normal (⟨x⟩ : Fl F) ⟨x2⟩ ⟨n⟩ (.nig ⟨⟨mu⟩, ⟨alpha⟩, ⟨beta⟩, none, some ⟨nu⟩⟩ : NormalPrior (Fl F) M) =
      .ok (.nig ⟨m', a', b', none, some v'⟩) ∧
    |m'.val - m| ≤ 38 * u * ((nu * |mu| + |x|) / (nu + n)) ∧ RelError (38 * u) v v'.val ∧
    RelError (38 * u) a a'.val ∧ |b'.val - b| ≤ 38 * u * (beta + nu * mu ^ 2 + x2) :=
  ⟨_, _, _, _, _, _, _, _, rfl, rfl, normalUpdate_error hF hsq hu x x2 n mu nu alpha beta hn hx hl ha hb⟩

/-- C90 normal with known precision, one call: standard deviation and mean. -/
theorem C90_normal_known_precision (hu : 26 * u ≤ 1) (x n precision : ℝ) (prior : Normal ℝ) (hs : 0 < prior.sigma)
    (hn : 0 ≤ n) (hv : 0 < precision) :
    let ideal := normal_known_precision x n precision prior
    let computed := normal_known_precision (⟨x⟩ : Fl F) ⟨n⟩ ⟨precision⟩ (fmap Fl.mk prior)
    RelError (26 * u) ideal.sigma computed.sigma.val ∧
    |computed.mu.val - ideal.mu| ≤ 26 * u *
      ((|prior.mu| / prior.sigma ^ 2 + |x| * precision) / (1 / prior.sigma ^ 2 + n * precision)) := by
  have u0 := hF.u_nonneg
  have u1 := hF.u_le
  have one : Near u 1 (lit 1 : ℝ) (F.rnd ((1 : ℚ) : ℝ)) := near_lit hF 1
  have p1 : (0 : ℝ) < lit 1 := by simp
  have ev := near_rnd hF (near_div u0 u1 one (near_refl precision))
  have s2 : Near u 3 (powq prior.sigma 2) (F.pow prior.sigma 2) := near_pow_two hF (k := 0) hs (near_refl _)
  have hs2 : (0 : ℝ) < powq prior.sigma 2 := by rw [powq_two]; positivity
  have e1 := near_rnd hF (near_div u0 u1 one s2)
  have e2 := near_mono u0 u1 (near_rnd hF (near_div u0 u1 (near_refl n) ev)) (show 0 + (1 + 0 + 1) + 1 ≤ 5 by norm_num)
  have q1 : 0 < (lit 1 : ℝ) / powq prior.sigma 2 := by positivity
  have q2 : 0 ≤ n / ((lit 1 : ℝ) / precision) := by positivity
  have e3 := near_fl_add hF q1.le q2 e1 e2
  have e4 := near_rnd hF (near_div u0 u1 one e3)
  have q3 : 0 < (lit 1 : ℝ) / powq prior.sigma 2 + n / ((lit 1 : ℝ) / precision) := by positivity
  have e5 := near_pow_half hF (div_pos p1 q3) e4
  have a1 := near_rnd hF (near_div u0 u1 (near_refl prior.mu) s2)
  have a2 := near_mono u0 u1 (near_rnd hF (near_div u0 u1 (near_refl x) ev)) (show 0 + (1 + 0 + 1) + 1 ≤ 4 by norm_num)
  have m1 := mag_fl_add hF (mag_of_near u0 u1 a1 le_rfl) (mag_of_near u0 u1 a2 le_rfl)
  have m2 := mag_rnd hF (mag_div u0 u1 m1 e3)
  refine ⟨near_bound' u0 u1 e5 (by norm_num) hu, ?_⟩
  refine mag_bound u0 u1 (mag_weaken u0 u1 m2 (le_of_eq ?_)) (by norm_num) hu
  rw [abs_of_pos q3, abs_div, abs_div, abs_of_pos hs2, powq_two, lit_real, Rat.cast_one,
    abs_of_pos (show (0 : ℝ) < 1 / precision by positivity), div_div_eq_mul_div, div_div_eq_mul_div, div_one, div_one]

/-! ## The remaining updates -/

/-- C90 Bernoulli: observations in `[0, 1]`, one after the other; the literal `1` is a float. -/
theorem C90_bernoulli_beta (h1 : F.rnd 1 = 1) (xs : List ℝ) (prior : Beta ℝ) (hp : Params.All (0 ≤ ·) prior)
    (hb : ∀ x ∈ xs, 0 ≤ x ∧ x ≤ 1) (hN : 2 * ((xs.length + 1) * u) ≤ 1) :
    Off (2 * (xs.length + 1) * u) (binomial_beta (xs.length : ℝ) xs.sum prior)
      (xs.foldl (fun (d : Beta (Fl F)) x => bernoulli_beta ⟨x⟩ d) (fmap Fl.mk prior)) := by
  rw [← C37_bernoulli_beta]
  refine fold_near hF _ _ (Params.All (0 ≤ ·)) (fun x => 0 ≤ x ∧ x ≤ 1) ?_ _ hb _ _ hp
    ⟨near_exact hF _ _, near_exact hF _ _⟩ hN
  rintro k d d' x hk ⟨d1, d2⟩ ⟨b1, b2⟩ ⟨e1, e2⟩
  have one : (lit 1 : ℝ) = 1 := by simp
  have hx : 0 ≤ (lit 1 : ℝ) - x := by rw [one]; linarith
  refine ⟨⟨near_fl_add hF d1 b1 e1 (near_exact hF _ _), ?_⟩, add_nonneg d1 b1, add_nonneg d2 hx⟩
  have := near_fl_add hF d2 hx e2 (near_fl_op hF hk ((lit 1 : ℝ) - x))
  have e : (bernoulli_beta (⟨x⟩ : Fl F) d').beta.val = F.rnd (d'.beta.val + F.rnd ((lit 1 : ℝ) - x)) := by
    show F.rnd (d'.beta.val + F.rnd (F.rnd ((1 : ℚ) : ℝ) - x)) = _
    rw [Rat.cast_one, h1, one]
  beta_reduce
  rw [e]
  exact this

/-- C90 gamma with known rate: batches `(x_prod, n)`. -/
theorem C90_gamma_known_rate (rate : ℝ) (batches : List (ℝ × ℝ)) (prior : GammaKnownRateProportional ℝ)
    (hp : Params.All (0 ≤ ·) prior) (hb : ∀ b ∈ batches, 0 ≤ b.1 ∧ 0 ≤ b.2)
    (hN : 2 * ((batches.length + 1) * u) ≤ 1) :
    Off (2 * (batches.length + 1) * u)
      (gamma_known_rate (batches.map Prod.fst).prod (batches.map Prod.snd).sum rate prior)
      (batches.foldl (fun (d : GammaKnownRateProportional (Fl F)) b => gamma_known_rate ⟨b.1⟩ ⟨b.2⟩ ⟨rate⟩ d)
        (fmap Fl.mk prior)) := by
  rw [← C37_gamma_known_rate]
  refine fold_near hF _ _ (Params.All (0 ≤ ·)) (fun b => 0 ≤ b.1 ∧ 0 ≤ b.2) ?_ _ hb _ _ hp
    ⟨near_exact hF _ _, near_exact hF _ _, near_exact hF _ _⟩ hN
  rintro k d d' b hk ⟨d1, d2, d3⟩ ⟨b1, b2⟩ ⟨h1, h2, h3⟩
  exact ⟨⟨near_rnd hF (near_mul hF.u_nonneg hF.u_le h1 (near_refl _)),
    near_fl_add hF d2 b2 h2 (near_exact hF _ _), near_fl_add hF d3 b2 h3 (near_exact hF _ _)⟩,
    mul_nonneg d1 b1, add_nonneg d2 b2, add_nonneg d3 b2⟩

/-- C90 beta: batches `(x_prod, one_minus_x_prod, n)`. -/
theorem C90_beta (batches : List (ℝ × ℝ × ℝ)) (prior : BetaProportional ℝ) (hp : Params.All (0 ≤ ·) prior)
    (hb : ∀ b ∈ batches, 0 ≤ b.1 ∧ 0 ≤ b.2.1 ∧ 0 ≤ b.2.2) (hN : 2 * ((batches.length + 1) * u) ≤ 1) :
    Off (2 * (batches.length + 1) * u)
      (beta (batches.map (·.1)).prod (batches.map (·.2.1)).prod (batches.map (·.2.2)).sum prior)
      (batches.foldl (fun (d : BetaProportional (Fl F)) b => beta ⟨b.1⟩ ⟨b.2.1⟩ ⟨b.2.2⟩ d) (fmap Fl.mk prior)) := by
  rw [← C37_beta]
  refine fold_near hF _ _ (Params.All (0 ≤ ·)) (fun b => 0 ≤ b.1 ∧ 0 ≤ b.2.1 ∧ 0 ≤ b.2.2) ?_ _ hb _ _ hp
    ⟨near_exact hF _ _, near_exact hF _ _, near_exact hF _ _⟩ hN
  rintro k d d' b hk ⟨d1, d2, d3⟩ ⟨b1, b2, b3⟩ ⟨h1, h2, h3⟩
  exact ⟨⟨near_rnd hF (near_mul hF.u_nonneg hF.u_le h1 (near_refl _)),
    near_rnd hF (near_mul hF.u_nonneg hF.u_le h2 (near_refl _)), near_fl_add hF d3 b3 h3 (near_exact hF _ _)⟩,
    mul_nonneg d1 b1, mul_nonneg d2 b2, add_nonneg d3 b3⟩

/-- C90 von Mises with known direction: batches `(centered_cos_total, n)`. The total of cosines may cancel. -/
theorem C90_von_mises_known_direction (batches : List (ℝ × ℝ)) (prior : VonMisesKnownDirectionProportional ℝ)
    (hp : 0 ≤ prior.c) (hb : ∀ b ∈ batches, 0 ≤ b.2) (hN : 2 * batches.length * u ≤ 1) :
    let ideal := von_mises_known_direction (batches.map Prod.fst).sum (batches.map Prod.snd).sum prior
    let computed := batches.foldl
      (fun (d : VonMisesKnownDirectionProportional (Fl F)) b => von_mises_known_direction ⟨b.1⟩ ⟨b.2⟩ d)
      (fmap Fl.mk prior)
    RelError (2 * batches.length * u) ideal.c computed.c.val ∧
    |computed.r.val - ideal.r| ≤ 2 * batches.length * u * (|prior.r| + (batches.map fun b => |b.1|).sum) := by
  have u0 := hF.u_nonneg
  have u1 := hF.u_le
  have key : ∀ (l : List (ℝ × ℝ)) (k : ℕ) (A : ℝ) (d : VonMisesKnownDirectionProportional ℝ)
      (d' : VonMisesKnownDirectionProportional (Fl F)), (∀ b ∈ l, 0 ≤ b.2) → 0 ≤ d.c →
      Near u k d.c d'.c.val → Mag u k A d.r d'.r.val →
      Near u (k + l.length) (von_mises_known_direction (l.map Prod.fst).sum (l.map Prod.snd).sum d).c
        (l.foldl (fun (d : VonMisesKnownDirectionProportional (Fl F)) b => von_mises_known_direction ⟨b.1⟩ ⟨b.2⟩ d)
          d').c.val ∧
      Mag u (k + l.length) (A + (l.map fun b => |b.1|).sum)
        (von_mises_known_direction (l.map Prod.fst).sum (l.map Prod.snd).sum d).r
        (l.foldl (fun (d : VonMisesKnownDirectionProportional (Fl F)) b => von_mises_known_direction ⟨b.1⟩ ⟨b.2⟩ d)
          d').r.val := by
    intro l
    induction l with
    | nil =>
      intro k A d d' _ _ h1 h2
      simpa [von_mises_known_direction] using ⟨h1, h2⟩
    | cons b l ih =>
      intro k A d d' hl hc h1 h2
      have b2 := hl b (by simp)
      obtain ⟨r1, r2⟩ := ih (k + 1) (A + |b.1|) (von_mises_known_direction b.1 b.2 d)
        (von_mises_known_direction ⟨b.1⟩ ⟨b.2⟩ d') (fun c hc => hl c (by simp [hc])) (add_nonneg hc b2)
        (near_fl_add hF hc b2 h1 (near_exact hF b.2 k)) (mag_fl_add hF h2 (mag_exact u0 u1 b.1 k))
      have es := C37_von_mises_known_direction (b :: l) d
      rw [List.foldl_cons, C37_von_mises_known_direction] at es
      rw [es] at r1 r2
      rw [List.foldl_cons, List.length_cons, show k + (l.length + 1) = k + 1 + l.length by ring]
      refine ⟨r1, mag_weaken u0 u1 r2 (le_of_eq ?_)⟩
      simp only [List.map_cons, List.sum_cons]; ring
  obtain ⟨r1, r2⟩ := key batches 0 |prior.r| prior (fmap Fl.mk prior) hb hp (near_refl _) (mag_exact u0 u1 _ 0)
  rw [zero_add] at r1 r2
  exact ⟨near_bound' u0 u1 r1 (by linarith) hN, mag_bound u0 u1 r2 (by linarith) hN⟩

/-- C90 uniform: batches `(x_max, n)`; taking a maximum costs nothing. -/
theorem C90_uniform_pareto (batches : List (ℝ × ℝ)) (prior : Pareto ℝ) (hp : Params.All (0 ≤ ·) prior)
    (hb : ∀ b ∈ batches, 0 ≤ b.2) (hN : 2 * ((batches.length + 1) * u) ≤ 1) :
    let ideal := batches.foldl (fun (d : Pareto ℝ) b => uniform_pareto b.1 b.2 d max) prior
    let computed := batches.foldl (fun (d : Pareto (Fl F)) b =>
      uniform_pareto ⟨b.1⟩ ⟨b.2⟩ d (fun x y => ⟨max x.val y.val⟩)) (fmap Fl.mk prior)
    computed.x_m.val = ideal.x_m ∧ RelError (2 * (batches.length + 1) * u) ideal.alpha computed.alpha.val := by
  have u0 := hF.u_nonneg
  have u1 := hF.u_le
  have key : ∀ (l : List (ℝ × ℝ)) (k : ℕ) (d : Pareto ℝ) (d' : Pareto (Fl F)), (∀ b ∈ l, 0 ≤ b.2) → 0 ≤ d.alpha →
      d'.x_m.val = d.x_m → Near u k d.alpha d'.alpha.val →
      (l.foldl (fun (d : Pareto (Fl F)) b => uniform_pareto ⟨b.1⟩ ⟨b.2⟩ d (fun x y => ⟨max x.val y.val⟩)) d').x_m.val =
        (l.foldl (fun (d : Pareto ℝ) b => uniform_pareto b.1 b.2 d max) d).x_m ∧
      Near u (k + l.length) (l.foldl (fun (d : Pareto ℝ) b => uniform_pareto b.1 b.2 d max) d).alpha
        (l.foldl (fun (d : Pareto (Fl F)) b => uniform_pareto ⟨b.1⟩ ⟨b.2⟩ d (fun x y => ⟨max x.val y.val⟩))
          d').alpha.val := by
    intro l
    induction l with
    | nil => intro k d d' _ _ h1 h2; exact ⟨h1, h2⟩
    | cons b l ih =>
      intro k d d' hl ha h1 h2
      have b2 := hl b (by simp)
      rw [List.foldl_cons, List.foldl_cons, List.length_cons, show k + (l.length + 1) = k + 1 + l.length by ring]
      exact ih (k + 1) _ _ (fun c hc => hl c (by simp [hc])) (add_nonneg ha b2)
        (by simp only [uniform_pareto]; rw [h1]) (near_fl_add hF ha b2 h2 (near_exact hF b.2 k))
  obtain ⟨r1, r2⟩ := key batches 0 prior (fmap Fl.mk prior) hb hp.2 rfl (near_refl _)
  exact ⟨r1, near_bound' u0 u1 r2 (by push_cast; linarith) (by linarith)⟩

/-- C90 `log_normal`, one call: the same calculation on logarithms. -/
theorem C90_log_normal {M : Type} (hsq : AccurateSquare u F.pow) (hu : 38 * u ≤ 1) (x x2 n : ℝ) (hn : 0 < n)
    (hx : x ^ 2 ≤ n * x2) (d : NormalGamma ℝ) (hl : 0 < d.lam) (ha : 0 ≤ d.alpha) (hb : 0 ≤ d.beta) :
    ∃ (ideal : NormalGamma ℝ) (computed : NormalGamma (Fl F)),
    log_normal x x2 n (.ng d : NormalPrior ℝ M) = .ok (.ng ideal) ∧
    log_normal (⟨x⟩ : Fl F) ⟨x2⟩ ⟨n⟩ (.ng (fmap Fl.mk d) : NormalPrior (Fl F) M) = .ok (.ng computed) ∧
    |computed.mu.val - ideal.mu| ≤ 38 * u * ((d.lam * |d.mu| + |x|) / (d.lam + n)) ∧
    RelError (38 * u) ideal.lam computed.lam.val ∧ RelError (38 * u) ideal.alpha computed.alpha.val ∧
    |computed.beta.val - ideal.beta| ≤ 38 * u * (d.beta + d.lam * d.mu ^ 2 + x2) :=
  C90_normal hF hsq hu x x2 n hn hx d hl ha hb

/-! ## When the computed parameter is positive (C91) -/

/-- C91 `normal`: the computed `beta` is positive when the exact one is not tiny compared with the squares that
went into it.  Without this it may be negative (`C91_normal_false`). -/
theorem C91_normal_positive {M : Type} (hsq : AccurateSquare u F.pow) (hu : 38 * u ≤ 1) (x x2 n : ℝ) (hn : 0 < n)
    (hx : x ^ 2 ≤ n * x2) (d : NormalGamma ℝ) (hl : 0 < d.lam) (ha : 0 < d.alpha) (hb : 0 ≤ d.beta)
    (hbig : ∀ ideal : NormalGamma ℝ, normal x x2 n (.ng d : NormalPrior ℝ M) = .ok (.ng ideal) →
      38 * u * (d.beta + d.lam * d.mu ^ 2 + x2) < ideal.beta) :
    ∃ computed : NormalGamma (Fl F),
    normal (⟨x⟩ : Fl F) ⟨x2⟩ ⟨n⟩ (.ng (fmap Fl.mk d) : NormalPrior (Fl F) M) = .ok (.ng computed) ∧
    0 < computed.lam.val ∧ 0 < computed.alpha.val ∧ 0 < computed.beta.val := by
  obtain ⟨i, c, h1, h2, -, -, -, h⟩ := C90_normal (M := M) hF hsq hu x x2 n hn hx d hl ha.le hb
  have hi := hbig i h1
  obtain ⟨c', h3, h4, h5⟩ := C91_normal_partial hF (M := M) ⟨x⟩ ⟨x2⟩ ⟨n⟩ (fmap Fl.mk d) hn.le hl ha
  rw [h2] at h3
  obtain rfl : c = c' := by simpa using h3
  exact ⟨c, h2, h4, h5, by linarith [(abs_le.1 h).1]⟩

/-- C91 geometric, counting from one. -/
theorem C91_geometric_beta_positive (x n : ℝ) (prior : Beta ℝ) (hp : 0 < prior.alpha ∧ 0 < prior.beta) (hx : 0 ≤ x)
    (hn : 0 ≤ n) (hu : 4 * u ≤ 1) (hbig : 4 * u * (prior.beta + x + n) < prior.beta + x - n) :
    Params.All (fun y : Fl F => 0 < y.val) (geometric_beta (⟨x⟩ : Fl F) ⟨n⟩ (fmap Fl.mk prior) true) := by
  have h := (C90_geometric_beta_one_start hF [(x, n)] prior ⟨hp.1.le, hp.2.le⟩ (by simpa using ⟨hx, hn⟩)
    (by simpa using hu)).2
  simp only [List.map_cons, List.map_nil, List.sum_cons, List.sum_nil, add_zero, List.foldl_cons, List.foldl_nil,
    List.length_cons, List.length_nil, zero_add, Nat.cast_one, mul_one] at h
  have e : (geometric_beta x n prior true).beta = prior.beta + x - n := rfl
  rw [e] at h
  exact ⟨rnd_pos hF (add_pos_of_pos_of_nonneg hp.1 hn), by linarith [(abs_le.1 h).1]⟩

/-- C91 Pareto. -/
theorem C91_pareto_gamma_positive (x_m : ℝ) (ln : Fl F → Fl F)
    (hln : RelError (2 * u) (Real.log x_m) (ln ⟨x_m⟩).val) (n L : ℝ) (prior : Gamma ℝ)
    (hp : 0 < prior.alpha ∧ 0 < prior.beta) (hn : 0 ≤ n) (hu : 10 * u ≤ 1)
    (hbig : 10 * u * (prior.beta + |L| + n * |Real.log x_m|) < prior.beta + L - n * Real.log x_m) :
    Params.All (fun y : Fl F => 0 < y.val) (pareto_gamma (⟨n⟩ : Fl F) ⟨L⟩ ⟨x_m⟩ (fmap Fl.mk prior) ln) := by
  have h := (C90_pareto_gamma hF x_m ln hln [(n, L)] prior ⟨hp.1.le, hp.2.le⟩ (by simpa using hn)
    (by simp; linarith)).2
  simp only [List.map_cons, List.map_nil, List.sum_cons, List.sum_nil, add_zero, List.foldl_cons, List.foldl_nil,
    List.length_cons, List.length_nil, zero_add, Nat.cast_one, mul_one] at h
  have e : (pareto_gamma n L x_m prior Real.log).beta = prior.beta + L - n * Real.log x_m := rfl
  rw [e, show (4 : ℝ) + 6 = 10 by norm_num] at h
  exact ⟨rnd_pos hF (add_pos_of_pos_of_nonneg hp.1 hn), by linarith [(abs_le.1 h).1]⟩

/-- C91 normal with known mean. -/
theorem C91_normal_known_mean_positive (hsq : AccurateSquare u F.pow) (hu : 16 * u ≤ 1) (x x2 n mu : ℝ) (hn : 0 ≤ n)
    (hx : x ^ 2 ≤ n * x2) (hx2 : 0 ≤ x2) (prior : InverseGamma ℝ) (hp : 0 < prior.alpha ∧ 0 < prior.beta)
    (hbig : 16 * u * (prior.beta + x2 + n * mu ^ 2) < prior.beta + (x2 - 2 * mu * x + n * mu ^ 2) / 2) :
    ∃ computed : InverseGamma (Fl F),
    normal_known_mean (⟨x⟩ : Fl F) ⟨x2⟩ ⟨n⟩ ⟨mu⟩ (.inverseGamma (fmap Fl.mk prior)) = .inverseGamma computed ∧
    Params.All (fun y : Fl F => 0 < y.val) computed := by
  obtain ⟨i, c, h1, h2, h3, h4⟩ := C90_normal_known_mean hF hsq mu [(x, x2, n)] (by simpa using ⟨hn, hx2, hx⟩) prior
    ⟨hp.1.le, hp.2.le⟩ (by simp; linarith)
  simp only [List.map_cons, List.map_nil, List.sum_cons, List.sum_nil, add_zero, List.foldl_cons, List.foldl_nil,
    List.length_cons, List.length_nil, zero_add, Nat.cast_one, mul_one] at h1 h2 h3 h4
  rw [show (2 : ℝ) + 14 = 16 by norm_num] at h3 h4
  have hi : i = normalKnownMeanInverseGammaPrior x x2 n mu prior := by
    simpa [normal_known_mean] using h1.symm
  have hc : c = normalKnownMeanInverseGammaPrior ⟨x⟩ ⟨x2⟩ ⟨n⟩ ⟨mu⟩ (fmap Fl.mk prior) := by
    simpa [normal_known_mean] using h2.symm
  have hb : i.beta = prior.beta + (x2 - 2 * mu * x + n * mu ^ 2) / 2 := by
    rw [hi]
    simp only [normalKnownMeanInverseGammaPrior, lit_real, powq_two]
    push_cast
    ring
  refine ⟨c, h2, ?_, ?_⟩
  · rw [hc]
    have two : 0 < F.rnd ((2 : ℚ) : ℝ) := rnd_pos hF (by simp)
    exact rnd_pos hF (add_pos_of_pos_of_nonneg hp.1 (rnd_nonneg hF (div_nonneg hn two.le)))
  · rw [hb] at h4
    linarith [(abs_le.1 h4).1]

end

/-- Python floats: readings near a million with unit spread are safe, readings near a hundred million are not
(`C91_normal_false`). -/
example : ∃ computed : NormalGamma (Fl (binary 53)),
    normal (⟨2000001⟩ : Fl (binary 53)) ⟨1000000 ^ 2 + 1000001 ^ 2⟩ ⟨2⟩
      (.ng (fmap Fl.mk (⟨1000000, 1, 1, 1 / 4⟩ : NormalGamma ℝ)) : NormalPrior (Fl (binary 53)) Unit) =
        .ok (.ng computed) ∧
    0 < computed.lam.val ∧ 0 < computed.alpha.val ∧ 0 < computed.beta.val := by
  refine C91_normal_positive (binary_accurate (by norm_num)) (binary_accurate_square (by norm_num)) (by norm_num) _ _ _
    (by norm_num) (by norm_num) ⟨1000000, 1, 1, 1 / 4⟩ (by norm_num) (by norm_num) (by norm_num) ?_
  intro ideal h
  simp only [normal, normalUpdate, Except.ok.injEq, NormalPrior.ng.injEq] at h
  rw [← h]
  norm_num [lit_real]

example := C90_geometric_beta_one_start (binary_accurate (p := 53) (by norm_num)) [(10, 4), (7, 7)] ⟨1, 1⟩
  ⟨by norm_num, by norm_num⟩ (by norm_num) (by norm_num)
example := C90_normal_known_mean (binary_accurate (p := 53) (by norm_num)) (binary_accurate_square (by norm_num)) 3
  [(7, 25, 2), (3, 9, 1)] (by norm_num) ⟨1, 1⟩ ⟨by norm_num, by norm_num⟩ (by norm_num)

example := C90_bernoulli_beta (binary_accurate (p := 53) (by norm_num))
  (by simpa using binary_keeps (p := 53) (by norm_num) 1 0 (by norm_num)) [1, 0, 1] ⟨1, 1⟩ ⟨by norm_num, by norm_num⟩ (by norm_num)
  (by norm_num)
example := C90_von_mises_known_direction (binary_accurate (p := 53) (by norm_num)) [(-1 / 2, 3), (1, 2)] ⟨1, 1⟩
  (by norm_num) (by norm_num) (by norm_num)

end Conj
