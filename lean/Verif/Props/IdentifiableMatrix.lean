import Verif.Props.IdentifiableDiscrete
import Verif.Props.PosteriorNormal
import Verif.Lemmas.Wishart
import Verif.Lemmas.Mvt

/-!
# C97: different parameters mean different distributions (vectors, matrices, joint distributions)
-/

open Real Filter Topology Set MeasureTheory
open scoped Matrix

namespace Conj

open Scipy Spec Matrix

variable {p : Type} [Fintype p] [DecidableEq p]

/-! ## Helpers -/

/-- A symmetric matrix is determined by its quadratic form. -/
theorem eq_of_quad {A B : Matrix p p ℝ} (hA : Aᵀ = A) (hB : Bᵀ = B) (h : ∀ v, quad A v = quad B v) : A = B := by
  have hbil : ∀ u v : p → ℝ, u ⬝ᵥ A *ᵥ v = u ⬝ᵥ B *ᵥ v := by
    intro u v
    have h1 := h (u + v)
    rw [quad_add hA, quad_add hB, h u, h v] at h1
    linarith
  ext i j
  have := hbil (Pi.single i 1) (Pi.single j 1)
  simpa using this

theorem quad_eq_zero {A : Matrix p p ℝ} (hA : A.PosDef) {v : p → ℝ} (h : quad A v = 0) : v = 0 := by
  by_contra hv
  exact absurd h (quad_pos hA hv).ne'

/-- Equal multiples of two densities have equal factors. -/
theorem density_factor {Θ : Type*} [MeasurableSpace Θ] {μ : Measure Θ} {S : Set Θ} (hS : MeasurableSet S)
    {f f' : Θ → ℝ} (hf : IsDensity μ S f) (hf' : IsDensity μ S f') {c c' : ℝ}
    (h : ∀ θ ∈ S, c * f θ = c' * f' θ) : c = c' := by
  have e := setIntegral_congr_fun (μ := μ) hS h
  rw [integral_const_mul, integral_const_mul, hf.2.2, hf'.2.2, mul_one, mul_one] at e
  exact e

/-! ## Multivariate normal and Student t -/

theorem mvn_identify {S S' : Matrix p p ℝ} (hS : S.PosDef) (hS' : S'.PosDef) {m m' : p → ℝ}
    (h : ∀ x, mvnPdf m S x = mvnPdf m' S' x) : m = m' ∧ S = S' := by
  have d1 := posDef_det hS
  have d2 := posDef_det hS'
  set K := log √((2 * π) ^ (Fintype.card p : ℝ) * S.det) with hK
  set K' := log √((2 * π) ^ (Fintype.card p : ℝ) * S'.det) with hK'
  have hlog : ∀ x, -(1 / 2) * quad S⁻¹ (x - m) - K = -(1 / 2) * quad S'⁻¹ (x - m') - K' := by
    intro x
    have e := congrArg log (h x)
    unfold mvnPdf at e
    rwa [log_div (exp_pos _).ne' (by positivity), log_div (exp_pos _).ne' (by positivity), log_exp, log_exp] at e
  have sym := posDef_symm hS.inv
  have sym' := posDef_symm hS'.inv
  have hq : ∀ v, quad S⁻¹ v = quad S'⁻¹ v := by
    intro v
    have e1 := hlog (m + v)
    have e2 := hlog (m - v)
    have e0 := hlog m
    rw [add_sub_cancel_left, add_sub_right_comm, quad_add sym'] at e1
    rw [show m - v - m = 0 - v by abel, show m - v - m' = (m - m') - v by abel, quad_sub sym', quad_sub sym] at e2
    rw [sub_self] at e0
    have z : quad S⁻¹ (0 : p → ℝ) = 0 := by simp [quad]
    simp only [zero_dotProduct, z] at e2 e0
    linarith
  have hSS : S = S' := by
    have e := eq_of_quad sym sym' hq
    rw [← nonsing_inv_nonsing_inv S (posDef_unit hS), e, nonsing_inv_nonsing_inv S' (posDef_unit hS')]
  refine ⟨?_, hSS⟩
  have e := hlog m
  have hKK : K = K' := by rw [hK, hK', hSS]
  rw [sub_self, hKK, ← hSS] at e
  have z : quad S⁻¹ (0 : p → ℝ) = 0 := by simp [quad]
  rw [z] at e
  exact sub_eq_zero.1 (quad_eq_zero hS.inv (by linarith))

/-- C97, `MultivariateNormal`. -/
theorem C97_multivariate_normal (d d' : MultivariateNormal (p → ℝ) (Matrix p p ℝ)) (hd : d.cov.PosDef)
    (hd' : d'.cov.PosDef) (h : ∀ x, d.pdf x = d'.pdf x) : d = d' := by
  obtain ⟨h1, h2⟩ := mvn_identify hd hd' h
  cases d; cases d'
  simp only [MultivariateNormal.mk.injEq] at *
  exact ⟨h1, h2⟩

theorem tendsto_log_quad {A : Matrix p p ℝ} (hA : A.PosDef) {c : ℝ} (hc : 0 < c) (m : p → ℝ) {u : p → ℝ} (hu : u ≠ 0) :
    Tendsto (fun t : ℝ => log (1 + c * quad A (t • u - m)) - 2 * log t) atTop (𝓝 (log (c * quad A u))) := by
  have hq := quad_pos hA hu
  have sym := posDef_symm hA
  have h1 : Tendsto (fun t : ℝ => (1 + c * quad A m) * (1 / t) ^ 2 + c * (quad A u - 2 * (u ⬝ᵥ A *ᵥ m) * (1 / t))) atTop
      (𝓝 ((1 + c * quad A m) * 0 ^ 2 + c * (quad A u - 2 * (u ⬝ᵥ A *ᵥ m) * 0))) := by
    have a1 : Tendsto (fun t : ℝ => 1 / t) atTop (𝓝 0) := tendsto_const_nhds.div_atTop tendsto_id
    exact ((a1.pow 2).const_mul _).add (((a1.const_mul _).const_sub _).const_mul _)
  rw [show (1 + c * quad A m) * 0 ^ 2 + c * (quad A u - 2 * (u ⬝ᵥ A *ᵥ m) * 0) = c * quad A u by ring] at h1
  refine ((continuousAt_log (by positivity)).tendsto.comp h1).congr' ?_
  filter_upwards [eventually_gt_atTop 0] with t ht
  simp only [Function.comp]
  have hnn := quad_nonneg hA.posSemidef (t • u - m)
  have e0 : quad A (t • u - m) = t ^ 2 * quad A u - 2 * (t * (u ⬝ᵥ A *ᵥ m)) + quad A m := by
    rw [quad_sub sym]
    simp only [quad, mulVec_smul, smul_dotProduct, dotProduct_smul, smul_eq_mul]
    ring
  have e : (1 + c * quad A m) * (1 / t) ^ 2 + c * (quad A u - 2 * (u ⬝ᵥ A *ᵥ m) * (1 / t)) =
      (1 + c * quad A (t • u - m)) / t ^ 2 := by
    rw [e0]
    field_simp
    ring
  rw [e, log_div (by positivity) (by positivity), log_pow]
  norm_num

/-- C97, `MultivariateStudentT`. -/
theorem C97_multivariate_student_t [Nonempty p] (d d' : MultivariateStudentT ℝ (p → ℝ) (Matrix p p ℝ))
    (hs : d.sigma.PosDef) (hn : 0 < d.nu) (hs' : d'.sigma.PosDef) (hn' : 0 < d'.nu)
    (h : ∀ x, d.pdf x = d'.pdf x) : d = d' := by
  set D : ℝ := (Fintype.card p : ℝ) with hD
  have hDpos : 0 < D := by rw [hD]; exact_mod_cast Fintype.card_pos
  set g : ℝ → ℝ := fun nu => Real.Gamma ((nu + D) / 2) / (Real.Gamma (nu / 2) * nu ^ (D / 2) * π ^ (D / 2)) with hg
  have gpos : ∀ nu, 0 < nu → 0 < g nu := by
    intro nu hnu
    have g1 : 0 < Real.Gamma ((nu + D) / 2) := Real.Gamma_pos_of_pos (by positivity)
    have g2 : 0 < Real.Gamma (nu / 2) := Real.Gamma_pos_of_pos (by positivity)
    simp only [hg]
    positivity
  have form : ∀ (e : MultivariateStudentT ℝ (p → ℝ) (Matrix p p ℝ)), e.sigma.PosDef → 0 < e.nu → ∀ x,
      log (e.pdf x) = log (g e.nu) - 1 / 2 * log e.sigma.det -
        (e.nu + D) / 2 * log (1 + 1 / e.nu * quad e.sigma⁻¹ (x - e.mu)) := by
    intro e he hne x
    have hq := quad_nonneg he.inv.posSemidef (x - e.mu)
    have hdet := posDef_det he
    have := gpos e.nu hne
    have e1 : e.pdf x = g e.nu / e.sigma.det ^ ((1 : ℝ) / 2) *
        (1 + 1 / e.nu * quad e.sigma⁻¹ (x - e.mu)) ^ (-(e.nu + D) / 2) := by
      simp only [MultivariateStudentT.pdf, mvtPdf, hg, ← hD]
      rw [div_div]
    rw [e1, log_mul (by positivity) (by positivity), log_div (by positivity) (by positivity), log_rpow hdet,
      log_rpow (by positivity)]
    ring
  have key : ∀ (e : MultivariateStudentT ℝ (p → ℝ) (Matrix p p ℝ)), e.sigma.PosDef → 0 < e.nu → ∀ u : p → ℝ, u ≠ 0 →
      Tendsto (fun t : ℝ => log (e.pdf (t • u)) + (e.nu + D) * log t) atTop
        (𝓝 (log (g e.nu) - 1 / 2 * log e.sigma.det - (e.nu + D) / 2 * log (1 / e.nu * quad e.sigma⁻¹ u))) := by
    intro e he hne u hu
    have := (tendsto_log_quad he.inv (c := 1 / e.nu) (by positivity) e.mu hu).const_mul ((e.nu + D) / 2)
    refine (this.const_sub (log (g e.nu) - 1 / 2 * log e.sigma.det)).congr fun t => ?_
    rw [form e he hne]
    ring
  have both : ∀ u : p → ℝ, u ≠ 0 → d.nu = d'.nu ∧
      log (g d.nu) - 1 / 2 * log d.sigma.det - (d.nu + D) / 2 * log (1 / d.nu * quad d.sigma⁻¹ u) =
      log (g d'.nu) - 1 / 2 * log d'.sigma.det - (d'.nu + D) / 2 * log (1 / d'.nu * quad d'.sigma⁻¹ u) := by
    intro u hu
    have k' := key d' hs' hn' u hu
    simp only [← h] at k'
    obtain ⟨a1, a2⟩ := rate_unique tendsto_log_atTop (key d hs hn u hu) k'
    exact ⟨by linarith, a2⟩
  obtain ⟨u₀, hu₀⟩ : ∃ u : p → ℝ, u ≠ 0 := exists_ne 0
  have en : d.nu = d'.nu := (both u₀ hu₀).1
  -- the quadratic forms are proportional
  set κ := exp ((log d'.sigma.det - log d.sigma.det) / (d.nu + D)) with hκ
  have hκpos : 0 < κ := exp_pos _
  have hprop : ∀ u, quad d.sigma⁻¹ u = κ * quad d'.sigma⁻¹ u := by
    intro u
    by_cases hu : u = 0
    · subst hu; simp [quad]
    · have e := (both u hu).2
      have q1 := quad_pos hs.inv hu
      have q2 := quad_pos hs'.inv hu
      rw [← en, log_mul (by positivity) q1.ne', log_mul (by positivity) q2.ne'] at e
      have hnd : d.nu + D ≠ 0 := by positivity
      have e2 : log (quad d.sigma⁻¹ u) = log (κ * quad d'.sigma⁻¹ u) := by
        rw [log_mul hκpos.ne' q2.ne', hκ, log_exp]
        field_simp
        linear_combination -2 * e
      exact log_injOn_pos q1 (show 0 < κ * quad d'.sigma⁻¹ u by positivity) e2
  have hinv : d.sigma⁻¹ = κ • d'.sigma⁻¹ := by
    refine eq_of_quad (posDef_symm hs.inv) (posDef_symm (posDef_smul hs'.inv hκpos)) fun v => ?_
    rw [quad_smul, hprop]
  have dp := posDef_det hs
  have dp' := posDef_det hs'
  have hdet : log d'.sigma.det - log d.sigma.det = D * log κ := by
    have e := congrArg Matrix.det hinv
    rw [det_smul, det_nonsing_inv, det_nonsing_inv, Ring.inverse_eq_inv'] at e
    have e2 := congrArg log e
    rw [log_mul (by positivity) (by positivity), log_inv, log_inv, log_pow] at e2
    linarith
  have hκ1 : log κ = 0 := by
    have e : log κ = (log d'.sigma.det - log d.sigma.det) / (d.nu + D) := by rw [hκ, log_exp]
    rw [hdet, eq_div_iff (by positivity)] at e
    have : d.nu * log κ = 0 := by linear_combination e
    rcases mul_eq_zero.1 this with h | h
    · exact absurd h hn.ne'
    · exact h
  have κ1 : κ = 1 := by
    have := exp_log hκpos
    rw [hκ1, exp_zero] at this
    exact this.symm
  have hSS : d.sigma = d'.sigma := by
    rw [κ1, one_smul] at hinv
    rw [← nonsing_inv_nonsing_inv d.sigma (posDef_unit hs), hinv, nonsing_inv_nonsing_inv _ (posDef_unit hs')]
  have hm : d.mu = d'.mu := by
    have e := congrArg log (h d.mu)
    rw [form d hs hn, form d' hs' hn', ← en, ← hSS, sub_self] at e
    have z : quad d.sigma⁻¹ (0 : p → ℝ) = 0 := by simp [quad]
    rw [z, mul_zero, add_zero, log_one] at e
    have q := quad_nonneg hs.inv.posSemidef (d.mu - d'.mu)
    have e2 : log (1 + 1 / d.nu * quad d.sigma⁻¹ (d.mu - d'.mu)) = 0 := by
      have : (d.nu + D) / 2 * log (1 + 1 / d.nu * quad d.sigma⁻¹ (d.mu - d'.mu)) = 0 := by linarith
      rcases mul_eq_zero.1 this with h | h
      · exact absurd h (by positivity)
      · exact h
    have e3 := eq_one_of_pos_of_log_eq_zero (by positivity) e2
    have e4 : 1 / d.nu * quad d.sigma⁻¹ (d.mu - d'.mu) = 0 := by linarith
    rcases mul_eq_zero.1 e4 with h | h
    · exact absurd h (by positivity)
    · exact sub_eq_zero.1 (quad_eq_zero hs.inv h)
  cases d; cases d'
  simp only [MultivariateStudentT.mk.injEq] at *
  exact ⟨hm, hSS, en⟩

/-! ## Wishart families -/

theorem eq_of_trace {A B : Matrix p p ℝ} (hA : Aᵀ = A) (hB : Bᵀ = B)
    (h : ∀ X : Matrix p p ℝ, X.PosDef → (A * X).trace = (B * X).trace) : A = B := by
  refine eq_of_quad hA hB fun v => ?_
  have hps : (vecMulVec v v).PosSemidef := by
    have := posSemidef_vecMulVec_self_star v
    rwa [star_trivial] at this
  have h1 := h (1 + vecMulVec v v) (PosDef.one.add_posSemidef hps)
  have h0 := h 1 PosDef.one
  rw [Matrix.mul_add, Matrix.mul_add, trace_add, trace_add, trace_mul_comm A (vecMulVec v v),
    trace_mul_comm B (vecMulVec v v), trace_vecMulVec_mul, trace_vecMulVec_mul] at h1
  linarith

theorem trace_smul_inv (A : Matrix p p ℝ) {X : Matrix p p ℝ} (hX : X.PosDef) {s : ℝ} (hs : 0 < s) :
    (A * (s • X)⁻¹).trace = (A * X⁻¹).trace / s := by
  rw [inv_smul_mat hX hs.ne', Matrix.mul_smul, trace_smul, smul_eq_mul]
  ring

theorem log_det_smul {X : Matrix p p ℝ} (hX : X.PosDef) {s : ℝ} (hs : 0 < s) :
    log (s • X).det = (Fintype.card p : ℝ) * log s + log X.det := by
  have := posDef_det hX
  rw [det_smul, log_mul (by positivity) this.ne', log_pow]

theorem log_four : log 4 = 2 * log 2 := by
  rw [show (4 : ℝ) = 2 ^ 2 by norm_num, log_pow]; norm_num

/-- C97, `InverseWishart`. -/
theorem C97_inverse_wishart [Nonempty p] (d d' : InverseWishart ℝ (Matrix p p ℝ))
    (hnu : (Fintype.card p : ℝ) - 1 < d.nu) (hpsi : d.psi.PosDef) (hnu' : (Fintype.card p : ℝ) - 1 < d'.nu)
    (hpsi' : d'.psi.PosDef) (h : ∀ S : Matrix p p ℝ, S.PosDef → d.pdf S = d'.pdf S) : d = d' := by
  have hD : (0 : ℝ) < Fintype.card p := by exact_mod_cast Fintype.card_pos
  set D : ℝ := (Fintype.card p : ℝ) with hDdef
  have form : ∀ e : InverseWishart ℝ (Matrix p p ℝ), D - 1 < e.nu → e.psi.PosDef → ∀ X : Matrix p p ℝ, X.PosDef →
      ∀ s : ℝ, 0 < s → log (e.pdf (s • X)) = log (iwConst e.nu e.psi) -
        (e.nu + D + 1) / 2 * (D * log s + log X.det) - 1 / 2 * ((e.psi * X⁻¹).trace / s) := by
    intro e he hp X hX s hs
    have hdet := posDef_det (posDef_smul hX hs)
    rw [InverseWishart.pdf, invwishartPdf_eq, log_kernel_exp (iwConst_pos he hp) hdet, log_det_smul hX hs,
      trace_smul_inv _ hX hs]
    ring
  have hlog : ∀ X : Matrix p p ℝ, X.PosDef → ∀ s : ℝ, 0 < s → log (iwConst d.nu d.psi) -
        (d.nu + D + 1) / 2 * (D * log s + log X.det) - 1 / 2 * ((d.psi * X⁻¹).trace / s) =
      log (iwConst d'.nu d'.psi) - (d'.nu + D + 1) / 2 * (D * log s + log X.det) -
        1 / 2 * ((d'.psi * X⁻¹).trace / s) := by
    intro X hX s hs
    rw [← form d hnu hpsi X hX s hs, ← form d' hnu' hpsi' X hX s hs, h _ (posDef_smul hX hs)]
  have l2 : 0 < log 2 := log_pos (by norm_num)
  have htr : ∀ X : Matrix p p ℝ, X.PosDef → (d.psi * X⁻¹).trace = (d'.psi * X⁻¹).trace := by
    intro X hX
    have e1 := hlog X hX 1 one_pos
    have e2 := hlog X hX 2 (by norm_num)
    have e4 := hlog X hX 4 (by norm_num)
    rw [log_one] at e1
    rw [log_four] at e4
    linear_combination -8 * e4 + 16 * e2 - 8 * e1
  have ep : d.psi = d'.psi := by
    refine eq_of_trace (posDef_symm hpsi) (posDef_symm hpsi') fun X hX => ?_
    have := htr X⁻¹ hX.inv
    rwa [nonsing_inv_nonsing_inv X (posDef_unit hX)] at this
  have en : d.nu = d'.nu := by
    have t := htr 1 PosDef.one
    have e1 := hlog 1 PosDef.one 1 one_pos
    have e2 := hlog 1 PosDef.one 2 (by norm_num)
    rw [log_one] at e1
    have : (d.nu - d'.nu) * (D * log 2) = 0 := by linear_combination -2 * (e2 - e1) + 1 / 2 * t
    rcases mul_eq_zero.1 this with h | h
    · linarith
    · exact absurd h (by positivity)
  cases d; cases d'
  simp only [InverseWishart.mk.injEq] at *
  exact ⟨en, ep⟩

/-- the constant of the Wishart density -/
theorem wishart_log {nu : ℝ} (hnu : (Fintype.card p : ℝ) - 1 < nu) {V : Matrix p p ℝ} (hV : V.PosDef)
    {X : Matrix p p ℝ} (hX : X.PosDef) {s : ℝ} (hs : 0 < s) :
    log (wishartPdf nu V (s • X)) = (nu - (Fintype.card p : ℝ) - 1) / 2 * ((Fintype.card p : ℝ) * log s + log X.det) -
      1 / 2 * ((V⁻¹ * X).trace * s) -
      log (2 ^ (nu * (Fintype.card p : ℝ) / 2) * V.det ^ (nu / 2) * multigamma (nu / 2) (Fintype.card p)) := by
  have hdet := posDef_det (posDef_smul hX hs)
  have h1 := posDef_det hV
  have h2 := multigamma_pos (a := nu / 2) (d := Fintype.card p) (by linarith)
  rw [wishartPdf, log_div (by positivity) (by positivity), log_mul (by positivity) (exp_pos _).ne',
    log_rpow hdet, log_det_smul hX hs, log_exp, Matrix.mul_smul, trace_smul, smul_eq_mul]
  ring

theorem wishart_identify [Nonempty p] {nu nu' : ℝ} {V V' : Matrix p p ℝ}
    (hnu : (Fintype.card p : ℝ) - 1 < nu) (hV : V.PosDef) (hnu' : (Fintype.card p : ℝ) - 1 < nu')
    (hV' : V'.PosDef) (h : ∀ S : Matrix p p ℝ, S.PosDef → wishartPdf nu V S = wishartPdf nu' V' S) :
    nu = nu' ∧ V = V' := by
  have hD : (0 : ℝ) < Fintype.card p := by exact_mod_cast Fintype.card_pos
  have hlog := fun (X : Matrix p p ℝ) (hX : X.PosDef) (s : ℝ) (hs : 0 < s) =>
    (wishart_log hnu hV hX hs).symm.trans ((congrArg log (h _ (posDef_smul hX hs))).trans (wishart_log hnu' hV' hX hs))
  have l2 : 0 < log 2 := log_pos (by norm_num)
  have htr : ∀ X : Matrix p p ℝ, X.PosDef → (V⁻¹ * X).trace = (V'⁻¹ * X).trace := by
    intro X hX
    have e1 := hlog X hX 1 one_pos
    have e2 := hlog X hX 2 (by norm_num)
    have e4 := hlog X hX 4 (by norm_num)
    rw [log_one] at e1
    rw [log_four] at e4
    linear_combination -2 * e4 + 4 * e2 - 2 * e1
  have ev : V⁻¹ = V'⁻¹ := eq_of_trace (posDef_symm hV.inv) (posDef_symm hV'.inv) htr
  refine ⟨?_, ?_⟩
  · have t := htr 1 PosDef.one
    have e1 := hlog 1 PosDef.one 1 one_pos
    have e2 := hlog 1 PosDef.one 2 (by norm_num)
    rw [log_one] at e1
    have : (nu - nu') * ((Fintype.card p : ℝ) * log 2) = 0 := by linear_combination 2 * (e2 - e1) + t
    rcases mul_eq_zero.1 this with h | h
    · linarith
    · exact absurd h (by positivity)
  · rw [← nonsing_inv_nonsing_inv V (posDef_unit hV), ev, nonsing_inv_nonsing_inv V' (posDef_unit hV')]

/-- C97, `Wishart`. -/
theorem C97_wishart [Nonempty p] (d d' : Wishart ℝ (Matrix p p ℝ))
    (hnu : (Fintype.card p : ℝ) - 1 < d.nu) (hV : d.V.PosDef) (hnu' : (Fintype.card p : ℝ) - 1 < d'.nu)
    (hV' : d'.V.PosDef) (h : ∀ S : Matrix p p ℝ, S.PosDef → d.pdf S = d'.pdf S) : d = d' := by
  obtain ⟨h1, h2⟩ := wishart_identify hnu hV hnu' hV' h
  cases d; cases d'
  simp only [Wishart.mk.injEq] at *
  exact ⟨h1, h2⟩

/-- C97, `NormalInverseWishart`: the joint distribution of mean and covariance. -/
theorem C97_normal_inverse_wishart [Nonempty p] (d d' : NormalInverseWishart ℝ (p → ℝ) (Matrix p p ℝ))
    (hk : 0 < d.kappa) (hnu : (Fintype.card p : ℝ) - 1 < d.nu) (hpsi : d.psi.PosDef)
    (hk' : 0 < d'.kappa) (hnu' : (Fintype.card p : ℝ) - 1 < d'.nu) (hpsi' : d'.psi.PosDef)
    (h : ∀ (x : p → ℝ) (S : Matrix p p ℝ), S.PosDef → d.jointPdf x S = d'.jointPdf x S) : d = d' := by
  have pd : ∀ {k : ℝ}, 0 < k → ∀ {S : Matrix p p ℝ}, S.PosDef → ((1 / k) • S).PosDef := fun hk _ hS =>
    posDef_smul hS (by positivity)
  have hiw : ∀ S : Matrix p p ℝ, S.PosDef → invwishartPdf d.nu d.psi S = invwishartPdf d'.nu d'.psi S := fun S hS =>
    density_factor MeasurableSet.univ (mvn_isDensity (pd hk hS) d.mu) (mvn_isDensity (pd hk' hS) d'.mu)
      fun x _ => h x S hS
  have e := C97_inverse_wishart ⟨d.nu, d.psi⟩ ⟨d'.nu, d'.psi⟩ hnu hpsi hnu' hpsi' hiw
  simp only [InverseWishart.mk.injEq] at e
  have hn : ∀ x, mvnPdf d.mu ((1 / d.kappa) • (1 : Matrix p p ℝ)) x = mvnPdf d'.mu ((1 / d'.kappa) • (1 : Matrix p p ℝ)) x := by
    intro x
    have := h x 1 PosDef.one
    simp only [NormalInverseWishart.jointPdf, ← hiw 1 PosDef.one] at this
    exact mul_left_cancel₀ (invwishartPdf_pos hnu hpsi PosDef.one).ne' this
  obtain ⟨em, ec⟩ := mvn_identify (pd hk PosDef.one) (pd hk' PosDef.one) hn
  have ek : d.kappa = d'.kappa := by
    obtain ⟨i⟩ := ‹Nonempty p›
    have := congrFun (congrFun ec i) i
    simp only [Matrix.smul_apply, one_apply_eq, smul_eq_mul, mul_one, one_div] at this
    exact _root_.inv_inj.1 this
  cases d; cases d'
  simp only [NormalInverseWishart.mk.injEq] at *
  exact ⟨em, ek, e.1, e.2⟩

/-- C97, `NormalWishart`: the joint distribution of mean and precision matrix. -/
theorem C97_normal_wishart [Nonempty p] (d d' : NormalWishart ℝ (p → ℝ) (Matrix p p ℝ))
    (hl : 0 < d.lam) (hnu : (Fintype.card p : ℝ) - 1 < d.nu) (hW : d.W.PosDef)
    (hl' : 0 < d'.lam) (hnu' : (Fintype.card p : ℝ) - 1 < d'.nu) (hW' : d'.W.PosDef)
    (h : ∀ (x : p → ℝ) (S : Matrix p p ℝ), S.PosDef → d.jointPdf x S = d'.jointPdf x S) : d = d' := by
  have pd : ∀ {k : ℝ}, 0 < k → ∀ {S : Matrix p p ℝ}, S.PosDef → (k • S)⁻¹.PosDef := fun hk _ hS =>
    (posDef_smul hS hk).inv
  have hw : ∀ S : Matrix p p ℝ, S.PosDef → wishartPdf d.nu d.W S = wishartPdf d'.nu d'.W S := fun S hS =>
    density_factor MeasurableSet.univ (mvn_isDensity (pd hl hS) d.mu) (mvn_isDensity (pd hl' hS) d'.mu)
      fun x _ => h x S hS
  have e := wishart_identify hnu hW hnu' hW' hw
  have hwpos : 0 < wishartPdf d.nu d.W 1 := by
    have h1 := posDef_det hW
    have h2 := multigamma_pos (a := d.nu / 2) (d := Fintype.card p) (by linarith)
    rw [wishartPdf, det_one]
    positivity
  have hn : ∀ x, mvnPdf d.mu (d.lam • (1 : Matrix p p ℝ))⁻¹ x = mvnPdf d'.mu (d'.lam • (1 : Matrix p p ℝ))⁻¹ x := by
    intro x
    have := h x 1 PosDef.one
    simp only [NormalWishart.jointPdf, ← hw 1 PosDef.one] at this
    exact mul_left_cancel₀ hwpos.ne' this
  obtain ⟨em, ec⟩ := mvn_identify (pd hl PosDef.one) (pd hl' PosDef.one) hn
  have ek : d.lam = d'.lam := by
    rw [inv_smul_mat PosDef.one hl.ne', inv_smul_mat PosDef.one hl'.ne', inv_one] at ec
    obtain ⟨i⟩ := ‹Nonempty p›
    have := congrFun (congrFun ec i) i
    simp only [Matrix.smul_apply, one_apply_eq, smul_eq_mul, mul_one] at this
    exact _root_.inv_inj.1 this
  cases d; cases d'
  simp only [NormalWishart.mk.injEq] at *
  exact ⟨em, ek, e.2, e.1⟩

/-! ## Mean and variance together -/

theorem InverseGamma.pdf_pos (d : InverseGamma ℝ) (hd : d.Valid) {x : ℝ} (hx : 0 < x) : 0 < d.dist.pdf x := by
  have h1 := hd.1
  have h2 := hd.2
  have := Real.Gamma_pos_of_pos h1
  rw [InverseGamma.pdf_eq d h2 hx]
  positivity

theorem Gamma.pdf_pos (d : Gamma ℝ) (hd : d.Valid) {x : ℝ} (hx : 0 < x) : 0 < d.dist.pdf x := by
  have h1 := hd.1
  have h2 := hd.2
  have := Real.Gamma_pos_of_pos h1
  rw [Gamma.pdf_eq d h2 hx]
  positivity

/-- C97, `NormalInverseGamma` (one mean): the joint distribution of mean and variance determines every
parameter that plays a part in it. -/
theorem C97_normal_inverse_gamma {M : Type*} (d d' : NormalInverseGamma ℝ ℝ M) (nu nu' : ℝ) (hnu : 0 < nu)
    (ha : 0 < d.alpha) (hb : 0 < d.beta) (hnu' : 0 < nu') (ha' : 0 < d'.alpha) (hb' : 0 < d'.beta)
    (h : ∀ m v, 0 < v → d.jointPdf nu m v = d'.jointPdf nu' m v) :
    d.mu = d'.mu ∧ nu = nu' ∧ d.alpha = d'.alpha ∧ d.beta = d'.beta := by
  have pw : ∀ {n v : ℝ}, 0 < n → 0 < v → 0 < powq (v / n) (1 / 2) := fun hn hv => by
    rw [powq_real]; exact rpow_pos_of_pos (by positivity) _
  have hig : ∀ v ∈ Ioi (0 : ℝ), (InverseGamma.dist ⟨d.alpha, d.beta⟩).pdf v = (InverseGamma.dist ⟨d'.alpha, d'.beta⟩).pdf v :=
    fun v hv => density_factor MeasurableSet.univ (Normal.isDensity ⟨d.mu, powq (v / nu) (1 / 2)⟩ (pw hnu hv))
      (Normal.isDensity ⟨d'.mu, powq (v / nu') (1 / 2)⟩ (pw hnu' hv)) fun m _ => h m v hv
  have e := C97_inverse_gamma _ _ ⟨ha, hb⟩ ⟨ha', hb'⟩ hig
  simp only [InverseGamma.mk.injEq] at e
  have hn := C97_normal ⟨d.mu, powq (1 / nu) (1 / 2)⟩ ⟨d'.mu, powq (1 / nu') (1 / 2)⟩ (pw hnu one_pos)
    (pw hnu' one_pos) (fun m => by
      have := h m 1 one_pos
      simp only [NormalInverseGamma.jointPdf, ← hig 1 (mem_Ioi.2 one_pos)] at this
      exact mul_left_cancel₀ (InverseGamma.pdf_pos ⟨d.alpha, d.beta⟩ ⟨ha, hb⟩ one_pos).ne' this)
  simp only [Normal.mk.injEq] at hn
  refine ⟨hn.1, ?_, e⟩
  have h2 := hn.2
  rw [powq_real, powq_real] at h2
  have := rpow_left_injOn (x := (((1 / 2 : ℚ)) : ℝ)) (by norm_num) (show 1 / nu ∈ {y : ℝ | 0 ≤ y} from by
    simp only [mem_ofPred_eq]; positivity) (show 1 / nu' ∈ {y : ℝ | 0 ≤ y} from by
    simp only [mem_ofPred_eq]; positivity) h2
  rw [one_div, one_div] at this
  exact _root_.inv_inj.1 this

/-- C97, `NormalInverseGamma` (several coefficients). -/
theorem C97_normal_inverse_gamma_nd (d d' : NormalInverseGamma ℝ (p → ℝ) (Matrix p p ℝ)) (D D' : Matrix p p ℝ)
    (hD : D.PosDef) (ha : 0 < d.alpha) (hb : 0 < d.beta) (hD' : D'.PosDef) (ha' : 0 < d'.alpha) (hb' : 0 < d'.beta)
    (h : ∀ b v, 0 < v → d.jointPdfNd D b v = d'.jointPdfNd D' b v) :
    d.mu = d'.mu ∧ D = D' ∧ d.alpha = d'.alpha ∧ d.beta = d'.beta := by
  have hig : ∀ v ∈ Ioi (0 : ℝ), (InverseGamma.dist ⟨d.alpha, d.beta⟩).pdf v = (InverseGamma.dist ⟨d'.alpha, d'.beta⟩).pdf v :=
    fun v hv => density_factor MeasurableSet.univ (mvn_isDensity (posDef_smul hD hv) d.mu)
      (mvn_isDensity (posDef_smul hD' hv) d'.mu) fun m _ => h m v hv
  have e := C97_inverse_gamma _ _ ⟨ha, hb⟩ ⟨ha', hb'⟩ hig
  simp only [InverseGamma.mk.injEq] at e
  obtain ⟨em, ec⟩ := mvn_identify (posDef_smul hD one_pos) (posDef_smul hD' one_pos) (m := d.mu) (m' := d'.mu)
    (fun b => by
      have := h b 1 one_pos
      simp only [NormalInverseGamma.jointPdfNd, ← hig 1 (mem_Ioi.2 one_pos)] at this
      exact mul_left_cancel₀ (InverseGamma.pdf_pos ⟨d.alpha, d.beta⟩ ⟨ha, hb⟩ one_pos).ne' this)
  rw [one_smul, one_smul] at ec
  exact ⟨em, ec, e⟩

/-- C97, `NormalGamma`: the joint distribution of mean and precision. -/
theorem C97_normal_gamma (d d' : NormalGamma ℝ) (hl : 0 < d.lam) (ha : 0 < d.alpha) (hb : 0 < d.beta)
    (hl' : 0 < d'.lam) (ha' : 0 < d'.alpha) (hb' : 0 < d'.beta)
    (h : ∀ m t, 0 < t → d.jointPdf m t = d'.jointPdf m t) : d = d' := by
  have pw : ∀ {n v : ℝ}, 0 < n → 0 < v → 0 < powq (1 / (n * v)) (1 / 2) := fun hn hv => by
    rw [powq_real]; exact rpow_pos_of_pos (by positivity) _
  have hig : ∀ v ∈ Ioi (0 : ℝ), (Gamma.dist ⟨d.alpha, d.beta⟩).pdf v = (Gamma.dist ⟨d'.alpha, d'.beta⟩).pdf v :=
    fun v hv => density_factor MeasurableSet.univ (Normal.isDensity ⟨d.mu, powq (1 / (d.lam * v)) (1 / 2)⟩ (pw hl hv))
      (Normal.isDensity ⟨d'.mu, powq (1 / (d'.lam * v)) (1 / 2)⟩ (pw hl' hv)) fun m _ => h m v hv
  have e := C97_gamma _ _ ⟨ha, hb⟩ ⟨ha', hb'⟩ hig
  simp only [Gamma.mk.injEq] at e
  have hn := C97_normal ⟨d.mu, powq (1 / (d.lam * 1)) (1 / 2)⟩ ⟨d'.mu, powq (1 / (d'.lam * 1)) (1 / 2)⟩ (pw hl one_pos)
    (pw hl' one_pos) (fun m => by
      have := h m 1 one_pos
      simp only [NormalGamma.jointPdf, ← hig 1 (mem_Ioi.2 one_pos)] at this
      exact mul_left_cancel₀ (Gamma.pdf_pos ⟨d.alpha, d.beta⟩ ⟨ha, hb⟩ one_pos).ne' this)
  simp only [Normal.mk.injEq] at hn
  have h2 := hn.2
  rw [powq_real, powq_real] at h2
  have h3 := rpow_left_injOn (x := (((1 / 2 : ℚ)) : ℝ)) (by norm_num) (show 1 / (d.lam * 1) ∈ {y : ℝ | 0 ≤ y} from by
    simp only [mem_ofPred_eq]; positivity) (show 1 / (d'.lam * 1) ∈ {y : ℝ | 0 ≤ y} from by
    simp only [mem_ofPred_eq]; positivity) h2
  rw [one_div, one_div, mul_one, mul_one] at h3
  have h4 := _root_.inv_inj.1 h3
  cases d; cases d'
  simp only [NormalGamma.mk.injEq] at *
  exact ⟨hn.1, h4, e⟩

/-! ## The hypotheses are met -/

example : ∃ x, (MultivariateNormal.mk (0 : Fin 2 → ℝ) (1 : Matrix (Fin 2) (Fin 2) ℝ)).pdf x ≠
    (MultivariateNormal.mk 0 ((2 : ℝ) • 1)).pdf x := by
  by_contra h
  push Not at h
  have := C97_multivariate_normal ⟨0, 1⟩ ⟨0, (2 : ℝ) • 1⟩ PosDef.one (posDef_smul PosDef.one two_pos) h
  simp only [MultivariateNormal.mk.injEq] at this
  have := congrFun (congrFun this.2 0) 0
  norm_num at this

example : ∃ x, (MultivariateStudentT.mk (0 : Fin 2 → ℝ) (1 : Matrix (Fin 2) (Fin 2) ℝ) (3 : ℝ)).pdf x ≠
    (MultivariateStudentT.mk 0 1 4).pdf x := by
  by_contra h
  push Not at h
  have := C97_multivariate_student_t ⟨0, 1, 3⟩ ⟨0, 1, 4⟩ PosDef.one (by norm_num) PosDef.one (by norm_num) h
  norm_num at this

example : ∃ S : Matrix (Fin 2) (Fin 2) ℝ, S.PosDef ∧ (InverseWishart.mk (3 : ℝ) 1).pdf S ≠
    (InverseWishart.mk (4 : ℝ) 1).pdf S := by
  by_contra h
  push Not at h
  have := C97_inverse_wishart ⟨3, 1⟩ ⟨4, 1⟩ (by norm_num) PosDef.one (by norm_num) PosDef.one h
  norm_num at this

example : ∃ S : Matrix (Fin 2) (Fin 2) ℝ, S.PosDef ∧ (Wishart.mk (3 : ℝ) 1).pdf S ≠ (Wishart.mk (4 : ℝ) 1).pdf S := by
  by_contra h
  push Not at h
  have := C97_wishart ⟨3, 1⟩ ⟨4, 1⟩ (by norm_num) PosDef.one (by norm_num) PosDef.one h
  norm_num at this

example : ∃ (x : Fin 2 → ℝ) (S : Matrix (Fin 2) (Fin 2) ℝ), S.PosDef ∧
    (NormalInverseWishart.mk 0 (1 : ℝ) 3 1).jointPdf x S ≠ (NormalInverseWishart.mk 0 (2 : ℝ) 3 1).jointPdf x S := by
  by_contra h
  push Not at h
  have := C97_normal_inverse_wishart ⟨0, 1, 3, 1⟩ ⟨0, 2, 3, 1⟩ (by norm_num) (by norm_num) PosDef.one (by norm_num)
    (by norm_num) PosDef.one h
  norm_num at this

example : ∃ (x : Fin 2 → ℝ) (S : Matrix (Fin 2) (Fin 2) ℝ), S.PosDef ∧
    (NormalWishart.mk 0 (1 : ℝ) 1 3).jointPdf x S ≠ (NormalWishart.mk 0 (2 : ℝ) 1 3).jointPdf x S := by
  by_contra h
  push Not at h
  have := C97_normal_wishart ⟨0, 1, 1, 3⟩ ⟨0, 2, 1, 3⟩ (by norm_num) (by norm_num) PosDef.one (by norm_num)
    (by norm_num) PosDef.one h
  norm_num at this

example : ∃ m t : ℝ, 0 < t ∧ (NormalGamma.mk (0 : ℝ) 1 1 1).jointPdf m t ≠ (NormalGamma.mk 0 2 1 1).jointPdf m t := by
  by_contra h
  push Not at h
  have := C97_normal_gamma ⟨0, 1, 1, 1⟩ ⟨0, 2, 1, 1⟩ (by norm_num) (by norm_num) (by norm_num) (by norm_num)
    (by norm_num) (by norm_num) h
  norm_num at this

example : ∃ m v : ℝ, 0 < v ∧ (NormalInverseGamma.mk (0 : ℝ) (1 : ℝ) 1 (none : Option ℝ) (some 1)).jointPdf 1 m v ≠
    (NormalInverseGamma.mk (0 : ℝ) (2 : ℝ) 1 (none : Option ℝ) (some 1)).jointPdf 1 m v := by
  by_contra h
  push Not at h
  have := C97_normal_inverse_gamma ⟨0, 1, 1, none, some 1⟩ ⟨0, 2, 1, none, some 1⟩ 1 1 (by norm_num) (by norm_num)
    (by norm_num) (by norm_num) (by norm_num) (by norm_num) h
  norm_num at this

example : ∃ (b : Fin 2 → ℝ) (v : ℝ), 0 < v ∧
    (NormalInverseGamma.mk (0 : Fin 2 → ℝ) (1 : ℝ) 1 (some (1 : Matrix (Fin 2) (Fin 2) ℝ)) none).jointPdfNd 1 b v ≠
    (NormalInverseGamma.mk (0 : Fin 2 → ℝ) (2 : ℝ) 1 (some (1 : Matrix (Fin 2) (Fin 2) ℝ)) none).jointPdfNd 1 b v := by
  by_contra h
  push Not at h
  have := C97_normal_inverse_gamma_nd ⟨0, 1, 1, some 1, none⟩ ⟨0, 2, 1, some 1, none⟩ 1 1 PosDef.one (by norm_num)
    (by norm_num) PosDef.one (by norm_num) (by norm_num) h
  norm_num at this

end Conj
