import Verif.BandSpec
import Verif.Props.Marginals
import Mathlib.MeasureTheory.Integral.IntervalIntegral.IntegrationByParts

/-!
# Mass near the centre of a Student-t
-/

open MeasureTheory Set

namespace Conj

open Scipy Spec

theorem densLaw_Icc {f : ℝ → ℝ} (hc : Continuous f) (h0 : ∀ x, 0 ≤ f x) {a b : ℝ} (hab : a ≤ b) :
    densLaw f (Icc a b) = ENNReal.ofReal (∫ x in a..b, f x) := by
  rw [densLaw, withDensity_apply _ measurableSet_Icc, intervalIntegral.integral_of_le hab, ← integral_Icc_eq_integral_Ioc,
    ofReal_integral_eq_lintegral_ofReal (hc.integrableOn_Icc) (.of_forall h0)]

theorem student_pos {m s nu : ℝ} (hs : 0 < s) (hn : 0 < nu) (x : ℝ) : 0 < (StudentT.dist ⟨m, s, nu⟩).pdf x := by
  simp only [StudentT.dist, Cont.pdf, Family.std]
  have := Real.Gamma_pos_of_pos (show 0 < (nu + 1) / 2 by positivity)
  have := Real.Gamma_pos_of_pos (show 0 < nu / 2 by positivity)
  positivity

/-- the mass within `w` of the centre: that of the standard distribution within `w / s` -/
theorem student_mass {m s nu : ℝ} (hs : 0 < s) (hn : 0 < nu) {w : ℝ} (hw : 0 < w) :
    densLaw (StudentT.dist ⟨m, s, nu⟩).pdf (Icc (m - w) (m + w)) =
      ENNReal.ofReal (∫ z in (-(w / s))..(w / s), (StudentT.dist ⟨0, 1, nu⟩).pdf z) := by
  rw [densLaw_Icc (continuous_student_pdf m s nu hs hn) (fun x => (student_pos hs hn x).le) (by linarith)]
  have e : ∀ x, (StudentT.dist ⟨m, s, nu⟩).pdf x = s⁻¹ * (StudentT.dist ⟨0, 1, nu⟩).pdf (x / s - m / s) := by
    intro x
    simp only [StudentT.dist, Cont.pdf, sub_zero, div_one]
    rw [sub_div, div_eq_inv_mul]
  simp only [e]
  rw [intervalIntegral.integral_const_mul, intervalIntegral.integral_comp_div_sub _ hs.ne', smul_eq_mul, ← mul_assoc,
    inv_mul_cancel₀ hs.ne', one_mul]
  congr 2 <;> ring

theorem student_mass_lt {nu : ℝ} (hn : 0 < nu) {a b : ℝ} (ha : 0 < a) (hab : a < b) :
    ENNReal.ofReal (∫ z in (-a)..a, (StudentT.dist ⟨0, 1, nu⟩).pdf z) <
      ENNReal.ofReal (∫ z in (-b)..b, (StudentT.dist ⟨0, 1, nu⟩).pdf z) := by
  have hc := continuous_student_pdf 0 1 nu one_pos hn
  have hi : ∀ x y, IntervalIntegrable (StudentT.dist ⟨0, 1, nu⟩).pdf volume x y := fun x y => hc.intervalIntegrable x y
  have hp : ∀ x y, x < y → 0 < ∫ z in x..y, (StudentT.dist ⟨0, 1, nu⟩).pdf z := fun x y h =>
    intervalIntegral.intervalIntegral_pos_of_pos_on (hi x y) (fun z _ => student_pos one_pos hn z) h
  rw [← intervalIntegral.integral_add_adjacent_intervals (hi (-b) (-a)) (hi (-a) b),
    ← intervalIntegral.integral_add_adjacent_intervals (hi (-a) a) (hi a b)]
  rw [ENNReal.ofReal_lt_ofReal_iff]
  · have := hp (-b) (-a) (by linarith)
    have := hp a b hab
    linarith
  · have := hp (-b) (-a) (by linarith)
    have := hp a b hab
    have := hp (-a) a (by linarith)
    linarith

theorem student_wider {m m' s s' nu : ℝ} (hs : 0 < s) (hs' : 0 < s') (hn : 0 < nu) :
    Wider (densLaw (StudentT.dist ⟨m, s, nu⟩).pdf) m (densLaw (StudentT.dist ⟨m', s', nu⟩).pdf) m' ↔ s' < s := by
  constructor
  · intro h
    have h1 := h 1 one_pos
    rw [student_mass hs hn one_pos, student_mass hs' hn one_pos] at h1
    by_contra hss
    rcases (not_lt.1 hss).lt_or_eq with hlt | rfl
    · exact absurd h1 (not_lt.2 (student_mass_lt hn (by positivity) (one_div_lt_one_div_of_lt hs hlt)).le)
    · exact lt_irrefl _ h1
  · intro hss w hw
    rw [student_mass hs hn hw, student_mass hs' hn hw]
    exact student_mass_lt hn (by positivity) (div_lt_div_of_pos_left hw hs' hss)

end Conj
