import Verif.Lemmas.Density
import Verif.Lemmas.Steps
import Verif.Props.Exponential
import Verif.Props.Proportional
import Verif.Props.PosteriorScalar
import Mathlib.Analysis.SpecialFunctions.Log.Basic
import Mathlib.Analysis.SpecialFunctions.Pow.Continuity

/-! Lemmas for reading a distribution's parameters off its density. -/

open Real Filter Topology Set

namespace Conj

open Scipy

/-- A function that grows like `-a * g`, up to a convergent remainder, determines `a` and the remainder's limit. -/
theorem rate_unique {ι : Type*} {l : Filter ι} [l.NeBot] {f g : ι → ℝ} (hg : Tendsto g l atTop)
    {a a' L L' : ℝ} (h : Tendsto (fun x => f x + a * g x) l (𝓝 L))
    (h' : Tendsto (fun x => f x + a' * g x) l (𝓝 L')) : a = a' ∧ L = L' := by
  have hd : Tendsto (fun x => (a - a') * g x) l (𝓝 (L - L')) := by
    refine (h.sub h').congr fun x => ?_
    ring
  have ha : a = a' := by
    by_contra hne
    have hr : Tendsto (fun x => (a - a')⁻¹ * ((a - a') * g x)) l (𝓝 ((a - a')⁻¹ * (L - L'))) :=
      hd.const_mul _
    have he : (fun x => (a - a')⁻¹ * ((a - a') * g x)) = g := by
      funext x
      rw [← mul_assoc, inv_mul_cancel₀ (sub_ne_zero.2 hne), one_mul]
    rw [he] at hr
    exact not_tendsto_nhds_of_tendsto_atTop hg _ hr
  subst ha
  exact ⟨rfl, tendsto_nhds_unique h h'⟩

theorem log_kernel {c x y u v : ℝ} (hc : 0 < c) (hx : 0 < x) (hy : 0 < y) :
    log (c * x ^ u * y ^ v) = log c + u * log x + v * log y := by
  rw [log_mul (by positivity) (by positivity), log_mul (by positivity) (by positivity), log_rpow hx,
    log_rpow hy]

theorem log_kernel_exp {c x u v : ℝ} (hc : 0 < c) (hx : 0 < x) :
    log (c * x ^ u * exp v) = log c + u * log x + v := by
  rw [log_mul (by positivity) (by positivity), log_mul (by positivity) (by positivity), log_rpow hx, log_exp]

theorem log_two_lt_one : log 2 < 1 := by
  have := log_lt_sub_one_of_pos (x := 2) (by norm_num) (by norm_num)
  linarith

end Conj
