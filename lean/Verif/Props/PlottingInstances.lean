import Verif.Props.Plotting

/-!
# C61, C62: the grid an instance is plotted on

The grids of `Verif/Props/Plotting.lean` with the bounds the instance has after any calls.
-/

namespace Conj

open Spec

/-- After any calls, a continuous distribution with a maximum is plotted at 100 points, point `i` being
`min + i * (max - min) / 99`, from the minimum (0 if none was set) to the maximum. -/
theorem C61_continuous_plot (s : PlotState ℝ) (calls : List (PlotCall ℝ)) (lo hi : ℝ)
    (h_max : (lastSet setsMax calls).or s.max = some hi) (h_min : ((lastSet setsMin calls).or s.min).getD 0 = lo) :
    ∃ g, (s.run calls).xValues continuousXValues = .ok g ∧ g.length = 100 ∧
      (∀ i : ℕ, i < 100 → g[i]? = some (lo + i * ((hi - lo) / 99))) ∧ g.head? = some lo ∧ g.getLast? = some hi := by
  obtain ⟨h1, h2, h3, h4⟩ := C61_continuous_grid lo hi
  refine ⟨_, ?_, h1, h2, h3, h4⟩
  rw [C60_plot_needs_max, h_max, h_min]

/-- After any calls, a discrete distribution whose bounds differ by an integer is plotted at `min, min + 1, ..., max`.
Missing for C62: other bounds, where the last point lies above the maximum (`C62_discrete_grid_overshoots_iff`). -/
theorem C62_discrete_plot_partial (s : PlotState ℝ) (calls : List (PlotCall ℝ)) (lo hi : ℝ) (k : ℕ)
    (h_max : (lastSet setsMax calls).or s.max = some hi) (h_min : ((lastSet setsMin calls).or s.min).getD 0 = lo)
    (h : hi - lo = k) :
    (s.run calls).xValues discreteXValues = .ok ((List.range (k + 1)).map fun i : ℕ => lo + i) := by
  rw [C60_plot_needs_max, h_max, h_min]
  exact congrArg Except.ok (C62_discrete_grid_partial lo hi k h).1

/-- `set_bounds(1, 4)` after `set_max_value(3)` -/
example : (lastSet setsMax [PlotCall.setMax (3 : ℝ), .setBounds 1 4, .getMin]).or (PlotState.max ({} : PlotState ℝ)) = some 4 ∧
    ((lastSet setsMin [PlotCall.setMax (3 : ℝ), .setBounds 1 4, .getMin]).or (PlotState.min ({} : PlotState ℝ))).getD 0 = 1 ∧
    (4 : ℝ) - 1 = (3 : ℕ) := ⟨rfl, rfl, by norm_num⟩

end Conj
