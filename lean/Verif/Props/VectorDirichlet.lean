import Verif.VectorDirichlet
import Verif.Props.Sampling

/-!
# C83: vectorised Dirichlet distributions
-/

namespace Conj

open Spec

/-- Sampling a matrix of parameters without a seed: block `i` is a sample of the Dirichlet distribution of row `i`,
drawn after the blocks before it.
Missing for C83: a seed, and plotting, where it is false. -/
theorem C83_rows_partial (sci : Samplers Unit) (lib : DirichletLib) (rows : List (List ℝ)) (hr : rows ≠ []) (size : ℕ)
    (w : World) :
    let draws := rows.map fun a => lib.rvs a size
    ∃ blocks w', (AlphaArr.mat rows).dist.rvs sci lib size none w = .ok (.stack blocks, w') ∧
      blocks.length = rows.length ∧
      ∀ i : ℕ, blocks[i]? = rows[i]?.map fun a => (lib.rvs a size).value (w.global.drop (usedBefore draws w.global i)) := by
  intro draws
  refine ⟨(drawAll draws w.global).1, { w with global := (drawAll draws w.global).2 }, ?_, ?_, fun i => ?_⟩
  · simp only [AlphaArr.dist, DirichletDist.rvs, if_neg hr, rvsEach_none]
    rfl
  · rw [drawAll_length]; simp [draws]
  · rw [drawAll_getElem?]
    simp [draws, Function.comp_def]

/-- The means of a matrix of parameters are the means of its rows. -/
theorem C83_means (lib : DirichletLib) (rows : List (List ℝ)) (hr : rows ≠ []) :
    (AlphaArr.mat rows).dist.mean lib = .ok (rows.map lib.mean) := by
  simp [AlphaArr.dist, DirichletDist.mean, hr]

/-- A matrix of parameters cannot be sampled with any `random_state`, and cannot be plotted at all. -/
theorem C83_no_seed_no_plot (sci : Samplers Unit) (lib : DirichletLib) (rows : List (List ℝ)) (size : ℕ)
    (rs : RandomState) (label : Label) (w : World) :
    ((AlphaArr.mat rows).dist.rvs sci lib size (some rs) w).toOption = none ∧
    Dirichlet.plot_pdf sci lib (.mat rows) size rs label w = .error .typeError :=
  ⟨rfl, rfl⟩

/-- A vector of parameters can be sampled with a seed and plotted: curve `j` is estimated from the draws
of probability `j`, and with a seed the result is the same in every state. -/
theorem C83_vector_plot (sci : Samplers Unit) (lib : DirichletLib) (alpha : List ℝ) (size k : ℕ) (w : World) :
    Dirichlet.plot_pdf sci lib (.vec alpha) size (.seed k) .none w =
      .ok ((List.range alpha.length).map fun j =>
        ((((lib.rvs alpha size).value (sci.seeded k)).map fun draw => draw.getD j 0), none)) := by
  have key : ∀ (l : List (List ℝ)), dirichletLines l .none = .ok (l.map fun c => (c, none)) := by
    intro l
    simp only [dirichletLines, labelToIterable]
    change (zipLongest l (List.replicate l.length none)).mapM _ = _
    induction l with
    | nil => rfl
    | cons c l ih =>
      simp only [List.length_cons, List.replicate_succ, zipLongest, List.mapM_cons, List.map_cons]
      rw [ih]
      rfl
  change dirichletLines (columns alpha.length ((lib.rvs alpha size).value (sci.seeded k))) .none = _
  rw [key]
  simp [columns, Function.comp_def]

end Conj
