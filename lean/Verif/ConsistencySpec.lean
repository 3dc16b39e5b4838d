import Mathlib.MeasureTheory.Measure.MeasureSpace
import Mathlib.MeasureTheory.Measure.WithDensity
import Mathlib.MeasureTheory.Measure.Count
import Mathlib.Probability.Independence.Basic
import Mathlib.Topology.MetricSpace.Pseudo.Defs
import Mathlib.MeasureTheory.Integral.Bochner.Basic
import Mathlib.MeasureTheory.Integral.Bochner.Set
import Verif.SampleSpec

/-!
# Specification: learning from more and more data
-/

open MeasureTheory Filter Topology

namespace Conj.Spec

/-- `X 0, X 1, ...` are independent observations, each with law `law` -/
structure IIDFrom {Ω A : Type} [MeasurableSpace Ω] [MeasurableSpace A] (Q : Measure Ω) (X : ℕ → Ω → A)
    (law : Measure A) : Prop where
  measurable : ∀ i, Measurable (X i)
  law : ∀ i, Q.map (X i) = law
  indep : ProbabilityTheory.iIndepFun X Q

/-- the law of a random element of a countable set, by its probabilities -/
noncomputable def pmfLaw {A : Type} [MeasurableSpace A] (p : A → ℝ) : Measure A :=
  Measure.count.withDensity fun a => ENNReal.ofReal (p a)

/-- the probability of every neighbourhood of `x₀` tends to one -/
def ConcentratesAt {Y : Type} [MeasurableSpace Y] [PseudoMetricSpace Y] (post : ℕ → Measure Y) (x₀ : Y) : Prop :=
  ∀ ε > 0, Tendsto (fun n => post n (Metric.ball x₀ ε)) atTop (𝓝 1)

/-- SciPy's `ppf`: the smallest `x` with at least probability `q` up to `x` -/
noncomputable def ppf (μ : Measure ℝ) (q : ℝ) : ℝ := sInf {x | ENNReal.ofReal q ≤ μ (Set.Iic x)}

/-- a sequence of posteriors of a real parameter finds the value `x₀`: besides concentrating there, its mean and
both ends of every credible interval tend to `x₀` -/
structure Recovers (post : ℕ → Measure ℝ) (x₀ : ℝ) : Prop where
  concentrates : ConcentratesAt post x₀
  mean_exists : ∀ᶠ n in atTop, Integrable (fun x => x) (post n)
  mean : Tendsto (fun n => ∫ x, x ∂post n) atTop (𝓝 x₀)
  quantile : ∀ q, 0 < q → q < 1 → Tendsto (fun n => ppf (post n) q) atTop (𝓝 x₀)

/-- a sequence of posteriors known only up to a constant finds the value `x₀`: from some point on the kernel can be
normalised, and the normalised law concentrates at `x₀` -/
structure KernelsConcentrate {Y : Type} [MeasureSpace Y] [PseudoMetricSpace Y] (S : Set Y) (k : ℕ → Y → ℝ) (x₀ : Y) :
    Prop where
  normalisable : ∀ᶠ n in atTop, IntegrableOn (k n) S
  concentrates : ConcentratesAt (fun n => lawOn S fun x => k n x / ∫ t in S, k n t) x₀

/-- every returned mean is in `U` and every returned variance is in `V` -/
def AllIn {A B : Type} (U : Set A) (V : Set B) : Sampled A B → Prop
  | .mean means => ∀ x ∈ means, x ∈ U
  | .meanAndVariance means variances => (∀ x ∈ means, x ∈ U) ∧ ∀ y ∈ variances, y ∈ V

/-- the samples with each variance replaced by `g` of it -/
def mapVariance {A B C : Type} (g : B → C) : Sampled A B → Sampled A C
  | .mean means => .mean means
  | .meanAndVariance means variances => .meanAndVariance means (variances.map g)

/-- the samples `f 0`, `f 1`, ... return gather at `(a, b)`: the probability that every mean is close to `a` and every
variance is close to `b` tends to one, both with the caller's `Generator` and with numpy's global generator -/
def SamplesGatherAt {A B : Type} [TopologicalSpace A] [TopologicalSpace B] (P : Measure Stream)
    (f : ℕ → RandomState → World → Sampled A B × World) (a : A) (b : B) : Prop :=
  ∀ U ∈ 𝓝 a, ∀ V ∈ 𝓝 b,
    (∀ global, Tendsto (fun n => P {s | AllIn U V (f n .generator ⟨global, s⟩).1}) atTop (𝓝 1)) ∧
    (∀ gen, Tendsto (fun n => P {s | AllIn U V (f n .none ⟨s, gen⟩).1}) atTop (𝓝 1))

/-- `dist.rvs`, `sample_variance`: the samples gather at `a` -/
def RvsGatherAt {A : Type} [TopologicalSpace A] (P : Measure Stream)
    (f : ℕ → RandomState → World → List A × World) (a : A) : Prop :=
  ∀ U ∈ 𝓝 a,
    (∀ global, Tendsto (fun n => P {s | ∀ x ∈ (f n .generator ⟨global, s⟩).1, x ∈ U}) atTop (𝓝 1)) ∧
    (∀ gen, Tendsto (fun n => P {s | ∀ x ∈ (f n .none ⟨s, gen⟩).1, x ∈ U}) atTop (𝓝 1))

end Conj.Spec
