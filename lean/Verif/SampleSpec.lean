import Verif.Sampling
import Verif.SumSpec
import Verif.MatScipy
import Verif.SymSpec
import Mathlib.MeasureTheory.Constructions.Pi
import Mathlib.MeasureTheory.Measure.WithDensity
import Mathlib.MeasureTheory.Measure.Prod
import Mathlib.LinearAlgebra.Matrix.PosDef

/-!
# Specification: what it means for a sampler to have a law

The deviates a generator will produce are random, with law `P`.  A sampler has law `μ` when the value it
returns has law `μ` and what is left of the stream is independent of that value and again has law `P`.
-/

open MeasureTheory Set

namespace Conj.Spec

open Scipy

variable {A B C : Type} [MeasurableSpace A] [MeasurableSpace B] [MeasurableSpace C]

/-- matrices have the product σ-algebra of their entries -/
instance {m n : Type} : MeasurableSpace (Matrix m n ℝ) := inferInstanceAs (MeasurableSpace (m → n → ℝ))

/-- the law with density `f` on `S` (and no mass outside) with respect to Lebesgue measure -/
noncomputable def lawOn {X : Type} [MeasureSpace X] (S : Set X) (f : X → ℝ) : Measure X :=
  (volume.restrict S).withDensity fun x => ENNReal.ofReal (f x)

/-- the sampler `d b` has law `κ b`, for every parameter `b` in `T`; the value and the rest of the
stream depend measurably on the stream and the parameter -/
structure SamplesEach (P : Measure Stream) (d : B → Draw A) (T : Set B) (κ : B → Measure A) : Prop where
  measurable : Measurable fun q : B × Stream => (d q.1).run q.2
  prob : ∀ b ∈ T, IsProbabilityMeasure (κ b)
  law : ∀ b ∈ T, P.map (d b).run = (κ b).prod P

/-- a sampler without parameters -/
def Samples (P : Measure Stream) (d : Draw A) (μ : Measure A) : Prop :=
  SamplesEach P (fun _ : Unit => d) univ (fun _ => μ)

/-- SciPy's univariate samplers do what they say: they draw from the distributions whose densities are in
`Scipy.lean` -/
structure CorrectScalar {ι : Type} (lib : Samplers ι) (P : Measure Stream) : Prop where
  invgamma : ∀ a > 0, ∀ b > 0, Samples P (lib.invgamma a b) (contLaw { family := .invgamma a, scale := b })
  gamma : ∀ a > 0, SamplesEach P (fun b => lib.gamma a b) (Ioi 0)
    (fun b => contLaw { family := .gamma a, scale := b })
  norm : ∀ loc, SamplesEach P (fun scale => lib.norm loc scale) (Ioi 0)
    (fun scale => contLaw { family := .norm, loc := loc, scale := scale })
  beta : ∀ a > 0, ∀ b > 0, Samples P (lib.beta a b) (contLaw { family := .beta a b })
  geom : SamplesEach P lib.geom (Ioo 0 1)
    (fun p => (discLaw { family := .geom p }).map fun k : ℤ => (k : ℝ))

/-- SciPy's multivariate normal sampler draws from the multivariate normal -/
def CorrectNormal {ι : Type} [Fintype ι] [DecidableEq ι] (lib : Samplers ι) (P : Measure Stream) : Prop :=
  SamplesEach P (fun q : (ι → ℝ) × Matrix ι ι ℝ => lib.multivariate_normal q.1 q.2) {q | q.2.PosDef}
    (fun q => lawOn univ (mvnPdf q.1 q.2))

/-- the law of a random symmetric matrix with density `f` on the positive definite matrices -/
noncomputable def symLaw {n : ℕ} (f : Matrix (Fin n) (Fin n) ℝ → ℝ) : Measure (Matrix (Fin n) (Fin n) ℝ) :=
  (lawOn {c | (symOf c).PosDef} fun c : UpperIdx n → ℝ => f (symOf c)).map symOf

/-- SciPy's inverse Wishart sampler draws from the inverse Wishart distribution -/
def CorrectInvWishart {n : ℕ} (lib : Samplers (Fin n)) (P : Measure Stream) : Prop :=
  ∀ df, (n : ℝ) - 1 < df → ∀ scale : Matrix (Fin n) (Fin n) ℝ, scale.PosDef →
    Samples P (lib.invwishart df scale) (symLaw (invwishartPdf df scale))

/-- SciPy's Wishart sampler draws from the Wishart distribution -/
def CorrectWishart {n : ℕ} (lib : Samplers (Fin n)) (P : Measure Stream) : Prop :=
  ∀ df, (n : ℝ) - 1 < df → ∀ scale : Matrix (Fin n) (Fin n) ℝ, scale.PosDef →
    Samples P (lib.wishart df scale) (symLaw (wishartPdf df scale))

/-- the law on `first, first + 1, ...` with probabilities `pmf` -/
noncomputable def countLaw (first : ℝ) (pmf : ℝ → ℝ) : Measure ℝ :=
  (Measure.count.withDensity fun m : ℕ => ENNReal.ofReal (pmf (first + m))).map fun m : ℕ => first + (m : ℝ)

/-- the list `f` returns holds `n` independent values, each with law `μ` -/
def IIDSample (P : Measure Stream) (n : ℕ) (f : Stream → List A) (μ : Measure A) : Prop :=
  ∃ X : Stream → Fin n → A, Measurable X ∧ (∀ s, f s = List.ofFn (X s)) ∧
    P.map X = Measure.pi fun _ => μ

/-- `sample_mean`, `sample_beta`: `n` independent pairs (mean, variance) with joint law `J`, of which the
variances are only returned when asked for -/
def IIDSampled (P : Measure Stream) (n : ℕ) (return_variance : Bool) (f : Stream → Sampled A B)
    (J : Measure (A × B)) : Prop :=
  ∃ X : Stream → Fin n → A × B, Measurable X ∧
    (∀ s, f s = if return_variance then
        .meanAndVariance (List.ofFn fun i => (X s i).1) (List.ofFn fun i => (X s i).2)
      else .mean (List.ofFn fun i => (X s i).1)) ∧
    P.map X = Measure.pi fun _ => J

/-- `f` run with the caller's `Generator` in a random state, or with `random_state=None` and numpy's global
generator in a random state -/
def FreshStream {R : Type} (f : RandomState → World → R × World) (S : (Stream → R) → Prop) : Prop :=
  (∀ global, S fun s => (f .generator ⟨global, s⟩).1) ∧ (∀ gen, S fun s => (f .none ⟨s, gen⟩).1)

/-- the list `f` returns holds `n` independent values, each with law `μ`, and what is left of the generator's
stream is independent of them and again has law `P`: later samples from the generator are independent of these -/
def IIDSampleThen (P : Measure Stream) (n : ℕ) (f : Stream → List A × Stream) (μ : Measure A) : Prop :=
  ∃ X : Stream → Fin n → A, Measurable X ∧ Measurable (fun s => (f s).2) ∧
    (∀ s, (f s).1 = List.ofFn (X s)) ∧
    P.map (fun s => (X s, (f s).2)) = (Measure.pi fun _ => μ).prod P

/-- `IIDSampled`, and what is left of the generator's stream is independent of the samples and again has law `P` -/
def IIDSampledThen (P : Measure Stream) (n : ℕ) (return_variance : Bool) (f : Stream → Sampled A B × Stream)
    (J : Measure (A × B)) : Prop :=
  ∃ X : Stream → Fin n → A × B, Measurable X ∧ Measurable (fun s => (f s).2) ∧
    (∀ s, (f s).1 = if return_variance then
        .meanAndVariance (List.ofFn fun i => (X s i).1) (List.ofFn fun i => (X s i).2)
      else .mean (List.ofFn fun i => (X s i).1)) ∧
    P.map (fun s => (X s, (f s).2)) = (Measure.pi fun _ => J).prod P

/-- `f` run with the caller's `Generator` in a random state, or with `random_state=None` and numpy's global
generator in a random state: what it returns and the state it leaves the generator in -/
def FreshRun {R : Type} (f : RandomState → World → R × World) (S : (Stream → R × Stream) → Prop) : Prop :=
  (∀ global, S fun s => ((f .generator ⟨global, s⟩).1, (f .generator ⟨global, s⟩).2.gen)) ∧
    (∀ gen, S fun s => ((f .none ⟨s, gen⟩).1, (f .none ⟨s, gen⟩).2.global))

end Conj.Spec
