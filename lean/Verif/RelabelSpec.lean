import Verif.DirichletScipy
import Mathlib.Topology.Algebra.InfiniteSum.Defs
import Mathlib.MeasureTheory.Constructions.BorelSpace.Real

/-!
# Specification: merging and renaming categories
-/

open MeasureTheory Set

namespace Conj.Spec

/-- Categories are sorted into groups by `g`; the total of each group. (With a bijective `g` this renames the
categories.) -/
def groupTotals {M : Type*} [AddCommMonoid M] {k l : ℕ} (g : Fin k → Fin l) (v : Fin k → M) : Fin l → M :=
  fun j => ∑ i, if g i = j then v i else 0

/-- `f'` is the distribution of the group probabilities when `f` is the distribution of the category probabilities:
every event about the groups has the same probability under both. -/
def Merged {k l : ℕ} (g : Fin (k + 1) → Fin (l + 1)) (f : (Fin (k + 1) → ℝ) → ℝ) (f' : (Fin (l + 1) → ℝ) → ℝ) : Prop :=
  ∀ B : Set (Fin (l + 1) → ℝ), MeasurableSet B →
    ∫ p in {p ∈ simplex k | groupTotals g (fullVector p) ∈ B}, f (fullVector p) =
      ∫ p in {p ∈ simplex l | fullVector p ∈ B}, f' (fullVector p)

/-- The same for counts: the probability of the group counts `y` is the sum of those of the category counts that give `y`. -/
def MergedCounts {k l : ℕ} (g : Fin (k + 1) → Fin (l + 1)) (f : (Fin (k + 1) → ℕ) → ℝ) (f' : (Fin (l + 1) → ℕ) → ℝ) : Prop :=
  ∀ y, HasSum (fun x : {x : Fin (k + 1) → ℕ // groupTotals g x = y} => f x) (f' y)

/-- the probability that the categories in `A` together have a probability in `B` -/
noncomputable def shareProb {k : ℕ} (A : Finset (Fin (k + 1))) (f : (Fin (k + 1) → ℝ) → ℝ) (B : Set ℝ) : ℝ :=
  ∫ p in {p ∈ simplex k | ∑ i ∈ A, fullVector p i ∈ B}, f (fullVector p)

end Conj.Spec
