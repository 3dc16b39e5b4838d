import Verif.Operators
import Verif.SumSpec
import Verif.DistMap

/-!
# Specification: arithmetic of independent counts
-/

open MeasureTheory

namespace Conj.Spec

/-- an expression in Poisson distributions: a distribution, a sum, a multiple written on either side -/
inductive PoissonExpr
  | leaf (lam : ℝ)
  | add (l r : PoissonExpr)
  | scaleLeft (k : ℕ) (e : PoissonExpr)
  | scaleRight (e : PoissonExpr) (k : ℕ)

/-- all rates are allowed -/
def PoissonExpr.Valid : PoissonExpr → Prop
  | .leaf lam => 0 ≤ lam
  | .add l r => l.Valid ∧ r.Valid
  | .scaleLeft _ e => e.Valid
  | .scaleRight e _ => e.Valid

/-- the law of the total count: sums are of independent counts, a multiple is a sum of independent copies -/
noncomputable def PoissonExpr.law : PoissonExpr → Measure ℤ
  | .leaf lam => discLaw (Conj.Poisson.dist ⟨lam⟩)
  | .add l r => sumLaw l.law r.law
  | .scaleLeft k e => sumOfCopies e.law k
  | .scaleRight e k => sumOfCopies e.law k

/-- what Python computes -/
noncomputable def PoissonExpr.eval : PoissonExpr → Except PyErr Thing
  | .leaf lam => .ok (.dist (.poisson ⟨.scalar lam⟩))
  | .add l r => do pyAdd (← l.eval) (← r.eval)
  | .scaleLeft k e => do pyMul (.num k) (← e.eval)
  | .scaleRight e k => do pyMul (← e.eval) (.num k)

/-- a distribution with numbers for parameters -/
def Scalar : DistObj → Prop
  | .poisson d => d.lam.rshape = []
  | .exponential d => d.lam.rshape = []
  | .gamma d => d.alpha.rshape = [] ∧ d.beta.rshape = []
  | .negativeBinomial d => d.n.rshape = [] ∧ d.p.rshape = []
  | .normal d => d.mu.rshape = [] ∧ d.sigma.rshape = []
  | .other _ => False

/-- one of the five classes with `*` -/
def Scalable : DistObj → Prop
  | .other _ => False
  | _ => True

/-- entry `i` of a vectorised distribution, as numbers -/
def entryOf (i : List ℕ) : DistObj → DistObj
  | .poisson d => .poisson ⟨at' d.lam⟩
  | .exponential d => .exponential ⟨at' d.lam⟩
  | .gamma d => .gamma ⟨at' d.alpha, at' d.beta⟩
  | .negativeBinomial d => .negativeBinomial ⟨at' d.n, at' d.p⟩
  | .normal d => .normal ⟨at' d.mu, at' d.sigma⟩
  | .other lam => .other lam
where
  /-- the entry that broadcasting uses -/
  at' (a : NdArr ℝ) : NdArr ℝ := .scalar (a.get (NdArr.proj a.rshape i))

end Conj.Spec
