import Verif.NdArr
import Verif.Params

/-!
# Numbers and arrays in memory

Python numbers cannot be changed; numpy arrays can (`a += 1`, `a[0] = 2`, `out=`), and two objects may hold the same
array.  The model functions are generic in the number type (`conjugate/_typing.py:4-19`), so they can be run on
computations that read and allocate arrays.

Simplifications: entries are real numbers; a name bound to an intermediate result and used twice is computed twice (the
intermediate arrays are not visible outside); a numpy operation on a zero-dimensional array gives an array, not a numpy
scalar.  No operator of `conjugate/models.py` or `conjugate/distributions.py` is an augmented assignment, an item assignment or
has an `out=` argument, so every operator that is called allocates its result.
-/

namespace Conj

/-- a Python number, or a reference to a numpy array -/
inductive Val
  | num (x : ℝ)
  | ref (addr : ℕ)

/-- the memory: contents of the addresses below `next` -/
structure Heap where
  cells : ℕ → NdArr ℝ
  next : ℕ

/-- the contents of a value -/
def Heap.read (h : Heap) : Val → NdArr ℝ
  | .num x => .scalar x
  | .ref a => h.cells a

/-- a new array -/
def Heap.alloc (h : Heap) (a : NdArr ℝ) : Val × Heap :=
  (.ref h.next, { cells := Function.update h.cells h.next a, next := h.next + 1 })

/-- Python code: may raise, may change the memory -/
abbrev Py := StateT Heap (Except PyErr)

/-- an operator or a ufunc of two arguments: a number for two numbers, otherwise numpy allocates the result -/
def ufunc2 (f : ℝ → ℝ → ℝ) (a b : Py Val) : Py Val := do
  let x ← a
  let y ← b
  match x, y with
  | .num x, .num y => return .num (f x y)
  | x, y => fun h => (NdArr.op f (h.read x) (h.read y)).map h.alloc

/-- a ufunc of one argument -/
def ufunc1 (f : ℝ → ℝ) (a : Py Val) : Py Val := do
  match ← a with
  | .num x => return .num (f x)
  | x => fun h => .ok (h.alloc ((h.read x).map f))

/-- the operators on values -/
noncomputable instance : PyNum (Py Val) where
  add := ufunc2 (· + ·)
  sub := ufunc2 (· - ·)
  mul := ufunc2 (· * ·)
  div := ufunc2 (· / ·)
  lit q := return .num (lit q)
  powq a q := ufunc1 (powq · q) a

/-- the arguments of a constructor are computed one after the other -/
class Trav (D : Type → Type) where
  seq : {m : Type → Type} → [Monad m] → {A : Type} → D (m A) → m (D A)

/-- `distributions.py:65-76`: arguments of the constructor, in order -/
instance : Trav Beta where
  seq d := do
    let alpha ← d.alpha
    let beta ← d.beta
    return { alpha := alpha, beta := beta }

/-- `distributions.py:226-239`: arguments of the constructor, in order -/
instance : Trav Gamma where
  seq d := do
    let alpha ← d.alpha
    let beta ← d.beta
    return { alpha := alpha, beta := beta }

/-- `distributions.py:528-539`: arguments of the constructor, in order -/
instance : Trav InverseGamma where
  seq d := do
    let alpha ← d.alpha
    let beta ← d.beta
    return { alpha := alpha, beta := beta }

/-- `distributions.py:425-436`: arguments of the constructor, in order -/
instance : Trav Normal where
  seq d := do
    let mu ← d.mu
    let sigma ← d.sigma
    return { mu := mu, sigma := sigma }

/-- `distributions.py:330-343`: arguments of the constructor, in order -/
instance : Trav BetaBinomial where
  seq d := do
    let n ← d.n
    let alpha ← d.alpha
    let beta ← d.beta
    return { n := n, alpha := alpha, beta := beta }

/-- `distributions.py:356-369`: arguments of the constructor, in order -/
instance : Trav BetaNegativeBinomial where
  seq d := do
    let n ← d.n
    let alpha ← d.alpha
    let beta ← d.beta
    return { n := n, alpha := alpha, beta := beta }

/-- `distributions.py:405-418`: arguments of the constructor, in order -/
instance : Trav BetaGeometric where
  seq d := do
    let alpha ← d.alpha
    let beta ← d.beta
    return { alpha := alpha, beta := beta, one_start := d.one_start }

/-- `distributions.py:255-266`: arguments of the constructor, in order -/
instance : Trav NegativeBinomial where
  seq d := do
    let n ← d.n
    let p ← d.p
    return { n := n, p := p }

/-- `distributions.py:718-729`: arguments of the constructor, in order -/
instance : Trav Lomax where
  seq d := do
    let alpha ← d.alpha
    let lam ← d.lam
    return { alpha := alpha, lam := lam }

/-- `distributions.py:736-749`: arguments of the constructor, in order -/
instance : Trav CompoundGamma where
  seq d := do
    let alpha ← d.alpha
    let beta ← d.beta
    let lam ← d.lam
    return { alpha := alpha, beta := beta, lam := lam }

/-- `distributions.py:670-683`: arguments of the constructor, in order -/
instance : Trav StudentT where
  seq d := do
    let mu ← d.mu
    let sigma ← d.sigma
    let nu ← d.nu
    return { mu := mu, sigma := sigma, nu := nu }

/-- `distributions.py:954-965`: arguments of the constructor, in order -/
instance : Trav ScaledInverseChiSquared where
  seq d := do
    let nu ← d.nu
    let sigma2 ← d.sigma2
    return { nu := nu, sigma2 := sigma2 }

/-- `distributions.py:1000-1015`: arguments of the constructor, in order -/
instance : Trav NormalGamma where
  seq d := do
    let mu ← d.mu
    let lam ← d.lam
    let alpha ← d.alpha
    let beta ← d.beta
    return { mu := mu, lam := lam, alpha := alpha, beta := beta }

/-- `distributions.py:510-521`: arguments of the constructor, in order -/
instance : Trav Pareto where
  seq d := do
    let x_m ← d.x_m
    let alpha ← d.alpha
    return { x_m := x_m, alpha := alpha }

/-- `distributions.py:793-808`: arguments of the constructor, in order -/
instance : Trav GammaProportional where
  seq d := do
    let p ← d.p
    let q ← d.q
    let r ← d.r
    let s ← d.s
    return { p := p, q := q, r := r, s := s }

/-- `distributions.py:756-769`: arguments of the constructor, in order -/
instance : Trav GammaKnownRateProportional where
  seq d := do
    let a ← d.a
    let b ← d.b
    let c ← d.c
    return { a := a, b := b, c := c }

/-- `distributions.py:833-846`: arguments of the constructor, in order -/
instance : Trav BetaProportional where
  seq d := do
    let p ← d.p
    let q ← d.q
    let k ← d.k
    return { p := p, q := q, k := k }

/-- `distributions.py:894-907`: arguments of the constructor, in order -/
instance : Trav VonMisesKnownConcentration where
  seq d := do
    let a ← d.a
    let b ← d.b
    return { a := a, b := b }

/-- `distributions.py:925-937`: arguments of the constructor, in order -/
instance : Trav VonMisesKnownDirectionProportional where
  seq d := do
    let c ← d.c
    let r ← d.r
    return { c := c, r := r }

/-- `distributions.py:304-313`: arguments of the constructor, in order -/
instance : Trav Poisson where
  seq d := do
    let lam ← d.lam
    return { lam := lam }

/-- `models.py:1110`: either class -/
instance : Trav VariancePrior where
  seq d := match d with
    | .inverseGamma d => do return .inverseGamma (← Trav.seq d)
    | .scaledInverseChiSquared d => do return .scaledInverseChiSquared (← Trav.seq d)

/-- `distributions.py:546-572`: constructor of `NormalInverseGamma`; `delta_inverse` is handed on -/
instance {M : Type} : Trav (UnivariateNIG M) where
  seq d := do
    let mu ← d.mu
    let alpha ← d.alpha
    let beta ← d.beta
    match d.nu with
    | none => return { mu := mu, alpha := alpha, beta := beta, delta_inverse := d.delta_inverse, nu := none }
    | some nu => do
      let nu ← nu
      return { mu := mu, alpha := alpha, beta := beta, delta_inverse := d.delta_inverse, nu := some nu }

/-- `models.py:1244`: either class -/
instance {M : Type} : Trav (UnivariateNormalPrior M) where
  seq d := match d with
    | .nig d => do return .nig (← Trav.seq (D := UnivariateNIG M) d)
    | .ng d => do return .ng (← Trav.seq d)

/-- the object a call builds: the parameters are computed and stored -/
def build {D : Type → Type} [Trav D] (d : D (Py Val)) : Py (D Val) := Trav.seq d

/-- the same for a function that may raise before it computes anything -/
def buildOrRaise {D : Type → Type} [Trav D] (r : Except PyErr (D (Py Val))) : Py (D Val) :=
  match r with
  | .ok d => build d
  | .error e => throw e

/-- a value used as an argument -/
def Val.arg (v : Val) : Py Val := pure v

end Conj
