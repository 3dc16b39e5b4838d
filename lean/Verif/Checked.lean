import Verif.Models

/-!
# Plain Python floats, exceptions included

`Checked` is a number type for the model functions: a real number, or the way in which a
Python float expression ceases to be one.  Rounding, overflow, infinities and `nan` inputs
are not modelled.
-/

namespace Conj

/-- How a float expression can fail to give a float: `ZeroDivisionError` is raised by `/`
and by `0.0 ** negative`; a fractional power of a negative float is a `complex`. -/
inductive FloatErr
  | zeroDivision
  | complexResult
  deriving DecidableEq, Repr

/-- a float, or how its computation failed -/
abbrev Checked := Except FloatErr ℝ

namespace Checked

/-- Python's `/` on floats -/
noncomputable def div' (x y : ℝ) : Checked :=
  if y = 0 then .error .zeroDivision else .ok (x / y)

/-- Python's `x ** c` on floats, `c` a literal -/
noncomputable def pow' (x : ℝ) (c : ℚ) : Checked :=
  if x = 0 ∧ c < 0 then .error .zeroDivision
  else if x < 0 ∧ c.den ≠ 1 then .error .complexResult
  else .ok (x ^ (c : ℝ))

end Checked

/-- operands are evaluated left to right; the first failure is the result -/
noncomputable instance instPyNumChecked : PyNum Checked where
  add a b := do let x ← a; let y ← b; return x + y
  sub a b := do let x ← a; let y ← b; return x - y
  mul a b := do let x ← a; let y ← b; return x * y
  div a b := do let x ← a; let y ← b; Checked.div' x y
  lit q := .ok (q : ℝ)
  powq a c := do let x ← a; Checked.pow' x c

namespace Checked

@[simp] theorem lit_eq (q : ℚ) : (lit q : Checked) = .ok (q : ℝ) := rfl
@[simp] theorem ok_add (x y : ℝ) : (.ok x + .ok y : Checked) = .ok (x + y) := rfl
@[simp] theorem ok_sub (x y : ℝ) : (.ok x - .ok y : Checked) = .ok (x - y) := rfl
@[simp] theorem ok_mul (x y : ℝ) : (.ok x * .ok y : Checked) = .ok (x * y) := rfl
theorem ok_div (x y : ℝ) :
    (.ok x / .ok y : Checked) = if y = 0 then .error .zeroDivision else .ok (x / y) := rfl
@[simp] theorem ok_div_zero (x : ℝ) : (.ok x / .ok 0 : Checked) = .error .zeroDivision := by
  simp [ok_div]
theorem ok_div_ne (x : ℝ) {y : ℝ} (h : y ≠ 0) : (.ok x / .ok y : Checked) = .ok (x / y) := by
  rw [ok_div, if_neg h]
@[simp] theorem error_add (e : FloatErr) (b : Checked) : (.error e + b : Checked) = .error e := rfl
@[simp] theorem error_sub (e : FloatErr) (b : Checked) : (.error e - b : Checked) = .error e := rfl
@[simp] theorem error_mul (e : FloatErr) (b : Checked) : (.error e * b : Checked) = .error e := rfl
@[simp] theorem error_div (e : FloatErr) (b : Checked) : (.error e / b : Checked) = .error e := rfl
@[simp] theorem ok_add_error (x : ℝ) (e : FloatErr) : (.ok x + .error e : Checked) = .error e := rfl
@[simp] theorem ok_sub_error (x : ℝ) (e : FloatErr) : (.ok x - .error e : Checked) = .error e := rfl
@[simp] theorem ok_mul_error (x : ℝ) (e : FloatErr) : (.ok x * .error e : Checked) = .error e := rfl
@[simp] theorem ok_div_error (x : ℝ) (e : FloatErr) : (.ok x / .error e : Checked) = .error e := rfl
@[simp] theorem error_powq (e : FloatErr) (c : ℚ) : powq (.error e : Checked) c = .error e := rfl

@[simp] theorem ok_powq_two (x : ℝ) : powq (.ok x : Checked) 2 = .ok (x ^ 2) := by
  change pow' x 2 = _
  simp [pow']

theorem ok_powq_half (x : ℝ) : powq (.ok x : Checked) (1 / 2) =
    if x < 0 then .error .complexResult else .ok (Real.sqrt x) := by
  change pow' x (1 / 2) = _
  have h2 : ((1 / 2 : ℚ)).den ≠ 1 := by decide +kernel
  rw [pow', if_neg (by norm_num), Real.sqrt_eq_rpow]
  by_cases h : x < 0
  · rw [if_pos ⟨h, h2⟩, if_pos h]
  · rw [if_neg (by tauto), if_neg h]; norm_num

theorem ok_powq_neg_half (x : ℝ) : powq (.ok x : Checked) (-1 / 2) =
    if x = 0 then .error .zeroDivision
    else if x < 0 then .error .complexResult else .ok (1 / Real.sqrt x) := by
  change pow' x (-1 / 2) = _
  have h2 : ((-1 / 2 : ℚ)).den ≠ 1 := by decide +kernel
  rw [pow']
  by_cases h0 : x = 0
  · rw [if_pos ⟨h0, by norm_num⟩, if_pos h0]
  · rw [if_neg (by tauto), if_neg h0]
    by_cases h : x < 0
    · rw [if_pos ⟨h, h2⟩, if_pos h]
    · rw [if_neg (by tauto), if_neg h, Real.sqrt_eq_rpow, one_div, ← Real.rpow_neg (not_lt.1 h)]
      norm_num

end Checked

/-! ## Running a call

Python evaluates the arguments of the constructor in order; the call returns an object
only if every field is a float. -/

variable {M : Type}

def Beta.run (d : Beta Checked) : Except FloatErr (Beta ℝ) := do
  let a ← d.alpha; let b ← d.beta; return ⟨a, b⟩
def Gamma.run (d : Gamma Checked) : Except FloatErr (Gamma ℝ) := do
  let a ← d.alpha; let b ← d.beta; return ⟨a, b⟩
def InverseGamma.run (d : InverseGamma Checked) : Except FloatErr (InverseGamma ℝ) := do
  let a ← d.alpha; let b ← d.beta; return ⟨a, b⟩
def ScaledInverseChiSquared.run (d : ScaledInverseChiSquared Checked) :
    Except FloatErr (ScaledInverseChiSquared ℝ) := do
  let a ← d.nu; let b ← d.sigma2; return ⟨a, b⟩
def BetaBinomial.run (d : BetaBinomial Checked) : Except FloatErr (BetaBinomial ℝ) := do
  let n ← d.n; let a ← d.alpha; let b ← d.beta; return ⟨n, a, b⟩
def NegativeBinomial.run (d : NegativeBinomial Checked) : Except FloatErr (NegativeBinomial ℝ) := do
  let n ← d.n; let p ← d.p; return ⟨n, p⟩
def Normal.run (d : Normal Checked) : Except FloatErr (Normal ℝ) := do
  let m ← d.mu; let s ← d.sigma; return ⟨m, s⟩
def StudentT.run (d : StudentT Checked) : Except FloatErr (StudentT ℝ) := do
  let m ← d.mu; let s ← d.sigma; let n ← d.nu; return ⟨m, s, n⟩
def Pareto.run (d : Pareto Checked) : Except FloatErr (Pareto ℝ) := do
  let m ← d.x_m; let s ← d.alpha; return ⟨m, s⟩
def GammaProportional.run (d : GammaProportional Checked) :
    Except FloatErr (GammaProportional ℝ) := do
  let p ← d.p; let q ← d.q; let r ← d.r; let s ← d.s; return ⟨p, q, r, s⟩
def GammaKnownRateProportional.run (d : GammaKnownRateProportional Checked) :
    Except FloatErr (GammaKnownRateProportional ℝ) := do
  let p ← d.a; let q ← d.b; let r ← d.c; return ⟨p, q, r⟩
def BetaProportional.run (d : BetaProportional Checked) :
    Except FloatErr (BetaProportional ℝ) := do
  let p ← d.p; let q ← d.q; let r ← d.k; return ⟨p, q, r⟩
def VonMisesKnownDirectionProportional.run (d : VonMisesKnownDirectionProportional Checked) :
    Except FloatErr (VonMisesKnownDirectionProportional ℝ) := do
  let p ← d.c; let q ← d.r; return ⟨p, q⟩
def NormalGamma.run (d : NormalGamma Checked) : Except FloatErr (NormalGamma ℝ) := do
  let m ← d.mu; let l ← d.lam; let a ← d.alpha; let b ← d.beta; return ⟨m, l, a, b⟩
def NormalInverseGamma.run (d : NormalInverseGamma Checked Checked M) :
    Except FloatErr (NormalInverseGamma ℝ ℝ M) := do
  let m ← d.mu; let a ← d.alpha; let b ← d.beta
  match d.nu with
  | none => return ⟨m, a, b, d.delta_inverse, none⟩
  | some nu => let nu ← nu; return ⟨m, a, b, d.delta_inverse, some nu⟩
def NormalPrior.run : NormalPrior Checked M → Except FloatErr (NormalPrior ℝ M)
  | .nig d => d.run.map .nig
  | .ng d => d.run.map .ng
def VariancePrior.run : VariancePrior Checked → Except FloatErr (VariancePrior ℝ)
  | .inverseGamma d => d.run.map .inverseGamma
  | .scaledInverseChiSquared d => d.run.map .scaledInverseChiSquared

/-- Python floats as arguments -/
def Beta.float (d : Beta ℝ) : Beta Checked := ⟨.ok d.alpha, .ok d.beta⟩
def Gamma.float (d : Gamma ℝ) : Gamma Checked := ⟨.ok d.alpha, .ok d.beta⟩
def InverseGamma.float (d : InverseGamma ℝ) : InverseGamma Checked := ⟨.ok d.alpha, .ok d.beta⟩
def ScaledInverseChiSquared.float (d : ScaledInverseChiSquared ℝ) :
    ScaledInverseChiSquared Checked := ⟨.ok d.nu, .ok d.sigma2⟩
def BetaBinomial.float (d : BetaBinomial ℝ) : BetaBinomial Checked :=
  ⟨.ok d.n, .ok d.alpha, .ok d.beta⟩
def Normal.float (d : Normal ℝ) : Normal Checked := ⟨.ok d.mu, .ok d.sigma⟩
def Pareto.float (d : Pareto ℝ) : Pareto Checked := ⟨.ok d.x_m, .ok d.alpha⟩
def GammaProportional.float (d : GammaProportional ℝ) : GammaProportional Checked :=
  ⟨.ok d.p, .ok d.q, .ok d.r, .ok d.s⟩
def GammaKnownRateProportional.float (d : GammaKnownRateProportional ℝ) :
    GammaKnownRateProportional Checked := ⟨.ok d.a, .ok d.b, .ok d.c⟩
def BetaProportional.float (d : BetaProportional ℝ) : BetaProportional Checked :=
  ⟨.ok d.p, .ok d.q, .ok d.k⟩
def VonMisesKnownDirectionProportional.float (d : VonMisesKnownDirectionProportional ℝ) :
    VonMisesKnownDirectionProportional Checked := ⟨.ok d.c, .ok d.r⟩
def NormalGamma.float (d : NormalGamma ℝ) : NormalGamma Checked :=
  ⟨.ok d.mu, .ok d.lam, .ok d.alpha, .ok d.beta⟩
def NormalInverseGamma.float (d : NormalInverseGamma ℝ ℝ M) :
    NormalInverseGamma Checked Checked M :=
  ⟨.ok d.mu, .ok d.alpha, .ok d.beta, d.delta_inverse, d.nu.map .ok⟩
def NormalPrior.float : NormalPrior ℝ M → NormalPrior Checked M
  | .nig d => .nig d.float
  | .ng d => .ng d.float
def VariancePrior.float : VariancePrior ℝ → VariancePrior Checked
  | .inverseGamma d => .inverseGamma d.float
  | .scaledInverseChiSquared d => .scaledInverseChiSquared d.float

end Conj
