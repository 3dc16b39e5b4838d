import Verif.Warnings

/-!
# Specification: what a list of warning filters decides
-/

namespace Conj.Spec

/-- a filter matches a `DeprecationWarning`: it sets no text pattern or the text passes it; it is for that category or
for all warnings; it sets no module pattern or the module passes it; it is for all lines (0) or for this one -/
def Matches (f : WarnFilter) (text module : String) (line : ℕ) : Prop :=
  (∀ p, f.message = some p → p text) ∧ (f.category = .warning ∨ f.category = .deprecationWarning) ∧
    (∀ p, f.module = some p → p module) ∧ (f.lineno = 0 ∨ f.lineno = line)

/-- the first filter that matches decides; `default` when none does -/
def Decides (filters : List WarnFilter) (text module : String) (line : ℕ) (a : WarnAction) : Prop :=
  (∃ before f after, filters = before ++ f :: after ∧ (∀ g ∈ before, ¬ Matches g text module line) ∧
    Matches f text module line ∧ f.action = a) ∨
  ((∀ g ∈ filters, ¬ Matches g text module line) ∧ a = .default)

/-- how often a warning is printed in `n` calls -/
def timesShown (a : WarnAction) (n : ℕ) : ℕ :=
  match a with
  | .ignore | .error => 0
  | .always => n
  | .default | .module | .once => min n 1

/-- the two messages -/
def updateMessage : String × String × ℕ :=
  ("This function is deprecated. Use 'normal' instead.", "conjugate.models", 1312)

@[inherit_doc updateMessage]
def predictiveMessage : String × String × ℕ :=
  ("This function is deprecated. Use 'normal_predictive' instead.", "conjugate.models", 1362)

/-- is the call one of `normal_normal_inverse_gamma`? -/
def isUpdate {α M : Type} : DeprecatedCall α M → Bool
  | .update .. => true
  | .predictive .. => false

end Conj.Spec
