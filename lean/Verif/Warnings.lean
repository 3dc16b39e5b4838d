import Verif.Models

/-!
# The deprecated functions and Python's `warnings`

`normal_normal_inverse_gamma` and `normal_normal_inverse_gamma_predictive` call `warnings.warn` before they call the
function that replaces them. What that does depends on the filters the user has set and on what was warned before.
The model follows `warnings.py` of Python 3.12 (`warn`, `warn_explicit`).
-/

namespace Conj

/-- what a filter does with a warning it matches -/
inductive WarnAction
  | default | error | ignore | always | module | once
  deriving DecidableEq

/-- categories a filter can name -/
inductive WarnCategory
  | warning | deprecationWarning | pendingDeprecationWarning | importWarning | resourceWarning | userWarning
  deriving DecidableEq

/-- `issubclass(DeprecationWarning, category)` -/
def WarnCategory.coversDeprecation (c : WarnCategory) : Bool := c = .warning || c = .deprecationWarning

/-- an entry of `warnings.filters`; the patterns for message and module are any tests on the text -/
structure WarnFilter where
  action : WarnAction
  message : Option (String → Bool) := none
  category : WarnCategory
  module : Option (String → Bool) := none
  lineno : ℕ := 0

/-- `warnings.py` `warn_explicit`: does the filter match a `DeprecationWarning` with this text, from this place? -/
def WarnFilter.applies (f : WarnFilter) (text module : String) (lineno : ℕ) : Bool :=
  (f.message.all fun m => m text) && f.category.coversDeprecation && (f.module.all fun m => m module) &&
    (f.lineno = 0 || f.lineno = lineno)

/-- the state of the `warnings` module: the filters with a version that each change of them raises; for each module the
warnings recorded there, and the version they were recorded for; the texts shown under `once`; and what was printed:
text, module and line -/
structure WarnState where
  filters : List WarnFilter
  version : ℕ := 1
  registry : String → List (String × ℕ) := fun _ => []
  registryVersion : String → ℕ := fun _ => 0
  onceregistry : List String := []
  shown : List (String × String × ℕ) := []

/-- `warnings.py` `warn_explicit` for a `DeprecationWarning`; `defaultaction` is `"default"`. An `error` carries the text
of the raised `DeprecationWarning`. Under `module` the key with line 0 is recorded as well. -/
def warnExplicit (text module : String) (lineno : ℕ) (s : WarnState) : Except String Unit × WarnState :=
  let s := if s.registryVersion module = s.version then s else
    { s with registry := Function.update s.registry module []
             registryVersion := Function.update s.registryVersion module s.version }
  let record (k : List (String × ℕ)) (s : WarnState) : WarnState :=
    { s with registry := Function.update s.registry module (k ++ s.registry module) }
  let display (s : WarnState) : WarnState := { s with shown := s.shown ++ [(text, module, lineno)] }
  if (text, lineno) ∈ s.registry module then (.ok (), s)
  else
    match ((s.filters.find? fun f => f.applies text module lineno).map WarnFilter.action).getD .default with
    | .ignore => (.ok (), s)
    | .error => (.error text, s)
    | .once =>
      let s := record [(text, lineno)] s
      if text ∈ s.onceregistry then (.ok (), s)
      else (.ok (), display { s with onceregistry := text :: s.onceregistry })
    | .always => (.ok (), display s)
    | .module =>
      let seen := (text, 0) ∈ s.registry module
      let s := record [(text, lineno)] s
      if seen then (.ok (), s) else (.ok (), display (record [(text, 0)] s))
    | .default => (.ok (), display (record [(text, lineno)] s))

/-- `warnings.warn(text, DeprecationWarning, stacklevel=stacklevel)` with the running frames, innermost first, as
module and line. Above the last frame Python uses `sys`, line 1. -/
def warn (text : String) (stacklevel : ℕ) (frames : List (String × ℕ)) (s : WarnState) : Except String Unit × WarnState :=
  let place := (frames[stacklevel - 1]?).getD ("sys", 1)
  warnExplicit text place.1 place.2 s

/-- how a call can fail: an ordinary exception, or the warning itself -/
inductive Raised
  | exception (e : PyErr)
  | deprecationWarning (text : String)

/-- the frames below a deprecated function: its body at line `lineno`, the wrapper of the decorator
(`models.py:88`), and the code that called it -/
def deprecatedFrames (lineno : ℕ) (caller : List (String × ℕ)) : List (String × ℕ) :=
  ("conjugate.models", lineno) :: ("conjugate.models", 88) :: caller

/-- `warnings.warn(...)`, then `return replacement(...)` -/
def deprecated {R : Type} (text : String) (stacklevel lineno : ℕ) (replacement : Except PyErr R)
    (caller : List (String × ℕ)) (s : WarnState) : Except Raised R × WarnState :=
  match warn text stacklevel (deprecatedFrames lineno caller) s with
  | (.error t, s) => (.error (.deprecationWarning t), s)
  | (.ok _, s) => (replacement.mapError .exception, s)

/-- `models.py:1290-1318` with its warning (lines 1312-1316) -/
def normal_normal_inverse_gamma_warns {α M : Type} [PyNum α] (x_total x2_total n : α) (prior : NormalInverseGamma α α M)
    (caller : List (String × ℕ)) (s : WarnState) : Except Raised (NormalPrior α M) × WarnState :=
  deprecated "This function is deprecated. Use 'normal' instead." 1 1312 (normal x_total x2_total n (.nig prior)) caller s

/-- `models.py:1348-1367` with its warning (lines 1362-1366) -/
def normal_normal_inverse_gamma_predictive_warns {α M : Type} [PyNum α] (distribution : NormalInverseGamma α α M)
    (caller : List (String × ℕ)) (s : WarnState) : Except Raised (StudentT α) × WarnState :=
  deprecated "This function is deprecated. Use 'normal_predictive' instead." 1 1362
    (normal_predictive (.nig distribution)) caller s

/-- the filters Python starts with (release builds) -/
def defaultFilters : List WarnFilter :=
  [{ action := .default, category := .deprecationWarning, module := some (· == "__main__") },
   { action := .ignore, category := .deprecationWarning },
   { action := .ignore, category := .pendingDeprecationWarning },
   { action := .ignore, category := .importWarning },
   { action := .ignore, category := .resourceWarning }]

/-- `warnings.filters` replaced or edited: the version goes up (`_filters_mutated`) -/
def setFilters (fs : List WarnFilter) (s : WarnState) : WarnState := { s with filters := fs, version := s.version + 1 }

/-- a call of one of the two deprecated functions, with its arguments and the code that calls it -/
inductive DeprecatedCall (α M : Type)
  | update (x_total x2_total n : α) (prior : NormalInverseGamma α α M) (caller : List (String × ℕ))
  | predictive (distribution : NormalInverseGamma α α M) (caller : List (String × ℕ))

/-- the state of `warnings` after the call -/
def DeprecatedCall.run {α M : Type} [PyNum α] (s : WarnState) : DeprecatedCall α M → WarnState
  | .update x_total x2_total n prior caller => (normal_normal_inverse_gamma_warns x_total x2_total n prior caller s).2
  | .predictive distribution caller => (normal_normal_inverse_gamma_predictive_warns distribution caller s).2

/-- the state of `warnings` after a history of calls -/
def DeprecatedCall.runAll {α M : Type} [PyNum α] (calls : List (DeprecatedCall α M)) (s : WarnState) : WarnState :=
  calls.foldl DeprecatedCall.run s

end Conj
