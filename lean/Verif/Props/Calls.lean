import Verif.CallTable
import Verif.Lemmas.CallRules

/-!
# C66, C67, C80 - C82: how the model functions are called
-/

namespace Conj

namespace Spec

/-- the type of what was passed for the checked parameter, `NoneType` when nothing was -/
def receivedType {V : Type} (typeOf : V → PyType) (kw : List (String × V)) (name : String) : PyType :=
  ((kw.lookup name).map typeOf).getD noneType

/-- an object of type `t` is an instance of one of the classes -/
def InstanceOf (t : PyType) (cs : List Cls) : Prop := ∃ c ∈ cs, c ∈ t.supers

/-- the functions whose checked parameter is annotated with a union -/
def unionFunctions : List String :=
  ["normal_known_mean", "normal_known_mean_predictive", "normal", "normal_predictive", "log_normal"]

end Spec

open Spec

theorem isInstance_iff (t : PyType) (a : Annotation) : isInstance t a = true ↔ InstanceOf t a.accepted := by
  simp [isInstance, InstanceOf, List.any_eq_true]

theorem invoke_eq {V R : Type} (typeOf : V → PyType) (sig : FnSig V)
    (body : (String → Option V) → Except PyErr R) (args : List V) (kw : List (String × V)) :
    sig.invoke typeOf body args kw =
      if !isInstance (receivedType typeOf kw sig.checked) sig.annotation then
        match sig.annotation.pyName with
        | .error e => .error e
        | .ok expected => .error (.valueError ("Expected " ++ sig.checked ++ " to be of type '" ++ expected ++
            "', got '" ++ (receivedType typeOf kw sig.checked).name ++ "' instead."))
      else sig.pyCall body args kw := by
  unfold FnSig.invoke receivedType
  cases kw.lookup sig.checked <;> rfl

/-- is the annotation a union -/
def Annotation.isUnion : Annotation → Bool
  | .cls _ => false
  | .union _ => true

theorem isUnion_iff (a : Annotation) : a.isUnion = true ↔ ∃ cs, a = .union cs := by
  cases a <;> simp [Annotation.isUnion]

section
variable {V R : Type}

/-- A function annotated with one class: whatever is passed that is not an instance (of it or a
subclass), or passing nothing by keyword, raises the documented `ValueError`, whatever the body would do
and whatever the other arguments are.
Missing for C66: the functions annotated with a union, where it is false. -/
theorem C66_wrong_type_partial (typeOf : V → PyType) (sig : FnSig V) (c : Cls)
    (hs : sig.annotation = .cls c) (body : (String → Option V) → Except PyErr R) (args : List V)
    (kw : List (String × V)) (hw : c ∉ (receivedType typeOf kw sig.checked).supers) :
    sig.invoke typeOf body args kw = .error (.valueError
      ("Expected " ++ sig.checked ++ " to be of type '" ++ c.name ++ "', got '" ++
        (receivedType typeOf kw sig.checked).name ++ "' instead.")) := by
  have h : isInstance (receivedType typeOf kw sig.checked) sig.annotation = false := by
    rw [← Bool.not_eq_true, isInstance_iff, hs]
    rintro ⟨c', hc', hin⟩
    simp only [Annotation.accepted, List.mem_singleton] at hc'
    subst hc'
    exact hw hin
  rw [invoke_eq, h, hs]
  rfl

/-- Annotated with a union: the wrong type raises `AttributeError`, not the documented
`ValueError`. -/
theorem C66_union_attribute_error (typeOf : V → PyType) (sig : FnSig V) (cs : List Cls)
    (hs : sig.annotation = .union cs) (body : (String → Option V) → Except PyErr R) (args : List V)
    (kw : List (String × V)) (hw : ¬ InstanceOf (receivedType typeOf kw sig.checked) cs) :
    sig.invoke typeOf body args kw = .error .attributeError := by
  have h : isInstance (receivedType typeOf kw sig.checked) sig.annotation = false := by
    rw [← Bool.not_eq_true, isInstance_iff, hs]
    exact hw
  rw [invoke_eq, h, hs]
  rfl
end

/-- Every decorated function checks `prior` or `distribution`, that parameter is a required
keyword of it, and the annotation is one class except for five functions. -/
theorem C66_decorated_functions (sig : FnSig PyVal) (h : sig ∈ decorated) :
    (sig.checked = "prior" ∨ sig.checked = "distribution") ∧
    sig.params.lookup sig.checked = some none ∧
    ((∃ cs, sig.annotation = .union cs) ↔ sig.name ∈ unionFunctions) := by
  simp only [decorated, List.mem_cons, List.not_mem_nil, or_false] at h
  casesm* _ ∨ _ <;> subst h <;>
    refine ⟨by first | exact Or.inl rfl | exact Or.inr rfl, rfl, ?_⟩ <;>
    first
      | exact iff_of_true ⟨_, rfl⟩ (by decide)
      | exact iff_of_false (by rw [← isUnion_iff]; exact Bool.false_ne_true) (by decide)

/-- With an instance of an accepted class the wrapper adds nothing: the outcome is that of the
plain Python call. -/
theorem C67_right_type {V R : Type} (typeOf : V → PyType) (sig : FnSig V)
    (body : (String → Option V) → Except PyErr R) (args : List V) (kw : List (String × V))
    (h : InstanceOf (receivedType typeOf kw sig.checked) sig.annotation.accepted) :
    sig.invoke typeOf body args kw = sig.pyCall body args kw := by
  have h := (isInstance_iff _ _).2 h
  rw [invoke_eq]
  simp [h]

/-! ## C80 -/

/-- The order of the keyword arguments never matters. -/
theorem C80_keyword_order {V R : Type} (typeOf : V → PyType) (sig : FnSig V)
    (body : (String → Option V) → Except PyErr R) (args : List V) (kw kw' : List (String × V))
    (h : kw.Perm kw') (hn : (kw.map Prod.fst).Nodup) :
    sig.invoke typeOf body args kw = sig.invoke typeOf body args kw' :=
  invoke_perm sig body args h ((h.map Prod.fst).nodup_iff.1 hn)

/-! ## C81 -/

theorem lookup_append_singleton {V : Type} (kw : List (String × V)) (name : String) (d : V)
    (h : kw.lookup name = none) (k : String) :
    (kw ++ [(name, d)]).lookup k = if k = name then some d else kw.lookup k := by
  induction kw with
  | nil =>
    simp only [List.nil_append, List.lookup_cons, List.lookup_nil]
    by_cases hk : k = name
    · simp [hk]
    · have : (k == name) = false := by simpa using hk
      simp [hk, this]
  | cons p kw ih =>
    obtain ⟨a, v⟩ := p
    simp only [List.lookup_cons] at h
    simp only [List.cons_append, List.lookup_cons]
    by_cases ha : name = a
    · subst ha; simp at h
    · have : (name == a) = false := by simpa using ha
      rw [this] at h
      by_cases hka : k = a
      · subst hka
        have : ¬ k = name := fun e => ha e.symm
        simp [this]
      · have : (k == a) = false := by simpa using hka
        rw [this]
        exact ih h

/-- Leaving out an optional argument is the same as passing its default. -/
theorem C81_defaults {V R : Type} (typeOf : V → PyType) (sig : FnSig V)
    (body : (String → Option V) → Except PyErr R) (args : List V) (kw : List (String × V))
    (name : String) (d : V) (hd : (sig.params.map Prod.fst).Nodup)
    (hp : sig.params.lookup name = some (some d)) (hc : name ≠ sig.checked)
    (hk : kw.lookup name = none) :
    sig.invoke typeOf body args (kw ++ [(name, d)]) = sig.invoke typeOf body args kw := by
  have hl := lookup_append_singleton kw name d hk
  have h1 : (kw ++ [(name, d)]).lookup sig.checked = kw.lookup sig.checked := by
    rw [hl, if_neg (Ne.symm hc)]
  have h2 : (kw ++ [(name, d)]).any (fun p => (sig.params.lookup p.1).isNone) =
      kw.any (fun p => (sig.params.lookup p.1).isNone) := by
    simp [List.any_append, hp]
  have h4 : (fun k => ((kw ++ [(name, d)]).lookup k).or (sig.params.lookup k).join) =
      fun k => (kw.lookup k).or (sig.params.lookup k).join := by
    funext k
    rw [hl]
    by_cases e : k = name
    · subst e; simp [hk, hp]
    · simp [e]
  unfold FnSig.invoke FnSig.pyCall
  rw [h1, h2, h4]
  by_cases hreq : ∃ p ∈ sig.params, p.1 = name ∧ p.2 = none
  · obtain ⟨p, hpm, rfl, hpn⟩ := hreq
    have := (lookup_eq_some_iff_mem sig.params hd p.1 p.2).2 hpm
    rw [hp, hpn] at this
    cases this
  · have h3 : sig.params.any (fun p => p.2.isNone && ((kw ++ [(name, d)]).lookup p.1).isNone) =
        sig.params.any (fun p => p.2.isNone && (kw.lookup p.1).isNone) := by
      rw [Bool.eq_iff_iff, List.any_eq_true, List.any_eq_true]
      refine exists_congr fun p => and_congr_right fun hpm => ?_
      rw [hl]
      by_cases e : p.1 = name
      · have : p.2.isNone = false := by
          by_contra hh
          exact hreq ⟨p, hpm, e, by simpa using hh⟩
        simp [this]
      · simp [e]
    rw [h3]

/-! ## C82 -/

/-- With a right prior, a positional argument, a missing required keyword or an unknown keyword is a
`TypeError`; nothing is computed. -/
theorem C82_malformed_call {V R : Type} (typeOf : V → PyType) (sig : FnSig V)
    (body : (String → Option V) → Except PyErr R) (args : List V) (kw : List (String × V))
    (h : InstanceOf (receivedType typeOf kw sig.checked) sig.annotation.accepted)
    (hbad : args ≠ [] ∨ (∃ p ∈ kw, sig.params.lookup p.1 = none) ∨
      ∃ p ∈ sig.params, p.2 = none ∧ kw.lookup p.1 = none) :
    sig.invoke typeOf body args kw = .error .typeError := by
  rw [C67_right_type typeOf sig body args kw h]
  unfold FnSig.pyCall
  rcases hbad with ha | ⟨p, hp, hn⟩ | ⟨p, hp, hn, hm⟩
  · rw [if_pos ha]
  · have : kw.any (fun p => (sig.params.lookup p.1).isNone) = true :=
      List.any_eq_true.2 ⟨p, hp, by simp [hn]⟩
    rw [this]
    simp
  · have : sig.params.any (fun p => p.2.isNone && (kw.lookup p.1).isNone) = true :=
      List.any_eq_true.2 ⟨p, hp, by simp [hn, hm]⟩
    rw [this]
    simp

/-- the parameter names of every decorated function are distinct, so C81 applies to all of them -/
theorem C81_parameters_distinct (sig : FnSig PyVal) (h : sig ∈ decorated) :
    (sig.params.map Prod.fst).Nodup := by
  simp only [decorated, List.mem_cons, List.not_mem_nil, or_false] at h
  casesm* _ ∨ _ <;> subst h <;> decide

/-- a Gamma where a Beta is expected; `None`; the prior passed positionally; a correct call with an
instance of a subclass and the keywords in another order -/
example (g : Gamma ℝ) (b : Beta ℝ) :
    binomial_beta_sig.invoke PyVal.typeOf binomial_beta_body []
        [("n", .num 2), ("x", .num 1), ("prior", .inst "Gamma" (.gamma g))] =
      .error (.valueError "Expected prior to be of type 'Beta', got 'Gamma' instead.") ∧
    binomial_beta_sig.invoke PyVal.typeOf binomial_beta_body [] [("n", .num 2), ("x", .num 1)] =
      .error (.valueError "Expected prior to be of type 'Beta', got 'NoneType' instead.") ∧
    binomial_beta_sig.invoke PyVal.typeOf binomial_beta_body [.num 2, .num 1, .inst "Beta" (.beta b)] [] =
      .error (.valueError "Expected prior to be of type 'Beta', got 'NoneType' instead.") ∧
    normal_sig.invoke PyVal.typeOf normal_body []
        [("x_total", .num 1), ("x2_total", .num 1), ("n", .num 1), ("prior", .inst "Gamma" (.gamma g))] =
      .error .attributeError := by
  refine ⟨C66_wrong_type_partial _ _ .Beta rfl _ _ _ ?_, C66_wrong_type_partial _ _ .Beta rfl _ _ _ ?_,
    C66_wrong_type_partial _ _ .Beta rfl _ _ _ ?_, C66_union_attribute_error _ _ _ rfl _ _ _ ?_⟩ <;>
    simp [receivedType, binomial_beta_sig, normal_sig, List.lookup, PyVal.typeOf, DistVal.cls, noneType, InstanceOf]

end Conj
