import Verif.CallTable
import Mathlib.Data.List.Perm.Basic
import Mathlib.Data.List.Nodup

/-!
# Keyword binding does not depend on the order of the keywords
-/

namespace Conj

variable {V R : Type}

theorem lookup_eq_some_iff_mem (l : List (String × V)) (hl : (l.map Prod.fst).Nodup) (name : String)
    (v : V) : l.lookup name = some v ↔ (name, v) ∈ l := by
  induction l with
  | nil => simp
  | cons p l ih =>
    obtain ⟨k, w⟩ := p
    simp only [List.map_cons, List.nodup_cons] at hl
    by_cases hk : name = k
    · subst hk
      simp only [List.lookup_cons_self, Option.some.injEq, List.mem_cons, Prod.mk.injEq, true_and]
      constructor
      · intro e; exact Or.inl e.symm
      · rintro (e | e)
        · exact e.symm
        · exact absurd (List.mem_map_of_mem (f := Prod.fst) e) hl.1
    · have : (name == k) = false := by simpa using hk
      simp only [List.lookup_cons, this, ih hl.2, List.mem_cons, Prod.mk.injEq, hk, false_and, false_or]

theorem lookup_perm {kw kw' : List (String × V)} (h : kw.Perm kw') (hn : (kw'.map Prod.fst).Nodup)
    (name : String) : kw.lookup name = kw'.lookup name := by
  have hn' : (kw.map Prod.fst).Nodup := (h.map Prod.fst).nodup_iff.2 hn
  have key := fun (l : List (String × V)) h v => lookup_eq_some_iff_mem l h name v
  cases hv : kw'.lookup name with
  | some v =>
    exact (key kw hn' v).2 (h.mem_iff.2 ((key kw' hn v).1 hv))
  | none =>
    cases hw : kw.lookup name with
    | none => rfl
    | some v =>
      have := (key kw' hn v).2 (h.mem_iff.1 ((key kw hn' v).1 hw))
      rw [hv] at this; cases this

theorem invoke_perm {typeOf : V → PyType} (sig : FnSig V) (body : (String → Option V) → Except PyErr R)
    (args : List V) {kw kw' : List (String × V)} (h : kw.Perm kw') (hn : (kw'.map Prod.fst).Nodup) :
    sig.invoke typeOf body args kw = sig.invoke typeOf body args kw' := by
  have hl : (fun name => kw.lookup name) = fun name => kw'.lookup name :=
    funext (lookup_perm h hn)
  have hl' : ∀ name, kw.lookup name = kw'.lookup name := lookup_perm h hn
  have hany : ∀ p : String × V → Bool, kw.any p = kw'.any p := by
    intro p
    rw [Bool.eq_iff_iff, List.any_eq_true, List.any_eq_true]
    exact exists_congr fun x => and_congr_left fun _ => h.mem_iff
  unfold FnSig.invoke FnSig.pyCall
  simp only [hl', hany]

/-- evaluate a call whose keywords are given in the order of the signature -/
macro "call_body " sig:ident body:ident : tactic => `(tactic| (
  simp [FnSig.invoke, FnSig.pyCall, $sig:ident, $body:ident, isInstance, Annotation.accepted,
    PyVal.typeOf, DistVal.cls, List.lookup, argNum, argBool, argSeq, argFn1, argFn2, argDist, bind, pure,
    Except.bind, Except.pure, Except.map, VariancePrior.toDist, NormalPrior.toDist, argVariancePrior, argNormalPrior, argBeta, argBetaBinomial, argBetaProportional, argDirichlet, argGamma, argGammaKnownRateProportional, argGammaProportional, argInverseGamma, argNormal, argNormalInverseGamma, argPareto, argVonMisesKnownConcentration, argVonMisesKnownDirectionProportional]))

end Conj
