import Verif.Props.Ieee
import Verif.Props.IeeeShown
import Verif.Lemmas.FloatMag
import Verif.Lemmas.Rounding
import Verif.ArraySpec
import Verif.Props.Memory
import Mathlib.LinearAlgebra.Matrix.PosDef
import Mathlib.Tactic.FinCases

/-!
# A tactic for hypotheses about concrete inputs

`meets_hypothesis` closes the hypothesis of a theorem once its inputs are numbers, lists, arrays, matrices or doubles
written out.  It is used by the `Cases` modules, which apply each theorem to such inputs.
-/

open MeasureTheory Set Real Matrix

namespace Conj

open Scipy Spec

theorem input_ofNat (k : ℕ) [k.AtLeastTwo] (h : k ≤ 2 ^ 53) : Input (OfNat.ofNat k : ℝ) := by
  have := input_int (k := (k : ℤ)) (by have := (Nat.AtLeastTwo.prop (n := k)); omega)
    (by rw [abs_of_nonneg (by positivity)]; exact_mod_cast h)
  exact_mod_cast this

theorem input_one : Input 1 := by exact_mod_cast input_int (k := 1) (by norm_num) (by norm_num)

theorem input_zero : Input 0 := ⟨⟨by simp, 0, 0, by norm_num, by norm_num, by simp⟩, .inl rfl⟩

theorem sliceArg_three (f : List ℕ → ℝ) : SliceArg 0 3 (⟨[3], f⟩ : NdArr ℝ) := Or.inr ⟨[], rfl, rfl⟩

theorem sliceArg_scalar (x : ℝ) : SliceArg 0 3 (.scalar x : NdArr ℝ) := Or.inl rfl

/-- closes a hypothesis about inputs that are written out -/
macro "meets_hypothesis" : tactic => `(tactic| first
  | exact ⟨⟨⟨12, by norm_num⟩, by norm_num⟩, ⟨⟨8, by norm_num⟩, by norm_num⟩⟩
  | (intro b hb; simp only [List.mem_cons, List.not_mem_nil, or_false] at hb
     rcases hb with h | h <;> subst h
     exacts [⟨⟨12, by norm_num⟩, ⟨8, by norm_num⟩, by norm_num, by norm_num⟩,
       ⟨⟨20, by norm_num⟩, ⟨16, by norm_num⟩, by norm_num, by norm_num⟩])
  | exact input_ofNat _ (by norm_num)
  | exact input_one
  | exact ⟨input_ofNat _ (by norm_num), input_ofNat _ (by norm_num)⟩
  | exact ⟨input_one, input_ofNat _ (by norm_num)⟩
  | exact ⟨input_zero, input_one, input_ofNat _ (by norm_num), input_ofNat _ (by norm_num)⟩
  | exact ⟨input_ofNat _ (by norm_num), input_one⟩
  | exact ⟨input_ofNat _ (by norm_num), input_ofNat _ (by norm_num), input_ofNat _ (by norm_num)⟩
  | exact ⟨input_ofNat _ (by norm_num), input_one, input_ofNat _ (by norm_num), input_ofNat _ (by norm_num)⟩
  | exact ⟨input_one, input_ofNat _ (by norm_num), input_ofNat _ (by norm_num)⟩
  | with_reducible exact binary_accurate (by norm_num)
  | with_reducible exact binary_accurate_square (by norm_num)
  | with_reducible exact binary_keeps (by norm_num)
  | (simp [Params.All, input_ofNat, input_one, input_zero, sliceArg_three, sliceArg_scalar]; done)
  | (simp [Params.All, NdArr.FitsIn, NdArr.scalar, Spec.Valid, input_one.1]; done)
  | (simp [Params.All, Spec.Valid]; exact (input_ofNat _ (by norm_num)).1)
  | (simp [Params.All, Spec.Valid]; exact ⟨(input_ofNat _ (by norm_num)).1, (input_ofNat _ (by norm_num)).1⟩)
  | with_reducible exact Matrix.PosDef.one
  | with_reducible rfl
  | (norm_num; done)
  | (simp; done)
  | (simp [Params.All, InHeap, exampleHeap]; done)
  | (constructor <;> norm_num; done)
  | (simp; norm_num; done)
  | (intro i; fin_cases i <;> norm_num; done)
  | with_reducible exact List.Perm.swap _ _ _
  | (ext i; fin_cases i <;> simp <;> norm_num; done)
  | (refine ⟨?_, ?_, ?_⟩ <;> norm_num; done)
  | (refine ⟨?_, ?_, ?_, ?_⟩ <;> norm_num; done))

end Conj
