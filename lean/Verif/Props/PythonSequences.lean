import Verif.PyVal
import Verif.Num

/-!
# C73: Dirichlet updates with lists, tuples and arrays
-/

namespace Conj

open SeqVal

variable {α : Type} [Add α]

/-- Lists are concatenated, tuples too: twice as many categories instead of updated counts. -/
theorem C73_lists_concatenate (a x : List α) :
    multinomial_dirichlet (SeqVal.list x) ⟨SeqVal.list a⟩ = .ok ⟨SeqVal.list (a ++ x)⟩ ∧
    multinomial_dirichlet (SeqVal.tuple x) ⟨SeqVal.tuple a⟩ = .ok ⟨SeqVal.tuple (a ++ x)⟩ ∧
    categorical_dirichlet (SeqVal.list x) ⟨SeqVal.list a⟩ = .ok ⟨SeqVal.list (a ++ x)⟩ ∧
    categorical_dirichlet (SeqVal.tuple x) ⟨SeqVal.tuple a⟩ = .ok ⟨SeqVal.tuple (a ++ x)⟩ := ⟨rfl, rfl, rfl, rfl⟩

/-- So for two lists the result is the elementwise sum only when both are empty. -/
theorem C73_lists_right_iff (a x : List α) :
    multinomial_dirichlet (SeqVal.list x) ⟨SeqVal.list a⟩ = .ok ⟨SeqVal.list (List.zipWith (· + ·) a x)⟩ ↔
      a = [] ∧ x = [] := by
  rw [(C73_lists_concatenate a x).1]
  simp only [Except.ok.injEq, Dirichlet.mk.injEq, SeqVal.list.injEq]
  constructor
  · intro h
    have h2 := congrArg List.length h
    simp only [List.length_append, List.length_zipWith] at h2
    have h3 : a.length = 0 := by omega
    have h4 : x.length = 0 := by omega
    exact ⟨List.eq_nil_of_length_eq_zero h3, List.eq_nil_of_length_eq_zero h4⟩
  · rintro ⟨rfl, rfl⟩; rfl

/-- A list and a tuple, in either order, of equal length: elementwise sums, as a list.
Missing for C73: two lists, two tuples (false), and errors for unequal lengths (false). -/
theorem C73_mixed_partial (a x : List α) :
    multinomial_dirichlet (SeqVal.tuple x) ⟨SeqVal.list a⟩ = .ok ⟨SeqVal.list (List.zipWith (· + ·) a x)⟩ ∧
    multinomial_dirichlet (SeqVal.list x) ⟨SeqVal.tuple a⟩ = .ok ⟨SeqVal.list (List.zipWith (· + ·) a x)⟩ ∧
    categorical_dirichlet (SeqVal.tuple x) ⟨SeqVal.list a⟩ = .ok ⟨SeqVal.list (List.zipWith (· + ·) a x)⟩ ∧
    categorical_dirichlet (SeqVal.list x) ⟨SeqVal.tuple a⟩ = .ok ⟨SeqVal.list (List.zipWith (· + ·) a x)⟩ :=
  ⟨rfl, rfl, rfl, rfl⟩

/-- As soon as one of the two is an array, equal lengths give the array of elementwise sums. -/
theorem C73_arrays_partial (a x : List α) (h : a.length = x.length) (p c : SeqVal α)
    (hp : p = SeqVal.arr a ∨ (p = SeqVal.list a ∨ p = SeqVal.tuple a) ∧ c = SeqVal.arr x)
    (hc : c = SeqVal.arr x ∨ (c = SeqVal.list x ∨ c = SeqVal.tuple x) ∧ p = SeqVal.arr a) :
    multinomial_dirichlet c ⟨p⟩ = .ok ⟨SeqVal.arr (List.zipWith (· + ·) a x)⟩ ∧
    categorical_dirichlet c ⟨p⟩ = .ok ⟨SeqVal.arr (List.zipWith (· + ·) a x)⟩ := by
  have key : SeqVal.add p c = .ok (SeqVal.arr (List.zipWith (· + ·) a x)) := by
    rcases hp with rfl | ⟨rfl | rfl, rfl⟩
    · rcases hc with rfl | ⟨rfl | rfl, _⟩ <;> simp [SeqVal.add, npAdd, h, Except.map]
    · simp [SeqVal.add, npAdd, h, Except.map]
    · simp [SeqVal.add, npAdd, h, Except.map]
  have k2 : (PySeq.tryAdd p c : Except PyErr (SeqVal α)) = .ok (SeqVal.arr (List.zipWith (· + ·) a x)) := key
  constructor
  · simp only [multinomial_dirichlet, getDirichletPosteriorParams, k2]; rfl
  · simp only [categorical_dirichlet, getDirichletPosteriorParams, k2]; rfl

/-- Unequal lengths are not an error: the longer one is silently cut (arrays longer than one,
because numpy's error is caught). -/
theorem C73_unequal_lengths_truncate (a x : List α) (h : a.length ≠ x.length)
    (ha : a.length ≠ 1) (hx : x.length ≠ 1) :
    multinomial_dirichlet (SeqVal.arr x) ⟨SeqVal.arr a⟩ = .ok ⟨SeqVal.list (List.zipWith (· + ·) a x)⟩ ∧
    (List.zipWith (· + ·) a x).length = min a.length x.length := by
  refine ⟨?_, List.length_zipWith⟩
  have e : npAdd a x = .error (.valueError "operands could not be broadcast together") := by
    unfold npAdd
    rw [if_neg h]
    split
    · simp at ha
    · simp at hx
    · rfl
  have k : (PySeq.tryAdd (SeqVal.arr a) (SeqVal.arr x) : Except PyErr (SeqVal α)) =
      .error (.valueError "operands could not be broadcast together") := by
    change (npAdd a x).map SeqVal.arr = _
    rw [e]; rfl
  simp only [multinomial_dirichlet, getDirichletPosteriorParams, k]
  rfl

/-- No pair of sequences whatever is rejected. -/
theorem C73_no_error_for_sequences (p c : SeqVal α) (hp : ∀ x, p ≠ SeqVal.num x) (hc : ∀ x, c ≠ SeqVal.num x) :
    ∃ d, multinomial_dirichlet c ⟨p⟩ = .ok d := by
  have hz : ∃ r, (PySeq.zipAdd p c : Except PyErr (SeqVal α)) = .ok r := by
    cases p <;> cases c <;> first
      | exact absurd rfl (hp _)
      | exact absurd rfl (hc _)
      | exact ⟨_, rfl⟩
  obtain ⟨r, hr⟩ := hz
  simp only [multinomial_dirichlet, getDirichletPosteriorParams, hr]
  cases PySeq.tryAdd p c <;> exact ⟨_, rfl⟩

/-- counts `[1, 2]` for the prior `[1, 1]` -/
theorem C73_two_categories_become_four :
    multinomial_dirichlet (SeqVal.list [1, 2]) ⟨SeqVal.list [1, 1]⟩ = .ok ⟨SeqVal.list [(1 : ℤ), 1, 1, 2]⟩ ∧
    multinomial_dirichlet (SeqVal.arr [1, 2, 3]) ⟨SeqVal.arr [1, 1]⟩ = .ok ⟨SeqVal.list [(2 : ℤ), 3]⟩ := ⟨rfl, rfl⟩

example : multinomial_dirichlet (SeqVal.tuple [1, 2]) ⟨SeqVal.list [1, 1]⟩ = .ok ⟨SeqVal.list [(2 : ℤ), 3]⟩ := rfl
example : multinomial_dirichlet (SeqVal.list [1, 2]) ⟨SeqVal.arr [1, 1]⟩ = .ok ⟨SeqVal.arr [(2 : ℤ), 3]⟩ := rfl

end Conj
