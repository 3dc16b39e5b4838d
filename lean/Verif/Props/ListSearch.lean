import Verif.ListSearch
import Verif.ListSearchSpec
import Verif.Props.Equality

/-!
# C127: finding a distribution in a list
-/

namespace Conj

open Spec

theorem Spec.NumberList.tail {x y : Inst} {ys : List Inst} (h : NumberList x (y :: ys)) : NumberList x ys :=
  ⟨h.sought, fun z hz => h.elements z (by simp [hz]), fun z hz => h.fields z (by simp [hz]),
    fun z hz => h.addresses z (by simp [hz])⟩

open Classical in
theorem matches_numbers (v : Python) {x y : Inst} {ys : List Inst} (h : NumberList x (y :: ys)) :
    matches? v y x = .ok (decide (SameDistribution y x)) := by
  unfold matches?
  by_cases hr : y.ref = x.ref
  · obtain rfl := h.addresses y (by simp) hr
    have : SameDistribution y y := ⟨rfl, rfl⟩
    simp only [if_true, this, decide_true]
    rfl
  · obtain ⟨b, hb, e⟩ := C120_numbers v y x (h.elements y (by simp)) h.sought (h.fields y (by simp)) (h.addresses y (by simp))
    have eb : b = decide (SameDistribution y x) := by
      rw [Bool.eq_iff_iff, e, decide_eq_true_iff]; rfl
    simp only [hr, if_false, hb, ← eb]
    rfl

/-- C127. `x in ys` does not raise and says whether the list has a distribution with the class and the parameters of `x`. -/
theorem C127_in (v : Python) (x : Inst) (ys : List Inst) (h : NumberList x ys) :
    ∃ b, listIn v x ys = .ok b ∧ (b = true ↔ ∃ y ∈ ys, SameDistribution y x) := by
  classical
  induction ys with
  | nil => exact ⟨false, rfl, by simp⟩
  | cons y ys ih =>
    obtain ⟨b, hb, e⟩ := ih h.tail
    rw [listIn, matches_numbers v h]
    by_cases hy : SameDistribution y x
    · exact ⟨true, by simp only [hy, decide_true]; rfl, by simp [hy]⟩
    · refine ⟨b, by simp only [hy, decide_false]; exact hb, ?_⟩
      simp [e, hy]

/-- C127. `ys.index(x)` is the first position with the class and the parameters of `x`; without one it raises
ValueError. -/
theorem C127_index (v : Python) (x : Inst) (ys : List Inst) (h : NumberList x ys) :
    (∀ i, listIndex v x ys = .ok i ↔ ∃ hi : i < ys.length, SameDistribution ys[i] x ∧
      ∀ j (hj : j < i), ¬ SameDistribution (ys[j]'(hj.trans hi)) x) ∧
    ((∃ m, listIndex v x ys = .error (.valueError m)) ↔ ∀ y ∈ ys, ¬ SameDistribution y x) := by
  classical
  induction ys with
  | nil =>
    refine ⟨fun i => ⟨fun e => (nomatch e), fun ⟨hi, _⟩ => absurd hi (by simp)⟩, ?_⟩
    exact ⟨by simp, fun _ => ⟨_, rfl⟩⟩
  | cons y ys ih =>
    obtain ⟨ih1, ih2⟩ := ih h.tail
    by_cases hy : SameDistribution y x
    · have e : listIndex v x (y :: ys) = .ok 0 := by
        rw [listIndex, matches_numbers v h]; simp only [hy, decide_true]; rfl
      rw [e]
      refine ⟨fun i => ⟨fun e => ?_, fun ⟨hi, h1, h2⟩ => ?_⟩, ⟨fun ⟨m, e⟩ => (nomatch e), fun e => absurd hy (e y (by simp))⟩⟩
      · cases e
        exact ⟨by simp, by simpa using hy, by simp⟩
      · rcases Nat.eq_zero_or_pos i with rfl | hp
        · rfl
        · exact absurd hy (h2 0 hp)
    · have e : listIndex v x (y :: ys) = (listIndex v x ys).map (· + 1) := by
        rw [listIndex, matches_numbers v h]; simp only [hy, decide_false]
        cases listIndex v x ys <;> rfl
      rw [e]
      constructor
      · intro i
        cases i with
        | zero =>
          constructor
          · intro e'
            cases hl : listIndex v x ys <;> rw [hl] at e' <;> simp [Except.map] at e'
          · rintro ⟨_, h1, _⟩
            exact absurd h1 (by simpa using hy)
        | succ i =>
          have e1 : (listIndex v x ys).map (· + 1) = .ok (i + 1) ↔ listIndex v x ys = .ok i := by
            cases listIndex v x ys <;> simp [Except.map]
          rw [e1, ih1 i]
          constructor
          · rintro ⟨hi, h1, h2⟩
            refine ⟨by simpa using hi, by simpa using h1, fun j hj => ?_⟩
            cases j with
            | zero => simpa using hy
            | succ j => simpa using h2 j (by omega)
          · rintro ⟨hi, h1, h2⟩
            refine ⟨by simpa using hi, by simpa using h1, fun j hj => ?_⟩
            simpa using h2 (j + 1) (by omega)
      · have e2 : (∃ m, (listIndex v x ys).map (· + 1) = .error (.valueError m)) ↔ ∃ m, listIndex v x ys = .error (.valueError m) := by
          cases listIndex v x ys <;> simp [Except.map]
        rw [e2, ih2]
        simp [hy]

open Classical in
/-- C127. `ys.count(x)` is the number of distributions with the class and the parameters of `x`. -/
theorem C127_count (v : Python) (x : Inst) (ys : List Inst) (h : NumberList x ys) :
    listCount v x ys = .ok (ys.countP fun y => decide (SameDistribution y x)) := by
  induction ys with
  | nil => rfl
  | cons y ys ih =>
    rw [listCount, matches_numbers v h, ih h.tail]
    by_cases hy : SameDistribution y x
    · simp only [hy, decide_true, List.countP_cons_of_pos]; rfl
    · simp only [hy, decide_false, List.countP_cons_of_neg, Bool.false_eq_true, not_false_eq_true]; rfl

/-- C127. `ys.remove(x)` takes out one distribution with the class and the parameters of `x` and keeps the others in
order. -/
theorem C127_remove (v : Python) (x : Inst) (ys : List Inst) (h : NumberList x ys) (hx : ∃ y ∈ ys, SameDistribution y x) :
    ∃ before y after, ys = before ++ y :: after ∧ SameDistribution y x ∧ (∀ z ∈ before, ¬ SameDistribution z x) ∧
      listRemove v x ys = .ok (before ++ after) := by
  classical
  induction ys with
  | nil => simp at hx
  | cons y ys ih =>
    by_cases hy : SameDistribution y x
    · refine ⟨[], y, ys, rfl, hy, by simp, ?_⟩
      rw [listRemove, matches_numbers v h]; simp only [hy, decide_true]; rfl
    · obtain ⟨b, z, a, e1, e2, e3, e4⟩ := ih h.tail (by simpa [hy] using hx)
      refine ⟨y :: b, z, a, by rw [e1]; rfl, e2, by simpa [hy] using e3, ?_⟩
      rw [listRemove, matches_numbers v h, e4]
      simp only [hy, decide_false]
      rfl

/-- `Beta(1, 2)` sought in `[Beta(3, 4), Normal(1, 2), Beta(1, 2)]` -/
example : NumberList ⟨0, "Beta", [.num 1, .num 2], []⟩ [⟨1, "Beta", [.num 3, .num 4], []⟩, ⟨2, "Normal", [.num 1, .num 2], []⟩,
    ⟨3, "Beta", [.num 1, .num 2], []⟩] ∧
    ∃ y ∈ [(⟨1, "Beta", [.num 3, .num 4], []⟩ : Inst), ⟨2, "Normal", [.num 1, .num 2], []⟩, ⟨3, "Beta", [.num 1, .num 2], []⟩],
      SameDistribution y ⟨0, "Beta", [.num 1, .num 2], []⟩ := by
  refine ⟨⟨by simp [Plain, plain], by simp [Plain, plain], by simp [SameFields], by simp⟩, ?_⟩
  exact ⟨⟨3, "Beta", [.num 1, .num 2], []⟩, by simp, rfl, rfl⟩

/-- An object at the head of the list is found, whatever its parameters. -/
theorem C127_first_partial (v : Python) (x : Inst) (ys : List Inst) :
    listIn v x (x :: ys) = .ok true ∧ listIndex v x (x :: ys) = .ok 0 ∧ listRemove v x (x :: ys) = .ok ys := by
  have e : matches? v x x = .ok true := by simp only [matches?, if_true]; rfl
  refine ⟨?_, ?_, ?_⟩
  · rw [listIn, e]; rfl
  · rw [listIndex, e]; rfl
  · rw [listRemove, e]; rfl

/-- C127 (disagreement). With arrays as parameters: if a distribution with equal but different arrays comes first, all
four raise ValueError, even if the object itself comes later in the list. -/
theorem C127_arrays_raise (x y : Inst) (ys : List Inst) (hr : y.ref ≠ x.ref) (hc : y.cls = x.cls)
    (h : List.Forall₂ SameValue y.fields x.fields) (ha : ∃ p ∈ y.fields.zip x.fields, Apart p.1 p.2) :
    ∃ m, listIn .upTo312 x (y :: ys) = .error (.valueError m) ∧ listIndex .upTo312 x (y :: ys) = .error (.valueError m) ∧
      listCount .upTo312 x (y :: ys) = .error (.valueError m) ∧ listRemove .upTo312 x (y :: ys) = .error (.valueError m) := by
  obtain ⟨m, hm⟩ := (C120_same_arrays y x hc h).2.2 ha
  have e : matches? .upTo312 y x = .error (.valueError m) := by
    simp only [matches?, hr, if_false, hm]; rfl
  refine ⟨m, ?_, ?_, ?_, ?_⟩
  · rw [listIn, e]; rfl
  · rw [listIndex, e]; rfl
  · rw [listCount, e]; rfl
  · rw [listRemove, e]; rfl

/-- `x in [copy of x, x]` -/
example : let a : NdArr ℝ := ⟨[2], fun _ => 1⟩
    let x : Inst := ⟨0, "Poisson", [.arr 1 a], []⟩
    let y : Inst := ⟨2, "Poisson", [.arr 3 a], []⟩
    y.ref ≠ x.ref ∧ y.cls = x.cls ∧ List.Forall₂ SameValue y.fields x.fields ∧ ∃ p ∈ y.fields.zip x.fields, Apart p.1 p.2 :=
  ⟨by decide, rfl, by simp [SameValue], _, by simp; rfl, by simp [Apart]⟩

end Conj
