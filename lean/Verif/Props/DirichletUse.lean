import Verif.DirichletUse
import Verif.DirichletUseSpec
import Mathlib.Algebra.BigOperators.Group.List.Basic

/-!
# C126: Dirichlet posteriors can be used
-/

namespace Conj

open Spec SeqVal

variable {α : Type}

theorem npAdd_ok_iff [Add α] (a b : List α) :
    (∃ r, npAdd a b = .ok r) ↔ a.length = b.length ∨ a.length = 1 ∨ b.length = 1 := by
  unfold npAdd
  by_cases h : a.length = b.length
  · rw [if_pos h]; exact ⟨fun _ => .inl h, fun _ => ⟨_, rfl⟩⟩
  · rw [if_neg h]
    split
    · exact ⟨fun _ => .inr (.inl rfl), fun _ => ⟨_, rfl⟩⟩
    · exact ⟨fun _ => .inr (.inr rfl), fun _ => ⟨_, rfl⟩⟩
    · rename_i h1 h2
      constructor
      · rintro ⟨r, hr⟩; cases hr
      · rintro (e | e | e)
        · exact absurd e h
        · obtain ⟨x, rfl⟩ := List.length_eq_one_iff.1 e
          exact absurd rfl (h1 x)
        · obtain ⟨x, rfl⟩ := List.length_eq_one_iff.1 e
          exact absurd rfl (h2 x)

theorem multinomial_cases [Add α] (p c : SeqVal α) :
    multinomial_dirichlet c ⟨p⟩ = (match SeqVal.add p c with
      | .ok r => .ok ⟨r⟩
      | .error _ => (SeqVal.zipAdd p c).map Dirichlet.mk) := by
  have ht : (PySeq.tryAdd p c : Except PyErr (SeqVal α)) = SeqVal.add p c := rfl
  have hz : (PySeq.zipAdd p c : Except PyErr (SeqVal α)) = SeqVal.zipAdd p c := rfl
  simp only [multinomial_dirichlet, getDirichletPosteriorParams, ht, hz]
  cases SeqVal.add p c with
  | ok r => rfl
  | error e => cases SeqVal.zipAdd p c <;> rfl

theorem zipAdd_not_arr [Add α] {p c r : SeqVal α} (h : SeqVal.zipAdd p c = .ok r) : ∃ l, r = .list l := by
  cases p <;> cases c <;> cases h <;> exact ⟨_, rfl⟩

theorem add_arr_iff [Add α] (p c : SeqVal α) :
    (∃ l, SeqVal.add p c = .ok (.arr l)) ↔ (IsArray p ∨ IsArray c) ∧ Broadcast p c := by
  have key (a b : List α) : (∃ l, (npAdd a b).map SeqVal.arr = .ok (.arr l)) ↔
      a.length = b.length ∨ a.length = 1 ∨ b.length = 1 := by
    rw [← npAdd_ok_iff]
    cases npAdd a b with
    | error e => exact ⟨fun ⟨l, h⟩ => (nomatch h), fun ⟨l, h⟩ => (nomatch h)⟩
    | ok r => exact ⟨fun _ => ⟨_, rfl⟩, fun _ => ⟨_, rfl⟩⟩
  cases p <;> cases c <;> simp only [SeqVal.add, key, IsArray, Broadcast, entries] <;> simp

/-- `.dist` of the posterior exists exactly when the prior or the counts are an array and numpy can add them. -/
theorem C126_usable_iff [Add α] (p c : SeqVal α) :
    (∃ post r, multinomial_dirichlet c ⟨p⟩ = .ok post ∧ post.distParams = .ok r) ↔
      (IsArray p ∨ IsArray c) ∧ Broadcast p c := by
  rw [← add_arr_iff, multinomial_cases]
  cases h : SeqVal.add p c with
  | ok v =>
    constructor
    · rintro ⟨post, r, e, hr⟩
      cases e
      cases v <;> first | exact ⟨_, rfl⟩ | cases hr
    · rintro ⟨l, e⟩
      cases e
      exact ⟨_, _, rfl, rfl⟩
  | error x =>
    constructor
    · rintro ⟨post, r, e, hr⟩
      cases hz : SeqVal.zipAdd p c with
      | error y => simp only [hz] at e; cases e
      | ok v =>
        simp only [hz] at e
        obtain ⟨l, rfl⟩ := zipAdd_not_arr hz
        cases e
        cases hr
    · rintro ⟨l, e⟩; cases e

/-- the same for `categorical_dirichlet` -/
theorem C126_categorical_usable_iff [Add α] (p c : SeqVal α) :
    (∃ post r, categorical_dirichlet c ⟨p⟩ = .ok post ∧ post.distParams = .ok r) ↔
      (IsArray p ∨ IsArray c) ∧ Broadcast p c := C126_usable_iff p c

/-- Otherwise `.dist` is an `AttributeError`. -/
theorem C126_unusable_attribute_error [Add α] {p c : SeqVal α} {post : Dirichlet (SeqVal α)}
    (h : multinomial_dirichlet c ⟨p⟩ = .ok post) (h_not : ¬ ((IsArray p ∨ IsArray c) ∧ Broadcast p c)) :
    post.distParams = .error .attributeError := by
  rw [← C126_usable_iff] at h_not
  obtain ⟨v⟩ := post
  cases v <;> first | rfl | exact absurd ⟨_, _, h, rfl⟩ h_not

/-- two lists; two arrays of two and three entries -/
example : (∃ post, multinomial_dirichlet (SeqVal.list [1, 2]) ⟨SeqVal.list [(1 : ℤ), 1]⟩ = .ok post) ∧
    ¬ ((IsArray (.list [(1 : ℤ), 1]) ∨ IsArray (.list [(1 : ℤ), 2])) ∧ Broadcast (.list [(1 : ℤ), 1]) (.list [1, 2])) ∧
    (∃ post, multinomial_dirichlet (SeqVal.arr [1, 2, 3]) ⟨SeqVal.arr [(1 : ℤ), 1]⟩ = .ok post) ∧
    ¬ ((IsArray (.arr [(1 : ℤ), 1]) ∨ IsArray (.arr [(1 : ℤ), 2, 3])) ∧ Broadcast (.arr [(1 : ℤ), 1]) (.arr [1, 2, 3])) :=
  ⟨⟨_, rfl⟩, by simp [IsArray], ⟨_, rfl⟩, by simp [IsArray, Broadcast, entries]⟩

/-- the prior as list, the counts as array -/
example : (IsArray (.list [(1 : ℤ), 1]) ∨ IsArray (.arr [(3 : ℤ), 2])) ∧ Broadcast (.list [(1 : ℤ), 1]) (.arr [3, 2]) :=
  ⟨.inr ⟨_, rfl⟩, .inl rfl⟩

theorem step_array [Add α] {p c : SeqVal α} (hp : IsSequence p) (hc : IsSequence c) (h : IsArray p ∨ IsArray c)
    (e : (entries p).length = (entries c).length) :
    multinomial_dirichlet c ⟨p⟩ = .ok ⟨.arr (List.zipWith (· + ·) (entries p) (entries c))⟩ := by
  rw [multinomial_cases]
  obtain ⟨l, rfl | rfl | rfl⟩ := hp <;> obtain ⟨m, rfl | rfl | rfl⟩ := hc <;> simp only [entries] at e ⊢ <;>
    first
    | simp [SeqVal.add, npAdd, e, Except.map]; done
    | simp [IsArray] at h

theorem getD_zipWith_add [AddCommMonoid α] (a b : List α) (e : a.length = b.length) (i : ℕ) :
    (List.zipWith (· + ·) a b).getD i 0 = a.getD i 0 + b.getD i 0 := by
  by_cases h : i < a.length
  · have h' : i < b.length := e ▸ h
    simp [List.getD, h, h']
  · have h' : ¬ i < b.length := e ▸ h
    simp [List.getD, h, h']

theorem loop_arrays [AddCommMonoid α] (k : ℕ) (batches : List (SeqVal α)) : ∀ (p : SeqVal α), IsSequence p →
    (entries p).length = k → (∀ b ∈ batches, IsSequence b ∧ (entries b).length = k) →
    (IsArray p ∨ ∃ b ∈ batches.head?, IsArray b) →
    ∃ post r, dirichletLoop batches ⟨p⟩ = .ok post ∧ post.distParams = .ok r ∧ r.length = k ∧
      ∀ i, r.getD i 0 = (entries p).getD i 0 + (batches.map fun b => (entries b).getD i 0).sum := by
  induction batches with
  | nil =>
    intro p _ hk _ h
    obtain ⟨l, rfl⟩ := h.resolve_right (by simp)
    exact ⟨_, l, rfl, rfl, hk, fun i => by simp [entries]⟩
  | cons b rest ih =>
    intro p hp hk hb h
    obtain ⟨sb, lb⟩ := hb b (by simp)
    have eb : (entries p).length = (entries b).length := hk.trans lb.symm
    have h' : IsArray p ∨ IsArray b := by simpa using h
    obtain ⟨post, r, e1, e2, e3, e4⟩ := ih (.arr (List.zipWith (· + ·) (entries p) (entries b))) ⟨_, .inr (.inr rfl)⟩
      (by
        change (List.zipWith (· + ·) (entries p) (entries b)).length = k
        rw [List.length_zipWith, ← eb, min_self, hk]) (fun c hc => hb c (by simp [hc])) (.inl ⟨_, rfl⟩)
    refine ⟨post, r, ?_, e2, e3, fun i => ?_⟩
    · simp only [dirichletLoop, step_array hp sb h' eb]
      exact e1
    · rw [e4, show entries (.arr (List.zipWith (· + ·) (entries p) (entries b))) =
          List.zipWith (· + ·) (entries p) (entries b) from rfl,
        getD_zipWith_add _ _ eb, List.map_cons, List.sum_cons, add_assoc]

/-- Prior and batches of counts are lists, tuples or arrays of the same length, and the prior or the first batch is an
array: after any number of batches `.dist` has the prior's parameters plus all counts, category by category.  Missing
for C126: histories that begin without an array (for those without any array it is false, see below). -/
theorem C126_array_first_partial [AddCommMonoid α] (prior : SeqVal α) (batches : List (SeqVal α))
    (h_prior : IsSequence prior)
    (h_batches : ∀ b ∈ batches, IsSequence b ∧ (entries b).length = (entries prior).length)
    (h_array : IsArray prior ∨ ∃ b ∈ batches.head?, IsArray b) :
    ∃ post r, dirichletLoop batches ⟨prior⟩ = .ok post ∧ post.distParams = .ok r ∧
      r.length = (entries prior).length ∧
      ∀ i, r.getD i 0 = (entries prior).getD i 0 + (batches.map fun b => (entries b).getD i 0).sum :=
  loop_arrays _ batches prior h_prior rfl h_batches h_array

example : IsSequence (.list [(1 : ℤ), 1]) ∧
    (∀ b ∈ [SeqVal.arr [(3 : ℤ), 2], .tuple [0, 5]], IsSequence b ∧
      (entries b).length = (entries (.list [(1 : ℤ), 1])).length) ∧
    (∃ b ∈ [SeqVal.arr [(3 : ℤ), 2], .tuple [0, 5]].head?, IsArray b) ∧
    dirichletLoop [.arr [3, 2], .tuple [0, 5]] ⟨.list [(1 : ℤ), 1]⟩ = .ok ⟨.arr [4, 8]⟩ :=
  ⟨⟨_, .inl rfl⟩, by simp [entries, IsSequence], by simp [IsArray], rfl⟩

/-- Without any array no number of batches gives a posterior with `.dist`: the loop runs to its end, and `.dist` is an
`AttributeError`. -/
theorem C126_no_arrays [Add α] (batches : List (SeqVal α)) (prior : SeqVal α)
    (h_prior : IsSequence prior ∧ ¬ IsArray prior) (h_batches : ∀ b ∈ batches, IsSequence b ∧ ¬ IsArray b) :
    ∃ post, dirichletLoop batches ⟨prior⟩ = .ok post ∧ post.distParams = .error .attributeError := by
  induction batches generalizing prior with
  | nil =>
    obtain ⟨⟨l, rfl | rfl | rfl⟩, h⟩ := h_prior
    · exact ⟨_, rfl, rfl⟩
    · exact ⟨_, rfl, rfl⟩
    · exact absurd ⟨_, rfl⟩ h
  | cons b rest ih =>
    have hb := h_batches b (by simp)
    have step : ∃ v, multinomial_dirichlet b ⟨prior⟩ = .ok ⟨v⟩ ∧ IsSequence v ∧ ¬ IsArray v := by
      obtain ⟨⟨l, rfl | rfl | rfl⟩, h⟩ := h_prior
      · obtain ⟨⟨m, rfl | rfl | rfl⟩, h'⟩ := hb
        · exact ⟨_, rfl, ⟨_, .inl rfl⟩, by simp [IsArray]⟩
        · exact ⟨_, rfl, ⟨_, .inl rfl⟩, by simp [IsArray]⟩
        · exact absurd ⟨_, rfl⟩ h'
      · obtain ⟨⟨m, rfl | rfl | rfl⟩, h'⟩ := hb
        · exact ⟨_, rfl, ⟨_, .inl rfl⟩, by simp [IsArray]⟩
        · exact ⟨_, rfl, ⟨_, .inr (.inl rfl)⟩, by simp [IsArray]⟩
        · exact absurd ⟨_, rfl⟩ h'
      · exact absurd ⟨_, rfl⟩ h
    obtain ⟨v, e, hv⟩ := step
    obtain ⟨post, e1, e2⟩ := ih v hv fun c hc => h_batches c (by simp [hc])
    refine ⟨post, ?_, e2⟩
    simp only [dirichletLoop, e]
    exact e1

example : (IsSequence (.list [(1 : ℤ), 1]) ∧ ¬ IsArray (.list [(1 : ℤ), 1])) ∧
    ∀ b ∈ [SeqVal.tuple [(3 : ℤ), 2], .list [1, 1]], IsSequence b ∧ ¬ IsArray b := by
  refine ⟨⟨⟨_, .inl rfl⟩, by simp [IsArray]⟩, ?_⟩
  simp [IsSequence, IsArray]

end Conj
