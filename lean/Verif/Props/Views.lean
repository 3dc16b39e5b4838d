import Verif.Lemmas.Views

/-!
# C122: indexing gives distributions that keep their values
-/

namespace Conj

open Spec Views

/-! ### `SliceMixin` -/

/-- `d[key]` on any class with `SliceMixin`, for any key, in any memory: never raises, is the distribution with the sliced
parameters (`Obj.getitem`, C57 - C59), and shares no memory with anything that existed, not even with `d`. -/
theorem C122_slice_copies (o : Object) (key : Key) (m : Memory) (ho : ExistsObject m o) :
    ∃ o' m', getitem o key m = .ok (o', m') ∧ AlikeObj (seen m' o') ((seen m o).getitem key) ∧ Detached m o' m' := by
  obtain ⟨o', m', e, g, h, hf⟩ := getitem_run o key m ho
  exact ⟨o', m', e, h, detached_of g hf⟩

/-- indexing leaves every existing array as it was -/
theorem C122_slice_harmless (o : Object) (key : Key) (m : Memory) (ho : ExistsObject m o) (o' : Object) (m' : Memory)
    (h : getitem o key m = .ok (o', m')) (a : NpArray) (ha : Exists m a) : m'.read a = m.read a := by
  obtain ⟨o'', m'', e, g, -, -⟩ := getitem_run o key m ho
  rw [h] at e
  cases e
  exact g.read ha

/-- `d.params`: the parameters by name, as copies -/
theorem C122_params_copies (o : Object) (m : Memory) (ho : ExistsObject m o) :
    ∃ l m', params o m = .ok (l, m') ∧ seen m' { o with fields := l } = seen m o ∧ Detached m { o with fields := l } m' := by
  obtain ⟨l, m', e, g, q⟩ := params_run o m ho
  obtain ⟨n, p⟩ := List.forall₂_iff_get.1 q
  refine ⟨l, m', e, ?_, detached_of g ?_⟩
  · simp only [seen, Obj.mk.injEq, true_and, and_true]
    refine List.ext_getElem (by simp [n]) fun i h1 h2 => ?_
    simp only [List.length_map] at h1 h2
    have := p i h2 h1
    simp only [List.get_eq_getElem] at this
    simp only [List.getElem_map, this.1, this.2.1]
  · intro kv hkv a ha
    obtain ⟨i, hi, rfl⟩ := List.mem_iff_getElem.1 hkv
    exact ((p i (by rw [n]; exact hi) hi).2.2 a ha).1

/-- a vector of three entries in buffer 0 and one of two in buffer 1 -/
noncomputable def twoBuffers : Memory :=
  { cells := fun b idx => if b = 0 then (idx.headD 0 : ℝ) + 1 else 10 * b + (idx.headD 0 : ℝ) + 10 * (idx.tail.headD 0 : ℝ), next := 2 }

/-- a whole buffer as an array -/
def whole (base : ℕ) (rshape : List ℕ) : NpArray := { base := base, place := { rshape := rshape, get := id } }

/-- non-vacuity: `Gamma(alpha=np.array([1, 2, 3]), beta=5)[0:2]` is `Gamma([1, 2], 5)` and has a buffer of its own -/
example : ∃ o' m' a, getitem ⟨"Gamma", [("alpha", .arr (whole 0 [3])), ("beta", .num 5)]⟩ (.slice none (some 2)) twoBuffers =
    .ok (o', m') ∧ o'.fields = [("alpha", .arr a), ("beta", .num 5)] ∧ 2 ≤ a.base ∧ (m'.read a).rshape = [2] ∧
    vecEntry (m'.read a) 0 = 1 ∧ vecEntry (m'.read a) 1 = 2 := by
  refine ⟨_, _, _, rfl, rfl, le_rfl, rfl, ?_, ?_⟩ <;>
    norm_num [vecEntry, Memory.read, over, NdArr.pick, twoBuffers, whole, slicePositions, clipIndex]

/-! ### `MultivariateNormal` and `MultivariateStudentT` -/

section mat

variable {mu cov : NpArray} {d : ℕ} {m : Memory}

theorem diagonal_run {a : NpArray} (h : a.place.rshape = [d, d]) {i : ℤ} {j : ℕ} (hj : normIndex i d = some j) :
    diagonal a i m = .ok (matEntry (m.read a) j j, m) := by
  have h1 : a.place.getitem (.int i) = .ok { rshape := [d], get := fun idx => a.place.get (idx ++ [j]) } := by
    simp [NdArr.getitem, h, hj]
  have h2 : NdArr.getitem { rshape := [d], get := fun idx => a.place.get (idx ++ [j]) } (.int i) =
      .ok { rshape := [], get := fun idx => a.place.get ((idx ++ [j]) ++ [j]) } := by
    simp [NdArr.getitem, hj]
  simp only [diagonal, bind, StateT.bind, h1, h2, liftM, monadLift, MonadLift.monadLift, StateT.lift, Except.bind, pure,
    StateT.pure, Except.pure, get, getThe, MonadStateOf.get, StateT.get]
  rfl

theorem subscript_int_run {a : NpArray} (h : a.place.rshape = [d]) {i : ℤ} {j : ℕ} (hj : normIndex i d = some j) :
    subscript a (.int i) m = .ok (.num (vecEntry (m.read a) j), m) := by
  have h1 : a.place.getitem (.int i) = .ok { rshape := [], get := fun idx => a.place.get (idx ++ [j]) } := by
    simp [NdArr.getitem, h, hj]
  simp only [subscript, bind, StateT.bind, h1, liftM, monadLift, MonadLift.monadLift, StateT.lift, Except.bind, pure,
    StateT.pure, Except.pure, get, getThe, MonadStateOf.get, StateT.get, if_true]
  rfl

/-- `mvn[i]` for an `int` in range: `Normal` with entry `i` of the mean and the root of the variance; numbers, so nothing is
shared. -/
theorem C122_mvn_int (hmu : mu.place.rshape = [d]) (hcov : cov.place.rshape = [d, d]) {i : ℤ} {j : ℕ}
    (hj : normIndex i d = some j) :
    ∃ o, mvnGetitem mu cov (.key (.int i)) m = .ok (o, m) ∧ o.cls = "Normal" ∧
      o.fields = [("mu", .num (vecEntry (m.read mu) j)), ("sigma", .num (powq (matEntry (m.read cov) j j) (1 / 2)))] ∧
      Detached m o m := by
  refine ⟨{ cls := "Normal", fields := [("mu", .num (vecEntry (m.read mu) j)), ("sigma", .num (powq (matEntry (m.read cov) j j) (1 / 2)))] },
    ?_, rfl, rfl, detached_of (Grow.refl m) ?_⟩
  · simp only [mvnGetitem, bind, StateT.bind, subscript_int_run hmu hj, diagonal_run hcov hj, Except.bind, pure, StateT.pure,
      Except.pure]
  · intro kv hkv a ha
    simp only [List.mem_cons, List.not_mem_nil, or_false] at hkv
    rcases hkv with rfl | rfl <;> cases ha

/-- `mvt[i]`, likewise (the scale is the entry itself, without a root: C56) -/
theorem C122_mvt_int (nu : ℝ) (hmu : mu.place.rshape = [d]) (hcov : cov.place.rshape = [d, d]) {i : ℤ} {j : ℕ}
    (hj : normIndex i d = some j) :
    ∃ o, mvtGetitem mu cov nu (.key (.int i)) m = .ok (o, m) ∧ o.cls = "StudentT" ∧
      o.fields = [("mu", .num (vecEntry (m.read mu) j)), ("sigma", .num (matEntry (m.read cov) j j)), ("nu", .num nu)] ∧
      Detached m o m := by
  refine ⟨{ cls := "StudentT", fields := [("mu", .num (vecEntry (m.read mu) j)), ("sigma", .num (matEntry (m.read cov) j j)), ("nu", .num nu)] },
    ?_, rfl, rfl, detached_of (Grow.refl m) ?_⟩
  · simp only [mvtGetitem, bind, StateT.bind, subscript_int_run hmu hj, diagonal_run hcov hj, Except.bind, pure, StateT.pure,
      Except.pure]
  · intro kv hkv a ha
    simp only [List.mem_cons, List.not_mem_nil, or_false] at hkv
    rcases hkv with rfl | rfl | rfl <;> cases ha

/-- `mvn[[i, j, ...]]`: the mean and covariance at those coordinates, as copies. -/
theorem C122_mvn_list (hmu : mu.place.rshape = [d]) (hcov : cov.place.rshape = [d, d]) (hc : Exists m cov)
    {l : List ℤ} {p : List ℕ} (hp : selected (.ints l) d = some p) :
    ∃ o m' v w, mvnGetitem mu cov (.key (.ints l)) m = .ok (o, m') ∧
      seen m' o = { cls := "MultivariateNormal", fields := [("mu", v), ("cov", w)], attrs := [] } ∧
      subVector (m.read mu) p v ∧ subMatrix (m.read cov) p w ∧ Detached m o m' := by
  obtain ⟨b₁, m₁, b₂, m₂, b₃, m₃, e₁, e₂, e₃, g, n₁, n₃, r₁, r₃⟩ := lists_run hmu hcov hc hp
  refine ⟨{ cls := "MultivariateNormal", fields := [("mu", .arr b₁), ("cov", .arr b₃)] }, m₃, _, _, ?_, rfl, ?_, ?_,
    detached_of g ?_⟩
  · simp only [mvnGetitem, MatKey.toKey, bind, StateT.bind, e₁, e₂, e₃, Item.array, liftM, monadLift, MonadLift.monadLift,
      StateT.lift, Except.bind, pure, StateT.pure, Except.pure]
  · simp only [itemContents, r₁]
    exact subVector_vecAt p
  · simp only [itemContents, r₃]
    exact subMatrix_block d p
  · intro kv hkv a ha
    simp only [List.mem_cons, List.not_mem_nil, or_false] at hkv
    rcases hkv with rfl | rfl <;> cases ha <;> assumption

theorem C122_mvt_list (nu : ℝ) (hmu : mu.place.rshape = [d]) (hcov : cov.place.rshape = [d, d]) (hc : Exists m cov)
    {l : List ℤ} {p : List ℕ} (hp : selected (.ints l) d = some p) :
    ∃ o m' v w, mvtGetitem mu cov nu (.key (.ints l)) m = .ok (o, m') ∧
      seen m' o = { cls := "MultivariateStudentT", fields := [("mu", v), ("sigma", w), ("nu", .arr (.scalar nu))], attrs := [] } ∧
      subVector (m.read mu) p v ∧ subMatrix (m.read cov) p w ∧ Detached m o m' := by
  obtain ⟨b₁, m₁, b₂, m₂, b₃, m₃, e₁, e₂, e₃, g, n₁, n₃, r₁, r₃⟩ := lists_run hmu hcov hc hp
  refine ⟨{ cls := "MultivariateStudentT", fields := [("mu", .arr b₁), ("sigma", .arr b₃), ("nu", .num nu)] }, m₃, _, _, ?_, rfl, ?_, ?_,
    detached_of g ?_⟩
  · simp only [mvtGetitem, MatKey.toKey, bind, StateT.bind, e₁, e₂, e₃, Item.array, liftM, monadLift, MonadLift.monadLift,
      StateT.lift, Except.bind, pure, StateT.pure, Except.pure]
  · simp only [itemContents, r₁]
    exact subVector_vecAt p
  · simp only [itemContents, r₃]
    exact subMatrix_block d p
  · intro kv hkv a ha
    simp only [List.mem_cons, List.not_mem_nil, or_false] at hkv
    rcases hkv with rfl | rfl | rfl <;> cases ha <;> assumption

/-- the two arrays of `mvn[start:stop]`: views -/
theorem slices_run (hmu : mu.place.rshape = [d]) (hcov : cov.place.rshape = [d, d]) (s t : Option ℤ) :
    subscript mu (.slice s t) m = .ok (.arr { base := mu.base, place := vecAt mu.place (slicePositions s t d) }, m) ∧
    subscript cov (.slice s t) m = .ok (.arr { base := cov.base, place := rowsAt cov.place d (slicePositions s t d) }, m) ∧
    columns { base := cov.base, place := rowsAt cov.place d (slicePositions s t d) } (.slice s t) m =
      .ok ({ base := cov.base, place := colsAt (rowsAt cov.place d (slicePositions s t d)) (slicePositions s t d).length (slicePositions s t d) }, m) :=
  have hk : ∀ i, Key.slice s t ≠ .int i := fun i h => by cases h
  ⟨subscript_slice mu s t _ (getitem_vec hmu hk rfl) m, subscript_slice cov s t _ (getitem_rows hcov hk rfl) m,
    columns_slice _ s t _ (getitem_cols rfl hk rfl) m⟩

/-- `mvn[start:stop]`: at the time of the call the mean and covariance at those coordinates; the result follows every later
change of the original arrays: whatever the memory contains later, it is the slice of what the originals are then. -/
theorem C122_mvn_slice_partial (hmu : mu.place.rshape = [d]) (hcov : cov.place.rshape = [d, d]) (s t : Option ℤ) :
    ∃ o, mvnGetitem mu cov (.key (.slice s t)) m = .ok (o, m) ∧ ∀ later : Memory, ∃ v w,
      seen later o = { cls := "MultivariateNormal", fields := [("mu", v), ("cov", w)], attrs := [] } ∧
      subVector (later.read mu) (slicePositions s t d) v ∧ subMatrix (later.read cov) (slicePositions s t d) w := by
  obtain ⟨e₁, e₂, e₃⟩ := slices_run (m := m) hmu hcov s t
  refine ⟨{ cls := "MultivariateNormal", fields := [("mu", .arr { base := mu.base, place := vecAt mu.place (slicePositions s t d) }),
    ("cov", .arr { base := cov.base, place := colsAt (rowsAt cov.place d (slicePositions s t d)) (slicePositions s t d).length (slicePositions s t d) })] }, ?_, fun later => ⟨_, _, rfl, ?_, ?_⟩⟩
  · simp only [mvnGetitem, MatKey.toKey, bind, StateT.bind, e₁, e₂, e₃, Item.array, liftM, monadLift, MonadLift.monadLift,
      StateT.lift, Except.bind, pure, StateT.pure, Except.pure]
  · exact subVector_vecAt _
  · exact subMatrix_block d _

/-- So it is not detached: for every slice that selects something, assigning to entry 0 of the result's mean assigns to the
first selected entry of the original mean. -/
theorem C122_mvn_slice_false (hmu : mu.place = { rshape := [d], get := id }) (hcov : cov.place.rshape = [d, d]) (hm : Exists m mu)
    (s t : Option ℤ) (hne : slicePositions s t d ≠ []) (o : Object) (m' : Memory)
    (h : mvnGetitem mu cov (.key (.slice s t)) m = .ok (o, m')) :
    ¬ Detached m o m' ∧ ∃ a, o.fields.head? = some ("mu", .arr a) ∧
      ∀ x, vecEntry ((puts m' [⟨a.base, a.place.get [0], x⟩]).read mu) ((slicePositions s t d).head hne) = x := by
  have hmu' : mu.place.rshape = [d] := by rw [hmu]
  obtain ⟨e₁, e₂, e₃⟩ := slices_run (m := m) hmu' hcov s t
  simp only [mvnGetitem, MatKey.toKey, bind, StateT.bind, e₁, e₂, e₃, Item.array, liftM, monadLift, MonadLift.monadLift,
    StateT.lift, Except.bind, pure, StateT.pure, Except.pure, Except.ok.injEq, Prod.mk.injEq] at h
  obtain ⟨rfl, rfl⟩ := h
  have key : ∀ x, vecEntry ((puts m [⟨mu.base, (vecAt mu.place (slicePositions s t d)).get [0], x⟩]).read mu)
      ((slicePositions s t d).head hne) = x := by
    intro x
    obtain ⟨p, ps, hp⟩ := List.exists_cons_of_ne_nil hne
    simp [vecEntry, Memory.read, over, puts, hmu, vecAt, hp]
  refine ⟨fun hd => ?_, _, rfl, key⟩
  have h2 := hd.2 [⟨mu.base, (vecAt mu.place (slicePositions s t d)).get [0], vecEntry (m.read mu) ((slicePositions s t d).head hne) + 1⟩]
    (fun w hw => by
      simp only [List.mem_singleton] at hw
      subst hw
      exact ⟨_, List.mem_cons_self, _, rfl, rfl⟩) mu hm
  have h3 := key (vecEntry (m.read mu) ((slicePositions s t d).head hne) + 1)
  rw [h2] at h3
  linarith

/-- the same for `MultivariateStudentT` -/
theorem C122_mvt_slice_partial (nu : ℝ) (hmu : mu.place.rshape = [d]) (hcov : cov.place.rshape = [d, d]) (s t : Option ℤ) :
    ∃ o, mvtGetitem mu cov nu (.key (.slice s t)) m = .ok (o, m) ∧ ∀ later : Memory, ∃ v w,
      seen later o = { cls := "MultivariateStudentT", fields := [("mu", v), ("sigma", w), ("nu", .arr (.scalar nu))], attrs := [] } ∧
      subVector (later.read mu) (slicePositions s t d) v ∧ subMatrix (later.read cov) (slicePositions s t d) w := by
  obtain ⟨e₁, e₂, e₃⟩ := slices_run (m := m) hmu hcov s t
  refine ⟨{ cls := "MultivariateStudentT", fields := [("mu", .arr { base := mu.base, place := vecAt mu.place (slicePositions s t d) }),
    ("sigma", .arr { base := cov.base, place := colsAt (rowsAt cov.place d (slicePositions s t d)) (slicePositions s t d).length (slicePositions s t d) }), ("nu", .num nu)] }, ?_, fun later => ⟨_, _, rfl, ?_, ?_⟩⟩
  · simp only [mvtGetitem, MatKey.toKey, bind, StateT.bind, e₁, e₂, e₃, Item.array, liftM, monadLift, MonadLift.monadLift,
      StateT.lift, Except.bind, pure, StateT.pure, Except.pure]
  · exact subVector_vecAt _
  · exact subMatrix_block d _

theorem C122_mvt_slice_false (nu : ℝ) (hmu : mu.place = { rshape := [d], get := id }) (hcov : cov.place.rshape = [d, d])
    (hm : Exists m mu) (s t : Option ℤ) (hne : slicePositions s t d ≠ []) (o : Object) (m' : Memory)
    (h : mvtGetitem mu cov nu (.key (.slice s t)) m = .ok (o, m')) :
    ¬ Detached m o m' ∧ ∃ a, o.fields.head? = some ("mu", .arr a) ∧
      ∀ x, vecEntry ((puts m' [⟨a.base, a.place.get [0], x⟩]).read mu) ((slicePositions s t d).head hne) = x := by
  have hmu' : mu.place.rshape = [d] := by rw [hmu]
  obtain ⟨e₁, e₂, e₃⟩ := slices_run (m := m) hmu' hcov s t
  simp only [mvtGetitem, MatKey.toKey, bind, StateT.bind, e₁, e₂, e₃, Item.array, liftM, monadLift, MonadLift.monadLift,
    StateT.lift, Except.bind, pure, StateT.pure, Except.pure, Except.ok.injEq, Prod.mk.injEq] at h
  obtain ⟨rfl, rfl⟩ := h
  have key : ∀ x, vecEntry ((puts m [⟨mu.base, (vecAt mu.place (slicePositions s t d)).get [0], x⟩]).read mu)
      ((slicePositions s t d).head hne) = x := by
    intro x
    obtain ⟨p, ps, hp⟩ := List.exists_cons_of_ne_nil hne
    simp [vecEntry, Memory.read, over, puts, hmu, vecAt, hp]
  refine ⟨fun hd => ?_, _, rfl, key⟩
  have h2 := hd.2 [⟨mu.base, (vecAt mu.place (slicePositions s t d)).get [0], vecEntry (m.read mu) ((slicePositions s t d).head hne) + 1⟩]
    (fun w hw => by
      simp only [List.mem_singleton] at hw
      subst hw
      exact ⟨_, List.mem_cons_self, _, rfl, rfl⟩) mu hm
  have h3 := key (vecEntry (m.read mu) ((slicePositions s t d).head hne) + 1)
  rw [h2] at h3
  linarith

/-- Out of range is an `IndexError`, for an `int` and for a list with an index out of range (unlike `SliceMixin`, C58). -/
theorem C122_mvn_bad_index (hmu : mu.place.rshape = [d]) (nu : ℝ) (i : ℤ) (hi : normIndex i d = none) (l : List ℤ) (hl : i ∈ l) :
    mvnGetitem mu cov (.key (.int i)) m = .error .indexError ∧ mvtGetitem mu cov nu (.key (.int i)) m = .error .indexError ∧
    mvnGetitem mu cov (.key (.ints l)) m = .error .indexError ∧ mvtGetitem mu cov nu (.key (.ints l)) m = .error .indexError := by
  have h1 : mu.place.getitem (.int i) = .error .indexError := by simp [NdArr.getitem, hmu, hi]
  have h2 : mu.place.getitem (.ints l) = .error .indexError := by
    have : l.mapM (fun i => normIndex i d) = none := by
      induction l with
      | nil => cases hl
      | cons k ks ih =>
        rcases List.mem_cons.1 hl with rfl | h
        · simp [List.mapM_cons, hi]
        · simp only [List.mapM_cons, ih h]
          cases normIndex k d <;> rfl
    simp [NdArr.getitem, hmu, this]
  refine ⟨?_, ?_, ?_, ?_⟩ <;>
    simp only [mvnGetitem, mvtGetitem, MatKey.toKey, bind, StateT.bind, subscript_error _ _ _ _ h1, subscript_error _ _ _ _ h2, Except.bind]

/-- A numpy integer, such as `np.argmax` returns, is never accepted: `isinstance(key, int)` is false for it, and the second
line asks for columns of a row. -/
theorem C122_mvn_numpy_int (hmu : mu.place.rshape = [d]) (hcov : cov.place.rshape = [d, d]) (nu : ℝ) (i : ℤ) :
    mvnGetitem mu cov (.npInt i) m = .error .indexError ∧ mvtGetitem mu cov nu (.npInt i) m = .error .indexError := by
  cases hj : normIndex i d with
  | none =>
    have h1 : mu.place.getitem (.int i) = .error .indexError := by simp [NdArr.getitem, hmu, hj]
    constructor <;>
      simp only [mvnGetitem, mvtGetitem, MatKey.toKey, bind, StateT.bind, subscript_error _ _ _ _ h1, Except.bind]
  | some j =>
    have h2 : cov.place.getitem (.int i) = .ok { rshape := [d], get := fun idx => cov.place.get (idx ++ [j]) } := by
      simp [NdArr.getitem, hcov, hj]
    have h3 : subscript cov (.int i) m = .ok (.arr { base := cov.base, place := { rshape := [d], get := fun idx => cov.place.get (idx ++ [j]) } }, m) := by
      simp [subscript, bind, StateT.bind, h2, liftM, monadLift, MonadLift.monadLift, StateT.lift, Except.bind, pure,
        StateT.pure, Except.pure]
    have h4 : columns { base := cov.base, place := { rshape := [d], get := fun idx => cov.place.get (idx ++ [j]) } } (.int i) m =
        .error .indexError := rfl
    constructor <;>
      simp only [mvnGetitem, mvtGetitem, MatKey.toKey, bind, StateT.bind, subscript_int_run hmu hj, h3, h4, Item.array, liftM, monadLift,
        MonadLift.monadLift, StateT.lift, Except.bind, pure, Except.pure]

end mat

/-- non-vacuity: three coordinates; `mvn[1]`, `mvn[[0, 2]]`, `mvn[0:2]` and `mvn[np.int64(1)]` -/
example : ∃ (mu cov : NpArray) (m : Memory), mu.place.rshape = [3] ∧ cov.place.rshape = [3, 3] ∧ Exists m mu ∧ Exists m cov ∧
    normIndex 1 3 = some 1 ∧ normIndex (-4) 3 = none ∧ selected (.ints [0, -1]) 3 = some [0, 2] ∧
    slicePositions none (some 2) 3 ≠ [] :=
  ⟨whole 0 [3], whole 1 [3, 3], twoBuffers, rfl, rfl, Nat.zero_lt_two, Nat.one_lt_two, by decide, by decide, by decide, by decide⟩

end Conj
