import Verif.Slice
import Verif.ArraySpec
import Verif.Props.SliceClasses

/-!
# C58, C59: indexing a distribution

C58 is false of the code: `take_slice` swallows every exception, so an out-of-range index
returns the whole vector instead of raising `IndexError`.  `C58_bad_index_partial` is what
remains (the parameter arrays themselves raise), the other C58 theorems say what the code does.
-/

namespace Conj

open NdArr Spec

variable {β : Type}

/-- The parameter array itself, indexed directly, raises `IndexError` exactly when the index is
out of range.  Missing for C58: the distribution must raise too. -/
theorem C58_bad_index_partial (a : NdArr β) {s : List ℕ} {L : ℕ} (hr : a.rshape = s ++ [L]) (i : ℤ) :
    a.getitem (.int i) = .error .indexError ↔ i < -(L : ℤ) ∨ (L : ℤ) ≤ i := by
  simp only [getitem, hr, List.getLast?_append, List.getLast?_singleton, Option.some_or, normIndex]
  by_cases h0 : 0 ≤ i
  · by_cases h1 : i < L
    · simp [h0, h1]; omega
    · simp [h0, h1]; omega
  · by_cases h1 : -(L : ℤ) ≤ i
    · simp [h0, h1]; omega
    · simp [h0, h1]; omega

/-- Every out-of-range index gives back all the parameters unchanged: no exception. -/
theorem C58_bad_index_returns_whole (o : Obj β) (i : ℤ)
    (hout : ∀ k a, (k, Value.arr a) ∈ o.fields → ∀ (s : List ℕ) (L : ℕ), a.rshape = s ++ [L] → i < -(L : ℤ) ∨ (L : ℤ) ≤ i) :
    (o.getitem (.int i)).fields = o.fields := by
  simp only [Obj.getitem, Obj.construct]
  conv_rhs => rw [← List.map_id o.fields]
  refine List.map_congr_left ?_
  rintro ⟨k, v⟩ hkv
  cases v with
  | flag b => rfl
  | arr a =>
    have h := hout k a hkv
    simp only [Value.takeSlice, Value.getitem]
    have : a.getitem (.int i) = .error .indexError := by
      obtain hnil | ⟨s, L, hs⟩ := List.eq_nil_or_concat' a.rshape
      · simp [getitem, hnil]
      · exact (C58_bad_index_partial a hs i).2 (h s L hs)
    rw [this]
    rfl

/-- Non-vacuous: index 5 into a `Beta` with parameters of length 3 gives back the `Beta`. -/
example : (({ alpha := ⟨[3], fun _ => 1⟩, beta := ⟨[3], fun _ => 2⟩ : Beta (NdArr ℝ) }).toObj.getitem (.int 5)).fields =
    ({ alpha := ⟨[3], fun _ => 1⟩, beta := ⟨[3], fun _ => 2⟩ : Beta (NdArr ℝ) }).toObj.fields := by
  apply C58_bad_index_returns_whole
  intro k a ha s L hs
  have hr : a.rshape = [3] := by
    simp only [Beta.toObj, List.mem_cons, Prod.mk.injEq, Value.arr.injEq, List.not_mem_nil, or_false] at ha
    rcases ha with ⟨_, rfl⟩ | ⟨_, rfl⟩ <;> rfl
  rw [hr] at hs
  have h1 := congrArg List.getLast? hs
  simp at h1
  omega

/-- When only some parameters are long enough, the result mixes an element with a whole
vector: `alpha` of length 2 is kept whole, `beta` of length 3 is indexed. -/
theorem C58_bad_index_mixes (f g : List ℕ → β) :
    (({ alpha := ⟨[2], f⟩, beta := ⟨[3], g⟩ : Beta (NdArr β) }).toObj.getitem (.int 2)).fields =
      [("alpha", .arr ⟨[2], f⟩), ("beta", .arr ⟨[], fun idx => g (idx ++ [2])⟩)] := rfl

/-! ## C59 -/

/-- The class and the names and order of the fields are kept. -/
theorem C59_class_and_fields_kept (o : Obj β) (key : Key) :
    (o.getitem key).cls = o.cls ∧ (o.getitem key).fields.map Prod.fst = o.fields.map Prod.fst := by
  simp [Obj.getitem, Obj.construct, Function.comp_def]

/-- Flags (`one_start`) and numbers are kept, at their position, for every key. -/
theorem C59_flags_and_numbers_kept (o : Obj β) (key : Key) (pos : ℕ) (k : String) (v : Value β)
    (hv : (∃ b, v = .flag b) ∨ ∃ a : NdArr β, v = .arr a ∧ a.rshape = [])
    (h : o.fields[pos]? = some (k, v)) : (o.getitem key).fields[pos]? = some (k, v) := by
  simp only [Obj.getitem, Obj.construct, List.getElem?_map, h, Option.map_some, Option.some.injEq,
    Prod.mk.injEq, true_and]
  rcases hv with ⟨b, rfl⟩ | ⟨a, rfl, ha⟩
  · rfl
  · rw [Value.takeSlice_arr]
    simp [takeSlice, getitem, ha]

/-- An indexable parameter is indexed: the field holds `value[key]` whenever that is defined. -/
theorem C59_arrays_indexed (o : Obj β) (key : Key) (pos : ℕ) (k : String) (a v : NdArr β)
    (h : o.fields[pos]? = some (k, .arr a)) (hv : a.getitem key = .ok v) :
    (o.getitem key).fields[pos]? = some (k, .arr v) := by
  simp only [Obj.getitem, Obj.construct, List.getElem?_map, h, Option.map_some,
    Value.takeSlice_arr, takeSlice, hv]

/-- Plot bounds set on the original are not carried over. -/
theorem C59_plot_bounds_dropped (o : Obj β) (key : Key) : (o.getitem key).attrs = [] := rfl

example : ∃ o : Obj ℝ, o.attrs ≠ [] ∧ o.fields ≠ [] :=
  ⟨⟨"Geometric", [("p", .arr ⟨[2], fun _ => 1 / 2⟩), ("one_start", .flag false)], [("_max_value", 10)]⟩,
    by simp, by simp⟩

/-- every parameter is a flag, a number or an array with first axis of length `L` -/
def SameFirstAxis (L : ℕ) (o : Obj β) : Prop :=
  ∀ k a, (k, Value.arr a) ∈ o.fields → a.rshape = [] ∨ ∃ s, a.rshape = s ++ [L]

theorem getitem_concat {a : NdArr β} {s : List ℕ} {L : ℕ} (h : a.rshape = s ++ [L]) (key : Key) :
    a.getitem key = match key with
      | .int i => (match normIndex i L with
        | none => .error .indexError
        | some j => .ok { rshape := s, get := fun idx => a.get (idx ++ [j]) })
      | .ints l => (match l.mapM (fun i => normIndex i L) with
        | none => .error .indexError
        | some p => .ok (a.pick p))
      | .slice start stop => .ok (a.pick (slicePositions start stop L)) := by
  cases key with
  | int i => simp only [getitem, h, List.getLast?_append, List.getLast?_singleton, Option.some_or, List.dropLast_concat]; cases normIndex i L <;> rfl
  | ints l => simp only [getitem, h, List.getLast?_append, List.getLast?_singleton, Option.some_or]; cases l.mapM (fun i => normIndex i L) <;> rfl
  | slice a b => simp [getitem, h]

theorem mapM_some_iff {γ δ : Type} (f : γ → Option δ) (l : List γ) (p : List δ) :
    l.mapM f = some p ↔ l.map f = p.map some := by
  induction l generalizing p with
  | nil => cases p <;> simp
  | cons a l ih =>
    cases p with
    | nil => cases h : f a <;> cases h' : l.mapM f <;> simp [List.mapM_cons, h, h']
    | cons b p =>
      cases h : f a with
      | none => simp [List.mapM_cons, h]
      | some c =>
        cases h' : l.mapM f with
        | none =>
          simp only [List.mapM_cons, h, h', List.map_cons]
          have := ih p
          simp [h'] at this
          simp [this]
        | some q =>
          have := ih p
          rw [h'] at this
          simp only [Option.some.injEq] at this
          simp [List.mapM_cons, h, h', ← this]

theorem obj_getitem_comp {o : Obj β} {k1 k2 k3 : Key} {L : ℕ} (ho : SameFirstAxis L o)
    (h : ∀ a : NdArr β, ∀ s, a.rshape = s ++ [L] →
      takeSlice k2 (takeSlice k1 a) = takeSlice k3 a) :
    (o.getitem k1).getitem k2 = o.getitem k3 := by
  simp only [Obj.getitem, Obj.construct, List.map_map]
  congr 1
  refine List.map_congr_left ?_
  rintro ⟨k, v⟩ hkv
  simp only [Function.comp, Prod.mk.injEq, true_and]
  cases v with
  | flag b => rfl
  | arr a =>
    simp only [Value.takeSlice_arr, Value.arr.injEq]
    obtain hn | ⟨s, hs⟩ := ho k a hkv
    · simp [takeSlice, getitem, hn]
    · exact h a s hs

/-- `dist[[i₀, i₁, ...]][m] = dist[i_m]` -/
theorem C59_slice_of_slice_int (o : Obj β) {L : ℕ} (ho : SameFirstAxis L o) (l : List ℤ)
    (hl : ∀ i ∈ l, -(L : ℤ) ≤ i ∧ i < L) (m : ℕ) (hm : m < l.length) :
    (o.getitem (.ints l)).getitem (.int m) = o.getitem (.int l[m]) := by
  refine obj_getitem_comp ho fun a s hs => ?_
  obtain ⟨p, hp⟩ : ∃ p, l.mapM (fun i => normIndex i L) = some p := by
    refine ⟨l.map (fun i => ((normIndex i L).getD 0)), ?_⟩
    rw [mapM_some_iff, List.map_map]
    refine List.map_congr_left fun i hi => ?_
    obtain ⟨h1, h2⟩ := hl i hi
    have : ∃ j, normIndex i L = some j := by
      unfold normIndex; split_ifs <;> simp
    obtain ⟨j, hj⟩ := this
    simp [hj]
  have hmap := (mapM_some_iff _ _ _).1 hp
  have hlen : p.length = l.length := by simpa using (congrArg List.length hmap).symm
  have hm' : m < p.length := hlen ▸ hm
  have hget : normIndex l[m] L = some p[m] := by
    have := congrArg (fun q => q[m]?) hmap
    simpa [hm, hm'] using this
  have hidx : normIndex (m : ℤ) p.length = some m := by
    simp [normIndex, hm']
  have e1 : takeSlice (.ints l) a = a.pick p := by
    simp only [takeSlice, getitem_concat hs, hp]
  rw [e1]
  have hs' : (a.pick p).rshape = s ++ [p.length] := by simp [pick, hs]
  simp only [takeSlice, getitem_concat hs, getitem_concat hs', hidx, hget]
  simp [pick, hm']

/-- the same distribution: same class and attributes, same field names with the same flags and
arrays -/
def SameObj (o o' : Obj β) : Prop :=
  o.cls = o'.cls ∧ o.attrs = o'.attrs ∧
  List.Forall₂ (fun x y => x.1 = y.1 ∧ match x.2, y.2 with
    | .arr a, .arr b => SameArr a b
    | .flag b, .flag c => b = c
    | _, _ => False) o.fields o'.fields

theorem inShape_concat_inv {idx s : List ℕ} {n : ℕ} (h : InShape idx (s ++ [n])) :
    ∃ idx' k, idx = idx' ++ [k] ∧ k < n := by
  induction s generalizing idx with
  | nil =>
    match idx, h with
    | [i], h => exact ⟨[], i, rfl, h.1⟩
  | cons d s ih =>
    match idx, h with
    | i :: idx, h =>
      obtain ⟨idx', k, rfl, hk⟩ := ih h.2
      exact ⟨i :: idx', k, rfl, hk⟩

/-- `dist[[i₀, i₁, ...]][[m₀, m₁, ...]]` is `dist[[i_m₀, i_m₁, ...]]` -/
theorem C59_slice_of_slice_ints (o : Obj β) {L : ℕ} (ho : SameFirstAxis L o) (l : List ℤ)
    (hl : ∀ i ∈ l, -(L : ℤ) ≤ i ∧ i < L) (ms : List (Fin l.length)) :
    SameObj ((o.getitem (.ints l)).getitem (.ints (ms.map (fun m : Fin l.length => ((m : ℕ) : ℤ)))))
      (o.getitem (.ints (ms.map (fun m : Fin l.length => l[(m : ℕ)])))) := by
  refine ⟨rfl, rfl, ?_⟩
  simp only [Obj.getitem, Obj.construct, List.map_map]
  rw [List.forall₂_map_left_iff, List.forall₂_map_right_iff, List.forall₂_same]
  rintro ⟨k, v⟩ hkv
  simp only [Function.comp, true_and]
  cases v with
  | flag b => rfl
  | arr a =>
    simp only [Value.takeSlice_arr]
    obtain hn | ⟨s, hs⟩ := ho k a hkv
    · simp only [takeSlice, getitem, hn, List.getLast?_nil]
      exact ⟨rfl, fun _ _ => rfl⟩
    obtain ⟨p, hp⟩ : ∃ p, l.mapM (fun i => normIndex i L) = some p := by
      refine ⟨l.map (fun i => ((normIndex i L).getD 0)), ?_⟩
      rw [mapM_some_iff, List.map_map]
      refine List.map_congr_left fun i hi => ?_
      obtain ⟨h1, h2⟩ := hl i hi
      have : ∃ j, normIndex i L = some j := by
        unfold normIndex; split_ifs <;> simp
      obtain ⟨j, hj⟩ := this
      simp [hj]
    have hmap := (mapM_some_iff _ _ _).1 hp
    have hlen : p.length = l.length := by simpa using (congrArg List.length hmap).symm
    have hget : ∀ m : Fin l.length, normIndex l[(m : ℕ)] L = some (p.getD m 0) := by
      intro m
      have hm' : (m : ℕ) < p.length := hlen.symm ▸ m.2
      have := congrArg (fun q => q[(m : ℕ)]?) hmap
      simpa [hm', List.getD_eq_getElem?_getD] using this
    have e1 : takeSlice (.ints l) a = a.pick p := by
      simp only [takeSlice, getitem_concat hs, hp]
    rw [e1]
    have hs' : (a.pick p).rshape = s ++ [p.length] := by simp [pick, hs]
    have e2 : (ms.map (fun m : Fin l.length => ((m : ℕ) : ℤ))).mapM (fun i => normIndex i p.length) =
        some (ms.map (fun m : Fin l.length => (m : ℕ))) := by
      rw [mapM_some_iff, List.map_map, List.map_map]
      refine List.map_congr_left fun m _ => ?_
      simp [normIndex, hlen]
    have e3 : (ms.map (fun m : Fin l.length => l[(m : ℕ)])).mapM (fun i => normIndex i L) =
        some (ms.map (fun m : Fin l.length => p.getD (m : ℕ) 0)) := by
      rw [mapM_some_iff, List.map_map, List.map_map]
      exact List.map_congr_left fun m _ => hget m
    simp only [takeSlice, getitem_concat hs, getitem_concat hs', e2, e3]
    refine ⟨by simp [pick], fun idx hidx => ?_⟩
    simp only [pick, List.dropLast_concat, List.length_map] at hidx
    obtain ⟨idx', j, rfl, hj⟩ := inShape_concat_inv hidx
    simp [pick, List.getD_eq_getElem?_getD, hj]

/-- A slice `start:stop` selects the positions of `range(L)[start:stop]`. -/
theorem C59_slice_selects_positions (o : Obj β) {L : ℕ} (ho : SameFirstAxis L o) (start stop : Option ℤ) :
    o.getitem (.slice start stop) =
      o.getitem (.ints ((slicePositions start stop L).map (fun k : ℕ => (k : ℤ)))) := by
  simp only [Obj.getitem, Obj.construct]
  congr 1
  refine List.map_congr_left ?_
  rintro ⟨k, v⟩ hkv
  cases v with
  | flag b => rfl
  | arr a =>
    simp only [Prod.mk.injEq, true_and, Value.takeSlice_arr, Value.arr.injEq]
    obtain hn | ⟨s, hs⟩ := ho k a hkv
    · simp [takeSlice, getitem, hn]
    have e : ((slicePositions start stop L).map (fun k : ℕ => (k : ℤ))).mapM (fun i => normIndex i L) =
        some (slicePositions start stop L) := by
      rw [mapM_some_iff, List.map_map]
      refine List.map_congr_left fun m hm => ?_
      have hmL : m < L := by
        simp only [slicePositions, List.mem_range'_1] at hm
        have : (stop.map (clipIndex · L)).getD L ≤ L := by
          cases stop with
          | none => exact le_rfl
          | some i => simp only [Option.map_some, Option.getD_some, clipIndex]; split_ifs <;> omega
        omega
      simp [normIndex, hmL]
    simp only [takeSlice, getitem_concat hs, e]

/-- Which positions those are: position `j` is selected exactly when it is on the axis, not before
`start` and before `stop`, a negative end counting from the end of the axis and a missing end being
no constraint; each is selected once and in increasing order. -/
theorem C59_slice_positions (start stop : Option ℤ) (L : ℕ) :
    (∀ j : ℕ, j ∈ slicePositions start stop L ↔
      j < L ∧ (∀ s ∈ start, (if s < 0 then s + L else s) ≤ j) ∧
        (∀ t ∈ stop, (j : ℤ) < if t < 0 then t + L else t)) ∧
      (slicePositions start stop L).Pairwise (· < ·) := by
  refine ⟨fun j => ?_, List.pairwise_lt_range'⟩
  simp only [slicePositions, List.mem_range'_1]
  cases start <;> cases stop <;>
    simp only [Option.map_some, Option.map_none, Option.getD_some, Option.getD_none, clipIndex,
      Option.mem_def, Option.some.injEq, forall_eq', reduceCtorEq, false_imp_iff, implies_true,
      true_and, and_true] <;> (try split_ifs) <;> omega

/-- In particular `dist[:]` keeps every position, `dist[:k]` the first `k` and `dist[k:]` the rest. -/
theorem C59_slice_positions_ends (L k : ℕ) (hk : k ≤ L) :
    slicePositions none none L = List.range L ∧
      slicePositions none (some k) L = List.range k ∧
      List.range L = slicePositions none (some k) L ++ slicePositions (some k) none L := by
  have h : min k L = k := min_eq_left hk
  refine ⟨by simp [slicePositions, List.range_eq_range'],
    by simp [slicePositions, clipIndex, h, List.range_eq_range'], ?_⟩
  simp only [slicePositions, clipIndex, Option.map_some, Option.map_none, Option.getD_some,
    Option.getD_none, Nat.cast_nonneg, if_true, Int.toNat_natCast, h, Nat.sub_zero]
  rw [List.range_eq_range']
  have := List.range'_append_1 (s := 0) (m := k) (n := L - k)
  rw [Nat.zero_add] at this
  rw [this]; congr 1; omega

/-- The hypotheses are met by a `Geometric` with three probabilities and a flag. -/
example : SameFirstAxis 3 ({ p := ⟨[3], fun _ => 1 / 2⟩, one_start := false : Geometric (NdArr ℝ) }).toObj := by
  intro k a ha
  simp only [Geometric.toObj, List.mem_cons, Prod.mk.injEq, Value.arr.injEq, List.not_mem_nil, or_false,
    reduceCtorEq, and_false] at ha
  exact Or.inr ⟨[], by rw [ha.2]; rfl⟩

example : slicePositions none (some 2) 5 = [0, 1] := by decide

example : slicePositions (some 1) (some (-1)) 5 = [1, 2, 3] := by decide

end Conj
