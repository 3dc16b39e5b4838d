import Verif.RvsArraySpec
import Verif.Props.SampleShapes
import Verif.Lemmas.VectorDraw
import Verif.Props.CalibrationExponential
import Verif.Lemmas.DataMeans

/-!
# C114: sampling from arrays of distributions
-/

open MeasureTheory

namespace Conj

open Scipy Spec NdArr

variable {ι : Type} {P : Measure Stream} [IsProbabilityMeasure P]

theorem mem_indices : ∀ {S idx : List ℕ}, idx ∈ indices S ↔ InShape idx S
  | [], [] => by simp [indices, InShape]
  | [], i :: idx => by simp [indices, InShape]
  | d :: S, [] => by simp [indices, InShape]
  | d :: S, i :: idx => by simp [indices, InShape, mem_indices (S := S), and_comm]

theorem nodup_indices : ∀ S : List ℕ, (indices S).Nodup
  | [] => by simp [indices]
  | d :: S => by
    rw [indices, List.nodup_flatMap]
    refine ⟨fun rest _ => List.nodup_range.map fun a b h => by simpa using h, ?_⟩
    refine (nodup_indices S).imp ?_
    intro a b hab
    simp only [Function.onFun, List.disjoint_left, List.mem_map]
    rintro x ⟨i, -, rfl⟩ ⟨j, -, h⟩
    exact hab (by simpa using (List.cons.inj h).2.symm)

/-- positions in the filling order are the indices -/
noncomputable def posEquiv (S : List ℕ) : Fin (indices S).length ≃ { idx // InShape idx S } :=
  ((nodup_indices S).getEquiv (indices S)).trans (Equiv.subtypeEquivRight fun _ => mem_indices)

theorem posEquiv_apply (S : List ℕ) (k : Fin (indices S).length) : (posEquiv S k).1 = (indices S).get k := rfl

theorem array_sample_stream {S : List ℕ} {draw : List ℕ → Draw ℝ} {law : List ℕ → Measure ℝ}
    (h : ∀ idx, InShape idx S → Samples P (draw idx) (law idx)) :
    ArraySample P S (fun s =>
      (.ok { rshape := S, get := fun idx => (drawAll ((indices S).map draw) s).1.getD ((indices S).idxOf idx) 0 },
        (drawAll ((indices S).map draw) s).2)) law := by
  set n := (indices S).length
  let d : Fin n → Draw ℝ := fun k => draw ((indices S).get k)
  have hl : (indices S).map draw = List.ofFn d := by
    conv_lhs => rw [← List.ofFn_get (indices S)]
    rw [List.map_ofFn]
    rfl
  have hd := vec_samples (P := P) (m := n) (d := fun _ : Unit => d) (T := Set.univ)
    (κ := fun k _ => law ((indices S).get k)) fun k => h _ (mem_indices.1 (List.get_mem _ _))
  have hlaw := hd.law () trivial
  have hp : ∀ k : Fin n, IsProbabilityMeasure (law ((indices S).get k)) := fun k =>
    (h _ (mem_indices.1 (List.get_mem (indices S) k))).prob () trivial
  have hp' : ∀ i : { idx // InShape idx S }, IsProbabilityMeasure (law i.1) := fun i => (h _ i.2).prob () trivial
  have hm : Measurable fun s => drawVec n d s := by
    have := hd.measurable.comp (f := fun s : Stream => ((), s)) (by fun_prop)
    simpa [Function.comp_def, vec_run] using this
  have e1 : (Draw.vec d).run = fun s => drawVec n d s := funext fun s => vec_run _ s
  rw [e1] at hlaw
  let T := MeasurableEquiv.piCongrLeft (fun _ : { idx // InShape idx S } => ℝ) (posEquiv S)
  have hT : MeasurePreserving T (Measure.pi fun k => law (posEquiv S k).1) (Measure.pi fun i => law i.1) :=
    measurePreserving_piCongrLeft (fun i : { idx // InShape idx S } => law i.1) (posEquiv S)
  have e2 : ∀ s, drawAll ((indices S).map draw) s = (List.ofFn (drawVec n d s).1, (drawVec n d s).2) := fun s => by
    rw [hl, drawAll_ofFn]
  refine ⟨fun s => T (drawVec n d s).1, T.measurable.comp hm.fst, ?_, fun s => ⟨_, rfl, rfl, fun i => ?_⟩, ?_⟩
  · simp only [e2]; exact hm.snd
  · obtain ⟨k, rfl⟩ := (posEquiv S).surjective i
    have : (indices S).idxOf ((indices S).get k) = k := by
      have hlt : (indices S).idxOf ((indices S).get k) < n := List.idxOf_lt_length_of_mem (List.get_mem _ _)
      have := List.nodup_iff_injective_get.1 (nodup_indices S) (a₁ := ⟨_, hlt⟩) (a₂ := k) (List.idxOf_get hlt)
      exact congrArg Fin.val this
    simp only [e2, posEquiv_apply, this]
    have h3 : T (drawVec n d s).1 (posEquiv S k) = (drawVec n d s).1 k :=
      MeasurableEquiv.piCongrLeft_apply_apply (posEquiv S) _ k
    rw [h3, List.getD_eq_getElem?_getD, List.getElem?_ofFn, dif_pos k.2]
    rfl
  · simp only [e2]
    have hc : (fun s => (T (drawVec n d s).1, (drawVec n d s).2)) = Prod.map T id ∘ fun s => drawVec n d s := rfl
    rw [hc, ← Measure.map_map (T.measurable.prodMap measurable_id) hm]
    have hlaw' : P.map (fun s => drawVec n d s) = (Measure.pi fun k => law (posEquiv S k).1).prod P := hlaw
    rw [hlaw', ← Measure.map_prod_map _ _ T.measurable measurable_id, hT.map_eq, Measure.map_id]

theorem Spec.ArraySample.congr {S : List ℕ} {f : Stream → Except PyErr (NdArr ℝ) × Stream} {law law' : List ℕ → Measure ℝ}
    (h : ArraySample P S f law) (he : ∀ idx, InShape idx S → law idx = law' idx) : ArraySample P S f law' := by
  obtain ⟨X, h1, h2, h3, h4⟩ := h
  refine ⟨X, h1, h2, h3, h4.trans ?_⟩
  congr 2
  funext i
  exact he i.1 i.2

theorem rvsArray_fresh {lib : FrozenSamplers ι} {params : List (List ℕ)} {S : List ℕ} {draw : List ℕ → Draw ℝ}
    {law : List ℕ → Measure ℝ} {size : SizeArg} (hS : scipyRvsShape params size.scipy = .ok S)
    (h : ∀ idx, InShape idx S → Samples P (draw idx) (law idx)) :
    FreshRun (rvsArray lib params draw size) fun f => ArraySample P S f law := by
  have := array_sample_stream h
  constructor
  · intro g
    simp only [rvsArray, hS, rvs]
    exact this
  · intro g
    simp only [rvsArray, hS, rvs]
    exact this

theorem cont_samples {lib : FrozenSamplers ι} (hlib : CorrectFrozen lib P) {d : Cont} (hm : Measurable d.pdf)
    (hp : IsProbabilityMeasure (contLaw d)) : Samples P (lib.cont d) (contLaw d) :=
  hlib.cont (fun _ : Unit => d) Set.univ (hm.comp measurable_snd) fun _ _ => hp

theorem disc_samples {lib : FrozenSamplers ι} (hlib : CorrectFrozen lib P) {d : Disc}
    (hp : IsProbabilityMeasure (discLaw d)) : Samples P (lib.disc d) (discRealLaw d) :=
  hlib.disc (fun _ : Unit => d) Set.univ (fun _ => measurable_const) fun _ _ => hp

theorem tuple_shape {params : List (List ℕ)} {u : List ℕ} (hu : IsBroadcast params u) {size : List ℕ} {k : ℕ}
    (h : FitsIn u (size ++ List.replicate k 1)) : scipyRvsShape params (SizeArg.tuple size).scipy = .ok size :=
  (scipyRvsShape_size hu size).1 ⟨k, h⟩

theorem fits_snoc {s S : List ℕ} (h : FitsIn s S) (n : ℕ) : FitsIn s (S ++ [n]) := by
  induction s generalizing S with
  | nil => trivial
  | cons a s ih =>
    cases S with
    | nil => exact h.elim
    | cons b S => exact ⟨h.1, ih h.2⟩

theorem proj_snoc : ∀ {s idx : List ℕ} (i : ℕ), s.length ≤ idx.length → proj s (idx ++ [i]) = proj s idx
  | [], _, _, _ => rfl
  | _ :: _, [], _, h => by simp at h
  | d :: s, j :: idx, i, h => by
    simp only [List.cons_append, proj]
    rw [proj_snoc i (by simpa using h)]

theorem inShape_snoc : ∀ {S idx : List ℕ} {n : ℕ}, InShape idx (S ++ [n]) → ∃ j i, idx = j ++ [i] ∧ InShape j S ∧ i < n
  | [], [i], n, h => ⟨[], i, rfl, trivial, h.1⟩
  | [], [], n, h => h.elim
  | [], i :: j :: idx, n, h => h.2.elim
  | D :: S, [], n, h => h.elim
  | D :: S, i :: idx, n, h => by
    obtain ⟨j, k, e, h1, h2⟩ := inShape_snoc (S := S) h.2
    exact ⟨i :: j, k, by rw [e]; rfl, ⟨h.1, h1⟩, h2⟩

theorem rvs_inShape_length : ∀ {S idx : List ℕ}, InShape idx S → idx.length = S.length
  | [], [], _ => rfl
  | [], _ :: _, h => h.elim
  | _ :: _, [], h => h.elim
  | _ :: S, _ :: idx, h => by simpa using rvs_inShape_length (S := S) h.2

theorem proj_self : ∀ {S idx : List ℕ}, InShape idx S → proj S idx = idx
  | [], [], _ => rfl
  | [], _ :: _, h => h.elim
  | _ :: _, [], h => h.elim
  | D :: S, i :: idx, h => by
    rw [proj, proj_self (S := S) h.2]
    have := h.1
    congr 1
    split_ifs with hd
    · omega
    · rfl

theorem isBroadcast_single (u : List ℕ) : IsBroadcast [u] u := ⟨by simp [fits_refl], fun S hS => hS u (by simp)⟩

/-! ## Shapes -/

/-- C114. With a size, the result has exactly that shape if the parameters, broadcast together, fit in it (axes of length
one in front of them do not count). Otherwise a `ValueError` is raised and nothing drawn. -/
theorem C114_size (lib : FrozenSamplers ι) {params : List (List ℕ)} {u : List ℕ} (hu : IsBroadcast params u)
    (draw : List ℕ → Draw ℝ) (size : List ℕ) (rs : RandomState) (w : World) :
    ((∃ k, FitsIn u (size ++ List.replicate k 1)) →
      ∃ a, (rvsArray lib params draw (.tuple size) rs w).1 = .ok a ∧ a.rshape = size) ∧
    ((¬ ∃ k, FitsIn u (size ++ List.replicate k 1)) →
      ∃ msg, rvsArray lib params draw (.tuple size) rs w = (.error (.valueError msg), w)) := by
  constructor
  · rintro ⟨k, h⟩
    rw [rvsArray, tuple_shape hu h]
    exact ⟨_, rfl, rfl⟩
  · intro h
    obtain ⟨msg, hm⟩ := (scipyRvsShape_size hu size).2 h
    refine ⟨msg, ?_⟩
    rw [rvsArray, SizeArg.scipy, hm]

/-- C114. Parameters that do not broadcast together: a `ValueError`, whatever the size. -/
theorem C114_no_broadcast (lib : FrozenSamplers ι) {params : List (List ℕ)} (h : ¬ ∃ S, ∀ s ∈ params, FitsIn s S)
    (draw : List ℕ → Draw ℝ) (size : SizeArg) (rs : RandomState) (w : World) :
    ∃ msg, rvsArray lib params draw size rs w = (.error (.valueError msg), w) := by
  obtain ⟨msg, hm⟩ := broadcastShapes_error h
  refine ⟨msg, ?_⟩
  have : scipyRvsShape params size.scipy = .error (.valueError msg) := by
    rw [scipyRvsShape, hm]
    rfl
  rw [rvsArray, this]

/-- C114. The documented size, the number of samples in front of the shape of the parameters, always works. -/
theorem C114_documented_size (lib : FrozenSamplers ι) {params : List (List ℕ)} {u : List ℕ} (hu : IsBroadcast params u)
    (draw : List ℕ → Draw ℝ) (n : ℕ) (rs : RandomState) (w : World) :
    ∃ a, (rvsArray lib params draw (.tuple (u ++ [n])) rs w).1 = .ok a ∧ a.rshape = u ++ [n] :=
  (C114_size lib hu draw _ rs w).1 ⟨0, by simpa using fits_snoc (fits_refl u) n⟩

/-- C114. A number of samples alone works for scalars (and shapes of ones), and for a vector with as many entries.
For every other shape it raises a `ValueError`.
Missing, because false (`C114_number_silent`): that it raises for every vector. -/
theorem C114_number_partial (lib : FrozenSamplers ι) {params : List (List ℕ)} {u : List ℕ} (hu : IsBroadcast params u)
    (draw : List ℕ → Draw ℝ) (n : ℕ) (rs : RandomState) (w : World) :
    ((∃ k, u = List.replicate k 1 ∨ u = n :: List.replicate k 1) →
      ∃ a, (rvsArray lib params draw (.int n) rs w).1 = .ok a ∧ a.rshape = [n]) ∧
    ((¬ ∃ k, u = List.replicate k 1 ∨ u = n :: List.replicate k 1) →
      ∃ msg, rvsArray lib params draw (.int n) rs w = (.error (.valueError msg), w)) := by
  have e : (∃ k, u = List.replicate k 1 ∨ u = n :: List.replicate k 1) ↔ ∃ k, FitsIn u ([n] ++ List.replicate k 1) := by
    constructor
    · rintro ⟨k, rfl | rfl⟩
      · exact ⟨k, by simpa using fits_append_ones (s := []) (S := [n]) trivial k⟩
      · exact ⟨k, fits_refl _⟩
    · rintro ⟨k, h⟩
      cases u with
      | nil => exact ⟨0, Or.inl rfl⟩
      | cons d u =>
        have hu : u = List.replicate u.length 1 := by
          have h2 := h.2
          clear h hu
          induction u generalizing k with
          | nil => rfl
          | cons a u ih =>
            cases k with
            | zero => exact h2.elim
            | succ k =>
              have ha : a = 1 := by have := h2.1; omega
              rw [List.length_cons, List.replicate_succ, ← ih k h2.2, ha]
        rcases h.1 with h1 | h1
        · exact ⟨u.length + 1, Or.inl (by rw [h1, List.replicate_succ, ← hu])⟩
        · exact ⟨u.length, Or.inr (by rw [h1, ← hu])⟩
  rw [e]
  exact C114_size lib hu draw [n] rs w

/-- C114. Without a size: the shape of the parameters, but without the axes of length one in front.
Missing, because false: that those are kept (`C114_row_without_size`). -/
theorem C114_no_size_partial (lib : FrozenSamplers ι) {params : List (List ℕ)} {u v : List ℕ} (hu : IsBroadcast params u)
    (hv : WithoutLeadingOnes u v) (draw : List ℕ → Draw ℝ) (rs : RandomState) (w : World) :
    ∃ a, (rvsArray lib params draw .none rs w).1 = .ok a ∧ a.rshape = v := by
  have : scipyRvsShape params SizeArg.none.scipy = .ok v := by
    rw [← withoutLeadingOnes_unique (squeezeLeft_spec u) hv]
    exact scipyRvsShape_none hu
  rw [rvsArray, this]
  exact ⟨_, rfl, rfl⟩

/-! ## Values -/

/-- C114. The entries are independent, and each follows the distribution with the parameters at its place. -/
theorem C114_law {lib : FrozenSamplers ι} (hlib : CorrectFrozen lib P) {params : List (List ℕ)} {u : List ℕ}
    (hu : IsBroadcast params u) {size : List ℕ} (hs : ∃ k, FitsIn u (size ++ List.replicate k 1)) (d : List ℕ → Cont)
    (hm : ∀ idx, InShape idx size → Measurable (d idx).pdf)
    (hp : ∀ idx, InShape idx size → IsProbabilityMeasure (contLaw (d idx))) :
    FreshRun (rvsArray lib params (fun idx => lib.cont (d idx)) (.tuple size)) fun f =>
      ArraySample P size f fun idx => contLaw (d idx) := by
  obtain ⟨k, hk⟩ := hs
  exact rvsArray_fresh (tuple_shape hu hk) fun idx hi => cont_samples hlib (hm idx hi) (hp idx hi)

/-- C114. Counts. -/
theorem C114_law_counts {lib : FrozenSamplers ι} (hlib : CorrectFrozen lib P) {params : List (List ℕ)} {u : List ℕ}
    (hu : IsBroadcast params u) {size : List ℕ} (hs : ∃ k, FitsIn u (size ++ List.replicate k 1)) (d : List ℕ → Disc)
    (hp : ∀ idx, InShape idx size → IsProbabilityMeasure (discLaw (d idx))) :
    FreshRun (rvsArray lib params (fun idx => lib.disc (d idx)) (.tuple size)) fun f =>
      ArraySample P size f fun idx => discRealLaw (d idx) := by
  obtain ⟨k, hk⟩ := hs
  exact rvsArray_fresh (tuple_shape hu hk) fun idx hi => disc_samples hlib (hp idx hi)

/-- C114. `size = (n_samples, *lam.shape)` of the docs: `n` independent samples of every entry of an array of exponential
distributions (row `i`, entry `j` of the result belongs to entry `j` of `lam`). -/
theorem C114_exponential {lib : FrozenSamplers ι} (hlib : CorrectFrozen lib P) (lam : NdArr ℝ)
    (hlam : ∀ j, InShape j lam.rshape → 0 < lam.get j) (n : ℕ) :
    FreshRun (Exponential.rvsArray lib lam (.tuple (lam.rshape ++ [n]))) fun f =>
      ArraySample P (lam.rshape ++ [n]) f fun idx => contLaw (Exponential.dist ⟨lam.get idx.dropLast⟩) := by
  have key : ∀ idx, InShape idx (lam.rshape ++ [n]) →
      lam.atIdx idx = lam.get idx.dropLast ∧ 0 < lam.get idx.dropLast := fun idx h => by
    obtain ⟨j, i, rfl, hj, -⟩ := inShape_snoc h
    rw [atIdx, proj_snoc i (rvs_inShape_length hj).ge, proj_self hj]
    simpa using hlam j hj
  have h := C114_law hlib (isBroadcast_single lam.rshape) (size := lam.rshape ++ [n])
    ⟨0, by simpa using fits_snoc (fits_refl lam.rshape) n⟩ (fun idx => Exponential.dist ⟨lam.atIdx idx⟩)
    (fun idx _ => measurable_pdf measurable_std_expon _ _)
    (fun idx hi => exponential_prob (by rw [(key idx hi).1]; exact (key idx hi).2))
  exact ⟨fun g => (h.1 g).congr fun idx hi => by rw [(key idx hi).1], fun g => (h.2 g).congr fun idx hi => by rw [(key idx hi).1]⟩

/-- C114. Several parameters: `shape = np.broadcast_shapes(mu.shape, sigma.shape)`, `size = (n_samples, *shape)`. -/
theorem C114_normal {lib : FrozenSamplers ι} (hlib : CorrectFrozen lib P) (mu sigma : NdArr ℝ) {shape : List ℕ}
    (hshape : IsBroadcast [mu.rshape, sigma.rshape] shape) (hs : ∀ j, InShape j shape → 0 < sigma.atIdx j) (n : ℕ) :
    FreshRun (Normal.rvsArray lib mu sigma (.tuple (shape ++ [n]))) fun f =>
      ArraySample P (shape ++ [n]) f fun idx =>
        contLaw (Normal.dist ⟨mu.atIdx idx.dropLast, sigma.atIdx idx.dropLast⟩) := by
  have key : ∀ idx, InShape idx (shape ++ [n]) → mu.atIdx idx = mu.atIdx idx.dropLast ∧
      sigma.atIdx idx = sigma.atIdx idx.dropLast ∧ 0 < sigma.atIdx idx.dropLast := fun idx h => by
    obtain ⟨j, i, rfl, hj, -⟩ := inShape_snoc h
    have h1 := fits_length (hshape.1 mu.rshape (by simp))
    have h2 := fits_length (hshape.1 sigma.rshape (by simp))
    have := rvs_inShape_length hj
    simp only [List.dropLast_concat]
    refine ⟨?_, ?_, hs j hj⟩
    · rw [atIdx, atIdx, proj_snoc i (by omega)]
    · rw [atIdx, atIdx, proj_snoc i (by omega)]
  have h := C114_law hlib hshape (size := shape ++ [n]) ⟨0, by simpa using fits_snoc (fits_refl shape) n⟩
    (fun idx => Normal.dist ⟨mu.atIdx idx, sigma.atIdx idx⟩) (fun idx _ => measurable_pdf measurable_std_norm _ _)
    (fun idx hi => normal_prob _ (by rw [(key idx hi).2.1]; exact (key idx hi).2.2))
  exact ⟨fun g => (h.1 g).congr fun idx hi => by rw [(key idx hi).1, (key idx hi).2.1], fun g => (h.2 g).congr fun idx hi => by rw [(key idx hi).1, (key idx hi).2.1]⟩

/-- C114. The docs say that a number alone is a broadcast issue for a vector. It is not one for a vector of that length:
without an error the result is one draw for each entry, not `n` samples of each (disagreement). -/
theorem C114_number_silent {lib : FrozenSamplers ι} (hlib : CorrectFrozen lib P) (lam : NdArr ℝ) {n : ℕ}
    (hn : lam.rshape = [n]) (hlam : ∀ j, InShape j lam.rshape → 0 < lam.get j) :
    FreshRun (Exponential.rvsArray lib lam (.int n)) fun f =>
      ArraySample P [n] f fun idx => contLaw (Exponential.dist ⟨lam.get idx⟩) := by
  have key : ∀ idx, InShape idx [n] → lam.atIdx idx = lam.get idx := fun idx h => by
    rw [atIdx, proj_self (hn ▸ h)]
  have h := C114_law hlib (isBroadcast_single lam.rshape) (size := [n])
    ⟨0, by simpa [hn] using fits_refl [n]⟩ (fun idx => Exponential.dist ⟨lam.atIdx idx⟩)
    (fun idx _ => measurable_pdf measurable_std_expon _ _)
    (fun idx hi => exponential_prob (by rw [key idx hi]; exact hlam idx (hn ▸ hi)))
  exact ⟨fun g => (h.1 g).congr fun idx hi => by rw [key idx hi], fun g => (h.2 g).congr fun idx hi => by rw [key idx hi]⟩

/-- the array of the docs: `lam = np.array([[1, 2], [0.5, 5]])`; 100 alone fails, `(100, 2, 2)` works -/
example (lib : FrozenSamplers ι) (draw : List ℕ → Draw ℝ) (rs : RandomState) (w : World) :
    (∃ msg, rvsArray lib [[2, 2]] draw (.int 100) rs w = (.error (.valueError msg), w)) ∧
    ∃ a, (rvsArray lib [[2, 2]] draw (.tuple ([2, 2] ++ [100])) rs w).1 = .ok a ∧ a.rshape = [2, 2, 100] := by
  refine ⟨(C114_number_partial lib (isBroadcast_single _) draw 100 rs w).2 ?_,
    C114_documented_size lib (isBroadcast_single _) draw 100 rs w⟩
  rintro ⟨k, h | h⟩
  · cases k with
    | zero => simp at h
    | succ k => simp [List.replicate_succ] at h
  · simp at h

/-- `mu` of shape `(3,)`, `sigma` of shape `(2, 1)` -/
example : IsBroadcast [[3], [1, 2]] [3, 2] := broadcastShapes_ok rfl

/-- `lam = np.array([1, 2])` -/
example : ∀ j, InShape j ({ rshape := [2], get := fun j => (j.headD 0 : ℝ) + 1 } : NdArr ℝ).rshape →
    0 < ({ rshape := [2], get := fun j => (j.headD 0 : ℝ) + 1 } : NdArr ℝ).get j := fun j _ => by
  dsimp only
  positivity

/-- C114. A row of `k > 1` distributions, shape `(1, k)`, without a size: the sample has shape `(k,)` (disagreement). -/
theorem C114_row_without_size (lib : FrozenSamplers ι) {k : ℕ} (hk : k ≠ 1) (draw : List ℕ → Draw ℝ) (rs : RandomState)
    (w : World) : ∃ a, (rvsArray lib [[k, 1]] draw .none rs w).1 = .ok a ∧ a.rshape = [k] :=
  C114_no_size_partial lib (isBroadcast_single [k, 1]) ⟨⟨1, rfl⟩, by simpa using hk⟩ draw rs w

end Conj
