import Verif.SampleShapes
import Verif.Props.Sampling

/-!
# C70, C72: shapes of samples
-/

namespace Conj

namespace Spec

/-- `u` is the shape (last axis first) several shapes broadcast to: all fit in it, and it fits wherever they
all fit -/
def IsBroadcast (l : List (List ℕ)) (u : List ℕ) : Prop :=
  (∀ s ∈ l, NdArr.FitsIn s u) ∧ ∀ S, (∀ s ∈ l, NdArr.FitsIn s S) → NdArr.FitsIn u S

/-- `v` is the shape `u` (last axis first) without the axes of length one in front -/
def WithoutLeadingOnes (u v : List ℕ) : Prop := (∃ k, u = v ++ List.replicate k 1) ∧ v.getLast? ≠ some 1

/-- the documented meaning of `size`: none for a single value, a number for a vector -/
def wantedSize : SizeArg → List ℕ
  | .none => []
  | .int k => [k]
  | .tuple s => s

end Spec

open Spec NdArr

theorem squeeze_one_left (s : Shape) : squeeze (1 :: s) = squeeze s := by simp [squeeze]

theorem mvnOneShape_eq (d : ℕ) : mvnOneShape d = if d = 1 then [] else [d] := by
  unfold mvnOneShape squeeze
  by_cases h : d = 1 <;> simp [h]

theorem wishartShape_eq (size d : ℕ) :
    wishartShape size d = (if size = 1 then [] else [size]) ++ if d = 1 then [] else [d, d] := by
  unfold wishartShape squeeze
  by_cases h : size = 1 <;> by_cases h' : d = 1 <;> simp [h, h']

theorem stack_replicate (n : ℕ) (s : Shape) : stackShape (List.replicate (n + 1) s) = .ok ((n + 1) :: s) := by
  simp [List.replicate_succ, stackShape]

theorem stack_map_iter (n : ℕ) (t s : Shape) (hn : 0 < n) :
    stackShape ((iterShape (n :: t)).map fun _ => s) = .ok (n :: s) := by
  obtain ⟨m, rfl⟩ : ∃ m, n = m + 1 := ⟨n - 1, by omega⟩
  simpa [iterShape] using stack_replicate m s

theorem scaledShape_eq (size d : ℕ) : NIG.scaledShape size d = .ok [size, d, d] := by
  unfold NIG.scaledShape
  by_cases h : size = 1 <;> simp [bcast, bdim, h, eq_comm]

/-- The documented shapes, for two features or more and one sample or more.
Missing for C70: one feature, and no samples, where it is false. -/
theorem C70_shapes_partial (size d : ℕ) (hs : 0 < size) (hd : 2 ≤ d) :
    NIG.varianceShape size = [size] ∧ NIG.beta1dShape size = [size] ∧
    NIG.betaNdShape size d = .ok [size, d] ∧
    NW.varianceShape size d = .ok [size, d, d] ∧ meanShape (NW.varianceShape size d) d = .ok [size, d] ∧
    NIW.varianceShape size d = .ok [size, d, d] ∧ meanShape (NIW.varianceShape size d) d = .ok [size, d] := by
  have h1 : d ≠ 1 := by omega
  have hm : mvnOneShape d = [d] := by simp [mvnOneShape_eq, h1]
  have hnw : NW.varianceShape size d = .ok [size, d, d] := by
    unfold NW.varianceShape invShape
    by_cases h : size = 1 <;> simp [wishartShape_eq, h, h1]
  have hniw : NIW.varianceShape size d = .ok [size, d, d] := by
    unfold NIW.varianceShape
    by_cases h : size = 1 <;> simp [wishartShape_eq, h, h1]
  have hmean : ∀ v, v = Except.ok [size, d, d] → meanShape v d = .ok [size, d] := by
    rintro v rfl
    change stackShape ((iterShape [size, d, d]).map fun _ => mvnOneShape d) = _
    rw [hm, stack_map_iter size [d, d] [d] hs]
  refine ⟨rfl, rfl, ?_, hnw, hmean _ hnw, hniw, hmean _ hniw⟩
  unfold NIG.betaNdShape
  rw [scaledShape_eq]
  exact hmean _ rfl

/-- The number of samples is the number asked for, for every sampler, size and kind of `random_state`. -/
theorem C70_number_of_samples {ι M : Type} [Fintype ι] [DecidableEq ι] (lib : Samplers ι) (rs : RandomState)
    (w : World) (size : ℕ) (d1 : NormalInverseGamma ℝ ℝ M) (nu : ℝ)
    (d2 : NormalInverseGamma ℝ (ι → ℝ) (Matrix ι ι ℝ)) (di : Matrix ι ι ℝ) (d3 : NormalGamma ℝ)
    (d4 : NormalWishart ℝ (ι → ℝ) (Matrix ι ι ℝ)) (d5 : NormalInverseWishart ℝ (ι → ℝ) (Matrix ι ι ℝ))
    (g : BetaGeometric ℝ) (c : CompoundGamma ℝ) :
    (d1.sample_variance lib size rs w).1.length = size ∧
    (∃ l v w', d1.sample_beta lib nu size true rs w = (.meanAndVariance l v, w') ∧ l.length = size ∧ v.length = size) ∧
    (∃ l v w', d2.sample_beta_nd lib di size true rs w = (.meanAndVariance l v, w') ∧ l.length = size ∧ v.length = size) ∧
    (∃ l v w', d3.sample_beta lib size true rs w = (.meanAndVariance l v, w') ∧ l.length = size ∧ v.length = size) ∧
    (∃ l v w', d4.sample_mean lib size true rs w = (.meanAndVariance l v, w') ∧ l.length = size ∧ v.length = size) ∧
    (∃ l v w', d5.sample_mean lib size true rs w = (.meanAndVariance l v, w') ∧ l.length = size ∧ v.length = size) ∧
    (g.rvs lib size rs w).1.length = size ∧ (c.rvs lib size rs w).1.length = size := by
  refine ⟨?_, ⟨_, _, _, rfl, ?_, ?_⟩, ⟨_, _, _, rfl, ?_, ?_⟩, ⟨_, _, _, rfl, ?_, ?_⟩, ⟨_, _, _, rfl, ?_, ?_⟩,
    ⟨_, _, _, rfl, ?_, ?_⟩, ?_, ?_⟩
  all_goals try unfold BetaGeometric.rvs
  all_goals try dsimp only
  all_goals try split_ifs
  all_goals
    simp [NormalInverseGamma.sample_variance, NormalInverseGamma.sampleBoth1d, NormalInverseGamma.sampleBeta1d,
      NormalInverseGamma.sampleBothNd, NormalInverseGamma.sampleBetaNd, scaledCovariances, NormalGamma.sample_variance,
      NormalWishart.sample_variance, NormalInverseWishart.sample_variance, CompoundGamma.rvs, rvs_length,
      rvsEach_length]

/-- One feature: the feature axis is missing, `NormalWishart` fails, `NormalInverseWishart` variances lose both
axes. -/
theorem C70_one_feature (size : ℕ) (hs : 0 < size) :
    NIG.betaNdShape size 1 = .ok [size] ∧ NW.varianceShape size 1 = .error .linAlg ∧
    meanShape (NW.varianceShape size 1) 1 = .error .linAlg ∧
    NIW.varianceShape size 1 = .ok [size] ∧ meanShape (NIW.varianceShape size 1) 1 = .ok [size] := by
  have hw : NW.varianceShape size 1 = .error .linAlg := by
    unfold NW.varianceShape invShape
    by_cases h : size = 1 <;> simp [wishartShape_eq, h]
  have hi : NIW.varianceShape size 1 = .ok [size] := by
    unfold NIW.varianceShape
    by_cases h : size = 1 <;> simp [wishartShape_eq, h]
  have hmean : ∀ t, meanShape (.ok (size :: t)) 1 = .ok [size] := by
    intro t
    change stackShape ((iterShape (size :: t)).map fun _ => mvnOneShape 1) = _
    rw [mvnOneShape_eq, if_pos rfl, stack_map_iter size t [] hs]
  refine ⟨?_, hw, by rw [hw]; rfl, hi, by rw [hi]; exact hmean []⟩
  unfold NIG.betaNdShape
  rw [scaledShape_eq]
  exact hmean _

/-- No samples: `sample_beta` / `sample_mean` in several dimensions raise `ValueError` instead of returning an empty
array. -/
theorem C70_no_samples (d : ℕ) :
    NIG.betaNdShape 0 d = .error (.valueError "need at least one array to stack") ∧
    (2 ≤ d → meanShape (NW.varianceShape 0 d) d = .error (.valueError "need at least one array to stack")) ∧
    meanShape (NIW.varianceShape 0 d) d = .error (.valueError "need at least one array to stack") := by
  refine ⟨?_, fun hd => ?_, ?_⟩
  · unfold NIG.betaNdShape
    rw [scaledShape_eq]
    rfl
  · have h1 : d ≠ 1 := by omega
    have : NW.varianceShape 0 d = .ok [0, d, d] := by
      unfold NW.varianceShape invShape
      simp [wishartShape_eq, h1]
    rw [this]
    rfl
  · unfold NIW.varianceShape
    simp [wishartShape_eq]
    rfl

/-! ## C72 -/

theorem fits_antisymm {s t : List ℕ} (h1 : FitsIn s t) (h2 : FitsIn t s) : s = t := by
  induction s generalizing t with
  | nil => cases t with
    | nil => rfl
    | cons b t => exact h2.elim
  | cons a s ih => cases t with
    | nil => exact h1.elim
    | cons b t =>
      have := h1.1; have := h2.1
      rw [ih h1.2 h2.2]
      congr 1
      omega

theorem broadcastShapes_ok {l : List (List ℕ)} {u : List ℕ} (h : broadcastShapes l = .ok u) : IsBroadcast l u := by
  induction l generalizing u with
  | nil =>
    cases h
    exact ⟨by simp, fun _ _ => trivial⟩
  | cons s l ih =>
    rw [broadcastShapes] at h
    cases ht : broadcastShapes l with
    | error e => rw [ht] at h; cases h
    | ok t =>
      rw [ht] at h
      change (match bcast s t with
        | none => _
        | some u => _) = _ at h
      cases hb : bcast s t with
      | none => rw [hb] at h; cases h
      | some v =>
        rw [hb] at h
        cases h
        obtain ⟨h1, h2⟩ := bcast_left hb
        obtain ⟨i1, i2⟩ := ih ht
        refine ⟨?_, fun S hS => ?_⟩
        · intro x hx
          rcases List.mem_cons.1 hx with rfl | hx
          · exact h1
          · exact fits_trans (i1 x hx) h2
        · obtain ⟨w, hw, hf⟩ := bcast_fits (hS s (by simp)) (i2 S fun x hx => hS x (by simp [hx]))
          rw [hb] at hw
          cases hw
          exact hf

theorem broadcastShapes_exists {l : List (List ℕ)} {S : List ℕ} (h : ∀ s ∈ l, FitsIn s S) :
    ∃ u, broadcastShapes l = .ok u := by
  induction l with
  | nil => exact ⟨[], rfl⟩
  | cons s l ih =>
    obtain ⟨t, ht⟩ := ih fun x hx => h x (by simp [hx])
    obtain ⟨w, hw, -⟩ := bcast_fits (h s (by simp)) ((broadcastShapes_ok ht).2 S fun x hx => h x (by simp [hx]))
    refine ⟨w, ?_⟩
    rw [broadcastShapes, ht]
    change (match bcast s t with
      | none => _
      | some u => _) = _
    rw [hw]

theorem isBroadcast_unique {l : List (List ℕ)} {u v : List ℕ} (h1 : IsBroadcast l u) (h2 : IsBroadcast l v) : u = v :=
  fits_antisymm (h1.2 v h2.1) (h2.2 u h1.1)

theorem broadcastShapes_eq_ok {l : List (List ℕ)} {u : List ℕ} (h : IsBroadcast l u) : broadcastShapes l = .ok u := by
  obtain ⟨v, hv⟩ := broadcastShapes_exists h.1
  rw [hv, isBroadcast_unique (broadcastShapes_ok hv) h]

theorem broadcastShapes_error {l : List (List ℕ)} (h : ¬ ∃ S, ∀ s ∈ l, FitsIn s S) :
    ∃ msg, broadcastShapes l = .error (.valueError msg) := by
  induction l with
  | nil => exact absurd ⟨[], by simp⟩ h
  | cons s l ih =>
    by_cases hl : ∃ S, ∀ s ∈ l, FitsIn s S
    · obtain ⟨S, hS⟩ := hl
      obtain ⟨t, ht⟩ := broadcastShapes_exists hS
      refine ⟨"shape mismatch: objects cannot be broadcast to a single shape", ?_⟩
      rw [broadcastShapes, ht]
      change (match bcast s t with
        | none => _
        | some u => _) = _
      cases hb : bcast s t with
      | none => rfl
      | some u =>
        obtain ⟨h1, h2⟩ := bcast_left hb
        refine absurd ⟨u, fun x hx => ?_⟩ h
        rcases List.mem_cons.1 hx with rfl | hx
        · exact h1
        · exact fits_trans ((broadcastShapes_ok ht).1 x hx) h2
    · obtain ⟨msg, hm⟩ := ih hl
      exact ⟨msg, by rw [broadcastShapes, hm]; rfl⟩

theorem squeezeLeft_spec (u : List ℕ) : WithoutLeadingOnes u (squeezeLeft u) := by
  induction u with
  | nil => exact ⟨⟨0, rfl⟩, by simp [squeezeLeft]⟩
  | cons d s ih =>
    obtain ⟨⟨k, hk⟩, hl⟩ := ih
    rw [squeezeLeft]
    split_ifs with h
    · refine ⟨⟨k + 1, ?_⟩, by simp⟩
      rw [h.2] at hk
      rw [h.1]
      conv_lhs => rw [hk]
      simp [List.replicate_succ]
    · refine ⟨⟨k, ?_⟩, ?_⟩
      · conv_lhs => rw [hk]
        rfl
      · cases hs : squeezeLeft s with
        | nil =>
          simp only [List.getLast?_singleton, ne_eq, Option.some.injEq]
          exact fun h1 => h ⟨h1, hs⟩
        | cons a t => rw [hs] at hl; simpa [List.getLast?_cons_cons] using hl

theorem fits_append_ones {s S : List ℕ} (h : FitsIn s S) (k : ℕ) :
    FitsIn (s ++ List.replicate k 1) (S ++ List.replicate k 1) := by
  have aux : ∀ (k : ℕ) (T : List ℕ), k ≤ T.length → FitsIn (List.replicate k 1) T := by
    intro k
    induction k with
    | zero => intro T _; trivial
    | succ k ih =>
      intro T hT
      cases T with
      | nil => simp at hT
      | cons a T => exact ⟨Or.inl rfl, ih T (by simpa using hT)⟩
  induction s generalizing S with
  | nil => exact aux k _ (by simp)
  | cons a s ih =>
    cases S with
    | nil => exact h.elim
    | cons b S => exact ⟨h.1, ih h.2⟩

theorem ones_fits {u : List ℕ} {k : ℕ} (h : FitsIn u (List.replicate k 1)) : squeezeLeft u = [] := by
  induction u generalizing k with
  | nil => rfl
  | cons d s ih =>
    cases k with
    | zero => exact h.elim
    | succ k =>
      have hd : d = 1 := by have := h.1; omega
      rw [squeezeLeft, if_pos ⟨hd, ih h.2⟩]

theorem squeezeLeft_fits {u S : List ℕ} : FitsIn (squeezeLeft u) S ↔ ∃ k, FitsIn u (S ++ List.replicate k 1) := by
  constructor
  · intro h
    obtain ⟨⟨k, hk⟩, -⟩ := squeezeLeft_spec u
    exact ⟨k, by rw [hk]; exact fits_append_ones h k⟩
  · rintro ⟨k, h⟩
    induction S generalizing u with
    | nil => rw [ones_fits h]; trivial
    | cons D S ih =>
      cases u with
      | nil => trivial
      | cons d u =>
        rw [squeezeLeft]
        split_ifs
        · trivial
        · exact ⟨h.1, ih h.2⟩

theorem sizeMatches_squeeze (u S : List ℕ) : sizeMatches (squeezeLeft u) S = true ↔ FitsIn (squeezeLeft u) S := by
  have aux : ∀ u : List ℕ, sizeMatches (squeezeLeft u) [] = true → squeezeLeft u = [] := by
    intro u
    induction u with
    | nil => intro _; rfl
    | cons d u ih =>
      intro h
      rw [squeezeLeft] at h ⊢
      split_ifs with hd
      · rfl
      · rw [if_neg hd, sizeMatches] at h
        simp only [Bool.and_eq_true, decide_eq_true_eq] at h
        exact absurd ⟨h.1, ih h.2⟩ hd
  induction u generalizing S with
  | nil => simp [squeezeLeft, sizeMatches, FitsIn]
  | cons d u ih =>
    cases S with
    | nil =>
      constructor
      · intro h; rw [aux _ h]; trivial
      · intro h
        cases hs : squeezeLeft (d :: u) with
        | nil => rfl
        | cons a t => rw [hs] at h; exact h.elim
    | cons D S =>
      rw [squeezeLeft]
      split_ifs
      · simp [sizeMatches, FitsIn]
      · simp [sizeMatches, FitsIn, ih]

theorem fits_length {s S : List ℕ} (h : FitsIn s S) : s.length ≤ S.length := by
  induction s generalizing S with
  | nil => simp
  | cons a s ih =>
    cases S with
    | nil => exact h.elim
    | cons b S => simpa using ih h.2

/-- the rule of SciPy, with a size -/
theorem scipyRvsShape_size {params : List (List ℕ)} {u : List ℕ} (hu : IsBroadcast params u) (size : List ℕ) :
    ((∃ k, FitsIn u (size ++ List.replicate k 1)) → scipyRvsShape params (some size) = .ok size) ∧
    ((¬ ∃ k, FitsIn u (size ++ List.replicate k 1)) →
      ∃ msg, scipyRvsShape params (some size) = .error (.valueError msg)) := by
  rw [← squeezeLeft_fits]
  have e : scipyRvsShape params (some size) = if sizeMatches (squeezeLeft u) size then
      .ok (size ++ List.replicate ((squeezeLeft u).length - size.length) 1)
      else .error (.valueError "`size` does not match the broadcast shape of the parameters") := by
    unfold scipyRvsShape
    rw [broadcastShapes_eq_ok hu]
    rfl
  rw [e]
  constructor
  · intro h
    rw [if_pos ((sizeMatches_squeeze u size).2 h), Nat.sub_eq_zero_of_le (fits_length h)]
    simp
  · intro h
    rw [if_neg fun h' => h ((sizeMatches_squeeze u size).1 h')]
    exact ⟨_, rfl⟩

/-- the rule of SciPy, without a size -/
theorem scipyRvsShape_none {params : List (List ℕ)} {u : List ℕ} (hu : IsBroadcast params u) :
    scipyRvsShape params none = .ok (squeezeLeft u) := by
  have e : scipyRvsShape params none = if sizeMatches (squeezeLeft u) (squeezeLeft u) then
      .ok (squeezeLeft u ++ List.replicate ((squeezeLeft u).length - (squeezeLeft u).length) 1)
      else .error (.valueError "`size` does not match the broadcast shape of the parameters") := by
    unfold scipyRvsShape
    rw [broadcastShapes_eq_ok hu]
    rfl
  rw [e, if_pos ((sizeMatches_squeeze u _).2 (fits_refl _))]
  simp

theorem withoutLeadingOnes_unique {u v w : List ℕ} (hv : WithoutLeadingOnes u v) (hw : WithoutLeadingOnes u w) : v = w := by
  obtain ⟨⟨k, hk⟩, h1⟩ := hv
  obtain ⟨⟨l, hl⟩, h2⟩ := hw
  have aux : ∀ (k l : ℕ) (v w : List ℕ), k ≤ l → v ++ List.replicate k 1 = w ++ List.replicate l 1 →
      v.getLast? ≠ some 1 → v = w := by
    intro k l v w hkl e h1
    obtain ⟨m, rfl⟩ := Nat.exists_eq_add_of_le hkl
    rw [Nat.add_comm, List.replicate_add, ← List.append_assoc] at e
    have e := List.append_cancel_right e
    cases m with
    | zero => simpa using e
    | succ m =>
      exfalso
      apply h1
      rw [e, List.replicate_succ', ← List.append_assoc, List.getLast?_append]
      simp
  rcases le_total k l with h | h
  · exact aux k l v w h (hk ▸ hl) h1
  · exact (aux l k w v h (hl ▸ hk) h2).symm

theorem scipyRvsShape_ok {params : List (List ℕ)} {size : List ℕ} (h : ∀ s ∈ params, FitsIn s size) :
    scipyRvsShape params (some size) = .ok size := by
  obtain ⟨u, hu⟩ := broadcastShapes_exists h
  have hu := broadcastShapes_ok hu
  exact (scipyRvsShape_size hu size).1 ⟨0, by simpa using hu.2 size h⟩

/-- `beta_geometric.rvs`: with `size` truthy or none, the shape is the broadcast of the parameter shapes and `size`,
and a `ValueError` if there is none.
Missing for C72: `size=0`. -/
theorem C72_beta_geometric_partial (a b : List ℕ) (size : SizeArg) (hsize : size ≠ .int 0) :
    (∀ u, IsBroadcast [a, b, wantedSize size] u → BetaGeometric.rvsShape a b size = .ok u) ∧
    ((¬ ∃ S, FitsIn a S ∧ FitsIn b S ∧ FitsIn (wantedSize size) S) →
      ∃ msg, BetaGeometric.rvsShape a b size = .error (.valueError msg)) := by
  have hw : size.orEmpty = wantedSize size := by
    cases size with
    | none => rfl
    | int k => cases k with
      | zero => exact absurd rfl hsize
      | succ k => rfl
    | tuple s => rfl
  unfold BetaGeometric.rvsShape
  rw [hw]
  constructor
  · intro u hu
    have ha := hu.1 a (by simp)
    have hb := hu.1 b (by simp)
    have hs := hu.1 (wantedSize size) (by simp)
    obtain ⟨ab, hab⟩ := broadcastShapes_exists (l := [a, b]) (S := u) (by simp [ha, hb])
    have hAB := broadcastShapes_ok hab
    have habu : FitsIn ab u := hAB.2 u (by simp [ha, hb])
    have h2 : IsBroadcast [ab, ab, wantedSize size] u := by
      refine ⟨by simp [habu, hs], fun S hS => hu.2 S ?_⟩
      simp only [List.mem_cons, List.not_mem_nil, or_false, forall_eq_or_imp, forall_eq] at hS ⊢
      exact ⟨fits_trans (hAB.1 a (by simp)) hS.1, fits_trans (hAB.1 b (by simp)) hS.1, hS.2.2⟩
    rw [hab]
    change (broadcastShapes [ab, ab, wantedSize size] >>= _) = _
    rw [broadcastShapes_eq_ok h2]
    change (scipyRvsShape [ab, ab] u >>= _) = _
    rw [scipyRvsShape_ok (by simp [habu])]
    exact scipyRvsShape_ok (by simp [fits_refl])
  · intro hno
    by_cases hab' : ∃ S, ∀ s ∈ [a, b], FitsIn s S
    · obtain ⟨S, hS⟩ := hab'
      obtain ⟨ab, hab⟩ := broadcastShapes_exists hS
      have hAB := broadcastShapes_ok hab
      obtain ⟨msg, hm⟩ := broadcastShapes_error (l := [ab, ab, wantedSize size]) (by
        rintro ⟨S, hS⟩
        simp only [List.mem_cons, List.not_mem_nil, or_false, forall_eq_or_imp, forall_eq] at hS
        exact hno ⟨S, fits_trans (hAB.1 a (by simp)) hS.1, fits_trans (hAB.1 b (by simp)) hS.1, hS.2.2⟩)
      refine ⟨msg, ?_⟩
      rw [hab]
      change (broadcastShapes [ab, ab, wantedSize size] >>= _) = _
      rw [hm]
      rfl
    · obtain ⟨msg, hm⟩ := broadcastShapes_error hab'
      exact ⟨msg, by rw [hm]; rfl⟩

/-- `compound_gamma.rvs`, where the second draw is not given the size: the broadcast of the parameter shapes and `size`
without its leading axes of length one, and a `ValueError` if there is no broadcast. -/
theorem C72_compound_gamma_shape (a b q : List ℕ) (size : SizeArg) (hsize : size ≠ .int 0) :
    (∀ u v, IsBroadcast [a, b, q, wantedSize size] u → WithoutLeadingOnes u v →
      CompoundGamma.rvsShape a b q size = .ok v) ∧
    ((¬ ∃ S, FitsIn a S ∧ FitsIn b S ∧ FitsIn q S ∧ FitsIn (wantedSize size) S) →
      ∃ msg, CompoundGamma.rvsShape a b q size = .error (.valueError msg)) := by
  have hw : size.orEmpty = wantedSize size := by
    cases size with
    | none => rfl
    | int k => cases k with
      | zero => exact absurd rfl hsize
      | succ k => rfl
    | tuple s => rfl
  unfold CompoundGamma.rvsShape
  rw [hw]
  constructor
  · intro u v hu hv
    have ha := hu.1 a (by simp)
    have hb := hu.1 b (by simp)
    have hq := hu.1 q (by simp)
    have hs := hu.1 (wantedSize size) (by simp)
    obtain ⟨ab, hab⟩ := broadcastShapes_exists (l := [a, b, q]) (S := u) (by simp [ha, hb, hq])
    have hAB := broadcastShapes_ok hab
    have habu : FitsIn ab u := hAB.2 u (by simp [ha, hb, hq])
    have h2 : IsBroadcast [ab, ab, ab, wantedSize size] u := by
      refine ⟨by simp [habu, hs], fun S hS => hu.2 S ?_⟩
      simp only [List.mem_cons, List.not_mem_nil, or_false, forall_eq_or_imp, forall_eq] at hS ⊢
      exact ⟨fits_trans (hAB.1 a (by simp)) hS.1, fits_trans (hAB.1 b (by simp)) hS.1,
        fits_trans (hAB.1 q (by simp)) hS.1, hS.2.2.2⟩
    rw [hab]
    change (broadcastShapes [ab, ab, ab, wantedSize size] >>= _) = _
    rw [broadcastShapes_eq_ok h2]
    change (scipyRvsShape [ab, ab] u >>= _) = _
    rw [scipyRvsShape_ok (by simp [habu])]
    refine (scipyRvsShape_none (u := u) ⟨by simp [habu, fits_refl], fun S hS => hS u (by simp)⟩).trans ?_
    rw [withoutLeadingOnes_unique (squeezeLeft_spec u) hv]
  · intro hno
    by_cases hab' : ∃ S, ∀ s ∈ [a, b, q], FitsIn s S
    · obtain ⟨S, hS⟩ := hab'
      obtain ⟨ab, hab⟩ := broadcastShapes_exists hS
      have hAB := broadcastShapes_ok hab
      obtain ⟨msg, hm⟩ := broadcastShapes_error (l := [ab, ab, ab, wantedSize size]) (by
        rintro ⟨S, hS⟩
        simp only [List.mem_cons, List.not_mem_nil, or_false, forall_eq_or_imp, forall_eq] at hS
        exact hno ⟨S, fits_trans (hAB.1 a (by simp)) hS.1, fits_trans (hAB.1 b (by simp)) hS.1,
          fits_trans (hAB.1 q (by simp)) hS.1, hS.2.2.2⟩)
      refine ⟨msg, ?_⟩
      rw [hab]
      change (broadcastShapes [ab, ab, ab, wantedSize size] >>= _) = _
      rw [hm]
      rfl
    · obtain ⟨msg, hm⟩ := broadcastShapes_error hab'
      exact ⟨msg, by rw [hm]; rfl⟩

/-- `compound_gamma.rvs`: the shape is the broadcast of the parameter shapes and `size` if that has no axis of length one
in front.
Missing for C72: `size=0`, and shapes such as `(1,)` (`C72_compound_gamma_size_one`). -/
theorem C72_compound_gamma_partial (a b q : List ℕ) (size : SizeArg) (hsize : size ≠ .int 0) (u : List ℕ)
    (hu : IsBroadcast [a, b, q, wantedSize size] u) (h1 : u.getLast? ≠ some 1) :
    CompoundGamma.rvsShape a b q size = .ok u :=
  (C72_compound_gamma_shape a b q size hsize).1 u u hu ⟨⟨0, by simp⟩, h1⟩

/-- a sample of size one from one compound gamma is a bare number, where `beta_geometric` gives an array of one; one row
of three parameters with `size=(1, 3)` comes back as a vector -/
theorem C72_compound_gamma_size_one :
    CompoundGamma.rvsShape [] [] [] (.int 1) = .ok [] ∧ BetaGeometric.rvsShape [] [] (.int 1) = .ok [1] ∧
    CompoundGamma.rvsShape [3] [] [] (.tuple [3, 1]) = .ok [3] ∧
    BetaGeometric.rvsShape [3] [] (.tuple [3, 1]) = .ok [3, 1] := by
  refine ⟨?_, ?_, ?_, ?_⟩ <;> rfl

/-- `size=0` is taken for no size at all: scalar parameters give one value, a vector of three gives three, never an
empty sample. -/
theorem C72_size_zero (a b q : List ℕ) :
    BetaGeometric.rvsShape a b (.int 0) = BetaGeometric.rvsShape a b .none ∧
    CompoundGamma.rvsShape a b q (.int 0) = CompoundGamma.rvsShape a b q .none ∧
    BetaGeometric.rvsShape [] [] (.int 0) = .ok [] ∧ BetaGeometric.rvsShape [3] [] (.int 0) = .ok [3] :=
  ⟨rfl, rfl, rfl, rfl⟩

example : BetaGeometric.rvsShape [3] [1, 2] (.tuple [1, 1, 4]) = .ok [3, 2, 4] := rfl
example : CompoundGamma.rvsShape [3] [1] [] (.int 3) = .ok [3] := rfl
example : IsBroadcast [[3], [1, 2], [1, 1, 4]] [3, 2, 4] := broadcastShapes_ok rfl

end Conj
