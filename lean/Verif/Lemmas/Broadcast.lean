import Verif.ArraySpec
import Verif.Lemmas.Elementwise

/-! Arrays and the relations the model functions carry from arguments to results. -/

namespace Conj

open Spec NdArr

variable {β : Type} [PyNum β]

/-- numbers depending on an index: pointwise arithmetic -/
instance instPyNumIdx : PyNum (List ℕ → β) where
  add a b := fun i => a i + b i
  sub a b := fun i => a i - b i
  mul a b := fun i => a i * b i
  div a b := fun i => a i / b i
  lit q := fun _ => lit q
  powq a q := fun i => powq (a i) q

/-- the array expression fits in `S` and has the entries `r` -/
def Elem (S : List ℕ) (e : ArrExpr β) (r : List ℕ → β) : Prop :=
  ∃ a, e = .ok a ∧ FitsIn a.rshape S ∧ ∀ idx, a.atIdx idx = r idx

omit [PyNum β] in
theorem elem_op {S : List ℕ} (f : β → β → β) {a b : ArrExpr β} {r s : List ℕ → β}
    (ha : Elem S a r) (hb : Elem S b s) : Elem S (ufunc2 f a b) (fun i => f (r i) (s i)) := by
  obtain ⟨x, rfl, hx, hx'⟩ := ha
  obtain ⟨y, rfl, hy, hy'⟩ := hb
  obtain ⟨u, hu, hf⟩ := bcast_fits hx hy
  obtain ⟨l1, l2⟩ := bcast_left hu
  refine ⟨_, by simp only [ufunc2, Except.bind, op, hu]; rfl, hf, ?_⟩
  intro idx
  simp only [atIdx, proj_proj l1, proj_proj l2]
  have h1 := hx' idx
  have h2 := hy' idx
  simp only [atIdx] at h1 h2
  rw [h1, h2]

omit [PyNum β] in
theorem elem_map {S : List ℕ} (f : β → β) {a : ArrExpr β} {r : List ℕ → β}
    (ha : Elem S a r) : Elem S (ufunc1 f a) (fun i => f (r i)) := by
  obtain ⟨x, rfl, hx, hx'⟩ := ha
  exact ⟨x.map f, rfl, hx, fun idx => congrArg f (hx' idx)⟩

theorem elem_numRel (S : List ℕ) : NumRel (Elem (β := β) S) where
  add ha hb := elem_op (· + ·) ha hb
  sub ha hb := elem_op (· - ·) ha hb
  mul ha hb := elem_op (· * ·) ha hb
  div ha hb := elem_op (· / ·) ha hb
  lit q := ⟨.scalar (lit q), rfl, trivial, fun _ => rfl⟩
  powq q ha := elem_map (powq · q) ha

omit [PyNum β] in
theorem elem_ok {S : List ℕ} {a : NdArr β} (h : FitsIn a.rshape S) : Elem S (.ok a) a.atIdx :=
  ⟨a, rfl, h, fun _ => rfl⟩

omit [PyNum β] in
theorem elem_params {D : Type → Type} [LawfulParams D] {S : List ℕ} {d : D (NdArr β)}
    (h : Params.All (fun a => FitsIn a.rshape S) d) :
    Params.Rel (Elem S) (fmap Except.ok d) (fmap NdArr.atIdx d) :=
  LawfulParams.rel_fmap_all _ _ (fun _ ha => elem_ok ha) h

omit [PyNum β] in
/-- related results act elementwise -/
theorem acts_of_rel {D : Type → Type} [LawfulParams D] {S : List ℕ} {d : D (ArrExpr β)}
    {d' : D (List ℕ → β)} (h : Params.Rel (Elem S) d d') :
    ActsElementwise S d (fun idx => fmap (fun r => r idx) d') := by
  obtain ⟨e, rfl, rfl⟩ := LawfulParams.rel_lift h
  have hc : ∀ p : {p : ArrExpr β × (List ℕ → β) // Elem S p.1 p.2}, ∃ a : NdArr β,
      p.1.1 = .ok a ∧ FitsIn a.rshape S ∧ ∀ idx, a.atIdx idx = p.1.2 idx := fun p => p.2
  choose c hc1 hc2 hc3 using hc
  refine ⟨fmap c e, ?_, ?_, ?_⟩
  · rw [LawfulParams.fmap_fmap]
    exact congrArg (fun g => fmap g e) (funext hc1)
  · have := LawfulParams.all_val (p := fun a : NdArr β => FitsIn a.rshape S)
      (fmap (fun p => ⟨c p, hc2 p⟩) e)
    rwa [LawfulParams.fmap_fmap] at this
  · intro idx _
    show fmap _ (fmap _ _) = fmap _ (fmap _ _)
    rw [LawfulParams.fmap_fmap, LawfulParams.fmap_fmap]
    exact congrArg (fun g => fmap g e) (funext fun p => hc3 p idx)

omit [PyNum β] in
theorem acts_of_rel' {D : Type → Type} [LawfulParams D] {S : List ℕ} {d : D (ArrExpr β)}
    {d' : D (List ℕ → β)} {scal : List ℕ → D β} (h : Params.Rel (Elem S) d d')
    (hs : ∀ idx, fmap (fun r => r idx) d' = scal idx) : ActsElementwise S d scal := by
  obtain ⟨p, h1, h2, h3⟩ := acts_of_rel h
  exact ⟨p, h1, h2, fun idx hi => (h3 idx hi).trans (hs idx)⟩

/-! ## Shapes -/

omit [PyNum β] in
theorem Spec.HasShapeOf.ok (a : NdArr β) : HasShapeOf (.ok a) [a] := by
  constructor
  · intro S
    simp
  · intro h
    exact (h ⟨a.rshape, by simpa using fits_refl _⟩).elim

theorem Spec.HasShapeOf.lit (q : ℚ) : HasShapeOf (lit q : ArrExpr β) [] := by
  constructor
  · intro S
    simp only [List.not_mem_nil, false_imp_iff, implies_true, iff_true]
    exact ⟨_, rfl, trivial⟩
  · intro h
    exact (h ⟨[], by simp⟩).elim

omit [PyNum β] in
theorem Spec.HasShapeOf.congr {e : ArrExpr β} {l l' : List (NdArr β)} (h : HasShapeOf e l)
    (hl : ∀ s, s ∈ l ↔ s ∈ l') : HasShapeOf e l' := by
  simpa only [HasShapeOf, hl] using h

omit [PyNum β] in
theorem Spec.HasShapeOf.op {e e' : ArrExpr β} {l l' : List (NdArr β)} (f : β → β → β)
    (h : HasShapeOf e l) (h' : HasShapeOf e' l') : HasShapeOf (ufunc2 f e e') (l ++ l') := by
  have key : ∀ S, (∃ a, ufunc2 f e e' = .ok a ∧ FitsIn a.rshape S) ↔
      ∀ s ∈ l ++ l', FitsIn s.rshape S := by
    intro S
    have : (∀ s ∈ l ++ l', FitsIn s.rshape S) ↔
        (∃ a, e = .ok a ∧ FitsIn a.rshape S) ∧ ∃ a, e' = .ok a ∧ FitsIn a.rshape S := by
      rw [h.1 S, h'.1 S]
      simp only [List.mem_append]
      exact ⟨fun h => ⟨fun s hs => h s (Or.inl hs), fun s hs => h s (Or.inr hs)⟩,
        fun h s hs => hs.elim (h.1 s) (h.2 s)⟩
    rw [this]
    constructor
    · rintro ⟨a, ha, hS⟩
      cases e with
      | error x => cases ha
      | ok x =>
        cases e' with
        | error y => cases ha
        | ok y =>
          simp only [ufunc2, Except.bind, NdArr.op] at ha
          cases hb : bcast x.rshape y.rshape with
          | none => simp [hb] at ha
          | some u =>
            simp only [hb, Except.ok.injEq] at ha
            subst ha
            obtain ⟨l1, l2⟩ := bcast_left hb
            exact ⟨⟨x, rfl, fits_trans l1 hS⟩, ⟨y, rfl, fits_trans l2 hS⟩⟩
    · rintro ⟨⟨x, rfl, hx⟩, ⟨y, rfl, hy⟩⟩
      obtain ⟨u, hu, hf⟩ := bcast_fits hx hy
      exact ⟨_, by simp only [ufunc2, Except.bind, NdArr.op, hu]; rfl, hf⟩
  refine ⟨key, ?_⟩
  intro hno
  cases he : e with
  | error x =>
    obtain ⟨m, hm⟩ := h.2 (fun ⟨S, hS⟩ => by
      obtain ⟨a, ha, _⟩ := (h.1 S).2 hS
      rw [he] at ha
      cases ha)
    rw [he] at hm
    injection hm with hm
    subst hm
    exact ⟨m, rfl⟩
  | ok x =>
    cases he' : e' with
    | error y =>
      obtain ⟨m, hm⟩ := h'.2 (fun ⟨S, hS⟩ => by
        obtain ⟨a, ha, _⟩ := (h'.1 S).2 hS
        rw [he'] at ha
        cases ha)
      rw [he'] at hm
      injection hm with hm
      subst hm
      exact ⟨m, rfl⟩
    | ok y =>
      simp only [ufunc2, Except.bind, NdArr.op]
      cases hb : bcast x.rshape y.rshape with
      | none => exact ⟨_, rfl⟩
      | some u =>
        exfalso
        apply hno
        refine ⟨u, (key u).1 ⟨_, by rw [he, he']; simp only [ufunc2, Except.bind, NdArr.op, hb]; rfl, fits_refl _⟩⟩

omit [PyNum β] in
theorem Spec.HasShapeOf.map {e : ArrExpr β} {l : List (NdArr β)} (f : β → β)
    (h : HasShapeOf e l) : HasShapeOf (ufunc1 f e) l := by
  cases e with
  | error x =>
    refine ⟨fun S => ?_, fun hno => ?_⟩
    · rw [← h.1 S]
      constructor
      · rintro ⟨a, ha, _⟩
        cases ha
      · rintro ⟨a, ha, _⟩
        cases ha
    · obtain ⟨m, hm⟩ := h.2 hno
      injection hm with hm
      exact ⟨m, by rw [hm]; rfl⟩
  | ok x =>
    refine ⟨fun S => ?_, fun hno => ?_⟩
    · rw [← h.1 S]
      constructor
      · rintro ⟨a, ha, hS⟩
        simp only [ufunc1, Except.map, Except.ok.injEq] at ha
        subst ha
        exact ⟨x, rfl, hS⟩
      · rintro ⟨a, ha, hS⟩
        injection ha with ha
        subst ha
        exact ⟨_, rfl, hS⟩
    · obtain ⟨m, hm⟩ := h.2 hno
      cases hm

theorem Spec.HasShapeOf.add {e e' : ArrExpr β} {l l' : List (NdArr β)}
    (h : HasShapeOf e l) (h' : HasShapeOf e' l') : HasShapeOf (e + e') (l ++ l') := h.op _ h'
theorem Spec.HasShapeOf.sub {e e' : ArrExpr β} {l l' : List (NdArr β)}
    (h : HasShapeOf e l) (h' : HasShapeOf e' l') : HasShapeOf (e - e') (l ++ l') := h.op _ h'
theorem Spec.HasShapeOf.mul {e e' : ArrExpr β} {l l' : List (NdArr β)}
    (h : HasShapeOf e l) (h' : HasShapeOf e' l') : HasShapeOf (e * e') (l ++ l') := h.op _ h'
theorem Spec.HasShapeOf.div {e e' : ArrExpr β} {l l' : List (NdArr β)}
    (h : HasShapeOf e l) (h' : HasShapeOf e' l') : HasShapeOf (e / e') (l ++ l') := h.op _ h'
theorem Spec.HasShapeOf.powq {e : ArrExpr β} {l : List (NdArr β)} (q : ℚ)
    (h : HasShapeOf e l) : HasShapeOf (PyNum.powq e q) l := h.map _

/-- prove a `HasShapeOf` goal about an arithmetic expression -/
macro "has_shape" : tactic => `(tactic| (
  eapply HasShapeOf.congr
  · repeat' first
    | with_reducible exact HasShapeOf.ok _ | with_reducible exact HasShapeOf.lit _
    | with_reducible apply HasShapeOf.add | with_reducible apply HasShapeOf.sub | with_reducible apply HasShapeOf.mul
    | with_reducible apply HasShapeOf.div | with_reducible apply HasShapeOf.powq | with_reducible apply HasShapeOf.op | with_reducible apply HasShapeOf.map
  · intro s
    simp only [List.mem_append, List.mem_cons, List.not_mem_nil, or_false, false_or]
    try tauto))

end Conj
