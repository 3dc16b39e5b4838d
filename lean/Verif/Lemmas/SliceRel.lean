import Verif.Slice
import Verif.Lemmas.Broadcast

/-! Indexing the first axis commutes with broadcasting arithmetic. -/

namespace Conj

open Spec NdArr

variable {β : Type}

theorem inShape_length {idx s : List ℕ} (h : InShape idx s) : idx.length = s.length := by
  induction s generalizing idx with
  | nil => cases idx with
    | nil => rfl
    | cons => exact h.elim
  | cons d s ih => cases idx with
    | nil => exact h.elim
    | cons i idx => simp [ih h.2]

theorem inShape_concat {idx s : List ℕ} {j L : ℕ} (h : InShape idx s) (hj : j < L) :
    InShape (idx ++ [j]) (s ++ [L]) := by
  induction s generalizing idx with
  | nil => cases idx with
    | nil => exact ⟨hj, trivial⟩
    | cons => exact h.elim
  | cons d s ih => cases idx with
    | nil => exact h.elim
    | cons i idx => exact ⟨h.1, ih h.2⟩

theorem proj_concat {s idx : List ℕ} {j L : ℕ} (hl : idx.length = s.length) (hj : j < L) :
    proj (s ++ [L]) (idx ++ [j]) = proj s idx ++ [j] := by
  induction s generalizing idx with
  | nil => cases idx with
    | nil =>
      simp only [List.nil_append, proj, List.cons.injEq, and_true]
      split_ifs <;> omega
    | cons => simp at hl
  | cons d s ih => cases idx with
    | nil => simp at hl
    | cons i idx =>
      simp only [List.cons_append, proj, List.cons.injEq, true_and]
      exact ih (by simpa using hl)

theorem inShape_proj {s u idx : List ℕ} (hf : FitsIn s u) (hi : InShape idx u) :
    InShape (proj s idx) s := by
  induction s generalizing u idx with
  | nil => exact trivial
  | cons d s ih =>
    cases u with
    | nil => exact hf.elim
    | cons D u =>
      cases idx with
      | nil => exact hi.elim
      | cons i idx =>
        refine ⟨?_, ih hf.2 hi.2⟩
        have := hf.1
        have := hi.1
        split_ifs <;> omega

theorem bcast_concat {s t : List ℕ} (L : ℕ) (h : s.length = t.length) :
    bcast (s ++ [L]) (t ++ [L]) = (bcast s t).map (· ++ [L]) := by
  induction s generalizing t with
  | nil => cases t with
    | nil => simp [bcast, bdim]
    | cons => simp at h
  | cons d s ih => cases t with
    | nil => simp at h
    | cons e t =>
      simp only [List.cons_append, bcast, ih (by simpa using h)]
      cases bdim d e <;> cases bcast s t <;> rfl

theorem fits_length {s u : List ℕ} (h : FitsIn s u) : s.length ≤ u.length := by
  induction s generalizing u with
  | nil => simp
  | cons d s ih => cases u with
    | nil => exact h.elim
    | cons e u => simpa using ih h.2

theorem bcast_length {s t u : List ℕ} (hl : s.length = t.length) (h : bcast s t = some u) :
    u.length = s.length := by
  induction s generalizing t u with
  | nil => cases t with
    | nil => simp [bcast] at h; simp [← h]
    | cons => simp at hl
  | cons d s ih => cases t with
    | nil => simp at hl
    | cons e t =>
      simp only [bcast] at h
      cases hd : bdim d e with
      | none => simp [hd] at h
      | some c =>
        cases hb : bcast s t with
        | none => simp [hd, hb] at h
        | some v =>
          simp [hd, hb] at h
          subst h
          simp [ih (by simpa using hl) hb]

theorem takeSlice_nil {a : NdArr β} (key : Key) (h : a.rshape = []) : takeSlice key a = a := by
  simp [takeSlice, getitem, h]

theorem takeSlice_concat {a : NdArr β} {s : List ℕ} {i : ℤ} {L j : ℕ} (h : a.rshape = s ++ [L])
    (hi : normIndex i L = some j) :
    takeSlice (.int i) a = { rshape := s, get := fun idx => a.get (idx ++ [j]) } := by
  simp [takeSlice, getitem, h, hi]

theorem normIndex_lt {i : ℤ} {L j : ℕ} (hi : normIndex i L = some j) : j < L := by
  unfold normIndex at hi
  split_ifs at hi <;> simp at hi <;> omega

/-- `e` with its first axis indexed by `i` has the outcome `e'` -/
def Sliced (r L : ℕ) (i : ℤ) (e e' : ArrExpr β) : Prop :=
  (∃ a b, e = .ok a ∧ e' = .ok b ∧ SliceArg r L a ∧ SameArr (takeSlice (.int i) a) b) ∨
  ∃ x, e = .error x ∧ e' = .error x

theorem sliced_op {r L : ℕ} {i : ℤ} {j : ℕ} (hi : normIndex i L = some j) (f : β → β → β)
    {a b a' b' : ArrExpr β} (ha : Sliced r L i a a') (hb : Sliced r L i b b') :
    Sliced r L i (ufunc2 f a b) (ufunc2 f a' b') := by
  have hj := normIndex_lt hi
  obtain ⟨x, x', rfl, rfl, hx, sx⟩ | ⟨x, rfl, rfl⟩ := ha
  swap
  · exact Or.inr ⟨x, rfl, rfl⟩
  obtain ⟨y, y', rfl, rfl, hy, sy⟩ | ⟨y, rfl, rfl⟩ := hb
  swap
  · exact Or.inr ⟨y, rfl, rfl⟩
  simp only [ufunc2, Except.bind, op]
  obtain hx | ⟨s, ls, hx⟩ := hx
  · rw [takeSlice_nil _ hx] at sx
    obtain ⟨sx1, sx2⟩ := sx
    have hx' : x'.rshape = [] := by rw [← sx1, hx]
    have hx0 : x.get [] = x'.get [] := sx2 [] (by rw [hx]; trivial)
    obtain hy | ⟨t, lt, hy⟩ := hy
    · rw [takeSlice_nil _ hy] at sy
      obtain ⟨sy1, sy2⟩ := sy
      have hy' : y'.rshape = [] := by rw [← sy1, hy]
      have hy0 : y.get [] = y'.get [] := sy2 [] (by rw [hy]; trivial)
      simp only [hx, hy, hx', hy', bcast]
      left
      refine ⟨_, _, rfl, rfl, Or.inl rfl, ?_⟩
      rw [takeSlice_nil _ rfl]
      refine ⟨rfl, fun idx _ => ?_⟩
      simp [proj, hx0, hy0]
    · rw [takeSlice_concat hy hi] at sy
      obtain ⟨sy1, sy2⟩ := sy
      simp only at sy1 sy2
      simp only [hx, hy, hx', ← sy1, bcast]
      left
      refine ⟨_, _, rfl, rfl, Or.inr ⟨t, lt, rfl⟩, ?_⟩
      rw [takeSlice_concat rfl hi]
      refine ⟨rfl, fun idx hidx => ?_⟩
      simp only at hidx
      simp only [proj, hx0]
      rw [proj_concat (inShape_length hidx) hj, ← sy2 _ (inShape_proj (fits_refl _) hidx)]
  · rw [takeSlice_concat hx hi] at sx
    obtain ⟨sx1, sx2⟩ := sx
    simp only at sx1 sx2
    obtain hy | ⟨t, lt, hy⟩ := hy
    · rw [takeSlice_nil _ hy] at sy
      obtain ⟨sy1, sy2⟩ := sy
      have hy' : y'.rshape = [] := by rw [← sy1, hy]
      have hy0 : y.get [] = y'.get [] := sy2 [] (by rw [hy]; trivial)
      have e1 : bcast (s ++ [L]) [] = some (s ++ [L]) := by cases s <;> rfl
      have e2 : bcast s [] = some s := by cases s <;> rfl
      simp only [hx, hy, hy', ← sx1, e1, e2]
      left
      refine ⟨_, _, rfl, rfl, Or.inr ⟨s, ls, rfl⟩, ?_⟩
      rw [takeSlice_concat rfl hi]
      refine ⟨rfl, fun idx hidx => ?_⟩
      simp only at hidx
      simp only [proj, hy0]
      rw [proj_concat (inShape_length hidx) hj, ← sx2 _ (inShape_proj (fits_refl _) hidx)]
    · rw [takeSlice_concat hy hi] at sy
      obtain ⟨sy1, sy2⟩ := sy
      simp only at sy1 sy2
      have hst : s.length = t.length := ls.trans lt.symm
      simp only [hx, hy, ← sx1, ← sy1, bcast_concat L hst]
      cases hb : bcast s t with
      | none => exact Or.inr ⟨_, rfl, rfl⟩
      | some u =>
        left
        have hu : u.length = s.length := bcast_length hst hb
        refine ⟨_, _, rfl, rfl, Or.inr ⟨u, hu.trans ls, rfl⟩, ?_⟩
        rw [takeSlice_concat rfl hi]
        refine ⟨rfl, fun idx hidx => ?_⟩
        simp only at hidx
        have hli := inShape_length hidx
        obtain ⟨f1, f2⟩ := bcast_left hb
        simp only
        rw [proj_concat (hli.trans hu) hj, proj_concat (hli.trans (hu.trans hst)) hj,
          ← sx2 _ (inShape_proj f1 hidx), ← sy2 _ (inShape_proj f2 hidx)]

theorem sliced_map {r L : ℕ} {i : ℤ} {j : ℕ} (hi : normIndex i L = some j) (f : β → β)
    {a a' : ArrExpr β} (ha : Sliced r L i a a') :
    Sliced r L i (ufunc1 f a) (ufunc1 f a') := by
  obtain ⟨x, x', rfl, rfl, hx, sx⟩ | ⟨x, rfl, rfl⟩ := ha
  swap
  · exact Or.inr ⟨x, rfl, rfl⟩
  left
  refine ⟨_, _, rfl, rfl, hx, ?_⟩
  obtain hx | ⟨s, ls, hx⟩ := hx
  · rw [takeSlice_nil _ hx] at sx
    rw [takeSlice_nil _ (show (x.map f).rshape = [] from hx)]
    exact ⟨sx.1, fun idx h => congrArg f (sx.2 idx h)⟩
  · rw [takeSlice_concat hx hi] at sx
    rw [takeSlice_concat (show (x.map f).rshape = s ++ [L] from hx) hi]
    exact ⟨sx.1, fun idx h => congrArg f (sx.2 idx h)⟩

theorem sliced_numRel [PyNum β] {r L : ℕ} {i : ℤ} {j : ℕ} (hi : normIndex i L = some j) :
    NumRel (Sliced (β := β) r L i) where
  add ha hb := sliced_op hi (· + ·) ha hb
  sub ha hb := sliced_op hi (· - ·) ha hb
  mul ha hb := sliced_op hi (· * ·) ha hb
  div ha hb := sliced_op hi (· / ·) ha hb
  lit q := Or.inl ⟨.scalar (lit q), .scalar (lit q), rfl, rfl, Or.inl rfl,
    by rw [takeSlice_nil _ rfl]; exact ⟨rfl, fun _ _ => rfl⟩⟩
  powq q ha := sliced_map hi (powq · q) ha

theorem sliced_ok {r L : ℕ} {i : ℤ} {a : NdArr β} (h : SliceArg r L a) :
    Sliced r L i (.ok a) (.ok (takeSlice (.int i) a)) :=
  Or.inl ⟨_, _, rfl, rfl, h, rfl, fun _ _ => rfl⟩

theorem sliced_params {D : Type → Type} [LawfulParams D] {r L : ℕ} {i : ℤ} {d : D (NdArr β)}
    (h : Params.All (SliceArg r L) d) :
    Params.Rel (Sliced r L i) (fmap Except.ok d) (fmap Except.ok (fmap (takeSlice (.int i)) d)) := by
  rw [LawfulParams.fmap_fmap]
  exact LawfulParams.rel_fmap_all _ _ (fun _ ha => sliced_ok ha) h

theorem same_of_sliced {D : Type → Type} [LawfulParams D] {r L : ℕ} {i : ℤ}
    {d d' : D (ArrExpr β)} (h : Params.Rel (Sliced r L i) d d') :
    Params.Rel SameOutcome (fmap (Except.map (takeSlice (.int i))) d) d' := by
  obtain ⟨e, rfl, rfl⟩ := LawfulParams.rel_lift h
  rw [LawfulParams.fmap_fmap]
  refine LawfulParams.rel_fmap _ _ ?_ e
  rintro ⟨⟨x, y⟩, hxy⟩
  obtain ⟨a, b, h1, h2, _, h3⟩ | ⟨z, h1, h2⟩ := hxy
  · simp only at h1 h2
    subst h1 h2
    exact h3
  · simp only at h1 h2
    subst h1 h2
    exact rfl

end Conj
