import Verif.Num

/-!
# numpy arrays with broadcasting

The array arithmetic the model functions fall back on when they are called with numpy arrays
(numpy is not part of `/repo`; this is its documented broadcasting rule).  The element type is
any number type with the operations the models use, so the theorems hold for floats with `nan`
and `inf` as well as for exact reals.

Shapes and indices are stored last axis first, because broadcasting aligns shapes from the
last axis.
-/

namespace Conj

/-- a numpy array: its shape (last axis first) and its entries; only entries at indices inside
the shape are meaningful -/
structure NdArr (β : Type) where
  rshape : List ℕ
  get : List ℕ → β

variable {β : Type}

namespace NdArr

/-- broadcasting of one axis -/
def bdim (a b : ℕ) : Option ℕ :=
  if a = b then some a else if a = 1 then some b else if b = 1 then some a else none

/-- `np.broadcast_shapes` of two shapes (last axis first); `none`: incompatible -/
def bcast : List ℕ → List ℕ → Option (List ℕ)
  | [], t => some t
  | s, [] => some s
  | a :: s, b :: t => do return (← bdim a b) :: (← bcast s t)

/-- the index of the operand entry used for a result index: axes of length one are repeated,
extra leading axes are dropped -/
def proj : List ℕ → List ℕ → List ℕ
  | [], _ => []
  | _ :: s, [] => 0 :: proj s []
  | d :: s, i :: idx => (if d = 1 then 0 else i) :: proj s idx

/-- an elementwise binary operation; incompatible shapes are a `ValueError` -/
def op (f : β → β → β) (a b : NdArr β) : Except PyErr (NdArr β) :=
  match bcast a.rshape b.rshape with
  | none => .error (.valueError "operands could not be broadcast together")
  | some u => .ok { rshape := u, get := fun idx => f (a.get (proj a.rshape idx)) (b.get (proj b.rshape idx)) }

/-- an elementwise unary operation -/
def map (f : β → β) (a : NdArr β) : NdArr β := { rshape := a.rshape, get := fun idx => f (a.get idx) }

/-- a Python number among arrays -/
def scalar (x : β) : NdArr β := { rshape := [], get := fun _ => x }

end NdArr

/-- an array expression: an array, or the exception its evaluation raised -/
abbrev ArrExpr (β : Type) := Except PyErr (NdArr β)

/-- evaluation order is left to right; the first exception is the result -/
instance instPyNumArr [PyNum β] : PyNum (ArrExpr β) where
  add a b := Except.bind a fun x => Except.bind b fun y => NdArr.op (· + ·) x y
  sub a b := Except.bind a fun x => Except.bind b fun y => NdArr.op (· - ·) x y
  mul a b := Except.bind a fun x => Except.bind b fun y => NdArr.op (· * ·) x y
  div a b := Except.bind a fun x => Except.bind b fun y => NdArr.op (· / ·) x y
  lit q := .ok (.scalar (lit q))
  powq a q := Except.map (NdArr.map (powq · q)) a

/-! ## Specification of broadcasting -/

namespace NdArr

/-- `s` can be broadcast to `S` (last axis first): every axis of `s` has length one or the
length of the axis of `S` -/
def FitsIn : List ℕ → List ℕ → Prop
  | [], _ => True
  | _ :: _, [] => False
  | d :: s, D :: S => (d = 1 ∨ d = D) ∧ FitsIn s S

/-- an index inside a shape -/
def InShape : List ℕ → List ℕ → Prop
  | [], [] => True
  | i :: idx, D :: S => i < D ∧ InShape idx S
  | _, _ => False

/-- the entry of `np.broadcast_to(a, S)` at an index of `S` -/
def atIdx (a : NdArr β) (idx : List ℕ) : β := a.get (proj a.rshape idx)

/-- `np.broadcast_shapes` is the least shape both fit in, and fails when there is none. -/
theorem bcast_fits {s t S : List ℕ} (hs : FitsIn s S) (ht : FitsIn t S) :
    ∃ u, bcast s t = some u ∧ FitsIn u S := by
  induction s generalizing t S with
  | nil => exact ⟨t, by simp [bcast], ht⟩
  | cons a s ih =>
    cases t with
    | nil => exact ⟨a :: s, by simp [bcast], hs⟩
    | cons b t =>
      cases S with
      | nil => exact hs.elim
      | cons D S =>
        obtain ⟨u, hu, hf⟩ := ih hs.2 ht.2
        have : ∃ c, bdim a b = some c ∧ (c = 1 ∨ c = D) := by
          have h1 := hs.1
          have h2 := ht.1
          unfold bdim
          split_ifs with e1 e2 e3
          · exact ⟨a, rfl, h1⟩
          · exact ⟨b, rfl, h2⟩
          · exact ⟨a, rfl, h1⟩
          · exfalso; omega
        obtain ⟨c, hc, hd⟩ := this
        exact ⟨c :: u, by simp [bcast, hc, hu], hd, hf⟩

theorem fits_refl (s : List ℕ) : FitsIn s s := by
  induction s with
  | nil => trivial
  | cons d s ih => exact ⟨Or.inr rfl, ih⟩

theorem fits_trans {s t u : List ℕ} (h1 : FitsIn s t) (h2 : FitsIn t u) : FitsIn s u := by
  induction s generalizing t u with
  | nil => trivial
  | cons a s ih =>
    cases t with
    | nil => exact h1.elim
    | cons b t =>
      cases u with
      | nil => exact h2.elim
      | cons c u =>
        have := h1.1; have := h2.1
        exact ⟨by omega, ih h1.2 h2.2⟩

theorem bcast_left {s t u : List ℕ} (h : bcast s t = some u) : FitsIn s u ∧ FitsIn t u := by
  induction s generalizing t u with
  | nil =>
    simp only [bcast, Option.some.injEq] at h
    subst h
    exact ⟨trivial, fits_refl _⟩
  | cons a s ih =>
    cases t with
    | nil =>
      simp only [bcast, Option.some.injEq] at h
      subst h
      exact ⟨fits_refl _, trivial⟩
    | cons b t =>
      simp only [bcast] at h
      cases hd : bdim a b with
      | none => simp [hd] at h
      | some c =>
        cases hb : bcast s t with
        | none => simp [hd, hb] at h
        | some v =>
          simp [hd, hb] at h
          subst h
          obtain ⟨h1, h2⟩ := ih hb
          unfold bdim at hd
          split_ifs at hd with e1 e2 e3 <;> simp at hd <;> subst hd
          · exact ⟨⟨Or.inr rfl, h1⟩, ⟨Or.inr e1.symm, h2⟩⟩
          · exact ⟨⟨Or.inl e2, h1⟩, ⟨Or.inr rfl, h2⟩⟩
          · exact ⟨⟨Or.inr rfl, h1⟩, ⟨Or.inl e3, h2⟩⟩

/-- projecting through a larger shape does not change the entry used -/
theorem proj_proj {s u : List ℕ} (h : FitsIn s u) (idx : List ℕ) :
    proj s (proj u idx) = proj s idx := by
  induction s generalizing u idx with
  | nil => rfl
  | cons d s ih =>
    cases u with
    | nil => exact h.elim
    | cons e u =>
      cases idx with
      | nil => simp [proj, ih h.2]
      | cons i idx =>
        have := h.1
        simp only [proj, List.cons.injEq]
        refine ⟨?_, ih h.2 idx⟩
        split_ifs <;> omega

end NdArr

end Conj
