import Verif.OperatorsSpec

/-!
# Products with numbers and arrays, computed
-/

namespace Conj

open Spec NdArr

theorem bcast_nil_right (s : List ℕ) : bcast s [] = some s := by cases s <;> rfl

theorem op_scalar_right (f : ℝ → ℝ → ℝ) (a : NdArr ℝ) (x : ℝ) :
    NdArr.op f a (.scalar x) = .ok { rshape := a.rshape, get := fun i => f (a.get (proj a.rshape i)) x } := by
  simp [NdArr.op, scalar, bcast_nil_right]

theorem op_number_left (f : ℝ → ℝ → ℝ) {a : NdArr ℝ} (ha : a.rshape = []) (b : NdArr ℝ) :
    NdArr.op f a b = .ok { rshape := b.rshape, get := fun i => f (a.get []) (b.get (proj b.rshape i)) } := by
  simp [NdArr.op, ha, bcast, proj]

theorem proj_inShape : ∀ {s i : List ℕ}, InShape i s → proj s i = i
  | [], [], _ => rfl
  | d :: s, j :: i, h => by
    rw [proj, proj_inShape h.2]
    split
    · have := h.1
      congr 1
      omega
    · rfl

section methods
variable (v : NdArr ℝ)

theorem poisson_mulMethod (d : Poisson (NdArr ℝ)) : (DistObj.poisson d).mulMethod v =
    some ((NdArr.op (· * ·) d.lam v).map fun l => .poisson ⟨l⟩) := by
  change some (Except.map _ (Except.bind (NdArr.op (· * ·) d.lam v) _)) = _
  cases NdArr.op (· * ·) d.lam v <;> rfl

theorem gamma_mulMethod (d : Gamma (NdArr ℝ)) : (DistObj.gamma d).mulMethod v =
    some ((NdArr.op (· * ·) d.alpha v).map fun l => .gamma ⟨l, d.beta⟩) := by
  change some (Except.map _ (Except.bind (NdArr.op (· * ·) d.alpha v) _)) = _
  cases NdArr.op (· * ·) d.alpha v <;> rfl

theorem negativeBinomial_mulMethod (d : NegativeBinomial (NdArr ℝ)) : (DistObj.negativeBinomial d).mulMethod v =
    some ((NdArr.op (· * ·) d.n v).map fun l => .negativeBinomial ⟨l, d.p⟩) := by
  change some (Except.map _ (Except.bind (NdArr.op (· * ·) d.n v) _)) = _
  cases NdArr.op (· * ·) d.n v <;> rfl

theorem exponential_mulMethod (d : Exponential (NdArr ℝ)) : (DistObj.exponential d).mulMethod v =
    some (.ok (.gamma ⟨v, { rshape := d.lam.rshape, get := fun i => 1 / d.lam.get (proj d.lam.rshape i) }⟩)) := by
  change some (Except.map DistObj.gamma (Except.bind (NdArr.op (· / ·) (.scalar (lit 1)) d.lam) fun b => .ok ⟨v, b⟩)) = _
  rw [op_number_left _ rfl]
  have : (lit 1 : ℝ) = 1 := by simp [lit]
  simp only [scalar, this]
  rfl

theorem normal_mulMethod (d : Normal (NdArr ℝ)) : (DistObj.normal d).mulMethod v =
    some (Except.bind (NdArr.op (· * ·) d.mu v) fun m =>
      (NdArr.op (· * ·) (d.sigma.map (powq · 2)) v).map fun s => .normal ⟨m, s.map (powq · (1 / 2))⟩) := by
  change some (Except.map _ (Except.bind (NdArr.op (· * ·) d.mu v) fun m => Except.bind
    (Except.map _ (NdArr.op (· * ·) (d.sigma.map (powq · 2)) v)) _)) = _
  cases NdArr.op (· * ·) d.mu v with
  | error e => rfl
  | ok m => cases NdArr.op (· * ·) (d.sigma.map (powq · 2)) v <;> rfl

end methods

end Conj
