import Verif.RvsArray
import Verif.RvsSpec

/-!
# Specification: an array of independent values, one law for each entry
-/

open MeasureTheory

namespace Conj.Spec

open NdArr

/-- an array has finitely many entries -/
theorem finite_inShape : ∀ S : List ℕ, Finite { idx // InShape idx S }
  | [] => by
    have : Subsingleton { idx // InShape idx [] } := ⟨by
      rintro ⟨_ | ⟨i, a⟩, ha⟩ ⟨_ | ⟨j, b⟩, hb⟩
      · rfl
      · exact hb.elim
      · exact ha.elim
      · exact ha.elim⟩
    infer_instance
  | D :: S => by
    have := finite_inShape S
    refine Finite.of_injective
      (β := Fin D × { idx // InShape idx S })
      (fun x => match x with | ⟨i :: idx, h⟩ => (⟨i, h.1⟩, ⟨idx, h.2⟩)) ?_
    rintro ⟨_ | ⟨i, a⟩, ha⟩ ⟨_ | ⟨j, b⟩, hb⟩ e
    · exact ha.elim
    · exact ha.elim
    · exact hb.elim
    · simp_all

noncomputable instance (S : List ℕ) : Fintype { idx // InShape idx S } :=
  haveI := finite_inShape S
  Fintype.ofFinite _

/-- what `f` returns is an array of this shape whose entries are independent, the entry at `idx` with law `law idx`; and
what is left of the generator's stream is independent of them and again has law `P` -/
def ArraySample (P : Measure Stream) (shape : List ℕ) (f : Stream → Except PyErr (NdArr ℝ) × Stream)
    (law : List ℕ → Measure ℝ) : Prop :=
  ∃ X : Stream → { idx // InShape idx shape } → ℝ, Measurable X ∧ Measurable (fun s => (f s).2) ∧
    (∀ s, ∃ a, (f s).1 = .ok a ∧ a.rshape = shape ∧ ∀ i, a.get i.1 = X s i) ∧
    P.map (fun s => (X s, (f s).2)) = (Measure.pi fun i => law i.1).prod P

end Conj.Spec
