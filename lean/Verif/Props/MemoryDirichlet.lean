import Verif.MemoryDirichlet
import Verif.Props.Memory

/-!
# C118 for the Dirichlet models

Missing from the full property: counts and prior that `+` does not accept (then the posterior is a Python list).
-/

namespace Conj

open Spec

instance : LawfulParams Dirichlet where
  fmap_fmap _ _ _ := rfl
  rel_lift {α β R d d'} h := by
    have h_alpha := h
    refine ⟨{ alpha := ⟨(d.alpha, d'.alpha), h_alpha⟩ }, rfl, ?_⟩
    rfl
  all_val e := e.alpha.2
  all_lift {α p d} h := ⟨{ alpha := ⟨d.alpha, h⟩ }, rfl⟩
  rel_fmap _ _ h _ := h _

instance : LawfulTrav Dirichlet where
  seq_outcome {h0 P d e} r := by
    have r0 := r
    refine r0.bind fun v0 a0 h0 l0 q0 => Outcome.pure fun hh ll => ?_
    replace q0 := stable P q0 ll
    refine ⟨q0.1, q0.2.1, ?_⟩
    simp only [fmap, q0.2.2]

theorem dirichlet_rel {h : Heap} {x : Val} {prior : Dirichlet Val} (h_x : InHeap h x) (h_prior : Params.All (InHeap h) prior) :
    Params.Rel (Fresh h) (⟨prior.alpha.arg + x.arg⟩ : Dirichlet (Py Val))
      (⟨.ok (h.read prior.alpha) + .ok (h.read x)⟩ : Dirichlet (ArrExpr ℝ)) :=
  fresh_add (sim_arg h_prior) (sim_arg h_x)

theorem C118_categorical_dirichlet_independent_partial {h : Heap} {x : Val} {prior : Dirichlet Val} {total : NdArr ℝ}
    (h_x : InHeap h x) (h_prior : Params.All (InHeap h) prior)
    (h_total : NdArr.op (· + ·) (h.read prior.alpha) (h.read x) = .ok total) :
    Independent h (buildOrRaise (categorical_dirichlet x.arg (args prior))) (.ok ⟨total⟩) := by
  have key := independent_of_rel (dirichlet_rel h_x h_prior)
  have e : Trav.seq (m := Except PyErr) (⟨.ok (h.read prior.alpha) + .ok (h.read x)⟩ : Dirichlet (ArrExpr ℝ)) = .ok ⟨total⟩ := by
    change (NdArr.op (· + ·) (h.read prior.alpha) (h.read x) >>= _) = _
    rw [h_total]; rfl
  rw [e] at key
  exact key

theorem C118_multinomial_dirichlet_independent_partial {h : Heap} {x : Val} {prior : Dirichlet Val} {total : NdArr ℝ}
    (h_x : InHeap h x) (h_prior : Params.All (InHeap h) prior)
    (h_total : NdArr.op (· + ·) (h.read prior.alpha) (h.read x) = .ok total) :
    Independent h (buildOrRaise (multinomial_dirichlet x.arg (args prior))) (.ok ⟨total⟩) :=
  C118_categorical_dirichlet_independent_partial h_x h_prior h_total

/-- the counts may be the array of the prior itself -/
example : InHeap exampleHeap (.ref 0) ∧ Params.All (InHeap exampleHeap) (⟨.ref 0⟩ : Dirichlet Val) ∧
    ∃ total, NdArr.op (· + ·) (exampleHeap.read (.ref 0)) (exampleHeap.read (.ref 0)) = .ok total ∧ total.rshape = [2] :=
  ⟨show 0 < 10 by decide, show 0 < 10 by decide, _, rfl, rfl⟩

theorem C118_categorical_dirichlet_history_partial {h : Heap} {batches : List (Fin 1 → Val)} {prior : Dirichlet Val}
    {totals : List (Dirichlet (NdArr ℝ))} (h_batches : ∀ b ∈ batches, ∀ i, InHeap h (b i))
    (h_prior : Params.All (InHeap h) prior)
    (h_totals : posteriors (fun (b : Fin 1 → NdArr ℝ) (d : Dirichlet (NdArr ℝ)) => (NdArr.op (· + ·) d.alpha (b 0)).map
      Dirichlet.mk) (batches.map fun b i => h.read (b i)) (fmap h.read prior) = .ok totals) :
    HistoryKept h (posteriors (fun b d => buildOrRaise (categorical_dirichlet (b 0).arg (args d))) batches prior)
      (.ok totals) := by
  rw [← h_totals]
  refine history_kept (history_outcome batch_read ?_ batches h prior h_batches h_prior)
  intro h b d hb hd
  have key := LawfulTrav.seq_outcome (dirichlet_rel (hb 0) hd)
  have e : Trav.seq (m := Except PyErr) (⟨.ok (h.read d.alpha) + .ok (h.read (b 0))⟩ : Dirichlet (ArrExpr ℝ)) =
      (NdArr.op (· + ·) (h.read d.alpha) (h.read (b 0))).map Dirichlet.mk := by
    change (NdArr.op (· + ·) (h.read d.alpha) (h.read (b 0)) >>= _) = _
    cases NdArr.op (· + ·) (h.read d.alpha) (h.read (b 0)) <;> rfl
  rw [e] at key
  exact key

theorem C118_multinomial_dirichlet_history_partial {h : Heap} {batches : List (Fin 1 → Val)} {prior : Dirichlet Val}
    {totals : List (Dirichlet (NdArr ℝ))} (h_batches : ∀ b ∈ batches, ∀ i, InHeap h (b i))
    (h_prior : Params.All (InHeap h) prior)
    (h_totals : posteriors (fun (b : Fin 1 → NdArr ℝ) (d : Dirichlet (NdArr ℝ)) => (NdArr.op (· + ·) d.alpha (b 0)).map
      Dirichlet.mk) (batches.map fun b i => h.read (b i)) (fmap h.read prior) = .ok totals) :
    HistoryKept h (posteriors (fun b d => buildOrRaise (multinomial_dirichlet (b 0).arg (args d))) batches prior)
      (.ok totals) :=
  C118_categorical_dirichlet_history_partial h_batches h_prior h_totals

/-- two batches of counts -/
example : ∃ totals, posteriors (fun (b : Fin 1 → NdArr ℝ) (d : Dirichlet (NdArr ℝ)) => (NdArr.op (· + ·) d.alpha
    (b 0)).map Dirichlet.mk) ([fun _ => Val.ref 1, fun _ => Val.ref 2].map fun b i => exampleHeap.read (b i))
    (fmap exampleHeap.read (⟨.ref 0⟩ : Dirichlet Val)) = .ok totals ∧ totals.length = 2 := ⟨_, rfl, rfl⟩

/-- the predictive distribution holds the array of the distribution itself -/
theorem C118_categorical_dirichlet_predictive_shares {h h' : Heap} {n : Val} {prior : Dirichlet Val}
    {d : DirichletMultinomialOf Val} (e : build (D := DirichletMultinomialOf)
      (categorical_dirichlet_predictive (args prior) n.arg) h = .ok (d, h')) :
    Tied h' d.alpha prior.alpha ∧ Tied h' d.n n := by
  cases e
  exact ⟨tied_self _ _, tied_self _ _⟩

theorem C118_multinomial_dirichlet_predictive_shares {h h' : Heap} {n : Val} {prior : Dirichlet Val}
    {d : DirichletMultinomialOf Val} (e : build (D := DirichletMultinomialOf)
      (multinomial_dirichlet_predictive (args prior) n.arg) h = .ok (d, h')) :
    Tied h' d.alpha prior.alpha ∧ Tied h' d.n n := by
  cases e
  exact ⟨tied_self _ _, tied_self _ _⟩

example : ∃ d h', build (D := DirichletMultinomialOf) (multinomial_dirichlet_predictive
    (args (⟨.ref 0⟩ : Dirichlet Val)) (Val.ref 1).arg) exampleHeap = .ok (d, h') := ⟨_, _, rfl⟩

end Conj
