import Verif.MemorySpec

/-!
# Running model functions on memory
-/

namespace Conj

open Spec

/-- `h'` is `h` with more arrays -/
structure Heap.Le (h h' : Heap) : Prop where
  next : h.next ≤ h'.next
  cells : ∀ a < h.next, h'.cells a = h.cells a

theorem Heap.Le.refl (h : Heap) : h.Le h := ⟨le_rfl, fun _ _ => rfl⟩

theorem Heap.Le.trans {h h' h'' : Heap} (a : h.Le h') (b : h'.Le h'') : h.Le h'' :=
  ⟨a.next.trans b.next, fun i hi => (b.cells i (hi.trans_le a.next)).trans (a.cells i hi)⟩

theorem Heap.Le.inHeap {h h' : Heap} (l : h.Le h') {v : Val} (hv : InHeap h v) : InHeap h' v := by
  cases v with
  | num x => trivial
  | ref a => exact lt_of_lt_of_le hv l.next

theorem Heap.Le.read {h h' : Heap} (l : h.Le h') {v : Val} (hv : InHeap h v) : h'.read v = h.read v := by
  cases v with
  | num x => rfl
  | ref a => exact l.cells a hv

theorem Heap.le_alloc (h : Heap) (a : NdArr ℝ) : h.Le (h.alloc a).2 :=
  ⟨Nat.le_succ _, fun i hi => Function.update_of_ne (Nat.ne_of_lt hi) _ _⟩

/-- computations started in any extension of `h0` -/
def Outcome {B C : Type} (h0 : Heap) (Q : Heap → B → C → Prop) (c : Py B) (e : Except PyErr C) : Prop :=
  ∀ h, h0.Le h → match c h, e with
    | .ok (b, h'), .ok x => h.Le h' ∧ Q h' b x
    | .error x, .error y => x = y
    | _, _ => False

theorem Outcome.mono {B C : Type} {h0 h1 : Heap} {Q : Heap → B → C → Prop} {c : Py B} {e : Except PyErr C}
    (o : Outcome h0 Q c e) (l : h0.Le h1) : Outcome h1 Q c e := fun h hl => o h (l.trans hl)

theorem Outcome.imp {B C : Type} {h0 : Heap} {Q R : Heap → B → C → Prop} {c : Py B} {e : Except PyErr C}
    (o : Outcome h0 Q c e) (i : ∀ h b x, Q h b x → R h b x) : Outcome h0 R c e := by
  intro h hl
  have := o h hl
  revert this
  cases c h <;> cases e <;> simp only [imp_self]
  exact fun t => ⟨t.1, i _ _ _ t.2⟩

theorem Outcome.pure {B C : Type} {h0 : Heap} {Q : Heap → B → C → Prop} {b : B} {x : C}
    (q : ∀ h, h0.Le h → Q h b x) : Outcome h0 Q (Pure.pure b) (Pure.pure x) := fun h hl => ⟨.refl h, q h hl⟩

theorem Outcome.bind {B C B' C' : Type} {h0 : Heap} {Q : Heap → B → C → Prop} {R : Heap → B' → C' → Prop} {c : Py B}
    {e : Except PyErr C} {k : B → Py B'} {k' : C → Except PyErr C'} (o : Outcome h0 Q c e)
    (ok : ∀ b x h1, h0.Le h1 → Q h1 b x → Outcome h1 R (k b) (k' x)) :
    Outcome h0 R (c >>= k) (e >>= k') := by
  intro h hl
  have h1 := o h hl
  change match (c h >>= fun p => k p.1 p.2), (e >>= k') with
    | .ok (b, h'), .ok x => h.Le h' ∧ R h' b x
    | .error x, .error y => x = y
    | _, _ => False
  cases hc : c h with
  | error x =>
    cases e with
    | error y => rw [hc] at h1; exact h1
    | ok y => rw [hc] at h1; exact h1.elim
  | ok p =>
    cases e with
    | error y => rw [hc] at h1; exact h1.elim
    | ok y =>
      rw [hc] at h1
      have h2 := ok p.1 y p.2 (hl.trans h1.1) h1.2 p.2 (.refl _)
      revert h2
      change (match k p.1 p.2, k' y with
        | .ok (b, h'), .ok x => p.2.Le h' ∧ R h' b x
        | .error x, .error y => x = y
        | _, _ => False) → match k p.1 p.2, k' y with
        | .ok (b, h'), .ok x => h.Le h' ∧ R h' b x
        | .error x, .error y => x = y
        | _, _ => False
      cases k p.1 p.2 <;> cases k' y <;> simp only [imp_self]
      exact fun t => ⟨h1.1.trans t.1, t.2⟩

/-- the value exists, satisfies `P` and has the contents `a` -/
def Is (P : Val → Prop) (h : Heap) (v : Val) (a : NdArr ℝ) : Prop := InHeap h v ∧ P v ∧ h.read v = a

theorem stable (P : Val → Prop) {h h' : Heap} {v : Val} {a : NdArr ℝ} (q : Is P h v a) (l : h.Le h') : Is P h' v a :=
  ⟨l.inHeap q.1, q.2.1, (l.read q.1).trans q.2.2⟩

/-- a number, or an array that did not exist in `h` -/
def New (h : Heap) : Val → Prop
  | .num _ => True
  | .ref a => h.next ≤ a

/-- the computation gives a value with the expected contents -/
abbrev Sim (h0 : Heap) : Py Val → ArrExpr ℝ → Prop := Outcome h0 (Is fun _ => True)

/-- and the value is new -/
abbrev Fresh (h0 : Heap) : Py Val → ArrExpr ℝ → Prop := Outcome h0 (Is (New h0))

theorem Fresh.sim {h0 : Heap} {c : Py Val} {e : ArrExpr ℝ} (o : Fresh h0 c e) : Sim h0 c e :=
  o.imp fun _ _ _ q => ⟨q.1, trivial, q.2.2⟩

theorem sim_arg {h0 : Heap} {v : Val} (hv : InHeap h0 v) : Sim h0 v.arg (.ok (h0.read v)) :=
  Outcome.pure fun _ l => ⟨l.inHeap hv, trivial, l.read hv⟩

theorem fresh_lit (h0 : Heap) (q : ℚ) : Fresh h0 (lit q) (lit q) := Outcome.pure fun _ _ => ⟨trivial, trivial, rfl⟩

theorem outcome_alloc {h0 h1 : Heap} (l : h0.Le h1) (e : ArrExpr ℝ) (c : Heap → ArrExpr ℝ)
    (hc : ∀ h, h1.Le h → c h = e) : Outcome h1 (Is (New h0)) (fun h => (c h).map h.alloc) e := by
  intro h hl
  beta_reduce
  rw [hc h hl]
  clear hc
  cases e with
  | error x => rfl
  | ok a =>
    refine ⟨h.le_alloc a, Nat.lt_succ_self _, (l.trans hl).next, ?_⟩
    exact Function.update_self _ _ _

theorem fresh_ufunc2 {h0 : Heap} (f : ℝ → ℝ → ℝ) {c c' : Py Val} {e e' : ArrExpr ℝ} (o : Sim h0 c e) (o' : Sim h0 c' e') :
    Fresh h0 (ufunc2 f c c') (Except.bind e fun x => Except.bind e' fun y => NdArr.op f x y) := by
  refine Outcome.bind (k' := fun x => Except.bind e' fun y => NdArr.op f x y) o fun v a h1 l1 q1 =>
    Outcome.bind (k' := fun y => NdArr.op f a y) (o'.mono l1) fun w b h2 l2 q2 => ?_
  have q1 := stable _ q1 l2
  have key : Outcome h2 (Is (New h0)) (fun h => (NdArr.op f (h.read v) (h.read w)).map h.alloc) (NdArr.op f a b) := by
    refine outcome_alloc (l1.trans l2) _ (fun h => NdArr.op f (h.read v) (h.read w)) fun h hl => ?_
    have r1 := (stable _ q1 hl).2.2
    have r2 := (stable _ q2 hl).2.2
    simp only [r1, r2]
  match v, w with
  | .num x, .num y =>
    obtain rfl := q1.2.2
    obtain rfl := q2.2.2
    exact Outcome.pure fun _ _ => ⟨trivial, trivial, rfl⟩
  | .num _, .ref _ => exact key
  | .ref _, _ => exact key

theorem fresh_ufunc1 {h0 : Heap} (f : ℝ → ℝ) {c : Py Val} {e : ArrExpr ℝ} (o : Sim h0 c e) :
    Fresh h0 (ufunc1 f c) (Except.map (NdArr.map f) e) := by
  have : Except.map (NdArr.map f) e = Except.bind e fun a => .ok (a.map f) := by cases e <;> rfl
  rw [this]
  refine Outcome.bind (k' := fun a => .ok (NdArr.map f a)) o fun v a h1 l1 q1 => ?_
  match v with
  | .num x =>
    obtain rfl := q1.2.2
    exact Outcome.pure fun _ _ => ⟨trivial, trivial, rfl⟩
  | .ref i =>
    refine outcome_alloc l1 _ (fun h => .ok ((h.read (.ref i)).map f)) fun h hl => ?_
    have r1 := (stable _ q1 hl).2.2
    simp only [r1]

section ops
variable {h0 : Heap} {c c' : Py Val} {e e' : ArrExpr ℝ}

theorem fresh_add (o : Sim h0 c e) (o' : Sim h0 c' e') : Fresh h0 (c + c') (e + e') := fresh_ufunc2 _ o o'
theorem fresh_sub (o : Sim h0 c e) (o' : Sim h0 c' e') : Fresh h0 (c - c') (e - e') := fresh_ufunc2 _ o o'
theorem fresh_mul (o : Sim h0 c e) (o' : Sim h0 c' e') : Fresh h0 (c * c') (e * e') := fresh_ufunc2 _ o o'
theorem fresh_div (o : Sim h0 c e) (o' : Sim h0 c' e') : Fresh h0 (c / c') (e / e') := fresh_ufunc2 _ o o'
theorem fresh_powq (o : Sim h0 c e) (q : ℚ) : Fresh h0 (powq c q) (powq e q) := fresh_ufunc1 _ o

end ops

section params
variable {D : Type → Type} [LawfulParams D]

theorem all_imp {α : Type} {p q : α → Prop} {d : D α} (hd : Params.All p d) (i : ∀ a, p a → q a) : Params.All q d := by
  obtain ⟨e, rfl⟩ := LawfulParams.all_lift hd
  have := LawfulParams.all_val (fmap (fun a : {a // p a} => (⟨a.1, i a.1 a.2⟩ : {a // q a})) e)
  rwa [LawfulParams.fmap_fmap] at this

theorem fmap_congr {α β : Type} {p : α → Prop} {d : D α} (hd : Params.All p d) {f g : α → β} (i : ∀ a, p a → f a = g a) :
    fmap f d = fmap g d := by
  obtain ⟨e, rfl⟩ := LawfulParams.all_lift hd
  rw [LawfulParams.fmap_fmap, LawfulParams.fmap_fmap]
  congr 1
  funext a
  exact i a.1 a.2

theorem all_inHeap {h h' : Heap} {d : D Val} (l : h.Le h') (hd : Params.All (InHeap h) d) : Params.All (InHeap h') d :=
  all_imp hd fun _ => l.inHeap

theorem fmap_read {h h' : Heap} {d : D Val} (l : h.Le h') (hd : Params.All (InHeap h) d) :
    fmap h'.read d = fmap h.read d := fmap_congr hd fun _ => l.read

end params

/-- constructors -/
class LawfulTrav (D : Type → Type) [LawfulParams D] [Trav D] : Prop where
  seq_outcome : ∀ {h0 : Heap} {P : Val → Prop} {d : D (Py Val)} {e : D (ArrExpr ℝ)},
    Params.Rel (Outcome h0 (Is P)) d e →
    Outcome h0 (fun h d e => Params.All (InHeap h) d ∧ Params.All P d ∧ fmap h.read d = e) (build d) (Trav.seq e)

instance : LawfulTrav Beta where
  seq_outcome {h0 P d e} r := by
    obtain ⟨r0, r1⟩ := r
    refine r0.bind fun v0 a0 h0 l0 q0 => (r1.mono l0).bind fun v1 a1 h1 l1 q1 => Outcome.pure fun hh ll => ?_
    replace q0 := stable P q0 l1
    replace q0 := stable P q0 ll
    replace q1 := stable P q1 ll
    refine ⟨⟨q0.1, q1.1⟩, ⟨q0.2.1, q1.2.1⟩, ?_⟩
    simp only [fmap, q0.2.2, q1.2.2]

instance : LawfulTrav Gamma where
  seq_outcome {h0 P d e} r := by
    obtain ⟨r0, r1⟩ := r
    refine r0.bind fun v0 a0 h0 l0 q0 => (r1.mono l0).bind fun v1 a1 h1 l1 q1 => Outcome.pure fun hh ll => ?_
    replace q0 := stable P q0 l1
    replace q0 := stable P q0 ll
    replace q1 := stable P q1 ll
    refine ⟨⟨q0.1, q1.1⟩, ⟨q0.2.1, q1.2.1⟩, ?_⟩
    simp only [fmap, q0.2.2, q1.2.2]

instance : LawfulTrav InverseGamma where
  seq_outcome {h0 P d e} r := by
    obtain ⟨r0, r1⟩ := r
    refine r0.bind fun v0 a0 h0 l0 q0 => (r1.mono l0).bind fun v1 a1 h1 l1 q1 => Outcome.pure fun hh ll => ?_
    replace q0 := stable P q0 l1
    replace q0 := stable P q0 ll
    replace q1 := stable P q1 ll
    refine ⟨⟨q0.1, q1.1⟩, ⟨q0.2.1, q1.2.1⟩, ?_⟩
    simp only [fmap, q0.2.2, q1.2.2]

instance : LawfulTrav Normal where
  seq_outcome {h0 P d e} r := by
    obtain ⟨r0, r1⟩ := r
    refine r0.bind fun v0 a0 h0 l0 q0 => (r1.mono l0).bind fun v1 a1 h1 l1 q1 => Outcome.pure fun hh ll => ?_
    replace q0 := stable P q0 l1
    replace q0 := stable P q0 ll
    replace q1 := stable P q1 ll
    refine ⟨⟨q0.1, q1.1⟩, ⟨q0.2.1, q1.2.1⟩, ?_⟩
    simp only [fmap, q0.2.2, q1.2.2]

instance : LawfulTrav BetaBinomial where
  seq_outcome {h0 P d e} r := by
    obtain ⟨r0, r1, r2⟩ := r
    refine r0.bind fun v0 a0 h0 l0 q0 => (r1.mono l0).bind fun v1 a1 h1 l1 q1 => ((r2.mono l0).mono l1).bind fun v2 a2 h2 l2 q2 => Outcome.pure fun hh ll => ?_
    replace q0 := stable P q0 l1
    replace q0 := stable P q0 l2
    replace q0 := stable P q0 ll
    replace q1 := stable P q1 l2
    replace q1 := stable P q1 ll
    replace q2 := stable P q2 ll
    refine ⟨⟨q0.1, q1.1, q2.1⟩, ⟨q0.2.1, q1.2.1, q2.2.1⟩, ?_⟩
    simp only [fmap, q0.2.2, q1.2.2, q2.2.2]

instance : LawfulTrav BetaNegativeBinomial where
  seq_outcome {h0 P d e} r := by
    obtain ⟨r0, r1, r2⟩ := r
    refine r0.bind fun v0 a0 h0 l0 q0 => (r1.mono l0).bind fun v1 a1 h1 l1 q1 => ((r2.mono l0).mono l1).bind fun v2 a2 h2 l2 q2 => Outcome.pure fun hh ll => ?_
    replace q0 := stable P q0 l1
    replace q0 := stable P q0 l2
    replace q0 := stable P q0 ll
    replace q1 := stable P q1 l2
    replace q1 := stable P q1 ll
    replace q2 := stable P q2 ll
    refine ⟨⟨q0.1, q1.1, q2.1⟩, ⟨q0.2.1, q1.2.1, q2.2.1⟩, ?_⟩
    simp only [fmap, q0.2.2, q1.2.2, q2.2.2]

instance : LawfulTrav BetaGeometric where
  seq_outcome {h0 P d e} r := by
    obtain ⟨r0, r1, rf⟩ := r
    refine r0.bind fun v0 a0 h0 l0 q0 => (r1.mono l0).bind fun v1 a1 h1 l1 q1 => Outcome.pure fun hh ll => ?_
    replace q0 := stable P q0 l1
    replace q0 := stable P q0 ll
    replace q1 := stable P q1 ll
    refine ⟨⟨q0.1, q1.1⟩, ⟨q0.2.1, q1.2.1⟩, ?_⟩
    simp only [fmap, q0.2.2, q1.2.2, rf]

instance : LawfulTrav NegativeBinomial where
  seq_outcome {h0 P d e} r := by
    obtain ⟨r0, r1⟩ := r
    refine r0.bind fun v0 a0 h0 l0 q0 => (r1.mono l0).bind fun v1 a1 h1 l1 q1 => Outcome.pure fun hh ll => ?_
    replace q0 := stable P q0 l1
    replace q0 := stable P q0 ll
    replace q1 := stable P q1 ll
    refine ⟨⟨q0.1, q1.1⟩, ⟨q0.2.1, q1.2.1⟩, ?_⟩
    simp only [fmap, q0.2.2, q1.2.2]

instance : LawfulTrav Lomax where
  seq_outcome {h0 P d e} r := by
    obtain ⟨r0, r1⟩ := r
    refine r0.bind fun v0 a0 h0 l0 q0 => (r1.mono l0).bind fun v1 a1 h1 l1 q1 => Outcome.pure fun hh ll => ?_
    replace q0 := stable P q0 l1
    replace q0 := stable P q0 ll
    replace q1 := stable P q1 ll
    refine ⟨⟨q0.1, q1.1⟩, ⟨q0.2.1, q1.2.1⟩, ?_⟩
    simp only [fmap, q0.2.2, q1.2.2]

instance : LawfulTrav CompoundGamma where
  seq_outcome {h0 P d e} r := by
    obtain ⟨r0, r1, r2⟩ := r
    refine r0.bind fun v0 a0 h0 l0 q0 => (r1.mono l0).bind fun v1 a1 h1 l1 q1 => ((r2.mono l0).mono l1).bind fun v2 a2 h2 l2 q2 => Outcome.pure fun hh ll => ?_
    replace q0 := stable P q0 l1
    replace q0 := stable P q0 l2
    replace q0 := stable P q0 ll
    replace q1 := stable P q1 l2
    replace q1 := stable P q1 ll
    replace q2 := stable P q2 ll
    refine ⟨⟨q0.1, q1.1, q2.1⟩, ⟨q0.2.1, q1.2.1, q2.2.1⟩, ?_⟩
    simp only [fmap, q0.2.2, q1.2.2, q2.2.2]

instance : LawfulTrav StudentT where
  seq_outcome {h0 P d e} r := by
    obtain ⟨r0, r1, r2⟩ := r
    refine r0.bind fun v0 a0 h0 l0 q0 => (r1.mono l0).bind fun v1 a1 h1 l1 q1 => ((r2.mono l0).mono l1).bind fun v2 a2 h2 l2 q2 => Outcome.pure fun hh ll => ?_
    replace q0 := stable P q0 l1
    replace q0 := stable P q0 l2
    replace q0 := stable P q0 ll
    replace q1 := stable P q1 l2
    replace q1 := stable P q1 ll
    replace q2 := stable P q2 ll
    refine ⟨⟨q0.1, q1.1, q2.1⟩, ⟨q0.2.1, q1.2.1, q2.2.1⟩, ?_⟩
    simp only [fmap, q0.2.2, q1.2.2, q2.2.2]

instance : LawfulTrav ScaledInverseChiSquared where
  seq_outcome {h0 P d e} r := by
    obtain ⟨r0, r1⟩ := r
    refine r0.bind fun v0 a0 h0 l0 q0 => (r1.mono l0).bind fun v1 a1 h1 l1 q1 => Outcome.pure fun hh ll => ?_
    replace q0 := stable P q0 l1
    replace q0 := stable P q0 ll
    replace q1 := stable P q1 ll
    refine ⟨⟨q0.1, q1.1⟩, ⟨q0.2.1, q1.2.1⟩, ?_⟩
    simp only [fmap, q0.2.2, q1.2.2]

instance : LawfulTrav NormalGamma where
  seq_outcome {h0 P d e} r := by
    obtain ⟨r0, r1, r2, r3⟩ := r
    refine r0.bind fun v0 a0 h0 l0 q0 => (r1.mono l0).bind fun v1 a1 h1 l1 q1 => ((r2.mono l0).mono l1).bind fun v2 a2 h2 l2 q2 => (((r3.mono l0).mono l1).mono l2).bind fun v3 a3 h3 l3 q3 => Outcome.pure fun hh ll => ?_
    replace q0 := stable P q0 l1
    replace q0 := stable P q0 l2
    replace q0 := stable P q0 l3
    replace q0 := stable P q0 ll
    replace q1 := stable P q1 l2
    replace q1 := stable P q1 l3
    replace q1 := stable P q1 ll
    replace q2 := stable P q2 l3
    replace q2 := stable P q2 ll
    replace q3 := stable P q3 ll
    refine ⟨⟨q0.1, q1.1, q2.1, q3.1⟩, ⟨q0.2.1, q1.2.1, q2.2.1, q3.2.1⟩, ?_⟩
    simp only [fmap, q0.2.2, q1.2.2, q2.2.2, q3.2.2]

instance : LawfulTrav Pareto where
  seq_outcome {h0 P d e} r := by
    obtain ⟨r0, r1⟩ := r
    refine r0.bind fun v0 a0 h0 l0 q0 => (r1.mono l0).bind fun v1 a1 h1 l1 q1 => Outcome.pure fun hh ll => ?_
    replace q0 := stable P q0 l1
    replace q0 := stable P q0 ll
    replace q1 := stable P q1 ll
    refine ⟨⟨q0.1, q1.1⟩, ⟨q0.2.1, q1.2.1⟩, ?_⟩
    simp only [fmap, q0.2.2, q1.2.2]

instance : LawfulTrav GammaProportional where
  seq_outcome {h0 P d e} r := by
    obtain ⟨r0, r1, r2, r3⟩ := r
    refine r0.bind fun v0 a0 h0 l0 q0 => (r1.mono l0).bind fun v1 a1 h1 l1 q1 => ((r2.mono l0).mono l1).bind fun v2 a2 h2 l2 q2 => (((r3.mono l0).mono l1).mono l2).bind fun v3 a3 h3 l3 q3 => Outcome.pure fun hh ll => ?_
    replace q0 := stable P q0 l1
    replace q0 := stable P q0 l2
    replace q0 := stable P q0 l3
    replace q0 := stable P q0 ll
    replace q1 := stable P q1 l2
    replace q1 := stable P q1 l3
    replace q1 := stable P q1 ll
    replace q2 := stable P q2 l3
    replace q2 := stable P q2 ll
    replace q3 := stable P q3 ll
    refine ⟨⟨q0.1, q1.1, q2.1, q3.1⟩, ⟨q0.2.1, q1.2.1, q2.2.1, q3.2.1⟩, ?_⟩
    simp only [fmap, q0.2.2, q1.2.2, q2.2.2, q3.2.2]

instance : LawfulTrav GammaKnownRateProportional where
  seq_outcome {h0 P d e} r := by
    obtain ⟨r0, r1, r2⟩ := r
    refine r0.bind fun v0 a0 h0 l0 q0 => (r1.mono l0).bind fun v1 a1 h1 l1 q1 => ((r2.mono l0).mono l1).bind fun v2 a2 h2 l2 q2 => Outcome.pure fun hh ll => ?_
    replace q0 := stable P q0 l1
    replace q0 := stable P q0 l2
    replace q0 := stable P q0 ll
    replace q1 := stable P q1 l2
    replace q1 := stable P q1 ll
    replace q2 := stable P q2 ll
    refine ⟨⟨q0.1, q1.1, q2.1⟩, ⟨q0.2.1, q1.2.1, q2.2.1⟩, ?_⟩
    simp only [fmap, q0.2.2, q1.2.2, q2.2.2]

instance : LawfulTrav BetaProportional where
  seq_outcome {h0 P d e} r := by
    obtain ⟨r0, r1, r2⟩ := r
    refine r0.bind fun v0 a0 h0 l0 q0 => (r1.mono l0).bind fun v1 a1 h1 l1 q1 => ((r2.mono l0).mono l1).bind fun v2 a2 h2 l2 q2 => Outcome.pure fun hh ll => ?_
    replace q0 := stable P q0 l1
    replace q0 := stable P q0 l2
    replace q0 := stable P q0 ll
    replace q1 := stable P q1 l2
    replace q1 := stable P q1 ll
    replace q2 := stable P q2 ll
    refine ⟨⟨q0.1, q1.1, q2.1⟩, ⟨q0.2.1, q1.2.1, q2.2.1⟩, ?_⟩
    simp only [fmap, q0.2.2, q1.2.2, q2.2.2]

instance : LawfulTrav VonMisesKnownConcentration where
  seq_outcome {h0 P d e} r := by
    obtain ⟨r0, r1⟩ := r
    refine r0.bind fun v0 a0 h0 l0 q0 => (r1.mono l0).bind fun v1 a1 h1 l1 q1 => Outcome.pure fun hh ll => ?_
    replace q0 := stable P q0 l1
    replace q0 := stable P q0 ll
    replace q1 := stable P q1 ll
    refine ⟨⟨q0.1, q1.1⟩, ⟨q0.2.1, q1.2.1⟩, ?_⟩
    simp only [fmap, q0.2.2, q1.2.2]

instance : LawfulTrav VonMisesKnownDirectionProportional where
  seq_outcome {h0 P d e} r := by
    obtain ⟨r0, r1⟩ := r
    refine r0.bind fun v0 a0 h0 l0 q0 => (r1.mono l0).bind fun v1 a1 h1 l1 q1 => Outcome.pure fun hh ll => ?_
    replace q0 := stable P q0 l1
    replace q0 := stable P q0 ll
    replace q1 := stable P q1 ll
    refine ⟨⟨q0.1, q1.1⟩, ⟨q0.2.1, q1.2.1⟩, ?_⟩
    simp only [fmap, q0.2.2, q1.2.2]

instance : LawfulTrav Poisson where
  seq_outcome {h0 P d e} r := by
    have r0 := r
    refine r0.bind fun v0 a0 h0 l0 q0 => Outcome.pure fun hh ll => ?_
    replace q0 := stable P q0 ll
    refine ⟨q0.1, q0.2.1, ?_⟩
    simp only [fmap, q0.2.2]

instance : LawfulTrav VariancePrior where
  seq_outcome {h0 P d e} r := by
    match d, e, r with
    | .inverseGamma d, .inverseGamma e, r =>
      exact (LawfulTrav.seq_outcome (D := InverseGamma) r).bind fun v a h1 l1 q => Outcome.pure fun h l =>
        ⟨all_inHeap l q.1, q.2.1, congrArg VariancePrior.inverseGamma ((fmap_read l q.1).trans q.2.2)⟩
    | .scaledInverseChiSquared d, .scaledInverseChiSquared e, r =>
      exact (LawfulTrav.seq_outcome (D := ScaledInverseChiSquared) r).bind fun v a h1 l1 q => Outcome.pure fun h l =>
        ⟨all_inHeap l q.1, q.2.1, congrArg VariancePrior.scaledInverseChiSquared ((fmap_read l q.1).trans q.2.2)⟩

instance {M : Type} : LawfulTrav (UnivariateNIG M) where
  seq_outcome {h0 P d e} r := by
    obtain ⟨mu, al, be, de, nu⟩ := d
    obtain ⟨mu', al', be', de', nu'⟩ := e
    obtain ⟨r0, r1, r2, r3, r4⟩ := r
    simp only at r0 r1 r2 r3 r4
    subst r4
    refine r0.bind fun v0 a0 h0 l0 q0 => (r1.mono l0).bind fun v1 a1 h1 l1 q1 => ((r2.mono l0).mono l1).bind
      fun v2 a2 h2 l2 q2 => ?_
    replace q0 := stable P (stable P q0 l1) l2
    replace q1 := stable P q1 l2
    cases r3 with
    | none =>
      refine Outcome.pure fun hh ll => ?_
      replace q0 := stable P q0 ll
      replace q1 := stable P q1 ll
      replace q2 := stable P q2 ll
      refine ⟨⟨q0.1, q1.1, q2.1, by simp⟩, ⟨q0.2.1, q1.2.1, q2.2.1, by simp⟩, ?_⟩
      simp only [fmap, q0.2.2, q1.2.2, q2.2.2, Option.map_none]
    | some r3 =>
      refine (((r3.mono l0).mono l1).mono l2).bind fun v3 a3 h3 l3 q3 => Outcome.pure fun hh ll => ?_
      replace q0 := stable P (stable P q0 l3) ll
      replace q1 := stable P (stable P q1 l3) ll
      replace q2 := stable P (stable P q2 l3) ll
      replace q3 := stable P q3 ll
      refine ⟨⟨q0.1, q1.1, q2.1, by simp [q3.1]⟩, ⟨q0.2.1, q1.2.1, q2.2.1, by simp [q3.2.1]⟩, ?_⟩
      simp only [fmap, q0.2.2, q1.2.2, q2.2.2, q3.2.2, Option.map_some]

theorem nig_outcome {M : Type} {h0 : Heap} {P : Val → Prop} {d : UnivariateNIG M (Py Val)}
    {e : UnivariateNIG M (ArrExpr ℝ)} (r : Params.Rel (Outcome h0 (Is P)) d e) :
    Outcome h0 (fun h (d : UnivariateNormalPrior M Val) e => Params.All (InHeap h) d ∧ Params.All P d ∧ fmap h.read d = e)
      (build (D := UnivariateNormalPrior M) (.nig d)) (Trav.seq (D := UnivariateNormalPrior M) (.nig e)) := by
  have o := LawfulTrav.seq_outcome (D := UnivariateNIG M) r
  refine Outcome.bind (B' := UnivariateNormalPrior M Val) (C' := UnivariateNormalPrior M (NdArr ℝ))
    (c := build (D := UnivariateNIG M) d) (e := Trav.seq (D := UnivariateNIG M) e)
    (k := fun v => Pure.pure (NormalPrior.nig v)) (k' := fun x => Pure.pure (NormalPrior.nig x)) o ?_
  intro v a h1 l1 q
  refine Outcome.pure (b := (NormalPrior.nig v : UnivariateNormalPrior M Val))
    (x := (NormalPrior.nig a : UnivariateNormalPrior M (NdArr ℝ))) ?_
  intro h l
  exact ⟨all_inHeap (D := UnivariateNIG M) l q.1, q.2.1,
    congrArg NormalPrior.nig ((fmap_read (D := UnivariateNIG M) l q.1).trans q.2.2)⟩

theorem ng_outcome {M : Type} {h0 : Heap} {P : Val → Prop} {d : NormalGamma (Py Val)}
    {e : NormalGamma (ArrExpr ℝ)} (r : Params.Rel (Outcome h0 (Is P)) d e) :
    Outcome h0 (fun h (d : UnivariateNormalPrior M Val) e => Params.All (InHeap h) d ∧ Params.All P d ∧ fmap h.read d = e)
      (build (D := UnivariateNormalPrior M) (.ng d)) (Trav.seq (D := UnivariateNormalPrior M) (.ng e)) := by
  have o := LawfulTrav.seq_outcome (D := NormalGamma) r
  refine Outcome.bind (B' := UnivariateNormalPrior M Val) (C' := UnivariateNormalPrior M (NdArr ℝ))
    (c := build d) (e := Trav.seq e)
    (k := fun v => Pure.pure (NormalPrior.ng v)) (k' := fun x => Pure.pure (NormalPrior.ng x)) o ?_
  intro v a h1 l1 q
  refine Outcome.pure (b := (NormalPrior.ng v : UnivariateNormalPrior M Val))
    (x := (NormalPrior.ng a : UnivariateNormalPrior M (NdArr ℝ))) ?_
  intro h l
  exact ⟨all_inHeap l q.1, q.2.1, congrArg NormalPrior.ng ((fmap_read l q.1).trans q.2.2)⟩

instance {M : Type} : LawfulTrav (UnivariateNormalPrior M) where
  seq_outcome {h0 P d e} r := by
    cases d with
    | nig d =>
      cases e with
      | nig e => exact nig_outcome r
      | ng e => exact r.elim
    | ng d =>
      cases e with
      | nig e => exact r.elim
      | ng e => exact ng_outcome r

theorem read_after {ws : List Write} : ∀ {h : Heap} {v : Val}, (∀ w ∈ ws, v ≠ .ref w.addr) →
    (after h ws).read v = h.read v := by
  induction ws with
  | nil => exact fun _ => rfl
  | cons w ws ih =>
    intro h v hw
    refine (ih fun x hx => hw x (List.mem_cons_of_mem _ hx)).trans ?_
    cases v with
    | num x => rfl
    | ref a =>
      refine Function.update_of_ne (fun e => hw w List.mem_cons_self (congrArg Val.ref e)) _ _

section calls
variable {D : Type → Type} [LawfulParams D] {h : Heap}

theorem Outcome.harmless {P : Val → Prop} {c : Py (D Val)} {e : Except PyErr (D (NdArr ℝ))}
    (o : Outcome h (fun h d e => Params.All (InHeap h) d ∧ Params.All P d ∧ fmap h.read d = e) c e) :
    Harmless h c e := by
  have := o h (.refl h)
  unfold Harmless
  revert this
  cases c h <;> cases e <;> simp only [imp_self]
  exact fun t => ⟨t.2.1, t.2.2.2, fun v hv => ⟨t.1.inHeap hv, t.1.read hv⟩⟩

theorem Outcome.sharesNothing {c : Py (D Val)} {e : Except PyErr (D (NdArr ℝ))}
    (o : Outcome h (fun h' d e => Params.All (InHeap h') d ∧ Params.All (New h) d ∧ fmap h'.read d = e) c e) :
    SharesNothing h c := by
  intro d h' hc
  have t := o h (.refl h)
  rw [hc] at t
  cases e with
  | error x => exact t.elim
  | ok e =>
    obtain ⟨l, -, nw, -⟩ := t
    constructor
    · intro ws hw
      refine fmap_congr nw fun v hv => read_after fun w hm e => ?_
      subst e
      exact absurd (hw w hm) (not_lt.2 hv)
    · intro ws hw v hv
      refine (read_after fun w hm e => ?_).trans (l.read hv)
      subst e
      refine hw w hm (all_imp nw fun u hu e => ?_)
      subst e
      exact absurd hv (not_lt.2 hu)

variable [Trav D] [LawfulTrav D]

theorem harmless_of_rel {d : D (Py Val)} {e : D (ArrExpr ℝ)} (r : Params.Rel (Sim h) d e) :
    Harmless h (build d) (Trav.seq e) := (LawfulTrav.seq_outcome r).harmless

theorem independent_of_rel {d : D (Py Val)} {e : D (ArrExpr ℝ)} (r : Params.Rel (Fresh h) d e) :
    Independent h (build d) (Trav.seq e) :=
  ⟨(LawfulTrav.seq_outcome r).harmless, (LawfulTrav.seq_outcome r).sharesNothing⟩

end calls

theorem fresh_np1 {h0 : Heap} (f : ℝ → ℝ) {c : Py Val} {e : ArrExpr ℝ} (o : Sim h0 c e) :
    Fresh h0 (ufunc1 f c) (np1 f e) := fresh_ufunc1 f o

theorem fresh_np2 {h0 : Heap} (f : ℝ → ℝ → ℝ) {c c' : Py Val} {e e' : ArrExpr ℝ} (o : Sim h0 c e) (o' : Sim h0 c' e') :
    Fresh h0 (ufunc2 f c c') (np2 f e e') := fresh_ufunc2 f o o'

/-- contents of an expression -/
syntax "mem_sim" : tactic
macro_rules | `(tactic| mem_sim) => `(tactic| first
  | assumption
  | exact sim_arg ‹_›
  | exact (fresh_lit _ _).sim
  | (with_reducible refine (fresh_add ?_ ?_).sim) <;> mem_sim
  | (with_reducible refine (fresh_sub ?_ ?_).sim) <;> mem_sim
  | (with_reducible refine (fresh_mul ?_ ?_).sim) <;> mem_sim
  | (with_reducible refine (fresh_div ?_ ?_).sim) <;> mem_sim
  | (with_reducible refine (fresh_powq ?_ _).sim) <;> mem_sim
  | (with_reducible refine (fresh_np1 _ ?_).sim) <;> mem_sim
  | (with_reducible refine (fresh_np2 _ ?_ ?_).sim) <;> mem_sim)

/-- and the result is new -/
syntax "mem_fresh" : tactic
macro_rules | `(tactic| mem_fresh) => `(tactic| first
  | exact fresh_lit _ _
  | (with_reducible refine fresh_add ?_ ?_) <;> mem_sim
  | (with_reducible refine fresh_sub ?_ ?_) <;> mem_sim
  | (with_reducible refine fresh_mul ?_ ?_) <;> mem_sim
  | (with_reducible refine fresh_div ?_ ?_) <;> mem_sim
  | (with_reducible refine fresh_powq ?_ _) <;> mem_sim
  | (with_reducible refine fresh_np1 _ ?_) <;> mem_sim
  | (with_reducible refine fresh_np2 _ ?_ ?_) <;> mem_sim)

end Conj
