import Verif.Memory

/-!
# Specification: independent objects
-/

namespace Conj.Spec

/-- the array exists -/
def InHeap (h : Heap) : Val → Prop
  | .num _ => True
  | .ref a => a < h.next

/-- an in-place change: the array at `addr` gets the contents `new` -/
structure Write where
  addr : ℕ
  new : NdArr ℝ

/-- the memory after in-place changes, in order -/
def after (h : Heap) : List Write → Heap
  | [] => h
  | w :: ws => after { h with cells := Function.update h.cells w.addr w.new } ws

/-- one of the parameters of `d` is the array at `addr` -/
def HoldsArray {D : Type → Type} [Params D] (d : D Val) (addr : ℕ) : Prop := ¬ Params.All (· ≠ .ref addr) d

/-- The call gives the expected parameters (or raises the expected exception) and changes nothing that existed. -/
def Harmless {D : Type → Type} [Params D] (h : Heap) (call : Py (D Val)) (expected : Except PyErr (D (NdArr ℝ))) : Prop :=
  match call h, expected with
  | .ok (d, h'), .ok e =>
    Params.All (InHeap h') d ∧ fmap h'.read d = e ∧ ∀ v, InHeap h v → InHeap h' v ∧ h'.read v = h.read v
  | .error x, .error y => x = y
  | _, _ => False

/-- Nothing is shared: no later in-place changes of arrays that existed before the call change the parameters of the
object; no later in-place changes of its parameters change anything that existed. -/
def SharesNothing {D : Type → Type} [Params D] (h : Heap) (call : Py (D Val)) : Prop :=
  ∀ d h', call h = .ok (d, h') →
    (∀ ws : List Write, (∀ w ∈ ws, w.addr < h.next) → fmap (after h' ws).read d = fmap h'.read d) ∧
    ∀ ws : List Write, (∀ w ∈ ws, HoldsArray d w.addr) → ∀ v, InHeap h v → (after h' ws).read v = h.read v

/-- both -/
def Independent {D : Type → Type} [Params D] (h : Heap) (call : Py (D Val)) (expected : Except PyErr (D (NdArr ℝ))) :
    Prop :=
  Harmless h call expected ∧ SharesNothing h call

/-- the posteriors after each batch, in order -/
def posteriors {m : Type → Type} [Monad m] {B D : Type} (update : B → D → m D) : List B → D → m (List D)
  | [], _ => pure []
  | b :: bs, prior => do
    let post ← update b prior
    let rest ← posteriors update bs post
    return post :: rest

/-- The whole history of posteriors is kept: at the end every posterior has its expected parameters, everything that
existed at the start is unchanged and shared with no posterior, and no two posteriors share an array. -/
def HistoryKept {D : Type → Type} [Params D] (h : Heap) (run : Py (List (D Val)))
    (expected : Except PyErr (List (D (NdArr ℝ)))) : Prop :=
  match run h, expected with
  | .ok (ds, h'), .ok es =>
    ds.map (fmap h'.read) = es ∧
    (∀ v, InHeap h v → h'.read v = h.read v) ∧
    (∀ d ∈ ds, ∀ a, HoldsArray d a → h.next ≤ a) ∧
    ds.Pairwise fun d d' => ∀ a, HoldsArray d a → ¬ HoldsArray d' a
  | .error x, .error y => x = y
  | _, _ => False

/-- the contents of an argument -/
def arr (h : Heap) (v : Val) : ArrExpr ℝ := .ok (h.read v)

/-- the contents of the parameters -/
def contents {D : Type → Type} [Params D] (h : Heap) (d : D Val) : D (ArrExpr ℝ) := fmap (arr h) d

/-- the object with these parameters, or the first exception their computation raises -/
def object {D : Type → Type} [Trav D] (d : D (ArrExpr ℝ)) : Except PyErr (D (NdArr ℝ)) := Trav.seq (m := Except PyErr) d

/-- arrays as expressions -/
def exprs {D : Type → Type} [Params D] (d : D (NdArr ℝ)) : D (ArrExpr ℝ) := fmap (fun a => .ok a) d

/-- if `w` is an array, changing it in place changes `v` -/
def Tied (h : Heap) (v w : Val) : Prop := ∀ a, w = .ref a → ∀ new, (after h [⟨a, new⟩]).read v = new

/-- the parameters as arguments -/
def args {D : Type → Type} [Params D] (d : D Val) : D (Py Val) := fmap Val.arg d

/-- a numpy ufunc on arrays -/
def np1 (f : ℝ → ℝ) (a : ArrExpr ℝ) : ArrExpr ℝ := a.map (NdArr.map f)

/-- a numpy ufunc of two arguments on arrays -/
def np2 (f : ℝ → ℝ → ℝ) (a b : ArrExpr ℝ) : ArrExpr ℝ :=
  Except.bind a fun x => Except.bind b fun y => NdArr.op f x y

end Conj.Spec
