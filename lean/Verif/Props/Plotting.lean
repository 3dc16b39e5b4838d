import Verif.Plot
import Verif.DistMap
import Mathlib.Algebra.Order.Floor.Semiring
import Mathlib.Algebra.Order.ToIntervalMod
import Mathlib.Data.List.GetD
import Mathlib.Tactic.FieldSimp

/-!
# C60 - C65, C79: plot bounds, grids, labels, conditional tables, ticks
-/

namespace Conj

/-! ## C60: the bounds are a state machine -/

namespace Spec

variable {α : Type}

/-- the maximum a call sets, if it sets one -/
def setsMax : PlotCall α → Option α
  | .setMax v => some v
  | .setBounds _ u => some u
  | _ => none

/-- the minimum a call sets, if it sets one -/
def setsMin : PlotCall α → Option α
  | .setMin v => some v
  | .setBounds l _ => some l
  | _ => none

/-- the last value set in a history -/
def lastSet (f : PlotCall α → Option α) (calls : List (PlotCall α)) : Option α :=
  (calls.filterMap f).getLast?

end Spec

open Spec

section
variable {α : Type} [PyNum α]

/-- `max_value` after any history: the last maximum set; before that the constructor's, and a
`ValueError` when there is none. -/
theorem C60_max_value (s : PlotState α) (calls : List (PlotCall α)) :
    (s.run calls).maxValue =
      match (lastSet setsMax calls).or s.max with
      | none => .error (.valueError "Set the max value before plotting.")
      | some v => .ok v := by
  have h : (s.run calls).max = (lastSet setsMax calls).or s.max := by
    induction calls using List.reverseRecOn with
    | nil => simp [PlotState.run, lastSet]
    | append_singleton calls c ih =>
      simp only [PlotState.run, List.foldl_append, List.foldl_cons, List.foldl_nil] at ih ⊢
      cases c with
      | setMax v => simp [PlotCall.step, PlotState.setMaxValue, lastSet, setsMax]
      | setBounds l u =>
        simp [PlotCall.step, PlotState.setBounds, PlotState.setMaxValue, lastSet, setsMax]
      | setMin v =>
        simpa [PlotCall.step, PlotState.setMinValue, lastSet, setsMax] using ih
      | getMax => simpa [PlotCall.step, lastSet, setsMax] using ih
      | getMin =>
        have : (PlotState.minValue (List.foldl PlotCall.step s calls)).2.max =
            (List.foldl PlotCall.step s calls).max := by
          unfold PlotState.minValue; split <;> rfl
        simpa [PlotCall.step, lastSet, setsMax, this] using ih
  simp only [PlotState.maxValue, h]
  cases (lastSet setsMax calls).or s.max <;> rfl

/-- `min_value` after any history (reads included): the last minimum set, else the constructor's,
else `0`. -/
theorem C60_min_value (s : PlotState α) (calls : List (PlotCall α)) :
    (s.run calls).minValue.1 = ((lastSet setsMin calls).or s.min).getD (lit 0) := by
  have h : (s.run calls).min = (lastSet setsMin calls).or s.min ∨
      ((lastSet setsMin calls).or s.min = none ∧ (s.run calls).min = some (lit 0)) := by
    induction calls using List.reverseRecOn with
    | nil => simp [PlotState.run, lastSet]
    | append_singleton calls c ih =>
      simp only [PlotState.run, List.foldl_append, List.foldl_cons, List.foldl_nil] at ih ⊢
      cases c with
      | setMin v => simp [PlotCall.step, PlotState.setMinValue, lastSet, setsMin]
      | setBounds l u =>
        simp [PlotCall.step, PlotState.setBounds, PlotState.setMinValue, PlotState.setMaxValue,
          lastSet, setsMin]
      | setMax v =>
        simpa [PlotCall.step, PlotState.setMaxValue, lastSet, setsMin] using ih
      | getMax => simpa [PlotCall.step, lastSet, setsMin] using ih
      | getMin =>
        simp only [PlotCall.step, lastSet, setsMin, List.filterMap_append, List.filterMap_cons,
          List.filterMap_nil, List.append_nil] at ih ⊢
        unfold PlotState.minValue
        split
        next hm =>
          rw [hm] at ih
          rcases ih with ih | ⟨_, ih⟩
          · exact Or.inr ⟨ih.symm, rfl⟩
          · cases ih
        next v hm => exact ih
  unfold PlotState.minValue
  rcases h with h | ⟨h1, h2⟩
  · rw [h]
    cases (lastSet setsMin calls).or s.min <;> rfl
  · rw [h1, h2]
    rfl

/-- A plot of an instance without a maximum raises before anything is drawn, whatever was called. -/
theorem C60_plot_needs_max (grid : ℝ → ℝ → List ℝ) (s : PlotState ℝ) (calls : List (PlotCall ℝ)) :
    (s.run calls).xValues grid =
      match (lastSet setsMax calls).or s.max with
      | none => .error (.valueError "Set the max value before plotting.")
      | some hi => .ok (grid (((lastSet setsMin calls).or s.min).getD 0) hi) := by
  have h1 := C60_max_value s calls
  have h2 := C60_min_value s calls
  have hm : (s.run calls).minValue.2.maxValue = (s.run calls).maxValue := by
    unfold PlotState.minValue; split <;> rfl
  simp only [PlotState.xValues, hm, h1, h2, lit_real, Rat.cast_zero]
  cases (lastSet setsMax calls).or s.max <;> rfl

/-- a history in which the last of several setters wins and reads do not interfere -/
example : ((noPostInit.run [.setMax 3, .getMin, .setBounds 1 5, .getMax, .setMin 2, .getMin]).maxValue,
    (noPostInit.run [.setMax 3, .getMin, .setBounds 1 5, .getMax, .setMin 2, .getMin]).minValue.1) =
    ((.ok 5 : Except PyErr ℝ), (2 : ℝ)) := by
  rw [C60_max_value, C60_min_value]
  rfl

example : (noPostInit.run [.setMin 2, .getMin]).maxValue =
    (.error (.valueError "Set the max value before plotting.") : Except PyErr ℝ) := by
  rw [C60_max_value]
  rfl
end

/-! ## C61 -/

/-- 100 points, point `i` being `min + i * (max - min) / 99`; the first is the minimum and the last
the maximum. -/
theorem C61_continuous_grid (lo hi : ℝ) :
    (continuousXValues lo hi).length = 100 ∧
    (∀ i : ℕ, i < 100 → (continuousXValues lo hi)[i]? = some (lo + i * ((hi - lo) / 99))) ∧
    (continuousXValues lo hi).head? = some lo ∧ (continuousXValues lo hi).getLast? = some hi := by
  have h : ∀ i : ℕ, i < 100 → (continuousXValues lo hi)[i]? = some (lo + i * ((hi - lo) / 99)) := by
    intro i hi'
    simp only [continuousXValues, linspace, List.getElem?_map, List.getElem?_range hi',
      Option.map_some, Option.some.injEq]
    split_ifs with h
    · have : i = 99 := by omega
      subst this
      push_cast
      ring
    · push_cast
      ring
  have hl : (continuousXValues lo hi).length = 100 := by simp [continuousXValues, linspace]
  refine ⟨hl, h, ?_, ?_⟩
  · rw [List.head?_eq_getElem?, h 0 (by norm_num)]
    simp
  · rw [List.getLast?_eq_getElem?, hl, h 99 (by norm_num)]
    congr 1
    push_cast
    ring

/-- every point lies between the bounds -/
theorem C61_continuous_grid_inside (lo hi : ℝ) (h : lo ≤ hi) (x : ℝ) (hx : x ∈ continuousXValues lo hi) :
    lo ≤ x ∧ x ≤ hi := by
  obtain ⟨i, hi', rfl⟩ := List.mem_iff_getElem.1 hx
  have hl := (C61_continuous_grid lo hi).1
  have h2 := (C61_continuous_grid lo hi).2.1 i (by omega)
  rw [List.getElem?_eq_getElem hi', Option.some.injEq] at h2
  rw [h2]
  have hi99 : (i : ℝ) ≤ 99 := by
    have : i ≤ 99 := by omega
    exact_mod_cast this
  have h0 : (0 : ℝ) ≤ i := Nat.cast_nonneg i
  constructor
  · have : 0 ≤ (i : ℝ) * ((hi - lo) / 99) := mul_nonneg h0 (by linarith)
    linarith
  · have : (i : ℝ) * ((hi - lo) / 99) ≤ 99 * ((hi - lo) / 99) :=
      mul_le_mul_of_nonneg_right hi99 (by linarith)
    linarith

/-! ## C62 -/

theorem mem_discrete (lo hi x : ℝ) :
    x ∈ discreteXValues lo hi ↔ ∃ i : ℕ, x = lo + i ∧ x < hi + 1 := by
  simp only [discreteXValues, arange, List.mem_map, List.mem_range, Nat.lt_ceil]
  constructor
  · rintro ⟨i, hi', rfl⟩
    exact ⟨i, rfl, by linarith⟩
  · rintro ⟨i, rfl, hx⟩
    exact ⟨i, by linarith, rfl⟩

/-- No point of `min, min + 1, ..., max` is missed, for any bounds. -/
theorem C62_discrete_grid_complete (lo hi : ℝ) (i : ℕ) (h : lo + i ≤ hi) :
    lo + i ∈ discreteXValues lo hi :=
  (mem_discrete lo hi _).2 ⟨i, rfl, by linarith⟩

/-- When the bounds differ by an integer (in particular for integer bounds) the grid is exactly
`min, min + 1, ..., max`.  Missing for C62: bounds whose difference is not an integer. -/
theorem C62_discrete_grid_partial (lo hi : ℝ) (k : ℕ) (h : hi - lo = k) :
    discreteXValues lo hi = (List.range (k + 1)).map (fun i : ℕ => lo + i) ∧
    ∀ x, x ∈ discreteXValues lo hi ↔ ∃ i : ℕ, x = lo + i ∧ x ≤ hi := by
  constructor
  · have : hi + 1 - lo = ((k + 1 : ℕ) : ℝ) := by push_cast; linarith
    rw [discreteXValues, arange, this, Nat.ceil_natCast]
  · intro x
    rw [mem_discrete]
    refine exists_congr fun i => and_congr_right fun hx => ?_
    subst hx
    constructor
    · intro h'
      have h1 : (i : ℝ) < ((k + 1 : ℕ) : ℝ) := by push_cast; linarith
      have h2 : i ≤ k := by
        have : i < k + 1 := by exact_mod_cast h1
        omega
      have h3 : (i : ℝ) ≤ k := by exact_mod_cast h2
      linarith
    · intro h'
      linarith

/-- The grid stays inside the bounds exactly when they differ by an integer (or the grid is
empty): for other bounds the last point lies above the maximum. -/
theorem C62_discrete_grid_overshoots_iff (lo hi : ℝ) :
    (∀ x ∈ discreteXValues lo hi, x ≤ hi) ↔ (∃ k : ℤ, hi - lo = k) ∨ hi + 1 ≤ lo := by
  constructor
  · intro h
    by_cases hle : hi + 1 ≤ lo
    · exact Or.inr hle
    left
    push Not at hle
    have hpos : 0 < ⌈hi + 1 - lo⌉₊ := Nat.ceil_pos.2 (by linarith)
    set n := ⌈hi + 1 - lo⌉₊ with hn
    have hc1 : hi + 1 - lo ≤ n := Nat.le_ceil _
    have hlt : ((n - 1 : ℕ) : ℝ) < hi + 1 - lo := by
      have : n - 1 < ⌈hi + 1 - lo⌉₊ := by omega
      exact Nat.lt_ceil.1 this
    have hmem := h (lo + (n - 1 : ℕ)) ((mem_discrete _ _ _).2 ⟨n - 1, rfl, by linarith⟩)
    have hcast : ((n - 1 : ℕ) : ℝ) = n - 1 := by
      rw [Nat.cast_sub (by omega)]; simp
    refine ⟨(n : ℤ) - 1, ?_⟩
    push_cast
    rw [hcast] at hmem
    linarith
  · rintro (⟨k, hk⟩ | hle) x hx
    · obtain ⟨i, rfl, hx⟩ := (mem_discrete _ _ _).1 hx
      have h1 : ((i : ℤ) : ℝ) < ((k + 1 : ℤ) : ℝ) := by push_cast; linarith
      have h2 : (i : ℤ) ≤ k := by
        have : (i : ℤ) < k + 1 := by exact_mod_cast h1
        omega
      have h3 : ((i : ℤ) : ℝ) ≤ (k : ℝ) := by exact_mod_cast h2
      push_cast at h3
      linarith
    · obtain ⟨i, rfl, hx⟩ := (mem_discrete _ _ _).1 hx
      have : (0 : ℝ) ≤ i := Nat.cast_nonneg i
      linarith

/-- With bounds 0 and 3.5 the pmf is evaluated at 4, outside the bounds. -/
theorem C62_discrete_grid_outside_bounds : (4 : ℝ) ∈ discreteXValues 0 3.5 ∧ ¬ (4 : ℝ) ≤ 3.5 := by
  refine ⟨(mem_discrete _ _ _).2 ⟨4, by norm_num, by norm_num⟩, by norm_num⟩

example : discreteXValues 0 3 = [0, 1, 2, 3] := by
  rw [(C62_discrete_grid_partial 0 3 3 (by norm_num)).1]
  simp [List.range_succ]

/-! ## C63 -/

/-- A table with one axis, or with a single column: the label is passed on unchanged. -/
theorem C63_label_single_line (label : Label) (N : ℕ) :
    resolveLabel label [N] = .ok (.single label) ∧ resolveLabel label [1, N] = .ok (.single label) := by
  constructor <;> rfl

/-- A table with `k ≠ 1` columns: `None` for every line; `name 1`, ..., `name k`; `f 0`, ...,
`f (k-1)`; the iterable itself; anything else raises `ValueError`. -/
theorem C63_label_per_line (N k : ℕ) (hk : k ≠ 1) :
    resolveLabel .none [k, N] = .ok (.perLine (List.replicate k none)) ∧
    (∀ s, ∃ l, resolveLabel (.str s) [k, N] = .ok (.perLine l) ∧ l.length = k ∧
      ∀ i, i < k → l[i]? = some (some (s ++ " " ++ toString (i + 1)))) ∧
    (∀ f, ∃ l, resolveLabel (.fn f) [k, N] = .ok (.perLine l) ∧ l.length = k ∧
      ∀ i, i < k → l[i]? = some (some (f i))) ∧
    (∀ l, resolveLabel (.iter l) [k, N] = .ok (.perLine (l.map some))) ∧
    resolveLabel .other [k, N] =
      .error (.valueError "Label must be None, a string, iterable, or callable.") := by
  have key : ∀ label, resolveLabel label [k, N] = (labelToIterable label k).map .perLine := by
    intro label
    simp [resolveLabel, hk]
  refine ⟨by rw [key]; rfl, fun s => ?_, fun f => ?_, fun l => by rw [key]; rfl, by rw [key]; rfl⟩
  · refine ⟨_, by rw [key]; rfl, by simp, fun i hi => ?_⟩
    simp [hi, Nat.add_comm]
  · refine ⟨_, by rw [key]; rfl, by simp, fun i hi => ?_⟩
    simp [hi]

/-- One line per parameter set: floats give a single line on `N` points; if some field is not a
Python float (an `int`, a flag, an array) but all are scalar, the table has one column; with vectors of
length `k` (and scalars) it has `k` columns. -/
theorem C63_lines_of_parameters (fields : List FieldInfo) (N : ℕ) :
    ((∀ f ∈ fields, f.isFloat = true ∧ f.rshape = []) → yShape fields N = some [N]) ∧
    ((∃ f ∈ fields, f.isFloat = false) → (∀ f ∈ fields, f.rshape = []) → yShape fields N = some [1, N]) ∧
    ∀ k, (∃ f ∈ fields, f.isFloat = false ∧ f.rshape = [k]) → (∀ f ∈ fields, f.rshape = [] ∨ f.rshape = [k]) →
      yShape fields N = some [k, N] := by
  have hx : ∀ b, fields.any (fun f => !f.isFloat) = b → reshapedX fields N = if b then [1, N] else [N] := by
    intro b hb; simp only [reshapedX, hb]
  have hnil : ∀ (s : List ℕ) (l : List FieldInfo), (∀ f ∈ l, f.rshape = []) →
      l.foldl (fun acc f => acc.bind (fun s => NdArr.bcast s f.rshape)) (some s) = some s := by
    intro s l
    induction l with
    | nil => intro _; rfl
    | cons f l ih =>
      intro h
      have e : NdArr.bcast s f.rshape = some s := by
        rw [h f (by simp)]; cases s <;> rfl
      simp only [List.foldl_cons, Option.bind_some, e]
      exact ih fun g hg => h g (by simp [hg])
  refine ⟨fun h => ?_, fun ⟨f, hf, hff⟩ h => ?_, fun k ⟨f, hf, hff, hfk⟩ h => ?_⟩
  · have hb : fields.any (fun f => !f.isFloat) = false := by
      simp only [List.any_eq_false]; intro f hf; simp [(h f hf).1]
    rw [yShape, hx _ hb]
    exact hnil _ _ fun f hf => (h f hf).2
  · have hb : fields.any (fun f => !f.isFloat) = true := List.any_eq_true.2 ⟨f, hf, by simp [hff]⟩
    rw [yShape, hx _ hb]
    exact hnil _ _ h
  · have hb : fields.any (fun f => !f.isFloat) = true := List.any_eq_true.2 ⟨f, hf, by simp [hff]⟩
    rw [yShape, hx _ hb]
    have hstay : ∀ l : List FieldInfo, (∀ f ∈ l, f.rshape = [] ∨ f.rshape = [k]) →
        l.foldl (fun acc f => acc.bind (fun s => NdArr.bcast s f.rshape)) (some [k, N]) = some [k, N] := by
      intro l
      induction l with
      | nil => intro _; rfl
      | cons g l ih =>
        intro h
        have e : NdArr.bcast [k, N] g.rshape = some [k, N] := by
          rcases h g (by simp) with h | h <;> rw [h] <;> simp [NdArr.bcast, NdArr.bdim]
        simp only [List.foldl_cons, Option.bind_some, e]
        exact ih fun g hg => h g (by simp [hg])
    have hgo : ∀ l : List FieldInfo, (∀ f ∈ l, f.rshape = [] ∨ f.rshape = [k]) →
        (∃ f ∈ l, f.rshape = [k]) →
        l.foldl (fun acc f => acc.bind (fun s => NdArr.bcast s f.rshape)) (some [1, N]) = some [k, N] := by
      intro l
      induction l with
      | nil => rintro _ ⟨f, hf, _⟩; simp at hf
      | cons g l ih =>
        rintro h ⟨f, hf, hfk⟩
        simp only [List.foldl_cons, Option.bind_some]
        rcases h g (by simp) with hg | hg
        · have e : NdArr.bcast [1, N] g.rshape = some [1, N] := by rw [hg]; rfl
          rw [e]
          refine ih (fun g hg => h g (by simp [hg])) ?_
          rcases List.mem_cons.1 hf with rfl | hf
          · rw [hg] at hfk; simp at hfk
          · exact ⟨f, hf, hfk⟩
        · have e : NdArr.bcast [1, N] g.rshape = some [k, N] := by
            rw [hg]
            by_cases hk : k = 1
            · subst hk; simp [NdArr.bcast, NdArr.bdim]
            · have : (1 : ℕ) ≠ k := fun h => hk h.symm
              simp [NdArr.bcast, NdArr.bdim, this]
          rw [e]
          exact hstay l fun g hg => h g (by simp [hg])
    exact hgo fields h ⟨f, hf, hfk⟩

theorem zipLongest_eq {γ δ : Type} (l : List γ) (m : List δ) (h : l.length = m.length) :
    zipLongest l m = (l.zip m).map (fun p => (some p.1, some p.2)) := by
  induction l generalizing m with
  | nil => cases m <;> simp_all [zipLongest]
  | cons a l ih => cases m with
    | nil => simp at h
    | cons b m => simp [zipLongest, ih m (by simpa using h)]

/-- `Dirichlet.plot_pdf`: one line per category, labelled `None`, `name 1, name 2, ...` or
`f 0, f 1, ...`. -/
theorem C63_dirichlet_lines {Col : Type} (cols : List Col) (label : Label)
    (hl : ∀ l, label ≠ .iter l) (ho : label ≠ .other) :
    dirichletLines cols label = .ok (cols.mapIdx (fun i c => (c, match label with
      | .str s => some (s ++ " " ++ toString (i + 1))
      | .fn f => some (f i)
      | _ => none))) := by
  have key : ∀ labels : List (Option String), labels.length = cols.length →
      ((zipLongest cols labels).mapM (fun p => match p.1 with
        | none => (.error .typeError : Except PyErr (Col × Option String))
        | some c => .ok (c, p.2.join))) = .ok (cols.zip labels) := by
    intro labels hlen
    rw [zipLongest_eq _ _ hlen.symm]
    generalize cols.zip labels = z
    induction z with
    | nil => rfl
    | cons a z ih =>
      simp only [List.map_cons, List.mapM_cons, ih, Option.join_some]
      rfl
  cases label with
  | iter l => exact absurd rfl (hl l)
  | other => exact absurd rfl ho
  | none =>
    simp only [dirichletLines, labelToIterable]
    refine (key _ (by simp)).trans ?_
    congr 1
    apply List.ext_getElem?
    intro i
    by_cases hi : i < cols.length
    · simp [hi, List.zip]
    · simp [hi, List.zip]
  | str s =>
    simp only [dirichletLines, labelToIterable]
    refine (key _ (by simp)).trans ?_
    congr 1
    apply List.ext_getElem?
    intro i
    by_cases hi : i < cols.length
    · simp [hi, List.zip, Nat.add_comm]
    · simp [hi, List.zip]
  | fn f =>
    simp only [dirichletLines, labelToIterable]
    refine (key _ (by simp)).trans ?_
    congr 1
    apply List.ext_getElem?
    intro i
    by_cases hi : i < cols.length
    · simp [hi, List.zip]
    · simp [hi, List.zip]

/-- Too few labels in an iterable leave lines unlabelled; too many raise. -/
theorem C63_dirichlet_iterable :
    dirichletLines [0, 1, 2] (.iter ["a", "b"]) = .ok [(0, some "a"), (1, some "b"), (2, none)] ∧
    dirichletLines [0, 1] (.iter ["a", "b", "c"]) = .error .typeError := ⟨rfl, rfl⟩

example : resolveLabel (.str "arm") [3, 100] =
    .ok (.perLine [some "arm 1", some "arm 2", some "arm 3"]) := rfl

/-! ## C65 -/

theorem map_some_filterMap {γ δ : Type} (f : γ → Option δ) (l : List γ) (h : ∀ a ∈ l, (f a).isSome) :
    (l.filterMap f).map some = l.map f := by
  induction l with
  | nil => rfl
  | cons a l ih =>
    obtain ⟨b, hb⟩ := Option.isSome_iff_exists.1 (h a (by simp))
    simp only [List.filterMap_cons, hb, List.map_cons]
    rw [ih fun a ha => h a (by simp [ha])]

theorem everyFifth_getElem? {γ : Type} (x : List γ) (i : ℕ) : (everyFifth x)[i]? = x[5 * i]? := by
  have h : (everyFifth x).map some = (List.range ((x.length + 4) / 5)).map (fun i => x[5 * i]?) := by
    refine map_some_filterMap _ _ fun a ha => ?_
    rw [List.mem_range] at ha
    rw [List.getElem?_eq_getElem (by omega)]
    rfl
  have h2 := congrArg (fun l => l[i]?) h
  simp only [List.getElem?_map] at h2
  by_cases hi : i < (x.length + 4) / 5
  · rw [List.getElem?_range hi, Option.map_some] at h2
    have h3 : 5 * i < x.length := by omega
    rw [List.getElem?_eq_getElem h3] at h2 ⊢
    cases he : (everyFifth x)[i]? with
    | none => rw [he] at h2; simp at h2
    | some v => rw [he] at h2; simpa using h2
  · rw [List.getElem?_eq_none (l := List.range _) (by simpa using hi), Option.map_none,
      Option.map_eq_none_iff] at h2
    rw [h2, List.getElem?_eq_none (by omega)]

/-- Below a span of 15 the major ticks are the grid points and there are no minor ones. -/
theorem C65_ticks_short (lo hi : ℝ) (h : hi - lo < 15) :
    (ticks lo hi (discreteXValues lo hi)).major = discreteXValues lo hi ∧
    (ticks lo hi (discreteXValues lo hi)).minor = [] := by
  simp [ticks, h]

/-- From a span of 15 on every grid point is a minor tick, and the major ticks are
`min, min + 5, min + 10, ...` up to the end of the grid. -/
theorem C65_ticks_long (lo hi : ℝ) (h : 15 ≤ hi - lo) :
    (ticks lo hi (discreteXValues lo hi)).minor = discreteXValues lo hi ∧
    (∀ i, (ticks lo hi (discreteXValues lo hi)).major[i]? = (discreteXValues lo hi)[5 * i]?) ∧
    ∀ x, x ∈ (ticks lo hi (discreteXValues lo hi)).major ↔ ∃ i : ℕ, x = lo + 5 * i ∧ x < hi + 1 := by
  have hn : ¬ hi - lo < 15 := not_lt.2 h
  have e : (ticks lo hi (discreteXValues lo hi)).major = everyFifth (discreteXValues lo hi) := by
    simp [ticks, hn]
  refine ⟨by simp [ticks, hn], fun i => by rw [e, everyFifth_getElem?], fun x => ?_⟩
  rw [e, List.mem_iff_getElem?]
  refine exists_congr fun i => ?_
  rw [everyFifth_getElem?, discreteXValues, arange, List.getElem?_map]
  by_cases hi' : 5 * i < ⌈hi + 1 - lo⌉₊
  · rw [List.getElem?_range hi', Option.map_some, Option.some.injEq]
    have h2 := Nat.lt_ceil.1 hi'
    push_cast at h2 ⊢
    constructor
    · rintro rfl; exact ⟨rfl, by linarith⟩
    · rintro ⟨rfl, _⟩; rfl
  · rw [List.getElem?_eq_none (by simpa using hi'), Option.map_none]
    have h2 : ¬ ((5 * i : ℕ) : ℝ) < hi + 1 - lo := fun h => hi' (Nat.lt_ceil.2 h)
    push_cast at h2
    constructor
    · intro h; cases h
    · rintro ⟨rfl, h3⟩; exact absurd (by linarith) h2

example : (5 : ℝ) ∈ (ticks 0 20 (discreteXValues 0 20)).major :=
  ((C65_ticks_long 0 20 (by norm_num)).2.2 5).2 ⟨1, by norm_num, by norm_num⟩

/-! ## C64 -/

/-- One plotted distribution: `plot_pmf(conditional=True)` draws `f(x) / sum of f over the grid`
and the drawn values sum to one.  Missing for C64: several distributions, and the cdf. -/
theorem C64_conditional_pmf_partial (f : ℝ → ℝ) (xs : List ℝ) (h : (xs.map f).sum ≠ 0) :
    plotTable true [xs.map f] = [xs.map (fun x => f x / (xs.map f).sum)] ∧
    (xs.map (fun x => f x / (xs.map f).sum)).sum = 1 := by
  constructor
  · simp [plotTable, List.map_map, Function.comp_def]
  · have : ∀ (c : ℝ) (l : List ℝ), (l.map (fun x => f x / c)).sum = (l.map f).sum / c := by
      intro c l
      induction l with
      | nil => simp
      | cons a l ih => simp [ih, add_div]
    rw [this, div_self h]

theorem sum_div' (c : ℝ) (l : List ℝ) : (l.map (fun x => x / c)).sum = l.sum / c := by
  induction l with
  | nil => simp
  | cons a l ih => simp [ih, add_div]

/-- Without `conditional` the values are drawn as they are. -/
theorem C64_unconditional (yy : List (List ℝ)) : plotTable false yy = yy := rfl

/-- Several distributions (each with positive mass on the grid): what is drawn for each sums to one
only if there is just one of them. -/
theorem C64_conditional_pmf_iff (yy : List (List ℝ)) (hne : yy ≠ []) (h : ∀ col ∈ yy, 0 < col.sum) :
    (∀ col ∈ plotTable true yy, col.sum = 1) ↔ yy.length = 1 := by
  have hpos : ∀ l : List (List ℝ), (∀ col ∈ l, 0 < col.sum) → 0 ≤ (l.map List.sum).sum := by
    intro l hl
    refine List.sum_nonneg fun x hx => ?_
    obtain ⟨c, hc, rfl⟩ := List.mem_map.1 hx
    exact (hl c hc).le
  match yy, hne with
  | [a], _ =>
    have ha := h a (by simp)
    simp [plotTable, sum_div', ha.ne']
  | a :: b :: l, _ =>
    simp only [List.length_cons, Nat.add_eq_right, Nat.add_eq_zero_iff, one_ne_zero, and_false,
      iff_false]
    intro hall
    have ha := h a (by simp)
    have hb := h b (by simp)
    have hl := hpos l fun c hc => h c (by simp [hc])
    have h1 := hall (a.map (fun y => y / ((a :: b :: l).map List.sum).sum)) (by simp [plotTable])
    rw [sum_div', div_eq_one_iff_eq] at h1
    · simp only [List.map_cons, List.sum_cons] at h1
      linarith
    · simp only [List.map_cons, List.sum_cons]
      linarith

/-- `plot_cdf(conditional=True)`: a conditional cdf ends at 1, but the last value drawn is below 1
as soon as the cdf is positive at some earlier grid point. -/
theorem C64_conditional_cdf_wrong (F : ℝ → ℝ) (xs : List ℝ) (last : ℝ) (hF : ∀ x, 0 ≤ F x)
    (x : ℝ) (hx : x ∈ xs) (hpos : 0 < F x) :
    ∃ v, (plotTable true [(xs ++ [last]).map F]).head?.bind List.getLast? = some v ∧ v < 1 := by
  refine ⟨F last / ((xs.map F).sum + F last), by simp [plotTable], ?_⟩
  have h1 : F x ≤ (xs.map F).sum :=
    List.single_le_sum (fun y hy => by obtain ⟨z, _, rfl⟩ := List.mem_map.1 hy; exact hF z) _
      (List.mem_map_of_mem hx)
  rw [div_lt_one (by linarith [hF last])]
  linarith

/-- two fair coins: each distribution is drawn with total 1/2 -/
theorem C64_two_coins_drawn_with_half_mass :
    plotTable true [[1/2, 1/2], [1/2, 1/2]] = [[1/4, 1/4], [1/4, 1/4]] := by
  norm_num [plotTable]

example : plotTable true [[1/4, 1/4]] = [[1/2, 1/2]] := by norm_num [plotTable]

/-! ## C79: the bounds set by the constructors -/

open Scipy

/-- the grid of a freshly constructed discrete distribution -/
noncomputable def defaultGrid (s : Except PyErr (PlotState ℝ)) : Except PyErr (List ℝ) :=
  s.bind (fun s => s.xValues discreteXValues)

theorem foldl_max_ge (l : List ℝ) (x : ℝ) : x ≤ l.foldl max x ∧ ∀ y ∈ l, y ≤ l.foldl max x := by
  induction l generalizing x with
  | nil => simp
  | cons a l ih =>
    have h := ih (max x a)
    refine ⟨(le_max_left x a).trans h.1, fun y hy => ?_⟩
    rcases List.mem_cons.1 hy with rfl | hy
    · exact (le_max_right x y).trans h.1
    · exact h.2 y hy

theorem defaultGrid_num (n : ℝ) : defaultGrid (countPostInit (.num n)) = .ok (discreteXValues 0 n) := by
  simp [defaultGrid, countPostInit, PlotState.xValues, PlotState.minValue, PlotState.maxValue,
    Except.bind, bind, pure, Except.pure]

theorem defaultGrid_vec (ns : List ℝ) (h : ns ≠ []) :
    ∃ m, defaultGrid (countPostInit (.vec ns)) = .ok (discreteXValues 0 m) ∧ ∀ n ∈ ns, n ≤ m := by
  match ns, h with
  | a :: l, _ =>
    refine ⟨l.foldl max a, ?_, ?_⟩
    · simp [defaultGrid, countPostInit, arrMax, PlotState.xValues, PlotState.minValue,
        PlotState.maxValue, Except.bind, bind, pure, Except.pure]
    · intro n hn
      rcases List.mem_cons.1 hn with rfl | hn
      · exact (foldl_max_ge l n).1
      · exact (foldl_max_ge l a).2 n hn

theorem int_mem_discrete {m : ℝ} {k : ℤ} (h0 : 0 ≤ k) (h : (k : ℝ) ≤ m) : (k : ℝ) ∈ discreteXValues 0 m := by
  obtain ⟨i, rfl⟩ := Int.eq_ofNat_of_zero_le h0
  have := C62_discrete_grid_complete 0 m i (by simpa using h)
  simpa using this

theorem binom_support {n p : ℝ} {k : ℤ} (h : (Binomial.dist ⟨n, p⟩).pmf k ≠ 0) : 0 ≤ k ∧ (k : ℝ) ≤ n := by
  by_contra hc
  apply h
  simp only [Disc.pmf, Binomial.dist, DiscFamily.pmf0, sub_zero, if_neg hc]

theorem betabinom_support {n a b : ℝ} {k : ℤ} (h : (BetaBinomial.dist ⟨n, a, b⟩).pmf k ≠ 0) :
    0 ≤ k ∧ (k : ℝ) ≤ n := by
  by_contra hc
  apply h
  simp only [Disc.pmf, BetaBinomial.dist, DiscFamily.pmf0, sub_zero, if_neg hc]

theorem hypergeom_support {N n m : ℝ} {k : ℤ} (h : (Hypergeometric.dist ⟨N, n, m⟩).pmf k ≠ 0) :
    0 ≤ k ∧ (k : ℝ) ≤ n ∧ (k : ℝ) ≤ m := by
  by_contra hc
  apply h
  simp only [Disc.pmf, Hypergeometric.dist, DiscFamily.pmf0, sub_zero]
  rw [if_neg]
  rintro ⟨h1, h2⟩
  have h0 : (0 : ℝ) ≤ k := (le_max_left _ _).trans h1
  exact hc ⟨by exact_mod_cast h0, h2.trans (min_le_left _ _), h2.trans (min_le_right _ _)⟩

/-- A plot with the constructor's bounds shows every point of positive probability: `Binomial`,
`BetaBinomial` and `Hypergeometric` (sample and success counts within the population) with scalar
size.  Missing for C79: `BetaNegativeBinomial` and `Uniform`, where it is false. -/
theorem C79_default_bounds_partial (n : ℝ) :
    ∃ grid, defaultGrid (countPostInit (.num n)) = .ok grid ∧
      (∀ p (k : ℤ), (Binomial.dist ⟨n, p⟩).pmf k ≠ 0 → (k : ℝ) ∈ grid) ∧
      (∀ a b (k : ℤ), (BetaBinomial.dist ⟨n, a, b⟩).pmf k ≠ 0 → (k : ℝ) ∈ grid) ∧
      (∀ K m (k : ℤ), K ≤ n ∨ m ≤ n → (Hypergeometric.dist ⟨n, K, m⟩).pmf k ≠ 0 → (k : ℝ) ∈ grid) := by
  refine ⟨_, defaultGrid_num n, fun p k h => ?_, fun a b k h => ?_, fun K m k hv h => ?_⟩
  · exact int_mem_discrete (binom_support h).1 (binom_support h).2
  · exact int_mem_discrete (betabinom_support h).1 (betabinom_support h).2
  · obtain ⟨h0, h1, h2⟩ := hypergeom_support h
    exact int_mem_discrete h0 (hv.elim (fun hv => h1.trans hv) (fun hv => h2.trans hv))

/-- The same with a vector of sizes: the bounds come from the largest and cover all of them. -/
theorem C79_default_bounds_vector_partial (ns : List ℝ) (hne : ns ≠ []) :
    ∃ grid, defaultGrid (countPostInit (.vec ns)) = .ok grid ∧ ∀ n ∈ ns,
      (∀ p (k : ℤ), (Binomial.dist ⟨n, p⟩).pmf k ≠ 0 → (k : ℝ) ∈ grid) ∧
      (∀ a b (k : ℤ), (BetaBinomial.dist ⟨n, a, b⟩).pmf k ≠ 0 → (k : ℝ) ∈ grid) ∧
      (∀ K m (k : ℤ), K ≤ n ∨ m ≤ n → (Hypergeometric.dist ⟨n, K, m⟩).pmf k ≠ 0 → (k : ℝ) ∈ grid) := by
  obtain ⟨m, hm, hle⟩ := defaultGrid_vec ns hne
  refine ⟨_, hm, fun n hn => ⟨fun p k h => ?_, fun a b k h => ?_, fun K m' k hv h => ?_⟩⟩
  · exact int_mem_discrete (binom_support h).1 ((binom_support h).2.trans (hle n hn))
  · exact int_mem_discrete (betabinom_support h).1 ((betabinom_support h).2.trans (hle n hn))
  · obtain ⟨h0, h1, h2⟩ := hypergeom_support h
    exact int_mem_discrete h0 ((hv.elim (fun hv => h1.trans hv) (fun hv => h2.trans hv)).trans (hle n hn))

/-- `Beta`: the density vanishes outside the default bounds 0 and 1. -/
theorem C79_beta_bounds (d : Beta ℝ) (x : ℝ) (h : d.dist.pdf x ≠ 0) :
    ∃ hi, unitPostInit.maxValue = .ok hi ∧ unitPostInit.minValue.1 ≤ x ∧ x ≤ hi := by
  refine ⟨1, rfl, ?_⟩
  by_contra hc
  apply h
  have hc' : ¬ (0 ≤ x ∧ x ≤ 1) := by
    simpa [unitPostInit, PlotState.minValue] using hc
  simp only [Cont.pdf, Beta.dist, Family.std, sub_zero, div_one, if_neg hc']

/-- `Uniform`: since `.dist` takes `high` for the width, the default bounds cover the support of
`.dist` exactly when `low ≤ 0` (for `0 < high`). -/
theorem C79_uniform_bounds_iff (d : Uniform ℝ) (h : 0 < d.high) :
    (∃ hi, (uniformPostInit d.low d.high).maxValue = .ok hi ∧
      ∀ x, d.dist.pdf x ≠ 0 → (uniformPostInit d.low d.high).minValue.1 ≤ x ∧ x ≤ hi) ↔ d.low ≤ 0 := by
  suffices hs : (∀ x, d.dist.pdf x ≠ 0 → d.low ≤ x ∧ x ≤ d.high) ↔ d.low ≤ 0 by
    rw [← hs]
    constructor
    · rintro ⟨hi, hhi, hx⟩
      have e : d.high = hi := by simpa [uniformPostInit, PlotState.maxValue] using hhi
      rw [e]
      exact hx
    · exact fun hx => ⟨d.high, rfl, hx⟩
  have key : ∀ x, d.dist.pdf x ≠ 0 ↔ d.low ≤ x ∧ x ≤ d.low + d.high := by
    intro x
    have e : (0 ≤ (x - d.low) / d.high ∧ (x - d.low) / d.high ≤ 1) ↔ d.low ≤ x ∧ x ≤ d.low + d.high := by
      rw [le_div_iff₀ h, div_le_one h]
      constructor <;> rintro ⟨h1, h2⟩ <;> constructor <;> linarith
    simp only [Cont.pdf, Uniform.dist, Family.std]
    by_cases hx : d.low ≤ x ∧ x ≤ d.low + d.high
    · simp [if_pos (e.2 hx), hx, h.ne']
    · simp [if_neg (mt e.1 hx), hx]
  constructor
  · intro hall
    have := (hall (d.low + d.high) ((key _).2 ⟨by linarith, le_refl _⟩)).2
    linarith
  · intro hl x hx
    have := (key x).1 hx
    exact ⟨this.1, by linarith [this.2]⟩

/-- `VonMises`: the default bounds are one full turn, so every value of the density is drawn. -/
theorem C79_von_mises_bounds (d : VonMises ℝ) : ∃ hi, vonMisesPostInit.maxValue = .ok hi ∧
    ∀ x, ∃ y, vonMisesPostInit.minValue.1 < y ∧ y ≤ hi ∧ (∃ n : ℤ, x = y + n * (2 * Real.pi)) ∧
      d.dist.pdf y = d.dist.pdf x := by
  refine ⟨Real.pi, rfl, fun x => ?_⟩
  have hm := toIocMod_mem_Ioc Real.two_pi_pos (-Real.pi) x
  have hx := toIocMod_add_toIocDiv_zsmul Real.two_pi_pos (-Real.pi) x
  rw [zsmul_eq_mul] at hx
  refine ⟨toIocMod Real.two_pi_pos (-Real.pi) x, hm.1, by have := hm.2; linarith, ⟨_, hx.symm⟩, ?_⟩
  conv_rhs => rw [← hx]
  simp only [VonMises.dist, Cont.pdf, Family.std, div_one]
  rw [add_sub_right_comm, Real.cos_add_int_mul_two_pi]

/-- `BetaNegativeBinomial` sets its maximum to the number of successes, although the number of
failures it counts is unbounded: with `n = 1` two failures have positive probability, yet 2 is not
drawn. -/
theorem C79_beta_negative_binomial_false :
    defaultGrid (countPostInit (.num 1)) = .ok (discreteXValues 0 1) ∧
    (2 : ℝ) ∉ discreteXValues 0 1 ∧ 0 < (BetaNegativeBinomial.dist ⟨1, 1, 1⟩).pmf 2 := by
  refine ⟨defaultGrid_num 1, ?_, ?_⟩
  · rw [mem_discrete]
    rintro ⟨i, _, h⟩
    norm_num at h
  · simp only [Disc.pmf, BetaNegativeBinomial.dist, DiscFamily.pmf0, sub_zero]
    rw [if_pos (by norm_num)]
    simp only [choose, betaFn]
    norm_num

/-- points with positive probability exist -/
example : (Binomial.dist ⟨2, 1 / 2⟩).pmf 1 ≠ 0 := by
  simp only [Disc.pmf, Binomial.dist, DiscFamily.pmf0, sub_zero, choose]
  rw [if_pos (by norm_num)]
  have := Real.Gamma_pos_of_pos (show (0 : ℝ) < 2 by norm_num)
  have := Real.Gamma_pos_of_pos (show (0 : ℝ) < 3 by norm_num)
  norm_num

end Conj
