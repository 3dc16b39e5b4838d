import Verif.PlotSpec
import Verif.Props.Plotting

/-!
# From an object to the lines of a plot
-/

open MeasureTheory

namespace Conj

open Scipy Spec NdArr

variable {D : Type → Type} [Plottable D]

theorem map_fieldInfos_any (d : D Field) : (fieldInfos d).any (fun f => !f.isFloat) =
    (Plottable.hasFlag D || (Plottable.params d).any fun F => !F.isFloat) := by
  unfold fieldInfos
  cases h : Plottable.hasFlag D <;> simp [List.any_map, Function.comp_def, Field.info]

theorem fold_nil (s : List ℕ) (l : List FieldInfo) (h : ∀ f ∈ l, f.rshape = []) :
    l.foldl (fun acc f => acc.bind (fun s => NdArr.bcast s f.rshape)) (some s) = some s := by
  induction l with
  | nil => rfl
  | cons f l ih =>
    have e : NdArr.bcast s f.rshape = some s := by rw [h f (by simp)]; cases s <;> rfl
    simp only [List.foldl_cons, Option.bind_some, e]
    exact ih fun g hg => h g (by simp [hg])

theorem infos_shape {d : D Field} {p : List ℕ → Prop} (h0 : p []) (h : ∀ F ∈ Plottable.params d, p F.arr.rshape) :
    ∀ f ∈ fieldInfos d, p f.rshape := by
  intro f hf
  rcases List.mem_append.1 hf with hf | hf
  · obtain ⟨F, hF, rfl⟩ := List.mem_map.1 hf
    exact h F hF
  · split at hf
    · rw [List.mem_singleton.1 hf]; exact h0
    · simp at hf

theorem yShape_scalar {d : D Field} (h : IsScalar d) (N : ℕ) :
    yShape (fieldInfos d) N = some (reshapedX (fieldInfos d) N) :=
  fold_nil _ _ (infos_shape (p := fun s => s = []) rfl h)

theorem bdim_one_left (a : ℕ) : bdim 1 a = some a := by by_cases hk : 1 = a <;> simp [bdim, hk]

theorem bdim_fit {a b : ℕ} (h : b = 1 ∨ b = a) : bdim a b = some a := by
  rcases h with rfl | rfl
  · by_cases hk : a = 1 <;> simp [bdim, hk]
  · simp [bdim]

theorem fits_widen {k N : ℕ} {s : List ℕ} (h : FitsIn s [k, 1]) : FitsIn s [k, N] := by
  match s, h with
  | [], _ => trivial
  | [a], h => exact ⟨h.1, trivial⟩
  | [a, b], h => exact ⟨h.1, .inl (by have := h.2.1; tauto), trivial⟩
  | _ :: _ :: _ :: _, h => exact absurd h.2.2 (by simp [FitsIn])

theorem bcast_row {k N : ℕ} {s : List ℕ} (h : FitsIn s [k, N]) : bcast [k, N] s = some [k, N] := by
  match s, h with
  | [], _ => rfl
  | [a], h => simp [bcast, bdim_fit h.1]
  | [a, b], h => simp [bcast, bdim_fit h.1, bdim_fit h.2.1]
  | _ :: _ :: _ :: _, h => exact absurd h.2.2 (by simp [FitsIn])

theorem bcast_one_row {k N : ℕ} {s : List ℕ} (h : FitsIn s [k, N]) :
    bcast [1, N] s = some [s.head?.getD 1, N] := by
  match s, h with
  | [], _ => rfl
  | [a], h => simp [bcast, bdim_one_left]
  | [a, b], h => simp [bcast, bdim_one_left, bdim_fit h.2.1]
  | _ :: _ :: _ :: _, h => exact absurd h.2.2 (by simp [FitsIn])

theorem fits_head {k N : ℕ} {s : List ℕ} (h : FitsIn s [k, N]) : s.head?.getD 1 = 1 ∨ s.head?.getD 1 = k := by
  match s, h with
  | [], _ => exact .inl rfl
  | a :: _, h => exact h.1

theorem fold_row {k N : ℕ} (l : List FieldInfo) (h : ∀ f ∈ l, FitsIn f.rshape [k, N]) :
    l.foldl (fun acc f => acc.bind (fun s => NdArr.bcast s f.rshape)) (some [k, N]) = some [k, N] := by
  induction l with
  | nil => rfl
  | cons f l ih =>
    simp only [List.foldl_cons, Option.bind_some, bcast_row (h f (by simp))]
    exact ih fun g hg => h g (by simp [hg])

theorem fold_one_row {k N : ℕ} (l : List FieldInfo) (h : ∀ f ∈ l, FitsIn f.rshape [k, N])
    (hk : ∃ f ∈ l, f.rshape.head? = some k) :
    l.foldl (fun acc f => acc.bind (fun s => NdArr.bcast s f.rshape)) (some [1, N]) = some [k, N] := by
  induction l with
  | nil => obtain ⟨f, hf, -⟩ := hk; simp at hf
  | cons f l ih =>
    have hf := h f (by simp)
    have hl : ∀ g ∈ l, FitsIn g.rshape [k, N] := fun g hg => h g (by simp [hg])
    simp only [List.foldl_cons, Option.bind_some, bcast_one_row hf]
    rcases fits_head hf with e | e
    · rw [e]
      obtain ⟨g, hg, hgk⟩ := hk
      rcases List.mem_cons.1 hg with rfl | hg
      · rw [hgk] at e
        simp only [Option.getD_some] at e
        subst e
        exact fold_row l hl
      · exact ih hl ⟨g, hg, hgk⟩
    · rw [e]; exact fold_row l hl

theorem fold_none (l : List FieldInfo) :
    l.foldl (fun acc f => acc.bind (fun s => NdArr.bcast s f.rshape)) none = none := by
  induction l with
  | nil => rfl
  | cons f l ih => simpa using ih

theorem bdim_big {N b c : ℕ} (hN : 2 ≤ N) (h : bdim N b = some c) : c = N ∧ (b = 1 ∨ b = N) := by
  unfold bdim at h
  split at h
  · simp_all
  · split at h
    · omega
    · split at h <;> simp_all

/-- tables that have neither one row nor a row for each point -/
theorem fold_bad_table {N k m : ℕ} (hN : 2 ≤ N) (hm : m ≠ 1) (hmN : m ≠ N) (l : List FieldInfo)
    (h : ∀ f ∈ l, f.rshape.length ≤ 2) (hl : ∃ f ∈ l, f.rshape = [k, m]) (a : ℕ) :
    l.foldl (fun acc f => acc.bind (fun s => NdArr.bcast s f.rshape)) (some [a, N]) = none := by
  induction l generalizing a with
  | nil => obtain ⟨f, hf, -⟩ := hl; simp at hf
  | cons f l ih =>
    simp only [List.foldl_cons, Option.bind_some]
    have hbad : bdim N m = none := by
      cases hb : bdim N m with
      | none => rfl
      | some c => rcases (bdim_big hN hb).2 with h | h <;> contradiction
    obtain ⟨g, hg, hgs⟩ := hl
    have hlen := h f (by simp)
    rcases List.mem_cons.1 hg with rfl | hg
    · have : bcast [a, N] g.rshape = none := by rw [hgs]; simp [bcast, hbad]
      rw [this, fold_none]
    · have ih := fun a => ih (fun g hg => h g (by simp [hg])) ⟨g, hg, hgs⟩ a
      cases hb : bcast [a, N] f.rshape with
      | none => exact fold_none l
      | some u =>
        have : ∃ b, u = [b, N] := by
          match hs : f.rshape, hlen with
          | [], _ => rw [hs] at hb; exact ⟨a, by simpa [bcast] using hb.symm⟩
          | [c], _ =>
            rw [hs] at hb
            simp only [bcast, Option.bind_eq_bind, Option.pure_def, Option.bind_eq_some_iff] at hb
            obtain ⟨b, -, t, h1, h2⟩ := hb
            exact ⟨b, by simp_all⟩
          | [c, e], _ =>
            rw [hs] at hb
            simp only [bcast, Option.bind_eq_bind, Option.pure_def, Option.bind_eq_some_iff] at hb
            obtain ⟨b, -, t, ⟨c', h0, t', h1, h2⟩, h3⟩ := hb
            have := (bdim_big hN h0).1
            exact ⟨b, by simp_all⟩
        obtain ⟨b, rfl⟩ := this
        exact ih b

theorem bcast_rank {s t u : List ℕ} (h : bcast s t = some u) : s.length ≤ u.length ∧ t.length ≤ u.length := by
  induction s generalizing t u with
  | nil => simp [bcast] at h; subst h; simp
  | cons a s ih =>
    cases t with
    | nil => simp [bcast] at h; subst h; simp
    | cons b t =>
      simp only [bcast, Option.bind_eq_bind, Option.pure_def, Option.bind_eq_some_iff] at h
      obtain ⟨c, -, v, h1, h2⟩ := h
      have := ih h1
      simp only [Option.some.injEq] at h2
      subst h2
      simpa using this

theorem fold_length (l : List FieldInfo) (s u : List ℕ)
    (h : l.foldl (fun acc f => acc.bind (fun s => NdArr.bcast s f.rshape)) (some s) = some u) :
    s.length ≤ u.length ∧ ∀ f ∈ l, f.rshape.length ≤ u.length := by
  induction l generalizing s with
  | nil => simp only [List.foldl_nil, Option.some.injEq] at h; subst h; simp
  | cons f l ih =>
    simp only [List.foldl_cons, Option.bind_some] at h
    cases hb : bcast s f.rshape with
    | none => rw [hb, fold_none] at h; simp at h
    | some v =>
      rw [hb] at h
      have h1 := ih v h
      have h2 := bcast_rank hb
      refine ⟨h2.1.trans h1.1, fun g hg => ?_⟩
      rcases List.mem_cons.1 hg with rfl | hg
      · exact h2.2.trans h1.1
      · exact h1.2 g hg

theorem vector_not_float {d : D Field} {k : ℕ} (h : IsVector d k) : (fieldInfos d).any (fun f => !f.isFloat) = true := by
  obtain ⟨F, hF, hk⟩ := h.2
  rw [map_fieldInfos_any, Bool.or_eq_true]
  refine .inr (List.any_eq_true.2 ⟨F, hF, ?_⟩)
  cases F <;> simp [Field.isFloat, Field.arr, NdArr.scalar] at hk ⊢

theorem yShape_vector {d : D Field} {k : ℕ} (h : IsVector d k) (N : ℕ) : yShape (fieldInfos d) N = some [k, N] := by
  rw [yShape, reshapedX, if_pos (vector_not_float h)]
  refine fold_one_row _ (infos_shape (p := fun s => FitsIn s [k, N]) trivial fun F hF => fits_widen (h.1 F hF)) ?_
  obtain ⟨F, hF, hk⟩ := h.2
  exact ⟨F.info, List.mem_append_left _ (List.mem_map_of_mem hF), hk⟩

/-- parameters at a position of the table -/
theorem fmap_congr_all {d : D Field} {A : Type} {f g : Field → A} (h : ∀ F ∈ Plottable.params d, f F = g F) :
    fmap f d = fmap g d := by
  obtain ⟨e, rfl⟩ := LawfulParams.all_lift (Plottable.all_iff.2 h)
  rw [LawfulParams.fmap_fmap, LawfulParams.fmap_fmap]
  congr 1
  funext a
  exact a.2

theorem proj_row {k i j : ℕ} {s : List ℕ} (h : FitsIn s [k, 1]) : proj s [j, i] = proj s [j] := by
  match s, h with
  | [], _ => rfl
  | [a], _ => rfl
  | [a, b], h =>
    have hb : b = 1 := by have := h.2.1; tauto
    subst hb
    simp [proj]
  | _ :: _ :: _ :: _, h => exact absurd h.2.2 (by simp [FitsIn])

theorem zip_range_map (xs : List ℝ) (f : ℝ → ℝ) (g h : ℕ → ℝ) (hg : ∀ i < xs.length, g i = xs.getD i 0)
    (hh : ∀ i < xs.length, h i = f (xs.getD i 0)) :
    ((List.range xs.length).map g).zip ((List.range xs.length).map h) = curve xs f := by
  apply List.ext_getElem
  · simp [curve]
  · intro i h1 h2
    have hi : i < xs.length := by simpa [curve] using h2
    simp [curve, hg i hi, hh i hi, List.getD_eq_getElem?_getD, hi]

/-- matplotlib's rule for a column of x values -/
theorem axPlot_table {x y : NdArr ℝ} {n k : ℕ} (hk : 0 < k) (hx : x.rshape = [1, n]) (hy : y.rshape = [k, n])
    (lab : Resolved) :
    axPlot x y lab = (lineLabels lab k).map fun labels => (List.range k).map fun j =>
      { points := ((List.range n).map fun i => x.get [0, i]).zip ((List.range n).map fun i => y.get [j, i])
        label := labels.getD j .none } := by
  have hmax : max 1 k = k := max_eq_right hk
  simp only [axPlot, ncols, hx, hy, colOf, List.getLast?_cons_cons, List.getLast?_singleton, ne_eq, not_true_eq_false,
    if_false, List.length_cons, List.length_nil, Nat.lt_irrefl, or_self, List.headD_cons, false_and,
    Nat.one_ne_zero, hk.ne', hmax, Nat.reduceAdd, OfNat.ofNat_ne_one, Nat.mod_one]
  cases lineLabels lab k with
  | error e => rfl
  | ok labels =>
    change Except.ok _ = Except.ok _
    congr 1
    refine List.map_congr_left fun j hj => ?_
    rw [Nat.mod_eq_of_lt (List.mem_range.1 hj)]
    rfl

/-- matplotlib's rule for two vectors -/
theorem axPlot_flat {x y : NdArr ℝ} {n : ℕ} (hx : x.rshape = [n]) (hy : y.rshape = [n]) (lab : Resolved) :
    axPlot x y lab = (lineLabels lab 1).map fun labels =>
      [{ points := ((List.range n).map fun i => x.get [i]).zip ((List.range n).map fun i => y.get [i])
         label := labels.getD 0 .none }] := by
  simp only [axPlot, ncols, hx, hy, colOf, List.getLast?_singleton, ne_eq, not_true_eq_false,
    if_false, List.length_cons, List.length_nil, or_self, false_and, Nat.reduceAdd, Nat.lt_irrefl, Nat.reduceLT,
    Nat.one_ne_zero, max_self, if_true]
  cases lineLabels lab 1 with
  | error e => rfl
  | ok labels => rfl

theorem labels_vector {label : Option Label} {k : ℕ} (hk : k ≠ 1) (h : LabelFits label k) {yy : NdArr ℝ} {n : ℕ}
    (hy : yy.rshape = [k, n]) : ∃ r labels, labelArg label yy = .ok r ∧ lineLabels r k = .ok labels ∧
      ∀ j < k, labels.getD j .none = nthLabel label j := by
  match label, h with
  | none, _ =>
    exact ⟨_, _, rfl, rfl, fun j hj => by simp [nthLabel, hj]⟩
  | some .none, _ =>
    refine ⟨.perLine (List.replicate k none), List.replicate k .none, by simp [labelArg, resolveLabel, hy, hk, labelToIterable, Except.map],
      by simp [lineLabels], fun j hj => by simp [nthLabel, hj]⟩
  | some (.str s), _ =>
    refine ⟨.perLine ((List.range' 1 k).map fun i => some (s ++ " " ++ toString i)), _,
      by simp [labelArg, resolveLabel, hy, hk, labelToIterable, Except.map], by simp [lineLabels]; rfl, fun j hj => ?_⟩
    simp [nthLabel, hj, Nat.add_comm]
  | some (.fn f), _ =>
    refine ⟨.perLine ((List.range k).map fun i => some (f i)), _,
      by simp [labelArg, resolveLabel, hy, hk, labelToIterable, Except.map], by simp [lineLabels]; rfl, fun j hj => ?_⟩
    simp [nthLabel, hj]
  | some (.iter l), h =>
    have h : l.length = k := h
    refine ⟨.perLine (l.map some), _,
      by simp [labelArg, resolveLabel, hy, hk, labelToIterable, Except.map], by simp [lineLabels, h]; rfl, fun j hj => ?_⟩
    have hj' : j < l.length := by omega
    simp [nthLabel, hj']

theorem labels_single {label : Option Label} (h : SingleLabel label) {yy : NdArr ℝ} {n : ℕ}
    (hy : yy.rshape = [1, n] ∨ yy.rshape = [n]) : ∃ r labels, labelArg label yy = .ok r ∧ lineLabels r 1 = .ok labels ∧
      labels.getD 0 .none = label.getD .none := by
  have e : ∀ l, resolveLabel l yy.rshape = .ok (.single l) := by
    intro l
    rcases hy with hy | hy <;> simp [resolveLabel, hy]
  match label, h with
  | none, _ => exact ⟨_, _, rfl, rfl, rfl⟩
  | some .none, _ => exact ⟨_, _, e _, rfl, rfl⟩
  | some (.str s), _ => exact ⟨_, _, e _, rfl, rfl⟩
  | some (.fn f), _ => exact ⟨_, _, e _, rfl, rfl⟩
  | some .other, _ => exact ⟨_, _, e _, rfl, rfl⟩

/-- the values of the function at the positions of a vector object -/
theorem evalOn_vector {d : D Field} {k : ℕ} (h : IsVector d k) (f : D ℝ → ℝ → ℝ) (xs : List ℝ) :
    ∃ yy, evalOn f d xs = .ok yy ∧ yy.rshape = [k, xs.length] ∧
      ∀ j, ∀ i < xs.length, yy.get [j, i] = f (nth d j) (xs.getD i 0) := by
  refine ⟨_, by rw [evalOn, yShape_vector h], rfl, fun j i hi => ?_⟩
  change f (fmap (fun F => F.arr.atIdx [j, i]) d) _ = _
  congr 1
  · refine fmap_congr_all fun F hF => ?_
    change F.arr.get _ = F.arr.get _
    rw [proj_row (h.1 F hF)]
  · simp only [xArray, reshapedX, if_pos (vector_not_float h), atIdx, proj]
    by_cases h1 : xs.length = 1
    · have : i = 0 := by omega
      simp [h1, this]
    · simp [h1]

/-- the values of the function for scalar parameters -/
theorem evalOn_scalar {d : D Field} (h : IsScalar d) (f : D ℝ → ℝ → ℝ) (xs : List ℝ) :
    ∃ yy, evalOn f d xs = .ok yy ∧ yy.rshape = reshapedX (fieldInfos d) xs.length ∧
      ∀ idx, yy.get idx = f (nth d 0) ((xArray d xs).atIdx idx) := by
  refine ⟨_, by rw [evalOn, yShape_scalar h], rfl, fun idx => ?_⟩
  change f (fmap (fun F => F.arr.atIdx idx) d) _ = _
  congr 1
  refine fmap_congr_all fun F hF => ?_
  change F.arr.get _ = F.arr.get _
  rw [h F hF, proj, proj]

/-- from values to lines, several distributions -/
theorem lines_vector {d : D Field} {k : ℕ} (hk : 2 ≤ k) (h : IsVector d k) (g : ℕ → ℝ → ℝ) (xs : List ℝ)
    {yy : NdArr ℝ} (hs : yy.rshape = [k, xs.length])
    (hy : ∀ j, ∀ i < xs.length, yy.get [j, i] = g j (xs.getD i 0)) {label : Option Label} (hl : LabelFits label k) :
    (labelArg label yy).bind (axPlot (xArray d xs) yy) =
      .ok ((List.range k).map fun j => { points := curve xs (g j), label := nthLabel label j }) := by
  have hx : (xArray d xs).rshape = [1, xs.length] := by
    simp only [xArray, reshapedX, if_pos (vector_not_float h)]
  obtain ⟨r, labels, h1, h2, h3⟩ := labels_vector (by omega) hl hs
  rw [h1]
  change axPlot _ _ _ = _
  rw [axPlot_table (by omega) hx hs, h2]
  change Except.ok _ = Except.ok _
  congr 1
  refine List.map_congr_left fun j hj => ?_
  rw [h3 j (List.mem_range.1 hj)]
  congr 1
  exact zip_range_map xs _ _ _ (fun i _ => rfl) fun i hi => hy j i hi

/-- from values to lines, one distribution -/
theorem lines_scalar {d : D Field} (g : ℝ → ℝ) (xs : List ℝ) {yy : NdArr ℝ}
    (hs : yy.rshape = reshapedX (fieldInfos d) xs.length)
    (hy : ∀ idx, yy.get idx = g ((xArray d xs).atIdx idx)) {label : Option Label} (hl : SingleLabel label) :
    (labelArg label yy).bind (axPlot (xArray d xs) yy) =
      .ok [{ points := curve xs g, label := label.getD .none }] := by
  have hg : ∀ i < xs.length, (xArray d xs).atIdx (if (fieldInfos d).any (fun f => !f.isFloat) then [0, i] else [i]) =
      xs.getD i 0 := by
    intro i hi
    simp only [xArray, reshapedX, atIdx]
    split
    · by_cases h1 : xs.length = 1
      · have : i = 0 := by omega
        simp [h1, this, proj]
      · simp [h1, proj]
    · by_cases h1 : xs.length = 1
      · have : i = 0 := by omega
        simp [h1, this, proj]
      · simp [h1, proj]
  cases hb : (fieldInfos d).any (fun f => !f.isFloat) with
  | true =>
    simp only [hb, if_true] at hg
    have hx : (xArray d xs).rshape = [1, xs.length] := by simp only [xArray, reshapedX, hb, if_true]
    have hs' : yy.rshape = [1, xs.length] := by rw [hs, reshapedX, hb, if_pos rfl]
    obtain ⟨r, labels, h1, h2, h3⟩ := labels_single hl (.inl hs')
    rw [h1]
    change axPlot _ _ _ = _
    rw [axPlot_table Nat.one_pos hx hs', h2]
    change Except.ok _ = Except.ok _
    simp only [List.range_one, List.map_cons, List.map_nil, h3]
    congr 3
    exact zip_range_map xs _ _ _ (fun i _ => rfl) fun i hi => by rw [hy, hg i hi]
  | false =>
    simp only [hb, Bool.false_eq_true, if_false] at hg
    have hx : (xArray d xs).rshape = [xs.length] := by simp only [xArray, reshapedX, hb, Bool.false_eq_true, if_false]
    have hs' : yy.rshape = [xs.length] := by rw [hs, reshapedX, hb, if_neg (by simp)]
    obtain ⟨r, labels, h1, h2, h3⟩ := labels_single hl (.inr hs')
    rw [h1]
    change axPlot _ _ _ = _
    rw [axPlot_flat hx hs', h2]
    change Except.ok _ = Except.ok _
    simp only [h3]
    congr 3
    exact zip_range_map xs _ _ _ (fun i _ => rfl) fun i hi => by rw [hy, hg i hi]

theorem axPlot_one {d : D Field} (h : IsVector d 1) (g : ℝ → ℝ) (xs : List ℝ) {yy : NdArr ℝ}
    (hs : yy.rshape = [1, xs.length]) (hy : ∀ i < xs.length, yy.get [0, i] = g (xs.getD i 0)) {label : Option Label}
    (hl : SingleLabel label) :
    (labelArg label yy).bind (axPlot (xArray d xs) yy) =
      .ok [{ points := curve xs g, label := label.getD .none }] := by
  have hx : (xArray d xs).rshape = [1, xs.length] := by
    simp only [xArray, reshapedX, if_pos (vector_not_float h)]
  obtain ⟨r, labels, h1, h2, h3⟩ := labels_single hl (.inl hs)
  rw [h1]
  change axPlot _ _ _ = _
  rw [axPlot_table Nat.one_pos hx hs, h2]
  change Except.ok _ = Except.ok _
  simp only [List.range_one, List.map_cons, List.map_nil, h3]
  congr 3
  exact zip_range_map xs _ _ _ (fun i _ => rfl) fun i hi => hy i hi

theorem sum_range_getD (xs : List ℝ) (f : ℝ → ℝ) :
    ((List.range xs.length).map fun i => f (xs.getD i 0)).sum = (xs.map f).sum := by
  congr 1
  apply List.ext_getElem
  · simp
  · intro i h1 h2
    have hi : i < xs.length := by simpa using h2
    simp [List.getD_eq_getElem?_getD, hi]

/-- `np.sum` of a vector -/
theorem npSum_flat {a : NdArr ℝ} {n : ℕ} (h : a.rshape = [n]) : npSum a = ((List.range n).map fun i => a.get [i]).sum := by
  rw [npSum, h, indices, indices, List.flatMap_singleton, List.map_map]
  rfl

/-- `np.sum` of a table -/
theorem npSum_table {a : NdArr ℝ} {k n : ℕ} (h : a.rshape = [k, n]) :
    npSum a = ∑ j ∈ Finset.range k, ((List.range n).map fun i => a.get [j, i]).sum := by
  rw [npSum, h]
  simp only [indices, List.flatMap_singleton, List.map_flatMap, List.map_map, List.flatMap_map]
  rw [List.flatMap_def, List.sum_flatten, List.map_map]
  have e : ∀ (m : ℕ) (f : ℕ → ℝ), ((List.range m).map f).sum = ∑ i ∈ Finset.range m, f i := fun m f => rfl
  simp only [e, Function.comp_def]
  exact Finset.sum_comm

/-- the sum of the table -/
theorem npSum_object {d : D Field} {k : ℕ} (h : Objects d k) (f : D ℝ → ℝ → ℝ) (xs : List ℝ) {yy : NdArr ℝ}
    (hy : evalOn f d xs = .ok yy) : npSum yy = ∑ j ∈ Finset.range k, (xs.map (f (nth d j))).sum := by
  rcases h with ⟨rfl, h⟩ | ⟨h0, h⟩
  · obtain ⟨y', h1, h2, h3⟩ := evalOn_scalar h f xs
    obtain rfl : yy = y' := by rw [h1] at hy; exact (Except.ok.inj hy).symm
    rw [Finset.sum_range_one, ← sum_range_getD]
    rw [reshapedX] at h2
    split at h2
    · rename_i hc
      rw [npSum_table h2, Finset.sum_range_one]
      congr 1
      refine List.map_congr_left fun i hi => ?_
      have hi := List.mem_range.1 hi
      rw [h3]
      congr 1
      simp only [xArray, reshapedX, atIdx, hc, if_true, proj]
      by_cases h1 : xs.length = 1
      · have : i = 0 := by omega
        simp [h1, this]
      · simp [h1]
    · rename_i hc
      rw [npSum_flat h2]
      congr 1
      refine List.map_congr_left fun i hi => ?_
      have hi := List.mem_range.1 hi
      rw [h3]
      congr 1
      simp only [xArray, reshapedX, atIdx, if_neg hc]
      by_cases h1 : xs.length = 1
      · have : i = 0 := by omega
        simp [h1, this, proj]
      · simp [h1, proj]
  · obtain ⟨y', h1, h2, h3⟩ := evalOn_vector h f xs
    obtain rfl : yy = y' := by rw [h1] at hy; exact (Except.ok.inj hy).symm
    rw [npSum_table h2]
    refine Finset.sum_congr rfl fun j _ => ?_
    rw [← sum_range_getD]
    congr 1
    exact List.map_congr_left fun i hi => h3 j i (List.mem_range.1 hi)

/-- shape and values of the table, and how it becomes lines -/
theorem table_of_object {d : D Field} {k : ℕ} (h : Objects d k) (f : D ℝ → ℝ → ℝ) (xs : List ℝ) :
    ∃ yy, evalOn f d xs = .ok yy ∧ (∀ (c : ℝ → ℝ) label, LabelOk label k →
      (labelArg label (yy.map c)).bind (axPlot (xArray d xs) (yy.map c)) =
        .ok (picture xs k label fun j x => c (f (nth d j) x))) := by
  rcases h with ⟨rfl, h⟩ | ⟨h0, h⟩
  · obtain ⟨yy, h1, h2, h3⟩ := evalOn_scalar h f xs
    refine ⟨yy, h1, fun c label hl => ?_⟩
    have := lines_scalar (d := d) (yy := yy.map c) (fun x => c (f (nth d 0) x)) xs h2
      (fun idx => by rw [← h3]; rfl) (by simpa [LabelOk] using hl)
    simpa [picture, lineLabel] using this
  · obtain ⟨yy, h1, h2, h3⟩ := evalOn_vector h f xs
    refine ⟨yy, h1, fun c label hl => ?_⟩
    by_cases hk : k = 1
    · subst hk
      have := axPlot_one h (yy := yy.map c) (fun x => c (f (nth d 0) x)) xs h2 (fun i hi => by rw [← h3 0 i hi]; rfl)
        (by simpa [LabelOk] using hl)
      simpa [picture, lineLabel] using this
    · have := lines_vector (by omega) h (yy := yy.map c) (fun j x => c (f (nth d j) x)) xs h2
        (fun j i hi => by rw [← h3 j i hi]; rfl) (label := label) (by simpa [LabelOk, hk] using hl)
      simpa [picture, lineLabel, hk] using this

end Conj
