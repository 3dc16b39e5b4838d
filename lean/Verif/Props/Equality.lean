import Verif.EqualitySpec
import Verif.Props.Identifiable
import Verif.Props.IdentifiableDiscrete

/-!
# C120: `==` between distributions
-/

open Set Real

namespace Conj

open Spec NdArr

/-! ## Fields that are numbers -/

theorem compare_plain {x y : Cell} (hx : (plain x).isSome) (hy : (plain y).isSome) :
    ∃ b, x.compare y = .ok (.bool b) ∧ (b = true ↔ plain x = plain y) := by
  cases x <;> cases y <;> simp [plain] at hx hy <;>
    simp [Cell.compare, Cell.number?, plain]

theorem is_plain {x y : Cell} (hx : (plain x).isSome) : x.is y = false := by
  cases x <;> simp [plain] at hx <;> rfl

theorem tuple_plain : ∀ {xs ys : List Cell}, (∀ c ∈ xs, (plain c).isSome) → (∀ c ∈ ys, (plain c).isSome) →
    xs.length = ys.length → ∃ b, tupleCompare xs ys = .ok b ∧ (b = true ↔ xs.map plain = ys.map plain)
  | [], [], _, _, _ => ⟨true, rfl, by simp⟩
  | x :: xs, y :: ys, hx, hy, hl => by
    obtain ⟨b, hb, hb'⟩ := compare_plain (hx x (by simp)) (hy y (by simp))
    obtain ⟨c, hc, hc'⟩ := tuple_plain (xs := xs) (ys := ys) (fun c h => hx c (by simp [h])) (fun c h => hy c (by simp [h]))
      (by simpa using hl)
    have e : tupleCompare (x :: xs) (y :: ys) = if b then .ok c else .ok false := by
      rw [tupleCompare, is_plain (hx x (by simp)), hb, hc]
      cases b <;> rfl
    cases b with
    | false => exact ⟨false, e, by simpa using fun h => absurd (hb'.2 h) (by simp)⟩
    | true => exact ⟨c, e, by rw [hc']; simp [hb'.1 rfl]⟩

theorem chain_plain : ∀ {xs ys : List Cell}, (∀ c ∈ xs, (plain c).isSome) → (∀ c ∈ ys, (plain c).isSome) →
    xs.length = ys.length → ∃ b, chainCompare xs ys = .ok (.bool b) ∧ (b = true ↔ xs.map plain = ys.map plain)
  | [], [], _, _, _ => ⟨true, rfl, by simp⟩
  | [x], [y], hx, hy, _ => by
    obtain ⟨b, hb, hb'⟩ := compare_plain (hx x (by simp)) (hy y (by simp))
    exact ⟨b, hb, by simpa using hb'⟩
  | x :: x2 :: xs, y :: y2 :: ys, hx, hy, hl => by
    obtain ⟨b, hb, hb'⟩ := compare_plain (hx x (by simp)) (hy y (by simp))
    obtain ⟨c, hc, hc'⟩ := chain_plain (xs := x2 :: xs) (ys := y2 :: ys) (fun c h => hx c (List.mem_cons_of_mem _ h))
      (fun c h => hy c (List.mem_cons_of_mem _ h)) (by simpa using hl)
    have e : chainCompare (x :: x2 :: xs) (y :: y2 :: ys) = if b then .ok (.bool c) else .ok (.bool false) := by
      rw [chainCompare, hb, hc]
      · cases b <;> rfl
      · simp
    cases b with
    | false => exact ⟨false, e, by
        simp only [Bool.false_eq_true, false_iff]
        intro h
        exact absurd (hb'.2 (List.cons_eq_cons.1 h).1) (by simp)⟩
    | true => exact ⟨c, e, by
        rw [hc', List.map_cons (a := x), List.map_cons (a := y), hb'.1 rfl]
        simp⟩

/-- C120. Between instances whose fields are numbers, flags or `None`, `==` never raises, and it is `True` exactly for the
same class with the same values. -/
theorem C120_numbers (v : Python) (x y : Inst) (hx : Plain x) (hy : Plain y) (hf : SameFields x y)
    (hr : x.ref = y.ref → x = y) :
    ∃ b, pyEq v x y = .ok (.bool b) ∧ (b = true ↔ x.cls = y.cls ∧ x.fields.map plain = y.fields.map plain) := by
  by_cases hc : x.cls = y.cls
  · cases v with
    | upTo312 =>
      obtain ⟨b, hb, h⟩ := tuple_plain hx hy (hf hc)
      exact ⟨b, by simp only [pyEq, hc, if_true, hb]; rfl, by simp [h, hc]⟩
    | since313 =>
      by_cases h : x.ref = y.ref
      · exact ⟨true, by simp [pyEq, hc, h], by rw [hr h]; simp⟩
      · obtain ⟨b, hb, h'⟩ := chain_plain hx hy (hf hc)
        exact ⟨b, by simp [pyEq, hc, h, hb], by simp [h', hc]⟩
  · exact ⟨false, by simp [pyEq, hc], by simp [hc]⟩

/-- C120. The plot bounds do not take part. -/
theorem C120_bounds_ignored (v : Python) (x y : Inst) (l m : List (String × ℝ)) :
    pyEq v { x with attrs := l } { y with attrs := m } = pyEq v x y := rfl

theorem tuple_self : ∀ xs : List Cell, (∀ c ∈ xs, c.is c = true ∨ (plain c).isSome) → tupleCompare xs xs = .ok true
  | [], _ => rfl
  | x :: xs, h => by
    rw [tupleCompare, tuple_self xs fun c m => h c (by simp [m])]
    rcases h x (by simp) with h | h
    · simp [h]
    · obtain ⟨b, hb, h'⟩ := compare_plain h h
      rw [is_plain h, hb, h'.2 rfl]
      rfl

/-- C120. A distribution is equal to itself, whatever its parameters (nan and arrays included). -/
theorem C120_self (v : Python) (x : Inst) : pyEq v x x = .ok (.bool true) := by
  cases v with
  | since313 => simp [pyEq]
  | upTo312 =>
    simp only [pyEq, if_true, tuple_self x.fields fun c _ => by cases c <;> simp [Cell.is, plain]]
    rfl

/-! ## Arrays -/

theorem bcast_self : ∀ s : List ℕ, bcast s s = some s
  | [] => rfl
  | a :: s => by simp [bcast, bdim, bcast_self s]

theorem inShape_zero : ∀ {s : List ℕ}, s.prod = 1 → InShape (s.map fun _ => 0) s
  | [], _ => trivial
  | a :: s, h => by
    rw [List.prod_cons] at h
    have h1 := Nat.eq_one_of_mul_eq_one_right h
    have h2 := Nat.eq_one_of_mul_eq_one_left h
    rw [List.map_cons]
    exact ⟨by omega, inShape_zero h2⟩

theorem proj_zeros : ∀ s : List ℕ, proj s (s.map fun _ => 0) = s.map fun _ => 0
  | [] => rfl
  | a :: s => by rw [List.map_cons, proj, proj_zeros s]; simp

/-- an array field against one with the same entries -/
theorem compare_arrays {r s : ℕ} {a b : NdArr ℝ} (h : SameValue (.arr r a) (.arr s b)) :
    ∃ get, (Cell.arr r a).compare (.arr s b) = .ok (.array a.rshape get) ∧ (a.rshape.prod = 1 → get (a.rshape.map fun _ => 0) = true) := by
  obtain ⟨h1, h2⟩ := h
  refine ⟨_, by rw [Cell.compare, NdArr.compare, ← h1, bcast_self], fun hp => ?_⟩
  rw [proj_zeros]
  simpa using h2 _ (inShape_zero hp)

theorem compare_same {x y : Cell} (h : SameValue x y) (ha : ¬ Apart x y) :
    x.is y = true ∨ ∃ r, x.compare y = .ok r ∧ r.truth = .ok true := by
  by_cases hx : (plain x).isSome
  · right
    have hy : plain x = plain y := by
      cases x <;> cases y <;> simp [plain] at hx <;> exact h.2
    obtain ⟨b, hb, e⟩ := compare_plain hx (hy ▸ hx)
    exact ⟨_, hb, by rw [e.2 hy]; rfl⟩
  · cases x <;> simp [plain] at hx
    · exact absurd h.1 (by simp [plain])
    · rename_i r a
      cases y with
      | arr s b =>
        by_cases hr : r = s
        · exact .inl (by simp [Cell.is, hr])
        · have hp : a.rshape.prod = 1 := by
            by_contra hp
            exact ha ⟨hr, hp⟩
          obtain ⟨g, hg, h1⟩ := compare_arrays h
          exact .inr ⟨_, hg, by rw [Compared.truth, if_pos hp, h1 hp]⟩
      | _ => exact absurd h.1 (by simp [plain])
    · exact absurd h.1 (by simp [plain])

theorem compare_apart {x y : Cell} (h : SameValue x y) (ha : Apart x y) :
    x.is y = false ∧ ∃ r m, x.compare y = .ok r ∧ r.truth = .error (.valueError m) := by
  cases x <;> cases y <;> try exact ha.elim
  obtain ⟨g, hg, _⟩ := compare_arrays h
  exact ⟨by simpa [Cell.is] using ha.1, _, _, hg, by rw [Compared.truth, if_neg ha.2]⟩

theorem tuple_same : ∀ {xs ys : List Cell}, List.Forall₂ SameValue xs ys →
    ((∀ p ∈ xs.zip ys, ¬ Apart p.1 p.2) → tupleCompare xs ys = .ok true) ∧
    ((∃ p ∈ xs.zip ys, Apart p.1 p.2) → ∃ m, tupleCompare xs ys = .error (.valueError m))
  | [], [], _ => ⟨fun _ => rfl, by simp⟩
  | x :: xs, y :: ys, .cons h hs => by
    obtain ⟨ih1, ih2⟩ := tuple_same hs
    by_cases ha : Apart x y
    · obtain ⟨hi, r, m, hc, ht⟩ := compare_apart h ha
      refine ⟨fun hn => absurd ha (hn (x, y) (by simp)), fun _ => ⟨m, ?_⟩⟩
      rw [tupleCompare, hi, hc]
      change (do if ← r.truth then tupleCompare xs ys else return false) = _
      rw [ht]
      rfl
    · have e : tupleCompare (x :: xs) (y :: ys) = tupleCompare xs ys := by
        rcases compare_same h ha with hi | ⟨r, hc, ht⟩
        · rw [tupleCompare, hi]; rfl
        · rw [tupleCompare, hc]
          split
          · rfl
          · change (do if ← r.truth then tupleCompare xs ys else return false) = _
            rw [ht]
            rfl
      rw [e]
      refine ⟨fun hn => ih1 fun p hp => hn p (by simp [hp]), fun ⟨p, hp, hap⟩ => ih2 ⟨p, ?_, hap⟩⟩
      rw [List.zip_cons_cons, List.mem_cons] at hp
      rcases hp with rfl | hp
      · exact absurd hap ha
      · exact hp

/-- C120 (disagreement). Two instances with the same values in all fields: `==` is `True` if no field holds two different
arrays with other than one entry. If some field does, `==` raises `ValueError`, although all the entries agree. -/
theorem C120_same_arrays (x y : Inst) (hc : x.cls = y.cls) (h : List.Forall₂ SameValue x.fields y.fields) :
    (pyEq .upTo312 x y = .ok (.bool true) ↔ ∀ p ∈ x.fields.zip y.fields, ¬ Apart p.1 p.2) ∧
    ((∃ m, pyEq .upTo312 x y = .error (.valueError m)) ↔ ∃ p ∈ x.fields.zip y.fields, Apart p.1 p.2) := by
  obtain ⟨h1, h2⟩ := tuple_same h
  by_cases ha : ∃ p ∈ x.fields.zip y.fields, Apart p.1 p.2
  · obtain ⟨m, hm⟩ := h2 ha
    have e : pyEq .upTo312 x y = .error (.valueError m) := by simp only [pyEq, hc, if_true, hm]; rfl
    exact ⟨by rw [e]; simpa using ha, by rw [e]; exact ⟨fun _ => ha, fun _ => ⟨m, rfl⟩⟩⟩
  · have hn : ∀ p ∈ x.fields.zip y.fields, ¬ Apart p.1 p.2 := fun p hp hap => ha ⟨p, hp, hap⟩
    have e : pyEq .upTo312 x y = .ok (.bool true) := by simp only [pyEq, hc, if_true, h1 hn]; rfl
    exact ⟨by rw [e]; exact ⟨fun _ => hn, fun _ => rfl⟩, by rw [e]; simpa using fun a b hp hap => hn (a, b) hp hap⟩

theorem chain_arrays : ∀ {xs ys : List Cell}, List.Forall₂ SameValue xs ys →
    (∃ c ∈ xs.dropLast, ∃ r a, c = .arr r a ∧ a.rshape.prod ≠ 1) → ∃ m, chainCompare xs ys = .error (.valueError m)
  | [], _, _, h => by simp at h
  | [x], _, _, h => by simp at h
  | x :: x2 :: xs, y :: y2 :: ys, .cons h hs, hx => by
    have step : ∀ {r}, x.compare y = .ok r → chainCompare (x :: x2 :: xs) (y :: y2 :: ys) =
        (do if ← r.truth then chainCompare (x2 :: xs) (y2 :: ys) else return r) := fun {r} e => by
      rw [chainCompare, e]
      · rfl
      · simp
    by_cases hb : ∃ r a, x = .arr r a ∧ a.rshape.prod ≠ 1
    · obtain ⟨r, a, rfl, hp⟩ := hb
      cases y with
      | arr s b =>
        obtain ⟨g, hg, _⟩ := compare_arrays h
        exact ⟨_, by rw [step hg, Compared.truth, if_neg hp]; rfl⟩
      | _ => exact absurd h.1 (by simp [plain])
    · obtain ⟨r, hr, ht⟩ : ∃ r, x.compare y = .ok r ∧ r.truth = .ok true := by
        cases x with
        | arr r a =>
          have hp : a.rshape.prod = 1 := by
            by_contra hp
            exact hb ⟨r, a, rfl, hp⟩
          cases y with
          | arr s b =>
            obtain ⟨g, hg, h1⟩ := compare_arrays h
            exact ⟨_, hg, by rw [Compared.truth, if_pos hp, h1 hp]⟩
          | _ => exact absurd h.1 (by simp [plain])
        | _ =>
          rcases compare_same h (by simp [Apart]) with hi | hi
          · cases y <;> simp [Cell.is] at hi <;> exact absurd h.1 (by simp [plain])
          · exact hi
      obtain ⟨c, hc, hc'⟩ := hx
      rw [List.dropLast_cons_cons, List.mem_cons] at hc
      rcases hc with rfl | hc
      · exact absurd hc' hb
      · obtain ⟨m, hm⟩ := chain_arrays hs ⟨c, hc, hc'⟩
        exact ⟨m, by rw [step hr, ht]; exact hm⟩

/-- C120 (disagreement). Since Python 3.13 sharing the arrays does not help: different instances with an array of two or
more entries in any field but the last raise. -/
theorem C120_same_arrays_since313 (x y : Inst) (hc : x.cls = y.cls) (hr : x.ref ≠ y.ref)
    (h : List.Forall₂ SameValue x.fields y.fields) (ha : ∃ c ∈ x.fields.dropLast, ∃ r a, c = .arr r a ∧ a.rshape.prod ≠ 1) :
    ∃ m, pyEq .since313 x y = .error (.valueError m) := by
  obtain ⟨m, hm⟩ := chain_arrays h ha
  exact ⟨m, by simp only [pyEq, hc, if_true, hr, if_false, hm]⟩

/-- C120 (disagreement). An array in the only field makes `==` return an array since Python 3.13. -/
theorem C120_poisson_array_since313 (r s : ℕ) (hr : r ≠ s) (n m : String → ℕ) (d : Poisson (NdArr ℝ)) (hd : d.lam.rshape ≠ []) :
    ∃ get, pyEq .since313 (d.toObj.inst r n) (d.toObj.inst s m) = .ok (.array d.lam.rshape get) := by
  obtain ⟨g, hg, _⟩ := compare_arrays (r := n "lam") (s := m "lam") (a := d.lam) (b := d.lam) ⟨rfl, fun _ _ => rfl⟩
  refine ⟨g, ?_⟩
  simp only [pyEq, Obj.inst, Poisson.toObj, if_true, hr, if_false, List.map_cons, List.map_nil, chainCompare, Value.cell, hd, hg]

/-! ## nan and SQL terms -/

theorem compare_nan {x y : Cell} (h : (∃ r, x = .nan r) ∨ ∃ r, y = .nan r) (hi : x.is y = false)
    (hx : ∀ r, x ≠ .term r) (hy : ∀ r, y ≠ .term r) (hx' : ∀ r a, x ≠ .arr r a) (hy' : ∀ r a, y ≠ .arr r a) :
    x.compare y = .ok (.bool false) := by
  rcases h with ⟨r, rfl⟩ | ⟨r, rfl⟩
  · cases y <;> first | rfl | exact absurd rfl (hy _) | exact absurd rfl (hy' _ _)
  · cases x <;> first | rfl | exact absurd rfl (hx _) | exact absurd rfl (hx' _ _)

theorem tuple_true : ∀ {xs ys : List Cell}, tupleCompare xs ys = .ok true → ∀ p ∈ xs.zip ys,
    p.1.is p.2 = true ∨ ∃ r, p.1.compare p.2 = .ok r ∧ r.truth = .ok true
  | [], _, _, p, hp => by simp at hp
  | _ :: _, [], _, p, hp => by simp at hp
  | x :: xs, y :: ys, h, p, hp => by
    rw [List.zip_cons_cons, List.mem_cons] at hp
    rw [tupleCompare] at h
    by_cases hi : x.is y = true
    · rcases hp with rfl | hp
      · exact .inl hi
      · rw [if_pos hi] at h
        exact tuple_true h p hp
    · rw [if_neg hi] at h
      cases hc : x.compare y with
      | error e => rw [hc] at h; cases h
      | ok r =>
        rw [hc] at h
        change (do if ← r.truth then tupleCompare xs ys else return false) = _ at h
        cases ht : r.truth with
        | error e => rw [ht] at h; cases h
        | ok b =>
          rw [ht] at h
          cases b with
          | false => cases h
          | true =>
            rcases hp with rfl | hp
            · exact .inr ⟨r, hc, ht⟩
            · exact tuple_true h p hp

/-- C120. An instance with nan for a parameter is not equal to one that was computed separately. -/
theorem C120_nan (x y : Inst) (r s : ℕ) (hrs : r ≠ s) (h : (Cell.nan r, Cell.nan s) ∈ x.fields.zip y.fields) :
    pyEq .upTo312 x y ≠ .ok (.bool true) := by
  intro e
  by_cases hc : x.cls = y.cls
  · simp only [pyEq, hc, if_true] at e
    cases ht : tupleCompare x.fields y.fields with
    | error _ => rw [ht] at e; cases e
    | ok b =>
      rw [ht] at e
      obtain rfl : b = true := by cases e; rfl
      rcases tuple_true ht _ h with hi | ⟨c, hc, hb⟩
      · simp [Cell.is, hrs] at hi
      · cases hc
        cases hb
  · simp [pyEq, hc] at e

/-- C120 (disagreement). Of two instances with SQL terms for parameters, `==` is true whatever the terms say. -/
theorem C120_sql_terms (v : Python) (x y : Inst) (hc : x.cls = y.cls) (hf : x.fields.length = y.fields.length)
    (hx : ∀ c ∈ x.fields, ∃ r, c = .term r) (hy : ∀ c ∈ y.fields, ∃ r, c = .term r) :
    ∃ c, pyEq v x y = .ok c ∧ c.truth = .ok true := by
  have tup : ∀ {xs ys : List Cell}, (∀ c ∈ xs, ∃ r, c = .term r) → (∀ c ∈ ys, ∃ r, c = .term r) → tupleCompare xs ys = .ok true := by
    intro xs
    induction xs with
    | nil => intros; rfl
    | cons x xs ih =>
      intro ys hx hy
      cases ys with
      | nil => rfl
      | cons y ys =>
        have := ih (ys := ys) (fun c m => hx c (by simp [m])) fun c m => hy c (by simp [m])
        obtain ⟨r, rfl⟩ := hx x (by simp)
        rw [tupleCompare, this]
        split <;> rfl
  have chn : ∀ {xs ys : List Cell}, xs.length = ys.length → (∀ c ∈ xs, ∃ r, c = .term r) → ∃ c, chainCompare xs ys = .ok c ∧ c.truth = .ok true := by
    intro xs
    induction xs with
    | nil => intro ys hl _; exact ⟨.bool true, by cases ys <;> rfl, rfl⟩
    | cons x xs ih =>
      intro ys hl hx
      cases ys with
      | nil => simp at hl
      | cons y ys =>
        obtain ⟨c, hc, ht⟩ := ih (ys := ys) (by simpa using hl) fun c m => hx c (by simp [m])
        obtain ⟨r, rfl⟩ := hx x (by simp)
        cases xs with
        | nil =>
          cases ys with
          | nil => exact ⟨.condition, by simp [chainCompare, Cell.compare], rfl⟩
          | cons => simp at hl
        | cons x2 xs =>
          refine ⟨c, ?_, ht⟩
          rw [chainCompare]
          · exact hc
          · simp
  cases v with
  | upTo312 => exact ⟨.bool true, by simp only [pyEq, hc, if_true, tup hx hy]; rfl, rfl⟩
  | since313 =>
    by_cases hr : x.ref = y.ref
    · exact ⟨.bool true, by simp [pyEq, hc, hr], rfl⟩
    · obtain ⟨c, h1, h2⟩ := chn hf hx
      exact ⟨c, by simp [pyEq, hc, hr, h1], h2⟩

/-! ## Equal exactly when the distribution is the same -/

theorem decides_of_plain (v : Python) {o o' : Obj ℝ} {P : Prop}
    (hx : ∀ r refs, Plain (o.inst r refs)) (hy : ∀ r refs, Plain (o'.inst r refs)) (hl : o.fields.length = o'.fields.length)
    (h : ∀ refs refs', (o.cls = o'.cls ∧ (o.inst 0 refs).fields.map plain = (o'.inst 0 refs').fields.map plain) ↔ P) :
    EqDecides v o o' P := by
  intro r s refs refs' hr
  obtain ⟨b, hb, h'⟩ := C120_numbers v (o.inst r refs) (o'.inst s refs') (hx r refs) (hy s refs')
    (fun _ => by simpa [Obj.inst] using hl) fun e => absurd e hr
  have h2 := h'.trans (h refs refs')
  constructor <;> intro hp <;> rw [hb]
  · rw [h2.2 hp]
  · cases b with
    | true => exact absurd (h2.1 rfl) hp
    | false => rfl

theorem beta_decides (v : Python) (d d' : Beta ℝ) : EqDecides v (fmap scalar d).toObj (fmap scalar d').toObj (d = d') := by
  obtain ⟨⟩ := d
  obtain ⟨⟩ := d'
  refine decides_of_plain v (fun r refs => ?_) (fun r refs => ?_) rfl fun refs refs' => ?_ <;>
    simp [Plain, Obj.inst, Beta.toObj, fmap, Value.cell, scalar, plain]

/-- C120. `==` is `True` exactly when the two distributions are the same. -/
theorem C120_beta (v : Python) (d d' : Beta ℝ) (hd : d.Valid) (hd' : d'.Valid) :
    EqDecides v (fmap scalar d).toObj (fmap scalar d').toObj (∀ x ∈ Ioo (0 : ℝ) 1, d.dist.pdf x = d'.dist.pdf x) := by
  have : (∀ x ∈ Ioo (0 : ℝ) 1, d.dist.pdf x = d'.dist.pdf x) ↔ d = d' := ⟨C97_beta d d' hd hd', by rintro rfl; intros; rfl⟩
  rw [this]
  exact beta_decides v d d'

theorem gamma_decides (v : Python) (d d' : Gamma ℝ) : EqDecides v (fmap scalar d).toObj (fmap scalar d').toObj (d = d') := by
  obtain ⟨⟩ := d
  obtain ⟨⟩ := d'
  refine decides_of_plain v (fun r refs => ?_) (fun r refs => ?_) rfl fun refs refs' => ?_ <;>
    simp [Plain, Obj.inst, Gamma.toObj, fmap, Value.cell, scalar, plain]

/-- C120. `==` is `True` exactly when the two distributions are the same. -/
theorem C120_gamma (v : Python) (d d' : Gamma ℝ) (hd : d.Valid) (hd' : d'.Valid) :
    EqDecides v (fmap scalar d).toObj (fmap scalar d').toObj (∀ x ∈ Ioi (0 : ℝ), d.dist.pdf x = d'.dist.pdf x) := by
  have : (∀ x ∈ Ioi (0 : ℝ), d.dist.pdf x = d'.dist.pdf x) ↔ d = d' := ⟨C97_gamma d d' hd hd', by rintro rfl; intros; rfl⟩
  rw [this]
  exact gamma_decides v d d'

theorem inverse_gamma_decides (v : Python) (d d' : InverseGamma ℝ) : EqDecides v (fmap scalar d).toObj (fmap scalar d').toObj (d = d') := by
  obtain ⟨⟩ := d
  obtain ⟨⟩ := d'
  refine decides_of_plain v (fun r refs => ?_) (fun r refs => ?_) rfl fun refs refs' => ?_ <;>
    simp [Plain, Obj.inst, InverseGamma.toObj, fmap, Value.cell, scalar, plain]

/-- C120. `==` is `True` exactly when the two distributions are the same. -/
theorem C120_inverse_gamma (v : Python) (d d' : InverseGamma ℝ) (hd : d.Valid) (hd' : d'.Valid) :
    EqDecides v (fmap scalar d).toObj (fmap scalar d').toObj (∀ x ∈ Ioi (0 : ℝ), d.dist.pdf x = d'.dist.pdf x) := by
  have : (∀ x ∈ Ioi (0 : ℝ), d.dist.pdf x = d'.dist.pdf x) ↔ d = d' := ⟨C97_inverse_gamma d d' hd hd', by rintro rfl; intros; rfl⟩
  rw [this]
  exact inverse_gamma_decides v d d'

theorem scaled_inverse_chi_squared_decides (v : Python) (d d' : ScaledInverseChiSquared ℝ) : EqDecides v (fmap scalar d).toObj (fmap scalar d').toObj (d = d') := by
  obtain ⟨⟩ := d
  obtain ⟨⟩ := d'
  refine decides_of_plain v (fun r refs => ?_) (fun r refs => ?_) rfl fun refs refs' => ?_ <;>
    simp [Plain, Obj.inst, ScaledInverseChiSquared.toObj, fmap, Value.cell, scalar, plain]

/-- C120. `==` is `True` exactly when the two distributions are the same. -/
theorem C120_scaled_inverse_chi_squared (v : Python) (d d' : ScaledInverseChiSquared ℝ) (hn : 0 < d.nu) (hs : 0 < d.sigma2) (hn' : 0 < d'.nu) (hs' : 0 < d'.sigma2) :
    EqDecides v (fmap scalar d).toObj (fmap scalar d').toObj (∀ x ∈ Ioi (0 : ℝ), d.dist.pdf x = d'.dist.pdf x) := by
  have : (∀ x ∈ Ioi (0 : ℝ), d.dist.pdf x = d'.dist.pdf x) ↔ d = d' := ⟨C97_scaled_inverse_chi_squared d d' hn hs hn' hs', by rintro rfl; intros; rfl⟩
  rw [this]
  exact scaled_inverse_chi_squared_decides v d d'

theorem normal_decides (v : Python) (d d' : Normal ℝ) : EqDecides v (fmap scalar d).toObj (fmap scalar d').toObj (d = d') := by
  obtain ⟨⟩ := d
  obtain ⟨⟩ := d'
  refine decides_of_plain v (fun r refs => ?_) (fun r refs => ?_) rfl fun refs refs' => ?_ <;>
    simp [Plain, Obj.inst, Normal.toObj, fmap, Value.cell, scalar, plain]

/-- C120. `==` is `True` exactly when the two distributions are the same. -/
theorem C120_normal (v : Python) (d d' : Normal ℝ) (hs : 0 < d.sigma) (hs' : 0 < d'.sigma) :
    EqDecides v (fmap scalar d).toObj (fmap scalar d').toObj (∀ x, d.dist.pdf x = d'.dist.pdf x) := by
  have : (∀ x, d.dist.pdf x = d'.dist.pdf x) ↔ d = d' := ⟨C97_normal d d' hs hs', by rintro rfl; intros; rfl⟩
  rw [this]
  exact normal_decides v d d'

theorem exponential_decides (v : Python) (d d' : Exponential ℝ) : EqDecides v (fmap scalar d).toObj (fmap scalar d').toObj (d = d') := by
  obtain ⟨⟩ := d
  obtain ⟨⟩ := d'
  refine decides_of_plain v (fun r refs => ?_) (fun r refs => ?_) rfl fun refs refs' => ?_ <;>
    simp [Plain, Obj.inst, Exponential.toObj, fmap, Value.cell, scalar, plain]

/-- C120. `==` is `True` exactly when the two distributions are the same. -/
theorem C120_exponential (v : Python) (d d' : Exponential ℝ) (hd : 0 < d.lam) (hd' : 0 < d'.lam) :
    EqDecides v (fmap scalar d).toObj (fmap scalar d').toObj (∀ x ∈ Ioi (0 : ℝ), d.dist.pdf x = d'.dist.pdf x) := by
  have : (∀ x ∈ Ioi (0 : ℝ), d.dist.pdf x = d'.dist.pdf x) ↔ d = d' := ⟨C97_exponential d d' hd hd', by rintro rfl; intros; rfl⟩
  rw [this]
  exact exponential_decides v d d'

theorem uniform_decides (v : Python) (d d' : Uniform ℝ) : EqDecides v (fmap scalar d).toObj (fmap scalar d').toObj (d = d') := by
  obtain ⟨⟩ := d
  obtain ⟨⟩ := d'
  refine decides_of_plain v (fun r refs => ?_) (fun r refs => ?_) rfl fun refs refs' => ?_ <;>
    simp [Plain, Obj.inst, Uniform.toObj, fmap, Value.cell, scalar, plain]

/-- C120. `==` is `True` exactly when the two distributions are the same. -/
theorem C120_uniform (v : Python) (d d' : Uniform ℝ) (hd : 0 < d.high) (hd' : 0 < d'.high) :
    EqDecides v (fmap scalar d).toObj (fmap scalar d').toObj (∀ x, d.dist.pdf x = d'.dist.pdf x) := by
  have : (∀ x, d.dist.pdf x = d'.dist.pdf x) ↔ d = d' := ⟨C97_uniform d d' hd hd', by rintro rfl; intros; rfl⟩
  rw [this]
  exact uniform_decides v d d'

theorem pareto_decides (v : Python) (d d' : Pareto ℝ) : EqDecides v (fmap scalar d).toObj (fmap scalar d').toObj (d = d') := by
  obtain ⟨⟩ := d
  obtain ⟨⟩ := d'
  refine decides_of_plain v (fun r refs => ?_) (fun r refs => ?_) rfl fun refs refs' => ?_ <;>
    simp [Plain, Obj.inst, Pareto.toObj, fmap, Value.cell, scalar, plain]

/-- C120. `==` is `True` exactly when the two distributions are the same. -/
theorem C120_pareto (v : Python) (d d' : Pareto ℝ) (hd : d.Valid) (hd' : d'.Valid) :
    EqDecides v (fmap scalar d).toObj (fmap scalar d').toObj (∀ x ∈ Ioi (0 : ℝ), d.dist.pdf x = d'.dist.pdf x) := by
  have : (∀ x ∈ Ioi (0 : ℝ), d.dist.pdf x = d'.dist.pdf x) ↔ d = d' := ⟨C97_pareto d d' hd hd', by rintro rfl; intros; rfl⟩
  rw [this]
  exact pareto_decides v d d'

theorem lomax_decides (v : Python) (d d' : Lomax ℝ) : EqDecides v (fmap scalar d).toObj (fmap scalar d').toObj (d = d') := by
  obtain ⟨⟩ := d
  obtain ⟨⟩ := d'
  refine decides_of_plain v (fun r refs => ?_) (fun r refs => ?_) rfl fun refs refs' => ?_ <;>
    simp [Plain, Obj.inst, Lomax.toObj, fmap, Value.cell, scalar, plain]

/-- C120. `==` is `True` exactly when the two distributions are the same. -/
theorem C120_lomax (v : Python) (d d' : Lomax ℝ) (ha : 0 < d.alpha) (hl : 0 < d.lam) (ha' : 0 < d'.alpha) (hl' : 0 < d'.lam) :
    EqDecides v (fmap scalar d).toObj (fmap scalar d').toObj (∀ x ∈ Ioi (0 : ℝ), d.dist.pdf x = d'.dist.pdf x) := by
  have : (∀ x ∈ Ioi (0 : ℝ), d.dist.pdf x = d'.dist.pdf x) ↔ d = d' := ⟨C97_lomax d d' ha hl ha' hl', by rintro rfl; intros; rfl⟩
  rw [this]
  exact lomax_decides v d d'

theorem student_t_decides (v : Python) (d d' : StudentT ℝ) : EqDecides v (fmap scalar d).toObj (fmap scalar d').toObj (d = d') := by
  obtain ⟨⟩ := d
  obtain ⟨⟩ := d'
  refine decides_of_plain v (fun r refs => ?_) (fun r refs => ?_) rfl fun refs refs' => ?_ <;>
    simp [Plain, Obj.inst, StudentT.toObj, fmap, Value.cell, scalar, plain]

/-- C120. `==` is `True` exactly when the two distributions are the same. -/
theorem C120_student_t (v : Python) (d d' : StudentT ℝ) (hs : 0 < d.sigma) (hn : 0 < d.nu) (hs' : 0 < d'.sigma) (hn' : 0 < d'.nu) :
    EqDecides v (fmap scalar d).toObj (fmap scalar d').toObj (∀ x, d.dist.pdf x = d'.dist.pdf x) := by
  have : (∀ x, d.dist.pdf x = d'.dist.pdf x) ↔ d = d' := ⟨C97_student_t d d' hs hn hs' hn', by rintro rfl; intros; rfl⟩
  rw [this]
  exact student_t_decides v d d'

theorem compound_gamma_decides (v : Python) (d d' : CompoundGamma ℝ) : EqDecides v (fmap scalar d).toObj (fmap scalar d').toObj (d = d') := by
  obtain ⟨⟩ := d
  obtain ⟨⟩ := d'
  refine decides_of_plain v (fun r refs => ?_) (fun r refs => ?_) rfl fun refs refs' => ?_ <;>
    simp [Plain, Obj.inst, CompoundGamma.toObj, fmap, Value.cell, scalar, plain]

/-- C120. `==` is `True` exactly when the two distributions are the same. -/
theorem C120_compound_gamma (v : Python) (d d' : CompoundGamma ℝ) (ha : 0 < d.alpha) (hb : 0 < d.beta) (hl : 0 < d.lam) (ha' : 0 < d'.alpha) (hb' : 0 < d'.beta) (hl' : 0 < d'.lam) :
    EqDecides v (fmap scalar d).toObj (fmap scalar d').toObj (∀ x ∈ Ioi (0 : ℝ), d.pdf x = d'.pdf x) := by
  have : (∀ x ∈ Ioi (0 : ℝ), d.pdf x = d'.pdf x) ↔ d = d' := ⟨C97_compound_gamma d d' ha hb hl ha' hb' hl', by rintro rfl; intros; rfl⟩
  rw [this]
  exact compound_gamma_decides v d d'

theorem weibull_decides (v : Python) (d d' : Weibull ℝ) : EqDecides v (fmap scalar d).toObj (fmap scalar d').toObj (d = d') := by
  obtain ⟨⟩ := d
  obtain ⟨⟩ := d'
  refine decides_of_plain v (fun r refs => ?_) (fun r refs => ?_) rfl fun refs refs' => ?_ <;>
    simp [Plain, Obj.inst, Weibull.toObj, fmap, Value.cell, scalar, plain]

/-- C120. `==` is `True` exactly when the two distributions are the same. -/
theorem C120_weibull (v : Python) (d d' : Weibull ℝ) (hb : 0 < d.beta) (ht : 0 < d.theta) (hb' : 0 < d'.beta) (ht' : 0 < d'.theta) :
    EqDecides v (fmap scalar d).toObj (fmap scalar d').toObj (∀ x ∈ Ioi (0 : ℝ), d.dist.pdf x = d'.dist.pdf x) := by
  have : (∀ x ∈ Ioi (0 : ℝ), d.dist.pdf x = d'.dist.pdf x) ↔ d = d' := ⟨C97_weibull d d' hb ht hb' ht', by rintro rfl; intros; rfl⟩
  rw [this]
  exact weibull_decides v d d'

theorem log_normal_decides (v : Python) (d d' : LogNormal ℝ) : EqDecides v (fmap scalar d).toObj (fmap scalar d').toObj (d = d') := by
  obtain ⟨⟩ := d
  obtain ⟨⟩ := d'
  refine decides_of_plain v (fun r refs => ?_) (fun r refs => ?_) rfl fun refs refs' => ?_ <;>
    simp [Plain, Obj.inst, LogNormal.toObj, fmap, Value.cell, scalar, plain]

/-- C120. `==` is `True` exactly when the two distributions are the same. -/
theorem C120_log_normal (v : Python) (d d' : LogNormal ℝ) (hs : 0 < d.sigma) (hs' : 0 < d'.sigma) :
    EqDecides v (fmap scalar d).toObj (fmap scalar d').toObj (∀ x, d.dist.pdf x = d'.dist.pdf x) := by
  have : (∀ x, d.dist.pdf x = d'.dist.pdf x) ↔ d = d' := ⟨C97_log_normal d d' hs hs', by rintro rfl; intros; rfl⟩
  rw [this]
  exact log_normal_decides v d d'

theorem poisson_decides (v : Python) (d d' : Poisson ℝ) : EqDecides v (fmap scalar d).toObj (fmap scalar d').toObj (d = d') := by
  obtain ⟨⟩ := d
  obtain ⟨⟩ := d'
  refine decides_of_plain v (fun r refs => ?_) (fun r refs => ?_) rfl fun refs refs' => ?_ <;>
    simp [Plain, Obj.inst, Poisson.toObj, fmap, Value.cell, scalar, plain]

/-- C120. `==` is `True` exactly when the two distributions are the same. -/
theorem C120_poisson (v : Python) (d d' : Poisson ℝ)  :
    EqDecides v (fmap scalar d).toObj (fmap scalar d').toObj (∀ k : ℤ, d.dist.pmf k = d'.dist.pmf k) := by
  have : (∀ k : ℤ, d.dist.pmf k = d'.dist.pmf k) ↔ d = d' := ⟨C97_poisson d d', by rintro rfl; intros; rfl⟩
  rw [this]
  exact poisson_decides v d d'

theorem geometric_decides (v : Python) (d d' : Geometric ℝ) : EqDecides v (fmap scalar d).toObj (fmap scalar d').toObj (d = d') := by
  obtain ⟨p, s⟩ := d
  obtain ⟨p', s'⟩ := d'
  refine decides_of_plain v (fun r refs => ?_) (fun r refs => ?_) rfl fun refs refs' => ?_ <;>
    cases s <;> cases s' <;> simp [Plain, Obj.inst, Geometric.toObj, fmap, Value.cell, scalar, plain]

/-- C120. `==` is `True` exactly when the two distributions are the same. -/
theorem C120_geometric (v : Python) (d d' : Geometric ℝ) (hp : 0 < d.p) (hp' : 0 < d'.p) :
    EqDecides v (fmap scalar d).toObj (fmap scalar d').toObj (∀ k : ℤ, d.dist.pmf k = d'.dist.pmf k) := by
  have : (∀ k : ℤ, d.dist.pmf k = d'.dist.pmf k) ↔ d = d' := ⟨C97_geometric d d' hp hp', by rintro rfl; intros; rfl⟩
  rw [this]
  exact geometric_decides v d d'

theorem negative_binomial_decides (v : Python) (d d' : NegativeBinomial ℝ) : EqDecides v (fmap scalar d).toObj (fmap scalar d').toObj (d = d') := by
  obtain ⟨⟩ := d
  obtain ⟨⟩ := d'
  refine decides_of_plain v (fun r refs => ?_) (fun r refs => ?_) rfl fun refs refs' => ?_ <;>
    simp [Plain, Obj.inst, NegativeBinomial.toObj, fmap, Value.cell, scalar, plain]

/-- C120. `==` is `True` exactly when the two distributions are the same. -/
theorem C120_negative_binomial (v : Python) (d d' : NegativeBinomial ℝ) (hn : 0 < d.n) (hp : d.p ∈ Ioo (0 : ℝ) 1) (hn' : 0 < d'.n) (hp' : d'.p ∈ Ioo (0 : ℝ) 1) :
    EqDecides v (fmap scalar d).toObj (fmap scalar d').toObj (∀ k : ℤ, d.dist.pmf k = d'.dist.pmf k) := by
  have : (∀ k : ℤ, d.dist.pmf k = d'.dist.pmf k) ↔ d = d' := ⟨C97_negative_binomial d d' hn hp hn' hp', by rintro rfl; intros; rfl⟩
  rw [this]
  exact negative_binomial_decides v d d'

theorem beta_geometric_decides (v : Python) (d d' : BetaGeometric ℝ) : EqDecides v (fmap scalar d).toObj (fmap scalar d').toObj (d = d') := by
  obtain ⟨a, b, s⟩ := d
  obtain ⟨a', b', s'⟩ := d'
  refine decides_of_plain v (fun r refs => ?_) (fun r refs => ?_) rfl fun refs refs' => ?_ <;>
    cases s <;> cases s' <;> simp [Plain, Obj.inst, BetaGeometric.toObj, fmap, Value.cell, scalar, plain]

/-- C120. `==` is `True` exactly when the two distributions are the same. -/
theorem C120_beta_geometric (v : Python) (d d' : BetaGeometric ℝ) (ha : 0 < d.alpha) (hb : 0 < d.beta) (ha' : 0 < d'.alpha) (hb' : 0 < d'.beta) :
    EqDecides v (fmap scalar d).toObj (fmap scalar d').toObj (∀ k : ℕ, 1 ≤ k → d.pmf k = d'.pmf k) := by
  have : (∀ k : ℕ, 1 ≤ k → d.pmf k = d'.pmf k) ↔ d = d' := ⟨C97_beta_geometric d d' ha hb ha' hb', by rintro rfl; intros; rfl⟩
  rw [this]
  exact beta_geometric_decides v d d'

theorem von_mises_decides (v : Python) (d d' : VonMises ℝ) : EqDecides v (fmap scalar d).toObj (fmap scalar d').toObj (d = d') := by
  obtain ⟨⟩ := d
  obtain ⟨⟩ := d'
  refine decides_of_plain v (fun r refs => ?_) (fun r refs => ?_) rfl fun refs refs' => ?_ <;>
    simp [Plain, Obj.inst, VonMises.toObj, fmap, Value.cell, scalar, plain]

/-- C120. `==` is `True` exactly when the two distributions are the same. -/
theorem C120_von_mises (v : Python) (d d' : VonMises ℝ) (hk : 0 < d.kappa) (hk' : 0 < d'.kappa) (hm : d.mu ∈ Ioc (-π) π) (hm' : d'.mu ∈ Ioc (-π) π) :
    EqDecides v (fmap scalar d).toObj (fmap scalar d').toObj (∀ x, d.dist.pdf x = d'.dist.pdf x) := by
  have : (∀ x, d.dist.pdf x = d'.dist.pdf x) ↔ d = d' := ⟨C97_von_mises_principal d d' hk hk' hm hm', by rintro rfl; intros; rfl⟩
  rw [this]
  exact von_mises_decides v d d'

theorem binomial_decides (v : Python) (d d' : Binomial ℝ) : EqDecides v (fmap scalar d).toObj (fmap scalar d').toObj (d = d') := by
  obtain ⟨⟩ := d
  obtain ⟨⟩ := d'
  refine decides_of_plain v (fun r refs => ?_) (fun r refs => ?_) rfl fun refs refs' => ?_ <;>
    simp [Plain, Obj.inst, Binomial.toObj, fmap, Value.cell, scalar, plain]

theorem hypergeometric_decides (v : Python) (d d' : Hypergeometric ℝ) : EqDecides v (fmap scalar d).toObj (fmap scalar d').toObj (d = d') := by
  obtain ⟨⟩ := d
  obtain ⟨⟩ := d'
  refine decides_of_plain v (fun r refs => ?_) (fun r refs => ?_) rfl fun refs refs' => ?_ <;>
    simp [Plain, Obj.inst, Hypergeometric.toObj, fmap, Value.cell, scalar, plain]

theorem beta_binomial_decides (v : Python) (d d' : BetaBinomial ℝ) : EqDecides v (fmap scalar d).toObj (fmap scalar d').toObj (d = d') := by
  obtain ⟨⟩ := d
  obtain ⟨⟩ := d'
  refine decides_of_plain v (fun r refs => ?_) (fun r refs => ?_) rfl fun refs refs' => ?_ <;>
    simp [Plain, Obj.inst, BetaBinomial.toObj, fmap, Value.cell, scalar, plain]

theorem beta_negative_binomial_decides (v : Python) (d d' : BetaNegativeBinomial ℝ) : EqDecides v (fmap scalar d).toObj (fmap scalar d').toObj (d = d') := by
  obtain ⟨⟩ := d
  obtain ⟨⟩ := d'
  refine decides_of_plain v (fun r refs => ?_) (fun r refs => ?_) rfl fun refs refs' => ?_ <;>
    simp [Plain, Obj.inst, BetaNegativeBinomial.toObj, fmap, Value.cell, scalar, plain]

/-- C120. Where different parameters mean the same distribution (see C97), `==` is `False` all the same: beta negative
binomials with `n` and `beta` exchanged. -/
theorem C120_beta_negative_binomial (v : Python) (d : BetaNegativeBinomial ℝ) (hn : 0 < d.n) (ha : 0 < d.alpha) (hb : 0 < d.beta)
    (hne : d.n ≠ d.beta) :
    (∀ k : ℤ, d.dist.pmf k = (BetaNegativeBinomial.mk d.beta d.alpha d.n).dist.pmf k) ∧
      EqDecides v (fmap scalar d).toObj (fmap scalar (BetaNegativeBinomial.mk d.beta d.alpha d.n)).toObj False := by
  refine ⟨(C97_beta_negative_binomial d ⟨d.beta, d.alpha, d.n⟩ hn ha hb hb ha hn).2 (.inr rfl), ?_⟩
  have : d ≠ ⟨d.beta, d.alpha, d.n⟩ := fun h => hne (congrArg BetaNegativeBinomial.n h)
  simpa only [this] using beta_negative_binomial_decides v d ⟨d.beta, d.alpha, d.n⟩

/-- ... and beta binomials with one trial. -/
theorem C120_beta_binomial_one_trial (v : Python) :
    (∀ k : ℤ, (BetaBinomial.dist ⟨(1 : ℝ), 1, 1⟩).pmf k = (BetaBinomial.dist ⟨1, 2, 2⟩).pmf k) ∧
      EqDecides v (fmap scalar (BetaBinomial.mk (1 : ℝ) 1 1)).toObj (fmap scalar (BetaBinomial.mk (1 : ℝ) 2 2)).toObj False := by
  refine ⟨C97_beta_binomial_one_trial_false.2, ?_⟩
  simpa only [C97_beta_binomial_one_trial_false.1] using beta_binomial_decides v ⟨1, 1, 1⟩ ⟨1, 2, 2⟩

/-- C120. Instances of different classes are never equal: `Gamma(1, 1)` is not `Exponential(1)`. -/
theorem C120_classes (v : Python) (x y : Inst) (h : x.cls ≠ y.cls) : pyEq v x y = .ok (.bool false) := by simp [pyEq, h]

/-- C120. An entry `dist[i]` of a vectorised distribution is equal to the distribution with the `i`-th parameters. -/
theorem C120_entry (v : Python) (cls : String) (params : List (String × NdArr ℝ)) (n : ℕ) (i : ℕ) (hi : i < n)
    (hp : ∀ p ∈ params, p.2.rshape = [n]) (attrs : List (String × ℝ)) :
    EqDecides v (Obj.getitem { cls := cls, fields := params.map fun p => (p.1, .arr p.2), attrs := attrs } (.int i))
      { cls := cls, fields := params.map fun p => (p.1, .arr (.scalar (p.2.get [i]))), attrs := [] } True := by
  have key : Obj.getitem { cls := cls, fields := params.map fun p => (p.1, .arr p.2), attrs := attrs } (.int i) =
      { cls := cls, fields := params.map fun p => (p.1, .arr { rshape := [], get := fun idx => p.2.get (idx ++ [i]) }), attrs := [] } := by
    simp only [Obj.getitem, Obj.construct, List.map_map]
    congr 1
    refine List.map_congr_left fun p hm => ?_
    simp [Value.takeSlice, Value.getitem, NdArr.getitem, hp p hm, normIndex, hi, Except.map]
  rw [key]
  refine decides_of_plain v (fun r refs => ?_) (fun r refs => ?_) (by simp) fun refs refs' => ?_
  · intro c hc
    simp only [Obj.inst, Value.cell, List.map_map, List.mem_map, Function.comp_apply, if_true] at hc
    obtain ⟨_, _, rfl⟩ := hc
    rfl
  · intro c hc
    simp only [Obj.inst, Value.cell, scalar, List.map_map, List.mem_map, Function.comp_apply, if_true] at hc
    obtain ⟨_, _, rfl⟩ := hc
    rfl
  · simp [Obj.inst, Value.cell, plain, scalar]

/-- a vectorised posterior computed twice: `==` raises -/
example (a b : NdArr ℝ) (ha : a.rshape = [3]) (r s : ℕ) (refs refs' : String → ℕ) (h : refs "alpha" ≠ refs' "alpha")
    (hb : b.rshape = [3]) :
    ∃ m, pyEq .upTo312 ((Beta.mk a b).toObj.inst r refs) ((Beta.mk a b).toObj.inst s refs') = .error (.valueError m) := by
  refine (C120_same_arrays ((Beta.mk a b).toObj.inst r refs) ((Beta.mk a b).toObj.inst s refs') rfl ?_).2.2 ?_
  · simp [Obj.inst, Beta.toObj, Value.cell, ha, hb, SameValue]
  · refine ⟨(.arr (refs "alpha") a, .arr (refs' "alpha") a), ?_, h, by simp [ha]⟩
    simp [Obj.inst, Beta.toObj, Value.cell, ha, hb]

/-- two SQL priors with different columns -/
example : ∃ c, pyEq .upTo312 ⟨0, "Beta", [.term 1, .term 2], []⟩ ⟨3, "Beta", [.term 4, .term 5], []⟩ = .ok c ∧ c.truth = .ok true :=
  C120_sql_terms _ _ _ rfl rfl (by simp) (by simp)

example : pyEq .upTo312 ⟨0, "Normal", [.nan 1, .num 1], []⟩ ⟨2, "Normal", [.nan 3, .num 1], []⟩ ≠ .ok (.bool true) :=
  C120_nan _ _ 1 3 (by decide) (by simp)

example : ∃ m, pyEq .since313 ⟨0, "Normal", [.arr 1 ⟨[2], fun _ => 0⟩, .num 1], []⟩ ⟨2, "Normal", [.arr 1 ⟨[2], fun _ => 0⟩, .num 1], []⟩ =
    .error (.valueError m) :=
  C120_same_arrays_since313 _ _ rfl (by decide) (by simp [SameValue, plain]) ⟨_, by simp, 1, ⟨[2], fun _ => 0⟩, rfl, by simp⟩

example : (Beta.mk (1 : ℝ) 2).Valid ∧ (0 : ℝ) < (Normal.mk (0 : ℝ) 1).sigma := ⟨⟨by norm_num, by norm_num⟩, by norm_num⟩

end Conj
