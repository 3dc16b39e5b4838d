import Verif.Sql

/-! Reading the text of a PyPika term back gives its value, unless the text contains a comment. -/

namespace Conj

open Spec.Sql

/-- the value of a term on a row of real numbers -/
noncomputable def Term.at (row : String → ℝ) : Term → ℝ
  | .num x _ => x
  | .field s => row s
  | .arith .add l r => l.at row + r.at row
  | .arith .sub l r => l.at row - r.at row
  | .arith .mul l r => l.at row * r.at row
  | .arith .div l r => l.at row / r.at row
  | .pow t q _ => t.at row ^ q

/-- contexts in which the text of a term with this operator may stand without parentheses -/
def Allowed (op : Option ArithOp) (c : Ctx ℝ) : Prop :=
  c.neg = false ∧ match op with
    | none => True
    | some .mul | some .div => c.mul = none ∨ ∃ m, c.mul = some (false, m)
    | some .add | some .sub => c.mul = none ∧ (c.add = none ∨ ∃ s, c.add = some (false, s))

theorem Allowed.empty (op : Option ArithOp) : Allowed op {} := by
  rcases op with _ | _ | _ | _ | _ <;> simp [Allowed]

theorem read_numText (row : String → ℝ) (x : ℝ) (f : Bool) (st : List (Frame ℝ × Ctx ℝ)) (c : Ctx ℝ) (hc : c.neg = false)
    (rest : List Tok) : scan real row st (.wait c) (numText x f ++ rest) =
      scan real row st (.after c.add (c.operand real x)) rest := by
  unfold numText
  split
  · simp only [List.cons_append, List.nil_append, scan, hc, Bool.false_eq_true, if_false]
    congr 2
    simp [Ctx.operand, hc, real]
  · simp only [List.cons_append, List.nil_append, scan]
    rfl

/-- what reading the text of a term does -/
def ReadsBack (row : String → ℝ) (t : Term) : Prop :=
  ∀ c, Allowed t.operator c → ∃ a m, finish real a m = finish real c.add (c.operand real (t.at row)) ∧
    (t.operator.all (fun op => !op.isAddOrder) → a = c.add ∧ m = c.operand real (t.at row)) ∧
    ∀ st rest, scan real row st (.wait c) (t.text ++ rest) = scan real row st (.after a m) rest

theorem ReadsBack.paren {row : String → ℝ} {t : Term} (h : ReadsBack row t) (st : List (Frame ℝ × Ctx ℝ)) (c : Ctx ℝ)
    (rest : List Tok) : scan real row st (.wait c) (parens true t.text ++ rest) =
      scan real row st (.after c.add (c.operand real (t.at row))) rest := by
  obtain ⟨a, m, h1, -, h3⟩ := h {} (Allowed.empty _)
  simp only [parens, if_true, List.cons_append, List.append_assoc, List.nil_append, scan]
  rw [h3]
  simp only [scan, h1]
  simp [finish, Ctx.operand]

theorem readsBack (row : String → ℝ) (t : Term) : ReadsBack row t := by
  induction t with
  | num x f =>
    intro c hc
    exact ⟨_, _, rfl, fun _ => ⟨rfl, rfl⟩, fun st rest => read_numText row x f st c hc.1 rest⟩
  | field s => exact fun c hc => ⟨_, _, rfl, fun _ => ⟨rfl, rfl⟩, fun st rest => rfl⟩
  | pow t q f ih =>
    intro c hc
    refine ⟨_, _, rfl, fun _ => ⟨rfl, rfl⟩, fun st rest => ?_⟩
    obtain ⟨a, m, h1, -, h3⟩ := ih {} (Allowed.empty _)
    simp only [Term.text, List.cons_append, List.append_assoc, List.nil_append, scan]
    rw [h3]
    simp only [scan]
    rw [read_numText _ _ _ _ _ rfl]
    simp only [scan, h1]
    simp [finish, Ctx.operand, Term.at, real]
  | arith op l r hl hr =>
    -- an operand that is not a sum, with or without parentheses
    have prim : ∀ (t : Term) (b : Bool) (c : Ctx ℝ), ReadsBack row t →
        (b = false → Allowed t.operator c ∧ t.operator.all (fun op => !op.isAddOrder)) →
        ∀ st rest, scan real row st (.wait c) (parens b t.text ++ rest) =
          scan real row st (.after c.add (c.operand real (t.at row))) rest := by
      intro t b c ht hb st rest
      cases b with
      | true => exact ht.paren st c rest
      | false =>
        obtain ⟨h1, h2⟩ := hb rfl
        obtain ⟨a, m, -, h3, h4⟩ := ht c h1
        obtain ⟨rfl, rfl⟩ := h3 h2
        exact h4 st rest
    intro c hc
    cases op with
    | add =>
      simp only [Allowed, Term.operator] at hc
      obtain ⟨hneg, hmul, hadd⟩ := hc
      have al : Allowed l.operator c := by
        refine ⟨hneg, ?_⟩
        rcases l.operator with _ | _ | _ | _ | _ <;> simp [hmul, hadd]
      obtain ⟨a, m, h1, -, h3⟩ := hl c al
      obtain ⟨a', m', h1', -, h3'⟩ := hr { add := some (false, finish real a m) } (by
        refine ⟨rfl, ?_⟩
        rcases r.operator with _ | _ | _ | _ | _ <;> simp)
      refine ⟨a', m', ?_, fun h => by simp [Term.operator, ArithOp.isAddOrder] at h, fun st rest => ?_⟩
      · rw [h1', h1]
        rcases hadd with h | ⟨s, h⟩ <;> simp [finish, h, Ctx.operand, hmul, hneg, real, Term.at, add_assoc]
      · have e1 : leftNeedsParens .add l.operator = false := by rcases l.operator with _ | _ <;> rfl
        have e2 : rightNeedsParens .add r.operator = false := by rcases r.operator with _ | _ <;> rfl
        simp only [Term.text, e1, e2, parens, Bool.false_eq_true, if_false, List.append_assoc, List.cons_append]
        rw [h3]
        simp only [ArithOp.text, scan]
        rw [h3']
    | sub =>
      simp only [Allowed, Term.operator] at hc
      obtain ⟨hneg, hmul, hadd⟩ := hc
      have al : Allowed l.operator c := by
        refine ⟨hneg, ?_⟩
        rcases l.operator with _ | _ | _ | _ | _ <;> simp [hmul, hadd]
      obtain ⟨a, m, h1, -, h3⟩ := hl c al
      refine ⟨some (true, finish real a m), r.at row, ?_, fun h => by simp [Term.operator, ArithOp.isAddOrder] at h,
        fun st rest => ?_⟩
      · show finish real a m - r.at row = _
        rw [h1]
        rcases hadd with h | ⟨s, h⟩ <;> simp [finish, h, Ctx.operand, hmul, hneg, real, Term.at, add_sub_assoc]
      · have e1 : leftNeedsParens .sub l.operator = false := by rcases l.operator with _ | _ <;> rfl
        simp only [Term.text, e1, parens, Bool.false_eq_true, if_false, List.append_assoc, List.cons_append]
        rw [h3]
        simp only [ArithOp.text, scan]
        refine (prim r (rightNeedsParens .sub r.operator) _ hr (fun hb => ⟨⟨rfl, ?_⟩, ?_⟩) st rest).trans ?_
        · revert hb
          rcases r.operator with _ | _ | _ | _ | _ <;> simp [rightNeedsParens, ArithOp.isAddOrder]
        · revert hb
          rcases r.operator with _ | _ | _ | _ | _ <;> simp [rightNeedsParens, ArithOp.isAddOrder]
        · simp [Ctx.operand]
    | mul =>
      simp only [Allowed, Term.operator] at hc
      obtain ⟨hneg, hmul⟩ := hc
      have e : (c.operand real (l.at row)) * r.at row = c.operand real (l.at row * r.at row) := by
        rcases hmul with h | ⟨s, h⟩ <;> simp [Ctx.operand, h, hneg, real, mul_assoc]
      refine ⟨_, _, rfl, fun _ => ⟨rfl, rfl⟩, fun st rest => ?_⟩
      simp only [Term.text, List.append_assoc, List.cons_append]
      rw [prim l _ _ hl (fun hb => ⟨⟨hneg, ?_⟩, ?_⟩)]
      · simp only [ArithOp.text, scan]
        refine (prim r (rightNeedsParens .mul r.operator) _ hr (fun hb => ⟨⟨rfl, ?_⟩, ?_⟩) st rest).trans ?_
        · revert hb
          rcases r.operator with _ | _ | _ | _ | _ <;> simp [rightNeedsParens, ArithOp.isAddOrder]
        · revert hb
          rcases r.operator with _ | _ | _ | _ | _ <;> simp [rightNeedsParens, ArithOp.isAddOrder]
        · rw [Term.at, ← e]
          simp [Ctx.operand, real]
      · revert hb
        rcases l.operator with _ | _ | _ | _ | _ <;> simp [leftNeedsParens, ArithOp.isAddOrder, hmul]
      · revert hb
        rcases l.operator with _ | _ | _ | _ | _ <;> simp [leftNeedsParens, ArithOp.isAddOrder]
    | div =>
      simp only [Allowed, Term.operator] at hc
      obtain ⟨hneg, hmul⟩ := hc
      have e : (c.operand real (l.at row)) / r.at row = c.operand real (l.at row / r.at row) := by
        rcases hmul with h | ⟨s, h⟩ <;> simp [Ctx.operand, h, hneg, real, mul_div_assoc]
      refine ⟨_, _, rfl, fun _ => ⟨rfl, rfl⟩, fun st rest => ?_⟩
      simp only [Term.text, List.append_assoc, List.cons_append]
      rw [prim l _ _ hl (fun hb => ⟨⟨hneg, ?_⟩, ?_⟩)]
      · simp only [ArithOp.text, scan]
        refine (prim r (rightNeedsParens .div r.operator) _ hr (fun hb => ⟨⟨rfl, ?_⟩, ?_⟩) st rest).trans ?_
        · revert hb
          rcases r.operator with _ | _ | _ | _ | _ <;> simp [rightNeedsParens]
        · revert hb
          rcases r.operator with _ | _ | _ | _ | _ <;> simp [rightNeedsParens]
        · rw [Term.at, ← e]
          simp [Ctx.operand, real]
      · revert hb
        rcases l.operator with _ | _ | _ | _ | _ <;> simp [leftNeedsParens, ArithOp.isAddOrder, hmul]
      · revert hb
        rcases l.operator with _ | _ | _ | _ | _ <;> simp [leftNeedsParens, ArithOp.isAddOrder]

theorem value_text (row : String → ℝ) (t : Term) (h : uncommented t.text = t.text) :
    value real row t.text = some (t.at row) := by
  obtain ⟨a, m, h1, -, h3⟩ := readsBack row t {} (Allowed.empty _)
  have := h3 [] []
  rw [List.append_nil] at this
  rw [value, h, this, scan, h1]
  simp [finish, Ctx.operand]

/-! ## Comments -/

/-- the text of a term does not end with a minus -/
theorem text_last (t : Term) : ∃ l k, t.text = l ++ [k] ∧ k ≠ .minus := by
  have hn : ∀ x f, ∃ l k, numText x f = l ++ [k] ∧ k ≠ .minus := by
    intro x f
    unfold numText
    split
    · exact ⟨[.minus], _, rfl, by simp⟩
    · exact ⟨[], _, rfl, by simp⟩
  induction t with
  | num x f => exact hn x f
  | field s => exact ⟨[], _, rfl, by simp⟩
  | pow t q f _ => exact ⟨.pow :: (t.text ++ .comma :: numText q f), .rparen, by simp [Term.text], by simp⟩
  | arith op l r _ hr =>
    obtain ⟨m, k, h1, h2⟩ := hr
    cases hb : rightNeedsParens op r.operator with
    | true => exact ⟨_ ++ op.text :: .lparen :: r.text, .rparen, by simp [Term.text, hb, parens]; rfl, by simp⟩
    | false => exact ⟨_ ++ op.text :: m, k, by simp [Term.text, hb, parens, h1]; rfl, h2⟩

theorem uncommented_append (l r : List Tok) (hl : uncommented l = l) (hr : uncommented r = r)
    (h : l.getLast? ≠ some .minus ∨ r.head? ≠ some .minus) : uncommented (l ++ r) = l ++ r := by
  induction l with
  | nil => exact hr
  | cons x l ih =>
    cases l with
    | nil =>
      cases r with
      | nil => exact hl
      | cons y r =>
        simp only [List.cons_append, List.nil_append]
        by_cases hx : x = .minus
        · by_cases hy : y = .minus
          · simp [hx, hy] at h
          · rw [uncommented, hr]
            rintro _ _ h2
            exact hy (by simpa using (congrArg List.head? h2))
        · rw [uncommented, hr]
          intro _ h1
          exact absurd h1 hx
    | cons y l =>
      by_cases hc : x = .minus ∧ y = .minus
      · rw [hc.1, hc.2, uncommented] at hl
        simp at hl
      · have e : ∀ z, uncommented (x :: y :: z) = x :: uncommented (y :: z) := by
          intro z
          rw [uncommented]
          rintro _ h1 h2
          exact hc ⟨h1, by simpa using (congrArg List.head? h2)⟩
        rw [e] at hl
        have hl' : uncommented (y :: l) = y :: l := by simpa using hl
        have := ih hl' (by simpa [List.getLast?_cons_cons] using h)
        simp only [List.cons_append] at this ⊢
        rw [e, this]

theorem uncommented_cons (t : Tok) (r : List Tok) (hr : uncommented r = r) (h : t ≠ .minus ∨ r.head? ≠ some .minus) :
    uncommented (t :: r) = t :: r := by
  have := uncommented_append [t] r (by cases t <;> rfl) hr (by simpa using h)
  simpa using this


theorem parens_last (b : Bool) (t : Term) : (parens b t.text).getLast? ≠ some .minus := by
  cases b with
  | true =>
    rw [parens, if_pos rfl, ← List.cons_append, List.getLast?_append]
    simp
  | false =>
    obtain ⟨l, k, h1, h2⟩ := text_last t
    simpa [parens, h1] using h2

theorem parens_clean {b : Bool} {t : Term} (h : uncommented t.text = t.text) :
    uncommented (parens b t.text) = parens b t.text := by
  cases b with
  | false => exact h
  | true =>
    refine uncommented_cons _ _ (uncommented_append _ _ h rfl (Or.inr (by simp))) (Or.inl (by simp))

theorem arith_clean {op : ArithOp} {l r : Term} (hl : uncommented l.text = l.text) (hr : uncommented r.text = r.text)
    (h : op = .sub → r.text.head? ≠ some .minus) : uncommented (Term.arith op l r).text = (Term.arith op l r).text := by
  refine uncommented_append _ _ (parens_clean hl) (uncommented_cons _ _ (parens_clean hr) ?_) (Or.inl (parens_last _ _))
  by_cases ho : op = .sub
  · refine Or.inr ?_
    cases rightNeedsParens op r.operator with
    | true => simp [parens]
    | false => exact h ho
  · exact Or.inl (by cases op <;> simp_all [ArithOp.text])

theorem arith_head {op : ArithOp} {l r : Term} (hl : l.text.head? ≠ some .minus) :
    (Term.arith op l r).text.head? ≠ some .minus := by
  have hne : l.text ≠ [] := by
    obtain ⟨m, k, h1, -⟩ := text_last l
    simp [h1]
  rw [Term.text]
  cases leftNeedsParens op l.operator with
  | true => simp [parens]
  | false =>
    simp only [parens, Bool.false_eq_true, if_false]
    rw [List.head?_append_of_ne_nil _ hne]
    exact hl

theorem numText_clean (x : ℝ) (f : Bool) : uncommented (numText x f) = numText x f := by
  unfold numText
  split <;> rfl

theorem numText_head {x : ℝ} {f : Bool} : (numText x f).head? ≠ some .minus ↔ 0 ≤ x := by
  unfold numText
  split
  · rename_i h; simp [h]
  · rename_i h; simpa using h

theorem pow_clean {t : Term} {q : ℝ} {f : Bool} (h : uncommented t.text = t.text) :
    uncommented (Term.pow t q f).text = (Term.pow t q f).text := by
  refine uncommented_cons _ _ (uncommented_append _ _ h (uncommented_cons _ _ (uncommented_append _ _ (numText_clean _ _)
    rfl (Or.inr (by simp))) (Or.inl (by simp))) (Or.inr (by simp))) (Or.inl (by simp))

/-! ## Operators -/

theorem means_iff {row : String → ℝ} {v : SqlVal} {x : ℝ} :
    Means row v.text x ↔ uncommented v.text = v.text ∧ v.wrap.at row = x := by
  unfold Means SqlVal.text
  refine and_congr_right fun h => ?_
  rw [value_text row _ h]
  simp

section

variable {row : String → ℝ} {a b : SqlVal} {x y : ℝ}

theorem operand_num (f : Bool) (h : 0 ≤ x) : Operand row (SqlVal.num x f).text x :=
  ⟨means_iff.2 ⟨numText_clean x f, rfl⟩, numText_head.2 h⟩

theorem means_num (f : Bool) : Means row (SqlVal.num x f).text x := means_iff.2 ⟨numText_clean x f, rfl⟩

theorem means_op {o : ArithOp} {f : ℝ → ℝ → ℝ} (hf : ∀ l r, Term.at row (.arith o l r) = f (l.at row) (r.at row))
    (ha : Means row a.text x) (hb : Means row b.text y) (h : o = .sub → b.text.head? ≠ some .minus) :
    Means row (SqlVal.op o f a b).text (f x y) := by
  rw [means_iff] at ha hb ⊢
  obtain ⟨a1, rfl⟩ := ha
  obtain ⟨b1, rfl⟩ := hb
  rcases a with ⟨x, p⟩ | t <;> rcases b with ⟨y, q⟩ | u
  · exact ⟨numText_clean _ _, rfl⟩
  all_goals exact ⟨arith_clean a1 b1 h, hf _ _⟩

theorem operand_op {o : ArithOp} {f : ℝ → ℝ → ℝ} (hf : ∀ l r, Term.at row (.arith o l r) = f (l.at row) (r.at row))
    (h0 : 0 ≤ x → 0 ≤ y → 0 ≤ f x y)
    (ha : Operand row a.text x) (hb : Operand row b.text y) : Operand row (SqlVal.op o f a b).text (f x y) := by
  refine ⟨means_op hf ha.1 hb.1 fun _ => hb.2, ?_⟩
  obtain ⟨a1, a2⟩ := ha
  obtain ⟨b1, b2⟩ := hb
  rw [means_iff] at a1 b1
  rcases a with ⟨x', p⟩ | t <;> rcases b with ⟨y', q⟩ | u
  · have hx : x' = x := a1.2
    have hy : y' = y := b1.2
    subst hx hy
    exact numText_head.2 (h0 (numText_head.1 a2) (numText_head.1 b2))
  all_goals exact arith_head a2

theorem Means.add (ha : Means row a.text x) (hb : Means row b.text y) : Means row (a + b).text (x + y) :=
  means_op (o := .add) (fun _ _ => rfl) ha hb (by simp)
theorem Means.mul (ha : Means row a.text x) (hb : Means row b.text y) : Means row (a * b).text (x * y) :=
  means_op (o := .mul) (fun _ _ => rfl) ha hb (by simp)
theorem Means.div (ha : Means row a.text x) (hb : Means row b.text y) : Means row (a / b).text (x / y) :=
  means_op (o := .div) (fun _ _ => rfl) ha hb (by simp)
theorem Means.sub (ha : Means row a.text x) (hb : Operand row b.text y) : Means row (a - b).text (x - y) :=
  means_op (o := .sub) (fun _ _ => rfl) ha hb.1 fun _ => hb.2
theorem Means.pow (ha : Means row a.text x) (q : ℚ) : Means row (powq a q).text (powq x q) := by
  rw [means_iff] at ha ⊢
  obtain ⟨a1, rfl⟩ := ha
  rcases a with ⟨x, p⟩ | t
  · exact ⟨numText_clean _ _, rfl⟩
  · exact ⟨pow_clean a1, rfl⟩
theorem Operand.add (ha : Operand row a.text x) (hb : Operand row b.text y) : Operand row (a + b).text (x + y) :=
  operand_op (o := .add) (fun _ _ => rfl) add_nonneg ha hb
theorem Operand.mul (ha : Operand row a.text x) (hb : Operand row b.text y) : Operand row (a * b).text (x * y) :=
  operand_op (o := .mul) (fun _ _ => rfl) mul_nonneg ha hb
theorem Operand.div (ha : Operand row a.text x) (hb : Operand row b.text y) : Operand row (a / b).text (x / y) :=
  operand_op (o := .div) (fun _ _ => rfl) div_nonneg ha hb
theorem Operand.pow (ha : Operand row a.text x) (q : ℚ) : Operand row (powq a q).text (powq x q) := by
  refine ⟨Means.pow ha.1 q, ?_⟩
  have h := (means_iff.1 ha.1).2
  rcases a with ⟨x', p⟩ | t
  · have hx : x' = x := h
    subst hx
    exact numText_head.2 (Real.rpow_nonneg (numText_head.1 ha.2) _)
  · simp [powq, SqlVal.pow, SqlVal.text, SqlVal.wrap, Term.text]
theorem Means.sq (ha : Means row a.text x) : Operand row (powq a 2).text (powq x 2) := by
  refine ⟨Means.pow ha 2, ?_⟩
  have h := (means_iff.1 ha).2
  rcases a with ⟨x', p⟩ | t
  · have hx : x' = x := h
    subst hx
    refine numText_head.2 ?_
    have := sq_nonneg x'
    rw [← powq_two] at this
    exact this
  · simp [powq, SqlVal.pow, SqlVal.text, SqlVal.wrap, Term.text]
theorem operand_lit {q : ℚ} (h : 0 ≤ q) : Operand row (lit q : SqlVal).text (lit q : ℝ) :=
  operand_num _ (by exact_mod_cast h)

end

/-! ## Computing texts -/

namespace SqlVal

variable (x y : ℝ) (a b : Bool) (t u : Term) (q : ℚ)

theorem add_nn : (num x a + num y b : SqlVal) = num (x + y) (a || b) := by
  show num _ _ = _
  cases a <;> cases b <;> rfl
theorem add_nt : (num x a + term u : SqlVal) = term (.arith .add (.num x a) u) := rfl
theorem add_tn : (term t + num y b : SqlVal) = term (.arith .add t (.num y b)) := rfl
theorem add_tt : (term t + term u : SqlVal) = term (.arith .add t u) := rfl
theorem sub_nn : (num x a - num y b : SqlVal) = num (x - y) (a || b) := by
  show num _ _ = _
  cases a <;> cases b <;> rfl
theorem sub_nt : (num x a - term u : SqlVal) = term (.arith .sub (.num x a) u) := rfl
theorem sub_tn : (term t - num y b : SqlVal) = term (.arith .sub t (.num y b)) := rfl
theorem sub_tt : (term t - term u : SqlVal) = term (.arith .sub t u) := rfl
theorem mul_nn : (num x a * num y b : SqlVal) = num (x * y) (a || b) := by
  show num _ _ = _
  cases a <;> cases b <;> rfl
theorem mul_nt : (num x a * term u : SqlVal) = term (.arith .mul (.num x a) u) := rfl
theorem mul_tn : (term t * num y b : SqlVal) = term (.arith .mul t (.num y b)) := rfl
theorem mul_tt : (term t * term u : SqlVal) = term (.arith .mul t u) := rfl
theorem div_nn : (num x a / num y b : SqlVal) = num (x / y) true := by
  show num _ _ = _
  cases a <;> cases b <;> rfl
theorem div_nt : (num x a / term u : SqlVal) = term (.arith .div (.num x a) u) := rfl
theorem div_tn : (term t / num y b : SqlVal) = term (.arith .div t (.num y b)) := rfl
theorem div_tt : (term t / term u : SqlVal) = term (.arith .div t u) := rfl
theorem pow_n : powq (num x a) q = num (x ^ (q : ℝ)) (a || q.den ≠ 1 || q < 0) := rfl
theorem pow_t : powq (term t) q = term (.pow t q (q.den ≠ 1)) := rfl
theorem lit_n : (lit q : SqlVal) = num q (q.den ≠ 1) := rfl

end SqlVal

/-- proves that the text of an expression means the same expression of numbers -/
macro "sql" : tactic => `(tactic| repeat' first
  | assumption | exact And.left ‹_›
  | (refine operand_lit ?_; norm_num; done) | (refine And.left (operand_lit (row := _) ?_); norm_num; done)
  | apply Means.sq | apply Operand.add | apply Operand.mul | apply Operand.div | apply Operand.pow
  | apply Means.sub | apply Means.add | apply Means.mul | apply Means.div | apply Means.pow)

end Conj
