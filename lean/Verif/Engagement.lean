import Verif.Rvs

/-!
# Samples of a vectorised posterior, and what `scripts/post-engagement.py` computes from them
-/

namespace Conj

variable {ι : Type} {k : ℕ}

/-- `posterior.dist.rvs(size=(size, k), random_state=random_state)` of a distribution with parameters of shape `(k,)`
(`scripts/post-engagement.py:60`): the parameters broadcast along the rows, one draw for each entry of each row, row by
row. -/
def rvsRows (lib : FrozenSamplers ι) (posterior : Fin k → Draw ℝ) (size : ℕ) (random_state : RandomState) (w : World) :
    List (Fin k → ℝ) × World :=
  rvs lib.toSamplers random_state (List.replicate size (Draw.vec posterior)) w

/-- `np.argmax` of a row: the first position of the greatest entry (`ValueError` for an empty row) -/
noncomputable def argmax : List ℝ → Except PyErr ℕ
  | [] => .error (.valueError "attempt to get argmax of an empty sequence")
  | [_] => .ok 0
  | x :: l =>
    match argmax l with
    | .error e => .error e
    | .ok j => .ok (if l.getD j 0 ≤ x then 0 else j + 1)

/-- `scripts/post-engagement.py:81`: `diff = samples[:, 0] - samples[:, -1]`, for any two columns -/
def difference (samples : List (Fin k → ℝ)) (i j : Fin k) : List ℝ := samples.map fun r => r i - r j

open Classical in
/-- `scripts/post-engagement.py:94-95`: `pd.Series(np.argmax(samples, axis=1)).value_counts(normalize=True).reindex(...)`
at the label `i`. `none` is `NaN`, for a column that is never the greatest. -/
noncomputable def mostEngaged (samples : List (Fin k → ℝ)) (i : Fin k) : Option ℝ :=
  let best := samples.map fun r => argmax (List.ofFn r)
  let count := best.countP fun b => decide (b = .ok i.val)
  if count = 0 then none else some (count / best.length)

end Conj
