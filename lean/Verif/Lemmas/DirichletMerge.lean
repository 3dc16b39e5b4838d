import Verif.RelabelSpec
import Verif.Lemmas.Dirichlet
import Verif.Lemmas.Mvn
import Mathlib.GroupTheory.Perm.Basic

/-! The Dirichlet distribution by independent gamma variables; renaming and merging categories. -/

open MeasureTheory Set Real

namespace Conj

open Spec Scipy

variable {k l : ℕ}

/-! ### A group map is a sequence of renamings and mergers of the first two categories -/

section Induction

variable {M : Type*} [AddCommMonoid M]

/-- merge the first two categories -/
def mergeTwo (v : Fin (k + 2) → M) : Fin (k + 1) → M := Fin.cons (v 0 + v 1) fun i => v i.succ.succ

theorem groupTotals_mergeTwo (g : Fin (k + 1) → Fin l) (v : Fin (k + 2) → M) (h : Fin (k + 2) → Fin l)
    (h0 : h 0 = g 0) (h1 : ∀ i, h (Fin.succ i) = g i) : groupTotals g (mergeTwo v) = groupTotals h v := by
  funext j
  simp only [groupTotals, mergeTwo]
  rw [Fin.sum_univ_succ, Fin.sum_univ_succ (n := k + 1), Fin.sum_univ_succ (n := k)]
  simp only [Fin.cons_zero, Fin.cons_succ, h0, h1]
  by_cases e : g 0 = j
  · simp only [e, if_true, Fin.succ_zero_eq_one]
    rw [add_assoc]
  · simp only [e, if_false, zero_add]

theorem groupTotals_comp (g : Fin k → Fin l) (σ : Equiv.Perm (Fin k)) (v : Fin k → M) :
    groupTotals (g ∘ σ) (v ∘ σ) = groupTotals g v := by
  funext j
  simp only [groupTotals, Function.comp]
  exact Equiv.sum_comp σ fun i => if g i = j then v i else 0

theorem groupTotals_perm (σ : Equiv.Perm (Fin k)) (v : Fin k → M) : groupTotals σ v = v ∘ σ.symm := by
  funext j
  simp only [groupTotals, Function.comp]
  rw [Finset.sum_eq_single (σ.symm j)]
  · simp
  · intro i _ hi
    rw [if_neg]
    rintro rfl
    exact hi (by simp)
  · simp

theorem groupTotals_pos {g : Fin k → Fin l} (hg : Function.Surjective g) {v : Fin k → ℝ} (hv : ∀ i, 0 < v i) (j : Fin l) :
    0 < groupTotals g v j := by
  obtain ⟨i, hi⟩ := hg j
  refine Finset.sum_pos' (fun i _ => ?_) ⟨i, Finset.mem_univ _, ?_⟩
  · split_ifs
    · exact (hv i).le
    · exact le_rfl
  · rw [if_pos hi]; exact hv i

theorem sum_groupTotals (g : Fin k → Fin l) (v : Fin k → M) : ∑ j, groupTotals g v j = ∑ i, v i := by
  simp only [groupTotals]
  rw [Finset.sum_comm]
  exact Finset.sum_congr rfl fun i _ => by simp

theorem measurable_groupTotals [MeasurableSpace M] [MeasurableAdd₂ M] (g : Fin k → Fin l) :
    Measurable (groupTotals g : (Fin k → M) → Fin l → M) := by
  refine measurable_pi_lambda _ fun j => ?_
  simp only [groupTotals]
  refine Finset.measurable_sum _ fun i _ => ?_
  by_cases h : g i = j
  · simp only [h, if_true]; exact measurable_pi_apply i
  · simp only [h, if_false]; exact measurable_const

/-- A quantity that is preserved by renaming categories and by merging the first two of them is preserved by every
way of sorting the categories into groups. -/
theorem merge_induction [MeasurableSpace M] [MeasurableAdd₂ M]
    (E : ∀ k, (Fin (k + 1) → ℝ) → ((Fin (k + 1) → M) → ENNReal) → ENNReal)
    (hperm : ∀ (k : ℕ) (α : Fin (k + 1) → ℝ) (σ : Equiv.Perm (Fin (k + 1))) (F : (Fin (k + 1) → M) → ENNReal), (∀ i, 0 < α i) →
      Measurable F → E k α (fun q => F (q ∘ σ)) = E k (α ∘ σ) F)
    (hmerge : ∀ (k : ℕ) (α : Fin (k + 2) → ℝ) (F : (Fin (k + 1) → M) → ENNReal), (∀ i, 0 < α i) → Measurable F →
      E (k + 1) α (fun q => F (mergeTwo q)) = E k (mergeTwo α) F) :
    ∀ (k l : ℕ) (g : Fin (k + 1) → Fin (l + 1)), Function.Surjective g → ∀ (α : Fin (k + 1) → ℝ), (∀ i, 0 < α i) →
      ∀ F : (Fin (l + 1) → M) → ENNReal, Measurable F →
      E k α (fun q => F (groupTotals g q)) = E l (groupTotals g α) F := by
  have bij : ∀ (k l : ℕ) (g : Fin (k + 1) → Fin (l + 1)), Function.Bijective g → ∀ (α : Fin (k + 1) → ℝ), (∀ i, 0 < α i) →
      ∀ F : (Fin (l + 1) → M) → ENNReal, Measurable F →
      E k α (fun q => F (groupTotals g q)) = E l (groupTotals g α) F := by
    intro k l g hg α hα F hF
    have hkl : k = l := by
      have := Fintype.card_of_bijective hg
      simpa using this
    subst hkl
    have hσ : ∀ v : Fin (k + 1) → M, groupTotals g v = v ∘ (Equiv.ofBijective g hg).symm := fun v =>
      groupTotals_perm (Equiv.ofBijective g hg) v
    have hσ' : groupTotals g α = α ∘ (Equiv.ofBijective g hg).symm := groupTotals_perm (Equiv.ofBijective g hg) α
    simp only [hσ, hσ']
    exact hperm k α _ F hα hF
  intro k
  induction k with
  | zero =>
    intro l g hg
    refine bij 0 l g ⟨fun a b _ => (Subsingleton.elim (α := Fin 1) a b), hg⟩
  | succ k ih =>
    intro l g hg α hα F hF
    by_cases hinj : Function.Injective g
    · exact bij _ _ g ⟨hinj, hg⟩ α hα F hF
    · obtain ⟨i, i', hgi, hne⟩ : ∃ i i', g i = g i' ∧ i ≠ i' := by
        simpa [Function.Injective] using hinj
      -- a renaming that puts `i` and `i'` first
      obtain ⟨σ, hσ0, hσ1⟩ : ∃ σ : Equiv.Perm (Fin (k + 2)), σ 0 = i ∧ σ 1 = i' := by
        refine ⟨Equiv.swap 0 i * Equiv.swap 1 (Equiv.swap 0 i i'), ?_, ?_⟩
        · have h0 : (0 : Fin (k + 2)) ≠ 1 := by simp
          have h1 : (0 : Fin (k + 2)) ≠ Equiv.swap 0 i i' := by
            intro h
            have := congrArg (Equiv.swap 0 i) h
            rw [Equiv.swap_apply_left, Equiv.swap_apply_self] at this
            exact hne this
          rw [Equiv.Perm.mul_apply, Equiv.swap_apply_of_ne_of_ne h0 h1, Equiv.swap_apply_left]
        · rw [Equiv.Perm.mul_apply, Equiv.swap_apply_left, Equiv.swap_apply_self]
      obtain ⟨g', hg'⟩ : ∃ g' : Fin (k + 1) → Fin (l + 1), g' = fun j => g (σ j.succ) := ⟨_, rfl⟩
      have h0 : (g ∘ σ) 0 = g' 0 := by
        simp only [Function.comp, hg', Fin.succ_zero_eq_one, hσ0, hσ1, hgi]
      have h1 : ∀ j, (g ∘ σ) (Fin.succ j) = g' j := fun j => by simp only [Function.comp, hg']
      have hsurj : Function.Surjective g' := by
        intro j
        obtain ⟨a, ha⟩ := hg j
        obtain ⟨b, rfl⟩ := σ.surjective a
        refine Fin.cases (fun hb => ⟨0, by rw [← h0]; exact hb⟩) (fun c hc => ⟨c, by rw [← h1]; exact hc⟩) b ha
      have key : ∀ {N : Type _} [AddCommMonoid N] (v : Fin (k + 2) → N),
          groupTotals g v = groupTotals g' (mergeTwo (v ∘ σ)) := fun {N} _ v => by
        rw [groupTotals_mergeTwo g' (v ∘ σ) (g ∘ σ) h0 h1, groupTotals_comp]
      have keyα : groupTotals g α = groupTotals g' (mergeTwo (α ∘ σ)) := by
        rw [groupTotals_mergeTwo g' (α ∘ σ) (g ∘ σ) h0 h1, groupTotals_comp]
      have hmt : Measurable (mergeTwo : (Fin (k + 2) → M) → Fin (k + 1) → M) := by
        refine measurable_pi_lambda _ fun j => ?_
        refine Fin.cases ?_ (fun i => ?_) j
        · simp only [mergeTwo, Fin.cons_zero]; exact (measurable_pi_apply _).add (measurable_pi_apply _)
        · simp only [mergeTwo, Fin.cons_succ]; exact measurable_pi_apply _
      have hF1 : Measurable fun q : Fin (k + 1) → M => F (groupTotals g' q) := hF.comp (measurable_groupTotals g')
      rw [keyα, ← ih l g' hsurj (mergeTwo (α ∘ σ)) (fun j => ?_) F hF, ← hmerge k (α ∘ σ) _ (fun i => hα _) hF1,
        ← hperm (k + 1) α σ (fun q => F (groupTotals g' (mergeTwo q))) hα (hF1.comp hmt)]
      · congr 1
        funext q
        rw [key q]
      · refine Fin.cases ?_ (fun i => ?_) j
        · exact add_pos (hα _) (hα _)
        · exact hα _

end Induction

/-! ### Gamma variables -/

/-- the density kernel of a gamma variable -/
noncomputable def gk (a x : ℝ) : ENNReal := (Ioi (0 : ℝ)).indicator (fun x => ENNReal.ofReal (x ^ (a - 1) * exp (-x))) x

theorem measurable_gk (a : ℝ) : Measurable (gk a) :=
  (((measurable_id.pow_const _).mul (by fun_prop)).ennreal_ofReal).indicator measurableSet_Ioi

theorem gk_pos {a x : ℝ} (hx : 0 < x) : gk a x = ENNReal.ofReal (x ^ (a - 1) * exp (-x)) := indicator_of_mem hx _

theorem gk_neg {a x : ℝ} (hx : x ≤ 0) : gk a x = 0 := indicator_of_notMem (by simpa using hx) _

theorem lintegral_gk {a : ℝ} (ha : 0 < a) : ∫⁻ x, gk a x = ENNReal.ofReal (Real.Gamma a) := by
  have h0 : ∀ x ∈ Ioi (0 : ℝ), 0 ≤ exp (-x) * x ^ (a - 1) := fun x hx =>
    mul_nonneg (exp_pos _).le (rpow_nonneg (le_of_lt hx) _)
  rw [Real.Gamma_eq_integral ha, ofReal_integral_eq_lintegral_ofReal (Real.GammaIntegral_convergent ha)
    ((ae_restrict_iff' measurableSet_Ioi).2 (Filter.Eventually.of_forall h0))]
  simp only [gk]
  rw [lintegral_indicator measurableSet_Ioi]
  simp only [mul_comm]

/-- the sum of two gamma variables -/
theorem gk_conv {a b : ℝ} (ha : 0 < a) (hb : 0 < b) (Φ : ℝ → ENNReal) (hΦ : Measurable Φ) :
    ∫⁻ x, ∫⁻ y, gk a x * gk b y * Φ (x + y) = ENNReal.ofReal (betaFn a b) * ∫⁻ s, gk (a + b) s * Φ s := by
  have e1 : ∀ x : ℝ, ∫⁻ y, gk a x * gk b y * Φ (x + y) = ∫⁻ s, gk a x * gk b (s - x) * Φ s := by
    intro x
    rw [← lintegral_sub_right_eq_self (fun y => gk a x * gk b y * Φ (x + y)) x]
    simp only [add_sub_cancel]
  simp only [e1]
  have hm : Measurable fun z : ℝ × ℝ => gk a z.1 * gk b (z.2 - z.1) * Φ z.2 :=
    (((measurable_gk a).comp measurable_fst).mul ((measurable_gk b).comp (measurable_snd.sub measurable_fst))).mul
      (hΦ.comp measurable_snd)
  rw [lintegral_lintegral_swap hm.aemeasurable, ← lintegral_const_mul (f := fun s => gk (a + b) s * Φ s) _ ((measurable_gk _).mul hΦ)]
  refine lintegral_congr fun s => ?_
  rw [lintegral_mul_const _ (by
    exact (measurable_gk a).mul ((measurable_gk b).comp (measurable_const.sub measurable_id))), ← mul_assoc]
  congr 1
  rcases le_or_gt s 0 with hs | hs
  · rw [gk_neg hs, mul_zero]
    have : ∀ x, gk a x * gk b (s - x) = 0 := by
      intro x
      rcases le_or_gt x 0 with hx | hx
      · rw [gk_neg hx, zero_mul]
      · rw [gk_neg (a := b) (by linarith), mul_zero]
    simp [this]
  · have e : ∀ x, gk a x * gk b (s - x) = (Ioo 0 s).indicator
        (fun x => ENNReal.ofReal (exp (-s)) * ENNReal.ofReal (x ^ (a - 1) * (s - x) ^ (b - 1))) x := by
      intro x
      by_cases hx : x ∈ Ioo 0 s
      · rw [indicator_of_mem hx, gk_pos hx.1, gk_pos (sub_pos.2 hx.2),
          ← ENNReal.ofReal_mul (mul_nonneg (rpow_nonneg hx.1.le _) (exp_pos _).le), ← ENNReal.ofReal_mul (exp_pos _).le]
        congr 1
        rw [show -s = -x + -(s - x) by ring, exp_add]
        ring
      · rw [indicator_of_notMem hx]
        rcases le_or_gt x 0 with h | h
        · rw [gk_neg h, zero_mul]
        · rw [gk_neg (a := b), mul_zero]
          by_contra hc
          exact hx ⟨h, by linarith⟩
    simp only [e]
    rw [lintegral_indicator measurableSet_Ioo, lintegral_const_mul' _ _ ENNReal.ofReal_ne_top,
      beta_scaled_integral ha hb hs, gk_pos hs, ← ENNReal.ofReal_mul (exp_pos _).le,
      ← ENNReal.ofReal_mul (betaFn_pos ha hb).le]
    congr 1
    ring

/-- the proportions of a positive vector -/
noncomputable def shares (y : Fin k → ℝ) : Fin k → ℝ := fun i => y i / ∑ j, y j

theorem measurable_shares : Measurable (shares : (Fin k → ℝ) → Fin k → ℝ) :=
  measurable_pi_lambda _ fun i => (measurable_pi_apply i).div (Finset.measurable_sum _ fun j _ => measurable_pi_apply j)

/-- an integral over independent gamma variables, of a function of their proportions -/
noncomputable def gInt (α : Fin k → ℝ) (F : (Fin k → ℝ) → ENNReal) : ENNReal :=
  ∫⁻ y : Fin k → ℝ, (∏ i, gk (α i) (y i)) * F (shares y)

theorem measurable_gKer (α : Fin k → ℝ) : Measurable fun y : Fin k → ℝ => ∏ i, gk (α i) (y i) :=
  Finset.measurable_prod _ fun i _ => (measurable_gk _).comp (measurable_pi_apply i)

theorem gInt_perm (α : Fin k → ℝ) (σ : Equiv.Perm (Fin k)) (F : (Fin k → ℝ) → ENNReal) (hF : Measurable F) :
    gInt α (fun q => F (q ∘ σ)) = gInt (α ∘ σ) F := by
  have hp := volume_measurePreserving_piCongrLeft (fun _ : Fin k => ℝ) σ.symm
  have hm : Measurable fun y : Fin k → ℝ => (∏ i, gk ((α ∘ σ) i) (y i)) * F (shares y) :=
    (measurable_gKer _).mul (hF.comp measurable_shares)
  simp only [gInt]
  rw [← hp.lintegral_comp hm]
  refine lintegral_congr fun y => ?_
  have e : (MeasurableEquiv.piCongrLeft (fun _ : Fin k => ℝ) σ.symm) y = y ∘ σ := by
    funext i
    rw [MeasurableEquiv.coe_piCongrLeft]
    have := Equiv.piCongrLeft_apply_apply (fun _ : Fin k => ℝ) σ.symm y (σ i)
    simpa using this
  rw [e]
  congr 1
  · simp only [Function.comp]
    exact (Equiv.prod_comp σ fun i => gk (α i) (y i)).symm
  · congr 1
    funext i
    simp only [shares, Function.comp]
    rw [Equiv.sum_comp σ fun j => y j]

theorem shares_mergeTwo (y : Fin (k + 2) → ℝ) : mergeTwo (shares y) = shares (mergeTwo y) := by
  have hs : ∑ j, mergeTwo y j = ∑ j, y j := by
    rw [Fin.sum_univ_succ, Fin.sum_univ_succ (f := y), Fin.sum_univ_succ]
    simp only [mergeTwo, Fin.cons_zero, Fin.cons_succ, Fin.succ_zero_eq_one, add_assoc]
  funext j
  simp only [shares, hs]
  refine Fin.cases ?_ (fun i => ?_) j
  · simp only [mergeTwo, Fin.cons_zero, shares]; rw [add_div]
  · simp only [mergeTwo, Fin.cons_succ, shares]

theorem gInt_mergeTwo (α : Fin (k + 2) → ℝ) (hα : ∀ i, 0 < α i) (F : (Fin (k + 1) → ℝ) → ENNReal) (hF : Measurable F) :
    gInt α (fun q => F (mergeTwo q)) = ENNReal.ofReal (betaFn (α 0) (α 1)) * gInt (mergeTwo α) F := by
  have hcons : Measurable fun z : ℝ × (Fin k → ℝ) => (Fin.cons z.1 z.2 : Fin (k + 1) → ℝ) := by
    refine measurable_pi_lambda _ fun j => ?_
    refine Fin.cases ?_ (fun i => ?_) j
    · simp only [Fin.cons_zero]; exact measurable_fst
    · simp only [Fin.cons_succ]; exact (measurable_pi_apply i).comp measurable_snd
  have hmt : Measurable (mergeTwo : (Fin (k + 2) → ℝ) → Fin (k + 1) → ℝ) := by
    refine measurable_pi_lambda _ fun j => ?_
    refine Fin.cases ?_ (fun i => ?_) j
    · simp only [mergeTwo, Fin.cons_zero]; exact (measurable_pi_apply _).add (measurable_pi_apply _)
    · simp only [mergeTwo, Fin.cons_succ]; exact measurable_pi_apply _
  obtain ⟨Ψ, hΨd⟩ : ∃ Ψ : ℝ × (Fin k → ℝ) → ENNReal, Ψ = fun z =>
      (∏ i, gk (α i.succ.succ) (z.2 i)) * F (shares (Fin.cons z.1 z.2 : Fin (k + 1) → ℝ)) := ⟨_, rfl⟩
  have hΨ : Measurable Ψ := by
    rw [hΨd]
    exact ((measurable_gKer (fun i : Fin k => α i.succ.succ)).comp measurable_snd).mul
      (hF.comp (measurable_shares.comp hcons))
  simp only [gInt]
  rw [lintegral_pi_succ (fun y : Fin (k + 2) → ℝ => (∏ i, gk (α i) (y i)) * F (mergeTwo (shares y)))
    ((measurable_gKer α).mul (hF.comp (hmt.comp measurable_shares)))]
  rw [lintegral_pi_succ (fun y : Fin (k + 1) → ℝ => (∏ i, gk (mergeTwo α i) (y i)) * F (shares y))
    ((measurable_gKer (mergeTwo α)).mul (hF.comp measurable_shares))]
  have e1 : ∀ x : ℝ, (∫⁻ t : Fin (k + 1) → ℝ, (∏ i, gk (α i) ((Fin.cons x t : Fin (k + 2) → ℝ) i)) *
      F (mergeTwo (shares (Fin.cons x t : Fin (k + 2) → ℝ)))) =
      ∫⁻ y : ℝ, gk (α 0) x * gk (α 1) y * ∫⁻ t : Fin k → ℝ, Ψ (x + y, t) := by
    intro x
    have hx : Measurable fun t : Fin (k + 1) → ℝ => (Fin.cons x t : Fin (k + 2) → ℝ) := by
      refine measurable_pi_lambda _ fun j => ?_
      refine Fin.cases ?_ (fun i => ?_) j
      · simp only [Fin.cons_zero]; exact measurable_const
      · simp only [Fin.cons_succ]; exact measurable_pi_apply i
    rw [lintegral_pi_succ (fun t : Fin (k + 1) → ℝ => (∏ i, gk (α i) ((Fin.cons x t : Fin (k + 2) → ℝ) i)) *
      F (mergeTwo (shares (Fin.cons x t : Fin (k + 2) → ℝ))))
      (((measurable_gKer α).mul (hF.comp (hmt.comp measurable_shares))).comp hx)]
    refine lintegral_congr fun y => ?_
    rw [← lintegral_const_mul (f := fun t => Ψ (x + y, t)) _ (hΨ.comp (measurable_const.prodMk measurable_id))]
    refine lintegral_congr fun t => ?_
    rw [shares_mergeTwo, hΨd]
    simp only [Fin.prod_univ_succ, Fin.cons_zero, Fin.cons_succ, mergeTwo, Fin.succ_zero_eq_one]
    rw [show (Fin.cons x (Fin.cons y t : Fin (k + 1) → ℝ) : Fin (k + 2) → ℝ) 1 = y from rfl]
    ring
  have e2 : ∀ s : ℝ, (∫⁻ t : Fin k → ℝ, (∏ i, gk (mergeTwo α i) ((Fin.cons s t : Fin (k + 1) → ℝ) i)) *
      F (shares (Fin.cons s t : Fin (k + 1) → ℝ))) = gk (α 0 + α 1) s * ∫⁻ t : Fin k → ℝ, Ψ (s, t) := by
    intro s
    rw [← lintegral_const_mul (f := fun t => Ψ (s, t)) _ (hΨ.comp (measurable_const.prodMk measurable_id))]
    refine lintegral_congr fun t => ?_
    rw [hΨd]
    simp only [Fin.prod_univ_succ, Fin.cons_zero, Fin.cons_succ, mergeTwo, mul_assoc]
  simp only [e1, e2]
  exact gk_conv (hα 0) (hα 1) (fun s => ∫⁻ t : Fin k → ℝ, Ψ (s, t)) hΨ.lintegral_prod_right'

/-! ### The proportions of gamma variables are Dirichlet -/

theorem lintegral_pi_last (F : (Fin (k + 1) → ℝ) → ENNReal) (hF : Measurable F) :
    ∫⁻ p, F p = ∫⁻ t : Fin k → ℝ, ∫⁻ x : ℝ, F (Fin.snoc t x) := by
  have h := (volume_preserving_piFinSuccAbove (fun _ : Fin (k + 1) => ℝ) (Fin.last k)).symm
  rw [← h.lintegral_comp hF]
  have hm : Measurable fun z : ℝ × (Fin k → ℝ) =>
      F ((MeasurableEquiv.piFinSuccAbove (fun _ => ℝ) (Fin.last k)).symm z) := hF.comp (MeasurableEquiv.measurable _)
  have := lintegral_prod_symm (μ := (volume : Measure ℝ)) (ν := (volume : Measure (Fin k → ℝ))) _ hm.aemeasurable
  refine this.trans ?_
  refine lintegral_congr fun x => lintegral_congr fun t => ?_
  congr 1
  funext i
  simp [MeasurableEquiv.piFinSuccAbove, Fin.insertNthEquiv]

theorem lintegral_scale {s : ℝ} (hs : 0 < s) (f : (Fin k → ℝ) → ENNReal) (hf : Measurable f) :
    ∫⁻ t, f t = ENNReal.ofReal (s ^ k) * ∫⁻ p : Fin k → ℝ, f (fun i => s * p i) := by
  have hd : (s • (1 : Matrix (Fin k) (Fin k) ℝ)).det = s ^ k := by simp
  have hd0 : (s • (1 : Matrix (Fin k) (Fin k) ℝ)).det ≠ 0 := by rw [hd]; positivity
  have hsc : Measurable fun p : Fin k → ℝ => fun i => s * p i :=
    measurable_pi_lambda _ fun i => measurable_const.mul (measurable_pi_apply i)
  rw [lintegral_affine hd0 0 hf, hd, abs_of_pos (by positivity), mul_comm,
    ← lintegral_mul_const (f := fun p : Fin k → ℝ => f fun i => s * p i) _ (hf.comp hsc)]
  refine lintegral_congr fun z => ?_
  congr 2
  funext i
  simp [Matrix.smul_mulVec]

/-- an integral against the Dirichlet density -/
noncomputable def dirInt (α : Fin (k + 1) → ℝ) (F : (Fin (k + 1) → ℝ) → ENNReal) : ENNReal :=
  ∫⁻ p in simplex k, ENNReal.ofReal (dirichletPdf α (fullVector p)) * F (fullVector p)

theorem measurable_fullVector' : Measurable (fullVector : (Fin k → ℝ) → Fin (k + 1) → ℝ) := by
  refine measurable_pi_lambda _ fun j => ?_
  refine Fin.lastCases ?_ (fun i => ?_) j
  · simp only [fullVector, Fin.snoc_last]; fun_prop
  · simp only [fullVector, Fin.snoc_castSucc]; exact measurable_pi_apply i

theorem sum_fullVector (p : Fin k → ℝ) : ∑ i, fullVector p i = 1 := by
  rw [Fin.sum_univ_castSucc]; simp [fullVector]

theorem gInt_eq (α : Fin (k + 1) → ℝ) (hα : ∀ i, 0 < α i) (F : (Fin (k + 1) → ℝ) → ENNReal) (hF : Measurable F) :
    gInt α F = ENNReal.ofReal (∏ i, Real.Gamma (α i)) * dirInt α F := by
  have hprod : 0 < ∏ i, Real.Gamma (α i) := Finset.prod_pos fun i _ => Real.Gamma_pos_of_pos (hα i)
  have hsum : 0 < ∑ i, α i := Finset.sum_pos (fun i _ => hα i) ⟨0, Finset.mem_univ _⟩
  have hsnoc : Measurable fun z : (Fin k → ℝ) × ℝ => (Fin.snoc z.1 (z.2 - ∑ i, z.1 i) : Fin (k + 1) → ℝ) := by
    refine measurable_pi_lambda _ fun j => ?_
    refine Fin.lastCases ?_ (fun i => ?_) j
    · simp only [Fin.snoc_last]
      exact measurable_snd.sub (Finset.measurable_sum _ fun i _ => (measurable_pi_apply i).comp measurable_fst)
    · simp only [Fin.snoc_castSucc]; exact (measurable_pi_apply i).comp measurable_fst
  have hH : Measurable fun y : Fin (k + 1) → ℝ => (∏ i, gk (α i) (y i)) * F (shares y) :=
    (measurable_gKer _).mul (hF.comp measurable_shares)
  obtain ⟨H, hHd⟩ : ∃ H : (Fin (k + 1) → ℝ) → ENNReal, H = fun y => (∏ i, gk (α i) (y i)) * F (shares y) := ⟨_, rfl⟩
  rw [← hHd] at hH
  have e0 : gInt α F = ∫⁻ s : ℝ, ∫⁻ t : Fin k → ℝ, H (Fin.snoc t (s - ∑ i, t i)) := by
    rw [gInt, ← hHd, lintegral_pi_last _ hH]
    rw [← lintegral_lintegral_swap (f := fun (t : Fin k → ℝ) (s : ℝ) => H (Fin.snoc t (s - ∑ i, t i)))
      (hH.comp hsnoc).aemeasurable]
    refine lintegral_congr fun t => ?_
    exact (lintegral_sub_right_eq_self (fun x => H (Fin.snoc t x)) (∑ i, t i)).symm
  obtain ⟨J, hJ⟩ : ∃ J : ENNReal, J = ∫⁻ p in simplex k, ENNReal.ofReal (∏ i, fullVector p i ^ (α i - 1)) * F (fullVector p) :=
    ⟨_, rfl⟩
  have e1 : ∀ s : ℝ, ∫⁻ t : Fin k → ℝ, H (Fin.snoc t (s - ∑ i, t i)) = gk (∑ i, α i) s * J := by
    intro s
    rcases le_or_gt s 0 with hs | hs
    · rw [gk_neg hs, zero_mul]
      have : ∀ t : Fin k → ℝ, H (Fin.snoc t (s - ∑ i, t i)) = 0 := by
        intro t
        rw [hHd]
        simp only
        have hz : (∏ i, gk (α i) ((Fin.snoc t (s - ∑ i, t i) : Fin (k + 1) → ℝ) i)) = 0 := by
          by_contra hc
          have hall : ∀ i, 0 < (Fin.snoc t (s - ∑ i, t i) : Fin (k + 1) → ℝ) i := by
            intro i
            by_contra hi
            exact hc (Finset.prod_eq_zero (Finset.mem_univ i) (gk_neg (not_lt.1 hi)))
          have h1 := hall (Fin.last k)
          have h2 : 0 ≤ ∑ i, t i := Finset.sum_nonneg fun i _ => by
            have := hall i.castSucc
            rw [Fin.snoc_castSucc] at this
            exact this.le
          rw [Fin.snoc_last] at h1
          linarith
        rw [hz, zero_mul]
      simp [this]
    · have hmt : Measurable fun t : Fin k → ℝ => H (Fin.snoc t (s - ∑ i, t i)) :=
        (hH.comp hsnoc).comp (measurable_id.prodMk measurable_const)
      have hmj : Measurable fun p : Fin k → ℝ => ENNReal.ofReal (∏ i, fullVector p i ^ (α i - 1)) * F (fullVector p) :=
        (Measurable.ennreal_ofReal (Finset.measurable_prod _ fun i _ =>
          ((measurable_pi_apply i).comp measurable_fullVector').pow_const _)).mul (hF.comp measurable_fullVector')
      rw [lintegral_scale hs _ hmt, hJ, ← lintegral_indicator (show MeasurableSet (simplex k) from measurableSet_simplexOf k 1),
        ← lintegral_const_mul _ (hmj.indicator (show MeasurableSet (simplex k) from measurableSet_simplexOf k 1)),
        ← lintegral_const_mul' _ _ ENNReal.ofReal_ne_top]
      refine lintegral_congr fun p => ?_
      have hsn : (Fin.snoc (fun i => s * p i) (s - ∑ i, s * p i) : Fin (k + 1) → ℝ) = fun i => s * fullVector p i := by
        funext j
        refine Fin.lastCases ?_ (fun i => ?_) j
        · simp only [fullVector, Fin.snoc_last, ← Finset.mul_sum]; ring
        · simp only [fullVector, Fin.snoc_castSucc]
      rw [hsn, hHd]
      simp only
      have hsh : shares (fun i => s * fullVector p i) = fullVector p := by
        funext i
        simp only [shares, ← Finset.mul_sum, sum_fullVector]
        field_simp
      rw [hsh]
      by_cases hp : p ∈ simplex k
      · rw [indicator_of_mem hp]
        have hq := fullVector_pos hp
        have e : (∏ i, gk (α i) (s * fullVector p i)) =
            ENNReal.ofReal (∏ i, ((s * fullVector p i) ^ (α i - 1) * exp (-(s * fullVector p i)))) := by
          rw [ENNReal.ofReal_prod_of_nonneg fun i _ => mul_nonneg (rpow_nonneg (mul_pos hs (hq i)).le _) (exp_pos _).le]
          exact Finset.prod_congr rfl fun i _ => gk_pos (mul_pos hs (hq i))
        have e' : (∏ i, ((s * fullVector p i) ^ (α i - 1) * exp (-(s * fullVector p i)))) =
            s ^ (∑ i, α i - (k + 1)) * exp (-s) * ∏ i, fullVector p i ^ (α i - 1) := by
          rw [Finset.prod_mul_distrib, ← Real.exp_sum, Finset.sum_neg_distrib, ← Finset.mul_sum, sum_fullVector, mul_one]
          simp only [fun i => Real.mul_rpow hs.le (hq i).le (z := α i - 1)]
          rw [Finset.prod_mul_distrib, ← Real.rpow_sum_of_pos hs, Finset.sum_sub_distrib]
          simp only [Finset.sum_const, Finset.card_univ, Fintype.card_fin, nsmul_eq_mul, mul_one]
          push_cast
          ring
        rw [e, e', gk_pos hs]
        have hpw : s ^ k * s ^ (∑ i, α i - (k + 1)) = s ^ (∑ i, α i - 1) := by
          rw [← Real.rpow_natCast, ← Real.rpow_add hs]
          congr 1; ring
        rw [← mul_assoc, ← mul_assoc, ← ENNReal.ofReal_mul (by positivity), ← ENNReal.ofReal_mul (by positivity)]
        congr 2
        rw [← hpw]
        ring
      · rw [indicator_of_notMem hp, mul_zero]
        have hz : (∏ i, gk (α i) (s * fullVector p i)) = 0 := by
          by_contra hc
          have hall : ∀ i, 0 < fullVector p i := by
            intro i
            by_contra hi
            exact hc (Finset.prod_eq_zero (Finset.mem_univ i) (gk_neg (mul_nonpos_of_nonneg_of_nonpos hs.le (not_lt.1 hi))))
          refine hp ⟨fun i => ?_, ?_⟩
          · have := hall i.castSucc
            simpa [fullVector] using this
          · have := hall (Fin.last k)
            simpa [fullVector] using this
        rw [hz, zero_mul, mul_zero]
  rw [e0]
  simp only [e1]
  rw [lintegral_mul_const _ (measurable_gk _), lintegral_gk hsum, hJ, dirInt]
  have hG := Real.Gamma_pos_of_pos hsum
  rw [← lintegral_const_mul' _ _ ENNReal.ofReal_ne_top, ← lintegral_const_mul' _ _ ENNReal.ofReal_ne_top]
  refine setLIntegral_congr_fun (measurableSet_simplexOf k 1) fun p hp => ?_
  have hq : 0 ≤ ∏ i, fullVector p i ^ (α i - 1) := Finset.prod_nonneg fun i _ => rpow_nonneg (fullVector_pos hp i).le _
  beta_reduce
  rw [← mul_assoc, ← mul_assoc, ← ENNReal.ofReal_mul hG.le, ← ENNReal.ofReal_mul hprod.le]
  congr 2
  rw [dirichletPdf]
  field_simp

/-! ### Renaming and merging -/

theorem dirInt_perm (α : Fin (k + 1) → ℝ) (hα : ∀ i, 0 < α i) (σ : Equiv.Perm (Fin (k + 1)))
    (F : (Fin (k + 1) → ℝ) → ENNReal) (hF : Measurable F) : dirInt α (fun q => F (q ∘ σ)) = dirInt (α ∘ σ) F := by
  have hprod : 0 < ∏ i, Real.Gamma (α i) := Finset.prod_pos fun i _ => Real.Gamma_pos_of_pos (hα i)
  have hc : Measurable fun q : Fin (k + 1) → ℝ => q ∘ σ := measurable_pi_lambda _ fun i => measurable_pi_apply _
  have h1 := gInt_eq α hα (fun q => F (q ∘ σ)) (hF.comp hc)
  have h2 := gInt_eq (α ∘ σ) (fun i => hα _) F hF
  have h3 : (∏ i, Real.Gamma ((α ∘ σ) i)) = ∏ i, Real.Gamma (α i) := Equiv.prod_comp σ fun i => Real.Gamma (α i)
  rw [gInt_perm α σ F hF, h2, h3] at h1
  exact ((ENNReal.mul_right_inj (ENNReal.ofReal_pos.2 hprod).ne' ENNReal.ofReal_ne_top).1 h1).symm

theorem dirInt_mergeTwo (α : Fin (k + 2) → ℝ) (hα : ∀ i, 0 < α i) (F : (Fin (k + 1) → ℝ) → ENNReal) (hF : Measurable F) :
    dirInt α (fun q => F (mergeTwo q)) = dirInt (mergeTwo α) F := by
  have hprod : 0 < ∏ i, Real.Gamma (α i) := Finset.prod_pos fun i _ => Real.Gamma_pos_of_pos (hα i)
  have hmt : Measurable (mergeTwo : (Fin (k + 2) → ℝ) → Fin (k + 1) → ℝ) := by
    refine measurable_pi_lambda _ fun j => ?_
    refine Fin.cases ?_ (fun i => ?_) j
    · simp only [mergeTwo, Fin.cons_zero]; exact (measurable_pi_apply _).add (measurable_pi_apply _)
    · simp only [mergeTwo, Fin.cons_succ]; exact measurable_pi_apply _
  have hpos : ∀ j, 0 < mergeTwo α j := by
    intro j
    refine Fin.cases ?_ (fun i => ?_) j
    · exact add_pos (hα _) (hα _)
    · exact hα _
  have h1 := gInt_eq α hα (fun q => F (mergeTwo q)) (hF.comp hmt)
  have h2 := gInt_eq (mergeTwo α) hpos F hF
  have h3 : betaFn (α 0) (α 1) * (∏ i, Real.Gamma (mergeTwo α i)) = ∏ i, Real.Gamma (α i) := by
    have := (Real.Gamma_pos_of_pos (add_pos (hα 0) (hα 1))).ne'
    rw [Fin.prod_univ_succ, Fin.prod_univ_succ (f := fun i => Real.Gamma (α i)), Fin.prod_univ_succ]
    simp only [mergeTwo, Fin.cons_zero, Fin.cons_succ, Fin.succ_zero_eq_one, betaFn]
    field_simp
  rw [gInt_mergeTwo α hα F hF, h2, ← mul_assoc, ← ENNReal.ofReal_mul (betaFn_pos (hα 0) (hα 1)).le, h3] at h1
  exact ((ENNReal.mul_right_inj (ENNReal.ofReal_pos.2 hprod).ne' ENNReal.ofReal_ne_top).1 h1).symm

/-- Sorting the categories of a Dirichlet distribution into groups gives the Dirichlet distribution of the group totals. -/
theorem dirInt_groupTotals (g : Fin (k + 1) → Fin (l + 1)) (hg : Function.Surjective g) (α : Fin (k + 1) → ℝ)
    (hα : ∀ i, 0 < α i) (F : (Fin (l + 1) → ℝ) → ENNReal) (hF : Measurable F) :
    dirInt α (fun q => F (groupTotals g q)) = dirInt (groupTotals g α) F :=
  merge_induction (fun _ => dirInt) (fun _ α σ F hα hF => dirInt_perm α hα σ F hF)
    (fun _ α F hα hF => dirInt_mergeTwo α hα F hF) k l g hg α hα F hF

end Conj
