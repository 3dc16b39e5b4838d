import Verif.StoppingSpec
import Verif.Lemmas.Calibration
import Mathlib.Probability.ProductMeasure
import Mathlib.Probability.Kernel.Composition.MeasureCompProd

/-! Announcements that are calibrated after every fixed number of observations are honest under any stopping rule. -/

open MeasureTheory Set ProbabilityTheory

namespace Conj

open Scipy Spec

section

variable {Ω A : Type} [MeasurableSpace Ω] [MeasurableSpace A] {n : ℕ}

/-- quantile intervals for a function `g` of the unknown whose posterior law `μ` has no atoms, on any event `E`
about the data -/
theorem BayesModel.interval_on {Θ : Type} [MeasureSpace Θ] [SFinite (volume : Measure Θ)]
    {S : Set Θ} {prior : Θ → ℝ} {ν : Fin n → Measure A} [∀ i, SigmaFinite (ν i)] {D : Fin n → Set A}
    {f : Fin n → Θ → A → ℝ} {post : (Fin n → A) → Θ → ℝ} {priorLaw : Measure Θ} {model : Fin n → Θ → Measure A}
    {postLaw : (Fin n → A) → Measure Θ} {P : Measure Ω} [IsProbabilityMeasure P]
    (h : BayesModel S prior ν D f post priorLaw model postLaw)
    {θ : Ω → Θ} {X : Ω → Fin n → A} (hd : DrawThenObserve P θ X priorLaw model) {g : Θ → ℝ} (hg : Measurable g)
    {μ : (Fin n → A) → Measure ℝ}
    (hμ : ∀ x, (∀ i, x i ∈ D i) → (postLaw x).map g = μ x ∧ NullSingletonClass (μ x))
    {E : Set (Fin n → A)} (hE : MeasurableSet E) {a b : ℝ} (ha : 0 < a) (hab : a < b) (hb : b < 1) :
    NullMeasurableSet {ω | X ω ∈ E ∧ ppf (μ (X ω)) a ≤ g (θ ω) ∧ g (θ ω) ≤ ppf (μ (X ω)) b} P ∧
    P {ω | X ω ∈ E ∧ ppf (μ (X ω)) a ≤ g (θ ω) ∧ g (θ ω) ≤ ppf (μ (X ω)) b} =
      ENNReal.ofReal (b - a) * P {ω | X ω ∈ E} := by
  classical
  have hJ := measurable_jointDens h.prior_meas h.meas
  have hR : MeasurableSet {x : Fin n → A | ∀ i, x i ∈ D i} := by
    have : {x : Fin n → A | ∀ i, x i ∈ D i} = univ.pi D := by ext; simp
    rw [this]
    exact MeasurableSet.univ_pi h.hD
  have hprob : ∀ x, (∀ i, x i ∈ D i) → IsProbabilityMeasure (μ x) := fun x hx => by
    refine ⟨?_⟩
    obtain ⟨h1, h2, h3⟩ := h.post_event (B := univ) MeasurableSet.univ hx
    simp only [indicator_univ] at h3
    have h4 : postLaw x {t | (t, x) ∈ (univ : Set (Θ × (Fin n → A)))} = 1 :=
      (ENNReal.mul_left_inj h1.ne' h2).1 (by rw [h3, one_mul])
    rw [← (hμ x hx).1, Measure.map_apply hg MeasurableSet.univ]
    simpa using h4
  have hq : ∀ u, 0 < u → u < 1 → Measurable fun x : Fin n → A =>
      if ∀ i, x i ∈ D i then ppf (μ x) u else 0 := fun u h0 h1 => by
    refine measurable_of_Iic fun y => ?_
    have hC : MeasurableSet {z : Θ × (Fin n → A) | g z.1 ≤ y} := (hg.comp measurable_fst) measurableSet_Iic
    obtain ⟨F, hF⟩ : ∃ F : (Fin n → A) → ENNReal, F = fun x =>
      (∫⁻ t in S, ({z : Θ × (Fin n → A) | g z.1 ≤ y}).indicator (jointDens prior f) (t, x)) /
        ∫⁻ t in S, jointDens prior f (t, x) := ⟨_, rfl⟩
    have hFm : Measurable F := by
      rw [hF]
      exact (Measurable.lintegral_prod_left' (hJ.indicator hC)).div (Measurable.lintegral_prod_left' hJ)
    have e : (fun x : Fin n → A => if ∀ i, x i ∈ D i then ppf (μ x) u else 0) ⁻¹' Iic y =
        ({x : Fin n → A | ∀ i, x i ∈ D i} ∩ {x | ENNReal.ofReal u ≤ F x}) ∪
          ({x : Fin n → A | ∀ i, x i ∈ D i}ᶜ ∩ {_x | (0 : ℝ) ≤ y}) := by
      ext x
      simp only [mem_preimage, mem_Iic, mem_union, mem_inter_iff, mem_ofPred_eq, mem_compl_iff]
      by_cases hx : ∀ i, x i ∈ D i
      · have i1 := hprob x hx
        obtain ⟨h2, h3, h4⟩ := h.post_event hC hx
        have h5 : F x = μ x (Iic y) := by
          rw [← (hμ x hx).1, Measure.map_apply hg measurableSet_Iic, hF]
          beta_reduce
          rw [← h4, ENNReal.mul_div_cancel_right h2.ne' h3]
          rfl
        simp only [hx, implies_true, if_true, true_and, not_true, false_and, or_false]
        rw [ppf_le_iff h0 h1, h5]
      · simp only [hx, if_false, false_and, false_or, not_false_iff, true_and]
    rw [e]
    exact (hR.inter (measurableSet_le measurable_const hFm)).union (hR.compl.inter (MeasurableSet.const _))
  have hb0 := ha.trans hab
  have ha1 := hab.trans hb
  have hC : MeasurableSet {z : Θ × (Fin n → A) | z.1 ∈ {t | z.2 ∈ E ∧
      g t ∈ Icc (if ∀ i, z.2 i ∈ D i then ppf (μ z.2) a else 0) (if ∀ i, z.2 i ∈ D i then ppf (μ z.2) b else 0)}} :=
    (measurable_snd hE).inter
    ((measurableSet_le ((hq a ha ha1).comp measurable_snd) (hg.comp measurable_fst)).inter
      (measurableSet_le (hg.comp measurable_fst) ((hq b hb0 hb).comp measurable_snd)))
  have hcal := h.calibrated hd (fun x => {t | x ∈ E ∧ g t ∈ Icc (if ∀ i, x i ∈ D i then ppf (μ x) a else 0)
      (if ∀ i, x i ∈ D i then ppf (μ x) b else 0)}) hC
  have e1 : ({ω | X ω ∈ E ∧ ppf (μ (X ω)) a ≤ g (θ ω) ∧ g (θ ω) ≤ ppf (μ (X ω)) b} : Set Ω) =ᵐ[P]
      ({ω | θ ω ∈ {t | X ω ∈ E ∧ g t ∈ Icc (if ∀ i, X ω i ∈ D i then ppf (μ (X ω)) a else 0)
      (if ∀ i, X ω i ∈ D i then ppf (μ (X ω)) b else 0)}} : Set Ω) := by
    filter_upwards [h.ae_data hd] with ω hω
    refine propext ?_
    change _ ↔ X ω ∈ E ∧ g (θ ω) ∈ Icc _ _
    rw [if_pos hω, if_pos hω]
    rfl
  refine ⟨NullMeasurableSet.congr ?_ e1.symm, ?_⟩
  · exact ((hd.measurable_unknown.prodMk hd.measurable_data) hC).nullMeasurableSet
  rw [measure_congr e1, hcal]
  have hEm : MeasurableSet {ω | X ω ∈ E} := hd.measurable_data hE
  have e2 : ∀ᵐ ω ∂P, postLaw (X ω) {t | X ω ∈ E ∧ g t ∈ Icc (if ∀ i, X ω i ∈ D i then ppf (μ (X ω)) a else 0)
      (if ∀ i, X ω i ∈ D i then ppf (μ (X ω)) b else 0)} =
      ({ω | X ω ∈ E} : Set Ω).indicator (fun _ => ENNReal.ofReal (b - a)) ω := by
    filter_upwards [h.ae_data hd] with ω hω
    by_cases hx : X ω ∈ E
    · have i1 := hprob _ hω
      obtain ⟨e, i2⟩ := hμ _ hω
      rw [if_pos hω, if_pos hω, indicator_of_mem (s := {ω | X ω ∈ E}) hx, ← prob_between_ppf (μ := μ (X ω)) ha hab hb, ← e,
        Measure.map_apply hg measurableSet_Icc, e]
      congr 1
      ext t
      simp [hx]
    · rw [indicator_of_notMem (s := {ω | X ω ∈ E}) hx]
      simp [hx]
  rw [lintegral_congr_ae e2, lintegral_indicator hEm]
  simp

end

section Stop

variable {Ω Θ A : Type} [MeasurableSpace Ω] [MeasurableSpace Θ] [MeasurableSpace A]

/-- the sequences of `n` observations on which the rule stops exactly there -/
def stopSet (stop : ∀ n, Set (Fin n → A)) (n : ℕ) : Set (Fin n → A) :=
  stop n ∩ ⋂ m : Fin n, {x | (fun i : Fin m => x ⟨i, i.isLt.trans m.isLt⟩) ∉ stop m}

theorem mem_stopSet {stop : ∀ n, Set (Fin n → A)} {x : ℕ → A} {n : ℕ} :
    firstObs x n ∈ stopSet stop n ↔ StopsAt stop x n := by
  simp only [stopSet, StopsAt, mem_inter_iff, mem_iInter, mem_ofPred_eq]
  refine and_congr_right fun _ => ⟨fun h m hm => h ⟨m, hm⟩, fun h m => h m m.isLt⟩

theorem measurableSet_stopSet {stop : ∀ n, Set (Fin n → A)} (hs : ∀ n, MeasurableSet (stop n)) (n : ℕ) :
    MeasurableSet (stopSet stop n) := by
  refine (hs n).inter (MeasurableSet.iInter fun m => ?_)
  have hm : Measurable fun (x : Fin n → A) (i : Fin m) => x ⟨i, i.isLt.trans m.isLt⟩ := by fun_prop
  exact hm (hs m).compl

theorem Spec.StopsAt.unique {stop : ∀ n, Set (Fin n → A)} {x : ℕ → A} {n m : ℕ} (h : StopsAt stop x n)
    (h' : StopsAt stop x m) : n = m := by
  rcases lt_trichotomy n m with hlt | he | hlt
  · exact absurd h.1 (h'.2 n hlt)
  · exact he
  · exact absurd h'.1 (h.2 m hlt)

variable {P : Measure Ω} {θ : Ω → Θ} {X : Ω → ℕ → A}

theorem measure_stops {stop : ∀ n, Set (Fin n → A)} {U : ℕ → Set Ω}
    (hU : ∀ n, NullMeasurableSet {ω | StopsAt stop (X ω) n ∧ ω ∈ U n} P) :
    P {ω | ∃ n, StopsAt stop (X ω) n ∧ ω ∈ U n} = ∑' n, P {ω | StopsAt stop (X ω) n ∧ ω ∈ U n} := by
  have e : {ω | ∃ n, StopsAt stop (X ω) n ∧ ω ∈ U n} = ⋃ n, {ω | StopsAt stop (X ω) n ∧ ω ∈ U n} := by
    ext ω
    simp
  rw [e, measure_iUnion₀ _ hU]
  intro i j hij
  refine Disjoint.aedisjoint ?_
  refine Set.disjoint_left.2 fun ω h1 h2 => hij ?_
  exact h1.1.unique h2.1

theorem honest_of_calibrated {post : ∀ n, (Fin n → A) → Measure Θ} (hθ : Measurable θ)
    (hX : ∀ n, Measurable fun ω => firstObs (X ω) n)
    (h : ∀ n, Calibrated P θ (fun ω => firstObs (X ω) n) (post n)) : HonestWhenStopped P θ X post := by
  classical
  intro stop hs C hC
  have hset : ∀ n, {ω | StopsAt stop (X ω) n} = (fun ω => firstObs (X ω) n) ⁻¹' stopSet stop n := fun n => by
    ext ω
    exact mem_stopSet.symm
  have hm : ∀ n, MeasurableSet {ω | StopsAt stop (X ω) n} := fun n => by
    rw [hset]
    exact hX n (measurableSet_stopSet hs n)
  have hm' : ∀ n, MeasurableSet {ω | StopsAt stop (X ω) n ∧ ω ∈ {ω | θ ω ∈ C n (firstObs (X ω) n)}} := fun n =>
    (hm n).inter ((hθ.prodMk (hX n)) (hC n))
  refine Eq.trans (measure_stops (U := fun n => {ω | θ ω ∈ C n (firstObs (X ω) n)}) fun n => (hm' n).nullMeasurableSet) (tsum_congr fun n => ?_)
  have hC' : MeasurableSet {z : Θ × (Fin n → A) | z.1 ∈ {t | z.2 ∈ stopSet stop n ∧ t ∈ C n z.2}} :=
    (measurable_snd (measurableSet_stopSet hs n)).inter (hC n)
  have := h n (fun x => {t | x ∈ stopSet stop n ∧ t ∈ C n x}) hC'
  have e1 : {ω | StopsAt stop (X ω) n ∧ ω ∈ {ω | θ ω ∈ C n (firstObs (X ω) n)}} =
      {ω | θ ω ∈ {t | firstObs (X ω) n ∈ stopSet stop n ∧ t ∈ C n (firstObs (X ω) n)}} := by
    ext ω
    simp only [mem_ofPred_eq, mem_stopSet]
  rw [e1, this, ← lintegral_indicator (hm n)]
  refine lintegral_congr fun ω => ?_
  by_cases hω : StopsAt stop (X ω) n
  · rw [indicator_of_mem (s := {ω | StopsAt stop (X ω) n}) hω]
    congr 1
    ext t
    simp [mem_stopSet, hω]
  · rw [indicator_of_notMem (s := {ω | StopsAt stop (X ω) n}) hω]
    simp [mem_stopSet, hω]

end Stop

section Model

variable {Ω Θ A : Type} [MeasurableSpace Ω] [MeasureSpace Θ] [SFinite (volume : Measure Θ)] [MeasurableSpace A]
  {S : Set Θ} {prior : Θ → ℝ} {ν : Measure A} [SigmaFinite ν] {D : Set A}
  {f : Θ → A → ℝ} {post : ∀ n, (Fin n → A) → Θ → ℝ} {priorLaw : Measure Θ} {model : Θ → Measure A}
  {postLaw : ∀ n, (Fin n → A) → Measure Θ} {P : Measure Ω} {θ : Ω → Θ} {X : Ω → ℕ → A}

/-- Bayes' rule after every number of observations -/
def Watched (S : Set Θ) (prior : Θ → ℝ) (ν : Measure A) (D : Set A) (f : Θ → A → ℝ)
    (post : ∀ n, (Fin n → A) → Θ → ℝ) (priorLaw : Measure Θ) (model : Θ → Measure A)
    (postLaw : ∀ n, (Fin n → A) → Measure Θ) : Prop :=
  ∀ n, BayesModel S prior (fun _ : Fin n => ν) (fun _ => D) (fun _ => f) (post n) priorLaw (fun _ => model) (postLaw n)

theorem Watched.honest (h : Watched S prior ν D f post priorLaw model postLaw)
    (hd : DrawThenWatch P θ X priorLaw model) : HonestWhenStopped P θ X postLaw :=
  honest_of_calibrated (hd 0).measurable_unknown (fun n => (hd n).measurable_data) fun n => (h n).calibrated (hd n)

theorem Watched.interval_of [IsProbabilityMeasure P] (h : Watched S prior ν D f post priorLaw model postLaw)
    (hd : DrawThenWatch P θ X priorLaw model) {g : Θ → ℝ} (hg : Measurable g) {μ : ∀ n, (Fin n → A) → Measure ℝ}
    (hμ : ∀ n x, (∀ i, x i ∈ D) → (postLaw n x).map g = μ n x ∧ NullSingletonClass (μ n x)) :
    IntervalWhenStopped P (fun ω => g (θ ω)) X μ := by
  intro stop hs a b ha hab hb
  have hm : ∀ n, MeasurableSet {ω | StopsAt stop (X ω) n} := fun n => by
    have : {ω | StopsAt stop (X ω) n} = (fun ω => firstObs (X ω) n) ⁻¹' stopSet stop n := by
      ext ω
      exact mem_stopSet.symm
    rw [this]
    exact (hd n).measurable_data (measurableSet_stopSet hs n)
  have h2 : P {ω | ∃ n, StopsAt stop (X ω) n} = ∑' n, P {ω | StopsAt stop (X ω) n} := by
    have := measure_stops (P := P) (stop := stop) (X := X) (U := fun _ => univ) fun n => by
      simpa using (hm n).nullMeasurableSet
    simpa using this
  have h1 := fun n => (h n).interval_on (hd n) hg (hμ n) (measurableSet_stopSet hs n) ha hab hb
  simp only [mem_stopSet] at h1
  rw [h2, ← ENNReal.tsum_mul_left]
  refine Eq.trans (measure_stops (U := fun n => {ω | ppf (μ n (firstObs (X ω) n)) a ≤ g (θ ω) ∧
    g (θ ω) ≤ ppf (μ n (firstObs (X ω) n)) b}) fun n => (h1 n).1) (tsum_congr fun n => (h1 n).2)

theorem Watched.prob (h : Watched S prior ν D f post priorLaw model postLaw)
    (hd : DrawThenWatch P θ X priorLaw model) : IsProbabilityMeasure P := by
  refine ⟨?_⟩
  have h0 := (hd 0).law univ MeasurableSet.univ
  have := lawOn_prob (h 0).hS (h 0).prior_dens
  rw [(h 0).prior_law] at h0
  simpa using h0

omit [SFinite (volume : Measure Θ)] in
/-- the infinite product, as a function of the value of the unknown -/
theorem measurable_infinitePi {κ : Θ → Measure A} (hκ : Measurable κ) [∀ t, IsProbabilityMeasure (κ t)] :
    Measurable fun t => Measure.infinitePi fun _ : ℕ => κ t := by
  refine Measurable.measure_of_isPiSystem_of_isProbabilityMeasure generateFrom_squareCylinders.symm
    (isPiSystem_squareCylinders (fun _ => MeasurableSpace.isPiSystem_measurableSet) (by simp)) ?_
  rintro B ⟨s, t, ht, rfl⟩
  have ht' : ∀ i, MeasurableSet (t i) := fun i => ht i (mem_univ i)
  simp only [Measure.infinitePi_pi _ fun i (_ : i ∈ s) => ht' i]
  exact Finset.measurable_prod _ fun i _ => (Measure.measurable_coe (ht' i)).comp hκ

theorem map_firstObs (μ : Measure A) [IsProbabilityMeasure μ] (n : ℕ) :
    (Measure.infinitePi fun _ : ℕ => μ).map (fun x => firstObs x n) = Measure.pi fun _ : Fin n => μ := by
  have hm : Measurable fun x : ℕ → A => firstObs x n := measurable_pi_lambda _ fun i => measurable_pi_apply _
  refine (Measure.pi_eq fun s hs => ?_).symm
  rw [Measure.map_apply hm (MeasurableSet.univ_pi hs)]
  have e : (fun x : ℕ → A => firstObs x n) ⁻¹' univ.pi s =
      Set.pi (Finset.range n : Set ℕ) fun i => if h : i < n then s ⟨i, h⟩ else univ := by
    ext x
    simp only [mem_preimage, mem_pi, mem_univ, true_implies, firstObs, Finset.coe_range, mem_Iio]
    refine ⟨fun h i hi => ?_, fun h i => ?_⟩
    · rw [dif_pos hi]
      exact h ⟨i, hi⟩
    · have := h i i.isLt
      rwa [dif_pos i.isLt] at this
  rw [e, Measure.infinitePi_pi]
  · rw [← Fin.prod_univ_eq_prod_range (fun i => μ (if h : i < n then s ⟨i, h⟩ else univ)) n]
    exact Finset.prod_congr rfl fun i _ => by rw [dif_pos i.isLt]
  · intro i hi
    rw [dif_pos (Finset.mem_range.1 hi)]
    exact hs _

/-- the setting exists -/
theorem Watched.exists_watch (h : Watched S prior ν D f post priorLaw model postLaw) :
    ∃ (Ω : Type) (_ : MeasurableSpace Ω) (P : Measure Ω) (θ : Ω → Θ) (X : Ω → ℕ → A),
      DrawThenWatch P θ X priorLaw model := by
  classical
  have h1 := h 1
  have hprob := lawOn_prob h1.hS h1.prior_dens
  obtain ⟨t0, ht0⟩ : S.Nonempty := by
    by_contra hc
    rw [not_nonempty_iff_eq_empty] at hc
    have := hprob.measure_univ
    rw [lawOn, hc] at this
    simp at this
  obtain ⟨κ, hκ⟩ : ∃ κ : Θ → Measure A, κ = fun t => if t ∈ S then model t else model t0 := ⟨_, rfl⟩
  have hp : ∀ t, IsProbabilityMeasure (κ t) := fun t => by
    rw [hκ]
    beta_reduce
    split_ifs with ht
    · exact h1.model_prob 0 t ht
    · exact h1.model_prob 0 t0 ht0
  have hmeas : Measurable κ := by
    have e : κ = fun t => if t ∈ S then ν.withDensity fun a => ENNReal.ofReal (f t a) else model t0 := by
      rw [hκ]
      funext t
      split_ifs with ht
      · exact h1.model_law 0 t ht
      · rfl
    rw [e]
    refine Measurable.ite h1.hS (Measure.measurable_of_measurable_coe _ fun B hB => ?_) measurable_const
    simp only [withDensity_apply _ hB]
    exact Measurable.lintegral_prod_right' (h1.meas 0).ennreal_ofReal
  let K : Kernel Θ (ℕ → A) := ⟨fun t => Measure.infinitePi fun _ => κ t, measurable_infinitePi hmeas⟩
  have : IsMarkovKernel K := ⟨fun t => by change IsProbabilityMeasure (Measure.infinitePi fun _ => κ t); infer_instance⟩
  rw [← h1.prior_law] at hprob
  refine ⟨Θ × (ℕ → A), inferInstance, priorLaw ⊗ₘ K, Prod.fst, Prod.snd, fun n => ⟨measurable_fst, ?_, fun B hB => ?_⟩⟩
  · exact measurable_pi_lambda _ fun i => (measurable_pi_apply _).comp measurable_snd
  · have hm : Measurable fun x : ℕ → A => firstObs x n := measurable_pi_lambda _ fun i => measurable_pi_apply _
    have hB' : MeasurableSet {z : Θ × (ℕ → A) | (z.1, firstObs z.2 n) ∈ B} :=
      (measurable_fst.prodMk (hm.comp measurable_snd)) hB
    rw [Measure.compProd_apply hB', h1.prior_law]
    refine lintegral_congr_ae ?_
    filter_upwards [ae_lawOn_mem h1.hS prior] with t ht
    have e : κ t = model t := by rw [hκ]; exact if_pos ht
    have hs : MeasurableSet {x : Fin n → A | (t, x) ∈ B} := (measurable_const.prodMk measurable_id) hB
    rw [← e, ← map_firstObs, Measure.map_apply hm hs]
    rfl

/-- before any observation the posterior is the prior -/
theorem BayesModel.none_seen {n : ℕ} {p : (Fin (n + 1) → A) → Θ → ℝ} {q : (Fin (n + 1) → A) → Measure Θ}
    (h : BayesModel S prior (fun _ : Fin (n + 1) => ν) (fun _ => D) (fun _ => f) p priorLaw (fun _ => model) q) :
    BayesModel S prior (fun _ : Fin 0 => ν) (fun _ => D) (fun _ => f) (fun _ => prior) priorLaw (fun _ => model)
      (fun _ => priorLaw) where
  hS := h.hS
  hD i := i.elim0
  hν i := i.elim0
  prior_meas := h.prior_meas
  prior_dens := h.prior_dens
  meas i := i.elim0
  nonneg i := i.elim0
  prior_law := h.prior_law
  model_law i := i.elim0
  model_prob i := i.elim0
  bayes x _ := by
    simp only [IsPosterior, Finset.univ_eq_empty, Finset.prod_empty, mul_one, h.prior_dens.2.2]
    exact ⟨one_pos, fun t _ => by simp⟩
  post_law _ _ := h.prior_law

end Model

section Real

variable {Ω A : Type} [MeasurableSpace Ω] [MeasurableSpace A]
  {S : Set ℝ} {prior : ℝ → ℝ} {ν : Measure A} [SigmaFinite ν] {D : Set A}
  {f : ℝ → A → ℝ} {post : ∀ n, (Fin n → A) → ℝ → ℝ} {priorLaw : Measure ℝ} {model : ℝ → Measure A}
  {postLaw : ∀ n, (Fin n → A) → Measure ℝ} {P : Measure Ω} {θ : Ω → ℝ} {X : Ω → ℕ → A}

theorem Watched.both (h : Watched S prior ν D f post priorLaw model postLaw)
    (hd : DrawThenWatch P θ X priorLaw model) : HonestWhenStopped P θ X postLaw ∧ IntervalWhenStopped P θ X postLaw := by
  have := h.prob hd
  refine ⟨h.honest hd, h.interval_of hd measurable_id fun n x hx => ⟨Measure.map_id, ?_⟩⟩
  rw [(h n).post_law x hx, lawOn]
  infer_instance

end Real

end Conj
