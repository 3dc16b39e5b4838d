import Verif.Lemmas.IeeeSize

/-!
# Double precision within range (C109)

The rounding results C89 - C91 are about floats with 53 bits and any exponent. `np.float64` has bounded exponents. If
the prior's parameters and the data are doubles that are zero or between `1e-25` and `1e25` in magnitude, then no step of
a model function overflows, underflows or gives `nan`: every parameter of the result is finite and is, bit for bit, the
number of C89 - C91.
-/

namespace Conj

open Spec

theorem C109_binomial_beta (n x : ℝ) (prior : Beta ℝ) (hn : Input n) (hx : Input x) (hp : Params.All Input prior) :
    SameNumbers (binomial_beta (F64.ofReal n) (F64.ofReal x) (fmap F64.ofReal prior))
      (binomial_beta ⟨n⟩ ⟨x⟩ (fmap Fl.mk prior)) :=
  ⟨(hp.1.mid.add hx.mid).value, (hp.2.mid.add (hn.mid.sub hx.mid)).value⟩

theorem C109_bernoulli_beta (x : ℝ) (prior : Beta ℝ) (hx : Input x) (hp : Params.All Input prior) :
    SameNumbers (bernoulli_beta (F64.ofReal x) (fmap F64.ofReal prior)) (bernoulli_beta ⟨x⟩ (fmap Fl.mk prior)) :=
  ⟨(hp.1.mid.add hx.mid).value,
    (hp.2.mid.add ((mid_lit (q := 1) (by norm_num) (by norm_num)).toMid.sub hx.mid)).value⟩

theorem C109_negative_binomial_beta (r n x : ℝ) (prior : Beta ℝ) (hr : Input r) (hn : Input n) (hx : Input x)
    (hp : Params.All Input prior) :
    SameNumbers (negative_binomial_beta (F64.ofReal r) (F64.ofReal n) (F64.ofReal x) (fmap F64.ofReal prior))
      (negative_binomial_beta ⟨r⟩ ⟨n⟩ ⟨x⟩ (fmap Fl.mk prior)) :=
  ⟨(hp.1.mid.add (hr.mid.mul hn.mid)).value, (hp.2.mid.add hx.mid).value⟩

theorem C109_hypergeometric_beta_binomial (x_total n : ℝ) (prior : BetaBinomial ℝ) (hx : Input x_total)
    (hp : Params.All Input prior) :
    SameNumbers (hypergeometric_beta_binomial (F64.ofReal x_total) (F64.ofReal n) (fmap F64.ofReal prior))
      (hypergeometric_beta_binomial ⟨x_total⟩ ⟨n⟩ (fmap Fl.mk prior)) :=
  ⟨hp.1.mid.value, (hp.2.1.mid.add hx.mid).value, (hp.2.2.mid.add (hp.1.mid.sub hx.mid)).value⟩

theorem C109_geometric_beta (x_total n : ℝ) (prior : Beta ℝ) (one_start : Bool) (hx : Input x_total) (hn : Input n)
    (hp : Params.All Input prior) :
    SameNumbers (geometric_beta (F64.ofReal x_total) (F64.ofReal n) (fmap F64.ofReal prior) one_start)
      (geometric_beta ⟨x_total⟩ ⟨n⟩ (fmap Fl.mk prior) one_start) := by
  cases one_start
  · exact ⟨(hp.1.mid.add hn.mid).value, (hp.2.mid.add hx.mid).value⟩
  · exact ⟨(hp.1.mid.add hn.mid).value, ((hp.2.mid.add hx.mid).sub hn.mid).value⟩

theorem C109_poisson_gamma (x_total n : ℝ) (prior : Gamma ℝ) (hx : Input x_total) (hn : Input n)
    (hp : Params.All Input prior) :
    SameNumbers (poisson_gamma (F64.ofReal x_total) (F64.ofReal n) (fmap F64.ofReal prior))
      (poisson_gamma ⟨x_total⟩ ⟨n⟩ (fmap Fl.mk prior)) :=
  ⟨(hp.1.mid.add hx.mid).value, (hp.2.mid.add hn.mid).value⟩

theorem C109_poisson_gamma_predictive (n : ℝ) (d : Gamma ℝ) (hn : Input n) (hd : Params.All Input d)
    (hb : 0 ≤ d.beta) :
    SameNumbers (poisson_gamma_predictive (fmap F64.ofReal d) (F64.ofReal n))
      (poisson_gamma_predictive (fmap Fl.mk d) ⟨n⟩) :=
  ⟨(hn.mid.mul hd.1.mid).value, (hd.2.mid.div ((mid_lit (q := 1) (by norm_num) (by norm_num)).add (hd.2.nn hb))).value⟩

theorem C109_exponential_gamma (x_total n : ℝ) (prior : Gamma ℝ) (hx : Input x_total) (hn : Input n)
    (hp : Params.All Input prior) :
    SameNumbers (exponential_gamma (F64.ofReal x_total) (F64.ofReal n) (fmap F64.ofReal prior))
      (exponential_gamma ⟨x_total⟩ ⟨n⟩ (fmap Fl.mk prior)) :=
  ⟨(hp.1.mid.add hx.mid).value, (hp.2.mid.add hn.mid).value⟩

theorem C109_gamma_known_shape (x_total n alpha : ℝ) (prior : Gamma ℝ) (hx : Input x_total) (hn : Input n)
    (ha : Input alpha) (hp : Params.All Input prior) :
    SameNumbers (gamma_known_shape (F64.ofReal x_total) (F64.ofReal n) (F64.ofReal alpha) (fmap F64.ofReal prior))
      (gamma_known_shape ⟨x_total⟩ ⟨n⟩ ⟨alpha⟩ (fmap Fl.mk prior)) :=
  ⟨(hp.1.mid.add (hn.mid.mul ha.mid)).value, (hp.2.mid.add hx.mid).value⟩

theorem C109_inverse_gamma_known_rate (reciprocal_x_total n alpha : ℝ) (prior : Gamma ℝ)
    (hx : Input reciprocal_x_total) (hn : Input n) (ha : Input alpha) (hp : Params.All Input prior) :
    SameNumbers
      (inverse_gamma_known_rate (F64.ofReal reciprocal_x_total) (F64.ofReal n) (F64.ofReal alpha) (fmap F64.ofReal prior))
      (inverse_gamma_known_rate ⟨reciprocal_x_total⟩ ⟨n⟩ ⟨alpha⟩ (fmap Fl.mk prior)) :=
  ⟨(hp.1.mid.add (hn.mid.mul ha.mid)).value, (hp.2.mid.add hx.mid).value⟩

theorem C109_weibull_inverse_gamma_known_shape (n x_beta_total : ℝ) (prior : InverseGamma ℝ) (hn : Input n)
    (hx : Input x_beta_total) (hp : Params.All Input prior) :
    SameNumbers (weibull_inverse_gamma_known_shape (F64.ofReal n) (F64.ofReal x_beta_total) (fmap F64.ofReal prior))
      (weibull_inverse_gamma_known_shape ⟨n⟩ ⟨x_beta_total⟩ (fmap Fl.mk prior)) :=
  ⟨(hp.1.mid.add hn.mid).value, (hp.2.mid.add hx.mid).value⟩

/-- `ln` on doubles gives the same number as `ln` on floats without exponent bounds, of moderate size -/
theorem C109_pareto_gamma (n ln_x_total x_m : ℝ) (prior : Gamma ℝ) (ln : F64 → F64)
    (ln' : Fl (binary 53) → Fl (binary 53)) (hln : ln (F64.ofReal x_m) = F64.ofReal (ln' ⟨x_m⟩).val)
    (hl : Input (ln' ⟨x_m⟩).val) (hn : Input n) (hx : Input ln_x_total) (hp : Params.All Input prior) :
    SameNumbers (pareto_gamma (F64.ofReal n) (F64.ofReal ln_x_total) (F64.ofReal x_m) (fmap F64.ofReal prior) ln)
      (pareto_gamma ⟨n⟩ ⟨ln_x_total⟩ ⟨x_m⟩ (fmap Fl.mk prior) ln') := by
  have h : Mid 84 (ln (F64.ofReal x_m)) (ln' ⟨x_m⟩) := by rw [hln]; exact hl.mid
  exact ⟨(hp.1.mid.add hn.mid).value, ((hp.2.mid.add hx.mid).sub (hn.mid.mul h)).value⟩

/-- the greater of two floats -/
noncomputable def Spec.greater (a b : Fl (binary 53)) : Fl (binary 53) := open Classical in if a.val < b.val then b else a

theorem maximum_mid {K : ℕ} {a b : F64} {x y : Fl (binary 53)} (h : Mid K a x) (h' : Mid K b y) :
    Mid K (F64.maximum a b) (greater x y) := by
  have e : F64.maximum a b = open Classical in if x.val < y.val then b else a := by
    have hv := h.value
    have hv' := h'.value
    rcases h.rep with ⟨s, rfl, h0⟩ | ⟨rfl, _, _⟩ <;> rcases h'.rep with ⟨t, rfl, h0'⟩ | ⟨rfl, _, _⟩ <;>
      simp only [F64.maximum, hv, hv', Option.getD_some]
  rw [e]
  unfold greater
  split_ifs
  · exact h'
  · exact h

/-- with `np.maximum`, the default -/
theorem C109_uniform_pareto (x_max n : ℝ) (prior : Pareto ℝ) (hx : Input x_max) (hn : Input n)
    (hp : Params.All Input prior) :
    SameNumbers (uniform_pareto (F64.ofReal x_max) (F64.ofReal n) (fmap F64.ofReal prior) F64.maximum)
      (uniform_pareto ⟨x_max⟩ ⟨n⟩ (fmap Fl.mk prior) greater) :=
  ⟨(maximum_mid hp.1.mid hx.mid).value, (hp.2.mid.add hn.mid).value⟩

theorem C109_gamma (x_total x_prod n : ℝ) (prior : GammaProportional ℝ) (hx : Input x_total) (hq : Input x_prod)
    (hn : Input n) (hp : Params.All Input prior) :
    SameNumbers (gamma (F64.ofReal x_total) (F64.ofReal x_prod) (F64.ofReal n) (fmap F64.ofReal prior))
      (gamma ⟨x_total⟩ ⟨x_prod⟩ ⟨n⟩ (fmap Fl.mk prior)) := by
  obtain ⟨h1, h2, h3, h4⟩ := hp
  exact ⟨(h1.mid.mul hq.mid).value, (h2.mid.add hx.mid).value, (h3.mid.add hn.mid).value, (h4.mid.add hn.mid).value⟩

theorem C109_gamma_known_rate (x_prod n rate : ℝ) (prior : GammaKnownRateProportional ℝ) (hx : Input x_prod)
    (hn : Input n) (hp : Params.All Input prior) :
    SameNumbers (gamma_known_rate (F64.ofReal x_prod) (F64.ofReal n) (F64.ofReal rate) (fmap F64.ofReal prior))
      (gamma_known_rate ⟨x_prod⟩ ⟨n⟩ ⟨rate⟩ (fmap Fl.mk prior)) := by
  obtain ⟨h1, h2, h3⟩ := hp
  exact ⟨(h1.mid.mul hx.mid).value, (h2.mid.add hn.mid).value, (h3.mid.add hn.mid).value⟩

theorem C109_beta (x_prod one_minus_x_prod n : ℝ) (prior : BetaProportional ℝ) (hx : Input x_prod)
    (hy : Input one_minus_x_prod) (hn : Input n) (hp : Params.All Input prior) :
    SameNumbers (beta (F64.ofReal x_prod) (F64.ofReal one_minus_x_prod) (F64.ofReal n) (fmap F64.ofReal prior))
      (beta ⟨x_prod⟩ ⟨one_minus_x_prod⟩ ⟨n⟩ (fmap Fl.mk prior)) := by
  obtain ⟨h1, h2, h3⟩ := hp
  exact ⟨(h1.mid.mul hx.mid).value, (h2.mid.mul hy.mid).value, (h3.mid.add hn.mid).value⟩

theorem C109_von_mises_known_direction (centered_cos_total n : ℝ) (prior : VonMisesKnownDirectionProportional ℝ)
    (hx : Input centered_cos_total) (hn : Input n) (hp : Params.All Input prior) :
    SameNumbers (von_mises_known_direction (F64.ofReal centered_cos_total) (F64.ofReal n) (fmap F64.ofReal prior))
      (von_mises_known_direction ⟨centered_cos_total⟩ ⟨n⟩ (fmap Fl.mk prior)) := by
  obtain ⟨h1, h2⟩ := hp
  exact ⟨(h1.mid.add hn.mid).value, (h2.mid.add hx.mid).value⟩

theorem C109_multinomial_dirichlet {I : Type} (x : I → ℝ) (prior : Dirichlet (I → ℝ)) (hx : ∀ i, Input (x i))
    (hp : ∀ i, Input (prior.alpha i)) :
    ∃ d d', multinomial_dirichlet (fun i => F64.ofReal (x i)) ⟨fun i => F64.ofReal (prior.alpha i)⟩ = .ok d ∧
      multinomial_dirichlet (fun i => (⟨x i⟩ : Fl (binary 53))) ⟨fun i => ⟨prior.alpha i⟩⟩ = .ok d' ∧
      ∀ i, (d.alpha i).value = some (d'.alpha i).val :=
  ⟨_, _, rfl, rfl, fun i => ((hp i).mid.add (hx i).mid).value⟩

theorem C109_categorical_dirichlet {I : Type} (x : I → ℝ) (prior : Dirichlet (I → ℝ)) (hx : ∀ i, Input (x i))
    (hp : ∀ i, Input (prior.alpha i)) :
    ∃ d d', categorical_dirichlet (fun i => F64.ofReal (x i)) ⟨fun i => F64.ofReal (prior.alpha i)⟩ = .ok d ∧
      categorical_dirichlet (fun i => (⟨x i⟩ : Fl (binary 53))) ⟨fun i => ⟨prior.alpha i⟩⟩ = .ok d' ∧
      ∀ i, (d.alpha i).value = some (d'.alpha i).val :=
  ⟨_, _, rfl, rfl, fun i => ((hp i).mid.add (hx i).mid).value⟩

/-! ## Normal models: divisions, squares and roots -/

theorem one_mid : MidPos 2 (lit 1) (lit 1) := mid_lit (by norm_num) (by norm_num)
theorem two_mid : MidPos 2 (lit 2) (lit 2) := mid_lit (by norm_num) (by norm_num)
theorem half_mid : MidPos 2 (lit (1 / 2)) (lit (1 / 2)) := mid_lit (by norm_num) (by norm_num)

section
variable {a b c d e : F64} {x n v mu sigma : Fl (binary 53)}

theorem known_variance_mid {K : ℕ} (hx : Mid 84 a x) (hn : MidNN 84 b n) (hv : MidPos K c v) (hK : K ≤ 90)
    (hm : Mid 84 d mu) (hs : MidPos 84 e sigma) :
    SameNumbers (normal_known_variance a b c ⟨d, e⟩) (normal_known_variance x n v ⟨mu, sigma⟩) := by
  have hv := hv.mono hK
  have den := (one_mid.div hs.sq).add (hn.div hv)
  exact ⟨(((hm.div hs.sq).add (hx.div hv)).div den).value, (one_mid.div den).sqrt.value⟩

end

theorem C109_normal_known_variance (x_total n var : ℝ) (prior : Normal ℝ) (hx : Input x_total) (hn : Input n)
    (hv : Input var) (hp : Params.All Input prior) (hn0 : 0 ≤ n) (hv0 : 0 < var) (hs : 0 < prior.sigma) :
    SameNumbers (normal_known_variance (F64.ofReal x_total) (F64.ofReal n) (F64.ofReal var) (fmap F64.ofReal prior))
      (normal_known_variance ⟨x_total⟩ ⟨n⟩ ⟨var⟩ (fmap Fl.mk prior)) :=
  known_variance_mid hx.mid (hn.nn hn0) (hv.pos hv0) (by norm_num) hp.1.mid (hp.2.pos hs)

theorem C109_normal_known_precision (x_total n precision : ℝ) (prior : Normal ℝ) (hx : Input x_total) (hn : Input n)
    (hv : Input precision) (hp : Params.All Input prior) (hn0 : 0 ≤ n) (hv0 : 0 < precision) (hs : 0 < prior.sigma) :
    SameNumbers (normal_known_precision (F64.ofReal x_total) (F64.ofReal n) (F64.ofReal precision) (fmap F64.ofReal prior))
      (normal_known_precision ⟨x_total⟩ ⟨n⟩ ⟨precision⟩ (fmap Fl.mk prior)) :=
  known_variance_mid hx.mid (hn.nn hn0) (one_mid.div (hv.pos hv0)) (by norm_num) hp.1.mid (hp.2.pos hs)

theorem C109_normal_known_variance_predictive (var : ℝ) (d : Normal ℝ) (hv : Input var) (hd : Params.All Input d)
    (hv0 : 0 < var) (hs : 0 < d.sigma) :
    SameNumbers (normal_known_variance_predictive (F64.ofReal var) (fmap F64.ofReal d))
      (normal_known_variance_predictive ⟨var⟩ (fmap Fl.mk d)) :=
  ⟨hd.1.mid.value, ((hv.pos hv0).add (hd.2.pos hs).sq.toMidNN).sqrt.value⟩

theorem C109_normal_known_precision_predictive (precision : ℝ) (d : Normal ℝ) (hv : Input precision)
    (hd : Params.All Input d) (hv0 : 0 < precision) (hs : 0 < d.sigma) :
    SameNumbers (normal_known_precision_predictive (F64.ofReal precision) (fmap F64.ofReal d))
      (normal_known_precision_predictive ⟨precision⟩ (fmap Fl.mk d)) :=
  ⟨hd.1.mid.value, ((one_mid.div (hv.pos hv0)).add (hd.2.pos hs).sq.toMidNN).sqrt.value⟩

section
variable {a b c d e f : F64} {x x2 n mu alpha beta : Fl (binary 53)}

theorem known_mean_mid {K : ℕ} (hx : Mid 84 a x) (h2 : Mid 84 b x2) (hn : MidNN 84 c n) (hm : Mid 84 d mu)
    (ha : MidPos 87 e alpha) (hb : Mid K f beta) (hK : K ≤ 300) :
    MidPos 89 (normalKnownMeanInverseGammaPrior a b c d ⟨e, f⟩).alpha
        (normalKnownMeanInverseGammaPrior x x2 n mu ⟨alpha, beta⟩).alpha ∧
      Mid 417 (normalKnownMeanInverseGammaPrior a b c d ⟨e, f⟩).beta
        (normalKnownMeanInverseGammaPrior x x2 n mu ⟨alpha, beta⟩).beta := by
  have hb := hb.mono hK
  refine ⟨(ha.add (hn.div two_mid)).mono (by norm_num), ?_⟩
  exact (hb.add (half_mid.toMid.mul ((h2.sub ((two_mid.toMid.mul hm).mul hx)).add
    (hn.toMid.mul hm.sq.toMid)))).mono (by norm_num)

end

theorem C109_normal_known_mean (x_total x2_total n mu : ℝ) (prior : VariancePrior ℝ) (hx : Input x_total)
    (h2 : Input x2_total) (hn : Input n) (hm : Input mu) (hn0 : 0 ≤ n) (hp : Params.All Input prior)
    (hpos : Params.All (0 < ·) prior) :
    SameNumbers
      (normal_known_mean (F64.ofReal x_total) (F64.ofReal x2_total) (F64.ofReal n) (F64.ofReal mu) (fmap F64.ofReal prior))
      (normal_known_mean ⟨x_total⟩ ⟨x2_total⟩ ⟨n⟩ ⟨mu⟩ (fmap Fl.mk prior)) := by
  cases prior with
  | inverseGamma d =>
    obtain ⟨r1, r2⟩ := known_mean_mid hx.mid h2.mid (hn.nn hn0) hm.mid ((hp.1.pos hpos.1).mono (by norm_num)) hp.2.mid
      (by norm_num)
    exact ⟨r1.value, r2.value⟩
  | scaledInverseChiSquared d =>
    have hnu := hp.1.pos hpos.1
    obtain ⟨r1, r2⟩ := known_mean_mid hx.mid h2.mid (hn.nn hn0) hm.mid (hnu.div two_mid)
      ((hnu.toMid.mul hp.2.mid).div two_mid) (by norm_num)
    have r3 := r1.mul two_mid
    exact ⟨r3.value, ((r2.mul two_mid.toMid).div r3).value⟩

theorem C109_normal_known_mean_predictive (mu : ℝ) (d : VariancePrior ℝ) (hm : Input mu) (hd : Params.All Input d)
    (hpos : Params.All (0 < ·) d) :
    SameNumbers (normal_known_mean_predictive (F64.ofReal mu) (fmap F64.ofReal d))
      (normal_known_mean_predictive ⟨mu⟩ (fmap Fl.mk d)) := by
  cases d with
  | inverseGamma d =>
    have ha := hd.1.pos hpos.1
    exact ⟨hm.mid.value, ((hd.2.pos hpos.2).div ha).sqrt.value, (two_mid.mul ha).value⟩
  | scaledInverseChiSquared d =>
    have hnu := hd.1.pos hpos.1
    have ha := hnu.div two_mid
    exact ⟨hm.mid.value, (((hnu.mul (hd.2.pos hpos.2)).div two_mid).div ha).sqrt.value, (two_mid.mul ha).value⟩

section
variable {a b c m w al be : F64} {x x2 n mu nu alpha beta : Fl (binary 53)}

theorem normalUpdate_mid (hx : Mid 84 a x) (h2 : Mid 84 b x2) (hn : MidPos 84 c n) (hm : Mid 84 m mu)
    (hw : MidPos 84 w nu) (ha : Mid 84 al alpha) (hb : Mid 84 be beta) :
    let r := normalUpdate a b c m w al be
    let r' := normalUpdate x x2 n mu nu alpha beta
    r.1.value = some r'.1.val ∧ r.2.1.value = some r'.2.1.val ∧ r.2.2.1.value = some r'.2.2.1.val ∧
      r.2.2.2.value = some r'.2.2.2.val := by
  have hnu := hw.add hn.toMidNN
  have hmu := ((hw.toMid.mul hm).add (hn.toMid.mul (hx.div hn))).div hnu
  exact ⟨hmu.value, hnu.value, (ha.add (hn.toMid.div two_mid)).value,
    (hb.add (half_mid.toMid.mul (((hm.sq.toMid.mul hw.toMid).add h2).sub (hmu.sq.toMid.mul hnu.toMid)))).value⟩

end

theorem C109_normal_ng {M : Type} (x_total x2_total n : ℝ) (prior : NormalGamma ℝ) (hx : Input x_total)
    (h2 : Input x2_total) (hn : Input n) (hn0 : 0 < n) (hp : Params.All Input prior) (hl : 0 < prior.lam) :
    ∃ d d', normal (M := M) (F64.ofReal x_total) (F64.ofReal x2_total) (F64.ofReal n) (.ng (fmap F64.ofReal prior)) =
        .ok (.ng d) ∧
      normal (M := M) (⟨x_total⟩ : Fl (binary 53)) ⟨x2_total⟩ ⟨n⟩ (.ng (fmap Fl.mk prior)) = .ok (.ng d') ∧
      SameNumbers d d' := by
  obtain ⟨h1, h3, h4, h5⟩ := hp
  exact ⟨_, _, rfl, rfl, normalUpdate_mid hx.mid h2.mid (hn.pos hn0) h1.mid (h3.pos hl) h4.mid h5.mid⟩

theorem C109_normal_nig {M : Type} (x_total x2_total n : ℝ) (mu nu alpha beta : ℝ) (hx : Input x_total)
    (h2 : Input x2_total) (hn : Input n) (hn0 : 0 < n) (hm : Input mu) (hnu : Input nu) (ha : Input alpha)
    (hb : Input beta) (hl : 0 < nu) :
    ∃ d d', normal (M := M) (F64.ofReal x_total) (F64.ofReal x2_total) (F64.ofReal n)
        (.nig ⟨F64.ofReal mu, F64.ofReal alpha, F64.ofReal beta, none, some (F64.ofReal nu)⟩) = .ok (.nig d) ∧
      normal (M := M) (⟨x_total⟩ : Fl (binary 53)) ⟨x2_total⟩ ⟨n⟩
        (.nig ⟨⟨mu⟩, ⟨alpha⟩, ⟨beta⟩, none, some ⟨nu⟩⟩) = .ok (.nig d') ∧
      d.mu.value = some d'.mu.val ∧ d.alpha.value = some d'.alpha.val ∧ d.beta.value = some d'.beta.val ∧
      ∃ v v', d.nu = some v ∧ d'.nu = some v' ∧ v.value = some v'.val := by
  obtain ⟨r1, r2, r3, r4⟩ := normalUpdate_mid hx.mid h2.mid (hn.pos hn0) hm.mid (hnu.pos hl) ha.mid hb.mid
  exact ⟨_, _, rfl, rfl, r1, r3, r4, _, _, rfl, rfl, r2⟩

theorem C109_normal_predictive {M : Type} (d : NormalGamma ℝ) (hd : Params.All Input d) (hl : 0 < d.lam)
    (ha : 0 < d.alpha) (hb : 0 ≤ d.beta) :
    ∃ t t', normal_predictive (M := M) (.ng (fmap F64.ofReal d)) = .ok t ∧
      normal_predictive (M := M) (.ng (fmap (Fl.mk (F := binary 53)) d)) = .ok t' ∧ SameNumbers t t' := by
  obtain ⟨h1, h3, h4, h5⟩ := hd
  have hlam := h3.pos hl
  exact ⟨_, _, rfl, rfl, h1.mid.value,
    (((h5.nn hb).mul (hlam.add one_mid.toMidNN).toMidNN).div (hlam.mul (h4.pos ha))).sqrt.value,
    (two_mid.mul (h4.pos ha)).value⟩

/-! ## Inputs as in the documentation meet the hypotheses -/

theorem input_int {k : ℤ} (h : k ≠ 0) (hk : |k| ≤ 2 ^ 53) : Input (k : ℝ) := by
  have h1 : (1 : ℝ) ≤ |(k : ℝ)| := by exact_mod_cast Int.one_le_abs h
  have h2 : |(k : ℝ)| ≤ 2 ^ 53 := by exact_mod_cast hk
  exact ⟨⟨h2.trans_lt (pow_lt_pow_right₀ (by norm_num) (by norm_num)), k, 0, hk, by norm_num, by simp⟩, .inr ⟨by norm_num; linarith, h2.trans (by norm_num)⟩⟩

theorem input_half {k : ℤ} (h : k ≠ 0) (hk : |k| ≤ 2 ^ 53) : Input ((k : ℝ) / 2) := by
  have h1 : (1 : ℝ) ≤ |(k : ℝ)| := by exact_mod_cast Int.one_le_abs h
  have h2 : |(k : ℝ)| ≤ 2 ^ 53 := by exact_mod_cast hk
  have h3 : |(k : ℝ) / 2| = |(k : ℝ)| / 2 := by rw [abs_div]; norm_num
  refine ⟨⟨?_, k, -1, hk, by norm_num, by norm_num; ring⟩, .inr ⟨?_, ?_⟩⟩
  · rw [h3]; exact lt_of_le_of_lt (by linarith) (show (2 : ℝ) ^ 53 < 2 ^ 1024 from pow_lt_pow_right₀ (by norm_num) (by norm_num))
  · rw [h3]; norm_num; linarith
  · rw [h3]; norm_num; norm_num at h2; linarith

/-- 1000 measurements with mean 0.5 and variance 1, a `NormalGamma(0.5, 1, 2, 3)` prior -/
example : ∃ d d', normal (M := Unit) (F64.ofReal 500) (F64.ofReal 1250) (F64.ofReal 1000)
      (.ng (fmap F64.ofReal ⟨1 / 2, 1, 2, 3⟩)) = .ok (.ng d) ∧
    normal (M := Unit) (⟨500⟩ : Fl (binary 53)) ⟨1250⟩ ⟨1000⟩ (.ng (fmap Fl.mk ⟨1 / 2, 1, 2, 3⟩)) = .ok (.ng d') ∧
    SameNumbers d d' := by
  have i := fun k h hk => input_int (k := k) h hk
  refine C109_normal_ng 500 1250 1000 ⟨1 / 2, 1, 2, 3⟩ ?_ ?_ ?_ (by norm_num) ⟨?_, ?_, ?_, ?_⟩ (by norm_num)
  · exact_mod_cast i 500 (by norm_num) (by norm_num)
  · exact_mod_cast i 1250 (by norm_num) (by norm_num)
  · exact_mod_cast i 1000 (by norm_num) (by norm_num)
  · have := input_half (k := 1) (by norm_num) (by norm_num)
    norm_num at this ⊢; exact this
  · exact_mod_cast i 1 (by norm_num) (by norm_num)
  · exact_mod_cast i 2 (by norm_num) (by norm_num)
  · exact_mod_cast i 3 (by norm_num) (by norm_num)

end Conj
