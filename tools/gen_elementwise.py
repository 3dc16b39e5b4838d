#!/usr/bin/env python3
"""Writes the per-class and per-model boilerplate of the elementwise development:
lean/Verif/Params.lean, lean/Verif/Lemmas/Elementwise.lean, lean/Verif/Props/Vectorised.lean,
lean/Verif/Props/Symbolic.lean and lean/Verif/Props/SliceCommutes.lean."""
import pathlib
root = pathlib.Path(__file__).resolve().parent.parent / "lean/Verif"

# class -> fields; "?" marks a flag that is not a number
CL = {
 "Beta": "alpha beta", "Gamma": "alpha beta", "InverseGamma": "alpha beta", "Normal": "mu sigma",
 "BetaBinomial": "n alpha beta", "BetaNegativeBinomial": "n alpha beta", "BetaGeometric": "alpha beta one_start?",
 "NegativeBinomial": "n p", "Lomax": "alpha lam", "CompoundGamma": "alpha beta lam", "StudentT": "mu sigma nu",
 "ScaledInverseChiSquared": "nu sigma2", "NormalGamma": "mu lam alpha beta", "Pareto": "x_m alpha",
 "GammaProportional": "p q r s", "GammaKnownRateProportional": "a b c", "BetaProportional": "p q k",
 "VonMisesKnownConcentration": "a b", "VonMisesKnownDirectionProportional": "c r",
 "Binomial": "n p", "Exponential": "lam", "Hypergeometric": "N k n", "Poisson": "lam", "Geometric": "p one_start?",
 "Uniform": "low high", "VonMises": "mu kappa", "LogNormal": "mu sigma", "Weibull": "beta theta",
}
CL = {c: [(f.rstrip("?"), f.endswith("?")) for f in fs.split()] for c, fs in CL.items()}
SLICE = {"Beta","Binomial","Exponential","Gamma","NegativeBinomial","Hypergeometric","Poisson","BetaBinomial","BetaNegativeBinomial","Geometric","BetaGeometric","Normal","Uniform","Pareto","InverseGamma","StudentT","Lomax","CompoundGamma","VonMises","ScaledInverseChiSquared","LogNormal","Weibull"}

# model, numeric args, (prior arg, class), result class, fields -> used shapes, extras, argument template
# extras: list of (name, arity) function arguments; flags: list of Bool arguments
class M:
    def __init__(s, name, args, prior, pcls, res, uses, tmpl, fns=(), flags=()):
        s.name, s.args, s.prior, s.pcls, s.res, s.tmpl, s.fns, s.flags = name, args.split(), prior, pcls, res, tmpl, list(fns), list(flags)
        s.uses = dict(u.split(":") for u in uses.split(";"))
        s.uses = {k: v.split() for k, v in s.uses.items()}
MS = [
 M("binomial_beta","n x","prior","Beta","Beta","alpha:.alpha x;beta:.beta n x","n x prior"),
 M("binomial_beta_predictive","n","distribution","Beta","BetaBinomial","n:n;alpha:.alpha;beta:.beta","n distribution"),
 M("bernoulli_beta","x","prior","Beta","Beta","alpha:.alpha x;beta:.beta x","x prior"),
 M("bernoulli_beta_predictive","","distribution","Beta","BetaBinomial","n:;alpha:.alpha;beta:.beta","distribution"),
 M("negative_binomial_beta","r n x","prior","Beta","Beta","alpha:.alpha r n;beta:.beta x","r n x prior"),
 M("negative_binomial_beta_predictive","r","distribution","Beta","BetaNegativeBinomial","n:r;alpha:.alpha;beta:.beta","r distribution"),
 M("hypergeometric_beta_binomial","x_total n","prior","BetaBinomial","BetaBinomial","n:.n;alpha:.alpha x_total;beta:.beta .n x_total","x_total n prior"),
 M("geometric_beta","x_total n","prior","Beta","Beta","alpha:.alpha n;beta:.beta x_total n","x_total n prior one_start",flags=["one_start"]),
 M("geometric_beta_predictive","","distribution","Beta","BetaGeometric","alpha:.alpha;beta:.beta","distribution one_start",flags=["one_start"]),
 M("poisson_gamma","x_total n","prior","Gamma","Gamma","alpha:.alpha x_total;beta:.beta n","x_total n prior"),
 M("poisson_gamma_predictive","n","distribution","Gamma","NegativeBinomial","n:n .alpha;p:.beta","distribution n"),
 M("exponential_gamma","x_total n","prior","Gamma","Gamma","alpha:.alpha x_total;beta:.beta n","x_total n prior"),
 M("exponential_gamma_predictive","","distribution","Gamma","Lomax","alpha:.beta;lam:.alpha","distribution"),
 M("gamma_known_shape","x_total n alpha","prior","Gamma","Gamma","alpha:.alpha n alpha;beta:.beta x_total","x_total n alpha prior"),
 M("gamma_known_shape_predictive","alpha","distribution","Gamma","CompoundGamma","alpha:alpha;beta:.alpha;lam:.beta","distribution alpha"),
 M("inverse_gamma_known_rate","reciprocal_x_total n alpha","prior","Gamma","Gamma","alpha:.alpha n alpha;beta:.beta reciprocal_x_total","reciprocal_x_total n alpha prior"),
 M("normal_known_variance","x_total n var","prior","Normal","Normal","mu:.mu .sigma x_total n var;sigma:.sigma n var","x_total n var prior"),
 M("normal_known_variance_predictive","var","distribution","Normal","Normal","mu:.mu;sigma:var .sigma","var distribution"),
 M("normal_known_precision","x_total n precision","prior","Normal","Normal","mu:.mu .sigma x_total n precision;sigma:.sigma n precision","x_total n precision prior"),
 M("normal_known_precision_predictive","precision","distribution","Normal","Normal","mu:.mu;sigma:precision .sigma","precision distribution"),
 M("uniform_pareto","x_max n","prior","Pareto","Pareto","x_m:.x_m x_max;alpha:.alpha n","x_max n prior max_fn",fns=[("max_fn",2)]),
 M("pareto_gamma","n ln_x_total x_m","prior","Gamma","Gamma","alpha:.alpha n;beta:.beta ln_x_total n x_m","n ln_x_total x_m prior ln",fns=[("ln",1)]),
 M("gamma","x_total x_prod n","prior","GammaProportional","GammaProportional","p:.p x_prod;q:.q x_total;r:.r n;s:.s n","x_total x_prod n prior"),
 M("gamma_known_rate","x_prod n beta","prior","GammaKnownRateProportional","GammaKnownRateProportional","a:.a x_prod;b:.b n;c:.c n","x_prod n beta prior"),
 M("beta","x_prod one_minus_x_prod n","prior","BetaProportional","BetaProportional","p:.p x_prod;q:.q one_minus_x_prod;k:.k n","x_prod one_minus_x_prod n prior"),
 M("von_mises_known_concentration","cos_total sin_total n kappa","prior","VonMisesKnownConcentration","VonMisesKnownConcentration",
   "a:.a .b sin_total kappa;b:.a .b sin_total cos_total","cos_total sin_total n kappa prior sin cos arctan2",fns=[("sin",1),("cos",1),("arctan2",2)]),
 M("von_mises_known_direction","centered_cos_total n","prior","VonMisesKnownDirectionProportional","VonMisesKnownDirectionProportional","c:.c n;r:.r centered_cos_total","centered_cos_total n prior"),
 M("weibull_inverse_gamma_known_shape","n x_beta_total","prior","InverseGamma","InverseGamma","alpha:.alpha n;beta:.beta x_beta_total","n x_beta_total prior"),
 M("normalKnownMeanInverseGammaPrior","x_total x2_total n mu","prior","InverseGamma","InverseGamma","alpha:.alpha n;beta:.beta x_total x2_total n mu","x_total x2_total n mu prior"),
]
def subst(m, argf, priorf, fnf, flagf=lambda x: x):
    out = []
    fd = dict(m.fns)
    for t in m.tmpl.split():
        if t == m.prior: out.append(priorf(t))
        elif t in fd: out.append(fnf(t, fd[t]))
        elif t in m.flags: out.append(flagf(t))
        else: out.append(argf(t))
    return "Conj." + m.name + " " + " ".join(out)
GEN = "/-! Written by `tools/gen_elementwise.py`. -/\n\n"

# ---------------------------------------------------------------- Params.lean
o = ["import Verif.Models\n\n", GEN, """/-!
# Parameters of a distribution

`fmap f d` applies `f` to every numeric parameter of `d` and keeps the flags; `All` and `Rel`
are "every parameter satisfies" and "corresponding parameters are related".
-/

namespace Conj

class Params (D : Type → Type) where
  fmap : {α β : Type} → (α → β) → D α → D β
  All : {α : Type} → (α → Prop) → D α → Prop
  Rel : {α β : Type} → (α → β → Prop) → D α → D β → Prop

export Params (fmap)

/-- both calls succeed with related results, or both raise the same exception -/
def ExceptRel {A B : Type} (Q : A → B → Prop) : Except PyErr A → Except PyErr B → Prop
  | .ok a, .ok b => Q a b
  | .error x, .error y => x = y
  | _, _ => False

class LawfulParams (D : Type → Type) extends Params D where
  fmap_fmap : ∀ {α β γ : Type} (f : α → β) (g : β → γ) (d : D α), fmap g (fmap f d) = fmap (fun a => g (f a)) d
  rel_lift : ∀ {α β : Type} {R : α → β → Prop} {d : D α} {d' : D β}, Rel R d d' →
    ∃ e : D {p : α × β // R p.1 p.2}, fmap (fun p => p.1.1) e = d ∧ fmap (fun p => p.1.2) e = d'
  all_val : ∀ {α : Type} {p : α → Prop} (e : D {a // p a}), All p (fmap Subtype.val e)
  all_lift : ∀ {α : Type} {p : α → Prop} {d : D α}, All p d → ∃ e : D {a // p a}, fmap Subtype.val e = d
  rel_fmap : ∀ {α β γ : Type} {R : β → γ → Prop} (f : α → β) (g : α → γ), (∀ a, R (f a) (g a)) →
    ∀ d : D α, Rel R (fmap f d) (fmap g d)

theorem LawfulParams.rel_fmap_all {D : Type → Type} [LawfulParams D] {α β γ : Type} {p : α → Prop}
    {R : β → γ → Prop} (f : α → β) (g : α → γ) (h : ∀ a, p a → R (f a) (g a)) {d : D α}
    (hd : Params.All p d) : Params.Rel R (fmap f d) (fmap g d) := by
  obtain ⟨e, rfl⟩ := all_lift hd
  rw [fmap_fmap, fmap_fmap]
  exact rel_fmap _ _ (fun a => h a.1 a.2) e

"""]
for c, fs in CL.items():
    nums = [f for f, b in fs if not b]; flags = [f for f, b in fs if b]
    mk = lambda w: "{ " + ", ".join(f"{f} := {w(f) if not b else 'd.'+f}" for f, b in fs) + " }"
    o.append(f"instance : Params {c} where\n  fmap f d := {mk(lambda f: f'f d.{f}')}\n")
    o.append("  All p d := " + " ∧ ".join(f"p d.{f}" for f in nums) + "\n")
    o.append("  Rel R d d' := " + " ∧ ".join([f"R d.{f} d'.{f}" for f in nums] + [f"d.{f} = d'.{f}" for f in flags]) + "\n\n")
    o.append(f"instance : LawfulParams {c} where\n  fmap_fmap _ _ _ := rfl\n")
    o.append("  rel_lift {α β R d d'} h := by\n")
    if len(fs) > 1:
        o.append("    obtain ⟨" + ", ".join("h_" + f for f in nums + flags) + "⟩ := h\n")
    else: o.append(f"    have h_{nums[0]} := h\n")
    o.append(f"    refine ⟨{{ " + ", ".join(f"{f} := ⟨(d.{f}, d'.{f}), h_{f}⟩" if not b else f"{f} := d.{f}" for f, b in fs) + " }, rfl, ?_⟩\n")
    o.append("    cases d; cases d'; simp_all [fmap]\n" if flags else "    rfl\n")
    proj = lambda i, n: "" if n == 1 else (".2"*i + (".1" if i < n-1 else ""))
    o.append("  all_val e := " + ("⟨" + ", ".join(f"e.{f}.2" for f in nums) + "⟩" if len(nums) > 1 else f"e.{nums[0]}.2") + "\n")
    o.append("  all_lift {α p d} h := ⟨{ " + ", ".join(f"{f} := ⟨d.{f}, h{proj(nums.index(f), len(nums))}⟩" if not b else f"{f} := d.{f}" for f, b in fs) + " }, rfl⟩\n")
    ps = ["h _"]*len(nums) + ["rfl"]*len(flags)
    o.append("  rel_fmap _ _ h _ := " + ("⟨" + ", ".join(ps) + "⟩" if len(ps) > 1 else ps[0]) + "\n\n")
o.append("""/-- parameters of the union `InverseGamma | ScaledInverseChiSquared` -/
instance : Params VariancePrior where
  fmap f d := match d with
    | .inverseGamma d => .inverseGamma (fmap f d)
    | .scaledInverseChiSquared d => .scaledInverseChiSquared (fmap f d)
  All p d := match d with
    | .inverseGamma d => Params.All p d
    | .scaledInverseChiSquared d => Params.All p d
  Rel R d d' := match d, d' with
    | .inverseGamma d, .inverseGamma d' => Params.Rel R d d'
    | .scaledInverseChiSquared d, .scaledInverseChiSquared d' => Params.Rel R d d'
    | _, _ => False

instance : LawfulParams VariancePrior where
  fmap_fmap _ _ d := by cases d <;> rfl
  rel_lift {α β R d d'} h := by
    match d, d', h with
    | .inverseGamma d, .inverseGamma d', h =>
      obtain ⟨e, rfl, rfl⟩ := LawfulParams.rel_lift (D := InverseGamma) h
      exact ⟨.inverseGamma e, rfl, rfl⟩
    | .scaledInverseChiSquared d, .scaledInverseChiSquared d', h =>
      obtain ⟨e, rfl, rfl⟩ := LawfulParams.rel_lift (D := ScaledInverseChiSquared) h
      exact ⟨.scaledInverseChiSquared e, rfl, rfl⟩
  all_val e := by
    cases e with
    | inverseGamma e => exact LawfulParams.all_val (D := InverseGamma) e
    | scaledInverseChiSquared e => exact LawfulParams.all_val (D := ScaledInverseChiSquared) e
  all_lift {α p d} h := by
    match d, h with
    | .inverseGamma d, h =>
      obtain ⟨e, rfl⟩ := LawfulParams.all_lift (D := InverseGamma) h
      exact ⟨.inverseGamma e, rfl⟩
    | .scaledInverseChiSquared d, h =>
      obtain ⟨e, rfl⟩ := LawfulParams.all_lift (D := ScaledInverseChiSquared) h
      exact ⟨.scaledInverseChiSquared e, rfl⟩
  rel_fmap f g h d := by
    cases d with
    | inverseGamma d => exact LawfulParams.rel_fmap (D := InverseGamma) f g h d
    | scaledInverseChiSquared d => exact LawfulParams.rel_fmap (D := ScaledInverseChiSquared) f g h d

/-- `NormalInverseGamma` with a number for `mu`; `delta_inverse` is not a number and is kept -/
abbrev UnivariateNIG (M : Type) (α : Type) := NormalInverseGamma α α M

instance {M : Type} : Params (UnivariateNIG M) where
  fmap f d := { mu := f d.mu, alpha := f d.alpha, beta := f d.beta, delta_inverse := d.delta_inverse, nu := d.nu.map f }
  All p d := p d.mu ∧ p d.alpha ∧ p d.beta ∧ ∀ nu ∈ d.nu, p nu
  Rel R d d' := R d.mu d'.mu ∧ R d.alpha d'.alpha ∧ R d.beta d'.beta ∧ Option.Rel R d.nu d'.nu ∧ d.delta_inverse = d'.delta_inverse

instance {M : Type} : LawfulParams (UnivariateNIG M) where
  fmap_fmap f g d := by
    obtain ⟨_, _, _, _, nu⟩ := d
    cases nu <;> rfl
  rel_lift {α β R d d'} h := by
    obtain ⟨mu, al, be, de, nu⟩ := d
    obtain ⟨mu', al', be', de', nu'⟩ := d'
    obtain ⟨h1, h2, h3, h4, h5⟩ := h
    simp only at h1 h2 h3 h4 h5
    subst h5
    cases h4 with
    | none => exact ⟨⟨⟨(_, _), h1⟩, ⟨(_, _), h2⟩, ⟨(_, _), h3⟩, de, none⟩, rfl, rfl⟩
    | some h4 => exact ⟨⟨⟨(_, _), h1⟩, ⟨(_, _), h2⟩, ⟨(_, _), h3⟩, de, some ⟨(_, _), h4⟩⟩, rfl, rfl⟩
  all_val e := by
    obtain ⟨_, _, _, _, nu⟩ := e
    refine ⟨Subtype.property _, Subtype.property _, Subtype.property _, ?_⟩
    intro a ha
    cases nu with
    | none => simp [fmap] at ha
    | some b =>
      simp only [fmap, Option.map_some, Option.mem_some] at ha
      exact ha ▸ b.2
  all_lift {α p d} h := by
    obtain ⟨mu, al, be, de, nu⟩ := d
    obtain ⟨h1, h2, h3, h4⟩ := h
    cases nu with
    | none => exact ⟨⟨⟨_, h1⟩, ⟨_, h2⟩, ⟨_, h3⟩, de, none⟩, rfl⟩
    | some b => exact ⟨⟨⟨_, h1⟩, ⟨_, h2⟩, ⟨_, h3⟩, de, some ⟨b, h4 b rfl⟩⟩, rfl⟩
  rel_fmap f g h d := by
    obtain ⟨_, _, _, _, nu⟩ := d
    refine ⟨h _, h _, h _, ?_, rfl⟩
    cases nu with
    | none => exact .none
    | some b => exact .some (h b)

/-- the union `NormalInverseGamma | NormalGamma` -/
abbrev UnivariateNormalPrior (M : Type) (α : Type) := NormalPrior α M

instance {M : Type} : Params (UnivariateNormalPrior M) where
  fmap f d := match d with
    | .nig d => .nig (fmap (D := UnivariateNIG M) f d)
    | .ng d => .ng (fmap f d)
  All p d := match d with
    | .nig d => Params.All (D := UnivariateNIG M) p d
    | .ng d => Params.All p d
  Rel R d d' := match d, d' with
    | .nig d, .nig d' => Params.Rel (D := UnivariateNIG M) R d d'
    | .ng d, .ng d' => Params.Rel R d d'
    | _, _ => False

instance {M : Type} : LawfulParams (UnivariateNormalPrior M) where
  fmap_fmap f g d := by
    cases d with
    | nig d => exact congrArg NormalPrior.nig (LawfulParams.fmap_fmap (D := UnivariateNIG M) f g d)
    | ng d => rfl
  rel_lift {α β R d d'} h := by
    match d, d', h with
    | .nig d, .nig d', h =>
      obtain ⟨e, rfl, rfl⟩ := LawfulParams.rel_lift (D := UnivariateNIG M) h
      exact ⟨.nig e, rfl, rfl⟩
    | .ng d, .ng d', h =>
      obtain ⟨e, rfl, rfl⟩ := LawfulParams.rel_lift (D := NormalGamma) h
      exact ⟨.ng e, rfl, rfl⟩
  all_val e := by
    cases e with
    | nig e => exact LawfulParams.all_val (D := UnivariateNIG M) e
    | ng e => exact LawfulParams.all_val (D := NormalGamma) e
  all_lift {α p d} h := by
    match d, h with
    | .nig d, h =>
      obtain ⟨e, rfl⟩ := LawfulParams.all_lift (D := UnivariateNIG M) h
      exact ⟨.nig e, rfl⟩
    | .ng d, h =>
      obtain ⟨e, rfl⟩ := LawfulParams.all_lift (D := NormalGamma) h
      exact ⟨.ng e, rfl⟩
  rel_fmap f g h d := by
    cases d with
    | nig d => exact LawfulParams.rel_fmap (D := UnivariateNIG M) f g h d
    | ng d => exact LawfulParams.rel_fmap (D := NormalGamma) f g h d

""")
o.append("end Conj\n")
(root / "Params.lean").write_text("".join(o))

# ---------------------------------------------------------------- Lemmas/Elementwise.lean
o = ["import Verif.Params\n\nset_option linter.unusedVariables false\nset_option linter.unusedTactic false\nset_option linter.unreachableTactic false\n\n", GEN, """/-!
The model functions only combine their arguments with the operations of the number type, so they
carry any relation those operations respect from the arguments to the result.
-/

namespace Conj

variable {α β : Type} [PyNum α] [PyNum β]

/-- `R` is respected by the arithmetic -/
structure NumRel (R : α → β → Prop) : Prop where
  add : ∀ {a b a' b'}, R a a' → R b b' → R (a + b) (a' + b')
  sub : ∀ {a b a' b'}, R a a' → R b b' → R (a - b) (a' - b')
  mul : ∀ {a b a' b'}, R a a' → R b b' → R (a * b) (a' * b')
  div : ∀ {a b a' b'}, R a a' → R b b' → R (a / b) (a' / b')
  lit : ∀ q, R (lit q) (lit q)
  powq : ∀ {a a'} q, R a a' → R (powq a q) (powq a' q)

/-- close a goal `R e e'` by the closure rules -/
macro "num_rel" h:ident : tactic => `(tactic| repeat' first
  | assumption | apply NumRel.add $h | apply NumRel.sub $h | apply NumRel.mul $h
  | apply NumRel.div $h | apply NumRel.lit $h | apply NumRel.powq $h)

variable {R : α → β → Prop}

"""]
for m in MS:
    pr = m.prior
    hyps = [f"{{{a} : α}} {{{a}' : β}} (h_{a} : R {a} {a}')" for a in m.args]
    for f, k in m.fns:
        ty = lambda t: " → ".join([t]*(k+1))
        if k == 1: hyps.append(f"{{{f} : {ty('α')}}} {{{f}' : {ty('β')}}} (h_{f} : ∀ {{a a'}}, R a a' → R ({f} a) ({f}' a'))")
        else: hyps.append(f"{{{f} : {ty('α')}}} {{{f}' : {ty('β')}}} (h_{f} : ∀ {{a b a' b'}}, R a a' → R b b' → R ({f} a b) ({f}' a' b'))")
    hyps += [f"({f} : Bool)" for f in m.flags]
    pf = [f for f, b in CL[m.pcls] if not b]
    o.append(f"theorem rel_{m.name} (h : NumRel R) " + "\n    ".join(hyps) + f"\n    {{{pr} : {m.pcls} α}} {{{pr}' : {m.pcls} β}} (hp : Params.Rel R {pr} {pr}') :\n")
    o.append(f"    Params.Rel R ({subst(m, lambda a: a, lambda p: p, lambda f,k: f)})\n      ({subst(m, lambda a: a+chr(39), lambda p: p+chr(39), lambda f,k: f+chr(39))}) := by\n")
    o.append(f"  obtain ⟨" + ", ".join("hp_"+f for f in pf) + "⟩ := hp\n")
    unf = {"bernoulli_beta":"binomial_beta, getBinomialBetaPosteriorParams","binomial_beta":"getBinomialBetaPosteriorParams","bernoulli_beta_predictive":"binomial_beta_predictive",
           "poisson_gamma":"getPoissonGammaPosteriorParams","exponential_gamma":"getExponentialGammaPosteriorParams, getPoissonGammaPosteriorParams",
           "normal_known_precision":"normal_known_variance","normal_known_precision_predictive":"normal_known_variance_predictive"}.get(m.name)
    us = "Conj." + m.name + (", " + unf if unf else "")
    nres = len(CL[m.res])
    fnl = "".join(f" | apply h_{f}" for f, k in m.fns)
    close = "num_rel h" if not m.fns else "(num_rel h; repeat' first | assumption" + fnl + " | apply NumRel.add h | apply NumRel.mul h | apply NumRel.sub h)"
    o.append(f"  refine ⟨" + ", ".join(["?_"]*nres) + "⟩ <;> simp only [" + us + "]\n")
    if m.name == "geometric_beta":
        o.append("  · num_rel h\n  · cases one_start <;> simp only [if_true, Bool.false_eq_true, if_false] <;> num_rel h\n\n")
    elif m.name in ("geometric_beta_predictive",):
        o.append("  all_goals num_rel h\n\n")
    else:
        o.append(f"  all_goals {close}\n\n")
o.append("""theorem rel_normal_known_mean (h : NumRel R) {x_total x2_total n mu : α} {x_total' x2_total' n' mu' : β}
    (h1 : R x_total x_total') (h2 : R x2_total x2_total') (h3 : R n n') (h4 : R mu mu')
    {prior : VariancePrior α} {prior' : VariancePrior β} (hp : Params.Rel R prior prior') :
    Params.Rel R (normal_known_mean x_total x2_total n mu prior)
      (normal_known_mean x_total' x2_total' n' mu' prior') := by
  match prior, prior', hp with
  | .inverseGamma d, .inverseGamma d', hp =>
    exact rel_normalKnownMeanInverseGammaPrior h h1 h2 h3 h4 hp
  | .scaledInverseChiSquared d, .scaledInverseChiSquared d', hp =>
    obtain ⟨hn, hs⟩ := hp
    have := rel_normalKnownMeanInverseGammaPrior h h1 h2 h3 h4
      (prior := d.to_inverse_gamma) (prior' := d'.to_inverse_gamma)
      ⟨h.div hn (h.lit 2), h.div (h.mul hn hs) (h.lit 2)⟩
    exact ⟨h.mul this.1 (h.lit 2), h.div (h.mul this.2 (h.lit 2)) (h.mul this.1 (h.lit 2))⟩

theorem rel_normal_known_mean_predictive (h : NumRel R) {mu : α} {mu' : β} (h4 : R mu mu')
    {d : VariancePrior α} {d' : VariancePrior β} (hp : Params.Rel R d d') :
    Params.Rel R (normal_known_mean_predictive mu d) (normal_known_mean_predictive mu' d') := by
  match d, d', hp with
  | .inverseGamma d, .inverseGamma d', hp =>
    exact ⟨h4, h.powq _ (h.div hp.2 hp.1), h.mul (h.lit 2) hp.1⟩
  | .scaledInverseChiSquared d, .scaledInverseChiSquared d', hp =>
    have ha := h.div hp.1 (h.lit 2)
    have hb := h.div (h.mul hp.1 hp.2) (h.lit 2)
    exact ⟨h4, h.powq _ (h.div hb ha), h.mul (h.lit 2) ha⟩

theorem rel_normalUpdate (h : NumRel R) {x_total x2_total n mu nu alpha beta : α}
    {x_total' x2_total' n' mu' nu' alpha' beta' : β}
    (h1 : R x_total x_total') (h2 : R x2_total x2_total') (h3 : R n n') (h4 : R mu mu')
    (h5 : R nu nu') (h6 : R alpha alpha') (h7 : R beta beta') :
    let r := normalUpdate x_total x2_total n mu nu alpha beta
    let r' := normalUpdate x_total' x2_total' n' mu' nu' alpha' beta'
    R r.1 r'.1 ∧ R r.2.1 r'.2.1 ∧ R r.2.2.1 r'.2.2.1 ∧ R r.2.2.2 r'.2.2.2 := by
  refine ⟨?_, ?_, ?_, ?_⟩ <;> simp only [normalUpdate] <;> num_rel h

theorem rel_normal {M : Type} (h : NumRel R) {x_total x2_total n : α} {x_total' x2_total' n' : β}
    (h1 : R x_total x_total') (h2 : R x2_total x2_total') (h3 : R n n')
    {prior : NormalPrior α M} {prior' : NormalPrior β M}
    (hp : Params.Rel (D := UnivariateNormalPrior M) R prior prior') :
    ExceptRel (Params.Rel (D := UnivariateNormalPrior M) R) (normal x_total x2_total n prior)
      (normal x_total' x2_total' n' prior') := by
  match prior, prior', hp with
  | .ng d, .ng d', hp =>
    obtain ⟨a, b, c, e⟩ := hp
    obtain ⟨r1, r2, r3, r4⟩ := rel_normalUpdate h h1 h2 h3 a b c e
    exact ⟨r1, r2, r3, r4⟩
  | .nig ⟨mu, al, be, de, nu⟩, .nig ⟨mu', al', be', de', nu'⟩, hp =>
    obtain ⟨a, b, c, e, f⟩ := hp
    simp only at a b c e f
    cases e with
    | none => exact rfl
    | some e =>
      obtain ⟨r1, r2, r3, r4⟩ := rel_normalUpdate h h1 h2 h3 a e b c
      exact ⟨r1, r3, r4, .some r2, rfl⟩

theorem rel_normal_predictive {M : Type} (h : NumRel R)
    {d : NormalPrior α M} {d' : NormalPrior β M}
    (hp : Params.Rel (D := UnivariateNormalPrior M) R d d') :
    ExceptRel (Params.Rel R) (normal_predictive d) (normal_predictive d') := by
  match d, d', hp with
  | .ng d, .ng d', hp =>
    obtain ⟨a, b, c, e⟩ := hp
    refine ⟨a, ?_, ?_⟩ <;> simp only [] <;> num_rel h
  | .nig ⟨mu, al, be, de, nu⟩, .nig ⟨mu', al', be', de', nu'⟩, hp =>
    obtain ⟨a, b, c, e, f⟩ := hp
    simp only at a b c e f
    cases e with
    | none => exact rfl
    | some e =>
      refine ⟨a, ?_, ?_⟩ <;> simp only [] <;> num_rel h

""")
o.append("end Conj\n")
(root / "Lemmas/Elementwise.lean").write_text("".join(o))

# ---------------------------------------------------------------- Props/Vectorised.lean
UNF = {"bernoulli_beta":"binomial_beta, getBinomialBetaPosteriorParams","binomial_beta":"getBinomialBetaPosteriorParams","bernoulli_beta_predictive":"binomial_beta_predictive",
       "poisson_gamma":"getPoissonGammaPosteriorParams","exponential_gamma":"getExponentialGammaPosteriorParams, getPoissonGammaPosteriorParams",
       "normal_known_precision":"normal_known_variance","normal_known_precision_predictive":"normal_known_variance_predictive"}
o = ["import Verif.Lemmas.Broadcast\n\nset_option linter.unusedVariables false\nset_option linter.unusedSectionVars false\n\n", GEN, """/-!
# C46: vectorised inputs act element by element

For every elementwise model, two theorems.  The first: when data and prior parameters can all be
broadcast to the shape `S`, the call succeeds, every parameter of the result can be broadcast to
`S`, and at every index it is the scalar result of the elements at that index.  The second (`_shapes`): each
parameter of the result has exactly the broadcast of the shapes it is computed from, and a
`ValueError` is raised when those are incompatible.  The element type `β` is any number type.
-/

namespace Conj

open Spec NdArr

variable {β : Type} [PyNum β]

"""]
for m in MS:
    if m.name == "normalKnownMeanInverseGammaPrior": continue
    pr = m.prior
    sig = f"(S : List ℕ)" + (" (" + " ".join(m.args) + " : NdArr β)" if m.args else "") + f" ({pr} : {m.pcls} (NdArr β))"
    sig += "".join(f" ({f} : " + " → ".join(["β"]*(k+1)) + ")" for f, k in m.fns) + "".join(f" ({f} : Bool)" for f in m.flags)
    hy = "".join(f" (h_{a} : FitsIn {a}.rshape S)" for a in m.args) + f"\n    (hp : Params.All (fun a => FitsIn a.rshape S) {pr})"
    arr = subst(m, lambda a: f"(.ok {a})", lambda p: f"(fmap Except.ok {p})", lambda f,k: f"(ufunc{k} {f})")
    sc = subst(m, lambda a: f"({a}.atIdx idx)", lambda p: f"(fmap (fun a => a.atIdx idx) {p})", lambda f,k: f)
    pv = "".join(f" (elem_ok h_{a})" for a in m.args)
    pv += "".join(f" (fun h => elem_map {f} h)" if k == 1 else f" (fun h h' => elem_op {f} h h')" for f, k in m.fns)
    pv += "".join(f" {f}" for f in m.flags)
    fnimp = "".join(f" (({f}') := fun r i => {f} (r i))" if k == 1 else f" (({f}') := fun r s i => {f} (r i) (s i))" for f, k in m.fns).replace("((", "(").replace("') :=", "' :=")
    o.append(f"theorem C46_{m.name} {sig}\n   {hy} :\n    ActsElementwise S ({arr})\n      (fun idx => {sc}) :=\n")
    o.append(f"  acts_of_rel' (rel_{m.name}{fnimp} (elem_numRel S){pv} (elem_params hp)) (fun _ => {'by cases one_start <;> rfl' if m.flags else 'rfl'})\n\n")
    sig2 = sig.replace("(S : List ℕ) ", "").replace("(S : List ℕ)", "")
    arr2 = arr
    flds = [f for f, b in CL[m.res] if not b]
    def uses(f, one=None):
        return "[" + ", ".join((pr + u) if u.startswith(".") else u for u in m.uses[f]) + "]"
    concl = []
    for f in flds:
        u = uses(f)
        if m.name == "geometric_beta" and f == "beta": u = "(if one_start then [prior.beta, x_total, n] else [prior.beta, x_total])"
        concl.append(f"HasShapeOf post.{f} {u}")
    o.append(f"theorem C46_{m.name}_shapes {sig2.strip()} :\n    let post := {arr2}\n    " + " ∧ ".join(concl) + " := by\n")
    us = "Conj." + m.name + (", " + UNF[m.name] if m.name in UNF else "")
    if m.name == "geometric_beta":
        o.append("  cases one_start\n")
        o.append("  all_goals\n    (refine ⟨" + ", ".join(["?_"]*len(flds)) + f"⟩ <;> dsimp only [{us}, fmap] <;>\n      try simp only [if_true, Bool.false_eq_true, if_false]) <;> has_shape\n\n")
    else:
        o.append("  refine ⟨" + ", ".join(["?_"]*len(flds)) + f"⟩ <;> dsimp only [{us}, fmap] <;> has_shape\n\n")
o.append("""theorem C46_normal_known_mean (S : List ℕ) (x_total x2_total n mu : NdArr β) (prior : VariancePrior (NdArr β))
    (h1 : FitsIn x_total.rshape S) (h2 : FitsIn x2_total.rshape S) (h3 : FitsIn n.rshape S)
    (h4 : FitsIn mu.rshape S) (hp : Params.All (fun a => FitsIn a.rshape S) prior) :
    ActsElementwise S
      (normal_known_mean (.ok x_total) (.ok x2_total) (.ok n) (.ok mu) (fmap Except.ok prior))
      (fun idx => normal_known_mean (x_total.atIdx idx) (x2_total.atIdx idx) (n.atIdx idx)
        (mu.atIdx idx) (fmap (fun a => a.atIdx idx) prior)) :=
  acts_of_rel' (rel_normal_known_mean (elem_numRel S) (elem_ok h1) (elem_ok h2) (elem_ok h3)
    (elem_ok h4) (elem_params hp)) (fun _ => by cases prior <;> rfl)

theorem C46_normal_known_mean_predictive (S : List ℕ) (mu : NdArr β) (distribution : VariancePrior (NdArr β))
    (h4 : FitsIn mu.rshape S) (hp : Params.All (fun a => FitsIn a.rshape S) distribution) :
    ActsElementwise S
      (normal_known_mean_predictive (.ok mu) (fmap Except.ok distribution))
      (fun idx => normal_known_mean_predictive (mu.atIdx idx) (fmap (fun a => a.atIdx idx) distribution)) :=
  acts_of_rel' (rel_normal_known_mean_predictive (elem_numRel S)
    (elem_ok h4) (elem_params hp)) (fun _ => by cases distribution <;> rfl)

/-- `normal` with a `NormalGamma` prior. -/
theorem C46_normal_normal_gamma {M : Type} (S : List ℕ) (x_total x2_total n : NdArr β) (prior : NormalGamma (NdArr β))
    (h1 : FitsIn x_total.rshape S) (h2 : FitsIn x2_total.rshape S) (h3 : FitsIn n.rshape S)
    (hp : Params.All (fun a => FitsIn a.rshape S) prior) :
    ∃ (post : NormalGamma (ArrExpr β)) (scal : List ℕ → NormalGamma β),
      normal (M := M) (.ok x_total) (.ok x2_total) (.ok n) (.ng (fmap Except.ok prior)) = .ok (.ng post) ∧
      (∀ idx, normal (M := M) (x_total.atIdx idx) (x2_total.atIdx idx) (n.atIdx idx)
        (.ng (fmap (fun a => a.atIdx idx) prior)) = .ok (.ng (scal idx))) ∧
      ActsElementwise S post scal := by
  refine ⟨_, _, rfl, fun idx => rfl, ?_⟩
  obtain ⟨a, b, c, d⟩ := elem_params hp
  exact acts_of_rel' (rel_normalUpdate (elem_numRel S) (elem_ok h1) (elem_ok h2) (elem_ok h3) a b c d)
    (d' := ⟨_, _, _, _⟩) (fun _ => rfl)

/-- `normal` with a `NormalInverseGamma` prior that has `nu`. -/
theorem C46_normal_normal_inverse_gamma {M : Type} (S : List ℕ) (x_total x2_total n nu mu alpha beta : NdArr β)
    (h1 : FitsIn x_total.rshape S) (h2 : FitsIn x2_total.rshape S) (h3 : FitsIn n.rshape S)
    (h4 : FitsIn nu.rshape S) (h5 : FitsIn mu.rshape S) (h6 : FitsIn alpha.rshape S)
    (h7 : FitsIn beta.rshape S) :
    let prior : UnivariateNIG M (NdArr β) :=
      { mu := mu, alpha := alpha, beta := beta, delta_inverse := none, nu := some nu }
    ∃ (post : UnivariateNIG M (ArrExpr β)) (scal : List ℕ → UnivariateNIG M β),
      normal (.ok x_total) (.ok x2_total) (.ok n) (.nig (fmap (D := UnivariateNIG M) Except.ok prior)) = .ok (.nig post) ∧
      (∀ idx, normal (x_total.atIdx idx) (x2_total.atIdx idx) (n.atIdx idx)
        (.nig (fmap (D := UnivariateNIG M) (fun a => a.atIdx idx) prior)) = .ok (.nig (scal idx))) ∧
      ActsElementwise S post scal := by
  refine ⟨_, _, rfl, fun idx => rfl, ?_⟩
  obtain ⟨a, b, c, d⟩ := rel_normalUpdate (elem_numRel S) (elem_ok h1) (elem_ok h2) (elem_ok h3)
    (elem_ok h5) (elem_ok h4) (elem_ok h6) (elem_ok h7)
  exact acts_of_rel' (D := UnivariateNIG M) (d' := ⟨_, _, _, none, some _⟩)
    ⟨a, c, d, .some b, rfl⟩ (fun _ => rfl)

/-- Shapes of the `normal` posterior (fields in the order mu, lam, alpha, beta). -/
theorem C46_normal_shapes (x_total x2_total n mu nu alpha beta : NdArr β) :
    let r := normalUpdate (.ok x_total : ArrExpr β) (.ok x2_total) (.ok n) (.ok mu) (.ok nu) (.ok alpha) (.ok beta)
    HasShapeOf r.1 [mu, nu, x_total, n] ∧ HasShapeOf r.2.1 [nu, n] ∧ HasShapeOf r.2.2.1 [alpha, n] ∧
      HasShapeOf r.2.2.2 [beta, mu, nu, x_total, x2_total, n] := by
  refine ⟨?_, ?_, ?_, ?_⟩ <;> dsimp only [normalUpdate] <;> has_shape

theorem C46_normal_predictive_normal_gamma {M : Type} (S : List ℕ) (d : NormalGamma (NdArr β))
    (hp : Params.All (fun a => FitsIn a.rshape S) d) :
    ∃ (pred : StudentT (ArrExpr β)) (scal : List ℕ → StudentT β),
      normal_predictive (M := M) (.ng (fmap Except.ok d)) = .ok pred ∧
      (∀ idx, normal_predictive (M := M) (.ng (fmap (fun a => a.atIdx idx) d)) = .ok (scal idx)) ∧
      ActsElementwise S pred scal := by
  refine ⟨_, _, rfl, fun idx => rfl, ?_⟩
  exact acts_of_rel' (rel_normal_predictive (M := M) (elem_numRel S) (d := .ng (fmap Except.ok d))
    (d' := .ng (fmap NdArr.atIdx d)) (elem_params hp)) (d' := ⟨_, _, _⟩) (fun _ => rfl)

/-- Prior parameters that no formula combines are not compared: `alpha` of shape (2,) and `beta`
of shape (3,) give a posterior with those two shapes and no error. -/
theorem C46_uncombined_shapes_not_compared (n x a b : β) :
    ∃ post : Beta (NdArr β),
      binomial_beta (.ok (.scalar n) : ArrExpr β) (.ok (.scalar x))
        (fmap Except.ok { alpha := ⟨[2], fun _ => a⟩, beta := ⟨[3], fun _ => b⟩ : Beta (NdArr β) }) =
        fmap Except.ok post ∧ post.alpha.rshape = [2] ∧ post.beta.rshape = [3] ∧
      ¬ ∃ S, Params.All (fun a => FitsIn a.rshape S) post := by
  refine ⟨⟨⟨[2], fun _ => a + x⟩, ⟨[3], fun _ => b + (n - x)⟩⟩, rfl, rfl, rfl, ?_⟩
  rintro ⟨S, h1, h2⟩
  match S, h1, h2 with
  | D :: S, h1, h2 =>
    have := h1.1
    have := h2.1
    simp only at *
    omega

/-- Shapes (3, 1), (4,), a number and (3, 4) meet the hypotheses with `S` = (3, 4). -/
example : FitsIn [1, 3] [4, 3] ∧ FitsIn [4] [4, 3] ∧ FitsIn [] [4, 3] ∧ FitsIn [4, 3] [4, 3] := by
  simp [FitsIn]

/-- Shapes (3,) and (4,) are incompatible, so the second clause of `HasShapeOf` applies. -/
example : ¬ ∃ S, FitsIn [3] S ∧ FitsIn [4] S := by
  rintro ⟨S, h1, h2⟩
  match S, h1, h2 with
  | D :: S, h1, h2 =>
    have := h1.1
    have := h2.1
    omega

/-- Two coins at once: the second entry of the vectorised posterior. -/
example : ∃ post : Beta (NdArr ℝ),
    binomial_beta (.ok ⟨[2], fun i => if i = [0] then 10 else 20⟩ : ArrExpr ℝ) (.ok (.scalar 5))
      (fmap Except.ok { alpha := .scalar 1, beta := .scalar 1 : Beta (NdArr ℝ) }) = fmap Except.ok post ∧
    fmap (fun a => a.atIdx [1]) post = (⟨6, 16⟩ : Beta ℝ) := by
  obtain ⟨p, h1, -, h3⟩ := C46_binomial_beta [2] ⟨[2], fun i => if i = [0] then (10 : ℝ) else 20⟩ (.scalar 5)
    { alpha := .scalar 1, beta := .scalar 1 } ⟨Or.inr rfl, trivial⟩ trivial ⟨trivial, trivial⟩
  refine ⟨p, h1, (h3 [1] (by simp [InShape])).trans ?_⟩
  simp only [binomial_beta, getBinomialBetaPosteriorParams, fmap, atIdx, scalar, proj, Beta.mk.injEq]
  norm_num

""")
o.append("end Conj\n")
(root / "Props/Vectorised.lean").write_text("".join(o))

# ---------------------------------------------------------------- Props/Symbolic.lean
o = ["import Verif.Expr\nimport Verif.Params\nimport Mathlib.Tactic.NormNum\n\nset_option linter.unusedVariables false\nset_option linter.unusedSectionVars false\n\n", GEN, """/-!
# C47: symbolic inputs, build first and evaluate later

For every elementwise model: calling it with expression objects for data and prior parameters
and evaluating the resulting expressions on a row gives the result of calling it with the row's
values.  `β` is any number type, the row and the meaning of the functions are arbitrary.
-/

namespace Conj

variable {β : Type} [PyNum β]

"""]
for m in MS:
    if m.name == "normalKnownMeanInverseGammaPrior": continue
    pr = m.prior
    sig = "(row : Row β)" + (" (" + " ".join(m.args) + " : Expr)" if m.args else "") + f" ({pr} : {m.pcls} Expr)"
    sig += "".join(f" ({f} : String)" for f, k in m.fns) + "".join(f" ({f} : Bool)" for f in m.flags)
    arr = subst(m, lambda a: a, lambda p: p, lambda f,k: f"(Expr.call{k} {f})")
    sc = subst(m, lambda a: f"({a}.eval row)", lambda p: f"(fmap (Expr.eval row) {p})", lambda f,k: f"(row.fn{k} {f})")
    o.append(f"theorem C47_{m.name} {sig} :\n    fmap (Expr.eval row) ({arr}) =\n      {sc} := by\n")
    o.append("  cases one_start <;> rfl\n\n" if m.flags else "  rfl\n\n")
o.append("""theorem C47_normal_known_mean (row : Row β) (x_total x2_total n mu : Expr) (prior : VariancePrior Expr) :
    fmap (Expr.eval row) (normal_known_mean x_total x2_total n mu prior) =
      normal_known_mean (x_total.eval row) (x2_total.eval row) (n.eval row) (mu.eval row)
        (fmap (Expr.eval row) prior) := by
  cases prior <;> rfl

theorem C47_normal_known_mean_predictive (row : Row β) (mu : Expr) (d : VariancePrior Expr) :
    fmap (Expr.eval row) (normal_known_mean_predictive mu d) =
      normal_known_mean_predictive (mu.eval row) (fmap (Expr.eval row) d) := by
  cases d <;> rfl

/-- exceptions included: a prior without `nu` is the same `ValueError` either way -/
theorem C47_normal {M : Type} (row : Row β) (x_total x2_total n : Expr) (prior : NormalPrior Expr M) :
    (normal x_total x2_total n prior).map (fmap (D := UnivariateNormalPrior M) (Expr.eval row)) =
      normal (x_total.eval row) (x2_total.eval row) (n.eval row)
        (fmap (D := UnivariateNormalPrior M) (Expr.eval row) prior) := by
  match prior with
  | .ng d => rfl
  | .nig ⟨mu, al, be, de, none⟩ => rfl
  | .nig ⟨mu, al, be, de, some nu⟩ => rfl

theorem C47_log_normal {M : Type} (row : Row β) (x_total x2_total n : Expr) (prior : NormalPrior Expr M) :
    (log_normal x_total x2_total n prior).map (fmap (D := UnivariateNormalPrior M) (Expr.eval row)) =
      log_normal (x_total.eval row) (x2_total.eval row) (n.eval row)
        (fmap (D := UnivariateNormalPrior M) (Expr.eval row) prior) :=
  C47_normal row x_total x2_total n prior

theorem C47_normal_predictive {M : Type} (row : Row β) (d : NormalPrior Expr M) :
    (normal_predictive d).map (fmap (Expr.eval row)) =
      normal_predictive (fmap (D := UnivariateNormalPrior M) (Expr.eval row) d) := by
  match d with
  | .ng d => rfl
  | .nig ⟨mu, al, be, de, none⟩ => rfl
  | .nig ⟨mu, al, be, de, some nu⟩ => rfl

/-- The SQL example of the documentation: `binomial_beta(n=Field("trials"), x=Field("successes"),
prior=Beta(1, 1))` on a row with 10 trials and 3 successes. -/
example : fmap (Expr.eval { field := fun s => if s = "trials" then 10 else 3, fn1 := fun _ x => x, fn2 := fun _ x _ => x : Row ℝ })
    (binomial_beta (.field "trials") (.field "successes") ⟨.literal 1, .literal 1⟩) = (⟨4, 8⟩ : Beta ℝ) := by
  rw [C47_binomial_beta]
  have : ("successes" : String) ≠ "trials" := by decide
  simp only [binomial_beta, getBinomialBetaPosteriorParams, fmap, Expr.eval, lit_real, Beta.mk.injEq, if_neg this]
  norm_num

/-- and the expression itself is not a number: it still names the columns -/
example : (binomial_beta (.field "trials") (.field "successes") ⟨.literal 1, .literal 1⟩ : Beta Expr) =
    ⟨.add (.literal 1) (.field "successes"), .add (.literal 1) (.sub (.field "trials") (.field "successes"))⟩ := rfl

""")
o.append("end Conj\n")
(root / "Props/Symbolic.lean").write_text("".join(o))


# ---------------------------------------------------------------- Props/SliceCommutes.lean
o = ["import Verif.Lemmas.SliceRel\n\nset_option linter.unusedVariables false\nset_option linter.unusedSectionVars false\n\n", GEN, """/-!
# C57: slicing commutes with updating

Every argument is a number or an array of rank `rk + 1` whose first axis has length `L` (for the
vectors of the documentation `rk = 0`), and `i` is an index in range, negative ones included.  Then the
posterior of the vectorised call, indexed by `i`, is the posterior of the call with every
argument and the prior indexed by `i`: the same arrays, or the same exception when the remaining
axes do not broadcast.
-/

namespace Conj

open Spec NdArr

variable {β : Type} [PyNum β]

theorem normIndex_of_range {i : ℤ} {L : ℕ} (h1 : -(L : ℤ) ≤ i) (h2 : i < L) : ∃ j, normIndex i L = some j := by
  unfold normIndex
  split_ifs <;> simp

"""]
for m in MS:
    if m.name == "normalKnownMeanInverseGammaPrior" or m.res not in SLICE or m.pcls not in SLICE: continue
    pr = m.prior
    sig = f"{{rk L : ℕ}} {{i : ℤ}} (h1 : -(L : ℤ) ≤ i) (h2 : i < L)\n   " + (" (" + " ".join(m.args) + " : NdArr β)" if m.args else "") + f" ({pr} : {m.pcls} (NdArr β))"
    sig += "".join(f" ({f} : " + " → ".join(["β"]*(k+1)) + ")" for f, k in m.fns) + "".join(f" ({f} : Bool)" for f in m.flags)
    hy = "".join(f" (h_{a} : SliceArg rk L {a})" for a in m.args) + f" (hp : Params.All (SliceArg rk L) {pr})"
    arr = subst(m, lambda a: f"(.ok {a})", lambda p: f"(fmap Except.ok {p})", lambda f,k: f"(ufunc{k} {f})")
    sl = subst(m, lambda a: f"(.ok (takeSlice (.int i) {a}))", lambda p: f"(fmap Except.ok (fmap (takeSlice (.int i)) {p}))", lambda f,k: f"(ufunc{k} {f})")
    pv = "".join(f" (sliced_ok h_{a})" for a in m.args)
    pv += "".join(f" (fun h => sliced_map hj {f} h)" if k == 1 else f" (fun h h' => sliced_op hj {f} h h')" for f, k in m.fns)
    pv += "".join(f" {f}" for f in m.flags)
    o.append(f"theorem C57_{m.name} {sig}\n   {hy} :\n    Params.Rel SameOutcome (fmap (Except.map (takeSlice (.int i))) ({arr}))\n      ({sl}) := by\n")
    o.append(f"  obtain ⟨j, hj⟩ := normIndex_of_range h1 h2\n  exact same_of_sliced (rel_{m.name} (sliced_numRel hj){pv} (sliced_params hp))\n\n")
o.append("""theorem C57_normal_known_mean {rk L : ℕ} {i : ℤ} (h1 : -(L : ℤ) ≤ i) (h2 : i < L)
    (x_total x2_total n mu : NdArr β) (prior : VariancePrior (NdArr β))
    (a1 : SliceArg rk L x_total) (a2 : SliceArg rk L x2_total) (a3 : SliceArg rk L n) (a4 : SliceArg rk L mu)
    (hp : Params.All (SliceArg rk L) prior) :
    Params.Rel SameOutcome
      (fmap (Except.map (takeSlice (.int i)))
        (normal_known_mean (.ok x_total) (.ok x2_total) (.ok n) (.ok mu) (fmap Except.ok prior)))
      (normal_known_mean (.ok (takeSlice (.int i) x_total)) (.ok (takeSlice (.int i) x2_total))
        (.ok (takeSlice (.int i) n)) (.ok (takeSlice (.int i) mu))
        (fmap Except.ok (fmap (takeSlice (.int i)) prior))) := by
  obtain ⟨j, hj⟩ := normIndex_of_range h1 h2
  exact same_of_sliced (rel_normal_known_mean (sliced_numRel hj) (sliced_ok a1) (sliced_ok a2)
    (sliced_ok a3) (sliced_ok a4) (sliced_params hp))

theorem C57_normal_known_mean_predictive {rk L : ℕ} {i : ℤ} (h1 : -(L : ℤ) ≤ i) (h2 : i < L)
    (mu : NdArr β) (distribution : VariancePrior (NdArr β))
    (a4 : SliceArg rk L mu) (hp : Params.All (SliceArg rk L) distribution) :
    Params.Rel SameOutcome
      (fmap (Except.map (takeSlice (.int i)))
        (normal_known_mean_predictive (.ok mu) (fmap Except.ok distribution)))
      (normal_known_mean_predictive (.ok (takeSlice (.int i) mu))
        (fmap Except.ok (fmap (takeSlice (.int i)) distribution))) := by
  obtain ⟨j, hj⟩ := normIndex_of_range h1 h2
  exact same_of_sliced (rel_normal_known_mean_predictive (sliced_numRel hj)
    (sliced_ok a4) (sliced_params hp))

/-- Vectors of length 3 with a scalar prior parameter, index -1. -/
example : SliceArg 0 3 (⟨[3], fun i => i.getLastD 0⟩ : NdArr ℝ) ∧ SliceArg 0 3 (.scalar 1 : NdArr ℝ) ∧
    -((3 : ℕ) : ℤ) ≤ -1 ∧ (-1 : ℤ) < (3 : ℕ) :=
  ⟨Or.inr ⟨[], rfl, rfl⟩, Or.inl rfl, by norm_num, by norm_num⟩

/-- and the last entry is what -1 selects -/
example : takeSlice (.int (-1)) (⟨[3], fun i => i.getLastD 0⟩ : NdArr ℝ) =
    ⟨[], fun idx => (idx ++ [2]).getLastD 0⟩ := by
  have : normIndex (-1) 3 = some 2 := by decide
  simp [takeSlice, getitem, this]

""")
o.append("end Conj\n")
(root / "Props/SliceCommutes.lean").write_text("".join(o))


# ---------------------------------------------------------------- ToObj.lean
o = ["import Verif.Slice\n\n", GEN, """/-!
# Distributions as Python objects

The instance (class name, dataclass fields in order) of every class with `SliceMixin`.
-/

namespace Conj

variable {β : Type}

"""]
LINES = {}
import re
src = pathlib.Path("/repo/conjugate/distributions.py")
for c in [c for c in CL if c in SLICE]:
    fs = CL[c]
    o.append(f"/-- an instance of `{c}` (`conjugate/distributions.py`, class `{c}`) -/\n")
    o.append(f"def {c}.toObj (d : {c} (NdArr β)) : Obj β :=\n  {{ cls := \"{c}\", fields := [" + ", ".join(f'("{f}", .{"flag" if b else "arr"} d.{f})' for f, b in fs) + "], attrs := [] }\n\n")
o.append("end Conj\n")
(root / "ToObj.lean").write_text("".join(o))

# ---------------------------------------------------------------- Props/SliceClasses.lean
o = ["import Verif.ToObj\n\n", GEN, """/-!
# C59 for every class with `SliceMixin`: `dist[key]` is an instance of the same class with each
parameter indexed (where it can be) and the flags kept
-/

namespace Conj

variable {β : Type}

theorem Value.takeSlice_arr (key : Key) (a : NdArr β) :
    Value.takeSlice key (.arr a) = .arr (Conj.takeSlice key a) := by
  simp only [Value.takeSlice, Value.getitem, Conj.takeSlice]
  cases a.getitem key <;> rfl

"""]
for c in [c for c in CL if c in SLICE]:
    ex = ", ".join(f'("{f}", .{"flag" if b else "arr"} ' + (f"d.{f})" if b else f"(takeSlice key d.{f}))") for f, b in CL[c])
    o.append(f"theorem C59_{c}_slice (d : {c} (NdArr β)) (key : Key) :\n    d.toObj.getitem key =\n        {{ cls := \"{c}\", fields := [{ex}], attrs := [] }} ∧\n      d.toObj.getitem key = (fmap (takeSlice key) d).toObj := by\n  constructor <;>\n  · simp only [{c}.toObj, Obj.getitem, Obj.construct, List.map_cons, List.map_nil, Value.takeSlice_arr]\n    try rfl\n\n")
o.append("end Conj\n")
(root / "Props/SliceClasses.lean").write_text("".join(o))
