#!/usr/bin/env python3
"""Generate lean/Verif/CallTable.lean (signatures of the decorated functions, read from
/repo/conjugate/models.py, and the bodies of the scalar ones) and lean/Verif/Props/CallBodies.lean."""
import ast, pathlib
root = pathlib.Path(__file__).resolve().parent.parent
t = ast.parse(open('/repo/conjugate/models.py').read())
def lc(c): return c[0].lower() + c[1:]
# function -> (argument kinds in the order of the Lean model, wrapper of result)
# kinds: n number, b bool, s sequence, 1 fn1, 2 fn2, D:<Cls> distribution
S = {
 'binomial_beta': (['n:n','n:x','D:prior:Beta'], 'beta', False),
 'binomial_beta_predictive': (['n:n','D:distribution:Beta'], 'betaBinomial', False),
 'bernoulli_beta': (['n:x','D:prior:Beta'], 'beta', False),
 'bernoulli_beta_predictive': (['D:distribution:Beta'], 'betaBinomial', False),
 'negative_binomial_beta': (['n:r','n:n','n:x','D:prior:Beta'], 'beta', False),
 'negative_binomial_beta_predictive': (['n:r','D:distribution:Beta'], 'betaNegativeBinomial', False),
 'hypergeometric_beta_binomial': (['n:x_total','n:n','D:prior:BetaBinomial'], 'betaBinomial', False),
 'geometric_beta': (['n:x_total','n:n','D:prior:Beta','b:one_start'], 'beta', False),
 'geometric_beta_predictive': (['D:distribution:Beta','b:one_start'], 'betaGeometric', False),
 'categorical_dirichlet': (['s:x','D:prior:Dirichlet'], 'dirichlet', True),
 'categorical_dirichlet_predictive': (['D:distribution:Dirichlet','n:n'], 'dirichletMultinomial', False),
 'multinomial_dirichlet': (['s:x','D:prior:Dirichlet'], 'dirichlet', True),
 'multinomial_dirichlet_predictive': (['D:distribution:Dirichlet','n:n'], 'dirichletMultinomial', False),
 'poisson_gamma': (['n:x_total','n:n','D:prior:Gamma'], 'gamma', False),
 'poisson_gamma_predictive': (['D:distribution:Gamma','n:n'], 'negativeBinomial', False),
 'exponential_gamma': (['n:x_total','n:n','D:prior:Gamma'], 'gamma', False),
 'exponential_gamma_predictive': (['D:distribution:Gamma'], 'lomax', False),
 'gamma_known_shape': (['n:x_total','n:n','n:alpha','D:prior:Gamma'], 'gamma', False),
 'gamma_known_shape_predictive': (['D:distribution:Gamma','n:alpha'], 'compoundGamma', False),
 'inverse_gamma_known_rate': (['n:reciprocal_x_total','n:n','n:alpha','D:prior:Gamma'], 'gamma', False),
 'normal_known_variance': (['n:x_total','n:n','n:var','D:prior:Normal'], 'normal', False),
 'normal_known_variance_predictive': (['n:var','D:distribution:Normal'], 'normal', False),
 'normal_known_precision': (['n:x_total','n:n','n:precision','D:prior:Normal'], 'normal', False),
 'normal_known_precision_predictive': (['n:precision','D:distribution:Normal'], 'normal', False),
 'normal_known_mean': (['n:x_total','n:x2_total','n:n','n:mu','U:prior:VariancePrior'], 'VariancePrior', False),
 'normal_known_mean_predictive': (['n:mu','U:distribution:VariancePrior'], 'studentT', False),
 'normal': (['n:x_total','n:x2_total','n:n','U:prior:NormalPrior'], 'NormalPrior', True),
 'normal_normal_inverse_gamma': (['n:x_total','n:x2_total','n:n','D:prior:NormalInverseGamma'], 'NormalPrior', True),
 'normal_predictive': (['U:distribution:NormalPrior'], 'studentT', True),
 'normal_normal_inverse_gamma_predictive': (['D:distribution:NormalInverseGamma'], 'studentT', True),
 'uniform_pareto': (['n:x_max','n:n','D:prior:Pareto','2:max_fn'], 'pareto', False),
 'pareto_gamma': (['n:n','n:ln_x_total','n:x_m','D:prior:Gamma','1:ln'], 'gamma', False),
 'gamma': (['n:x_total','n:x_prod','n:n','D:prior:GammaProportional'], 'gammaProportional', False),
 'gamma_known_rate': (['n:x_prod','n:n','n:beta','D:prior:GammaKnownRateProportional'], 'gammaKnownRateProportional', False),
 'beta': (['n:x_prod','n:one_minus_x_prod','n:n','D:prior:BetaProportional'], 'betaProportional', False),
 'von_mises_known_concentration': (['n:cos_total','n:sin_total','n:n','n:kappa','D:prior:VonMisesKnownConcentration','1:sin','1:cos','2:arctan2'], 'vonMisesKnownConcentration', False),
 'von_mises_known_direction': (['n:centered_cos_total','n:n','D:prior:VonMisesKnownDirectionProportional'], 'vonMisesKnownDirectionProportional', False),
 'log_normal': (['n:ln_x_total','n:ln_x2_total','n:n','U:prior:NormalPrior'], 'NormalPrior', True),
 'weibull_inverse_gamma_known_shape': (['n:n','n:x_beta_total','D:prior:InverseGamma'], 'inverseGamma', False),
}
defaults = {'True': '.bool true', '1': '.num 1', 'np.maximum': '.fn2 max', 'np.log': '.fn1 Real.log',
  'np.sin': '.fn1 Real.sin', 'np.cos': '.fn1 Real.cos', 'np.arctan2': '.fn2 Scipy.arctan2',
  'np.linalg.inv': '.other "function"', 'np.eye': '.other "function"', 'np.outer': '.other "function"'}
out = ['''import Verif.Calls

/-!
# The decorated functions of `models.py`

Generated by `tools/gen_calls.py` from the source: names, checked parameter, annotation, keyword
parameters and defaults of every decorated function, and the bodies of the scalar ones as
calls of the functions of `Verif/Models.lean`.
-/

namespace Conj

/-- a `VariancePrior` argument: one of the two classes of the union -/
def argVariancePrior (kw : String → Option PyVal) (name : String) : Except PyErr (VariancePrior ℝ) :=
  match argDist kw name with
  | .ok (.inverseGamma d) => .ok (.inverseGamma d)
  | .ok (.scaledInverseChiSquared d) => .ok (.scaledInverseChiSquared d)
  | _ => .error .attributeError

/-- a `NormalPrior` argument: one of the two classes of the union -/
def argNormalPrior (kw : String → Option PyVal) (name : String) : Except PyErr (NormalPrior ℝ Unit) :=
  match argDist kw name with
  | .ok (.normalInverseGamma d) => .ok (.nig d)
  | .ok (.normalGamma d) => .ok (.ng d)
  | _ => .error .attributeError

/-- the object that is returned -/
def VariancePrior.toDist : VariancePrior ℝ → DistVal
  | .inverseGamma d => .inverseGamma d
  | .scaledInverseChiSquared d => .scaledInverseChiSquared d

/-- the object that is returned -/
def NormalPrior.toDist : NormalPrior ℝ Unit → DistVal
  | .nig d => .normalInverseGamma d
  | .ng d => .normalGamma d
''']
used = sorted({k.split(':')[2] for a,_,_ in S.values() for k in a if k[0]=='D'})
lean_type = {c: f'{c} ℝ' for c in used}
lean_type['Dirichlet'] = 'Dirichlet (SeqVal ℝ)'; lean_type['NormalInverseGamma'] = 'NormalInverseGamma ℝ ℝ Unit'
for c in used:
    out.append(f'''/-- a `{c}` argument: its attributes are read -/
def arg{c} (kw : String → Option PyVal) (name : String) : Except PyErr ({lean_type[c]}) :=
  match argDist kw name with
  | .ok (.{lc(c)} d) => .ok d
  | _ => .error .attributeError
''')
names = []; props = []
for f in t.body:
    if not (isinstance(f, ast.FunctionDef) and f.decorator_list): continue
    dec = f.decorator_list[0].id
    checked = {'validate_prior_type': 'prior', 'validate_distribution_type': 'distribution'}[dec]
    assert not f.args.args and not f.args.posonlyargs and not f.args.vararg and not f.args.kwarg
    kws = [(x.arg, x.annotation, d) for x, d in zip(f.args.kwonlyargs, f.args.kw_defaults)]
    ann = [ast.unparse(a) for n, a, d in kws if n == checked][0]
    cs = ann.split(' | ')
    la = f'.cls .{cs[0]}' if len(cs) == 1 else '.union [' + ', '.join('.' + c for c in cs) + ']'
    params = ', '.join(f'("{n}", {"none" if d is None else "some (" + defaults[ast.unparse(d)] + ")"})' for n, a, d in kws)
    names.append(f.name)
    line = f.decorator_list[0].lineno
    out.append(f'''/-- `models.py:{line}-{f.body[0].lineno-1}` -/
noncomputable def {f.name}_sig : FnSig PyVal where
  name := "{f.name}"
  checked := "{checked}"
  annotation := {la}
  params := [{params}]
''')
    if f.name in S:
        args, res, exc = S[f.name]
        assert {a.split(':')[1] for a in args} == {n for n, _, _ in kws}, f.name
        lines = []; call = []; binders = []; kwl = {}; 
        for a in args:
            k, n = a.split(':')[:2]
            fn = {'n': 'argNum', 'b': 'argBool', 's': 'argSeq', '1': 'argFn1', '2': 'argFn2'}.get(k) or 'arg' + a.split(':')[2]
            v = {'beta': 'beta', 'alpha': 'alpha'}.get(n, n) + "'"
            lines.append(f'  let {v} ← {fn} kw "{n}"')
            call.append(v)
            ty = {'n': 'ℝ', 'b': 'Bool', 's': 'SeqVal ℝ', '1': 'ℝ → ℝ', '2': 'ℝ → ℝ → ℝ'}.get(k) or \
                 {'VariancePrior': 'VariancePrior ℝ', 'NormalPrior': 'NormalPrior ℝ Unit'}.get(a.split(':')[2]) or lean_type[a.split(':')[2]]
            binders.append((v, ty))
            kwl[n] = {'n': f'.num {v}', 'b': f'.bool {v}', 's': f'.seq {v}', '1': f'.fn1 {v}', '2': f'.fn2 {v}'}.get(k) or \
                 (f'.inst t {v}.toDist' if k == 'U' else f'.inst t (.{lc(a.split(":")[2])} {v})')
        app = f'Conj.{f.name} ' + ' '.join(call)
        toD = (lambda e: f'({e}).toDist.toPy') if res in ('VariancePrior', 'NormalPrior') else (lambda e: f'(DistVal.{res} ({e})).toPy')
        if exc:
            lines.append(f'  let r ← {app}'); lines.append(f'  return {toD("r")}')
            rhs = f'({app}).map (fun r => {toD("r")})'
        else:
            lines.append(f'  return {toD(app)}'); rhs = f'.ok {toD(app)}'
        out.append(f'''/-- the body of `{f.name}` on bound arguments -/
noncomputable def {f.name}_body (kw : String → Option PyVal) : Except PyErr PyVal := do
''' + '\n'.join(lines) + '\n')
        # theorem with every argument given, any order
        bs = ' '.join(f'({v} : {ty})' for v, ty in binders)
        full = ', '.join(f'("{n}", {kwl[n]})' for n, _, _ in kws)
        cases = '; '.join(f'cases {v}' for v, ty in binders if 'Prior ℝ' in ty)
        props.append(f'''/-- `{f.name}({", ".join(n for n,_,_ in kws)})` with the keywords in any order -/
theorem C67_call_{f.name} {bs} (t : String) (kw : List (String × PyVal))
    (h : kw.Perm [{full}]) :
    invoke {f.name}_sig {f.name}_body [] kw = {rhs} := by
  rw [invoke_perm _ _ _ h (by simp)]
  {"".join(f"cases {v} <;> " for v,ty in binders if "Prior ℝ" in ty)}call_body {f.name}_sig {f.name}_body
''')
        opt = [(n, defaults[ast.unparse(d)]) for n, _, d in kws if d is not None]
        if opt:
            od = dict(opt)
            req = ', '.join(f'("{n}", {kwl[n]})' for n, _, d in kws if d is None)
            sub = {n + "'": '(' + d.split(' ', 1)[1] + ')' for n, d in opt}
            app2 = f'Conj.{f.name} ' + ' '.join(sub.get(c, c) for c in call)
            bs2 = ' '.join(f'({v} : {ty})' for v, ty in binders if v not in sub)
            rhs2 = f'({app2}).map (fun r => {toD("r")})' if exc else f'.ok {toD(app2)}'
            props.append(f'''/-- `{f.name}` without its optional arguments uses the documented defaults -/
theorem C81_defaults_{f.name} {bs2} (t : String) (kw : List (String × PyVal))
    (h : kw.Perm [{req}]) :
    invoke {f.name}_sig {f.name}_body [] kw = {rhs2} := by
  rw [invoke_perm _ _ _ h (by simp)]
  {"".join(f"cases {v} <;> " for v,ty in binders if "Prior ℝ" in ty)}call_body {f.name}_sig {f.name}_body
''')
out.append('''/-- all decorated functions of `models.py` -/
noncomputable def decorated : List (FnSig PyVal) :=
  [''' + ',\n   '.join(f'{n}_sig' for n in names) + ''']

end Conj
''')
(root / 'lean/Verif/CallTable.lean').write_text('\n'.join(out))
(root / 'lean/Verif/Props/CallBodies.lean').write_text('''import Verif.CallTable
import Verif.Lemmas.CallRules

/-!
# C67, C81: a correct call returns what the function computes

Generated by `tools/gen_calls.py`: one theorem per scalar model function, with keyword arguments
in any order and an instance of the accepted class or of any subclass of it, and one for the
documented defaults.
-/

namespace Conj

open FnSig (invoke)

local notation "invoke" => FnSig.invoke PyVal.typeOf

''' .replace('open FnSig (invoke)\n\n','') + '\n'.join(props) + '\nend Conj\n')
print(len(names), 'decorated;', len(S), 'bodies')
