#!/usr/bin/env python3
"""Syntactic mutants of the model definitions: which ones does no theorem notice?

For each model file, every definition is edited in a scratch copy in a few mechanical ways (another operator,
another literal, another field). An edit that still type-checks is a mutant; the project is rebuilt until the
first error. A mutant without an error is written to /tmp/amut.survivors for inspection: either the edit leaves
every claim true, or a theorem is too weak.

usage: automutate.py PER_DEF SEED [file ...]
"""
import json, os, random, re, signal, subprocess, sys

ROOT = os.path.dirname(os.path.dirname(os.path.abspath(__file__)))
SCRATCH = "/tmp/amut"
FILES = ["Models", "Dist", "DistMap", "MatModels", "Sampling", "Rvs", "Plot", "ToObj", "Slice", "Calls", "SampleShapes",
         "Thompson", "VectorDirichlet", "Version", "NdArr", "Params", "Expr", "Checked", "Float", "DirichletScipy",
         "MatScipy", "PyVal", "Rows"]
DEF = re.compile(r"^(?:@\[[^\]]*\] *)?(?:private |protected |noncomputable )*(?:def|instance|abbrev)\b *([^\s:({\[]*)", re.M)
SUBS = [(r" \+ ", [" - ", " * "]), (r" - ", [" + "]), (r" \* ", [" / ", " + "]), (r" / ", [" * "]), (r" < ", [" ≤ ", " > "]),
        (r" ≤ ", [" < ", " > "]), (r" = 0\b", [" = 1"]), (r" == ", [" != "]), (r" != ", [" == "]), (r"\b1\b", ["2", "0"]),
        (r"\b2\b", ["1", "3"]), (r"(?<![.\w])0\b", ["1"]), (r"\btrue\b", ["false"]), (r"\bfalse\b", ["true"]),
        (r"\.alpha\b", [".beta"]), (r"\.beta\b", [".alpha"]), (r"\balpha_prior\b", ["beta_prior"]), (r"\bbeta_prior\b", ["alpha_prior"]),
        (r"&&", ["||"]), (r"\|\|", ["&&"]), (r"!(?=\w)", [""]), (r"\bsome\b", ["fun _ => none"]), (r"\.1\b", [".2"]), (r"\.2\b", [".1"]),
        (r"\bsqrt\b", [""]), (r"⁻¹", [""]), (r"ᵀ", [""]), (r"\blog\b", ["exp"]), (r"\bx\b", ["n"]), (r"\bn\b", ["x"]),
        (r"\bif\b", ["if ¬"]), (r" \+ [\w.]+(?=[\s,)])", [""]), (r" ∧ ", [" ∨ "]), (r"\bmax\b", ["min"]), (r"\bmin\b", ["max"]),
        (r"\.lam\b", [".alpha"]), (r"\.nu\b", [".alpha"]), (r"\.mu\b", [".alpha", ".lam"]), (r"generator", ["none"]), (r"\.tail\b", [""]),
        (r"\bn_times\b", ["1"]), (r"\^ 2\b", [""])]


def defs(src):
    ms = list(DEF.finditer(src))
    for m in ms:
        nxt = re.search(r"\n\n(?=/--|end |namespace |section|theorem|/-!|def |noncomputable|@\[|instance|variable|open |example|structure|inductive)", src[m.start():])
        yield m.group(1), m.start(), m.start() + nxt.start() if nxt else len(src)


def mutants(src, per, rng):
    for name, a, b in defs(src):
        body = src[a:b]
        k = body.find(":=")
        if k < 0:
            k = body.find("\n")
        if k < 0:
            continue
        c = []
        for pat, news in SUBS:
            for m in re.finditer(pat, body[k:]):
                line = body[:k + m.start()].rsplit("\n", 1)[-1]
                if "--" in line:
                    continue
                for new in news:
                    c.append((a + k + m.start(), a + k + m.end(), new))
        rng.shuffle(c)
        yield name, c


def lake(args, stop=False):
    p = subprocess.Popen(["nice", "lake", "build"] + args, cwd=SCRATCH + "/lean", stdout=subprocess.PIPE,
                         stderr=subprocess.STDOUT, text=True, start_new_session=True)
    first = None
    for line in p.stdout:
        m = re.match(r"error: (Verif[^:\s]*:\d+)", line)
        if m or line.startswith("error:"):
            first = first or (m.group(1) if m else line.strip())
            if stop:
                os.killpg(p.pid, signal.SIGKILL)
                break
    p.stdout.close()
    p.wait()
    return first


def enclosing(loc):
    f, ln = loc.rsplit(":", 1)
    name = "?"
    doc = False
    for i, l in enumerate(open(f"{SCRATCH}/lean/{f}"), 1):
        if i > int(ln) and not doc:
            break
        if i == int(ln) and l.startswith("/--"):
            doc = True
        m = re.match(r"^(?:private |protected |noncomputable )*(theorem|lemma|def|instance|example)\b *([^\s:({\[]*)", l)
        if m:
            name = m.group(2) or f"example@{i}"
            doc = doc and i <= int(ln)
    return f"{f[6:-5]}:{name}"


def main():
    per, seed = int(sys.argv[1]), int(sys.argv[2])
    files = sys.argv[3:] or FILES
    os.makedirs(SCRATCH, exist_ok=True)
    subprocess.run(f"rm -rf {SCRATCH}/lean && cp -a {ROOT}/lean {SCRATCH}/lean", shell=True, check=True)
    print("baseline", lake([]), flush=True)
    for f in files:
        path = f"{SCRATCH}/lean/Verif/{f}.lean"
        src = open(path).read()
        rng = random.Random(f"{seed}{f}")
        for name, cands in mutants(src, per, rng):
            done = 0
            for a, b, new in cands[:12]:
                if done >= per:
                    break
                open(path, "w").write(src[:a] + new + src[b:])
                if lake([f"Verif.{f}"]):
                    continue
                done += 1
                err = lake(["Verif"], stop=True)
                ls = src.rfind("\n", 0, a) + 1
                le = src.find("\n", b)
                rec = {"file": f, "def": name, "line": src[:a].count("\n") + 1, "old": src[ls:le].strip(),
                       "new": (src[ls:a] + new + src[b:le]).strip(),
                       "killed_by": enclosing(err) if err and err.startswith("Verif") else err}
                print(json.dumps(rec, ensure_ascii=False), flush=True)
                if err is None:
                    open("/tmp/amut.survivors", "a").write(json.dumps(rec, ensure_ascii=False) + "\n")
        open(path, "w").write(src)


main()
