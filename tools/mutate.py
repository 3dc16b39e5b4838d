#!/usr/bin/env python3
"""Seeded-bug runs.

Each entry of tools/mutants.json is one edit of one model definition. For each, the edit is made in a
scratch copy of the Lake project, the modules stating the claims it breaks are rebuilt with everything they
import, and the declarations whose proofs fail are written as one line of seeded/LOG.jsonl.

usage: mutate.py [id ...]      (default: every mutant that has no line in the log yet)
"""
import json, os, re, shutil, subprocess, sys

ROOT = os.path.dirname(os.path.dirname(os.path.abspath(__file__)))
SCRATCH = os.environ.get("MUT_SCRATCH", "/tmp/mut")
LOG = os.path.join(ROOT, "seeded", "LOG.jsonl")
DECL = re.compile(r"^(?:@\[[^\]]*\] *)?(?:private |protected |noncomputable )*(theorem|lemma|def|instance|example|abbrev|structure|inductive)\b *([^\s:({\[]*)")


def sync():
    os.makedirs(SCRATCH, exist_ok=True)
    subprocess.run(["rsync", "-a", "--delete", ROOT + "/lean/", SCRATCH + "/lean/"], check=True) \
        if shutil.which("rsync") else subprocess.run(
            f"rm -rf {SCRATCH}/lean && cp -a {ROOT}/lean {SCRATCH}/lean", shell=True, check=True)


def block(src, name):
    """the text of definition `name`: from its keyword to the next doc comment or command"""
    m = re.search(r"^(?:@\[[^\]]*\] *)?(?:noncomputable )?(?:def|structure|inductive|instance|abbrev) +%s(?![\w.])" % re.escape(name), src, re.M)
    if not m:
        raise SystemExit(f"no definition {name}")
    nxt = re.search(r"\n\n(?=/--|end |namespace |section|theorem|/-!|def |noncomputable|@\[|instance|variable|open )", src[m.start():])
    return m.start(), m.start() + nxt.start() if nxt else len(src)


def apply(mut):
    path = f"{SCRATCH}/lean/Verif/{mut['file']}"
    src = open(path).read()
    a, b = block(src, mut["def"])
    body = src[a:b]
    n = body.count(mut["old"])
    if n < 1:
        raise SystemExit(f"{mut['id']}: text not found in {mut['def']}: {mut['old']}")
    new = body.replace(mut["old"], mut["new"], mut.get("count", 1))
    open(path, "w").write(src[:a] + new + src[b:])
    return path, src


def enclosing(path, line):
    name = "?"
    doc = False  # an error reported at a doc comment belongs to the declaration after it
    for i, l in enumerate(open(path), 1):
        if i > line and not doc:
            break
        if i == line and l.startswith("/--"):
            doc = True
        m = DECL.match(l)
        if m:
            name = m.group(2) or m.group(1) + f"@{i}"
            if i > line:
                break
    return name


def patch(path, lines):
    """scratch only: drop the failing examples of a file and cut the failing proofs, so that the modules
    importing it can be checked too; what then rests on a cut proof is found by `tainted`"""
    src = open(path).read().split("\n")
    starts = [i for i, l in enumerate(src) if DECL.match(l)]
    done = set()
    for ln in sorted(lines, reverse=True):
        st = max((i for i in starts if i <= ln - 1), default=None)
        if st is None or st in done:
            continue
        done.add(st)
        nxt = min((i for i in starts if i > st), default=len(src))
        # a doc comment or a blank line ends the declaration
        end = nxt
        for i in range(st + 1, nxt):
            if src[i] == "" and (i + 1 >= len(src) or not src[i + 1].startswith(" ")):
                end = i
                break
        text = "\n".join(src[st:end])
        if DECL.match(src[st]).group(1) == "example":
            src[st:end] = [""] * (end - st)
            # a doc comment needs a declaration after it
            i = st - 1
            if i >= 0 and src[i].rstrip().endswith("-/"):
                while not src[i].startswith("/--"):
                    src[i] = ""; i -= 1
                src[i] = ""
            continue
        depth, cut = 0, None
        for i, c in enumerate(text):
            if c in "([{⟨":
                depth += 1
            elif c in ")]}⟩":
                depth -= 1
            elif depth == 0 and text.startswith(":=", i):
                ls = text[:i].rsplit("\n", 1)[-1]
                if not re.search(r"\blet\b", ls):
                    cut = i
                    break
        m = re.search(r"\n  \| ", text)
        if m and (cut is None or m.start() < cut):  # a proof by cases on the arguments
            cut = m.start()
        if cut is None:
            return False
        new = (text[:cut].rstrip() + " := by sorry").split("\n")
        src[st:end] = new + [""] * (end - st - len(new))
    open(path, "w").write("\n".join(src))
    return True


TAINT = """open Lean Elab Command
run_cmd do
  let env ← getEnv
  let mut bad : NameSet := {}
  let mine := fun (n : Name) => match env.getModuleIdxFor? n with
    | some i => (`Verif).isPrefixOf env.header.moduleNames[i.toNat]!
    | none => false
  let mut uses : Array (Name × Array Name) := #[]
  for (n, c) in env.constants.map₁.toList do
    if mine n then
      let u := c.type.getUsedConstants ++ (match c.value? (allowOpaque := true) with | some v => v.getUsedConstants | none => #[])
      if u.contains ``sorryAx then bad := bad.insert n
      uses := uses.push (n, u.filter mine)
  let mut go := true
  while go do
    go := false
    for (n, u) in uses do
      if !bad.contains n && u.any bad.contains then
        bad := bad.insert n
        go := true
  for n in bad.toList do
    if !n.isInternal then IO.println s!"TAINT {n}"
"""


def targets(claims):
    """the modules that state the claimed properties"""
    out = []
    for d, _, fs in os.walk(SCRATCH + "/lean/Verif/Props"):
        for f in sorted(fs):
            t = open(os.path.join(d, f)).read()
            if any(re.search(r"^theorem %s_" % c, t, re.M) for c in claims):
                out.append("Verif.Props." + f[:-5])
    return out


def build(mods):
    r = subprocess.run(["lake", "build"] + mods, cwd=SCRATCH + "/lean", capture_output=True, text=True)
    out = r.stdout + r.stderr
    errs = {}
    for m in re.finditer(r"^error: (Verif(?:/[\w/]+)?\.lean):(\d+):\d+", out, re.M):
        errs.setdefault(m.group(1), []).append(int(m.group(2)))
    return r.returncode, errs, out


def run(mut):
    path, src = apply(mut)
    saved = {path: src}
    failed, ok = [], False
    mods = targets(mut["claims"])
    for _ in range(8):
        rc, errs, out = build(mods)
        if rc == 0:
            ok = True
            break
        progress = bool(errs)
        for f, lines in errs.items():
            p = f"{SCRATCH}/lean/{f}"
            for ln in lines:
                n = f[6:-5] + ":" + enclosing(p, ln)
                if n not in failed:
                    failed.append(n)
            if p not in saved:
                saved[p] = open(p).read()
            if not patch(p, lines):
                progress = False
        if not progress:
            break
    rest = []
    if ok and failed:
        open(SCRATCH + "/lean/taint.lean", "w").write("import Lean.Elab.Command\n" + "".join(f"import {m}\n" for m in mods) + TAINT)
        r = subprocess.run(["lake", "env", "lean", "taint.lean"], cwd=SCRATCH + "/lean", capture_output=True, text=True)
        if r.returncode != 0:
            raise SystemExit(r.stdout + r.stderr)
        names = re.findall(r"^TAINT (\S+)", r.stdout, re.M)
        short = {f.split(":")[1] for f in failed}
        rest = sorted(n[5:] for n in names if n.startswith("Conj.C") and n[5:] not in short and re.match(r"C\d\d", n[5:]))
        os.remove(SCRATCH + "/lean/taint.lean")
    for p, t in saved.items():
        open(p, "w").write(t)
    return ok, failed, rest, out


def main():
    muts = json.load(open(ROOT + "/tools/mutants.json"))
    done = set()
    if os.path.exists(LOG):
        for l in open(LOG):
            if l.strip():
                done.add(json.loads(l)["id"])
    want = sys.argv[1:]
    sync()
    if want:  # in the order given
        muts = sorted((m for m in muts if m["id"] in want), key=lambda m: want.index(m["id"]))
    for mut in muts:
        if want and mut["id"] not in want or not want and mut["id"] in done:
            continue
        ok, failed, rest, out = run(mut)
        hit = set(re.findall(r":(C\d+)", " ".join(failed))) | set(re.findall(r"(C\d+)_", " ".join(rest)))
        missed = [c for c in mut["claims"] if c not in hit]
        line = {"id": mut["id"], "definition": f"{mut['file']}: {mut['def']}",
                "edit": f"`{mut['old'].strip()}` -> `{mut['new'].strip()}`" if mut["new"].strip() else f"dropped `{mut['old'].strip()}`",
                "bug": mut["bug"], "claim": mut["claims"], "failed": failed, "failed_through_these": rest,
                "claims_without_failure": missed, "tightened": []}
        if not ok:
            line["note"] = "some modules could not be rebuilt after the failures"
        with open(LOG, "a") as f:
            f.write(json.dumps(line, ensure_ascii=False) + "\n")
        print(mut["id"], mut["def"], "ok" if ok else "INCOMPLETE", "failed", len(failed), "+", len(rest), "MISSED" if missed else "", missed, flush=True)
        if not ok:
            open("/tmp/mut_last_" + mut["id"], "w").write(out)


main()
