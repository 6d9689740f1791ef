#!/usr/bin/env python3
"""Apply wrong edits to a scratch copy of the model and report which theorems break.

usage: mutate.py SCRATCH_DIR MUTANTS.json OUT.jsonl [claimed]

With `claimed`, only the modules with theorems on the properties named in the mutant's claim (and what they need) are built.

Each mutant is {"id", "file", "old", "new", "definition", "edit", "claim"}. A theorem that no longer elaborates has its proof replaced
by `sorry` so that the modules after it still build; the property theorems that then depend on `sorryAx` are the ones that break."""
import glob, json, os, re, shutil, subprocess, sys
scratch, mutants, out = sys.argv[1:4]
only_claimed = sys.argv[4:] == ["claimed"]
root = os.path.dirname(os.path.dirname(os.path.abspath(__file__)))
TOP = re.compile(r"^(theorem|lemma|example|def|noncomputable|instance|structure|inductive|abbrev|class|private|protected|"
                 r"namespace|section|end\b|variable|open|omit|include|macro|syntax|@\[|set_option|/--|/-!|#|attribute|local|scoped|partial_fixpoint)")
START = re.compile(r"^(?:@\[[^\]]*\] )?(?:private |protected )?(theorem|lemma|example)\b")

def statement_end(text):
    depth, i = 0, 0
    while i < len(text):
        c = text[i]
        if c in "([{⟨": depth += 1
        elif c in ")]}⟩": depth -= 1
        elif depth == 0 and text.startswith(":=", i):
            line = text[text.rfind("\n", 0, i) + 1:i]
            if not re.match(r"\s*let ", line): return i
        elif depth == 0 and (text.startswith("\n  | ", i) or text.startswith(" where\n", i) or text.startswith(" where ", i)):
            return i
        i += 1
    return None

def weaken(path, errors):
    """Replace the proofs of the theorems in which the errors are; return their names."""
    lines = open(path).read().split("\n")
    starts = set()
    for line in errors:
        s = min(line, len(lines)) - 1
        while s >= 0 and not START.match(lines[s]):
            if re.match(r"^(def|noncomputable def|instance|structure|inductive|abbrev|class|macro)", lines[s]): s = -1
            s -= 1
        if s >= 0: starts.add(s)
    names = []
    for s in sorted(starts, reverse=True):
        e = s + 1
        while e < len(lines) and not TOP.match(lines[e]): e += 1
        text = "\n".join(lines[s:e])
        kind = START.match(lines[s]).group(1)
        m = re.match(r"^(?:@\[[^\]]*\] )?(?:private |protected )?(?:theorem|lemma) (\S+)", lines[s])
        if re.search(r":=\s*by sorry", text): continue
        k = statement_end(text)
        if k is None: continue
        lines[s:e] = [text[:k] + " := by sorry", ""]
        names.append(m.group(1) if kind != "example" else f"example ({os.path.basename(path)}:{s + 1})")
    open(path, "w").write("\n".join(lines))
    return names

def select(claim):
    """Make the claimed properties' modules the target."""
    ids = re.findall(r"C\d\d", claim)
    modules, names = [], []
    for path in sorted(glob.glob(f"{scratch}/lean/Verif/Props/*.lean")):
        found = re.findall(r"^theorem (C\d\d_\w+)", open(path).read(), re.M)
        if any(n[:3] in ids for n in found):
            modules.append("Verif.Props." + os.path.basename(path)[:-5]); names += found
    if not modules: return []
    with open(f"{scratch}/lean/Verif/Claimed.lean", "w") as o:
        o.write("".join(f"import {m}\n" for m in modules) + "".join(f"#print axioms Ink.{n}\n" for n in names))
    return ["Verif.Claimed"]

def build(target):
    env = dict(os.environ, LEAN_NUM_THREADS="2")
    p = subprocess.run(["nice", "-n", "15", "lake", "build"] + target, cwd=f"{scratch}/lean", env=env, capture_output=True, text=True)
    return p.returncode, p.stdout + p.stderr

done = {json.loads(l)["id"] for l in open(out)} if os.path.exists(out) else set()
for mu in json.load(open(mutants)):
    if mu["id"] in done: continue
    shutil.rmtree(f"{scratch}/lean/Verif", ignore_errors=True)
    subprocess.run(f"git archive HEAD lean | tar -x -C {scratch}", shell=True, cwd=root, check=True)
    if not os.path.exists(f"{scratch}/lean/.lake"):
        shutil.copytree(f"{root}/lean/.lake", f"{scratch}/lean/.lake", symlinks=True)
    top = f"{scratch}/lean/Verif.lean"  # the replayed unit tests are left out, the theorems are what is tested
    kept = [l for l in open(top) if "Verif.Tests" not in l]
    open(top, "w").writelines(kept)
    path = f"{scratch}/lean/Verif/{mu['file']}"
    text = open(path).read()
    if text.count(mu["old"]) != 1:
        print(mu["id"], "pattern occurs", text.count(mu["old"]), "times"); continue
    open(path, "w").write(text.replace(mu["old"], mu["new"]))
    target = select(mu["claim"]) if only_claimed else []
    failed, stuck = [], []
    for _ in range(40):
        code, log = build(target)
        errs = re.findall(r"^error: (Verif[\w/]*\.lean):(\d+):\d+", log, re.M)
        if not errs: break
        byfile = {}
        for f, l in errs: byfile.setdefault(f, set()).add(int(l))
        progress = False
        for f, ls in byfile.items():
            n = weaken(f"{scratch}/lean/{f}", ls)
            if n: failed += n; progress = True
        if not progress:
            stuck = sorted(set(errs)); break
    broken = [m.group(1) for m in re.finditer(r"'Ink\.(C\w+)' depends on axioms: \[([^\]]*)\]", log) if "sorryAx" in m.group(2)]
    rec = dict(id=mu["id"], failed=failed, broken=broken, stuck=stuck, complete=code == 0)
    open(out, "a").write(json.dumps(rec) + "\n")
    print(mu["id"], "failed", len(failed), "broken", broken, "stuck", stuck, flush=True)
