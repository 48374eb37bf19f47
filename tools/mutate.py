#!/usr/bin/env python3
"""Seeded-bug testing. Usage: mutate.py SPEC.py [SCRATCH]

SPEC.py defines M = [(file, old, new, definition, edit, claim), ...] with file relative to lean/.
For each entry the Lean project is copied to SCRATCH (outside this tree), the edit is applied to
the model, and the project is rebuilt. Every proof that no longer checks is replaced by `sorry` in the
scratch copy and the build is repeated, so that in the end the manifest theorems which depend on a
broken proof are exactly those whose axioms include `sorryAx`. One line per entry is appended to
seeded/LOG.jsonl.
"""
import sys, os, re, json, subprocess, shutil
here = os.path.dirname(os.path.abspath(__file__))
root = os.path.dirname(here)
spec = sys.argv[1]
scratch = sys.argv[2] if len(sys.argv) > 2 else "/tmp/scratch"
log = os.path.join(root, "seeded", "LOG.jsonl")
ns = {}
exec(open(spec).read(), ns)
DECL = re.compile(r"^(@\[[^\]]*\]\s*)?(private |protected |noncomputable )*(theorem|lemma|example|def|instance|abbrev|structure|inductive)\b")

def run(cmd, timeout=1500):
    try:
        p = subprocess.run(cmd, cwd=scratch, shell=True, stdout=subprocess.PIPE, stderr=subprocess.STDOUT, timeout=timeout, text=True)
        return p.returncode, p.stdout
    except subprocess.TimeoutExpired as e:
        return -1, "TIMEOUT"

def bodysplit(lines, a, b):
    """index (line, col) of the ':=' at bracket depth 0 in lines[a:b]"""
    d = 0
    for i in range(a, b):
        s = lines[i]
        j = 0
        while j < len(s):
            if s.startswith("--", j): break
            ch = s[j]
            if ch in "([{⟨": d += 1
            elif ch in ")]}⟩": d -= 1
            elif d == 0 and s.startswith(":=", j) and not s.lstrip().startswith("let "): return i, j
            elif d == 0 and i > a and j == 2 and ch == "|" : return i, -1
            j += 1
    return None

def sorry_out(path, errlines):
    lines = open(path).read().split("\n")
    starts = [i for i, l in enumerate(lines) if DECL.match(l)]
    names = []
    todo = set()
    for e in errlines:
        s = [i for i in starts if i <= e - 1]
        if s: todo.add(s[-1])
    for a in sorted(todo, reverse=True):
        b = a + 1
        while b < len(lines) and not (lines[b] and not lines[b][0].isspace()): b += 1
        kind = DECL.match(lines[a]).group(3)
        nm = re.search(r"(theorem|lemma|example|def|instance|abbrev|structure|inductive)\s*(\S*)", lines[a]).group(2)
        if kind == "example":
            lines[a:b] = [""]
            # drop a doc comment directly above
            names.append("example@%d" % (a + 1))
            if a > 0 and lines[a - 1].rstrip().endswith("-/"):
                k = a - 1
                while not lines[k].lstrip().startswith("/-"): k -= 1
                del lines[k:a]
            continue
        if kind not in ("theorem", "lemma"):
            raise Exception("definition %s does not compile: %s" % (nm, path))
        names.append(nm)
        r = bodysplit(lines, a, b)
        if r is None: raise Exception("no body for " + nm)
        i, j = r
        lines[a:b] = lines[a:i] + ([lines[i][:j] + ":= sorry"] if j >= 0 else [":= sorry"]) + [""]
    open(path, "w").write("\n".join(lines))
    return names

def one(file, old, new, definition, edit, claim):
    os.makedirs(scratch, exist_ok=True)
    run("rm -rf %s/lean && cp -a %s/lean %s/lean" % (scratch, os.environ.get("BASE", root), scratch))
    p = os.path.join(scratch, "lean", file)
    t = open(p).read()
    assert t.count(old) == 1, ("old text occurs %d times" % t.count(old), definition, old)
    open(p, "w").write(t.replace(old, new))
    broken = []
    for it in range(60):
        rc, out = run("cd lean && lake build Verif.Audit 2>&1")
        errs = {}
        for f, ln in re.findall(r"error: (Verif/[\w/]+\.lean):(\d+):\d+", out):
            errs.setdefault(f, set()).add(int(ln))
        if not errs:
            if rc != 0:
                return dict(definition=definition, edit=edit, claim=claim, error=out[-600:])
            break
        for f, ls in errs.items():
            names = sorry_out(os.path.join(scratch, "lean", f), ls)
            again = [n for n in names if n in broken and not n.startswith("example@")]
            if again: raise Exception("the statement of %s does not elaborate" % again[0])
            broken += names
    rc, out = run("cd lean && lake env lean Verif/Audit.lean")
    failed = re.findall(r"'Verif\.([\w.]+)' depends on axioms: \[[^\]]*sorryAx", out)
    return dict(definition=definition, edit=edit, claim=claim, failed=failed, lemmas_failed=[b for b in broken if b not in failed], tightened=[])

for m in ns["M"]:
    try:
        r = one(*m)
    except Exception as e:
        r = dict(definition=m[3], edit=m[4], claim=m[5], error=str(e))
    print(json.dumps(r, ensure_ascii=False), flush=True)
    if "error" not in r:
        with open(log, "a") as f: f.write(json.dumps(r, ensure_ascii=False) + "\n")
