#!/usr/bin/env python3
"""Runs seeded wrong programs against the theorems.

usage: mutate.py [--jobs N] [--only SUBSTR] tools/mutants/*.py
Each mutant file calls  m(file, definition, old, new, claim-ids, english, expect="thm ...")
The mutated module and every module depending on it are joined into one scratch file
(Lean goes on after a failed proof inside one file), and a claimed theorem counts as failed
when its own proof fails or it rests on a proof that does.
Results are appended to seeded/LOG.jsonl; nothing under lean/ is touched.
"""
import sys, os, re, json, subprocess, tempfile, concurrent.futures as cf
ROOT = os.path.dirname(os.path.dirname(os.path.abspath(__file__)))
LEAN = os.path.join(ROOT, "lean")
SCRATCH = "/tmp/mut"
os.makedirs(SCRATCH, exist_ok=True)
MUTS = []
def m(file, definition, old, new, claims, english, note="", tightened=""):
    MUTS.append(dict(file=file, definition=definition, old=old, new=new, claims=claims.split(), english=english, note=note, tightened=tightened.split()))

def modules():
    d = {}
    for r, _, fs in os.walk(os.path.join(LEAN, "Verif")):
        for f in fs:
            if f.endswith(".lean"):
                p = os.path.join(r, f)
                name = os.path.relpath(p, LEAN)[:-5].replace("/", ".")
                src = open(p).read()
                d[name] = (src, re.findall(r"^import (\S+)", src, re.M))
    return d
MODS = modules()
def closure(mod):
    rev = {}
    for k, (_, imps) in MODS.items():
        for i in imps: rev.setdefault(i, set()).add(k)
    seen, todo = set(), [mod]
    while todo:
        x = todo.pop()
        if x in seen: continue
        seen.add(x); todo += rev.get(x, ())
    order, done = [], set()
    def visit(x):
        if x in done: return
        done.add(x)
        for i in MODS[x][1]:
            if i in MODS: visit(i)
        if x in seen: order.append(x)
    for x in sorted(seen): visit(x)
    return order
MAN = {c["property"]: c["theorems"] for c in json.load(open(os.path.join(ROOT, "MANIFEST.json")))["claims"]}
ALLT = sorted({t for ts in MAN.values() for t in ts})

def decl_at(src_lines, line):
    for i in range(min(line, len(src_lines)) - 1, -1, -1):
        mm = re.match(r"^(?:@\[[^\]]*\] *)?(?:private |protected |noncomputable )*(theorem|def|example|instance|structure|inductive|abbrev)\b *([^\s:({\[]*)", src_lines[i])
        if mm: return (mm.group(1) + "@%s" % (i+1)) if mm.group(1) in ("example",) else mm.group(2)
    return "?"

def run(idx, mu):
    mod = mu["file"].replace("/", ".")
    mod = "Verif." + mod
    src = MODS[mod][0]
    if src.count(mu["old"]) != 1:
        return idx, dict(mu, error="pattern occurs %d times" % src.count(mu["old"]))
    fam = closure(mod)
    imports, body, lines_of = [], [], []
    for x in fam:
        s = MODS[x][0]
        if x == mod: s = s.replace(mu["old"], mu["new"])
        for i in MODS[x][1]:
            if i not in fam and i not in imports: imports.append(i)
        s = re.sub(r"^import \S+[^\n]*$", "", s, flags=re.M)
        body.append((x, "section\n" + s + "\nend\n"))
    text = "".join("import %s\n" % i for i in imports)
    ranges = []
    for x, s in body:
        start = text.count("\n")
        text += s
        ranges.append((start, text.count("\n"), x, s.split("\n")))
    fams = set(fam)
    ns_fam = [t for t in ALLT]
    mark = text.count("\n")
    cand = []
    for t in ns_fam:
        short = t.split(".")[-1]
        if any(re.search(r"theorem %s\b" % re.escape(short), MODS[x][0]) and re.search(r"namespace %s\b" % re.escape(".".join(t.split(".")[:-1])), MODS[x][0]) for x in fam):
            cand.append(t)
    for t in cand: text += "#print axioms %s\n" % t
    f = os.path.join(SCRATCH, "M%04d.lean" % idx)
    open(f, "w").write(text)
    try:
        p = subprocess.run(["lake", "env", "lean", f], cwd=LEAN, capture_output=True, text=True, timeout=1500)
        out = p.stdout + p.stderr
    except subprocess.TimeoutExpired as e:
        out = (e.stdout or b"").decode() if isinstance(e.stdout, bytes) else (e.stdout or "")
        out += "\nTIMEOUT"
    errs = []
    deff = False
    for mm in re.finditer(r"M\d+\.lean:(\d+):(\d+): error", out):
        ln = int(mm.group(1)) - 1
        for a, b, x, ls in ranges:
            if a <= ln < b:
                d = decl_at(ls, ln - a + 1)
                tag = "%s:%s" % (x.replace("Verif.", ""), d)
                if tag not in errs: errs.append(tag)
    failed = []
    flat = re.sub(r"\s+", " ", out)
    for t in cand:
        mm = re.search(r"'%s' (does not depend on any axioms|depends on axioms: \[([^\]]*)\])" % re.escape(t), flat)
        if not mm or "sorryAx" in (mm.group(2) or ""): failed.append(t)
    os.remove(f)
    res = dict(mu); res["proofs_that_broke"] = errs; res["failed"] = failed
    res["surviving_claims"] = [c for c in mu["claims"] if not any(t in failed for t in MAN.get(c, []))]
    if "TIMEOUT" in out: res["timeout"] = True
    return idx, res

def main():
    jobs, only, files, log = 3, None, [], True
    a = sys.argv[1:]
    while a:
        x = a.pop(0)
        if x == "--jobs": jobs = int(a.pop(0))
        elif x == "--only": only = a.pop(0)
        elif x == "--nolog": log = False
        else: files.append(x)
    for f in files: exec(open(f).read(), {"m": m})
    todo = [(i, x) for i, x in enumerate(MUTS) if not only or only in x["file"] + x["definition"] + x["english"]]
    with cf.ThreadPoolExecutor(jobs) as ex:
        for fu in cf.as_completed([ex.submit(run, i, x) for i, x in todo]):
            i, r = fu.result()
            if "error" in r: print("ERR", i, r["file"], r["definition"], r["error"]); continue
            surv = r["surviving_claims"]
            print(("SURVIVES %s" % surv) if surv else "killed", i, r["file"], r["definition"], "|", r["english"], "| failed:", [t.replace("Xoscar.", "") for t in r["failed"]][:8], "| broke:", r["proofs_that_broke"][:6], "TIMEOUT" if r.get("timeout") else "", flush=True)
            if log:
                with open(os.path.join(ROOT, "seeded", "LOG.jsonl"), "a") as o:
                    o.write(json.dumps({"definition": "%s:%s" % (r["file"], r["definition"]), "edit": {"old": r["old"], "new": r["new"]},
                        "breaks": r["claims"], "claim_broken": r["english"], "theorems_failed": r["failed"], "proofs_that_broke": r["proofs_that_broke"],
                        "survived": surv, "theorems_tightened": r["tightened"], "note": r["note"]}, ensure_ascii=False) + "\n")
main()
