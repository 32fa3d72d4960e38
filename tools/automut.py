#!/usr/bin/env python3
"""Systematic wrong programs: applies syntactic edit operators to every definition of a model and reports
the edits that no claimed theorem notices.   usage: automut.py [--jobs N] [--list] [--sample K] Model/X ...
Survivors are printed (and appended to /tmp/w/auto.jsonl); they are judged by hand and those that are wrong programs go
to tools/mutants/ after the theorem has been tightened."""
import sys, os, re, json, random, concurrent.futures as cf
sys.argv, ARGS = [sys.argv[0]], sys.argv[1:]
src = open(os.path.join(os.path.dirname(os.path.abspath(__file__)), "mutate.py")).read()
src = src.rsplit("\nmain()", 1)[0]
exec(compile(src, "mutate", "exec"))
OPS2 = "--ops2" in ARGS
ARGS = [x for x in ARGS if x != "--ops2"]
KEEP2 = ("if True", "if False", "string", "char", "swap args", "drop right conjunct", "some→none", "any/all", "other end", "max/min", "drop cons")
KW = ("if", "then", "else", "fun", "match", "with", "let", "in", "do", "by", "true", "false")
SCRATCH = "/tmp/automut2" if OPS2 else "/tmp/automut"; os.makedirs(SCRATCH, exist_ok=True)

def mask(s):
    out, i, depth = [], 0, 0
    while i < len(s):
        if s.startswith("/-", i): depth += 1; out.append("  "); i += 2; continue
        if depth and s.startswith("-/", i): depth -= 1; out.append("  "); i += 2; continue
        if depth: out.append(s[i] if s[i] == "\n" else " "); i += 1; continue
        if s.startswith("--", i):
            while i < len(s) and s[i] != "\n": out.append(" "); i += 1
            continue
        if s[i] == '"':
            j = i + 1
            while s[j] != '"': j += 2 if s[j] == "\\" else 1
            out.append("\x01" * (j + 1 - i)); i = j + 1; continue
        out.append(s[i]); i += 1
    return "".join(out)

def gen(mod):
    s = MODS[mod][0]; k = mask(s)
    # regions: bodies of def/abbrev
    edits = []
    decls = [(x.start(), x.group(1), x.group(2)) for x in re.finditer(r"^(?:@\[[^\]]*\] *)?(?:private |protected |noncomputable |partial )*(def|abbrev|theorem|example|instance|structure|inductive|namespace|end|open|variable|section|deriving|mutual|termination_by|decreasing_by)\b *([^\s:({\[]*)", k, re.M)]
    decls.append((len(k), "end", ""))
    for (a, kind, name), (b, _, _) in zip(decls, decls[1:]):
        if kind not in ("def", "abbrev"): continue
        reg = k[a:b]
        mm = re.search(r":=|\n *\|", reg)
        if not mm: continue
        a0 = a + mm.start()
        body = k[a0:b]
        def E(i, j, new, why): edits.append((name, a0 + i, a0 + j, new, why))
        for o, n in [(" < "," ≤ "),(" ≤ "," < "),(" > "," ≥ "),(" ≥ "," > "),(" == "," != "),(" != "," == "),(" ≠ "," = "),(" && "," || "),(" || "," && "),(" ∧ "," ∨ "),(" ∨ "," ∧ "),(" ∈ "," ∉ "),(" ∉ "," ∈ "),(" + 1",""),(" - 1",""),(" + "," - "),(" - "," + ")]:
            for x in re.finditer(re.escape(o), body): E(x.start(), x.end(), n, "%s→%s" % (o.strip(), n.strip()))
        for x in re.finditer(r"\b(true|false)\b", body): E(x.start(), x.end(), "false" if x.group() == "true" else "true", "flip")
        for x in re.finditer(r"\bif (?!h\w* :)((?:(?!\bthen\b|\bif\b|\n).)+?) then\b", body):
            E(x.start(), x.end(), "if ¬ (" + s[a0+x.start(1):a0+x.end(1)] + ") then", "negate if")
        for x in re.finditer(r"(?<![\w.])(\d+)(?![\w.])", body): E(x.start(), x.end(), str(int(x.group()) + 1), "n+1")
        for x in re.finditer(r" \+\+ (\[[^\[\]]*\]|[\w.']+|\([^()]*\))", body): E(x.start(), x.end(), "", "drop append")
        for x in re.finditer(r"([\w.']+) \+\+ (\[[^\[\]]*\]|[\w.']+)", body): E(x.start(), x.end(), "%s ++ %s" % (s[a0+x.start(2):a0+x.end(2)], s[a0+x.start(1):a0+x.end(1)]), "swap append")
        for x in re.finditer(r"\.(erase|set|insert|filter|tail|reverse|drop|take|dropLast)( [\w.']+| \([^()]*\))*", body): E(x.start(), x.end(), "", "drop ." + x.group(1))
        for x in re.finditer(r"!(?=[\w(])", body): E(x.start(), x.end(), "", "drop !")
        for x in re.finditer(r"¬ ?", body): E(x.start(), x.end(), "", "drop ¬")
        # record updates
        for x in re.finditer(r"\{[^{}]*? with ", body):
            i = x.end(); depth = 0; st = i; fields = []
            while i < len(body):
                c = body[i]
                if c in "([{⟨": depth += 1
                elif c in ")]}⟩":
                    if depth == 0: fields.append((st, i)); break
                    depth -= 1
                elif c == "," and depth == 0: fields.append((st, i)); st = i + 1
                i += 1
            if len(fields) == 1:
                obj = re.match(r"\{\s*(.*?) with $", body[x.start():x.end()], re.S)
                if obj: E(x.start(), fields[0][1] + 1, "(" + s[a0+x.start():a0+x.end()].strip()[1:-4].strip() + ")", "drop update")
            else:
                for n, (p, q) in enumerate(fields):
                    if n + 1 < len(fields): E(p, q + 1, " " if n == 0 else "", "drop field " + body[p:q].strip()[:30])
                    else: E(p - 1, q, " ", "drop field " + body[p:q].strip()[:30])
        # match arms: replace an arm's one-line body by the previous arm's (same number of names is not needed if it compiles)
        arms = [(x.start(1), x.end(1)) for x in re.finditer(r"^ *\|[^\n]*?=> ([^\n]+)$", body, re.M)]
        for (p, q), (p2, q2) in zip(arms, arms[1:]):
            if body[p:q].strip().startswith("--") or body[p2:q2].strip().startswith("--"): continue
            if body[p:q] != body[p2:q2]:
                E(p, q, s[a0+p2:a0+q2], "arm := next arm"); E(p2, q2, s[a0+p:a0+q], "arm := previous arm")
        if OPS2:
            edits[:] = [e for e in edits if e[0] != name or e[4] in KEEP2]
            for x in re.finditer(r"\bif (?!h\w* :)((?:(?!\bthen\b|\bif\b|\n).)+?) then\b", body):
                E(x.start(), x.end(), "if True then", "if True"); E(x.start(), x.end(), "if False then", "if False")
            for x in re.finditer("\x01+", body):
                t = s[a0+x.start():a0+x.end()]
                E(x.start(), x.end(), t[:-1] + '_"', "string")
            for x in re.finditer(r"'(\\\\?.)'", body): E(x.start(), x.end(), "'Z'" , "char")
            for x in re.finditer(r"(?<![\w.'])([a-z]\w*'?(?:\.\w+)*) ([a-z][\w.']*) ([a-z][\w.']*)(?![\w.'])", body):
                if x.group(1) in ("if", "then", "else", "fun", "match", "with", "let", "in", "some", "none") or x.group(2) in KW or x.group(3) in KW or x.group(2) == x.group(3): continue
                E(x.start(2), x.end(3), x.group(3) + " " + x.group(2), "swap args")
            for x in re.finditer(r"(?<=[(\s])([\w.'?!]+(?: [\w.'?!]+){0,3}) (∧|&&) ([\w.'?!]+(?: (?:=|≠|<|≤|==) )?[\w.'?!]*)", body):
                E(x.start(), x.end(), s[a0+x.start(1):a0+x.end(1)], "drop right conjunct")
            for x in re.finditer(r"\bsome (\w+|\([^()]*\))", body): E(x.start(), x.end(), "none", "some→none")
            for x in re.finditer(r"\.(?:map|flatMap|filterMap|any|all|find\?)\b", body):
                n = {".any": ".all", ".all": ".any"}.get(x.group())
                if n: E(x.start(), x.end(), n, "any/all")
            for x in re.finditer(r"\.(head\?|getLast\?|max|min)\b", body):
                n = {"head?": "getLast?", "getLast?": "head?", "max": "min", "min": "max"}[x.group(1)]
                E(x.start(1), x.end(1), n, "other end")
            for x in re.finditer(r"(?<![\w.'])(max|min)(?= )", body): E(x.start(), x.end(), "min" if x.group() == "max" else "max", "max/min")
            for x in re.finditer(r"([\w.']+) :: ([\w.']+)(?![\w.' ]*=>)", body): E(x.start(), x.end(), s[a0+x.start(2):a0+x.end(2)], "drop cons")
    seen, out = set(), []
    for name, i, j, new, why in edits:
        t = s[:i] + new + s[j:]
        if t in seen or t == s: continue
        seen.add(t); out.append((name, i, j, new, why, t))
    return out

def runtext(idx, mod, t, label):
    old = MODS[mod]
    fam = closure(mod)
    imports, body = [], []
    for x in fam:
        sx = t if x == mod else MODS[x][0]
        for i in MODS[x][1]:
            if i not in fam and i not in imports: imports.append(i)
        body.append((x, "section\n" + re.sub(r"^import \S+[^\n]*$", "", sx, flags=re.M) + "\nend\n"))
    text = "".join("import %s\n" % i for i in imports); ranges = []
    for x, sx in body:
        st = text.count("\n"); text += sx; ranges.append((st, text.count("\n"), x, sx.split("\n")))
    cand = [th for th in ALLT if any(re.search(r"theorem %s\b" % re.escape(th.split(".")[-1]), MODS[x][0]) and re.search(r"namespace %s\b" % re.escape(".".join(th.split(".")[:-1])), MODS[x][0]) for x in fam)]
    for th in cand: text += "#print axioms %s\n" % th
    f = os.path.join(SCRATCH, "M%05d.lean" % idx); open(f, "w").write(text)
    p = subprocess.Popen(["lake", "env", "lean", f], cwd=LEAN, stdout=subprocess.PIPE, stderr=subprocess.STDOUT, text=True, start_new_session=True)
    try: out, _ = p.communicate(timeout=240)
    except subprocess.TimeoutExpired:
        os.killpg(p.pid, 9); p.communicate(); out = "TIMEOUT"
    os.remove(f)
    if out == "TIMEOUT": return "killed(timeout)", []
    errs = []
    for mm in re.finditer(r"M\d+\.lean:(\d+):(\d+): error", out):
        ln = int(mm.group(1)) - 1
        for a, b, x, ls in ranges:
            if a <= ln < b:
                tag = "%s:%s" % (x.replace("Verif.", ""), decl_at(ls, ln - a + 1))
                if tag not in errs: errs.append(tag)
    if any(e.startswith(mod.replace("Verif.", "") + ":") for e in errs): return "stillborn", errs
    flat = re.sub(r"\s+", " ", out); failed = []
    for th in cand:
        mm = re.search(r"'%s' (does not depend on any axioms|depends on axioms: \[([^\]]*)\])" % re.escape(th), flat)
        if not mm or "sorryAx" in (mm.group(2) or ""): failed.append(th)
    return ("killed" if failed else "SURVIVES"), (failed or errs)

def main():
    jobs, ls, sample, mods = 3, False, None, []
    a = ARGS
    while a:
        x = a.pop(0)
        if x == "--jobs": jobs = int(a.pop(0))
        elif x == "--list": ls = True
        elif x == "--sample": sample = int(a.pop(0))
        else: mods.append("Verif." + x.replace("/", "."))
    todo = []
    for mod in mods:
        g = gen(mod)
        if ls: print(mod, len(g)); continue
        if sample and len(g) > sample: random.seed(1); g = sorted(random.sample(g, sample), key=lambda e: e[1])
        todo += [(mod,) + e for e in g]
    if ls: return
    cnt = {}
    def job(n):
        mod, name, i, j, new, why, t = todo[n]
        st, info = runtext(n, mod, t, why)
        return n, st, info
    with cf.ThreadPoolExecutor(jobs) as ex:
        for fu in cf.as_completed([ex.submit(job, n) for n in range(len(todo))]):
            n, st, info = fu.result()
            mod, name, i, j, new, why, t = todo[n]
            cnt[(mod, st)] = cnt.get((mod, st), 0) + 1
            s = MODS[mod][0]
            if st == "SURVIVES":
                line = s.count("\n", 0, i) + 1
                l0 = s.rfind("\n", 0, i) + 1; l1 = s.find("\n", j)
                print("SURVIVES", mod, name, "line", line, "|", why, "| broke", info[:4], "\n   -", s[l0:l1].strip(), "\n   +", (s[l0:i] + new + s[j:l1]).strip(), flush=True)
            with open("/tmp/w/auto.jsonl", "a") as o: o.write(json.dumps([mod, name, s.count("\n", 0, i) + 1, why, st, info[:6]], ensure_ascii=False) + "\n")
    for k in sorted(cnt): print("COUNT", k[0], k[1], cnt[k], flush=True)
main()
