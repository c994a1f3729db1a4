"""Tests the theorems against edited models.

usage: mutate.py MUTATIONS.json RESULTS.jsonl [id ...]

Each mutation is {"id", "file", "old", "new", "claim", "breaks": [property ids]}. The edit is made in a scratch copy of
lean/ (/tmp/mut). Whatever no longer proves is replaced by a hole there and the build goes on, so that in the end every
manifest theorem is known to have survived, or to have failed: itself, or through a lemma it rests on (found with
`#print axioms`). Nothing is written to /verif except the results file.

With FOCUS=1 in the environment only the modules stating theorems of the properties in "breaks" are built, and only
those theorems are looked at. This is quicker; the result then says nothing about other properties.
"""
import json, os, re, subprocess, sys, time, shutil
ROOT = os.path.dirname(os.path.dirname(os.path.abspath(__file__)))
SRC, TMP = os.path.join(ROOT, "lean"), "/tmp/mut"
START = re.compile(r"^(?:@\[[^\]]*\]\s*)?(?:private |protected |noncomputable )*(theorem|lemma|def|example|instance|abbrev|inductive|structure|#guard)\b")
TOP = re.compile(r"^(?:@\[|private |protected |noncomputable |theorem\b|lemma\b|def\b|example\b|instance\b|abbrev\b|inductive\b|structure\b|#guard\b|/-|end\b|namespace\b|open\b|section\b|mutual\b|set_option\b|variable\b)")

def sync():
    os.makedirs(TMP, exist_ok=True)
    want = set()
    for d, ds, fs in os.walk(SRC):
        if ".lake" in ds: ds.remove(".lake")
        for f in fs:
            a = os.path.join(d, f); r = os.path.relpath(a, SRC); b = os.path.join(TMP, r); want.add(r)
            os.makedirs(os.path.dirname(b), exist_ok=True)
            data = open(a, "rb").read()
            if not os.path.exists(b) or open(b, "rb").read() != data: open(b, "wb").write(data)
    for d, ds, fs in os.walk(TMP):
        if ".lake" in ds: ds.remove(".lake")
        for f in fs:
            if os.path.relpath(os.path.join(d, f), TMP) not in want: os.remove(os.path.join(d, f))
    if not os.path.exists(TMP + "/.lake"):
        shutil.copytree(SRC + "/.lake", TMP + "/.lake", symlinks=True)

def cut(text):
    """Position where the proof of a declaration starts."""
    depth, i, skip = 0, 0, 0
    while i < len(text):
        c = text[i]
        if c == "'" and (m := re.match(r"'(\\x[0-9a-f]{2}|\\.|[^\\])'", text[i:])) and not (i and re.match(r"[\w₁-₉']", text[i-1])):
            i += m.end(); continue
        if c == '"':
            m = re.match(r'"(\\.|[^"\\])*"', text[i:]); i += m.end() if m else 1; continue
        if c in "([{⟨": depth += 1
        elif c in ")]}⟩": depth -= 1
        elif depth == 0 and text.startswith("where\n", i): return i
        elif depth == 0 and text.startswith("let ", i) and not re.match(r"\w", text[i-1]): skip += 1
        elif depth == 0 and text.startswith(":=", i):
            if skip: skip -= 1
            else: return i
        i += 1
    m = re.search(r"\n  \| ", text)
    return m.start() if m else None

def start(lines, line):
    """First line of the declaration an error is reported in; the error may be on a `set_option ... in` before it."""
    s = line - 1
    if lines[s].startswith("set_option") and lines[s].rstrip().endswith(" in"):
        while not START.match(lines[s]): s += 1
    while s >= 0 and not START.match(lines[s]): s -= 1
    return s

def hole(path, line, rec):
    lines = open(path).read().split("\n")
    s = start(lines, line)
    if s < 0: return "no declaration at %s:%d" % (path, line)
    kind = START.match(lines[s]).group(1)
    e = s + 1
    while e < len(lines) and not TOP.match(lines[e]): e += 1
    head = " ".join(lines[s].split()[:3])
    rel = os.path.relpath(path, TMP)
    if kind in ("example", "#guard"):
        rec["checks"].append("%s:%d %s" % (rel, s + 1, kind))
        b = s
        while b and lines[b-1].startswith("set_option") and lines[b-1].rstrip().endswith(" in"): b -= 1
        if b and lines[b-1].rstrip().endswith("-/"):
            while not lines[b-1].startswith("/-"): b -= 1
            b -= 1
        while b and lines[b-1].startswith("set_option") and lines[b-1].rstrip().endswith(" in"): b -= 1
        lines[b:e] = [""] * (e - b)
    elif kind in ("theorem", "lemma"):
        text = "\n".join(lines[s:e])
        name = re.search(r"(?:theorem|lemma)\s+(\S+)", text).group(1)
        p = cut(text)
        if p is None: return "cannot cut " + head
        new = text[:p].rstrip() + " := by sorry"
        if new == text.rstrip(): return "statement does not elaborate: " + name
        rec["direct"].append(name)
        pad = text.count("\n") - new.count("\n")
        lines[s:e] = (new + "\n" * pad).split("\n")
    else:
        return "%s does not compile: %s" % (rel, head)
    open(path, "w").write("\n".join(lines))

def modules(thms):
    """The modules that state these theorems."""
    names, out = {t.split(".")[-1] for t in thms}, []
    for d, ds, fs in os.walk(SRC + "/Verif"):
        for f in fs:
            if names & set(re.findall(r"^theorem (\S+)", open(os.path.join(d, f)).read(), re.M)):
                out.append(os.path.relpath(os.path.join(d, f), SRC)[:-5].replace("/", "."))
    return sorted(out)

def build(targets=[]):
    r = subprocess.run("timeout 1500 lake build %s 2>&1 </dev/null" % " ".join(targets), shell=True, cwd=TMP, capture_output=True, text=True)
    return r.returncode, r.stdout

def run(m):
    t0 = time.time()
    sync()
    path = os.path.join(TMP, "Verif", m["file"])
    text = open(path).read()
    if text.count(m["old"]) != m.get("count", 1):
        return {"id": m["id"], "error": "old text found %d times" % text.count(m["old"])}
    open(path, "w").write(text.replace(m["old"], m["new"]))
    rec = {"id": m["id"], "direct": [], "checks": []}
    claims = json.load(open(os.path.join(ROOT, "MANIFEST.json")))["claims"]
    thms = {t: c["property"] for c in claims for t in c["theorems"]}
    targets = []
    if os.environ.get("FOCUS") and m.get("breaks"):
        thms = {t: p for t, p in thms.items() if p in m["breaks"]}
        targets = modules(thms)
        rec["built_only"] = targets
    for rnd in range(40):
        code, out = build(targets)
        errs = set(re.findall(r"error: (Verif/\S+?\.lean):(\d+):\d+", out))
        if code == 0: break
        if not errs: rec["error"] = "build failed: " + out[-400:]; return rec
        texts = {f: open(os.path.join(TMP, f)).read().split("\n") for f, _ in errs}
        for f, s in sorted({(f, start(texts[f], int(l))) for f, l in errs}, reverse=True):
            bad = hole(os.path.join(TMP, f), s + 1, rec)
            if bad: rec["error"] = bad; return rec
    else:
        rec["error"] = "too many rounds"; return rec
    with open(TMP + "/Axioms.lean", "w") as f:
        f.write("".join("import %s\n" % t for t in targets or ["Verif"]) + "".join("#print axioms %s\n" % t for t in thms))
    r = subprocess.run("lake env lean Axioms.lean </dev/null", shell=True, cwd=TMP, capture_output=True, text=True)
    failed = [t for t, ax in re.findall(r"'(\S+)' depends on axioms: \[([^\]]*)\]", r.stdout) if "sorryAx" in ax]
    rec["failed"] = failed
    hit = {thms[t] for t in failed}
    rec["properties_hit"] = sorted(hit)
    rec["unaffected_but_claimed"] = [b for b in m.get("breaks", []) if b not in hit]
    rec["rounds"], rec["seconds"] = rnd + 1, round(time.time() - t0)
    return rec

if __name__ == "__main__":
    muts = json.load(open(sys.argv[1])); done = set()
    if os.path.exists(sys.argv[2]): done = {json.loads(l)["id"] for l in open(sys.argv[2])}
    for m in muts:
        if sys.argv[3:] and m["id"] not in sys.argv[3:]: continue
        if not sys.argv[3:] and m["id"] in done: continue
        r = run(m)
        with open(sys.argv[2], "a") as f: f.write(json.dumps(r, ensure_ascii=False) + "\n")
        print(m["id"], r.get("error") or (r["seconds"], r["rounds"], "missed:", r["unaffected_but_claimed"], "hit:", r["properties_hit"]), flush=True)
