"""Writes seeded/LOG.jsonl from the results of mutate.py.

usage: mutlog.py RESULTS.jsonl

seeded/tightened.json says which theorems were added or tightened because of a mutation.
"""
import json, os, re, sys
ROOT = os.path.dirname(os.path.dirname(os.path.abspath(__file__)))
muts = {m["id"]: m for m in json.load(open(ROOT + "/seeded/mutations.json"))}
tight = json.load(open(ROOT + "/seeded/tightened.json"))
log = ROOT + "/seeded/LOG.jsonl"
seen = [json.loads(l) for l in open(log)] if os.path.exists(log) else []
seen = {(r["id"], r["run"]) for r in seen}
runs = {}
with open(log, "a") as out:
    for line in open(sys.argv[1]):
        r = json.loads(line)
        m = muts[r["id"]]
        n = runs[r["id"]] = runs.get(r["id"], 0) + 1
        if (r["id"], n) in seen: continue
        src = open("%s/lean/Verif/%s" % (ROOT, m["file"])).read()
        before = src[:src.find(m["old"]) + len(m["old"].split("\n")[0])]
        names = re.findall(r"^(?:private |protected )*(?:def|abbrev|structure|inductive)\s+(\S+)", before, re.M)
        rec = {"id": r["id"], "run": n, "definition": "%s: %s" % (m["file"], names[-1] if names else "?"), "edit": {"old": m["old"], "new": m["new"]},
               "claim_broken": m["claim"], "properties_broken": m.get("breaks", []), "error": r.get("error"),
               "theorems_failed": [t.split(".")[-1] for t in r.get("failed", [])], "lemmas_failed_directly": r.get("direct", []),
               "tests_failed": r.get("checks", []), "survived": r.get("unaffected_but_claimed", []), "theorems_tightened": tight.get("%s/%d" % (r["id"], n), [])}
        if r.get("built_only"): rec["built_only"] = r["built_only"]
        if rec["error"] is None: del rec["error"]
        out.write(json.dumps(rec, ensure_ascii=False) + "\n")
