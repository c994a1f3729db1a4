"""Regenerates /verif/MANIFEST.json from the theorem names found in lean/Verif/Props."""
import json, re, glob, os
root = os.path.dirname(os.path.dirname(os.path.abspath(__file__)))
status = json.load(open(os.path.join(root, "tools", "status.json")))
thms = {}
for f in sorted(glob.glob(os.path.join(root, "lean/Verif/Props/*.lean"))):
    ns = []
    for line in open(f):
        m = re.match(r"namespace (\S+)", line)
        if m: ns.append(m.group(1))
        m = re.match(r"end (\S+)", line)
        if m and ns and ns[-1] == m.group(1): ns.pop()
        m = re.match(r"theorem (C\d\d+_\S+)", line)
        if m:
            n = m.group(1)
            thms.setdefault(n.split("_")[0], []).append(".".join(ns + [n]))
claims = []
for pid in sorted(thms, key=lambda i: int(i[1:])):
    st = status.get(pid, {})
    claims.append({"property": pid, "status": st.get("status", "proved"),
                   "theorems": thms[pid], "note": st.get("note", "")})
json.dump({"claims": claims}, open(os.path.join(root, "MANIFEST.json"), "w"), indent=1, ensure_ascii=False)
print(len(claims), "claims;", [c["property"] + ":" + c["status"] for c in claims if c["status"] != "proved"])
