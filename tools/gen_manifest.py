"""Write MANIFEST.json from the theorem names in lean/Verif/Props and the status table below."""
import glob, json, os, re
root = os.path.dirname(os.path.dirname(os.path.abspath(__file__)))
notes = json.load(open(os.path.join(root, "tools", "status.json")))
ids = [json.loads(l)["id"] for l in open(os.path.join(root, "properties.jsonl")) if l.strip()]
thms = {}
for f in sorted(glob.glob(os.path.join(root, "lean/Verif/Props/**/*.lean"), recursive=True)):
    ns = []
    for line in open(f):
        m = re.match(r"namespace (\S+)", line)
        if m: ns.append(m.group(1))
        m = re.match(r"end (\S+)", line)
        if m and ns and ns[-1] == m.group(1): ns.pop()
        m = re.match(r"(?:@\[[^\]]*\] )?theorem (C\d\d+)_(\S+)", line)
        if m: thms.setdefault(m.group(1), []).append(".".join(ns + [m.group(1) + "_" + m.group(2)]))
claims = []
for i in ids:
    st = notes.get(i)
    t = thms.get(i, [])
    if st is None:
        if not t: continue
        st = ["partial" if any(x.endswith("_partial") for x in t) else "proved", ""]
    claims.append({"property": i, "status": st[0], "theorems": t, "note": st[1]})
json.dump({"claims": claims}, open(os.path.join(root, "MANIFEST.json"), "w"), indent=1)
print(len(claims), "claims;", {s: sum(c["status"] == s for c in claims) for s in ("proved", "partial", "not_applicable")}, "missing:", [i for i in ids if i not in [c["property"] for c in claims]])
