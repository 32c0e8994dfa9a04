"""Update MANIFEST.json: claim.py ID STATUS 'thm1,thm2' 'note'"""
import json, os, sys
p = os.path.join(os.path.dirname(__file__), "..", "MANIFEST.json")
m = json.load(open(p)) if os.path.exists(p) else {"claims": []}
def put(i, status, thms, note):
    m["claims"] = [c for c in m["claims"] if c["property"] != i]
    m["claims"].append({"property": i, "status": status, "theorems": thms, "note": note})
    m["claims"].sort(key=lambda c: int(c["property"][1:]))
def save():
    json.dump(m, open(p, "w"), indent=1)
if __name__ == "__main__":
    put(sys.argv[1], sys.argv[2], [t for t in sys.argv[3].split(",") if t], sys.argv[4]); save()
