"""log.py MUTATE_OUTPUT [TIGHTENED.json]: append mutate.py results to seeded/LOG.jsonl."""
import json, sys, os
tight = json.load(open(sys.argv[2])) if len(sys.argv) > 2 else {}
with open("/verif/seeded/LOG.jsonl", "a") as f:
    for l in open(sys.argv[1]):
        d = json.loads(l)
        if "error" in d: continue
        f.write(json.dumps({"definition": d["definition"], "edit": d["edit"], "claim": d["claim"],
            "theorems_failed": d["failed"], "proofs_rejected": d["failed_directly"],
            "theorems_tightened": tight.get(d["edit"], [])}, ensure_ascii=False) + "\n")
