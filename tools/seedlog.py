"""Append the results of a batch of seeded bugs to seeded/LOG.jsonl.
usage: seedlog.py batch.json out.jsonl [tightened.json]"""
import json, sys, os
here = os.path.dirname(os.path.dirname(os.path.abspath(__file__)))
batch = {b["id"]: b for b in json.load(open(sys.argv[1]))}
tight = json.load(open(sys.argv[3])) if len(sys.argv) > 3 else {}
with open(os.path.join(here, "seeded", "LOG.jsonl"), "a") as out:
    for line in open(sys.argv[2]):
        r = json.loads(line)
        b = batch[r["id"]]
        failed = r.get("props") or []
        note = ""
        if r.get("error", None):
            failed = sorted(set(f[2] for f in r.get("failed", []))) or [r["error"].split()[-1]]
        elif r.get("missed"):
            note = "still proves: " + ", ".join(r["missed"])
        t = tight.get(r["id"], {})
        out.write(json.dumps({"id": r["id"], "file": b["file"], "definition": b["definition"], "edit": b["edit"],
            "breaks": b["breaks"], "claims": b["claims"], "failed": failed, "lemmas_failed": r.get("direct", []),
            "tightened": t.get("tightened", []), "note": t.get("note", note)}) + "\n")
