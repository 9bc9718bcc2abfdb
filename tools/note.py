"""Add notes to tools/notes.json: note.py ID [status=...] text"""
import json, sys, os
p = os.path.join(os.path.dirname(__file__), "notes.json")
d = json.load(open(p))
args = sys.argv[2:]
e = {}
if args[0].startswith("status="):
    e["status"] = args[0][7:]
    args = args[1:]
e["note"] = " ".join(args)
d[sys.argv[1]] = e
json.dump(d, open(p, "w"), indent=1)
