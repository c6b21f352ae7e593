#!/usr/bin/env python3
"""Append to the note of a claim in scripts/notes.json: addnote.py C69 'text'."""
import json, pathlib, sys
p = pathlib.Path(__file__).resolve().parent / "notes.json"
n = json.loads(p.read_text())
old = n.get(sys.argv[1], {}).get("note", "")
n[sys.argv[1]] = {"note": (old + " " + sys.argv[2]).strip()}
p.write_text(json.dumps(n, indent=1, ensure_ascii=False) + "\n")
