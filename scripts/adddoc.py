#!/usr/bin/env python3
"""Append a property (JSON object on stdin, with extra keys `note`, `design` and `coverage`) to the documents."""
import json
import re
import subprocess
import sys

entry = json.load(sys.stdin)
note = entry.pop("note")
design = entry.pop("design")
coverage = entry.pop("coverage", [])
with open("/verif/properties.jsonl", "a") as f:
    f.write(json.dumps(entry) + "\n")
path = "/verif/DESIGN.md"
lines = open(path).read().split("\n")
last = max(k for k, l in enumerate(lines) if re.match(r"\| C\d+ ", l))
lines.insert(last + 1, f"| {entry['id']} | {design[0]} | {design[1]} |")
if coverage:
    head = next(k for k, l in enumerate(lines) if l.startswith("| DftMemory |"))
    while lines[head + 1].startswith("|"):
        head += 1
    lines.insert(head + 1, "| " + " | ".join(coverage) + " |")
open(path, "w").write("\n".join(lines))
subprocess.run([sys.executable, "/verif/scripts/addnote.py", entry["id"], note], check=True)
