#!/usr/bin/env python3
"""Mutation testing of the theorems: apply seeded bugs to a scratch copy of the model and rebuild.

Usage: mutate.py spec.json, where spec.json is a list of
{"file": "Model/X.lean", "definition": ..., "old": ..., "new": ..., "claim": ..., "property": "Cxx"}.
One line per mutation is appended to seeded/LOG.jsonl.
A mutant which breaks definitions of the model does not compile: it is reported as invalid and not logged.
If only examples fail, they are removed from the scratch copy, and the theorems decide alone.
"""
import json, re, pathlib, shutil, subprocess, sys
root = pathlib.Path(__file__).resolve().parent.parent
scratch = pathlib.Path("/tmp/mut")
log = root / "seeded/LOG.jsonl"

def sync():
    scratch.mkdir(exist_ok=True)
    subprocess.run(["rsync", "-a", "--delete", str(root / "lean") + "/", str(scratch / "lean") + "/"], check=True) \
        if shutil.which("rsync") else \
        (shutil.rmtree(scratch / "lean", ignore_errors=True), shutil.copytree(root / "lean", scratch / "lean", symlinks=True))

def decl_at(path, line):
    name = None
    for i, l in enumerate(path.read_text().splitlines(), 1):
        m = re.match(r"(?:@\[.*\] )?(?:private |protected |noncomputable )*(theorem|lemma|def|example|instance|abbrev|structure|inductive)\s*(\S*)", l)
        if m:
            name = m.group(2) if m.group(1) != "example" else "example@%d" % i
        if i == line:
            return name
    return name

def build():
    p = subprocess.run(["lake", "build"], cwd=scratch / "lean", capture_output=True, text=True, timeout=1500)
    out = p.stdout + p.stderr
    failed = []
    for m in re.finditer(r"^error: (Verif/\S+\.lean):(\d+):\d+:", out, re.M):
        d = decl_at(scratch / "lean" / m.group(1), int(m.group(2)))
        x = "%s:%s" % (m.group(1)[6:-5], d)
        if x not in failed:
            failed.append(x)
    return p.returncode, failed

def is_definition(x):
    """Whether the declaration in which an error occurred is a definition of the model."""
    module, name = x.split(":", 1)
    if not module.startswith("Model/"):
        return False
    text = (scratch / "lean/Verif" / (module + ".lean")).read_text()
    return not re.search(r"^(?:@\[.*\] )?(?:private |protected )*(theorem|lemma) %s(?!\S)" % re.escape(str(name)), text, re.M)

def remove_examples(failed):
    """Remove failed examples, and return the texts to be restored."""
    saved = {}
    for x in failed:
        module, name = x.split(":", 1)
        path = scratch / "lean/Verif" / (module + ".lean")
        saved.setdefault(path, path.read_text())
    for path, text in saved.items():
        lines = text.splitlines()
        for x in failed:
            module, name = x.split(":", 1)
            if path != scratch / "lean/Verif" / (module + ".lean"):
                continue
            i = int(name.split("@")[1]) - 1
            while True:  # blank, so that line numbers do not change
                lines[i] = ""
                i += 1
                if i == len(lines) or (lines[i] and not lines[i][0].isspace()):
                    break
            j = int(name.split("@")[1]) - 2
            if lines[j].rstrip().endswith("-/"):  # docstring
                while not lines[j].startswith("/-"):
                    lines[j] = ""
                    j -= 1
                lines[j] = ""
        path.write_text("\n".join(lines) + "\n")
    return saved

sync()
spec = json.loads(pathlib.Path(sys.argv[1]).read_text())
for mu in spec:
    src = root / "lean/Verif" / mu["file"]
    dst = scratch / "lean/Verif" / mu["file"]
    text = src.read_text()
    if text.count(mu["old"]) != 1:
        print("SKIP (%d occurrences): %s: %r" % (text.count(mu["old"]), mu["file"], mu["old"])); continue
    dst.write_text(text.replace(mu["old"], mu["new"]))
    rc, failed = build()
    examples, saved = [], {}
    while rc != 0 and failed and all(":example@" in x for x in failed):
        examples += failed
        for path, t in remove_examples(failed).items():
            saved.setdefault(path, t)
        rc, failed = build()
    for path, t in saved.items():
        path.write_text(t)
    invalid = rc != 0 and (not failed or any(is_definition(x) for x in failed))
    dst.write_text(text)
    if invalid:
        print("INVALID (does not compile)", mu["property"], mu["definition"], failed[:4], flush=True); continue
    survived = rc == 0
    entry = {"definition": mu["definition"], "file": "lean/Verif/" + mu["file"], "edit": "%s  ==>  %s" % (mu["old"], mu["new"]),
             "claim_broken": mu["claim"], "property": mu["property"], "theorems_failed": failed,
             "survived": survived, "theorems_tightened": mu.get("tightened", [])}
    if examples:
        entry["examples_failed"] = examples
    with log.open("a") as f:
        f.write(json.dumps(entry, ensure_ascii=False) + "\n")
    print("SURVIVED" if survived else "killed", mu["property"], mu["definition"], failed[:4], flush=True)
    if survived: print("   EDIT:", entry["edit"])
