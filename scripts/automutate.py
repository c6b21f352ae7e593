#!/usr/bin/env python3
"""Systematic mutation testing: each definition of the model undergoes each of a set of token replacements.

Usage: automutate.py [--per-def N] [--seed S] [--files A,B] [--out results.jsonl]
Mutants whose own module does not compile are dropped.  One line per remaining mutant is written to the results, to be
appended to seeded/LOG.jsonl once survivors are examined.
"""
import argparse, json, os, pathlib, random, re, shutil, signal, subprocess, threading

root = pathlib.Path(__file__).resolve().parent.parent
scratch = pathlib.Path("/tmp/amut")
log = root / "seeded/LOG.jsonl"

RULES = [
    (r" \+ ", " - "), (r" - ", " + "), (r" \* ", " + "), (r" < ", " ≤ "), (r" ≤ ", " < "), (r" > ", " ≥ "), (r" ≥ ", " > "),
    (r" < ", " > "), (r"(?<=if )(.*?) then (.*?) else ([^\n]*)", None), (r" ∧ ", " ∨ "), (r" ∨ ", " ∧ "), (r" ≠ ", " = "), (r"(?<!:) = ", " ≠ "),
    (r"(?<![\w.])0(?![\w.])", "1"), (r"(?<![\w.])1(?![\w.])", "0"), (r"(?<![\w.])1(?![\w.])", "2"), (r"(?<![\w.])2(?![\w.])", "3"),
    (r"\.front\b", ".back"), (r"\.back\b", ".front"), (r"\btrue\b", "false"), (r"\bfalse\b", "true"),
    (r"\bmin\b", "max"), (r"\bmax\b", "min"), (r"\bnone\b", "some default"), (r"\.error \.ub", ".error .exception"),
    (r"\.error \.outOfBounds", ".error .ub"), (r"\.error \.sizeError", ".error .ub"), (r"\.take\b", ".drop"), (r"\.drop\b", ".take"),
    (r"\.reverse\b", ""), (r" && ", " || "), (r" \|\| ", " && "), (r"\bx y\b", "y x"), (r"\ba b\b", "b a"), (r" / ", " * "), (r" % ", " / "),
    (r"\.tail\b", ""), (r"\.dropLast\b", ""), (r" \+\+ (\S+)", ""),
]


def definitions(text):
    """(name, start, end) of the definitions, without their documentation."""
    starts = [(m.start(), m.group(1)) for m in re.finditer(
        r"^(?:@\[[^\]]*\]\s*)?(?:noncomputable\s+|protected\s+|private\s+)*(?:def|inductive|structure|abbrev)\s+([^\s({\[:]+)", text, re.M)]
    stops = [m.start() for m in re.finditer(r"^(?:/-|end |namespace |section|variable|open |instance|theorem|@\[|def |noncomputable|inductive|structure|abbrev|deriving|termination_by|decreasing_by)", text, re.M)] + [len(text)]
    for s, n in starts:
        yield n, s, min(e for e in stops if e > s)


def mutants(path):
    text = path.read_text()
    for name, s, e in definitions(text):
        body = text[s:e]
        comments = [m.span() for m in re.finditer(r"/-.*?-/", body, re.DOTALL)] + [m.span() for m in re.finditer(r"--[^\n]*", body)]
        seen = set()
        for pat, rep in RULES:
            for m in re.finditer(pat, body):
                if any(a <= m.start() < b for a, b in comments):
                    continue
                r = rep if rep is not None else "%s then %s else %s" % (m.group(1), m.group(3), m.group(2))
                new = body[:m.start()] + r + body[m.end():]
                if new in seen or new == body:
                    continue
                seen.add(new)
                line = body[:m.start()].count("\n")
                yield name, s, e, body, new, body.split("\n")[line].strip(), new.split("\n")[line].strip()


def decl_at(path, line):
    name = None
    for i, l in enumerate(path.read_text().splitlines(), 1):
        m = re.match(r"(?:@\[.*\] )?(?:private |protected |noncomputable )*(theorem|lemma|def|example|instance|abbrev|structure|inductive)\s*(\S*)", l)
        if m:
            name = m.group(2) if m.group(1) != "example" else "example@%d" % i
        if i == line:
            return name
    return name


def lake(target, timeout):
    """Build, and stop some time after the first error."""
    p = subprocess.Popen(["lake", "build"] + target, cwd=scratch / "lean", stdout=subprocess.PIPE, stderr=subprocess.STDOUT, text=True,
                         start_new_session=True)
    timer = threading.Timer(timeout, lambda: os.killpg(p.pid, signal.SIGKILL))
    timer.start()
    failed, bad, stopper = [], False, None
    for line in p.stdout:
        m = re.match(r"error: (Verif/\S+\.lean):(\d+):\d+:", line)
        if m:
            x = "%s:%s" % (m.group(1)[6:-5], decl_at(scratch / "lean" / m.group(1), int(m.group(2))))
            if x not in failed:
                failed.append(x)
            if stopper is None:
                stopper = threading.Timer(3, lambda: os.killpg(p.pid, signal.SIGKILL))
                stopper.start()
    rc = p.wait()
    timer.cancel()
    if stopper:
        stopper.cancel()
    if rc != 0 and not failed:
        failed = ["timeout"]
    return rc, failed


def main():
    ap = argparse.ArgumentParser()
    ap.add_argument("--per-def", type=int, default=2)
    ap.add_argument("--seed", type=int, default=0)
    ap.add_argument("--files", default="")
    ap.add_argument("--out", default="/tmp/automutate.jsonl")
    ap.add_argument("--count", action="store_true")
    a = ap.parse_args()
    rnd = random.Random(a.seed)
    done = set()
    if log.exists():
        for l in log.read_text().splitlines():
            d = json.loads(l)
            done.add((d["file"], d["definition"], d["edit"]))
    model = root / "lean/Verif/Model"
    files = [model / (f + ".lean") for f in a.files.split(",")] if a.files else sorted(model.glob("*.lean"))
    jobs = []
    for f in files:
        by = {}
        for mu in mutants(f):
            by.setdefault(mu[0], []).append(mu)
        for name, ms in by.items():
            rnd.shuffle(ms)
            jobs.append((f, name, ms))
    print(len(jobs), "definitions", sum(len(j[2]) for j in jobs), "mutants", flush=True)
    if a.count:
        return
    subprocess.run(["rsync", "-a", "--delete", str(root / "lean") + "/", str(scratch / "lean") + "/"], check=True) \
        if shutil.which("rsync") else (shutil.rmtree(scratch / "lean", ignore_errors=True),
                                       shutil.copytree(root / "lean", scratch / "lean", symlinks=True))
    for f, name, ms in jobs:
        dst = scratch / "lean/Verif/Model" / f.name
        n = 0
        for _, s, e, body, new, old_line, new_line in ms:
            if n >= a.per_def:
                break
            edit = "%s  ==>  %s" % (old_line, new_line)
            key = ("lean/Verif/Model/" + f.name, name, edit)
            if key in done:
                continue
            text = dst.read_text()
            if text.count(body) != 1:
                print("SKIP", f.name, name, flush=True)
                break
            dst.write_text(text.replace(body, new))
            rc, failed = lake(["Verif.Model." + f.stem], 600)
            ok = rc == 0
            if ok:
                rc, failed = lake([], 1500)
            dst.write_text(text)
            if not ok:
                continue
            n += 1
            if rc != 0 and any(x.startswith("Model/") for x in failed):
                continue  # another module of the model does not compile
            prop = sorted({p for x in failed for p in re.findall(r"\bC\d+\b", x.replace("_", " "))})
            entry = {"definition": name, "file": key[0], "edit": edit, "claim_broken": "token replaced (systematic batch)",
                     "property": prop[0] if prop else "", "theorems_failed": failed, "survived": rc == 0, "theorems_tightened": []}
            with open(a.out, "a") as g:
                g.write(json.dumps(entry, ensure_ascii=False) + "\n")
            print("SURVIVED" if rc == 0 else "killed", f.stem, name, failed[:2], edit if rc == 0 else "", flush=True)


main()
