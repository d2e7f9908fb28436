#!/usr/bin/env python3
"""Edit a scratch copy of the model one mutation at a time, rebuild, and log which theorems stop proving.

usage: mutate.py MUTATIONS.json SCRATCH [ID ...]

SCRATCH holds a copy of /verif/lean (with its build directory) and deps.txt, one line per property theorem: its
name followed by the names of all declarations it depends on.  In the scratch copy `decide +kernel` is replaced by a
tactic that leaves the check to the kernel, because a failing `decide` may use all memory while it prints its error.
A module whose compilation was killed is listed by name.  Nothing in /verif is changed except
seeded/LOG.jsonl, which gets one line per mutation.
"""
import json, os, re, subprocess, sys, time

muts, scratch = json.load(open(sys.argv[1])), sys.argv[2]
only = set(sys.argv[3:])
lean = os.path.join(scratch, "lean")
log = "/verif/seeded/LOG.jsonl"
done = set()
if os.path.exists(log):
    done = {json.loads(l).get("id") for l in open(log)}
deps = {}
for l in open(os.path.join(scratch, "deps.txt")):
    p = l.split()
    deps[p[0].split(".")[-1]] = {x.split(".")[-1] for x in p[1:]} | set(p[1:])
DECL = re.compile(r"^(?:@\[[^\]]*\]\s*)?(?:private |protected |noncomputable )*(theorem|lemma|example|def|instance|structure|inductive|abbrev)\b\s*([^\s:({\[]*)")

def enclosing(path, line):
    name = "?"
    for i, t in enumerate(open(path), 1):
        if i > line:
            break
        m = DECL.match(t)
        if m:
            name = m.group(2) or f"{m.group(1)} at line {i}"
    return name

for m in muts:
    if only and m["id"] not in only or not only and m["id"] in done:
        continue
    path = os.path.join(lean, m["file"])
    src = open(path).read()
    if src.count(m["old"]) != 1:
        print(m["id"], "old text occurs", src.count(m["old"]), "times", flush=True)
        continue
    open(path, "w").write(src.replace(m["old"], m["new"]))
    t0 = time.time()
    try:
        r = subprocess.run(["lake", "build"], cwd=lean, capture_output=True, text=True, timeout=3000)
        out = r.stdout + r.stderr
    finally:
        open(path, "w").write(src)
    failed = []
    for f, l in re.findall(r"error: (?:\./+)?(Verif/[\w/]+\.lean):(\d+):", out):
        n = (f, enclosing(os.path.join(lean, f), int(l)))
        if n not in failed:
            failed.append(n)
    direct = [n for f, n in failed if re.match(r"C\d\d_", n)]
    lemmas = [n for f, n in failed if not re.match(r"C\d\d_", n)]
    via = sorted(t for t, d in deps.items() if t not in direct and any(x in d for x in lemmas))
    killed = re.findall(r"✖ \[\d+/\d+\] Building (\S+)[^✖✔⚠]*?error: Lean exited with code 137", out)
    model = [n for f, n in failed if f.startswith("Verif/Model")]
    rec = {"id": m["id"], "definition": m["def"], "file": m["file"], "edit": m["edit"], "claim": m["claim"],
           "theorems_failed": direct + [f"{k} (out of memory)" for k in killed], "lemmas_failed": lemmas, "theorems_depending_on_failed_lemmas": via,
           "theorems_tightened": []}
    if model:
        rec["note"] = "the edited model does not compile"
    print(json.dumps({"id": m["id"], "s": round(time.time() - t0), "direct": direct, "lemmas": lemmas[:12],
                      "via": len(via), "model": model, "ok": r.returncode == 0}), flush=True)
    if not model:
        with open(log, "a") as fh:
            fh.write(json.dumps(rec) + "\n")
