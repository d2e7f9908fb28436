#!/usr/bin/env python3
"""Check the citations of /repo in the model: every cited range must exist, and a range cited right after the name of a
Go function or type must lie within it or enclose it."""
import re, glob, os, sys
repo = sys.argv[1] if len(sys.argv) > 1 else "/repo"
root = os.path.abspath(os.path.join(os.path.dirname(__file__), ".."))
files = {}
for dirpath, _, names in os.walk(repo):
    for n in names:
        if n.endswith(".go") and not n.endswith("_test.go"):
            p = os.path.join(dirpath, n)
            files.setdefault(n, []).append((os.path.relpath(p, repo), open(p).read().split("\n")))
bad = 0
total = 0
for f in sorted(glob.glob(os.path.join(root, "lean/Verif/**/*.lean"), recursive=True)):
    text = open(f).read()
    for m in re.finditer(r"(?:`([A-Za-z_.]+)`[^`()]{0,12}\()?((?:[a-z_0-9]+/)*[a-z_0-9]+\.go) (\d+)(?:-(\d+))?", text):
        name, path, a, b = m.group(1), m.group(2), int(m.group(3)), int(m.group(4) or m.group(3))
        line = text.count("\n", 0, m.start()) + 1
        cands = [c for c in files.get(os.path.basename(path), []) if c[0].endswith(path)]
        total += 1
        where = f"{os.path.relpath(f, root)}:{line}: {m.group(0)}"
        if not cands:
            print("no file   ", where); bad += 1; continue
        if not any(b <= len(src) and a <= b for _, src in cands):
            print("range     ", where); bad += 1; continue
        if name:
            fn = name.split(".")[-1]
            decl = []
            for rel, src in cands:
                for i, l in enumerate(src, 1):
                    if re.match(r"func (\([^)]*\) )?%s[\[(]" % re.escape(fn), l):
                        end = next(k for k in range(i, len(src) + 1) if src[k - 1].startswith("}"))
                        decl.append((rel, i, end))
                    elif re.match(r"(type |\t)%s (struct|interface)" % re.escape(fn), l):
                        ind = "\t" if l.startswith("\t") else ""
                        end = next(k for k in range(i, len(src) + 1) if src[k - 1].startswith(ind + "}"))
                        decl.append((rel, i, end))
            if decl and not any(i <= a and b <= e or (a <= i and e <= b) for _, i, e in decl):
                print("elsewhere ", where, decl); bad += 1
print(total, "citations,", bad, "to look at")
