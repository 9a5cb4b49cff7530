"""Check the citations in the model: `name` (file.py:a-b) must lie within / match the
definition of `name` in /repo."""
import ast, os, re, sys, glob
R = "/repo/truthdiscovery"
defs = {}
nlines = {}
for root, _, fs in os.walk(R):
    if "/test" in root: continue
    for f in fs:
        if f.endswith(".py"):
            p = os.path.join(root, f)
            t = ast.parse(open(p).read())
            nlines.setdefault(f, []).append(len(open(p).read().splitlines()))
            def walk(n, pre):
                for c in ast.iter_child_nodes(n):
                    if isinstance(c, (ast.FunctionDef, ast.ClassDef)):
                        start = min([c.lineno] + [d.lineno for d in c.decorator_list])
                        defs.setdefault((f, c.name), []).append((start, c.end_lineno))
                        defs.setdefault((f, pre + c.name), []).append((start, c.end_lineno))
                        walk(c, pre + c.name + ".")
            walk(t, "")
bad = 0
for p in sorted(glob.glob("/verif/lean/Verif/Model/*.lean")):
    s = open(p).read()
    for m in re.finditer(r"`([A-Za-z_.]+)`[^`()]{0,60}\(([a-z_/]+\.py):(\d+)(?:-(\d+))?", s):
        name, f, a, b = m.group(1), os.path.basename(m.group(2)), int(m.group(3)), int(m.group(4) or m.group(3))
        line = s[:m.start()].count("\n") + 1
        ds = defs.get((f, name)) or defs.get((f, name.split(".")[-1]))
        if not ds:
            print(f"{os.path.basename(p)}:{line}: no def {name} in {f} ({a}-{b})"); continue
        if not any(x <= a and b <= y for x, y in ds):
            bad += 1
            print(f"{os.path.basename(p)}:{line}: {name} {f}:{a}-{b} but defined at {ds}")
    for m in re.finditer(r"([a-z_]+\.py):(\d+)(?:-(\d+))?", s):
        b = int(m.group(3) or m.group(2))
        if m.group(1) in nlines and b > max(nlines[m.group(1)]):
            print(f"{os.path.basename(p)}: {m.group(0)} beyond end of file")
print("bad", bad)
