#!/usr/bin/env python3
"""Lines of /repo cited by the model: per file, the code lines (no blanks, comments, docstrings) that no definition cites."""
import re, os, glob, ast, sys
cited = {}
for f in glob.glob("/verif/lean/Verif/Model/*.lean"):
    t = open(f).read()
    cur = None
    # tokens: path.py[:ranges] possibly followed by  `:ranges`
    for m in re.finditer(r"(/repo/photontorch/)?([\w/]*\w+\.py)?`?:(\d[\d,\- \n]*)", t):
        if m.group(2):
            cur = m.group(2)
            if "/" not in cur:
                g = glob.glob("/repo/photontorch/*/" + cur); cur = g[0][len("/repo/photontorch/"):] if g else cur
        if not cur: continue
        for r in re.findall(r"(\d+)(?:-(\d+))?", m.group(3)):
            a = int(r[0]); b = int(r[1] or r[0])
            cited.setdefault(cur, set()).update(range(a, b + 1))
    for m in re.finditer(r"/repo/photontorch/([\w/]+\.py):(\d[\d,\-]*)((?:,[\s`]*:?[\d,\-]+)*)", t):
        pass
for f in sorted(glob.glob("/repo/photontorch/**/*.py", recursive=True)):
    k = f[len("/repo/photontorch/"):]
    src = open(f).read()
    tree = ast.parse(src)
    code = set()
    for n in ast.walk(tree):
        if isinstance(n, ast.stmt) and not (isinstance(n, ast.Expr) and isinstance(n.value, ast.Constant) and isinstance(n.value.value, str)):
            if isinstance(n, (ast.FunctionDef, ast.ClassDef, ast.With, ast.If, ast.For, ast.Try, ast.While)): code.add(n.lineno)
            elif isinstance(n, (ast.Import, ast.ImportFrom)): continue
            else: code.update(range(n.lineno, n.end_lineno + 1))
    miss = sorted(code - cited.get(k, set()))
    rs = []
    for x in miss:
        if rs and x <= rs[-1][1] + 1: rs[-1][1] = x
        else: rs.append([x, x])
    print(k, "%d/%d" % (len(code) - len(miss), len(code)), " ".join("%d-%d" % tuple(r) if r[0] != r[1] else str(r[0]) for r in rs))
