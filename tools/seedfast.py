#!/usr/bin/env python3
"""Seeded-bug testing, one build per wrong edit.  Usage: seedfast.py WORKER/WORKERS SEEDS.py ...

Like seed.py, but failing lemmas are not replaced by `sorry` for a second build: a property theorem counts as failed if it
fails itself or if its proof in the correct model uses a lemma that fails (dependencies in DEPS, one line per theorem:
name, tab, all constants its statement and proof use)."""
import json, os, re, subprocess, sys
import seed as S
DEPS = os.environ.get("DEPS", "/tmp/deps.txt")
deps = {}
for l in open(DEPS):
    t, cs = l.rstrip("\n").split("\t")
    deps[t.removeprefix("PT.")] = set(cs.split(" "))

def namespaced(text, pos, name):
    ns = []
    for m in re.finditer(r"^(namespace|section|end)\b[ \t]*(\S*)", text[:pos], re.M):
        if m.group(1) == "end":
            if ns: ns.pop()
        else: ns.append(m.group(2) if m.group(1) == "namespace" else "")
    return ".".join([n for n in ns if n] + [name.removeprefix("_root_.")])

def run(seed):
    S.sync()
    p = os.path.join(S.WORK, "Verif", seed["file"])
    t = open(p).read()
    if t.count(seed["old"]) < 1:
        print(seed["id"], "| PATTERN NOT FOUND", flush=True); return
    open(p, "w").write(t.replace(seed["old"], seed["new"], 1))
    out = S.build()
    errs = sorted(set((m.group(1), int(m.group(2))) for m in re.finditer(r"^error: (Verif/\S+?\.lean):(\d+):\d+", out, re.M)))
    failed, broken, examples = [], None, []
    for f, l in errs:
        if "Axioms" in f: continue
        text = open(os.path.join(S.WORK, f)).read()
        cand = [d for d in S.decls(text) if S.line_of(text, S.region_start(text, d[0])) <= l]
        if not cand: broken = "%s:%d" % (f, l); continue
        s, e, kind, name = cand[-1]
        if kind == "example": examples.append("example in " + f)
        elif kind in ("theorem", "lemma"): failed.append((name, namespaced(text, s, name)))
        else: broken = "definition %s in %s" % (name, f)
    if not errs and "Build completed" not in out: broken = out[-600:]
    full = {n for _, n in failed}
    dep = [t for t, cs in deps.items() if full & cs]
    rest = []
    for a, n in failed:
        if a not in dep and a not in rest: rest.append(a)
    rec = dict(id=seed["id"], definition=seed["definition"], file="lean/Verif/" + seed["file"], edit="`%s` -> `%s`" % (seed["old"].strip(), seed["new"].strip()),
               claim_broken=seed["claim"], theorems_failed=dep, lemmas_failed=rest + sorted(set(examples)), theorems_tightened=seed.get("tightened", []))
    if broken: rec["note"] = "model or statement no longer elaborates: " + broken
    print(seed["id"], "| failed:", len(dep), dep[:12], "| lemmas:", rec["lemmas_failed"][:8], "| broken:", broken, flush=True)
    with open(S.LOG, "a") as f: f.write(json.dumps(rec, ensure_ascii=False) + "\n")

if __name__ == "__main__":
    k, n = map(int, sys.argv[1].split("/"))
    seeds = []
    for fn in sys.argv[2:]:
        ns = {}
        exec(open(fn).read(), ns)
        seeds += ns["SEEDS"]
    for sd in seeds[k::n]:
        if sd["id"] in {json.loads(l)["id"] for l in open(S.LOG)}: continue
        run(sd)
