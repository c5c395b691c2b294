#!/usr/bin/env python3
"""Seeded-bug testing.  Usage: seed.py SEEDS.py [ID ...]

Copies lean/ to a scratch directory outside /verif, applies one wrong edit to the model, rebuilds, and
records which theorems fail.  A failing lemma or theorem is replaced by `sorry` in the scratch copy so that
the rest can be checked; a property theorem counts as failed if it fails itself or depends on a failed
lemma (sorryAx in its axioms)."""
import json, os, re, shutil, subprocess, sys
ROOT = os.path.dirname(os.path.dirname(os.path.abspath(__file__)))
WORK = os.environ.get("SEEDDIR", "/tmp/seedwork/lean")
SRC = os.environ.get("SEEDSRC", os.path.join(ROOT, "lean"))
LOG = os.path.join(ROOT, "seeded/LOG.jsonl")

def sync():
    os.makedirs(os.path.dirname(WORK), exist_ok=True)
    shutil.rmtree(WORK, ignore_errors=True); subprocess.run(["cp", "-a", SRC, WORK], check=True)

def build(target=None):
    r = subprocess.run(["lake", "build"] + ([target] if target else []), cwd=WORK, capture_output=True, text=True)
    return r.stdout + r.stderr

START = re.compile(r"^(?:@\[[^\]]*\]\s*)?(?:private |noncomputable |protected )*(theorem|lemma|example|def|abbrev|instance|structure|inductive)\b\s*([^\s:({\[]*)", re.M)

def decls(text):
    ms = list(START.finditer(text))
    out = []
    for i, m in enumerate(ms):
        end = ms[i + 1].start() if i + 1 < len(ms) else len(text)
        chunk = text[m.start():end]
        # cut trailing doc comments, namespaces
        cut = re.search(r"\n\n(?=/--|/-!|end\b|namespace |open |section|variable|set_option|@\[)", chunk)
        if cut: end = m.start() + cut.start() + 1
        out.append((m.start(), end, m.group(1), m.group(2)))
    return out

def region_start(text, pos):
    head = text[:pos].rstrip()
    return head.rfind("/--") if head.endswith("-/") and "/-!" not in head[head.rfind("/-"):] else pos

def line_of(text, pos): return text.count("\n", 0, pos) + 1

def run(seed, log=True):
    sync()
    p = os.path.join(WORK, "Verif", seed["file"])
    t = open(p).read()
    assert t.count(seed["old"]) >= 1, "pattern not found: " + seed["id"]
    t2 = t.replace(seed["old"], seed["new"], 1)
    open(p, "w").write(t2)
    failed = []
    broken = None
    for it in range(12):
        out = build()
        errs = sorted(set((m.group(1), int(m.group(2))) for m in re.finditer(r"^error: (Verif/\S+?\.lean):(\d+):\d+", out, re.M)))
        errs = [e for e in errs if "Axioms" not in e[0]]
        if not errs:
            if "error" in out and "Build completed" not in out: broken = out[-600:]
            break
        byfile = {}
        for f, l in errs: byfile.setdefault(f, []).append(l)
        for f, ls in byfile.items():
            fp = os.path.join(WORK, f)
            text = open(fp).read()
            ds = decls(text)
            todo = {}
            for l in ls:
                cand = [d for d in ds if line_of(text, region_start(text, d[0])) <= l]
                if not cand: broken = "%s:%d" % (f, l); continue
                todo[cand[-1][0]] = cand[-1]
            for pos in sorted(todo, reverse=True):
                s, e, kind, name = todo[pos]
                chunk = text[s:e]
                if kind == "example":
                    failed.append("example in " + f); text = text[:s] + "example : True := trivial\n\n" + text[e:]; continue
                if kind not in ("theorem", "lemma"):
                    broken = "definition %s in %s" % (name, f); continue
                if failed.count(name) >= 2:
                    broken = "stub of %s does not elaborate: %s" % (name, [x for x in re.findall(r"error: Verif/[^\n]*\n[^\n]*", out)][:2]); continue
                failed.append(name)
                m0 = re.search(r"\n\s+\| ", chunk)
                if m0 and ":=" not in chunk[:m0.start()]:
                    text = text[:s] + chunk[:m0.start()] + " := by sorry\n\n" + text[e:]; continue
                m = re.search(r":= by$", chunk, re.M) or re.search(r" :=$", chunk, re.M)
                if not m:
                    ms = list(re.finditer(r" := ", chunk)); m = ms[-1] if ms else None
                if not m:
                    m = re.search(r"\n\s*\|", chunk)
                    if not m: broken = "cannot stub " + name; continue
                    text = text[:s] + chunk[:m.start()] + " := by sorry\n\n" + text[e:]; continue
                text = text[:s] + chunk[:m.start()] + " := by sorry\n\n" + text[e:]
            open(fp, "w").write(text)
        if broken: break
    dep = []
    if not broken:
        out = build("Verif.Axioms")
        for m in re.finditer(r"'PT\.(\S+)' depends on axioms: \[([^\]]*)\]", out):
            if "sorryAx" in m.group(2): dep.append(m.group(1))
    exp = seed.get("expect", [])
    missed = [x for x in exp if x not in dep]
    rec = dict(id=seed["id"], definition=seed["definition"], file="lean/Verif/" + seed["file"], edit="`%s` -> `%s`" % (seed["old"].strip(), seed["new"].strip()),
               claim_broken=seed["claim"], theorems_failed=dep, lemmas_failed=[x for x in failed if x not in dep],
               theorems_tightened=seed.get("tightened", []))
    if broken: rec["note"] = "model or statement no longer elaborates: " + broken
    print(seed["id"], "| failed:", dep, "| lemmas:", rec["lemmas_failed"], "| MISSED:", missed, "| broken:", broken, flush=True)
    if log and not missed:
        with open(LOG, "a") as f: f.write(json.dumps(rec, ensure_ascii=False) + "\n")
    return missed

if __name__ == "__main__":
    ns = {}
    exec(open(sys.argv[1]).read(), ns)
    ids = sys.argv[2:]
    done = set()
    if os.path.exists(LOG): done = {json.loads(l)["id"] for l in open(LOG)}
    for sd in ns["SEEDS"]:
        if ids and sd["id"] not in ids: continue
        if not ids and sd["id"] in done: continue
        run(sd)
