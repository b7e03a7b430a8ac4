#!/usr/bin/env python3
"""Seeded-bug runner. Reads a JSON list of edits from the file given on the command line:
  {"file": "Model/X.lean", "definition": "...", "old": "...", "new": "...", "edit": "...", "claim": "Cnn: ..."}
Each edit is applied to a scratch copy of lean/, everything is rebuilt, and one line is appended to
seeded/LOG.jsonl. "survivors" in the printed summary are edits under which everything still builds."""
import json, os, re, shutil, subprocess, sys
SRC = "/verif/lean"; DST = "/tmp/scratch"
LOG = "/verif/seeded/LOG.jsonl"

def sync():
    subprocess.run(["rsync", "-a", "--delete", SRC + "/", DST + "/"], check=True) if shutil.which("rsync") else \
        (shutil.rmtree(DST, ignore_errors=True), shutil.copytree(SRC, DST, symlinks=True))

def enclosing(path, line):
    name = None
    for i, l in enumerate(open(path), 1):
        m = re.match(r"\s*(?:@\[[^\]]*\]\s*)?(?:private\s+|protected\s+)?(theorem|lemma|example|def|instance|structure)\b\s*([^\s:({\[]*)", l)
        if m and i <= line:
            name = (m.group(2) or m.group(1)) if m.group(1) != "example" else "example@%d" % i
        if i > line: break
    return name

def imports():
    g = {}
    for root, _, fs in os.walk(os.path.join(DST, "Verif")):
        for f in fs:
            if f.endswith(".lean"):
                p = os.path.join(root, f)
                mod = os.path.relpath(p, DST)[:-5].replace("/", ".")
                g[mod] = re.findall(r"^import (Verif\.\S+)", open(p).read(), re.M)
    return g

def run(e):
    p = os.path.join(DST, "Verif", e["file"])
    s = open(p).read()
    if s.count(e["old"]) != 1:
        print("BAD EDIT (count %d): %s" % (s.count(e["old"]), e["edit"])); return None
    open(p, "w").write(s.replace(e["old"], e["new"]))
    g = imports()
    r = subprocess.run(["lake", "build"], cwd=DST, capture_output=True, text=True)
    out = r.stdout + r.stderr
    fails, files = [], set()
    for f, l in re.findall(r"error: (Verif/\S+\.lean):(\d+):\d+", out):
        n = "%s:%s" % (f[6:-5].replace("/", "."), enclosing(os.path.join(DST, f), int(l)))
        files.add(f[:-5].replace("/", "."))
        if n not in fails: fails.append(n)
    blocked = set(files); changed = True
    while changed:
        changed = False
        for m, ds in g.items():
            if m not in blocked and any(d in blocked for d in ds): blocked.add(m); changed = True
    props = []
    for m in sorted(blocked - files):
        if ".Props." in m:
            src = open(os.path.join(DST, m.replace(".", "/") + ".lean")).read()
            cs = sorted(set(re.findall(r"^theorem (C\d+)", src, re.M)), key=lambda c: int(c[1:]))
            props.append("%s (%s, through the failed lemma)" % (m.split(".")[-1], "-".join([cs[0], cs[-1]]) if cs else ""))
    open(p, "w").write(s)
    return r.returncode, fails, props, out

def main():
    edits = json.load(open(sys.argv[1])); sync(); surv = []
    with open(LOG, "a") as log:
        for e in edits:
            res = run(e)
            if res is None: continue
            rc, fails, props, out = res
            model_broken = any(x.startswith("Model.") for x in fails)
            print(("SURVIVED" if rc == 0 else "MODELERR" if model_broken else "killed  "), e["edit"], "->", fails[:6], props)
            if rc == 0: surv.append(e["edit"]); continue
            if model_broken: print(out[:1500]); continue
            log.write(json.dumps({"definition": e["definition"], "edit": e["edit"], "claim": e["claim"],
                "failed": fails + props, "tightened": e.get("tightened", [])}, ensure_ascii=False) + "\n"); log.flush()
    subprocess.run(["lake", "build"], cwd=DST, capture_output=True)
    print("survivors:", surv)
main()
