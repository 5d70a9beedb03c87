#!/usr/bin/env python3
"""Tests the theorems against wrong programs.

usage: seed.py seeded/mutants/X.json [--only i,j] [--nolog]

Each entry of the file: {"file", "def", "old", "new", "edit", "breaks"}.  For each one the Lean project is copied outside /verif,
the edit is applied to the model, and the project is rebuilt.  Proofs which no longer go through are replaced by `sorry` in the copy until
everything builds; the theorems of MANIFEST.json which then depend on `sorryAx` are those which failed.
One JSON line per entry is appended to seeded/LOG.jsonl.
"""
import json, os, re, subprocess, sys, shutil

ROOT = os.path.dirname(os.path.dirname(os.path.abspath(__file__)))
SRC = ROOT + "/lean"
DST = os.environ.get("SEED_DST", "/tmp/scratch/lean")
START = re.compile(r"^(private |protected |noncomputable |@\[[^\]]*\] ?)*(theorem|lemma|def|example|instance|structure|inductive|abbrev|namespace|end|open|section|variable|mutual|attribute|set_option|macro|notation|infix\w*|syntax|local|/--|/-!|/-|import|deriving)\b|^/-")
HEAD = re.compile(r"^(private |protected |noncomputable |@\[[^\]]*\] ?)*(theorem|lemma|example|def|instance|abbrev|structure|inductive)\b ?([^\s:(\[{]*)")


def mods():
    """module -> imported modules of the project"""
    res = {}
    for d, _, fs in os.walk(SRC + "/Verif"):
        for f in fs:
            if f.endswith(".lean"):
                p = os.path.join(d, f)
                m = os.path.relpath(p, SRC)[:-5].replace("/", ".")
                res[m] = re.findall(r"^import (Verif\.\S+)", open(p).read(), re.M)
    return res


def dependents(f):
    """the modules that depend on a file"""
    g = mods()
    res = {f[:-5].replace("/", ".")}
    while True:
        new = {m for m in g if m not in res and any(x in res for x in g[m])}
        if not new:
            return sorted(res)
        res |= new


def sync():
    """the copy: sources and build of the whole project, then only what a mutant changed is restored"""
    os.makedirs(os.path.dirname(DST), exist_ok=True)
    if not os.path.exists(DST):
        subprocess.run(["cp", "-a", SRC, DST], check=True)
        return

    def files(root):
        res = {}
        for d, _, fs in os.walk(root):
            for f in fs:
                q = os.path.join(d, f)
                st = os.stat(q)
                res[os.path.relpath(q, root)] = (st.st_mtime_ns, st.st_size)
        return res
    a, b = files(SRC), files(DST)
    for f in b:
        if f not in a:
            os.remove(DST + "/" + f)
    for f in a:
        if a[f] != b.get(f):
            os.makedirs(os.path.dirname(DST + "/" + f), exist_ok=True)
            shutil.copy2(SRC + "/" + f, DST + "/" + f)


def decls(lines):
    """(start, end, kind, name) of declarations"""
    starts = [i for i, l in enumerate(lines) if START.match(l)]
    # lines inside a comment are not starts
    res = []
    i = 0
    incomment = False
    cur = None
    for n, l in enumerate(lines):
        if not incomment and START.match(l):
            if cur is not None:
                res.append((cur, n))
            cur = n
        if not incomment and "/-" in l and "-/" not in l[l.index("/-"):]:
            incomment = True
        elif incomment and "-/" in l:
            incomment = False
    if cur is not None:
        res.append((cur, len(lines)))
    out = []
    for a, b in res:
        m = HEAD.match(lines[a])
        out.append((a, b, m.group(2) if m else None, m.group(3) if m else None))
    return out


def sorry_proof(text):
    """replaces the proof of a theorem or example by sorry"""
    depth = 0
    i = 0
    while i < len(text):
        c = text[i]
        if c in "([{⟨":
            depth += 1
        elif c in ")]}⟩":
            depth -= 1
        elif depth == 0 and text.startswith(":=", i):
            return text[:i] + ":= by sorry\n\n"
        elif depth == 0 and text.startswith("\n  | ", i) and ":=" not in text[:i]:
            return text[:i] + " := by sorry\n\n"
        elif text.startswith("--", i):
            while i < len(text) and text[i] != "\n":
                i += 1
            continue
        i += 1
    return text


def build(targets):
    r = subprocess.run(["lake", "build"] + targets, cwd=DST, capture_output=True, text=True)
    out = r.stdout + r.stderr
    errs = re.findall(r"^error: (?:\./)?(Verif/\S+\.lean):(\d+):(\d+): (.*)$", out, re.M)
    return r.returncode, errs, out


def run(mut, theorems):
    sync()
    p = DST + "/" + mut["file"]
    s = open(p).read()
    if s.count(mut["old"]) != 1:
        return {"error": "pattern found %d times" % s.count(mut["old"])}
    open(p, "w").write(s.replace(mut["old"], mut["new"]))
    failed_decl = []
    sorried = set()
    deps = dependents(mut["file"])
    for it in range(60):
        rc, errs, out = build(deps)
        if rc == 0:
            break
        if not errs:
            return {"error": "build: " + out[-600:]}
        byfile = {}
        for f, l, c, msg in errs:
            byfile.setdefault(f, []).append((int(l), msg))
        for f, ls in byfile.items():
            q = DST + "/" + f
            lines = open(q).read().split("\n")
            ds = decls(lines)
            hit = []
            for a, b, kind, name in ds:
                es = [m for l, m in ls if a < l <= b]
                if es:
                    hit.append((a, b, kind, name, es[0]))
            if not hit:
                return {"error": "no declaration for %s %s" % (f, ls)}
            for a, b, kind, name, msg in sorted(hit, reverse=True):
                key = (f, name or "", lines[a][:80])
                if kind in ("theorem", "lemma", "example"):
                    body = "\n".join(lines[a:b])
                    if key in sorried:
                        new = ""  # even the statement does not elaborate
                    else:
                        sorried.add(key)
                        new = sorry_proof(body)
                        failed_decl.append(name or "example")
                    # a doc comment in front of a removed declaration would be dangling
                    if new == "":
                        k = a - 1
                        if k >= 0 and lines[k].rstrip().endswith("-/"):
                            while k > 0 and not lines[k].startswith("/--"):
                                k -= 1
                            if lines[k].startswith("/--"):
                                lines[k:a] = [""] * (a - k)
                    lines[a:b] = new.split("\n")
                elif kind in ("def", "instance", "abbrev", "structure", "inductive"):
                    if "/Model/" in f and not mut.get("allow"):
                        return {"error": "model does not build: %s %s %s" % (f, name, msg)}
                    if key in sorried:
                        return {"error": "definition does not build: %s %s %s" % (f, name, msg)}
                    sorried.add(key)
                    failed_decl.append(name)
                    return {"error": "definition does not build: %s %s %s" % (f, name, msg)}
                else:
                    return {"error": "error outside declarations %s %s" % (f, msg)}
            open(q, "w").write("\n".join(lines))
    else:
        return {"error": "no fixpoint"}
    # the other theorems cannot depend on the edit
    text = "".join(open(SRC + "/" + m.replace(".", "/") + ".lean").read() for m in deps)
    names = set(re.findall(r"^(?:theorem|lemma) (\S+)", text, re.M))
    theorems = [t for t in theorems if t.split(".")[-1] in names]
    chk = "".join("import %s\n" % m for m in deps) + "".join("#print axioms %s\n" % t for t in theorems)
    open(DST + "/Check.lean", "w").write(chk)
    r = subprocess.run(["lake", "env", "lean", "Check.lean"], cwd=DST, capture_output=True, text=True)
    o = re.sub(r"\n\s+", " ", r.stdout + r.stderr)
    failed = []
    for t in theorems:
        m = re.search(r"'%s' (depends on axioms: \[[^\]]*\]|does not depend on any axioms)" % re.escape(t), o)
        if not m or "sorryAx" in m.group(1):
            failed.append(t)
    return {"failed": failed, "broken_proofs": failed_decl}


def main():
    f = sys.argv[1]
    muts = json.load(open(f))
    only = None
    nolog = "--nolog" in sys.argv
    if "--only" in sys.argv:
        only = set(int(x) for x in sys.argv[sys.argv.index("--only") + 1].split(","))
    man = json.load(open(ROOT + "/MANIFEST.json"))
    byprop = {c["property"]: c["theorems"] for c in man["claims"]}
    theorems = [t for c in man["claims"] for t in c["theorems"]]
    
    for i, m in enumerate(muts):
        if only is not None and i not in only:
            continue
        r = run(m, theorems)
        if "error" in r:
            print(i, "INVALID", m["def"], r["error"]); continue
        props = m["breaks"] if isinstance(m["breaks"], list) else [m["breaks"]]
        want = [t for p in props for t in byprop[p] if not t.endswith("_violated")]
        hit = [t for t in r["failed"] if t in want]
        missed = [p for p in props if not any(t in r["failed"] for t in byprop[p] if not t.endswith("_violated"))]
        print(i, "SURVIVED %s" % missed if missed else "killed", m["def"], "|", m["edit"], "|", " ".join(t.split(".")[-1] for t in r["failed"]))
        sys.stdout.flush()
        if not nolog:
            rec = {"definition": m["def"], "file": m["file"], "edit": m["edit"], "claim_broken": props,
                   "theorems_failed": r["failed"], "theorems_tightened": m.get("tightened", []),
                   "survived": missed}
            open(ROOT + "/seeded/LOG.jsonl", "a").write(json.dumps(rec, ensure_ascii=False) + "\n")


main()
