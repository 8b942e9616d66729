#!/usr/bin/env python3
"""Rebuild a scratch copy of the Lean project with an edited model and report which theorems of MANIFEST.json fail.

usage: mutate.py MUTATIONS.json RESULTS.jsonl   (scratch directory: /tmp/mut/work)

Each mutation: {"id", "file", "old", "new", "definition", "edit", "claim", "expect": [property ids]}.
A proof that fails is replaced by `sorry` in the scratch copy and the build goes on; in the end a theorem counts as failed
if it depends on a replaced proof."""
import json, os, re, subprocess, sys, time
root = os.path.dirname(os.path.dirname(os.path.abspath(__file__)))
work = "/tmp/mut/work"
base = os.environ.get("MUT_BASE", root)
DECL = re.compile(r"^(?:@\[[^\]]*\]\s*)?(?:open .* in\s*)?(?:private |protected |noncomputable )*(theorem|lemma|def|instance|example|abbrev|structure|inductive)\b")

def sh(cmd, cwd=None, timeout=4000):
    return subprocess.run(cmd, shell=True, cwd=cwd, capture_output=True, text=True, timeout=timeout)

def blocks(lines):
    """start indices of the top-level items"""
    out = []
    for i, l in enumerate(lines):
        if l and not l[0].isspace() and l[0] not in ")]}|⟩":
            out.append(i)
    return out

def find_decl(lines, n):
    """(start, end) of the declaration that contains line n (0-based)"""
    st = blocks(lines)
    k = max([i for i in st if i <= n], default=0)
    while k > 0 and not DECL.match(lines[k]):
        # inside a doc comment or `open ... in` header
        nxt = [i for i in st if i > k]
        if nxt and DECL.match(lines[nxt[0]]) and n >= k and not lines[k].startswith("end"):
            k = nxt[0]
            break
        prev = [i for i in st if i < k]
        if not prev:
            break
        k = prev[-1]
    end = min([i for i in st if i > k], default=len(lines))
    while end > k + 1 and lines[end - 1].strip() == "":
        end -= 1
    return k, end

def split_proof(text):
    """position of the `:=` that starts the proof"""
    depth = 0
    cands = []
    i = 0
    while i < len(text):
        c = text[i]
        if c in "([{⟨":
            depth += 1
        elif c in ")]}⟩":
            depth -= 1
        elif text.startswith(":=", i) and depth == 0:
            line = text[text.rfind("\n", 0, i) + 1:i]
            if not re.search(r"\b(let|have)\b[^;]*$", line):
                return i
            cands.append(i)
        i += 1
    return cands[0] if cands else None

def patch(path, errs):
    lines = open(path).read().split("\n")
    done = set()
    todo = []
    for n in errs:
        k, e = find_decl(lines, n - 1)
        if k in done:
            continue
        done.add(k)
        todo.append((k, e))
    names = []
    for k, e in sorted(todo, reverse=True):
        text = "\n".join(lines[k:e])
        m = DECL.match(lines[k])
        kind = m.group(1) if m else "?"
        nm = re.search(r"(?:theorem|lemma|def|instance)\s+(\S+)", text)
        names.append((kind, nm.group(1) if nm else "", k + 1))
        if kind == "example":
            new = "-- removed example"
        else:
            p = split_proof(text)
            if p is None or text[p:].strip() in (":= sorry", ":= by sorry"):
                new = "-- removed " + (nm.group(1) if nm else "")
                # remove also the doc comment
                j = k
                if j > 0 and lines[j - 1].rstrip().endswith("-/"):
                    while not lines[j - 1].startswith("/--"):
                        j -= 1
                    lines[j - 1:k] = ["-- " + x.replace("-/", "").replace("/-", "") for x in lines[j - 1:k]]
            else:
                new = text[:p] + ":= sorry"
        if kind == "example":
            j = k
            if j > 0 and lines[j - 1].rstrip().endswith("-/"):
                while not lines[j - 1].startswith("/--"):
                    j -= 1
                lines[j - 1:k] = ["-- " + x.replace("-/", "").replace("/-", "") for x in lines[j - 1:k]]
        lines[k:e] = new.split("\n")
    open(path, "w").write("\n".join(lines))
    return names

def run(m):
    t0 = time.time()
    sh(f"rm -rf {work} && mkdir -p /tmp/mut && cp -a {base}/lean {work}")
    edits = m.get("edits") or [{"file": m["file"], "old": m["old"], "new": m["new"]}]
    for ed in edits:
        p = f"{work}/Verif/{ed['file']}"
        s = open(p).read()
        if s.count(ed["old"]) < 1:
            return {"id": m["id"], "error": "pattern not found: " + ed["old"]}
        if s.count(ed["old"]) > 1 and not ed.get("all"):
            return {"id": m["id"], "error": "pattern not unique: " + ed["old"]}
        open(p, "w").write(s.replace(ed["old"], ed["new"]))
    failed = []
    for it in range(40):
        r = sh("lake build", cwd=work)
        out = r.stdout + r.stderr
        if r.returncode == 0:
            break
        errs = {}
        for f, n in re.findall(r"error: (Verif/\S+\.lean):(\d+):\d+", out):
            errs.setdefault(f, set()).add(int(n))
        if not errs:
            return {"id": m["id"], "error": "no errors parsed: " + out[-600:]}
        for f, ns in errs.items():
            failed += [(f, *x) for x in patch(f"{work}/{f}", sorted(ns))]
    else:
        return {"id": m["id"], "error": "too many iterations", "failed": failed[-20:]}
    man = json.load(open(base + "/MANIFEST.json"))
    thms = [t for c in man["claims"] for t in c["theorems"]]
    open(f"{work}/ax.lean", "w").write("import Verif\n" + "\n".join("#print axioms " + t for t in thms))
    out = sh("lake env lean ax.lean", cwd=work)
    txt = (out.stdout + out.stderr)
    bad = set()
    for blk in re.split(r"\n(?=\S*'|ax\.lean)", txt):
        mm = re.search(r"'([^']+)' depends on axioms: (.*)", blk, re.S)
        if mm and "sorryAx" in mm.group(2):
            bad.add(mm.group(1))
        mm = re.search(r"Unknown constant `([^`]+)`", blk)
        if mm:
            bad.add(mm.group(1))
    okk = set(re.findall(r"'([^']+)' (?:depends on|does not depend)", txt))
    for t in thms:
        if t not in okk:
            bad.add(t)
    res = {"id": m["id"], "failed": sorted(t.split(".")[-1] for t in bad),
           "survivors": {p: [t.split(".")[-1] for c in man["claims"] if c["property"] == p for t in c["theorems"] if t not in bad]
                         for p in m["expect"]},
           "broken_props": sorted({t.split(".")[-1][:3] for t in bad}), "iterations": it + 1,
           "examples_failed": [x for x in failed if x[1] == "example"], "direct": [x[2] for x in failed if x[1] != "example"],
           "wall": round(time.time() - t0)}
    return res

if __name__ == "__main__":
    muts = json.load(open(sys.argv[1]))
    have = set()
    if os.path.exists(sys.argv[2]):
        have = {json.loads(l)["id"] for l in open(sys.argv[2])}
    for m in muts:
        if m["id"] in have:
            continue
        try:
            r = run(m)
        except Exception as ex:
            r = {"id": m["id"], "error": repr(ex)}
        with open(sys.argv[2], "a") as f:
            f.write(json.dumps(r, ensure_ascii=False) + "\n")
        print(json.dumps(r, ensure_ascii=False)[:600], flush=True)
