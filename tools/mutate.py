"""Test the theorems against wrong programs.

usage: mutate.py MUTANTS.json [id ...]

Each mutant is {"id", "file", "definition", "old", "new", "edit", "breaks"}: in a scratch copy of lean/, `old` is replaced by
`new` in `file`, and the project is rebuilt. Proofs that fail are replaced by `sorry` (in the copy) so that everything that
depends on them can be determined with `#print axioms` (failing examples are dropped). One line per mutant is appended to
$OUT (default seeded/RUN.jsonl).
"""
import json, os, re, subprocess, sys

VERIF = os.environ.get("VERIF", "/verif")
SCRATCH = os.environ.get("SCRATCH", "/tmp/mut")
DECL = re.compile(r"^(@\[[^\]]*\]\s*)?(private\s+|protected\s+)?(theorem|lemma|example|def|abbrev|instance|inductive|structure|mutual)\b")
OPEN, CLOSE = "([{⟨", ")]}⟩"


def sh(cmd, cwd=None):
    return subprocess.run(cmd, shell=True, cwd=cwd, stdout=subprocess.PIPE, stderr=subprocess.STDOUT, text=True).stdout


def decl_range(lines, i):
    """start and end (exclusive) of the declaration containing line i"""
    s = i
    while s >= 0 and not DECL.match(lines[s]):
        s -= 1
    e = s + 1
    while e < len(lines):
        l = lines[e]
        if l and not l[0].isspace() and not l.startswith(("termination_by", "decreasing_by")):
            break
        e += 1
    return s, e


def mutual_range(lines, i):
    depth_start = None
    for k in range(len(lines)):
        if lines[k].startswith("mutual"):
            depth_start = k
        if depth_start is not None and re.match(r"^end\s*$", lines[k]):
            if depth_start <= i <= k:
                return depth_start, k + 1
            depth_start = None
    return None


def sorry_decl(text):
    """replace the proof of a theorem/example by sorry"""
    depth = 0
    i = 0
    while i < len(text):
        c = text[i]
        if c in OPEN:
            depth += 1
        elif c in CLOSE:
            depth -= 1
        elif depth == 0:
            if text.startswith(":=", i) and not re.search(r"\blet\s[^\n]*$", text[:i]):
                return text[:i].rstrip() + " := sorry\n"
            if c == "\n" and re.match(r"\n\s+\| ", text[i:]) and not re.search(r"\bmatch\b", text[:i]):
                return text[:i].rstrip() + " := sorry\n"
            if text.startswith("where", i) and re.match(r"where\s*\n", text[i:]) and text[i - 1].isspace():
                return text[:i].rstrip() + " := sorry\n"
        i += 1
    return None


def name_of(text):
    m = re.search(r"(theorem|lemma)\s+(\S+)", text)
    return m.group(2) if m else text.split("\n")[0][:70]


def patch(path, errs):
    """sorry the declarations of path that have errors in lines errs; returns names, or None if a definition fails"""
    lines = open(path).read().split("\n")
    todo = {}
    for ln in errs:
        i = min(ln - 1, len(lines) - 1)
        mr = mutual_range(lines, i)
        if mr:
            k = mr[0] + 1
            while k < mr[1] - 1:
                s, e = decl_range(lines, k)
                if s > mr[0]:
                    todo[s] = e
                    k = max(e, k + 1)
                else:
                    k += 1
            failed = decl_range(lines, i)[0]
        else:
            s, e = decl_range(lines, i)
            todo[s] = e
    names = []
    for s in sorted(todo, reverse=True):
        e = todo[s]
        # keep trailing doc comments: decl ends at e
        text = "\n".join(lines[s:e])
        kind = DECL.match(lines[s]).group(3)
        if kind not in ("theorem", "lemma", "example"):
            if mutual_range(lines, s):
                continue
            return None, [lines[s]]
        if re.search(r":= sorry\s*$", text):
            return None, ["sorry fails: " + lines[s]]
        new = "example : True := trivial\n" if kind == "example" else sorry_decl(text)
        if new is None:
            return None, [lines[s]]
        names.append(name_of(text))
        lines[s:e] = new.split("\n")
    open(path, "w").write("\n".join(lines))
    return names, []


def run(m):
    os.makedirs(SCRATCH, exist_ok=True)
    sh(f"rsync -a --delete {VERIF}/lean/ {SCRATCH}/" if os.path.exists("/usr/bin/rsync") else f"rm -rf {SCRATCH} && cp -a {VERIF}/lean {SCRATCH}")
    edits = m.get("edits") or [{"file": m["file"], "old": m["old"], "new": m["new"]}]
    for ed in edits:
        p = f"{SCRATCH}/Verif/{ed['file']}"
        s = open(p).read()
        if s.count(ed["old"]) != 1:
            return {"id": m["id"], "problem": f"old text occurs {s.count(ed['old'])} times in {ed['file']}"}
        open(p, "w").write(s.replace(ed["old"], ed["new"]))
    failed, note = [], ""
    oom, oomed, aborted = False, set(), []
    for it in range(30):
        out = sh("lake build 2>&1", cwd=SCRATCH)
        errs = {}
        for f, l in re.findall(r"^error: (Verif/\S+\.lean):(\d+):\d+:", out, re.M):
            errs.setdefault(f, set()).add(int(l))
        if not errs and "code 137" in out and not oom:
            # evaluating a concrete case ran out of memory: give up all concrete cases of that file
            for f in re.findall(r"^- (Verif\.\S+)$", out, re.M):
                f = f.replace(".", "/") + ".lean"
                if f in oomed:
                    continue
                oomed.add(f)
                ls = open(f"{SCRATCH}/{f}").read().split("\n")
                ns, errl = None, []
                for k, l in enumerate(ls):
                    mm = re.match(r"namespace (\S+)", l)
                    if mm:
                        ns = mm.group(1)
                    if re.match(r"end (\S+)", l) and l.split()[1] == ns:
                        ns = None
                    if re.match(r"example", l) or re.match(r"theorem \S*_false", l) or (re.match(r"theorem", l) and ns and ns.startswith("Ex")):
                        s0, e0 = decl_range(ls, k)
                        if not re.search(r":= sorry\s*$", "\n".join(ls[s0:e0])):
                            errl.append(k + 1)
                names, b = patch(f"{SCRATCH}/{f}", errl)
                if names is None:
                    note = f"cannot drop concrete cases: {b}"
                    break
                aborted += names
            if note:
                break
            continue
        if not errs:
            if "Build completed successfully" not in out:
                note = "build failed: " + out[-300:]
            break
        bad = None
        for f, ls in errs.items():
            if f == "Verif.lean":
                continue
            names, b = patch(f"{SCRATCH}/{f}", sorted(ls))
            if names is None:
                bad = b
                break
            if not names:
                bad = [f"no progress in {f}"]
                break
            failed += [f"{n}" for n in names]
        if bad:
            note = f"definition no longer elaborates: {bad}"
            open('/tmp/mut_last.log', 'w').write(out)
            break
    claims = json.load(open(f"{VERIF}/tools/claims.json"))
    res = {}
    if not note:
        names = sorted({t for c in claims for t in c["theorems"]})
        src = "import Verif\n" + "".join(f"#print axioms HS.{n}\n" for n in names)
        open(f"{SCRATCH}/Ax.lean", "w").write(src)
        out = sh("lake env lean Ax.lean", cwd=SCRATCH)
        os.remove(f"{SCRATCH}/Ax.lean")
        aborted_c = [n for n in names if n in aborted or n.split(".")[-1] in aborted]
        broken = [n for n in names if n not in aborted_c and re.search(r"'HS\." + re.escape(n) + r"' depends on axioms: \[[^\]]*sorryAx", out)]
    else:
        broken = []
    hit = [n for n in broken if any(n.startswith(b) for b in m["breaks_ids"])]
    return {
        "id": m["id"],
        "definition": m["definition"],
        "edit": m["edit"],
        "claim_broken": m["breaks"],
        "theorems_failed": broken if broken else sorted(set(failed)),
        "caught": bool(hit),
        "caught_by": hit,
        "failed_proofs": sorted(set(failed)),
        "note": note or (("not evaluated (out of memory): " + ", ".join(aborted)) if aborted else ""),
    }


def main():
    muts = json.load(open(sys.argv[1]))
    only = set(sys.argv[2:])
    for m in muts:
        if only and m["id"] not in only:
            continue
        r = run(m)
        out = os.environ.get("OUT", f"{VERIF}/seeded/RUN.jsonl")
        with open(out, "a") as f:
            f.write(json.dumps(r) + "\n")
        print(json.dumps({k: r.get(k) for k in ("id", "caught", "caught_by", "note", "problem")}), flush=True)


main()
