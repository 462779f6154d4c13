"""Mutation testing of the theorems, in a scratch copy outside /verif.

usage: mutate.py <mutations.py>   (a file defining M = [(module, definition, old, new, claim), ...])
Each edit is applied alone, the project is rebuilt, the declarations whose proofs fail are collected
and one JSON line per edit is appended to /verif/seeded/LOG.jsonl.
"""
import json, os, re, shutil, subprocess, sys

SRC, DST = "/verif/lean", "/root/mut/lean"
LOG = "/verif/seeded/LOG.jsonl"


def decl_of(path, line):
    name = None
    for i, l in enumerate(open(path), 1):
        if i > line:
            break
        m = re.match(r"^(?:@\[[^\]]*\] )?(?:private |protected )?(theorem|lemma|def|instance|example|inductive|structure)\s*([^\s:({\[]*)", l)
        if m:
            name = m.group(2) or f"example@{os.path.basename(path)}:{i}"
    return name


def build():
    p = subprocess.run(["nice", "lake", "build"], cwd=DST, capture_output=True, text=True)
    failed, mods = [], []
    for l in (p.stdout + p.stderr).splitlines():
        m = re.match(r"error: (Verif/\S+\.lean):(\d+):", l)
        if m:
            n = decl_of(f"{DST}/{m.group(1)}", int(m.group(2)))
            if n not in failed:
                failed.append(n)
    return p.returncode, failed


def main():
    if not os.path.isdir(DST):
        os.makedirs("/root/mut", exist_ok=True)
        shutil.copytree(SRC, DST, symlinks=True)
    # the sources of the last commit
    subprocess.run(f"rm -rf {DST}/Verif {DST}/Verif.lean && git -C /verif archive HEAD lean | tar -x -C {os.path.dirname(DST)}", shell=True, check=True)
    ns = {}
    exec(open(sys.argv[1]).read(), ns)
    done = set()
    if os.path.exists(LOG):
        for l in open(LOG):
            d = json.loads(l)
            done.add((d["definition"], d["edit"]))
    rc, f = build()
    assert rc == 0, f
    for mod, d, old, new, claim in ns["M"]:
        path = f"{DST}/Verif/Model/{mod}.lean"
        orig = open(path).read()
        edit = f"{old.strip()}  =>  {new.strip()}"
        if (d, edit) in done:
            continue
        if orig.count(old) != 1:
            print("BAD", d, orig.count(old), flush=True)
            continue
        open(path, "w").write(orig.replace(old, new))
        rc, failed = build()
        open(path, "w").write(orig)
        print("KILLED" if rc else "SURVIVED", d, claim, failed[:8], flush=True)
        rec = {"definition": d, "edit": edit, "claim": claim, "failed": failed, "tightened": []}
        if rc == 0:
            rec["note"] = "survived"
        with open(LOG, "a") as out:
            out.write(json.dumps(rec, ensure_ascii=False) + "\n")


main()
