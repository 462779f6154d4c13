"""Mutation testing with early stop: like mutate.py, but a build is ended a few seconds after the first
failing proof, and the property modules that mention the edited definition are built first.

usage: mutate_fast.py <mutations.py>
The list of failed theorems in the log is then the beginning of the list.
"""
import json, os, re, shutil, signal, subprocess, sys, time, glob

SRC, DST = "/verif/lean", "/root/mut/lean"
LOG = "/verif/seeded/LOG.jsonl"
GRACE = 15


def decl_of(path, line):
    name = None
    for i, l in enumerate(open(path), 1):
        if i > line:
            break
        m = re.match(r"^(?:@\[[^\]]*\] )?(?:private |protected )?(theorem|lemma|def|instance|example|inductive|structure)\s*([^\s:({\[]*)", l)
        if m:
            name = m.group(2) or f"example@{os.path.basename(path)}:{i}"
    return name


def build(target=None):
    """(ok, failed declarations, failure inside the model)"""
    p = subprocess.Popen(["nice", "lake", "build"] + ([target] if target else []), cwd=DST, stdout=subprocess.PIPE,
                         stderr=subprocess.STDOUT, start_new_session=True)
    failed, inmodel, stop = [], False, None
    os.set_blocking(p.stdout.fileno(), False)
    buf = ""
    while True:
        chunk = (p.stdout.read() or b"").decode("utf-8", "replace")
        buf += chunk
        *lines, buf = buf.split("\n")
        for l in lines:
            m = re.match(r"error: (Verif/\S+\.lean):(\d+):", l)
            if m:
                if m.group(1).startswith("Verif/Model/"):
                    inmodel = True
                n = decl_of(f"{DST}/{m.group(1)}", int(m.group(2)))
                if n not in failed:
                    failed.append(n)
                if stop is None:
                    stop = time.time() + GRACE
        if p.poll() is not None and not chunk:
            return p.returncode == 0, failed, inmodel
        if stop and (inmodel or time.time() > stop):
            try:
                os.killpg(p.pid, signal.SIGKILL)
            except ProcessLookupError:
                pass
            p.wait()
            return False, failed, inmodel
        time.sleep(0.3)


def first_targets(name):
    last = name.split(".")[-1]
    counts = []
    for f in glob.glob(f"{DST}/Verif/Props/*.lean"):
        n = len(re.findall(r"\b" + re.escape(last) + r"\b", open(f).read()))
        if n:
            counts.append((n, "Verif.Props." + os.path.basename(f)[:-5]))
    return [m for _, m in sorted(counts, reverse=True)[:3]]


def titles(failed):
    t = {}
    for l in open("/verif/properties.jsonl"):
        d = json.loads(l)
        t[d["id"]] = d["title"]
    ids = []
    for f in failed:
        m = re.match(r"(C\d+)_", f or "")
        if m and m.group(1) not in ids:
            ids.append(m.group(1))
    return "; ".join(f"{i} {t.get(i, '')}" for i in ids)


def main():
    subprocess.run(f"rm -rf {DST}/Verif {DST}/Verif.lean && git -C /verif archive HEAD lean | tar -x -C {os.path.dirname(DST)}", shell=True, check=True)
    ns = {}
    exec(open(sys.argv[1]).read(), ns)
    done = set()
    for l in open(LOG):
        d = json.loads(l)
        done.add((d["definition"], d["edit"]))
    for e in ns["M"]:
        mod, d, old, new, claim = e[:5]
        path = f"{DST}/Verif/Model/{mod}.lean"
        orig = open(path).read()
        edit = f"{old.strip()}  =>  {new.strip()}"
        if (d, edit) in done:
            continue
        if orig.count(old) != 1:
            print("BAD", d, orig.count(old), flush=True)
            continue
        t0 = time.time()
        open(path, "w").write(orig.replace(old, new))
        ok, failed, inmodel = True, [], False
        for t in first_targets(d) + [None]:
            ok, failed, inmodel = build(t)
            if not ok:
                break
        open(path, "w").write(orig)
        dt = int(time.time() - t0)
        if inmodel:
            print("INVALID", d, edit, failed[:3], dt, flush=True)
            continue
        if not ok and not failed:
            print("NOINFO", d, edit, dt, flush=True)
            continue
        print("SURVIVED" if ok else "KILLED", d, edit if ok else "", failed[:8], dt, flush=True)
        rec = {"definition": d, "edit": edit, "claim": claim or titles(failed), "failed": failed, "tightened": []}
        if ok:
            rec["note"] = "survived"
        with open(LOG, "a") as out:
            out.write(json.dumps(rec, ensure_ascii=False) + "\n")


main()
