#!/usr/bin/env python3
"""Apply each mutation of a JSON file to a scratch copy of lean/, recompile everything that depends on it, and log what
stops proving.

usage: mutate.py mutations.json          (a list of {file, old, new, definition, edit, breaks}; appends to the log)
       mutate.py --again mutations.json  (adds the field "again" to the entries of the log with the same definition and edit)

Unlike lake, which stops at the first module with an error, the compilation goes on with the failed proofs taken for granted
(deep.txt, a Lean program), so that the log shows
  theorems_failed      every theorem or concrete case whose own proof fails, helper lemmas included;
  claims_unproved      the theorems of MANIFEST.json that fail or rest on a proof that fails;
  property_level       those of theorems_failed that are in Props, that is, property theorems and concrete cases beside them.
"""
import concurrent.futures, json, os, re, subprocess, sys, threading, time

SRC = "/verif/lean"
DST = os.environ.get("MUT_DIR", "/tmp/mut") + "/lean"
BASE = os.environ.get("MUT_DIR", "/tmp/mut") + "/base"
LOG = "/verif/seeded/LOG.jsonl"
DEEP = os.path.join(os.path.dirname(os.path.abspath(__file__)), "deep.txt")
MEM = 5000  # megabytes


def copy(src, dst):
    subprocess.check_call("mkdir -p %s && rsync -a --delete %s/ %s/ 2>/dev/null || (rm -rf %s && mkdir -p %s && cp -a %s/. %s)"
                          % (dst, src, dst, dst, dst, src, dst), shell=True)


def modules(root):
    imports = {}
    for d, _, files in os.walk(os.path.join(root, "Verif")):
        for f in files:
            if f.endswith(".lean"):
                p = os.path.relpath(os.path.join(d, f), root)
                imports[p[:-5].replace("/", ".")] = set(re.findall(r"^import (Verif[\w.]*)", open(os.path.join(root, p)).read(), re.M))
    return imports


def dependents(imports, mod):
    out = {mod}
    while True:
        more = {m for m, i in imports.items() if m not in out and i & out}
        if not more:
            return out
        out |= more


def enclosing(path, line):
    name = "?"
    for i, text in enumerate(open(os.path.join(DST, path)), 1):
        if i > line:
            break
        m = re.match(r"(?:private )?(?:theorem|example|def|instance|lemma)\s*([^\s:({\[]*)", text)
        if m:
            name = m.group(1) or "example@%d" % i
    return name


ENV = None


def watch(p):
    """Kill a process that takes too much memory or time."""
    end = time.time() + 1500
    while p.poll() is None:
        try:
            m = re.search(r"VmRSS:\s*(\d+) kB", open("/proc/%d/status" % p.pid).read())
        except OSError:
            m = None
        if time.time() > end or (m and int(m.group(1)) > MEM * 1000):
            p.kill()
        time.sleep(0.5)


def lean(*args):
    p = subprocess.Popen(["lean", "--run", DEEP] + list(args), cwd=DST, env=ENV, stdout=subprocess.PIPE, stderr=subprocess.STDOUT, text=True)
    t = threading.Thread(target=watch, args=(p,))
    t.start()
    out = p.communicate()[0]
    t.join()
    return subprocess.CompletedProcess(p.args, p.returncode, out)


def compile_module(mod):
    path = mod.replace(".", "/") + ".lean"
    out = ".lake/build/lib/lean/" + mod.replace(".", "/") + ".olean"
    failed = []
    p = lean("c", path, mod, out)
    if p.returncode != 0:
        # a concrete evaluation that is now false ran out of memory while its error was explained: leave those out
        failed.append(path[6:-5] + ":concrete cases")
        full = os.path.join(DST, path)
        text = open(full).read()
        text = "\n\n".join(b for b in text.split("\n\n") if not b.rstrip().endswith("decide +kernel"))
        open(full, "w").write(text)
        p = lean("c", path, mod, out)
        if p.returncode != 0:
            return failed + [path[6:-5] + ":whole module"], p.stdout[-600:]
    for m in re.finditer(r"^ERR (\d+) ", p.stdout, re.M):
        nm = path[6:-5] + ":" + enclosing(path, int(m.group(1)))
        if nm not in failed:
            failed.append(nm)
    return failed, ""


def run(mut, imports, claims):
    copy(BASE, DST)
    path = os.path.join(DST, mut["file"])
    s = open(path).read()
    n = s.count(mut["old"])
    if n != 1:
        print("SKIP (%d matches): %s" % (n, mut["edit"]), flush=True)
        return None
    open(path, "w").write(s.replace(mut["old"], mut["new"]))
    todo = dependents(imports, mut["file"][:-5].replace("/", "."))
    props = [m for m in sorted(todo) if m.startswith("Verif.Props.")]
    done, failed, running = set(), [], {}
    with concurrent.futures.ThreadPoolExecutor(2) as ex:
        while len(done) < len(todo):
            for m in sorted(todo - done - set(running.values())):
                if not (imports[m] & todo) - done:
                    running[ex.submit(compile_module, m)] = m
            for f in concurrent.futures.wait(running, return_when=concurrent.futures.FIRST_COMPLETED)[0]:
                m = running.pop(f)
                fails, why = f.result()
                if why:
                    print(why)
                failed += fails
                done.add(m)
    own = mut["file"][6:-5] + ":"
    if any(x.startswith(own) for x in failed):
        print("INVALID (does not compile):", mut["edit"], flush=True)
        return None
    bad = []
    if failed and props:
        p = lean("a", ",".join(props), *claims)
        known = set(re.findall(r"^SORRY (.*)$", p.stdout, re.M))
        bad = [c for c in claims if c in known]
    level = [x for x in failed if x.startswith("Props/")]
    print("killed" if failed else "SURVIVED", "|", mut["definition"], "|", mut["edit"], "|", ", ".join(failed), "| claims:", ", ".join(bad), flush=True)
    return failed, bad, level


def main():
    global ENV
    args = sys.argv[1:]
    again = args[0] == "--again"
    if again:
        args = args[1:]
    copy(SRC, BASE)
    if subprocess.run(["lake", "build", "Verif"], cwd=BASE, stdout=subprocess.DEVNULL, stderr=subprocess.DEVNULL).returncode != 0:
        sys.exit("the project does not build")
    copy(BASE, DST)
    path = subprocess.run(["lake", "env", "printenv", "LEAN_PATH"], cwd=DST, stdout=subprocess.PIPE, text=True).stdout.strip()
    ENV = dict(os.environ, LEAN_PATH=DST + "/.lake/build/lib/lean:" + path)
    imports = modules(BASE)
    claims = [t for c in json.load(open("/verif/MANIFEST.json"))["claims"] for t in c["theorems"]]
    for mut in json.load(open(args[0])):
        if again:
            log = [json.loads(x) for x in open(LOG)]
            mine = [e for e in log if e["definition"] == mut["definition"] and e["edit"] == mut["edit"]]
            if not mine or "again" in mine[-1]:
                continue
        r = run(mut, imports, claims)
        if r is None:
            continue
        failed, bad, level = r
        if again:
            log = [json.loads(x) for x in open(LOG)]
            mine = [e for e in log if e["definition"] == mut["definition"] and e["edit"] == mut["edit"]]
            mine[-1]["again"] = {"theorems_failed": failed, "claims_unproved": bad, "property_level": level}
            open(LOG, "w").write("".join(json.dumps(e) + "\n" for e in log))
        else:
            entry = {"definition": mut["definition"], "edit": mut["edit"], "breaks": mut["breaks"],
                     "theorems_failed": failed, "claims_unproved": bad, "property_level": level,
                     "theorems_tightened": mut.get("tightened", [])}
            if not failed:
                entry["note"] = mut.get("note", "survived")
            open(LOG, "a").write(json.dumps(entry) + "\n")


if __name__ == "__main__":
    main()
