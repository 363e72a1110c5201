#!/usr/bin/env python3
"""Small edits of every definition of the model, made automatically: conditions negated, comparisons and connectives exchanged, numbers
changed by one, parts of a result or of a record update left out.

usage: automutate.py list                       prints the edits
       automutate.py run result.jsonl [k n]     tries every edit (or those with index k mod n) not yet in result.jsonl

Unlike mutate.py a run stops at the first module with a failing proof, so that survivors are found quickly.
"""
import json, os, random, re, subprocess, sys
sys.path.insert(0, os.path.dirname(os.path.abspath(__file__)))
import mutate

PER_DEF = 4

RULES = [
    (r"\bif (?!let )(?!h : )([^\n]*?) then\b", lambda m: "if ¬ (%s) then" % m.group(1), "condition negated"),
    (r" && ", lambda m: " || ", "&& becomes ||"),
    (r" \|\| ", lambda m: " && ", "|| becomes &&"),
    (r" ∧ ", lambda m: " ∨ ", "∧ becomes ∨"),
    (r" ∨ ", lambda m: " ∧ ", "∨ becomes ∧"),
    (r" < ", lambda m: " ≤ ", "< becomes ≤"),
    (r" ≤ ", lambda m: " < ", "≤ becomes <"),
    (r" > ", lambda m: " ≥ ", "> becomes ≥"),
    (r" ≥ ", lambda m: " > ", "≥ becomes >"),
    (r"(?<=[^\w.\"#\[])(\d+)(?=[^\w.\"])", lambda m: str(int(m.group(1)) + 1), "number plus one"),
    (r"\btrue\b", lambda m: "false", "true becomes false"),
    (r"\bfalse\b", lambda m: "true", "false becomes true"),
    (r"\.take\b", lambda m: ".drop", "take becomes drop"),
    (r"\.drop\b", lambda m: ".take", "drop becomes take"),
    (r" \+\+ \[[^\[\]\n]*\]", lambda m: "", "last element left out"),
    (r", (\w+) := [^,{}\n]*(?= \})", lambda m: "", "last field left out"),
    (r"\{ (\w+) with \w+ := [^,{}\n]* \}", lambda m: m.group(1), "update left out"),
    (r"!(?=[\w(])", lambda m: "", "negation left out"),
    (r"\.reverse\b", lambda m: "", "reverse left out"),
    (r"\.isEmpty\b", lambda m: ".isEmpty.not", "isEmpty negated"),
    (r"\.isSome\b", lambda m: ".isNone", "isSome becomes isNone"),
    (r"\.isNone\b", lambda m: ".isSome", "isNone becomes isSome"),
    (r" \+ 1\b", lambda m: "", "plus one left out"),
    (r" - 1\b", lambda m: "", "minus one left out"),
    (r"\.any\b", lambda m: ".all", "any becomes all"),
    (r"\.all\b", lambda m: ".any", "all becomes any"),
    (r"\.dropLast\b", lambda m: ".tail", "dropLast becomes tail"),
    (r"\.head\?", lambda m: ".getLast?", "head becomes last"),
    (r"=> some \(?(\w+)\)?$", lambda m: "=> none", "nothing in place of a result"),
    (r" :: ", lambda m: " :: [] ++ ", None),
]

# a second set, tried at every place (AUTO=2)
RULES2 = RULES + [
    (r"=> some \(.*\)$", lambda m: "=> none", "nothing in place of a result"),
    (r"\"([^\"\\\n]+)\"", lambda m: "\"%sx\"" % m.group(1), "text with one more letter"),
    (r"(?<=[ (])([\w.']+) \+\+ ([\w.']+)(?=[ )\n])", lambda m: "%s ++ %s" % (m.group(2), m.group(1)), "++ in the other order"),
    (r"(?<=with )(\w+) := [^,{}\n]*, ", lambda m: "", "first field left out"),
    (r", (\w+) := [^,{}\n]*(?=,)", lambda m: "", "field left out"),
    (r"(=> )([^\n]+)(\n *\|[^\n]*=> )([^\n]+)$", lambda m: m.group(1) + m.group(4) + m.group(3) + m.group(2), "results of two cases exchanged"),
    (r"(?<=then )([^\n]+?) else ([^\n]+)$", lambda m: "%s else %s" % (m.group(2), m.group(1)), "branches exchanged"),
    (r"(?<=[( ])([\w.']+) :: ([\w.']+)(?=[ )\n])", lambda m: m.group(2), "first element left out"),
    (r"\.1\b", lambda m: ".2", "first becomes second"),
    (r"\.2\b", lambda m: ".1", "second becomes first"),
    (r" \+ ", lambda m: " - ", "plus becomes minus"),
    (r" - ", lambda m: " + ", "minus becomes plus"),
    (r"\.filter \(", lambda m: ".filter (! ", "filter negated"),
    (r"\.filter \(fun (\w+) => ([^()\n]*)\)", lambda m: ".filter (fun %s => !(decide (%s)))" % m.groups(), "filter negated"),
]
if os.environ.get("AUTO") == "2":
    RULES, PER_DEF = RULES2, 1000


def blocks(text):
    """(name, start, end) of every definition, without its comment."""
    out = []
    ns = []
    pos = 0
    starts = []
    for m in re.finditer(r"^(namespace|end|def|abbrev|structure|inductive|theorem|instance|example|/--|/-!|deriving|open|@\[)(?:[ \t]+([^\s:({\[]+))?", text, re.M):
        starts.append((m.start(), m.group(1), m.group(2)))
    for i, (p, kind, name) in enumerate(starts):
        end = starts[i + 1][0] if i + 1 < len(starts) else len(text)
        if kind == "namespace":
            ns.append(name)
        elif kind == "end" and name:
            if ns:
                ns.pop()
        elif kind == "def":
            out.append((".".join(ns + [name]), p, end))
    return out


def edits():
    out = []
    root = mutate.SRC
    for d in ("Model", "Py"):
        for f in sorted(os.listdir(os.path.join(root, "Verif", d))):
            if not f.endswith(".lean"):
                continue
            path = "Verif/%s/%s" % (d, f)
            text = open(os.path.join(root, path)).read()
            for name, a, b in blocks(text):
                body = text[a:b]
                cut = body.find(":=")
                bar = body.find("\n  |")
                cut = min(x for x in (cut, bar, len(body)) if x >= 0)
                cands = []
                for pat, fn, what in RULES:
                    if what is None:
                        continue
                    for m in re.finditer(pat, body, re.M):
                        if m.start() < cut:
                            continue
                        line = body[:m.start()].rfind("\n") + 1
                        if "--" in body[line:m.start()]:
                            continue
                        new = body[:m.start()] + fn(m) + body[m.end():]
                        lineno = text[:a + m.start()].count("\n") + 1
                        cands.append((what, lineno, new, text[a + line:text.find("\n", a + m.start())].strip()))
                rnd = random.Random(name)
                rnd.shuffle(cands)
                seen, pick = set(), []
                for c in cands:
                    if c[0] not in seen or PER_DEF > 4:
                        seen.add(c[0])
                        pick.append(c)
                for c in pick[:PER_DEF]:
                    out.append({"file": path, "definition": name, "old": body, "new": c[2], "edit": "%s: %s" % (c[0], c[3]), "breaks": "automatic"})
    return out


def attempt(mut, imports):
    mutate.copy(mutate.BASE, mutate.DST)
    path = os.path.join(mutate.DST, mut["file"])
    s = open(path).read()
    if s.count(mut["old"]) != 1:
        return "skip", []
    open(path, "w").write(s.replace(mut["old"], mut["new"]))
    own = mut["file"][:-5].replace("/", ".")
    todo = mutate.dependents(imports, own)
    done = set()
    failed, why = mutate.compile_module(own)
    if failed:
        return "invalid", failed
    done.add(own)
    while len(done) < len(todo):
        ready = [m for m in todo - done if not (imports[m] & todo) - done]
        ready.sort(key=lambda m: (0 if ".Proofs." in m or ".Props." in m else 1, m))
        m = ready[0]
        failed, why = mutate.compile_module(m)
        if failed:
            return "killed", failed
        done.add(m)
    return "SURVIVED", []


def main():
    muts = edits()
    if sys.argv[1] == "list":
        for m in muts:
            print(m["definition"], "|", m["edit"])
        print(len(muts))
        return
    out = sys.argv[2]
    k, n = (int(sys.argv[3]), int(sys.argv[4])) if len(sys.argv) > 4 else (0, 1)
    mutate.copy(mutate.SRC, mutate.BASE)
    if subprocess.run(["lake", "build", "Verif"], cwd=mutate.BASE, stdout=subprocess.DEVNULL, stderr=subprocess.DEVNULL).returncode != 0:
        sys.exit("the project does not build")
    mutate.copy(mutate.BASE, mutate.DST)
    path = subprocess.run(["lake", "env", "printenv", "LEAN_PATH"], cwd=mutate.DST, stdout=subprocess.PIPE, text=True).stdout.strip()
    mutate.ENV = dict(os.environ, LEAN_PATH=mutate.DST + "/.lake/build/lib/lean:" + path)
    imports = mutate.modules(mutate.BASE)
    known = set()
    if os.path.exists(out):
        known = {(e["definition"], e["edit"]) for e in map(json.loads, open(out))}
    order = list(range(len(muts)))
    random.Random(1).shuffle(order)
    for i in order:
        m = muts[i]
        if i % n != k or (m["definition"], m["edit"]) in known:
            continue
        status, failed = attempt(m, imports)
        with open(out, "a") as f:
            f.write(json.dumps({"status": status, "definition": m["definition"], "edit": m["edit"], "failed": failed}) + "\n")
        print(status, "|", m["definition"], "|", m["edit"], "|", ", ".join(failed), flush=True)


if __name__ == "__main__":
    main()
