#!/usr/bin/env python3
"""Seeds wrong programs into a scratch copy of the Lean sources and records which theorems stop proving.

usage: mutate.py mutations.json [--log]
Each mutation: {"def", "file", "old", "new", "edit", "claim", "tightened"?}

The scratch copy is one file with the edited module and all modules that depend on it, in dependency order, so that a broken lemma does
not hide what depends on it: Lean goes on after an error, and `#print axioms` shows which property theorems rest on something that no
longer proves. All other modules are imported as compiled by `lake build`. What fails in the same file without the edit does not count.
"""
import json, os, pathlib, re, subprocess, sys, threading
from concurrent.futures import ThreadPoolExecutor
root = pathlib.Path(__file__).resolve().parent.parent
scratch = pathlib.Path("/tmp/mut")
# `decide +kernel`, but cheap when it fails: Lean's own evaluates the instance once more for its message, which takes gigabytes on runs of flush().
KDEC = '''open Lean Lean.Elab.Tactic Lean.Meta in
elab "kdec" : tactic => do
  let g ← getMainGoal
  g.withContext do
    let t ← instantiateMVars (← g.getType)
    let inst ← synthInstance (mkApp (mkConst ``Decidable) t)
    let pf := mkApp3 (mkConst ``of_decide_eq_true) t inst (mkApp2 (mkConst ``Eq.refl [1]) (mkConst ``Bool) (mkConst ``true))
    g.assign (mkConst (← mkAuxLemma [] t pf))'''.splitlines()
DECL = re.compile(r"^(?:@\[[^\]]*\]\s*)?(?:private\s+|protected\s+|noncomputable\s+)*(theorem|lemma|def|example|instance|abbrev|structure|inductive)\b\s*(\S*)")


def imports_of(mod):
    p = root / "lean" / (mod.replace(".", "/") + ".lean")
    return [m.group(1) for m in (re.match(r"import (Verif\.\S+)", l) for l in p.read_text().splitlines()) if m]


def order():
    seen, out = set(), []

    def visit(mod):
        if mod in seen:
            return
        seen.add(mod)
        for d in imports_of(mod):
            visit(d)
        out.append(mod)
    visit("Verif.Audit")
    return out


def concat(file, m, k):
    """The text of `file` and its dependents, with the edit `m` if given."""
    imports, body, owner = ["import Lean.Elab.Tactic", "import Lean.Meta.Tactic.AuxLemma"], list(KDEC), [("", 0)] * len(KDEC)
    hit, inside = 0, set()
    for mod in order():
        f = mod.replace(".", "/") + ".lean"
        if f != file and not inside & set(imports_of(mod)):
            imports.append(f"import {mod}")
            continue
        inside.add(mod)
        s = (root / "lean" / f).read_text()
        if m and f == file:
            hit = s.count(m["old"])
            s = s.replace(m["old"], m["new"])
        body.append("section")
        owner.append((f, 0))
        for i, l in enumerate(s.splitlines(), 1):
            if l.startswith("import "):
                if not l.startswith("import Verif") and l not in imports:
                    imports.append(l)
                l = ""
            body.append(l.replace("decide +kernel", "kdec"))
            owner.append((f, i))
        body.append("end")
        owner.append((f, 0))
    p = scratch / f"All{k}.lean"
    p.write_text("\n".join(imports + body) + "\n")
    return hit, p, owner, len(imports)


def check(file, m, k):
    hit, p, owner, off = concat(file, m, k)
    if m and hit != 1:
        return None, f"pattern found {hit} times"
    env = dict(os.environ, LEAN_PATH=str(root / "lean/.lake/build/lib/lean"))
    r = subprocess.run(["lean", p.name], cwd=scratch, capture_output=True, text=True, env=env)
    out = r.stdout + r.stderr
    n_audit = (root / "lean/Verif/Audit.lean").read_text().count("#print axioms")
    if len(re.findall(r"depends on axioms|does not depend on any axioms", out)) < n_audit:
        return None, "lean did not finish: " + out[-300:]
    names, cur = {}, None
    for i, l in enumerate(p.read_text().splitlines(), 1):
        d = DECL.match(l)
        if d:
            f, ln = owner[i - 1 - off]
            cur = d.group(2) if d.group(1) != "example" else f"example {f.split('/')[-1]}:{ln}"
        names[i] = cur
    failed = []
    for l in re.findall(r"^All\w+\.lean:(\d+):\d+: error", out, re.M):
        n = names[int(l)]
        if n not in failed:
            failed.append(n)
    props = [n for n, ax in re.findall(r"'(\S+)' depends on axioms: \[([^\]]*)\]", out) if set(re.findall(r"[^\s,]+", ax)) - {"propext", "Classical.choice", "Quot.sound"}]
    return failed, [x.split("Denorm.")[-1] for x in props]


base, lock = {}, {}


def baseline(file):
    with lock.setdefault(file, threading.Lock()):
        if file not in base:
            base[file] = check(file, None, "B" + re.sub(r"\W", "_", file))
            print("baseline", file, base[file], flush=True)
    return base[file]


def run(m, k=0):
    b = baseline(m["file"])
    res = check(m["file"], m, str(k))
    if res[0] is None or b[0] is None:
        return None, res[1] if res[0] is None else b[1]
    return [x for x in res[0] if x not in b[0]], [x for x in res[1] if x not in b[1]]


if __name__ == "__main__":
    scratch.mkdir(exist_ok=True)
    ms = json.load(open(sys.argv[1]))
    with ThreadPoolExecutor(3) as ex:
        for m, res in zip(ms, ex.map(lambda a: run(a[1], a[0]), enumerate(ms))):
            if res[0] is None:
                print("??", m["def"], res[1], flush=True); continue
            failed, props = res
            print(f"{'SURVIVES' if not failed else 'killed'} {m['def']}: {m['edit']} [{m['claim']}]\n       props {props}\n       first {failed[:8]}", flush=True)
            if "--log" in sys.argv:
                with open(root / "seeded/LOG.jsonl", "a") as f:
                    f.write(json.dumps({"definition": m["def"], "edit": m["edit"], "claim": m["claim"], "theorems_failed": props,
                                        "first_broken": failed[:10], "tightened": m.get("tightened", [])}, ensure_ascii=False) + "\n")
