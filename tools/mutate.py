#!/usr/bin/env python3
"""Seeds bugs into a scratch copy of the model and logs which theorems fail.
failed_first: the declarations the compiler rejected (a build stops at the first bad module).
theorems_failed: the property theorems whose proof terms depend on one of those.
stdin: JSON array of {file, old, new, claim, target?}; file relative to lean/Verif. Appends to seeded/LOG.jsonl (unless --dry)."""
import sys, json, os, re, glob, shutil, subprocess
ROOT = os.path.dirname(os.path.dirname(os.path.abspath(__file__)))
SCR = "/tmp/mut/lean"
dry = "--dry" in sys.argv
def decls(txt):
    out = []
    for i, l in enumerate(txt.split("\n"), 1):
        m = re.match(r"(?:@\[[^\]]*\]\s*)?(?:private |protected |noncomputable )*(theorem|def|lemma|structure|inductive|instance|example|abbrev)\b\s*(\S*)", l)
        if m: out.append((i, m.group(1), m.group(2)))
    return out
def enclosing(txt, line):
    r = None
    for i, k, n in decls(txt):
        if i <= line: r = (k, n)
    return r
DEPS = r"""
import Verif
open Lean
partial def reach (env : Environment) (n : Name) (seen : NameSet) : NameSet :=
  if seen.contains n then seen else
  if n.getRoot != `Np then seen else
  match env.find? n with
  | none => seen
  | some ci =>
    let seen := seen.insert n
    let us := ci.type.getUsedConstants ++ (match ci.value? (allowOpaque := true) with | some v => v.getUsedConstants | none => #[])
    us.foldl (fun s u => reach env u s) seen
#eval show CoreM Unit from do
  let env ← getEnv
  for (n, ci) in env.constants.map₁.toList do
    if n.getRoot == `Np && ci.isThm then
      let s := n.getString!
      if s.startsWith "C" && ((s.drop 1).take 2).all Char.isDigit then
        IO.println s!"{n} {" ".intercalate ((reach env n {}).toList.map toString)}"
"""
def closure():
    """property theorem -> every constant of the unedited development its kernel term depends on"""
    open("/tmp/Deps.lean", "w").write(DEPS)
    r = subprocess.run(["lake", "env", "lean", "/tmp/Deps.lean"], cwd=ROOT + "/lean", capture_output=True, text=True)
    return {l.split()[0]: set(l.split()[1:]) for l in r.stdout.split("\n") if l.startswith("Np.")}
def affected(deps, names, area):
    """property theorems that depend on a declaration that failed to compile"""
    every = set().union(*deps.values())
    hit = set()
    for n in names:
        c = [x for x in every if x.removesuffix("._f").endswith("." + n)]  # ._f: a member of a mutual block
        own = [x for x in c if x.startswith(f"Np.{area}.")]
        hit |= set(own or c)
    return sorted(t.split(".")[-1] for t, d in deps.items() if d & hit)
if __name__ == "__main__":
  graph = closure()
  for m in json.load(sys.stdin):
      shutil.rmtree(SCR, ignore_errors=True); shutil.copytree(ROOT + "/lean", SCR, symlinks=True)
      p = f"{SCR}/Verif/{m['file']}"
      s = open(p).read()
      if s.count(m["old"]) < 1: print("NOT FOUND", m["old"][:60]); continue
      if s.count(m["old"]) > 1 and not m.get("first"): print("AMBIGUOUS", s.count(m["old"]), m["old"][:60]); continue
      i = s.index(m["old"])
      d = enclosing(s, s[:i].count("\n") + 1 + (m["old"].startswith("\n")))
      open(p, "w").write(s[:i] + m["new"] + s[i + len(m["old"]):])
      area = m["file"].split("/")[0]
      r = subprocess.run(["lake", "build", m.get("target", f"Verif.{area}.Props")], cwd=SCR, capture_output=True, text=True, timeout=1800)
      failed = []
      for e in re.finditer(r"^error: (\S+?\.lean):(\d+):\d+:", r.stdout + r.stderr, flags=re.M):
          t = open(f"{SCR}/{e.group(1)}").read()
          k = enclosing(t, int(e.group(2)))
          nm = k and (k[0] if k[0] in ("example", "instance") else k[1])
          if nm and nm not in failed: failed.append(nm)
      cs = affected(graph, failed, area)
      ok = r.returncode == 0
      print(("SURVIVED " if ok else "killed   ") + m["file"], d, "|", m["claim"], "|", failed[:6], cs[:8])
      if not dry and not ok or "--force" in sys.argv:
          with open(ROOT + "/seeded/LOG.jsonl", "a") as f:
              f.write(json.dumps({"definition": f"{d[1]} ({m['file']})", "edit": m.get("desc") or f"{m['old'].strip()}  ==>  {m['new'].strip()}",
                "claim_broken": m["claim"], "failed_first": failed[:8], "theorems_failed": cs, "tightened": m.get("tightened", [])}, ensure_ascii=False) + "\n")
