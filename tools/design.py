#!/usr/bin/env python3
"""Print, for every theorem in MANIFEST.json, the axioms it depends on and the model definitions its statement rests on.

Needs a built tree (`lake build` in /verif/lean). Writes tools/deps.json, used by tools/design_md.py.
"""
import json, os, subprocess, tempfile
root = os.path.dirname(os.path.dirname(os.path.abspath(__file__)))
claims = json.load(open(root + '/MANIFEST.json'))['claims']
names = list(dict.fromkeys(t for c in claims for t in c['theorems']))
src = '''import Verif
import Lean
open Lean Elab Command

/-- constants of the model reached from an expression through definitions -/
partial def reach (env : Environment) (c : Name) (seen : NameSet) : NameSet := Id.run do
  if seen.contains c then return seen
  match env.getModuleIdxFor? c with
  | none => return seen
  | some i =>
    let m := env.header.moduleNames[i.toNat]!
    unless (`Verif).isPrefixOf m do return seen
    let mut seen := seen.insert c
    let some ci := env.find? c | return seen
    let mut cs := ci.type.getUsedConstants
    match ci with
    | .defnInfo d => cs := cs ++ d.value.getUsedConstants
    | _ => pure ()
    for d in cs do seen := reach env d seen
    return seen

elab "#report " ids:ident* : command => do
  let env ← getEnv
  for id in ids do
    let n := id.getId
    let ax ← liftCoreM (collectAxioms n)
    let some ci := env.find? n | throwError "unknown {n}"
    let mut seen : NameSet := {}
    for d in ci.type.getUsedConstants do seen := reach env d seen
    let mut out := #[]
    for c in seen.toList do
      let some i := env.getModuleIdxFor? c | continue
      let m := env.header.moduleNames[i.toNat]!
      if c.isInternal then continue
      match env.find? c with
      | some (.defnInfo _) => if (`Verif.Model).isPrefixOf m then out := out.push s!"{m}:{c}"
      | _ => pure ()
    IO.println s!"R|{n}|{",".intercalate (ax.toList.map toString)}|{",".intercalate out.toList}"

'''
src += '\n'.join('#report ' + n for n in names) + '\n'
with tempfile.NamedTemporaryFile('w', suffix='.lean', delete=False) as f:
    f.write(src)
r = subprocess.run(['lake', 'env', 'lean', f.name], cwd=root + '/lean', capture_output=True, text=True)
out = {}
for l in r.stdout.splitlines():
    if l.startswith('R|'):
        _, n, ax, ds = l.split('|')
        out[n] = {'axioms': sorted(filter(None, ax.split(','))), 'defs': sorted(filter(None, ds.split(',')))}
    else:
        print(l)
print(r.stderr[-2000:])
json.dump(out, open(root + '/tools/deps.json', 'w'), indent=0)
print(len(out), 'of', len(names))
import collections
print(collections.Counter(tuple(v['axioms']) for v in out.values()))
