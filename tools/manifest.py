#!/usr/bin/env python3
"""Regenerate MANIFEST.json and lean/Verif.lean from the doc comments of lean/Verif/Props.

Every theorem whose doc comment starts with **Cnn** is listed under that property.  A property is
`partial` when one of its theorems ends in `_partial` or states a **(negation)**, else `proved`.
Notes are in tools/notes.json.
"""
import json, re, os, glob
root = os.path.dirname(os.path.dirname(os.path.abspath(__file__)))
notes = json.load(open(os.path.join(root, 'tools', 'notes.json')))
claims = {}
negated = {}
for f in sorted(glob.glob(root + '/lean/Verif/Props/*.lean')):
    src = open(f).read()
    ns = []
    pos = 0
    for m in re.finditer(r'^namespace (\S+)|^end (\S+)|/--((?:.|\n)*?)-/\s*(?:@\[[^\]]*\]\s*)?(?:set_option[^\n]*\n)?(?:theorem|lemma) (\S+)', src, re.M):
        if m.group(1): ns.append(m.group(1))
        elif m.group(2):
            if ns and ns[-1] == m.group(2): ns.pop()
        else:
            doc = m.group(3)
            for c in dict.fromkeys(re.findall(r'\*\*[^*]*?(C\d\d+)[^*]*\*\*', doc) + re.findall(r'(C\d\d+)', ' '.join(re.findall(r'\*\*([^*]*)\*\*', doc)))):
                claims.setdefault(c, []).append('.'.join(ns + [m.group(4)]))
                if any('negation' in h and c in h for h in re.findall(r'\*\*([^*]*)\*\*', doc)):
                    negated.setdefault(c, []).append(m.group(4))
props = [json.loads(l) for l in open(root + '/properties.jsonl') if l.strip()]
out = []
for p in props:
    c = p['id']
    th = list(dict.fromkeys(claims.get(c, [])))
    n = notes.get(c, {})
    if not th:
        if n.get('status') == 'not_applicable':
            out.append({'property': c, 'status': 'not_applicable', 'theorems': [], 'note': n.get('note', '')})
        continue
    part = any(t.endswith('_partial') for t in th) or n.get('status') == 'partial'
    if n.get('status') == 'proved': part = False
    note = n.get('note', '')
    if c in negated:
        # the code violates the full statement somewhere: never reported as proved
        part = True
        neg = dict.fromkeys(negated[c])
        only = all(t.split('.')[-1] in neg for t in th)
        note = ((note + ' ') if note else '') + ('The property is false of the code; only its negation is proved: ' if only else
            'The full property is false of the code, with proved witnesses: ') + ', '.join(neg) + '.'
    out.append({'property': c, 'status': 'partial' if part else 'proved', 'theorems': th, 'note': note})
json.dump({'claims': out}, open(root + '/MANIFEST.json', 'w'), indent=1, ensure_ascii=False)
open(root + '/MANIFEST.json', 'a').write('\n')
mods = sorted(glob.glob(root + '/lean/Verif/**/*.lean', recursive=True))
open(root + '/lean/Verif.lean', 'w').write(''.join('import ' + os.path.relpath(m, root + '/lean')[:-5].replace('/', '.') + '\n' for m in mods))
ids = [p['id'] for p in props]
print('proved', sum(o['status'] == 'proved' for o in out), 'partial', sum(o['status'] == 'partial' for o in out), 'missing', [i for i in ids if i not in {o['property'] for o in out}])
unk = [c for c in claims if c not in ids]
if unk: print('UNKNOWN', unk)
