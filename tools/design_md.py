#!/usr/bin/env python3
"""Write DESIGN.md from tools/design_head.md, tools/how.json, properties.jsonl, MANIFEST.json, the doc comments
of lean/Verif and the output of tools/design.py (tools/deps.json, not committed)."""
import json, os, re, glob, collections
root = os.path.dirname(os.path.dirname(os.path.abspath(__file__)))
props = [json.loads(l) for l in open(root + '/properties.jsonl') if l.strip()]
claims = {c['property']: c for c in json.load(open(root + '/MANIFEST.json'))['claims']}
how = json.load(open(root + '/tools/how.json'))
deps = json.load(open(root + '/tools/deps.json'))
docs = {}
modof = {}
pat = re.compile(r'^namespace (\S+)|^end (\S+)|/--((?:[^-]|-(?!/))*)-/\s*(?:@\[[^\]]*\]\s*)?(?:set_option[^\n]*\n)?(?:open [^\n]*\n)?(?:private |noncomputable |protected )*(theorem|lemma|def|structure|inductive|abbrev|instance) (\S+)', re.M)
model = collections.defaultdict(list)
for f in sorted(glob.glob(root + '/lean/Verif/**/*.lean', recursive=True)):
    ns = []
    mod = os.path.relpath(f, root + '/lean')[:-5]
    for m in pat.finditer(open(f).read()):
        if m.group(1): ns.append(m.group(1))
        elif m.group(2):
            if ns and ns[-1] == m.group(2): ns.pop()
        else:
            n = '.'.join(ns + [m.group(5)])
            docs[n] = ' '.join(m.group(3).split())
            modof[n] = mod
            if '/Model/' in f: model[mod].append((m.group(5), docs[n]))
out = [open(root + '/tools/design_head.md').read().rstrip(), '', '## Properties', '',
       'For each property: how it is modelled and proved, its theorems with their statements in words, and the model functions the statements name.',
       'Statements headed "negation" are proved disagreements between the code and the property; see also the list after this section.', '']
def sentence(d):
    return re.sub(r'\*\*', '', d)
neg = []
for p in props:
    c = claims.get(p['id'])
    out.append(f"### {p['id']} {p['title']}")
    out.append('')
    out.append(how.get(p['id'], '') + (f" Status: {c['status']}." if c else ''))
    out.append('')
    used = collections.OrderedDict()
    for t in c['theorems']:
        out.append(f"* `{t}` ({modof.get(t, '?')}): {sentence(docs.get(t, ''))}")
        if 'negation' in docs.get(t, '').split('**')[1] or 'false of the code' in docs.get(t, ''): neg.append((p, t))
        for d in deps.get(t, {}).get('defs', []): used[d] = 1
    names = [d.split(':')[1].removeprefix('Stingray.') for d in used]
    names = [n for n in names if not re.search(r'\.(rec|casesOn|noConfusion|match_\d+|proj|mk|ctorIdx|toCtorIdx|ndrec)|inst|_proof|\.eq_|Elim', n)]
    if names: out.append('* Model: ' + ', '.join(f'`{n}`' for n in names[:40]) + (', ...' if len(names) > 40 else ''))
    out.append('')
out += ['## Proved disagreements between the code and the properties', '',
        'Each is a theorem that exhibits an input (or all inputs of a kind) for which the modelled code does not do what the property says.', '']
for p, t in neg:
    out.append(f"* {p['id']}, {p['anchors'][0]}: {sentence(docs[t])} (`{t}`)")
out += ['', '## Axioms', '']
cnt = collections.Counter(tuple(v['axioms']) for v in deps.values())
out.append('As reported by `collectAxioms` for each theorem in MANIFEST.json (`tools/design.py`):')
out.append('')
for k, v in cnt.most_common(): out.append(f"* {v} theorems: {', '.join('`'+a+'`' for a in k) or 'none'}")
small = collections.defaultdict(list)
for n, v in deps.items():
    if 'Classical.choice' not in v['axioms']: small[tuple(v['axioms'])].append(n)
out.append('')
out.append('All theorems depend on the three axioms `propext`, `Classical.choice` and `Quot.sound`, except:')
out.append('')
for k, ns in small.items(): out.append(f"* only {', '.join('`'+a+'`' for a in k)}: " + ', '.join('`' + n.removeprefix('Stingray.') + '`' for n in sorted(ns)))
out += ['', '## What is modelled', '', 'One line per definition, with the first citation in its comment; the simplifications are in the comments.', '']
for mod in sorted(model):
    out.append(f'* `{mod}`: ' + ', '.join(f"`{n}`" + (f" ({m.group(1)})" if (m := re.search(r'`?stingray/([\w/]+\.py)`?[,:]?\s*((?:lines? )?[\d][\d,\- ]*\d)?', d)) and not m.group(2) else f" ({m.group(1)} {m.group(2).replace('lines ', '').replace('line ', '')})" if m else '') for n, d in model[mod]))
open(root + '/DESIGN.md', 'w').write('\n'.join(out) + '\n')
print(len(out), 'lines', len(neg), 'negations')
