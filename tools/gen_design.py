#!/usr/bin/env python3
"""Writes /verif/DESIGN.md from the text below, properties.jsonl, MANIFEST.json, the citations in the model and (if
given as first argument) the output of `#print axioms` for every theorem of the manifest."""
import json, re, sys, os
sys.path.insert(0, os.path.dirname(__file__))
import fnmap

HEAD = open(os.path.join(os.path.dirname(__file__), 'design_head.md')).read()
HOW = {}
for l in open(os.path.join(os.path.dirname(__file__), 'design_how.txt')):
    l = l.strip()
    if l:
        k, v = l.split(' ', 1)
        HOW[k] = v
props = [json.loads(l) for l in open('/verif/properties.jsonl')]
man = {c['property']: c for c in json.load(open('/verif/MANIFEST.json'))['claims']}
out = [HEAD.rstrip(), '']
out += ['## Properties, one by one', '',
        '"proved": the whole English statement. "partial": the English statement is false of the code or of part of',
        'its domain; the manifest note says where, a theorem `…_refuted` proves the negation with a witness, and the',
        'other theorems prove what does hold. No property is partial for lack of a proof.', '',
        '| id | property | status | modelled and proved how | theorems | note |', '|---|---|---|---|---|---|']
missing = []
for p in props:
    c = man[p['id']]
    if p['id'] not in HOW: missing.append(p['id'])
    out.append('| %s | %s | %s | %s | %s | %s |' % (p['id'], p['title'], c['status'], HOW.get(p['id'], ''),
        ', '.join('`%s`' % t.replace('Verif.', '', 1) for t in c['theorems']), c['note'].replace('|', '\\|')))
out += ['', '## Code covered, function by function', '',
        'Generated from the citations in `lean/Verif/Model` (`tools/fnmap.py`); a function without a model definition is',
        'explained in the last column. Trait declarations (signatures without body) are left out.', '',
        '| file | lines | function | model definitions |', '|---|---|---|---|']
WHY = {'get_ptr_slice_mut': 'returns a copy of the inner slice handle (`getPtrSliceMut` for the delay line)',
       'AdditionalF32Ext for f32::sinc': 'forwards to `__sinc_f32`, modelled by `sinc`'}
cs = fnmap.cites()
n = 0
for rel, a, b, name in fnmap.rust_fns():
    if 'bl_rect' in rel or name.startswith('::'): continue
    n += 1
    ds = []
    for (r, x, y, d, f) in cs:
        if rel.endswith(r) and x <= b and y >= a and d != ':' and d not in ds: ds.append(d)
    txt = ', '.join('`%s`' % d for d in ds)
    if not txt:
        txt = WHY.get(name) or WHY.get(name.split('::')[-1]) or (
            'wraps or unwraps the raw pointer; a `MemorySlice` of the model holds the pointer itself' if 'memory/mod' in rel else 'NOT MODELLED')
    out.append('| %s | %d-%d | %s | %s |' % (rel, a, b, name, txt))
out += ['', '%d functions; `src/oscillator/lookup_tables/bl_rect.rs` (a table of 5075 numbers) is `Model/BlRectTable.lean`.' % n]
if len(sys.argv) > 1:
    s = open(sys.argv[1]).read().replace('\n ', ' ')
    groups = {}
    for m in re.finditer(r"'([^']+)' (does not depend on any axioms|depends on axioms: \[([^\]]*)\])", s):
        k = 'none' if 'does not' in m.group(2) else ', '.join(sorted(x.strip() for x in m.group(3).split(',')))
        groups.setdefault(k, []).append(m.group(1).replace('Verif.', '', 1))
    out += ['', '## Axioms of each theorem', '', 'From `#print axioms` on every theorem of the manifest.', '']
    for k in sorted(groups, key=lambda k: len(groups[k])):
        out += ['* **%s** (%d theorems): %s' % (k, len(groups[k]), ', '.join('`%s`' % t for t in groups[k])), '']
open('/verif/DESIGN.md', 'w').write('\n'.join(out) + '\n')
print('missing how:', missing)
