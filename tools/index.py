#!/usr/bin/env python3
"""Writes THEOREMS.md: for each property its statement and, from the comments in lean/Verif/Props, what each theorem says."""
import glob, json, os, re
root = os.path.join(os.path.dirname(os.path.abspath(__file__)), '..')
found = {}
for f in sorted(glob.glob(os.path.join(root, 'lean/Verif/Props/*.lean'))):
    lines = open(f).read().split('\n')
    for i, l in enumerate(lines):
        m = re.match(r'theorem (C\d\d)(\w*)', l)
        if not m:
            continue
        j = i - 1
        while j >= 0 and re.match(r'omit |include |set_option |@\[', lines[j]):
            j -= 1
        doc = ''
        if lines[j].rstrip().endswith('-/'):
            k = j
            while '/--' not in lines[k]:
                k -= 1
            doc = ' '.join(x.strip() for x in lines[k:j + 1]).replace('/--', '').replace('-/', '').strip()
        found.setdefault(m[1], []).append((m[1] + m[2], os.path.basename(f), i + 1, doc))
with open(os.path.join(root, 'THEOREMS.md'), 'w') as out:
    out.write('# Properties and their theorems\n\nGenerated by `tools/index.py` from `properties.jsonl` and the comments in `lean/Verif/Props`. '
              'Each theorem is followed in its file by examples that meet its hypotheses.\n')
    for l in open(os.path.join(root, 'properties.jsonl')):
        p = json.loads(l)
        out.write(f"\n## {p['id']} {p['title']}\n\n{p['statement']}\n\n")
        for name, f, n, doc in found.get(p['id'], []):
            out.write(f"- `{name}` (`Props/{f}:{n}`): {doc}\n")
