#!/usr/bin/env python3
"""Rewrite the generated section of DESIGN.md: refuted statements and partial theorems with their doc comments."""
import glob, os, re
root = os.path.dirname(os.path.dirname(os.path.abspath(__file__)))
rows = []
for f in sorted(glob.glob(root + '/lean/Verif/*/*.lean')):
    s = open(f).read()
    for m in re.finditer(r'^(?:private )?theorem (C\d+\w*_(?:false|partial))\b', s, re.M):
        head = s[:m.start()].rstrip()
        doc = ''
        if head.endswith('-/'):
            i = head.rfind('/--')
            doc = ' '.join(head[i + 3:-2].split()).replace('|', '\\|').replace('**', '')
        rows.append((m.group(1), os.path.relpath(f, root + '/lean'), doc))
rows.sort()
def table(suffix):
    out = ['| theorem | file | what it says |', '|---|---|---|']
    out += ['| `%s` | %s | %s |' % r for r in rows if r[0].endswith(suffix)]
    return '\n'.join(out)
text = open(root + '/DESIGN.md').read()
a, b = '<!-- generated: begin -->', '<!-- generated: end -->'
gen = a + '\n\n### Refuted\n\n' + table('_false') + '\n\n### Partial\n\n' + table('_partial') + '\n\n' + b
text = text[:text.index(a)] + gen + text[text.index(b) + len(b):]
open(root + '/DESIGN.md', 'w').write(text)
print(len(rows), 'rows; without a comment:', [r[0] for r in rows if not r[2]])
