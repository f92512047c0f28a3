#!/usr/bin/env python3
"""Run seeded-bug experiments on a scratch copy of the Lean project.

usage: seed.py SCRATCH SEEDS.json [LOG.jsonl]

SCRATCH is a copy of /verif/lean with its build products.  SEEDS.json is a list of
{"file", "definition", "old", "new", "edit", "claim", "expect": [theorem prefixes], "targets": [modules]}.
Each edit is applied to the scratch copy, the project is rebuilt, the theorems with errors are collected and the edit is undone.
With LOG.jsonl one line per experiment is appended to it.
"""
import json, re, subprocess, sys, os

scratch, seeds = sys.argv[1], json.load(open(sys.argv[2]))
log = sys.argv[3] if len(sys.argv) > 3 else None
decl = re.compile(r'^(?:@\[[^\]]*\]\s*)?(?:private |protected )?(theorem|lemma|def|example|instance|abbrev)\s*([\w\.\']*)')

def enclosing(path, line):
    name = None
    for k, l in enumerate(open(path, encoding='utf-8'), 1):
        if k > line: break
        m = decl.match(l)
        if m: name = (m.group(1), m.group(2) or f'line {k}')
    return name

def targets(s):
    # by default only the modules of the area are rebuilt
    area = os.path.dirname(s['file'])
    return s.get('targets') or [area.replace('/', '.') + '.' + f[:-5] for f in sorted(os.listdir(os.path.join(scratch, area))) if f.endswith('.lean')]

for s in seeds:
    path = os.path.join(scratch, s['file'])
    text = open(path, encoding='utf-8').read()
    if text.count(s['old']) != 1:
        print('!! not unique' if s['old'] in text else '!! not found', s['definition'], repr(s['old'])); continue
    open(path, 'w', encoding='utf-8').write(text.replace(s['old'], s['new']))
    try:
        r = subprocess.run(['lake', 'build'] + targets(s), cwd=scratch, capture_output=True, text=True, timeout=1500)
        out = r.stdout + r.stderr
    finally:
        open(path, 'w', encoding='utf-8').write(text)
    failed = []
    for f, l in re.findall(r'error: (Verif/[\w/]+\.lean):(\d+):', out):
        d = enclosing(os.path.join(scratch, f), int(l))
        if d:
            n = d[1] if d[0] in ('theorem', 'lemma') else f'{d[0]} {d[1]}'
            if n not in failed: failed.append(n)
    broken = any(x.startswith('def ') and x.split()[1] == s['definition'].split('.')[-1] for x in failed)
    missed = [e for e in s.get('expect', []) if not any(n.startswith(e) for n in failed)]
    print(('BROKEN MODEL ' if broken else '') + ('OK  ' if failed and not missed else 'MISS'), s['definition'], '|', s['edit'], '|', failed, '| not failing:', missed, flush=True)
    if log and not broken:
        with open(log, 'a', encoding='utf-8') as h:
            h.write(json.dumps({'definition': s['definition'], 'edit': s['edit'], 'claim': s['claim'],
                                'failed': failed, 'tightened': s.get('tightened', [])}, ensure_ascii=False) + '\n')
