#!/usr/bin/env python3
"""Try wrong programs: apply one edit to a scratch copy of the model, rebuild, report what fails.

usage: seed.py EDITS.json [SCRATCH]
EDITS.json is a list of {"file", "definition", "old", "new", "edit", "breaks"}.  A lemma whose proof
breaks is replaced by sorry so that everything above it is still checked; a property theorem counts as
failed if its own proof breaks or if it now rests on such a lemma.  One line per edit is printed as JSON.
"""
import json, os, pathlib, re, subprocess, sys
SRC = pathlib.Path(os.environ.get('SEED_SRC') or pathlib.Path(__file__).resolve().parent.parent / 'lean')
DST = pathlib.Path(sys.argv[2] if len(sys.argv) > 2 else '/tmp/mut/lean')
DECL = re.compile(r'^(?:private |protected |noncomputable |@\[[^\]]*\] ?)*(theorem|lemma|example|def|abbrev|structure|inductive|instance)\b\s*(\S*)')

def sync():
    subprocess.run(['mkdir', '-p', str(DST)], check=True)
    subprocess.run(['cp', '-r', '--preserve=timestamps', str(SRC) + '/.', str(DST)], check=True)

def decl_at(lines, n):
    i = min(n - 1, len(lines) - 1)
    while i >= 0 and not DECL.match(lines[i]):
        i -= 1
    return i

def sorry(text_lines, i):
    j = i + 1
    while j < len(text_lines) and (text_lines[j] == '' or text_lines[j][0] in ' \t|'):
        j += 1
    body = '\n'.join(text_lines[i:j])
    depth = 0
    k = 0
    cut = None
    while k < len(body):
        c = body[k]
        if c in '([{⟨':
            depth += 1
        elif c in ')]}⟩':
            depth -= 1
        elif depth == 0 and body.startswith(':=', k):
            cut = k
            break
        elif depth == 0 and body.startswith('\n  | ', k):
            cut = k + 1
            break
        k += 1
    if cut is None:
        raise RuntimeError('cannot cut ' + body[:80])
    new = (body[:cut].rstrip() + ' := by sorry\n').split('\n')
    return text_lines[:i] + new + text_lines[j:]

def build():
    p = subprocess.run(['lake', 'build', 'Verif'], cwd=DST, capture_output=True, text=True)
    errs = re.findall(r'error: (Verif/\S+\.lean):(\d+):\d+: ?(.*)', p.stdout + p.stderr)
    return p.returncode, errs, p.stdout + p.stderr

def theorems():
    """Property theorems: short name -> full name."""
    out = {}
    for f in sorted((SRC / 'Verif/Props').glob('*.lean')):
        spaces = []
        for line in f.read_text().split('\n'):
            if m := re.match(r'namespace (\S+)', line):
                spaces.append(m.group(1))
            elif spaces and line == 'end ' + spaces[-1]:
                spaces.pop()
            elif m := re.match(r"theorem (C\d\d+_\w+'?)", line):
                out[m.group(1)] = '.'.join(spaces + [m.group(1)])
    return out

def run(m):
    sync()
    f = DST / 'Verif' / m['file']
    s = f.read_text()
    if s.count(m['old']) != 1:
        return {'definition': m['definition'], 'error': 'old text occurs %d times' % s.count(m['old'])}
    f.write_text(s.replace(m['old'], m['new']))
    broken = []
    for _ in range(12):
        rc, errs, log = build()
        if rc == 0:
            break
        todo = {}
        for name, line, msg in errs:
            p = DST / name
            lines = p.read_text().split('\n')
            i = decl_at(lines, int(line))
            todo.setdefault(name, set()).add(i)
        if not todo:
            return {'definition': m['definition'], 'error': 'build failed', 'log': log[-1500:]}
        for name, idxs in todo.items():
            p = DST / name
            lines = p.read_text().split('\n')
            for i in sorted(idxs, reverse=True):
                kind, ident = DECL.match(lines[i]).groups()
                if kind in ('def', 'abbrev', 'structure', 'inductive', 'instance'):
                    return {'definition': m['definition'], 'error': 'edit breaks definition ' + ident, 'log': log[-1500:]}
                broken.append(ident if kind != 'example' else 'example ' + name)
                lines = sorry(lines, i)
            p.write_text('\n'.join(lines))
    else:
        return {'definition': m['definition'], 'error': 'no convergence', 'broken': broken}
    thms = theorems()
    chk = DST / 'chk.lean'
    chk.write_text('import Verif\n' + ''.join('#print axioms %s\n' % t for t in thms.values()))
    p = subprocess.run(['lake', 'env', 'lean', 'chk.lean'], cwd=DST, capture_output=True, text=True)
    txt = re.sub(r'\n ', ' ', p.stdout)
    unknown = [t for t in thms.values() if "'%s' d" % t not in txt]
    if unknown:
        return {'definition': m['definition'], 'error': 'not found: ' + ' '.join(unknown)}
    failed = [t for t in thms if re.search(r"'%s' depends on axioms: \[[^\]]*sorryAx" % re.escape(thms[t]), txt)]
    return {'definition': m['definition'], 'edit': m['edit'], 'breaks': m['breaks'],
            'theorems_failed': failed, 'own_proof_failed': [b for b in broken if b in thms],
            'lemmas_failed': [b for b in broken if b not in thms], 'theorems_tightened': []}

if __name__ == '__main__':
    for m in json.load(open(sys.argv[1])):
        r = run(m)
        print(json.dumps(r, ensure_ascii=False), flush=True)
