#!/usr/bin/env python3
"""Regenerates the sections 4 to 6 of DESIGN.md from the Lean sources (run after `lake build`)."""
import collections, glob, json, os, re, subprocess, tempfile

ROOT = os.path.dirname(os.path.dirname(os.path.abspath(__file__)))
LEAN = os.path.join(ROOT, 'lean')
REPO = '/repo/ecore'
MARK = '<!-- generated by tools/design.py -->'


def ranges(s):
    return [tuple(int(x) for x in r.split('-')) for r in re.findall(r'\d+(?:-\d+)?', s)]


def cites():
    d = collections.defaultdict(lambda: collections.defaultdict(list))
    for p in sorted(glob.glob(LEAN + '/Verif/Model/*.lean')):
        t = open(p).read()
        for m in re.finditer(r'(?<![A-Za-z])([a-z_A-Z]+\.go)(?:[: ]\n?((?:\d+(?:-\d+)?(?:, |,| and )?)*))?', t):
            f, r = m.group(1), m.group(2) or ''
            if not os.path.exists(REPO + '/' + f): continue
            d[f][os.path.basename(p)[:-5]] += ranges(r)
    return d


def violated():
    out = []
    for p in sorted(glob.glob(LEAN + '/Verif/Props/*.lean')):
        t = open(p).read()
        for m in re.finditer(r'/--((?:(?!-/).)*)-/\s*theorem (C\d+_\w+_violated)\b', t, re.S):
            out.append((m.group(2), ' '.join(m.group(1).split())))
    return sorted(out)


def theorems():
    out = []
    for p in sorted(glob.glob(LEAN + '/Verif/Props/*.lean')):
        ns, stack = None, []
        for line in open(p):
            m = re.match(r'namespace (\S+)', line)
            if m: stack.append(m.group(1)); ns = '.'.join(stack)
            m = re.match(r'end (\S+)', line)
            if m and stack and stack[-1] == m.group(1): stack.pop(); ns = '.'.join(stack)
            m = re.match(r'theorem (C\d+_\w+)', line)
            if m: out.append(ns + '.' + m.group(1))
    return sorted(out, key=lambda x: x.split('.')[-1])


def axioms(ths):
    with tempfile.NamedTemporaryFile('w', suffix='.lean', delete=False) as f:
        f.write('import Verif\n' + ''.join('#print axioms %s\n' % t for t in ths))
    r = subprocess.run(['lake', 'env', 'lean', f.name], cwd=LEAN, capture_output=True, text=True)
    os.unlink(f.name)
    d = collections.defaultdict(list)
    out = re.sub(r'\n\s+', ' ', r.stdout)
    for m in re.finditer(r"'([^']+)' (does not depend on any axioms|depends on axioms: \[([^\]]*)\])", out):
        ax = ', '.join(sorted(m.group(3).split(', '))) if m.group(3) else 'none'
        d[ax].append(m.group(1).split('.')[-1])
    assert sum(len(v) for v in d.values()) == len(ths), r.stdout[-2000:] + r.stderr
    return d


def merge(rs):
    rs = sorted((r[0], r[-1]) for r in rs)
    out = []
    for a, b in rs:
        if out and a <= out[-1][1] + 1: out[-1][1] = max(b, out[-1][1])
        else: out.append([a, b])
    return ', '.join('%d-%d' % (a, b) if a != b else str(a) for a, b in out)


def main():
    L = ['## 4. What is modelled', '',
         'Lines of `/repo/ecore` cited by the definitions of each model. Without lines: see the comments of the definitions.', '',
         '| file | model | lines |', '|---|---|---|']
    c = cites()
    for f in sorted(c):
        for m in sorted(c[f]):
            L.append('| %s | %s | %s |' % (f, m, merge(c[f][m]) or ''))
    files = sorted(os.path.basename(p) for p in glob.glob(REPO + '/*.go'))
    rest = [f for f in files if not f.endswith('_test.go') and '_mock' not in f and f not in c]
    L += ['', 'Not modelled: ' + ', '.join('`%s`' % f for f in rest) + '; the mocks and tests; the code generated from the ecore model '
          '(`*_impl.go` of the metamodel); logging, tracing and error texts; the Go runtime (memory, scheduling inside a step), '
          'the SQL engine beyond rows in tables, and the third party codecs (msgpack, JSON).', '',
          '## 5. Findings', '', 'Proved negations: executions of the model of the code for which a property is false.', '']
    for n, t in violated():
        L.append('* `%s`: %s' % (n, t))
    L += ['', '## 6. Axioms of each theorem', '', 'From `#print axioms`.', '']
    for ax, ths in sorted(axioms(theorems()).items()):
        L.append('* %s: %s' % (ax, ', '.join('`%s`' % t for t in ths)))
    p = os.path.join(ROOT, 'DESIGN.md')
    s = open(p).read().split(MARK)[0].rstrip('\n')
    open(p, 'w').write(s + '\n\n' + MARK + '\n\n' + '\n'.join(L) + '\n')


main()
