#!/usr/bin/env python3
"""Try wrong versions of the model in a copy of lean/, and record which theorems no longer check.

usage: seed.py seeds.json [id ...]

seeds.json: list of {id, file, definition, old, new, edit, claim, targets}.  For each seed: copy lean/ to a scratch directory, replace
`old` by `new` in `file`, build.  Declarations with errors get `sorry` as proof (examples are removed) and the build is repeated
until it succeeds; then the theorems of Verif/Props that depend on a `sorry` are listed.  One JSON line per seed is printed.
"""
import json, os, re, shutil, subprocess, sys

SRC = os.environ.get('SEED_SRC', '/verif/lean')
WORK = os.environ.get('SEED_WORK', '/tmp/scratch/work')
HEAD = re.compile(r'^(?:@\[[^\]]*\]\s*)?(?:private |protected |noncomputable )*(theorem|lemma|example|def|abbrev|instance|structure|inductive|'
                  r'class|end|namespace|section|variable|open|set_option|/--|/-!)\b|^/-')


def decls(text):
    """start offsets of top level items"""
    out, pos = [], 0
    for line in text.split('\n'):
        if HEAD.match(line):
            out.append(pos)
        pos += len(line) + 1
    return out + [len(text)]


def statement_end(d):
    """offset of the end of the statement of a theorem"""
    depth = 0
    i = 0
    while i < len(d):
        c = d[i]
        if c == "'" and d[i + 2:i + 3] == "'":  # character literal
            i += 3
            continue
        if c in '([{⟨':
            depth += 1
        elif c in ')]}⟩':
            depth -= 1
        elif depth == 0 and d.startswith('\n  | ', i):
            return i
        elif depth == 0 and d.startswith(' where\n', i):
            return i
        elif depth == 0 and d.startswith(':=', i):
            pre = d[:i].split('\n')[-1]
            if not re.search(r'\blet\b[^;]*$', pre):
                return i
        i += 1
    raise ValueError(d)


def patch(path, lines):
    text = open(path).read()
    starts = decls(text)
    offs = [0]
    for l in text.split('\n'):
        offs.append(offs[-1] + len(l) + 1)
    hit = set()
    for ln in lines:
        o = offs[ln - 1]
        h = max(s for s in starts if s <= o)
        while text.startswith('/--', h):  # errors reported at the comment of a declaration
            h = min(s for s in starts if s > h)
        hit.add(h)
    names = []
    for s in sorted(hit, reverse=True):
        e = min(x for x in starts if x > s)
        d = text[s:e]
        m = re.match(r'(?:@\[[^\]]*\]\s*)?(?:private |protected )*(theorem|lemma|example|def|abbrev|instance)\s*(\S*)', d)
        if not m:
            raise ValueError('error outside of a declaration: ' + path + ': ' + d[:80])
        if m.group(1) in ('theorem', 'lemma'):
            if d.rstrip().endswith(':= sorry'):
                raise ValueError('statement broken: ' + d[:200])
            new = d[:statement_end(d)] + ' := sorry\n\n'
            names.append(m.group(2))
        elif m.group(1) == 'example':
            # with the comment before it
            new = ''
            c = text.rfind('/--', 0, s)
            if c >= 0 and text[c:s].rstrip().endswith('-/') and text[c:s].count('-/') == 1:
                s = c
            names.append('example')
        else:
            raise ValueError('definition broken: ' + d[:200])
        text = text[:s] + new + text[e:]
    open(path, 'w').write(text)
    return names


def run(seed):
    shutil.rmtree(WORK, ignore_errors=True)
    os.makedirs(os.path.dirname(WORK), exist_ok=True)
    subprocess.run(['cp', '-a', SRC, WORK], check=True)
    p = os.path.join(WORK, seed['file'])
    text = open(p).read()
    if text.count(seed['old']) != 1:
        return {'id': seed['id'], 'error': 'old text occurs %d times' % text.count(seed['old'])}
    open(p, 'w').write(text.replace(seed['old'], seed['new']))
    failed = []
    for _ in range(60):
        r = subprocess.run(['nice', 'lake', 'build'], cwd=WORK, capture_output=True, text=True)
        out = r.stdout + r.stderr
        if r.returncode == 0:
            break
        errs = {}
        for m in re.finditer(r'error: (Verif/\S+\.lean):(\d+):\d+', out):
            errs.setdefault(m.group(1), set()).add(int(m.group(2)))
        if not errs:
            return {'id': seed['id'], 'error': out[-600:]}
        try:
            for f, ls in errs.items():
                failed += patch(os.path.join(WORK, f), ls)
        except ValueError as e:
            return {'id': seed['id'], 'error': str(e), 'failed': failed, 'out': out[-600:]}
    else:
        return {'id': seed['id'], 'error': 'too many rounds', 'failed': failed}
    q = '''import Verif
import Lean
open Lean Elab Command
run_cmd do
  let env ← getEnv
  let names := env.constants.fold (init := #[]) fun acc n c =>
    if (`GitDB.Props).isPrefixOf n && n.components.length == 3 && c matches .thmInfo _ then acc.push n else acc
  for n in names do
    let ax ← liftCoreM (collectAxioms n)
    if ax.contains ``sorryAx then logInfo m!"BROKEN {n}"
'''
    open(os.path.join(WORK, 'Query.lean'), 'w').write(q)
    r = subprocess.run(['lake', 'env', 'lean', 'Query.lean'], cwd=WORK, capture_output=True, text=True)
    broken = sorted(set(re.findall(r'BROKEN GitDB\.Props\.(C\d+_\S+)', r.stdout)))
    if r.returncode != 0:
        return {'id': seed['id'], 'error': r.stdout[-500:] + r.stderr[-500:]}
    return {'id': seed['id'], 'failed': failed, 'broken': broken}


if __name__ == '__main__':
    seeds = json.load(open(sys.argv[1]))
    for s in seeds:
        if sys.argv[2:] and s['id'] not in sys.argv[2:]:
            continue
        print(json.dumps(run(s)), flush=True)
