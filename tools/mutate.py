#!/usr/bin/env python3
"""Mutation testing of the model.

Usage: mutate.py MUTANTS.json SCRATCH_DIR
Each mutant is {"def", "file", "old", "new", "edit", "claim"}. The Lean project is copied to SCRATCH_DIR (outside
/verif), each mutant is applied there and the project rebuilt. Failing declarations are mapped to the property theorems
that depend on them (dependencies taken from the unchanged project). One line per mutant goes to stdout.

A mutant may have a "target" module: then only this module is built, and the proofs that fail in the modules it imports are
skipped in the scratch copy, so that the theorems of the target itself are tried ("target_failed").
"""
import json, os, re, subprocess, sys, shutil

SRC = '/verif/lean'

DEPS = r'''
import Verif
open Lean Elab Command
run_cmd do
  let env ← getEnv
  let mut out := ""
  for (n, c) in env.constants.map₁.toList do
    if (`Verif).isPrefixOf n then
      let mut used := c.type.getUsedConstants
      match c.value? (allowOpaque := true) with
      | some v => used := used ++ v.getUsedConstants
      | none => pure ()
      out := out ++ toString n ++ "\t" ++ " ".intercalate ((used.toList.filter fun m => (`Verif).isPrefixOf m).map toString) ++ "\n"
  IO.FS.writeFile "deps.txt" out
'''


def deps(d):
    open(f'{d}/Deps.lean', 'w').write(DEPS)
    subprocess.run(['lake', 'env', 'lean', 'Deps.lean'], cwd=d, check=True)
    g = {}
    for line in open(f'{d}/deps.txt'):
        n, _, u = line.rstrip('\n').partition('\t')
        g[n] = set(u.split())
    return g


def closure(g, n):
    seen, todo = set(), [n]
    while todo:
        m = todo.pop()
        if m in seen:
            continue
        seen.add(m)
        todo.extend(g.get(m, ()))
    return seen


def decl_at(path, line):
    lines = open(path).read().split('\n')
    for i in range(min(line, len(lines)) - 1, -1, -1):
        m = re.match(r'(?:@\[[^\]]*\]\s*)?(?:private |protected |noncomputable )*(theorem|lemma|def|example|instance|abbrev|structure|class)\b\s*(\S*)', lines[i])
        if m:
            return m.group(1), m.group(2)
    return None, None


START = re.compile(r'(?:@\[[^\]]*\]\s*)?(?:private |protected |noncomputable )*(?:theorem|lemma|def|example|instance|abbrev|structure|class|'
                   r'section|end|namespace|variable|open|attribute|set_option|inductive)\b|/-')
SKIP = 'by so' + 'rry'


def skip_proof(path, line):
    """Replace the proof of the declaration around the line; False if that is not possible."""
    lines = open(path).read().split('\n')
    i = min(line, len(lines)) - 1
    while i >= 0 and not re.match(r'(?:@\[[^\]]*\]\s*)?(?:private |protected )*(?:theorem|lemma|example)\b', lines[i]):
        if START.match(lines[i]) and not lines[i].startswith('/-'):
            return False
        i -= 1
    if i < 0:
        return False
    j = i + 1
    while j < len(lines) and not START.match(lines[j]):
        j += 1
    chunk = '\n'.join(lines[i:j])
    found = [m for m in (re.search(r':= by\b', chunk), re.search(r':=\n', chunk), re.search(r'\n  \| ', chunk)) if m] or \
        list(re.finditer(r' := ', chunk))[-1:]
    if not found:
        return False
    new = chunk[:min(m.start() for m in found)] + ' := ' + SKIP
    if new == chunk.rstrip():
        return False
    lines[i:j] = (new + '\n').split('\n')
    open(path, 'w').write('\n'.join(lines))
    return True


def errors(out):
    return sorted({(mm.group(1), int(mm.group(2))) for mm in re.finditer(r'error: (Verif/\S+\.lean):(\d+):', out)})


def try_target(d, target):
    """Build the target, skipping failed proofs of other modules. Names of the failed declarations, and whether it ended."""
    failed, saved = set(), {}
    tfile = target.replace('.', '/') + '.lean'
    ended = False
    try:
        for _ in range(12):
            r = subprocess.run(['timeout', '2400', 'lake', 'build', target], cwd=d, capture_output=True, text=True)
            errs = errors(r.stdout + r.stderr)
            if not errs:
                ended = r.returncode == 0
                break
            stuck = False
            # from the end, so that the lines of the others stay right
            done = set()
            for f, line in sorted(errs, key=lambda e: (e[0], -e[1])):
                kind, name = decl_at(f'{d}/{f}', line)
                if (f, kind, name) in done and kind != 'example':
                    continue
                done.add((f, kind, name))
                failed.add(f'{name or kind}' if kind != 'example' else f'example:{line}')
                if f == tfile:
                    continue
                if f not in saved:
                    saved[f] = open(f'{d}/{f}').read()
                if not skip_proof(f'{d}/{f}', line):
                    stuck = True
            if stuck:
                failed.add('STUCK')
                break
            if any(f == tfile for f, _ in errs):
                ended = True
                break
    finally:
        for f, s in saved.items():
            open(f'{d}/{f}', 'w').write(s)
    return failed, ended


def main():
    mutants = json.load(open(sys.argv[1]))
    d = sys.argv[2]
    assert not d.startswith('/verif')
    os.makedirs(d, exist_ok=True)
    subprocess.run(['rsync', '-a', '--delete', SRC + '/', d + '/'], check=True) if shutil.which('rsync') else \
        subprocess.run(f'rm -rf {d} && cp -a {SRC} {d}', shell=True, check=True)
    subprocess.run(['lake', 'build'], cwd=d, check=True, stdout=subprocess.DEVNULL)
    g = deps(d)
    props = [n for n in g if re.match(r'Verif\.Props\.C\d+_', n) and not re.search(r'\._|\.match_|\.proof_', n)]
    cl = {n: closure(g, n) for n in props}
    for m in mutants:
        p = f"{d}/Verif/{m['file']}"
        s = open(p).read()
        if s.count(m['old']) != 1:
            print('SKIP', m['def'], 'old text occurs', s.count(m['old']), 'times', file=sys.stderr)
            continue
        open(p, 'w').write(s.replace(m['old'], m['new']))
        try:
            if m.get('target'):
                failed, ended = try_target(d, m['target'])
                print(json.dumps({'definition': m['def'], 'edit': m['edit'], 'claim_broken': m['claim'], 'target': m['target'],
                                  'theorems_failed': sorted(x for x in failed if re.match(r'C\d+_', x)),
                                  'lemmas_failed': sorted(x for x in failed if not re.match(r'C\d+_', x)),
                                  'theorems_tightened': m.get('tightened', []),
                                  'outcome': 'killed' if failed else 'SURVIVED', 'ended': ended}), flush=True)
                continue
            r = subprocess.run(['timeout', '1500', 'lake', 'build'], cwd=d, capture_output=True, text=True)
            out = r.stdout + r.stderr
            failed = set()
            examples = 0
            for mm in re.finditer(r'error: (Verif/\S+\.lean):(\d+):', out):
                f, line = f"{d}/{mm.group(1)}", int(mm.group(2))
                kind, name = decl_at(f, line)
                if kind == 'example':
                    examples += 1
                elif name:
                    failed.add(name)
            full = {n for n in g for x in failed if n == x or n.endswith('.' + x)}
            hit = sorted(n.replace('Verif.Props.', '') for n in props if cl[n] & full)
            helpers = sorted(x for x in failed if not re.match(r'C\d+_', x))
            print(json.dumps({'definition': m['def'], 'edit': m['edit'], 'claim_broken': m['claim'],
                              'theorems_failed': hit, 'lemmas_failed': helpers, 'examples_failed': examples,
                              'theorems_tightened': m.get('tightened', []),
                              'outcome': 'killed' if r.returncode else 'SURVIVED'}), flush=True)
        finally:
            open(p, 'w').write(s)


main()
