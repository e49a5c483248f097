#!/usr/bin/env python3
"""Test the theorems against wrong programs.

Every mutant of mutants.py is applied to a scratch copy of the Lean project and the project is built again. The declarations that
no longer check are collected, and with them the claimed theorems that rest on them (from the dependencies of the unchanged
project: a module whose import fails is not built at all). If a claim the mutant should break is not among them, the failed
declarations are replaced by `sorry` in the scratch copy and the build goes on, so that later modules are tried too. One JSON line per mutant goes to seeded/LOG.jsonl.

usage: mutate.py [first [last]]        (numbers of mutants; those already in the log with the same edit are skipped)
"""
import json, os, re, subprocess, sys
here = os.path.dirname(os.path.abspath(__file__))
root = os.path.dirname(here)
scratch = os.environ.get('MUT', '/tmp/mut')
log = os.path.join(root, 'seeded', 'LOG.jsonl')

DEPS = r'''
import Lean
open Lean
partial def close (env : Environment) (todo : List Name) (seen : NameSet) : NameSet :=
  match todo with
  | [] => seen
  | n :: rest =>
    match env.find? n with
    | none => close env rest seen
    | some ci =>
      let new := ci.getUsedConstantsAsSet.toList.filter fun m =>
        ((`Verif).isPrefixOf m || (`_private).isPrefixOf m) && !seen.contains m
      close env (new ++ rest) (new.foldl (fun s m => s.insert m) seen)
def main : IO Unit := do
  initSearchPath (← findSysroot)
  let env ← importModules #[{ module := `Verif }] {} (trustLevel := 1024)
  let stdin ← IO.getStdin
  let mut line ← stdin.getLine
  while line != "" do
    let n := line.trimAscii.toString.toName
    IO.println (n.toString ++ "\t" ++ String.intercalate " " ((close env [n] (NameSet.empty.insert n)).toList.map toString))
    line ← stdin.getLine
'''

def sh(cmd, cwd, inp=None):
    return subprocess.run(cmd, cwd=cwd, shell=True, text=True, input=inp, stdout=subprocess.PIPE, stderr=subprocess.STDOUT).stdout

def deps():
    claims = json.load(open(os.path.join(root, 'MANIFEST.json')))['claims']
    owner = {}
    for c in claims:
        for t in c['theorems']: owner.setdefault(t, set()).add(c['property'])
    f = scratch + '.deps.lean'
    open(f, 'w').write(DEPS)
    out = sh('lake env lean --run ' + f, os.path.join(root, 'lean'), '\n'.join(owner) + '\n')
    use = {}
    for l in out.splitlines():
        a, b = l.split('\t')
        use[a] = {re.sub(r'^_private\..*?\.0\.', '', x) for x in b.split(' ')}
    return owner, use

def decls(path):
    """line -> name of the enclosing declaration"""
    ns, res, cur, ex = [], [], None, 0
    for i, l in enumerate(open(path), 1):
        if m := re.match(r'namespace (\S+)', l): ns += m.group(1).split('.'); cur = None
        elif m := re.match(r'end (\S+)\s*$', l):
            k = len(m.group(1).split('.')); ns = ns[:-k] if k <= len(ns) else []; cur = None
        elif m := re.match(r'(?:@\[.*?\] *)?(?:private |protected |noncomputable )*(theorem|def|abbrev|instance|structure|inductive) +([^\s:({\[]+)', l):
            cur = '.'.join(ns + [m.group(2)])
        elif re.match(r'(set_option .* in\s*)?example', l): cur = 'example %s:%d' % (os.path.basename(path), i)
        res.append(cur)
    return res

def stub(path, names):
    """replace the proofs of the named declarations by sorry; drop examples; False if nothing could be done"""
    ds, ls, done = decls(path), open(path).read().split('\n'), False
    top = re.compile(r'(theorem|def|abbrev|instance|structure|inductive|example|namespace|end|section|open|set_option|variable|private|protected|@\[|/-)')
    for name in names:
        i = next((k for k, d in enumerate(ds) if d == name), None)
        if i is None: continue
        j = i + 1
        while j < len(ls) and not top.match(ls[j]): j += 1
        text, depth, cut = '\n'.join(ls[i:j]), 0, None
        if name.startswith('example '):
            ls[i:j] = ['example : True := trivial'] + [''] * (j - i - 1)
            done = True
            continue
        for k in range(len(text) - 1):
            if text[k] in '([{⟨': depth += 1
            elif text[k] in ')]}⟩': depth -= 1
            elif depth == 0 and text[k:k+2] == ':=': cut = k; break
        if e := re.search(r':=( by)?[ \t]*$', text, re.M): cut = e.start()   # a statement with `let` has a := of its own
        if cut is None: continue
        new = text[:cut] + ':= sorry'
        if new.split() == text.split(): continue
        ls[i:j] = (new + '\n' * (text.count('\n') - new.count('\n'))).split('\n')
        done = True
    open(path, 'w').write('\n'.join(ls))
    return done

def errors(out):
    res = []
    for f, ln in re.findall(r'error: (Verif/\S+?\.lean):(\d+):', out):
        d = decls(os.path.join(scratch, f))[int(ln) - 1] or f + ':' + ln
        if (f, d) not in res: res.append((f, d))
    return res

def main():
    sys.path.insert(0, here)
    from mutants import MUTANTS
    first = int(sys.argv[1]) if len(sys.argv) > 1 else 0
    last = int(sys.argv[2]) if len(sys.argv) > 2 else len(MUTANTS)
    done = set()
    if os.path.exists(log):
        for l in open(log):
            d = json.loads(l); done.add((d['file'], d['edit']))
    owner, use = deps()
    for n, m in list(enumerate(MUTANTS))[first:last]:
        key = (m['file'], m['old'] + '  ->  ' + m['new'])
        if key in done: continue
        sh('rm -rf %s; cp -a %s/lean %s' % (scratch, root, scratch), '/')
        p = os.path.join(scratch, 'Verif', m['file'])
        s = open(p).read()
        if s.count(m['old']) != m.get('count', 1):
            print(n, 'EDIT DOES NOT APPLY', s.count(m['old']), m['file'], m['old'][:60]); continue
        open(p, 'w').write(s.replace(m['old'], m['new']))
        out = sh('lake build 2>&1', scratch)
        errs = errors(out)
        if any(f == 'Verif/' + m['file'] for f, _ in errs) and m.get('model', True):
            print(n, 'DOES NOT COMPILE', errs, '\n'.join(l for l in out.splitlines() if 'error' in l)[:400]); continue
        failed = []
        for r in range(int(os.environ.get('ROUNDS', '6'))):
            failed += [d for _, d in errs if d not in failed]
            hit = sorted(t for t in owner if use[t] & set(failed))
            props = sorted(set().union(*[owner[t] for t in hit]))
            miss = [c for c in m['breaks'] if c not in props]
            if not miss or not errs: break
            fs = {f for f, _ in errs}
            if not all([stub(os.path.join(scratch, f), [d for g, d in errs if g == f]) for f in fs]): break
            errs = errors(sh('lake build 2>&1', scratch))
        line = dict(definition=m['def'], file=m['file'], edit=key[1], claim_broken=', '.join(m['breaks']) + ': ' + m['claim'],
                    failed_declarations=failed, theorems_failed=[t.replace('Verif.', '', 1) for t in hit], tightened=m.get('tightened', []))
        if miss: line['not_noticed_by'] = miss
        with open(log, 'a') as g: g.write(json.dumps(line, ensure_ascii=False) + '\n')
        print(n, m['def'], 'failed', len(failed), 'claims', ' '.join(props), 'MISSED ' + ' '.join(miss) if miss else '', 'SURVIVED' if not hit else '', flush=True)

main()
