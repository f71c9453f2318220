#!/usr/bin/env python3
"""Test the theorems against wrong programs.

usage: mutate.py MUTANTS.json [--log] [--fast | --deep]

MUTANTS.json is a list of {"file", "definition", "old", "new", "edit", "claim"}: in a scratch copy of /verif/lean the text `old` of
`file` (which must occur once, or `count` times) is replaced by `new`, the project is rebuilt and the declarations that no longer check
are listed. With --log a line per mutant is appended to /verif/seeded/LOG.jsonl.

With --fast, the build is stopped once a property theorem has failed, or some minutes after a helper lemma has.

With --deep, helper lemmas that no longer check are assumed (their proofs replaced by `sorry`, in the scratch copy only) and the build
is repeated until a property theorem fails: a proof script that breaks says little, a property theorem that breaks says that the
properties tell the wrong program from the right one."""
import json, os, re, shutil, signal, subprocess, sys, threading, time
SRC, DST, LOG = os.environ.get('SRC', '/verif/lean'), '/tmp/mut/lean', '/verif/seeded/LOG.jsonl'

def sync():
    os.makedirs(DST, exist_ok=True)
    subprocess.run(['rsync', '-a', '--delete', SRC + '/', DST + '/'], check=True) if shutil.which('rsync') else \
        subprocess.run('rm -rf %s && mkdir -p /tmp/mut && cp -a %s %s' % (DST, SRC, DST), shell=True, check=True)
    # a false `decide +kernel` can eat all memory: stop it early (the scratch copy only)
    open(DST + '/lakefile.toml', 'a').write('weakLeanArgs = ["-M", "3500"]\n')

DECL = re.compile(r'^(?:@\[[^\]]*\] )?(?:private |protected |noncomputable )?(?:theorem|def|abbrev|instance|example|structure|inductive)\b\s*(\S*)')
def enclosing(path, line):
    lines = open(os.path.join(DST, path)).read().split('\n')
    for i in range(min(line, len(lines)) - 1, -1, -1):
        m = DECL.match(lines[i])
        if m:
            return m.group(1) if not lines[i].startswith('example') else 'example@%d' % (i + 1)
    return '?'

def lake():
    """Return code and output of `lake build`. Lake goes on with independent modules after a failure."""
    if '--fast' not in sys.argv:
        r = subprocess.run(['lake', 'build'], cwd=DST, stdout=subprocess.PIPE, stderr=subprocess.STDOUT, text=True, timeout=3600)
        return r.returncode, r.stdout
    r = subprocess.Popen(['lake', 'build'], cwd=DST, stdout=subprocess.PIPE, stderr=subprocess.STDOUT, text=True, start_new_session=True)
    out, first = [], []
    def read():
        for line in r.stdout:
            out.append(line)
            m = re.match(r'error: (Verif/\S+?\.lean):(\d+):', line)
            if m and not first: first.append(time.time())
            if m and m.group(1).startswith('Verif/Props/') and re.match(r'C\d\d+_', enclosing(m.group(1), int(m.group(2)))):
                first[:] = [time.time() - 1000]
    th = threading.Thread(target=read, daemon=True)
    th.start()
    while r.poll() is None:
        time.sleep(1)
        if first and time.time() - first[0] > 240:
            time.sleep(5)
            os.killpg(r.pid, signal.SIGKILL)
            break
    r.wait(); th.join(10)
    return r.returncode, ''.join(out)

def build():
    rc, out = lake()
    failed = []
    for m in re.finditer(r'^error: (Verif/\S+?\.lean):(\d+):\d+:', out, re.M):
        f, l = m.group(1), int(m.group(2))
        name = enclosing(f, l)
        k = '%s:%s' % (f[len('Verif/'):-len('.lean')], name)
        if k not in failed: failed.append(k)
    killed = [m for m in re.findall(r'^✖ \[\d+/\d+\] Building (Verif\.\S+)', out, re.M)
              if 'Verif/' + m[len('Verif.'):].replace('.', '/') not in {'Verif/' + f.split(':')[0] for f in failed}]
    return rc, failed, killed

def drop_examples(mod):
    """Evaluating a false example can take all the memory there is, and then no error is reported for the module: leave its examples
    out, and say so."""
    p = os.path.join(DST, mod.replace('.', '/') + '.lean')
    blocks = open(p).read().split('\n\n')
    kept = [b for b in blocks if not re.search(r'^example\b', b, re.M)]
    open(p, 'w').write('\n\n'.join(kept))
    return len(kept) < len(blocks)

def depends(mods):
    """Modules that import one of `mods`, transitively."""
    imp = {}
    for d, _, fs in os.walk(os.path.join(DST, 'Verif')):
        for f in fs:
            if f.endswith('.lean'):
                p = os.path.join(d, f)
                m = os.path.relpath(p, DST)[:-5].replace('/', '.')
                imp[m] = re.findall(r'^import (Verif\.\S+)', open(p).read(), re.M)
    bad = set(mods)
    while True:
        more = {m for m in imp if m not in bad and any(i in bad for i in imp[m])}
        if not more: return bad - set(mods)
        bad |= more

def prop_theorems(mods):
    res = []
    for m in sorted(mods):
        if not m.startswith('Verif.Props.'): continue
        txt = open(os.path.join(DST, m.replace('.', '/') + '.lean')).read()
        res += re.findall(r'^theorem (C\d\d+_\S+)', txt, re.M)
    return sorted(set(res))

def proof_start(text, i):
    """Index of the `:=` or first `|` at which the proof of the declaration at `i` starts."""
    depth = 0
    while i < len(text):
        c = text[i]
        if c in '([{⟨': depth += 1
        elif c in ')]}⟩': depth -= 1
        elif depth == 0 and text.startswith(':=', i): return i
        elif depth == 0 and text.startswith('\n  | ', i): return i
        i += 1
    return None

def assume(key):
    mod, name = key.split(':', 1)
    p = os.path.join(DST, 'Verif', mod + '.lean')
    text = open(p).read()
    if name.startswith('example@'):
        lines = text.split('\n')
        off = len('\n'.join(lines[:int(name[8:]) - 1])) + (int(name[8:]) > 1)
        m = re.compile(r'example').match(text, off)
    else:
        m = re.search(r'^(?:@\[[^\]]*\] )?(?:private |protected )?theorem %s(?=[\s:({\[])' % re.escape(name), text, re.M)
    if not m: return False
    j = proof_start(text, m.end())
    if j is None: return False
    e = re.compile(r'^(?:@\[|/--|/-!|theorem|def|abbrev|instance|example|structure|inductive|private|protected|noncomputable|end\b|namespace|section|variable|open|set_option|macro|syntax|attribute)', re.M).search(text, j + 2)
    open(p, 'w').write(text[:j] + ' := by sorry\n\n' + (text[e.start():] if e else ''))
    return True

def deep():
    assumed = []
    for _ in range(40):
        rc, failed, killed = build()
        if killed:
            if not any([drop_examples(m) for m in killed]): return assumed, ['%s:(out of memory)' % m for m in killed]
            continue
        hits = [f for f in failed if re.match(r'Props/[^:]*:C\d\d+_', f)]
        if hits or rc == 0: return assumed, hits
        done = False
        for f in failed:
            if f not in assumed and assume(f): assumed.append(f); done = True
        if not done: return assumed, ['stuck: ' + f for f in failed]
    return assumed, ['stuck']

def main():
    if '--deep' in sys.argv: return main_deep()
    muts = json.load(open(sys.argv[1]))
    for mu in muts:
        sync()
        p = os.path.join(DST, 'Verif', mu['file'])
        s = open(p).read()
        n = s.count(mu['old'])
        if n != mu.get('count', 1):
            print('SKIP (found %d): %s' % (n, mu['edit'])); continue
        open(p, 'w').write(s.replace(mu['old'], mu['new']))
        rc, failed, killed = build()
        if any(f.startswith(mu['file'][:-len('.lean')] + ':') for f in failed):
            print('INVALID (the edited file does not compile): %s: %s' % (mu['definition'], mu['edit'])); sys.stdout.flush(); continue
        out_of_memory = []
        for _ in range(4):
            if not killed: break
            out_of_memory += killed
            if not any([drop_examples(m) for m in killed]): break
            _, more, killed = build()
            failed += [f for f in more if f not in failed]
        failed += ['%s:(out of memory)' % m[len('Verif.'):].replace('.', '/') for m in sorted(set(out_of_memory))]
        mods = {'Verif.' + f.split(':')[0].replace('/', '.') for f in failed}
        blocked = prop_theorems(depends(mods))
        direct = [f for f in failed]
        rec = dict(definition=mu['definition'], edit=mu['edit'], claim=mu['claim'], failed=direct,
                   not_rebuilt_because_a_lemma_failed=blocked, tightened=mu.get('tightened', []))
        if rc == 0: rec['survived'] = True
        print(json.dumps(rec, ensure_ascii=False)); sys.stdout.flush()
        if '--log' in sys.argv:
            open(LOG, 'a').write(json.dumps(rec, ensure_ascii=False) + '\n')

def main_deep():
    for mu in json.load(open(sys.argv[1])):
        sync()
        p = os.path.join(DST, 'Verif', mu['file'])
        s = open(p).read()
        if s.count(mu['old']) != mu.get('count', 1):
            print('SKIP: %s' % mu['edit']); continue
        open(p, 'w').write(s.replace(mu['old'], mu['new']))
        assumed, hits = deep()
        rec = dict(definition=mu['definition'], edit=mu['edit'], claim=mu['claim'], assumed_helper_lemmas=assumed, failed=hits,
                   tightened=mu.get('tightened', []))
        if not hits: rec['survived'] = True
        print(json.dumps(rec, ensure_ascii=False)); sys.stdout.flush()
        if '--log' in sys.argv:
            open(LOG, 'a').write(json.dumps(rec, ensure_ascii=False) + '\n')
main()
