#!/usr/bin/env python3
"""Test the theorems against wrong programs.

Usage: mutate.py MUTATIONS.json [ids...]

Each mutation {id, file, def, old, new, edit, claim, expect} replaces one piece of text of a model file in a scratch copy
of the Lean project. The copy is rebuilt; a proof that no longer checks is replaced by `sorry` and the build repeated, so
that the axioms of each claimed theorem tell whether it depends on a proof that broke. `expect` lists the properties
the edit makes false. Results go to RESULTS (one JSON line per mutation)."""
import json, os, re, subprocess, sys, shutil, time

SRC = os.environ.get('MUT_SRC', '/verif/lean')
BASE = '/tmp/mut'
WORK = BASE + '/w'
RESULTS = BASE + '/results.jsonl'
DECL = re.compile(r'^(?:@\[[^\]]*\]\s*)?(?:private |protected |noncomputable )*(theorem|lemma|example|def|instance|abbrev|structure|inductive)\b')

def sync():
    subprocess.run(f'rm -rf {WORK}; cp -a {SRC} {WORK}', shell=True, check=True)

def build(target=None):
    cmd = ['bash', '-c', 'ulimit -t 500; exec lake build ' + (target or '')]
    try:
        p = subprocess.run(cmd, cwd=WORK, capture_output=True, text=True, timeout=3000)
    except subprocess.TimeoutExpired:
        return None
    return p.stdout + p.stderr

def errors(out):
    return [(m.group(1), int(m.group(2)), m.group(3)) for m in re.finditer(r'^error: (Verif\S*?\.lean):(\d+):\d+: (.*)$', out, re.M)]

def body_start(text):
    depth = 0
    i = 0
    while i < len(text):
        c = text[i]
        if c in '([{⟨': depth += 1
        elif c in ')]}⟩': depth -= 1
        elif depth == 0 and text.startswith(':=', i) and not re.search(r"\b(let|have)\s+[^\n]*$", text[:i]):
            return i, ':= by sorry\n'
        elif depth == 0 and re.match(r'\bwhere\b', text[i:]) and text[i-1] in ' \n': return i, ':= by sorry\n'
        elif depth == 0 and text.startswith('\n  |', i): return i, ' := by sorry\n'
        i += 1
    return None

def sorry_out(path, lines_with_errors):
    """Replace the proofs around the given lines. Returns names."""
    src = open(path).read().split('\n')
    starts = [i for i, l in enumerate(src) if DECL.match(l)]
    names = []
    todo = sorted({max(s for s in starts if s < n) for n in lines_with_errors}, reverse=True)
    for s in todo:
        e = s + 1
        while e < len(src) and (src[e].startswith(' ') or src[e] == '' or src[e].startswith('|')): e += 1
        text = '\n'.join(src[s:e])
        kind = DECL.match(src[s]).group(1)
        name = re.match(r'.*?\b(?:theorem|lemma|example|def|instance|abbrev|structure|inductive)\s*([^\s:({\[]*)', src[s]).group(1)
        if kind not in ('theorem', 'lemma', 'example'):
            raise RuntimeError(f'definition breaks: {path}:{s+1} {kind} {name}')
        b = body_start(text)
        if b is None or text[b[0]:].strip() == ':= by sorry':
            raise RuntimeError(f'cannot remove proof: {path}:{s+1} {name}')
        src[s:e] = (text[:b[0]] + b[1]).split('\n')
        names.append(name or f'example at {os.path.basename(path)}:{s+1}')
    open(path, 'w').write('\n'.join(src))
    return names

def run(m):
    sync()
    path = f'{WORK}/Verif/{m["file"]}'
    s = open(path).read()
    if s.count(m['old']) != 1:
        return dict(m, error=f'text found {s.count(m["old"])} times')
    open(path, 'w').write(s.replace(m['old'], m['new']))
    broken = []
    t0 = time.time()
    for rnd in range(25):
        out = build()
        if out is None:
            return dict(m, error='build timeout', broken=broken)
        errs = errors(out)
        if not errs:
            if 'error' in out and 'Build completed' not in out:
                return dict(m, error=out[-1500:], broken=broken)
            break
        byfile = {}
        for f, n, msg in errs: byfile.setdefault(f, set()).add(n)
        try:
            for f, ns in byfile.items():
                if '/Audit' in f: raise RuntimeError('audit error')
                broken += sorry_out(f'{WORK}/{f}', ns)
        except RuntimeError as e:
            return dict(m, error=str(e), broken=broken, out=out[-1500:])
    else:
        return dict(m, error='too many rounds', broken=broken)
    p = subprocess.run(['lake', 'env', 'lean', 'Verif/Audit.lean'], cwd=WORK, capture_output=True, text=True)
    failed = []
    txt = re.sub(r'\n\s+', ' ', p.stdout)
    for mm in re.finditer(r"'(\S+)' depends on axioms: \[([^\]]*)\]", txt):
        if 'sorryAx' in mm.group(2): failed.append(mm.group(1).replace('Mythical.', '', 1))
    props = sorted({re.search(r'C\d+', f).group(0) for f in failed if re.search(r'C\d+', f)})
    missed = [x for x in m['expect'] if x not in props]
    return dict(m, broken=broken, failed=failed, props=props, missed=missed, secs=round(time.time() - t0))

if __name__ == '__main__':
    ms = json.load(open(sys.argv[1]))
    want = set(sys.argv[2:])
    done = set()
    if os.path.exists(RESULTS) and not want:
        done = {json.loads(l)['id'] for l in open(RESULTS)}
    for m in ms:
        if want and m['id'] not in want or m['id'] in done: continue
        r = run(m)
        with open(RESULTS, 'a') as f: f.write(json.dumps(r) + '\n')
        print(m['id'], r.get('error', ''), 'missed:', r.get('missed'), 'broken:', r.get('broken'), 'props:', r.get('props'), r.get('secs'), flush=True)
