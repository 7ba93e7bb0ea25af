"""Rewrites the section "What is modelled and what is not" of DESIGN.md from the citations in the model."""
import os, re, glob
R = '/repo/projects'
V = '/verif/lean/Verif'
cites = {}
for f in sorted(glob.glob(V + '/**/*.lean', recursive=True)):
    text = open(f).read()
    for name in set(re.findall(r'[A-Za-z0-9_]+\.(?:cxx|tcc|h|def)\b', text)):
        cites.setdefault(name, []).append(f[len(V) + 1:-5])
# files cited without their extension in running text ("PrimaryBounded 53-114")
ALIAS = {'PrimaryBoundedVertexDistribution.cxx': 'Distributions/DepthPositionModel', 'PointSourcePositionDistribution.cxx': 'Distributions/DepthPositionModel'}
for n, m in ALIAS.items():
    cites.setdefault(n, []).append(m)
out = ['## What is modelled and what is not', '',
       'Generated by `scripts/coverage.py` from the citations in the model. A file is listed as modelled if some definition cites it;',
       'the definitions say which lines. Everything else in that file, and every file listed as not modelled, is outside the model.',
       'Python bindings (`pybindings`, `py*.cxx`), tests and serialization registration headers are not modelled anywhere.', '']
for p in sorted(os.listdir(R)):
    files = [f for f in sorted(glob.glob(R + '/' + p + '/private/**/*.*', recursive=True) + glob.glob(R + '/' + p + '/public/**/*.*', recursive=True))
             if re.search(r'\.(cxx|tcc|h|def)$', f) and '/test/' not in f and '/pybindings/' not in f and not os.path.basename(f).startswith('py')
             and os.path.basename(f) not in ('serializable.h', p + '.h')]
    names = sorted({os.path.basename(f) for f in files})
    if not names: continue
    # Cone.cxx exists in two projects
    here = {n: [m for m in cites.get(n, []) if not n.startswith('Cone.') or m.lower().startswith(p)] for n in names}
    yes = [n for n in names if here[n]]
    no = [n for n in names if not here[n]]
    out.append('### ' + p)
    out.append('')
    for n in yes:
        ms = [m for m in here[n] if not m.endswith('Props')] or here[n]
        out.append('* `' + n + '`: ' + ', '.join(sorted(set(ms))))
    if no: out.append('* not modelled: ' + ', '.join('`' + n + '`' for n in no))
    out.append('')
D = '/verif/DESIGN.md'
s = open(D).read()
i = s.find('## What is modelled and what is not')
j = s.index('## Plan per property')
s = (s[:i] if i >= 0 else s[:j]) + '\n'.join(out) + s[j:] if i < 0 else s[:i] + '\n'.join(out) + '\n' + s[j:]
open(D, 'w').write(s)
