"""Rewrite the Findings section of DESIGN.md from the doc comments of the counterexample theorems."""
import glob, re
s = open('DESIGN.md').read()
k = s.index('## Findings')
out = '''## Findings

Where the code does not do what the property says, the negation is proved on a concrete input reached through the API
(`…_counterexample`), and the property is proved with the hypothesis that is missing. One line each:

'''
rows = []
for f in sorted(glob.glob('lean/Verif/Props/*.lean')):
    t = open(f).read()
    for m in re.finditer(r'/--((?:(?!-/).)*?)-/\s*(?:set_option [^\n]*\n)*\s*theorem (C\d+\w*(?:counterexample|undefined|overwrites))', t, re.S):
        rows.append((m.group(2), ' '.join(m.group(1).split())))
for n, d in sorted(rows):
    out += f'* `{n}` – {d}\n'
open('DESIGN.md', 'w').write(s[:k] + out)
