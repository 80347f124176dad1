#!/usr/bin/env python3
"""Write AXIOMS.md from the output of tools/deps.lean.txt
(cd lean && cp ../tools/deps.lean.txt /tmp/deps.lean && lake env lean /tmp/deps.lean)."""
import json, os, sys, collections
root = os.path.dirname(os.path.dirname(os.path.abspath(__file__)))
src = sys.argv[1] if len(sys.argv) > 1 else '/tmp/deps.jsonl'
groups = collections.defaultdict(list)
for line in open(src):
    d = json.loads(line)
    groups[tuple(sorted(d['axioms']))].append(d['name'].replace('Knot.', ''))
with open(os.path.join(root, 'AXIOMS.md'), 'w') as f:
    f.write('# Axioms of the property theorems\n\nComputed from the environment (all constants reachable from the theorem).\n')
    for ax in sorted(groups, key=lambda a: (len(a), a)):
        f.write('\n## %s\n\n' % (', '.join('`%s`' % a for a in ax) if ax else 'no axioms'))
        f.write(', '.join(sorted(groups[ax])) + '\n')
print({k: len(v) for k, v in groups.items()})
