"""Print the axioms of all theorems of the manifest, grouped. Run after `lake build`."""
import json, subprocess, collections, re, os
root = os.path.dirname(os.path.dirname(os.path.abspath(__file__)))
ths = [t for c in json.load(open(root + '/MANIFEST.json'))['claims'] for t in c['theorems']]
open('/tmp/ax.lean', 'w').write('import Verif\n' + ''.join(f'#print axioms {t}\n' for t in ths))
r = subprocess.run('lake env lean /tmp/ax.lean', shell=True, cwd=root + '/lean', capture_output=True, text=True).stdout
g = collections.defaultdict(list)
for l in re.sub(r'\n\s+', ' ', r).splitlines():
    m = re.match(r"'(.*)' (does not depend on any axioms|depends on axioms: \[(.*)\])", l)
    g[m.group(3) or 'none'].append(m.group(1))
for k, v in g.items(): print(f'{k} ({len(v)}):', ', '.join(v))
