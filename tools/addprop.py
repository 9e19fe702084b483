import sys,re
# usage: addprop.py spec.py ; spec defines PROPS (raw p(...) text), MAN (raw c(...) text), PLAN, FIND, IMPORTS
exec(open(sys.argv[1]).read())
g=open('tools/gen_properties.py').read()
g=g.replace('with open("properties.jsonl"',PROPS+'\nwith open("properties.jsonl"',1); open('tools/gen_properties.py','w').write(g)
m=open('tools/gen_manifest.py').read(); m=m.replace('C.sort(',MAN+'C.sort(',1); open('tools/gen_manifest.py','w').write(m)
d=open('DESIGN.md').read().split('\n')
i=max(j for j,l in enumerate(d) if re.match(r'\| C\d\d \|',l))
for k,l in enumerate(PLAN): d.insert(i+1+k,l)
i=max(j for j,l in enumerate(d) if re.match(r'\* C\d\d',l))
for k,l in enumerate(FIND): d.insert(i+1+k,l)
open('DESIGN.md','w').write('\n'.join(d))
s=open('lean/Verif.lean').read().rstrip('\n')+'\n'+''.join(f'import {x}\n' for x in IMPORTS); open('lean/Verif.lean','w').write(s)
