"""reg.py: add properties, claims, design rows and imports in one go (used interactively)."""
import sys, json
def reg(props, claims, rows, imports):
    s=open('/verif/tools/gen_properties.py').read()
    m="with open('/verif/properties.jsonl'"
    assert s.count(m)==1
    open('/verif/tools/gen_properties.py','w').write(s.replace(m,''.join(p+'\n' for p in props)+m))
    open('/verif/tools/claims.py','a').write(''.join(c+'\n' for c in claims))
    d=open('/verif/DESIGN.md').read().split('\n')
    i=max(k for k,l in enumerate(d) if l.startswith('| C') and l[3:5].isdigit())
    d[i+1:i+1]=rows
    open('/verif/DESIGN.md','w').write('\n'.join(d))
    v=open('/verif/lean/Verif.lean').read().rstrip('\n')
    for x in imports:
        if 'import Verif.'+x not in v.split('\n'): v+='\nimport Verif.'+x
    open('/verif/lean/Verif.lean','w').write(v+'\n')
