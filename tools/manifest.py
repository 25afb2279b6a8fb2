import json
C={}
def c(p,st,th,note=""): C[p]={"property":p,"status":st,"theorems":th,"note":note}
T="Traceon."
def t(*a): return [T+x for x in a]
exec(open('/verif/tools/claims.py').read())
json.dump({"claims":[C[k] for k in sorted(C)]},open('/verif/MANIFEST.json','w'),indent=1)
