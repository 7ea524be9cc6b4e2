import json
C=[]
def c(p,s,t,n): C.append({"property":p,"status":s,"theorems":["Verif."+x for x in t],"note":n})
exec(open('/verif/tools/claims.py').read())
open('/verif/MANIFEST.json','w').write('{"claims": [\n'+',\n'.join(json.dumps(x) for x in C)+'\n]}\n')
