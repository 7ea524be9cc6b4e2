"""Compare Model/Regex.lean with libpcre2 on random patterns and subjects: pcre.py SEED NUMBER.

Prints every pattern the fragment accepts on which the two differ, and a count of the outcomes (PCRE2, model).
"""
LEAN = r'''
import Verif.Model.Regex
open Verif
def hx (c : Char) : Nat := if c.isDigit then c.toNat - 48 else c.toNat - 87
def unhex : List Char → List UInt8
  | a :: b :: r => (UInt8.ofNat (hx a * 16 + hx b)) :: unhex r
  | _ => []
def main : IO Unit := do
  let t ← IO.FS.readFile "INPUT"
  for l in t.splitOn "\n" do
    match l.splitOn ":" with
    | [p, s] =>
      match Pcre.parse (unhex p.toList) with
      | none => IO.println "-"
      | some r => IO.println (if r.isMatch (unhex s.toList) then "1" else "0")
    | _ => pure ()
'''

import os, subprocess, sys, tempfile
WORK = tempfile.mkdtemp()
PROJECT = os.path.join(os.path.dirname(os.path.abspath(__file__)), '..', '..', 'lean')

def model(lines):
    inp = os.path.join(WORK, 'input')
    open(inp, 'w').write(lines)
    run = os.path.join(WORK, 'Run.lean')
    open(run, 'w').write(LEAN.replace('INPUT', inp))
    return subprocess.run(['lake', 'env', 'lean', '--run', run], cwd=PROJECT, capture_output=True, text=True)

import ctypes,random,subprocess,sys
L=ctypes.CDLL('libpcre2-8.so.0')
L.pcre2_compile_8.restype=ctypes.c_void_p
L.pcre2_compile_8.argtypes=[ctypes.c_char_p,ctypes.c_size_t,ctypes.c_uint32,ctypes.POINTER(ctypes.c_int),ctypes.POINTER(ctypes.c_size_t),ctypes.c_void_p]
L.pcre2_match_data_create_8.restype=ctypes.c_void_p
L.pcre2_match_data_create_8.argtypes=[ctypes.c_uint32,ctypes.c_void_p]
L.pcre2_match_8.argtypes=[ctypes.c_void_p,ctypes.c_char_p,ctypes.c_size_t,ctypes.c_size_t,ctypes.c_uint32,ctypes.c_void_p,ctypes.c_void_p]
L.pcre2_code_free_8.argtypes=[ctypes.c_void_p]
md=L.pcre2_match_data_create_8(32,None)
def comp(p):
    e=ctypes.c_int();o=ctypes.c_size_t()
    return L.pcre2_compile_8(p,len(p),0,ctypes.byref(e),ctypes.byref(o),None)
def match(c,s): 
    r=L.pcre2_match_8(c,s,len(s),0,0,md,None)
    return r
random.seed(int(sys.argv[1])); N=int(sys.argv[2])
AL=b"ab!_ \n0A"
def atom(d):
    r=random.random()
    if r<.45: return bytes([random.choice(AL)])
    if r<.5: return b"."
    if r<.58: return random.choice([rb"\s",rb"\S",rb"\d",rb"\D",rb"\w",rb"\W",rb"\n",rb"\t",rb"\.",rb"\!",rb"\_",rb"\e",rb"\-"])
    if r<.72: return cls()
    if r<.82: return random.choice([rb"\A",rb"\z",rb"\Z",rb"\b",rb"\B",b"^",b"$"])
    if d<=0: return b"a"
    return random.choice([b"(",b"(?:"])+alt(d-1)+b")"
def cls():
    k=random.randint(1,3); out=b"["+random.choice([b"",b"",b"^"])
    for _ in range(k):
        out+=random.choice([b"a",b"b",b"\n",b" ",b"0-9",b"a-c",b"A-Z",rb"\s",rb"\d",rb"\w",rb"\n",b"^",b"-",b"[",b".",b"]",rb"\]",b"_",rb"\-",b"a-",b"!-/"])
    return out+b"]"
def seq(d):
    out=b""
    for _ in range(random.choice([0,1,1,2,2,3,4])):
        out+=atom(d)
        if random.random()<.35: out+=random.choice([b"*",b"+",b"?",b"*?",b"+?",b"??",b"*+",b"++",b"?+",b"**",b"+*"])
    return out
def alt(d): return b"|".join(seq(d) for _ in range(random.choice([1,1,1,2,3])))
rows=[]
for _ in range(N):
    p=alt(2)
    if random.random()<.05: p=bytes(random.choice(b"ab(|)*+?[]^\\-.{}$:n") for _ in range(random.randint(1,6)))
    if b"\0" in p: continue
    for _ in range(4):
        s=bytes(random.choice(AL) for _ in range(random.randint(0,9)))
        rows.append((p,s))
text=("\n".join(p.hex()+":"+s.hex() for p,s in rows)+"\n")
out=model(text)
res=out.stdout.split("\n")[:len(rows)]
if len(res)<len(rows): print(out.stdout[-500:],out.stderr[-2000:]); sys.exit(1)
st={}
for (p,s),r in zip(rows,res):
    c=comp(p)
    if not c: k=('reject',r)
    else:
        m=match(c,s); L.pcre2_code_free_8(c)
        k=('match' if m>=0 else 'no' if m==-1 else 'err%d'%m,r)
    st[k]=st.get(k,0)+1
    if r!='-' and k not in (('match','1'),('no','0')) and st[k]<6: print("DIFF",p,s,k)
print(st)
