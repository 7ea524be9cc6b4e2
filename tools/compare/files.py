"""Compare the file system of Model/World.lean with the one of the machine: files.py SEED NUMBER.

Random sequences of calls are done in a temporary directory and in the model. Prints the kinds of differences
(call, answer of the machine, answer of the model), and compares the trees in the end.
"""
LEAN = r'''
import Verif.Model.Server
open Verif
def toB (s : String) : Bytes := s.toUTF8.toList
def toS (b : Bytes) : String := String.fromUTF8! ⟨b.toArray⟩
def toP (s : String) : Path := if s = "." then [] else (s.splitOn "/").map toB
def kind (k : IoKind) : String := (reprStr k).splitOn "." |>.getLast!
def unit : Except IoErr Unit → String
  | .ok _ => "ok"
  | .error e => kind e.kind
structure St where
  fs : FS
  hs : List (Option Ino)
def fs0 : FS := ⟨[], [], fun _ => ⟨[], 0, 0, []⟩, 0⟩
def shS (fs : FS) : Except IoErr Stat → String
  | .ok s => s!"ok {s.len}"
  | .error e => kind e.kind
def dump (fs : FS) : String :=
  let fsn := fs.names.map fun e => "f " ++ "/".intercalate (e.1.map toS) ++ " " ++ toS (fs.inodes e.2).data ++ " " ++ toString (fs.inodes e.2).mode
  let ds := fs.dirs.map fun e => "d " ++ "/".intercalate (e.map toS)
  "; ".intercalate ((fsn ++ ds).toArray.qsort (· < ·)).toList
def ch (rand : String) : Choice := ⟨none, 0, toB rand, 0, [], 7777⟩
def doit (st : St) (w : List String) : St × String :=
  match w with
  | ["mkdir", p] => let x := sem (ch "") st.fs (.mkdirAll (toP p)); ({ st with fs := x.1 }, unit x.2)
  | ["temp", d, pre, rnd] => let x := sem (ch rnd) st.fs (.createTemp (toP d) (toB pre) 0)
    match x.2 with
    | .ok (p, i) => ({ st with fs := x.1, hs := st.hs ++ [some i] }, "ok " ++ "/".intercalate (p.map toS))
    | .error e => ({ st with fs := x.1 }, kind e.kind)
  | ["new", p] => let x := sem (ch "") st.fs (.createNew (toP p) 0)
    match x.2 with
    | .ok i => ({ st with fs := x.1, hs := st.hs ++ [some i] }, "ok")
    | .error e => ({ st with fs := x.1 }, kind e.kind)
  | ["write", n, d] =>
    match st.hs[n.toNat!]? with
    | some (some i) => let x := sem (ch "") st.fs (.write i (toB d)); ({ st with fs := x.1 }, unit x.2)
    | _ => (st, "nohandle")
  | ["rename", a, b] => let x := sem (ch "") st.fs (.rename (toP a) (toP b)); ({ st with fs := x.1 }, unit x.2)
  | ["link", a, b] => let x := sem (ch "") st.fs (.link (toP a) (toP b)); ({ st with fs := x.1 }, unit x.2)
  | ["unlink", a] => let x := sem (ch "") st.fs (.unlink (toP a)); ({ st with fs := x.1 }, unit x.2)
  | ["chmod", a, m] => let x := sem (ch "") st.fs (.chmod (toP a) m.toNat!); ({ st with fs := x.1 }, unit x.2)
  | ["stat", a] => let x := sem (ch "") st.fs (.stat (.exact (toP a))); (st, shS st.fs x.2)
  | ["statj", d, s] => let x := sem (ch "") st.fs (.stat (.join (toP d) (toB s))); (st, shS st.fs x.2)
  | ["readj", d, s] => let x := sem (ch "") st.fs (.openRead (.join (toP d) (toB s)))
    match x.2 with
    | .error e => (st, kind e.kind)
    | .ok h =>
      match (sem (ch "") st.fs (.readAll h)).2 with
      | (c, none) => (st, "ok " ++ toS c.flatten)
      | (_, some e) => (st, "ok! " ++ kind e.kind)
  | ["read", a] => let x := sem (ch "") st.fs (.openRead (.exact (toP a)))
    match x.2 with
    | .error e => (st, kind e.kind)
    | .ok h =>
      match (sem (ch "") st.fs (.readAll h)).2 with
      | (c, none) => (st, "ok " ++ toS c.flatten)
      | (_, some e) => (st, "ok! " ++ kind e.kind)
  | ["ls", p] => let x := sem (ch "") st.fs (.readDir (toP p))
    match x.2 with
    | .ok l => (st, "ok " ++ ",".intercalate ((l.map toS).toArray.qsort (· < ·)).toList)
    | .error e => (st, kind e.kind)
  | ["reset"] => (⟨fs0, []⟩, "")
  | ["dump"] => (st, dump st.fs)
  | _ => (st, "??")
def main : IO Unit := do
  let t ← IO.FS.readFile "INPUT"
  IO.println "START"
  let mut st : St := ⟨fs0, []⟩
  for l in t.splitOn "\n" do
    if l ≠ "" then
      let (s, r) := doit st (l.splitOn " ")
      st := s
      IO.println (r.replace "\n" "~")
'''

import os, subprocess, sys, tempfile
WORK = tempfile.mkdtemp()
PROJECT = os.path.join(os.path.dirname(os.path.abspath(__file__)), '..', '..', 'lean')

def model(lines):
    inp = os.path.join(WORK, 'input')
    open(inp, 'w').write(lines)
    run = os.path.join(WORK, 'Run.lean')
    open(run, 'w').write(LEAN.replace('INPUT', inp))
    return subprocess.run(['lake', 'env', 'lean', '--run', run], cwd=PROJECT, capture_output=True, text=True)

import random,subprocess,os,shutil,tempfile,errno,sys
random.seed(int(sys.argv[1])); N=int(sys.argv[2])
os.umask(0o022)
K={errno.ENOENT:'notFound',errno.EEXIST:'alreadyExists',errno.EISDIR:'isADirectory',errno.ENOTDIR:'notADirectory',errno.ENAMETOOLONG:'nameTooLong',errno.EPERM:'permissionDenied',errno.EINVAL:'invalidInput',errno.ENOTEMPTY:'directoryNotEmpty',errno.EBUSY:'resourceBusy'}
def err(e): return K.get(e.errno,str(e))
class Real:
    def __init__(s): s.root=tempfile.mkdtemp(); s.h=[]
    def p(s,x): return s.root if x=='.' else s.root+'/'+x
    def mkdirs(s,p):
        try: os.mkdir(p); return
        except FileNotFoundError: pass
        except OSError:
            if os.path.isdir(p): return
            raise
        s.mkdirs(os.path.dirname(p))
        try: os.mkdir(p)
        except OSError:
            if os.path.isdir(p): return
            raise
    def run(s,w):
        try:
            if w[0]=='mkdir': s.mkdirs(s.p(w[1])); return 'ok'
            if w[0]=='temp':
                n=w[2]+w[3]; q=s.p(w[1])+'/'+n
                s.h.append(os.open(q,os.O_RDWR|os.O_CREAT|os.O_EXCL,0o600)); return 'ok '+(n if w[1]=='.' else w[1]+'/'+n)
            if w[0]=='new': s.h.append(os.open(s.p(w[1]),os.O_WRONLY|os.O_CREAT|os.O_EXCL,0o666)); return 'ok'
            if w[0]=='write':
                if int(w[1])>=len(s.h): return 'nohandle'
                os.write(s.h[int(w[1])],w[2].encode()); return 'ok'
            if w[0]=='rename': os.rename(s.p(w[1]),s.p(w[2])); return 'ok'
            if w[0]=='link': os.link(s.p(w[1]),s.p(w[2])); return 'ok'
            if w[0]=='unlink': os.unlink(s.p(w[1])); return 'ok'
            if w[0]=='chmod':
                q=s.p(w[1])
                if os.path.isdir(q): return 'ok'
                os.chmod(q,int(w[2])); return 'ok'
            if w[0] in('stat','statj'):
                st=os.stat(s.p(w[1]) if w[0]=='stat' else s.p(w[1])+'/'+w[2])
                import stat
                return 'ok %d'%(7777 if stat.S_ISDIR(st.st_mode) else st.st_size)
            if w[0] in('read','readj'):
                fd=os.open(s.p(w[1]) if w[0]=='read' else s.p(w[1])+'/'+w[2],os.O_RDONLY)
                try:
                    try: return 'ok '+os.read(fd,1<<20).decode()
                    except OSError as e: return 'ok! '+err(e)
                finally: os.close(fd)
            if w[0]=='ls': return 'ok '+",".join(sorted(os.listdir(s.p(w[1]))))
        except OSError as e: return err(e)
    def dump(s):
        out=[]
        for d,ds,fs in os.walk(s.root):
            r=os.path.relpath(d,s.root); r='' if r=='.' else r+'/'
            out+=['d '+r+x for x in ds]
            for x in fs:
                q=d+'/'+x; out.append('f %s%s %s %d'%(r,x,open(q,'rb').read().decode(),os.stat(q).st_mode&0o777))
        return "; ".join(sorted(out))
    def close(s):
        for h in s.h: os.close(h)
        shutil.rmtree(s.root)
C=['a','b','c','dd']
def path(): return "/".join(random.choice(C) for _ in range(random.choice([1,1,2,2,3])))
def dpath(): return random.choice(['.',path(),path()])
ctr=0
def sub():
    return "/".join(random.choice(C+['.','..','','x'*256]+C) for _ in range(random.choice([1,2,3])))
def op():
    global ctr
    k=random.choice(['mkdir','mkdir','temp','new','new','write','write','rename','rename','link','unlink','chmod','stat','statj','readj','read','ls'])
    if k=='mkdir': return ['mkdir',path()]
    if k=='temp': ctr+=1; return ['temp',dpath(),'t',str(ctr)]
    if k in('new','unlink','stat','read'): return [k,path()]
    if k=='write': return ['write',str(random.randint(0,3)),random.choice(['x','yy','zzz'])]
    if k in('rename','link'): return [k,path(),path()]
    if k=='chmod': return ['chmod',path(),str(random.choice([0o640,0o444,0o600]))]
    if k in('statj','readj'):
        while True:
            s=sub()
            if not s.startswith('/') and s!='' and s.count('..')==0 or (s.count('..')==1 and not s.startswith('..') and not s.startswith('/') ): break
        return [k,dpath(),s]
    if k=='ls': return ['ls',dpath()]
lines=[];exp=[]
st={}
for _ in range(N):
    R=Real(); lines.append(['reset']); exp.append('')
    for _ in range(40):
        w=op(); before=R.dump() if w[0] in ('rename',) else None
        # keep away from renaming directories: not an operation of the code
        if w[0]=='rename' and os.path.isdir(R.p(w[1])): continue
        lines.append(w); exp.append(R.run(w))
    lines.append(['dump']); exp.append(R.dump()); R.close()
text=("\n".join(" ".join(w) for w in lines)+"\n")
o=model(text)
got=o.stdout.split("START\n")[1].split("\n")[:-1]
print(len(lines),len(got),o.stderr[:800])
for i,(w,e,g) in enumerate(zip(lines,exp,got)):
    if e!=g:
        k=(w[0],e if not w[0]=='dump' else 'dump',g if w[0]!='dump' else 'dump')
        st.setdefault(k,[]).append(i)
for k in sorted(st): 
    print(k,len(st[k]), lines[st[k][0]])
