"""Compare utf8Valid and utf8Lossy of Model/Bytes.lean with the decoder of Python.
"""
LEAN = r'''
import Verif.Model.Server
open Verif
def hx (c : Char) : Nat := if c.isDigit then c.toNat - 48 else c.toNat - 87
def unhex : List Char → List UInt8
  | a :: b :: r => (UInt8.ofNat (hx a * 16 + hx b)) :: unhex r
  | _ => []
def main : IO Unit := do
  let t ← IO.FS.readFile "INPUT"
  for l in t.splitOn "\n" do
    match l.splitOn ":" with
    | [p, _] =>
      let b := unhex p.toList
      IO.println s!"{utf8Valid b} {String.fromUTF8! ⟨(hexEncode (utf8Lossy b)).toArray⟩}"
    | _ => pure ()
'''

import os, subprocess, sys, tempfile
WORK = tempfile.mkdtemp()
PROJECT = os.path.join(os.path.dirname(os.path.abspath(__file__)), '..', '..', 'lean')

def model(lines):
    inp = os.path.join(WORK, 'input')
    open(inp, 'w').write(lines)
    run = os.path.join(WORK, 'Run.lean')
    open(run, 'w').write(LEAN.replace('INPUT', inp))
    return subprocess.run(['lake', 'env', 'lean', '--run', run], cwd=PROJECT, capture_output=True, text=True)

import random,subprocess
random.seed(5)
B=[0,0x41,0x7f,0x80,0x8f,0x90,0x9f,0xa0,0xbf,0xc0,0xc1,0xc2,0xdf,0xe0,0xe1,0xec,0xed,0xee,0xef,0xf0,0xf1,0xf3,0xf4,0xf5,0xf8,0xff]
rows=[bytes(random.choice(B) for _ in range(random.randint(0,7))) for _ in range(60000)]
rows+=[chr(random.choice([random.randint(0,0xd7ff),random.randint(0xe000,0x10ffff)])).encode()+bytes([random.choice(B)]) for _ in range(20000)]
text=("\n".join(r.hex()+":" for r in rows)+"\n")
o=model(text)
out=o.stdout.split("\n")
bad=0
for r,l in zip(rows,out):
    try: r.decode('utf-8'); v='true'
    except UnicodeDecodeError: v='false'
    e=v+" "+r.decode('utf-8','replace').encode().hex()
    if e!=l:
        bad+=1
        if bad<5: print(r.hex(),e,l)
print(len(rows),len(out),bad,o.stderr[:500])
