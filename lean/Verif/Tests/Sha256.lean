import Verif.Model.Bytes
/-!
SHA-256 (FIPS 180-4), used only to run concrete tests of the model. The theorems take the hash
function as a parameter.
-/
namespace Verif.Tests

def K256 : Array UInt32 := #[
  0x428a2f98,0x71374491,0xb5c0fbcf,0xe9b5dba5,0x3956c25b,0x59f111f1,0x923f82a4,0xab1c5ed5,
  0xd807aa98,0x12835b01,0x243185be,0x550c7dc3,0x72be5d74,0x80deb1fe,0x9bdc06a7,0xc19bf174,
  0xe49b69c1,0xefbe4786,0x0fc19dc6,0x240ca1cc,0x2de92c6f,0x4a7484aa,0x5cb0a9dc,0x76f988da,
  0x983e5152,0xa831c66d,0xb00327c8,0xbf597fc7,0xc6e00bf3,0xd5a79147,0x06ca6351,0x14292967,
  0x27b70a85,0x2e1b2138,0x4d2c6dfc,0x53380d13,0x650a7354,0x766a0abb,0x81c2c92e,0x92722c85,
  0xa2bfe8a1,0xa81a664b,0xc24b8b70,0xc76c51a3,0xd192e819,0xd6990624,0xf40e3585,0x106aa070,
  0x19a4c116,0x1e376c08,0x2748774c,0x34b0bcb5,0x391c0cb3,0x4ed8aa4a,0x5b9cca4f,0x682e6ff3,
  0x748f82ee,0x78a5636f,0x84c87814,0x8cc70208,0x90befffa,0xa4506ceb,0xbef9a3f7,0xc67178f2]

def rotr (x n : UInt32) : UInt32 := (x >>> n) ||| (x <<< (32 - n))

def be32 (l : Bytes) : UInt32 := l.foldl (fun a b => (a <<< 8) ||| b.toUInt32) 0

def schedule (block : Bytes) : Array UInt32 := Id.run do
  let mut w : Array UInt32 := #[]
  for i in [0:16] do
    w := w.push (be32 ((block.drop (4 * i)).take 4))
  for i in [16:64] do
    let a := w[i-15]!
    let b := w[i-2]!
    let s0 := rotr a 7 ^^^ rotr a 18 ^^^ (a >>> 3)
    let s1 := rotr b 17 ^^^ rotr b 19 ^^^ (b >>> 10)
    w := w.push (w[i-16]! + s0 + w[i-7]! + s1)
  return w

def compress (h : Array UInt32) (block : Bytes) : Array UInt32 := Id.run do
  let w := schedule block
  let mut s := h
  for i in [0:64] do
    let a := s[0]!; let b := s[1]!; let c := s[2]!; let d := s[3]!
    let e := s[4]!; let f := s[5]!; let g := s[6]!; let hh := s[7]!
    let s1 := rotr e 6 ^^^ rotr e 11 ^^^ rotr e 25
    let ch := (e &&& f) ^^^ ((~~~ e) &&& g)
    let t1 := hh + s1 + ch + K256[i]! + w[i]!
    let s0 := rotr a 2 ^^^ rotr a 13 ^^^ rotr a 22
    let maj := (a &&& b) ^^^ (a &&& c) ^^^ (b &&& c)
    s := #[t1 + s0 + maj, a, b, c, d + t1, e, f, g]
  return (Array.range 8).map (fun i => h[i]! + s[i]!)

def blocks : Nat → Array UInt32 → Bytes → Array UInt32
  | 0, h, _ => h
  | n + 1, h, rest => blocks n (compress h (rest.take 64)) (rest.drop 64)

def init256 : Array UInt32 := #[0x6a09e667,0xbb67ae85,0x3c6ef372,0xa54ff53a,0x510e527f,0x9b05688c,
  0x1f83d9ab,0x5be0cd19]

def sha256 (m : Bytes) : Bytes :=
  let len := m.length
  let padded : Bytes := m ++ ([0x80] : Bytes) ++ List.replicate ((119 - len % 64) % 64) (0 : UInt8) ++
    (List.range 8).map (fun i => UInt8.ofNat ((len * 8) >>> (8 * (7 - i))))
  (blocks (padded.length / 64) init256 padded).toList.flatMap
    (fun (x : UInt32) => [(x >>> 24).toUInt8, (x >>> 16).toUInt8, (x >>> 8).toUInt8, x.toUInt8])

theorem compress_size (h : Array UInt32) (b : Bytes) : (compress h b).size = 8 := by
  simp [compress, Id.run]
  exact (Array.size_map).trans (by simp)

theorem blocks_size : ∀ (n : Nat) (h : Array UInt32) (r : Bytes), h.size = 8 → (blocks n h r).size = 8
  | 0, _, _, hh => hh
  | n + 1, h, r, _ => blocks_size n _ (r.drop 64) (compress_size h _)

theorem sha256_length (m : Bytes) : (sha256 m).length = 32 := by
  unfold sha256
  simp only [List.length_flatMap, List.length_cons, List.length_nil]
  rw [List.map_const', List.sum_replicate_nat, Array.length_toList, blocks_size _ _ _ rfl]

#guard hexEncode (sha256 []) =
  "e3b0c44298fc1c149afbf4c8996fb92427ae41e4649b934ca495991b7852b855".toUTF8.toList
#guard hexEncode (sha256 "abc".toUTF8.toList) =
  "ba7816bf8f01cfea414140de5dae2223b00361a396177a9cb410ff61f20015ad".toUTF8.toList
#guard hexEncode (sha256 "abcdbcdecdefdefgefghfghighijhijkijkljklmklmnlmnomnopnopq".toUTF8.toList) =
  "248d6a61d20638b8e5c026930c3e6039a33ce45964ff2167f6ecedd419db06c1".toUTF8.toList

end Verif.Tests
