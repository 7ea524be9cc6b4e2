import Verif.Tests.Demo
/-!
Tests, not theorems: the transcripts of the project's own tests
(git-lfs-transfer.rs `mod tests`) run through the model, with a concrete SHA-256, comparing every
byte of the reply and the resulting files. They check that the model is faithful to the code.
-/
namespace Verif.Tests

def runT (fs : FS) (operation : String) (input : String) : Option Bytes × FS :=
  let x := (runProgram cfg operation.toUTF8.toList
    (Rdr.new input.toUTF8.toList eofErr true)).run (fun _ => Choice.none) ⟨fs, [], 0⟩
  match x.1.1 with
  | .ok _ => (some x.2.out, x.2.fs)
  | _ => (none, x.2.fs)

def hasFile (fs : FS) (p : List String) (c : Option String) : Bool :=
  fs.content (cfg.root ++ [b!"objects"] ++ p.map (fun s => s.toUTF8.toList)) =
    c.map (fun s => s.toUTF8.toList)

/-! git-lfs-transfer.rs:301 `failed_verify` -/
def failed_verify_0 := runT fs0 "upload"
  "000eversion 1\n0000000abatch\n0011transfer=ssh\n001crefname=refs/heads/main\n000100476ca13d52ca70c883e0f0bb101e425a89e8624de51db2d2392593af6a84118090 6\n0048ce08b837fe0c499d48935175ddce784e8c372d3cfb1c574fe1caff605d4f0626 32\n00000050put-object 6ca13d52ca70c883e0f0bb101e425a89e8624de51db2d2392593af6a84118090\n000bsize=6\n0001000aabc12300000050put-object ce08b837fe0c499d48935175ddce784e8c372d3cfb1c574fe1caff605d4f0626\n000csize=32\n00010024This is\x00a complicated©message.\n00000053verify-object 6ca13d52ca70c883e0f0bb101e425a89e8624de51db2d2392593af6a84118090\n000bsize=5\n0000"
#guard failed_verify_0.1 = some "000eversion=1\n0000000fstatus 200\n00010000000fstatus 200\n0001004e6ca13d52ca70c883e0f0bb101e425a89e8624de51db2d2392593af6a84118090 6 upload\n004fce08b837fe0c499d48935175ddce784e8c372d3cfb1c574fe1caff605d4f0626 32 upload\n0000000fstatus 200\n0000000fstatus 200\n0000000fstatus 409\n0001002emismatched size or cryptographic collision0000".toUTF8.toList

/-! git-lfs-transfer.rs:331 `missing_object` -/
def missing_object_0 := runT fs0 "upload"
  "000eversion 1\n0000000abatch\n0011transfer=ssh\n001crefname=refs/heads/main\n000100476ca13d52ca70c883e0f0bb101e425a89e8624de51db2d2392593af6a84118090 6\n0048ce08b837fe0c499d48935175ddce784e8c372d3cfb1c574fe1caff605d4f0626 32\n00000050put-object 6ca13d52ca70c883e0f0bb101e425a89e8624de51db2d2392593af6a84118090\n000bsize=6\n0001000aabc12300000050put-object ce08b837fe0c499d48935175ddce784e8c372d3cfb1c574fe1caff605d4f0626\n000csize=32\n00010024This is\x00a complicated©message.\n00000053verify-object 0000000000000000000000000000000000000000000000000000000000000000\n000bsize=5\n0000"
#guard missing_object_0.1 = some "000eversion=1\n0000000fstatus 200\n00010000000fstatus 200\n0001004e6ca13d52ca70c883e0f0bb101e425a89e8624de51db2d2392593af6a84118090 6 upload\n004fce08b837fe0c499d48935175ddce784e8c372d3cfb1c574fe1caff605d4f0626 32 upload\n0000000fstatus 200\n0000000fstatus 200\n0000000fstatus 404\n0001000dnot found0000".toUTF8.toList

/-! git-lfs-transfer.rs:361 `simple_upload` -/
def simple_upload_0 := runT fs0 "upload"
  "000eversion 1\n0000000abatch\n0011transfer=ssh\n0015hash-algo=sha256\n001crefname=refs/heads/main\n000100476ca13d52ca70c883e0f0bb101e425a89e8624de51db2d2392593af6a84118090 6\n0048ce08b837fe0c499d48935175ddce784e8c372d3cfb1c574fe1caff605d4f0626 32\n00000050put-object 6ca13d52ca70c883e0f0bb101e425a89e8624de51db2d2392593af6a84118090\n000bsize=6\n0001000aabc12300000050put-object ce08b837fe0c499d48935175ddce784e8c372d3cfb1c574fe1caff605d4f0626\n000csize=32\n00010024This is\x00a complicated©message.\n00000053verify-object 6ca13d52ca70c883e0f0bb101e425a89e8624de51db2d2392593af6a84118090\n000bsize=6\n00000053verify-object ce08b837fe0c499d48935175ddce784e8c372d3cfb1c574fe1caff605d4f0626\n000csize=32\n0000"
#guard simple_upload_0.1 = some "000eversion=1\n0000000fstatus 200\n00010000000fstatus 200\n0001004e6ca13d52ca70c883e0f0bb101e425a89e8624de51db2d2392593af6a84118090 6 upload\n004fce08b837fe0c499d48935175ddce784e8c372d3cfb1c574fe1caff605d4f0626 32 upload\n0000000fstatus 200\n0000000fstatus 200\n0000000fstatus 200\n0000000fstatus 200\n0000".toUTF8.toList
#guard hasFile simple_upload_0.2 ["6c", "a1", "6ca13d52ca70c883e0f0bb101e425a89e8624de51db2d2392593af6a84118090"] (some "abc123")
#guard hasFile simple_upload_0.2 ["ce", "08", "ce08b837fe0c499d48935175ddce784e8c372d3cfb1c574fe1caff605d4f0626"] (some "This is\x00a complicated©message.\n")

/-! git-lfs-transfer.rs:405 `invalid_hash_algo` -/
def invalid_hash_algo_0 := runT fs0 "upload"
  "000eversion 1\n0000000abatch\n0011transfer=ssh\n0015hash-algo=sha512\n001crefname=refs/heads/main\n000100476ca13d52ca70c883e0f0bb101e425a89e8624de51db2d2392593af6a84118090 6\n0048ce08b837fe0c499d48935175ddce784e8c372d3cfb1c574fe1caff605d4f0626 32\n0000"
#guard invalid_hash_algo_0.1 = some "000eversion=1\n0000000fstatus 200\n00010000000fstatus 400\n00010041error: not allowed: sha512 is not a permitted hash algorithm\n0000".toUTF8.toList

/-! git-lfs-transfer.rs:425 `simple_download` -/
def simple_download_0 := runT fs0 "upload"
  "000eversion 1\n0000000abatch\n0011transfer=ssh\n001crefname=refs/heads/main\n000100476ca13d52ca70c883e0f0bb101e425a89e8624de51db2d2392593af6a84118090 6\n0048ce08b837fe0c499d48935175ddce784e8c372d3cfb1c574fe1caff605d4f0626 32\n00000050put-object ce08b837fe0c499d48935175ddce784e8c372d3cfb1c574fe1caff605d4f0626\n000csize=32\n00010024This is\x00a complicated©message.\n00000053verify-object ce08b837fe0c499d48935175ddce784e8c372d3cfb1c574fe1caff605d4f0626\n000csize=32\n0000"
#guard simple_download_0.1 = some "000eversion=1\n0000000fstatus 200\n00010000000fstatus 200\n0001004e6ca13d52ca70c883e0f0bb101e425a89e8624de51db2d2392593af6a84118090 6 upload\n004fce08b837fe0c499d48935175ddce784e8c372d3cfb1c574fe1caff605d4f0626 32 upload\n0000000fstatus 200\n0000000fstatus 200\n0000".toUTF8.toList
def simple_download_1 := runT simple_download_0.2 "download"
  "000eversion 1\n0000000abatch\n0011transfer=ssh\n001crefname=refs/heads/main\n000100476ca13d52ca70c883e0f0bb101e425a89e8624de51db2d2392593af6a84118090 6\n0048ce08b837fe0c499d48935175ddce784e8c372d3cfb1c574fe1caff605d4f0626 32\n00000050get-object ce08b837fe0c499d48935175ddce784e8c372d3cfb1c574fe1caff605d4f0626\n0000"
#guard simple_download_1.1 = some "000eversion=1\n0000000fstatus 200\n00010000000fstatus 200\n0001004c6ca13d52ca70c883e0f0bb101e425a89e8624de51db2d2392593af6a84118090 6 noop\n0051ce08b837fe0c499d48935175ddce784e8c372d3cfb1c574fe1caff605d4f0626 32 download\n0000000fstatus 200\n000csize=32\n00010024This is\x00a complicated©message.\n0000".toUTF8.toList
#guard hasFile simple_download_1.2 ["ce", "08", "ce08b837fe0c499d48935175ddce784e8c372d3cfb1c574fe1caff605d4f0626"] (some "This is\x00a complicated©message.\n")

/-! git-lfs-transfer.rs:477 `invalid_upload` -/
def invalid_upload_0 := runT fs0 "upload"
  "000eversion 1\n0000000abatch\n0011transfer=ssh\n001crefname=refs/heads/main\n000100476ca13d52ca70c883e0f0bb101e425a89e8624de51db2d2392593af6a84118090 6\n0048ce08b837fe0c499d48935175ddce784e8c372d3cfb1c574fe1caff605d4f0626 32\n00000050put-object 6ca13d52ca70c883e0f0bb101e425a89e8624de51db2d2392593af6a84118090\n000bsize=6\n0001000aabc12300000050put-object ce08b837fe0c499d48935175ddce784e8c372d3cfb1c574fe1caff605d4f0626\n000csize=32\n00010024This is\x01a complicated©message.\n00000053verify-object 6ca13d52ca70c883e0f0bb101e425a89e8624de51db2d2392593af6a84118090\n000bsize=6\n00000053verify-object ce08b837fe0c499d48935175ddce784e8c372d3cfb1c574fe1caff605d4f0626\n000csize=32\n0000"
#guard invalid_upload_0.1 = some "000eversion=1\n0000000fstatus 200\n00010000000fstatus 200\n0001004e6ca13d52ca70c883e0f0bb101e425a89e8624de51db2d2392593af6a84118090 6 upload\n004fce08b837fe0c499d48935175ddce784e8c372d3cfb1c574fe1caff605d4f0626 32 upload\n0000000fstatus 200\n0000000fstatus 400\n000100aderror: corrupt data: expected oid ce08b837fe0c499d48935175ddce784e8c372d3cfb1c574fe1caff605d4f0626, got 367988c7cb91e13beda0a15fb271afcbf02fa7a0e75d9e25ac50b2b4b38af5f5\n0000000fstatus 200\n0000000fstatus 404\n0001000dnot found0000".toUTF8.toList
#guard hasFile invalid_upload_0.2 ["6c", "a1", "6ca13d52ca70c883e0f0bb101e425a89e8624de51db2d2392593af6a84118090"] (some "abc123")
#guard hasFile invalid_upload_0.2 ["ce", "08", "ce08b837fe0c499d48935175ddce784e8c372d3cfb1c574fe1caff605d4f0626"] none
#guard hasFile invalid_upload_0.2 ["36", "79", "367988c7cb91e13beda0a15fb271afcbf02fa7a0e75d9e25ac50b2b4b38af5f5"] none

/-! git-lfs-transfer.rs:528 `simple_locking` -/
def simple_locking_0 := runT fs0 "upload"
  "000eversion 1\n00000009lock\n000dpath=foo\n001crefname=refs/heads/main\n00000009lock\n000dpath=foo\n001crefname=refs/heads/main\n0000000elist-lock\n000elimit=100\n0000004cunlock d76670443f4d5ecdeea34c12793917498e18e858c6f74cd38c4b794273bb5e28\n0000"
#guard simple_locking_0.1 = some "000eversion=1\n0000000fstatus 200\n00010000000fstatus 201\n0048id=d76670443f4d5ecdeea34c12793917498e18e858c6f74cd38c4b794273bb5e28\n000dpath=foo\n0028locked-at=2001-09-17T00:00:00+00:00\n0018ownername=test user\n0000000fstatus 409\n0048id=d76670443f4d5ecdeea34c12793917498e18e858c6f74cd38c4b794273bb5e28\n000dpath=foo\n0028locked-at=2001-09-17T00:00:00+00:00\n0018ownername=test user\n0001000dconflict\n0000000fstatus 200\n0001004alock d76670443f4d5ecdeea34c12793917498e18e858c6f74cd38c4b794273bb5e28\n004epath d76670443f4d5ecdeea34c12793917498e18e858c6f74cd38c4b794273bb5e28 foo\n0069locked-at d76670443f4d5ecdeea34c12793917498e18e858c6f74cd38c4b794273bb5e28 2001-09-17T00:00:00+00:00\n0059ownername d76670443f4d5ecdeea34c12793917498e18e858c6f74cd38c4b794273bb5e28 test user\n0050owner d76670443f4d5ecdeea34c12793917498e18e858c6f74cd38c4b794273bb5e28 ours\n0000000fstatus 200\n0048id=d76670443f4d5ecdeea34c12793917498e18e858c6f74cd38c4b794273bb5e28\n000dpath=foo\n0028locked-at=2001-09-17T00:00:00+00:00\n0018ownername=test user\n0000".toUTF8.toList

end Verif.Tests
