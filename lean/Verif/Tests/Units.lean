import Verif.Props.GitAt
import Verif.Props.RecentRefs
import Verif.Props.Pktline
import Verif.Tests.Demo
/-!
Tests, not theorems: the unit tests of pktline.rs, git-at.rs and git-recent-refs.rs run through the model. The
repository of the last two is the one of `fixtures/mod.rs`, the result of `git fast-import` of
scutiger-bin/src/bin/fixtures/fixtures/test-repo; the IDs of its commits are those Git computes.
-/
namespace Verif.Tests

/-! pktline.rs:303 `pktline_headers` -/
example : ([b!"0000", b!"0001", b!"0004", b!"ffff", b!"2204", b!"cafe"].map (parseHeader true)) =
    [.ok 0, .ok 1, .ok 4, .ok 65535, .ok 8708, .ok 51966] := by decide +kernel
example : parseHeader true b!"cafE" = .err (Err.simple .badPktlineHeader) := by decide +kernel
example : parseHeader true [0xc2, 0xa9, 102, 101] = .err (Err.simple .badPktlineHeader) := by decide +kernel

/-! pktline.rs:330 `parse_packet` -/
def packetOf (b : Bytes) : Res Packet := (Rdr.readPacket (Rdr.new b eofErr true)).1

example : packetOf b!"0000" = .ok .flush := by decide +kernel
example : packetOf b!"0001" = .ok .delim := by decide +kernel
example : packetOf b!"0004" = .ok (.data b!"") := by decide +kernel
example : packetOf b!"0005a" = .ok (.data b!"a") := by decide +kernel
example : packetOf (b!"0046" ++ [0xff, 0xfe] ++ b!"e3b0c44298fc1c149afbf4c8996fb92427ae41e4649b934ca495991b7852b855") =
    .ok (.data ([0xff, 0xfe] ++ b!"e3b0c44298fc1c149afbf4c8996fb92427ae41e4649b934ca495991b7852b855")) := by decide +kernel

/-! pktline.rs:345 `write_data` -/
example : (writeStream b!"abc").1 ++ (writeStream ([0xff, 0xfe, 0xc2, 0xa9] ++ b!"0123456")).1 =
    b!"0007abc000f" ++ [0xff, 0xfe, 0xc2, 0xa9] ++ b!"0123456" := by decide +kernel

theorem chunksF_cons {f k : Nat} {s : Bytes} (h : s ≠ []) : chunksF (f + 1) k s = s.take k :: chunksF f k (s.drop k) := by
  cases s with
  | nil => exact absurd rfl h
  | cons x xs => rfl

theorem chunksF_two {f k : Nat} {s : Bytes} (h1 : s ≠ []) (h2 : s.drop k ≠ []) (h3 : (s.drop k).length ≤ k) :
    chunksF (f + 3) k s = [s.take k, s.drop k] := by
  rw [chunksF_cons h1, chunksF_cons h2, List.take_of_length_le h3, List.drop_of_length_le h3]
  rfl

/-! pktline.rs:356 `write_data_large`, for every content of that size -/
example (buf : Bytes) (h : buf.length = 65536) :
    (writeStream buf).1 = b!"fff0" ++ buf.take 65516 ++ b!"0018" ++ buf.drop 65516 := by
  have hd : (buf.drop 65516).length = 20 := by rw [List.length_drop, h]
  have ht : (buf.take 65516).length = 65516 := by rw [List.length_take, h]; rfl
  have hc : chunks maxPacketLen buf = [buf.take 65516, buf.drop 65516] := by
    unfold chunks maxPacketLen
    rw [show buf.length = 65533 + 3 from h]
    exact chunksF_two (by rintro rfl; cases h) (by intro e; rw [e] at hd; cases hd) (by rw [hd]; decide)
  have h1 : hex4 (65516 + 4) = b!"fff0" := by decide +kernel
  have h2 : hex4 (20 + 4) = b!"0018" := by decide +kernel
  simp only [writeStream, hc, List.map_cons, List.map_nil, List.flatten_cons, List.flatten_nil, encData, hd, ht, h1, h2,
    List.append_nil, List.append_assoc]

/-! pktline.rs:367 `read_data_large`, for every content, every size of the packets and every size of the reads -/
example (buf : Bytes) (n : Nat) (hn : 0 < n) (hm : n ≤ 65516) (sizes : Nat → Nat) (hs : ∀ i, 0 < sizes i) :
    ∃ (k : Nat) (outs : List Bytes) (r' : Rdr),
      Spec.reads sizes k (Rdr.new (((chunks n buf).map encData).flatten ++ b!"0000") eofErr true) = some (outs, r') ∧
      outs.flatten = buf ∧ (r'.read (sizes k)).1 = .ok [] := by
  have hc := chunks_spec n hn buf
  have hf : Spec.Frames ((chunks n buf).map .data ++ [.flush]) (((chunks n buf).map encData).flatten ++ b!"0000") :=
    frames_append (frames_map_encData _ fun c h => by have := (hc.2 c h).2; omega) (by
      have := Spec.Frames.cons Spec.Frame.flush Spec.Frames.nil
      exact this)
  obtain ⟨k, outs, r', h1, -, h2, -, h3⟩ := C03_stream_read (chunks n buf) (fun d h => by have := (hc.2 d h).2; omega) .flush
    (.inl rfl) _ hf [] (Rdr.new (((chunks n buf).map encData).flatten ++ b!"0000") eofErr true) (by simp [Rdr.new]) rfl sizes hs
  exact ⟨k, outs, r', h1, h2.trans hc.1, by rw [h3]⟩

/-! ### git-at.rs -/

namespace Fixtures

/-- The commits reachable from `dev`, the latest first: ID, message. -/
def commits : List (Bytes × Bytes) := [
  (b!"d66030a89c24a1ecb819ad644004e730f75b1568", b!"Merge branch 'fixup'\n"),
  (b!"eb31d2fb9733a85ddcd9ec63712caa0dfe79cccc", b!"squash! Add baz\n\nThis is a squash, which will have the effect of modifying baz in the\ninitial commit that introduced it, when it was a new file.\n"),
  (b!"c41beaec19674eb3c2f589e6e0e2ee8766bfc079", b!"fixup! Add baz\n\nThis is a commit that modifies baz. When squashed, it will look like we\ninserted this text directly into baz initially, when it was a new file.\n"),
  (b!"4cf979cf194179a3b9dc1d65cc4dc29cfed32614", b!"Add baz\n\nIntroduce baz, a new file, because new files are interesting.\n"),
  (b!"359c338018935adf6a649e7dfad88ae886f8cdf8", b!"Merge branch 'branch'\n"),
  (b!"f232e1550851a748b26f06e648ee10d210e05dea", b!"Update bar\n\nTo ensure maximum barness, update bar to contain content.\n"),
  (b!"3f236e70544fc2b2d448d9f898d753667504190a", b!"Add bar\n\nHaving multiple different files is nice, so add a file, \"bar\".\n"),
  (b!"cade2f7cc336453e30007fe76a57732f5e635cd0", b!"Update foo\n\nTo ensure maximum fooness, update foo to contain content.\n"),
  (b!"84f17cd225de12eeaea57e0bdb32fd6a7b940254", b!"Initial import\n")]

/-- Parents, as indices into `commits`. -/
def parents : Nat → List Nat
  | 0 => [1, 4] | 1 => [2] | 2 => [3] | 3 => [8] | 4 => [5, 7] | 5 => [6] | 6 => [8] | 7 => [8] | _ => []

/-- Whether `commits[i]` is reachable from `commits[j]`. -/
def reaches : Nat → Nat → Nat → Bool
  | 0, _, _ => false
  | f + 1, j, i => j = i || (parents j).any fun k => reaches f k i

/-- The commits reachable from one, the latest first. -/
def walk (id : Bytes) : List Bytes :=
  match (List.range commits.length).find? fun j => (commits[j]?).map Prod.fst = some id with
  | some j => ((List.range commits.length).filter fun i => reaches 9 j i).filterMap fun i => (commits[i]?).map Prod.fst
  | none => []

def history : History where
  revparse s :=
    if s = b!"HEAD" ∨ s = b!"dev" then .ok b!"d66030a89c24a1ecb819ad644004e730f75b1568"
    else if s = b!"dev~1" then .ok b!"359c338018935adf6a649e7dfad88ae886f8cdf8"
    else if s = b!"dev~1~1" then .ok b!"cade2f7cc336453e30007fe76a57732f5e635cd0"
    else if s = b!"branch" then .ok b!"f232e1550851a748b26f06e648ee10d210e05dea"
    else .error ⟨.notFound, b!"revspec not found"⟩
  walk id := .ok ((walk id).map .ok)
  message id := match commits.find? (fun c => c.1 = id) with
    | some c => .ok c.2
    | none => .error ⟨.notFound, b!"object not found"⟩

end Fixtures

/-- git-at.rs:215-232 `run_fixup`: the ID or the kind of the error. -/
def runFixup (summary fixup : Bool) (revision : Option Bytes) (pattern : Bytes) : Option Bytes × Option ErrorKind :=
  match GitAt.run GitAtDemo.engine Fixtures.history (GitAt.program ⟨summary, false, false, !fixup, revision, pattern⟩) with
  | .ok id => (some id, none)
  | .error e => (none, some e.kind)

/-! git-at.rs:244 `simple_results` -/
example : runFixup false true none b!"maximum fooness" = (some b!"cade2f7cc336453e30007fe76a57732f5e635cd0", none) := by decide +kernel
example : runFixup false true none b!"maximum barness" = (some b!"f232e1550851a748b26f06e648ee10d210e05dea", none) := by decide +kernel
example : runFixup false true none b!"max.+\\s+bar.*content" = (some b!"f232e1550851a748b26f06e648ee10d210e05dea", none) := by decide +kernel

/-! git-at.rs:262 `rev_results` -/
example : runFixup false true (some b!"dev~1") b!"maximum fooness" = (some b!"cade2f7cc336453e30007fe76a57732f5e635cd0", none) := by decide +kernel
example : runFixup false true (some b!"dev~1~1") b!"maximum barness" = (none, some .noSuchRevision) := by decide +kernel
example : runFixup false true (some b!"branch") b!"maximum" = (some b!"f232e1550851a748b26f06e648ee10d210e05dea", none) := by decide +kernel

/-! git-at.rs:280 `youngest_results` -/
example : runFixup true true none b!"Update" = (some b!"f232e1550851a748b26f06e648ee10d210e05dea", none) := by decide +kernel
example : runFixup false true none b!"content" = (some b!"f232e1550851a748b26f06e648ee10d210e05dea", none) := by decide +kernel
example : runFixup false true none b!"bar" = (some b!"f232e1550851a748b26f06e648ee10d210e05dea", none) := by decide +kernel
example : runFixup true true none b!"Add" = (some b!"eb31d2fb9733a85ddcd9ec63712caa0dfe79cccc", none) := by decide +kernel

/-! git-at.rs:302 `fixup_results`; `(?i)` is outside the fragment of `Model/Regex.lean`, so the first letter is spelt out -/
example : runFixup true true none b!"Add baz" = (some b!"eb31d2fb9733a85ddcd9ec63712caa0dfe79cccc", none) := by decide +kernel
example : runFixup true false none b!"Add baz" = (some b!"4cf979cf194179a3b9dc1d65cc4dc29cfed32614", none) := by decide +kernel
example : runFixup false true none b!"Add baz" = (some b!"eb31d2fb9733a85ddcd9ec63712caa0dfe79cccc", none) := by decide +kernel
example : runFixup false false none b!"Add baz" = (some b!"4cf979cf194179a3b9dc1d65cc4dc29cfed32614", none) := by decide +kernel
example : runFixup false true none b!"\\binitial\\b" = (some b!"eb31d2fb9733a85ddcd9ec63712caa0dfe79cccc", none) := by decide +kernel
example : runFixup false false none b!"\\b[Ii]nitial\\b" = (some b!"84f17cd225de12eeaea57e0bdb32fd6a7b940254", none) := by decide +kernel
example : runFixup true true none b!"\\binitial\\b" = (none, some .noSuchRevision) := by decide +kernel

/-! ### git-recent-refs.rs -/

namespace Fixtures

/-- The references, in the order of their names. -/
def refs : List Ref := [
  ⟨some b!"f232e1550851a748b26f06e648ee10d210e05dea", some (⟨1551552922, 0⟩, ⟨1551552922, 0⟩), some b!"refs/heads/branch"⟩,
  ⟨some b!"d66030a89c24a1ecb819ad644004e730f75b1568", some (⟨1552250865, 0⟩, ⟨1552250865, 0⟩), some b!"refs/heads/dev"⟩,
  ⟨some b!"eb31d2fb9733a85ddcd9ec63712caa0dfe79cccc", some (⟨1552250851, 0⟩, ⟨1552250851, 0⟩), some b!"refs/heads/fixup"⟩,
  ⟨some b!"82838fb6bdf51d4697a0af2c5add34c96f12d0bb", some (⟨1589149794, 0⟩, ⟨1589149794, 0⟩), some b!"refs/heads/merge1"⟩,
  ⟨some b!"a9b8bc873846bc51b8fa0ea7b4c80982ec627164", some (⟨1589149831, 0⟩, ⟨1589149831, 0⟩), some b!"refs/heads/merge2"⟩,
  ⟨some b!"66da58bbc8615aa6119b4e11e87c1d5f27fd712d", some (⟨1589149867, 0⟩, ⟨1589149867, 0⟩), some b!"refs/heads/merge3"⟩]

/-- After the four checkouts of `visited_results`. -/
def visited (s : Bytes) : Option (Bytes × Option (Option Bytes)) :=
  if s = b!"HEAD" then some (b!"d66030a89c24a1ecb819ad644004e730f75b1568", some (some b!"refs/heads/dev"))
  else if s = b!"@{-1}" then some (b!"f232e1550851a748b26f06e648ee10d210e05dea", some (some b!"refs/heads/branch"))
  else if s = b!"@{-2}" then some (b!"4cf979cf194179a3b9dc1d65cc4dc29cfed32614", none)
  else if s = b!"@{-3}" then some (b!"eb31d2fb9733a85ddcd9ec63712caa0dfe79cccc", some (some b!"refs/heads/fixup"))
  else if s = b!"@{-4}" then some (b!"d66030a89c24a1ecb819ad644004e730f75b1568", some (some b!"refs/heads/dev"))
  else none

def repo : RecentRefs.Repo := ⟨visited, .ok (refs.map .ok)⟩

end Fixtures

/-! git-recent-refs.rs:224 `visited_results` -/
example : RecentRefs.main 10 Fixtures.repo none none .visited = some ⟨RecentRefs.textOf
    [b!"refs/heads/dev", b!"refs/heads/branch", b!"4cf979cf194179a3b9dc1d65cc4dc29cfed32614", b!"refs/heads/fixup",
      b!"refs/heads/dev"], [], .exit 0⟩ := by decide +kernel

/-! git-recent-refs.rs:248 `committer_results` -/
example : RecentRefs.main 10 Fixtures.repo none none .committed = some ⟨RecentRefs.textOf
    [b!"refs/heads/merge3", b!"refs/heads/merge2", b!"refs/heads/merge1", b!"refs/heads/dev", b!"refs/heads/fixup",
      b!"refs/heads/branch"], [], .exit 0⟩ := by decide +kernel

end Verif.Tests
