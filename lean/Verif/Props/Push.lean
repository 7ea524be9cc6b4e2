import Verif.Spec.Push
import Verif.Props.Shared
import Verif.Props.Objects
/-! **C82**: what a client has been told is stored is there, for everybody and for ever; and pushing works. -/
namespace Verif
open Spec

variable {cfg : Cfg} {ρ : Execution}

theorem good_at {root : Path} {sha : Bytes → Bytes} (hstart : ρ.Begins root sha) (m : Nat) :
    ∃ ow, Good root sha (ρ.st m) ow := by
  induction m with
  | zero => exact ⟨_, Good.start hstart.start⟩
  | succ m ih =>
    obtain ⟨ow, hg⟩ := ih
    rcases ρ.step m with h | ⟨h, _⟩
    · rw [hstart.dir] at h; exact ⟨_, (hg.move h).choose_spec.1⟩
    · exact ⟨ow, h ▸ hg⟩

/-- What the next moment does to an object. -/
theorem object_next {root : Path} {sha : Bytes → Bytes} (hstart : ρ.Begins root sha) (m : Nat) (oid : Bytes) :
    ρ.objectsAt root (m + 1) oid = ρ.objectsAt root m oid ∨
      ∃ c, ρ.objectsAt root (m + 1) oid = some c ∧ hex (sha c) = oid := by
  obtain ⟨ow, hg⟩ := good_at hstart m
  rcases ρ.step m with h | ⟨h, _⟩
  · rw [hstart.dir] at h
    obtain ⟨_, _, hstep, _⟩ := hg.move h
    rcases hstep oid with h | ⟨_, _, c, _, hc, hc'⟩
    · left; rw [Execution.objectsAt, Execution.objectsAt, objectFile_eq]; exact h
    · right
      refine ⟨c, ?_, by rw [← hexEncode_eq_hex]; exact hc'⟩
      rw [Execution.objectsAt, objectFile_eq]; exact hc
  · left; rw [Execution.objectsAt, Execution.objectsAt, h]

theorem object_stays {root : Path} {sha : Bytes → Bytes} (hstart : ρ.Begins root sha) {n m : Nat} {oid d : Bytes}
    (hd : ρ.objectsAt root n oid = some d) (hh : hex (sha d) = oid) (hm : n ≤ m) :
    ∃ d, ρ.objectsAt root m oid = some d ∧ hex (sha d) = oid := by
  induction hm with
  | refl => exact ⟨d, hd, hh⟩
  | @step m _ ih =>
    obtain ⟨d', h1, h2⟩ := ih
    rcases object_next hstart m oid with h | h
    · exact ⟨d', h.trans h1, h2⟩
    · exact h

theorem intact_at {root : Path} {sha : Bytes → Bytes} (hstart : ρ.Begins root sha)
    (h0 : Intact sha (ρ.objectsAt root 0)) (n : Nat) : Intact sha (ρ.objectsAt root n) := by
  induction n with
  | zero => exact h0
  | succ n ih =>
    intro oid d ho hd
    rcases object_next hstart n oid with h | ⟨c, h, h'⟩
    · exact ih oid d ho (by rw [← h]; exact hd)
    · rw [h] at hd; cases hd; exact h'

theorem not_there {oid : Bytes} {n : Nat} : ¬ SaysThere (oid ++ b!" " ++ decimal n ++ b!" upload\n") := by
  rintro ⟨t, ht⟩
  have h1 := congrArg (fun l => l.reverse.take 6) ht
  simp only [List.reverse_append] at h1
  revert h1
  simp

theorem put_ok {mode : Mode} {s : Store} {oid data : Bytes} {size : Nat}
    (h : (answer cfg mode s 0 0 (.put oid size data)).1 = ⟨200, [], .none⟩) : putError cfg oid size data = none := by
  simp only [answer] at h
  split at h
  · simp [badRequest] at h
  · assumption

/-- **C82, knowledge.** Several servers on one repository in which all objects have the right hash, each reading any
input, scheduled in any order, with any failures, killed at will. Once any of them has told its client that an object is
stored, the object is there with the right hash at every later moment. -/
theorem C82_known {root : Path} {sha : Bytes → Bytes} (hstart : ρ.Begins root sha)
    (h0 : Intact sha (ρ.objectsAt root 0)) {oid : Bytes} (ho : IsOid oid) {e m : Nat} (h : ToldStored ρ root oid e)
    (hm : e ≤ m) : ∃ d, ρ.objectsAt root m oid = some d ∧ hex (sha d) = oid := by
  have fin : ∀ n d, n ≤ m → ρ.objectsAt root n oid = some d →
      ∃ d, ρ.objectsAt root m oid = some d ∧ hex (sha d) = oid :=
    fun n d hn hd => object_stays hstart hd (intact_at hstart h0 n oid d ho hd) hn
  cases h with
  | put i cfg mode a e' size data hr he hans =>
    obtain ⟨n, h1, h2, _, h4, h5, _⟩ := hans
    have hobj := h5 oid ho
    simp only [answer, put_ok h4, if_true, hr] at hobj
    exact fin (n + 1) data (by omega) hobj
  | batch i cfg a e' k size items lines line hr he hans hk hl hs =>
    obtain ⟨ms, h1, _, h3, h4, _⟩ := hans
    injection h4 with _ _ h4
    injection h4 with h4
    rw [h4, List.getElem?_zipWith] at hl
    obtain ⟨n, hn⟩ : ∃ n, ms[k]? = some n := by
      have := (List.getElem?_eq_some_iff.mp hk).1
      exact ⟨ms[k], List.getElem?_eq_getElem (by omega)⟩
    simp only [hn, hk] at hl
    have hmem := h3 n (List.mem_of_getElem? hn)
    cases hd : ρ.objectsAt root n oid with
    | some d => exact fin n d (by omega) hd
    | none =>
      simp only [batchLine, storeAt, hr, hd, Option.some.injEq] at hl
      rw [← hl] at hs
      exact absurd hs not_there
  | verify i cfg mode a e' size hr he hans =>
    obtain ⟨n, h1, h2, h3, _⟩ := hans
    cases hd : ρ.objectsAt root n oid with
    | some d => exact fin n d (by omega) hd
    | none => simp [answer, storeAt, hr, hd] at h3

/-- **C82, pulling.** From then on every server that is asked for the object sends bytes with its hash. -/
theorem C82_pull {root : Path} {sha : Bytes → Bytes} (hstart : ρ.Begins root sha)
    (h0 : Intact sha (ρ.objectsAt root 0)) {oid : Bytes} (ho : IsOid oid) {e : Nat} (h : ToldStored ρ root oid e)
    {j a b : Nat} {cfg : Cfg} {mode : Mode} {ans : Answer} (hr : cfg.root = root) (ha : e ≤ a)
    (hget : Answered ρ j cfg mode a b (.get oid) ans) :
    ∃ d, hex (sha d) = oid ∧ ans = ⟨200, [b!"size=" ++ decimal d.length ++ b!"\n"], .raw d⟩ := by
  obtain ⟨m, k1, k2, k3, _⟩ := hget
  obtain ⟨d, hd, hd'⟩ := C82_known hstart h0 ho h (by omega : e ≤ m)
  rw [hr] at k3
  simp only [answer, storeAt, hd] at k3
  exact ⟨d, hd', k3.symm⟩

theorem served_mem {i : Nat} {mode : Mode} {a c : Nat} {qs : List Request} (h : ServedIn ρ i cfg mode a qs c) :
    a ≤ c ∧ ∀ q ∈ qs, ∃ a' e ans, e ≤ c ∧ Answered ρ i cfg mode a' e q ans := by
  induction h with
  | nil => exact ⟨Nat.le_refl _, fun _ h => by cases h⟩
  | cons h1 h2 h3 h4 h5 h6 _ ih =>
    refine ⟨by omega, fun q hq => ?_⟩
    rcases List.mem_cons.mp hq with rfl | hq
    · exact ⟨_, _, _, by omega, h4⟩
    · exact ih.2 q hq

theorem finishes_served {i : Nat} {mode : Mode} {qs : List Request} {N : Nat} (hstart : ρ.Begins cfg.root cfg.sha)
    (htidy : Tidy cfg.root (ρ.st 0).fs) (hsha : ∀ b, (cfg.sha b).length = 32) (h : Finishes ρ i cfg mode qs N) :
    ∃ a b, a ≤ b ∧ b ≤ N ∧ ρ.out i 0 a = b!"000eversion=1\n0000" ∧ ServedIn ρ i cfg mode a qs b ∧ ρ.out i b N = [] := by
  obtain ⟨r, wire, hp, hs, hi, hpend, hfin⟩ := h.program
  obtain ⟨x, hx⟩ := h.ended
  obtain ⟨_, a, b, hab, hb, h1, _, h3, h4⟩ := C56_finished hstart htidy hp hsha hs h.objects hi hpend hfin h.noFault
    h.notKilled hx
  refine ⟨a, b, hab, hb, h1, h3, ?_⟩
  unfold Execution.out
  rw [List.flatMap_eq_nil_iff]
  intro k hk
  rw [List.mem_range'_1] at hk
  exact printed_idle (h4 k hk.1 (by omega))

theorem Spec.BatchLines.oid {items : List (Bytes × Nat)} {ls : List Bytes} (h : BatchLines items ls)
    {it : Bytes × Nat} (hit : it ∈ items) : IsOid it.1 := by
  induction h with
  | nil => cases hit
  | cons h _ _ ih =>
    rcases List.mem_cons.mp hit with rfl | hit
    · exact h
    · exact ih hit

/-- **C82, pushing.** Several servers on one repository in which all objects have the right hash, doing anything as
before. A client asks one of them, `i`, which of some objects are missing, and gets one line for each. It sends those
that are not said to be there to a server `j` (the same or another one, at any time). When both have ended without an I/O
error, all the objects are stored with the right hash, and stay so, whatever the other servers did and do. -/
theorem C82_push {i N : Nat} {items : List (Bytes × Nat)} {post : List Request} (hstart : ρ.Begins cfg.root cfg.sha)
    (htidy : Tidy cfg.root (ρ.st 0).fs) (hsha : ∀ b, (cfg.sha b).length = 32)
    (h0 : Intact cfg.sha (ρ.objectsAt cfg.root 0))
    (hb : Finishes ρ i cfg .upload (.batch items :: post) N) :
    ∃ lines reply more, ρ.out i 0 N = b!"000eversion=1\n0000" ++ reply ++ more ∧
      Sends ⟨200, [], .lines lines⟩ reply ∧ lines.length = items.length ∧
      ∀ (j : Nat) (cfg' : Cfg) (qs : List Request) (N' : Nat), cfg'.root = cfg.root → cfg'.sha = cfg.sha →
        Finishes ρ j cfg' .upload qs N' →
        (∀ (k : Nat) (it : Bytes × Nat) (line : Bytes), items[k]? = some it → lines[k]? = some line → ¬ SaysThere line →
          ∃ d, hex (cfg.sha d) = it.1 ∧ .put it.1 d.length d ∈ qs) →
        ∀ m, N ≤ m → N' ≤ m → ∀ it ∈ items, ∃ d, ρ.objectsAt cfg.root m it.1 = some d ∧ hex (cfg.sha d) = it.1 := by
  have ho : ∀ it ∈ items, IsOid it.1 := by
    obtain ⟨_, _, _, h, _⟩ := hb.program
    cases h with | cons h => cases h with | batch _ _ _ h => exact fun it => h.oid
  obtain ⟨a, b, hab, hbN, hg, hserved, hend⟩ := finishes_served hstart htidy hsha hb
  have hout : ρ.out i 0 N = b!"000eversion=1\n0000" ++ ρ.out i a b := by
    rw [out_append ρ i (Nat.zero_le b) hbN, out_append ρ i (Nat.zero_le a) hab, hg, hend, List.append_nil]
  cases hserved with
  | @cons _ e b' c _ _ ans h1 h2 h3 h4 h5 h6 hrest =>
    have hle := (served_mem hrest).1
    have h4' := h4
    obtain ⟨ms, l1, l2, l3, rfl, _⟩ := h4
    refine ⟨_, ρ.out i e b', ρ.out i b' b, ?_, h5, by simp [l1], ?_⟩
    · rw [hout, out_append ρ i (by omega : a ≤ e) (by omega), h3, List.nil_append, out_append ρ i h2 hle,
        List.append_assoc]
    · intro j cfg' qs N' hr hs hf hputs m hN hN' it hit
      obtain ⟨k, hk⟩ := List.getElem?_of_mem hit
      generalize hL : List.zipWith (fun n it => batchLine (storeAt ρ cfg.root n) .upload it) ms items = lines at *
      have hlen : k < lines.length := by
        have := (List.getElem?_eq_some_iff.mp hk).1
        rw [← hL, List.length_zipWith]
        omega
      have hline := List.getElem?_eq_getElem hlen
      by_cases hsay : SaysThere lines[k]
      · exact C82_known hstart h0 (ho it hit) (.batch i cfg a e k it.2 items lines _ rfl (by omega) h4' hk hline hsay) hN
      · obtain ⟨d, hd, hq⟩ := hputs k it _ hk hline hsay
        obtain ⟨a2, b2, _, hb2, _, hserved2, _⟩ := finishes_served (cfg := cfg') (by rw [hr, hs]; exact hstart)
          (by rw [hr]; exact htidy) (by rw [hs]; exact hsha) hf
        obtain ⟨a3, e3, ans3, he3, hans⟩ := (served_mem hserved2).2 _ hq
        have : ans3 = ⟨200, [], .none⟩ := by
          obtain ⟨n, _, _, _, h, _⟩ := hans
          have hn := (putError_none (cfg := cfg') (oid := it.1) (n := d.length)).mpr ⟨rfl, (by rw [hs]; exact hd)⟩
          rw [← h]
          simp only [answer, hn]
        subst this
        exact C82_known hstart h0 (ho it hit) (.put j cfg' .upload a3 e3 _ d hr (by omega) hans) hN'

/-! ### A case -/

namespace Tests

def ended {α : Type} : Prog α → Bool
  | .ret _ => true
  | .call _ _ => false

theorem ended_of {α : Type} {p : Prog α} (h : ended p = true) : ∃ x, p = .ret x := by
  cases p with
  | ret x => exact ⟨x, rfl⟩
  | call => cases h

def askA : List Packet := [.data b!"batch\n", .delim, .data (oidA ++ b!" 6\n"), .flush]
theorem askA_encodes : Encodes (.batch [(oidA, 6)]) askA :=
  .batch (kv := []) (ls := [oidA ++ b!" 6\n"]) (.inr rfl) (by unfold ArgsOk; decide) (by intro a h; cases h)
    (.cons oidA_ok num6 .nil)

/-- Process 0 asks for the object twice; process 1 uploads it meanwhile. -/
def pushing : Sys :=
  ⟨fs0, fun i => server Tests.cfg b!"upload" (if i = 0 then enc askA ++ (enc askA ++ [])
    else if i = 1 then enc (putA [b!"abc", b!"123"]) ++ [] else [])⟩

theorem pushing_start : Start Tests.cfg.root Tests.cfg.sha pushing :=
  ⟨fun i => ⟨_, _, _, rfl, rfl, rfl⟩, fun p i h => (by cases h), fun p i _ h => (by cases h)⟩

theorem pushing_asks : Finishes (pushing.scheduled turns) 0 Tests.cfg .upload
    [.batch [(oidA, 6)], .batch [(oidA, 6)]] 60 where
  program := ⟨_, _, rfl, .cons askA_encodes (frames_enc _ (by decide +kernel)) trivial (by simp)
    (.cons askA_encodes (frames_enc _ (by decide +kernel)) trivial (by simp) .eof), rfl, rfl, rfl⟩
  objects := by simp [OnObjects]
  noFault := pushing.scheduled_noFault _ _ _
  notKilled := Sys.scheduled_notKilled (honest_main _ _ _) _
  ended := ended_of (by decide +kernel)

theorem pushing_sends : Finishes (pushing.scheduled turns) 1 Tests.cfg .upload [.put oidA 6 b!"abc123"] 60 where
  program := ⟨_, _, rfl, .cons (putA_encodes [b!"abc", b!"123"] (by decide)) (frames_enc _ (by decide +kernel)) rfl
    (by simp) .eof, rfl, rfl, rfl⟩
  objects := by simp [OnObjects]
  noFault := pushing.scheduled_noFault _ _ _
  notKilled := Sys.scheduled_notKilled (honest_main _ _ _) _
  ended := ended_of (by decide +kernel)

/-- The object is missing at first; later it is there. -/
example : (pushing.scheduled turns).out 0 0 60 = b!"000eversion=1\n0000" ++
    (b!"000fstatus 200\n0001004e" ++ oidA ++ b!" 6 upload\n0000") ++
    (b!"000fstatus 200\n0001004c" ++ oidA ++ b!" 6 noop\n0000") := by decide +kernel

/-- The theorem applies: the object is there from then on. -/
example (m : Nat) (hm : 60 ≤ m) :
    ∃ d, (pushing.scheduled turns).objectsAt Tests.cfg.root m oidA = some d ∧ hex (sha256 d) = oidA := by
  have h0 : Intact Tests.cfg.sha ((pushing.scheduled turns).objectsAt Tests.cfg.root 0) := by
    intro oid d _ h
    cases h
  obtain ⟨lines, reply, more, _, _, _, h⟩ := C82_push ⟨rfl, pushing_start⟩ fs0_tidy sha256_length h0 pushing_asks
  refine h 1 Tests.cfg _ 60 rfl rfl pushing_sends (fun k it line hk _ _ => ?_) m hm hm (oidA, 6) (by simp)
  have : it = (oidA, 6) := by simpa using List.mem_of_getElem? hk
  subst this
  exact ⟨b!"abc123", by decide +kernel, by simp⟩

/-- The client of process 1 has been told that it is stored, as the other two theorems want it. -/
example : ToldStored (pushing.scheduled turns) Tests.cfg.root oidA 60 := by
  obtain ⟨a, b, _, hb, _, hserved, _⟩ := finishes_served ⟨rfl, pushing_start⟩ fs0_tidy sha256_length pushing_sends
  obtain ⟨a', e, ans, he, h⟩ := (served_mem hserved).2 _ (List.mem_cons_self ..)
  have : ans = ⟨200, [], .none⟩ := by
    obtain ⟨n, _, _, _, h, _⟩ := h
    have hn : putError Tests.cfg oidA 6 b!"abc123" = none := putError_none.mpr ⟨rfl, by decide +kernel⟩
    rw [← h]
    simp only [answer, hn]
  subst this
  exact .put 1 _ _ _ _ _ _ rfl (by omega) h

end Tests
end Verif
