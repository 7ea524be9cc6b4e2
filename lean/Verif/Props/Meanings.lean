import Verif.Props.Meaning
import Verif.Props.Readable
import Verif.Props.Reads
/-! Property C72: every request has one meaning only, examples, and what an `unlock` may reveal. -/
namespace Verif
open Spec

variable {cfg : Cfg} {mode : Mode} {ch : Nat → Choice} {s : Store} {r r1 r' : Rdr}

/-! ### One meaning -/

theorem lookup_same {kv kv' : List (Bytes × Bytes)} (h : ArgsOk kv) (h' : ArgsOk kv') (e : argPackets kv = argPackets kv')
    (k : Bytes) : lookup kv k = lookup kv' k := by
  obtain ⟨m, h1, h2⟩ := C09_args_exact kv h
  obtain ⟨m', h1', h2'⟩ := C09_args_exact kv' h'
  rw [← argPackets_data] at h1 h1'
  rw [e, h1'] at h1
  cases h1
  rw [← h2, h2']

theorem num_same {s : Bytes} {n n' : Nat} (h : Num s n) (h' : Num s n') : n = n' := by
  have := (num_parse h).symm.trans (num_parse h')
  exact Res.ok.inj this

theorem lines_same {its its' : List (Bytes × Nat)} {ls : List Bytes} (h : BatchLines its ls) (h' : BatchLines its' ls) :
    its = its' := Res.ok.inj ((parseBatchLines_ok h).1.symm.trans (parseBatchLines_ok h').1)

theorem limit_same {kv kv' : List (Bytes × Bytes)} {n n' : Option Nat} (e : lookup kv b!"limit" = lookup kv' b!"limit")
    (h : LimitArg kv n) (h' : LimitArg kv' n') : n = n' := by
  cases n with
  | none =>
    cases n' with
    | none => rfl
    | some n' =>
      obtain ⟨-, s, h2, -⟩ := h'
      rw [← e, show lookup kv b!"limit" = none from h] at h2
      cases h2
  | some n =>
    obtain ⟨-, s, h2, h3⟩ := h
    cases n' with
    | none =>
      rw [e, show lookup kv' b!"limit" = none from h'] at h2
      cases h2
    | some n' =>
      obtain ⟨-, s', h2', h3'⟩ := h'
      rw [e, h2'] at h2
      cases h2
      rw [num_same h3 h3']

theorem first_split {t : Packet} {a a' b b' : List Packet} (h : t ∉ a) (h' : t ∉ a') (e : a ++ t :: b = a' ++ t :: b') :
    a = a' ∧ b = b' := by
  induction a generalizing a' with
  | nil =>
    cases a' with
    | nil => exact ⟨rfl, (List.cons.inj e).2⟩
    | cons x a' => simp only [List.nil_append, List.cons_append, List.cons.injEq] at e; simp [e.1] at h'
  | cons x a ih =>
    cases a' with
    | nil => simp only [List.nil_append, List.cons_append, List.cons.injEq] at e; simp [e.1] at h
    | cons y a' =>
      simp only [List.cons_append, List.cons.injEq] at e
      obtain ⟨h1, h2⟩ := ih (fun hm => h (by simp [hm])) (fun hm => h' (by simp [hm])) e.2
      exact ⟨by rw [e.1, h1], h2⟩

theorem map_data_inj {a b : List Bytes} (h : a.map Packet.data = b.map Packet.data) : a = b := by
  have := congrArg (List.map payload) h
  rw [List.map_map, List.map_map] at this
  have id' : (payload ∘ Packet.data) = id := rfl
  rwa [id', List.map_id, List.map_id] at this

/-- **C72**: packets mean one request only. -/
theorem C72_one_meaning {ps : List Packet} {q q' : Request} (h : Spec.Means mode ps q) (h' : Spec.Means mode ps q') : q = q' := by
  generalize hps : ps = ps' at h'
  cases h with
  | version hl _ =>
    cases h' <;> simp only [List.cons_append, List.cons.injEq, Packet.data.injEq] at hps <;> obtain ⟨rfl, hps⟩ := hps
    case version => rfl
    all_goals exact absurd (commandLine_unique hl (by assumption)) (by simp)
  | batch hl ha hh hb =>
    cases h' <;> simp only [List.cons_append, List.cons.injEq, Packet.data.injEq] at hps <;> obtain ⟨rfl, hps⟩ := hps
    case batch hb' _ =>
      rw [List.append_assoc, List.append_assoc] at hps
      obtain ⟨-, h2⟩ := first_split (argPackets_delim _) (argPackets_delim _) hps
      have h3 := map_data_inj (List.append_cancel_right h2)
      subst h3
      rw [lines_same hb hb']
    all_goals exact absurd (commandLine_unique hl (by assumption)) (by simp)
  | put hl ho ha hs hn hds ht =>
    cases h' <;> simp only [List.cons_append, List.cons.injEq, Packet.data.injEq] at hps <;> obtain ⟨rfl, hps⟩ := hps
    case put ho' ha' hs' hn' _ _ hl' =>
      rw [List.append_assoc, List.append_assoc] at hps
      obtain ⟨h1, h2⟩ := first_split (argPackets_delim _) (argPackets_delim _) hps
      have h3 := map_data_inj (List.append_inj_left' h2 rfl)
      subst h3
      have h4 := commandLine_unique hl hl'
      simp only [List.cons.injEq, true_and] at h4
      rw [lookup_same ha ha' h1, hs'] at hs
      cases hs
      rw [h4.1, num_same hn hn']
    all_goals exact absurd (commandLine_unique hl (by assumption)) (by simp)
  | verify hl ho ha hs hn =>
    cases h' <;> simp only [List.cons_append, List.cons.injEq, Packet.data.injEq] at hps <;> obtain ⟨rfl, hps⟩ := hps
    case verify _ ha' hs' hn' hl' =>
      have h4 := commandLine_unique hl hl'
      simp only [List.cons.injEq, true_and] at h4
      rw [lookup_same ha ha' (List.append_cancel_right hps), hs'] at hs
      cases hs
      rw [h4.1, num_same hn hn']
    all_goals exact absurd (commandLine_unique hl (by assumption)) (by simp)
  | get hl ho ha =>
    cases h' <;> simp only [List.cons_append, List.cons.injEq, Packet.data.injEq] at hps <;> obtain ⟨rfl, hps⟩ := hps
    case get _ _ hl' =>
      have h4 := commandLine_unique hl hl'
      simp only [List.cons.injEq, true_and] at h4
      rw [h4.1]
    all_goals exact absurd (commandLine_unique hl (by assumption)) (by simp)
  | lock hl ha hp hr =>
    cases h' <;> simp only [List.cons_append, List.cons.injEq, Packet.data.injEq] at hps <;> obtain ⟨rfl, hps⟩ := hps
    case lock ha' hp' _ _ =>
      rw [lookup_same ha ha' (List.append_cancel_right hps), hp'] at hp
      cases hp
      rfl
    all_goals exact absurd (commandLine_unique hl (by assumption)) (by simp)
  | listLocks hl ha hlim =>
    cases h' <;> simp only [List.cons_append, List.cons.injEq, Packet.data.injEq] at hps <;> obtain ⟨rfl, hps⟩ := hps
    case listLocks ha' hlim' _ =>
      have e := lookup_same ha ha' (List.append_cancel_right hps)
      rw [limit_same (e _) hlim hlim', e, e]
    all_goals exact absurd (commandLine_unique hl (by assumption)) (by simp)
  | unlock hl hid hn =>
    cases h' <;> simp only [List.cons_append, List.cons.injEq, Packet.data.injEq] at hps <;> obtain ⟨rfl, hps⟩ := hps
    case unlock _ _ hl' =>
      have h4 := commandLine_unique hl hl'
      simp only [List.cons.injEq, true_and] at h4
      rw [h4.1]
    all_goals exact absurd (commandLine_unique hl (by assumption)) (by simp)

theorem linePackets_flatten {l : Bytes} {ps : List Bytes} (h : LinePackets l ps) : ps.flatten = l := by
  induction h with
  | short => simp
  | long _ _ _ ih => simp [ih]

theorem linesPackets_flatten {ls ps : List Bytes} (h : LinesPackets ls ps) : ps.flatten = ls.flatten := by
  induction h with
  | nil => rfl
  | cons h _ ih => simp [linePackets_flatten h, ih]

theorem denial_unique {code code' : Nat} {msg msg' w : Bytes} (h : Sends (denial code msg) w) (h' : Sends (denial code' msg') w) :
    code = code' ∧ msg = msg' := by
  obtain ⟨r, o, f, c, -, b⟩ := h
  obtain ⟨r', o', f', c', -, b'⟩ := h'
  have e := C71_reply o o' f f'
  subst e
  refine ⟨c.symm.trans c', ?_⟩
  obtain ⟨ps, d, l⟩ := b
  obtain ⟨ps', d', l'⟩ := b'
  rw [d] at d'
  cases d'
  have := (linesPackets_flatten l).symm.trans (linesPackets_flatten l')
  simpa using this

/-- **C72**: nonsense is denied in one way only. -/
theorem C72_one_denial {ps : List Packet} {code code' : Nat} {msg msg' : Bytes} (h : Denied mode ps code msg)
    (h' : Denied mode ps code' msg') (hfit : ∀ p ∈ ps, Fits p) : code = code' ∧ msg = msg' := by
  have hF := enc_frames hfit
  let r : Rdr := { input := (ps.map encPacket).flatten, pending := [], fin := eofErr, checked := false }
  obtain ⟨tr, ⟨x, r'⟩, hf, ho, _⟩ := exists_finished (turn Tests.cfg mode r)
  have h1 := C72_reply (rest := []) h hF (show r.input = _ by simp [r]) hf ho
  have h2 := C72_reply (rest := []) h' hF (show r.input = _ by simp [r]) hf ho
  exact denial_unique h1.2.2 h2.2.2

theorem not_badArgs {kv : List (Bytes × Bytes)} {code : Nat} {msg : Bytes} (h : ArgsOk kv) : ¬ BadArgs (argPackets kv) code msg := by
  intro hb
  obtain ⟨e, he, _⟩ := parse_badArgs hb
  obtain ⟨m, hm, _⟩ := C09_args_exact kv h
  rw [argPackets_data, hm] at he
  cases he

theorem not_badSize {x s msg : Bytes} {n : Nat} {o : Option Bytes} (h : o = some s) (hn : Num s n) : ¬ BadSize x o msg := by
  subst h
  intro hb
  cases hb with
  | wrong h => exact h ⟨n, hn⟩

theorem means_denied {ps : List Packet} {q : Request} {code : Nat} {msg : Bytes} (h : Spec.Means mode ps q)
    (h' : Denied mode ps code msg) (hF : Frames ps (ps.map encPacket).flatten) : False := by
  have main : (∀ t t' : Int, (answer Tests.cfg mode Tests.sA t t' q).1.code ∉ [400, 403, 500]) → False := by
    intro hn
    let r : Rdr := { input := (ps.map encPacket).flatten, pending := [], fin := eofErr, checked := false }
    have h1 := runs_turn_means (r := r) (rest := []) (ch := Tests.calm) (w := ⟨Tests.fsA, [], 0⟩) (fun _ => rfl) Tests.sha_len
      (Tests.clock_ok _) h hF (by simp [r]) rfl Tests.repA Tests.readyA
    have h2 := runs_turn_denied (r := r) (rest := []) (ch := Tests.calm) (w := ⟨Tests.fsA, [], 0⟩) (fun _ => rfl)
      h' hF (by simp [r]) Tests.repA Tests.readyA
    have e1 := (Prog.wp_run Tests.calm (turn Tests.cfg mode r) ⟨Tests.fsA, [], 0⟩ _).mp h1
    have e2 := (Prog.wp_run Tests.calm (turn Tests.cfg mode r) ⟨Tests.fsA, [], 0⟩ _).mp h2
    obtain ⟨-, -, t, t', b, -, -, o1, s1, -⟩ := e1
    obtain ⟨-, -, u, u', b', -, -, o2, s2, -⟩ := e2
    have : b = b' := List.append_cancel_left (o1.symm.trans o2)
    subst this
    obtain ⟨r1, k1, f1, c1, -⟩ := s1
    obtain ⟨r2, k2, f2, c2, -⟩ := s2
    have e := C71_reply k1 k2 f1 f2
    subst e
    have : code ∈ [400, 403, 500] := by
      rcases (denied_code h').1 with rfl | rfl | rfl <;> simp
    exact hn t t' (by rw [← c1, c2]; exact this)
  cases q with
  | put oid n data =>
    cases h with
    | put hl ho ha hs hn hds ht =>
      generalize hps : (Packet.data _ :: argPackets _ ++ Packet.delim :: _ ++ [_]) = ps at h'
      cases h' <;> simp only [List.cons_append, List.cons.injEq, Packet.data.injEq] at hps
      case single => simp at hps
      case putOid => simp at hps
      case args hl' hc _ _ _ =>
        obtain ⟨rfl, hps⟩ := hps
        have e := commandLine_unique hl hl'
        cases hc <;> simp at e
      case oid hl' hc _ _ =>
        obtain ⟨rfl, hps⟩ := hps
        have e := commandLine_unique hl hl'
        rcases hc with ⟨-, rfl⟩ | ⟨h, -⟩
        · simp at e
        · cases h
      case putArgs hd hb =>
        obtain ⟨rfl, hps⟩ := hps
        rw [List.append_assoc] at hps
        obtain ⟨h1, -⟩ := first_split (argPackets_delim _) hd hps
        rw [← h1] at hb
        exact not_badArgs ha hb
      case putSize ha' hb =>
        obtain ⟨rfl, hps⟩ := hps
        rw [List.append_assoc] at hps
        obtain ⟨h1, -⟩ := first_split (argPackets_delim _) (argPackets_delim _) hps
        rw [← lookup_same ha ha' h1] at hb
        exact not_badSize hs hn hb
      all_goals
        obtain ⟨rfl, hps⟩ := hps
        exact absurd (commandLine_unique hl (by assumption)) (by simp)
  | listLocks path cursor limit =>
    refine main fun t t' => ?_
    cases path <;> simp [answer, Store.find, Tests.sA, notFound]
  | lock path =>
    refine main fun t t' => ?_
    simp only [answer, Store.find, Tests.sA, List.find?_nil]
    simp
  | _ =>
    refine main fun t t' => ?_
    simp only [answer]
    (repeat' split) <;> simp [notFound]

/-- **C72**: what is denied has no meaning. -/
theorem C72_not_both {ps : List Packet} {q : Request} {code : Nat} {msg : Bytes} (h : Spec.Means mode ps q)
    (h' : Denied mode ps code msg) (hfit : ∀ p ∈ ps, Fits p) : False :=
  means_denied h h' (enc_frames hfit)

/-! ### What an `unlock` may reveal -/

namespace Tests

/-- Nothing is stored, and there is a file outside the lfs directory. -/
def fsOutside : FS := ⟨[([b!"repo", b!"secret"], 0)], fs0.dirs, fun _ => ⟨b!"hello", 0, 0o600, []⟩, 1⟩

theorem getOutside (p : Path) : fsOutside.get p = if p = [b!"repo", b!"secret"] then some 0 else none := by
  simp only [FS.get, alGet, fsOutside, @eq_comm _ p]

theorem repOutside : Rep Tests.cfg s0 fsOutside where
  objs oid _ := by
    have : objectFile Tests.cfg.root oid ≠ [b!"repo", b!"secret"] := by simp [objectFile, objectDir, Tests.cfg]
    simp [FS.content, getOutside, this, s0]
  locks := by simp [s0]
  only n hn := by
    have : lockFile Tests.cfg.root n ≠ [b!"repo", b!"secret"] := by simp [lockFile, Tests.cfg]
    simp [getOutside, this] at hn
  sorted := by simp [s0]
  times := by simp [s0]
  objFiles oid ho hm := rep0.objFiles oid ho hm
  lockFiles n hm := rep0.lockFiles n hm
  noFile d hd q hq := by
    rw [getOutside, if_neg]
    rintro rfl
    obtain ⟨t, ht⟩ := hq
    have h1 : d[1]? = some b!"secret" := by rw [← ht]; rfl
    rcases hd with hd | ⟨oid, _, rfl⟩
    · simp only [topDirs, List.mem_cons, List.not_mem_nil, or_false] at hd
      rcases hd with rfl | rfl | rfl | rfl <;> simp [Tests.cfg] at h1
    · simp [objectDir, Tests.cfg] at h1
  nodup := by decide
  bound p i hp := by
    rw [getOutside] at hp
    split at hp
    · cases hp; decide
    · cases hp

/-- The request: `unlock ../../../secret`. -/
def odd : List Packet := [.data b!"unlock ../../../secret\n", .flush]

end Tests

open Tests in
/-- **C72** is false for the code: two repositories with the same objects and locks (none), and a request for which the
replies differ, because the server looks at a file outside the lfs directory. -/
theorem C72_refuted : ∃ (s : Store) (fs fs' : FS) (ps : List Packet), Rep Tests.cfg s fs ∧ Rep Tests.cfg s fs' ∧
    OddUnlock ps ∧ Extent .upload ps ∧
    ((server Tests.cfg b!"upload" (enc ps)).run calm ⟨fs, [], 0⟩).2.out = b!"000eversion=1\n0000" ++
      b!"000fstatus 404\n0001000enot found\n0000" ∧
    ((server Tests.cfg b!"upload" (enc ps)).run calm ⟨fs', [], 0⟩).2.out ≠
      ((server Tests.cfg b!"upload" (enc ps)).run calm ⟨fs, [], 0⟩).2.out := by
  have hl : CommandLine b!"unlock ../../../secret\n" [b!"unlock", b!"../../../secret"] := by
    exact ⟨b!"unlock ../../../secret", .cons (x := b!"unlock") (w := b!"../../../secret") (by decide) (.one (by decide)),
      by decide, .inl rfl⟩
  refine ⟨s0, fs0, fsOutside, odd, rep0, repOutside,
    .mk (items := []) hl (fun h => absurd h.1 (by decide)) ?_ (by simp), .args (items := []) hl .unlock (by simp), by decide +kernel, by decide +kernel⟩
  exact utf8Valid_iff.mp (by decide +kernel)

/-! ### Well-formed requests -/

theorem isLine_command {x l : Bytes} {ws : List Bytes} (h : IsLine x l) (hw : Words x ws) (hne : x ≠ [])
    (hl : x.getLast? ≠ some 10) : CommandLine l ws := by
  rcases h with rfl | rfl
  · exact ⟨_, hw, hne, .inr ⟨rfl, hl⟩⟩
  · exact ⟨_, hw, hne, .inl rfl⟩

theorem isLine_oid {cmd oid l : Bytes} (hc : (32 : UInt8) ∉ cmd) (ho : IsOid oid) (h : IsLine (cmd ++ b!" " ++ oid) l) :
    CommandLine l [cmd, oid] := by
  have hne : oid ≠ [] := by rintro rfl; exact absurd ho.1 (by decide)
  refine isLine_command h (.cons hc (.one fun hm => absurd (ho.2 _ hm) (by decide))) (by simp) ?_
  rw [List.getLast?_append, List.getLast?_eq_some_getLast hne]
  intro e
  simp only [Option.some_or, Option.some.injEq] at e
  exact absurd (ho.2 _ (e ▸ List.getLast_mem hne)) (by decide)

theorem no_flush (kv : List (Bytes × Bytes)) : Packet.flush ∉ argPackets kv := by simp [argPackets]

/-- **C72**: the requests of the protocol mean what they say. -/
theorem C72_sensible {q : Request} {ps : List Packet} (h : Encodes q ps) (ha : Allowed mode q) (hq : q ≠ .quit) :
    Spec.Means mode ps q := by
  cases h with
  | version hl => exact .version (isLine_command hl (.cons (x := b!"version") (by decide) (.one (x := b!"1") (by decide)))
      (by decide) (by decide)) (no_flush _)
  | quit => exact absurd rfl hq
  | batch hl hk hh hb => exact .batch (isLine_command hl (.one (by decide)) (by decide) (by decide)) hk hh hb
  | put ho hl hk hs hn hd he =>
    cases ha
    subst he
    exact .put (isLine_oid (by decide) ho hl) ho hk hs hn hd (.inl rfl)
  | verify ho hl hk hs hn =>
    cases ha
    exact .verify (isLine_oid (by decide) ho hl) ho hk hs hn
  | get ho hl hk =>
    cases ha
    exact .get (isLine_oid (by decide) ho hl) ho hk
  | lock hl hk hp hr =>
    cases ha
    exact .lock (isLine_command hl (.one (by decide)) (by decide) (by decide)) hk hp hr
  | listLocks hl hk hlim hp hc =>
    subst hp hc
    exact .listLocks (isLine_command hl (.one (by decide)) (by decide) (by decide)) hk hlim
  | unlock ho hl =>
    cases ha
    exact .unlock (isLine_oid (by decide) ho hl) ho (no_flush _)

/-- **C72**: sessions of such requests are among those considered here. -/
theorem C72_sessions {qs : List Request} {w : Bytes} (h : Session mode qs w) : Talk mode (qs.map .ask) w := by
  induction h with
  | eof => exact .eof
  | quit he hF =>
    cases he with
    | quit hl => exact .quit (isLine_command hl (.one (by decide)) (by decide) (by decide)) hF
  | cons he hF ha hq _ ih => exact .ask (C72_sensible he ha hq) hF ih

/-! ### An example -/

theorem commandLine_of {l : Bytes} {cmd : Bytes} {args : List Bytes} (h : commandWords l = cmd :: args) (h0 : l ≠ [])
    (h1 : l ≠ b!"\n") : CommandLine l (cmd :: args) := by
  obtain ⟨c, as, hc⟩ := commandLine_exists h0 h1
  have := (commandLine_words hc).1
  rw [h] at this
  rwa [this]

namespace Tests

/-- What a confused client says. -/
def confused : List Said :=
  [.nonsense 400 b!"unknown command\n", .nonsense 400 b!"error: invalid or malformed LFS oid\n",
   .nonsense 403 b!"not allowed\n", .nonsense 400 b!"error: not allowed: bizarre request for no data\n",
   .nonsense 500 b!"internal error: parse error: unexpected value parsing argument (missing equals)\n",
   .nonsense 400 b!"error: invalid or malformed integer or size value: unexpected value parsing integer: b\"4\\\"\"\n",
   .ask .version, .nonsense 500 b!"internal error: parse error\n", .ask (.unlock oidA), .ask .quit]

def confusedPackets : List (List Packet) :=
  [[.delim], [.data b!"put-object abc\n"], [.data b!"get-object x\n"], [.data b!"list-lock", .data b!"limit=0\n", .flush],
   [.data b!"lock\n", .data b!"path=f\n", .data b!"hm\n", .delim, .flush],
   [.data (b!"verify-object " ++ oidA), .data b!"size=4\"\n", .flush],
   [.data b!"version 1 or so\n", .delim, .data b!"what", .flush],
   [.data b!"batch\n", .delim, .data b!"a b c\n", .data b!"d", .flush],
   [.data (b!"unlock " ++ oidA ++ b!" please\n"), .data b!"size=1\n", .flush]]

def confusedWire : Bytes := (confusedPackets.map enc).flatten ++ (enc [.data b!"quit\n"] ++ b!"whatever")

theorem not_oid {x : Bytes} (h : x.length ≠ 64) : ¬ IsOid x := fun hx => h hx.1

theorem confused_talk : Talk .upload confused confusedWire := by
  have fr : ∀ ps ∈ confusedPackets, Frames ps (enc ps) := by
    intro ps h
    refine frames_enc ps ?_
    revert ps
    decide +kernel
  have oa : IsOid oidA := (oidValid_iff _).mp (by decide +kernel)
  have split : confusedWire = enc confusedPackets[0] ++ (enc confusedPackets[1] ++ (enc confusedPackets[2] ++
      (enc confusedPackets[3] ++ (enc confusedPackets[4] ++ (enc confusedPackets[5] ++ (enc confusedPackets[6] ++
      (enc confusedPackets[7] ++ (enc confusedPackets[8] ++ (enc [.data b!"quit\n"] ++ b!"whatever"))))))))) := by
    decide +kernel
  rw [split]
  refine .nonsense (.single .delim) (fr _ (by simp [confusedPackets])) ?_
  refine .nonsense (.putOid (oid := b!"abc") (more := []) rfl (commandLine_of (by decide +kernel) (by decide) (by decide))
    (not_oid (by decide))) (fr _ (by simp [confusedPackets])) ?_
  refine .nonsense (.single (.notAllowed (cmd := b!"get-object") (x := b!"x") (more := [])
    (commandLine_of (by decide +kernel) (by decide) (by decide)) .get)) (fr _ (by simp [confusedPackets])) ?_
  refine .nonsense (.noLimit (kv := [(b!"limit", b!"0")]) (s := b!"0") (commandLine_of (by decide +kernel) (by decide) (by decide))
    ⟨by decide, by decide⟩ (by decide) (num_of_parse (by rfl))) (fr _ (by simp [confusedPackets, argPackets, argLine])) ?_
  refine .nonsense (.args (items := [.data b!"path=f\n", .data b!"hm\n", .delim])
    (commandLine_of (by decide +kernel) (by decide) (by decide)) .lock ⟨by decide, by decide⟩ (by decide)
    (.equals (kv := [(b!"path", b!"f")]) (p := .data b!"hm\n") (rest := [.delim]) ⟨by decide, by decide⟩ (by decide)))
    (fr _ (by simp [confusedPackets])) ?_
  refine .nonsense (.verify (oid := oidA) (more := []) (kv := [(b!"size", b!"4\"")]) rfl
    (commandLine_of (by decide +kernel) (by decide) (by decide)) oa ⟨by decide, by decide⟩
    (.wrong (s := b!"4\"") fun ⟨n, hn⟩ => ?_)) (fr _ (by simp [confusedPackets, argPackets, argLine])) ?_
  · have := num_parseNat hn
    revert this
    rw [show parseNat u64Max b!"4\"" = none by decide +kernel]
    exact nofun
  refine .ask (.version (more := [b!"or", b!"so"]) (items := [.delim, .data b!"what"])
    (commandLine_of (by decide +kernel) (by decide) (by decide)) (by decide)) (fr _ (by simp [confusedPackets])) ?_
  refine .nonsense (.batchLine (kv := []) (its := []) (ls := []) (p := .data b!"a b c\n") (rest := [.data b!"d"])
    (commandLine_of (by decide +kernel) (by decide) (by decide)) ⟨by decide, by decide⟩ (by simp [lookup]) .nil (by simp)
    (.words (x := b!"a b c") (ws := [b!"a", b!"b", b!"c\n"]) (words_of_splitOn _) (by decide)) (by simp))
    (fr _ (by simp [confusedPackets, argPackets])) ?_
  refine .ask (.unlock (more := [b!"please"]) (items := [.data b!"size=1\n"])
    (commandLine_of (by decide +kernel) (by decide) (by decide)) oa (by decide)) (fr _ (by simp [confusedPackets])) ?_
  exact .quit (commandLine_of (by decide +kernel) (by decide) (by decide)) (frames_enc _ (by decide +kernel))

/-- `C72_session_partial` and `C72_same_partial` apply to this session; here is what the server says, in two repositories
with different files. -/
example : Rep Tests.cfg s0 fs0 ∧ Rep Tests.cfg s0 fsOutside ∧
    ((server Tests.cfg b!"upload" confusedWire).run calm ⟨fs0, [], 0⟩).2.out =
      ((server Tests.cfg b!"upload" confusedWire).run calm ⟨fsOutside, [], 0⟩).2.out ∧
    ((server Tests.cfg b!"upload" confusedWire).run calm ⟨fs0, [], 0⟩).2.out =
      b!"000eversion=1\n0000" ++
      b!"000fstatus 400\n00010014unknown command\n0000" ++
      b!"000fstatus 400\n00010028error: invalid or malformed LFS oid\n0000" ++
      b!"000fstatus 403\n00010010not allowed\n0000" ++
      b!"000fstatus 400\n00010034error: not allowed: bizarre request for no data\n0000" ++
      b!"000fstatus 500\n00010054internal error: parse error: unexpected value parsing argument (missing equals)\n0000" ++
      b!"000fstatus 400\n00010060error: invalid or malformed integer or size value: unexpected value parsing integer: b\"4\\\"\"\n0000" ++
      b!"000fstatus 200\n00010000" ++
      b!"000fstatus 500\n00010020internal error: parse error\n0000" ++
      b!"000fstatus 404\n0001000enot found\n0000" ++
      b!"000fstatus 200\n0000" := by
  refine ⟨rep0, repOutside, by decide +kernel, by decide +kernel⟩

end Tests

end Verif
