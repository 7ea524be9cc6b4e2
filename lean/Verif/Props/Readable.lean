import Verif.Props.Locks
import Verif.Props.Objects
/-! Property C71: what the server said can be read off the bytes it sent. -/
namespace Verif
open Spec

variable {cfg : Cfg} {mode : Mode}

/-! ### Packets -/

theorem frame_inj {p q : Packet} {u v x y : Bytes} (hp : Frame p u) (hq : Frame q v) (h : u ++ x = v ++ y) :
    p = q ∧ u = v ∧ x = y := by
  let r : Rdr := { input := u ++ x, pending := [], fin := eofErr, checked := false }
  have h1 := readPacket_frame hp r x rfl
  have h2 := readPacket_frame hq r y h
  rw [h1] at h2
  simp only [Prod.mk.injEq, Res.ok.injEq, Rdr.mk.injEq] at h2
  have hxy : x = y := h2.2.1
  subst hxy
  exact ⟨h2.1, List.append_cancel_right h, rfl⟩

theorem frames_inj {ps qs : List Packet} {w v : Bytes} (hp : Frames ps w) (hq : Frames qs (w ++ v)) :
    ∃ zs, qs = ps ++ zs ∧ Frames zs v := by
  induction hp generalizing qs with
  | nil => exact ⟨qs, rfl, hq⟩
  | @cons p ps u w hf _ ih =>
    generalize hx : u ++ w ++ v = x at hq
    cases hq with
    | nil =>
      have := frame_length hf
      simp only [List.append_assoc, List.append_eq_nil_iff] at hx
      simp [hx.1] at this
    | @cons q qs u' w' hf' hF =>
      obtain ⟨rfl, rfl, rfl⟩ := frame_inj hf hf' ((List.append_assoc _ _ _).symm.trans hx)
      obtain ⟨zs, rfl, hz⟩ := ih hF
      exact ⟨zs, rfl, hz⟩

theorem frames_same {ps qs : List Packet} {w : Bytes} (hp : Frames ps w) (hq : Frames qs w) : ps = qs := by
  obtain ⟨zs, rfl, hz⟩ := frames_inj hp (v := []) (by simpa using hq)
  cases zs with
  | nil => simp
  | cons z zs => have := frames_length hz; simp at this

theorem data_inj {t t' : Packet} (ht : ∀ d, t ≠ .data d) (ht' : ∀ d, t' ≠ .data d) :
    ∀ {as bs : List Bytes} {x y : List Packet}, as.map .data ++ t :: x = bs.map .data ++ t' :: y →
      as = bs ∧ t = t' ∧ x = y
  | [], [], x, y, h => by simpa using h
  | [], b :: bs, x, y, h => absurd (List.cons.inj h).1 (ht b)
  | a :: as, [], x, y, h => absurd (List.cons.inj h).1.symm (ht' a)
  | a :: as, b :: bs, x, y, h => by
    simp only [List.map_cons, List.cons_append, List.cons.injEq, Packet.data.injEq] at h
    obtain ⟨h1, h2, h3⟩ := data_inj ht ht' h.2
    exact ⟨by rw [h.1, h1], h2, h3⟩

theorem dec_unique {s : Bytes} {n m : Nat} (h : Dec s n) (h' : Dec s m) : n = m :=
  ((dec_iff s n).mp h).2.2.symm.trans ((dec_iff s m).mp h').2.2

theorem reply_inj {r r' : Reply} (h : r.Ok) (h' : r'.Ok) (he : r.packets = r'.packets) : r = r' := by
  obtain ⟨code, digits, args, data⟩ := r
  obtain ⟨code', digits', args', data'⟩ := r'
  simp only [Reply.packets, List.cons_append, List.cons.injEq, Packet.data.injEq] at he
  have hd : digits = digits' := by simpa using he.1
  subst hd
  have hc : code = code' := dec_unique h.digits.2 h'.digits.2
  subst hc
  suffices args = args' ∧ data = data' by rw [this.1, this.2]
  have he := he.2
  cases data with
  | none =>
    cases data' with
    | none =>
      simp only [List.append_nil] at he
      exact ⟨(data_inj (by simp) (by simp) he).1, rfl⟩
    | some ds =>
      simp only [List.append_nil, List.append_assoc, List.cons_append] at he
      exact absurd (data_inj (by simp) (by simp) he).2.1 (by simp)
  | some ds =>
    cases data' with
    | none =>
      simp only [List.append_nil, List.append_assoc, List.cons_append] at he
      exact absurd (data_inj (by simp) (by simp) he).2.1 (by simp)
    | some ds' =>
      simp only [List.append_assoc, List.cons_append] at he
      obtain ⟨h1, _, h2⟩ := data_inj (by simp) (by simp) he
      exact ⟨h1, by rw [(data_inj (by simp) (by simp) h2).1]⟩

theorem framesOf : ∀ {ps : List Packet}, (∀ d, .data d ∈ ps → d.length ≤ 65531) → Frames ps (ps.map encPacket).flatten
  | [], _ => .nil
  | p :: _, h => .cons (frame_encPacket p fun d e => h d (by simp [e])) (framesOf fun d hd => h d (by simp [hd]))

/-! ### C71 -/

/-- **C71**: a reply has one meaning. -/
theorem C71_reply {r r' : Reply} {w : Bytes} (h : r.Ok) (h' : r'.Ok) (hw : Frames r.packets w) (hw' : Frames r'.packets w) :
    r = r' :=
  reply_inj h h' (frames_same hw hw')

/-- **C71**: no reply is the beginning of another, so the client knows when one is complete. -/
theorem C71_prefix {w v : Bytes} (h : IsReply w) (h' : IsReply (w ++ v)) : v = [] := by
  obtain ⟨r, _, hw⟩ := h
  obtain ⟨r', _, hw'⟩ := h'
  obtain ⟨zs, he, hz⟩ := frames_inj hw hw'
  have hflush : ∀ r : Reply, ∃ body, r.packets = body ++ [.flush] ∧ Packet.flush ∉ body := by
    intro r
    refine ⟨_, rfl, ?_⟩
    cases r.data <;> simp
  obtain ⟨b, hb, _⟩ := hflush r
  obtain ⟨b', hb', hn⟩ := hflush r'
  rw [hb, hb'] at he
  cases zs using List.reverseRecOn with
  | nil => cases hz; rfl
  | append_singleton zs z =>
    rw [← List.append_assoc] at he
    rw [List.append_inj_left' he rfl] at hn
    simp at hn

theorem isReply_ne {w : Bytes} (h : IsReply w) : w ≠ [] := by
  rintro rfl
  obtain ⟨r, _, hw⟩ := h
  have := frames_length hw
  simp [Reply.packets] at this

/-- **C71**: a stream of replies falls into replies in one way. -/
theorem C71_stream {ws ws' : List Bytes} (h : ∀ w ∈ ws, IsReply w) (h' : ∀ w ∈ ws', IsReply w) (he : ws.flatten = ws'.flatten) :
    ws = ws' := by
  induction ws generalizing ws' with
  | nil =>
    cases ws' with
    | nil => rfl
    | cons w ws' =>
      simp only [List.flatten_nil, List.flatten_cons] at he
      exact absurd (List.append_eq_nil_iff.mp he.symm).1 (isReply_ne (h' w (by simp)))
  | cons w ws ih =>
    cases ws' with
    | nil =>
      simp only [List.flatten_nil, List.flatten_cons] at he
      exact absurd (List.append_eq_nil_iff.mp he).1 (isReply_ne (h w (by simp)))
    | cons w' ws' =>
      have hw := h w (by simp)
      have hw' := h' w' (by simp)
      simp only [List.flatten_cons] at he
      have key : w = w' := by
        rcases List.append_eq_append_iff.mp he with ⟨x, rfl, _⟩ | ⟨x, rfl, _⟩
        · rw [C71_prefix hw hw', List.append_nil]
        · rw [C71_prefix hw' hw, List.append_nil]
      subst key
      rw [ih (fun x hx => h x (by simp [hx])) (fun x hx => h' x (by simp [hx])) (List.append_cancel_left he)]

/-! ### Lines -/

theorem linePackets_short {l : Bytes} {ps : List Bytes} (hl : l.length ≤ 65516) (h : LinePackets l ps) : ps = [l] := by
  cases h with
  | short _ => rfl
  | @long a b ps ha hb _ =>
    have := List.length_pos_iff.mpr hb
    rw [List.length_append] at hl
    omega

theorem linesPackets_short {ls ps : List Bytes} (hl : ∀ l ∈ ls, l.length ≤ 65516) (h : LinesPackets ls ps) : ps = ls := by
  induction h with
  | nil => rfl
  | cons h1 _ ih =>
    rw [linePackets_short (hl _ (by simp)) h1, ih fun l hm => hl l (by simp [hm])]
    rfl

/-- The lines of an answer fit into packets. -/
def Fitting (a : Answer) : Prop :=
  (∀ l ∈ a.args, l.length ≤ 65516) ∧ ∀ ls, a.body = .lines ls → ∀ l ∈ ls, l.length ≤ 65516

/-- **C71**, answers (the part that holds): answers with the same bytes have the same status, the same arguments and
the same lines or content, provided no line is longer than a packet.

Full property: without the proviso. That is false (`C71_refuted`). -/
theorem C71_answer_partial {a b : Answer} {w : Bytes} (ha : Sends a w) (hb : Sends b w) (fa : Fitting a) (fb : Fitting b) :
    a.code = b.code ∧ a.args = b.args ∧ (∀ ls ls', a.body = .lines ls → b.body = .lines ls' → ls = ls') ∧
    (∀ x y, a.body = .raw x → b.body = .raw y → x = y) ∧ (a.body = .none ↔ b.body = .none) := by
  obtain ⟨r, ho, hF, hc, hg, hd⟩ := ha
  obtain ⟨r', ho', hF', hc', hg', hd'⟩ := hb
  obtain rfl := C71_reply ho ho' hF hF'
  refine ⟨hc.symm.trans hc', (linesPackets_short fa.1 hg).symm.trans (linesPackets_short fb.1 hg'), ?_, ?_, ?_⟩
  · intro ls ls' h1 h2
    rw [h1] at hd
    rw [h2] at hd'
    obtain ⟨ps, e, hp⟩ := hd
    obtain ⟨ps', e', hp'⟩ := hd'
    rw [e] at e'
    cases e'
    exact (linesPackets_short (fa.2 ls h1) hp).symm.trans (linesPackets_short (fb.2 ls' h2) hp')
  · intro x y h1 h2
    rw [h1] at hd
    rw [h2] at hd'
    obtain ⟨ps, e, hp⟩ := hd
    obtain ⟨ps', e', hp'⟩ := hd'
    rw [e] at e'
    cases e'
    exact hp.symm.trans hp'
  · have key : ∀ {b : Body}, BodyPackets b r.data → (b = .none ↔ r.data = none) := by
      intro b h
      cases b with
      | none => exact ⟨fun _ => h, fun _ => rfl⟩
      | lines ls => obtain ⟨ps, e, _⟩ := h; simp [e]
      | raw x => obtain ⟨ps, e, _⟩ := h; simp [e]
    exact (key hd).trans (key hd').symm

/-! ### Listings -/

/-- A lock whose lines fit into packets. -/
def Lock.Fits (cfg : Cfg) (l : Lock) : Prop :=
  l.path.length ≤ 65445 ∧ (timeText cfg l.time).length ≤ 65440 ∧ (ownerName cfg l.uid).length ≤ 65440

theorem lockLines_short (hsha : ∀ b, (cfg.sha b).length = 32) {l : Lock} (h : Lock.Fits cfg l) :
    ∀ x ∈ lockLines cfg mode l, x.length ≤ 65516 := by
  have hid := (isOid_lockName hsha l.path).1
  obtain ⟨h1, h2, h3⟩ := h
  intro x hx
  unfold lockLines at hx
  simp only [List.mem_append, List.mem_cons, List.not_mem_nil, or_false] at hx
  rcases hx with (rfl | rfl | rfl | rfl) | hx
  · simp [hid]
  · simp [hid]; omega
  · simp [hid]; omega
  · simp [hid]; omega
  · split at hx
    · simp only [List.mem_cons, List.not_mem_nil, or_false] at hx
      subst hx
      split <;> simp [hid]
    · simp at hx

theorem lockLines_inj (hsha : ∀ b, (cfg.sha b).length = 32) {l m : Lock} {x y : List Bytes}
    (h : lockLines cfg mode l ++ x = lockLines cfg mode m ++ y) :
    l.path = m.path ∧ timeText cfg l.time = timeText cfg m.time ∧ ownerName cfg l.uid = ownerName cfg m.uid ∧ x = y := by
  have hl := (isOid_lockName hsha l.path).1
  have hm := (isOid_lockName hsha m.path).1
  have hlen : (lockLines cfg mode l).length = (lockLines cfg mode m).length := by
    unfold lockLines
    cases mode <;> simp
  obtain ⟨h1, h2⟩ := List.append_inj h hlen
  have cut : ∀ {k i j a b : Bytes}, i.length = 64 → j.length = 64 → k ++ i ++ b!" " ++ a ++ b!"\n" = k ++ j ++ b!" " ++ b ++ b!"\n" →
      a = b := by
    intro k i j a b hi hj he
    simp only [List.append_assoc, List.append_cancel_left_eq] at he
    have := (List.append_inj he (hi.trans hj.symm)).2
    simpa using this
  unfold lockLines at h1
  obtain ⟨_, h1⟩ := List.cons.inj h1
  obtain ⟨a1, h1⟩ := List.cons.inj h1
  obtain ⟨a2, h1⟩ := List.cons.inj h1
  obtain ⟨a3, _⟩ := List.cons.inj h1
  exact ⟨cut hl hm a1, cut hl hm a2, cut hl hm a3, h2⟩

/-- **C71**, listings (the part that holds): listings with the same bytes show the same locks, that is paths, times and
owners, provided their lines fit into packets. -/
theorem C71_listing_partial (hsha : ∀ b, (cfg.sha b).length = 32) {ls ms : List Lock} {as bs : List Bytes} {w : Bytes}
    (ha : Sends ⟨200, as, .lines (ls.flatMap (lockLines cfg mode))⟩ w)
    (hb : Sends ⟨200, bs, .lines (ms.flatMap (lockLines cfg mode))⟩ w)
    (fl : ∀ l ∈ ls, Lock.Fits cfg l) (fm : ∀ l ∈ ms, Lock.Fits cfg l)
    (fa : ∀ l ∈ as, l.length ≤ 65516) (fb : ∀ l ∈ bs, l.length ≤ 65516) :
    as = bs ∧ ls.map (fun l => (l.path, timeText cfg l.time, ownerName cfg l.uid)) =
      ms.map fun l => (l.path, timeText cfg l.time, ownerName cfg l.uid) := by
  have short : ∀ {ls : List Lock}, (∀ l ∈ ls, Lock.Fits cfg l) → ∀ x ∈ ls.flatMap (lockLines cfg mode), x.length ≤ 65516 := by
    intro ls h x hx
    obtain ⟨l, hl, hx⟩ := List.mem_flatMap.mp hx
    exact lockLines_short hsha (h l hl) x hx
  obtain ⟨-, h1, h2, -⟩ := C71_answer_partial ha hb ⟨fa, fun _ e => by cases e; exact short fl⟩
    ⟨fb, fun _ e => by cases e; exact short fm⟩
  refine ⟨h1, ?_⟩
  have he := h2 _ _ rfl rfl
  clear h1 h2 ha hb fl fm fa fb
  have ne : ∀ l : Lock, lockLines cfg mode l ≠ [] := fun l => by unfold lockLines; simp
  induction ls generalizing ms with
  | nil =>
    cases ms with
    | nil => rfl
    | cons m ms => simp only [List.flatMap_nil, List.flatMap_cons] at he
                   exact absurd (List.append_eq_nil_iff.mp he.symm).1 (ne m)
  | cons l ls ih =>
    cases ms with
    | nil => simp only [List.flatMap_nil, List.flatMap_cons] at he
             exact absurd (List.append_eq_nil_iff.mp he).1 (ne l)
    | cons m ms =>
      simp only [List.flatMap_cons] at he
      obtain ⟨h1, h2, h3, h4⟩ := lockLines_inj hsha he
      simp [h1, h2, h3, ih h4]

/-! ### A path that is longer -/

/-- A path whose lock is listed as if it were two. -/
def longPath (a id : Bytes) : Bytes := a ++ (b!"lock " ++ id)

/-- **C71** is false for long paths: a client locks one path, of 65515 bytes, and everybody's listing then has two
packets of the form in which a lock is announced, the second with any ID the client wants. -/
theorem C71_refuted {ch : Nat → Choice} {s : Store} {w : World} {r : Rdr} {a id wire : Bytes} (hc : ∀ n, (ch n).fault = none)
    (hsha : ∀ b, (cfg.sha b).length = 32) (hclk : ∀ t, Clock cfg ch t → TimeOk cfg t) (hr : Rep cfg s w.fs)
    (hempty : s.locks = []) (ha : a.length = 65446) (hid : IsOid id)
    (hs : Session .upload [.lock (longPath a id), .listLocks none none none] wire) (hi : r.input = wire)
    (hp : r.pending = []) (hfin : r.fin.kind = .unexpectedEof) :
    ∃ (w1 w2 : Bytes) (s' : Store) (l : Lock) (reply : Reply) (more : List Bytes),
      ((mainProg cfg b!"upload" r).run ch w).2.out = w.out ++ b!"000eversion=1\n0000" ++ w1 ++ w2 ∧ IsReply w1 ∧
      Rep cfg s' ((mainProg cfg b!"upload" r).run ch w).2.fs ∧ s'.locks = [l] ∧ l.path = longPath a id ∧
      reply.Ok ∧ Frames reply.packets w2 ∧ reply.data = some (
        (b!"lock " ++ lockName cfg.sha (longPath a id) ++ b!"\n") ::
        (b!"path " ++ lockName cfg.sha (longPath a id) ++ b!" " ++ a) ::
        (b!"lock " ++ id ++ b!"\n") :: more) := by
  obtain ⟨_, b, s', hout, hsv, hrep⟩ := C37_pipelined (mode := .upload) hc hsha hclk hs hr hi hp hfin
  obtain ⟨objs, locks⟩ := s
  simp only at hempty
  subst hempty
  cases hsv with
  | @cons _ s1 _ _ _ t t' a1 w1 ws _ _ h1 hs1 hsv =>
    simp only [answer, Store.find, List.find?_nil, insertLock, List.takeWhile_nil, List.dropWhile_nil, List.nil_append,
      Prod.mk.injEq] at h1
    obtain ⟨rfl, rfl⟩ := h1
    cases hsv with
    | @cons _ s2 _ _ _ u u' a2 w2 ws _ _ h2 hs2 hsv =>
      cases hsv
      simp only [answer, fromCursor, Prod.mk.injEq] at h2
      obtain ⟨rfl, rfl⟩ := h2
      obtain ⟨rep1, o1, f1, _⟩ := hs1
      obtain ⟨rep2, o2, f2, _, _, hbody⟩ := hs2
      obtain ⟨ps, hd, hps⟩ := hbody
      have hk := (isOid_lockName hsha (longPath a id)).1
      rw [show ([⟨longPath a id, t, cfg.uid⟩] : List Lock).take (pageSize none + 1) = [⟨longPath a id, t, cfg.uid⟩] from rfl] at hps
      simp only [List.flatMap_cons, List.flatMap_nil, List.append_nil, lockLines] at hps
      change LinesPackets ((b!"lock " ++ lockName cfg.sha (longPath a id) ++ b!"\n") ::
        (b!"path " ++ lockName cfg.sha (longPath a id) ++ b!" " ++ longPath a id ++ b!"\n") :: _) ps at hps
      refine ⟨w1, w2, ⟨objs, [⟨longPath a id, t, cfg.uid⟩]⟩, ⟨longPath a id, t, cfg.uid⟩, rep2, ?_⟩
      suffices ∃ more, ps = (b!"lock " ++ lockName cfg.sha (longPath a id) ++ b!"\n") ::
          (b!"path " ++ lockName cfg.sha (longPath a id) ++ b!" " ++ a) :: (b!"lock " ++ id ++ b!"\n") :: more by
        obtain ⟨more, rfl⟩ := this
        refine ⟨more, ?_, ⟨rep1, o1, f1⟩, hrep, rfl, rfl, o2, f2, hd⟩
        rw [show b!"upload" = Mode.operation .upload from rfl, hout]
        simp
      clear hd hrep hout
      generalize hg1 : b!"lock " ++ lockName cfg.sha (longPath a id) ++ b!"\n" = g1 at hps ⊢
      generalize hg2 : b!"path " ++ lockName cfg.sha (longPath a id) ++ b!" " ++ longPath a id ++ b!"\n" = g2 at hps
      have hg1 : g1.length ≤ 65516 := by rw [← hg1]; simp [hk]
      cases hps with
      | @cons _ _ q1 qs p1 hps =>
        rw [linePackets_short hg1 p1]
        cases hps with
        | @cons _ _ q2 qs p2 hps =>
          have hlen : (b!"path " ++ lockName cfg.sha (longPath a id) ++ b!" " ++ a).length = 65516 := by simp [hk, ha]
          have hcut : g2 = (b!"path " ++ lockName cfg.sha (longPath a id) ++ b!" " ++ a) ++ (b!"lock " ++ id ++ b!"\n") := by
            rw [← hg2]; simp [longPath]
          have htail : (b!"lock " ++ id ++ b!"\n").length ≤ 65516 := by simp [hid.1]
          generalize b!"path " ++ lockName cfg.sha (longPath a id) ++ b!" " ++ a = g3 at *
          generalize b!"lock " ++ id ++ b!"\n" = g4 at *
          subst hcut
          have h4 : g4 ≠ [] := by
            rintro rfl
            simp only [List.append_nil] at hg2
            have := congrArg List.length hg2
            simp [hk, longPath, ha, hid.1, hlen] at this
          generalize hx : g3 ++ g4 = x at p2
          cases p2 with
          | short hsh =>
            rw [← hx, List.length_append] at hsh
            have := List.length_pos_iff.mpr h4
            omega
          | @long c d qs' hcl hdn p2 =>
            obtain ⟨rfl, rfl⟩ := List.append_inj hx (hlen.trans hcl.symm)
            rw [linePackets_short htail p2]
            exact ⟨_, rfl⟩

/-! ### Examples -/

namespace Tests

/-- A client that does so. -/
def longA : Bytes := List.replicate 65446 97
def longLock (id : Bytes) : List Packet := .data b!"lock" :: argPackets [(b!"path", longPath longA id), (b!"refname", b!"x")] ++ [.flush]

theorem longA_length : longA.length = 65446 := List.length_replicate

theorem longLock_encodes (id : Bytes) : Encodes (.lock (longPath longA id)) (longLock id) :=
  .lock (.inl rfl) ⟨by simp, by simp⟩ (by simp [lookup]) (ref := b!"x") (by simp [lookup])

theorem long_session {id : Bytes} (hid : IsOid id) : ∃ wire, Session .upload [.lock (longPath longA id), .listLocks none none none] wire :=
  ⟨_, .cons (longLock_encodes id) (framesOf (by
      have := hid.1
      have hA : longA.length = 65446 := List.length_replicate
      intro d hd
      simp only [longLock, argPackets, argLine, List.map_cons, List.map_nil, List.cons_append, List.nil_append, List.mem_cons,
        Packet.data.injEq, List.not_mem_nil, or_false, reduceCtorEq] at hd
      rcases hd with rfl | rfl | rfl
      · decide
      · simp only [List.length_append, List.length_cons, List.length_nil, longPath, hA, this]
        omega
      · decide)) rfl (by simp)
    (.cons (ps := [.data b!"list-lock", .flush]) (.listLocks (kv := []) (.inl rfl) ⟨by simp, by simp⟩ rfl rfl rfl)
      (framesOf (by simp)) trivial (by simp) .eof)⟩

/-- The premises of `C71_refuted` hold for a client of an empty store; the forged ID is that of a file called `f`. -/
example : ∃ wire more, ∃ (reply : Reply) (w1 w2 : Bytes),
    ((server Tests.cfg b!"upload" wire).run calm ⟨fs0, b!"", 0⟩).2.out = b!"" ++ b!"000eversion=1\n0000" ++ w1 ++ w2 ∧ Frames reply.packets w2 ∧
    reply.data = some ((b!"lock " ++ lockName Tests.cfg.sha (longPath longA idF) ++ b!"\n") ::
        (b!"path " ++ lockName Tests.cfg.sha (longPath longA idF) ++ b!" " ++ longA) :: (b!"lock " ++ lockName Tests.cfg.sha b!"f" ++ b!"\n") :: more) := by
  obtain ⟨wire, hw⟩ := long_session idF_ok
  obtain ⟨w1, w2, s', l, reply, more, h1, -, -, -, -, -, h2, h3⟩ := C71_refuted (cfg := Tests.cfg) (ch := calm) (w := ⟨fs0, b!"", 0⟩)
    (r := Rdr.new wire eofErr false) (fun _ => rfl) sha_len (clock_ok _) rep0 rfl longA_length idF_ok hw rfl rfl rfl
  rw [lockName_f]
  exact ⟨wire, more, reply, w1, w2, h1, h2, h3⟩

/-- A reply with an argument and two packets of data, and what it is on the wire. -/
def replyX : Reply := ⟨200, b!"200", [b!"next-cursor=x\n"], some [b!"lock x\n", b!"path x y\n"]⟩

theorem replyX_ok : replyX.Ok := by
  refine ⟨by decide, ⟨by decide, (dec_iff _ _).mpr (by decide)⟩, by unfold PayloadsOk; decide, ?_⟩
  unfold PayloadsOk
  intro ds h
  cases h
  decide

theorem replyX_frames : Frames replyX.packets (enc replyX.packets) := frames_enc _ (by decide +kernel)

example : enc replyX.packets = b!"000fstatus 200\n0012next-cursor=x\n0001000block x\n000dpath x y\n0000" := by decide +kernel
/-- Nothing that is read from it differs from it; two of them in sequence are nothing else than two of them. -/
example (r : Reply) (h : r.Ok) (hw : Frames r.packets (enc replyX.packets)) : r = replyX := C71_reply h replyX_ok hw replyX_frames
example (ws : List Bytes) (h : ∀ w ∈ ws, IsReply w) (he : enc replyX.packets ++ enc replyX.packets = ws.flatten) :
    ws = [enc replyX.packets, enc replyX.packets] :=
  (C71_stream (ws := [enc replyX.packets, enc replyX.packets]) (by simpa using ⟨_, replyX_ok, replyX_frames⟩) h (by simpa using he)).symm

/-- The locks of a store that fit. -/
example : ∀ l ∈ sL.locks, Lock.Fits Tests.cfg l := by unfold Lock.Fits; decide +kernel
/-- A listing of them. -/
def listingL : List Bytes := sL.locks.flatMap (lockLines Tests.cfg .upload)

theorem linesPackets_all : ∀ {ls : List Bytes}, (∀ l ∈ ls, l.length ≤ 65516) → LinesPackets ls ls
  | [], _ => .nil
  | _ :: _, h => .cons (.short (h _ (by simp))) (linesPackets_all fun l hm => h l (by simp [hm]))

example : ∃ w, Sends ⟨200, [], .lines listingL⟩ w := by
  have h : ∀ l ∈ listingL, 1 ≤ l.length ∧ l.length ≤ 65516 := by decide +kernel
  refine ⟨_, ⟨200, b!"200", [], some listingL⟩, ⟨by simp, ⟨rfl, (dec_iff _ _).mpr (by decide)⟩, by simp [PayloadsOk], ?_⟩,
    frames_enc _ (by decide +kernel), rfl, .nil, _, rfl, linesPackets_all fun l hl => (h l hl).2⟩
  intro ds e
  cases e
  exact h
/-- A path of 65515 bytes does not. -/
example (t : Int) (u : Nat) (id : Bytes) (h : IsOid id) : ¬ Lock.Fits Tests.cfg ⟨longPath longA id, t, u⟩ := by
  have := longA_length
  have := h.1
  simp only [Lock.Fits, longPath, List.length_append, List.length_cons, List.length_nil, *]
  omega

end Tests

end Verif
