import Verif.Lemmas.FaultyTurn
/-! All bytes, also with `unlock` of what is no ID: at any bytes the server ends, or finds one request. -/
namespace Verif
open Spec

variable {mode : Mode} {text : Bytes}

theorem heard_odd {ps : List Packet} (h : Extent mode ps) : (∃ q, Heard mode ps q) ∨ (mode = .upload ∧ ∃ id, OddAsks id ps) := by
  rcases C72_total h with ⟨q, hq⟩ | ⟨code, msg, hq⟩ | ⟨hm, ho⟩
  · exact .inl ⟨.ask q, hq⟩
  · exact .inl ⟨.nonsense code msg, hq⟩
  · cases ho with
    | mk hl hid ht hn => exact .inr ⟨hm, _, .mk hl hid ht hn⟩

/-- At any bytes whatever the server ends in one of three ways, or it finds a request. -/
theorem finds_total (b : Bytes) :
    LaxPart b ∨ (∃ h rest, b = h ++ rest ∧ BadHeader h) ∨
    (∃ l w rest, b = w ++ rest ∧ CommandLine l [b!"quit"] ∧ LaxFrame (.data l) w) ∨
    ∃ q rest, Finds mode text q b rest ∧ rest.length < b.length := by
  obtain ⟨ps, w, tail, hF, rfl, ht⟩ := scan b
  by_cases h0 : ps = []
  · subst h0
    cases hF
    rw [List.nil_append]
    rcases ht with ht | ⟨h, rest, rfl, hb⟩
    · exact .inl ht
    · exact .inr (.inl ⟨h, rest, rfl, hb⟩)
  have pos : ∀ {a : List Packet} {u : Bytes}, a ≠ [] → LaxFrames a u → 0 < u.length := by
    intro a u hne hF
    have := laxFrames_length hF
    have := List.length_pos_iff.mpr hne
    omega
  have wpos := pos h0 hF
  rcases classify (mode := mode) (text := text) h0 with ⟨a, b, rfl, ha⟩ | ⟨⟨ps', hc, he⟩, hnu, code, msg, hg⟩ |
    ⟨hb, hnu, code, msg, hg⟩ | hup | ⟨a, d, b, rfl, hup, hd⟩ | ⟨l, b, rfl, hl⟩
  · refine .inr (.inr (.inr ?_))
    obtain ⟨w1, w2, rfl, hF1, hF2⟩ := laxFrames_split hF
    have := pos (extent_ne_nil ha) hF1
    rw [List.append_assoc]
    rcases heard_odd ha with ⟨q, hq⟩ | ⟨hm, id, ho⟩
    · exact ⟨q, w2 ++ tail, .takes (.heard hq hF1), by simp; omega⟩
    · exact ⟨_, w2 ++ tail, .odd hm ho hF1, by simp; omega⟩
  · refine .inr (.inr (.inr ?_))
    rcases ht with ht | ⟨h, rest, rfl, hb⟩
    · rcases heard_odd he with ⟨q, hq⟩ | ⟨hm, id, ho⟩
      · exact ⟨q, [], .takes (.broken (.heard hc hq part_nil) hF ht fun h => absurd h hnu), by simp; omega⟩
      · exact ⟨_, [], .oddCut hm hc ho hF ht, by simp; omega⟩
    · exact ⟨_, rest, .takes (.garbled hg hF hb), by simp; omega⟩
  · refine .inr (.inr (.inr ?_))
    rcases ht with ht | ⟨h, rest, rfl, hbad⟩
    · exact ⟨_, [], .takes (.broken hb hF ht fun h => absurd h hnu), by simp; omega⟩
    · exact ⟨_, rest, .takes (.garbled hg hF hbad), by simp; omega⟩
  · refine .inr (.inr (.inr ?_))
    by_cases hlong : TooLong tail
    · obtain ⟨h, m, rest, rfl, hm, hlt⟩ := hlong
      exact ⟨_, rest, .takes (.tooLong hup hF hm hlt), by simp; omega⟩
    rcases ht with ht | ⟨h, rest, rfl, hbad⟩
    · have hb : BreaksOff mode text ps [] (.nonsense 500 (cutMessage text)) := by
        obtain ⟨l, oid, more, as, ds, rfl, hm, hl, ho, ha, hds⟩ := hup
        exact .putData hm hl ho ha hds ⟨.flush, _, .flush, trivial, List.nil_prefix, by decide⟩
      exact ⟨_, [], .takes (.broken hb hF ht fun _ => hlong), by simp; omega⟩
    · exact ⟨_, rest, .takes (.garbled (.putData hup) hF hbad), by simp; omega⟩
  · refine .inr (.inr (.inr ?_))
    obtain ⟨w1, w2, rfl, hF1, hF2⟩ := laxFrames_split hF
    obtain ⟨w3, w4, rfl, hF3, _⟩ := laxFrames_first hF2
    have := pos (garbled_ne (.putData hup)) hF1
    cases hF3 with
    | @data h _ hl =>
      have e1 : w1 ++ (h ++ d ++ w4) ++ tail = w1 ++ (h ++ (d ++ w4 ++ tail)) := by simp
      rw [e1]
      exact ⟨_, d ++ w4 ++ tail, .takes (.tooLong hup hF1 hl (by omega)), by simp; omega⟩
  · obtain ⟨w1, w2, rfl, hF1, hF2⟩ := laxFrames_first hF
    exact .inr (.inr (.inl ⟨l, w1, w2 ++ tail, by simp, hl, hF1⟩))

/-! ### One request only -/

theorem odd_heard {id : Bytes} {ps : List Packet} {q : Said} (h : OddAsks id ps) (h' : Heard .upload ps q) : False := by
  cases h with
  | @mk l more items hl hid ht hn =>
    have key : ∀ {l' : Bytes} {ws : List Bytes} {x : List Packet}, CommandLine l' ws → Packet.data l :: items ++ [.flush] = .data l' :: x →
        ws = b!"unlock" :: id :: more := by
      intro l' ws x h e
      simp only [List.cons_append, List.cons.injEq, Packet.data.injEq] at e
      obtain ⟨rfl, -⟩ := e
      exact commandLine_unique h hl
    generalize hps : Packet.data l :: items ++ [.flush] = ps at h'
    cases q with
    | ask q =>
      replace h' : Spec.Means .upload ps q := h'
      cases h' with
      | version hl' => exact absurd (key hl' hps) (by simp)
      | batch hl' => exact absurd (key hl' (by simpa using hps)) (by simp)
      | put hl' => exact absurd (key hl' (by simpa using hps)) (by simp)
      | verify hl' => exact absurd (key hl' hps) (by simp)
      | lock hl' => exact absurd (key hl' hps) (by simp)
      | listLocks hl' => exact absurd (key hl' hps) (by simp)
      | unlock hl' hid' =>
        have := key hl' hps
        simp only [List.cons.injEq, true_and] at this
        exact hid (this.1 ▸ hid')
    | nonsense code msg =>
      replace h' : Denied .upload ps code msg := h'
      cases h' with
      | single => simp at hps
      | args hl' hc hr =>
        obtain rfl := key hl' hps
        exact hr.2 rfl
      | oid hl' hc =>
        rcases hc with ⟨-, rfl⟩ | ⟨h, -⟩
        · exact absurd (key hl' hps) (by simp)
        · cases h
      | verify _ hl' => exact absurd (key hl' hps) (by simp)
      | lock _ hl' => exact absurd (key hl' hps) (by simp)
      | limit hl' => exact absurd (key hl' hps) (by simp)
      | noLimit hl' => exact absurd (key hl' hps) (by simp)
      | unlock _ hl' ht' =>
        have := key hl' hps
        simp only [List.cons.injEq, true_and] at this
        exact ht' (this.1 ▸ ht)
      | batchArgs hl' => exact absurd (key hl' hps) (by simp)
      | hashAlgo hl' => exact absurd (key hl' (by simpa using hps)) (by simp)
      | batchLine hl' => exact absurd (key hl' (by simpa using hps)) (by simp)
      | putOid => simp at hps
      | putArgs _ hl' => exact absurd (key hl' hps) (by simp)
      | putSize _ hl' => exact absurd (key hl' hps) (by simp)

theorem odd_same {id id' : Bytes} {ps : List Packet} (h : OddAsks id ps) (h' : OddAsks id' ps) : id = id' := by
  cases h with
  | @mk l more items hl =>
    generalize hps : Packet.data l :: items ++ [.flush] = ps at h'
    cases h' with
    | mk hl' =>
      simp only [List.cons_append, List.cons.injEq, Packet.data.injEq] at hps
      obtain ⟨rfl, -⟩ := hps
      have := commandLine_unique hl hl'
      simp only [List.cons.injEq, true_and] at this
      exact this.1

/-- Complete packets do not break off. -/
theorem odd_not_completed {id : Bytes} {ps ps' : List Packet} (h : OddAsks id ps) (h' : Completed mode ps ps') : False := by
  cases h with
  | @mk l more items hl _ _ _ =>
    have key : ∀ {l' : Bytes} {ws : List Bytes} {x : List Packet}, CommandLine l' ws → Packet.data l :: items ++ [.flush] = .data l' :: x →
        ws = b!"unlock" :: id :: more := by
      intro l' ws x h e
      simp only [List.cons_append, List.cons.injEq, Packet.data.injEq] at e
      obtain ⟨rfl, -⟩ := e
      exact commandLine_unique h hl
    generalize hps : Packet.data l :: items ++ [.flush] = ps at h'
    cases h' with
    | args _ _ hn =>
      simp only [List.cons_append, List.cons.injEq] at hps
      exact hn (by rw [← hps.2]; simp)
    | batch hl' => exact absurd (key hl' hps) (by simp)
    | batchNone hl' => exact absurd (key hl' hps) (by simp)
    | batchArgs hl' => exact absurd (key hl' hps) (by simp)
    | putArgs _ hl' => exact absurd (key hl' hps) (by simp)

theorem odd_not_breaksOff {id : Bytes} {ps : List Packet} {q : Said} (h : OddAsks id ps) (h' : BreaksOff mode text ps [] q) : False := by
  cases h' with
  | heard hc => exact odd_not_completed h hc
  | @putArgs l oid part more as _ hl =>
    generalize hps : Packet.data l :: as = ps at h
    cases h with
    | mk hl' =>
      simp only [List.cons_append, List.cons.injEq, Packet.data.injEq] at hps
      obtain ⟨rfl, -⟩ := hps
      exact absurd (commandLine_unique hl hl') (by simp)
  | @putData l oid part more ds as _ hl =>
    generalize hps : Packet.data l :: as ++ .delim :: ds.map .data = ps at h
    cases h with
    | mk hl' =>
      simp only [List.cons_append, List.cons.injEq, Packet.data.injEq] at hps
      obtain ⟨rfl, -⟩ := hps
      exact absurd (commandLine_unique hl hl') (by simp)

/-- What the server goes on with does not depend on how the bytes are read as a request. -/
theorem finds_rest {q : Said} {b rest : Bytes} (h : Finds mode text q b rest) :
    ((turn Tests.cfg mode (readerAt text b)).run Tests.calm ⟨Tests.fsA, [], 0⟩).1.2 = readerAt text rest := by
  cases h with
  | takes ht =>
    have h1 := (Prog.wp_run Tests.calm (turn Tests.cfg mode (readerAt text b)) ⟨Tests.fsA, [], 0⟩ _).mp (takes_runs ht)
    exact h1.2.1
  | @odd id ps w rest hm hodd hF =>
    subst hm
    have hf := Prog.run_finished Tests.calm (turn Tests.cfg .upload (readerAt text (w ++ rest))) ⟨Tests.fsA, [], 0⟩
    generalize ((turn Tests.cfg .upload (readerAt text (w ++ rest))).run Tests.calm ⟨Tests.fsA, [], 0⟩).1 = y at hf
    obtain ⟨x, r'⟩ := y
    obtain ⟨u, hu, e⟩ := turn_odd_lax (cfg := Tests.cfg) (r := readerAt text (w ++ rest)) hodd hF rfl rfl
    rw [e] at hf
    exact (odd_turn (r := readerAt text (u ++ rest)) hodd hu rfl hf).1
  | @oddCut id ps ps' w t hm hcom hodd hF ht =>
    subst hm
    have hf := Prog.run_finished Tests.calm (turn Tests.cfg .upload (readerAt text (w ++ t))) ⟨Tests.fsA, [], 0⟩
    generalize ((turn Tests.cfg .upload (readerAt text (w ++ t))).run Tests.calm ⟨Tests.fsA, [], 0⟩).1 = y at hf
    obtain ⟨x, r'⟩ := y
    obtain ⟨u, hu, e⟩ := turn_cut_lax (cfg := Tests.cfg) (r := readerAt text (w ++ t)) hcom hF ht rfl rfl rfl
    rw [e] at hf
    exact (odd_turn (r := readerAt text (u ++ [])) hodd hu rfl hf).1

theorem odd_takes {id : Bytes} {q : Said} {ps : List Packet} {w rest : Bytes} (h : OddAsks id ps) (hF : LaxFrames ps w)
    (h' : Takes .upload text q (w ++ rest) rest) : False := by
  generalize hb : w ++ rest = b at h'
  cases h' with
  | @heard _ ps' w' _ he hF' =>
    obtain rfl := List.append_cancel_right hb
    obtain rfl := laxFrames_unique hF hF'
    exact odd_heard h he
  | @broken _ ps' w' t hb' hF' ht _ =>
    rw [List.append_nil] at hb
    subst hb
    obtain ⟨rfl, rfl⟩ := laxFrames_end hF' hF (.inl ht)
    exact odd_not_breaksOff h hb'
  | @garbled _ _ ps' w' x _ hg hF' hx =>
    rw [← List.append_assoc] at hb
    obtain rfl := List.append_cancel_right hb
    obtain ⟨rfl, -⟩ := laxFrames_end hF' hF (by simpa using noPacket_bad (rest := []) hx)
    exact absurd hx.1 (by simp)
  | @tooLong ps' n w' x _ hup hF' hl hlen =>
    rw [← List.append_assoc] at hb
    obtain rfl := List.append_cancel_right hb
    obtain ⟨rfl, -⟩ := laxFrames_end hF' hF (noPacket_long hl hlen)
    exact absurd (lax_length hl) (by simp)

theorem oddCut_takes {id : Bytes} {q : Said} {ps ps' : List Packet} {w t : Bytes} (hc : Completed .upload ps ps') (h : OddAsks id ps')
    (hF : LaxFrames ps w) (ht : LaxPart t) (h' : Takes .upload text q (w ++ t) []) : False := by
  generalize hb : w ++ t = b at h'
  have hnu : ¬ Uploading .upload ps := by
    rintro ⟨l, oid, more, as, ds, rfl, -, hl, -⟩
    exact absurd (by simp) (completed_put (x := as ++ .delim :: ds.map .data) hl hc).1
  cases h' with
  | @heard _ ps2 w' _ he hF' =>
    rw [List.append_nil] at hb
    subst hb
    obtain ⟨rfl, rfl⟩ := laxFrames_end hF hF' (.inl ht)
    have hg : ∃ code msg, Garbled .upload ps code msg := by
      cases hc with
      | @args l ws items hl hc hn =>
        by_cases h : ws = [b!"lock"] ∨ ws = [b!"list-lock"]
        · exact ⟨_, _, .parse hl hc h hn⟩
        · exact ⟨_, _, .args hl hc (fun e => h (.inl e)) (fun e => h (.inr e)) hn⟩
      | batch hl ha hn => exact ⟨_, _, .batch hl ha hn⟩
      | batchNone hl ha => exact ⟨_, _, .batchArgs hl (areArgs_delim ha)⟩
      | batchArgs hl hd => exact ⟨_, _, .batchArgs hl hd⟩
      | putArgs hm hl ho hd => exact ⟨_, _, .putArgs hm hl ho hd⟩
    obtain ⟨code, msg, hg⟩ := hg
    have h1 : Takes .upload text q (w ++ (b!"zzzz" ++ [])) (b!"zzzz" ++ []) := .heard he hF
    have h2 : Takes .upload text _ (w ++ (b!"zzzz" ++ [])) [] := .garbled hg hF zzzz_bad
    exact absurd (takes_same h1 h2).1 (by decide)
  | @broken _ ps2 w' t' h1' hF' ht' _ =>
    obtain ⟨rfl, -, -⟩ := laxFrames_same hF hF' hb (.inl ht) (.inl ht')
    cases h1' with
    | heard hc' hh' =>
      obtain rfl := completed_same hc hc'
      exact odd_heard h hh'
    | putArgs _ hl _ hs => exact absurd hs (completed_put hl hc).2
    | putData _ hl => exact absurd (by simp) (completed_put hl hc).1
  | @garbled _ _ ps2 w' x _ _ hF' hx =>
    obtain ⟨-, -, rfl⟩ := laxFrames_same hF hF' hb (.inl ht) (noPacket_bad hx)
    exact laxPart_bad ht hx
  | @tooLong ps2 n w' x _ hup hF' hl hlen =>
    obtain ⟨rfl, -, rfl⟩ := laxFrames_same hF hF' hb (.inl ht) (by simpa using noPacket_long hl hlen)
    exact hnu hup

/-- The server finds one request only. -/
theorem finds_unique {q q' : Said} {b rest rest' : Bytes} (h : Finds mode text q b rest) (h' : Finds mode text q' b rest') :
    q = q' ∧ rest = rest' := by
  have e : rest = rest' := by
    have := (finds_rest h).symm.trans (finds_rest h')
    simpa only [readerAt, Rdr.mk.injEq, and_true] using this
  subst e
  refine ⟨?_, rfl⟩
  generalize hb : b = b' at h'
  cases h with
  | takes ht =>
    cases h' with
    | takes ht' => subst hb; exact (takes_unique ht ht').1
    | odd hm ho hF => subst hm hb; exact (odd_takes ho hF ht).elim
    | oddCut hm hc ho hF hp => subst hm hb; exact (oddCut_takes hc ho hF hp ht).elim
  | @odd id ps w rest hm ho hF =>
    cases h' with
    | takes ht' => subst hm hb; exact (odd_takes ho hF ht').elim
    | @odd id' ps' w' _ _ ho' hF' =>
      obtain rfl := List.append_cancel_right hb
      obtain rfl := laxFrames_unique hF hF'
      rw [odd_same ho ho']
    | @oddCut id' ps1 ps' w' t _ hc ho' hF' hp =>
      rw [List.append_nil] at hb
      subst hb
      obtain ⟨rfl, rfl⟩ := laxFrames_end hF' hF (.inl hp)
      exact (odd_not_completed ho hc).elim
  | @oddCut id ps ps1 w t hm hc ho hF hp =>
    cases h' with
    | takes ht' => subst hm hb; exact (oddCut_takes hc ho hF hp ht').elim
    | @odd id' ps' w' _ _ ho' hF' =>
      rw [List.append_nil] at hb
      subst hb
      obtain ⟨rfl, rfl⟩ := laxFrames_end hF hF' (.inl hp)
      exact (odd_not_completed ho' hc).elim
    | @oddCut id' ps2 ps' w' t' _ hc' ho' hF' hp' =>
      obtain ⟨rfl, -, -⟩ := laxFrames_same hF hF' hb (.inl hp) (.inl hp')
      obtain rfl := completed_same hc hc'
      rw [odd_same ho ho']

/-- An odd `unlock` begins with a packet. -/
theorem odd_first {q : Said} {b rest : Bytes} (h : Finds mode text q b rest) : Takes mode text q b rest ∨
    (mode = .upload ∧ ∃ l w c id more, b = w ++ c ∧ LaxFrame (.data l) w ∧ CommandLine l (b!"unlock" :: id :: more) ∧ Text id ∧
      ¬ IsOid id) := by
  cases h with
  | takes h => exact .inl h
  | @odd id ps w rest hm ho hF =>
    cases ho with
    | @mk l more items hl hid ht _ =>
      have hF : LaxFrames (.data l :: (items ++ [.flush])) w := hF
      obtain ⟨u, v, rfl, hu, _⟩ := laxFrames_first hF
      exact .inr ⟨hm, l, u, v ++ rest, id, more, by simp, hu, hl, ht, hid⟩
  | @oddCut id ps ps' w t hm hc ho hF =>
    obtain ⟨hne, more, rfl, -⟩ := completed_prefix hc
    generalize hps : ps ++ more = ps' at ho
    cases ho with
    | @mk l more' items hl hid ht _ =>
      cases ps with
      | nil => exact absurd rfl hne
      | cons p ps =>
        simp only [List.cons_append, List.cons.injEq] at hps
        obtain ⟨rfl, -⟩ := hps
        obtain ⟨u, v, rfl, hu, _⟩ := laxFrames_first hF
        exact .inr ⟨hm, l, u, v ++ t, id, more', by simp, hu, hl, ht, hid⟩

theorem finds_packet {q : Said} {b rest : Bytes} (h : Finds mode text q b rest) : ¬ NoPacket b := by
  rcases odd_first h with h | ⟨-, l, w, c, id, more, rfl, hF, -⟩
  · exact takes_packet h
  · exact laxFrame_noPacket hF

theorem finds_quit {q : Said} {l w rest rest' : Bytes} (h : Finds mode text q (w ++ rest) rest') (hl : CommandLine l [b!"quit"])
    (hF : LaxFrame (.data l) w) : False := by
  rcases odd_first h with h | ⟨-, l', w', c, id, more, e, hF', hl', -⟩
  · exact takes_quit h hl hF
  · obtain ⟨e1, -⟩ := laxFrame_same hF hF' e
    cases e1
    exact absurd (commandLine_unique hl hl') (by simp)

/-- Any bytes make sense. -/
theorem sense_total (b : Bytes) : ∃ qs e, Sense mode text qs e b := by
  induction hn : b.length using Nat.strongRecOn generalizing b with
  | ind n ih =>
    rcases finds_total (mode := mode) (text := text) b with h | ⟨h, rest, rfl, hb⟩ | ⟨l, w, rest, rfl, hl, hF⟩ | ⟨q, rest, h, hlt⟩
    · exact ⟨[], .fine, .eof h⟩
    · exact ⟨[], .bad, .bad hb⟩
    · exact ⟨_, .fine, .quit hl hF⟩
    · obtain ⟨qs, e, hs⟩ := ih rest.length (by omega) rest rfl
      exact ⟨q :: qs, e, .next h hs⟩

/-- And only one. -/
theorem sense_unique {qs qs' : List Said} {e e' : Ending} {b : Bytes} (h : Sense mode text qs e b) (h' : Sense mode text qs' e' b) :
    qs = qs' ∧ e = e' := by
  induction h generalizing qs' e' with
  | eof h =>
    cases h' with
    | eof => exact ⟨rfl, rfl⟩
    | bad hb => exact (laxPart_bad h hb).elim
    | quit _ hF => exact absurd (.inl h) (laxFrame_noPacket hF)
    | next hf => exact absurd (.inl h) (finds_packet hf)
  | @bad x rest hb =>
    generalize he : x ++ rest = b at h'
    cases h' with
    | eof h => exact (laxPart_bad (he ▸ h) hb).elim
    | bad => exact ⟨rfl, rfl⟩
    | quit _ hF => exact absurd (he ▸ noPacket_bad hb) (laxFrame_noPacket hF)
    | next hf => exact absurd (he ▸ noPacket_bad hb) (finds_packet hf)
  | @quit l w rest hl hF =>
    generalize he : w ++ rest = b at h'
    cases h' with
    | eof h => exact absurd (.inl (he ▸ h)) (laxFrame_noPacket hF)
    | bad hb => exact absurd (he ▸ noPacket_bad hb) (laxFrame_noPacket hF)
    | quit => exact ⟨rfl, rfl⟩
    | next hf => exact (finds_quit (he ▸ hf) hl hF).elim
  | next hf _ ih =>
    cases h' with
    | eof h => exact absurd (.inl h) (finds_packet hf)
    | bad hb => exact absurd (noPacket_bad hb) (finds_packet hf)
    | quit hl hF => exact (finds_quit hf hl hF).elim
    | next hf' hs' =>
      obtain ⟨rfl, rfl⟩ := finds_unique hf hf'
      obtain ⟨rfl, rfl⟩ := ih hs'
      exact ⟨rfl, rfl⟩

/-- Bytes with the meaning of C75 have just this sense. -/
theorem any_sense {qs : List Said} {e : Ending} {b : Bytes} (h : Any mode text qs e b) : Sense mode text qs e b := by
  induction h with
  | eof h => exact .eof h
  | bad h => exact .bad h
  | quit hl hF => exact .quit hl hF
  | heard he hF _ ih => exact .next (.takes (.heard he hF)) ih
  | broken hb hF ht hlong => exact .next (.takes (.broken hb hF ht hlong)) (.eof (.inl (by simp)))
  | garbled hg hF hb _ ih => exact .next (.takes (.garbled hg hF hb)) ih
  | tooLong hup hF hl hn _ ih => exact .next (.takes (.tooLong hup hF hl hn)) ih

end Verif
