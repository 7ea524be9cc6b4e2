import Verif.Lemmas.Cut
import Verif.Props.Again
/-! C74: a connection that breaks. -/
namespace Verif
open Spec

variable {cfg : Cfg} {mode : Mode} {ch ch2 : Nat → Choice} {s s' : Store} {r r2 : Rdr} {text : Bytes}

/-! ### Whatever arrives -/

theorem completed_total {ps : List Packet} (h : ps ≠ []) (hfit : ∀ p ∈ ps, Fits p) :
    (∃ a b, ps = a ++ b ∧ Extent mode a) ∨ (∃ ps', Completed mode ps ps' ∧ Extent mode ps') ∨
    (∀ part, CutOff part → BreaksOff mode text ps part (.nonsense 500 (cutMessage text))) ∨
    ∃ l b, ps = .data l :: b ∧ CommandLine l [b!"quit"] := by
  classical
  cases ps with
  | nil => exact absurd rfl h
  | cons p ps =>
    by_cases hop : Opens mode p
    swap
    · exact .inl ⟨[p], ps, rfl, .single hop⟩
    obtain ⟨l, ws, rfl, hl, hn⟩ := hop
    cases hn with
    | quit => exact .inr (.inr (.inr ⟨l, ps, rfl, hl⟩))
    | args hc =>
      rcases split_first (t := .flush) ps with h1 | ⟨a, b, h1, rfl⟩
      · exact .inr (.inl ⟨_, .args hl hc h1, .args hl hc h1⟩)
      · exact .inl ⟨.data l :: a ++ [.flush], b, by simp, .args hl hc h1⟩
    | batch =>
      rcases split_first (t := .delim) ps with h1 | ⟨a, b, h1, rfl⟩
      · by_cases ha : AreArgs ps
        · exact .inr (.inl ⟨_, .batchNone hl ha, by simpa using Extent.batch (items := []) hl ha (by simp)⟩)
        · exact .inr (.inl ⟨_, .batchArgs hl h1 ha, .batchArgs hl h1 ha⟩)
      · by_cases ha : AreArgs a
        · rcases split_first (t := .flush) b with h2 | ⟨c, d, h2, rfl⟩
          · exact .inr (.inl ⟨_, .batch hl ha h2, .batch hl ha h2⟩)
          · exact .inl ⟨.data l :: a ++ .delim :: c ++ [.flush], d, by simp, .batch hl ha h2⟩
        · exact .inl ⟨.data l :: a ++ [.delim], b, by simp, .batchArgs hl h1 ha⟩
    | @put oid more =>
      by_cases ho : IsOid oid
      swap
      · exact .inl ⟨[.data l], ps, rfl, .putOid rfl hl ho⟩
      rcases split_first (t := .delim) ps with h1 | ⟨a, b, h1, rfl⟩
      · by_cases ha : AreSized ps
        · exact .inr (.inr (.inl fun part hp => .putArgs rfl hl ho ha hp.part))
        · exact .inr (.inl ⟨_, .putArgs rfl hl ho h1 ha, .putArgs rfl hl ho h1 ha⟩)
      · by_cases ha : AreSized a
        · obtain ⟨ds, rfl | ⟨t, c, ht, rfl⟩⟩ := split_data b
          · have hds : ∀ d ∈ ds, d.length ≤ 65516 := fun d hd => hfit (.data d) (by simp [hd])
            exact .inr (.inr (.inl fun part hp => .putData rfl hl ho ha hds hp))
          · have hds : ∀ d ∈ ds, d.length ≤ 65516 := fun d hd => hfit (.data d) (by simp [hd])
            exact .inl ⟨.data l :: a ++ .delim :: ds.map .data ++ [t], c, by simp, .put rfl hl ho ha hds ht⟩
        · exact .inl ⟨.data l :: a ++ [.delim], b, by simp, .putArgs rfl hl ho h1 ha⟩

/-- No `unlock` among the packets has an argument that is text but no ID. -/
def NoOdd (mode : Mode) (ps : List Packet) : Prop :=
  ∀ l id more, .data l ∈ ps → mode = .upload → CommandLine l (b!"unlock" :: id :: more) → Text id → IsOid id

theorem heard_total {ps : List Packet} (h : Extent mode ps) (hodd : ∀ l rest id more, ps = .data l :: rest → mode = .upload →
    CommandLine l (b!"unlock" :: id :: more) → Text id → IsOid id) : ∃ q, Heard mode ps q := by
  rcases C72_total h with ⟨q, hq⟩ | ⟨code, msg, hq⟩ | ⟨hm, ho⟩
  · exact ⟨.ask q, hq⟩
  · exact ⟨.nonsense code msg, hq⟩
  · cases ho with
    | mk hl hid ht _ => exact absurd (hodd _ _ _ _ rfl hm hl ht) hid

theorem completed_prefix {ps ps' : List Packet} (h : Completed mode ps ps') :
    ps ≠ [] ∧ ∃ more, ps' = ps ++ more ∧ ∀ l, .data l ∉ more := by
  cases h with
  | args => exact ⟨by simp, [.flush], rfl, by simp⟩
  | batch => exact ⟨by simp, [.flush], rfl, by simp⟩
  | batchNone => exact ⟨by simp, [.delim, .flush], rfl, by simp⟩
  | batchArgs => exact ⟨by simp, [.delim], rfl, by simp⟩
  | putArgs => exact ⟨by simp, [.delim], rfl, by simp⟩

/-- **C74.** Whatever packets arrive before the connection breaks, anywhere: they are requests, sensible or not, and at
most one that is incomplete, all of which have a meaning. (But for `unlock` with an argument that is no ID, as in C72.) -/
theorem C74_total {ps : List Packet} {tail input : Bytes} (h : Client ps tail input) (hodd : NoOdd mode ps) :
    ∃ qs, CutTalk mode text qs input := by
  obtain ⟨hfit, htail, w, hF, rfl⟩ := h
  induction hn : ps.length using Nat.strongRecOn generalizing ps w with
  | ind n ih =>
    by_cases h0 : ps = []
    · subst h0
      cases hF
      exact ⟨[], .eof htail.part⟩
    rcases completed_total (mode := mode) (text := text) h0 hfit with ⟨a, b, rfl, ha⟩ | ⟨ps', hc, he⟩ | hb | ⟨l, b, rfl, hl⟩
    · obtain ⟨w1, w2, rfl, hF1, hF2⟩ := frames_split hF
      have hl : b.length < n := by
        have := List.length_pos_iff.mpr (extent_ne_nil ha)
        simp at hn; omega
      obtain ⟨q, hq⟩ := heard_total ha fun l rest id more e => hodd l id more (by rw [e]; simp)
      obtain ⟨qs, hqs⟩ := ih b.length hl (fun l id more hm => hodd l id more (by simp [hm])) (fun p hp => hfit p (by simp [hp]))
        w2 hF2 rfl
      exact ⟨q :: qs, by rw [List.append_assoc]; exact .heard hq hF1 hqs⟩
    · obtain ⟨-, more, rfl, hm⟩ := completed_prefix hc
      obtain ⟨q, hq⟩ := heard_total he fun l rest id m e => hodd l id m ((List.mem_append.mp (by rw [e]; simp)).resolve_right (hm l))
      exact ⟨[q], .broken (.heard hc hq htail.part) hF⟩
    · exact ⟨[_], .broken (hb tail htail) hF⟩
    · obtain ⟨w1, w2, rfl, hF1, hF2⟩ := frames_split (ps := [Packet.data l]) (by simpa using hF)
      exact ⟨[.ask .quit], by rw [List.append_assoc]; exact .quit hl hF1⟩

/-- **C74.** So the server works as usual: it replies to all of them as the simple server does, and then ends. -/
theorem C74_session (hc : ∀ n, (ch n).fault = none) (hsha : ∀ b, (cfg.sha b).length = 32)
    (hclk : ∀ t, Clock cfg ch t → TimeOk cfg t) {qs : List Said} {w : World} (hs : CutTalk mode r.fin.text qs r.input)
    (hr : Rep cfg s w.fs) (hp : r.pending = []) (hfin : r.fin.kind = .unexpectedEof) :
    ((mainProg cfg (Mode.operation mode) r).run ch w).1 = ⟨0, []⟩ ∧
    ∃ ws s', ((mainProg cfg (Mode.operation mode) r).run ch w).2.out = w.out ++ b!"000eversion=1\n0000" ++ ws.flatten ∧
      Conversation cfg mode ch s qs ws s' ∧ Rep cfg s' ((mainProg cfg (Mode.operation mode) r).run ch w).2.fs := by
  refine main_run (Q := fun w' => ∃ ws s', w'.out = w.out ++ b!"000eversion=1\n0000" ++ ws.flatten ∧
    Conversation cfg mode ch s qs ws s' ∧ Rep cfg s' w'.fs) ?_
  refine runs_mono (runs_of_stops (stops_program_cutTalk hc hsha hclk hs hp hfin hr)) ?_
  rintro x r' w' ⟨rfl, h⟩
  exact ⟨rfl, h⟩

/-- **C74.** And if it is killed, it has done some of them. -/
theorem C74_stopped (hc : ∀ n, (ch n).fault = none) (hsha : ∀ b, (cfg.sha b).length = 32)
    (hclk : ∀ t, Clock cfg ch t → TimeOk cfg t) {qs : List Said} {w : World} (hs : CutTalk mode r.fin.text qs r.input)
    (hr : Rep cfg s w.fs) (hp : r.pending = []) (hfin : r.fin.kind = .unexpectedEof) (n : Nat) :
    Progress cfg mode ch s qs (w.out ++ b!"000eversion=1\n0000") (stopped ch n (mainProg cfg (Mode.operation mode) r) w) := by
  refine stopped_wp (Q := fun _ => Progress cfg mode ch s qs (w.out ++ b!"000eversion=1\n0000")) n ?_ fun _ _ h => h
  unfold mainProg
  rw [Prog.wp_bind]
  refine Prog.wp_mono (stops_program_cutTalk hc hsha hclk hs hp hfin hr) ?_
  rintro ⟨x, r'⟩ w' ⟨rfl, ws, s', h1, h2, h3⟩
  refine ⟨qs.length, ws, s', by rw [List.take_length]; exact h2, ?_, .inl h3⟩
  show w'.out <+: _
  rw [h1]
  exact List.prefix_refl _

/-! ### Sensible requests that break off -/

/-- What is said changes nothing. -/
def Idle (mode : Mode) (q : Said) : Prop := ∀ cfg s t t', (reply cfg mode s t t' q).2 = s

theorem idle_nonsense {code : Nat} {msg : Bytes} : Idle mode (.nonsense code msg) := fun _ _ _ _ => rfl

theorem idle_ask {q : Request} (h1 : ∀ oid n d, q ≠ .put oid n d) (h2 : ∀ p, q ≠ .lock p) (h3 : ∀ id, q ≠ .unlock id) :
    Idle mode (.ask q) := by
  intro cfg s t t'
  cases q with
  | put => exact absurd rfl (h1 _ _ _)
  | lock => exact absurd rfl (h2 _)
  | unlock => exact absurd rfl (h3 _)
  | listLocks path cursor limit =>
    cases path with
    | none => rfl
    | some path =>
      simp only [reply, answer]
      cases s.find cfg (lockName cfg.sha path) with
      | none => rfl
      | some l =>
        simp only
        split
        · rfl
        · split <;> rfl
  | verify oid n =>
    simp only [reply, answer]
    cases s.objs oid with
    | none => rfl
    | some d => simp only; split <;> rfl
  | get oid =>
    simp only [reply, answer]
    cases s.objs oid <;> rfl
  | _ => rfl

theorem idle_heard {l : Bytes} {cmd : Bytes} {args : List Bytes} {ps : List Packet} {q : Said} (hl : CommandLine l (cmd :: args))
    (h : Heard mode (.data l :: ps) q) (h1 : cmd ≠ b!"put-object") (h2 : cmd ≠ b!"lock") (h3 : cmd ≠ b!"unlock") :
    Idle mode q := by
  cases q with
  | nonsense => exact idle_nonsense
  | ask q =>
    have h : Spec.Means mode (.data l :: ps) q := h
    generalize hps : Packet.data l :: ps = qs at h
    cases h <;> simp only [List.cons_append, List.cons.injEq, Packet.data.injEq] at hps <;> obtain ⟨rfl, hps⟩ := hps
    case put hl' => exact absurd (List.cons.inj (commandLine_unique hl hl')).1 h1
    case lock hl' => exact absurd (List.cons.inj (commandLine_unique hl hl')).1 h2
    case unlock hl' => exact absurd (List.cons.inj (commandLine_unique hl hl')).1 h3
    all_goals exact idle_ask (by simp) (by simp) (by simp)

/-- The arguments of which some have arrived. -/
theorem args_prefix {kv : List (Bytes × Bytes)} {a b : List Packet} (ha : ArgsOk kv) (h : argPackets kv = a ++ b) :
    ∃ k1 k2, kv = k1 ++ k2 ∧ a = argPackets k1 ∧ ArgsOk k1 := by
  obtain ⟨k1, k2, rfl, rfl, rfl⟩ := List.map_eq_append_iff.mp h
  refine ⟨k1, k2, rfl, rfl, fun e he => ha.1 e (by simp [he]), ?_⟩
  have := ha.2
  rw [List.map_append] at this
  exact (List.nodup_append.mp this).1

theorem lookup_some_prefix {k1 k2 : List (Bytes × Bytes)} {k v : Bytes} (h : lookup k1 k = some v) :
    lookup (k1 ++ k2) k = some v := by
  unfold lookup at h ⊢
  rw [List.find?_append]
  cases hf : k1.find? (fun e => e.1 = k) with
  | none => rw [hf] at h; cases h
  | some x => rw [hf] at h; simpa using h

/-- Some packets of those before a terminator. -/
theorem before_last {a b : List Packet} {p t : Packet} {xs : List Packet} (h : xs ++ [t] = a ++ p :: b) : ∃ c, xs = a ++ c := by
  rcases append_cases h with ⟨x, h1, h2⟩ | ⟨x, h1, h2⟩
  · cases x with
    | nil => exact ⟨[], by simpa using h1.symm⟩
    | cons y x =>
      have := congrArg List.length h2
      simp at this
  · exact ⟨x, h1⟩

/-- **A sensible request of which some packets have arrived.** It is taken for itself, or for something that changes
nothing. -/
theorem means_broken {ps1 ps2 : List Packet} {p : Packet} {q : Request} {part v : Bytes} (h : Spec.Means mode (ps1 ++ p :: ps2) q)
    (h0 : ps1 ≠ []) (hf : Frame p v) (hp : part <+: v) (hpn : part ≠ v) :
    ∃ q', BreaksOff mode text ps1 part q' ∧ (q' = .ask q ∧ (∀ oid n d, q ≠ .put oid n d) ∨ Idle mode q') := by
  classical
  have hpart : Part part := ⟨p, v, hf, hp, hpn⟩
  obtain ⟨p1, ps1, rfl⟩ := List.exists_cons_of_ne_nil h0
  clear h0
  generalize hps : p1 :: ps1 ++ p :: ps2 = ps at h
  -- commands that are read to a flush and change nothing
  have look : ∀ {l cmd : Bytes} {args : List Bytes} {kv : List (Bytes × Bytes)}, CommandLine l (cmd :: args) → ArgCommand mode (cmd :: args) →
      cmd ≠ b!"put-object" → cmd ≠ b!"lock" → cmd ≠ b!"unlock" → ArgsOk kv → p1 = .data l → ps1 ++ p :: ps2 = argPackets kv ++ [.flush] →
      ∃ q', BreaksOff mode text (p1 :: ps1) part q' ∧ (q' = .ask q ∧ (∀ oid n d, q ≠ .put oid n d) ∨ Idle mode q') := by
    rintro l cmd args kv hl hc g1 g2 g3 hkv rfl he
    obtain ⟨c, hcx⟩ := before_last he.symm
    obtain ⟨k1, k2, rfl, rfl, hk1⟩ := args_prefix hkv hcx
    have hn : Packet.flush ∉ argPackets k1 := by simp [argPackets]
    obtain ⟨q', hq'⟩ := heard_total (Extent.args hl hc hn) fun l' rest id more e _ hl' _ => by
      cases e
      exact absurd (List.cons.inj (commandLine_unique hl hl')).1 g3
    exact ⟨q', .heard (.args hl hc hn) hq' hpart, .inr (idle_heard hl hq' g1 g2 g3)⟩
  cases h <;> simp only [List.cons_append, List.cons.injEq] at hps <;> obtain ⟨rfl, hps⟩ := hps
  case version l more items hl hn =>
    obtain ⟨c, rfl⟩ := before_last hps.symm
    have hn' : Packet.flush ∉ ps1 := fun hm => hn (by simp [hm])
    exact ⟨.ask .version, .heard (.args hl .version hn') (Spec.Means.version hl hn') hpart, .inl ⟨rfl, by simp⟩⟩
  case batch l kv items ls hl ha hh hb =>
    have hodd : ∀ {l' rest id more}, CommandLine l' (b!"unlock" :: id :: more) → Packet.data l :: rest = .data l' :: rest → IsOid id := by
      rintro l' rest id more hl' e
      cases e
      exact absurd (List.cons.inj (commandLine_unique hl hl')).1 (by decide)
    rw [List.append_assoc] at hps
    rcases append_cases hps with ⟨x, h1, h2⟩ | ⟨x, h1, h2⟩
    · obtain ⟨k1, k2, rfl, rfl, hk1⟩ := args_prefix ha h1
      have he : Extent mode (.data l :: argPackets k1 ++ [.delim, .flush]) := by
        simpa using Extent.batch (items := []) hl ⟨k1, hk1, rfl⟩ (by simp)
      obtain ⟨q', hq'⟩ := heard_total he fun l' rest id more e _ hl' _ => by
        cases e
        exact absurd (List.cons.inj (commandLine_unique hl hl')).1 (by decide)
      exact ⟨q', .heard (.batchNone hl ⟨k1, hk1, rfl⟩) hq' hpart, .inr (idle_heard hl hq' (by decide) (by decide) (by decide))⟩
    · cases x with
      | nil =>
        simp only [List.append_nil] at h1
        subst h1
        have he : Extent mode (.data l :: argPackets kv ++ [.delim, .flush]) := by
          simpa using Extent.batch (items := []) hl ⟨kv, ha, rfl⟩ (by simp)
        obtain ⟨q', hq'⟩ := heard_total he fun l' rest id more e _ hl' _ => by
          cases e
          exact absurd (List.cons.inj (commandLine_unique hl hl')).1 (by decide)
        exact ⟨q', .heard (.batchNone hl ⟨kv, ha, rfl⟩) hq' hpart, .inr (idle_heard hl hq' (by decide) (by decide) (by decide))⟩
      | cons y x =>
        simp only [List.cons_append, List.cons.injEq] at h2
        obtain ⟨rfl, h2⟩ := h2
        obtain ⟨c, hc⟩ := before_last h2
        have hn : Packet.flush ∉ x := fun hm => by
          have : Packet.flush ∈ ls.map Packet.data := by rw [hc]; simp [hm]
          simp at this
        subst h1
        have he : Extent mode (.data l :: argPackets kv ++ .delim :: x ++ [.flush]) := .batch hl ⟨kv, ha, rfl⟩ hn
        obtain ⟨q', hq'⟩ := heard_total he fun l' rest id more e _ hl' _ => by
          cases e
          exact absurd (List.cons.inj (commandLine_unique hl hl')).1 (by decide)
        exact ⟨q', .heard (.batch hl ⟨kv, ha, rfl⟩ hn) hq' hpart, .inr (idle_heard hl hq' (by decide) (by decide) (by decide))⟩
  case put l more kv oid sz n ds t hl ho ha hs hn hds ht =>
    have early : ∀ k1, ArgsOk k1 → ∃ q', BreaksOff .upload text (.data l :: argPackets k1) part q' ∧
        (q' = .ask (.put oid n ds.flatten) ∧ (∀ oid' n' d, Request.put oid n ds.flatten ≠ .put oid' n' d) ∨ Idle .upload q') := by
      intro k1 hk1
      rcases size_total b!"missing required size header" (lookup k1 b!"size") with ⟨s1, n1, hs1, hn1⟩ | ⟨msg, hb⟩
      · exact ⟨_, .putArgs rfl hl ho ⟨k1, s1, n1, hk1, rfl, hs1, hn1⟩ hpart, .inr idle_nonsense⟩
      · refine ⟨.nonsense 400 msg, .heard (.putArgs rfl hl ho (argPackets_delim _) ?_) (Denied.putSize rfl hl ho hk1 hb) hpart, .inr idle_nonsense⟩
        rintro ⟨k', s', n', hk', e, hs', hn'⟩
        rw [← lookup_same hk1 hk' e] at hs'
        rw [hs'] at hb
        cases hb with
        | wrong hw => exact hw ⟨n', hn'⟩
    rw [List.append_assoc] at hps
    rcases append_cases hps with ⟨x, h1, h2⟩ | ⟨x, h1, h2⟩
    · obtain ⟨k1, k2, rfl, rfl, hk1⟩ := args_prefix ha h1
      exact early k1 hk1
    · cases x with
      | nil =>
        simp only [List.append_nil] at h1
        subst h1
        exact early kv ha
      | cons y x =>
        simp only [List.cons_append, List.cons.injEq] at h2
        obtain ⟨rfl, h2⟩ := h2
        obtain ⟨c, hc⟩ := before_last h2
        obtain ⟨d1, d2, rfl, rfl, -⟩ := List.map_eq_append_iff.mp hc
        subst h1
        have hfit : Fits p := by
          have hm : p ∈ (d1 ++ d2).map Packet.data ++ [t] := by rw [h2]; simp
          rcases List.mem_append.mp hm with hm | hm
          · obtain ⟨d, hd, rfl⟩ := List.mem_map.mp hm
            exact hds d hd
          · simp at hm; subst hm
            rcases ht with rfl | rfl <;> trivial
        exact ⟨_, .putData rfl hl ho ⟨kv, sz, n, ha, rfl, hs, hn⟩ (fun d hd => hds d (by simp [hd])) ⟨p, v, hf, hfit, hp, hpn⟩,
          .inr idle_nonsense⟩
  case verify l more kv oid sz n hl ho ha hs hn =>
    exact look hl .verify (by decide) (by decide) (by decide) ha rfl hps
  case get l more kv oid hl ho ha =>
    exact look hl .get (by decide) (by decide) (by decide) ha rfl hps
  case lock l kv path ref hl ha hpa href =>
    obtain ⟨c, hcx⟩ := before_last hps.symm
    obtain ⟨k1, k2, rfl, rfl, hk1⟩ := args_prefix ha hcx
    have hn : Packet.flush ∉ argPackets k1 := by simp [argPackets]
    by_cases hb : lookup k1 b!"path" = none ∨ lookup k1 b!"refname" = none
    · exact ⟨.nonsense 400 _, .heard (.args hl .lock hn) (Denied.lock rfl hl hk1 hb) hpart, .inr idle_nonsense⟩
    · obtain ⟨g1, g2⟩ := not_or.mp hb
      obtain ⟨x, hx⟩ := Option.ne_none_iff_exists'.mp g1
      obtain ⟨y, hy⟩ := Option.ne_none_iff_exists'.mp g2
      have : x = path := Option.some.inj ((lookup_some_prefix hx).symm.trans hpa)
      subst this
      exact ⟨_, .heard (q := .ask (.lock x)) (.args hl .lock hn) (Spec.Means.lock hl hk1 hx hy) hpart, .inl ⟨rfl, by simp⟩⟩
  case listLocks l kv limit hl ha hlim =>
    exact look hl .listLocks (by decide) (by decide) (by decide) ha rfl hps
  case unlock l id more items hl hid hn =>
    obtain ⟨c, rfl⟩ := before_last hps.symm
    have hn' : Packet.flush ∉ ps1 := fun hm => hn (by simp [hm])
    exact ⟨.ask (.unlock id), .heard (.args hl .unlock hn') (Spec.Means.unlock hl hid hn') hpart, .inl ⟨rfl, by simp⟩⟩

/-! ### Connections that break anywhere -/

theorem cutTalk_append {qs1 qs2 : List Said} {w1 w2 : Bytes} (h : Talk mode qs1 w1) (hq : .ask .quit ∉ qs1)
    (h2 : CutTalk mode text qs2 w2) : CutTalk mode text (qs1 ++ qs2) (w1 ++ w2) := by
  induction h with
  | eof => exact h2
  | quit => simp at hq
  | ask he hF _ ih =>
    rw [List.append_assoc]
    exact .heard he hF (ih fun h => hq (by simp [h]))
  | nonsense he hF _ ih =>
    rw [List.append_assoc]
    exact .heard he hF (ih fun h => hq (by simp [h]))

/-- Some bytes of a request, but not all. -/
theorem means_cut {ps : List Packet} {q : Request} {w part : Bytes} (h : Spec.Means mode ps q) (hF : Frames ps w)
    (hp : part <+: w) (hn : part ≠ w) : Part part ∨ ∃ q', CutTalk mode text [q'] part ∧
      (q' = .ask q ∧ (∀ oid n d, q ≠ .put oid n d) ∨ Idle mode q') := by
  obtain ⟨ps1, p, ps2, w1, wp, rest, rfl, h1, h2, h3, h4, rfl⟩ := frames_prefix hF part hp hn
  by_cases h0 : ps1 = []
  · subst h0
    cases h1
    exact .inl ⟨p, wp, h2, h3, h4⟩
  · obtain ⟨q', h5, h6⟩ := means_broken (text := text) h h0 h2 h3 h4
    exact .inr ⟨q', .broken h5 h1, h6⟩

theorem conversation_append {as bs : List Said} {ws : List Bytes} (h : Conversation cfg mode ch s (as ++ bs) ws s') :
    ∃ ws1 ws2 s1, ws = ws1 ++ ws2 ∧ Conversation cfg mode ch s as ws1 s1 ∧ Conversation cfg mode ch s1 bs ws2 s' := by
  induction as generalizing s ws with
  | nil => exact ⟨[], ws, s, rfl, .nil, h⟩
  | cons a as ih =>
    cases h with
    | cons ht ht' hr hs h =>
      obtain ⟨ws1, ws2, s1, rfl, h1, h2⟩ := ih h
      exact ⟨_ :: ws1, ws2, s1, rfl, .cons ht ht' hr hs h1, h2⟩

/-- A conversation that ends with something that changes nothing. -/
theorem conversation_idle {as : List Said} {q : Said} {ws : List Bytes} (hq : Idle mode q)
    (h : Conversation cfg mode ch s (as ++ [q]) ws s') : ∃ ws1 b, ws = ws1 ++ [b] ∧ Conversation cfg mode ch s as ws1 s' := by
  obtain ⟨ws1, ws2, s1, rfl, h1, h2⟩ := conversation_append h
  cases h2 with
  | @cons _ _ _ _ _ t t' a b _ _ _ hr _ h2 =>
    cases h2
    have := hq cfg s1 t t'
    rw [hr] at this
    simp only at this
    subst this
    exact ⟨ws1, b, rfl, h1⟩

/-- **C74.** The requests `qs` (sensible or not) have arrived, and of `q` some bytes, but not all. Then the server has done
`qs`, and perhaps `q`; the store is that after these requests, and the replies to `qs` have been sent. An upload of which
not all has arrived is not stored. -/
theorem C74_cut (hc : ∀ n, (ch n).fault = none) (hsha : ∀ b, (cfg.sha b).length = 32)
    (hclk : ∀ t, Clock cfg ch t → TimeOk cfg t) {qs : List Said} {q : Request} {ps : List Packet} {w1 w2 part : Bytes} {w : World}
    (h1 : Talk mode qs w1) (hq : .ask .quit ∉ qs) (h2 : Spec.Means mode ps q) (hF : Frames ps w2) (hpre : part <+: w2)
    (hne : part ≠ w2) (hi : r.input = w1 ++ part) (hr : Rep cfg s w.fs) (hp : r.pending = []) (hfin : r.fin.kind = .unexpectedEof) :
    ((mainProg cfg (Mode.operation mode) r).run ch w).1 = ⟨0, []⟩ ∧
    ∃ done ws s', (done = qs ∨ done = qs ++ [.ask q] ∧ ∀ oid n d, q ≠ .put oid n d) ∧
      Conversation cfg mode ch s done ws s' ∧
      Rep cfg s' ((mainProg cfg (Mode.operation mode) r).run ch w).2.fs ∧
      ∃ b, ((mainProg cfg (Mode.operation mode) r).run ch w).2.out = w.out ++ b!"000eversion=1\n0000" ++ ws.flatten ++ b := by
  rcases means_cut (text := r.fin.text) h2 hF hpre hne with hpart | ⟨q', hq', hor⟩
  · have hs := cutTalk_append (text := r.fin.text) h1 hq (.eof hpart)
    rw [List.append_nil, ← hi] at hs
    obtain ⟨hx, ws, s', g1, g2, g3⟩ := C74_session hc hsha hclk hs hr hp hfin
    exact ⟨hx, qs, ws, s', .inl rfl, g2, g3, [], by simpa using g1⟩
  · have hs := cutTalk_append h1 hq hq'
    rw [← hi] at hs
    obtain ⟨hx, ws, s', g1, g2, g3⟩ := C74_session hc hsha hclk hs hr hp hfin
    rcases hor with ⟨rfl, hput⟩ | hidle
    · exact ⟨hx, _, ws, s', .inr ⟨rfl, hput⟩, g2, g3, [], by simpa using g1⟩
    · obtain ⟨ws1, b, rfl, g4⟩ := conversation_idle hidle g2
      exact ⟨hx, qs, ws1, s', .inl rfl, g4, g3, b, by simpa using g1⟩

/-- **C74.** The client then starts again, with a request that it has not sent completely, or with an earlier one: at the
end there are the same objects, and the same files are locked, as if the connection had not broken. -/
theorem C74_again (hc : ∀ n, (ch n).fault = none) (hc2 : ∀ n, (ch2 n).fault = none) (hsha : ∀ b, (cfg.sha b).length = 32)
    (hclk : ∀ t, Clock cfg ch t → TimeOk cfg t) (hclk2 : ∀ t, Clock cfg ch2 t → TimeOk cfg t) {qs qs' : List Said} {q : Request}
    {ps : List Packet} {w1 w2 part : Bytes} {w : World} (h1 : Talk mode qs w1) (hq : .ask .quit ∉ qs) (h2 : Spec.Means mode ps q)
    (hF : Frames ps w2) (hpre : part <+: w2) (hne : part ≠ w2) (hi : r.input = w1 ++ part) (hr : Rep cfg s w.fs)
    (hp : r.pending = []) (hfin : r.fin.kind = .unexpectedEof) {m : Nat} (hm : m ≤ qs.length) {v : World}
    (hfs : v.fs = ((mainProg cfg (Mode.operation mode) r).run ch w).2.fs)
    (hs2 : Talk mode ((qs ++ .ask q :: qs').drop m) r2.input) (hp2 : r2.pending = []) (hfin2 : r2.fin.kind = .unexpectedEof) :
    ((mainProg cfg (Mode.operation mode) r2).run ch2 v).1 = ⟨0, []⟩ ∧
    ∃ ws s' s2, ((mainProg cfg (Mode.operation mode) r2).run ch2 v).2.out = v.out ++ b!"000eversion=1\n0000" ++ ws.flatten ∧
      Conversation cfg mode ch2 s' ((qs ++ .ask q :: qs').drop m) ws s2 ∧
      Rep cfg s2 ((mainProg cfg (Mode.operation mode) r2).run ch2 v).2.fs ∧
      ∀ ch1 ws1 s1, Conversation cfg mode ch1 s (qs ++ .ask q :: qs') ws1 s1 →
        SameStore cfg s2 s1 ∧ ((∀ p, .ask (.lock p) ∉ qs ++ .ask q :: qs') → s2 = s1) := by
  obtain ⟨-, done, ws0, s', hdone, hconv, hrep, -⟩ := C74_cut hc hsha hclk h1 hq h2 hF hpre hne hi hr hp hfin
  rw [← hfs] at hrep
  obtain ⟨hx, ws, s2, g1, g2, g3⟩ := C72_session_partial hc2 hsha hclk2 hs2 hrep hp2 hfin2
  refine ⟨hx, ws, s', s2, g1, g2, g3, fun ch1 ws1 s1 h => ?_⟩
  obtain ⟨k, hk, hd⟩ : ∃ k, m ≤ k ∧ done = (qs ++ .ask q :: qs').take k := by
    rcases hdone with rfl | ⟨rfl, _⟩
    · exact ⟨_, hm, by simp⟩
    · refine ⟨(qs ++ [Said.ask q]).length, by simp; omega, ?_⟩
      rw [show qs ++ .ask q :: qs' = (qs ++ [.ask q]) ++ qs' by simp, List.take_left]
  rw [hd] at hconv
  exact resumed hk hconv g2 h

theorem cut_anywhere {qs : List Said} {wire input : Bytes} (h : Talk mode qs wire) (hq : ∀ q ∈ qs, ∃ a, q = .ask a)
    (hpre : input <+: wire) : ∃ k done, CutTalk mode text done input ∧
      (done = qs.take k ∨ ∃ q', Idle mode q' ∧ done = qs.take k ++ [q']) := by
  induction h generalizing input with
  | eof =>
    rw [List.prefix_nil.mp hpre]
    exact ⟨0, [], .eof part_nil, .inl rfl⟩
  | @quit l w rest hl hF =>
    by_cases hlen : input.length < w.length
    · have h1 := List.prefix_of_prefix_length_le hpre (List.prefix_append w rest) (by omega)
      exact ⟨0, [], .eof ⟨_, w, frames_singleton hF, h1, fun e => by rw [e] at hlen; omega⟩, .inl rfl⟩
    · obtain ⟨x, rfl⟩ := List.prefix_of_prefix_length_le (List.prefix_append w rest) hpre (by omega)
      exact ⟨1, _, .quit hl hF, .inl rfl⟩
  | @ask q qs ps w ws he hF _ ih =>
    by_cases hlen : input.length < w.length
    · have h1 := List.prefix_of_prefix_length_le hpre (List.prefix_append w ws) (by omega)
      rcases means_cut (text := text) he hF h1 (fun e => by rw [e] at hlen; omega) with hpart | ⟨q', hq', ⟨rfl, _⟩ | hidle⟩
      · exact ⟨0, [], .eof hpart, .inl rfl⟩
      · exact ⟨1, _, hq', .inl rfl⟩
      · exact ⟨0, _, hq', .inr ⟨q', hidle, rfl⟩⟩
    · obtain ⟨x, rfl⟩ := List.prefix_of_prefix_length_le (List.prefix_append w ws) hpre (by omega)
      obtain ⟨k, done, h1, h2⟩ := ih (fun q hm => hq q (by simp [hm])) ((List.prefix_append_right_inj w).mp hpre)
      refine ⟨k + 1, _, .heard (q := .ask q) he hF h1, ?_⟩
      rcases h2 with rfl | ⟨q', h2, rfl⟩
      · exact .inl rfl
      · exact .inr ⟨q', h2, rfl⟩
  | nonsense =>
    obtain ⟨a, ha⟩ := hq _ List.mem_cons_self
    cases ha

/-- **C74.** However much arrives of a session of sensible requests: the server ends as usual, the store is that after the
first `k` requests for some `k`, and the client gets the replies to these. (What follows them, if anything, is a reply
to an incomplete request which changes nothing.) -/
theorem C74_anywhere (hc : ∀ n, (ch n).fault = none) (hsha : ∀ b, (cfg.sha b).length = 32)
    (hclk : ∀ t, Clock cfg ch t → TimeOk cfg t) {qs : List Request} {wire : Bytes} {w : World} (hs : Session mode qs wire)
    (hpre : r.input <+: wire) (hr : Rep cfg s w.fs) (hp : r.pending = []) (hfin : r.fin.kind = .unexpectedEof) :
    ((mainProg cfg (Mode.operation mode) r).run ch w).1 = ⟨0, []⟩ ∧
    ∃ k ws s' b, ((mainProg cfg (Mode.operation mode) r).run ch w).2.out =
        w.out ++ b!"000eversion=1\n0000" ++ ws.flatten ++ b ∧
      Conversation cfg mode ch s ((qs.take k).map .ask) ws s' ∧
      Rep cfg s' ((mainProg cfg (Mode.operation mode) r).run ch w).2.fs := by
  obtain ⟨k, done, h1, h2⟩ := cut_anywhere (text := r.fin.text) (C72_sessions hs) (by simp) hpre
  obtain ⟨hx, ws, s', g1, g2, g3⟩ := C74_session hc hsha hclk h1 hr hp hfin
  simp only [List.map_take]
  rcases h2 with rfl | ⟨q', h2, rfl⟩
  · exact ⟨hx, k, ws, s', [], by simpa using g1, g2, g3⟩
  · obtain ⟨ws1, b, rfl, g4⟩ := conversation_idle h2 g2
    exact ⟨hx, k, ws1, s', b, by simpa using g1, g4, g3⟩

/-! ### Examples -/

namespace Tests

/-- What the server does that gets `input`, and then the end of the connection. -/
def cutRun (input : Bytes) : Exit × World := (server Tests.cfg b!"upload" input).run calm ⟨fs0, [], 0⟩

/-- `demoWire` is an upload, a batch, an upload and `quit`. `C74_anywhere` applies to every prefix of it: after 110 bytes
the upload is incomplete, and the client is told so; after all bytes of the upload and some of the batch the server has
stored the object, and answers the batch, of which it knows one line. -/
example : Session .upload [.put oidA 6 b!"abc123", .batch [(oidA, 6), (idF, 42)], .put oidA 6 b!"abc", .quit] demoWire ∧
    Rep Tests.cfg s0 fs0 ∧
    (cutRun (demoWire.take 110)).1 = ⟨0, []⟩ ∧
    (cutRun (demoWire.take 110)).2.fs.content (objPath Tests.cfg.root oidA) = none ∧
    (cutRun (demoWire.take 110)).2.out = b!"000eversion=1\n0000" ++ ([] : List Bytes).flatten ++
      enc (Reply.packets ⟨500, b!"500", [], some [cutMessage eofErr.text]⟩) ∧
    (cutRun (demoWire.take 240)).1 = ⟨0, []⟩ ∧
    (cutRun (demoWire.take 240)).2.fs.content (objPath Tests.cfg.root oidA) = some b!"abc123" ∧
    (cutRun (demoWire.take 240)).2.out = b!"000eversion=1\n0000" ++ [b!"000fstatus 200\n0000"].flatten ++
      (b!"000fstatus 200\n0001004c" ++ oidA ++ b!" 6 noop\n0000") := by
  refine ⟨demo_session, rep0, by decide +kernel, by decide +kernel, by decide +kernel, by decide +kernel, by decide +kernel,
    by decide +kernel⟩

/-- A lock request of which all but the flush has arrived: the file is locked. With one byte less, it is not. -/
example : Spec.Means .upload (lockOf b!"f") (.lock b!"f") ∧ Frames (lockOf b!"f") lockReq ∧
    lockReq.take (lockReq.length - 4) <+: lockReq ∧ lockReq.take (lockReq.length - 4) ≠ lockReq ∧
    ((cutRun (lockReq.take (lockReq.length - 4))).2.fs.get (lockPath Tests.cfg b!"f")).isSome ∧
    (cutRun (lockReq.take (lockReq.length - 4))).2.out = (cutRun lockReq).2.out ∧
    (cutRun (lockReq.take (lockReq.length - 5))).2.fs.get (lockPath Tests.cfg b!"f") = none := by
  refine ⟨C72_sensible (lockOf_encodes _) rfl (by simp), frames_enc _ (by decide), List.take_prefix _ _, by decide +kernel, by decide +kernel, by decide +kernel, by decide +kernel⟩

/-- A request that the server denies: a third argument repeats the first. -/
def lockTwice : List Packet := .data b!"lock" ::
  (argPackets [(b!"path", b!"f"), (b!"refname", b!"refs/heads/main")] ++ .data (argLine b!"path" b!"g") :: []) ++ [.flush]

end Tests

open Tests in
/-- `C74_cut` and `C74_anywhere` say nothing about a denied request that breaks off, and cannot: a server that gets all of
this one denies it, and a server that gets its beginning locks a file. -/
theorem C74_denied_may_count : ∃ (cfg : Cfg) (ps : List Packet) (code : Nat) (msg part : Bytes) (fs : FS) (s : Store),
    Rep cfg s fs ∧ Denied .upload ps code msg ∧ Frames ps (enc ps) ∧ part <+: enc ps ∧
    ((server cfg b!"upload" (enc ps)).run calm ⟨fs, [], 0⟩).2.fs.get (lockPath cfg b!"f") = none ∧
    (((server cfg b!"upload" part).run calm ⟨fs, [], 0⟩).2.fs.get (lockPath cfg b!"f")).isSome :=
  ⟨Tests.cfg, lockTwice, 400, _, (enc lockTwice).take (lockReq.length - 4), fs0, s0, rep0,
    .args (ws := [b!"lock"]) ⟨b!"lock", .one (by decide), by decide, .inr ⟨rfl, by decide⟩⟩ .lock ⟨by decide, by decide⟩ (by decide +kernel)
      (.twice ⟨by simp, by simp⟩ (by decide) (by decide)),
    frames_enc _ (by decide +kernel), List.take_prefix _ _, by decide +kernel, by decide +kernel⟩

end Verif
