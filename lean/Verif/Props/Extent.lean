import Verif.Props.Sync
import Verif.Lemmas.Reads
import Verif.Spec.Extent
import Verif.Spec.Align
/-!
Property C38: how far each request extends, exactly.
-/
namespace Verif
open Spec

variable {cfg : Cfg} {mode : Mode} {r r' : Rdr}

/-! ### Reading packets of any kind -/

theorem readToTypeF_any (typ : Packet) : ∀ (ps : List Packet) (f : Nat) (r : Rdr) (w rest : Bytes),
    Frames (ps ++ [typ]) w → typ ∉ ps → r.input = w ++ rest → ps.length < f →
    readToTypeF typ f r = (.ok (ps.map fun p => p.data?.getD []), { r with input := rest })
  | _, 0, _, _, _, _, _, _, h => by omega
  | [], f + 1, r, w, rest, hF, _, hi, _ => by
    cases hF with
    | cons hf hn =>
      cases hn
      rw [List.append_nil] at hi
      simp only [readToTypeF, next_frame hf r rest hi, if_true, List.map_nil]
  | p :: ps, f + 1, r, w, rest, hF, hn, hi, hl => by
    simp only [List.cons_append] at hF
    generalize hps : ps ++ [typ] = qs at hF
    cases hF with
    | @cons _ _ w1 ws hf hF =>
      rw [List.append_assoc] at hi
      have hne : p ≠ typ := fun h => hn (by simp [h])
      have ih := readToTypeF_any typ ps f { r with input := ws ++ rest } ws rest (hps ▸ hF)
        (fun h => hn (List.mem_cons_of_mem _ h)) rfl (by simp only [List.length_cons] at hl; omega)
      simp only [readToTypeF, next_frame hf r _ hi, if_neg hne, ih, List.map_cons]

theorem readToType_any {typ : Packet} {ps : List Packet} {r : Rdr} {w rest : Bytes} (hF : Frames (ps ++ [typ]) w)
    (hn : typ ∉ ps) (hi : r.input = w ++ rest) :
    readToType typ r = (.ok (ps.map fun p => p.data?.getD []), { r with input := rest }) := by
  refine readToTypeF_any typ ps _ r w rest hF hn hi ?_
  have := frames_length hF
  rw [hi]; simp at this ⊢; omega

theorem argPackets_data (kv : List (Bytes × Bytes)) :
    (argPackets kv).map (fun p => p.data?.getD []) = kv.map fun e => argLine e.1 e.2 := by
  simp [argPackets, Packet.data?]

theorem argPackets_delim (kv : List (Bytes × Bytes)) : Packet.delim ∉ argPackets kv := by
  simp [argPackets]

theorem areArgs_delim {as : List Packet} (h : AreArgs as) : Packet.delim ∉ as := by
  obtain ⟨kv, _, rfl⟩ := h
  exact argPackets_delim kv

/-- What is found among packets that are no arguments is an error. -/
theorem parse_notArgs {as : List Packet} (h : ¬ AreArgs as) : ∃ e, parseArgs (as.map fun p => p.data?.getD []) = .err e := by
  rcases C09_exhaustive (as.map fun p => p.data?.getD []) with ⟨kv, hk, he⟩ | ⟨kv, bad, rest, hk, he, hb⟩
  · refine absurd ⟨kv, hk, ?_⟩ h
    clear h hk
    induction kv generalizing as with
    | nil => simpa [argPackets] using he
    | cons x kv ih =>
      cases as with
      | nil => cases he
      | cons p as =>
        simp only [List.map_cons, List.cons.injEq] at he
        rw [ih he.2]
        have : p = .data (argLine x.1 x.2) := by
          have hx := he.1
          cases p with
          | data d => rw [← hx]; rfl
          | _ => exact absurd hx.symm (by simp [argLine, Packet.data?])
        rw [this]
        rfl
  · rw [he]
    obtain ⟨h1, h2, h3⟩ := C09_args_errors kv hk bad rest
    rcases hb with hb | hb | ⟨k, v, rfl, hk1, hk2⟩
    · obtain ⟨e, h, _⟩ := h1 hb; exact ⟨e, h⟩
    · obtain ⟨e, h, _⟩ := h2 hb; exact ⟨e, h⟩
    · obtain ⟨e, h, _⟩ := h3 k v rfl hk1 hk2; exact ⟨e, h⟩

/-- Without a size the arguments of an upload are not accepted. -/
theorem parse_notSized {as : List Packet} (h : ¬ AreSized as) :
    (∃ e, parseArgs (as.map fun p => p.data?.getD []) = .err e) ∨
    ∃ m e, parseArgs (as.map fun p => p.data?.getD []) = .ok m ∧ sizeFromArgs m = .err e := by
  by_cases ha : AreArgs as
  · right
    obtain ⟨kv, hk, rfl⟩ := ha
    obtain ⟨m, hm, hg⟩ := C09_args_exact kv hk
    rw [argPackets_data]
    refine ⟨m, ?_⟩
    unfold sizeFromArgs
    rw [hg]
    cases hl : lookup kv b!"size" with
    | none => exact ⟨_, hm, rfl⟩
    | some s =>
      have hn : ¬ ∃ n, parseInteger s = .ok n := by
        rintro ⟨n, hn⟩
        obtain ⟨h1, h2⟩ := (C10_integer_exact s n).1.mp hn
        exact h ⟨kv, s, n, hk, rfl, hl, by omega, h2⟩
      obtain ⟨e, he, _⟩ := (C10_integer_exact s 0).2 hn
      exact ⟨e, hm, he⟩
  · exact .inl (parse_notArgs ha)

theorem M.endsAt_ofRes_err {P : Event → Prop} {α β : Type} {x : Res α} {f : α → M β} {r : Rdr} {e : Err} (h : x = .err e) :
    (M.ofRes x >>= f).EndsAt P r r := by
  unfold M.EndsAt
  rw [M.wp_bind, M.wp_ofRes, h]
  rfl

/-! ### Packets that are no command -/

theorem frames_list : ∀ {ps : List Packet}, (∀ d, .data d ∈ ps → d.length ≤ 65531) → Frames ps (ps.map encPacket).flatten
  | [], _ => .nil
  | p :: _, h => .cons (frame_encPacket p fun d e => h d (by simp [e])) (frames_list fun d hd => h d (by simp [hd]))

theorem commandLine_unique {l : Bytes} {ws ws' : List Bytes} (h : CommandLine l ws) (h' : CommandLine l ws') : ws = ws' :=
  (commandLine_words h).1.symm.trans (commandLine_words h').1

theorem commandLine_exists {l : Bytes} (h0 : l ≠ []) (h1 : l ≠ b!"\n") : ∃ cmd args, CommandLine l (cmd :: args) := by
  have hw := words_of_splitOn (if l.getLast? = some NL then l.dropLast else l)
  have hne := splitOn_ne_nil SP (if l.getLast? = some NL then l.dropLast else l)
  cases hs : splitOn SP (if l.getLast? = some NL then l.dropLast else l) with
  | nil => exact absurd hs hne
  | cons cmd args =>
    rw [hs] at hw
    refine ⟨cmd, args, _, hw, ?_, ?_⟩
    · split
      · rename_i hl
        obtain ⟨ys, rfl⟩ := List.getLast?_eq_some_iff.mp hl
        rw [List.dropLast_concat]
        rintro rfl
        exact h1 rfl
      · exact h0
    · split
      · rename_i hl
        left
        obtain ⟨ys, rfl⟩ := List.getLast?_eq_some_iff.mp hl
        simp [NL]
      · rename_i hl
        exact .inr ⟨rfl, hl⟩

theorem no_blank {ws : List Bytes} : ¬ CommandLine b!"\n" ws := by
  rintro ⟨w, _, hne, h | ⟨rfl, h⟩⟩
  · cases w with
    | nil => exact hne rfl
    | cons a w => cases w <;> simp at h
  · exact h rfl

theorem no_empty {ws : List Bytes} : ¬ CommandLine [] ws := fun h => (commandLine_words h).2 rfl

theorem dispatch_other {ws : List Bytes} (hne : ws ≠ []) (h : ¬ NeedsMore mode ws) : ∃ cmd args st, ws = cmd :: args ∧
    ¬ (cmd = b!"quit" ∧ args.head? = none) ∧ dispatch cfg mode cmd args.head? = pure st := by
  cases ws with
  | nil => exact absurd rfl hne
  | cons cmd args =>
    refine ⟨cmd, args, ?_⟩
    cases args with
    | nil =>
      by_cases hq : cmd = b!"quit"
      · subst hq; exact absurd .quit h
      by_cases hb : cmd = b!"batch"
      · subst hb; exact absurd .batch h
      by_cases hl : cmd = b!"list-lock"
      · subst hl; exact absurd (.args .listLocks) h
      by_cases hk : cmd = b!"lock" ∧ mode = .upload
      · obtain ⟨rfl, rfl⟩ := hk; exact absurd (.args .lock) h
      unfold dispatch
      simp only [List.head?_nil]
      by_cases hv : cmd = b!"version"
      · simp only [hv, if_true, reduceCtorEq, if_false]
        exact ⟨_, trivial, by decide, rfl⟩
      · simp only [hv, hb, hl, hk, if_false, false_and]
        exact ⟨_, trivial, by simp [hq], rfl⟩
    | cons x more =>
      unfold dispatch
      simp only [List.head?_cons, reduceCtorEq, and_false, if_false, Option.some.injEq, not_false_eq_true, true_and]
      by_cases hv : cmd = b!"version"
      · subst hv
        by_cases h1 : x = b!"1"
        · subst h1; exact absurd (.args .version) h
        · simp only [if_true, h1, if_false]
          exact ⟨_, rfl⟩
      simp only [hv, if_false]
      by_cases hp : cmd = b!"put-object"
      · subst hp
        cases mode with
        | upload => exact absurd .put h
        | download => exact ⟨_, rfl⟩
      simp only [hp, if_false]
      by_cases hp : cmd = b!"verify-object"
      · subst hp
        cases mode with
        | upload => exact absurd (.args .verify) h
        | download => exact ⟨_, rfl⟩
      simp only [hp, if_false]
      by_cases hp : cmd = b!"get-object"
      · subst hp
        cases mode with
        | upload => exact ⟨_, rfl⟩
        | download => exact absurd (.args .get) h
      simp only [hp, if_false]
      by_cases hp : cmd = b!"unlock" ∧ mode = .upload
      · obtain ⟨rfl, rfl⟩ := hp; exact absurd (.args .unlock) h
      simp only [hp, if_false]
      exact ⟨_, rfl⟩

theorem turn_other {l cmd : Bytes} {args : List Bytes} {r1 : Rdr} {st : Status} {P : Event → Prop}
    (h : r.readPacket = (.ok (.data l), r1)) (hl : l ≠ []) (hw : commandWords l = cmd :: args)
    (hq : ¬ (cmd = b!"quit" ∧ args.head? = none)) (hd : dispatch cfg mode cmd args.head? = pure st) :
    (turn cfg mode).wp (Logic.only P) r () (fun x r' _ => r' = r1 ∧ x ≠ .ok .done) := by
  unfold M.wp
  rw [turn_data cfg mode r r1 l hl h]
  simp only [hw, List.head?_cons, Option.getD_some, List.tail_cons, hq, if_false, hd]
  refine M.wp_mono (m := sendStatus st >>= fun _ => (pure Turn.again : M Turn)) (r := r1) (s := ())
    (Q := fun x r' _ => r' = r1 ∧ x ≠ .ok .done) ?_ fun _ _ _ h => h
  rw [M.wp_bind]
  refine M.wp_mono (still_sendStatus st P r1) ?_
  rintro (u | e | _) r' s' rfl
  · exact ⟨rfl, by simp⟩
  · exact ⟨rfl, by simp⟩
  · exact ⟨rfl, by simp⟩

theorem turn_bare {pkt : Packet} {r1 : Rdr} {P : Event → Prop} (hp : pkt = .flush ∨ pkt = .delim ∨ pkt = .data [])
    (h : r.readPacket = (.ok pkt, r1)) :
    (turn cfg mode).wp (Logic.only P) r () (fun x r' _ => r' = r1 ∧ x ≠ .ok .done) := by
  unfold turn
  rw [M.wp_bind, M.wp_attempt, M.wp_rdr, h]
  have key : ∀ msg : Bytes, (sendError 400 msg >>= fun _ => (pure Turn.again : M Turn)).wp (Logic.only P) r1 ()
      (fun x r' _ => r' = r1 ∧ x ≠ .ok .done) := by
    intro msg
    rw [M.wp_bind]
    refine M.wp_mono (still_sendError 400 msg P r1) ?_
    rintro (u | e | _) r' s' rfl
    · exact ⟨rfl, by simp⟩
    · exact ⟨rfl, by simp⟩
    · exact ⟨rfl, by simp⟩
  rcases hp with rfl | rfl | rfl
  · exact key _
  · exact key _
  · exact key _

/-- Every program has an execution in which nothing fails. -/
def goodResp : (o : Op) → Resp o
  | .createTemp d p _ => .ok (d ++ [p], 0)
  | o => okResp o

theorem exists_finished {α : Type} (p : Prog α) : ∃ tr a, p.Finished tr a ∧ (∀ e ∈ tr, e.OutOk) ∧ ∀ e ∈ tr, e.CopyOk := by
  induction p with
  | ret a => exact ⟨[], a, .ret, by simp, by simp⟩
  | call o k ih =>
    obtain ⟨tr, a, h1, h2, h3⟩ := ih (goodResp o)
    refine ⟨⟨o, goodResp o⟩ :: tr, a, .call h1, ?_, ?_⟩
    · simp only [List.mem_cons]
      rintro e (rfl | he)
      · cases o <;> simp [Event.OutOk, goodResp, okResp]
      · exact h2 e he
    · simp only [List.mem_cons]
      rintro e (rfl | he)
      · cases o <;> simp [Event.CopyOk, goodResp, okResp]
      · exact h3 e he

/-! ### C38 -/

/-- A packet that is no command is a request by itself. -/
theorem turn_single {P : Event → Prop} {p : Packet} {r1 : Rdr} (hn : ¬ Opens mode p) (h : r.readPacket = (.ok p, r1)) :
    (turn cfg mode).wp (Logic.only P) r () (fun x r' _ => r' = r1 ∧ x ≠ .ok .done) := by
  cases p with
  | flush => exact turn_bare (.inl rfl) h
  | delim => exact turn_bare (.inr (.inl rfl)) h
  | data l =>
    by_cases h0 : l = []
    · subst h0; exact turn_bare (.inr (.inr rfl)) h
    have hmore : ¬ NeedsMore mode (commandWords l) := by
      intro hm
      by_cases h1 : l = b!"\n"
      · subst h1
        generalize hw : commandWords b!"\n" = ws at hm
        have hw : [[]] = ws := hw
        cases hm with
        | args hm => cases hm <;> simp at hw
        | _ => simp at hw
      · obtain ⟨cmd, args, hl⟩ := commandLine_exists h0 h1
        rw [(commandLine_words hl).1] at hm
        exact hn ⟨l, _, rfl, hl, hm⟩
    obtain ⟨cmd, args, st, hw, hq, hd⟩ := dispatch_other (cfg := cfg) (by unfold commandWords; exact splitOn_ne_nil _ _) hmore
    exact turn_other h h0 hw hq hd

/-- The server takes exactly the packets of `Extent`. -/
theorem turn_extent {ps : List Packet} {u rest : Bytes} {tr : List Event} {x : Res Turn} (hs : Extent mode ps)
    (hF : Frames ps u) (hi : r.input = u ++ rest) (hp : r.pending = [])
    (h : (turn cfg mode r).Finished tr (x, r')) (hc : ∀ e ∈ tr, e.CopyOk) :
    r' = { r with input := rest } ∧ x ≠ .ok .done := by
  suffices H : (turn cfg mode).wp (Logic.only Event.CopyOk) r ()
      (fun x r' _ => r' = { r with input := rest } ∧ x ≠ .ok .done) from
    Logic.only_finished (P := Event.CopyOk) (Q := fun x r' => r' = { r with input := rest } ∧ x ≠ .ok .done) H h hc
  have first : ∀ {l : Bytes} {qs : List Packet}, ps = .data l :: qs → ∃ v u', u = v ++ u' ∧ Frames qs u' ∧
      r.readPacket = (.ok (.data l), { r with input := u' ++ rest }) := by
    rintro l qs rfl
    obtain ⟨v, u', rfl, hv, hu⟩ := frames_split (ps := [Packet.data l]) (by simpa using hF)
    exact ⟨v, u', rfl, hu, readPacket_frame (frames_singleton hv) r (u' ++ rest) (by rw [hi, List.append_assoc])⟩
  cases hs with
  | single hn => exact turn_single hn (readPacket_frame (frames_singleton hF) r rest hi)
  | @args l ws items hl hcmd hn =>
    obtain ⟨v, u', rfl, hu, hrd⟩ := first rfl
    obtain ⟨hw, hne⟩ := commandLine_words hl
    obtain ⟨cmd, args, rfl, hq, hd⟩ := argCommand_dispatch (P := Event.CopyOk) (cfg := cfg) hcmd
      (readToType_any (r := { r with input := u' ++ rest }) hu hn rfl)
    exact turn_endsAt hrd hne hw hq hd
  | @batch l as items hl ha hn =>
    obtain ⟨v, u', rfl, hu, hrd⟩ := first rfl
    obtain ⟨hw, hne⟩ := commandLine_words hl
    have hu : Frames ((as ++ [.delim]) ++ (items ++ [.flush])) u' := by simpa using hu
    obtain ⟨a, b, rfl, hua, hub⟩ := frames_split hu
    have h1 := readToType_any (r := { r with input := a ++ b ++ rest }) hua (areArgs_delim ha)
      (show a ++ b ++ rest = a ++ (b ++ rest) by rw [List.append_assoc])
    have h2 := readToType_any (r := { r with input := b ++ rest }) hub hn rfl
    obtain ⟨kv, hk, rfl⟩ := ha
    obtain ⟨m, hm, _⟩ := C09_args_exact kv hk
    rw [argPackets_data] at h1
    refine turn_endsAt hrd hne hw (by decide) ?_
    cases mode
    · exact endsAt_batch h1 hm h2
    · exact endsAt_batch h1 hm h2
  | @batchArgs l as hl hn ha =>
    obtain ⟨v, u', rfl, hu, hrd⟩ := first rfl
    obtain ⟨hw, hne⟩ := commandLine_words hl
    have h1 := readToType_any (r := { r with input := u' ++ rest }) hu hn rfl
    obtain ⟨e, he⟩ := parse_notArgs ha
    refine turn_endsAt hrd hne hw (by decide) ?_
    cases mode
    · show (batchCmd cfg _ _).EndsAt _ _ _
      unfold batchCmd readBatch readToDelim
      exact .bind (M.endsAt_rdr_bind h1 (M.endsAt_ofRes_err he)) fun _ => .pure _
    · show (batchCmd cfg _ _).EndsAt _ _ _
      unfold batchCmd readBatch readToDelim
      exact .bind (M.endsAt_rdr_bind h1 (M.endsAt_ofRes_err he)) fun _ => .pure _
  | @put l oid more ds as t hmode hl hoid hsz hds ht =>
    subst hmode
    obtain ⟨v, u', rfl, hu, hrd⟩ := first rfl
    obtain ⟨hw, hne⟩ := commandLine_words hl
    have hu : Frames ((as ++ [.delim]) ++ (ds.map .data ++ [t])) u' := by simpa using hu
    obtain ⟨a, b, rfl, hua, hub⟩ := frames_split hu
    obtain ⟨kv, s, n, hk, rfl, hs, hn⟩ := hsz
    have h1 := readToType_any (r := { r with input := a ++ b ++ rest }) hua (argPackets_delim kv)
      (show a ++ b ++ rest = a ++ (b ++ rest) by rw [List.append_assoc])
    obtain ⟨m, hm, hg⟩ := C09_args_exact kv hk
    rw [argPackets_data] at h1
    refine turn_endsAt hrd hne hw (by decide) ?_
    have hsz' : sizeFromArgs m = .ok n := by
      unfold sizeFromArgs
      rw [hg, hs]
      exact num_parse hn
    exact endsAt_put (cfg := cfg) (r1 := { r with input := b ++ rest }) ht ((oidValid_iff oid).mpr hoid) h1 hm hsz' hds hub
      rfl hp
  | @putArgs l oid more as hmode hl hoid hn hsz =>
    subst hmode
    obtain ⟨v, u', rfl, hu, hrd⟩ := first rfl
    obtain ⟨hw, hne⟩ := commandLine_words hl
    have h1 := readToType_any (r := { r with input := u' ++ rest }) hu hn rfl
    refine turn_endsAt hrd hne hw (by decide) ?_
    show (putObject cfg oid).EndsAt _ _ _
    unfold putObject oidNew readToDelim
    rw [(oidValid_iff oid).mpr hoid]
    have h0 : ∀ {β : Type} (f : Bytes → M β) r, ((if true = true then (pure oid : M Bytes) else
        M.throw (Err.simple .invalidLFSOid)) >>= f) r = f oid r := fun f r => rfl
    unfold M.EndsAt M.wp
    rw [h0]
    rcases parse_notSized hsz with ⟨e, he⟩ | ⟨m, e, hm, he⟩
    · exact M.endsAt_rdr_bind h1 (M.endsAt_ofRes_err he)
    · exact M.endsAt_rdr_bind h1 (M.endsAt_ofRes_bind hm (M.endsAt_ofRes_err he))
  | @putOid l oid more hmode hl hoid =>
    subst hmode
    obtain ⟨v, u', rfl, hu, hrd⟩ := first rfl
    cases hu
    obtain ⟨hw, hne⟩ := commandLine_words hl
    refine turn_endsAt hrd hne hw (by decide) ?_
    show (putObject cfg oid).EndsAt _ _ _
    unfold putObject oidNew
    rw [if_neg (fun h => hoid ((oidValid_iff oid).mp h))]
    exact (rfl : ({ r with input := [] ++ rest } : Rdr) = { r with input := rest })

/-- **C38**, exactly: the packets the server takes together as one request, whatever the client sends, are those of
`Spec.Extent`; to these it sends one reply, and then goes on with the packet after them. This supposes that the temporary
file of an upload can be created and written (for the other case see `C52_exact_partial`).

Full property: a malformed request is consumed to its end. That is false (`C38_refuted`), and `C38_put_iff`,
`C38_batch_iff` say for which. -/
theorem C38_extent_partial {ps : List Packet} {u rest : Bytes} {tr : List Event} {t : Turn} (hs : Extent mode ps)
    (hF : Frames ps u) (hi : r.input = u ++ rest) (hp : r.pending = [])
    (h : (turn cfg mode r).Finished tr (.ok t, r')) (hc : ∀ e ∈ tr, e.CopyOk) (ho : ∀ e ∈ tr, e.OutOk) :
    t = .again ∧ r' = { r with input := rest } ∧ IsReply (output tr) := by
  have H := turn_extent hs hF hi hp h hc
  have : t = .again := by
    cases t with
    | again => rfl
    | done => exact absurd rfl H.2
  subst this
  exact ⟨rfl, H.1, C36_one_reply cfg mode r r' tr h ho⟩

theorem shaped_extent {ps : List Packet} (h : Shaped mode ps) : Extent mode ps := by
  cases h with
  | args hl hc => exact .args hl hc (by simp)
  | batch hl ha => exact .batch hl ⟨_, ha, rfl⟩ (by simp)

theorem put_extent {oid data : Bytes} {n : Nat} {ps : List Packet} (h : Encodes (.put oid n data) ps) : Extent .upload ps := by
  cases h with
  | @put l kv oid s data n ds hoid hl ha hsz hn hds hdata =>
    have h32 : (32 : UInt8) ∉ oid := fun h => absurd (hoid.2 32 h) (by decide)
    refine .put (more := []) rfl ⟨b!"put-object " ++ oid, .cons (x := b!"put-object") (by decide) (.one h32), by simp, ?_⟩ hoid
      ⟨kv, s, n, ha, rfl, hsz, hn⟩ hds (.inl rfl)
    rcases hl with rfl | rfl
    · right
      refine ⟨rfl, ?_⟩
      rw [List.getLast?_append]
      cases hg : oid.getLast? with
      | none => decide
      | some c => exact fun h => absurd (hoid.2 10 (by cases h; exact List.mem_of_getLast? hg)) (by decide)
    · exact .inl rfl

/-! ### The extents are determined -/

theorem enc_frames {ps : List Packet} (h : ∀ p ∈ ps, Fits p) : Frames ps (ps.map encPacket).flatten :=
  frames_list fun d hd => by have : d.length ≤ 65516 := h _ hd; omega

/-- **C38**: no request is the beginning of another. -/
theorem C38_determined {a b : List Packet} (ha : Extent mode a) (hb : Extent mode (a ++ b)) (hfit : ∀ p ∈ a ++ b, Fits p) :
    b = [] := by
  have fa := enc_frames fun p hp => hfit p (List.mem_append_left b hp)
  have fab := enc_frames hfit
  let cfg : Cfg := Tests.cfg
  let r : Rdr := { input := ((a ++ b).map encPacket).flatten, pending := [], fin := eofErr, checked := false }
  obtain ⟨tr, ⟨x, r'⟩, h, _, hc⟩ := exists_finished (turn cfg mode r)
  have h1 := (turn_extent (rest := (b.map encPacket).flatten) ha fa (show r.input = _ by simp [r]) rfl h hc).1
  have h2 := (turn_extent (rest := []) hb fab (show r.input = _ by simp [r]) rfl h hc).1
  rw [h1] at h2
  have h3 : (b.map encPacket).flatten = [] := congrArg Rdr.input h2
  cases b with
  | nil => rfl
  | cons p b =>
    simp only [List.map_cons, List.flatten_cons, List.append_eq_nil_iff] at h3
    have := frames_length (enc_frames (ps := [p]) fun q hq => hfit q (by simp at hq; simp [hq]))
    simp [h3.1] at this

theorem split_first {t : Packet} : ∀ ps : List Packet, t ∉ ps ∨ ∃ a b, t ∉ a ∧ ps = a ++ t :: b
  | [] => .inl (by simp)
  | p :: ps => by
    by_cases h : p = t
    · exact .inr ⟨[], ps, by simp, by simp [h]⟩
    · rcases split_first (t := t) ps with h' | ⟨a, b, h1, h2⟩
      · exact .inl (by simp [Ne.symm h, h'])
      · exact .inr ⟨p :: a, b, by simp [Ne.symm h, h1], by simp [h2]⟩

theorem split_data : ∀ ps : List Packet, ∃ ds : List Bytes, ps = ds.map .data ∨
    ∃ t b, (t = .flush ∨ t = .delim) ∧ ps = ds.map .data ++ t :: b
  | [] => ⟨[], .inl rfl⟩
  | .flush :: ps => ⟨[], .inr ⟨.flush, ps, .inl rfl, rfl⟩⟩
  | .delim :: ps => ⟨[], .inr ⟨.delim, ps, .inr rfl, rfl⟩⟩
  | .data d :: ps => by
    obtain ⟨ds, rfl | ⟨t, b, ht, rfl⟩⟩ := split_data ps
    · exact ⟨d :: ds, .inl rfl⟩
    · exact ⟨d :: ds, .inr ⟨t, b, ht, rfl⟩⟩

/-- **C38**: whatever packets the client sends, they begin with a request, or are the beginning of one, or the client
quits. -/
theorem C38_total (mode : Mode) (ps : List Packet) (h : ps ≠ []) (hfit : ∀ p ∈ ps, Fits p) :
    (∃ a b, ps = a ++ b ∧ Extent mode a) ∨ (∃ b, Extent mode (ps ++ b)) ∨
    ∃ l b, ps = .data l :: b ∧ CommandLine l [b!"quit"] := by
  classical
  cases ps with
  | nil => exact absurd rfl h
  | cons p ps =>
    by_cases hop : Opens mode p
    swap
    · exact .inl ⟨[p], ps, rfl, .single hop⟩
    obtain ⟨l, ws, rfl, hl, hn⟩ := hop
    cases hn with
    | quit => exact .inr (.inr ⟨l, ps, rfl, hl⟩)
    | args hc =>
      rcases split_first (t := .flush) ps with h1 | ⟨a, b, h1, rfl⟩
      · exact .inr (.inl ⟨[.flush], .args hl hc h1⟩)
      · exact .inl ⟨.data l :: a ++ [.flush], b, by simp, .args hl hc h1⟩
    | batch =>
      rcases split_first (t := .delim) ps with h1 | ⟨a, b, h1, rfl⟩
      · by_cases ha : AreArgs ps
        · exact .inr (.inl ⟨[.delim, .flush], by simpa using Extent.batch (items := []) hl ha (by simp)⟩)
        · exact .inr (.inl ⟨[.delim], .batchArgs hl h1 ha⟩)
      · by_cases ha : AreArgs a
        · rcases split_first (t := .flush) b with h2 | ⟨c, d, h2, rfl⟩
          · exact .inr (.inl ⟨[.flush], by simpa using Extent.batch hl ha h2⟩)
          · exact .inl ⟨.data l :: a ++ .delim :: c ++ [.flush], d, by simp, .batch hl ha h2⟩
        · exact .inl ⟨.data l :: a ++ [.delim], b, by simp, .batchArgs hl h1 ha⟩
    | @put oid more =>
      by_cases ho : IsOid oid
      swap
      · exact .inl ⟨[.data l], ps, rfl, .putOid rfl hl ho⟩
      rcases split_first (t := .delim) ps with h1 | ⟨a, b, h1, rfl⟩
      · by_cases ha : AreSized ps
        · exact .inr (.inl ⟨[.delim, .flush], by simpa using Extent.put (ds := []) rfl hl ho ha (by simp) (.inl rfl)⟩)
        · exact .inr (.inl ⟨[.delim], .putArgs rfl hl ho h1 ha⟩)
      · by_cases ha : AreSized a
        · obtain ⟨ds, rfl | ⟨t, c, ht, rfl⟩⟩ := split_data b
          · have hds : ∀ d ∈ ds, d.length ≤ 65516 := fun d hd => hfit (.data d) (by simp [hd])
            exact .inr (.inl ⟨[.flush], by simpa using Extent.put (ds := ds) rfl hl ho ha hds (.inl rfl)⟩)
          · have hds : ∀ d ∈ ds, d.length ≤ 65516 := fun d hd => hfit (.data d) (by simp [hd])
            exact .inl ⟨.data l :: a ++ .delim :: ds.map .data ++ [t], c, by simp, .put rfl hl ho ha hds ht⟩
        · exact .inl ⟨.data l :: a ++ [.delim], b, by simp, .putArgs rfl hl ho h1 ha⟩

theorem extent_ne_nil {ps : List Packet} (h : Extent mode ps) : ps ≠ [] := by cases h <;> simp

/-- **C38**: so all that a client sends falls into requests, and at most one that is not complete; unless it quits.
What happens to the requests is `C58_session`: each gets one reply. -/
theorem C38_split (mode : Mode) (ps : List Packet) (hfit : ∀ p ∈ ps, Fits p) :
    ∃ (qs : List (List Packet)) (rest : List Packet), ps = qs.flatten ++ rest ∧
    (∀ q ∈ qs, Extent mode q) ∧ (rest = [] ∨ (∃ b, Extent mode (rest ++ b)) ∨
      ∃ l b, rest = .data l :: b ∧ CommandLine l [b!"quit"]) := by
  induction hn : ps.length using Nat.strongRecOn generalizing ps with
  | ind n ih =>
    by_cases h0 : ps = []
    · exact ⟨[], [], by simp [h0], by simp, .inl rfl⟩
    rcases C38_total mode ps h0 hfit with ⟨a, b, rfl, ha⟩ | h | h
    · have hl : b.length < n := by
        have := List.length_pos_iff.mpr (extent_ne_nil ha)
        simp at hn; omega
      obtain ⟨qs, rest, h1, h2, h3⟩ := ih b.length hl b (fun p hp => hfit p (by simp [hp])) rfl
      exact ⟨a :: qs, rest, by simp [h1], by simpa using ⟨ha, h2⟩, h3⟩
    · exact ⟨[], ps, rfl, by simp, .inr (.inl h)⟩
    · exact ⟨[], ps, rfl, by simp, .inr (.inr h)⟩

theorem append_cases {α : Type} {a b c d : List α} (h : a ++ b = c ++ d) :
    (∃ x, c = a ++ x ∧ b = x ++ d) ∨ ∃ x, a = c ++ x ∧ d = x ++ b := by
  rcases List.append_eq_append_iff.mp h with ⟨x, h1, h2⟩ | ⟨x, h1, h2⟩
  · exact .inl ⟨x, h1, h2⟩
  · exact .inr ⟨x, h1, h2⟩

/-- **C38**: and in one way only. -/
theorem C38_split_unique {qs qs' : List (List Packet)} (h : ∀ q ∈ qs, Extent mode q) (h' : ∀ q ∈ qs', Extent mode q)
    (hfit : ∀ p ∈ qs.flatten, Fits p) (he : qs.flatten = qs'.flatten) : qs = qs' := by
  induction qs generalizing qs' with
  | nil =>
    cases qs' with
    | nil => rfl
    | cons q qs' =>
      have := extent_ne_nil (h' q (by simp))
      simp at he; exact absurd he.1 this
  | cons q qs ih =>
    cases qs' with
    | nil =>
      have := extent_ne_nil (h q (by simp))
      simp at he; exact absurd he.1 this
    | cons q' qs' =>
      have hq := h q (by simp)
      have hq' := h' q' (by simp)
      simp only [List.flatten_cons] at he hfit
      have key : q = q' := by
        rcases append_cases he with ⟨x, rfl, hx⟩ | ⟨x, rfl, hx⟩
        · have := C38_determined hq hq' fun p hp => hfit p (by rw [hx, ← List.append_assoc]; exact List.mem_append_left _ hp)
          simp [this]
        · have := C38_determined hq' hq fun p hp => hfit p (List.mem_append_left _ hp)
          simp [this]
      subst key
      rw [ih (fun q hq => h q (by simp [hq])) (fun q hq => h' q (by simp [hq])) (fun p hp => hfit p (by simp [hp]))
        (List.append_cancel_left he)]

/-! ### Which requests are taken whole -/

theorem areSized_delim {as : List Packet} (h : AreSized as) : Packet.delim ∉ as := by
  obtain ⟨kv, _, _, _, rfl, _⟩ := h
  exact argPackets_delim kv

/-- **C38**: an upload, framed as it should be, is taken as one request just if its object ID is one and its arguments
contain a size. -/
theorem C38_put_iff {l oid : Bytes} {more ds : List Bytes} {as : List Packet}
    (hl : CommandLine l (b!"put-object" :: oid :: more)) (hd : .delim ∉ as)
    (hfit : ∀ p ∈ .data l :: as ++ .delim :: ds.map .data ++ [.flush], Fits p) :
    Extent .upload (.data l :: as ++ .delim :: ds.map .data ++ [.flush]) ↔ IsOid oid ∧ AreSized as := by
  constructor
  · intro h
    by_cases ho : IsOid oid
    swap
    · exact absurd (C38_determined (a := [.data l]) (b := as ++ .delim :: ds.map .data ++ [.flush])
        (.putOid rfl hl ho) (by simpa using h) (by simpa using hfit)) (by simp)
    refine ⟨ho, ?_⟩
    by_cases ha : AreSized as
    · exact ha
    · exact absurd (C38_determined (a := .data l :: as ++ [.delim]) (b := ds.map .data ++ [.flush])
        (.putArgs rfl hl ho hd ha) (by simpa using h) (by simpa using hfit)) (by simp)
  · rintro ⟨ho, ha⟩
    exact .put rfl hl ho ha (fun d hd => hfit (.data d) (by simp [hd])) (.inl rfl)

/-- **C38**: a batch, framed as it should be, is taken as one request just if its arguments are. -/
theorem C38_batch_iff {l : Bytes} {as items : List Packet} (hl : CommandLine l [b!"batch"]) (hd : .delim ∉ as)
    (hn : .flush ∉ items) (hfit : ∀ p ∈ .data l :: as ++ .delim :: items ++ [.flush], Fits p) :
    Extent mode (.data l :: as ++ .delim :: items ++ [.flush]) ↔ AreArgs as := by
  constructor
  · intro h
    by_cases ha : AreArgs as
    · exact ha
    · exact absurd (C38_determined (a := .data l :: as ++ [.delim]) (b := items ++ [.flush])
        (.batchArgs hl hd ha) (by simpa using h) (by simpa using hfit)) (by simp)
  · intro ha
    exact .batch hl ha hn

/-! ### Examples -/

namespace Tests

theorem line_two {a b : Bytes} (ha : (32 : UInt8) ∉ a) (hb : (32 : UInt8) ∉ b) :
    CommandLine (a ++ b!" " ++ b ++ b!"\n") [a, b] :=
  ⟨a ++ b!" " ++ b, .cons ha (.one hb), by simp, .inl rfl⟩

theorem line_one {a : Bytes} (ha : (32 : UInt8) ∉ a) (h0 : a ≠ []) : CommandLine (a ++ b!"\n") [a] :=
  ⟨a, .one ha, h0, .inl rfl⟩

/-- The upload of `C38_refuted` is taken for its first packet alone. -/
example : Extent .upload [.data b!"put-object abc\n"] :=
  .putOid (oid := b!"abc") (more := []) rfl (line_two (a := b!"put-object") (b := b!"abc") (by decide) (by decide))
    (by unfold IsOid; decide)

theorem junk_notArgs : ¬ AreArgs [.data b!"junk\n"] := by
  rintro ⟨kv, hk, he⟩
  cases kv with
  | nil => cases he
  | cons x kv =>
    simp only [argPackets, List.map_cons, List.cons.injEq, Packet.data.injEq] at he
    have : (61 : UInt8) ∈ b!"junk\n" := by rw [he.1]; simp [argLine]
    exact absurd this (by decide)

/-- A batch with an argument that is none ends at its delimiter, and its lines are commands. -/
example : Extent .download [.data b!"batch\n", .data b!"junk\n", .delim] :=
  .batchArgs (as := [.data b!"junk\n"]) (line_one (by decide) (by decide)) (by decide) junk_notArgs

/-- Even a delimiter among the arguments of a command does not end it. -/
example : Extent .upload [.data b!"lock\n", .delim, .data b!"path=f\n", .flush] :=
  .args (items := [.delim, .data b!"path=f\n"]) (line_one (by decide) (by decide)) .lock (by decide)

end Tests

end Verif
