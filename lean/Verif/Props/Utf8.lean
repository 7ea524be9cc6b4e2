import Verif.Lemmas.Utf8
import Verif.Props.Unlock
/-!
C61: byte strings that are not text. The argument of `unlock` must be UTF-8; names of directory entries are converted.
-/
namespace Verif
open Spec

variable {cfg : Cfg} {r r1 r' : Rdr} {l id : Bytes} {more : List Bytes}

/-- The turn of the loop for an `unlock` command. -/
theorem turn_unlock (hl : CommandLine l (b!"unlock" :: id :: more)) (hrd : r.readPacket = (.ok (.data l), r1)) :
    turn cfg .upload r = (do
      match (← M.attempt (unlockCmd cfg id)) with
      | .ok st => sendStatus st
      | .error e => sendStatus (errorStatus e)
      pure .again : M Turn) r1 := by
  obtain ⟨hw, hne⟩ := commandLine_words hl
  rw [turn_data cfg .upload r r1 l hne hrd]
  simp only [hw, List.head?_cons, Option.getD_some, List.tail_cons]
  rw [if_neg (by simp)]
  rfl

/-- The error for an argument that is not UTF-8. -/
def notText : Err := Err.withMsg .corruptData b!"invalid or corrupt ID"

/-- The turn for an argument that is not UTF-8. -/
theorem turn_notText (hl : CommandLine l (b!"unlock" :: id :: more)) (hrd : r.readPacket = (.ok (.data l), r1))
    (hid : ¬Text id) : turn cfg .upload r = (match readToType .flush r1 with
      | (.ok _, r2) => (sendStatus (errorStatus notText) >>= fun _ => pure .again : M Turn) r2
      | (.err e, r2) => (sendStatus (errorStatus e) >>= fun _ => pure .again : M Turn) r2
      | (.panic, r2) => .ret (.panic, r2)) := by
  have hv : utf8Valid id = false := by
    rw [← Bool.not_eq_true, utf8Valid_iff]; exact hid
  rw [turn_unlock hl hrd]
  have hc : unlockCmd cfg id r1 = .ret (match readToType .flush r1 with
      | (.ok _, r2) => (.err notText, r2)
      | (.err e, r2) => (.err e, r2)
      | (.panic, r2) => (.panic, r2)) := by
    unfold unlockCmd
    simp only [hv, Bool.not_false, if_true]
    show M.bind (M.rdr _) _ r1 = _
    simp only [M.bind, M.rdr, Prog.bind]
    rcases readToType .flush r1 with ⟨_ | _ | _, _⟩ <;> rfl
  show M.bind (M.attempt (unlockCmd cfg id)) _ r1 = _
  simp only [M.bind, M.attempt, hc, Prog.bind]
  rcases readToType .flush r1 with ⟨_ | _ | _, _⟩ <;> rfl

/-- **C61**, part 1. An `unlock` command whose argument is not UTF-8: no file is opened, looked at or changed, whatever
follows in the input; the process only writes its reply. -/
theorem C61_refused (hl : CommandLine l (b!"unlock" :: id :: more)) (hrd : r.readPacket = (.ok (.data l), r1))
    (hid : ¬Text id) {tr : List Event} (h : (turn cfg .upload r).Did tr) : ∀ e ∈ tr, e.1.outputs = true := by
  rw [turn_notText hl hrd hid] at h
  have hs : ∀ e, (sendStatus (errorStatus e) >>= fun _ => pure .again : M Turn).All (fun o => o.outputs = true) :=
    fun e => .bind (C41_only_output _ (errorStatus_reader e)) fun _ => .pure _
  refine Prog.All.did (P := fun o => o.outputs = true) ?_ h
  rcases readToType .flush r1 with ⟨_ | _ | _, r2⟩
  · exact hs _ r2
  · exact hs _ r2
  · trivial

/-- The reply to an argument that is not UTF-8. -/
theorem notText_reply : replyWith (errorStatus notText) (errorStatus notText).messages =
    b!"000fstatus 400\n" ++ b!"0001" ++ b!"002ferror: corrupt data: invalid or corrupt ID\n" ++ b!"0000" := by
  decide +kernel

/-- **C61**, part 2. The reply to it, if the request is complete, is 400 with a message. -/
theorem C61_reply (hl : CommandLine l (b!"unlock" :: id :: more)) (hrd : r.readPacket = (.ok (.data l), r1))
    (hid : ¬Text id) {args : List Bytes} {w rest : Bytes} (hF : Frames (args.map .data ++ [.flush]) w)
    (hi : r1.input = w ++ rest) {tr : List Event} {x : Res Turn} (h : (turn cfg .upload r).Finished tr (x, r'))
    (ho : ∀ e ∈ tr, e.OutOk) : x = .ok .again ∧ r' = { r1 with input := rest } ∧
      output tr = b!"000fstatus 400\n" ++ b!"0001" ++ b!"002ferror: corrupt data: invalid or corrupt ID\n" ++ b!"0000" := by
  rw [turn_notText hl hrd hid, readToType_frames (.inl rfl) hF hi] at h
  have hw : (sendStatus (errorStatus notText) >>= fun _ => (pure Turn.again : M Turn)).wp (Logic.out false)
      { r1 with input := rest } [] (fun x r s => x = .ok .again ∧ r = { r1 with input := rest } ∧
        s = replyWith (errorStatus notText) (errorStatus notText).messages) := by
    rw [M.wp_bind]
    refine M.wp_mono (emits_sendStatus _ (.inr (errorStatus_reader _)) false _ []) ?_
    intro x r s h
    rw [h.1, Res.elim_ok]
    exact ⟨rfl, h.2.1, h.2.2.trans (List.nil_append _)⟩
  have h6 := Prog.wp_finished hw h
    (Logic.legalTr_of_forall fun e he s => ⟨ho e he, fun h => by cases h⟩)
  rw [Logic.out_fold, List.nil_append, notText_reply] at h6
  exact h6

/-- **C61**, part 3. If the argument is UTF-8 and the request is complete, the first thing to happen is that the file of
this name, byte for byte, is opened in the directory of locks. -/
theorem C61_looked_up (hl : CommandLine l (b!"unlock" :: id :: more)) (hrd : r.readPacket = (.ok (.data l), r1))
    (hid : Text id) {args : List Bytes} {w rest : Bytes} (hF : Frames (args.map .data ++ [.flush]) w)
    (hi : r1.input = w ++ rest) {tr : List Event} {a : Res Turn × Rdr} (h : (turn cfg .upload r).Finished tr a) :
    ∃ x tr', tr = ⟨.openRead (.join (cfg.root ++ [b!"locks"]) id), x⟩ :: tr' := by
  rw [turn_unlock hl hrd] at h
  obtain ⟨t1, t2, y, rfl, h1, _⟩ := Prog.finished_bind.mp h
  obtain ⟨t3, t4, z, rfl, h2, _⟩ := Prog.finished_bind.mp h1
  unfold unlockCmd at h2
  obtain ⟨t5, t6, u, rfl, h3, h4⟩ := Prog.finished_bind.mp h2
  have h3 : (Prog.ret (readToType .flush r1)).Finished t5 u := h3
  rw [readToType_frames (.inl rfl) hF hi] at h3
  cases h3
  simp only [utf8Valid_iff.mpr hid, Bool.not_true, Bool.false_eq_true, if_false] at h4
  obtain ⟨t7, t8, v, rfl, h5, _⟩ := Prog.finished_bind.mp h4
  unfold lockFromId at h5
  obtain ⟨t9, t10, q, rfl, h6, _⟩ := Prog.finished_bind.mp h5
  have h6 : (Prog.call (.openRead (.join (cfg.root ++ [b!"locks"]) id)) (fun x => .ret (.ok x, { r1 with input := rest }))).Finished
    t9 q := h6
  cases h6 with
  | call h7 => exact ⟨_, _, rfl⟩

/-! ### Names of directory entries -/

/-- Calls look only at files allowed by `P`, if the directory entries reported satisfy `N`. -/
def Logic.look (N : Bytes → Prop) (P : FPath → Prop) : Logic Unit where
  pre _ o := ∀ f, fileOf o = some f → P f
  upd _ _ _ := ()
  legal _ o x := ∀ p, ∀ ns : List Bytes, (⟨o, x⟩ : Event) = ⟨.readDir p, .ok ns⟩ → ∀ n ∈ ns, N n

/-- Calls that look at no file except those in `P`. -/
def LooksAt (P : FPath → Prop) (o : Op) : Prop := ∀ f, fileOf o = some f → P f

theorem looksAt_plain {P : FPath → Prop} {o : Op} (h : Plain o) : LooksAt P o := fun f hf => by rw [h.1] at hf; cases hf

def M.Lk {α : Type} (N : Bytes → Prop) (P : FPath → Prop) (m : M α) : Prop :=
  ∀ r, m.wp (Logic.look N P) r () (fun _ _ _ => True)

section
variable {N : Bytes → Prop} {P : FPath → Prop} {α β : Type}

theorem M.Lk.bind {m : M α} {f : α → M β} (h : m.Lk N P) (hf : ∀ a, (f a).Lk N P) : (m >>= f).Lk N P := by
  intro r
  rw [M.wp_bind]
  refine M.wp_mono (h r) ?_
  rintro (a | e | _) r' s' _
  · rw [Res.elim_ok]; exact hf a r'
  · trivial
  · trivial

theorem M.Lk.attempt {m : M α} (h : m.Lk N P) : (M.attempt m).Lk N P := by
  intro r
  rw [M.wp_attempt]
  refine M.wp_mono (h r) ?_
  rintro (a | e | _) r' s' _ <;> trivial

theorem M.Lk.of_all {m : M α} (h : m.All (LooksAt P)) : m.Lk N P := by
  intro r
  exact M.wp_mono (M.All.wp h r () (fun o ho => ho) (fun _ _ _ _ => rfl)) fun _ _ _ _ => trivial

theorem looksAt_userForFile {f : FPath} (h : P f) : (userForFile cfg f).All (LooksAt P) := by
  unfold userForFile
  refine .bind (.op fun g hg => by cases hg; exact h) fun x => ?_
  split <;> exact .pure _

theorem looksAt_lockFromId {id : Bytes} (h : P (.join (locksDir cfg.root) id)) : (lockFromId cfg id).All (LooksAt P) := by
  unfold lockFromId
  refine .bind (.op fun g hg => by cases hg; exact h) fun x => ?_
  split
  · split
    · exact .pure _
    · exact .throw _
  · refine .bind (.op fun g hg => by cases hg) fun y => ?_
    obtain ⟨cs, e⟩ := y
    cases e with
    | some e => exact .throw _
    | none =>
      refine .bind (looksAt_userForFile h) fun _ => ?_
      split
      · exact .throw _
      · exact .pure _

theorem looksAt_collectLocks (c : Option Bytes) : ∀ (ns : List Bytes) (sk : Bool) (k : Nat),
    (∀ n ∈ ns, P (.join (locksDir cfg.root) (utf8Lossy n))) → (collectLocks cfg c sk k ns).All (LooksAt P)
  | ns, _, 0, _ => by cases ns <;> exact .pure _
  | [], _, _ + 1, _ => .pure _
  | n :: ns, sk, k + 1, h => by
    unfold collectLocks
    have hr : ∀ n ∈ ns, P (.join (locksDir cfg.root) (utf8Lossy n)) := fun n hn => h n (by simp [hn])
    refine .bind (.attempt (looksAt_lockFromId (h n (by simp)))) fun x => ?_
    have a := looksAt_collectLocks c ns true (k + 1) hr
    have b := looksAt_collectLocks c ns false k hr
    have d := looksAt_collectLocks c ns sk (k + 1) hr
    split
    · simp only []
      generalize (sk && _) = q
      cases q
      · exact .bind b fun _ => .pure _
      · exact a
    · exact d

theorem lk_listLocks (o : Bool) (h1 : P (.exact (locksDir cfg.root)))
    (h2 : ∀ path, P (.join (locksDir cfg.root) (lockId cfg path)))
    (h3 : ∀ n, N n → P (.join (locksDir cfg.root) (utf8Lossy n))) : (listLocks cfg o).Lk N P := by
  have pl : ∀ {α : Type} {m : M α}, m.All Plain → m.Lk N P := fun h => .of_all (h.mono fun _ => looksAt_plain)
  unfold listLocks iterLocks
  refine .bind (pl plain_readToFlushParse) fun _ => .bind (pl (.ofRes _)) fun _ => .bind (pl (.ofRes _)) fun _ => ?_
  simp only []
  split
  · unfold listLocksForPath lockFromPath
    refine .bind (.bind (.of_all (looksAt_lockFromId (h2 _))) fun x => pl (by all_ops)) fun x => pl ?_
    cases x with
    | none => exact .pure _
    | some l =>
      simp only []
      have := plain_lockSpec cfg o l
      repeat' (first | split | exact .pure _ | exact .bind this fun _ => .pure _)
  · refine .bind ?_ fun _ => .bind (pl (plain_lockSpecs _ _ _)) fun _ => pl (.pure _)
    intro r
    rw [M.wp_bind, M.wp_op]
    refine ⟨fun f hf => by cases hf; exact h1, fun x hx => ?_⟩
    rw [Res.elim_ok]
    cases x with
    | error e => trivial
    | ok ns =>
      exact M.Lk.of_all (looksAt_collectLocks _ _ _ _ fun n hn => h3 n (hx _ ns rfl n (mem_sortNames.mp hn))) r

end

abbrev Unseeing (o : Op) : Prop := fileOf o = none

theorem unseeing_sendStatus (st : Status) : (sendStatus st).All Unseeing := by
  have pl : ∀ {α : Type} {m : M α}, m.All Plain → m.All Unseeing := fun h => h.mono fun _ h => h.1
  have co : ∀ h, (copyOut h).All Unseeing := fun h => by
    unfold copyOut
    refine .bind (.op rfl) (fun _ => ?_)
    split
    refine .bind (pl (plain_sendAll _)) (fun _ => ?_)
    all_ops
  unfold sendStatus sendDelim
  refine .bind (pl (plain_send _)) (fun _ => ?_)
  split <;> split <;> (try split) <;> simp only [] <;>
    repeat first
    | exact pl plain_sendFlush
    | exact pl (plain_outBytes _)
    | exact pl (plain_sendAll _)
    | exact co _
    | exact .pure _
    | refine M.All.bind ?_ (fun _ => ?_)

theorem look_trace {N : Bytes → Prop} {P : FPath → Prop} : ∀ {tr : List Event}, (Logic.look N P).PreTr () tr →
    ∀ e ∈ tr, ∀ f, fileOf e.1 = some f → P f
  | _ :: _, h, _, .head _ => h.1
  | _ :: _, h, e, .tail _ he => look_trace h.2 e he

/-- **C61**, part 4. The files `list-lock` looks at: the directory of locks, the lock file of a path, or the file whose name
is that of an entry of the directory, converted to text. -/
theorem C61_listed (hl : CommandLine l [b!"list-lock"]) {mode : Mode} (hrd : r.readPacket = (.ok (.data l), r1))
    {tr : List Event} (h : (turn cfg mode r).Did tr) {e : Event} (he : e ∈ tr) {f : FPath} (hf : fileOf e.1 = some f) :
    f = .exact (cfg.root ++ [b!"locks"]) ∨ (∃ path, f = .join (cfg.root ++ [b!"locks"]) (lockName cfg.sha path)) ∨
    ∃ ns n t, (⟨.readDir (cfg.root ++ [b!"locks"]), .ok ns⟩ : Event) ∈ tr ∧ n ∈ ns ∧ Lossy n t ∧
      f = .join (cfg.root ++ [b!"locks"]) t := by
  obtain ⟨hw, hne⟩ := commandLine_words hl
  rw [turn_data cfg mode r r1 l hne hrd] at h
  simp only [hw, List.head?_cons, Option.getD_some, List.tail_cons, List.head?_nil] at h
  rw [if_neg (by simp)] at h
  let N : Bytes → Prop := fun n => ∃ p ns, (⟨.readDir p, .ok ns⟩ : Event) ∈ tr ∧ n ∈ ns
  let P : FPath → Prop := fun f => f = .exact (cfg.root ++ [b!"locks"]) ∨
    (∃ path, f = .join (cfg.root ++ [b!"locks"]) (lockName cfg.sha path)) ∨
    ∃ n t, N n ∧ Lossy n t ∧ f = .join (cfg.root ++ [b!"locks"]) t
  have hd : dispatch cfg mode b!"list-lock" none = listLocks cfg (mode = .upload) := by
    unfold dispatch
    rw [if_neg (by decide), if_neg (by decide)]
    simp only []
    rw [if_neg (fun h => absurd h.1 (by decide)), if_pos trivial]
  rw [hd] at h
  have hlk := lk_listLocks (cfg := cfg) (N := N) (P := P) (mode = .upload) (.inl rfl)
    (fun path => .inr (.inl ⟨path, by rw [lockId_eq]; rfl⟩)) (fun n hn => .inr (.inr ⟨n, _, hn, lossy_iff.mpr rfl, rfl⟩))
  have un : ∀ {α : Type} {m : M α}, m.All Unseeing → m.Lk N P :=
    fun h => .of_all (h.mono fun o h f hf => by rw [h] at hf; cases hf)
  have ht : (M.attempt (listLocks cfg (mode = .upload)) >>= fun x => match x with
      | .ok st => sendStatus st >>= fun _ => (pure Turn.again : M Turn)
      | .error e => sendStatus (errorStatus e) >>= fun _ => (pure Turn.again : M Turn)).Lk N P := by
    refine .bind (.attempt hlk) fun x => ?_
    cases x with
    | ok st => exact .bind (un (unseeing_sendStatus _)) fun _ => un (.pure _)
    | error e => exact .bind (un (unseeing_sendStatus _)) fun _ => un (.pure _)
  have hall := look_trace (Prog.wp_did (ht r1) h (Logic.legalTr_of_forall fun e he _ p ns hp n hn => ⟨p, ns, by
    have : e = ⟨.readDir p, .ok ns⟩ := hp
    rw [← this]; exact he, hn⟩))
  rcases hall e he f hf with h | h | ⟨n, t, ⟨p, ns, h1, h2⟩, h3, h4⟩
  · exact .inl h
  · exact .inr (.inl h)
  · have hp : p = cfg.root ++ [b!"locks"] := by
      rcases hall _ h1 (.exact p) rfl with h | ⟨_, h⟩ | ⟨_, _, _, _, h⟩
      · cases h; rfl
      · cases h
      · cases h
    subst hp
    exact .inr (.inr ⟨ns, n, t, h1, h2, h3, h4⟩)

/-- **C61**, part 5. What conversion to text does: text is left alone, the outcome is always text, and there is exactly one
outcome. -/
theorem C61_lossy (s : Bytes) : (∃ t, Lossy s t ∧ ∀ t', Lossy s t' → t' = t) ∧ (∀ t, Lossy s t → Text t) ∧
    (Text s → Lossy s s) :=
  ⟨⟨_, lossy_iff.mpr rfl, fun _ => lossy_iff.mp⟩, fun _ h => h.text, fun h => h.lossy⟩

/-- **C61**, part 6. The time in a lock file is read as text before it is read as a number; what can be read as a number is
text, so that nothing else is refused. -/
theorem C61_time {t : Bytes} {n : Int} (h : IntText t n) : Text t := by
  have hd : ∀ {u : Bytes} {m : Nat}, Dec u m → ∀ x ∈ u, x < 128 := fun hu x hx => by
    have := ((dec_iff _ _).mp hu).2.1 x hx
    simp only [isDigit, Bool.and_eq_true, decide_eq_true_eq] at this
    exact UInt8.lt_of_le_of_lt this.2 (by decide)
  refine utf8Valid_iff.mp (utf8ValidF_ascii _ _ ?_ (Nat.le_refl _))
  obtain ⟨ds, m, hm, ⟨rfl | rfl, _⟩ | ⟨rfl, _⟩⟩ := h
  · exact hd hm
  · intro x hx
    rcases List.mem_append.mp hx with hx | hx
    · rw [List.mem_singleton.mp hx]; decide
    · exact hd hm x hx
  · intro x hx
    rcases List.mem_append.mp hx with hx | hx
    · rw [List.mem_singleton.mp hx]; decide
    · exact hd hm x hx

/-! ### Examples -/

namespace Tests

/-- A slash in an overlong form. -/
def overlong : Bytes := [0xC0, 0xAF]

theorem overlong_notText : ¬Text overlong := by rw [← utf8Valid_iff]; decide

/-- Half of a surrogate pair is not text either, nor is a character that is cut off. -/
example : ¬Text [0xED, 0xA0, 0x80] ∧ ¬Text [0xE2, 0x82] := by
  rw [← utf8Valid_iff, ← utf8Valid_iff]; decide

theorem euro_text : Text [0xE2, 0x82, 0xAC] := ⟨['€'], by decide⟩

/-- Every byte that cannot be part of a character is replaced, and so is a beginning as a whole. -/
example : Lossy [97, 0xC0, 0xAF, 0xE2, 0x82, 98] (b!"a" ++ [0xEF, 0xBF, 0xBD] ++ [0xEF, 0xBF, 0xBD] ++ [0xEF, 0xBF, 0xBD] ++ b!"b") :=
  lossy_iff.mpr (by decide)

def unlockOf (id : Bytes) : List Packet := [.data (b!"unlock " ++ id ++ b!"\n"), .flush]

theorem unlockOf_line {id : Bytes} (h : ∀ b ∈ id, b ≠ 32) (hn : id ≠ []) : CommandLine (b!"unlock " ++ id ++ b!"\n") [b!"unlock", id] := by
  refine ⟨b!"unlock " ++ id, ?_, by simp, .inl rfl⟩
  exact Words.cons (x := b!"unlock") (w := id) (by decide) (.one (fun hm => h _ hm rfl))

/-- The theorems about arguments that are not text apply to a request … -/
example (tr : List Event) (h : (turn Tests.cfg .upload (seeing (unlockOf overlong) [])).Did tr) :=
  C61_refused (r1 := seeing [.flush] []) (unlockOf_line (id := overlong) (by decide) (by decide)) (by decide +kernel) overlong_notText h
/-- … to which this is the reply. -/
example : (turnRun calm (seeing (unlockOf overlong) [])).2.out =
    b!"000fstatus 400\n0001002ferror: corrupt data: invalid or corrupt ID\n0000" := by decide +kernel
example (tr : List Event) (x r') (h : (turn Tests.cfg .upload (seeing (unlockOf overlong) [])).Finished tr (x, r'))
    (ho : ∀ e ∈ tr, e.OutOk) :=
  C61_reply (w := b!"0000") (rest := []) (args := []) (unlockOf_line (id := overlong) (by decide) (by decide))
    (r1 := seeing [.flush] []) (by decide +kernel) overlong_notText (.cons .flush .nil) (by decide +kernel) h ho

/-- The other theorem applies to the euro sign. -/
example (tr : List Event) (a) (h : (turn Tests.cfg .upload (seeing (unlockOf [0xE2, 0x82, 0xAC]) [])).Finished tr a) :=
  C61_looked_up (w := b!"0000") (rest := []) (args := []) (unlockOf_line (id := [0xE2, 0x82, 0xAC]) (by decide) (by decide))
    (r1 := seeing [.flush] []) (by decide +kernel) euro_text (.cons .flush .nil) (by decide +kernel) h

/-- A directory of locks with an entry whose name is not text: the file looked at has another name. -/
def fsOdd : FS := { fsL with names := (lockFile Tests.cfg.root overlong, 1) :: fsL.names }

example : (((turn Tests.cfg .upload (seeing [.data b!"list-lock\n", .flush] [])).events calm ⟨fsOdd, [], 0⟩).any fun e =>
    fileOf e.1 == some (.join (Tests.cfg.root ++ [b!"locks"]) [0xEF, 0xBF, 0xBD, 0xEF, 0xBF, 0xBD])) = true := by
  decide +kernel

end Tests

end Verif
