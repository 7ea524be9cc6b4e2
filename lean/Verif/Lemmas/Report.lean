import Verif.Spec.Report
import Verif.Lemmas.ServeMain
import Verif.Lemmas.Hist
import Verif.Props.Parsing
import Verif.Props.Output
/-! What each command answers, whatever the OS says. -/
namespace Verif
open Spec

variable {cfg : Cfg} {mode : Mode} {lax : Bool}

/-! ### Lock records -/

theorem digits_text {mx : Nat} {ds : Bytes} {n : Nat} : ds ≠ [] ∧ digitsFold mx 0 ds = some n ↔ Dec ds n ∧ n ≤ mx := by
  have hp : parseNat mx (43 :: ds) = some n ↔ ds ≠ [] ∧ digitsFold mx 0 ds = some n := by
    simp only [parseNat, if_true]
    by_cases h : ds = [] <;> simp [h]
  rw [← hp, parseNat_iff]
  constructor
  · rintro ⟨h0, h | ⟨u, h1, h2⟩⟩
    · exact absurd ((dec_iff _ _).mp h).2.1 (fun hh => absurd (hh 43 (by simp)) (by decide))
    · cases h1; exact ⟨h2, h0⟩
  · rintro ⟨h1, h2⟩
    exact ⟨h2, .inr ⟨_, rfl, h1⟩⟩

theorem dec_ne {ds : Bytes} {n : Nat} (h : Dec ds n) : ds ≠ [] := by
  cases h <;> simp

theorem parseI64_iff {s : Bytes} {t : Int} : parseI64 s = some t ↔
    IntText s t ∧ -9223372036854775808 ≤ t ∧ t ≤ 9223372036854775807 := by
  constructor
  · intro h
    refine ⟨parseI64_text h, ?_⟩
    have key : ∀ (mx : Nat) (ds : Bytes) (n : Nat), ds ≠ [] → digitsFold mx 0 ds = some n → n ≤ mx :=
      fun mx ds n h1 h2 => (digits_text.mp ⟨h1, h2⟩).2
    unfold parseI64 at h
    split at h
    · cases h
    rename_i c cs
    split at h
    · split at h
      · cases h
      simp only [Option.map_eq_some_iff] at h
      obtain ⟨n, hn, rfl⟩ := h
      have := key _ _ _ ‹_› hn
      simp only [i64Max] at this
      omega
    · split at h
      · split at h
        · cases h
        simp only [Option.map_eq_some_iff] at h
        obtain ⟨n, hn, rfl⟩ := h
        have := key _ _ _ ‹_› hn
        simp only [i64Max] at this
        omega
      · simp only [Option.map_eq_some_iff] at h
        obtain ⟨n, hn, rfl⟩ := h
        have := key _ _ _ (by simp) hn
        simp only [i64Max] at this
        omega
  · rintro ⟨⟨ds, n, hd, h⟩, h1, h2⟩
    rcases h with ⟨rfl | rfl, rfl⟩ | ⟨rfl, rfl⟩
    · have hf := digits_text (mx := i64Max) |>.mpr ⟨hd, by simp only [i64Max]; omega⟩
      have hall := ((dec_iff _ _).mp hd).2.1
      cases s with
      | nil => exact absurd rfl hf.1
      | cons c cs =>
        have hc := hall c (by simp)
        have c1 : c ≠ 45 := fun e => by subst e; exact absurd hc (by decide)
        have c2 : c ≠ 43 := fun e => by subst e; exact absurd hc (by decide)
        simp only [parseI64, if_neg c1, if_neg c2, hf.2, Option.map_some]
    · have hf := digits_text (mx := i64Max) |>.mpr ⟨hd, by simp only [i64Max]; omega⟩
      show parseI64 (43 :: ds) = _
      simp only [parseI64, if_neg hf.1, hf.2, Option.map_some, if_true]
      rw [if_neg (by decide)]
    · have hf := digits_text (mx := i64Max + 1) |>.mpr ⟨hd, by simp only [i64Max]; omega⟩
      show parseI64 (45 :: ds) = _
      simp only [parseI64, if_neg hf.1, hf.2, Option.map_some, if_true]

theorem intText_nocolon {s : Bytes} {t : Int} (h : IntText s t) : (58 : UInt8) ∉ s := by
  obtain ⟨ds, n, hd, h⟩ := h
  have hall := ((dec_iff _ _).mp hd).2.1
  have hn : (58 : UInt8) ∉ ds := fun hm => absurd (hall _ hm) (by decide)
  rcases h with ⟨rfl | rfl, -⟩ | ⟨rfl, -⟩
  · exact hn
  · simpa using hn
  · simpa using hn

/-- The lock records the server accepts, exactly. -/
theorem parseLock_iff {d path : Bytes} {t : Int} : parseLock d = some (t, path) ↔ RecordIs d t path := by
  constructor
  · intro h
    obtain ⟨ts, h1, _, h3⟩ := C31_record_roundtrip.2 d t path h
    obtain ⟨k1, k2⟩ := parseI64_iff.mp h3
    exact ⟨ts, h1, k1, k2⟩
  · rintro ⟨ts, rfl, h1, h2⟩
    have e : b!"v1:" ++ ts ++ b!":" ++ path = b!"v1" ++ COLON :: (ts ++ COLON :: path) := by
      simp [COLON]
    have hs : splitN COLON 2 (b!"v1:" ++ ts ++ b!":" ++ path) = [b!"v1", ts, path] := by
      rw [e, splitN_append COLON 1 b!"v1" _ (by decide), splitN_append COLON 0 ts path (intText_nocolon h1)]
      cases path <;> rfl
    simp only [parseLock, hs, if_true, parseI64_iff.mpr ⟨h1, h2⟩, Option.map_some]

theorem parseLock_none {d : Bytes} (h : parseLock d = none) (t : Int) (path : Bytes) : ¬ RecordIs d t path := by
  intro hr
  rw [parseLock_iff.mpr hr] at h
  cases h

/-! ### Evidence stays -/

/-- What is added to a trace when a reply is sent. -/
def Sending (t : List Event) : Prop := ∀ e ∈ t, e.1.mutates = false

theorem written_append (ino : Ino) (s t : List Event) : written ino (s ++ t) = written ino s ++ written ino t := by
  simp [written]

theorem written_sending {ino : Ino} {t : List Event} (h : Sending t) : written ino t = [] := by
  simp only [written, List.flatMap_eq_nil_iff]
  rintro ⟨o, x⟩ he
  have := h _ he
  cases o <;> first | rfl | cases this

section mono
variable {s t : List Event}

theorem _root_.Verif.Spec.SaidSize.add {root : Path} {oid : Bytes} {n : Nat} (h : SaidSize root s oid n) :
    SaidSize root (s ++ t) oid n := by
  obtain ⟨st, h1, h2⟩ := h
  exact ⟨st, h1, by simp [h2]⟩

theorem _root_.Verif.Spec.SaidMissing.add {p : FPath} (h : SaidMissing s p) : SaidMissing (s ++ t) p := by
  obtain ⟨e, h1, h2 | h2 | ⟨k, h2, h3⟩⟩ := h
  · exact ⟨e, h1, .inl (by simp [h2])⟩
  · exact ⟨e, h1, .inr (.inl (by simp [h2]))⟩
  · exact ⟨e, h1, .inr (.inr ⟨k, by simp [h2], by simp [h3]⟩)⟩

theorem _root_.Verif.Spec.SaidContent.add {root : Path} {id d : Bytes} (h : SaidContent root s id d) :
    SaidContent root (s ++ t) id d := by
  obtain ⟨k, cs, h1, h2, h3⟩ := h
  exact ⟨k, cs, by simp [h1], by simp [h2], h3⟩

theorem _root_.Verif.Spec.SaidOwner.add {p : FPath} {o : Bytes} (h : SaidOwner cfg s p o) : SaidOwner cfg (s ++ t) p o := by
  rcases h with ⟨st, h1, h2⟩ | ⟨e, h1, h2⟩
  · exact .inl ⟨st, by simp [h1], h2⟩
  · exact .inr ⟨e, by simp [h1], h2⟩

theorem _root_.Verif.Spec.SaidLock.add {id : Bytes} {l : Shown} (h : SaidLock cfg s id l) : SaidLock cfg (s ++ t) id l := by
  obtain ⟨⟨d, h1, h2⟩, h3⟩ := h
  exact ⟨⟨d, h1.add, h2⟩, h3.add⟩

theorem _root_.Verif.Spec.SaidTime.add {n : Int} (h : SaidTime cfg s n) : SaidTime cfg (s ++ t) n := by
  rcases h with h | ⟨h1, h2⟩
  · exact .inl h
  · exact .inr ⟨h1, by simp [h2]⟩

theorem _root_.Verif.Spec.ItemsSaid.add {root : Path} {its : List (Bytes × Nat)} {ls : List Bytes}
    (h : ItemsSaid lax root mode s its ls) : ItemsSaid lax root mode (s ++ t) its ls := by
  induction h with
  | nil => exact .nil
  | there h1 _ ih => exact .there h1.add ih
  | missing h1 _ ih => exact .missing h1.add ih
  | failed h0 h1 _ ih => exact .failed h0 (List.mem_append_left _ h1) ih

theorem _root_.Verif.Spec.NamesSaid.add {cursor : Option Bytes} {k : Nat} {names : List Bytes} {ls : List Shown}
    (h : NamesSaid lax cfg s cursor k names ls) : NamesSaid lax cfg (s ++ t) cursor k names ls := by
  induction h with
  | nil => exact .nil
  | full => exact .full
  | lock h1 h2 _ ih => exact .lock h1.add h2 ih
  | before h1 h2 h3 h4 _ ih => exact .before h1.add h2 h3 h4 ih
  | gone h1 h2 _ ih => exact .gone h1.add h2 ih
  | noLock h1 h2 h3 _ ih => exact .noLock h1.add h2 h3 ih
  | failed h0 h2 h1 _ ih =>
    refine .failed h0 h2 ?_ ih
    rcases h1 with ⟨e, h1⟩ | ⟨h, cs, e, h1, h2⟩
    · exact .inl ⟨e, by simp [h1]⟩
    · exact .inr ⟨h, cs, e, by simp [h1], by simp [h2]⟩

theorem _root_.Verif.Spec.Backed.add {q : Request} {a : Answer} (h : Backed lax cfg mode s q a) (ht : Sending t) :
    Backed lax cfg mode (s ++ t) q a := by
  have hw : ∀ ino, written ino (s ++ t) = written ino s := fun ino => by
    rw [written_append, written_sending ht, List.append_nil]
  cases h with
  | internal => exact .internal
  | quit => exact .quit
  | version => exact .version
  | batch h => exact .batch h.add
  | stored h1 h2 h3 h4 => exact .stored h1 (List.mem_append_left _ h2) ((hw _).trans h3) (List.mem_append_left _ h4)
  | refused h1 h2 =>
    refine .refused h1 fun src hm => ?_
    rcases List.mem_append.mp hm with hm | hm
    · exact h2 src hm
    · exact Bool.noConfusion (ht _ hm)
  | verified h => exact .verified h.add
  | differs h h1 => exact .differs h.add h1
  | missing h => exact .missing h.add
  | sent h1 h2 h3 => exact .sent (List.mem_append_left _ h1) (List.mem_append_left _ h2) (List.mem_append_left _ h3)
  | noObject h => exact .noObject h.add
  | locked h1 h2 h3 h4 h5 h6 h7 =>
    exact .locked h1.add (List.mem_append_left _ h2) ((hw _).trans h3) (List.mem_append_left _ h4) h5 h6.add h7.add
  | held h1 h2 => exact .held h1 h2.add
  | corrupt h1 h2 => exact .corrupt h1.add h2
  | unlocked h1 h2 => exact .unlocked h1.add (List.mem_append_left _ h2)
  | noLock h => exact .noLock h.add
  | notRemoved h1 h2 h3 => exact .notRemoved h1.add (List.mem_append_left _ h2) h3
  | corruptId h1 h2 => exact .corruptId h1.add h2
  | listed h1 h2 h3 => exact .listed h1 h2.add h3
  | notListed h =>
    refine .notListed ?_
    rcases h with h | ⟨l, c, h1, h2, h3⟩
    · exact .inl h.add
    · exact .inr ⟨l, c, h1, h2.add, h3⟩
  | corruptPath h1 h2 => exact .corruptPath h1.add h2
  | listing h1 h2 h3 h4 => exact .listing (List.mem_append_left _ h1) h2 h3 h4.add

end mono

/-! ### Reasoning with the history -/

/-- `m`, started after the history `s`, ends with `Q`, whatever the OS answers. -/
abbrev M.told {α : Type} (m : M α) (r : Rdr) (s : List Event) (Q : Res α → Rdr → List Event → Prop) : Prop :=
  m.wp Logic.hist r s Q

theorem told_op_bind {α : Type} {o : Op} {f : Resp o → M α} {r : Rdr} {s : List Event} {Q}
    (h : ∀ x, (f x).told r (s ++ [⟨o, x⟩]) Q) : (M.op o >>= f).told r s Q := by
  unfold M.told
  rw [M.wp_bind, M.wp_op]
  exact ⟨trivial, fun x _ => h x⟩

theorem told_rdr_bind {α β : Type} {g : Rdr → Res β × Rdr} {f : β → M α} {r r' : Rdr} {s : List Event} {Q} {a : β}
    (e : g r = (.ok a, r')) (h : (f a).told r' s Q) : (M.rdr g >>= f).told r s Q := by
  unfold M.told
  rw [M.wp_bind, M.wp_rdr, e]
  exact h

theorem told_ofRes_bind {α β : Type} {x : Res β} {f : β → M α} {r : Rdr} {s : List Event} {Q} {a : β}
    (e : x = .ok a) (h : (f a).told r s Q) : (M.ofRes x >>= f).told r s Q := by
  unfold M.told
  rw [M.wp_bind, M.wp_ofRes, e]
  exact h

theorem told_pure_bind {α β : Type} {f : β → M α} {r : Rdr} {s : List Event} {Q} {a : β}
    (h : (f a).told r s Q) : ((pure a : M β) >>= f).told r s Q := by
  unfold M.told
  rw [M.wp_bind, M.wp_pure]
  exact h

theorem told_bind {α β : Type} {m : M β} {f : β → M α} {r : Rdr} {s : List Event} {P Q} (h : m.told r s P)
    (h1 : ∀ a r s, P (.ok a) r s → (f a).told r s Q) (h2 : ∀ e r s, P (.err e) r s → Q (.err e) r s)
    (h3 : ∀ r s, P .panic r s → Q .panic r s) : (m >>= f).told r s Q := by
  unfold M.told
  rw [M.wp_bind]
  refine M.wp_mono h ?_
  rintro (a | e | _) r s hp
  · exact h1 a r s hp
  · exact h2 e r s hp
  · exact h3 r s hp

theorem told_ofIo_bind {α β : Type} {x : Except IoErr β} {f : β → M α} {r : Rdr} {s : List Event} {Q}
    (h1 : ∀ a, x = .ok a → (f a).told r s Q) (h2 : ∀ e, x = .error e → Q (.err (Err.ofIo e)) r s) :
    (M.ofIo x >>= f).told r s Q := by
  unfold M.told
  rw [M.wp_bind, M.wp_ofIo]
  cases x with
  | ok a => exact h1 a rfl
  | error e => exact h2 e rfl

/-- A status that is sent as this answer, without reading a file. -/
def Says (st : Status) (a : Answer) : Prop :=
  Means st a ∧ match a.body with
    | .none => st.messages = none ∧ st.reader = none
    | .lines ls => st.messages = some ls ∧ ∀ l ∈ ls, l ≠ []
    | .raw _ => False

theorem says_none {st : Status} (hc : CodeOk st) (ha : ∀ l ∈ st.args.getD [], l ≠ []) (hm : st.messages = none)
    (hr : st.reader = none) : Says st ⟨st.code, st.args.getD [], .none⟩ :=
  ⟨⟨rfl, hc, rfl, ha⟩, hm, hr⟩

theorem says_lines {st : Status} {ls : List Bytes} (hc : CodeOk st) (ha : ∀ l ∈ st.args.getD [], l ≠ [])
    (hm : st.messages = some ls) (hl : ∀ l ∈ ls, l ≠ []) : Says st ⟨st.code, st.args.getD [], .lines ls⟩ :=
  ⟨⟨rfl, hc, rfl, ha⟩, hm, hl⟩

theorem says_failure {code : Nat} {m : Bytes} (hc : code ∈ statusCodes) (hm : m ≠ []) :
    Says (Status.failure code m) ⟨code, [], .lines [m]⟩ :=
  says_lines (st := Status.failure code m) hc (by simp [Status.failure]) rfl (by simpa using hm)

theorem says_success : Says Status.success ⟨200, [], .none⟩ :=
  says_none (st := Status.success) c200 (by simp [Status.success]) rfl rfl

theorem says_internal {e : Err} (h : clientError e.kind = false) :
    Says (errorStatus e) ⟨500, [], .lines [b!"internal error: " ++ e.display ++ b!"\n"]⟩ := by
  unfold errorStatus
  rw [h]
  exact says_failure c500 (by simp)

theorem says_client {e : Err} (h : clientError e.kind = true) :
    Says (errorStatus e) (badRequest e.display) := by
  unfold errorStatus
  rw [h]
  exact says_failure c400 (by simp)

/-- The result of a handler is an honest answer (or a panic, after which nothing is answered). -/
def Honest (lax : Bool) (cfg : Cfg) (mode : Mode) (q : Request) (x : Res Status) (s : List Event) : Prop :=
  x = .panic ∨ ∃ st a, outcome x = some st ∧ Says st a ∧ Backed lax cfg mode s q a

theorem honest_io {q : Request} (e : IoErr) (s : List Event) : Honest lax cfg mode q (.err (Err.ofIo e)) s :=
  .inr ⟨_, _, rfl, says_internal rfl, .internal⟩

/-! ### Objects -/

theorem told_version {v : List Bytes} {r r' : Rdr} {s : List Event} (hr : readToType .flush r = (.ok v, r')) :
    versionCmd.told r s (fun x _ s => Honest lax cfg mode .version x s) := by
  unfold versionCmd
  refine told_rdr_bind hr ?_
  exact .inr ⟨_, _, rfl, says_lines (st := Status.newSuccess []) c200 (by simp [Status.newSuccess]) rfl (by simp), .version⟩

theorem told_verify {kv : List (Bytes × Bytes)} {u rest oid sz : Bytes} {m : Nat} {r : Rdr} {s : List Event}
    (ho : IsOid oid) (ha : ArgsOk kv) (hs : lookup kv b!"size" = some sz) (hn : Num sz m)
    (hF : Frames (argPackets kv ++ [.flush]) u) (hi : r.input = u ++ rest) :
    (verifyObject cfg oid).told r s (fun x _ s => Honest lax cfg mode (.verify oid m) x s) := by
  obtain ⟨as, has, hget⟩ := C09_args_exact kv ha
  unfold verifyObject
  refine told_rdr_bind (readToFlush_args hF hi) ?_
  refine told_ofRes_bind has ?_
  have hoid : oidNew oid = pure oid := by simp [oidNew, (oidValid_iff oid).mpr ho]
  rw [hoid]
  refine told_pure_bind ?_
  unfold backendVerify
  refine told_ofRes_bind (a := m) (by rw [hget, hs]; exact num_parse hn) ?_
  refine told_op_bind fun x => ?_
  rw [← objectFile_eq]
  cases x with
  | ok st =>
    simp only []
    split
    · rename_i h
      refine .inr ⟨Status.success, _, rfl, says_success, .verified ⟨st, h, by simp⟩⟩
    · rename_i h
      exact .inr ⟨Status.failure 409 _, _, rfl, says_failure c409 (by simp),
        .differs ⟨st, rfl, by simp⟩ h⟩
  | error e =>
    simp only []
    split
    · rename_i h
      exact .inr ⟨Status.failure 404 _, _, rfl, says_failure c404 (by simp),
        .missing ⟨e, h, .inl (by simp)⟩⟩
    · exact honest_io e _

/-- `lax`, or nothing else than missing files went wrong. -/
def Excuse (lax : Bool) (s : List Event) : Prop := lax = true ∨ ∀ e ∈ s, e.Clear

theorem Excuse.part {s t : List Event} (h : Excuse lax (s ++ t)) : Excuse lax s := by
  rcases h with h | h
  · exact .inl h
  · exact .inr fun e he => h e (by simp [he])

theorem told_backendBatch : ∀ (items : List (Bytes × Nat)) (r : Rdr) (s : List Event),
    (backendBatch cfg items).told r s (fun x _ s' => ∃ its, x = .ok its ∧ (∃ t, s' = s ++ t) ∧ ∀ lax, Excuse lax s' →
      ItemsSaid lax cfg.root mode s' items (its.map fun it => itemLine mode it.oid it.size it.present))
  | [], r, s => ⟨[], rfl, ⟨[], by simp⟩, fun _ _ => .nil⟩
  | (oid, n) :: items, r, s => by
    rw [backendBatch]
    refine told_op_bind fun x => ?_
    rw [← objectFile_eq]
    refine told_bind (told_backendBatch items r _) ?_ ?_ ?_
    · rintro its r' s' ⟨its, e, ⟨t, rfl⟩, h1⟩
      cases e
      refine ⟨_, rfl, ⟨⟨.stat (.exact (objectFile cfg.root oid)), x⟩ :: t, by simp⟩, fun lax hl => ?_⟩
      have h1 := h1 lax hl
      cases x with
      | ok st => exact .there ⟨st, rfl, by simp⟩ h1
      | error e =>
        rcases hl with rfl | hl
        · exact .failed rfl (e := e) (by simp) h1
        · exact .missing ⟨e, hl ⟨.stat (.exact (objectFile cfg.root oid)), .error e⟩ (by simp) e rfl, .inl (by simp)⟩ h1
    · rintro e r' s' ⟨its, he, _⟩
      cases he
    · rintro r' s' ⟨its, he, _⟩
      cases he

theorem told_readToFlushParse {α : Type} {f : List Bytes → M α} {r r' : Rdr} {s : List Event} {Q} {v : List Bytes}
    (h : readToType .flush r = (.ok v, r')) (k : (f v).told r' s Q) :
    (readToFlushParse >>= f).told r s Q := by
  unfold readToFlushParse M.told
  rw [M.wp_bind, M.wp_bind, M.wp_attempt]
  unfold readToFlush
  rw [M.wp_rdr, h]
  exact k

theorem told_batch {kv : List (Bytes × Bytes)} {items : List (Bytes × Nat)} {ls : List Bytes} {u v rest : Bytes}
    {r : Rdr} {s : List Event} {present missing : Bytes} (ha : ArgsOk kv)
    (hh : ∀ a, lookup kv b!"hash-algo" = some a → a = b!"sha256") (hb : BatchLines items ls)
    (hF : Frames (argPackets kv ++ [.delim]) u) (hF2 : Frames (ls.map .data ++ [.flush]) v)
    (hi : r.input = u ++ (v ++ rest))
    (hm : (match mode with
      | .upload => (b!"noop", b!"upload")
      | .download => (b!"download", b!"noop")) = (present, missing)) :
    (batchCmd cfg present missing).told r s (fun x _ s' => ∀ lax, Excuse lax s' →
      Honest lax cfg mode (.batch items) x s') := by
  obtain ⟨as, has, hget⟩ := C09_args_exact kv ha
  have hp := (parseBatchLines_ok hb).1
  unfold batchCmd
  refine told_bind (P := fun x _ s' => ∃ its, x = .ok its ∧ ∀ lax, Excuse lax s' →
    ItemsSaid lax cfg.root mode s' items (its.map fun it => itemLine mode it.oid it.size it.present)) ?_ ?_ ?_ ?_
  · unfold readBatch
    refine told_rdr_bind (readToDelim_args hF hi) ?_
    refine told_ofRes_bind has ?_
    refine told_readToFlushParse (readToType_frames (.inl rfl) hF2 rfl) ?_
    have rest' : (M.ofRes (parseBatchLines ls) >>= fun oids => backendBatch cfg oids).told { r with input := rest } s
        (fun x _ s' => ∃ its, x = .ok its ∧ ∀ lax, Excuse lax s' →
          ItemsSaid lax cfg.root mode s' items (its.map fun it => itemLine mode it.oid it.size it.present)) := by
      refine told_ofRes_bind hp ?_
      refine M.wp_mono (told_backendBatch (mode := mode) items _ s) ?_
      rintro x r' s' ⟨its, h1, _, h2⟩
      exact ⟨its, h1, h2⟩
    rw [hget]
    cases hx : lookup kv b!"hash-algo" with
    | none => exact rest'
    | some x =>
      have := hh x hx
      subst this
      simp only [if_true]
      exact rest'
  · rintro its r' s' ⟨its, e, h⟩ lax hl
    cases e
    have e : (its.map fun it => itemLine mode it.oid it.size it.present) = its.map (fun it =>
        it.oid ++ b!" " ++ natDec it.size ++ b!" " ++ (if it.present then present else missing) ++ b!"\n") := by
      refine List.map_congr_left fun it _ => ?_
      cases mode <;> cases hm <;> cases it.present <;> simp [itemLine, natDec_eq]
    refine .inr ⟨_, _, rfl, says_lines (st := Status.newSuccess _) c200 (by simp [Status.newSuccess]) rfl ?_, .batch (e ▸ h lax hl)⟩
    intro l hl
    simp only [List.mem_map] at hl
    obtain ⟨it, _, rfl⟩ := hl
    simp
  · rintro e r' s' ⟨_, h, _⟩; cases h
  · rintro r' s' ⟨_, h, _⟩; cases h

/-- What a download has found out before the file is read. -/
theorem told_get {kv : List (Bytes × Bytes)} {u rest oid : Bytes} {r : Rdr} {s : List Event}
    (ho : IsOid oid) (ha : ArgsOk kv)
    (hF : Frames (argPackets kv ++ [.flush]) u) (hi : r.input = u ++ rest) :
    (getObject cfg oid).told r s (fun x _ s => (∀ lax, Honest lax cfg mode (.get oid) x s) ∨
      ∃ h st, x = .ok (Status.newReader [b!"size=" ++ decimal st.len ++ b!"\n"] h) ∧
        (⟨.openRead (.exact (objectFile cfg.root oid)), .ok h⟩ : Event) ∈ s ∧ (⟨.fstat h, .ok st⟩ : Event) ∈ s) := by
  obtain ⟨as, has, _⟩ := C09_args_exact kv ha
  unfold getObject
  refine told_rdr_bind (readToFlush_args hF hi) ?_
  refine told_ofRes_bind has ?_
  have hoid : oidNew oid = pure oid := by simp [oidNew, (oidValid_iff oid).mpr ho]
  rw [hoid]
  refine told_pure_bind ?_
  refine told_bind (P := fun x _ s' =>
    (∃ e, x = .ok (.error (Err.ofIo e)) ∧ (e.kind = .notFound → SaidMissing s' (.exact (objectFile cfg.root oid)))) ∨
    (∃ h st, x = .ok (.ok (h, st.len)) ∧ (⟨.openRead (.exact (objectFile cfg.root oid)), .ok h⟩ : Event) ∈ s' ∧
      (⟨.fstat h, .ok st⟩ : Event) ∈ s')) ?_ ?_ ?_ ?_
  · unfold M.told
    rw [M.wp_attempt]
    unfold backendDownload
    rw [← objectFile_eq]
    refine told_op_bind fun x => ?_
    refine told_ofIo_bind ?_ ?_
    · rintro h rfl
      refine told_op_bind fun y => ?_
      refine told_ofIo_bind ?_ ?_
      · rintro st rfl
        exact .inr ⟨h, st, rfl, by simp, by simp⟩
      · rintro e rfl
        exact .inl ⟨e, rfl, fun hk => ⟨e, hk, .inr (.inr ⟨h, by simp, by simp⟩)⟩⟩
    · rintro e rfl
      exact .inl ⟨e, rfl, fun hk => ⟨e, hk, .inr (.inl (by simp))⟩⟩
  · rintro a r' s' (⟨e, he, hm⟩ | ⟨h, st, he, h1, h2⟩)
    · cases he
      simp only []
      split
      · rename_i hk
        exact .inl fun lax => .inr ⟨Status.failure 404 _, _, rfl, says_failure c404 (by simp), .noObject (hm hk)⟩
      · exact .inl fun lax => honest_io e _
    · cases he
      refine .inr ⟨h, st, ?_, h1, h2⟩
      simp only [natDec_eq]
  · rintro e r' s' (⟨_, h, _⟩ | ⟨_, _, h, _⟩) <;> cases h
  · rintro r' s' (⟨_, h, _⟩ | ⟨_, _, h, _⟩) <;> cases h

end Verif
