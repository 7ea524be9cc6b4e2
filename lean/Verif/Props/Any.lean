import Verif.Lemmas.Any
import Verif.Props.Cut
/-! C75: any bytes whatever. -/
namespace Verif
open Spec

variable {cfg : Cfg} {mode : Mode} {ch : Nat → Choice} {s : Store} {r : Rdr} {text : Bytes}

/-! ### Every byte string has a meaning -/

/-- Any bytes are packets, and then the beginning of one, or what is none. -/
theorem scan (b : Bytes) : ∃ ps w tail, LaxFrames ps w ∧ b = w ++ tail ∧
    (LaxPart tail ∨ ∃ h rest, tail = h ++ rest ∧ BadHeader h) := by
  induction hn : b.length using Nat.strongRecOn generalizing b with
  | ind n ih =>
    by_cases h4 : b.length < 4
    · exact ⟨[], [], b, .nil, rfl, .inl (.inl h4)⟩
    have hb : b = b.take 4 ++ b.drop 4 := (List.take_append_drop 4 b).symm
    have h4' : (b.take 4).length = 4 := by rw [List.length_take]; omega
    have hd4 : (b.drop 4).length + 4 = b.length := by rw [List.length_drop]; omega
    generalize b.take 4 = h at *
    generalize b.drop 4 = c at *
    rcases lax_dec h with ⟨m, hm⟩ | he
    swap
    · refine ⟨[], [], b, .nil, rfl, .inr ⟨h, c, hb, h4', fun k hk => ?_⟩⟩
      rw [(lax_parse h k).mpr hk] at he
      cases he
    have go : ∀ (p : Packet) (u v : Bytes), LaxFrame p u → b = u ++ v → ∃ ps w tail, LaxFrames ps w ∧ b = w ++ tail ∧
        (LaxPart tail ∨ ∃ h rest, tail = h ++ rest ∧ BadHeader h) := by
      intro p u v hu huv
      have := laxFrame_length hu
      obtain ⟨ps, w, tail, h1, h2, h3⟩ := ih v.length (by rw [← hn, huv, List.length_append]; omega) v rfl
      exact ⟨p :: ps, u ++ w, tail, .cons hu h1, by rw [huv, h2, List.append_assoc], h3⟩
    by_cases m0 : m = 0
    · subst m0; exact go .flush h c (.flush hm) hb
    by_cases m1 : m = 1
    · subst m1; exact go .delim h c (.delim hm) hb
    by_cases m2 : m = 2 ∨ m = 3
    · exact ⟨[], [], b, .nil, rfl, .inr ⟨h, c, hb, h4', fun k hk => lax_unique hm hk ▸ m2⟩⟩
    by_cases hc : m ≤ c.length + 4
    · have hlen : (c.take (m - 4)).length + 4 = m := by rw [List.length_take]; omega
      exact go (.data (c.take (m - 4))) (h ++ c.take (m - 4)) (c.drop (m - 4)) (.data (by rw [hlen]; exact hm))
        (by rw [List.append_assoc, List.take_append_drop]; exact hb)
    · exact ⟨[], [], b, .nil, rfl, .inl (.inr ⟨h, c, m, hb, hm, by omega⟩)⟩

theorem split_long : ∀ ds : List Bytes, (∀ d ∈ ds, d.length ≤ 65516) ∨
    ∃ a d b, ds = a ++ d :: b ∧ (∀ d ∈ a, d.length ≤ 65516) ∧ 65516 < d.length
  | [] => .inl (by simp)
  | d :: ds => by
    by_cases h : d.length ≤ 65516
    · rcases split_long ds with h' | ⟨a, e, b, rfl, h1, h2⟩
      · exact .inl (by simpa [h] using h')
      · exact .inr ⟨d :: a, e, b, rfl, by simpa [h] using h1, h2⟩
    · exact .inr ⟨[], d, ds, rfl, by simp, by omega⟩

theorem not_uploading {l : Bytes} {ws : List Bytes} {ps : List Packet} (hl : CommandLine l ws)
    (h : ws.head? = some b!"put-object" → .delim ∉ ps) : ¬ Uploading mode (.data l :: ps) := by
  rintro ⟨l', oid, more, as, ds, he, _, hl', _⟩
  simp only [List.cons_append, List.cons.injEq, Packet.data.injEq] at he
  obtain ⟨rfl, rfl⟩ := he
  rw [commandLine_unique hl hl'] at h
  exact h rfl (by simp)

/-- What packets can be, before whatever follows them. -/
theorem classify {ps : List Packet} (h : ps ≠ []) :
    (∃ a b, ps = a ++ b ∧ Extent mode a) ∨
    ((∃ ps', Completed mode ps ps' ∧ Extent mode ps') ∧ ¬ Uploading mode ps ∧ ∃ code msg, Garbled mode ps code msg) ∨
    (BreaksOff mode text ps [] (.nonsense 500 (cutMessage text)) ∧ ¬ Uploading mode ps ∧ ∃ code msg, Garbled mode ps code msg) ∨
    Uploading mode ps ∨
    (∃ a d b, ps = a ++ .data d :: b ∧ Uploading mode a ∧ 65516 < d.length) ∨
    ∃ l b, ps = .data l :: b ∧ CommandLine l [b!"quit"] := by
  classical
  cases ps with
  | nil => exact absurd rfl h
  | cons p ps =>
    by_cases hop : Opens mode p
    swap
    · exact .inl ⟨[p], ps, rfl, .single hop⟩
    obtain ⟨l, ws, rfl, hl, hn⟩ := hop
    cases hn with
    | quit => exact .inr (.inr (.inr (.inr (.inr ⟨l, ps, rfl, hl⟩))))
    | args hc =>
      rcases split_first (t := .flush) ps with h1 | ⟨a, b, h1, rfl⟩
      · refine .inr (.inl ⟨⟨_, .args hl hc h1, .args hl hc h1⟩, not_uploading hl ?_, ?_⟩)
        · cases hc <;> simp
        · by_cases hx : ws = [b!"lock"] ∨ ws = [b!"list-lock"]
          · exact ⟨_, _, .parse hl hc hx h1⟩
          · exact ⟨_, _, .args hl hc (fun e => hx (.inl e)) (fun e => hx (.inr e)) h1⟩
      · exact .inl ⟨.data l :: a ++ [.flush], b, by simp, .args hl hc h1⟩
    | batch =>
      have hnu : ∀ qs, ¬ Uploading mode (.data l :: qs) := fun qs => not_uploading hl (by simp)
      rcases split_first (t := .delim) ps with h1 | ⟨a, b, h1, rfl⟩
      · by_cases ha : AreArgs ps
        · exact .inr (.inl ⟨⟨_, .batchNone hl ha, by simpa using Extent.batch (items := []) hl ha (by simp)⟩, hnu _,
            _, _, .batchArgs hl h1⟩)
        · exact .inr (.inl ⟨⟨_, .batchArgs hl h1 ha, .batchArgs hl h1 ha⟩, hnu _, _, _, .batchArgs hl h1⟩)
      · by_cases ha : AreArgs a
        · rcases split_first (t := .flush) b with h2 | ⟨c, d, h2, rfl⟩
          · exact .inr (.inl ⟨⟨_, .batch hl ha h2, .batch hl ha h2⟩, hnu _, _, _, .batch hl ha h2⟩)
          · exact .inl ⟨.data l :: a ++ .delim :: c ++ [.flush], d, by simp, .batch hl ha h2⟩
        · exact .inl ⟨.data l :: a ++ [.delim], b, by simp, .batchArgs hl h1 ha⟩
    | @put oid more =>
      by_cases ho : IsOid oid
      swap
      · exact .inl ⟨[.data l], ps, rfl, .putOid rfl hl ho⟩
      rcases split_first (t := .delim) ps with h1 | ⟨a, b, h1, rfl⟩
      · have hnu : ¬ Uploading .upload (.data l :: ps) := not_uploading hl fun _ => h1
        by_cases ha : AreSized ps
        · exact .inr (.inr (.inl ⟨.putArgs rfl hl ho ha part_nil, hnu, _, _, .putArgs rfl hl ho h1⟩))
        · exact .inr (.inl ⟨⟨_, .putArgs rfl hl ho h1 ha, .putArgs rfl hl ho h1 ha⟩, hnu, _, _, .putArgs rfl hl ho h1⟩)
      · by_cases ha : AreSized a
        · obtain ⟨ds, hb⟩ := split_data b
          rcases split_long ds with hds | ⟨d1, d, d2, rfl, hds, hd⟩
          · rcases hb with rfl | ⟨t, c, ht, rfl⟩
            · exact .inr (.inr (.inr (.inl ⟨l, oid, more, a, ds, rfl, rfl, hl, ho, ha, hds⟩)))
            · exact .inl ⟨.data l :: a ++ .delim :: ds.map .data ++ [t], c, by simp, .put rfl hl ho ha hds ht⟩
          · refine .inr (.inr (.inr (.inr (.inl ?_))))
            have hu : Uploading .upload (.data l :: a ++ .delim :: d1.map .data) := ⟨l, oid, more, a, d1, rfl, rfl, hl, ho, ha, hds⟩
            rcases hb with rfl | ⟨t, c, ht, rfl⟩
            · exact ⟨_, d, d2.map .data, by simp, hu, hd⟩
            · exact ⟨_, d, d2.map .data ++ t :: c, by simp, hu, hd⟩
        · exact .inl ⟨.data l :: a ++ [.delim], b, by simp, .putArgs rfl hl ho h1 ha⟩

theorem oddAt_append {a b : Bytes} (h : OddAt b) : OddAt (a ++ b) := by
  obtain ⟨a', h', l, c, id, more, rfl, h1⟩ := h
  exact ⟨a ++ a', h', l, c, id, more, by simp, h1⟩

/-- **C75.** Whatever bytes arrive, the server takes them for some requests, and then ends in one of two ways. The only
exception is `unlock` with an argument that is no ID. -/
theorem C75_total (input : Bytes) (hodd : mode = .upload → ¬ OddAt input) : ∃ qs e, Any mode text qs e input := by
  induction hn : input.length using Nat.strongRecOn generalizing input with
  | ind n ih =>
    obtain ⟨ps, w, tail, hF, rfl, ht⟩ := scan input
    by_cases h0 : ps = []
    · subst h0
      cases hF
      rw [List.nil_append]
      rcases ht with ht | ⟨h, rest, rfl, hb⟩
      · exact ⟨[], .fine, .eof ht⟩
      · exact ⟨[], .bad, .bad hb⟩
    have ih' : ∀ (x y : Bytes), w ++ tail = x ++ y → x ≠ [] → ∃ qs e, Any mode text qs e y := by
      intro x y he hx
      have := List.length_pos_iff.mpr hx
      exact ih y.length (by rw [← hn, he, List.length_append]; omega) y
        (fun hm ho => hodd hm (by rw [he]; exact oddAt_append ho)) rfl
    have heard : ∀ {a b more : List Packet}, ps = a ++ b → a ≠ [] → (∀ l, .data l ∉ more) → Extent mode (a ++ more) →
        ∃ q, Heard mode (a ++ more) q := by
      intro a b more he hne hmore hx
      refine heard_total hx fun l rest id m e hm hl hid => ?_
      by_contra hnot
      cases a with
      | nil => exact absurd rfl hne
      | cons p a =>
        simp only [List.cons_append, List.cons.injEq] at e
        obtain ⟨rfl, _⟩ := e
        subst he
        obtain ⟨u, v, rfl, hu, _⟩ := laxFrames_first (ps := a ++ b) hF
        cases hu with
        | @data h _ hlax => exact hodd hm ⟨[], h, l, v ++ tail, id, m, by simp, hlax, hl, hid, hnot⟩
    have ne : ∀ {a : List Packet} {u : Bytes}, a ≠ [] → LaxFrames a u → u ≠ [] := by
      rintro a u hne hF rfl
      have := laxFrames_length hF
      have := List.length_pos_iff.mpr hne
      simp at *
      omega
    have wne := ne h0 hF
    rcases classify (mode := mode) (text := text) h0 with ⟨a, b, rfl, ha⟩ | ⟨⟨ps', hc, he⟩, hnu, code, msg, hg⟩ |
      ⟨hb, hnu, code, msg, hg⟩ | hup | ⟨a, d, b, rfl, hup, hd⟩ | ⟨l, b, rfl, hl⟩
    · obtain ⟨w1, w2, rfl, hF1, hF2⟩ := laxFrames_split hF
      have hne := extent_ne_nil ha
      obtain ⟨q, hq⟩ := heard (a := a) (b := b) (more := []) rfl hne (by simp) (by simpa using ha)
      rw [List.append_nil] at hq
      obtain ⟨qs, e, hqs⟩ := ih' w1 (w2 ++ tail) (by simp) (ne hne hF1)
      exact ⟨q :: qs, e, by rw [List.append_assoc]; exact .heard hq hF1 hqs⟩
    · rcases ht with ht | ⟨h, rest, rfl, hb⟩
      · have hc0 := hc
        obtain ⟨-, more, rfl, hm⟩ := completed_prefix hc
        obtain ⟨q, hq⟩ := heard (a := ps) (b := []) (more := more) (by simp) h0 hm he
        exact ⟨[q], .fine, .broken (.heard hc0 hq part_nil) hF ht fun h => absurd h hnu⟩
      · obtain ⟨qs, e, hqs⟩ := ih' (w ++ h) rest (by simp) (by simp [wne])
        exact ⟨_, e, .garbled hg hF hb hqs⟩
    · rcases ht with ht | ⟨h, rest, rfl, hbad⟩
      · exact ⟨_, .fine, .broken hb hF ht fun h => absurd h hnu⟩
      · obtain ⟨qs, e, hqs⟩ := ih' (w ++ h) rest (by simp) (by simp [wne])
        exact ⟨_, e, .garbled hg hF hbad hqs⟩
    · by_cases hlong : TooLong tail
      · obtain ⟨h, m, rest, rfl, hm, hlt⟩ := hlong
        obtain ⟨qs, e, hqs⟩ := ih' (w ++ h) rest (by simp) (by simp [wne])
        exact ⟨_, e, .tooLong hup hF hm hlt hqs⟩
      rcases ht with ht | ⟨h, rest, rfl, hbad⟩
      · have hb : BreaksOff mode text ps [] (.nonsense 500 (cutMessage text)) := by
          obtain ⟨l, oid, more, as, ds, rfl, hm, hl, ho, ha, hds⟩ := hup
          exact .putData hm hl ho ha hds ⟨.flush, _, .flush, trivial, List.nil_prefix, by decide⟩
        exact ⟨_, .fine, .broken hb hF ht fun _ => hlong⟩
      · obtain ⟨qs, e, hqs⟩ := ih' (w ++ h) rest (by simp) (by simp [wne])
        exact ⟨_, e, .garbled (.putData hup) hF hbad hqs⟩
    · obtain ⟨w1, w2, rfl, hF1, hF2⟩ := laxFrames_split hF
      obtain ⟨w3, w4, rfl, hF3, _⟩ := laxFrames_first hF2
      cases hF3 with
      | @data h _ hl =>
        obtain ⟨qs, e, hqs⟩ := ih' (w1 ++ h) (d ++ w4 ++ tail) (by simp)
          (by simp [ne (garbled_ne (.putData hup)) hF1])
        have e1 : w1 ++ (h ++ d ++ w4) ++ tail = w1 ++ (h ++ (d ++ w4 ++ tail)) := by simp
        rw [e1]
        exact ⟨_, e, .tooLong hup hF1 hl (by omega) hqs⟩
    · obtain ⟨w1, w2, rfl, hF1, hF2⟩ := laxFrames_first hF
      exact ⟨[.ask .quit], .fine, by rw [List.append_assoc]; exact .quit hl hF1⟩

/-! ### The format -/

theorem laxFrame_of {p : Packet} {w : Bytes} (h : Frame p w) : LaxFrame p w := by
  cases h with
  | flush => exact .flush ((lax_parse _ _).mp (parseHeader_isHeader _ isHeader_0))
  | delim => exact .delim ((lax_parse _ _).mp (parseHeader_isHeader _ isHeader_1))
  | data h d hh => exact .data ((lax_parse _ _).mp (parseHeader_isHeader _ hh))

theorem laxFrames_of {ps : List Packet} {w : Bytes} (h : Frames ps w) : LaxFrames ps w := by
  induction h with
  | nil => exact .nil
  | cons h _ ih => exact .cons (laxFrame_of h) ih

theorem laxPart_of {p : Packet} {v t : Bytes} (h : Frame p v) (hpre : t <+: v) (hne : t ≠ v) :
    LaxPart t ∧ (Fits p → ¬ TooLong t) := by
  have hlt : t.length < v.length := by
    rcases Nat.lt_or_ge t.length v.length with h | h
    · exact h
    · exact absurd (hpre.eq_of_length_le h) hne
  by_cases h4 : t.length < 4
  · refine ⟨.inl h4, ?_⟩
    rintro _ ⟨x, n, rest, rfl, hx, _⟩
    have := lax_length hx
    rw [List.length_append] at h4
    omega
  cases h with
  | flush => exact absurd hlt (by simp; omega)
  | delim => exact absurd hlt (by simp; omega)
  | data h d hh =>
    have hl : Lax h (d.length + 4) := (lax_parse _ _).mp (parseHeader_isHeader _ hh)
    obtain ⟨x, rfl⟩ := List.prefix_of_prefix_length_le (List.prefix_append h d) hpre (by rw [lax_length hl]; omega)
    rw [List.length_append, List.length_append] at hlt
    refine ⟨.inr ⟨h, x, _, rfl, hl, by omega⟩, ?_⟩
    rintro hfit ⟨y, n, rest, he, hy, hn⟩
    have hfit : d.length ≤ 65516 := hfit
    have := (List.append_inj he (by rw [lax_length hl, lax_length hy])).1
    subst this
    have := lax_unique hl hy
    omega

/-- **C75.** Sessions in the format mean what C72 and C74 say. -/
theorem C75_extends {qs : List Said} {w : Bytes} (h : CutTalk mode text qs w) : Any mode text qs .fine w := by
  induction h with
  | eof hp => obtain ⟨p, v, h1, h2, h3⟩ := hp; exact .eof (laxPart_of h1 h2 h3).1
  | quit hl hF => exact .quit hl (laxFrame_of (frames_singleton hF))
  | heard he hF _ ih => exact .heard he (laxFrames_of hF) ih
  | @broken q ps w part hb hF =>
    cases hb with
    | @heard _ ps' _ _ hc hh hp =>
      obtain ⟨p, v, h1, h2, h3⟩ := hp
      refine .broken (.heard hc hh part_nil) (laxFrames_of hF) (laxPart_of h1 h2 h3).1 fun hu => absurd hu ?_
      cases hc with
      | args hl hc _ => exact not_uploading hl (by cases hc <;> simp)
      | batch hl _ _ => exact not_uploading hl (by simp)
      | batchNone hl _ => exact not_uploading hl (by simp)
      | batchArgs hl _ _ => exact not_uploading hl (by simp)
      | putArgs _ hl _ hn _ => exact not_uploading hl fun _ => hn
    | putArgs hm hl ho ha hp =>
      obtain ⟨p, v, h1, h2, h3⟩ := hp
      exact .broken (.putArgs hm hl ho ha part_nil) (laxFrames_of hF) (laxPart_of h1 h2 h3).1
        fun hu => absurd hu (not_uploading hl fun _ => areSized_delim ha)
    | putData hm hl ho ha hds hp =>
      obtain ⟨p, v, h1, hf, h2, h3⟩ := hp
      exact .broken (.putData hm hl ho ha hds ⟨.flush, _, .flush, trivial, List.nil_prefix, by decide⟩) (laxFrames_of hF)
        (laxPart_of h1 h2 h3).1 fun _ => (laxPart_of h1 h2 h3).2 hf

/-! ### What the server does with it -/

/-- **C75.** So the server does what the simple server does with these requests, whatever the bytes are. It ends with
code 0 or, if there is no header where it expects a request, with code 2 and a message. -/
theorem C75_session (hc : ∀ n, (ch n).fault = none) (hsha : ∀ b, (cfg.sha b).length = 32)
    (hclk : ∀ t, Clock cfg ch t → TimeOk cfg t) {qs : List Said} {e : Ending} {w : World} (hs : Any mode r.fin.text qs e r.input)
    (hr : Rep cfg s w.fs) (hp : r.pending = []) (hck : r.checked = false) (hfin : r.fin.kind = .unexpectedEof) :
    ((mainProg cfg (Mode.operation mode) r).run ch w).1 = e.exit ∧
    ∃ ws s', ((mainProg cfg (Mode.operation mode) r).run ch w).2.out = w.out ++ b!"000eversion=1\n0000" ++ ws.flatten ∧
      Conversation cfg mode ch s qs ws s' ∧ Rep cfg s' ((mainProg cfg (Mode.operation mode) r).run ch w).2.fs := by
  refine main_run (Q := fun w' => ∃ ws s', w'.out = w.out ++ b!"000eversion=1\n0000" ++ ws.flatten ∧
    Conversation cfg mode ch s qs ws s' ∧ Rep cfg s' w'.fs) ?_
  refine runs_mono (runs_of_stops (stops_program_any hc hsha hclk hs hp hck hfin hr)) ?_
  rintro x r' w' ⟨rfl, h⟩
  exact ⟨by cases e <;> decide, h⟩

/-- **C75.** And if it is killed, it has done some of them. -/
theorem C75_stopped (hc : ∀ n, (ch n).fault = none) (hsha : ∀ b, (cfg.sha b).length = 32)
    (hclk : ∀ t, Clock cfg ch t → TimeOk cfg t) {qs : List Said} {e : Ending} {w : World} (hs : Any mode r.fin.text qs e r.input)
    (hr : Rep cfg s w.fs) (hp : r.pending = []) (hck : r.checked = false) (hfin : r.fin.kind = .unexpectedEof) (n : Nat) :
    Progress cfg mode ch s qs (w.out ++ b!"000eversion=1\n0000") (stopped ch n (mainProg cfg (Mode.operation mode) r) w) := by
  refine stopped_wp (Q := fun _ => Progress cfg mode ch s qs (w.out ++ b!"000eversion=1\n0000")) n ?_ fun _ _ h => h
  unfold mainProg
  rw [Prog.wp_bind]
  refine Prog.wp_mono (stops_program_any hc hsha hclk hs hp hck hfin hr) ?_
  rintro ⟨x, r'⟩ w' ⟨hx, ws, s', h1, h2, h3⟩
  have fin : Progress cfg mode ch s qs (w.out ++ b!"000eversion=1\n0000") w' :=
    ⟨qs.length, ws, s', by rw [List.take_length]; exact h2, by rw [h1]; exact List.prefix_refl _, .inl h3⟩
  cases x with
  | ok _ => exact fin
  | err _ => exact fin
  | panic => exact fin

theorem heard_download {ps : List Packet} {q : Said} (h : Heard .download ps q) : Idle .download q := by
  cases q with
  | nonsense => exact idle_nonsense
  | ask q =>
    replace h : Spec.Means .download ps q := h
    cases h <;> exact idle_ask (by simp) (by simp) (by simp)

theorem any_download {qs : List Said} {e : Ending} {b : Bytes} (h : Any .download text qs e b) : ∀ q ∈ qs, Idle .download q := by
  induction h with
  | eof => simp
  | bad => simp
  | quit => intro q hq; rw [List.mem_singleton.mp hq]; exact idle_ask (by simp) (by simp) (by simp)
  | heard he _ _ ih => exact List.forall_mem_cons.mpr ⟨heard_download he, ih⟩
  | broken hb =>
    intro q hq
    rw [List.mem_singleton.mp hq]
    cases hb with
    | heard _ hh _ => exact heard_download hh
    | putArgs => exact idle_nonsense
    | putData => exact idle_nonsense
  | garbled _ _ _ _ ih => exact List.forall_mem_cons.mpr ⟨idle_nonsense, ih⟩
  | tooLong _ _ _ _ _ ih => exact List.forall_mem_cons.mpr ⟨idle_nonsense, ih⟩

theorem conversation_keeps {qs : List Said} {ws : List Bytes} {s' : Store} (h : Conversation cfg mode ch s qs ws s')
    (hq : ∀ q ∈ qs, Idle mode q) : s' = s := by
  induction h with
  | nil => rfl
  | @cons s s1 s2 q qs t t' a w ws _ _ hr _ _ ih =>
    have := hq q List.mem_cons_self cfg s t t'
    rw [hr] at this
    rw [ih fun q hm => hq q (List.mem_cons_of_mem _ hm)]
    exact this

/-- **C75.** A download server keeps the store, and ends in one of these two ways, for any bytes at all. -/
theorem C75_download (hc : ∀ n, (ch n).fault = none) (hsha : ∀ b, (cfg.sha b).length = 32)
    (hclk : ∀ t, Clock cfg ch t → TimeOk cfg t) {w : World} (hr : Rep cfg s w.fs) (hp : r.pending = [])
    (hck : r.checked = false) (hfin : r.fin.kind = .unexpectedEof) :
    ∃ qs e ws, Any .download r.fin.text qs e r.input ∧
      ((mainProg cfg b!"download" r).run ch w).1 = e.exit ∧
      ((mainProg cfg b!"download" r).run ch w).2.out = w.out ++ b!"000eversion=1\n0000" ++ ws.flatten ∧
      Conversation cfg .download ch s qs ws s ∧ Rep cfg s ((mainProg cfg b!"download" r).run ch w).2.fs := by
  obtain ⟨qs, e, h⟩ := C75_total (mode := .download) (text := r.fin.text) r.input (by simp)
  obtain ⟨h1, ws, s', h2, h3, h4⟩ := C75_session hc hsha hclk h hr hp hck hfin
  obtain rfl := conversation_keeps h3 (any_download h)
  exact ⟨qs, e, ws, h, h1, h2, h3, h4⟩

/-! ### Examples -/

namespace Tests

/-- A request of which the third packet is none; then an odd flush; then nothing like a packet. -/
def badWire : Bytes := b!"000eversion 1\n" ++ (b!"000ax=1\nyz" ++ (b!"0002" ++ (b!"g000" ++ b!"zzzz0008quit")))

theorem lax_of {h : Bytes} {n : Nat} (hh : parseHeader false h = .ok n) : Lax h n := (lax_parse h n).mp hh

theorem bad_of {h : Bytes} (h4 : h.length = 4) (hh : parseHeader false h = .ok 2 ∨ parseHeader false h = .ok 3 ∨
    parseHeader false h = .err (Err.simple .badPktlineHeader)) : BadHeader h := by
  refine ⟨h4, fun n hn => ?_⟩
  have := (lax_parse h n).mpr hn
  rcases hh with hh | hh | hh <;> rw [this] at hh <;> simp_all

example : Any .upload text [.nonsense 400 b!"error: malformed or unknown pkt-line header\n", .nonsense 400 b!"unknown command\n"] .bad
      badWire ∧
    ((server Tests.cfg b!"upload" badWire).run calm ⟨fs0, [], 0⟩).1 = ⟨2, b!"malformed or unknown pkt-line header\n"⟩ ∧
    ((server Tests.cfg b!"upload" badWire).run calm ⟨fs0, [], 0⟩).2.out = b!"000eversion=1\n0000" ++
      enc (Reply.packets ⟨400, b!"400", [], some [b!"error: malformed or unknown pkt-line header\n"]⟩) ++
      enc (Reply.packets ⟨400, b!"400", [], some [b!"unknown command\n"]⟩) := by
  refine ⟨?_, by decide +kernel, by decide +kernel⟩
  refine Any.garbled (ps := [.data b!"version 1\n", .data b!"x=1\nyz"]) (w := b!"000eversion 1\n" ++ b!"000ax=1\nyz") (h := b!"0002")
    (.args (ws := [b!"version", b!"1"]) (line_two (by decide) (by decide)) .version (by decide) (by decide) (by decide))
    (.cons (.data (h := b!"000e") (lax_of (by decide))) (.cons (w := b!"000ax=1\nyz") (ws := []) (.data (h := b!"000a") (lax_of (by decide))) .nil))
    (bad_of rfl (.inl (by decide))) ?_
  refine Any.heard (ps := [.flush]) (w := b!"g000") (.single .flush)
    (.cons (w := b!"g000") (ws := []) (.flush (lax_of (by decide))) .nil) ?_
  exact Any.bad (h := b!"zzzz") (bad_of rfl (.inr (.inr (by decide))))

/-- The header of a packet that is too long, in the data of an upload: what follows it is taken for requests. -/
def longWire : Bytes := enc [.data (b!"put-object " ++ oidA ++ b!"\n"), .data (argLine b!"size" b!"6"), .delim, .data b!"abc"] ++
  (b!"fff5" ++ b!"0009quit\n")

example : Any .upload text [.nonsense 500 (b!"internal error: fatal: I/O error: " ++ badHeader ++ b!"\n"), .ask .quit] .fine longWire ∧
    ((server Tests.cfg b!"upload" longWire).run calm ⟨fs0, [], 0⟩).1 = ⟨0, []⟩ ∧
    ((server Tests.cfg b!"upload" longWire).run calm ⟨fs0, [], 0⟩).2.out = b!"000eversion=1\n0000" ++
      enc (Reply.packets ⟨500, b!"500", [], some [b!"internal error: fatal: I/O error: malformed or unknown pkt-line header\n"]⟩) ++
      b!"000fstatus 200\n0000" := by
  refine ⟨?_, by decide +kernel, by decide +kernel⟩
  refine Any.tooLong (n := 65525) ?_ (laxFrames_of (frames_enc _ (by decide +kernel))) (lax_of (by decide)) (by decide) ?_
  · exact ⟨_, oidA, [], argPackets [(b!"size", b!"6")], [b!"abc"], rfl, rfl, line_two (a := b!"put-object") (by decide) (by decide),
      oidA_ok, ⟨_, b!"6", 6, by unfold ArgsOk; decide, rfl, by decide, num6⟩, by decide⟩
  · exact Any.quit (l := b!"quit\n") (w := b!"0009quit\n") (rest := []) (line_one (a := b!"quit") (by decide) (by decide))
      (.data (h := b!"0009") (lax_of (by decide)))

/-- The hypothesis of `C75_total` holds for these, and fails for this one. -/
example : OddAt (b!"000cunlock x" ++ b!"0000") :=
  ⟨[], b!"000c", b!"unlock x", b!"0000", b!"x", [], rfl, lax_of (by decide),
    ⟨_, .cons (by decide) (.one (by decide)), by decide, .inr ⟨rfl, by decide⟩⟩, utf8Valid_iff.mp (by decide), by
      intro h; have := (oidValid_iff _).mpr h; revert this; decide⟩

end Tests
end Verif
