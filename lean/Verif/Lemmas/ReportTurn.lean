import Verif.Lemmas.ReportList
/-! What a turn of the command loop answers, whatever the OS says. -/
namespace Verif
open Spec

variable {cfg : Cfg} {mode : Mode} {lax : Bool}

/-! ### The history, when what is written arrives -/

def Logic.outs : Logic (List Event) :=
  ⟨fun _ _ => True, fun s o x => s ++ [⟨o, x⟩], fun _ o x => Event.OutOk ⟨o, x⟩⟩

theorem outs_fold : ∀ (tr s : List Event), Logic.outs.fold s tr = s ++ tr
  | [], s => by simp [Logic.fold]
  | e :: tr, s => by
    simp only [Logic.fold]
    rw [outs_fold tr]
    simp [Logic.outs]

theorem outs_finished {α : Type} {m : M α} {r : Rdr} {Q : Res α → Rdr → List Event → Prop}
    (h : m.wp Logic.outs r [] Q) {tr x r'} (hf : (m r).Finished tr (x, r')) (ho : ∀ e ∈ tr, e.OutOk) : Q x r' tr := by
  have := Prog.wp_finished h hf (Logic.legalTr_of_forall fun e he _ => ho e he)
  rwa [outs_fold] at this

theorem outs_of_out {α : Type} {p : Prog α} {Q : α → Bytes → Prop} : ∀ {b : Bytes} {s u : List Event},
    p.wp (Logic.out false) b Q → output u = b →
    p.wp Logic.outs (s ++ u) (fun a s' => ∃ t, s' = s ++ t ∧ Q a (output t)) := by
  induction p with
  | ret a => intro b s u h e; exact ⟨u, rfl, e ▸ h⟩
  | call o k ih =>
    intro b s u h e
    refine ⟨trivial, fun x hx => ?_⟩
    have := ih x (s := s) (u := u ++ [⟨o, x⟩]) (h.2 x ⟨hx, fun h => by cases h⟩) ?_
    · rw [← List.append_assoc] at this
      exact this
    · rw [output_append, e]
      cases o <;> simp [output, Logic.out]

theorem outs_emits {m : M Unit} {b : Bytes} (h : m.Emits b) (r : Rdr) (s : List Event) :
    m.wp Logic.outs r s (fun x r' s' => x = .ok () ∧ r' = r ∧ ∃ t, s' = s ++ t ∧ output t = b) := by
  have := outs_of_out (s := s) (u := []) (h false r []) rfl
  rw [List.append_nil] at this
  refine Prog.wp_mono this ?_
  rintro ⟨x, r'⟩ s' ⟨t, rfl, h1, h2, h3⟩
  exact ⟨h1, h2, t, rfl, by simpa using h3⟩

/-- Sending a file. -/
theorem outs_sendReader (args : List Bytes) (h : Option Ino) (r : Rdr) (s : List Event) :
    (sendStatus (Status.newReader args h)).wp Logic.outs r s (fun x r' s' => r' = r ∧ ∃ t, s' = s ++ t ∧
      ((x = .ok () ∧ ∃ cs, (⟨.readAll h, (cs, none)⟩ : Event) ∈ t ∧
          output t = replyWith (Status.newReader args h) (some cs)) ∨
        ∃ e cs e', x = .err e ∧ (⟨.readAll h, (cs, some e')⟩ : Event) ∈ t)) := by
  show M.wp _ (send (b!"status " ++ dec3 200 ++ b!"\n") >>= fun _ => sendAll args >>= fun _ => do
    sendDelim; copyOut h; sendFlush) r s _
  rw [M.wp_bind]
  refine M.wp_mono (outs_emits (emits_send _) r s) ?_
  rintro x r1 s1 ⟨rfl, rfl, t1, rfl, o1⟩
  simp only [Res.elim_ok]
  rw [M.wp_bind]
  refine M.wp_mono (outs_emits (emits_sendAll args) _ _) ?_
  rintro x r2 s2 ⟨rfl, rfl, t2, rfl, o2⟩
  simp only [Res.elim_ok]
  rw [M.wp_bind]
  refine M.wp_mono (outs_emits emits_sendDelim _ _) ?_
  rintro x r3 s3 ⟨rfl, rfl, t3, rfl, o3⟩
  simp only [Res.elim_ok]
  rw [M.wp_bind]
  unfold copyOut
  rw [M.wp_bind, M.wp_op]
  refine ⟨trivial, fun y hy => ?_⟩
  obtain ⟨cs, e⟩ := y
  simp only [Res.elim_ok]
  rw [M.wp_bind]
  refine M.wp_mono (outs_emits (emits_sendAll cs) _ _) ?_
  rintro x r4 s4 ⟨rfl, rfl, t4, rfl, o4⟩
  simp only [Res.elim_ok]
  cases e with
  | some e =>
    exact ⟨rfl, t1 ++ (t2 ++ (t3 ++ (⟨.readAll h, (cs, some e)⟩ :: t4))), by simp [Logic.outs], .inr ⟨_, cs, e, rfl, by simp⟩⟩
  | none =>
    simp only [M.wp_pure, Res.elim_ok]
    refine M.wp_mono (outs_emits emits_sendFlush _ _) ?_
    rintro x r5 s5 ⟨rfl, rfl, t5, rfl, o5⟩
    refine ⟨rfl, t1 ++ (t2 ++ (t3 ++ (⟨.readAll h, (cs, none)⟩ :: (t4 ++ t5)))), by simp [Logic.outs], .inl ⟨rfl, cs, by simp, ?_⟩⟩
    have o6 : output (⟨.readAll h, (cs, none)⟩ :: (t4 ++ t5)) = output (t4 ++ t5) := rfl
    rw [output_append, output_append, output_append, o6, output_append, o1, o2, o3, o4, o5]
    simp [replyWith, replyHead, Status.newReader]

/-! ### A turn -/

/-- What a handler has found out, before its answer is sent. -/
def Replied (cfg : Cfg) (mode : Mode) (q : Request) (x : Res Status) (s : List Event) : Prop :=
  (∀ lax, Excuse lax s → Honest lax cfg mode q x s) ∨
  ∃ oid h st, q = .get oid ∧ x = .ok (Status.newReader [b!"size=" ++ decimal st.len ++ b!"\n"] h) ∧
    (⟨.openRead (.exact (objectFile cfg.root oid)), .ok h⟩ : Event) ∈ s ∧ (⟨.fstat h, .ok st⟩ : Event) ∈ s

/-- How a turn ends. -/
def TurnTold (cfg : Cfg) (mode : Mode) (q : Request) (x : Res Turn) (tr : List Event) : Prop :=
  x = .panic ∨
  (x = .ok (turnOf q) ∧ ∃ a, Sends a (output tr) ∧ ∀ lax, Excuse lax tr → Backed lax cfg mode tr q a) ∨
  ∃ e oid h cs e', x = .err e ∧ q = .get oid ∧ (⟨.readAll h, (cs, some e')⟩ : Event) ∈ tr

theorem sends_says {st : Status} {a : Answer} (h : Says st a) : Sends a (replyWith st st.messages) ∧
    (st.messages.isSome ∨ st.reader = none) := by
  obtain ⟨h1, h2⟩ := h
  split at h2
  · rename_i e
    exact ⟨sends_replyWith h1 (by rw [e, h2.1]; rfl), .inr h2.2⟩
  · rename_i ls e
    exact ⟨sends_replyWith h1 (by rw [e, h2.1]; exact ⟨_, rfl, linesPackets_msgChunks _ h2.2⟩), .inl (by simp [h2.1])⟩
  · exact h2.elim

theorem sending_sendStatus {st : Status} {r : Rdr} {t x} (h : (sendStatus st r).Finished t x) : Sending t := by
  intro e he
  exact (replies_sendStatus st r).did h.did e he

theorem says_unique {st : Status} {a b : Answer} (h : Says st a) (h' : Says st b) : a = b := by
  obtain ⟨h1, h2⟩ := h
  obtain ⟨k1, k2⟩ := h'
  obtain ⟨c, as, x⟩ := a
  obtain ⟨d, bs, y⟩ := b
  have e1 := h1.code.symm.trans k1.code
  have e2 := h1.args.symm.trans k1.args
  simp only at e1 e2
  subst e1 e2
  congr
  cases x <;> cases y <;> simp only [] at h2 k2 <;> first
    | rfl
    | exact h2.elim
    | exact k2.elim
    | (have := h2.1.symm.trans k2.1; cases this; try rfl)

theorem finished_sendStatus {q : Request} {y : Res Status} {st : Status} {r r' : Rdr} {s t : List Event} {x : Res Turn}
    (hy : outcome y = some st) (hh : Replied cfg mode q y s) (hq : q ≠ .quit) (os : output s = [])
    (hf : ((sendStatus st >>= fun _ => (pure Turn.again : M Turn)) r).Finished t (x, r')) (ho : ∀ e ∈ t, e.OutOk) :
    TurnTold cfg mode q x (s ++ t) := by
  obtain ⟨t1, t2, ⟨z, r1⟩, rfl, h1, h2⟩ := Prog.finished_bind.mp hf
  have hs := sending_sendStatus h1
  have hagain : turnOf q = .again := by cases q <;> first | rfl | exact absurd rfl hq
  rcases hh with hh | ⟨oid, h, stt, rfl, rfl, k1, k2⟩
  · have hne : y ≠ .panic := by rintro rfl; cases hy
    obtain ⟨st', a, e1, hsay, _⟩ := (hh true (.inl rfl)).resolve_left hne
    rw [hy] at e1
    cases e1
    obtain ⟨k1, k2⟩ := sends_says hsay
    obtain ⟨rfl, rfl, u, e, k3⟩ := outs_finished (outs_emits (emits_sendStatus st k2) r []) h1 (fun e he => ho e (by simp [he]))
    rw [List.nil_append] at e
    subst e
    cases h2
    refine .inr (.inl ⟨by rw [hagain], a, ?_, fun lax hl => ?_⟩)
    · rw [List.append_nil, output_append, os, List.nil_append, k3]
      exact k1
    · rw [List.append_nil] at hl ⊢
      obtain ⟨st', b, e1, hsay', hb⟩ := (hh lax hl.part).resolve_left hne
      rw [hy] at e1
      cases e1
      rw [says_unique hsay hsay']
      exact hb.add hs
  · cases hy
    obtain ⟨-, u, e, hu⟩ := outs_finished (outs_sendReader _ _ r []) h1 (fun e he => ho e (by simp [he]))
    rw [List.nil_append] at e
    subst e
    rcases hu with ⟨rfl, cs, k3, k4⟩ | ⟨e, cs, e', rfl, k3⟩
    · cases h2
      refine .inr (.inl ⟨by rw [hagain], ⟨200, [b!"size=" ++ decimal stt.len ++ b!"\n"], .raw cs.flatten⟩, ?_, fun lax _ => ?_⟩)
      · rw [List.append_nil, output_append, os, List.nil_append, k4]
        refine sends_replyWith ⟨rfl, c200, rfl, by simp⟩ ⟨_, rfl, msgChunks_flatten _⟩
      · exact .sent (h := h) (by simp [k1]) (by simp [k2]) (by simp [k3])
    · cases h2
      exact .inr (.inr ⟨e, oid, h, cs, e', rfl, rfl, by simp [k3]⟩)

/-- A command served by a handler. -/
theorem turn_told {q : Request} {l rest1 hw : Bytes} {r r' : Rdr} {cmd : Bytes} {args : List Bytes} {tr : List Event}
    {x : Res Turn} (hf : Spec.Frame (.data l) hw) (hi : r.input = hw ++ rest1) (hl : l ≠ [])
    (hwords : commandWords l = cmd :: args) (hq : cmd ≠ b!"quit") (hq' : q ≠ .quit)
    (hd : (dispatch cfg mode cmd args.head?).told { r with input := rest1 } [] (fun x _ s => Replied cfg mode q x s))
    (h : (turn cfg mode r).Finished tr (x, r')) (ho : ∀ e ∈ tr, e.OutOk) : TurnTold cfg mode q x tr := by
  have hq2 : ¬ ((commandWords l).head?.getD [] = b!"quit" ∧ (commandWords l).tail.head? = none) := by
    rw [hwords]
    exact fun h => hq h.1
  rw [turn_data cfg mode r _ l hl (readPacket_frame hf r rest1 hi), if_neg hq2, hwords] at h
  simp only [List.head?_cons, Option.getD_some, List.tail_cons] at h
  obtain ⟨u1, t2, ⟨res', r2'⟩, rfl, h1, h2⟩ := Prog.finished_bind.mp h
  obtain ⟨t1, u2, ⟨res, r2⟩, rfl, h3, h4⟩ := Prog.finished_bind.mp h1
  have hrep := hist_finished hd h3
  simp only [List.nil_append] at hrep
  have ht1 : output t1 = [] := by
    have hl : (Logic.out false).LegalTr [] t1 :=
      Logic.legalTr_of_forall fun e he s => ⟨ho e (by simp [he]), fun h => by cases h⟩
    have := Prog.wp_finished (wp_dispatch_out false cfg mode _ _ _ []) h3 hl
    rw [Logic.out_fold] at this
    simpa using this.1
  have ho2 : ∀ e ∈ t2, e.OutOk := fun e he => ho e (by simp [he])
  rcases res with st | e | _ <;> cases h4
  · rw [List.append_nil]
    exact finished_sendStatus rfl hrep hq' ht1 h2 ho2
  · rw [List.append_nil]
    exact finished_sendStatus rfl hrep hq' ht1 h2 ho2
  · cases h2
    exact .inl rfl

theorem told_replied {m : M Status} {q : Request} {r : Rdr} {s : List Event}
    (h : m.told r s (fun x _ s => ∀ lax, Excuse lax s → Honest lax cfg mode q x s)) :
    m.told r s (fun x _ s => Replied cfg mode q x s) := told_mono h fun _ _ _ h => .inl h

/-- **One request**, whatever the OS answers. -/
theorem turn_request {q : Request} {ps : List Packet} {wire rest : Bytes} {r r' : Rdr} {tr : List Event} {x : Res Turn}
    (hsha : ∀ b, (cfg.sha b).length = 32) (he : Encodes q ps) (hF : Frames ps wire) (hi : r.input = wire ++ rest)
    (hp : r.pending = []) (hal : Allowed mode q)
    (h : (turn cfg mode r).Finished tr (x, r')) (ho : ∀ e ∈ tr, e.OutOk) : TurnTold cfg mode q x tr := by
  have one : ∀ {m : M Status} {q : Request} {r : Rdr},
      (∀ lax, m.told r [] (fun x _ s => Honest lax cfg mode q x s)) →
      m.told r [] (fun x _ s => Replied cfg mode q x s) := fun h =>
    told_mono (told_forall h) fun _ _ _ h => .inl fun lax _ => h lax
  cases he with
  | @version l kv hl =>
    obtain ⟨v, u, rfl, hv, hu⟩ := frames_split (ps := [Packet.data l]) hF
    rw [List.append_assoc] at hi
    refine turn_told (frames_singleton hv) hi (isLine_ne hl (by simp))
      (cmd := b!"version") (args := [b!"1"]) ?_ (by decide) (by simp) (one fun lax => told_version (readToFlush_args hu rfl)) h ho
    rw [commandWords_line hl (by decide)]; decide
  | @quit l hl =>
    have hf := frames_singleton hF
    have hw : commandWords l = [b!"quit"] := by
      rw [commandWords_line hl (by decide)]; decide
    rw [turn_data cfg mode r _ l (isLine_ne hl (by simp)) (readPacket_frame hf r rest hi), hw] at h
    simp only [List.head?_cons, Option.getD_some, List.tail_cons, List.head?_nil, and_self] at h
    obtain ⟨t1, t2, ⟨z, r1⟩, rfl, h1, h2⟩ := Prog.finished_bind.mp h
    obtain ⟨k1, k2⟩ := sends_says says_success
    obtain ⟨rfl, rfl, u, e, k3⟩ := outs_finished (outs_emits (emits_sendStatus _ k2) _ []) h1 (fun e he => ho e (by simp [he]))
    rw [List.nil_append] at e
    subst e
    cases h2
    refine .inr (.inl ⟨rfl, _, ?_, fun _ _ => .quit⟩)
    rw [List.append_nil, k3]
    exact k1
  | @batch l kv items ls hl ha hh hb =>
    obtain ⟨v, u, rfl, hv, hu⟩ := frames_split (ps := [Packet.data l]) (by simpa using hF)
    have hu : Frames ((argPackets kv ++ [.delim]) ++ (ls.map .data ++ [.flush])) u := by simpa using hu
    obtain ⟨u1, u2, rfl, hu1, hu2⟩ := frames_split hu
    rw [List.append_assoc, List.append_assoc] at hi
    refine turn_told (frames_singleton hv) hi (isLine_ne hl (by simp))
      (cmd := b!"batch") (args := []) ?_ (by decide) (by simp) ?_ h ho
    · rw [commandWords_line hl (by decide)]; decide
    · cases mode with
      | upload => exact told_replied (told_batch ha hh hb hu1 hu2 rfl rfl)
      | download => exact told_replied (told_batch ha hh hb hu1 hu2 rfl rfl)
  | @put l kv oid sz data n ds ho' hl ha hs hn hds hdata =>
    obtain ⟨v, u, rfl, hv, hu⟩ := frames_split (ps := [Packet.data l]) (by simpa using hF)
    have hu : Frames ((argPackets kv ++ [.delim]) ++ (ds.map .data ++ [.flush])) u := by simpa using hu
    obtain ⟨u1, u2, rfl, hu1, hu2⟩ := frames_split hu
    rw [List.append_assoc, List.append_assoc] at hi
    obtain ⟨h1, h2⟩ := words_oid (cmd := b!"put-object") ho' (by decide) hl
    have hm : mode = .upload := hal
    subst hm hdata
    exact turn_told (frames_singleton hv) hi h2 h1 (by decide) (by simp)
      (one fun lax => told_put hsha ho' ha hs hn hds hu1 hu2 rfl hp) h ho
  | @verify l kv oid sz n ho' hl ha hs hn =>
    obtain ⟨v, u, rfl, hv, hu⟩ := frames_split (ps := [Packet.data l]) hF
    rw [List.append_assoc] at hi
    obtain ⟨h1, h2⟩ := words_oid (cmd := b!"verify-object") ho' (by decide) hl
    have hm : mode = .upload := hal
    subst hm
    exact turn_told (frames_singleton hv) hi h2 h1 (by decide) (by simp)
      (one fun lax => told_verify ho' ha hs hn hu rfl) h ho
  | @get l kv oid ho' hl ha =>
    obtain ⟨v, u, rfl, hv, hu⟩ := frames_split (ps := [Packet.data l]) hF
    rw [List.append_assoc] at hi
    obtain ⟨h1, h2⟩ := words_oid (cmd := b!"get-object") ho' (by decide) hl
    have hm : mode = .download := hal
    subst hm
    refine turn_told (frames_singleton hv) hi h2 h1 (by decide) (by simp) ?_ h ho
    refine told_mono (told_get (mode := .download) ho' ha hu rfl) ?_
    rintro x r s (k | ⟨k, st, k1, k2, k3⟩)
    · exact .inl fun lax _ => k lax
    · exact .inr ⟨oid, k, st, rfl, k1, k2, k3⟩
  | @lock l kv path ref hl ha hpa href =>
    obtain ⟨v, u, rfl, hv, hu⟩ := frames_split (ps := [Packet.data l]) hF
    rw [List.append_assoc] at hi
    have hm : mode = .upload := hal
    subst hm
    refine turn_told (frames_singleton hv) hi (isLine_ne hl (by simp)) (cmd := b!"lock") (args := []) ?_ (by decide)
      (by simp) (one fun lax => told_lock ha hpa href hu rfl) h ho
    rw [commandWords_line hl (by decide)]; decide
  | @listLocks l kv path cursor limit hl ha hlim hpa hcur =>
    obtain ⟨v, u, rfl, hv, hu⟩ := frames_split (ps := [Packet.data l]) hF
    rw [List.append_assoc] at hi
    refine turn_told (frames_singleton hv) hi (isLine_ne hl (by simp)) (cmd := b!"list-lock") (args := []) ?_ (by decide)
      (by simp) (told_replied (told_listLocks ha hlim hpa hcur hu rfl)) h ho
    rw [commandWords_line hl (by decide)]; decide
  | @unlock l kv id hid hl =>
    obtain ⟨v, u, rfl, hv, hu⟩ := frames_split (ps := [Packet.data l]) hF
    rw [List.append_assoc] at hi
    obtain ⟨h1, h2⟩ := words_oid (cmd := b!"unlock") hid (by decide) hl
    have hm : mode = .upload := hal
    subst hm
    exact turn_told (frames_singleton hv) hi h2 h1 (by decide) (by simp)
      (one fun lax => told_unlock (oid_utf8 hid) (readToFlush_args hu rfl)) h ho

end Verif
