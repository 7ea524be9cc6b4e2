import Verif.Lemmas.ServeMain
import Verif.Lemmas.OpsUsed
/-! From runs of the command loop to single replies. -/
namespace Verif
open Spec

variable {ch : Nat → Choice} {cfg : Cfg} {s : Store} {mode : Mode} {q : Request} {rest : Bytes} {r : Rdr} {w : World}

/-- One request: what the simple server answers, and its new state. -/
theorem Spec.Next.run (h : Next cfg mode ch s q rest r w) (hq : q ≠ .quit) :
    ∃ t t', Clock cfg ch t ∧ Clock cfg ch t' ∧ OneReply cfg mode ch rest r w fun reply fs' =>
      reply.code = (answer cfg mode s t t' q).1.code ∧
      LinesPackets (answer cfg mode s t t' q).1.args reply.args ∧
      BodyPackets (answer cfg mode s t t' q).1.body reply.data ∧ Rep cfg (answer cfg mode s t t' q).2 fs' ∧
      Ready cfg fs' := by
  obtain ⟨ps, u, he, hF, hi⟩ := h.wire
  have := (Prog.wp_run ch (turn cfg mode r) w _).mp
    (runs_turn h.calm h.sha h.clock he hF hi h.pending h.allowed h.rep h.ready)
  obtain ⟨h1, h2, t, t', b, ht, ht', hb, ⟨reply, k1, k2, k3, k4, k5⟩, hr, hd⟩ := this
  have htn : turnOf q = .again := by cases q <;> first | rfl | exact absurd rfl hq
  rw [htn] at h1
  exact ⟨t, t', ht, ht', Prod.ext h1 h2, reply, b, k1, k2, hb, k3, k4, k5, hr, hd⟩

theorem Spec.OneReply.mono {P Q : Reply → FS → Prop} (h : OneReply cfg mode ch rest r w P)
    (hpq : ∀ reply fs', reply.Ok → P reply fs' → Q reply fs') : OneReply cfg mode ch rest r w Q := by
  obtain ⟨h1, reply, b, h2, h3, h4, h5⟩ := h
  exact ⟨h1, reply, b, h2, h3, h4, hpq _ _ h2 h5⟩

/-! ### What the files say -/

theorem Spec.Rep.held (h : Rep cfg s w.fs) (id : Bytes) :
    held cfg.root w.fs id = (s.find cfg id).map fun l => (lockText l, l.uid) := by
  cases hf : s.find cfg id with
  | none =>
    have : w.fs.get (lockFile cfg.root id) = none := by
      rw [Option.eq_none_iff_forall_ne_some]
      intro i hi
      obtain ⟨l, hl, rfl⟩ := h.only id (by simp [hi])
      have := List.find?_eq_none.mp hf l hl
      simp at this
    simp [Spec.held, this]
  | some l =>
    have hl := List.mem_of_find?_eq_some hf
    have hn : lockName cfg.sha l.path = id := by
      have := List.find?_some hf
      simpa using this
    obtain ⟨i, h1, h2, h3⟩ := h.locks l hl
    rw [hn] at h1
    simp [Spec.held, h1, h2, h3]

theorem sameObjs_of {s s' : Store} {fs fs' : FS} (h : Rep cfg s fs) (h' : Rep cfg s' fs')
    (he : ∀ o, IsOid o → s'.objs o = s.objs o) : SameObjs cfg.root fs fs' := by
  intro o ho
  rw [h.objs o ho, h'.objs o ho, he o ho]

theorem rep_held {s : Store} {fs : FS} (h : Rep cfg s fs) (id : Bytes) :
    held cfg.root fs id = (s.find cfg id).map fun l => (lockText l, l.uid) :=
  Spec.Rep.held (w := ⟨fs, [], 0⟩) h id

theorem sameLocks_of {s s' : Store} {fs fs' : FS} (h : Rep cfg s fs) (h' : Rep cfg s' fs')
    (he : s'.locks = s.locks) : SameLocks cfg.root fs fs' := by
  intro id
  rw [rep_held h, rep_held h']
  simp only [Store.find, he]

/-! ### Commands that do not touch files -/

theorem Prog.All.run_fs {α : Type} {p : Prog α} (h : p.All fun o => o.mutates = false) (w : World) :
    (p.run ch w).2.fs = w.fs := by
  induction p generalizing w with
  | ret a => rfl
  | call o k ih =>
    simp only [Prog.run]
    rw [ih _ (h.2 _)]
    exact sem_not_mutates _ _ _ h.1

theorem M.All.at {α : Type} {P : Op → Prop} {m : M α} (h : m.All P) (r : Rdr) : (m r).All P := h r

/-- Requests that only ask. -/
def Asks : Request → Prop
  | .put _ _ _ | .lock _ | .unlock _ => False
  | _ => True

theorem looks_dispatch (h : Encodes q ps) (hq : Asks q) (hal : Allowed mode q) : ∃ l ps', ps = .data l :: ps' ∧
    ∃ cmd args, commandWords l = cmd :: args ∧ (dispatch cfg mode cmd args.head?).All Looks := by
  have hver := looks_versionCmd
  have hb := looks_batchCmd cfg
  have hv := looks_verifyObject cfg
  have hg := looks_getObject cfg
  have hl := looks_listLocks cfg
  cases h with
  | @version l kv h =>
    refine ⟨l, _, rfl, b!"version", [b!"1"], ?_, hver⟩
    rw [commandWords_line h (by decide)]; decide
  | @quit l h =>
    refine ⟨l, _, rfl, b!"quit", [], ?_, .pure _⟩
    rw [commandWords_line h (by decide)]; decide
  | @batch l kv items ls h =>
    refine ⟨l, _, rfl, b!"batch", [], ?_, ?_⟩
    · rw [commandWords_line h (by decide)]; decide
    · cases mode <;> exact hb _ _
  | put => exact hq.elim
  | @verify l kv oid sz n ho h =>
    obtain ⟨h1, h2⟩ := words_oid (cmd := b!"verify-object") ho (by decide) h
    have hm : mode = .upload := hal
    subst hm
    exact ⟨l, _, rfl, b!"verify-object", _, h1, hv oid⟩
  | @get l kv oid ho h =>
    obtain ⟨h1, h2⟩ := words_oid (cmd := b!"get-object") ho (by decide) h
    have hm : mode = .download := hal
    subst hm
    exact ⟨l, _, rfl, b!"get-object", _, h1, hg oid⟩
  | lock => exact hq.elim
  | @listLocks l kv path cursor limit h =>
    refine ⟨l, _, rfl, b!"list-lock", [], ?_, ?_⟩
    · rw [commandWords_line h (by decide)]; decide
    · exact hl _
  | unlock => exact hq.elim

theorem Spec.Next.fs (h : Next cfg mode ch s q rest r w) (hq : Asks q) :
    ((turn cfg mode r).run ch w).2.fs = w.fs := by
  obtain ⟨ps, u, he, hF, hi⟩ := h.wire
  obtain ⟨l, ps', rfl, cmd, args, hw, hd⟩ := looks_dispatch (cfg := cfg) he hq h.allowed
  obtain ⟨v, u', rfl, hv, hu⟩ := frames_split (ps := [Packet.data l]) hF
  rw [List.append_assoc] at hi
  have hd := hd.mono fun o ho => Looks.not_mutates ho
  have h2 := fun c m => (replies_sendError c m)
  have h3 := fun st => (replies_sendStatus st)
  refine (Prog.wp_run ch (turn cfg mode r) w (fun _ w' => w'.fs = w.fs)).mp ?_
  show (turn cfg mode).runs ch r w (fun _ _ w' => w'.fs = w.fs)
  unfold turn
  refine runs_bind (P := fun x r2 w2 => x = .ok (.ok (.data l)) ∧ w2 = w) ?_ ?_
  · unfold M.runs
    rw [M.wp_attempt, M.wp_rdr, readPacket_frame (frames_singleton hv) r _ hi]
    exact show _ ∧ _ from ⟨rfl, rfl⟩
  rintro x r2 w ⟨rfl, rfl⟩
  simp only [Res.elim_ok, Packet.data?, hw, List.head?_cons, Option.getD_some, List.tail_cons]
  unfold M.runs M.wp
  refine (Prog.wp_run ch _ w (fun _ w' => w'.fs = w.fs)).mpr ?_
  refine Prog.All.run_fs ?_ w
  refine M.All.at (P := fun o => o.mutates = false) ?_ r2
  split
  · exact .bind (h2 _ _) fun _ => .pure _
  · split
    · exact .bind (h3 _) fun _ => .pure _
    · refine .bind (.attempt hd) fun y => ?_
      split <;> exact .bind (h3 _) fun _ => .pure _

end Verif
