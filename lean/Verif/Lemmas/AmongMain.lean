import Verif.Lemmas.AmongCmd
/-! Turns and whole sessions among other processes. -/
namespace Verif
open Spec

variable {cfg : Cfg} {mode : Mode} {V : View cfg.root cfg.sha}

theorem Spec.Answers.objects {ρ : Execution} {i a e : Nat} {q : Request} {ans : Answer}
    (h : Answers ρ i cfg mode a e q ans) (hob : OnObjects q) : Answered ρ i cfg mode a e q ans := by
  cases q <;> first | exact h.1 | exact hob.elim

/-- What a turn started at moment `a` has to do for request `q`. -/
def View.Turned (V : View cfg.root cfg.sha) (mode : Mode) (q : Request) (tn : Turn) (r' : Rdr) (a : Nat)
    (x : Res Turn) (r : Rdr) (g : Gh) : Prop :=
  x = .ok tn ∧ r = r' ∧ ∃ e ans, a ≤ e ∧ e ≤ g.now ∧ V.ρ.out V.i a e = [] ∧
    Answers V.ρ V.i cfg mode a e q ans ∧ Sends ans (V.ρ.out V.i e g.now) ∧ V.ρ.Leaves cfg.root V.i e g.now none ∧
    V.ρ.LeavesLocks cfg.root V.i e g.now none

theorem amid_turn_handled {q : Request} {l rest1 : Bytes} {hw : Bytes} {r r' : Rdr} {g : Gh} {cmd : Bytes}
    {args : List Bytes} (hf : Spec.Frame (.data l) hw) (hi : r.input = hw ++ rest1) (hl : l ≠ [])
    (hwords : commandWords l = cmd :: args) (hq : cmd ≠ b!"quit")
    (hd : (dispatch cfg mode cmd args.head?).amid V { r with input := rest1 } g (V.Handled mode q r' g.now)) :
    (turn cfg mode).amid V r g (V.Turned mode q .again r' g.now) := by
  unfold turn
  refine amid_bind (P := fun x r2 g2 => x = .ok (.ok (.data l)) ∧ r2 = { r with input := rest1 } ∧ g2 = g) ?_ ?_
  · unfold M.amid
    rw [M.wp_attempt, M.wp_rdr, readPacket_frame hf r rest1 hi]
    exact show _ ∧ _ ∧ _ from ⟨rfl, rfl, rfl⟩
  rintro x r2 g ⟨rfl, rfl, rfl⟩
  simp only [Res.elim_ok, Packet.data?, hl, if_false, hwords, List.head?_cons, Option.getD_some, List.tail_cons, hq,
    false_and]
  refine amid_bind (P := fun x r2 g2 => ∃ y, V.Handled mode q r' g.now y r2 g2 ∧
    x = match y with | .ok st => .ok (.ok st) | .err e => .ok (.error e) | .panic => .panic) ?_ ?_
  · unfold M.amid
    rw [M.wp_attempt]
    refine M.wp_mono hd ?_
    rintro (st | e | _) r2 w2 h <;> exact ⟨_, h, rfl⟩
  rintro x r2 g2 ⟨y, ⟨rfl, st, ans, hy, h1, h2, h3, h4⟩, rfl⟩
  have fin : (sendStatus st >>= fun _ => (pure Turn.again : M Turn)).amid V r2 g2
      (V.Turned mode q .again r2 g.now) := by
    refine amid_bind (amid_status h4) ?_
    rintro x r3 g3 ⟨rfl, rfl, f1, b, f2, f3⟩
    exact ⟨rfl, rfl, g2.now, ans, h1, f2.le, h2, h3, by rw [f2.out]; exact f3, f2.leaves, f2.locks⟩
  cases y with
  | ok st' => cases hy; exact fin
  | err e => cases hy; exact fin
  | panic => cases hy

/-- **One request.** -/
theorem amid_turn {q : Request} {ps : List Packet} {wire rest : Bytes} {r : Rdr} {g : Gh}
    (hsha : ∀ b, (cfg.sha b).length = 32)
    (he : Encodes q ps) (hF : Frames ps wire) (hi : r.input = wire ++ rest) (hp : r.pending = [])
    (hal : Allowed mode q) (hob : OnObjects q) (hd : Ready cfg (V.fs g.now)) :
    (turn cfg mode).amid V r g (V.Turned mode q (turnOf q) { r with input := rest } g.now) := by
  cases he with
  | @version l kv hl =>
    obtain ⟨v, u, rfl, hv, hu⟩ := frames_split (ps := [Packet.data l]) hF
    rw [List.append_assoc] at hi
    refine amid_turn_handled (frames_singleton hv) hi (isLine_ne hl (by simp))
      (cmd := b!"version") (args := [b!"1"]) ?_ (by decide) ?_
    · rw [commandWords_line hl (by decide)]; decide
    · exact amid_version hu rfl
  | @quit l hl =>
    have hf := frames_singleton hF
    unfold turn
    refine amid_bind (P := fun x r2 g2 => x = .ok (.ok (.data l)) ∧ r2 = { r with input := rest } ∧ g2 = g) ?_ ?_
    · unfold M.amid
      rw [M.wp_attempt, M.wp_rdr, readPacket_frame hf r rest hi]
      exact show _ ∧ _ ∧ _ from ⟨rfl, rfl, rfl⟩
    rintro x r2 g2 ⟨rfl, rfl, rfl⟩
    have hw : commandWords l = [b!"quit"] := by
      rw [commandWords_line hl (by decide)]; decide
    have hne : l ≠ [] := isLine_ne hl (by simp)
    simp only [Res.elim_ok, Packet.data?, hne, if_false, hw, List.head?_cons, Option.getD_some, List.tail_cons,
      List.head?_nil, and_self, if_true]
    refine amid_bind (amid_status (st := Status.success) (a := ⟨200, [], .none⟩)
      ⟨⟨rfl, c200, rfl, by simp⟩, rfl, rfl⟩) ?_
    rintro x r3 g3 ⟨rfl, rfl, f1, b, f2, f3⟩
    exact ⟨rfl, rfl, g2.now, _, Nat.le_refl _, f2.le, out_self _ _ _,
      ⟨⟨rfl, (View.Span.refl (V := V) _).leaves⟩, (View.Span.refl (V := V) _).locks⟩, by rw [f2.out]; exact f3, f2.leaves, f2.locks⟩
  | @batch l kv items ls hl ha hh hb =>
    obtain ⟨v, u, rfl, hv, hu⟩ := frames_split (ps := [Packet.data l]) (by simpa using hF)
    have hu : Frames ((argPackets kv ++ [.delim]) ++ (ls.map .data ++ [.flush])) u := by simpa using hu
    obtain ⟨u1, u2, rfl, hu1, hu2⟩ := frames_split hu
    rw [List.append_assoc, List.append_assoc] at hi
    refine amid_turn_handled (frames_singleton hv) hi (isLine_ne hl (by simp))
      (cmd := b!"batch") (args := []) ?_ (by decide) ?_
    · rw [commandWords_line hl (by decide)]; decide
    · cases mode with
      | upload => exact amid_batch ha hh hb hu1 hu2 rfl rfl
      | download => exact amid_batch ha hh hb hu1 hu2 rfl rfl
  | @put l kv oid sz data n ds ho hl ha hs hn hds hdata =>
    obtain ⟨v, u, rfl, hv, hu⟩ := frames_split (ps := [Packet.data l]) (by simpa using hF)
    have hu : Frames ((argPackets kv ++ [.delim]) ++ (ds.map .data ++ [.flush])) u := by simpa using hu
    obtain ⟨u1, u2, rfl, hu1, hu2⟩ := frames_split hu
    rw [List.append_assoc, List.append_assoc] at hi
    obtain ⟨h1, h2⟩ := words_oid (cmd := b!"put-object") ho (by decide) hl
    have hm : mode = .upload := hal
    subst hm hdata
    exact amid_turn_handled (frames_singleton hv) hi h2 h1 (by decide)
      (amid_put hsha ho ha hs hn hds hu1 hu2 rfl hp hd)
  | @verify l kv oid sz n ho hl ha hs hn =>
    obtain ⟨v, u, rfl, hv, hu⟩ := frames_split (ps := [Packet.data l]) hF
    rw [List.append_assoc] at hi
    obtain ⟨h1, h2⟩ := words_oid (cmd := b!"verify-object") ho (by decide) hl
    have hm : mode = .upload := hal
    subst hm
    exact amid_turn_handled (frames_singleton hv) hi h2 h1 (by decide) (amid_verify ho ha hs hn hu rfl)
  | @get l kv oid ho hl ha =>
    obtain ⟨v, u, rfl, hv, hu⟩ := frames_split (ps := [Packet.data l]) hF
    rw [List.append_assoc] at hi
    obtain ⟨h1, h2⟩ := words_oid (cmd := b!"get-object") ho (by decide) hl
    have hm : mode = .download := hal
    subst hm
    exact amid_turn_handled (frames_singleton hv) hi h2 h1 (by decide) (amid_get ho ha hu rfl)
  | lock => exact hob.elim
  | listLocks => exact hob.elim
  | unlock => exact hob.elim

theorem amid_turn_eof {r : Rdr} {g : Gh} (hi : r.input = []) (hfin : r.fin.kind = .unexpectedEof) :
    (turn cfg mode).amid V r g (fun x r' g' => x = .ok .done ∧ r' = r ∧ g' = g) := by
  have h : r.readPacket = (.err (Err.ofIo r.fin), r) := by
    obtain ⟨i, p, f, c⟩ := r
    simp only at hi
    subst hi
    rfl
  unfold turn
  refine amid_bind (P := fun x r2 g2 => x = .ok (.error (Err.ofIo r.fin)) ∧ r2 = r ∧ g2 = g) ?_ ?_
  · unfold M.amid
    rw [M.wp_attempt, M.wp_rdr, h]
    exact show _ ∧ _ ∧ _ from ⟨rfl, rfl, rfl⟩
  rintro x r2 g2 ⟨rfl, rfl, rfl⟩
  have hk : (Err.ofIo r2.fin).ioKind = .unexpectedEof := hfin
  simp only [Res.elim_ok, hk, if_true]
  exact ⟨rfl, rfl, rfl⟩

theorem View.ready_le {a b : Nat} (hd : Ready cfg (V.fs a)) (h : a ≤ b) : Ready cfg (V.fs b) :=
  fun d hd' => V.env.dirs_le h (near_of_prefix (topDirs_below hd')) (hd d hd')

theorem amid_process (hsha : ∀ b, (cfg.sha b).length = 32) {qs : List Request} {wire : Bytes}
    (hs : Session mode qs wire) (hob : ∀ q ∈ qs, OnObjects q) :
    ∀ (f : Nat) (r : Rdr) (g : Gh), r.input = wire → r.pending = [] →
    r.fin.kind = .unexpectedEof → wire.length < f → Ready cfg (V.fs g.now) →
    (processF cfg mode f).amid V r g (fun x _ g' => x = .ok () ∧ g.now ≤ g'.now ∧
      ServedIn V.ρ V.i cfg mode g.now qs g'.now) := by
  induction hs with
  | eof =>
    intro f r g hi hp hfin hf hd
    obtain ⟨f, rfl⟩ : ∃ g, f = g + 1 := ⟨f - 1, by omega⟩
    rw [processF]
    refine amid_bind (amid_turn_eof hi hfin) ?_
    rintro x r' g' ⟨rfl, rfl, rfl⟩
    exact ⟨rfl, Nat.le_refl _, .nil⟩
  | @quit ps w1 rest he hF =>
    intro f r g hi hp hfin hf hd
    obtain ⟨f, rfl⟩ : ∃ g, f = g + 1 := ⟨f - 1, by omega⟩
    rw [processF]
    refine amid_bind (amid_turn hsha he hF hi hp trivial trivial hd) ?_
    rintro x r' g' ⟨rfl, rfl, e, ans, h1, h2, h3, h4, h5, h6, _⟩
    exact ⟨rfl, Nat.le_trans h1 h2, .cons h1 h2 h3 (h4.objects trivial) h5 h6 .nil⟩
  | @cons q qs ps w1 ws he hF hal hq hS ih =>
    intro f r g hi hp hfin hf hd
    obtain ⟨f, rfl⟩ : ∃ g, f = g + 1 := ⟨f - 1, by omega⟩
    rw [processF]
    refine amid_bind (amid_turn hsha he hF hi hp hal (hob _ (by simp)) hd) ?_
    rintro x r' g' ⟨rfl, rfl, e, ans, h1, h2, h3, h4, h5, h6, _⟩
    have hlen : 4 ≤ w1.length := by
      have := frames_length hF
      have := List.length_pos_iff.mpr (encodes_ne he)
      omega
    have htn : turnOf q = .again := by
      cases q <;> first | rfl | exact absurd rfl hq
    rw [htn]
    simp only [Res.elim_ok]
    refine amid_mono (ih (fun q hq => hob q (by simp [hq])) f _ g' rfl hp hfin
      (by simp only [List.length_append] at hf; omega) (View.ready_le hd (Nat.le_trans h1 h2))) ?_
    rintro x r2 g2 ⟨rfl, k1, k2⟩
    exact ⟨rfl, Nat.le_trans (Nat.le_trans h1 h2) k1, .cons h1 h2 h3 (h4.objects (hob _ (by simp))) h5 h6 k2⟩

theorem amid_mkdirs : ∀ (ds : List Path) (r : Rdr) (g : Gh), (∀ d ∈ ds, d ∈ topDirs cfg.root) →
    (mkdirs ds).amid V r g (fun x r' g' => x = .ok () ∧ r' = r ∧ V.Span g.now g'.now [] ∧
      ∀ d ∈ ds, d ∈ (V.fs g'.now).dirs)
  | [], _, _, _ => ⟨rfl, rfl, .refl _, by simp⟩
  | d :: ds, r, g, hds => by
    have hskel : SkelDir cfg.root d := .inl (hds d (by simp))
    rw [mkdirs]
    refine amid_op_bind fun x n h => ?_
    obtain ⟨c, hc, hsem⟩ := h.sem rfl
    rw [sem_mkdirAll hc ((V.env.tidy n).noFile _ hskel)] at hsem
    have hx := congrArg Prod.snd hsem
    subst hx
    refine amid_ofIo_bind ?_
    have hne : d ≠ [] := by
      rcases hskel with h | ⟨oid, _, rfl⟩
      · simp only [topDirs, List.mem_cons, List.not_mem_nil, or_false] at h
        rcases h with rfl | rfl | rfl | rfl <;> simp
      · simp [objectDir]
    have hdir : d ∈ (V.fs (n + 1)).dirs := by
      have := isDir_mkdirAll (fs := V.fs n) hne
      have hf : (V.fs n).addDirs ((pathPrefixes d).filter (fun q => !(V.fs n).isDir q)) =
          V.fs (n + 1) := congrArg Prod.fst hsem
      rw [hf, isDir_iff] at this
      exact this.resolve_left hne
    refine amid_mono (amid_mkdirs ds r _ (fun x hx => hds x (by simp [hx]))) ?_
    rintro x r2 g2 ⟨h1, h2, h3, h4⟩
    refine ⟨h1, h2, (h.span rfl).trans0 h3, ?_⟩
    intro x hx
    rcases List.mem_cons.mp hx with rfl | hx
    · exact V.env.dirs_le h3.le (near_of_prefix (topDirs_below (hds _ List.mem_cons_self))) hdir
    · exact h4 x hx

theorem amid_program (hsha : ∀ b, (cfg.sha b).length = 32) {qs : List Request} {wire : Bytes}
    (hs : Session mode qs wire) (hob : ∀ q ∈ qs, OnObjects q)
    {r : Rdr} {g : Gh} (hi : r.input = wire) (hp : r.pending = []) (hfin : r.fin.kind = .unexpectedEof) :
    (runProgram cfg (Mode.operation mode)).amid V r g (fun x _ g' => x = .ok () ∧ ∃ a,
      V.Span g.now a b!"000eversion=1\n0000" ∧ a ≤ g'.now ∧ ServedIn V.ρ V.i cfg mode a qs g'.now) := by
  unfold runProgram
  refine amid_bind (P := fun x r' g' => x = .ok () ∧ r' = r ∧ V.Span g.now g'.now [] ∧ Ready cfg (V.fs g'.now))
    (amid_mkdirs (V := V) (topDirs cfg.root) r g (fun _ h => h)) ?_
  rintro x r' g1 ⟨rfl, rfl, e1, hd1⟩
  simp only [Res.elim_ok]
  refine amid_bind (says_sendCapabilities V r' g1) ?_
  rintro x r2 g2 ⟨rfl, rfl, _, e3⟩
  have hcap : encMsg b!"version=1\n" ++ b!"0000" = b!"000eversion=1\n0000" := by decide
  rw [hcap] at e3
  simp only [Res.elim_ok]
  have main := amid_process (V := V) hsha hs hob (r2.input.length + 1) r2 g2 hi hp hfin (by rw [hi]; omega)
    (View.ready_le hd1 e3.le)
  have main' : (processF cfg mode (r2.input.length + 1)).amid V r2 g2 (fun x _ g' => x = .ok () ∧ ∃ a,
      V.Span g.now a b!"000eversion=1\n0000" ∧ a ≤ g'.now ∧ ServedIn V.ρ V.i cfg mode a qs g'.now) := by
    refine amid_mono main ?_
    rintro x r3 g3 ⟨h1, h2, h3⟩
    exact ⟨h1, _, e1.trans0 e3, h2, h3⟩
  cases mode with
  | upload => exact main'
  | download => exact main'

/-- A whole server among others. -/
theorem served_among {ρ : Execution} {i : Nat} {r : Rdr} {qs : List Request} {wire : Bytes}
    (hstart : ρ.Begins cfg.root cfg.sha) (htidy : Tidy cfg.root (ρ.st 0).fs)
    (hp : (ρ.st 0).procs i = mainProg cfg (Mode.operation mode) r)
    (hsha : ∀ b, (cfg.sha b).length = 32) (hs : Session mode qs wire) (hob : ∀ q ∈ qs, OnObjects q)
    (hi : r.input = wire) (hpend : r.pending = []) (hfin : r.fin.kind = .unexpectedEof)
    (hc : ∀ N, ρ.NoFault i N) (hk : ∀ N, ρ.NotKilled i N) {N : Nat} {x : Exit} (hx : (ρ.st N).procs i = .ret x) :
    x = ⟨0, []⟩ ∧ ∃ a b, a ≤ b ∧ b ≤ N ∧ ρ.out i 0 a = b!"000eversion=1\n0000" ∧ ρ.Leaves cfg.root i 0 a none ∧
      ServedIn ρ i cfg mode a qs b ∧ ∀ n, b ≤ n → n < N → ¬ ρ.By i n := by
  obtain ⟨ow, E, hE⟩ := Env.of_start hstart htidy hc
  obtain ⟨next, hnext⟩ := isNext_exists ρ i
  let V : View cfg.root cfg.sha := ⟨ρ, i, ow, next, E, hnext⟩
  have hw : ((ρ.st 0).procs i).wp (Logic.among ρ i ow next) ⟨0, ow 0 i⟩ (fun x g => x = ⟨0, []⟩ ∧ ∃ a,
      V.Span 0 a b!"000eversion=1\n0000" ∧ a ≤ g.now ∧ ServedIn ρ i cfg mode a qs g.now) := by
    rw [hp]
    unfold mainProg
    rw [Prog.wp_bind]
    refine Prog.wp_mono (amid_program (V := V) hsha hs hob hi hpend hfin) ?_
    rintro ⟨(a | e | _), r'⟩ g' h'
    · exact ⟨rfl, h'.2⟩
    · cases h'.1
    · cases h'.1
  obtain ⟨g, hu, _, hw⟩ := among_follow E hk hnext hw N
  rw [hx] at hw
  obtain ⟨h1, a, h2, h3, h4⟩ := hw
  exact ⟨h1, a, g.now, h3, hu.le, h2.out, h2.leaves, h4, hu.idle⟩

end Verif
