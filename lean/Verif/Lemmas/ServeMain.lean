import Verif.Lemmas.ServeTurn
/-! Whole sessions, run alone without I/O errors. -/
namespace Verif
open Spec

variable {ch : Nat → Choice} {cfg : Cfg} {s : Store} {mode : Mode}

theorem runs_turn_eof {r : Rdr} {w : World} (hi : r.input = []) (hfin : r.fin.kind = .unexpectedEof) :
    (turn cfg mode).runs ch r w (fun x r' w' => x = .ok .done ∧ r' = r ∧ w' = w) := by
  have h : r.readPacket = (.err (Err.ofIo r.fin), r) := by
    obtain ⟨i, p, f, c⟩ := r
    simp only at hi
    subst hi
    rfl
  unfold turn
  refine runs_bind (P := fun x r2 w2 => x = .ok (.error (Err.ofIo r.fin)) ∧ r2 = r ∧ w2 = w) ?_ ?_
  · unfold M.runs
    rw [M.wp_attempt, M.wp_rdr, h]
    exact show _ ∧ _ ∧ _ from ⟨rfl, rfl, rfl⟩
  rintro x r2 w2 ⟨rfl, rfl, rfl⟩
  have hk : (Err.ofIo r2.fin).ioKind = .unexpectedEof := hfin
  simp only [Res.elim_ok, hk, if_true]
  exact ⟨rfl, rfl, rfl⟩

theorem encodes_ne {q : Request} {ps : List Packet} (h : Encodes q ps) : ps ≠ [] := by
  cases h <;> simp

theorem runs_process (hc : Calm ch) (hsha : ∀ b, (cfg.sha b).length = 32)
    (hclk : ∀ t, Clock cfg ch t → TimeOk cfg t) {qs : List Request} {wire : Bytes} (hs : Session mode qs wire) :
    ∀ (s : Store) (f : Nat) (r : Rdr) (w : World), r.input = wire → r.pending = [] →
    r.fin.kind = .unexpectedEof → wire.length < f → Rep cfg s w.fs → Ready cfg w.fs →
    (processF cfg mode f).runs ch r w (fun x _ w' => x = .ok () ∧ ∃ b s', w'.out = w.out ++ b ∧
      Served cfg mode ch s qs b s' ∧ Rep cfg s' w'.fs ∧ Ready cfg w'.fs) := by
  induction hs with
  | eof =>
    intro s f r w hi hp hfin hf hr hd
    obtain ⟨f, rfl⟩ : ∃ g, f = g + 1 := ⟨f - 1, by omega⟩
    rw [processF]
    refine runs_bind (runs_turn_eof hi hfin) ?_
    rintro x r' w' ⟨rfl, rfl, rfl⟩
    exact ⟨rfl, [], s, by simp, .nil, hr, hd⟩
  | @quit ps w1 rest he hF =>
    intro s f r w hi hp hfin hf hr hd
    obtain ⟨f, rfl⟩ : ∃ g, f = g + 1 := ⟨f - 1, by omega⟩
    rw [processF]
    refine runs_bind (runs_turn hc hsha hclk he hF hi hp trivial hr hd) ?_
    rintro x r' w' ⟨rfl, rfl, t, t', b, ht, ht', h1, h2, h3, h4⟩
    refine ⟨rfl, b, _, h1, ?_, h3, h4⟩
    rw [← List.append_nil b]
    exact .cons ht ht' rfl h2 .nil
  | @cons q qs ps w1 ws he hF hal hq hS ih =>
    intro s f r w hi hp hfin hf hr hd
    obtain ⟨f, rfl⟩ : ∃ g, f = g + 1 := ⟨f - 1, by omega⟩
    rw [processF]
    refine runs_bind (runs_turn hc hsha hclk he hF hi hp hal hr hd) ?_
    rintro x r' w' ⟨rfl, rfl, t, t', b, ht, ht', h1, h2, h3, h4⟩
    have hlen : 4 ≤ w1.length := by
      have := frames_length hF
      have := List.length_pos_iff.mpr (encodes_ne he)
      omega
    have htn : turnOf q = .again := by
      cases q <;> first | rfl | exact absurd rfl hq
    rw [htn]
    simp only [Res.elim_ok]
    refine runs_mono (ih _ f _ w' rfl hp hfin (by simp only [List.length_append] at hf; omega) h3 h4) ?_
    rintro x r2 w2 ⟨rfl, b2, s2, g1, g2, g3, g4⟩
    refine ⟨rfl, b ++ b2, s2, by rw [g1, h1, List.append_assoc], ?_, g3, g4⟩
    exact .cons ht ht' rfl h2 g2

theorem stops_mkdirs {I : World → Prop} (hc : Calm ch) : ∀ (ds : List Path) (r : Rdr) (w : World), (∀ d ∈ ds, d ∈ topDirs cfg.root) →
    Rep cfg s w.fs → (∀ w', w'.out = w.out → Rep cfg s w'.fs → I w') → (mkdirs ds).stops ch I r w (fun x r' w' => x = .ok () ∧ r' = r ∧ w'.out = w.out ∧
      Rep cfg s w'.fs ∧ (∀ q, q ∈ w.fs.dirs → q ∈ w'.fs.dirs) ∧ ∀ d ∈ ds, d ∈ w'.fs.dirs)
  | [], _, _, _, hr, _ => ⟨rfl, rfl, rfl, hr, fun _ h => h, by simp⟩
  | d :: ds, r, w, hds, hr, hI => by
    have hskel : SkelDir cfg.root d := .inl (hds d (by simp))
    rw [mkdirs]
    refine stops_op_bind (hI w rfl hr) (sem_mkdirAll (hc _) fun q hq => hr.noFile d hskel q hq) (fun _ => rfl) ?_
    intro w' e1 e2
    refine stops_ofIo_bind ?_
    have hevo : FS.Evo cfg.root w.fs.next w.fs w'.fs := by
      rw [e1]
      exact FS.Evo.addDirs _ _ fun q hq => ⟨d, hskel, mem_pathPrefixes (List.mem_filter.mp hq).1⟩
    have hr' : Rep cfg s w'.fs := hr.same hevo fun q _ => by rw [e1]; rfl
    have hne : d ≠ [] := by
      rcases hskel with h | ⟨oid, _, rfl⟩
      · simp only [topDirs, List.mem_cons, List.not_mem_nil, or_false] at h
        rcases h with rfl | rfl | rfl | rfl <;> simp
      · simp [objectDir]
    have hdir : d ∈ w'.fs.dirs := by
      have := isDir_mkdirAll (fs := w.fs) hne
      rw [← e1, isDir_iff] at this
      exact this.resolve_left hne
    refine stops_mono (stops_mkdirs hc ds r w' (fun x hx => hds x (by simp [hx])) hr'
      fun w'' g1 g2 => hI w'' (g1.trans e2) g2) ?_
    rintro x r2 w2 ⟨h1, h2, h3, h4, h5, h6⟩
    refine ⟨h1, h2, h3.trans e2, h4, fun q hq => h5 q (hevo.keep q hq), ?_⟩
    intro x hx
    rcases List.mem_cons.mp hx with rfl | hx
    · exact h5 _ hdir
    · exact h6 x hx

theorem stops_createDirectories {I : World → Prop} (hc : Calm ch) {r : Rdr} {w : World} (hr : Rep cfg s w.fs)
    (hI : ∀ w', w'.out = w.out → Rep cfg s w'.fs → I w') :
    (createDirectories cfg).stops ch I r w (fun x r' w' => x = .ok () ∧ r' = r ∧ w'.out = w.out ∧
      Rep cfg s w'.fs ∧ Ready cfg w'.fs) := by
  refine stops_mono (stops_mkdirs (cfg := cfg) hc (topDirs cfg.root) r w (fun _ h => h) hr hI) ?_
  rintro x r' w' ⟨h1, h2, h3, h4, _, h6⟩
  exact ⟨h1, h2, h3, h4, h6⟩

theorem runs_createDirectories (hc : Calm ch) {r : Rdr} {w : World} (hr : Rep cfg s w.fs) :
    (createDirectories cfg).runs ch r w (fun x r' w' => x = .ok () ∧ r' = r ∧ w'.out = w.out ∧
      Rep cfg s w'.fs ∧ Ready cfg w'.fs) :=
  runs_of_stops (I := fun _ => True) (stops_createDirectories hc hr fun _ _ _ => trivial)

theorem runs_program (hc : Calm ch) (hsha : ∀ b, (cfg.sha b).length = 32)
    (hclk : ∀ t, Clock cfg ch t → TimeOk cfg t) {qs : List Request} {wire : Bytes} (hs : Session mode qs wire)
    {r : Rdr} {w : World} (hi : r.input = wire) (hp : r.pending = []) (hfin : r.fin.kind = .unexpectedEof)
    (hr : Rep cfg s w.fs) :
    (runProgram cfg (Mode.operation mode)).runs ch r w (fun x _ w' => x = .ok () ∧ ∃ b s',
      w'.out = w.out ++ b!"000eversion=1\n0000" ++ b ∧
      Served cfg mode ch s qs b s' ∧ Rep cfg s' w'.fs ∧ Ready cfg w'.fs) := by
  unfold runProgram
  refine runs_bind (runs_createDirectories hc hr) ?_
  rintro x r' w1 ⟨rfl, rfl, e1, hr1, hd1⟩
  simp only [Res.elim_ok]
  refine runs_bind (prints_sendCapabilities ch r' w1 hc) ?_
  rintro x r2 w2 ⟨rfl, rfl, e2, e3⟩
  have hcap : encMsg b!"version=1\n" ++ b!"0000" = b!"000eversion=1\n0000" := by decide
  rw [hcap] at e3
  simp only [Res.elim_ok]
  have main := runs_process hc hsha hclk hs s (r2.input.length + 1) r2 w2 hi hp hfin (by rw [hi]; omega)
    (by rw [e2]; exact hr1) (by rw [e2]; exact hd1)
  have main' : (processF cfg mode (r2.input.length + 1)).runs ch r2 w2 (fun x _ w' => x = .ok () ∧ ∃ b s',
      w'.out = w.out ++ b!"000eversion=1\n0000" ++ b ∧
      Served cfg mode ch s qs b s' ∧ Rep cfg s' w'.fs ∧ Ready cfg w'.fs) := by
    refine runs_mono main ?_
    rintro x r3 w3 ⟨h1, b, s', h2, h3⟩
    exact ⟨h1, b, s', by rw [h2, e3, e1], h3⟩
  cases mode with
  | upload => exact main'
  | download => exact main'

theorem main_run {x : Exit} {op : Bytes} {r : Rdr} {w : World} {Q : World → Prop}
    (h : (runProgram cfg op).runs ch r w (fun y _ w' => (match y with
      | .ok _ => (⟨ExitStatus.success.code, []⟩ : Exit)
      | .err e => ⟨e.exitStatus.code, e.display ++ b!"\n"⟩
      | .panic => ⟨101, []⟩) = x ∧ Q w')) :
    ((mainProg cfg op r).run ch w).1 = x ∧ Q ((mainProg cfg op r).run ch w).2 := by
  have := (Prog.wp_run ch (mainProg cfg op r) w (fun y w' => y = x ∧ Q w')).mp ?_
  · exact this
  · unfold mainProg
    rw [Prog.wp_bind]
    refine Prog.wp_mono h ?_
    rintro ⟨(a | e | _), r'⟩ w' h' <;> exact h'

end Verif
