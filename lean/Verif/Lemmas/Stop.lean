import Verif.Lemmas.Run
import Verif.Lemmas.OpsUsed
/-! Running code alone, without I/O errors, and what holds whenever it is stopped. -/
namespace Verif
open Spec

/-- The logic of `Logic.run` in which `I` has to hold before each call. -/
def Logic.stop (ch : Nat → Choice) (I : World → Prop) : Logic World where
  pre w _ := I w
  upd := (Logic.run ch).upd
  legal := (Logic.run ch).legal

/-- `m` can be run from `r` and `w` with the given outcome, and `I` holds before each call. -/
abbrev M.stops {α : Type} (ch : Nat → Choice) (I : World → Prop) (m : M α) (r : Rdr) (w : World)
    (Q : Res α → Rdr → World → Prop) : Prop := m.wp (Logic.stop ch I) r w Q

variable {ch : Nat → Choice} {I : World → Prop}

theorem Prog.run_of_stop {α : Type} {p : Prog α} {w : World} {Q : α → World → Prop} (h : p.wp (Logic.stop ch I) w Q) :
    p.wp (Logic.run ch) w Q := by
  induction p generalizing w with
  | ret a => exact h
  | call o k ih => exact ⟨trivial, fun x hx => ih x (h.2 x hx)⟩

theorem runs_of_stops {α : Type} {m : M α} {r : Rdr} {w : World} {Q} (h : m.stops ch I r w Q) : m.runs ch r w Q :=
  Prog.run_of_stop h

theorem stops_of_runs {α : Type} {m : M α} {r : Rdr} {w : World} {Q} (h : m.runs ch r w Q) :
    m.stops ch (fun _ => True) r w Q := by
  have : ∀ {β : Type} {p : Prog β} {w : World} {Q : β → World → Prop}, p.wp (Logic.run ch) w Q →
      p.wp (Logic.stop ch fun _ => True) w Q := by
    intro β p
    induction p with
    | ret a => exact id
    | call o k ih => exact fun h => ⟨trivial, fun x hx => ih x (h.2 x hx)⟩
  exact this h

theorem Prog.stop_mono {α : Type} {p : Prog α} {w : World} {Q : α → World → Prop} {I' : World → Prop}
    (h : p.wp (Logic.stop ch I) w Q) (hi : ∀ w, I w → I' w) : p.wp (Logic.stop ch I') w Q := by
  induction p generalizing w with
  | ret a => exact h
  | call o k ih => exact ⟨hi _ h.1, fun x hx => ih x (h.2 x hx)⟩

theorem stops_weaken {α : Type} {m : M α} {r : Rdr} {w : World} {Q} {I' : World → Prop} (h : m.stops ch I r w Q)
    (hi : ∀ w, I w → I' w) : m.stops ch I' r w Q := Prog.stop_mono h hi

theorem stops_op_bind {α : Type} {o : Op} {f : Resp o → M α} {r : Rdr} {w : World} {Q}
    {fs' : FS} {x : Resp o} (hI : I w) (h : sem (ch w.tick) w.fs o = (fs', x)) (he : ∀ c, emitted c o = [])
    (k : ∀ w', w'.fs = fs' → w'.out = w.out → (f x).stops ch I r w' Q) : (M.op o >>= f).stops ch I r w Q := by
  unfold M.stops
  rw [M.wp_bind, M.wp_op]
  refine ⟨hI, fun y hy => ?_⟩
  have hy : y = (sem (ch w.tick) w.fs o).2 := hy
  rw [h] at hy
  subst hy
  refine k _ ?_ ?_
  · simp [Logic.stop, Logic.run, h]
  · simp [Logic.stop, Logic.run, he]

theorem stops_bind {α β : Type} {m : M α} {f : α → M β} {r : Rdr} {w : World} {Q} {P : Res α → Rdr → World → Prop}
    (h : m.stops ch I r w P) (k : ∀ x r' w', P x r' w' → x.elim (fun a => (f a).stops ch I r' w' Q)
      (fun e => Q (.err e) r' w') (Q .panic r' w')) : (m >>= f).stops ch I r w Q := by
  unfold M.stops
  rw [M.wp_bind]
  exact M.wp_mono h k

/-- Sequencing after a success. -/
theorem stops_seq {α β : Type} {m : M α} {f : α → M β} {r : Rdr} {w : World} {Q} {P : α → Rdr → World → Prop}
    (h : m.stops ch I r w (fun x r' w' => ∃ a, x = .ok a ∧ P a r' w'))
    (k : ∀ a r' w', P a r' w' → (f a).stops ch I r' w' Q) : (m >>= f).stops ch I r w Q := by
  refine stops_bind h ?_
  rintro x r' w' ⟨a, rfl, hp⟩
  exact k a r' w' hp

theorem stops_mono {α : Type} {m : M α} {r : Rdr} {w : World} {Q Q' : Res α → Rdr → World → Prop}
    (h : m.stops ch I r w Q) (hq : ∀ a r s, Q a r s → Q' a r s) : m.stops ch I r w Q' := M.wp_mono h hq

theorem stops_rdr_bind {α β : Type} {g : Rdr → Res α × Rdr} {f : α → M β} {r r' : Rdr} {w : World} {Q} {a : α}
    (h : g r = (.ok a, r')) (k : (f a).stops ch I r' w Q) : (M.rdr g >>= f).stops ch I r w Q := by
  unfold M.stops
  rw [M.wp_bind, M.wp_rdr, h]
  exact k

theorem stops_ofRes_bind {α β : Type} {x : Res α} {f : α → M β} {r : Rdr} {w : World} {Q} {a : α}
    (h : x = .ok a) (k : (f a).stops ch I r w Q) : (M.ofRes x >>= f).stops ch I r w Q := by
  subst h; exact k

theorem stops_ofIo_bind {α β : Type} {f : α → M β} {r : Rdr} {w : World} {Q} {a : α}
    (k : (f a).stops ch I r w Q) : (M.ofIo (.ok a) >>= f).stops ch I r w Q := k

theorem stops_pure_bind {α β : Type} {f : α → M β} {r : Rdr} {w : World} {Q} {a : α}
    (k : (f a).stops ch I r w Q) : ((Pure.pure a : M α) >>= f).stops ch I r w Q := k

theorem stops_congr {α : Type} {m m' : M α} {r r' : Rdr} {w : World} {Q : Res α → Rdr → World → Prop} (h : m r = m' r')
    (hm : m'.stops ch I r' w Q) : m.stops ch I r w Q := by
  unfold M.stops M.wp at hm ⊢
  rw [h]
  exact hm

/-! ### Code that changes nothing -/

theorem Prog.run_out {α : Type} (ch : Nat → Choice) (p : Prog α) (w : World) : w.out <+: (p.run ch w).2.out := by
  induction p generalizing w with
  | ret a => exact List.prefix_refl _
  | call o k ih =>
    have h1 : w.out <+: w.out ++ emitted (ch w.tick) o := List.prefix_append _ _
    rw [Prog.run]
    exact h1.trans (ih _ ⟨_, _, _⟩)

/-- Whenever code that changes no files is stopped, the files are as before and it has written some of what it will
write. -/
theorem Prog.stop_still {α : Type} {p : Prog α} (hp : p.All (fun o => o.mutates = false)) : ∀ (w : World) {Q : α → World → Prop},
    p.wp (Logic.run ch) w Q →
    p.wp (Logic.stop ch (fun w' => w'.fs = w.fs ∧ w.out <+: w'.out ∧ ∃ a wf, Q a wf ∧ w'.out <+: wf.out)) w
      (fun a w' => Q a w' ∧ w'.fs = w.fs ∧ w.out <+: w'.out) := by
  induction p with
  | ret a => exact fun w Q h => ⟨h, rfl, List.prefix_refl _⟩
  | call o k ih =>
    intro w Q h
    refine ⟨⟨rfl, List.prefix_refl _, ?_⟩, fun x hx => ?_⟩
    · rw [Prog.wp_run] at h
      exact ⟨_, _, h, Prog.run_out _ _ _⟩
    · have := ih x (hp.2 x) _ (h.2 x hx)
      have e1 : ((Logic.run ch).upd w o x).fs = w.fs := sem_not_mutates _ _ _ hp.1
      have e2 : w.out <+: ((Logic.run ch).upd w o x).out := List.prefix_append _ _
      refine Prog.stop_mono (Prog.wp_mono this ?_) ?_
      · rintro a w' ⟨h1, h2, h3⟩
        exact ⟨h1, h2.trans e1, e2.trans h3⟩
      · rintro w' ⟨h1, h2, h3⟩
        exact ⟨h1.trans e1, e2.trans h2, h3⟩

theorem stops_still {α : Type} {m : M α} {r : Rdr} {w : World} {Q : Res α → Rdr → World → Prop}
    (hm : (m r).All (fun o => o.mutates = false)) (h : m.runs ch r w Q)
    (hI : ∀ w', w'.fs = w.fs → w.out <+: w'.out → (∃ x r' wf, Q x r' wf ∧ w'.out <+: wf.out) → I w') :
    m.stops ch I r w (fun x r' w' => Q x r' w' ∧ w'.fs = w.fs ∧ w.out <+: w'.out) := by
  refine Prog.stop_mono (Prog.stop_still hm w h) ?_
  rintro w' ⟨h1, h2, a, wf, h3, h4⟩
  exact hI w' h1 h2 ⟨_, _, wf, h3, h4⟩

/-- The same for code that only looks at files. -/
theorem Prog.stop_looks {α : Type} {p : Prog α} (hp : p.All Looks) : ∀ (w : World) {Q : α → World → Prop},
    p.wp (Logic.run ch) w Q → (∀ w', w'.fs = w.fs → w'.out = w.out → I w') → p.wp (Logic.stop ch I) w Q := by
  induction p with
  | ret a => exact fun w Q h _ => h
  | call o k ih =>
    intro w Q h hI
    refine ⟨hI w rfl rfl, fun x hx => ih x (hp.2 x) _ (h.2 x hx) ?_⟩
    have e1 : ((Logic.run ch).upd w o x).fs = w.fs := sem_not_mutates _ _ _ hp.1.not_mutates
    have e2 : ((Logic.run ch).upd w o x).out = w.out := by
      have : o.outputs = false := hp.1.quiet
      have : emitted (ch w.tick) o = [] := by cases o <;> first | (cases this; done) | rfl
      simp [Logic.run, this]
    exact fun w' h1 h2 => hI w' (h1.trans e1) (h2.trans e2)

theorem stops_looks {α : Type} {m : M α} {r : Rdr} {w : World} {Q : Res α → Rdr → World → Prop}
    (hm : m.All Looks) (h : m.runs ch r w Q) (hI : ∀ w', w'.fs = w.fs → w'.out = w.out → I w') : m.stops ch I r w Q :=
  Prog.stop_looks (hm r) w h hI

end Verif
