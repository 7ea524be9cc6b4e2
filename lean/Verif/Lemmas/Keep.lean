import Verif.Lemmas.Own
import Verif.Lemmas.Rep
import Verif.Lemmas.Run
import Verif.Lemmas.SysInv
/-! Files that were there before the server started. -/
namespace Verif
open Spec FS.Evo
theorem sem_nodup (c : Choice) (fs : FS) (o : Op) (h : (fs.names.map (·.1)).Nodup) :
    ((sem c fs o).1.names.map (·.1)).Nodup := by
  cases o <;> simp only [sem] <;> (repeat' split) <;>
    first
    | exact h
    | exact alSet_nodup _ _ h
    | exact alDel_nodup _ h
    | exact alSet_nodup _ _ (alDel_nodup _ h)

theorem Prog.run_nodup {α : Type} (ch : Nat → Choice) (p : Prog α) : ∀ w : World, (w.fs.names.map (·.1)).Nodup →
    ((p.run ch w).2.fs.names.map (·.1)).Nodup := by
  induction p with
  | ret a => exact fun _ h => h
  | call o k ih => exact fun w h => ih _ _ (sem_nodup _ _ o h)

/-- Same content, same owner. -/
def SameFile (m n : Inode) : Prop := m.data = n.data ∧ m.uid = n.uid

theorem sem_keeps {c : Choice} {fs : FS} {o : Op} {i : Ino} (hi : i < fs.next) (hw : ∀ b, o ≠ .write i b) :
    SameFile ((sem c fs o).1.inodes i) (fs.inodes i) ∧ fs.next ≤ (sem c fs o).1.next := by
  have hne : i ≠ fs.next := Nat.ne_of_lt hi
  cases o with
  | write j b =>
    have : i ≠ j := by rintro rfl; exact hw b rfl
    simp only [sem]
    split <;> (simp only [FS.append, FS.setInode, if_neg this]; exact ⟨⟨rfl, rfl⟩, Nat.le_refl _⟩)
  | chmod p m =>
    simp only [sem]
    repeat' split
    all_goals first
      | exact ⟨⟨rfl, rfl⟩, Nat.le_refl _⟩
      | (simp only [FS.setInode]
         refine ⟨?_, Nat.le_refl _⟩
         split
         · rename_i e; rw [e]; exact ⟨rfl, rfl⟩
         · exact ⟨rfl, rfl⟩)
  | _ =>
    simp only [sem]
    repeat' split
    all_goals first
      | exact ⟨⟨rfl, rfl⟩, Nat.le_refl _⟩
      | (simp only [FS.create, if_neg hne]; exact ⟨⟨rfl, rfl⟩, Nat.le_succ _⟩)

theorem own_keeps {cfg : Cfg} {α : Type} {ch : Nat → Choice} {i : Ino} {p : Prog α} : ∀ {s : Own} {w : World} {Q},
    p.wp (Logic.own cfg) s Q → i ∉ s.inos → (∀ q j c, s.tmp = some (q, j, c) → j ≠ i) → i < w.fs.next →
    SameFile ((p.run ch w).2.fs.inodes i) (w.fs.inodes i) := by
  induction p with
  | ret a => exact fun _ _ _ _ => ⟨rfl, rfl⟩
  | call o k ih =>
    intro s w Q hw h1 h2 h3
    have hno : ∀ b, o ≠ .write i b := by
      rintro b rfl
      rcases hw.1 with ⟨q, c, h⟩ | ⟨h, _⟩
      · exact h2 _ _ _ h rfl
      · exact h1 h
    have hk := sem_keeps (c := ch w.tick) h3 hno
    have hk2 := ih (sem (ch w.tick) w.fs o).2 (w := ⟨(sem (ch w.tick) w.fs o).1, w.out ++ emitted (ch w.tick) o, w.tick + 1⟩)
      (hw.2 _ trivial) ?_ ?_ (Nat.lt_of_lt_of_le h3 hk.2)
    · exact ⟨hk2.1.trans hk.1.1, hk2.2.trans hk.1.2⟩
    · show i ∉ ((s.upd o _).inos)
      rw [Own.upd_inos]
      cases o with
      | createNew q u =>
        cases e : (sem (ch w.tick) w.fs (.createNew q u)).2 with
        | error _ => exact h1
        | ok j =>
          have : j = w.fs.next := by
            simp only [sem] at e
            repeat' split at e
            all_goals first | (cases e; rfl) | cases e
          exact fun hm => (List.mem_cons.mp hm).elim (fun h => Nat.ne_of_lt h3 (h.trans this)) h1
      | write j b => cases (sem (ch w.tick) w.fs (.write j b)).2 <;> (simp only [Own.base, Own.wrote]; repeat' split) <;> exact h1
      | rename q u => cases (sem (ch w.tick) w.fs (.rename q u)).2 <;> exact h1
      | createTemp d a u => cases (sem (ch w.tick) w.fs (.createTemp d a u)).2 <;> exact h1
      | unlink q => simp only [Own.base, Own.removed]; repeat' split
                    all_goals exact h1
      | _ => exact h1
    · show ∀ q j c, (s.upd o _).tmp = some (q, j, c) → j ≠ i
      rw [Own.upd_tmp]
      cases o with
      | createTemp d a u =>
        cases e : (sem (ch w.tick) w.fs (.createTemp d a u)).2 with
        | error _ => exact h2
        | ok v =>
          have : v.2 = w.fs.next := by
            simp only [sem] at e
            repeat' split at e
            all_goals first | (cases e; rfl) | cases e
          intro q j c h
          cases h
          have h4 : v.2 = w.fs.next := this
          exact fun h => Nat.ne_of_lt h3 (h.symm.trans h4)
      | write j b =>
        have key : ∀ ok q j' c, (s.wrote j b ok).tmp = some (q, j', c) → j' ≠ i := by
          intro ok q j' c h
          unfold Own.wrote at h
          split at h
          · rename_i p0 j0 c0 e0
            split at h
            · cases h; exact h2 _ _ _ e0
            · exact h2 _ _ _ h
          · exact h2 _ _ _ h
        cases (sem (ch w.tick) w.fs (.write j b)).2 <;> exact key _
      | rename q u =>
        cases (sem (ch w.tick) w.fs (.rename q u)).2 with
        | error _ => exact h2
        | ok _ => intro _ _ _ h; cases h
      | createNew q u => cases (sem (ch w.tick) w.fs (.createNew q u)).2 <;> exact h2
      | unlink q =>
        intro q' j c h
        simp only [Own.base, Own.removed] at h
        split at h
        · split at h
          · cases h
          · exact h2 _ _ _ h
        · exact h2 _ _ _ h
      | _ => exact h2

/-- The server leaves all files alone that were there before. (It may remove their names, or change their mode.) -/
theorem main_keeps (cfg : Cfg) (op : Bytes) (r : Rdr) (ch : Nat → Choice) (w : World) {i : Ino} (h : i < w.fs.next) :
    SameFile (((mainProg cfg op r).run ch w).2.fs.inodes i) (w.fs.inodes i) :=
  own_keeps (own_mainProg cfg op r) (by simp) (by simp) h

theorem Prog.run_next {α : Type} (ch : Nat → Choice) (p : Prog α) : ∀ w : World, w.fs.next ≤ (p.run ch w).2.fs.next := by
  induction p with
  | ret a => exact fun _ => Nat.le_refl _
  | call o k ih => exact fun w => Nat.le_trans (sem_next (ch w.tick) w.fs o) (ih _ ⟨_, _, _⟩)
end Verif
