import Verif.Lemmas.Fuel
/-! Programs do not depend on input they have not read. -/
namespace Verif

/-- `s` is `r` with the unread input `x` replaced by `v`, and another end of the input. -/
def Rdr.Like (x v : Bytes) (fin : IoErr) (r s : Rdr) : Prop :=
  ∃ a, r.input = a ++ x ∧ s = { r with input := a ++ v, fin := fin }

/-- The same for a function that only reads. -/
def Causal {α : Type} (g : Rdr → Res α × Rdr) : Prop :=
  ∀ r, (g r).2.input <:+ r.input ∧ ∀ x v fin s, x ≠ [] → x <:+ (g r).2.input → Rdr.Like x v fin r s →
    ∃ s', Rdr.Like x v fin (g r).2 s' ∧ g s = ((g r).1, s')

/-- What has not been read, and is not empty, can be replaced by anything. -/
def M.Causal {α : Type} (m : M α) : Prop :=
  ∀ r tr y r', (m r).Finished tr (y, r') → r'.input <:+ r.input ∧
    ∀ x v fin s, x ≠ [] → x <:+ r'.input → Rdr.Like x v fin r s →
      ∃ s', Rdr.Like x v fin r' s' ∧ (m s).Finished tr (y, s')

namespace M.Causal
variable {α β : Type}

theorem ret {m : M α} {y : Res α} (h : ∀ r, m r = .ret (y, r)) : m.Causal := by
  intro r tr z r' hf
  rw [h] at hf
  cases hf
  refine ⟨List.suffix_refl _, fun x v fin s _ _ hs => ⟨s, hs, ?_⟩⟩
  rw [h]
  exact .ret

theorem pure (a : α) : (Pure.pure a : M α).Causal := ret fun _ => rfl
theorem pure' (a : α) : (M.pure a : M α).Causal := ret fun _ => rfl
theorem throw (e : Err) : (M.throw e : M α).Causal := ret fun _ => rfl
theorem panic : (M.panic : M α).Causal := ret fun _ => rfl
theorem ofRes (x : Res α) : (M.ofRes x).Causal := ret fun _ => rfl
theorem ofIo (x : Except IoErr α) : (M.ofIo x).Causal := by
  cases x with
  | ok a => exact pure' a
  | error e => exact throw _

theorem op (o : Op) : (M.op o).Causal := by
  intro r tr z r' hf
  cases hf with
  | call hf =>
    cases hf
    exact ⟨List.suffix_refl _, fun x v fin s _ _ hs => ⟨s, hs, .call .ret⟩⟩

theorem rdr {g : Rdr → Res α × Rdr} (h : Verif.Causal g) : (M.rdr g).Causal := by
  intro r tr z r' hf
  have e : M.rdr g r = .ret (g r) := rfl
  rw [e] at hf
  have : z = (g r).1 ∧ r' = (g r).2 ∧ tr = [] := by
    generalize g r = q at hf
    cases hf
    exact ⟨rfl, rfl, rfl⟩
  obtain ⟨rfl, rfl, rfl⟩ := this
  refine ⟨(h r).1, fun x v fin s hx h1 h2 => ?_⟩
  obtain ⟨s', k1, k2⟩ := (h r).2 x v fin s hx h1 h2
  refine ⟨s', k1, ?_⟩
  show (Prog.ret (g s)).Finished [] _
  rw [k2]
  exact .ret

theorem bind {m : M α} {f : α → M β} (h : m.Causal) (hf : ∀ a, (f a).Causal) : (m >>= f).Causal := by
  intro r tr y r' hfin
  obtain ⟨t1, t2, ⟨z, r1⟩, rfl, h1, h2⟩ := Prog.finished_bind.mp hfin
  obtain ⟨k1, k2⟩ := h _ _ _ _ h1
  cases z with
  | ok a =>
    obtain ⟨k3, k4⟩ := hf a _ _ _ _ h2
    refine ⟨k3.trans k1, fun x v fin s hx hs hl => ?_⟩
    obtain ⟨s1, l1, l2⟩ := k2 x v fin s hx (hs.trans k3) hl
    obtain ⟨s2, l3, l4⟩ := k4 x v fin s1 hx hs l1
    exact ⟨s2, l3, Prog.finished_bind.mpr ⟨t1, t2, (.ok a, s1), rfl, l2, l4⟩⟩
  | err e =>
    cases h2
    refine ⟨k1, fun x v fin s hx hs hl => ?_⟩
    obtain ⟨s1, l1, l2⟩ := k2 x v fin s hx hs hl
    exact ⟨s1, l1, Prog.finished_bind.mpr ⟨t1, [], (.err e, s1), rfl, l2, .ret⟩⟩
  | panic =>
    cases h2
    refine ⟨k1, fun x v fin s hx hs hl => ?_⟩
    obtain ⟨s1, l1, l2⟩ := k2 x v fin s hx hs hl
    exact ⟨s1, l1, Prog.finished_bind.mpr ⟨t1, [], (.panic, s1), rfl, l2, .ret⟩⟩

theorem attempt {m : M α} (h : m.Causal) : (M.attempt m).Causal := by
  intro r tr y r' hfin
  obtain ⟨t1, t2, ⟨z, r1⟩, rfl, h1, h2⟩ := Prog.finished_bind.mp hfin
  obtain ⟨k1, k2⟩ := h _ _ _ _ h1
  cases z with
  | ok a =>
    cases h2
    refine ⟨k1, fun x v fin s hx hs hl => ?_⟩
    obtain ⟨s1, l1, l2⟩ := k2 x v fin s hx hs hl
    exact ⟨s1, l1, Prog.finished_bind.mpr ⟨t1, [], (.ok a, s1), rfl, l2, .ret⟩⟩
  | err e =>
    cases h2
    refine ⟨k1, fun x v fin s hx hs hl => ?_⟩
    obtain ⟨s1, l1, l2⟩ := k2 x v fin s hx hs hl
    exact ⟨s1, l1, Prog.finished_bind.mpr ⟨t1, [], (.err e, s1), rfl, l2, .ret⟩⟩
  | panic =>
    cases h2
    refine ⟨k1, fun x v fin s hx hs hl => ?_⟩
    obtain ⟨s1, l1, l2⟩ := k2 x v fin s hx hs hl
    exact ⟨s1, l1, Prog.finished_bind.mpr ⟨t1, [], (.panic, s1), rfl, l2, .ret⟩⟩

theorem after {m : M α} {c : M Unit} (h : m.Causal) (hc : c.Causal) : (M.after m c).Causal := by
  intro r tr y r' hfin
  obtain ⟨t1, t2, ⟨z, r1⟩, rfl, h1, h2⟩ := Prog.finished_bind.mp hfin
  obtain ⟨t3, t4, ⟨z2, r2⟩, rfl, h3, h4⟩ := Prog.finished_bind.mp h2
  obtain ⟨k1, k2⟩ := h _ _ _ _ h1
  obtain ⟨k3, k4⟩ := hc _ _ _ _ h3
  cases h4
  refine ⟨k3.trans k1, fun x v fin s hx hs hl => ?_⟩
  obtain ⟨s1, l1, l2⟩ := k2 x v fin s hx (hs.trans k3) hl
  obtain ⟨s2, l3, l4⟩ := k4 x v fin s1 hx hs l1
  exact ⟨s2, l3, Prog.finished_bind.mpr ⟨t1, _, (y, s1), rfl, l2,
    Prog.finished_bind.mpr ⟨t3, [], (z2, s2), rfl, l4, .ret⟩⟩⟩

theorem onFail {m : M α} {c : M Unit} (h : m.Causal) (hc : c.Causal) : (M.onFail m c).Causal := by
  intro r tr y r' hfin
  obtain ⟨t1, t2, ⟨z, r1⟩, rfl, h1, h2⟩ := Prog.finished_bind.mp hfin
  obtain ⟨k1, k2⟩ := h _ _ _ _ h1
  cases z with
  | ok a =>
    cases h2
    refine ⟨k1, fun x v fin s hx hs hl => ?_⟩
    obtain ⟨s1, l1, l2⟩ := k2 x v fin s hx hs hl
    exact ⟨s1, l1, Prog.finished_bind.mpr ⟨t1, [], (.ok a, s1), rfl, l2, .ret⟩⟩
  | err e =>
    obtain ⟨t3, t4, ⟨z2, r2⟩, rfl, h3, h4⟩ := Prog.finished_bind.mp h2
    obtain ⟨k3, k4⟩ := hc _ _ _ _ h3
    cases h4
    refine ⟨k3.trans k1, fun x v fin s hx hs hl => ?_⟩
    obtain ⟨s1, l1, l2⟩ := k2 x v fin s hx (hs.trans k3) hl
    obtain ⟨s2, l3, l4⟩ := k4 x v fin s1 hx hs l1
    exact ⟨s2, l3, Prog.finished_bind.mpr ⟨t1, _, (.err e, s1), rfl, l2,
      Prog.finished_bind.mpr ⟨t3, [], (z2, s2), rfl, l4, .ret⟩⟩⟩
  | panic =>
    obtain ⟨t3, t4, ⟨z2, r2⟩, rfl, h3, h4⟩ := Prog.finished_bind.mp h2
    obtain ⟨k3, k4⟩ := hc _ _ _ _ h3
    cases h4
    refine ⟨k3.trans k1, fun x v fin s hx hs hl => ?_⟩
    obtain ⟨s1, l1, l2⟩ := k2 x v fin s hx (hs.trans k3) hl
    obtain ⟨s2, l3, l4⟩ := k4 x v fin s1 hx hs l1
    exact ⟨s2, l3, Prog.finished_bind.mpr ⟨t1, _, (.panic, s1), rfl, l2,
      Prog.finished_bind.mpr ⟨t3, [], (z2, s2), rfl, l4, .ret⟩⟩⟩

end M.Causal

/-! ### Reading packets -/

theorem Rdr.Like.checked {x v : Bytes} {fin : IoErr} {r s : Rdr} (h : Rdr.Like x v fin r s) : s.checked = r.checked := by
  obtain ⟨a, _, rfl⟩ := h; rfl

theorem Rdr.Like.pending {x v : Bytes} {fin : IoErr} {r s : Rdr} (h : Rdr.Like x v fin r s) : s.pending = r.pending := by
  obtain ⟨a, _, rfl⟩ := h; rfl

theorem like_readExact {x v : Bytes} {fin : IoErr} {r s r' : Rdr} {n : Nat} {d : Except IoErr Bytes} (hx : x ≠ [])
    (h : r.readExact n = (d, r')) (hs : x <:+ r'.input) (hl : Rdr.Like x v fin r s) :
    ∃ s', Rdr.Like x v fin r' s' ∧ s.readExact n = (d, s') := by
  obtain ⟨a, ha, rfl⟩ := hl
  unfold Rdr.readExact at h
  split at h
  · rename_i hn
    cases h
    have hlen := hs.length_le
    simp only [List.length_drop] at hlen
    have hx' : 0 < x.length := List.length_pos_iff.mpr hx
    rw [ha, List.length_append] at hlen hn
    have hna : n ≤ a.length := by omega
    refine ⟨_, ⟨a.drop n, ?_, rfl⟩, ?_⟩
    · simp only [ha, List.drop_append_of_le_length hna]
    · unfold Rdr.readExact
      rw [if_pos (by simp; omega)]
      simp only [ha, List.take_append_of_le_length hna, List.drop_append_of_le_length hna]
  · cases h
    exact absurd (List.suffix_nil.mp hs) hx

theorem readExact_suffix {r r' : Rdr} {n : Nat} {d : Except IoErr Bytes} (h : r.readExact n = (d, r')) :
    r'.input <:+ r.input := by
  unfold Rdr.readExact at h
  split at h <;> cases h
  · exact List.drop_suffix _ _
  · exact List.nil_suffix

theorem causal_readPacket : Causal Rdr.readPacket := by
  intro r
  have key : ∀ y r', r.readPacket = (y, r') → r'.input <:+ r.input ∧ ∀ x v fin s, x ≠ [] → x <:+ r'.input →
      Rdr.Like x v fin r s → ∃ s', Rdr.Like x v fin r' s' ∧ s.readPacket = (y, s') := by
    intro y r' h
    refine ⟨(readPacket_adv h).suffix, fun x v fin s hx hs hl => ?_⟩
    unfold Rdr.readPacket at h ⊢
    rcases h1 : r.readExact 4 with ⟨e | hdr, r1⟩
    · rw [h1] at h
      cases h
      obtain ⟨s1, l1, l2⟩ := like_readExact hx h1 hs hl
      rw [l2]
      exact ⟨s1, l1, rfl⟩
    · rw [h1] at h
      simp only at h
      have done : ∀ {z : Res Packet}, (z, r1) = (y, r') → ∃ s1, Rdr.Like x v fin r' s1 ∧
          s.readExact 4 = (.ok hdr, s1) ∧ z = y ∧ s1.checked = r1.checked := by
        rintro z hz
        cases hz
        obtain ⟨s1, l1, l2⟩ := like_readExact hx h1 hs hl
        exact ⟨s1, l1, l2, rfl, l1.checked⟩
      rcases hh : parseHeader r1.checked hdr with size | e | _
      · rw [hh] at h
        simp only at h
        split at h
        · obtain ⟨s1, l1, l2, rfl, l3⟩ := done h
          rw [l2]
          simp only [l3, hh]
          exact ⟨s1, l1, by simp [*]⟩
        · split at h
          · obtain ⟨s1, l1, l2, rfl, l3⟩ := done h
            rw [l2]
            simp only [l3, hh]
            exact ⟨s1, l1, by simp [*]⟩
          · split at h
            · obtain ⟨s1, l1, l2, rfl, l3⟩ := done h
              rw [l2]
              simp only [l3, hh]
              exact ⟨s1, l1, by simp [*]⟩
            · rcases h2 : r1.readExact (size - 4) with ⟨e | d, r2⟩
              · rw [h2] at h
                cases h
                obtain ⟨s1, l1, l2⟩ := like_readExact hx h1 (hs.trans (readExact_suffix h2)) hl
                obtain ⟨s2, l3, l4⟩ := like_readExact hx h2 hs l1
                rw [l2]
                simp only [l1.checked, hh]
                exact ⟨s2, l3, by simp [*]⟩
              · rw [h2] at h
                cases h
                obtain ⟨s1, l1, l2⟩ := like_readExact hx h1 (hs.trans (readExact_suffix h2)) hl
                obtain ⟨s2, l3, l4⟩ := like_readExact hx h2 hs l1
                rw [l2]
                simp only [l1.checked, hh]
                exact ⟨s2, l3, by simp [*]⟩
      · rw [hh] at h
        obtain ⟨s1, l1, l2, rfl, l3⟩ := done h
        rw [l2]
        simp only [l3, hh]
        exact ⟨s1, l1, rfl⟩
      · rw [hh] at h
        obtain ⟨s1, l1, l2, rfl, l3⟩ := done h
        rw [l2]
        simp only [l3, hh]
        exact ⟨s1, l1, rfl⟩
  exact key _ _ rfl

theorem causal_readOne : Causal Rdr.readOne := by
  intro r
  have key : ∀ y r', r.readOne = (y, r') → r'.input <:+ r.input ∧ ∀ x v fin s, x ≠ [] → x <:+ r'.input →
      Rdr.Like x v fin r s → ∃ s', Rdr.Like x v fin r' s' ∧ s.readOne = (y, s') := by
    intro y r' h
    refine ⟨(readOne_adv h).suffix, fun x v fin s hx hs hl => ?_⟩
    unfold Rdr.readOne at h ⊢
    rcases h1 : r.readExact 4 with ⟨e | hdr, r1⟩
    · rw [h1] at h
      cases h
      obtain ⟨s1, l1, l2⟩ := like_readExact hx h1 hs hl
      rw [l2]
      exact ⟨s1, l1, rfl⟩
    · rw [h1] at h
      simp only at h
      have done : ∀ {z : Res Packet}, (z, r1) = (y, r') → ∃ s1, Rdr.Like x v fin r' s1 ∧
          s.readExact 4 = (.ok hdr, s1) ∧ z = y ∧ s1.checked = r1.checked := by
        rintro z hz
        cases hz
        obtain ⟨s1, l1, l2⟩ := like_readExact hx h1 hs hl
        exact ⟨s1, l1, l2, rfl, l1.checked⟩
      rcases hh : parseHeader r1.checked hdr with size | e | _
      · rw [hh] at h
        simp only at h
        split at h
        · obtain ⟨s1, l1, l2, rfl, l3⟩ := done h
          rw [l2]
          simp only [l3, hh]
          exact ⟨s1, l1, by simp [*]⟩
        · split at h
          · obtain ⟨s1, l1, l2, rfl, l3⟩ := done h
            rw [l2]
            simp only [l3, hh]
            exact ⟨s1, l1, by simp [*]⟩
          · split at h
            · obtain ⟨s1, l1, l2, rfl, l3⟩ := done h
              rw [l2]
              simp only [l3, hh]
              exact ⟨s1, l1, by simp [*]⟩
            · split at h
              · obtain ⟨s1, l1, l2, rfl, l3⟩ := done h
                rw [l2]
                simp only [l3, hh]
                exact ⟨s1, l1, by simp [*]⟩
              · rcases h2 : r1.readExact (size - 4) with ⟨e | d, r2⟩
                · rw [h2] at h
                  cases h
                  obtain ⟨s1, l1, l2⟩ := like_readExact hx h1 (hs.trans (readExact_suffix h2)) hl
                  obtain ⟨s2, l3, l4⟩ := like_readExact hx h2 hs l1
                  rw [l2]
                  simp only [l1.checked, hh]
                  exact ⟨s2, l3, by simp [*]⟩
                · rw [h2] at h
                  cases h
                  obtain ⟨s1, l1, l2⟩ := like_readExact hx h1 (hs.trans (readExact_suffix h2)) hl
                  obtain ⟨s2, l3, l4⟩ := like_readExact hx h2 hs l1
                  rw [l2]
                  simp only [l1.checked, hh]
                  exact ⟨s2, l3, by simp [*]⟩
      · rw [hh] at h
        obtain ⟨s1, l1, l2, rfl, l3⟩ := done h
        rw [l2]
        simp only [l3, hh]
        exact ⟨s1, l1, rfl⟩
      · rw [hh] at h
        obtain ⟨s1, l1, l2, rfl, l3⟩ := done h
        rw [l2]
        simp only [l3, hh]
        exact ⟨s1, l1, rfl⟩
  exact key _ _ rfl

theorem causal_readLoopF (n : Nat) : ∀ f, Causal (Rdr.readLoopF f n)
  | 0 => fun r => ⟨List.suffix_refl _, fun _ _ _ s _ _ hl => ⟨s, hl, rfl⟩⟩
  | f + 1 => by
    intro r
    have key : ∀ y r', Rdr.readLoopF (f + 1) n r = (y, r') → r'.input <:+ r.input ∧ ∀ x v fin s, x ≠ [] →
        x <:+ r'.input → Rdr.Like x v fin r s → ∃ s', Rdr.Like x v fin r' s' ∧ Rdr.readLoopF (f + 1) n s = (y, s') := by
      intro y r' h
      refine ⟨(readLoopF_le _ _ _ _ _ h).suffix, fun x v fin s hx hs hl => ?_⟩
      simp only [Rdr.readLoopF] at h ⊢
      have one : ∀ {z r1}, r.readOne = (z, r1) → x <:+ r1.input → ∃ s1, Rdr.Like x v fin r1 s1 ∧ s.readOne = (z, s1) := by
        intro z r1 h1 h2
        have := (causal_readOne r).2 x v fin s hx
        rw [h1] at this
        exact this h2 hl
      rcases h1 : r.readOne with ⟨(p | e | _), r1⟩
      · rw [h1] at h
        cases p with
        | flush =>
          cases h
          obtain ⟨s1, l1, l2⟩ := one h1 hs
          rw [l2]
          exact ⟨s1, l1, rfl⟩
        | delim =>
          cases h
          obtain ⟨s1, l1, l2⟩ := one h1 hs
          rw [l2]
          exact ⟨s1, l1, rfl⟩
        | data d =>
          simp only at h
          have again : ∀ {z}, Rdr.readLoopF f n r1 = (z, r') → ∃ s1 s2, Rdr.Like x v fin r' s2 ∧
              s.readOne = (.ok (.data d), s1) ∧ Rdr.readLoopF f n s1 = (z, s2) := by
            intro z hz
            have hc := causal_readLoopF n f r1
            rw [hz] at hc
            obtain ⟨s1, l1, l2⟩ := one h1 (hs.trans hc.1)
            obtain ⟨s2, l3, l4⟩ := hc.2 x v fin s1 hx hs l1
            exact ⟨s1, s2, l3, l2, l4⟩
          split at h
          · split at h
            · obtain ⟨s1, s2, l1, l2, l3⟩ := again h
              rw [l2]
              simp only
              exact ⟨s2, l1, by simp [*]⟩
            · cases h
              obtain ⟨s1, l1, l2⟩ := one h1 hs
              rw [l2]
              simp only
              exact ⟨s1, l1, by simp [*]⟩
          · split at h
            · obtain ⟨s1, s2, l1, l2, l3⟩ := again h
              rw [l2]
              simp only
              exact ⟨s2, l1, by simp [*]⟩
            · cases h
              obtain ⟨s1, ⟨a, l1, rfl⟩, l2⟩ := one h1 hs
              rw [l2]
              simp only
              exact ⟨_, ⟨a, l1, rfl⟩, by simp [*]⟩
      · rw [h1] at h
        cases h
        obtain ⟨s1, l1, l2⟩ := one h1 hs
        rw [l2]
        exact ⟨s1, l1, rfl⟩
      · rw [h1] at h
        cases h
        obtain ⟨s1, l1, l2⟩ := one h1 hs
        rw [l2]
        exact ⟨s1, l1, rfl⟩
    exact key _ _ rfl

theorem causal_read (n : Nat) : Causal (Rdr.read n) := by
  intro r
  refine ⟨(read_le rfl).suffix, fun x v fin s hx hs hl => ?_⟩
  unfold Rdr.read at hs ⊢
  simp only [hl.pending] at hs ⊢
  split at hs
  · rename_i hk
    simp only [if_pos hk]
    obtain ⟨a, h1, rfl⟩ := hl
    exact ⟨_, ⟨a, h1, rfl⟩, rfl⟩
  · rename_i hk
    simp only [if_neg hk]
    unfold Rdr.readLoop at hs ⊢
    have e1 := Rdr.readLoop_fuel (r.input.length + 1) (r.input.length + s.input.length + 1) n r (by omega) (by omega)
    have e2 := Rdr.readLoop_fuel (s.input.length + 1) (r.input.length + s.input.length + 1) n s (by omega) (by omega)
    rw [e1] at hs
    rw [e1, e2]
    exact (causal_readLoopF n _ r).2 x v fin s hx hs hl

theorem causal_next_aux {r r' : Rdr} {y : Option (Res Packet)} (h : r.next = (y, r')) {x v : Bytes} {fin : IoErr} {s : Rdr}
    (hx : x ≠ []) (hs : x <:+ r'.input) (hl : Rdr.Like x v fin r s) :
    ∃ s', Rdr.Like x v fin r' s' ∧ s.next = (y, s') := by
  unfold Rdr.next at h ⊢
  rcases h1 : r.readPacket with ⟨(p | e | _), r1⟩
  all_goals
    rw [h1] at h
    simp only at h
    have e : r1 = r' := by
      first | (cases h; rfl) | (split at h <;> (cases h; rfl))
    subst e
    have hc := (causal_readPacket r).2 x v fin s hx
    rw [h1] at hc
    obtain ⟨s1, l1, l2⟩ := hc hs hl
    rw [l2]
    refine ⟨s1, l1, ?_⟩
    simp only
    first
      | (cases h; rfl)
      | (split at h
         · cases h; simp [*]
         · cases h; simp [*])

theorem causal_readToTypeF (typ : Packet) : ∀ f, Causal (readToTypeF typ f)
  | 0 => fun r => ⟨List.suffix_refl _, fun _ _ _ s _ _ hl => ⟨s, hl, rfl⟩⟩
  | f + 1 => by
    intro r
    have key : ∀ y r', readToTypeF typ (f + 1) r = (y, r') → r'.input <:+ r.input ∧ ∀ x v fin s, x ≠ [] →
        x <:+ r'.input → Rdr.Like x v fin r s → ∃ s', Rdr.Like x v fin r' s' ∧ readToTypeF typ (f + 1) s = (y, s') := by
      intro y r' h
      refine ⟨(readToTypeF_adv _ _ _ _ _ h).suffix, fun x v fin s hx hs hl => ?_⟩
      simp only [readToTypeF] at h ⊢
      rcases h1 : r.next with ⟨_ | (p | e | _), r1⟩
      · rw [h1] at h
        cases h
        obtain ⟨s1, l1, l2⟩ := causal_next_aux h1 hx hs hl
        rw [l2]
        exact ⟨s1, l1, rfl⟩
      · rw [h1] at h
        simp only at h
        split at h
        · cases h
          obtain ⟨s1, l1, l2⟩ := causal_next_aux h1 hx hs hl
          rw [l2]
          exact ⟨s1, l1, by simp [*]⟩
        · rename_i hp
          rcases h2 : readToTypeF typ f r1 with ⟨z, r2⟩
          have e : r2 = r' := by
            rw [h2] at h
            cases z <;> (cases h; rfl)
          subst e
          have hc := causal_readToTypeF typ f r1
          rw [h2] at hc
          obtain ⟨s1, l1, l2⟩ := causal_next_aux h1 hx (hs.trans hc.1) hl
          obtain ⟨s2, l3, l4⟩ := hc.2 x v fin s1 hx hs l1
          rw [l2]
          simp only [if_neg hp, l4]
          rw [h2] at h
          refine ⟨s2, l3, ?_⟩
          cases z <;> (cases h; rfl)
      · rw [h1] at h
        cases h
        obtain ⟨s1, l1, l2⟩ := causal_next_aux h1 hx hs hl
        rw [l2]
        exact ⟨s1, l1, rfl⟩
      · rw [h1] at h
        cases h
        obtain ⟨s1, l1, l2⟩ := causal_next_aux h1 hx hs hl
        rw [l2]
        exact ⟨s1, l1, rfl⟩
    exact key _ _ rfl

theorem causal_readToType (typ : Packet) : Causal (readToType typ) := by
  intro r
  refine ⟨(readToTypeF_adv typ _ r _ _ rfl).suffix, fun x v fin s hx hs hl => ?_⟩
  unfold readToType at hs ⊢
  have e1 := readToTypeF_fuel typ (r.input.length + 1) (r.input.length + s.input.length + 1) r (by omega) (by omega)
  have e2 := readToTypeF_fuel typ (s.input.length + 1) (r.input.length + s.input.length + 1) s (by omega) (by omega)
  rw [e1] at hs
  rw [e1, e2]
  exact (causal_readToTypeF typ _ r).2 x v fin s hx hs hl

/-! ### The server -/

/-- Decompose a goal `M.Causal m` along the structure of `m`. -/
macro "causal_op" : tactic => `(tactic| first
  | exact M.Causal.pure _
  | exact M.Causal.pure' _
  | exact M.Causal.throw _
  | exact M.Causal.panic
  | exact M.Causal.ofRes _
  | exact M.Causal.ofIo _
  | exact M.Causal.op _
  | assumption
  | refine M.Causal.bind ?_ (fun _ => ?_)
  | refine M.Causal.attempt ?_
  | refine M.Causal.after ?_ ?_
  | refine M.Causal.onFail ?_ ?_
  | split)

macro "causal_ops" : tactic => `(tactic| repeat causal_op)

theorem causal_outBytes (b : Bytes) : (outBytes b).Causal := by unfold outBytes; causal_ops
theorem causal_writeOne (b : Bytes) : (writeOne b).Causal := by
  unfold writeOne
  exact .bind (causal_outBytes _) (fun _ => causal_outBytes _)
theorem causal_writeChunks : ∀ cs, (writeChunks cs).Causal
  | [] => .pure _
  | c :: cs => .bind (causal_writeOne c) (fun _ => causal_writeChunks cs)
theorem causal_send (m : Bytes) : (send m).Causal := causal_writeChunks _
theorem causal_sendFlush : sendFlush.Causal := by
  unfold sendFlush
  exact .bind (causal_outBytes _) (fun _ => by causal_ops)
theorem causal_sendDelim : sendDelim.Causal := causal_outBytes _
theorem causal_sendAll : ∀ ms, (sendAll ms).Causal
  | [] => .pure _
  | m :: ms => .bind (causal_send m) (fun _ => causal_sendAll ms)
theorem causal_sendError (c : Nat) (m : Bytes) : (sendError c m).Causal := by
  unfold sendError
  exact .bind (causal_send _) fun _ => .bind causal_sendDelim fun _ => .bind (causal_send _) fun _ =>
    causal_sendFlush
theorem causal_copyOut (h : Option Ino) : (copyOut h).Causal := by
  unfold copyOut
  refine .bind (.op _) (fun _ => ?_)
  split
  refine .bind (causal_sendAll _) (fun _ => ?_)
  causal_ops
theorem causal_sendStatus (st : Status) : (sendStatus st).Causal := by
  unfold sendStatus
  have h1 := causal_sendAll
  have h2 := causal_sendFlush
  have h3 := causal_sendDelim
  have h4 := causal_copyOut
  refine .bind (causal_send _) (fun _ => ?_)
  split <;> split <;> (try split) <;> simp only [] <;>
    repeat first
    | exact h2
    | exact h3
    | exact h1 _
    | exact h4 _
    | exact .pure _
    | refine M.Causal.bind ?_ (fun _ => ?_)

theorem causal_dropFile (p : Path) : (dropFile p).Causal := by unfold dropFile; causal_ops
theorem causal_oidNew (b : Bytes) : (oidNew b).Causal := by unfold oidNew; causal_ops
theorem causal_finishUpload (cfg : Cfg) (oid : Bytes) (p : Path) : (finishUpload cfg oid p).Causal := by
  unfold finishUpload fixPermissions
  have := causal_dropFile p
  causal_ops
theorem causal_checkUpload (cfg : Cfg) (oid : Bytes) (n : Nat) (d : Bytes) :
    (checkUpload cfg oid n d).Causal := by
  unfold checkUpload oidNew
  causal_ops
theorem causal_backendBatch (cfg : Cfg) : ∀ l, (backendBatch cfg l).Causal
  | [] => .pure _
  | (oid, n) :: rest => by
    unfold backendBatch
    have := causal_backendBatch cfg rest
    causal_ops
theorem causal_backendVerify (cfg : Cfg) (oid : Bytes) (a : Args) : (backendVerify cfg oid a).Causal := by
  unfold backendVerify
  refine .bind (.ofRes _) fun _ => ?_
  causal_ops
theorem causal_backendDownload (cfg : Cfg) (oid : Bytes) : (backendDownload cfg oid).Causal := by
  unfold backendDownload; causal_ops
theorem causal_timestamp (cfg : Cfg) : (timestamp cfg).Causal := by unfold timestamp; causal_ops
theorem causal_userForFile (cfg : Cfg) (p : FPath) : (userForFile cfg p).Causal := by
  unfold userForFile; causal_ops
theorem causal_lockCreate (cfg : Cfg) (p : Bytes) : (lockCreate cfg p).Causal := by
  unfold lockCreate lockWrite lockPersist
  have h1 := causal_timestamp cfg
  have h2 := causal_userForFile cfg (.exact (lockPath cfg p))
  have h3 := causal_dropFile (lockTemp cfg p)
  causal_ops
theorem causal_lockFromId (cfg : Cfg) (id : Bytes) : (lockFromId cfg id).Causal := by
  unfold lockFromId
  have h2 := causal_userForFile cfg (.join (locksDir cfg.root) id)
  causal_ops
theorem causal_lockFromPath (cfg : Cfg) (p : Bytes) : (lockFromPath cfg p).Causal := by
  unfold lockFromPath
  have := causal_lockFromId cfg (lockId cfg p)
  causal_ops
theorem causal_fmtTimestamp (cfg : Cfg) (l : LockInfo) : (fmtTimestamp cfg l).Causal := by
  unfold fmtTimestamp; causal_ops
theorem causal_lockArgs (cfg : Cfg) (l : LockInfo) : (lockArgs cfg l).Causal := by
  unfold lockArgs
  exact .bind (causal_fmtTimestamp _ _) fun _ => .pure _
theorem causal_lockSpec (cfg : Cfg) (o : Bool) (l : LockInfo) : (lockSpec cfg o l).Causal := by
  unfold lockSpec
  refine .bind (causal_fmtTimestamp _ _) fun _ => ?_
  simp only []
  causal_ops
theorem causal_lockUnlock (cfg : Cfg) (l : LockInfo) : (lockUnlock cfg l).Causal := by
  unfold lockUnlock; causal_ops
theorem causal_lockLoop (cfg : Cfg) (p : Bytes) : (lockLoop cfg p).Causal := by
  unfold lockLoop
  have h1 := causal_lockCreate cfg p
  have h2 := causal_lockFromPath cfg p
  have h3 := causal_lockArgs cfg
  refine .bind (.attempt h1) fun x => ?_
  split
  · exact .bind (h3 _) fun _ => .pure _
  · split
    · refine .bind h2 fun y => ?_
      split
      · exact .bind (h3 _) fun _ => .pure _
      · exact .panic
    · exact .throw _
theorem causal_listLocksForPath (cfg : Cfg) (p : Bytes) (c : Option Bytes) (o : Bool) :
    (listLocksForPath cfg p c o).Causal := by
  unfold listLocksForPath
  refine .bind (causal_lockFromPath _ _) fun x => ?_
  cases x with
  | none => exact .pure _
  | some l =>
    simp only []
    have := causal_lockSpec cfg o l
    repeat' (first | split | exact .pure _ | exact .bind this fun _ => .pure _)
theorem causal_collectLocks (cfg : Cfg) (c : Option Bytes) :
    ∀ ns sk k, (collectLocks cfg c sk k ns).Causal
  | _, _, 0 => by cases ‹List Bytes› <;> exact .pure _
  | [], _, _ + 1 => .pure _
  | n :: ns, sk, k + 1 => by
    unfold collectLocks
    have h1 := causal_lockFromId cfg (utf8Lossy n)
    refine .bind (.attempt h1) fun x => ?_
    have a := causal_collectLocks cfg c ns true (k + 1)
    have b := causal_collectLocks cfg c ns false k
    have d := causal_collectLocks cfg c ns sk (k + 1)
    split
    · simp only []
      generalize (sk && _) = q
      cases q
      · exact .bind b fun _ => .pure _
      · exact a
    · exact d
theorem causal_iterLocks (cfg : Cfg) (c : Option Bytes) (k : Nat) : (iterLocks cfg c k).Causal := by
  unfold iterLocks
  exact .bind (.op _) fun _ => .bind (.ofIo _) fun _ => causal_collectLocks _ _ _ _ _
theorem causal_lockSpecs (cfg : Cfg) (o : Bool) : ∀ ls, (lockSpecs cfg o ls).Causal
  | [] => .pure _
  | l :: ls => by
    unfold lockSpecs
    exact .bind (causal_lockSpec _ _ _) fun _ => .bind (causal_lockSpecs cfg o ls) fun _ => .pure _


theorem causal_readToDelim : readToDelim.Causal := .rdr (causal_readToType _)
theorem causal_readToFlush : readToFlush.Causal := .rdr (causal_readToType _)
theorem causal_readToFlushParse : readToFlushParse.Causal := by
  unfold readToFlushParse
  have := causal_readToFlush
  causal_ops


/-! ### Requests -/

theorem rdr_then {α β : Type} (g : Rdr → Res α × Rdr) (F : α → M β) (r : Rdr) : (M.rdr g >>= F) r =
    match g r with
    | (.ok d, r1) => F d r1
    | (.err e, r1) => .ret (.err e, r1)
    | (.panic, r1) => .ret (.panic, r1) := by
  show M.bind (M.rdr g) F r = _
  simp only [M.bind, M.rdr, Prog.bind]
  rcases g r with ⟨(d | e | _), r1⟩ <;> rfl

theorem copyInF_fuel (bufs : Nat → Nat) (ino : Ino) : ∀ (f g i : Nat) (acc : Bytes) (r : Rdr), r.left < f → r.left < g →
    copyInF bufs ino f i acc r = copyInF bufs ino g i acc r
  | 0, _, _, _, _, h, _ => by omega
  | _, 0, _, _, _, _, h => by omega
  | f + 1, g + 1, i, acc, r, hf, hg => by
    rw [copyInF, copyInF, rdr_then, rdr_then]
    rcases h1 : r.read (bufs i + 1) with ⟨(d | e | _), r1⟩
    · simp only
      split
      · rfl
      · rename_i hd
        have hl := read_left h1 hd
        have wr : ∀ F : M Bytes, (M.op (.write ino d) >>= fun w => M.ofIo w >>= fun _ => F) r1 =
            .call (.write ino d) fun w => match w with
              | .ok _ => F r1
              | .error e => .ret (.err (Err.ofIo e), r1) := by
          intro F
          show Prog.bind (.call _ _) _ = _
          simp only [Prog.bind]
          congr 1
          funext w
          cases w <;> rfl
        refine (wr _).trans (Eq.trans ?_ (wr _).symm)
        congr 1
        funext w
        cases w with
        | error e => rfl
        | ok u => exact copyInF_fuel bufs ino f g (i + 1) (acc ++ d) r1 (by omega) (by omega)
    · rfl
    · rfl

theorem causal_copyInF (bufs : Nat → Nat) (ino : Ino) : ∀ f i acc, (copyInF bufs ino f i acc).Causal
  | 0, _, _ => .panic
  | f + 1, i, acc => by
    unfold copyInF
    refine .bind (.rdr (causal_read _)) (fun d => ?_)
    have ih := causal_copyInF bufs ino f (i + 1) (acc ++ d)
    causal_ops

theorem causal_copyIn (bufs : Nat → Nat) (ino : Ino) : (copyIn bufs ino).Causal := by
  intro r tr y r' h
  unfold copyIn at h ⊢
  obtain ⟨h1, h2⟩ := causal_copyInF bufs ino _ 0 [] _ _ _ _ h
  refine ⟨h1, fun x v fin s hx hs hl => ?_⟩
  rw [copyInF_fuel bufs ino _ (r.left + s.left + 1) 0 [] r (by unfold Rdr.left; omega) (by omega)] at h
  rw [copyInF_fuel bufs ino _ (r.left + s.left + 1) 0 [] s (by unfold Rdr.left; omega) (by omega)]
  exact (causal_copyInF bufs ino _ 0 [] _ _ _ _ h).2 x v fin s hx hs hl

theorem causal_startUpload (cfg : Cfg) (oid : Bytes) : (startUpload cfg oid).Causal := by
  unfold startUpload
  refine .bind (.op _) (fun _ => .bind (.ofIo _) (fun _ => ?_))
  split
  refine .onFail (.bind (causal_copyIn _ _) (fun _ => .pure _)) (causal_dropFile _)
theorem causal_putObject (cfg : Cfg) (oid : Bytes) : (putObject cfg oid).Causal := by
  unfold putObject
  refine .bind (causal_oidNew _) fun _ => .bind causal_readToDelim fun _ => .bind (.ofRes _) fun _ =>
    .bind (.ofRes _) fun _ => .bind (causal_startUpload _ _) fun _ => ?_
  split
  exact .bind (.onFail (causal_checkUpload _ _ _ _) (causal_dropFile _)) fun _ =>
    .bind (causal_finishUpload _ _ _) fun _ => .pure _
theorem causal_readBatch (cfg : Cfg) : (readBatch cfg).Causal := by
  unfold readBatch
  have h1 := causal_readToDelim
  have h2 := causal_readToFlushParse
  have h3 := causal_backendBatch cfg
  refine .bind h1 fun _ => .bind (.ofRes _) fun _ => .bind h2 fun _ => ?_
  split <;> (try split) <;> simp only [] <;>
    first
    | exact .bind (.ofRes _) fun _ => h3 _
    | exact .bind (.pure _) fun _ => .bind (.ofRes _) fun _ => h3 _
    | exact .bind (.throw _) fun _ => .bind (.ofRes _) fun _ => h3 _
theorem causal_batchCmd (cfg : Cfg) (p m : Bytes) : (batchCmd cfg p m).Causal := by
  unfold batchCmd
  exact .bind (causal_readBatch _) fun _ => .pure _
theorem causal_verifyObject (cfg : Cfg) (oid : Bytes) : (verifyObject cfg oid).Causal := by
  unfold verifyObject backendVerify
  refine .bind causal_readToFlush fun _ => .bind (.ofRes _) fun _ => .bind (causal_oidNew _) fun _ =>
    .bind (.ofRes _) fun _ => ?_
  causal_ops
theorem causal_getObject (cfg : Cfg) (oid : Bytes) : (getObject cfg oid).Causal := by
  unfold getObject backendDownload
  refine .bind causal_readToFlush fun _ => .bind (.ofRes _) fun _ => .bind (causal_oidNew _) fun _ => ?_
  causal_ops
theorem causal_lockCmd (cfg : Cfg) : (lockCmd cfg).Causal := by
  unfold lockCmd lockLoop
  have h1 := causal_readToFlushParse
  have h2 := causal_lockCreate cfg
  have h3 := causal_lockFromPath cfg
  have h4 := causal_lockArgs cfg
  repeat first
    | exact h2 _
    | exact h3 _
    | exact h4 _
    | causal_op
theorem causal_listLocks (cfg : Cfg) (o : Bool) : (listLocks cfg o).Causal := by
  unfold listLocks iterLocks
  refine .bind causal_readToFlushParse fun _ => .bind (.ofRes _) fun _ => .bind (.ofRes _) fun _ => ?_
  simp only []
  split
  · exact causal_listLocksForPath _ _ _ _
  · refine .bind (.bind (.op _) fun _ => .bind (.ofIo _) fun _ => causal_collectLocks _ _ _ _ _) fun _ =>
      .bind (causal_lockSpecs _ _ _) fun _ => .pure _
theorem causal_unlockCmd (cfg : Cfg) (id : Bytes) : (unlockCmd cfg id).Causal := by
  unfold unlockCmd lockUnlock
  have h1 := causal_readToFlush
  have h2 := causal_lockFromId cfg id
  have h4 := causal_lockArgs cfg
  repeat first
    | exact h4 _
    | causal_op
theorem causal_versionCmd : versionCmd.Causal := by
  unfold versionCmd
  exact .bind causal_readToFlush fun _ => .pure _
theorem causal_dispatch (cfg : Cfg) (mode : Mode) (cmd : Bytes) (arg : Option Bytes) :
    (dispatch cfg mode cmd arg).Causal := by
  unfold dispatch
  repeat' first
    | split
    | exact causal_versionCmd
    | exact causal_batchCmd _ _ _
    | exact causal_putObject _ _
    | exact causal_verifyObject _ _
    | exact causal_getObject _ _
    | exact causal_unlockCmd _ _
    | exact causal_lockCmd _
    | exact causal_listLocks _ _
    | exact .pure _

theorem causal_turn (cfg : Cfg) (mode : Mode) : (turn cfg mode).Causal := by
  unfold turn
  refine .bind (.attempt (.rdr causal_readPacket)) fun x => ?_
  split
  · split
    · exact .pure _
    · exact .throw _
  · split
    · exact .bind (causal_sendError _ _) fun _ => .pure _
    · split
      · exact .bind (causal_sendError _ _) fun _ => .pure _
      · simp only []
        split
        · exact .bind (causal_sendStatus _) fun _ => .pure _
        · refine .bind (.attempt (causal_dispatch _ _ _ _)) fun y => ?_
          split
          · exact .bind (causal_sendStatus _) fun _ => .pure _
          · exact .bind (causal_sendStatus _) fun _ => .pure _

end Verif
