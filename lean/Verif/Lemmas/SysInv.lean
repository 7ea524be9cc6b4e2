import Verif.Lemmas.FS
import Verif.Lemmas.Own
import Verif.Model.System
/-!
The invariant of all server processes of one repository.
-/
namespace Verif

/-- `s` lets its process write to inode `j`. -/
def Own.owns (s : Own) (j : Ino) : Prop := (∃ p c, s.tmp = some (p, j, c)) ∨ j ∈ s.inos

/-- Replace one entry. -/
def updAt {α : Type} (f : Nat → α) (i : Nat) (a : α) : Nat → α := fun j => if j = i then a else f j

@[simp] theorem updAt_same {α : Type} (f : Nat → α) (i : Nat) (a : α) : updAt f i a i = a := by
  simp [updAt]
theorem updAt_ne {α : Type} (f : Nat → α) {i j : Nat} (a : α) (h : j ≠ i) : updAt f i a j = f j := by
  simp [updAt, h]
@[simp] theorem updAt_self {α : Type} (f : Nat → α) (i : Nat) : updAt f i (f i) = f := by
  funext j; unfold updAt; split <;> simp_all

theorem near_iff {root p : Path} : near root p = true ↔ root <+: p ∨ p <+: root := by
  simp [near]

theorem near_of_prefix {root p : Path} (h : root <+: p) : near root p = true := near_iff.mpr (.inl h)

theorem near_prefix {root p q : Path} (h : root <+: p) (hq : q <+: p) : near root q = true := by
  rw [near_iff]
  exact List.prefix_or_prefix_of_prefix h hq

theorem alGet_filter (f : Path → Bool) (p : Path) (h : f p = true) : ∀ l : List (Path × Ino),
    alGet (l.filter fun e => f e.1) p = alGet l p
  | [] => rfl
  | (q, i) :: l => by
    rw [List.filter_cons]
    by_cases hq : q = p
    · subst hq; simp [h, alGet]
    · split
      · simp only [alGet, hq, if_false]; exact alGet_filter f p h l
      · simp only [alGet, hq, if_false]; exact alGet_filter f p h l

theorem Elsewhere.get {root : Path} {fs fs' : FS} (h : Elsewhere root fs fs') {p : Path} (hp : near root p = true) :
    fs'.get p = fs.get p := by
  unfold FS.get
  rw [← alGet_filter (near root) p hp fs'.names, h.names, alGet_filter (near root) p hp]

theorem Elsewhere.mem_dirs {root : Path} {fs fs' : FS} (h : Elsewhere root fs fs') {p : Path} (hp : near root p = true) :
    p ∈ fs'.dirs ↔ p ∈ fs.dirs := by
  have e : ∀ l : List Path, p ∈ l ↔ p ∈ l.filter (near root) := fun l => by simp [hp]
  rw [e fs'.dirs, h.dirs, ← e]

theorem objPath_below (root : Path) (oid : Bytes) : root <+: objPath root oid := List.prefix_append _ _

/-- The file system and what the processes own. -/
structure Inv0 (root : Path) (fs : FS) (ow : Nat → Own) : Prop where
  tmp : ∀ i p j c, (ow i).tmp = some (p, j, c) → fs.get p = some j ∧
    (∃ n, p = incompleteDir root ++ [n]) ∧ ∀ c', c = some c' → (fs.inodes j).data = c'
  bound : ∀ p j, fs.get p = some j → j < fs.next
  obound : ∀ i j, (ow i).owns j → j < fs.next
  disj : ∀ i i' j, (ow i).owns j → (ow i').owns j → i = i'
  sep : ∀ i p j c, (ow i).tmp = some (p, j, c) → j ∉ (ow i).inos
  objs : ∀ oid j, fs.get (objPath root oid) = some j → ∀ i, ¬ (ow i).owns j

theorem incomplete_ne_obj (root : Path) (n oid : Bytes) : incompleteDir root ++ [n] ≠ objPath root oid := by
  intro h
  have := congrArg List.length h
  simp [incompleteDir, objPath] at this

theorem locks_ne_obj (root : Path) (n oid : Bytes) : locksDir root ++ [n] ≠ objPath root oid := by
  intro h
  have := congrArg List.length h
  simp [locksDir, objPath] at this

theorem locks_ne_incomplete (root : Path) (n m : Bytes) : locksDir root ++ [n] ≠ incompleteDir root ++ [m] := by
  intro h
  simp only [locksDir, incompleteDir, List.append_assoc, List.append_cancel_left_eq] at h
  revert h; simp

/-- What a step does to the object paths. -/
def ObjStep (root : Path) (sha : Bytes → Bytes) (fs fs' : FS) (o : Op) (x : Resp o) : Prop :=
  ∀ oid, fs'.content (objPath root oid) = fs.content (objPath root oid) ∨
    ∃ src c, (⟨o, x⟩ : Event) = ⟨.rename src (objPath root oid), .ok ()⟩ ∧
      fs'.content (objPath root oid) = some c ∧ hexEncode (sha c) = oid

theorem content_eq {fs fs' : FS} {p : Path} (h1 : fs'.get p = fs.get p)
    (h2 : ∀ j, fs.get p = some j → (fs'.inodes j).data = (fs.inodes j).data) :
    fs'.content p = fs.content p := by
  unfold FS.content
  rw [h1]
  cases h : fs.get p with
  | none => rfl
  | some j => simp [h2 j h]

theorem Inv0.objStep_same {root : Path} {sha : Bytes → Bytes} {fs fs' : FS} {o : Op} {x : Resp o}
    (h1 : ∀ oid, fs'.get (objPath root oid) = fs.get (objPath root oid))
    (h2 : ∀ oid j, fs.get (objPath root oid) = some j → (fs'.inodes j).data = (fs.inodes j).data) :
    ObjStep root sha fs fs' o x := fun oid => .inl (content_eq (h1 oid) (h2 oid))

theorem Own.owns_eq {s s' : Own} (h1 : s'.inos = s.inos)
    (h2 : s'.tmp.map (fun x => x.2.1) = s.tmp.map (fun x => x.2.1)) (j : Ino) : s'.owns j ↔ s.owns j := by
  unfold Own.owns
  rw [h1]
  have e : ∀ t : Own, (∃ p c, t.tmp = some (p, j, c)) ↔ t.tmp.map (fun x => x.2.1) = some j := by
    intro t
    constructor
    · rintro ⟨p, c, h⟩; simp [h]
    · intro h
      cases ht : t.tmp with
      | none => simp [ht] at h
      | some v =>
        obtain ⟨p, j', c⟩ := v
        simp only [ht, Option.map_some, Option.some.injEq] at h
        exact ⟨p, c, by rw [h]⟩
  rw [e, e, h2]

theorem Own.wrote_inos (s : Own) (i : Ino) (b : Bytes) (ok : Bool) : (s.wrote i b ok).inos = s.inos := by
  unfold Own.wrote; split <;> (try split) <;> rfl

theorem Own.wrote_owns (s : Own) (i : Ino) (b : Bytes) (ok : Bool) (j : Ino) :
    (s.wrote i b ok).owns j ↔ s.owns j := by
  refine Own.owns_eq (s.wrote_inos i b ok) ?_ j
  unfold Own.wrote
  split
  · rename_i p k c h
    split
    · simp [h]
    · rfl
  · rfl

theorem Own.wrote_inv {s : Own} {i : Ino} {b : Bytes} {ok : Bool} {p : Path} {j : Ino} {c : Option Bytes}
    (h : (s.wrote i b ok).tmp = some (p, j, c)) :
    ∃ c0, s.tmp = some (p, j, c0) ∧ ((j ≠ i ∧ c = c0) ∨ (j = i ∧ c = if ok then c0.map (· ++ b) else none)) := by
  unfold Own.wrote at h
  split at h
  · rename_i p' k c' hs
    split at h
    · rename_i hk
      simp only [Option.some.injEq, Prod.mk.injEq] at h
      obtain ⟨rfl, rfl, rfl⟩ := h
      exact ⟨c', hs, .inr ⟨hk, rfl⟩⟩
    · rename_i hk
      rw [hs] at h
      simp only [Option.some.injEq, Prod.mk.injEq] at h
      obtain ⟨rfl, rfl, rfl⟩ := h
      exact ⟨c', hs, .inl ⟨hk, rfl⟩⟩
  · rename_i hs
    rw [hs] at h; cases h

/-- A write by the owner of the inode, of `b'`, recorded as a write of `b`. -/
theorem Inv0.write {root : Path} {fs : FS} {ow : Nat → Own} (h : Inv0 root fs ow) (i : Nat) (ino : Ino)
    (b b' : Bytes) (ok : Bool) (hb : ok = true → b' = b) (hm : (ow i).owns ino) :
    Inv0 root (fs.append ino b') (updAt ow i ((ow i).wrote ino b ok)) ∧
    ∀ oid j, fs.get (objPath root oid) = some j →
      ((fs.append ino b').inodes j).data = (fs.inodes j).data := by
  have ho : ∀ k j, ((updAt ow i ((ow i).wrote ino b ok)) k).owns j ↔ (ow k).owns j := by
    intro k j
    by_cases hk : k = i
    · subst hk; rw [updAt_same]; exact Own.wrote_owns _ _ _ _ _
    · rw [updAt_ne _ _ hk]
  refine ⟨⟨?_, ?_, ?_, ?_, ?_, ?_⟩, ?_⟩
  · intro k p j c hk
    by_cases hki : k = i
    · subst hki
      rw [updAt_same] at hk
      obtain ⟨c0, h0, hc⟩ := Own.wrote_inv hk
      obtain ⟨h1, h2, h3⟩ := h.tmp k p j c0 h0
      refine ⟨by simpa using h1, h2, ?_⟩
      rintro c' rfl
      rw [FS.data_append]
      rcases hc with ⟨hji, rfl⟩ | ⟨rfl, hc⟩
      · simp [hji, h3 _ rfl]
      · cases ok with
        | false => cases hc
        | true =>
          simp only [if_true] at hc
          cases c0 with
          | none => cases hc
          | some d =>
            simp only [Option.map_some, Option.some.injEq] at hc
            subst hc
            simp [h3 _ rfl, hb rfl]
    · rw [updAt_ne _ _ hki] at hk
      obtain ⟨h1, h2, h3⟩ := h.tmp k p j c hk
      refine ⟨by simpa using h1, h2, ?_⟩
      rintro c' rfl
      rw [FS.data_append]
      have : j ≠ ino := by
        rintro rfl
        exact hki (h.disj k i j (.inl ⟨_, _, hk⟩) hm)
      simp [this, h3 _ rfl]
  · intro p j hp; exact h.bound p j (by simpa using hp)
  · intro k j hk; exact h.obound k j ((ho k j).mp hk)
  · intro k k' j h1 h2; exact h.disj k k' j ((ho _ _).mp h1) ((ho _ _).mp h2)
  · intro k p j c hk
    by_cases hki : k = i
    · subst hki
      rw [updAt_same] at hk ⊢
      obtain ⟨c0, h0, _⟩ := Own.wrote_inv hk
      rw [Own.wrote_inos]
      exact h.sep k p j c0 h0
    · rw [updAt_ne _ _ hki] at hk ⊢
      exact h.sep k p j c hk
  · intro oid j hj k hk
    exact h.objs oid j (by simpa using hj) k ((ho k j).mp hk)
  · intro oid j hj
    rw [FS.data_append]
    have : j ≠ ino := by
      rintro rfl
      exact h.objs oid j hj i hm
    simp [this]

/-- The ghost state does not matter as long as less is owned. -/
theorem Inv0.drop_tmp {root : Path} {fs : FS} {ow : Nat → Own} (h : Inv0 root fs ow) (i : Nat) :
    Inv0 root fs (updAt ow i { ow i with tmp := none }) := by
  have ho : ∀ k j, ((updAt ow i { ow i with tmp := none }) k).owns j → (ow k).owns j := by
    intro k j hk
    by_cases hki : k = i
    · subst hki
      rw [updAt_same] at hk
      rcases hk with ⟨_, _, hk⟩ | hk
      · cases hk
      · exact .inr hk
    · rwa [updAt_ne _ _ hki] at hk
  have ht : ∀ k p j c, ((updAt ow i { ow i with tmp := none }) k).tmp = some (p, j, c) →
      k ≠ i ∧ (ow k).tmp = some (p, j, c) := by
    intro k p j c hk
    by_cases hki : k = i
    · subst hki; rw [updAt_same] at hk; cases hk
    · rw [updAt_ne _ _ hki] at hk; exact ⟨hki, hk⟩
  refine ⟨fun k p j c hk => h.tmp k p j c (ht _ _ _ _ hk).2, h.bound, fun k j hk => h.obound k j (ho k j hk),
    fun k k' j h1 h2 => h.disj k k' j (ho _ _ h1) (ho _ _ h2), fun k p j c hk => ?_,
    fun oid j hj k hk => h.objs oid j hj k (ho k j hk)⟩
  obtain ⟨hki, hk⟩ := ht _ _ _ _ hk
  rw [updAt_ne _ _ hki]
  exact h.sep k p j c hk

/-- Changing names: those of temporary files stay, names of objects do not start to refer to owned
inodes, all names refer to known inodes. -/
theorem Inv0.rename_names {root : Path} {fs fs' : FS} {ow : Nat → Own} (h : Inv0 root fs ow)
    (hd : ∀ j, (fs'.inodes j).data = (fs.inodes j).data) (hn : fs'.next = fs.next)
    (ht : ∀ i p j c, (ow i).tmp = some (p, j, c) → fs'.get p = some j)
    (hb : ∀ p j, fs'.get p = some j → ∃ q, fs.get q = some j)
    (ho : ∀ oid j, fs'.get (objPath root oid) = some j → ∀ i, ¬ (ow i).owns j) :
    Inv0 root fs' ow := by
  refine ⟨fun i p j c hi => ?_, fun p j hp => ?_, fun i j hi => ?_, h.disj, h.sep, ho⟩
  · obtain ⟨_, h2, h3⟩ := h.tmp i p j c hi
    exact ⟨ht i p j c hi, h2, fun c' e => by rw [hd]; exact h3 c' e⟩
  · obtain ⟨q, hq⟩ := hb p j hp
    rw [hn]; exact h.bound q j hq
  · rw [hn]; exact h.obound i j hi

/-- Two processes do not have the same temporary file. -/
theorem Inv0.tmp_ne {root : Path} {fs : FS} {ow : Nat → Own} (h : Inv0 root fs ow) {i i' p j j' c c'}
    (h1 : (ow i).tmp = some (p, j, c)) (h2 : (ow i').tmp = some (p, j', c')) : i = i' := by
  have e := (h.tmp i p j c h1).1
  rw [(h.tmp i' p j' c' h2).1] at e
  cases e
  exact h.disj i i' _ (.inl ⟨_, _, h1⟩) (.inl ⟨_, _, h2⟩)

/-- The invariant is about temporary upload files and owned inodes only. -/
theorem Inv0.congr {root : Path} {fs : FS} {ow ow' : Nat → Own} (h : Inv0 root fs ow)
    (h1 : ∀ i, (ow' i).tmp = (ow i).tmp) (h2 : ∀ i, (ow' i).inos = (ow i).inos) : Inv0 root fs ow' := by
  have ho : ∀ i j, (ow' i).owns j → (ow i).owns j := fun i j => (Own.owns_eq (h2 i) (by rw [h1]) j).mp
  exact ⟨fun i p j c hk => h.tmp i p j c (by rw [← h1]; exact hk), h.bound, fun i j hk => h.obound i j (ho i j hk),
    fun i i' j a b => h.disj i i' j (ho _ _ a) (ho _ _ b),
    fun i p j c hk => by rw [h2]; exact h.sep i p j c (by rw [← h1]; exact hk),
    fun oid j hj i hk => h.objs oid j hj i (ho i j hk)⟩

/-- The core step lemma: any allowed call, with any choice of the environment. -/
theorem Inv0.step_base {root : Path} {sha : Bytes → Bytes} {fs : FS} {ow : Nat → Own} (h : Inv0 root fs ow)
    (cfg : Cfg) (hr : cfg.root = root) (hs : cfg.sha = sha) (i : Nat) (o : Op) (c : Choice)
    (hm : (ow i).may cfg o) :
    Inv0 root (sem c fs o).1 (updAt ow i ((ow i).base o (sem c fs o).2)) ∧
    ObjStep root sha fs (sem c fs o).1 o (sem c fs o).2 := by
  subst hr hs
  -- nothing happens
  have same : ∀ (fs' : FS) (x : Resp o), (∀ j, (fs'.inodes j).data = (fs.inodes j).data) →
      fs'.next = fs.next → (∀ p, fs'.get p = fs.get p) → (ow i).base o x = ow i →
      Inv0 cfg.root fs' (updAt ow i ((ow i).base o x)) ∧ ObjStep cfg.root cfg.sha fs fs' o x := by
    intro fs' x hd hn hg hu
    rw [hu, updAt_self]
    refine ⟨h.rename_names hd hn (fun k p j c hk => ?_) (fun p j hp => ⟨p, by rwa [← hg]⟩) ?_,
      Inv0.objStep_same (fun oid => hg _) (fun oid j _ => hd j)⟩
    · rw [hg]; exact (h.tmp k p j c hk).1
    · intro oid j hj; exact h.objs oid j (by rwa [← hg])
  have same' : ∀ x : Resp o, (ow i).base o x = ow i →
      Inv0 cfg.root fs (updAt ow i ((ow i).base o x)) ∧ ObjStep cfg.root cfg.sha fs fs o x :=
    fun x hu => same fs x (fun _ => rfl) rfl (fun _ => rfl) hu
  -- a new inode
  have fresh : ∀ (p : Path) (uid mode : Nat) (s' : Own) (x : Resp o), fs.get p = none →
      (∀ oid, p ≠ objPath cfg.root oid) →
      (∀ j, s'.owns j → j = fs.next ∨ (ow i).owns j) →
      (∀ q j d, s'.tmp = some (q, j, d) → ((ow i).tmp = some (q, j, d) ∨
        (q = p ∧ j = fs.next ∧ d = some [] ∧ ∃ n, p = incompleteDir cfg.root ++ [n])) ∧ j ∉ s'.inos) →
      Inv0 cfg.root (fs.create p uid mode) (updAt ow i s') ∧
        ObjStep cfg.root cfg.sha fs (fs.create p uid mode) o x := by
    intro p uid mode s' x hp hpo hown htmp
    have hfresh : ∀ q j, fs.get q = some j → j ≠ fs.next := fun q j hq e =>
      Nat.ne_of_lt (h.bound q j hq) e
    have hown' : ∀ k j, (updAt ow i s' k).owns j → (k = i ∧ j = fs.next) ∨ (ow k).owns j := by
      intro k j hk
      by_cases hki : k = i
      · subst hki; rw [updAt_same] at hk
        rcases hown j hk with e | e
        · exact .inl ⟨rfl, e⟩
        · exact .inr e
      · rw [updAt_ne _ _ hki] at hk; exact .inr hk
    have old : ∀ k q j d, (ow k).tmp = some (q, j, d) → (fs.create p uid mode).get q = some j ∧
        (∃ n, q = incompleteDir cfg.root ++ [n]) ∧
        ∀ c', d = some c' → ((fs.create p uid mode).inodes j).data = c' := by
      intro k q j d hk
      obtain ⟨h1, h2, h3⟩ := h.tmp k q j d hk
      refine ⟨?_, h2, fun c' e => ?_⟩
      · rw [FS.get_create, if_neg, h1]
        rintro rfl; rw [hp] at h1; cases h1
      · rw [FS.data_create, if_neg (hfresh _ _ h1)]
        exact h3 c' e
    refine ⟨⟨?_, ?_, ?_, ?_, ?_, ?_⟩, Inv0.objStep_same ?_ ?_⟩
    · intro k q j d hk
      by_cases hki : k = i
      · subst hki; rw [updAt_same] at hk
        rcases (htmp q j d hk).1 with e | ⟨rfl, rfl, rfl, hn⟩
        · exact old k q j d e
        · refine ⟨by simp, hn, ?_⟩
          rintro c' ⟨⟩
          simp [FS.data_create]
      · rw [updAt_ne _ _ hki] at hk; exact old k q j d hk
    · intro q j hq
      rw [FS.get_create] at hq
      rw [FS.next_create]
      split at hq
      · cases hq; exact Nat.lt_succ_self _
      · exact Nat.lt_succ_of_lt (h.bound q j hq)
    · intro k j hk
      rw [FS.next_create]
      rcases hown' k j hk with ⟨_, rfl⟩ | e
      · exact Nat.lt_succ_self _
      · exact Nat.lt_succ_of_lt (h.obound k j e)
    · intro k k' j h1 h2
      rcases hown' k j h1 with ⟨hk, hj⟩ | e1 <;> rcases hown' k' j h2 with ⟨hk', hj'⟩ | e2
      · rw [hk, hk']
      · exact absurd hj (Nat.ne_of_lt (h.obound k' _ e2))
      · exact absurd hj' (Nat.ne_of_lt (h.obound k _ e1))
      · exact h.disj k k' j e1 e2
    · intro k q j d hk
      by_cases hki : k = i
      · subst hki; rw [updAt_same] at hk ⊢; exact (htmp q j d hk).2
      · rw [updAt_ne _ _ hki] at hk ⊢; exact h.sep k q j d hk
    · intro oid j hj k hk
      rw [FS.get_create, if_neg (fun e => hpo oid e.symm)] at hj
      rcases hown' k j hk with ⟨_, e⟩ | e
      · exact hfresh _ _ hj e
      · exact h.objs oid j hj k e
    · intro oid
      rw [FS.get_create, if_neg (fun e => hpo oid e.symm)]
    · intro oid j hj
      rw [FS.data_create, if_neg (hfresh _ _ hj)]
  cases o with
  | mkdirAll p =>
    simp only [sem]
    split
    · exact same _ _ (fun _ => rfl) rfl (fun _ => rfl) rfl
    · split
      · exact same' _ rfl
      · exact same _ _ (fun _ => rfl) rfl (fun _ => rfl) rfl
  | createTemp dir pre uid =>
    obtain ⟨rfl, hnone⟩ := hm
    simp only [sem]
    split
    · exact same' _ rfl
    · split
      · obtain ⟨sfx, hf⟩ := fs.freshName_dir (incompleteDir cfg.root) (pre ++ c.rand)
        refine fresh _ _ _ _ _ (fs.freshName_unused _ _).1 (fun oid => ?_) (fun j hj => ?_) (fun q j d hq => ?_)
        · rw [hf]; exact incomplete_ne_obj _ _ _
        · rcases hj with ⟨q, d, hj⟩ | hj
          · simp only [Own.base, Option.some.injEq, Prod.mk.injEq] at hj
            exact .inl hj.2.1.symm
          · exact .inr (.inr hj)
        · simp only [Own.base, Option.some.injEq, Prod.mk.injEq] at hq
          obtain ⟨rfl, rfl, rfl⟩ := hq
          refine ⟨.inr ⟨rfl, rfl, rfl, _, hf⟩, fun hj => ?_⟩
          exact Nat.lt_irrefl _ (h.obound i _ (.inr hj))
      · exact same' _ rfl
  | createNew p uid =>
    obtain ⟨x, rfl⟩ := hm
    simp only [sem]
    split
    · exact same' _ rfl
    · split
      · exact same' _ rfl
      · rename_i hex
        split
        · refine fresh _ _ _ _ _ ?_ (fun oid => locks_ne_obj _ _ _) (fun j hj => ?_) (fun q j d hq => ?_)
          · simp only [Bool.or_eq_true, not_or, Bool.not_eq_true, Option.isSome_eq_false_iff,
              Option.isNone_iff_eq_none] at hex
            exact hex.1
          · rcases hj with hj | hj
            · exact .inr (.inl hj)
            · simp only [Own.base, List.mem_cons] at hj
              rcases hj with hj | hj
              · exact .inl hj
              · exact .inr (.inr hj)
          · refine ⟨.inl hq, fun hj => ?_⟩
            simp only [Own.base, List.mem_cons] at hj
            rcases hj with rfl | hj
            · exact Nat.lt_irrefl _ (h.obound i _ (.inl ⟨_, _, hq⟩))
            · exact h.sep i q j d hq hj
        · exact same' _ rfl
  | write ino b =>
    replace hm : (ow i).owns ino := hm.imp id And.left
    simp only [sem]
    split
    · obtain ⟨h1, h2⟩ := h.write i ino b (b.take c.cut) false (fun e => by cases e) hm
      exact ⟨h1, Inv0.objStep_same (fun _ => by simp) h2⟩
    · obtain ⟨h1, h2⟩ := h.write i ino b b true (fun _ => rfl) hm
      exact ⟨h1, Inv0.objStep_same (fun _ => by simp) h2⟩
  | rename src dst =>
    obtain ⟨ino, d, ht, hv, rfl⟩ := hm
    obtain ⟨hg, ⟨n, hn⟩, hd⟩ := h.tmp i src ino _ ht
    simp only [sem, hg]
    split
    · exact same' _ rfl
    · split
      · exact same' _ rfl
      · split
        · exact same' _ rfl
        · split
          · rename_i hdst
            exact absurd (Or.inl ⟨_, _, ht⟩) (h.objs _ _ hdst i)
          · have h0 := h.drop_tmp i
            have hno : ∀ k, ¬ (updAt ow i { ow i with tmp := none } k).owns ino := by
              intro k hk
              by_cases hki : k = i
              · subst hki; rw [updAt_same] at hk
                rcases hk with ⟨_, _, hk⟩ | hk
                · cases hk
                · exact h.sep k _ _ _ ht hk
              · rw [updAt_ne _ _ hki] at hk
                exact hki (h.disj k i ino hk (.inl ⟨_, _, ht⟩))
            refine ⟨h0.rename_names (fun _ => rfl) rfl (fun k p j e hk => ?_) (fun p j hp => ?_)
              (fun oid j hj => ?_), fun oid => ?_⟩
            · have hki : k ≠ i := by
                rintro rfl; rw [updAt_same] at hk; cases hk
              rw [updAt_ne _ _ hki] at hk
              obtain ⟨g1, ⟨m, g2⟩, _⟩ := h.tmp k p j e hk
              have n1 : p ≠ objPath cfg.root (hexEncode (cfg.sha d)) := by rw [g2]; exact incomplete_ne_obj _ _ _
              have n2 : p ≠ src := by
                rintro rfl; exact hki (h.tmp_ne hk ht)
              simp [n1, n2, g1]
            · simp only [FS.get_setName, FS.get_delName] at hp
              split at hp
              · cases hp; exact ⟨src, hg⟩
              · split at hp
                · cases hp
                · exact ⟨p, hp⟩
            · simp only [FS.get_setName, FS.get_delName] at hj
              split at hj
              · cases hj; exact hno
              · split at hj
                · cases hj
                · exact h0.objs oid j hj
            · by_cases ho : objPath cfg.root oid = objPath cfg.root (hexEncode (cfg.sha d))
              · right
                refine ⟨src, d, by rw [ho], ?_, ?_⟩
                · simp [FS.content, ho, hd d rfl]
                · simp only [objPath, List.append_cancel_left_eq, List.cons.injEq, and_true, true_and] at ho
                  exact ho.2.2.symm
              · left
                have n3 : objPath cfg.root oid ≠ src := by
                  rw [hn]; exact (incomplete_ne_obj _ _ _).symm
                refine content_eq ?_ (fun _ _ => rfl)
                simp [ho, n3]
  | link src dst =>
    obtain ⟨x, _, _, rfl, rfl, _⟩ := hm
    simp only [sem]
    split
    · exact same' _ rfl
    · split
      · exact same' _ rfl
      · rename_i ino hg
        split
        · exact same' _ rfl
        · rename_i hex
          simp only [Bool.or_eq_true, not_or, Bool.not_eq_true, Option.isSome_eq_false_iff,
              Option.isNone_iff_eq_none] at hex
          split
          · exact same' _ rfl
          · have e : ∀ y, (ow i).base (.link (lockTemp cfg x) (lockPath cfg x)) y = ow i := fun _ => rfl
            rw [e, updAt_self]
            refine ⟨h.rename_names (fun _ => rfl) rfl (fun k p j e hk => ?_) (fun p j hp => ?_)
              (fun oid j hj => ?_), Inv0.objStep_same (fun oid => ?_) (fun _ _ _ => rfl)⟩
            · obtain ⟨g1, ⟨m, g2⟩, _⟩ := h.tmp k p j e hk
              rw [FS.get_setName, if_neg, g1]
              rw [g2]; exact (locks_ne_incomplete _ _ _).symm
            · rw [FS.get_setName] at hp
              split at hp
              · cases hp; exact ⟨_, hg⟩
              · exact ⟨p, hp⟩
            · rw [FS.get_setName, if_neg (show objPath cfg.root oid ≠ lockPath cfg x from (locks_ne_obj _ _ _).symm)] at hj
              exact h.objs oid j hj
            · rw [FS.get_setName, if_neg (show objPath cfg.root oid ≠ lockPath cfg x from (locks_ne_obj _ _ _).symm)]
  | unlink p =>
    -- removal of a name that is not an object path, nor another process's temporary file
    have key : (∀ oid, p ≠ objPath cfg.root oid) → (∀ k, k ≠ i → ∀ j d, (ow k).tmp ≠ some (p, j, d)) →
        ∀ (fs' : FS) (x : Resp (.unlink p)), (fs' = fs ∨ fs' = fs.delName p) →
        Inv0 cfg.root fs' (updAt ow i ((ow i).base (.unlink p) x)) ∧
          ObjStep cfg.root cfg.sha fs fs' (.unlink p) x := by
      intro hpo hpt fs' x hfs
      have h0 : Inv0 cfg.root fs (updAt ow i ((ow i).base (.unlink p) x)) := by
        show Inv0 cfg.root fs (updAt ow i ((ow i).removed p))
        unfold Own.removed
        split
        · split
          · exact h.drop_tmp i
          · rw [updAt_self]; exact h
        · rw [updAt_self]; exact h
      rcases hfs with rfl | rfl
      · exact ⟨h0, Inv0.objStep_same (fun _ => rfl) fun _ _ _ => rfl⟩
      · refine ⟨h0.rename_names (fun _ => rfl) rfl (fun k q j e hk => ?_) (fun q j hq => ?_)
          (fun oid j hj => ?_), Inv0.objStep_same (fun oid => ?_) (fun _ _ _ => rfl)⟩
        · rw [FS.get_delName, if_neg]
          · exact (h0.tmp k q j e hk).1
          · rintro rfl
            by_cases hki : k = i
            · subst hki
              rw [updAt_same] at hk
              have : ((ow k).removed q).tmp = some (q, j, e) := hk
              unfold Own.removed at this
              split at this
              · split at this
                · cases this
                · rename_i hs hne
                  rw [hs] at this
                  simp only [Option.some.injEq, Prod.mk.injEq] at this
                  exact hne this.1
              · rename_i hs; rw [hs] at this; cases this
            · rw [updAt_ne _ _ hki] at hk
              exact hpt k hki j e hk
        · rw [FS.get_delName] at hq
          split at hq
          · cases hq
          · exact ⟨q, hq⟩
        · rw [FS.get_delName, if_neg (hpo oid).symm] at hj
          exact h0.objs oid j hj
        · rw [FS.get_delName, if_neg (hpo oid).symm]
    have key' := fun (a : ∀ oid, p ≠ objPath cfg.root oid)
        (b : ∀ k, k ≠ i → ∀ j d, (ow k).tmp ≠ some (p, j, d)) =>
      key a b (sem c fs (.unlink p)).1 (sem c fs (.unlink p)).2 (by
        simp only [sem]
        split
        · exact .inl rfl
        · split
          · exact .inr rfl
          · split <;> exact .inl rfl)
    have lock : ∀ n, p = locksDir cfg.root ++ [n] → (∀ oid, p ≠ objPath cfg.root oid) ∧
        (∀ k, k ≠ i → ∀ j d, (ow k).tmp ≠ some (p, j, d)) := by
      rintro n rfl
      refine ⟨fun oid => locks_ne_obj _ _ _, fun k _ j d hk => ?_⟩
      obtain ⟨_, ⟨m, g2⟩, _⟩ := h.tmp k _ j d hk
      exact locks_ne_incomplete _ _ _ g2
    rcases hm with ⟨j, d, ht⟩ | ⟨x, ⟨hx, _⟩ | hx⟩
    · obtain ⟨_, ⟨m, g2⟩, _⟩ := h.tmp i p j d ht
      exact key' (fun oid => by rw [g2]; exact incomplete_ne_obj _ _ _)
        (fun k hk j' d' hk' => hk (h.tmp_ne hk' ht))
    · exact key' (lock _ hx).1 (lock _ hx).2
    · exact key' (lock _ hx).1 (lock _ hx).2
  | chmod p m =>
    simp only [sem]
    split
    · exact same' _ rfl
    · split
      · exact same _ _ (fun j => fs.data_chmod _ _ j) rfl (fun _ => rfl) rfl
      · split <;> exact same' _ rfl
  | stat p =>
    have : (sem c fs (.stat p)).1 = fs := by
      simp only [sem]; repeat' split
      all_goals rfl
    rw [this]; exact same' _ rfl
  | openRead p =>
    have : (sem c fs (.openRead p)).1 = fs := by
      simp only [sem]; repeat' split
      all_goals rfl
    rw [this]; exact same' _ rfl
  | fstat p =>
    have : (sem c fs (.fstat p)).1 = fs := by
      simp only [sem]; repeat' split
      all_goals rfl
    rw [this]; exact same' _ rfl
  | readAll p =>
    have : (sem c fs (.readAll p)).1 = fs := by
      simp only [sem]; repeat' split
      all_goals rfl
    rw [this]; exact same' _ rfl
  | readDir p =>
    have : (sem c fs (.readDir p)).1 = fs := by
      simp only [sem]; repeat' split
      all_goals rfl
    rw [this]; exact same' _ rfl
  | now => exact same' _ rfl
  | out b =>
    have : (sem c fs (.out b)).1 = fs := by
      simp only [sem]; split <;> rfl
    rw [this]; exact same' _ rfl
  | flush =>
    have : (sem c fs .flush).1 = fs := by
      simp only [sem]; split <;> rfl
    rw [this]; exact same' _ rfl

theorem Inv0.step {root : Path} {sha : Bytes → Bytes} {fs : FS} {ow : Nat → Own} (h : Inv0 root fs ow)
    (cfg : Cfg) (hr : cfg.root = root) (hs : cfg.sha = sha) (i : Nat) (o : Op) (c : Choice)
    (hm : (ow i).may cfg o) :
    Inv0 root (sem c fs o).1 (updAt ow i ((ow i).upd o (sem c fs o).2)) ∧
    ObjStep root sha fs (sem c fs o).1 o (sem c fs o).2 := by
  obtain ⟨h1, h2⟩ := h.step_base cfg hr hs i o c hm
  refine ⟨h1.congr (fun k => ?_) (fun k => ?_), h2⟩ <;>
  · by_cases hk : k = i
    · subst hk; simp
    · simp [updAt_ne _ _ hk]

theorem sem_next (c : Choice) (fs : FS) (o : Op) : fs.next ≤ (sem c fs o).1.next := by
  cases o <;> simp only [sem] <;> (repeat' split) <;> first | exact Nat.le_refl _ | exact Nat.le_succ _

/-- A call changes the content of existing inodes only by writing to them. -/
theorem sem_data (c : Choice) (fs : FS) (o : Op) (j : Ino) (hj : j < fs.next)
    (ho : ∀ b, o ≠ .write j b) : ((sem c fs o).1.inodes j).data = (fs.inodes j).data := by
  cases o with
  | createTemp d pre uid =>
    simp only [sem]; split
    · rfl
    · split
      · rw [FS.data_create, if_neg (Nat.ne_of_lt hj)]
      · rfl
  | createNew p uid =>
    simp only [sem]; split
    · rfl
    · split
      · rfl
      · split
        · rw [FS.data_create, if_neg (Nat.ne_of_lt hj)]
        · rfl
  | write i b =>
    have : j ≠ i := by rintro rfl; exact ho b rfl
    simp only [sem]; split <;> simp [FS.data_append, this]
  | chmod p m =>
    simp only [sem]; split
    · rfl
    · split
      · exact fs.data_chmod _ _ j
      · split <;> rfl
  | _ => simp only [sem] <;> (repeat' split) <;> rfl

theorem Own.base_owns {s : Own} {c : Choice} {fs : FS} {o : Op} {j : Ino}
    (h : (s.base o (sem c fs o).2).owns j) : s.owns j ∨ fs.next ≤ j := by
  cases o with
  | createTemp d pre uid =>
    simp only [sem] at h
    split at h
    · exact .inl h
    · split at h
      · rcases h with ⟨p, d, h⟩ | h
        · simp only [Own.base, Option.some.injEq, Prod.mk.injEq] at h
          exact .inr (Nat.le_of_eq h.2.1)
        · exact .inl (.inr h)
      · exact .inl h
  | createNew p uid =>
    simp only [sem] at h
    split at h
    · exact .inl h
    · split at h
      · exact .inl h
      · split at h
        · rcases h with h | h
          · exact .inl (.inl h)
          · simp only [Own.base, List.mem_cons] at h
            rcases h with h | h
            · exact .inr (Nat.le_of_eq h.symm)
            · exact .inl (.inr h)
        · exact .inl h
  | write i b =>
    cases hx : (sem c fs (.write i b)).2 with
    | ok u => rw [hx] at h; exact .inl ((Own.wrote_owns _ _ _ _ _).mp h)
    | error e => rw [hx] at h; exact .inl ((Own.wrote_owns _ _ _ _ _).mp h)
  | rename a b =>
    cases hx : (sem c fs (.rename a b)).2 with
    | ok u =>
      rw [hx] at h
      rcases h with ⟨_, _, h⟩ | h
      · cases h
      · exact .inl (.inr h)
    | error e => rw [hx] at h; exact .inl h
  | unlink p =>
    have h' : (s.removed p).owns j := h
    unfold Own.removed at h'
    split at h'
    · split at h'
      · rcases h' with ⟨_, _, h'⟩ | h'
        · cases h'
        · exact .inl (.inr h')
      · exact .inl h'
    · exact .inl h'
  | _ => exact .inl h

theorem Own.upd_owns {s : Own} {c : Choice} {fs : FS} {o : Op} {j : Ino}
    (h : (s.upd o (sem c fs o).2).owns j) : s.owns j ∨ fs.next ≤ j := Own.base_owns h

/-! ### Whose files are whose -/

/-- Files with a name below the LFS directory or on the way to it, and files open for writing, were made there. -/
structure Inv (root : Path) (fs : FS) (ow : Nat → Own) : Prop extends Inv0 root fs ow where
  home : ∀ p j, near root p = true → fs.get p = some j → near root (fs.inodes j).born = true
  ohome : ∀ i j, (ow i).owns j → root <+: (fs.inodes j).born

/-- The inode `j` is not open for writing in any process, and never will be. -/
def Sealed (root : Path) (fs : FS) (ow : Nat → Own) (j : Ino) : Prop :=
  j < fs.next ∧ near root (fs.inodes j).born = true ∧ ∀ i, ¬ (ow i).owns j

/-- The name an existing file was created under stays the same. -/
theorem sem_born (c : Choice) (fs : FS) (o : Op) (j : Ino) (hj : j < fs.next) :
    ((sem c fs o).1.inodes j).born = (fs.inodes j).born := by
  have hne : j ≠ fs.next := Nat.ne_of_lt hj
  cases o with
  | createTemp d pre uid =>
    simp only [sem]; split
    · rfl
    · split
      · simp [FS.create, hne]
      · rfl
  | createNew p uid =>
    simp only [sem]; split
    · rfl
    · split
      · rfl
      · split
        · simp [FS.create, hne]
        · rfl
  | write i b =>
    simp only [sem]
    split <;> (simp only [FS.append, FS.setInode]; split <;> simp_all)
  | chmod p m =>
    simp only [sem]; split
    · rfl
    · split
      · simp only [FS.setInode]; split <;> simp_all
      · split <;> rfl
  | _ => simp only [sem] <;> (repeat' split) <;> rfl

/-- A new file was created by this call. -/
theorem sem_made (c : Choice) (fs : FS) (o : Op) (j : Ino) (hj : fs.next ≤ j) (hj' : j < (sem c fs o).1.next) :
    (∃ d pre uid, o = .createTemp d pre uid ∧ d <+: ((sem c fs o).1.inodes j).born) ∨
    ∃ p uid, o = .createNew p uid ∧ ((sem c fs o).1.inodes j).born = p := by
  have no : ¬ j < fs.next := Nat.not_lt.mpr hj
  cases o with
  | createTemp d pre uid =>
    refine .inl ⟨d, pre, uid, rfl, ?_⟩
    simp only [sem] at hj' ⊢
    split at hj'
    · exact absurd hj' no
    · split at hj'
      · rename_i h2
        have e : j = fs.next := Nat.le_antisymm (Nat.lt_succ_iff.mp hj') hj
        obtain ⟨sfx, hf⟩ := fs.freshName_dir d (pre ++ c.rand)
        simp only [h2, if_true, FS.create, e, hf]
        exact List.prefix_append _ _
      · exact absurd hj' no
  | createNew p uid =>
    refine .inr ⟨p, uid, rfl, ?_⟩
    simp only [sem] at hj' ⊢
    split at hj'
    · exact absurd hj' no
    · split at hj'
      · exact absurd hj' no
      · split at hj'
        · rename_i h1 h2 h3
          have e : j = fs.next := Nat.le_antisymm (Nat.lt_succ_iff.mp hj') hj
          rw [if_neg h2, if_pos h3]
          simp [FS.create, e]
        · exact absurd hj' no
  | now => exact absurd hj' no
  | _ => simp only [sem] at hj'; (repeat' split at hj') <;> exact absurd hj' no

/-- Names are names of before, or given by this call. -/
theorem sem_names (c : Choice) (fs : FS) (o : Op) {p : Path} {j : Ino} (h : (sem c fs o).1.get p = some j) :
    fs.get p = some j ∨ j = fs.next ∨
      ∃ src, fs.get src = some j ∧ (o = .rename src p ∨ o = .link src p) := by
  cases o with
  | createTemp d pre uid =>
    simp only [sem] at h
    (repeat' split at h) <;> try exact .inl h
    rw [FS.get_create] at h
    split at h
    · cases h; exact .inr (.inl rfl)
    · exact .inl h
  | createNew q uid =>
    simp only [sem] at h
    (repeat' split at h) <;> try exact .inl h
    rw [FS.get_create] at h
    split at h
    · cases h; exact .inr (.inl rfl)
    · exact .inl h
  | rename src dst =>
    simp only [sem] at h
    (repeat' split at h) <;> try exact .inl h
    rename_i hs _ _ _
    rw [FS.get_setName] at h
    split at h
    · rename_i e
      cases h; subst e
      exact .inr (.inr ⟨src, hs, .inl rfl⟩)
    · rw [FS.get_delName] at h
      split at h
      · cases h
      · exact .inl h
  | link src dst =>
    simp only [sem] at h
    (repeat' split at h) <;> try exact .inl h
    rename_i hs _ _
    rw [FS.get_setName] at h
    split at h
    · rename_i e
      cases h; subst e
      exact .inr (.inr ⟨src, hs, .inr rfl⟩)
    · exact .inl h
  | unlink q =>
    simp only [sem] at h
    (repeat' split at h) <;> try exact .inl h
    rw [FS.get_delName] at h
    split at h
    · cases h
    · exact .inl h
  | now => exact .inl h
  | _ => simp only [sem] at h; (repeat' split at h) <;> exact .inl h

theorem may_createTemp_below {cfg : Cfg} {s : Own} {d : Path} {pre : Bytes} {uid : Nat} (h : s.may cfg (.createTemp d pre uid)) :
    cfg.root <+: d := by
  obtain ⟨rfl, _⟩ := h; exact List.prefix_append _ _

theorem may_createNew_below {cfg : Cfg} {s : Own} {p : Path} {uid : Nat} (h : s.may cfg (.createNew p uid)) :
    cfg.root <+: p := by
  obtain ⟨x, rfl⟩ := h
  exact (List.prefix_append _ _).trans (List.prefix_append _ _)

/-- What a server makes, it makes below its LFS directory. -/
theorem may_made {cfg : Cfg} {s : Own} {fs : FS} {o : Op} (c : Choice) (hm : s.may cfg o) {j : Ino} (hj : fs.next ≤ j)
    (hj' : j < (sem c fs o).1.next) : cfg.root <+: ((sem c fs o).1.inodes j).born := by
  rcases sem_made c fs o j hj hj' with ⟨d, pre, uid, rfl, h⟩ | ⟨p, uid, rfl, h⟩
  · exact (may_createTemp_below hm).trans h
  · rw [h]; exact may_createNew_below hm

theorem Inv.step {root : Path} {sha : Bytes → Bytes} {fs : FS} {ow : Nat → Own} (h : Inv root fs ow)
    (cfg : Cfg) (hr : cfg.root = root) (hs : cfg.sha = sha) (i : Nat) (o : Op) (c : Choice)
    (hm : (ow i).may cfg o) :
    Inv root (sem c fs o).1 (updAt ow i ((ow i).upd o (sem c fs o).2)) ∧
    ObjStep root sha fs (sem c fs o).1 o (sem c fs o).2 := by
  obtain ⟨h0, h1⟩ := h.toInv0.step cfg hr hs i o c hm
  have new : ∀ j, fs.next ≤ j → j < (sem c fs o).1.next → root <+: ((sem c fs o).1.inodes j).born := by
    intro j hj hj'
    rw [← hr]
    exact may_made c hm hj hj'
  refine ⟨⟨h0, fun p j hp hj => ?_, fun k j hk => ?_⟩, h1⟩
  · by_cases hlt : j < fs.next
    · rw [sem_born c fs o j hlt]
      rcases sem_names c fs o hj with hj | rfl | ⟨src, hsrc, ho⟩
      · exact h.home p j hp hj
      · exact absurd hlt (Nat.lt_irrefl _)
      · refine h.home src j ?_ hsrc
        subst hr
        rcases ho with rfl | rfl
        · obtain ⟨ino, d, ht, _⟩ := hm
          obtain ⟨_, ⟨n, rfl⟩, _⟩ := h.tmp i src ino _ ht
          exact near_of_prefix ((List.prefix_append _ _).trans (List.prefix_append _ _))
        · obtain ⟨x, t, ino, rfl, _⟩ := hm
          exact near_of_prefix ((List.prefix_append _ _).trans (List.prefix_append _ _))
    · exact near_of_prefix (new j (Nat.not_lt.mp hlt) (h0.bound _ _ hj))
  · by_cases hlt : j < fs.next
    · rw [sem_born c fs o j hlt]
      by_cases hki : k = i
      · subst hki
        rw [updAt_same] at hk
        rcases Own.upd_owns hk with e | e
        · exact h.ohome k j e
        · exact absurd hlt (Nat.not_lt.mpr e)
      · rw [updAt_ne _ _ hki] at hk
        exact h.ohome k j hk
    · exact new j (Nat.not_lt.mp hlt) (h0.obound _ _ hk)

/-- A write by the owner of the inode. -/
theorem Inv.write {root : Path} {fs : FS} {ow : Nat → Own} (h : Inv root fs ow) (i : Nat) (ino : Ino)
    (b b' : Bytes) (ok : Bool) (hb : ok = true → b' = b) (hm : (ow i).owns ino) :
    Inv root (fs.append ino b') (updAt ow i ((ow i).wrote ino b ok)) ∧
    ∀ oid j, fs.get (objPath root oid) = some j →
      ((fs.append ino b').inodes j).data = (fs.inodes j).data := by
  obtain ⟨h0, h1⟩ := h.toInv0.write i ino b b' ok hb hm
  have born : ∀ j, ((fs.append ino b').inodes j).born = (fs.inodes j).born := by
    intro j
    simp only [FS.append, FS.setInode]; split <;> simp_all
  refine ⟨⟨h0, fun p j hp hj => ?_, fun k j hk => ?_⟩, h1⟩
  · rw [born]; exact h.home p j hp (by simpa using hj)
  · rw [born]
    by_cases hki : k = i
    · subst hki
      rw [updAt_same] at hk
      exact h.ohome k j ((Own.wrote_owns _ _ _ _ _).mp hk)
    · rw [updAt_ne _ _ hki] at hk
      exact h.ohome k j hk

theorem Inv.congr {root : Path} {fs : FS} {ow ow' : Nat → Own} (h : Inv root fs ow)
    (h1 : ∀ i, (ow' i).tmp = (ow i).tmp) (h2 : ∀ i, (ow' i).inos = (ow i).inos) : Inv root fs ow' :=
  ⟨h.toInv0.congr h1 h2, h.home, fun i j hk => h.ohome i j ((Own.owns_eq (h2 i) (by rw [h1]) j).mp hk)⟩

/-- Other programs at work. -/
theorem Inv.elsewhere {root : Path} {fs fs' : FS} {ow : Nat → Own} (h : Inv root fs ow) (he : Elsewhere root fs fs') :
    Inv root fs' ow := by
  refine ⟨⟨fun i p j c hi => ?_, fun p j hp => ?_, fun i j hi => Nat.lt_of_lt_of_le (h.obound i j hi) he.next, h.disj,
    h.sep, fun oid j hj => h.objs oid j ?_⟩, fun p j hp hj => ?_, fun i j hi => ?_⟩
  · obtain ⟨h1, ⟨n, rfl⟩, h3⟩ := h.tmp i p j c hi
    refine ⟨?_, ⟨n, rfl⟩, fun c' e => by
      rw [(he.inodes j (h.bound _ _ h1) (near_of_prefix (h.ohome i j (.inl ⟨_, _, hi⟩)))).1]; exact h3 c' e⟩
    rw [he.get (near_of_prefix ⟨[b!"incomplete", n], by simp [incompleteDir]⟩)]; exact h1
  · rcases he.files p j hp with ⟨q, hq⟩ | h
    · exact Nat.lt_of_lt_of_le (h.bound q j hq) he.next
    · exact h.2
  · rw [← he.get (near_of_prefix (objPath_below root oid))]; exact hj
  · rw [he.get hp] at hj
    have := h.home p j hp hj
    rw [(he.inodes j (h.bound _ _ hj) this).2.2]; exact this
  · have := h.ohome i j hi
    rw [(he.inodes j (h.obound i j hi) (near_of_prefix this)).2.2]; exact this

/-! ### Reachable states -/

/-- The invariant of the whole system. -/
def Good (root : Path) (sha : Bytes → Bytes) (s : Sys) (ow : Nat → Own) : Prop :=
  Inv root s.fs ow ∧ ∀ i, ∃ cfg : Cfg, cfg.root = root ∧ cfg.sha = sha ∧
    (s.procs i).wp (Logic.own cfg) (ow i) (fun _ _ => True)

theorem Inv0.init {root : Path} {fs : FS} (hb : ∀ p i, fs.get p = some i → i < fs.next) :
    Inv0 root fs (fun _ => ⟨none, [], none⟩) := by
  have no : ∀ j, ¬ Own.owns ⟨none, [], none⟩ j := by
    rintro j (⟨_, _, h⟩ | h) <;> cases h
  exact ⟨fun _ _ _ _ h => (by cases h), hb, fun _ j h => absurd h (no j), fun _ _ j h => absurd h (no j),
    fun _ _ _ _ h => (by cases h), fun _ j _ _ h => no j h⟩

theorem Good.start {root : Path} {sha : Bytes → Bytes} {s : Sys} (h : Start root sha s) :
    Good root sha s (fun _ => ⟨none, [], none⟩) := by
  refine ⟨⟨.init h.bound, h.home, fun i j => by rintro (⟨_, _, h⟩ | h) <;> cases h⟩, fun i => ?_⟩
  obtain ⟨cfg, op, r, hp, h1, h2⟩ := h.procs i
  refine ⟨cfg, h1, h2, ?_⟩
  rw [hp]
  exact Prog.wp_mono (own_mainProg cfg op r) fun _ _ _ => trivial

/-- How the ghost state follows a step. -/
inductive Follows (root : Path) (sha : Bytes → Bytes) (fs : FS) (ow : Nat → Own) :
    Option (Nat × Event) → FS → (Nat → Own) → Prop
  | call (cfg : Cfg) (i : Nat) (o : Op) (c : Choice) : cfg.root = root → cfg.sha = sha → (ow i).may cfg o →
      Follows root sha fs ow (some (i, ⟨o, (sem c fs o).2⟩)) (sem c fs o).1
        (updAt ow i ((ow i).upd o (sem c fs o).2))
  | writeSome (cfg : Cfg) (i : Nat) (ino : Ino) (b : Bytes) (n : Nat) : cfg.root = root → cfg.sha = sha →
      (ow i).may cfg (.write ino b) →
      Follows root sha fs ow none (fs.append ino (b.take n))
        (updAt ow i ((ow i).upd (.write ino (b.take n)) (.ok ())))
  | quiet (fs' : FS) : (∀ p, root <+: p → fs'.get p = fs.get p) → (∀ j, j < fs.next → near root (fs.inodes j).born = true → (fs'.inodes j).data = (fs.inodes j).data) →
      fs.next ≤ fs'.next →
      Follows root sha fs ow none fs' ow

/-- A step, with all there is to know about it: which call is allowed, and how the ghost state follows. -/
inductive Moves (root : Path) (sha : Bytes → Bytes) (s : Sys) (ow : Nat → Own) :
    Option (Nat × Event) → Sys → (Nat → Own) → Prop
  | call (cfg : Cfg) (i : Nat) (o : Op) (k : Resp o → Prog Exit) (c : Choice) : s.procs i = .call o k →
      cfg.root = root → cfg.sha = sha → (ow i).may cfg o →
      Moves root sha s ow (some (i, ⟨o, (sem c s.fs o).2⟩)) ⟨(sem c s.fs o).1, s.setProc i (k (sem c s.fs o).2)⟩
        (updAt ow i ((ow i).upd o (sem c s.fs o).2))
  | writeSome (cfg : Cfg) (i : Nat) (ino : Ino) (b : Bytes) (n : Nat) (k : Resp (.write ino b) → Prog Exit) :
      s.procs i = .call (.write ino b) k → cfg.root = root → cfg.sha = sha → (ow i).may cfg (.write ino b) →
      Moves root sha s ow none ⟨s.fs.append ino (b.take n), s.setProc i (.call (.write ino (b.drop n)) k)⟩
        (updAt ow i ((ow i).upd (.write ino (b.take n)) (.ok ())))
  | mkdirSome (cfg : Cfg) (i : Nat) (p : Path) (n : Nat) (e : IoErr) (k : Resp (.mkdirAll p) → Prog Exit) :
      s.procs i = .call (.mkdirAll p) k → cfg.root = root → cfg.sha = sha → (ow i).may cfg (.mkdirAll p) →
      Moves root sha s ow none
        ⟨(sem { Choice.none with fault := some e, cut := n } s.fs (.mkdirAll p)).1, s.procs⟩ ow
  | kill (i : Nat) : Moves root sha s ow none ⟨s.fs, s.setProc i (.ret ⟨137, []⟩)⟩ ow
  | elsewhere (fs' : FS) : Elsewhere root s.fs fs' → Moves root sha s ow none ⟨fs', s.procs⟩ ow

theorem Moves.follows {root : Path} {sha : Bytes → Bytes} {s s' : Sys} {ow ow' : Nat → Own}
    {l : Option (Nat × Event)} (h : Moves root sha s ow l s' ow') : Follows root sha s.fs ow l s'.fs ow' := by
  cases h with
  | call cfg i o k c hp h1 h2 hm => exact .call cfg i o c h1 h2 hm
  | writeSome cfg i ino b n k hp h1 h2 hm => exact .writeSome cfg i ino b n h1 h2 hm
  | mkdirSome => exact .quiet _ (fun _ _ => rfl) (fun _ _ _ => rfl) (Nat.le_refl _)
  | kill => exact .quiet _ (fun _ _ => rfl) (fun _ _ _ => rfl) (Nat.le_refl _)
  | elsewhere fs' he => exact .quiet _ (fun p hp => he.get (near_of_prefix hp)) (fun j h1 h2 => (he.inodes j h1 h2).1) he.next

theorem winWrote_winWrote (w : Option (Path × Option (Ino × Option Bytes))) (i : Ino) (a b : Bytes) (ok : Bool) :
    winWrote (winWrote w i a true) i b ok = winWrote w i (a ++ b) ok := by
  match w with
  | none => rfl
  | some (p, none) => rfl
  | some (p, some (j, d)) =>
    by_cases hj : j = i
    · subst hj
      cases ok
      · simp [winWrote]
      · cases d <;> simp [winWrote]
    · simp [winWrote, hj]

/-- A write in two parts. -/
theorem Own.upd_write_parts (s : Own) (ino : Ino) (b : Bytes) (n : Nat) (x : Resp (.write ino b)) :
    Own.upd (s.upd (.write ino (b.take n)) (.ok ())) (.write ino (b.drop n)) x = s.upd (.write ino b) x := by
  have key : ∀ ok : Bool, (s.wrote ino (b.take n) true).wrote ino (b.drop n) ok = s.wrote ino b ok := by
    intro ok
    unfold Own.wrote
    cases ht : s.tmp with
    | none => simp [ht]
    | some v =>
      obtain ⟨p, j, d⟩ := v
      by_cases hj : j = ino
      · subst hj
        cases ok
        · simp
        · cases d <;> simp
      · simp [hj, ht]
  have key2 : ∀ ok : Bool, winWrote (winWrote s.win ino (b.take n) true) ino (b.drop n) ok =
      winWrote s.win ino b ok := by
    intro ok
    rw [winWrote_winWrote, List.take_append_drop]
  have wr : ∀ (s : Own) w ok, ({ s with win := w } : Own).wrote ino (b.drop n) ok =
      { s.wrote ino (b.drop n) ok with win := w } := by
    intro s w ok
    obtain ⟨tm, is, w'⟩ := s
    match tm with
    | none => rfl
    | some (p, j, c) => by_cases hj : j = ino <;> simp [Own.wrote, hj]
  cases x with
  | ok u =>
    show ({ (({ s.wrote ino (b.take n) true with win := _ } : Own).wrote ino (b.drop n) true) with
      win := winWrote (winWrote s.win ino (b.take n) true) ino (b.drop n) true } : Own) = _
    rw [wr, key, key2]; rfl
  | error er =>
    show ({ (({ s.wrote ino (b.take n) true with win := _ } : Own).wrote ino (b.drop n) false) with
      win := winWrote (winWrote s.win ino (b.take n) true) ino (b.drop n) false } : Own) = _
    rw [wr, key, key2]; rfl

/-- One step of the system, with the step of the ghost state. -/
theorem Good.move {root : Path} {sha : Bytes → Bytes} {s s' : Sys} {ow : Nat → Own}
    {l : Option (Nat × Event)} (h : Good root sha s ow) (hs : Step root s l s') :
    ∃ ow', Good root sha s' ow' ∧
      (∀ oid, s'.fs.content (objPath root oid) = s.fs.content (objPath root oid) ∨
        ∃ i src c, l = some (i, ⟨.rename src (objPath root oid), .ok ()⟩) ∧
          s'.fs.content (objPath root oid) = some c ∧ hexEncode (sha c) = oid) ∧
      (∀ j, Sealed root s.fs ow j → Sealed root s'.fs ow' j ∧ (s'.fs.inodes j).data = (s.fs.inodes j).data) ∧
      Moves root sha s ow l s' ow' := by
  obtain ⟨hi, hw⟩ := h
  cases hs with
  | call i o k c hp =>
    obtain ⟨cfg, h1, h2, hwi⟩ := hw i
    rw [hp] at hwi
    have hm : (ow i).may cfg o := hwi.1
    obtain ⟨hi', ho⟩ := hi.step cfg h1 h2 i o c hm
    refine ⟨_, ⟨hi', fun k' => ?_⟩, fun oid => ?_, fun j hj => ?_,
      .call cfg i o k c hp h1 h2 hm⟩
    · by_cases hk : k' = i
      · subst hk
        refine ⟨cfg, h1, h2, ?_⟩
        simp only [Sys.setProc, if_true, updAt_same]
        exact hwi.2 _ trivial
      · rw [updAt_ne _ _ hk]
        simp only [Sys.setProc, hk, if_false]
        exact hw k'
    · rcases ho oid with e | ⟨src, d, e, h3, h4⟩
      · exact .inl e
      · exact .inr ⟨i, src, d, by rw [e], h3, h4⟩
    · refine ⟨⟨Nat.lt_of_lt_of_le hj.1 (sem_next _ _ _), by rw [sem_born _ _ _ _ hj.1]; exact hj.2.1, fun k' hk' => ?_⟩, ?_⟩
      · by_cases hk : k' = i
        · subst hk
          rw [updAt_same] at hk'
          rcases Own.upd_owns hk' with e | e
          · exact hj.2.2 _ e
          · exact absurd hj.1 (Nat.not_lt.mpr e)
        · rw [updAt_ne _ _ hk] at hk'
          exact hj.2.2 _ hk'
      · refine sem_data _ _ _ _ hj.1 ?_
        rintro b rfl
        exact hj.2.2 i (hm.imp id And.left)
  | writeSome i ino b n k hp =>
    obtain ⟨cfg, h1, h2, hwi⟩ := hw i
    rw [hp] at hwi
    have hmay : (ow i).may cfg (.write ino b) := hwi.1
    have hm : (ow i).owns ino := hmay.imp id And.left
    obtain ⟨hi', ho⟩ := hi.write i ino (b.take n) (b.take n) true (fun _ => rfl) hm
    have hi'' : Inv root (s.fs.append ino (b.take n))
        (updAt ow i ((ow i).upd (.write ino (b.take n)) (.ok ()))) := by
      refine hi'.congr (fun k' => ?_) (fun k' => ?_) <;>
      · by_cases hk : k' = i
        · subst hk; simp [Own.base]
        · simp [updAt_ne _ _ hk]
    refine ⟨_, ⟨hi'', fun k' => ?_⟩, fun oid => .inl (content_eq (by simp) (ho oid)), fun j hj => ?_,
      .writeSome cfg i ino b n k hp h1 h2 hmay⟩
    · by_cases hk : k' = i
      · subst hk
        refine ⟨cfg, h1, h2, ?_⟩
        simp only [Sys.setProc, if_true, updAt_same]
        refine ⟨?_, fun x hx => ?_⟩
        · show (((ow k').upd (.write ino (b.take n)) (.ok ()))).may cfg (.write ino (b.drop n))
          rcases hmay with ⟨p, c, hp⟩ | ⟨h3, x, t, d, h4, h5⟩
          · refine .inl ?_
            simp [Own.base, Own.wrote, hp]
          · refine .inr ⟨?_, x, t, d ++ b.take n, ?_, ?_⟩
            · simpa [Own.base, Own.wrote_inos] using h3
            · simp [winUpd, winWrote, h4]
            · simpa using h5
        have := hwi.2 x trivial
        have e : (Logic.own cfg).upd ((ow k').upd (.write ino (b.take n)) (.ok ())) (.write ino (b.drop n)) x =
            (Logic.own cfg).upd (ow k') (.write ino b) x := Own.upd_write_parts _ _ _ _ _
        have e' := congrArg (fun z => Prog.wp (Logic.own cfg) (k x) z (fun _ _ => True)) e
        exact e'.mpr this
      · rw [updAt_ne _ _ hk]
        simp only [Sys.setProc, hk, if_false]
        exact hw k'
    · refine ⟨⟨hj.1, ?_, fun k' hk' => ?_⟩, ?_⟩
      · have := sem_born Choice.none s.fs (.write ino (b.take n)) j hj.1
        exact (congrArg (near root) this).trans hj.2.1
      · by_cases hk : k' = i
        · subst hk
          rw [updAt_same] at hk'
          exact hj.2.2 _ ((Own.wrote_owns _ _ _ _ _).mp hk')
        · rw [updAt_ne _ _ hk] at hk'
          exact hj.2.2 _ hk'
      · rw [FS.data_append, if_neg, List.append_nil]
        rintro rfl
        exact hj.2.2 i hm
  | mkdirSome i p n e k hp =>
    obtain ⟨cfg, h1, h2, hwi⟩ := hw i
    rw [hp] at hwi
    refine ⟨ow, ⟨⟨hi.rename_names (fun _ => rfl) rfl (fun k' q j d hk => (hi.tmp k' q j d hk).1)
      (fun q j hq => ⟨q, hq⟩) hi.objs, hi.home, hi.ohome⟩, hw⟩, fun oid => .inl rfl, fun j hj => ⟨hj, rfl⟩,
      .mkdirSome cfg i p n e k hp h1 h2 hwi.1⟩
  | elsewhere fs' he =>
    refine ⟨ow, ⟨hi.elsewhere he, hw⟩, fun oid => .inl ?_, fun j hj =>
      ⟨⟨Nat.lt_of_lt_of_le hj.1 he.next, by rw [(he.inodes j hj.1 hj.2.1).2.2]; exact hj.2.1, hj.2.2⟩, ?_⟩, .elsewhere fs' he⟩
    · exact content_eq (he.get (near_of_prefix (objPath_below root oid)))
        fun j hj => by
          exact (he.inodes j (hi.bound _ _ hj) (hi.home _ _ (near_of_prefix (objPath_below root oid)) hj)).1
    · exact (he.inodes j hj.1 hj.2.1).1
  | kill i =>
    refine ⟨ow, ⟨hi, fun k' => ?_⟩, fun oid => .inl rfl, fun j hj => ⟨hj, rfl⟩,
      .kill i⟩
    obtain ⟨cfg, h1, h2, hwi⟩ := hw k'
    refine ⟨cfg, h1, h2, ?_⟩
    simp only [Sys.setProc]
    split
    · trivial
    · exact hwi

theorem Good.step' {root : Path} {sha : Bytes → Bytes} {s s' : Sys} {ow : Nat → Own}
    {l : Option (Nat × Event)} (h : Good root sha s ow) (hs : Step root s l s') :
    ∃ ow', Good root sha s' ow' ∧
      (∀ oid, s'.fs.content (objPath root oid) = s.fs.content (objPath root oid) ∨
        ∃ i src c, l = some (i, ⟨.rename src (objPath root oid), .ok ()⟩) ∧
          s'.fs.content (objPath root oid) = some c ∧ hexEncode (sha c) = oid) ∧
      (∀ j, Sealed root s.fs ow j → Sealed root s'.fs ow' j ∧ (s'.fs.inodes j).data = (s.fs.inodes j).data) ∧
      Follows root sha s.fs ow l s'.fs ow' := by
  obtain ⟨ow', h1, h2, h3, h4⟩ := h.move hs
  exact ⟨ow', h1, h2, h3, h4.follows⟩

/-- One step of the system. -/
theorem Good.step {root : Path} {sha : Bytes → Bytes} {s s' : Sys} {ow : Nat → Own}
    {l : Option (Nat × Event)} (h : Good root sha s ow) (hs : Step root s l s') :
    ∃ ow', Good root sha s' ow' ∧
      (∀ oid, s'.fs.content (objPath root oid) = s.fs.content (objPath root oid) ∨
        ∃ i src c, l = some (i, ⟨.rename src (objPath root oid), .ok ()⟩) ∧
          s'.fs.content (objPath root oid) = some c ∧ hexEncode (sha c) = oid) ∧
      (∀ j, Sealed root s.fs ow j → Sealed root s'.fs ow' j ∧ (s'.fs.inodes j).data = (s.fs.inodes j).data) := by
  obtain ⟨ow', h1, h2, h3, _⟩ := h.step' hs
  exact ⟨ow', h1, h2, h3⟩

theorem Good.steps {root : Path} {sha : Bytes → Bytes} {s s' : Sys} {ow : Nat → Own}
    {tr : List (Nat × Event)} (h : Good root sha s ow) (hs : Steps root s tr s') :
    ∃ ow', Good root sha s' ow' ∧
      (∀ j, Sealed root s.fs ow j → Sealed root s'.fs ow' j ∧ (s'.fs.inodes j).data = (s.fs.inodes j).data) := by
  induction hs with
  | refl => exact ⟨ow, h, fun j hj => ⟨hj, rfl⟩⟩
  | tail _ hl ih =>
    obtain ⟨ow1, g1, s1⟩ := ih
    obtain ⟨ow2, g2, _, s2⟩ := g1.step hl
    refine ⟨ow2, g2, fun j hj => ?_⟩
    obtain ⟨a, b⟩ := s1 j hj
    obtain ⟨c, d⟩ := s2 j a
    exact ⟨c, d.trans b⟩

end Verif
