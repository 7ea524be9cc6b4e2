import Verif.Spec.Trace
import Verif.Model.Server
/-! Reasoning about programs: running, traces, and weakest preconditions. -/
namespace Verif

/-! ### Running -/

theorem Prog.run_bind {α β : Type} (ch : Nat → Choice) (p : Prog α) (f : α → Prog β) (w : World) :
    (p.bind f).run ch w = (f (p.run ch w).1).run ch (p.run ch w).2 := by
  induction p generalizing w with
  | ret a => rfl
  | call o k ih => simp only [Prog.bind, Prog.run]; exact ih _ _

theorem Prog.bind_assoc {α β γ : Type} (p : Prog α) (f : α → Prog β) (g : β → Prog γ) :
    (p.bind f).bind g = p.bind (fun a => (f a).bind g) := by
  induction p with
  | ret a => rfl
  | call o k ih => simp only [Prog.bind, ih]

theorem Prog.bind_ret {α : Type} (p : Prog α) : p.bind .ret = p := by
  induction p with
  | ret a => rfl
  | call o k ih => simp only [Prog.bind, ih]

/-! ### Traces -/

theorem Prog.Finished.did {α : Type} {p : Prog α} {tr a} (h : p.Finished tr a) : p.Did tr := by
  induction h with
  | ret => exact .nil
  | call _ ih => exact .call ih

theorem Prog.finished_bind {α β : Type} {p : Prog α} {f : α → Prog β} {tr b} :
    (p.bind f).Finished tr b ↔
      ∃ t1 t2 a, tr = t1 ++ t2 ∧ p.Finished t1 a ∧ (f a).Finished t2 b := by
  induction p generalizing tr with
  | ret a =>
    constructor
    · intro h; exact ⟨[], tr, a, rfl, .ret, h⟩
    · rintro ⟨t1, t2, a', rfl, h1, h2⟩; cases h1; exact h2
  | call o k ih =>
    constructor
    · intro h
      cases h with
      | call h =>
        obtain ⟨t1, t2, a, rfl, h1, h2⟩ := (ih _).mp h
        exact ⟨_ :: t1, t2, a, rfl, .call h1, h2⟩
    · rintro ⟨t1, t2, a, rfl, h1, h2⟩
      cases h1 with
      | call h1 => exact .call ((ih _).mpr ⟨_, t2, a, rfl, h1, h2⟩)

theorem Prog.did_bind {α β : Type} {p : Prog α} {f : α → Prog β} {tr} :
    (p.bind f).Did tr ↔
      p.Did tr ∨ ∃ t1 t2 a, tr = t1 ++ t2 ∧ p.Finished t1 a ∧ (f a).Did t2 := by
  induction p generalizing tr with
  | ret a =>
    constructor
    · intro h; exact .inr ⟨[], tr, a, rfl, .ret, h⟩
    · rintro (h | ⟨t1, t2, a', rfl, h1, h2⟩)
      · cases h; exact .nil
      · cases h1; exact h2
  | call o k ih =>
    constructor
    · intro h
      cases h with
      | nil => exact .inl .nil
      | call h =>
        rcases (ih _).mp h with h | ⟨t1, t2, a, rfl, h1, h2⟩
        · exact .inl (.call h)
        · exact .inr ⟨_ :: t1, t2, a, rfl, .call h1, h2⟩
    · rintro (h | ⟨t1, t2, a, rfl, h1, h2⟩)
      · cases h with
        | nil => exact .nil
        | call h => exact .call ((ih _).mpr (.inl h))
      · cases h1 with
        | call h1 => exact .call ((ih _).mpr (.inr ⟨_, t2, a, rfl, h1, h2⟩))

/-- The events of a run alone. -/
def Prog.events {α : Type} (ch : Nat → Choice) : Prog α → World → List Event
  | .ret _, _ => []
  | .call o k, w =>
    ⟨o, (sem (ch w.tick) w.fs o).2⟩ :: (k (sem (ch w.tick) w.fs o).2).events ch
      ⟨(sem (ch w.tick) w.fs o).1, w.out ++ emitted (ch w.tick) o, w.tick + 1⟩

theorem Prog.run_finished {α : Type} (ch : Nat → Choice) (p : Prog α) (w : World) :
    p.Finished (p.events ch w) (p.run ch w).1 := by
  induction p generalizing w with
  | ret a => exact .ret
  | call o k ih => exact .call (ih _ _)

theorem sem_possible (c : Choice) (fs : FS) (o : Op) : Event.Possible ⟨o, (sem c fs o).2⟩ := by
  cases o <;> try trivial
  rename_i dir pre uid
  simp only [sem, Event.Possible]
  cases c.fault with
  | some e => trivial
  | none =>
    simp only []
    by_cases h : fs.isDir dir = true
    · simp only [h, if_true, FS.freshName]
      split
      · exact ⟨c.rand ++ _, by rw [List.append_assoc]⟩
      · exact ⟨c.rand, rfl⟩
    · simp only [h]; trivial

theorem events_possible {α : Type} (ch : Nat → Choice) (p : Prog α) (w : World) :
    ∀ e ∈ p.events ch w, e.Possible := by
  induction p generalizing w with
  | ret a => intro e h; cases h
  | call o k ih =>
    intro e h
    rcases List.mem_cons.mp h with rfl | h
    · exact sem_possible _ _ _
    · exact ih _ _ _ h

/-! ### Weakest preconditions

A `Logic σ` tracks a ghost state: `pre` must hold before each call, `upd` updates the ghost state
with the response, and only responses satisfying `legal` are considered. -/

structure Logic (σ : Type) where
  pre : σ → Op → Prop
  upd : σ → (o : Op) → Resp o → σ
  legal : σ → (o : Op) → Resp o → Prop

variable {σ : Type} {L : Logic σ}

def Prog.wp (L : Logic σ) {α : Type} : Prog α → σ → (α → σ → Prop) → Prop
  | .ret a, s, Q => Q a s
  | .call o k, s, Q => L.pre s o ∧ ∀ x, L.legal s o x → (k x).wp L (L.upd s o x) Q

theorem Prog.wp_mono {α : Type} {p : Prog α} {s : σ} {Q Q' : α → σ → Prop}
    (h : p.wp L s Q) (hq : ∀ a s, Q a s → Q' a s) : p.wp L s Q' := by
  induction p generalizing s with
  | ret a => exact hq _ _ h
  | call o k ih => exact ⟨h.1, fun x hx => ih x (h.2 x hx)⟩

theorem Prog.wp_bind {α β : Type} (p : Prog α) (f : α → Prog β) (s : σ) (Q : β → σ → Prop) :
    (p.bind f).wp L s Q ↔ p.wp L s (fun a s => (f a).wp L s Q) := by
  induction p generalizing s with
  | ret a => rfl
  | call o k ih =>
    simp only [Prog.bind, Prog.wp]
    constructor
    · rintro ⟨h1, h2⟩; exact ⟨h1, fun x hx => (ih x _).mp (h2 x hx)⟩
    · rintro ⟨h1, h2⟩; exact ⟨h1, fun x hx => (ih x _).mpr (h2 x hx)⟩

theorem Prog.wp_and {α : Type} {p : Prog α} {s : σ} {Q Q' : α → σ → Prop}
    (h : p.wp L s Q) (h' : p.wp L s Q') : p.wp L s (fun a s => Q a s ∧ Q' a s) := by
  induction p generalizing s with
  | ret a => exact ⟨h, h'⟩
  | call o k ih => exact ⟨h.1, fun x hx => ih x (h.2 x hx) (h'.2 x hx)⟩

/-- Ghost state after a trace. -/
def Logic.fold (L : Logic σ) : σ → List Event → σ
  | s, [] => s
  | s, e :: tr => L.fold (L.upd s e.1 e.2) tr

/-- All responses of a trace are legal. -/
def Logic.LegalTr (L : Logic σ) : σ → List Event → Prop
  | _, [] => True
  | s, e :: tr => L.legal s e.1 e.2 ∧ L.LegalTr (L.upd s e.1 e.2) tr

/-- All calls of a trace satisfy `pre`. -/
def Logic.PreTr (L : Logic σ) : σ → List Event → Prop
  | _, [] => True
  | s, e :: tr => L.pre s e.1 ∧ L.PreTr (L.upd s e.1 e.2) tr

theorem Prog.wp_did {α : Type} {p : Prog α} {s : σ} {Q : α → σ → Prop} {tr}
    (h : p.wp L s Q) (ht : p.Did tr) (hl : L.LegalTr s tr) : L.PreTr s tr := by
  induction ht generalizing s with
  | nil => trivial
  | call _ ih => exact ⟨h.1, ih (h.2 _ hl.1) hl.2⟩

theorem Prog.wp_finished {α : Type} {p : Prog α} {s : σ} {Q : α → σ → Prop} {tr a}
    (h : p.wp L s Q) (ht : p.Finished tr a) (hl : L.LegalTr s tr) : Q a (L.fold s tr) := by
  induction ht generalizing s with
  | ret => exact h
  | call _ ih => exact ih (h.2 _ hl.1) hl.2

theorem Logic.legalTr_of_forall {s : σ} {tr : List Event}
    (h : ∀ e ∈ tr, ∀ s, L.legal s e.1 e.2) : L.LegalTr s tr := by
  induction tr generalizing s with
  | nil => trivial
  | cons e tr ih => exact ⟨h e (by simp) s, ih (fun e he => h e (by simp [he]))⟩

/-- The same for `M`. -/
def M.wp (L : Logic σ) {α : Type} (m : M α) (r : Rdr) (s : σ) (Q : Res α → Rdr → σ → Prop) : Prop :=
  (m r).wp L s (fun x s => Q x.1 x.2 s)

theorem M.wp_mono {α : Type} {m : M α} {r : Rdr} {s : σ} {Q Q' : Res α → Rdr → σ → Prop}
    (h : m.wp L r s Q) (hq : ∀ a r s, Q a r s → Q' a r s) : m.wp L r s Q' :=
  Prog.wp_mono h (fun _ _ => hq _ _ _)

@[simp] theorem M.wp_pure {α : Type} (a : α) (r : Rdr) (s : σ) (Q) :
    (Pure.pure a : M α).wp L r s Q ↔ Q (.ok a) r s := Iff.rfl

@[simp] theorem M.wp_pure' {α : Type} (a : α) (r : Rdr) (s : σ) (Q) :
    (M.pure a : M α).wp L r s Q ↔ Q (.ok a) r s := Iff.rfl

@[simp] theorem M.wp_throw {α : Type} (e : Err) (r : Rdr) (s : σ) (Q) :
    (M.throw e : M α).wp L r s Q ↔ Q (.err e) r s := Iff.rfl

@[simp] theorem M.wp_panic {α : Type} (r : Rdr) (s : σ) (Q) :
    (M.panic : M α).wp L r s Q ↔ Q .panic r s := Iff.rfl

@[simp] theorem M.wp_rdr {α : Type} (f : Rdr → Res α × Rdr) (r : Rdr) (s : σ) (Q) :
    (M.rdr f : M α).wp L r s Q ↔ Q (f r).1 (f r).2 s := Iff.rfl

@[simp] theorem M.wp_ofRes {α : Type} (x : Res α) (r : Rdr) (s : σ) (Q) :
    (M.ofRes x : M α).wp L r s Q ↔ Q x r s := Iff.rfl

@[simp] theorem M.wp_op (o : Op) (r : Rdr) (s : σ) (Q) :
    (M.op o).wp L r s Q ↔ L.pre s o ∧ ∀ x, L.legal s o x → Q (.ok x) r (L.upd s o x) := Iff.rfl

/-- How a continuation is entered after a result. -/
def Res.elim {α : Type} (x : Res α) (k : α → Prop) (e : Err → Prop) (p : Prop) : Prop :=
  match x with
  | .ok a => k a
  | .err er => e er
  | .panic => p

@[simp] theorem Res.elim_ok {α : Type} (a : α) (k e p) : (Res.ok a).elim k e p = k a := rfl
@[simp] theorem Res.elim_err {α : Type} (er : Err) (k e p) : (Res.err er : Res α).elim k e p = e er := rfl
@[simp] theorem Res.elim_panic {α : Type} (k e p) : (Res.panic : Res α).elim k e p = p := rfl

theorem M.wp_bind {α β : Type} (m : M α) (f : α → M β) (r : Rdr) (s : σ) (Q) :
    (m >>= f).wp L r s Q ↔
      m.wp L r s (fun x r s => x.elim (fun a => (f a).wp L r s Q) (fun e => Q (.err e) r s)
        (Q .panic r s)) := by
  show ((m r).bind _).wp L s _ ↔ _
  rw [Prog.wp_bind]
  constructor <;> intro h <;> refine Prog.wp_mono h ?_ <;> rintro ⟨(a | e | _), r'⟩ s' h <;> exact h

theorem M.wp_attempt {α : Type} (m : M α) (r : Rdr) (s : σ) (Q) :
    (M.attempt m).wp L r s Q ↔
      m.wp L r s (fun x r s => x.elim (fun a => Q (.ok (.ok a)) r s)
        (fun e => Q (.ok (.error e)) r s) (Q .panic r s)) := by
  show ((m r).bind _).wp L s _ ↔ _
  rw [Prog.wp_bind]
  constructor <;> intro h <;> refine Prog.wp_mono h ?_ <;> rintro ⟨(a | e | _), r'⟩ s' h <;> exact h

theorem M.wp_after {α : Type} (m : M α) (c : M Unit) (r : Rdr) (s : σ) (Q) :
    (M.after m c).wp L r s Q ↔
      m.wp L r s (fun x r s => c.wp L r s (fun _ r s => Q x r s)) := by
  show ((m r).bind _).wp L s _ ↔ _
  rw [Prog.wp_bind]
  constructor <;> intro h <;> refine Prog.wp_mono h ?_ <;> rintro ⟨x, r'⟩ s' h <;>
    · simp only [M.wp, Prog.wp_bind] at *; exact h

theorem M.wp_onFail {α : Type} (m : M α) (c : M Unit) (r : Rdr) (s : σ) (Q) :
    (M.onFail m c).wp L r s Q ↔
      m.wp L r s (fun x r s => x.elim (fun a => Q (.ok a) r s)
        (fun e => c.wp L r s (fun _ r s => Q (.err e) r s))
        (c.wp L r s (fun _ r s => Q .panic r s))) := by
  show ((m r).bind _).wp L s _ ↔ _
  rw [Prog.wp_bind]
  constructor <;> intro h <;> refine Prog.wp_mono h ?_ <;> rintro ⟨(a | e | _), r'⟩ s' h <;>
    first
    | exact h
    | (simp only [M.wp, Prog.wp_bind, Res.elim] at *; exact h)

theorem M.wp_ofIo {α : Type} (x : Except IoErr α) (r : Rdr) (s : σ) (Q) :
    (M.ofIo x).wp L r s Q ↔ Q (match x with | .ok a => .ok a | .error e => .err (Err.ofIo e)) r s := by
  cases x <;> rfl

/-! ### Programs all of whose calls satisfy a predicate -/

def Prog.All {α : Type} (P : Op → Prop) : Prog α → Prop
  | .ret _ => True
  | .call o k => P o ∧ ∀ x, (k x).All P

theorem Prog.All.bind {α β : Type} {P : Op → Prop} {p : Prog α} {f : α → Prog β}
    (h : p.All P) (hf : ∀ a, (f a).All P) : (p.bind f).All P := by
  induction p with
  | ret a => exact hf a
  | call o k ih => exact ⟨h.1, fun x => ih x (h.2 x)⟩

theorem Prog.All.mono {α : Type} {P P' : Op → Prop} {p : Prog α} (h : p.All P)
    (hp : ∀ o, P o → P' o) : p.All P' := by
  induction p with
  | ret a => trivial
  | call o k ih => exact ⟨hp _ h.1, fun x => ih x (h.2 x)⟩

theorem Prog.All.did {α : Type} {P : Op → Prop} {p : Prog α} {tr} (h : p.All P) (ht : p.Did tr) :
    ∀ e ∈ tr, P e.1 := by
  induction ht with
  | nil => intro e he; cases he
  | call _ ih =>
    intro e he
    rcases List.mem_cons.mp he with rfl | he
    · exact h.1
    · exact ih (h.2 _) e he

/-- A program whose calls are allowed and do not change the ghost state keeps it. -/
theorem Prog.All.wp {α : Type} {P : Op → Prop} {p : Prog α} (h : p.All P) (s : σ)
    (hp : ∀ o, P o → L.pre s o) (hu : ∀ o x, P o → L.legal s o x → L.upd s o x = s) :
    p.wp L s (fun _ s' => s' = s) := by
  induction p with
  | ret a => rfl
  | call o k ih =>
    refine ⟨hp o h.1, fun x hx => ?_⟩
    rw [hu o x h.1 hx]
    exact ih x (h.2 x)

def M.All {α : Type} (P : Op → Prop) (m : M α) : Prop := ∀ r, (m r).All P

namespace M.All
variable {P : Op → Prop} {α β : Type}

theorem pure (a : α) : (Pure.pure a : M α).All P := fun _ => trivial
theorem pure' (a : α) : (M.pure a : M α).All P := fun _ => trivial
theorem throw (e : Err) : (M.throw e : M α).All P := fun _ => trivial
theorem panic : (M.panic : M α).All P := fun _ => trivial
theorem rdr (f : Rdr → Res α × Rdr) : (M.rdr f).All P := fun _ => trivial
theorem ofRes (x : Res α) : (M.ofRes x).All P := fun _ => trivial
theorem op {o : Op} (h : P o) : (M.op o).All P := fun _ => ⟨h, fun _ => trivial⟩
theorem ofIo (x : Except IoErr α) : (M.ofIo x).All P := by
  cases x <;> exact fun _ => trivial

theorem bind {m : M α} {f : α → M β} (h : m.All P) (hf : ∀ a, (f a).All P) : (m >>= f).All P := by
  intro r
  refine Prog.All.bind (h r) ?_
  rintro ⟨(a | e | _), r'⟩
  · exact hf a r'
  · trivial
  · trivial

theorem attempt {m : M α} (h : m.All P) : (M.attempt m).All P := by
  intro r
  refine Prog.All.bind (h r) ?_
  rintro ⟨(a | e | _), r'⟩ <;> trivial

theorem after {m : M α} {c : M Unit} (h : m.All P) (hc : c.All P) : (M.after m c).All P := by
  intro r
  refine Prog.All.bind (h r) ?_
  rintro ⟨x, r'⟩
  exact Prog.All.bind (hc r') (fun _ => trivial)

theorem onFail {m : M α} {c : M Unit} (h : m.All P) (hc : c.All P) : (M.onFail m c).All P := by
  intro r
  refine Prog.All.bind (h r) ?_
  rintro ⟨(a | e | _), r'⟩
  · trivial
  · exact Prog.All.bind (hc r') (fun _ => trivial)
  · exact Prog.All.bind (hc r') (fun _ => trivial)

theorem mono {P' : Op → Prop} {m : M α} (h : m.All P) (hp : ∀ o, P o → P' o) : m.All P' :=
  fun r => (h r).mono hp

theorem wp {m : M α} (h : m.All P) (r : Rdr) (s : σ)
    (hp : ∀ o, P o → L.pre s o) (hu : ∀ o x, P o → L.legal s o x → L.upd s o x = s) :
    m.wp L r s (fun _ _ s' => s' = s) := (h r).wp s hp hu

end M.All

/-- Decompose a goal `M.All P m` along the structure of `m`. -/
macro "all_op" : tactic => `(tactic| first
  | exact M.All.pure _
  | exact M.All.pure' _
  | exact M.All.throw _
  | exact M.All.panic
  | exact M.All.rdr _
  | exact M.All.ofRes _
  | exact M.All.ofIo _
  | assumption
  | apply M.All.op
  | refine M.All.bind ?_ (fun _ => ?_)
  | refine M.All.attempt ?_
  | refine M.All.after ?_ ?_
  | refine M.All.onFail ?_ ?_
  | split)

macro "all_ops" : tactic => `(tactic| repeat all_op)

/-! ### Whether an event was seen -/

/-- The ghost state says whether an event satisfying `P` has occurred. -/
def Logic.seen (P : Event → Prop) : Logic Prop where
  pre _ _ := True
  upd s o x := s ∨ P ⟨o, x⟩
  legal _ _ _ := True

theorem seen_fold (P : Event → Prop) : ∀ (tr : List Event) (s : Prop),
    (Logic.seen P).fold s tr ↔ s ∨ ∃ e ∈ tr, P e
  | [], s => by simp [Logic.fold]
  | e :: tr, s => by
    simp only [Logic.fold]
    rw [seen_fold P tr]
    show (s ∨ P ⟨e.1, e.2⟩) ∨ _ ↔ _
    simp [or_assoc]

theorem seen_keep (P : Event → Prop) {α : Type} (p : Prog α) (s : Prop) (h : s) :
    p.wp (Logic.seen P) s (fun _ s' => s') := by
  induction p generalizing s with
  | ret a => exact h
  | call o k ih => exact ⟨trivial, fun x _ => ih x _ (Or.inl h)⟩

theorem seen_any (P : Event → Prop) {α : Type} (p : Prog α) (s : Prop) :
    p.wp (Logic.seen P) s (fun _ _ => True) := by
  induction p generalizing s with
  | ret a => trivial
  | call o k ih => exact ⟨trivial, fun x _ => ih x _⟩

theorem seen_finished {P : Event → Prop} {α : Type} {p : Prog α} {Q : α → Prop → Prop} {tr a}
    (h : p.wp (Logic.seen P) False Q) (ht : p.Finished tr a)
    (hq : ∀ s s', (s ↔ s') → Q a s → Q a s') : Q a (∃ e ∈ tr, P e) := by
  refine hq _ _ ?_ (Prog.wp_finished h ht (Logic.legalTr_of_forall fun _ _ _ => trivial))
  rw [seen_fold]; simp

end Verif
