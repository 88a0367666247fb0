import Verif.Spec.Narrow
import Verif.Props.Flow
import Verif.Props.Progress
/-!
C79: goroutines sharing a connection that holds only so many bytes.
-/

namespace Verif
namespace Narrow
open Spec Flow
open Life (Kind errClosed errAlready)

variable {T : Type} [DecidableEq T] {σ : Type}

theorem says_prefix {W : Peer σ} {s s' : σ} {resp : Bytes → Bytes} (h : Says W s resp) {i o rest : Bytes}
    (hr : Replies W s i o s' rest) : o <+: resp i := by
  obtain ⟨s2, r2, h2, hn⟩ := h i
  exact hr.max h2 hn

theorem says_online {W : Peer σ} (hW : Framed W) {s : σ} {resp : Bytes → Bytes} (h : Says W s resp) : Online resp := by
  refine ⟨?_, fun x y => ?_⟩
  · obtain ⟨s2, r2, h2, -⟩ := h []
    generalize resp [] = o at h2
    generalize hi : ([] : Bytes) = i at h2
    cases h2 with
    | done => exact hi
    | more hn _ =>
      have := hW.shorter _ _ _ _ _ hn
      rw [← hi] at this
      simp at this
  · obtain ⟨s1, r1, h1, -⟩ := h x
    exact says_prefix h (h1.append hW y)

/-- What is true of the connection. -/
structure Pipes (W : Peer σ) (R : Room) (s0 : σ) (q : State T σ) (taken : Bytes) : Prop where
  sent : q.users.sent = taken ++ q.pipe.up
  replies : Replies W s0 taken (q.users.got ++ q.pipe.down ++ q.pipe.owed) q.pipe.srv q.pipe.got
  up : q.pipe.up.length ≤ R.up
  down : q.pipe.down.length ≤ R.down

theorem pipes_init (W : Peer σ) (R : Room) (s0 : σ) : Pipes W R s0 (init s0 : State T σ) [] :=
  ⟨rfl, .done _ _, Nat.zero_le _, Nat.zero_le _⟩

theorem pipes_step {P : Sched.Params T} {W : Peer σ} (hW : Framed W) {R : Room} {s0 : σ} {q q' : State T σ} {t : Bytes}
    (h : Pipes W R s0 q t) (hs : Step P W R q q') : ∃ t', Pipes W R s0 q' t' := by
  obtain ⟨h1, h2, h3, h4⟩ := h
  cases hs with
  | other s _ e1 e2 => exact ⟨t, by rw [← h1]; exact e1, by show Replies W s0 t (s.got ++ _ ++ _) _ _; rw [e2]; exact h2, h3, h4⟩
  | send u c x y hp ho hw hr => exact ⟨t, by show q.users.sent ++ [x] = _; rw [h1]; simp, h2, by simp; omega, h4⟩
  | hear u c x d hp ho he hd =>
    refine ⟨t, h1, ?_, h3, by rw [hd] at h4; simp at h4 ⊢; omega⟩
    rw [hd] at h2
    simpa using h2
  | take a b hab ha hl ho hn =>
    exact ⟨t ++ a, by show q.users.sent = _; rw [h1, hab]; simp, h2.append hW a, by rw [hab] at h3; simp at h3 ⊢; omega, h4⟩
  | handle o s rest ho hn =>
    refine ⟨t, h1, ?_, h3, h4⟩
    rw [ho, List.append_nil] at h2
    have := h2.trans (.more hn (.done s rest))
    simpa using this
  | reply x o ho hr =>
    refine ⟨t, h1, ?_, h3, by simp; omega⟩
    rw [ho] at h2
    simpa using h2

theorem pipes_later {P : Sched.Params T} {W : Peer σ} (hW : Framed W) {R : Room} {s0 : σ} {q q' : State T σ}
    (h : ∃ t, Pipes W R s0 q t) (hl : Later P W R q q') : ∃ t, Pipes W R s0 q' t := by
  induction hl with
  | refl => exact h
  | step _ hs ih => obtain ⟨t, ht⟩ := ih; exact pipes_step hW ht hs

theorem pipes {P : Sched.Params T} {W : Peer σ} (hW : Framed W) {R : Room} {s0 : σ} {q : State T σ}
    (h : Later P W R (init s0) q) : ∃ t, Pipes W R s0 q t := pipes_later hW ⟨[], pipes_init W R s0⟩ h

theorem pipes_prefix {W : Peer σ} (hW : Framed W) {R : Room} {s0 : σ} {resp : Bytes → Bytes} (hs : Says W s0 resp)
    {q : State T σ} {t : Bytes} (h : Pipes W R s0 q t) : q.users.got ++ q.pipe.down ++ q.pipe.owed <+: resp q.users.sent := by
  rw [h.sent]
  exact says_prefix hs (h.replies.append hW _)

/-- **C79 (nothing new can go wrong).** On a connection that holds only so many bytes the goroutines can get to no state
they cannot get to on an unlimited one: all that holds of every execution of `Client/Sched.lean` (C30, C35, C54) holds
here. -/
theorem C79_refines {P : Sched.Params T} {W : Peer σ} (hW : Framed W) {R : Room} {s0 : σ} (hs : Says W s0 P.resp)
    {q : State T σ} (h : Later P W R (init s0) q) : Sched.Reach P q.users := by
  induction h with
  | refl => exact .init
  | @step q q' hl hst ih =>
    cases hst with
    | other s h _ _ => exact ih.step h
    | send t c x y hp ho hw _ => exact ih.step (.write q.users t c [x] y hp ho hw)
    | hear t c x d hp ho he hd =>
      obtain ⟨k, hk⟩ := pipes hW hl
      obtain ⟨z, hz⟩ := pipes_prefix hW hs hk
      refine ih.step (.arrive q.users [x] (d ++ q.pipe.owed ++ z) ho he ?_)
      rw [← hz, hd]
      simp
    | take => exact ih
    | handle => exact ih
    | reply => exact ih

/-! ### Runs are finite -/

/-- The order in which things get less. -/
abbrev N6 := Nat × Nat × Nat × Nat × Nat × Nat

/-- What is still to happen. -/
def left (ts : List T) (q : State T σ) : N6 :=
  (Sched.todo ts q.users, (if q.users.ended then 0 else 1) + (if q.users.crashed then 0 else 1), q.pipe.up.length,
    q.pipe.got.length, q.pipe.owed.length, q.pipe.down.length)

/-- Lexicographic order. -/
def Less6 : N6 → N6 → Prop :=
  Prod.Lex (· < ·) (Prod.Lex (· < ·) (Prod.Lex (· < ·) (Prod.Lex (· < ·) (Prod.Lex (· < ·) (· < ·)))))

theorem less6_wf : WellFounded Less6 :=
  (Prod.lex Nat.lt_wfRel (Prod.lex Nat.lt_wfRel (Prod.lex Nat.lt_wfRel (Prod.lex Nat.lt_wfRel (Prod.lex Nat.lt_wfRel Nat.lt_wfRel))))).wf

theorem moves_left {P : Sched.Params T} {W : Peer σ} (hW : Framed W) {R : Room} {ts : List T} {q q' : State T σ}
    (h : Sched.Among ts q.users) (hm : Moves P W R q q') : Less6 (left ts q') (left ts q) := by
  obtain ⟨hs, hne, hst, hen⟩ := hm
  cases hs with
  | other s h1 e1 e2 =>
    have hw : Works P q.users s := ⟨h1, fun e => hne (by rw [e]), hst⟩
    have hl := Sched.works_measure h hw
    unfold Sched.measure at hl
    rw [e1, e2] at hl
    show Less6 (Sched.todo ts s, (if s.ended then 0 else 1) + (if s.crashed then 0 else 1),
      q.pipe.up.length, q.pipe.got.length, q.pipe.owed.length, q.pipe.down.length) _
    unfold left
    revert hl
    generalize Sched.todo ts s = a1
    generalize Sched.todo ts q.users = a2
    generalize (if s.ended then 0 else 1) + (if s.crashed then 0 else 1) = b1
    generalize (if q.users.ended then 0 else 1) + (if q.users.crashed then 0 else 1) = b2
    intro hl
    cases hl with
    | left _ _ h => exact .left _ _ h
    | right _ h =>
      cases h with
      | left _ _ h => exact absurd h (Nat.lt_irrefl _)
      | right _ h => exact .right _ (.left _ _ h)
  | send t c x y hp ho hw hr =>
    exact .left _ _ (Sched.todo_goto (s := q.users) (t := t) (a := .writing c y) rfl (h t (by rw [hp]; simp))
      (by rw [hp]; simp [Sched.At.cost]))
  | hear t c x d hp ho he hd =>
    refine .right _ (.right _ (.right _ (.right _ (.right _ ?_))))
    simp only [hd, List.length_cons]; omega
  | take a b hab ha hl ho hn =>
    refine .right _ (.right _ (.left _ _ ?_))
    have : 0 < a.length := List.length_pos_iff.2 ha
    simp only [hab, List.length_append]; omega
  | handle o s rest ho hn => exact .right _ (.right _ (.right _ (.left _ _ (hW.shorter _ _ _ _ _ hn))))
  | reply x o ho hr =>
    refine .right _ (.right _ (.right _ (.right _ (.left _ _ ?_))))
    simp only [ho, List.length_cons]; omega

theorem Moves.among {P : Sched.Params T} {W : Peer σ} {R : Room} {ts : List T} {q q' : State T σ}
    (h : Sched.Among ts q.users) (hm : Moves P W R q q') : Sched.Among ts q'.users := by
  intro t ht
  by_cases hi : q.users.pc t = .idle
  · exact absurd ⟨t, hi, ht⟩ hm.2.2.1
  · exact h t hi

/-- **C79 (no endless runs).** Without new calls only finitely many things happen. -/
theorem C79_finite {P : Sched.Params T} {W : Peer σ} (hW : Framed W) {R : Room} {s0 : σ} (hs : Says W s0 P.resp)
    {q : State T σ} (h : Later P W R (init s0) q) :
    ¬ ∃ f : Nat → State T σ, f 0 = q ∧ ∀ n, Moves P W R (f n) (f (n + 1)) := by
  rintro ⟨f, h0, hf⟩
  obtain ⟨ts, hts⟩ := Sched.among (C79_refines hW hs h)
  have hin : ∀ n, Sched.Among ts (f n).users := by
    intro n
    induction n with
    | zero => rw [h0]; exact hts
    | succ n ih => exact (hf n).among ih
  exact Sched.no_descent (less6_wf.apply _) (fun n => left ts (f n)) rfl fun n => moves_left hW (hin n) (hf n)

/-! ### Where they can stop -/

/-- A step of a goroutine by itself. -/
def Acts (P : Sched.Params T) (s : Sched.State T) : Prop :=
  ∃ s', Sched.Step P s s' ∧ s'.sent = s.sent ∧ s'.got = s.got ∧ s' ≠ s ∧ ¬ Starts s s' ∧ s'.ended = s.ended

theorem acts_goto {P : Sched.Params T} {s s' : Sched.State T} (hs : Sched.Step P s s') {t : T} (a : Sched.At)
    (hp : s'.pc = (s.goto t a).pc) (h1 : s'.sent = s.sent) (h2 : s'.got = s.got) (he : s'.ended = s.ended)
    (ht : s.pc t ≠ .idle) (ha : a ≠ s.pc t) : Acts P s := by
  refine ⟨s', hs, h1, h2, ?_, ?_, he⟩
  · intro hc
    apply ha
    have : s'.pc t = a := by rw [hp, Sched.goto_pc]; simp
    rw [← this, hc]
  · rintro ⟨u, hu, hn⟩
    rw [hp, Sched.goto_pc] at hn
    by_cases hut : u = t
    · rw [hut] at hu; exact ht hu
    · simp only [hut, if_false] at hn; exact hn hu

theorem acts_crash {P : Sched.Params T} {s : Sched.State T} (hc : s.crashed = false)
    (hs : Sched.Step P s { s with crashed := true }) : Acts P s := by
  refine ⟨_, hs, rfl, rfl, ?_, ?_, rfl⟩
  · intro he
    have := congrArg Sched.State.crashed he
    rw [hc] at this; cases this
  · rintro ⟨u, hu, hn⟩; exact hn hu

/-- A goroutine that can do nothing by itself. -/
inductive Waits (P : Sched.Params T) (s : Sched.State T) (t : T) : Prop where
  | idle : s.pc t = .idle → Waits P s t
  | mutex (c : Call Out) : s.pc t = .called c → s.lock ≠ none → Waits P s t
  | sending (c : Call Out) (x : UInt8) (y : Bytes) : s.pc t = .writing c (x :: y) → s.isOpen = true → s.ended = false →
      s.werr = false → ¬ (P.timeout = true ∧ P.late = true) → Waits P s t
  | reading (c : Call Out) : s.pc t = .reading c → (c.rd s.inbox).1 = .err .io → s.isOpen = true → s.ended = false →
      ¬ (P.timeout = true ∧ P.late = true) → Waits P s t

theorem waits {P : Sched.Params T} {s : Sched.State T} (hcr : s.crashed = false) (hb : ¬ Acts P s) (t : T) : Waits P s t := by
  cases hp : s.pc t with
  | idle => exact .idle hp
  | called d =>
    refine .mutex d hp fun hl => hb ?_
    exact acts_goto (.lock s t d hp hl) (.locked d) rfl rfl rfl rfl (by simp [hp]) (by simp [hp])
  | locked c =>
    refine absurd ?_ hb
    by_cases hk : P.kind = .text
    · cases hr : s.raw with
      | true => exact acts_goto (.pass s t c hp fun _ => hr) (.writeDeadline c) rfl rfl rfl rfl (by simp [hp]) (by simp [hp])
      | false => exact acts_goto (.refuse s t c hp hk hr) .idle rfl rfl rfl rfl (by simp [hp]) (by simp [hp])
    · exact acts_goto (.pass s t c hp fun hk' => absurd hk' hk) (.writeDeadline c) rfl rfl rfl rfl (by simp [hp]) (by simp [hp])
  | writeDeadline c =>
    refine absurd ?_ hb
    cases hto : P.timeout with
    | true =>
      cases hr : s.raw with
      | true => exact acts_goto (.writeDeadline s t c hp hto hr) (.readDeadline c) rfl rfl rfl rfl (by simp [hp]) (by simp [hp])
      | false => exact acts_crash hcr (.writeDeadlineNil s t c hp hto hr)
    | false =>
      cases hw : c.wire with
      | ok w => exact acts_goto (.noDeadline s t c w hp hto hw) (.writing c w) rfl rfl rfl rfl (by simp [hp]) (by simp [hp])
      | err e => exact acts_goto (.unencodable s t c e (.inl ⟨hp, hto⟩) hw) .idle rfl rfl rfl rfl (by simp [hp]) (by simp [hp])
      | panic => exact acts_goto (.unencodablePanic s t c (.inl ⟨hp, hto⟩) hw) .idle rfl rfl rfl rfl (by simp [hp]) (by simp [hp])
  | readDeadline c =>
    refine absurd ?_ hb
    cases hr : s.raw with
    | false => exact acts_crash hcr (.readDeadlineNil s t c hp hr)
    | true =>
      cases hw : c.wire with
      | ok w => exact acts_goto (.readDeadline s t c w hp hr hw) (.writing c w) rfl rfl rfl rfl (by simp [hp]) (by simp [hp])
      | err e => exact acts_goto (.unencodable s t c e (.inr ⟨hp, hr⟩) hw) .idle rfl rfl rfl rfl (by simp [hp]) (by simp [hp])
      | panic => exact acts_goto (.unencodablePanic s t c (.inr ⟨hp, hr⟩) hw) .idle rfl rfl rfl rfl (by simp [hp]) (by simp [hp])
  | writing c x =>
    by_cases hbad : s.isOpen = false ∨ s.ended = true ∨ s.werr = true ∨ P.timeout = true ∧ P.late = true
    · exact absurd (acts_goto (.writeFails s t c x hp hbad) .idle rfl rfl rfl rfl (by simp [hp]) (by simp [hp])) hb
    · have ho : s.isOpen = true := by cases ho : s.isOpen <;> simp_all
      have hw : s.werr = false := by cases hw : s.werr <;> simp_all
      have he : s.ended = false := by cases he : s.ended <;> simp_all
      cases x with
      | nil => exact absurd (acts_goto (.written s t c hp hw) (.reading c) rfl rfl rfl rfl (by simp [hp]) (by simp [hp])) hb
      | cons b x => exact .sending c b x hp ho he hw fun h => hbad (.inr (.inr (.inr h)))
  | reading c =>
    by_cases hio : (c.rd s.inbox).1 = .err .io
    · by_cases hbad : s.isOpen = false ∨ s.ended = true
      · exact absurd (acts_goto (.readFails s t c hp hio hbad) .idle rfl rfl rfl rfl (by simp [hp]) (by simp [hp])) hb
      · have ho : s.isOpen = true := by cases ho : s.isOpen <;> simp_all
        have he : s.ended = false := by cases he : s.ended <;> simp_all
        refine .reading c hp hio ho he ?_
        rintro ⟨h1, h2⟩
        exact hb (acts_goto (.readTimeout s t c hp hio h1 h2) .idle rfl rfl rfl rfl (by simp [hp]) (by simp [hp]))
    · exact absurd (acts_goto (.read s t c hp hio) .idle rfl rfl rfl rfl (by simp [hp]) (by simp [hp])) hb
  | close =>
    refine absurd ?_ hb
    by_cases hk : P.kind = .text
    · cases hr : s.closeCh with
      | true => exact acts_goto (.closeGo s t hp fun _ => hr) .closeRaw rfl rfl rfl rfl (by simp [hp]) (by simp [hp])
      | false => exact acts_goto (.closeAgain s t hp hk hr) .idle rfl rfl rfl rfl (by simp [hp]) (by simp [hp])
    · exact acts_goto (.closeGo s t hp fun hk' => absurd hk' hk) .closeRaw rfl rfl rfl rfl (by simp [hp]) (by simp [hp])
  | closeRaw =>
    refine absurd ?_ hb
    cases hr : s.raw with
    | true =>
      exact acts_goto (.closeRaw s t hp hr) (if P.kind = .text then .clearRaw else .idle) rfl rfl rfl rfl (by simp [hp])
        (by rw [hp]; split <;> simp)
    | false => exact acts_crash hcr (.closeRawNil s t hp hr)
  | clearRaw => exact absurd (acts_goto (.clearRaw s t hp) .closeChan rfl rfl rfl rfl (by simp [hp]) (by simp [hp])) hb
  | closeChan =>
    refine absurd ?_ hb
    by_cases hx : s.closeCh = false ∨ s.chanClosed = true
    · exact acts_crash hcr (.closeChanPanic s t hp hx)
    · have h1 : s.closeCh = true := by cases h1 : s.closeCh <;> simp_all
      have h2 : s.chanClosed = false := by cases h2 : s.chanClosed <;> simp_all
      exact acts_goto (.closeChan s t hp h1 h2) .clearChan rfl rfl rfl rfl (by simp [hp]) (by simp [hp])
  | clearChan => exact absurd (acts_goto (.clearChan s t hp) .idle rfl rfl rfl rfl (by simp [hp]) (by simp [hp])) hb

theorem rest_acts {P : Sched.Params T} {W : Peer σ} {R : Room} {q : State T σ} (h : AtRest P W R q) : ¬ Acts P q.users := by
  rintro ⟨s', h1, h2, h3, h4, h5, h6⟩
  exact h _ ⟨.other q s' h1 h2 h3, fun e => h4 (congrArg State.users e), h5, h6⟩

theorem rest_net {P : Sched.Params T} {W : Peer σ} {R : Room} {q q' : State T σ} (h : AtRest P W R q) (hs : Step P W R q q')
    (hu : q'.users = q.users) (hp : q'.pipe ≠ q.pipe) : False :=
  h q' ⟨hs, fun e => hp (by rw [e]), by rw [hu]; rintro ⟨u, h1, h2⟩; exact h2 h1, by rw [hu]⟩

/-- At rest the server waits for room to write, or has read all there is and waits for more. -/
theorem rest_server {P : Sched.Params T} {W : Peer σ} (hW : Framed W) {R : Room} (hR : R.Some) {q : State T σ} (h : AtRest P W R q) :
    (q.pipe.owed ≠ [] ∧ R.down ≤ q.pipe.down.length)
      ∨ (q.pipe.owed = [] ∧ W.next q.pipe.srv q.pipe.got = none ∧ q.pipe.up = []) := by
  cases ho : q.pipe.owed with
  | cons x o =>
    refine .inl ⟨by simp, ?_⟩
    apply Classical.byContradiction; intro hlt
    exact rest_net h (.reply q x o ho (by omega)) rfl (fun e => by
      have := congrArg (fun p : Pipe σ => p.owed.length) e
      simp [ho] at this)
  | nil =>
    right
    have hn : W.next q.pipe.srv q.pipe.got = none := by
      cases hn : W.next q.pipe.srv q.pipe.got with
      | none => rfl
      | some z =>
        obtain ⟨o, s, rest⟩ := z
        exfalso
        refine rest_net h (.handle q o s rest ho hn) rfl fun e => ?_
        have := congrArg (fun p : Pipe σ => p.got.length) e
        have h2 := hW.shorter _ _ _ _ _ hn
        simp only at this
        omega
    refine ⟨rfl, hn, ?_⟩
    cases hu : q.pipe.up with
    | nil => rfl
    | cons z b =>
      exfalso
      refine rest_net h (.take q [z] b (by rw [hu]; rfl) (by simp) (by have := hR.2.2; simp; omega) ho hn) rfl fun e => ?_
      have := congrArg (fun p : Pipe σ => p.up.length) e
      simp [hu] at this

/-- **C79 (where it can stop).** When nothing more happens by itself, every call has returned; or one goroutine waits for
more of its reply and has everything the server has to say; or one goroutine and the server wait for each other.  In
the last two cases all other calls wait for that one goroutine, and no deadline is set. -/
theorem C79_stop {P : Sched.Params T} {W : Peer σ} (hW : Framed W) {R : Room} (hR : R.Some) {s0 : σ}
    (hs : Says W s0 P.resp) {q : State T σ} (h : Later P W R (init s0) q) (hcr : q.users.crashed = false)
    (hb : AtRest P W R q) :
    AllDone q.users ∨
    ∃ t c, q.users.isOpen = true ∧ q.users.ended = false ∧ ¬ (P.timeout = true ∧ P.late = true)
      ∧ (∀ u, u ≠ t → q.users.pc u = .idle ∨ ∃ d, q.users.pc u = .called d)
      ∧ ((q.users.pc t = .reading c ∧ (c.rd q.users.inbox).1 = .err .io ∧ q.users.got = P.resp q.users.sent)
          ∨ Deadlock R q t c) := by
  have hex := Sched.excl (C79_refines hW hs h)
  obtain ⟨k, hk⟩ := pipes hW h
  have hw := waits hcr (rest_acts hb)
  have outer : ∀ t, (q.users.pc t).inside = true → ∀ u, u ≠ t → q.users.pc u = .idle ∨ ∃ d, q.users.pc u = .called d := by
    intro t ht u hu
    have hi : (q.users.pc u).inside = false := by
      cases hi : (q.users.pc u).inside with
      | false => rfl
      | true => exact absurd (Option.some.inj (((hex u).1 hi).symm.trans ((hex t).1 ht))) hu
    cases hw u with
    | idle h => exact .inl h
    | mutex c h _ => exact .inr ⟨c, h⟩
    | sending c x y h => rw [h] at hi; cases hi
    | reading c h => rw [h] at hi; cases hi
  cases hl : q.users.lock with
  | none =>
    refine .inl fun u => ?_
    have hu : (q.users.pc u).inside = false := by
      cases hu : (q.users.pc u).inside with
      | false => rfl
      | true => rw [(hex u).1 hu] at hl; cases hl
    cases hw u with
    | idle h => exact h
    | mutex c h h2 => exact absurd hl h2
    | sending c x y h => rw [h] at hu; cases hu
    | reading c h => rw [h] at hu; cases hu
  | some t =>
    right
    have ht := (hex t).2 hl
    cases hw t with
    | idle h => rw [h] at ht; cases ht
    | mutex c h _ => rw [h] at ht; cases ht
    | sending c x y hp ho he hwe hlate =>
      refine ⟨t, c, ho, he, hlate, outer t ht, .inr ⟨⟨x, y, hp⟩, ?_⟩⟩
      have hup : q.pipe.up.length = R.up := by
        apply Classical.byContradiction; intro hne
        have := hk.up
        refine hb _ ⟨.send q t c x y hp ho hwe (by omega), ?_, ?_, rfl⟩
        · intro e
          have := congrArg (fun q : State T σ => q.pipe.up.length) e
          simp at this
        · rintro ⟨u, h1, h2⟩
          replace h2 : (q.users.goto t (.writing c y)).pc u ≠ .idle := h2
          rw [Sched.goto_pc] at h2
          by_cases hut : u = t
          · rw [hut, hp] at h1; cases h1
          · simp only [hut, if_false] at h2; exact h2 h1
      refine ⟨hup, ?_⟩
      rcases rest_server hW hR hb with ⟨h1, h2⟩ | ⟨_, _, h3⟩
      · exact ⟨h1, Nat.le_antisymm hk.down h2⟩
      · rw [h3] at hup
        have := hR.1
        simp at hup
        omega
    | reading c hp hio ho he hlate =>
      refine ⟨t, c, ho, he, hlate, outer t ht, .inl ⟨hp, hio, ?_⟩⟩
      have hd : q.pipe.down = [] := by
        cases hd : q.pipe.down with
        | nil => rfl
        | cons x d =>
          exfalso
          refine hb _ ⟨.hear q t c x d hp ho he hd, ?_, ?_, rfl⟩
          · intro e
            have := congrArg (fun q : State T σ => q.pipe.down.length) e
            simp [hd] at this
          · rintro ⟨u, h1, h2⟩; exact h2 h1
      rcases rest_server hW hR hb with ⟨_, h2⟩ | ⟨h1, h2, h3⟩
      · rw [hd] at h2
        have := hR.2.1
        simp at h2
        omega
      · have h4 := hk.replies
        rw [hd, h1, List.append_nil, List.append_nil] at h4
        obtain ⟨s2, r2, h5, h6⟩ := hs k
        have h7 := hk.sent
        rw [h3, List.append_nil] at h7
        rw [h7]
        exact (h4.unique h5 h2 h6).1

/-- **C79 (a deadline, or somebody closing, ends the waiting).** Once the connection is closed by either side, and
likewise if `Timeout` is set and deadlines do pass, nothing keeps a call from returning. -/
theorem C79_always {P : Sched.Params T} {W : Peer σ} (hW : Framed W) {R : Room} (hR : R.Some) {s0 : σ}
    (hs : Says W s0 P.resp) {q : State T σ} (h : Later P W R (init s0) q) (hcr : q.users.crashed = false)
    (hend : q.users.isOpen = false ∨ q.users.ended = true ∨ P.timeout = true ∧ P.late = true)
    (hb : AtRest P W R q) : AllDone q.users := by
  rcases C79_stop hW hR hs h hcr hb with h1 | ⟨t, c, h2, h3, h4, _⟩
  · exact h1
  · rcases hend with e | e | e
    · rw [h2] at e; cases e
    · rw [h3] at e; cases e
    · exact absurd e h4

/-- **C79 (when it cannot happen).** If what the server may have to say while a request is still being sent fits into the
connection, and the replies do not leave a call waiting, then the calls under way can only stop by all of them
returning. -/
theorem C79_served {P : Sched.Params T} {W : Peer σ} (hW : Framed W) {R : Room} (hR : R.Some) {s0 : σ}
    (hs : Says W s0 P.resp) (hc : ∀ c, P.calls c → Sched.ClientCall P.kind c) {q : State T σ}
    (h : Later P W R (init s0) q) (hcr : q.users.crashed = false)
    (hans : ∀ c, P.calls c → .err .io ∉ oneByOne P.resp [] [] (q.users.log.map (·.1) ++ [c]))
    (hfit : ∀ c p y, P.calls c → c.wire = .ok (p ++ y) → y ≠ [] →
      (Sched.leftover P.resp [] [] (q.users.log.map (·.1)) ++ replyTo P.resp (wiresOf (q.users.log.map (·.1))) p).length ≤ R.down)
    (hb : AtRest P W R q) : AllDone q.users := by
  have hr := C79_refines hW hs h
  have hon := says_online hW hs
  rcases C79_stop hW hR hs h hcr hb with h1 | ⟨t, c, ho, hen, hlate, hoth, h2⟩
  · exact h1
  · rcases h2 with ⟨hp, hio, hgot⟩ | ⟨⟨x, y, hp⟩, hup, hwd, hdn⟩
    · -- as on an unlimited connection
      exfalso
      rcases Sched.story hon (fun c h => (hc c h).reader) hr with ⟨hf, _⟩ | ⟨_, _, _, _, _, _, _, ht, _⟩
      · obtain ⟨p, x, e1, e2, e3, e4, _⟩ := hf.data
        have hx : x = [] := by
          rw [hgot] at e2
          exact List.append_cancel_left ((List.append_nil _).trans e2).symm
        subst hx
        rw [List.append_nil] at e3
        have hw := e4 t c [] (by rw [hp]; rfl)
        rw [List.append_nil] at hw
        apply hans c (Sched.known hr t c (by rw [hp]; rfl))
        rw [Sched.oneByOne_append]
        refine List.mem_append.2 (.inr ?_)
        simp only [oneByOne, hw, List.nil_append]
        rw [← hio, ← e3]
        exact List.mem_cons_self ..
      · rcases ht with e | e | e
        · rw [ho] at e; cases e
        · rw [hen] at e; cases e
        · exact hlate e
    · exfalso
      rcases Sched.story hon (fun c h => (hc c h).reader) hr with ⟨hf, _⟩ | ⟨_, _, _, _, _, _, _, ht, _⟩
      · obtain ⟨p, z, e1, e2, e3, e4, _⟩ := hf.data
        have hw := e4 t c (x :: y) (by rw [hp]; rfl)
        have hlen := hfit c p (x :: y) (Sched.known hr t c (by rw [hp]; rfl)) hw (by simp)
        have e3' : Sched.leftover P.resp [] [] (q.users.log.map (·.1)) ++ replyTo P.resp (wiresOf (q.users.log.map (·.1))) p
          = q.users.inbox ++ z := e3
        rw [e3'] at hlen
        obtain ⟨k, hk⟩ := pipes hW h
        obtain ⟨v, hv⟩ := pipes_prefix hW hs hk
        rw [e2, List.append_assoc, List.append_assoc] at hv
        have hz := congrArg List.length (List.append_cancel_left hv)
        have hpos : 0 < q.pipe.owed.length := List.length_pos_iff.2 hwd
        simp at hz hlen
        omega
      · rcases ht with e | e | e
        · rw [ho] at e; cases e
        · rw [hen] at e; cases e
        · exact hlate e

end Narrow
end Verif
