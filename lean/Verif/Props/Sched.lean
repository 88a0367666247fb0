import Verif.Client.Sched
import Verif.Spec.Sequential
import Verif.Spec.Trouble
import Verif.Lemmas.Online
import Verif.Props.MetaHistory
/-!
C30, C35: several goroutines use one client connection.
-/

namespace Verif
namespace Sched
open Spec
open Life (Kind errClosed errAlready)

variable {T : Type} [DecidableEq T]

/-! ## The mutex -/

/-- Between Lock and Unlock. -/
def At.inside : At → Bool
  | .locked _ | .writeDeadline _ | .readDeadline _ | .writing _ _ | .reading _ => true
  | _ => false

/-- The call that is on the wire, and what remains to be sent of it. -/
def At.talking : At → Option (Call Out × Bytes)
  | .writing c x => some (c, x)
  | .reading c => some (c, [])
  | _ => none

theorem At.inside_of_talking {a : At} (h : a.talking ≠ none) : a.inside = true := by
  cases a <;> simp_all [At.talking, At.inside]

/-- Who is between Lock and Unlock holds the mutex. -/
def Excl (s : State T) : Prop := ∀ t, (s.pc t).inside = true ↔ s.lock = some t

theorem goto_pc (s : State T) (t u : T) (a : At) : (s.goto t a).pc u = if u = t then a else s.pc u := rfl

theorem excl_goto {s : State T} (h : Excl s) {t : T} {a : At} (ha : a.inside = (s.pc t).inside) :
    Excl (s.goto t a) := by
  intro u
  rw [goto_pc]
  by_cases hu : u = t
  · subst hu; simp only [if_true, ha]; exact h u
  · simp only [hu, if_false]; exact h u

theorem excl_ret {s : State T} (h : Excl s) {t : T} (ht : (s.pc t).inside = true) (c : Call Out) (r : Res Out) :
    Excl (s.ret t c r) := by
  have hl := (h t).1 ht
  intro u
  show ((s.goto t .idle).pc u).inside = true ↔ none = some u
  rw [goto_pc]
  by_cases hu : u = t
  · simp [hu, At.inside]
  · simp only [hu, if_false]
    rw [h u, hl]; simp [Ne.symm hu]

theorem excl_frame {s s' : State T} (h : Excl s) (hp : s'.pc = s.pc) (hl : s'.lock = s.lock) : Excl s' := by
  intro u; rw [hp, hl]; exact h u

theorem excl_step {P : Params T} {s s' : State T} (h : Excl s) (hs : Step P s s') : Excl s' := by
  cases hs with
  | call t c hp hc => exact excl_goto h (by rw [hp]; rfl)
  | lock t c hp hl =>
    intro u
    show ((s.goto t (.locked c)).pc u).inside = true ↔ some t = some u
    rw [goto_pc]
    by_cases hu : u = t
    · simp [hu, At.inside]
    · simp only [hu, if_false]
      rw [h u, hl]; simp [Ne.symm hu]
  | refuse t c hp _ _ => exact excl_ret h (by rw [hp]; rfl) _ _
  | pass t c hp _ => exact excl_goto h (by rw [hp]; rfl)
  | writeDeadlineNil t c hp _ _ => exact excl_frame h rfl rfl
  | writeDeadline t c hp _ _ => exact excl_goto h (by rw [hp]; rfl)
  | readDeadlineNil t c hp _ => exact excl_frame h rfl rfl
  | readDeadline t c w hp _ _ => exact excl_goto h (by rw [hp]; rfl)
  | noDeadline t c w hp _ _ => exact excl_goto h (by rw [hp]; rfl)
  | unencodable t c e hp _ => exact excl_ret h (by rcases hp with ⟨hp, _⟩ | ⟨hp, _⟩ <;> rw [hp] <;> rfl) _ _
  | unencodablePanic t c hp _ => exact excl_ret h (by rcases hp with ⟨hp, _⟩ | ⟨hp, _⟩ <;> rw [hp] <;> rfl) _ _
  | write t c x y hp _ _ => exact excl_frame (excl_goto (a := .writing c y) h (by rw [hp]; rfl)) rfl rfl
  | writeFails t c x hp _ => exact excl_frame (excl_ret h (by rw [hp]; rfl) c (.err .io)) rfl rfl
  | written t c hp _ => exact excl_goto h (by rw [hp]; rfl)
  | arrive x y _ _ _ => exact excl_frame h rfl rfl
  | hangUp => exact excl_frame h rfl rfl
  | read t c hp _ => exact excl_frame (excl_ret h (by rw [hp]; rfl) c (c.rd s.inbox).1) rfl rfl
  | readFails t c hp _ _ => exact excl_frame (excl_ret h (by rw [hp]; rfl) c (.err .io)) rfl rfl
  | readTimeout t c hp _ _ _ => exact excl_frame (excl_ret h (by rw [hp]; rfl) c (.err .io)) rfl rfl
  | callClose t hp _ => exact excl_goto h (by rw [hp]; rfl)
  | closeAgain t hp _ _ => exact excl_goto h (by rw [hp]; rfl)
  | closeGo t hp _ => exact excl_goto h (by rw [hp]; rfl)
  | closeRawNil t hp _ => exact excl_frame h rfl rfl
  | closeRaw t hp _ =>
    refine excl_frame (excl_goto (t := t) (a := if P.kind = .text then .clearRaw else .idle) h ?_) rfl rfl
    rw [hp]; split <;> rfl
  | clearRaw t hp => exact excl_frame (excl_goto (t := t) (a := .closeChan) h (by rw [hp]; rfl)) rfl rfl
  | closeChanPanic t hp _ => exact excl_frame h rfl rfl
  | closeChan t hp _ _ => exact excl_frame (excl_goto (t := t) (a := .clearChan) h (by rw [hp]; rfl)) rfl rfl
  | clearChan t hp => exact excl_frame (excl_goto (t := t) (a := .idle) h (by rw [hp]; rfl)) rfl rfl

theorem excl {P : Params T} {s : State T} (h : Reach P s) : Excl s := by
  induction h with
  | init => intro u; simp [init, At.inside]
  | step _ hs ih => exact excl_step ih hs

/-- **C30**: at no moment do two goroutines write a request or read a reply on the connection. -/
theorem C30_one_outstanding {P : Params T} {s : State T} (h : Reach P s) {t u : T}
    (ht : (s.pc t).talking ≠ none) (hu : (s.pc u).talking ≠ none) : t = u := by
  have e := excl h
  have h1 := (e t).1 (At.inside_of_talking ht)
  have h2 := (e u).1 (At.inside_of_talking hu)
  rw [h1] at h2
  exact Option.some.inj h2

/-- Nobody else is on the wire. -/
theorem Excl.alone {s : State T} (h : Excl s) {t : T} (ht : (s.pc t).inside = true) {u : T} (hu : u ≠ t) :
    (s.pc u).talking = none := by
  apply Classical.byContradiction
  intro hc
  have h1 := (h t).1 ht
  have h2 := (h u).1 (At.inside_of_talking hc)
  rw [h1] at h2
  exact hu (Option.some.inj h2).symm

/-! ## The sequential run -/

/-- What is unread after some calls. -/
def leftover (resp : Bytes → Bytes) : Bytes → Bytes → List (Call Out) → Bytes
  | _, u, [] => u
  | sent, u, c :: cs =>
    match c.wire with
    | .ok w => leftover resp (sent ++ w) (c.rd (u ++ replyTo resp sent w)).2 cs
    | _ => leftover resp sent u cs

theorem oneByOne_append (resp : Bytes → Bytes) (cs ds : List (Call Out)) : ∀ sent u,
    oneByOne resp sent u (cs ++ ds)
      = oneByOne resp sent u cs ++ oneByOne resp (sent ++ wiresOf cs) (leftover resp sent u cs) ds := by
  induction cs with
  | nil => intro sent u; simp [oneByOne, wiresOf, leftover]
  | cons c cs ih =>
    intro sent u
    rw [List.cons_append, oneByOne, oneByOne, wiresOf, leftover]
    cases c.wire with
    | ok w => simp only [ih, List.cons_append, List.append_assoc]
    | err e => simp only [ih, List.cons_append, List.nil_append]
    | panic => simp only [ih, List.cons_append, List.nil_append]

theorem leftover_append (resp : Bytes → Bytes) (cs ds : List (Call Out)) : ∀ sent u,
    leftover resp sent u (cs ++ ds) = leftover resp (sent ++ wiresOf cs) (leftover resp sent u cs) ds := by
  induction cs with
  | nil => intro sent u; simp [wiresOf, leftover]
  | cons c cs ih =>
    intro sent u
    rw [List.cons_append, wiresOf, leftover, leftover]
    cases c.wire with
    | ok w => simp only [ih, List.append_assoc]
    | err e => simp only [ih, List.nil_append]
    | panic => simp only [ih, List.nil_append]

theorem wiresOf_append (cs ds : List (Call Out)) : wiresOf (cs ++ ds) = wiresOf cs ++ wiresOf ds := by
  induction cs with
  | nil => rfl
  | cons c cs ih => rw [List.cons_append, wiresOf, wiresOf, ih, List.append_assoc]

/-- The calls of a log. -/
abbrev callsOf (l : List (Call Out × Res Out)) : List (Call Out) := l.map (·.1)

/-- A log is that of a sequential run. -/
def Sequential (resp : Bytes → Bytes) (l : List (Call Out × Res Out)) : Prop :=
  l.map (·.2) = oneByOne resp [] [] (callsOf l)

/-- The connection is where the sequential run of the log would be, but for a request under way. -/
structure Fit (P : Params T) (s : State T) : Prop where
  log : Sequential P.resp s.log
  data : ∃ p x, s.sent = wiresOf (callsOf s.log) ++ p ∧ P.resp s.sent = s.got ++ x ∧
    leftover P.resp [] [] (callsOf s.log) ++ replyTo P.resp (wiresOf (callsOf s.log)) p = s.inbox ++ x ∧
    (∀ t c todo, (s.pc t).talking = some (c, todo) → c.wire = .ok (p ++ todo)) ∧
    ((∀ t, (s.pc t).talking = none) → p = [])

theorem Fit.frame {P : Params T} {s s' : State T} (h : Fit P s) (h1 : s'.log = s.log) (h2 : s'.sent = s.sent)
    (h3 : s'.got = s.got) (h4 : s'.inbox = s.inbox) (h5 : ∀ t, (s'.pc t).talking = (s.pc t).talking) : Fit P s' := by
  refine ⟨by rw [h1]; exact h.log, ?_⟩
  rw [h1, h2, h3, h4]
  simp only [h5]
  exact h.data

theorem Fit.goto {P : Params T} {s : State T} (h : Fit P s) {t : T} {a : At} (ha : a.talking = (s.pc t).talking) :
    Fit P (s.goto t a) := by
  refine h.frame rfl rfl rfl rfl fun u => ?_
  rw [goto_pc]
  by_cases hu : u = t
  · subst hu; simp only [if_true, ha]
  · simp only [hu, if_false]

theorem fit_init (P : Params T) (h : Online P.resp) : Fit P (init : State T) := by
  refine ⟨rfl, [], [], ?_⟩
  simp [init, wiresOf, leftover, replyTo, At.talking, h.1]

/-- A request is begun. -/
theorem Fit.begin {P : Params T} {s : State T} (h : Fit P s) (he : Excl s) {t : T} {c : Call Out} {w : Bytes}
    (hin : (s.pc t).inside = true) (ht : (s.pc t).talking = none) (hw : c.wire = .ok w) : Fit P (s.goto t (.writing c w)) := by
  obtain ⟨hl, p, x, h1, h2, h3, _, h5⟩ := h
  have hp : p = [] := h5 fun u => by
    by_cases hu : u = t
    · rw [hu, ht]
    · exact he.alone hin hu
  subst hp
  refine ⟨hl, [], x, h1, h2, h3, ?_, fun _ => rfl⟩
  intro u d todo hd
  rw [goto_pc] at hd
  by_cases hu : u = t
  · simp only [hu, if_true, At.talking, Option.some.injEq, Prod.mk.injEq] at hd
    obtain ⟨rfl, rfl⟩ := hd
    simpa using hw
  · simp only [hu, if_false] at hd
    rw [he.alone hin hu] at hd; cases hd

theorem replyTo_append {resp : Bytes → Bytes} (h : Online resp) {sent p x z : Bytes}
    (hz : resp (sent ++ p ++ x) = resp (sent ++ p) ++ z) : replyTo resp sent (p ++ x) = replyTo resp sent p ++ z := by
  unfold replyTo
  rw [← List.append_assoc, hz]
  exact List.drop_append_of_le_length ((h.2 sent p).length_le)

/-- A piece is sent. -/
theorem Fit.write {P : Params T} {s : State T} (hon : Online P.resp) (h : Fit P s) (he : Excl s) {t : T} {c : Call Out}
    {x y : Bytes} (ht : s.pc t = .writing c (x ++ y)) :
    Fit P { s.goto t (.writing c y) with sent := s.sent ++ x } := by
  obtain ⟨hl, p, r, h1, h2, h3, h4, h5⟩ := h
  have hw := h4 t c (x ++ y) (by rw [ht]; rfl)
  obtain ⟨z, hz⟩ := hon.2 s.sent x
  have hz' : P.resp (wiresOf (callsOf s.log) ++ p ++ x) = P.resp (wiresOf (callsOf s.log) ++ p) ++ z := by
    rw [← h1]; exact hz.symm
  refine ⟨hl, p ++ x, r ++ z, ?_, ?_, ?_, ?_, ?_⟩
  · show s.sent ++ x = _; rw [h1, List.append_assoc]; rfl
  · show P.resp (s.sent ++ x) = s.got ++ (r ++ z); rw [← hz, h2, List.append_assoc]
  · show leftover P.resp [] [] (callsOf s.log) ++ replyTo P.resp (wiresOf (callsOf s.log)) (p ++ x) = s.inbox ++ (r ++ z)
    rw [replyTo_append hon hz', ← List.append_assoc, h3, List.append_assoc]
  · intro u d todo hd
    replace hd : ((s.goto t (.writing c y)).pc u).talking = some (d, todo) := hd
    rw [goto_pc] at hd
    by_cases hu : u = t
    · simp only [hu, if_true, At.talking, Option.some.injEq, Prod.mk.injEq] at hd
      obtain ⟨rfl, rfl⟩ := hd
      rw [hw, List.append_assoc]
    · simp only [hu, if_false] at hd
      rw [he.alone (by rw [ht]; rfl) hu] at hd; cases hd
  · intro hn
    have := hn t
    simp only [goto_pc, if_true, At.talking] at this
    cases this

/-- Bytes arrive. -/
theorem Fit.arrive {P : Params T} {s : State T} (h : Fit P s) {x y : Bytes} (hx : P.resp s.sent = s.got ++ x ++ y) :
    Fit P { s with got := s.got ++ x, inbox := s.inbox ++ x } := by
  obtain ⟨hl, p, r, h1, h2, h3, h4, h5⟩ := h
  have hr : r = x ++ y := by
    rw [h2, List.append_assoc] at hx
    exact List.append_cancel_left hx
  subst hr
  exact ⟨hl, p, y, h1, by simpa using hx, by simpa using h3, h4, h5⟩

/-- After a return nobody is on the wire. -/
theorem ret_quiet {s : State T} (he : Excl s) {t : T} (ht : (s.pc t).inside = true) (c : Call Out) (r : Res Out) (u : T) :
    ((s.ret t c r).pc u).talking = none := by
  show ((s.goto t .idle).pc u).talking = none
  rw [goto_pc]
  by_cases hu : u = t
  · simp only [hu, if_true, At.talking]
  · simp only [hu, if_false]; exact he.alone ht hu

/-- A call that is not sent returns. -/
theorem Fit.refused {P : Params T} {s : State T} (h : Fit P s) (he : Excl s) {t : T} {c : Call Out} {r : Res Out}
    (hin : (s.pc t).inside = true) (ht : (s.pc t).talking = none) (hr : refused c r) : Fit P (s.ret t c r) := by
  obtain ⟨hl, p, x, h1, h2, h3, _, h5⟩ := h
  have hp : p = [] := h5 fun u => by
    by_cases hu : u = t
    · rw [hu, ht]
    · exact he.alone hin hu
  subst hp
  have hw : ∀ w, c.wire ≠ .ok w := by
    intro w hc; cases r with
    | ok a => exact hr
    | err e => rw [show c.wire = .err e from hr] at hc; cases hc
    | panic => rw [show c.wire = .panic from hr] at hc; cases hc
  have hwires : wiresOf [c] = [] := by
    unfold wiresOf wiresOf
    cases hc : c.wire with
    | ok w => exact absurd hc (hw w)
    | err e => rfl
    | panic => rfl
  have hleft : ∀ a b, leftover P.resp a b [c] = b := by
    intro a b
    unfold leftover
    cases hc : c.wire with
    | ok w => exact absurd hc (hw w)
    | err e => rfl
    | panic => rfl
  have hone : ∀ a b, oneByOne P.resp a b [c] = [r] := by
    intro a b
    unfold oneByOne
    cases r with
    | ok a => exact absurd hr id
    | err e => rw [show c.wire = .err e from hr]; rfl
    | panic => rw [show c.wire = .panic from hr]; rfl
  refine ⟨?_, [], x, ?_, h2, ?_, ?_, fun _ => rfl⟩
  · show (s.log ++ [(c, r)]).map (·.2) = oneByOne P.resp [] [] ((s.log ++ [(c, r)]).map (·.1))
    rw [List.map_append, List.map_append, oneByOne_append, ← hl]
    simp only [List.map_cons, List.map_nil, hone]
  · show s.sent = wiresOf ((s.log ++ [(c, r)]).map (·.1)) ++ []
    rw [List.map_append, wiresOf_append, h1]
    simp only [List.map_cons, List.map_nil, hwires]
    simp
  · show leftover P.resp [] [] ((s.log ++ [(c, r)]).map (·.1)) ++ replyTo P.resp (wiresOf ((s.log ++ [(c, r)]).map (·.1))) []
      = s.inbox ++ x
    rw [List.map_append, wiresOf_append, leftover_append]
    simp only [List.map_cons, List.map_nil, hwires, hleft, List.append_nil]
    exact h3
  · intro u d todo hd
    rw [ret_quiet he hin] at hd; cases hd

/-- A call returns with what has arrived. -/
theorem Fit.read {P : Params T} {s : State T} (h : Fit P s) (he : Excl s) {t : T} {c : Call Out}
    (ht : s.pc t = .reading c) (hst : Stable c.rd) (hio : (c.rd s.inbox).1 ≠ .err .io) :
    Fit P { s.ret t c (c.rd s.inbox).1 with inbox := (c.rd s.inbox).2 } := by
  obtain ⟨hl, p, x, h1, h2, h3, h4, _⟩ := h
  have hw : c.wire = .ok p := by simpa using h4 t c [] (by rw [ht]; rfl)
  have hin : (s.pc t).inside = true := by rw [ht]; rfl
  have hrd := hst s.inbox x hio
  have hwires : wiresOf [c] = p := by simp [wiresOf, hw]
  have hleft : leftover P.resp (wiresOf (callsOf s.log)) (leftover P.resp [] [] (callsOf s.log)) [c]
      = (c.rd s.inbox).2 ++ x := by
    simp only [leftover, hw, h3, hrd]
  have hone : oneByOne P.resp (wiresOf (callsOf s.log)) (leftover P.resp [] [] (callsOf s.log)) [c]
      = [(c.rd s.inbox).1] := by
    simp only [oneByOne, hw, h3, hrd]
  refine ⟨?_, [], x, ?_, h2, ?_, ?_, fun _ => rfl⟩
  · show (s.log ++ [(c, (c.rd s.inbox).1)]).map (·.2)
      = oneByOne P.resp [] [] ((s.log ++ [(c, (c.rd s.inbox).1)]).map (·.1))
    rw [List.map_append, List.map_append, oneByOne_append, ← hl]
    simp only [List.map_cons, List.map_nil, List.nil_append]
    rw [hone]
  · show s.sent = wiresOf ((s.log ++ [(c, (c.rd s.inbox).1)]).map (·.1)) ++ []
    rw [List.map_append, wiresOf_append, h1]
    simp only [List.map_cons, List.map_nil, hwires, List.append_nil]
  · show leftover P.resp [] [] ((s.log ++ [(c, (c.rd s.inbox).1)]).map (·.1))
      ++ replyTo P.resp (wiresOf ((s.log ++ [(c, (c.rd s.inbox).1)]).map (·.1))) [] = (c.rd s.inbox).2 ++ x
    have hr : ∀ a, replyTo P.resp a [] = [] := by intro a; simp [replyTo]
    rw [List.map_append, leftover_append, hr, List.append_nil]
    exact hleft
  · intro u d todo hd
    replace hd : ((s.ret t c (c.rd s.inbox).1).pc u).talking = some (d, todo) := hd
    rw [ret_quiet he hin] at hd; cases hd

/-! ## Failures -/

/-- Goroutines only make calls that are in use. -/
def Known (P : Params T) (s : State T) : Prop := ∀ t c, (s.pc t).op = some c → P.calls c

theorem Known.goto {P : Params T} {s : State T} (h : Known P s) {t : T} {a : At}
    (ha : a.op = none ∨ a.op = (s.pc t).op) : Known P (s.goto t a) := by
  intro u c hu
  rw [goto_pc] at hu
  by_cases hut : u = t
  · simp only [hut, if_true] at hu
    rcases ha with ha | ha
    · rw [ha] at hu; cases hu
    · rw [ha] at hu; exact h t c hu
  · simp only [hut, if_false] at hu; exact h u c hu

theorem Known.frame {P : Params T} {s s' : State T} (h : Known P s) (hp : s'.pc = s.pc) : Known P s' := by
  intro u c hu; rw [hp] at hu; exact h u c hu

theorem known_step {P : Params T} {s s' : State T} (h : Known P s) (hs : Step P s s') : Known P s' := by
  cases hs with
  | call t c hp hc =>
    intro u d hu
    rw [goto_pc] at hu
    by_cases hut : u = t
    · simp only [hut, if_true, At.op, Option.some.injEq] at hu; rw [← hu]; exact hc
    · simp only [hut, if_false] at hu; exact h u d hu
  | lock t c hp hl => exact Known.frame (h.goto (t := t) (a := .locked c) (.inr (by rw [hp]; rfl))) rfl
  | refuse t c hp _ _ => exact Known.frame (h.goto (t := t) (a := .idle) (.inl rfl)) rfl
  | pass t c hp _ => exact h.goto (.inr (by rw [hp]; rfl))
  | writeDeadlineNil t c hp _ _ => exact Known.frame h rfl
  | writeDeadline t c hp _ _ => exact h.goto (.inr (by rw [hp]; rfl))
  | readDeadlineNil t c hp _ => exact Known.frame h rfl
  | readDeadline t c w hp _ _ => exact h.goto (.inr (by rw [hp]; rfl))
  | noDeadline t c w hp _ _ => exact h.goto (.inr (by rw [hp]; rfl))
  | unencodable t c e hp _ => exact Known.frame (h.goto (t := t) (a := .idle) (.inl rfl)) rfl
  | unencodablePanic t c hp _ => exact Known.frame (h.goto (t := t) (a := .idle) (.inl rfl)) rfl
  | write t c x y hp _ _ => exact Known.frame (h.goto (t := t) (a := .writing c y) (.inr (by rw [hp]; rfl))) rfl
  | writeFails t c x hp _ => exact Known.frame (h.goto (t := t) (a := .idle) (.inl rfl)) rfl
  | written t c hp _ => exact h.goto (.inr (by rw [hp]; rfl))
  | arrive x y _ _ _ => exact Known.frame h rfl
  | hangUp => exact Known.frame h rfl
  | read t c hp _ => exact Known.frame (h.goto (t := t) (a := .idle) (.inl rfl)) rfl
  | readFails t c hp _ _ => exact Known.frame (h.goto (t := t) (a := .idle) (.inl rfl)) rfl
  | readTimeout t c hp _ _ _ => exact Known.frame (h.goto (t := t) (a := .idle) (.inl rfl)) rfl
  | callClose t hp _ => exact h.goto (.inl rfl)
  | closeAgain t hp _ _ => exact h.goto (.inl rfl)
  | closeGo t hp _ => exact h.goto (.inl rfl)
  | closeRawNil t hp _ => exact Known.frame h rfl
  | closeRaw t hp _ =>
    refine Known.frame (h.goto (t := t) (a := if P.kind = .text then .clearRaw else .idle) (.inl ?_)) rfl
    split <;> rfl
  | clearRaw t hp => exact Known.frame (h.goto (t := t) (a := .closeChan) (.inl rfl)) rfl
  | closeChanPanic t hp _ => exact Known.frame h rfl
  | closeChan t hp _ _ => exact Known.frame (h.goto (t := t) (a := .clearChan) (.inl rfl)) rfl
  | clearChan t hp => exact Known.frame (h.goto (t := t) (a := .idle) (.inl rfl)) rfl

theorem known {P : Params T} {s : State T} (h : Reach P s) : Known P s := by
  induction h with
  | init => intro u c hu; simp [init, At.op] at hu
  | step _ hs ih => exact known_step ih hs

/-- The connection was closed before `raw` is cleared. -/
structure RawInv (s : State T) : Prop where
  gone : s.raw = false → s.isOpen = false
  going : ∀ t, s.pc t = .clearRaw → s.isOpen = false

theorem RawInv.goto {s : State T} (h : RawInv s) {t : T} {a : At} (ha : a ≠ .clearRaw) : RawInv (s.goto t a) := by
  refine ⟨h.gone, fun u hu => ?_⟩
  rw [goto_pc] at hu
  by_cases hut : u = t
  · simp only [hut, if_true] at hu; exact absurd hu ha
  · simp only [hut, if_false] at hu; exact h.going u hu

theorem RawInv.frame {s s' : State T} (h : RawInv s) (h1 : s'.pc = s.pc) (h2 : s'.raw = s.raw) (h3 : s'.isOpen = s.isOpen) :
    RawInv s' := ⟨by rw [h2, h3]; exact h.gone, by rw [h1, h3]; exact h.going⟩

theorem rawInv_step {P : Params T} {s s' : State T} (h : RawInv s) (hs : Step P s s') : RawInv s' := by
  cases hs with
  | call t c hp hc => exact h.goto (by simp)
  | lock t c hp hl => exact (h.goto (t := t) (a := .locked c) (by simp)).frame rfl rfl rfl
  | refuse t c hp _ _ => exact (h.goto (t := t) (a := .idle) (by simp)).frame rfl rfl rfl
  | pass t c hp _ => exact h.goto (by simp)
  | writeDeadlineNil t c hp _ _ => exact h.frame rfl rfl rfl
  | writeDeadline t c hp _ _ => exact h.goto (by simp)
  | readDeadlineNil t c hp _ => exact h.frame rfl rfl rfl
  | readDeadline t c w hp _ _ => exact h.goto (by simp)
  | noDeadline t c w hp _ _ => exact h.goto (by simp)
  | unencodable t c e hp _ => exact (h.goto (t := t) (a := .idle) (by simp)).frame rfl rfl rfl
  | unencodablePanic t c hp _ => exact (h.goto (t := t) (a := .idle) (by simp)).frame rfl rfl rfl
  | write t c x y hp _ _ => exact (h.goto (t := t) (a := .writing c y) (by simp)).frame rfl rfl rfl
  | writeFails t c x hp _ => exact (h.goto (t := t) (a := .idle) (by simp)).frame rfl rfl rfl
  | written t c hp _ => exact h.goto (by simp)
  | arrive x y _ _ _ => exact h.frame rfl rfl rfl
  | hangUp => exact h.frame rfl rfl rfl
  | read t c hp _ => exact (h.goto (t := t) (a := .idle) (by simp)).frame rfl rfl rfl
  | readFails t c hp _ _ => exact (h.goto (t := t) (a := .idle) (by simp)).frame rfl rfl rfl
  | readTimeout t c hp _ _ _ => exact (h.goto (t := t) (a := .idle) (by simp)).frame rfl rfl rfl
  | callClose t hp _ => exact h.goto (by simp)
  | closeAgain t hp _ _ => exact h.goto (by simp)
  | closeGo t hp _ => exact h.goto (by simp)
  | closeRawNil t hp _ => exact h.frame rfl rfl rfl
  | closeRaw t hp _ => exact ⟨fun _ => rfl, fun _ _ => rfl⟩
  | clearRaw t hp =>
    have ho := h.going t hp
    exact ⟨fun _ => ho, fun _ _ => ho⟩
  | closeChanPanic t hp _ => exact h.frame rfl rfl rfl
  | closeChan t hp _ _ => exact (h.goto (t := t) (a := .clearChan) (by simp)).frame rfl rfl rfl
  | clearChan t hp => exact (h.goto (t := t) (a := .idle) (by simp)).frame rfl rfl rfl

theorem rawInv {P : Params T} {s : State T} (h : Reach P s) : RawInv s := by
  induction h with
  | init => exact ⟨by simp [init], by simp [init]⟩
  | step _ hs ih => exact rawInv_step ih hs

/-- No operation that returns from now on can succeed. -/
def Doomed (P : Params T) (s : State T) : Prop :=
  (P.kind = .text ∧ s.raw = false ∧ ∀ t, (s.pc t).inside = true → ∃ c, s.pc t = .locked c) ∨
  (s.werr = true ∧ ∀ t c, s.pc t ≠ .reading c) ∨
  (s.inbox = [] ∧ (s.ended = true ∨ s.isOpen = false))

theorem trouble_step {P : Params T} {s s' : State T} (h : Trouble P s) (hs : Step P s s') : Trouble P s' := by
  unfold Trouble at h ⊢
  cases hs <;> first | exact h | exact .inl rfl | exact .inr (.inl rfl)

theorem Doomed.frame {P : Params T} {s s' : State T} (h : Doomed P s) (h1 : s'.raw = s.raw) (h2 : s'.werr = s.werr)
    (h3 : s'.inbox = s.inbox) (h4 : s.ended = true → s'.ended = true) (h5 : s.isOpen = false → s'.isOpen = false)
    (h6 : ∀ t, s'.pc t = s.pc t ∨ (s'.pc t).inside = false) : Doomed P s' := by
  rcases h with ⟨a, b, c⟩ | ⟨a, b⟩ | ⟨a, b⟩
  · refine .inl ⟨a, h1 ▸ b, fun t ht => ?_⟩
    rcases h6 t with e | e
    · rw [e] at ht ⊢; exact c t ht
    · rw [e] at ht; cases ht
  · refine .inr (.inl ⟨h2 ▸ a, fun t c => ?_⟩)
    rcases h6 t with e | e
    · rw [e]; exact b t c
    · intro hc; rw [hc] at e; cases e
  · exact .inr (.inr ⟨h3 ▸ a, b.elim (fun h => .inl (h4 h)) (fun h => .inr (h5 h))⟩)

theorem goto_cases (s : State T) (t : T) (a : At) (ha : a.inside = false) (u : T) :
    (s.goto t a).pc u = s.pc u ∨ ((s.goto t a).pc u).inside = false := by
  rw [goto_pc]
  by_cases hu : u = t
  · simp [hu, ha]
  · simp [hu]

/-- A goroutine moves on before reading. -/
theorem Doomed.move {P : Params T} {s : State T} (h : Doomed P s) {t : T} {a : At} (hin : (s.pc t).inside = true)
    (hnl : ∀ c, s.pc t ≠ .locked c) (ha : ∀ c, a ≠ .reading c) : Doomed P (s.goto t a) := by
  rcases h with ⟨_, _, c⟩ | ⟨x, y⟩ | h
  · obtain ⟨d, hd⟩ := c t hin; exact absurd hd (hnl d)
  · refine .inr (.inl ⟨x, fun u c => ?_⟩)
    rw [goto_pc]
    by_cases hu : u = t
    · simp only [hu, if_true]; exact ha c
    · simp only [hu, if_false]; exact y u c
  · exact .inr (.inr h)

theorem doomed_step {P : Params T} {s s' : State T} (hk : Known P s)
    (hcalls : ∀ c, P.calls c → c.rd [] = (.err .io, [])) (h : Doomed P s) (hs : Step P s s') :
    Doomed P s' ∧ (s'.log = s.log ∨ ∃ c r, s'.log = s.log ++ [(c, r)] ∧ (Fails r ∨ refused c r)) := by
  cases hs with
  | call t c hp hc => exact ⟨h.frame rfl rfl rfl id id (goto_cases s t _ rfl), .inl rfl⟩
  | lock t c hp hl =>
    refine ⟨?_, .inl rfl⟩
    rcases h with ⟨a, b, d⟩ | ⟨x, y⟩ | h
    · refine .inl ⟨a, b, fun u hu => ?_⟩
      replace hu : ((s.goto t (.locked c)).pc u).inside = true := hu
      show ∃ e, (s.goto t (.locked c)).pc u = .locked e
      rw [goto_pc] at hu ⊢
      by_cases hut : u = t
      · exact ⟨c, by simp [hut]⟩
      · simp only [hut, if_false] at hu ⊢; exact d u hu
    · refine .inr (.inl ⟨x, fun u e => ?_⟩)
      show (s.goto t (.locked c)).pc u ≠ .reading e
      rw [goto_pc]
      by_cases hu : u = t
      · simp [hu]
      · simp only [hu, if_false]; exact y u e
    · exact .inr (.inr h)
  | refuse t c hp _ _ => exact ⟨h.frame rfl rfl rfl id id (goto_cases s t _ rfl), .inr ⟨c, _, rfl, .inl (.inr rfl)⟩⟩
  | pass t c hp hpass =>
    refine ⟨?_, .inl rfl⟩
    rcases h with ⟨a, b, d⟩ | ⟨x, y⟩ | h
    · exact absurd (hpass a) (by simp [b])
    · refine .inr (.inl ⟨x, fun u e => ?_⟩)
      rw [goto_pc]
      by_cases hu : u = t
      · simp [hu]
      · simp only [hu, if_false]; exact y u e
    · exact .inr (.inr h)
  | writeDeadlineNil t c hp _ _ => exact ⟨h.frame rfl rfl rfl id id (fun _ => .inl rfl), .inl rfl⟩
  | writeDeadline t c hp _ _ => exact ⟨h.move (by rw [hp]; rfl) (by simp [hp]) (by simp), .inl rfl⟩
  | readDeadlineNil t c hp _ => exact ⟨h.frame rfl rfl rfl id id (fun _ => .inl rfl), .inl rfl⟩
  | readDeadline t c w hp _ _ => exact ⟨h.move (by rw [hp]; rfl) (by simp [hp]) (by simp), .inl rfl⟩
  | noDeadline t c w hp _ _ => exact ⟨h.move (by rw [hp]; rfl) (by simp [hp]) (by simp), .inl rfl⟩
  | unencodable t c e hp he => exact ⟨h.frame rfl rfl rfl id id (goto_cases s t _ rfl), .inr ⟨c, _, rfl, .inr he⟩⟩
  | unencodablePanic t c hp he => exact ⟨h.frame rfl rfl rfl id id (goto_cases s t _ rfl), .inr ⟨c, _, rfl, .inr he⟩⟩
  | write t c x y hp _ hw =>
    exact ⟨(h.move (t := t) (a := .writing c y) (by rw [hp]; rfl) (by simp [hp]) (by simp)).frame rfl rfl rfl id id
      (fun _ => .inl rfl), .inl rfl⟩
  | writeFails t c x hp _ =>
    refine ⟨?_, .inr ⟨c, _, rfl, .inl (.inl rfl)⟩⟩
    rcases h with ⟨a, b, d⟩ | ⟨_, y⟩ | h
    · obtain ⟨e, he⟩ := d t (by rw [hp]; rfl); rw [hp] at he; cases he
    · refine .inr (.inl ⟨rfl, fun u e => ?_⟩)
      show (s.goto t .idle).pc u ≠ .reading e
      rw [goto_pc]
      by_cases hu : u = t
      · simp [hu]
      · simp only [hu, if_false]; exact y u e
    · exact .inr (.inr h)
  | written t c hp hw =>
    refine ⟨?_, .inl rfl⟩
    rcases h with ⟨a, b, d⟩ | ⟨x, _⟩ | h
    · obtain ⟨e, he⟩ := d t (by rw [hp]; rfl); rw [hp] at he; cases he
    · rw [hw] at x; cases x
    · exact .inr (.inr h)
  | arrive x y ho he hx =>
    refine ⟨?_, .inl rfl⟩
    rcases h with ⟨a, b, d⟩ | ⟨a, b⟩ | ⟨_, b⟩
    · exact .inl ⟨a, b, d⟩
    · exact .inr (.inl ⟨a, b⟩)
    · rw [ho, he] at b; simp at b
  | hangUp => exact ⟨h.frame rfl rfl rfl (fun _ => rfl) id (fun _ => .inl rfl), .inl rfl⟩
  | read t c hp hio =>
    exfalso
    rcases h with ⟨a, b, d⟩ | ⟨_, b⟩ | ⟨a, _⟩
    · obtain ⟨e, he⟩ := d t (by rw [hp]; rfl); rw [hp] at he; cases he
    · exact b t c hp
    · rw [a, hcalls c (hk t c (by rw [hp]; rfl))] at hio; exact hio rfl
  | readFails t c hp _ hx =>
    exact ⟨.inr (.inr ⟨rfl, hx.symm⟩), .inr ⟨c, _, rfl, .inl (.inl rfl)⟩⟩
  | readTimeout t c hp hio h1 h2 =>
    refine ⟨?_, .inr ⟨c, _, rfl, .inl (.inl rfl)⟩⟩
    rcases h with ⟨a, b, d⟩ | ⟨_, b⟩ | ⟨_, b⟩
    · obtain ⟨e, he⟩ := d t (by rw [hp]; rfl); rw [hp] at he; cases he
    · exact absurd hp (b t c)
    · exact .inr (.inr ⟨rfl, b⟩)
  | callClose t hp _ => exact ⟨h.frame rfl rfl rfl id id (goto_cases s t _ rfl), .inl rfl⟩
  | closeAgain t hp _ _ => exact ⟨h.frame rfl rfl rfl id id (goto_cases s t _ rfl), .inl rfl⟩
  | closeGo t hp _ => exact ⟨h.frame rfl rfl rfl id id (goto_cases s t _ rfl), .inl rfl⟩
  | closeRawNil t hp _ => exact ⟨h.frame rfl rfl rfl id id (fun _ => .inl rfl), .inl rfl⟩
  | closeRaw t hp _ =>
    exact ⟨h.frame rfl rfl rfl id (fun _ => rfl) (goto_cases s t _ (by split <;> rfl)), .inl rfl⟩
  | clearRaw t hp =>
    refine ⟨?_, .inl rfl⟩
    have hg := goto_cases s t .closeChan rfl
    rcases h with ⟨a, b, d⟩ | ⟨a, b⟩ | h
    · refine .inl ⟨a, rfl, fun u hu => ?_⟩
      replace hu : ((s.goto t .closeChan).pc u).inside = true := hu
      show ∃ e, (s.goto t .closeChan).pc u = .locked e
      rcases hg u with e | e
      · rw [e] at hu ⊢; exact d u hu
      · rw [e] at hu; cases hu
    · refine .inr (.inl ⟨a, fun u c => ?_⟩)
      show (s.goto t .closeChan).pc u ≠ .reading c
      rcases hg u with e | e
      · rw [e]; exact b u c
      · intro hc; rw [hc] at e; cases e
    · exact .inr (.inr h)
  | closeChanPanic t hp _ => exact ⟨h.frame rfl rfl rfl id id (fun _ => .inl rfl), .inl rfl⟩
  | closeChan t hp _ _ => exact ⟨h.frame rfl rfl rfl id id (goto_cases s t _ rfl), .inl rfl⟩
  | clearChan t hp => exact ⟨h.frame rfl rfl rfl id id (goto_cases s t _ rfl), .inl rfl⟩

/-- One step of a connection that has met no trouble: it goes on so, or trouble begins and an operation
fails. -/
theorem fit_step {P : Params T} {s s' : State T} (hon : Online P.resp) (hst : ∀ c, P.calls c → Stable c.rd)
    (he : Excl s) (hk : Known P s) (hri : RawInv s) (hf : Fit P s) (hw : s.werr = false) (hs : Step P s s') :
    (Fit P s' ∧ s'.werr = false) ∨
    (∃ c r, s'.log = s.log ++ [(c, r)] ∧ Fails r ∧ Trouble P s' ∧
      (¬ (P.timeout = true ∧ P.late = true) → Doomed P s')) := by
  cases hs with
  | call t c hp hc => exact .inl ⟨hf.goto (by rw [hp]; rfl), hw⟩
  | lock t c hp hl =>
    exact .inl ⟨(hf.goto (t := t) (a := .locked c) (by rw [hp]; rfl)).frame rfl rfl rfl rfl (fun _ => rfl), hw⟩
  | refuse t c hp hkind hraw =>
    refine .inr ⟨c, _, rfl, .inr rfl, .inl (hri.gone hraw), fun _ => .inl ⟨hkind, hraw, fun u hu => ?_⟩⟩
    have := (excl_ret he (t := t) (by rw [hp]; rfl) c (.err errClosed) u).1 hu
    cases this
  | pass t c hp _ => exact .inl ⟨hf.goto (by rw [hp]; rfl), hw⟩
  | writeDeadlineNil t c hp _ _ => exact .inl ⟨hf.frame rfl rfl rfl rfl (fun _ => rfl), hw⟩
  | writeDeadline t c hp _ _ => exact .inl ⟨hf.goto (by rw [hp]; rfl), hw⟩
  | readDeadlineNil t c hp _ => exact .inl ⟨hf.frame rfl rfl rfl rfl (fun _ => rfl), hw⟩
  | readDeadline t c w hp _ hwire => exact .inl ⟨hf.begin he (by rw [hp]; rfl) (by rw [hp]; rfl) hwire, hw⟩
  | noDeadline t c w hp _ hwire => exact .inl ⟨hf.begin he (by rw [hp]; rfl) (by rw [hp]; rfl) hwire, hw⟩
  | unencodable t c e hp hwire =>
    exact .inl ⟨hf.refused he (by rcases hp with ⟨hp, _⟩ | ⟨hp, _⟩ <;> rw [hp] <;> rfl)
      (by rcases hp with ⟨hp, _⟩ | ⟨hp, _⟩ <;> rw [hp] <;> rfl) hwire, hw⟩
  | unencodablePanic t c hp hwire =>
    exact .inl ⟨hf.refused he (by rcases hp with ⟨hp, _⟩ | ⟨hp, _⟩ <;> rw [hp] <;> rfl)
      (by rcases hp with ⟨hp, _⟩ | ⟨hp, _⟩ <;> rw [hp] <;> rfl) hwire, hw⟩
  | write t c x y hp _ _ => exact .inl ⟨hf.write hon he hp, hw⟩
  | writeFails t c x hp hx =>
    refine .inr ⟨c, _, rfl, .inl rfl, ?_, fun _ => .inr (.inl ⟨rfl, fun u e hc => ?_⟩)⟩
    · rw [hw] at hx
      rcases hx with h | h | h | h
      · exact .inl h
      · exact .inr (.inl h)
      · cases h
      · exact .inr (.inr h)
    · have h1 := ret_quiet he (t := t) (by rw [hp]; rfl) c (.err .io) u
      rw [show (s.ret t c (.err .io)).pc u = .reading e from hc] at h1
      cases h1
  | written t c hp _ => exact .inl ⟨hf.goto (by rw [hp]; rfl), hw⟩
  | arrive x y _ _ hx => exact .inl ⟨hf.arrive hx, hw⟩
  | hangUp => exact .inl ⟨hf.frame rfl rfl rfl rfl (fun _ => rfl), hw⟩
  | read t c hp hio => exact .inl ⟨hf.read he hp (hst c (hk t c (by rw [hp]; rfl))) hio, hw⟩
  | readFails t c hp _ hx =>
    exact .inr ⟨c, _, rfl, .inl rfl, hx.elim .inl (fun h => .inr (.inl h)), fun _ => .inr (.inr ⟨rfl, hx.symm⟩)⟩
  | readTimeout t c hp _ h1 h2 => exact .inr ⟨c, _, rfl, .inl rfl, .inr (.inr ⟨h1, h2⟩), fun h => absurd ⟨h1, h2⟩ h⟩
  | callClose t hp _ => exact .inl ⟨hf.goto (by rw [hp]; rfl), hw⟩
  | closeAgain t hp _ _ => exact .inl ⟨hf.goto (by rw [hp]; rfl), hw⟩
  | closeGo t hp _ => exact .inl ⟨hf.goto (by rw [hp]; rfl), hw⟩
  | closeRawNil t hp _ => exact .inl ⟨hf.frame rfl rfl rfl rfl (fun _ => rfl), hw⟩
  | closeRaw t hp _ =>
    refine .inl ⟨(hf.goto (t := t) (a := if P.kind = .text then .clearRaw else .idle) ?_).frame rfl rfl rfl rfl
      (fun _ => rfl), hw⟩
    rw [hp]; split <;> rfl
  | clearRaw t hp =>
    exact .inl ⟨(hf.goto (t := t) (a := .closeChan) (by rw [hp]; rfl)).frame rfl rfl rfl rfl (fun _ => rfl), hw⟩
  | closeChanPanic t hp _ => exact .inl ⟨hf.frame rfl rfl rfl rfl (fun _ => rfl), hw⟩
  | closeChan t hp _ _ =>
    exact .inl ⟨(hf.goto (t := t) (a := .clearChan) (by rw [hp]; rfl)).frame rfl rfl rfl rfl (fun _ => rfl), hw⟩
  | clearChan t hp =>
    exact .inl ⟨(hf.goto (t := t) (a := .idle) (by rw [hp]; rfl)).frame rfl rfl rfl rfl (fun _ => rfl), hw⟩

theorem log_step {P : Params T} {s s' : State T} (hs : Step P s s') : s'.log = s.log ∨ ∃ e, s'.log = s.log ++ [e] := by
  cases hs <;> first | exact .inl rfl | exact .inr ⟨_, rfl⟩

/-- The log so far is that of a sequential run, with the connection where that run would leave it; or it was so up to
an operation that failed, and afterwards nothing succeeds (unless deadlines pass). -/
def Told (P : Params T) (s : State T) : Prop :=
    (Fit P s ∧ s.werr = false) ∨
    (∃ good c r bad, s.log = good ++ (c, r) :: bad ∧ Sequential P.resp good ∧ Fails r ∧ Trouble P s ∧
      (¬ (P.timeout = true ∧ P.late = true) → (∀ e ∈ bad, Fails e.2 ∨ refused e.1 e.2) ∧ Doomed P s))

theorem told_step {P : Params T} (hon : Online P.resp) (hst : ∀ c, P.calls c → Stable c.rd ∧ c.rd [] = (.err .io, []))
    {s s' : State T} (he : Excl s) (hk : Known P s) (hri : RawInv s) (ih : Told P s) (hs : Step P s s') : Told P s' := by
  rcases ih with ⟨hf, hw⟩ | ⟨good, c, r, bad, h1, h2, h3, h4, h5⟩
  · rcases fit_step hon (fun c hc => (hst c hc).1) he hk hri hf hw hs with h | ⟨c, r, h1, h2, h3, h4⟩
    · exact .inl h
    · exact .inr ⟨s.log, c, r, [], h1, hf.log, h2, h3, fun hn => ⟨by simp, h4 hn⟩⟩
  · by_cases hn : P.timeout = true ∧ P.late = true
    · rcases log_step hs with h | ⟨e, h⟩
      · exact .inr ⟨good, c, r, bad, by rw [h, h1], h2, h3, trouble_step h4 hs, fun hc => absurd hn hc⟩
      · exact .inr ⟨good, c, r, bad ++ [e], by rw [h, h1]; simp, h2, h3, trouble_step h4 hs, fun hc => absurd hn hc⟩
    · obtain ⟨hb, hd⟩ := h5 hn
      obtain ⟨hd', hl⟩ := doomed_step hk (fun c hc => (hst c hc).2) hd hs
      rcases hl with h | ⟨d, q, h, hq⟩
      · exact .inr ⟨good, c, r, bad, by rw [h, h1], h2, h3, trouble_step h4 hs, fun _ => ⟨hb, hd'⟩⟩
      · refine .inr ⟨good, c, r, bad ++ [(d, q)], by rw [h, h1]; simp, h2, h3, trouble_step h4 hs, fun _ => ⟨?_, hd'⟩⟩
        intro e he
        rcases List.mem_append.1 he with he | he
        · exact hb e he
        · rw [List.mem_singleton.1 he]; exact hq

theorem story {P : Params T} (hon : Online P.resp) (hst : ∀ c, P.calls c → Stable c.rd ∧ c.rd [] = (.err .io, []))
    {s : State T} (h : Reach P s) : Told P s := by
  induction h with
  | init => exact .inl ⟨fit_init P hon, rfl⟩
  | step hr hs ih => exact told_step hon hst (excl hr) (known hr) (rawInv hr) ih hs

/-! ## C30 -/

/-- The calls that a client of the given kind makes. -/
inductive ClientCall : Kind → Call Out → Prop where
  | text (name : Bytes) (op : Op) : ClientCall .text (Mc.textCall name op)
  | textVersion : ClientCall .text (Text.version.map fun _ => .done)
  | metap (op : Op) : ClientCall .metap (Mc.metaCall op)
  | metaVersion : ClientCall .metap (Meta.version.map fun _ => .done)
  | binary (h1 h2 : Bin.ReqHdr) (op : Op) : ClientCall .binary (Mc.binCall h1 h2 op)
  | binaryVersion (h : Bin.ReqHdr) : ClientCall .binary ((Bin.version h).map fun _ => .done)

theorem ClientCall.reader {k : Kind} {c : Call Out} (h : ClientCall k c) : Stable c.rd ∧ c.rd [] = (.err .io, []) := by
  cases h with
  | text name op => exact ⟨stable_textCall name op, by cases op <;> rfl⟩
  | textVersion => exact ⟨stable_text_version.map _, rfl⟩
  | metap op => exact ⟨stable_metaCall op, by cases op <;> rfl⟩
  | metaVersion => exact ⟨stable_meta_version.map _, rfl⟩
  | binary h1 h2 op => exact ⟨stable_binCall h1 h2 op, by cases op <;> rfl⟩
  | binaryVersion h => exact ⟨(stable_bin_version h).map _, rfl⟩

/-- **C30**: any number of goroutines use one connection of any of the three clients, to any server, under
any schedule, with Close called by any goroutine at any time.  The operations return, in the order in which
they return, what they would return one after the other, up to the first one that fails because the
connection was closed, by this side or by the other one, or because a deadline passed; when no
deadline passes, all those that return later fail too. -/
theorem C30_linear (P : Params T) (hon : Online P.resp) (hc : ∀ c, P.calls c → ClientCall P.kind c)
    (s : State T) (h : Reach P s) :
    ∃ good bad, s.log = good ++ bad ∧
      good.map (·.2) = oneByOne P.resp [] [] (good.map (·.1)) ∧
      (∀ c r rest, bad = (c, r) :: rest → Fails r ∧ Trouble P s) ∧
      (¬ (P.timeout = true ∧ P.late = true) → ∀ e ∈ bad, Fails e.2 ∨ refused e.1 e.2) := by
  rcases story hon (fun c h => (hc c h).reader) h with ⟨hf, _⟩ | ⟨good, c, r, bad, h1, h2, h3, h4, h5⟩
  · exact ⟨s.log, [], by simp, hf.log, by simp, by simp⟩
  · refine ⟨good, (c, r) :: bad, h1, h2, ?_, ?_⟩
    · intro c' r' rest hb
      simp only [List.cons.injEq, Prod.mk.injEq] at hb
      obtain ⟨⟨rfl, rfl⟩, rfl⟩ := hb
      exact ⟨h3, h4⟩
    · intro hn e he
      rcases List.mem_cons.1 he with rfl | he
      · exact .inl h3
      · exact (h5 hn).1 e he

/-- **C30**: as long as nobody closes the connection and no deadline passes, the results are those of a
sequential execution. -/
theorem C30_sequential (P : Params T) (hon : Online P.resp) (hc : ∀ c, P.calls c → ClientCall P.kind c)
    (s : State T) (h : Reach P s) (ho : s.isOpen = true) (he : s.ended = false)
    (ht : ¬ (P.timeout = true ∧ P.late = true)) :
    s.log.map (·.2) = oneByOne P.resp [] [] (s.log.map (·.1)) := by
  obtain ⟨good, bad, h1, h2, h3, _⟩ := C30_linear P hon hc s h
  cases bad with
  | nil => rw [h1, List.append_nil]; exact h2
  | cons e rest =>
    obtain ⟨_, h4⟩ := h3 e.1 e.2 rest rfl
    rcases h4 with h4 | h4 | h4
    · rw [ho] at h4; cases h4
    · rw [he] at h4; cases h4
    · exact absurd h4 ht

/-- Operations that have returned were in use. -/
theorem log_known {P : Params T} {s : State T} (h : Reach P s) : ∀ e ∈ s.log, P.calls e.1 := by
  induction h with
  | init => simp [init]
  | @step s s' hr hs ih =>
    have hk := known hr
    have key : ∀ c r, P.calls c → ∀ e ∈ s.log ++ [(c, r)], P.calls e.1 := by
      intro c r hc e he
      rcases List.mem_append.1 he with he | he
      · exact ih e he
      · rw [List.mem_singleton.1 he]; exact hc
    cases hs with
    | refuse t c hp _ _ => exact key c _ (hk t c (by rw [hp]; rfl))
    | unencodable t c e hp _ => exact key c _ (hk t c (by rcases hp with ⟨hp, _⟩ | ⟨hp, _⟩ <;> rw [hp] <;> rfl))
    | unencodablePanic t c hp _ => exact key c _ (hk t c (by rcases hp with ⟨hp, _⟩ | ⟨hp, _⟩ <;> rw [hp] <;> rfl))
    | writeFails t c x hp _ => exact key c _ (hk t c (by rw [hp]; rfl))
    | read t c hp _ => exact key c _ (hk t c (by rw [hp]; rfl))
    | readFails t c hp _ _ => exact key c _ (hk t c (by rw [hp]; rfl))
    | readTimeout t c hp _ _ _ => exact key c _ (hk t c (by rw [hp]; rfl))
    | _ => exact ih

/-- **C30**: if the reply to each request is exactly what the client reads for it, every operation gets the
reply to its own request: the server's output for it after the requests of the operations that returned
before. -/
theorem C30_own_reply (P : Params T) (hon : Online P.resp) (hc : ∀ c, P.calls c → ClientCall P.kind c)
    (hx : ∀ cs c w, (∀ d ∈ cs, P.calls d) → P.calls c → c.wire = .ok w →
      (c.rd (replyTo P.resp (wiresOf cs) w)).2 = [])
    (s : State T) (h : Reach P s) (ho : s.isOpen = true) (he : s.ended = false)
    (ht : ¬ (P.timeout = true ∧ P.late = true))
    (before after : List (Call Out × Res Out)) (c : Call Out) (r : Res Out) (w : Bytes)
    (hlog : s.log = before ++ (c, r) :: after) (hw : c.wire = .ok w) :
    r = (c.rd (replyTo P.resp (wiresOf (before.map (·.1))) w)).1 := by
  have hs := C30_sequential P hon hc s h ho he ht
  have hl := log_known h
  have hleft : ∀ cs, (∀ d ∈ cs, P.calls d) → leftover P.resp [] [] cs = [] := by
    intro cs
    generalize hn : cs.length = n
    induction n generalizing cs with
    | zero => rw [List.length_eq_zero_iff.1 hn]; intro _; rfl
    | succ n ih =>
      intro hcs
      obtain ⟨ds, d, rfl⟩ : ∃ ds d, cs = ds ++ [d] :=
        ⟨cs.dropLast, cs.getLast (by intro hh; rw [hh] at hn; cases hn), (List.dropLast_concat_getLast _).symm⟩
      rw [leftover_append, ih ds (by simpa using hn) (fun e he => hcs e (by simp [he]))]
      unfold leftover
      cases hd : d.wire with
      | ok v =>
        simp only [List.nil_append]
        exact hx ds d v (fun e he => hcs e (by simp [he])) (hcs d (by simp)) hd
      | err e => rfl
      | panic => rfl
  rw [hlog, List.map_append, List.map_append, oneByOne_append] at hs
  have hlen : (before.map (·.2)).length = (oneByOne P.resp [] [] (before.map (·.1))).length := by
    have : ∀ cs a b, (oneByOne P.resp a b cs).length = cs.length := by
      intro cs
      induction cs with
      | nil => intro a b; rfl
      | cons c cs ih =>
        intro a b
        unfold oneByOne
        cases c.wire <;> simp [ih]
    rw [this]; simp
  have h2 := (List.append_inj hs hlen).2
  rw [hleft (before.map (·.1)) (by
    intro d hd
    obtain ⟨e, he, rfl⟩ := List.mem_map.1 hd
    exact hl e (by rw [hlog]; simp [he]))] at h2
  simp only [List.map_cons, oneByOne, hw, List.nil_append, List.cons.injEq] at h2
  exact h2.1

/-- Calls in use are calls of operations. -/
theorem ops_of_calls {Q : Op → Prop} {call : Op → Call Out} : ∀ cs : List (Call Out),
    (∀ c ∈ cs, ∃ op, Q op ∧ c = call op) → ∃ ops : List Op, (∀ o ∈ ops, Q o) ∧ cs = ops.map call := by
  intro cs
  induction cs with
  | nil => intro _; exact ⟨[], by simp, rfl⟩
  | cons c cs ih =>
    intro h
    obtain ⟨o, ho, rfl⟩ := h c (by simp)
    obtain ⟨os, hos, rfl⟩ := ih fun d hd => h d (by simp [hd])
    refine ⟨o :: os, ?_, rfl⟩
    intro x hx
    rcases List.mem_cons.1 hx with rfl | hx
    · exact ho
    · exact hos x hx

open Kv in
/-- **C30**, with a memcached server at the other end of a text connection: whatever goroutines do,
their results are those of the abstract store, operated on one operation at a time in the order in which
the operations return. -/
theorem C30_memcached_text (P : Params T) (name : Bytes) (store : Store) (hs : GoodStore store)
    (hk : P.kind = .text) (hp : P.resp = Mc.output store)
    (hc : ∀ c, P.calls c → ∃ op, GoodOp op ∧ c = Mc.textCall name op)
    (s : State T) (h : Reach P s) (ho : s.isOpen = true) (he : s.ended = false)
    (ht : ¬ (P.timeout = true ∧ P.late = true)) (hcas : store.nextCas + s.log.length < 2 ^ 63) :
    ∃ ops : List Op, s.log.map (·.1) = ops.map (Mc.textCall name) ∧
      s.log.map (·.2) = (runApi (textApi name) store (ops.map fun o => (0, o))).1 := by
  have hseq := C30_sequential P (hp ▸ Mc.output_online store)
    (fun c hcc => by obtain ⟨op, _, rfl⟩ := hc c hcc; rw [hk]; exact .text name op) s h ho he ht
  obtain ⟨ops, hops, hlog⟩ := ops_of_calls (Q := GoodOp) (call := Mc.textCall name) (s.log.map (·.1)) (by
    intro c hcc
    obtain ⟨e, he, rfl⟩ := List.mem_map.1 hcc
    exact hc e.1 (log_known h e he))
  have hlen : ops.length = s.log.length := by
    have := congrArg List.length hlog
    simpa using this.symm
  refine ⟨ops, hlog, ?_⟩
  have hh := Props.C52_text_history name (ops.map fun o => (0, o)) store
    (by intro ev hev; obtain ⟨o, ho, rfl⟩ := List.mem_map.1 hev; exact hops o ho) hs (by simpa [hlen] using hcas)
  rw [hseq, hlog, hp]
  exact Mc.oneByOne_session (Mc.textCall name) store ops store _ [] _
    (by intro x; rw [List.nil_append]; rfl) hh

theorem along_of_all {api : Kv.Store → Op → Res Out × Kv.Store} {Q : Kv.Store → Op → Prop} : ∀ (evs : List Event) (s : Kv.Store),
    (∀ ev ∈ evs, ∀ s, Q s ev.2) → Along api Q s evs := by
  intro evs
  induction evs with
  | nil => intro _ _; trivial
  | cons ev evs ih =>
    obtain ⟨d, op⟩ := ev
    intro s h
    exact ⟨h (d, op) (by simp) _, ih _ fun e he => h e (by simp [he])⟩

open Kv in
/-- **C30**, the same for the meta client (GetMulti, whose result depends on which keys are present,
and Touch left out, as in C52). -/
theorem C30_memcached_meta (P : Params T) (store : Store) (hs : GoodMetaStore store)
    (hk : P.kind = .metap) (hp : P.resp = Mc.output store)
    (hc : ∀ c, P.calls c → ∃ op, (∀ s, GoodMetaOp s op) ∧ c = Mc.metaCall op)
    (s : State T) (h : Reach P s) (ho : s.isOpen = true) (he : s.ended = false)
    (ht : ¬ (P.timeout = true ∧ P.late = true)) (hcas : store.nextCas + s.log.length < 2 ^ 63) :
    ∃ ops : List Op, s.log.map (·.1) = ops.map Mc.metaCall ∧
      s.log.map (·.2) = (runApi metaApi store (ops.map fun o => (0, o))).1 := by
  have hseq := C30_sequential P (hp ▸ Mc.output_online store)
    (fun c hcc => by obtain ⟨op, _, rfl⟩ := hc c hcc; rw [hk]; exact .metap op) s h ho he ht
  obtain ⟨ops, hops, hlog⟩ := ops_of_calls (Q := fun op => ∀ s, GoodMetaOp s op) (call := Mc.metaCall) (s.log.map (·.1)) (by
    intro c hcc
    obtain ⟨e, he, rfl⟩ := List.mem_map.1 hcc
    exact hc e.1 (log_known h e he))
  have hlen : ops.length = s.log.length := by
    have := congrArg List.length hlog
    simpa using this.symm
  refine ⟨ops, hlog, ?_⟩
  have hh := Props.C52_meta_history (ops.map fun o => (0, o)) store hs
    (along_of_all _ _ (by intro ev hev; obtain ⟨o, ho, rfl⟩ := List.mem_map.1 hev; exact hops o ho))
    (by simpa [hlen] using hcas)
  rw [hseq, hlog, hp]
  exact Mc.oneByOne_session Mc.metaCall store ops store _ [] _
    (by intro x; rw [List.nil_append]; rfl) hh

end Sched
end Verif
