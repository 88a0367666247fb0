import Verif.Spec.Reconn
import Verif.Props.SchedClose
/-!
C69: goroutines that use, close and reconnect one client.
-/

namespace Verif
namespace Reconn
open Spec
open Life (Kind errClosed errAlready)
open Sched (Told Fit Fails Trouble Doomed ClientCall)

variable {T : Type} [DecidableEq T]

theorem goto_pc (s : State T) (t u : T) (a : At) : (s.goto t a).pc u = if u = t then a else s.pc u := rfl

/-! ## The mutex -/

/-- Between Lock and Unlock. -/
def At.inside : At → Bool
  | .user a => a.inside
  | .called => false
  | _ => true

def Excl (s : State T) : Prop := ∀ t, (s.pc t).inside = true ↔ s.lock = some t

theorem excl_goto {s s' : State T} (h : Excl s) {t : T} {a : At} (hp : s'.pc = (s.goto t a).pc) (hl : s'.lock = s.lock)
    (ha : a.inside = (s.pc t).inside) : Excl s' := by
  intro u
  rw [hp, hl, goto_pc]
  by_cases hu : u = t
  · subst hu; simp only [if_true, ha]; exact h u
  · simp only [hu, if_false]; exact h u

theorem excl_ret {s s' : State T} (h : Excl s) {t : T} (hp : s'.pc = (s.goto t (.user .idle)).pc) (hl : s'.lock = none)
    (ht : (s.pc t).inside = true) : Excl s' := by
  have hl' := (h t).1 ht
  intro u
  rw [hp, hl, goto_pc]
  by_cases hu : u = t
  · simp [hu, At.inside, Sched.At.inside]
  · simp only [hu, if_false]
    rw [h u, hl']; simp [Ne.symm hu]

theorem excl_lock {s s' : State T} (h : Excl s) {t : T} {a : At} (hp : s'.pc = (s.goto t a).pc) (hl : s'.lock = some t)
    (hn : s.lock = none) (ha : a.inside = true) : Excl s' := by
  intro u
  rw [hp, hl, goto_pc]
  by_cases hu : u = t
  · simp [hu, ha]
  · simp only [hu, if_false]
    rw [h u, hn]; simp [Ne.symm hu]

theorem excl_frame {s s' : State T} (h : Excl s) (hp : s'.pc = s.pc) (hl : s'.lock = s.lock) : Excl s' := by
  intro u; rw [hp, hl]; exact h u

theorem excl_step {P : Params T} {s s' : State T} (h : Excl s) (hs : Step P s s') : Excl s' := by
  cases hs with
  | call t c hp _ => exact excl_goto h (t := t) (a := .user (.called c)) rfl rfl (by rw [hp]; rfl)
  | lock t c hp hl => exact excl_lock h (t := t) (a := .user (.locked c)) rfl rfl hl rfl
  | refuse t c hp _ _ => exact excl_ret h (t := t) rfl rfl (by rw [hp]; rfl)
  | pass t c hp _ => exact excl_goto h (t := t) (a := .user (.writeDeadline c)) rfl rfl (by rw [hp]; rfl)
  | writeDeadlineNil t c hp _ _ => exact excl_frame h rfl rfl
  | writeDeadline t c hp _ _ => exact excl_goto h (t := t) (a := .user (.readDeadline c)) rfl rfl (by rw [hp]; rfl)
  | readDeadlineNil t c hp _ => exact excl_frame h rfl rfl
  | readDeadline t c w hp _ _ => exact excl_goto h (t := t) (a := .user (.writing c w)) rfl rfl (by rw [hp]; rfl)
  | noDeadline t c w hp _ _ => exact excl_goto h (t := t) (a := .user (.writing c w)) rfl rfl (by rw [hp]; rfl)
  | unencodable t c e hp _ => exact excl_ret h (t := t) rfl rfl (by rcases hp with ⟨hp, _⟩ | ⟨hp, _⟩ <;> rw [hp] <;> rfl)
  | unencodablePanic t c hp _ => exact excl_ret h (t := t) rfl rfl (by rcases hp with ⟨hp, _⟩ | ⟨hp, _⟩ <;> rw [hp] <;> rfl)
  | write t c x y hp _ _ => exact excl_goto h (t := t) (a := .user (.writing c y)) rfl rfl (by rw [hp]; rfl)
  | writeFails t c x hp _ => exact excl_ret h (t := t) rfl rfl (by rw [hp]; rfl)
  | written t c hp _ => exact excl_goto h (t := t) (a := .user (.reading c)) rfl rfl (by rw [hp]; rfl)
  | arrive g x y _ _ _ _ => exact excl_frame h rfl rfl
  | hangUp g _ => exact excl_frame h rfl rfl
  | read t c hp _ => exact excl_ret h (t := t) rfl rfl (by rw [hp]; rfl)
  | readFails t c hp _ _ => exact excl_ret h (t := t) rfl rfl (by rw [hp]; rfl)
  | readTimeout t c hp _ _ _ => exact excl_ret h (t := t) rfl rfl (by rw [hp]; rfl)
  | callClose t hp _ => exact excl_goto h (t := t) (a := .user .close) rfl rfl (by rw [hp]; rfl)
  | closeAgain t hp _ _ => exact excl_goto h (t := t) (a := .user .idle) rfl rfl (by rw [hp]; rfl)
  | closeGo t hp _ => exact excl_goto h (t := t) (a := .user .closeRaw) rfl rfl (by rw [hp]; rfl)
  | closeRawNil t hp _ => exact excl_frame h rfl rfl
  | closeRaw t g hp _ =>
    exact excl_goto h (t := t) (a := .user (if P.kind = .text then .clearRaw else .idle)) rfl rfl
      (by rw [hp]; split <;> rfl)
  | clearRaw t hp => exact excl_goto h (t := t) (a := .user .closeChan) rfl rfl (by rw [hp]; rfl)
  | closeChanPanic t hp _ => exact excl_frame h rfl rfl
  | closeChan t hp _ _ => exact excl_goto h (t := t) (a := .user .clearChan) rfl rfl (by rw [hp]; rfl)
  | clearChan t hp => exact excl_goto h (t := t) (a := .user .idle) rfl rfl (by rw [hp]; rfl)
  | callReconnect t hp _ => exact excl_goto h (t := t) (a := .called) rfl rfl (by rw [hp]; rfl)
  | lockReconnect t hp hl => exact excl_lock h (t := t) (a := .locked) rfl rfl hl rfl
  | noRaw t hp _ => exact excl_goto h (t := t) (a := .dial) rfl rfl (by rw [hp]; rfl)
  | shut t g hp _ _ => exact excl_goto h (t := t) (a := .dial) rfl rfl (by rw [hp]; rfl)
  | shutFails t g hp _ _ => exact excl_ret h (t := t) rfl rfl (by rw [hp]; rfl)
  | dial t hp => exact excl_goto h (t := t) (a := .setRaw s.dialled) rfl rfl (by rw [hp]; rfl)
  | dialFails t hp => exact excl_ret h (t := t) rfl rfl (by rw [hp]; rfl)
  | setRaw t g hp => exact excl_goto h (t := t) (a := .setConn g) rfl rfl (by rw [hp]; rfl)
  | setConn t g hp => exact excl_ret h (t := t) rfl rfl (by rw [hp]; rfl)

theorem excl {P : Params T} {s : State T} (h : Reach P s) : Excl s := by
  induction h with
  | init => intro u; simp [init, At.inside, Sched.At.inside]
  | step _ hs ih => exact excl_step ih hs

/-- Only one goroutine is between Lock and Unlock. -/
theorem Excl.one {s : State T} (h : Excl s) {t u : T} (ht : (s.pc t).inside = true) (hu : (s.pc u).inside = true) : u = t := by
  have h1 := (h t).1 ht
  have h2 := (h u).1 hu
  rw [h1] at h2
  exact (Option.some.inj h2).symm

/-! ## Numbers of connections -/

theorem successes_append (l : List Event) (e : Event) : successes (l ++ [e]) = successes l + successes [e] := by
  induction l with
  | nil => simp [successes]
  | cons a l ih =>
    match a with
    | .op c r => simpa [successes] using ih
    | .closed c => simpa [successes] using ih
    | .reconnect false => simpa [successes] using ih
    | .reconnect true => simp only [List.cons_append, successes, ih]; omega

theorem epoch_append (l : List Event) (e : Event) : ∀ n, epoch n (l ++ [e])
    = if n = successes l then epoch n l ++ epoch 0 [e] else epoch n l := by
  induction l with
  | nil =>
    intro n
    match e with
    | .op c r => by_cases hn : n = 0 <;> simp [epoch, successes, hn]
    | .closed c => simp [epoch]
    | .reconnect false => simp [epoch]
    | .reconnect true => simp [epoch]
  | cons a l ih =>
    intro n
    match a with
    | .op c r =>
      simp only [List.cons_append, epoch, successes]
      by_cases hn : n = 0
      · simp only [hn, if_true, ih]; split <;> rfl
      · simp only [hn, if_false, ih]
    | .closed c =>
      simp only [List.cons_append, epoch, successes, ih]
      rfl
    | .reconnect false =>
      simp only [List.cons_append, epoch, successes, ih]
      rfl
    | .reconnect true =>
      simp only [List.cons_append, epoch, successes]
      by_cases hn : n = 0
      · subst hn; simp
      · simp only [hn, if_false, ih]
        have : (n - 1 = successes l) ↔ n = successes l + 1 := by omega
        by_cases hx : n - 1 = successes l
        · rw [if_pos hx, if_pos (this.1 hx)]
        · rw [if_neg hx, if_neg fun h => hx (this.2 h)]

/-- A new connection has been dialled and is not yet in use. -/
def At.next : At → Option Nat
  | .setRaw g => some g
  | .setConn g => some g
  | _ => none

theorem At.inside_of_next {a : At} {g : Nat} (h : a.next = some g) : a.inside = true := by
  cases a <;> simp_all [At.next, At.inside]

structure Gen (s : State T) : Prop where
  num : s.conn = successes s.log
  next : ∀ t g, (s.pc t).next = some g → g = s.conn + 1 ∧ s.dialled = s.conn + 2
  none : (∀ t, (s.pc t).next = none) → s.dialled = s.conn + 1

theorem Gen.keep {s s' : State T} (h : Gen s) {t : T} {a : At} (hp : s'.pc = (s.goto t a).pc) (ha : a.next = (s.pc t).next)
    (h1 : s'.conn = s.conn) (h2 : s'.dialled = s.dialled) (h3 : successes s'.log = successes s.log) : Gen s' := by
  have hn : ∀ u, (s'.pc u).next = (s.pc u).next := by
    intro u
    rw [hp, goto_pc]
    by_cases hu : u = t
    · simp only [hu, if_true]; exact ha
    · simp only [hu, if_false]
  exact ⟨by rw [h1, h3]; exact h.num, fun u g hu => by rw [h1, h2]; exact h.next u g (hn u ▸ hu),
    fun hh => by rw [h1, h2]; exact h.none fun u => (hn u).symm.trans (hh u)⟩

theorem Gen.frame {s s' : State T} (h : Gen s) (hp : s'.pc = s.pc)
    (h1 : s'.conn = s.conn) (h2 : s'.dialled = s.dialled) (h3 : s'.log = s.log) : Gen s' := by
  exact ⟨by rw [h1, h3]; exact h.num, by rw [hp, h1, h2]; exact h.next, by rw [hp, h1, h2]; exact h.none⟩

theorem gen_step {P : Params T} {s s' : State T} (he : Excl s) (h : Gen s) (hs : Step P s s') : Gen s' := by
  have sx : ∀ e : Event, (∀ c r, e = .op c r → True) → (e ≠ .reconnect true) → successes (s.log ++ [e]) = successes s.log := by
    intro e _ hne
    rw [successes_append]
    match e, hne with
    | .op c r, _ => rfl
    | .closed c, _ => rfl
    | .reconnect false, _ => rfl
    | .reconnect true, hne => exact absurd rfl hne
  cases hs with
  | call t c hp _ => exact h.keep (t := t) (a := .user (.called c)) rfl (by rw [hp]; rfl) rfl rfl rfl
  | lock t c hp hl => exact h.keep (t := t) (a := .user (.locked c)) rfl (by rw [hp]; rfl) rfl rfl rfl
  | refuse t c hp _ _ =>
    exact h.keep (t := t) (a := .user .idle) rfl (by rw [hp]; rfl) rfl rfl (sx _ (fun _ _ _ => trivial) (by simp))
  | pass t c hp _ => exact h.keep (t := t) (a := .user (.writeDeadline c)) rfl (by rw [hp]; rfl) rfl rfl rfl
  | writeDeadlineNil t c hp _ _ => exact h.frame rfl rfl rfl rfl
  | writeDeadline t c hp _ _ => exact h.keep (t := t) (a := .user (.readDeadline c)) rfl (by rw [hp]; rfl) rfl rfl rfl
  | readDeadlineNil t c hp _ => exact h.frame rfl rfl rfl rfl
  | readDeadline t c w hp _ _ => exact h.keep (t := t) (a := .user (.writing c w)) rfl (by rw [hp]; rfl) rfl rfl rfl
  | noDeadline t c w hp _ _ => exact h.keep (t := t) (a := .user (.writing c w)) rfl (by rw [hp]; rfl) rfl rfl rfl
  | unencodable t c e hp _ =>
    exact h.keep (t := t) (a := .user .idle) rfl (by rcases hp with ⟨hp, _⟩ | ⟨hp, _⟩ <;> rw [hp] <;> rfl) rfl rfl
      (sx _ (fun _ _ _ => trivial) (by simp))
  | unencodablePanic t c hp _ =>
    exact h.keep (t := t) (a := .user .idle) rfl (by rcases hp with ⟨hp, _⟩ | ⟨hp, _⟩ <;> rw [hp] <;> rfl) rfl rfl
      (sx _ (fun _ _ _ => trivial) (by simp))
  | write t c x y hp _ _ => exact h.keep (t := t) (a := .user (.writing c y)) rfl (by rw [hp]; rfl) rfl rfl rfl
  | writeFails t c x hp _ =>
    exact h.keep (t := t) (a := .user .idle) rfl (by rw [hp]; rfl) rfl rfl (sx _ (fun _ _ _ => trivial) (by simp))
  | written t c hp _ => exact h.keep (t := t) (a := .user (.reading c)) rfl (by rw [hp]; rfl) rfl rfl rfl
  | arrive g x y _ _ _ _ => exact h.frame rfl rfl rfl rfl
  | hangUp g _ => exact h.frame rfl rfl rfl rfl
  | read t c hp _ =>
    exact h.keep (t := t) (a := .user .idle) rfl (by rw [hp]; rfl) rfl rfl (sx _ (fun _ _ _ => trivial) (by simp))
  | readFails t c hp _ _ =>
    exact h.keep (t := t) (a := .user .idle) rfl (by rw [hp]; rfl) rfl rfl (sx _ (fun _ _ _ => trivial) (by simp))
  | readTimeout t c hp _ _ _ =>
    exact h.keep (t := t) (a := .user .idle) rfl (by rw [hp]; rfl) rfl rfl (sx _ (fun _ _ _ => trivial) (by simp))
  | callClose t hp _ => exact h.keep (t := t) (a := .user .close) rfl (by rw [hp]; rfl) rfl rfl rfl
  | closeAgain t hp _ _ => exact h.keep (t := t) (a := .user .idle) rfl (by rw [hp]; rfl) rfl rfl rfl
  | closeGo t hp _ => exact h.keep (t := t) (a := .user .closeRaw) rfl (by rw [hp]; rfl) rfl rfl rfl
  | closeRawNil t hp _ => exact h.frame rfl rfl rfl rfl
  | closeRaw t g hp _ =>
    exact h.keep (t := t) (a := .user (if P.kind = .text then .clearRaw else .idle)) rfl (by rw [hp]; rfl) rfl rfl rfl
  | clearRaw t hp => exact h.keep (t := t) (a := .user .closeChan) rfl (by rw [hp]; rfl) rfl rfl rfl
  | closeChanPanic t hp _ => exact h.frame rfl rfl rfl rfl
  | closeChan t hp _ _ => exact h.keep (t := t) (a := .user .clearChan) rfl (by rw [hp]; rfl) rfl rfl rfl
  | clearChan t hp => exact h.keep (t := t) (a := .user .idle) rfl (by rw [hp]; rfl) rfl rfl rfl
  | callReconnect t hp _ => exact h.keep (t := t) (a := .called) rfl (by rw [hp]; rfl) rfl rfl rfl
  | lockReconnect t hp hl => exact h.keep (t := t) (a := .locked) rfl (by rw [hp]; rfl) rfl rfl rfl
  | noRaw t hp _ => exact h.keep (t := t) (a := .dial) rfl (by rw [hp]; rfl) rfl rfl rfl
  | shut t g hp _ _ => exact h.keep (t := t) (a := .dial) rfl (by rw [hp]; rfl) rfl rfl rfl
  | shutFails t g hp _ _ =>
    exact h.keep (t := t) (a := .user .idle) rfl (by rw [hp]; rfl) rfl rfl (sx _ (fun _ _ _ => trivial) (by simp))
  | dialFails t hp =>
    exact h.keep (t := t) (a := .user .idle) rfl (by rw [hp]; rfl) rfl rfl (sx _ (fun _ _ _ => trivial) (by simp))
  | setRaw t g hp => exact h.keep (t := t) (a := .setConn g) rfl (by rw [hp]; rfl) rfl rfl rfl
  | dial t hp =>
    have hin : (s.pc t).inside = true := by rw [hp]; rfl
    have hq : ∀ u, (s.pc u).next = none := by
      intro u
      cases hu : (s.pc u).next with
      | none => rfl
      | some g =>
        have := he.one hin (At.inside_of_next hu)
        rw [this, hp] at hu; cases hu
    have hd := h.none hq
    refine ⟨h.num, fun u g hu => ?_, fun hh => ?_⟩
    · replace hu : ((s.goto t (.setRaw s.dialled)).pc u).next = some g := hu
      show g = s.conn + 1 ∧ s.dialled + 1 = s.conn + 2
      rw [goto_pc] at hu
      by_cases hut : u = t
      · simp only [hut, if_true, At.next, Option.some.injEq] at hu; omega
      · simp only [hut, if_false] at hu; rw [hq u] at hu; cases hu
    · have := hh t
      simp [goto_pc, At.next] at this
  | setConn t g hp =>
    have hin : (s.pc t).inside = true := by rw [hp]; rfl
    obtain ⟨h1, h2⟩ := h.next t g (by rw [hp]; rfl)
    have hq : ∀ u, (((s.goto t (.user .idle)).pc u)).next = none := by
      intro u
      rw [goto_pc]
      by_cases hut : u = t
      · simp [hut, At.next]
      · simp only [hut, if_false]
        cases hu : (s.pc u).next with
        | none => rfl
        | some g => exact absurd (he.one hin (At.inside_of_next hu)) hut
    refine ⟨?_, fun u g' hu => ?_, fun _ => ?_⟩
    · show g = successes (s.log ++ [.reconnect true])
      rw [successes_append, h1, h.num]; rfl
    · rw [show (({ s.ret t (.reconnect true) with conn := g } : State T).pc u) = (s.goto t (.user .idle)).pc u from rfl, hq u] at hu
      cases hu
    · show s.dialled = g + 1
      omega

theorem gen {P : Params T} {s : State T} (h : Reach P s) : Gen s := by
  induction h with
  | init => exact ⟨rfl, by simp [init, At.next], fun _ => rfl⟩
  | step hr hs ih => exact gen_step (excl hr) ih hs

/-! ## Each connection by itself -/

/-- The operation a goroutine is in. -/
def At.ofOp : At → Sched.At
  | .user (.called c) => .called c
  | .user (.locked c) => .locked c
  | .user (.writeDeadline c) => .writeDeadline c
  | .user (.readDeadline c) => .readDeadline c
  | .user (.writing c x) => .writing c x
  | .user (.reading c) => .reading c
  | _ => .idle

/-- Connection `g`, the operations on it, and what has returned on it. -/
def view (s : State T) (g : Nat) (l : Option T) : Sched.State T where
  lock := l
  isOpen := (s.conns g).isOpen
  ended := (s.conns g).ended
  werr := (s.conns g).werr
  sent := (s.conns g).sent
  got := (s.conns g).got
  inbox := (s.conns g).inbox
  pc := fun t => if s.conn = g then (s.pc t).ofOp else .idle
  log := epoch g s.log

/-- The parameters of connection `g`. -/
def Params.of (P : Params T) (g : Nat) : Sched.Params T :=
  { kind := P.kind, timeout := P.timeout, late := P.late, resp := P.resp g, calls := P.calls, closers := P.closers }

/-- Nothing has happened to the data of a connection. -/
theorem told_quiet {P : Sched.Params T} {s s' : Sched.State T} (h : Told P s) (hr : s.raw = true) (hr' : s'.raw = true)
    (h1 : s'.log = s.log) (h2 : s'.sent = s.sent) (h3 : s'.got = s.got) (h4 : s'.inbox = s.inbox) (h5 : s'.werr = s.werr)
    (h6 : s.ended = true → s'.ended = true) (h7 : s.isOpen = false → s'.isOpen = false)
    (h8 : ∀ t, (s'.pc t).talking = (s.pc t).talking) (h9 : ∀ t c, s'.pc t = .reading c → s.pc t = .reading c) : Told P s' := by
  rcases h with ⟨hf, hw⟩ | ⟨good, c, r, bad, e1, e2, e3, e4, e5⟩
  · exact .inl ⟨hf.frame h1 h2 h3 h4 h8, h5.trans hw⟩
  · refine .inr ⟨good, c, r, bad, h1.trans e1, e2, e3, ?_, fun hn => ⟨(e5 hn).1, ?_⟩⟩
    · rcases e4 with e | e | e
      · exact .inl (h7 e)
      · exact .inr (.inl (h6 e))
      · exact .inr (.inr e)
    · rcases (e5 hn).2 with ⟨_, e, _⟩ | ⟨e, f⟩ | ⟨e, f⟩
      · rw [hr] at e; cases e
      · exact .inr (.inl ⟨h5.trans e, fun t c hc => f t c (h9 t c hc)⟩)
      · exact .inr (.inr ⟨h4.trans e, f.elim (fun h => .inl (h6 h)) (fun h => .inr (h7 h))⟩)

theorem told_lock {P : Sched.Params T} {s : State T} {g : Nat} {l l' : Option T} (h : Told P (view s g l)) :
    Told P (view s g l') :=
  told_quiet h rfl rfl rfl rfl rfl rfl rfl id id (fun _ => rfl) (fun _ _ h => h)

/-- Another connection, or no operation's doing. -/
theorem told_view {P : Params T} {s s' : State T} {g : Nat} (h : Told (P.of g) (view s g none))
    (h1 : epoch g s'.log = epoch g s.log) (h2 : (s'.conns g).sent = (s.conns g).sent) (h3 : (s'.conns g).got = (s.conns g).got)
    (h4 : (s'.conns g).inbox = (s.conns g).inbox) (h5 : (s'.conns g).werr = (s.conns g).werr)
    (h6 : (s.conns g).ended = true → (s'.conns g).ended = true)
    (h7 : (s.conns g).isOpen = false → (s'.conns g).isOpen = false)
    (h8 : ∀ t, ((view s' g none).pc t).talking = ((view s g none).pc t).talking)
    (h9 : ∀ t c, (view s' g none).pc t = .reading c → (view s g none).pc t = .reading c) :
    Told (P.of g) (view s' g none) :=
  told_quiet h rfl rfl h1 h2 h3 h4 h5 h6 h7 h8 h9

theorem ofOp_talking_inside {a : At} (h : a.inside = false) : a.ofOp.talking = none := by
  cases a with
  | user a => cases a <;> simp_all [At.ofOp, At.inside, Sched.At.inside, Sched.At.talking]
  | _ => rfl

theorem ofOp_inside {a : At} (h : a.ofOp.inside = true) : a.inside = true := by
  cases a with
  | user a => cases a <;> simp_all [At.ofOp, At.inside, Sched.At.inside]
  | _ => simp [At.ofOp, Sched.At.inside] at h

/-- A goroutine moves, with nothing on the wire before and after. -/
theorem move_talking {s s' : State T} {t : T} {a : At} (hp : s'.pc = (s.goto t a).pc) (hc : s'.conn = s.conn)
    (ha : a.ofOp.talking = (s.pc t).ofOp.talking) (g : Nat) (u : T) :
    ((view s' g none).pc u).talking = ((view s g none).pc u).talking := by
  simp only [view, hc, hp, goto_pc]
  by_cases hg : s.conn = g
  · simp only [hg, if_true]
    by_cases hu : u = t
    · simp only [hu, if_true]; exact ha
    · simp only [hu, if_false]
  · simp only [hg, if_false]

theorem move_reading {s s' : State T} {t : T} {a : At} (hp : s'.pc = (s.goto t a).pc) (hc : s'.conn = s.conn)
    (ha : ∀ c, a.ofOp ≠ .reading c) (g : Nat) (u : T) (c : Call Out) (h : (view s' g none).pc u = .reading c) :
    (view s g none).pc u = .reading c := by
  simp only [view, hc, hp, goto_pc] at h ⊢
  by_cases hg : s.conn = g
  · simp only [hg, if_true] at h ⊢
    by_cases hu : u = t
    · simp only [hu, if_true] at h; exact absurd h (ha c)
    · simp only [hu, if_false] at h; exact h
  · simp only [hg, if_false] at h; cases h

theorem view_excl {s : State T} (h : Excl s) {t : T} (ht : (s.pc t).ofOp.inside = true) : Sched.Excl (view s s.conn (some t)) := by
  intro u
  show (if s.conn = s.conn then (s.pc u).ofOp else Sched.At.idle).inside = true ↔ some t = some u
  rw [if_pos rfl]
  constructor
  · intro hu; rw [h.one (ofOp_inside ht) (ofOp_inside hu)]
  · intro hu; rw [← Option.some.inj hu]; exact ht

theorem view_raw (s : State T) (g : Nat) (l : Option T) : Sched.RawInv (view s g l) := by
  refine ⟨fun h => (by cases h), fun t ht => ?_⟩
  exfalso
  simp only [view] at ht
  split at ht
  · revert ht
    cases s.pc t with
    | user a => cases a <;> simp [At.ofOp]
    | _ => simp [At.ofOp]
  · cases ht

/-- The operations under way are in use. -/
def Known (P : Params T) (s : State T) : Prop := ∀ t c, (s.pc t).ofOp.op = some c → P.calls c

theorem Known.goto {P : Params T} {s s' : State T} (h : Known P s) {t : T} {a : At} (hp : s'.pc = (s.goto t a).pc)
    (ha : ∀ c, a.ofOp.op = some c → P.calls c) : Known P s' := by
  intro u c hu
  rw [hp, goto_pc] at hu
  by_cases hut : u = t
  · simp only [hut, if_true] at hu; exact ha c hu
  · simp only [hut, if_false] at hu; exact h u c hu

theorem known_step {P : Params T} {s s' : State T} (h : Known P s) (hs : Step P s s') : Known P s' := by
  have quiet : ∀ {t : T} {a : At}, s'.pc = (s.goto t a).pc → a.ofOp.op = none → Known P s' :=
    fun hp ha => h.goto hp fun c hc => by rw [ha] at hc; cases hc
  have same : ∀ {t : T} {a : At} {c : Call Out}, s'.pc = (s.goto t a).pc → a.ofOp.op = some c → (s.pc t).ofOp.op = some c →
      Known P s' := fun {t a c} hp ha ht => h.goto hp fun d hd => by
        rw [ha] at hd; rw [← Option.some.inj hd]; exact h t c ht
  cases hs with
  | call t c hp hc => exact h.goto (t := t) (a := .user (.called c)) rfl (fun d hd => by
      simp only [At.ofOp, Sched.At.op, Option.some.injEq] at hd; exact hd ▸ hc)
  | lock t c hp hl => exact same (t := t) (a := .user (.locked c)) rfl rfl (by rw [hp]; rfl)
  | pass t c hp _ => exact same (t := t) (a := .user (.writeDeadline c)) rfl rfl (by rw [hp]; rfl)
  | writeDeadline t c hp _ _ => exact same (t := t) (a := .user (.readDeadline c)) rfl rfl (by rw [hp]; rfl)
  | readDeadline t c w hp _ _ => exact same (t := t) (a := .user (.writing c w)) rfl rfl (by rw [hp]; rfl)
  | noDeadline t c w hp _ _ => exact same (t := t) (a := .user (.writing c w)) rfl rfl (by rw [hp]; rfl)
  | write t c x y hp _ _ => exact same (t := t) (a := .user (.writing c y)) rfl rfl (by rw [hp]; rfl)
  | written t c hp _ => exact same (t := t) (a := .user (.reading c)) rfl rfl (by rw [hp]; rfl)
  | writeDeadlineNil t c hp _ _ => exact h
  | readDeadlineNil t c hp _ => exact h
  | arrive g x y _ _ _ _ => exact h
  | hangUp g _ => exact h
  | closeRawNil t hp _ => exact h
  | closeChanPanic t hp _ => exact h
  | refuse t c hp _ _ => exact quiet (t := t) (a := .user .idle) rfl rfl
  | unencodable t c e hp _ => exact quiet (t := t) (a := .user .idle) rfl rfl
  | unencodablePanic t c hp _ => exact quiet (t := t) (a := .user .idle) rfl rfl
  | writeFails t c x hp _ => exact quiet (t := t) (a := .user .idle) rfl rfl
  | read t c hp _ => exact quiet (t := t) (a := .user .idle) rfl rfl
  | readFails t c hp _ _ => exact quiet (t := t) (a := .user .idle) rfl rfl
  | readTimeout t c hp _ _ _ => exact quiet (t := t) (a := .user .idle) rfl rfl
  | callClose t hp _ => exact quiet (t := t) (a := .user .close) rfl rfl
  | closeAgain t hp _ _ => exact quiet (t := t) (a := .user .idle) rfl rfl
  | closeGo t hp _ => exact quiet (t := t) (a := .user .closeRaw) rfl rfl
  | closeRaw t g hp _ =>
    exact quiet (t := t) (a := .user (if P.kind = .text then .clearRaw else .idle)) rfl (by split <;> rfl)
  | clearRaw t hp => exact quiet (t := t) (a := .user .closeChan) rfl rfl
  | closeChan t hp _ _ => exact quiet (t := t) (a := .user .clearChan) rfl rfl
  | clearChan t hp => exact quiet (t := t) (a := .user .idle) rfl rfl
  | callReconnect t hp _ => exact quiet (t := t) (a := .called) rfl rfl
  | lockReconnect t hp hl => exact quiet (t := t) (a := .locked) rfl rfl
  | noRaw t hp _ => exact quiet (t := t) (a := .dial) rfl rfl
  | shut t g hp _ _ => exact quiet (t := t) (a := .dial) rfl rfl
  | shutFails t g hp _ _ => exact quiet (t := t) (a := .user .idle) rfl rfl
  | dial t hp => exact quiet (t := t) (a := .setRaw s.dialled) rfl rfl
  | dialFails t hp => exact quiet (t := t) (a := .user .idle) rfl rfl
  | setRaw t g hp => exact quiet (t := t) (a := .setConn g) rfl rfl
  | setConn t g hp => exact quiet (t := t) (a := .user .idle) rfl rfl

theorem known {P : Params T} {s : State T} (h : Reach P s) : Known P s := by
  induction h with
  | init => intro t c hc; simp [init, At.ofOp, Sched.At.op] at hc
  | step _ hs ih => exact known_step ih hs

theorem view_known {P : Params T} {s : State T} (h : Known P s) (g : Nat) (l : Option T) :
    Sched.Known (P.of g) (view s g l) := by
  intro t c hc
  simp only [view] at hc
  split at hc
  · exact h t c hc
  · cases hc

theorem view_at (s : State T) (t : T) (l : Option T) : (view s s.conn l).pc t = (s.pc t).ofOp := by
  show (if s.conn = s.conn then (s.pc t).ofOp else Sched.At.idle) = _
  rw [if_pos rfl]

/-- A goroutine moves within an operation. -/
theorem view_goto (s : State T) (t : T) (a : At) (l : Option T) :
    view (s.goto t a) s.conn l = (view s s.conn l).goto t a.ofOp := by
  simp only [view, Sched.State.goto, State.goto, if_true, Sched.State.mk.injEq, true_and, and_true]
  funext u
  by_cases hu : u = t
  · simp [hu]
  · simp [hu]

/-- An operation returns. -/
theorem view_ret {s : State T} (hg : Gen s) (t : T) (c : Call Out) (r : Res Out) (l : Option T) :
    view (s.ret t (.op c r)) s.conn none = (view s s.conn l).ret t c r := by
  have hl : epoch s.conn (s.log ++ [.op c r]) = epoch s.conn s.log ++ [(c, r)] := by
    rw [epoch_append, if_pos hg.num]; rfl
  simp only [view, Sched.State.ret, Sched.State.goto, State.ret, State.goto, if_true, hl, Sched.State.mk.injEq, true_and,
    and_true]
  funext u
  by_cases hu : u = t
  · simp [hu, At.ofOp]
  · simp [hu]

/-- The data of a connection changes. -/
theorem view_setConn (s : State T) (g : Nat) (c : Conn) (l : Option T) :
    view (s.setConn g c) g l = { view s g l with
      isOpen := c.isOpen, ended := c.ended, werr := c.werr, sent := c.sent, got := c.got, inbox := c.inbox } := by
  simp only [view, State.setConn, if_true]
  rfl

theorem setConn_self (s : State T) : (s.setConn s.conn s.cur).conns = s.conns := by
  funext h
  show (if h = s.conn then s.conns s.conn else s.conns h) = s.conns h
  by_cases hh : h = s.conn
  · rw [if_pos hh, hh]
  · rw [if_neg hh]

theorem setConn_other (s : State T) {g h : Nat} (hh : h ≠ g) (c : Conn) : (s.setConn g c).conns h = s.conns h := by
  simp [State.setConn, hh]

theorem told_all_step {P : Params T} (hon : ∀ g, Online (P.resp g))
    (hst : ∀ c, P.calls c → Stable c.rd ∧ c.rd [] = (.err .io, []))
    {s s' : State T} (he : Excl s) (hk : Known P s) (hg : Gen s) (g : Nat) (h : Told (P.of g) (view s g none)) (hs : Step P s s') :
    Told (P.of g) (view s' g none) := by
  -- a step that is one of the model with one connection
  have sim : ∀ (t : T) (l' : Option T), (s.pc t).ofOp.inside = true → g = s.conn →
      Sched.Step (P.of g) (view s g (some t)) (view s' g l') → Told (P.of g) (view s' g none) := by
    intro t l' ht hgc hst'
    subst hgc
    exact told_lock (Sched.told_step (hon s.conn) hst (view_excl he ht) (view_known hk _ _) (view_raw _ _ _)
      (told_lock h) hst')
  -- a step of a goroutine that has nothing on the wire
  have quiet : ∀ (t : T) (a : At), s'.pc = (s.goto t a).pc → s'.conn = s.conn → s'.conns = s.conns →
      epoch g s'.log = epoch g s.log → a.ofOp.talking = (s.pc t).ofOp.talking → (∀ c, a.ofOp ≠ .reading c) →
      Told (P.of g) (view s' g none) := by
    intro t a h1 h2 h3 h4 h5 h6
    exact told_view h h4 (by rw [h3]) (by rw [h3]) (by rw [h3]) (by rw [h3]) (by rw [h3]; exact id) (by rw [h3]; exact id)
      (move_talking h1 h2 h5 g) (move_reading h1 h2 h6 g)
  -- an operation on another connection
  have other : ∀ (t : T) (a : At) (c : Conn), s'.pc = (s.goto t a).pc → s'.conn = s.conn →
      s'.conns = (s.setConn s.conn c).conns → (s'.log = s.log ∨ ∃ e, s'.log = s.log ++ [e]) → g ≠ s.conn →
      Told (P.of g) (view s' g none) := by
    intro t a c h1 h2 h3 h4 h5
    have hc : s'.conns g = s.conns g := by rw [h3]; exact setConn_other s h5 c
    refine told_view h ?_ (by rw [hc]) (by rw [hc]) (by rw [hc]) (by rw [hc]) (by rw [hc]; exact id) (by rw [hc]; exact id) ?_ ?_
    · rcases h4 with h4 | ⟨e, h4⟩
      · rw [h4]
      · rw [h4, epoch_append, if_neg]
        rw [← hg.num]; exact h5
    · intro u
      simp only [view, h2, Ne.symm h5, if_false]
    · intro u d hd
      simp only [view, h2, Ne.symm h5, if_false] at hd
      cases hd
  have elog : ∀ e : Event, epoch 0 [e] = [] → epoch g (s.log ++ [e]) = epoch g s.log := by
    intro e hne
    rw [epoch_append, hne, List.append_nil]; split <;> rfl
  cases hs with
  | call t c hp _ => exact quiet t (.user (.called c)) rfl rfl rfl rfl (by rw [hp]; rfl) (by simp [At.ofOp])
  | lock t c hp hl => exact quiet t (.user (.locked c)) rfl rfl rfl rfl (by rw [hp]; rfl) (by simp [At.ofOp])
  | refuse t c hp _ _ => exact quiet t (.user .idle) rfl rfl rfl (elog _ rfl) (by rw [hp]; rfl) (by simp [At.ofOp])
  | pass t c hp _ => exact quiet t (.user (.writeDeadline c)) rfl rfl rfl rfl (by rw [hp]; rfl) (by simp [At.ofOp])
  | writeDeadlineNil t c hp _ _ => exact h
  | writeDeadline t c hp _ _ => exact quiet t (.user (.readDeadline c)) rfl rfl rfl rfl (by rw [hp]; rfl) (by simp [At.ofOp])
  | readDeadlineNil t c hp _ => exact h
  | readDeadline t c w hp hr hw =>
    by_cases hc : g = s.conn
    · subst hc
      refine sim t (some t) (by rw [hp]; rfl) rfl ?_
      rw [view_goto]
      exact .readDeadline _ t c w (by rw [view_at, hp]; rfl) rfl hw
    · exact other t (.user (.writing c w)) s.cur rfl rfl (setConn_self s).symm (.inl rfl) hc
  | noDeadline t c w hp hr hw =>
    by_cases hc : g = s.conn
    · subst hc
      refine sim t (some t) (by rw [hp]; rfl) rfl ?_
      rw [view_goto]
      exact .noDeadline _ t c w (by rw [view_at, hp]; rfl) hr hw
    · exact other t (.user (.writing c w)) s.cur rfl rfl (setConn_self s).symm (.inl rfl) hc
  | unencodable t c e hp hw =>
    by_cases hc : g = s.conn
    · subst hc
      refine sim t none (by rcases hp with ⟨hp, _⟩ | ⟨hp, _⟩ <;> rw [hp] <;> rfl) rfl ?_
      rw [view_ret hg t c _ (some t)]
      refine .unencodable _ t c e ?_ hw
      rw [view_at]
      rcases hp with ⟨hp, h1⟩ | ⟨hp, h1⟩
      · exact .inl ⟨by rw [hp]; rfl, h1⟩
      · exact .inr ⟨by rw [hp]; rfl, rfl⟩
    · exact other t (.user .idle) s.cur rfl rfl (setConn_self s).symm (.inr ⟨_, rfl⟩) hc
  | unencodablePanic t c hp hw =>
    by_cases hc : g = s.conn
    · subst hc
      refine sim t none (by rcases hp with ⟨hp, _⟩ | ⟨hp, _⟩ <;> rw [hp] <;> rfl) rfl ?_
      rw [view_ret hg t c _ (some t)]
      refine .unencodablePanic _ t c ?_ hw
      rw [view_at]
      rcases hp with ⟨hp, h1⟩ | ⟨hp, h1⟩
      · exact .inl ⟨by rw [hp]; rfl, h1⟩
      · exact .inr ⟨by rw [hp]; rfl, rfl⟩
    · exact other t (.user .idle) s.cur rfl rfl (setConn_self s).symm (.inr ⟨_, rfl⟩) hc
  | write t c x y hp ho hw =>
    by_cases hc : g = s.conn
    · subst hc
      refine sim t (some t) (by rw [hp]; rfl) rfl ?_
      rw [view_setConn, view_goto]
      exact .write _ t c x y (by rw [view_at, hp]; rfl) ho hw
    · exact other t (.user (.writing c y)) _ rfl rfl rfl (.inl rfl) hc
  | writeFails t c x hp hbad =>
    by_cases hc : g = s.conn
    · subst hc
      refine sim t none (by rw [hp]; rfl) rfl ?_
      rw [view_setConn, view_ret hg t c _ (some t)]
      exact .writeFails _ t c x (by rw [view_at, hp]; rfl) hbad
    · exact other t (.user .idle) _ rfl rfl rfl (.inr ⟨_, rfl⟩) hc
  | written t c hp hw =>
    by_cases hc : g = s.conn
    · subst hc
      refine sim t (some t) (by rw [hp]; rfl) rfl ?_
      rw [view_goto]
      exact .written _ t c (by rw [view_at, hp]; rfl) hw
    · exact other t (.user (.reading c)) s.cur rfl rfl (setConn_self s).symm (.inl rfl) hc
  | arrive g' x y hd ho hen hx =>
    by_cases hc : g = g'
    · subst hc
      rw [view_setConn]
      have hst' : Sched.Step (P.of g) (view s g none) _ := .arrive (view s g none) x y ho hen hx
      -- no goroutine moves
      rcases h with ⟨hf, hw⟩ | ⟨good, c, r, bad, e1, e2, e3, e4, e5⟩
      · exact .inl ⟨hf.arrive hx, hw⟩
      · refine .inr ⟨good, c, r, bad, e1, e2, e3, Sched.trouble_step e4 hst', fun hn => ⟨(e5 hn).1, ?_⟩⟩
        rcases (e5 hn).2 with ⟨_, e, _⟩ | ⟨e, f⟩ | ⟨e, f⟩
        · cases e
        · exact .inr (.inl ⟨e, f⟩)
        · exfalso
          rcases f with f | f
          · rw [show (view s g none).ended = (s.conns g).ended from rfl, hen] at f; cases f
          · rw [show (view s g none).isOpen = (s.conns g).isOpen from rfl, ho] at f; cases f
    · have := setConn_other s hc { s.conns g' with got := (s.conns g').got ++ x, inbox := (s.conns g').inbox ++ x }
      exact told_view h rfl (by rw [this]) (by rw [this]) (by rw [this]) (by rw [this]) (by rw [this]; exact id)
        (by rw [this]; exact id) (fun _ => rfl) (fun _ _ hh => hh)
  | hangUp g' hd =>
    by_cases hc : g = g'
    · subst hc
      have hx : (s.setConn g { s.conns g with ended := true }).conns g = { s.conns g with ended := true } := by
        simp [State.setConn]
      exact told_view h rfl (by rw [hx]) (by rw [hx]) (by rw [hx]) (by rw [hx]) (by rw [hx]; exact fun _ => rfl)
        (by rw [hx]; exact id) (fun _ => rfl) (fun _ _ hh => hh)
    · have := setConn_other s hc { s.conns g' with ended := true }
      exact told_view h rfl (by rw [this]) (by rw [this]) (by rw [this]) (by rw [this]) (by rw [this]; exact id)
        (by rw [this]; exact id) (fun _ => rfl) (fun _ _ hh => hh)
  | read t c hp hio =>
    by_cases hc : g = s.conn
    · subst hc
      refine sim t none (by rw [hp]; rfl) rfl ?_
      rw [view_setConn, view_ret hg t c _ (some t)]
      exact .read _ t c (by rw [view_at, hp]; rfl) hio
    · exact other t (.user .idle) _ rfl rfl rfl (.inr ⟨_, rfl⟩) hc
  | readFails t c hp hio hx =>
    by_cases hc : g = s.conn
    · subst hc
      refine sim t none (by rw [hp]; rfl) rfl ?_
      rw [view_setConn, view_ret hg t c _ (some t)]
      exact .readFails _ t c (by rw [view_at, hp]; rfl) hio hx
    · exact other t (.user .idle) _ rfl rfl rfl (.inr ⟨_, rfl⟩) hc
  | readTimeout t c hp hio h1 h2 =>
    by_cases hc : g = s.conn
    · subst hc
      refine sim t none (by rw [hp]; rfl) rfl ?_
      rw [view_setConn, view_ret hg t c _ (some t)]
      exact .readTimeout _ t c (by rw [view_at, hp]; rfl) hio h1 h2
    · exact other t (.user .idle) _ rfl rfl rfl (.inr ⟨_, rfl⟩) hc
  | callClose t hp _ => exact quiet t (.user .close) rfl rfl rfl rfl (by rw [hp]; rfl) (by simp [At.ofOp])
  | closeAgain t hp _ _ => exact quiet t (.user .idle) rfl rfl rfl rfl (by rw [hp]; rfl) (by simp [At.ofOp])
  | closeGo t hp _ => exact quiet t (.user .closeRaw) rfl rfl rfl rfl (by rw [hp]; rfl) (by simp [At.ofOp])
  | closeRawNil t hp _ => exact h
  | closeRaw t g' hp _ =>
    have ht : ((.user (if P.kind = .text then .clearRaw else .idle) : At)).ofOp = .idle := by split <;> rfl
    have h8 := move_talking (s := s) (s' := (s.goto t (.user (if P.kind = .text then .clearRaw else .idle))).setConn g'
      { s.conns g' with isOpen := false }) (t := t) rfl rfl (by rw [ht, hp]; rfl) g
    have h9 := move_reading (s := s) (s' := (s.goto t (.user (if P.kind = .text then .clearRaw else .idle))).setConn g'
      { s.conns g' with isOpen := false }) (t := t) rfl rfl (by rw [ht]; simp) g
    by_cases hc : g = g'
    · subst hc
      have hx : ((s.goto t (.user (if P.kind = .text then .clearRaw else .idle))).setConn g
          { s.conns g with isOpen := false }).conns g = { s.conns g with isOpen := false } := by simp [State.setConn]
      exact told_view h rfl (by rw [hx]) (by rw [hx]) (by rw [hx]) (by rw [hx]) (by rw [hx]; exact id)
        (by rw [hx]; exact fun _ => rfl) h8 h9
    · have := setConn_other (s.goto t (.user (if P.kind = .text then .clearRaw else .idle))) hc
        { s.conns g' with isOpen := false }
      exact told_view h rfl (by rw [this]; rfl) (by rw [this]; rfl) (by rw [this]; rfl) (by rw [this]; rfl)
        (by rw [this]; exact id) (by rw [this]; exact id) h8 h9
  | clearRaw t hp => exact quiet t (.user .closeChan) rfl rfl rfl rfl (by rw [hp]; rfl) (by simp [At.ofOp])
  | closeChanPanic t hp _ => exact h
  | closeChan t hp _ _ => exact quiet t (.user .clearChan) rfl rfl rfl rfl (by rw [hp]; rfl) (by simp [At.ofOp])
  | clearChan t hp => exact quiet t (.user .idle) rfl rfl rfl rfl (by rw [hp]; rfl) (by simp [At.ofOp])
  | callReconnect t hp _ => exact quiet t .called rfl rfl rfl rfl (by rw [hp]; rfl) (by simp [At.ofOp])
  | lockReconnect t hp hl => exact quiet t .locked rfl rfl rfl rfl (by rw [hp]; rfl) (by simp [At.ofOp])
  | noRaw t hp _ => exact quiet t .dial rfl rfl rfl rfl (by rw [hp]; rfl) (by simp [At.ofOp])
  | shut t g' hp _ _ =>
    have h8 := move_talking (s := s) (s' := (s.goto t .dial).setConn g' { s.conns g' with isOpen := false }) (t := t) rfl rfl
      (by rw [hp]; rfl) g
    have h9 := move_reading (s := s) (s' := (s.goto t .dial).setConn g' { s.conns g' with isOpen := false }) (t := t) rfl rfl
      (by simp [At.ofOp]) g
    by_cases hc : g = g'
    · subst hc
      have hx : ((s.goto t .dial).setConn g { s.conns g with isOpen := false }).conns g = { s.conns g with isOpen := false } := by
        simp [State.setConn]
      exact told_view h rfl (by rw [hx]) (by rw [hx]) (by rw [hx]) (by rw [hx]) (by rw [hx]; exact id)
        (by rw [hx]; exact fun _ => rfl) h8 h9
    · have := setConn_other (s.goto t .dial) hc { s.conns g' with isOpen := false }
      exact told_view h rfl (by rw [this]; rfl) (by rw [this]; rfl) (by rw [this]; rfl) (by rw [this]; rfl)
        (by rw [this]; exact id) (by rw [this]; exact id) h8 h9
  | shutFails t g' hp _ _ => exact quiet t (.user .idle) rfl rfl rfl (elog _ rfl) (by rw [hp]; rfl) (by simp [At.ofOp])
  | dial t hp => exact quiet t (.setRaw s.dialled) rfl rfl rfl rfl (by rw [hp]; rfl) (by simp [At.ofOp])
  | dialFails t hp => exact quiet t (.user .idle) rfl rfl rfl (elog _ rfl) (by rw [hp]; rfl) (by simp [At.ofOp])
  | setRaw t g' hp => exact quiet t (.setConn g') rfl rfl rfl rfl (by rw [hp]; rfl) (by simp [At.ofOp])
  | setConn t g' hp =>
    have hin : (s.pc t).inside = true := by rw [hp]; rfl
    have hq : ∀ u, (s.pc u).ofOp.talking = none ∧ ∀ c, (s.pc u).ofOp ≠ .reading c := by
      intro u
      by_cases hu : u = t
      · rw [hu, hp]; exact ⟨rfl, by simp [At.ofOp]⟩
      · have hni : (s.pc u).inside = false := by
          cases hh : (s.pc u).inside with
          | false => rfl
          | true => exact absurd (he.one hin hh) hu
        refine ⟨ofOp_talking_inside hni, fun c hc => ?_⟩
        have := ofOp_talking_inside hni
        rw [hc] at this; cases this
    have hq' : ∀ u, ((s.goto t (.user .idle)).pc u).ofOp.talking = none ∧ ∀ c, ((s.goto t (.user .idle)).pc u).ofOp ≠ .reading c := by
      intro u
      rw [goto_pc]
      by_cases hu : u = t
      · simp only [hu, if_true]; exact ⟨rfl, by simp [At.ofOp]⟩
      · simp only [hu, if_false]; exact hq u
    refine told_view h (elog _ rfl) rfl rfl rfl rfl id id ?_ ?_
    · intro u
      show (if g' = g then ((s.goto t (.user .idle)).pc u).ofOp else .idle).talking = (if s.conn = g then (s.pc u).ofOp else .idle).talking
      have e1 : (if g' = g then ((s.goto t (.user .idle)).pc u).ofOp else Sched.At.idle).talking = none := by
        split
        · exact (hq' u).1
        · rfl
      have e2 : (if s.conn = g then (s.pc u).ofOp else Sched.At.idle).talking = none := by
        split
        · exact (hq u).1
        · rfl
      rw [e1, e2]
    · intro u c hc
      replace hc : (if g' = g then ((s.goto t (.user .idle)).pc u).ofOp else Sched.At.idle) = .reading c := hc
      split at hc
      · exact absurd hc ((hq' u).2 c)
      · cases hc

theorem told_all {P : Params T} (hon : ∀ g, Online (P.resp g))
    (hst : ∀ c, P.calls c → Stable c.rd ∧ c.rd [] = (.err .io, [])) {s : State T} (h : Reach P s) (g : Nat) :
    Told (P.of g) (view s g none) := by
  induction h with
  | init =>
    have hv : view (init : State T) g none = Sched.init := by
      simp only [view, init, Sched.init, epoch, Sched.State.mk.injEq, true_and, and_true]
      funext u
      show (if (0 : Nat) = g then Sched.At.idle else Sched.At.idle) = Sched.At.idle
      rw [ite_self]
    rw [hv]
    exact .inl ⟨Sched.fit_init (P.of g) (hon g), rfl⟩
  | step hr hs ih => exact told_all_step hon hst (excl hr) (known hr) (gen hr) g ih hs

/-! ## C69 -/

/-- **C69**: goroutines use, close and reconnect one client, of any of the three kinds, under any schedule.  The
operations between two successful Reconnects return what they would return one after the other on a connection
of their own, up to the first one that fails because that connection was closed or a deadline passed; when no
deadline passes, those that return later, before the next successful Reconnect, fail too. -/
theorem C69_linear (P : Params T) (hon : ∀ g, Online (P.resp g)) (hc : ∀ c, P.calls c → ClientCall P.kind c)
    (s : State T) (h : Reach P s) (n : Nat) :
    ∃ good bad, epoch n s.log = good ++ bad ∧
      good.map (·.2) = oneByOne (P.resp n) [] [] (good.map (·.1)) ∧
      (∀ c r rest, bad = (c, r) :: rest → (r = .err .io ∨ r = .err errClosed) ∧
        ((s.conns n).isOpen = false ∨ (s.conns n).ended = true ∨ P.timeout = true ∧ P.late = true)) ∧
      (¬ (P.timeout = true ∧ P.late = true) → ∀ e ∈ bad, (e.2 = .err .io ∨ e.2 = .err errClosed) ∨ refused e.1 e.2) := by
  rcases told_all hon (fun c h => (hc c h).reader) h n with ⟨hf, _⟩ | ⟨good, c, r, bad, h1, h2, h3, h4, h5⟩
  · exact ⟨epoch n s.log, [], by simp, hf.log, by simp, by simp⟩
  · refine ⟨good, (c, r) :: bad, h1, h2, ?_, ?_⟩
    · intro c' r' rest hb
      simp only [List.cons.injEq, Prod.mk.injEq] at hb
      obtain ⟨⟨rfl, rfl⟩, rfl⟩ := hb
      exact ⟨h3, h4⟩
    · intro hn e he
      rcases List.mem_cons.1 he with rfl | he
      · exact .inl h3
      · exact (h5 hn).1 e he

/-- **C69**: on a connection that nobody has closed, with no deadlines passing, all operations return what they would
return one after the other. -/
theorem C69_sequential (P : Params T) (hon : ∀ g, Online (P.resp g)) (hc : ∀ c, P.calls c → ClientCall P.kind c)
    (s : State T) (h : Reach P s) (n : Nat) (ho : (s.conns n).isOpen = true) (he : (s.conns n).ended = false)
    (ht : ¬ (P.timeout = true ∧ P.late = true)) :
    (epoch n s.log).map (·.2) = oneByOne (P.resp n) [] [] ((epoch n s.log).map (·.1)) := by
  obtain ⟨good, bad, h1, h2, h3, _⟩ := C69_linear P hon hc s h n
  cases bad with
  | nil => rw [h1, List.append_nil]; exact h2
  | cons e rest =>
    obtain ⟨_, h4⟩ := h3 e.1 e.2 rest rfl
    rcases h4 with h4 | h4 | h4
    · rw [ho] at h4; cases h4
    · rw [he] at h4; cases h4
    · exact absurd h4 ht

/-- **C69**: what an epoch's connection has received are the requests of that epoch's operations, and nothing else. -/
theorem C69_wires (P : Params T) (hon : ∀ g, Online (P.resp g)) (hc : ∀ c, P.calls c → ClientCall P.kind c)
    (s : State T) (h : Reach P s) (n : Nat) (ho : (s.conns n).isOpen = true) (he : (s.conns n).ended = false)
    (ht : ¬ (P.timeout = true ∧ P.late = true)) (hn : n ≠ s.conn ∨ ∀ t, (s.pc t).inside = false) :
    (s.conns n).sent = wiresOf ((epoch n s.log).map (·.1)) := by
  rcases told_all hon (fun c h => (hc c h).reader) h n with ⟨hf, _⟩ | ⟨_, _, _, _, _, _, _, h4, _⟩
  · obtain ⟨p, x, h1, _, _, _, h5⟩ := hf.data
    have hp : p = [] := h5 fun t => by
      show (if s.conn = n then (s.pc t).ofOp else Sched.At.idle).talking = none
      rcases hn with hn | hn
      · rw [if_neg (Ne.symm hn)]; rfl
      · split
        · exact ofOp_talking_inside (hn t)
        · rfl
    rw [hp, List.append_nil] at h1
    exact h1
  · rcases h4 with e | e | e
    · rw [show (view s n none).isOpen = (s.conns n).isOpen from rfl, ho] at e; cases e
    · rw [show (view s n none).ended = (s.conns n).ended from rfl, he] at e; cases e
    · exact absurd e ht

/-- What has returned was in use. -/
theorem log_known {P : Params T} {s : State T} (h : Reach P s) : ∀ c r, Event.op c r ∈ s.log → P.calls c := by
  induction h with
  | init => intro c r hm; cases hm
  | @step s s' hr hs ih =>
    have hk := known hr
    have key : ∀ d q, P.calls d → ∀ c r, Event.op c r ∈ s.log ++ [Event.op d q] → P.calls c := by
      intro d q hd c r hm
      rcases List.mem_append.1 hm with hm | hm
      · exact ih c r hm
      · have := List.mem_singleton.1 hm
        injection this with h1 _
        exact h1 ▸ hd
    have other : ∀ e, (∀ d q, e ≠ Event.op d q) → ∀ c r, Event.op c r ∈ s.log ++ [e] → P.calls c := by
      intro e hne c r hm
      rcases List.mem_append.1 hm with hm | hm
      · exact ih c r hm
      · exact absurd (List.mem_singleton.1 hm).symm (hne c r)
    cases hs with
    | refuse t c hp _ _ => exact other _ (by simp)
    | unencodable t c e hp _ => exact key c _ (hk t c (by rcases hp with ⟨hp, _⟩ | ⟨hp, _⟩ <;> rw [hp] <;> rfl))
    | unencodablePanic t c hp _ => exact key c _ (hk t c (by rcases hp with ⟨hp, _⟩ | ⟨hp, _⟩ <;> rw [hp] <;> rfl))
    | writeFails t c x hp _ => exact key c _ (hk t c (by rw [hp]; rfl))
    | read t c hp _ => exact key c _ (hk t c (by rw [hp]; rfl))
    | readFails t c hp _ _ => exact key c _ (hk t c (by rw [hp]; rfl))
    | readTimeout t c hp _ _ _ => exact key c _ (hk t c (by rw [hp]; rfl))
    | shutFails t g hp _ _ => exact other _ (by simp)
    | dialFails t hp => exact other _ (by simp)
    | setConn t g hp => exact other _ (by simp)
    | _ => exact ih

theorem epoch_mem : ∀ (l : List Event) (n : Nat) (c : Call Out) (r : Res Out), (c, r) ∈ epoch n l → Event.op c r ∈ l := by
  intro l
  induction l with
  | nil => intro n c r h; cases h
  | cons a l ih =>
    intro n c r h
    match a with
    | .op d q =>
      simp only [epoch] at h
      split at h
      · rcases List.mem_cons.1 h with h | h
        · injection h with h1 h2; subst h1; subst h2; exact List.mem_cons_self ..
        · exact List.mem_cons_of_mem _ (ih n c r h)
      · exact List.mem_cons_of_mem _ (ih n c r h)
    | .closed d => exact List.mem_cons_of_mem _ (ih n c r h)
    | .reconnect false => exact List.mem_cons_of_mem _ (ih n c r h)
    | .reconnect true =>
      simp only [epoch] at h
      split at h
      · cases h
      · exact List.mem_cons_of_mem _ (ih (n - 1) c r h)

open Kv in
/-- **C69**, with a memcached server behind the text client: the results of an epoch are those of the abstract store,
starting from what it contains when the connection is made. -/
theorem C69_memcached_text (P : Params T) (name : Bytes) (store : Nat → Store) (hs : ∀ n, GoodStore (store n))
    (hk : P.kind = .text) (hp : ∀ n, P.resp n = Mc.output (store n))
    (hc : ∀ c, P.calls c → ∃ op, GoodOp op ∧ c = Mc.textCall name op)
    (s : State T) (h : Reach P s) (n : Nat) (ho : (s.conns n).isOpen = true) (he : (s.conns n).ended = false)
    (ht : ¬ (P.timeout = true ∧ P.late = true)) (hcas : (store n).nextCas + (epoch n s.log).length < 2 ^ 63) :
    ∃ ops : List Op, (epoch n s.log).map (·.1) = ops.map (Mc.textCall name) ∧
      (epoch n s.log).map (·.2) = (runApi (textApi name) (store n) (ops.map fun o => (0, o))).1 := by
  have hseq := C69_sequential P (fun g => (hp g) ▸ Mc.output_online (store g))
    (fun c hcc => by obtain ⟨op, _, rfl⟩ := hc c hcc; rw [hk]; exact .text name op) s h n ho he ht
  obtain ⟨ops, hops, hlog⟩ := Sched.ops_of_calls (Q := GoodOp) (call := Mc.textCall name) ((epoch n s.log).map (·.1)) (by
    intro c hcc
    obtain ⟨e, hee, rfl⟩ := List.mem_map.1 hcc
    exact hc e.1 (log_known h e.1 e.2 (epoch_mem _ _ _ _ hee)))
  have hlen : ops.length = (epoch n s.log).length := by
    have := congrArg List.length hlog
    simpa using this.symm
  refine ⟨ops, hlog, ?_⟩
  have hh := Props.C52_text_history name (ops.map fun o => (0, o)) (store n)
    (by intro ev hev; obtain ⟨o, ho, rfl⟩ := List.mem_map.1 hev; exact hops o ho) (hs n) (by simpa [hlen] using hcas)
  rw [hseq, hlog, hp]
  exact Mc.oneByOne_session (Mc.textCall name) (store n) ops (store n) _ [] _
    (by intro x; rw [List.nil_append]; rfl) hh

end Reconn
end Verif
