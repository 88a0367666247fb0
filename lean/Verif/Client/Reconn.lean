import Verif.Client.Sched
/-!
Several goroutines using one client, with Reconnect (client/server.go:178-196, 681-699, 1192-1210) as well as
Close and the operations: the model of `Client/Sched.lean` with as many connections as are dialled.  The
heartbeat goroutine (client/server.go:1835-1854) is one of the goroutines: it calls Version, Reconnect and Close.
-/

namespace Verif
namespace Reconn
open Spec
open Life (Kind errClosed errAlready)

variable {T : Type} [DecidableEq T]

/-- Where a goroutine is: in an operation or in Close (as in `Client/Sched.lean`), or in Reconnect.
(client/server.go:178-196 and the same lines of the other clients.) -/
inductive At where
  | user (a : Sched.At)
  /-- Reconnect called, before `s.mu.Lock()`. -/
  | called
  /-- Mutex taken, before `if s.raw != nil { if err := s.raw.Close() ...`. -/
  | locked
  /-- Before `d.DialContext`. -/
  | dial
  /-- Dialled connection number `g`, before `s.raw = conn`. -/
  | setRaw (g : Nat)
  /-- Before `s.conn = bufio.NewReadWriter(...)`. -/
  | setConn (g : Nat)

/-- A connection that was dialled, with the `bufio.ReadWriter` on it, as in `Client/Sched.lean`.
(client/server.go:119-132 and net.Conn.) -/
structure Conn where
  isOpen : Bool := true
  ended : Bool := false
  werr : Bool := false
  sent : Bytes := []
  got : Bytes := []
  inbox : Bytes := []

/-- What has returned. (Not code: the history.) -/
inductive Event where
  /-- An operation that went on to use the connection. -/
  | op (c : Call Out) (r : Res Out)
  /-- An operation that returned "memcached: closed" at once. -/
  | closed (c : Call Out)
  /-- Reconnect, successful or not. -/
  | reconnect (ok : Bool)

/-- The client, the connections, the goroutines. (client/server.go:119-132, 634-646, 1136-1150.) -/
structure State (T : Type) where
  /-- Who holds `mu`. -/
  lock : Option T := none
  /-- The connection `s.raw`, if not nil. -/
  raw : Option Nat := some 0
  /-- The connection below `s.conn`. -/
  conn : Nat := 0
  /-- How many connections were dialled. -/
  dialled : Nat := 1
  conns : Nat → Conn := fun _ => {}
  closeCh : Bool := true
  chanClosed : Bool := false
  pc : T → At
  log : List Event := []
  crashed : Bool := false

/-- The client just created. (client/server.go:134-160 and alike.) -/
def init : State T := { pc := fun _ => .user .idle }

/-- What a run depends on (see `Sched.Params`); the server's output on connection number `g`, once it has got the
bytes `x` on it, is `resp g x`.  (The run is given; `resp g` may reflect what happened on other connections.)
(Not code.) -/
structure Params (T : Type) where
  kind : Kind
  timeout : Bool
  late : Bool
  resp : Nat → Bytes → Bytes
  calls : Call Out → Prop
  closers : T → Prop
  reconnectors : T → Prop

/-- Goroutine `t` goes to `a`. (Not code: program counters.) -/
def State.goto (s : State T) (t : T) (a : At) : State T := { s with pc := fun u => if u = t then a else s.pc u }

/-- Connection `g` changes. (Not code.) -/
def State.setConn (s : State T) (g : Nat) (c : Conn) : State T :=
  { s with conns := fun h => if h = g then c else s.conns h }

/-- The current connection. (client/server.go:129, `s.conn`.) -/
def State.cur (s : State T) : Conn := s.conns s.conn

/-- Goroutine `t` returns: the deferred `s.mu.Unlock()`. (client/server.go:180, 199-200 and alike.) -/
def State.ret (s : State T) (t : T) (e : Event) : State T :=
  { s.goto t (.user .idle) with lock := none, log := s.log ++ [e] }

/-- One step. (client/server.go:166-196, 198-257 and the corresponding lines of every operation and of the other
clients.) -/
inductive Step (P : Params T) : State T → State T → Prop where
  | call (s t c) : s.pc t = .user .idle → P.calls c → Step P s (s.goto t (.user (.called c)))
  | lock (s t c) : s.pc t = .user (.called c) → s.lock = none →
      Step P s { s.goto t (.user (.locked c)) with lock := some t }
  | refuse (s t c) : s.pc t = .user (.locked c) → P.kind = .text → s.raw = none → Step P s (s.ret t (.closed c))
  | pass (s t c) : s.pc t = .user (.locked c) → (P.kind = .text → s.raw ≠ none) →
      Step P s (s.goto t (.user (.writeDeadline c)))
  | writeDeadlineNil (s t c) : s.pc t = .user (.writeDeadline c) → P.timeout = true → s.raw = none →
      Step P s { s with crashed := true }
  | writeDeadline (s t c) : s.pc t = .user (.writeDeadline c) → P.timeout = true → s.raw ≠ none →
      Step P s (s.goto t (.user (.readDeadline c)))
  | readDeadlineNil (s t c) : s.pc t = .user (.readDeadline c) → s.raw = none → Step P s { s with crashed := true }
  | readDeadline (s t c w) : s.pc t = .user (.readDeadline c) → s.raw ≠ none → c.wire = .ok w →
      Step P s (s.goto t (.user (.writing c w)))
  | noDeadline (s t c w) : s.pc t = .user (.writeDeadline c) → P.timeout = false → c.wire = .ok w →
      Step P s (s.goto t (.user (.writing c w)))
  | unencodable (s t c e) :
      (s.pc t = .user (.writeDeadline c) ∧ P.timeout = false ∨ s.pc t = .user (.readDeadline c) ∧ s.raw ≠ none) →
      c.wire = .err e → Step P s (s.ret t (.op c (.err e)))
  | unencodablePanic (s t c) :
      (s.pc t = .user (.writeDeadline c) ∧ P.timeout = false ∨ s.pc t = .user (.readDeadline c) ∧ s.raw ≠ none) →
      c.wire = .panic → Step P s (s.ret t (.op c .panic))
  | write (s t c x y) : s.pc t = .user (.writing c (x ++ y)) → s.cur.isOpen = true → s.cur.werr = false →
      Step P s ((s.goto t (.user (.writing c y))).setConn s.conn { s.cur with sent := s.cur.sent ++ x })
  | writeFails (s t c x) : s.pc t = .user (.writing c x) →
      (s.cur.isOpen = false ∨ s.cur.ended = true ∨ s.cur.werr = true ∨ P.timeout = true ∧ P.late = true) →
      Step P s ((s.ret t (.op c (.err .io))).setConn s.conn { s.cur with werr := true })
  | written (s t c) : s.pc t = .user (.writing c []) → s.cur.werr = false → Step P s (s.goto t (.user (.reading c)))
  /-- Bytes arrive on one of the connections. -/
  | arrive (s g x y) : g < s.dialled → (s.conns g).isOpen = true → (s.conns g).ended = false →
      P.resp g (s.conns g).sent = (s.conns g).got ++ x ++ y →
      Step P s (s.setConn g { s.conns g with got := (s.conns g).got ++ x, inbox := (s.conns g).inbox ++ x })
  /-- The other side ends one of the connections. -/
  | hangUp (s g) : g < s.dialled → Step P s (s.setConn g { s.conns g with ended := true })
  | read (s t c) : s.pc t = .user (.reading c) → (c.rd s.cur.inbox).1 ≠ .err .io →
      Step P s ((s.ret t (.op c (c.rd s.cur.inbox).1)).setConn s.conn { s.cur with inbox := (c.rd s.cur.inbox).2 })
  | readFails (s t c) : s.pc t = .user (.reading c) → (c.rd s.cur.inbox).1 = .err .io →
      (s.cur.isOpen = false ∨ s.cur.ended = true) →
      Step P s ((s.ret t (.op c (.err .io))).setConn s.conn { s.cur with inbox := [] })
  | readTimeout (s t c) : s.pc t = .user (.reading c) → (c.rd s.cur.inbox).1 = .err .io → P.timeout = true → P.late = true →
      Step P s ((s.ret t (.op c (.err .io))).setConn s.conn { s.cur with inbox := [] })
  | callClose (s t) : s.pc t = .user .idle → P.closers t → Step P s (s.goto t (.user .close))
  | closeAgain (s t) : s.pc t = .user .close → P.kind = .text → s.closeCh = false → Step P s (s.goto t (.user .idle))
  | closeGo (s t) : s.pc t = .user .close → (P.kind = .text → s.closeCh = true) → Step P s (s.goto t (.user .closeRaw))
  | closeRawNil (s t) : s.pc t = .user .closeRaw → s.raw = none → Step P s { s with crashed := true }
  | closeRaw (s t g) : s.pc t = .user .closeRaw → s.raw = some g →
      Step P s ((s.goto t (.user (if P.kind = .text then .clearRaw else .idle))).setConn g { s.conns g with isOpen := false })
  | clearRaw (s t) : s.pc t = .user .clearRaw → Step P s { s.goto t (.user .closeChan) with raw := none }
  | closeChanPanic (s t) : s.pc t = .user .closeChan → (s.closeCh = false ∨ s.chanClosed = true) →
      Step P s { s with crashed := true }
  | closeChan (s t) : s.pc t = .user .closeChan → s.closeCh = true → s.chanClosed = false →
      Step P s { s.goto t (.user .clearChan) with chanClosed := true }
  | clearChan (s t) : s.pc t = .user .clearChan → Step P s { s.goto t (.user .idle) with closeCh := false }
  /-- Goroutine `t` calls Reconnect. -/
  | callReconnect (s t) : s.pc t = .user .idle → P.reconnectors t → Step P s (s.goto t .called)
  | lockReconnect (s t) : s.pc t = .called → s.lock = none → Step P s { s.goto t .locked with lock := some t }
  /-- `s.raw == nil`. -/
  | noRaw (s t) : s.pc t = .locked → s.raw = none → Step P s (s.goto t .dial)
  /-- `s.raw.Close()` succeeds. -/
  | shut (s t g) : s.pc t = .locked → s.raw = some g → (s.conns g).isOpen = true →
      Step P s ((s.goto t .dial).setConn g { s.conns g with isOpen := false })
  /-- `s.raw.Close()` of a connection that was closed before: `return err`. -/
  | shutFails (s t g) : s.pc t = .locked → s.raw = some g → (s.conns g).isOpen = false →
      Step P s (s.ret t (.reconnect false))
  /-- `d.DialContext` succeeds. -/
  | dial (s t) : s.pc t = .dial → Step P s { s.goto t (.setRaw s.dialled) with dialled := s.dialled + 1 }
  /-- It fails. -/
  | dialFails (s t) : s.pc t = .dial → Step P s (s.ret t (.reconnect false))
  /-- `s.raw = conn`. -/
  | setRaw (s t g) : s.pc t = .setRaw g → Step P s { s.goto t (.setConn g) with raw := some g }
  /-- `s.conn = bufio.NewReadWriter(...); return nil`. -/
  | setConn (s t g) : s.pc t = .setConn g → Step P s { s.ret t (.reconnect true) with conn := g }

/-- Any number of steps from the start. (Not code: executions.) -/
inductive Reach (P : Params T) : State T → Prop where
  | init : Reach P init
  | step {s s'} : Reach P s → Step P s s' → Reach P s'

end Reconn
end Verif
