import Verif.Client.Life
/-!
Several goroutines using one client connection (client/server.go): every operation runs under the mutex
`mu`; `Close` takes no lock.  Every access to a shared field, every piece written, every arrival of bytes
is a step of its own; steps of different goroutines and of the network interleave arbitrarily.  Memory is
sequentially consistent (the races between `Close` and operations are, strictly, undefined in Go; the model
gives them their best meaning).  Reconnect is added in `Client/Reconn.lean`.
-/

namespace Verif
namespace Sched
open Spec
open Life (Kind errClosed errAlready)

variable {T : Type} [DecidableEq T]

/-- Where a goroutine is. (client/server.go:166-176, 198-215 and the same lines of every other operation.) -/
inductive At where
  /-- Between two calls. -/
  | idle
  /-- Operation called, before `s.mu.Lock()`. -/
  | called (c : Call Out)
  /-- Mutex taken, before the check `s.raw == nil` (text client). -/
  | locked (c : Call Out)
  /-- Before `s.raw.SetWriteDeadline` (executed if `Timeout ≠ 0`). -/
  | writeDeadline (c : Call Out)
  /-- Before `s.raw.SetReadDeadline`. -/
  | readDeadline (c : Call Out)
  /-- Writing; these bytes of the request are still to be sent. -/
  | writing (c : Call Out) (todo : Bytes)
  /-- Reading the reply. -/
  | reading (c : Call Out)
  /-- `Close` called. -/
  | close
  /-- Before `s.raw.Close()`. -/
  | closeRaw
  /-- Before `s.raw = nil`. -/
  | clearRaw
  /-- Before `close(s.closeCh)`. -/
  | closeChan
  /-- Before `s.closeCh = nil`. -/
  | clearChan

/-- The client, the connection, the goroutines.
(client/server.go:119-132, 634-646, 1136-1150, and the connection.) -/
structure State (T : Type) where
  /-- Who holds `mu`. -/
  lock : Option T := none
  /-- `s.raw ≠ nil`. -/
  raw : Bool := true
  /-- `s.closeCh ≠ nil`. -/
  closeCh : Bool := true
  /-- The channel was closed. -/
  chanClosed : Bool := false
  /-- This side has not closed the connection. -/
  isOpen : Bool := true
  /-- The other side has ended the connection. -/
  ended : Bool := false
  /-- The `bufio.Writer` has met an error. -/
  werr : Bool := false
  /-- Everything sent so far. -/
  sent : Bytes := []
  /-- Everything that has arrived so far. -/
  got : Bytes := []
  /-- What has arrived and was not read yet. -/
  inbox : Bytes := []
  /-- The goroutines. -/
  pc : T → At
  /-- Operations that have returned, with their results, in the order in which they returned. -/
  log : List (Call Out × Res Out) := []
  /-- A goroutine has panicked. -/
  crashed : Bool := false

/-- The client just created. (client/server.go:134-160 and alike.) -/
def init : State T := { pc := fun _ => .idle }

/-- What a run depends on: the client's protocol, whether `Timeout ≠ 0`, the server (all its output on
this connection once it has got the bytes `x` is `resp x`), whether deadlines may pass, the calls in use,
and the goroutines that may call Close.  (`Timeout` is taken not to change and not to be negative.) -/
structure Params (T : Type) where
  kind : Kind
  timeout : Bool
  late : Bool
  resp : Bytes → Bytes
  calls : Call Out → Prop
  closers : T → Prop

/-- Goroutine `t` goes to `a`. (Not code: program counters.) -/
def State.goto (s : State T) (t : T) (a : At) : State T := { s with pc := fun u => if u = t then a else s.pc u }

/-- The operation `c` of goroutine `t` returns `r`: the deferred `s.mu.Unlock()`.
(client/server.go:199-200 and alike.) -/
def State.ret (s : State T) (t : T) (c : Call Out) (r : Res Out) : State T :=
  { s.goto t .idle with lock := none, log := s.log ++ [(c, r)] }

/-- One step. (client/server.go:166-176, 198-257 and the corresponding lines of every operation.) -/
inductive Step (P : Params T) : State T → State T → Prop where
  /-- Goroutine `t` calls an operation. -/
  | call (s t c) : s.pc t = .idle → P.calls c → Step P s (s.goto t (.called c))
  /-- `s.mu.Lock()`. -/
  | lock (s t c) : s.pc t = .called c → s.lock = none → Step P s { s.goto t (.locked c) with lock := some t }
  /-- Text client: `if s.raw == nil { return errors.New("memcached: closed") }`. -/
  | refuse (s t c) : s.pc t = .locked c → P.kind = .text → s.raw = false → Step P s (s.ret t c (.err errClosed))
  /-- The check passes, or there is none. -/
  | pass (s t c) : s.pc t = .locked c → (P.kind = .text → s.raw = true) → Step P s (s.goto t (.writeDeadline c))
  /-- `s.raw.SetWriteDeadline` on a nil interface. -/
  | writeDeadlineNil (s t c) : s.pc t = .writeDeadline c → P.timeout = true → s.raw = false →
      Step P s { s with crashed := true }
  /-- `s.raw.SetWriteDeadline`. -/
  | writeDeadline (s t c) : s.pc t = .writeDeadline c → P.timeout = true → s.raw = true →
      Step P s (s.goto t (.readDeadline c))
  /-- `s.raw.SetReadDeadline` on a nil interface. -/
  | readDeadlineNil (s t c) : s.pc t = .readDeadline c → s.raw = false → Step P s { s with crashed := true }
  /-- `s.raw.SetReadDeadline`, then the request is composed in the buffer. -/
  | readDeadline (s t c w) : s.pc t = .readDeadline c → s.raw = true → c.wire = .ok w →
      Step P s (s.goto t (.writing c w))
  /-- The same without `Timeout`. -/
  | noDeadline (s t c w) : s.pc t = .writeDeadline c → P.timeout = false → c.wire = .ok w →
      Step P s (s.goto t (.writing c w))
  /-- The request cannot be composed. -/
  | unencodable (s t c e) : (s.pc t = .writeDeadline c ∧ P.timeout = false ∨ s.pc t = .readDeadline c ∧ s.raw = true) →
      c.wire = .err e → Step P s (s.ret t c (.err e))
  /-- Composing the request panics. -/
  | unencodablePanic (s t c) : (s.pc t = .writeDeadline c ∧ P.timeout = false ∨ s.pc t = .readDeadline c ∧ s.raw = true) →
      c.wire = .panic → Step P s (s.ret t c .panic)
  /-- A piece of the request is sent. -/
  | write (s t c x y) : s.pc t = .writing c (x ++ y) → s.isOpen = true → s.werr = false →
      Step P s { s.goto t (.writing c y) with sent := s.sent ++ x }
  /-- Sending fails: this side has closed the connection, the other side has, it failed before, or the write
  deadline passes. -/
  | writeFails (s t c x) : s.pc t = .writing c x →
      (s.isOpen = false ∨ s.ended = true ∨ s.werr = true ∨ P.timeout = true ∧ P.late = true) →
      Step P s { s.ret t c (.err .io) with werr := true }
  /-- Everything is sent. -/
  | written (s t c) : s.pc t = .writing c [] → s.werr = false → Step P s (s.goto t (.reading c))
  /-- Some bytes of the server's output arrive. -/
  | arrive (s x y) : s.isOpen = true → s.ended = false → P.resp s.sent = s.got ++ x ++ y →
      Step P s { s with got := s.got ++ x, inbox := s.inbox ++ x }
  /-- The other side ends the connection. -/
  | hangUp (s) : Step P s { s with ended := true }
  /-- What has arrived is enough for the operation to return. -/
  | read (s t c) : s.pc t = .reading c → (c.rd s.inbox).1 ≠ .err .io →
      Step P s { s.ret t c (c.rd s.inbox).1 with inbox := (c.rd s.inbox).2 }
  /-- It is not enough and no more will come. -/
  | readFails (s t c) : s.pc t = .reading c → (c.rd s.inbox).1 = .err .io → (s.isOpen = false ∨ s.ended = true) →
      Step P s { s.ret t c (.err .io) with inbox := [] }
  /-- It is not enough and the read deadline passes. -/
  | readTimeout (s t c) : s.pc t = .reading c → (c.rd s.inbox).1 = .err .io → P.timeout = true → P.late = true →
      Step P s { s.ret t c (.err .io) with inbox := [] }
  /-- Goroutine `t` calls Close. -/
  | callClose (s t) : s.pc t = .idle → P.closers t → Step P s (s.goto t .close)
  /-- Text client: `if s.closeCh == nil { return errors.New("memcached: already closed") }`. -/
  | closeAgain (s t) : s.pc t = .close → P.kind = .text → s.closeCh = false → Step P s (s.goto t .idle)
  | closeGo (s t) : s.pc t = .close → (P.kind = .text → s.closeCh = true) → Step P s (s.goto t .closeRaw)
  /-- `s.raw.Close()` on a nil interface. -/
  | closeRawNil (s t) : s.pc t = .closeRaw → s.raw = false → Step P s { s with crashed := true }
  /-- `s.raw.Close()`; the meta and binary clients' Close ends here. -/
  | closeRaw (s t) : s.pc t = .closeRaw → s.raw = true →
      Step P s { s.goto t (if P.kind = .text then .clearRaw else .idle) with isOpen := false }
  /-- `s.raw = nil`. -/
  | clearRaw (s t) : s.pc t = .clearRaw → Step P s { s.goto t .closeChan with raw := false }
  /-- `close(s.closeCh)` of a nil or closed channel. -/
  | closeChanPanic (s t) : s.pc t = .closeChan → (s.closeCh = false ∨ s.chanClosed = true) →
      Step P s { s with crashed := true }
  /-- `close(s.closeCh)`. -/
  | closeChan (s t) : s.pc t = .closeChan → s.closeCh = true → s.chanClosed = false →
      Step P s { s.goto t .clearChan with chanClosed := true }
  /-- `s.closeCh = nil; return err`. -/
  | clearChan (s t) : s.pc t = .clearChan → Step P s { s.goto t .idle with closeCh := false }

/-- Any number of steps from the start. (Not code: executions.) -/
inductive Reach (P : Params T) : State T → Prop where
  | init : Reach P init
  | step {s s'} : Reach P s → Step P s s' → Reach P s'

end Sched
end Verif
