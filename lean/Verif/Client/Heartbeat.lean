import Verif.Client.Life
/-!
`heartbeat`, client/server.go:1835-1854, as a goroutine interleaved with the rest of the program.
-/

namespace Verif
namespace Heartbeat
open Life (Kind)

/-- `time.NewTimer(interval)` (1836): a timer that fires once.  `fired` means that its channel holds the
one value, `drained` that the value was received. (client/server.go:1836.) -/
inductive Timer where
  | armed
  | fired
  | drained
  deriving DecidableEq, Repr

/-- Where the goroutine is: in the `select` (1838), in `s.Version()` (1842), in `s.Reconnect()` (1845), in
`s.Close()` (1849), or returned. (client/server.go:1837-1852.) -/
inductive At where
  | select
  | version
  | reconnect
  | close
  | returned
  deriving DecidableEq, Repr

/-- The state: the timer, the goroutine, whether the channel `closeCh` given to `heartbeat` was closed;
and, to talk about what happened, how many probes, reconnects and closes the goroutine has begun.
(client/server.go:1835-1854.) -/
structure State where
  timer : Timer
  hb : At
  closed : Bool
  probes : Nat
  reconnects : Nat
  closes : Nat
  deriving DecidableEq, Repr

/-- When the constructor has started the goroutine. (client/server.go:155-157, 670-672, 1181-1183.) -/
def start : State := ⟨.armed, .select, false, 0, 0, 0⟩

/-- What `Close` does to the channel: only the text client closes it (client/server.go:173, 1132-1134,
1740-1742).  (A text client whose Close returned an error because it was closed before has a closed
channel already.) -/
def closeCh (kind : Kind) (c : Bool) : Bool := if kind = .text then true else c

/-- Who takes a step: the goroutine, or the world around it (time, and other goroutines).
(Not code: the scheduler.) -/
inductive Who where
  | hb
  | world
  deriving DecidableEq, Repr

/-- One step, for a client of that kind with `EnableAutoReconnect` or not.  What `Version` and
`Reconnect` return is up to the network. (client/server.go:1837-1852.) -/
inductive Step (kind : Kind) (auto : Bool) : Who → State → State → Prop where
  /-- The interval passes. -/
  | fire (s) : s.timer = .armed → Step kind auto .world s { s with timer := .fired }
  /-- Somebody else calls Close. -/
  | userClose (s) : Step kind auto .world s { s with closed := closeCh kind s.closed }
  /-- Somebody else does anything that does not close the channel: an operation, a Reconnect. -/
  | other (s) : Step kind auto .world s s
  /-- `case <-closeCh: return`. -/
  | quit (s) : s.hb = .select → s.closed = true → Step kind auto .hb s { s with hb := .returned }
  /-- `case <-ticker.C:`. -/
  | tick (s) : s.hb = .select → s.timer = .fired →
      Step kind auto .hb s { s with hb := .version, timer := .drained, probes := s.probes + 1 }
  /-- `Version` returns without error. -/
  | probeOk (s) : s.hb = .version → Step kind auto .hb s { s with hb := .select }
  /-- `Version` returns an error, `reconnect` is set. -/
  | probeRetry (s) : s.hb = .version → auto = true →
      Step kind auto .hb s { s with hb := .reconnect, reconnects := s.reconnects + 1 }
  /-- `Version` returns an error, `reconnect` is not set. -/
  | probeGiveUp (s) : s.hb = .version → auto = false →
      Step kind auto .hb s { s with hb := .close, closes := s.closes + 1 }
  /-- `Reconnect` returns without error. -/
  | reconnectOk (s) : s.hb = .reconnect → Step kind auto .hb s { s with hb := .select }
  /-- `Reconnect` returns an error. -/
  | reconnectErr (s) : s.hb = .reconnect → Step kind auto .hb s { s with hb := .returned }
  /-- `Close` returns. -/
  | closeDone (s) : s.hb = .close →
      Step kind auto .hb s { s with hb := .select, closed := closeCh kind s.closed }

/-- Any number of steps, in any order; `n` is the number of steps of the goroutine.
(Not code: executions.) -/
inductive Steps (kind : Kind) (auto : Bool) (s : State) : Nat → State → Prop where
  | refl : Steps kind auto s 0 s
  | hb {n t u} : Steps kind auto s n t → Step kind auto .hb t u → Steps kind auto s (n + 1) u
  | world {n t u} : Steps kind auto s n t → Step kind auto .world t u → Steps kind auto s n u

end Heartbeat
end Verif
