import Verif.Cluster.Sched
import Verif.Spec.Trouble
/-!
Goroutines that run methods of pools, in any number of processes, each process with one connection per memcached
server, shared by its goroutines (client/server.go: every operation runs under `mu`).  Unlike in `Cluster/Sched`,
`Pool/Sched` and `Proxy/Sched`, where one call on a connection is one step, here a call on a connection consists of
all its steps (`Client/Sched`): waiting for the mutex, setting deadlines, writing the request piece by piece, the
request on its way, memcached carrying out a command as soon as it has got all of it, the reply arriving piece by
piece, reading, unlocking.  Anything may happen between two of them.
-/

namespace Verif
namespace Wired
open Kv Spec Mc Pool Cluster

variable {S M : Type} [DecidableEq S]

/-- One connection (client/server.go:119-132, 634-646) with the end of it at memcached (environment): `used` bytes of
what was sent have been carried out, `out` is all that memcached has sent. -/
structure Line where
  conn : Sched.State Nat := Sched.init
  used : Nat := 0
  out : Bytes := []

/-- The connections of all processes (by number), the contents of all servers, the pool methods in progress (by
goroutine); `calls` counts the commands carried out by memcached (a history variable). (Not code: the running
programs.) -/
structure State (S : Type) where
  line : Nat → S → Line
  world : World S
  prog : Nat → Option (Prog S)
  calls : Nat := 0

/-- What a run depends on: the operations of a connection (client/server.go), its protocol, whether `Timeout ≠ 0`,
which process a goroutine belongs to, and the pool methods (with their arguments) as sequences of calls.  Deadlines do not pass and nobody closes the connections. -/
structure Setup (S M : Type) where
  call : S → Op → Call Out
  kind : Life.Kind
  timeout : Bool
  proc : Nat → Nat
  method : M → Prog S

/-- One connection to server `s` on which memcached has sent `out`. (client/server.go:119-132, 634-646.) -/
def Setup.params (U : Setup S M) (s : S) (out : Bytes) : Sched.Params Nat :=
  { kind := U.kind, timeout := U.timeout, late := false, resp := fun _ => out
    calls := fun c => ∃ o, c = U.call s o, closers := fun _ => False }

/-- The connection of process `p` to server `s` replaced. (Not code.) -/
def State.put (w : State S) (p : Nat) (s : S) (l : Line) : State S :=
  { w with line := fun p' s' => if p' = p ∧ s' = s then l else w.line p' s' }

/-- What goroutine `i` does replaced. (Not code.) -/
def State.set (w : State S) (i : Nat) (x : Option (Prog S)) : State S :=
  { w with prog := fun j => if j = i then x else w.prog j }

/-- What can be seen from outside: time passes, a goroutine calls a pool method, a pool method returns.
(Not code.) -/
inductive Ev (M : Type) where
  | tick (d : Nat)
  | start (i : Nat) (m : M)
  | finish (i : Nat) (r : Res Out)

/-- One step. -/
inductive Step (U : Setup S M) : State S → Option (Ev M) → State S → Prop where
  /-- Seconds pass. -/
  | tick (w : State S) (d : Nat) : Step U w (some (.tick d)) { w with world := World.tick w.world d }
  /-- Goroutine `i` calls a pool method (client/client.go:37-95, cluster/cluster.go:30-130). -/
  | start (w : State S) (i : Nat) (m : M) : w.prog i = none → Step U w (some (.start i m)) (w.set i (some (U.method m)))
  /-- It returns. -/
  | finish (w : State S) (i : Nat) (r : Res Out) : w.prog i = some (.ret r) → Step U w (some (.finish i r)) (w.set i none)
  /-- In a pool method goroutine `i` calls an operation of the connection to `s`
  (client/client.go:39 and alike, cluster/cluster.go:31 and alike). -/
  | begin (w : State S) (i : Nat) (s : S) (op : Op) (k : Res Out → Prog S) : w.prog i = some (.call s op k) →
      ((w.line (U.proc i) s).conn.pc i) = .idle →
      Step U w none (w.put (U.proc i) s
        { w.line (U.proc i) s with conn := (w.line (U.proc i) s).conn.goto i (.called (U.call s op)) })
  /-- Something happens on a connection, but no operation is called and none returns (client/server.go:198-257 and
  the corresponding lines of every operation). -/
  | work (w : State S) (p : Nat) (s : S) (c' : Sched.State Nat) :
      Sched.Step (U.params s (w.line p s).out) (w.line p s).conn c' →
      (∀ i, (c'.pc i).op = ((w.line p s).conn.pc i).op) →
      Step U w none (w.put p s { w.line p s with conn := c' })
  /-- The operation that goroutine `i` has called returns `r`. -/
  | ret (w : State S) (i : Nat) (s : S) (op : Op) (k : Res Out → Prog S) (c : Call Out) (r : Res Out) (c' : Sched.State Nat) :
      w.prog i = some (.call s op k) →
      Sched.Step (U.params s (w.line (U.proc i) s).out) (w.line (U.proc i) s).conn c' →
      ((w.line (U.proc i) s).conn.pc i).op = some c → c'.pc i = .idle →
      c'.log = (w.line (U.proc i) s).conn.log ++ [(c, r)] →
      Step U w none ((w.put (U.proc i) s { w.line (U.proc i) s with conn := c' }).set i (some (k r)))
  /-- Some bytes `x` beyond those already carried out have reached memcached, which carries out the command they begin
  with. (Environment.) -/
  | serve (w : State S) (p : Nat) (s : S) (x y reply rest : Bytes) (st : Store) :
      (w.line p s).conn.sent.drop (w.line p s).used = x ++ y →
      Mc.step (w.world s) x = some (reply, st, rest) →
      Step U w none { (w.put p s { w.line p s with used := (w.line p s).used + (x.length - rest.length)
                                                   out := (w.line p s).out ++ reply }) with
        world := World.update w.world s st, calls := w.calls + 1 }

/-- Any number of steps, and what can be seen of them. (Not code: executions.) -/
inductive Run (U : Setup S M) (w0 : State S) : List (Ev M) → State S → Prop where
  | nil : Run U w0 [] w0
  | snoc {tr : List (Ev M)} {e : Option (Ev M)} {w w' : State S} : Run U w0 tr w → Step U w e w' →
      Run U w0 (tr ++ e.toList) w'

/-- Connections just opened, no pool method called.
(client/server.go:134-160, 648-674.) -/
def State.init (world : World S) : State S :=
  { line := fun _ _ => {}, world := world, prog := fun _ => none }

end Wired
end Verif
