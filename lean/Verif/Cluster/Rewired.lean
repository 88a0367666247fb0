import Verif.Cluster.Wired
import Verif.Client.Reconn
/-!
As `Cluster/Wired`, with Reconnect (client/server.go:178-196, 681-699): goroutines that run methods of pools over
connections that break and that goroutines replace by new ones at any moment.  What has been written to an old connection
and has not been carried out may still reach memcached (environment).
-/

namespace Verif
namespace Rewired
open Kv Spec Mc Pool Cluster
open Wired (Setup Ev)

variable {S M : Type} [DecidableEq S]

/-- One client with all the connections it has dialled (client/server.go:119-132, 634-646), and the ends of these at
memcached (environment): of what was sent on connection number `g`, `used g` bytes have been carried out, and `out g` is all
that memcached has sent on it. -/
structure Line where
  conn : Reconn.State Nat := Reconn.init
  used : Nat → Nat := fun _ => 0
  out : Nat → Bytes := fun _ => []

/-- The clients of all processes (by number), the contents of all servers, the pool methods in progress (by goroutine);
`calls` counts the commands carried out by memcached (a history variable). (Not code: the running programs.) -/
structure State (S : Type) where
  line : Nat → S → Line
  world : World S
  prog : Nat → Option (Prog S)
  calls : Nat := 0

/-- One client of server `s` on whose connections memcached has sent `out`.  Deadlines do not pass, nobody calls Close,
everybody may call Reconnect, at any moment (also, which does not happen in the code but can do no harm, while it is itself
in a method that uses other connections).  (client/server.go:119-132, 634-646.) -/
def params (U : Setup S M) (s : S) (out : Nat → Bytes) : Reconn.Params Nat :=
  { kind := U.kind, timeout := U.timeout, late := false, resp := fun g _ => out g
    calls := fun c => ∃ o, c = U.call s o, closers := fun _ => False, reconnectors := fun _ => True }

/-- The client of process `p` for server `s` replaced. (Not code.) -/
def State.put (w : State S) (p : Nat) (s : S) (l : Line) : State S :=
  { w with line := fun p' s' => if p' = p ∧ s' = s then l else w.line p' s' }

/-- What goroutine `i` does replaced. (Not code.) -/
def State.set (w : State S) (i : Nat) (x : Option (Prog S)) : State S :=
  { w with prog := fun j => if j = i then x else w.prog j }

/-- The operation that a goroutine has called, if it is in one (Reconnect is none). (Not code: program counters.) -/
def opOf : Reconn.At → Option (Call Out)
  | .user a => a.op
  | _ => none

/-- One step. -/
inductive Step (U : Setup S M) : State S → Option (Ev M) → State S → Prop where
  /-- Seconds pass. -/
  | tick (w : State S) (d : Nat) : Step U w (some (.tick d)) { w with world := World.tick w.world d }
  /-- Goroutine `i` calls a pool method (client/client.go:37-95, cluster/cluster.go:30-130). -/
  | start (w : State S) (i : Nat) (m : M) : w.prog i = none → Step U w (some (.start i m)) (w.set i (some (U.method m)))
  /-- It returns. -/
  | finish (w : State S) (i : Nat) (r : Res Out) : w.prog i = some (.ret r) → Step U w (some (.finish i r)) (w.set i none)
  /-- In a pool method goroutine `i` calls an operation of the client for `s`
  (client/client.go:39 and alike, cluster/cluster.go:31 and alike). -/
  | begin (w : State S) (i : Nat) (s : S) (op : Op) (k : Res Out → Prog S) : w.prog i = some (.call s op k) →
      ((w.line (U.proc i) s).conn.pc i) = .user .idle →
      Step U w none (w.put (U.proc i) s
        { w.line (U.proc i) s with conn := (w.line (U.proc i) s).conn.goto i (.user (.called (U.call s op))) })
  /-- Something happens to a client or its connections, but no operation is called and none returns (client/server.go:178-257
  and the corresponding lines of every operation and of the other clients). -/
  | work (w : State S) (p : Nat) (s : S) (c' : Reconn.State Nat) :
      Reconn.Step (params U s (w.line p s).out) (w.line p s).conn c' →
      (∀ i, opOf (c'.pc i) = opOf ((w.line p s).conn.pc i)) →
      Step U w none (w.put p s { w.line p s with conn := c' })
  /-- The operation that goroutine `i` has called returns `r`. -/
  | ret (w : State S) (i : Nat) (s : S) (op : Op) (k : Res Out → Prog S) (c : Call Out) (r : Res Out) (c' : Reconn.State Nat) :
      w.prog i = some (.call s op k) →
      Reconn.Step (params U s (w.line (U.proc i) s).out) (w.line (U.proc i) s).conn c' →
      opOf ((w.line (U.proc i) s).conn.pc i) = some c → c'.pc i = .user .idle →
      c'.log = (w.line (U.proc i) s).conn.log ++ [.op c r] →
      Step U w none ((w.put (U.proc i) s { w.line (U.proc i) s with conn := c' }).set i (some (k r)))
  /-- Some bytes `x`, sent on connection number `g`, beyond those already carried out have reached memcached, which carries
  out the command they begin with. (Environment.) -/
  | serve (w : State S) (p : Nat) (s : S) (g : Nat) (x y reply rest : Bytes) (st : Store) :
      ((w.line p s).conn.conns g).sent.drop ((w.line p s).used g) = x ++ y →
      Mc.step (w.world s) x = some (reply, st, rest) →
      Step U w none { (w.put p s { w.line p s with
          used := fun h => if h = g then (w.line p s).used g + (x.length - rest.length) else (w.line p s).used h
          out := fun h => if h = g then (w.line p s).out g ++ reply else (w.line p s).out h }) with
        world := World.update w.world s st, calls := w.calls + 1 }

/-- Any number of steps, and what can be seen of them. (Not code: executions.) -/
inductive Run (U : Setup S M) (w0 : State S) : List (Ev M) → State S → Prop where
  | nil : Run U w0 [] w0
  | snoc {tr : List (Ev M)} {e : Option (Ev M)} {w w' : State S} : Run U w0 tr w → Step U w e w' →
      Run U w0 (tr ++ e.toList) w'

/-- Clients just created, no pool method called.
(client/server.go:134-160, 648-674.) -/
def State.init (world : World S) : State S :=
  { line := fun _ _ => {}, world := world, prog := fun _ => none }

end Rewired
end Verif
