import Verif.Server.Serve
/-!
The whole server process: the accept loop (server/server.go:475-491) and one goroutine per
connection, running concurrently against one handler object.
-/

namespace Verif
namespace Srv
namespace Accept

/-- The object behind `Server.Handler` (server/server.go:398-400, 456) seen from the
goroutines that use it at the same time: what it does when the goroutine of connection `c`
calls `ServeRequest` (`call`), what it does on its own or inside running calls (`step`), and
when the call of connection `c` can return which result (`ret`).  Nothing is assumed of it:
calls may overlap, wait for one another or never return. -/
structure Concurrent (σ : Type) where
  call : σ → Nat → Request → σ
  step : σ → σ → Prop
  ret : σ → Nat → Res (List Response) → σ → Prop

/-- How a connection's goroutine ended: by the loop of `serve` (`break` at 497/501), because the
network failed under it, or by a panic. (server/server.go:484-505.) -/
inductive Fin where
  | served
  | lost
  | crashed
  deriving DecidableEq, Repr

/-- One accepted connection and its goroutine (server/server.go:63-77, 484-489).
`proto` is `conn.Protocol`, `sent` all bytes received so far, `avail` those not yet consumed by
`readRequest`, `eof` whether the client has closed its side, `busy` the request the handler is
working on (`none`: the goroutine is reading), `done` the finished handler calls with their
results, `out` the bytes sent back.  `sent` and `done` are history variables. -/
structure Conn where
  proto : Option Protocol
  sent : Bytes
  avail : Bytes
  eof : Bool
  busy : Option (Protocol × Request)
  done : List (Request × Res (List Response))
  out : Bytes
  fin : Option Fin

/-- `newConn`, server/server.go:72-77. -/
def Conn.new : Conn := ⟨none, [], [], false, none, [], [], none⟩

/-- The process: the handler's state, the connections by number, whether `Serve` is still
accepting, and whether a panic has ended the process. (server/server.go:475-491.) -/
structure World (σ : Type) where
  state : σ
  conns : Nat → Option Conn
  listening : Bool
  down : Bool

variable {σ : Type}

/-- Replace one connection. (Auxiliary; the goroutines share nothing but the handler,
server/server.go:484-489.) -/
def World.put (w : World σ) (c : Nat) (k : Conn) : World σ :=
  { w with conns := fun d => if d = c then some k else w.conns d }

/-- A started process: no connection yet. (server/server.go:475-478.) -/
def World.init (s : σ) : World σ := ⟨s, fun _ => none, true, false⟩

/-- Who moves: the accept loop, the network, the handler, or the goroutine of a connection. (No counterpart in /repo: names for the scheduler's choices.) -/
inductive Who where
  | listener
  | net (c : Nat)
  | handler
  | conn (c : Nat)
  deriving DecidableEq, Repr

/-- One step of the process.  A process that is down takes none. -/
inductive Step (H : Concurrent σ) : World σ → Who → World σ → Prop where
  /-- `l.Accept()` returns a connection and its goroutine starts, server/server.go:479-489. -/
  | accept (w : World σ) (c : Nat) (up : w.down = false) (hl : w.listening = true)
      (new : w.conns c = none) : Step H w .listener (w.put c .new)
  /-- `l.Accept()` fails and `Serve` returns, server/server.go:480-482, 476. -/
  | acceptFails (w : World σ) (up : w.down = false) (hl : w.listening = true) :
      Step H w .listener { w with listening := false }
  /-- Bytes from the client arrive. -/
  | arrive (w : World σ) (c : Nat) (k : Conn) (bs : Bytes) (up : w.down = false)
      (hk : w.conns c = some k) (he : k.eof = false) :
      Step H w (.net c) (w.put c { k with sent := k.sent ++ bs, avail := k.avail ++ bs })
  /-- The client closes its sending side. -/
  | hangup (w : World σ) (c : Nat) (k : Conn) (up : w.down = false)
      (hk : w.conns c = some k) (he : k.eof = false) :
      Step H w (.net c) (w.put c { k with eof := true })
  /-- A read fails (connection reset): `serve` breaks, server/server.go:495-498. -/
  | reset (w : World σ) (c : Nat) (k : Conn) (up : w.down = false)
      (hk : w.conns c = some k) (ho : k.fin = none) (hb : k.busy = none) :
      Step H w (.net c) (w.put c { k with fin := some .lost })
  /-- `readRequest` has all the bytes it needs and `ServeRequest` is called,
  server/server.go:495, 508. (`conn.Protocol` is stored when the request is complete; Go stores
  it after the first byte, which makes no difference: the same byte decides.) -/
  | read (w : World σ) (c : Nat) (k : Conn) (q : Protocol) (req : Request) (r : Bytes)
      (up : w.down = false) (hk : w.conns c = some k) (ho : k.fin = none) (hb : k.busy = none)
      (hr : readRequest k.proto k.avail = (.ok (q, req), r)) :
      Step H w (.conn c)
        { w.put c { k with proto := some q, avail := r, busy := some (q, req) } with
          state := H.call w.state c req }
  /-- `readRequest` fails, on a malformed request or because the client has closed its side in
  front of or inside a request; server/server.go:496-498, 485. -/
  | bad (w : World σ) (c : Nat) (k : Conn) (e : Err) (r : Bytes)
      (up : w.down = false) (hk : w.conns c = some k) (ho : k.fin = none) (hb : k.busy = none)
      (hr : readRequest k.proto k.avail = (.err e, r)) (he : e ≠ .io ∨ k.eof = true) :
      Step H w (.conn c) (w.put c { k with fin := some .served })
  /-- `readRequest` panics: no goroutine recovers, the process ends; server/server.go:484-489. -/
  | crash (w : World σ) (c : Nat) (k : Conn) (r : Bytes)
      (up : w.down = false) (hk : w.conns c = some k) (ho : k.fin = none) (hb : k.busy = none)
      (hr : readRequest k.proto k.avail = (.panic, r)) :
      Step H w (.conn c) { w.put c { k with fin := some .crashed } with down := true }
  /-- The handler works. -/
  | work (w : World σ) (s : σ) (up : w.down = false) (hs : H.step w.state s) :
      Step H w .handler { w with state := s }
  /-- `ServeRequest` returns and its responses are sent, server/server.go:508-513. -/
  | answer (w : World σ) (c : Nat) (k : Conn) (q : Protocol) (req : Request)
      (res : List Response) (s : σ) (b : Bytes)
      (up : w.down = false) (hk : w.conns c = some k) (ho : k.fin = none)
      (hb : k.busy = some (q, req)) (hs : H.ret w.state c (.ok res) s)
      (hw : writeResponse q req res = .ok b) :
      Step H w (.conn c)
        { w.put c { k with busy := none, done := k.done ++ [(req, .ok res)], out := k.out ++ b } with
          state := s }
  /-- ... but the network fails while they are sent: `serve` breaks, server/server.go:500-502. -/
  | answerLost (w : World σ) (c : Nat) (k : Conn) (q : Protocol) (req : Request)
      (res : List Response) (s : σ) (b : Bytes) (n : Nat)
      (up : w.down = false) (hk : w.conns c = some k) (ho : k.fin = none)
      (hb : k.busy = some (q, req)) (hs : H.ret w.state c (.ok res) s)
      (hw : writeResponse q req res = .ok b) :
      Step H w (.conn c)
        { w.put c { k with busy := none, done := k.done ++ [(req, .ok res)],
                           out := k.out ++ b.take n, fin := some .lost } with
          state := s }
  /-- `ServeRequest` returns an error: `serve` breaks, server/server.go:509-511, 500-502. -/
  | refuse (w : World σ) (c : Nat) (k : Conn) (q : Protocol) (req : Request) (e : Err) (s : σ)
      (up : w.down = false) (hk : w.conns c = some k) (ho : k.fin = none)
      (hb : k.busy = some (q, req)) (hs : H.ret w.state c (.err e) s) :
      Step H w (.conn c)
        { w.put c { k with busy := none, done := k.done ++ [(req, .err e)], fin := some .served } with
          state := s }
  /-- The responses cannot be written: `serve` breaks, server/server.go:500-502. -/
  | unwritable (w : World σ) (c : Nat) (k : Conn) (q : Protocol) (req : Request)
      (res : List Response) (e : Err) (s : σ)
      (up : w.down = false) (hk : w.conns c = some k) (ho : k.fin = none)
      (hb : k.busy = some (q, req)) (hs : H.ret w.state c (.ok res) s)
      (hw : writeResponse q req res = .err e) :
      Step H w (.conn c)
        { w.put c { k with busy := none, done := k.done ++ [(req, .ok res)], fin := some .served } with
          state := s }
  /-- `ServeRequest` panics: the process ends. -/
  | handlerCrash (w : World σ) (c : Nat) (k : Conn) (q : Protocol) (req : Request) (s : σ)
      (up : w.down = false) (hk : w.conns c = some k) (ho : k.fin = none)
      (hb : k.busy = some (q, req)) (hs : H.ret w.state c .panic s) :
      Step H w (.conn c)
        { w.put c { k with busy := none, done := k.done ++ [(req, .panic)], fin := some .crashed } with
          state := s, down := true }
  /-- Writing the responses panics: the process ends. -/
  | writeCrash (w : World σ) (c : Nat) (k : Conn) (q : Protocol) (req : Request)
      (res : List Response) (s : σ)
      (up : w.down = false) (hk : w.conns c = some k) (ho : k.fin = none)
      (hb : k.busy = some (q, req)) (hs : H.ret w.state c (.ok res) s)
      (hw : writeResponse q req res = .panic) :
      Step H w (.conn c)
        { w.put c { k with busy := none, done := k.done ++ [(req, .ok res)], fin := some .crashed } with
          state := s, down := true }

/-- Everything that can happen between two moments, in any order. -/
inductive Run (H : Concurrent σ) (w : World σ) : World σ → Prop where
  | refl : Run H w w
  | tail (v u : World σ) (a : Who) (hr : Run H w v) (hs : Step H v a u) : Run H w u

/-- The state of an atomic handler in use: its own state, and for each connection the request
passed to it or the result ready to be returned; `log` records the calls in the order in which
they took effect (a history variable).  (The handler of server/server.go:398-400 guarding its
state with a lock.) -/
structure Atomic (τ : Type) where
  own : τ
  waiting : Nat → Option Request
  ready : Nat → Option (Res (List Response))
  log : List (Nat × Request × Res (List Response))

/-- An atomic handler (a function on its state, run under a lock) as a concurrent object: each
call takes effect at one moment between its start and its return. (server/server.go:398-400, 508.) -/
def atomically {τ : Type} (h : Handler τ) : Concurrent (Atomic τ) where
  call a c req := { a with waiting := fun d => if d = c then some req else a.waiting d }
  step a a' := ∃ c req, a.waiting c = some req ∧
    a' = { own := (h a.own req).2
           waiting := fun d => if d = c then none else a.waiting d
           ready := fun d => if d = c then some (h a.own req).1 else a.ready d
           log := a.log ++ [(c, req, (h a.own req).1)] }
  ret a c x a' := a.ready c = some x ∧
    a' = { a with ready := fun d => if d = c then none else a.ready d }

/-- Nothing called yet. (Initial value, server/server.go:475.) -/
def Atomic.init {τ : Type} (t : τ) : Atomic τ := ⟨t, fun _ => none, fun _ => none, []⟩

end Accept
end Srv
end Verif
