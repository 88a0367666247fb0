import Verif.Client.Sched
import Verif.Server.Accept
/-!
The whole: any number of clients of this module (client/server.go), each shared by goroutines, and the server process of
this module (server/server.go) they are connected to.
-/

namespace Verif
namespace Joint
open Srv

variable {T : Type} [DecidableEq T] {σ : Type}

/-- The server process, and for each connection number the client on its other end.
(client/server.go:119-132, 634-646, 1136-1150; server/server.go:475-491.) -/
structure State (T σ : Type) where
  server : Accept.World σ
  users : Nat → Sched.State T

/-- What the server has sent on connection `c` so far. (server/server.go:508-513.) -/
def State.out (q : State T σ) (c : Nat) : Bytes :=
  match q.server.conns c with
  | some k => k.out
  | none => []

/-- The server just started and the clients just created. (client/server.go:134-160; server/server.go:475-478.) -/
def init (s : σ) : State T σ := ⟨.init s, fun _ => Sched.init⟩

/-- One step: of a client's goroutines or its network, where what can arrive is what the server has sent on this
connection; or of the server, where what has been received on a connection is an initial part of what its client has
sent, and the end of the stream is seen only after the client has closed the connection.
(client/server.go:166-257 and alike; server/server.go:475-513.) -/
inductive Step (P : Nat → Sched.Params T) (H : Accept.Concurrent σ) : State T σ → State T σ → Prop where
  | user (q : State T σ) (c : Nat) (s' : Sched.State T) (h : Sched.Step { P c with resp := fun _ => q.out c } (q.users c) s') :
      Step P H q { q with users := fun d => if d = c then s' else q.users d }
  | server (q : State T σ) (a : Accept.Who) (w' : Accept.World σ) (h : Accept.Step H q.server a w')
      (net : ∀ c k, w'.conns c = some k → k.sent <+: (q.users c).sent ∧ (k.eof = true → (q.users c).isOpen = false)) :
      Step P H q { q with server := w' }

/-- Any number of steps. (Not code: executions.) -/
inductive Later (P : Nat → Sched.Params T) (H : Accept.Concurrent σ) (q : State T σ) : State T σ → Prop where
  | refl : Later P H q q
  | step {v u} : Later P H q v → Step P H v u → Later P H q u

end Joint
end Verif
