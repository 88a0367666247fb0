import Verif.Client.Sched
import Verif.Client.Flow
/-!
Several goroutines using one client (`Client/Sched.lean`) on a connection that holds only so many bytes in each
direction (`Client/Flow.lean`): a `Write` waits until there is room, the server reads on only after it has written its
reply.
-/

namespace Verif
namespace Narrow
open Spec

variable {T : Type} [DecidableEq T] {σ : Type}

/-- What lies between the client and the server, and the server: bytes on the way to it, what it has read and not
consumed, its state, what it has still to write, bytes on the way back. (server/server.go:493-515 and the kernels'
buffers; the fields are those of `Flow.Net`.) -/
structure Pipe (σ : Type) where
  up : Bytes
  got : Bytes
  srv : σ
  owed : Bytes
  down : Bytes

/-- The client with its goroutines (client/server.go:119-132, 634-646, 1136-1150), and the connection. -/
structure State (T σ : Type) where
  users : Sched.State T
  pipe : Pipe σ

/-- A client just created, and a server that waits for a request. (client/server.go:134-160.) -/
def init (s : σ) : State T σ := ⟨Sched.init, ⟨[], [], s, [], []⟩⟩

/-- One step. (client/server.go:166-176, 198-257 and the corresponding lines of every operation; server/server.go:493-515.
`ended` in the client is the moment its side learns that the other one has hung up: all that is to arrive has arrived
then.) -/
inductive Step (P : Sched.Params T) (W : Flow.Peer σ) (R : Flow.Room) : State T σ → State T σ → Prop where
  /-- Anything a goroutine does but sending and receiving; the other side hangs up. -/
  | other (q : State T σ) (s : Sched.State T) : Sched.Step P q.users s → s.sent = q.users.sent → s.got = q.users.got →
      Step P W R q { q with users := s }
  /-- A goroutine gets a byte of its request into the connection. (client/server.go:211-216 and so on.) -/
  | send (q : State T σ) (t : T) (c : Call Out) (x : UInt8) (y : Bytes) : q.users.pc t = .writing c (x :: y) →
      q.users.isOpen = true → q.users.werr = false → q.pipe.up.length < R.up →
      Step P W R q ⟨{ q.users.goto t (.writing c y) with sent := q.users.sent ++ [x] }, { q.pipe with up := q.pipe.up ++ [x] }⟩
  /-- A goroutine that reads its reply takes a byte out of the connection. (client/server.go:218-240 and so on.) -/
  | hear (q : State T σ) (t : T) (c : Call Out) (x : UInt8) (d : Bytes) : q.users.pc t = .reading c →
      q.users.isOpen = true → q.users.ended = false → q.pipe.down = x :: d →
      Step P W R q ⟨{ q.users with got := q.users.got ++ [x], inbox := q.users.inbox ++ [x] }, { q.pipe with down := d }⟩
  /-- The server, which has nothing to write and no complete request, reads. (server/server.go:495.) -/
  | take (q : State T σ) (a b : Bytes) : q.pipe.up = a ++ b → a ≠ [] → a.length ≤ R.ahead → q.pipe.owed = [] →
      W.next q.pipe.srv q.pipe.got = none → Step P W R q { q with pipe := { q.pipe with up := b, got := q.pipe.got ++ a } }
  /-- It handles a request. (server/server.go:495, 500, 508-515.) -/
  | handle (q : State T σ) (o : Bytes) (s : σ) (rest : Bytes) : q.pipe.owed = [] →
      W.next q.pipe.srv q.pipe.got = some (o, s, rest) →
      Step P W R q { q with pipe := { q.pipe with srv := s, got := rest, owed := o } }
  /-- It gets a byte of the reply into the connection. (server/server.go:517-735, `connBuf.Flush`.) -/
  | reply (q : State T σ) (x : UInt8) (o : Bytes) : q.pipe.owed = x :: o → q.pipe.down.length < R.down →
      Step P W R q { q with pipe := { q.pipe with owed := o, down := q.pipe.down ++ [x] } }

/-- Any number of steps. (Not code: executions.) -/
inductive Later (P : Sched.Params T) (W : Flow.Peer σ) (R : Flow.Room) (q : State T σ) : State T σ → Prop where
  | refl : Later P W R q q
  | step {q1 q2 : State T σ} : Later P W R q q1 → Step P W R q1 q2 → Later P W R q q2

end Narrow
end Verif
