import Verif.Go.Basic
/-!
One operation of a client on a connection that holds only so many bytes in each direction.

The client writes and flushes its whole request before it reads anything (client/server.go: 211-218, 274-281, 735-750,
1279-1305 and all other operations in the same way); a `Write` on the connection waits until all bytes have been taken
over.  The server reads on only after it has written the reply to the request before (server/server.go:493-515; so does
memcached).
-/

namespace Verif
namespace Flow

/-- The server side of the connection: given what it has read and not yet consumed, the reply to the first request in
it, its state afterwards and what is left of the input; `none` when there is no complete request.
(server/server.go:493-515: `readRequest`, `ServeRequest`, `writeResponse`.) -/
structure Peer (σ : Type) where
  next : σ → Bytes → Option (Bytes × σ × Bytes)

/-- `up`: how many bytes can be on the way to the server (kernel buffers of both sides), `down`: how many to the
client, `ahead`: how many bytes the server reads at once (server/server.go:74: a `bufio.Reader` of 4096 bytes). -/
structure Room where
  up : Nat
  down : Nat
  ahead : Nat

/-- The operation under way.  `toSend`: what the client has still to write; `up`, `down`: bytes on the way; `got`: what
the server has read and not consumed; `owed`: what it has still to write of the reply it is at; `heard`: what the client
has read. -/
structure Net (σ : Type) where
  toSend : Bytes
  up : Bytes
  got : Bytes
  srv : σ
  owed : Bytes
  down : Bytes
  heard : Bytes

variable {σ : Type}

/-- The operation begins: request `w`, a server in state `s` that waits for a request, nothing on the way. -/
def start (s : σ) (w : Bytes) : Net σ := ⟨w, [], [], s, [], [], []⟩

/-- What can happen next. -/
inductive Step (P : Peer σ) (R : Room) : Net σ → Net σ → Prop where
  /-- The client's `Write` gets a byte into the connection. (client/server.go:211-216 and so on.) -/
  | send (n : Net σ) (x : UInt8) (t : Bytes) : n.toSend = x :: t → n.up.length < R.up →
      Step P R n { n with toSend := t, up := n.up ++ [x] }
  /-- The server, which has nothing to write and no complete request, reads some bytes. (server/server.go:495.) -/
  | take (n : Net σ) (a b : Bytes) : n.up = a ++ b → a ≠ [] → a.length ≤ R.ahead → n.owed = [] →
      P.next n.srv n.got = none → Step P R n { n with up := b, got := n.got ++ a }
  /-- It handles a request it has read completely. (server/server.go:495, 500, 508-515.) -/
  | handle (n : Net σ) (o : Bytes) (s : σ) (rest : Bytes) : n.owed = [] → P.next n.srv n.got = some (o, s, rest) →
      Step P R n { n with srv := s, got := rest, owed := o }
  /-- It gets a byte of the reply into the connection. (server/server.go:517-735, `connBuf.Flush`.) -/
  | reply (n : Net σ) (x : UInt8) (t : Bytes) : n.owed = x :: t → n.down.length < R.down →
      Step P R n { n with owed := t, down := n.down ++ [x] }
  /-- The client, which has written its request, reads. (client/server.go:218-240 and so on.) -/
  | hear (n : Net σ) (x : UInt8) (t : Bytes) : n.toSend = [] → n.down = x :: t →
      Step P R n { n with down := t, heard := n.heard ++ [x] }

/-- States the operation can get to. -/
inductive Reach (P : Peer σ) (R : Room) (n0 : Net σ) : Net σ → Prop where
  | start : Reach P R n0 n0
  | step {n n' : Net σ} : Reach P R n0 n → Step P R n n' → Reach P R n0 n'

end Flow
end Verif
