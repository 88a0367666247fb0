import Verif.Mc.Session
/-!
The life of a client connection: `New…`, operations, `Close`, `Reconnect`
(client/server.go:134-196, 634-699, 1130-1210), one call at a time.  (`Client/Sched.lean` has the calls of
several goroutines interleaved.)
-/

namespace Verif
namespace Life
open Spec

/-- Which of the three clients. (client/server.go:119, 634, 1136.) -/
inductive Kind where
  | text
  | metap
  | binary
  deriving DecidableEq, Repr

/-- A network connection that was dialled, with the `bufio.ReadWriter` on it: whether this side has not
closed it, the bytes that the peer got, the bytes from the peer that were not read yet, and whether the
`bufio.Writer` has met an error (which it then returns for ever). -/
structure Net where
  isOpen : Bool := true
  sent : Bytes := []
  inbox : Bytes := []
  werr : Bool := false
  deriving DecidableEq, Repr

/-- The client object.  `raw` says whether the field `raw` is non-nil; the fields `raw` and `conn` are
always assigned together (client/server.go:151-152, 193-194), so when it is non-nil it is the connection
`net` below the `bufio.ReadWriter`.  `closeCh` says whether the channel is non-nil, `timeout` whether
`Timeout ≠ 0`.  `old` are the connections dialled before, oldest first. -/
structure Client where
  kind : Kind
  timeout : Bool
  raw : Bool
  closeCh : Bool
  net : Net
  old : List Net
  deriving DecidableEq, Repr

/-- `NewServerWithTextProtocol` etc. with a successful dial, client/server.go:134-160, 648-674,
1152-1184 (the heartbeat goroutine is modelled in `Client/Heartbeat.lean`). -/
def new (kind : Kind) (timeout : Bool) : Client := ⟨kind, timeout, true, true, {}, []⟩

/-- What the network does with a request: the peer gets it and answers (with arbitrary bytes, perhaps too
few), or writing fails after some bytes. -/
inductive Fate where
  | answered (reply : Bytes)
  | broken (k : Nat)
  deriving DecidableEq, Repr

/-- `errors.New("memcached: closed")`, client/server.go:203 and alike. -/
def errClosed : Err := .msg b!"memcached: closed"
/-- `errors.New("memcached: already closed")`, client/server.go:168. -/
def errAlready : Err := .msg b!"memcached: already closed"

/-- The request and the reply on the buffered connection.  Writing to a connection closed by this side
fails without sending. (The common part of the operations, e.g. client/server.go:211-257.) -/
def talk (n : Net) (w : Bytes) (rd : Rd Out) (f : Fate) : Res Out × Net :=
  if n.isOpen = false ∨ n.werr = true then (.err .io, { n with werr := true })
  else match f with
    | .broken k => (.err .io, { n with sent := n.sent ++ w.take k, werr := true })
    | .answered reply =>
      ((rd (n.inbox ++ reply)).1, { n with sent := n.sent ++ w, inbox := (rd (n.inbox ++ reply)).2 })

/-- An operation: the check for a closed connection of the text client (client/server.go:202-204 and
alike), the deadlines (206-209: `s.raw` is dereferenced), then the request and the reply. -/
def op (cl : Client) (c : Call Out) (f : Fate) : Res Out × Client :=
  if cl.kind = .text ∧ cl.raw = false then (.err errClosed, cl)
  else if cl.timeout = true ∧ cl.raw = false then (.panic, cl)
  else match c.wire with
    | .err e => (.err e, cl)
    | .panic => (.panic, cl)
    | .ok w => ((talk cl.net w c.rd f).1, { cl with net := (talk cl.net w c.rd f).2 })

/-- `net.Conn.Close`: an error when the connection was closed before. -/
def closeNet (n : Net) : Res Out := if n.isOpen then .ok .done else .err .io

/-- The connection after that. (net.Conn.) -/
def Net.shut (n : Net) : Net := { n with isOpen := false }

/-- `Close` of the text client, client/server.go:166-176, and of the others, 1132-1134, 1740-1742. -/
def close (cl : Client) : Res Out × Client :=
  match cl.kind with
  | .text =>
    if cl.closeCh = false then (.err errAlready, cl)
    else if cl.raw = false then (.panic, cl)
    else (closeNet cl.net, { cl with net := cl.net.shut, raw := false, closeCh := false })
  | _ =>
    if cl.raw = false then (.panic, cl)
    else (closeNet cl.net, { cl with net := cl.net.shut })

/-- The end of `Reconnect`, client/server.go:188-195: dial (which succeeds or not) and take the new
connection. -/
def redial (cl : Client) (dial : Bool) : Res Out × Client :=
  if dial then (.ok .done, { cl with raw := true, net := {}, old := cl.old ++ [cl.net] })
  else (.err .io, cl)

/-- `Reconnect`, client/server.go:178-196, 681-699, 1192-1210 (the same code three times). -/
def reconnect (cl : Client) (dial : Bool) : Res Out × Client :=
  if cl.raw = false then redial cl dial
  else match closeNet cl.net with
    | .ok _ => redial { cl with net := cl.net.shut } dial
    | _ => (.err .io, { cl with net := cl.net.shut })

/-- A call made by the user of the client, with what the network does.
(The methods of client/server.go:119-1742.) -/
inductive Ev where
  | op (c : Call Out) (f : Fate)
  | close
  | reconnect (dial : Bool)

/-- One call. (client/server.go:119-1742.) -/
def step (cl : Client) : Ev → Res Out × Client
  | .op c f => op cl c f
  | .close => close cl
  | .reconnect d => reconnect cl d

/-- A history of calls: the results, and the client at the end. (client/server.go:119-1742.) -/
def run (cl : Client) : List Ev → List (Res Out) × Client
  | [] => ([], cl)
  | e :: es => ((step cl e).1 :: (run (step cl e).2 es).1, (run (step cl e).2 es).2)

end Life
end Verif
