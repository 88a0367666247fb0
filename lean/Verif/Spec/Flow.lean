import Verif.Client.Flow
import Verif.Mc.Session
import Verif.Mc.Binary
import Verif.Server.Serve
import Verif.Spec.Converse
/-!
What can be said of an operation on a connection that holds only so many bytes.
-/

namespace Verif
namespace Flow
open Kv Srv

variable {σ : Type}

/-- `o` are the replies to the complete requests in `i`, handled one after the other from `s` on; the server is then in
state `s'`, `rest` is left of the input. -/
inductive Replies (P : Peer σ) : σ → Bytes → Bytes → σ → Bytes → Prop where
  | done (s : σ) (i : Bytes) : Replies P s i [] s i
  | more {s s1 s' : σ} {i i1 o o1 rest : Bytes} : P.next s i = some (o1, s1, i1) → Replies P s1 i1 o s' rest →
      Replies P s i (o1 ++ o) s' rest

/-- Requests have an end that does not depend on what follows, and are not empty. -/
structure Framed (P : Peer σ) : Prop where
  append : ∀ s i o s' rest more, P.next s i = some (o, s', rest) → P.next s (i ++ more) = some (o, s', rest ++ more)
  shorter : ∀ s i o s' rest, P.next s i = some (o, s', rest) → rest.length < i.length

/-- Nothing can happen any more. -/
def Stuck (P : Peer σ) (R : Room) (n : Net σ) : Prop := ∀ n', ¬ Step P R n n'

/-- The operation is through: the request has been sent and taken, the server waits for the next one, the client has
all replies. -/
def Through (P : Peer σ) (s : σ) (w : Bytes) (n : Net σ) : Prop :=
  n.toSend = [] ∧ n.up = [] ∧ n.owed = [] ∧ n.down = [] ∧ P.next n.srv n.got = none ∧ Replies P s w n.heard n.srv n.got

/-- Client and server wait for each other: the client wants to write, the server too, neither reads. -/
def Locked (R : Room) (n : Net σ) : Prop :=
  n.toSend ≠ [] ∧ n.up.length = R.up ∧ n.owed ≠ [] ∧ n.down.length = R.down ∧ n.heard = []

/-- There is room for a byte in each direction, and the server reads at least one at a time. -/
def Room.Some (R : Room) : Prop := 0 < R.up ∧ 0 < R.down ∧ 0 < R.ahead

/-- A memcached server spoken to in the text or the meta protocol (environment, not code of /repo). -/
def memcached : Peer Store := ⟨Mc.step⟩

/-- A memcached server spoken to in the binary protocol; `te` are the extras of the reply to a Touch.
(Environment, not code of /repo.) -/
def memcachedBinary (te : Entry → Bytes) : Peer Store :=
  ⟨fun s i => match McBin.readReq i with
    | (.ok (some r), rest) => some ((McBin.exec te s r).1, (McBin.exec te s r).2, rest)
    | _ => none⟩

/-- This repository's server with a handler (server/server.go:493-515); its state is the protocol of the connection and
that of the handler.  (Where it would close the connection it just does not go on here.) -/
def server (h : Handler σ) : Peer (Option Protocol × σ) :=
  ⟨fun s i => match readRequest s.1 i with
    | (.ok (q, req), rest) =>
      match h s.2 req with
      | (.ok res, s') =>
        match writeResponse q req res with
        | .ok b => some (b, (some q, s'), rest)
        | _ => none
      | _ => none
    | _ => none⟩

/-- The operation is a `GetMulti` of a meta or binary client: the only ones that send several requests. -/
def Batch : Spec.Proto → Spec.Op → Prop
  | .metap, .getMulti _ => True
  | .binary, .getMulti _ => True
  | _, _ => False

end Flow
end Verif
