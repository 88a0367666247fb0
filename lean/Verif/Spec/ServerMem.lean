import Verif.Server.Memory
import Verif.Spec.Result
/-!
C78: what the requests handed to a handler are made of.
-/

namespace Verif
namespace Spec
open Mem Mem.Srv Verif.Srv

/-- The slices of a request. -/
def slicesOf (q : MRequest) : List Slice := q.flags.toList ++ q.value.toList

/-- The arrays they lie in. -/
def arraysOf (q : MRequest) : List Nat := (slicesOf q).map (·.arr)

/-- A client connection of the server: how far its reader is (`sock`, the memory of which is that of the server), the
protocol once it is known, and all the bytes the client sends. -/
structure Link where
  sock : MSock
  proto : Option Protocol
  sent : Bytes

/-- A server at work: its memory, its connections, the requests it has handed to the handler, each with the number of its
connection and with what was in it when it was handed over, and what anybody has written into memory: array, position,
number of bytes. -/
structure Office where
  mem : Memory
  links : Nat → Option Link
  given : List (Nat × MRequest × Request)
  dirty : List (Nat × Nat × Nat)

/-- The reader of a connection with the memory there is now. -/
def Office.at (o : Office) (k : Link) : MSock := { k.sock with mem := o.mem }

/-- Setting one place of a function. -/
def setAt {α : Type} (f : Nat → α) (i : Nat) (x : α) : Nat → α := fun j => if j = i then x else f j

/-- A server and its handler at work, from an empty memory on.  Connections are accepted, each with a new buffer of 4096
bytes (and an array `hdr` the server has no use for); `net` are all the bytes the client will send, in pieces of any
sizes.  Requests are read on any of the connections, or reading fails and the connection is given up.  In between
anybody may make new arrays and write whatever they like into any array but the buffers of open connections. -/
inductive Serving : Office → Prop where
  | start : Serving ⟨[], fun _ => none, [], []⟩
  | accept {o : Office} (i : Nat) (net : Bytes) (cuts : Nat → Nat) : Serving o → o.links i = none →
      (∀ g ∈ o.given, g.1 ≠ i) →
      Serving { o with
        mem := o.mem ++ [List.replicate bufSize 0] ++ [List.replicate 24 0]
        links := setAt o.links i (some ⟨⟨[], o.mem.length, o.mem.length + 1, 0, 0, net, cuts, 0⟩, none, net⟩) }
  | request {o : Office} (i : Nat) (k : Link) (p : Protocol) (q : MRequest) (c : MSock) : Serving o →
      o.links i = some k → readRequest k.proto (o.at k) = (.ok (p, q), c) →
      Serving { o with
        mem := c.mem
        links := setAt o.links i (some ⟨c, some p, k.sent⟩)
        given := o.given ++ [(i, q, q.seen c.mem)] }
  | gone {o : Office} (i : Nat) (k : Link) (r : Res (Protocol × MRequest)) (c : MSock) : Serving o →
      o.links i = some k → readRequest k.proto (o.at k) = (r, c) → (∀ x, r ≠ .ok x) →
      Serving { o with mem := c.mem, links := setAt o.links i none }
  | make {o : Office} (bs : Bytes) : Serving o → Serving { o with mem := o.mem ++ [bs] }
  | write {o : Office} (a pos : Nat) (bs : Bytes) : Serving o → a < o.mem.length →
      pos + bs.length ≤ (array o.mem a).length → (∀ i k, o.links i = some k → a ≠ k.sock.arr ∧ a ≠ k.sock.hdr) →
      Serving { o with mem := Mem.write o.mem a pos bs, dirty := (a, pos, bs.length) :: o.dirty }

/-- Nobody has written into the bytes of the request. -/
def Clean (o : Office) (q : MRequest) : Prop :=
  ∀ s ∈ slicesOf q, ∀ a pos n, (a, pos, n) ∈ o.dirty → a = s.arr → pos + n ≤ s.off ∨ s.off + s.len ≤ pos

/-- The requests `rs` are the first ones of the stream `i`; `rest` is behind them. -/
inductive Took : Option Protocol → Bytes → List Request → Option Protocol → Bytes → Prop where
  | none (p : Option Protocol) (i : Bytes) : Took p i [] p i
  | more {p p' : Option Protocol} {i rest rest' : Bytes} {rs : List Request} {q : Protocol} {r : Request} :
      Took p i rs p' rest → Verif.Srv.readRequest p' rest = (.ok (q, r), rest') → Took p i (rs ++ [r]) (some q) rest'

/-- What has been handed to the handler from connection `i`. -/
def Office.from (o : Office) (i : Nat) : List Request := (o.given.filter (·.1 == i)).map (·.2.2)

/-- The item the router makes of a Set. (proxy/replica_pool.go:35-41.) -/
def forwarded (q : MRequest) (value : Slice) (expiration : Int) (cas : Nat) : MItem :=
  { key := q.key, value := value, flags := q.flags, expiration := expiration, cas := cas }

end Spec
end Verif
