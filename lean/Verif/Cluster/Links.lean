import Verif.Client.Life
import Verif.Pool.OverMc
import Verif.Cluster.Replica
/-!
Memcached servers together with the connections to them that `cmd/router` makes
(cmd/router/main.go:29-39: `NewServerWithMetaProtocol` without options, so no heartbeat, no automatic
reconnection and no timeouts), where connections can break at any moment.
-/

namespace Verif
namespace Cluster
open Kv Spec Mc Pool Life

/-- A memcached server and the connection to it: what the server holds, whether the connection is
broken, and the client object (client/server.go:634-646). -/
structure Link where
  store : Store
  cut : Bool
  client : Client

/-- What befalls a call on a connection that works: nothing; the connection breaks while the request is
written, `k` bytes having been handed to the network; it breaks before the request is carried out; it
breaks after the request was carried out and `n` bytes of the reply (perhaps all) have arrived.
(Environment, not code of /repo.) -/
inductive Weather where
  | fine
  | unsent (k : Nat)
  | lost
  | late (n : Nat)
  deriving DecidableEq, Repr

/-- The reply of the server to the request of a call, and its contents afterwards.  A request that is not
a whole number of commands (which C12 and C52 exclude) gets no reply. (Environment, not code of /repo.) -/
def serverSide (st : Store) (c : Call Out) : Bytes × Store :=
  match c.wire with
  | .ok w =>
    match answer st w with
    | some x => x
    | none => ([], st)
  | _ => ([], st)

/-- What the network does with a call on a broken connection: writing fails, or succeeds (into the
buffers of the operating system) and there is nothing to read. (Environment, not code of /repo.) -/
def deadFate : Weather → Fate
  | .unsent k => .broken k
  | _ => .answered []

/-- One call on a meta connection (client/server.go:701-1130, by `Life.op`). -/
def Link.call (l : Link) (x : Weather) (o : Op) : Res Out × Link :=
  if l.cut then
    ((op l.client (metaCall o) (deadFate x)).1, { l with client := (op l.client (metaCall o) (deadFate x)).2 })
  else match x with
  | .fine =>
    ((op l.client (metaCall o) (.answered (serverSide l.store (metaCall o)).1)).1,
      { store := (serverSide l.store (metaCall o)).2, cut := false,
        client := (op l.client (metaCall o) (.answered (serverSide l.store (metaCall o)).1)).2 })
  | .unsent k =>
    ((op l.client (metaCall o) (.broken k)).1,
      { store := l.store, cut := true, client := (op l.client (metaCall o) (.broken k)).2 })
  | .lost =>
    ((op l.client (metaCall o) (.answered [])).1,
      { store := l.store, cut := true, client := (op l.client (metaCall o) (.answered [])).2 })
  | .late n =>
    ((op l.client (metaCall o) (.answered ((serverSide l.store (metaCall o)).1.take n))).1,
      { store := (serverSide l.store (metaCall o)).2, cut := true,
        client := (op l.client (metaCall o) (.answered ((serverSide l.store (metaCall o)).1.take n))).2 })

/-- All servers with their connections, and what will befall the calls to come (`luck 0` the next one).
(Environment, not code of /repo.) -/
structure Sea (S : Type) where
  link : S → Link
  luck : Nat → Weather

variable {S : Type} [DecidableEq S]

/-- Replace the connection to `s`. (Environment.) -/
def Sea.put (w : Sea S) (s : S) (l : Link) : Sea S :=
  { w with link := fun x => if x = s then l else w.link x }

/-- One call on the connection to `s` uses up one element of `luck`. (Environment.) -/
def Sea.call (w : Sea S) (s : S) (o : Op) : Res Out × Sea S :=
  (((w.link s).call (w.luck 0) o).1,
    { link := fun x => if x = s then ((w.link s).call (w.luck 0) o).2 else w.link x
      luck := fun n => w.luck (n + 1) })

/-- Time passes. (Environment.) -/
def Sea.tick (w : Sea S) (d : Nat) : Sea S :=
  { w with link := fun s => { w.link s with store := (w.link s).store.tick d } }

/-- The connection to `s` breaks while it is idle. (Environment.) -/
def Sea.cut (w : Sea S) (s : S) : Sea S := w.put s { w.link s with cut := true }

/-- The server `s` stops, which breaks the connection, and is started again with contents `st`.
(Environment.) -/
def Sea.restart (w : Sea S) (s : S) (st : Store) : Sea S := w.put s { w.link s with store := st, cut := true }

/-- The router has just connected to servers with contents `st` (cmd/router/main.go:29-39). -/
def Sea.dialled (st : S → Store) (luck : Nat → Weather) : Sea S :=
  ⟨fun s => ⟨st s, false, new .metap false⟩, luck⟩

/-- The value a method of the client returns, from the result of the operation. (Auxiliary.) -/
def taken {α : Type} (out : Out → Option α) : Res Out → Res α
  | .ok x => match out x with | some a => .ok a | none => .panic
  | .err e => .err e
  | .panic => .panic

/-- A call of a pool on the connection to `s`, its result taken apart by `out`.
(client/server.go: one of the operations, against the environment.) -/
def onLink {α : Type} (s : S) (o : Op) (out : Out → Option α) : Act (Sea S) α := fun w =>
  (taken out (w.call s o).1, (w.call s o).2)

/-- The connections as servers of a pool. (client/server.go:87-102.  Version and Close are not used by
the router and not modelled here.) -/
def linkOps (s : S) : ServerOps (Sea S) where
  get k := onLink s (.get k) outItem
  getMulti ks := onLink s (.getMulti ks) outItems
  set i := onLink s (.set i) outDone
  add i := onLink s (.add i) outDone
  replace i := onLink s (.replace i) outDone
  delete k := onLink s (.delete k) outDone
  increment k d e := onLink s (.increment k d e) outNum
  decrement k d e := onLink s (.decrement k d e) outNum
  touch k e := onLink s (.touch k e) outDone
  flush := onLink s .flush outDone
  version := Act.lift (.ok b!"1.6.0")
  close := Act.lift (.ok ())

/-- Servers reached over such connections. (client/client.go:27-35, cluster/cluster.go:12-28.) -/
def linkEnv (H : Hashes) (name : S → Bytes) : Env S (Sea S) where
  H := H
  name := name
  ops := linkOps

end Cluster
end Verif
