import Verif.Mc.Binary
import Verif.Spec.Many
/-! Several clients with a connection each to one memcached server. -/

namespace Verif
namespace Mc
open Kv Spec

/-- What a client holds: the number of calls it has made, its recycled request headers and the bytes of replies
not read yet.  (client/server.go:1143-1183; for text and meta clients only the bytes, which are always none
here.) -/
structure Held where
  calls : Nat := 0
  pool : List Bin.ReqHdr := []
  unread : Bytes := []
  deriving Repr

/-- The server and the clients. -/
structure Shared (C : Type) where
  store : Store
  held : C → Held

/-- One call of client `c`: `ch` is its `sync.Pool`.  `none` when the client is left waiting or out of step.
(client/server.go:198-632 text, 701-1130 meta, 1212-1738 binary, against the environment.) -/
def turn {C : Type} [DecidableEq C] (te : Entry → Bytes) (ch : C → McBin.Chooser) (proto : C → Proto) (w : Shared C)
    (t : Turn C) : Option (Res Out × Shared C) :=
  let h := w.held t.client
  match proto t.client with
  | .text name => (exchange (textCall name t.op) w.store).map fun r => (r.1, { w with store := r.2 })
  | .metap => (exchange (metaCall t.op) w.store).map fun r => (r.1, { w with store := r.2 })
  | .binary =>
    let h1 := ch t.client (2 * h.calls) h.pool
    let pool1 := h.pool ++ [(McBin.opOf t.op).put1 h1]
    let h2 := ch t.client (2 * h.calls + 1) pool1
    (McBin.exchange te (binCall h1 h2 t.op) w.store h.unread).map fun r =>
      (r.1, { store := r.2.1
              held := fun c => if c = t.client then
                  { calls := h.calls + 1, pool := pool1 ++ (McBin.opOf t.op).put2 h2, unread := r.2.2 }
                else w.held c })

/-- A whole history: what every call meets on the server and returns, and the state in the end.
(client/server.go against the environment.) -/
def sharedRun {C : Type} [DecidableEq C] (te : Entry → Bytes) (ch : C → McBin.Chooser) (proto : C → Proto) :
    Shared C → List (Turn C) → Option (List (Store × Res Out) × Shared C)
  | w, [] => some ([], w)
  | w, t :: rest =>
    let w1 := { w with store := w.store.tick t.delay }
    match turn te ch proto w1 t with
    | none => none
    | some (res, w2) => (sharedRun te ch proto w2 rest).map fun q => ((w1.store, res) :: q.1, q.2)

end Mc
end Verif
