import Verif.Cluster.Replica
import Verif.Server.Serve
/-!
`ReplicaProxy` (proxy/replica_pool.go): the handler of the router, which cmd/router/main.go:51-60
connects to a server (server/server.go) and to a `ReplicaPool` (cluster/cluster.go) of meta
connections.
-/

namespace Verif
namespace Proxy
open Pool Cluster

variable {S W : Type}

/-- The type assertion `err.(*merrors.MemcachedError)`, proxy/replica_pool.go:25, 40: the only
values of that type are `ItemNotFound` and `ItemExists` (errors/errors.go:8-11). -/
def isMemcachedError : Err → Bool
  | .itemNotFound => true
  | .itemExists => true
  | _ => false

/-- proxy/replica_pool.go:24-29, 39-44: a `MemcachedError` becomes a response, any other error is
returned. -/
def failed (e : Err) : Res (List Srv.Response) :=
  if isMemcachedError e then .ok [{ error := some e }] else .err e

/-- The item set for a request, proxy/replica_pool.go:32-38, with `o = *req.SetOpt`. -/
def itemOf (req : Srv.Request) (o : Srv.SetOpt) : Item :=
  { key := req.key, value := req.value, flags := req.flags, expiration := o.expiration, cas := o.casValue }

/-- proxy/replica_pool.go:47. -/
def errUnknown : Err := .msg b!"proxy: unknown opcode"

/-- `ServeRequest`, proxy/replica_pool.go:20-49. -/
def serveRequest (E : Env S W) (r : ReplicaPool S) : Srv.Handler W := fun w req =>
  if req.opcode = Srv.opGet then
    match Cluster.get E r req.key w with
    | (.ok i, w') => (.ok [{ key := i.key, value := i.value }], w')
    | (.err e, w') => (failed e, w')
    | (.panic, w') => (.panic, w')
  else if req.opcode = Srv.opSet then
    match req.setOpt with
    | none => (.panic, w)
    | some o =>
      match Cluster.set E r (itemOf req o) w with
      | (.ok _, w') => (.ok [{}], w')
      | (.err e, w') => (failed e, w')
      | (.panic, w') => (.panic, w')
  else (.err errUnknown, w)

end Proxy
end Verif
