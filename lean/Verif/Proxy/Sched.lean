import Verif.Cluster.Sched
import Verif.Proxy.Replica
import Verif.Server.Accept
/-!
The router as one process (cmd/router/main.go:51-63): the server of `Server/Accept` with any number of
client connections, whose handler is the `ReplicaProxy` (proxy/replica_pool.go), whose methods make
calls on the connections to the memcached servers.  `ServeRequest` holds no lock: it is called by the
goroutines of all client connections at once, and between two of its calls on memcached connections
anything else may happen.  As in `Cluster/Sched` one call on a memcached connection is one step
(client/server.go, `mu`; see C30).
-/

namespace Verif
namespace Proxy
open Pool Cluster Kv Spec

variable {S : Type} [DecidableEq S]

/-- `ServeRequest` in progress: the pool method it is in, and what it returns when that returns.
(proxy/replica_pool.go:20-49.) -/
structure Task (S : Type) where
  prog : Prog S
  finish : Res Out → Res (List Srv.Response)

/-- proxy/replica_pool.go:23-30. -/
def afterGet : Res Out → Res (List Srv.Response)
  | .ok (.item i) => .ok [{ key := i.key, value := i.value }]
  | .ok _ => .panic
  | .err e => failed e
  | .panic => .panic

/-- proxy/replica_pool.go:39-45. -/
def afterSet : Res Out → Res (List Srv.Response)
  | .ok _ => .ok [{}]
  | .err e => failed e
  | .panic => .panic

/-- `ServeRequest` just called, proxy/replica_pool.go:20-49. -/
def begin (H : Hashes) (r : ReplicaPool S) (req : Srv.Request) : Task S :=
  if req.opcode = Srv.opGet then ⟨replicaProg H r (.get req.key), afterGet⟩
  else if req.opcode = Srv.opSet then
    match req.setOpt with
    | none => ⟨.ret .panic, fun _ => .panic⟩
    | some o => ⟨replicaProg H r (.set (itemOf req o)), afterSet⟩
  else ⟨.ret (.ok .done), fun _ => .err errUnknown⟩

/-- The memcached servers, and for each client connection the call of `ServeRequest` its goroutine is
in.  `calls` counts the calls made on memcached servers (a history variable).
(cmd/router/main.go:51-60.) -/
structure Desk (S : Type) where
  world : World S
  tasks : Nat → Option (Task S)
  calls : Nat

/-- No request yet. (cmd/router/main.go:51-60.) -/
def Desk.init (w : World S) : Desk S := ⟨w, fun _ => none, 0⟩

/-- The router's handler used by the goroutines of all connections at once: proxy/replica_pool.go:20-49,
cluster/cluster.go:30-32, 56-64.  `step`: some seconds pass, or one of the calls of `ServeRequest` makes
its next call on a memcached connection. -/
def process (H : Hashes) (r : ReplicaPool S) : Srv.Accept.Concurrent (Desk S) where
  call d c req := { d with tasks := fun x => if x = c then some (begin H r req) else d.tasks x }
  step d d' :=
    (∃ n, d' = { d with world := World.tick d.world n })
    ∨ ∃ c s op f fin, d.tasks c = some ⟨.call s op f, fin⟩ ∧
        d' = { world := (callStep s op d.world).2
               tasks := fun x => if x = c then some ⟨f (callStep s op d.world).1, fin⟩ else d.tasks x
               calls := d.calls + 1 }
  ret d c x d' := ∃ y fin, d.tasks c = some ⟨.ret y, fin⟩ ∧ x = fin y ∧
    d' = { d with tasks := fun z => if z = c then none else d.tasks z }

end Proxy
end Verif
