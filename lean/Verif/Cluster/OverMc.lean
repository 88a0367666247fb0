import Verif.Cluster.Replica
import Verif.Pool.OverMc
/-!
`ReplicaPool` over meta connections (the only kind `NewReplicaPool`, cluster/cluster.go:12-28,
takes) to reference memcached servers.
-/

namespace Verif
namespace Cluster
open Kv Spec Mc Pool

variable {S : Type} [DecidableEq S]

/-- The methods of `ReplicaPool` as a function of the operation (cluster/cluster.go:30-130;
there is no Touch and no Flush). -/
def replicaCall (H : Hashes) (name : S → Bytes) (r : ReplicaPool S)
    (order : List (Bytes × List Bytes) → List (Bytes × List Bytes)) (w : World S) : Op → Res Out × World S
  | .get k => actOut .item (get (metaEnv H name) r k) w
  | .getMulti ks => actOut .items (getMulti (metaEnv H name) r order ks) w
  | .set i => actOut (fun _ => .done) (set (metaEnv H name) r i) w
  | .add i => actOut (fun _ => .done) (add (metaEnv H name) r i) w
  | .replace i => actOut (fun _ => .done) (replace (metaEnv H name) r i) w
  | .delete k => actOut (fun _ => .done) (delete (metaEnv H name) r k) w
  | .increment k d e => actOut .num (increment (metaEnv H name) r k d e) w
  | .decrement k d e => actOut .num (decrement (metaEnv H name) r k d e) w
  | .touch _ _ => (.panic, w)
  | .flush => (.panic, w)

/-- A history of calls, some seconds passing before each. (cluster/cluster.go:30-130.) -/
def runReplica (H : Hashes) (name : S → Bytes) (r : ReplicaPool S)
    (order : List (Bytes × List Bytes) → List (Bytes × List Bytes)) :
    World S → List Event → List (Res Out) × World S
  | w, [] => ([], w)
  | w, (d, op) :: rest =>
    let c := replicaCall H name r order (World.tick w d) op
    let q := runReplica H name r order c.2 rest
    (c.1 :: q.1, q.2)

end Cluster
end Verif
