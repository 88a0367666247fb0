import Verif.Pool.Single
/-!
`ReplicaPool` (cluster/cluster.go:1-130) over arbitrary servers.
-/

namespace Verif
namespace Cluster
open Pool

variable {S W : Type}

/-- `ReplicaPool`, cluster/cluster.go:7-10.  `NewReplicaPool` (12-28) makes each ring with
`NewRing` from the servers of the role. -/
structure ReplicaPool (S : Type) where
  primary : Ring S
  secondary : Ring S

/-- `Get`, cluster/cluster.go:30-32. -/
def get (E : Env S W) (r : ReplicaPool S) (key : Bytes) : Act W Item :=
  onPicked E r.primary key (·.get key)

/-- `GetMulti`, cluster/cluster.go:34-54: word for word the method of `SinglePool`, on the
primary ring. -/
def getMulti (E : Env S W) (r : ReplicaPool S)
    (order : List (Bytes × List Bytes) → List (Bytes × List Bytes)) (keys : List Bytes) :
    Act W (List Item) :=
  Pool.getMulti E r.primary order keys

/-- `Set`, cluster/cluster.go:56-62. -/
def set (E : Env S W) (r : ReplicaPool S) (item : Item) : Act W Unit := do
  onPicked E r.primary item.key (·.set item)
  onPicked E r.secondary item.key (·.set item)

/-- `Add`, cluster/cluster.go:64-70: the secondary gets a `Set`. -/
def add (E : Env S W) (r : ReplicaPool S) (item : Item) : Act W Unit := do
  onPicked E r.primary item.key (·.add item)
  onPicked E r.secondary item.key (·.set item)

/-- `Replace`, cluster/cluster.go:72-78: the secondary gets a `Set`. -/
def replace (E : Env S W) (r : ReplicaPool S) (item : Item) : Act W Unit := do
  onPicked E r.primary item.key (·.replace item)
  onPicked E r.secondary item.key (·.set item)

/-- `Delete`, cluster/cluster.go:80-86. -/
def delete (E : Env S W) (r : ReplicaPool S) (key : Bytes) : Act W Unit := do
  onPicked E r.primary key (·.delete key)
  onPicked E r.secondary key (·.delete key)

/-- The item copied to the secondary, cluster/cluster.go:98-103, 120-125. -/
def copyOf (key : Bytes) (item : Item) : Item :=
  { key := key, value := item.value, expiration := item.expiration, flags := item.flags }

/-- `Increment`, cluster/cluster.go:88-108.  (The number returned together with an error is not
modelled.) -/
def increment (E : Env S W) (r : ReplicaPool S) (key : Bytes) (delta expiration : Int) : Act W Int := do
  let s ← Act.lift (r.primary.pick E.H key)
  let n ← (E.ops s).increment key delta expiration
  let item ← (E.ops s).get key
  onPicked E r.secondary key (·.set (copyOf key item))
  pure n

/-- `Decrement`, cluster/cluster.go:110-130. -/
def decrement (E : Env S W) (r : ReplicaPool S) (key : Bytes) (delta expiration : Int) : Act W Int := do
  let s ← Act.lift (r.primary.pick E.H key)
  let n ← (E.ops s).decrement key delta expiration
  let item ← (E.ops s).get key
  onPicked E r.secondary key (·.set (copyOf key item))
  pure n

end Cluster
end Verif
