import Verif.Spec.Sharding
import Verif.Cluster.Replica
import Verif.Pool.OverMc
/-!
When the two copies kept by a replica pool agree.
-/

namespace Verif
namespace Spec
open Kv Pool

variable {S : Type} [DecidableEq S]

/-- Every key has the same value, flags and expiry on its primary and its secondary (or is on
neither). -/
def Agree (H : Hashes) (r : Cluster.ReplicaPool S) (w : World S) : Prop :=
  ∀ k p q, r.primary.pick H k = .ok p → r.secondary.pick H k = .ok q → SameEntry ((w p).find k) ((w q).find k)

/-- Servers within memcached's limits, with synchronised clocks, and with tokens left for `n` more
changes. -/
def Healthy (w : World S) (n : Nat) : Prop :=
  (∀ s, GoodMetaStore (w s) ∧ (w s).nextCas + n < 2 ^ 63) ∧ ∀ s s', (w s).now = (w s').now

/-- Calls that keep the copies in agreement: Get, Delete, and Set, Add, Replace of items without
token, with arguments memcached accepts. -/
def CopyOp : Op → Prop
  | .get k => Key k
  | .set i => GoodMetaItem i ∧ i.cas = 0
  | .add i => GoodMetaItem i ∧ i.cas = 0
  | .replace i => GoodMetaItem i ∧ i.cas = 0
  | .delete k => Key k
  | _ => False

/-- A replica pool made from two disjoint, non-empty lists of servers. -/
structure TwoRings (H : Hashes) (name : S → Bytes) (primaries secondaries : List S) (r : Cluster.ReplicaPool S) : Prop where
  primary : IsRing H name primaries r.primary
  secondary : IsRing H name secondaries r.secondary
  some1 : primaries ≠ []
  some2 : secondaries ≠ []
  disjoint : ∀ s ∈ primaries, s ∉ secondaries

end Spec
end Verif
