import Verif.Spec.Sharding
import Verif.Cluster.Sched
/-!
The sequential counter concurrent Increments and Decrements are compared with.
-/

namespace Verif
namespace Spec
open Cluster

/-- The goroutines in the order of their first step. -/
def firsts (moves : List Move) : List Nat :=
  moves.foldl (fun acc m => match m with
    | .run i => if i ∈ acc then acc else acc ++ [i]
    | .tick _ => acc) []

/-- The seconds that pass. -/
def elapsed (moves : List Move) : Nat :=
  (moves.map fun m => match m with | .tick d => d | .run _ => 0).sum

/-- One job's effect on the counter `k`: Increment adds, Decrement stops at zero, anything else leaves
it alone. -/
def effect (k : Bytes) (n : Nat) : Op → Nat
  | .increment k' d _ => if k' = k then n + d.toNat else n
  | .decrement k' d _ => if k' = k then n - d.toNat else n
  | _ => n

/-- The counter `k` after the jobs with the given numbers were done one after the other. -/
def counterAfter (jobs : List Op) (k : Bytes) (m : Nat) (order : List Nat) : Nat :=
  order.foldl (fun n i => match jobs[i]? with | some o => effect k n o | none => n) m

/-- What a job may add to the counter `k`. -/
def adds (k : Bytes) : Op → Nat
  | .increment k' d _ => if k' = k then d.toNat else 0
  | _ => 0

/-- Increment or Decrement of `k` by a non-negative amount. -/
def Counts (k : Bytes) : Op → Prop
  | .increment k' d _ => k' = k ∧ 0 ≤ d ∧ InRange 64 d
  | .decrement k' d _ => k' = k ∧ 0 ≤ d ∧ InRange 64 d
  | _ => False

/-- A job that does not change what is stored under `k`: a Get of `k`, or any operation on another key. -/
def Bystander (k : Bytes) : Op → Prop
  | .get k' => Key k'
  | .set i => GoodMetaItem i ∧ i.key ≠ k
  | .add i => GoodMetaItem i ∧ i.key ≠ k
  | .replace i => GoodMetaItem i ∧ i.key ≠ k
  | .delete k' => Key k' ∧ k' ≠ k
  | .increment k' d _ => Key k' ∧ InRange 64 d ∧ k' ≠ k
  | .decrement k' d _ => Key k' ∧ InRange 64 d ∧ k' ≠ k
  | _ => False

end Spec
end Verif
