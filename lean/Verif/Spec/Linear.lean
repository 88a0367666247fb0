import Verif.Spec.Replica
import Verif.Spec.Counter
/-!
What concurrent calls on a replica pool should look like: each call takes effect at one moment, on
the primary of its key, and returns the result of that moment.
-/

namespace Verif
namespace Spec
open Kv Pool Cluster

variable {S : Type} [DecidableEq S]

/-- The operation carried out at once by the server `p k` of its key `k`. -/
def atOnce (p : Bytes → S) (w : World S) (o : Op) : Res Out × World S :=
  match o.key? with
  | some k => ((metaApi (w (p k)) o).1, World.update w (p k) (metaApi (w (p k)) o).2)
  | none => (.panic, w)

/-- Servers, and the results so far. -/
structure Seen (S : Type) where
  world : World S
  results : Nat → Option (Res Out)

/-- One move, if goroutine `i` carried out all of `jobs[i]` in its first step. -/
def Seen.step (p : Bytes → S) (jobs : List Op) (l : Seen S) : Move → Seen S
  | .tick d => { l with world := World.tick l.world d }
  | .run i =>
    match jobs[i]?, l.results i with
    | some o, none =>
      { world := (atOnce p l.world o).2
        results := fun j => if j = i then some (atOnce p l.world o).1 else l.results j }
    | _, _ => l

/-- All moves. -/
def Seen.run (p : Bytes → S) (jobs : List Op) (l : Seen S) (moves : List Move) : Seen S :=
  moves.foldl (Seen.step p jobs) l

/-- Increment and Decrement. -/
def IsArith : Op → Prop
  | .increment _ _ _ => True
  | .decrement _ _ _ => True
  | _ => False

/-- The operations of a replica pool on one key, without cas tokens. -/
def PlainOp : Op → Prop
  | .increment k d _ => Key k ∧ InRange 64 d
  | .decrement k d _ => Key k ∧ InRange 64 d
  | o => CopyOp o

/-- The item given to Set, Add, Replace. -/
def stored? : Op → Option Item
  | .set i => some i
  | .add i => some i
  | .replace i => some i
  | _ => none

/-- Calls that may change key `k`. -/
def Writes (k : Bytes) (o : Op) : Prop := o.key? = some k ∧ ∀ k', o ≠ .get k'

/-- The item expires never, at a given time, or at once: not a number of seconds from now. -/
def Fixed (i : Item) : Prop := i.expiration ≤ 0 ∨ (maxDelta : Int) < i.expiration

/-- Goroutine `i` has begun its call and not returned from it. -/
def Busy (y : Sys S) (moves : List Move) (i : Nat) : Prop :=
  .run i ∈ moves ∧ ∀ res, y.threads[i]? ≠ some (.ret res)

/-- No two calls that write `k` are in progress at the same time, at any moment. -/
def Exclusive (H : Hashes) (r : ReplicaPool S) (w : World S) (jobs : List Op) (k : Bytes) (moves : List Move) : Prop :=
  ∀ pre, pre <+: moves → ∀ (i j : Nat) (oi oj : Op), jobs[i]? = some oi → jobs[j]? = some oj → Writes k oi → Writes k oj →
    Busy ((Sys.start H r w jobs).run pre) pre i → Busy ((Sys.start H r w jobs).run pre) pre j → i = j

end Spec
end Verif
