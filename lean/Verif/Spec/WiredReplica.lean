import Verif.Spec.WiredBreak
/-!
C87: methods of `ReplicaPool` over connections that may break, as seen by their callers and by the primaries.
C88: the same with connections that are replaced by Reconnect.
-/

namespace Verif
namespace Spec
open Kv Mc Pool Cluster

variable {S M : Type} [DecidableEq S]

/-- The primaries; the methods in progress, with their results once they have been carried out; which connections are
broken; for each connection to a primary the calls that failed and may still be carried out. -/
structure Torn (S : Type) where
  world : World S
  calls : Nat → Option (Op × Option (Res Out))
  broken : Nat → S → Prop
  adrift : Nat → S → List Op

/-- Nothing has been called. -/
def Torn.start (w : World S) : Torn S := ⟨w, fun _ => none, fun _ _ => False, fun _ _ => []⟩

/-- Not a Get. -/
def changing : Op → Bool
  | .get _ => false
  | _ => true

/-- One step: every method is carried out at one moment by the primary `p k` of its key `k` (`run`) and then returns
its result; it may return an error instead (`lose`) if the connection of its process to the primary is broken, or, if it
has changed something, the one to the secondary `q k`; and an Increment or Decrement may return ItemNotFound although it was
carried out if the key is gone from the primary before it returns (`misses`).  If it has not been carried out, it may return an error only if
the connection to the primary is broken (`fail`); then its request is adrift and may be carried out later (`late`), in
order with others on the same connection, or never.  With `again`, a broken connection may be replaced by one that is not
(`mends`); requests that are adrift may still be carried out after that, and their order is not fixed. -/
inductive TornStep (again : Bool) (p q : Bytes → S) (proc : Nat → Nat) : Torn S → Deed S Op → Torn S → Prop where
  | tick (z : Torn S) (d : Nat) : TornStep again p q proc z (.ev (.tick d)) { z with world := World.tick z.world d }
  | start (z : Torn S) (i : Nat) (o : Op) : z.calls i = none →
      TornStep again p q proc z (.ev (.start i o)) { z with calls := fun j => if j = i then some (o, none) else z.calls j }
  | finish (z : Torn S) (i : Nat) (o : Op) (r : Res Out) : z.calls i = some (o, some r) →
      TornStep again p q proc z (.ev (.finish i r)) { z with calls := fun j => if j = i then none else z.calls j }
  | breaks (z : Torn S) (c : Nat) (s : S) :
      TornStep again p q proc z (.breaks c s) { z with broken := fun c' s' => z.broken c' s' ∨ c' = c ∧ s' = s }
  | run (z : Torn S) (i : Nat) (o : Op) : z.calls i = some (o, none) →
      TornStep again p q proc z (.run i)
        { z with world := (atOnce p z.world o).2
                 calls := fun j => if j = i then some (o, some (atOnce p z.world o).1) else z.calls j }
  | lose (z : Torn S) (i : Nat) (o : Op) (k : Bytes) (res : Res Out) : z.calls i = some (o, some res) → o.key? = some k →
      z.broken (proc i) (p k) ∨ (z.broken (proc i) (q k) ∧ changing o = true ∧ ∃ x, res = .ok x) →
      TornStep again p q proc z (.lose i) { z with calls := fun j => if j = i then some (o, some (.err .io)) else z.calls j }
  | misses (z : Torn S) (i : Nat) (o : Op) (k : Bytes) (n : Int) : z.calls i = some (o, some (.ok (.num n))) → o.key? = some k → IsArith o →
      (z.world (p k)).find k = none →
      TornStep again p q proc z (.lose i) { z with calls := fun j => if j = i then some (o, some (.err .itemNotFound)) else z.calls j }
  | fail (z : Torn S) (i : Nat) (o : Op) (k : Bytes) : z.calls i = some (o, none) → o.key? = some k →
      z.broken (proc i) (p k) →
      TornStep again p q proc z (.fail i)
        { z with calls := fun j => if j = i then some (o, some (.err .io)) else z.calls j
                 adrift := fun c s => if c = proc i ∧ s = p k then z.adrift c s ++ [o].filter changing else z.adrift c s }
  | mends (z : Torn S) (c : Nat) (s : S) : again = true → z.broken c s →
      TornStep again p q proc z (.mends c s) { z with broken := fun c' s' => z.broken c' s' ∧ ¬ (c' = c ∧ s' = s) }
  | late (z : Torn S) (c : Nat) (s : S) (o : Op) (l1 l2 : List Op) : z.adrift c s = l1 ++ o :: l2 → (again = false → l1 = []) →
      TornStep again p q proc z (.late c s)
        { z with world := (atOnce p z.world o).2
                 adrift := fun c' s' => if c' = c ∧ s' = s then l1 ++ l2 else z.adrift c' s' }

/-- Any number of steps. -/
inductive TornRun (again : Bool) (p q : Bytes → S) (proc : Nat → Nat) (z0 : Torn S) : List (Deed S Op) → Torn S → Prop where
  | nil : TornRun again p q proc z0 [] z0
  | snoc {l : List (Deed S Op)} {x : Deed S Op} {z z' : Torn S} : TornRun again p q proc z0 l z → TornStep again p q proc z x z' →
      TornRun again p q proc z0 (l ++ [x]) z'

/-! ### Both copies -/

/-- What a call that changes key `k` leaves there: the item it stores, without an expiration time, or nothing. -/
def LeavesBehind (k : Bytes) (o : Op) (st : Store) : Prop :=
  (∃ it e, stored? o = some it ∧ st.find k = some e ∧ e.value = it.value ∧ e.flags = metaFlagsOf it ∧ e.expiry = none)
    ∨ (o = .delete k ∧ st.find k = none)

/-- The call stores without an expiration time (Set, Add, Replace), or deletes `k`. -/
def KeepsOrDrops (k : Bytes) (o : Op) : Prop :=
  (∃ it, stored? o = some it ∧ it.expiration = 0) ∨ o = .delete k

/-- The call does not remove key `k`, now or later: it is a Get, an Increment or Decrement, or it stores without an
expiration time. -/
def Retains (o : Op) : Prop :=
  (∃ it, stored? o = some it ∧ it.expiration = 0) ∨ (∃ k, o = .get k) ∨ (∃ k d e, o = .increment k d e) ∨ ∃ k d e, o = .decrement k d e

/-- Key `k` is on the server, without an expiration time. -/
def Endures (k : Bytes) (st : Store) : Prop := ∃ e, st.data k = some e ∧ e.expiry = none

/-- Goroutine `i` has called `o` and not returned from it. -/
def Wired.Under (tr : List (Wired.Ev Op)) (i : Nat) (o : Op) : Prop :=
  ∃ t1 t2, tr = t1 ++ .start i o :: t2 ∧ ∀ r, .finish i r ∉ t2

/-- Goroutine `i` has called `o`, which has returned `r`. -/
def Wired.Answered (tr : List (Wired.Ev Op)) (i : Nat) (o : Op) (r : Res Out) : Prop :=
  ∃ t1 t2, tr = t1 ++ .finish i r :: t2 ∧ Wired.Under t1 i o

/-- The server holds what one of the calls of `tr` that change key `k` leaves there. -/
def Wired.ByCall (tr : List (Wired.Ev Op)) (k : Bytes) (st : Store) : Prop :=
  ∃ i o, .start i o ∈ tr ∧ o.key? = some k ∧ changing o = true ∧ LeavesBehind k o st

/-! ### What is read -/

/-- A call that changes key `k` has returned without an error. -/
def Wired.Changed (tr : List (Wired.Ev Op)) (k : Bytes) : Prop :=
  ∃ i o y, Wired.Answered tr i o (.ok y) ∧ o.key? = some k ∧ changing o = true

/-- Some goroutine called Get of `k` after a call that changes `k` had returned without an error, and got `r`. -/
def Wired.ReadAfter (tr : List (Wired.Ev Op)) (k : Bytes) (r : Res Out) : Prop :=
  ∃ t1 t2 t3 j, tr = t1 ++ .start j (.get k) :: t2 ++ .finish j r :: t3 ∧ (∀ r', .finish j r' ∉ t2) ∧ Wired.Changed t1 k

/-- `r` is an item with value and flags given to one of the calls of `tr` for key `k`, or ItemNotFound, and one of them
is Delete. -/
def Wired.OneOfThese (tr : List (Wired.Ev Op)) (k : Bytes) (r : Res Out) : Prop :=
  (∃ it i o it', r = .ok (.item it) ∧ .start i o ∈ tr ∧ o.key? = some k ∧ stored? o = some it'
      ∧ it.key = k ∧ it.value = it'.value ∧ it.flags = some (putBE 4 (metaFlagsOf it')))
    ∨ (r = .err .itemNotFound ∧ ∃ i, .start i (.delete k) ∈ tr)

/-- The same for text clients, which send the first four bytes of the flags. -/
def Wired.OneOfThose (tr : List (Wired.Ev Op)) (k : Bytes) (r : Res Out) : Prop :=
  (∃ it i o it', r = .ok (.item it) ∧ .start i o ∈ tr ∧ o.key? = some k ∧ stored? o = some it'
      ∧ it.key = k ∧ it.value = it'.value ∧ it.flags = some (putBE 4 (flagsOf it')))
    ∨ (r = .err .itemNotFound ∧ ∃ i, .start i (.delete k) ∈ tr)

end Spec
end Verif
