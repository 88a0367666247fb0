import Verif.Cluster.Wired
import Verif.Spec.Linear
/-!
C84: the same goroutines running the same pool methods, if every call on a connection were carried out at one moment
by the server.
-/

namespace Verif
namespace Spec
open Kv Mc Pool Cluster

variable {S M : Type} [DecidableEq S]

/-- The contents of the servers, and the pool methods in progress. -/
structure Moment (S : Type) where
  world : World S
  prog : Nat → Option (Prog S)

/-- What happens: something that can be seen from outside, or goroutine `i` makes its next call on a server. -/
inductive Doings (M : Type) where
  | ev (e : Wired.Ev M)
  | run (i : Nat)

/-- One step: a call on a server is a whole exchange, carried out at once. -/
inductive MomentStep (call : S → Op → Call Out) (method : M → Prog S) : Moment S → Doings M → Moment S → Prop where
  | tick (a : Moment S) (d : Nat) : MomentStep call method a (.ev (.tick d)) { a with world := World.tick a.world d }
  | start (a : Moment S) (i : Nat) (m : M) : a.prog i = none →
      MomentStep call method a (.ev (.start i m)) { a with prog := fun j => if j = i then some (method m) else a.prog j }
  | finish (a : Moment S) (i : Nat) (r : Res Out) : a.prog i = some (.ret r) →
      MomentStep call method a (.ev (.finish i r)) { a with prog := fun j => if j = i then none else a.prog j }
  | run (a : Moment S) (i : Nat) (s : S) (op : Op) (k : Res Out → Prog S) : a.prog i = some (.call s op k) →
      MomentStep call method a (.run i)
        { world := (callOn call s op some a.world).2
          prog := fun j => if j = i then some (k (callOn call s op some a.world).1) else a.prog j }

/-- Any number of steps. -/
inductive MomentRun (call : S → Op → Call Out) (method : M → Prog S) (a0 : Moment S) : List (Doings M) → Moment S → Prop where
  | nil : MomentRun call method a0 [] a0
  | snoc {l : List (Doings M)} {x : Doings M} {a a' : Moment S} : MomentRun call method a0 l a → MomentStep call method a x a' →
      MomentRun call method a0 (l ++ [x]) a'

/-- What can be seen from outside. -/
def visible : List (Doings M) → List (Wired.Ev M)
  | [] => []
  | .ev e :: l => e :: visible l
  | .run _ :: l => visible l

/-- How many calls on servers there are. -/
def runs : List (Doings M) → Nat
  | [] => 0
  | .ev _ :: l => runs l
  | .run _ :: l => runs l + 1

/-- The request is one command of memcached's, to which the server gives a reply that the operation understands. -/
def ProperCall (c : Call Out) (st : Store) : Prop :=
  ∃ w cmd, c.wire = .ok w ∧ readCmd w = (.ok cmd, []) ∧ exchange c st ≠ none

/-- Every goroutine's next call is of that kind. -/
def NextProper (call : S → Op → Call Out) (a : Moment S) : Prop :=
  ∀ i s op k, a.prog i = some (.call s op k) → ProperCall (call s op) (a.world s)

/-- The connection is up. -/
def Wired.Up (w : Wired.State S) : Prop := ∀ p s, (w.line p s).conn.ended = false

/-- The same as seen from outside, except that a goroutine may still wait for (the rest of) the reply to a call that its
server has carried out. -/
structure Matches (w : Wired.State S) (a : Moment S) : Prop where
  world : a.world = w.world
  prog : ∀ i, a.prog i = w.prog i ∨
    ∃ s op k r, w.prog i = some (.call s op k) ∧ a.prog i = some (k r)

/-! ### Getting on -/

/-- The pool methods that were called, by whom. -/
def Wired.starts : List (Wired.Ev M) → List (Nat × M)
  | [] => []
  | .start i m :: l => (i, m) :: Wired.starts l
  | _ :: l => Wired.starts l

/-- Something happens, and it is neither a new call, nor the passing of time, nor the failure of a connection. -/
def Wired.Works (U : Wired.Setup S M) (w w' : Wired.State S) : Prop :=
  ∃ e, Wired.Step U w e w' ∧ (∀ d, e ≠ some (.tick d)) ∧ (∀ i m, e ≠ some (.start i m)) ∧ w' ≠ w ∧ Wired.Up w'

/-- Part of `tr`, or `tr` and then no new calls. -/
def Wired.Upto (tr tr' : List (Wired.Ev M)) : Prop := tr' <+: tr ∨ ∃ more, tr' = tr ++ more ∧ Wired.starts more = []

/-- Every method has returned. -/
def Wired.AllBack (w : Wired.State S) : Prop := ∀ i, w.prog i = none

/-! ### Replica pools -/

/-- Methods of a replica pool in progress: the operation, and its result once it has been carried out. -/
structure Ideal (S : Type) where
  world : World S
  calls : Nat → Option (Op × Option (Res Out))

/-- What a method returns whose result is `res`: that, or, if it is an Increment or a Decrement, ItemNotFound although
it was carried out (the key may be gone when the method looks for what to copy to the secondary). -/
def Returns (o : Op) (res r : Res Out) : Prop :=
  r = res ∨ IsArith o ∧ r = .err .itemNotFound ∧ ∃ n, res = .ok (.num n)

/-- One step: every method is carried out at one moment (`run`), by the primary `p k` of its key `k`. -/
inductive IdealStep (p : Bytes → S) : Ideal S → Doings Op → Ideal S → Prop where
  | tick (z : Ideal S) (d : Nat) : IdealStep p z (.ev (.tick d)) { z with world := World.tick z.world d }
  | start (z : Ideal S) (i : Nat) (o : Op) : z.calls i = none →
      IdealStep p z (.ev (.start i o)) { z with calls := fun j => if j = i then some (o, none) else z.calls j }
  | run (z : Ideal S) (i : Nat) (o : Op) : z.calls i = some (o, none) →
      IdealStep p z (.run i) { world := (atOnce p z.world o).2
                               calls := fun j => if j = i then some (o, some (atOnce p z.world o).1) else z.calls j }
  | finish (z : Ideal S) (i : Nat) (o : Op) (res r : Res Out) : z.calls i = some (o, some res) → Returns o res r →
      IdealStep p z (.ev (.finish i r)) { z with calls := fun j => if j = i then none else z.calls j }

/-- Any number of steps. -/
inductive IdealRun (p : Bytes → S) (z0 : Ideal S) : List (Doings Op) → Ideal S → Prop where
  | nil : IdealRun p z0 [] z0
  | snoc {l : List (Doings Op)} {x : Doings Op} {z z' : Ideal S} : IdealRun p z0 l z → IdealStep p z x z' →
      IdealRun p z0 (l ++ [x]) z'

end Spec
end Verif
