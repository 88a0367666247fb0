import Verif.Spec.Joint
import Verif.Spec.Shared
import Verif.Spec.Trouble
import Verif.Proxy.Sched
/-!
C83: any number of clients, each shared by goroutines, connected to one router (cmd/router) with its two rings of
memcached servers.
-/

namespace Verif
namespace Spec
open Srv

variable {S : Type} [DecidableEq S]

/-- The client that makes the call. -/
def Use.kind : Use → Life.Kind
  | .textSet _ => .text
  | .metaGet _ | .metaSet _ => .metap
  | .binGet _ _ | .binSet _ _ => .binary

/-- Clients of a router: the calls they make are those it is for, with arguments memcached accepts. -/
def RouterClients {T : Type} (P : Nat → Sched.Params T) : Prop :=
  ∀ c x, (P c).calls x → ∃ u : Use, u.Good ∧ u.kind = (P c).kind ∧ x = u.call

/-- Calls of clients (by number), each some seconds after the one before, carried out one after the other on one shelf
of values: the calls and their results. -/
def played : Shelf → List (Nat × Nat × Use) → List (Nat × Call Out × Res Out)
  | _, [] => []
  | s, (c, d, u) :: order => (c, u.call, (u.outcome (s.tick d)).1) :: played (u.outcome (s.tick d)).2 order

/-- The shelf after these calls. -/
def shelfAfter : Shelf → List (Nat × Nat × Use) → Shelf
  | s, [] => s
  | s, (_, d, u) :: order => shelfAfter (u.outcome (s.tick d)).2 order

/-- The entries of client `c`. -/
def ofClient (c : Nat) (l : List (Nat × Call Out × Res Out)) : List (Call Out × Res Out) :=
  (l.filter (fun e => e.1 == c)).map (·.2)

/-- The order accounts for everything the users have seen so far: the calls of each client return, in the order in which
they return, what they have in the order, up to the first one that fails because the connection was closed or a deadline
passed; when no deadline passes all later ones fail too.  What else the order holds for this client are calls it makes; as
long as no call has failed, this is at most the one that is on its connection. -/
def Accounts {T : Type} [DecidableEq T] (P : Nat → Sched.Params T) (s0 : Shelf) (users : Nat → Sched.State T) (order : List (Nat × Nat × Use)) : Prop :=
  ∀ c, ∃ good bad rest, (users c).log = good ++ bad ∧ ofClient c (played s0 order) = good ++ rest
    ∧ (∀ x r more, bad = (x, r) :: more → Sched.Fails r ∧ Sched.Trouble (P c) (users c))
    ∧ (¬ ((P c).timeout = true ∧ (P c).late = true) → ∀ e ∈ bad, Sched.Fails e.2)
    ∧ (∀ e ∈ rest, (P c).calls e.1)
    ∧ (bad = [] → rest = [] ∨ ∃ t e, rest = [e] ∧ (users c).lock = some t ∧ ((users c).pc t).op = some e.1)

/-- What the primaries hold is what the order of calls leaves on the shelf, some seconds later. -/
def OnShelf {S : Type} (H : Pool.Hashes) (r : Cluster.ReplicaPool S) (s0 : Shelf) (w : Pool.World S) (order : List (Nat × Nat × Use)) : Prop :=
  ∃ d, onPrimaries H r ((shelfAfter s0 order).tick d).now w = (shelfAfter s0 order).tick d

/-- Something happens in the whole, other than that somebody begins a call, that the network fails, that the server
accepts a connection or stops accepting them, or that time passes. -/
structure RouterMoves {T : Type} [DecidableEq T] (P : Nat → Sched.Params T) (H : Pool.Hashes) (r : Cluster.ReplicaPool S)
    (q q' : Joint.State T (Proxy.Desk S)) : Prop where
  moves : Moves P (Proxy.process H r) q q'
  clock : ∀ s, (q'.server.state.world s).now = (q.server.state.world s).now

/-- Any number of such steps. -/
inductive RouterMovesOn {T : Type} [DecidableEq T] (P : Nat → Sched.Params T) (H : Pool.Hashes) (r : Cluster.ReplicaPool S)
    (q : Joint.State T (Proxy.Desk S)) : Joint.State T (Proxy.Desk S) → Prop where
  | refl : RouterMovesOn P H r q q
  | step {v u} : RouterMovesOn P H r q v → RouterMoves P H r v u → RouterMovesOn P H r q u

/-- Nothing more happens by itself, except that time passes. -/
def RouterRests {T : Type} [DecidableEq T] (P : Nat → Sched.Params T) (H : Pool.Hashes) (r : Cluster.ReplicaPool S)
    (q : Joint.State T (Proxy.Desk S)) : Prop := ∀ q', ¬ RouterMoves P H r q q'

end Spec
end Verif
