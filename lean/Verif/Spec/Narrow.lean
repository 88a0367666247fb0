import Verif.Client.Narrow
import Verif.Spec.Flow
import Verif.Spec.Progress
/-!
C79: goroutines sharing a connection that holds only so many bytes.
-/

namespace Verif
namespace Narrow
open Spec

variable {T : Type} [DecidableEq T] {σ : Type}

/-- `resp i` is all that the server, being in state `s`, writes once it has got `i`. -/
def Says (W : Flow.Peer σ) (s : σ) (resp : Bytes → Bytes) : Prop :=
  ∀ i, ∃ s' rest, Flow.Replies W s i (resp i) s' rest ∧ W.next s' rest = none

/-- Something happens, and it is not that somebody begins a call or that the other side hangs up. -/
def Moves (P : Sched.Params T) (W : Flow.Peer σ) (R : Flow.Room) (q q' : State T σ) : Prop :=
  Step P W R q q' ∧ q' ≠ q ∧ ¬ Starts q.users q'.users ∧ q'.users.ended = q.users.ended

/-- Nothing more will happen by itself. -/
def AtRest (P : Sched.Params T) (W : Flow.Peer σ) (R : Flow.Room) (q : State T σ) : Prop := ∀ q', ¬ Moves P W R q q'

/-- Goroutine `t`, which has begun to send its request, and the server wait for each other: there is no room in either
direction, and each of them wants to write. -/
def Deadlock (R : Flow.Room) (q : State T σ) (t : T) (c : Call Out) : Prop :=
  (∃ x y, q.users.pc t = .writing c (x :: y)) ∧ q.pipe.up.length = R.up ∧ q.pipe.owed ≠ [] ∧ q.pipe.down.length = R.down

/-- Nothing is on the way, the server has read nothing and has nothing to write: it waits for a request. -/
def Pipe.Quiet (p : Pipe σ) : Prop := p.up = [] ∧ p.got = [] ∧ p.owed = [] ∧ p.down = []

/-- The call has failed: with an I/O error, or because its request could not even be composed. -/
def Fails (c : Call Out) (r : Res Out) : Prop :=
  r = .err .io ∨ (∃ e, c.wire = .err e ∧ r = .err e) ∨ (c.wire = .panic ∧ r = .panic)

end Narrow
end Verif
