import Verif.Client.Sched
import Verif.Spec.Sequential
/-!
C30 and all that builds on it: which results are failures of the connection, and when it may fail.
-/

namespace Verif
namespace Sched
open Spec

variable {T : Type} [DecidableEq T]

/-- The call a goroutine is in. -/
def At.op : At → Option (Call Out)
  | .called c | .locked c | .writeDeadline c | .readDeadline c | .writing c _ | .reading c => some c
  | _ => none

/-- An operation failed for lack of a connection. -/
def Fails (r : Res Out) : Prop := r = .err .io ∨ r = .err (.msg b!"memcached: closed")

/-- Something other than the operations' own doing has happened to the connection: this side closed it, the
other side did, or a deadline may have passed. -/
def Trouble (P : Params T) (s : State T) : Prop :=
  s.isOpen = false ∨ s.ended = true ∨ P.timeout = true ∧ P.late = true

end Sched
end Verif
