import Verif.Client.Reconn
/-!
Which memory shared between goroutines a client touches, and under which circumstances two goroutines touch it at the
same time: data races in the sense of the Go memory model.
-/

namespace Verif
namespace Race
open Reconn (At State Params)

/-- The variables of a client that are written after it was created (client/server.go:127-129, 642-644, 1144-1149): the
fields `raw`, `conn` and `closeCh`, and the contents of the `bufio.ReadWriter` on connection number `g`. -/
inductive Loc where
  | raw
  | conn
  | closeCh
  | buffer (g : Nat)
  deriving DecidableEq, Repr

/-- A read or a write. (Not code.) -/
structure Access where
  loc : Loc
  write : Bool
  deriving DecidableEq, Repr

variable {T : Type} [DecidableEq T]

/-- What a goroutine does to these variables next.  (client/server.go:166-176 Close of the text client, 1132-1134 and
1740-1742 of the other two; 178-196 Reconnect, 681-699 and 1192-1210; 202-218 the checks, deadlines and writes of an
operation and 218-254 its reads, and the corresponding lines of the other operations.)  Calls of methods of `net.Conn`
and operations on the mutex and the channel are synchronised by themselves. -/
def next (P : Params T) (s : State T) : At → List Access
  | .user (.locked _) => if P.kind = .text then [⟨.raw, false⟩] else []
  | .user (.writeDeadline _) => if P.timeout then [⟨.raw, false⟩] else []
  | .user (.readDeadline _) => [⟨.raw, false⟩]
  | .user (.writing _ _) => [⟨.conn, false⟩, ⟨.buffer s.conn, true⟩]
  | .user (.reading _) => [⟨.conn, false⟩, ⟨.buffer s.conn, true⟩]
  | .user .close => if P.kind = .text then [⟨.closeCh, false⟩] else []
  | .user .closeRaw => [⟨.raw, false⟩]
  | .user .clearRaw => [⟨.raw, true⟩]
  | .user .closeChan => [⟨.closeCh, false⟩]
  | .user .clearChan => [⟨.closeCh, true⟩]
  | .locked => [⟨.raw, false⟩]
  | .setRaw _ => [⟨.raw, true⟩]
  | .setConn _ => [⟨.conn, true⟩]
  | _ => []

/-- Two goroutines are about to touch the same variable, at least one of them to write it, and nothing orders the two.
(Not code: the Go memory model's definition of a data race, for interleaved executions.) -/
def Racing (P : Params T) (s : State T) (t u : T) : Prop :=
  t ≠ u ∧ ∃ a ∈ next P s (s.pc t), ∃ b ∈ next P s (s.pc u), a.loc = b.loc ∧ (a.write = true ∨ b.write = true)

end Race
end Verif
