import Verif.Client.Reconn
/-! What it means that calls under way on a client with Reconnect get on. -/

namespace Verif
namespace Spec
namespace Re
open Reconn

variable {T : Type} [DecidableEq T]

/-- Somebody begins a call: of an operation, of Close or of Reconnect. -/
def Starts (s s' : State T) : Prop := ∃ t, s.pc t = .user .idle ∧ s'.pc t ≠ .user .idle

/-- Something happens, and it is not that somebody begins a call. -/
def Works (P : Params T) (s s' : State T) : Prop := Step P s s' ∧ s' ≠ s ∧ ¬ Starts s s'

/-- The other side has hung up one of the connections. -/
def HungUp (s s' : State T) : Prop := ∃ g, (s'.conns g).ended ≠ (s.conns g).ended

/-- Nothing will happen by itself: only new calls, or the other side hanging up, can change anything. -/
def Blocked (P : Params T) (s : State T) : Prop := ∀ s', Works P s s' → HungUp s s'

/-- Steps without new calls and without the other side hanging up. -/
inductive WorksOn (P : Params T) (s : State T) : State T → Prop where
  | refl : WorksOn P s s
  | step {s' s''} : WorksOn P s s' → Works P s' s'' → ¬ HungUp s' s'' → WorksOn P s s''

/-- Every call has returned. -/
def AllDone (s : State T) : Prop := ∀ t, s.pc t = .user .idle

end Re
end Spec
end Verif
