import Verif.Client.Sched
/-! What it means that calls under way on a shared connection get on. -/

namespace Verif
namespace Spec
open Sched

variable {T : Type} [DecidableEq T]

/-- Somebody begins a call. -/
def Starts (s s' : Sched.State T) : Prop := ∃ t, s.pc t = .idle ∧ s'.pc t ≠ .idle

/-- Something happens, and it is not that somebody begins a call. -/
def Works (P : Params T) (s s' : Sched.State T) : Prop := Sched.Step P s s' ∧ s' ≠ s ∧ ¬ Starts s s'

/-- Nothing will happen by itself: only new calls, or the other side hanging up, can change anything. -/
def Blocked (P : Params T) (s : Sched.State T) : Prop := ∀ s', Works P s s' → s'.ended ≠ s.ended

/-- Steps without new calls. -/
inductive WorksOn (P : Params T) (s : Sched.State T) : Sched.State T → Prop where
  | refl : WorksOn P s s
  | step {s' s''} : WorksOn P s s' → Works P s' s'' → s''.ended = s'.ended → WorksOn P s s''

/-- Every call has returned. -/
def AllDone (s : Sched.State T) : Prop := ∀ t, s.pc t = .idle

end Spec
end Verif
