import Verif.Spec.Converse
import Verif.Spec.Sequential
import Verif.Spec.Narrow
/-!
C80: goroutines sharing a client of this module whose other side is a server of this module.
-/

namespace Verif
namespace Spec
open Srv

/-- The result as the log of calls shows it (of a `Version` only that it succeeded). -/
def Said.toOut : Said → Out
  | .out o => o
  | .version _ => .done

/-- The call a goroutine makes. -/
def Issue.use (p : Proto) (i : Issue) : Call Out := (i.call p).map Said.toOut

/-- The client that speaks this protocol. -/
def Proto.kind : Proto → Life.Kind
  | .text _ => .text
  | .metap => .metap
  | .binary => .binary

/-- Whatever state among `I` the handler is in, it gives each of the operations among `A` a proper answer, and is then
in a state among `I` again. -/
def Willing {σ : Type} (h : Handler σ) (p : Proto) (I : σ → Prop) (A : Ask → Prop) : Prop :=
  ∀ s a, I s → A a → Fit p a ∧ ∃ rss s' x, Ran h s (asked p a) rss s' ∧ Gives p a rss x ∧ I s'

/-- These calls have these results, in this order, if the handler is called with the requests of one call after the
other, from state `s` on; it is called with `reqs`, and is then in state `s'`. -/
def InTurn {σ : Type} (h : Handler σ) (p : Proto) (s : σ) (log : List (Call Out × Res Out)) (reqs : List Request) (s' : σ) :
    Prop :=
  ∃ is xs, log.map (·.1) = is.map (Issue.use p) ∧ log.map (·.2) = xs.map (Res.map Said.toOut)
    ∧ reqs = (is.flatMap fun i => asked p i.ask) ∧ Converse h p s is xs s'

/-- Goroutines use a client of protocol `p` whose other side is a server of this module with handler `h`, which is in
state `s0` when the connection is accepted; all operations in use are among `A`. -/
structure Share {T σ : Type} (P : Sched.Params T) (p : Proto) (h : Handler σ) (s0 : σ) (A : Ask → Prop) : Prop where
  kind : P.kind = p.kind
  resp : P.resp = fun i => (serve h none s0 i).out
  calls : ∀ c, P.calls c → ∃ i : Issue, A i.ask ∧ c = i.use p

end Spec
end Verif
