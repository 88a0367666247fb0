import Verif.Spec.Served
import Verif.Spec.Progress
import Verif.Client.Joint
/-!
C81: any number of clients of this module, each shared by goroutines, connected to one server of this module.
-/

namespace Verif
namespace Spec
open Srv

/-- An answer to a request from a client of protocol `p` that the client can use: the responses to a retrieval can be
transmitted and are not too many; any other request gets a response, which is not an error and has what the operation
needs. -/
def Usable (p : Proto) (req : Request) (rs : List Response) : Prop :=
  if req.opcode = opGet then
    match p with
    | .text _ => (∀ r ∈ rs, TextHit r) ∧ ∀ k, req.keys = some [k] → rs.length ≤ 1
    | .metap => rs.length ≤ 1 ∧ ∀ r ∈ rs, (r.flags = [] ∨ 4 ≤ r.flags.length) ∧ r.value.length < 2 ^ 31
    | .binary => rs.length ≤ 1 ∧ (∀ r ∈ rs, BinFound r) ∧ (req.getOpt = none → rs ≠ [])
  else ∃ r more, rs = r :: more ∧ r.error = none ∧ (p = .binary → r.flags = [] ∧ r.key = []) ∧
    if req.opcode = opIncrement ∨ req.opcode = opDecrement then
      ∃ n < 2 ^ 63, r.value = if p = .binary then putBE 8 n else natDec n
    else if req.opcode = opVersion then
      if p = .binary then r.value.length < 2 ^ 32
      else (10 : UInt8) ∉ r.value ∧ r.value.length ≤ 4000 ∧ hasPrefix (r.value ++ crlf) b!"VERSION " = false
    else p = .binary → r.value = []

/-- Whatever state among `I` the handler is in, it gives each request of the operations among `A` a proper answer, and is
then in a state among `I` again. -/
def Courteous {σ : Type} (h : Handler σ) (p : Proto) (I : σ → Prop) (A : Ask → Prop) : Prop :=
  ∀ s a, I s → A a → Fit p a ∧ ∀ req ∈ asked p a, ∃ rs, (h s req).1 = .ok rs ∧ Usable p req rs ∧ I (h s req).2

/-- Clients of this module, client `c` of protocol `p c` using operations among `A c`. -/
structure Clients {T : Type} (P : Nat → Sched.Params T) (p : Nat → Proto) (A : Nat → Ask → Prop) : Prop where
  kind : ∀ c, (P c).kind = (p c).kind
  calls : ∀ c x, (P c).calls x → ∃ i : Issue, A c i.ask ∧ x = i.use (p c)

/-- The handler's calls for connection `c`, with their answers, in order. -/
def callsFrom (c : Nat) (log : List (Nat × Request × Res (List Response))) : List (Request × Res (List Response)) :=
  (log.filter (fun e => e.1 == c)).map (·.2)

/-- These operations have these results, in this order, if the handler's calls for them are `mine`, in this order: it is
called with exactly their requests, and its answers mean their results. -/
def Resulted (p : Proto) (log : List (Call Out × Res Out)) (mine : List (Request × Res (List Response))) : Prop :=
  ∃ is rss xs, log.map (·.1) = is.map (Issue.use p) ∧ log.map (·.2) = xs.map (Res.map Said.toOut)
    ∧ mine.map (·.1) = (is.flatMap fun i => asked p i.ask) ∧ mine.map (·.2) = rss.map .ok ∧ Heard p is rss xs

/-- Something happens in the whole, and it is not that somebody begins a call, that the network fails, or that the server
accepts a connection or stops accepting them. -/
structure Moves {T σ : Type} [DecidableEq T] (P : Nat → Sched.Params T) (H : Accept.Concurrent σ) (q q' : Joint.State T σ) : Prop where
  step : Joint.Step P H q q'
  change : q' ≠ q
  starts : ∀ c, ¬ Starts (q.users c) (q'.users c)
  ended : ∀ c, (q'.users c).ended = (q.users c).ended
  lost : ∀ c k', q'.server.conns c = some k' → k'.fin = some .lost → ∃ k, q.server.conns c = some k ∧ k.fin = some .lost
  accepts : ∀ c, q.server.conns c = none → q'.server.conns c = none
  listening : q'.server.listening = q.server.listening

/-- Any number of such steps. -/
inductive MovesOn {T σ : Type} [DecidableEq T] (P : Nat → Sched.Params T) (H : Accept.Concurrent σ) (q : Joint.State T σ) :
    Joint.State T σ → Prop where
  | refl : MovesOn P H q q
  | step {v u} : MovesOn P H q v → Moves P H v u → MovesOn P H q u

/-- Nothing more happens by itself. -/
def Rests {T σ : Type} [DecidableEq T] (P : Nat → Sched.Params T) (H : Accept.Concurrent σ) (q : Joint.State T σ) : Prop :=
  ∀ q', ¬ Moves P H q q'

end Spec
end Verif
