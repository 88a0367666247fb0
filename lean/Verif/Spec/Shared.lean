import Verif.Spec.Router
import Verif.Server.Accept
/-!
The ideal the router is measured against when it is used by many clients at once: a server with a
single shelf of values, on which every request takes effect at one moment between its arrival and its
answer; and what it means that nobody can tell the difference.
-/

namespace Verif
namespace Spec
open Srv Srv.Accept

/-- An atomic handler (see `Accept.atomically`) whose state may also change by itself, as `pass`
allows. -/
def drifting {τ : Type} (h : Handler τ) (pass : τ → τ → Prop) : Concurrent (Atomic τ) where
  call a c req := { a with waiting := fun d => if d = c then some req else a.waiting d }
  step a a' :=
    (∃ c req, a.waiting c = some req ∧
      a' = { own := (h a.own req).2
             waiting := fun d => if d = c then none else a.waiting d
             ready := fun d => if d = c then some (h a.own req).1 else a.ready d
             log := a.log ++ [(c, req, (h a.own req).1)] })
    ∨ ∃ t, pass a.own t ∧ a' = { a with own := t }
  ret a c x a' := a.ready c = some x ∧
    a' = { a with ready := fun d => if d = c then none else a.ready d }

/-- What the requests mean: get returns the value (never the flags, C50), or says that there is none;
set stores; every other request is refused. -/
def shelfAnswer : Handler Shelf := fun s req =>
  if req.opcode = opGet then
    match s.value req.key with
    | some v => (.ok [{ key := req.key, value := v }], s)
    | none => (.ok [{ error := some .itemNotFound }], s)
  else if req.opcode = opSet then
    match req.setOpt with
    | some o => (.ok [{}], s.put req.key req.value o.expiration)
    | none => (.panic, s)
  else (.err (.msg b!"proxy: unknown opcode"), s)

/-- The ideal router: the shelf behind a lock, and a clock. -/
def sharedShelf : Concurrent (Atomic Shelf) := drifting shelfAnswer fun s s' => ∃ d, s' = s.tick d

/-- Requests with arguments memcached accepts, and without token. -/
def GoodRequest (req : Request) : Prop :=
  (req.opcode = opGet → Key req.key)
  ∧ (req.opcode = opSet → ∃ o, req.setOpt = some o ∧ o.casValue = 0 ∧
      GoodMetaItem { key := req.key, value := req.value, flags := req.flags, expiration := o.expiration })

/-- Everything there is to see from outside: for every connection the bytes received and sent, the
requests taken and the answers given; whether the process accepts connections and whether it lives. -/
structure View where
  conns : Nat → Option Conn
  listening : Bool
  down : Bool

/-- The view of a world. -/
def view {σ : Type} (w : Accept.World σ) : View := ⟨w.conns, w.listening, w.down⟩

/-- The possible histories of a server process: every event except those inside the handler, with who
caused it and the view after it. -/
inductive Traced {σ : Type} (H : Concurrent σ) (w : Accept.World σ) : List (Who × View) → Accept.World σ → Prop where
  | start : Traced H w [] w
  | inside (tr : List (Who × View)) (v u : Accept.World σ) (ht : Traced H w tr v) (hs : Accept.Step H v .handler u) :
      Traced H w tr u
  | event (tr : List (Who × View)) (v u : Accept.World σ) (a : Who) (ht : Traced H w tr v) (hs : Accept.Step H v a u)
      (ha : a ≠ .handler) : Traced H w (tr ++ [(a, view u)]) u

/-- The requests a connection has had. -/
def requests (k : Conn) : List Request := k.done.map (·.1) ++ (k.busy.map (·.2)).toList

/-- Carried out one after the other on the shelf, with some seconds in between, the requests have these
results. -/
def InOrder : Shelf → List (Request × Res (List Response)) → Prop
  | _, [] => True
  | s, (req, x) :: l => ∃ d, (shelfAnswer (s.tick d) req).1 = x ∧ InOrder (shelfAnswer (s.tick d) req).2 l

/-- The bytes a client has sent when it has made these calls. -/
def Sent : List Use → Bytes → Prop
  | [], b => b = []
  | u :: us, b => ∃ x y, u.call.wire = .ok x ∧ Sent us y ∧ b = x ++ y

/-- What these calls, made one after the other, get from the bytes the client receives, and the bytes left
over. -/
def readAll : List Use → Bytes → List (Res Out) × Bytes
  | [], b => ([], b)
  | u :: us, b =>
    let r := u.call.rd b
    let q := readAll us r.2
    (r.1 :: q.1, q.2)

/-- Client `c`'s part of the results of an order of calls (client, seconds before, call). -/
def partOf (c : Nat) (order : List (Nat × Nat × Use)) (xs : List (Res Out)) : List (Res Out) :=
  ((order.zip xs).filter (fun e => e.1.1 == c)).map (·.2)

end Spec
end Verif
