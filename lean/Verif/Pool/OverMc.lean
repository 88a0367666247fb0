import Verif.Pool.Single
import Verif.Mc.Session
/-!
Pools whose servers are connections (client/server.go) to reference memcached servers, one
store per server; each call is a byte-level exchange.
-/

namespace Verif
namespace Pool
open Kv Spec Mc

variable {S : Type} [DecidableEq S]

/-- The contents of all servers. (Environment, not code of /repo.) -/
abbrev World (S : Type) := S → Store

/-- The contents of server `s` replaced (environment). -/
def World.update (w : World S) (s : S) (st : Store) : World S := fun x => if x = s then st else w x

/-- Time passes everywhere. (Environment.) -/
def World.tick (w : World S) (d : Nat) : World S := fun s => (w s).tick d

/-- One call on server `s` over a connection whose calls are `call`.  A failed exchange (which
C52 excludes) would be a connection error.
(client/server.go: one of the operations, against the environment.) -/
def callOn {α : Type} (call : S → Op → Call Out) (s : S) (o : Op) (out : Out → Option α) :
    Act (World S) α :=
  fun w =>
    match exchange (call s o) (w s) with
    | some (.ok x, st) =>
      (match out x with | some a => .ok a | none => .panic, World.update w s st)
    | some (.err e, st) => (.err e, World.update w s st)
    | some (.panic, st) => (.panic, World.update w s st)
    | none => (.err .io, w)

/-- The item of a result (auxiliary). -/
def outItem : Out → Option Item | .item i => some i | _ => none
/-- The items of a result (auxiliary). -/
def outItems : Out → Option (List Item) | .items l => some l | _ => none
/-- A result without value (auxiliary). -/
def outDone : Out → Option Unit | .done => some () | _ => none
/-- The number of a result (auxiliary). -/
def outNum : Out → Option Int | .num n => some n | _ => none

/-- A connection as a server of a pool. (client/server.go:87-102.) -/
def connOps (call : S → Op → Call Out) (s : S) : ServerOps (World S) where
  get k := callOn call s (.get k) outItem
  getMulti ks := callOn call s (.getMulti ks) outItems
  set i := callOn call s (.set i) outDone
  add i := callOn call s (.add i) outDone
  replace i := callOn call s (.replace i) outDone
  delete k := callOn call s (.delete k) outDone
  increment k d e := callOn call s (.increment k d e) outNum
  decrement k d e := callOn call s (.decrement k d e) outNum
  touch k e := callOn call s (.touch k e) outDone
  flush := callOn call s .flush outDone
  version := Act.lift (.ok b!"1.6.0")
  close := Act.lift (.ok ())

/-- Servers reached over connections whose calls are `call`. (client/client.go:27-35.) -/
def connEnv (H : Hashes) (name : S → Bytes) (call : S → Op → Call Out) : Env S (World S) where
  H := H
  name := name
  ops := connOps call

/-- Text connections. (client/server.go:134-160.) -/
def textEnv (H : Hashes) (name : S → Bytes) : Env S (World S) :=
  connEnv H name (fun s => textCall (name s))

/-- Meta connections. (client/server.go:648-674.) -/
def metaEnv (H : Hashes) (name : S → Bytes) : Env S (World S) :=
  connEnv H name (fun _ => metaCall)

/-- Present a result as an `Out`. (Auxiliary.) -/
def actOut {α : Type} (f : α → Out) (m : Act (World S) α) (w : World S) : Res Out × World S :=
  ((m w).1.map f, (m w).2)

/-- The pool's methods (client/client.go:37-115) as a function of the operation. -/
def poolCall (H : Hashes) (name : S → Bytes) (r : Ring S)
    (order : List (Bytes × List Bytes) → List (Bytes × List Bytes)) (orderS : List S → List S)
    (w : World S) : Op → Res Out × World S
  | .get k => actOut .item (get (textEnv H name) r k) w
  | .getMulti ks => actOut .items (getMulti (textEnv H name) r order ks) w
  | .set i => actOut (fun _ => .done) (set (textEnv H name) r i) w
  | .add i => actOut (fun _ => .done) (add (textEnv H name) r i) w
  | .replace i => actOut (fun _ => .done) (replace (textEnv H name) r i) w
  | .delete k => actOut (fun _ => .done) (delete (textEnv H name) r k) w
  | .increment k d e => actOut .num (increment (textEnv H name) r k d e) w
  | .decrement k d e => actOut .num (decrement (textEnv H name) r k d e) w
  | .touch k e => actOut (fun _ => .done) (touch (textEnv H name) r k e) w
  | .flush => actOut (fun _ => .done) (flush (textEnv H name) r orderS) w

end Pool
end Verif
