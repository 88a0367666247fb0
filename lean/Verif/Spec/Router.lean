import Verif.Spec.Replica
import Verif.Spec.Wire
import Verif.Server.Serve
import Verif.Client.Binary
import Verif.Client.Meta
import Verif.Client.Text
/-!
A client talking to a server of this module: what it means for a call to be carried out, and what
the users of the router see.
-/

namespace Verif
namespace Spec
open Kv Pool

/-- Call `c` made over a connection (new, or in use with protocol `p`) to a server whose handler `h`
is in state `s` has outcome `x` and leaves the handler in state `s'`: whatever the client sends later
(`rest`), the server first sends a reply from which the client obtains `x`, consuming exactly that
reply, and from then on behaves as a server in state `s'` that is sent `rest`. -/
def Served {σ α : Type} (h : Srv.Handler σ) (p : Srv.Protocol) (s : σ) (c : Call α) (x : Res α) (s' : σ) : Prop :=
  ∃ wire reply, c.wire = .ok wire
    ∧ (∀ q rest, q = none ∨ q = some p →
        (Srv.serve h q s (wire ++ rest)).out = reply ++ (Srv.serve h (some p) s' rest).out
        ∧ (Srv.serve h q s (wire ++ rest)).state = (Srv.serve h (some p) s' rest).state
        ∧ (Srv.serve h q s (wire ++ rest)).fin = (Srv.serve h (some p) s' rest).fin)
    ∧ ∀ later, c.rd (reply ++ later) = (x, later)

/-- The server carries the call out but sends nothing: the client waits for ever (or until its
deadline). -/
def Unanswered {σ α : Type} (h : Srv.Handler σ) (p : Srv.Protocol) (s : σ) (c : Call α) (s' : σ) : Prop :=
  ∃ wire, c.wire = .ok wire ∧ ∀ q rest, q = none ∨ q = some p →
    (Srv.serve h q s (wire ++ rest)).out = (Srv.serve h (some p) s' rest).out
    ∧ (Srv.serve h q s (wire ++ rest)).state = (Srv.serve h (some p) s' rest).state

/-- The server sends nothing, closes the connection and is left in state `s'`. -/
def Dropped {σ α : Type} (h : Srv.Handler σ) (p : Srv.Protocol) (s : σ) (c : Call α) (s' : σ) : Prop :=
  ∃ wire, c.wire = .ok wire ∧ ∀ q rest, q = none ∨ q = some p →
    (Srv.serve h q s (wire ++ rest)).out = []
    ∧ (Srv.serve h q s (wire ++ rest)).state = s'
    ∧ (Srv.serve h q s (wire ++ rest)).fin = .closed

variable {S : Type}

/-- Calls made one after the other, each after some seconds, possibly by different clients. -/
inductive Visits {α : Type} (h : Srv.Handler (World S)) :
    World S → List (Nat × Srv.Protocol × Call α) → List (Res α) → World S → Prop where
  | nil (w : World S) : Visits h w [] [] w
  | cons {w w1 w' : World S} {d : Nat} {p : Srv.Protocol} {c : Call α} {x : Res α}
      {rest : List (Nat × Srv.Protocol × Call α)} {xs : List (Res α)} :
      Served h p (World.tick w d) c x w1 → Visits h w1 rest xs w' → Visits h w ((d, p, c) :: rest) (x :: xs) w'

/-- What the users of a router have stored: values with their expiry. -/
structure Shelf where
  data : Bytes → Option (Bytes × Option Nat)
  now : Nat

/-- Not expired at time `t`. -/
def fresh (t : Nat) : Option Nat → Bool
  | none => true
  | some x => t < x

/-- The value stored under a key, if there is one. -/
def Shelf.value (s : Shelf) (k : Bytes) : Option Bytes :=
  match s.data k with
  | some (v, x) => if fresh s.now x then some v else none
  | none => none

/-- Store a value. -/
def Shelf.put (s : Shelf) (k v : Bytes) (exp : Int) : Shelf :=
  { s with data := fun x => if x = k then some (v, expiryOf s.now exp) else s.data x }

/-- Time passes. -/
def Shelf.tick (s : Shelf) (d : Nat) : Shelf := { s with now := s.now + d }

/-- A call by a user of the router. -/
inductive Use where
  | textSet (item : Item)
  | metaGet (key : Bytes)
  | metaSet (item : Item)
  | binGet (h : Bin.ReqHdr) (key : Bytes)
  | binSet (h : Bin.ReqHdr) (item : Item)

/-- The call, with its result turned into an `Out`.  (`h` is the recycled header the binary client
happens to use, see C28.) -/
def Use.call : Use → Call Out
  | .textSet i => (Text.set i).map fun _ => .done
  | .metaGet k => (Meta.get k).map .item
  | .metaSet i => (Meta.set i).map fun _ => .done
  | .binGet h k => (Bin.get h k).map .item
  | .binSet h i => (Bin.set h i).map fun _ => .done

/-- The protocol the call uses. -/
def Use.protocol : Use → Srv.Protocol
  | .textSet _ => .ascii
  | .metaGet _ => .ascii
  | .metaSet _ => .ascii
  | .binGet _ _ => .binary
  | .binSet _ _ => .binary

/-- Arguments memcached accepts and no token; over the binary protocol no negative expiration. -/
def Use.Good : Use → Prop
  | .textSet i => GoodMetaItem i ∧ i.cas = 0
  | .metaGet k => Key k
  | .metaSet i => GoodMetaItem i ∧ i.cas = 0
  | .binGet _ k => Key k
  | .binSet _ i => GoodMetaItem i ∧ 0 ≤ i.expiration

/-- What the call returns and stores: Set stores, Get returns the stored value, without flags, and
the empty value if there is none (C48, C50). -/
def Use.outcome (s : Shelf) : Use → Res Out × Shelf
  | .textSet i => (.ok .done, s.put i.key i.value i.expiration)
  | .metaGet k => (.ok (.item { key := k, value := (s.value k).getD [] }), s)
  | .metaSet i => (.ok .done, s.put i.key i.value i.expiration)
  | .binGet _ k => (.ok (.item { key := k, value := (s.value k).getD [], flags := some [] }), s)
  | .binSet _ i => (.ok .done, s.put i.key i.value i.expiration)

/-- The outcomes of a history. -/
def runUses : Shelf → List (Nat × Use) → List (Res Out) × Shelf
  | s, [] => ([], s)
  | s, (d, u) :: rest =>
    let c := u.outcome (s.tick d)
    let q := runUses c.2 rest
    (c.1 :: q.1, q.2)

/-- The values on the primaries. -/
def onPrimaries (H : Hashes) (r : Cluster.ReplicaPool S) (t : Nat) (w : World S) : Shelf where
  data k :=
    match r.primary.pick H k with
    | .ok p => ((w p).data k).map fun e => (e.value, e.expiry)
    | _ => none
  now := t

end Spec
end Verif
