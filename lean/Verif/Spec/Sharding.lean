import Verif.Spec.Api
/-!
Histories in which a program uses the cas tokens it was given, without looking at them: tokens
of different servers are unrelated, so histories on one server and on several can only be
compared that way.
-/

namespace Verif
namespace Spec
open Kv

/-- One step of such a program. -/
inductive Step where
  /-- an operation without cas token (a token in the item is ignored) -/
  | op (o : Op)
  /-- `Set` of `item` with the token returned by step number `ref`, if that was a successful
  `Get` of the same key (else without token) -/
  | setCas (item : Item) (ref : Nat)
  deriving DecidableEq, Repr

/-- The key of a single-key operation. -/
def Op.key? : Op → Option Bytes
  | .get k => some k
  | .getMulti _ => none
  | .set i => some i.key
  | .add i => some i.key
  | .replace i => some i.key
  | .delete k => some k
  | .increment k _ _ => some k
  | .decrement k _ _ => some k
  | .touch k _ => some k
  | .flush => none

/-- The token of an earlier result. -/
def tokenOf (prev : List (Res Out)) (ref : Nat) (key : Bytes) : Nat :=
  match prev[ref]? with
  | some (.ok (.item i)) => if i.key = key then i.cas else 0
  | _ => 0

/-- Remove a token from an operation. -/
def Op.noCas : Op → Op
  | .set i => .set { i with cas := 0 }
  | o => o

/-- The operation actually called, given the earlier results. -/
def Step.call (prev : List (Res Out)) : Step → Op
  | .op o => o.noCas
  | .setCas item ref => .set { item with cas := tokenOf prev ref item.key }

/-- Run a program: before each step some seconds pass. -/
def runSteps {W : Type} (tick : W → Nat → W) (call : W → Op → Res Out × W) :
    W → List (Res Out) → List (Nat × Step) → List (Res Out)
  | _, prev, [] => prev
  | w, prev, (d, st) :: rest =>
    let r := call (tick w d) (st.call prev)
    runSteps tick call r.2 (prev ++ [r.1]) rest

/-- An item without the values a program cannot interpret: the token and the server name. -/
def blindItem (i : Item) : Item := { i with cas := 0, server := [] }

/-- A result without the values a program cannot interpret. -/
def blind : Res Out → Res Out
  | .ok (.item i) => .ok (.item (blindItem i))
  | r => r

/-- The same result for a program: tokens and server names aside, and the items of a `GetMulti`
in any order. -/
def Alike : Res Out → Res Out → Prop
  | .ok (.items a), .ok (.items b) => (a.map blindItem).Perm (b.map blindItem)
  | a, b => blind a = blind b

/-- The same results, one by one. -/
def AllAlike (as bs : List (Res Out)) : Prop :=
  as.length = bs.length ∧ ∀ (n : Nat) (a b : Res Out), as[n]? = some a → bs[n]? = some b → Alike a b

/-- A step whose arguments memcached accepts. -/
def GoodStep : Step → Prop
  | .op o => GoodOp o.noCas
  | .setCas i _ => GoodItem { i with cas := 0 }

/-- A step that may involve more than one server. -/
def Step.Wide : Step → Prop
  | .op o => o.key? = none
  | .setCas _ _ => False

/-- What is stored, apart from the token. -/
def SameEntry : Option Entry → Option Entry → Prop
  | none, none => True
  | some a, some b => a.value = b.value ∧ a.flags = b.flags ∧ a.expiry = b.expiry
  | _, _ => False

end Spec
end Verif
