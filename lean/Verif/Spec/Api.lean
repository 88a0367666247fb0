import Verif.Spec.Kv
import Verif.Spec.Wire
import Verif.Client.Types
/-!
What the operations of a client should return and do, in terms of the abstract memcached `Kv`
only: one definition per protocol, since the protocols' clients differ in the details.
-/

namespace Verif
namespace Spec
open Kv

/-- A client operation. -/
inductive Op where
  | get (key : Bytes)
  | getMulti (keys : List Bytes)
  | set (item : Item)
  | add (item : Item)
  | replace (item : Item)
  | delete (key : Bytes)
  | increment (key : Bytes) (delta expiration : Int)
  | decrement (key : Bytes) (delta expiration : Int)
  | touch (key : Bytes) (expiration : Int)
  | flush
  deriving DecidableEq, Repr

/-- The result of a client operation. -/
inductive Out where
  | item (i : Item)
  | items (l : List Item)
  | done
  | num (n : Int)
  deriving DecidableEq, Repr

/-- The number transmitted for an item's flags. -/
def flagsOf (item : Item) : Nat := getBE (flagBytes item.flags)

/-- What `Get`/`GetMulti` return for a stored item. -/
def textItem (name key : Bytes) (e : Entry) (cas : Nat) : Item :=
  { key := key, value := e.value, flags := some (putBE 4 e.flags), cas := cas, server := name }

/-- A counter as an `int64`: values from 2^63 on cannot be returned. -/
def counted (c : Counted) : Res Out :=
  match c with
  | .value n => if n < 2 ^ 63 then .ok (.num n) else .err .num
  | .notFound => .err .itemNotFound
  | .notNumber => .err .num

/-- `incr`/`decr` with a signed delta: a negative one is refused by the server. -/
def arithApi (s : Store) (up : Bool) (key : Bytes) (delta : Int) : Res Out × Store :=
  if delta < 0 then (.err .num, s)
  else
    let r := s.arith up key delta.toNat
    (counted r.1, r.2)

/-- Results and effects of the operations of a text connection to server `name`. -/
def textApi (name : Bytes) (s : Store) : Op → Res Out × Store
  | .get key =>
    match s.find key with
    | some e => (.ok (.item (textItem name key e e.cas)), s)
    | none => (.err .itemNotFound, s)
  | .getMulti keys =>
    (.ok (.items (keys.filterMap fun k => (s.find k).map fun e => textItem name k e 0)), s)
  | .set item =>
    let r := s.store (if 0 < item.cas then .cas item.cas else .set) item.key item.value
      (flagsOf item) item.expiration
    match r.1 with
    | .stored => (.ok .done, r.2)
    | .exists_ => (.err .itemExists, r.2)
    | .notFound => (.err (.msg (b!"memcached: failed set: NOT_FOUND\r\n")), r.2)
    | .notStored => (.err (.msg (b!"memcached: failed set: NOT_STORED\r\n")), r.2)
  | .add item =>
    let r := s.store .add item.key item.value (flagsOf item) item.expiration
    (if r.1 = .stored then .ok .done else .err .itemExists, r.2)
  | .replace item =>
    let r := s.store .replace item.key item.value (flagsOf item) item.expiration
    (if r.1 = .stored then .ok .done else .err .itemNotFound, r.2)
  | .delete key =>
    let r := s.delete key
    (if r.1 then .ok .done else .err .itemNotFound, r.2)
  | .increment key delta _ => arithApi s true key delta
  | .decrement key delta _ => arithApi s false key delta
  | .touch key exp =>
    let r := s.touch key exp
    (if r.1 then .ok .done else .err .itemNotFound, r.2)
  | .flush => (.ok .done, s.flush)

/-- A key memcached accepts: at most 250 printable characters, no space. -/
def Key (k : Bytes) : Prop := Graphic k ∧ k.length ≤ 250

instance (k : Bytes) : Decidable (Key k) := by unfold Key; infer_instance

/-- The largest value memcached stores by default. -/
def maxValue : Nat := 1048576

/-- An item that can be sent to memcached. -/
structure GoodItem (item : Item) : Prop where
  key : Key item.key
  value : item.value.length ≤ maxValue
  exp : InRange 32 item.expiration
  cas : item.cas < 2 ^ 64

/-- An operation with arguments memcached accepts. -/
def GoodOp : Op → Prop
  | .get k => Key k
  | .getMulti ks => ks ≠ [] ∧ ∀ k ∈ ks, Key k
  | .set i => GoodItem i
  | .add i => GoodItem i
  | .replace i => GoodItem i
  | .delete k => Key k
  | .increment k d _ => Key k ∧ InRange 64 d
  | .decrement k d _ => Key k ∧ InRange 64 d
  | .touch k e => Key k ∧ InRange 32 e
  | .flush => True

/-- A store within memcached's limits. -/
structure GoodStore (s : Store) : Prop where
  cas : s.nextCas < 2 ^ 63
  entry : ∀ k e, s.data k = some e → e.flags < 2 ^ 32 ∧ e.cas < s.nextCas
    ∧ e.value.length ≤ maxValue ∧ ∀ x, e.expiry = some x → x < s.now + 2 ^ 31

/-! ### The meta protocol -/

/-- Remaining lifetime in seconds, -1 for an item that does not expire. -/
def lifetime (now : Nat) (e : Entry) : Int :=
  match e.expiry with
  | none => -1
  | some x => (x : Int) - now

/-- What `Get`/`GetMulti` over the meta protocol return for a stored item. -/
def metaItem (now : Nat) (key : Bytes) (e : Entry) : Item :=
  { key := key, value := e.value, flags := some (putBE 4 e.flags), expiration := lifetime now e,
    cas := e.cas }

/-- Flags sent by `Set` over the meta protocol. -/
def metaFlagsOf (item : Item) : Nat :=
  match item.flags with
  | some f => getBE (f.take 4)
  | none => 0

/-- Results and effects of the operations of a meta connection.  Differences to the text
protocol: `Get` also returns the remaining lifetime; `GetMulti` returns tokens and lifetimes;
`Set` with a token on a missing key is ItemNotFound; deleting a missing key succeeds. -/
def metaApi (s : Store) : Op → Res Out × Store
  | .get key =>
    match s.find key with
    | some e => (.ok (.item (metaItem s.now key e)), s)
    | none => (.err .itemNotFound, s)
  | .getMulti keys =>
    (.ok (.items (keys.filterMap fun k => (s.find k).map fun e => metaItem s.now k e)), s)
  | .set item =>
    let r := s.store (if 0 < item.cas then .cas item.cas else .set) item.key item.value
      (metaFlagsOf item) item.expiration
    match r.1 with
    | .stored => (.ok .done, r.2)
    | .exists_ => (.err .itemExists, r.2)
    | .notFound => (.err .itemNotFound, r.2)
    | .notStored => (.err (.msg (b!"memcached: not stored")), r.2)
  | .add item =>
    let r := s.store .add item.key item.value (flagsOf item) item.expiration
    (if r.1 = .stored then .ok .done else .err .itemExists, r.2)
  | .replace item =>
    let r := s.store .replace item.key item.value (flagsOf item) item.expiration
    (if r.1 = .stored then .ok .done else .err .itemNotFound, r.2)
  | .delete key => (.ok .done, (s.delete key).2)
  | .increment key delta _ => arithApi s true key delta
  | .decrement key delta _ => arithApi s false key delta
  | .touch key exp =>
    let r := s.touch key exp
    (if r.1 then .ok .done else .err .itemNotFound, r.2)
  | .flush => (.ok .done, s.flush)

/-- An item the meta client can send and read back: flags absent or four bytes with the top
bit clear. -/
structure GoodMetaItem (item : Item) : Prop where
  good : GoodItem item
  flags : ∀ f, item.flags = some f → f.length = 4 ∧ Flags31 f

/-- Operations for which a meta connection behaves as it should: arguments memcached accepts;
`GetMulti` only when every key is present (see C25); `Touch` not at all (it sends a command
that invalidates the item instead). -/
def GoodMetaOp (s : Store) : Op → Prop
  | .get k => Key k
  | .getMulti ks => ∀ k ∈ ks, Key k ∧ (s.find k).isSome
  | .set i => GoodMetaItem i
  | .add i => GoodMetaItem i
  | .replace i => GoodMetaItem i
  | .delete k => Key k
  | .increment k d _ => Key k ∧ InRange 64 d
  | .decrement k d _ => Key k ∧ InRange 64 d
  | .touch _ _ => False
  | .flush => True

/-- A store within the limits of what the meta client can read. -/
structure GoodMetaStore (s : Store) : Prop where
  good : GoodStore s
  flags : ∀ k e, s.data k = some e → e.flags < 2 ^ 31

/-- One element of a history: some seconds pass, then an operation is called. -/
abbrev Event := Nat × Op

/-- The results the abstract memcached gives for a history. -/
def runApi (api : Store → Op → Res Out × Store) : Store → List Event → List (Res Out) × Store
  | s, [] => ([], s)
  | s, (d, op) :: rest =>
    let r := api (s.tick d) op
    let q := runApi api r.2 rest
    (r.1 :: q.1, q.2)

/-- A condition on operations that may depend on the contents they meet, along a history. -/
def Along (api : Store → Op → Res Out × Store) (P : Store → Op → Prop) : Store → List Event → Prop
  | _, [] => True
  | s, (d, op) :: rest => P (s.tick d) op ∧ Along api P (api (s.tick d) op).2 rest

end Spec
end Verif
