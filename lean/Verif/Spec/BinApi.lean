import Verif.Spec.Api
/-!
What the operations of a binary connection should return and do, in terms of the abstract memcached
`Kv` only.
-/

namespace Verif
namespace Spec
open Kv

/-- What `Get` over the binary protocol returns for a stored item. -/
def binItem (key : Bytes) (e : Entry) (cas : Nat) : Item :=
  { key := key, value := e.value, flags := some (putBE 4 e.flags), cas := cas }

/-- An item with a token is stored only in place of the item with that token, whatever the operation. -/
def binMode (m : Mode) (item : Item) : Mode := if 0 < item.cas then .cas item.cas else m

/-- Increment and Decrement over the binary protocol: a missing counter is created with value 1 unless the
expiration is -1; the delta and the result are taken modulo 2^64, so `Increment` by a negative delta counts
down (wrapping at zero) and `Decrement` by a negative delta yields 0 or an unexpected number. -/
def binCount (s : Store) (up : Bool) (key : Bytes) (delta expiration : Int) : Res Out × Store :=
  match s.find key with
  | none =>
    if expiration = -1 then (.err (.msg b!"memcached: error key not found (Not found)"), s)
    else (.ok (.num 1), s.put key b!"1" 0 (expiryOf s.now expiration))
  | some _ =>
    let r := s.arith up key (toUnsigned 64 delta)
    match r.1 with
    | .value n => (.ok (.num (toSigned 64 n)), r.2)
    | _ => (.err (.msg (b!"memcached: error non-numeric value "
        ++ b!"(Non-numeric server-side value for incr or decr)")), r.2)

/-- Results and effects of the operations of a binary connection. -/
def binApi (s : Store) : Op → Res Out × Store
  | .get key =>
    match s.find key with
    | some e => (.ok (.item (binItem key e e.cas)), s)
    | none => (.err .itemNotFound, s)
  | .getMulti keys =>
    (.ok (.items (keys.filterMap fun k => (s.find k).map fun e => binItem k e 0)), s)
  | .set item =>
    let r := s.store (binMode .set item) item.key item.value (metaFlagsOf item) item.expiration
    match r.1 with
    | .stored => (.ok .done, r.2)
    | .exists_ => (.err .itemExists, r.2)
    | _ => (.err (.msg b!"memcached: error key not found"), r.2)
  | .add item =>
    let r := s.store (binMode .add item) item.key item.value (metaFlagsOf item) item.expiration
    match r.1 with
    | .stored => (.ok .done, r.2)
    | .notFound => (.err (.msg b!"memcached: error key not found"), r.2)
    | _ => (.err .itemExists, r.2)
  | .replace item =>
    let r := s.store (binMode .replace item) item.key item.value (metaFlagsOf item) item.expiration
    match r.1 with
    | .stored => (.ok .done, r.2)
    | .exists_ => (.err (.msg b!"memcached: error key exists"), r.2)
    | _ => (.err .itemNotFound, r.2)
  | .delete key =>
    let r := s.delete key
    (if r.1 then .ok .done else .err .itemNotFound, r.2)
  | .increment key delta e => binCount s true key delta e
  | .decrement key delta e => binCount s false key delta e
  | .touch key exp =>
    let r := s.touch key exp
    (if r.1 then .ok .done else .err (.msg b!"memcached: error key not found"), r.2)
  | .flush => (.ok .done, s.flush)

/-- An item the binary client can send: flags absent or at least four bytes, expiration not negative. -/
structure GoodBinItem (item : Item) : Prop where
  good : GoodItem item
  flags : ∀ f, item.flags = some f → 4 ≤ f.length
  exp : 0 ≤ item.expiration

/-- Arguments memcached accepts. -/
def BinArgs : Op → Prop
  | .get k => Key k
  | .getMulti ks => ∀ k ∈ ks, Key k
  | .set i => GoodBinItem i
  | .add i => GoodBinItem i
  | .replace i => GoodBinItem i
  | .delete k => Key k
  | .increment k d e => Key k ∧ InRange 64 d ∧ -1 ≤ e ∧ e < 2 ^ 31
  | .decrement k d e => Key k ∧ InRange 64 d ∧ -1 ≤ e ∧ e < 2 ^ 31
  | .touch k e => Key k ∧ 0 ≤ e ∧ e < 2 ^ 31
  | .flush => True

/-- The part of memcached's reply that stays unread in the connection: the error text after a refused `Set`,
`Add` or `Touch`, and the extras `te` memcached sends after a successful `Touch`. -/
def leftOver (te : Entry → Bytes) (s : Store) : Op → Bytes
  | .set i =>
    match (s.store (binMode .set i) i.key i.value (metaFlagsOf i) i.expiration).1 with
    | .stored => []
    | .exists_ => b!"Data exists for key."
    | _ => b!"Not found"
  | .add i =>
    match (s.store (binMode .add i) i.key i.value (metaFlagsOf i) i.expiration).1 with
    | .stored => []
    | .notFound => b!"Not found"
    | _ => b!"Data exists for key."
  | .touch k _ =>
    match s.find k with
    | none => b!"Not found"
    | some e => te e
  | _ => []

/-- Operations after which nothing of memcached's reply stays unread, whatever the server contains: no `Add`, no
`Touch`, and `Set` only without a token. -/
def Tidy : Op → Prop
  | .set i => i.cas = 0
  | .add _ => False
  | .touch _ _ => False
  | _ => True

/-- The operation stores an item with a token. -/
def UsesToken : Op → Prop
  | .set i => 0 < i.cas
  | .add i => 0 < i.cas
  | .replace i => 0 < i.cas
  | _ => False

/-- Increment or Decrement. -/
def IsCount : Op → Prop
  | .increment _ _ _ => True
  | .decrement _ _ _ => True
  | _ => False

/-- A `Set`, `Add` or `Touch` that fails. -/
def Refused (s : Store) : Op → Prop
  | .set i => (binApi s (.set i)).1 ≠ .ok .done
  | .add i => (binApi s (.add i)).1 ≠ .ok .done
  | .touch k e => (binApi s (.touch k e)).1 ≠ .ok .done
  | _ => False

/-- A change (other than `Touch` and counting) that succeeds. -/
def Changes (s : Store) : Op → Prop
  | .set i => (binApi s (.set i)).1 = .ok .done
  | .add i => (binApi s (.add i)).1 = .ok .done
  | .replace i => (binApi s (.replace i)).1 = .ok .done
  | .delete k => (binApi s (.delete k)).1 = .ok .done
  | .flush => True
  | _ => False

end Spec
end Verif
