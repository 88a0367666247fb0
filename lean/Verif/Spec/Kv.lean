import Verif.Go.Basic
/-!
The abstract memcached: a map from keys to items with flags, expiry and a unique "cas" token.
This is the specification the client, the pools and the router are compared with; it follows
memcached's doc/protocol.txt and is not modelled on any code of /repo.
-/

namespace Verif
namespace Kv

/-- A stored item.  `expiry = none`: never expires; `some t`: gone from second `t` on. -/
structure Entry where
  value : Bytes
  flags : Nat
  expiry : Option Nat
  cas : Nat
  deriving DecidableEq, Repr

/-- A server's contents, its clock (unix time in seconds) and its token counter. -/
structure Store where
  data : Bytes → Option Entry
  now : Nat
  nextCas : Nat

/-- The item is not expired at time `t`. -/
def Entry.live (e : Entry) (t : Nat) : Bool :=
  match e.expiry with
  | none => true
  | some x => t < x

/-- Look a key up. -/
def Store.find (s : Store) (k : Bytes) : Option Entry :=
  match s.data k with
  | some e => if e.live s.now then some e else none
  | none => none

/-- 30 days: larger expiration times are absolute (protocol.txt, "Expiration times"). -/
def maxDelta : Nat := 60 * 60 * 24 * 30

/-- When an item stored at time `now` with expiration argument `exp` expires. -/
def expiryOf (now : Nat) (exp : Int) : Option Nat :=
  if exp = 0 then none
  else if exp < 0 then some 0
  else if exp ≤ maxDelta then some (now + exp.toNat)
  else some exp.toNat

/-- Replace what is stored under a key. -/
def Store.write (s : Store) (k : Bytes) (e : Option Entry) : Store :=
  { s with data := fun x => if x = k then e else s.data x }

/-- Store an item unconditionally, with a fresh token. -/
def Store.put (s : Store) (k : Bytes) (value : Bytes) (flags : Nat) (expiry : Option Nat) : Store :=
  { s.write k (some ⟨value, flags, expiry, s.nextCas⟩) with nextCas := s.nextCas + 1 }

/-- Outcome of a storage command. -/
inductive Stored where
  | stored
  | notStored
  | exists_
  | notFound
  deriving DecidableEq, Repr

/-- Conditions under which a storage command stores. -/
inductive Mode where
  | set
  | add
  | replace
  | cas (token : Nat)
  deriving DecidableEq, Repr

/-- `set`, `add`, `replace`, `cas`. -/
def Store.store (s : Store) (m : Mode) (k value : Bytes) (flags : Nat) (exp : Int) : Stored × Store :=
  let s' := s.put k value flags (expiryOf s.now exp)
  match m, s.find k with
  | .set, _ => (.stored, s')
  | .add, none => (.stored, s')
  | .add, some _ => (.notStored, s)
  | .replace, some _ => (.stored, s')
  | .replace, none => (.notStored, s)
  | .cas _, none => (.notFound, s)
  | .cas c, some e => if e.cas = c then (.stored, s') else (.exists_, s)

/-- `delete`: was there such an item? -/
def Store.delete (s : Store) (k : Bytes) : Bool × Store :=
  match s.find k with
  | some _ => (true, s.write k none)
  | none => (false, s)

/-- `touch`. -/
def Store.touch (s : Store) (k : Bytes) (exp : Int) : Bool × Store :=
  match s.find k with
  | some e => (true, s.write k (some { e with expiry := expiryOf s.now exp }))
  | none => (false, s)

/-- A stored value that counts as a number: decimal digits of a 64-bit number, possibly
followed by spaces (which `decr` leaves behind). -/
def counterOf (v : Bytes) : Option Nat :=
  parseUint (v.takeWhile isDigit) 64 |>.bind fun n =>
    if (v.dropWhile isDigit).all (· == 32) then some n else none

/-- Outcome of `incr`/`decr`. -/
inductive Counted where
  | value (n : Nat)
  | notFound
  | notNumber
  deriving DecidableEq, Repr

/-- The new value of a counter: `incr` wraps at 64 bits, `decr` stops at zero. -/
def count (up : Bool) (n delta : Nat) : Nat :=
  if up then (n + delta) % 2 ^ 64 else n - delta

/-- The digits stored for the new value, filled with spaces to the old length. -/
def padTo (len : Nat) (v : Bytes) : Bytes := v ++ List.replicate (len - v.length) 32

/-- `incr` (`up`) and `decr`: keeps flags and expiry. -/
def Store.arith (s : Store) (up : Bool) (k : Bytes) (delta : Nat) : Counted × Store :=
  match s.find k with
  | none => (.notFound, s)
  | some e =>
    match counterOf e.value with
    | none => (.notNumber, s)
    | some n =>
      let n' := count up n delta
      (.value n', s.put k (padTo e.value.length (natDec n')) e.flags e.expiry)

/-- `flush_all`. -/
def Store.flush (s : Store) : Store := { s with data := fun _ => none }

/-- Time passes. -/
def Store.tick (s : Store) (d : Nat) : Store := { s with now := s.now + d }

end Kv
end Verif
