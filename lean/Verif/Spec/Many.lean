import Verif.Spec.BinApi
/-!
Several clients, of any protocols, that use one memcached server: what they should see.  Only the abstract
memcached `Kv` and the results of single operations (`Spec.Api`, `Spec.BinApi`) are used.
-/

namespace Verif
namespace Spec
open Kv

/-- The protocol a client speaks; a text client puts the server's name into its items. -/
inductive Proto where
  | text (name : Bytes)
  | metap
  | binary
  deriving DecidableEq, Repr

/-- Results and effects of one operation of a client that speaks `p`. -/
def Proto.api : Proto → Store → Op → Res Out × Store
  | .text name => textApi name
  | .metap => metaApi
  | .binary => binApi

/-- One call: some seconds pass, then `client` calls `op`. -/
structure Turn (C : Type) where
  delay : Nat
  client : C
  op : Op
  deriving DecidableEq, Repr

/-- What every call meets on the server, and what it returns; and the contents in the end. -/
def runMany {C : Type} (proto : C → Proto) : Store → List (Turn C) → List (Store × Res Out) × Store
  | s, [] => ([], s)
  | s, t :: rest =>
    let r := (proto t.client).api (s.tick t.delay) t.op
    let q := runMany proto r.2 rest
    ((s.tick t.delay, r.1) :: q.1, q.2)

/-- Flags every protocol transmits and every protocol's client can read: absent, or four bytes of which the
first is below 128. -/
def CommonFlags (i : Item) : Prop := ∀ f, i.flags = some f → f.length = 4 ∧ Flags31 f

/-- The flags of an item that is stored obey `CommonFlags`. -/
def FlagsOk : Op → Prop
  | .set i => CommonFlags i
  | .add i => CommonFlags i
  | .replace i => CommonFlags i
  | _ => True

/-- The operation is one its client can do properly: arguments memcached accepts, flags all clients can read; for
meta see `GoodMetaOp`. -/
def Proto.Fits (p : Proto) (s : Store) (op : Op) : Prop :=
  FlagsOk op ∧ match p with
  | .text _ => GoodOp op
  | .metap => GoodMetaOp s op
  | .binary => BinArgs op

/-- The call leaves nothing of memcached's reply unread (only binary clients do, see `leftOver`; `te` are the extras
memcached sends after a binary Touch). -/
def Proto.Reads (te : Entry → Bytes) (p : Proto) (s : Store) (op : Op) : Prop := p = .binary → leftOver te s op = []

/-- A condition on the calls of a history, which may depend on what they meet. -/
def AlongMany {C : Type} (proto : C → Proto) (P : C → Store → Op → Prop) : Store → List (Turn C) → Prop
  | _, [] => True
  | s, t :: rest => P t.client (s.tick t.delay) t.op
    ∧ AlongMany proto P ((proto t.client).api (s.tick t.delay) t.op).2 rest

/-- A client that has left something unread makes no more calls (C55 says what happens otherwise). -/
def StopsBehind {C : Type} (te : Entry → Bytes) (proto : C → Proto) : Store → List (Turn C) → Prop
  | _, [] => True
  | s, t :: rest => ((proto t.client).Reads te (s.tick t.delay) t.op ∨ ∀ u ∈ rest, u.client ≠ t.client)
    ∧ StopsBehind te proto ((proto t.client).api (s.tick t.delay) t.op).2 rest

/-- No binary client counts after it has stored an item with a token (C28 says what happens otherwise). -/
def NoStaleToken {C : Type} (proto : C → Proto) (turns : List (Turn C)) : Prop :=
  turns.Pairwise fun a b => a.client = b.client → proto a.client = .binary → UsesToken a.op → ¬ IsCount b.op

/-- The operation, if it succeeds, gives the key a new item or takes it away. -/
def Alters (k : Bytes) : Op → Prop
  | .set i => i.key = k
  | .add i => i.key = k
  | .replace i => i.key = k
  | .delete k' => k' = k
  | .increment k' _ _ => k' = k
  | .decrement k' _ _ => k' = k
  | .flush => True
  | _ => False

/-- The operation can change what is stored under the key, its lifetime included. -/
def Concerns (k : Bytes) : Op → Prop
  | .touch k' _ => k' = k
  | op => Alters k op

/-- What the item returned by `Get` says about the stored item. -/
structure Shows (v : Item) (e : Entry) : Prop where
  value : v.value = e.value
  flags : v.flags = some (putBE 4 e.flags)
  cas : v.cas = e.cas

/-- The call returned item `v` under `k` with its token: a `Get`, or a `GetMulti` of a meta client. -/
def Fetched {C : Type} (proto : C → Proto) (t : Turn C) (r : Res Out) (k : Bytes) (v : Item) : Prop :=
  (t.op = .get k ∧ r = .ok (.item v))
  ∨ (proto t.client = .metap ∧ ∃ ks l, t.op = .getMulti ks ∧ r = .ok (.items l) ∧ v ∈ l ∧ v.key = k)

/-- The operation stores `u`. -/
def Stores (u : Item) (op : Op) : Prop := op = .set u ∨ op = .add u ∨ op = .replace u

/-- An item stored at second `stored` with expiration `exp` is still there `passed` seconds later: it does not
expire, or its lifetime (up to 30 days) is longer, or the (absolute) time of its expiry has not come. -/
def Outlives (exp : Int) (stored passed : Nat) : Prop :=
  exp = 0 ∨ (0 < exp ∧ exp ≤ 2592000 ∧ (passed : Int) < exp) ∨ (2592000 < exp ∧ (stored : Int) + passed < exp)

instance (exp : Int) (a b : Nat) : Decidable (Outlives exp a b) := by unfold Outlives; infer_instance

/-- A counter `k` with value `n` after one operation: Increment adds, Decrement stops at zero, other operations leave
it alone. -/
def bump (k : Bytes) (n : Nat) : Op → Nat
  | .increment k' d _ => if k' = k then n + d.toNat else n
  | .decrement k' d _ => if k' = k then n - d.toNat else n
  | _ => n

/-- What an operation may add to the counter `k`. -/
def upBy (k : Bytes) : Op → Nat
  | .increment k' d _ => if k' = k then d.toNat else 0
  | _ => 0

/-- Increment or Decrement of `k` by a non-negative amount. -/
def CountsUpDown (k : Bytes) : Op → Prop
  | .increment k' d _ => k' = k ∧ 0 ≤ d
  | .decrement k' d _ => k' = k ∧ 0 ≤ d
  | _ => False

/-- The seconds that pass before the calls number `i+1` to `j`. -/
def between {C : Type} (turns : List (Turn C)) (i j : Nat) : Nat :=
  (((turns.take (j + 1)).drop (i + 1)).map Turn.delay).sum

end Spec
end Verif
