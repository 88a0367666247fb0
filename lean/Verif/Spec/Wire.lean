import Verif.Client.Types
import Verif.Server.Read
import Verif.Server.Write
import Verif.Go.Lemmas
import Verif.Go.Fscanf
/-!
Specification vocabulary for the wire properties.  Nothing in here refers to the way client
or server are implemented.
-/

namespace Verif
namespace Spec

/-- A key that stays one word of one line: no space and no line feed. -/
def Plain (k : Bytes) : Prop := (32 : UInt8) ∉ k ∧ (10 : UInt8) ∉ k

instance (k : Bytes) : Decidable (Plain k) := by unfold Plain; infer_instance

/-- The request written by client call `c` is read by the server of this module as exactly
the request `req` of protocol `p`, and reading stops exactly at the end of what the client
wrote, whatever follows (`rest`); both when it is the first request of the connection
(protocol still to be detected) and when it is a later one. -/
def Arrives {α : Type} (p : Srv.Protocol) (c : Call α) (req : Srv.Request) : Prop :=
  ∃ w, c.wire = .ok w ∧
    ∀ q : Option Srv.Protocol, q = none ∨ q = some p →
      ∀ rest, Srv.readRequest q (w ++ rest) = (.ok (p, req), rest)

/-- When the handler returns the responses `res` for request `req`, the server sends a reply,
and a client that executes call `c` obtains outcome `x` from it, leaving exactly the bytes
after that reply (`rest`) for the next call. -/
def Answers {α : Type} (p : Srv.Protocol) (req : Srv.Request) (res : List Srv.Response)
    (c : Call α) (x : Res α) : Prop :=
  ∃ w, Srv.writeResponse p req res = .ok w ∧ ∀ rest, c.rd (w ++ rest) = (x, rest)

/-- A Unicode scalar value. -/
def Scalar (r : Nat) : Prop := r < 0xD800 ∨ (0xE000 ≤ r ∧ r < 0x110000)

instance (r : Nat) : Decidable (Scalar r) := by unfold Scalar; infer_instance

/-- A key that the text client can read back from a reply: the UTF-8 encoding of a non-empty
sequence of characters none of which is white space. -/
def TextKey (k : Bytes) : Prop :=
  ∃ rs : List Nat, rs ≠ [] ∧ k = rs.flatMap Scan.encodeRune ∧ (∀ r ∈ rs, Scalar r)
    ∧ ∀ r ∈ rs, Scan.isSpace r = false

/-- A printable ASCII string, no space: the usual kind of key. -/
def Graphic (k : Bytes) : Prop := k ≠ [] ∧ ∀ b ∈ k, 33 ≤ b.toNat ∧ b.toNat ≤ 126

instance (k : Bytes) : Decidable (Graphic k) := by unfold Graphic; infer_instance

/-- The four flag bytes a text client transmits: the item's, if it has exactly four, else
zero. -/
def flagBytes : Option Bytes → Bytes
  | some f => if f.length = 4 then f else [0, 0, 0, 0]
  | none => [0, 0, 0, 0]

/-- The flag bytes read as a number fit into 31 bits, i.e. the top bit is clear. -/
def Flags31 (f : Bytes) : Prop := getBE f < 2 ^ 31

instance (f : Bytes) : Decidable (Flags31 f) := by unfold Flags31; infer_instance

/-! ### The reply to a text get (memcached's protocol.txt, "Retrieval command") -/

/-- One item of such a reply; `cas` is present in answers to `gets` of a real memcached. -/
structure Block where
  key : Bytes
  flags : Nat
  value : Bytes
  cas : Option Nat := none

/-- The optional last field of the header line. -/
def casPart : Option Nat → Bytes
  | none => []
  | some c => 32 :: natDec c

/-- `VALUE <key> <flags> <bytes> [<cas unique>]\r\n` -/
def valueLine (key : Bytes) (flags size : Nat) (cas : Option Nat) : Bytes :=
  b!"VALUE " ++ key ++ 32 :: natDec flags ++ 32 :: natDec size ++ casPart cas ++ crlf

/-- The header line and `<data block>\r\n`. -/
def valueBlock (b : Block) : Bytes :=
  valueLine b.key b.flags b.value.length b.cas ++ b.value ++ crlf

end Spec
end Verif
