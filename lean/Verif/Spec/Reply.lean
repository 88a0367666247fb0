import Verif.Go.Basic
/-!
What a reply of a memcached server looks like on the wire (protocol.txt and
protocol_binary.xml), independent of how the client reads it.
-/

namespace Verif
namespace Spec

/-- A line: it ends with its only line feed. -/
def Line (l : Bytes) : Prop := ∃ p, l = p ++ [10] ∧ (10 : UInt8) ∉ p

/-- The stream `i` begins with the line `l` (of at most 4096 bytes, the size of the client's
read buffer), and `r` follows. -/
def Reply (i l r : Bytes) : Prop := i = l ++ r ∧ Line l ∧ l.length ≤ 4096

/-- A binary response header: 24 bytes, the first one 0x81. -/
def BinHead (h : Bytes) : Prop := h.length = 24 ∧ h.head? = some 0x81

/-- Fields of a binary header, by their byte offsets. -/
def opcodeOf (h : Bytes) : UInt8 := h.getD 1 0
/-- Bytes 2 and 3. -/
def keyLenOf (h : Bytes) : Nat := getBE ((h.take 4).drop 2)
/-- Byte 4. -/
def extraLenOf (h : Bytes) : Nat := (h.getD 4 0).toNat
/-- Bytes 6 and 7. -/
def statusOf (h : Bytes) : Nat := getBE ((h.take 8).drop 6)
/-- Bytes 8 to 11. -/
def bodyLenOf (h : Bytes) : Nat := getBE ((h.take 12).drop 8)
/-- Bytes 16 to 23. -/
def casOf (h : Bytes) : Nat := getBE ((h.take 24).drop 16)

/-- The stream `i` begins with the binary response `h`, `body`, and `r` follows. -/
def BinReply (i h body r : Bytes) : Prop :=
  i = h ++ body ++ r ∧ BinHead h ∧ body.length = bodyLenOf h

end Spec
end Verif
