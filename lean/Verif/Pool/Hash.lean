import Verif.Pool.Ring
/-!
The two hash functions of the ring, computed.  They are used for the concrete witnesses only:
the general theorems about the ring hold for every pair of hash functions.
-/

namespace Verif
namespace Pool

/-- One bit of the reflected CRC-32 with polynomial 0xEDB88320 (hash/crc32, IEEE).
(Library, called at client/ring.go:53.) -/
def crcBit (c : Nat) : Nat :=
  if c % 2 = 1 then Nat.xor (c / 2) 0xEDB88320 else c / 2

/-- One byte. (Library, called at client/ring.go:53.) -/
def crcByte (c : Nat) (b : UInt8) : Nat :=
  crcBit (crcBit (crcBit (crcBit (crcBit (crcBit (crcBit (crcBit (Nat.xor c b.toNat))))))))

/-- `crc32.ChecksumIEEE`. (Library, called at client/ring.go:53.) -/
def crc32IEEE (b : Bytes) : Nat := Nat.xor (b.foldl crcByte 0xFFFFFFFF) 0xFFFFFFFF

/-- Rotate a 32-bit word left by `k`. (Library, called at client/ring.go:29-32.) -/
def rotl (k x : Nat) : Nat :=
  Nat.add (Nat.mod (Nat.mul x (Nat.pow 2 k)) 4294967296) (Nat.div x (Nat.pow 2 (Nat.sub 32 k)))

/-- SHA-1 padding. (Library, called at client/ring.go:29-32.) -/
def shaPad (m : Bytes) : Bytes :=
  m ++ 0x80 :: List.replicate ((119 - m.length % 64) % 64) 0 ++ putBE 8 (m.length * 8)

/-- `k n`, with `n` evaluated first (so that the kernel does not carry unevaluated terms).
(Library, called at client/ring.go:29-32.) -/
def force {α : Type} (n : Nat) (k : Nat → α) : α :=
  match n with
  | 0 => k 0
  | m + 1 => k (m + 1)

/-- The 16 words of a block, last word first. (Library, called at client/ring.go:29-32.) -/
def shaWords : Bytes → List Nat → List Nat
  | a :: b :: c :: d :: r, acc => force (getBE [a, b, c, d]) fun x => shaWords r (x :: acc)
  | _, acc => acc

/-- `n` further words of the message schedule (newest first). (Library, called at client/ring.go:29-32.) -/
def shaExpand : Nat → List Nat → List Nat
  | 0, w => w
  | n + 1, w =>
    force (rotl 1 (Nat.xor (Nat.xor (w.getD 2 0) (w.getD 7 0)) (Nat.xor (w.getD 13 0) (w.getD 15 0))))
      fun x => shaExpand n (x :: w)

/-- The chaining value. (Library, called at client/ring.go:29-32.) -/
structure Sha where
  a : Nat
  b : Nat
  c : Nat
  d : Nat
  e : Nat

/-- Round function and constant of round `t`. (Library, called at client/ring.go:29-32.) -/
def shaF (t b c d : Nat) : Nat :=
  bif Nat.blt t 20 then
    Nat.add (Nat.lor (Nat.land b c) (Nat.land (Nat.sub 0xFFFFFFFF b) d)) 0x5A827999
  else bif Nat.blt t 40 then Nat.add (Nat.xor (Nat.xor b c) d) 0x6ED9EBA1
  else bif Nat.blt t 60 then
    Nat.add (Nat.lor (Nat.lor (Nat.land b c) (Nat.land b d)) (Nat.land c d)) 0x8F1BBCDC
  else Nat.add (Nat.xor (Nat.xor b c) d) 0xCA62C1D6

/-- The rounds over the message schedule, oldest word first. (Library, called at client/ring.go:29-32.) -/
def shaRounds : List Nat → Nat → Nat → Nat → Nat → Nat → Nat → Sha
  | [], _, a, b, c, d, e => ⟨a, b, c, d, e⟩
  | w :: ws, t, a, b, c, d, e =>
    force (Nat.mod (Nat.add (Nat.add (rotl 5 a) (shaF t b c d)) (Nat.add e w)) 4294967296) fun a' =>
      force (rotl 30 b) fun c' => force (Nat.succ t) fun t' => shaRounds ws t' a' a c' c d

/-- One 64-byte block. (Library, called at client/ring.go:29-32.) -/
def shaBlock (s : Sha) (block : Bytes) : Sha :=
  match shaRounds (shaExpand 64 (shaWords block [])).reverse 0 s.a s.b s.c s.d s.e with
  | ⟨a, b, c, d, e⟩ =>
    ⟨(s.a + a) % 2 ^ 32, (s.b + b) % 2 ^ 32, (s.c + c) % 2 ^ 32, (s.d + d) % 2 ^ 32,
      (s.e + e) % 2 ^ 32⟩

/-- All blocks of a padded message of `n` blocks. (Library, called at client/ring.go:29-32.) -/
def shaBlocks : Nat → Sha → Bytes → Sha
  | 0, s, _ => s
  | n + 1, s, m => shaBlocks n (shaBlock s (m.take 64)) (m.drop 64)

/-- SHA-1 (crypto/sha1). (Library, called at client/ring.go:29-32.) -/
def sha1 (m : Bytes) : Sha :=
  let p := shaPad m
  shaBlocks (p.length / 64) ⟨0x67452301, 0xEFCDAB89, 0x98BADCFE, 0x10325476, 0xC3D2E1F0⟩ p

/-- The hash functions of client/ring.go: `binary.BigEndian.Uint32(s[:4])` is the first word
of the digest. -/
def realHashes : Hashes := ⟨fun b => (sha1 b).a, crc32IEEE⟩

end Pool
end Verif
