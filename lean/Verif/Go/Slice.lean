import Verif.Go.Basic
/-!
Go's `[]byte` with its backing memory: needed only where the code could change the caller's
memory.  Memory is a list of arrays; a slice is an array number, an offset, a length and a
capacity (language specification, "Slice types" and "Appending to and copying slices").
-/

namespace Verif
namespace Mem

/-- All arrays allocated so far. (Language semantics, not code of /repo.) -/
abbrev Memory := List Bytes

/-- The contents of array number `a` (language semantics). -/
def array (m : Memory) (a : Nat) : Bytes := m.getD a []

/-- A slice header (language semantics): array number, offset, length, capacity. -/
structure Slice where
  arr : Nat := 0
  off : Nat := 0
  len : Nat := 0
  cap : Nat := 0
  deriving DecidableEq, Repr

/-- A slice lies within its array (a nil slice has length and capacity 0). (Language semantics.) -/
structure Slice.Valid (m : Memory) (s : Slice) : Prop where
  len : s.len ≤ s.cap
  cap : s.off + s.cap ≤ (array m s.arr).length

/-- The bytes of a slice. -/
def Slice.bytes (m : Memory) (s : Slice) : Bytes := ((array m s.arr).drop s.off).take s.len

/-- Overwriting a part of an array. (Language semantics.) -/
def splice (a : Bytes) (pos : Nat) (bs : Bytes) : Bytes := a.take pos ++ bs ++ a.drop (pos + bs.length)

/-- Memory after writing `bs` at position `pos` of array `arr` (language semantics). -/
def write (m : Memory) (arr pos : Nat) (bs : Bytes) : Memory := m.set arr (splice (array m arr) pos bs)

/-- `append(s, bs...)`: in place when the capacity suffices, else into a new array, whose spare
capacity `grow` is up to the implementation. (client/server.go:476, 879.) -/
def goAppend (m : Memory) (s : Slice) (bs : Bytes) (grow : Nat) : Memory × Slice :=
  if s.len + bs.length ≤ s.cap then
    (write m s.arr (s.off + s.len) bs, { s with len := s.len + bs.length })
  else
    (m ++ [s.bytes m ++ bs ++ List.replicate grow 0],
      { arr := m.length, off := 0, len := s.len + bs.length, cap := s.len + bs.length + grow })

/-- `make([]byte, n)`. (client/client.go:18.) -/
def goMake (m : Memory) (n : Nat) : Memory × Slice :=
  (m ++ [List.replicate n 0], { arr := m.length, off := 0, len := n, cap := n })

/-- `s[:n]`: panics beyond the capacity, not beyond the length. (client/server.go:1351 and alike.) -/
def resliceTo (s : Slice) (n : Nat) : Res Slice := if n ≤ s.cap then .ok { s with len := n } else .panic

/-- `copy(dst, src)`. (client/server.go:1351 and alike.) -/
def goCopy (m : Memory) (dst src : Slice) : Memory :=
  write m dst.arr dst.off ((src.bytes m).take dst.len)

end Mem
end Verif
