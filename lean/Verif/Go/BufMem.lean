import Verif.Go.Bufio
import Verif.Go.Slice
/-!
`bufio.Reader` (bufio/bufio.go of go 1.20) and `io.ReadFull` on memory: the buffer is an array that is overwritten
again and again, `ReadSlice` returns a part of it, `io.ReadFull` fills a slice.  `Go/Bufio.lean` has the same with
values instead of slices.
-/

namespace Verif
namespace Mem

/-- A `bufio.Reader` on a connection, with all memory.  `arr` is the array below `b.buf`, `r` and `w` are `b.r` and
`b.w`; `hdr` is the array below `buf` of the response header in use (client/server.go:1799-1814); `net`, `cuts` and `t`
as in `Sock`.  (One response header stands for all that the pool may hold: `Read` fills it anew each time.) -/
structure MSock where
  mem : Memory
  arr : Nat
  hdr : Nat
  r : Nat
  w : Nat
  net : Bytes
  cuts : Nat → Nat
  t : Nat

namespace MSock

/-- What a reader of values sees: the unread part of the buffer. (bufio.go, `b.buf[b.r:b.w]`.) -/
def sock (c : MSock) : Sock := { buf := ((array c.mem c.arr).drop c.r).take (c.w - c.r), net := c.net, cuts := c.cuts, t := c.t }

/-- The first half of `b.fill()`, bufio.go: slide what is unread to the beginning of the buffer. -/
def slide (c : MSock) : MSock :=
  if 0 < c.r then { c with mem := write c.mem c.arr 0 c.sock.buf, r := 0, w := c.w - c.r } else c

/-- The second half: `n, err := b.rd.Read(b.buf[b.w:]); b.w += n`. (bufio.go.) -/
def more (c : MSock) : MSock :=
  { c with
    mem := write c.mem c.arr c.w (c.sock.piece (bufSize - c.w))
    w := c.w + (c.sock.piece (bufSize - c.w)).length
    net := c.net.drop (c.sock.got (bufSize - c.w))
    t := c.t + 1 }

/-- `b.fill()`, bufio.go. -/
def fill (c : MSock) : MSock := c.slide.more

theorem fill_net (c : MSock) (h : c.net ≠ []) : c.fill.net.length < c.net.length := by
  have : 0 < c.net.length := List.length_pos_iff.2 h
  have e : c.slide.net = c.net := by unfold slide; split <;> rfl
  simp only [fill, more, List.length_drop, Sock.got, e]
  omega

end MSock

/-- A computation on such a connection. (client/server.go:217-257 and alike.) -/
def Mrd (α : Type) := MSock → Res α × MSock

namespace Mrd
variable {α β : Type}

/-- `return a, nil`. -/
def pure (a : α) : Mrd α := fun c => (.ok a, c)
/-- `a, err := m; if err != nil { return err }; f(a)`. -/
def bind (m : Mrd α) (f : α → Mrd β) : Mrd β := fun c =>
  match m c with
  | (.ok a, c') => f a c'
  | (.err e, c') => (.err e, c')
  | (.panic, c') => (.panic, c')
instance : Monad Mrd where
  pure := Mrd.pure
  bind := Mrd.bind
/-- Return an error. (`return nil, err`.) -/
def fail (e : Err) : Mrd α := fun c => (.err e, c)
/-- A step that does not touch the connection. (`strconv`, slice expressions.) -/
def lift (r : Res α) : Mrd α := fun c => (r, c)

theorem bind_apply (m : Mrd α) (f : α → Mrd β) (c : MSock) :
    (m >>= f) c = match m c with
      | (.ok a, c') => f a c'
      | (.err e, c') => (.err e, c')
      | (.panic, c') => (.panic, c') := rfl
end Mrd

/-- Looking at the bytes of a slice, as they are now. (Any use of a `[]byte`.) -/
def view (s : Slice) : Mrd Bytes := fun c => (.ok (s.bytes c.mem), c)

/-- A new array with the given contents, and the slice of all of it. (`make` and the writes right after it, as at
client/server.go:239-240.) -/
def alloc (bs : Bytes) : Mrd Slice := fun c =>
  (.ok { arr := c.mem.length, off := 0, len := bs.length, cap := bs.length }, { c with mem := c.mem ++ [bs] })

/-- How `ReadSlice` ended, see `Bufio.Slice`. (bufio.go.) -/
inductive Line where
  | line (s : Slice)
  | ended
  | full

/-- The loop of `ReadSlice('\n')`, bufio.go: the line is a slice of the buffer. -/
def sliceLoop (s : Nat) (c : MSock) : Line × MSock :=
  match splitLine (c.sock.buf.drop s) with
  | some (l, _) =>
    (.line { arr := c.arr, off := c.r, len := s + l.length, cap := bufSize - c.r }, { c with r := c.r + (s + l.length) })
  | none =>
    if bufSize ≤ c.w - c.r then (.full, { c with r := c.w })
    else if h : c.net = [] then (.ended, { c with r := c.w })
    else sliceLoop (c.w - c.r) c.fill
termination_by c.net.length
decreasing_by exact c.fill_net h

/-- `ReadSlice('\n')` with its error. (bufio.go; client/server.go:217 and alike.) -/
def readSlice : Mrd Slice := fun c =>
  match sliceLoop 0 c with
  | (.line s, c') => (.ok s, c')
  | (.ended, c') => (.err .io, c')
  | (.full, c') => (.err .bufferFull, c')

/-- `Read(p)` of the `bufio.Reader`, bufio.go, where `p` are `n` bytes of array `a` from `off` on: how many bytes, or
`none` for the error of the connection. -/
def read (a off n : Nat) (c : MSock) : Option Nat × MSock :=
  if c.r = c.w then
    if c.net = [] then (none, c)
    else if bufSize ≤ n then
      (some (c.sock.piece n).length,
        { c with mem := write c.mem a off (c.sock.piece n), net := c.net.drop (c.sock.got n), t := c.t + 1 })
    else
      let p := c.sock.piece bufSize
      (some (p.take n).length,
        { c with
          mem := write (write c.mem c.arr 0 p) a off (p.take n)
          r := (p.take n).length
          w := p.length
          net := c.net.drop (c.sock.got bufSize)
          t := c.t + 1 })
  else
    (some (c.sock.buf.take n).length,
      { c with mem := write c.mem a off (c.sock.buf.take n), r := c.r + (c.sock.buf.take n).length })

/-- The loop of `io.ReadFull`: read until the slice is full. Fuel `k` as large as the slice suffices. (io.go.) -/
def fullLoop : Nat → (a off n : Nat) → MSock → Res Unit × MSock
  | 0, _, _, _, c => (.ok (), c)
  | k + 1, a, off, n, c =>
    if n = 0 then (.ok (), c)
    else match read a off n c with
      | (none, c') => (.err .io, c')
      | (some p, c') => fullLoop k a (off + p) (n - p) c'

/-- `buf := make([]byte, n); io.ReadFull(conn, buf)`. (client/server.go:243-246 and alike.) -/
def readNew (n : Nat) : Mrd Slice := do
  let s ← alloc (List.replicate n 0)
  let _ ← (fun c => fullLoop n s.arr 0 n c : Mrd Unit)
  pure s

/-- `make([]byte, n)` with its check, then `io.ReadFull`. -/
def readN (n : Int) : Mrd Slice := do
  let k ← Mrd.lift (makeLen n)
  readNew k

/-- `io.ReadFull(r, h.buf)` and what is then in `h.buf`. (client/server.go:1817.) -/
def readHdrBuf : Mrd Bytes := do
  let _ ← (fun c => fullLoop 24 c.hdr 0 24 c : Mrd Unit)
  fun c => (.ok ((array c.mem c.hdr).take 24), c)

/-- `s[:n]` of a slice that has just been made, so that its capacity is its length. (client/server.go:247.) -/
def sliceTo (s : Slice) (n : Int) : Res Slice := if 0 ≤ n ∧ n ≤ s.len then .ok { s with len := n.toNat } else .panic

/-- `s[n:]`. (client/server.go:1262.) -/
def sliceFrom (s : Slice) (n : Nat) : Res Slice :=
  if n ≤ s.len then .ok { s with off := s.off + n, len := s.len - n, cap := s.cap - n } else .panic

end Mem
end Verif
