import Verif.Go.Basic
/-!
`bufio.Writer` (bufio/bufio.go of go 1.20): the write half of the `bufio.ReadWriter` that client and server put
around a connection (client/server.go:151, 194, 666, 697, 1171, 1208; server/server.go:74), over a connection
whose `Write`s may fail after any number of bytes.
-/

namespace Verif

/-- What the connection does with one `Write(p)`: take all of `p`, or take its first `n` bytes and return an
error (net.Conn: a deadline, a reset, a closed connection). -/
inductive Fate where
  | all
  | cut (n : Nat)
  deriving DecidableEq, Repr

/-- A `Write` that was made on the connection: the bytes it put on the wire, and whether it returned nil. -/
structure Wrote where
  bytes : Bytes
  ok : Bool
  deriving DecidableEq, Repr

/-- The outgoing half of a connection: the `Write`s made so far, and what will become of the next `Write`s (any list;
after its end they all succeed). -/
structure Pipe where
  writes : List Wrote := []
  fates : List Fate := []
  deriving DecidableEq, Repr

namespace Pipe

/-- All bytes put on the wire, in order. -/
def sent (c : Pipe) : Bytes := c.writes.flatMap (·.bytes)

/-- `Write(p)` of the connection: how many bytes went out and whether it returned nil. (net.Conn.) -/
def write (c : Pipe) (p : Bytes) : Nat × Bool × Pipe :=
  match c.fates with
  | [] => (p.length, true, { c with writes := c.writes ++ [⟨p, true⟩] })
  | .all :: fs => (p.length, true, { writes := c.writes ++ [⟨p, true⟩], fates := fs })
  | .cut n :: fs => (min n p.length, false, { writes := c.writes ++ [⟨p.take n, false⟩], fates := fs })

end Pipe

/-- A `bufio.Writer` on a connection: the buffered bytes (`b.buf[:b.n]`), whether `b.err` is set, the connection. -/
structure Writer where
  buf : Bytes := []
  failed : Bool := false
  net : Pipe := {}
  deriving DecidableEq, Repr

namespace Writer

/-- `b.Flush()`, bufio.go: an earlier error is returned again; nothing buffered, nothing to do; what a failed
`Write` left over stays in the buffer.  The connection never takes less than everything without an error, so the
`io.ErrShortWrite` branch is not there. -/
def flush (b : Writer) : Writer :=
  if b.failed then b
  else if b.buf = [] then b
  else
    match b.net.write b.buf with
    | (_, true, c) => { b with buf := [], net := c }
    | (n, false, c) => { buf := b.buf.drop n, failed := true, net := c }

/-- What is left to do in the loops below: nothing after a failure. (Auxiliary, for termination.) -/
def work (p : Bytes) (b : Writer) : Nat :=
  if b.failed then 0 else 2 * p.length + (if b.buf = [] then 1 else 2)

theorem flush_done (b : Writer) : b.flush.failed = true ∨ b.flush.buf = [] := by
  unfold flush
  split
  · exact .inl ‹_›
  · split
    · exact .inr ‹_›
    · split
      · exact .inr rfl
      · exact .inl rfl

/-- Fill the buffer with the beginning of `p` and flush it: the `else` branch of the loops of `Write` and
`WriteString`, bufio.go. -/
def fill (p : Bytes) (b : Writer) : Writer :=
  flush { b with buf := b.buf ++ p.take (bufSize - b.buf.length) }

/-- Hand all of `p` to the connection: the branch of `Write`, bufio.go, for an empty buffer. -/
def direct (p : Bytes) (b : Writer) : Nat × Writer :=
  match b.net.write p with
  | (n, ok, c) => (n, { b with failed := !ok, net := c })

theorem work_failed {p : Bytes} {b : Writer} (h : b.failed = true) : work p b = 0 := if_pos h
theorem work_nil {p : Bytes} {b : Writer} (h : b.failed = false) (hb : b.buf = []) :
    work p b = 2 * p.length + 1 := by simp [work, h, hb]
theorem work_le {p : Bytes} {b : Writer} (hb : b.buf = []) : work p b ≤ 2 * p.length + 1 := by
  cases h : b.failed
  · rw [work_nil h hb]; omega
  · rw [work_failed h]; omega
theorem work_cons {p : Bytes} {b : Writer} (h : b.failed = false) (hb : b.buf ≠ []) :
    work p b = 2 * p.length + 2 := by simp [work, h, hb]
theorem work_pos {p : Bytes} {b : Writer} (h : b.failed = false) : 2 * p.length < work p b := by
  by_cases hb : b.buf = []
  · rw [work_nil h hb]; omega
  · rw [work_cons h hb]; omega

theorem fill_work (p : Bytes) (b : Writer) (hf : b.failed = false) (h : bufSize - b.buf.length < p.length) :
    work (p.drop (bufSize - b.buf.length)) (fill p b) < work p b := by
  have hl := List.length_drop (i := bufSize - b.buf.length) (l := p)
  have hp := work_pos (p := p) hf
  rcases flush_done { b with buf := b.buf ++ p.take (bufSize - b.buf.length) } with h1 | h1
  · have e : work (p.drop (bufSize - b.buf.length)) (fill p b) = 0 := work_failed h1
    omega
  · have e : work (p.drop (bufSize - b.buf.length)) (fill p b) ≤ _ := work_le h1
    by_cases hb : b.buf = []
    · have hz : b.buf.length = 0 := by rw [hb]; rfl
      have hs : bufSize = 4096 := rfl
      omega
    · rw [work_cons hf hb]; omega

theorem direct_work (p : Bytes) (b : Writer) (hf : b.failed = false) (hp : 0 < p.length) :
    work (p.drop (direct p b).1) (direct p b).2 < work p b := by
  have hw := work_pos (p := p) hf
  have key : (direct p b).2.failed = true ∨ (direct p b).1 = p.length := by
    unfold direct Pipe.write
    split
    split at * <;> simp_all
  rcases key with h | h
  · rw [work_failed h]; omega
  · rw [h, List.drop_length]
    have : work [] (direct p b).2 ≤ 2 := by
      unfold work
      split
      · omega
      · split <;> simp
    omega

/-- `b.Write(p)`, bufio.go: as long as `p` does not fit into the buffer, hand it to the connection if the buffer is
empty, else fill the buffer and flush it; then copy the rest.  (It returns `b.err`, nil exactly if `failed` is not
set afterwards.) -/
def write (b : Writer) (p : Bytes) : Writer :=
  if hf : b.failed then b
  else if bufSize - b.buf.length < p.length then
    if b.buf = [] then write (direct p b).2 (p.drop (direct p b).1)
    else write (fill p b) (p.drop (bufSize - b.buf.length))
  else { b with buf := b.buf ++ p }
termination_by work p b
decreasing_by
  · exact direct_work p b (by simpa using hf) (by omega)
  · exact fill_work p b (by simpa using hf) ‹_›

/-- `b.WriteString(s)`, bufio.go, on a connection that is no `io.StringWriter` (`*net.TCPConn` is not): as `Write`,
but everything goes through the buffer. -/
def writeString (b : Writer) (s : Bytes) : Writer :=
  if hf : b.failed then b
  else if bufSize - b.buf.length < s.length then writeString (fill s b) (s.drop (bufSize - b.buf.length))
  else { b with buf := b.buf ++ s }
termination_by work s b
decreasing_by exact fill_work s b (by simpa using hf) ‹_›

end Writer
end Verif
