import Verif.Go.BufWrite
/-!
Code that writes to a `bufio.Writer`, as the list of its write calls.
-/

namespace Verif

/-- One statement of such code. -/
inductive Put where
  /-- `if _, err := w.Write(p); err != nil { return err }` (also `fmt.Fprintf`, `fmt.Fprint`, which format into a
  buffer of their own and call `Write` once, and `header.EncodeTo(w)`, client/server.go:1783). -/
  | write (p : Bytes)
  /-- `w.Write(p)`, the error ignored. -/
  | write' (p : Bytes)
  /-- `if _, err := w.WriteString(s); err != nil { return err }`. -/
  | string (s : Bytes)
  /-- `w.WriteString(s)`, the error ignored. -/
  | string' (s : Bytes)
  /-- `if err := w.Flush(); err != nil { return err }`. -/
  | flush
  /-- `return err`, not because of a write. -/
  | fail (e : Err)
  /-- The code stops here with a panic. -/
  | panic
  deriving DecidableEq, Repr

namespace Put

/-- The bytes given to the writer up to the end, the `return` or the panic. -/
def bytes : List Put → Bytes
  | [] => []
  | .write p :: ps | .write' p :: ps | .string p :: ps | .string' p :: ps => p ++ bytes ps
  | .flush :: ps => bytes ps
  | .fail _ :: _ | .panic :: _ => []

/-- What an `if err != nil { return err }` makes of the writer. -/
def checked (b : Writer) (k : Writer → Res Unit × Writer) : Res Unit × Writer :=
  if b.failed then (.err .io, b) else k b

/-- Run the statements. -/
def run : List Put → Writer → Res Unit × Writer
  | [], b => (.ok (), b)
  | .write p :: ps, b => checked (b.write p) (run ps)
  | .write' p :: ps, b => run ps (b.write p)
  | .string s :: ps, b => checked (b.writeString s) (run ps)
  | .string' s :: ps, b => run ps (b.writeString s)
  | .flush :: ps, b => checked b.flush (run ps)
  | .fail e :: _, b => (.err e, b)
  | .panic :: _, b => (.panic, b)

end Put
end Verif
