import Verif.Go.Bufio
import Verif.Mc.Session
/-! What it means that a byte stream reaches a program in pieces. -/

namespace Verif
namespace Spec

/-- A connection just opened, over which the peer will send `stream`; the `t`-th time the program asks
the network for bytes, it gets `cuts t` of them (one at least, no more than it asked for and than there
are). -/
def arriving (stream : Bytes) (cuts : Nat → Nat) : Sock := ⟨[], stream, cuts, 0⟩

/-- Some operations in a row, reading from the same stream; what each returns, and what is left. -/
def readEach {α : Type} : List (Rd α) → Bytes → List (Res α) × Bytes
  | [], i => ([], i)
  | m :: ms, i => ((m i).1 :: (readEach ms (m i).2).1, (readEach ms (m i).2).2)

/-- The same on a connection. -/
def readEachIn {α : Type} : List (Crd α) → Sock → List (Res α) × Sock
  | [], c => ([], c)
  | m :: ms, c => ((m c).1 :: (readEachIn ms (m c).2).1, (readEachIn ms (m c).2).2)

open Kv Mc

/-- One call over a connection to a memcached server: the request goes to the server, the server's reply
arrives behind whatever is unread on the connection, the client reads. -/
def exchangeIn (wire : Res Bytes) (rd : Crd Out) (s : Store) (c : Sock) : Option (Res Out × Store × Sock) :=
  match wire with
  | .ok w =>
    match answer s w with
    | some (reply, s') =>
      let q := rd { c with net := c.net ++ reply }
      some (q.1, s', q.2)
    | none => none
  | _ => none

/-- A whole history over one connection; the clock advances before each call. -/
def sessionIn (wire : Op → Res Bytes) (rd : Op → Crd Out) : Store → Sock → List Event → Option (List (Res Out) × Store)
  | s, _, [] => some ([], s)
  | s, c, (d, op) :: rest =>
    match exchangeIn (wire op) (rd op) (s.tick d) c with
    | none => none
    | some (res, s', c') => (sessionIn wire rd s' c' rest).map fun q => (res :: q.1, q.2)

end Spec
end Verif
