import Verif.Mc.Session
import Verif.Client.Headers
/-!
The reference memcached speaking the binary protocol (environment, not code of /repo; memcached's
doc/protocol_binary.txt and proto_bin.c), and a client connected to it.
-/

namespace Verif
namespace McBin
open Kv Spec
open Mc (binCall)

/-- A request.  (Environment.) -/
structure Req where
  opcode : UInt8
  extras : Bytes
  key : Bytes
  value : Bytes
  opaq : Bytes
  cas : Nat
  deriving DecidableEq, Repr

/-- Read one request: a 24-byte header (magic 0x80, opcode, key length, extras length, data type, vbucket,
body length, opaque, cas) and a body of extras, key and value.  `none`: not a request; memcached closes the
connection.  (Environment.) -/
def readReq : Rd (Option Req) := do
  let h ← readFull 24
  if h.head? ≠ some 0x80 then pure none
  else do
    let body ← readFull (getBE ((h.take 12).drop 8))
    let el := (h.getD 4 0).toNat
    let kl := getBE ((h.take 4).drop 2)
    if el + kl ≤ body.length then
      pure (some { opcode := h.getD 1 0, extras := body.take el, key := (body.drop el).take kl,
                   value := body.drop (el + kl), opaq := (h.take 16).drop 12, cas := getBE ((h.take 24).drop 16) })
    else pure none

/-- A reply to `r`.  (Environment.) -/
def reply (r : Req) (status : Nat) (extras key value : Bytes) (cas : Nat) : Bytes :=
  [0x81, r.opcode] ++ putBE 2 key.length ++ [UInt8.ofNat extras.length, 0] ++ putBE 2 status
    ++ putBE 4 (extras.length + key.length + value.length) ++ r.opaq ++ putBE 8 cas ++ extras ++ key ++ value

/-- Status and text of an error reply.  (Environment.) -/
def notFound (r : Req) : Bytes := reply r 1 [] [] b!"Not found" 0
/-- See `notFound`. -/
def dataExists (r : Req) : Bytes := reply r 2 [] [] b!"Data exists for key." 0
/-- See `notFound`. -/
def notNumeric (r : Req) : Bytes := reply r 6 [] [] b!"Non-numeric server-side value for incr or decr" 0
/-- See `notFound`. -/
def unknown (r : Req) : Bytes := reply r 0x81 [] [] b!"Unknown command" 0
/-- See `notFound`. -/
def invalid (r : Req) : Bytes := reply r 4 [] [] b!"Invalid arguments" 0

/-- Condition of a storing request: with a token any of the three opcodes is a compare-and-swap.
(Environment.) -/
def modeOf (r : Req) : Mode :=
  if r.cas ≠ 0 then .cas r.cas
  else if r.opcode = 2 then .add
  else if r.opcode = 3 then .replace
  else .set

/-- Execute a request: reply and new contents.  `touchExtras` are the extras of the reply to a successful
Touch: memcached sends the flags there although protocol_binary.txt does not say so.  The token of the item
written is the counter before.  (Environment.) -/
def exec (touchExtras : Entry → Bytes) (s : Store) (r : Req) : Bytes × Store :=
  if r.opcode = 0x00 ∨ r.opcode = 0x0d then
    match s.find r.key with
    | some e => (reply r 0 (putBE 4 e.flags) (if r.opcode = 0x0d then r.key else []) e.value e.cas, s)
    | none => (if r.opcode = 0x0d then [] else notFound r, s)
  else if r.opcode = 0x01 ∨ r.opcode = 0x02 ∨ r.opcode = 0x03 then
    if r.extras.length ≠ 8 then (invalid r, s)
    else
      let q := s.store (modeOf r) r.key r.value (getBE (r.extras.take 4)) (getBE (r.extras.drop 4))
      match q.1 with
      | .stored => (reply r 0 [] [] [] s.nextCas, q.2)
      | .exists_ => (dataExists r, q.2)
      | .notFound => (notFound r, q.2)
      | .notStored => (if r.opcode = 0x02 then dataExists r else notFound r, q.2)
  else if r.opcode = 0x04 then
    match s.find r.key with
    | none => (notFound r, s)
    | some e =>
      if r.cas ≠ 0 ∧ r.cas ≠ e.cas then (dataExists r, s)
      else (reply r 0 [] [] [] 0, (s.delete r.key).2)
  else if r.opcode = 0x05 ∨ r.opcode = 0x06 then
    if r.extras.length ≠ 20 then (invalid r, s)
    else
      let delta := getBE (r.extras.take 8)
      let initial := getBE ((r.extras.take 16).drop 8)
      let exp := getBE (r.extras.drop 16)
      match s.find r.key with
      | none =>
        if exp = 0xffffffff then (notFound r, s)
        else (reply r 0 [] [] (putBE 8 initial) s.nextCas,
          s.put r.key (natDec initial) 0 (expiryOf s.now exp))
      | some e =>
        if r.cas ≠ 0 ∧ r.cas ≠ e.cas then (dataExists r, s)
        else
          let q := s.arith (r.opcode = 0x05) r.key delta
          match q.1 with
          | .value n => (reply r 0 [] [] (putBE 8 n) s.nextCas, q.2)
          | .notFound => (notFound r, q.2)
          | .notNumber => (notNumeric r, q.2)
  else if r.opcode = 0x1c then
    if r.extras.length ≠ 4 then (invalid r, s)
    else
      match s.find r.key with
      | none => (notFound r, s)
      | some e => (reply r 0 (touchExtras e) [] [] e.cas, (s.touch r.key (getBE r.extras)).2)
  else if r.opcode = 0x08 then (reply r 0 [] [] [] 0, s.flush)
  else if r.opcode = 0x0a then (reply r 0 [] [] [] 0, s)
  else if r.opcode = 0x0b then (reply r 0 [] [] b!"1.6.0" 0, s)
  else (unknown r, s)

/-- Answer all requests in a piece of stream; `none` when it does not end with the end of a request or
memcached closes the connection.  (Environment.) -/
def answerLoop (te : Entry → Bytes) : Nat → Store → Bytes → Option (Bytes × Store)
  | _, s, [] => some ([], s)
  | 0, _, _ :: _ => none
  | n + 1, s, b :: i =>
    match readReq (b :: i) with
    | (.ok (some r), rest) =>
      (answerLoop te n (exec te s r).2 rest).map fun q => ((exec te s r).1 ++ q.1, q.2)
    | _ => none

/-- All requests of a piece of stream answered.  (Environment.) -/
def answer (te : Entry → Bytes) (s : Store) (i : Bytes) : Option (Bytes × Store) := answerLoop te i.length s i

/-- The operation as a call of the binary client.  (client/server.go:1212-1738.) -/
def opOf : Op → Bin.BOp
  | .get k => .get k
  | .getMulti ks => .getMulti ks
  | .set i => .set i
  | .add i => .add i
  | .replace i => .replace i
  | .delete k => .delete k
  | .increment k d e => .increment k d e
  | .decrement k d e => .decrement k d e
  | .touch k e => .touch k e
  | .flush => .flush

/-- One call over a connection on which `unread` is still to be read: result, contents of the server, what
is left to be read then.  `none` when the request is no whole number of requests or the client waits for
more than the server sends.  (client/server.go against the environment.) -/
def exchange (te : Entry → Bytes) (c : Call Out) (s : Store) (unread : Bytes) : Option (Res Out × Store × Bytes) :=
  match c.wire with
  | .ok w =>
    match answer te s w with
    | some (rep, s') =>
      match c.rd (unread ++ rep) with
      | (res, rest) => if res = .err .io then none else some (res, s', rest)
    | none => none
  | _ => none

/-- How `sync.Pool.Get` chooses: the header for the `n`-th request for one, out of those in the pool.
(client/server.go:1148, 1173.) -/
abbrev Chooser := Nat → List Bin.ReqHdr → Bin.ReqHdr

/-- A whole history over one connection.  `n` is the number of calls made before, `pool` the headers put back
so far; the clock advances before each call.  (client/server.go against the environment.) -/
def session (te : Entry → Bytes) (ch : Chooser) : Nat → List Bin.ReqHdr → Store → Bytes → List Event →
    Option (List (Res Out) × Store × Bytes)
  | _, _, s, unread, [] => some ([], s, unread)
  | n, pool, s, unread, (d, op) :: rest =>
    let h1 := ch (2 * n) pool
    let pool1 := pool ++ [(opOf op).put1 h1]
    let h2 := ch (2 * n + 1) pool1
    match exchange te (binCall h1 h2 op) (s.tick d) unread with
    | none => none
    | some (res, s', left) =>
      (session te ch (n + 1) (pool1 ++ (opOf op).put2 h2) s' left rest).map fun q => (res :: q.1, q.2)

end McBin
end Verif
