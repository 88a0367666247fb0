import Verif.Spec.Kv
/-!
A memcached server at the level of bytes: the part of its text and meta protocol that the
clients of this module use (doc/protocol.txt of memcached 1.6), on top of the abstract store
`Kv`.  This is not code of /repo: it is the environment against which the clients are verified,
and it is trusted to describe memcached.  Left out: size limits, memory pressure (evictions),
`noreply`, and every command the clients do not send.
-/

namespace Verif
namespace Mc
open Kv

/-- Commands. (Environment: memcached, not code of /repo.) -/
inductive Cmd where
  | gets (keys : List Bytes)
  | store (m : Mode) (key : Bytes) (flags : Nat) (exp : Int) (value : Bytes)
  | delete (key : Bytes)
  | arith (up : Bool) (key : Bytes) (delta : Nat)
  | touch (key : Bytes) (exp : Int)
  | flush
  | version
  | mg (key : Bytes) (flags : List Bytes)
  | ms (key : Bytes) (flags : Nat) (exp : Int) (cas : Option Nat) (value : Bytes)
  | md (key : Bytes)
  | mn
  deriving DecidableEq, Repr

/-- What a command line asks for: a command, or one that is completed by a data block of the
given length. (Environment: memcached, not code of /repo.) -/
inductive Line where
  | done (c : Cmd)
  | data (size : Nat) (f : Bytes → Cmd)

/-- Tokens of `ms`: `T` expiration, `C` cas token, `F` flags. (Environment: memcached, not code of /repo.) -/
structure MsOpts where
  exp : Int := 0
  cas : Option Nat := none
  flags : Nat := 0
  deriving DecidableEq, Repr

/-- One token of `ms` (environment: memcached). -/
def msOpt (o : MsOpts) (t : Bytes) : Option MsOpts :=
  match t with
  | c :: r =>
    if c = 84 then (parseInt r 32).map fun n => { o with exp := n }
    else if c = 67 then (parseUint r 64).map fun n => { o with cas := some n }
    else if c = 70 then (parseUint r 32).map fun n => { o with flags := n }
    else none
  | [] => none

/-- All tokens of `ms` (environment: memcached). -/
def msOpts : MsOpts → List Bytes → Option MsOpts
  | o, [] => some o
  | o, t :: ts => (msOpt o t).bind fun o' => msOpts o' ts

/-- A storage command line. (Environment: memcached, not code of /repo.) -/
def storeLine (m : Mode) (key sf se sn : Bytes) : Option Line := do
  let f ← parseUint sf 32
  let e ← parseInt se 32
  let n ← parseUint sn 31
  pure (.data n (.store m key f e))

/-- Parse a command line (without its line end) that was split at spaces; `none` is a line the
server answers with an error. (Environment: memcached, not code of /repo.) -/
def parseLine : List Bytes → Option Line
  | [] => none
  | cmd :: args =>
    if cmd = b!"gets" then (if args = [] then none else some (.done (.gets args)))
    else if cmd = b!"set" then
      match args with | [k, f, e, n] => storeLine .set k f e n | _ => none
    else if cmd = b!"add" then
      match args with | [k, f, e, n] => storeLine .add k f e n | _ => none
    else if cmd = b!"replace" then
      match args with | [k, f, e, n] => storeLine .replace k f e n | _ => none
    else if cmd = b!"cas" then
      match args with
      | [k, f, e, n, c] => (parseUint c 64).bind fun c => storeLine (.cas c) k f e n
      | _ => none
    else if cmd = b!"delete" then
      match args with | [k] => some (.done (.delete k)) | _ => none
    else if cmd = b!"incr" then
      match args with | [k, d] => (parseUint d 64).map fun d => .done (.arith true k d) | _ => none
    else if cmd = b!"decr" then
      match args with | [k, d] => (parseUint d 64).map fun d => .done (.arith false k d) | _ => none
    else if cmd = b!"touch" then
      match args with | [k, e] => (parseInt e 32).map fun e => .done (.touch k e) | _ => none
    else if cmd = b!"flush_all" then (if args = [] then some (.done .flush) else none)
    else if cmd = b!"version" then (if args = [] then some (.done .version) else none)
    else if cmd = b!"mg" then
      match args with | k :: flags => some (.done (.mg k flags)) | _ => none
    else if cmd = b!"ms" then
      match args with
      | k :: n :: toks => do
        let n ← parseUint n 31
        let o ← msOpts {} toks
        pure (.data n (.ms k o.flags o.exp o.cas))
      | _ => none
    else if cmd = b!"md" then
      match args with | [k] => some (.done (.md k)) | _ => none
    else if cmd = b!"mn" then (if args = [] then some (.done .mn) else none)
    else none

/-- The data block of a storage command: `<value>\r\n`. (Environment: memcached, not code of /repo.) -/
def readLineData : Option Line → Rd (Option Cmd)
  | none => pure none
  | some (.done c) => pure (some c)
  | some (.data n f) => do
    let b ← readFull (n + 2)
    if b.drop n = crlf then pure (some (f (b.take n))) else pure none

/-- Read one command. (Environment: memcached, not code of /repo.) -/
def readCmd : Rd (Option Cmd) := do
  let line ← readBytes
  readLineData (parseLine (splitSp (trimSuffix line crlf)))

/-- `VALUE <key> <flags> <bytes> <cas>` blocks of the keys that are there. -/
def valueBlocks (s : Store) : List Bytes → Bytes
  | [] => []
  | k :: ks =>
    (match s.find k with
      | some e => b!"VALUE " ++ k ++ 32 :: natDec e.flags ++ 32 :: natDec e.value.length
          ++ 32 :: natDec e.cas ++ crlf ++ e.value ++ crlf
      | none => []) ++ valueBlocks s ks

/-- Remaining seconds to live; -1 for an item that does not expire.
(Environment: memcached, not code of /repo.) -/
def ttl (now : Nat) (e : Entry) : Int :=
  match e.expiry with
  | none => -1
  | some x => (x : Int) - now

/-- A returned token of `mg`. (Environment: memcached, not code of /repo.) -/
def mgTok (now : Nat) (key : Bytes) (e : Entry) (f : Bytes) : Bytes :=
  if f = b!"f" then b!" f" ++ natDec e.flags
  else if f = b!"c" then b!" c" ++ natDec e.cas
  else if f = b!"t" then b!" t" ++ intDec (ttl now e)
  else if f = b!"k" then b!" k" ++ key
  else []

/-- Reply to a classic storage command (environment: memcached). -/
def storedLine : Stored → Bytes
  | .stored => b!"STORED\r\n"
  | .notStored => b!"NOT_STORED\r\n"
  | .exists_ => b!"EXISTS\r\n"
  | .notFound => b!"NOT_FOUND\r\n"

/-- Reply to `ms` (environment: memcached). -/
def metaLine : Stored → Bytes
  | .stored => b!"HD\r\n"
  | .notStored => b!"NS\r\n"
  | .exists_ => b!"EX\r\n"
  | .notFound => b!"NF\r\n"

/-- Execute a command: the reply and the new contents. (Environment: memcached, not code of /repo.) -/
def exec (s : Store) : Cmd → Bytes × Store
  | .gets keys => (valueBlocks s keys ++ b!"END\r\n", s)
  | .store m key flags exp value =>
    let r := s.store m key value flags exp
    (storedLine r.1, r.2)
  | .delete key =>
    let r := s.delete key
    (if r.1 then b!"DELETED\r\n" else b!"NOT_FOUND\r\n", r.2)
  | .arith up key delta =>
    let r := s.arith up key delta
    (match r.1 with
      | .value n => natDec n ++ crlf
      | .notFound => b!"NOT_FOUND\r\n"
      | .notNumber => b!"CLIENT_ERROR cannot increment or decrement non-numeric value\r\n", r.2)
  | .touch key exp =>
    let r := s.touch key exp
    (if r.1 then b!"TOUCHED\r\n" else b!"NOT_FOUND\r\n", r.2)
  | .flush => (b!"OK\r\n", s.flush)
  | .version => (b!"VERSION 1.6.0\r\n", s)
  | .mg key flags =>
    (match s.find key with
      | none => b!"EN\r\n"
      | some e =>
        let toks := flags.flatMap (mgTok s.now key e)
        if b!"v" ∈ flags then b!"VA " ++ natDec e.value.length ++ toks ++ crlf ++ e.value ++ crlf
        else b!"HD" ++ toks ++ crlf, s)
  | .ms key flags exp cas value =>
    let r := s.store (match cas with | some c => .cas c | none => .set) key value flags exp
    (metaLine r.1, r.2)
  | .md key =>
    let r := s.delete key
    (if r.1 then b!"HD\r\n" else b!"NF\r\n", r.2)
  | .mn => (b!"MN\r\n", s)

/-- One round of the server: read a command, answer it.  `none`: the connection is over or the
next command is not complete. (Environment: memcached, not code of /repo.) -/
def step (s : Store) (i : Bytes) : Option (Bytes × Store × Bytes) :=
  match readCmd i with
  | (.ok (some c), r) => some ((exec s c).1, (exec s c).2, r)
  | (.ok none, r) => some (b!"ERROR\r\n", s, r)
  | _ => none

/-- Answer all commands in a piece of stream; `none` when it does not end with the end of a
command.  Every command takes at least one byte, so the fuel `i.length` suffices.
(Environment: memcached, not code of /repo.) -/
def answerLoop : Nat → Store → Bytes → Option (Bytes × Store)
  | _, s, [] => some ([], s)
  | 0, _, _ :: _ => none
  | n + 1, s, b :: i =>
    match step s (b :: i) with
    | none => none
    | some (reply, s', r) => (answerLoop n s' r).map fun q => (reply ++ q.1, q.2)

/-- All commands of a piece of stream answered (environment: memcached). -/
def answer (s : Store) (i : Bytes) : Option (Bytes × Store) := answerLoop i.length s i

end Mc
end Verif
