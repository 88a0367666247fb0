import Verif.Go.Puts
import Verif.Server.Serve
/-!
The reply writers of server/server.go once more, statement by statement, on a `bufio.Writer` over a connection that
may fail at any write; and the serve loop with them.
-/

namespace Verif
namespace Srv
namespace Puts

/-- `writeAsciiResponseGet`, server/server.go:621-644. -/
def asciiGet (r : Response) : List Put :=
  match respFlags r.flags with
  | .ok flag =>
    [.string (b!"VALUE " ++ r.key ++ 32 :: natDec flag ++ 32 :: natDec r.value.length ++ crlf),
      .write r.value, .write crlf]
  | _ => [.panic]

/-- What one letter of the request flags adds to the `VA` line, server/server.go:659-672. -/
def metaGetTok (req : Request) (r : Response) (flag : Nat) (v : UInt8) : List Put :=
  if v = 99 then [.string' (32 :: intDec r.cas)]                     -- 'c'
  else if v = 102 then [.string' (32 :: natDec flag)]                -- 'f'
  else if v = 107 then [.string' (32 :: req.key)]                    -- 'k'
  else if v = 115 then [.string' (32 :: natDec r.value.length)]      -- 's'
  else if v = 116 then [.string' (32 :: intDec r.ttl)]               -- 't'
  else []

/-- `writeAsciiResponseMetaGet`, server/server.go:645-684, with `o = *req.GetOpt`. -/
def asciiMetaGet (req : Request) (o : GetOpt) (r : Response) : List Put :=
  match respFlags r.flags with
  | .ok flag =>
    .string (b!"VA " ++ natDec r.value.length ++ 32 :: o.requestFlag)
      :: (o.requestFlag.flatMap (metaGetTok req r flag)
      ++ [.write' crlf] ++ (if o.value then [.write r.value] else []) ++ [.write crlf])
  | _ => [.panic]

/-- `res[0]` panics on an empty list; an error response writes nothing (server/server.go:555, 570, 585, 593, 601, 608,
702). -/
def onFirst (res : List Response) (f : Response → List Put) : List Put :=
  match res with
  | [] => [.panic]
  | r :: _ => if r.error = none then f r else []

/-- `writeAsciiResponse`, server/server.go:528-619. -/
def ascii (req : Request) (res : List Response) : List Put :=
  if req.opcode = opGet then
    match req.getOpt with
    | none => res.flatMap asciiGet ++ [.write' b!"END\r\n", .flush]
    | some o => res.flatMap (asciiMetaGet req o) ++ (if res = [] then [.write' b!"EN\r\n"] else []) ++ [.flush]
  else if req.opcode = opSet ∨ req.opcode = opAdd ∨ req.opcode = opReplace then
    onFirst res fun _ =>
      match req.setOpt with
      | none => [.panic]
      | some o => if o.metaCmd then [.write' b!"HD", .write' crlf, .flush] else [.write' b!"STORED\r\n", .flush]
  else if req.opcode = opDelete then
    onFirst res fun _ =>
      match req.delOpt with
      | none => [.panic]
      | some o => if o.metaCmd then [.write' b!"HD", .write' crlf, .flush] else [.write' b!"DELETED\r\n", .flush]
  else if req.opcode = opIncrement ∨ req.opcode = opDecrement then
    onFirst res fun r => [.write' r.value, .write' crlf, .flush]
  else if req.opcode = opVersion then
    onFirst res fun r => [.write' r.value, .write' crlf, .flush]
  else if req.opcode = opTouch then
    onFirst res fun _ => [.write' b!"TOUCHED\r\n", .flush]
  else if req.opcode = opFlush then
    onFirst res fun _ => [.write' b!"OK\r\n", .flush]
  else [.fail errUnknownOpcode]

/-- The 24 bytes of a response header, server/server.go:713-718. -/
def header (op : UInt8) (r : Response) : Bytes :=
  [0x81, op] ++ putBE 2 (r.key.length % 2 ^ 16) ++ [UInt8.ofNat r.flags.length, 0, 0, 0]
    ++ putBE 4 ((r.key.length + r.flags.length + r.value.length) % 2 ^ 32)
    ++ putBE 4 0 ++ putBE 8 0

/-- `writeAsBinaryProtocol`, server/server.go:712-735. -/
def binary1 (op : UInt8) (r : Response) : List Put :=
  [.write' (header op r)]
    ++ (if 0 < r.flags.length then [.write' r.flags] else [])
    ++ (if 0 < r.key.length then [.write' r.key] else [])
    ++ (if 0 < r.value.length then [.write' r.value] else []) ++ [.flush]

/-- `writeBinaryResponse`, server/server.go:686-710. -/
def binary (req : Request) (res : List Response) : List Put :=
  if req.opcode = opGet then
    res.flatMap (binary1 req.opcode) ++ (if 1 < res.length then binary1 opNoop {} else [])
  else if req.opcode = opSet ∨ req.opcode = opAdd ∨ req.opcode = opReplace ∨ req.opcode = opDelete
      ∨ req.opcode = opIncrement ∨ req.opcode = opDecrement ∨ req.opcode = opVersion
      ∨ req.opcode = opFlush ∨ req.opcode = opTouch ∨ req.opcode = opNoop then
    onFirst res fun r => binary1 req.opcode r
  else [.fail errUnknownOpcode]

/-- `writeResponse`, server/server.go:517-526. -/
def response (p : Protocol) (req : Request) (res : List Response) : List Put :=
  match p with
  | .ascii => ascii req res
  | .binary => binary req res

end Puts

/-- Everything observable of one connection whose writes may fail: the requests passed to the handler, the writer with
what went out, the final handler state and how it ended. -/
structure Served (σ : Type) where
  handled : List Request
  out : Writer
  state : σ
  fin : End

/-- `serve` and `serveRequest`, server/server.go:493-515, on the complete stream `i` the client sends: an error of
`writeResponse` ends the loop. -/
def serveOn {σ : Type} (h : Handler σ) (p : Option Protocol) (s : σ) (i : Bytes) (w : Writer) : Served σ :=
  match hr : readRequest p i with
  | (.err _, _) => ⟨[], w, s, .closed⟩
  | (.panic, _) => ⟨[], w, s, .crashed⟩
  | (.ok (q, req), r) =>
    match h s req with
    | (.err _, s') => ⟨[req], w, s', .closed⟩
    | (.panic, s') => ⟨[req], w, s', .crashed⟩
    | (.ok res, s') =>
      match Put.run (Puts.response q req res) w with
      | (.err _, w') => ⟨[req], w', s', .closed⟩
      | (.panic, w') => ⟨[req], w', s', .crashed⟩
      | (.ok (), w') =>
        let rest := serveOn h (some q) s' r w'
        ⟨req :: rest.handled, rest.out, rest.state, rest.fin⟩
termination_by i.length
decreasing_by exact readRequest_lt hr

end Srv
end Verif
