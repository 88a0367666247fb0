import Verif.Go.BufMem
import Verif.Server.Read
/-!
The request readers of server/server.go on memory: what is read is copied into new arrays, of which `Flags` and `Value`
of a request are slices.  `Server/Read.lean` has the same with values.
-/

namespace Verif
namespace Mem

theorem MSock.fill_sum (c : MSock) : c.fill.net.length + (c.fill.w - c.fill.r) ≤ c.net.length + (c.w - c.r) := by
  have e : c.slide.net = c.net ∧ c.slide.w - c.slide.r = c.w - c.r := by
    unfold slide
    split
    · exact ⟨rfl, by simp⟩
    · exact ⟨rfl, rfl⟩
  obtain ⟨e1, e2⟩ := e
  have hs : c.slide.sock.net = c.slide.net := rfl
  simp only [fill, more, Sock.piece, List.length_drop, List.length_take, hs, e1]
  omega

theorem sliceLoop_less (s : Nat) (c c' : MSock) (h : sliceLoop s c = (.full, c')) :
    c'.net.length + (c'.w - c'.r) < c.net.length + (c.w - c.r) := by
  fun_induction sliceLoop s c with
  | case1 s c l r hs => cases h
  | case2 s c hs hf =>
    obtain ⟨_, rfl⟩ := Prod.mk.inj h
    have : 0 < bufSize := by decide
    simp only; omega
  | case3 s c hs hf hn => cases h
  | case4 s c hs hf hn ih =>
    have := ih h
    have := c.fill_sum
    omega

/-- The loop of `collectFragments`, bufio.go: a full buffer (`line = b.buf`) is copied away and the reader goes on. -/
def bytesLoop (acc : Bytes) (c : MSock) : Res Bytes × MSock :=
  match h : sliceLoop 0 c with
  | (.line s, c') => (.ok (acc ++ s.bytes c'.mem), c')
  | (.ended, c') => (.err .io, c')
  | (.full, c') => bytesLoop (acc ++ array c'.mem c'.arr) c'
termination_by c.net.length + (c.w - c.r)
decreasing_by exact sliceLoop_less 0 c c' h

/-- `ReadBytes('\n')`, bufio.go: the pieces are copied into a new array. (server/server.go:117.  The arrays full buffers
are put aside in meanwhile are left out.) -/
def readBytes : Mrd Slice := do
  let l ← (fun c => bytesLoop [] c : Mrd Bytes)
  alloc l

/-- `Peek(1)` and `b[0]`, bufio.go: fill the buffer if it is empty. (server/server.go:80-84.) -/
def peek1 : Mrd UInt8 := fun c =>
  match c.sock.buf with
  | b :: _ => (.ok b, c)
  | [] =>
    if c.net = [] then (.err .io, c)
    else match c.fill.sock.buf with
      | b :: _ => (.ok b, c.fill)
      | [] => (.err .io, c.fill)

namespace Srv
open Verif.Srv

/-- `Request` as it is in memory: `Flags` and `Value` are slices (`none`: nil), all else are values or strings.
(server/server.go:402-412.) -/
structure MRequest where
  opcode : UInt8
  key : Bytes := []
  keys : Option (List Bytes) := none
  flags : Option Slice := none
  value : Option Slice := none
  delta : Int := 0
  getOpt : Option GetOpt := none
  setOpt : Option SetOpt := none
  delOpt : Option DelOpt := none
  deriving DecidableEq, Repr

/-- The request as it is for somebody looking at memory `m`. (Auxiliary.) -/
def MRequest.seen (m : Memory) (q : MRequest) : Request :=
  { opcode := q.opcode, key := q.key, keys := q.keys, flags := q.flags.map (·.bytes m),
    value := (q.value.map (·.bytes m)).getD [], delta := q.delta, getOpt := q.getOpt, setOpt := q.setOpt,
    delOpt := q.delOpt }

/-- `set`, `add`, `replace`, server/server.go:134-167. -/
def readStore (op : UInt8) (s : List Bytes) : Mrd MRequest := do
  match s with
  | [_, key, sf, se, sl] => do
    let f ← Mrd.lift (numRes (parseInt sf 32))
    let flags ← alloc (putBE 4 (toUnsigned 32 f))
    let e ← Mrd.lift (numRes (parseInt se 32))
    let n ← Mrd.lift (numRes (parseInt sl 32))
    let buf ← readN (n + 2)
    let v ← Mrd.lift (sliceTo buf n)
    pure { opcode := op, key := key, flags := some flags, value := some v, setOpt := some { expiration := e } }
  | _ => Mrd.fail errInvalidRequest

/-- `delete`, `md`, server/server.go:168-176. -/
def readDelete (isMeta : Bool) (s : List Bytes) : Mrd MRequest :=
  match s with
  | [_, key] => pure { opcode := opDelete, key := key, delOpt := some { metaCmd := isMeta } }
  | _ => Mrd.fail errInvalidRequest

/-- `incr`, `decr`, `touch`, server/server.go:177-192. -/
def readDelta (op : UInt8) (s : List Bytes) : Mrd MRequest :=
  match s with
  | [_, key, sd] => do
    let d ← Mrd.lift (numRes (parseInt sd 32))
    pure { opcode := op, key := key, delta := d }
  | _ => Mrd.fail errInvalidRequest

/-- `mg`, server/server.go:193-224. -/
def readMg (s : List Bytes) : Mrd MRequest :=
  match s with
  | _ :: key :: fl :: _ =>
    pure { opcode := opGet, key := key,
           getOpt := some (fl.foldl mgFlag { metaCmd := true, requestFlag := fl }) }
  | _ => Mrd.fail errInvalidRequest

/-- `ms`, server/server.go:225-285. -/
def readMs (s : List Bytes) : Mrd MRequest :=
  match s with
  | _ :: key :: sz :: tokens => do
    let v ← Mrd.lift (numRes (parseUint sz 32))
    let opt ← Mrd.lift (msTokens { metaCmd := true, size := (v : Int) } tokens)
    let buf ← readN (opt.size + 2)
    let val ← Mrd.lift (sliceTo buf opt.size)
    pure { opcode := opSet, key := key, value := some val, setOpt := some opt }
  | _ => Mrd.fail errInvalidRequest

/-- The switch of `readAsciiRequest` on the split request line, server/server.go:121-292. -/
def asciiRequest (s : List Bytes) : Mrd MRequest :=
  match s with
  | [] => Mrd.fail errInvalidRequest
  | cmd :: args =>
    if cmd = b!"get" then
      match args with
      | [key] => pure { opcode := opGet, key := key }
      | _ => Mrd.fail errInvalidRequest
    else if cmd = b!"gets" then pure { opcode := opGet, keys := some args }
    else if cmd = b!"set" then readStore opSet s
    else if cmd = b!"add" then readStore opAdd s
    else if cmd = b!"replace" then readStore opReplace s
    else if cmd = b!"delete" then readDelete false s
    else if cmd = b!"md" then readDelete true s
    else if cmd = b!"incr" then readDelta opIncrement s
    else if cmd = b!"decr" then readDelta opDecrement s
    else if cmd = b!"touch" then readDelta opTouch s
    else if cmd = b!"mg" then readMg s
    else if cmd = b!"ms" then readMs s
    else if cmd = b!"flush_all" then pure { opcode := opFlush }
    else if cmd = b!"version" then pure { opcode := opVersion }
    else Mrd.fail errInvalidRequest

/-- `readAsciiRequest`, server/server.go:116-293; `string(line)` is a value. -/
def readAscii : Mrd MRequest := do
  let s ← readBytes
  let line ← view s
  asciiRequest (splitSp (trimSuffix line crlf))

/-- `make([]byte, n)`, `io.ReadFull` and `string(keyBuf)`. (server/server.go:306-312 and alike.) -/
def readKey (n : Nat) : Mrd Bytes := do
  let s ← readNew n
  view s

/-- The switch of `readBinaryRequest` on a 24-byte header, server/server.go:304-393. -/
def binaryRequest (h : Bytes) : Mrd MRequest :=
  let op := h.getD 1 0
  if op = opGet then do
    let key ← readKey (hdrKeyLen h)
    pure { opcode := opGet, key := key }
  else if op = opGetKQ then do
    let key ← readKey (hdrKeyLen h)
    pure { opcode := opGet, key := key, getOpt := some { noReply := true, key := true } }
  else if op = opSet ∨ op = opAdd ∨ op = opReplace then do
    let extra ← readNew (h.getD 4 0).toNat
    let ex ← view extra
    let e ← Mrd.lift (slice ex 4 8)
    let key ← readKey (hdrKeyLen h)
    let buf ← readN ((getBE ((h.take 12).drop 8) : Int) - extra.len - hdrKeyLen h)
    let f ← Mrd.lift (sliceTo extra 4)
    pure { opcode := op, key := key, value := some buf, flags := some f,
           setOpt := some { expiration := getBE e } }
  else if op = opDelete then do
    let key ← readKey (hdrKeyLen h)
    pure { opcode := opDelete, key := key }
  else if op = opIncrement ∨ op = opDecrement then do
    let ex ← readKey (h.getD 4 0).toNat
    let d ← Mrd.lift (Verif.sliceTo ex 8)
    let e ← Mrd.lift (slice ex 16 20)
    let key ← readKey (hdrKeyLen h)
    pure { opcode := op, key := key, delta := toSigned 64 (getBE d),
           setOpt := some { expiration := getBE e } }
  else if op = opTouch then do
    let ex ← readKey (h.getD 4 0).toNat
    let e ← Mrd.lift (Verif.sliceTo ex 4)
    let key ← readKey (hdrKeyLen h)
    pure { opcode := opTouch, key := key, setOpt := some { expiration := getBE e } }
  else if op = opNoop ∨ op = opVersion ∨ op = opFlush then
    pure { opcode := op }
  else Mrd.fail errInvalidRequest

/-- `readBinaryRequest`, server/server.go:295-394: the header is a new array, too. -/
def readBinary : Mrd MRequest := do
  let h ← readKey 24
  if h.head? ≠ some 0x80 then Mrd.fail errInvalidRequest
  else binaryRequest h

/-- `detectProtocol`, server/server.go:79-91. -/
def detect : Mrd Protocol := do
  let b ← peek1
  pure (if b = 0x80 then .binary else .ascii)

/-- The protocol used for the next request, server/server.go:99-104. -/
def protoOf (p : Option Protocol) : Mrd Protocol :=
  match p with
  | none => detect
  | some q => pure q

/-- The switch on the protocol, server/server.go:106-111. -/
def readBody : Protocol → Mrd MRequest
  | .ascii => readAscii
  | .binary => readBinary

/-- `readRequest`, server/server.go:99-114. -/
def readRequest (p : Option Protocol) : Mrd (Protocol × MRequest) := do
  let q ← protoOf p
  let req ← readBody q
  pure (q, req)

end Srv
end Mem
end Verif
