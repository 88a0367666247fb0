import Verif.Client.Text
/-!
`ServerWithMetaProtocol` (client/server.go:634-1134), operation by operation, on an open
connection.
-/

namespace Verif
namespace Meta

/-- client/server.go:36. -/
def msgEnd : Bytes := b!"EN\r\n"
/-- client/server.go:37. -/
def msgNoop : Bytes := b!"MN\r\n"

/-- `readGetFlagToken`, client/server.go:828-855. -/
def readGetFlagToken (flagName : UInt8) (v : Bytes) (item : Item) : Res Item :=
  if flagName = 102 then do          -- 'f'
    let n ← numRes (parseInt v 32)
    pure { item with flags := some (putBE 4 (toUnsigned 32 n)) }
  else if flagName = 99 then do      -- 'c'
    let n ← numRes (parseInt v 64)
    pure { item with cas := toUnsigned 64 n }
  else if flagName = 116 then do     -- 't'
    let n ← numRes (parseInt v 32)
    pure { item with expiration := n }
  else if flagName = 107 then        -- 'k'
    pure { item with key := v }
  else pure item

/-- Local variables of the header scan, client/server.go:777-785.  `tok` is
`b[startIndex:3+i]`, the token read so far; `num` is `b[3:3+i]`. -/
structure HdrState where
  state : Nat := 1
  flagName : UInt8 := 0
  num : Bytes := []
  tok : Bytes := []
  size : Int := 0
  item : Item := {}
  deriving DecidableEq, Repr

/-- One round of the loop, client/server.go:786-817: look at byte `c`.  Instead of the index
`i` the model carries the two slices that end at `i`. -/
def hdrStep (st : HdrState) (c : UInt8) : Res HdrState :=
  let next (s : HdrState) : HdrState := { s with num := s.num ++ [c], tok := s.tok ++ [c] }
  if c = 32 then
    if st.state = 1 then do
      let n ← numRes (parseInt st.num 32)
      pure (next { st with size := n, state := 2 })
    else if st.state = 3 then do
      let item ← readGetFlagToken st.flagName st.tok st.item
      pure (next { st with item := item, state := 2 })
    else pure (next st)
  else if c = 13 then
    if st.state = 3 then do
      let item ← readGetFlagToken st.flagName st.tok st.item
      pure (next { st with item := item })
    else pure (next st)
  else if c = 102 ∨ c = 99 ∨ c = 116 ∨ c = 107 then
    if st.state = 2 then
      -- startIndex = 3+i+1: the token starts after this byte
      pure { next st with flagName := c, state := 3, tok := [] }
    else pure (next st)
  else pure (next st)

/-- The loop over `b[3:]`, client/server.go:786-817. -/
def hdrScan : HdrState → Bytes → Res HdrState
  | st, [] => .ok st
  | st, c :: r => do
    let st' ← hdrStep st c
    hdrScan st' r

/-- `parseGetResponse`, client/server.go:762-826. -/
def parseGetResponse : Rd Item := do
  let b ← readSlice
  if b = msgEnd then Rd.fail .itemNotFound
  else if b = msgNoop then Rd.fail .itemNotFound
  else if hasPrefix b b!"VA" = false then Rd.fail (.msg b!"memcached: invalid get response")
  else do
    let body ← Rd.lift (sliceFrom b 3)
    let st ← Rd.lift (hdrScan {} body)
    let buf ← readN (st.size + 2)
    let v ← Rd.lift (sliceTo buf st.size)
    pure { st.item with value := v }

/-- `Get`, client/server.go:701-723. -/
def get (key : Bytes) : Call Item where
  wire := .ok (b!"mg " ++ key ++ b!" v f c t\r\n")
  rd := do
    let item ← parseGetResponse
    pure { item with key := key }

/-- Read loop of `GetMulti`, client/server.go:745-757: stops at the first ItemNotFound
(an `EN` as well as the final `MN`).  Fuel as in `Text.parseLoop`. -/
def multiLoop : Nat → List Item → Rd (List Item)
  | 0, _ => Rd.lift .panic
  | n + 1, acc => fun i =>
    match parseGetResponse i with
    | (.ok item, r) => multiLoop n (acc ++ [item]) r
    | (.err .itemNotFound, r) => (.ok acc, r)
    | (.err e, r) => (.err e, r)
    | (.panic, r) => (.panic, r)

/-- `GetMulti`, client/server.go:725-760. -/
def getMulti (keys : List Bytes) : Call (List Item) where
  wire := .ok (keys.flatMap (fun key => b!"mg " ++ key ++ b!" v f k c t\r\n") ++ b!"mn\r\n")
  rd := fun i => multiLoop (i.length + 1) [] i

/-- Request of `Set`, client/server.go:866-881.  `binary.BigEndian.Uint32` panics on a
non-nil flags slice shorter than four bytes (nothing has been written by then). -/
def setWire (item : Item) : Res Bytes := do
  let f ← match item.flags with
    | none => pure []
    | some fl => do
      let n ← beUint 4 fl
      pure (b!" F" ++ natDec n)
  pure (b!"ms " ++ item.key ++ 32 :: natDec item.value.length ++ b!" T" ++ intDec item.expiration
    ++ (if 0 < item.cas then b!" C" ++ natDec item.cas else []) ++ f ++ crlf
    ++ (item.value ++ crlf))

/-- `Set`, client/server.go:857-902. -/
def set (item : Item) : Call Unit where
  wire := setWire item
  rd := do
    let b ← readSlice
    if hasPrefix b b!"HD" then pure ()
    else if hasPrefix b b!"NS" then Rd.fail (.msg b!"memcached: not stored")
    else if hasPrefix b b!"EX" then Rd.fail .itemExists
    else if hasPrefix b b!"NF" then Rd.fail .itemNotFound
    else Rd.fail (.msg b!"memcached: failed set")

/-- `Add`, client/server.go:904-936 (the same bytes and the same reading of the reply as the
text protocol). -/
def add (item : Item) : Call Unit where
  wire := .ok (Text.storeWire b!"add" item)
  rd := do
    let b ← readSlice
    if b = Text.msgStored then pure () else Rd.fail .itemExists

/-- `Replace`, client/server.go:938-970. -/
def replace (item : Item) : Call Unit where
  wire := .ok (Text.storeWire b!"replace" item)
  rd := do
    let b ← readSlice
    if b = Text.msgStored then pure () else Rd.fail .itemNotFound

/-- `Delete`, client/server.go:972-1002. -/
def delete (key : Bytes) : Call Unit where
  wire := .ok (b!"md " ++ key ++ crlf)
  rd := do
    let b ← readSlice
    if hasPrefix b b!"HD" then pure ()
    else if hasPrefix b b!"NF" then pure ()
    else if hasPrefix b b!"EX" then Rd.fail .itemNotFound
    else Rd.fail (.msg b!"memcached: failed delete")

/-- `incrOrDecr`, client/server.go:1016-1046. -/
def incrOrDecr (op key : Bytes) (delta : Int) : Call Int where
  wire := .ok (op ++ 32 :: key ++ 32 :: intDec delta ++ crlf)
  rd := do
    let b ← readSlice
    if b = Text.msgNotFound then Rd.fail .itemNotFound
    else do
      let d ← Rd.lift (sliceTo b (b.length - 2))
      Rd.lift (numRes (parseInt d 64))

/-- `Increment`, client/server.go:1006-1008. -/
def increment (key : Bytes) (delta _expiration : Int) : Call Int := incrOrDecr b!"incr" key delta

/-- `Decrement`, client/server.go:1012-1014. -/
def decrement (key : Bytes) (delta _expiration : Int) : Call Int := incrOrDecr b!"decr" key delta

/-- `Touch`, client/server.go:1048-1075: `md <key> I T<exp>`. -/
def touch (key : Bytes) (expiration : Int) : Call Unit where
  wire := .ok (b!"md " ++ key ++ b!" I T" ++ intDec expiration ++ crlf)
  rd := do
    let b ← readSlice
    if hasPrefix b b!"HD" then pure ()
    else Rd.fail (.msg b!"memcached: failed touch")

/-- `Flush`, client/server.go:1077-1103. -/
def flush : Call Unit where
  wire := .ok b!"flush_all\r\n"
  rd := do
    let b ← readSlice
    if b = Text.msgOk then pure ()
    else do
      let d ← Rd.lift (sliceTo b (b.length - 2))
      Rd.fail (.msg (b!"memcached: " ++ d))

/-- `Version`, client/server.go:1105-1130. -/
def version : Call Bytes where
  wire := .ok b!"version\r\n"
  rd := do
    let b ← readSlice
    pure (trimSuffix (trimPrefix b b!"VERSION ") crlf)

end Meta
end Verif
