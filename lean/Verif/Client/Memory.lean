import Verif.Go.Slice
import Verif.Client.Text
import Verif.Client.Meta
import Verif.Client.Binary
/-!
The operations that are given slices of the caller (Set, Add, Replace; all others take strings,
which are immutable), on a memory.  `grow` is the spare capacity Go's `append` chooses.
`s.conn.Write` copies its argument or writes it out before returning, so what is sent is the
contents of memory at the time of the call.
-/

namespace Verif
namespace Mem

/-- client/client.go:7-15 with slices. -/
structure MItem where
  key : Bytes := []
  value : Slice := {}
  flags : Option Slice := none
  expiration : Int := 0
  cas : Nat := 0
  server : Bytes := []

/-- The slices of the item lie in memory. (Language semantics.) -/
structure MItem.Valid (m : Memory) (it : MItem) : Prop where
  value : it.value.Valid m
  flags : ∀ f, it.flags = some f → f.Valid m

/-- The item as seen by somebody reading the memory `m`. (client/client.go:7-15.) -/
def MItem.flat (m : Memory) (it : MItem) : Item :=
  { key := it.key, value := it.value.bytes m, flags := it.flags.map (Slice.bytes m),
    expiration := it.expiration, cas := it.cas, server := it.server }

/-- The command line of text `Set`, client/server.go:463-475. -/
def textSetLine (m : Memory) (it : MItem) : Bytes :=
  let f := Text.flagsNum (it.flags.map (Slice.bytes m))
  if 0 < it.cas then
    b!"cas " ++ it.key ++ 32 :: natDec f ++ 32 :: intDec it.expiration
      ++ 32 :: natDec it.value.len ++ 32 :: natDec it.cas ++ crlf
  else
    b!"set " ++ it.key ++ 32 :: natDec f ++ 32 :: intDec it.expiration
      ++ 32 :: natDec it.value.len ++ crlf

/-- Text `Set` up to the flush, client/server.go:463-478: memory afterwards and bytes sent. -/
def textSet (grow : Nat) (m : Memory) (it : MItem) : Memory × Res Bytes :=
  let r := goAppend m it.value crlf grow
  (r.1, .ok (textSetLine m it ++ r.2.bytes r.1))

/-- Text (and meta) `Add`/`Replace`, client/server.go:510-518, 547-555, 913-921, 947-955: value
and CRLF are written separately. -/
def textStore (cmd : Bytes) (m : Memory) (it : MItem) : Memory × Res Bytes :=
  let f := Text.flagsNum (it.flags.map (Slice.bytes m))
  (m, .ok (cmd ++ 32 :: it.key ++ 32 :: natDec f ++ 32 :: intDec it.expiration
    ++ 32 :: natDec it.value.len ++ crlf ++ it.value.bytes m ++ crlf))

/-- Meta `Set`, client/server.go:866-881. -/
def metaSet (grow : Nat) (m : Memory) (it : MItem) : Memory × Res Bytes :=
  let f : Res Bytes := match it.flags with
    | none => .ok []
    | some fl => (beUint 4 (fl.bytes m)).bind fun n => .ok (b!" F" ++ natDec n)
  match f with
  | .panic => (m, .panic)
  | .err e => (m, .err e)
  | .ok f =>
    let r := goAppend m it.value crlf grow
    (r.1, .ok (b!"ms " ++ it.key ++ 32 :: natDec it.value.len ++ b!" T" ++ intDec it.expiration
      ++ (if 0 < it.cas then b!" C" ++ natDec it.cas else []) ++ f ++ crlf ++ r.2.bytes r.1))

/-- Binary `Set`/`Add`/`Replace`, client/server.go:1342-1355 (1394-1407, 1446-1459) with
client/client.go:17-25: `extra` is a new array, the expiration is put into its second half, and
`item.Flags[:4]` is copied over the first half.  Reslicing up to 4 is limited by the capacity. -/
def binStore (op : UInt8) (h : Bin.ReqHdr) (m : Memory) (it : MItem) : Memory × Res Bytes :=
  let (m1, extra) := goMake m 8
  let m2 := write m1 extra.arr (extra.off + 4) (putBE 4 (toUnsigned 32 it.expiration))
  let hdr := ({ h.reset with
      opcode := op
      keyLength := it.key.length % 2 ^ 16
      extraLength := 8
      totalBodyLength := (it.key.length + it.value.len + 8) % 2 ^ 32
      cas := it.cas } : Bin.ReqHdr).encode
  match it.flags with
  | none => (m2, .ok (hdr ++ extra.bytes m2 ++ it.key ++ it.value.bytes m2))
  | some f =>
    match resliceTo f 4 with
    | .ok f4 =>
      let m3 := goCopy m2 { extra with len := 4 } f4
      (m3, .ok (hdr ++ extra.bytes m3 ++ it.key ++ it.value.bytes m3))
    | .err e => (m2, .err e)
    | .panic => (m2, .panic)

end Mem
end Verif
