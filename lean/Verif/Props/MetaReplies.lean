import Verif.Lemmas.MetaReply
import Verif.Props.MetaRequests
import Verif.Props.TextReplies
/-!
C14 and the meta part of C40: what a meta client makes of this server's replies.
-/

namespace Verif
namespace Props
open Srv Spec

theorem va_alloc {n : Nat} (h : n < 2 ^ 31) : n + 2 ≤ maxAlloc := le_maxAlloc h

/-- The request a meta `Get` arrives as (C12_get). -/
def metaGetReq (key : Bytes) : Request :=
  { opcode := opGet, key := key,
    getOpt := some { metaCmd := true, requestFlag := b!"v", value := true } }

/-- C14: `Get` returns exactly the value of the handler's response, under the key asked for.
(This server sends neither flags nor cas nor lifetime to this client, see C50.) -/
theorem C14_get (key : Bytes) (r : Response) (hf : r.flags = [] ∨ 4 ≤ r.flags.length)
    (hv : r.value.length < 2 ^ 31) :
    Answers .ascii (metaGetReq key) [r] (Meta.get key) (.ok { key := key, value := r.value }) := by
  have hfl : ∃ n, respFlags r.flags = .ok n := by
    unfold respFlags
    rcases hf with h | h
    · exact ⟨0, by simp [h]⟩
    · refine ⟨getBE (r.flags.take 4), ?_⟩
      rw [if_pos (by omega)]; simp [beUint, h]
  obtain ⟨n, hn⟩ := hfl
  refine ⟨b!"VA " ++ (natDec r.value.length ++ b!" v\r") ++ [10] ++ r.value ++ crlf, ?_, fun rest => ?_⟩
  · simp [writeResponse, writeAscii, metaGetReq, writeAll, writeAsciiMetaGet, hn, metaGetTok, crlf]
  · have hl := natDec_length64 r.value.length (Nat.lt_trans hv (by decide))
    have := Meta.parseGetResponse_va (natDec r.value.length ++ b!" v\r") r.value rest {}
      (by simp [natDec_no10]) (by simp; omega) (va_alloc hv)
      (by simpa using Meta.hdrScan_v r.value.length hv)
    show (Meta.parseGetResponse >>= _) _ = _
    rw [Rd.bind_of_ok this]
    rfl

/-- C14: no response is a miss. -/
theorem C14_get_miss (key : Bytes) :
    Answers .ascii (metaGetReq key) [] (Meta.get key) (.err .itemNotFound) :=
  ⟨b!"EN\r\n", rfl, fun _ => rfl⟩

/-- C40: `Set` is answered HD. -/
theorem C40_meta_set (item : Item) (r : Response) (rs : List Response) (h : r.error = none) :
    Answers .ascii (metaSetReq item) (r :: rs) (Meta.set item) (.ok ()) := by
  refine ⟨b!"HD\r\n", ?_, fun rest => rfl⟩
  simp [writeResponse, writeAscii, metaSetReq, onFirst, h, opGet, opSet, crlf]

/-- C40: `Delete` is answered HD. -/
theorem C40_meta_delete (key : Bytes) (r : Response) (rs : List Response) (h : r.error = none) :
    Answers .ascii { opcode := opDelete, key := key, delOpt := some { metaCmd := true } } (r :: rs)
      (Meta.delete key) (.ok ()) := by
  refine ⟨b!"HD\r\n", ?_, fun rest => rfl⟩
  simp [writeResponse, writeAscii, onFirst, h, opGet, opSet, opAdd, opReplace, opDelete, crlf]

theorem C40_meta_add (item : Item) (r : Response) (rs : List Response) (h : r.error = none) :
    Answers .ascii (storeReq opAdd item) (r :: rs) (Meta.add item) (.ok ()) :=
  C40_text_add item r rs h
theorem C40_meta_replace (item : Item) (r : Response) (rs : List Response) (h : r.error = none) :
    Answers .ascii (storeReq opReplace item) (r :: rs) (Meta.replace item) (.ok ()) :=
  C40_text_replace item r rs h
theorem C40_meta_increment (key : Bytes) (delta exp : Int) (n : Nat) (hn : n < 2 ^ 63)
    (r : Response) (rs : List Response) (h : r.error = none) (hv : r.value = natDec n) :
    Answers .ascii { opcode := opIncrement, key := key, delta := delta } (r :: rs)
      (Meta.increment key delta exp) (.ok (n : Int)) :=
  C40_text_increment key delta exp n hn r rs h hv
theorem C40_meta_decrement (key : Bytes) (delta exp : Int) (n : Nat) (hn : n < 2 ^ 63)
    (r : Response) (rs : List Response) (h : r.error = none) (hv : r.value = natDec n) :
    Answers .ascii { opcode := opDecrement, key := key, delta := delta } (r :: rs)
      (Meta.decrement key delta exp) (.ok (n : Int)) :=
  C40_text_decrement key delta exp n hn r rs h hv
theorem C40_meta_flush (r : Response) (rs : List Response) (h : r.error = none) :
    Answers .ascii { opcode := opFlush } (r :: rs) Meta.flush (.ok ()) :=
  C40_text_flush r rs h
theorem C40_meta_version (v : Bytes) (hv : (10 : UInt8) ∉ v) (hl : v.length ≤ 4000)
    (hp : hasPrefix (v ++ crlf) b!"VERSION " = false) (r : Response) (rs : List Response)
    (h : r.error = none) (hr : r.value = v) :
    Answers .ascii { opcode := opVersion } (r :: rs) Meta.version (.ok v) :=
  C40_text_version v hv hl hp r rs h hr

end Props
end Verif
