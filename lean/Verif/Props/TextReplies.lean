import Verif.Lemmas.TextReply
import Verif.Props.TextRequests
/-!
C13, C26 (text), C40 (text): what a text client makes of this server's replies.
`Spec.Answers p req res call x`: the server's reply to `req` with handler responses `res`
makes `call` return `x` and leaves the stream exactly behind the reply.
-/

namespace Verif
namespace Props
open Srv Spec

/-- Flags the client sees for the flag bytes a handler sets: none means zero. -/
def seenFlags (f : Bytes) : Bytes := if f = [] then [0, 0, 0, 0] else f

/-- A handler response the text protocol can transmit: a key that is a text key of at most
4000 bytes, no flags or exactly four flag bytes, and a value that can be allocated. -/
structure TextResp (r : Response) : Prop where
  key : TextKey r.key
  keyLen : r.key.length ≤ 4000
  flags : r.flags = [] ∨ r.flags.length = 4
  value : r.value.length + 2 ≤ maxAlloc

/-- The response as a reply block. -/
def respBlock (r : Response) : Block := { key := r.key, flags := getBE r.flags, value := r.value }

theorem respFlags_eq (r : Response) (h : r.flags = [] ∨ r.flags.length = 4) :
    respFlags r.flags = .ok (getBE r.flags) := by
  unfold respFlags
  rcases h with h | h
  · simp [h, getBE]
  · have : r.flags.take 4 = r.flags := List.take_of_length_le (by omega)
    simp [h, beUint, this]

theorem putBE_seen (f : Bytes) (h : f = [] ∨ f.length = 4) : putBE 4 (getBE f) = seenFlags f := by
  rcases h with rfl | h
  · rfl
  · have hne : f ≠ [] := by rintro rfl; simp at h
    have := putBE_getBE f
    rw [h] at this
    simp [seenFlags, hne, this]

theorem getBE_lt32 (f : Bytes) (h : f = [] ∨ f.length = 4) : getBE f < 2 ^ 32 := by
  have := getBE_lt f
  rcases h with rfl | h
  · decide
  · rw [h] at this; simpa using this

/-- C40: the reply to a text get is one VALUE block per response, in order, and END. -/
theorem C40_text_get (ks : Option (List Bytes)) (k : Bytes) (res : List Response)
    (h : ∀ r ∈ res, r.flags = [] ∨ r.flags.length = 4) :
    writeResponse .ascii { opcode := opGet, key := k, keys := ks } res
      = .ok ((res.map respBlock).flatMap valueBlock ++ b!"END\r\n") := by
  have hw : writeAll writeAsciiGet res = .ok ((res.map respBlock).flatMap valueBlock) := by
    induction res with
    | nil => rfl
    | cons r rs ih =>
      have h1 : writeAsciiGet r = .ok (valueBlock (respBlock r)) := by
        unfold writeAsciiGet
        rw [respFlags_eq r (h r (by simp))]
        simp [valueBlock, valueLine, respBlock, casPart]
      unfold writeAll
      rw [h1, ih (fun x hx => h x (by simp [hx]))]
      rfl
  simp [writeResponse, writeAscii, hw]

/-- C13: `Get` returns the key, value and flags of the handler's response. -/
theorem C13_get (name key : Bytes) (r : Response) (hr : TextResp r) :
    Answers .ascii { opcode := opGet, keys := some [key] } [r] (Text.get name key)
      (.ok { key := r.key, value := r.value, flags := some (seenFlags r.flags), server := name }) := by
  refine ⟨_, C40_text_get _ _ _ (by simpa using hr.flags), fun rest => ?_⟩
  have := text_getReply_hit name (respBlock r) hr.key hr.keyLen (getBE_lt32 _ hr.flags) hr.value
    (by simp [respBlock]) rest
  have e : putBE 4 (respBlock r).flags = seenFlags r.flags := putBE_seen _ hr.flags
  rw [e] at this
  simpa [Text.get] using this.trans (by rfl)

/-- C13: no response is a miss. -/
theorem C13_get_miss (name key : Bytes) :
    Answers .ascii { opcode := opGet, keys := some [key] } [] (Text.get name key)
      (.err .itemNotFound) :=
  ⟨_, C40_text_get _ _ _ (by simp), fun rest => text_getReply_miss name rest⟩

/-- C13, C26: `GetMulti` returns exactly the handler's responses, in order. -/
theorem C13_getMulti (name : Bytes) (keys : List Bytes) (res : List Response)
    (hr : ∀ r ∈ res, TextResp r) :
    Answers .ascii { opcode := opGet, keys := some keys } res (Text.getMulti name keys)
      (.ok (res.map fun r =>
        { key := r.key, value := r.value, flags := some (seenFlags r.flags), server := name })) := by
  refine ⟨_, C40_text_get _ _ _ (fun r hr' => (hr r hr').flags), fun rest => ?_⟩
  have h := text_parseGetResponse (res.map respBlock)
    (by
      intro b hb
      obtain ⟨r, hr', rfl⟩ := List.mem_map.1 hb
      have := hr r hr'
      exact ⟨this.key.plain, this.keyLen, getBE_lt32 _ this.flags, this.value, by simp [respBlock]⟩)
    rest
  show (Text.parseGetResponse >>= _) _ = _
  rw [Rd.bind_of_ok h]
  simp only [Rd.pure_apply, List.map_map]
  congr 2
  apply List.map_congr_left
  intro r hr'
  simp only [Function.comp, respBlock]
  rw [putBE_seen _ (hr r hr').flags]

/-- C26: `GetMulti` against any server that answers with a list of VALUE blocks (with or
without cas) and END returns exactly these items in order and leaves the connection right
behind END.  Keys here need only be free of space and line feed. -/
theorem C26_text_getMulti (name : Bytes) (keys : List Bytes) (bs : List Block)
    (h : ∀ b ∈ bs, Plain b.key ∧ b.key.length ≤ 4000 ∧ b.flags < 2 ^ 32
      ∧ b.value.length + 2 ≤ maxAlloc ∧ ∀ c, b.cas = some c → c < 2 ^ 64) (rest : Bytes) :
    (Text.getMulti name keys).rd (bs.flatMap valueBlock ++ b!"END\r\n" ++ rest)
      = (.ok (bs.map fun b => { key := b.key, value := b.value, flags := some (putBE 4 b.flags),
                                server := name }), rest) := by
  show (Text.parseGetResponse >>= _) _ = _
  rw [Rd.bind_of_ok (text_parseGetResponse bs h rest)]
  simp

theorem readSlice_lit (l : Bytes) (h : (10 : UInt8) ∉ l) (hl : l.length < 4096) (rest : Bytes) :
    readSlice ((l ++ [10]) ++ rest) = (.ok (l ++ [10]), rest) := by
  have := readSlice_line l rest h hl
  simpa using this

/-- C40: storage commands are answered STORED and the client reports success. -/
theorem C40_text_set (item : Item) (r : Response) (rs : List Response) (h : r.error = none) :
    Answers .ascii (storeReq opSet item) (r :: rs) (Text.set item) (.ok ()) := by
  refine ⟨b!"STORED\r\n", ?_, fun rest => ?_⟩
  · simp [writeResponse, writeAscii, storeReq, onFirst, h, opGet, opSet]
  · rfl

theorem C40_text_add (item : Item) (r : Response) (rs : List Response) (h : r.error = none) :
    Answers .ascii (storeReq opAdd item) (r :: rs) (Text.add item) (.ok ()) := by
  refine ⟨b!"STORED\r\n", ?_, fun rest => ?_⟩
  · simp [writeResponse, writeAscii, storeReq, onFirst, h, opGet, opSet, opAdd]
  · rfl

theorem C40_text_replace (item : Item) (r : Response) (rs : List Response) (h : r.error = none) :
    Answers .ascii (storeReq opReplace item) (r :: rs) (Text.replace item) (.ok ()) := by
  refine ⟨b!"STORED\r\n", ?_, fun rest => ?_⟩
  · simp [writeResponse, writeAscii, storeReq, onFirst, h, opGet, opSet, opAdd, opReplace]
  · rfl

/-- C40: delete is answered DELETED. -/
theorem C40_text_delete (key : Bytes) (r : Response) (rs : List Response) (h : r.error = none) :
    Answers .ascii { opcode := opDelete, key := key, delOpt := some { metaCmd := false } } (r :: rs)
      (Text.delete key) (.ok ()) := by
  refine ⟨b!"DELETED\r\n", ?_, fun rest => ?_⟩
  · simp [writeResponse, writeAscii, onFirst, h, opGet, opSet, opAdd, opReplace, opDelete]
  · rfl

theorem natDec_not_notFound (n : Nat) : natDec n ++ crlf ≠ Text.msgNotFound := by
  intro h
  obtain ⟨b, r, hd, hdig⟩ := natDec_head n
  rw [hd] at h
  simp [Text.msgNotFound] at h
  obtain ⟨rfl, _⟩ := h
  simp [isDigit] at hdig

/-- The counter reply `<n>\r\n` as the clients read it, for counters below 2^63. -/
theorem text_incr_reply (op key : Bytes) (delta : Int) (n : Nat) (hn : n < 2 ^ 63) (rest : Bytes) :
    (Text.incrOrDecr op key delta).rd (natDec n ++ crlf ++ rest) = (.ok (n : Int), rest) := by
  have hl := natDec_length64 n (Nat.lt_trans hn (by decide))
  have h1 : readSlice (natDec n ++ crlf ++ rest) = (.ok (natDec n ++ crlf), rest) := by
    have := readSlice_lit (natDec n ++ [13]) (by simp [natDec_no10]) (by simp; omega) rest
    simpa [crlf] using this
  show (readSlice >>= _) _ = _
  rw [Rd.bind_of_ok h1]
  have hs : sliceTo (natDec n ++ crlf) (((natDec n ++ crlf).length : Int) - 2) = .ok (natDec n) := by
    have := sliceTo_append (natDec n) crlf
    have e : (((natDec n ++ crlf).length : Int) - 2) = ((natDec n).length : Int) := by simp [crlf]
    rw [e]; exact this
  rw [if_neg (natDec_not_notFound n), hs, Rd.bind_of_ok (Rd.lift_apply _ _),
    parseInt_natDec n 64 hn (by omega)]
  rfl

/-- C40/C27: the counter a handler returns (in decimal) is the counter the client returns. -/
theorem C40_text_increment (key : Bytes) (delta exp : Int) (n : Nat) (hn : n < 2 ^ 63)
    (r : Response) (rs : List Response) (h : r.error = none) (hv : r.value = natDec n) :
    Answers .ascii { opcode := opIncrement, key := key, delta := delta } (r :: rs)
      (Text.increment key delta exp) (.ok (n : Int)) := by
  refine ⟨natDec n ++ crlf, ?_, fun rest => text_incr_reply _ _ _ n hn rest⟩
  simp [writeResponse, writeAscii, onFirst, h, hv, opGet, opSet, opAdd, opReplace, opDelete, opIncrement]

theorem C40_text_decrement (key : Bytes) (delta exp : Int) (n : Nat) (hn : n < 2 ^ 63)
    (r : Response) (rs : List Response) (h : r.error = none) (hv : r.value = natDec n) :
    Answers .ascii { opcode := opDecrement, key := key, delta := delta } (r :: rs)
      (Text.decrement key delta exp) (.ok (n : Int)) := by
  refine ⟨natDec n ++ crlf, ?_, fun rest => text_incr_reply _ _ _ n hn rest⟩
  simp [writeResponse, writeAscii, onFirst, h, hv, opGet, opSet, opAdd, opReplace, opDelete,
    opIncrement, opDecrement]

/-- C40: touch is answered TOUCHED. -/
theorem C40_text_touch (key : Bytes) (exp : Int) (r : Response) (rs : List Response)
    (h : r.error = none) :
    Answers .ascii { opcode := opTouch, key := key, delta := exp } (r :: rs)
      (Text.touch key exp) (.ok ()) := by
  refine ⟨b!"TOUCHED\r\n", ?_, fun rest => ?_⟩
  · simp [writeResponse, writeAscii, onFirst, h, opGet, opSet, opAdd, opReplace, opDelete,
      opIncrement, opDecrement, opTouch, opVersion]
  · rfl

/-- C40: flush_all is answered OK. -/
theorem C40_text_flush (r : Response) (rs : List Response) (h : r.error = none) :
    Answers .ascii { opcode := opFlush } (r :: rs) Text.flush (.ok ()) := by
  refine ⟨b!"OK\r\n", ?_, fun rest => ?_⟩
  · simp [writeResponse, writeAscii, onFirst, h, opGet, opSet, opAdd, opReplace, opDelete,
      opIncrement, opDecrement, opTouch, opVersion, opFlush]
  · rfl

/-- C40: the version string (one line, not itself starting with "VERSION ") is returned. -/
theorem C40_text_version (v : Bytes) (hv : (10 : UInt8) ∉ v) (hl : v.length ≤ 4000)
    (hp : hasPrefix (v ++ crlf) b!"VERSION " = false) (r : Response) (rs : List Response)
    (h : r.error = none) (hr : r.value = v) :
    Answers .ascii { opcode := opVersion } (r :: rs) Text.version (.ok v) := by
  refine ⟨v ++ crlf, ?_, fun rest => ?_⟩
  · simp [writeResponse, writeAscii, onFirst, h, hr, opGet, opSet, opAdd, opReplace, opDelete,
      opIncrement, opDecrement, opVersion]
  · show (readSlice >>= _) _ = _
    have := readSlice_lit (v ++ [13]) (by simp [hv]) (by simp; omega) rest
    have e : v ++ [13] ++ [10] = v ++ crlf := by simp [crlf]
    rw [e] at this
    rw [Rd.bind_of_ok this]
    have e2 : trimPrefix (v ++ crlf) b!"VERSION " = v ++ crlf := by simp [trimPrefix, hp]
    rw [e2, trimSuffix_append]
    rfl

example : TextResp { key := b!"user:42", value := b!"END\r\n", flags := [0, 0, 1, 2] } :=
  ⟨Graphic.textKey (by decide), by decide, by decide, by simp [maxAlloc]⟩
example : hasPrefix (b!"1.2.3" ++ crlf) b!"VERSION " = false := by decide

end Props
end Verif
