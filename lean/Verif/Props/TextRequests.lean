import Verif.Lemmas.Ascii
/-!
C11 and the text half of C18: every request of the text client is read by this
module's server as the same request, consuming exactly what was sent.

`Spec.Arrives p call req` (Spec/Wire.lean) says: what `call` puts on the wire, followed by
any further bytes, is read by the server (protocol `p` already detected or not) as `req`, and
those further bytes are exactly what is left.
-/

namespace Verif
namespace Props
open Srv Spec

/-- C11: `Get(key)` arrives as a get of the one key. -/
theorem C11_get (name key : Bytes) (hk : Plain key) :
    Arrives .ascii (Text.get name key) { opcode := opGet, keys := some [key] } := by
  refine ⟨_, rfl, fun q hq rest => readRequest_ascii _ _ (by decide) q hq ?_⟩
  have := readAscii_words [b!"gets", key] rest (by simp)
    (by simp only [List.forall_mem_cons]; exact ⟨by decide, hk, by simp⟩)
  simpa [joinSp_words2, asciiRequest, crlf] using this

/-- C11: `GetMulti(keys...)` arrives as a get of exactly these keys in this order, for any
non-empty list of keys. -/
theorem C11_getMulti (name : Bytes) (keys : List Bytes) (hne : keys ≠ [])
    (hk : ∀ k ∈ keys, Plain k) :
    Arrives .ascii (Text.getMulti name keys) { opcode := opGet, keys := some keys } := by
  refine ⟨_, rfl, fun q hq rest => readRequest_ascii _ _ (by decide) q hq ?_⟩
  have h := readAscii_words (b!"gets" :: keys) rest (by simp)
    (by simp only [List.forall_mem_cons]; exact ⟨by decide, hk⟩)
  have hj : joinSp (b!"gets" :: keys) = b!"gets" ++ 32 :: joinSp keys := by
    cases keys with
    | nil => exact absurd rfl hne
    | cons k ks => rfl
  rw [hj] at h
  simpa [asciiRequest, crlf] using h

/-- With no key at all the request is a get of one empty key. -/
theorem C11_getMulti_nil (name : Bytes) :
    Arrives .ascii (Text.getMulti name []) { opcode := opGet, keys := some [[]] } := by
  refine ⟨_, rfl, fun q hq rest => readRequest_ascii _ _ (by decide) q hq ?_⟩
  have h := readAscii_words [b!"gets", []] rest (by simp)
    (by simp only [List.forall_mem_cons]; exact ⟨by decide, by decide, by simp⟩)
  simpa [joinSp_words2, asciiRequest, crlf, joinSp] using h

/-- The request a storage command arrives as: same operation, key, value bytes and
expiration; the flags are the item's four flag bytes (zero if it has none). -/
def storeReq (op : UInt8) (item : Item) : Request :=
  { opcode := op, key := item.key, flags := some (flagBytes item.flags), value := item.value,
    setOpt := some { expiration := item.expiration } }

/-- What the text protocol can transmit to this server: a plain key, flags whose top bit is
clear, an expiration that fits 32 bits and a value of less than 2 GiB (any bytes). -/
structure TextItem (item : Item) : Prop where
  key : Plain item.key
  flags : Flags31 (flagBytes item.flags)
  expiration : InRange 32 item.expiration
  value : item.value.length < 2 ^ 31

theorem store_arrives (cmd : Bytes) (op : UInt8) (item : Item) (h : TextItem item)
    (hc : Plain cmd) (rest : Bytes)
    (hs : ∀ k a b c, asciiRequest [cmd, k, a, b, c] = readStore op [cmd, k, a, b, c]) :
    readAscii (Text.storeWire cmd item ++ rest) = (.ok (storeReq op item), rest) := by
  have h1 := readAscii_words [cmd, item.key, natDec (Text.flagsNum item.flags),
    intDec item.expiration, natDec item.value.length] (item.value ++ 13 :: 10 :: rest) (by simp)
    (by
      simp only [List.forall_mem_cons]
      exact ⟨hc, h.key, natDec_plain _, intDec_plain _, natDec_plain _, by simp⟩)
  rw [hs, readStore_ok op cmd item.key item.value rest item.flags item.expiration h.flags
    h.expiration h.value, joinSp_words5] at h1
  rw [← show _ = Text.storeWire cmd item ++ rest from ?_]
  · exact h1
  · simp [Text.storeWire, crlf]

/-- C11: `Set` without Cas. -/
theorem C11_set (item : Item) (h : TextItem item) (hc : item.cas = 0) :
    Arrives .ascii (Text.set item) (storeReq opSet item) := by
  refine ⟨_, rfl, fun q hq rest => ?_⟩
  have e : Text.setWire item = Text.storeWire b!"set" item := by
    simp [Text.setWire, Text.storeWire, hc]
  rw [e]
  exact readRequest_ascii _ _ (by decide) q hq
    (store_arrives b!"set" opSet item h (by decide) rest (fun _ _ _ _ => rfl))

/-- C11: `Add`. -/
theorem C11_add (item : Item) (h : TextItem item) :
    Arrives .ascii (Text.add item) (storeReq opAdd item) :=
  ⟨_, rfl, fun q hq rest => readRequest_ascii _ _ (by decide) q hq
    (store_arrives b!"add" opAdd item h (by decide) rest (fun _ _ _ _ => rfl))⟩

/-- C11: `Replace`. -/
theorem C11_replace (item : Item) (h : TextItem item) :
    Arrives .ascii (Text.replace item) (storeReq opReplace item) :=
  ⟨_, rfl, fun q hq rest => readRequest_ascii _ _ (by decide) q hq
    (store_arrives b!"replace" opReplace item h (by decide) rest (fun _ _ _ _ => rfl))⟩

/-- C11: `Delete`. -/
theorem C11_delete (key : Bytes) (hk : Plain key) :
    Arrives .ascii (Text.delete key)
      { opcode := opDelete, key := key, delOpt := some { metaCmd := false } } := by
  refine ⟨_, rfl, fun q hq rest => readRequest_ascii _ _ (by decide) q hq ?_⟩
  have := readAscii_words [b!"delete", key] rest (by simp)
    (by simp only [List.forall_mem_cons]; exact ⟨by decide, hk, by simp⟩)
  simpa [joinSp_words2, asciiRequest, readDelete, crlf] using this

theorem delta_arrives (cmd : Bytes) (op : UInt8) (key : Bytes) (d : Int) (hk : Plain key)
    (hd : InRange 32 d) (hc : Plain cmd) (rest : Bytes)
    (hs : ∀ k a, asciiRequest [cmd, k, a] = readDelta op [cmd, k, a]) :
    readAscii (cmd ++ 32 :: key ++ 32 :: intDec d ++ crlf ++ rest)
      = (.ok { opcode := op, key := key, delta := d }, rest) := by
  have h1 := readAscii_words [cmd, key, intDec d] rest (by simp)
    (by simp only [List.forall_mem_cons]; exact ⟨hc, hk, intDec_plain _, by simp⟩)
  rw [hs, joinSp_words3] at h1
  have h2 := parseInt_intDec d 32 hd (by omega)
  simp only [readDelta, h2, numRes] at h1
  rw [← show _ = cmd ++ 32 :: key ++ 32 :: intDec d ++ crlf ++ rest from ?_]
  · exact h1.trans rfl
  · simp [crlf]

/-- C11: `Increment`, for a delta within 32 bits (the server parses no more). -/
theorem C11_increment (key : Bytes) (delta exp : Int) (hk : Plain key) (hd : InRange 32 delta) :
    Arrives .ascii (Text.increment key delta exp)
      { opcode := opIncrement, key := key, delta := delta } :=
  ⟨_, rfl, fun q hq rest => readRequest_ascii _ _ (by decide) q hq
    (delta_arrives b!"incr" opIncrement key delta hk hd (by decide) rest (fun _ _ => rfl))⟩

/-- C11: `Decrement`. -/
theorem C11_decrement (key : Bytes) (delta exp : Int) (hk : Plain key) (hd : InRange 32 delta) :
    Arrives .ascii (Text.decrement key delta exp)
      { opcode := opDecrement, key := key, delta := delta } :=
  ⟨_, rfl, fun q hq rest => readRequest_ascii _ _ (by decide) q hq
    (delta_arrives b!"decr" opDecrement key delta hk hd (by decide) rest (fun _ _ => rfl))⟩

/-- C11: `Touch`; this server puts the expiration into the request's delta. -/
theorem C11_touch (key : Bytes) (exp : Int) (hk : Plain key) (hd : InRange 32 exp) :
    Arrives .ascii (Text.touch key exp) { opcode := opTouch, key := key, delta := exp } :=
  ⟨_, rfl, fun q hq rest => readRequest_ascii _ _ (by decide) q hq
    (delta_arrives b!"touch" opTouch key exp hk hd (by decide) rest (fun _ _ => rfl))⟩

/-- C11: `Flush`. -/
theorem C11_flush : Arrives .ascii Text.flush { opcode := opFlush } := by
  refine ⟨_, rfl, fun q hq rest => readRequest_ascii _ _ (by decide) q hq ?_⟩
  have := readAscii_words [b!"flush_all"] rest (by simp)
    (by simp only [List.forall_mem_cons]; exact ⟨by decide, by simp⟩)
  simpa [joinSp, asciiRequest] using this

/-- C11: `Version`. -/
theorem C11_version : Arrives .ascii Text.version { opcode := opVersion } := by
  refine ⟨_, rfl, fun q hq rest => readRequest_ascii _ _ (by decide) q hq ?_⟩
  have := readAscii_words [b!"version"] rest (by simp)
    (by simp only [List.forall_mem_cons]; exact ⟨by decide, by simp⟩)
  simpa [joinSp, asciiRequest] using this

/-- A concrete item meeting `TextItem`: the value contains CRLF and protocol words. -/
def sampleItem : Item :=
  { key := b!"user:42", value := b!"END\r\nVALUE x 0 1\r\n", flags := some [0, 0, 1, 2],
    expiration := 3600 }

example : TextItem sampleItem :=
  ⟨by decide, by decide, by decide, by decide⟩
example : Plain b!"user:42" ∧ InRange 32 (-7) := by decide
example : ∀ k ∈ [b!"a", b!"b"], Plain k := by decide

end Props
end Verif
