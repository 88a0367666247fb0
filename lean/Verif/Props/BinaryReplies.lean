import Verif.Lemmas.BinReply
import Verif.Props.BinaryRequests
import Verif.Props.TextReplies
/-!
C15, C26 (binary), C40 (binary): what a binary client makes of this server's replies.
-/

namespace Verif
namespace Props
open Srv Spec

/-- A handler response the binary protocol can transmit: extras and key below 64 KiB, at most
255 bytes of extras, everything below 4 GiB. -/
structure BinResp (r : Response) : Prop where
  flags : r.flags.length < 256
  key : r.flags.length + r.key.length < 65536
  body : r.key.length + r.flags.length + r.value.length < 2 ^ 32

/-- C40: the header announces exactly the parts that follow, in the order extras, key, value,
with status 0. -/
theorem C40_binary_header (op : UInt8) (r : Response) (h : BinResp r) (rest : Bytes) :
    Bin.readHdr (writeBinary1 op r ++ rest)
      = (.ok { opcode := op, keyLength := r.key.length, extraLength := r.flags.length, dataType := 0,
               status := 0, totalBodyLength := r.key.length + r.flags.length + r.value.length,
               opaq := 0, cas := 0 },
          r.flags ++ (r.key ++ (r.value ++ rest))) := by
  rw [writeBinary1_raw, List.append_assoc]
  have h1 := h.key
  have h3 := h.body
  rw [readHdr_raw _ _ _ (Nat.mod_lt _ (by decide)) (by decide) (Nat.mod_lt _ (by decide)) (by decide)
    (by decide)]
  have e1 : r.key.length % 2 ^ 16 = r.key.length := Nat.mod_eq_of_lt (by omega)
  have e2 : (UInt8.ofNat r.flags.length).toNat = r.flags.length := by
    have := h.flags; simp [UInt8.toNat_ofNat']; omega
  rw [e1, e2, Nat.mod_eq_of_lt h3]
  simp

theorem readBody_bin (r : Response) (rest : Bytes) :
    readFull (r.key.length + r.flags.length + r.value.length) (r.flags ++ (r.key ++ (r.value ++ rest)))
      = (.ok (r.flags ++ r.key ++ r.value), rest) := by
  have := readFull_append' (r.key.length + r.flags.length + r.value.length)
    (r.flags ++ r.key ++ r.value) rest (by simp; omega)
  simpa using this

/-- C15: `Get` returns exactly the value and flags of the handler's response, under the key
asked for. -/
theorem C15_get (h : Bin.ReqHdr) (key : Bytes) (r : Response) (hr : BinResp r) :
    Answers .binary { opcode := opGet, key := key } [r] (Bin.get h key)
      (.ok { key := key, value := r.value, flags := some r.flags }) := by
  refine ⟨writeBinary1 opGet r, by simp [writeResponse, writeBinary], fun rest => ?_⟩
  show (Bin.readHdr >>= _) _ = _
  rw [Rd.bind_of_ok (C40_binary_header opGet r hr rest)]
  dsimp only
  rw [Rd.bind_of_ok (readBody_bin r rest), if_neg (by simp)]
  have e : (⟨opGet, r.key.length, r.flags.length, 0, 0, r.key.length + r.flags.length + r.value.length, 0, 0⟩ : Bin.ResHdr).valueStart
      = (r.flags ++ r.key).length := by
    have := hr.key
    simp only [Bin.ResHdr.valueStart, List.length_append]
    exact Nat.mod_eq_of_lt (by omega)
  have h2 : sliceTo (r.flags ++ r.key ++ r.value) (r.flags.length : Int) = .ok r.flags := by
    have := sliceTo_append r.flags (r.key ++ r.value); simpa using this
  rw [e, sliceFrom_left, Rd.bind_of_ok (Rd.lift_apply _ _), h2, Rd.bind_of_ok (Rd.lift_apply _ _)]
  rfl

/-- The loop of `GetMulti` on replies followed by the no-op reply. -/
theorem bin_multiLoop (rs : List Response) (h : ∀ r ∈ rs, BinResp r) (op : UInt8)
    (hop : op ≠ Bin.opNoop) (acc : List Item) (n : Nat) (hn : rs.length < n) (rest : Bytes) :
    Bin.multiLoop n acc (rs.flatMap (writeBinary1 op) ++ (writeBinary1 opNoop {} ++ rest))
      = (.ok (acc ++ rs.map fun r => { key := r.key, value := r.value, flags := some r.flags }), rest) := by
  induction rs generalizing acc n with
  | nil =>
    cases n with
    | zero => simp at hn
    | succ n =>
      unfold Bin.multiLoop
      simp only [List.flatMap_nil, List.nil_append]
      rw [Rd.bind_of_ok (C40_binary_header opNoop {} ⟨by decide, by decide, by decide⟩ rest)]
      rw [if_pos (by rfl)]
      simp
  | cons r rs ih =>
    cases n with
    | zero => simp at hn
    | succ n =>
      have hr := h r (by simp)
      unfold Bin.multiLoop
      have e0 : (r :: rs).flatMap (writeBinary1 op) ++ (writeBinary1 opNoop {} ++ rest)
          = writeBinary1 op r ++ (rs.flatMap (writeBinary1 op) ++ (writeBinary1 opNoop {} ++ rest)) := by
        simp
      rw [e0, Rd.bind_of_ok (C40_binary_header op r hr _)]
      dsimp only
      rw [if_neg hop, if_neg (by simp), Rd.bind_of_ok (readBody_bin r _)]
      have e : (⟨op, r.key.length, r.flags.length, 0, 0, r.key.length + r.flags.length + r.value.length, 0, 0⟩ : Bin.ResHdr).valueStart
          = r.flags.length + r.key.length := by
        have := hr.key
        simp only [Bin.ResHdr.valueStart]
        exact Nat.mod_eq_of_lt (by omega)
      have h2 : sliceTo (r.flags ++ r.key ++ r.value) (r.flags.length : Int) = .ok r.flags := by
        have := sliceTo_append r.flags (r.key ++ r.value); simpa using this
      have h3 : sliceFrom (r.flags ++ r.key ++ r.value) (r.flags.length + r.key.length) = .ok r.value := by
        have := sliceFrom_left (r.flags ++ r.key) r.value
        simpa using this
      rw [e, slice_mid, Rd.bind_of_ok (Rd.lift_apply _ _), h3, Rd.bind_of_ok (Rd.lift_apply _ _), h2,
        Rd.bind_of_ok (Rd.lift_apply _ _), ih (fun x hx => h x (by simp [hx])) _ n (by simp at hn; omega)]
      simp

theorem writeBinary1_length (op : UInt8) (r : Response) : 24 ≤ (writeBinary1 op r).length := by
  simp [writeBinary1, putBE_length]; omega

theorem flatMap_binary_length (op : UInt8) (rs : List Response) :
    rs.length ≤ (rs.flatMap (writeBinary1 op)).length := by
  induction rs with
  | nil => simp
  | cons r rs ih =>
    have := writeBinary1_length op r
    simp only [List.flatMap_cons, List.length_cons, List.length_append]; omega

/-- C15, C26: `GetMulti` returns exactly the responses this server wrote before the reply to
the final no-op: key, value and flags, in order. -/
theorem C15_getMulti (h1 h2 : Bin.ReqHdr) (keys : List Bytes) (rs : List Response)
    (h : ∀ r ∈ rs, BinResp r) (rest : Bytes) :
    (Bin.getMulti h1 h2 keys).rd (rs.flatMap (writeBinary1 opGet) ++ (writeBinary1 opNoop {} ++ rest))
      = (.ok (rs.map fun r => { key := r.key, value := r.value, flags := some r.flags }), rest) := by
  have := flatMap_binary_length opGet rs
  show Bin.multiLoop _ [] _ = _
  rw [bin_multiLoop rs h opGet (by decide) [] _ (by simp only [List.length_append]; omega) rest]
  simp

/-- The acknowledgements: any response with an empty body (as the handler of this module's
router returns) makes the operation succeed and leaves the stream in sync. -/
def emptyResp (r : Response) : Prop := r.error = none ∧ r.flags = [] ∧ r.key = [] ∧ r.value = []

theorem emptyResp_bin {r : Response} (h : emptyResp r) (op : UInt8) (rest : Bytes) :
    Bin.readHdr (writeBinary1 op r ++ rest)
      = (.ok { opcode := op, keyLength := 0, extraLength := 0, dataType := 0, status := 0,
               totalBodyLength := 0, opaq := 0, cas := 0 }, rest) := by
  obtain ⟨_, h1, h2, h3⟩ := h
  have := C40_binary_header op r ⟨by simp [h1], by simp [h1, h2], by simp [h1, h2, h3]⟩ rest
  rw [this]
  simp [h1, h2, h3]

theorem C40_binary_set (h : Bin.ReqHdr) (item : Item) (r : Response) (rs : List Response)
    (hr : emptyResp r) : Answers .binary (binStoreReq opSet item) (r :: rs) (Bin.set h item) (.ok ()) := by
  refine ⟨writeBinary1 opSet r, ?_, fun rest => ?_⟩
  · simp [writeResponse, writeBinary, binStoreReq, onFirst, hr.1, opGet, opSet]
  · show (Bin.readHdr >>= _) _ = _
    rw [Rd.bind_of_ok (emptyResp_bin hr _ rest)]; rfl

theorem C40_binary_add (h : Bin.ReqHdr) (item : Item) (r : Response) (rs : List Response)
    (hr : emptyResp r) : Answers .binary (binStoreReq opAdd item) (r :: rs) (Bin.add h item) (.ok ()) := by
  refine ⟨writeBinary1 opAdd r, ?_, fun rest => ?_⟩
  · simp [writeResponse, writeBinary, binStoreReq, onFirst, hr.1, opGet, opAdd]
  · show (Bin.readHdr >>= _) _ = _
    rw [Rd.bind_of_ok (emptyResp_bin hr _ rest)]; rfl

theorem C40_binary_replace (h : Bin.ReqHdr) (item : Item) (r : Response) (rs : List Response)
    (hr : emptyResp r) :
    Answers .binary (binStoreReq opReplace item) (r :: rs) (Bin.replace h item) (.ok ()) := by
  refine ⟨writeBinary1 opReplace r, ?_, fun rest => ?_⟩
  · simp [writeResponse, writeBinary, binStoreReq, onFirst, hr.1, opGet, opReplace]
  · show (Bin.readHdr >>= _) _ = _
    rw [Rd.bind_of_ok (emptyResp_bin hr _ rest)]
    simp only
    rw [if_neg (by decide)]
    rw [Rd.bind_of_ok (show readFull 0 rest = (.ok [], rest) from readFull_append' 0 [] rest rfl)]; rfl

theorem C40_binary_delete (h : Bin.ReqHdr) (key : Bytes) (r : Response) (rs : List Response)
    (hr : emptyResp r) :
    Answers .binary { opcode := opDelete, key := key } (r :: rs) (Bin.delete h key) (.ok ()) := by
  refine ⟨writeBinary1 opDelete r, ?_, fun rest => ?_⟩
  · simp [writeResponse, writeBinary, onFirst, hr.1, opGet, opDelete]
  · show (Bin.readHdr >>= _) _ = _
    rw [Rd.bind_of_ok (emptyResp_bin hr _ rest)]
    simp only
    rw [if_neg (by decide)]
    rw [Rd.bind_of_ok (show readFull 0 rest = (.ok [], rest) from readFull_append' 0 [] rest rfl)]; rfl

theorem C40_binary_touch (h : Bin.ReqHdr) (key : Bytes) (exp : Int) (r : Response) (rs : List Response)
    (hr : emptyResp r) :
    Answers .binary { opcode := opTouch, key := key, setOpt := some { expiration := exp % 2 ^ 32 } }
      (r :: rs) (Bin.touch h key exp) (.ok ()) := by
  refine ⟨writeBinary1 opTouch r, ?_, fun rest => ?_⟩
  · simp [writeResponse, writeBinary, onFirst, hr.1, opGet, opTouch]
  · show (Bin.readHdr >>= _) _ = _
    rw [Rd.bind_of_ok (emptyResp_bin hr _ rest)]; rfl

theorem C40_binary_flush (h : Bin.ReqHdr) (r : Response) (rs : List Response) (hr : emptyResp r) :
    Answers .binary { opcode := opFlush } (r :: rs) (Bin.flush h) (.ok ()) := by
  refine ⟨writeBinary1 opFlush r, ?_, fun rest => ?_⟩
  · simp [writeResponse, writeBinary, onFirst, hr.1, opGet, opFlush]
  · show (Bin.readHdr >>= _) _ = _
    rw [Rd.bind_of_ok (emptyResp_bin hr _ rest)]; rfl

/-- C40: the version is the body of the reply. -/
theorem C40_binary_version (h : Bin.ReqHdr) (r : Response) (rs : List Response)
    (he : r.error = none) (h1 : r.flags = []) (h2 : r.key = []) (h3 : r.value.length < 2 ^ 32) :
    Answers .binary { opcode := opVersion } (r :: rs) (Bin.version h) (.ok r.value) := by
  refine ⟨writeBinary1 opVersion r, ?_, fun rest => ?_⟩
  · simp [writeResponse, writeBinary, onFirst, he, opGet, opVersion]
  · have hb : BinResp r := ⟨by simp [h1], by simp [h1, h2], by simpa [h1, h2] using h3⟩
    show (Bin.readHdr >>= _) _ = _
    rw [Rd.bind_of_ok (C40_binary_header opVersion r hb rest)]
    simp only [h1, h2, List.length_nil, Nat.zero_add, List.nil_append]
    rw [if_neg (by simp)]
    exact readFull_append _ _

theorem incr_answer (h : Bin.ReqHdr) (op : UInt8) (key : Bytes) (delta exp : Int) (n : Nat)
    (r : Response) (h1 : r.flags = []) (h2 : r.key = []) (h3 : r.value = putBE 8 n) (hn : n < 2 ^ 63)
    (rest : Bytes) :
    (Bin.incrOrDecr h op key delta exp).rd (writeBinary1 op r ++ rest) = (.ok (n : Int), rest) := by
  have hl : r.value.length = 8 := by rw [h3, putBE_length]
  have hb : BinResp r := ⟨by simp [h1], by simp [h1, h2], by simp [h1, h2, hl]⟩
  show (Bin.readHdr >>= _) _ = _
  rw [Rd.bind_of_ok (C40_binary_header op r hb rest)]
  simp only [h1, h2, List.length_nil, Nat.zero_add, List.nil_append]
  rw [if_neg (by simp), Rd.bind_of_ok (readFull_append _ _), if_neg (by simp)]
  have : beUint 8 r.value = .ok n := by
    unfold beUint
    rw [if_pos (by omega), List.take_of_length_le (by omega), h3,
      getBE_putBE_lt 8 n (Nat.lt_trans hn (by decide))]
  rw [this, Rd.bind_of_ok (Rd.lift_apply _ _)]
  have e : toSigned 64 n = (n : Int) := by
    have := toSigned_toUnsigned 64 (by decide) (n : Int) ⟨by omega, by exact_mod_cast hn⟩
    rw [toUnsigned_of_nonneg 64 _ (by omega) (by exact_mod_cast Nat.lt_trans hn (by decide))] at this
    simpa using this
  rw [e]
  rfl

/-- C40/C27: the 8-byte counter a handler returns is the counter the client returns (below
2^63). -/
theorem C40_binary_increment (h : Bin.ReqHdr) (key : Bytes) (delta exp : Int) (n : Nat)
    (hn : n < 2 ^ 63) (r : Response) (rs : List Response) (he : r.error = none) (h1 : r.flags = [])
    (h2 : r.key = []) (h3 : r.value = putBE 8 n) :
    Answers .binary { opcode := opIncrement, key := key, delta := delta,
                      setOpt := some { expiration := exp % 2 ^ 32 } } (r :: rs)
      (Bin.increment h key delta exp) (.ok (n : Int)) := by
  refine ⟨writeBinary1 opIncrement r, ?_, fun rest => incr_answer h _ key delta exp n r h1 h2 h3 hn rest⟩
  simp [writeResponse, writeBinary, onFirst, he, opGet, opIncrement]

theorem C40_binary_decrement (h : Bin.ReqHdr) (key : Bytes) (delta exp : Int) (n : Nat)
    (hn : n < 2 ^ 63) (r : Response) (rs : List Response) (he : r.error = none) (h1 : r.flags = [])
    (h2 : r.key = []) (h3 : r.value = putBE 8 n) :
    Answers .binary { opcode := opDecrement, key := key, delta := delta,
                      setOpt := some { expiration := exp % 2 ^ 32 } } (r :: rs)
      (Bin.decrement h key delta exp) (.ok (n : Int)) := by
  refine ⟨writeBinary1 opDecrement r, ?_, fun rest => incr_answer h _ key delta exp n r h1 h2 h3 hn rest⟩
  simp [writeResponse, writeBinary, onFirst, he, opGet, opDecrement]

example : BinResp { key := b!"user:42", value := b!"END\r\n", flags := [0, 0, 1, 2] } :=
  ⟨by decide, by decide, by decide⟩
example : emptyResp {} := ⟨rfl, rfl, rfl, rfl⟩

end Props
end Verif
