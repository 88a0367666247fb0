import Verif.Lemmas.BinReq
import Verif.Props.TextRequests
/-!
C10: the requests of the binary client as this module's server reads them.  `h` is the
recycled request header an operation starts from; the theorems hold for every previous
contents of it.
-/

namespace Verif
namespace Spec

/-- Reading the stream `i` request after request gives exactly `reqs` (all of protocol `p`)
and leaves `rest`. -/
def ReadsAs (p : Srv.Protocol) : List Srv.Request → Option Srv.Protocol → Bytes → Bytes → Prop
  | [], _, i, rest => i = rest
  | r :: rs, q, i, rest =>
    ∃ mid, Srv.readRequest q i = (.ok (p, r), mid) ∧ ReadsAs p rs (some p) mid rest

/-- Like `Arrives`, for an operation that sends several requests at once. -/
def ArrivesAll {α : Type} (p : Srv.Protocol) (c : Call α) (reqs : List Srv.Request) : Prop :=
  ∃ w, c.wire = .ok w ∧ ∀ q : Option Srv.Protocol, q = none ∨ q = some p →
    ∀ rest, ReadsAs p reqs q (w ++ rest) rest

end Spec

namespace Props
open Srv Spec

theorem mod16 {n : Nat} (h : n ≤ 65535) : n % 2 ^ 16 = n := Nat.mod_eq_of_lt (by omega)

/-- C10: `Get`. -/
theorem C10_get (h : Bin.ReqHdr) (key : Bytes) (hk : key.length ≤ 65535) :
    Arrives .binary (Bin.get h key) { opcode := opGet, key := key } := by
  refine ⟨_, rfl, fun q hq rest => ?_⟩
  rw [encode_raw, List.append_assoc]
  refine readRequest_raw _ _ _ _ _ _ _ q hq (binGet_ok _ ?_ _ _ _ _ _ _ ?_)
  · exact Nat.mod_lt _ (by decide)
  · exact (mod16 hk).symm

/-- The request a quiet get arrives as. -/
def quietGet (k : Bytes) : Request :=
  { opcode := opGet, key := k, getOpt := some { noReply := true, key := true } }

/-- C10: `GetMulti` arrives as one quiet get per key, in order and with repetitions, then the
no-op that ends the batch. -/
theorem C10_getMulti (h1 h2 : Bin.ReqHdr) (keys : List Bytes) (hk : ∀ k ∈ keys, k.length ≤ 65535) :
    ArrivesAll .binary (Bin.getMulti h1 h2 keys)
      (keys.map quietGet ++ [{ opcode := opNoop }]) := by
  refine ⟨_, rfl, ?_⟩
  suffices H : ∀ (h1 : Bin.ReqHdr) (q : Option Protocol), q = none ∨ q = some Protocol.binary →
      ∀ rest, ReadsAs .binary (keys.map quietGet ++ [{ opcode := opNoop }]) q
        ((Bin.getKQs h1 keys).1 ++ ((Bin.noopHdr h2).encode ++ rest)) rest by
    intro q hq rest
    simpa using H h1 q hq rest
  induction keys with
  | nil =>
    intro h1 q hq rest
    refine ⟨rest, ?_, rfl⟩
    rw [encode_raw]
    exact readRequest_raw _ _ _ _ _ _ _ q hq rfl
  | cons k ks ih =>
    intro h1 q hq rest
    have ih := ih (fun k hk' => hk k (by simp [hk'])) (Bin.getKQHdr h1 k) (some .binary) (Or.inr rfl) rest
    refine ⟨_, ?_, ih⟩
    have hk1 := hk k (by simp)
    have e : (Bin.getKQs h1 (k :: ks)).1 ++ ((Bin.noopHdr h2).encode ++ rest)
        = (Bin.getKQHdr h1 k).encode ++ (k ++ ((Bin.getKQs (Bin.getKQHdr h1 k) ks).1
            ++ ((Bin.noopHdr h2).encode ++ rest))) := by
      simp [Bin.getKQs]
    rw [e, encode_raw]
    refine readRequest_raw _ _ _ _ _ _ _ q hq (binGetKQ_ok _ ?_ _ _ _ _ _ _ ?_)
    · exact Nat.mod_lt _ (by decide)
    · exact (mod16 hk1).symm

/-- What a binary storage request can transmit: key of at most 65535 bytes, no flags or at
least four flag bytes, and key, extras and value together below 4 GiB. -/
structure BinItem (item : Item) : Prop where
  key : item.key.length ≤ 65535
  flags : ∀ f, item.flags = some f → 4 ≤ f.length
  body : item.key.length + item.value.length + 8 < 2 ^ 32

/-- The four flag bytes transmitted. -/
def binFlags (item : Item) : Bytes :=
  match item.flags with
  | some f => f.take 4
  | none => [0, 0, 0, 0]

/-- The request it arrives as: same key, value and flags, expiration modulo 2^32. -/
def binStoreReq (op : UInt8) (item : Item) : Request :=
  { opcode := op, key := item.key, value := item.value, flags := some (binFlags item),
    setOpt := some { expiration := item.expiration % 2 ^ 32 } }

theorem toUnsigned32 (e : Int) : ((toUnsigned 32 e : Nat) : Int) = e % 2 ^ 32 := by
  unfold toUnsigned
  have : (0 : Int) ≤ e % (2 ^ 32 : Nat) := Int.emod_nonneg _ (by decide)
  rw [Int.toNat_of_nonneg this]
  rfl

theorem getBE_exp (e : Int) : (getBE (putBE 4 (toUnsigned 32 e)) : Int) = e % 2 ^ 32 := by
  rw [getBE_putBE_lt 4 _ (by simpa using toUnsigned_lt 32 e), toUnsigned32]

theorem binStore_arrives {α : Type} (h : Bin.ReqHdr) (op : UInt8) (item : Item) (hi : BinItem item)
    (c : Call α) (hc : c.wire = Bin.storeWire h op item)
    (hb : ∀ kl el dt tb cas, binaryRequest (rawHdr op kl el dt tb cas)
      = binStore op (rawHdr op kl el dt tb cas)) :
    Arrives .binary c (binStoreReq op item) := by
  obtain ⟨hk, hf, hl⟩ := hi
  have hx : Bin.storeExtra item
      = .ok (binFlags item ++ putBE 4 (toUnsigned 32 item.expiration)) := by
    unfold Bin.storeExtra binFlags
    cases hfl : item.flags with
    | none => rfl
    | some f =>
      have := hf f hfl
      have : sliceTo f 4 = .ok (f.take 4) := by
        unfold sliceTo; rw [if_pos (by omega)]; rfl
      simp [this]
  have hbl : (binFlags item).length = 4 := by
    unfold binFlags
    cases hfl : item.flags with
    | none => rfl
    | some f => have := hf f hfl; simp; omega
  refine ⟨(Bin.storeHdr h op item).encode ++ (binFlags item ++ putBE 4 (toUnsigned 32 item.expiration))
    ++ item.key ++ item.value, ?_, fun q hq rest => ?_⟩
  · rw [hc, Bin.storeWire, hx]; rfl
  · rw [encode_raw]
    have h2 := binStore_ok op (item.key.length % 2 ^ 16)
      ((item.key.length + item.value.length + 8) % 2 ^ 32) (Nat.mod_lt _ (by decide))
      (Nat.mod_lt _ (by decide)) 0 item.cas (binFlags item)
      (putBE 4 (toUnsigned 32 item.expiration)) item.key item.value rest hbl (putBE_length _ _)
      (mod16 hk).symm (by rw [mod16 hk, Nat.mod_eq_of_lt hl]; omega)
    rw [getBE_exp, ← hb] at h2
    have := readRequest_raw _ _ _ _ _ _ _ q hq h2
    simpa [Bin.storeHdr, Bin.ReqHdr.reset, binStoreReq] using this

/-- C10: `Set`. -/
theorem C10_set (h : Bin.ReqHdr) (item : Item) (hi : BinItem item) :
    Arrives .binary (Bin.set h item) (binStoreReq opSet item) :=
  binStore_arrives h _ item hi _ rfl (fun _ _ _ _ _ => rfl)

/-- C10: `Add`. -/
theorem C10_add (h : Bin.ReqHdr) (item : Item) (hi : BinItem item) :
    Arrives .binary (Bin.add h item) (binStoreReq opAdd item) :=
  binStore_arrives h _ item hi _ rfl (fun _ _ _ _ _ => rfl)

/-- C10: `Replace`. -/
theorem C10_replace (h : Bin.ReqHdr) (item : Item) (hi : BinItem item) :
    Arrives .binary (Bin.replace h item) (binStoreReq opReplace item) :=
  binStore_arrives h _ item hi _ rfl (fun _ _ _ _ _ => rfl)

/-- C10: `Delete`. -/
theorem C10_delete (h : Bin.ReqHdr) (key : Bytes) (hk : key.length ≤ 65535) :
    Arrives .binary (Bin.delete h key) { opcode := opDelete, key := key } := by
  refine ⟨_, rfl, fun q hq rest => ?_⟩
  rw [encode_raw, List.append_assoc]
  refine readRequest_raw _ _ _ _ _ _ _ q hq (binDelete_ok _ ?_ _ _ _ _ _ _ ?_)
  · exact Nat.mod_lt _ (by decide)
  · exact (mod16 hk).symm

theorem incr_arrives (h : Bin.ReqHdr) (op : UInt8) (hop : op = opIncrement ∨ op = opDecrement)
    (key : Bytes) (delta exp : Int) (hk : key.length ≤ 65535) (hd : InRange 64 delta) :
    Arrives .binary (Bin.incrOrDecr h op key delta exp)
      { opcode := op, key := key, delta := delta,
        setOpt := some { expiration := exp % 2 ^ 32 } } := by
  refine ⟨_, rfl, fun q hq rest => ?_⟩
  rw [encode_raw]
  have := binIncr_ok op hop (key.length % 2 ^ 16) (Nat.mod_lt _ (by decide)) h.dataType
    ((key.length + 20) % 2 ^ 32) h.cas (putBE 8 (toUnsigned 64 delta)) (putBE 8 1)
    (putBE 4 (toUnsigned 32 exp)) key rest (putBE_length _ _) (putBE_length _ _) (putBE_length _ _)
    (mod16 hk).symm
  rw [getBE_exp, getBE_putBE_lt 8 _ (by simpa using toUnsigned_lt 64 delta),
    toSigned_toUnsigned 64 (by decide) delta hd] at this
  have := readRequest_raw _ _ _ _ _ _ _ q hq this
  simpa [Bin.incrHdr, Bin.incrExtra] using this

/-- C10: `Increment`. -/
theorem C10_increment (h : Bin.ReqHdr) (key : Bytes) (delta exp : Int) (hk : key.length ≤ 65535)
    (hd : InRange 64 delta) :
    Arrives .binary (Bin.increment h key delta exp)
      { opcode := opIncrement, key := key, delta := delta,
        setOpt := some { expiration := exp % 2 ^ 32 } } :=
  incr_arrives h _ (Or.inl rfl) key delta exp hk hd

/-- C10: `Decrement`. -/
theorem C10_decrement (h : Bin.ReqHdr) (key : Bytes) (delta exp : Int) (hk : key.length ≤ 65535)
    (hd : InRange 64 delta) :
    Arrives .binary (Bin.decrement h key delta exp)
      { opcode := opDecrement, key := key, delta := delta,
        setOpt := some { expiration := exp % 2 ^ 32 } } :=
  incr_arrives h _ (Or.inr rfl) key delta exp hk hd

/-- C10: `Touch`. -/
theorem C10_touch (h : Bin.ReqHdr) (key : Bytes) (exp : Int) (hk : key.length ≤ 65535) :
    Arrives .binary (Bin.touch h key exp)
      { opcode := opTouch, key := key, setOpt := some { expiration := exp % 2 ^ 32 } } := by
  refine ⟨_, rfl, fun q hq rest => ?_⟩
  rw [encode_raw]
  have := binTouch_ok (key.length % 2 ^ 16) (Nat.mod_lt _ (by decide)) 0
    ((key.length + 4) % 2 ^ 32) 0 (putBE 4 (toUnsigned 32 exp)) key rest (putBE_length _ _)
    (mod16 hk).symm
  rw [getBE_exp] at this
  have := readRequest_raw _ _ _ _ _ _ _ q hq this
  simpa [Bin.touchHdr, Bin.ReqHdr.reset, Bin.opTouch, opTouch] using this

/-- C10: `Flush`. -/
theorem C10_flush (h : Bin.ReqHdr) : Arrives .binary (Bin.flush h) { opcode := opFlush } :=
  ⟨_, rfl, fun q hq rest => readRequest_raw _ _ _ _ _ _ _ q hq rfl⟩

/-- C10: `Version`. -/
theorem C10_version (h : Bin.ReqHdr) : Arrives .binary (Bin.version h) { opcode := opVersion } :=
  ⟨_, rfl, fun q hq rest => readRequest_raw _ _ _ _ _ _ _ q hq rfl⟩

example : BinItem sampleItem := ⟨by decide, by intro f hf; cases hf; decide, by decide⟩
example : ∀ k ∈ [b!"a", b!"b c\r\n"], k.length ≤ 65535 := by decide

/-- Why the bound on the key is needed: the request of `Get` with a key of exactly 65536
bytes announces a key of length 0, so this server answers for the empty key and then takes the
key itself for the next request. -/
theorem C10_long_key_misread (h : Bin.ReqHdr) (key rest : Bytes) (hk : key.length = 65536) :
    ∃ w, (Bin.get h key).wire = .ok w ∧
      readRequest none (w ++ rest)
        = (.ok (.binary, { opcode := opGet, key := [] }), key ++ rest) := by
  refine ⟨_, rfl, ?_⟩
  have hl : key.length % 2 ^ 16 = 0 := by rw [hk]
  rw [encode_raw, List.append_assoc]
  refine readRequest_raw _ _ _ _ _ _ _ none (Or.inl rfl) ?_
  have := binGet_ok 0 (by decide) 0 0 (key.length % 2 ^ 32) 0 [] (key ++ rest) rfl
  rw [← hl] at this
  exact this

example : (List.replicate 65536 (120 : UInt8)).length = 65536 := List.length_replicate

end Props
end Verif
