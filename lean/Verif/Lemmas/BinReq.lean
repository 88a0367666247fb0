import Verif.Server.Serve
import Verif.Client.Binary
import Verif.Lemmas.Ascii
/-! Helper lemmas: the server reading binary request headers. -/

namespace Verif
open Srv

/-- Look of an encoded header. -/
def rawHdr (op : UInt8) (kl : Nat) (el dt : UInt8) (tb cas : Nat) : Bytes :=
  [0x80, op] ++ putBE 2 kl ++ [el, dt] ++ putBE 2 0 ++ putBE 4 tb ++ putBE 4 0 ++ putBE 8 cas

theorem encode_raw (h : Bin.ReqHdr) : h.encode
    = rawHdr h.opcode h.keyLength (UInt8.ofNat h.extraLength) h.dataType h.totalBodyLength h.cas := rfl

theorem rawHdr_length (op kl el dt tb cas) : (rawHdr op kl el dt tb cas).length = 24 := by
  simp [rawHdr, putBE_length]

theorem rawHdr_op (op kl el dt tb cas) : (rawHdr op kl el dt tb cas).getD 1 0 = op := rfl
theorem rawHdr_el (op kl el dt tb cas) : (rawHdr op kl el dt tb cas).getD 4 0 = el := by
  simp [rawHdr, putBE]
theorem rawHdr_kl (op el dt tb cas) {kl : Nat} (h : kl < 2 ^ 16) :
    hdrKeyLen (rawHdr op kl el dt tb cas) = kl := by
  have : ((rawHdr op kl el dt tb cas).take 4).drop 2 = putBE 2 kl := by
    simp [rawHdr, putBE]
  rw [hdrKeyLen, this, getBE_putBE_lt _ _ (by simpa using h)]
theorem rawHdr_tb (op kl el dt cas) {tb : Nat} (h : tb < 2 ^ 32) :
    getBE (((rawHdr op kl el dt tb cas).take 12).drop 8) = tb := by
  have : ((rawHdr op kl el dt tb cas).take 12).drop 8 = putBE 4 tb := by
    simp [rawHdr, putBE]
  rw [this, getBE_putBE_lt _ _ (by simpa using h)]

theorem readBinary_hdr (op kl el dt tb cas) (i : Bytes) :
    readBinary (rawHdr op kl el dt tb cas ++ i) = binaryRequest (rawHdr op kl el dt tb cas) i := by
  unfold readBinary
  rw [Rd.bind_of_ok (readFull_append' 24 _ i (rawHdr_length ..))]
  rfl

theorem readRequest_raw (op kl el dt tb cas) (i : Bytes) (q : Option Protocol)
    (hq : q = none ∨ q = some .binary) {req : Request} {rest : Bytes}
    (h : binaryRequest (rawHdr op kl el dt tb cas) i = (.ok req, rest)) :
    readRequest q (rawHdr op kl el dt tb cas ++ i) = (.ok (.binary, req), rest) := by
  rw [← readBinary_hdr] at h
  exact readRequest_binary _ q hq h

/-- Key-only requests. -/
theorem read_key (kl : Nat) (key rest : Bytes) (f : Bytes → Request) (h : key.length = kl) :
    (do let k ← readFull kl; pure (f k) : Rd Request) (key ++ rest) = (.ok (f key), rest) := by
  rw [Rd.bind_of_ok (readFull_append' kl key rest h)]; rfl

theorem binGet_ok (kl : Nat) (hk : kl < 2 ^ 16) (el dt tb cas) (key rest : Bytes) (h : key.length = kl) :
    binaryRequest (rawHdr opGet kl el dt tb cas) (key ++ rest)
      = (.ok { opcode := opGet, key := key }, rest) := by
  have := read_key kl key rest (fun k => { opcode := opGet, key := k }) h
  rw [← rawHdr_kl opGet el dt tb cas hk] at this
  exact this

theorem binGetKQ_ok (kl : Nat) (hk : kl < 2 ^ 16) (el dt tb cas) (key rest : Bytes) (h : key.length = kl) :
    binaryRequest (rawHdr opGetKQ kl el dt tb cas) (key ++ rest)
      = (.ok { opcode := opGet, key := key, getOpt := some { noReply := true, key := true } }, rest) := by
  have := read_key kl key rest
    (fun k => { opcode := opGet, key := k, getOpt := some { noReply := true, key := true } }) h
  rw [← rawHdr_kl opGetKQ el dt tb cas hk] at this
  exact this

theorem binDelete_ok (kl : Nat) (hk : kl < 2 ^ 16) (el dt tb cas) (key rest : Bytes) (h : key.length = kl) :
    binaryRequest (rawHdr opDelete kl el dt tb cas) (key ++ rest)
      = (.ok { opcode := opDelete, key := key }, rest) := by
  have := read_key kl key rest (fun k => { opcode := opDelete, key := k }) h
  rw [← rawHdr_kl opDelete el dt tb cas hk] at this
  exact this

/-- Body of the storage branch. -/
def binStore (op : UInt8) (h : Bytes) : Rd Request := do
    let extra ← readFull (h.getD 4 0).toNat
    let e ← Rd.lift (slice extra 4 8)
    let key ← readFull (hdrKeyLen h)
    let buf ← readN ((getBE ((h.take 12).drop 8) : Int) - extra.length - hdrKeyLen h)
    let f ← Rd.lift (sliceTo extra 4)
    pure { opcode := op, key := key, value := buf, flags := some f,
           setOpt := some { expiration := getBE e } }

theorem binStore_ok (op : UInt8) (kl tb : Nat) (hk : kl < 2 ^ 16) (ht : tb < 2 ^ 32)
    (dt cas) (fl ex key value rest : Bytes) (hf : fl.length = 4) (he : ex.length = 4)
    (h : key.length = kl) (hv : value.length + kl + 8 = tb) :
    binStore op (rawHdr op kl 8 dt tb cas) (fl ++ ex ++ key ++ value ++ rest)
      = (.ok { opcode := op, key := key, value := value, flags := some fl,
               setOpt := some { expiration := getBE ex } }, rest) := by
  unfold binStore
  rw [rawHdr_el, rawHdr_kl _ _ _ _ _ hk, rawHdr_tb _ _ _ _ _ ht]
  have e1 : fl ++ ex ++ key ++ value ++ rest = (fl ++ ex) ++ (key ++ (value ++ rest)) := by simp
  rw [e1]
  rw [Rd.bind_of_ok (readFull_append' _ (fl ++ ex) _ (by simp [hf, he]))]
  have h2 : slice (fl ++ ex) 4 8 = .ok ex := by
    have : fl ++ ex = (fl ++ ex).take 8 := by rw [List.take_of_length_le]; simp [hf, he]
    simp only [slice, List.length_append, hf, he]
    rw [← this]
    rw [if_pos (by omega), ← hf, List.drop_left]
  rw [h2]
  rw [Rd.bind_of_ok (Rd.lift_apply _ _)]
  rw [Rd.bind_of_ok (readFull_append' _ key _ h)]
  have h3 := readN_append ((tb : Int) - (fl ++ ex).length - kl) value rest
    (by simp [hf, he]; omega)
    (by
      have : maxAlloc = 281474976710656 := by unfold maxAlloc; decide
      rw [this]
      have : (2 : Nat) ^ 32 = 4294967296 := by decide
      omega)
  rw [Rd.bind_of_ok h3]
  have h4 : sliceTo (fl ++ ex) 4 = .ok fl := by
    have := sliceTo_append fl ex
    rw [hf] at this
    exact this
  rw [h4]
  rfl

theorem binIncr_ok (op : UInt8) (hop : op = opIncrement ∨ op = opDecrement) (kl : Nat)
    (hk : kl < 2 ^ 16) (dt tb cas) (d ini ex key rest : Bytes) (hd : d.length = 8)
    (hi : ini.length = 8) (he : ex.length = 4) (h : key.length = kl) :
    binaryRequest (rawHdr op kl 20 dt tb cas) (d ++ ini ++ ex ++ key ++ rest)
      = (.ok { opcode := op, key := key, delta := toSigned 64 (getBE d),
               setOpt := some { expiration := getBE ex } }, rest) := by
  have hb : binaryRequest (rawHdr op kl 20 dt tb cas) = (do
      let extra ← readFull ((rawHdr op kl 20 dt tb cas).getD 4 0).toNat
      let d ← Rd.lift (sliceTo extra 8)
      let e ← Rd.lift (slice extra 16 20)
      let key ← readFull (hdrKeyLen (rawHdr op kl 20 dt tb cas))
      pure { opcode := op, key := key, delta := toSigned 64 (getBE d),
             setOpt := some { expiration := getBE e } }) := by
    rcases hop with rfl | rfl <;> rfl
  rw [hb, rawHdr_el, rawHdr_kl _ _ _ _ _ hk]
  have e1 : d ++ ini ++ ex ++ key ++ rest = (d ++ ini ++ ex) ++ (key ++ rest) := by simp
  rw [e1, Rd.bind_of_ok (readFull_append' _ (d ++ ini ++ ex) _ (by simp [hd, hi, he]))]
  have h1 : sliceTo (d ++ ini ++ ex) 8 = .ok d := by
    have := sliceTo_append d (ini ++ ex)
    rw [hd] at this
    simpa using this
  rw [h1, Rd.bind_of_ok (Rd.lift_apply _ _)]
  have h2 : slice (d ++ ini ++ ex) 16 20 = .ok ex := by
    have : d ++ ini ++ ex = (d ++ ini ++ ex).take 20 := by
      rw [List.take_of_length_le]; simp [hd, hi, he]
    have h16 : (d ++ ini).length = 16 := by simp [hd, hi]
    simp only [slice]
    rw [← this, if_pos (by simp [hd, hi, he]), ← h16, List.drop_left]
  rw [h2, Rd.bind_of_ok (Rd.lift_apply _ _), Rd.bind_of_ok (readFull_append' _ key _ h)]
  rfl

theorem binTouch_ok (kl : Nat) (hk : kl < 2 ^ 16) (dt tb cas) (ex key rest : Bytes)
    (he : ex.length = 4) (h : key.length = kl) :
    binaryRequest (rawHdr opTouch kl 4 dt tb cas) (ex ++ key ++ rest)
      = (.ok { opcode := opTouch, key := key, setOpt := some { expiration := getBE ex } }, rest) := by
  have hb : binaryRequest (rawHdr opTouch kl 4 dt tb cas) = (do
      let extra ← readFull ((rawHdr opTouch kl 4 dt tb cas).getD 4 0).toNat
      let e ← Rd.lift (sliceTo extra 4)
      let key ← readFull (hdrKeyLen (rawHdr opTouch kl 4 dt tb cas))
      pure { opcode := opTouch, key := key, setOpt := some { expiration := getBE e } }) := rfl
  rw [hb, rawHdr_el, rawHdr_kl _ _ _ _ _ hk]
  have e1 : ex ++ key ++ rest = ex ++ (key ++ rest) := by simp
  rw [e1, Rd.bind_of_ok (readFull_append' (UInt8.toNat 4) ex _ he)]
  have h1 : sliceTo ex 4 = .ok ex := by
    have := sliceTo_append ex []
    rw [he] at this
    simpa using this
  rw [h1, Rd.bind_of_ok (Rd.lift_apply _ _), Rd.bind_of_ok (readFull_append' _ key _ h)]
  rfl

end Verif
