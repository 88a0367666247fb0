import Verif.Client.Binary
import Verif.Server.Write
import Verif.Lemmas.Ascii
/-! Helper lemmas: the binary client reading response headers. -/

namespace Verif
open Bin

/-- A response header (memcached's protocol_binary: magic, opcode, key length, extras length,
data type, status, total body length, opaque, cas). -/
def rawRes (op : UInt8) (kl : Nat) (el dt : UInt8) (st tb opq cas : Nat) : Bytes :=
  [0x81, op] ++ putBE 2 kl ++ [el, dt] ++ putBE 2 st ++ putBE 4 tb ++ putBE 4 opq ++ putBE 8 cas

theorem rawRes_length (op kl el dt st tb opq cas) : (rawRes op kl el dt st tb opq cas).length = 24 := by
  simp [rawRes, putBE_length]

theorem rawRes_ofBytes (op el dt) {kl st tb opq cas : Nat} (h1 : kl < 2 ^ 16) (h2 : st < 2 ^ 16)
    (h3 : tb < 2 ^ 32) (h4 : opq < 2 ^ 32) (h5 : cas < 2 ^ 64) :
    ResHdr.ofBytes (rawRes op kl el dt st tb opq cas)
      = { opcode := op, keyLength := kl, extraLength := el.toNat, dataType := dt, status := st,
          totalBodyLength := tb, opaq := opq, cas := cas } := by
  have a1 : ((rawRes op kl el dt st tb opq cas).take 4).drop 2 = putBE 2 kl := by simp [rawRes, putBE]
  have a2 : ((rawRes op kl el dt st tb opq cas).take 8).drop 6 = putBE 2 st := by simp [rawRes, putBE]
  have a3 : ((rawRes op kl el dt st tb opq cas).take 12).drop 8 = putBE 4 tb := by simp [rawRes, putBE]
  have a4 : ((rawRes op kl el dt st tb opq cas).take 16).drop 12 = putBE 4 opq := by simp [rawRes, putBE]
  have a5 : ((rawRes op kl el dt st tb opq cas).take 24).drop 16 = putBE 8 cas := by simp [rawRes, putBE]
  have a6 : (rawRes op kl el dt st tb opq cas).getD 4 0 = el := by simp [rawRes, putBE]
  have a7 : (rawRes op kl el dt st tb opq cas).getD 5 0 = dt := by simp [rawRes, putBE]
  have a8 : (rawRes op kl el dt st tb opq cas).getD 1 0 = op := rfl
  unfold ResHdr.ofBytes
  rw [a1, a2, a3, a4, a5, a6, a7, a8, getBE_putBE_lt 2 kl (by simpa using h1),
    getBE_putBE_lt 2 st (by simpa using h2), getBE_putBE_lt 4 tb (by simpa using h3),
    getBE_putBE_lt 4 opq (by simpa using h4), getBE_putBE_lt 8 cas (by simpa using h5)]

theorem readHdr_raw (op el dt) {kl st tb opq cas : Nat} (h1 : kl < 2 ^ 16) (h2 : st < 2 ^ 16)
    (h3 : tb < 2 ^ 32) (h4 : opq < 2 ^ 32) (h5 : cas < 2 ^ 64) (rest : Bytes) :
    readHdr (rawRes op kl el dt st tb opq cas ++ rest)
      = (.ok { opcode := op, keyLength := kl, extraLength := el.toNat, dataType := dt, status := st,
               totalBodyLength := tb, opaq := opq, cas := cas }, rest) := by
  unfold readHdr
  rw [Rd.bind_of_ok (readFull_append' 24 _ rest (rawRes_length ..))]
  have : (rawRes op kl el dt st tb opq cas).head? = some 0x81 := rfl
  rw [this, rawRes_ofBytes op el dt h1 h2 h3 h4 h5]
  rfl

/-- Server replies in that notation. -/
theorem writeBinary1_raw (op : UInt8) (r : Srv.Response) :
    Srv.writeBinary1 op r
      = rawRes op (r.key.length % 2 ^ 16) (UInt8.ofNat r.flags.length) 0 0
          ((r.key.length + r.flags.length + r.value.length) % 2 ^ 32) 0 0
        ++ (r.flags ++ r.key ++ r.value) := by
  simp [Srv.writeBinary1, rawRes, putBE]

theorem slice_mid (a b c : Bytes) : slice (a ++ b ++ c) a.length (a.length + b.length) = .ok b := by
  unfold slice
  rw [if_pos (by simp)]
  have : (a ++ b ++ c).take (a.length + b.length) = a ++ b := by
    rw [← List.length_append]; exact List.take_left
  rw [this, List.drop_left]

theorem sliceFrom_left (a b : Bytes) : sliceFrom (a ++ b) a.length = .ok b := by
  simp [sliceFrom]

end Verif
