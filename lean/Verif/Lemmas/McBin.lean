import Verif.Mc.Binary
import Verif.Spec.BinApi
import Verif.Lemmas.BinReply
import Verif.Lemmas.BinReq
import Verif.Lemmas.McText
/-! Helper lemmas: one binary call against the reference memcached. -/

namespace Verif
namespace McBin
open Kv Spec Bin
open Mc (binCall)

/-- A request of the client: the opaque field is 0. -/
def mk (op : UInt8) (extras key value : Bytes) (cas : Nat) : Req :=
  { opcode := op, extras := extras, key := key, value := value, opaq := putBE 4 0, cas := cas }

/-- Its bytes. -/
def reqBytes (op dt : UInt8) (extras key value : Bytes) (cas : Nat) : Bytes :=
  rawHdr op key.length (UInt8.ofNat extras.length) dt (extras.length + key.length + value.length) cas
    ++ (extras ++ (key ++ value))

theorem rawHdr_opq (op kl el dt tb cas) : ((rawHdr op kl el dt tb cas).take 16).drop 12 = putBE 4 0 := by
  simp [rawHdr, putBE]

theorem rawHdr_cas (op kl el dt tb) {cas : Nat} (h : cas < 2 ^ 64) :
    getBE (((rawHdr op kl el dt tb cas).take 24).drop 16) = cas := by
  have : ((rawHdr op kl el dt tb cas).take 24).drop 16 = putBE 8 cas := by simp [rawHdr, putBE]
  rw [this, getBE_putBE_lt _ _ (by simpa using h)]

theorem ofNat_toNat {n : Nat} (h : n < 256) : (UInt8.ofNat n).toNat = n := by
  simp [UInt8.toNat_ofNat', Nat.mod_eq_of_lt h]

theorem readReq_raw (op dt : UInt8) (extras key value rest : Bytes) (cas : Nat) (he : extras.length < 256)
    (hk : key.length < 2 ^ 16) (ht : extras.length + key.length + value.length < 2 ^ 32) (hc : cas < 2 ^ 64) :
    readReq (reqBytes op dt extras key value cas ++ rest) = (.ok (some (mk op extras key value cas)), rest) := by
  unfold readReq reqBytes
  rw [List.append_assoc, Rd.bind_of_ok (readFull_append' 24 _ _ (rawHdr_length ..))]
  rw [if_neg (by simp [rawHdr]), rawHdr_tb _ _ _ _ _ ht,
    Rd.bind_of_ok (readFull_append' _ _ rest (by simp only [List.length_append]; omega))]
  have hkl := rawHdr_kl op (UInt8.ofNat extras.length) dt (extras.length + key.length + value.length) cas hk
  unfold Srv.hdrKeyLen at hkl
  rw [rawHdr_el, hkl, rawHdr_op, rawHdr_opq, rawHdr_cas _ _ _ _ _ hc]
  have h1 : (UInt8.ofNat extras.length).toNat = extras.length := ofNat_toNat he
  simp only [h1]
  rw [if_pos (by simp only [List.length_append]; omega)]
  have e1 : (extras ++ (key ++ value)).take extras.length = extras := List.take_left
  have e2 : (extras ++ (key ++ value)).drop extras.length = key ++ value := List.drop_left
  have e3 : (extras ++ (key ++ value)).drop (extras.length + key.length) = value := by
    rw [← List.drop_drop, e2, List.drop_left]
  rw [e1, e2, e3, List.take_left]
  rfl

theorem reqBytes_length (op dt extras key value cas) : 24 ≤ (reqBytes op dt extras key value cas).length := by
  simp [reqBytes, rawHdr_length]

theorem answerLoop_nil (te : Entry → Bytes) (n : Nat) (s : Store) : answerLoop te n s [] = some ([], s) := by
  cases n <;> rfl

theorem answerLoop_cons (te : Entry → Bytes) (n : Nat) (s : Store) (op dt : UInt8) (extras key value rest : Bytes)
    (cas : Nat) (he : extras.length < 256)
    (hk : key.length < 2 ^ 16) (ht : extras.length + key.length + value.length < 2 ^ 32) (hc : cas < 2 ^ 64) :
    answerLoop te (n + 1) s (reqBytes op dt extras key value cas ++ rest)
      = (answerLoop te n (exec te s (mk op extras key value cas)).2 rest).map
          fun q => ((exec te s (mk op extras key value cas)).1 ++ q.1, q.2) := by
  have h := readReq_raw op dt extras key value rest cas he hk ht hc
  cases hx : reqBytes op dt extras key value cas ++ rest with
  | nil =>
    have := reqBytes_length op dt extras key value cas
    have h2 := congrArg List.length hx
    rw [List.length_append, List.length_nil] at h2; omega
  | cons b i =>
    rw [hx] at h
    simp only [answerLoop, h]

theorem answer_one (te : Entry → Bytes) (s : Store) (op dt : UInt8) (extras key value : Bytes)
    (cas : Nat) (he : extras.length < 256)
    (hk : key.length < 2 ^ 16) (ht : extras.length + key.length + value.length < 2 ^ 32) (hc : cas < 2 ^ 64) :
    answer te s (reqBytes op dt extras key value cas) = some (exec te s (mk op extras key value cas)) := by
  unfold answer
  have hl := reqBytes_length op dt extras key value cas
  obtain ⟨n, hn⟩ : ∃ n, (reqBytes op dt extras key value cas).length = n + 1 := ⟨(reqBytes op dt extras key value cas).length - 1, by omega⟩
  rw [hn]
  have := answerLoop_cons te n s op dt extras key value [] cas he hk ht hc
  rw [List.append_nil] at this
  rw [this, answerLoop_nil]
  simp

theorem reply_raw (op : UInt8) (extras key value : Bytes) (cas st : Nat) (ex k v : Bytes) (c : Nat) :
    reply (mk op extras key value cas) st ex k v c
      = rawRes op k.length (UInt8.ofNat ex.length) 0 st (ex.length + k.length + v.length) 0 c ++ (ex ++ k ++ v) := by
  simp [reply, rawRes, mk]

theorem readHdr_reply (op : UInt8) (extras key value : Bytes) (cas st : Nat) (ex k v : Bytes) (c : Nat) (rest : Bytes)
    (he : ex.length < 256) (hk : k.length < 2 ^ 16) (ht : ex.length + k.length + v.length < 2 ^ 32)
    (hs : st < 2 ^ 16) (hc : c < 2 ^ 64) :
    readHdr (reply (mk op extras key value cas) st ex k v c ++ rest)
      = (.ok { opcode := op, keyLength := k.length, extraLength := ex.length, dataType := 0, status := st,
               totalBodyLength := ex.length + k.length + v.length, opaq := 0, cas := c }, ex ++ k ++ v ++ rest) := by
  rw [reply_raw, List.append_assoc, readHdr_raw op (UInt8.ofNat ex.length) 0 hk hs ht (by decide) hc, ofNat_toNat he]

theorem exchange_bin {te : Entry → Bytes} {c : Call Out} {w : Bytes} {s s' : Store} {rep : Bytes} {res : Res Out}
    {left : Bytes} (hw : c.wire = .ok w) (ha : answer te s w = some (rep, s')) (hr : c.rd rep = (res, left))
    (hio : res ≠ .err .io) : exchange te c s [] = some (res, s', left) := by
  simp only [exchange, hw, ha, List.nil_append, hr, if_neg hio]

/-- The same for a call without a value. -/
theorem exchange_unit {te : Entry → Bytes} {c : Call Unit} {w : Bytes} {s s' : Store} {rep : Bytes} {res : Res Unit}
    {left : Bytes} (hw : c.wire = .ok w) (ha : answer te s w = some (rep, s')) (hr : c.rd rep = (res, left))
    (hio : res ≠ .err .io) :
    exchange te (c.map fun _ => Out.done) s [] = some (res.map fun _ => Out.done, s', left) := by
  refine exchange_bin (by simpa [Call.map] using hw) ha (Mc.map_rd (fun _ => Out.done) c _ _ _ hr) ?_
  cases res <;> simp_all [Res.map]

end McBin
end Verif
