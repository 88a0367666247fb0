import Verif.Lemmas.McBin
import Verif.Props.History
import Verif.Props.Headers
import Verif.Props.BinaryRequests
/-!
C52 for the binary protocol, and C55: what memcached's error texts do to a binary connection.

`McBin.session` (Mc/Binary.lean) runs the client's calls, with request headers recycled in any order,
against a byte-level reference server; `Spec.binApi` (Spec/BinApi.lean) gives the results in terms of
the abstract key-value store only.
-/

namespace Verif
namespace Props
open Kv Spec McBin Bin
open Mc (binCall find_data)

/-! ### requests -/

theorem key16 {k : Bytes} (h : Key k) : k.length < 2 ^ 16 := Nat.lt_of_le_of_lt h.2 (by decide)
theorem key16' {k : Bytes} (h : Key k) : k.length % 2 ^ 16 = k.length := Nat.mod_eq_of_lt (key16 h)
theorem key32' {k : Bytes} (h : Key k) : k.length % 2 ^ 32 = k.length :=
  Nat.mod_eq_of_lt (Nat.lt_of_le_of_lt h.2 (by decide))

theorem wire_get (h : ReqHdr) {k : Bytes} (hk : Key k) :
    (Bin.get h k).wire = .ok (reqBytes 0 0 [] k [] 0) := by
  simp [Bin.get, getHdr, ReqHdr.reset, encode_raw, reqBytes, key16' hk, key32' hk, opGet]

theorem wire_delete (h : ReqHdr) {k : Bytes} (hk : Key k) :
    (Bin.delete h k).wire = .ok (reqBytes 4 0 [] k [] 0) := by
  simp [Bin.delete, deleteHdr, ReqHdr.reset, encode_raw, reqBytes, key16' hk, key32' hk, opDelete]

theorem wire_flush (h : ReqHdr) : (Bin.flush h).wire = .ok (reqBytes 8 0 [] [] [] 0) := by
  simp [Bin.flush, ReqHdr.reset, encode_raw, reqBytes, opFlush]

theorem wire_touch (h : ReqHdr) {k : Bytes} (hk : Key k) (e : Int) :
    (Bin.touch h k e).wire = .ok (reqBytes 0x1c 0 (putBE 4 (toUnsigned 32 e)) k [] 0) := by
  have h1 : (k.length + 4) % 2 ^ 32 = 4 + k.length := by
    rw [Nat.mod_eq_of_lt, Nat.add_comm]
    have := hk.2
    exact Nat.lt_of_le_of_lt (Nat.add_le_add_right this 4) (by decide)
  simp only [Bin.touch, touchHdr, ReqHdr.reset, encode_raw, reqBytes, key16' hk, h1, opTouch, putBE_length]
  simp

theorem wire_count (h : ReqHdr) (op : UInt8) {k : Bytes} (hk : Key k) (d e : Int) :
    (Bin.incrOrDecr h op k d e).wire
      = .ok (reqBytes op h.dataType (incrExtra d e) k [] h.cas) := by
  have h1 : (k.length + 20) % 2 ^ 32 = 20 + k.length := by
    rw [Nat.mod_eq_of_lt, Nat.add_comm]
    have := hk.2
    exact Nat.lt_of_le_of_lt (Nat.add_le_add_right this 20) (by decide)
  have h2 : (incrExtra d e).length = 20 := by simp [incrExtra, putBE_length]
  simp only [Bin.incrOrDecr, incrHdr, encode_raw, reqBytes, key16' hk, h1, h2]
  simp

/-- The eight bytes of extras of a storing request. -/
def storeExtras (i : Item) : Bytes :=
  (match i.flags with | some f => f.take 4 | none => [0, 0, 0, 0]) ++ putBE 4 (toUnsigned 32 i.expiration)

theorem storeExtras_len {i : Item} (hi : GoodBinItem i) : (storeExtras i).length = 8 := by
  unfold storeExtras
  cases hf : i.flags with
  | none => simp [putBE_length]
  | some f => have := hi.flags f hf; simp [putBE_length]; omega

theorem wire_store (h : ReqHdr) (op : UInt8) {i : Item} (hi : GoodBinItem i) :
    storeWire h op i = .ok (reqBytes op 0 (storeExtras i) i.key i.value i.cas) := by
  have hx : storeExtra i = .ok (storeExtras i) := by
    unfold storeExtra storeExtras
    cases hf : i.flags with
    | none => rfl
    | some f =>
      have := hi.flags f hf
      have hs : sliceTo f 4 = .ok (f.take 4) := by
        unfold sliceTo
        exact if_pos ⟨by decide, by exact_mod_cast this⟩
      show (sliceTo f 4 >>= fun x => pure (x ++ putBE 4 (toUnsigned 32 i.expiration))) = _
      rw [hs]; rfl
  have hk := hi.good.key
  have h1 : (i.key.length + i.value.length + 8) % 2 ^ 32 = 8 + i.key.length + i.value.length := by
    rw [Nat.mod_eq_of_lt]
    · omega
    · have := hk.2; have := hi.good.value
      have hm : maxValue = 1048576 := rfl
      have : (2 : Nat) ^ 32 = 4294967296 := by decide
      omega
  unfold storeWire
  rw [hx]
  show Res.ok _ = _
  simp only [storeHdr, ReqHdr.reset, encode_raw, reqBytes, key16' hk, h1, storeExtras_len hi]
  simp

theorem total_small {i : Item} (hi : GoodBinItem i) :
    (storeExtras i).length + i.key.length + i.value.length < 2 ^ 32 := by
  rw [storeExtras_len hi]
  have := hi.good.key.2; have := hi.good.value
  have hm : maxValue = 1048576 := rfl
  have : (2 : Nat) ^ 32 = 4294967296 := by decide
  omega

theorem storeExtras_flags {i : Item} (hi : GoodBinItem i) : getBE ((storeExtras i).take 4) = metaFlagsOf i := by
  unfold storeExtras metaFlagsOf
  cases hf : i.flags with
  | none => rfl
  | some f =>
    have h4 : (f.take 4).length = 4 := by have := hi.flags f hf; simp; omega
    have : (f.take 4 ++ putBE 4 (toUnsigned 32 i.expiration)).take 4 = f.take 4 := List.take_left' h4
    simp only [this]

theorem exp_back {e : Int} (h0 : 0 ≤ e) (h1 : e < 2 ^ 31) : (getBE (putBE 4 (toUnsigned 32 e)) : Int) = e := by
  rw [getBE_exp]
  exact Int.emod_eq_of_lt h0 (by omega)

theorem storeExtras_exp {i : Item} (hi : GoodBinItem i) : (getBE ((storeExtras i).drop 4) : Int) = i.expiration := by
  have hd : (storeExtras i).drop 4 = putBE 4 (toUnsigned 32 i.expiration) := by
    unfold storeExtras
    cases hf : i.flags with
    | none => rfl
    | some f =>
      have h4 : (f.take 4).length = 4 := by have := hi.flags f hf; simp; omega
      exact List.drop_left' h4
  rw [hd]
  exact exp_back hi.exp hi.good.exp.2

/-! ### replies -/

/-- The reply to a storing request. -/
def storeReply (op : UInt8) (r : Req) (s : Store) : Stored → Bytes
  | .stored => reply r 0 [] [] [] s.nextCas
  | .exists_ => dataExists r
  | .notFound => notFound r
  | .notStored => if op = 0x02 then dataExists r else notFound r

/-- Condition of a storing request. -/
def modeFor (op : UInt8) : Mode := if op = 2 then .add else if op = 3 then .replace else .set

theorem exec_store (te : Entry → Bytes) (s : Store) (op : UInt8) (hop : op = 1 ∨ op = 2 ∨ op = 3) {i : Item}
    (hi : GoodBinItem i) :
    exec te s (mk op (storeExtras i) i.key i.value i.cas)
      = (storeReply op (mk op (storeExtras i) i.key i.value i.cas) s
           (s.store (binMode (modeFor op) i) i.key i.value (metaFlagsOf i) i.expiration).1,
         (s.store (binMode (modeFor op) i) i.key i.value (metaFlagsOf i) i.expiration).2) := by
  have hm : modeOf (mk op (storeExtras i) i.key i.value i.cas) = binMode (modeFor op) i := by
    show (if i.cas ≠ 0 then Mode.cas i.cas else modeFor op) = _
    unfold binMode
    by_cases hc : i.cas = 0
    · rw [if_neg (fun h => h hc), if_neg (by omega)]
    · rw [if_pos hc, if_pos (Nat.pos_of_ne_zero hc)]
  unfold exec
  have h0 : ¬ (op = 0x00 ∨ op = 0x0d) := by rcases hop with rfl | rfl | rfl <;> decide
  have ho : (mk op (storeExtras i) i.key i.value i.cas).opcode = op := rfl
  have hl : (mk op (storeExtras i) i.key i.value i.cas).extras.length = 8 := storeExtras_len hi
  rw [ho, if_neg h0, if_pos hop, if_neg (by simp [hl]), hm]
  simp only [mk, storeExtras_flags hi, storeExtras_exp hi]
  cases (s.store (binMode (modeFor op) i) i.key i.value (metaFlagsOf i) i.expiration).1 <;> rfl

/-- Reading a reply without extras and key, for any operation that starts by reading a header. -/
theorem hdr_bind {α : Type} (f : ResHdr → Rd α) (op : UInt8) (ex k v0 : Bytes) (cas st : Nat) (x v : Bytes) (c : Nat)
    (hx : x.length < 256) (hv : v.length < 2 ^ 31) (hs : st < 2 ^ 16) (hc : c < 2 ^ 64) :
    (readHdr >>= f) (reply (mk op ex k v0 cas) st x [] v c)
      = f { opcode := op, keyLength := 0, extraLength := x.length, dataType := 0, status := st,
            totalBodyLength := x.length + v.length, opaq := 0, cas := c } (x ++ v) := by
  have h := readHdr_reply op ex k v0 cas st x [] v c [] hx (by simp) (by simp; omega) hs hc
  rw [List.append_nil] at h
  rw [Rd.bind_of_ok h]
  simp

theorem set_reply (h : ReqHdr) (i : Item) (ex k v0 : Bytes) (cas st : Nat) (v : Bytes) (c : Nat)
    (hv : v.length < 2 ^ 31) (hs : st < 2 ^ 16) (hc : c < 2 ^ 64) :
    (Bin.set h i).rd (reply (mk 1 ex k v0 cas) st [] [] v c)
      = (if st ≠ 0 then if st = 2 then .err .itemExists else .err (statusErr st) else .ok (), v) := by
  show (readHdr >>= _) _ = _
  rw [hdr_bind _ _ _ _ _ _ _ _ _ _ (by simp) hv hs hc]
  simp only [Rd.ite_apply']
  rw [if_neg (by decide)]
  split
  · split <;> rfl
  · rfl

theorem add_reply (h : ReqHdr) (i : Item) (ex k v0 : Bytes) (cas st : Nat) (v : Bytes) (c : Nat)
    (hv : v.length < 2 ^ 31) (hs : st < 2 ^ 16) (hc : c < 2 ^ 64) :
    (Bin.add h i).rd (reply (mk 2 ex k v0 cas) st [] [] v c)
      = (if st ≠ 0 then if st = 2 then .err .itemExists else .err (statusErr st) else .ok (), v) := by
  show (readHdr >>= _) _ = _
  rw [hdr_bind _ _ _ _ _ _ _ _ _ _ (by simp) hv hs hc]
  simp only [Rd.ite_apply']
  rw [if_neg (by decide)]
  split
  · split <;> rfl
  · rfl

theorem touch_reply (h : ReqHdr) (key : Bytes) (e : Int) (ex k v0 : Bytes) (cas st : Nat) (x v : Bytes) (c : Nat)
    (hx : x.length < 256) (hv : v.length < 2 ^ 31) (hs : st < 2 ^ 16) (hc : c < 2 ^ 64) :
    (Bin.touch h key e).rd (reply (mk 0x1c ex k v0 cas) st x [] v c)
      = (if st ≠ 0 then .err (statusErr st) else .ok (), x ++ v) := by
  show (readHdr >>= _) _ = _
  rw [hdr_bind _ _ _ _ _ _ _ _ _ _ hx hv hs hc]
  simp only [Rd.ite_apply']
  split <;> rfl

theorem body_read {α : Type} (f : Bytes → Rd α) (v : Bytes) (n : Nat) (h : v.length = n) :
    (readFull n >>= f) v = f v [] := by
  have := readFull_append' n v [] h
  rw [List.append_nil] at this
  rw [Rd.bind_of_ok this]

theorem replace_reply (h : ReqHdr) (i : Item) (ex k v0 : Bytes) (cas st : Nat) (v : Bytes) (c : Nat)
    (hv : v.length < 2 ^ 31) (hs : st < 2 ^ 16) (hc : c < 2 ^ 64) :
    (Bin.replace h i).rd (reply (mk 3 ex k v0 cas) st [] [] v c)
      = (if st ≠ 0 then if st = 1 then .err .itemNotFound else .err (statusErr st) else .ok (), []) := by
  show (readHdr >>= _) _ = _
  rw [hdr_bind _ _ _ _ _ _ _ _ _ _ (by simp) hv hs hc]
  rw [Rd.ite_apply', if_neg (of_decide_eq_true rfl), body_read _ _ _ (by simp)]
  simp only [Rd.ite_apply']
  split
  · split <;> rfl
  · rfl

theorem delete_reply (h : ReqHdr) (key : Bytes) (ex k v0 : Bytes) (cas st : Nat) (v : Bytes) (c : Nat)
    (hv : v.length < 2 ^ 31) (hs : st < 2 ^ 16) (hc : c < 2 ^ 64) :
    (Bin.delete h key).rd (reply (mk 4 ex k v0 cas) st [] [] v c)
      = (if st ≠ 0 then if st = 1 then .err .itemNotFound else .err (statusErr st) else .ok (), []) := by
  show (readHdr >>= _) _ = _
  rw [hdr_bind _ _ _ _ _ _ _ _ _ _ (by simp) hv hs hc]
  rw [Rd.ite_apply', if_neg (of_decide_eq_true rfl), body_read _ _ _ (by simp)]
  simp only [Rd.ite_apply']
  split
  · split <;> rfl
  · rfl

theorem count_value (h : ReqHdr) (op : UInt8) (key : Bytes) (d e : Int) (ex k v0 : Bytes) (cas n : Nat) (c : Nat)
    (hn : n < 2 ^ 64) (hc : c < 2 ^ 64) :
    (Bin.incrOrDecr h op key d e).rd (reply (mk op ex k v0 cas) 0 [] [] (putBE 8 n) c)
      = (.ok (toSigned 64 n), []) := by
  show (readHdr >>= _) _ = _
  rw [hdr_bind _ _ _ _ _ _ _ _ _ _ (by simp) (by simp [putBE_length]) (by decide) hc]
  rw [Rd.ite_apply', if_neg (fun h => h rfl), body_read _ _ _ (by simp)]
  rw [Rd.ite_apply', if_neg (fun h => h rfl)]
  have hb : beUint 8 (putBE 8 n) = .ok n := by
    unfold beUint
    have h8 : (putBE 8 n).length = 8 := putBE_length 8 n
    rw [if_pos (by omega)]
    have : (putBE 8 n).take 8 = putBE 8 n := List.take_of_length_le (by omega)
    rw [this, getBE_putBE_lt 8 n (by simpa using hn)]
  rw [List.nil_append, hb]
  rfl

theorem count_refused (h : ReqHdr) (op : UInt8) (key : Bytes) (d e : Int) (ex k v0 : Bytes) (cas st : Nat)
    (v msg : Bytes) (c : Nat) (hm : binaryStatus.lookup st = some msg) (h0 : st ≠ 0) (hv : v.length < 2 ^ 31) (hp : 0 < v.length)
    (hs : st < 2 ^ 16) (hc : c < 2 ^ 64) :
    (Bin.incrOrDecr h op key d e).rd (reply (mk op ex k v0 cas) st [] [] v c)
      = (.err (.msg (b!"memcached: error " ++ msg ++ (b!" (" ++ v ++ b!")"))), []) := by
  show (readHdr >>= _) _ = _
  rw [hdr_bind _ _ _ _ _ _ _ _ _ _ (by simp) hv hs hc]
  rw [Rd.ite_apply', if_neg (fun h => h rfl), body_read _ _ _ (by simp)]
  rw [Rd.ite_apply', if_pos h0]
  simp only [hm, List.nil_append]
  rw [if_pos hp]
  rfl

theorem get_hit (h : ReqHdr) (key : Bytes) (ex k v0 : Bytes) (cas : Nat) (f v : Bytes) (c : Nat)
    (hf : f.length = 4) (hv : v.length < 2 ^ 31) (hc : c < 2 ^ 64) :
    (Bin.get h key).rd (reply (mk 0 ex k v0 cas) 0 f [] v c)
      = (.ok { key := key, value := v, flags := some f, cas := c }, []) := by
  show (readHdr >>= _) _ = _
  rw [hdr_bind _ _ _ _ _ _ _ _ _ _ (by omega) hv (by decide) hc]
  rw [body_read _ _ _ (by simp), Rd.ite_apply', if_neg (by simp)]
  have h1 : ResHdr.valueStart ⟨0, 0, f.length, 0, 0, f.length + v.length, 0, c⟩ = f.length := by
    simp only [ResHdr.valueStart, hf]
  rw [h1, sliceFrom_left, Rd.bind_of_ok (Rd.lift_apply _ _), sliceTo_append, Rd.bind_of_ok (Rd.lift_apply _ _)]
  rfl

theorem get_miss (h : ReqHdr) (key : Bytes) (ex k v0 : Bytes) (cas : Nat) :
    (Bin.get h key).rd (notFound (mk 0 ex k v0 cas)) = (.err .itemNotFound, []) := by
  show (readHdr >>= _) _ = _
  unfold notFound
  rw [hdr_bind _ _ _ _ _ _ _ _ _ _ (by simp) (by decide) (by decide) (by decide)]
  rw [body_read _ _ _ (by simp), Rd.ite_apply', if_pos (by simp), Rd.ite_apply', if_pos rfl]
  rfl

theorem flush_reply (h : ReqHdr) (ex k v0 : Bytes) (cas : Nat) :
    (Bin.flush h).rd (reply (mk 8 ex k v0 cas) 0 [] [] [] 0) = (.ok (), []) := by
  show (readHdr >>= _) _ = _
  rw [hdr_bind _ _ _ _ _ _ _ _ _ _ (by simp) (by simp) (by decide) (by decide)]
  rw [Rd.ite_apply', if_neg (by decide)]
  rfl

/-! ### GetMulti -/

/-- What memcached sends for one of the keys. -/
def hitOf (s : Store) (k : Bytes) : Option BinHit :=
  (s.find k).map fun e =>
    { head := rawRes 13 k.length 4 0 0 (4 + k.length + e.value.length) 0 e.cas, flags := putBE 4 e.flags, key := k,
      value := e.value }

theorem hitOf_ok {s : Store} (hs : GoodStore s) {k : Bytes} (hk : Key k) {b : BinHit} (hb : hitOf s k = some b) :
    b.Ok := by
  unfold hitOf at hb
  cases hf : s.find k with
  | none => simp [hf] at hb
  | some e =>
    simp only [hf, Option.map_some, Option.some.injEq] at hb
    subst hb
    obtain ⟨h1, h2, h3, h4⟩ := hs.entry k e (find_data hf)
    have hm : maxValue = 1048576 := rfl
    have h31 : (2 : Nat) ^ 32 = 4294967296 := by decide
    have hkl := hk.2
    have hcas : e.cas < 2 ^ 64 := by have := hs.cas; omega
    have hr := rawRes_ofBytes 13 4 0 (key16 hk) (show (0 : Nat) < 2 ^ 16 by decide)
      (show 4 + k.length + e.value.length < 2 ^ 32 by omega) (show (0 : Nat) < 2 ^ 32 by decide) hcas
    refine ⟨⟨rawRes_length .., rfl⟩, ?_, ?_, ?_, ?_, ?_, ?_⟩
    · exact (by decide : (13 : UInt8) ≠ 10)
    · have hx := congrArg ResHdr.status hr
      exact hx
    · exact Eq.trans (b := 4) (putBE_length 4 _) (congrArg ResHdr.extraLength hr).symm
    · exact (congrArg ResHdr.keyLength hr).symm
    · refine Eq.trans ?_ (congrArg ResHdr.totalBodyLength hr).symm
      simp [putBE_length]
      omega
    · have a : extraLenOf (rawRes 13 k.length 4 0 0 (4 + k.length + e.value.length) 0 e.cas) = 4 :=
        congrArg ResHdr.extraLength hr
      have b : keyLenOf (rawRes 13 k.length 4 0 0 (4 + k.length + e.value.length) 0 e.cas) = k.length :=
        congrArg ResHdr.keyLength hr
      simp only [a, b]
      omega

theorem getKQs_cons (h : ReqHdr) {k : Bytes} (hk : Key k) (ks : List Bytes) :
    ∃ h', (getKQs h (k :: ks)).1 = reqBytes 13 0 [] k [] 0 ++ (getKQs h' ks).1 := by
  refine ⟨getKQHdr h k, ?_⟩
  simp [getKQs, getKQHdr, ReqHdr.reset, encode_raw, reqBytes, key16' hk, key32' hk, opGetKQ]

theorem exec_getKQ (te : Entry → Bytes) (s : Store) (k : Bytes) :
    exec te s (mk 13 [] k [] 0) = ((hitOf s k).toList.flatMap BinHit.bytes, s) := by
  unfold exec
  rw [if_pos (show (mk 13 [] k [] 0).opcode = 0 ∨ (mk 13 [] k [] 0).opcode = 13 from Or.inr rfl)]
  cases hf : s.find k with
  | none => simp [mk, hf, hitOf]
  | some e =>
    have hr := reply_raw 13 [] k [] 0 0 (putBE 4 e.flags) k e.value e.cas
    have h1 : s.find (mk 13 [] k [] 0).key = some e := hf
    have h2 : (if (mk 13 [] k [] 0).opcode = 0x0d then (mk 13 [] k [] 0).key else []) = k := rfl
    simp only [h1, h2, hr, hitOf, hf]
    simp [putBE_length, BinHit.bytes]

theorem bin_answer_multi (te : Entry → Bytes) (s : Store) (h2 : ReqHdr) (ks : List Bytes) (hk : ∀ k ∈ ks, Key k) (h1 : ReqHdr)
    (n : Nat) (hn : ks.length < n) :
    answerLoop te n s ((getKQs h1 ks).1 ++ (noopHdr h2).encode)
      = some ((ks.filterMap (hitOf s)).flatMap BinHit.bytes ++ rawRes 10 0 0 0 0 0 0 0, s) := by
  induction ks generalizing h1 n with
  | nil =>
    obtain ⟨n, rfl⟩ : ∃ m, n = m + 1 := ⟨n - 1, by omega⟩
    have e : (getKQs h1 []).1 ++ (noopHdr h2).encode = reqBytes 10 0 [] [] [] 0 ++ [] := by
      simp [getKQs, noopHdr, ReqHdr.reset, encode_raw, reqBytes, opNoop]
    rw [e, answerLoop_cons _ _ _ _ _ _ _ _ _ _ (by simp) (by simp) (by simp) (by decide), answerLoop_nil]
    have hx : exec te s (mk 10 [] [] [] 0) = (rawRes 10 0 0 0 0 0 0 0, s) := by
      simp [exec, mk, reply, rawRes]
    simp [hx]
  | cons k ks ih =>
    obtain ⟨n, rfl⟩ : ∃ m, n = m + 1 := ⟨n - 1, by omega⟩
    obtain ⟨h', he⟩ := getKQs_cons h1 (hk k (by simp)) ks
    have hkl := (hk k (by simp)).2
    rw [he, List.append_assoc, answerLoop_cons _ _ _ _ _ _ _ _ _ _ (by simp) (key16 (hk k (by simp)))
      (by simp only [List.length_nil]; have : (2 : Nat) ^ 32 = 4294967296 := by decide
          omega) (by decide), exec_getKQ, ih (fun x hx => hk x (by simp [hx])) h' n (by simp at hn; omega)]
    cases hh : hitOf s k with
    | none => simp [List.filterMap_cons, hh]
    | some b => simp [List.filterMap_cons, hh]

theorem multi_wire_length (h1 : ReqHdr) (ks : List Bytes) (hk : ∀ k ∈ ks, Key k) : ks.length ≤ (getKQs h1 ks).1.length := by
  induction ks generalizing h1 with
  | nil => simp
  | cons k ks ih =>
    obtain ⟨h', he⟩ := getKQs_cons h1 (hk k (by simp)) ks
    rw [he]
    have := ih h' fun x hx => hk x (by simp [hx])
    have := reqBytes_length 13 0 [] k [] 0
    simp only [List.length_append, List.length_cons]
    omega

/-! ### one call -/

theorem statusErr1 : statusErr 1 = .msg b!"memcached: error key not found" := rfl
theorem statusErr2 : statusErr 2 = .msg b!"memcached: error key exists" := rfl

theorem incrExtra_parts (d e : Int) (h : -1 ≤ e ∧ e < 2 ^ 31) :
    getBE ((incrExtra d e).take 8) = toUnsigned 64 d ∧ getBE (((incrExtra d e).take 16).drop 8) = 1
      ∧ (incrExtra d e).drop 16 = putBE 4 (toUnsigned 32 e) := by
  refine ⟨?_, ?_, ?_⟩
  · have : (incrExtra d e).take 8 = putBE 8 (toUnsigned 64 d) := by
      unfold incrExtra
      rw [List.append_assoc]; exact List.take_left' (putBE_length 8 _)
    rw [this, getBE_putBE_lt 8 _ (by simpa using toUnsigned_lt 64 d)]
  · have : ((incrExtra d e).take 16).drop 8 = putBE 8 1 := by
      unfold incrExtra
      have : (putBE 8 (toUnsigned 64 d) ++ putBE 8 1 ++ putBE 4 (toUnsigned 32 e)).take 16
          = putBE 8 (toUnsigned 64 d) ++ putBE 8 1 := List.take_left' (by simp [putBE_length])
      rw [this]; exact List.drop_left' (putBE_length 8 _)
    rw [this]; rfl
  · exact List.drop_left' (by simp [putBE_length])

theorem nextCas64 {s : Store} (hs : GoodStore s) : s.nextCas < 2 ^ 64 := by have := hs.cas; omega

/-- Increment and Decrement when the recycled header carries no token. -/
theorem count_exchange (te : Entry → Bytes) (h : ReqHdr) (up : Bool) (hh : h.cas = 0) {k : Bytes} (hk : Key k)
    (d e : Int) (he : -1 ≤ e ∧ e < 2 ^ 31) (s : Store) (hs : GoodStore s) :
    exchange te ((Bin.incrOrDecr h (if up then 5 else 6) k d e).map Out.num) s []
      = some ((binCount s up k d e).1, (binCount s up k d e).2, []) := by
  obtain ⟨p1, p2, p3⟩ := incrExtra_parts d e he
  have hl : (incrExtra d e).length = 20 := by simp [incrExtra, putBE_length]
  have hkl := hk.2
  have h32 : (2 : Nat) ^ 32 = 4294967296 := by decide
  generalize hop : (if up then (5 : UInt8) else 6) = op
  have ho : op = 5 ∨ op = 6 := by cases up <;> simp at hop <;> simp [← hop]
  have hup : decide (op = 5) = up := by cases up <;> simp at hop <;> subst hop <;> decide
  have hw := wire_count h op hk d e
  have ha := answer_one te s op h.dataType (incrExtra d e) k [] h.cas (by omega) (key16 hk)
    (by rw [hl]; simp only [List.length_nil]; omega) (by rw [hh]; decide)
  rw [hh] at ha hw
  have hx : exec te s (mk op (incrExtra d e) k [] 0)
      = (match s.find k with
        | none =>
          if getBE (putBE 4 (toUnsigned 32 e)) = 0xffffffff then (notFound (mk op (incrExtra d e) k [] 0), s)
          else (reply (mk op (incrExtra d e) k [] 0) 0 [] [] (putBE 8 1) s.nextCas,
            s.put k (natDec 1) 0 (expiryOf s.now (getBE (putBE 4 (toUnsigned 32 e)))))
        | some _ =>
          match (s.arith up k (toUnsigned 64 d)).1 with
          | .value n => (reply (mk op (incrExtra d e) k [] 0) 0 [] [] (putBE 8 n) s.nextCas, (s.arith up k (toUnsigned 64 d)).2)
          | .notFound => (notFound (mk op (incrExtra d e) k [] 0), (s.arith up k (toUnsigned 64 d)).2)
          | .notNumber => (notNumeric (mk op (incrExtra d e) k [] 0), (s.arith up k (toUnsigned 64 d)).2)) := by
    have o1 : (mk op (incrExtra d e) k [] 0).opcode = op := rfl
    have o2 : (mk op (incrExtra d e) k [] 0).extras = incrExtra d e := rfl
    have o3 : (mk op (incrExtra d e) k [] 0).key = k := rfl
    have o4 : (mk op (incrExtra d e) k [] 0).cas = 0 := rfl
    unfold exec
    rw [o1, if_neg (by rcases ho with rfl | rfl <;> decide), if_neg (by rcases ho with rfl | rfl <;> decide),
      if_neg (by rcases ho with rfl | rfl <;> decide), if_pos ho, o2, if_neg (by simp [hl])]
    simp only [o3, o4, p1, p2, p3, hup]
    cases s.find k with
    | none => rfl
    | some en =>
      dsimp only
      rw [if_neg (by simp)]
      cases (s.arith up k (toUnsigned 64 d)).1 <;> rfl
  unfold binCount
  cases hf : s.find k with
  | none =>
    simp only [hf] at hx ⊢
    by_cases hm : e = -1
    · subst hm
      rw [if_pos rfl]
      rw [if_pos (by decide)] at hx
      rw [hx] at ha
      have hr := count_refused h op k d (-1) (incrExtra d (-1)) k [] 0 1 b!"Not found" b!"key not found" 0 rfl
        (by decide) (by decide) (by decide) (by decide) (by decide)
      exact exchange_bin hw ha (Mc.map_rd Out.num _ _ _ _ hr) (by simp [Res.map])
    · rw [if_neg hm]
      have hexp := exp_back (e := e) (by omega) he.2
      have hne : getBE (putBE 4 (toUnsigned 32 e)) ≠ 0xffffffff := by
        intro h0
        rw [h0] at hexp
        have := he.2
        have h31 : (2 : Int) ^ 31 = 2147483648 := by decide
        omega
      have hone : natDec 1 = b!"1" := by decide +kernel
      rw [if_neg hne, hexp, hone] at hx
      rw [hx] at ha
      have hr := count_value h op k d e (incrExtra d e) k [] 0 1 s.nextCas (by decide) (nextCas64 hs)
      exact exchange_bin hw ha (Mc.map_rd Out.num _ _ _ _ hr) (by simp [Res.map])
  | some en =>
    simp only [hf] at hx ⊢
    cases har : (s.arith up k (toUnsigned 64 d)).1 with
    | value n =>
      have hn : n < 2 ^ 64 := by
        unfold Store.arith at har
        simp only [hf] at har
        cases hc : counterOf en.value with
        | none => simp [hc] at har
        | some m =>
          simp only [hc, Counted.value.injEq] at har
          rw [← har]; exact Mc.count_lt up m _ (Mc.counterOf_lt hc)
      simp only [har] at hx ⊢
      rw [hx] at ha
      have hr := count_value h op k d e (incrExtra d e) k [] 0 n s.nextCas hn (nextCas64 hs)
      exact exchange_bin hw ha (Mc.map_rd Out.num _ _ _ _ hr) (by simp [Res.map])
    | notFound =>
      unfold Store.arith at har
      simp only [hf] at har
      cases hc : counterOf en.value <;> simp [hc] at har
    | notNumber =>
      simp only [har] at hx ⊢
      rw [hx] at ha
      have hr := count_refused h op k d e (incrExtra d e) k [] 0 6 b!"Non-numeric server-side value for incr or decr"
        b!"non-numeric value" 0 rfl
        (by decide) (by decide) (by decide) (by decide) (by decide)
      exact exchange_bin hw ha (Mc.map_rd Out.num _ _ _ _ hr) (by simp [Res.map])

/-- C52: each binary call on a connection without unread bytes returns what the abstract store says and changes
the server accordingly; what it leaves unread of the reply is `leftOver`.  `te` are the extras the server sends
after a successful Touch.  Increment and Decrement may have been given any recycled header without a token,
the other calls any header. -/
theorem C52_binary_call (te : Entry → Bytes) (hte : ∀ e, (te e).length < 256) (h1 h2 : ReqHdr) (op : Op)
    (ho : BinArgs op) (s : Store) (hs : GoodStore s) (hh : IsCount op → h1.cas = 0) :
    exchange te (binCall h1 h2 op) s [] = some ((binApi s op).1, (binApi s op).2, leftOver te s op) := by
  cases op with
  | get k =>
    have hk : Key k := ho
    have ha := answer_one te s 0 0 [] k [] 0 (by simp) (key16 hk)
      (by have := hk.2; simp only [List.length_nil]; omega) (by decide)
    have hx : exec te s (mk 0 [] k [] 0) = (match s.find k with
        | some e => (reply (mk 0 [] k [] 0) 0 (putBE 4 e.flags) [] e.value e.cas, s)
        | none => (notFound (mk 0 [] k [] 0), s)) := by
      unfold exec
      rw [if_pos (show (mk 0 [] k [] 0).opcode = 0 ∨ (mk 0 [] k [] 0).opcode = 13 from Or.inl rfl)]
      have : (mk 0 [] k [] 0).key = k := rfl
      rw [this]
      cases s.find k <;> rfl
    simp only [binApi, leftOver]
    cases hf : s.find k with
    | none =>
      simp only [hf] at hx
      rw [hx] at ha
      exact exchange_bin (wire_get h1 hk) ha (Mc.map_rd Out.item (Bin.get h1 k) _ _ _ (get_miss h1 k [] k [] 0)) (by simp [Res.map])
    | some e =>
      simp only [hf] at hx
      rw [hx] at ha
      obtain ⟨g1, g2, g3, g4⟩ := hs.entry k e (find_data hf)
      exact exchange_bin (wire_get h1 hk) ha (Mc.map_rd Out.item (Bin.get h1 k) _ _ _
        (get_hit h1 k [] k [] 0 (putBE 4 e.flags) e.value e.cas (putBE_length 4 _) (Mc.maxValue31 g3)
          (by have := hs.cas; omega))) (by simp [Res.map])
  | getMulti ks =>
    have hks : ∀ k ∈ ks, Key k := ho
    have hlen := multi_wire_length h1 ks hks
    have ha := bin_answer_multi te s h2 ks hks h1 ((getKQs h1 ks).1 ++ (noopHdr h2).encode).length
      (by rw [List.length_append, encode_raw, rawHdr_length]; omega)
    have hr := C26_binary_getMulti h1 h2 ks (ks.filterMap (hitOf s))
      (by
        intro b hb
        obtain ⟨k, hk, hb⟩ := List.mem_filterMap.1 hb
        exact hitOf_ok hs (hks k hk) hb)
      (rawRes 10 0 0 0 0 0 0 0) [] ⟨rfl, rfl⟩ rfl
    rw [List.append_nil] at hr
    have := exchange_bin (c := (Bin.getMulti h1 h2 ks).map Out.items) rfl ha (Mc.map_rd Out.items (Bin.getMulti h1 h2 ks) _ _ _ hr)
      (by simp [Res.map])
    refine this.trans ?_
    simp only [binApi, leftOver, Res.map, List.map_filterMap]
    congr 5
    funext k
    cases hf : s.find k <;> simp [hitOf, hf, binItem]
  | set i =>
    have hi : GoodBinItem i := ho
    have ha := answer_one te s 1 0 (storeExtras i) i.key i.value i.cas (by rw [storeExtras_len hi]; decide)
      (key16 hi.good.key) (total_small hi) hi.good.cas
    rw [exec_store te s 1 (Or.inl rfl) hi] at ha
    have hm : modeFor 1 = .set := rfl
    rw [hm] at ha
    have hw : (Bin.set h1 i).wire = _ := wire_store h1 1 hi
    simp only [binApi, leftOver]
    show exchange te ((Bin.set h1 i).map fun _ => Out.done) s [] = _
    cases hst : (s.store (binMode .set i) i.key i.value (metaFlagsOf i) i.expiration).1 with
    | stored =>
      rw [hst] at ha
      exact exchange_unit hw ha (set_reply h1 i _ _ _ _ 0 [] _ (by decide) (by decide) (nextCas64 hs)) (by simp)
    | exists_ =>
      rw [hst] at ha
      exact exchange_unit hw ha (set_reply h1 i _ _ _ _ 2 _ 0 (by decide) (by decide) (by decide)) (by simp)
    | notFound =>
      rw [hst] at ha
      exact exchange_unit hw ha (set_reply h1 i _ _ _ _ 1 _ 0 (by decide) (by decide) (by decide)) (by simp [statusErr1])
    | notStored =>
      rw [hst] at ha
      exact exchange_unit hw ha (set_reply h1 i _ _ _ _ 1 _ 0 (by decide) (by decide) (by decide)) (by simp [statusErr1])
  | add i =>
    have hi : GoodBinItem i := ho
    have ha := answer_one te s 2 0 (storeExtras i) i.key i.value i.cas (by rw [storeExtras_len hi]; decide)
      (key16 hi.good.key) (total_small hi) hi.good.cas
    rw [exec_store te s 2 (Or.inr (Or.inl rfl)) hi] at ha
    have hm : modeFor 2 = .add := rfl
    rw [hm] at ha
    have hw : (Bin.add h1 i).wire = _ := wire_store h1 2 hi
    simp only [binApi, leftOver]
    show exchange te ((Bin.add h1 i).map fun _ => Out.done) s [] = _
    cases hst : (s.store (binMode .add i) i.key i.value (metaFlagsOf i) i.expiration).1 with
    | stored =>
      rw [hst] at ha
      exact exchange_unit hw ha (add_reply h1 i _ _ _ _ 0 [] _ (by decide) (by decide) (nextCas64 hs)) (by simp)
    | exists_ =>
      rw [hst] at ha
      exact exchange_unit hw ha (add_reply h1 i _ _ _ _ 2 _ 0 (by decide) (by decide) (by decide)) (by simp)
    | notFound =>
      rw [hst] at ha
      exact exchange_unit hw ha (add_reply h1 i _ _ _ _ 1 _ 0 (by decide) (by decide) (by decide)) (by simp [statusErr1])
    | notStored =>
      rw [hst] at ha
      exact exchange_unit hw ha (add_reply h1 i _ _ _ _ 2 _ 0 (by decide) (by decide) (by decide)) (by simp)
  | replace i =>
    have hi : GoodBinItem i := ho
    have ha := answer_one te s 3 0 (storeExtras i) i.key i.value i.cas (by rw [storeExtras_len hi]; decide)
      (key16 hi.good.key) (total_small hi) hi.good.cas
    rw [exec_store te s 3 (Or.inr (Or.inr rfl)) hi] at ha
    have hm : modeFor 3 = .replace := rfl
    rw [hm] at ha
    have hw : (Bin.replace h1 i).wire = _ := wire_store h1 3 hi
    simp only [binApi, leftOver]
    show exchange te ((Bin.replace h1 i).map fun _ => Out.done) s [] = _
    cases hst : (s.store (binMode .replace i) i.key i.value (metaFlagsOf i) i.expiration).1 with
    | stored =>
      rw [hst] at ha
      exact exchange_unit hw ha (replace_reply h1 i _ _ _ _ 0 [] _ (by decide) (by decide) (nextCas64 hs)) (by simp)
    | exists_ =>
      rw [hst] at ha
      exact exchange_unit hw ha (replace_reply h1 i _ _ _ _ 2 _ 0 (by decide) (by decide) (by decide)) (by simp [statusErr2])
    | notFound =>
      rw [hst] at ha
      exact exchange_unit hw ha (replace_reply h1 i _ _ _ _ 1 _ 0 (by decide) (by decide) (by decide)) (by simp)
    | notStored =>
      rw [hst] at ha
      exact exchange_unit hw ha (replace_reply h1 i _ _ _ _ 1 _ 0 (by decide) (by decide) (by decide)) (by simp)
  | delete k =>
    have hk : Key k := ho
    have ha := answer_one te s 4 0 [] k [] 0 (by simp) (key16 hk)
      (by have := hk.2; simp only [List.length_nil]; omega) (by decide)
    have hx : exec te s (mk 4 [] k [] 0) = (match s.find k with
        | some _ => (reply (mk 4 [] k [] 0) 0 [] [] [] 0, (s.delete k).2)
        | none => (notFound (mk 4 [] k [] 0), s)) := by
      have o1 : (mk 4 [] k [] 0).opcode = 4 := rfl
      have o3 : (mk 4 [] k [] 0).key = k := rfl
      have o4 : (mk 4 [] k [] 0).cas = 0 := rfl
      unfold exec
      rw [o1, if_neg (by decide), if_neg (by decide), if_pos rfl, o3, o4]
      cases s.find k <;> simp
    simp only [binApi, leftOver]
    show exchange te ((Bin.delete h1 k).map fun _ => Out.done) s [] = _
    cases hf : s.find k with
    | none =>
      simp only [hf] at hx
      rw [hx] at ha
      have hd : s.delete k = (false, s) := by simp [Store.delete, hf]
      rw [hd]
      exact exchange_unit (wire_delete h1 hk) ha (delete_reply h1 k _ _ _ _ 1 _ 0 (by decide) (by decide) (by decide)) (by simp)
    | some e =>
      simp only [hf] at hx
      rw [hx] at ha
      have hd : (s.delete k).1 = true := by simp [Store.delete, hf]
      rw [hd]
      exact exchange_unit (wire_delete h1 hk) ha (delete_reply h1 k _ _ _ _ 0 [] 0 (by decide) (by decide) (by decide)) (by simp)
  | increment k d e =>
    obtain ⟨hk, _, he⟩ : Key k ∧ InRange 64 d ∧ -1 ≤ e ∧ e < 2 ^ 31 := ho
    exact count_exchange te h1 true (hh trivial) hk d e he s hs
  | decrement k d e =>
    obtain ⟨hk, _, he⟩ : Key k ∧ InRange 64 d ∧ -1 ≤ e ∧ e < 2 ^ 31 := ho
    exact count_exchange te h1 false (hh trivial) hk d e he s hs
  | touch k e =>
    obtain ⟨hk, he0, he1⟩ : Key k ∧ 0 ≤ e ∧ e < 2 ^ 31 := ho
    have h4 : (putBE 4 (toUnsigned 32 e)).length = 4 := putBE_length 4 _
    have ha := answer_one te s 0x1c 0 (putBE 4 (toUnsigned 32 e)) k [] 0 (by rw [h4]; decide) (key16 hk)
      (by have := hk.2; rw [h4]; simp only [List.length_nil]; omega) (by decide)
    have hx : exec te s (mk 0x1c (putBE 4 (toUnsigned 32 e)) k [] 0) = (match s.find k with
        | some en => (reply (mk 0x1c (putBE 4 (toUnsigned 32 e)) k [] 0) 0 (te en) [] [] en.cas, (s.touch k e).2)
        | none => (notFound (mk 0x1c (putBE 4 (toUnsigned 32 e)) k [] 0), s)) := by
      have o1 : (mk 0x1c (putBE 4 (toUnsigned 32 e)) k [] 0).opcode = 0x1c := rfl
      have o2 : (mk 0x1c (putBE 4 (toUnsigned 32 e)) k [] 0).extras = putBE 4 (toUnsigned 32 e) := rfl
      have o3 : (mk 0x1c (putBE 4 (toUnsigned 32 e)) k [] 0).key = k := rfl
      unfold exec
      rw [o1, if_neg (by decide), if_neg (by decide), if_neg (by decide), if_neg (by decide), if_pos rfl, o2,
        if_neg (by rw [h4]; simp), o3, exp_back he0 he1]
      cases s.find k <;> rfl
    simp only [binApi, leftOver]
    show exchange te ((Bin.touch h1 k e).map fun _ => Out.done) s [] = _
    cases hf : s.find k with
    | none =>
      simp only [hf] at hx
      rw [hx] at ha
      have hd : s.touch k e = (false, s) := by simp [Store.touch, hf]
      rw [hd]
      exact exchange_unit (wire_touch h1 hk e) ha
        (touch_reply h1 k e _ _ _ _ 1 [] _ 0 (by decide) (by decide) (by decide) (by decide)) (by simp [statusErr1])
    | some en =>
      simp only [hf] at hx
      rw [hx] at ha
      have hd : (s.touch k e).1 = true := by simp [Store.touch, hf]
      rw [hd]
      obtain ⟨g1, g2, g3, g4⟩ := hs.entry k en (find_data hf)
      have hr := touch_reply h1 k e (putBE 4 (toUnsigned 32 e)) k [] 0 0 (te en) [] en.cas (hte en) (by decide) (by decide)
        (by have := hs.cas; omega)
      rw [List.append_nil] at hr
      exact exchange_unit (wire_touch h1 hk e) ha hr (by simp)
  | flush =>
    have ha := answer_one te s 8 0 [] [] [] 0 (by simp) (by simp) (by simp) (by decide)
    have hx : exec te s (mk 8 [] [] [] 0) = (reply (mk 8 [] [] [] 0) 0 [] [] [] 0, s.flush) := rfl
    rw [hx] at ha
    exact exchange_unit (wire_flush h1) ha (flush_reply h1 _ _ _ _) (by simp)

/-! ### whole histories -/

theorem metaFlagsOf_lt (i : Item) : metaFlagsOf i < 2 ^ 32 := by
  unfold metaFlagsOf
  cases i.flags with
  | none => decide
  | some f =>
    have h1 := getBE_lt (f.take 4)
    have h2 : (256 : Nat) ^ (f.take 4).length ≤ 256 ^ 4 := Nat.pow_le_pow_right (by decide) (by simp; omega)
    have h3 : (256 : Nat) ^ 4 = 2 ^ 32 := by decide
    dsimp only
    omega

theorem binCount_next (s : Store) (up : Bool) (k : Bytes) (d e : Int) (he : -1 ≤ e ∧ e < 2 ^ 31) (h : GoodStore s)
    (hc : s.nextCas + 1 < 2 ^ 63) : Next s (binCount s up k d e).2 := by
  unfold binCount
  cases hf : s.find k with
  | none =>
    dsimp only
    split
    · exact .refl h
    · refine ⟨h.put k _ 0 _ hc (by decide) (by decide) (fun x hx => expiryOf_lt ⟨?_, he.2⟩ x hx), by simp [Store.put]⟩
      have : (2 : Int) ^ 31 = 2147483648 := by decide
      have := he.1
      show -(2 : Int) ^ 31 ≤ e
      omega
  | some en =>
    have := Next.arith h hc up k (toUnsigned 64 d)
    dsimp only
    split <;> exact this

theorem binApi_next (op : Op) (s : Store) (ho : BinArgs op) (h : GoodStore s) (hc : s.nextCas + 1 < 2 ^ 63) :
    Next s (binApi s op).2 := by
  cases op with
  | get k => simp only [binApi]; split <;> exact .refl h
  | getMulti ks => exact .refl h
  | set i =>
    have hi : GoodBinItem i := ho
    have := Next.store h hc (binMode .set i) i.key i.value (metaFlagsOf i) i.expiration (metaFlagsOf_lt i) hi.good.value hi.good.exp
    simp only [binApi]
    split <;> exact this
  | add i =>
    have hi : GoodBinItem i := ho
    have := Next.store h hc (binMode .add i) i.key i.value (metaFlagsOf i) i.expiration (metaFlagsOf_lt i) hi.good.value hi.good.exp
    simp only [binApi]
    split <;> exact this
  | replace i =>
    have hi : GoodBinItem i := ho
    have := Next.store h hc (binMode .replace i) i.key i.value (metaFlagsOf i) i.expiration (metaFlagsOf_lt i) hi.good.value hi.good.exp
    simp only [binApi]
    split <;> exact this
  | delete k => exact Next.delete h k
  | increment k d e => exact binCount_next s true k d e ho.2.2 h hc
  | decrement k d e => exact binCount_next s false k d e ho.2.2 h hc
  | touch k e =>
    refine Next.touch h k e ⟨?_, ho.2.2⟩
    have : (2 : Int) ^ 31 = 2147483648 := by decide
    have := ho.2.1
    show -(2 : Int) ^ 31 ≤ e
    omega
  | flush => exact ⟨h.flush, by simp [binApi, Store.flush]⟩

/-- A header is put back with a token only when the call stored an item with a token, or when it was taken
with one. -/
theorem put1_cas (op : Op) (h : ReqHdr) (hc : ((opOf op).put1 h).cas ≠ 0) : UsesToken op ∨ h.cas ≠ 0 := by
  cases op with
  | set i => exact Or.inl (Nat.pos_of_ne_zero hc)
  | add i => exact Or.inl (Nat.pos_of_ne_zero hc)
  | replace i => exact Or.inl (Nat.pos_of_ne_zero hc)
  | increment k d e => exact Or.inr hc
  | decrement k d e => exact Or.inr hc
  | getMulti ks =>
    cases ks with
    | nil => exact Or.inr hc
    | cons k ks =>
      exfalso
      have key : ∀ (ks : List Bytes) (h : ReqHdr), h.cas = 0 → (getKQs h ks).2.cas = 0 := by
        intro ks
        induction ks with
        | nil => intro h hh; exact hh
        | cons k ks ih => intro h _; exact ih _ rfl
      exact hc (key ks (getKQHdr h k) rfl)
  | get k => exact absurd rfl hc
  | delete k => exact absurd rfl hc
  | touch k e => exact absurd rfl hc
  | flush => exact absurd rfl hc

theorem put2_cas (op : Op) (h h' : ReqHdr) (hm : h' ∈ (opOf op).put2 h) : h'.cas = 0 := by
  cases op <;> simp [opOf, BOp.put2] at hm
  subst hm
  rfl

theorem session_binary (te : Entry → Bytes) (hte : ∀ e, (te e).length < 256) (ch : Chooser)
    (hch : ∀ n pool, Gettable pool (ch n pool)) (events : List Event) (n : Nat) (pool : List ReqHdr) (s : Store)
    (hs : GoodStore s) (ho : Along binApi (fun s op => BinArgs op ∧ leftOver te s op = []) s events)
    (htok : events.Pairwise fun a b => UsesToken a.2 → ¬ IsCount b.2)
    (hpool : ∀ h ∈ pool, h.cas ≠ 0 → ∀ ev ∈ events, ¬ IsCount ev.2) (hc : s.nextCas + events.length < 2 ^ 63) :
    session te ch n pool s [] events = some ((runApi binApi s events).1, (runApi binApi s events).2, []) := by
  induction events generalizing n pool s with
  | nil => rfl
  | cons ev rest ih =>
    obtain ⟨d, op⟩ := ev
    obtain ⟨⟨hop, hleft⟩, hrest⟩ := ho
    rw [List.pairwise_cons] at htok
    have ht := hs.tick d
    simp only [List.length_cons] at hc
    have hn := binApi_next op (s.tick d) hop ht (by simp only [Store.tick]; omega)
    have hg : ∀ h, Gettable pool h → h.cas ≠ 0 → ∀ e ∈ (d, op) :: rest, ¬ IsCount e.2 := by
      intro h hh hcas
      rcases hh with rfl | hh
      · exact absurd rfl hcas
      · exact hpool h hh hcas
    have hcall := C52_binary_call te hte (ch (2 * n) pool) (ch (2 * n + 1) (pool ++ [(opOf op).put1 (ch (2 * n) pool)]))
      op hop (s.tick d) ht (fun hcount => by
        by_cases h0 : (ch (2 * n) pool).cas = 0
        · exact h0
        · exact absurd hcount (hg _ (hch _ _) h0 (d, op) (by simp)))
    rw [hleft] at hcall
    have hih := ih (n + 1) (pool ++ [(opOf op).put1 (ch (2 * n) pool)]
        ++ (opOf op).put2 (ch (2 * n + 1) (pool ++ [(opOf op).put1 (ch (2 * n) pool)])))
      (binApi (s.tick d) op).2 hn.1 hrest htok.2
      (by
        intro h hm hcas ev hev
        rw [List.mem_append, List.mem_append, List.mem_singleton] at hm
        rcases hm with (hm | rfl) | hm
        · exact hpool h hm hcas ev (by simp [hev])
        · rcases put1_cas op _ hcas with hu | hu
          · exact htok.1 ev hev hu
          · exact hg _ (hch _ _) hu ev (by simp [hev])
        · exact absurd (put2_cas op _ h hm) hcas)
      (by have := hn.2; simp only [Store.tick] at this ⊢; omega)
    simp only [session, hcall, hih, runApi, Option.map_some]

/-- C52: every history of calls over one binary connection to a memcached server, with request headers recycled
in any way, in which no reply has a part the client leaves unread and no counting follows a store with a token
(C28): results and contents are those of the abstract store, and nothing is left unread. -/
theorem C52_binary_history (te : Entry → Bytes) (hte : ∀ e, (te e).length < 256) (ch : Chooser)
    (hch : ∀ n pool, Gettable pool (ch n pool)) (events : List Event) (s : Store) (hs : GoodStore s)
    (ho : Along binApi (fun s op => BinArgs op ∧ leftOver te s op = []) s events)
    (htok : events.Pairwise fun a b => UsesToken a.2 → ¬ IsCount b.2)
    (hc : s.nextCas + events.length < 2 ^ 63) :
    session te ch 0 [] s [] events = some ((runApi binApi s events).1, (runApi binApi s events).2, []) :=
  session_binary te hte ch hch events 0 [] s hs ho htok (by simp) hc

/-- Non-vacuity: a history with a counter created and counted up, a fetch, a compare-and-swap, a refused Replace
and a deletion; and its results. -/
def binHist : List Event :=
  [(0, .increment b!"n" 5 0), (1, .increment b!"n" 5 0), (0, .set { key := b!"k", value := b!"v", flags := some [0, 0, 0, 7] }),
   (0, .get b!"k"), (2, .set { key := b!"k", value := b!"w", cas := 3 }), (0, .getMulti [b!"k", b!"m", b!"n"]),
   (0, .replace { key := b!"m", value := b!"x" }), (0, .delete b!"n"), (0, .flush)]

example : Along binApi (fun s op => BinArgs op ∧ leftOver (fun e => putBE 4 e.flags) s op = []) (emptyStore 1000) binHist := by
  have item : ∀ i : Item, Key i.key → i.value.length ≤ maxValue → InRange 32 i.expiration → i.cas < 2 ^ 64 →
      (∀ f, i.flags = some f → 4 ≤ f.length) → 0 ≤ i.expiration → GoodBinItem i :=
    fun i a b c d e f => ⟨⟨a, b, c, d⟩, e, f⟩
  refine ⟨⟨by unfold BinArgs; decide, rfl⟩, ⟨by unfold BinArgs; decide, rfl⟩, ⟨item _ (by decide) (by decide) (by decide) (by decide) (by simp) (by decide), rfl⟩,
    ⟨by unfold BinArgs; decide, rfl⟩, ⟨item _ (by decide) (by decide) (by decide) (by decide) (by simp) (by decide), by decide +kernel⟩,
    ⟨by unfold BinArgs; decide, rfl⟩, ⟨item _ (by decide) (by decide) (by decide) (by decide) (by simp) (by decide), rfl⟩,
    ⟨by unfold BinArgs; decide, rfl⟩, ⟨trivial, rfl⟩, trivial⟩

example : (runApi binApi (emptyStore 1000) binHist).1
    = [.ok (.num 1), .ok (.num 6), .ok .done,
       .ok (.item { key := b!"k", value := b!"v", flags := some [0, 0, 0, 7], cas := 3 }), .ok .done,
       .ok (.items [{ key := b!"k", value := b!"w", flags := some [0, 0, 0, 0] },
         { key := b!"n", value := b!"6", flags := some [0, 0, 0, 0] }]),
       .err .itemNotFound, .ok .done, .ok .done] := by decide +kernel

example : binHist.Pairwise fun a b => UsesToken a.2 → ¬ IsCount b.2 := by
  simp [binHist, UsesToken, IsCount]

/-- A possible `sync.Pool`: the header put back last. -/
example : ∀ (n : Nat) (pool : List ReqHdr), Gettable pool ((fun _ p => p.getLast?.getD {}) n pool) := by
  intro n pool
  cases h : pool.getLast? with
  | none => exact Or.inl (by simp [h])
  | some x => exact Or.inr (by simpa [h] using List.mem_of_getLast? h)

/-! ### C28 against memcached -/

/-- C28: the consequence of a recycled header with a foreign token: `Increment` and `Decrement` of an existing
counter are refused by memcached although nobody touched the counter. -/
theorem C28_memcached (te : Entry → Bytes) (h1 h2 : ReqHdr) (up : Bool) (k : Bytes) (hk : Key k) (d e : Int) (s : Store)
    (en : Entry) (hf : s.find k = some en) (h64 : h1.cas < 2 ^ 64) (h0 : h1.cas ≠ 0)
    (hc : h1.cas ≠ en.cas) :
    exchange te (binCall h1 h2 (if up then .increment k d e else .decrement k d e)) s []
      = some (.err (.msg b!"memcached: error key exists (Data exists for key.)"), s, []) := by
  have hl : (incrExtra d e).length = 20 := by simp [incrExtra, putBE_length]
  have hkl := hk.2
  have h32 : (2 : Nat) ^ 32 = 4294967296 := by decide
  have main : ∀ op : UInt8, op = 5 ∨ op = 6 →
      exchange te ((Bin.incrOrDecr h1 op k d e).map Out.num) s []
        = some (.err (.msg b!"memcached: error key exists (Data exists for key.)"), s, []) := by
    intro op ho
    have ha := answer_one te s op h1.dataType (incrExtra d e) k [] h1.cas (by omega) (key16 hk)
      (by rw [hl]; simp only [List.length_nil]; omega) h64
    have hx : exec te s (mk op (incrExtra d e) k [] h1.cas) = (dataExists (mk op (incrExtra d e) k [] h1.cas), s) := by
      have o1 : (mk op (incrExtra d e) k [] h1.cas).opcode = op := rfl
      have o2 : (mk op (incrExtra d e) k [] h1.cas).extras = incrExtra d e := rfl
      have o3 : (mk op (incrExtra d e) k [] h1.cas).key = k := rfl
      have o4 : (mk op (incrExtra d e) k [] h1.cas).cas = h1.cas := rfl
      unfold exec
      rw [o1, if_neg (by rcases ho with rfl | rfl <;> decide), if_neg (by rcases ho with rfl | rfl <;> decide),
        if_neg (by rcases ho with rfl | rfl <;> decide), if_pos ho, o2, if_neg (by simp [hl]), o3, hf, o4]
      exact if_pos ⟨h0, hc⟩
    rw [hx] at ha
    have hr := count_refused h1 op k d e (incrExtra d e) k [] h1.cas 2 b!"Data exists for key." b!"key exists" 0 rfl
      (by decide) (by decide) (by decide) (by decide) (by decide)
    exact exchange_bin (wire_count h1 op hk d e) ha (Mc.map_rd Out.num _ _ _ _ hr) (by simp [Res.map])
  cases up
  · exact main 6 (Or.inr rfl)
  · exact main 5 (Or.inl rfl)

/-- Such a header is in the pool after any `Set` with a token. -/
example (i : Item) (h : ReqHdr) : ((opOf (.set i)).put1 h).cas = i.cas := rfl

/-! ### C55 -/

theorem readHdr_short (i : Bytes) (h : i.length < 24) : readHdr i = (.err .io, []) := by
  unfold readHdr
  have : readFull 24 i = (.err .io, []) := by simp only [readFull]; rw [if_neg (by omega)]
  rw [Rd.bind_of_err this]

theorem readHdr_bad (i : Bytes) (h : 24 ≤ i.length) (hm : i.head? ≠ some 0x81) :
    readHdr i = (.err errInvalidResponse, i.drop 24) := by
  unfold readHdr
  have : readFull 24 i = (.ok (i.take 24), i.drop 24) := by simp only [readFull]; rw [if_pos h]
  rw [Rd.bind_of_ok this, Rd.ite_apply', if_pos]
  · rfl
  · cases i with
    | nil => simp at h
    | cons a b => simpa using hm

/-- Every operation starts by reading a header. -/
theorem binCall_err (h1 h2 : ReqHdr) (op : Op) (i r : Bytes) (e : Err) (h : readHdr i = (.err e, r)) :
    (binCall h1 h2 op).rd i = (.err e, r) := by
  have hg : ∀ {α : Type} (f : ResHdr → Rd α), (readHdr >>= f) i = (.err e, r) := fun f => Rd.bind_of_err h
  have hmap : ∀ {α : Type} (f : α → Out) (c : Call α), c.rd i = (.err e, r) → (c.map f).rd i = (.err e, r) := by
    intro α f c h
    rw [Mc.map_rd f c _ _ _ h]; rfl
  cases op <;> refine hmap _ _ ?_
  case getMulti ks =>
    show multiLoop _ [] _ = _
    unfold multiLoop
    exact hg _
  all_goals exact hg _

/-- One call made while bytes of an earlier reply that do not look like a reply are unread. -/
theorem exchange_behind (te : Entry → Bytes) (hte : ∀ e, (te e).length < 256) (h1 h2 : ReqHdr) (op : Op)
    (ho : BinArgs op) (s : Store) (hs : GoodStore s) (hh : IsCount op → h1.cas = 0) (a : UInt8) (unread : Bytes)
    (hm : a ≠ 0x81) :
    ∃ w rep, (binCall h1 h2 op).wire = .ok w ∧ answer te s w = some (rep, (binApi s op).2) ∧ 24 ≤ rep.length ∧
      exchange te (binCall h1 h2 op) s (a :: unread)
        = some (.err errInvalidResponse, (binApi s op).2, (a :: unread ++ rep).drop 24) := by
  have hcall := C52_binary_call te hte h1 h2 op ho s hs hh
  unfold exchange at hcall
  split at hcall
  · rename_i w hw
    split at hcall
    · rename_i rep s' ha
      have h24 : 24 ≤ rep.length := by
        by_cases h : 24 ≤ rep.length
        · exact h
        · rw [List.nil_append, binCall_err h1 h2 op rep [] .io (readHdr_short rep (by omega))] at hcall
          simp at hcall
      have hs' : s' = (binApi s op).2 := by
        rw [List.nil_append] at hcall
        dsimp only at hcall
        split at hcall
        · simp at hcall
        · simp only [Option.some.injEq, Prod.mk.injEq] at hcall
          exact hcall.2.1
      subst hs'
      refine ⟨w, rep, hw, ha, h24, ?_⟩
      have hr := binCall_err h1 h2 op (a :: unread ++ rep) _ _
        (readHdr_bad (a :: unread ++ rep) (by simp; omega) (by simpa using hm))
      simp only [exchange, hw, ha, hr]
      rw [if_neg (by simp [errInvalidResponse])]
    · simp at hcall
  · simp at hcall

/-- C55: when memcached sends a body the call does not read (`leftOver`: the error text of a refused Set, Add or Touch,
the extras of a successful Touch), the call itself returns the right result, but the next call, whatever it
is, returns the invalid-response error although memcached has carried it out. -/
theorem C55_next_call (te : Entry → Bytes) (hte : ∀ e, (te e).length < 256) (ch : Chooser)
    (hch : ∀ n pool, Gettable pool (ch n pool)) (d1 d2 : Nat) (op1 op2 : Op) (ho1 : BinArgs op1) (ho2 : BinArgs op2)
    (s : Store) (hs : GoodStore s) (hc : s.nextCas + 2 < 2 ^ 63) (a : UInt8) (text : Bytes)
    (hleft : leftOver te (s.tick d1) op1 = a :: text) (ha : a ≠ 0x81) (htok : UsesToken op1 → ¬ IsCount op2) :
    ∃ unread, session te ch 0 [] s [] [(d1, op1), (d2, op2)]
      = some ([(binApi (s.tick d1) op1).1, .err (.msg b!"memcached: invalid response")],
          (runApi binApi s [(d1, op1), (d2, op2)]).2, unread) := by
  rw [show (.msg b!"memcached: invalid response" : Err) = errInvalidResponse from rfl]
  have ht := hs.tick d1
  have hn := binApi_next op1 (s.tick d1) ho1 ht (by simp only [Store.tick]; omega)
  have hfresh : ∀ h, Gettable [] h → h.cas = 0 := by
    intro h hh
    rcases hh with rfl | hh
    · rfl
    · simp at hh
  have h1 := C52_binary_call te hte (ch 0 []) (ch 1 ([] ++ [(opOf op1).put1 (ch 0 [])])) op1 ho1 (s.tick d1) ht
    (fun _ => hfresh _ (hch _ _))
  rw [hleft] at h1
  have hcount : IsCount op2 → (ch 2 ([] ++ [(opOf op1).put1 (ch 0 [])]
      ++ (opOf op1).put2 (ch 1 ([] ++ [(opOf op1).put1 (ch 0 [])])))).cas = 0 := by
    intro hi
    apply Classical.byContradiction
    intro hne
    rcases hch 2 ([] ++ [(opOf op1).put1 (ch 0 [])] ++ (opOf op1).put2 (ch 1 ([] ++ [(opOf op1).put1 (ch 0 [])]))) with h | h
    · rw [h] at hne; exact hne rfl
    · rw [List.mem_append, List.nil_append, List.mem_singleton] at h
      rcases h with h | h
      · rw [List.nil_append, h] at hne
        rcases put1_cas op1 _ hne with hu | hu
        · exact htok hu hi
        · exact hu (hfresh _ (hch _ _))
      · exact hne (put2_cas op1 _ _ h)
  obtain ⟨p2, hp2⟩ : ∃ p, p = [] ++ [(opOf op1).put1 (ch 0 [])] ++ (opOf op1).put2 (ch 1 ([] ++ [(opOf op1).put1 (ch 0 [])])) :=
    ⟨_, rfl⟩
  rw [← hp2] at hcount
  obtain ⟨w, rep, _, _, _, h2⟩ := exchange_behind te hte (ch 2 p2) (ch 3 (p2 ++ [(opOf op2).put1 (ch 2 p2)]))
    op2 ho2 (((binApi (s.tick d1) op1).2).tick d2) (hn.1.tick d2) hcount a text ha
  refine ⟨(a :: text ++ rep).drop 24, ?_⟩
  simp only [session, Nat.mul_zero, Nat.zero_add, Nat.mul_one, Nat.reduceAdd, h1, ← hp2, h2, runApi, Option.map_some]

theorem reply_bytes (op : UInt8) (ex k v : Bytes) (cas c : Nat) :
    (reply (mk op ex k v cas) 0 [] [] [] c).length = 24 ∧ (reply (mk op ex k v cas) 0 [] [] [] c)[4]? = some 0
      ∧ (reply (mk op ex k v cas) 0 [] [] [] c)[15]? = some 0 := by
  rw [reply_raw]
  refine ⟨by simp [rawRes_length], ?_, ?_⟩ <;> simp [rawRes, putBE]

/-- memcached answers a successful change by a header alone. -/
theorem change_reply (te : Entry → Bytes) (h1 h2 : ReqHdr) (op : Op) (ho : BinArgs op) (s : Store) (hb : Changes s op) :
    ∃ w rep s', (binCall h1 h2 op).wire = .ok w ∧ answer te s w = some (rep, s') ∧ rep.length = 24 ∧ rep[4]? = some 0
      ∧ rep[15]? = some 0 := by
  have store : ∀ (op : UInt8), op = 1 ∨ op = 2 ∨ op = 3 → ∀ i : Item, GoodBinItem i →
      (s.store (binMode (modeFor op) i) i.key i.value (metaFlagsOf i) i.expiration).1 = .stored →
      ∃ w rep s', storeWire h1 op i = .ok w ∧ answer te s w = some (rep, s') ∧ rep.length = 24 ∧ rep[4]? = some 0
        ∧ rep[15]? = some 0 := by
    intro op hop i hi hst
    have ha := answer_one te s op 0 (storeExtras i) i.key i.value i.cas (by rw [storeExtras_len hi]; decide)
      (key16 hi.good.key) (total_small hi) hi.good.cas
    rw [exec_store te s op hop hi, hst] at ha
    exact ⟨_, _, _, wire_store h1 op hi, ha, reply_bytes ..⟩
  cases op with
  | set i =>
    refine store 1 (Or.inl rfl) i ho ?_
    have hb' : (binApi s (.set i)).1 = .ok .done := hb
    simp only [binApi] at hb'
    show (s.store (binMode .set i) i.key i.value (metaFlagsOf i) i.expiration).1 = _
    cases h : (s.store (binMode .set i) i.key i.value (metaFlagsOf i) i.expiration).1 <;> simp [h] at hb' ⊢
  | add i =>
    refine store 2 (Or.inr (Or.inl rfl)) i ho ?_
    have hb' : (binApi s (.add i)).1 = .ok .done := hb
    simp only [binApi] at hb'
    show (s.store (binMode .add i) i.key i.value (metaFlagsOf i) i.expiration).1 = _
    cases h : (s.store (binMode .add i) i.key i.value (metaFlagsOf i) i.expiration).1 <;> simp [h] at hb' ⊢
  | replace i =>
    refine store 3 (Or.inr (Or.inr rfl)) i ho ?_
    have hb' : (binApi s (.replace i)).1 = .ok .done := hb
    simp only [binApi] at hb'
    show (s.store (binMode .replace i) i.key i.value (metaFlagsOf i) i.expiration).1 = _
    cases h : (s.store (binMode .replace i) i.key i.value (metaFlagsOf i) i.expiration).1 <;> simp [h] at hb' ⊢
  | delete k =>
    have hk : Key k := ho
    have ha := answer_one te s 4 0 [] k [] 0 (by simp) (key16 hk)
      (by have := hk.2; simp only [List.length_nil]; omega) (by decide)
    have hb' : (binApi s (.delete k)).1 = .ok .done := hb
    cases hf : s.find k with
    | none => simp [binApi, Store.delete, hf] at hb'
    | some e =>
      have hx : exec te s (mk 4 [] k [] 0) = (reply (mk 4 [] k [] 0) 0 [] [] [] 0, (s.delete k).2) := by
        have o1 : (mk 4 [] k [] 0).opcode = 4 := rfl
        have o3 : (mk 4 [] k [] 0).key = k := rfl
        have o4 : (mk 4 [] k [] 0).cas = 0 := rfl
        unfold exec
        rw [o1, if_neg (by decide), if_neg (by decide), if_pos rfl, o3, o4, hf]
        simp
      rw [hx] at ha
      exact ⟨_, _, _, wire_delete h1 hk, ha, reply_bytes ..⟩
  | flush =>
    have ha := answer_one te s 8 0 [] [] [] 0 (by simp) (by simp) (by simp) (by decide)
    have hx : exec te s (mk 8 [] [] [] 0) = (reply (mk 8 [] [] [] 0) 0 [] [] [] 0, s.flush) := rfl
    rw [hx] at ha
    exact ⟨_, _, _, wire_flush h1, ha, reply_bytes ..⟩
  | get k => exact absurd hb id
  | getMulti ks => exact absurd hb id
  | increment k d e => exact absurd hb id
  | decrement k d e => exact absurd hb id
  | touch k e => exact absurd hb id

theorem changes_not_count {s : Store} {op : Op} (h : Changes s op) : ¬ IsCount op := by
  cases op <;> first | exact fun h => h | exact absurd h id

theorem session_behind (te : Entry → Bytes) (hte : ∀ e, (te e).length < 256) (ch : Chooser) (events : List Event) (n : Nat)
    (pool : List ReqHdr) (s : Store) (hs : GoodStore s)
    (ho : Along binApi (fun s op => BinArgs op ∧ Changes s op) s events) (hc : s.nextCas + events.length < 2 ^ 63)
    (a : UInt8) (text : Bytes) (ha : a ≠ 0x81) (hl : (a :: text).length = 20 ∨ (a :: text).length = 9) :
    ∃ unread, session te ch n pool s (a :: text) events
      = some (List.replicate events.length (.err errInvalidResponse), (runApi binApi s events).2, unread) := by
  induction events generalizing n pool s a text with
  | nil => exact ⟨_, rfl⟩
  | cons ev rest ih =>
    obtain ⟨d, op⟩ := ev
    obtain ⟨⟨hop, hch⟩, hrest⟩ := ho
    have ht := hs.tick d
    simp only [List.length_cons] at hc
    have hn := binApi_next op (s.tick d) hop ht (by simp only [Store.tick]; omega)
    obtain ⟨w, rep, hw, hans, h24, hx⟩ := exchange_behind te hte (ch (2 * n) pool)
      (ch (2 * n + 1) (pool ++ [(opOf op).put1 (ch (2 * n) pool)])) op hop (s.tick d) ht
      (fun h => absurd h (changes_not_count hch)) a text ha
    obtain ⟨w', rep', s', hw', hans', hl', h4, h15⟩ := change_reply te (ch (2 * n) pool)
      (ch (2 * n + 1) (pool ++ [(opOf op).put1 (ch (2 * n) pool)])) op hop (s.tick d) hch
    rw [hw] at hw'
    cases hw'
    rw [hans] at hans'
    cases hans'
    have hd : (a :: text ++ rep).drop 24 = rep.drop (24 - (a :: text).length) := by
      rw [List.drop_append, List.drop_of_length_le (by omega), List.nil_append]
    obtain ⟨x, t', he, hx0, hlen⟩ : ∃ x t', (a :: text ++ rep).drop 24 = x :: t' ∧ x = 0 ∧ (x :: t').length = (a :: text).length := by
      rw [hd]
      have hlr : (rep.drop (24 - (a :: text).length)).length = (a :: text).length := by
        rw [List.length_drop]; omega
      have hh : (rep.drop (24 - (a :: text).length))[0]? = some 0 := by
        rw [List.getElem?_drop]
        rcases hl with h | h <;> rw [h]
        · exact h4
        · exact h15
      cases hr : rep.drop (24 - (a :: text).length) with
      | nil => rw [hr] at hh; simp at hh
      | cons x t' =>
        rw [hr] at hh hlr
        exact ⟨x, t', rfl, by simpa using hh, hlr⟩
    subst hx0
    rw [he] at hx
    obtain ⟨unread, hih⟩ := ih (n + 1) (pool ++ [(opOf op).put1 (ch (2 * n) pool)]
        ++ (opOf op).put2 (ch (2 * n + 1) (pool ++ [(opOf op).put1 (ch (2 * n) pool)])))
      (binApi (s.tick d) op).2 hn.1 hrest
      (by have := hn.2; simp only [Store.tick] at this ⊢; omega) 0 t' (by decide) (by rw [hlen]; exact hl)
    exact ⟨unread, by simp only [session, hx, hih, runApi, Option.map_some, List.length_cons, List.replicate_succ]⟩

theorem refused_left (te : Entry → Bytes) {s : Store} {op : Op} (h : Refused s op) :
    leftOver te s op = b!"Data exists for key." ∨ leftOver te s op = b!"Not found" := by
  cases op with
  | set i =>
    have h' : (binApi s (.set i)).1 ≠ .ok .done := h
    simp only [binApi] at h'
    simp only [leftOver]
    cases hst : (s.store (binMode .set i) i.key i.value (metaFlagsOf i) i.expiration).1 <;> simp [hst] at h' ⊢
  | add i =>
    have h' : (binApi s (.add i)).1 ≠ .ok .done := h
    simp only [binApi] at h'
    simp only [leftOver]
    cases hst : (s.store (binMode .add i) i.key i.value (metaFlagsOf i) i.expiration).1 <;> simp [hst] at h' ⊢
  | touch k e =>
    have h' : (binApi s (.touch k e)).1 ≠ .ok .done := h
    simp only [binApi, Store.touch] at h'
    simp only [leftOver]
    cases hf : s.find k <;> simp [hf] at h' ⊢
  | get k => exact absurd h id
  | getMulti ks => exact absurd h id
  | increment k d e => exact absurd h id
  | decrement k d e => exact absurd h id
  | replace i => exact absurd h id
  | delete k => exact absurd h id
  | flush => exact absurd h id

/-- C55: and the connection never recovers by itself.  After a refused Set, Add or Touch, any number of successful
changes all return the invalid-response error, although memcached carries out every one of them. -/
theorem C55_for_good (te : Entry → Bytes) (hte : ∀ e, (te e).length < 256) (ch : Chooser)
    (hch : ∀ n pool, Gettable pool (ch n pool)) (d : Nat) (op : Op) (ho : BinArgs op) (s : Store) (hs : GoodStore s)
    (href : Refused (s.tick d) op) (rest : List Event)
    (hr : Along binApi (fun s op => BinArgs op ∧ Changes s op) (binApi (s.tick d) op).2 rest)
    (hc : s.nextCas + rest.length + 1 < 2 ^ 63) :
    ∃ unread, session te ch 0 [] s [] ((d, op) :: rest)
      = some ((binApi (s.tick d) op).1 :: List.replicate rest.length (.err errInvalidResponse),
          (runApi binApi s ((d, op) :: rest)).2, unread) := by
  have ht := hs.tick d
  have hn := binApi_next op (s.tick d) ho ht (by simp only [Store.tick]; omega)
  have h1 := C52_binary_call te hte (ch 0 []) (ch 1 ([] ++ [(opOf op).put1 (ch 0 [])])) op ho (s.tick d) ht
    (fun _ => by
      rcases hch 0 [] with h | h
      · rw [h]
      · simp at h)
  obtain ⟨a, text, hl, ha, hlen⟩ : ∃ a text, leftOver te (s.tick d) op = a :: text ∧ a ≠ 0x81
      ∧ ((a :: text).length = 20 ∨ (a :: text).length = 9) := by
    rcases refused_left te href with h | h
    · exact ⟨_, _, h, by decide, Or.inl rfl⟩
    · exact ⟨_, _, h, by decide, Or.inr rfl⟩
  rw [hl] at h1
  obtain ⟨unread, h2⟩ := session_behind te hte ch rest 1 ([] ++ [(opOf op).put1 (ch 0 [])]
      ++ (opOf op).put2 (ch 1 ([] ++ [(opOf op).put1 (ch 0 [])]))) (binApi (s.tick d) op).2 hn.1 hr
    (by have := hn.2; simp only [Store.tick] at this ⊢; omega) a text ha hlen
  exact ⟨unread, by simp only [session, Nat.mul_zero, Nat.zero_add, h1, h2, runApi, Option.map_some]⟩

/-- Non-vacuity: an Add of an existing key, then a Set that is carried out and reported as failed. -/
example : Refused ((emptyStore 5).put b!"k" b!"v" 0 none) (.add { key := b!"k", value := b!"x" })
    ∧ Changes ((emptyStore 5).put b!"k" b!"v" 0 none) (.set { key := b!"k", value := b!"y" }) := by
  unfold Refused Changes
  decide +kernel

end Props
end Verif
