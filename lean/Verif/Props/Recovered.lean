import Verif.Client.Buffer
import Verif.Props.BinHistory
/-!
C57: a connection after a call that panicked and was recovered.
-/

namespace Verif
namespace Spec

/-- Flags that `Set`, `Add`, `Replace` of a binary connection (and `Set` of a meta connection) cannot take. -/
def ShortFlags (item : Item) : Prop := ∃ f, item.flags = some f ∧ f.length < 4

/-- Length of the body a binary store announces: extras, key, value. -/
def bodyLen (item : Item) : Nat := 8 + item.key.length + item.value.length

/-- The request memcached takes a stream for that begins with the header of a store of `item` and goes
on with `w`. -/
def mistaken (op : UInt8) (item : Item) (w : Bytes) : McBin.Req where
  opcode := op
  extras := w.take 8
  key := (w.drop 8).take item.key.length
  value := (w.drop (8 + item.key.length)).take item.value.length
  opaq := [0, 0, 0, 0]
  cas := item.cas

end Spec

namespace Props
open Kv Spec Bin McBin

/-- The split model agrees with the request of the call when there is no panic. -/
theorem binStore_wire (h : ReqHdr) (op : UInt8) (item : Item) (buf w : Bytes)
    (hw : storeWire h op item = .ok w) : Buf.binStore h op item buf = (.ok (), buf ++ w) := by
  unfold storeWire at hw
  unfold Buf.binStore
  cases he : storeExtra item with
  | ok e =>
    rw [he] at hw
    cases hw
    simp [List.append_assoc]
  | err e => rw [he] at hw; cases hw
  | panic => rw [he] at hw; cases hw

theorem storeExtra_panic (item : Item) : storeExtra item = .panic ↔ ShortFlags item := by
  unfold storeExtra ShortFlags
  cases hf : item.flags with
  | none =>
    constructor
    · intro h; cases h
    · rintro ⟨f, h, _⟩; cases h
  | some f =>
    show (sliceTo f 4 >>= fun f => _) = _ ↔ _
    unfold sliceTo
    by_cases h : 4 ≤ f.length
    · rw [if_pos (by omega)]
      constructor
      · intro h; cases h
      · rintro ⟨g, h1, h2⟩; cases h1; omega
    · rw [if_neg (by omega)]
      exact ⟨fun _ => ⟨f, rfl, by omega⟩, fun _ => rfl⟩

theorem metaWire_panic (item : Item) : Meta.setWire item = .panic ↔ ShortFlags item := by
  unfold Meta.setWire ShortFlags
  cases hf : item.flags with
  | none =>
    constructor
    · intro h; cases h
    · rintro ⟨f, h, _⟩; cases h
  | some f =>
    show (beUint 4 f >>= fun n => _) = _ ↔ _
    unfold beUint
    by_cases h : 4 ≤ f.length
    · rw [if_pos h]
      constructor
      · intro h; cases h
      · rintro ⟨g, h1, h2⟩; cases h1; omega
    · rw [if_neg h]
      exact ⟨fun _ => ⟨f, rfl, by omega⟩, fun _ => rfl⟩

/-- C57: these are the only calls that panic while building their request. -/
theorem C57_only (name : Bytes) (h1 h2 : ReqHdr) (op : Op) :
    (Mc.textCall name op).wire ≠ .panic
      ∧ ((Mc.metaCall op).wire = .panic ↔ ∃ i, op = .set i ∧ ShortFlags i)
      ∧ ((Mc.binCall h1 h2 op).wire = .panic
          ↔ ∃ i, (op = .set i ∨ op = .add i ∨ op = .replace i) ∧ ShortFlags i) := by
  have st : ∀ o i, storeWire h1 o i = .panic ↔ ShortFlags i := by
    intro o i
    rw [← storeExtra_panic]
    unfold storeWire
    cases storeExtra i with
    | ok e => exact ⟨(fun h => by cases h), (fun h => by cases h)⟩
    | err e => exact ⟨(fun h => by cases h), (fun h => by cases h)⟩
    | panic => exact ⟨fun _ => rfl, fun _ => rfl⟩
  refine ⟨?_, ?_, ?_⟩
  · cases op <;> intro h <;> cases h
  · cases op with
    | set i =>
      refine (metaWire_panic i).trans ⟨fun h => ⟨i, rfl, h⟩, ?_⟩
      rintro ⟨j, h, hj⟩; cases h; exact hj
    | _ =>
      constructor
      · intro h; cases h
      · rintro ⟨j, h, _⟩; cases h
  · cases op with
    | set i =>
      refine (st _ i).trans ⟨fun h => ⟨i, .inl rfl, h⟩, ?_⟩
      rintro ⟨j, h | h | h, hj⟩ <;> cases h
      exact hj
    | add i =>
      refine (st _ i).trans ⟨fun h => ⟨i, .inr (.inl rfl), h⟩, ?_⟩
      rintro ⟨j, h | h | h, hj⟩ <;> cases h
      exact hj
    | replace i =>
      refine (st _ i).trans ⟨fun h => ⟨i, .inr (.inr rfl), h⟩, ?_⟩
      rintro ⟨j, h | h | h, hj⟩ <;> cases h
      exact hj
    | _ =>
      constructor
      · intro h; cases h
      · rintro ⟨j, h | h | h, _⟩ <;> cases h

/-- C57: a meta connection survives: `Set` with short flags panics before it has written anything. -/
theorem C57_meta (item : Item) (hf : ShortFlags item) (buf : Bytes) :
    Buf.metaSet item buf = (.panic, buf) := by
  unfold Buf.metaSet
  rw [(metaWire_panic item).2 hf]

/-- C57: a binary connection does not: `Set`, `Add` and `Replace` panic exactly on short flags, and by then
the 24 bytes of the request's header are in the write buffer. -/
theorem C57_binary (h : ReqHdr) (op : UInt8) (item : Item) (buf : Bytes) :
    ((Buf.binStore h op item buf).1 = .panic ↔ ShortFlags item)
      ∧ (ShortFlags item → ∃ left, (Buf.binStore h op item buf).2 = buf ++ left ∧ left.length = 24) := by
  constructor
  · rw [← storeExtra_panic]
    unfold Buf.binStore
    cases storeExtra item <;> simp
  · intro hf
    unfold Buf.binStore
    rw [(storeExtra_panic item).2 hf]
    exact ⟨_, rfl, by rw [encode_raw, rawHdr_length]⟩

theorem left_eq (h : ReqHdr) (op : UInt8) (item : Item) (hf : ShortFlags item) (hk : item.key.length < 2 ^ 16)
    (hb : bodyLen item < 2 ^ 32) :
    (Buf.binStore h op item []).2 = rawHdr op item.key.length 8 0 (bodyLen item) item.cas := by
  unfold Buf.binStore
  rw [(storeExtra_panic item).2 hf]
  have e : item.key.length + item.value.length + 8 = bodyLen item := by unfold bodyLen; omega
  simp only [List.nil_append, encode_raw, storeHdr, ReqHdr.reset, e, Nat.mod_eq_of_lt hk, Nat.mod_eq_of_lt hb]
  rfl

/-- C57: the next call's request `w`, whatever it is, is taken by memcached for the body of the store that
panicked: flags, expiration, key and value are cut from the bytes of `w`, if it is long enough ... -/
theorem C57_mistaken (h : ReqHdr) (op : UInt8) (item : Item) (hf : ShortFlags item)
    (hk : item.key.length < 2 ^ 16) (hb : bodyLen item < 2 ^ 32) (hc : item.cas < 2 ^ 64)
    {α : Type} (c : Call α) (w : Bytes) (hw : c.wire = .ok w) (hl : bodyLen item ≤ w.length) :
    ∃ out, Buf.sent (Buf.binStore h op item []).2 c = .ok out
      ∧ readReq out = (.ok (some (mistaken op item w)), w.drop (bodyLen item)) := by
  refine ⟨(Buf.binStore h op item []).2 ++ w, by simp only [Buf.sent, hw], ?_⟩
  rw [left_eq h op item hf hk hb]
  unfold bodyLen at *
  have l1 : (w.take 8).length = 8 := by simp; omega
  have l2 : ((w.drop 8).take item.key.length).length = item.key.length := by simp; omega
  have l3 : ((w.drop (8 + item.key.length)).take item.value.length).length = item.value.length := by simp; omega
  have hsplit : w = w.take 8 ++ ((w.drop 8).take item.key.length
      ++ (w.drop (8 + item.key.length)).take item.value.length) ++ w.drop (8 + item.key.length + item.value.length) := by
    conv => lhs; rw [← List.take_append_drop 8 w, ← List.take_append_drop item.key.length (w.drop 8),
      ← List.take_append_drop item.value.length ((w.drop 8).drop item.key.length)]
    simp only [List.drop_drop, List.append_assoc, Nat.add_assoc]
  have := readReq_raw op 0 (w.take 8) ((w.drop 8).take item.key.length)
    ((w.drop (8 + item.key.length)).take item.value.length) (w.drop (8 + item.key.length + item.value.length)) item.cas
    (by omega) (by omega) (by omega) hc
  unfold reqBytes at this
  rw [l1, l2, l3, List.append_assoc, ← hsplit] at this
  exact this

/-- ... and otherwise memcached waits for the rest of it, and the call for its reply. -/
theorem C57_waits (h : ReqHdr) (op : UInt8) (item : Item) (hf : ShortFlags item)
    (hk : item.key.length < 2 ^ 16) (hb : bodyLen item < 2 ^ 32)
    {α : Type} (c : Call α) (w : Bytes) (hw : c.wire = .ok w) (hl : w.length < bodyLen item) :
    ∃ out, Buf.sent (Buf.binStore h op item []).2 c = .ok out ∧ (readReq out).1 = .err .io := by
  refine ⟨(Buf.binStore h op item []).2 ++ w, by simp only [Buf.sent, hw], ?_⟩
  rw [left_eq h op item hf hk hb]
  unfold readReq
  rw [Rd.bind_of_ok (readFull_append' 24 _ _ (rawHdr_length ..))]
  rw [if_neg (by simp [rawHdr]), rawHdr_tb _ _ _ _ _ hb]
  rw [Rd.bind_apply]
  unfold readFull
  rw [if_neg (by omega)]

/-- C57, what that means for a `Get` after a recovered `Set`: memcached stores an item, for good, under a key
no caller has named (it begins with a NUL byte), and the `Get` reports a hit with an empty value, whatever is
stored under its key. -/
theorem C57_get_stores (te : Entry → Bytes) (h : ReqHdr) (item : Item) (hf : ShortFlags item)
    (hk : Key item.key) (hk0 : item.key ≠ []) (hc : item.cas = 0) (h2 : ReqHdr) (k : Bytes) (hk' : Key k)
    (hl : bodyLen item ≤ 24 + k.length) (s : Store) (hs : s.nextCas < 2 ^ 64) :
    ∃ out r rest rep s' e, Buf.sent (Buf.binStore h opSet item []).2 (Bin.get h2 k) = .ok out
      ∧ readReq out = (.ok (some r), rest) ∧ exec te s r = (rep, s')
      ∧ r.key.length = item.key.length ∧ r.key.head? = some 0
      ∧ s'.data r.key = some e ∧ e.expiry = none
      ∧ ∀ more, (Bin.get h2 k).rd (rep ++ more)
          = (.ok { key := k, value := [], flags := some [], cas := s.nextCas }, more) := by
  have hkl : item.key.length ≤ 250 := hk.2
  have hkl' : k.length ≤ 250 := hk'.2
  have hb : bodyLen item < 2 ^ 32 := by omega
  obtain ⟨w, hw⟩ : ∃ w, (Bin.get h2 k).wire = .ok w := ⟨_, rfl⟩
  have hwe : w = (getHdr h2 k).encode ++ k := by cases hw; rfl
  have hwl : w.length = 24 + k.length := by rw [hwe, List.length_append, encode_raw, rawHdr_length]
  obtain ⟨out, h3, h4⟩ := C57_mistaken h opSet item hf (by omega) hb (by omega) (Bin.get h2 k) w hw (by omega)
  have hm : k.length % 2 ^ 32 = k.length := Nat.mod_eq_of_lt (by omega)
  have b8 : (w.drop 8).head? = some 0 := by
    rw [hwe, encode_raw]
    have e : (getHdr h2 k).totalBodyLength = k.length := by simp only [getHdr, hm]
    rw [e]
    have : k.length / 256 ^ 3 = 0 := Nat.div_eq_of_lt (by omega)
    simp [rawHdr, putBE, this]
  have b4 : getBE ((w.take 8).drop 4) = 0 := by
    rw [hwe, encode_raw]
    simp [getHdr, rawHdr, putBE, ReqHdr.reset, getBE]
  obtain ⟨n, hn⟩ : ∃ n, item.key.length = n + 1 := by
    cases hkk : item.key with
    | nil => exact absurd hkk hk0
    | cons a b => exact ⟨b.length, rfl⟩
  have hkey : (mistaken opSet item w).key.head? = some 0 := by
    show ((w.drop 8).take item.key.length).head? = some 0
    rw [hn]
    cases hd : w.drop 8 with
    | nil => rw [hd] at b8; cases b8
    | cons a b => rw [hd] at b8; simpa using b8
  have hlen : (mistaken opSet item w).key.length = item.key.length := by
    show ((w.drop 8).take item.key.length).length = _
    unfold bodyLen at hl
    simp; omega
  have hex : (mistaken opSet item w).extras.length = 8 := by
    show (w.take 8).length = 8
    simp; omega
  have hexec : exec te s (mistaken opSet item w)
      = (reply (mistaken opSet item w) 0 [] [] [] s.nextCas,
         s.put (mistaken opSet item w).key (mistaken opSet item w).value (getBE ((mistaken opSet item w).extras.take 4)) none) := by
    unfold exec
    have o1 : (mistaken opSet item w).opcode = 1 := rfl
    have o2 : (mistaken opSet item w).cas = 0 := hc
    have o3 : getBE ((mistaken opSet item w).extras.drop 4) = 0 := b4
    rw [o1, if_neg (of_decide_eq_true rfl), if_pos (of_decide_eq_true rfl), if_neg (fun h => h hex)]
    have o4 : modeOf (mistaken opSet item w) = .set := by
      unfold modeOf
      rw [o2, o1]; rfl
    rw [o3, o4]
    rfl
  refine ⟨out, mistaken opSet item w, w.drop (bodyLen item), _, _,
    ⟨(mistaken opSet item w).value, getBE ((mistaken opSet item w).extras.take 4), none, s.nextCas⟩,
    h3, h4, hexec, hlen, hkey, ?_, rfl, ?_⟩
  · simp [Store.put, Store.write]
  · intro more
    have hr := readHdr_reply opSet (mistaken opSet item w).extras (mistaken opSet item w).key (mistaken opSet item w).value
      item.cas 0 [] [] [] s.nextCas more (by simp) (by simp) (by simp) (by omega) hs
    have hrep : reply (mistaken opSet item w) 0 [] [] [] s.nextCas
        = reply (mk opSet (mistaken opSet item w).extras (mistaken opSet item w).key (mistaken opSet item w).value item.cas) 0 [] [] [] s.nextCas := rfl
    rw [hrep]
    show getReply k _ = _
    unfold getReply
    rw [Rd.bind_of_ok hr]
    refine (Rd.bind_of_ok (readFull_append' 0 [] more rfl)).trans ?_
    rfl

/-! ### The hypotheses are met -/

def oneFlag : Item := { key := b!"key", value := b!"v", flags := some [1] }

example : ShortFlags oneFlag ∧ Key oneFlag.key ∧ bodyLen oneFlag ≤ 24 + (b!"k").length :=
  ⟨⟨[1], rfl, by decide⟩, by decide, by decide⟩

/-- `Set` of that item panics; after recovery `Get("k")` makes memcached store `"\x00" "k\x00…"`. -/
example : ∃ out r rest rep s' e, Buf.sent (Buf.binStore {} opSet oneFlag []).2 (Bin.get {} b!"k") = .ok out
    ∧ readReq out = (.ok (some r), rest) ∧ exec (fun _ => []) (emptyStore 0) r = (rep, s')
    ∧ r.key.length = 3 ∧ r.key.head? = some 0 ∧ s'.data r.key = some e ∧ e.expiry = none
    ∧ ∀ more, (Bin.get {} b!"k").rd (rep ++ more)
        = (.ok { key := b!"k", value := [], flags := some [], cas := (emptyStore 0).nextCas }, more) :=
  C57_get_stores _ {} oneFlag ⟨[1], rfl, by decide⟩ (by decide) (by decide) rfl {} b!"k" (by decide) (by decide) _ (by decide)

example : ∃ out, Buf.sent (Buf.binStore {} opSet { oneFlag with value := List.replicate 100 0 } []).2 (Bin.get {} b!"k") = .ok out
    ∧ (readReq out).1 = .err .io :=
  C57_waits {} opSet { oneFlag with value := List.replicate 100 0 } ⟨[1], rfl, by decide⟩ (by decide) (by decide) _ _ rfl (by decide)

end Props
end Verif
