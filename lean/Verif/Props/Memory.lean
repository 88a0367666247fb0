import Verif.Client.Memory
import Verif.Go.Lemmas
/-!
C29: which operations change the caller's memory.
-/

namespace Verif
namespace Props
open Mem

/-- Every array that existed before has the same contents afterwards. -/
def Untouched (m m' : Memory) : Prop := ∀ a, a < m.length → array m' a = array m a

theorem array_set (m : Memory) (a b : Nat) (x : Bytes) (h : a < m.length) :
    array (m.set a x) b = if b = a then x else array m b := by
  unfold array
  simp only [List.getD_eq_getElem?_getD, List.getElem?_set]
  by_cases hb : a = b
  · subst hb; simp [h]
  · rw [if_neg hb, if_neg (Ne.symm hb)]

theorem array_append (m : Memory) (x : Bytes) (a : Nat) (h : a < m.length) : array (m ++ [x]) a = array m a := by
  unfold array
  simp [List.getD_eq_getElem?_getD, List.getElem?_append_left h]

theorem array_new (m : Memory) (x : Bytes) : array (m ++ [x]) m.length = x := by
  unfold array
  simp [List.getD_eq_getElem?_getD]

theorem arr_lt {m : Memory} {s : Slice} (h : s.Valid m) (hc : 0 < s.cap) : s.arr < m.length := by
  apply Nat.lt_of_not_le
  intro hle
  have := h.cap
  unfold array at this
  simp only [List.getD_eq_getElem?_getD, List.getElem?_eq_none hle] at this
  simp at this
  omega

theorem bytes_length {m : Memory} {s : Slice} (h : s.Valid m) : (s.bytes m).length = s.len := by
  have h1 := h.len
  have h2 := h.cap
  unfold Slice.bytes
  simp; omega

/-- Contents of a slice depend only on its array. -/
theorem bytes_congr {m m' : Memory} {s : Slice} (h : array m' s.arr = array m s.arr) : s.bytes m' = s.bytes m := by
  unfold Slice.bytes; rw [h]

theorem bytes_append_mem {m : Memory} {s : Slice} (h : s.Valid m) (x : Bytes) : s.bytes (m ++ [x]) = s.bytes m := by
  by_cases hc : 0 < s.cap
  · exact bytes_congr (array_append m x _ (arr_lt h hc))
  · have := h.len
    have h0 : s.len = 0 := by omega
    unfold Slice.bytes; simp [h0]

theorem splice_read (a bs : Bytes) (off len : Nat) (h : off + len + bs.length ≤ a.length) :
    ((splice a (off + len) bs).drop off).take (len + bs.length) = (a.drop off).take len ++ bs := by
  unfold splice
  rw [List.append_assoc, List.drop_append_of_le_length (by simp; omega), List.drop_take]
  have e : off + len - off = len := by omega
  rw [e]
  have hl : ((a.drop off).take len).length = len := by simp; omega
  rw [List.take_append, hl, List.take_of_length_le (by omega)]
  simp

/-- What `append(value, CRLF)` sends: the value and CRLF, wherever it is put. -/
theorem goAppend_bytes (m : Memory) (s : Slice) (hs : s.Valid m) (bs : Bytes) (hb : 0 < bs.length) (grow : Nat) :
    (goAppend m s bs grow).2.bytes (goAppend m s bs grow).1 = s.bytes m ++ bs := by
  have h1 := hs.len
  have h2 := hs.cap
  unfold goAppend
  split
  · rename_i hc
    have ha := arr_lt hs (by omega)
    unfold Slice.bytes write
    dsimp only
    rw [array_set _ _ _ _ ha, if_pos rfl]
    exact splice_read _ _ _ _ (by omega)
  · unfold Slice.bytes
    dsimp only
    rw [array_new]
    have hl := bytes_length hs
    unfold Slice.bytes at hl
    rw [List.drop_zero, List.take_append_of_le_length (by simp only [List.length_append]; omega)]
    exact List.take_of_length_le (by simp only [List.length_append]; omega)

/-- C29: text Set sends the item as it is in memory ... -/
theorem C29_text_set_sends (grow : Nat) (m : Memory) (it : MItem) (h : it.Valid m) :
    (textSet grow m it).2 = (Text.set (it.flat m)).wire := by
  unfold textSet
  dsimp only
  rw [goAppend_bytes m it.value h.value crlf (by decide) grow]
  show Res.ok _ = Res.ok (Text.setWire _)
  unfold textSetLine Text.setWire MItem.flat
  dsimp only
  rw [bytes_length h.value]

theorem C29_meta_set_sends (grow : Nat) (m : Memory) (it : MItem) (h : it.Valid m) :
    (metaSet grow m it).2 = (Meta.set (it.flat m)).wire := by
  show _ = Meta.setWire (it.flat m)
  cases hf : it.flags with
  | none =>
    simp only [metaSet, hf, Meta.setWire, MItem.flat, Option.map_none]
    rw [goAppend_bytes m it.value h.value crlf (by decide) grow, ← bytes_length h.value]
    rfl
  | some f =>
    simp only [metaSet, hf, Meta.setWire, MItem.flat, Option.map_some]
    cases hb : beUint 4 (f.bytes m) with
    | panic => rfl
    | err e => rfl
    | ok n =>
      simp only [Res.bind]
      rw [goAppend_bytes m it.value h.value crlf (by decide) grow, ← bytes_length h.value]
      rfl

theorem C29_store_sends (cmd : Bytes) (m : Memory) (it : MItem) (h : it.Valid m) :
    (textStore cmd m it).2 = .ok (Text.storeWire cmd (it.flat m)) := by
  simp only [textStore, Text.storeWire, MItem.flat, bytes_length h.value]

/-- The memory after a Set over the text or meta protocol: exactly the two bytes behind the
value are overwritten with CRLF when the slice has that much spare capacity, and nothing that
existed is changed otherwise. -/
def SetEffect (m m' : Memory) (v : Slice) : Prop :=
  (v.len + 2 ≤ v.cap →
    m'.length = m.length
      ∧ array m' v.arr = (array m v.arr).take (v.off + v.len) ++ [13, 10] ++ (array m v.arr).drop (v.off + v.len + 2)
      ∧ ∀ a, a ≠ v.arr → array m' a = array m a)
  ∧ (v.cap < v.len + 2 → Untouched m m')

theorem goAppend_effect (grow : Nat) (m : Memory) (s : Slice) (hs : s.Valid m) :
    SetEffect m (goAppend m s crlf grow).1 s := by
  have h2 : crlf.length = 2 := rfl
  constructor
  · intro hc
    have ha := arr_lt hs (by omega)
    unfold goAppend
    rw [if_pos (by omega)]
    unfold write
    refine ⟨by simp, ?_, fun a hne => ?_⟩
    · rw [array_set _ _ _ _ ha, if_pos rfl]
      rfl
    · rw [array_set _ _ _ _ ha, if_neg hne]
  · intro hc a ha
    unfold goAppend
    rw [if_neg (by omega)]
    exact array_append _ _ _ ha

/-- C29: ... but overwrites the two bytes behind the value if there is room. -/
theorem C29_text_set (grow : Nat) (m : Memory) (it : MItem) (h : it.Valid m) :
    SetEffect m (textSet grow m it).1 it.value := goAppend_effect grow m it.value h.value

/-- C29: the same for meta Set (unless it panics on short flags, then nothing is changed). -/
theorem C29_meta_set (grow : Nat) (m : Memory) (it : MItem) (h : it.Valid m) :
    ((metaSet grow m it).2 = .panic → (metaSet grow m it).1 = m)
      ∧ ((metaSet grow m it).2 ≠ .panic → SetEffect m (metaSet grow m it).1 it.value) := by
  have hap := goAppend_effect grow m it.value h.value
  cases hf : it.flags with
  | none => simp only [metaSet, hf]; exact ⟨by simp, fun _ => hap⟩
  | some f =>
    simp only [metaSet, hf]
    cases hb : beUint 4 (f.bytes m) with
    | panic => simp [Res.bind]
    | err e => unfold beUint at hb; split at hb <;> cases hb
    | ok n => simp only [Res.bind]; exact ⟨by simp, fun _ => hap⟩

theorem splice_same (a : Bytes) (p : Nat) (h : p + 2 ≤ a.length) :
    a.take p ++ [13, 10] ++ a.drop (p + 2) = a ↔ (a.drop p).take 2 = [13, 10] := by
  have e : a = a.take p ++ (a.drop p).take 2 ++ a.drop (p + 2) := by
    rw [List.append_assoc, ← List.drop_drop, List.take_append_drop, List.take_append_drop]
  constructor
  · intro hh
    have hh2 : a.take p ++ [13, 10] ++ a.drop (p + 2) = a.take p ++ (a.drop p).take 2 ++ a.drop (p + 2) := hh.trans e
    exact (List.append_cancel_left (List.append_cancel_right hh2)).symm
  · intro hh
    rw [← hh]
    exact e.symm

/-- C29: so text Set leaves the caller's memory unchanged exactly when the value has less than two
bytes of spare capacity or these bytes are CRLF already. -/
theorem C29_text_set_clean (grow : Nat) (m : Memory) (it : MItem) (h : it.Valid m) :
    Untouched m (textSet grow m it).1
      ↔ it.value.cap < it.value.len + 2
        ∨ ((array m it.value.arr).drop (it.value.off + it.value.len)).take 2 = [13, 10] := by
  obtain ⟨e1, e2⟩ := C29_text_set grow m it h
  have hl := h.value.len
  have hc := h.value.cap
  by_cases hs : it.value.cap < it.value.len + 2
  · exact ⟨fun _ => .inl hs, fun _ => e2 hs⟩
  · obtain ⟨_, a1, a2⟩ := e1 (by omega)
    have ha := arr_lt h.value (by omega)
    rw [← splice_same _ _ (by omega)]
    constructor
    · intro hu
      exact .inr (a1.symm.trans (hu _ ha))
    · rintro (hh | hh)
      · exact absurd hh hs
      · intro a _
        by_cases hne : a = it.value.arr
        · subst hne; exact a1.trans hh
        · exact a2 a hne

/-- C29: Add and Replace over text and meta change no memory. -/
theorem C29_store (cmd : Bytes) (m : Memory) (it : MItem) : (textStore cmd m it).1 = m := rfl

/-- C29: binary Set, Add and Replace change nothing that existed, whatever the item. -/
theorem C29_binary (op : UInt8) (h : Bin.ReqHdr) (m : Memory) (it : MItem) :
    Untouched m (binStore op h m it).1 := by
  have hw : ∀ (m' : Memory) pos bs, Untouched m m' → m.length < m'.length → Untouched m (write m' m.length pos bs) := by
    intro m' pos bs hu hl a ha
    unfold write
    rw [array_set _ _ _ _ hl, if_neg (by omega)]
    exact hu a ha
  have h1 : Untouched m (m ++ [List.replicate 8 0]) := fun a ha => array_append _ _ _ ha
  have h2 := hw _ 4 (putBE 4 (toUnsigned 32 it.expiration)) h1 (by simp)
  have hl2 : m.length < (write (m ++ [List.replicate 8 0]) m.length 4 (putBE 4 (toUnsigned 32 it.expiration))).length := by
    unfold write; simp
  unfold binStore
  simp only [goMake, Nat.zero_add]
  cases it.flags with
  | none => exact h2
  | some f =>
    dsimp only
    unfold resliceTo
    split
    · exact hw _ _ _ h2 hl2
    · rename_i hh; split at hh <;> cases hh
    · exact h2

theorem write_new (m : Memory) (x : Bytes) (pos : Nat) (bs : Bytes) :
    write (m ++ [x]) m.length pos bs = m ++ [splice x pos bs] := by
  unfold write
  rw [array_new]
  simp

theorem putBE4_length (n : Nat) : (putBE 4 n).length = 4 := putBE_length 4 n

/-- C29: and send the item as it is in memory, except that the flags sent are always the four bytes
from the beginning of the flags slice, also when it is shorter: then bytes that lie behind it in
memory are sent.  With a capacity below four the call panics. -/
theorem C29_binary_sends (op : UInt8) (h : Bin.ReqHdr) (m : Memory) (it : MItem) (hv : it.Valid m) :
    ((∀ f, it.flags = some f → 4 ≤ f.cap) → (binStore op h m it).2
        = Bin.storeWire h op { it.flat m with
            flags := it.flags.map fun f => ((array m f.arr).drop f.off).take 4 })
      ∧ (∀ f, it.flags = some f → f.cap < 4 → (binStore op h m it).2 = .panic) := by
  refine ⟨fun hf => ?_, fun f hf hc => ?_⟩
  rotate_left
  · unfold binStore
    simp only [goMake, hf, resliceTo]
    rw [if_neg (by omega)]
  have hlen := bytes_length hv.value
  have hsp : splice (List.replicate 8 0) 4 (putBE 4 (toUnsigned 32 it.expiration))
      = [0, 0, 0, 0] ++ putBE 4 (toUnsigned 32 it.expiration) := by
    unfold splice
    rw [putBE4_length]
    simp [List.replicate]
  have hvb : ∀ x, it.value.bytes (m ++ [x]) = it.value.bytes m := bytes_append_mem hv.value
  unfold binStore
  simp only [goMake, Nat.zero_add, write_new, hsp]
  cases hfl : it.flags with
  | none =>
    simp only [Bin.storeWire, Bin.storeExtra, MItem.flat, Option.map_none, Bin.storeHdr, hlen, hvb]
    have : Slice.bytes (m ++ [[0, 0, 0, 0] ++ putBE 4 (toUnsigned 32 it.expiration)])
        { arr := m.length, off := 0, len := 8, cap := 8 } = [0, 0, 0, 0] ++ putBE 4 (toUnsigned 32 it.expiration) := by
      unfold Slice.bytes
      dsimp only
      rw [array_new, List.drop_zero]
      exact List.take_of_length_le (by simp [putBE4_length])
    rw [this]
    rfl
  | some f =>
    have h4 := hf f hfl
    have hfv := hv.flags f hfl
    have hfc := hfv.cap
    have e4 : resliceTo f 4 = .ok { f with len := 4 } := by unfold resliceTo; rw [if_pos h4]
    have hl4 : (((array m f.arr).drop f.off).take 4).length = 4 := by simp; omega
    have e5 : Slice.bytes (m ++ [[0, 0, 0, 0] ++ putBE 4 (toUnsigned 32 it.expiration)]) { f with len := 4 }
        = ((array m f.arr).drop f.off).take 4 := by
      have hv4 : Slice.Valid m { f with len := 4 } := ⟨h4, hfv.cap⟩
      rw [bytes_append_mem hv4]
      rfl
    have e6 : sliceTo (((array m f.arr).drop f.off).take 4) 4 = .ok (((array m f.arr).drop f.off).take 4) := by
      generalize ((array m f.arr).drop f.off).take 4 = fb at hl4
      unfold sliceTo
      simp [hl4, List.take_of_length_le]
    simp only [e4, goCopy, e5, Option.map_some]
    generalize ((array m f.arr).drop f.off).take 4 = fb at hl4 e5 e6
    simp only [List.take_of_length_le (Nat.le_of_eq hl4), write_new, Bin.storeWire, Bin.storeExtra, MItem.flat,
      e6, Bin.storeHdr, hlen, hvb]
    have : Slice.bytes (m ++ [splice ([0, 0, 0, 0] ++ putBE 4 (toUnsigned 32 it.expiration)) 0 fb])
        { arr := m.length, off := 0, len := 8, cap := 8 } = fb ++ putBE 4 (toUnsigned 32 it.expiration) := by
      unfold Slice.bytes splice
      dsimp only
      rw [array_new, List.drop_zero, hl4]
      simp only [List.take_zero, List.nil_append, Nat.zero_add]
      exact List.take_of_length_le (by simp [putBE4_length]; omega)
    rw [this]
    rfl

/-- C29, the consequence: two values next to each other in one buffer.  Setting the first item
over the text protocol destroys the beginning of the second value, which is then stored wrongly. -/
theorem C29_neighbour (grow1 grow2 : Nat) (v1 v2 : Bytes) (k1 k2 : Bytes) (h2 : 2 ≤ v2.length) :
    let m : Memory := [v1 ++ v2]
    let i1 : MItem := { key := k1, value := { arr := 0, off := 0, len := v1.length, cap := v1.length + v2.length } }
    let i2 : MItem := { key := k2, value := { arr := 0, off := v1.length, len := v2.length, cap := v2.length } }
    (textSet grow1 m i1).2 = (Text.set { key := k1, value := v1 }).wire
      ∧ (textSet grow2 (textSet grow1 m i1).1 i2).2
        = (Text.set { key := k2, value := [13, 10] ++ v2.drop 2 }).wire := by
  intro m i1 i2
  have hv1 : i1.Valid m := ⟨⟨by simp [i1], by simp [i1, m, array]⟩, by simp [i1]⟩
  obtain ⟨hl, ha, _⟩ := (C29_text_set grow1 m i1 hv1).1 (by simp [i1]; omega)
  have ha' : array (textSet grow1 m i1).1 0 = v1 ++ ([13, 10] ++ v2.drop 2) := by
    rw [show (0 : Nat) = i1.value.arr from rfl, ha]
    simp [i1, m, array, List.drop_append]
  have hv2 : i2.Valid (textSet grow1 m i1).1 :=
    ⟨⟨by simp [i2], by rw [show i2.value.arr = 0 from rfl, ha']; simp [i2]; omega⟩, by simp [i2]⟩
  refine ⟨?_, ?_⟩
  · rw [C29_text_set_sends grow1 m i1 hv1]
    simp [MItem.flat, i1, m, Slice.bytes, array]
  · rw [C29_text_set_sends grow2 _ i2 hv2]
    congr 2
    unfold MItem.flat
    have : i2.value.bytes (textSet grow1 m i1).1 = [13, 10] ++ v2.drop 2 := by
      unfold Slice.bytes
      rw [show i2.value.arr = 0 from rfl, ha', show i2.value.off = v1.length from rfl, List.drop_left]
      exact List.take_of_length_le (by simp [i2]; omega)
    rw [this]
    rfl

/-- A value with spare capacity, as from `make([]byte, 3, 8)`. -/
example : MItem.Valid [[97, 98, 99, 1, 2, 3, 4, 5]]
    { key := b!"k", value := { arr := 0, off := 0, len := 3, cap := 8 } } :=
  ⟨⟨by decide, by decide⟩, by simp⟩

end Props
end Verif
