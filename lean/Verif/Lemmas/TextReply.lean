import Verif.Lemmas.Scan
import Verif.Lemmas.Ascii
import Verif.Client.Text
/-! Helper lemmas: the text client reading VALUE blocks. -/

namespace Verif
open Spec

theorem encodeRune_bytes (r : Nat) (hsc : Scalar r) (hs : Scan.isSpace r = false) :
    ∀ b ∈ Scan.encodeRune r, b ≠ 32 ∧ b ≠ 10 ∧ b ≠ 13 := by
  have hi : ∀ n : Nat, 0x80 ≤ n → n < 256 →
      UInt8.ofNat n ≠ 32 ∧ UInt8.ofNat n ≠ 10 ∧ UInt8.ofNat n ≠ 13 := by
    intro n h1 h2
    refine ⟨?_, ?_, ?_⟩ <;>
    · intro h
      have := congrArg UInt8.toNat h
      rw [Scan.toNat_ofNat_lt h2] at this
      simp at this
      omega
  intro b hb
  unfold Scalar at hsc
  have hr : r < 0x80 ∨ 0x80 ≤ r := by omega
  rcases hr with hr | hr
  · unfold Scan.encodeRune at hb
    rw [if_pos hr] at hb
    simp only [List.mem_singleton] at hb
    subst hb
    refine ⟨?_, ?_, ?_⟩ <;>
    · intro h
      have := congrArg UInt8.toNat h
      rw [Scan.toNat_ofNat_lt (by omega)] at this
      simp at this
      subst this
      simp [Scan.isSpace] at hs
  · -- every byte of a multi-byte encoding has the top bit set
    have h' : 0x80 ≤ b.toNat := by
      unfold Scan.encodeRune at hb
      rw [if_neg (by omega)] at hb
      have e : ∀ n : Nat, (UInt8.ofNat n).toNat = n % 256 := by intro n; simp
      split at hb
      · simp only [List.mem_cons, List.not_mem_nil, or_false] at hb
        rcases hb with rfl | rfl <;> rw [e] <;> omega
      · split at hb
        · simp only [List.mem_cons, List.not_mem_nil, or_false] at hb
          rcases hb with rfl | rfl | rfl <;> rw [e] <;> omega
        · simp only [List.mem_cons, List.not_mem_nil, or_false] at hb
          rcases hb with rfl | rfl | rfl | rfl <;> rw [e] <;> omega
    refine ⟨?_, ?_, ?_⟩ <;> rintro rfl <;> simp at h'

theorem Spec.TextKey.mem {k : Bytes} (h : TextKey k) : ∀ b ∈ k, b ≠ 32 ∧ b ≠ 10 ∧ b ≠ 13 := by
  obtain ⟨rs, _, rfl, hsc, hsp⟩ := h
  intro b hb
  obtain ⟨r, hr, hb'⟩ := List.mem_flatMap.1 hb
  exact encodeRune_bytes r (hsc r hr) (hsp r hr) b hb'

theorem Spec.TextKey.plain {k : Bytes} (h : TextKey k) : Plain k :=
  ⟨fun hb => (h.mem _ hb).1 rfl, fun hb => (h.mem _ hb).2.1 rfl⟩

/-- Printable ASCII keys are text keys. -/
theorem Spec.Graphic.textKey {k : Bytes} (h : Graphic k) : TextKey k := by
  obtain ⟨hne, hb⟩ := h
  refine ⟨k.map UInt8.toNat, by simpa using hne, ?_, ?_, ?_⟩
  · clear hne
    induction k with
    | nil => rfl
    | cons b k ih =>
      have := hb b (by simp)
      rw [List.map_cons, List.flatMap_cons, ← ih (fun x hx => hb x (by simp [hx]))]
      have h2 : b.toNat < 0x80 := by omega
      simp [Scan.encodeRune, h2]
  · intro r hr
    obtain ⟨b, hb', rfl⟩ := List.mem_map.1 hr
    have := hb b hb'
    left; omega
  · intro r hr
    obtain ⟨b, hb', rfl⟩ := List.mem_map.1 hr
    have := hb b hb'
    simp only [Scan.isSpace, Bool.or_eq_false_iff, Bool.and_eq_false_iff, decide_eq_false_iff_not,
      beq_eq_false_iff_ne, ne_eq]
    omega

theorem count_noMem {b : UInt8} {s : Bytes} (h : b ∉ s) : s.count b = 0 := List.count_eq_zero.2 h

theorem pow63_alloc {n : Nat} (h : n + 2 ≤ maxAlloc) : n < 2 ^ 63 := by
  have : maxAlloc = 281474976710656 := by unfold maxAlloc; decide
  rw [this] at h
  have : (2 : Nat) ^ 63 = 9223372036854775808 := by decide
  omega

theorem casPart_no10 (cas : Option Nat) : (10 : UInt8) ∉ casPart cas := by
  cases cas with
  | none => simp [casPart]
  | some c => simp [casPart, natDec_no10]

theorem casPart_length (cas : Option Nat) (h : ∀ c, cas = some c → c < 2 ^ 64) :
    (casPart cas).length ≤ 21 := by
  cases cas with
  | none => simp [casPart]
  | some c => have := natDec_length64 c (h c rfl); simp [casPart]; omega

/-- The line of a VALUE block is read as a line. -/
theorem readSlice_valueLine (key : Bytes) (hk : (10 : UInt8) ∉ key) (hl : key.length ≤ 4000)
    (flags size : Nat) (hf : flags < 2 ^ 32) (hs : size < 2 ^ 63) (cas : Option Nat)
    (hc : ∀ c, cas = some c → c < 2 ^ 64) (rest : Bytes) :
    readSlice (valueLine key flags size cas ++ rest) = (.ok (valueLine key flags size cas), rest) := by
  have h1 : (10 : UInt8) ∉ b!"VALUE " ++ key ++ 32 :: natDec flags ++ 32 :: natDec size
      ++ casPart cas ++ [13] := by
    simp [hk, natDec_no10, casPart_no10]
  have l1 := natDec_length64 flags (Nat.lt_of_lt_of_le hf (by decide))
  have l2 := natDec_length64 size (Nat.lt_of_lt_of_le hs (by decide))
  have l3 := casPart_length cas hc
  have := readSlice_line _ rest h1 (by simp; omega)
  simpa [valueLine, crlf] using this

/-- Reading the data block. -/
theorem readData (v rest : Bytes) (hv : v.length + 2 ≤ maxAlloc) :
    readN ((v.length : Int) + 2) (v ++ crlf ++ rest) = (.ok (v ++ crlf), rest) :=
  readN_append _ (v ++ crlf) rest (by simp [crlf]) (by simpa [crlf] using hv)

theorem readSlice_end (rest : Bytes) :
    readSlice (b!"END\r\n" ++ rest) = (.ok b!"END\r\n", rest) :=
  readSlice_line b!"END\r" rest (by decide) (by decide)

theorem valueLine_count (key : Bytes) (hk : (32 : UInt8) ∉ key) (flags size : Nat)
    (cas : Option Nat) :
    (valueLine key flags size cas).count 32 = if cas = none then 3 else 4 := by
  have e1 : (b!"VALUE " : Bytes).count 32 = 1 := by decide
  have e2 : crlf.count 32 = 0 := by decide
  cases cas with
  | none =>
    simp [valueLine, casPart, List.count_append, e1, e2, count_noMem hk, count_noMem (natDec_no32 _), List.count_cons]
  | some c =>
    simp [valueLine, casPart, List.count_append, e1, e2, count_noMem hk, count_noMem (natDec_no32 _), List.count_cons]

theorem scanValue_line (key : Bytes) (hk : TextKey key) (flags size : Nat) (hf : flags < 2 ^ 32)
    (hs : size < 2 ^ 63) (cas : Option Nat) (hc : ∀ c, cas = some c → c < 2 ^ 64) :
    Scan.scanValue ((valueLine key flags size cas).count 32 != 3) (valueLine key flags size cas)
      = some (key, flags, (size : Int), cas.getD 0) := by
  rw [valueLine_count key hk.plain.1]
  cases cas with
  | none =>
    have := Scan.scanValue_noCas key hk flags size hf hs [10]
    simpa [valueLine, casPart, crlf] using this
  | some c =>
    have := Scan.scanValue_cas key hk flags size c hf hs (hc c rfl) [10]
    simpa [valueLine, casPart, crlf] using this

theorem valueLine_ne_end (key : Bytes) (flags size : Nat) (cas : Option Nat) :
    valueLine key flags size cas ≠ Text.msgEnd := by
  intro h
  have := congrArg List.head? h
  simp [valueLine, Text.msgEnd] at this

theorem valueLine_prefix (key : Bytes) (flags size : Nat) (cas : Option Nat) :
    hasPrefix (valueLine key flags size cas) b!"VALUE" = true := by
  rw [hasPrefix_iff]
  exact ⟨32 :: (key ++ 32 :: natDec flags ++ 32 :: natDec size ++ casPart cas ++ crlf),
    by simp [valueLine]⟩

/-- The text client's `Get` on a hit. -/
theorem text_getReply_hit (name : Bytes) (b : Block) (hk : TextKey b.key)
    (hl : b.key.length ≤ 4000) (hf : b.flags < 2 ^ 32) (hv : b.value.length + 2 ≤ maxAlloc)
    (hc : ∀ c, b.cas = some c → c < 2 ^ 64) (rest : Bytes) :
    Text.getReply name (valueBlock b ++ b!"END\r\n" ++ rest)
      = (.ok { key := b.key, value := b.value, flags := some (putBE 4 b.flags),
               cas := b.cas.getD 0, server := name }, rest) := by
  have hs := pow63_alloc hv
  unfold Text.getReply
  have e : valueBlock b ++ b!"END\r\n" ++ rest
      = valueLine b.key b.flags b.value.length b.cas ++ (b.value ++ crlf ++ (b!"END\r\n" ++ rest)) := by
    simp [valueBlock]
  rw [e, Rd.bind_of_ok (readSlice_valueLine _ hk.plain.2 hl _ _ hf hs _ hc _)]
  rw [if_neg (valueLine_ne_end _ _ _ _), if_neg (by rw [valueLine_prefix]; simp)]
  rw [scanValue_line _ hk _ _ hf hs _ hc]
  dsimp only
  rw [Rd.bind_of_ok (readData _ _ hv)]
  have h5 := sliceTo_append b.value crlf
  rw [h5, Rd.bind_of_ok (Rd.lift_apply _ _), Rd.bind_of_ok (readSlice_end rest)]
  rfl

theorem text_getReply_miss (name : Bytes) (rest : Bytes) :
    Text.getReply name (b!"END\r\n" ++ rest) = (.err .itemNotFound, rest) := by
  unfold Text.getReply
  rw [Rd.bind_of_ok (readSlice_end rest)]
  rfl

/-- One block of `GetMulti`. -/
theorem text_parseBlock (b : Block) (hk : Plain b.key) (hf : b.flags < 2 ^ 32)
    (hv : b.value.length + 2 ≤ maxAlloc) (rest : Bytes) :
    Text.parseBlock (valueLine b.key b.flags b.value.length b.cas) (b.value ++ crlf ++ rest)
      = (.ok { key := b.key, value := b.value, flags := some (putBE 4 b.flags) }, rest) := by
  have hs := pow63_alloc hv
  have hf63 : b.flags < 2 ^ 63 := Nat.lt_trans hf (by decide)
  have hmk : makeLen ((b.value.length : Int) + 2) = .ok (b.value.length + 2) := by
    unfold makeLen
    rw [if_pos ⟨by omega, by exact_mod_cast hv⟩]
    congr 1
  have hrd : readFull (b.value.length + 2) (b.value ++ crlf ++ rest) = (.ok (b.value ++ crlf), rest) :=
    readFull_append' _ (b.value ++ crlf) rest (by simp [crlf])
  have hsl := sliceTo_append b.value crlf
  have hu : putBE 4 (toUnsigned 32 (b.flags : Int)) = putBE 4 b.flags := by
    rw [toUnsigned_of_nonneg 32 _ (by omega) (by exact_mod_cast hf)]; rfl
  have hpf := parseInt_natDec b.flags 64 hf63 (by omega)
  have hps := parseInt_natDec b.value.length 64 hs (by omega)
  cases hcas : b.cas with
  | none =>
    have hsp : splitSp (valueLine b.key b.flags b.value.length none)
        = [b!"VALUE", b.key, natDec b.flags, natDec b.value.length ++ crlf] := by
      have e : valueLine b.key b.flags b.value.length none
          = joinSp [b!"VALUE", b.key, natDec b.flags, natDec b.value.length ++ crlf] := by
        simp [valueLine, joinSp, casPart]
      rw [e, splitSp_joinSp _ (by simp)]
      simp only [List.forall_mem_cons]
      refine ⟨by decide, hk.1, natDec_no32 _, ?_, by simp⟩
      simp [natDec_no32, crlf]
    have hst : sliceTo (natDec b.value.length ++ crlf) (((natDec b.value.length ++ crlf).length : Int) - 2)
        = .ok (natDec b.value.length) := by
      have := sliceTo_append (natDec b.value.length) crlf
      have e : (((natDec b.value.length ++ crlf).length : Int) - 2) = ((natDec b.value.length).length : Int) := by
        simp [crlf]
      rw [e]; exact this
    unfold Text.parseBlock
    simp only [hsp, List.head?_cons]
    rw [if_neg (by simp)]
    have i2 : index [b!"VALUE", b.key, natDec b.flags, natDec b.value.length ++ crlf] 2
        = .ok (natDec b.flags) := rfl
    have i3 : index [b!"VALUE", b.key, natDec b.flags, natDec b.value.length ++ crlf] 3
        = .ok (natDec b.value.length ++ crlf) := rfl
    have i1 : index [b!"VALUE", b.key, natDec b.flags, natDec b.value.length ++ crlf] 1
        = .ok b.key := rfl
    rw [i2, Rd.bind_of_ok (Rd.lift_apply _ _), hpf, numRes, Rd.bind_of_ok (Rd.lift_apply _ _), i3,
      Rd.bind_of_ok (Rd.lift_apply _ _)]
    rw [if_pos (by rfl), hst, Rd.bind_of_ok (Rd.lift_apply _ _), hps, numRes,
      Rd.bind_of_ok (Rd.lift_apply _ _), hmk, Rd.bind_of_ok (Rd.lift_apply _ _), i1,
      Rd.bind_of_ok (Rd.lift_apply _ _), Rd.bind_of_ok hrd, hsl, hu]
    rfl
  | some c =>
    have hsp : splitSp (valueLine b.key b.flags b.value.length (some c))
        = [b!"VALUE", b.key, natDec b.flags, natDec b.value.length, natDec c ++ crlf] := by
      have e : valueLine b.key b.flags b.value.length (some c)
          = joinSp [b!"VALUE", b.key, natDec b.flags, natDec b.value.length, natDec c ++ crlf] := by
        simp [valueLine, joinSp, casPart]
      rw [e, splitSp_joinSp _ (by simp)]
      simp only [List.forall_mem_cons]
      refine ⟨by decide, hk.1, natDec_no32 _, natDec_no32 _, ?_, by simp⟩
      simp [natDec_no32, crlf]
    unfold Text.parseBlock
    simp only [hsp, List.head?_cons]
    rw [if_neg (by simp)]
    have i2 : index [b!"VALUE", b.key, natDec b.flags, natDec b.value.length, natDec c ++ crlf] 2
        = .ok (natDec b.flags) := rfl
    have i3 : index [b!"VALUE", b.key, natDec b.flags, natDec b.value.length, natDec c ++ crlf] 3
        = .ok (natDec b.value.length) := rfl
    have i1 : index [b!"VALUE", b.key, natDec b.flags, natDec b.value.length, natDec c ++ crlf] 1
        = .ok b.key := rfl
    rw [i2, Rd.bind_of_ok (Rd.lift_apply _ _), hpf, numRes, Rd.bind_of_ok (Rd.lift_apply _ _), i3,
      Rd.bind_of_ok (Rd.lift_apply _ _)]
    rw [if_neg (by simp), Rd.bind_of_ok (Rd.pure_apply _ _), hps, numRes,
      Rd.bind_of_ok (Rd.lift_apply _ _), hmk, Rd.bind_of_ok (Rd.lift_apply _ _), i1,
      Rd.bind_of_ok (Rd.lift_apply _ _), Rd.bind_of_ok hrd, hsl, hu]
    rfl

/-- The loop of `GetMulti` on a list of blocks. -/
theorem text_parseLoop (bs : List Block)
    (h : ∀ b ∈ bs, Plain b.key ∧ b.key.length ≤ 4000 ∧ b.flags < 2 ^ 32
      ∧ b.value.length + 2 ≤ maxAlloc ∧ ∀ c, b.cas = some c → c < 2 ^ 64)
    (acc : List Item) (n : Nat) (hn : bs.length < n) (rest : Bytes) :
    Text.parseLoop n acc (bs.flatMap valueBlock ++ b!"END\r\n" ++ rest)
      = (.ok (acc ++ bs.map (fun b => { key := b.key, value := b.value,
                                        flags := some (putBE 4 b.flags) })), rest) := by
  induction bs generalizing acc n with
  | nil =>
    cases n with
    | zero => simp at hn
    | succ n =>
      unfold Text.parseLoop
      simp only [List.flatMap_nil, List.nil_append, List.map_nil, List.append_nil]
      rw [Rd.bind_of_ok (readSlice_end rest)]
      rfl
  | cons b bs ih =>
    cases n with
    | zero => simp at hn
    | succ n =>
      obtain ⟨hk, hl, hf, hv, hc⟩ := h b (by simp)
      unfold Text.parseLoop
      have e : (b :: bs).flatMap valueBlock ++ b!"END\r\n" ++ rest
          = valueLine b.key b.flags b.value.length b.cas ++ (b.value ++ crlf ++
            (bs.flatMap valueBlock ++ b!"END\r\n" ++ rest)) := by
        simp [valueBlock]
      rw [e, Rd.bind_of_ok (readSlice_valueLine _ hk.2 hl _ _ hf (pow63_alloc hv) _ hc _)]
      rw [if_neg (valueLine_ne_end _ _ _ _), Rd.bind_of_ok (text_parseBlock b hk hf hv _)]
      rw [ih (fun x hx => h x (by simp [hx])) _ n (by simp at hn; omega)]
      simp

theorem valueBlock_length_pos (b : Block) : 0 < (valueBlock b).length := by
  simp [valueBlock, valueLine]

theorem flatMap_length_ge (bs : List Block) : bs.length ≤ (bs.flatMap valueBlock).length := by
  induction bs with
  | nil => simp
  | cons b bs ih => have := valueBlock_length_pos b; simp only [List.flatMap_cons, List.length_cons, List.length_append]; omega

theorem text_parseGetResponse (bs : List Block)
    (h : ∀ b ∈ bs, Plain b.key ∧ b.key.length ≤ 4000 ∧ b.flags < 2 ^ 32
      ∧ b.value.length + 2 ≤ maxAlloc ∧ ∀ c, b.cas = some c → c < 2 ^ 64) (rest : Bytes) :
    Text.parseGetResponse (bs.flatMap valueBlock ++ b!"END\r\n" ++ rest)
      = (.ok (bs.map (fun b => { key := b.key, value := b.value,
                                 flags := some (putBE 4 b.flags) })), rest) := by
  unfold Text.parseGetResponse
  have := flatMap_length_ge bs
  rw [text_parseLoop bs h [] _ (by simp only [List.length_append]; omega) rest]
  simp

end Verif
