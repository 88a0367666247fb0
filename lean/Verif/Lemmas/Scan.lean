import Verif.Go.Fscanf
import Verif.Go.Lemmas
import Verif.Spec.Wire
/-! Helper lemmas: `fmt.Fscanf` on a well-formed VALUE line. -/

namespace Verif
namespace Scan

theorem toNat_ofNat_lt {n : Nat} (h : n < 256) : (UInt8.ofNat n).toNat = n := by
  simp [UInt8.toNat_ofNat']; omega

theorem decode_encode (r : Nat) (h : Spec.Scalar r) (t : Bytes) :
    ∃ b bs, encodeRune r = b :: bs ∧ decodeRune b (bs ++ t) = (r, bs.length + 1) := by
  unfold Spec.Scalar at h
  unfold encodeRune
  by_cases h1 : r < 0x80
  · refine ⟨_, _, if_pos h1, ?_⟩
    have : (UInt8.ofNat r).toNat = r := toNat_ofNat_lt (by omega)
    simp [decodeRune, this, h1]
  by_cases h2 : r < 0x800
  · rw [if_neg h1, if_pos h2]
    refine ⟨_, _, rfl, ?_⟩
    have e0 : (UInt8.ofNat (0xC0 + r / 64)).toNat = 0xC0 + r / 64 := toNat_ofNat_lt (by omega)
    have e1 : (UInt8.ofNat (0x80 + r % 64)).toNat = 0x80 + r % 64 := toNat_ofNat_lt (by omega)
    have g0 : ¬ (0xC0 + r / 64 < 0x80) := by omega
    have g1 : 0xC2 ≤ 0xC0 + r / 64 ∧ 0xC0 + r / 64 ≤ 0xDF := by omega
    have g2 : 0x80 + r % 64 ≤ 0xBF := by omega
    simp only [decodeRune, e0, e1, inB, List.cons_append, List.nil_append]
    rw [if_neg g0, if_pos g1]
    simp [g2]
    omega
  by_cases h3 : r < 0x10000
  · rw [if_neg h1, if_neg h2, if_pos h3]
    refine ⟨_, _, rfl, ?_⟩
    have e0 : (UInt8.ofNat (0xE0 + r / 4096)).toNat = 0xE0 + r / 4096 := toNat_ofNat_lt (by omega)
    have e1 : (UInt8.ofNat (0x80 + r / 64 % 64)).toNat = 0x80 + r / 64 % 64 := toNat_ofNat_lt (by omega)
    have e2 : (UInt8.ofNat (0x80 + r % 64)).toNat = 0x80 + r % 64 := toNat_ofNat_lt (by omega)
    simp only [decodeRune, e0, e1, e2, inB, List.cons_append, List.nil_append]
    rw [if_neg (by omega), if_neg (by omega), if_pos (by omega), if_pos]
    · simp; omega
    · simp only [Bool.and_eq_true, decide_eq_true_eq]
      refine ⟨⟨?_, ?_⟩, ?_, ?_⟩
      · split <;> omega
      · split <;> omega
      · omega
      · omega
  · rw [if_neg h1, if_neg h2, if_neg h3]
    refine ⟨_, _, rfl, ?_⟩
    have e0 : (UInt8.ofNat (0xF0 + r / 262144)).toNat = 0xF0 + r / 262144 := toNat_ofNat_lt (by omega)
    have e1 : (UInt8.ofNat (0x80 + r / 4096 % 64)).toNat = 0x80 + r / 4096 % 64 := toNat_ofNat_lt (by omega)
    have e2 : (UInt8.ofNat (0x80 + r / 64 % 64)).toNat = 0x80 + r / 64 % 64 := toNat_ofNat_lt (by omega)
    have e3 : (UInt8.ofNat (0x80 + r % 64)).toNat = 0x80 + r % 64 := toNat_ofNat_lt (by omega)
    simp only [decodeRune, e0, e1, e2, e3, inB, List.cons_append, List.nil_append]
    rw [if_neg (by omega), if_neg (by omega), if_neg (by omega), if_pos (by omega), if_pos]
    · simp; omega
    · simp only [Bool.and_eq_true, decide_eq_true_eq]
      refine ⟨⟨⟨?_, ?_⟩, ?_, ?_⟩, ?_, ?_⟩
      · split <;> omega
      · split <;> omega
      all_goals omega

theorem decodeRunes_rune (r : Nat) (h : Spec.Scalar r) (t : Bytes) :
    decodeRunes (encodeRune r ++ t) = r :: decodeRunes t := by
  obtain ⟨b, bs, he, hd⟩ := decode_encode r h t
  rw [he, List.cons_append, decodeRunes, hd]
  simp

theorem decodeRunes_runes (rs : List Nat) (h : ∀ r ∈ rs, Spec.Scalar r) (t : Bytes) :
    decodeRunes (rs.flatMap encodeRune ++ t) = rs ++ decodeRunes t := by
  induction rs with
  | nil => simp
  | cons r rs ih =>
    rw [List.flatMap_cons, List.append_assoc, decodeRunes_rune r (h r (by simp)),
      ih (fun x hx => h x (by simp [hx]))]
    rfl

theorem decodeRunes_ascii (b : UInt8) (h : b.toNat < 0x80) (t : Bytes) :
    decodeRunes (b :: t) = b.toNat :: decodeRunes t := by
  have : decodeRune b t = (b.toNat, 1) := by simp [decodeRune, h]
  rw [decodeRunes, this]
  simp

theorem decodeRunes_asciis (s : Bytes) (h : ∀ b ∈ s, b.toNat < 0x80) (t : Bytes) :
    decodeRunes (s ++ t) = s.map UInt8.toNat ++ decodeRunes t := by
  induction s with
  | nil => simp
  | cons b s ih =>
    rw [List.cons_append, decodeRunes_ascii b (h b (by simp)), ih (fun x hx => h x (by simp [hx]))]
    rfl

theorem takeRun_append (p : Nat → Bool) (xs : List Nat) (y : Nat) (ys : List Nat)
    (h : ∀ x ∈ xs, p x = true) (hy : p y = false) : takeRun p (xs ++ y :: ys) = (xs, y :: ys) := by
  induction xs with
  | nil => simp [takeRun, hy]
  | cons x xs ih =>
    simp [takeRun, h x (by simp), ih (fun z hz => h z (by simp [hz]))]

theorem skipSpace_head (r : Nat) (rs : List Nat) (h : isSpace r = false) :
    skipSpace (r :: rs) = some (r :: rs) := by
  have : r ≠ 10 := by rintro rfl; simp [isSpace] at h
  simp [skipSpace, this, h]

theorem fmtSpace_head (r : Nat) (rs : List Nat) (h : isSpace r = false) :
    fmtSpace (32 :: r :: rs) = some (r :: rs) := by
  simp [fmtSpace, dropSp, h, show isSpace 32 = true from by decide]

theorem map_ofNat_toNat (s : Bytes) : (s.map UInt8.toNat).map UInt8.ofNat = s := by
  induction s with
  | nil => rfl
  | cons b s ih => simp [ih]

theorem digit_notSpace {b : UInt8} (h : isDigit b = true) :
    isSpace b.toNat = false ∧ b.toNat < 0x80 ∧ isDec b.toNat = true ∧ b.toNat ≠ 43 ∧ b.toNat ≠ 45 := by
  rw [isDigit_iff] at h
  obtain ⟨h1, h2⟩ := h
  refine ⟨?_, by omega, ?_, by omega, by omega⟩
  · simp only [isSpace, Bool.or_eq_false_iff, Bool.and_eq_false_iff, decide_eq_false_iff_not, beq_eq_false_iff_ne, ne_eq]
    omega
  · simp [isDec]; omega

theorem scanUint_natDec (n bits : Nat) (h : n < 2 ^ 64) (hb : n < 2 ^ bits) (y : Nat) (ys : List Nat)
    (hy : isDec y = false) :
    scanUint bits ((natDec n).map UInt8.toNat ++ y :: ys) = some (n, y :: ys) := by
  obtain ⟨b, r, hd, hdig⟩ := natDec_head n
  have hh := skipSpace_head b.toNat (r.map UInt8.toNat ++ y :: ys) (digit_notSpace hdig).1
  have ht := takeRun_append isDec ((natDec n).map UInt8.toNat) y ys
    (by
      intro x hx
      obtain ⟨c, hc, rfl⟩ := List.mem_map.1 hx
      exact (digit_notSpace (natDec_digits n c hc)).2.2.1) hy
  unfold scanUint
  rw [hd] at ht ⊢
  simp only [List.map_cons, List.cons_append] at ht ⊢
  rw [hh]
  simp only [ht]
  have e : (b.toNat :: List.map UInt8.toNat r).map UInt8.ofNat = natDec n := by
    rw [hd]; have := map_ofNat_toNat (b :: r); simpa using this
  rw [e, parseUint_natDec n 64 h]
  simp [hb]

theorem scanInt_natDec (n : Nat) (h : n < 2 ^ 63) (y : Nat) (ys : List Nat)
    (hy : isDec y = false) :
    scanInt ((natDec n).map UInt8.toNat ++ y :: ys) = some ((n : Int), y :: ys) := by
  obtain ⟨b, r, hd, hdig⟩ := natDec_head n
  have hdd := digit_notSpace hdig
  have hh := skipSpace_head b.toNat (r.map UInt8.toNat ++ y :: ys) hdd.1
  have ht := takeRun_append isDec ((natDec n).map UInt8.toNat) y ys
    (by
      intro x hx
      obtain ⟨c, hc, rfl⟩ := List.mem_map.1 hx
      exact (digit_notSpace (natDec_digits n c hc)).2.2.1) hy
  unfold scanInt
  rw [hd] at ht ⊢
  simp only [List.map_cons, List.cons_append] at ht ⊢
  rw [hh]
  have hs : ¬ (b.toNat = 43 ∨ b.toNat = 45) := by simp [hdd.2.2.2.1, hdd.2.2.2.2]
  simp only [hs, if_false, ht, List.nil_append]
  have e : (b.toNat :: List.map UInt8.toNat r).map UInt8.ofNat = natDec n := by
    rw [hd]; have := map_ofNat_toNat (b :: r); simpa using this
  rw [e, parseInt_natDec n 64 h (by omega)]
  simp

theorem scanStr_runes (rs : List Nat) (hne : rs ≠ []) (hs : ∀ r ∈ rs, isSpace r = false)
    (y : Nat) (ys : List Nat) (hy : isSpace y = true) :
    scanStr (rs ++ y :: ys) = some (rs.flatMap encodeRune, y :: ys) := by
  have ht := takeRun_append (fun r => !isSpace r) rs y ys
    (by intro x hx; simp [hs x hx]) (by simp [hy])
  cases rs with
  | nil => exact absurd rfl hne
  | cons r rs =>
    unfold scanStr
    rw [List.cons_append] at ht ⊢
    rw [skipSpace_head r _ (hs r (by simp))]
    simp only [ht]

theorem decode_natDec (n : Nat) (t : Bytes) :
    decodeRunes (natDec n ++ t) = (natDec n).map UInt8.toNat ++ decodeRunes t :=
  decodeRunes_asciis _ (fun b hb => (digit_notSpace (natDec_digits n b hb)).2.1) t

theorem fmtSpace_natDec (n : Nat) (t : List Nat) :
    fmtSpace (32 :: ((natDec n).map UInt8.toNat ++ t)) = some ((natDec n).map UInt8.toNat ++ t) := by
  obtain ⟨b, r, hd, hdig⟩ := natDec_head n
  rw [hd]
  exact fmtSpace_head _ _ (digit_notSpace hdig).1

theorem fmtSpace_runes (rs : List Nat) (hne : rs ≠ []) (hs : ∀ r ∈ rs, isSpace r = false)
    (t : List Nat) : fmtSpace (32 :: (rs ++ t)) = some (rs ++ t) := by
  cases rs with
  | nil => exact absurd rfl hne
  | cons r rs => exact fmtSpace_head _ _ (hs r (by simp))

/-- The line without cas. -/
theorem scanValue_noCas (key : Bytes) (hk : Spec.TextKey key) (flags size : Nat)
    (hf : flags < 2 ^ 32) (hs : size < 2 ^ 63) (rest : Bytes) :
    scanValue false (b!"VALUE " ++ key ++ 32 :: natDec flags ++ 32 :: natDec size ++ 13 :: rest)
      = some (key, flags, (size : Int), 0) := by
  obtain ⟨rs, hne, rfl, hsc, hsp⟩ := hk
  have e : b!"VALUE " ++ rs.flatMap encodeRune ++ 32 :: natDec flags ++ 32 :: natDec size ++ 13 :: rest
      = b!"VALUE " ++ (rs.flatMap encodeRune ++ ([32] ++ (natDec flags ++ ([32] ++ (natDec size ++ ([13] ++ rest)))))) := by
    simp
  rw [e]
  unfold scanValue
  rw [decodeRunes_asciis b!"VALUE " (by decide), decodeRunes_runes rs hsc,
    decodeRunes_asciis [32] (by decide), decode_natDec, decodeRunes_asciis [32] (by decide),
    decode_natDec, decodeRunes_asciis [13] (by decide)]
  have h64 : flags < 2 ^ 64 := Nat.lt_of_lt_of_le hf (by decide)
  simp only [List.map_cons, List.map_nil, List.cons_append, List.nil_append]
  simp only [show fmtLit [86, 65, 76, 85, 69] (UInt8.toNat 86 :: UInt8.toNat 65 :: UInt8.toNat 76 ::
      UInt8.toNat 85 :: UInt8.toNat 69 :: UInt8.toNat 32 :: (rs ++ UInt8.toNat 32 :: ((natDec flags).map UInt8.toNat
      ++ UInt8.toNat 32 :: ((natDec size).map UInt8.toNat ++ UInt8.toNat 13 :: decodeRunes rest)))) = some (32 :: (rs ++ 32 :: ((natDec flags).map UInt8.toNat
      ++ 32 :: ((natDec size).map UInt8.toNat ++ 13 :: decodeRunes rest)))) from rfl]
  simp only [Option.bind_eq_bind, Option.bind_some]
  rw [fmtSpace_runes rs hne hsp]
  simp only [Option.bind_some]
  rw [scanStr_runes rs hne hsp _ _ (by decide)]
  simp only [Option.bind_some]
  rw [fmtSpace_natDec]
  simp only [Option.bind_some]
  rw [scanUint_natDec flags 32 h64 hf _ _ (by decide)]
  simp only [Option.bind_some]
  rw [fmtSpace_natDec]
  simp only [Option.bind_some]
  rw [scanInt_natDec size hs _ _ (by decide)]
  rfl

/-- The line with cas. -/
theorem scanValue_cas (key : Bytes) (hk : Spec.TextKey key) (flags size cas : Nat)
    (hf : flags < 2 ^ 32) (hs : size < 2 ^ 63) (hc : cas < 2 ^ 64) (rest : Bytes) :
    scanValue true (b!"VALUE " ++ key ++ 32 :: natDec flags ++ 32 :: natDec size ++ 32 :: natDec cas ++ 13 :: rest)
      = some (key, flags, (size : Int), cas) := by
  obtain ⟨rs, hne, rfl, hsc, hsp⟩ := hk
  have e : b!"VALUE " ++ rs.flatMap encodeRune ++ 32 :: natDec flags ++ 32 :: natDec size ++ 32 :: natDec cas ++ 13 :: rest
      = b!"VALUE " ++ (rs.flatMap encodeRune ++ ([32] ++ (natDec flags ++ ([32] ++ (natDec size ++ ([32] ++ (natDec cas ++ ([13] ++ rest)))))))) := by
    simp
  rw [e]
  unfold scanValue
  rw [decodeRunes_asciis b!"VALUE " (by decide), decodeRunes_runes rs hsc,
    decodeRunes_asciis [32] (by decide), decode_natDec, decodeRunes_asciis [32] (by decide),
    decode_natDec, decodeRunes_asciis [32] (by decide), decode_natDec, decodeRunes_asciis [13] (by decide)]
  have h64 : flags < 2 ^ 64 := Nat.lt_of_lt_of_le hf (by decide)
  simp only [List.map_cons, List.map_nil, List.cons_append, List.nil_append]
  simp only [show fmtLit [86, 65, 76, 85, 69] (UInt8.toNat 86 :: UInt8.toNat 65 :: UInt8.toNat 76 ::
      UInt8.toNat 85 :: UInt8.toNat 69 :: UInt8.toNat 32 :: (rs ++ UInt8.toNat 32 :: ((natDec flags).map UInt8.toNat
      ++ UInt8.toNat 32 :: ((natDec size).map UInt8.toNat ++ UInt8.toNat 32 :: ((natDec cas).map UInt8.toNat ++ UInt8.toNat 13 :: decodeRunes rest)))))
      = some (32 :: (rs ++ 32 :: ((natDec flags).map UInt8.toNat
      ++ 32 :: ((natDec size).map UInt8.toNat ++ 32 :: ((natDec cas).map UInt8.toNat ++ 13 :: decodeRunes rest))))) from rfl]
  simp only [Option.bind_eq_bind, Option.bind_some]
  rw [fmtSpace_runes rs hne hsp]
  simp only [Option.bind_some]
  rw [scanStr_runes rs hne hsp _ _ (by decide)]
  simp only [Option.bind_some]
  rw [fmtSpace_natDec]
  simp only [Option.bind_some]
  rw [scanUint_natDec flags 32 h64 hf _ _ (by decide)]
  simp only [Option.bind_some]
  rw [fmtSpace_natDec]
  simp only [Option.bind_some]
  rw [scanInt_natDec size hs _ _ (by decide)]
  simp only [Option.bind_some, if_true]
  rw [fmtSpace_natDec]
  simp only [Option.bind_some]
  rw [scanUint_natDec cas 64 hc hc _ _ (by decide)]
  rfl

end Scan
end Verif
