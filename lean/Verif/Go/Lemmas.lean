import Verif.Go.Basic
/-! Helper lemmas about the Go library functions of `Go/Basic.lean`. -/

namespace Verif

/-! ### lines -/

theorem splitLine_append (l r : Bytes) (h : (10 : UInt8) ∉ l) :
    splitLine (l ++ 10 :: r) = some (l ++ [10], r) := by
  induction l with
  | nil => simp [splitLine]
  | cons b l ih =>
    simp only [List.mem_cons, not_or] at h
    have hb : b ≠ 10 := fun e => h.1 e.symm
    simp [splitLine, hb, ih h.2]

theorem splitLine_some {i l r : Bytes} (h : splitLine i = some (l, r)) :
    i = l ++ r ∧ ∃ p, l = p ++ [10] ∧ (10 : UInt8) ∉ p := by
  induction i generalizing l r with
  | nil => simp [splitLine] at h
  | cons b i ih =>
    by_cases hb : b = 10
    · simp [splitLine, hb] at h
      obtain ⟨rfl, rfl⟩ := h
      exact ⟨by simp [hb], [], by simp, by simp⟩
    · simp only [splitLine, hb, if_false] at h
      cases hs : splitLine i with
      | none => simp [hs] at h
      | some q =>
        obtain ⟨l', r'⟩ := q
        simp only [hs, Option.some.injEq, Prod.mk.injEq] at h
        obtain ⟨rfl, rfl⟩ := h
        obtain ⟨h1, p, h2, h3⟩ := ih hs
        refine ⟨by simp [h1], b :: p, by simp [h2], ?_⟩
        simp only [List.mem_cons, not_or]
        exact ⟨fun e => hb e.symm, h3⟩

theorem splitLine_none {i : Bytes} : splitLine i = none ↔ (10 : UInt8) ∉ i := by
  induction i with
  | nil => simp [splitLine]
  | cons b i ih =>
    by_cases hb : b = 10
    · simp [splitLine, hb]
    · have hb' : ¬ (10 : UInt8) = b := fun e => hb e.symm
      simp only [splitLine, hb, if_false, List.mem_cons, hb', false_or]
      rw [← ih]
      cases splitLine i <;> simp

/-- A line ends with LF and contains no other. -/
theorem readBytes_line (l r : Bytes) (h : (10 : UInt8) ∉ l) :
    readBytes (l ++ 10 :: r) = (.ok (l ++ [10]), r) := by
  simp [readBytes, splitLine_append l r h]

theorem readSlice_line (l r : Bytes) (h : (10 : UInt8) ∉ l) (hl : l.length < 4096) :
    readSlice (l ++ 10 :: r) = (.ok (l ++ [10]), r) := by
  have : l.length + 1 ≤ 4096 := hl
  simp [readSlice, splitLine_append l r h, bufSize, this]

theorem readFull_append (v r : Bytes) : readFull v.length (v ++ r) = (.ok v, r) := by
  simp [readFull]

theorem readFull_append' (n : Nat) (v r : Bytes) (h : v.length = n) :
    readFull n (v ++ r) = (.ok v, r) := by subst h; exact readFull_append v r

theorem readN_append (n : Int) (v r : Bytes) (h : (v.length : Int) = n) (hm : v.length ≤ maxAlloc) :
    readN n (v ++ r) = (.ok v, r) := by
  subst h
  have hm' : (v.length : Int) ≤ (maxAlloc : Int) := by exact_mod_cast hm
  simp [readN, Rd.bind_apply, makeLen, hm', readFull]

/-! ### splitting and joining -/

theorem splitSp_ne_nil (s : Bytes) : splitSp s ≠ [] := by
  cases s with
  | nil => simp [splitSp]
  | cons b r =>
    simp only [splitSp]
    split
    · simp
    · split <;> simp

theorem splitSp_noSp (s : Bytes) (h : (32 : UInt8) ∉ s) : splitSp s = [s] := by
  induction s with
  | nil => rfl
  | cons b r ih =>
    simp only [List.mem_cons, not_or] at h
    have hb : b ≠ 32 := fun e => h.1 e.symm
    simp [splitSp, hb, ih h.2]

theorem splitSp_append (s t : Bytes) (h : (32 : UInt8) ∉ s) :
    splitSp (s ++ 32 :: t) = s :: splitSp t := by
  induction s with
  | nil => simp [splitSp]
  | cons b r ih =>
    simp only [List.mem_cons, not_or] at h
    have hb : b ≠ 32 := fun e => h.1 e.symm
    simp [splitSp, hb, ih h.2]

theorem splitSp_joinSp (ks : List Bytes) (hne : ks ≠ []) (h : ∀ k ∈ ks, (32 : UInt8) ∉ k) :
    splitSp (joinSp ks) = ks := by
  induction ks with
  | nil => exact absurd rfl hne
  | cons k ks ih =>
    cases ks with
    | nil => simpa [joinSp] using splitSp_noSp k (h k (by simp))
    | cons k' ks' =>
      have := ih (by simp) (fun x hx => h x (List.mem_cons_of_mem _ hx))
      simp only [joinSp]
      rw [splitSp_append k _ (h k (by simp))]
      rw [this]

theorem joinSp_splitSp (s : Bytes) : joinSp (splitSp s) = s := by
  induction s with
  | nil => rfl
  | cons b r ih =>
    simp only [splitSp]
    split
    · rename_i hb
      subst hb
      cases h : splitSp r with
      | nil => exact absurd h (splitSp_ne_nil r)
      | cons x t => rw [h] at ih; simp [joinSp, ih]
    · cases h : splitSp r with
      | nil => exact absurd h (splitSp_ne_nil r)
      | cons x t =>
        rw [h] at ih
        cases t with
        | nil => simp only [joinSp] at ih ⊢; rw [ih]
        | cons y u => simp only [joinSp] at ih ⊢; rw [List.cons_append, ih]

theorem mem_joinSp {ks : List Bytes} {b : UInt8} (h : b ∈ joinSp ks) :
    b = 32 ∨ ∃ k ∈ ks, b ∈ k := by
  induction ks with
  | nil => simp [joinSp] at h
  | cons k ks ih =>
    cases ks with
    | nil => right; exact ⟨k, by simp, by simpa [joinSp] using h⟩
    | cons k' ks' =>
      simp only [joinSp, List.mem_append, List.mem_cons] at h
      rcases h with h | h | h
      · right; exact ⟨k, by simp, h⟩
      · left; exact h
      · rcases ih (by simpa [joinSp] using h) with h | ⟨x, hx, hb⟩
        · left; exact h
        · right; exact ⟨x, List.mem_cons_of_mem _ hx, hb⟩

theorem trimSuffix_append (s q : Bytes) : trimSuffix (s ++ q) q = s := by
  have : q.isSuffixOf (s ++ q) = true := by
    rw [List.isSuffixOf_iff_suffix]; exact List.suffix_append s q
  simp [trimSuffix, this]

theorem trimPrefix_append (p s : Bytes) : trimPrefix (p ++ s) p = s := by
  have : p.isPrefixOf (p ++ s) = true := by
    rw [List.isPrefixOf_iff_prefix]; exact List.prefix_append p s
  simp [trimPrefix, hasPrefix, this]

theorem hasPrefix_iff (s p : Bytes) : hasPrefix s p = true ↔ ∃ t, s = p ++ t := by
  rw [hasPrefix, List.isPrefixOf_iff_prefix]
  constructor
  · rintro ⟨t, ht⟩; exact ⟨t, ht.symm⟩
  · rintro ⟨t, ht⟩; exact ⟨t, ht.symm⟩

/-! ### decimal numbers -/

theorem isDigit_iff (b : UInt8) : isDigit b = true ↔ 48 ≤ b.toNat ∧ b.toNat ≤ 57 := by
  simp only [isDigit, Bool.and_eq_true, decide_eq_true_eq, UInt8.le_iff_toNat_le]
  exact Iff.rfl

theorem digit_toNat (d : Nat) (h : d < 10) : (UInt8.ofNat (48 + d)).toNat = 48 + d := by
  simp [UInt8.toNat_ofNat']; omega

theorem isDigit_digit (d : Nat) (h : d < 10) : isDigit (UInt8.ofNat (48 + d)) = true := by
  rw [isDigit_iff, digit_toNat d h]; omega

theorem natDec_digits (n : Nat) : ∀ b ∈ natDec n, isDigit b = true := by
  induction n using Nat.strongRecOn with
  | ind n ih =>
    unfold natDec
    split
    · rename_i h; intro b hb
      simp only [List.mem_singleton] at hb; subst hb; exact isDigit_digit n h
    · intro b hb
      simp only [List.mem_append, List.mem_singleton] at hb
      rcases hb with hb | hb
      · exact ih (n / 10) (by omega) b hb
      · subst hb; exact isDigit_digit _ (by omega)

theorem natDec_ne_nil (n : Nat) : natDec n ≠ [] := by
  unfold natDec; split <;> simp

theorem decVal_append (s t : Bytes) (a : Nat) :
    decVal (s ++ t) a = (decVal s a).bind (fun x => decVal t x) := by
  induction s generalizing a with
  | nil => simp [decVal]
  | cons b s ih =>
    simp only [List.cons_append, decVal]
    split
    · exact ih _
    · rfl

theorem decVal_natDec (n a : Nat) :
    decVal (natDec n) a = some (a * 10 ^ (natDec n).length + n) := by
  induction n using Nat.strongRecOn generalizing a with
  | ind n ih =>
    unfold natDec
    split
    · rename_i h
      simp only [decVal, isDigit_digit n h, if_true, digit_toNat n h, List.length_singleton, Nat.pow_one]
      congr 1; omega
    · rename_i h
      rw [decVal_append, ih (n / 10) (by omega)]
      have h1 := isDigit_digit (n % 10) (by omega)
      have h2 := digit_toNat (n % 10) (by omega)
      simp only [Option.bind_some, decVal, h1, if_true, h2, List.length_append, List.length_singleton,
        Nat.pow_succ]
      congr 1
      rw [Nat.add_mul, Nat.mul_assoc]
      omega

theorem parseUint_natDec (n bits : Nat) (h : n < 2 ^ bits) : parseUint (natDec n) bits = some n := by
  unfold parseUint
  cases hd : natDec n with
  | nil => exact absurd hd (natDec_ne_nil n)
  | cons b r =>
    simp only [← hd]
    rw [decVal_natDec]; simp [h]

theorem parseUint_natDec_ge (n bits : Nat) (h : 2 ^ bits ≤ n) : parseUint (natDec n) bits = none := by
  unfold parseUint
  cases hd : natDec n with
  | nil => rfl
  | cons b r =>
    simp only [← hd]
    rw [decVal_natDec]; simp; omega

theorem natDec_head (n : Nat) : ∃ b r, natDec n = b :: r ∧ isDigit b = true := by
  cases hd : natDec n with
  | nil => exact absurd hd (natDec_ne_nil n)
  | cons b r => exact ⟨b, r, rfl, natDec_digits n b (by simp [hd])⟩

theorem parseInt_natDec (n bits : Nat) (h : n < 2 ^ (bits - 1)) (hb : 0 < bits) :
    parseInt (natDec n) bits = some (n : Int) := by
  obtain ⟨b, r, hd, hdig⟩ := natDec_head n
  have h45 : b ≠ 45 := by rintro rfl; simp [isDigit] at hdig
  have h43 : b ≠ 43 := by rintro rfl; simp [isDigit] at hdig
  have hlt : n < 2 ^ bits := Nat.lt_of_lt_of_le h (Nat.pow_le_pow_right (by omega) (by omega))
  have := parseUint_natDec n bits hlt
  rw [hd] at this ⊢
  simp [parseInt, h45, h43, this, h]

theorem parseInt_natDec_ge (n bits : Nat) (h : 2 ^ (bits - 1) ≤ n) :
    parseInt (natDec n) bits = none := by
  obtain ⟨b, r, hd, hdig⟩ := natDec_head n
  have h45 : b ≠ 45 := by rintro rfl; simp [isDigit] at hdig
  have h43 : b ≠ 43 := by rintro rfl; simp [isDigit] at hdig
  by_cases hlt : n < 2 ^ bits
  · have := parseUint_natDec n bits hlt
    rw [hd] at this ⊢
    simp [parseInt, h45, h43, this]; omega
  · have := parseUint_natDec_ge n bits (by omega)
    rw [hd] at this ⊢
    simp [parseInt, h45, h43, this]

/-- Range of a signed integer of the given width. (Auxiliary, used in statements.) -/
def InRange (bits : Nat) (i : Int) : Prop := -(2 ^ (bits - 1) : Nat) ≤ i ∧ i < (2 ^ (bits - 1) : Nat)

instance (bits : Nat) (i : Int) : Decidable (InRange bits i) := by unfold InRange; infer_instance

theorem parseInt_intDec (i : Int) (bits : Nat) (h : InRange bits i) (hb : 0 < bits) :
    parseInt (intDec i) bits = some i := by
  obtain ⟨h1, h2⟩ := h
  unfold intDec
  split
  · rename_i hneg
    have e : i.natAbs ≤ 2 ^ (bits - 1) := by omega
    have hlt : i.natAbs < 2 ^ bits := by
      have : 2 ^ (bits - 1) < 2 ^ bits := Nat.pow_lt_pow_right (by omega) (by omega)
      omega
    simp [parseInt, parseUint_natDec _ _ hlt, e]
    omega
  · rename_i hnn
    have := parseInt_natDec i.toNat bits (by omega) hb
    rw [this]; congr 1; omega

theorem parseInt_intDec_out (i : Int) (bits : Nat) (h : ¬ InRange bits i) :
    parseInt (intDec i) bits = none := by
  unfold InRange at h
  unfold intDec
  split
  · rename_i hneg
    have e : ¬ i.natAbs ≤ 2 ^ (bits - 1) := by omega
    by_cases hlt : i.natAbs < 2 ^ bits
    · simp [parseInt, parseUint_natDec _ _ hlt]; omega
    · simp [parseInt, parseUint_natDec_ge _ _ (Nat.le_of_not_lt hlt)]
  · rename_i hnn
    exact parseInt_natDec_ge i.toNat bits (by omega)

theorem digit_not_sp {b : UInt8} (h : isDigit b = true) : b ≠ 32 ∧ b ≠ 13 ∧ b ≠ 10 := by
  rw [isDigit_iff] at h
  refine ⟨?_, ?_, ?_⟩ <;> rintro rfl <;> simp at h

theorem natDec_no (n : Nat) (b : UInt8) (h : isDigit b = false) : b ∉ natDec n := by
  intro hb
  have := natDec_digits n b hb
  simp [this] at h

theorem intDec_no (i : Int) (b : UInt8) (h : isDigit b = false) (h' : b ≠ 45) : b ∉ intDec i := by
  unfold intDec
  split
  · simp [h', natDec_no _ _ h]
  · exact natDec_no _ _ h

theorem natDec_length (n k : Nat) (hk : 0 < k) (h : n < 10 ^ k) : (natDec n).length ≤ k := by
  induction k generalizing n with
  | zero => omega
  | succ k ih =>
    unfold natDec
    split
    · simp
    · rename_i h10
      have hk : 0 < k := by
        rcases Nat.eq_zero_or_pos k with rfl | h'
        · simp at h; omega
        · exact h'
      have : n / 10 < 10 ^ k := by
        rw [Nat.pow_succ] at h; omega
      have := ih (n / 10) hk this
      simp; omega

theorem intDec_length (i : Int) (k : Nat) (hk : 0 < k) (h : i.natAbs < 10 ^ k) :
    (intDec i).length ≤ k + 1 := by
  unfold intDec
  split
  · simp; exact natDec_length _ _ hk h
  · have : i.toNat < 10 ^ k := by omega
    have := natDec_length _ _ hk this; omega

theorem natDec_length64 (n : Nat) (h : n < 2 ^ 64) : (natDec n).length ≤ 20 := by
  apply natDec_length _ _ (by omega)
  exact Nat.lt_of_lt_of_le h (by decide)

theorem intDec_length64 (i : Int) (h : InRange 64 i) : (intDec i).length ≤ 20 := by
  have := intDec_length i 19 (by omega) (by
    obtain ⟨h1, h2⟩ := h
    have : i.natAbs ≤ 2 ^ 63 := by omega
    exact Nat.lt_of_le_of_lt this (by decide))
  omega

/-! ### big endian -/

theorem putBE_length (k n : Nat) : (putBE k n).length = k := by
  induction k with
  | zero => rfl
  | succ k ih => simp [putBE, ih]

theorem foldBE (b : Bytes) (a : Nat) :
    b.foldl (fun a x => a * 256 + x.toNat) a = a * 256 ^ b.length + getBE b := by
  unfold getBE
  induction b generalizing a with
  | nil => simp
  | cons x b ih =>
    simp only [List.foldl_cons, List.length_cons]
    rw [ih, ih (0 * 256 + x.toNat), Nat.pow_succ]
    simp only [Nat.zero_mul, Nat.zero_add, Nat.add_mul]
    rw [Nat.mul_assoc, Nat.mul_comm 256]
    omega

theorem getBE_cons (x : UInt8) (b : Bytes) : getBE (x :: b) = x.toNat * 256 ^ b.length + getBE b := by
  have := foldBE b (0 * 256 + x.toNat)
  simpa [getBE] using this

theorem getBE_lt (b : Bytes) : getBE b < 256 ^ b.length := by
  induction b with
  | nil => simp [getBE]
  | cons x b ih =>
    rw [getBE_cons, List.length_cons, Nat.pow_succ]
    have : x.toNat < 256 := x.toNat_lt
    calc x.toNat * 256 ^ b.length + getBE b < x.toNat * 256 ^ b.length + 256 ^ b.length := by omega
      _ = (x.toNat + 1) * 256 ^ b.length := by rw [Nat.add_mul]; omega
      _ ≤ 256 * 256 ^ b.length := Nat.mul_le_mul_right _ (by omega)
      _ = 256 ^ b.length * 256 := Nat.mul_comm _ _

theorem getBE_putBE (k n : Nat) : getBE (putBE k n) = n % 256 ^ k := by
  induction k with
  | zero => simp [putBE, getBE, Nat.mod_one]
  | succ k ih =>
    rw [putBE, getBE_cons, putBE_length, ih]
    rw [show (UInt8.ofNat (n / 256 ^ k)).toNat = (n / 256 ^ k) % 256 by simp [UInt8.toNat_ofNat']]
    rw [Nat.pow_succ, Nat.mod_mul, Nat.mul_comm (256 ^ k)]
    omega

theorem getBE_putBE_lt (k n : Nat) (h : n < 256 ^ k) : getBE (putBE k n) = n := by
  rw [getBE_putBE, Nat.mod_eq_of_lt h]

theorem putBE_mod (k n m : Nat) : putBE k (n + m * 256 ^ k) = putBE k n := by
  induction k generalizing m with
  | zero => rfl
  | succ k ih =>
    rw [putBE, putBE]
    congr 1
    · rw [Nat.pow_succ, Nat.mul_comm (256 ^ k), ← Nat.mul_assoc, Nat.add_mul_div_right _ _ (Nat.pow_pos (by omega))]
      apply UInt8.toNat_inj.1
      simp
    · rw [Nat.pow_succ, Nat.mul_comm (256 ^ k), ← Nat.mul_assoc]; exact ih (m * 256)

theorem putBE_getBE (b : Bytes) : putBE b.length (getBE b) = b := by
  induction b with
  | nil => rfl
  | cons x b ih =>
    rw [List.length_cons, putBE, getBE_cons]
    congr 1
    · rw [Nat.mul_comm, Nat.mul_add_div (Nat.pow_pos (by omega)), Nat.div_eq_of_lt (getBE_lt b), Nat.add_zero]
      simp
    · rw [Nat.add_comm, putBE_mod, ih]

theorem getBE_inj (a b : Bytes) (hl : a.length = b.length) (h : getBE a = getBE b) : a = b := by
  rw [← putBE_getBE a, ← putBE_getBE b, hl, h]

/-! ### conversions -/

theorem toUnsigned_lt (bits : Nat) (i : Int) : toUnsigned bits i < 2 ^ bits := by
  unfold toUnsigned
  have h : (0 : Int) < (2 ^ bits : Nat) := by exact_mod_cast Nat.pow_pos (by omega)
  have := Int.emod_lt_of_pos i h
  have := Int.emod_nonneg i (Int.ne_of_gt h)
  omega

theorem toUnsigned_of_nonneg (bits : Nat) (i : Int) (h0 : 0 ≤ i) (h : i < (2 ^ bits : Nat)) :
    toUnsigned bits i = i.toNat := by
  unfold toUnsigned
  rw [Int.emod_eq_of_lt h0 h]

theorem toSigned_toUnsigned (bits : Nat) (hb : 0 < bits) (i : Int) (h : InRange bits i) :
    toSigned bits (toUnsigned bits i) = i := by
  obtain ⟨h1, h2⟩ := h
  have hp : 2 ^ bits = 2 * 2 ^ (bits - 1) := by
    rw [← Nat.pow_succ']; congr 1; omega
  unfold toSigned
  have hlt := toUnsigned_lt bits i
  rw [Nat.mod_eq_of_lt hlt]
  have hpos : 0 < 2 ^ (bits - 1) := Nat.pow_pos (by omega)
  by_cases hneg : i < 0
  · have : i % (2 ^ bits : Nat) = i + (2 ^ bits : Nat) := by
      rw [← Int.add_emod_right]; apply Int.emod_eq_of_lt <;> omega
    have hu : toUnsigned bits i = (i + (2 ^ bits : Nat)).toNat := by unfold toUnsigned; rw [this]
    split <;> omega
  · have hu := toUnsigned_of_nonneg bits i (by omega) (by omega)
    split <;> omega

end Verif
