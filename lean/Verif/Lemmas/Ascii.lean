import Verif.Server.Serve
import Verif.Spec.Wire
import Verif.Client.Meta
/-! Helper lemmas: the server reading ASCII request lines. -/

namespace Verif
open Srv

theorem readAscii_line (l rest : Bytes) (h : (10 : UInt8) ∉ l) :
    readAscii (l ++ 13 :: 10 :: rest) = asciiRequest (splitSp l) rest := by
  have e : l ++ 13 :: 10 :: rest = (l ++ [13]) ++ 10 :: rest := by simp
  have h' : (10 : UInt8) ∉ l ++ [13] := by simp [h]
  unfold readAscii
  rw [Rd.bind_apply, e, readBytes_line _ _ h']
  have : (l ++ [13]) ++ [10] = l ++ crlf := by simp [crlf]
  simp only [this, trimSuffix_append]

/-- A request line given as its words. -/
theorem readAscii_words (ws : List Bytes) (rest : Bytes) (hne : ws ≠ [])
    (h : ∀ w ∈ ws, Spec.Plain w) :
    readAscii (joinSp ws ++ 13 :: 10 :: rest) = asciiRequest ws rest := by
  rw [readAscii_line, splitSp_joinSp ws hne (fun w hw => (h w hw).1)]
  intro hm
  rcases mem_joinSp hm with h0 | ⟨k, hk, hk'⟩
  · exact absurd h0 (by decide)
  · exact (h k hk).2 hk'

theorem joinSp_words2 (a b : Bytes) : joinSp [a, b] = a ++ 32 :: b := rfl
theorem joinSp_words3 (a b c : Bytes) : joinSp [a, b, c] = a ++ 32 :: (b ++ 32 :: c) := rfl
theorem joinSp_words5 (a b c d e : Bytes) :
    joinSp [a, b, c, d, e] = a ++ 32 :: (b ++ 32 :: (c ++ 32 :: (d ++ 32 :: e))) := rfl

theorem readRequest_ascii (b : UInt8) (i : Bytes) (hb : b ≠ 0x80) (q : Option Protocol)
    (hq : q = none ∨ q = some .ascii) {req : Request} {rest : Bytes}
    (h : readAscii (b :: i) = (.ok req, rest)) :
    readRequest q (b :: i) = (.ok (.ascii, req), rest) := by
  have h0 : protoOf q (b :: i) = (.ok .ascii, b :: i) := by
    rcases hq with rfl | rfl
    · simp [protoOf, detect, hb]
    · rfl
  have h1 : readBody .ascii (b :: i) = (.ok req, rest) := h
  unfold readRequest
  rw [Rd.bind_of_ok h0, Rd.bind_of_ok h1]
  rfl

theorem readRequest_binary (i : Bytes) (q : Option Protocol)
    (hq : q = none ∨ q = some .binary) {req : Request} {rest : Bytes}
    (h : readBinary (0x80 :: i) = (.ok req, rest)) :
    readRequest q (0x80 :: i) = (.ok (.binary, req), rest) := by
  have h0 : protoOf q (0x80 :: i) = (.ok .binary, 0x80 :: i) := by
    rcases hq with rfl | rfl
    · simp [protoOf, detect]
    · rfl
  have h1 : readBody .binary (0x80 :: i) = (.ok req, rest) := h
  unfold readRequest
  rw [Rd.bind_of_ok h0, Rd.bind_of_ok h1]
  rfl

theorem intDec_no32 (i : Int) : (32 : UInt8) ∉ intDec i := intDec_no i 32 (by decide) (by decide)
theorem intDec_no10 (i : Int) : (10 : UInt8) ∉ intDec i := intDec_no i 10 (by decide) (by decide)
theorem natDec_no32 (i : Nat) : (32 : UInt8) ∉ natDec i := natDec_no i 32 (by decide)
theorem natDec_no10 (i : Nat) : (10 : UInt8) ∉ natDec i := natDec_no i 10 (by decide)

theorem intDec_plain (i : Int) : Spec.Plain (intDec i) := ⟨intDec_no32 i, intDec_no10 i⟩
theorem natDec_plain (i : Nat) : Spec.Plain (natDec i) := ⟨natDec_no32 i, natDec_no10 i⟩

theorem flagsNum_eq (f : Option Bytes) : Text.flagsNum f = getBE (Spec.flagBytes f) := by
  unfold Text.flagsNum Spec.flagBytes
  cases f with
  | none => rfl
  | some f => dsimp only; split <;> rfl

theorem flagBytes_length (f : Option Bytes) : (Spec.flagBytes f).length = 4 := by
  unfold Spec.flagBytes
  cases f with
  | none => rfl
  | some f => dsimp only; split <;> simp_all

theorem putBE_flags (f : Option Bytes) :
    putBE 4 (toUnsigned 32 (getBE (Spec.flagBytes f) : Int)) = Spec.flagBytes f := by
  have hl := getBE_lt (Spec.flagBytes f)
  rw [flagBytes_length] at hl
  rw [toUnsigned_of_nonneg _ _ (by omega) (by exact_mod_cast hl)]
  have := putBE_getBE (Spec.flagBytes f)
  rw [flagBytes_length] at this
  simpa using this

theorem sliceTo_append (v t : Bytes) : sliceTo (v ++ t) (v.length : Int) = .ok v := by
  have : (v.length : Int) ≤ ((v ++ t).length : Nat) := by simp; omega
  simp only [sliceTo, this, and_true]
  simp

theorem le_maxAlloc {n : Nat} (h : n < 2 ^ 31) : n + 2 ≤ maxAlloc := by
  have : maxAlloc = 281474976710656 := by unfold maxAlloc; decide
  rw [this]
  have : (2 : Nat) ^ 31 = 2147483648 := by decide
  omega

theorem readStore_five (op : UInt8) (cmd key sf se sl : Bytes) :
    readStore op [cmd, key, sf, se, sl] = (do
      let f ← Rd.lift (numRes (parseInt sf 32))
      let e ← Rd.lift (numRes (parseInt se 32))
      let n ← Rd.lift (numRes (parseInt sl 32))
      let buf ← readN (n + 2)
      let v ← Rd.lift (sliceTo buf n)
      pure { opcode := op, key := key, flags := some (putBE 4 (toUnsigned 32 f)), value := v,
             setOpt := some { expiration := e } }) := rfl

/-- The common part of set/add/replace: the data block after the request line. -/
theorem readStore_ok (op : UInt8) (cmd key value rest : Bytes) (flags : Option Bytes) (exp : Int)
    (hf : Spec.Flags31 (Spec.flagBytes flags)) (he : InRange 32 exp) (hv : value.length < 2 ^ 31) :
    readStore op [cmd, key, natDec (Text.flagsNum flags), intDec exp, natDec value.length]
        (value ++ 13 :: 10 :: rest)
      = (.ok { opcode := op, key := key, flags := some (Spec.flagBytes flags), value := value,
               setOpt := some { expiration := exp } }, rest) := by
  rw [readStore_five]
  have h1 : parseInt (natDec (Text.flagsNum flags)) 32 = some (Text.flagsNum flags : Int) :=
    parseInt_natDec _ 32 (by rw [flagsNum_eq]; exact hf) (by omega)
  have h2 := parseInt_intDec exp 32 he (by omega)
  have h3 := parseInt_natDec value.length 32 hv (by omega)
  have h4 : readN ((value.length : Int) + 2) (value ++ 13 :: 10 :: rest)
      = (.ok (value ++ [13, 10]), rest) := by
    have := readN_append ((value.length : Int) + 2) (value ++ [13, 10]) rest (by simp)
      (by have := le_maxAlloc hv; simpa using this)
    simpa using this
  have h5 := sliceTo_append value [13, 10]
  have h6 := putBE_flags flags
  rw [← flagsNum_eq] at h6
  rw [h1, h2, h3]
  refine (Rd.bind_of_ok (Rd.lift_apply _ _)).trans ?_
  refine (Rd.bind_of_ok (Rd.lift_apply _ _)).trans ?_
  refine (Rd.bind_of_ok (Rd.lift_apply _ _)).trans ?_
  refine (Rd.bind_of_ok h4).trans ?_
  rw [h5, h6]
  rfl

end Verif
